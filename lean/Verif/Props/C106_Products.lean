import Verif.Props.C105_RoundTrips
import Mathlib.Analysis.CStarAlgebra.Matrix

/-! # C106 - products of any number of matrices in IEEE arithmetic, in whatever way they are bracketed

`A * (B * (C * v))`, `(A * B) * (C * v)` and `((A * B) * C) * v` round differently. All of them are near the exact product:
the error is a multiple of the number of factors, of the unit of rounding and of the product of the norms of the factors. The norm of a matrix is
Mathlib's operator norm for the Euclidean length: the largest factor by which it stretches a vector. It is one for a rotation. -/

namespace Cgl
open Ieee FloatFns Mat Spec Rounding Matrix
open scoped Matrix.Norms.L2Operator

variable {φ : Format} {n : ℕ}

namespace Spec

/-- the Euclidean length -/
noncomputable def vecNorm (x : Fin n → ℝ) : ℝ := Real.sqrt (∑ i, x i ^ 2)

/-- a product of matrices with all of its brackets; every factor comes with a bound of its norm -/
inductive Bracketed (φ : Format) (n : ℕ) where
  | factor (A : Mat (Ieee φ) n n) (N : ℝ)
  | times (l r : Bracketed φ n)

namespace Bracketed

/-- the factors, from left to right -/
def factors : Bracketed φ n → List (Mat (Ieee φ) n n × ℝ)
  | factor A N => [(A, N)]
  | times l r => l.factors ++ r.factors

/-- what the program computes: every pair of brackets is one call of the product of two matrices -/
noncomputable def computed : Bracketed φ n → Mat (Ieee φ) n n
  | factor A _ => A
  | times l r => l.computed * r.computed

/-- composing the transformations with these matrices -/
noncomputable def transform : Bracketed φ (n + 1) → Transform (Ieee φ) n
  | factor A _ => ⟨A⟩
  | times l r => l.transform * r.transform

/-- the product of the bounds -/
noncomputable def size : Bracketed φ n → ℝ
  | factor _ N => N
  | times l r => l.size * r.size

/-- the products of the bounds in every pair of brackets are between `lo` and `hi` -/
def InRange (lo hi : ℝ) : Bracketed φ n → Prop
  | factor _ N => lo ≤ N ∧ N ≤ hi
  | times l r => l.InRange lo hi ∧ r.InRange lo hi ∧ lo ≤ l.size * r.size ∧ l.size * r.size ≤ hi

end Bracketed

/-- a matrix of finite numbers -/
def FiniteEntries (A : Mat (Ieee φ) n n) : Prop := ∀ c r, (A.data c r).Finite

/-- the factors are matrices of finite numbers with the norms they are said to have -/
def ProperFactors (l : List (Mat (Ieee φ) n n × ℝ)) : Prop := ∀ p ∈ l, FiniteEntries p.1 ∧ ‖exactly p.1‖ ≤ p.2

/-- the bounds of the norms of the products, applied from right to left to a vector of the size `X`, are between `lo` and `hi` -/
def Passes (lo hi X : ℝ) : List (Bracketed φ n) → Prop
  | [] => lo ≤ X ∧ X ≤ hi
  | t :: ts => t.InRange lo hi ∧ Passes lo hi X ts ∧ lo ≤ ((t :: ts).map Bracketed.size).prod * X ∧ ((t :: ts).map Bracketed.size).prod * X ≤ hi

/-- the exact product -/
noncomputable def exactProduct (l : List (Mat (Ieee φ) n n × ℝ)) : Matrix (Fin n) (Fin n) ℝ := (l.map fun p => exactly p.1).prod

/-- the product of the bounds of the norms -/
noncomputable def bound (l : List (Mat (Ieee φ) n n × ℝ)) : ℝ := (l.map Prod.snd).prod

/-- all factors, from left to right -/
def allFactors (ts : List (Bracketed φ n)) : List (Mat (Ieee φ) n n × ℝ) := ts.flatMap Bracketed.factors

/-- the products applied to a vector, one after the other, the last one first -/
noncomputable def applyAll (ts : List (Bracketed φ n)) (v : Vec (Ieee φ) n) : Vec (Ieee φ) n := ts.foldr (fun t w => t.computed * w) v

/-- the transformations applied to a point, one after the other, the last one first -/
noncomputable def moveAll (ts : List (Bracketed φ (n + 1))) (p : Pt (Ieee φ) n) : Res (Pt (Ieee φ) n) :=
  ts.foldr (fun t q => q.bind t.transform.applyPoint) (.ok p)

end Spec

/-! ### norms -/

theorem vecNorm_eq (x : Fin n → ℝ) : vecNorm x = ‖WithLp.toLp 2 x‖ := by
  rw [vecNorm, EuclideanSpace.norm_eq]; simp

theorem vecNorm_nonneg (x : Fin n → ℝ) : 0 ≤ vecNorm x := Real.sqrt_nonneg _

theorem vecNorm_mulVec (A : Matrix (Fin n) (Fin n) ℝ) (x : Fin n → ℝ) : vecNorm (A *ᵥ x) ≤ ‖A‖ * vecNorm x := by
  rw [vecNorm_eq, vecNorm_eq]; exact A.l2_opNorm_mulVec (WithLp.toLp 2 x)

theorem vecNorm_add (x y : Fin n → ℝ) : vecNorm (x + y) ≤ vecNorm x + vecNorm y := by
  simp only [vecNorm_eq, WithLp.toLp_add]; exact norm_add_le _ _

theorem vecNorm_le {x : Fin n → ℝ} {e : ℝ} (he : 0 ≤ e) (h : ∀ i, |x i| ≤ e) : vecNorm x ≤ Real.sqrt n * e := by
  rw [vecNorm]
  refine Real.sqrt_le_iff.mpr ⟨by positivity, ?_⟩
  have h1 : ∑ i, x i ^ 2 ≤ ∑ _i : Fin n, e ^ 2 := Finset.sum_le_sum fun i _ => sq_le_sq' (abs_le.mp (h i)).1 (abs_le.mp (h i)).2
  rw [Finset.sum_const, Finset.card_univ, Fintype.card_fin, nsmul_eq_mul] at h1
  rwa [mul_pow, Real.sq_sqrt (Nat.cast_nonneg n)]

theorem column_norm_le (A : Matrix (Fin n) (Fin n) ℝ) (c : Fin n) : vecNorm (fun i => A i c) ≤ ‖A‖ := by
  have h := vecNorm_mulVec A (Pi.single c 1)
  have e1 : A *ᵥ Pi.single c 1 = fun i => A i c := by rw [Matrix.mulVec_single_one]; rfl
  have e2 : vecNorm (Pi.single c 1 : Fin n → ℝ) = 1 := by
    rw [vecNorm, Finset.sum_eq_single c]
    · simp
    · intro b _ hb; rw [Pi.single_eq_of_ne hb]; norm_num
    · simp
  rwa [e1, e2, _root_.mul_one] at h

theorem row_norm_le (A : Matrix (Fin n) (Fin n) ℝ) (r : Fin n) : vecNorm (fun i => A r i) ≤ ‖A‖ := by
  rw [← Matrix.l2_opNorm_conjTranspose A]
  exact column_norm_le Aᴴ r

theorem sum_le_vecNorm (x y : Fin n → ℝ) : ∑ i, |x i * y i| ≤ vecNorm x * vecNorm y := by
  have h := Real.sum_mul_le_sqrt_mul_sqrt Finset.univ (fun i => |x i|) (fun i => |y i|)
  simp only [sq_abs] at h
  simp only [abs_mul]; exact h

theorem norm_le_of_all {E : Matrix (Fin n) (Fin n) ℝ} {e : ℝ} (he : 0 ≤ e) (h : ∀ r c, |E r c| ≤ e) : ‖E‖ ≤ n * e := by
  rw [Matrix.l2_opNorm_def]
  refine ContinuousLinearMap.opNorm_le_bound _ (by positivity) fun x => ?_
  have h1 : ∀ r, |(E *ᵥ x.ofLp) r| ≤ Real.sqrt n * e * ‖x‖ := by
    intro r
    have h2 := (Finset.abs_sum_le_sum_abs (fun i => E r i * x.ofLp i) Finset.univ).trans (sum_le_vecNorm (fun i => E r i) x.ofLp)
    have h3 := vecNorm_le he (h r)
    have h4 : vecNorm x.ofLp = ‖x‖ := by rw [vecNorm_eq]
    rw [h4] at h2
    exact h2.trans (mul_le_mul_of_nonneg_right h3 (norm_nonneg _))
  have h2 := vecNorm_le (by positivity) h1
  rw [vecNorm_eq] at h2
  refine le_trans ?_ (h2.trans_eq ?_)
  swap
  · have := Real.mul_self_sqrt (Nat.cast_nonneg (α := ℝ) n)
    linear_combination (e * ‖x‖) * this
  exact le_of_eq rfl

/-! ### one product -/

/-- the dot product of a loop, of any length -/
theorem dot_loop_sum (hu : φ.u ≤ 1 / 1000000) (hn : 5 * n * φ.u ≤ 1 / 100) {a : ℝ} (h1 : Fits φ a) {f g : Fin n → Ieee φ}
    (hf : ∀ i, (f i).Finite) (hg : ∀ i, (g i).Finite) (hb : ∑ i, |(f i).val * (g i).val| ≤ a) :
    (forRange n 0 fun i result => result + f i * g i).Finite ∧
      |(forRange n 0 fun i result => result + f i * g i).val - ∑ i, (f i).val * (g i).val| ≤ 5 * n * φ.u * a := by
  have hu0 := φ.u_nonneg
  have hp := h1.pos
  have hua : φ.u * a ≤ 1 / 1000000 * a := mul_le_mul_of_nonneg_right hu hp.le
  have hua0 : 0 ≤ φ.u * a := by positivity
  have hb1 : ∀ i, |(f i).val * (g i).val| ≤ a := fun i =>
    (Finset.single_le_sum (f := fun i => |(f i).val * (g i).val|) (fun i _ => abs_nonneg _) (Finset.mem_univ i)).trans hb
  have key : ∃ hn : n ≤ n, (forRange n 0 fun i result => result + f i * g i).Finite ∧
      |(forRange n 0 fun i result => result + f i * g i).val -
        ∑ j : Fin n, (f ⟨j, lt_of_lt_of_le j.2 hn⟩).val * (g ⟨j, lt_of_lt_of_le j.2 hn⟩).val| ≤ n * (5 * φ.u * a) := by
    refine forRange_induction (P := fun i (x : Ieee φ) => ∃ hi : i ≤ n, x.Finite ∧
      |x.val - ∑ j : Fin i, (f ⟨j, lt_of_lt_of_le j.2 hi⟩).val * (g ⟨j, lt_of_lt_of_le j.2 hi⟩).val| ≤ i * (5 * φ.u * a)) ?_ ?_
    · exact ⟨Nat.zero_le _, finite_zero, by simp [show (0 : Ieee φ).val = 0 from rfl]⟩
    · rintro i x ⟨hi, hx, he⟩
      refine ⟨i.2, ?_⟩
      have e : (∑ j : Fin ((i : ℕ) + 1), (f ⟨j, lt_of_lt_of_le j.2 i.2⟩).val * (g ⟨j, lt_of_lt_of_le j.2 i.2⟩).val) =
          (∑ j : Fin (i : ℕ), (f ⟨j, lt_of_lt_of_le j.2 hi⟩).val * (g ⟨j, lt_of_lt_of_le j.2 hi⟩).val) + (f i).val * (g i).val := by
        rw [Fin.sum_univ_castSucc]; rfl
      have hpart : |∑ j : Fin ((i : ℕ) + 1), (f ⟨j, lt_of_lt_of_le j.2 i.2⟩).val * (g ⟨j, lt_of_lt_of_le j.2 i.2⟩).val| ≤ a := by
        refine (Finset.abs_sum_le_sum_abs _ _).trans (le_trans ?_ hb)
        have := Finset.sum_le_sum_of_subset_of_nonneg (f := fun i => |(f i).val * (g i).val|)
          (Finset.subset_univ ((Finset.univ : Finset (Fin ((i : ℕ) + 1))).map (Fin.castLEEmb i.2))) (fun i _ _ => abs_nonneg _)
        rw [Finset.sum_map] at this
        exact this
      rw [e] at hpart ⊢
      set s := ∑ j : Fin (i : ℕ), (f ⟨j, lt_of_lt_of_le j.2 hi⟩).val * (g ⟨j, lt_of_lt_of_le j.2 hi⟩).val
      have hi4 : ((i : ℕ) : ℝ) ≤ n := by exact_mod_cast hi
      have hi0 : (0 : ℝ) ≤ ((i : ℕ) : ℝ) := Nat.cast_nonneg _
      have b := hb1 i
      obtain ⟨r1, r2⟩ := h1.round hu (z := (f i).val * (g i).val) (by linarith)
      have m1 := finite_mul_of (hf i) (hg i) r1
      have m2 := val_mul m1
      rw [← m2] at r2
      have c1 := abs_le.mp hpart
      have c2 := abs_le.mp he
      have c3 := abs_le.mp r2
      have q2 : ((i : ℕ) : ℝ) * (5 * φ.u * a) ≤ n * (5 * φ.u * a) := mul_le_mul_of_nonneg_right hi4 (by linarith)
      have q3 : n * (5 * φ.u * a) ≤ 1 / 100 * a := by
        have := mul_le_mul_of_nonneg_right hn hp.le; linarith
      obtain ⟨s1, s2⟩ := h1.round hu (z := x.val + (f i * g i).val) (by rw [abs_le]; constructor <;> linarith)
      have a1 := finite_add_of hx m1 s1
      refine ⟨a1, ?_⟩
      rw [val_add a1]
      have c5 := abs_le.mp s2
      push_cast
      rw [abs_le]; constructor <;> linarith
  obtain ⟨_, k1, k2⟩ := key
  exact ⟨k1, k2.trans (le_of_eq (by ring))⟩

theorem product_entry {A B : Mat (Ieee φ) n n} (c r : Fin n) :
    (A * B).data c r = forRange n 0 fun i result => result + A.data i r * B.data c i := by
  rw [mul_entry]; rfl

/-- the unit of the error of a product -/
noncomputable def Spec.step (φ : Format) (n : ℕ) : ℝ := 5 * n ^ 2 * φ.u

section One
variable (hu : φ.u ≤ 1 / 1000000) (hn : 5 * n * φ.u ≤ 1 / 100)
include hu hn

theorem matrix_product_near {A B : Mat (Ieee φ) n n} (hA : FiniteEntries A) (hB : FiniteEntries B) {a : ℝ} (h1 : Fits φ a) (h : ‖exactly A‖ * ‖exactly B‖ ≤ a) :
    FiniteEntries (A * B) ∧ ‖exactly (A * B) - exactly A * exactly B‖ ≤ Spec.step φ n * a := by
  have key : ∀ c r, ((A * B).data c r).Finite ∧ |((A * B).data c r).val - ∑ i, (A.data i r).val * (B.data c i).val| ≤ 5 * n * φ.u * a := by
    intro c r
    rw [product_entry]
    refine dot_loop_sum hu hn h1 (fun i => hA i r) (fun i => hB c i) (le_trans ?_ h)
    refine (sum_le_vecNorm (fun i => exactly A r i) (fun i => exactly B i c)).trans ?_
    exact mul_le_mul (row_norm_le _ _) (column_norm_le _ _) (vecNorm_nonneg _) (norm_nonneg _)
  refine ⟨fun c r => (key c r).1, ?_⟩
  have hu0 := φ.u_nonneg
  have hp := h1.pos
  refine (norm_le_of_all (e := 5 * n * φ.u * a) (by positivity) fun r c => (key c r).2).trans (le_of_eq ?_)
  rw [Spec.step]; ring

theorem image_near {A : Mat (Ieee φ) n n} {v : Vec (Ieee φ) n} (hA : FiniteEntries A) (hv : ∀ i, (v.data i).Finite) {a : ℝ} (h1 : Fits φ a)
    (h : ‖exactly A‖ * vecNorm (values v) ≤ a) :
    (∀ i, ((A * v).data i).Finite) ∧ vecNorm (values (A * v) - exactly A *ᵥ values v) ≤ Spec.step φ n * a := by
  have key : ∀ r, ((A * v).data r).Finite ∧ |((A * v).data r).val - ∑ i, (A.data i r).val * (v.data i).val| ≤ 5 * n * φ.u * a := by
    intro r
    rw [mulVec_data_op]
    refine dot_loop_sum hu hn h1 (fun i => hA i r) (fun i => hv i) (le_trans ?_ h)
    refine (sum_le_vecNorm (fun i => exactly A r i) (values v)).trans ?_
    exact mul_le_mul_of_nonneg_right (row_norm_le _ _) (vecNorm_nonneg _)
  refine ⟨fun r => (key r).1, ?_⟩
  have hu0 := φ.u_nonneg
  have hp := h1.pos
  refine (vecNorm_le (e := 5 * n * φ.u * a) (by positivity) fun r => (key r).2).trans ?_
  rw [Spec.step]
  have h1 : Real.sqrt n ≤ n := by
    rcases Nat.eq_zero_or_pos n with h | h
    · simp [h]
    · rw [Real.sqrt_le_iff]
      have : (1 : ℝ) ≤ n := by exact_mod_cast h
      exact ⟨by linarith, by nlinarith⟩
  calc Real.sqrt n * (5 * n * φ.u * a) ≤ n * (5 * n * φ.u * a) := mul_le_mul_of_nonneg_right h1 (by positivity)
    _ = _ := by ring

end One

/-! ### many products -/

theorem growth {x : ℝ} (hx : 0 ≤ x) {k : ℕ} (h : k * x ≤ 1 / 2) : (1 + x) ^ k ≤ 1 + 2 * k * x := by
  induction k with
  | zero => simp
  | succ k ih =>
    push_cast at h ⊢
    have h1 : k * x ≤ 1 / 2 := by linarith
    have h2 := mul_le_mul_of_nonneg_right (ih h1) (by linarith : 0 ≤ 1 + x)
    rw [pow_succ]
    have h3 : k * x * x ≤ 1 / 2 * x := mul_le_mul_of_nonneg_right h1 hx
    nlinarith

theorem growth_le {x : ℝ} (hx : 0 ≤ x) {k m : ℕ} (h : k * x ≤ 1 / 2) (hm : m ≤ k) : 1 ≤ (1 + x) ^ m ∧ (1 + x) ^ m ≤ 2 := by
  refine ⟨one_le_pow₀ (by linarith), ?_⟩
  have := growth hx h
  have h1 : (1 + x) ^ m ≤ (1 + x) ^ k := pow_le_pow_right₀ (by linarith) hm
  linarith

theorem Spec.step_nonneg : 0 ≤ Spec.step φ n := by
  have := φ.u_nonneg
  rw [Spec.step]; positivity

theorem factors_pos (t : Bracketed φ n) : 1 ≤ t.factors.length := by
  induction t with
  | factor A N => simp [Bracketed.factors]
  | times l r h1 h2 => simp only [Bracketed.factors, List.length_append]; omega

theorem range_size {lo hi : ℝ} {t : Bracketed φ n} (h : t.InRange lo hi) : lo ≤ t.size ∧ t.size ≤ hi := by
  cases t with
  | factor A N => exact h
  | times l r => exact h.2.2

theorem exactProduct_append (l m : List (Mat (Ieee φ) n n × ℝ)) : exactProduct (l ++ m) = exactProduct l * exactProduct m := by
  simp [exactProduct]

section Many
variable (hu : φ.u ≤ 1 / 1000000) (hn : 5 * n * φ.u ≤ 1 / 100) {lo hi : ℝ} (hlo : 0 < lo) (hfits : ∀ a, lo ≤ a → a ≤ 2 * hi → Fits φ a)
include hu hn hlo hfits

theorem bracketed_near (t : Bracketed φ n) (hr : t.InRange lo hi) (hf : ProperFactors t.factors) (hk : t.factors.length * Spec.step φ n ≤ 1 / 2) :
    FiniteEntries t.computed ∧ ‖exactly t.computed - exactProduct t.factors‖ ≤ ((1 + Spec.step φ n) ^ (t.factors.length - 1) - 1) * t.size ∧
      ‖exactProduct t.factors‖ ≤ t.size := by
  have hx : 0 ≤ Spec.step φ n := Spec.step_nonneg
  induction t with
  | factor A N =>
    obtain ⟨h1, h2⟩ := hf (A, N) (by simp [Bracketed.factors])
    refine ⟨h1, ?_, ?_⟩
    · simp [Bracketed.factors, Bracketed.computed, exactProduct]
    · simpa [Bracketed.factors, Bracketed.size, exactProduct] using h2
  | times l r ihl ihr =>
    obtain ⟨hrl, hrr, h1, h2⟩ := hr
    have el : (Bracketed.times l r).factors = l.factors ++ r.factors := rfl
    rw [el, List.length_append] at hk
    have hl0 := factors_pos l
    have hr0 := factors_pos r
    rw [el] at hf
    obtain ⟨fl, nl, sl⟩ := ihl hrl (fun p hp => hf p (List.mem_append_left _ hp)) (le_trans (by gcongr; omega) hk)
    obtain ⟨fr, nr, sr⟩ := ihr hrr (fun p hp => hf p (List.mem_append_right _ hp)) (le_trans (by gcongr; omega) hk)
    have hPl : 0 < l.size := lt_of_lt_of_le hlo (range_size hrl).1
    have hPr : 0 < r.size := lt_of_lt_of_le hlo (range_size hrr).1
    rw [el, exactProduct_append, List.length_append]
    show FiniteEntries (l.computed * r.computed) ∧ ‖exactly (l.computed * r.computed) - _‖ ≤ _ * (l.size * r.size) ∧ _ ≤ l.size * r.size
    have ePow : (1 + Spec.step φ n) ^ (l.factors.length + r.factors.length - 1) =
        (1 + Spec.step φ n) ^ (l.factors.length - 1) * (1 + Spec.step φ n) ^ (r.factors.length - 1) * (1 + Spec.step φ n) := by
      rw [← pow_add, ← pow_succ]; congr 1; omega
    have g1 := (growth_le hx hk (m := l.factors.length - 1) (by omega)).1
    have g2 := (growth_le hx hk (m := r.factors.length - 1) (by omega)).1
    have g3 := (growth_le hx hk (m := (l.factors.length - 1) + (r.factors.length - 1)) (by omega)).2
    rw [pow_add] at g3
    rw [ePow]
    set x := Spec.step φ n
    set G := (1 + x) ^ (l.factors.length - 1)
    set H := (1 + x) ^ (r.factors.length - 1)
    set A := exactProduct l.factors
    set B := exactProduct r.factors
    set A' := exactly l.computed with hA'
    set B' := exactly r.computed with hB'
    have n1 : ‖A'‖ ≤ G * l.size := by
      have := norm_add_le (A' - A) A
      rw [sub_add_cancel] at this; linarith
    have n2 : ‖B'‖ ≤ H * r.size := by
      have := norm_add_le (B' - B) B
      rw [sub_add_cancel] at this; linarith
    have hP : 0 < l.size * r.size := mul_pos hPl hPr
    have hGH : 1 ≤ G * H := one_le_mul_of_one_le_of_one_le g1 g2
    have k1 : Fits φ (G * H * (l.size * r.size)) := by
      refine hfits _ (h1.trans (le_mul_of_one_le_left hP.le hGH)) ?_
      calc G * H * (l.size * r.size) ≤ 2 * (l.size * r.size) := mul_le_mul_of_nonneg_right g3 hP.le
        _ ≤ 2 * hi := by linarith
    obtain ⟨k2, k3⟩ := matrix_product_near hu hn fl fr k1 (by
      calc ‖A'‖ * ‖B'‖ ≤ (G * l.size) * (H * r.size) := mul_le_mul n1 n2 (norm_nonneg _) (by positivity)
        _ = _ := by ring)
    refine ⟨k2, ?_, (Matrix.l2_opNorm_mul A B).trans (mul_le_mul sl sr (norm_nonneg _) hPl.le)⟩
    have e : exactly (l.computed * r.computed) - A * B =
        (exactly (l.computed * r.computed) - A' * B') + ((A' - A) * B' + A * (B' - B)) := by
      rw [Matrix.sub_mul, Matrix.mul_sub]; abel
    rw [e]
    refine (norm_add_le _ _).trans ?_
    have k4 := norm_add_le ((A' - A) * B') (A * (B' - B))
    have k5 := (Matrix.l2_opNorm_mul (A' - A) B').trans (mul_le_mul nl n2 (norm_nonneg _) (mul_nonneg (by linarith) hPl.le))
    have k6 := (Matrix.l2_opNorm_mul A (B' - B)).trans (mul_le_mul sl nr (norm_nonneg _) hPl.le)
    calc _ ≤ x * (G * H * (l.size * r.size)) + ((G - 1) * l.size * (H * r.size) + l.size * ((H - 1) * r.size)) := by linarith
      _ = _ := by ring

/-- one more matrix applied to a vector that is near its exact value -/
theorem applied_near {A : Mat (Ieee φ) n n} {E : Matrix (Fin n) (Fin n) ℝ} {w : Vec (Ieee φ) n} {y : Fin n → ℝ} {G H P Z : ℝ} (hA : FiniteEntries A)
    (hG : 1 ≤ G) (hH : 1 ≤ H) (hP : 0 < P) (hZ : 0 < Z) (nA : ‖exactly A - E‖ ≤ (G - 1) * P) (sA : ‖E‖ ≤ P) (hw : ∀ i, (w.data i).Finite)
    (nw : vecNorm (values w - y) ≤ (H - 1) * Z) (sw : vecNorm y ≤ Z) (h1 : lo ≤ P * Z) (h2 : P * Z ≤ hi) (h3 : G * H ≤ 2) :
    (∀ i, ((A * w).data i).Finite) ∧ vecNorm (values (A * w) - E *ᵥ y) ≤ (G * H * (1 + Spec.step φ n) - 1) * (P * Z) ∧ vecNorm (E *ᵥ y) ≤ P * Z := by
  have n1 : ‖exactly A‖ ≤ G * P := by
    have := norm_add_le (exactly A - E) E
    rw [sub_add_cancel] at this; linarith
  have n2 : vecNorm (values w) ≤ H * Z := by
    have := vecNorm_add (values w - y) y
    rw [sub_add_cancel] at this; linarith
  have hPZ : 0 < P * Z := mul_pos hP hZ
  have k1 : Fits φ (G * H * (P * Z)) := by
    refine hfits _ (h1.trans (le_mul_of_one_le_left hPZ.le (one_le_mul_of_one_le_of_one_le hG hH))) ?_
    calc G * H * (P * Z) ≤ 2 * (P * Z) := mul_le_mul_of_nonneg_right h3 hPZ.le
      _ ≤ 2 * hi := by linarith
  obtain ⟨k2, k3⟩ := image_near hu hn hA hw k1 (by
    calc _ ≤ (G * P) * (H * Z) := mul_le_mul n1 n2 (vecNorm_nonneg _) (by positivity)
      _ = _ := by ring)
  refine ⟨k2, ?_, (vecNorm_mulVec _ _).trans (mul_le_mul sA sw (vecNorm_nonneg _) hP.le)⟩
  have e : values (A * w) - E *ᵥ y = (values (A * w) - exactly A *ᵥ values w) + ((exactly A - E) *ᵥ values w + E *ᵥ (values w - y)) := by
    rw [Matrix.sub_mulVec, Matrix.mulVec_sub]; abel
  rw [e]
  refine (vecNorm_add _ _).trans ?_
  have k4 := vecNorm_add ((exactly A - E) *ᵥ values w) (E *ᵥ (values w - y))
  have k5 := (vecNorm_mulVec (exactly A - E) (values w)).trans (mul_le_mul nA n2 (vecNorm_nonneg _) (mul_nonneg (by linarith) hP.le))
  have k6 := (vecNorm_mulVec E (values w - y)).trans (mul_le_mul sA nw (vecNorm_nonneg _) hP.le)
  calc _ ≤ Spec.step φ n * (G * H * (P * Z)) + ((G - 1) * P * (H * Z) + P * ((H - 1) * Z)) := by linarith
    _ = _ := by ring

theorem chain_near (ts : List (Bracketed φ n)) {X : ℝ} {v : Vec (Ieee φ) n} (hv : ∀ i, (v.data i).Finite) (hX : vecNorm (values v) ≤ X)
    (hp : Passes lo hi X ts) (hf : ProperFactors (allFactors ts)) (hk : (allFactors ts).length * Spec.step φ n ≤ 1 / 2) :
    (∀ i, ((applyAll ts v).data i).Finite) ∧ vecNorm (values (applyAll ts v) - exactProduct (allFactors ts) *ᵥ values v) ≤
      ((1 + Spec.step φ n) ^ (allFactors ts).length - 1) * ((ts.map Bracketed.size).prod * X) ∧
      vecNorm (exactProduct (allFactors ts) *ᵥ values v) ≤ (ts.map Bracketed.size).prod * X := by
  have hx : 0 ≤ Spec.step φ n := Spec.step_nonneg
  induction ts with
  | nil =>
    refine ⟨hv, ?_, ?_⟩
    · simp [applyAll, allFactors, exactProduct, vecNorm]
    · simpa [allFactors, exactProduct] using hX
  | cons t ts ih =>
    have el : allFactors (t :: ts) = t.factors ++ allFactors ts := rfl
    rw [el, List.length_append] at hk ⊢
    rw [el] at hf
    obtain ⟨h1, h2, h3, h4⟩ := hp
    have c1 : (t.factors.length : ℝ) * Spec.step φ n ≤ 1 / 2 := le_trans (by gcongr; omega) hk
    have c2 : ((allFactors ts).length : ℝ) * Spec.step φ n ≤ 1 / 2 := le_trans (by gcongr; omega) hk
    obtain ⟨t1, t2, t3⟩ := bracketed_near hu hn hlo hfits t h1 (fun p hp => hf p (List.mem_append_left _ hp)) c1
    obtain ⟨w1, w2, w3⟩ := ih h2 (fun p hp => hf p (List.mem_append_right _ hp)) c2
    have t0 := factors_pos t
    have hP : 0 < t.size := lt_of_lt_of_le hlo (range_size h1).1
    rw [List.map_cons, List.prod_cons, mul_assoc] at h3 h4 ⊢
    have hPZ : 0 < t.size * ((ts.map Bracketed.size).prod * X) := lt_of_lt_of_le hlo h3
    have hZ : 0 < (ts.map Bracketed.size).prod * X := pos_of_mul_pos_right hPZ hP.le
    have k := applied_near hu hn hlo hfits t1 (growth_le hx hk (m := t.factors.length - 1) (by omega)).1
      (growth_le hx hk (m := (allFactors ts).length) (by omega)).1 hP hZ t2 t3 w1 w2 w3 h3 h4
      (by rw [← pow_add]; exact (growth_le hx hk (by omega)).2)
    rw [← pow_add, ← pow_succ, Matrix.mulVec_mulVec, ← exactProduct_append,
      show t.factors.length - 1 + (allFactors ts).length + 1 = t.factors.length + (allFactors ts).length by omega] at k
    exact k

end Many

/-! ### transformations -/

theorem transform_eq (t : Bracketed φ (n + 1)) : t.transform = ⟨t.computed⟩ := by
  induction t with
  | factor A N => rfl
  | times l r h1 h2 => show l.transform * r.transform = _; rw [h1, h2]; rfl

theorem one_times {x y : Ieee φ} (hx : x.Finite) (h : x.val = 1) (hy : y.Finite) : (x * y).Finite ∧ (x * y).val = y.val := by
  have e : φ.fl (x.val * y.val) = y.val := by rw [h, _root_.one_mul, val_rep]
  have hf := finite_mul_of hx hy (by rw [e]; exact abs_val_le_big y)
  exact ⟨hf, by rw [val_mul hf, e]⟩

/-- the bottom row of a product -/
theorem affine_product {A B : Mat (Ieee φ) (n + 1) (n + 1)} (hA : FiniteEntries A) (hB : FiniteEntries B) (h1 : AffineMatrix A) (h2 : AffineMatrix B) :
    AffineMatrix (A * B) := by
  have key : ∀ c, ((A * B).data c (Fin.last n)).val = (B.data c (Fin.last n)).val := by
    intro c
    have k := one_times (hA (Fin.last n) (Fin.last n)) h1.corner (hB c (Fin.last n))
    have l := last_component (A := A) (v := ⟨B.data c⟩) (fun c => hA c _) h1.bottom (fun i => hB c i) k.1
    rw [mulVec_data_op] at l
    rw [product_entry]
    exact l.2.trans k.2
  exact ⟨fun c => (key _).trans (h2.bottom c), (key _).trans h2.corner⟩

/-- the coordinates of a point after an affine transformation are those of the product of the matrix and its homogeneous coordinates -/
theorem apply_point_values {A : Mat (Ieee φ) (n + 1) (n + 1)} {p : Pt (Ieee φ) n} (hA : FiniteEntries A) (h1 : AffineMatrix A)
    (hp : ∀ i, (p.toHomogeneous.data i).Finite) (hf : ∀ i, ((A * p.toHomogeneous).data i).Finite) :
    ∃ q, (Transform.mk A).applyPoint p = .ok q ∧ (∀ i, (q.toHomogeneous.data i).Finite) ∧ values q.toHomogeneous = values (A * p.toHomogeneous) := by
  have e1 : p.toHomogeneous.data (Fin.last n) = 1 := Vec.extend_last _ _
  have l := last_component (fun c => hA c _) h1.bottom hp (by rw [e1, Homogeneous.mul_one]; exact hA _ _)
  rw [e1, Homogeneous.mul_one, h1.corner] at l
  have hq := apply_point_eq (t := ⟨A⟩) l.1 (by show ((A * p.toHomogeneous).data (Fin.last n)).val ≠ 0; rw [l.2]; exact one_ne_zero)
  have hqv : ∀ i : Fin n, ((A * p.toHomogeneous).data i.castSucc / (A * p.toHomogeneous).data (Fin.last n)).Finite ∧
      ((A * p.toHomogeneous).data i.castSucc / (A * p.toHomogeneous).data (Fin.last n)).val = ((A * p.toHomogeneous).data i.castSucc).val := by
    intro i
    have e : φ.fl (((A * p.toHomogeneous).data i.castSucc).val / ((A * p.toHomogeneous).data (Fin.last n)).val) = ((A * p.toHomogeneous).data i.castSucc).val := by
      rw [l.2, _root_.div_one, val_rep]
    have hf := finite_div_of (hf i.castSucc) l.1 (by rw [l.2]; exact one_ne_zero) (by rw [e]; exact abs_val_le_big _)
    exact ⟨hf, (val_div hf l.1).1.trans e⟩
  refine ⟨_, hq, ?_, ?_⟩
  · intro i
    refine Fin.lastCases ?_ (fun i => ?_) i
    · rw [Pt.toHomogeneous, Vec.extend_last]; exact finite_one
    · rw [Pt.toHomogeneous, Vec.extend_castSucc]; exact (hqv i).1
  · funext i
    refine Fin.lastCases ?_ (fun i => ?_) i
    · rw [values, Pt.toHomogeneous, Vec.extend_last, values, l.2]; rfl
    · rw [values, Pt.toHomogeneous, Vec.extend_castSucc, values]; exact (hqv i).2

section Points
variable (hu : φ.u ≤ 1 / 1000000) (hn : 5 * (n + 1 : ℕ) * φ.u ≤ 1 / 100) {lo hi : ℝ} (hlo : 0 < lo) (hfits : ∀ a, lo ≤ a → a ≤ 2 * hi → Fits φ a)
include hu hn hlo hfits

theorem bracketed_affine (t : Bracketed φ (n + 1)) (hr : t.InRange lo hi) (hf : ProperFactors t.factors) (hk : t.factors.length * Spec.step φ (n + 1) ≤ 1 / 2)
    (ha : ∀ p ∈ t.factors, AffineMatrix p.1) : AffineMatrix t.computed := by
  have hx : 0 ≤ Spec.step φ (n + 1) := Spec.step_nonneg
  induction t with
  | factor A N => exact ha (A, N) (by simp [Bracketed.factors])
  | times l r ihl ihr =>
    have el : (Bracketed.times l r).factors = l.factors ++ r.factors := rfl
    rw [el] at hf ha hk
    rw [List.length_append] at hk
    have cl : (l.factors.length : ℝ) * Spec.step φ (n + 1) ≤ 1 / 2 := le_trans (by gcongr; omega) hk
    have cr : (r.factors.length : ℝ) * Spec.step φ (n + 1) ≤ 1 / 2 := le_trans (by gcongr; omega) hk
    have fl : ProperFactors l.factors := fun p hp => hf p (List.mem_append_left _ hp)
    have fr : ProperFactors r.factors := fun p hp => hf p (List.mem_append_right _ hp)
    exact affine_product (bracketed_near hu hn hlo hfits l hr.1 fl cl).1 (bracketed_near hu hn hlo hfits r hr.2.1 fr cr).1
      (ihl hr.1 fl cl fun p hp => ha p (List.mem_append_left _ hp)) (ihr hr.2.1 fr cr fun p hp => ha p (List.mem_append_right _ hp))

theorem journey_near (ts : List (Bracketed φ (n + 1))) {X : ℝ} {p : Pt (Ieee φ) n} (hv : ∀ i, (p.coords.data i).Finite)
    (hX : vecNorm (values p.toHomogeneous) ≤ X) (hp : Passes lo hi X ts) (hf : ProperFactors (allFactors ts))
    (ha : ∀ p ∈ allFactors ts, AffineMatrix p.1) (hk : (allFactors ts).length * Spec.step φ (n + 1) ≤ 1 / 2) :
    ∃ q, moveAll ts p = .ok q ∧ (∀ i, (q.toHomogeneous.data i).Finite) ∧
      vecNorm (values q.toHomogeneous - exactProduct (allFactors ts) *ᵥ values p.toHomogeneous) ≤
        ((1 + Spec.step φ (n + 1)) ^ (allFactors ts).length - 1) * ((ts.map Bracketed.size).prod * X) ∧
      vecNorm (exactProduct (allFactors ts) *ᵥ values p.toHomogeneous) ≤ (ts.map Bracketed.size).prod * X := by
  have hx : 0 ≤ Spec.step φ (n + 1) := Spec.step_nonneg
  induction ts with
  | nil =>
    refine ⟨p, rfl, ?_, ?_, ?_⟩
    · intro i
      refine Fin.lastCases ?_ (fun i => ?_) i
      · rw [Pt.toHomogeneous, Vec.extend_last]; exact finite_one
      · rw [Pt.toHomogeneous, Vec.extend_castSucc]; exact hv i
    · simp [allFactors, exactProduct, vecNorm]
    · simpa [allFactors, exactProduct] using hX
  | cons t ts ih =>
    have el : allFactors (t :: ts) = t.factors ++ allFactors ts := rfl
    rw [el, List.length_append] at hk ⊢
    rw [el] at hf ha
    obtain ⟨h1, h2, h3, h4⟩ := hp
    have c1 : (t.factors.length : ℝ) * Spec.step φ (n + 1) ≤ 1 / 2 := le_trans (by gcongr; omega) hk
    have c2 : ((allFactors ts).length : ℝ) * Spec.step φ (n + 1) ≤ 1 / 2 := le_trans (by gcongr; omega) hk
    have ft : ProperFactors t.factors := fun p hp => hf p (List.mem_append_left _ hp)
    obtain ⟨t1, t2, t3⟩ := bracketed_near hu hn hlo hfits t h1 ft c1
    have ta := bracketed_affine hu hn hlo hfits t h1 ft c1 fun p hp => ha p (List.mem_append_left _ hp)
    obtain ⟨q, w0, w1, w2, w3⟩ := ih h2 (fun p hp => hf p (List.mem_append_right _ hp)) (fun p hp => ha p (List.mem_append_right _ hp)) c2
    have t0 := factors_pos t
    have hP : 0 < t.size := lt_of_lt_of_le hlo (range_size h1).1
    rw [List.map_cons, List.prod_cons, mul_assoc] at h3 h4 ⊢
    have hPZ : 0 < t.size * ((ts.map Bracketed.size).prod * X) := lt_of_lt_of_le hlo h3
    have hZ : 0 < (ts.map Bracketed.size).prod * X := pos_of_mul_pos_right hPZ hP.le
    have k := applied_near hu hn hlo hfits t1 (growth_le hx hk (m := t.factors.length - 1) (by omega)).1
      (growth_le hx hk (m := (allFactors ts).length) (by omega)).1 hP hZ t2 t3 w1 w2 w3 h3 h4
      (by rw [← pow_add]; exact (growth_le hx hk (by omega)).2)
    rw [← pow_add, ← pow_succ, Matrix.mulVec_mulVec, ← exactProduct_append,
      show t.factors.length - 1 + (allFactors ts).length + 1 = t.factors.length + (allFactors ts).length by omega] at k
    obtain ⟨q', e1, e2, e3⟩ := apply_point_values t1 ta w1 k.1
    refine ⟨q', ?_, e2, by rw [e3]; exact k.2.1, k.2.2⟩
    show (moveAll ts p).bind t.transform.applyPoint = _
    rw [w0, transform_eq]
    exact e1

end Points

/-! ### the bounds -/

theorem size_eq_bound (t : Bracketed φ n) : t.size = bound t.factors := by
  induction t with
  | factor A N => simp [Bracketed.size, Bracketed.factors, bound]
  | times l r h1 h2 =>
    show l.size * r.size = bound (l.factors ++ r.factors)
    rw [h1, h2, bound, bound, bound, List.map_append, List.prod_append]

theorem sizes_eq_bound (ts : List (Bracketed φ n)) : (ts.map Bracketed.size).prod = bound (allFactors ts) := by
  induction ts with
  | nil => simp [allFactors, bound]
  | cons t ts ih =>
    show _ = bound (t.factors ++ allFactors ts)
    rw [List.map_cons, List.prod_cons, ih, size_eq_bound, bound, bound, bound, List.map_append, List.prod_append]

theorem growth_linear {k m : ℕ} (hm : m ≤ k) (hk : k * Spec.step φ n ≤ 1 / 2) {P : ℝ} (hP : 0 ≤ P) :
    ((1 + Spec.step φ n) ^ m - 1) * P ≤ 10 * n ^ 2 * k * φ.u * P := by
  have h0 := Spec.step_nonneg (φ := φ) (n := n)
  have h1 := growth h0 hk
  have h2 : (1 + Spec.step φ n) ^ m ≤ (1 + Spec.step φ n) ^ k := pow_le_pow_right₀ (by linarith) hm
  refine mul_le_mul_of_nonneg_right ?_ hP
  have e : 2 * k * Spec.step φ n = 10 * n ^ 2 * k * φ.u := by rw [Spec.step]; ring
  linarith

theorem step_le {k : ℕ} (h : 10 * n ^ 2 * k * φ.u ≤ 1) : k * Spec.step φ n ≤ 1 / 2 := by
  rw [Spec.step]; linarith

section Formats
variable (hu : φ.u ≤ 1 / 1000000) (hn : 5 * n * φ.u ≤ 1 / 100) {lo hi : ℝ} (hlo : 0 < lo) (hfits : ∀ a, lo ≤ a → a ≤ 2 * hi → Fits φ a)
include hu hn hlo hfits

theorem product_bound (t : Bracketed φ n) (hf : ProperFactors t.factors) (hr : t.InRange lo hi) (hk : 10 * n ^ 2 * t.factors.length * φ.u ≤ 1) :
    FiniteEntries t.computed ∧ ‖exactly t.computed - exactProduct t.factors‖ ≤ 10 * n ^ 2 * t.factors.length * φ.u * bound t.factors := by
  obtain ⟨h1, h2, h3⟩ := bracketed_near hu hn hlo hfits t hr hf (step_le hk)
  refine ⟨h1, h2.trans ?_⟩
  rw [← size_eq_bound]
  exact growth_linear (Nat.sub_le _ _) (step_le hk) ((norm_nonneg _).trans h3)

theorem vector_bound (ts : List (Bracketed φ n)) {X : ℝ} {v : Vec (Ieee φ) n} (hv : ∀ i, (v.data i).Finite) (hX : vecNorm (values v) ≤ X)
    (hf : ProperFactors (allFactors ts)) (hp : Passes lo hi X ts) (hk : 10 * n ^ 2 * (allFactors ts).length * φ.u ≤ 1) :
    (∀ i, ((applyAll ts v).data i).Finite) ∧ vecNorm (values (applyAll ts v) - exactProduct (allFactors ts) *ᵥ values v) ≤
      10 * n ^ 2 * (allFactors ts).length * φ.u * (bound (allFactors ts) * X) := by
  obtain ⟨h1, h2, h3⟩ := chain_near hu hn hlo hfits ts hv hX hp hf (step_le hk)
  refine ⟨h1, h2.trans ?_⟩
  rw [← sizes_eq_bound]
  exact growth_linear le_rfl (step_le hk) ((vecNorm_nonneg _).trans h3)

theorem order_bound (ts ts' : List (Bracketed φ n)) (he : allFactors ts = allFactors ts') {X : ℝ} {v : Vec (Ieee φ) n} (hv : ∀ i, (v.data i).Finite)
    (hX : vecNorm (values v) ≤ X) (hf : ProperFactors (allFactors ts)) (hp : Passes lo hi X ts) (hp' : Passes lo hi X ts')
    (hk : 10 * n ^ 2 * (allFactors ts).length * φ.u ≤ 1) :
    vecNorm (values (applyAll ts v) - values (applyAll ts' v)) ≤ 20 * n ^ 2 * (allFactors ts).length * φ.u * (bound (allFactors ts) * X) := by
  have h1 := (vector_bound hu hn hlo hfits ts hv hX hf hp hk).2
  have h2 := (vector_bound hu hn hlo hfits ts' hv hX (he ▸ hf) hp' (he ▸ hk)).2
  rw [← he] at h2
  have e : values (applyAll ts v) - values (applyAll ts' v) = (values (applyAll ts v) - exactProduct (allFactors ts) *ᵥ values v) +
      (exactProduct (allFactors ts) *ᵥ values v - values (applyAll ts' v)) := by abel
  have h3 := vecNorm_add (values (applyAll ts v) - exactProduct (allFactors ts) *ᵥ values v) (exactProduct (allFactors ts) *ᵥ values v - values (applyAll ts' v))
  have h4 : vecNorm (exactProduct (allFactors ts) *ᵥ values v - values (applyAll ts' v)) =
      vecNorm (values (applyAll ts' v) - exactProduct (allFactors ts) *ᵥ values v) := by
    simp only [vecNorm, Pi.sub_apply]
    congr 1
    exact Finset.sum_congr rfl fun i _ => by ring
  rw [e]
  linarith

end Formats

theorem point_bound (hu : φ.u ≤ 1 / 1000000) (hn : 5 * (n + 1 : ℕ) * φ.u ≤ 1 / 100) {lo hi : ℝ} (hlo : 0 < lo) (hfits : ∀ a, lo ≤ a → a ≤ 2 * hi → Fits φ a)
    (ts : List (Bracketed φ (n + 1))) {X : ℝ} {p : Pt (Ieee φ) n} (hv : ∀ i, (p.coords.data i).Finite)
    (hX : vecNorm (values p.toHomogeneous) ≤ X) (hf : ProperFactors (allFactors ts)) (ha : ∀ p ∈ allFactors ts, AffineMatrix p.1)
    (hp : Passes lo hi X ts) (hk : 10 * (n + 1 : ℕ) ^ 2 * (allFactors ts).length * φ.u ≤ 1) :
    ∃ q, moveAll ts p = .ok q ∧ ∀ i : Fin n, (q.coords.data i).Finite ∧
      |(q.coords.data i).val - (exactProduct (allFactors ts) *ᵥ values p.toHomogeneous) i.castSucc| ≤
        10 * (n + 1 : ℕ) ^ 2 * (allFactors ts).length * φ.u * (bound (allFactors ts) * X) := by
  obtain ⟨q, h1, h2, h3, h4⟩ := journey_near hu hn hlo hfits ts hv hX hp hf ha (step_le hk)
  refine ⟨q, h1, fun i => ?_⟩
  have e : q.toHomogeneous.data i.castSucc = q.coords.data i := by rw [Pt.toHomogeneous, Vec.extend_castSucc]
  have h5 := h2 i.castSucc
  rw [e] at h5
  refine ⟨h5, ?_⟩
  rw [sizes_eq_bound] at h3 h4
  have h6 := h3.trans (growth_linear le_rfl (step_le hk) ((vecNorm_nonneg _).trans h4))
  refine le_trans ?_ h6
  rw [vecNorm]
  refine Real.le_sqrt_of_sq_le ?_
  rw [sq_abs]
  have h7 := Finset.single_le_sum (f := fun j => (values q.toHomogeneous - exactProduct (allFactors ts) *ᵥ values p.toHomogeneous) j ^ 2)
    (fun j _ => sq_nonneg _) (Finset.mem_univ i.castSucc)
  refine le_trans (le_of_eq ?_) h7
  show _ = (values q.toHomogeneous i.castSucc - _) ^ 2
  rw [values, e]

theorem roundoff64 : f64.u ≤ 1 / 1000000 := by
  change (2 : ℝ) ^ (-53 : ℤ) ≤ _; norm_num

theorem roundoff32 : f32.u ≤ 1 / 1000000 := by
  change (2 : ℝ) ^ (-24 : ℤ) ≤ _; norm_num

theorem few64 (hn : n ≤ 1000000) : 5 * (n : ℝ) * f64.u ≤ 1 / 100 := by
  have : (n : ℝ) ≤ 1000000 := by exact_mod_cast hn
  change 5 * (n : ℝ) * (2 : ℝ) ^ (-53 : ℤ) ≤ _
  have h : (2 : ℝ) ^ (-53 : ℤ) ≤ 1 / 1000000000 := by norm_num
  have h0 : (0 : ℝ) ≤ 2 ^ (-53 : ℤ) := by positivity
  nlinarith

theorem few32 (hn : n ≤ 1000) : 5 * (n : ℝ) * f32.u ≤ 1 / 100 := by
  have : (n : ℝ) ≤ 1000 := by exact_mod_cast hn
  change 5 * (n : ℝ) * (2 : ℝ) ^ (-24 : ℤ) ≤ _
  have h : (2 : ℝ) ^ (-24 : ℤ) ≤ 1 / 1000000 := by norm_num
  have h0 : (0 : ℝ) ≤ 2 ^ (-24 : ℤ) := by positivity
  nlinarith

theorem room64 (a : ℝ) (h1 : (2 : ℝ) ^ (-1000 : ℤ) ≤ a) (h2 : a ≤ 2 * 2 ^ (999 : ℤ)) : Fits f64 a :=
  fits64 ((zpow_le_zpow_right₀ one_le_two (by norm_num)).trans h1) (h2.trans_eq (by
    rw [show (1000 : ℤ) = 1 + 999 by norm_num, zpow_add₀ two_ne_zero, zpow_one]))

theorem room32 (a : ℝ) (h1 : (2 : ℝ) ^ (-126 : ℤ) ≤ a) (h2 : a ≤ 2 * 2 ^ (125 : ℤ)) : Fits f32 a :=
  fits32 h1 (h2.trans_eq (by rw [show (126 : ℤ) = 1 + 125 by norm_num, zpow_add₀ two_ne_zero, zpow_one]))

/-- **C106.**  `f64`: a product of `k` matrices, bracketed in any way, differs from the exact product, in norm, by at most `10 n^2 k` roundings of the
product of the norms. -/
theorem C106_product64 (hn : n ≤ 1000000) (t : Bracketed f64 n) (hf : ProperFactors t.factors) (hr : t.InRange (2 ^ (-1000 : ℤ)) (2 ^ (999 : ℤ)))
    (hk : 10 * n ^ 2 * t.factors.length * 2 ^ (-53 : ℤ) ≤ (1 : ℝ)) :
    FiniteEntries t.computed ∧
      ‖exactly t.computed - exactProduct t.factors‖ ≤ 10 * n ^ 2 * t.factors.length * 2 ^ (-53 : ℤ) * bound t.factors :=
  product_bound roundoff64 (few64 hn) (by positivity) room64 t hf hr hk

/-- **C106.**  `f64`: the product applied to a vector, whether the matrices are multiplied first, or the vector goes through one after the other, or
anything in between. -/
theorem C106_vector64 (hn : n ≤ 1000000) (ts : List (Bracketed f64 n)) {X : ℝ} {v : Vec (Ieee f64) n} (hv : ∀ i, (v.data i).Finite)
    (hX : vecNorm (values v) ≤ X) (hf : ProperFactors (allFactors ts)) (hp : Passes (2 ^ (-1000 : ℤ)) (2 ^ (999 : ℤ)) X ts)
    (hk : 10 * n ^ 2 * (allFactors ts).length * 2 ^ (-53 : ℤ) ≤ (1 : ℝ)) :
    (∀ i, ((applyAll ts v).data i).Finite) ∧ vecNorm (values (applyAll ts v) - exactProduct (allFactors ts) *ᵥ values v) ≤
      10 * n ^ 2 * (allFactors ts).length * 2 ^ (-53 : ℤ) * (bound (allFactors ts) * X) :=
  vector_bound roundoff64 (few64 hn) (by positivity) room64 ts hv hX hf hp hk

/-- **C106.**  `f64`: two ways of bracketing the same factors and the same vector give results near each other. -/
theorem C106_order64 (hn : n ≤ 1000000) (ts ts' : List (Bracketed f64 n)) (he : allFactors ts = allFactors ts') {X : ℝ} {v : Vec (Ieee f64) n}
    (hv : ∀ i, (v.data i).Finite) (hX : vecNorm (values v) ≤ X) (hf : ProperFactors (allFactors ts))
    (hp : Passes (2 ^ (-1000 : ℤ)) (2 ^ (999 : ℤ)) X ts) (hp' : Passes (2 ^ (-1000 : ℤ)) (2 ^ (999 : ℤ)) X ts')
    (hk : 10 * n ^ 2 * (allFactors ts).length * 2 ^ (-53 : ℤ) ≤ (1 : ℝ)) :
    vecNorm (values (applyAll ts v) - values (applyAll ts' v)) ≤ 20 * n ^ 2 * (allFactors ts).length * 2 ^ (-53 : ℤ) * (bound (allFactors ts) * X) :=
  order_bound roundoff64 (few64 hn) (by positivity) room64 ts ts' he hv hX hf hp hp' hk

/-- **C106.**  `f64`: transformations with the bottom row `0 ... 0 1`, composed and applied to a point in any order of evaluation: no application
panics, and every coordinate is near that of the exact image. -/
theorem C106_point64 (hn : n + 1 ≤ 1000000) (ts : List (Bracketed f64 (n + 1))) {X : ℝ} {p : Pt (Ieee f64) n} (hv : ∀ i, (p.coords.data i).Finite)
    (hX : vecNorm (values p.toHomogeneous) ≤ X) (hf : ProperFactors (allFactors ts)) (ha : ∀ p ∈ allFactors ts, AffineMatrix p.1)
    (hp : Passes (2 ^ (-1000 : ℤ)) (2 ^ (999 : ℤ)) X ts) (hk : 10 * (n + 1 : ℕ) ^ 2 * (allFactors ts).length * 2 ^ (-53 : ℤ) ≤ (1 : ℝ)) :
    ∃ q, moveAll ts p = .ok q ∧ ∀ i : Fin n, (q.coords.data i).Finite ∧
      |(q.coords.data i).val - (exactProduct (allFactors ts) *ᵥ values p.toHomogeneous) i.castSucc| ≤
        10 * (n + 1 : ℕ) ^ 2 * (allFactors ts).length * 2 ^ (-53 : ℤ) * (bound (allFactors ts) * X) :=
  point_bound roundoff64 (few64 hn) (by positivity) room64 ts hv hX hf ha hp hk

/-- **C106.**  `f32` -/
theorem C106_product32 (hn : n ≤ 1000) (t : Bracketed f32 n) (hf : ProperFactors t.factors) (hr : t.InRange (2 ^ (-126 : ℤ)) (2 ^ (125 : ℤ)))
    (hk : 10 * n ^ 2 * t.factors.length * 2 ^ (-24 : ℤ) ≤ (1 : ℝ)) :
    FiniteEntries t.computed ∧
      ‖exactly t.computed - exactProduct t.factors‖ ≤ 10 * n ^ 2 * t.factors.length * 2 ^ (-24 : ℤ) * bound t.factors :=
  product_bound roundoff32 (few32 hn) (by positivity) room32 t hf hr hk

/-- **C106.**  `f32` -/
theorem C106_vector32 (hn : n ≤ 1000) (ts : List (Bracketed f32 n)) {X : ℝ} {v : Vec (Ieee f32) n} (hv : ∀ i, (v.data i).Finite)
    (hX : vecNorm (values v) ≤ X) (hf : ProperFactors (allFactors ts)) (hp : Passes (2 ^ (-126 : ℤ)) (2 ^ (125 : ℤ)) X ts)
    (hk : 10 * n ^ 2 * (allFactors ts).length * 2 ^ (-24 : ℤ) ≤ (1 : ℝ)) :
    (∀ i, ((applyAll ts v).data i).Finite) ∧ vecNorm (values (applyAll ts v) - exactProduct (allFactors ts) *ᵥ values v) ≤
      10 * n ^ 2 * (allFactors ts).length * 2 ^ (-24 : ℤ) * (bound (allFactors ts) * X) :=
  vector_bound roundoff32 (few32 hn) (by positivity) room32 ts hv hX hf hp hk

/-- **C106.**  `f32` -/
theorem C106_point32 (hn : n + 1 ≤ 1000) (ts : List (Bracketed f32 (n + 1))) {X : ℝ} {p : Pt (Ieee f32) n} (hv : ∀ i, (p.coords.data i).Finite)
    (hX : vecNorm (values p.toHomogeneous) ≤ X) (hf : ProperFactors (allFactors ts)) (ha : ∀ p ∈ allFactors ts, AffineMatrix p.1)
    (hp : Passes (2 ^ (-126 : ℤ)) (2 ^ (125 : ℤ)) X ts) (hk : 10 * (n + 1 : ℕ) ^ 2 * (allFactors ts).length * 2 ^ (-24 : ℤ) ≤ (1 : ℝ)) :
    ∃ q, moveAll ts p = .ok q ∧ ∀ i : Fin n, (q.coords.data i).Finite ∧
      |(q.coords.data i).val - (exactProduct (allFactors ts) *ᵥ values p.toHomogeneous) i.castSucc| ≤
        10 * (n + 1 : ℕ) ^ 2 * (allFactors ts).length * 2 ^ (-24 : ℤ) * (bound (allFactors ts) * X) :=
  point_bound roundoff32 (few32 hn) (by positivity) room32 ts hv hX hf ha hp hk

/-- **C106.**  The norm of a matrix whose columns are orthonormal up to `δ`, such as the computed matrix of a rotation, is at most `1 + δ`. -/
theorem C106_norm_rotation {A : Matrix (Fin n) (Fin n) ℝ} {δ : ℝ} (h : ‖Aᵀ * A - 1‖ ≤ δ) : ‖A‖ ≤ 1 + δ := by
  have h1 : ‖(1 : Matrix (Fin n) (Fin n) ℝ)‖ ≤ 1 := by
    have e := Matrix.l2_opNorm_conjTranspose_mul_self (1 : Matrix (Fin n) (Fin n) ℝ)
    rw [Matrix.conjTranspose_one, Matrix.mul_one] at e
    nlinarith [norm_nonneg (1 : Matrix (Fin n) (Fin n) ℝ)]
  have e := Matrix.l2_opNorm_conjTranspose_mul_self A
  rw [Matrix.conjTranspose_eq_transpose_of_trivial] at e
  have h2 := norm_add_le (Aᵀ * A - 1) 1
  rw [sub_add_cancel, e] at h2
  have h3 := (norm_nonneg _).trans h
  by_contra hc
  have := norm_nonneg A
  nlinarith

/-! ### the hypotheses can be met -/

/-- a shear -/
noncomputable def slant : Mat (Ieee f64) 3 3 := new3x3 1 0 0 1 1 0 0 0 1

theorem slant_factor : FiniteEntries slant ∧ ‖exactly slant‖ ≤ 3 ∧ AffineMatrix slant := by
  have hv : ∀ c r, slant.data c r = 0 ∨ slant.data c r = 1 := by
    intro c r
    fin_cases c <;> fin_cases r <;> simp [slant, new3x3]
  refine ⟨fun c r => ?_, ?_, ⟨fun c => ?_, ?_⟩⟩
  · rcases hv c r with h | h <;> rw [h]
    · exact finite_zero
    · exact finite_one
  · refine (norm_le_of_all (e := 1) zero_le_one fun r c => ?_).trans (by norm_num)
    show |(slant.data c r).val| ≤ 1
    rcases hv c r with h | h <;> rw [h]
    · rw [show (0 : Ieee f64).val = 0 from rfl]; norm_num
    · rw [show (1 : Ieee f64).val = 1 from rfl]; norm_num
  · fin_cases c <;> rfl
  · rfl

/-- three shears, the first two multiplied, then applied in turn; and all of them multiplied -/
noncomputable def inTurn : List (Bracketed f64 3) := [.times (.factor slant 3) (.factor slant 3), .factor slant 3]
noncomputable def atOnce : List (Bracketed f64 3) := [.times (.factor slant 3) (.times (.factor slant 3) (.factor slant 3))]

theorem between {x : ℝ} (h1 : 1 ≤ x) (h2 : x ≤ 1000) : (2 : ℝ) ^ (-1000 : ℤ) ≤ x ∧ x ≤ 2 ^ (999 : ℤ) := by
  refine ⟨le_trans ?_ h1, h2.trans (le_trans (by norm_num) (zpow_le_zpow_right₀ one_le_two (by norm_num : (10 : ℤ) ≤ 999)))⟩
  calc (2 : ℝ) ^ (-1000 : ℤ) ≤ 2 ^ (0 : ℤ) := zpow_le_zpow_right₀ one_le_two (by norm_num)
    _ = 1 := zpow_zero _

/-- the origin, moved by three shears -/
example : ∃ q, moveAll inTurn (⟨0⟩ : Pt (Ieee f64) 2) = .ok q := by
  have hp : Passes (2 ^ (-1000 : ℤ)) (2 ^ (999 : ℤ)) 1 inTurn := by
    have a := between (x := 1) (by norm_num) (by norm_num)
    have b := between (x := 3) (by norm_num) (by norm_num)
    have c := between (x := 9) (by norm_num) (by norm_num)
    have d := between (x := 27) (by norm_num) (by norm_num)
    refine ⟨⟨b, b, ?_⟩, ⟨b, a, ?_⟩, ?_⟩
    · rw [show (Bracketed.factor slant 3).size * (Bracketed.factor slant 3).size = 9 by simp only [Bracketed.size]; norm_num]; exact c
    · rw [show (([Bracketed.factor slant 3] : List (Bracketed f64 3)).map Bracketed.size).prod * 1 = 3 by simp [Bracketed.size]]; exact b
    · change _ ≤ ((inTurn : List (Bracketed f64 3)).map Bracketed.size).prod * 1 ∧ ((inTurn : List (Bracketed f64 3)).map Bracketed.size).prod * 1 ≤ _
      rw [show ((inTurn : List (Bracketed f64 3)).map Bracketed.size).prod * 1 = 27 by simp only [inTurn, List.map, List.prod_cons, List.prod_nil, Bracketed.size]; norm_num]
      exact d
  have hm : ∀ p ∈ allFactors inTurn, p = (slant, 3) := by
    intro p hp
    simpa [inTurn, allFactors, Bracketed.factors] using hp
  have hl : (allFactors inTurn).length = 3 := by simp [inTurn, allFactors, Bracketed.factors]
  obtain ⟨s1, s2, s3⟩ := slant_factor
  obtain ⟨q, h, _⟩ := C106_point64 (by norm_num) inTurn (X := 1) (p := ⟨0⟩) (fun i => finite_zero)
    (by
      rw [vecNorm]
      refine Real.sqrt_le_one.mpr ?_
      rw [Fin.sum_univ_castSucc]
      have e : ∀ i : Fin 2, values (Pt.toHomogeneous (⟨0⟩ : Pt (Ieee f64) 2)) i.castSucc = 0 := fun i => by
        rw [values, Pt.toHomogeneous, Vec.extend_castSucc]; rfl
      have e' : values (Pt.toHomogeneous (⟨0⟩ : Pt (Ieee f64) 2)) (Fin.last 2) = 1 := by
        rw [values, Pt.toHomogeneous, Vec.extend_last]; rfl
      rw [e', Finset.sum_congr rfl fun i _ => by rw [e i]]
      norm_num)
    (fun p h => by rw [hm p h]; exact ⟨s1, s2⟩) (fun p h => by rw [hm p h]; exact s3) hp (by rw [hl]; norm_num)
  exact ⟨q, h⟩

/-- both ways of bracketing have the same factors -/
example : allFactors inTurn = allFactors atOnce := rfl

end Cgl
