import Verif.Props.C103_MatrixInverse
import Verif.Props.C90_Homogeneous
import Mathlib.LinearAlgebra.Matrix.AbsoluteValue
import Mathlib.LinearAlgebra.Matrix.Adjugate

/-! # C105 - solving linear systems and undoing transformations in IEEE arithmetic

The inverse that `try_inverse` computes is used to go back: from the image `A x` to `x`, or from the right hand side `b` to the
solution of `A x = b`.  As in C103 `M` bounds the entries and `K` the quotient of `M ^ n` and the determinant. -/

namespace Cgl
open Ieee FloatFns Mat Spec Rounding Matrix

variable {φ : Format} {n : ℕ}

namespace Spec

/-- the numbers the components stand for -/
noncomputable def values (v : Vec (Ieee φ) n) : Fin n → ℝ := fun i => (v.data i).val

/-- every component is a finite number of at most `X` -/
def Within (X : ℝ) (v : Vec (Ieee φ) n) : Prop := ∀ i, (v.data i).Finite ∧ |(v.data i).val| ≤ X

/-- every component of `w` is a finite number within `e` of that of the vector `x` of real numbers -/
def Close (w : Vec (Ieee φ) n) (x : Fin n → ℝ) (e : ℝ) : Prop := ∀ i, (w.data i).Finite ∧ |(w.data i).val - x i| ≤ e

/-- `f` finds an inverse which undoes the multiplication by `A`, and which the multiplication by `A` undoes, for vectors with components of up to
`X`, with errors of at most `e` -/
def Undoes (f : Mat (Ieee φ) n n → Option (Mat (Ieee φ) n n)) (A : Mat (Ieee φ) n n) (X e : ℝ) : Prop :=
  ∃ B, f A = some B ∧ ∀ x : Vec (Ieee φ) n, Within X x → Close (B * (A * x)) (values x) e ∧ Close (A * (B * x)) (values x) e

/-- `f` finds an inverse whose product with a right hand side `b` of components of up to `X` is within `e` of the solution of `A x = b` -/
def Solves (f : Mat (Ieee φ) n n → Option (Mat (Ieee φ) n n)) (A : Mat (Ieee φ) n n) (X e : ℝ) : Prop :=
  ∃ B, f A = some B ∧ ∀ b : Vec (Ieee φ) n, Within X b → ∃ x, exactly A *ᵥ x = values b ∧ (∀ x', exactly A *ᵥ x' = values b → x' = x) ∧
    Close (B * b) x e

end Spec

/-! ### the product of a matrix and a vector -/

theorem dot_loop_near (hn : n ≤ 4) (hu : φ.u ≤ 1 / 1000000) {a : ℝ} (h1 : Fits φ a) (h4 : Fits φ (4 * a)) {f g : Fin n → Ieee φ}
    (hf : ∀ i, (f i).Finite) (hg : ∀ i, (g i).Finite) (hb : ∀ i, |(f i).val * (g i).val| ≤ a) :
    (forRange n 0 fun i result => result + f i * g i).Finite ∧
      |(forRange n 0 fun i result => result + f i * g i).val - ∑ i, (f i).val * (g i).val| ≤ 42 * φ.u * a := by
  have hu0 := φ.u_nonneg
  have hp := h1.pos
  have hua : φ.u * a ≤ 1 / 1000000 * a := mul_le_mul_of_nonneg_right hu hp.le
  have hua0 : 0 ≤ φ.u * a := by positivity
  have key : ∃ hn : n ≤ n, (forRange n 0 fun i result => result + f i * g i).Finite ∧
      |∑ j : Fin n, (f ⟨j, lt_of_lt_of_le j.2 hn⟩).val * (g ⟨j, lt_of_lt_of_le j.2 hn⟩).val| ≤ n * a ∧
      |(forRange n 0 fun i result => result + f i * g i).val -
        ∑ j : Fin n, (f ⟨j, lt_of_lt_of_le j.2 hn⟩).val * (g ⟨j, lt_of_lt_of_le j.2 hn⟩).val| ≤ n * (21 / 2 * φ.u * a) := by
    refine forRange_induction (P := fun i (x : Ieee φ) => ∃ hi : i ≤ n, x.Finite ∧
      |∑ j : Fin i, (f ⟨j, lt_of_lt_of_le j.2 hi⟩).val * (g ⟨j, lt_of_lt_of_le j.2 hi⟩).val| ≤ i * a ∧
      |x.val - ∑ j : Fin i, (f ⟨j, lt_of_lt_of_le j.2 hi⟩).val * (g ⟨j, lt_of_lt_of_le j.2 hi⟩).val| ≤ i * (21 / 2 * φ.u * a)) ?_ ?_
    · exact ⟨Nat.zero_le _, finite_zero, by simp, by simp [show (0 : Ieee φ).val = 0 from rfl]⟩
    · rintro i x ⟨hi, hx, hc, he⟩
      refine ⟨i.2, ?_⟩
      have e : (∑ j : Fin ((i : ℕ) + 1), (f ⟨j, lt_of_lt_of_le j.2 i.2⟩).val * (g ⟨j, lt_of_lt_of_le j.2 i.2⟩).val) =
          (∑ j : Fin (i : ℕ), (f ⟨j, lt_of_lt_of_le j.2 hi⟩).val * (g ⟨j, lt_of_lt_of_le j.2 hi⟩).val) + (f i).val * (g i).val := by
        rw [Fin.sum_univ_castSucc]; rfl
      rw [e]
      set s := ∑ j : Fin (i : ℕ), (f ⟨j, lt_of_lt_of_le j.2 hi⟩).val * (g ⟨j, lt_of_lt_of_le j.2 hi⟩).val
      have hi4 : ((i : ℕ) : ℝ) ≤ 3 := by exact_mod_cast (by omega : (i : ℕ) ≤ 3)
      have hi0 : (0 : ℝ) ≤ ((i : ℕ) : ℝ) := Nat.cast_nonneg _
      have b := hb i
      obtain ⟨r1, r2⟩ := h1.round hu (z := (f i).val * (g i).val) (by linarith)
      have m1 := finite_mul_of (hf i) (hg i) r1
      have m2 := val_mul m1
      rw [← m2] at r2
      have c1 := abs_le.mp hc
      have c2 := abs_le.mp he
      have c3 := abs_le.mp r2
      have c4 := abs_le.mp b
      have q1 : ((i : ℕ) : ℝ) * a ≤ 3 * a := mul_le_mul_of_nonneg_right hi4 hp.le
      have q2 : ((i : ℕ) : ℝ) * (21 / 2 * φ.u * a) ≤ 3 * (21 / 2 * φ.u * a) := mul_le_mul_of_nonneg_right hi4 (by linarith)
      obtain ⟨s1, s2⟩ := h4.round hu (z := x.val + (f i * g i).val) (by rw [abs_le]; constructor <;> linarith)
      have a1 := finite_add_of hx m1 s1
      refine ⟨a1, ?_, ?_⟩
      · push_cast; rw [abs_le]; constructor <;> linarith
      · rw [val_add a1]
        have c5 := abs_le.mp s2
        push_cast
        rw [abs_le]; constructor <;> linarith
  obtain ⟨_, k1, _, k2⟩ := key
  have hn4 : (n : ℝ) ≤ 4 := by exact_mod_cast hn
  refine ⟨k1, k2.trans ?_⟩
  have : (n : ℝ) * (21 / 2 * φ.u * a) ≤ 4 * (21 / 2 * φ.u * a) := mul_le_mul_of_nonneg_right hn4 (by linarith)
  linarith

theorem mulVec_data_op {S : Type*} [Zero S] [Add S] [Mul S] {R C : ℕ} (m : Mat S R C) (v : Vec S C) (r) :
    (m * v).data r = forRange C 0 fun i result => result + m.data i r * v.data i := by
  show (Mat.mulVec m v).data r = _
  simp only [Mat.mulVec]; rw [forRange_update]; rfl

theorem mulVec_near (hn : n ≤ 4) (hu : φ.u ≤ 1 / 1000000) {α χ : ℝ} (h1 : Fits φ (α * χ)) (h4 : Fits φ (4 * (α * χ))) {A : Mat (Ieee φ) n n}
    {v : Vec (Ieee φ) n} (hA : Entries α A) (hv : Within χ v) : Close (A * v) (exactly A *ᵥ values v) (42 * φ.u * (α * χ)) := by
  intro r
  rw [mulVec_data_op]
  exact dot_loop_near hn hu h1 h4 (fun i => (hA i r).1) (fun i => (hv i).1) fun i => by
    rw [abs_mul]; exact mul_le_mul (hA i r).2 (hv i).2 (abs_nonneg _) ((abs_nonneg _).trans (hA i r).2)

theorem mulVec_abs_le (hn : n ≤ 4) {A : Matrix (Fin n) (Fin n) ℝ} {v : Fin n → ℝ} {α χ : ℝ} (h0 : 0 ≤ α * χ) (h : ∀ r i, |A r i * v i| ≤ α * χ) (r : Fin n) :
    |(A *ᵥ v) r| ≤ 4 * (α * χ) := by
  have hn4 : (n : ℝ) ≤ 4 := by exact_mod_cast hn
  show |∑ i, A r i * v i| ≤ _
  refine (Finset.abs_sum_le_sum_abs _ _).trans ((Finset.sum_le_sum fun i _ => h r i).trans ?_)
  rw [Finset.sum_const, Finset.card_univ, Fintype.card_fin, nsmul_eq_mul]
  exact mul_le_mul_of_nonneg_right hn4 h0

theorem mulVec_abs_le' (hn : n ≤ 4) {A : Matrix (Fin n) (Fin n) ℝ} {v : Fin n → ℝ} {α χ : ℝ} (hA : ∀ r c, |A r c| ≤ α) (hv : ∀ i, |v i| ≤ χ) (r : Fin n) :
    |(A *ᵥ v) r| ≤ 4 * (α * χ) := by
  have h0 : 0 ≤ α := (abs_nonneg _).trans (hA r r)
  have h1 : 0 ≤ χ := (abs_nonneg _).trans (hv r)
  exact mulVec_abs_le hn (mul_nonneg h0 h1) (fun r i => by rw [abs_mul]; exact mul_le_mul (hA r i) (hv i) (abs_nonneg _) h0) r

/-! ### back and forth -/

/-- sizes `M` of the matrix, `H` of the inverse and `X` of the vectors such that nothing overflows or underflows -/
structure Spaces (φ : Format) (M H X : ℝ) : Prop where
  small : φ.u ≤ 1 / 1000000
  image : ∀ k : ℝ, 1 ≤ k → k ≤ 20 → Fits φ (k * (M * X))
  back : ∀ k : ℝ, 1 ≤ k → k ≤ 20 → Fits φ (k * (H * X))
  both : ∀ k : ℝ, 1 ≤ k → k ≤ 20 → Fits φ (k * (H * M * X))

section Core
variable {M H X ε : ℝ} {A B : Mat (Ieee φ) n n} {E : Matrix (Fin n) (Fin n) ℝ}

structure Pair (M H ε : ℝ) (A B : Mat (Ieee φ) n n) (E : Matrix (Fin n) (Fin n) ℝ) : Prop where
  entries : Entries M A
  right : exactly A * E = 1
  left : E * exactly A = 1
  near : ∀ r c, (B.data c r).Finite ∧ |(B.data c r).val - E r c| ≤ ε
  size : ∀ r c, |E r c| ≤ H
  rel : ε ≤ 1 / 100 * H
  hM : 0 < M
  hH : 0 < H
  hn : n ≤ 4

theorem Pair.entries' (h : Pair M H ε A B E) : Entries (101 / 100 * H) B := fun c r => ⟨(h.near r c).1, by
  have h1 := (h.near r c).2
  have h2 := h.size r c
  have h3 := h.rel
  have := abs_sub_abs_le_abs_sub (B.data c r).val (E r c)
  linarith⟩

theorem Pair.diff (h : Pair M H ε A B E) {χ : ℝ} {v : Fin n → ℝ} (hv : ∀ i, |v i| ≤ χ) (r : Fin n) :
    |(exactly B *ᵥ v) r - (E *ᵥ v) r| ≤ 4 * (ε * χ) := by
  rw [← Pi.sub_apply, ← Matrix.sub_mulVec]
  exact mulVec_abs_le' h.hn (fun r c => (h.near r c).2) hv r

/-- forth -/
theorem Pair.forth (h : Pair M H ε A B E) (hs : Spaces φ M H X) {x : Vec (Ieee φ) n} (hx : Within X x) :
    Close (A * x) (exactly A *ᵥ values x) (42 * φ.u * (M * X)) :=
  mulVec_near h.hn hs.small (by simpa using hs.image 1 (by norm_num) (by norm_num)) (hs.image 4 (by norm_num) (by norm_num)) h.entries hx

/-- back -/
theorem Pair.back (h : Pair M H ε A B E) (hs : Spaces φ M H X) {x : Fin n → ℝ} (hx : ∀ i, |x i| ≤ X) {y : Vec (Ieee φ) n}
    (hy : Close y (exactly A *ᵥ x) (42 * φ.u * (M * X))) : Close (B * y) x ((1604 / 100 * ε * M + 345 * φ.u * (H * M)) * X) := by
  intro r
  have hX : 0 ≤ X := (abs_nonneg _).trans (hx r)
  have hu := φ.u_nonneg
  have hM := h.hM
  have hH := h.hH
  have hMX : 0 ≤ M * X := by positivity
  have huMX : φ.u * (M * X) ≤ 1 / 1000000 * (M * X) := mul_le_mul_of_nonneg_right hs.small hMX
  have hyX : Within (401 / 100 * (M * X)) y := fun i => ⟨(hy i).1, by
    have h1 := mulVec_abs_le' h.hn (fun r c => (h.entries c r).2) hx i
    have h2 := (hy i).2
    have := abs_sub_abs_le_abs_sub (y.data i).val ((exactly A *ᵥ x) i)
    linarith [show |(exactly A *ᵥ x) i| ≤ 4 * (M * X) from h1]⟩
  have e : 101 / 100 * H * (401 / 100 * (M * X)) = 40501 / 10000 * (H * M * X) := by ring
  have k1 := mulVec_near h.hn hs.small (by rw [e]; exact hs.both _ (by norm_num) (by norm_num))
    (by rw [e, ← mul_assoc]; exact hs.both _ (by norm_num) (by norm_num)) h.entries' hyX r
  refine ⟨k1.1, ?_⟩
  have k2 := h.diff (fun i => (hyX i).2) r
  have k3 : |(E *ᵥ values y) r - x r| ≤ 4 * (H * (42 * φ.u * (M * X))) := by
    have e1 : x = E *ᵥ (exactly A *ᵥ x) := by rw [Matrix.mulVec_mulVec, h.left, Matrix.one_mulVec]
    rw [show (E *ᵥ values y) r - x r = (E *ᵥ (values y - exactly A *ᵥ x)) r by
      conv_lhs => rw [e1]
      rw [Matrix.mulVec_sub]; rfl]
    exact mulVec_abs_le' h.hn h.size (fun i => (hy i).2) r
  rw [e] at k1
  have hHMX : 0 ≤ φ.u * (H * M * X) := by positivity
  have c1 := abs_le.mp k1.2
  have c2 := abs_le.mp k2
  have c3 := abs_le.mp k3
  have e2 : (exactly B *ᵥ fun i => (y.data i).val) r = (exactly B *ᵥ values y) r := rfl
  have e3 : (E *ᵥ fun i => (y.data i).val) r = (E *ᵥ values y) r := rfl
  rw [e2, e3] at c2
  have e4 : (1604 / 100 * ε * M + 345 * φ.u * (H * M)) * X = 1604 / 100 * (ε * (M * X)) + 345 * (φ.u * (H * M * X)) := by ring
  rw [e4, abs_le]
  constructor <;> linarith

/-- the solution of a system -/
theorem Pair.solve (h : Pair M H ε A B E) (hs : Spaces φ M H X) {b : Vec (Ieee φ) n} (hb : Within X b) :
    Close (B * b) (E *ᵥ values b) ((4 * ε + 43 * φ.u * H) * X) := by
  intro r
  have hX : 0 ≤ X := (abs_nonneg _).trans (hb r).2
  have hu := φ.u_nonneg
  have hH := h.hH
  have e : 101 / 100 * H * X = 101 / 100 * (H * X) := by ring
  have k1 := mulVec_near h.hn hs.small (by rw [e]; exact hs.back _ (by norm_num) (by norm_num))
    (by rw [e, ← mul_assoc]; exact hs.back _ (by norm_num) (by norm_num)) h.entries' hb r
  refine ⟨k1.1, ?_⟩
  have k2 := h.diff (fun i => (hb i).2) r
  have c1 := abs_le.mp k1.2
  have c2 := abs_le.mp k2
  have e2 : (exactly B *ᵥ fun i => (b.data i).val) r = (exactly B *ᵥ values b) r := rfl
  have e3 : (E *ᵥ fun i => (b.data i).val) r = (E *ᵥ values b) r := rfl
  rw [e2, e3] at c2
  have hHX : 0 ≤ φ.u * (H * X) := by positivity
  have e4 : (4 * ε + 43 * φ.u * H) * X = 4 * (ε * X) + 43 * (φ.u * (H * X)) := by ring
  have e5 : 42 * φ.u * (101 / 100 * H * X) = 42 * 101 / 100 * (φ.u * (H * X)) := by ring
  rw [e5] at c1
  rw [e4, abs_le]
  constructor <;> linarith

/-- the other way round -/
theorem Pair.across (h : Pair M H ε A B E) (hs : Spaces φ M H X) {b : Vec (Ieee φ) n} (hb : Within X b) {s : Vec (Ieee φ) n}
    (hsol : Close s (E *ᵥ values b) ((4 * ε + 43 * φ.u * H) * X)) :
    Close (A * s) (values b) ((1604 / 100 * ε * M + 345 * φ.u * (H * M)) * X) := by
  intro r
  have hX : 0 ≤ X := (abs_nonneg _).trans (hb r).2
  have hu := φ.u_nonneg
  have hM := h.hM
  have hH := h.hH
  have hε : 0 ≤ ε := (abs_nonneg _).trans (h.near r r).2
  have hHX : 0 ≤ H * X := by positivity
  have huHX : φ.u * (H * X) ≤ 1 / 1000000 * (H * X) := mul_le_mul_of_nonneg_right hs.small hHX
  have hεX : ε * X ≤ 1 / 100 * H * X := mul_le_mul_of_nonneg_right h.rel hX
  have hxX : Within (41 / 10 * (H * X)) s := fun i => ⟨(hsol i).1, by
    have h1 := mulVec_abs_le' h.hn h.size (fun i => (hb i).2) i
    have h2 := (hsol i).2
    have := abs_sub_abs_le_abs_sub (s.data i).val ((E *ᵥ values b) i)
    linarith [show |(E *ᵥ values b) i| ≤ 4 * (H * X) from h1]⟩
  have e : M * (41 / 10 * (H * X)) = 41 / 10 * (H * M * X) := by ring
  have k1 := mulVec_near h.hn hs.small (by rw [e]; exact hs.both _ (by norm_num) (by norm_num))
    (by rw [e, ← mul_assoc]; exact hs.both _ (by norm_num) (by norm_num)) h.entries hxX r
  refine ⟨k1.1, ?_⟩
  have k3 : |(exactly A *ᵥ values s) r - values b r| ≤ 4 * (M * ((4 * ε + 43 * φ.u * H) * X)) := by
    have e1 : values b = exactly A *ᵥ (E *ᵥ values b) := by rw [Matrix.mulVec_mulVec, h.right, Matrix.one_mulVec]
    rw [show (exactly A *ᵥ values s) r - values b r = (exactly A *ᵥ (values s - E *ᵥ values b)) r by
      conv_lhs => arg 2; rw [e1]
      rw [Matrix.mulVec_sub]; rfl]
    exact mulVec_abs_le' h.hn (fun r c => (h.entries c r).2) (fun i => (hsol i).2) r
  rw [e] at k1
  have hHMX : 0 ≤ φ.u * (H * M * X) := by positivity
  have hεMX : 0 ≤ ε * M * X := by positivity
  have c1 := abs_le.mp k1.2
  have c3 := abs_le.mp k3
  have e4 : (1604 / 100 * ε * M + 345 * φ.u * (H * M)) * X = 1604 / 100 * (ε * M * X) + 345 * (φ.u * (H * M * X)) := by ring
  rw [e4, abs_le]
  constructor <;> linarith

end Core

/-! ### the size of the inverse -/

theorem inverse_size {M K : ℝ} {A E : Matrix (Fin (n + 1)) (Fin (n + 1)) ℝ} (hA : ∀ r c, |A r c| ≤ M) (hM : 0 < M) (hK : M ^ (n + 1) ≤ K * |A.det|)
    (h : A * E = 1) (r c : Fin (n + 1)) : |E r c| ≤ n.factorial * K / M := by
  have hD : 0 < |A.det| := by
    rcases (abs_nonneg A.det).lt_or_eq with h | h
    · exact h
    · rw [← h, mul_zero] at hK; exact absurd hK (not_le.mpr (pow_pos hM _))
  have hE : A.det * E r c = A.adjugate r c := by
    have e : A.adjugate = A.det • E := by
      calc A.adjugate = A.adjugate * (A * E) := by rw [h, Matrix.mul_one]
        _ = A.det • E := by rw [← Matrix.mul_assoc, Matrix.adjugate_mul, Matrix.smul_mul, Matrix.one_mul]
    rw [e]; rfl
  have hadj : |A.adjugate r c| ≤ n.factorial * M ^ n := by
    rw [Matrix.adjugate_fin_succ_eq_det_submatrix, abs_mul, abs_pow, abs_neg, abs_one, one_pow, one_mul]
    have := Matrix.det_le (A := A.submatrix c.succAbove r.succAbove) (abv := AbsoluteValue.abs) (x := M) (fun i j => hA _ _)
    simpa [nsmul_eq_mul] using this
  rw [le_div_iff₀ hM]
  refine le_of_mul_le_mul_left ?_ hD
  calc |A.det| * (|E r c| * M) = |A.adjugate r c| * M := by rw [← hE, abs_mul]; ring
    _ ≤ n.factorial * M ^ n * M := mul_le_mul_of_nonneg_right hadj hM.le
    _ = n.factorial * M ^ (n + 1) := by ring
    _ ≤ n.factorial * (K * |A.det|) := mul_le_mul_of_nonneg_left hK (Nat.cast_nonneg _)
    _ = _ := by ring

/-- the determinant is not larger than `n!` times the product -/
theorem spread_ge {M K : ℝ} {A : Matrix (Fin n) (Fin n) ℝ} (hA : ∀ r c, |A r c| ≤ M) (hM : 0 < M) (hK : M ^ n ≤ K * |A.det|) :
    0 < K ∧ 1 ≤ n.factorial * K := by
  have hMn := pow_pos hM n
  have hK0 : 0 < K := by
    by_contra hc
    have := mul_nonpos_of_nonpos_of_nonneg (not_lt.mp hc) (abs_nonneg A.det)
    linarith
  have hd : |A.det| ≤ n.factorial * M ^ n := by
    have := Matrix.det_le (A := A) (abv := AbsoluteValue.abs) (x := M) hA
    simpa [nsmul_eq_mul] using this
  refine ⟨hK0, le_of_mul_le_mul_right (a := M ^ n) ?_ hMn⟩
  calc 1 * M ^ n ≤ K * (n.factorial * M ^ n) := by rw [one_mul]; exact hK.trans (mul_le_mul_of_nonneg_left hd hK0.le)
    _ = _ := by ring

/-- a computed inverse in the range of C103 -/
theorem pair_of (hn : n + 1 ≤ 4) {f : Mat (Ieee φ) (n + 1) (n + 1) → Option (Mat (Ieee φ) (n + 1) (n + 1))} {A : Mat (Ieee φ) (n + 1) (n + 1)} {M K C : ℝ} (hA : Entries M A)
    (hs : Sizes φ (n + 1) M K) (hK : M ^ (n + 1) ≤ K * |(exactly A).det|) (hC : C ≤ 11405)
    (h : Inverted f A (C * K ^ 2 * φ.u / M)) :
    ∃ B E, f A = some B ∧ Pair M (n.factorial * K / M) (C * K ^ 2 * φ.u / M) A B E := by
  obtain ⟨B, E, h1, h2, h3, h4⟩ := h
  have hM := hs.pos
  obtain ⟨hK0, hK1⟩ := spread_ge (A := exactly A) (fun r c => (hA c r).2) hM hK
  have hf : (1 : ℝ) ≤ n.factorial := by exact_mod_cast Nat.succ_le_of_lt n.factorial_pos
  refine ⟨B, E, h1, hA, h2, h3, h4, inverse_size (fun r c => (hA c r).2) hM hK h2, ?_, hM, by positivity, hn⟩
  have ht := hs.tame
  have hu := φ.u_nonneg
  rw [← mul_div_assoc, div_le_div_iff_of_pos_right hM]
  have hKu : 0 ≤ K * φ.u := by positivity
  have q1 : C * (K * φ.u) ≤ 11405 * (K * φ.u) := mul_le_mul_of_nonneg_right hC hKu
  have q2 : C * (K * φ.u) ≤ 1 / 100 := by linarith
  calc C * K ^ 2 * φ.u = C * (K * φ.u) * K := by ring
    _ ≤ 1 / 100 * K := mul_le_mul_of_nonneg_right q2 hK0.le
    _ ≤ 1 / 100 * (n.factorial * K) := by
      have := le_mul_of_one_le_left hK0.le hf
      linarith

section General
variable {f : Mat (Ieee φ) (n + 1) (n + 1) → Option (Mat (Ieee φ) (n + 1) (n + 1))} {A : Mat (Ieee φ) (n + 1) (n + 1)} {M K C D X : ℝ}

theorem close_mono {w : Vec (Ieee φ) n} {x : Fin n → ℝ} {e e' : ℝ} (h : Close w x e) (he : e ≤ e') : Close w x e' :=
  fun i => ⟨(h i).1, (h i).2.trans he⟩

theorem errors_le (hK0 : 0 < K) (hK1 : 1 ≤ (n + 1).factorial * K) (hM : 0 < M) (hX : 0 ≤ X)
    (hD : 1604 / 100 * C + 345 * n.factorial * (n + 1).factorial ≤ D) :
    (1604 / 100 * (C * K ^ 2 * φ.u / M) * M + 345 * φ.u * (n.factorial * K / M * M)) * X ≤ D * K ^ 2 * φ.u * X := by
  have hu := φ.u_nonneg
  have e1 : 1604 / 100 * (C * K ^ 2 * φ.u / M) * M = 1604 / 100 * C * (K ^ 2 * φ.u) := by field_simp
  have e2 : n.factorial * K / M * M = n.factorial * K := by field_simp
  rw [e1, e2]
  refine mul_le_mul_of_nonneg_right ?_ hX
  have q : K ≤ (n + 1).factorial * K ^ 2 := by nlinarith
  have q2 : 345 * φ.u * (n.factorial * K) ≤ 345 * n.factorial * (n + 1).factorial * (K ^ 2 * φ.u) := by
    calc 345 * φ.u * (n.factorial * K) ≤ 345 * φ.u * (n.factorial * ((n + 1).factorial * K ^ 2)) := by gcongr
      _ = _ := by ring
  have q3 := mul_le_mul_of_nonneg_right hD (show 0 ≤ K ^ 2 * φ.u by positivity)
  linarith

theorem undoes_of (hn : n + 1 ≤ 4) (hA : Entries M A) (hs : Sizes φ (n + 1) M K) (hK : M ^ (n + 1) ≤ K * |(exactly A).det|) (hC : C ≤ 11405)
    (h : Inverted f A (C * K ^ 2 * φ.u / M)) (hsp : Spaces φ M (n.factorial * K / M) X)
    (hD : 1604 / 100 * C + 345 * n.factorial * (n + 1).factorial ≤ D) : Undoes f A X (D * K ^ 2 * φ.u * X) := by
  obtain ⟨B, E, h1, hp⟩ := pair_of hn hA hs hK hC h
  obtain ⟨hK0, hK1⟩ := spread_ge (A := exactly A) (fun r c => (hA c r).2) hs.pos hK
  refine ⟨B, h1, fun x hx => ?_⟩
  have hX : 0 ≤ X := (abs_nonneg _).trans (hx 0).2
  exact ⟨close_mono (hp.back hsp (fun i => (hx i).2) (hp.forth hsp hx)) (errors_le hK0 hK1 hs.pos hX hD),
    close_mono (hp.across hsp hx (hp.solve hsp hx)) (errors_le hK0 hK1 hs.pos hX hD)⟩

theorem solves_of (hn : n + 1 ≤ 4) (hA : Entries M A) (hs : Sizes φ (n + 1) M K) (hK : M ^ (n + 1) ≤ K * |(exactly A).det|) (hC : C ≤ 11405)
    (h : Inverted f A (C * K ^ 2 * φ.u / M)) (hsp : Spaces φ M (n.factorial * K / M) X)
    (hD : 4 * C + 43 * n.factorial * (n + 1).factorial ≤ D) : Solves f A X (D * K ^ 2 * φ.u * X / M) := by
  obtain ⟨B, E, h1, hp⟩ := pair_of hn hA hs hK hC h
  obtain ⟨hK0, hK1⟩ := spread_ge (A := exactly A) (fun r c => (hA c r).2) hs.pos hK
  have hM := hs.pos
  refine ⟨B, h1, fun b hb => ⟨E *ᵥ values b, ?_, ?_, ?_⟩⟩
  · rw [Matrix.mulVec_mulVec, hp.right, Matrix.one_mulVec]
  · intro x' hx'
    rw [← hx', Matrix.mulVec_mulVec, hp.left, Matrix.one_mulVec]
  · have hX : 0 ≤ X := (abs_nonneg _).trans (hb 0).2
    have hu := φ.u_nonneg
    refine close_mono (hp.solve hsp hb) ?_
    rw [le_div_iff₀ hM]
    have e : (4 * (C * K ^ 2 * φ.u / M) + 43 * φ.u * (n.factorial * K / M)) * X * M = (4 * C * (K ^ 2 * φ.u) + 43 * φ.u * (n.factorial * K)) * X := by
      field_simp
    rw [e]
    refine mul_le_mul_of_nonneg_right ?_ hX
    have q : K ≤ (n + 1).factorial * K ^ 2 := by nlinarith
    have q2 : 43 * φ.u * (n.factorial * K) ≤ 43 * n.factorial * (n + 1).factorial * (K ^ 2 * φ.u) := by
      calc 43 * φ.u * (n.factorial * K) ≤ 43 * φ.u * (n.factorial * ((n + 1).factorial * K ^ 2)) := by gcongr
        _ = _ := by ring
    have q3 := mul_le_mul_of_nonneg_right hD (show 0 ≤ K ^ 2 * φ.u by positivity)
    linarith

end General

/-! ### the formats -/

theorem spaces_of {P J Q M K X : ℝ} {w : ℕ} (hu : φ.u ≤ 1 / 1000000) (hfits : ∀ a : ℝ, 1 ≤ Q * a → a ≤ Q → Fits φ a) (hP : 1 ≤ P) (hJ : 1 ≤ J) (hQ : 120 * (P ^ 2 * J) ≤ Q)
    (m1 : 1 ≤ P * M) (m2 : M ≤ P) (x1 : 1 ≤ P * X) (x2 : X ≤ P) (k1 : 1 ≤ 24 * K) (k2 : K ≤ J) (w1 : 1 ≤ w) (w2 : w ≤ 6) :
    Spaces φ M (w * K / M) X := by
  have hM : 0 < M := by by_contra h; have := mul_nonpos_of_nonneg_of_nonpos (by linarith : (0 : ℝ) ≤ P) (not_lt.mp h); linarith
  have hX : 0 < X := by by_contra h; have := mul_nonpos_of_nonneg_of_nonpos (by linarith : (0 : ℝ) ≤ P) (not_lt.mp h); linarith
  have w1' : (1 : ℝ) ≤ w := by exact_mod_cast w1
  have w2' : (w : ℝ) ≤ 6 := by exact_mod_cast w2
  have hK : 0 < K := by linarith
  have hPP : 1 ≤ P ^ 2 := one_le_pow₀ hP
  have hPP' : P ≤ P ^ 2 := by nlinarith
  have hPJ : P ^ 2 ≤ P ^ 2 * J := le_mul_of_one_le_right (by positivity) hJ
  have gen : ∀ a : ℝ, 0 < a → 1 ≤ 24 * P ^ 2 * a → a ≤ 6 * (P ^ 2 * J) → ∀ k : ℝ, 1 ≤ k → k ≤ 20 → Fits φ (k * a) := by
    intro a a0 a1 a2 k h1 h2
    refine hfits _ ?_ ?_
    · calc (1 : ℝ) ≤ 24 * P ^ 2 * a := a1
        _ ≤ Q * (1 * a) := by rw [one_mul]; exact mul_le_mul_of_nonneg_right (by linarith) a0.le
        _ ≤ Q * (k * a) := mul_le_mul_of_nonneg_left (mul_le_mul_of_nonneg_right h1 a0.le) (by linarith)
    · calc k * a ≤ 20 * (6 * (P ^ 2 * J)) := mul_le_mul h2 a2 a0.le (by norm_num)
        _ ≤ Q := by linarith
  have wk1 : 1 ≤ 24 * (w * K) := by have := le_mul_of_one_le_left hK.le w1'; linarith
  have wk2 : w * K ≤ 6 * J := mul_le_mul w2' k2 hK.le (by norm_num)
  have hPM : (1 : ℝ) ≤ (P * M) * (P * X) := one_le_mul_of_one_le_of_one_le m1 x1
  refine ⟨hu, gen _ (by positivity) ?_ ?_, gen _ (by positivity) ?_ ?_, gen _ (by positivity) ?_ ?_⟩
  · nlinarith
  · have : M * X ≤ P * P := mul_le_mul m2 x2 hX.le (by linarith)
    nlinarith
  · rw [div_mul_eq_mul_div, mul_div_assoc', le_div_iff₀ hM]
    have q : 1 ≤ 24 * (w * K) * (P * X) := one_le_mul_of_one_le_of_one_le wk1 x1
    have q2 : 1 * M ≤ 24 * (w * K) * (P * X) * P := mul_le_mul q m2 hM.le (by linarith)
    linarith
  · rw [div_mul_eq_mul_div, div_le_iff₀ hM]
    have q1 : w * K * X ≤ 6 * J * P := mul_le_mul wk2 x2 hX.le (by linarith)
    have q2 : 6 * J * P * 1 ≤ 6 * J * P * (P * M) := mul_le_mul_of_nonneg_left m1 (by positivity)
    linarith
  · have e : w * K / M * M * X = w * K * X := by field_simp
    rw [e]
    have q : 1 ≤ 24 * (w * K) * (P * X) := one_le_mul_of_one_le_of_one_le wk1 x1
    have q2 : 24 * (w * K) * X * P ≤ 24 * (w * K) * X * P ^ 2 := mul_le_mul_of_nonneg_left hPP' (by positivity)
    linarith
  · have e : w * K / M * M * X = w * K * X := by field_simp
    rw [e]
    have q1 : w * K * X ≤ 6 * J * P := mul_le_mul wk2 x2 hX.le (by linarith)
    have q2 : 6 * J * P ≤ 6 * J * P ^ 2 := mul_le_mul_of_nonneg_left hPP' (by positivity)
    linarith

theorem below_zpow {p : ℕ} {a : ℝ} (h : (2 : ℝ) ^ (-(p : ℤ)) ≤ a) : 1 ≤ (2 : ℝ) ^ p * a := by
  have := two_pow_eq p
  rw [mul_comm] at this
  rw [← this]
  exact mul_le_mul_of_nonneg_left h (by positivity)

theorem room_900 : 120 * (((2 : ℝ) ^ 200) ^ 2 * 2 ^ 30) ≤ 2 ^ 900 := by
  calc 120 * (((2 : ℝ) ^ 200) ^ 2 * 2 ^ 30) ≤ 2 ^ 7 * (((2 : ℝ) ^ 200) ^ 2 * 2 ^ 30) := mul_le_mul_of_nonneg_right (by norm_num) (by positivity)
    _ = 2 ^ 437 := by rw [← pow_mul, ← pow_add, ← pow_add]
    _ ≤ 2 ^ 900 := pow_le_pow_right₀ one_le_two (by norm_num)

theorem spaces64 {M K X : ℝ} {w : ℕ} (m1 : (2 : ℝ) ^ (-200 : ℤ) ≤ M) (m2 : M ≤ 2 ^ (200 : ℤ)) (x1 : (2 : ℝ) ^ (-200 : ℤ) ≤ X) (x2 : X ≤ 2 ^ (200 : ℤ))
    (k1 : 1 ≤ 24 * K) (k2 : K ≤ 2 ^ 30) (w1 : 1 ≤ w) (w2 : w ≤ 6) : Spaces f64 M (w * K / M) X := by
  refine spaces_of (P := 2 ^ 200) (J := 2 ^ 30) (Q := 2 ^ 900) (by rw [show f64.u = 2 ^ (-53 : ℤ) from rfl]; norm_num) ?_ (one_le_pow₀ one_le_two) (one_le_pow₀ one_le_two) room_900
    (below_zpow (p := 200) m1) (by exact_mod_cast m2) (below_zpow (p := 200) x1) (by exact_mod_cast x2) k1 k2 w1 w2
  intro a a1 a2
  refine fits64 ((zpow_le_zpow_right₀ one_le_two (by norm_num)).trans (above_zpow a1)) (a2.trans ?_)
  rw [← zpow_natCast]; exact zpow_le_zpow_right₀ one_le_two (by norm_num)

theorem spaces32 {M K X : ℝ} {w : ℕ} (m1 : (2 : ℝ) ^ (-25 : ℤ) ≤ M) (m2 : M ≤ 2 ^ (25 : ℤ)) (x1 : (2 : ℝ) ^ (-25 : ℤ) ≤ X) (x2 : X ≤ 2 ^ (25 : ℤ))
    (k1 : 1 ≤ 24 * K) (k2 : K ≤ 11) (w1 : 1 ≤ w) (w2 : w ≤ 6) : Spaces f32 M (w * K / M) X := by
  refine spaces_of (P := 2 ^ 25) (J := 2 ^ 4) (Q := 2 ^ 126) (by rw [show f32.u = 2 ^ (-24 : ℤ) from rfl]; norm_num) ?_ (one_le_pow₀ one_le_two) (one_le_pow₀ one_le_two) (by norm_num)
    (below_zpow (p := 25) m1) (by exact_mod_cast m2) (below_zpow (p := 25) x1) (by exact_mod_cast x2) k1 (by linarith) w1 w2
  intro a a1 a2
  refine fits32 ((zpow_le_zpow_right₀ one_le_two (by norm_num)).trans (above_zpow a1)) (a2.trans ?_)
  rw [← zpow_natCast]; exact zpow_le_zpow_right₀ one_le_two (by norm_num)

theorem spread_24 {M K : ℝ} {A : Mat (Ieee φ) n n} (hn : n ≤ 4) (hA : Entries M A) (hM : 0 < M) (hK : M ^ n ≤ K * |(exactly A).det|) : 1 ≤ 24 * K := by
  obtain ⟨h0, h1⟩ := spread_ge (A := exactly A) (fun r c => (hA c r).2) hM hK
  have : (n.factorial : ℝ) ≤ 24 := by exact_mod_cast (Nat.factorial_le hn)
  exact h1.trans (mul_le_mul_of_nonneg_right this h0.le)

section F64
variable {M K X : ℝ}

/-- **C105.**  `f64`: multiplying by a matrix and by its computed inverse, in either order, returns the vector with an error of at most a multiple of
`K ^ 2` roundings of the size of the vector. -/
theorem C105_round_trip64 (m1 : (2 : ℝ) ^ (-200 : ℤ) ≤ M) (m2 : M ≤ 2 ^ (200 : ℤ)) (x1 : (2 : ℝ) ^ (-200 : ℤ) ≤ X) (x2 : X ≤ 2 ^ (200 : ℤ))
    (hK : K ≤ 2 ^ 30) :
    (∀ A : Mat (Ieee f64) 2 2, Entries M A → M ^ 2 ≤ K * |(exactly A).det| → Undoes tryInverse2 A X (1100 * K ^ 2 * 2 ^ (-53 : ℤ) * X)) ∧
    (∀ A : Mat (Ieee f64) 3 3, Entries M A → M ^ 3 ≤ K * |(exactly A).det| → Undoes tryInverse3 A X (9300 * K ^ 2 * 2 ^ (-53 : ℤ) * X)) ∧
    (∀ A : Mat (Ieee f64) 4 4, Entries M A → M ^ 4 ≤ K * |(exactly A).det| → Undoes tryInverse4 A X (240000 * K ^ 2 * 2 ^ (-53 : ℤ) * X)) := by
  have hM : 0 < M := lt_of_lt_of_le (by positivity) m1
  obtain ⟨i2, i3, i4⟩ := C103_f64 m1 m2 hK
  refine ⟨fun A hA h => ?_, fun A hA h => ?_, fun A hA h => ?_⟩
  · exact undoes_of (n := 1) (by norm_num) hA (sizes64 (by norm_num) m1 m2 hK) h (by norm_num) (i2 A hA h)
      (spaces64 m1 m2 x1 x2 (spread_24 (by norm_num) hA hM h) hK (by decide) (by decide)) (by norm_num [Nat.factorial])
  · exact undoes_of (n := 2) (by norm_num) hA (sizes64 (by norm_num) m1 m2 hK) h (by norm_num) (i3 A hA h)
      (spaces64 m1 m2 x1 x2 (spread_24 (by norm_num) hA hM h) hK (by decide) (by decide)) (by norm_num [Nat.factorial])
  · exact undoes_of (n := 3) (by norm_num) hA (sizes64 (by norm_num) m1 m2 hK) h (by norm_num) (i4 A hA h)
      (spaces64 m1 m2 x1 x2 (spread_24 (by norm_num) hA hM h) hK (by decide) (by decide)) (by norm_num [Nat.factorial])

/-- **C105.**  `f64`: the product of the computed inverse and a right hand side solves the system of linear equations. -/
theorem C105_solve64 (m1 : (2 : ℝ) ^ (-200 : ℤ) ≤ M) (m2 : M ≤ 2 ^ (200 : ℤ)) (x1 : (2 : ℝ) ^ (-200 : ℤ) ≤ X) (x2 : X ≤ 2 ^ (200 : ℤ))
    (hK : K ≤ 2 ^ 30) :
    (∀ A : Mat (Ieee f64) 2 2, Entries M A → M ^ 2 ≤ K * |(exactly A).det| → Solves tryInverse2 A X (180 * K ^ 2 * 2 ^ (-53 : ℤ) * X / M)) ∧
    (∀ A : Mat (Ieee f64) 3 3, Entries M A → M ^ 3 ≤ K * |(exactly A).det| → Solves tryInverse3 A X (1800 * K ^ 2 * 2 ^ (-53 : ℤ) * X / M)) ∧
    (∀ A : Mat (Ieee f64) 4 4, Entries M A → M ^ 4 ≤ K * |(exactly A).det| → Solves tryInverse4 A X (52000 * K ^ 2 * 2 ^ (-53 : ℤ) * X / M)) := by
  have hM : 0 < M := lt_of_lt_of_le (by positivity) m1
  obtain ⟨i2, i3, i4⟩ := C103_f64 m1 m2 hK
  refine ⟨fun A hA h => ?_, fun A hA h => ?_, fun A hA h => ?_⟩
  · exact solves_of (n := 1) (by norm_num) hA (sizes64 (by norm_num) m1 m2 hK) h (by norm_num) (i2 A hA h)
      (spaces64 m1 m2 x1 x2 (spread_24 (by norm_num) hA hM h) hK (by decide) (by decide)) (by norm_num [Nat.factorial])
  · exact solves_of (n := 2) (by norm_num) hA (sizes64 (by norm_num) m1 m2 hK) h (by norm_num) (i3 A hA h)
      (spaces64 m1 m2 x1 x2 (spread_24 (by norm_num) hA hM h) hK (by decide) (by decide)) (by norm_num [Nat.factorial])
  · exact solves_of (n := 3) (by norm_num) hA (sizes64 (by norm_num) m1 m2 hK) h (by norm_num) (i4 A hA h)
      (spaces64 m1 m2 x1 x2 (spread_24 (by norm_num) hA hM h) hK (by decide) (by decide)) (by norm_num [Nat.factorial])

/-- **C105.**  `f32` -/
theorem C105_round_trip32 (m1 : (2 : ℝ) ^ (-25 : ℤ) ≤ M) (m2 : M ≤ 2 ^ (25 : ℤ)) (x1 : (2 : ℝ) ^ (-25 : ℤ) ≤ X) (x2 : X ≤ 2 ^ (25 : ℤ))
    (hK : K ≤ 11) :
    (∀ A : Mat (Ieee f32) 2 2, Entries M A → M ^ 2 ≤ K * |(exactly A).det| → Undoes tryInverse2 A X (1100 * K ^ 2 * 2 ^ (-24 : ℤ) * X)) ∧
    (∀ A : Mat (Ieee f32) 3 3, Entries M A → M ^ 3 ≤ K * |(exactly A).det| → Undoes tryInverse3 A X (9300 * K ^ 2 * 2 ^ (-24 : ℤ) * X)) ∧
    (∀ A : Mat (Ieee f32) 4 4, Entries M A → M ^ 4 ≤ K * |(exactly A).det| → Undoes tryInverse4 A X (240000 * K ^ 2 * 2 ^ (-24 : ℤ) * X)) := by
  have hM : 0 < M := lt_of_lt_of_le (by positivity) m1
  obtain ⟨i2, i3, i4⟩ := C103_f32 m1 m2 hK
  refine ⟨fun A hA h => ?_, fun A hA h => ?_, fun A hA h => ?_⟩
  · exact undoes_of (n := 1) (by norm_num) hA (sizes32 (by norm_num) m1 m2 hK) h (by norm_num) (i2 A hA h)
      (spaces32 m1 m2 x1 x2 (spread_24 (by norm_num) hA hM h) hK (by decide) (by decide)) (by norm_num [Nat.factorial])
  · exact undoes_of (n := 2) (by norm_num) hA (sizes32 (by norm_num) m1 m2 hK) h (by norm_num) (i3 A hA h)
      (spaces32 m1 m2 x1 x2 (spread_24 (by norm_num) hA hM h) hK (by decide) (by decide)) (by norm_num [Nat.factorial])
  · exact undoes_of (n := 3) (by norm_num) hA (sizes32 (by norm_num) m1 m2 hK) h (by norm_num) (i4 A hA h)
      (spaces32 m1 m2 x1 x2 (spread_24 (by norm_num) hA hM h) hK (by decide) (by decide)) (by norm_num [Nat.factorial])

end F64

/-! ### transformations -/

namespace Spec

/-- the bottom row is `0 ... 0 1` -/
structure AffineMatrix (A : Mat (Ieee φ) (n + 1) (n + 1)) : Prop where
  bottom : ∀ c : Fin n, (A.data c.castSucc (Fin.last n)).val = 0
  corner : (A.data (Fin.last n) (Fin.last n)).val = 1

/-- a point with finite coordinates of at most `X` -/
def PointWithin (X : ℝ) (p : Pt (Ieee φ) n) : Prop := Within X p.coords

/-- the point `q` is within `e` of `p` -/
def PointClose (q p : Pt (Ieee φ) n) (e : ℝ) : Prop := Close q.coords (values p.coords) e

end Spec

/-- a loop over numbers that are zero -/
theorem loop_vanishes {f : Fin n → Ieee φ} (h : ∀ i, (f i).Finite ∧ (f i).val = 0) :
    (forRange n 0 fun i result => result + f i).Finite ∧ (forRange n 0 fun i result => result + f i).val = 0 := by
  refine forRange_induction (P := fun _ (x : Ieee φ) => x.Finite ∧ x.val = 0) ⟨finite_zero, rfl⟩ ?_
  rintro i x ⟨h1, h2⟩
  have e : φ.fl (x.val + (f i).val) = 0 := by rw [h2, (h i).2, _root_.add_zero, ← h2, val_rep]
  have hf := finite_add_of h1 (h i).1 (by rw [e, abs_zero]; linarith [φ.one_le_big])
  exact ⟨hf, by rw [val_add hf, e]⟩

theorem mul_vanishes {x y : Ieee φ} (hx : x.Finite) (hy : y.Finite) (h : x.val * y.val = 0) : (x * y).Finite ∧ (x * y).val = 0 := by
  have e : φ.fl (x.val * y.val) = 0 := by
    rw [h]; exact val_rep (0 : Ieee φ)
  have hf := finite_mul_of hx hy (by rw [e, abs_zero]; linarith [φ.one_le_big])
  exact ⟨hf, by rw [val_mul hf, e]⟩

/-- the last component of a product when the bottom row is zero up to its last entry -/
theorem last_component {A : Mat (Ieee φ) (n + 1) (n + 1)} {v : Vec (Ieee φ) (n + 1)} (hA : ∀ c, (A.data c (Fin.last n)).Finite)
    (hb : ∀ c : Fin n, (A.data c.castSucc (Fin.last n)).val = 0) (hv : ∀ i, (v.data i).Finite)
    (hl : (A.data (Fin.last n) (Fin.last n) * v.data (Fin.last n)).Finite) :
    ((A * v).data (Fin.last n)).Finite ∧
      ((A * v).data (Fin.last n)).val = (A.data (Fin.last n) (Fin.last n) * v.data (Fin.last n)).val := by
  rw [mulVec_data_op, forRange_succ]
  obtain ⟨h1, h2⟩ := loop_vanishes (f := fun i : Fin n => A.data i.castSucc (Fin.last n) * v.data i.castSucc)
    fun i => mul_vanishes (hA _) (hv _) (by rw [hb, zero_mul])
  set y := A.data (Fin.last n) (Fin.last n) * v.data (Fin.last n)
  have e : φ.fl ((forRange n 0 fun i result => result + A.data i.castSucc (Fin.last n) * v.data i.castSucc : Ieee φ).val + y.val) = y.val := by
    rw [h2, _root_.zero_add, val_rep]
  have hf := finite_add_of h1 hl (by rw [e]; exact abs_val_le_big y)
  exact ⟨hf, by rw [val_add hf, e]⟩

theorem apply_point_eq {t : Transform (Ieee φ) n} {p : Pt (Ieee φ) n} (h : ((t.matrix * p.toHomogeneous).data (Fin.last n)).Finite)
    (h0 : ((t.matrix * p.toHomogeneous).data (Fin.last n)).val ≠ 0) :
    t.applyPoint p = .ok ⟨⟨fun i => (t.matrix * p.toHomogeneous).data i.castSucc / (t.matrix * p.toHomogeneous).data (Fin.last n)⟩⟩ := by
  have e : ((t.matrix * p.toHomogeneous).data (Fin.last n) != 0) = true := by rw [bne, nonzero_beq h h0]; rfl
  rw [Transform.applyPoint, Pt.fromHomogeneous, if_pos e, forRange_update]
  rfl

theorem exact_last {A : Mat (Ieee φ) (n + 1) (n + 1)} (h : AffineMatrix A) (x : Fin (n + 1) → ℝ) : (exactly A *ᵥ x) (Fin.last n) = x (Fin.last n) := by
  show ∑ c, exactly A (Fin.last n) c * x c = _
  rw [Fin.sum_univ_castSucc]
  have : ∀ c : Fin n, exactly A (Fin.last n) c.castSucc * x c.castSucc = 0 := fun c => by
    rw [show exactly A (Fin.last n) c.castSucc = 0 from h.bottom c, zero_mul]
  rw [Finset.sum_congr rfl fun c _ => this c, Finset.sum_const_zero, _root_.zero_add, show exactly A (Fin.last n) (Fin.last n) = 1 from h.corner,
    one_mul]

section Go
variable {M H X ε : ℝ} {A B : Mat (Ieee φ) (n + 1) (n + 1)} {E : Matrix (Fin (n + 1)) (Fin (n + 1)) ℝ}

theorem within_extend {v : Vec (Ieee φ) n} {x : Ieee φ} (hv : Within X v) (hx : x.Finite) (h : |x.val| ≤ X) : Within X (v.extend x) := by
  intro i
  refine Fin.lastCases ?_ (fun i => ?_) i
  · rw [Vec.extend_last]; exact ⟨hx, h⟩
  · rw [Vec.extend_castSucc]; exact hv i

theorem Pair.corner (h : Pair M H ε A B E) (hA : AffineMatrix A) : E (Fin.last n) (Fin.last n) = 1 := by
  have := exact_last hA (fun c => E c (Fin.last n))
  rw [← this]
  have e := congrFun (congrFun h.right (Fin.last n)) (Fin.last n)
  rw [Matrix.one_apply_eq] at e
  exact e

/-- a transformation applied to a point and undone -/
theorem Pair.point (h : Pair M H ε A B E) (hA : AffineMatrix A) (hB : ∀ c : Fin n, (B.data c.castSucc (Fin.last n)).val = 0) (hs : Spaces φ M H X)
    (hX : 1 ≤ X) (hF : Fits φ (2 * X)) (hε : ε ≤ 1 / 100) {δ : ℝ} (hδ : (1604 / 100 * ε * M + 345 * φ.u * (H * M)) ≤ δ) (hδ1 : δ ≤ 1 / 2) {p : Pt (Ieee φ) n} (hp : PointWithin X p) :
    ∃ q r : Pt (Ieee φ) n, (Transform.mk A).applyPoint p = .ok q ∧ (Transform.mk B).applyPoint q = .ok r ∧
      PointClose r p ((100 / 99 * (δ + ε) + 406 / 100 * φ.u) * X) := by
  have hph : Within X p.toHomogeneous := within_extend hp finite_one (by rw [show (1 : Ieee φ).val = 1 from rfl, abs_one]; exact hX)
  have hx : ∀ i, |values p.toHomogeneous i| ≤ X := fun i => (hph i).2
  have forth := h.forth hs hph
  have l1 := last_component (fun c => (h.entries c _).1) hA.bottom (fun i => (hph i).1)
    (by rw [Pt.toHomogeneous, Vec.extend_last, Homogeneous.mul_one]; exact (h.entries _ _).1)
  rw [show p.toHomogeneous.data (Fin.last n) = 1 from Vec.extend_last _ _, Homogeneous.mul_one, hA.corner] at l1
  have hq := apply_point_eq (t := ⟨A⟩) l1.1 (by show ((A * p.toHomogeneous).data (Fin.last n)).val ≠ 0; rw [l1.2]; exact one_ne_zero)
  set q : Pt (Ieee φ) n := ⟨⟨fun i => (A * p.toHomogeneous).data i.castSucc / (A * p.toHomogeneous).data (Fin.last n)⟩⟩ with hqd
  have hqv : ∀ i, (q.coords.data i).Finite ∧ (q.coords.data i).val = ((A * p.toHomogeneous).data i.castSucc).val := by
    intro i
    have e : φ.fl (((A * p.toHomogeneous).data i.castSucc).val / ((A * p.toHomogeneous).data (Fin.last n)).val) = ((A * p.toHomogeneous).data i.castSucc).val := by
      rw [l1.2, _root_.div_one, val_rep]
    have hf := finite_div_of (forth i.castSucc).1 l1.1 (by rw [l1.2]; exact one_ne_zero) (by rw [e]; exact abs_val_le_big _)
    exact ⟨hf, by rw [hqd]; exact (val_div hf l1.1).1.trans e⟩
  have hy : Close q.toHomogeneous (exactly A *ᵥ values p.toHomogeneous) (42 * φ.u * (M * X)) := by
    intro i
    refine Fin.lastCases ?_ (fun i => ?_) i
    · rw [exact_last hA, Pt.toHomogeneous, Vec.extend_last]
      refine ⟨finite_one, ?_⟩
      rw [values, show p.toHomogeneous.data (Fin.last n) = 1 from Vec.extend_last _ _, sub_self, abs_zero]
      have := φ.u_nonneg
      have := h.hM
      positivity
    · rw [Pt.toHomogeneous, Vec.extend_castSucc]
      refine ⟨(hqv i).1, ?_⟩
      rw [(hqv i).2]
      exact (forth i.castSucc).2
  have back := h.back hs hx hy
  have l2 := last_component (fun c => (h.near _ c).1) hB (fun i => (hy i).1)
    (by rw [Pt.toHomogeneous, Vec.extend_last, Homogeneous.mul_one]; exact (h.near _ _).1)
  rw [show q.toHomogeneous.data (Fin.last n) = 1 from Vec.extend_last _ _, Homogeneous.mul_one] at l2
  have hw := (h.near (Fin.last n) (Fin.last n)).2
  rw [h.corner hA, ← l2.2] at hw
  set w := (B * q.toHomogeneous).data (Fin.last n) with hwd
  have hw' := abs_le.mp hw
  have hw0 : 99 / 100 ≤ w.val := by linarith
  have hwne : w.val ≠ 0 := by linarith
  have hr := apply_point_eq (t := ⟨B⟩) (p := q) l2.1 hwne
  refine ⟨q, _, hq, hr, fun i => ?_⟩
  obtain ⟨z1, z2⟩ := back i.castSucc
  have ep : values p.toHomogeneous i.castSucc = (p.coords.data i).val := by rw [values, Pt.toHomogeneous, Vec.extend_castSucc]
  rw [ep] at z2
  have hpi := (hp i).2
  set z := (B * q.toHomogeneous).data i.castSucc with hzd
  set x := (p.coords.data i).val
  have hX0 : 0 ≤ X := by linarith
  have z3 : |z.val - x| ≤ δ * X := z2.trans (mul_le_mul_of_nonneg_right hδ hX0)
  have hε0 : 0 ≤ ε := (abs_nonneg _).trans hw
  have key : |z.val / w.val - x| ≤ 100 / 99 * (δ + ε) * X := by
    have e : z.val / w.val - x = ((z.val - x) - x * (w.val - 1)) / w.val := by field_simp; ring
    rw [e, abs_div, abs_of_pos (by linarith : 0 < w.val), div_le_iff₀ (by linarith)]
    have q1 : |x * (w.val - 1)| ≤ X * ε := by rw [abs_mul]; exact mul_le_mul hpi hw (abs_nonneg _) hX0
    have q2 := (abs_sub (z.val - x) (x * (w.val - 1))).trans (add_le_add z3 q1)
    have hδ0 : 0 ≤ δ * X := (abs_nonneg _).trans z3
    have q3 : 100 / 99 * (δ + ε) * X * (99 / 100) ≤ 100 / 99 * (δ + ε) * X * w.val :=
      mul_le_mul_of_nonneg_left hw0 (by have := mul_nonneg hε0 hX0; linarith)
    linarith
  have hbig : |z.val / w.val| ≤ 102 / 100 * (2 * X) := by
    have a1 := abs_sub_abs_le_abs_sub (z.val / w.val) x
    have a2 : 100 / 99 * (δ + ε) * X ≤ 100 / 99 * (1 / 2 + 1 / 100) * X := mul_le_mul_of_nonneg_right (by linarith) hX0
    linarith
  obtain ⟨r1, r2⟩ := hF.round hs.small hbig
  have hf := finite_div_of z1 l2.1 hwne r1
  refine ⟨hf, ?_⟩
  show |(z / w).val - x| ≤ _
  rw [(val_div hf l2.1).1]
  have b1 := abs_le.mp r2
  have b2 := abs_le.mp key
  rw [abs_le]; constructor <;> linarith

/-- a vector, with the last homogeneous coordinate set to zero again -/
theorem close_contract {z : Vec (Ieee φ) (n + 1)} {x : Fin (n + 1) → ℝ} {e : ℝ} (h : Close z x e) (h0 : x (Fin.last n) = 0) :
    Close (z.contract.extend 0) x e := by
  intro i
  refine Fin.lastCases ?_ (fun i => ?_) i
  · rw [Vec.extend_last, h0]
    exact ⟨finite_zero, by rw [show (0 : Ieee φ).val = 0 from rfl, sub_zero, abs_zero]; exact (abs_nonneg _).trans (h (Fin.last n)).2⟩
  · rw [Vec.extend_castSucc, Vec.contract_data]; exact h i.castSucc

theorem close_vector {z : Vec (Ieee φ) (n + 1)} {v : Vec (Ieee φ) n} {e : ℝ} (h : Close z (values (v.extend 0)) e) : Close z.contract (values v) e := by
  intro i
  rw [Vec.contract_data]
  have := h i.castSucc
  rwa [show values (v.extend 0) i.castSucc = values v i by rw [values, Vec.extend_castSucc]; rfl] at this

theorem Pair.bottom (h : Pair M H ε A B E) (hA : AffineMatrix A) (c : Fin n) : E (Fin.last n) c.castSucc = 0 := by
  have := exact_last hA (fun i => E i c.castSucc)
  rw [← this]
  have e := congrFun (congrFun h.right (Fin.last n)) c.castSucc
  rw [Matrix.one_apply_ne (Fin.castSucc_lt_last c).ne'] at e
  exact e

theorem Pair.vector (h : Pair M H ε A B E) (hA : AffineMatrix A) (hs : Spaces φ M H X) {v : Vec (Ieee φ) n} (hv : Within X v) (hX : 0 ≤ X) :
    Close ((Transform.mk B).applyVector ((Transform.mk A).applyVector v)) (values v) ((1604 / 100 * ε * M + 345 * φ.u * (H * M)) * X) ∧
    Close ((Transform.mk A).applyVector ((Transform.mk B).applyVector v)) (values v) ((1604 / 100 * ε * M + 345 * φ.u * (H * M)) * X) := by
  have hvh : Within X (v.extend 0) := within_extend hv finite_zero (by rw [show (0 : Ieee φ).val = 0 from rfl, abs_zero]; exact hX)
  have e0 : values (v.extend 0) (Fin.last n) = 0 := by rw [values, Vec.extend_last]; rfl
  constructor
  · refine close_vector (h.back hs (fun i => (hvh i).2) (close_contract (h.forth hs hvh) ?_))
    rw [exact_last hA]; exact e0
  · refine close_vector (h.across hs hvh (close_contract (h.solve hs hvh) ?_))
    have e1 := exact_last hA (E *ᵥ values (v.extend 0))
    rw [← e1, Matrix.mulVec_mulVec, h.right, Matrix.one_mulVec, e0]

end Go

/-! ### the bottom row of the computed inverse -/

/-- zero, of either sign -/
def Nil (x : Ieee φ) : Prop := x.Finite ∧ x.val = 0

namespace Nil
variable {x y : Ieee φ}

theorem add (hx : Nil x) (hy : Nil y) : Nil (x + y) := by
  have e : φ.fl (x.val + y.val) = 0 := by rw [hx.2, hy.2, _root_.add_zero]; exact val_rep (0 : Ieee φ)
  have hf := finite_add_of hx.1 hy.1 (by rw [e, abs_zero]; linarith [φ.one_le_big])
  exact ⟨hf, by rw [val_add hf, e]⟩

theorem neg (hx : Nil x) : Nil (-x) := by
  have := (show Nr x 0 0 from ⟨hx.1, by rw [hx.2]; simp⟩).neg
  refine ⟨this.1, ?_⟩
  have h := abs_le.mp this.2
  linarith [h.1, h.2]

theorem sub (hx : Nil x) (hy : Nil y) : Nil (x - y) := hx.add hy.neg

theorem mul (hx : x.Finite) (hy : Nil y) : Nil (x * y) := mul_vanishes hx hy.1 (by rw [hy.2, mul_zero])
theorem mul' (hx : Nil x) (hy : y.Finite) : Nil (x * y) := mul_vanishes hx.1 hy (by rw [hx.2, zero_mul])

theorem over (hy : Nil y) (h : (x * y).Finite) : (x * y).val = 0 := by
  rw [val_mul h, hy.2, mul_zero]; exact val_rep (0 : Ieee φ)

end Nil

theorem bottom3 {M K : ℝ} {A B : Mat (Ieee φ) 3 3} (hA : Entries M A) (ha : AffineMatrix A) (h : A.tryInverse3 = some B)
    (hB : ∀ r c, (B.data c r).Finite) (c : Fin 2) : (B.data c.castSucc (Fin.last 2)).val = 0 := by
  have z0 : Nil (A.data 0 2) := ⟨(hA _ _).1, ha.bottom 0⟩
  have z1 : Nil (A.data 1 2) := ⟨(hA _ _).1, ha.bottom 1⟩
  have f : ∀ c r, (A.data c r).Finite := fun c r => (hA c r).1
  unfold tryInverse3 at h
  simp only at h
  split at h
  · exact absurd h (by simp)
  · simp only [Option.some.injEq] at h
    subst h
    have hc := hB (Fin.last 2) c.castSucc
    fin_cases c
    · exact Nil.over (Nil.sub (Nil.mul (f _ _) z1) (Nil.mul' z0 (f _ _))) hc
    · exact Nil.over (Nil.sub (Nil.mul' z0 (f _ _)) (Nil.mul (f _ _) z1)) hc

theorem bottom4 {M K : ℝ} {A B : Mat (Ieee φ) 4 4} (hA : Entries M A) (hs : Sizes φ 4 M K) (ha : AffineMatrix A) (h : A.tryInverse4 = some B)
    (hB : ∀ r c, (B.data c r).Finite) (c : Fin 3) : (B.data c.castSucc (Fin.last 3)).val = 0 := by
  have z0 : Nil (A.data 0 3) := ⟨(hA _ _).1, ha.bottom 0⟩
  have z1 : Nil (A.data 1 3) := ⟨(hA _ _).1, ha.bottom 1⟩
  have z2 : Nil (A.data 2 3) := ⟨(hA _ _).1, ha.bottom 2⟩
  have f : ∀ c r c' r', (A.data c r * A.data c' r').Finite := fun c r c' r' =>
    ((Tr.mul hs (Tr.entry (hA c r).1 (hA c r).2) (Tr.entry (hA c' r').1 (hA c' r').2)).2 (by norm_num) (by norm_num) (by norm_num)).1
  unfold tryInverse4 at h
  simp only at h
  split at h
  · exact absurd h (by simp)
  · simp only [Option.some.injEq] at h
    subst h
    have hc := hB (Fin.last 3) c.castSucc
    have six : ∀ {a b c d e g : Ieee φ}, Nil a → Nil b → Nil c → Nil d → Nil e → Nil g → Nil (a + b + c - d - e - g) :=
      fun ha hb hc hd he hg => ((((ha.add hb).add hc).sub hd).sub he).sub hg
    fin_cases c
    · exact Nil.over (six (Nil.mul (f _ _ _ _) z0) (Nil.mul (f _ _ _ _) z2) (Nil.mul (f _ _ _ _) z1) (Nil.mul (f _ _ _ _) z2)
        (Nil.mul (f _ _ _ _) z0) (Nil.mul (f _ _ _ _) z1)) hc
    · exact Nil.over (six (Nil.mul (f _ _ _ _) z2) (Nil.mul (f _ _ _ _) z0) (Nil.mul (f _ _ _ _) z1) (Nil.mul (f _ _ _ _) z0)
        (Nil.mul (f _ _ _ _) z2) (Nil.mul (f _ _ _ _) z1)) hc
    · exact Nil.over (six (Nil.mul (f _ _ _ _) z0) (Nil.mul (f _ _ _ _) z2) (Nil.mul (f _ _ _ _) z1) (Nil.mul (f _ _ _ _) z2)
        (Nil.mul (f _ _ _ _) z0) (Nil.mul (f _ _ _ _) z1)) hc

theorem AffineMatrix.one_le {M : ℝ} {A : Mat (Ieee φ) (n + 1) (n + 1)} (h : AffineMatrix A) (hA : Entries M A) : 1 ≤ M := by
  have := (hA (Fin.last n) (Fin.last n)).2
  rwa [h.corner, abs_one] at this

section Transforms
variable {M K X : ℝ}

theorem point_error (hK : K ≤ 2 ^ 16) (hK0 : 0 < K) {C D G : ℝ} {m : ℕ} (hK1 : 1 ≤ m * K) (hM : 1 ≤ M) (hX : 0 ≤ X) (hC0 : 0 ≤ C)
    (hG : 100 / 99 * (D + C) + 406 / 100 * m ^ 2 ≤ G) :
    (100 / 99 * (D * K ^ 2 * f64.u + C * K ^ 2 * f64.u / M) + 406 / 100 * f64.u) * X ≤ G * K ^ 2 * 2 ^ (-53 : ℤ) * X := by
  have hu : f64.u = 2 ^ (-53 : ℤ) := rfl
  have hu0 := f64.u_nonneg
  rw [← hu]
  refine mul_le_mul_of_nonneg_right ?_ hX
  have h1 : C * K ^ 2 * f64.u / M ≤ C * K ^ 2 * f64.u := div_le_self (by positivity) hM
  have h2 : 1 ≤ m ^ 2 * K ^ 2 := by rw [← mul_pow]; exact one_le_pow₀ hK1
  have h3 := mul_le_mul_of_nonneg_right h2 hu0
  have h4 := mul_le_mul_of_nonneg_right hG (show 0 ≤ K ^ 2 * f64.u by positivity)
  linarith

theorem small_of (hK : K ≤ 2 ^ 16) (hK0 : 0 < K) {D e : ℝ} (hD0 : 0 ≤ D) (h : D * 2 ^ 32 * 2 ^ (-53 : ℤ) ≤ e) : D * K ^ 2 * f64.u ≤ e := by
  refine le_trans ?_ h
  have : K ^ 2 ≤ 2 ^ 32 := by
    calc K ^ 2 ≤ (2 ^ 16) ^ 2 := pow_le_pow_left₀ hK0.le hK 2
      _ = 2 ^ 32 := by norm_num
  have hu : f64.u = 2 ^ (-53 : ℤ) := rfl
  rw [hu]
  gcongr

theorem low_of_one (h : 1 ≤ X) : (2 : ℝ) ^ (-200 : ℤ) ≤ X := le_trans (zpow_le_one_of_nonpos₀ one_le_two (by norm_num)) h

theorem fits_two (x1 : 1 ≤ X) (x2 : X ≤ 2 ^ (200 : ℤ)) : Fits f64 (2 * X) := by
  refine fits64 ?_ ?_
  · have : (2 : ℝ) ^ (-1020 : ℤ) ≤ 1 := zpow_le_one_of_nonpos₀ one_le_two (by norm_num)
    linarith
  · calc 2 * X ≤ 2 ^ (1 : ℤ) * 2 ^ (200 : ℤ) := by rw [zpow_one]; linarith
      _ = 2 ^ (201 : ℤ) := by rw [← zpow_add₀ two_ne_zero]; norm_num
      _ ≤ _ := zpow_le_zpow_right₀ one_le_two (by norm_num)

/-- **C105.**  `f64`: an affine transformation of space applied to a point and undone with `inverse_apply_point` returns the point: neither panics, an inverse
is found, and the coordinates are off by at most `2 ^ 18 K ^ 2` roundings of the size of the point (or of `1`). -/
theorem C105_point3 {t : Transform (Ieee f64) 3} (hA : Entries M t.matrix) (ha : AffineMatrix t.matrix) (hM : M ≤ 2 ^ (200 : ℤ))
    (hK : M ^ 4 ≤ K * |(exactly t.matrix).det|) (hK1 : K ≤ 2 ^ 16) (x1 : 1 ≤ X) (x2 : X ≤ 2 ^ (200 : ℤ)) {p : Pt (Ieee f64) 3} (hp : PointWithin X p) :
    ∃ q r, t.applyPoint p = .ok q ∧ t.inverseApplyPoint3 q = .ok (some r) ∧ PointClose r p (2 ^ 18 * K ^ 2 * 2 ^ (-53 : ℤ) * X) := by
  have m0 := AffineMatrix.one_le ha hA
  have m1 := low_of_one m0
  have hM0 : 0 < M := by linarith
  have hK2 : K ≤ 2 ^ 30 := hK1.trans (by norm_num)
  have hs := sizes64 (n := 4) (by norm_num) m1 hM hK2
  obtain ⟨hK0, hKf⟩ := spread_ge (A := exactly t.matrix) (fun r c => (hA c r).2) hM0 hK
  obtain ⟨B, E, h1, hp'⟩ := pair_of (n := 3) (by norm_num) hA hs hK (by norm_num) (C103_inverse4 hA hs hK)
  have hsp := spaces64 (w := Nat.factorial 3) m1 hM (low_of_one x1) x2 (spread_24 (by norm_num) hA hM0 hK) hK2 (by decide) (by decide)
  have hX : 0 ≤ X := by linarith
  obtain ⟨q, r, hq, hr, hc⟩ := hp'.point ha (bottom4 hA hs ha h1 fun r c => (hp'.near r c).1) hsp x1 (fits_two x1 x2) (δ := 232617 * K ^ 2 * f64.u)
    (by
      have h1 := small_of hK1 hK0 (D := 11405) (by norm_num) (e := 1 / 100) (by norm_num)
      exact (div_le_self (by have := f64.u_nonneg; positivity) m0).trans h1)
    (by
      have := errors_le (φ := f64) (n := 3) (C := 11405) (D := 232617) hK0 hKf hM0 zero_le_one (by norm_num [Nat.factorial])
      simpa using this)
    (small_of hK1 hK0 (by norm_num) (by norm_num)) hp
  refine ⟨q, r, hq, ?_, close_mono hc (point_error hK1 hK0 (m := 24) (by simpa [Nat.factorial] using hKf) m0 hX (by norm_num) (by norm_num))⟩
  unfold Transform.inverseApplyPoint3 Transform.tryInverse3
  rw [h1]
  show ((Transform.mk B).applyPoint q).map some = _
  rw [hr]; rfl

/-- **C105.**  The same in the plane, with at most `10000 K ^ 2` roundings. -/
theorem C105_point2 {t : Transform (Ieee f64) 2} (hA : Entries M t.matrix) (ha : AffineMatrix t.matrix) (hM : M ≤ 2 ^ (200 : ℤ))
    (hK : M ^ 3 ≤ K * |(exactly t.matrix).det|) (hK1 : K ≤ 2 ^ 16) (x1 : 1 ≤ X) (x2 : X ≤ 2 ^ (200 : ℤ)) {p : Pt (Ieee f64) 2} (hp : PointWithin X p) :
    ∃ q r, t.applyPoint p = .ok q ∧ t.inverseApplyPoint2 q = .ok (some r) ∧ PointClose r p (10000 * K ^ 2 * 2 ^ (-53 : ℤ) * X) := by
  have m0 := AffineMatrix.one_le ha hA
  have m1 := low_of_one m0
  have hM0 : 0 < M := by linarith
  have hK2 : K ≤ 2 ^ 30 := hK1.trans (by norm_num)
  have hs := sizes64 (n := 3) (by norm_num) m1 hM hK2
  obtain ⟨hK0, hKf⟩ := spread_ge (A := exactly t.matrix) (fun r c => (hA c r).2) hM0 hK
  obtain ⟨B, E, h1, hp'⟩ := pair_of (n := 2) (by norm_num) hA hs hK (by norm_num) (C103_inverse3 hA hs hK)
  have hsp := spaces64 (w := Nat.factorial 2) m1 hM (low_of_one x1) x2 (spread_24 (by norm_num) hA hM0 hK) hK2 (by decide) (by decide)
  have hX : 0 ≤ X := by linarith
  obtain ⟨q, r, hq, hr, hc⟩ := hp'.point ha (bottom3 (K := K) hA ha h1 fun r c => (hp'.near r c).1) hsp x1 (fits_two x1 x2) (δ := 9225 * K ^ 2 * f64.u)
    (by
      have h1 := small_of hK1 hK0 (D := 317) (by norm_num) (e := 1 / 100) (by norm_num)
      exact (div_le_self (by have := f64.u_nonneg; positivity) m0).trans h1)
    (by
      have := errors_le (φ := f64) (n := 2) (C := 317) (D := 9225) hK0 hKf hM0 zero_le_one (by norm_num [Nat.factorial])
      simpa using this)
    (small_of hK1 hK0 (by norm_num) (by norm_num)) hp
  refine ⟨q, r, hq, ?_, close_mono hc (point_error hK1 hK0 (m := 6) (by simpa [Nat.factorial] using hKf) m0 hX (by norm_num) (by norm_num))⟩
  unfold Transform.inverseApplyPoint2 Transform.tryInverse2
  rw [h1]
  show ((Transform.mk B).applyPoint q).map some = _
  rw [hr]; rfl

/-- **C105.**  `f64`: vectors, in either order, in space -/
theorem C105_vector3 {t : Transform (Ieee f64) 3} (hA : Entries M t.matrix) (ha : AffineMatrix t.matrix) (hM : M ≤ 2 ^ (200 : ℤ))
    (hK : M ^ 4 ≤ K * |(exactly t.matrix).det|) (hK1 : K ≤ 2 ^ 30) (x1 : (2 : ℝ) ^ (-200 : ℤ) ≤ X) (x2 : X ≤ 2 ^ (200 : ℤ)) {v : Vec (Ieee f64) 3}
    (hv : Within X v) :
    (∃ w, t.inverseApplyVector3 (t.applyVector v) = some w ∧ Close w (values v) (240000 * K ^ 2 * 2 ^ (-53 : ℤ) * X)) ∧
    ∃ w, t.inverseApplyVector3 v = some w ∧ Close (t.applyVector w) (values v) (240000 * K ^ 2 * 2 ^ (-53 : ℤ) * X) := by
  have m0 := AffineMatrix.one_le ha hA
  have m1 := low_of_one m0
  have hM0 : 0 < M := by linarith
  have hs := sizes64 (n := 4) (by norm_num) m1 hM hK1
  obtain ⟨hK0, hKf⟩ := spread_ge (A := exactly t.matrix) (fun r c => (hA c r).2) hM0 hK
  obtain ⟨B, E, h1, hp⟩ := pair_of (n := 3) (by norm_num) hA hs hK (by norm_num) (C103_inverse4 hA hs hK)
  have hsp := spaces64 (w := Nat.factorial 3) m1 hM x1 x2 (spread_24 (by norm_num) hA hM0 hK) hK1 (by decide) (by decide)
  have hX : 0 ≤ X := le_trans (by positivity) x1
  obtain ⟨a, b⟩ := hp.vector ha hsp hv hX
  have he := errors_le (φ := f64) (n := 3) (C := 11405) (D := 240000) hK0 hKf hM0 hX (by norm_num [Nat.factorial])
  have hf : ∀ w, t.inverseApplyVector3 w = some ((Transform.mk B).applyVector w) := fun w => by
    unfold Transform.inverseApplyVector3 Transform.tryInverse3
    rw [h1]; rfl
  exact ⟨⟨_, hf _, close_mono a he⟩, ⟨_, hf _, close_mono b he⟩⟩

/-- **C105.**  ... and in the plane -/
theorem C105_vector2 {t : Transform (Ieee f64) 2} (hA : Entries M t.matrix) (ha : AffineMatrix t.matrix) (hM : M ≤ 2 ^ (200 : ℤ))
    (hK : M ^ 3 ≤ K * |(exactly t.matrix).det|) (hK1 : K ≤ 2 ^ 30) (x1 : (2 : ℝ) ^ (-200 : ℤ) ≤ X) (x2 : X ≤ 2 ^ (200 : ℤ)) {v : Vec (Ieee f64) 2}
    (hv : Within X v) :
    (∃ w, t.inverseApplyVector2 (t.applyVector v) = some w ∧ Close w (values v) (9300 * K ^ 2 * 2 ^ (-53 : ℤ) * X)) ∧
    ∃ w, t.inverseApplyVector2 v = some w ∧ Close (t.applyVector w) (values v) (9300 * K ^ 2 * 2 ^ (-53 : ℤ) * X) := by
  have m0 := AffineMatrix.one_le ha hA
  have m1 := low_of_one m0
  have hM0 : 0 < M := by linarith
  have hs := sizes64 (n := 3) (by norm_num) m1 hM hK1
  obtain ⟨hK0, hKf⟩ := spread_ge (A := exactly t.matrix) (fun r c => (hA c r).2) hM0 hK
  obtain ⟨B, E, h1, hp⟩ := pair_of (n := 2) (by norm_num) hA hs hK (by norm_num) (C103_inverse3 hA hs hK)
  have hsp := spaces64 (w := Nat.factorial 2) m1 hM x1 x2 (spread_24 (by norm_num) hA hM0 hK) hK1 (by decide) (by decide)
  have hX : 0 ≤ X := le_trans (by positivity) x1
  obtain ⟨a, b⟩ := hp.vector ha hsp hv hX
  have he := errors_le (φ := f64) (n := 2) (C := 317) (D := 9300) hK0 hKf hM0 hX (by norm_num [Nat.factorial])
  have hf : ∀ w, t.inverseApplyVector2 w = some ((Transform.mk B).applyVector w) := fun w => by
    unfold Transform.inverseApplyVector2 Transform.tryInverse2
    rw [h1]; rfl
  exact ⟨⟨_, hf _, close_mono a he⟩, ⟨_, hf _, close_mono b he⟩⟩

end Transforms

/-! ### an example -/

/-- a turn by 45 degrees and a stretching in a plane, together with a translation -/
noncomputable def spiral : Mat (Ieee f64) 4 4 := Mat.new4x4 1 (-1) 0 0 1 1 0 0 0 0 1 0 1 0 1 1

theorem spiral_one : (1 : Ieee f64).val = 1 := rfl
theorem spiral_zero : (0 : Ieee f64).val = 0 := rfl
theorem spiral_minus : (-1 : Ieee f64).val = -1 := by rw [val_neg]; rfl

theorem spiral_det : (exactly spiral).det = 2 := by
  rw [← toMatrix_numbers, ← leibniz_eq, ← C17_det4]
  simp only [determinant4, numbers_data, spiral, new4x4]
  simp [spiral_one, spiral_zero, spiral_minus]
  norm_num

theorem finite_minus_one : (-1 : Ieee f64).Finite := (show Nr (1 : Ieee f64) 1 0 from ⟨finite_one, by rw [spiral_one]; simp⟩).neg.1

theorem spiral_entries : Entries 1 spiral := by
  intro c r
  fin_cases c <;> fin_cases r <;>
    first
    | exact ⟨finite_one, by show |(1 : Ieee f64).val| ≤ 1; rw [spiral_one]; simp⟩
    | exact ⟨finite_zero, by show |(0 : Ieee f64).val| ≤ 1; rw [spiral_zero]; simp⟩
    | exact ⟨finite_minus_one, by show |(-1 : Ieee f64).val| ≤ 1; rw [spiral_minus]; simp⟩

theorem spiral_affine : AffineMatrix (n := 3) spiral :=
  ⟨fun c => by fin_cases c <;> rfl, rfl⟩

/-- it is undone for every point with coordinates of up to a million, with errors of less than `10 ^ -4`, ... -/
example (p : Pt (Ieee f64) 3) (hp : PointWithin (10 ^ 6) p) :
    ∃ q r, (Transform.mk spiral).applyPoint p = .ok q ∧ (Transform.mk spiral).inverseApplyPoint3 q = .ok (some r) ∧ PointClose r p (1 / 10 ^ 4) := by
  obtain ⟨q, r, h1, h2, h3⟩ := C105_point3 (t := ⟨spiral⟩) (M := 1) (K := 1) spiral_entries spiral_affine (one_le_zpow₀ one_le_two (by norm_num))
    (by show (1 : ℝ) ^ 4 ≤ 1 * |(exactly spiral).det|; rw [spiral_det]; norm_num) (by norm_num) (X := 10 ^ 6) (by norm_num)
    (by refine le_trans (b := (2 : ℝ) ^ (20 : ℤ)) (by norm_num) (zpow_le_zpow_right₀ one_le_two (by norm_num))) hp
  exact ⟨q, r, h1, h2, close_mono h3 (by norm_num)⟩

/-- ... and there are such points. -/
example : PointWithin (φ := f64) (10 ^ 6) (⟨Vec.new3 1 0 1⟩ : Pt (Ieee f64) 3) := by
  intro i
  fin_cases i <;>
    first
    | exact ⟨finite_one, by show |(1 : Ieee f64).val| ≤ 10 ^ 6; rw [spiral_one]; norm_num⟩
    | exact ⟨finite_zero, by show |(0 : Ieee f64).val| ≤ 10 ^ 6; rw [spiral_zero]; norm_num⟩

/-- its system of equations is solved -/
example : Solves tryInverse4 spiral 1 (52000 * 1 ^ 2 * 2 ^ (-53 : ℤ) * 1 / 1) :=
  (C105_solve64 (low_of_one le_rfl) (one_le_zpow₀ one_le_two (by norm_num)) (low_of_one le_rfl) (one_le_zpow₀ one_le_two (by norm_num))
    (by norm_num)).2.2 spiral spiral_entries (by rw [spiral_det]; norm_num)
