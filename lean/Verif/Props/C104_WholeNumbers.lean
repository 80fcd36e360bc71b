import Verif.Props.C103_MatrixInverse
import Verif.Lemmas.Grid
import Mathlib.Algebra.Quaternion
import Mathlib.LinearAlgebra.CrossProduct
import Mathlib.NumberTheory.Zsqrtd.GaussianInt

/-! # C104 - whole numbers and fixed point numbers are computed exactly

As long as no partial sum exceeds `2 ^ 53` units (`2 ^ 24` in `f32`), products, sums, determinants and inverses of vectors,
matrices, complex numbers and quaternions whose components are whole multiples of a power of two are those of the integers:
there is no rounding at all, and tests for zero are exact. -/

namespace Cgl
open Ieee FloatFns Mat Spec Rounding Matrix Quaternion

variable {φ : Format} {p n R C N : ℕ} {lo hi g g' : ℤ}

namespace Spec

/-- in the format `φ` up to `2 ^ p` units of `2 ^ g` are represented, for every `g` between `lo` and `hi` -/
structure Exact (φ : Format) (p : ℕ) (lo hi : ℤ) : Prop where
  rep : ∀ z g : ℤ, |z| ≤ 2 ^ p → lo ≤ g → g ≤ hi → φ.fl (z * 2 ^ g) = z * 2 ^ g ∧ |(z : ℝ) * 2 ^ g| ≤ φ.big
  lo_le : lo ≤ -p
  le_hi : 0 ≤ hi

/-- `x` is the number of `z` units of `2 ^ g` -/
def Counts (g : ℤ) (x : Ieee φ) (z : ℤ) : Prop := x.Finite ∧ x.val = z * 2 ^ g

/-- componentwise -/
def CountsVec (g : ℤ) (v : Vec (Ieee φ) n) (z : Fin n → ℤ) : Prop := ∀ i, Counts g (v.data i) (z i)
/-- entry by entry; the mathematical matrix has the row index first -/
def CountsMat (g : ℤ) (A : Mat (Ieee φ) R C) (Z : Matrix (Fin R) (Fin C) ℤ) : Prop := ∀ r c, Counts g (A.data c r) (Z r c)
/-- real and imaginary part -/
def CountsCx (g : ℤ) (x : Cx (Ieee φ)) (z : GaussianInt) : Prop := Counts g x.re z.re ∧ Counts g x.im z.im
/-- the scalar and the three components of the vector -/
def CountsQuat (g : ℤ) (q : Quat (Ieee φ)) (z : ℍ[ℤ]) : Prop :=
  Counts g q.scalar z.re ∧ Counts g (q.vector.data 0) z.imI ∧ Counts g (q.vector.data 1) z.imJ ∧ Counts g (q.vector.data 2) z.imK

end Spec

/-- `f64`: `53` bits -/
theorem exact64 : Exact f64 53 (-1074) 970 := by
  refine ⟨fun z g hz h1 h2 => ?_, by norm_num, by norm_num⟩
  have hz' : |(z : ℝ)| ≤ 2 ^ 53 := by exact_mod_cast hz
  have hg : (0 : ℝ) < 2 ^ g := by positivity
  refine ⟨?_, ?_⟩
  · rcases hz'.lt_or_eq with h | h
    · exact flEven_eq_of_grid (p := 53) (qmin := some (-1074)) ⟨z, g, rfl, h, by simpa using h1⟩
    · have hp : f64.fl (2 ^ 53 * 2 ^ g) = 2 ^ 53 * 2 ^ g := by
        have e : (2 : ℝ) ^ 53 * 2 ^ g = 2 ^ (53 + g) := by rw [zpow_add₀ two_ne_zero]; norm_cast
        rw [e, fl64_two_zpow (by omega)]
      rcases (abs_eq (by positivity)).mp h with e | e
      · rw [e, hp]
      · rw [e, neg_mul, f64.neg, hp]
  · rw [abs_mul, abs_of_pos hg]
    calc |(z : ℝ)| * 2 ^ g ≤ 2 ^ 53 * 2 ^ g := mul_le_mul_of_nonneg_right hz' hg.le
      _ = 2 ^ (53 + g) := by rw [zpow_add₀ two_ne_zero]; norm_cast
      _ ≤ f64.big := two_zpow_le_big (by omega)

/-- `f32`: `24` bits -/
theorem exact32 : Exact f32 24 (-149) 103 := by
  refine ⟨fun z g hz h1 h2 => ?_, by norm_num, by norm_num⟩
  have hz' : |(z : ℝ)| ≤ 2 ^ 24 := by exact_mod_cast hz
  have hg : (0 : ℝ) < 2 ^ g := by positivity
  refine ⟨?_, ?_⟩
  · rcases hz'.lt_or_eq with h | h
    · exact flEven_eq_of_grid (p := 24) (qmin := some (-149)) ⟨z, g, rfl, h, by simpa using h1⟩
    · have hp : f32.fl (2 ^ 24 * 2 ^ g) = 2 ^ 24 * 2 ^ g := by
        have e : (2 : ℝ) ^ 24 * 2 ^ g = 2 ^ (24 + g) := by rw [zpow_add₀ two_ne_zero]; norm_cast
        rw [e, fl32_two_zpow (by omega)]
      rcases (abs_eq (by positivity)).mp h with e | e
      · rw [e, hp]
      · rw [e, neg_mul, f32.neg, hp]
  · rw [abs_mul, abs_of_pos hg]
    calc |(z : ℝ)| * 2 ^ g ≤ 2 ^ 24 * 2 ^ g := mul_le_mul_of_nonneg_right hz' hg.le
      _ = 2 ^ (24 + g) := by rw [zpow_add₀ two_ne_zero]; norm_cast
      _ ≤ 2 ^ (127 : ℤ) := zpow_le_zpow_right₀ one_le_two (by omega)
      _ ≤ f32.big := two_zpow_le_big32

namespace Spec.Counts
variable {x y : Ieee φ} {z w : ℤ}

theorem zero : Counts g (0 : Ieee φ) 0 := ⟨finite_zero, by rw [val_zero]; simp⟩

theorem one : Counts 0 (1 : Ieee φ) 1 := ⟨finite_one, by rw [show (1 : Ieee φ).val = 1 from rfl]; simp⟩

theorem neg (hx : Counts g x z) : Counts g (-x) (-z) := by
  obtain ⟨s, m, h, rfl⟩ := hx.1
  refine ⟨⟨!s, m, h, rfl⟩, ?_⟩
  rw [val_neg, hx.2]; push_cast; ring

theorem add (he : Exact φ p lo hi) (h1 : lo ≤ g) (h2 : g ≤ hi) (hx : Counts g x z) (hy : Counts g y w) (h : |z + w| ≤ 2 ^ p) :
    Counts g (x + y) (z + w) := by
  have e : x.val + y.val = ((z + w : ℤ) : ℝ) * 2 ^ g := by rw [hx.2, hy.2]; push_cast; ring
  obtain ⟨a, b⟩ := he.rep _ g h h1 h2
  have hf := finite_add_of hx.1 hy.1 (by rw [e, a]; exact b)
  exact ⟨hf, by rw [val_add hf, e, a]⟩

theorem sub (he : Exact φ p lo hi) (h1 : lo ≤ g) (h2 : g ≤ hi) (hx : Counts g x z) (hy : Counts g y w) (h : |z - w| ≤ 2 ^ p) :
    Counts g (x - y) (z - w) := by
  rw [sub_eq_add_neg z w, show x - y = x + -y from rfl]
  exact hx.add he h1 h2 hy.neg (by rwa [← sub_eq_add_neg])

theorem mul (he : Exact φ p lo hi) (h1 : lo ≤ g + g') (h2 : g + g' ≤ hi) (hx : Counts g x z) (hy : Counts g' y w)
    (h : |z * w| ≤ 2 ^ p) : Counts (g + g') (x * y) (z * w) := by
  have e : x.val * y.val = ((z * w : ℤ) : ℝ) * 2 ^ (g + g') := by
    rw [hx.2, hy.2, zpow_add₀ two_ne_zero]; push_cast; ring
  obtain ⟨a, b⟩ := he.rep _ (g + g') h h1 h2
  have hf := finite_mul_of hx.1 hy.1 (by rw [e, a]; exact b)
  exact ⟨hf, by rw [val_mul hf, e, a]⟩

/-- the test for zero is exact -/
theorem beq_zero (hx : Counts g x z) : (x == 0) = true ↔ z = 0 := by
  have h2 : (2 : ℝ) ^ g ≠ 0 := by positivity
  constructor
  · intro h
    by_contra hz
    have : x.val ≠ 0 := by rw [hx.2]; exact mul_ne_zero (by exact_mod_cast hz) h2
    rw [nonzero_beq hx.1 this] at h
    exact Bool.noConfusion h
  · rintro rfl
    obtain ⟨s, m, h, rfl⟩ := hx.1
    have hv := hx.2
    rw [Int.cast_zero, zero_mul] at hv
    rw [beq_iff]
    refine ⟨_, rfl, ?_⟩
    change some (((0 : ℝ)) : EReal) = some (((fin s m h : Ieee φ).val : ℝ) : EReal)
    rw [hv]

end Spec.Counts

/-! ### vectors -/

theorem sum_prefix_le {f : Fin n → ℤ} {i : ℕ} (hi : i ≤ n) :
    |∑ j : Fin i, f ⟨j, lt_of_lt_of_le j.2 hi⟩| ≤ ∑ j, |f j| := by
  refine (Finset.abs_sum_le_sum_abs _ _).trans ?_
  have := Finset.sum_map (Finset.univ : Finset (Fin i)) (Fin.castLEEmb hi) (fun j => |f j|)
  refine le_trans (le_of_eq ?_) (Finset.sum_le_sum_of_subset_of_nonneg (Finset.subset_univ (Finset.univ.map (Fin.castLEEmb hi)))
    fun j _ _ => abs_nonneg _)
  rw [this]; rfl

theorem counts_loop (he : Exact φ p lo hi) (h1 : lo ≤ g) (h2 : g ≤ hi) {t : Fin n → Ieee φ} {z : Fin n → ℤ}
    (h : ∀ i, Counts g (t i) (z i)) (hb : ∑ i, |z i| ≤ 2 ^ p) :
    Counts g (forRange n 0 fun i result => result + t i) (∑ i, z i) := by
  have key : ∃ hn : n ≤ n, Counts g (forRange n 0 fun i result => result + t i) (∑ j : Fin n, z ⟨j, lt_of_lt_of_le j.2 hn⟩) := by
    refine forRange_induction (P := fun i x => ∃ hi : i ≤ n, Counts g x (∑ j : Fin i, z ⟨j, lt_of_lt_of_le j.2 hi⟩)) ?_ ?_
    · exact ⟨Nat.zero_le _, by simpa using Counts.zero⟩
    · rintro i x ⟨hi, hx⟩
      refine ⟨i.2, ?_⟩
      have e : (∑ j : Fin ((i : ℕ) + 1), z ⟨j, lt_of_lt_of_le j.2 i.2⟩) = (∑ j : Fin (i : ℕ), z ⟨j, lt_of_lt_of_le j.2 hi⟩) + z i := by
        rw [Fin.sum_univ_castSucc]; rfl
      rw [e]
      refine hx.add he h1 h2 (h i) ?_
      rw [← e]
      exact (sum_prefix_le i.2).trans hb
  exact key.2

variable {v w : Vec (Ieee φ) n} {z y : Fin n → ℤ}

/-- **C104.**  The dot product, of any dimension. -/
theorem C104_dot (he : Exact φ p lo hi) (h1 : lo ≤ g + g') (h2 : g + g' ≤ hi) (hv : CountsVec g v z) (hw : CountsVec g' w y)
    (hb : ∑ i, |z i * y i| ≤ 2 ^ p) : Counts (g + g') (v.dot w) (∑ i, z i * y i) := by
  unfold Vec.dot
  exact counts_loop he h1 h2 (fun i => (hv i).mul he h1 h2 (hw i) ((Finset.single_le_sum (f := fun i => |z i * y i|)
    (fun _ _ => abs_nonneg _) (Finset.mem_univ i)).trans hb)) hb

/-- **C104.**  Two vectors are found orthogonal exactly when they are. -/
theorem C104_orthogonal (he : Exact φ p lo hi) (h1 : lo ≤ g + g') (h2 : g + g' ≤ hi) (hv : CountsVec g v z) (hw : CountsVec g' w y)
    (hb : ∑ i, |z i * y i| ≤ 2 ^ p) : (v.dot w == 0) = true ↔ ∑ i, z i * y i = 0 :=
  (C104_dot he h1 h2 hv hw hb).beq_zero

/-- **C104.**  The length of a vector whose squared length is a square. -/
theorem C104_norm [Lib φ] (he : Exact φ p lo hi) (h1 : lo ≤ g + g) (h2 : g + g ≤ hi) (h3 : lo ≤ g) (h4 : g ≤ hi) (hv : CountsVec g v z)
    (hb : ∑ i, z i ^ 2 ≤ 2 ^ p) {m : ℕ} (hm : ∑ i, z i ^ 2 = (m : ℤ) ^ 2) : Counts g v.norm m := by
  have e : ∀ i, |z i * z i| = z i ^ 2 := fun i => by rw [← sq, abs_of_nonneg (sq_nonneg _)]
  have hd := C104_dot he h1 h2 hv hv (by simpa only [e] using hb)
  simp only [← sq] at hd
  rw [hm] at hd
  have hv2 : (v.dot v).val = ((m : ℝ) * 2 ^ g) ^ 2 := by
    rw [hd.2, zpow_add₀ two_ne_zero]; push_cast; ring
  have h0 : (0 : ℝ) ≤ (m : ℝ) * 2 ^ g := by positivity
  have hs : Real.sqrt (v.dot v).val = ((m : ℤ) : ℝ) * 2 ^ g := by
    rw [hv2, Real.sqrt_sq h0]; push_cast; rfl
  have hmb : |(m : ℤ)| ≤ 2 ^ p := by
    rw [abs_of_nonneg (by positivity)]
    refine le_trans ?_ (hm ▸ hb)
    exact_mod_cast Nat.le_self_pow two_ne_zero m
  obtain ⟨a, b⟩ := he.rep _ g hmb h3 h4
  have hf : (v.dot v).sqrt.Finite := finite_sqrt_of hd.1 (by rw [hv2]; positivity) (by rw [hs, a]; exact b)
  rw [Vec.norm, Lib.sqrt_eq, Vec.normSquared]
  exact ⟨hf, by rw [(val_sqrt hf).1, hs, a]⟩

/-- **C104.**  The cross product. -/
theorem C104_cross (he : Exact φ p lo hi) (h1 : lo ≤ g + g') (h2 : g + g' ≤ hi) {v w : Vec (Ieee φ) 3} {z y : Fin 3 → ℤ}
    (hv : CountsVec g v z) (hw : CountsVec g' w y) (hb : ∀ i j k l, |z i * y j| + |z k * y l| ≤ 2 ^ p) :
    CountsVec (g + g') (v.cross w) (z ⨯₃ y) := by
  have hm : ∀ i j, |z i * y j| ≤ 2 ^ p := fun i j => le_trans (le_add_of_nonneg_right (abs_nonneg _)) (hb i j 0 0)
  have hs : ∀ i j k l, Counts (g + g') (v.data i * w.data j - v.data k * w.data l) (z i * y j - z k * y l) :=
    fun i j k l => ((hv i).mul he h1 h2 (hw j) (hm i j)).sub he h1 h2 ((hv k).mul he h1 h2 (hw l) (hm k l))
      ((abs_sub _ _).trans (hb i j k l))
  rw [cross_apply]
  intro i
  fin_cases i
  · exact hs 1 2 2 1
  · exact hs 2 0 0 2
  · exact hs 0 1 1 0

/-! ### matrices -/

theorem dotArrayCol_counts (he : Exact φ p lo hi) (h1 : lo ≤ g + g') (h2 : g + g' ≤ hi) {a : Fin n → Fin R → Ieee φ}
    {x : Fin n → Ieee φ} {z y : Fin n → ℤ} (r : Fin R) (ha : ∀ i, Counts g (a i r) (z i)) (hx : ∀ i, Counts g' (x i) (y i))
    (hb : ∑ i, |z i * y i| ≤ 2 ^ p) : Counts (g + g') (dotArrayCol a x r) (∑ i, z i * y i) := by
  unfold dotArrayCol
  exact counts_loop he h1 h2 (fun i => (ha i).mul he h1 h2 (hx i) ((Finset.single_le_sum (f := fun i => |z i * y i|)
    (fun _ _ => abs_nonneg _) (Finset.mem_univ i)).trans hb)) hb

theorem mul_data_ops {S : Type*} [Zero S] [Add S] [Mul S] (m : Mat S R N) (k : Mat S N C) (c r) :
    (m * k).data c r = dotArrayCol m.data (k.data c) r := by
  show (mul m k).data c r = _
  simp only [mul]; rw [loop_all _ fun c r => dotArrayCol m.data (k.data c) r]

theorem mulVec_data_ops {S : Type*} [Zero S] [Add S] [Mul S] (m : Mat S R C) (v : Vec S C) (r) :
    (m * v).data r = dotArrayCol m.data v.data r := by
  show (mulVec m v).data r = _
  simp only [Mat.mulVec]; rw [forRange_update]

/-- **C104.**  Matrix times matrix, of any shapes. -/
theorem C104_mul (he : Exact φ p lo hi) (h1 : lo ≤ g + g') (h2 : g + g' ≤ hi) {A : Mat (Ieee φ) R N} {B : Mat (Ieee φ) N C}
    {Z : Matrix (Fin R) (Fin N) ℤ} {Y : Matrix (Fin N) (Fin C) ℤ} (hA : CountsMat g A Z) (hB : CountsMat g' B Y)
    (hb : ∀ r c, ∑ i, |Z r i * Y i c| ≤ 2 ^ p) : CountsMat (g + g') (A * B) (Z * Y) := by
  intro r c
  rw [mul_data_ops, Matrix.mul_apply]
  exact dotArrayCol_counts he h1 h2 r (fun i => hA r i) (fun i => hB i c) (hb r c)

/-- **C104.**  Matrix times vector, of any shapes. -/
theorem C104_mul_vec (he : Exact φ p lo hi) (h1 : lo ≤ g + g') (h2 : g + g' ≤ hi) {A : Mat (Ieee φ) R C} {v : Vec (Ieee φ) C}
    {Z : Matrix (Fin R) (Fin C) ℤ} {y : Fin C → ℤ} (hA : CountsMat g A Z) (hv : CountsVec g' v y)
    (hb : ∀ r, ∑ i, |Z r i * y i| ≤ 2 ^ p) : CountsVec (g + g') (A * v) (Z *ᵥ y) := by
  intro r
  rw [mulVec_data_ops]
  exact dotArrayCol_counts he h1 h2 r (fun i => hA r i) hv (hb r)

/-! ### histories of quarter turns -/

/-- a matrix of integers with orthonormal columns: a signed permutation -/
def Spec.Orthogonal (Z : Matrix (Fin n) (Fin n) ℤ) : Prop := Zᵀ * Z = 1

theorem orthogonal_column {Z : Matrix (Fin n) (Fin n) ℤ} (h : Orthogonal Z) (c : Fin n) : ∑ i, |Z i c| = 1 ∧ ∀ i, |Z i c| ≤ 1 := by
  have hc : ∑ i, Z i c * Z i c = 1 := by
    have := congrFun (congrFun h c) c
    simpa [Matrix.mul_apply, Matrix.one_apply] using this
  have h1 : ∀ i, |Z i c| ≤ 1 := by
    intro i
    have : Z i c * Z i c ≤ 1 := hc ▸ Finset.single_le_sum (f := fun i => Z i c * Z i c)
      (fun _ _ => mul_self_nonneg _) (Finset.mem_univ i)
    rw [abs_le]; constructor <;> nlinarith
  refine ⟨?_, h1⟩
  rw [← hc]
  refine Finset.sum_congr rfl fun i _ => ?_
  have := abs_le.mp (h1 i)
  obtain e | e | e : Z i c = -1 ∨ Z i c = 0 ∨ Z i c = 1 := by omega
  all_goals rw [e]; norm_num

theorem orthogonal_mul {Z Y : Matrix (Fin n) (Fin n) ℤ} (hZ : Orthogonal Z) (hY : Orthogonal Y) : Orthogonal (Z * Y) := by
  unfold Orthogonal at *
  rw [Matrix.transpose_mul, Matrix.mul_assoc, ← Matrix.mul_assoc Zᵀ Z Y, hZ, Matrix.one_mul, hY]

theorem orthogonal_step (he : Exact φ p lo hi) {A B : Mat (Ieee φ) n n} {Z Y : Matrix (Fin n) (Fin n) ℤ} (hA : CountsMat 0 A Z) (hB : CountsMat 0 B Y)
    (hZ : Orthogonal Z) (hY : Orthogonal Y) : CountsMat 0 (A * B) (Z * Y) := by
  have hlo := he.lo_le
  have hhi := he.le_hi
  refine C104_mul (g := 0) (g' := 0) he (by omega) (by omega) hA hB fun r c => ?_
  calc ∑ i, |Z r i * Y i c| ≤ ∑ i, |Y i c| := Finset.sum_le_sum fun i _ => by
        rw [abs_mul]; exact mul_le_of_le_one_left (abs_nonneg _) ((orthogonal_column hZ i).2 r)
    _ = 1 := (orthogonal_column hY c).1
    _ ≤ 2 ^ p := one_le_pow₀ (by norm_num)

/-- **C104.**  However many quarter turns and mirror images along the axes are multiplied, in either order: nothing is ever rounded. -/
theorem C104_quarter_turns (he : Exact φ p lo hi) (steps : List (Bool × Mat (Ieee φ) n n × Matrix (Fin n) (Fin n) ℤ))
    (hs : ∀ s ∈ steps, CountsMat 0 s.2.1 s.2.2 ∧ Orthogonal s.2.2) (A : Mat (Ieee φ) n n) (Z : Matrix (Fin n) (Fin n) ℤ) (hA : CountsMat 0 A Z)
    (hZ : Orthogonal Z) :
    CountsMat 0 (steps.foldl (fun A s => if s.1 then s.2.1 * A else A * s.2.1) A)
      (steps.foldl (fun Z s => if s.1 then s.2.2 * Z else Z * s.2.2) Z) := by
  induction steps generalizing A Z with
  | nil => exact hA
  | cons s steps ih =>
    rw [List.foldl_cons, List.foldl_cons]
    obtain ⟨h1, h2⟩ := hs s (List.mem_cons_self ..)
    refine ih (fun t ht => hs t (List.mem_cons_of_mem _ ht)) _ _ ?_ ?_
    · split_ifs
      · exact orthogonal_step he h1 hA h2 hZ
      · exact orthogonal_step he hA h1 hZ h2
    · split_ifs
      · exact orthogonal_mul h2 hZ
      · exact orthogonal_mul hZ h2

/-! ### complex numbers and quaternions -/

/-- **C104.**  Products of complex numbers. -/
theorem C104_complex_mul (he : Exact φ p lo hi) (h1 : lo ≤ g + g') (h2 : g + g' ≤ hi) {x y : Cx (Ieee φ)} {z w : GaussianInt}
    (hx : CountsCx g x z) (hy : CountsCx g' y w) {T : ℤ} (hT : 2 * T ≤ 2 ^ p) (b1 : |z.re * w.re| ≤ T) (b2 : |z.im * w.im| ≤ T)
    (b3 : |z.re * w.im| ≤ T) (b4 : |z.im * w.re| ≤ T) : CountsCx (g + g') (x * y) (z * w) := by
  have h0 : 0 ≤ T := (abs_nonneg _).trans b1
  constructor
  · rw [Zsqrtd.re_mul, show z.re * w.re + -1 * z.im * w.im = z.re * w.re - z.im * w.im by ring]
    exact (hx.1.mul he h1 h2 hy.1 (by linarith)).sub he h1 h2 (hx.2.mul he h1 h2 hy.2 (by linarith)) ((abs_sub _ _).trans (by linarith))
  · rw [Zsqrtd.im_mul]
    exact (hx.1.mul he h1 h2 hy.2 (by linarith)).add he h1 h2 (hx.2.mul he h1 h2 hy.1 (by linarith)) ((abs_add_le _ _).trans (by linarith))

theorem one_le_prod {ι : Type*} {f : ι → ℤ} (l : List ι) (h : ∀ s ∈ l, 1 ≤ f s) : 1 ≤ (l.map f).prod := by
  induction l with
  | nil => simp
  | cons t l il =>
    rw [List.map_cons, List.prod_cons]
    exact one_le_mul_of_one_le_of_one_le (h t (List.mem_cons_self ..)) (il fun s hs => h s (List.mem_cons_of_mem _ hs))

/-- **C104.**  Products of any number of Gaussian integers: exact while twice the product of their moduli is at most `2 ^ p`
(`norm` is the square of the modulus). -/
theorem C104_complex_products (he : Exact φ p lo hi) {T : ℤ} (hT0 : 0 ≤ T) (hT : 2 * T ≤ 2 ^ p) (steps : List (Cx (Ieee φ) × GaussianInt))
    (hs : ∀ s ∈ steps, CountsCx 0 s.1 s.2) (hn : ∀ s ∈ steps, s.2 ≠ 0)
    (x : Cx (Ieee φ)) (z : GaussianInt) (hx : CountsCx 0 x z) (hb : z.norm * (steps.map fun s => s.2.norm).prod ≤ T ^ 2) :
    CountsCx 0 (steps.foldl (fun x s => x * s.1) x) (steps.foldl (fun z s => z * s.2) z) := by
  have hlo := he.lo_le
  have hhi := he.le_hi
  induction steps generalizing x z with
  | nil => exact hx
  | cons s steps ih =>
    rw [List.foldl_cons, List.foldl_cons]
    rw [List.map_cons, List.prod_cons, ← _root_.mul_assoc] at hb
    have hz0 : 0 ≤ z.norm := GaussianInt.norm_nonneg z
    have h1 : ∀ t ∈ s :: steps, 1 ≤ t.2.norm := fun t ht => Int.add_one_le_iff.mpr (GaussianInt.norm_pos.mpr (hn t ht))
    have hs1 := h1 s (List.mem_cons_self ..)
    have hP := one_le_prod steps fun t ht => h1 t (List.mem_cons_of_mem _ ht)
    have hzs : z.norm * s.2.norm ≤ T ^ 2 :=
      le_trans (le_mul_of_one_le_right (mul_nonneg hz0 (by linarith)) hP) hb
    have key : ∀ a b : ℤ, a * a ≤ z.norm → b * b ≤ s.2.norm → |a * b| ≤ T := fun a b ha hb => by
      refine abs_le_of_sq_le_sq ?_ hT0
      calc (a * b) ^ 2 = (a * a) * (b * b) := by ring
        _ ≤ z.norm * s.2.norm := mul_le_mul ha hb (mul_self_nonneg _) hz0
        _ ≤ T ^ 2 := hzs
    have part : ∀ t : GaussianInt, t.re * t.re ≤ t.norm ∧ t.im * t.im ≤ t.norm := fun t => by
      rw [Zsqrtd.norm_def]
      have := mul_self_nonneg t.re
      have := mul_self_nonneg t.im
      constructor <;> linarith
    refine ih (fun t ht => hs t (List.mem_cons_of_mem _ ht)) (fun t ht => hn t (List.mem_cons_of_mem _ ht)) _ _ ?_ ?_
    · exact C104_complex_mul (g := 0) (g' := 0) he (by omega) (by omega) hx (hs s (List.mem_cons_self ..)) hT (key _ _ (part z).1 (part s.2).1)
        (key _ _ (part z).2 (part s.2).2) (key _ _ (part z).1 (part s.2).2) (key _ _ (part z).2 (part s.2).1)
    · rwa [Zsqrtd.norm_mul]

theorem quat_mul_ops {S : Type*} [Zero S] [Add S] [Sub S] [Mul S] (q r : Quat S) :
    (q * r).coords.data 0 = q.coords.data 0 * r.coords.data 0 -
      (0 + q.coords.data 1 * r.coords.data 1 + q.coords.data 2 * r.coords.data 2 + q.coords.data 3 * r.coords.data 3) ∧
    (q * r).coords.data 1 = r.coords.data 1 * q.coords.data 0 + q.coords.data 1 * r.coords.data 0 +
      (q.coords.data 2 * r.coords.data 3 - q.coords.data 3 * r.coords.data 2) ∧
    (q * r).coords.data 2 = r.coords.data 2 * q.coords.data 0 + q.coords.data 2 * r.coords.data 0 +
      (q.coords.data 3 * r.coords.data 1 - q.coords.data 1 * r.coords.data 3) ∧
    (q * r).coords.data 3 = r.coords.data 3 * q.coords.data 0 + q.coords.data 3 * r.coords.data 0 +
      (q.coords.data 1 * r.coords.data 2 - q.coords.data 2 * r.coords.data 1) := ⟨rfl, rfl, rfl, rfl⟩

/-- the components in order -/
def components (z : ℍ[ℤ]) : Fin 4 → ℤ := ![z.re, z.imI, z.imJ, z.imK]

theorem countsQuat_iff {q : Quat (Ieee φ)} {z : ℍ[ℤ]} : CountsQuat g q z ↔ ∀ i, Counts g (q.coords.data i) (components z i) := by
  constructor
  · rintro ⟨a, b, c, d⟩ i
    fin_cases i
    exacts [a, b, c, d]
  · exact fun h => ⟨h 0, h 1, h 2, h 3⟩

/-- **C104.**  Products of quaternions. -/
theorem C104_quaternion_mul (he : Exact φ p lo hi) (h1 : lo ≤ g + g') (h2 : g + g' ≤ hi) {q r : Quat (Ieee φ)} {z w : ℍ[ℤ]}
    (hq : CountsQuat g q z) (hr : CountsQuat g' r w) {T : ℤ} (hT : 4 * T ≤ 2 ^ p)
    (hb : ∀ a ∈ [z.re, z.imI, z.imJ, z.imK], ∀ b ∈ [w.re, w.imI, w.imJ, w.imK], |a * b| ≤ T) : CountsQuat (g + g') (q * r) (z * w) := by
  rw [countsQuat_iff] at hq hr
  have hb : ∀ i j, |components z i * components w j| ≤ T := fun i j => by
    refine hb _ ?_ _ ?_
    · fin_cases i <;> simp [components]
    · fin_cases j <;> simp [components]
  have h0 : 0 ≤ T := (abs_nonneg _).trans (hb 0 0)
  have hm : ∀ i j, Counts (g + g') (q.coords.data i * r.coords.data j) (components z i * components w j) := fun i j =>
    (hq i).mul he h1 h2 (hr j) ((hb i j).trans (by linarith))
  have hm' : ∀ i j, Counts (g + g') (r.coords.data j * q.coords.data i) (components z i * components w j) := fun i j => by
    have e := (hr j).mul he (by rwa [add_comm]) (by rwa [add_comm]) (hq i) (by rw [_root_.mul_comm]; exact (hb i j).trans (by linarith))
    rwa [add_comm, _root_.mul_comm (components w j)] at e
  have B := fun i j => abs_le.mp (hb i j)
  obtain ⟨e0, e1, e2, e3⟩ := quat_mul_ops q r
  have vec : ∀ i j k : Fin 4, Counts (g + g')
      (r.coords.data i * q.coords.data 0 + q.coords.data i * r.coords.data 0 + (q.coords.data j * r.coords.data k - q.coords.data k * r.coords.data j))
      (components z 0 * components w i + components z i * components w 0 + (components z j * components w k - components z k * components w j)) := by
    intro i j k
    have := B 0 i
    have := B i 0
    have := B j k
    have := B k j
    refine ((hm' 0 i).add he h1 h2 (hm i 0) ?_).add he h1 h2 ((hm j k).sub he h1 h2 (hm k j) ?_) ?_ <;> rw [abs_le] <;>
      constructor <;> linarith
  have sc : Counts (g + g') (q.coords.data 0 * r.coords.data 0 -
      (0 + q.coords.data 1 * r.coords.data 1 + q.coords.data 2 * r.coords.data 2 + q.coords.data 3 * r.coords.data 3))
      (components z 0 * components w 0 - (0 + components z 1 * components w 1 + components z 2 * components w 2 + components z 3 * components w 3)) := by
    have := B 0 0
    have := B 1 1
    have := B 2 2
    have := B 3 3
    refine (hm 0 0).sub he h1 h2 (((Counts.zero.add he h1 h2 (hm 1 1) ?_).add he h1 h2 (hm 2 2) ?_).add he h1 h2 (hm 3 3) ?_) ?_ <;>
      rw [abs_le] <;> constructor <;> linarith
  rw [countsQuat_iff]
  intro i
  fin_cases i
  · have e : components (z * w) 0 = components z 0 * components w 0 -
        (0 + components z 1 * components w 1 + components z 2 * components w 2 + components z 3 * components w 3) := by
      simp [components, Quaternion.re_mul]; ring
    exact e0 ▸ e ▸ sc
  · have e : components (z * w) 1 = components z 0 * components w 1 + components z 1 * components w 0 +
        (components z 2 * components w 3 - components z 3 * components w 2) := by
      simp [components, Quaternion.imI_mul]; ring
    exact e1 ▸ e ▸ vec 1 2 3
  · have e : components (z * w) 2 = components z 0 * components w 2 + components z 2 * components w 0 +
        (components z 3 * components w 1 - components z 1 * components w 3) := by
      simp [components, Quaternion.imJ_mul]; ring
    exact e2 ▸ e ▸ vec 2 3 1
  · have e : components (z * w) 3 = components z 0 * components w 3 + components z 3 * components w 0 +
        (components z 1 * components w 2 - components z 2 * components w 1) := by
      simp [components, Quaternion.imK_mul]; ring
    exact e3 ▸ e ▸ vec 3 1 2

/-- **C104.**  Products of any number of integer quaternions, multiplied from either side: exact while four times the product of
their lengths is at most `2 ^ p`. -/
theorem C104_quaternion_products (he : Exact φ p lo hi) {T : ℤ} (hT0 : 0 ≤ T) (hT : 4 * T ≤ 2 ^ p)
    (steps : List (Bool × Quat (Ieee φ) × ℍ[ℤ])) (hs : ∀ s ∈ steps, CountsQuat 0 s.2.1 s.2.2) (hn : ∀ s ∈ steps, s.2.2 ≠ 0)
    (q : Quat (Ieee φ)) (z : ℍ[ℤ]) (hq : CountsQuat 0 q z)
    (hb : normSq z * (steps.map fun s => normSq s.2.2).prod ≤ T ^ 2) :
    CountsQuat 0 (steps.foldl (fun q s => if s.1 then s.2.1 * q else q * s.2.1) q)
      (steps.foldl (fun z s => if s.1 then s.2.2 * z else z * s.2.2) z) := by
  have hlo := he.lo_le
  have hhi := he.le_hi
  have hpos : ∀ z : ℍ[ℤ], 0 ≤ normSq z := fun z => Quaternion.normSq_nonneg
  have hle : ∀ (z : ℍ[ℤ]), ∀ a ∈ [z.re, z.imI, z.imJ, z.imK], a * a ≤ normSq z := fun z a ha => by
    rw [Quaternion.normSq_def']
    have := mul_self_nonneg z.re
    have := mul_self_nonneg z.imI
    have := mul_self_nonneg z.imJ
    have := mul_self_nonneg z.imK
    simp only [List.mem_cons, List.not_mem_nil, or_false] at ha
    rcases ha with rfl | rfl | rfl | rfl <;> linarith
  induction steps generalizing q z with
  | nil => exact hq
  | cons s steps ih =>
    rw [List.foldl_cons, List.foldl_cons]
    rw [List.map_cons, List.prod_cons, ← _root_.mul_assoc] at hb
    have h1 : ∀ t ∈ s :: steps, 1 ≤ normSq t.2.2 := fun t ht =>
      Int.add_one_le_iff.mpr (lt_of_le_of_ne (hpos _) (Ne.symm (Quaternion.normSq_ne_zero.mpr (hn t ht))))
    have hs1 := h1 s (List.mem_cons_self ..)
    have hP := one_le_prod steps fun t ht => h1 t (List.mem_cons_of_mem _ ht)
    have hzs : normSq z * normSq s.2.2 ≤ T ^ 2 :=
      le_trans (le_mul_of_one_le_right (mul_nonneg (hpos z) (by linarith)) hP) hb
    have key : ∀ a b, a * a ≤ normSq z → b * b ≤ normSq s.2.2 → |a * b| ≤ T := fun a b ha hb => by
      refine abs_le_of_sq_le_sq ?_ hT0
      calc (a * b) ^ 2 = (a * a) * (b * b) := by ring
        _ ≤ normSq z * normSq s.2.2 := mul_le_mul ha hb (mul_self_nonneg _) (hpos z)
        _ ≤ T ^ 2 := hzs
    have hs' := hs s (List.mem_cons_self ..)
    refine ih (fun t ht => hs t (List.mem_cons_of_mem _ ht)) (fun t ht => hn t (List.mem_cons_of_mem _ ht)) _ _ ?_ ?_
    · split_ifs
      · exact C104_quaternion_mul (g := 0) (g' := 0) he (by omega) (by omega) hs' hq hT fun a ha b hb => by
          rw [_root_.mul_comm]; exact key b a (hle _ b hb) (hle _ a ha)
      · exact C104_quaternion_mul (g := 0) (g' := 0) he (by omega) (by omega) hq hs' hT fun a ha b hb => key a b (hle _ a ha) (hle _ b hb)
    · refine le_trans (le_of_eq ?_) hb
      congr 1
      split_ifs
      · rw [map_mul, _root_.mul_comm]
      · rw [map_mul]

/-! ### determinants and inverses of integer matrices -/

/-- `x` is the integer `z`, a sum of `w` products of `d` integers of at most `B`; `W` and `D` bound `w` and `d` -/
def Cnt (φ : Format) (B W D w d : ℕ) (x : Ieee φ) (z : ℤ) : Prop := 1 ≤ w ∧ (w ≤ W → d ≤ D → Counts 0 x z ∧ |z| ≤ w * B ^ d)

/-- `A` is the integer matrix `Z`, with entries of at most `B` -/
def Spec.Bounded (B : ℕ) (A : Mat (Ieee φ) n n) (Z : Matrix (Fin n) (Fin n) ℤ) : Prop := CountsMat 0 A Z ∧ ∀ r c, |Z r c| ≤ B

/-- the same with a matrix of the model -/
def BoundedM (B : ℕ) (A : Mat (Ieee φ) n n) (Z : Mat ℤ n n) : Prop := (∀ c r, Counts 0 (A.data c r) (Z.data c r)) ∧ ∀ c r, |Z.data c r| ≤ B

theorem boundedM_of {B : ℕ} {A : Mat (Ieee φ) n n} {Z : Matrix (Fin n) (Fin n) ℤ} (h : Bounded B A Z) : BoundedM B A ⟨fun c r => Z r c⟩ :=
  ⟨fun c r => h.1 r c, fun c r => h.2 r c⟩

theorem leibniz_mat (Z : Matrix (Fin n) (Fin n) ℤ) : leibniz (⟨fun c r => Z r c⟩ : Mat ℤ n n) = Z.det := leibniz_eq _

namespace Cnt
variable {B W D w w' d d' : ℕ} {x y : Ieee φ} {z z' : ℤ}

theorem entry {A : Mat (Ieee φ) n n} {Z : Mat ℤ n n} (h : BoundedM B A Z) (c r) : Cnt φ B W D 1 1 (A.data c r) (Z.data c r) :=
  ⟨le_rfl, fun _ _ => ⟨h.1 c r, by simpa using h.2 c r⟩⟩

theorem neg (h : Cnt φ B W D w d x z) : Cnt φ B W D w d (-x) (-z) :=
  ⟨h.1, fun a b => ⟨(h.2 a b).1.neg, by rw [abs_neg]; exact (h.2 a b).2⟩⟩

theorem le_two_pow (hB : 1 ≤ B) (hW : W * B ^ D ≤ 2 ^ p) (hw : w ≤ W) (hd : d ≤ D) (h : |z| ≤ w * B ^ d) : |z| ≤ 2 ^ p := by
  refine h.trans ?_
  have : w * B ^ d ≤ W * B ^ D := Nat.mul_le_mul hw (Nat.pow_le_pow_right hB hd)
  exact_mod_cast this.trans hW

theorem mul (he : Exact φ p lo hi) (hB : 1 ≤ B) (hW : W * B ^ D ≤ 2 ^ p) (hx : Cnt φ B W D w d x z) (hy : Cnt φ B W D w' d' y z') :
    Cnt φ B W D (w * w') (d + d') (x * y) (z * z') := by
  refine ⟨Nat.mul_pos hx.1 hy.1, fun a b => ?_⟩
  obtain ⟨x1, x2⟩ := hx.2 ((Nat.le_mul_of_pos_right _ hy.1).trans a) (by omega)
  obtain ⟨y1, y2⟩ := hy.2 ((Nat.le_mul_of_pos_left _ hx.1).trans a) (by omega)
  have hz : |z * z'| ≤ (w * w' : ℕ) * (B : ℤ) ^ (d + d') := by
    rw [abs_mul]
    calc |z| * |z'| ≤ (w * B ^ d) * (w' * B ^ d') := mul_le_mul x2 y2 (abs_nonneg _) (by positivity)
      _ = _ := by push_cast; ring
  have hlo := he.lo_le
  have hhi := he.le_hi
  exact ⟨x1.mul (g := 0) (g' := 0) he (by omega) (by omega) y1 (le_two_pow hB hW a b hz), hz⟩

theorem add (he : Exact φ p lo hi) (hB : 1 ≤ B) (hW : W * B ^ D ≤ 2 ^ p) (hx : Cnt φ B W D w d x z) (hy : Cnt φ B W D w' d y z') :
    Cnt φ B W D (w + w') d (x + y) (z + z') := by
  refine ⟨Nat.le_add_right_of_le hx.1, fun a b => ?_⟩
  obtain ⟨x1, x2⟩ := hx.2 (by omega) b
  obtain ⟨y1, y2⟩ := hy.2 (by omega) b
  have hz : |z + z'| ≤ (w + w' : ℕ) * (B : ℤ) ^ d := (abs_add_le _ _).trans (by push_cast; linarith)
  have hlo := he.lo_le
  have hhi := he.le_hi
  exact ⟨x1.add he (by omega) (by omega) y1 (le_two_pow hB hW a b hz), hz⟩

theorem sub (he : Exact φ p lo hi) (hB : 1 ≤ B) (hW : W * B ^ D ≤ 2 ^ p) (hx : Cnt φ B W D w d x z) (hy : Cnt φ B W D w' d y z') :
    Cnt φ B W D (w + w') d (x - y) (z - z') := by
  rw [sub_eq_add_neg z z', show x - y = x + -y from rfl]
  exact hx.add he hB hW hy.neg

theorem congr (h : Cnt φ B W D w d x z) (hw : w = w') (hd : d = d') : Cnt φ B W D w' d' x z := by subst hw hd; exact h

end Cnt

local macro "count" he:ident hB:ident hW:ident : tactic => `(tactic| repeat' first
  | exact Cnt.entry ‹BoundedM _ _ _› _ _ | apply Cnt.add $he $hB $hW | apply Cnt.sub $he $hB $hW | apply Cnt.mul $he $hB $hW | apply Cnt.neg)

section Determinants
variable {B : ℕ} (he : Exact φ p lo hi) (hB : 1 ≤ B)
include he hB

theorem det2_counts {A : Mat (Ieee φ) 2 2} {Z : Mat ℤ 2 2} (hA : BoundedM B A Z) (hW : 2 * B ^ 2 ≤ 2 ^ p) :
    Counts 0 A.determinant2 Z.determinant2 ∧ |Z.determinant2| ≤ 2 * B ^ 2 := by
  have h : Cnt φ B 2 2 2 2 A.determinant2 Z.determinant2 := by
    refine Cnt.congr (by unfold determinant2; count he hB hW) (by norm_num) (by norm_num)
  exact_mod_cast h.2 le_rfl le_rfl

theorem det3_counts {A : Mat (Ieee φ) 3 3} {Z : Mat ℤ 3 3} (hA : BoundedM B A Z) (hW : 6 * B ^ 3 ≤ 2 ^ p) :
    Counts 0 A.determinant3 Z.determinant3 ∧ |Z.determinant3| ≤ 6 * B ^ 3 := by
  have h : Cnt φ B 6 3 6 3 A.determinant3 Z.determinant3 := by
    refine Cnt.congr (by unfold determinant3; count he hB hW) (by norm_num) (by norm_num)
  exact_mod_cast h.2 le_rfl le_rfl

theorem det4_counts {A : Mat (Ieee φ) 4 4} {Z : Mat ℤ 4 4} (hA : BoundedM B A Z) (hW : 24 * B ^ 4 ≤ 2 ^ p) :
    Counts 0 A.determinant4 Z.determinant4 ∧ |Z.determinant4| ≤ 24 * B ^ 4 := by
  have h : Cnt φ B 24 4 24 4 A.determinant4 Z.determinant4 := by
    refine Cnt.congr (by unfold determinant4; count he hB hW) (by norm_num) (by norm_num)
  exact_mod_cast h.2 le_rfl le_rfl

/-- **C104.**  Determinants of integer matrices are exact: `n! B ^ n` at most `2 ^ p`. -/
theorem C104_determinant :
    (∀ (A : Mat (Ieee φ) 2 2) (Z : Matrix (Fin 2) (Fin 2) ℤ), Bounded B A Z → 2 * B ^ 2 ≤ 2 ^ p → Counts 0 A.determinant2 Z.det) ∧
    (∀ (A : Mat (Ieee φ) 3 3) (Z : Matrix (Fin 3) (Fin 3) ℤ), Bounded B A Z → 6 * B ^ 3 ≤ 2 ^ p → Counts 0 A.determinant3 Z.det) ∧
    (∀ (A : Mat (Ieee φ) 4 4) (Z : Matrix (Fin 4) (Fin 4) ℤ), Bounded B A Z → 24 * B ^ 4 ≤ 2 ^ p → Counts 0 A.determinant4 Z.det) := by
  refine ⟨fun A Z h hW => ?_, fun A Z h hW => ?_, fun A Z h hW => ?_⟩
  · rw [← leibniz_mat, ← C17_det2]; exact (det2_counts he hB (boundedM_of h) hW).1
  · rw [← leibniz_mat, ← C17_det3]; exact (det3_counts he hB (boundedM_of h) hW).1
  · rw [← leibniz_mat, ← C17_det4]; exact (det4_counts he hB (boundedM_of h) hW).1

/-- **C104.**  `try_inverse` rejects exactly the singular matrices. -/
theorem C104_singular :
    (∀ (A : Mat (Ieee φ) 2 2) (Z : Matrix (Fin 2) (Fin 2) ℤ), Bounded B A Z → 2 * B ^ 2 ≤ 2 ^ p → (A.tryInverse2 = none ↔ Z.det = 0)) ∧
    (∀ (A : Mat (Ieee φ) 3 3) (Z : Matrix (Fin 3) (Fin 3) ℤ), Bounded B A Z → 6 * B ^ 3 ≤ 2 ^ p → (A.tryInverse3 = none ↔ Z.det = 0)) ∧
    (∀ (A : Mat (Ieee φ) 4 4) (Z : Matrix (Fin 4) (Fin 4) ℤ), Bounded B A Z → 24 * B ^ 4 ≤ 2 ^ p → (A.tryInverse4 = none ↔ Z.det = 0)) := by
  obtain ⟨d2, d3, d4⟩ := C104_determinant he hB
  refine ⟨fun A Z h hW => ?_, fun A Z h hW => ?_, fun A Z h hW => ?_⟩
  · rw [← (d2 A Z h hW).beq_zero, tryInverse2]
    simp only []
    split_ifs with hc <;> simp [hc]
  · rw [← (d3 A Z h hW).beq_zero, tryInverse3]
    simp only []
    split_ifs with hc <;> simp [hc]
  · rw [← (d4 A Z h hW).beq_zero, tryInverse4]
    simp only []
    split_ifs with hc <;> simp [hc]

end Determinants

/-! ### inverses that need no rounding -/

/-- `f` returns the exact inverse, and the products computed in the format are exactly the identity -/
def Spec.InvertedExactly (f : Mat (Ieee φ) n n → Option (Mat (Ieee φ) n n)) (A : Mat (Ieee φ) n n) : Prop :=
  ∃ B, f A = some B ∧ exactly A * exactly B = 1 ∧ exactly B * exactly A = 1 ∧
    ∀ r c, ((A * B).data c r).Finite ∧ ((A * B).data c r).val = (1 : Matrix (Fin n) (Fin n) ℝ) r c ∧
      ((B * A).data c r).Finite ∧ ((B * A).data c r).val = (1 : Matrix (Fin n) (Fin n) ℝ) r c

section Unimodular
variable {B k : ℕ}

theorem entry_counts (he : Exact φ p lo hi) {det x : Ieee φ} {D c : ℤ} (hd : Counts 0 det D) (hD : |D| = 2 ^ k) (hk : k ≤ p)
    (hx : Counts 0 x c) (hc : |c| ≤ 2 ^ p) :
    (1 / det * x).val = 1 / (D : ℝ) * c ∧ ∃ w, Counts (-k) (1 / det * x) w ∧ |w| = |c| := by
  have hlo := he.lo_le
  have hhi := he.le_hi
  obtain ⟨σ, hσ, hDσ⟩ : ∃ σ : ℤ, |σ| = 1 ∧ D = σ * 2 ^ k := by
    rcases (abs_eq (by positivity)).mp hD with e | e
    · exact ⟨1, by norm_num, by rw [e, _root_.one_mul]⟩
    · exact ⟨-1, by norm_num, by rw [e, neg_one_mul]⟩
  have hσσ : (σ : ℝ) * σ = 1 := by
    have : σ * σ = 1 := by rw [← abs_mul_abs_self, hσ, _root_.one_mul]
    exact_mod_cast this
  have hσ0 : (σ : ℝ) ≠ 0 := fun h => by rw [h, mul_zero] at hσσ; exact zero_ne_one hσσ
  have hinv : 1 / (D : ℝ) = σ * 2 ^ (-(k : ℤ)) := by
    rw [hDσ, zpow_neg, zpow_natCast]; push_cast
    rw [eq_comm, ← div_eq_mul_inv, div_eq_div_iff (by positivity) (by positivity), _root_.one_mul, ← _root_.mul_assoc, hσσ, _root_.one_mul]
  have hdv : det.val = D := by rw [hd.2]; simp
  have hD0 : (D : ℝ) ≠ 0 := by rw [hDσ]; push_cast; positivity
  obtain ⟨a, b⟩ := he.rep σ (-k) (by rw [hσ]; exact one_le_pow₀ (by norm_num)) (by omega) (by omega)
  have onev : (1 : Ieee φ).val = 1 := rfl
  have hf : (1 / det).Finite := finite_div_of finite_one hd.1 (by rw [hdv]; exact hD0) (by rw [onev, hdv, hinv, a]; exact b)
  have hr : Counts (-k) (1 / det) σ := ⟨hf, by rw [(val_div hf hd.1).1, onev, hdv, hinv, a]⟩
  have hm := hr.mul (g' := 0) he (by omega) (by omega) hx (by rw [abs_mul, hσ, _root_.one_mul]; exact hc)
  rw [add_zero] at hm
  refine ⟨?_, σ * c, hm, by rw [abs_mul, hσ, _root_.one_mul]⟩
  rw [hm.2, hinv]; push_cast; ring

/-- from the entries to the products -/
theorem exactly_of (he : Exact φ p lo hi) {f : Mat (Ieee φ) n n → Option (Mat (Ieee φ) n n)} {A B' : Mat (Ieee φ) n n} {Z : Mat ℤ n n}
    {E : Mat ℝ n n} (hA : BoundedM B A Z) (hk : k ≤ p) {Q : ℕ} (hQ : n * (B * Q) ≤ 2 ^ p) (hf : f A = some B')
    (h1 : numbers A * E = identity) (h2 : E * numbers A = identity)
    (h : ∀ c r, (B'.data c r).val = E.data c r ∧ ∃ w, Counts (-k) (B'.data c r) w ∧ |w| ≤ Q) : InvertedExactly f A := by
  have hlo := he.lo_le
  have hhi := he.le_hi
  have hE : numbers B' = E := by ext c r; exact (h c r).1
  choose hv W hW hWQ using h
  have hB' : CountsMat (-k) B' (Matrix.of fun r c => W c r) := fun r c => hW c r
  have hA' : CountsMat 0 A (Matrix.of fun r c => Z.data c r) := fun r c => hA.1 c r
  have bound : ∀ g : Fin n → ℤ, (∀ i, |g i| ≤ B * Q) → ∑ i, |g i| ≤ 2 ^ p := by
    intro g hg
    refine (Finset.sum_le_sum fun i _ => hg i).trans ?_
    rw [Finset.sum_const, Finset.card_univ, Fintype.card_fin, nsmul_eq_mul]
    exact_mod_cast hQ
  have p1 := C104_mul (g := 0) (g' := -k) he (by omega) (by omega) hA' hB' fun r c => bound _ fun i => by
    rw [abs_mul]; exact mul_le_mul (hA.2 _ _) (hWQ _ _) (abs_nonneg _) (by positivity)
  have p2 := C104_mul (g := -k) (g' := 0) he (by omega) (by omega) hB' hA' fun r c => bound _ fun i => by
    rw [abs_mul, _root_.mul_comm]; exact mul_le_mul (hA.2 _ _) (hWQ _ _) (abs_nonneg _) (by positivity)
  have a : ∀ c r, (A.data c r).val = Z.data c r := fun c r => by rw [(hA.1 c r).2]; simp
  have b : ∀ c r, (B'.data c r).val = W c r * 2 ^ (-(k : ℤ)) := fun c r => (hW c r).2
  have q1 : exactly A * exactly B' = 1 := by
    rw [← toMatrix_numbers, ← toMatrix_numbers, ← toMatrix_mul, hE, h1, toMatrix_identity]
  have q2 : exactly B' * exactly A = 1 := by
    rw [← toMatrix_numbers, ← toMatrix_numbers, ← toMatrix_mul, hE, h2, toMatrix_identity]
  refine ⟨B', hf, q1, q2, fun r c => ⟨(p1 r c).1, ?_, (p2 r c).1, ?_⟩⟩
  · rw [(p1 r c).2, ← q1, Matrix.mul_apply, Matrix.mul_apply]
    simp only [exactly, Matrix.of_apply, a, b]
    push_cast
    rw [Finset.sum_mul, zero_add]
    exact Finset.sum_congr rfl fun i _ => by ring
  · rw [(p2 r c).2, ← q2, Matrix.mul_apply, Matrix.mul_apply]
    simp only [exactly, Matrix.of_apply, a, b]
    push_cast
    rw [Finset.sum_mul, add_zero]
    exact Finset.sum_congr rfl fun i _ => by ring

theorem exponent_le {z : ℤ} (h : |z| = 2 ^ k) (hb : |z| ≤ 2 ^ p) : k ≤ p := by
  rw [h] at hb
  exact (pow_le_pow_iff_right₀ (by norm_num : (1 : ℤ) < 2)).mp hb

theorem numbers_int {A : Mat (Ieee φ) n n} {Z : Mat ℤ n n} (hA : BoundedM B A Z) : numbers A = (⟨fun c r => (Z.data c r : ℝ)⟩ : Mat ℝ n n) := by
  ext c r; rw [numbers_data, (hA.1 c r).2]; simp

variable (he : Exact φ p lo hi) (hB : 1 ≤ B)
include he hB

theorem unimodular2 {A : Mat (Ieee φ) 2 2} {Z : Mat ℤ 2 2} (hA : BoundedM B A Z) (hW : 2 * B ^ 2 ≤ 2 ^ p) (hD : |leibniz Z| = 2 ^ k) :
    InvertedExactly tryInverse2 A := by
  rw [← C17_det2] at hD
  obtain ⟨hd, hb⟩ := det2_counts he hB hA hW
  have hk : k ≤ p := exponent_le hD (hb.trans (by exact_mod_cast hW))
  have hD0 : Z.determinant2 ≠ 0 := fun h => by rw [h, abs_zero] at hD; exact (pow_ne_zero k (two_ne_zero : (2 : ℤ) ≠ 0)) hD.symm
  have hDr : (numbers A).determinant2 = Z.determinant2 := by
    rw [numbers_int hA]; simp only [determinant2]; push_cast; ring
  have hDr0 : (numbers A).determinant2 ≠ 0 := by rw [hDr]; exact_mod_cast hD0
  have hne : (A.determinant2 == 0) = false := by rw [← Bool.not_eq_true, hd.beq_zero]; exact hD0
  obtain ⟨E, hE⟩ : ∃ E, (numbers A).tryInverse2 = some E := by
    rw [tryInverse2]; simp only [beq_iff_eq, hDr0, if_false]; exact ⟨_, rfl⟩
  refine exactly_of he hA hk (Q := 1 * B ^ 1) (B' := _) (le_trans (le_of_eq (by ring)) hW) (by rw [tryInverse2]; simp only [hne]; rfl)
    (C18_try_inverse2.right _ _ hE) (C18_try_inverse2.left _ _ hE) ?_
  simp only [tryInverse2, beq_iff_eq, hDr0, if_false, Option.some.injEq] at hE
  subst hE
  have key : ∀ (x : Ieee φ) (c : ℤ) (c' : ℝ), Cnt φ B 2 2 1 1 x c → c' = c →
      (1 / A.determinant2 * x).val = 1 / (numbers A).determinant2 * c' ∧
      ∃ w, Counts (-k) (1 / A.determinant2 * x) w ∧ |w| ≤ ((1 * B ^ 1 : ℕ) : ℤ) := by
    intro x c c' hx hc
    obtain ⟨x1, x2⟩ := hx.2 (by norm_num) (by norm_num)
    obtain ⟨e1, w, e2, e3⟩ := entry_counts he hd hD hk x1 (Cnt.le_two_pow hB hW (by norm_num) (by norm_num) x2)
    refine ⟨by rw [e1, hDr, hc], w, e2, ?_⟩
    rw [e3]; refine x2.trans (le_of_eq ?_); push_cast; ring
  intro c r
  fin_cases c <;> fin_cases r <;>
    exact key _ _ _ (Cnt.congr (by count he hB hW) (by norm_num) (by norm_num)) (by simp only [numbers_int hA] <;> push_cast <;> ring)

theorem unimodular3 {A : Mat (Ieee φ) 3 3} {Z : Mat ℤ 3 3} (hA : BoundedM B A Z) (hW : 6 * B ^ 3 ≤ 2 ^ p) (hD : |leibniz Z| = 2 ^ k) :
    InvertedExactly tryInverse3 A := by
  rw [← C17_det3] at hD
  obtain ⟨hd, hb⟩ := det3_counts he hB hA hW
  have hk : k ≤ p := exponent_le hD (hb.trans (by exact_mod_cast hW))
  have hD0 : Z.determinant3 ≠ 0 := fun h => by rw [h, abs_zero] at hD; exact (pow_ne_zero k (two_ne_zero : (2 : ℤ) ≠ 0)) hD.symm
  have hDr : (numbers A).determinant3 = Z.determinant3 := by
    rw [numbers_int hA]; simp only [determinant3]; push_cast; ring
  have hDr0 : (numbers A).determinant3 ≠ 0 := by rw [hDr]; exact_mod_cast hD0
  have hne : (A.determinant3 == 0) = false := by rw [← Bool.not_eq_true, hd.beq_zero]; exact hD0
  obtain ⟨E, hE⟩ : ∃ E, (numbers A).tryInverse3 = some E := by
    rw [tryInverse3]; simp only [beq_iff_eq, hDr0, if_false]; exact ⟨_, rfl⟩
  refine exactly_of he hA hk (Q := 2 * B ^ 2) (B' := _) (le_trans (le_of_eq (by ring)) hW) (by rw [tryInverse3]; simp only [hne]; rfl)
    (C18_try_inverse3.right _ _ hE) (C18_try_inverse3.left _ _ hE) ?_
  simp only [tryInverse3, beq_iff_eq, hDr0, if_false, Option.some.injEq] at hE
  subst hE
  have key : ∀ (x : Ieee φ) (c : ℤ) (c' : ℝ), Cnt φ B 6 3 2 2 x c → c' = c →
      (1 / A.determinant3 * x).val = 1 / (numbers A).determinant3 * c' ∧
      ∃ w, Counts (-k) (1 / A.determinant3 * x) w ∧ |w| ≤ ((2 * B ^ 2 : ℕ) : ℤ) := by
    intro x c c' hx hc
    obtain ⟨x1, x2⟩ := hx.2 (by norm_num) (by norm_num)
    obtain ⟨e1, w, e2, e3⟩ := entry_counts he hd hD hk x1 (Cnt.le_two_pow hB hW (by norm_num) (by norm_num) x2)
    refine ⟨by rw [e1, hDr, hc], w, e2, ?_⟩
    rw [e3]; refine x2.trans (le_of_eq ?_); push_cast; ring
  intro c r
  fin_cases c <;> fin_cases r <;>
    exact key _ _ _ (Cnt.congr (by count he hB hW) (by norm_num) (by norm_num)) (by simp only [numbers_int hA] <;> push_cast <;> ring)

set_option maxHeartbeats 1000000 in
theorem unimodular4 {A : Mat (Ieee φ) 4 4} {Z : Mat ℤ 4 4} (hA : BoundedM B A Z) (hW : 24 * B ^ 4 ≤ 2 ^ p) (hD : |leibniz Z| = 2 ^ k) :
    InvertedExactly tryInverse4 A := by
  rw [← C17_det4] at hD
  obtain ⟨hd, hb⟩ := det4_counts he hB hA hW
  have hk : k ≤ p := exponent_le hD (hb.trans (by exact_mod_cast hW))
  have hD0 : Z.determinant4 ≠ 0 := fun h => by rw [h, abs_zero] at hD; exact (pow_ne_zero k (two_ne_zero : (2 : ℤ) ≠ 0)) hD.symm
  have hDr : (numbers A).determinant4 = Z.determinant4 := by
    rw [numbers_int hA]; simp only [determinant4]; push_cast; ring
  have hDr0 : (numbers A).determinant4 ≠ 0 := by rw [hDr]; exact_mod_cast hD0
  have hne : (A.determinant4 == 0) = false := by rw [← Bool.not_eq_true, hd.beq_zero]; exact hD0
  obtain ⟨E, hE⟩ : ∃ E, (numbers A).tryInverse4 = some E := by
    rw [tryInverse4]; simp only [beq_iff_eq, hDr0, if_false]; exact ⟨_, rfl⟩
  refine exactly_of he hA hk (Q := 6 * B ^ 3) (B' := _) (le_trans (le_of_eq (by ring)) hW) (by rw [tryInverse4]; simp only [hne]; rfl)
    (C18_try_inverse4.right _ _ hE) (C18_try_inverse4.left _ _ hE) ?_
  simp only [tryInverse4, beq_iff_eq, hDr0, if_false, Option.some.injEq] at hE
  subst hE
  have key : ∀ (x : Ieee φ) (c : ℤ) (c' : ℝ), Cnt φ B 24 4 6 3 x c → c' = c →
      (1 / A.determinant4 * x).val = 1 / (numbers A).determinant4 * c' ∧
      ∃ w, Counts (-k) (1 / A.determinant4 * x) w ∧ |w| ≤ ((6 * B ^ 3 : ℕ) : ℤ) := by
    intro x c c' hx hc
    obtain ⟨x1, x2⟩ := hx.2 (by norm_num) (by norm_num)
    obtain ⟨e1, w, e2, e3⟩ := entry_counts he hd hD hk x1 (Cnt.le_two_pow hB hW (by norm_num) (by norm_num) x2)
    refine ⟨by rw [e1, hDr, hc], w, e2, ?_⟩
    rw [e3]; refine x2.trans (le_of_eq ?_); push_cast; ring
  intro c r
  fin_cases c <;> fin_cases r <;>
    exact key _ _ _ (Cnt.congr (by count he hB hW) (by norm_num) (by norm_num)) (by simp only [numbers_int hA] <;> push_cast <;> ring)

/-- **C104.**  Integer matrices whose determinant is plus or minus a power of two are inverted without any rounding: the result is the
exact inverse, and multiplying back in either order gives exactly the identity. -/
theorem C104_unimodular :
    (∀ (A : Mat (Ieee φ) 2 2) (Z : Matrix (Fin 2) (Fin 2) ℤ), Bounded B A Z → 2 * B ^ 2 ≤ 2 ^ p → |Z.det| = 2 ^ k → InvertedExactly tryInverse2 A) ∧
    (∀ (A : Mat (Ieee φ) 3 3) (Z : Matrix (Fin 3) (Fin 3) ℤ), Bounded B A Z → 6 * B ^ 3 ≤ 2 ^ p → |Z.det| = 2 ^ k → InvertedExactly tryInverse3 A) ∧
    (∀ (A : Mat (Ieee φ) 4 4) (Z : Matrix (Fin 4) (Fin 4) ℤ), Bounded B A Z → 24 * B ^ 4 ≤ 2 ^ p → |Z.det| = 2 ^ k → InvertedExactly tryInverse4 A) :=
  ⟨fun _ _ h hW hD => unimodular2 he hB (boundedM_of h) hW (by rwa [leibniz_mat]), fun _ _ h hW hD => unimodular3 he hB (boundedM_of h) hW (by rwa [leibniz_mat]), fun _ _ h hW hD => unimodular4 he hB (boundedM_of h) hW (by rwa [leibniz_mat])⟩

end Unimodular

/-! ### the two formats -/

/-- **C104.**  The bounds of `f64` and `f32` on the entries of integer matrices: `4401` and `28` for 4x4 matrices, `114501` and `140` for 3x3
matrices, `2 ^ 26` and `2896` for 2x2 matrices. -/
theorem C104_bounds :
    (∀ (A : Mat (Ieee f64) 4 4) (Z : Matrix (Fin 4) (Fin 4) ℤ), Bounded 4401 A Z → Counts 0 A.determinant4 Z.det ∧ (A.tryInverse4 = none ↔ Z.det = 0)) ∧
    (∀ (A : Mat (Ieee f32) 4 4) (Z : Matrix (Fin 4) (Fin 4) ℤ), Bounded 28 A Z → Counts 0 A.determinant4 Z.det ∧ (A.tryInverse4 = none ↔ Z.det = 0)) ∧
    (∀ (A : Mat (Ieee f64) 3 3) (Z : Matrix (Fin 3) (Fin 3) ℤ), Bounded 114501 A Z → Counts 0 A.determinant3 Z.det ∧ (A.tryInverse3 = none ↔ Z.det = 0)) ∧
    (∀ (A : Mat (Ieee f32) 3 3) (Z : Matrix (Fin 3) (Fin 3) ℤ), Bounded 140 A Z → Counts 0 A.determinant3 Z.det ∧ (A.tryInverse3 = none ↔ Z.det = 0)) ∧
    (∀ (A : Mat (Ieee f64) 2 2) (Z : Matrix (Fin 2) (Fin 2) ℤ), Bounded (2 ^ 26) A Z → Counts 0 A.determinant2 Z.det ∧ (A.tryInverse2 = none ↔ Z.det = 0)) ∧
    (∀ (A : Mat (Ieee f32) 2 2) (Z : Matrix (Fin 2) (Fin 2) ℤ), Bounded 2896 A Z → Counts 0 A.determinant2 Z.det ∧ (A.tryInverse2 = none ↔ Z.det = 0)) :=
  ⟨fun A Z h => ⟨(C104_determinant exact64 (by norm_num)).2.2 A Z h (by norm_num), (C104_singular exact64 (by norm_num)).2.2 A Z h (by norm_num)⟩,
   fun A Z h => ⟨(C104_determinant exact32 (by norm_num)).2.2 A Z h (by norm_num), (C104_singular exact32 (by norm_num)).2.2 A Z h (by norm_num)⟩,
   fun A Z h => ⟨(C104_determinant exact64 (by norm_num)).2.1 A Z h (by norm_num), (C104_singular exact64 (by norm_num)).2.1 A Z h (by norm_num)⟩,
   fun A Z h => ⟨(C104_determinant exact32 (by norm_num)).2.1 A Z h (by norm_num), (C104_singular exact32 (by norm_num)).2.1 A Z h (by norm_num)⟩,
   fun A Z h => ⟨(C104_determinant exact64 (by norm_num)).1 A Z h (by norm_num), (C104_singular exact64 (by norm_num)).1 A Z h (by norm_num)⟩,
   fun A Z h => ⟨(C104_determinant exact32 (by norm_num)).1 A Z h (by norm_num), (C104_singular exact32 (by norm_num)).1 A Z h (by norm_num)⟩⟩

/-- every integer of at most `2 ^ p` is a number of the format -/
theorem counts_exists (he : Exact φ p lo hi) {z : ℤ} (hz : |z| ≤ 2 ^ p) (h1 : lo ≤ g) (h2 : g ≤ hi) : Counts g (Ieee.round false (z * 2 ^ g) : Ieee φ) z := by
  obtain ⟨a, b⟩ := he.rep z g hz h1 h2
  have hf : (Ieee.round false ((z : ℝ) * 2 ^ g) : Ieee φ).Finite := finite_round (by rw [fl_abs, a]; exact b)
  exact ⟨hf, by rw [val_round hf, a]⟩

/-- the number of the integer `z` -/
noncomputable def whole (φ : Format) (z : ℤ) : Ieee φ := Ieee.round false (z * 2 ^ (0 : ℤ))

theorem whole_counts (he : Exact φ p lo hi) {z : ℤ} (hz : |z| ≤ 2 ^ p) : Counts 0 (whole φ z) z := by
  have h1 := he.lo_le
  have h2 := he.le_hi
  exact counts_exists he hz (by omega) (by omega)

/-- `2 ^ 53 + 1` is no `f64` -/
theorem odd_not_counted (x : Ieee f64) : ¬Counts 0 x (2 ^ 53 + 1) := by
  rintro ⟨hf, hv⟩
  have h : f64.fl x.val = x.val := val_rep x
  obtain ⟨m, q, e, hm, -⟩ := grid_of_flEven_eq (p := 53) (qmin := some (-1074)) (by norm_num) h
  rw [hv, zpow_zero, mul_one] at e
  rcases le_or_gt q 0 with hq | hq
  · obtain ⟨d, hd⟩ := Int.eq_ofNat_of_zero_le (show 0 ≤ -q by omega)
    have e2 : (((2 ^ 53 + 1) * 2 ^ d : ℤ) : ℝ) = m := by
      have : q = -(d : ℤ) := by omega
      rw [this, zpow_neg, zpow_natCast] at e
      rw [Int.cast_mul, e]; push_cast; field_simp
    have e3 : (2 ^ 53 + 1) * 2 ^ d = m := by exact_mod_cast e2
    have hm' : |m| < 2 ^ 53 := by exact_mod_cast hm
    have : (1 : ℤ) ≤ 2 ^ d := one_le_pow₀ (by norm_num)
    have := (abs_lt.mp hm').2
    omega
  · obtain ⟨d, hd⟩ := Int.eq_ofNat_of_zero_le (show 0 ≤ q - 1 by omega)
    have e2 : ((2 ^ 53 + 1 : ℤ) : ℝ) = ((m * 2 ^ d * 2 : ℤ) : ℝ) := by
      have : q = ((d + 1 : ℕ) : ℤ) := by push_cast; omega
      rw [e, this, zpow_natCast]; push_cast; ring
    have e3 : (2 ^ 53 + 1 : ℤ) = m * 2 ^ d * 2 := by exact_mod_cast e2
    omega

/-- **C104.**  The bound is sharp: one unit more, and the dot product of `(2 ^ 53, 1)` and `(1, 1)` is not exact. -/
theorem C104_bound_fails : ∃ (v w : Vec (Ieee f64) 2) (z y : Fin 2 → ℤ), CountsVec 0 v z ∧ CountsVec 0 w y ∧
    ∑ i, |z i * y i| = 2 ^ 53 + 1 ∧ ¬Counts 0 (v.dot w) (∑ i, z i * y i) := by
  refine ⟨Vec.new2 (whole f64 (2 ^ 53)) 1, Vec.new2 1 1, ![2 ^ 53, 1], ![1, 1], ?_, ?_, ?_, ?_⟩
  · intro i
    fin_cases i
    · exact whole_counts exact64 (by norm_num)
    · exact Counts.one
  · intro i
    fin_cases i <;> exact Counts.one
  · rw [Fin.sum_univ_two]; rfl
  · rw [Fin.sum_univ_two]
    exact odd_not_counted _

/-! ### the hypotheses are met -/

/-- a thousand quarter turns about the third axis: no rounding -/
example : CountsMat 0 ((List.replicate 1000 (true, (new3x3 0 1 0 (-1) 0 0 0 0 1 : Mat (Ieee f64) 3 3), (!![0, -1, 0; 1, 0, 0; 0, 0, 1] : Matrix (Fin 3) (Fin 3) ℤ))).foldl
    (fun A s => if s.1 then s.2.1 * A else A * s.2.1) (new3x3 0 1 0 (-1) 0 0 0 0 1 : Mat (Ieee f64) 3 3))
    ((List.replicate 1000 (true, (new3x3 0 1 0 (-1) 0 0 0 0 1 : Mat (Ieee f64) 3 3), (!![0, -1, 0; 1, 0, 0; 0, 0, 1] : Matrix (Fin 3) (Fin 3) ℤ))).foldl
    (fun Z s => if s.1 then s.2.2 * Z else Z * s.2.2) (!![0, -1, 0; 1, 0, 0; 0, 0, 1] : Matrix (Fin 3) (Fin 3) ℤ)) := by
  have hc : CountsMat 0 (new3x3 0 1 0 (-1) 0 0 0 0 1 : Mat (Ieee f64) 3 3) (!![0, -1, 0; 1, 0, 0; 0, 0, 1] : Matrix (Fin 3) (Fin 3) ℤ) := by
    intro r c
    fin_cases r <;> fin_cases c <;> first | exact Counts.zero | exact Counts.one | exact Counts.one.neg
  have ho : Orthogonal (!![0, -1, 0; 1, 0, 0; 0, 0, 1] : Matrix (Fin 3) (Fin 3) ℤ) := by
    unfold Orthogonal
    decide
  exact C104_quarter_turns exact64 _ (fun s hs => by rw [List.eq_of_mem_replicate hs]; exact ⟨hc, ho⟩) _ _ hc ho

/-- the length of `(3, 4)` is `5`, in quarters too -/
example [Lib f64] {x y : Ieee f64} (hx : Counts (-2) x 3) (hy : Counts (-2) y 4) : Counts (-2) (Vec.new2 x y).norm 5 := by
  refine C104_norm exact64 (by norm_num) (by norm_num) (by norm_num) (by norm_num) (z := ![3, 4]) ?_ ?_ (m := 5) ?_
  · intro i
    fin_cases i
    · exact hx
    · exact hy
  · rw [Fin.sum_univ_two]; decide
  · rw [Fin.sum_univ_two]; rfl

/-- a unimodular matrix -/
example : InvertedExactly tryInverse2 (new2x2 (whole f64 2) 1 (whole f64 7) (whole f64 4) : Mat (Ieee f64) 2 2) := by
  refine (C104_unimodular (k := 0) (B := 7) exact64 (by norm_num)).1 _ !![2, 7; 1, 4] ⟨?_, ?_⟩ (by norm_num) ?_
  · intro r c
    fin_cases r <;> fin_cases c <;> first | exact Counts.one | exact whole_counts exact64 (by norm_num)
  · intro r c
    fin_cases r <;> fin_cases c <;> simp
  · rw [Matrix.det_fin_two_of]; norm_num

/-- `(2 + i) ^ 20` in `f64` -/
example : CountsCx 0 ((List.replicate 20 ((⟨whole f64 2, 1⟩, ⟨2, 1⟩) : Cx (Ieee f64) × GaussianInt)).foldl (fun x s => x * s.1) ⟨1, 0⟩)
    ((List.replicate 20 ((⟨whole f64 2, 1⟩, ⟨2, 1⟩) : Cx (Ieee f64) × GaussianInt)).foldl (fun z s => z * s.2) ⟨1, 0⟩) := by
  refine C104_complex_products exact64 (T := 5 ^ 10) (by norm_num) (by norm_num) _ (fun s hs => ?_) (fun s hs => ?_) _ _ ⟨Counts.one, Counts.zero⟩ ?_
  · rw [List.eq_of_mem_replicate hs]; exact ⟨whole_counts exact64 (by norm_num), Counts.one⟩
  · rw [List.eq_of_mem_replicate hs]; decide
  · rw [List.map_replicate, List.prod_replicate]; decide

/-- `(1 + i + j + k) ^ 40` in `f64` -/
example : CountsQuat 0 ((List.replicate 40 ((true, Quat.new 1 1 1 1, ⟨1, 1, 1, 1⟩) : Bool × Quat (Ieee f64) × ℍ[ℤ])).foldl
      (fun q s => if s.1 then s.2.1 * q else q * s.2.1) (Quat.new 1 0 0 0))
    ((List.replicate 40 ((true, Quat.new 1 1 1 1, ⟨1, 1, 1, 1⟩) : Bool × Quat (Ieee f64) × ℍ[ℤ])).foldl
      (fun z s => if s.1 then s.2.2 * z else z * s.2.2) (⟨1, 0, 0, 0⟩ : ℍ[ℤ])) := by
  refine C104_quaternion_products exact64 (T := 2 ^ 40) (by norm_num) (by norm_num) _ (fun s hs => ?_) (fun s hs => ?_) _ _ ?_ ?_
  · rw [List.eq_of_mem_replicate hs]
    exact ⟨Counts.one, Counts.one, Counts.one, Counts.one⟩
  · rw [List.eq_of_mem_replicate hs]
    intro h
    exact absurd (congrArg QuaternionAlgebra.re h) (by decide)
  · exact ⟨Counts.one, Counts.zero, Counts.zero, Counts.zero⟩
  · rw [List.map_replicate, List.prod_replicate]
    have e1 : normSq (1 : ℍ[ℤ]) = 1 := map_one _
    have e2 : normSq (⟨1, 1, 1, 1⟩ : ℍ[ℤ]) = 4 := (Quaternion.normSq_def' (R := ℤ) ⟨1, 1, 1, 1⟩).trans (by norm_num)
    refine le_trans (le_of_eq (congrArg₂ (fun a b => a * b ^ 40) e1 e2)) ?_
    norm_num

end Cgl
