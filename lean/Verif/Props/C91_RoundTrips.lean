import Verif.Props.C91_MatrixQuaternion
import Verif.Props.C42_QuaternionFromMatrix
import Verif.Model.Transform

/-! # C91 - from quaternions to matrices and back in floating point -/

namespace Cgl
open Ieee FloatFns Quat Spec

variable {φ : Format}

/-! ### from quaternions to matrices -/

/-- the quaternion of the values -/
noncomputable def Spec.value (q : Quat (Ieee φ)) : Quaternion ℝ := ⟨q.s.val, q.x.val, q.y.val, q.z.val⟩
/-- the unit quaternion in the direction of `h` -/
noncomputable def Spec.direction (h : Quaternion ℝ) : Quaternion ℝ := ‖h‖⁻¹ • h

theorem norm_sq_parts (h : Quaternion ℝ) : ‖h‖ ^ 2 = h.re ^ 2 + h.imI ^ 2 + h.imJ ^ 2 + h.imK ^ 2 := by
  rw [sq ‖h‖, ← Quaternion.normSq_eq_norm_mul_self, Quaternion.normSq_def']

/-- the matrix of a quaternion that is not normalized -/
theorem direction_entries {h : Quaternion ℝ} {A : Matrix (Fin 3) (Fin 3) ℝ} (h0 : h ≠ 0) (hA : Describes (direction h) A) :
    A 0 0 = 1 - 2 / ‖h‖ ^ 2 * h.imJ * h.imJ - 2 / ‖h‖ ^ 2 * h.imK * h.imK ∧
    A 1 1 = 1 - 2 / ‖h‖ ^ 2 * h.imI * h.imI - 2 / ‖h‖ ^ 2 * h.imK * h.imK ∧
    A 2 2 = 1 - 2 / ‖h‖ ^ 2 * h.imI * h.imI - 2 / ‖h‖ ^ 2 * h.imJ * h.imJ ∧
    A 1 0 = 2 / ‖h‖ ^ 2 * h.imI * h.imJ + 2 / ‖h‖ ^ 2 * h.re * h.imK ∧
    A 0 1 = 2 / ‖h‖ ^ 2 * h.imI * h.imJ - 2 / ‖h‖ ^ 2 * h.re * h.imK ∧
    A 2 0 = 2 / ‖h‖ ^ 2 * h.imI * h.imK - 2 / ‖h‖ ^ 2 * h.re * h.imJ ∧
    A 0 2 = 2 / ‖h‖ ^ 2 * h.imI * h.imK + 2 / ‖h‖ ^ 2 * h.re * h.imJ ∧
    A 2 1 = 2 / ‖h‖ ^ 2 * h.imJ * h.imK + 2 / ‖h‖ ^ 2 * h.re * h.imI ∧
    A 1 2 = 2 / ‖h‖ ^ 2 * h.imJ * h.imK - 2 / ‖h‖ ^ 2 * h.re * h.imI := by
  obtain ⟨-, e00, e11, e22, e10, e01, e20, e02, e21, e12⟩ := describes_entries hA
  have hn : ‖h‖ ≠ 0 := norm_ne_zero_iff.mpr h0
  simp only [direction, Quaternion.re_smul, Quaternion.imI_smul, Quaternion.imJ_smul, Quaternion.imK_smul, smul_eq_mul] at *
  rw [e00, e11, e22, e10, e01, e20, e02, e21, e12]
  refine ⟨?_, ?_, ?_, ?_, ?_, ?_, ?_, ?_, ?_⟩ <;> field_simp <;> ring

/-- `n` is the squared norm of a quaternion that is nearly normalized -/
structure NearlyUnit (q : Quat (Ieee φ)) (n : ℝ) : Prop where
  s : Nr q.s q.s.val 0
  x : Nr q.x q.x.val 0
  y : Nr q.y q.y.val 0
  z : Nr q.z q.z.val 0
  sum : n = q.s.val ^ 2 + q.x.val ^ 2 + q.y.val ^ 2 + q.z.val ^ 2
  lo : 49 / 50 ≤ n
  hi : n ≤ 51 / 50

namespace NearlyUnit
variable {q : Quat (Ieee φ)} {n : ℝ} (h : NearlyUnit q n)
include h

theorem bounds : |q.s.val| ≤ 101 / 100 ∧ |q.x.val| ≤ 101 / 100 ∧ |q.y.val| ≤ 101 / 100 ∧ |q.z.val| ≤ 101 / 100 := by
  have h1 := h.sum
  have h2 := h.hi
  have := sq_nonneg q.s.val; have := sq_nonneg q.x.val; have := sq_nonneg q.y.val; have := sq_nonneg q.z.val
  refine ⟨?_, ?_, ?_, ?_⟩ <;> exact abs_le_of_sq_le_sq (by linarith) (by norm_num)

omit h in
theorem square (hφ : Fine φ) {x : Ieee φ} (hx : Nr x x.val 0) (hb : |x.val| ≤ 101 / 100) :
    Nr (x * x) (x.val ^ 2) (103 / 100 * unit φ) := by
  have := hx.mul hφ hx hb hb (M := 103 / 100) (by norm_num) (by norm_num) (by norm_num)
  rw [sq]
  exact this.mono (by linarith)

theorem normSquared (hφ : Fine φ) : Nr q.normSquared n (75 / 10 * unit φ) := by
  have hw0 : 0 ≤ unit φ := unit_nonneg
  have hw := hφ.unit_le
  obtain ⟨bs, bx, by', bz⟩ := h.bounds
  have h1 := h.sum
  have h2 := h.hi
  have := sq_nonneg q.s.val; have := sq_nonneg q.x.val; have := sq_nonneg q.y.val; have := sq_nonneg q.z.val
  change Nr (0 + q.s * q.s + q.x * q.x + q.y * q.y + q.z * q.z) _ _
  have t1 := (square hφ h.s bs).zero_add.add hφ (square hφ h.x bx) (M := 103 / 100)
    (by rw [abs_of_nonneg (by positivity)]; linarith) (by norm_num) (by norm_num)
  have t2 := t1.add hφ (square hφ h.y by') (M := 103 / 100)
    (by rw [abs_of_nonneg (by positivity)]; linarith) (by norm_num) (by norm_num)
  have t3 := t2.add hφ (square hφ h.z bz) (M := 103 / 100)
    (by rw [abs_of_nonneg (by positivity)]; linarith) (by norm_num) (by norm_num)
  rw [← h1] at t3
  exact t3.mono (by linarith)

theorem scale (hφ : Fine φ) : Nr ((1 + 1) / q.normSquared) (2 / n) (18 * unit φ) := by
  have hw0 : 0 ≤ unit φ := unit_nonneg
  have hw := hφ.unit_le
  have h1 := h.lo
  have := (two_nr hφ).div hφ (h.normSquared hφ) (lo := 979 / 1000) (A := 2) (M := 205 / 100) (by norm_num)
    (by rw [abs_of_pos (by linarith)]; linarith) (by rw [abs_two]) (by norm_num) (by norm_num) (by norm_num)
  exact this.mono (by ring_nf; linarith)

theorem scale_le : |2 / n| ≤ 205 / 100 := by
  have := h.lo
  rw [abs_of_pos (by positivity), div_le_iff₀ (by linarith)]; linarith

theorem product (hφ : Fine φ) {x y : Ieee φ} (hx : Nr x x.val 0) (bx : |x.val| ≤ 101 / 100) (hy : Nr y y.val 0)
    (by' : |y.val| ≤ 101 / 100) : Nr ((1 + 1) / q.normSquared * x * y) (2 / n * x.val * y.val) (229 / 10 * unit φ) := by
  have hw0 : 0 ≤ unit φ := unit_nonneg
  have hw := hφ.unit_le
  have t1 := (h.scale hφ).mul hφ hx h.scale_le bx (M := 21 / 10) (by linarith) (by norm_num) (by norm_num)
  replace t1 := t1.mono (f := 203 / 10 * unit φ) (by linarith)
  have hb : |2 / n * x.val| ≤ 2071 / 1000 := by
    rw [abs_mul]
    exact (mul_le_mul h.scale_le bx (abs_nonneg _) (by norm_num)).trans (by norm_num)
  have t2 := t1.mul hφ hy hb by' (M := 21 / 10) (by linarith) (by norm_num) (by norm_num)
  exact t2.mono (by linarith)

end NearlyUnit

/-- The matrix of a quaternion whose length is within one percent of one is the matrix of the rotation that the quaternion
describes once normalized, with an error of at most `48 u` in each entry. -/
theorem C91_to_matrix (hφ : Fine φ) {q : Quat (Ieee φ)} (hq : ∀ i, (q.coords.data i).Finite)
    (hn : |‖value q‖ ^ 2 - 1| ≤ 1 / 50) {A : Matrix (Fin 3) (Fin 3) ℝ} (hA : Describes (direction (value q)) A) :
    MatWithin q.toMatrix A (48 * unit φ) := by
  have hw0 : 0 ≤ unit φ := unit_nonneg
  have hw := hφ.unit_le
  have h0 : value q ≠ 0 := fun h => by rw [h] at hn; norm_num at hn
  obtain ⟨e00, e11, e22, e10, e01, e20, e02, e21, e12⟩ := direction_entries h0 hA
  have hn2 := norm_sq_parts (value q)
  generalize ‖value q‖ ^ 2 = n at hn hn2 e00 e11 e22 e10 e01 e20 e02 e21 e12
  simp only [value] at hn2 e00 e11 e22 e10 e01 e20 e02 e21 e12
  have n1 : n ≤ 51 / 50 := by linarith [(abs_le.mp hn).2]
  have n2 : 49 / 50 ≤ n := by linarith [(abs_le.mp hn).1]
  have hu : NearlyUnit q n := ⟨.exact (hq 0), .exact (hq 1), .exact (hq 2), .exact (hq 3), hn2, n2, n1⟩
  have hb := hu.bounds
  have dg : ∀ {a b : ℝ} {x y : Ieee φ}, Nr x a (229 / 10 * unit φ) → Nr y b (229 / 10 * unit φ) → 0 ≤ a → 0 ≤ b → a + b ≤ 2 →
      Nr (1 - x - y) (1 - a - b) (48 * unit φ) := by
    intro a b x y hx hy ha hb hab
    have t1 := Nr.one.sub hφ hx (M := 1001 / 1000) (by
      have : |1 - a| ≤ 1 := by rw [abs_le]; constructor <;> linarith
      linarith) (by norm_num) (by norm_num)
    have t2 := t1.sub hφ hy (M := 1001 / 1000) (by
      have : |1 - a - b| ≤ 1 := by rw [abs_le]; constructor <;> linarith
      linarith) (by norm_num) (by norm_num)
    exact t2.mono (by linarith)
  have off : ∀ {a b : ℝ} {x y : Ieee φ}, Nr x a (229 / 10 * unit φ) → Nr y b (229 / 10 * unit φ) → |a| ≤ 1 → |b| ≤ 1 →
      |a + b| ≤ 1 → |a - b| ≤ 1 → Nr (x + y) (a + b) (48 * unit φ) ∧ Nr (x - y) (a - b) (48 * unit φ) := by
    intro a b x y hx hy ha hb hab hab'
    exact ⟨(hx.add hφ hy (M := 1001 / 1000) (by linarith) (by norm_num) (by norm_num)).mono (by linarith),
      (hx.sub hφ hy (M := 1001 / 1000) (by linarith) (by norm_num) (by norm_num)).mono (by linarith)⟩
  have npos : 0 < n := by linarith
  have p2 : 0 < 2 / n := by positivity
  have nn : 2 / n * n = 2 := by field_simp
  have dd : ∀ {a b : ℝ}, a ^ 2 + b ^ 2 ≤ n → 0 ≤ 2 / n * a * a ∧ 0 ≤ 2 / n * b * b ∧ 2 / n * a * a + 2 / n * b * b ≤ 2 := by
    intro a b hab
    refine ⟨by rw [mul_assoc]; exact mul_nonneg p2.le (mul_self_nonneg a), by
      rw [mul_assoc]; exact mul_nonneg p2.le (mul_self_nonneg b), ?_⟩
    calc _ = 2 / n * (a ^ 2 + b ^ 2) := by ring
      _ ≤ 2 / n * n := mul_le_mul_of_nonneg_left hab p2.le
      _ = 2 := nn
  have oo : ∀ {a b c d : ℝ}, a ^ 2 + b ^ 2 + c ^ 2 + d ^ 2 = n → |2 / n * a * b| ≤ 1 ∧ |2 / n * c * d| ≤ 1 ∧
      |2 / n * a * b + 2 / n * c * d| ≤ 1 ∧ |2 / n * a * b - 2 / n * c * d| ≤ 1 := by
    intro a b c d h
    have key : ∀ t : ℝ, -n ≤ 2 * t → 2 * t ≤ n → |2 / n * t| ≤ 1 := by
      intro t h1 h2
      rw [abs_le]
      have e : 2 / n * t = 2 * t / n := by ring
      rw [e, le_div_iff₀ npos, div_le_iff₀ npos]
      constructor <;> linarith
    have q1 := sq_nonneg (a + b); have q2 := sq_nonneg (a - b); have q3 := sq_nonneg (c + d); have q4 := sq_nonneg (c - d)
    have r1 := sq_nonneg a; have r2 := sq_nonneg b; have r3 := sq_nonneg c; have r4 := sq_nonneg d
    rw [show 2 / n * a * b + 2 / n * c * d = 2 / n * (a * b + c * d) by ring,
      show 2 / n * a * b - 2 / n * c * d = 2 / n * (a * b - c * d) by ring, mul_assoc, mul_assoc]
    refine ⟨key _ ?_ ?_, key _ ?_ ?_, key _ ?_ ?_, key _ ?_ ?_⟩ <;> ring_nf at * <;> linarith
  obtain ⟨bs, bx, by', bz⟩ := hb
  have r1 := sq_nonneg q.s.val; have r2 := sq_nonneg q.x.val; have r3 := sq_nonneg q.y.val; have r4 := sq_nonneg q.z.val
  have pxx := hu.product hφ hu.x bx hu.x bx
  have pyy := hu.product hφ hu.y by' hu.y by'
  have pzz := hu.product hφ hu.z bz hu.z bz
  have pxy := hu.product hφ hu.x bx hu.y by'
  have pxz := hu.product hφ hu.x bx hu.z bz
  have pyz := hu.product hφ hu.y by' hu.z bz
  have psx := hu.product hφ hu.s bs hu.x bx
  have psy := hu.product hφ hu.s bs hu.y by'
  have psz := hu.product hφ hu.s bs hu.z bz
  have d0 := dd (a := q.y.val) (b := q.z.val) (by linarith)
  have d1 := dd (a := q.x.val) (b := q.z.val) (by linarith)
  have d2 := dd (a := q.x.val) (b := q.y.val) (by linarith)
  have o0 := oo (a := q.x.val) (b := q.y.val) (c := q.s.val) (d := q.z.val) (by linarith)
  have o1 := oo (a := q.x.val) (b := q.z.val) (c := q.s.val) (d := q.y.val) (by linarith)
  have o2 := oo (a := q.y.val) (b := q.z.val) (c := q.s.val) (d := q.x.val) (by linarith)
  intro c r
  fin_cases c <;> fin_cases r
  · change Nr _ (A 0 0) _; rw [e00]; exact dg pyy pzz d0.1 d0.2.1 d0.2.2
  · change Nr _ (A 1 0) _; rw [e10]; exact (off pxy psz o0.1 o0.2.1 o0.2.2.1 o0.2.2.2).1
  · change Nr _ (A 2 0) _; rw [e20]; exact (off pxz psy o1.1 o1.2.1 o1.2.2.1 o1.2.2.2).2
  · change Nr _ (A 0 1) _; rw [e01]; exact (off pxy psz o0.1 o0.2.1 o0.2.2.1 o0.2.2.2).2
  · change Nr _ (A 1 1) _; rw [e11]; exact dg pxx pzz d1.1 d1.2.1 d1.2.2
  · change Nr _ (A 2 1) _; rw [e21]; exact (off pyz psx o2.1 o2.2.1 o2.2.2.1 o2.2.2.2).1
  · change Nr _ (A 0 2) _; rw [e02]; exact (off pxz psy o1.1 o1.2.1 o1.2.2.1 o1.2.2.2).1
  · change Nr _ (A 1 2) _; rw [e12]; exact (off pyz psx o2.1 o2.2.1 o2.2.2.1 o2.2.2.2).2
  · change Nr _ (A 2 2) _; rw [e22]; exact dg pxx pyy d2.1 d2.2.1 d2.2.2

/-! ### every unit quaternion describes a rotation and every rotation is described by one -/

theorem describes_of_entries {h : Quaternion ℝ} (hn : ‖h‖ = 1) {A : Matrix (Fin 3) (Fin 3) ℝ}
    (e00 : A 0 0 = 1 - 2 * (h.imJ ^ 2 + h.imK ^ 2)) (e11 : A 1 1 = 1 - 2 * (h.imI ^ 2 + h.imK ^ 2))
    (e22 : A 2 2 = 1 - 2 * (h.imI ^ 2 + h.imJ ^ 2)) (e10 : A 1 0 = 2 * (h.imI * h.imJ + h.re * h.imK))
    (e01 : A 0 1 = 2 * (h.imI * h.imJ - h.re * h.imK)) (e20 : A 2 0 = 2 * (h.imI * h.imK - h.re * h.imJ))
    (e02 : A 0 2 = 2 * (h.imI * h.imK + h.re * h.imJ)) (e21 : A 2 1 = 2 * (h.imJ * h.imK + h.re * h.imI))
    (e12 : A 1 2 = 2 * (h.imJ * h.imK - h.re * h.imI)) : Describes h A := by
  have hn' := norm_sq_parts h
  rw [hn] at hn'
  refine ⟨hn, fun v => ?_⟩
  have m0 : (A.mulVec v) 0 = A 0 0 * v 0 + A 0 1 * v 1 + A 0 2 * v 2 := by
    simp [Matrix.mulVec, dotProduct, Fin.sum_univ_three]
  have m1 : (A.mulVec v) 1 = A 1 0 * v 0 + A 1 1 * v 1 + A 1 2 * v 2 := by
    simp [Matrix.mulVec, dotProduct, Fin.sum_univ_three]
  have m2 : (A.mulVec v) 2 = A 2 0 * v 0 + A 2 1 * v 1 + A 2 2 * v 2 := by
    simp [Matrix.mulVec, dotProduct, Fin.sum_univ_three]
  apply Quaternion.ext
  all_goals
    simp only [Quaternion.imI_mul, Quaternion.imJ_mul, Quaternion.imK_mul, Quaternion.re_mul, Quaternion.re_star,
      Quaternion.imI_star, Quaternion.imJ_star, Quaternion.imK_star]
    simp only [Spec.pure]
  · ring
  · rw [m0, e00, e01, e02]; linear_combination (-v 0) * hn'
  · rw [m1, e10, e11, e12]; linear_combination (-v 1) * hn'
  · rw [m2, e20, e21, e22]; linear_combination (-v 2) * hn'

theorem describes_exists {h : Quaternion ℝ} (hn : ‖h‖ = 1) : ∃ A, Describes h A :=
  ⟨!![1 - 2 * (h.imJ ^ 2 + h.imK ^ 2), 2 * (h.imI * h.imJ - h.re * h.imK), 2 * (h.imI * h.imK + h.re * h.imJ);
      2 * (h.imI * h.imJ + h.re * h.imK), 1 - 2 * (h.imI ^ 2 + h.imK ^ 2), 2 * (h.imJ * h.imK - h.re * h.imI);
      2 * (h.imI * h.imK - h.re * h.imJ), 2 * (h.imJ * h.imK + h.re * h.imI), 1 - 2 * (h.imI ^ 2 + h.imJ ^ 2)],
    describes_of_entries hn rfl rfl rfl rfl rfl rfl rfl rfl rfl⟩

/-- every rotation is described by a unit quaternion -/
theorem rotation_described {A : Matrix (Fin 3) (Fin 3) ℝ} (hA : A ∈ Matrix.specialOrthogonalGroup (Fin 3) ℝ) :
    ∃ h, Describes h A := by
  rw [Matrix.mem_specialOrthogonalGroup_iff, Matrix.mem_orthogonalGroup_iff'] at hA
  have hR : Spec.IsRotation (⟨fun c r => A r c⟩ : Mat ℝ 3 3) := by
    apply Spec.IsRotation.of_transpose_mul
    · apply Mat.toMatrix_injective
      rw [Mat.toMatrix_mul, Mat.toMatrix_transpose, Mat.toMatrix_identity]
      exact hA.1
    · rw [leibniz_eq]
      exact hA.2
  obtain ⟨q, h1, h2⟩ := C42_surjective hR
  rw [norm_eq_one_iff] at h1
  have h1' := h1
  rw [normSquared_eq] at h1'
  have e : ∀ c r, q.toMatrix.data c r = A r c := fun c r => by rw [h2]
  obtain ⟨g, hg⟩ : ∃ g : Quaternion ℝ, g = ⟨q.s, q.x, q.y, q.z⟩ := ⟨_, rfl⟩
  have n1 : ‖g‖ = 1 := by
    have h3 : ‖g‖ ^ 2 = 1 := by
      rw [norm_sq_parts, hg]
      change q.s ^ 2 + q.x ^ 2 + q.y ^ 2 + q.z ^ 2 = 1
      linarith
    nlinarith [norm_nonneg g]
  refine ⟨g, describes_of_entries n1 ?_ ?_ ?_ ?_ ?_ ?_ ?_ ?_ ?_⟩
  · rw [← e, hg]; simp only [toMatrix, h1]; simp [one_add_one_eq_two]; ring
  · rw [← e, hg]; simp only [toMatrix, h1]; simp [one_add_one_eq_two]; ring
  · rw [← e, hg]; simp only [toMatrix, h1]; simp [one_add_one_eq_two]; ring
  · rw [← e, hg]; simp only [toMatrix, h1]; simp [one_add_one_eq_two]; ring
  · rw [← e, hg]; simp only [toMatrix, h1]; simp [one_add_one_eq_two]; ring
  · rw [← e, hg]; simp only [toMatrix, h1]; simp [one_add_one_eq_two]; ring
  · rw [← e, hg]; simp only [toMatrix, h1]; simp [one_add_one_eq_two]; ring
  · rw [← e, hg]; simp only [toMatrix, h1]; simp [one_add_one_eq_two]; ring
  · rw [← e, hg]; simp only [toMatrix, h1]; simp [one_add_one_eq_two]; ring

/-! ### a small change of the quaternion -/

theorem quotient_close {N n N' δ : ℝ} (h1 : |N - N'| ≤ 4 * δ + 4 * δ ^ 2) (h2 : |n - 1| ≤ 4 * δ + 4 * δ ^ 2) (h3 : |N'| ≤ 1)
    (h0 : 0 ≤ δ) (hδ : δ ≤ 1 / 300) : |N / n - N'| ≤ 9 * δ := by
  have hq : δ ^ 2 ≤ 1 / 300 * δ := by nlinarith
  have hn : 98 / 100 ≤ n := by linarith [(abs_le.mp h2).1]
  rw [show N / n - N' = ((N - N') + N' * (1 - n)) / n by field_simp; ring, abs_div, abs_of_pos (by linarith : 0 < n),
    div_le_iff₀ (by linarith)]
  have h4 : |N' * (1 - n)| ≤ 1 * (4 * δ + 4 * δ ^ 2) := by
    rw [abs_mul, abs_sub_comm 1 n]; exact mul_le_mul h3 h2 (abs_nonneg _) (by norm_num)
  refine (abs_add_le _ _).trans ?_
  nlinarith

theorem product_close {a b x y δ : ℝ} (h1 : |x - a| ≤ δ) (h2 : |y - b| ≤ δ) : |x * y - a * b| ≤ δ * (|a| + |b|) + δ ^ 2 := by
  have h0 : 0 ≤ δ := (abs_nonneg _).trans h1
  calc _ = |(x - a) * (y - b) + (x - a) * b + a * (y - b)| := by ring_nf
    _ ≤ |(x - a) * (y - b)| + |(x - a) * b| + |a * (y - b)| := abs_add_three _ _ _
    _ = |x - a| * |y - b| + |x - a| * |b| + |a| * |y - b| := by rw [abs_mul, abs_mul, abs_mul]
    _ ≤ δ * δ + δ * |b| + |a| * δ := by gcongr
    _ = _ := by ring

theorem sum_abs_le {a b c d : ℝ} (h : a ^ 2 + b ^ 2 + c ^ 2 + d ^ 2 = 1) : |a| + |b| + |c| + |d| ≤ 2 := by
  refine abs_le_of_sq_le_sq' ?_ (by norm_num) |>.2
  rw [← sq_abs a, ← sq_abs b, ← sq_abs c, ← sq_abs d] at h
  nlinarith [sq_nonneg (|a| - |b|), sq_nonneg (|a| - |c|), sq_nonneg (|a| - |d|), sq_nonneg (|b| - |c|),
    sq_nonneg (|b| - |d|), sq_nonneg (|c| - |d|)]

theorem four_terms {p q r s e f g k : ℝ} (h1 : |p| ≤ e) (h2 : |q| ≤ f) (h3 : |r| ≤ g) (h4 : |s| ≤ k) :
    |p + q + r + s| ≤ e + f + g + k ∧ |p + q - r - s| ≤ e + f + g + k ∧ |p - q + r - s| ≤ e + f + g + k ∧
    |p - q - r + s| ≤ e + f + g + k := by
  rw [abs_le] at *
  simp only [abs_le]
  refine ⟨⟨?_, ?_⟩, ⟨?_, ?_⟩, ⟨?_, ?_⟩, ⟨?_, ?_⟩⟩ <;> linarith

theorem entries_le_one {a b c d : ℝ} (h : a ^ 2 + b ^ 2 + c ^ 2 + d ^ 2 = 1) : |1 - 2 * (a ^ 2 + b ^ 2)| ≤ 1 ∧
    |2 * (a * b + c * d)| ≤ 1 ∧ |2 * (a * b - c * d)| ≤ 1 := by
  simp only [abs_le]
  have := sq_nonneg (a + b); have := sq_nonneg (a - b); have := sq_nonneg (c + d); have := sq_nonneg (c - d)
  have := sq_nonneg a; have := sq_nonneg b; have := sq_nonneg c; have := sq_nonneg d
  refine ⟨⟨?_, ?_⟩, ⟨?_, ?_⟩, ⟨?_, ?_⟩⟩ <;> linarith

set_option maxHeartbeats 1000000 in
theorem perturbed {h r : Quaternion ℝ} {A B : Matrix (Fin 3) (Fin 3) ℝ} {δ : ℝ} (hA : Describes h A) (hB : Describes (direction r) B)
    (hδ : δ ≤ 1 / 300) (hs : |r.re - h.re| ≤ δ) (hx : |r.imI - h.imI| ≤ δ) (hy : |r.imJ - h.imJ| ≤ δ)
    (hz : |r.imK - h.imK| ≤ δ) : |‖r‖ ^ 2 - 1| ≤ 1 / 50 ∧ ∀ i j, |B i j - A i j| ≤ 9 * δ := by
  have h0 : 0 ≤ δ := (abs_nonneg _).trans hs
  have hq : δ ^ 2 ≤ 1 / 300 * δ := by nlinarith
  obtain ⟨hn, a00, a11, a22, a10, a01, a20, a02, a21, a12⟩ := describes_entries hA
  have hn' := norm_sq_parts r
  have hr0 : r ≠ 0 := fun h => by
    have := hB.1
    rw [h, direction, smul_zero, norm_zero] at this
    exact zero_ne_one this
  obtain ⟨b00, b11, b22, b10, b01, b20, b02, b21, b12⟩ := direction_entries hr0 hB
  have hr1 : ‖r‖ ^ 2 ≠ 0 := pow_ne_zero _ (norm_ne_zero_iff.mpr hr0)
  generalize ‖r‖ ^ 2 = n at *
  have hsum := sum_abs_le hn
  have tot : ∀ {e f g k : ℝ}, e + f + g + k ≤ 2 → δ * (e + f) + δ ^ 2 + (δ * (g + k) + δ ^ 2) ≤ 2 * δ + 2 * δ ^ 2 := by
    intro e f g k h
    nlinarith [mul_le_mul_of_nonneg_left h h0]
  have ss := product_close hs hs
  have xx := product_close hx hx
  have yy := product_close hy hy
  have zz := product_close hz hz
  have xy := product_close hx hy
  have xz := product_close hx hz
  have yz := product_close hy hz
  have sx := product_close hs hx
  have sy := product_close hs hy
  have sz := product_close hs hz
  have tt := mul_le_mul_of_nonneg_left hsum h0
  obtain ⟨f1, f2, f3, f4⟩ := four_terms ss xx yy zz
  have hnn : |n - 1| ≤ 4 * δ + 4 * δ ^ 2 := by
    rw [show n - 1 = (r.re * r.re - h.re * h.re) + (r.imI * r.imI - h.imI * h.imI) + (r.imJ * r.imJ - h.imJ * h.imJ) +
      (r.imK * r.imK - h.imK * h.imK) by rw [hn']; linear_combination hn]
    linarith
  have off : ∀ {a b c d a' b' c' d' : ℝ}, |a * b - a' * b'| ≤ δ * (|a'| + |b'|) + δ ^ 2 →
      |c * d - c' * d'| ≤ δ * (|c'| + |d'|) + δ ^ 2 → |a'| + |b'| + |c'| + |d'| ≤ 2 →
      |2 * (a * b + c * d) - 2 * (a' * b' + c' * d')| ≤ 4 * δ + 4 * δ ^ 2 ∧
      |2 * (a * b - c * d) - 2 * (a' * b' - c' * d')| ≤ 4 * δ + 4 * δ ^ 2 := by
    intro a b c d a' b' c' d' h1 h2 h3
    have := mul_le_mul_of_nonneg_left h3 h0
    rw [abs_le] at *
    simp only [abs_le]
    refine ⟨⟨?_, ?_⟩, ⟨?_, ?_⟩⟩ <;> linarith
  have o1 := off xy sz (by linarith)
  have o2 := off xz sy (by linarith)
  have o3 := off yz sx (by linarith)
  have u1 := entries_le_one (a := h.imI) (b := h.imJ) (c := h.re) (d := h.imK) (by linarith)
  have u2 := entries_le_one (a := h.imI) (b := h.imK) (c := h.re) (d := h.imJ) (by linarith)
  have u3 := entries_le_one (a := h.imJ) (b := h.imK) (c := h.re) (d := h.imI) (by linarith)
  refine ⟨by linarith, fun i j => ?_⟩
  fin_cases i <;> fin_cases j
  · change |B 0 0 - A 0 0| ≤ _
    rw [b00, a00, show 1 - 2 / n * r.imJ * r.imJ - 2 / n * r.imK * r.imK =
      (r.re * r.re + r.imI * r.imI - r.imJ * r.imJ - r.imK * r.imK) / n by field_simp; rw [hn']; ring]
    refine quotient_close ?_ hnn u3.1 h0 hδ
    rw [show r.re * r.re + r.imI * r.imI - r.imJ * r.imJ - r.imK * r.imK - (1 - 2 * (h.imJ ^ 2 + h.imK ^ 2)) =
      (r.re * r.re - h.re * h.re) + (r.imI * r.imI - h.imI * h.imI) - (r.imJ * r.imJ - h.imJ * h.imJ) -
      (r.imK * r.imK - h.imK * h.imK) by linear_combination hn]
    linarith
  · change |B 0 1 - A 0 1| ≤ _
    rw [b01, a01, show 2 / n * r.imI * r.imJ - 2 / n * r.re * r.imK = 2 * (r.imI * r.imJ - r.re * r.imK) / n by ring]
    exact quotient_close o1.2 hnn u1.2.2 h0 hδ
  · change |B 0 2 - A 0 2| ≤ _
    rw [b02, a02, show 2 / n * r.imI * r.imK + 2 / n * r.re * r.imJ = 2 * (r.imI * r.imK + r.re * r.imJ) / n by ring]
    exact quotient_close o2.1 hnn u2.2.1 h0 hδ
  · change |B 1 0 - A 1 0| ≤ _
    rw [b10, a10, show 2 / n * r.imI * r.imJ + 2 / n * r.re * r.imK = 2 * (r.imI * r.imJ + r.re * r.imK) / n by ring]
    exact quotient_close o1.1 hnn u1.2.1 h0 hδ
  · change |B 1 1 - A 1 1| ≤ _
    rw [b11, a11, show 1 - 2 / n * r.imI * r.imI - 2 / n * r.imK * r.imK =
      (r.re * r.re - r.imI * r.imI + r.imJ * r.imJ - r.imK * r.imK) / n by field_simp; rw [hn']; ring]
    refine quotient_close ?_ hnn u2.1 h0 hδ
    rw [show r.re * r.re - r.imI * r.imI + r.imJ * r.imJ - r.imK * r.imK - (1 - 2 * (h.imI ^ 2 + h.imK ^ 2)) =
      (r.re * r.re - h.re * h.re) - (r.imI * r.imI - h.imI * h.imI) + (r.imJ * r.imJ - h.imJ * h.imJ) -
      (r.imK * r.imK - h.imK * h.imK) by linear_combination hn]
    linarith
  · change |B 1 2 - A 1 2| ≤ _
    rw [b12, a12, show 2 / n * r.imJ * r.imK - 2 / n * r.re * r.imI = 2 * (r.imJ * r.imK - r.re * r.imI) / n by ring]
    exact quotient_close o3.2 hnn u3.2.2 h0 hδ
  · change |B 2 0 - A 2 0| ≤ _
    rw [b20, a20, show 2 / n * r.imI * r.imK - 2 / n * r.re * r.imJ = 2 * (r.imI * r.imK - r.re * r.imJ) / n by ring]
    exact quotient_close o2.2 hnn u2.2.2 h0 hδ
  · change |B 2 1 - A 2 1| ≤ _
    rw [b21, a21, show 2 / n * r.imJ * r.imK + 2 / n * r.re * r.imI = 2 * (r.imJ * r.imK + r.re * r.imI) / n by ring]
    exact quotient_close o3.1 hnn u3.2.1 h0 hδ
  · change |B 2 2 - A 2 2| ≤ _
    rw [b22, a22, show 1 - 2 / n * r.imI * r.imI - 2 / n * r.imJ * r.imJ =
      (r.re * r.re - r.imI * r.imI - r.imJ * r.imJ + r.imK * r.imK) / n by field_simp; rw [hn']; ring]
    refine quotient_close ?_ hnn u1.1 h0 hδ
    rw [show r.re * r.re - r.imI * r.imI - r.imJ * r.imJ + r.imK * r.imK - (1 - 2 * (h.imI ^ 2 + h.imJ ^ 2)) =
      (r.re * r.re - h.re * h.re) - (r.imI * r.imI - h.imI * h.imI) - (r.imJ * r.imJ - h.imJ * h.imJ) +
      (r.imK * r.imK - h.imK * h.imK) by linear_combination hn]
    linarith


theorem Spec.QuatWithin.value_ne {q : Quat (Ieee φ)} {h : Quaternion ℝ} {δ : ℝ} (hn : ‖h‖ = 1) (hq : QuatWithin q h δ)
    (hδ : δ ≤ 1 / 300) : value q ≠ 0 := fun e => by
  have e0 : q.s.val = 0 := congrArg (·.re) e
  have e1 : q.x.val = 0 := congrArg (·.imI) e
  have e2 : q.y.val = 0 := congrArg (·.imJ) e
  have e3 : q.z.val = 0 := congrArg (·.imK) e
  obtain ⟨-, hs, hx, hy, hz⟩ := hq
  rw [e0, zero_sub, abs_neg] at hs
  rw [e1, zero_sub, abs_neg] at hx
  rw [e2, zero_sub, abs_neg] at hy
  rw [e3, zero_sub, abs_neg] at hz
  have h1 := norm_sq_parts h
  rw [hn] at h1
  have k : ∀ {a : ℝ}, |a| ≤ δ → a ^ 2 ≤ 1 / 16 := fun {a} ha => by
    rw [← sq_abs]; nlinarith [abs_nonneg a]
  linarith [k hs, k hx, k hy, k hz]

theorem direction_norm {h : Quaternion ℝ} (h0 : h ≠ 0) : ‖direction h‖ = 1 := by
  rw [direction, norm_smul, norm_inv, norm_norm, inv_mul_cancel₀ (norm_ne_zero_iff.mpr h0)]

/-! ### the theorems -/

/-- The matrix of a quaternion that is within `δ` of a unit quaternion is within `9 δ + 48 u` of the matrix of the
rotation which that unit quaternion describes. -/
theorem C91_to_matrix_near (hφ : Fine φ) {q : Quat (Ieee φ)} {h : Quaternion ℝ} {A : Matrix (Fin 3) (Fin 3) ℝ} {δ : ℝ}
    (hA : Describes h A) (hq : QuatWithin q h δ) (hδ : δ ≤ 1 / 300) : MatWithin q.toMatrix A (9 * δ + 48 * unit φ) := by
  obtain ⟨B, hB⟩ := describes_exists (direction_norm (QuatWithin.value_ne hA.1 hq hδ))
  obtain ⟨hn, hp⟩ := perturbed hA hB hδ hq.2.1 hq.2.2.1 hq.2.2.2.1 hq.2.2.2.2
  intro c r
  obtain ⟨h1, h2⟩ := C91_to_matrix hφ hq.1 hn hB c r
  refine ⟨h1, ?_⟩
  have h3 := hp r c
  rw [abs_le] at *
  constructor <;> linarith

/-- From a quaternion to its matrix and back: one of the two unit quaternions in the direction of the quaternion, with an
error of at most `156 u`.  The quaternion may be off from unit length by one percent. -/
theorem C91_quaternion_round_trip [Lib φ] (hφ : Fine φ) {q : Quat (Ieee φ)} (hq : ∀ i, (q.coords.data i).Finite)
    (hn : |‖value q‖ ^ 2 - 1| ≤ 1 / 50) :
    QuatWithin (fromMatrix q.toMatrix) (direction (value q)) (156 * unit φ) ∨
    QuatWithin (fromMatrix q.toMatrix) (-direction (value q)) (156 * unit φ) := by
  have h0 : value q ≠ 0 := fun h => by rw [h] at hn; norm_num at hn
  obtain ⟨A, hA⟩ := describes_exists (direction_norm h0)
  have := C91_from_matrix hφ hA (C91_to_matrix hφ hq hn hA) (by linarith [hφ.unit_le])
  rwa [show 3 * (48 * unit φ) + 12 * unit φ = 156 * unit φ by ring] at this

/-- From a matrix to its quaternion and back: if the matrix is within `ε` of some rotation matrix, the result is within
`27 ε + 156 u` of the same rotation matrix. -/
theorem C91_matrix_round_trip [Lib φ] (hφ : Fine φ) {A : Matrix (Fin 3) (Fin 3) ℝ}
    (hA : A ∈ Matrix.specialOrthogonalGroup (Fin 3) ℝ) {M : Mat (Ieee φ) 3 3} {ε : ℝ} (hM : MatWithin M A ε)
    (hε : ε ≤ 1 / 1000) : MatWithin (fromMatrix M).toMatrix A (27 * ε + 156 * unit φ) := by
  obtain ⟨h, hh⟩ := rotation_described hA
  have key : ∀ {g}, Describes g A → QuatWithin (fromMatrix M) g (3 * ε + 12 * unit φ) →
      MatWithin (fromMatrix M).toMatrix A (27 * ε + 156 * unit φ) := fun {g} hg hq => by
    have := C91_to_matrix_near hφ hg hq (by linarith [hφ.unit_le])
    rwa [show 9 * (3 * ε + 12 * unit φ) + 48 * unit φ = 27 * ε + 156 * unit φ by ring] at this
  rcases C91_from_matrix hφ hh hM hε with h1 | h1
  · exact key hh h1
  · refine key ⟨by rw [norm_neg]; exact hh.1, fun v => ?_⟩ h1
    rw [star_neg, neg_mul, mul_neg, neg_mul, neg_neg]
    exact hh.2 v

/-- Every rotation matrix, not only those already given by a quaternion, has a quaternion that the conversion finds. -/
theorem C91_from_rotation [Lib φ] (hφ : Fine φ) {A : Matrix (Fin 3) (Fin 3) ℝ}
    (hA : A ∈ Matrix.specialOrthogonalGroup (Fin 3) ℝ) {M : Mat (Ieee φ) 3 3} {ε : ℝ} (hM : MatWithin M A ε)
    (hε : ε ≤ 1 / 1000) : ∃ h, Describes h A ∧ QuatWithin (fromMatrix M) h (3 * ε + 12 * unit φ) := by
  obtain ⟨h, hh⟩ := rotation_described hA
  rcases C91_from_matrix hφ hh hM hε with h1 | h1
  · exact ⟨h, hh, h1⟩
  · refine ⟨-h, ⟨by rw [norm_neg]; exact hh.1, fun v => ?_⟩, h1⟩
    rw [star_neg, neg_mul, mul_neg, neg_mul, neg_neg]
    exact hh.2 v

/-- The other ways to write the same conversions compute the same values: into a given matrix, into a 4x4 matrix, and
between `Rotation3` and quaternions. -/
theorem C91_variants [Lib φ] (q : Quat (Ieee φ)) (m : Mat (Ieee φ) 3 3) (m4 : Mat (Ieee φ) 4 4) (R : Rotation (Ieee φ) 3) :
    q.toMatrixMut m = q.toMatrix ∧ q.toAffineMatrixMut m4 = q.toAffineMatrix ∧
    (∀ c r : Fin 3, q.toAffineMatrix.data c.castSucc r.castSucc = q.toMatrix.data c r) ∧
    (∀ i : Fin 3, q.toAffineMatrix.data i.castSucc 3 = 0 ∧ q.toAffineMatrix.data 3 i.castSucc = 0) ∧
    q.toAffineMatrix.data 3 3 = 1 ∧
    (Rotation.fromQuaternion q).matrix = q.toMatrix ∧ R.toQuaternion = fromMatrix R.matrix := by
  refine ⟨?_, ?_, ?_, ?_, rfl, rfl, ?_⟩
  · apply Mat.ext3 <;> simp [toMatrixMut, toMatrix, Mat.set_apply]
  · apply Mat.ext4 <;> simp [toAffineMatrixMut, toAffineMatrix, Mat.set_apply]
  · intro c r; fin_cases c <;> fin_cases r <;> rfl
  · intro i; fin_cases i <;> exact ⟨rfl, rfl⟩
  · unfold Rotation.toQuaternion
    congr 1

/-! ### `f64` and `f32` -/

theorem unit64_le : 256 * unit f64 ≤ 2 ^ (-44 : ℤ) := by
  have h3 : (2 : ℝ) ^ (-1075 : ℤ) ≤ 2 ^ (-53 : ℤ) := zpow_le_zpow_right₀ one_le_two (by norm_num)
  have := unit64
  norm_num at h3 this ⊢
  linarith

theorem unit32_le : 160 * unit f32 ≤ 2 ^ (-16 : ℤ) := by
  have h1 : f32.u = 2 ^ (-24 : ℤ) := rfl
  have h2 : f32.tiny = 2 ^ (-150 : ℤ) := rfl
  rw [Spec.unit, h1, h2]
  norm_num

theorem Spec.MatWithin.mono {M : Mat (Ieee φ) 3 3} {A : Matrix (Fin 3) (Fin 3) ℝ} {ε ε' : ℝ} (h : MatWithin M A ε) (he : ε ≤ ε') :
    MatWithin M A ε' := fun c r => ⟨(h c r).1, (h c r).2.trans he⟩

theorem Spec.QuatWithin.mono {q : Quat (Ieee φ)} {g : Quaternion ℝ} {ε ε' : ℝ} (h : QuatWithin q g ε) (he : ε ≤ ε') :
    QuatWithin q g ε' := ⟨h.1, h.2.1.trans he, h.2.2.1.trans he, h.2.2.2.1.trans he, h.2.2.2.2.trans he⟩

/-- `f64`: thirteen digits -/
theorem C91_f64 [Lib f64] :
    (∀ q : Quat (Ieee f64), (∀ i, (q.coords.data i).Finite) → |‖value q‖ ^ 2 - 1| ≤ 1 / 50 →
      ∃ g, (g = direction (value q) ∨ g = -direction (value q)) ∧ QuatWithin (fromMatrix q.toMatrix) g (2 ^ (-44 : ℤ))) ∧
    (∀ A ∈ Matrix.specialOrthogonalGroup (Fin 3) ℝ, ∀ M : Mat (Ieee f64) 3 3, ∀ ε ≤ 1 / 1000, MatWithin M A ε →
      MatWithin (fromMatrix M).toMatrix A (27 * ε + 2 ^ (-44 : ℤ))) := by
  have hu := unit64_le
  have h0 : 0 ≤ unit f64 := unit_nonneg
  refine ⟨fun q h1 h2 => ?_, fun A hA M ε hε hM => (C91_matrix_round_trip fine64 hA hM hε).mono (by linarith)⟩
  rcases C91_quaternion_round_trip fine64 h1 h2 with h | h
  · exact ⟨_, Or.inl rfl, h.mono (by linarith)⟩
  · exact ⟨_, Or.inr rfl, h.mono (by linarith)⟩

/-- `f32`: four digits -/
theorem C91_f32 [Lib f32] :
    (∀ q : Quat (Ieee f32), (∀ i, (q.coords.data i).Finite) → |‖value q‖ ^ 2 - 1| ≤ 1 / 50 →
      ∃ g, (g = direction (value q) ∨ g = -direction (value q)) ∧ QuatWithin (fromMatrix q.toMatrix) g (2 ^ (-16 : ℤ))) ∧
    (∀ A ∈ Matrix.specialOrthogonalGroup (Fin 3) ℝ, ∀ M : Mat (Ieee f32) 3 3, ∀ ε ≤ 1 / 1000, MatWithin M A ε →
      MatWithin (fromMatrix M).toMatrix A (27 * ε + 2 ^ (-16 : ℤ))) := by
  have hu := unit32_le
  have h0 : 0 ≤ unit f32 := unit_nonneg
  refine ⟨fun q h1 h2 => ?_, fun A hA M ε hε hM => (C91_matrix_round_trip fine32 hA hM hε).mono (by linarith)⟩
  rcases C91_quaternion_round_trip fine32 h1 h2 with h | h
  · exact ⟨_, Or.inl rfl, h.mono (by linarith)⟩
  · exact ⟨_, Or.inr rfl, h.mono (by linarith)⟩

/-! ### the hypotheses are met -/

/-- the half turn about the x axis, where the trace is `-1` -/
example : Describes (⟨0, 1, 0, 0⟩ : Quaternion ℝ) !![1, 0, 0; 0, -1, 0; 0, 0, -1] := by
  obtain ⟨g, hg⟩ : ∃ g : Quaternion ℝ, g = ⟨0, 1, 0, 0⟩ := ⟨_, rfl⟩
  rw [← hg]
  have n1 : ‖g‖ = 1 := by
    have h3 : ‖g‖ ^ 2 = 1 := by rw [norm_sq_parts, hg]; norm_num
    nlinarith [norm_nonneg g]
  apply describes_of_entries n1 <;> rw [hg] <;> norm_num <;> rfl

/-- and a matrix over `f64` that is within `0` of it -/
example : MatWithin (Mat.new3x3 1 0 0 0 (-1) 0 0 0 (-1) : Mat (Ieee f64) 3 3) !![1, 0, 0; 0, -1, 0; 0, 0, -1] 0 := by
  have h1 : (1 : Ieee f64).val = 1 := Ieee.val_one
  have h0 : (0 : Ieee f64).val = 0 := Ieee.val_zero
  have h2 : (-1 : Ieee f64).val = -1 := by rw [Ieee.val_neg, h1]
  have f2 : (-1 : Ieee f64).Finite := (Nr.one.neg).1
  intro c r
  fin_cases c <;> fin_cases r <;> simp [Mat.new3x3, h1, h0, h2, f2, finite_one, finite_zero]

/-- the quaternion of that half turn over `f64` -/
example : (∀ i, ((unitX : Quat (Ieee f64)).coords.data i).Finite) ∧ |‖value (unitX : Quat (Ieee f64))‖ ^ 2 - 1| ≤ 1 / 50 := by
  constructor
  · intro i; fin_cases i
    · exact finite_zero
    · exact finite_one
    · exact finite_zero
    · exact finite_zero
  · rw [norm_sq_parts]
    change |(0 : Ieee f64).val ^ 2 + (1 : Ieee f64).val ^ 2 + (0 : Ieee f64).val ^ 2 + (0 : Ieee f64).val ^ 2 - 1| ≤ _
    rw [Ieee.val_one, Ieee.val_zero]; norm_num

end Cgl
