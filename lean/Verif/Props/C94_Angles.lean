import Verif.Props.C93_Plane
import Verif.Model.Euler
import Mathlib.LinearAlgebra.CrossProduct

/-! # C94 - rotations by given angles in floating point -/

namespace Cgl
open Ieee FloatFns Quat Spec

variable {φ : Format}

namespace Spec

/-- The sine and the cosine of the library have absolute errors of at most `a`, for arguments up to `B`. -/
def SinCosWithin (φ : Format) [Lib φ] (a B : ℝ) : Prop := ∀ x : Ieee φ, x.Finite → |x.val| ≤ B →
  ((fsin x).Finite ∧ |(fsin x).val - Real.sin x.val| ≤ a) ∧ ((fcos x).Finite ∧ |(fcos x).val - Real.cos x.val| ≤ a)

/-- `A` turns every vector about the unit vector `a` by the angle `t`: the formula of Rodrigues. -/
def Turns (a : EuclideanSpace ℝ (Fin 3)) (t : ℝ) (A : Matrix (Fin 3) (Fin 3) ℝ) : Prop := ∀ v : Fin 3 → ℝ,
  A.mulVec v = Real.cos t • v + Real.sin t • crossProduct a.ofLp v + ((1 - Real.cos t) * dotProduct a.ofLp v) • a.ofLp

/-- the quaternion of the rotation about the unit vector `a` by the angle `t` -/
noncomputable def turnQuat (a : EuclideanSpace ℝ (Fin 3)) (t : ℝ) : Quaternion ℝ :=
  ⟨Real.cos (t / 2), Real.sin (t / 2) * a 0, Real.sin (t / 2) * a 1, Real.sin (t / 2) * a 2⟩

/-- the coordinate axes -/
noncomputable def coordAxis (i : Fin 3) : EuclideanSpace ℝ (Fin 3) := EuclideanSpace.single i 1

/-- the computed 2×2 matrix is finite and within `ε` of `A`, entry by entry -/
def MatWithin2 (M : Mat (Ieee φ) 2 2) (A : Matrix (Fin 2) (Fin 2) ℝ) (ε : ℝ) : Prop :=
  ∀ c r, (M.data c r).Finite ∧ |(M.data c r).val - A r c| ≤ ε

/-- the computed 4×4 matrix is the affine form of a matrix that is finite and within `ε` of `A`, entry by entry; its last
row and column are exactly 0, 0, 0, 1 -/
def Affine (M : Mat (Ieee φ) 4 4) (A : Matrix (Fin 3) (Fin 3) ℝ) (ε : ℝ) : Prop :=
  (∀ c r : Fin 3, (M.data c.castSucc r.castSucc).Finite ∧ |(M.data c.castSucc r.castSucc).val - A r c| ≤ ε) ∧
  (∀ i : Fin 3, M.data i.castSucc 3 = 0 ∧ M.data 3 i.castSucc = 0) ∧ M.data 3 3 = 1

end Spec

/-! ### the exact rotations -/

/-- the entries of the rotation -/
noncomputable def rodrigues (a : EuclideanSpace ℝ (Fin 3)) (t : ℝ) : Matrix (Fin 3) (Fin 3) ℝ :=
  !![(1 - Real.cos t) * a 0 * a 0 + Real.cos t, (1 - Real.cos t) * a 0 * a 1 - Real.sin t * a 2,
      (1 - Real.cos t) * a 0 * a 2 + Real.sin t * a 1;
    (1 - Real.cos t) * a 0 * a 1 + Real.sin t * a 2, (1 - Real.cos t) * a 1 * a 1 + Real.cos t,
      (1 - Real.cos t) * a 1 * a 2 - Real.sin t * a 0;
    (1 - Real.cos t) * a 0 * a 2 - Real.sin t * a 1, (1 - Real.cos t) * a 1 * a 2 + Real.sin t * a 0,
      (1 - Real.cos t) * a 2 * a 2 + Real.cos t]

theorem turns_entries {a : EuclideanSpace ℝ (Fin 3)} {t : ℝ} {A : Matrix (Fin 3) (Fin 3) ℝ} (h : Turns a t A) :
    A = rodrigues a t := by
  have h0 := h ![1, 0, 0]
  have h1 := h ![0, 1, 0]
  have h2 := h ![0, 0, 1]
  simp only [funext_iff, Fin.forall_fin_succ, Matrix.mulVec, dotProduct, Fin.sum_univ_three, cross_apply] at h0 h1 h2
  simp at h0 h1 h2
  ext r c
  fin_cases r <;> fin_cases c <;> simp [rodrigues] <;> linarith

theorem turns_of_entries {a : EuclideanSpace ℝ (Fin 3)} {t : ℝ} : Turns a t (rodrigues a t) := by
  intro v
  ext r
  fin_cases r <;> simp [rodrigues, Matrix.mulVec, dotProduct, Fin.sum_univ_three, cross_apply, Matrix.vecHead, Matrix.vecTail] <;> ring

theorem turnQuat_norm {a : EuclideanSpace ℝ (Fin 3)} (ha : ‖a‖ = 1) (t : ℝ) : ‖turnQuat a t‖ = 1 := by
  have na := normsq3 a
  rw [ha] at na
  have h1 : Quaternion.normSq (turnQuat a t) = 1 := by
    rw [Quaternion.normSq_def']
    simp only [turnQuat]
    linear_combination Real.cos_sq_add_sin_sq (t / 2) - Real.sin (t / 2) ^ 2 * na
  rw [Quaternion.normSq_eq_norm_mul_self] at h1
  nlinarith [_root_.norm_nonneg (turnQuat a t)]

/-- The quaternion describes the same rotation. -/
theorem turns_iff {a : EuclideanSpace ℝ (Fin 3)} (ha : ‖a‖ = 1) {t : ℝ} {A : Matrix (Fin 3) (Fin 3) ℝ} :
    Turns a t A ↔ Describes (turnQuat a t) A := by
  have na := normsq3 a
  rw [ha] at na
  have c : Real.cos t = 2 * Real.cos (t / 2) ^ 2 - 1 := by rw [← Real.cos_two_mul]; congr 1; ring
  have s : Real.sin t = 2 * Real.sin (t / 2) * Real.cos (t / 2) := by rw [← Real.sin_two_mul]; congr 1; ring
  have p := Real.cos_sq_add_sin_sq (t / 2)
  have key : ∀ {B}, Describes (turnQuat a t) B → Turns a t B := by
    intro B hB
    obtain ⟨e0, e1, e2, e3, e4, e5, e6, e7, e8, e9⟩ := describes_entries hB
    have : B = rodrigues a t := by
      ext r c'
      simp only [turnQuat] at e1 e2 e3 e4 e5 e6 e7 e8 e9
      generalize Real.cos (t / 2) = C at *
      generalize Real.sin (t / 2) = S at *
      rw [rodrigues, c, s]
      have p' : 1 - (2 * C ^ 2 - 1) = 2 * S ^ 2 := by linarith
      rw [p']
      fin_cases r <;> fin_cases c' <;> simp
      · rw [e1]; linear_combination 2 * S ^ 2 * na - 2 * p
      · rw [e5]; ring
      · rw [e7]; ring
      · rw [e4]; ring
      · rw [e2]; linear_combination 2 * S ^ 2 * na - 2 * p
      · rw [e9]; ring
      · rw [e6]; ring
      · rw [e8]; ring
      · rw [e3]; linear_combination 2 * S ^ 2 * na - 2 * p
    rw [this]
    exact turns_of_entries
  refine ⟨fun h => ?_, key⟩
  obtain ⟨B, hB⟩ := describes_exists (turnQuat_norm ha t)
  rwa [turns_entries h, ← turns_entries (key hB)]

/-- It is a rotation that leaves the axis in place. -/
theorem turns_rotation {a : EuclideanSpace ℝ (Fin 3)} (ha : ‖a‖ = 1) {t : ℝ} {A : Matrix (Fin 3) (Fin 3) ℝ}
    (h : Turns a t A) : A ∈ Matrix.specialOrthogonalGroup (Fin 3) ℝ ∧ A.mulVec a.ofLp = a.ofLp := by
  have na := normsq3 a
  rw [ha] at na
  refine ⟨?_, ?_⟩
  · have p := Real.cos_sq_add_sin_sq t
    rw [turns_entries h, rodrigues, Matrix.mem_specialOrthogonalGroup_iff, Matrix.mem_orthogonalGroup_iff]
    generalize Real.cos t = C at *
    generalize Real.sin t = S at *
    generalize a 0 = x at *
    generalize a 1 = y at *
    generalize a 2 = z at *
    refine ⟨?_, ?_⟩
    · ext r c
      fin_cases r <;> fin_cases c <;> simp [Matrix.mul_apply, Fin.sum_univ_three, Matrix.one_apply]
      · linear_combination -((1 - C) ^ 2 * x ^ 2 + (1 - C ^ 2)) * na + (y ^ 2 + z ^ 2) * p
      · linear_combination -((1 - C) ^ 2 * x * y) * na - x * y * p
      · linear_combination -((1 - C) ^ 2 * x * z) * na - x * z * p
      · linear_combination -((1 - C) ^ 2 * x * y) * na - x * y * p
      · linear_combination -((1 - C) ^ 2 * y ^ 2 + (1 - C ^ 2)) * na + (x ^ 2 + z ^ 2) * p
      · linear_combination -((1 - C) ^ 2 * y * z) * na - y * z * p
      · linear_combination -((1 - C) ^ 2 * x * z) * na - x * z * p
      · linear_combination -((1 - C) ^ 2 * y * z) * na - y * z * p
      · linear_combination -((1 - C) ^ 2 * z ^ 2 + (1 - C ^ 2)) * na + (x ^ 2 + y ^ 2) * p
    · rw [Matrix.det_fin_three]
      simp
      linear_combination -(C ^ 2 * (1 - C) + C * S ^ 2 + (1 - C) * S ^ 2 * (x ^ 2 + y ^ 2 + z ^ 2 + 1)) * na + p
  · rw [h, cross_self, show dotProduct a.ofLp a.ofLp = 1 by rw [dotProduct, Fin.sum_univ_three]; linarith]
    ext i
    simp
    ring

theorem turns_x {t : ℝ} {A : Matrix (Fin 3) (Fin 3) ℝ} (h : Turns (coordAxis 0) t A) :
    A = !![1, 0, 0; 0, Real.cos t, -Real.sin t; 0, Real.sin t, Real.cos t] := by
  rw [turns_entries h]; ext r c; fin_cases r <;> fin_cases c <;> simp [rodrigues, coordAxis]

theorem turns_y {t : ℝ} {A : Matrix (Fin 3) (Fin 3) ℝ} (h : Turns (coordAxis 1) t A) :
    A = !![Real.cos t, 0, Real.sin t; 0, 1, 0; -Real.sin t, 0, Real.cos t] := by
  rw [turns_entries h]; ext r c; fin_cases r <;> fin_cases c <;> simp [rodrigues, coordAxis]

theorem turns_z {t : ℝ} {A : Matrix (Fin 3) (Fin 3) ℝ} (h : Turns (coordAxis 2) t A) :
    A = !![Real.cos t, -Real.sin t, 0; Real.sin t, Real.cos t, 0; 0, 0, 1] := by
  rw [turns_entries h]; ext r c; fin_cases r <;> fin_cases c <;> simp [rodrigues, coordAxis]

theorem coordAxis_norm (i : Fin 3) : ‖coordAxis i‖ = 1 := by simp [coordAxis]

/-! ### the computed rotations -/

/-- a 4×4 matrix that repeats the entries of a 3×3 matrix -/
theorem affine_of {M : Mat (Ieee φ) 3 3} {N : Mat (Ieee φ) 4 4} {A : Matrix (Fin 3) (Fin 3) ℝ} {ε : ℝ} (h : MatWithin M A ε)
    (h1 : ∀ c r : Fin 3, N.data c.castSucc r.castSucc = M.data c r) (h2 : ∀ i : Fin 3, N.data i.castSucc 3 = 0 ∧ N.data 3 i.castSucc = 0)
    (h3 : N.data 3 3 = 1) : Affine N A ε :=
  ⟨fun c r => by rw [h1]; exact h c r, h2, h3⟩

section
variable [Lib φ] {d e B : ℝ} (hφ : Fine φ) (hd : d ≤ 1 / 1000000) (hd' : d ≤ 1 / 1000) (hwd : unit φ ≤ d)
  (he : SinCosWithin φ e B) (hed : e ≤ d)

section
variable {axis : Unit' (Vec (Ieee φ) 3)} {angle : Radians (Ieee φ)} {a : EuclideanSpace ℝ (Fin 3)}
  (ha : ‖a‖ = 1) (hu : VecWithin axis.value a d) (ht : angle.val.Finite) (hB : |angle.val.val| ≤ B)
include hφ hd' hwd he hed ha hu ht hB

theorem axis_angle_terms :
    (∀ i j, Nr ((1 - fcos angle.val) * axis.value.data i * axis.value.data j)
      ((1 - Real.cos angle.val.val) * a i * a j) (1132 / 100 * d) ∧ |(1 - Real.cos angle.val.val) * a i * a j| ≤ 2) ∧
    (∀ i, Nr (fsin angle.val * axis.value.data i) (Real.sin angle.val.val * a i) (303 / 100 * d) ∧
      |Real.sin angle.val.val * a i| ≤ 1) := by
  have hw0 : 0 ≤ unit φ := unit_nonneg
  have hd0 : 0 ≤ d := hw0.trans hwd
  have hS : Nr (fsin angle.val) (Real.sin angle.val.val) d := Nr.mono (he _ ht hB).1 hed
  have hC : Nr (fcos angle.val) (Real.cos angle.val.val) d := Nr.mono (he _ ht hB).2 hed
  have s1 := Real.abs_sin_le_one angle.val.val
  have c1 : |1 - Real.cos angle.val.val| ≤ 2 := by
    rw [abs_le]; constructor <;> linarith [Real.cos_le_one angle.val.val, Real.neg_one_le_cos angle.val.val]
  have a1 := unit_comp ha
  have hO := Nr.one.sub hφ hC (M := 21 / 10) (by linarith) (by norm_num) (by norm_num)
  replace hO := hO.mono (f := 31 / 10 * d) (by linarith)
  have e2 : ∀ i, |(1 - Real.cos angle.val.val) * a i| ≤ 2 := fun i => by
    rw [abs_mul]; exact (mul_le_mul c1 (a1 i) (abs_nonneg _) (by norm_num)).trans (by norm_num)
  have hP : ∀ i, Nr ((1 - fcos angle.val) * axis.value.data i) ((1 - Real.cos angle.val.val) * a i) (721 / 100 * d) := fun i =>
    (hO.mul hφ (hu i) c1 (a1 i) (M := 21 / 10) (by nlinarith) (by norm_num) (by norm_num)).mono (by nlinarith)
  refine ⟨fun i j => ⟨?_, ?_⟩, fun i => ⟨?_, ?_⟩⟩
  · exact ((hP i).mul hφ (hu j) (e2 i) (a1 j) (M := 21 / 10) (by nlinarith) (by norm_num) (by norm_num)).mono (by nlinarith)
  · rw [abs_mul]; exact (mul_le_mul (e2 i) (a1 j) (abs_nonneg _) (by norm_num)).trans (by norm_num)
  · exact (hS.mul hφ (hu i) s1 (a1 i) (M := 101 / 100) (by nlinarith) (by norm_num) (by norm_num)).mono (by nlinarith)
  · rw [abs_mul]; exact (mul_le_mul s1 (a1 i) (abs_nonneg _) (by norm_num)).trans (by norm_num)

theorem axis_angle_near {A : Matrix (Fin 3) (Fin 3) ℝ} (hA : Turns a angle.val.val A) :
    MatWithin (Mat.fromAxisAngle3 axis angle) A (18 * d) := by
  have hw0 : 0 ≤ unit φ := unit_nonneg
  have hd0 : 0 ≤ d := hw0.trans hwd
  obtain ⟨hP, hS⟩ := axis_angle_terms hφ hd' hwd he hed ha hu ht hB
  have hC : Nr (fcos angle.val) (Real.cos angle.val.val) d := Nr.mono (he _ ht hB).2 hed
  have c1 := Real.abs_cos_le_one angle.val.val
  have plus : ∀ i j k, Nr ((1 - fcos angle.val) * axis.value.data i * axis.value.data j + fsin angle.val * axis.value.data k)
      ((1 - Real.cos angle.val.val) * a i * a j + Real.sin angle.val.val * a k) (18 * d) := fun i j k =>
    ((hP i j).1.add hφ (hS k).1 (M := 31 / 10)
      (by linarith [abs_add_le ((1 - Real.cos angle.val.val) * a i * a j) (Real.sin angle.val.val * a k), (hP i j).2, (hS k).2])
      (by norm_num) (by norm_num)).mono (by linarith)
  have minus : ∀ i j k, Nr ((1 - fcos angle.val) * axis.value.data i * axis.value.data j - fsin angle.val * axis.value.data k)
      ((1 - Real.cos angle.val.val) * a i * a j - Real.sin angle.val.val * a k) (18 * d) := fun i j k =>
    ((hP i j).1.sub hφ (hS k).1 (M := 31 / 10)
      (by linarith [abs_sub ((1 - Real.cos angle.val.val) * a i * a j) (Real.sin angle.val.val * a k), (hP i j).2, (hS k).2])
      (by norm_num) (by norm_num)).mono (by linarith)
  have diag : ∀ i, Nr ((1 - fcos angle.val) * axis.value.data i * axis.value.data i + fcos angle.val)
      ((1 - Real.cos angle.val.val) * a i * a i + Real.cos angle.val.val) (18 * d) := fun i =>
    ((hP i i).1.add hφ hC (M := 31 / 10)
      (by linarith [abs_add_le ((1 - Real.cos angle.val.val) * a i * a i) (Real.cos angle.val.val), (hP i i).2])
      (by norm_num) (by norm_num)).mono (by linarith)
  rw [turns_entries hA, rodrigues]
  intro c r
  fin_cases c <;> fin_cases r
  · exact diag 0
  · exact plus 0 1 2
  · exact minus 0 2 1
  · exact minus 0 1 2
  · exact diag 1
  · exact plus 1 2 0
  · exact plus 0 2 1
  · exact minus 1 2 0
  · exact diag 2

omit hd'
include hd

/-- `Matrix3x3::from_axis_angle`: near the rotation about the exact axis. -/
theorem C94_axis_angle {A : Matrix (Fin 3) (Fin 3) ℝ} (hA : Turns a angle.val.val A) :
    MatWithin (Mat.fromAxisAngle3 axis angle) A (18 * d) :=
  axis_angle_near hφ (by linarith) hwd he hed ha hu ht hB hA

omit he in
/-- `Quaternion::from_axis_angle`: near the quaternion of the rotation about the exact axis.  Halving the angle is only
exact up to one rounding. -/
theorem C94_quaternion (he : SinCosWithin φ e (B / 2 + unit φ * B)) (hB1 : 1 ≤ B) (hB2 : B ≤ 1000) :
    QuatWithin (Quat.fromAxisAngle axis angle) (turnQuat a angle.val.val) (4 * d + unit φ * B) := by
  have hw0 : 0 ≤ unit φ := unit_nonneg
  have hd0 : 0 ≤ d := hw0.trans hwd
  have hwB : unit φ * B ≤ 1 / 1000 := by nlinarith
  have hwB0 : 0 ≤ unit φ * B := by positivity
  have a1 := unit_comp ha
  have hH := (Nr.exact ht).mul hφ (half_nr hφ) hB (B := 1 / 2) (by norm_num) (M := B) (by linarith) hB1 (by linarith)
  replace hH := hH.mono (f := unit φ * B) (by linarith)
  rw [mul_one_div] at hH
  have hr : |(angle.val * ((1 : Ieee φ) / (1 + 1))).val| ≤ B / 2 + unit φ * B := by
    refine hH.val_le ?_
    rw [abs_div, abs_two]; linarith
  obtain ⟨hs, hc⟩ := he _ hH.1 hr
  have hS : Nr (fsin (angle.val * ((1 : Ieee φ) / (1 + 1)))) (Real.sin (angle.val.val / 2)) (d + unit φ * B) := by
    refine ⟨hs.1, (abs_sub_le _ (Real.sin (angle.val * ((1 : Ieee φ) / (1 + 1))).val) _).trans (add_le_add (hs.2.trans hed) ?_)⟩
    exact (Real.abs_sin_sub_sin_le _ _).trans hH.2
  have hC : Nr (fcos (angle.val * ((1 : Ieee φ) / (1 + 1)))) (Real.cos (angle.val.val / 2)) (d + unit φ * B) := by
    refine ⟨hc.1, (abs_sub_le _ (Real.cos (angle.val * ((1 : Ieee φ) / (1 + 1))).val) _).trans (add_le_add (hc.2.trans hed) ?_)⟩
    exact (Real.abs_cos_sub_cos_le _ _).trans hH.2
  have hV : ∀ i, Nr (axis.value.data i * fsin (angle.val * ((1 : Ieee φ) / (1 + 1)))) (Real.sin (angle.val.val / 2) * a i)
      (4 * d + unit φ * B) := fun i => by
    rw [mul_comm (Real.sin _)]
    exact ((show Nr (axis.value.data i) (a i) d from hu i).mul hφ hS (a1 i) (Real.abs_sin_le_one _) (M := 101 / 100) (by nlinarith)
      (by norm_num) (by norm_num)).mono (by nlinarith)
  refine ⟨fun i => ?_, ?_, (hV 0).2, (hV 1).2, (hV 2).2⟩
  · fin_cases i
    · exact hC.1
    · exact (hV 0).1
    · exact (hV 1).1
    · exact (hV 2).1
  · exact hC.2.trans (by linarith)

omit he in
/-- and its matrix is near the matrix of the rotation -/
theorem C94_quaternion_matrix (he : SinCosWithin φ e (B / 2 + unit φ * B)) (hB1 : 1 ≤ B) (hB2 : B ≤ 1000)
    {A : Matrix (Fin 3) (Fin 3) ℝ} (hA : Turns a angle.val.val A) :
    MatWithin (Quat.fromAxisAngle axis angle).toMatrix A (84 * d + 9 * unit φ * B) := by
  have hw0 : 0 ≤ unit φ := unit_nonneg
  have hq := C94_quaternion hφ hd hwd hed ha hu ht hB he hB1 hB2
  have := C91_to_matrix_near hφ ((turns_iff ha).mp hA) hq (by nlinarith)
  exact fun c r => ⟨(this c r).1, (this c r).2.trans (by nlinarith)⟩

/-- `Matrix4x4::from_affine_axis_angle`: the same rotation, in homogeneous coordinates, where the last row and column are
exact. -/
theorem C94_affine_axis_angle {A : Matrix (Fin 3) (Fin 3) ℝ} (hA : Turns a angle.val.val A) :
    Affine (Mat.fromAffineAxisAngle4 axis angle) A (18 * d) := by
  refine affine_of (C94_axis_angle hφ hd hwd he hed ha hu ht hB hA) (fun c r => ?_) (fun i => ?_) rfl
  · fin_cases c <;> fin_cases r <;> rfl
  · fin_cases i <;> exact ⟨rfl, rfl⟩

end

/-! ### about the coordinate axes -/

section
variable {angle : Radians (Ieee φ)} (ht : angle.val.Finite) (hB : |angle.val.val| ≤ B)
include he hed ht hB

theorem angle_parts : Nr (fsin angle.val) (Real.sin angle.val.val) d ∧ Nr (fcos angle.val) (Real.cos angle.val.val) d ∧
    Nr (0 : Ieee φ) 0 d ∧ Nr (1 : Ieee φ) 1 d := by
  have hS : Nr (fsin angle.val) (Real.sin angle.val.val) d := Nr.mono (he _ ht hB).1 hed
  exact ⟨hS, Nr.mono (he _ ht hB).2 hed, Nr.zero.mono hS.nonneg, Nr.one.mono hS.nonneg⟩

/-- The rotations about a coordinate axis are as accurate as the sine and the cosine. -/
theorem C94_angle_x {A : Matrix (Fin 3) (Fin 3) ℝ} (hA : Turns (coordAxis 0) angle.val.val A) :
    MatWithin (Mat.fromAngleX3 angle) A d ∧ Affine (Mat.fromAffineAngleX4 angle) A d := by
  obtain ⟨hS, hC, h0, h1⟩ := angle_parts he hed ht hB
  have h : MatWithin (Mat.fromAngleX3 angle) A d := by
    rw [turns_x hA]
    intro c r
    fin_cases c <;> fin_cases r
    · exact h1
    · exact h0
    · exact h0
    · exact h0
    · exact hC
    · exact hS
    · exact h0
    · exact hS.neg
    · exact hC
  refine ⟨h, affine_of h (fun c r => ?_) (fun i => ?_) rfl⟩
  · fin_cases c <;> fin_cases r <;> rfl
  · fin_cases i <;> exact ⟨rfl, rfl⟩

theorem C94_angle_y {A : Matrix (Fin 3) (Fin 3) ℝ} (hA : Turns (coordAxis 1) angle.val.val A) :
    MatWithin (Mat.fromAngleY3 angle) A d ∧ Affine (Mat.fromAffineAngleY4 angle) A d := by
  obtain ⟨hS, hC, h0, h1⟩ := angle_parts he hed ht hB
  have h : MatWithin (Mat.fromAngleY3 angle) A d := by
    rw [turns_y hA]
    intro c r
    fin_cases c <;> fin_cases r
    · exact hC
    · exact h0
    · exact hS.neg
    · exact h0
    · exact h1
    · exact h0
    · exact hS
    · exact h0
    · exact hC
  refine ⟨h, affine_of h (fun c r => ?_) (fun i => ?_) rfl⟩
  · fin_cases c <;> fin_cases r <;> rfl
  · fin_cases i <;> exact ⟨rfl, rfl⟩

theorem C94_angle_z {A : Matrix (Fin 3) (Fin 3) ℝ} (hA : Turns (coordAxis 2) angle.val.val A) :
    MatWithin (Mat.fromAngleZ3 angle) A d ∧ Affine (Mat.fromAffineAngleZ4 angle) A d := by
  obtain ⟨hS, hC, h0, h1⟩ := angle_parts he hed ht hB
  have h : MatWithin (Mat.fromAngleZ3 angle) A d := by
    rw [turns_z hA]
    intro c r
    fin_cases c <;> fin_cases r
    · exact hC
    · exact hS
    · exact h0
    · exact hS.neg
    · exact hC
    · exact h0
    · exact h0
    · exact h0
    · exact h1
  refine ⟨h, affine_of h (fun c r => ?_) (fun i => ?_) rfl⟩
  · fin_cases c <;> fin_cases r <;> rfl
  · fin_cases i <;> exact ⟨rfl, rfl⟩

theorem C94_angle_plane :
    MatWithin2 (Mat.fromAngle2 angle) !![Real.cos angle.val.val, -Real.sin angle.val.val; Real.sin angle.val.val, Real.cos angle.val.val] d ∧
    ∀ A, Turns (coordAxis 2) angle.val.val A → MatWithin (Mat.fromAffineAngle3 angle) A d := by
  obtain ⟨hS, hC, h0, h1⟩ := angle_parts he hed ht hB
  refine ⟨fun c r => ?_, fun A hA => (C94_angle_z he hed ht hB hA).1⟩
  fin_cases c <;> fin_cases r
  · exact hC
  · exact hS
  · exact hS.neg
  · exact hC

end

/-! ### Euler angles -/

/-- the product of the rotations about the three axes with the given sines and cosines -/
theorem euler_product (sx cx sy cy sz cz : ℝ) :
    (!![1, 0, 0; 0, cx, -sx; 0, sx, cx] * !![cy, 0, sy; 0, 1, 0; -sy, 0, cy] * !![cz, -sz, 0; sz, cz, 0; 0, 0, 1] :
      Matrix (Fin 3) (Fin 3) ℝ) =
    !![cy * cz, -cy * sz, sy;
      cx * sz + cz * sy * sx, cz * cx - sy * sz * sx, -cy * sx;
      sz * sx - cz * cx * sy, cz * sx + cx * sy * sz, cy * cx] := by
  ext r c
  fin_cases r <;> fin_cases c <;> simp [Matrix.mul_apply, Fin.sum_univ_three] <;> ring

/-- the formulas of the code, for computed sines and cosines with errors of at most `η` -/
theorem euler_near (hφ : Fine φ) {η : ℝ} (hη : η ≤ 1 / 1000) (hw : unit φ ≤ η) {t : Euler (Radians (Ieee φ))}
    {rx ix ry iy rz iz : ℝ} (px : rx ^ 2 + ix ^ 2 = 1) (py : ry ^ 2 + iy ^ 2 = 1) (pz : rz ^ 2 + iz ^ 2 = 1)
    (sx : Nr (fsin t.x.val) ix η) (cx : Nr (fcos t.x.val) rx η) (sy : Nr (fsin t.y.val) iy η) (cy : Nr (fcos t.y.val) ry η)
    (sz : Nr (fsin t.z.val) iz η) (cz : Nr (fcos t.z.val) rz η) :
    MatWithin t.toMatrix !![ry * rz, -ry * iz, iy; rx * iz + rz * iy * ix, rz * rx - iy * iz * ix, -ry * ix;
      iz * ix - rz * rx * iy, rz * ix + rx * iy * iz, ry * rx] (10 * η) := by
  have hw0 : 0 ≤ unit φ := unit_nonneg
  have hη0 : 0 ≤ η := hw0.trans hw
  have one : ∀ {a b : ℝ}, a ^ 2 + b ^ 2 = 1 → |a| ≤ 1 ∧ |b| ≤ 1 := fun {a b} h =>
    ⟨by rw [← sq_le_one_iff_abs_le_one]; nlinarith [sq_nonneg b], by rw [← sq_le_one_iff_abs_le_one]; nlinarith [sq_nonneg a]⟩
  obtain ⟨bx, ax⟩ := one px
  obtain ⟨b_y, ay⟩ := one py
  obtain ⟨bz, az⟩ := one pz
  have two : ∀ {p q : Ieee φ} {a b : ℝ}, Nr p a η → Nr q b η → |a| ≤ 1 → |b| ≤ 1 →
      Nr (p * q) (a * b) (303 / 100 * η) ∧ |a * b| ≤ 1 := fun hp hq ha hb =>
    ⟨(hp.mul hφ hq ha hb (M := 101 / 100) (by nlinarith) (by norm_num) (by norm_num)).mono (by nlinarith),
      by rw [abs_mul]; exact mul_le_one₀ ha (abs_nonneg _) hb⟩
  have three : ∀ {p q : Ieee φ} {a b : ℝ}, Nr p a (303 / 100 * η) ∧ |a| ≤ 1 → Nr q b η → |b| ≤ 1 →
      Nr (p * q) (a * b) (506 / 100 * η) ∧ |a * b| ≤ 1 := fun hp hq hb =>
    ⟨(hp.1.mul hφ hq hp.2 hb (M := 101 / 100) (by nlinarith) (by norm_num) (by norm_num)).mono (by nlinarith),
      by rw [abs_mul]; exact mul_le_one₀ hp.2 (abs_nonneg _) hb⟩
  have plus : ∀ {p q : Ieee φ} {a b : ℝ}, Nr p a (303 / 100 * η) → Nr q b (506 / 100 * η) → |a + b| ≤ 1 →
      Nr (p + q) (a + b) (10 * η) := fun hp hq h =>
    (hp.add hφ hq (M := 101 / 100) (by linarith) (by norm_num) (by norm_num)).mono (by linarith)
  have minus : ∀ {p q : Ieee φ} {a b : ℝ}, Nr p a (303 / 100 * η) → Nr q b (506 / 100 * η) → |a - b| ≤ 1 →
      Nr (p - q) (a - b) (10 * η) := fun hp hq h =>
    (hp.sub hφ hq (M := 101 / 100) (by linarith) (by norm_num) (by norm_num)).mono (by linarith)
  have comb : ∀ {z a b c e w : ℝ}, a ^ 2 + b ^ 2 = 1 → c ^ 2 + e ^ 2 = 1 → |w| ≤ 1 → z = a * c + b * e * w → |z| ≤ 1 := by
    intro z a b c e w h1 h2 hw hz
    rw [hz]
    rw [← sq_le_one_iff_abs_le_one] at hw ⊢
    have k : (a * c + b * e * w) ^ 2 + (b * c - a * e * w) ^ 2 = c ^ 2 + e ^ 2 * w ^ 2 := by
      linear_combination (c ^ 2 + e ^ 2 * w ^ 2) * h1
    have := mul_le_mul_of_nonneg_left hw (sq_nonneg e)
    nlinarith [sq_nonneg (b * c - a * e * w)]
  have px' := px
  rw [add_comm] at px'
  have pz' := pz
  rw [add_comm] at pz'
  have ay' : |-iy| ≤ 1 := by rwa [abs_neg]
  intro c r
  fin_cases c <;> fin_cases r
  · exact (two cy cz b_y bz).1.mono (by linarith)
  · exact plus (two cx sz bx az).1 (three (two cz sy bz ay) sx ax).1 (comb px pz' ay (by ring))
  · exact minus (two sz sx az ax).1 (three (two cz cx bz bx) sy ay).1 (comb px' pz' ay' (by ring))
  · exact (two cy.neg sz (by rwa [abs_neg]) az).1.mono (by linarith)
  · exact minus (two cz cx bz bx).1 (three (two sy sz ay az) sx ax).1 (comb px pz ay' (by ring))
  · exact plus (two cz sx bz ax).1 (three (two cx sy bx ay) sz az).1 (comb px' pz ay (by ring))
  · exact sy.mono (by linarith)
  · exact (two cy.neg sx (by rwa [abs_neg]) ax).1.mono (by linarith)
  · exact (two cy cx b_y bx).1.mono (by linarith)

section
variable {t : Euler (Radians (Ieee φ))} (hx : t.x.val.Finite) (hy : t.y.val.Finite) (hz : t.z.val.Finite)
  (hxB : |t.x.val.val| ≤ B) (hyB : |t.y.val.val| ≤ B) (hzB : |t.z.val.val| ≤ B)
include hφ hd hwd he hed hx hy hz hxB hyB hzB

/-- `Euler::to_matrix` and `to_affine_matrix`: near the product of the three rotations about the coordinate axes. -/
theorem C94_euler {X Y Z : Matrix (Fin 3) (Fin 3) ℝ} (hX : Turns (coordAxis 0) t.x.val.val X)
    (hY : Turns (coordAxis 1) t.y.val.val Y) (hZ : Turns (coordAxis 2) t.z.val.val Z) :
    MatWithin t.toMatrix (X * Y * Z) (10 * d) ∧ Affine t.toAffineMatrix (X * Y * Z) (10 * d) := by
  have h : MatWithin t.toMatrix (X * Y * Z) (10 * d) := by
    rw [turns_x hX, turns_y hY, turns_z hZ, euler_product]
    exact euler_near hφ (by linarith) hwd (Real.cos_sq_add_sin_sq _) (Real.cos_sq_add_sin_sq _) (Real.cos_sq_add_sin_sq _)
      (Nr.mono (he _ hx hxB).1 hed) (Nr.mono (he _ hx hxB).2 hed) (Nr.mono (he _ hy hyB).1 hed) (Nr.mono (he _ hy hyB).2 hed)
      (Nr.mono (he _ hz hzB).1 hed) (Nr.mono (he _ hz hzB).2 hed)
  refine ⟨h, affine_of h (fun c r => ?_) (fun i => ?_) rfl⟩
  · fin_cases c <;> fin_cases r <;> rfl
  · fin_cases i <;> exact ⟨rfl, rfl⟩

end

/-! ### the transformations -/

/-- `Rotation3`, `Isometry3` and `Similarity3::from_axis_angle` -/
theorem C94_transforms {axis : Unit' (Vec (Ieee φ) 3)} {angle : Radians (Ieee φ)} {a : EuclideanSpace ℝ (Fin 3)}
    (ha : ‖a‖ = 1) (hu : VecWithin axis.value a d) (ht : angle.val.Finite) (hB : |angle.val.val| ≤ B)
    (hφ : Fine φ) (hd : d ≤ 1 / 1000000) (hwd : unit φ ≤ d) (he : SinCosWithin φ e B) (hed : e ≤ d)
    {A : Matrix (Fin 3) (Fin 3) ℝ} (hA : Turns a angle.val.val A) :
    MatWithin (Rotation.fromAxisAngle axis angle).matrix A (18 * d) ∧
    MatWithin (Isometry.fromAxisAngle axis angle).rotation.matrix A (18 * d) ∧
    (∀ v, MatWithin (Isometry.fromAxisAngleTranslation axis angle v).rotation.matrix A (18 * d)) ∧
    MatWithin (Similarity.fromAxisAngle axis angle).isometry.rotation.matrix A (18 * d) :=
  have h := C94_axis_angle hφ hd hwd he hed ha hu ht hB hA
  ⟨h, h, fun _ => h, h⟩

theorem coordAxis_near (hd : 0 ≤ d) : VecWithin (Vec.unitX3 : Vec (Ieee φ) 3) (coordAxis 0) d ∧
    VecWithin (Vec.unitY3 : Vec (Ieee φ) 3) (coordAxis 1) d ∧ VecWithin (Vec.unitZ3 : Vec (Ieee φ) 3) (coordAxis 2) d := by
  have h1 : Nr (1 : Ieee φ) 1 d := Nr.one.mono hd
  have h0 : Nr (0 : Ieee φ) 0 d := Nr.zero.mono hd
  refine ⟨fun i => ?_, fun i => ?_, fun i => ?_⟩ <;> fin_cases i <;> simp only [coordAxis, PiLp.single_apply] <;>
    first | exact h1 | exact h0

/-- `Rotation3::from_angle_x`, `from_angle_y` and `from_angle_z`, which use the formula for a general axis, and the versions
for isometries -/
theorem C94_transforms_xyz {angle : Radians (Ieee φ)} (ht : angle.val.Finite) (hB : |angle.val.val| ≤ B)
    (hφ : Fine φ) (hd : d ≤ 1 / 1000000) (hwd : unit φ ≤ d) (he : SinCosWithin φ e B) (hed : e ≤ d) :
    (∀ A, Turns (coordAxis 0) angle.val.val A → MatWithin (Rotation.fromAngleX angle).matrix A (18 * d) ∧
      MatWithin (Isometry.fromAngleX angle).rotation.matrix A (18 * d)) ∧
    (∀ A, Turns (coordAxis 1) angle.val.val A → MatWithin (Rotation.fromAngleY angle).matrix A (18 * d) ∧
      MatWithin (Isometry.fromAngleY angle).rotation.matrix A (18 * d)) ∧
    (∀ A, Turns (coordAxis 2) angle.val.val A → MatWithin (Rotation.fromAngleZ angle).matrix A (18 * d) ∧
      MatWithin (Isometry.fromAngleZ angle).rotation.matrix A (18 * d)) := by
  obtain ⟨hx, hy, hz⟩ := coordAxis_near (φ := φ) (unit_nonneg.trans hwd)
  refine ⟨fun A hA => ?_, fun A hA => ?_, fun A hA => ?_⟩
  · have h := C94_axis_angle (axis := ⟨Vec.unitX3⟩) hφ hd hwd he hed (coordAxis_norm 0) hx ht hB hA
    exact ⟨h, h⟩
  · have h := C94_axis_angle (axis := ⟨Vec.unitY3⟩) hφ hd hwd he hed (coordAxis_norm 1) hy ht hB hA
    exact ⟨h, h⟩
  · have h := C94_axis_angle (axis := ⟨Vec.unitZ3⟩) hφ hd hwd he hed (coordAxis_norm 2) hz ht hB hA
    exact ⟨h, h⟩

/-- `Rotation3::from_euler_angles` and `Matrix3x3::from_euler_angles`, for any conversion of the angles to radians -/
theorem C94_from_euler {α : Type*} (into : α → Radians (Ieee φ)) (t : Euler α) :
    (Rotation.fromEulerAngles into t).matrix = (⟨into t.x, into t.y, into t.z⟩ : Euler (Radians (Ieee φ))).toMatrix ∧
    Mat.fromEulerAngles3 into t = (⟨into t.x, into t.y, into t.z⟩ : Euler (Radians (Ieee φ))).toMatrix ∧
    Mat.fromEulerAngles4 into t = (⟨into t.x, into t.y, into t.z⟩ : Euler (Radians (Ieee φ))).toAffineMatrix :=
  ⟨rfl, rfl, rfl⟩

end

/-! ### in `f64` and `f32` -/

/-- In `f64`, with a library accurate to a few units: for all angles up to a thousand radians and every axis with
components accurate to `2^-50`. -/
theorem C94_f64 [Lib f64] {e : ℝ} (he : SinCosWithin f64 e 1000) (hed : e ≤ 2 ^ (-50 : ℤ)) {axis : Unit' (Vec (Ieee f64) 3)}
    {angle : Radians (Ieee f64)} {a : EuclideanSpace ℝ (Fin 3)} (ha : ‖a‖ = 1) (hu : VecWithin axis.value a (2 ^ (-50 : ℤ)))
    (ht : angle.val.Finite) (hB : |angle.val.val| ≤ 1000) {A : Matrix (Fin 3) (Fin 3) ℝ} (hA : Turns a angle.val.val A) :
    MatWithin (Mat.fromAxisAngle3 axis angle) A (2 ^ (-45 : ℤ)) ∧
    Affine (Mat.fromAffineAxisAngle4 axis angle) A (2 ^ (-45 : ℤ)) ∧
    QuatWithin (Quat.fromAxisAngle axis angle) (turnQuat a angle.val.val) (2 ^ (-42 : ℤ)) ∧
    MatWithin (Quat.fromAxisAngle axis angle).toMatrix A (2 ^ (-39 : ℤ)) := by
  have hw : unit f64 ≤ 101 / 100 * 2 ^ (-53 : ℤ) := by
    refine unit64.trans ?_
    have h : (2 : ℝ) ^ (-1075 : ℤ) ≤ 2 ^ (-63 : ℤ) := zpow_le_zpow_right₀ one_le_two (by norm_num)
    norm_num at h ⊢
    linarith
  have hwd : unit f64 ≤ 2 ^ (-50 : ℤ) := hw.trans (by norm_num)
  have hw1 := fine64.unit_le
  have hd : (2 : ℝ) ^ (-50 : ℤ) ≤ 1 / 1000000 := by norm_num
  have hw0 : 0 ≤ unit f64 := unit_nonneg
  have he' : SinCosWithin f64 e (1000 / 2 + unit f64 * 1000) := fun x hx hxB => he x hx (hxB.trans (by linarith))
  have hle : (18 : ℝ) * 2 ^ (-50 : ℤ) ≤ 2 ^ (-45 : ℤ) := by norm_num
  refine ⟨fun c r => ?_, ?_, ?_, fun c r => ?_⟩
  · have := C94_axis_angle fine64 hd hwd he hed ha hu ht hB hA c r
    exact ⟨this.1, this.2.trans hle⟩
  · have := C94_affine_axis_angle fine64 hd hwd he hed ha hu ht hB hA
    exact ⟨fun c r => ⟨(this.1 c r).1, (this.1 c r).2.trans hle⟩, this.2⟩
  · have := C94_quaternion fine64 hd hwd hed ha hu ht hB he' (by norm_num) (by norm_num)
    have h : 4 * (2 : ℝ) ^ (-50 : ℤ) + unit f64 * 1000 ≤ 2 ^ (-42 : ℤ) := by norm_num at hw ⊢; linarith
    exact ⟨this.1, this.2.1.trans h, this.2.2.1.trans h, this.2.2.2.1.trans h, this.2.2.2.2.trans h⟩
  · have := C94_quaternion_matrix fine64 hd hwd hed ha hu ht hB he' (by norm_num) (by norm_num) hA c r
    exact ⟨this.1, this.2.trans (by norm_num at hw ⊢; linarith)⟩

/-- The same in `f32`, for angles up to ten radians. -/
theorem C94_f32 [Lib f32] {e : ℝ} (he : SinCosWithin f32 e 10) (hed : e ≤ 2 ^ (-21 : ℤ)) {axis : Unit' (Vec (Ieee f32) 3)}
    {angle : Radians (Ieee f32)} {a : EuclideanSpace ℝ (Fin 3)} (ha : ‖a‖ = 1) (hu : VecWithin axis.value a (2 ^ (-21 : ℤ)))
    (ht : angle.val.Finite) (hB : |angle.val.val| ≤ 10) {A : Matrix (Fin 3) (Fin 3) ℝ} (hA : Turns a angle.val.val A) :
    MatWithin (Mat.fromAxisAngle3 axis angle) A (2 ^ (-16 : ℤ)) ∧
    Affine (Mat.fromAffineAxisAngle4 axis angle) A (2 ^ (-16 : ℤ)) ∧
    QuatWithin (Quat.fromAxisAngle axis angle) (turnQuat a angle.val.val) (2 ^ (-18 : ℤ)) ∧
    MatWithin (Quat.fromAxisAngle axis angle).toMatrix A (2 ^ (-14 : ℤ)) := by
  have hw : unit f32 ≤ 2 ^ (-24 : ℤ) + 2 ^ (-150 : ℤ) := le_rfl
  have hwd : unit f32 ≤ 2 ^ (-21 : ℤ) := hw.trans (by norm_num)
  have hd : (2 : ℝ) ^ (-21 : ℤ) ≤ 1 / 1000000 := by norm_num
  have hw0 : 0 ≤ unit f32 := unit_nonneg
  have hw1 := fine32.unit_le
  have he' : SinCosWithin f32 e (10 / 2 + unit f32 * 10) := fun x hx hxB => he x hx (hxB.trans (by linarith))
  have hle : (18 : ℝ) * 2 ^ (-21 : ℤ) ≤ 2 ^ (-16 : ℤ) := by norm_num
  refine ⟨fun c r => ?_, ?_, ?_, fun c r => ?_⟩
  · have := C94_axis_angle fine32 hd hwd he hed ha hu ht hB hA c r
    exact ⟨this.1, this.2.trans hle⟩
  · have := C94_affine_axis_angle fine32 hd hwd he hed ha hu ht hB hA
    exact ⟨fun c r => ⟨(this.1 c r).1, (this.1 c r).2.trans hle⟩, this.2⟩
  · have := C94_quaternion fine32 hd hwd hed ha hu ht hB he' (by norm_num) (by norm_num)
    have h : 4 * (2 : ℝ) ^ (-21 : ℤ) + unit f32 * 10 ≤ 2 ^ (-18 : ℤ) := by norm_num at hw ⊢; linarith
    exact ⟨this.1, this.2.1.trans h, this.2.2.1.trans h, this.2.2.2.1.trans h, this.2.2.2.2.trans h⟩
  · have := C94_quaternion_matrix fine32 hd hwd hed ha hu ht hB he' (by norm_num) (by norm_num) hA c r
    exact ⟨this.1, this.2.trans (by norm_num at hw ⊢; linarith)⟩

section
attribute [local instance] Library64.correctlyRounded

/-- a library with this accuracy exists, for arguments of all sizes -/
theorem sinCosWithin_correctlyRounded (B : ℝ) : SinCosWithin f64 (2 ^ (-50 : ℤ)) B := by
  rintro _ ⟨s, m, h, rfl⟩ -
  constructor
  · change (if m = 0 then fin s m h else Ieee.round false (Real.sin (signed s m)) : Ieee f64).Finite ∧
      |(if m = 0 then fin s m h else Ieee.round false (Real.sin (signed s m)) : Ieee f64).val - Real.sin (signed s m)| ≤ _
    split_ifs with hm
    · refine ⟨finite_fin _ _ _, ?_⟩
      subst hm
      have : signed s 0 = 0 := by cases s <;> simp [signed]
      simp [Ieee.val, this]
    · exact round_near ((Real.abs_sin_le_one _).trans (by norm_num))
  · change (Ieee.round false (Real.cos (signed s m)) : Ieee f64).Finite ∧ |(Ieee.round false (Real.cos (signed s m)) : Ieee f64).val - Real.cos (signed s m)| ≤ _
    exact round_near ((Real.abs_cos_le_one _).trans (by norm_num))

end

/-- The exact rotations exist: a third of a turn about the diagonal permutes the axes. -/
example : ∃ a : EuclideanSpace ℝ (Fin 3), ‖a‖ = 1 ∧ Turns a (2 * Real.pi / 3) !![0, 0, 1; 1, 0, 0; 0, 1, 0] := by
  have h3 : Real.sqrt 3 * Real.sqrt 3 = 3 := Real.mul_self_sqrt (by norm_num)
  have h0 : Real.sqrt 3 ≠ 0 := by positivity
  have hc : Real.cos (2 * Real.pi / 3) = -(1 / 2) := by
    rw [show 2 * Real.pi / 3 = Real.pi - Real.pi / 3 by ring, Real.cos_pi_sub, Real.cos_pi_div_three]
  have hs : Real.sin (2 * Real.pi / 3) = Real.sqrt 3 / 2 := by
    rw [show 2 * Real.pi / 3 = Real.pi - Real.pi / 3 by ring, Real.sin_pi_sub, Real.sin_pi_div_three]
  refine ⟨WithLp.toLp 2 ![1 / Real.sqrt 3, 1 / Real.sqrt 3, 1 / Real.sqrt 3], ?_, ?_⟩
  · rw [EuclideanSpace.norm_eq, Fin.sum_univ_three, Real.sqrt_eq_one]
    simp
    norm_num
  · convert turns_of_entries using 1
    ext r c
    have h4 : (Real.sqrt 3)⁻¹ * (Real.sqrt 3)⁻¹ = 1 / 3 := by rw [← mul_inv, h3]; norm_num
    fin_cases r <;> fin_cases c <;> simp [rodrigues, hc, hs] <;> field_simp <;> nlinarith

/-- and in `f64` there are axes near them -/
example : ∃ axis : Unit' (Vec (Ieee f64) 3), VecWithin axis.value (coordAxis 2) (2 ^ (-50 : ℤ)) := by
  refine ⟨⟨Vec.unitZ3⟩, fun i => ?_⟩
  have h1 : (1 : Ieee f64).val = 1 := Ieee.val_one
  have h0 : (0 : Ieee f64).val = 0 := Ieee.val_zero
  fin_cases i
  · exact ⟨finite_zero, by change |(0 : Ieee f64).val - _| ≤ _; rw [h0]; simp [coordAxis]⟩
  · exact ⟨finite_zero, by change |(0 : Ieee f64).val - _| ≤ _; rw [h0]; simp [coordAxis]⟩
  · exact ⟨finite_one, by change |(1 : Ieee f64).val - _| ≤ _; rw [h1]; simp [coordAxis]⟩

end Cgl
