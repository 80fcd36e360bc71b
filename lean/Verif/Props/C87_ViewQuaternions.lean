import Verif.Props.C87_FloatViews
import Verif.Props.C91_RoundTrips

/-! # C87 - view rotations in `f64`: as rotations of space and as quaternions

The exact view rotation is characterized by what it does to the direction and to the up vector; the computed matrices and
quaternions are near it. -/

namespace Cgl
open Ieee FloatFns Mat Spec

/-- The rotation with the matrix `A` turns `direction` to the positive or, with `sense = -1`, the negative third axis, and
`up` into the half plane of the second and third axes where the second coordinate is positive. -/
structure Spec.Views (A : Matrix (Fin 3) (Fin 3) ℝ) (direction up : Fin 3 → ℝ) (sense : ℝ) : Prop where
  rotation : A ∈ Matrix.specialOrthogonalGroup (Fin 3) ℝ
  forward : A.mulVec direction = ![0, 0, sense * Real.sqrt (∑ i, direction i ^ 2)]
  sideways : A.mulVec up 0 = 0
  upwards : 0 < A.mulVec up 1

theorem views_of {M : Mat ℝ 3 3} {d up : Vec ℝ 3} {σ : ℝ} (hd : d ≠ 0) (h : IsViewRotation M d.normalize ((Vec.unitZ3 : Vec ℝ 3) * σ) up) :
    Views M.toMatrix d.data up.data σ where
  rotation := by
    rw [Matrix.mem_specialOrthogonalGroup_iff, Matrix.mem_orthogonalGroup_iff', ← leibniz_eq]
    refine ⟨?_, h.rotation.det_one⟩
    have := congrArg Mat.toMatrix h.rotation.transpose_mul
    rwa [toMatrix_mul, toMatrix_identity, toMatrix_transpose] at this
  forward := by
    have e := Vec.normalize_mul_norm hd
    have e2 : M * d = (Vec.unitZ3 : Vec ℝ 3) * σ * d.norm := by
      rw [← h.forward]
      conv_lhs => rw [← e]
      ext i; simp [mulVec_data, Finset.sum_mul, mul_assoc]
    have e3 : M.toMatrix.mulVec d.data = (M * d).data := by ext i; simp [Matrix.mulVec, dotProduct, mulVec_data]
    have e4 : d.norm = Real.sqrt (∑ i, d.data i ^ 2) := by
      rw [Vec.norm_def, Vec.normSquared, Vec.dot_eq_sum]; simp [pow_two]
    rw [e3, e2, ← e4]
    ext i; fin_cases i <;> simp [Vec.unitZ3]
  sideways := by
    have e3 : M.toMatrix.mulVec up.data = (M * up).data := by ext i; simp [Matrix.mulVec, dotProduct, mulVec_data]
    rw [e3]; exact h.up_x
  upwards := by
    have e3 : M.toMatrix.mulVec up.data = (M * up).data := by ext i; simp [Matrix.mulVec, dotProduct, mulVec_data]
    rw [e3]; exact h.up_y

/-- Computed matrices `M`, `M'` and quaternions `q`, `q'` that represent the view rotation and its inverse: the entries of the
matrices are off by at most `ε`, the components of the quaternions by at most `4 ε`. -/
def Spec.Represent (M M' : Mat (Ieee f64) 3 3) (q q' : Quat (Ieee f64)) (direction up : Fin 3 → ℝ) (sense ε : ℝ) : Prop :=
  ∃ A, Views A direction up sense ∧ MatWithin M A ε ∧ MatWithin M' A.transpose ε ∧
    (∃ h, Describes h A ∧ QuatWithin q h (4 * ε)) ∧ ∃ h, Describes h A.transpose ∧ QuatWithin q' h (4 * ε)

theorem represent_of [Lib f64] {M M' : Mat (Ieee f64) 3 3} {X : Mat ℝ 3 3} {d up : Fin 3 → ℝ} {σ ε : ℝ} (hX : Views X.toMatrix d up σ)
    (h1 : Near M X ε) (h2 : Near M' X.transpose ε) (hε : 156 * 2 ^ (-53 : ℤ) ≤ ε) (hε' : ε ≤ 1 / 1000) :
    Represent M M' (Quat.fromMatrix M) (Quat.fromMatrix M') d up σ ε := by
  have hu : 12 * unit f64 ≤ ε := by
    have h3 : (2 : ℝ) ^ (-1075 : ℤ) ≤ 2 ^ (-53 : ℤ) := zpow_le_zpow_right₀ one_le_two (by norm_num)
    have := unit64
    have h4 : (0 : ℝ) ≤ 2 ^ (-53 : ℤ) := by positivity
    linarith
  have m1 : MatWithin M X.toMatrix ε := h1
  have m2 : MatWithin M' X.toMatrix.transpose ε := by
    rw [← toMatrix_transpose]; exact h2
  have ht : X.toMatrix.transpose ∈ Matrix.specialOrthogonalGroup (Fin 3) ℝ := by
    have := hX.rotation
    rw [Matrix.mem_specialOrthogonalGroup_iff] at this ⊢
    rw [Matrix.det_transpose]
    refine ⟨?_, this.2⟩
    have h3 := this.1
    rw [Matrix.mem_orthogonalGroup_iff'] at h3
    rw [Matrix.mem_orthogonalGroup_iff]
    exact h3
  obtain ⟨h, e1, e2⟩ := C91_from_rotation fine64 hX.rotation m1 hε'
  obtain ⟨h', e3, e4⟩ := C91_from_rotation fine64 ht m2 hε'
  exact ⟨_, hX, m1, m2, ⟨h, e1, e2.mono (by linarith)⟩, ⟨h', e3, e4.mono (by linarith)⟩⟩

theorem Spec.Sight.facts {d up : Vec ℝ 3} {s : ℝ} (h : Sight d up s) (hs : (2 : ℝ) ^ (-35 : ℤ) ≤ s) :
    up.cross d ≠ 0 ∧ d ≠ 0 ∧ 156 * 2 ^ (-53 : ℤ) ≤ 156 * 2 ^ (-53 : ℤ) / s ∧ 156 * 2 ^ (-53 : ℤ) / s ≤ 1 / 1000 := by
  have hs0 : 0 < s := lt_of_lt_of_le (by positivity) hs
  have hs1 : s ≤ 1 := h.sine_ge.trans (Real.sin_le_one _)
  have hd : 0 < ‖toE d‖ := lt_of_lt_of_le (by positivity) h.direction_ge
  have hu : 0 < ‖toE up‖ := lt_of_lt_of_le (by positivity) h.up_ge
  refine ⟨fun h0 => ?_, fun h0 => ?_, ?_, ?_⟩
  · have := h.cross
    rw [h0, toE_norm 0, show (0 : Vec ℝ 3).norm = 0 by simp [Vec.norm_def, Vec.normSquared, Vec.dot_eq_sum]] at this
    exact absurd this (not_le.mpr (by positivity))
  · rw [h0, toE_norm, show (0 : Vec ℝ 3).norm = 0 by simp [Vec.norm_def, Vec.normSquared, Vec.dot_eq_sum]] at hd
    exact lt_irrefl _ hd
  · rw [le_div_iff₀ hs0]
    exact mul_le_of_le_one_right (by positivity) hs1
  · rw [div_le_iff₀ hs0]
    norm_num at hs ⊢
    linarith

theorem unitZ_one : (Vec.unitZ3 : Vec ℝ 3) = (Vec.unitZ3 : Vec ℝ 3) * (1 : ℝ) := by ext i; simp
theorem unitZ_neg : -(Vec.unitZ3 : Vec ℝ 3) = (Vec.unitZ3 : Vec ℝ 3) * (-1 : ℝ) := by ext i; simp

/-- Looking along a direction: the matrices and quaternions computed in `f64` represent the view rotation, left-handed and
right-handed, and its inverse. -/
theorem C87_view_to [Lib f64] (direction up : Vec (Ieee f64) 3) (s : ℝ) (hd : FiniteVec direction) (hu : FiniteVec up)
    (h : Sight (realVec direction) (realVec up) s) (hs : (2 : ℝ) ^ (-35 : ℤ) ≤ s) :
    Represent (lookToLh3 direction up) (lookToLhInv3 direction up) (Quat.lookToLh direction up) (Quat.lookToLhInv direction up)
      (fun i => (direction.data i).val) (fun i => (up.data i).val) 1 (156 * 2 ^ (-53 : ℤ) / s) ∧
    Represent (lookToRh3 direction up) (lookToRhInv3 direction up) (Quat.lookToRh direction up) (Quat.lookToRhInv direction up)
      (fun i => (direction.data i).val) (fun i => (up.data i).val) (-1) (156 * 2 ^ (-53 : ℤ) / s) := by
  obtain ⟨hc, h0, e1, e2⟩ := h.facts hs
  obtain ⟨n1, n2, n3, n4⟩ := C87_look_to3 direction up s hd hu h
  have v1 := C28_look_to_lh3 hc
  have v2 := C28_look_to_rh3 hc
  rw [unitZ_one] at v1
  rw [unitZ_neg] at v2
  exact ⟨represent_of (views_of h0 v1) n1 n3 e1 e2, represent_of (views_of h0 v2) n2 n4 e1 e2⟩

/-- Looking from an eye at a target. -/
theorem C87_view_at [Lib f64] (eye target : Pt (Ieee f64) 3) (up : Vec (Ieee f64) 3) (s : ℝ) (he : FiniteVec eye.coords)
    (ht : FiniteVec target.coords) (hu : FiniteVec up) (h : Sight (realPt target - realPt eye) (realVec up) s)
    (hs : (2 : ℝ) ^ (-35 : ℤ) ≤ s) :
    Represent (lookAtLh3 eye target up) (lookAtLhInv3 eye target up) (Quat.lookAtLh eye target up) (Quat.lookAtLhInv eye target up)
      (fun i => (target.coords.data i).val - (eye.coords.data i).val) (fun i => (up.data i).val) 1 (156 * 2 ^ (-53 : ℤ) / s) ∧
    Represent (lookAtRh3 eye target up) (lookAtRhInv3 eye target up) (Quat.lookAtRh eye target up) (Quat.lookAtRhInv eye target up)
      (fun i => (target.coords.data i).val - (eye.coords.data i).val) (fun i => (up.data i).val) (-1) (156 * 2 ^ (-53 : ℤ) / s) := by
  obtain ⟨hc, h0, e1, e2⟩ := h.facts hs
  obtain ⟨n1, n2, n3, n4⟩ := C87_look_at3 eye target up s he ht hu h
  have v1 := C28_look_to_lh3 hc
  have v2 := C28_look_to_rh3 hc
  rw [unitZ_one] at v1
  rw [unitZ_neg] at v2
  have w1 := views_of h0 v1
  have w2 := views_of h0 v2
  have ed : (realPt target - realPt eye : Vec ℝ 3).data = fun i => (target.coords.data i).val - (eye.coords.data i).val := by
    ext i; simp [realPt, realVec]
  rw [ed] at w1 w2
  exact ⟨represent_of (X := lookAtLh3 (realPt eye) (realPt target) (realVec up)) w1 n1 n3 e1 e2,
    represent_of (X := lookAtRh3 (realPt eye) (realPt target) (realVec up)) w2 n2 n4 e1 e2⟩

/-- The view rotation is the only one that does so. -/
theorem C87_views_unique {A B : Matrix (Fin 3) (Fin 3) ℝ} {d up : Fin 3 → ℝ} {σ : ℝ} (hσ : σ ≠ 0) (hd : d ≠ 0) (hA : Views A d up σ)
    (hB : Views B d up σ) : A = B := by
  have hn : 0 < Real.sqrt (∑ i, d i ^ 2) := by
    refine Real.sqrt_pos.mpr (lt_of_le_of_ne (Finset.sum_nonneg fun i _ => sq_nonneg _) fun h0 => hd ?_)
    ext i
    have := (Finset.sum_eq_zero_iff_of_nonneg (fun i _ => sq_nonneg (d i))).mp h0.symm i (Finset.mem_univ _)
    simpa using this
  set N := σ * Real.sqrt (∑ i, d i ^ 2) with hN
  have hN0 : N ≠ 0 := mul_ne_zero hσ hn.ne'
  have key : ∀ {C : Matrix (Fin 3) (Fin 3) ℝ}, Views C d up σ →
      (∀ i, d i = N * C 2 i) ∧ (∀ i, up i = C.mulVec up 1 * C 1 i + C.mulVec up 2 * C 2 i) ∧
      (C 1 0 ^ 2 + C 1 1 ^ 2 + C 1 2 ^ 2 = 1) ∧ C.adjugate = C.transpose := by
    intro C hC
    obtain ⟨h1, h2⟩ := Matrix.mem_specialOrthogonalGroup_iff.mp hC.rotation
    have h3 := (Matrix.mem_orthogonalGroup_iff _ _).mp h1
    have h4 := (Matrix.mem_orthogonalGroup_iff' _ _).mp h1
    have h3' : C * C.transpose = 1 := h3
    have h4' : C.transpose * C = 1 := h4
    have back : ∀ v : Fin 3 → ℝ, v = C.transpose.mulVec (C.mulVec v) := fun v => by
      rw [Matrix.mulVec_mulVec, h4', Matrix.one_mulVec]
    refine ⟨fun i => ?_, fun i => ?_, ?_, ?_⟩
    · conv_lhs => rw [back d, hC.forward, ← hN]
      simp [Matrix.mulVec, dotProduct, Fin.sum_univ_three]
      ring
    · conv_lhs => rw [back up]
      have := hC.sideways
      simp only [Matrix.mulVec, dotProduct, Fin.sum_univ_three, Matrix.transpose_apply] at this ⊢
      rw [this]; ring
    · have := congrFun (congrFun h3' 1) 1
      simp only [Matrix.mul_apply, Fin.sum_univ_three, Matrix.transpose_apply, Matrix.one_apply_eq] at this
      linarith
    · have h5 : C * C.adjugate = 1 := by rw [Matrix.mul_adjugate, h2, one_smul]
      calc C.adjugate = C.transpose * C * C.adjugate := by rw [h4', one_mul]
        _ = _ := by rw [mul_assoc, h5, mul_one]
  obtain ⟨a1, a2, a3, a4⟩ := key hA
  obtain ⟨b1, b2, b3, b4⟩ := key hB
  have r2 : ∀ i, A 2 i = B 2 i := fun i => mul_left_cancel₀ hN0 ((a1 i).symm.trans (b1 i))
  have e2 : A.mulVec up 2 = B.mulVec up 2 := by
    simp only [Matrix.mulVec, dotProduct, Fin.sum_univ_three, r2]
  have ha := hA.upwards
  have hb := hB.upwards
  generalize A.mulVec up 1 = a at a2 ha
  generalize B.mulVec up 1 = b at b2 hb
  have r1' : ∀ i, a * A 1 i = b * B 1 i := fun i => by
    have := (a2 i).symm.trans (b2 i)
    rw [e2, r2] at this
    linarith
  have hab : a = b := by
    have e : a ^ 2 = b ^ 2 := by
      have h0 := r1' 0; have h1 := r1' 1; have h2 := r1' 2
      calc a ^ 2 = (a * A 1 0) ^ 2 + (a * A 1 1) ^ 2 + (a * A 1 2) ^ 2 := by linear_combination (-(a ^ 2)) * a3
        _ = (b * B 1 0) ^ 2 + (b * B 1 1) ^ 2 + (b * B 1 2) ^ 2 := by rw [h0, h1, h2]
        _ = b ^ 2 := by linear_combination (b ^ 2) * b3
    exact (pow_left_inj₀ ha.le hb.le two_ne_zero).mp e
  have r1 : ∀ i, A 1 i = B 1 i := fun i => by
    have := r1' i
    rw [hab] at this
    exact mul_left_cancel₀ hb.ne' this
  have r0 : ∀ i, A 0 i = B 0 i := fun i => by
    have h1 := congrFun (congrFun a4 i) 0
    have h2 := congrFun (congrFun b4 i) 0
    rw [Matrix.adjugate_fin_three, Matrix.transpose_apply] at h1 h2
    rw [← h1, ← h2]
    fin_cases i <;> simp [r1, r2]
  ext i j
  fin_cases i
  · exact r0 j
  · exact r1 j
  · exact r2 j

/-- looking along the first axis with the second one up: what the matrix is -/
example : Views !![0, 0, -1; 0, 1, 0; 1, 0, 0] ![1, 0, 0] ![0, 1, 0] 1 where
  rotation := by
    rw [Matrix.mem_specialOrthogonalGroup_iff, Matrix.mem_orthogonalGroup_iff]
    constructor
    · ext i j; fin_cases i <;> fin_cases j <;> simp [Matrix.mul_apply, Fin.sum_univ_three, star]
    · simp [Matrix.det_fin_three]
  forward := by ext i; fin_cases i <;> simp [Matrix.mulVec, dotProduct, Fin.sum_univ_three]
  sideways := by simp [Matrix.mulVec, dotProduct, Fin.sum_univ_three]
  upwards := by simp [Matrix.mulVec, dotProduct, Fin.sum_univ_three]

end Cgl
