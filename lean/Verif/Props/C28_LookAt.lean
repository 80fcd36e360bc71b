import Verif.Lemmas.Frame

/-! # C28 - look-to / look-at view transforms (matrices)

General position is `up.cross(direction) != 0`: neither vector is zero and they are not parallel. -/

namespace Cgl
open Mat

/-- what a view rotation `M` has to do: be a rotation, send the unit vector `z` to `e`, and send `up` into the
half plane x = 0, y > 0 -/
structure Spec.IsViewRotation (M : Mat ℝ 3 3) (z e up : Vec ℝ 3) : Prop where
  rotation : Spec.IsRotation M
  forward : M * z = e
  up_x : (M * up).data 0 = 0
  up_y : 0 < (M * up).data 1

variable (direction up : Vec ℝ 3)

theorem normalize_neg {n : ℕ} (v : Vec ℝ n) : (-v).normalize = -v.normalize := by
  have h : -v = v * (-1 : ℝ) := by ext i; simp
  have hn : (-v).norm = v.norm := by rw [h, Vec.norm_mulS]; simp
  ext i; simp [Vec.normalize_def, hn]

theorem dot_neg_neg {n : ℕ} (v : Vec ℝ n) : (-v).dot (-v) = v.dot v := by
  simp [Vec.dot_eq_sum]

theorem lookToLh3_eq :
    lookToLh3 direction up =
      let z := direction.normalize
      let x := (up.cross z).normalize
      rowsOf x (z.cross x).normalize z := rfl

theorem lookToRh3_eq :
    lookToRh3 direction up =
      let z := -direction.normalize
      let x := (up.cross z).normalize
      rowsOf x (z.cross x).normalize z := rfl

theorem lh_cross_ne {direction up : Vec ℝ 3} (h : up.cross direction ≠ 0) :
    up.cross direction.normalize ≠ 0 := by
  have hd := (Vec.ne_zero_of_cross_ne h).2
  rw [Vec.normalize_def, Vec.cross_mulS]
  exact Vec.mulS_ne_zero h (one_div_ne_zero (Vec.norm_pos hd).ne')

theorem rh_cross_ne {direction up : Vec ℝ 3} (h : up.cross direction ≠ 0) :
    up.cross (-direction.normalize) ≠ 0 := by
  have e : -direction.normalize = direction.normalize * (-1 : ℝ) := by ext i; simp
  rw [e, Vec.cross_mulS]
  exact Vec.mulS_ne_zero (lh_cross_ne h) (by norm_num)

private theorem frame_view {x y z up : Vec ℝ 3} (hf : IsFrame x y z) (h1 : up.dot x = 0) (h2 : 0 < up.dot y) :
    Spec.IsViewRotation (rowsOf x y z) z Vec.unitZ3 up := by
  refine ⟨hf.rotation, ?_, ?_, ?_⟩
  · rw [rowsOf_mul, hf.xz, hf.yz, hf.zz]; rfl
  · rw [rowsOf_mul]; simp only [Vec.dot3] at *; simp; linarith
  · rw [rowsOf_mul]; simp only [Vec.dot3] at *; simp; linarith

variable {direction up}

/-- left-handed: the direction becomes +z -/
theorem C28_look_to_lh3 (h : up.cross direction ≠ 0) :
    Spec.IsViewRotation (lookToLh3 direction up) direction.normalize Vec.unitZ3 up := by
  have hd := (Vec.ne_zero_of_cross_ne h).2
  obtain ⟨hf, h1, h2⟩ := isFrame_of (Vec.normalize_dot_self hd) (lh_cross_ne h)
  rw [lookToLh3_eq]
  exact frame_view hf h1 h2

/-- right-handed: the direction becomes -z -/
theorem C28_look_to_rh3 (h : up.cross direction ≠ 0) :
    Spec.IsViewRotation (lookToRh3 direction up) direction.normalize (-Vec.unitZ3) up := by
  have hd := (Vec.ne_zero_of_cross_ne h).2
  obtain ⟨hf, h1, h2⟩ := isFrame_of (z := -direction.normalize) (up := up)
    (by rw [dot_neg_neg]; exact Vec.normalize_dot_self hd) (rh_cross_ne h)
  obtain ⟨a, b, c, d⟩ := frame_view hf h1 h2
  rw [lookToRh3_eq]
  refine ⟨a, ?_, c, d⟩
  rw [← b]
  ext i; simp [mulVec_data, Finset.sum_neg_distrib]

/-- `look_at(eye, target, up)` is `look_to(target - eye, up)` -/
theorem C28_look_at3 (eye target : Pt ℝ 3) (up : Vec ℝ 3) :
    lookAtLh3 eye target up = lookToLh3 (target - eye) up ∧
    lookAtRh3 eye target up = lookToRh3 (target - eye) up := ⟨rfl, rfl⟩

/-! ### the 4x4 versions: the 3x3 rotation applied to `p - eye` -/

variable (direction up)

theorem C28_look_to_lh4_action (eye p : Pt ℝ 3) : lookToLh4 eye direction up * p.toHomogeneous =
    (Pt.mk (lookToLh3 direction up * (p - eye))).toHomogeneous := by
  rw [lookToLh3_eq, Pt.toHomogeneous, Pt.toHomogeneous, mulVec4_extend, extend3_eq, rowsOf_mul]
  apply Vec.ext4 <;> simp [lookToLh4, Vec.dot3] <;> ring

theorem C28_look_to_rh4_action (eye p : Pt ℝ 3) : lookToRh4 eye direction up * p.toHomogeneous =
    (Pt.mk (lookToRh3 direction up * (p - eye))).toHomogeneous := by
  rw [lookToRh3_eq, Pt.toHomogeneous, Pt.toHomogeneous, mulVec4_extend, extend3_eq, rowsOf_mul]
  apply Vec.ext4 <;> simp [lookToRh4, Vec.dot3, normalize_neg] <;> ring

/-- on free vectors the 4x4 versions act by the rotation -/
theorem C28_look_to4_vector (eye : Pt ℝ 3) (v : Vec ℝ 3) :
    lookToLh4 eye direction up * v.extend 0 = (lookToLh3 direction up * v).extend 0 ∧
    lookToRh4 eye direction up * v.extend 0 = (lookToRh3 direction up * v).extend 0 := by
  constructor
  · rw [lookToLh3_eq, mulVec4_extend, extend3_eq, rowsOf_mul]
    apply Vec.ext4 <;> simp [lookToLh4, Vec.dot3]
  · rw [lookToRh3_eq, mulVec4_extend, extend3_eq, rowsOf_mul]
    apply Vec.ext4 <;> simp [lookToRh4, Vec.dot3, normalize_neg]

/-- the eye goes to the origin (for every direction and up) -/
theorem C28_eye_to_origin (eye : Pt ℝ 3) :
    lookToLh4 eye direction up * eye.toHomogeneous = (Pt.origin : Pt ℝ 3).toHomogeneous ∧
    lookToRh4 eye direction up * eye.toHomogeneous = (Pt.origin : Pt ℝ 3).toHomogeneous := by
  rw [C28_look_to_lh4_action, C28_look_to_rh4_action]
  constructor <;> congr 1 <;> apply Pt.ext_data <;> intro i <;> simp [mulVec_data]

variable {up}

private theorem mul_mulS (M : Mat ℝ 3 3) (v : Vec ℝ 3) (k : ℝ) : M * (v * k) = (M * v) * k := by
  ext i; simp [mulVec_data, Finset.sum_mul, mul_assoc]

/-- `look_at`: the target lands on the +z (left-handed) or -z (right-handed) axis, at its distance
from the eye -/
theorem C28_look_at_target (eye target : Pt ℝ 3) (h : up.cross (target - eye) ≠ 0) :
    lookAtLh4 eye target up * target.toHomogeneous =
      (Pt.new3 0 0 (target - eye).norm).toHomogeneous ∧
    lookAtRh4 eye target up * target.toHomogeneous =
      (Pt.new3 0 0 (-(target - eye).norm)).toHomogeneous := by
  have hd := (Vec.ne_zero_of_cross_ne h).2
  have e := Vec.normalize_mul_norm hd
  constructor
  · rw [lookAtLh4, C28_look_to_lh4_action]; congr 1
    nth_rewrite 2 [← e]
    rw [mul_mulS, (C28_look_to_lh3 h).forward]
    apply Pt.ext_data; intro i; fin_cases i <;> simp [Vec.unitZ3, Pt.new3]
  · rw [lookAtRh4, C28_look_to_rh4_action]; congr 1
    nth_rewrite 2 [← e]
    rw [mul_mulS, (C28_look_to_rh3 h).forward]
    apply Pt.ext_data; intro i; fin_cases i <;> simp [Vec.unitZ3, Pt.new3]

/-- the view matrices preserve distances between points -/
theorem C28_look_to_lh4_isometry (eye p q : Pt ℝ 3) (h : up.cross direction ≠ 0) (p' q' : Pt ℝ 3)
    (hp : lookToLh4 eye direction up * p.toHomogeneous = p'.toHomogeneous)
    (hq : lookToLh4 eye direction up * q.toHomogeneous = q'.toHomogeneous) :
    p'.metricDistanceSquared q' = p.metricDistanceSquared q := by
  have inj : ∀ a b : Pt ℝ 3, a.toHomogeneous = b.toHomogeneous → a = b := by
    intro a b hab
    have := congrArg Vec.contract hab
    simp only [Pt.toHomogeneous, Vec.contract_extend] at this
    exact Pt.ext this
  rw [C28_look_to_lh4_action] at hp hq
  rw [← inj _ _ hp, ← inj _ _ hq]
  have hr := (C28_look_to_lh3 h).rotation.transpose_mul
  set M := lookToLh3 direction up
  have key : ∀ v : Vec ℝ 3, (M * v).dot (M * v) = v.dot v := by
    intro v
    have h1 : (M * v).dot (M * v) = v.dot (M.transpose * (M * v)) := by
      simp [Vec.dot3, mulVec3]; ring
    rw [h1, ← mul_mulVec, hr, identity_mulVec]
  have e : M * (p - eye) - M * (q - eye) = M * (p.coords - q.coords) := by
    ext i
    simp only [Vec.sub_data, mulVec_data, ← Finset.sum_sub_distrib]
    refine Finset.sum_congr rfl fun j _ => ?_
    simp; ring
  simp only [Pt.metricDistanceSquared, Vec.metricDistanceSquared, Vec.normSquared]
  rw [e, key]

/-- a concrete configuration in general position, with a slanted direction -/
example : (Vec.new3 0 1 0 : Vec ℝ 3).cross (Vec.new3 1 2 2) ≠ 0 := by
  intro h
  have := congrArg (fun v : Vec ℝ 3 => v.data 0) h
  simp [Vec.cross] at this

end Cgl
