import Verif.Props.C42_QuaternionFromMatrix
import Verif.Props.C28_LookAt
import Verif.Props.C54_Rotation
import Verif.Props.C56_Isometry
import Verif.Props.C57_Similarity

/-! # C28 - the quaternion, rotation, isometry and similarity view transforms -/

namespace Cgl
open Mat

variable {direction up : Vec ℝ 3}

/-- A rigid motion (given by its action on points and on free vectors) is the view transform for `eye`,
`direction`, `up`: it is a view rotation applied to the displacement from the eye. `forward` is the axis the
direction is mapped to. -/
def Spec.IsViewMotion (act : Pt ℝ 3 → Pt ℝ 3) (actV : Vec ℝ 3 → Vec ℝ 3) (eye : Pt ℝ 3)
    (direction forward up : Vec ℝ 3) : Prop :=
  ∃ R : Mat ℝ 3 3, Spec.IsViewRotation R direction.normalize forward up ∧
    (∀ v, actV v = R * v) ∧ ∀ p, act p = ⟨R * (p - eye)⟩

/-- the unit quaternions returned by `Quaternion::look_to_*` -/
theorem C28_quaternion_look_to (h : up.cross direction ≠ 0) :
    (Quat.lookToLh direction up).norm = 1 ∧ (Quat.lookToRh direction up).norm = 1 ∧
    Spec.IsViewRotation (Quat.lookToLh direction up).toMatrix direction.normalize Vec.unitZ3 up ∧
    Spec.IsViewRotation (Quat.lookToRh direction up).toMatrix direction.normalize (-Vec.unitZ3) up := by
  have h1 := C28_look_to_lh3 h
  have h2 := C28_look_to_rh3 h
  have e1 := C42_from_matrix h1.rotation
  have e2 := C42_from_matrix h2.rotation
  refine ⟨e1.1, e2.1, ?_, ?_⟩
  · rw [Quat.lookToLh, e1.2]; exact h1
  · rw [Quat.lookToRh, e2.2]; exact h2

theorem C28_quaternion_look_at (eye target : Pt ℝ 3) (h : up.cross (target - eye) ≠ 0) :
    (Quat.lookAtLh eye target up).norm = 1 ∧ (Quat.lookAtRh eye target up).norm = 1 ∧
    Spec.IsViewRotation (Quat.lookAtLh eye target up).toMatrix (target - eye : Vec ℝ 3).normalize Vec.unitZ3 up ∧
    Spec.IsViewRotation (Quat.lookAtRh eye target up).toMatrix (target - eye : Vec ℝ 3).normalize
      (-Vec.unitZ3) up :=
  C28_quaternion_look_to h

theorem C28_rotation_look_to (h : up.cross direction ≠ 0) :
    Spec.IsViewRotation (Rotation.lookToLh direction up).matrix direction.normalize Vec.unitZ3 up ∧
    Spec.IsViewRotation (Rotation.lookToRh direction up).matrix direction.normalize (-Vec.unitZ3) up :=
  ⟨C28_look_to_lh3 h, C28_look_to_rh3 h⟩

theorem C28_rotation_look_at (eye target : Pt ℝ 3) (h : up.cross (target - eye) ≠ 0) :
    Spec.IsViewRotation (Rotation.lookAtLh eye target up).matrix (target - eye : Vec ℝ 3).normalize
      Vec.unitZ3 up ∧
    Spec.IsViewRotation (Rotation.lookAtRh eye target up).matrix (target - eye : Vec ℝ 3).normalize
      (-Vec.unitZ3) up :=
  C28_rotation_look_to h

private theorem view_of {R : Mat ℝ 3 3} {forward : Vec ℝ 3} (eye : Pt ℝ 3) {t : Isometry ℝ 3}
    (h : Spec.IsViewRotation R direction.normalize forward up) (hr : t.rotation = ⟨R⟩)
    (ht : t.translation.vector = (⟨R⟩ : Rotation ℝ 3).applyPoint (-eye) - (Pt.origin : Pt ℝ 3)) :
    Spec.IsViewMotion t.applyPoint t.applyVector eye direction forward up := by
  refine ⟨R, h, fun v => ?_, fun p => ?_⟩
  · rw [Isometry.applyVector, hr]; rfl
  · have := (C56_apply t p 0).1
    rw [hr, ht] at this
    apply Pt.ext
    rw [this]
    ext i
    have e := congrArg (fun v : Vec ℝ 3 => v.data i) (C54_apply (⟨R⟩ : Rotation ℝ 3) (-eye) 0).2
    simp only [mulVec_data] at e
    simp [mulVec_data, Pt.origin, e, mul_add, Finset.sum_add_distrib, sub_eq_add_neg]

/-- `Isometry3::look_to_*` -/
theorem C28_isometry_look_to (eye : Pt ℝ 3) (h : up.cross direction ≠ 0) :
    Spec.IsViewMotion (Isometry.lookToLh eye direction up).applyPoint
      (Isometry.lookToLh eye direction up).applyVector eye direction Vec.unitZ3 up ∧
    Spec.IsViewMotion (Isometry.lookToRh eye direction up).applyPoint
      (Isometry.lookToRh eye direction up).applyVector eye direction (-Vec.unitZ3) up :=
  ⟨view_of eye (C28_look_to_lh3 h) rfl rfl, view_of eye (C28_look_to_rh3 h) rfl rfl⟩

/-- `Isometry3::look_at_*` -/
theorem C28_isometry_look_at (eye target : Pt ℝ 3) (h : up.cross (target - eye) ≠ 0) :
    Spec.IsViewMotion (Isometry.lookAtLh eye target up).applyPoint
      (Isometry.lookAtLh eye target up).applyVector eye (target - eye) Vec.unitZ3 up ∧
    Spec.IsViewMotion (Isometry.lookAtRh eye target up).applyPoint
      (Isometry.lookAtRh eye target up).applyVector eye (target - eye) (-Vec.unitZ3) up :=
  C28_isometry_look_to eye h

private theorem similarity_act (i : Isometry ℝ 3) :
    (Similarity.fromIsometry i).applyPoint = i.applyPoint ∧
    (Similarity.fromIsometry i).applyVector = i.applyVector := by
  constructor
  · funext p; exact (C57_embeddings (K := ℝ) p 0 i i.rotation i.translation 1).1
  · funext v; exact (C57_embeddings (K := ℝ) Pt.origin v i i.rotation i.translation 1).2.1

/-- `Similarity3::look_to_*` -/
theorem C28_similarity_look_to (eye : Pt ℝ 3) (h : up.cross direction ≠ 0) :
    Spec.IsViewMotion (Similarity.lookToLh eye direction up).applyPoint
      (Similarity.lookToLh eye direction up).applyVector eye direction Vec.unitZ3 up ∧
    Spec.IsViewMotion (Similarity.lookToRh eye direction up).applyPoint
      (Similarity.lookToRh eye direction up).applyVector eye direction (-Vec.unitZ3) up := by
  rw [Similarity.lookToLh, Similarity.lookToRh, (similarity_act _).1, (similarity_act _).2,
    (similarity_act _).1, (similarity_act _).2]
  exact C28_isometry_look_to eye h

/-- `Similarity3::look_at_*` -/
theorem C28_similarity_look_at (eye target : Pt ℝ 3) (h : up.cross (target - eye) ≠ 0) :
    Spec.IsViewMotion (Similarity.lookAtLh eye target up).applyPoint
      (Similarity.lookAtLh eye target up).applyVector eye (target - eye) Vec.unitZ3 up ∧
    Spec.IsViewMotion (Similarity.lookAtRh eye target up).applyPoint
      (Similarity.lookAtRh eye target up).applyVector eye (target - eye) (-Vec.unitZ3) up := by
  rw [Similarity.lookAtLh, Similarity.lookAtRh, (similarity_act _).1, (similarity_act _).2,
    (similarity_act _).1, (similarity_act _).2]
  exact C28_isometry_look_at eye target h

/-- What a view motion does to the eye and to the point looked at. -/
theorem C28_view_motion {act : Pt ℝ 3 → Pt ℝ 3} {actV : Vec ℝ 3 → Vec ℝ 3} {eye : Pt ℝ 3}
    {direction forward up : Vec ℝ 3} (h : Spec.IsViewMotion act actV eye direction forward up)
    (hd : direction ≠ 0) :
    act eye = Pt.origin ∧ act (eye + direction) = ⟨forward * direction.norm⟩ ∧
      actV direction.normalize = forward := by
  obtain ⟨R, hR, hv, hp⟩ := h
  refine ⟨?_, ?_, ?_⟩
  · rw [hp]; apply Pt.ext_data; intro i; simp [mulVec_data, Pt.origin]
  · rw [hp]
    have e : (eye + direction) - eye = direction.normalize * direction.norm := by
      rw [Vec.normalize_mul_norm hd]; ext i; simp
    have e2 : R * (direction.normalize * direction.norm) = (R * direction.normalize) * direction.norm := by
      ext i; simp [mulVec_data, Finset.sum_mul, mul_assoc]
    rw [e, e2, hR.forward]
  · rw [hv, hR.forward]

/-- a slanted configuration in general position -/
example : ∃ (eye target : Pt ℝ 3) (up : Vec ℝ 3), up.cross (target - eye) ≠ 0 := by
  refine ⟨Pt.new3 1 1 1, Pt.new3 2 3 3, Vec.new3 0 1 0, fun h => ?_⟩
  have := congrArg (fun v : Vec ℝ 3 => v.data 0) h
  simp [Vec.cross, Pt.new3, Vec.new3] at this
  norm_num at this

end Cgl
