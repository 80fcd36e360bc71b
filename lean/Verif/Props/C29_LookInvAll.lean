import Verif.Props.C29_LookInv
import Verif.Props.C28_LookAtAll

/-! # C29 - the `look_*_inv` transforms of quaternions, rotations, isometries and similarities

Quaternions and rotations are inverted. Isometries and similarities are not: the translation of the claimed
inverse is the eye rotated back and negated, where an inverse needs the eye itself, so they invert the view
transform exactly when the view rotation sends the eye to its opposite. -/

namespace Cgl
open Mat

variable {direction up : Vec ℝ 3}

/-! ### rotations and quaternions -/

theorem C29_rotation_inv (eye target : Pt ℝ 3) :
    (up.cross direction ≠ 0 →
      Rotation.lookToLhInv direction up * Rotation.lookToLh direction up = Rotation.identity ∧
      Rotation.lookToLh direction up * Rotation.lookToLhInv direction up = Rotation.identity ∧
      Rotation.lookToRhInv direction up * Rotation.lookToRh direction up = Rotation.identity ∧
      Rotation.lookToRh direction up * Rotation.lookToRhInv direction up = Rotation.identity) ∧
    (up.cross (target - eye) ≠ 0 →
      Rotation.lookAtLhInv eye target up * Rotation.lookAtLh eye target up = Rotation.identity ∧
      Rotation.lookAtLh eye target up * Rotation.lookAtLhInv eye target up = Rotation.identity ∧
      Rotation.lookAtRhInv eye target up * Rotation.lookAtRh eye target up = Rotation.identity ∧
      Rotation.lookAtRh eye target up * Rotation.lookAtRhInv eye target up = Rotation.identity) := by
  refine ⟨fun h => ?_, fun h => ?_⟩
  · have a := C29_look_to_lh3_inv h
    have b := C29_look_to_rh3_inv h
    exact ⟨Rotation.ext a.1, Rotation.ext a.2, Rotation.ext b.1, Rotation.ext b.2⟩
  · have a := C29_look_at_lh3_inv eye target h
    have b := C29_look_at_rh3_inv eye target h
    exact ⟨Rotation.ext a.1, Rotation.ext a.2, Rotation.ext b.1, Rotation.ext b.2⟩

/-- Quaternions: the inverse is a unit quaternion whose rotation undoes the view rotation. (As quaternions
the two may differ from inverses by a sign.) -/
theorem C29_quaternion_inv (h : up.cross direction ≠ 0) :
    (Quat.lookToLhInv direction up).norm = 1 ∧ (Quat.lookToRhInv direction up).norm = 1 ∧
    (Quat.lookToLhInv direction up).toMatrix * (Quat.lookToLh direction up).toMatrix = identity ∧
    (Quat.lookToRhInv direction up).toMatrix * (Quat.lookToRh direction up).toMatrix = identity := by
  have a := (C28_look_to_lh3 h).rotation
  have b := (C28_look_to_rh3 h).rotation
  have a' : Spec.IsRotation (lookToLhInv3 direction up) := a.transpose
  have b' : Spec.IsRotation (lookToRhInv3 direction up) := b.transpose
  refine ⟨(C42_from_matrix a').1, (C42_from_matrix b').1, ?_, ?_⟩
  · rw [Quat.lookToLhInv, Quat.lookToLh, (C42_from_matrix a').2, (C42_from_matrix a).2]
    exact (C29_look_to_lh3_inv h).1
  · rw [Quat.lookToRhInv, Quat.lookToRh, (C42_from_matrix b').2, (C42_from_matrix b).2]
    exact (C29_look_to_rh3_inv h).1

theorem C29_quaternion_at_inv (eye target : Pt ℝ 3) (h : up.cross (target - eye) ≠ 0) :
    (Quat.lookAtLhInv eye target up).norm = 1 ∧ (Quat.lookAtRhInv eye target up).norm = 1 ∧
    (Quat.lookAtLhInv eye target up).toMatrix * (Quat.lookAtLh eye target up).toMatrix = identity ∧
    (Quat.lookAtRhInv eye target up).toMatrix * (Quat.lookAtRh eye target up).toMatrix = identity :=
  C29_quaternion_inv h

/-! ### isometries and similarities -/

private theorem inv_iff {R : Mat ℝ 3 3} (hR : Spec.IsRotation R) (eye : Pt ℝ 3) {V W : Isometry ℝ 3}
    (hV : V.rotation.matrix = R)
    (hVt : V.translation.vector = (⟨R⟩ : Rotation ℝ 3).applyPoint (-eye) - (Pt.origin : Pt ℝ 3))
    (hW : W.rotation.matrix = R.transpose)
    (hWt : W.translation.vector = (⟨R.transpose⟩ : Rotation ℝ 3).applyPoint (-eye) - (Pt.origin : Pt ℝ 3)) :
    (W * V = Isometry.identity ↔ R * eye.coords = -eye.coords) ∧
    (V * W = Isometry.identity ↔ R * eye.coords = -eye.coords) := by
  have t1 : V.translation.vector = -(R * eye.coords) := by
    rw [hVt]; ext i
    have e := congrArg (fun v : Vec ℝ 3 => v.data i) (C54_apply (⟨R⟩ : Rotation ℝ 3) (-eye) 0).2
    simp only [mulVec_data] at e
    simp [e, mulVec_data, Pt.origin, Finset.sum_neg_distrib]
  have t2 : W.translation.vector = -(R.transpose * eye.coords) := by
    rw [hWt]; ext i
    have e := congrArg (fun v : Vec ℝ 3 => v.data i) (C54_apply (⟨R.transpose⟩ : Rotation ℝ 3) (-eye) 0).2
    simp only [mulVec_data] at e
    simp [e, mulVec_data, Pt.origin, Finset.sum_neg_distrib]
  have neg : ∀ (M : Mat ℝ 3 3) (v : Vec ℝ 3), M * (-v) = -(M * v) := by
    intro M v; ext i; simp [mulVec_data, Finset.sum_neg_distrib]
  have cancel1 : ∀ v : Vec ℝ 3, R.transpose * (R * v) = v := fun v => by
    rw [← mul_mulVec, hR.transpose_mul, identity_mulVec]
  have cancel2 : ∀ v : Vec ℝ 3, R * (R.transpose * v) = v := fun v => by
    rw [← mul_mulVec, hR.mul_transpose, identity_mulVec]
  have back : R.transpose * eye.coords = -eye.coords ↔ R * eye.coords = -eye.coords := by
    constructor
    · intro h
      have := congrArg (fun v : Vec ℝ 3 => R * v) h
      simp only [cancel2, neg] at this
      ext i; have := congrArg (fun v : Vec ℝ 3 => v.data i) this; simp at this ⊢; linarith
    · intro h
      have := congrArg (fun v : Vec ℝ 3 => R.transpose * v) h
      simp only [cancel1, neg] at this
      ext i; have := congrArg (fun v : Vec ℝ 3 => v.data i) this; simp at this ⊢; linarith
  have id1 : (Isometry.identity : Isometry ℝ 3).rotation.matrix = identity := rfl
  have id2 : (Isometry.identity : Isometry ℝ 3).translation.vector = 0 := rfl
  constructor
  · have m := Isometry.mul_parts W V
    rw [hW, hV, hR.transpose_mul, t1, t2, neg, cancel1] at m
    rw [← back]
    constructor
    · intro h
      have := (congrArg (fun t : Isometry ℝ 3 => t.translation.vector) h)
      rw [m.2, id2] at this
      ext i; have := congrArg (fun v : Vec ℝ 3 => v.data i) this; simp at this ⊢; linarith
    · intro h
      apply Isometry.ext_parts
      · rw [m.1, id1]
      · rw [m.2, id2, h]; ext i; simp
  · have m := Isometry.mul_parts V W
    rw [hW, hV, hR.mul_transpose, t1, t2, neg, cancel2] at m
    constructor
    · intro h
      have := (congrArg (fun t : Isometry ℝ 3 => t.translation.vector) h)
      rw [m.2, id2] at this
      ext i; have := congrArg (fun v : Vec ℝ 3 => v.data i) this; simp at this ⊢; linarith
    · intro h
      apply Isometry.ext_parts
      · rw [m.1, id1]
      · rw [m.2, id2, h]; ext i; simp

/-- `Isometry3::look_to_*_inv` inverts `Isometry3::look_to_*` if and only if the view rotation sends the eye
to its opposite. -/
theorem C29_isometry_inv_iff (eye : Pt ℝ 3) (h : up.cross direction ≠ 0) :
    (Isometry.lookToLhInv eye direction up * Isometry.lookToLh eye direction up = Isometry.identity ↔
      lookToLh3 direction up * eye.coords = -eye.coords) ∧
    (Isometry.lookToLh eye direction up * Isometry.lookToLhInv eye direction up = Isometry.identity ↔
      lookToLh3 direction up * eye.coords = -eye.coords) ∧
    (Isometry.lookToRhInv eye direction up * Isometry.lookToRh eye direction up = Isometry.identity ↔
      lookToRh3 direction up * eye.coords = -eye.coords) ∧
    (Isometry.lookToRh eye direction up * Isometry.lookToRhInv eye direction up = Isometry.identity ↔
      lookToRh3 direction up * eye.coords = -eye.coords) := by
  have a := inv_iff (C28_look_to_lh3 h).rotation eye (V := Isometry.lookToLh eye direction up)
    (W := Isometry.lookToLhInv eye direction up) rfl rfl rfl rfl
  have b := inv_iff (C28_look_to_rh3 h).rotation eye (V := Isometry.lookToRh eye direction up)
    (W := Isometry.lookToRhInv eye direction up) rfl rfl rfl rfl
  exact ⟨a.1, a.2, b.1, b.2⟩

theorem C29_isometry_at_inv_iff (eye target : Pt ℝ 3) (h : up.cross (target - eye) ≠ 0) :
    (Isometry.lookAtLhInv eye target up * Isometry.lookAtLh eye target up = Isometry.identity ↔
      lookAtLh3 eye target up * eye.coords = -eye.coords) ∧
    (Isometry.lookAtRhInv eye target up * Isometry.lookAtRh eye target up = Isometry.identity ↔
      lookAtRh3 eye target up * eye.coords = -eye.coords) :=
  ⟨(C29_isometry_inv_iff eye h).1, (C29_isometry_inv_iff eye h).2.2.1⟩

private theorem sim_mul (i j : Isometry ℝ 3) :
    Similarity.fromIsometry i * Similarity.fromIsometry j = Similarity.identity ↔ i * j = Isometry.identity := by
  have m := Similarity.mul_parts (Similarity.fromIsometry i) (Similarity.fromIsometry j)
  have k := Isometry.mul_parts i j
  have e : ∀ v : Vec ℝ 3, v * (1 : ℝ) = v := fun v => by ext i; simp
  constructor
  · intro h
    rw [h] at m
    apply Isometry.ext_parts
    · rw [k.1]; exact m.1.symm
    · rw [k.2]
      have := m.2.1.symm
      rw [show (Similarity.fromIsometry i).scale = (1 : ℝ) from rfl, e] at this
      exact this
  · intro h
    rw [h] at k
    apply Similarity.ext_parts
    · rw [m.1]; exact k.1.symm
    · rw [m.2.1, show (Similarity.fromIsometry i).scale = (1 : ℝ) from rfl, e]; exact k.2.symm
    · rw [m.2.2]; show (1 : ℝ) * 1 = 1; norm_num

/-- the same for `Similarity3` -/
theorem C29_similarity_inv_iff (eye : Pt ℝ 3) (h : up.cross direction ≠ 0) :
    (Similarity.lookToLhInv eye direction up * Similarity.lookToLh eye direction up = Similarity.identity ↔
      lookToLh3 direction up * eye.coords = -eye.coords) ∧
    (Similarity.lookToRhInv eye direction up * Similarity.lookToRh eye direction up = Similarity.identity ↔
      lookToRh3 direction up * eye.coords = -eye.coords) := by
  simp only [Similarity.lookToLhInv, Similarity.lookToLh, Similarity.lookToRhInv, Similarity.lookToRh, sim_mul]
  exact ⟨(C29_isometry_inv_iff eye h).1, (C29_isometry_inv_iff eye h).2.2.1⟩

theorem C29_similarity_at_inv_iff (eye target : Pt ℝ 3) (h : up.cross (target - eye) ≠ 0) :
    (Similarity.lookAtLhInv eye target up * Similarity.lookAtLh eye target up = Similarity.identity ↔
      lookAtLh3 eye target up * eye.coords = -eye.coords) ∧
    (Similarity.lookAtRhInv eye target up * Similarity.lookAtRh eye target up = Similarity.identity ↔
      lookAtRh3 eye target up * eye.coords = -eye.coords) := by
  simp only [Similarity.lookAtLhInv, Similarity.lookAtLh, Similarity.lookAtRhInv, Similarity.lookAtRh, sim_mul]
  exact C29_isometry_at_inv_iff eye target h

/-- Missing from the full claim: eyes other than the origin (where the claim is false, below). -/
theorem C29_isometry_inv_origin_partial (h : up.cross direction ≠ 0) :
    Isometry.lookToLhInv Pt.origin direction up * Isometry.lookToLh Pt.origin direction up = Isometry.identity ∧
    Isometry.lookToRhInv Pt.origin direction up * Isometry.lookToRh Pt.origin direction up = Isometry.identity ∧
    Similarity.lookToLhInv Pt.origin direction up * Similarity.lookToLh Pt.origin direction up
      = Similarity.identity ∧
    Similarity.lookToRhInv Pt.origin direction up * Similarity.lookToRh Pt.origin direction up
      = Similarity.identity := by
  have h0 : ∀ M : Mat ℝ 3 3, M * (Pt.origin : Pt ℝ 3).coords = -(Pt.origin : Pt ℝ 3).coords := by
    intro M; ext i; simp [mulVec_data, Pt.origin]
  exact ⟨(C29_isometry_inv_iff _ h).1.mpr (h0 _), (C29_isometry_inv_iff _ h).2.2.1.mpr (h0 _),
    (C29_similarity_inv_iff _ h).1.mpr (h0 _), (C29_similarity_inv_iff _ h).2.mpr (h0 _)⟩

/-- Missing from the full claim: points. On free vectors the inverses undo the view transforms. -/
theorem C29_isometry_inv_vectors_partial (eye : Pt ℝ 3) (h : up.cross direction ≠ 0) (v : Vec ℝ 3) :
    (Isometry.lookToLhInv eye direction up).applyVector ((Isometry.lookToLh eye direction up).applyVector v) = v ∧
    (Isometry.lookToRhInv eye direction up).applyVector ((Isometry.lookToRh eye direction up).applyVector v)
      = v := by
  constructor
  · show lookToLhInv3 direction up * (lookToLh3 direction up * v) = v
    rw [← mul_mulVec, (C29_look_to_lh3_inv h).1, identity_mulVec]
  · show lookToRhInv3 direction up * (lookToRh3 direction up * v) = v
    rw [← mul_mulVec, (C29_look_to_rh3_inv h).1, identity_mulVec]

/-- the general claim fails: looking along +x from (1, 0, 0) with up = +y -/
theorem C29_isometry_inv_fails :
    ∃ (eye : Pt ℝ 3) (direction up : Vec ℝ 3), up.cross direction ≠ 0 ∧
      Isometry.lookToLhInv eye direction up * Isometry.lookToLh eye direction up ≠ Isometry.identity ∧
      Isometry.lookToRhInv eye direction up * Isometry.lookToRh eye direction up ≠ Isometry.identity ∧
      Similarity.lookToLhInv eye direction up * Similarity.lookToLh eye direction up ≠ Similarity.identity ∧
      Similarity.lookToRhInv eye direction up * Similarity.lookToRh eye direction up ≠ Similarity.identity := by
  have hc : (Vec.unitY3 : Vec ℝ 3).cross Vec.unitX3 ≠ 0 := by
    intro h
    have := congrArg (fun v : Vec ℝ 3 => v.data 2) h
    simp [Vec.cross, Vec.unitX3, Vec.unitY3] at this
  have hn : (Vec.unitX3 : Vec ℝ 3).normalize = Vec.unitX3 := by
    have h1 : (Vec.unitX3 : Vec ℝ 3).norm = 1 := by
      rw [Vec.norm_def, Vec.normSquared]; simp [Vec.dot3, Vec.unitX3]
    rw [Vec.normalize_def, h1]; ext i; simp
  have l : ¬ lookToLh3 (Vec.unitX3 : Vec ℝ 3) Vec.unitY3 * (⟨Vec.unitX3⟩ : Pt ℝ 3).coords = -(⟨Vec.unitX3⟩ : Pt ℝ 3).coords := by
    intro h
    have h2 := (C28_look_to_lh3 hc).forward
    rw [hn] at h2
    have := congrArg (fun v : Vec ℝ 3 => v.data 0) (h.symm.trans h2)
    simp [Vec.unitX3, Vec.unitZ3] at this
  have r : ¬ lookToRh3 (Vec.unitX3 : Vec ℝ 3) Vec.unitY3 * (⟨Vec.unitX3⟩ : Pt ℝ 3).coords = -(⟨Vec.unitX3⟩ : Pt ℝ 3).coords := by
    intro h
    have h2 := (C28_look_to_rh3 hc).forward
    rw [hn] at h2
    have := congrArg (fun v : Vec ℝ 3 => v.data 0) (h.symm.trans h2)
    simp [Vec.unitX3, Vec.unitZ3] at this
  refine ⟨⟨Vec.unitX3⟩, Vec.unitX3, Vec.unitY3, hc, ?_, ?_, ?_, ?_⟩
  · rw [Ne, (C29_isometry_inv_iff _ hc).1]; exact l
  · rw [Ne, (C29_isometry_inv_iff _ hc).2.2.1]; exact r
  · rw [Ne, (C29_similarity_inv_iff _ hc).1]; exact l
  · rw [Ne, (C29_similarity_inv_iff _ hc).2]; exact r

end Cgl
