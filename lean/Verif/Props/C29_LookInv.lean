import Verif.Props.C28_LookAt

/-! # C29 - the `look_*_inv` transforms (matrices)

The 3x3 versions are the inverses.  The 4x4 versions are not: the last column holds the eye's coordinates
in the view frame where an inverse needs the eye itself, so they invert the view transform exactly
when the eye is fixed by the view rotation (for instance when it is the origin). -/

namespace Cgl
open Mat

variable {direction up : Vec ℝ 3}

/-! ### 3x3 -/

theorem C29_look_to_lh3_inv (h : up.cross direction ≠ 0) :
    lookToLhInv3 direction up * lookToLh3 direction up = identity ∧
    lookToLh3 direction up * lookToLhInv3 direction up = identity :=
  ⟨(C28_look_to_lh3 h).rotation.transpose_mul, (C28_look_to_lh3 h).rotation.mul_transpose⟩

theorem C29_look_to_rh3_inv (h : up.cross direction ≠ 0) :
    lookToRhInv3 direction up * lookToRh3 direction up = identity ∧
    lookToRh3 direction up * lookToRhInv3 direction up = identity :=
  ⟨(C28_look_to_rh3 h).rotation.transpose_mul, (C28_look_to_rh3 h).rotation.mul_transpose⟩

theorem C29_look_at_lh3_inv (eye target : Pt ℝ 3) (h : up.cross (target - eye) ≠ 0) :
    lookAtLhInv3 eye target up * lookAtLh3 eye target up = identity ∧
    lookAtLh3 eye target up * lookAtLhInv3 eye target up = identity := C29_look_to_lh3_inv h

theorem C29_look_at_rh3_inv (eye target : Pt ℝ 3) (h : up.cross (target - eye) ≠ 0) :
    lookAtRhInv3 eye target up * lookAtRh3 eye target up = identity ∧
    lookAtRh3 eye target up * lookAtRhInv3 eye target up = identity := C29_look_to_rh3_inv h

/-! ### 4x4 -/

/-- what the 4x4 inverses do: rotate back and then translate by the rotated eye -/
theorem look_to_lh4_inv_action (eye p : Pt ℝ 3) (direction up : Vec ℝ 3) :
    lookToLhInv4 eye direction up * p.toHomogeneous =
      ((lookToLh3 direction up).transpose * p.coords + lookToLh3 direction up * eye.coords).extend 1 := by
  rw [lookToLh3_eq, Pt.toHomogeneous, mulVec4_extend, extend3_eq, rowsOf_mul]
  apply Vec.ext4 <;> simp [lookToLhInv4, Vec.dot3, mulVec3, rowsOf] <;> ring

theorem look_to_rh4_inv_action (eye p : Pt ℝ 3) (direction up : Vec ℝ 3) :
    lookToRhInv4 eye direction up * p.toHomogeneous =
      ((lookToRh3 direction up).transpose * p.coords + lookToRh3 direction up * eye.coords).extend 1 := by
  rw [lookToRh3_eq, Pt.toHomogeneous, mulVec4_extend, extend3_eq, rowsOf_mul]
  apply Vec.ext4 <;> simp [lookToRhInv4, Vec.dot3, mulVec3, rowsOf, normalize_neg] <;> ring

theorem look_to4_inv_vector (eye : Pt ℝ 3) (direction up v : Vec ℝ 3) :
    lookToLhInv4 eye direction up * v.extend 0 = ((lookToLh3 direction up).transpose * v).extend 0 ∧
    lookToRhInv4 eye direction up * v.extend 0 = ((lookToRh3 direction up).transpose * v).extend 0 := by
  constructor
  · rw [lookToLh3_eq, mulVec4_extend, extend3_eq]
    apply Vec.ext4 <;> simp [lookToLhInv4, mulVec3, rowsOf]
  · rw [lookToRh3_eq, mulVec4_extend, extend3_eq]
    apply Vec.ext4 <;> simp [lookToRhInv4, mulVec3, rowsOf, normalize_neg]

theorem extend_inj {n : ℕ} {a b : Vec ℝ n} {s t : ℝ} (h : a.extend s = b.extend t) : a = b := by
  have := congrArg Vec.contract h
  simpa only [Vec.contract_extend] using this

private theorem inv_iff {V W : Mat ℝ 4 4} {R : Mat ℝ 3 3} {e : Vec ℝ 3} (hR : Spec.IsRotation R)
    (hVp : ∀ p : Vec ℝ 3, V * p.extend 1 = (R * (p - e)).extend 1)
    (hVv : ∀ v : Vec ℝ 3, V * v.extend 0 = (R * v).extend 0)
    (hWp : ∀ p : Vec ℝ 3, W * p.extend 1 = (R.transpose * p + R * e).extend 1)
    (hWv : ∀ v : Vec ℝ 3, W * v.extend 0 = (R.transpose * v).extend 0) :
    (V * W = identity ↔ R * e = e) ∧ (W * V = identity ↔ R * e = e) := by
  have h1 : V * W = identity ↔ R * e = e := by
    constructor
    · intro h
      have := congrArg (fun M : Mat ℝ 4 4 => M * (0 : Vec ℝ 3).extend 1) h
      simp only [mul_mulVec, identity_mulVec, hWp, hVp] at this
      have := extend_inj this
      have h0 : R.transpose * (0 : Vec ℝ 3) = 0 := by ext i; simp [mulVec_data]
      rw [h0] at this
      have h2 := congrArg (fun v : Vec ℝ 3 => R.transpose * v) this
      simp only [← mul_mulVec, hR.transpose_mul, identity_mulVec, h0] at h2
      ext i
      have := congrArg (fun v : Vec ℝ 3 => v.data i) h2
      simp at this; linarith
    · intro h
      apply eq_of_mul_extend01
      · intro v
        rw [mul_mulVec, hWv, hVv, ← mul_mulVec, hR.mul_transpose, identity_mulVec, identity_mulVec]
      · intro p
        rw [mul_mulVec, hWp, hVp, h, identity_mulVec]
        congr 1
        have : R.transpose * p + e - e = R.transpose * p := by ext i; simp
        rw [this, ← mul_mulVec, hR.mul_transpose, identity_mulVec]
  exact ⟨h1, ⟨fun h => h1.mp (mul_comm_of_identity h), fun h => mul_comm_of_identity (h1.mpr h)⟩⟩

/-- left-handed 4x4: `look_to_lh_inv` inverts `look_to_lh` if and only if the view rotation fixes the eye -/
theorem C29_look_to_lh4_inv_iff (eye : Pt ℝ 3) (h : up.cross direction ≠ 0) :
    (lookToLh4 eye direction up * lookToLhInv4 eye direction up = identity ↔
      lookToLh3 direction up * eye.coords = eye.coords) ∧
    (lookToLhInv4 eye direction up * lookToLh4 eye direction up = identity ↔
      lookToLh3 direction up * eye.coords = eye.coords) :=
  inv_iff (C28_look_to_lh3 h).rotation (fun p => C28_look_to_lh4_action direction up eye ⟨p⟩)
    (fun v => (C28_look_to4_vector direction up eye v).1) (fun p => look_to_lh4_inv_action eye ⟨p⟩ direction up)
    (fun v => (look_to4_inv_vector eye direction up v).1)

theorem C29_look_to_rh4_inv_iff (eye : Pt ℝ 3) (h : up.cross direction ≠ 0) :
    (lookToRh4 eye direction up * lookToRhInv4 eye direction up = identity ↔
      lookToRh3 direction up * eye.coords = eye.coords) ∧
    (lookToRhInv4 eye direction up * lookToRh4 eye direction up = identity ↔
      lookToRh3 direction up * eye.coords = eye.coords) :=
  inv_iff (C28_look_to_rh3 h).rotation (fun p => C28_look_to_rh4_action direction up eye ⟨p⟩)
    (fun v => (C28_look_to4_vector direction up eye v).2) (fun p => look_to_rh4_inv_action eye ⟨p⟩ direction up)
    (fun v => (look_to4_inv_vector eye direction up v).2)

/-- the same for `look_at_*`, which are `look_to_*` with direction `target - eye` -/
theorem C29_look_at4_inv_iff (eye target : Pt ℝ 3) (h : up.cross (target - eye) ≠ 0) :
    (lookAtLhInv4 eye target up * lookAtLh4 eye target up = identity ↔
      lookAtLh3 eye target up * eye.coords = eye.coords) ∧
    (lookAtRhInv4 eye target up * lookAtRh4 eye target up = identity ↔
      lookAtRh3 eye target up * eye.coords = eye.coords) :=
  ⟨(C29_look_to_lh4_inv_iff eye h).2, (C29_look_to_rh4_inv_iff eye h).2⟩

/-- Missing from the full claim: eyes other than the origin (where the claim is false, below).
At the origin, the 4x4 inverses are inverses. -/
theorem C29_look_to4_inv_origin_partial (h : up.cross direction ≠ 0) :
    lookToLhInv4 Pt.origin direction up * lookToLh4 Pt.origin direction up = identity ∧
    lookToRhInv4 Pt.origin direction up * lookToRh4 Pt.origin direction up = identity := by
  have h0 : ∀ M : Mat ℝ 3 3, M * (Pt.origin : Pt ℝ 3).coords = (Pt.origin : Pt ℝ 3).coords := by
    intro M; ext i; simp [mulVec_data, Pt.origin]
  exact ⟨(C29_look_to_lh4_inv_iff _ h).2.mpr (h0 _), (C29_look_to_rh4_inv_iff _ h).2.mpr (h0 _)⟩

/-- Missing from the full claim: points.  On free vectors the inverses undo the view transforms. -/
theorem C29_look_to4_inv_vectors_partial (eye : Pt ℝ 3) (h : up.cross direction ≠ 0) (v : Vec ℝ 3) :
    lookToLhInv4 eye direction up * (lookToLh4 eye direction up * v.extend 0) = v.extend 0 ∧
    lookToRhInv4 eye direction up * (lookToRh4 eye direction up * v.extend 0) = v.extend 0 := by
  rw [(C28_look_to4_vector direction up eye v).1, (C28_look_to4_vector direction up eye v).2,
    (look_to4_inv_vector eye direction up _).1, (look_to4_inv_vector eye direction up _).2,
    ← mul_mulVec, ← mul_mulVec, (C28_look_to_lh3 h).rotation.transpose_mul,
    (C28_look_to_rh3 h).rotation.transpose_mul, identity_mulVec]
  exact ⟨rfl, rfl⟩

/-- the general claim fails: looking along +x from (1, 0, 0) with up = +y, the product is not the
identity, left- and right-handed -/
theorem C29_look_to4_inv_fails :
    ∃ (eye : Pt ℝ 3) (direction up : Vec ℝ 3), up.cross direction ≠ 0 ∧
      lookToLhInv4 eye direction up * lookToLh4 eye direction up ≠ identity ∧
      lookToRhInv4 eye direction up * lookToRh4 eye direction up ≠ identity := by
  have hc : (Vec.unitY3 : Vec ℝ 3).cross Vec.unitX3 ≠ 0 := by
    intro h
    have := congrArg (fun v : Vec ℝ 3 => v.data 2) h
    simp [Vec.cross, Vec.unitX3, Vec.unitY3] at this
  have hn : (Vec.unitX3 : Vec ℝ 3).normalize = Vec.unitX3 := by
    have h1 : (Vec.unitX3 : Vec ℝ 3).norm = 1 := by
      rw [Vec.norm_def, Vec.normSquared]; simp [Vec.dot3, Vec.unitX3]
    rw [Vec.normalize_def, h1]; ext i; simp
  refine ⟨⟨Vec.unitX3⟩, Vec.unitX3, Vec.unitY3, hc, ?_, ?_⟩
  · rw [Ne, (C29_look_to_lh4_inv_iff _ hc).2]
    intro h
    have h2 := (C28_look_to_lh3 hc).forward
    rw [hn] at h2
    have := congrArg (fun v : Vec ℝ 3 => v.data 0) (h.symm.trans h2)
    simp [Vec.unitX3, Vec.unitZ3] at this
  · rw [Ne, (C29_look_to_rh4_inv_iff _ hc).2]
    intro h
    have h2 := (C28_look_to_rh3 hc).forward
    rw [hn] at h2
    have := congrArg (fun v : Vec ℝ 3 => v.data 0) (h.symm.trans h2)
    simp [Vec.unitX3, Vec.unitZ3] at this

end Cgl
