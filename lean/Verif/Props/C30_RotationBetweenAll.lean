import Verif.Props.C30_RotationBetween
import Verif.Props.C28_LookAtAll

/-! # C30 - `rotation_between` for quaternions, rotations and isometries -/

namespace Cgl
open Mat

/-- The result of asking for a rotation from `a` to `b` (unit vectors in space), with a near-parallel
tolerance `t`: a returned rotation takes `a` to within the tolerance of `b`; nothing is returned only when the
vectors are opposite to within the tolerance; and outside the tolerance an exact rotation is returned, about
the cross product and through the angle between the vectors. -/
structure Spec.IsBetween (res : Option (Mat ℝ 3 3)) (a b : Vec ℝ 3) (t : ℝ) : Prop where
  sound : ∀ R, res = some R → Spec.TakesTo R a b t
  none : res = Option.none → (a + b).normSquared ≤ 2 * t ^ 2
  opposite : b = -a → res = Option.none
  same : b = a → res = some identity
  exact : t * t < (a.cross b).normSquared → ∃ R, res = some R ∧ Spec.IsRotation R ∧ R * a = b ∧
    R * a.cross b = a.cross b ∧ R.trace = 1 + 2 * a.dot b

variable (t : ℝ) {u1 u2 : Unit' (Vec ℝ 3)}

theorem C30_matrix3_axis (h1 : u1.value.dot u1.value = 1) (h2 : u2.value.dot u2.value = 1) :
    Spec.IsBetween (rotationBetweenAxis3 t u1 u2) u1.value u2.value t := by
  refine ⟨fun R => C30_axis3_sound t h1 h2 R, C30_axis3_none t h1 h2, fun h => ?_, fun h => ?_,
    C30_axis3_generic t h1 h2⟩
  · have : u2 = ⟨-u1.value⟩ := by cases u2; simp only at h; rw [h]
    rw [this]; exact (C30_axis3_opposite t u1 h1).1
  · have : u2 = u1 := by cases u1; cases u2; simp only at h; rw [h]
    rw [this]; exact (C30_axis3_opposite t u1 h1).2

/-- the quaternion version represents the same rotation as the matrix version, by a unit quaternion -/
theorem C30_quaternion_axis_matrix (h1 : u1.value.dot u1.value = 1) (h2 : u2.value.dot u2.value = 1) :
    (Quat.rotationBetweenAxis t u1 u2).map Quat.toMatrix = rotationBetweenAxis3 t u1 u2 ∧
    ∀ q, Quat.rotationBetweenAxis t u1 u2 = some q → q.norm = 1 := by
  have hid : (Quat.identity : Quat ℝ).norm = 1 := by
    rw [Quat.norm_eq_one_iff, Quat.normSquared_eq]; simp
  unfold Quat.rotationBetweenAxis rotationBetweenAxis3
  simp only
  cases hax : Unit'.tryFromValue (u1.value.cross u2.value) t with
  | none =>
    simp only
    split_ifs with hd
    · simp
    · refine ⟨?_, fun q hq => ?_⟩
      · simp only [Option.map_some]; rw [C41_identity]
      · rw [Option.some.injEq] at hq; rw [← hq]; exact hid
  | some axis =>
    have hu := C05_try_from_value_unit _ _ _ hax
    have hc : u1.value.cross u2.value ≠ 0 := by
      intro h0
      have := (C05_try_from_value_none_iff (u1.value.cross u2.value) t).mpr
        (by rw [(Vec.normSquared_eq_zero _).mpr h0]; exact mul_self_nonneg t)
      rw [hax] at this; exact absurd this (by simp)
    have hl := lagrange3 u1.value u2.value
    have hp := Vec.normSquared_pos hc
    have hb := dot_bounds h1 h2
    rw [h1, h2] at hl
    have n1 : ¬ u1.value.dot u2.value ≤ -1 := by intro h; nlinarith [hb.1, hb.2]
    have n2 : ¬ u1.value.dot u2.value ≥ 1 := by intro h; nlinarith [hb.1, hb.2]
    have hn : axis.value.normSquared = 1 := by rw [← Vec.norm_sq, hu.1, one_pow]
    simp only [if_neg n1, if_neg n2]
    refine ⟨?_, fun q hq => ?_⟩
    · rw [Option.map_some, C43_to_matrix _ _ hn]; rfl
    · rw [Option.some.injEq] at hq; rw [← hq]; exact C43_unit _ _ hn

theorem C30_quaternion_axis (h1 : u1.value.dot u1.value = 1) (h2 : u2.value.dot u2.value = 1) :
    Spec.IsBetween ((Quat.rotationBetweenAxis t u1 u2).map Quat.toMatrix) u1.value u2.value t := by
  rw [(C30_quaternion_axis_matrix t h1 h2).1]; exact C30_matrix3_axis t h1 h2

/-- building a `Unit` with threshold zero -/
theorem tryFromValue_zero {n : ℕ} (v : Vec ℝ n) :
    Unit'.tryFromValue v 0 = if v = 0 then none else some ⟨v.normalize⟩ := by
  split_ifs with h
  · rw [C05_try_from_value_none_iff, h, (Vec.normSquared_eq_zero _).mpr rfl]; simp
  · unfold Unit'.tryFromValue
    rw [(C05_try_from_value_with_norm_iff v 0 ⟨v.normalize⟩ _).mpr
      ⟨by simpa using Vec.normSquared_pos h, rfl, rfl⟩]
    rfl

theorem C30_quaternion (v1 v2 : Vec ℝ 3) :
    (v1 ≠ 0 → v2 ≠ 0 →
      Spec.IsBetween ((Quat.rotationBetween t v1 v2).map Quat.toMatrix) v1.normalize v2.normalize t ∧
      ∀ q, Quat.rotationBetween t v1 v2 = some q → q.norm = 1) ∧
    (v1 = 0 ∨ v2 = 0 → Quat.rotationBetween t v1 v2 = some Quat.identity) := by
  constructor
  · intro h1 h2
    have e : Quat.rotationBetween t v1 v2 = Quat.rotationBetweenAxis t ⟨v1.normalize⟩ ⟨v2.normalize⟩ := by
      unfold Quat.rotationBetween
      rw [tryFromValue_zero, tryFromValue_zero, if_neg h1, if_neg h2]
    rw [e]
    exact ⟨C30_quaternion_axis (u1 := ⟨v1.normalize⟩) (u2 := ⟨v2.normalize⟩) t (Vec.normalize_dot_self h1)
      (Vec.normalize_dot_self h2), (C30_quaternion_axis_matrix (u1 := ⟨v1.normalize⟩) (u2 := ⟨v2.normalize⟩) t
      (Vec.normalize_dot_self h1) (Vec.normalize_dot_self h2)).2⟩
  · intro h
    unfold Quat.rotationBetween
    rw [tryFromValue_zero, tryFromValue_zero]
    by_cases h1 : v1 = 0
    · rw [if_pos h1]
    · rw [if_neg h1, if_pos (by tauto)]

/-! ### rotations -/

theorem C30_rotation3_axis (h1 : u1.value.dot u1.value = 1) (h2 : u2.value.dot u2.value = 1) :
    Spec.IsBetween ((Rotation.rotationBetweenAxis t u1 u2).map Rotation.matrix) u1.value u2.value t := by
  have : (Rotation.rotationBetweenAxis t u1 u2).map Rotation.matrix =
      (Quat.rotationBetweenAxis t u1 u2).map Quat.toMatrix := by
    rw [Rotation.rotationBetweenAxis, Option.map_map]; rfl
  rw [this]; exact C30_quaternion_axis t h1 h2

theorem C30_rotation3 (v1 v2 : Vec ℝ 3) :
    (v1 ≠ 0 → v2 ≠ 0 →
      Spec.IsBetween ((Rotation.rotationBetween t v1 v2).map Rotation.matrix) v1.normalize v2.normalize t) ∧
    (v1 = 0 ∨ v2 = 0 → Rotation.rotationBetween t v1 v2 = some Rotation.identity) := by
  constructor
  · intro h1 h2
    have : (Rotation.rotationBetween t v1 v2).map Rotation.matrix =
        (Quat.rotationBetween t v1 v2).map Quat.toMatrix := by
      rw [Rotation.rotationBetween, Option.map_map]; rfl
    rw [this]; exact ((C30_quaternion t v1 v2).1 h1 h2).1
  · intro h
    rw [Rotation.rotationBetween, (C30_quaternion t v1 v2).2 h, Option.map_some]
    congr 1
    apply Rotation.ext
    exact C41_identity

/-! ### isometries: the rotation about the origin -/

theorem C30_isometry3_axis (h1 : u1.value.dot u1.value = 1) (h2 : u2.value.dot u2.value = 1) :
    Spec.IsBetween ((Isometry.rotationBetweenAxis t u1 u2).map fun i => i.rotation.matrix)
      u1.value u2.value t ∧
    ∀ i, Isometry.rotationBetweenAxis t u1 u2 = some i → i.translation.vector = 0 := by
  have : (Isometry.rotationBetweenAxis t u1 u2).map (fun i => i.rotation.matrix) =
      (Rotation.rotationBetweenAxis t u1 u2).map Rotation.matrix := by
    rw [Isometry.rotationBetweenAxis, Option.map_map]; rfl
  rw [this]
  refine ⟨C30_rotation3_axis t h1 h2, fun i hi => ?_⟩
  rw [Isometry.rotationBetweenAxis] at hi
  obtain ⟨r, -, rfl⟩ := Option.map_eq_some_iff.mp hi
  rfl

/-- Unlike the other versions, this one returns `None` when either vector is no longer than the tolerance. -/
theorem C30_isometry3 (v1 v2 : Vec ℝ 3) :
    (t * t < v1.normSquared → t * t < v2.normSquared →
      Spec.IsBetween ((Isometry.rotationBetween t v1 v2).map fun i => i.rotation.matrix)
        v1.normalize v2.normalize t ∧
      ∀ i, Isometry.rotationBetween t v1 v2 = some i → i.translation.vector = 0) ∧
    (v1.normSquared ≤ t * t ∨ v2.normSquared ≤ t * t → Isometry.rotationBetween t v1 v2 = none) := by
  constructor
  · intro h1 h2
    have some_of : ∀ v : Vec ℝ 3, t * t < v.normSquared → Unit'.tryFromValue v t = some ⟨v.normalize⟩ := by
      intro v hv
      unfold Unit'.tryFromValue
      rw [(C05_try_from_value_with_norm_iff v t ⟨v.normalize⟩ _).mpr ⟨hv, rfl, rfl⟩]
      rfl
    have nz : ∀ v : Vec ℝ 3, t * t < v.normSquared → v ≠ 0 := by
      intro v hv h0
      rw [(Vec.normSquared_eq_zero _).mpr h0] at hv
      nlinarith [mul_self_nonneg t]
    have e : Isometry.rotationBetween t v1 v2 =
        Isometry.rotationBetweenAxis t ⟨v1.normalize⟩ ⟨v2.normalize⟩ := by
      unfold Isometry.rotationBetween
      rw [some_of v1 h1, some_of v2 h2]
    rw [e]
    exact C30_isometry3_axis (u1 := ⟨v1.normalize⟩) (u2 := ⟨v2.normalize⟩) t
      (Vec.normalize_dot_self (nz v1 h1)) (Vec.normalize_dot_self (nz v2 h2))
  · intro h
    unfold Isometry.rotationBetween
    rcases h with h | h
    · rw [(C05_try_from_value_none_iff _ t).mpr h]
    · rw [(C05_try_from_value_none_iff v2 t).mpr h]
      cases Unit'.tryFromValue v1 t <;> rfl

/-! ### two dimensions: exact for every pair, in either direction of turn -/

variable {w1 w2 : Unit' (Vec ℝ 2)}

theorem C30_rotation2_axis (h1 : w1.value.dot w1.value = 1) (h2 : w2.value.dot w2.value = 1) :
    Spec.IsRotation (Rotation.rotationBetweenAxis2 w1 w2).matrix ∧
    (Rotation.rotationBetweenAxis2 w1 w2).applyVector w1.value = w2.value ∧
    (Rotation.rotationBetweenAxis2 w1 w2).matrix.trace = 2 * w1.value.dot w2.value := by
  have hl : w1.value.dot w2.value ^ 2 + Spec.perp w1.value w2.value ^ 2 = 1 := by
    simp only [Vec.dot2, Spec.perp] at *; grind
  obtain ⟨hc, hs⟩ := arg_unit hl
  have e : (Rotation.rotationBetweenAxis2 w1 w2).matrix =
      new2x2 (w1.value.dot w2.value) (Spec.perp w1.value w2.value)
        (-Spec.perp w1.value w2.value) (w1.value.dot w2.value) := by
    show fromAngle2 ⟨Complex.arg ⟨w1.value.dot w2.value, Spec.perp w1.value w2.value⟩⟩ = _
    unfold fromAngle2
    simp only [Radians.sinCos_eq, hc, hs]
  refine ⟨C26_angle2_rotation _, ?_, ?_⟩
  · rw [(C54_apply (Rotation.rotationBetweenAxis2 w1 w2) Pt.origin w1.value).1, e, mulVec2]
    simp only [Vec.dot2] at h1 h2
    apply Vec.ext2 <;> simp [Vec.dot2, Spec.perp] <;> grind
  · rw [e, trace_eq_sum]; simp [Fin.sum_univ_two]; ring

theorem C30_rotation2 (v1 v2 : Vec ℝ 2) :
    (v1 ≠ 0 → v2 ≠ 0 → Spec.IsRotation (Rotation.rotationBetween2 v1 v2).matrix ∧
      (Rotation.rotationBetween2 v1 v2).applyVector v1.normalize = v2.normalize ∧
      (Rotation.rotationBetween2 v1 v2).matrix.trace = 2 * v1.normalize.dot v2.normalize) ∧
    (v1 = 0 ∨ v2 = 0 → Rotation.rotationBetween2 v1 v2 = Rotation.identity) := by
  unfold Rotation.rotationBetween2
  rw [tryFromValue_zero, tryFromValue_zero]
  constructor
  · intro h1 h2
    rw [if_neg h1, if_neg h2]
    exact C30_rotation2_axis (w1 := ⟨v1.normalize⟩) (w2 := ⟨v2.normalize⟩) (Vec.normalize_dot_self h1)
      (Vec.normalize_dot_self h2)
  · intro h
    by_cases h1 : v1 = 0
    · rw [if_pos h1]
    · rw [if_neg h1, if_pos (by tauto)]

theorem C30_isometry2 (v1 v2 : Vec ℝ 2) :
    (Isometry.rotationBetween2 v1 v2).rotation = Rotation.rotationBetween2 v1 v2 ∧
    (Isometry.rotationBetween2 v1 v2).translation.vector = 0 ∧
    (Isometry.rotationBetweenAxis2 w1 w2).rotation = Rotation.rotationBetweenAxis2 w1 w2 ∧
    (Isometry.rotationBetweenAxis2 w1 w2).translation.vector = 0 := by
  refine ⟨?_, ?_, rfl, rfl⟩
  · unfold Isometry.rotationBetween2 Rotation.rotationBetween2
    cases Unit'.tryFromValue v1 (0 : ℝ) <;> cases Unit'.tryFromValue v2 (0 : ℝ) <;> rfl
  · unfold Isometry.rotationBetween2
    cases Unit'.tryFromValue v1 (0 : ℝ) <;> cases Unit'.tryFromValue v2 (0 : ℝ) <;> rfl

/-- a pair of unit vectors outside the tolerance -/
example : ∃ a b : Unit' (Vec ℝ 3), a.value.dot a.value = 1 ∧ b.value.dot b.value = 1 ∧
    (1 / 1000 : ℝ) * (1 / 1000) < (a.value.cross b.value).normSquared := by
  refine ⟨⟨Vec.new3 (3 / 5) (4 / 5) 0⟩, ⟨Vec.new3 0 0 1⟩, ?_, ?_, ?_⟩ <;>
    simp [Vec.dot3, Vec.normSquared, Vec.cross] <;> norm_num

end Cgl
