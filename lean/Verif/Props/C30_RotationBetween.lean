import Verif.Lemmas.Frame
import Verif.Props.C05_Unit
import Verif.Props.C04_Normalize

/-! # C30 - rotations between two vectors (matrices)

In three dimensions the code compares `|u x v|` with a threshold (the scalar type's default epsilon); the
theorems hold for every threshold `t ≥ 0`.  In two dimensions the returned matrix always turns
counter-clockwise, so it maps the first direction to the second exactly when the second lies
counter-clockwise (by at most a half turn) from the first; the other half of the inputs is wrong. -/

namespace Cgl
open Mat

/-! ### three dimensions -/

theorem lagrange3 (a b : Vec ℝ 3) : (a.cross b).normSquared = a.dot a * b.dot b - (a.dot b) ^ 2 := by
  simp [Vec.normSquared, Vec.dot3, Vec.cross]; ring

theorem dot_bounds {a b : Vec ℝ 3} (ha : a.dot a = 1) (hb : b.dot b = 1) :
    -1 ≤ a.dot b ∧ a.dot b ≤ 1 := by
  have h := lagrange3 a b
  have h2 := (a.cross b).normSquared_nonneg
  rw [ha, hb] at h
  constructor <;> nlinarith

theorem cross_mulS_left (u v : Vec ℝ 3) (k : ℝ) : (u * k).cross v = u.cross v * k := by
  apply Vec.ext3 <;> simp [Vec.cross] <;> ring

/-- the rotation about `a × b` through the angle between the unit vectors `a` and `b` takes `a` to `b` -/
theorem between_core {a b : Vec ℝ 3} (ha : a.dot a = 1) (hb : b.dot b = 1) (h : a.cross b ≠ 0) :
    let R := fromAxisAngle3 ⟨(a.cross b).normalize⟩ (Angle.acos (a.dot b) : Radians ℝ)
    Spec.IsRotation R ∧ R * a = b ∧ R * a.cross b = a.cross b ∧ R.trace = 1 + 2 * a.dot b := by
  intro R
  have hu : (a.cross b).normalize.dot (a.cross b).normalize = 1 := Vec.normalize_dot_self h
  obtain ⟨l, u⟩ := dot_bounds ha hb
  have hcos : Real.cos (Real.arccos (a.dot b)) = a.dot b := Real.cos_arccos l u
  have hsin : Real.sin (Real.arccos (a.dot b)) = (a.cross b).norm := by
    rw [Real.sin_arccos, Vec.norm_def, lagrange3, ha, hb]; ring_nf
  have hn := (Vec.norm_pos h).ne'
  have hax := Vec.normalize_mul_norm h
  refine ⟨C26_axis_angle_rotation _ hu, ?_, ?_, ?_⟩
  · show fromAxisAngle3 _ ⟨Real.arccos (a.dot b)⟩ * a = b
    rw [C26_rodrigues, hcos, hsin]
    have h0 : (a.cross b).normalize.dot a = 0 := by
      rw [Vec.normalize_def]; simp [Vec.dot3, Vec.cross]; ring
    have h1 : (a.cross b).normalize.cross a * (a.cross b).norm = b - a * a.dot b := by
      have e : (a.cross b).normalize.cross a * (a.cross b).norm = (a.cross b).cross a := by
        conv_rhs => rw [← hax, cross_mulS_left]
      rw [e]
      simp only [Vec.dot3] at ha
      apply Vec.ext3 <;> simp [Vec.cross, Vec.dot3] <;> grind
    rw [h0, h1]
    ext i; simp
  · have := C26_axis_angle_fixes_axis (a := ⟨(a.cross b).normalize⟩) (Angle.acos (a.dot b) : Radians ℝ) hu
    show R * a.cross b = a.cross b
    nth_rewrite 1 [← hax]
    have e : R * ((a.cross b).normalize * (a.cross b).norm) = (R * (a.cross b).normalize) * (a.cross b).norm := by
      ext i; simp [mulVec_data, Finset.sum_mul, mul_assoc]
    rw [e, this, hax]
  · exact (C26_axis_angle_trace (a := ⟨(a.cross b).normalize⟩) (Angle.acos (a.dot b) : Radians ℝ) hu).trans
      (congrArg (fun x => 1 + 2 * x) hcos)

/-- the facts a returned rotation has to satisfy, up to the tolerance `t` of the near-parallel branch -/
structure Spec.TakesTo (R : Mat ℝ 3 3) (a b : Vec ℝ 3) (t : ℝ) : Prop where
  rotation : Spec.IsRotation R
  close : (R * a - b).normSquared ≤ 2 * t ^ 2

theorem isRotation_identity : Spec.IsRotation (identity : Mat ℝ 3 3) := by
  apply Spec.IsRotation.of_transpose_mul
  · apply ext3 <;> simp [mul_data, identity_data]
  · rw [leibniz_eq, toMatrix_identity, Matrix.det_one]

variable (t : ℝ) {u1 u2 : Unit' (Vec ℝ 3)}

private theorem cross_ne {a b : Vec ℝ 3} (h : t * t < (a.cross b).normSquared) : a.cross b ≠ 0 := by
  intro h0
  rw [(Vec.normSquared_eq_zero _).mpr h0] at h
  nlinarith [mul_self_nonneg t]

/-- away from the axis: an exact rotation from `u1` to `u2` through the angle between them, about their
cross product -/
theorem C30_axis3_generic (h1 : u1.value.dot u1.value = 1) (h2 : u2.value.dot u2.value = 1)
    (hc : t * t < (u1.value.cross u2.value).normSquared) :
    ∃ R, rotationBetweenAxis3 t u1 u2 = some R ∧ Spec.IsRotation R ∧ R * u1.value = u2.value ∧
      R * u1.value.cross u2.value = u1.value.cross u2.value ∧ R.trace = 1 + 2 * u1.value.dot u2.value := by
  have e : rotationBetweenAxis3 t u1 u2 =
      some (fromAxisAngle3 ⟨(u1.value.cross u2.value).normalize⟩ (Angle.acos (u1.value.dot u2.value))) := by
    have : Unit'.tryFromValue (u1.value.cross u2.value) t = some ⟨(u1.value.cross u2.value).normalize⟩ := by
      unfold Unit'.tryFromValue
      rw [(C05_try_from_value_with_norm_iff _ t ⟨(u1.value.cross u2.value).normalize⟩ _).mpr ⟨hc, rfl, rfl⟩]
      rfl
    unfold rotationBetweenAxis3
    simp only [this]
  exact ⟨_, e, between_core h1 h2 (cross_ne t hc)⟩

/-- within the tolerance: the identity when the vectors point the same way, `None` when they oppose -/
theorem C30_axis3_near (hc : (u1.value.cross u2.value).normSquared ≤ t * t) :
    rotationBetweenAxis3 t u1 u2 = if u1.value.dot u2.value < 0 then none else some identity := by
  unfold rotationBetweenAxis3
  simp only [(C05_try_from_value_none_iff _ t).mpr hc]

/-- whatever is returned is a rotation taking `u1` to `u2`, up to the tolerance -/
theorem C30_axis3_sound (h1 : u1.value.dot u1.value = 1) (h2 : u2.value.dot u2.value = 1) (R : Mat ℝ 3 3)
    (h : rotationBetweenAxis3 t u1 u2 = some R) : Spec.TakesTo R u1.value u2.value t := by
  by_cases hc : t * t < (u1.value.cross u2.value).normSquared
  · obtain ⟨R', e, hr, hm, -⟩ := C30_axis3_generic t h1 h2 hc
    rw [e, Option.some.injEq] at h
    subst h
    refine ⟨hr, ?_⟩
    rw [hm]
    have : u2.value - u2.value = 0 := by ext i; simp
    rw [this, (Vec.normSquared_eq_zero _).mpr rfl]; positivity
  · rw [not_lt] at hc
    rw [C30_axis3_near t hc] at h
    split_ifs at h with hd
    rw [Option.some.injEq] at h
    subst h
    refine ⟨isRotation_identity, ?_⟩
    rw [identity_mulVec]
    have e : (u1.value - u2.value).normSquared =
        u1.value.dot u1.value + u2.value.dot u2.value - 2 * u1.value.dot u2.value := by
      simp [Vec.normSquared, Vec.dot3]; ring
    have hl := lagrange3 u1.value u2.value
    have hb := dot_bounds h1 h2
    rw [h1, h2] at hl e
    rw [e]
    nlinarith [hb.1, hb.2]

/-- `None` only for (nearly) opposite vectors -/
theorem C30_axis3_none (h1 : u1.value.dot u1.value = 1) (h2 : u2.value.dot u2.value = 1)
    (h : rotationBetweenAxis3 t u1 u2 = none) : (u1.value + u2.value).normSquared ≤ 2 * t ^ 2 := by
  have hc : ¬ t * t < (u1.value.cross u2.value).normSquared := by
    intro hc
    obtain ⟨R, e, -⟩ := C30_axis3_generic t h1 h2 hc
    rw [e] at h; exact absurd h (by simp)
  rw [not_lt] at hc
  rw [C30_axis3_near t hc] at h
  split_ifs at h with hd
  have e : (u1.value + u2.value).normSquared =
      u1.value.dot u1.value + u2.value.dot u2.value + 2 * u1.value.dot u2.value := by
    simp [Vec.normSquared, Vec.dot3]; ring
  have hl := lagrange3 u1.value u2.value
  have hb := dot_bounds h1 h2
  rw [h1, h2] at hl e
  rw [e]
  nlinarith [hb.1, hb.2]

/-- exactly opposite vectors give `None`; equal ones give the identity -/
theorem C30_axis3_opposite (u : Unit' (Vec ℝ 3)) (h1 : u.value.dot u.value = 1) :
    rotationBetweenAxis3 t u ⟨-u.value⟩ = none ∧ rotationBetweenAxis3 t u u = some identity := by
  have e1 : (u.value.cross (-u.value)).normSquared = 0 := by
    rw [Vec.normSquared_eq_zero]; apply Vec.ext3 <;> simp [Vec.cross] <;> ring
  have e2 : (u.value.cross u.value).normSquared = 0 := by
    rw [Vec.normSquared_eq_zero]; apply Vec.ext3 <;> simp [Vec.cross] <;> ring
  have e3 : u.value.dot (-u.value) = -1 := by rw [← h1]; simp [Vec.dot3]; ring
  rw [C30_axis3_near t (by rw [show (⟨-u.value⟩ : Unit' (Vec ℝ 3)).value = -u.value from rfl, e1]; exact mul_self_nonneg t),
    C30_axis3_near t (by rw [e2]; exact mul_self_nonneg t), h1]
  rw [show (⟨-u.value⟩ : Unit' (Vec ℝ 3)).value = -u.value from rfl, e3]
  norm_num

/-- with threshold zero, `None` exactly for opposite vectors -/
theorem C30_axis3_none_iff_zero (h1 : u1.value.dot u1.value = 1) (h2 : u2.value.dot u2.value = 1) :
    rotationBetweenAxis3 0 u1 u2 = none ↔ u2.value = -u1.value := by
  constructor
  · intro h
    have := C30_axis3_none 0 h1 h2 h
    have h0 : (u1.value + u2.value).normSquared = 0 := le_antisymm (by simpa using this) (Vec.normSquared_nonneg _)
    rw [Vec.normSquared_eq_zero] at h0
    ext i
    have := congrArg (fun v : Vec ℝ 3 => v.data i) h0
    simp at this ⊢; linarith
  · intro h
    have := (C30_axis3_opposite 0 u1 h1).1
    rwa [← h] at this

/-- `rotation_between` on arbitrary non-zero vectors is the axis version on the normalised vectors; a
zero argument gives the identity -/
theorem C30_between3 (v1 v2 : Vec ℝ 3) (h1 : v1 ≠ 0) (h2 : v2 ≠ 0) :
    rotationBetween3 t v1 v2 = rotationBetweenAxis3 t ⟨v1.normalize⟩ ⟨v2.normalize⟩ := by
  have e1 := (C04_try_normalize_some_iff v1 v1.normalize 0).mpr ⟨Vec.norm_pos h1, rfl⟩
  have e2 := (C04_try_normalize_some_iff v2 v2.normalize 0).mpr ⟨Vec.norm_pos h2, rfl⟩
  unfold rotationBetween3 rotationBetweenAxis3
  simp only [e1, e2]

theorem C30_between3_zero (v : Vec ℝ 3) :
    rotationBetween3 t 0 v = some identity ∧ rotationBetween3 t v 0 = some identity := by
  have e1 := (C04_try_normalize_none_iff (0 : Vec ℝ 3) 0).mpr (by rw [(Vec.norm_eq_zero _).mpr rfl])
  unfold rotationBetween3
  constructor
  · simp only [e1]
  · simp only [e1]; cases v.tryNormalize 0 <;> rfl

/-- the combined statement for `rotation_between` -/
theorem C30_between3_sound (v1 v2 : Vec ℝ 3) (h1 : v1 ≠ 0) (h2 : v2 ≠ 0) :
    (∀ R, rotationBetween3 t v1 v2 = some R → Spec.TakesTo R v1.normalize v2.normalize t) ∧
    (rotationBetween3 t v1 v2 = none → (v1.normalize + v2.normalize).normSquared ≤ 2 * t ^ 2) ∧
    (t * t < (v1.normalize.cross v2.normalize).normSquared →
      ∃ R, rotationBetween3 t v1 v2 = some R ∧ R * v1.normalize = v2.normalize ∧
        R.trace = 1 + 2 * v1.normalize.dot v2.normalize) := by
  rw [C30_between3 t v1 v2 h1 h2]
  have n1 := Vec.normalize_dot_self h1
  have n2 := Vec.normalize_dot_self h2
  refine ⟨fun R h => C30_axis3_sound t n1 n2 R h, fun h => C30_axis3_none t n1 n2 h, fun h => ?_⟩
  obtain ⟨R, e, -, hm, -, ht⟩ := C30_axis3_generic (u1 := ⟨v1.normalize⟩) (u2 := ⟨v2.normalize⟩) t n1 n2 h
  exact ⟨R, e, hm, ht⟩

/-- parallel inputs (any lengths) give the identity, antiparallel ones `None` -/
theorem C30_between3_parallel (v : Vec ℝ 3) (k : ℝ) (hv : v ≠ 0) :
    (0 < k → rotationBetween3 t v (v * k) = some identity) ∧
    (k < 0 → rotationBetween3 t v (v * k) = none) := by
  have hn := (Vec.norm_pos hv).ne'
  constructor
  · intro hk
    have e : (v * k).normalize = v.normalize := by
      rw [Vec.normalize_def, Vec.normalize_def, Vec.norm_mulS, abs_of_pos hk]
      have := hk.ne'
      ext i; simp; field_simp
    rw [C30_between3 t v _ hv (Vec.mulS_ne_zero hv hk.ne'), e]
    exact (C30_axis3_opposite t ⟨v.normalize⟩ (Vec.normalize_dot_self hv)).2
  · intro hk
    have e : (v * k).normalize = -v.normalize := by
      rw [Vec.normalize_def, Vec.normalize_def, Vec.norm_mulS, abs_of_neg hk]
      have := hk.ne
      ext i; simp; field_simp
    rw [C30_between3 t v _ hv (Vec.mulS_ne_zero hv hk.ne), e]
    exact (C30_axis3_opposite t ⟨v.normalize⟩ (Vec.normalize_dot_self hv)).1

/-! ### two dimensions -/

/-- the signed area spanned by two plane vectors: positive when `b` is counter-clockwise from `a` -/
def Spec.perp (a b : Vec ℝ 2) : ℝ := a.data 0 * b.data 1 - a.data 1 * b.data 0

variable {w1 w2 : Unit' (Vec ℝ 2)}

theorem arg_unit {c s : ℝ} (h : c ^ 2 + s ^ 2 = 1) :
    Real.cos (Complex.arg ⟨c, s⟩) = c ∧ Real.sin (Complex.arg ⟨c, s⟩) = s := by
  have hn : ‖(⟨c, s⟩ : ℂ)‖ = 1 := by
    rw [Complex.norm_def, Complex.normSq_mk]
    rw [show c * c + s * s = 1 by linarith [h, sq c, sq s]]; simp
  have h0 : (⟨c, s⟩ : ℂ) ≠ 0 := by intro h'; rw [h'] at hn; simp at hn
  rw [Complex.cos_arg h0, Complex.sin_arg, hn]; simp

/-- the returned matrix, explicitly: cosine `w1 . w2`, sine `|perp|` (never negative) -/
theorem between2_eq (h1 : w1.value.dot w1.value = 1) (h2 : w2.value.dot w2.value = 1) :
    rotationBetweenAxis2 w1 w2 =
      new2x2 (w1.value.dot w2.value) |Spec.perp w1.value w2.value|
        (-|Spec.perp w1.value w2.value|) (w1.value.dot w2.value) := by
  have hl : 1 - w1.value.dot w2.value * w1.value.dot w2.value = Spec.perp w1.value w2.value ^ 2 := by
    simp only [Vec.dot2, Spec.perp] at *; linear_combination (-1 : ℝ) * h2 - (w2.value.data 0 ^2 + w2.value.data 1 ^2) * h1
  obtain ⟨hc, hs⟩ := arg_unit (c := w1.value.dot w2.value) (s := |Spec.perp w1.value w2.value|)
    (by rw [sq_abs]; linarith)
  have e : rotationBetweenAxis2 w1 w2 = fromAngle2
      ⟨Complex.arg ⟨w1.value.dot w2.value, |Spec.perp w1.value w2.value|⟩⟩ := by
    unfold rotationBetweenAxis2
    simp only [fsqrt_real, hl, Real.sqrt_sq_eq_abs]
    rfl
  rw [e]
  unfold fromAngle2
  simp only [Radians.sinCos_eq, hc, hs]

/-- always a rotation through the (unsigned) angle between the arguments -/
theorem C30_axis2_rotation (h1 : w1.value.dot w1.value = 1) (h2 : w2.value.dot w2.value = 1) :
    Spec.IsRotation (rotationBetweenAxis2 w1 w2) ∧
    (rotationBetweenAxis2 w1 w2).trace = 2 * w1.value.dot w2.value := by
  refine ⟨C26_angle2_rotation _, ?_⟩
  rw [between2_eq h1 h2, trace_eq_sum]; simp [Fin.sum_univ_two]; ring

/-- it takes the first direction to the second exactly when the turn is counter-clockwise -/
theorem C30_axis2_iff (h1 : w1.value.dot w1.value = 1) (h2 : w2.value.dot w2.value = 1) :
    rotationBetweenAxis2 w1 w2 * w1.value = w2.value ↔ 0 ≤ Spec.perp w1.value w2.value := by
  rw [between2_eq h1 h2, mulVec2]
  constructor
  · intro h
    have e0 := congrArg (fun v : Vec ℝ 2 => v.data 0) h
    have e1 := congrArg (fun v : Vec ℝ 2 => v.data 1) h
    simp only [Vec.dot2, Vec.new2_data, new2x2_data] at *
    have key : |Spec.perp w1.value w2.value| = Spec.perp w1.value w2.value := by
      simp at e0 e1
      generalize |Spec.perp w1.value w2.value| = q at *
      unfold Spec.perp
      grind
    rw [← key]; exact abs_nonneg _
  · intro h
    rw [abs_of_nonneg h]
    simp only [Vec.dot2] at h1 h2
    apply Vec.ext2 <;> simp [Vec.dot2, Spec.perp] <;> grind

/-- Missing from the full claim: second directions clockwise from the first (where the claim is false).
-/
theorem C30_axis2_partial (h1 : w1.value.dot w1.value = 1) (h2 : w2.value.dot w2.value = 1)
    (h : 0 ≤ Spec.perp w1.value w2.value) :
    Spec.IsRotation (rotationBetweenAxis2 w1 w2) ∧ rotationBetweenAxis2 w1 w2 * w1.value = w2.value :=
  ⟨(C30_axis2_rotation h1 h2).1, (C30_axis2_iff h1 h2).mpr h⟩

/-- clockwise the code turns the wrong way: swapping the arguments does not invert the rotation -/
theorem C30_axis2_symmetric (h1 : w1.value.dot w1.value = 1) (h2 : w2.value.dot w2.value = 1) :
    rotationBetweenAxis2 w1 w2 = rotationBetweenAxis2 w2 w1 := by
  have e1 : Spec.perp w2.value w1.value = -Spec.perp w1.value w2.value := by unfold Spec.perp; ring
  have e2 : w2.value.dot w1.value = w1.value.dot w2.value := by simp only [Vec.dot2]; ring
  rw [between2_eq h1 h2, between2_eq h2 h1, e1, e2, abs_neg]

/-- `Matrix2x2::rotation_between(unit_y, unit_x)` does not take `unit_y` to `unit_x` -/
theorem C30_axis2_fails :
    ∃ u v : Unit' (Vec ℝ 2), u.value.dot u.value = 1 ∧ v.value.dot v.value = 1 ∧
      rotationBetweenAxis2 u v * u.value ≠ v.value := by
  have h1 : (Vec.unitX2 : Vec ℝ 2).dot Vec.unitX2 = 1 := by simp [Vec.dot2, Vec.unitX2]
  have h2 : (Vec.unitY2 : Vec ℝ 2).dot Vec.unitY2 = 1 := by simp [Vec.dot2, Vec.unitY2]
  refine ⟨⟨Vec.unitY2⟩, ⟨Vec.unitX2⟩, h2, h1, ?_⟩
  rw [Ne, C30_axis2_iff (w1 := ⟨Vec.unitY2⟩) (w2 := ⟨Vec.unitX2⟩) h2 h1]
  simp [Spec.perp, Vec.unitX2, Vec.unitY2]

/-- the general version normalises first; a zero vector gives the identity -/
theorem C30_between2 (v1 v2 : Vec ℝ 2) :
    rotationBetween2 v1 v2 =
      if v1 = 0 ∨ v2 = 0 then identity else rotationBetweenAxis2 ⟨v1.normalize⟩ ⟨v2.normalize⟩ := by
  have key : ∀ v : Vec ℝ 2, Unit'.tryFromValue v 0 = if v = 0 then none else some ⟨v.normalize⟩ := by
    intro v
    split_ifs with h
    · rw [C05_try_from_value_none_iff, h, (Vec.normSquared_eq_zero _).mpr rfl]; simp
    · unfold Unit'.tryFromValue
      rw [(C05_try_from_value_with_norm_iff v 0 ⟨v.normalize⟩ _).mpr
        ⟨by simpa using Vec.normSquared_pos h, rfl, rfl⟩]
      rfl
  unfold rotationBetween2
  rw [key, key]
  by_cases h1 : v1 = 0
  · simp [h1]
  · by_cases h2 : v2 = 0 <;> simp [h1, h2]

/-- for `rotation_between` on non-zero vectors the sign of the signed area of the arguments themselves
decides -/
theorem C30_between2_iff (v1 v2 : Vec ℝ 2) (h1 : v1 ≠ 0) (h2 : v2 ≠ 0) :
    rotationBetween2 v1 v2 * v1.normalize = v2.normalize ↔ 0 ≤ Spec.perp v1 v2 := by
  rw [C30_between2, if_neg (by simp [h1, h2])]
  rw [C30_axis2_iff (w1 := ⟨v1.normalize⟩) (w2 := ⟨v2.normalize⟩) (Vec.normalize_dot_self h1)
    (Vec.normalize_dot_self h2)]
  have p1 := Vec.norm_pos h1
  have p2 := Vec.norm_pos h2
  have e : Spec.perp v1.normalize v2.normalize = Spec.perp v1 v2 * (1 / (v1.norm * v2.norm)) := by
    simp only [Spec.perp, Vec.normalize_def, Vec.mulS_data]; field_simp
  rw [show (⟨v1.normalize⟩ : Unit' (Vec ℝ 2)).value = v1.normalize from rfl,
    show (⟨v2.normalize⟩ : Unit' (Vec ℝ 2)).value = v2.normalize from rfl, e]
  have hp : 0 < 1 / (v1.norm * v2.norm) := by positivity
  constructor
  · intro h; by_contra hn; rw [not_le] at hn; nlinarith
  · intro h; positivity

/-- a 3D pair in general position, so the generic branch is inhabited -/
example : (1 / 2 : ℝ) * (1 / 2) <
    ((Vec.unitX3 : Vec ℝ 3).cross (Vec.new3 (3 / 5) (4 / 5) 0)).normSquared := by
  simp [Vec.normSquared, Vec.cross, Vec.dot3, Vec.unitX3]; norm_num

end Cgl
