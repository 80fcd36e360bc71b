import Verif.Props.C09_Lerp
import Verif.Props.C40_QuaternionInverse
import Verif.Props.C45_QuaternionInterpolation
import Verif.Props.C51_AngleSigned
import Verif.Props.C57_Similarity
import Verif.Props.Misc_Core

/-! # Further cases of C09 (matrices, quaternions), C19 (complex numbers, quaternions), C51 and C52 (degrees), C57 (plane) -/

namespace Cgl

/-! ### C09 - interpolation of matrices and quaternions -/

/-- between its end points, entry by entry -/
theorem C09_matrix_lerp_between {S : Type*} {R C : ℕ} [Field S] [LinearOrder S] [IsStrictOrderedRing S]
    (A B : Mat S R C) (t : S) (h0 : 0 ≤ t) (h1 : t ≤ 1) (c : Fin C) (r : Fin R) :
    min (A.data c r) (B.data c r) ≤ (A.lerp B t).data c r ∧
    (A.lerp B t).data c r ≤ max (A.data c r) (B.data c r) := by
  rw [(C09_matrix_lerp A B t).2.2.2.2 c r]
  rcases le_total (A.data c r) (B.data c r) with h | h
  · rw [min_eq_left h, max_eq_right h]
    constructor <;> nlinarith
  · rw [min_eq_right h, max_eq_left h]
    constructor <;> nlinarith

theorem C09_quaternion_lerp {S : Type*} [CommRing S] (q r : Quat S) (t : S) :
    q.lerp r 0 = q ∧ q.lerp r 1 = r ∧ q.lerp q t = q ∧ q.lerp r t = r.lerp q (1 - t) ∧
    q.lerp r t = q * (1 - t) + r * t := by
  refine ⟨?_, ?_, ?_, ?_, ?_⟩ <;> apply Quat.ext4 <;> simp [Quat.lerp] <;> ring

/-- between its end points: the scalar part and each component of the vector part -/
theorem C09_quaternion_lerp_between {S : Type*} [Field S] [LinearOrder S] [IsStrictOrderedRing S] (q r : Quat S)
    (t : S) (h0 : 0 ≤ t) (h1 : t ≤ 1) :
    (min q.scalar r.scalar ≤ (q.lerp r t).scalar ∧ (q.lerp r t).scalar ≤ max q.scalar r.scalar) ∧
    ∀ i, min (q.vector.data i) (r.vector.data i) ≤ ((q.lerp r t).vector.data i) ∧
      (q.lerp r t).vector.data i ≤ max (q.vector.data i) (r.vector.data i) := by
  have key : ∀ a b : S, min a b ≤ a * (1 - t) + b * t ∧ a * (1 - t) + b * t ≤ max a b := by
    intro a b
    rcases le_total a b with h | h
    · rw [min_eq_left h, max_eq_right h]; constructor <;> nlinarith
    · rw [min_eq_right h, max_eq_left h]; constructor <;> nlinarith
  rw [(C09_quaternion_lerp q r t).2.2.2.2]
  refine ⟨by simpa using key q.scalar r.scalar, fun i => ?_⟩
  have := key (q.vector.data i) (r.vector.data i)
  fin_cases i <;> simpa using this

example : (Quat.new 0 2 4 (8 : ℚ)).lerp (Quat.new 1 4 0 8) (1 / 2) = Quat.new (1 / 2) 3 2 8 := by
  apply Quat.ext4 <;> norm_num [Quat.lerp]

/-! ### C19 - complex numbers and quaternions -/

/-- For complex numbers not shorter than a positive tolerance `is_invertible` and `try_inverse` agree. Missing: the
shorter ones, where they do not (`C19_complex_is_invertible_fails`). -/
theorem C19_complex_is_invertible_partial (z : Cx ℝ) (eps : ℝ) (he : 0 < eps) (h : eps ≤ z.norm) :
    z.isInvertible eps = true ↔ ∃ w, z.tryInverse = some w := by
  refine ⟨C19_complex_is_invertible z eps he, fun _ => ?_⟩
  have h1 : z.normSquared = z.norm ^ 2 := by
    rw [(C34_agrees z z).2.2.2.2.2.2.2, (C34_agrees z z).2.2.2.2.2.2.1]
  have : eps * eps ≤ z.normSquared := by rw [h1]; nlinarith
  simpa [Cx.isInvertible] using this

/-- For quaternions they agree except at norm exactly the tolerance. Missing: that norm, where they do not
(`C19_quaternion_is_invertible_fails`). -/
theorem C19_quaternion_is_invertible_partial (q : Quat ℝ) (eps : ℝ) (he : 0 ≤ eps) :
    (q.norm ≠ eps → (q.isInvertible eps = true ↔ ∃ r, q.tryInverse eps = some r)) ∧
    ((∃ r, q.tryInverse eps = some r) → q.isInvertible eps = true) := by
  have h := C40_is_invertible eps q
  have hs : (q.tryInverse eps).isSome = true ↔ ∃ r, q.tryInverse eps = some r := Option.isSome_iff_exists
  rw [hs] at h
  refine ⟨fun hn => ?_, fun hr => h.mpr (Or.inl hr)⟩
  rw [h]
  refine ⟨fun h' => h'.resolve_right fun h2 => hn ?_, Or.inl⟩
  rw [← Quat.norm_sq] at h2
  exact (sq_eq_sq₀ q.norm_nonneg he).mp h2

/-- At norm exactly the tolerance `is_invertible` says yes and `try_inverse` returns `None`; the zero quaternion does so
at tolerance zero. -/
theorem C19_quaternion_is_invertible_fails (eps : ℝ) (he : 0 ≤ eps) (q : Quat ℝ) (h : q.norm = eps) :
    q.isInvertible eps = true ∧ q.tryInverse eps = none := by
  have h2 : q.normSquared = eps ^ 2 := by rw [← Quat.norm_sq, h]
  exact ⟨(C40_is_invertible eps q).mpr (Or.inr h2), (C40_try_inverse_none eps q).mpr h2.le⟩

example : (Quat.new 0 3 0 (4 : ℝ)).isInvertible 5 = true ∧ (Quat.new 0 3 0 (4 : ℝ)).tryInverse 5 = none :=
  C19_quaternion_is_invertible_fails 5 (by norm_num) _ (by
    rw [← sq_eq_sq₀ (Quat.norm_nonneg _) (by norm_num), Quat.norm_sq, Quat.normSquared_eq]; norm_num)

/-! ### C51, C52 - the degree versions -/

theorem C51_bisect_degrees_equidistant (a b : Degrees ℝ) : Angle.bisect a b = Angle.bisect b a ∧
    ∃ k : ℤ, (Angle.bisect a b).val - a.val = b.val - (Angle.bisect a b).val + k * 360 := by
  obtain ⟨-, k, hk⟩ := C51_bisect_degrees a b
  refine ⟨?_, -2 * k, by push_cast; linarith⟩
  obtain ⟨⟨h0, h1⟩, j, hj⟩ := C51_bisect_degrees b a
  obtain ⟨⟨g0, g1⟩, -⟩ := C51_bisect_degrees a b
  have e : ((j - k : ℤ) : ℝ) * 360 = (Angle.bisect a b).val - (Angle.bisect b a).val := by push_cast; linarith
  have l1 : ((j - k : ℤ) : ℝ) < 1 := by linarith
  have l2 : (-1 : ℝ) < ((j - k : ℤ) : ℝ) := by linarith
  have : j - k = 0 := by
    have a1 : j - k < 1 := by exact_mod_cast l1
    have a2 : -1 < j - k := by exact_mod_cast l2
    omega
  rw [this] at e
  have : (Angle.bisect a b).val = (Angle.bisect b a).val := by
    have : ((0 : ℤ) : ℝ) * 360 = 0 := by simp
    linarith
  cases ha : Angle.bisect a b; cases hb : Angle.bisect b a
  rw [ha, hb] at this; simp only at this; rw [this]

/-- opposite in degrees flips sine and cosine as it does in radians -/
theorem C51_opposite_degrees_trig (a : Degrees ℝ) :
    Angle.sin (Angle.opposite a) = -Angle.sin a ∧ Angle.cos (Angle.opposite a) = -Angle.cos a := by
  obtain ⟨-, k, hk⟩ := C51_opposite_degrees a
  obtain ⟨x⟩ := a
  generalize ho : Angle.opposite (⟨x⟩ : Degrees ℝ) = o at hk ⊢
  obtain ⟨y⟩ := o
  have hy : y * Real.pi / 180 = (x * Real.pi / 180 + Real.pi) - k * (2 * Real.pi) := by
    have : y = x + 180 - k * 360 := by simp only at hk; linarith
    rw [this]; ring
  rw [C52_sin_degrees, C52_sin_degrees, C52_cos_degrees, C52_cos_degrees, hy, Real.sin_sub_int_mul_two_pi,
    Real.cos_sub_int_mul_two_pi, Real.sin_add_pi, Real.cos_add_pi]
  exact ⟨rfl, rfl⟩

/-- the reciprocal functions in degrees -/
theorem C52_reciprocals_degrees (a : Degrees ℝ) :
    Angle.csc a = Angle.csc (Radians.ofDegrees a) ∧ Angle.sec a = Angle.sec (Radians.ofDegrees a) ∧
    Angle.cot a = Angle.cot (Radians.ofDegrees a) ∧ Angle.csc a = 1 / Real.sin (a.val * Real.pi / 180) ∧
    Angle.sec a = 1 / Real.cos (a.val * Real.pi / 180) ∧
    Angle.cot a = Real.cos (a.val * Real.pi / 180) / Real.sin (a.val * Real.pi / 180) := by
  obtain ⟨x⟩ := a
  have e1 : Angle.csc (⟨x⟩ : Degrees ℝ) = 1 / Angle.sin (⟨x⟩ : Degrees ℝ) := rfl
  have e2 : Angle.sec (⟨x⟩ : Degrees ℝ) = 1 / Angle.cos (⟨x⟩ : Degrees ℝ) := rfl
  refine ⟨rfl, rfl, rfl, ?_, ?_, ?_⟩
  · rw [e1, C52_sin_degrees]
  · rw [e2, C52_cos_degrees]
  · rw [C52_cot_degrees, C52_sin_degrees, C52_cos_degrees]

/-! ### C57 - the plane -/

theorem C57_similarity2_group {t : Similarity ℝ 2} (h : Spec.Similarity2Value t) (p q : Pt ℝ 2) (v : Vec ℝ 2) :
    (t.applyPoint p).metricDistance (t.applyPoint q) = |t.scale| * p.metricDistance q ∧
    (∃ s, t.inverse = .ok s ∧ s * t = Similarity.identity ∧ t * s = Similarity.identity) ∧
    t.inverseApplyPoint (t.applyPoint p) = p ∧ t.inverseApplyVector (t.applyVector v) = v := by
  obtain ⟨hr, hs⟩ := C57_similarity2 h
  exact ⟨(C57_distance t hr.1 p q v v).1, C57_inverse t hr.1 hs, (C57_inverse_undoes t p v hr.1 hs).1,
    (C57_inverse_undoes t p v hr.1 hs).2.2.1⟩

example : Spec.Similarity2Value (Similarity.fromScale (3 : ℝ)) := .fromScale (by norm_num)

end Cgl
