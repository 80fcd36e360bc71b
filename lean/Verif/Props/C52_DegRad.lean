import Verif.Lemmas.Angle

/-! # C52 - degrees and radians are consistent (exact real arithmetic) -/

namespace Cgl

private theorem pi_ne : Real.pi ≠ 0 := Real.pi_pos.ne'

theorem C52_deg_rad_deg (d : Degrees ℝ) : Degrees.ofRadians (Radians.ofDegrees d) = d := by
  ext; simp; field_simp

theorem C52_rad_deg_rad (r : Radians ℝ) : Radians.ofDegrees (Degrees.ofRadians r) = r := by
  ext; simp; field_simp

theorem C52_conversion_add (a b : Degrees ℝ) :
    Radians.ofDegrees (a + b) = Radians.ofDegrees a + Radians.ofDegrees b := by
  ext; simp; ring
theorem C52_conversion_scale (a : Degrees ℝ) (k : ℝ) :
    Radians.ofDegrees (a * k) = Radians.ofDegrees a * k := by
  ext; simp; ring
theorem C52_conversion_lt (a b : Degrees ℝ) : Radians.ofDegrees a < Radians.ofDegrees b ↔ a < b := by
  show (Radians.ofDegrees a).val < (Radians.ofDegrees b).val ↔ a.val < b.val
  simp only [Radians.ofDegrees_val]
  exact mul_lt_mul_iff_left₀ (by positivity)
theorem C52_full_turn : Radians.ofDegrees (Angle.fullTurn : Degrees ℝ) = Angle.fullTurn := by
  ext; simp; ring
/-- 180 degrees are pi radians -/
theorem C52_half_turn : Radians.ofDegrees (⟨180⟩ : Degrees ℝ) = ⟨Real.pi⟩ := by ext; simp; ring

theorem C52_sin (d : Degrees ℝ) : Angle.sin d = Angle.sin (Radians.ofDegrees d) := rfl
theorem C52_cos (d : Degrees ℝ) : Angle.cos d = Angle.cos (Radians.ofDegrees d) := rfl
theorem C52_tan (d : Degrees ℝ) : Angle.tan d = Angle.tan (Radians.ofDegrees d) := rfl

/-- numerically: the sine of `x` degrees is `sin (x π / 180)` -/
theorem C52_sin_degrees (x : ℝ) : Angle.sin (⟨x⟩ : Degrees ℝ) = Real.sin (x * Real.pi / 180) := by
  show Real.sin _ = _
  simp [mul_div_assoc]
theorem C52_cos_degrees (x : ℝ) : Angle.cos (⟨x⟩ : Degrees ℝ) = Real.cos (x * Real.pi / 180) := by
  show Real.cos _ = _
  simp [mul_div_assoc]
theorem C52_tan_degrees (x : ℝ) : Angle.tan (⟨x⟩ : Degrees ℝ) = Real.tan (x * Real.pi / 180) := by
  show Real.tan _ = _
  simp [mul_div_assoc]

theorem C52_asin (x : ℝ) : Radians.ofDegrees (Angle.asin x : Degrees ℝ) = (Angle.asin x : Radians ℝ) :=
  C52_rad_deg_rad _
theorem C52_acos (x : ℝ) : Radians.ofDegrees (Angle.acos x : Degrees ℝ) = (Angle.acos x : Radians ℝ) :=
  C52_rad_deg_rad _
theorem C52_atan (x : ℝ) : Radians.ofDegrees (Angle.atan x : Degrees ℝ) = (Angle.atan x : Radians ℝ) :=
  C52_rad_deg_rad _
theorem C52_atan2 (y x : ℝ) :
    Radians.ofDegrees (Angle.atan2 y x : Degrees ℝ) = (Angle.atan2 y x : Radians ℝ) :=
  C52_rad_deg_rad _

/-- inverse functions undo the functions, in either unit -/
theorem C52_sin_asin (x : ℝ) (h : -1 ≤ x) (h' : x ≤ 1) :
    Angle.sin (Angle.asin x : Degrees ℝ) = x ∧ Angle.sin (Angle.asin x : Radians ℝ) = x := by
  refine ⟨?_, Real.sin_arcsin h h'⟩
  rw [C52_sin, C52_asin]; exact Real.sin_arcsin h h'
theorem C52_cos_acos (x : ℝ) (h : -1 ≤ x) (h' : x ≤ 1) :
    Angle.cos (Angle.acos x : Degrees ℝ) = x ∧ Angle.cos (Angle.acos x : Radians ℝ) = x := by
  refine ⟨?_, Real.cos_arccos h h'⟩
  rw [C52_cos, C52_acos]; exact Real.cos_arccos h h'
theorem C52_tan_atan (x : ℝ) :
    Angle.tan (Angle.atan x : Degrees ℝ) = x ∧ Angle.tan (Angle.atan x : Radians ℝ) = x := by
  refine ⟨?_, Real.tan_arctan x⟩
  rw [C52_tan, C52_atan]; exact Real.tan_arctan x
/-- `atan2(y, x)` is the direction of the point `(x, y)` -/
theorem C52_atan2_direction (y x : ℝ) :
    Real.sqrt (x ^ 2 + y ^ 2) * Angle.cos (Angle.atan2 y x : Radians ℝ) = x ∧
      Real.sqrt (x ^ 2 + y ^ 2) * Angle.sin (Angle.atan2 y x : Radians ℝ) = y := by
  have hn : ‖(⟨x, y⟩ : ℂ)‖ = Real.sqrt (x ^ 2 + y ^ 2) := by
    rw [Complex.norm_def, Complex.normSq_mk, sq, sq]
  constructor
  · show _ * Real.cos (Complex.arg ⟨x, y⟩) = x
    rw [← hn]; exact Complex.norm_mul_cos_arg (⟨x, y⟩ : ℂ)
  · show _ * Real.sin (Complex.arg ⟨x, y⟩) = y
    rw [← hn]; exact Complex.norm_mul_sin_arg (⟨x, y⟩ : ℂ)

theorem C52_sin_cos {A : Type*} [Angle A ℝ] (a : A) : Angle.sinCos a = (Angle.sin a, Angle.cos a) := rfl
theorem C52_csc (a : Radians ℝ) : Angle.csc a = 1 / Angle.sin a := rfl
theorem C52_cot (a : Radians ℝ) : Angle.cot a = Angle.cos a / Angle.sin a := by
  show 1 / Real.tan _ = Real.cos _ / Real.sin _
  rw [Real.tan_eq_sin_div_cos, one_div_div]
theorem C52_sec (a : Radians ℝ) : Angle.sec a = 1 / Angle.cos a := rfl
theorem C52_cot_degrees (a : Degrees ℝ) : Angle.cot a = Angle.cos a / Angle.sin a := by
  show 1 / Real.tan _ = Real.cos _ / Real.sin _
  rw [Real.tan_eq_sin_div_cos, one_div_div]

/-- the named fractions of a full turn -/
theorem C52_fractions_radians :
    (Angle.fullTurnDiv2 : Radians ℝ).val = Real.pi ∧ (Angle.fullTurnDiv4 : Radians ℝ).val = Real.pi / 2 ∧
      (Angle.fullTurnDiv6 : Radians ℝ).val = Real.pi / 3 ∧
      (Angle.fullTurnDiv8 : Radians ℝ).val = Real.pi / 4 := by
  refine ⟨Radians.fullTurnDiv2_val, ?_, ?_, ?_⟩ <;>
    simp [Angle.fullTurnDiv4, Angle.fullTurnDiv6, Angle.fullTurnDiv8] <;> ring
theorem C52_fractions_degrees :
    (Angle.fullTurnDiv2 : Degrees ℝ).val = 180 ∧ (Angle.fullTurnDiv4 : Degrees ℝ).val = 90 ∧
      (Angle.fullTurnDiv6 : Degrees ℝ).val = 60 ∧ (Angle.fullTurnDiv8 : Degrees ℝ).val = 45 := by
  refine ⟨Degrees.fullTurnDiv2_val, ?_, ?_, ?_⟩ <;>
    simp [Angle.fullTurnDiv4, Angle.fullTurnDiv6, Angle.fullTurnDiv8] <;> norm_num

/-- operators act on the numerical value; the assigning forms agree with them -/
theorem C52_assign_radians (a b : Radians ℝ) (k : ℝ) :
    a.addAssign b = a + b ∧ a.subAssign b = a - b ∧ a.mulAssign k = a * k ∧ a.divAssign k = a / k ∧
      a.remAssign b = a % b := ⟨rfl, rfl, rfl, rfl, rfl⟩
theorem C52_assign_degrees (a b : Degrees ℝ) (k : ℝ) :
    a.addAssign b = a + b ∧ a.subAssign b = a - b ∧ a.mulAssign k = a * k ∧ a.divAssign k = a / k ∧
      a.remAssign b = a % b := ⟨rfl, rfl, rfl, rfl, rfl⟩

example : Angle.sin (⟨30⟩ : Degrees ℝ) = 1 / 2 := by
  rw [C52_sin_degrees, ← Real.sin_pi_div_six]; congr 1; ring

end Cgl
