import Verif.Props.C50_AngleNormalize

/-! # C51 - `normalize_signed`, `opposite` and `bisect` (exact real arithmetic) -/

namespace Cgl

theorem C51_signed_radians_range (a : Radians ℝ) :
    -Real.pi < (Angle.normalizeSigned a).val ∧ (Angle.normalizeSigned a).val ≤ Real.pi := by
  have h := C50_radians_range a
  rw [Radians.normalize_val] at h
  rw [Radians.normalizeSigned_val]
  split_ifs with h1
  · constructor <;> linarith [Real.pi_pos]
  · constructor <;> linarith [Real.pi_pos]

theorem C51_signed_radians_congruent (a : Radians ℝ) :
    ∃ k : ℤ, a.val = (Angle.normalizeSigned a).val + k * (2 * Real.pi) := by
  obtain ⟨k, hk⟩ := C50_radians_congruent a
  rw [Radians.normalize_val] at hk
  rw [Radians.normalizeSigned_val]
  split_ifs with h1
  · exact ⟨k + 1, by push_cast; linarith⟩
  · exact ⟨k, hk⟩

private theorem int_eq_of_window {T x y : ℝ} (hT : 0 < T) (hx : -(T / 2) < x) (hx' : x ≤ T / 2)
    (hy : -(T / 2) < y) (hy' : y ≤ T / 2) (k : ℤ) (h : x = y + k * T) : x = y := by
  have h1 : (k : ℝ) < 1 := by nlinarith
  have h2 : (-1 : ℝ) < k := by nlinarith
  have h3 : k < 1 := by exact_mod_cast h1
  have h4 : -1 < k := by exact_mod_cast h2
  have : k = 0 := by omega
  simpa [this] using h

theorem C51_signed_radians_unique (a b : Radians ℝ) (h0 : -Real.pi < b.val) (h1 : b.val ≤ Real.pi)
    (k : ℤ) (h : a.val = b.val + k * (2 * Real.pi)) : Angle.normalizeSigned a = b := by
  obtain ⟨l, hl⟩ := C51_signed_radians_congruent a
  have r := C51_signed_radians_range a
  ext
  refine int_eq_of_window (T := 2 * Real.pi) Real.two_pi_pos (by linarith) (by linarith) (by linarith)
    (by linarith) (k - l) ?_
  push_cast; linarith

theorem C51_signed_degrees_range (a : Degrees ℝ) :
    -180 < (Angle.normalizeSigned a).val ∧ (Angle.normalizeSigned a).val ≤ 180 := by
  have h := C50_degrees_range a
  rw [Degrees.normalize_val] at h
  rw [Degrees.normalizeSigned_val]
  split_ifs with h1 <;> constructor <;> linarith

theorem C51_signed_degrees_congruent (a : Degrees ℝ) :
    ∃ k : ℤ, a.val = (Angle.normalizeSigned a).val + k * 360 := by
  obtain ⟨k, hk⟩ := C50_degrees_congruent a
  rw [Degrees.normalize_val] at hk
  rw [Degrees.normalizeSigned_val]
  split_ifs with h1
  · exact ⟨k + 1, by push_cast; linarith⟩
  · exact ⟨k, hk⟩

theorem C51_signed_degrees_unique (a b : Degrees ℝ) (h0 : -180 < b.val) (h1 : b.val ≤ 180)
    (k : ℤ) (h : a.val = b.val + k * 360) : Angle.normalizeSigned a = b := by
  obtain ⟨l, hl⟩ := C51_signed_degrees_congruent a
  have r := C51_signed_degrees_range a
  ext
  refine int_eq_of_window (T := 360) (by norm_num) (by linarith) (by linarith) (by linarith)
    (by linarith) (k - l) ?_
  push_cast; linarith

/-- the opposite angle is half a turn away, normalised ... -/
theorem C51_opposite_radians (a : Radians ℝ) :
    (0 ≤ (Angle.opposite a).val ∧ (Angle.opposite a).val < 2 * Real.pi) ∧
      ∃ k : ℤ, a.val + Real.pi = (Angle.opposite a).val + k * (2 * Real.pi) := by
  refine ⟨C50_radians_range _, ?_⟩
  obtain ⟨k, hk⟩ := C50_radians_congruent (a + Angle.fullTurnDiv2)
  rw [Radians.add_val, Radians.fullTurnDiv2_val] at hk
  exact ⟨k, hk⟩

theorem C51_opposite_degrees (a : Degrees ℝ) :
    (0 ≤ (Angle.opposite a).val ∧ (Angle.opposite a).val < 360) ∧
      ∃ k : ℤ, a.val + 180 = (Angle.opposite a).val + k * 360 := by
  refine ⟨C50_degrees_range _, ?_⟩
  obtain ⟨k, hk⟩ := C50_degrees_congruent (a + Angle.fullTurnDiv2)
  rw [Degrees.add_val, Degrees.fullTurnDiv2_val] at hk
  exact ⟨k, hk⟩

/-- ... and points the other way -/
theorem C51_opposite_radians_trig (a : Radians ℝ) :
    Angle.sin (Angle.opposite a) = -Angle.sin a ∧ Angle.cos (Angle.opposite a) = -Angle.cos a := by
  obtain ⟨-, k, hk⟩ := C51_opposite_radians a
  simp only [Radians.sin_eq, Radians.cos_eq]
  constructor
  · rw [← Real.sin_add_pi, hk, Real.sin_add_int_mul_two_pi]
  · rw [← Real.cos_add_pi, hk, Real.cos_add_int_mul_two_pi]

theorem C51_opposite_opposite_radians (a : Radians ℝ) :
    Angle.opposite (Angle.opposite a) = Angle.normalize a := by
  obtain ⟨-, k, hk⟩ := C51_opposite_radians a
  refine (C50_radians_eq_iff _ _).mpr ⟨1 - k, ?_⟩
  rw [Radians.add_val, Radians.fullTurnDiv2_val]; push_cast; linarith

theorem C51_opposite_opposite_degrees (a : Degrees ℝ) :
    Angle.opposite (Angle.opposite a) = Angle.normalize a := by
  obtain ⟨-, k, hk⟩ := C51_opposite_degrees a
  refine (C50_degrees_eq_iff _ _).mpr ⟨1 - k, ?_⟩
  rw [Degrees.add_val, Degrees.fullTurnDiv2_val]; push_cast; linarith

/-- `bisect` is the normalised midpoint: congruent to `(a + b) / 2`, so twice it is `a + b` modulo full
turns, and it is equally far from both. -/
theorem C51_bisect_radians (a b : Radians ℝ) :
    (0 ≤ (Angle.bisect a b).val ∧ (Angle.bisect a b).val < 2 * Real.pi) ∧
      ∃ k : ℤ, (a.val + b.val) / 2 = (Angle.bisect a b).val + k * (2 * Real.pi) := by
  refine ⟨C50_radians_range _, ?_⟩
  obtain ⟨k, hk⟩ := C50_radians_congruent ((b - a) * (1 / ((2 : ℕ) : ℝ)) + a)
  refine ⟨k, ?_⟩
  have e : (Angle.bisect a b).val = (Angle.normalize ((b - a) * (1 / ((2 : ℕ) : ℝ)) + a)).val := rfl
  rw [e]
  refine Eq.trans ?_ hk
  simp; ring

theorem C51_bisect_degrees (a b : Degrees ℝ) :
    (0 ≤ (Angle.bisect a b).val ∧ (Angle.bisect a b).val < 360) ∧
      ∃ k : ℤ, (a.val + b.val) / 2 = (Angle.bisect a b).val + k * 360 := by
  refine ⟨C50_degrees_range _, ?_⟩
  obtain ⟨k, hk⟩ := C50_degrees_congruent ((b - a) * (1 / ((2 : ℕ) : ℝ)) + a)
  refine ⟨k, ?_⟩
  have e : (Angle.bisect a b).val = (Angle.normalize ((b - a) * (1 / ((2 : ℕ) : ℝ)) + a)).val := rfl
  rw [e]
  refine Eq.trans ?_ hk
  simp; ring

theorem C51_bisect_radians_equidistant (a b : Radians ℝ) :
    ∃ k : ℤ, (Angle.bisect a b).val - a.val = b.val - (Angle.bisect a b).val + k * (2 * Real.pi) := by
  obtain ⟨-, k, hk⟩ := C51_bisect_radians a b
  exact ⟨-(2 * k), by push_cast; linarith⟩

theorem C51_bisect_comm_radians (a b : Radians ℝ) : Angle.bisect a b = Angle.bisect b a := by
  refine (C50_radians_eq_iff _ _).mpr ⟨0, ?_⟩
  simp; ring

/-- 350 degrees is -10, 270 the opposite of 90; the midpoint of 20 and 60 is 40 -/
example : Angle.normalizeSigned (⟨350⟩ : Degrees ℝ) = ⟨-10⟩ :=
  C51_signed_degrees_unique _ _ (by norm_num) (by norm_num) 1 (by norm_num)
example : Angle.bisect (⟨20⟩ : Degrees ℝ) ⟨60⟩ = ⟨40⟩ := by
  refine C50_degrees_unique _ _ (by norm_num) (by norm_num) 0 ?_
  simp; norm_num

end Cgl
