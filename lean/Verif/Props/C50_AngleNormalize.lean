import Verif.Lemmas.Angle

/-! # C50 - `normalize` returns the representative in `[0, full turn)` (exact real arithmetic) -/

namespace Cgl

private theorem two_pi_pos' : (0 : ℝ) < 2 * Real.pi := Real.two_pi_pos
private theorem h360 : (0 : ℝ) < 360 := by norm_num

theorem C50_radians_range (a : Radians ℝ) :
    0 ≤ (Angle.normalize a).val ∧ (Angle.normalize a).val < 2 * Real.pi := by
  rw [Radians.normalize_val]; exact reduce_range two_pi_pos' _

theorem C50_radians_congruent (a : Radians ℝ) :
    ∃ k : ℤ, a.val = (Angle.normalize a).val + k * (2 * Real.pi) := by
  rw [Radians.normalize_val]; exact reduce_congruent two_pi_pos' _

/-- ... and these two facts determine the result -/
theorem C50_radians_unique (a b : Radians ℝ) (h0 : 0 ≤ b.val) (h1 : b.val < 2 * Real.pi) (k : ℤ)
    (h : a.val = b.val + k * (2 * Real.pi)) : Angle.normalize a = b := by
  ext; rw [Radians.normalize_val]; exact reduce_unique two_pi_pos' _ _ h0 h1 k h

theorem C50_radians_idempotent (a : Radians ℝ) :
    Angle.normalize (Angle.normalize a) = Angle.normalize a :=
  C50_radians_unique _ _ (C50_radians_range a).1 (C50_radians_range a).2 0 (by simp)

/-- equal results exactly for angles that differ by whole turns -/
theorem C50_radians_eq_iff (a b : Radians ℝ) :
    Angle.normalize a = Angle.normalize b ↔ ∃ k : ℤ, a.val = b.val + k * (2 * Real.pi) := by
  constructor
  · intro h
    obtain ⟨k, hk⟩ := C50_radians_congruent a
    obtain ⟨l, hl⟩ := C50_radians_congruent b
    rw [h] at hk
    exact ⟨k - l, by push_cast; linarith⟩
  · rintro ⟨k, hk⟩
    obtain ⟨l, hl⟩ := C50_radians_congruent b
    exact C50_radians_unique a _ (C50_radians_range b).1 (C50_radians_range b).2 (l + k)
      (by push_cast; linarith)

theorem C50_radians_trig (a : Radians ℝ) :
    Angle.sin (Angle.normalize a) = Angle.sin a ∧ Angle.cos (Angle.normalize a) = Angle.cos a := by
  obtain ⟨k, hk⟩ := C50_radians_congruent a
  simp only [Radians.sin_eq, Radians.cos_eq]
  constructor
  · rw [hk, Real.sin_add_int_mul_two_pi]
  · rw [hk, Real.cos_add_int_mul_two_pi]

theorem C50_degrees_range (a : Degrees ℝ) :
    0 ≤ (Angle.normalize a).val ∧ (Angle.normalize a).val < 360 := by
  rw [Degrees.normalize_val]; exact reduce_range h360 _

theorem C50_degrees_congruent (a : Degrees ℝ) :
    ∃ k : ℤ, a.val = (Angle.normalize a).val + k * 360 := by
  rw [Degrees.normalize_val]; exact reduce_congruent h360 _

theorem C50_degrees_unique (a b : Degrees ℝ) (h0 : 0 ≤ b.val) (h1 : b.val < 360) (k : ℤ)
    (h : a.val = b.val + k * 360) : Angle.normalize a = b := by
  ext; rw [Degrees.normalize_val]; exact reduce_unique h360 _ _ h0 h1 k h

theorem C50_degrees_idempotent (a : Degrees ℝ) :
    Angle.normalize (Angle.normalize a) = Angle.normalize a :=
  C50_degrees_unique _ _ (C50_degrees_range a).1 (C50_degrees_range a).2 0 (by simp)

theorem C50_degrees_eq_iff (a b : Degrees ℝ) :
    Angle.normalize a = Angle.normalize b ↔ ∃ k : ℤ, a.val = b.val + k * 360 := by
  constructor
  · intro h
    obtain ⟨k, hk⟩ := C50_degrees_congruent a
    obtain ⟨l, hl⟩ := C50_degrees_congruent b
    rw [h] at hk
    exact ⟨k - l, by push_cast; linarith⟩
  · rintro ⟨k, hk⟩
    obtain ⟨l, hl⟩ := C50_degrees_congruent b
    exact C50_degrees_unique a _ (C50_degrees_range b).1 (C50_degrees_range b).2 (l + k)
      (by push_cast; linarith)

theorem C50_degrees_trig (a : Degrees ℝ) :
    Angle.sin (Angle.normalize a) = Angle.sin a ∧ Angle.cos (Angle.normalize a) = Angle.cos a := by
  obtain ⟨k, hk⟩ := C50_degrees_congruent a
  have e : (Radians.ofDegrees a).val =
      (Radians.ofDegrees (Angle.normalize a)).val + k * (2 * Real.pi) := by
    simp only [Radians.ofDegrees_val]; nth_rewrite 1 [hk]; ring
  constructor
  · show Real.sin _ = Real.sin _
    rw [e, Real.sin_add_int_mul_two_pi]
  · show Real.cos _ = Real.cos _
    rw [e, Real.cos_add_int_mul_two_pi]

/-- -30 degrees normalises to 330 degrees, 1000 degrees to 280 -/
example : Angle.normalize (⟨-30⟩ : Degrees ℝ) = ⟨330⟩ :=
  C50_degrees_unique _ _ (by norm_num) (by norm_num) (-1) (by norm_num)
example : Angle.normalize (⟨1000⟩ : Degrees ℝ) = ⟨280⟩ :=
  C50_degrees_unique _ _ (by norm_num) (by norm_num) 2 (by norm_num)

end Cgl
