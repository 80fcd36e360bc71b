import Verif.Lemmas.Norms

/-!
# C04 - normalisation of vectors (exact real arithmetic)
-/

namespace Cgl
open Vec

variable {n : ℕ}

/-- A non-zero vector normalises to norm one ... -/
theorem C04_normalize_has_unit_norm (v : Vec ℝ n) (h : v ≠ 0) : v.normalize.norm = 1 :=
  normalize_norm h

/-- ... and is a positive multiple of the input. -/
theorem C04_normalize_same_direction (v : Vec ℝ n) (h : v ≠ 0) :
    ∃ k : ℝ, 0 < k ∧ ∀ i, v.normalize.data i = k * v.data i := by
  refine ⟨1 / v.norm, by have := norm_pos h; positivity, fun i => ?_⟩
  simp [normalize_def, mul_comm]

/-- The two facts determine the result: any unit vector that is a positive multiple of `v` is
`normalize v`. -/
theorem C04_normalize_unique (v w : Vec ℝ n) (h : v ≠ 0) (k : ℝ) (hk : 0 < k) (hw : w = v * k)
    (hn : w.norm = 1) : w = v.normalize := by
  have hv := norm_pos h
  rw [hw, norm_mulS, abs_of_pos hk] at hn
  have : k = 1 / v.norm := by field_simp; linarith
  rw [hw, this]; rfl

theorem C04_normalize_idempotent (v : Vec ℝ n) (h : v ≠ 0) :
    v.normalize.normalize = v.normalize := by
  ext i; simp [normalize_def v.normalize, normalize_norm h]

/-- `try_normalize` fails exactly when the norm does not exceed the threshold. -/
theorem C04_try_normalize_none_iff (v : Vec ℝ n) (t : ℝ) :
    v.tryNormalize t = none ↔ v.norm ≤ t := by
  unfold tryNormalize; split <;> simp_all

theorem C04_try_normalize_some_iff (v w : Vec ℝ n) (t : ℝ) :
    v.tryNormalize t = some w ↔ t < v.norm ∧ w = v.normalize := by
  unfold tryNormalize; split
  · rename_i h; simp [not_lt.mpr h]
  · rename_i h; simp [not_le.mp h, eq_comm]

/-- For a non-negative threshold the result, when there is one, has norm one. -/
theorem C04_try_normalize_unit (v w : Vec ℝ n) (t : ℝ) (ht : 0 ≤ t) (h : v.tryNormalize t = some w) :
    w.norm = 1 := by
  obtain ⟨h1, rfl⟩ := (C04_try_normalize_some_iff v w t).mp h
  apply normalize_norm
  intro h0
  have := (norm_eq_zero v).mpr h0
  linarith

/-- `normalize_mut` stores the normalised vector and returns the previous norm. -/
theorem C04_normalize_mut (v : Vec ℝ n) : v.normalizeMut = (v.normalize, v.norm) := rfl

/-- `try_normalize_mut` leaves the vector untouched exactly on failure. -/
theorem C04_try_normalize_mut_fail (v : Vec ℝ n) (t : ℝ) (h : v.norm ≤ t) :
    v.tryNormalizeMut t = (v, none) := by simp [tryNormalizeMut, h]

theorem C04_try_normalize_mut_ok (v : Vec ℝ n) (t : ℝ) (h : t < v.norm) :
    v.tryNormalizeMut t = (v.normalize, some v.norm) := by
  simp [tryNormalizeMut, not_le.mpr h, normalizeMut]

theorem C04_scale_norm (v : Vec ℝ n) (k : ℝ) : (v.scale k).norm = |k| * v.norm := by
  simp [scale, norm_mulS, mul_comm]

theorem C04_unscale_norm (v : Vec ℝ n) (k : ℝ) (_hk : k ≠ 0) : (v.unscale k).norm = v.norm / |k| := by
  simp [unscale, norm_mulS, abs_inv, div_eq_mul_inv]

theorem C04_unscale_scale (v : Vec ℝ n) (k : ℝ) (hk : k ≠ 0) : (v.scale k).unscale k = v := by
  ext i; simp [scale, unscale, hk]

theorem C04_recompose (v : Vec ℝ n) (h : v ≠ 0) : v.normalize * v.norm = v := normalize_mul_norm h

/-- (3, 4) has norm 5, so thresholds 5 and 4 separate the two outcomes. -/
example : (new2 (3 : ℝ) 4).norm = 5 := by
  rw [norm_def, normSquared, dot2]; simp
  rw [show (3:ℝ) * 3 + 4 * 4 = 5 ^ 2 by norm_num]; exact Real.sqrt_sq (by norm_num)
example : (new2 (3 : ℝ) 4) ≠ 0 := by
  intro h; have := congrArg (fun v => v.data 0) h; simp at this

end Cgl
