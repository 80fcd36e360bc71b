import Verif.Lemmas.Norms
import Mathlib.Tactic.NormNum

/-!
# C05 - `Unit` values have unit norm (exact real arithmetic)
-/

namespace Cgl
open Vec

variable {n : ℕ}

theorem C05_from_value (v : Vec ℝ n) (h : v ≠ 0) :
    (Unit'.fromValue v).value.norm = 1 ∧ ∃ k : ℝ, 0 < k ∧ (Unit'.fromValue v).value = v * k :=
  ⟨normalize_norm h, 1 / v.norm, by have := norm_pos h; positivity, rfl⟩

theorem C05_from_value_with_norm (v : Vec ℝ n) :
    Unit'.fromValueWithNorm v = (Unit'.fromValue v, v.norm) := rfl

theorem C05_try_from_value_with_norm_iff (v : Vec ℝ n) (t : ℝ) (u : Unit' (Vec ℝ n)) (r : ℝ) :
    Unit'.tryFromValueWithNorm v t = some (u, r) ↔
      t * t < v.normSquared ∧ u.value = v.normalize ∧ r = v.norm := by
  unfold Unit'.tryFromValueWithNorm
  simp only [Normed.normSquared, gt_iff_lt]
  split
  · rename_i h
    simp only [h, true_and, Option.some.injEq, Prod.mk.injEq, Unit'.ext_iff]
    constructor
    · rintro ⟨h1, h2⟩; exact ⟨h1.symm, h2.symm⟩
    · rintro ⟨h1, h2⟩; exact ⟨h1.symm, h2.symm⟩
  · rename_i h; simp [h]

theorem C05_try_from_value_none_iff (v : Vec ℝ n) (t : ℝ) :
    Unit'.tryFromValue v t = none ↔ v.normSquared ≤ t * t := by
  unfold Unit'.tryFromValue Unit'.tryFromValueWithNorm
  simp only [Normed.normSquared, gt_iff_lt]
  split
  · rename_i h; simp [not_le.mpr h]
  · rename_i h; simp [not_lt.mp h]

/-- Whatever the threshold, a `Unit` obtained this way has norm one and points along `v`. -/
theorem C05_try_from_value_unit (v : Vec ℝ n) (t : ℝ) (u : Unit' (Vec ℝ n))
    (h : Unit'.tryFromValue v t = some u) : u.value.norm = 1 ∧ u.value = v.normalize := by
  unfold Unit'.tryFromValue at h
  rw [Option.map_eq_some_iff] at h
  obtain ⟨⟨u', r⟩, h1, rfl⟩ := h
  obtain ⟨h2, h3, -⟩ := (C05_try_from_value_with_norm_iff v t u' r).mp h1
  have hv : v ≠ 0 := by
    intro h0
    have := (normSquared_eq_zero v).mpr h0
    have := mul_self_nonneg t
    linarith
  exact ⟨by rw [h3, normalize_norm hv], h3⟩

/-- For non-negative thresholds `try_from_value` accepts exactly the vectors `try_normalize` accepts,
and returns the same vector. -/
theorem C05_try_from_value_eq_try_normalize (v : Vec ℝ n) (t : ℝ) (ht : 0 ≤ t) :
    (Unit'.tryFromValue v t).map Unit'.value = v.tryNormalize t := by
  unfold Unit'.tryFromValue Unit'.tryFromValueWithNorm tryNormalize
  simp only [Normed.normSquared, Normed.normalize, gt_iff_lt]
  have key : t * t < v.normSquared ↔ ¬ v.norm ≤ t := by
    rw [not_le, ← norm_mul_norm]
    exact ⟨fun h => lt_of_mul_self_lt_mul_self₀ v.norm_nonneg h, fun h => mul_self_lt_mul_self ht h⟩
  by_cases h : t * t < v.normSquared
  · simp [h, key.mp h]
  · simp [h, not_not.mp (fun h' => h (key.mpr h'))]

/-- For a negative threshold they differ: the vector (1/2) is accepted by `try_normalize(-1)` and
rejected by `try_from_value(-1)`. -/
theorem C05_negative_threshold_differs :
    ∃ (v : Vec ℝ 1) (t : ℝ), t < 0 ∧ Unit'.tryFromValue v t = none ∧ v.tryNormalize t ≠ none := by
  refine ⟨new1 (1 / 2), -1, by norm_num, ?_, ?_⟩
  · rw [C05_try_from_value_none_iff, normSquared_eq_sum]; simp; norm_num
  · unfold tryNormalize
    have := (new1 (1 / 2 : ℝ)).norm_nonneg
    simp only [ne_eq, ite_eq_left_iff, not_le, reduceCtorEq, imp_false, not_lt]
    linarith

theorem C05_neg_unit (u : Unit' (Vec ℝ n)) : (∀ i, u.negVec.value.data i = -u.value.data i) ∧
    u.negVec.value.norm = u.value.norm := by
  have : (-u.value) = u.value * (-1 : ℝ) := by ext i; simp
  exact ⟨fun i => by simp [Unit'.negVec], by simp [Unit'.negVec, this, norm_mulS]⟩

/-- hypotheses are met by a concrete vector: (3,4) with threshold 1 -/
example : Unit'.tryFromValue (new2 (3 : ℝ) 4) 1 ≠ none := by
  rw [ne_eq, C05_try_from_value_none_iff, normSquared, dot2]; simp; norm_num

end Cgl
