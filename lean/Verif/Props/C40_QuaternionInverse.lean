import Verif.Lemmas.Quaternion

/-!
# C40 - quaternion inverse and one-sided division

`eps` is the machine epsilon the public functions pass; the theorems hold for every `eps ≥ 0` (the ring
facts for every `eps`).
-/

namespace Cgl
open Quat

section Field
variable {K : Type*} [Field K] [LinearOrder K] [IsStrictOrderedRing K] (eps : K) (p q : Quat K)

/-- A returned inverse is a two-sided inverse. -/
theorem C40_try_inverse_some {r : Quat K} (h : q.tryInverse eps = some r) :
    q * r = identity ∧ r * q = identity := by
  unfold tryInverse at h
  dsimp only at h
  split_ifs at h with hc
  have hn : q.normSquared ≠ 0 := by
    intro h0; rw [h0] at hc; exact hc (mul_self_nonneg eps)
  obtain rfl := Option.some.inj h
  rw [normSquared_eq] at *
  have hn' : q.s ^ 2 + q.x ^ 2 + q.y ^ 2 + q.z ^ 2 ≠ 0 := by simpa only [sq] using hn
  constructor <;> apply ext4 <;> simp <;> field_simp <;> ring

omit [IsStrictOrderedRing K] in
/-- `None` exactly when the squared norm is at most `eps²`. -/
theorem C40_try_inverse_none : q.tryInverse eps = none ↔ q.normSquared ≤ eps ^ 2 := by
  unfold tryInverse
  dsimp only
  rw [sq]
  split_ifs with h <;> simp [h]

omit [IsStrictOrderedRing K] in
/-- `inverse` returns the inverse or panics, in exactly the cases of `try_inverse`. -/
theorem C40_inverse : (∀ r, q.inverse eps = .ok r ↔ q.tryInverse eps = some r) ∧
    ((∃ e, q.inverse eps = .error e) ↔ q.tryInverse eps = none) := by
  unfold inverse
  cases h : q.tryInverse eps <;> simp [unwrap]

/-- `p.div_left(q) = q⁻¹ p`: it is the `x` with `q x = p`, and fails with the inverse of `q`. -/
theorem C40_div_left : (∀ x, p.divLeft eps q = some x → q * x = p) ∧
    (p.divLeft eps q = none ↔ q.normSquared ≤ eps ^ 2) := by
  constructor
  · intro x h
    obtain ⟨r, hr, rfl⟩ := Option.map_eq_some_iff.mp h
    rw [← mul_assoc', (C40_try_inverse_some eps q hr).1]
    apply ext4 <;> simp
  · rw [← C40_try_inverse_none]; simp [divLeft]
/-- `p.div_right(q) = p q⁻¹`: it is the `x` with `x q = p`, and fails with the inverse of `q`. -/
theorem C40_div_right : (∀ x, p.divRight eps q = some x → x * q = p) ∧
    (p.divRight eps q = none ↔ q.normSquared ≤ eps ^ 2) := by
  constructor
  · intro x h
    obtain ⟨r, hr, rfl⟩ := Option.map_eq_some_iff.mp h
    rw [mul_assoc', (C40_try_inverse_some eps q hr).2]
    apply ext4 <;> simp
  · rw [← C40_try_inverse_none]; simp [divRight]
omit [IsStrictOrderedRing K] in
/-- one-sided division in terms of the inverse -/
theorem C40_div_eq {r : Quat K} (h : q.tryInverse eps = some r) :
    p.divLeft eps q = some (r * p) ∧ p.divRight eps q = some (p * r) := by
  simp [divLeft, divRight, h]

/-- The inverse of a product is the reversed product of the inverses. -/
theorem C40_inverse_mul {p' q' r : Quat K} (hp : p.tryInverse eps = some p') (hq : q.tryInverse eps = some q')
    (h : (p * q).tryInverse eps = some r) : r = q' * p' := by
  have h1 := C40_try_inverse_some eps p hp
  have h2 := C40_try_inverse_some eps q hq
  have h3 := C40_try_inverse_some eps _ h
  have e : p * q * (q' * p') = identity := by
    rw [mul_assoc', ← mul_assoc' q, h2.1]
    have : (identity : Quat K) * p' = p' := by apply ext4 <;> simp
    rw [this, h1.1]
  calc r = r * identity := by apply ext4 <;> simp
    _ = r * (p * q * (q' * p')) := by rw [e]
    _ = identity * (q' * p') := by rw [← mul_assoc', h3.2]
    _ = q' * p' := by apply ext4 <;> simp

omit [IsStrictOrderedRing K] in
/-- `is_invertible` is true whenever `try_inverse` succeeds; the converse fails only at `|q|² = eps²`. -/
theorem C40_is_invertible : (q.isInvertible eps = true ↔ (q.tryInverse eps).isSome ∨ q.normSquared = eps ^ 2) := by
  unfold isInvertible tryInverse
  dsimp only
  rw [decide_eq_true_iff, sq]
  split_ifs with h
  · simp; exact ⟨fun h' => le_antisymm h h', fun h' => h'.ge⟩
  · simp; exact (not_le.mp h).le
/-- `is_invertible` does not decide `try_inverse`: at norm exactly `eps` they disagree. -/
theorem C40_is_invertible_fails :
    ∃ q : Quat K, q.isInvertible eps = true ∧ q.tryInverse eps = none := by
  refine ⟨fromReal eps, ?_, ?_⟩
  · rw [C40_is_invertible]; right; simp [normSquared_eq, sq]
  · rw [C40_try_inverse_none]; simp [normSquared_eq, sq]
end Field

/-- Over the reals the condition is on the norm itself. -/
theorem C40_try_inverse_none_norm {eps : ℝ} (heps : 0 ≤ eps) (q : Quat ℝ) :
    q.tryInverse eps = none ↔ q.norm ≤ eps := by
  rw [C40_try_inverse_none, ← norm_sq, sq_le_sq₀ q.norm_nonneg heps]
/-- with a zero tolerance only the zero quaternion has no inverse -/
theorem C40_try_inverse_exact (q : Quat ℝ) : q.tryInverse 0 = none ↔ q = 0 := by
  rw [C40_try_inverse_none_norm le_rfl, ← norm_eq_zero]
  exact ⟨fun h => le_antisymm h q.norm_nonneg, fun h => h.le⟩
/-- `|q⁻¹| = 1 / |q|` -/
theorem C40_inverse_norm {eps : ℝ} (q r : Quat ℝ) (h : q.tryInverse eps = some r) : r.norm = 1 / q.norm := by
  have h1 := congrArg Quat.norm (C40_try_inverse_some eps q h).1
  rw [norm_mul] at h1
  have h2 : (identity : Quat ℝ).norm = 1 := by rw [norm_eq_one_iff]; simp [normSquared_eq]
  rw [h2] at h1
  exact eq_one_div_of_mul_eq_one_right h1

example : (new 1 2 3 4 : Quat ℚ).tryInverse (1/100) = some (new (1/30) (-1/15) (-1/10) (-2/15)) := by
  have h : (new 1 2 3 4 : Quat ℚ).normSquared = 30 := by rw [normSquared_eq]; norm_num
  unfold tryInverse
  rw [h]
  norm_num
  apply ext4 <;> simp <;> norm_num
example : (new (1/1000) 0 0 0 : Quat ℚ).tryInverse (1/100) = none := by
  rw [C40_try_inverse_none, normSquared_eq]; norm_num

end Cgl
