import Verif.Spec.Rounding
import Mathlib.Tactic.Linarith
import Mathlib.Tactic.NormNum

/-! # The numbers a binary floating-point format represents

They are the `m * 2 ^ q` with `|m| < 2 ^ p` and `q` no smaller than the smallest exponent. -/

namespace Cgl.Rounding
variable {p : ℕ} {qmin : Option ℤ}

/-- `x` is `m * 2 ^ q` for a significand `m` of at most `p` bits and an admissible exponent `q`. -/
def OnGrid (p : ℕ) (qmin : Option ℤ) (x : ℝ) : Prop :=
  ∃ m q : ℤ, x = m * 2 ^ q ∧ |(m : ℝ)| < 2 ^ p ∧ ∀ k ∈ qmin, k ≤ q

theorem lastBit_le_iff {e q : ℤ} : lastBit p qmin e ≤ q ↔ e + 1 - p ≤ q ∧ ∀ k ∈ qmin, k ≤ q := by
  cases qmin <;> simp [lastBit]

theorem le_lastBit (e : ℤ) : ∀ k ∈ qmin, k ≤ lastBit p qmin e := by cases qmin <;> simp [lastBit]

theorem flEven_eq_of_grid {x : ℝ} (h : OnGrid p qmin x) : flEven p qmin x = x := by
  obtain ⟨m, q, rfl, hm, hq⟩ := h
  rcases eq_or_ne (m : ℝ) 0 with h0 | h0
  · rw [h0, zero_mul, flEven_zero]
  have hne : (m : ℝ) * 2 ^ q ≠ 0 := mul_ne_zero h0 (by positivity)
  set e := Int.log 2 |(m : ℝ) * 2 ^ q| with he
  have h1 : (2 : ℝ) ^ e < 2 ^ (p + q : ℤ) := by
    refine (two_zpow_log_le hne).trans_lt ?_
    rw [abs_mul, abs_of_pos (show (0 : ℝ) < 2 ^ q by positivity), zpow_add₀ two_ne_zero, zpow_natCast]
    gcongr
  have h2 : e < p + q := (zpow_lt_zpow_iff_right₀ one_lt_two).mp h1
  have h3 : lastBit p qmin e ≤ q := lastBit_le_iff.mpr ⟨by omega, hq⟩
  obtain ⟨d, hd⟩ := Int.le.dest h3
  refine flEven_of_int p qmin (m := m * 2 ^ d) ?_
  rw [← he, ← hd, zpow_add₀ two_ne_zero, zpow_natCast]
  push_cast; field_simp

theorem grid_of_flEven_eq (hp : 1 ≤ p) {x : ℝ} (h : flEven p qmin x = x) : OnGrid p qmin x := by
  rcases eq_or_ne x 0 with rfl | h0
  · refine ⟨0, lastBit p qmin 0, by simp, by simp, le_lastBit _⟩
  set q := lastBit p qmin (Int.log 2 |x|) with hq
  refine ⟨roundEven (x / 2 ^ q), q, ?_, ?_, le_lastBit _⟩
  · conv_lhs => rw [← h]
    rfl
  · have hx : x = roundEven (x / 2 ^ q) * 2 ^ q := by
      conv_lhs => rw [← h]
      rfl
    have h1 := lt_two_zpow_log x
    have h2 : (2 : ℝ) ^ (Int.log 2 |x| + 1) ≤ 2 ^ (p + q : ℤ) := by
      apply zpow_le_zpow_right₀ one_le_two
      have := lastBit_ge p qmin (Int.log 2 |x|); omega
    have h3 := h1.trans_le h2
    conv_lhs at h3 => rw [hx]
    rw [abs_mul, abs_of_pos (show (0 : ℝ) < 2 ^ q by positivity), zpow_add₀ two_ne_zero, zpow_natCast] at h3
    exact lt_of_mul_lt_mul_right h3 (by positivity)

/-- The representable numbers. -/
theorem flEven_eq_iff (hp : 1 ≤ p) {x : ℝ} : flEven p qmin x = x ↔ OnGrid p qmin x :=
  ⟨grid_of_flEven_eq hp, flEven_eq_of_grid⟩

/-- An integer combination of two representable numbers that is no larger than either of them is representable: the
common reason why remainders and the differences of close numbers are exact. -/
theorem OnGrid.combination {x y : ℝ} (hx : OnGrid p qmin x) (hy : OnGrid p qmin y) (i j : ℤ)
    (h1 : |i * x + j * y| ≤ |x|) (h2 : |i * x + j * y| ≤ |y|) : OnGrid p qmin (i * x + j * y) := by
  obtain ⟨a, q, rfl, ha, hq⟩ := hx
  obtain ⟨b, r, rfl, hb, hr⟩ := hy
  rcases le_total q r with h | h
  · obtain ⟨d, rfl⟩ := Int.le.dest h
    have e : (i * (a * 2 ^ q) + j * (b * 2 ^ (q + d)) : ℝ) = ((i * a + j * b * 2 ^ d : ℤ) : ℝ) * 2 ^ q := by
      rw [zpow_add₀ two_ne_zero, zpow_natCast]; push_cast; ring
    refine ⟨_, q, e, ?_, hq⟩
    rw [e, abs_mul, abs_mul] at h1
    exact (le_of_mul_le_mul_right h1 (by positivity)).trans_lt ha
  · obtain ⟨d, rfl⟩ := Int.le.dest h
    have e : (i * (a * 2 ^ (r + d)) + j * (b * 2 ^ r) : ℝ) = ((i * a * 2 ^ d + j * b : ℤ) : ℝ) * 2 ^ r := by
      rw [zpow_add₀ two_ne_zero, zpow_natCast]; push_cast; ring
    refine ⟨_, r, e, ?_, hr⟩
    rw [e, abs_mul, abs_mul (b : ℝ)] at h2
    exact (le_of_mul_le_mul_right h2 (by positivity)).trans_lt hb

/-- Doubling is exact. -/
theorem OnGrid.double {x : ℝ} (hx : OnGrid p qmin x) : OnGrid p qmin (2 * x) := by
  obtain ⟨a, q, rfl, ha, hq⟩ := hx
  refine ⟨a, q + 1, by rw [zpow_add₀ two_ne_zero]; ring, ha, fun k hk => (hq k hk).trans (by omega)⟩

/-- Half a unit in the last place bounds the error of rounding numbers below `2 ^ (e + 1)`. -/
theorem flEven_err_below {x : ℝ} {e : ℤ} (hx : |x| < 2 ^ (e + 1)) (hq : ∀ k ∈ qmin, k ≤ e + 1 - p) :
    |flEven p qmin x - x| ≤ 2 ^ (e - p) := by
  rcases eq_or_ne x 0 with rfl | h0
  · rw [flEven_zero, sub_zero, abs_zero]; positivity
  refine (flEven_err p qmin x).trans (zpow_le_zpow_right₀ one_le_two ?_)
  have h1 : Int.log 2 |x| < e + 1 := (zpow_lt_zpow_iff_right₀ one_lt_two).mp ((two_zpow_log_le h0).trans_lt hx)
  have : lastBit p qmin (Int.log 2 |x|) ≤ e + 1 - p := lastBit_le_iff.mpr ⟨by omega, hq⟩
  omega

/-- In the normal range the error is relative. -/
theorem flEven_err_normal {x : ℝ} {e : ℤ} (hx : 2 ^ e ≤ |x|) (hq : ∀ k ∈ qmin, k ≤ e + 1 - p) :
    |flEven p qmin x - x| ≤ 2 ^ (-(p : ℤ)) * |x| := by
  have h0 : x ≠ 0 := abs_pos.mp (lt_of_lt_of_le (by positivity) hx)
  have h1 : e < Int.log 2 |x| + 1 := (zpow_lt_zpow_iff_right₀ one_lt_two).mp (hx.trans_lt (lt_two_zpow_log x))
  refine (flEven_err p qmin x).trans ?_
  have : lastBit p qmin (Int.log 2 |x|) ≤ Int.log 2 |x| + 1 - p :=
    lastBit_le_iff.mpr ⟨by omega, fun k hk => (hq k hk).trans (by omega)⟩
  calc (2 : ℝ) ^ (lastBit p qmin (Int.log 2 |x|) - 1) ≤ 2 ^ (-(p : ℤ) + Int.log 2 |x|) :=
        zpow_le_zpow_right₀ one_le_two (by omega)
    _ = 2 ^ (-(p : ℤ)) * 2 ^ Int.log 2 |x| := zpow_add₀ two_ne_zero _ _
    _ ≤ _ := by gcongr; exact two_zpow_log_le h0

end Cgl.Rounding
