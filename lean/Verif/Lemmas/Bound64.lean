import Verif.Lemmas.Num64
import Verif.Spec.Library64

/-! # Bounds on `f64` expressions

`Bd k x`: the datum `x` is a finite number of absolute value at most `2 ^ k`.  Powers of two are not rounded, so the
bounds compose as they do for exact numbers. -/

namespace Cgl
open Ieee FloatFns

def Bd (k : ℤ) (x : Ieee f64) : Prop := x.Finite ∧ |x.val| ≤ 2 ^ k

theorem fl_le_pow {k : ℤ} {a : ℝ} (hk : -1074 ≤ k) (h : |a| ≤ 2 ^ k) : |f64.fl a| ≤ 2 ^ k := by
  rw [← fl_abs]
  have := f64.mono _ _ h
  rwa [fl64_two_zpow hk] at this

theorem pow_le_fl {k : ℤ} {a : ℝ} (hk : -1074 ≤ k) (h : 2 ^ k ≤ a) : 2 ^ k ≤ f64.fl a := by
  have := f64.mono _ _ h
  rwa [fl64_two_zpow hk] at this

theorem two_zpow_le_self_of_le {j k : ℤ} (h : j ≤ k) : (2 : ℝ) ^ j ≤ 2 ^ k := zpow_le_zpow_right₀ one_le_two h

namespace Bd
variable {x y : Ieee f64} {j k : ℤ}

theorem mono (h : Bd j x) (hjk : j ≤ k) : Bd k x := ⟨h.1, h.2.trans (two_zpow_le_self_of_le hjk)⟩
theorem zero : Bd k 0 := ⟨finite_zero, by
  change |(0 : ℝ)| ≤ _
  rw [abs_zero]; positivity⟩
theorem one : Bd 0 1 := ⟨finite_one, by
  change |(1 : ℝ)| ≤ _
  simp⟩
theorem neg (h : Bd k x) : Bd k (-x) := by
  obtain ⟨⟨s, m, hm, rfl⟩, h⟩ := h
  exact ⟨finite_fin _ _ _, by rw [val_neg, abs_neg]; exact h⟩
theorem add (hx : Bd k x) (hy : Bd k y) (h1 : -1075 ≤ k := by norm_num) (h2 : k ≤ 1022 := by norm_num) :
    Bd (k + 1) (x + y) := by
  have h : |f64.fl (x.val + y.val)| ≤ 2 ^ (k + 1) := by
    refine fl_le_pow (by omega) ((abs_add_le _ _).trans ?_)
    rw [zpow_add_one₀ two_ne_zero]
    linarith [hx.2, hy.2]
  have hf := finite_add_of hx.1 hy.1 (h.trans (two_zpow_le_big (by omega)))
  exact ⟨hf, by rw [val_add hf]; exact h⟩
theorem sub (hx : Bd k x) (hy : Bd k y) (h1 : -1075 ≤ k := by norm_num) (h2 : k ≤ 1022 := by norm_num) :
    Bd (k + 1) (x - y) := hx.add hy.neg h1 h2
theorem mul (hx : Bd j x) (hy : Bd k y) (h1 : -1074 ≤ j + k := by norm_num) (h2 : j + k ≤ 1023 := by norm_num) :
    Bd (j + k) (x * y) := by
  have h : |f64.fl (x.val * y.val)| ≤ 2 ^ (j + k) := by
    refine fl_le_pow h1 ?_
    rw [abs_mul, zpow_add₀ two_ne_zero]
    exact mul_le_mul hx.2 hy.2 (abs_nonneg _) (by positivity)
  have hf := finite_mul_of hx.1 hy.1 (h.trans (two_zpow_le_big h2))
  exact ⟨hf, by rw [val_mul hf]; exact h⟩
theorem div (hx : Bd j x) (hf : y.Finite) (hy : 2 ^ k ≤ |y.val|) (h1 : -1074 ≤ j - k := by norm_num)
    (h2 : j - k ≤ 1023 := by norm_num) : Bd (j - k) (x / y) := by
  have hp : (0 : ℝ) < 2 ^ k := by positivity
  have h0 : y.val ≠ 0 := by
    intro h; rw [h, abs_zero] at hy; linarith
  have h : |f64.fl (x.val / y.val)| ≤ 2 ^ (j - k) := by
    refine fl_le_pow h1 ?_
    rw [abs_div, zpow_sub₀ two_ne_zero]
    exact div_le_div₀ (by positivity) hx.2 hp hy
  have hf' := finite_div_of hx.1 hf h0 (h.trans (two_zpow_le_big h2))
  exact ⟨hf', by rw [(val_div hf' hf).1]; exact h⟩
end Bd

theorem le_iff_val {x y : Ieee f64} (hx : x.Finite) (hy : y.Finite) : x ≤ y ↔ x.val ≤ y.val := Is.le_iff ⟨hx, rfl⟩ ⟨hy, rfl⟩
theorem lt_iff_val {x y : Ieee f64} (hx : x.Finite) (hy : y.Finite) : x < y ↔ x.val < y.val := Is.lt_iff ⟨hx, rfl⟩ ⟨hy, rfl⟩

/-- adding a number that is not negative -/
theorem le_add_val {x y : Ieee f64} (hf : (x + y).Finite) (hx : 0 ≤ x.val) (hy : 0 ≤ y.val) :
    x.val ≤ (x + y).val ∧ y.val ≤ (x + y).val := by
  rw [val_add hf]
  constructor
  · conv_lhs => rw [← val_rep x]
    exact f64.mono _ _ (by linarith)
  · conv_lhs => rw [← val_rep y]
    exact f64.mono _ _ (by linarith)

theorem sq_val_nonneg {x : Ieee f64} (hf : (x * x).Finite) : 0 ≤ (x * x).val := by
  rw [val_mul hf]; exact f64.nonneg (mul_self_nonneg _)

/-- Rounding the square and then its square root does not go below the number itself: the radix is two. -/
theorem le_fl_sqrt_fl_sq {x : ℝ} (hx : f64.fl x = x) (hlo : (2 : ℝ) ^ (-511 : ℤ) ≤ x) :
    x ≤ f64.fl (Real.sqrt (f64.fl (x * x))) := by
  have hpos : 0 < x := lt_of_lt_of_le (by positivity) hlo
  set y := f64.fl (x * x) with hy
  have hy0 : 0 ≤ y := f64.nonneg (mul_self_nonneg x)
  rcases le_total x (Real.sqrt y) with h | h
  · conv_lhs => rw [← hx]
    exact f64.mono _ _ h
  set e := Int.log 2 |x| with he
  have h1 : (2 : ℝ) ^ e ≤ x := by
    have := Rounding.two_zpow_log_le hpos.ne'
    rwa [← he, abs_of_pos hpos] at this
  have h2 : x < 2 ^ (e + 1) := by
    have := Rounding.lt_two_zpow_log x
    rwa [← he, abs_of_pos hpos] at this
  have he1 : -511 ≤ e := by
    have := hlo.trans_lt h2
    rw [zpow_lt_zpow_iff_right₀ one_lt_two] at this
    omega
  have hl : Rounding.lastBit 53 (some (-1074)) e = e - 52 := by
    simp only [Rounding.lastBit]; omega
  obtain ⟨m, hm⟩ : ∃ m : ℤ, x = m * 2 ^ (e - 52) := by
    refine ⟨Rounding.roundEven (x / 2 ^ (e - 52)), ?_⟩
    conv_lhs => rw [← hx]
    change Rounding.flEven 53 (some (-1074)) x = _
    simp only [Rounding.flEven, ← he, hl]
  have hg : (0 : ℝ) < 2 ^ (e - 52) := by positivity
  have ee : (2 : ℝ) ^ e = 2 ^ 52 * 2 ^ (e - 52) := by
    rw [← zpow_natCast, ← zpow_add₀ two_ne_zero]; congr 1; push_cast; ring
  have ee1 : (2 : ℝ) ^ (e + 1) = 2 ^ 53 * 2 ^ (e - 52) := by
    rw [← zpow_natCast, ← zpow_add₀ two_ne_zero]; congr 1; push_cast; ring
  have hm1 : (2 : ℝ) ^ 52 ≤ m := by
    rw [ee, hm] at h1; exact le_of_mul_le_mul_right h1 hg
  have hm2 : (m : ℝ) < 2 ^ 53 := by
    rw [ee1] at h2; rw [hm] at h2; exact lt_of_mul_lt_mul_right h2 hg.le
  have hm1' : (2 : ℤ) ^ 52 ≤ m := by exact_mod_cast hm1
  have hm2' : m + 1 ≤ (2 : ℤ) ^ 53 := by have : m < (2 : ℤ) ^ 53 := by exact_mod_cast hm2
                                         omega
  have hm3 : (m : ℝ) + 1 ≤ 2 ^ 53 := by exact_mod_cast hm2'
  rcases hm1'.eq_or_lt with h52 | h52
  · -- a power of two
    have hx2 : x = 2 ^ e := by rw [ee, hm, ← h52]; norm_num
    have : y = x * x := by
      rw [hy, hx2, ← zpow_add₀ two_ne_zero, fl64_two_zpow (by omega)]
    rw [this, Real.sqrt_mul_self hpos.le, hx]
  · have hm4 : (2 : ℝ) ^ 52 + 1 ≤ m := by exact_mod_cast (show (2 : ℤ) ^ 52 + 1 ≤ m by omega)
    have hxx : (2 : ℝ) ^ (-1022 : ℤ) ≤ |x * x| := by
      rw [abs_of_pos (by positivity)]
      calc (2 : ℝ) ^ (-1022 : ℤ) = 2 ^ (-511 : ℤ) * 2 ^ (-511 : ℤ) := by rw [← zpow_add₀ two_ne_zero]; norm_num
        _ ≤ _ := mul_le_mul hlo hlo (by positivity) hpos.le
    have hu : f64.u = 1 / 2 ^ 53 := by
      have : f64.u = 2 ^ (-53 : ℤ) := rfl
      rw [this]; norm_num
    have herr := normal64 (x * x) hxx
    rw [← hy, hu, abs_of_pos (by positivity : 0 < x * x)] at herr
    have hge : x * x - 1 / 2 ^ 53 * (x * x) ≤ y := by linarith [(abs_le.mp herr).1]
    set g := (2 : ℝ) ^ (e - 52)
    -- the square root is within half a unit in the last place
    have key : (m : ℝ) * g - 1 / 2 * g < Real.sqrt y := by
      refine Real.lt_sqrt_of_sq_lt (lt_of_lt_of_le ?_ hge)
      rw [hm]
      have : (m - 1 / 2 : ℝ) ^ 2 < m ^ 2 - 1 / 2 ^ 53 * m ^ 2 := by
        have hq : (m : ℝ) * m ≤ (2 ^ 53 - 1) * m := mul_le_mul_of_nonneg_right (by linarith) (by linarith)
        nlinarith
      have hg2 : 0 < g * g := by positivity
      nlinarith [mul_lt_mul_of_pos_right this hg2]
    have hd : ∀ t : ℝ, t * g * 2 ^ (52 - e) = t := fun t => by
      rw [mul_assoc, ← zpow_add₀ two_ne_zero]; norm_num
    have hp2 : (0 : ℝ) < 2 ^ (52 - e) := by positivity
    have k1 : (m : ℝ) - 1 / 2 < Real.sqrt y * 2 ^ (52 - e) := by
      have := mul_lt_mul_of_pos_right key hp2
      rwa [← sub_mul, hd] at this
    have k2 : Real.sqrt y * 2 ^ (52 - e) ≤ m := by
      have := mul_le_mul_of_nonneg_right h hp2.le
      rwa [hm, hd] at this
    have := fl64_eval (x := Real.sqrt y) e m (by omega)
      (le_trans (by rw [ee]; nlinarith) key.le) (h.trans_lt h2) k1.le (by linarith) (Or.inl ⟨k1, by linarith⟩)
    rw [this]
    exact hm.le

end Cgl
