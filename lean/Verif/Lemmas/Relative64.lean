import Verif.Lemmas.Bound64

/-! # Relative errors of `f64` calculations

`Rl k x a`: the computed `x` is finite and is `a` times a factor between `(1 - 2 ^ -53) ^ k` and its reciprocal: the
result of `k` roundings.  A sum of two `f64` numbers is rounded with a relative error even in the subnormal range. -/

namespace Cgl
open Ieee

/-! ### the grid of `f64` -/

theorem grid_of_rep {x : ℝ} {q : ℤ} (h : f64.fl x = x) (hq : q ≤ Rounding.lastBit 53 (some (-1074)) (Int.log 2 |x|)) :
    ∃ m : ℤ, x = m * 2 ^ q := by
  have h' : Rounding.flEven 53 (some (-1074)) x = x := h
  simp only [Rounding.flEven] at h'
  set Q := Rounding.lastBit 53 (some (-1074)) (Int.log 2 |x|)
  obtain ⟨d, hd⟩ := Int.le.dest hq
  refine ⟨Rounding.roundEven (x / 2 ^ Q) * 2 ^ d, ?_⟩
  conv_lhs => rw [← h']
  rw [← hd, zpow_add₀ two_ne_zero, zpow_natCast]
  push_cast
  ring

theorem grid64 {x : ℝ} (h : f64.fl x = x) : ∃ m : ℤ, x = m * 2 ^ (-1074 : ℤ) :=
  grid_of_rep h (by simp [Rounding.lastBit])

theorem grid64_of_le {x : ℝ} {e : ℤ} (h : f64.fl x = x) (he : (2 : ℝ) ^ e ≤ |x|) :
    ∃ m : ℤ, x = m * 2 ^ (e - 52) := by
  refine grid_of_rep h ?_
  have : e ≤ Int.log 2 |x| := (Int.zpow_le_iff_le_log one_lt_two (lt_of_lt_of_le (by positivity) he)).mp (by exact_mod_cast he)
  simp only [Rounding.lastBit]
  omega

/-- sums of numbers on the grid have a relative error, however small -/
theorem fl_sum_err {x y : ℝ} (hx : f64.fl x = x) (hy : f64.fl y = y) :
    |f64.fl (x + y) - (x + y)| ≤ f64.u * |x + y| := by
  by_cases hn : (2 : ℝ) ^ (-1022 : ℤ) ≤ |x + y|
  · exact normal64 _ hn
  obtain ⟨m, hm⟩ := grid64 hx
  obtain ⟨k, hk⟩ := grid64 hy
  have hz : f64.fl (x + y) = x + y := by
    by_cases h0 : x + y = 0
    · rw [h0, f64.zero]
    refine Rounding.flEven_of_int 53 (some (-1074)) (m := m + k) ?_
    have hl : Int.log 2 |x + y| < -1022 := by
      rw [← Int.lt_zpow_iff_log_lt one_lt_two (abs_pos.mpr h0)]
      exact_mod_cast not_le.mp hn
    have : Rounding.lastBit 53 (some (-1074)) (Int.log 2 |x + y|) = -1074 := by
      simp only [Rounding.lastBit]; omega
    rw [this, hm, hk]
    push_cast
    field_simp
  rw [hz, sub_self, abs_zero]
  have : 0 ≤ f64.u := by rw [show f64.u = 2 ^ (-53 : ℤ) from rfl]; positivity
  positivity

/-- a difference of `f64` numbers, if not zero, is not much smaller than their sum -/
theorem sub_ge_of_add_ge {x y : ℝ} {e : ℤ} (hx : f64.fl x = x) (hy : f64.fl y = y) (h : (2 : ℝ) ^ e ≤ |x + y|) (hne : x - y ≠ 0) :
    (2 : ℝ) ^ (e - 54) ≤ |x - y| := by
  have p : (0 : ℝ) < 2 ^ e := by positivity
  by_contra hlt
  rw [not_le] at hlt
  have h54 : (2 : ℝ) ^ (e - 54) ≤ 2 ^ e / 4 := by
    rw [show (2 : ℝ) ^ e / 4 = 2 ^ (e - 2) by rw [zpow_sub₀ two_ne_zero]; norm_num]
    exact two_zpow_le_self_of_le (by omega)
  have hxe : (2 : ℝ) ^ (e - 2) ≤ |x| := by
    rw [zpow_sub₀ two_ne_zero]
    have : |x + y| ≤ 2 * |x| + |x - y| := by
      calc |x + y| = |2 * x - (x - y)| := by ring_nf
        _ ≤ |2 * x| + |x - y| := abs_sub _ _
        _ = _ := by rw [abs_mul, abs_two]
    norm_num
    linarith
  have hye : (2 : ℝ) ^ (e - 2) ≤ |y| := by
    rw [zpow_sub₀ two_ne_zero]
    have : |x + y| ≤ 2 * |y| + |x - y| := by
      calc |x + y| = |2 * y + (x - y)| := by ring_nf
        _ ≤ |2 * y| + |x - y| := abs_add_le _ _
        _ = _ := by rw [abs_mul, abs_two]
    norm_num
    linarith
  obtain ⟨m, hm⟩ := grid64_of_le hx hxe
  obtain ⟨k, hk⟩ := grid64_of_le hy hye
  have hmk : x - y = ((m - k : ℤ) : ℝ) * 2 ^ (e - 54) := by
    rw [show e - 54 = e - 2 - 52 by ring, hm, hk]; push_cast; ring
  have hmk0 : m - k ≠ 0 := by
    intro h0; rw [h0] at hmk; apply hne; rw [hmk]; simp
  have h1 : (1 : ℝ) ≤ |((m - k : ℤ) : ℝ)| := by exact_mod_cast Int.one_le_abs hmk0
  rw [hmk, abs_mul, abs_of_pos (by positivity : (0 : ℝ) < 2 ^ (e - 54))] at hlt
  have : (2 : ℝ) ^ (e - 54) ≤ |((m - k : ℤ) : ℝ)| * 2 ^ (e - 54) := le_mul_of_one_le_left (by positivity) h1
  linarith

/-! ### calculations with a number of roundings -/

/-- one rounding: `1 - 2 ^ -53` -/
noncomputable def rd : ℝ := 1 - 2 ^ (-53 : ℤ)

theorem rd_pos : 0 < rd := by unfold rd; norm_num
theorem rd_le : rd ≤ 1 := by unfold rd; norm_num

/-- `x` is finite and has the value `a`, up to `k` roundings -/
def Rl (k : ℕ) (x : Ieee f64) (a : ℝ) : Prop := x.Finite ∧ ∃ θ : ℝ, x.val = a * θ ∧ rd ^ k ≤ θ ∧ θ * rd ^ k ≤ 1

theorem Rl.exact {x : Ieee f64} (h : x.Finite) : Rl 0 x x.val := ⟨h, 1, by simp⟩

theorem Rl.mono {j k : ℕ} {x : Ieee f64} {a : ℝ} (h : Rl j x a) (hjk : j ≤ k) : Rl k x a := by
  obtain ⟨hf, θ, hv, h1, h2⟩ := h
  have hp : rd ^ k ≤ rd ^ j := pow_le_pow_of_le_one rd_pos.le rd_le hjk
  have hθ : 0 < θ := lt_of_lt_of_le (pow_pos rd_pos _) h1
  exact ⟨hf, θ, hv, hp.trans h1, le_trans (mul_le_mul_of_nonneg_left hp hθ.le) h2⟩

theorem Rl.neg {k : ℕ} {x : Ieee f64} {a : ℝ} (h : Rl k x a) : Rl k (-x) (-a) := by
  obtain ⟨hf, θ, hv, h1, h2⟩ := h
  obtain ⟨s, m, hm, rfl⟩ := hf
  exact ⟨finite_fin _ _ _, θ, by rw [val_neg, hv]; ring, h1, h2⟩

/-- the factor of a relative error -/
theorem factor_of_err {z w : ℝ} (h : |w - z| ≤ f64.u * |z|) : ∃ θ : ℝ, w = z * θ ∧ rd ≤ θ ∧ θ * rd ≤ 1 := by
  by_cases h0 : z = 0
  · refine ⟨1, ?_, rd_le, by simpa using rd_le⟩
    rw [h0, abs_zero, mul_zero] at h
    rw [h0]; simpa [sub_eq_zero] using abs_nonpos_iff.mp h
  refine ⟨w / z, by field_simp, ?_, ?_⟩
  all_goals
    have hb : |w / z - 1| ≤ 2 ^ (-53 : ℤ) := by
      rw [show w / z - 1 = (w - z) / z by field_simp, abs_div, div_le_iff₀ (abs_pos.mpr h0)]
      exact h
    have hb' := abs_le.mp hb
  · unfold rd; linarith [hb'.1]
  · have h1 := hb'.2
    have h2 := rd_pos
    calc w / z * rd ≤ (1 + 2 ^ (-53 : ℤ)) * rd := mul_le_mul_of_nonneg_right (by linarith) h2.le
      _ ≤ 1 := by unfold rd; norm_num

theorem factor_mul {j k : ℕ} {s t : ℝ} (h1 : rd ^ j ≤ s) (h2 : s * rd ^ j ≤ 1) (h3 : rd ^ k ≤ t) (h4 : t * rd ^ k ≤ 1) :
    rd ^ (j + k) ≤ s * t ∧ s * t * rd ^ (j + k) ≤ 1 := by
  have pj := pow_pos rd_pos j
  have pk := pow_pos rd_pos k
  have ps : 0 < s := lt_of_lt_of_le pj h1
  have pt : 0 < t := lt_of_lt_of_le pk h3
  rw [pow_add]
  constructor
  · gcongr
  · calc s * t * (rd ^ j * rd ^ k) = (s * rd ^ j) * (t * rd ^ k) := by ring
      _ ≤ 1 := mul_le_one₀ h2 (by positivity) h4

theorem factor_inv {k : ℕ} {t : ℝ} (h3 : rd ^ k ≤ t) (h4 : t * rd ^ k ≤ 1) : rd ^ k ≤ t⁻¹ ∧ t⁻¹ * rd ^ k ≤ 1 := by
  have pk := pow_pos rd_pos k
  have pt : 0 < t := lt_of_lt_of_le pk h3
  constructor
  · rw [le_inv_comm₀ pk pt, le_inv_comm₀ pt (by positivity)]
    rw [← one_div, le_div_iff₀ pt, mul_comm]; exact h4
  · rw [inv_mul_le_iff₀ pt]; linarith

/-- a rounded result with a relative error adds one rounding -/
theorem Rl.round {k : ℕ} {x : Ieee f64} {z a s : ℝ} (hf : x.Finite) (hv : x.val = f64.fl z) (hz : z = a * s)
    (h1 : rd ^ k ≤ s) (h2 : s * rd ^ k ≤ 1) (he : |f64.fl z - z| ≤ f64.u * |z|) : Rl (k + 1) x a := by
  obtain ⟨θ, hθ, h3, h4⟩ := factor_of_err he
  obtain ⟨h5, h6⟩ := factor_mul h1 h2 (k := 1) (by simpa using h3) (by simpa using h4)
  exact ⟨hf, s * θ, by rw [hv, hθ, hz]; ring, h5, h6⟩

theorem rd_ge (k : ℕ) : 1 - k * 2 ^ (-53 : ℤ) ≤ rd ^ k := by
  have := one_add_mul_le_pow (a := -(2 : ℝ) ^ (-53 : ℤ)) (by norm_num) k
  rw [← sub_eq_add_neg] at this
  unfold rd
  linarith

theorem rd_half {k : ℕ} (hk : k ≤ 2 ^ 50) : (1 / 2 : ℝ) ≤ rd ^ k := by
  refine le_trans ?_ (rd_ge k)
  have hk' : (k : ℝ) ≤ 2 ^ 50 := by exact_mod_cast hk
  have := mul_le_mul_of_nonneg_right hk' (by positivity : (0 : ℝ) ≤ 2 ^ (-53 : ℤ))
  have h : (2 : ℝ) ^ 50 * 2 ^ (-53 : ℤ) = 1 / 8 := by norm_num
  linarith

/-- the bound for many roundings -/
theorem Rl.err2 {k : ℕ} {x : Ieee f64} {a : ℝ} (h : Rl k x a) (hk : k ≤ 2 ^ 50) :
    |x.val - a| ≤ 2 * k * 2 ^ (-53 : ℤ) * |a| := by
  obtain ⟨hf, θ, hv, h1, h2⟩ := h
  have hb := rd_ge k
  have hθ : 0 < θ := lt_of_lt_of_le (pow_pos rd_pos _) h1
  rw [hv, show a * θ - a = (θ - 1) * a by ring, abs_mul]
  refine mul_le_mul_of_nonneg_right ?_ (abs_nonneg _)
  have hk' : (k : ℝ) ≤ 2 ^ 50 := by exact_mod_cast hk
  have hku : (k : ℝ) * 2 ^ (-53 : ℤ) ≤ 1 / 8 := by
    have := mul_le_mul_of_nonneg_right hk' (by positivity : (0 : ℝ) ≤ 2 ^ (-53 : ℤ))
    have h : (2 : ℝ) ^ 50 * 2 ^ (-53 : ℤ) = 1 / 8 := by norm_num
    linarith
  have hku0 : 0 ≤ (k : ℝ) * 2 ^ (-53 : ℤ) := by positivity
  rw [mul_assoc]
  generalize (k : ℝ) * 2 ^ (-53 : ℤ) = w at *
  rw [abs_le]
  constructor
  · linarith
  · have h3 : θ * (1 - w) ≤ 1 := le_trans (mul_le_mul_of_nonneg_left hb hθ.le) h2
    nlinarith

/-- the bound in the usual form -/
theorem Rl.err {k : ℕ} {x : Ieee f64} {a : ℝ} (h : Rl k x a) (hk : k ≤ 64) :
    |x.val - a| ≤ (k + 1) * 2 ^ (-53 : ℤ) * |a| := by
  obtain ⟨hf, θ, hv, h1, h2⟩ := h
  have hb : 1 - k * 2 ^ (-53 : ℤ) ≤ rd ^ k := by
    have := one_add_mul_le_pow (a := -(2 : ℝ) ^ (-53 : ℤ)) (by norm_num) k
    rw [← sub_eq_add_neg] at this
    unfold rd
    linarith
  have hθ : 0 < θ := lt_of_lt_of_le (pow_pos rd_pos _) h1
  rw [hv, show a * θ - a = (θ - 1) * a by ring, abs_mul]
  refine mul_le_mul_of_nonneg_right ?_ (abs_nonneg _)
  have hk' : (k : ℝ) ≤ 64 := by exact_mod_cast hk
  have hk0 : (0 : ℝ) ≤ k := Nat.cast_nonneg k
  have hu : (2 : ℝ) ^ (-53 : ℤ) ≤ 1 / 10000 := by norm_num
  have hu0 : (0 : ℝ) < (2 : ℝ) ^ (-53 : ℤ) := by positivity
  have hu1 : 5000 * (2 : ℝ) ^ (-53 : ℤ) ≤ 1 := by norm_num
  generalize (2 : ℝ) ^ (-53 : ℤ) = u at *
  rw [abs_le]
  constructor
  · nlinarith
  · by_contra hc
    rw [not_le] at hc
    have h3 : θ * (1 - k * u) ≤ 1 := le_trans (mul_le_mul_of_nonneg_left hb hθ.le) h2
    have h4 : 0 < 1 - k * u := by nlinarith
    have h5 : (1 + (k + 1) * u) * (1 - k * u) < 1 := lt_of_lt_of_le (mul_lt_mul_of_pos_right (by linarith) h4) h3
    have h6 : (k * u) * ((k + 1) * u) < u := by
      have hkk : (k : ℝ) * (k + 1) ≤ 64 * 65 := mul_le_mul hk' (by linarith) (by linarith) (by norm_num)
      have : (k : ℝ) * ((k + 1) * u) < 1 := by
        rw [← mul_assoc]
        have := mul_le_mul_of_nonneg_right hkk hu0.le
        linarith
      nlinarith
    nlinarith

/-- the computed value has the size of the exact one -/
theorem Rl.bounds {k : ℕ} {x : Ieee f64} {a : ℝ} (h : Rl k x a) (hk : k ≤ 2 ^ 50) : |a| / 2 ≤ |x.val| ∧ |x.val| ≤ 2 * |a| := by
  obtain ⟨hf, θ, hv, h1, h2⟩ := h
  have hh := rd_half hk
  have hθ : 0 < θ := lt_of_lt_of_le (pow_pos rd_pos _) h1
  have hθ2 : θ ≤ 2 := by nlinarith
  rw [hv, abs_mul, abs_of_pos hθ]
  constructor <;> nlinarith [abs_nonneg a]

theorem zpow_half (k : ℤ) : (2 : ℝ) ^ k / 2 = 2 ^ (k - 1) := by rw [zpow_sub₀ two_ne_zero, zpow_one]
theorem zpow_two_mul (k : ℤ) : 2 * (2 : ℝ) ^ k = 2 ^ (k + 1) := by rw [zpow_add₀ two_ne_zero, zpow_one]; ring

/-- sum and difference of data -/
theorem Rl.add {x y : Ieee f64} (hx : x.Finite) (hy : y.Finite) (h : |x.val + y.val| ≤ 2 ^ (1023 : ℤ)) :
    Rl 1 (x + y) (x.val + y.val) := by
  have hf := finite_add_of hx hy ((fl_le_pow (by norm_num) h).trans (two_zpow_le_big (by norm_num)))
  exact Rl.round (k := 0) (s := 1) hf (val_add hf) (by ring) (by simp) (by simp) (fl_sum_err (val_rep x) (val_rep y))

theorem Rl.sub {x y : Ieee f64} (hx : x.Finite) (hy : y.Finite) (h : |x.val - y.val| ≤ 2 ^ (1023 : ℤ)) :
    Rl 1 (x - y) (x.val - y.val) := by
  have hy' : (-y).Finite := by obtain ⟨s, m, hm, rfl⟩ := hy; exact finite_fin _ _ _
  have := Rl.add hx hy' (by rw [val_neg, ← sub_eq_add_neg]; exact h)
  rwa [val_neg, ← sub_eq_add_neg] at this

/-- product: the exact product is zero or in the normal range -/
theorem Rl.mul {j k : ℕ} {x y : Ieee f64} {a b : ℝ} (hx : Rl j x a) (hy : Rl k y b) (hjk : j + k ≤ 2 ^ 50)
    (h1 : a * b = 0 ∨ (2 : ℝ) ^ (-1000 : ℤ) ≤ |a * b|) (h2 : |a * b| ≤ 2 ^ (1000 : ℤ)) : Rl (j + k + 1) (x * y) (a * b) := by
  obtain ⟨hfx, s, hvx, hs1, hs2⟩ := hx
  obtain ⟨hfy, t, hvy, ht1, ht2⟩ := hy
  obtain ⟨m1, m2⟩ := factor_mul hs1 hs2 ht1 ht2
  have hz : x.val * y.val = a * b * (s * t) := by rw [hvx, hvy]; ring
  have hh := rd_half hjk
  have hst : 0 < s * t := lt_of_lt_of_le (pow_pos rd_pos _) m1
  have hst2 : s * t ≤ 2 := by nlinarith
  have hlo : a * b = 0 ∨ (2 : ℝ) ^ (-1022 : ℤ) ≤ |x.val * y.val| := by
    refine h1.imp id fun h => ?_
    rw [hz, abs_mul, abs_of_pos hst]
    calc (2 : ℝ) ^ (-1022 : ℤ) ≤ 2 ^ (-1000 - 1 : ℤ) := two_zpow_le_self_of_le (by norm_num)
      _ = 2 ^ (-1000 : ℤ) * (1 / 2) := by rw [← zpow_half]; ring
      _ ≤ _ := mul_le_mul h (hh.trans m1) (by norm_num) (abs_nonneg _)
  have hhi : |x.val * y.val| ≤ 2 ^ (1023 : ℤ) := by
    rw [hz, abs_mul, abs_of_pos hst]
    calc |a * b| * (s * t) ≤ 2 ^ (1000 : ℤ) * 2 := mul_le_mul h2 hst2 hst.le (by positivity)
      _ = 2 ^ (1001 : ℤ) := by rw [mul_comm, zpow_two_mul]; norm_num
      _ ≤ _ := two_zpow_le_self_of_le (by norm_num)
  have hf := finite_mul_of hfx hfy ((fl_le_pow (by norm_num) hhi).trans (two_zpow_le_big (by norm_num)))
  refine Rl.round hf (val_mul hf) hz m1 m2 ?_
  rcases hlo with h | h
  · rw [hz, h, zero_mul, f64.zero]; simp
  · exact normal64 _ h

/-- quotient: the exact quotient is zero or in the normal range -/
theorem Rl.div {j k : ℕ} {x y : Ieee f64} {a b : ℝ} (hx : Rl j x a) (hy : Rl k y b) (hjk : j + k ≤ 2 ^ 50) (hb : b ≠ 0)
    (h1 : a / b = 0 ∨ (2 : ℝ) ^ (-1000 : ℤ) ≤ |a / b|) (h2 : |a / b| ≤ 2 ^ (1000 : ℤ)) : Rl (j + k + 1) (x / y) (a / b) := by
  obtain ⟨hfx, s, hvx, hs1, hs2⟩ := hx
  obtain ⟨hfy, t, hvy, ht1, ht2⟩ := hy
  have ht0 : 0 < t := lt_of_lt_of_le (pow_pos rd_pos _) ht1
  obtain ⟨hi1, hi2⟩ := factor_inv ht1 ht2
  obtain ⟨m1, m2⟩ := factor_mul hs1 hs2 hi1 hi2
  have hz : x.val / y.val = a / b * (s * t⁻¹) := by rw [hvx, hvy]; field_simp
  have hh := rd_half hjk
  have hst : 0 < s * t⁻¹ := lt_of_lt_of_le (pow_pos rd_pos _) m1
  have hst2 : s * t⁻¹ ≤ 2 := by nlinarith
  have hlo : a / b = 0 ∨ (2 : ℝ) ^ (-1022 : ℤ) ≤ |x.val / y.val| := by
    refine h1.imp id fun h => ?_
    rw [hz, abs_mul, abs_of_pos hst]
    calc (2 : ℝ) ^ (-1022 : ℤ) ≤ 2 ^ (-1000 - 1 : ℤ) := two_zpow_le_self_of_le (by norm_num)
      _ = 2 ^ (-1000 : ℤ) * (1 / 2) := by rw [← zpow_half]; ring
      _ ≤ _ := mul_le_mul h (hh.trans m1) (by norm_num) (abs_nonneg _)
  have hhi : |x.val / y.val| ≤ 2 ^ (1023 : ℤ) := by
    rw [hz, abs_mul, abs_of_pos hst]
    calc |a / b| * (s * t⁻¹) ≤ 2 ^ (1000 : ℤ) * 2 := mul_le_mul h2 hst2 hst.le (by positivity)
      _ = 2 ^ (1001 : ℤ) := by rw [mul_comm, zpow_two_mul]; norm_num
      _ ≤ _ := two_zpow_le_self_of_le (by norm_num)
  have hy0 : y.val ≠ 0 := by rw [hvy]; exact mul_ne_zero hb ht0.ne'
  have hf := finite_div_of hfx hfy hy0 ((fl_le_pow (by norm_num) hhi).trans (two_zpow_le_big (by norm_num)))
  refine Rl.round hf (val_div hf hfy).1 hz m1 m2 ?_
  rcases hlo with h | h
  · rw [hz, h, zero_mul, f64.zero]; simp
  · exact normal64 _ h

end Cgl
