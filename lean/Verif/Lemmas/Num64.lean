import Verif.Props.C84_SafeRange

/-! # Evaluating `f64` expressions with literals

`Is x a`: the datum `x` is a finite number with the value `a`.  An operation on such data is evaluated by giving the
rounded result; `fl64_eval` checks it. -/

namespace Cgl
open Ieee

theorem roundEven_eq_of {t : ℝ} {m : ℤ} (h1 : (m : ℝ) - 1 / 2 ≤ t) (h2 : t ≤ m + 1 / 2)
    (h : (m : ℝ) - 1 / 2 < t ∧ t < m + 1 / 2 ∨ Even m) : Rounding.roundEven t = m := by
  have hf1 := Int.floor_le t
  have hf2 := Int.lt_floor_add_one t
  have h3 : ⌊t⌋ = m ∨ ⌊t⌋ = m - 1 := by
    have a : (⌊t⌋ : ℝ) < m + 1 := by linarith
    have b : (m : ℝ) - 2 < ⌊t⌋ := by linarith
    have a' : ⌊t⌋ < m + 1 := by exact_mod_cast a
    have b' : m - 2 < ⌊t⌋ := by exact_mod_cast b
    omega
  unfold Rounding.roundEven
  rcases h3 with e | e
  · rw [e] at hf1 hf2 ⊢
    split_ifs with c1 c2 c3
    · rfl
    · linarith
    · rfl
    · rcases h with h | h
      · linarith [h.2]
      · exact absurd h c3
  · rw [e]
    rw [e] at hf1 hf2
    push_cast at hf1 hf2 ⊢
    split_ifs with c1 c2 c3
    · linarith
    · ring
    · rcases h with h | h
      · linarith [h.1]
      · exact absurd c3 (by rw [Int.even_sub_one]; exact not_not_intro h)
    · ring

/-- The `f64` nearest to a positive number: `m * 2 ^ (e - 52)`. -/
theorem fl64_eval {x : ℝ} (e m : ℤ) (he : -1022 ≤ e) (h1 : 2 ^ e ≤ x) (h2 : x < 2 ^ (e + 1))
    (h3 : (m : ℝ) - 1 / 2 ≤ x * 2 ^ (52 - e)) (h4 : x * 2 ^ (52 - e) ≤ m + 1 / 2)
    (h : ((m : ℝ) - 1 / 2 < x * 2 ^ (52 - e) ∧ x * 2 ^ (52 - e) < m + 1 / 2) ∨ Even m) :
    f64.fl x = m * 2 ^ (e - 52) := by
  have hx : 0 < x := lt_of_lt_of_le (by positivity) h1
  have hlog : Int.log 2 |x| = e := by
    rw [abs_of_pos hx]
    have a := h1.trans_lt (by simpa [abs_of_pos hx] using Rounding.lt_two_zpow_log x)
    have b := (by simpa [abs_of_pos hx] using Rounding.two_zpow_log_le hx.ne' : (2 : ℝ) ^ Int.log 2 x ≤ x).trans_lt h2
    rw [zpow_lt_zpow_iff_right₀ one_lt_two] at a b
    omega
  change Rounding.flEven 53 (some (-1074)) x = _
  simp only [Rounding.flEven, hlog]
  have hl : Rounding.lastBit 53 (some (-1074)) e = e - 52 := by
    simp only [Rounding.lastBit]; omega
  have hd : x / 2 ^ (e - 52) = x * 2 ^ (52 - e) := by
    rw [show e - 52 = -(52 - e) by ring, zpow_neg, div_inv_eq_mul]
  rw [hl, hd, roundEven_eq_of h3 h4 h]

/-- `x` is a finite number with the value `a` -/
def Is (x : Ieee f64) (a : ℝ) : Prop := x.Finite ∧ x.val = a

theorem le_big_of {c : ℝ} (h : |c| ≤ 2 ^ (100 : ℤ)) : |c| ≤ f64.big :=
  h.trans (two_zpow_le_big (by norm_num))

namespace Is
variable {x y : Ieee f64} {a b c : ℝ}

theorem zero : Is 0 0 := ⟨finite_zero, rfl⟩
theorem one : Is 1 1 := ⟨finite_one, rfl⟩
theorem neg (hx : Is x a) : Is (-x) (-a) := by
  obtain ⟨⟨s, m, h, rfl⟩, rfl⟩ := hx
  exact ⟨finite_fin _ _ _, val_neg _⟩
theorem add (hx : Is x a) (hy : Is y b) (h : f64.fl (a + b) = c) (hc : |c| ≤ 2 ^ (100 : ℤ)) : Is (x + y) c := by
  obtain ⟨hx, rfl⟩ := hx
  obtain ⟨hy, rfl⟩ := hy
  have := finite_add_of hx hy (by rw [h]; exact le_big_of hc)
  exact ⟨this, by rw [val_add this, h]⟩
theorem sub (hx : Is x a) (hy : Is y b) (h : f64.fl (a - b) = c) (hc : |c| ≤ 2 ^ (100 : ℤ)) : Is (x - y) c :=
  hx.add hy.neg (by rwa [← sub_eq_add_neg]) hc
theorem mul (hx : Is x a) (hy : Is y b) (h : f64.fl (a * b) = c) (hc : |c| ≤ 2 ^ (100 : ℤ)) : Is (x * y) c := by
  obtain ⟨hx, rfl⟩ := hx
  obtain ⟨hy, rfl⟩ := hy
  have := finite_mul_of hx hy (by rw [h]; exact le_big_of hc)
  exact ⟨this, by rw [val_mul this, h]⟩
theorem div (hx : Is x a) (hy : Is y b) (hb : b ≠ 0) (h : f64.fl (a / b) = c) (hc : |c| ≤ 2 ^ (100 : ℤ)) :
    Is (x / y) c := by
  obtain ⟨hx, rfl⟩ := hx
  obtain ⟨hy, rfl⟩ := hy
  have := finite_div_of hx hy hb (by rw [h]; exact le_big_of hc)
  exact ⟨this, by rw [(val_div this hy).1, h]⟩
theorem sqrt [Lib f64] (hx : Is x a) (ha : 0 ≤ a) (h : f64.fl (Real.sqrt a) = c) (hc : |c| ≤ 2 ^ (100 : ℤ)) :
    Is (fsqrt x) c := by
  obtain ⟨hx, rfl⟩ := hx
  rw [Lib.sqrt_eq]
  have := finite_sqrt_of hx ha (by rw [h]; exact le_big_of hc)
  exact ⟨this, by rw [(val_sqrt this).1, h]⟩
theorem zero_mul (hx : Is x a) : Is (0 * x) 0 := Is.zero.mul hx (by rw [MulZeroClass.zero_mul, f64.zero]) (by simp)
theorem mul_zero (hx : Is x a) : Is (x * 0) 0 := hx.mul Is.zero (by rw [MulZeroClass.mul_zero, f64.zero]) (by simp)
/-- adding a number whose value is zero -/
theorem zero_add (hx : Is x 0) (hy : Is y b) (hc : |b| ≤ 2 ^ (100 : ℤ)) : Is (x + y) b :=
  hx.add hy (by rw [_root_.zero_add, ← hy.2, val_rep]) hc
theorem add_zero (hx : Is x a) (hy : Is y 0) (hc : |a| ≤ 2 ^ (100 : ℤ)) : Is (x + y) a :=
  hx.add hy (by rw [_root_.add_zero, ← hx.2, val_rep]) hc
theorem sub_zero (hx : Is x a) (hy : Is y 0) (hc : |a| ≤ 2 ^ (100 : ℤ)) : Is (x - y) a :=
  hx.sub hy (by rw [_root_.sub_zero, ← hx.2, val_rep]) hc
theorem mul_one (hx : Is x a) (hc : |a| ≤ 2 ^ (100 : ℤ)) : Is (x * 1) a :=
  hx.mul Is.one (by rw [_root_.mul_one, ← hx.2, val_rep]) hc
theorem one_mul (hx : Is x a) (hc : |a| ≤ 2 ^ (100 : ℤ)) : Is (1 * x) a :=
  Is.one.mul hx (by rw [_root_.one_mul, ← hx.2, val_rep]) hc

theorem le_iff (hx : Is x a) (hy : Is y b) : x ≤ y ↔ a ≤ b := by
  obtain ⟨⟨s, m, h, rfl⟩, rfl⟩ := hx
  obtain ⟨⟨t, k, h', rfl⟩, rfl⟩ := hy
  constructor
  · rintro ⟨p, q, hp, hq, hpq⟩
    simp only [place, Option.some.injEq] at hp hq
    subst hp hq
    exact EReal.coe_le_coe_iff.mp hpq
  · exact fun h => ⟨_, _, rfl, rfl, EReal.coe_le_coe_iff.mpr h⟩
theorem lt_iff (hx : Is x a) (hy : Is y b) : x < y ↔ a < b := by
  obtain ⟨⟨s, m, h, rfl⟩, rfl⟩ := hx
  obtain ⟨⟨t, k, h', rfl⟩, rfl⟩ := hy
  constructor
  · rintro ⟨p, q, hp, hq, hpq⟩
    simp only [place, Option.some.injEq] at hp hq
    subst hp hq
    exact EReal.coe_lt_coe_iff.mp hpq
  · exact fun h => ⟨_, _, rfl, rfl, EReal.coe_lt_coe_iff.mpr h⟩

theorem pos_eq (hx : Is x a) (ha : 0 < a) : ∃ h, x = fin false a h := by
  obtain ⟨⟨s, m, h, rfl⟩, rfl⟩ := hx
  cases s with
  | false => exact ⟨h, rfl⟩
  | true => exact absurd ha (not_lt.mpr (neg_nonpos.mpr h.1))
theorem eq_pos (hx : Is x a) (hy : Is y a) (ha : 0 < a) : x = y := by
  obtain ⟨h, rfl⟩ := hx.pos_eq ha
  obtain ⟨h', rfl⟩ := hy.pos_eq ha
  rfl
theorem div_zero (hx : Is x a) (ha : 0 < a) : x / 0 = inf false := by
  obtain ⟨h, rfl⟩ := hx.pos_eq ha
  change (if (0 : ℝ) = 0 then (if a = 0 then nan else inf (false ^^ false)) else _) = _
  rw [if_pos rfl, if_neg ha.ne']; rfl
theorem mul_inf (hx : Is x a) (ha : 0 < a) : x * inf false = inf false := by
  obtain ⟨h, rfl⟩ := hx.pos_eq ha
  exact if_neg ha.ne'

/-- the square root of a negative number -/
theorem sqrt_neg [Lib f64] (hx : Is x a) (ha : a < 0) : fsqrt x = nan := by
  obtain ⟨⟨s, m, h, rfl⟩, rfl⟩ := hx
  rw [Lib.sqrt_eq]
  cases s with
  | false => exact absurd ha (not_lt.mpr h.1)
  | true =>
    have : m ≠ 0 := by rintro rfl; simp [val, signed] at ha
    simp [Ieee.sqrt, this]

end Is

/-- a representable literal -/
theorem is_num {a : ℝ} (h : f64.fl a = a) (hb : |a| ≤ 2 ^ (100 : ℤ)) : ∃ x, Is x a := by
  have hf : (Ieee.round false a : Ieee f64).Finite := finite_round (by rw [fl_abs, h]; exact le_big_of hb)
  exact ⟨_, hf, by rw [val_round hf, h]⟩

end Cgl

namespace Cgl
open Ieee

/-- `fl64 e m`: the number on the left rounds to `m * 2 ^ (e - 52)`, which is the literal on the right -/
macro "fl64 " e:term:max m:term:max : term =>
  `((fl64_eval $e $m (by norm_num) (by norm_num) (by norm_num) (by norm_num) (by norm_num)
    (by first | (left; constructor <;> norm_num; done) | (right; exact Int.even_iff.mpr (by norm_num)))).trans (by norm_num))

/-- the `f64` that a literal stands for -/
noncomputable def num (a : ℝ) : Ieee f64 := Ieee.round false a

theorem is_num' {a : ℝ} (h : f64.fl a = a) (hb : |a| ≤ 2 ^ (100 : ℤ)) : Is (num a) a := by
  have hf : (Ieee.round false a : Ieee f64).Finite := finite_round (by rw [fl_abs, h]; exact le_big_of hb)
  exact ⟨hf, by rw [num, val_round hf, h]⟩

theorem fl64_sqrt_eval {x : ℝ} (e m : ℤ) (he : -1022 ≤ e) (h0 : 0 ≤ x) (hm : 1 ≤ m) (h1 : 2 ^ (2 * e) ≤ x) (h2 : x < 2 ^ (2 * e + 2))
    (h3 : ((m : ℝ) - 1 / 2) ^ 2 < x * 2 ^ (104 - 2 * e)) (h4 : x * 2 ^ (104 - 2 * e) < (m + 1 / 2) ^ 2) :
    f64.fl (Real.sqrt x) = m * 2 ^ (e - 52) := by
  have hm' : (1 : ℝ) ≤ m := by exact_mod_cast hm
  have e1 : Real.sqrt x * 2 ^ (52 - e) = Real.sqrt (x * 2 ^ (104 - 2 * e)) := by
    rw [Real.sqrt_mul h0, show (104 : ℤ) - 2 * e = (52 - e) + (52 - e) by ring, zpow_add₀ two_ne_zero,
      Real.sqrt_mul_self (by positivity)]
  have a3 : (m : ℝ) - 1 / 2 < Real.sqrt x * 2 ^ (52 - e) := by
    rw [e1]; exact Real.lt_sqrt_of_sq_lt h3
  have a4 : Real.sqrt x * 2 ^ (52 - e) < m + 1 / 2 := by
    rw [e1, Real.sqrt_lt' (by linarith)]; exact h4
  refine fl64_eval e m he ?_ ?_ a3.le a4.le (.inl ⟨a3, a4⟩)
  · refine Real.le_sqrt_of_sq_le ?_
    rw [sq, ← zpow_add₀ two_ne_zero]; convert h1 using 2; ring
  · rw [Real.sqrt_lt' (by positivity), sq, ← zpow_add₀ two_ne_zero]; convert h2 using 2; ring

end Cgl

namespace Cgl
open Ieee

theorem fl64_neg_eval {x : ℝ} {c : ℝ} (h : f64.fl (-x) = c) : f64.fl x = -c := by
  rw [← neg_neg x, f64.neg, h]

/-- `fl64n e m`: the negative number on the left rounds to `-(m * 2 ^ (e - 52))`, which is the literal on the right -/
macro "fl64n " e:term:max m:term:max : term =>
  `((fl64_neg_eval (fl64_eval $e $m (by norm_num) (by norm_num) (by norm_num) (by norm_num) (by norm_num)
    (by first | (left; constructor <;> norm_num; done) | (right; exact Int.even_iff.mpr (by norm_num))))).trans
      (by norm_num))

end Cgl
