import Verif.Lemmas.Absolute
import Verif.Props.C69_SpecialValues

/-! # Errors relative to a size -/

namespace Cgl
open Ieee FloatFns Spec

variable {φ : Format}

namespace Spec

/-- numbers of the size `a` neither overflow nor underflow -/
structure Fits (φ : Format) (a : ℝ) : Prop where
  pos : 0 < a
  under : φ.tiny ≤ φ.u * a
  over : 2 * a ≤ φ.big

/-- a finite number within `e * a` of `c` -/
def Sc (a : ℝ) (x : Ieee φ) (c e : ℝ) : Prop := x.Finite ∧ |x.val - c| ≤ e * a

end Spec

/-! ### rounding relative to a size -/

/-- rounding a number of at most `101/100` times the size -/
theorem Spec.Fits.round {a z : ℝ} (h : Fits φ a) (hu : φ.u ≤ 1 / 1000000) (hz : |z| ≤ 102 / 100 * a) :
    |φ.fl z| ≤ φ.big ∧ |φ.fl z - z| ≤ 203 / 100 * φ.u * a := by
  have h1 := φ.err z
  have h2 := mul_le_mul_of_nonneg_left hz φ.u_nonneg
  have h3 : |φ.fl z - z| ≤ 203 / 100 * φ.u * a := by have := h.under; have := h.pos; have := φ.u_nonneg; nlinarith
  refine ⟨?_, h3⟩
  have h4 := abs_sub_abs_le_abs_sub (φ.fl z) z
  have h5 : φ.u * a ≤ 1 / 1000000 * a := mul_le_mul_of_nonneg_right hu h.pos.le
  have := h.over
  have := h.pos
  linarith

theorem mul_scaled {x y : Ieee φ} {a b c e f : ℝ} (hu : φ.u ≤ 1 / 1000000) (ha : Fits φ a) (hx : x.Finite) (hxe : |x.val - c| ≤ e * a)
    (hc : |c| ≤ a) (hy : Nr y b f) (hb : |b| ≤ 1) (he : e ≤ 1 / 1000) (hf : f ≤ 1 / 1000) :
    Nr (x * y) (c * b) ((1001 / 1000 * e + f + 203 / 100 * φ.u) * a) := by
  have hp := ha.pos
  have hf0 := hy.nonneg
  have he0 : 0 ≤ e := by
    by_contra h
    have := (abs_nonneg _).trans hxe
    nlinarith
  have h1 : |x.val| ≤ 1001 / 1000 * a := by
    have := abs_sub_abs_le_abs_sub x.val c
    nlinarith
  have h2 : |y.val| ≤ 1001 / 1000 := (hy.val_le hb).trans (by linarith)
  have h3 : |x.val * y.val| ≤ 102 / 100 * a := by
    rw [abs_mul]
    have := mul_le_mul h1 h2 (abs_nonneg _) (by positivity)
    linarith
  obtain ⟨h4, h5⟩ := ha.round hu h3
  have h6 := finite_mul_of hx hy.1 h4
  refine ⟨h6, ?_⟩
  rw [val_mul h6]
  have e1 : x.val * y.val - c * b = (x.val - c) * y.val + c * (y.val - b) := by ring
  have e2 : |x.val * y.val - c * b| ≤ (1001 / 1000 * e + f) * a := by
    rw [e1]
    refine (abs_add_le _ _).trans ?_
    rw [abs_mul, abs_mul]
    have k1 := mul_le_mul hxe h2 (abs_nonneg _) (by positivity)
    have k2 := mul_le_mul hc hy.2 (abs_nonneg _) hp.le
    linarith
  have e3 := abs_le.mp e2
  have e4 := abs_le.mp h5
  rw [abs_le]; constructor <;> linarith

theorem abs_val_le_big (x : Ieee φ) : |x.val| ≤ φ.big := by
  have hb := φ.one_le_big
  cases x with
  | nan => change |(0 : ℝ)| ≤ _; rw [abs_zero]; linarith
  | inf s => change |(0 : ℝ)| ≤ _; rw [abs_zero]; linarith
  | fin s m h =>
    have : |(fin s m h : Ieee φ).val| = m := by cases s <;> simp [Ieee.val, signed, abs_of_nonneg h.1]
    rw [this]; exact h.2.1

namespace Spec.Sc
variable {a b c c' e f : ℝ} {x y : Ieee φ}

theorem mono (h : Sc a x c e) (ha : 0 ≤ a) (hle : e ≤ f) : Sc a x c f := ⟨h.1, h.2.trans (mul_le_mul_of_nonneg_right hle ha)⟩

theorem rescale (h : Sc a x c e) (hle : e * a ≤ f * b) : Sc b x c f := ⟨h.1, h.2.trans hle⟩

theorem neg (h : Sc a x c e) : Sc a (-x) (-c) e := by
  have := (show Nr x c (e * a) from h).neg
  exact this

theorem add (hu : φ.u ≤ 1 / 1000000) (ha : Fits φ a) (hx : Sc a x c e) (hy : Sc a y c' f) (h : |c + c'| ≤ a) (hef : e + f ≤ 1 / 100) :
    Sc a (x + y) (c + c') (e + f + 203 / 100 * φ.u) := by
  have hp := ha.pos
  have h1 := abs_le.mp hx.2
  have h2 := abs_le.mp hy.2
  have h3 := abs_le.mp h
  have h5 := mul_le_mul_of_nonneg_right hef hp.le
  obtain ⟨r1, r2⟩ := ha.round hu (z := x.val + y.val) (by rw [abs_le]; constructor <;> linarith)
  have hf := finite_add_of hx.1 hy.1 r1
  refine ⟨hf, ?_⟩
  rw [val_add hf]
  have h4 := abs_le.mp r2
  rw [abs_le]; constructor <;> linarith

theorem sub (hu : φ.u ≤ 1 / 1000000) (ha : Fits φ a) (hx : Sc a x c e) (hy : Sc a y c' f) (h : |c - c'| ≤ a) (hef : e + f ≤ 1 / 100) :
    Sc a (x - y) (c - c') (e + f + 203 / 100 * φ.u) := by
  have := hx.add hu ha hy.neg (by rwa [← sub_eq_add_neg]) hef
  rw [← sub_eq_add_neg] at this
  exact this

theorem mul (hu : φ.u ≤ 1 / 1000000) (ha : Fits φ a) (hx : Sc a x c e) (hc : |c| ≤ a) (hy : Nr y b f) (hb : |b| ≤ 1)
    (he : e ≤ 1 / 1000) (hf : f ≤ 1 / 1000) : Sc a (x * y) (c * b) (1001 / 1000 * e + f + 203 / 100 * φ.u) :=
  mul_scaled hu ha hx.1 hx.2 hc hy hb he hf

theorem mul' (hu : φ.u ≤ 1 / 1000000) (ha : Fits φ a) (hx : Sc a x c e) (hc : |c| ≤ a) (hy : Nr y b f) (hb : |b| ≤ 1)
    (he : e ≤ 1 / 1000) (hf : f ≤ 1 / 1000) : Sc a (y * x) (b * c) (1001 / 1000 * e + f + 203 / 100 * φ.u) := by
  obtain ⟨h1, h2⟩ := hx.mul hu ha hc hy hb he hf
  have hbig : |φ.fl (x.val * y.val)| ≤ φ.big := by rw [← val_mul h1]; exact abs_val_le_big _
  have hf := finite_mul_of hy.1 hx.1 (by rwa [mul_comm])
  refine ⟨hf, ?_⟩
  rw [val_mul hf, mul_comm y.val, ← val_mul h1, mul_comm b]
  exact h2

/-- products of two sizes -/
theorem mulSc (hu : φ.u ≤ 1 / 1000000) (ha : Fits φ (a * b)) (ha0 : 0 < a) (hb0 : 0 < b) (hx : Sc a x c e) (hc : |c| ≤ a) (hy : Sc b y c' f)
    (hc' : |c'| ≤ b) (he : e ≤ 1 / 1000) (hf : f ≤ 1 / 1000) : Sc (a * b) (x * y) (c * c') (101 / 100 * (e + f) + 203 / 100 * φ.u) := by
  have hp := ha.pos
  have hu0 := φ.u_nonneg
  have he0 : 0 ≤ e := le_of_mul_le_mul_right (by rw [zero_mul]; exact (abs_nonneg _).trans hx.2) ha0
  have hf0 : 0 ≤ f := le_of_mul_le_mul_right (by rw [zero_mul]; exact (abs_nonneg _).trans hy.2) hb0
  have hy1 : |y.val| ≤ 1001 / 1000 * b := by
    have h1 := abs_sub_abs_le_abs_sub y.val c'
    have h2 := mul_le_mul_of_nonneg_right hf hb0.le
    have h3 := hy.2
    linarith
  have hdist : |x.val * y.val - c * c'| ≤ 101 / 100 * (e + f) * (a * b) := by
    have e1 : x.val * y.val - c * c' = (x.val - c) * y.val + c * (y.val - c') := by ring
    rw [e1]
    refine (abs_add_le _ _).trans ?_
    rw [abs_mul, abs_mul]
    have k1 := mul_le_mul hx.2 hy1 (abs_nonneg _) (by positivity)
    have k2 := mul_le_mul hc hy.2 (abs_nonneg _) ha0.le
    have k3 : 0 ≤ e * (a * b) := by positivity
    have k4 : 0 ≤ f * (a * b) := by positivity
    linarith
  have hd := abs_le.mp hdist
  have hcc : |c * c'| ≤ a * b := by rw [abs_mul]; exact mul_le_mul hc hc' (abs_nonneg _) ha0.le
  have hq' := abs_le.mp hcc
  have hs : (e + f) * (a * b) ≤ 2 / 1000 * (a * b) := mul_le_mul_of_nonneg_right (by linarith) hp.le
  obtain ⟨r1, r2⟩ := ha.round hu (z := x.val * y.val) (by rw [abs_le]; constructor <;> linarith)
  have hfin := finite_mul_of hx.1 hy.1 r1
  refine ⟨hfin, ?_⟩
  rw [val_mul hfin]
  have h4 := abs_le.mp r2
  rw [abs_le]; constructor <;> linarith

/-- division by a number with the relative error `f` -/
theorem div (hu : φ.u ≤ 1 / 1000000) {n : ℝ} (hn : 0 < n) (ha : Fits φ (a / n)) (hx : Sc a x c e) (hc : |c| ≤ a) (hy : Sc n y n f)
    (he : e ≤ 1 / 1000) (hf : f ≤ 1 / 1000) : Sc (a / n) (x / y) (c / n) (101 / 100 * (e + f) + 203 / 100 * φ.u) := by
  have hp := ha.pos
  have ha0 : 0 < a := by rw [div_pos_iff_of_pos_right hn] at hp; exact hp
  have hu0 := φ.u_nonneg
  have he0 : 0 ≤ e := le_of_mul_le_mul_right (by rw [zero_mul]; exact (abs_nonneg _).trans hx.2) ha0
  have hf0 : 0 ≤ f := le_of_mul_le_mul_right (by rw [zero_mul]; exact (abs_nonneg _).trans hy.2) hn
  have hy1 := abs_le.mp hy.2
  have hfn : f * n ≤ 1 / 1000 * n := mul_le_mul_of_nonneg_right hf hn.le
  have hy0 : 999 / 1000 * n ≤ y.val := by linarith
  have hypos : 0 < y.val := by linarith
  have hdist : |x.val / y.val - c / n| ≤ 101 / 100 * (e + f) * (a / n) := by
    have e1 : x.val / y.val - c / n = ((x.val - c) - c * (y.val - n) / n) / y.val := by field_simp; ring
    rw [e1, abs_div, abs_of_pos hypos, div_le_iff₀ hypos]
    have t1 : |c * (y.val - n) / n| ≤ a * f := by
      rw [abs_div, abs_of_pos hn, div_le_iff₀ hn, abs_mul, mul_assoc]
      exact mul_le_mul hc hy.2 (abs_nonneg _) ha0.le
    have t2 : 101 / 100 * (e + f) * (a / n) * (999 / 1000 * n) ≤ 101 / 100 * (e + f) * (a / n) * y.val :=
      mul_le_mul_of_nonneg_left hy0 (by positivity)
    have t3 : 101 / 100 * (e + f) * (a / n) * (999 / 1000 * n) = 101 / 100 * (999 / 1000) * ((e + f) * a) := by field_simp
    have t4 : 0 ≤ (e + f) * a := by positivity
    calc _ ≤ |x.val - c| + |c * (y.val - n) / n| := abs_sub _ _
      _ ≤ e * a + a * f := add_le_add hx.2 t1
      _ ≤ _ := by linarith
  have hd := abs_le.mp hdist
  have hc' : |c / n| ≤ a / n := by rw [abs_div, abs_of_pos hn]; exact div_le_div_of_nonneg_right hc hn.le
  have hq' := abs_le.mp hc'
  have hs : (e + f) * (a / n) ≤ 2 / 1000 * (a / n) := mul_le_mul_of_nonneg_right (by linarith) hp.le
  obtain ⟨r1, r2⟩ := ha.round hu (z := x.val / y.val) (by rw [abs_le]; constructor <;> linarith)
  have hfin := finite_div_of hx.1 hy.1 hypos.ne' r1
  refine ⟨hfin, ?_⟩
  rw [(val_div hfin hy.1).1]
  have h4 := abs_le.mp r2
  rw [abs_le]; constructor <;> linarith

end Spec.Sc

theorem fits64 {a : ℝ} (h1 : (2 : ℝ) ^ (-1020 : ℤ) ≤ a) (h2 : a ≤ 2 ^ (1000 : ℤ)) : Fits f64 a := by
  refine ⟨lt_of_lt_of_le (by positivity) h1, ?_, ?_⟩
  · change (2 : ℝ) ^ (-1075 : ℤ) ≤ 2 ^ (-53 : ℤ) * a
    calc (2 : ℝ) ^ (-1075 : ℤ) ≤ 2 ^ (-53 + -1020 : ℤ) := zpow_le_zpow_right₀ one_le_two (by norm_num)
      _ = 2 ^ (-53 : ℤ) * 2 ^ (-1020 : ℤ) := zpow_add₀ two_ne_zero _ _
      _ ≤ _ := mul_le_mul_of_nonneg_left h1 (by positivity)
  · refine le_trans ?_ (two_zpow_le_big (k := 1001) (by norm_num))
    calc 2 * a ≤ 2 ^ (1 : ℤ) * 2 ^ (1000 : ℤ) := by rw [zpow_one]; exact mul_le_mul_of_nonneg_left h2 two_pos.le
      _ = 2 ^ (1001 : ℤ) := (zpow_add₀ two_ne_zero _ _).symm

/-- between `2 ^ -k` and `2 ^ k` -/
def Rng (k : ℤ) (a : ℝ) : Prop := (2 : ℝ) ^ (-k) ≤ a ∧ a ≤ 2 ^ k

namespace Rng
variable {a b : ℝ} {k j : ℤ}

theorem pos (h : Rng k a) : 0 < a := lt_of_lt_of_le (by positivity) h.1

theorem mul (ha : Rng k a) (hb : Rng j b) : Rng (k + j) (a * b) := by
  have ha0 := ha.pos
  have hb0 := hb.pos
  refine ⟨?_, ?_⟩
  · rw [neg_add, zpow_add₀ two_ne_zero]; exact mul_le_mul ha.1 hb.1 (by positivity) ha0.le
  · rw [zpow_add₀ two_ne_zero]; exact mul_le_mul ha.2 hb.2 hb0.le (by positivity)

theorem inv (ha : Rng k a) : Rng k a⁻¹ := by
  have ha0 := ha.pos
  refine ⟨?_, ?_⟩
  · rw [zpow_neg]; exact inv_anti₀ ha0 ha.2
  · have := inv_anti₀ (by positivity) ha.1
    rwa [zpow_neg, inv_inv] at this

theorem div (ha : Rng k a) (hb : Rng j b) : Rng (k + j) (a / b) := by rw [div_eq_mul_inv]; exact ha.mul hb.inv

theorem mono (ha : Rng k a) (h : k ≤ j) : Rng j a :=
  ⟨(zpow_le_zpow_right₀ one_le_two (by omega)).trans ha.1, ha.2.trans (zpow_le_zpow_right₀ one_le_two h)⟩

theorem two : Rng 1 2 := ⟨by norm_num, by norm_num⟩

theorem fits (ha : Rng k a) (h : k ≤ 1000) : Fits f64 a :=
  fits64 ((zpow_le_zpow_right₀ one_le_two (by omega)).trans ha.1) (ha.2.trans (zpow_le_zpow_right₀ one_le_two h))

end Rng

end Cgl
