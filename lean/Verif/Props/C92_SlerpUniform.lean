import Verif.Props.C92_Slerp
import Verif.Lemmas.Grid

/-! # C92 - spherical interpolation in formats with few digits

With a library whose sine and inverse cosine have small relative errors, the error on the arc does not grow when the
angle becomes small, although the code divides by the sine of the angle. -/

namespace Cgl
open Ieee FloatFns Quat Spec InnerProductGeometry Rounding

/-- Squares of representable numbers near one are rounded to the nearest multiple of `1 - pred 1`, of which `2 c - 1` is
one; and what is missing to one is then representable. -/
structure Spec.SquareNearOne (φ : Format) : Prop where
  square : ∀ c, φ.fl c = c → 3 / 4 ≤ c → c ≤ 1 → |φ.fl (c * c) - c * c| ≤ (1 - c) ^ 2
  rest : ∀ c, φ.fl c = c → 3 / 4 ≤ c → c ≤ 1 → φ.fl (1 - φ.fl (c * c)) = 1 - φ.fl (c * c)

theorem roundEven_nearest (z : ℝ) (n : ℤ) : |(roundEven z : ℝ) - z| ≤ |(n : ℝ) - z| := by
  rcases eq_or_ne (roundEven z) n with h | h
  · rw [h]
  · have h1 := roundEven_err z
    have h2 : (1 : ℝ) ≤ |((roundEven z : ℤ) : ℝ) - n| := by
      have : (1 : ℤ) ≤ |roundEven z - n| := Int.one_le_abs (sub_ne_zero.mpr h)
      exact_mod_cast this
    have h3 := abs_sub_abs_le_abs_sub ((roundEven z : ℝ) - n) ((roundEven z : ℝ) - z)
    rw [show (roundEven z : ℝ) - n - ((roundEven z : ℝ) - z) = -(n - z) by ring, abs_neg] at h3
    linarith

theorem log_near_one {x : ℝ} (h0 : 1 / 2 ≤ x) (h1 : x < 1) : Int.log 2 |x| = -1 := by
  have hx : x ≠ 0 := by linarith
  rw [abs_of_pos (by linarith)]
  have h2 := two_zpow_log_le hx
  have h3 := lt_two_zpow_log x
  rw [abs_of_pos (by linarith)] at h2 h3
  have h4 : (2 : ℝ) ^ Int.log 2 x < 2 ^ (0 : ℤ) := by simpa using h2.trans_lt h1
  have h5 : (2 : ℝ) ^ (-1 : ℤ) < 2 ^ (Int.log 2 x + 1) := by
    refine lt_of_le_of_lt ?_ h3
    norm_num; linarith
  have h6 := (zpow_lt_zpow_iff_right₀ one_lt_two).mp h4
  have h7 := (zpow_lt_zpow_iff_right₀ one_lt_two).mp h5
  omega

theorem squareNearOne {p : ℕ} {qmin : Option ℤ} (hp : 1 ≤ p) (hq : ∀ m ∈ qmin, m ≤ -(p : ℤ)) {c : ℝ}
    (hc : flEven p qmin c = c) (h0 : 3 / 4 ≤ c) (h1 : c ≤ 1) :
    |flEven p qmin (c * c) - c * c| ≤ (1 - c) ^ 2 ∧ flEven p qmin (1 - flEven p qmin (c * c)) = 1 - flEven p qmin (c * c) := by
  have h2p : (0 : ℝ) < 2 ^ (-(p : ℤ)) := by positivity
  rcases h1.eq_or_lt with rfl | h1
  · rw [mul_one, hc]
    simp [flEven_zero]
  have hb : lastBit p qmin (-1) = -p := by
    cases qmin with
    | none => simp [lastBit]
    | some m => have := hq m rfl; simp [lastBit, this]
  have hbc : lastBit p qmin (Int.log 2 |c|) = -p := by rw [log_near_one (by linarith) h1, hb]
  have hbs : lastBit p qmin (Int.log 2 |c * c|) = -p := by rw [log_near_one (by nlinarith) (by nlinarith), hb]
  obtain ⟨m, hm⟩ : ∃ m : ℤ, c = m * 2 ^ (-(p : ℤ)) := by
    refine ⟨roundEven (c / 2 ^ (-(p : ℤ))), ?_⟩
    have : flEven p qmin c = roundEven (c / 2 ^ (-(p : ℤ))) * 2 ^ (-(p : ℤ)) := by simp only [flEven, hbc]
    rw [← this, hc]
  have hf : flEven p qmin (c * c) = roundEven (c * c / 2 ^ (-(p : ℤ))) * 2 ^ (-(p : ℤ)) := by simp only [flEven, hbs]
  have h21 : (2 : ℝ) ^ p * 2 ^ (-(p : ℤ)) = 1 := by
    rw [← zpow_natCast, ← zpow_add₀ two_ne_zero]; simp
  constructor
  · have hn := roundEven_nearest (c * c / 2 ^ (-(p : ℤ))) (2 * m - 2 ^ p)
    have k := mul_le_mul_of_nonneg_right hn h2p.le
    rw [← abs_of_pos h2p, ← abs_mul, ← abs_mul, abs_of_pos h2p, sub_mul, sub_mul, div_mul_cancel₀ _ h2p.ne', ← hf] at k
    refine k.trans (le_of_eq ?_)
    push_cast
    rw [sub_mul, h21, mul_assoc, ← hm, show 2 * c - 1 - c * c = -(1 - c) ^ 2 by ring, abs_neg, abs_of_nonneg (sq_nonneg _)]
  · rw [hf]
    set k := roundEven (c * c / 2 ^ (-(p : ℤ)))
    have e : 1 - (k : ℝ) * 2 ^ (-(p : ℤ)) = ((2 ^ p - k : ℤ) : ℝ) * 2 ^ (-(p : ℤ)) := by
      push_cast; rw [sub_mul, h21]
    have hpp : (2 : ℝ) ≤ 2 ^ p := by
      calc (2 : ℝ) = 2 ^ 1 := by norm_num
        _ ≤ _ := pow_le_pow_right₀ one_le_two hp
    have hz : c * c / 2 ^ (-(p : ℤ)) = c * c * 2 ^ p := by
      rw [zpow_neg, zpow_natCast, div_inv_eq_mul]
    have k1 : (1 : ℤ) ≤ k := le_roundEven_of_le (by push_cast; rw [hz]; nlinarith)
    have k2 : k ≤ 2 ^ p := roundEven_le_of_le (by push_cast; rw [hz]; nlinarith)
    rw [e]
    refine flEven_eq_of_grid ⟨2 ^ p - k, -p, rfl, ?_, fun m hm => hq m hm⟩
    have k1' : (1 : ℝ) ≤ k := by exact_mod_cast k1
    have k2' : (k : ℝ) ≤ 2 ^ p := by exact_mod_cast k2
    push_cast
    rw [abs_of_nonneg (by linarith)]
    linarith

theorem squareNearOne64 : SquareNearOne f64 where
  square _ h a b := (squareNearOne (p := 53) (qmin := some (-1074)) (by norm_num) (by simp) h a b).1
  rest _ h a b := (squareNearOne (p := 53) (qmin := some (-1074)) (by norm_num) (by simp) h a b).2

theorem squareNearOne32 : SquareNearOne f32 where
  square _ h a b := (squareNearOne (p := 24) (qmin := some (-149)) (by norm_num) (by simp) h a b).1
  rest _ h a b := (squareNearOne (p := 24) (qmin := some (-149)) (by norm_num) (by simp) h a b).2

/-- The sine and the inverse cosine of the library have relative errors of at most `a`, up to underflow. -/
structure Spec.SineRelative (φ : Format) [Lib φ] (a : ℝ) : Prop where
  sin : ∀ x : Ieee φ, x.Finite → |x.val| ≤ 4 → (fsin x).Finite ∧ |(fsin x).val - Real.sin x.val| ≤ a * |x.val| + φ.tiny
  acos : ∀ x : Ieee φ, x.Finite → |x.val| ≤ 1 →
    (facos x).Finite ∧ |(facos x).val - Real.arccos x.val| ≤ a * Real.arccos x.val + φ.tiny

variable {φ : Format}

section
variable {d : ℝ} (hφ : Fine φ) (hn : SquareNearOne φ) (hd : d ≤ 1 / 1000000) (hwd : unit φ ≤ d)
include hφ hn

theorem sqrt_unit : 0 ≤ Real.sqrt (unit φ) ∧ Real.sqrt (unit φ) ≤ 1 / 1000 ∧ Real.sqrt (unit φ) * Real.sqrt (unit φ) = unit φ :=
  ⟨Real.sqrt_nonneg _, Real.sqrt_le_iff.mpr ⟨by norm_num, by norm_num; linarith [hφ.unit_le]⟩,
    Real.mul_self_sqrt unit_nonneg⟩

/-- the square of the sine has a small relative error -/
theorem one_sub_sq_rel {c : Ieee φ} (hc : c.Finite) (h1 : |c.val| < 1) :
    |(1 - c * c).val - (1 - c.val ^ 2)| ≤ 4 / 7 * Real.sqrt (unit φ) * (1 - c.val ^ 2) := by
  obtain ⟨y0, y1, y2⟩ := sqrt_unit hφ hn
  obtain ⟨v1, v2⟩ := one_sub_sq hφ hc h1
  rcases lt_or_ge |c.val| (3 / 4) with h | h
  · refine v1.2.trans ?_
    have : c.val ^ 2 ≤ (3 / 4) ^ 2 := by rw [← sq_abs]; exact pow_le_pow_left₀ (abs_nonneg _) h.le 2
    have hu := mul_le_mul_of_nonneg_right y1 y0
    linarith [mul_nonneg y0 (show 0 ≤ 9 / 16 - c.val ^ 2 by linarith)]
  · set b := |c.val|
    have hb : φ.fl b = b := by rw [fl_abs, val_rep]
    have hm := (Nr.exact hc).mul hφ (Nr.exact hc) h1.le h1.le (M := 1) (by norm_num) le_rfl (by norm_num)
    have e1 : (c * c).val = φ.fl (b * b) := by rw [val_mul hm.1, abs_mul_abs_self]
    have e2 : (1 - c * c).val = 1 - φ.fl (b * b) := by
      rw [val_sub v1.1, e1, val_one, hn.rest b hb h h1.le]
    have e3 : c.val ^ 2 = b * b := by rw [abs_mul_abs_self]; ring
    rw [e2, e3, show 1 - φ.fl (b * b) - (1 - b * b) = -(φ.fl (b * b) - b * b) by ring, abs_neg]
    have s1 := hn.square b hb h h1.le
    have s2 : |φ.fl (b * b) - b * b| ≤ unit φ := by
      have := fl_err_unit (φ := φ) (z := b * b) (M := 1) (by rw [abs_of_nonneg (by positivity)]; nlinarith) le_rfl
      linarith
    have s3 : |φ.fl (b * b) - b * b| ≤ (1 - b) * Real.sqrt (unit φ) := by
      have h0 := abs_nonneg (φ.fl (b * b) - b * b)
      refine abs_le_of_sq_le_sq' ?_ (mul_nonneg (by linarith) y0) |>.2
      rw [mul_pow, sq (Real.sqrt _), y2, sq]
      exact mul_le_mul s1 s2 h0 (sq_nonneg _)
    nlinarith [mul_nonneg (mul_nonneg y0 (show 0 ≤ 1 - b by linarith)) (show 0 ≤ b - 3 / 4 by linarith)]

variable [Lib φ]

set_option maxHeartbeats 1000000 in
/-- the sine -/
theorem sine_rel {c : Ieee φ} (hc : c.Finite) (h1 : |c.val| < 1) {τ : ℝ} (hτ0 : 0 < τ) (hτ : φ.tiny ≤ φ.u * τ)
    (hs : τ ≤ (fsqrt (1 - c * c)).val) :
    Nr (fsqrt (1 - c * c)) (Real.sqrt (1 - c.val ^ 2)) (3 / 10 * Real.sqrt (unit φ) * Real.sqrt (1 - c.val ^ 2)) ∧
      0 < Real.sqrt (1 - c.val ^ 2) ∧ τ ≤ 101 / 100 * Real.sqrt (1 - c.val ^ 2) := by
  obtain ⟨y0, y1, y2⟩ := sqrt_unit hφ hn
  obtain ⟨v1, v2⟩ := one_sub_sq hφ hc h1
  have hv := one_sub_sq_rel hφ hn hc h1
  have hu0 := φ.u_nonneg
  have huw : φ.u ≤ unit φ := by unfold unit; linarith [φ.tiny_nonneg]
  have hc2 : c.val ^ 2 < 1 := by rw [← sq_abs]; nlinarith [abs_nonneg c.val]
  have hsp : 0 < Real.sqrt (1 - c.val ^ 2) := Real.sqrt_pos.mpr (by linarith)
  have hs2 : Real.sqrt (1 - c.val ^ 2) * Real.sqrt (1 - c.val ^ 2) = 1 - c.val ^ 2 := Real.mul_self_sqrt (by linarith)
  have hr2 : Real.sqrt (1 - c * c).val * Real.sqrt (1 - c * c).val = (1 - c * c).val := Real.mul_self_sqrt v2
  have hr0 := Real.sqrt_nonneg (1 - c * c).val
  have hvl := abs_le.mp v1.2
  have hq := sqrt_plain hφ (M := 1001 / 1000) v1.1 v2 (by linarith [sq_nonneg c.val, hφ.unit_le]) (by norm_num) (by norm_num)
  have he : (fsqrt (1 - c * c)).val = φ.fl (Real.sqrt (1 - c * c).val) := by
    have := hq.1
    rw [Lib.sqrt_eq] at this ⊢
    exact (val_sqrt this).1
  have herr := φ.err (Real.sqrt (1 - c * c).val)
  rw [← he, abs_of_nonneg hr0] at herr
  set s := Real.sqrt (1 - c.val ^ 2)
  set r := Real.sqrt (1 - c * c).val
  set η := Real.sqrt (unit φ)
  -- the roots
  have hrs : |r - s| ≤ 29 / 100 * η * s := by
    have e : (r - s) * (r + s) = (1 - c * c).val - (1 - c.val ^ 2) := by rw [← hr2, ← hs2]; ring
    rw [← e, abs_mul, abs_of_nonneg (by linarith : 0 ≤ r + s), ← hs2] at hv
    have r1 : |r - s| ≤ 4 / 7 * η * s := by
      have : |r - s| * s ≤ 4 / 7 * η * s * s := by nlinarith [mul_nonneg (abs_nonneg (r - s)) hr0]
      exact le_of_mul_le_mul_right this hsp
    have r2 : 999 / 1000 * s ≤ r := by
      have := (abs_le.mp r1).1
      nlinarith [mul_le_mul_of_nonneg_right y1 hsp.le]
    have : |r - s| * (1999 / 1000 * s) ≤ 29 / 100 * η * s * (1999 / 1000 * s) := by
      have := mul_le_mul_of_nonneg_left (show 1999 / 1000 * s ≤ r + s by linarith) (abs_nonneg (r - s))
      nlinarith [mul_nonneg y0 (mul_nonneg hsp.le hsp.le)]
    exact le_of_mul_le_mul_right this (by positivity)
  have hus : φ.u * s ≤ 1 / 1000 * (η * s) := by
    have i1 := mul_le_mul_of_nonneg_right y1 y0
    have : φ.u ≤ 1 / 1000 * η := by linarith
    linarith [mul_le_mul_of_nonneg_right this hsp.le]
  have hηs : η * s ≤ 1 / 1000 * s := mul_le_mul_of_nonneg_right y1 hsp.le
  have hrs' := abs_le.mp hrs
  have hur : φ.u * r ≤ 101 / 100 * (φ.u * s) := by
    have : r ≤ 101 / 100 * s := by linarith
    linarith [mul_le_mul_of_nonneg_left this hu0]
  have hu6 : φ.u ≤ 1 / 1000000 := huw.trans hφ.unit_le
  have herr' := abs_le.mp herr
  have hτs : τ ≤ 101 / 100 * s := by
    have i1 := mul_le_mul_of_nonneg_right hu6 hτ0.le
    have i2 := mul_le_mul_of_nonneg_right hu6 hr0
    linarith
  have huτ : φ.u * τ ≤ 101 / 100 * (φ.u * s) := by linarith [mul_le_mul_of_nonneg_left hτs hu0]
  refine ⟨⟨hq.1, ?_⟩, hsp, hτs⟩
  rw [abs_le]
  constructor <;> linarith

set_option maxHeartbeats 1000000 in
include hd hwd in
/-- the weights -/
theorem weight_rel {a : ℝ} (ha : SineRelative φ a) (ha0 : 0 ≤ a) (had : a ≤ d) {c : Ieee φ} (hc : c.Finite) (h1 : |c.val| < 1)
    (h2 : -(1 / 1000) ≤ c.val) {τ : ℝ} (hτ0 : 0 < τ) (hτ : φ.tiny ≤ φ.u * τ)
    (hs : τ ≤ (fsqrt (1 - c * c)).val) {x : Ieee φ} {X : ℝ} (hx : Nr x X (unit φ)) (hX : 0 ≤ X ∧ X ≤ 1) :
    |Real.sin (X * Real.arccos c.val) / Real.sin (Real.arccos c.val)| ≤ 101 / 100 ∧
    Nr (fsin (x * facos c) / fsqrt (1 - c * c)) (Real.sin (X * Real.arccos c.val) / Real.sin (Real.arccos c.val))
      (14 * d + 32 / 100 * Real.sqrt (unit φ)) := by
  obtain ⟨y0, y1, y2⟩ := sqrt_unit hφ hn
  have hw0 : 0 ≤ unit φ := unit_nonneg
  have hd0 : 0 ≤ d := hw0.trans hwd
  have hu0 := φ.u_nonneg
  have huw : φ.u ≤ d := le_trans (by unfold unit; linarith [φ.tiny_nonneg]) hwd
  obtain ⟨q, hsp, hτs⟩ := sine_rel hφ hn hc h1 hτ0 hτ hs
  obtain ⟨-, c1⟩ := abs_lt.mp h1
  have hθ := arccos_le h2
  have hθ0 : 0 < Real.arccos c.val := Real.arccos_pos.mpr c1
  have ac := ha.acos c hc h1.le
  have hN : |Real.sin (X * Real.arccos c.val)| ≤ 101 / 100 * Real.sqrt (1 - c.val ^ 2) := by
    have p1 := Real.pi_gt_three
    have k0 : 0 ≤ X * Real.arccos c.val := mul_nonneg hX.1 hθ0.le
    have k1 : X * Real.arccos c.val ≤ Real.arccos c.val := mul_le_of_le_one_left hθ0.le hX.2
    rw [abs_of_nonneg (Real.sin_nonneg_of_nonneg_of_le_pi k0 (by linarith))]
    rcases le_or_gt 0 c.val with h | h
    · have := Real.sin_le_sin_of_le_of_le_pi_div_two (by linarith) (Real.arccos_le_pi_div_two.mpr h) k1
      rw [Real.sin_arccos] at this
      linarith
    · have : 999 / 1000 ≤ Real.sqrt (1 - c.val ^ 2) := Real.le_sqrt_of_sq_le (by nlinarith)
      linarith [Real.sin_le_one (X * Real.arccos c.val)]
  have hsθ : 13 / 25 * Real.arccos c.val ≤ Real.sin (Real.arccos c.val) := sine_ge hθ0.le hθ
  have hsθ' : Real.sin (Real.arccos c.val) ≤ Real.arccos c.val := Real.sin_le hθ0.le
  rw [Real.sin_arccos] at hsθ hsθ' ⊢
  set s := Real.sqrt (1 - c.val ^ 2)
  set θ := Real.arccos c.val
  have htθ : φ.tiny ≤ 101 / 100 * d * θ := by
    have : φ.u * τ ≤ d * (101 / 100 * θ) := mul_le_mul huw (by linarith) hτ0.le hd0
    linarith
  have hdθ : 0 ≤ d * θ := mul_nonneg hd0 hθ0.le
  have haθ : a * θ ≤ d * θ := mul_le_mul_of_nonneg_right had hθ0.le
  have acn : Nr (facos c) θ (202 / 100 * (d * θ)) := ⟨ac.1, ac.2.trans (by linarith)⟩
  have hdθ' : d * θ ≤ 1 / 1000000 * θ := mul_le_mul_of_nonneg_right hd hθ0.le
  have hav := acn.val_le (A := θ) (by rw [abs_of_pos hθ0])
  have hxv := hx.val_le (A := 1) (by rw [abs_of_nonneg hX.1]; exact hX.2)
  -- the product
  have hm := hx.mul hφ acn (A := 1) (B := 8 / 5) (M := 17 / 10)
    (by rw [abs_of_nonneg hX.1]; exact hX.2) (by rw [abs_of_pos hθ0]; exact hθ) (by nlinarith) (by norm_num) (by norm_num)
  have hprod : |x.val * (facos c).val - X * θ| ≤ 304 / 100 * (d * θ) := by
    have e : x.val * (facos c).val - X * θ = (x.val - X) * (facos c).val + X * ((facos c).val - θ) := by ring
    rw [e]
    have i1 : |(x.val - X) * (facos c).val| ≤ d * (101 / 100 * θ) := by
      rw [abs_mul]
      exact mul_le_mul (hx.2.trans hwd) (by linarith) (abs_nonneg _) hd0
    have i2 : |X * ((facos c).val - θ)| ≤ 1 * (202 / 100 * (d * θ)) := by
      rw [abs_mul]
      exact mul_le_mul (by rw [abs_of_nonneg hX.1]; exact hX.2) acn.2 (abs_nonneg _) zero_le_one
    refine (abs_add_le _ _).trans ?_
    linarith
  have hXθ : |X * θ| ≤ θ := by rw [abs_of_nonneg (mul_nonneg hX.1 hθ0.le)]; exact mul_le_of_le_one_left hθ0.le hX.2
  have hpv : |x.val * (facos c).val| ≤ 101 / 100 * θ := by
    have := abs_sub_abs_le_abs_sub (x.val * (facos c).val) (X * θ)
    linarith
  have hround : |(x * facos c).val - X * θ| ≤ 51 / 10 * (d * θ) := by
    have r := φ.err (x.val * (facos c).val)
    rw [← val_mul hm.1] at r
    have r2 : φ.u * |x.val * (facos c).val| ≤ d * (101 / 100 * θ) := mul_le_mul huw hpv (abs_nonneg _) hd0
    rw [abs_le] at *
    constructor <;> linarith
  have hmv : |(x * facos c).val| ≤ 101 / 100 * θ := by
    have := abs_sub_abs_le_abs_sub (x * facos c).val (X * θ)
    linarith
  have sn := ha.sin _ hm.1 (by linarith)
  have sn' : Nr (fsin (x * facos c)) (Real.sin (X * θ)) (138 / 10 * (d * s)) := by
    refine ⟨sn.1, ?_⟩
    have i1 : a * |(x * facos c).val| ≤ d * (101 / 100 * θ) := mul_le_mul had hmv (abs_nonneg _) hd0
    have i2 : d * (13 / 25 * θ) ≤ d * s := mul_le_mul_of_nonneg_left hsθ hd0
    calc _ = |((fsin (x * facos c)).val - Real.sin (x * facos c).val) +
          (Real.sin (x * facos c).val - Real.sin (X * θ))| := by ring_nf
      _ ≤ _ := abs_add_le _ _
      _ ≤ (a * |(x * facos c).val| + φ.tiny) + 51 / 10 * (d * θ) :=
        add_le_add sn.2 ((Real.abs_sin_sub_sin_le _ _).trans hround)
      _ ≤ _ := by linarith
  have hηs : Real.sqrt (unit φ) * s ≤ 1 / 1000 * s := mul_le_mul_of_nonneg_right y1 hsp.le
  have hds : d * s ≤ 1 / 1000000 * s := mul_le_mul_of_nonneg_right hd hsp.le
  refine ⟨by rw [abs_div, abs_of_pos hsp, div_le_iff₀ hsp]; exact hN, ?_⟩
  have rr := sn'.div hφ q (lo := 99 / 100 * s) (A := 101 / 100 * s) (M := 11 / 10) (by positivity)
    (by rw [abs_of_pos hsp]; linarith) hN (by rw [div_le_iff₀ (by positivity)]; linarith) (by norm_num) (by norm_num)
  refine rr.mono ?_
  have e1 : 138 / 10 * (d * s) / (99 / 100 * s) = 13800 / 990 * d := by field_simp; ring
  have e2 : 101 / 100 * s * (3 / 10 * Real.sqrt (unit φ) * s) / (99 / 100 * s * (99 / 100 * s)) =
      101 * 3 * 10 / (99 * 99) * Real.sqrt (unit φ) := by field_simp; ring
  rw [e1, e2]
  have : unit φ ≤ 1 / 1000 * Real.sqrt (unit φ) := by
    have := mul_le_mul_of_nonneg_right y1 y0
    linarith
  linarith

section
include hd hwd
variable {p r : Quat (Ieee φ)} {g h k : Quaternion ℝ} (hp : UnitNear d p g) (hr : UnitNear d r h) (hc0 : -(16 * d) ≤ inner ℝ g h)
  {t : Ieee φ} (ht : t.Finite) (h0 : 0 ≤ t.val) (h1 : t.val ≤ 1) (hk : OnArc g h k t.val)
  {th : Ieee φ} (hth1 : th.val ≤ 1 / 2) (hth0 : 0 < th.val)
include hp hr hc0 ht h0 h1 hk hth1 hth0

omit hn in
theorem chord_uniform (hb : |(p.dot r).val| < 1) (hs : |(fsqrt (1 - p.dot r * p.dot r)).val| < th.val) (i : Fin 4) :
    Nr ((p.nlerp r t).coords.data i) (cmp k i) (300 * d + (th.val + 7 * Real.sqrt d) ^ 3 / 3) := by
  have hw0 : 0 ≤ unit φ := unit_nonneg
  have hd0 : 0 ≤ d := hw0.trans hwd
  have hcf := (dot_near_inner hφ hd hwd hp hr).1
  obtain ⟨e1, e2, e3, e4⟩ := sin_angle_sq hφ hd hwd hp hr hb
  obtain ⟨v1, v2⟩ := one_sub_sq hφ hcf hb
  have hv := (abs_le.mp v1.2)
  have hq := sqrt_plain hφ (M := 1001 / 1000) v1.1 v2 (by linarith [sq_nonneg (p.dot r).val]) (by norm_num) (by norm_num)
  have hy := Real.sqrt_nonneg d
  have hy2 := Real.mul_self_sqrt hd0
  have hy1 : Real.sqrt d ≤ 1 / 1000 := Real.sqrt_le_iff.mpr ⟨by norm_num, by linarith⟩
  have hdy : d ≤ 1 / 1000 * Real.sqrt d := by linarith [mul_le_mul_of_nonneg_right hy1 hy]
  set y := Real.sqrt d
  have hv2 : (1 - p.dot r * p.dot r).val ≤ (th.val + 1 / 100 * y) ^ 2 := by
    have h3 := (abs_le.mp hq.2).1
    have h4 := (abs_lt.mp hs).2
    have h5 : Real.sqrt (1 - p.dot r * p.dot r).val ≤ th.val + 1 / 100 * y := by linarith
    have h6 := Real.sq_sqrt v2
    rw [← h6]
    exact pow_le_pow_left₀ (Real.sqrt_nonneg _) h5 2
  have hs2 : Real.sin (angle g h) ≤ th.val + 7 * y := by
    refine abs_le_of_sq_le_sq' ?_ (by positivity) |>.2
    have := (abs_le.mp e2).2
    have := mul_nonneg hth0.le hy
    nlinarith
  have hin : 0 ≤ inner ℝ g h := by
    by_contra hneg
    push Not at hneg
    have : inner ℝ g h ^ 2 ≤ 1 / 4 := by nlinarith
    have : Real.sin (angle g h) ^ 2 ≤ (6 / 10) ^ 2 := pow_le_pow_left₀ e3 (by linarith) 2
    linarith
  obtain ⟨c1, c2⟩ := hk.chord hp.unit hr.unit ⟨h0, h1⟩ hin
  have hhalf : 1 / 2 ≤ ‖(1 - t.val) • g + t.val • h‖ := by
    refine abs_le_of_sq_le_sq' ?_ (_root_.norm_nonneg _) |>.2
    linarith
  have hn := nlerp_near hφ hd hwd hp hr ht h0 h1 hhalf i
  refine ⟨hn.1, ?_⟩
  have a0 := angle_nonneg g h
  have ha : angle g h ≤ 1575 / 1000 * (th.val + 7 * y) := by
    have hp2 : angle g h ≤ Real.pi / 2 := by
      rw [angle_of_unit hp.unit hr.unit]; exact Real.arccos_le_pi_div_two.mpr hin
    have h3 := (Real.mul_le_sin a0 hp2).trans hs2
    have h4 : 2 / (315 / 100) ≤ 2 / Real.pi := by
      have := Real.pi_lt_d2
      exact div_le_div_of_nonneg_left (by norm_num) Real.pi_pos (by linarith)
    have h5 := mul_le_mul_of_nonneg_right h4 a0
    norm_num at h5
    linarith
  have ha3 : angle g h ^ 3 ≤ (1575 / 1000 * (th.val + 7 * y)) ^ 3 := pow_le_pow_left₀ a0 ha 3
  rw [mul_pow] at ha3
  have t3 : 0 ≤ (th.val + 7 * y) ^ 3 := by positivity
  have n3 := (cmp_le_norm (‖(1 - t.val) • g + t.val • h‖⁻¹ • ((1 - t.val) • g + t.val • h) - k) i).trans c2
  rw [cmp_sub] at n3
  have n4 := hn.2
  generalize (th.val + 7 * y) ^ 3 = z at *
  rw [abs_le] at *
  constructor <;> linarith

omit hφ hn hd hwd hth1 hth0 hp hr ht hc0 [Lib φ] in
/-- the point of the arc in terms of weights near those of an angle with nearly the same cosine -/
theorem arc_weights (hg : ‖g‖ = 1) (hh : ‖h‖ = 1) (hc0 : -(1 / 1000) ≤ inner ℝ g h) {θ e : ℝ} (hθ0 : 0 < θ) (hθ : θ ≤ 8 / 5)
    (hcos : |Real.cos θ - inner ℝ g h| ≤ e) :
    ∃ A B : ℝ, k = A • g + B • h ∧ |Real.sin ((1 - t.val) * θ) / Real.sin θ - A| ≤ e ∧ |Real.sin (t.val * θ) / Real.sin θ - B| ≤ e := by
  have ang := angle_of_unit hg hh
  have hθ2 : angle g h ≤ 8 / 5 := by rw [ang]; exact arccos_le hc0
  rw [inner_of_unit hg hh] at hcos
  rcases (angle_nonneg g h).eq_or_lt with hz | hz
  · have hgh : g = h := by
      have := (angle_eq_zero_iff.mp hz.symm).2
      obtain ⟨c, hc, rfl⟩ := this
      rw [norm_smul, hg, mul_one, Real.norm_eq_abs, abs_of_pos hc] at hh
      rw [hh, one_smul]
    have hgk : g = k := by
      have : angle g k = 0 := by rw [hk.2.1, ← hz, mul_zero]
      obtain ⟨c, hc, hc2⟩ := (angle_eq_zero_iff.mp this).2
      have h2 := hk.1
      rw [hc2, norm_smul, hg, mul_one, Real.norm_eq_abs, abs_of_pos hc] at h2
      rw [hc2, h2, one_smul]
    rw [← hz, Real.cos_zero] at hcos
    refine ⟨1 - t.val, t.val, ?_, ?_, ?_⟩
    · rw [← hgk, ← hgh, ← add_smul, sub_add_cancel, one_smul]
    · exact (weight_limit ⟨by linarith, by linarith⟩ hθ0 hθ).trans hcos
    · exact (weight_limit ⟨h0, h1⟩ hθ0 hθ).trans hcos
  · have hsp : 0 < Real.sin (angle g h) := Real.sin_pos_of_pos_of_lt_pi hz (by linarith [Real.pi_gt_three])
    exact ⟨_, _, hk.eq hg hh hsp.ne', (weight_lipschitz ⟨by linarith, by linarith⟩ hθ0 hθ hz hθ2).trans hcos,
      (weight_lipschitz ⟨h0, h1⟩ hθ0 hθ hz hθ2).trans hcos⟩

set_option maxHeartbeats 1000000 in
omit hth1 in
theorem arc_uniform {a : ℝ} (ha : SineRelative φ a) (ha0 : 0 ≤ a) (had : a ≤ d) (hτ : φ.tiny ≤ φ.u * th.val)
    (hb : |(p.dot r).val| < 1) (hs : th.val ≤ |(fsqrt (1 - p.dot r * p.dot r)).val|) (i : Fin 4) :
    Nr ((fromParts
    (p.scalar * (fsin ((1 - t) * facos (p.dot r)) / fsqrt (1 - p.dot r * p.dot r)) +
      r.scalar * (fsin (t * facos (p.dot r)) / fsqrt (1 - p.dot r * p.dot r)))
    (p.vector * (fsin ((1 - t) * facos (p.dot r)) / fsqrt (1 - p.dot r * p.dot r)) +
      r.vector * (fsin (t * facos (p.dot r)) / fsqrt (1 - p.dot r * p.dot r)))).coords.data i) (cmp k i)
      (70 * d + Real.sqrt (unit φ)) := by
  obtain ⟨y0, y1, y2⟩ := sqrt_unit hφ hn
  have hw0 : 0 ≤ unit φ := unit_nonneg
  have hd0 : 0 ≤ d := hw0.trans hwd
  have hcn := dot_near_inner hφ hd hwd hp hr
  have hcf := hcn.1
  obtain ⟨v1, v2⟩ := one_sub_sq hφ hcf hb
  have hv := (abs_le.mp v1.2)
  have hq := sqrt_plain hφ (M := 1001 / 1000) v1.1 v2 (by linarith [sq_nonneg (p.dot r).val]) (by norm_num) (by norm_num)
  have hb' := abs_lt.mp hb
  have hs' : th.val ≤ (fsqrt (1 - p.dot r * p.dot r)).val := by
    have : 0 ≤ (fsqrt (1 - p.dot r * p.dot r)).val := by
      have h2 := hq.1
      rw [Lib.sqrt_eq] at h2 ⊢
      rw [(val_sqrt h2).1]
      exact φ.nonneg (Real.sqrt_nonneg _)
    rwa [abs_of_nonneg this] at hs
  have hlow : -(1 / 1000) ≤ (p.dot r).val := by linarith [(abs_le.mp hcn.2).1]
  have ht2 : |1 - t.val| ≤ 1 := by rw [abs_of_nonneg (by linarith)]; linarith
  have tn : Nr (1 - t) (1 - t.val) (unit φ) := by
    have := Nr.one.sub hφ (Nr.exact ht) (M := 1) (by simpa using ht2) le_rfl (by norm_num)
    exact this.mono (by linarith)
  obtain ⟨wa0, wa⟩ := weight_rel hφ hn hd hwd ha ha0 had hcf hb hlow hth0 hτ hs' tn ⟨by linarith, by linarith⟩
  obtain ⟨wb0, wb⟩ := weight_rel hφ hn hd hwd ha ha0 had hcf hb hlow hth0 hτ hs' ((Nr.exact ht).mono hw0) ⟨h0, h1⟩
  have hcos : |Real.cos (Real.arccos (p.dot r).val) - inner ℝ g h| ≤ 16 * d := by
    rw [Real.cos_arccos hb'.1.le hb'.2.le]; exact hcn.2
  obtain ⟨A, B, ke, la, lb⟩ := arc_weights h0 h1 hk hp.unit hr.unit (by linarith) (Real.arccos_pos.mpr hb'.2) (arccos_le hlow) hcos
  have wt : ∀ {x : Ieee φ} {X Y : ℝ}, |X| ≤ 101 / 100 → Nr x X (14 * d + 32 / 100 * Real.sqrt (unit φ)) → |X - Y| ≤ 16 * d →
      Nr x Y (30 * d + 32 / 100 * Real.sqrt (unit φ)) ∧ |Y| ≤ 102 / 100 := by
    intro x X Y hX hx hXY
    have h3 := hx.2
    refine ⟨⟨hx.1, ?_⟩, ?_⟩
    · rw [abs_le] at *
      constructor <;> linarith
    · rw [abs_le] at *
      constructor <;> linarith
  obtain ⟨xa, ya⟩ := wt wa0 wa la
  obtain ⟨xb, yb⟩ := wt wb0 wb lb
  have hE1 : 30 * d + 32 / 100 * Real.sqrt (unit φ) ≤ 3 / 100 := by linarith
  have m1' := weighted hφ hd hwd (hp.near i) (hp.le_one i) xa ya hE1
  have m2' := weighted hφ hd hwd (hr.near i) (hr.le_one i) xb yb hE1
  have kb : |cmp k i| ≤ 1 := by rw [← hk.1]; exact cmp_le_norm k i
  have ki : cmp g i * A + cmp h i * B = cmp k i := by
    rw [ke, cmp_add, cmp_smul, cmp_smul]; ring
  have m3 := m1'.add hφ m2' (M := 11 / 10) (by rw [ki]; linarith) (by norm_num) (by norm_num)
  rw [ki] at m3
  have m4 := m3.mono (f := 70 * d + Real.sqrt (unit φ)) (by linarith)
  have e5 : (fromParts
      (p.scalar * (fsin ((1 - t) * facos (p.dot r)) / fsqrt (1 - p.dot r * p.dot r)) +
        r.scalar * (fsin (t * facos (p.dot r)) / fsqrt (1 - p.dot r * p.dot r)))
      (p.vector * (fsin ((1 - t) * facos (p.dot r)) / fsqrt (1 - p.dot r * p.dot r)) +
        r.vector * (fsin (t * facos (p.dot r)) / fsqrt (1 - p.dot r * p.dot r)))).coords.data i =
      p.coords.data i * (fsin ((1 - t) * facos (p.dot r)) / fsqrt (1 - p.dot r * p.dot r)) +
      r.coords.data i * (fsin (t * facos (p.dot r)) / fsqrt (1 - p.dot r * p.dot r)) := by
    fin_cases i <;> rfl
  rw [e5]
  exact m4

end

end

variable [Lib φ]

/-- Spherical interpolation with a library of small relative errors: up to the sign of `g`, which does not change the
rotation and is chosen such that the arc is the shorter one up to errors, the result is near the point `k` of the arc from
`g` to `h` at the fraction `t` of the angle.  Only for rotations so close that the rounded product of the quaternions
reaches one is the error of the order of the square root of `d`. -/
theorem C92_slerp_uniform (hφ : Fine φ) (hn : SquareNearOne φ) {d a : ℝ} (hd : d ≤ 1 / 1000000) (hwd : unit φ ≤ d)
    (ha : SineRelative φ a) (ha0 : 0 ≤ a) (had : a ≤ d)
    {q r : Quat (Ieee φ)} {g h : Quaternion ℝ} (hg : ‖g‖ = 1) (hh : ‖h‖ = 1) (hq : QuatWithin q g d) (hr : QuatWithin r h d)
    {t th : Ieee φ} (ht : t.Finite) (h0 : 0 ≤ t.val) (h1 : t.val ≤ 1)
    (hth : th.Finite) (hth0 : 0 < th.val) (hth1 : th.val ≤ 1 / 2) (hτ : φ.tiny ≤ φ.u * th.val) :
    ∃ g', (g' = g ∨ g' = -g) ∧ -(16 * d) ≤ inner ℝ g' h ∧ ∀ k, OnArc g' h k t.val →
      (1 - 16 * d ≤ inner ℝ g' h ∧ QuatWithin (slerp th q r t) k (6 * Real.sqrt d)) ∨
      QuatWithin (slerp th q r t) k (300 * d + (th.val + 7 * Real.sqrt d) ^ 3 / 3 + Real.sqrt (unit φ)) := by
  have hw0 : 0 ≤ unit φ := unit_nonneg
  have hd0 : 0 ≤ d := hw0.trans hwd
  have hq' := near_of_within hg hq
  have hr' := near_of_within hh hr
  have y0 := Real.sqrt_nonneg (unit φ)
  have z0 : 0 ≤ (th.val + 7 * Real.sqrt d) ^ 3 / 3 := by positivity
  have key : ∀ {p : Quat (Ieee φ)} {g' : Quaternion ℝ}, UnitNear d p g' → -(16 * d) ≤ inner ℝ g' h → ∀ k, OnArc g' h k t.val →
      (1 - 16 * d ≤ inner ℝ g' h ∧ QuatWithin (branches th p r t) k (6 * Real.sqrt d)) ∨
      QuatWithin (branches th p r t) k (300 * d + (th.val + 7 * Real.sqrt d) ^ 3 / 3 + Real.sqrt (unit φ)) := by
    intro p g' hp hc k hk
    obtain ⟨s1, s2⟩ := sabs_val (dot_near_inner hφ hd hwd hp hr').1
    unfold branches
    split_ifs with c1 c2
    · rw [ge_iff_le, ieee_le_iff finite_one s1, val_one, s2] at c1
      obtain ⟨b1, b2⟩ := branch_same hφ hd hwd hp hr' hc h0 h1 hk c1
      exact Or.inl ⟨b1, quatWithin_iff.mpr b2⟩
    · rw [ge_iff_le, ieee_le_iff finite_one s1, val_one, s2, not_le] at c1
      obtain ⟨v1, v2⟩ := one_sub_sq hφ (dot_near_inner hφ hd hwd hp hr').1 c1
      have hv := abs_le.mp v1.2
      have hf := (sqrt_plain hφ (M := 1001 / 1000) v1.1 v2 (by linarith [sq_nonneg (p.dot r).val, hφ.unit_le]) (by norm_num) (by norm_num)).1
      obtain ⟨w1, w2⟩ := sabs_val hf
      rw [ieee_lt_iff w1 hth, w2] at c2
      exact Or.inr ((quatWithin_iff.mpr (chord_uniform hφ hd hwd hp hr' hc ht h0 h1 hk hth1 hth0 c1 c2)).mono (by linarith))
    · rw [ge_iff_le, ieee_le_iff finite_one s1, val_one, s2, not_le] at c1
      obtain ⟨v1, v2⟩ := one_sub_sq hφ (dot_near_inner hφ hd hwd hp hr').1 c1
      have hv := abs_le.mp v1.2
      have hf := (sqrt_plain hφ (M := 1001 / 1000) v1.1 v2 (by linarith [sq_nonneg (p.dot r).val, hφ.unit_le]) (by norm_num) (by norm_num)).1
      obtain ⟨w1, w2⟩ := sabs_val hf
      rw [ieee_lt_iff w1 hth, w2, not_lt] at c2
      exact Or.inr ((quatWithin_iff.mpr (arc_uniform hφ hn hd hwd hp hr' hc ht h0 h1 hk hth0 ha ha0 had hτ c1 c2)).mono
        (by linarith))
  obtain ⟨f1, f2⟩ := dot_near_inner hφ hd hwd hq' hr'
  rw [abs_le] at f2
  by_cases hneg : q.dot r < 0
  · refine ⟨-g, Or.inr rfl, ?_, ?_⟩
    · rw [ieee_lt_iff f1 finite_zero, val_zero] at hneg
      rw [inner_neg_left]; linarith
    · have e : slerp th q r t = branches th (-q) r t := by
        unfold slerp branches
        simp only [if_pos hneg]
      rw [e]
      refine key hq'.neg ?_
      rw [ieee_lt_iff f1 finite_zero, val_zero] at hneg
      rw [inner_neg_left]; linarith
  · have hc : -(16 * d) ≤ inner ℝ g h := by
      rw [ieee_lt_iff f1 finite_zero, val_zero] at hneg
      linarith
    refine ⟨g, Or.inl rfl, hc, ?_⟩
    have e : slerp th q r t = branches th q r t := by
      unfold slerp branches
      simp only [if_neg hneg]
    rw [e]
    exact key hq' hc

/-- `f32` with a threshold near that of the code, `0.0005`, for arguments accurate to `2^-22`: the result is within `0.003`
everywhere, and within `0.00035` away from equal rotations. -/
theorem C92_slerp_f32 [Lib f32] (ha : SineRelative f32 (2 ^ (-22 : ℤ)))
    {q r : Quat (Ieee f32)} {g h : Quaternion ℝ} (hg : ‖g‖ = 1) (hh : ‖h‖ = 1)
    (hq : QuatWithin q g (2 ^ (-22 : ℤ))) (hr : QuatWithin r h (2 ^ (-22 : ℤ)))
    {t th : Ieee f32} (ht : t.Finite) (h0 : 0 ≤ t.val) (h1 : t.val ≤ 1)
    (hth : th.Finite) (hth0 : |th.val - 5 / 10000| ≤ 1 / 100000) :
    ∃ g', (g' = g ∨ g' = -g) ∧ -(2 ^ (-18 : ℤ)) ≤ inner ℝ g' h ∧ ∀ k, OnArc g' h k t.val →
      QuatWithin (slerp th q r t) k (3 / 1000) ∧
      (inner ℝ g' h < 1 - 2 ^ (-18 : ℤ) → QuatWithin (slerp th q r t) k (35 / 100000)) := by
  have hth' := abs_le.mp hth0
  have u1 : f32.u = 2 ^ (-24 : ℤ) := rfl
  have u2 : f32.tiny = 2 ^ (-150 : ℤ) := rfl
  have h3 : (2 : ℝ) ^ (-150 : ℤ) ≤ 2 ^ (-50 : ℤ) := zpow_le_zpow_right₀ one_le_two (by norm_num)
  have hu : unit f32 ≤ 6 / 10 ^ 8 := by
    rw [Spec.unit, u1, u2]
    norm_num at h3 ⊢
  have hsu : Real.sqrt (unit f32) ≤ 245 / 10 ^ 6 := Real.sqrt_le_iff.mpr ⟨by norm_num, hu.trans (by norm_num)⟩
  have hud : unit f32 ≤ 2 ^ (-22 : ℤ) := hu.trans (by norm_num)
  have e : 16 * (2 : ℝ) ^ (-22 : ℤ) = 2 ^ (-18 : ℤ) := by norm_num
  have es : Real.sqrt (2 ^ (-22 : ℤ)) = 2 ^ (-11 : ℤ) := by
    rw [Real.sqrt_eq_iff_mul_self_eq_of_pos (by positivity)]; norm_num
  obtain ⟨g', hg', hi, H⟩ := C92_slerp_uniform fine32 squareNearOne32 (by norm_num) hud ha (by positivity) le_rfl hg hh hq hr ht h0 h1 hth
    (by linarith) (by linarith) (by
      rw [u1, u2]
      have : (2 : ℝ) ^ (-24 : ℤ) * (49 / 100000) ≤ 2 ^ (-24 : ℤ) * th.val := mul_le_mul_of_nonneg_left (by linarith) (by positivity)
      norm_num at h3 this ⊢
      linarith)
  rw [e] at hi H
  rw [es] at H
  have hz : (th.val + 7 * 2 ^ (-11 : ℤ)) ^ 3 ≤ (51 / 100000 + 7 * 2 ^ (-11 : ℤ)) ^ 3 :=
    pow_le_pow_left₀ (by have : (0 : ℝ) < 7 * 2 ^ (-11 : ℤ) := by positivity
                         linarith) (by linarith) 3
  refine ⟨g', hg', hi, fun k hk => ?_⟩
  rcases H k hk with ⟨s1, s2⟩ | s
  · exact ⟨s2.mono (by norm_num), fun h => absurd s1 (not_le.mpr h)⟩
  · have s' := s.mono (ε' := 35 / 100000) (by norm_num at hz hsu ⊢; linarith)
    exact ⟨s'.mono (by norm_num), fun _ => s'⟩

/-! ### the hypotheses are met -/

section
attribute [local instance] Libm.correctlyRounded

theorem round_relative {s : Bool} {x : ℝ} (h : |x| ≤ 4) : (Ieee.round s x : Ieee f32).Finite ∧
    |(Ieee.round s x : Ieee f32).val - x| ≤ 2 ^ (-22 : ℤ) * |x| + f32.tiny := by
  have hf : (Ieee.round s x : Ieee f32).Finite := finite_round (by rw [fl_abs]; exact fl_big fine32 h (by norm_num) (by norm_num))
  refine ⟨hf, ?_⟩
  rw [val_round hf]
  refine (f32.err x).trans ?_
  have : f32.u ≤ 2 ^ (-22 : ℤ) := zpow_le_zpow_right₀ one_le_two (by norm_num)
  linarith [mul_le_mul_of_nonneg_right this (abs_nonneg x)]

/-- correctly rounded functions have these accuracies -/
theorem sineRelative_correctlyRounded : SineRelative f32 (2 ^ (-22 : ℤ)) where
  sin := by
    rintro _ ⟨s, m, h, rfl⟩ h1
    change (if m = 0 then fin s m h else Ieee.round false (Real.sin (signed s m)) : Ieee f32).Finite ∧
      |(if m = 0 then fin s m h else Ieee.round false (Real.sin (signed s m)) : Ieee f32).val - Real.sin (signed s m)| ≤ _
    split_ifs with hm
    · refine ⟨finite_fin _ _ _, ?_⟩
      subst hm
      have : signed s 0 = 0 := by cases s <;> simp [signed]
      simp [Ieee.val, this, f32.tiny_nonneg]
    · obtain ⟨r1, r2⟩ := round_relative (s := false) (x := Real.sin (signed s m)) ((Real.abs_sin_le_one _).trans (by norm_num))
      refine ⟨r1, r2.trans ?_⟩
      have : |Real.sin (signed s m)| ≤ |signed s m| := Real.abs_sin_le_abs
      have := mul_le_mul_of_nonneg_left this (show (0 : ℝ) ≤ 2 ^ (-22 : ℤ) by positivity)
      simp only [Ieee.val]
      linarith
  acos := by
    rintro _ ⟨s, m, h, rfl⟩ h1
    have e : (facos (fin s m h : Ieee f32)) = Ieee.round false (Real.arccos (signed s m)) := rfl
    have h4 : |Real.arccos (signed s m)| ≤ 4 := by
      rw [abs_of_nonneg (Real.arccos_nonneg _)]
      exact (Real.arccos_le_pi _).trans Real.pi_le_four
    have := round_relative (s := false) h4
    rw [e]
    rwa [abs_of_nonneg (a := Real.arccos (signed s m)) (Real.arccos_nonneg _)] at this

end

/-- the identity and a half turn are exact, and their arc is a right angle -/
example : QuatWithin (identity : Quat (Ieee f32)) 1 0 ∧ (∀ g : Quaternion ℝ, g = ⟨0, 1, 0, 0⟩ →
    QuatWithin (unitX : Quat (Ieee f32)) g 0 ∧ ‖g‖ = 1 ∧ inner ℝ 1 g = 0) := by
  refine ⟨quatWithin_iff.mpr fun i => ?_, fun g hg => ⟨quatWithin_iff.mpr fun i => ?_, ?_, ?_⟩⟩
  · fin_cases i
    · exact Nr.one
    · exact Nr.zero
    · exact Nr.zero
    · exact Nr.zero
  · rw [hg]
    fin_cases i
    · exact Nr.zero
    · exact Nr.one
    · exact Nr.zero
    · exact Nr.zero
  · have h3 : ‖g‖ ^ 2 = 1 := by rw [norm_sq_parts, hg]; norm_num
    nlinarith [_root_.norm_nonneg g]
  · rw [inner_cmp, hg]; simp [cmp]; rfl

end Cgl
