import Verif.Lemmas.Angle
import Verif.Lemmas.Grid
import Verif.Spec.FloatAngle
import Verif.Props.C66_FloatLaws
import Mathlib.Analysis.Real.Pi.Bounds
import Mathlib.Analysis.SpecialFunctions.Trigonometric.Bounds

/-! # C80 - angles in floating-point arithmetic

The same model functions as in C50-C52, run on the numbers of a binary format: `p` bits, no bits below `2 ^ qmin`,
rounding to nearest, ties to even.  `binary64` and `binary32` are instances. -/

namespace Cgl
open Rounding

section
variable {p : ℕ} {qmin : Option ℤ} {hp : 1 ≤ p} {hq : ∀ m ∈ qmin, m ≤ 1 - p}

/-- shorthand: the rounding of the format -/
local notation "ρ" => nearestEven p qmin hp hq

theorem Fl.onGrid (x : Fl ρ) : OnGrid p qmin x.val := grid_of_flEven_eq hp x.rep

/-! ### the remainder -/

/-- truncated division on the reals -/
theorem frem_spec (x y : ℝ) (hy : y ≠ 0) :
    (∃ k : ℤ, x = k * y + frem x y) ∧ |frem x y| < |y| ∧ |frem x y| ≤ |x| ∧ 0 ≤ x * frem x y := by
  have e : frem x y = x - ftrunc (x / y) * y := rfl
  have htr : ftrunc (x / y) = if 0 ≤ x / y then (⌊x / y⌋ : ℝ) else (⌈x / y⌉ : ℝ) := rfl
  have hx : x = x / y * y := by field_simp
  have hy' : 0 < |y| := abs_pos.mpr hy
  by_cases h : 0 ≤ x / y
  · rw [if_pos h] at htr
    rw [htr] at e
    have h1 := Int.floor_le (x / y)
    have h2 := Int.lt_floor_add_one (x / y)
    have h3 : (0 : ℝ) ≤ ⌊x / y⌋ := by exact_mod_cast Int.floor_nonneg.mpr h
    have e' : frem x y = (x / y - ⌊x / y⌋) * y := by rw [e]; conv_lhs => rw [hx]
                                                     rw [← sub_mul]; congr 3; field_simp
    refine ⟨⟨⌊x / y⌋, by rw [e]; ring⟩, ?_, ?_, ?_⟩
    · rw [e', abs_mul, abs_of_nonneg (by linarith)]; nlinarith
    · rw [e', abs_mul, abs_of_nonneg (by linarith)]
      conv_rhs => rw [hx, abs_mul, abs_of_nonneg h]
      gcongr; linarith
    · rw [e']
      have : x * ((x / y - ⌊x / y⌋) * y) = (x / y * (x / y - ⌊x / y⌋)) * (y * y) := by
        conv_lhs => rw [hx]
        field_simp
      rw [this]
      exact mul_nonneg (mul_nonneg h (by linarith)) (mul_self_nonneg y)
  · rw [if_neg h] at htr
    rw [htr] at e
    push Not at h
    have h1 := Int.le_ceil (x / y)
    have h2 := Int.ceil_lt_add_one (x / y)
    have h3 : (⌈x / y⌉ : ℝ) ≤ 0 := by
      have : ⌈x / y⌉ ≤ 0 := Int.ceil_le.mpr (by push_cast; exact h.le)
      exact_mod_cast this
    have e' : frem x y = (x / y - ⌈x / y⌉) * y := by rw [e]; conv_lhs => rw [hx]
                                                     rw [← sub_mul]; congr 3; field_simp
    refine ⟨⟨⌈x / y⌉, by rw [e]; ring⟩, ?_, ?_, ?_⟩
    · rw [e', abs_mul, abs_of_nonpos (by linarith)]; nlinarith
    · rw [e', abs_mul, abs_of_nonpos (by linarith)]
      conv_rhs => rw [hx, abs_mul, abs_of_neg h]
      gcongr; linarith
    · rw [e']
      have : x * ((x / y - ⌈x / y⌉) * y) = (x / y * (x / y - ⌈x / y⌉)) * (y * y) := by
        conv_lhs => rw [hx]
        field_simp
      rw [this]
      exact mul_nonneg (mul_nonneg_of_nonpos_of_nonpos h.le (by linarith)) (mul_self_nonneg y)

theorem Fl.frem_exact (x y : Fl ρ) (hy : y.val ≠ 0) : (frem x y).val = frem x.val y.val := by
  obtain ⟨⟨k, hk⟩, h1, h2, -⟩ := frem_spec x.val y.val hy
  have e : frem x.val y.val = ((1 : ℤ) : ℝ) * x.val + ((-k : ℤ) : ℝ) * y.val := by push_cast; linarith
  rw [Fl.frem_val, e]
  exact flEven_eq_of_grid (x.onGrid.combination y.onGrid _ _ (e ▸ h2) (e ▸ h1.le))

/-- `a % b` is exact: a whole number of `b`s away from `a`, smaller than `b`, with the sign of `a`. -/
theorem C80_remainder_exact (a b : Degrees (Fl ρ)) (a' b' : Radians (Fl ρ)) (h : b.val.val ≠ 0) (h' : b'.val.val ≠ 0) :
    ((∃ k : ℤ, a.val.val = k * b.val.val + (a % b).val.val) ∧ |(a % b).val.val| < |b.val.val| ∧
      0 ≤ a.val.val * (a % b).val.val) ∧
    ((∃ k : ℤ, a'.val.val = k * b'.val.val + (a' % b').val.val) ∧ |(a' % b').val.val| < |b'.val.val| ∧
      0 ≤ a'.val.val * (a' % b').val.val) := by
  have e : (a % b).val.val = frem a.val.val b.val.val := Fl.frem_exact _ _ h
  have e' : (a' % b').val.val = frem a'.val.val b'.val.val := Fl.frem_exact _ _ h'
  rw [e, e']
  have s := frem_spec a.val.val b.val.val h
  have s' := frem_spec a'.val.val b'.val.val h'
  exact ⟨⟨s.1, s.2.1, s.2.2.2⟩, s'.1, s'.2.1, s'.2.2.2⟩

/-! ### the full turns -/

theorem fl_natCast {n : ℕ} {m : ℤ} {k : ℕ} (e : (n : ℝ) = m * 2 ^ k) (h : |(m : ℝ)| < 2 ^ p) : (ρ).fl n = n := by
  refine flEven_eq_of_grid ⟨m, k, by rw [e]; norm_cast, h, fun j hj => (hq j hj).trans (by omega)⟩

theorem two_pow_le {k : ℕ} (h : k ≤ p) : (2 : ℝ) ^ k ≤ 2 ^ p := pow_le_pow_right₀ one_le_two h

theorem fl_two : (ρ).fl ((2 : ℕ) : ℝ) = 2 := by
  rw [fl_natCast (m := 1) (k := 1) (by norm_num)]; · norm_num
  have := two_pow_le hp; norm_num at this ⊢; linarith
theorem fl_360 (h : 6 ≤ p) : (ρ).fl ((360 : ℕ) : ℝ) = 360 := by
  rw [fl_natCast (m := 45) (k := 3) (by norm_num)]; · norm_num
  have := two_pow_le h; norm_num at this ⊢; linarith
theorem fl_180 (h : 6 ≤ p) : (ρ).fl ((180 : ℕ) : ℝ) = 180 := by
  rw [fl_natCast (m := 45) (k := 2) (by norm_num)]; · norm_num
  have := two_pow_le h; norm_num at this ⊢; linarith
theorem fl_3 (h : 6 ≤ p) : (ρ).fl ((3 : ℕ) : ℝ) = 3 := by
  rw [fl_natCast (m := 3) (k := 0) (by norm_num)]; · norm_num
  have := two_pow_le h; norm_num at this ⊢; linarith
theorem fl_4 : (ρ).fl ((4 : ℕ) : ℝ) = 4 := by
  rw [fl_natCast (m := 1) (k := 2) (by norm_num)]; · norm_num
  have := two_pow_le hp; norm_num at this ⊢; linarith

theorem Degrees.fullTurn_fl (h : 6 ≤ p) : (Angle.fullTurn : Degrees (Fl ρ)).val.val = 360 :=
  fl_360 (hp := hp) (hq := hq) h
theorem Degrees.fullTurnDiv2_fl (h : 6 ≤ p) : (Angle.fullTurnDiv2 : Degrees (Fl ρ)).val.val = 180 := by
  show (ρ).fl ((ρ).fl ((360 : ℕ) : ℝ) / (ρ).fl ((2 : ℕ) : ℝ)) = 180
  rw [fl_360 h, fl_two, show (360 / 2 : ℝ) = ((180 : ℕ) : ℝ) by norm_num, fl_180 h]
theorem Radians.fullTurn_fl : (Angle.fullTurn : Radians (Fl ρ)).val.val = 2 * (ρ).fl Real.pi := by
  show (ρ).fl ((ρ).fl ((2 : ℕ) : ℝ) * (ρ).fl Real.pi) = _
  rw [fl_two]
  exact flEven_eq_of_grid (OnGrid.double (grid_of_flEven_eq hp ((ρ).idem _)))
theorem Radians.fullTurnDiv2_fl : (Angle.fullTurnDiv2 : Radians (Fl ρ)).val.val = (ρ).fl Real.pi := by
  show (ρ).fl ((Angle.fullTurn : Radians (Fl ρ)).val.val / (ρ).fl ((2 : ℕ) : ℝ)) = _
  rw [Radians.fullTurn_fl, fl_two, mul_div_cancel_left₀ _ two_ne_zero, (ρ).idem]

/-- the representable number nearest to π: within `2 ^ (1 - p)`, between three and four -/
theorem fl_pi_bounds (h : 6 ≤ p) : 3 ≤ (ρ).fl Real.pi ∧ (ρ).fl Real.pi ≤ 4 ∧ |(ρ).fl Real.pi - Real.pi| ≤ 2 * (ρ).u := by
  refine ⟨?_, ?_, ?_⟩
  · have := (ρ).mono ((3 : ℕ) : ℝ) Real.pi (by push_cast; exact Real.pi_gt_three.le)
    rwa [fl_3 h] at this
  · have := (ρ).mono Real.pi ((4 : ℕ) : ℝ) (by push_cast; exact Real.pi_le_four)
    rwa [fl_4] at this
  · have := flEven_err_below (p := p) (qmin := qmin) (x := Real.pi) (e := 1)
      (by rw [abs_of_pos Real.pi_pos]; have := Real.pi_lt_d2; norm_num; linarith)
      (fun k hk => (hq k hk).trans (by omega))
    refine this.trans (le_of_eq ?_)
    show _ = 2 * (2 : ℝ) ^ (-(p : ℤ))
    rw [sub_eq_add_neg, zpow_add₀ two_ne_zero, zpow_one]

/-! ### reduction by a full turn -/

/-- what both units compute: the remainder, plus a turn if it is negative, is the correctly rounded reduction -/
theorem reduce_fl (x T : Fl ρ) (hT : 0 < T.val) :
    (if (frem x T).val < 0 then frem x T + T else frem x T) = Fl.round (reduce T.val x.val) := by
  have e := Fl.frem_exact x T hT.ne'
  apply Fl.ext
  unfold reduce
  rw [e]
  split_ifs with h
  · rw [Fl.add_val, e]; rfl
  · rw [Fl.round_val, ← e, (frem x T).rep]

theorem Degrees.normalize_fl (h : 6 ≤ p) (a : Degrees (Fl ρ)) :
    (Angle.normalize a).val = Fl.round (reduce 360 a.val.val) := by
  have hT := Degrees.fullTurn_fl (hp := hp) (hq := hq) h
  have := reduce_fl a.val (Angle.fullTurn : Degrees (Fl ρ)).val (by rw [hT]; norm_num)
  rw [hT] at this
  rw [← this]
  unfold Angle.normalize
  simp only
  split_ifs with h1 h2 h2
  · rfl
  · exact absurd h1 h2
  · exact absurd h2 h1
  · rfl

theorem Radians.normalize_fl (h : 6 ≤ p) (a : Radians (Fl ρ)) :
    (Angle.normalize a).val = Fl.round (reduce (2 * (ρ).fl Real.pi) a.val.val) := by
  have hT := Radians.fullTurn_fl (hp := hp) (hq := hq)
  have := reduce_fl a.val (Angle.fullTurn : Radians (Fl ρ)).val
    (by rw [hT]; have := (fl_pi_bounds (hp := hp) (hq := hq) h).1; linarith)
  rw [hT] at this
  rw [← this]
  unfold Angle.normalize
  simp only
  split_ifs with h1 h2 h2
  · rfl
  · exact absurd h1 h2
  · exact absurd h2 h1
  · rfl

/-- `normalize` is correctly rounded: the reduction of exact arithmetic, rounded once. -/
theorem C80_degrees_normalize (h : 6 ≤ p) (a : Degrees (Fl ρ)) :
    (Angle.normalize a).val.val = (ρ).fl (Angle.normalize (⟨a.val.val⟩ : Degrees ℝ)).val := by
  rw [Degrees.normalize_fl h, Degrees.normalize_val]; rfl

/-- The same for radians, with the representable full turn `2 fl(π)` in place of `2π`. -/
theorem C80_radians_normalize (h : 6 ≤ p) (a : Radians (Fl ρ)) :
    ∃ r : ℝ, 0 ≤ r ∧ r < 2 * (ρ).fl Real.pi ∧ (∃ k : ℤ, a.val.val = r + k * (2 * (ρ).fl Real.pi)) ∧
      (Angle.normalize a).val.val = (ρ).fl r := by
  have hT : 0 < 2 * (ρ).fl Real.pi := by have := (fl_pi_bounds (hp := hp) (hq := hq) h).1; linarith
  refine ⟨reduce (2 * (ρ).fl Real.pi) a.val.val, (reduce_range hT _).1, (reduce_range hT _).2, reduce_congruent hT _, ?_⟩
  rw [Radians.normalize_fl h]; rfl

theorem reduce_of_nonneg {T x : ℝ} (hT : 0 < T) (hx : 0 ≤ x) : reduce T x = frem x T := by
  unfold reduce
  rw [if_neg]
  have := (frem_spec x T hT.ne').2.2.2
  rw [not_lt]
  rcases hx.eq_or_lt with rfl | hx
  · have h := (frem_spec 0 T hT.ne').2.2.1
    rw [abs_zero] at h
    exact (abs_nonpos_iff.mp h).ge
  · exact nonneg_of_mul_nonneg_right this hx

/-- an angle that is not negative is reduced exactly -/
theorem fl_reduce_of_nonneg (x T : Fl ρ) (hT : 0 < T.val) (hx : 0 ≤ x.val) :
    (ρ).fl (reduce T.val x.val) = reduce T.val x.val := by
  rw [reduce_of_nonneg hT hx, ← Fl.frem_exact x T hT.ne', (frem x T).rep]

/-- The result lies between zero and a full turn; for an angle that is not negative it is exact and less than a full
turn. -/
theorem C80_degrees_range (h : 6 ≤ p) (a : Degrees (Fl ρ)) :
    0 ≤ (Angle.normalize a).val.val ∧ (Angle.normalize a).val.val ≤ 360 ∧
    (0 ≤ a.val.val → (Angle.normalize a).val.val < 360 ∧ ∃ k : ℤ, a.val.val = (Angle.normalize a).val.val + k * 360) := by
  have h360 : (0 : ℝ) < 360 := by norm_num
  rw [Degrees.normalize_fl h, Fl.round_val]
  have r := reduce_range h360 a.val.val
  refine ⟨(ρ).nonneg r.1, ?_, fun ha => ?_⟩
  · have := (ρ).mono _ ((360 : ℕ) : ℝ) (by push_cast; exact r.2.le)
    rwa [fl_360 h] at this
  · have hT := Degrees.fullTurn_fl (hp := hp) (hq := hq) h
    have e := fl_reduce_of_nonneg a.val (Angle.fullTurn : Degrees (Fl ρ)).val (by rw [hT]; norm_num) ha
    rw [hT] at e
    rw [e]
    exact ⟨r.2, reduce_congruent h360 _⟩

theorem C80_radians_range (h : 6 ≤ p) (a : Radians (Fl ρ)) :
    0 ≤ (Angle.normalize a).val.val ∧ (Angle.normalize a).val.val ≤ 2 * (ρ).fl Real.pi ∧
    (0 ≤ a.val.val → (Angle.normalize a).val.val < 2 * (ρ).fl Real.pi ∧
      ∃ k : ℤ, a.val.val = (Angle.normalize a).val.val + k * (2 * (ρ).fl Real.pi)) := by
  have hT' : 0 < 2 * (ρ).fl Real.pi := by have := (fl_pi_bounds (hp := hp) (hq := hq) h).1; linarith
  rw [Radians.normalize_fl h, Fl.round_val]
  have r := reduce_range hT' a.val.val
  have hT := Radians.fullTurn_fl (hp := hp) (hq := hq)
  refine ⟨(ρ).nonneg r.1, ?_, fun ha => ?_⟩
  · have := (ρ).mono _ _ r.2.le
    rwa [← hT, (Angle.fullTurn : Radians (Fl ρ)).val.rep, hT] at this
  · have e := fl_reduce_of_nonneg a.val (Angle.fullTurn : Radians (Fl ρ)).val (by rw [hT]; exact hT') ha
    rw [hT] at e
    rw [e]
    exact ⟨r.2, reduce_congruent hT' _⟩

/-- Half a unit in the last place of numbers below 512. -/
theorem degrees_reduce_err (x : ℝ) : |(ρ).fl (reduce 360 x) - reduce 360 x| ≤ 256 * (ρ).u := by
  have r := reduce_range (show (0 : ℝ) < 360 by norm_num) x
  have := flEven_err_below (p := p) (qmin := qmin) (x := reduce 360 x) (e := 8)
    (by rw [abs_of_nonneg r.1]; norm_num; linarith [r.2]) (fun k hk => (hq k hk).trans (by omega))
  refine this.trans (le_of_eq ?_)
  show _ = 256 * (2 : ℝ) ^ (-(p : ℤ))
  rw [sub_eq_add_neg, zpow_add₀ two_ne_zero]; norm_num

/-- The result is congruent to the argument up to half a unit in the last place of 360. -/
theorem C80_degrees_congruent (h : 6 ≤ p) (a : Degrees (Fl ρ)) :
    ∃ k : ℤ, |(Angle.normalize a).val.val - (a.val.val + k * 360)| ≤ 256 * (ρ).u := by
  obtain ⟨k, hk⟩ := reduce_congruent (show (0 : ℝ) < 360 by norm_num) a.val.val
  refine ⟨-k, ?_⟩
  rw [Degrees.normalize_fl h, Fl.round_val]
  have e : a.val.val + ((-k : ℤ) : ℝ) * 360 = reduce 360 a.val.val := by push_cast; linarith
  rw [e]
  exact degrees_reduce_err _

/-- `k` turns of an angle that is reduced are at most `|x| / T + 1` -/
theorem turns_le {T x r : ℝ} {k : ℤ} (hT : 0 < T) (h0 : 0 ≤ r) (h1 : r < T) (hk : x = r + k * T) :
    |(k : ℝ)| * T ≤ |x| + T := by
  have : |(k : ℝ)| * T = |(k : ℝ) * T| := by rw [abs_mul, abs_of_pos hT]
  rw [this, show (k : ℝ) * T = x - r by linarith]
  refine (abs_sub _ _).trans ?_
  rw [abs_of_nonneg h0]; linarith

/-- For radians the representable full turn differs from `2π`, so the error grows with the angle: it stays below
`(|a| + 8) u`. -/
theorem C80_radians_congruent (h : 6 ≤ p) (a : Radians (Fl ρ)) :
    ∃ k : ℤ, |(Angle.normalize a).val.val - (a.val.val + k * (2 * Real.pi))| ≤ (|a.val.val| + 8) * (ρ).u := by
  obtain ⟨p3, p4, pe⟩ := fl_pi_bounds (hp := hp) (hq := hq) h
  obtain ⟨r, h0, h1, ⟨k, hk⟩, e⟩ := C80_radians_normalize h a
  have hu : 0 ≤ (ρ).u := (ρ).u_nonneg
  refine ⟨-k, ?_⟩
  have herr : |(ρ).fl r - r| ≤ 4 * (ρ).u := by
    have := flEven_err_below (p := p) (qmin := qmin) (x := r) (e := 2)
      (by rw [abs_of_nonneg h0]; norm_num; linarith) (fun k hk => (hq k hk).trans (by omega))
    refine this.trans (le_of_eq ?_)
    show _ = 4 * (2 : ℝ) ^ (-(p : ℤ))
    rw [sub_eq_add_neg, zpow_add₀ two_ne_zero]; norm_num
  have hT : 0 < 2 * (ρ).fl Real.pi := by linarith
  have ht := turns_le hT h0 h1 hk
  have e2 : (Angle.normalize a).val.val - (a.val.val + ((-k : ℤ) : ℝ) * (2 * Real.pi)) =
      ((ρ).fl r - r) + k * (2 * (Real.pi - (ρ).fl Real.pi)) := by
    rw [e, hk]; push_cast; ring
  rw [e2]
  refine (abs_add_le _ _).trans ?_
  have h3 : |(k : ℝ) * (2 * (Real.pi - (ρ).fl Real.pi))| ≤ |(k : ℝ)| * (4 * (ρ).u) := by
    rw [abs_mul, abs_mul, abs_sub_comm, abs_of_pos (show (0 : ℝ) < 2 by norm_num)]
    exact mul_le_mul_of_nonneg_left (by linarith) (abs_nonneg _)
  have h4 : |(k : ℝ)| ≤ |a.val.val| / 6 + 1 := by
    have : |(k : ℝ)| ≤ |a.val.val| / (2 * (ρ).fl Real.pi) + 1 := by
      have := (le_div_iff₀ hT).mpr ht
      rwa [add_div, div_self hT.ne'] at this
    refine this.trans ?_
    gcongr; linarith
  have h5 : |(k : ℝ)| * (4 * (ρ).u) ≤ (|a.val.val| / 6 + 1) * (4 * (ρ).u) := by gcongr
  have h6 : 0 ≤ |a.val.val| * (ρ).u := by positivity
  nlinarith

/-- ... so the sine and cosine (exact) of the normalized angle differ from those of the angle by at most that much. -/
theorem C80_radians_trig (h : 6 ≤ p) (a : Radians (Fl ρ)) :
    |Real.sin (Angle.normalize a).val.val - Real.sin a.val.val| ≤ (|a.val.val| + 8) * (ρ).u ∧
    |Real.cos (Angle.normalize a).val.val - Real.cos a.val.val| ≤ (|a.val.val| + 8) * (ρ).u := by
  obtain ⟨k, hk⟩ := C80_radians_congruent h a
  constructor
  · rw [← Real.sin_add_int_mul_two_pi a.val.val k]
    exact (Real.abs_sin_sub_sin_le _ _).trans hk
  · rw [← Real.cos_add_int_mul_two_pi a.val.val k]
    exact (Real.abs_cos_sub_cos_le _ _).trans hk

/-! ### the signed reduction -/

/-- The difference of a full turn and a number between half a turn and a full turn is exact. -/
theorem Fl.sub_exact (x T : Fl ρ) (h1 : T.val ≤ 2 * x.val) (h2 : x.val ≤ T.val) : (x - T).val = x.val - T.val := by
  have e : x.val - T.val = ((1 : ℤ) : ℝ) * x.val + ((-1 : ℤ) : ℝ) * T.val := by push_cast; ring
  rw [Fl.sub_val, e]
  refine flEven_eq_of_grid (x.onGrid.combination T.onGrid _ _ ?_ ?_) <;> rw [← e, abs_of_nonpos (by linarith)]
  · exact le_trans (by linarith) (le_abs_self _)
  · exact le_trans (by linarith) (le_abs_self _)

theorem Degrees.normalizeSigned_fl (h : 6 ≤ p) (a : Degrees (Fl ρ)) : (Angle.normalizeSigned a).val.val =
    if 180 < (Angle.normalize a).val.val then (Angle.normalize a).val.val - 360 else (Angle.normalize a).val.val := by
  have hT := Degrees.fullTurn_fl (hp := hp) (hq := hq) h
  have hH := Degrees.fullTurnDiv2_fl (hp := hp) (hq := hq) h
  have hlt : (Angle.normalize a > (Angle.fullTurnDiv2 : Degrees (Fl ρ))) ↔ 180 < (Angle.normalize a).val.val := by
    show (Angle.fullTurnDiv2 : Degrees (Fl ρ)).val.val < (Angle.normalize a).val.val ↔ _
    rw [hH]
  unfold Angle.normalizeSigned
  by_cases h' : 180 < (Angle.normalize a).val.val
  · simp only [if_pos (hlt.mpr h'), if_pos h']
    show ((Angle.normalize a).val - (Angle.fullTurn : Degrees (Fl ρ)).val).val = _
    rw [Fl.sub_exact _ _ (by rw [hT]; linarith) (by rw [hT]; exact (C80_degrees_range h a).2.1), hT]
  · simp only [if_neg (fun h'' => h' (hlt.mp h'')), if_neg h']

theorem Radians.normalizeSigned_fl (h : 6 ≤ p) (a : Radians (Fl ρ)) : (Angle.normalizeSigned a).val.val =
    if (ρ).fl Real.pi < (Angle.normalize a).val.val then (Angle.normalize a).val.val - 2 * (ρ).fl Real.pi
    else (Angle.normalize a).val.val := by
  have hT := Radians.fullTurn_fl (hp := hp) (hq := hq)
  have hH := Radians.fullTurnDiv2_fl (hp := hp) (hq := hq)
  have hlt : (Angle.normalize a > (Angle.fullTurnDiv2 : Radians (Fl ρ))) ↔
      (ρ).fl Real.pi < (Angle.normalize a).val.val := by
    show (Angle.fullTurnDiv2 : Radians (Fl ρ)).val.val < (Angle.normalize a).val.val ↔ _
    rw [hH]
  unfold Angle.normalizeSigned
  by_cases h' : (ρ).fl Real.pi < (Angle.normalize a).val.val
  · simp only [if_pos (hlt.mpr h'), if_pos h']
    show ((Angle.normalize a).val - (Angle.fullTurn : Radians (Fl ρ)).val).val = _
    rw [Fl.sub_exact _ _ (by rw [hT]; linarith) (by rw [hT]; exact (C80_radians_range h a).2.1), hT]
  · simp only [if_neg (fun h'' => h' (hlt.mp h'')), if_neg h']

/-- `normalize_signed` always lies in `(-180, 180]`, and is congruent to the argument up to the same error; for an
angle that is not negative it is exact. -/
theorem C80_degrees_signed (h : 6 ≤ p) (a : Degrees (Fl ρ)) :
    -180 < (Angle.normalizeSigned a).val.val ∧ (Angle.normalizeSigned a).val.val ≤ 180 ∧
    (∃ k : ℤ, |(Angle.normalizeSigned a).val.val - (a.val.val + k * 360)| ≤ 256 * (ρ).u) ∧
    (0 ≤ a.val.val → ∃ k : ℤ, a.val.val = (Angle.normalizeSigned a).val.val + k * 360) := by
  obtain ⟨h0, h1, h2⟩ := C80_degrees_range h a
  obtain ⟨k, hk⟩ := C80_degrees_congruent h a
  rw [Degrees.normalizeSigned_fl h]
  split_ifs with h'
  · refine ⟨by linarith, by linarith, ⟨k - 1, ?_⟩, fun ha => ?_⟩
    · refine le_trans (le_of_eq ?_) hk
      congr 1; push_cast; ring
    · obtain ⟨-, j, hj⟩ := h2 ha
      exact ⟨j + 1, by push_cast; linarith⟩
  · exact ⟨by linarith, not_lt.mp h', ⟨k, hk⟩, fun ha => (h2 ha).2⟩

theorem C80_radians_signed (h : 6 ≤ p) (a : Radians (Fl ρ)) :
    -(ρ).fl Real.pi < (Angle.normalizeSigned a).val.val ∧ (Angle.normalizeSigned a).val.val ≤ (ρ).fl Real.pi ∧
    (∃ k : ℤ, |(Angle.normalizeSigned a).val.val - (a.val.val + k * (2 * Real.pi))| ≤ (|a.val.val| + 12) * (ρ).u) ∧
    (0 ≤ a.val.val → ∃ k : ℤ, a.val.val = (Angle.normalizeSigned a).val.val + k * (2 * (ρ).fl Real.pi)) := by
  obtain ⟨p3, p4, pe⟩ := fl_pi_bounds (hp := hp) (hq := hq) h
  obtain ⟨h0, h1, h2⟩ := C80_radians_range h a
  obtain ⟨k, hk⟩ := C80_radians_congruent h a
  have hu : 0 ≤ (ρ).u := (ρ).u_nonneg
  rw [Radians.normalizeSigned_fl h]
  split_ifs with h'
  · refine ⟨by linarith, by linarith, ⟨k - 1, ?_⟩, fun ha => ?_⟩
    · have e : (Angle.normalize a).val.val - 2 * (ρ).fl Real.pi - (a.val.val + ((k - 1 : ℤ) : ℝ) * (2 * Real.pi)) =
          ((Angle.normalize a).val.val - (a.val.val + k * (2 * Real.pi))) + -(2 * ((ρ).fl Real.pi - Real.pi)) := by
        push_cast; ring
      rw [e]
      refine (abs_add_le _ _).trans ?_
      rw [abs_neg, abs_mul, abs_of_pos (show (0 : ℝ) < 2 by norm_num)]
      linarith
    · obtain ⟨-, j, hj⟩ := h2 ha
      exact ⟨j + 1, by push_cast; linarith⟩
  · refine ⟨by linarith, not_lt.mp h', ⟨k, hk.trans (by nlinarith)⟩, fun ha => (h2 ha).2⟩

/-! ### half a turn further, and half way between two angles -/

theorem C80_degrees_opposite (h : 6 ≤ p) (a : Degrees (Fl ρ)) :
    0 ≤ (Angle.opposite a).val.val ∧ (Angle.opposite a).val.val ≤ 360 ∧
    ∃ k : ℤ, |(Angle.opposite a).val.val - (a.val.val + 180 + k * 360)| ≤ (|a.val.val| + 436) * (ρ).u + (ρ).tiny := by
  have hH := Degrees.fullTurnDiv2_fl (hp := hp) (hq := hq) h
  have hu : 0 ≤ (ρ).u := (ρ).u_nonneg
  obtain ⟨h0, h1, -⟩ := C80_degrees_range h (a + Angle.fullTurnDiv2)
  obtain ⟨k, hk⟩ := C80_degrees_congruent h (a + Angle.fullTurnDiv2)
  refine ⟨h0, h1, k, ?_⟩
  have hs : (a + Angle.fullTurnDiv2 : Degrees (Fl ρ)).val.val = (ρ).fl (a.val.val + 180) := by
    show (ρ).fl (a.val.val + (Angle.fullTurnDiv2 : Degrees (Fl ρ)).val.val) = _
    rw [hH]
  rw [hs] at hk
  have he := (ρ).err (a.val.val + 180)
  have e : (Angle.opposite a).val.val - (a.val.val + 180 + k * 360) =
      ((Angle.opposite a).val.val - ((ρ).fl (a.val.val + 180) + k * 360)) +
        ((ρ).fl (a.val.val + 180) - (a.val.val + 180)) := by ring
  rw [e]
  refine (abs_add_le _ _).trans ((add_le_add hk he).trans ?_)
  have : (ρ).u * |a.val.val + 180| ≤ (ρ).u * (|a.val.val| + 180) := by
    gcongr
    exact (abs_add_le _ _).trans (by rw [abs_of_pos (show (0 : ℝ) < 180 by norm_num)])
  nlinarith

theorem C80_radians_opposite (h : 6 ≤ p) (a : Radians (Fl ρ)) :
    0 ≤ (Angle.opposite a).val.val ∧ (Angle.opposite a).val.val ≤ 2 * (ρ).fl Real.pi ∧
    ∃ k : ℤ, |(Angle.opposite a).val.val - (a.val.val + Real.pi + k * (2 * Real.pi))| ≤
      (3 * |a.val.val| + 22) * (ρ).u + 2 * (ρ).tiny := by
  obtain ⟨p3, p4, pe⟩ := fl_pi_bounds (hp := hp) (hq := hq) h
  have hH := Radians.fullTurnDiv2_fl (hp := hp) (hq := hq)
  have hu : 0 ≤ (ρ).u := (ρ).u_nonneg
  have hu1 : (ρ).u ≤ 1 := (ρ).u_le_one
  have ht : 0 ≤ (ρ).tiny := (ρ).tiny_nonneg
  obtain ⟨h0, h1, -⟩ := C80_radians_range h (a + Angle.fullTurnDiv2)
  obtain ⟨k, hk⟩ := C80_radians_congruent h (a + Angle.fullTurnDiv2)
  refine ⟨h0, h1, k, ?_⟩
  have hs : (a + Angle.fullTurnDiv2 : Radians (Fl ρ)).val.val = (ρ).fl (a.val.val + (ρ).fl Real.pi) := by
    show (ρ).fl (a.val.val + (Angle.fullTurnDiv2 : Radians (Fl ρ)).val.val) = _
    rw [hH]
  rw [hs] at hk
  set s := (ρ).fl (a.val.val + (ρ).fl Real.pi)
  have he := (ρ).err (a.val.val + (ρ).fl Real.pi)
  have hsum : |a.val.val + (ρ).fl Real.pi| ≤ |a.val.val| + 4 :=
    (abs_add_le _ _).trans (by rw [abs_of_nonneg (show 0 ≤ (ρ).fl Real.pi by linarith)]; linarith)
  have hs2 : |s - (a.val.val + (ρ).fl Real.pi)| ≤ (ρ).u * (|a.val.val| + 4) + (ρ).tiny :=
    he.trans (by gcongr)
  have hsb : |s| ≤ 2 * |a.val.val| + 8 + (ρ).tiny := by
    have : |s| ≤ |s - (a.val.val + (ρ).fl Real.pi)| + |a.val.val + (ρ).fl Real.pi| := by
      refine le_trans (le_of_eq ?_) (abs_add_le _ _); congr 1; ring
    have h5 : (ρ).u * (|a.val.val| + 4) ≤ 1 * (|a.val.val| + 4) := by gcongr
    linarith
  have e : (Angle.opposite a).val.val - (a.val.val + Real.pi + k * (2 * Real.pi)) =
      ((Angle.opposite a).val.val - (s + k * (2 * Real.pi))) +
        ((s - (a.val.val + (ρ).fl Real.pi)) + ((ρ).fl Real.pi - Real.pi)) := by ring
  rw [e]
  refine (abs_add_le _ _).trans ((add_le_add hk (abs_add_le _ _)).trans ?_)
  have h6 : (|s| + 8) * (ρ).u ≤ (2 * |a.val.val| + 16 + (ρ).tiny) * (ρ).u :=
    mul_le_mul_of_nonneg_right (by linarith) hu
  have h7 : (ρ).tiny * (ρ).u ≤ (ρ).tiny * 1 := by gcongr
  nlinarith

/-- the number that `bisect` normalizes -/
theorem midpoint_err (hu : (ρ).u ≤ 1 / 64) (x y half : Fl ρ) (hh : half.val = 1 / 2) :
    |((y - x) * half + x).val - (x.val + y.val) / 2| ≤ 3 * (|x.val| + |y.val|) * (ρ).u + 4 * (ρ).tiny := by
  have h0 : 0 ≤ (ρ).u := (ρ).u_nonneg
  have ht : 0 ≤ (ρ).tiny := (ρ).tiny_nonneg
  rw [Fl.add_val, Fl.mul_val, Fl.sub_val, hh]
  set M := |x.val| + |y.val| with hM
  have hM0 : 0 ≤ M := by positivity
  set d := (ρ).fl (y.val - x.val) with hd
  set m := (ρ).fl (d * (1 / 2)) with hm
  have hyx : |y.val - x.val| ≤ M := by rw [hM, add_comm]; exact abs_sub _ _
  have e1 : |d - (y.val - x.val)| ≤ (ρ).u * M + (ρ).tiny := ((ρ).err _).trans (by gcongr)
  have hdM : |d| ≤ (1 + (ρ).u) * M + (ρ).tiny := by
    have : |d| ≤ |d - (y.val - x.val)| + |y.val - x.val| := by
      refine le_trans (le_of_eq ?_) (abs_add_le _ _); congr 1; ring
    nlinarith
  have e2 : |m - d * (1 / 2)| ≤ (ρ).u * (((1 + (ρ).u) * M + (ρ).tiny) * (1 / 2)) + (ρ).tiny := by
    refine ((ρ).err _).trans ?_
    rw [abs_mul, abs_of_pos (show (0 : ℝ) < 1 / 2 by norm_num)]
    gcongr
  have hmid : |(x.val + y.val) / 2| ≤ M / 2 := by
    rw [abs_div, abs_of_pos (show (0 : ℝ) < 2 by norm_num)]
    have := abs_add_le x.val y.val
    gcongr
  have e3 : |m + x.val - (x.val + y.val) / 2| ≤ ((ρ).u * M + (ρ).tiny) / 2 +
      ((ρ).u * (((1 + (ρ).u) * M + (ρ).tiny) * (1 / 2)) + (ρ).tiny) := by
    have : m + x.val - (x.val + y.val) / 2 = (d - (y.val - x.val)) / 2 + (m - d * (1 / 2)) := by ring
    rw [this]
    refine (abs_add_le _ _).trans (add_le_add ?_ e2)
    rw [abs_div, abs_of_pos (show (0 : ℝ) < 2 by norm_num)]
    gcongr
  have e4 : |m + x.val| ≤ M / 2 + (((ρ).u * M + (ρ).tiny) / 2 +
      ((ρ).u * (((1 + (ρ).u) * M + (ρ).tiny) * (1 / 2)) + (ρ).tiny)) := by
    have : |m + x.val| ≤ |(x.val + y.val) / 2| + |m + x.val - (x.val + y.val) / 2| := by
      refine le_trans (le_of_eq ?_) (abs_add_le _ _); congr 1; ring
    linarith
  have e5 := (ρ).err (m + x.val)
  have e6 : |(ρ).fl (m + x.val) - (x.val + y.val) / 2| ≤
      |(ρ).fl (m + x.val) - (m + x.val)| + |m + x.val - (x.val + y.val) / 2| := by
    refine le_trans (le_of_eq ?_) (abs_add_le _ _); congr 1; ring
  have e7 : (ρ).u * |m + x.val| ≤ (ρ).u * (M / 2 + (((ρ).u * M + (ρ).tiny) / 2 +
      ((ρ).u * (((1 + (ρ).u) * M + (ρ).tiny) * (1 / 2)) + (ρ).tiny))) := by gcongr
  refine e6.trans ?_
  set u := (ρ).u
  set t := (ρ).tiny
  have a1 : 0 ≤ u * M := by positivity
  have a2 : u * (u * M) ≤ 1 / 64 * (u * M) := by gcongr
  have a3 : u * (u * (u * M)) ≤ 1 / 64 * (1 / 64 * (u * M)) := by gcongr
  have a4 : u * t ≤ 1 / 64 * t := by gcongr
  have a5 : u * (u * t) ≤ 1 / 64 * (1 / 64 * t) := by gcongr
  nlinarith

theorem u_le (h : 6 ≤ p) : (ρ).u ≤ 1 / 64 := by
  show (2 : ℝ) ^ (-(p : ℤ)) ≤ 1 / 64
  calc (2 : ℝ) ^ (-(p : ℤ)) ≤ 2 ^ (-6 : ℤ) := zpow_le_zpow_right₀ one_le_two (by omega)
    _ = 1 / 64 := by norm_num

theorem fl_half (h : 6 ≤ p) : ((1 : Fl ρ) / ((2 : ℕ) : Fl ρ)).val = 1 / 2 := by
  rw [Fl.div_val, Fl.natCast_val, fl_two, Fl.one_val]
  refine flEven_eq_of_grid ⟨1, -1, by norm_num, ?_, fun k hk => (hq k hk).trans (by omega)⟩
  have := two_pow_le h; norm_num at this ⊢; linarith

theorem C80_degrees_bisect (h : 6 ≤ p) (a b : Degrees (Fl ρ)) :
    0 ≤ (Angle.bisect a b).val.val ∧ (Angle.bisect a b).val.val ≤ 360 ∧
    ∃ k : ℤ, |(Angle.bisect a b).val.val - ((a.val.val + b.val.val) / 2 + k * 360)| ≤
      (3 * (|a.val.val| + |b.val.val|) + 256) * (ρ).u + 4 * (ρ).tiny := by
  set m : Degrees (Fl ρ) := (b - a) * ((1 : Fl ρ) / ((2 : ℕ) : Fl ρ)) + a with hm
  have hb : Angle.bisect a b = Angle.normalize m := rfl
  obtain ⟨h0, h1, -⟩ := C80_degrees_range h m
  obtain ⟨k, hk⟩ := C80_degrees_congruent h m
  rw [hb]
  refine ⟨h0, h1, k, ?_⟩
  have he : |m.val.val - (a.val.val + b.val.val) / 2| ≤ _ := midpoint_err (u_le h) a.val b.val _ (fl_half h)
  have e : (Angle.normalize m).val.val - ((a.val.val + b.val.val) / 2 + k * 360) =
      ((Angle.normalize m).val.val - (m.val.val + k * 360)) + (m.val.val - (a.val.val + b.val.val) / 2) := by ring
  rw [e]
  refine (abs_add_le _ _).trans ((add_le_add hk he).trans (le_of_eq (by ring)))

theorem C80_radians_bisect (h : 6 ≤ p) (a b : Radians (Fl ρ)) :
    0 ≤ (Angle.bisect a b).val.val ∧ (Angle.bisect a b).val.val ≤ 2 * (ρ).fl Real.pi ∧
    ∃ k : ℤ, |(Angle.bisect a b).val.val - ((a.val.val + b.val.val) / 2 + k * (2 * Real.pi))| ≤
      (4 * (|a.val.val| + |b.val.val|) + 8) * (ρ).u + 5 * (ρ).tiny := by
  set m : Radians (Fl ρ) := (b - a) * ((1 : Fl ρ) / ((2 : ℕ) : Fl ρ)) + a with hm
  have hb : Angle.bisect a b = Angle.normalize m := rfl
  obtain ⟨h0, h1, -⟩ := C80_radians_range h m
  obtain ⟨k, hk⟩ := C80_radians_congruent h m
  rw [hb]
  refine ⟨h0, h1, k, ?_⟩
  have hu : 0 ≤ (ρ).u := (ρ).u_nonneg
  have hu1 := u_le (hp := hp) (hq := hq) h
  have ht : 0 ≤ (ρ).tiny := (ρ).tiny_nonneg
  have he : |m.val.val - (a.val.val + b.val.val) / 2| ≤ _ := midpoint_err (u_le h) a.val b.val _ (fl_half h)
  set M := |a.val.val| + |b.val.val| with hM
  have hM0 : 0 ≤ M := by positivity
  have hmid : |(a.val.val + b.val.val) / 2| ≤ M / 2 := by
    rw [abs_div, abs_of_pos (show (0 : ℝ) < 2 by norm_num)]
    have := abs_add_le a.val.val b.val.val
    gcongr
  have hmb : |m.val.val| ≤ M + 4 * (ρ).tiny := by
    have h2 : |m.val.val| ≤ |m.val.val - (a.val.val + b.val.val) / 2| + |(a.val.val + b.val.val) / 2| := by
      refine le_trans (le_of_eq ?_) (abs_add_le _ _); congr 1; ring
    have h3 : M * (ρ).u ≤ M * (1 / 64) := by gcongr
    linarith
  have e : (Angle.normalize m).val.val - ((a.val.val + b.val.val) / 2 + k * (2 * Real.pi)) =
      ((Angle.normalize m).val.val - (m.val.val + k * (2 * Real.pi))) +
        (m.val.val - (a.val.val + b.val.val) / 2) := by ring
  rw [e]
  refine (abs_add_le _ _).trans ((add_le_add hk he).trans ?_)
  have h4 : (|m.val.val| + 8) * (ρ).u ≤ (M + 4 * (ρ).tiny + 8) * (ρ).u :=
    mul_le_mul_of_nonneg_right (by linarith) hu
  have h5 : (ρ).tiny * (ρ).u ≤ (ρ).tiny * (1 / 64) := by gcongr
  nlinarith

/-! ### conversion between degrees and radians -/

/-- the factor `π / 180` of the conversion: two roundings -/
theorem to_radians_factor (h : 6 ≤ p) (hn : ∀ k ∈ qmin, k ≤ -6 - p) :
    |((fpi : Fl ρ) / ((180 : ℕ) : Fl ρ)).val - Real.pi / 180| ≤ ((1 + (ρ).u) ^ 2 - 1) * (Real.pi / 180) := by
  obtain ⟨p3, p4, pe⟩ := fl_pi_bounds (hp := hp) (hq := hq) h
  have hu : 0 ≤ (ρ).u := (ρ).u_nonneg
  rw [Fl.div_val, Fl.natCast_val, fl_180 h, Fl.pi_val]
  have hpi := Real.pi_gt_three
  have e1 : |(ρ).fl ((ρ).fl Real.pi / 180) - (ρ).fl Real.pi / 180| ≤ (ρ).u * |(ρ).fl Real.pi / 180| := by
    refine flEven_err_normal (p := p) (qmin := qmin) (e := -7) ?_ (fun k hk => (hn k hk).trans (by omega))
    rw [abs_of_pos (by positivity)]
    norm_num; linarith
  have e2 : |(ρ).fl Real.pi / 180 - Real.pi / 180| ≤ (ρ).u * (Real.pi / 180) := by
    rw [← sub_div, abs_div, abs_of_pos (show (0 : ℝ) < 180 by norm_num)]
    have : (ρ).u * 2 ≤ (ρ).u * Real.pi := by gcongr; linarith
    rw [← mul_div_assoc]
    gcongr; linarith
  have e3 : |(ρ).fl Real.pi / 180| ≤ (1 + (ρ).u) * (Real.pi / 180) := by
    have : |(ρ).fl Real.pi / 180| ≤ |(ρ).fl Real.pi / 180 - Real.pi / 180| + |Real.pi / 180| := by
      refine le_trans (le_of_eq ?_) (abs_add_le _ _); congr 1; ring
    rw [abs_of_pos (show 0 < Real.pi / 180 by positivity)] at this
    linarith
  have e4 : |(ρ).fl ((ρ).fl Real.pi / 180) - Real.pi / 180| ≤
      |(ρ).fl ((ρ).fl Real.pi / 180) - (ρ).fl Real.pi / 180| + |(ρ).fl Real.pi / 180 - Real.pi / 180| := by
    refine le_trans (le_of_eq ?_) (abs_add_le _ _); congr 1; ring
  have e5 : (ρ).u * |(ρ).fl Real.pi / 180| ≤ (ρ).u * ((1 + (ρ).u) * (Real.pi / 180)) := by gcongr
  nlinarith

theorem to_degrees_factor (h : 6 ≤ p) :
    |(((180 : ℕ) : Fl ρ) / (fpi : Fl ρ)).val - 180 / Real.pi| ≤ ((1 + (ρ).u) ^ 2 - 1) * (180 / Real.pi) := by
  obtain ⟨p3, p4, pe⟩ := fl_pi_bounds (hp := hp) (hq := hq) h
  have hu : 0 ≤ (ρ).u := (ρ).u_nonneg
  rw [Fl.div_val, Fl.natCast_val, fl_180 h, Fl.pi_val]
  have hpi := Real.pi_gt_three
  have hf : 0 < (ρ).fl Real.pi := by linarith
  have e1 : |(ρ).fl (180 / (ρ).fl Real.pi) - 180 / (ρ).fl Real.pi| ≤ (ρ).u * |180 / (ρ).fl Real.pi| := by
    refine flEven_err_normal (p := p) (qmin := qmin) (e := 0) ?_ (fun k hk => (hq k hk).trans (by omega))
    rw [abs_of_pos (by positivity), le_div_iff₀ hf]
    norm_num; linarith
  have e2 : |180 / (ρ).fl Real.pi - 180 / Real.pi| ≤ (ρ).u * (180 / Real.pi) := by
    have : 180 / (ρ).fl Real.pi - 180 / Real.pi = (180 / Real.pi) * ((Real.pi - (ρ).fl Real.pi) / (ρ).fl Real.pi) := by
      field_simp
    rw [this, abs_mul, abs_of_pos (show 0 < 180 / Real.pi by positivity), mul_comm]
    gcongr
    rw [abs_div, abs_of_pos hf, div_le_iff₀ hf, abs_sub_comm]
    nlinarith
  have e3 : |180 / (ρ).fl Real.pi| ≤ (1 + (ρ).u) * (180 / Real.pi) := by
    have : |180 / (ρ).fl Real.pi| ≤ |180 / (ρ).fl Real.pi - 180 / Real.pi| + |180 / Real.pi| := by
      refine le_trans (le_of_eq ?_) (abs_add_le _ _); congr 1; ring
    rw [abs_of_pos (show 0 < 180 / Real.pi by positivity)] at this
    linarith
  have e4 : |(ρ).fl (180 / (ρ).fl Real.pi) - 180 / Real.pi| ≤
      |(ρ).fl (180 / (ρ).fl Real.pi) - 180 / (ρ).fl Real.pi| + |180 / (ρ).fl Real.pi - 180 / Real.pi| := by
    refine le_trans (le_of_eq ?_) (abs_add_le _ _); congr 1; ring
  have e5 : (ρ).u * |180 / (ρ).fl Real.pi| ≤ (ρ).u * ((1 + (ρ).u) * (180 / Real.pi)) := by gcongr
  nlinarith

private theorem conv_err {x f F : ℝ} (hF : 0 < F) (h : |f - F| ≤ ((1 + (ρ).u) ^ 2 - 1) * F) :
    |(ρ).fl (x * f) - x * F| ≤ ((1 + (ρ).u) ^ 3 - 1) * (|x| * F) + (ρ).tiny := by
  have hu : 0 ≤ (ρ).u := (ρ).u_nonneg
  have h1 : |x * f - x * F| ≤ ((1 + (ρ).u) ^ 2 - 1) * (|x| * F) := by
    rw [← mul_sub, abs_mul]
    calc |x| * |f - F| ≤ |x| * (((1 + (ρ).u) ^ 2 - 1) * F) := by gcongr
      _ = _ := by ring
  have h2 : |x * f| ≤ (1 + (ρ).u) ^ 2 * (|x| * F) := by
    have : |x * f| ≤ |x * f - x * F| + |x * F| := by
      refine le_trans (le_of_eq ?_) (abs_add_le _ _); congr 1; ring
    rw [abs_mul x F, abs_of_pos hF] at this
    linarith
  have h3 := (ρ).err (x * f)
  have h4 : (ρ).u * |x * f| ≤ (ρ).u * ((1 + (ρ).u) ^ 2 * (|x| * F)) := by gcongr
  have h5 : |(ρ).fl (x * f) - x * F| ≤ |(ρ).fl (x * f) - x * f| + |x * f - x * F| := by
    refine le_trans (le_of_eq ?_) (abs_add_le _ _); congr 1; ring
  nlinarith

/-- Conversion to radians makes three roundings: the relative error is at most `(1 + u) ^ 3 - 1`, and `tiny` more if
the result underflows.  `hn` says that `π / 180` does not underflow, as in `f32` and `f64`. -/
theorem C80_to_radians (h : 6 ≤ p) (hn : ∀ k ∈ qmin, k ≤ -6 - p) (d : Degrees (Fl ρ)) :
    |(Radians.ofDegrees d).val.val - d.val.val * Real.pi / 180| ≤
      ((1 + (ρ).u) ^ 3 - 1) * (|d.val.val| * Real.pi / 180) + (ρ).tiny := by
  have := conv_err (x := d.val.val) (show 0 < Real.pi / 180 by positivity) (to_radians_factor (hp := hp) (hq := hq) h hn)
  rw [mul_div_assoc, mul_div_assoc]
  exact this

theorem C80_to_degrees (h : 6 ≤ p) (r : Radians (Fl ρ)) :
    |(Degrees.ofRadians r).val.val - r.val.val * 180 / Real.pi| ≤
      ((1 + (ρ).u) ^ 3 - 1) * (|r.val.val| * 180 / Real.pi) + (ρ).tiny := by
  have := conv_err (x := r.val.val) (show 0 < 180 / Real.pi by positivity) (to_degrees_factor (hp := hp) (hq := hq) h)
  rw [mul_div_assoc, mul_div_assoc]
  exact this

/-- The conversions preserve order, signs and zero. -/
theorem C80_conversion_monotone (h : 6 ≤ p) (d d' : Degrees (Fl ρ)) (r r' : Radians (Fl ρ)) :
    (d.val.val ≤ d'.val.val → (Radians.ofDegrees d).val.val ≤ (Radians.ofDegrees d').val.val) ∧
    (r.val.val ≤ r'.val.val → (Degrees.ofRadians r).val.val ≤ (Degrees.ofRadians r').val.val) ∧
    Radians.ofDegrees (-d) = -Radians.ofDegrees d ∧ Degrees.ofRadians (-r) = -Degrees.ofRadians r ∧
    Radians.ofDegrees (⟨0⟩ : Degrees (Fl ρ)) = ⟨0⟩ ∧ Degrees.ofRadians (⟨0⟩ : Radians (Fl ρ)) = ⟨0⟩ := by
  obtain ⟨p3, -, -⟩ := fl_pi_bounds (hp := hp) (hq := hq) h
  have f1 : 0 ≤ ((fpi : Fl ρ) / ((180 : ℕ) : Fl ρ)).val := by
    rw [Fl.div_val, Fl.natCast_val, fl_180 h, Fl.pi_val]
    exact (ρ).nonneg (by positivity)
  have f2 : 0 ≤ (((180 : ℕ) : Fl ρ) / (fpi : Fl ρ)).val := by
    rw [Fl.div_val, Fl.natCast_val, fl_180 h, Fl.pi_val]
    exact (ρ).nonneg (div_nonneg (by norm_num) (by linarith))
  refine ⟨fun hd => (ρ).mono _ _ (mul_le_mul_of_nonneg_right hd f1),
    fun hd => (ρ).mono _ _ (mul_le_mul_of_nonneg_right hd f2), ?_, ?_, ?_, ?_⟩
  · exact Radians.ext (Fl.neg_mul _ _)
  · exact Degrees.ext (Fl.neg_mul _ _)
  · exact Radians.ext (Fl.zero_mul _)
  · exact Degrees.ext (Fl.zero_mul _)

/-- There and back: six roundings. -/
theorem C80_round_trip (h : 6 ≤ p) (hn : ∀ k ∈ qmin, k ≤ -6 - p) (d : Degrees (Fl ρ)) :
    |(Degrees.ofRadians (Radians.ofDegrees d)).val.val - d.val.val| ≤
      ((1 + (ρ).u) ^ 6 - 1) * |d.val.val| + 121 * (ρ).tiny := by
  have hu : 0 ≤ (ρ).u := (ρ).u_nonneg
  have hu1 := u_le (hp := hp) (hq := hq) h
  have ht : 0 ≤ (ρ).tiny := (ρ).tiny_nonneg
  have hpi := Real.pi_gt_three
  have h1 := C80_to_radians h hn d
  have h2 := C80_to_degrees h (Radians.ofDegrees d)
  set x := d.val.val
  set y := (Radians.ofDegrees d).val.val
  set z := (Degrees.ofRadians (Radians.ofDegrees d)).val.val
  set g := (1 + (ρ).u) ^ 3 with hg
  have hg1 : 1 ≤ g := one_le_pow₀ (by linarith)
  have hg2 : g ≤ 17 / 16 := by
    calc g ≤ (1 + 1 / 64) ^ 3 := by rw [hg]; gcongr
      _ ≤ 17 / 16 := by norm_num
  have c1 : (180 / Real.pi) ≤ 60 := by rw [div_le_iff₀ Real.pi_pos]; linarith
  have c0 : 0 < 180 / Real.pi := by positivity
  have h3 : |y * 180 / Real.pi - x| ≤ (g - 1) * |x| + 60 * (ρ).tiny := by
    have e : y * 180 / Real.pi - x = (y - x * Real.pi / 180) * (180 / Real.pi) := by field_simp
    rw [e, abs_mul, abs_of_pos c0]
    calc _ ≤ ((g - 1) * (|x| * Real.pi / 180) + (ρ).tiny) * (180 / Real.pi) := by gcongr
      _ = (g - 1) * |x| + (ρ).tiny * (180 / Real.pi) := by field_simp
      _ ≤ _ := by nlinarith
  have h4 : |y| * 180 / Real.pi ≤ g * |x| + 60 * (ρ).tiny := by
    have e : |y| * 180 / Real.pi = |y * 180 / Real.pi| := by
      rw [mul_div_assoc, mul_div_assoc, abs_mul, abs_of_pos c0]
    rw [e]
    have : |y * 180 / Real.pi| ≤ |y * 180 / Real.pi - x| + |x| := by
      refine le_trans (le_of_eq ?_) (abs_add_le _ _); congr 1; ring
    linarith
  have h5 : (g - 1) * (|y| * 180 / Real.pi) ≤ (g - 1) * (g * |x| + 60 * (ρ).tiny) :=
    mul_le_mul_of_nonneg_left h4 (by linarith)
  have h6 : |z - x| ≤ |z - y * 180 / Real.pi| + |y * 180 / Real.pi - x| := by
    refine le_trans (le_of_eq ?_) (abs_add_le _ _); congr 1; ring
  have h7 : (1 + (ρ).u) ^ 6 = g * g := by rw [hg]; ring
  rw [h7]
  have h8 : (g - 1) * (ρ).tiny ≤ 1 / 16 * (ρ).tiny := by gcongr; linarith
  nlinarith

end

/-! ### what fails -/

section Fails

theorem reduce_neg_small {T x : ℝ} (hx : 0 < x) (hxT : x < T) : reduce T (-x) = T - x :=
  reduce_unique (hx.trans hxT) _ _ (by linarith) (by linarith) (-1) (by push_cast; ring)

theorem reduce_self {T : ℝ} (hT : 0 < T) : reduce T T = 0 := reduce_unique hT _ _ le_rfl hT 1 (by push_cast; ring)

/-- In `f64` `normalize` can return a full turn, although it is documented to return an angle less than a full turn:
the remainder of a tiny negative angle plus a full turn rounds to a full turn.  Normalizing again gives zero, so the
operation is not idempotent either. -/
theorem C80_normalize_full_turn_fails : ∃ a : Degrees (Fl binary64), a.val.val ≠ 0 ∧
    (Angle.normalize a).val.val = 360 ∧ (Angle.normalize (Angle.normalize a)).val.val = 0 := by
  have h360 : (0 : ℝ) < 360 := by norm_num
  have h1 : (Angle.normalize (⟨-small64⟩ : Degrees (Fl binary64))).val.val = 360 := by
    have e : (Angle.normalize (⟨-small64⟩ : Degrees (Fl binary64))).val = Fl.round (reduce 360 (-small64).val) :=
      Degrees.normalize_fl (by norm_num) _
    rw [e, Fl.round_val, Fl.neg_val, show small64.val = 2 ^ (-60 : ℤ) from rfl,
      reduce_neg_small (by positivity) (by norm_num)]
    have := flEven_eq (p := 53) (qmin := some (-1074)) (x := 360 - 2 ^ (-60 : ℤ)) (e := 8) (m := 360 * 2 ^ 44)
      (by norm_num [abs_of_pos]) (by norm_num [abs_of_pos]) (by norm_num [lastBit, abs_of_neg])
    refine (show binary64.fl _ = _ from this).trans ?_
    norm_num [lastBit]
  refine ⟨⟨-small64⟩, ?_, h1, ?_⟩
  · rw [Fl.neg_val, show small64.val = 2 ^ (-60 : ℤ) from rfl]; norm_num
  · have e : (Angle.normalize (Angle.normalize (⟨-small64⟩ : Degrees (Fl binary64)))).val.val =
        binary64.fl (reduce 360 (Angle.normalize (⟨-small64⟩ : Degrees (Fl binary64))).val.val) :=
      congrArg Fl.val (Degrees.normalize_fl (by norm_num) _)
    rw [e, h1, reduce_self h360]
    exact binary64.zero

/-- The same in radians. -/
theorem C80_normalize_full_turn_radians_fails : ∃ a : Radians (Fl binary64), a.val.val ≠ 0 ∧
    Angle.normalize a = Angle.fullTurn ∧ (Angle.normalize (Angle.normalize a)).val.val = 0 := by
  obtain ⟨p3, p4, pe⟩ := fl_pi_bounds (p := 53) (qmin := some (-1074)) (hp := by norm_num) (hq := by simp) (by norm_num)
  change 3 ≤ binary64.fl Real.pi at p3
  change |binary64.fl Real.pi - Real.pi| ≤ 2 * (2 : ℝ) ^ (-53 : ℤ) at pe
  have hT : (Angle.fullTurn : Radians (Fl binary64)).val.val = 2 * binary64.fl Real.pi := Radians.fullTurn_fl
  set T := 2 * binary64.fl Real.pi with hTd
  have hT0 : 0 < T := by linarith
  have hT8 : T < 7 := by
    have h3 : (2 : ℝ) * 2 ^ (-53 : ℤ) ≤ 1 / 100 := by norm_num
    have := (abs_le.mp (pe.trans h3)).2
    have h2 : Real.pi < 3.15 := Real.pi_lt_d2
    norm_num at h2
    rw [hTd]; linarith
  have hrep : binary64.fl T = T := by rw [← hT]; exact (Angle.fullTurn : Radians (Fl binary64)).val.rep
  have hlog : Int.log 2 |T| = 2 := by
    rw [abs_of_pos hT0]
    apply le_antisymm
    · have := (two_zpow_log_le hT0.ne')
      rw [abs_of_pos hT0] at this
      have h4 : (2 : ℝ) ^ Int.log 2 T < 2 ^ (3 : ℤ) := by norm_num; linarith
      have := (zpow_lt_zpow_iff_right₀ (one_lt_two (α := ℝ))).mp h4
      omega
    · have := lt_two_zpow_log T
      rw [abs_of_pos hT0] at this
      have h4 : (2 : ℝ) ^ (2 : ℤ) < 2 ^ (Int.log 2 T + 1) := by norm_num at this ⊢; linarith
      have := (zpow_lt_zpow_iff_right₀ (one_lt_two (α := ℝ))).mp h4
      omega
  obtain ⟨m, hm⟩ : ∃ m : ℤ, T = m * 2 ^ (-50 : ℤ) := by
    have : flEven 53 (some (-1074)) T = T := hrep
    refine ⟨roundEven (T / 2 ^ lastBit 53 (some (-1074)) (Int.log 2 |T|)), ?_⟩
    conv_lhs => rw [← this]
    simp only [flEven, hlog]
    norm_num [lastBit]
  have h1 : Angle.normalize (⟨-small64⟩ : Radians (Fl binary64)) = Angle.fullTurn := by
    have e : (Angle.normalize (⟨-small64⟩ : Radians (Fl binary64))).val = Fl.round (reduce T (-small64).val) :=
      Radians.normalize_fl (by norm_num) _
    apply Radians.ext
    apply Fl.ext
    rw [hT, e, Fl.round_val, Fl.neg_val, show small64.val = 2 ^ (-60 : ℤ) from rfl,
      reduce_neg_small (by positivity) (by norm_num; linarith)]
    have h6 : (0 : ℝ) < T - 2 ^ (-60 : ℤ) := by norm_num; linarith
    have := flEven_eq (p := 53) (qmin := some (-1074)) (x := T - 2 ^ (-60 : ℤ)) (e := 2) (m := m)
      (by rw [abs_of_pos h6]; norm_num; linarith) (by rw [abs_of_pos h6]; norm_num; linarith)
      (by
        rw [hm]; norm_num [lastBit]
        rw [show ((m : ℝ) * (1 / 1125899906842624) - 1 / 1152921504606846976) / (1 / 1125899906842624) - m = -(1 / 1024) by
          ring]
        norm_num)
    refine (show binary64.fl _ = _ from this).trans ?_
    rw [hm]; norm_num [lastBit]
  refine ⟨⟨-small64⟩, ?_, h1, ?_⟩
  · rw [Fl.neg_val, show small64.val = 2 ^ (-60 : ℤ) from rfl]; norm_num
  · have e : (Angle.normalize (Angle.normalize (⟨-small64⟩ : Radians (Fl binary64)))).val.val =
        binary64.fl (reduce T (Angle.normalize (⟨-small64⟩ : Radians (Fl binary64))).val.val) :=
      congrArg Fl.val (Radians.normalize_fl (by norm_num) _)
    rw [e, h1, hT, reduce_self hT0]
    exact binary64.zero

end Fails

/-! ### `f64` and `f32` -/

/-- An angle of a million radians is normalized to within `2 ^ -33`. -/
example (a : Radians (Fl binary64)) (h : |a.val.val| ≤ 1000000) :
    |Real.sin (Angle.normalize a).val.val - Real.sin a.val.val| ≤ 2 ^ (-33 : ℤ) := by
  refine (C80_radians_trig (by norm_num) a).1.trans ?_
  show (|a.val.val| + 8) * (2 : ℝ) ^ (-53 : ℤ) ≤ _
  norm_num; linarith

/-- `f32` meets the hypotheses of the conversion theorems. -/
example (d : Degrees (Fl binary32)) : |(Degrees.ofRadians (Radians.ofDegrees d)).val.val - d.val.val| ≤
    ((1 + binary32.u) ^ 6 - 1) * |d.val.val| + 121 * binary32.tiny :=
  C80_round_trip (by norm_num) (by simp) d

end Cgl
