import Mathlib.Data.Int.Log
import Verif.Model.Float
import Verif.Model.Prelude

/-! # Rounded arithmetic

The scalar operations of `f32` and `f64` return the exact result rounded to a representable number.
`Rounding` collects the properties of such a rounding that the theorems use, `Fl ρ` is the type of
the representable numbers with the rounded operations, and `Rounding.nearestEven` is rounding to nearest, ties to
even, with `p` significant bits (`p = 53` for `f64`, `p = 24` for `f32`) and, optionally, a smallest exponent
(gradual underflow).  Overflow, infinities, NaN and the sign of zero are not part of this arithmetic. -/

namespace Cgl

/-- A rounding with unit roundoff `u` and underflow error `tiny`. -/
structure Rounding where
  /-- rounding of an exact result -/
  fl : ℝ → ℝ
  /-- unit roundoff: `2 ^ -53` for `f64` -/
  u : ℝ
  /-- absolute error of a result that underflows: `2 ^ -1075` for `f64` -/
  tiny : ℝ
  u_nonneg : 0 ≤ u
  u_le_one : u ≤ 1
  tiny_nonneg : 0 ≤ tiny
  err : ∀ x, |fl x - x| ≤ u * |x| + tiny
  idem : ∀ x, fl (fl x) = fl x
  neg : ∀ x, fl (-x) = -fl x
  mono : ∀ x y, x ≤ y → fl x ≤ fl y
  one : fl 1 = 1

namespace Rounding

theorem zero (ρ : Rounding) : ρ.fl 0 = 0 := by
  have := ρ.neg 0; rw [neg_zero] at this; linarith

theorem nonneg (ρ : Rounding) {x : ℝ} (h : 0 ≤ x) : 0 ≤ ρ.fl x := ρ.zero ▸ ρ.mono 0 x h

/-! ### rounding to nearest, ties to even -/

/-- the integer nearest to `t`, the even one if there are two -/
noncomputable def roundEven (t : ℝ) : ℤ :=
  if t - ⌊t⌋ < 1 / 2 then ⌊t⌋ else if 1 / 2 < t - ⌊t⌋ then ⌊t⌋ + 1 else if Even ⌊t⌋ then ⌊t⌋ else ⌊t⌋ + 1

theorem roundEven_err (t : ℝ) : |(roundEven t : ℝ) - t| ≤ 1 / 2 := by
  have h1 := Int.floor_le t
  have h2 := Int.lt_floor_add_one t
  unfold roundEven
  rw [abs_le]
  split_ifs <;> push_cast <;> constructor <;> linarith

theorem roundEven_int (m : ℤ) : roundEven m = m := by simp [roundEven]

theorem roundEven_mono {s t : ℝ} (h : s ≤ t) : roundEven s ≤ roundEven t := by
  have hf := Int.floor_mono h
  rcases hf.lt_or_eq with hf | hf
  · have h1 : roundEven s ≤ ⌊s⌋ + 1 := by unfold roundEven; split_ifs <;> omega
    have h2 : ⌊t⌋ ≤ roundEven t := by unfold roundEven; split_ifs <;> omega
    omega
  · unfold roundEven
    rw [← hf]
    split_ifs <;> first | omega | (exfalso; linarith)

theorem roundEven_neg (t : ℝ) : roundEven (-t) = -roundEven t := by
  rcases eq_or_ne (t - ⌊t⌋) 0 with h | h
  · have : t = ⌊t⌋ := by linarith
    rw [this, ← Int.cast_neg, roundEven_int, roundEven_int]
  · have h1 := Int.floor_le t
    have h2 := Int.lt_floor_add_one t
    have h3 : 0 < t - ⌊t⌋ := lt_of_le_of_ne (by linarith) h.symm
    have hfl : ⌊-t⌋ = -⌊t⌋ - 1 := by
      rw [Int.floor_eq_iff]; push_cast; constructor <;> linarith
    unfold roundEven
    rw [hfl]
    have hev : Even (-⌊t⌋ - 1) ↔ ¬Even ⌊t⌋ := by
      rw [Int.even_sub_one, even_neg]
    push_cast
    split_ifs <;> first | omega | (exfalso; linarith) | (exfalso; tauto)

theorem roundEven_le_of_le {t : ℝ} {m : ℤ} (h : t ≤ m) : roundEven t ≤ m := roundEven_int m ▸ roundEven_mono h
theorem le_roundEven_of_le {t : ℝ} {m : ℤ} (h : (m : ℝ) ≤ t) : m ≤ roundEven t := roundEven_int m ▸ roundEven_mono h

/-- The exponent of the last bit of a number in `[2 ^ e, 2 ^ (e + 1))`. -/
def lastBit (p : ℕ) (qmin : Option ℤ) (e : ℤ) : ℤ :=
  match qmin with
  | none => e + 1 - p
  | some m => max (e + 1 - p) m

section
variable (p : ℕ) (qmin : Option ℤ)

theorem lastBit_ge (e : ℤ) : e + 1 - p ≤ lastBit p qmin e := by cases qmin <;> simp [lastBit]
theorem lastBit_mono {e e' : ℤ} (h : e ≤ e') : lastBit p qmin e ≤ lastBit p qmin e' := by
  cases qmin <;> simp only [lastBit] <;> omega
theorem lastBit_lt {e e' : ℤ} (h : lastBit p qmin e < lastBit p qmin e') : lastBit p qmin e' = e' + 1 - p := by
  cases qmin <;> simp only [lastBit] at h ⊢; omega

/-- Rounding to nearest, ties to even, to `p` bits and last bits from `2 ^ qmin` on. -/
noncomputable def flEven (x : ℝ) : ℝ :=
  let q := lastBit p qmin (Int.log 2 |x|)
  roundEven (x / 2 ^ q) * 2 ^ q

theorem two_zpow_log_le {x : ℝ} (hx : x ≠ 0) : (2 : ℝ) ^ Int.log 2 |x| ≤ |x| := by
  have := Int.zpow_log_le_self (R := ℝ) (b := 2) one_lt_two (abs_pos.mpr hx); exact_mod_cast this
theorem lt_two_zpow_log (x : ℝ) : |x| < (2 : ℝ) ^ (Int.log 2 |x| + 1) := by
  have := Int.lt_zpow_succ_log_self (R := ℝ) (b := 2) one_lt_two |x|; exact_mod_cast this

theorem flEven_neg (x : ℝ) : flEven p qmin (-x) = -flEven p qmin x := by
  simp only [flEven, abs_neg, neg_div, roundEven_neg]; push_cast; ring

theorem flEven_of_int {x : ℝ} {m : ℤ} (h : x / 2 ^ lastBit p qmin (Int.log 2 |x|) = m) : flEven p qmin x = x := by
  simp only [flEven]
  rw [h, roundEven_int, ← h]
  field_simp

theorem flEven_err (x : ℝ) :
    |flEven p qmin x - x| ≤ 2 ^ (lastBit p qmin (Int.log 2 |x|) - 1) := by
  simp only [flEven]
  set q := lastBit p qmin (Int.log 2 |x|)
  have h2 : (0 : ℝ) < 2 ^ q := by positivity
  have : (roundEven (x / 2 ^ q) : ℝ) * 2 ^ q - x = (roundEven (x / 2 ^ q) - x / 2 ^ q) * 2 ^ q := by field_simp
  rw [this, abs_mul, abs_of_pos h2, zpow_sub₀ two_ne_zero, zpow_one]
  have := mul_le_mul_of_nonneg_right (roundEven_err (x / 2 ^ q)) h2.le
  linarith

theorem flEven_zero : flEven p qmin 0 = 0 := by simp [flEven, roundEven]

/-- `|fl x| ≤ 2 ^ (max (e + 1) q)` -/
theorem flEven_abs_le (x : ℝ) {k : ℤ} (hk : Int.log 2 |x| + 1 ≤ k) (hq : lastBit p qmin (Int.log 2 |x|) ≤ k) :
    |flEven p qmin x| ≤ 2 ^ k := by
  have key : ∀ y : ℝ, 0 ≤ y → Int.log 2 |y| + 1 ≤ k → lastBit p qmin (Int.log 2 |y|) ≤ k →
      0 ≤ flEven p qmin y ∧ flEven p qmin y ≤ 2 ^ k := by
    intro y hy hk hq
    simp only [flEven]
    set q := lastBit p qmin (Int.log 2 |y|)
    have h2 : (0 : ℝ) < 2 ^ q := by positivity
    obtain ⟨d, hd⟩ := Int.le.dest hq
    constructor
    · have : (0 : ℤ) ≤ roundEven (y / 2 ^ q) := le_roundEven_of_le (by push_cast; positivity)
      have : (0 : ℝ) ≤ roundEven (y / 2 ^ q) := by exact_mod_cast this
      positivity
    · have hle : y / 2 ^ q ≤ ((2 ^ d : ℤ) : ℝ) := by
        rw [div_le_iff₀ h2]
        have h1 := lt_two_zpow_log y
        have h3 : (2 : ℝ) ^ (Int.log 2 |y| + 1) ≤ 2 ^ k := zpow_le_zpow_right₀ one_le_two hk
        have h4 : (2 : ℝ) ^ k = 2 ^ d * 2 ^ q := by
          rw [← hd, zpow_add₀ two_ne_zero, zpow_natCast]; ring
        rw [h4] at h3
        push_cast; linarith [le_abs_self y]
      have := roundEven_le_of_le hle
      have : (roundEven (y / 2 ^ q) : ℝ) ≤ 2 ^ d := by exact_mod_cast this
      calc _ ≤ (2 : ℝ) ^ d * 2 ^ q := by gcongr
        _ = 2 ^ k := by rw [← hd, zpow_add₀ two_ne_zero, zpow_natCast]; ring
  rcases le_total 0 x with h | h
  · obtain ⟨a, b⟩ := key x h hk hq
    rwa [abs_of_nonneg a]
  · obtain ⟨a, b⟩ := key (-x) (by linarith) (by rwa [abs_neg]) (by rwa [abs_neg])
    rw [flEven_neg] at a b
    rwa [abs_of_nonpos (by linarith)]

theorem flEven_idem (hp : 1 ≤ p) (x : ℝ) : flEven p qmin (flEven p qmin x) = flEven p qmin x := by
  set y := flEven p qmin x with hy
  rcases eq_or_ne y 0 with h0 | h0
  · rw [h0, flEven_zero]
  set q := lastBit p qmin (Int.log 2 |x|) with hq
  set m := roundEven (x / 2 ^ q) with hm
  have hy' : y = m * 2 ^ q := by rw [hy]; simp only [flEven, ← hq, ← hm]
  rcases le_or_gt (lastBit p qmin (Int.log 2 |y|)) q with hle | hlt
  · obtain ⟨d, hd⟩ := Int.le.dest hle
    refine flEven_of_int p qmin (m := m * 2 ^ d) ?_
    set k := lastBit p qmin (Int.log 2 |y|)
    rw [hy', ← hd, zpow_add₀ two_ne_zero, zpow_natCast]
    push_cast; field_simp
  · have h1 := lastBit_lt p qmin hlt
    have h2 := two_zpow_log_le h0
    have h3 : |y| ≤ 2 ^ (q + p) := by
      apply flEven_abs_le
      · have := lastBit_ge p qmin (Int.log 2 |x|); omega
      · omega
    have h4 : Int.log 2 |y| ≤ q + p := by
      have := h2.trans h3
      exact (zpow_le_zpow_iff_right₀ one_lt_two).mp this
    have h5 : Int.log 2 |y| = q + p := by omega
    have h6 : |y| = 2 ^ (q + p) := le_antisymm h3 (h5 ▸ h2)
    have h7 : lastBit p qmin (Int.log 2 |y|) = q + 1 := by omega
    have h8 : (2 : ℝ) ^ (q + p) / 2 ^ (q + 1) = ((2 ^ (p - 1) : ℤ) : ℝ) := by
      rw [← zpow_sub₀ two_ne_zero]
      push_cast
      rw [← zpow_natCast]; congr 1; omega
    rcases abs_eq (by positivity) |>.mp h6 with h | h
    · refine flEven_of_int p qmin (m := 2 ^ (p - 1)) ?_
      rw [h7, ← h8]; congr 1
    · refine flEven_of_int p qmin (m := -2 ^ (p - 1)) ?_
      rw [h7, Int.cast_neg, ← h8, ← neg_div]; congr 1

theorem flEven_nonneg {x : ℝ} (h : 0 ≤ x) : 0 ≤ flEven p qmin x := by
  simp only [flEven]
  have : (0 : ℤ) ≤ roundEven (x / 2 ^ lastBit p qmin (Int.log 2 |x|)) :=
    le_roundEven_of_le (by push_cast; positivity)
  have : (0 : ℝ) ≤ roundEven (x / 2 ^ lastBit p qmin (Int.log 2 |x|)) := by exact_mod_cast this
  positivity

theorem flEven_mono_nonneg (hp : 1 ≤ p) {x y : ℝ} (hx : 0 ≤ x) (h : x ≤ y) : flEven p qmin x ≤ flEven p qmin y := by
  rcases hx.eq_or_lt with rfl | hx
  · rw [flEven_zero]; exact flEven_nonneg p qmin h
  have hy : 0 < y := hx.trans_le h
  have he : Int.log 2 |x| ≤ Int.log 2 |y| := Int.log_mono_right (abs_pos.mpr hx.ne') (by
    rwa [abs_of_pos hx, abs_of_pos hy])
  have hq := lastBit_mono p qmin he
  rcases hq.eq_or_lt with hq | hq
  · simp only [flEven]
    rw [hq]
    have : roundEven (x / 2 ^ lastBit p qmin (Int.log 2 |y|)) ≤ roundEven (y / 2 ^ lastBit p qmin (Int.log 2 |y|)) :=
      roundEven_mono (by gcongr)
    have : (roundEven (x / 2 ^ lastBit p qmin (Int.log 2 |y|)) : ℝ) ≤
      roundEven (y / 2 ^ lastBit p qmin (Int.log 2 |y|)) := by exact_mod_cast this
    gcongr
  · have h1 := lastBit_lt p qmin hq
    have h2 : Int.log 2 |x| < Int.log 2 |y| := by
      rcases he.eq_or_lt with h | h
      · rw [h] at hq; omega
      · exact h
    have h3 := flEven_abs_le p qmin x (k := Int.log 2 |y|) (by omega) (by omega)
    rw [abs_of_nonneg (flEven_nonneg p qmin hx.le)] at h3
    refine h3.trans ?_
    simp only [flEven]
    set q := lastBit p qmin (Int.log 2 |y|)
    have h4 : ((2 ^ (p - 1) : ℤ) : ℝ) ≤ y / 2 ^ q := by
      rw [le_div_iff₀ (by positivity)]
      have := two_zpow_log_le hy.ne'
      rw [abs_of_pos hy] at this
      refine le_trans (le_of_eq ?_) this
      push_cast
      rw [← zpow_natCast, ← zpow_add₀ two_ne_zero, ← abs_of_pos hy]; congr 1
      rw [abs_of_pos hy, ← abs_of_pos hy]; omega
    have h5 := le_roundEven_of_le h4
    have h6 : (2 : ℝ) ^ (p - 1) ≤ roundEven (y / 2 ^ q) := by exact_mod_cast h5
    calc (2 : ℝ) ^ Int.log 2 |y| = 2 ^ (p - 1) * 2 ^ q := by
          rw [← zpow_natCast, ← zpow_add₀ two_ne_zero]; congr 1; omega
      _ ≤ _ := by gcongr

theorem flEven_mono (hp : 1 ≤ p) {x y : ℝ} (h : x ≤ y) : flEven p qmin x ≤ flEven p qmin y := by
  rcases le_total 0 x with hx | hx
  · exact flEven_mono_nonneg p qmin hp hx h
  · rcases le_total 0 y with hy | hy
    · have := flEven_nonneg p qmin (x := -x) (by linarith)
      rw [flEven_neg] at this
      linarith [flEven_nonneg p qmin hy]
    · have := flEven_mono_nonneg p qmin hp (x := -y) (y := -x) (by linarith) (by linarith)
      rw [flEven_neg, flEven_neg] at this
      linarith

/-- the underflow error of rounding with last bits from `2 ^ qmin` on -/
noncomputable def tinyEven : ℝ :=
  match qmin with
  | none => 0
  | some m => 2 ^ (m - 1)

theorem tinyEven_nonneg : 0 ≤ tinyEven qmin := by cases qmin <;> simp only [tinyEven] <;> positivity

theorem flEven_err' (x : ℝ) : |flEven p qmin x - x| ≤ 2 ^ (-(p : ℤ)) * |x| + tinyEven qmin := by
  rcases eq_or_ne x 0 with rfl | hx
  · simp [flEven_zero, tinyEven_nonneg]
  have h := flEven_err p qmin x
  have h1 : (2 : ℝ) ^ (Int.log 2 |x| - p) ≤ 2 ^ (-(p : ℤ)) * |x| := by
    rw [sub_eq_add_neg, zpow_add₀ two_ne_zero, mul_comm]
    have := two_zpow_log_le hx
    gcongr
  have h2 := tinyEven_nonneg qmin
  refine h.trans ?_
  cases qmin with
  | none =>
    simp only [lastBit]
    rw [show Int.log 2 |x| + 1 - (p : ℤ) - 1 = Int.log 2 |x| - p by ring]; linarith
  | some m =>
    simp only [lastBit, tinyEven] at *
    rcases max_choice (Int.log 2 |x| + 1 - (p : ℤ)) m with h' | h' <;> rw [h']
    · rw [show Int.log 2 |x| + 1 - (p : ℤ) - 1 = Int.log 2 |x| - p by ring]; linarith
    · have : (0 : ℝ) ≤ 2 ^ (-(p : ℤ)) * |x| := by positivity
      linarith

/-- Rounding to nearest, ties to even, with `p ≥ 1` significant bits and no bits below `2 ^ qmin`
(`qmin ≤ 1 - p`, so that one is representable); `none` is an unbounded exponent range. -/
noncomputable def nearestEven (hp : 1 ≤ p) (hq : ∀ m ∈ qmin, m ≤ 1 - p) : Rounding where
  fl := flEven p qmin
  u := 2 ^ (-(p : ℤ))
  tiny := tinyEven qmin
  u_nonneg := by positivity
  u_le_one := by
    rw [zpow_neg, zpow_natCast]; exact inv_le_one_of_one_le₀ (one_le_pow₀ one_le_two)
  tiny_nonneg := tinyEven_nonneg qmin
  err := flEven_err' p qmin
  idem := flEven_idem p qmin hp
  neg := flEven_neg p qmin
  mono _ _ := flEven_mono p qmin hp
  one := by
    refine flEven_of_int p qmin (m := 2 ^ (p - 1)) ?_
    have : lastBit p qmin (Int.log 2 |(1 : ℝ)|) = 1 - p := by
      cases qmin with
      | none => simp [lastBit]
      | some m => have := hq m rfl; simp [lastBit, this]
    rw [this, one_div, ← zpow_neg]
    push_cast
    rw [← zpow_natCast]; congr 1; omega

/-- `f64` arithmetic without overflow -/
noncomputable def binary64 : Rounding := nearestEven 53 (some (-1074)) (by norm_num) (by simp)
/-- `f32` arithmetic without overflow -/
noncomputable def binary32 : Rounding := nearestEven 24 (some (-149)) (by norm_num) (by simp)

end
end Rounding

/-- The numbers representable for the rounding `ρ`. -/
@[ext] structure Fl (ρ : Rounding) where
  val : ℝ
  rep : ρ.fl val = val

namespace Fl
variable {ρ : Rounding}

/-- the rounded value of an exact result -/
def round (x : ℝ) : Fl ρ := ⟨ρ.fl x, ρ.idem x⟩

instance : Zero (Fl ρ) := ⟨⟨0, ρ.zero⟩⟩
instance : One (Fl ρ) := ⟨⟨1, ρ.one⟩⟩
instance : Add (Fl ρ) := ⟨fun a b => round (a.val + b.val)⟩
instance : Sub (Fl ρ) := ⟨fun a b => round (a.val - b.val)⟩
instance : Mul (Fl ρ) := ⟨fun a b => round (a.val * b.val)⟩
noncomputable instance : Div (Fl ρ) := ⟨fun a b => round (a.val / b.val)⟩
instance : Neg (Fl ρ) := ⟨fun a => ⟨-a.val, by rw [ρ.neg, a.rep]⟩⟩
instance : LE (Fl ρ) := ⟨fun a b => a.val ≤ b.val⟩
instance : LT (Fl ρ) := ⟨fun a b => a.val < b.val⟩
noncomputable instance : DecidableLE (Fl ρ) := fun a b => inferInstanceAs (Decidable (a.val ≤ b.val))
noncomputable instance : DecidableLT (Fl ρ) := fun a b => inferInstanceAs (Decidable (a.val < b.val))
noncomputable instance : DecidableEq (Fl ρ) := Classical.decEq _
noncomputable instance : Max (Fl ρ) := ⟨fun a b => if a.val ≤ b.val then b else a⟩
noncomputable instance : Min (Fl ρ) := ⟨fun a b => if a.val ≤ b.val then a else b⟩
noncomputable instance : SAbs (Fl ρ) := ⟨fun a => if a.val < 0 then -a else a⟩

/-- Every function returns the rounded value of the exact function; for `sqrt` this is what IEEE 754 requires.  Only
`fsqrt` is used by the theorems about rounded arithmetic. -/
noncomputable instance : FloatFns (Fl ρ) where
  fsqrt x := round (fsqrt x.val)
  fcbrt x := round (fcbrt x.val)
  fsin x := round (fsin x.val)
  fcos x := round (fcos x.val)
  ftan x := round (ftan x.val)
  fasin x := round (fasin x.val)
  facos x := round (facos x.val)
  fatan x := round (fatan x.val)
  fatan2 y x := round (fatan2 y.val x.val)
  fexp x := round (fexp x.val)
  fln x := round (fln x.val)
  fsinh x := round (fsinh x.val)
  fcosh x := round (fcosh x.val)
  fpowf x y := round (fpowf x.val y.val)
  ftrunc x := round (ftrunc x.val)
  fpi := round fpi
  fexp2 x := round (fexp2 x.val)
  flog x b := round (flog x.val b.val)
  fln2 := round fln2
  fln10 := round fln10
  ftanh x := round (ftanh x.val)
  ffracPi2 := round ffracPi2
  ffracPi4 := round ffracPi4

@[simp] theorem zero_val : (0 : Fl ρ).val = 0 := rfl
@[simp] theorem one_val : (1 : Fl ρ).val = 1 := rfl
@[simp] theorem round_val (x : ℝ) : (round x : Fl ρ).val = ρ.fl x := rfl
@[simp] theorem add_val (a b : Fl ρ) : (a + b).val = ρ.fl (a.val + b.val) := rfl
@[simp] theorem sub_val (a b : Fl ρ) : (a - b).val = ρ.fl (a.val - b.val) := rfl
@[simp] theorem mul_val (a b : Fl ρ) : (a * b).val = ρ.fl (a.val * b.val) := rfl
@[simp] theorem div_val (a b : Fl ρ) : (a / b).val = ρ.fl (a.val / b.val) := rfl
@[simp] theorem neg_val (a : Fl ρ) : (-a).val = -a.val := rfl
@[simp] theorem sqrt_val (a : Fl ρ) : (fsqrt a).val = ρ.fl (Real.sqrt a.val) := rfl

/-! ### the laws that survive rounding -/

theorem add_comm (a b : Fl ρ) : a + b = b + a := Fl.ext (by simp [_root_.add_comm])
theorem mul_comm (a b : Fl ρ) : a * b = b * a := Fl.ext (by simp [_root_.mul_comm])
theorem zero_add (a : Fl ρ) : 0 + a = a := Fl.ext (by simp [a.rep])
theorem add_zero (a : Fl ρ) : a + 0 = a := Fl.ext (by simp [a.rep])
theorem zero_mul (a : Fl ρ) : 0 * a = 0 := Fl.ext (by simp [ρ.zero])
theorem mul_zero (a : Fl ρ) : a * 0 = 0 := Fl.ext (by simp [ρ.zero])
theorem one_mul (a : Fl ρ) : 1 * a = a := Fl.ext (by simp [a.rep])
theorem mul_one (a : Fl ρ) : a * 1 = a := Fl.ext (by simp [a.rep])
theorem sub_self (a : Fl ρ) : a - a = 0 := Fl.ext (by simp [ρ.zero])
theorem sub_zero (a : Fl ρ) : a - 0 = a := Fl.ext (by simp [a.rep])
theorem div_one (a : Fl ρ) : a / 1 = a := Fl.ext (by simp [a.rep])
theorem neg_neg (a : Fl ρ) : - -a = a := Fl.ext (by simp)
theorem neg_sub (a b : Fl ρ) : -(a - b) = b - a := Fl.ext (by simp [← ρ.neg])
theorem neg_add (a b : Fl ρ) : -(a + b) = -a + -b := Fl.ext (by simp [← ρ.neg, _root_.add_comm])
theorem neg_mul (a b : Fl ρ) : -a * b = -(a * b) := Fl.ext (by simp [← ρ.neg])
theorem mul_neg (a b : Fl ρ) : a * -b = -(a * b) := Fl.ext (by simp [← ρ.neg])
theorem neg_mul_neg (a b : Fl ρ) : -a * -b = a * b := by rw [neg_mul, mul_neg, neg_neg]
theorem sub_eq_add_neg (a b : Fl ρ) : a - b = a + -b := Fl.ext (by simp [_root_.sub_eq_add_neg])
theorem mul_self_nonneg (a : Fl ρ) : 0 ≤ (a * a).val := ρ.nonneg (_root_.mul_self_nonneg _)

end Fl
end Cgl
