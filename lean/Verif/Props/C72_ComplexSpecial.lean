import Verif.Spec.Libm
import Verif.Model.Complex
import Verif.Props.C69_SpecialValues
import Mathlib.Analysis.SpecialFunctions.Trigonometric.Bounds

/-! # C72 - complex functions at infinities and NaN

The results that annex G of the C standard prescribes, for every floating-point format and every library of scalar
functions that meets the requirements of `Libm`.  The signs of operands and results are written out: the tables cover
all quadrants, so they include the symmetries of the functions. -/

namespace Cgl
open Ieee Ieee.Libm
variable {φ : Format} [Libm φ]

/-! ### scalar facts -/

omit [Libm φ] in
@[simp] theorem fin_beq_zero (s : Bool) (m : ℝ) (h) : ((fin s m h : Ieee φ) == 0) = decide (m = 0) := by
  rw [Bool.eq_iff_iff, beq_iff, decide_eq_true_eq]
  change (∃ a, (fin s m h : Ieee φ).place = some a ∧ (fin false 0 _ : Ieee φ).place = some a) ↔ _
  simp only [place, Option.some.injEq]
  constructor
  · rintro ⟨a, rfl, h2⟩
    cases s <;> simpa [signed] using h2.symm
  · rintro rfl
    exact ⟨0, by cases s <;> simp [signed], by simp [signed]⟩
omit [Libm φ] in
@[simp] theorem inf_beq_zero (s : Bool) : ((inf s : Ieee φ) == 0) = false := by
  rw [← Bool.not_eq_true, beq_iff]
  change ¬ ∃ a, (inf s : Ieee φ).place = some a ∧ (fin false 0 _ : Ieee φ).place = some a
  rintro ⟨a, h1, h2⟩
  simp only [place, Option.some.injEq] at h1 h2
  rw [← h2] at h1
  cases s <;> simp [signed] at h1
omit [Libm φ] in
theorem fin_beq_fin (s t : Bool) (m k : ℝ) (h h') :
    ((fin s m h : Ieee φ) == fin t k h') = decide (signed s m = signed t k) := by
  rw [Bool.eq_iff_iff, beq_iff, decide_eq_true_eq]
  simp only [place, Option.some.injEq]
  constructor
  · rintro ⟨a, rfl, h2⟩; exact (EReal.coe_eq_coe_iff.mp h2).symm
  · intro h; exact ⟨_, rfl, by rw [h]⟩
omit [Libm φ] in
@[simp] theorem inf_lt_zero (s : Bool) : ((inf s : Ieee φ) < 0) ↔ s = true := by
  change (∃ a b, (inf s : Ieee φ).place = some a ∧ (fin false 0 _ : Ieee φ).place = some b ∧ a < b) ↔ _
  simp only [place, Option.some.injEq]
  cases s <;> simp [signed]
omit [Libm φ] in
@[simp] theorem zero_lt_inf (s : Bool) : ((0 : Ieee φ) < inf s) ↔ s = false := by
  change (∃ a b, (fin false 0 _ : Ieee φ).place = some a ∧ (inf s : Ieee φ).place = some b ∧ a < b) ↔ _
  simp only [place, Option.some.injEq]
  cases s <;> simp [signed]
omit [Libm φ] in
@[simp] theorem fin_lt_zero (s : Bool) (m : ℝ) (h) : ((fin s m h : Ieee φ) < 0) ↔ s = true ∧ m ≠ 0 := by
  change (∃ a b, (fin s m h : Ieee φ).place = some a ∧ (fin false 0 _ : Ieee φ).place = some b ∧ a < b) ↔ _
  simp only [place, Option.some.injEq]
  have := h.1
  cases s
  · simp [signed, this]
  · simp only [signed, if_true, true_and, ne_eq]
    constructor
    · rintro ⟨a, b, rfl, rfl, h⟩
      have h := EReal.coe_lt_coe_iff.mp h
      simp at h; exact h.ne'
    · intro h0
      refine ⟨_, _, rfl, rfl, EReal.coe_lt_coe_iff.mpr ?_⟩
      have : 0 < m := lt_of_le_of_ne this (Ne.symm h0)
      simpa using this

omit [Libm φ] in
@[simp] theorem isNan_nan : isNan (nan : Ieee φ) = true := rfl
omit [Libm φ] in
@[simp] theorem isNan_inf (s : Bool) : isNan (inf s : Ieee φ) = false := rfl
omit [Libm φ] in
@[simp] theorem isNan_fin (s : Bool) (m : ℝ) (h) : isNan (fin s m h : Ieee φ) = false := rfl
omit [Libm φ] in
@[simp] theorem isInfinite_nan : isInfinite (nan : Ieee φ) = false := rfl
omit [Libm φ] in
@[simp] theorem isInfinite_inf (s : Bool) : isInfinite (inf s : Ieee φ) = true := rfl
omit [Libm φ] in
@[simp] theorem isInfinite_fin (s : Bool) (m : ℝ) (h) : isInfinite (fin s m h : Ieee φ) = false := rfl
omit [Libm φ] in
@[simp] theorem isFinite_nan : isFinite (nan : Ieee φ) = false := rfl
omit [Libm φ] in
@[simp] theorem isFinite_inf (s : Bool) : isFinite (inf s : Ieee φ) = false := rfl
omit [Libm φ] in
@[simp] theorem isFinite_fin (s : Bool) (m : ℝ) (h) : isFinite (fin s m h : Ieee φ) = true := rfl
omit [Libm φ] in
@[simp] theorem fnan_eq : (fnan : Ieee φ) = nan := rfl
omit [Libm φ] in
@[simp] theorem sabs_inf (s : Bool) : sabs (inf s : Ieee φ) = inf false := rfl
omit [Libm φ] in
@[simp] theorem sabs_nan : sabs (nan : Ieee φ) = nan := rfl
omit [Libm φ] in
@[simp] theorem neg_inf (s : Bool) : -(inf s : Ieee φ) = inf !s := rfl
omit [Libm φ] in
@[simp] theorem neg_fin (s : Bool) (m : ℝ) (h) : -(fin s m h : Ieee φ) = fin (!s) m h := rfl
omit [Libm φ] in
@[simp] theorem neg_zeroS (s : Bool) : -(zeroS s : Ieee φ) = zeroS !s := rfl
omit [Libm φ] in
theorem copysign_inf {x : Ieee φ} (hx : HasSign false x) (t : Bool) : fcopysign x (inf t) = flip t x := by
  rcases hx with rfl | ⟨m, h, rfl⟩ <;> cases t <;> rfl
omit [Libm φ] in
theorem copysign_fin {x : Ieee φ} (hx : HasSign false x) (t : Bool) (k : ℝ) (hk) :
    fcopysign x (fin t k hk) = flip t x := by
  rcases hx with rfl | ⟨m, h, rfl⟩ <;> cases t <;> rfl
omit [Libm φ] in
@[simp] theorem inf_copysign_fin (s t : Bool) (k : ℝ) (hk) : fcopysign (inf s : Ieee φ) (fin t k hk) = inf t := rfl
omit [Libm φ] in
theorem hasSign_round {x : ℝ} (hx : 0 ≤ x) : HasSign false (Ieee.round false x : Ieee φ) := by
  rcases hx.eq_or_lt with rfl | h
  · simp only [Ieee.round, if_true]
    split_ifs
    · exact Or.inr ⟨_, _, rfl⟩
    · exact Or.inl rfl
  · exact round_sign h.ne' (by simp [hx]) _
omit [Libm φ] in
theorem hasSign_zeroS (s : Bool) : HasSign s (zeroS s : Ieee φ) := Or.inr ⟨_, _, rfl⟩
omit [Libm φ] in
theorem zeroS_mul (s t : Bool) (m : ℝ) (h) : (zeroS s : Ieee φ) * fin t m h = zeroS (s ^^ t) := by
  change Ieee.round _ (signed s 0 * signed t m) = _
  have : signed s 0 * signed t m = 0 := by cases s <;> simp [signed]
  have hz : φ.fl |0| ≤ φ.big := by rw [abs_zero, φ.zero]; exact zero_le_one.trans φ.one_le_big
  rw [this]
  simp only [Ieee.round, dif_pos hz, if_true, zeroS]
  simp [φ.zero]
omit [Libm φ] in
theorem mul_zeroS (s t : Bool) (m : ℝ) (h) : (fin t m h : Ieee φ) * zeroS s = zeroS (t ^^ s) := by
  change Ieee.round _ (signed t m * signed s 0) = _
  have : signed t m * signed s 0 = 0 := by cases s <;> simp [signed]
  have hz : φ.fl |0| ≤ φ.big := by rw [abs_zero, φ.zero]; exact zero_le_one.trans φ.one_le_big
  rw [this]
  simp only [Ieee.round, dif_pos hz, if_true, zeroS]
  simp [φ.zero]
omit [Libm φ] in
theorem zeroS_add (s : Bool) : (zeroS s : Ieee φ) + zeroS s = zeroS s := by
  change Ieee.round (s && s) (signed s 0 + signed s 0) = _
  have : signed s 0 + signed s 0 = 0 := by cases s <;> simp [signed]
  have hz : φ.fl |0| ≤ φ.big := by rw [abs_zero, φ.zero]; exact zero_le_one.trans φ.one_le_big
  rw [this]
  simp only [Ieee.round, dif_pos hz, if_true, zeroS]
  simp [φ.zero]
omit [Libm φ] in
theorem zeroS_div (s : Bool) : (zeroS s : Ieee φ) / (1 + 1) = zeroS s := by
  have h2 : (1 + 1 : Ieee φ) = Ieee.round false (1 + 1) := rfl
  have hp : (0 : ℝ) < φ.fl |1 + 1| := by
    have := φ.mono 1 |1 + 1| (by norm_num)
    rw [φ.one] at this; linarith
  rw [h2]
  simp only [Ieee.round]
  have n0 : ¬ ((1 : ℝ) + 1 = 0) := by norm_num
  have n1 : ¬ ((1 : ℝ) + 1 < 0) := by norm_num
  simp only [n0, n1, if_false, decide_false]
  split_ifs with h
  · change (if φ.fl |1 + 1| = 0 then _ else Ieee.round (s ^^ false) (signed s 0 / signed false _)) = _
    rw [if_neg hp.ne']
    have : signed s 0 = 0 := by cases s <;> simp [signed]
    have hz : φ.fl |0| ≤ φ.big := by rw [abs_zero, φ.zero]; exact zero_le_one.trans φ.one_le_big
    rw [this, zero_div]
    simp only [Ieee.round, dif_pos hz, if_true, zeroS]
    simp [φ.zero]
  · change (fin (s ^^ false) 0 _ : Ieee φ) = _
    simp [zeroS]
omit [Libm φ] in
theorem one_def : (1 : Ieee φ) = fin false 1 ⟨zero_le_one, φ.one_le_big, φ.one⟩ := rfl
omit [Libm φ] in
theorem one_mul_one : (1 : Ieee φ) * 1 = 1 := by
  change Ieee.round (false ^^ false) (signed false 1 * signed false 1) = fin false 1 _
  have h1 : φ.fl |1| ≤ φ.big := by rw [abs_one, φ.one]; exact φ.one_le_big
  have e : signed false 1 * signed false 1 = 1 := by simp [signed]
  rw [e]
  simp only [Ieee.round, dif_pos h1, one_ne_zero, if_false]
  simp [φ.one, not_lt.mpr zero_le_one]
omit [Libm φ] in
theorem hasSign_sq (s : Bool) (m : ℝ) (h) : HasSign false ((fin s m h : Ieee φ) * fin s m h) := by
  change HasSign false (Ieee.round (s ^^ s) (signed s m * signed s m))
  rw [Bool.xor_self]
  exact hasSign_round (mul_self_nonneg _)
omit [Libm φ] in
theorem inf_sq (s : Bool) : (inf s : Ieee φ) * inf s = inf false := by
  change inf (s ^^ s) = _; rw [Bool.xor_self]
omit [Libm φ] in
theorem inf_add_of {x : Ieee φ} (h : HasSign false x) : inf false + x = inf false ∧ x + inf false = inf false := by
  rcases h with rfl | ⟨m, h, rfl⟩
  · exact ⟨by change (if false = false then inf false else nan : Ieee φ) = _; rfl,
      by change (if false = false then inf false else nan : Ieee φ) = _; rfl⟩
  · exact ⟨rfl, rfl⟩
/-- the norm is infinite if a part is, unless the other is NaN -/
theorem norm_inf (s t : Bool) (m : ℝ) (h) :
    Cx.norm (⟨inf s, inf t⟩ : Cx (Ieee φ)) = inf false ∧ Cx.norm (⟨inf s, fin t m h⟩ : Cx (Ieee φ)) = inf false ∧
    Cx.norm (⟨fin t m h, inf s⟩ : Cx (Ieee φ)) = inf false := by
  have hs : fsqrt (inf false : Ieee φ) = inf false := (Lib.sqrt_eq _).trans rfl
  refine ⟨?_, ?_, ?_⟩ <;> simp only [Cx.norm, Cx.normSquared, inf_sq]
  · rw [(inf_add_of (Or.inl rfl)).1, hs]
  · rw [(inf_add_of (hasSign_sq _ _ _)).1, hs]
  · rw [(inf_add_of (hasSign_sq _ _ _)).2, hs]
theorem norm_zero (s t : Bool) : Cx.norm (⟨zeroS s, zeroS t⟩ : Cx (Ieee φ)) = zeroS false := by
  have hs : fsqrt (zeroS false : Ieee φ) = zeroS false := (Lib.sqrt_eq _).trans (if_pos rfl)
  have h : ∀ s : Bool, (zeroS s : Ieee φ) * zeroS s = zeroS false := fun s => by
    rw [show (zeroS s : Ieee φ) = fin s 0 ⟨le_rfl, zero_le_one.trans φ.one_le_big, φ.zero⟩ from rfl,
      show (fin s 0 ⟨le_rfl, zero_le_one.trans φ.one_le_big, φ.zero⟩ : Ieee φ) * fin s 0
        ⟨le_rfl, zero_le_one.trans φ.one_le_big, φ.zero⟩ = _ from zeroS_mul s s 0 _, Bool.xor_self]
  simp only [Cx.norm, Cx.normSquared, h]
  rw [zeroS_add, hs]
omit [Libm φ] in
theorem zero_def : (0 : Ieee φ) = zeroS false := rfl
omit [Libm φ] in
@[simp] theorem flip_zero (t : Bool) : flip t (0 : Ieee φ) = zeroS t := by cases t <;> rfl
omit [Libm φ] in
theorem hasSign_zero : HasSign false (0 : Ieee φ) := Or.inr ⟨_, _, rfl⟩
omit [Libm φ] in
theorem hasSign_one : HasSign false (1 : Ieee φ) := Or.inr ⟨_, _, rfl⟩
omit [Libm φ] in
theorem hasSign_add {x y : Ieee φ} (hx : HasSign false x) (hy : HasSign false y) : HasSign false (x + y) := by
  rcases hx with rfl | ⟨m, h, rfl⟩ <;> rcases hy with rfl | ⟨k, h', rfl⟩
  · exact Or.inl rfl
  · exact Or.inl rfl
  · exact Or.inl rfl
  · exact hasSign_round (by simpa [signed] using add_nonneg h.1 h'.1)
omit [Libm φ] in
theorem hasSign_three_mul {x : Ieee φ} (hx : ∃ m h, 0 < m ∧ x = fin false m h) : HasSign false ((1 + 1 + 1) * x) := by
  obtain ⟨m, h, hm, rfl⟩ := hx
  have h3 : HasSign false ((1 : Ieee φ) + 1 + 1) := hasSign_add (hasSign_add hasSign_one hasSign_one) hasSign_one
  rcases h3 with e | ⟨k, hk, e⟩ <;> rw [e]
  · change HasSign false (if m = 0 then nan else inf false)
    rw [if_neg hm.ne']; exact Or.inl rfl
  · exact hasSign_round (by simpa [signed] using mul_nonneg hk.1 h.1)
theorem hasSign_pi : HasSign false (fpi : Ieee φ) := let ⟨m, h, _, e⟩ := pi_pos (φ := φ); Or.inr ⟨m, h, e⟩
theorem hasSign_pi2 : HasSign false (ffracPi2 : Ieee φ) := let ⟨m, h, _, e⟩ := frac_pi_2_pos (φ := φ); Or.inr ⟨m, h, e⟩
theorem hasSign_pi4 : HasSign false (ffracPi4 : Ieee φ) := let ⟨m, h, _, e⟩ := frac_pi_4_pos (φ := φ); Or.inr ⟨m, h, e⟩

omit [Libm φ] in
@[simp] theorem zeroS_def (s : Bool) : (zeroS s : Ieee φ) = fin s 0 ⟨le_rfl, zero_le_one.trans φ.one_le_big, φ.zero⟩ := rfl
theorem sqrt_nan : fsqrt (nan : Ieee φ) = nan := Lib.sqrt_eq nan

/-- NaN in both parts stays: the exponential, the logarithm and the square root -/
theorem nan_sqrt : Cx.sqrt (⟨nan, nan⟩ : Cx (Ieee φ)) = ⟨nan, nan⟩ := by
  simp [Cx.sqrt, Cx.norm, Cx.normSquared, Cx.new, nan_mul, nan_add, sqrt_nan]
theorem nan_ln {z : Cx (Ieee φ)} (h : z.re = nan ∨ z.im = nan) : Cx.ln z = ⟨nan, nan⟩ := by
  obtain ⟨x, y⟩ := z
  rcases h with h | h <;> simp only at h <;> subst h <;>
  simp [Cx.ln, Cx.norm, Cx.arg, Cx.normSquared, Cx.new, nan_mul, mul_nan, nan_add, add_nan, sqrt_nan, ln_nan,
    (atan2_nan _).1, (atan2_nan _).2]

omit [Libm φ] in
theorem nan_mulC {z w : Cx (Ieee φ)} (h : z.re = nan ∨ z.im = nan ∨ w.re = nan ∨ w.im = nan) : z * w = ⟨nan, nan⟩ := by
  change (⟨z.re * w.re - z.im * w.im, z.re * w.im + z.im * w.re⟩ : Cx (Ieee φ)) = _
  rcases h with h | h | h | h <;> simp [h, nan_mul, mul_nan, nan_add, add_nan, nan_sub, sub_nan]
omit [Libm φ] in
theorem nan_divC {z w : Cx (Ieee φ)} (h : z.re = nan ∨ z.im = nan) : z / w = ⟨nan, nan⟩ := by
  change (⟨(z.re * w.re + z.im * w.im) / (w.re * w.re + w.im * w.im),
    (z.im * w.re - z.re * w.im) / (w.re * w.re + w.im * w.im)⟩ : Cx (Ieee φ)) = _
  rcases h with h | h <;> simp [h, nan_mul, nan_add, add_nan, nan_sub, sub_nan, nan_div]

/-! ### inverse hyperbolic functions -/

/-- `asinh`: every row of annex G, 6.2.2, in all quadrants -/
theorem C72_asinh (s t : Bool) (m k : ℝ) (hm hk) :
    Cx.asinh (⟨fin s m hm, inf t⟩ : Cx (Ieee φ)) = ⟨inf s, flip t ffracPi2⟩ ∧
    Cx.asinh (⟨fin s m hm, nan⟩ : Cx (Ieee φ)) = ⟨nan, nan⟩ ∧
    Cx.asinh (⟨inf s, fin t k hk⟩ : Cx (Ieee φ)) = ⟨inf s, zeroS t⟩ ∧
    Cx.asinh (⟨inf s, inf t⟩ : Cx (Ieee φ)) = ⟨inf s, flip t ffracPi4⟩ ∧
    Cx.asinh (⟨inf s, nan⟩ : Cx (Ieee φ)) = ⟨inf s, nan⟩ ∧
    Cx.asinh (⟨nan, zeroS t⟩ : Cx (Ieee φ)) = ⟨nan, zeroS t⟩ ∧
    (k ≠ 0 → Cx.asinh (⟨nan, fin t k hk⟩ : Cx (Ieee φ)) = ⟨nan, nan⟩) ∧
    Cx.asinh (⟨nan, inf t⟩ : Cx (Ieee φ)) = ⟨inf t, nan⟩ ∧
    Cx.asinh (⟨nan, nan⟩ : Cx (Ieee φ)) = ⟨nan, nan⟩ := by
  refine ⟨?_, ?_, ?_, ?_, ?_, ?_, fun h => ?_, ?_, ?_⟩
  · simp [Cx.asinh, Cx.new, copysign_inf hasSign_pi2]
  · simp only [Cx.asinh, isInfinite_fin, isNan_fin, isInfinite_nan, Bool.false_eq_true, if_false]
    rw [nan_ln]
    exact Or.inr (nan_add _)
  · simp [Cx.asinh, Cx.new, copysign_fin hasSign_zero]
  · simp [Cx.asinh, Cx.new, copysign_inf hasSign_pi4]
  · simp [Cx.asinh, Cx.new]
  · simp [Cx.asinh, Cx.new]
  · simp [Cx.asinh, Cx.new, h]
  · simp [Cx.asinh, Cx.new]
  · simp [Cx.asinh, Cx.new]

/-- `acosh`: every row of annex G, 6.2.1, in all quadrants -/
theorem C72_acosh (s t : Bool) (m k : ℝ) (hm hk) :
    Cx.acosh (⟨fin s m hm, inf t⟩ : Cx (Ieee φ)) = ⟨inf false, flip t ffracPi2⟩ ∧
    Cx.acosh (⟨fin s m hm, nan⟩ : Cx (Ieee φ)) = ⟨nan, nan⟩ ∧
    Cx.acosh (⟨inf true, fin t k hk⟩ : Cx (Ieee φ)) = ⟨inf false, flip t fpi⟩ ∧
    Cx.acosh (⟨inf false, fin t k hk⟩ : Cx (Ieee φ)) = ⟨inf false, zeroS t⟩ ∧
    Cx.acosh (⟨inf true, inf t⟩ : Cx (Ieee φ)) = ⟨inf false, flip t ((1 + 1 + 1) * ffracPi4)⟩ ∧
    Cx.acosh (⟨inf false, inf t⟩ : Cx (Ieee φ)) = ⟨inf false, flip t ffracPi4⟩ ∧
    Cx.acosh (⟨inf s, nan⟩ : Cx (Ieee φ)) = ⟨inf false, nan⟩ ∧
    Cx.acosh (⟨nan, fin t k hk⟩ : Cx (Ieee φ)) = ⟨nan, nan⟩ ∧
    Cx.acosh (⟨nan, inf t⟩ : Cx (Ieee φ)) = ⟨inf false, nan⟩ ∧
    Cx.acosh (⟨nan, nan⟩ : Cx (Ieee φ)) = ⟨nan, nan⟩ := by
  refine ⟨?_, ?_, ?_, ?_, ?_, ?_, ?_, ?_, ?_, ?_⟩
  · simp [Cx.acosh, Cx.new, copysign_inf hasSign_pi2]
  · have h1 : ∀ w : Cx (Ieee φ), (⟨fin s m hm, nan⟩ + w : Cx (Ieee φ)) / (1 + 1) = ⟨nan, nan⟩ := fun w =>
      nan_divC (Or.inr (nan_add _))
    have h2 : ∀ w : Cx (Ieee φ), (⟨fin s m hm, nan⟩ - w : Cx (Ieee φ)) / (1 + 1) = ⟨nan, nan⟩ := fun w =>
      nan_divC (Or.inr (nan_sub _))
    simp only [Cx.acosh, isInfinite_fin, isNan_fin, isInfinite_nan, Bool.false_eq_true, if_false, h1, h2, nan_sqrt]
    rw [nan_ln (Or.inr (nan_add _)), nan_mulC (by simp)]
  · simp [Cx.acosh, Cx.new, copysign_fin hasSign_pi]
  · simp [Cx.acosh, Cx.new, copysign_fin hasSign_zero]
  · simp [Cx.acosh, Cx.new, copysign_inf (hasSign_three_mul frac_pi_4_pos)]
  · simp [Cx.acosh, Cx.new, copysign_inf hasSign_pi4]
  · simp [Cx.acosh, Cx.new]
  · simp [Cx.acosh, Cx.new]
  · simp [Cx.acosh, Cx.new]
  · simp [Cx.acosh, Cx.new]

/-- `atanh`: every row of annex G, 6.2.3, in all quadrants, except for the sign of the zero imaginary part at one and
minus one -/
theorem C72_atanh (s t : Bool) (m k : ℝ) (hm hk) :
    Cx.atanh (⟨zeroS s, nan⟩ : Cx (Ieee φ)) = ⟨zeroS s, nan⟩ ∧
    Cx.atanh (⟨flip s 1, zeroS t⟩ : Cx (Ieee φ)) = ⟨inf s, 0⟩ ∧
    Cx.atanh (⟨fin s m hm, inf t⟩ : Cx (Ieee φ)) = ⟨zeroS s, flip t ffracPi2⟩ ∧
    (m ≠ 0 → Cx.atanh (⟨fin s m hm, nan⟩ : Cx (Ieee φ)) = ⟨nan, nan⟩) ∧
    Cx.atanh (⟨inf s, fin t k hk⟩ : Cx (Ieee φ)) = ⟨zeroS s, flip t ffracPi2⟩ ∧
    Cx.atanh (⟨inf s, inf t⟩ : Cx (Ieee φ)) = ⟨zeroS s, flip t ffracPi2⟩ ∧
    Cx.atanh (⟨inf s, nan⟩ : Cx (Ieee φ)) = ⟨zeroS s, nan⟩ ∧
    Cx.atanh (⟨nan, fin t k hk⟩ : Cx (Ieee φ)) = ⟨nan, nan⟩ ∧
    Cx.atanh (⟨nan, inf t⟩ : Cx (Ieee φ)) = ⟨0, flip t ffracPi2⟩ ∧
    Cx.atanh (⟨nan, nan⟩ : Cx (Ieee φ)) = ⟨nan, nan⟩ := by
  refine ⟨?_, ?_, ?_, fun h => ?_, ?_, ?_, ?_, ?_, ?_, ?_⟩
  · simp [Cx.atanh, Cx.new, copysign_fin hasSign_zero]
  · have e1 : ((1 : Cx (Ieee φ)).re) = fin false 1 ⟨zero_le_one, φ.one_le_big, φ.one⟩ := rfl
    have e2 : ((-1 : Cx (Ieee φ)).re) = fin true 1 ⟨zero_le_one, φ.one_le_big, φ.one⟩ := rfl
    have e3 : ((1 : Cx (Ieee φ)).im) = 0 := rfl
    have e4 : ((-1 : Cx (Ieee φ)).im) = fin true 0 ⟨le_rfl, zero_le_one.trans φ.one_le_big, φ.zero⟩ := rfl
    have e5 : signed t 0 = 0 ∧ signed true 0 = 0 := by cases t <;> simp [signed]
    have e6 : flip s (1 : Ieee φ) = fin s 1 ⟨zero_le_one, φ.one_le_big, φ.one⟩ := by cases s <;> rfl
    have e7 : (-1 : ℝ) ≠ 1 := by norm_num
    simp only [Cx.atanh, e1, e2, e3, e4, e6, zeroS_def, fin_beq_zero, fin_beq_fin, e5, isInfinite_fin, isNan_fin]
    cases s <;> simp [signed, Cx.new, e7] <;> rfl
  · simp [Cx.atanh, Cx.new, copysign_inf hasSign_pi2, copysign_fin hasSign_zero]
  · simp [Cx.atanh, Cx.new, h]
  · simp [Cx.atanh, Cx.new, copysign_inf hasSign_zero, copysign_fin hasSign_pi2]
  · simp [Cx.atanh, Cx.new, copysign_inf hasSign_zero, copysign_inf hasSign_pi2]
  · simp [Cx.atanh, Cx.new, copysign_inf hasSign_zero]
  · simp [Cx.atanh, Cx.new]
  · simp [Cx.atanh, Cx.new, copysign_inf hasSign_pi2]; rfl
  · simp [Cx.atanh, Cx.new]

/-- At one the sign of a zero imaginary part is dropped: `atanh` does not commute with conjugation there. -/
theorem C72_atanh_negative_zero_fails :
    ∃ z : Cx (Ieee φ), z = ⟨1, zeroS true⟩ ∧ z.atanh ≠ z.conjugate.atanh.conjugate := by
  refine ⟨_, rfl, ?_⟩
  have h := fun t => (C72_atanh (φ := φ) false t 0 0 ⟨le_rfl, zero_le_one.trans φ.one_le_big, φ.zero⟩
    ⟨le_rfl, zero_le_one.trans φ.one_le_big, φ.zero⟩).2.1
  have e : Cx.conjugate (⟨1, zeroS true⟩ : Cx (Ieee φ)) = ⟨flip false 1, zeroS false⟩ := rfl
  rw [e, h, show (1 : Ieee φ) = flip false 1 from rfl, h]
  simp [Cx.conjugate, Cx.new, zero_def]

/-! ### inverse cosine -/

/-- `acos`: every row of annex G, 6.1.1, in all quadrants, except at a real part that is infinite and an imaginary
part `-0` -/
theorem C72_acos (s t : Bool) (m k : ℝ) (hm hk) :
    Cx.acos (⟨zeroS s, zeroS t⟩ : Cx (Ieee φ)) = ⟨ffracPi2, zeroS !t⟩ ∧
    Cx.acos (⟨zeroS s, nan⟩ : Cx (Ieee φ)) = ⟨ffracPi2, nan⟩ ∧
    Cx.acos (⟨fin s m hm, inf t⟩ : Cx (Ieee φ)) = ⟨ffracPi2, inf !t⟩ ∧
    (m ≠ 0 → Cx.acos (⟨fin s m hm, nan⟩ : Cx (Ieee φ)) = ⟨nan, nan⟩) ∧
    (t = false ∨ k ≠ 0 → Cx.acos (⟨inf true, fin t k hk⟩ : Cx (Ieee φ)) = ⟨fpi, inf !t⟩) ∧
    (t = false ∨ k ≠ 0 → Cx.acos (⟨inf false, fin t k hk⟩ : Cx (Ieee φ)) = ⟨0, inf !t⟩) ∧
    Cx.acos (⟨inf true, inf t⟩ : Cx (Ieee φ)) = ⟨(1 + 1 + 1) * ffracPi4, inf !t⟩ ∧
    Cx.acos (⟨inf false, inf t⟩ : Cx (Ieee φ)) = ⟨ffracPi4, inf !t⟩ ∧
    Cx.acos (⟨inf s, nan⟩ : Cx (Ieee φ)) = ⟨nan, inf s⟩ ∧
    Cx.acos (⟨nan, fin t k hk⟩ : Cx (Ieee φ)) = ⟨nan, nan⟩ ∧
    Cx.acos (⟨nan, inf t⟩ : Cx (Ieee φ)) = ⟨nan, inf !t⟩ ∧
    Cx.acos (⟨nan, nan⟩ : Cx (Ieee φ)) = ⟨nan, nan⟩ := by
  refine ⟨?_, ?_, ?_, fun h => ?_, fun h => ?_, fun h => ?_, ?_, ?_, ?_, ?_, ?_, ?_⟩
  · simp [Cx.acos, Cx.new]
  · simp [Cx.acos, Cx.new, neg_nan]
  · simp [Cx.acos, Cx.new]
  · simp only [Cx.acos, isInfinite_fin, isNan_fin, isInfinite_nan, Bool.false_eq_true, if_false, fin_beq_zero,
      decide_eq_false h, Bool.false_and]
    rw [nan_ln (Or.inr (add_nan _)), nan_mulC (by simp)]
  · cases t <;> simp_all [Cx.acos, Cx.new]
  · cases t <;> simp_all [Cx.acos, Cx.new]
  · simp [Cx.acos, Cx.new]
  · simp [Cx.acos, Cx.new]
  · simp [Cx.acos, Cx.new]
  · simp [Cx.acos, Cx.new]
  · simp [Cx.acos, Cx.new]
  · simp [Cx.acos, Cx.new]

/-- With an imaginary part `-0` the conjugate of the prescribed value is returned: the code asks whether the imaginary
part is below zero, not for its sign. -/
theorem C72_acos_negative_zero_fails (s : Bool) :
    ∃ z : Cx (Ieee φ), z = ⟨inf s, zeroS true⟩ ∧ z.acos ≠ z.conjugate.acos.conjugate := by
  refine ⟨_, rfl, ?_⟩
  cases s <;> simp [Cx.acos, Cx.new, Cx.conjugate]

/-! ### hyperbolic functions -/

/-- `sinh`: every row of annex G, 6.2.5, in all quadrants -/
theorem C72_sinh (s t : Bool) (m k : ℝ) (hm hk) :
    Cx.sinh (⟨zeroS s, zeroS t⟩ : Cx (Ieee φ)) = ⟨zeroS s, zeroS t⟩ ∧
    Cx.sinh (⟨zeroS s, inf t⟩ : Cx (Ieee φ)) = ⟨zeroS s, nan⟩ ∧
    Cx.sinh (⟨zeroS s, nan⟩ : Cx (Ieee φ)) = ⟨zeroS s, nan⟩ ∧
    (m ≠ 0 → Cx.sinh (⟨fin s m hm, inf t⟩ : Cx (Ieee φ)) = ⟨nan, nan⟩) ∧
    (m ≠ 0 → Cx.sinh (⟨fin s m hm, nan⟩ : Cx (Ieee φ)) = ⟨nan, nan⟩) ∧
    Cx.sinh (⟨inf s, zeroS t⟩ : Cx (Ieee φ)) = ⟨inf s, zeroS t⟩ ∧
    (k ≠ 0 → Cx.sinh (⟨inf s, fin t k hk⟩ : Cx (Ieee φ)) =
      ⟨inf s * fcos (fin t k hk), inf false * fsin (fin t k hk)⟩) ∧
    Cx.sinh (⟨inf s, inf t⟩ : Cx (Ieee φ)) = ⟨inf s, nan⟩ ∧
    Cx.sinh (⟨inf s, nan⟩ : Cx (Ieee φ)) = ⟨inf s, nan⟩ ∧
    Cx.sinh (⟨nan, zeroS t⟩ : Cx (Ieee φ)) = ⟨nan, zeroS t⟩ ∧
    (k ≠ 0 → Cx.sinh (⟨nan, fin t k hk⟩ : Cx (Ieee φ)) = ⟨nan, nan⟩) ∧
    Cx.sinh (⟨nan, inf t⟩ : Cx (Ieee φ)) = ⟨nan, nan⟩ ∧
    Cx.sinh (⟨nan, nan⟩ : Cx (Ieee φ)) = ⟨nan, nan⟩ := by
  refine ⟨?_, ?_, ?_, fun h => ?_, fun h => ?_, ?_, fun h => ?_, ?_, ?_, ?_, fun h => ?_, ?_, ?_⟩
  · have e : Cx.sinh (⟨zeroS s, zeroS t⟩ : Cx (Ieee φ)) =
        ⟨fsinh (zeroS s) * fcos (zeroS t), fcosh (zeroS s) * fsin (zeroS t)⟩ := by simp [Cx.sinh, Cx.new]
    rw [e, sinh_zero, cos_zero, cosh_zero, sin_zero, one_def, zeroS_mul, mul_zeroS]
    simp
  · simp [Cx.sinh, Cx.new]
  · simp [Cx.sinh, Cx.new]
  · simp [Cx.sinh, Cx.new, h, cos_inf, sin_inf, mul_nan]
  · simp [Cx.sinh, Cx.new, h, cos_nan, sin_nan, mul_nan]
  · simp [Cx.sinh]
  · simp [Cx.sinh, Cx.new, h, sinh_inf, cosh_inf]
  · simp [Cx.sinh, Cx.new]
  · simp [Cx.sinh, Cx.new]
  · simp [Cx.sinh, Cx.new]
  · simp [Cx.sinh, Cx.new, h, sinh_nan, cosh_nan, nan_mul]
  · simp [Cx.sinh, Cx.new, sinh_nan, cosh_nan, nan_mul]
  · simp [Cx.sinh, Cx.new, sinh_nan, cosh_nan, nan_mul]

/-- `cosh`: every row of annex G, 6.2.4; at zero and at infinite real part with zero imaginary part the sign of the
zero imaginary part is that of the operand's -/
theorem C72_cosh (s t : Bool) (m k : ℝ) (hm hk) :
    Cx.cosh (⟨zeroS s, zeroS t⟩ : Cx (Ieee φ)) = ⟨1, zeroS t⟩ ∧
    Cx.cosh (⟨zeroS s, inf t⟩ : Cx (Ieee φ)) = ⟨nan, zeroS s⟩ ∧
    Cx.cosh (⟨zeroS s, nan⟩ : Cx (Ieee φ)) = ⟨nan, zeroS s⟩ ∧
    (m ≠ 0 → Cx.cosh (⟨fin s m hm, inf t⟩ : Cx (Ieee φ)) = ⟨nan, nan⟩) ∧
    (m ≠ 0 → Cx.cosh (⟨fin s m hm, nan⟩ : Cx (Ieee φ)) = ⟨nan, nan⟩) ∧
    Cx.cosh (⟨inf s, zeroS t⟩ : Cx (Ieee φ)) = ⟨inf false, zeroS t⟩ ∧
    (k ≠ 0 → Cx.cosh (⟨inf s, fin t k hk⟩ : Cx (Ieee φ)) =
      ⟨inf false * fcos (fin t k hk), inf s * fsin (fin t k hk)⟩) ∧
    Cx.cosh (⟨inf s, inf t⟩ : Cx (Ieee φ)) = ⟨inf false, nan⟩ ∧
    Cx.cosh (⟨inf s, nan⟩ : Cx (Ieee φ)) = ⟨inf false, nan⟩ ∧
    Cx.cosh (⟨nan, zeroS t⟩ : Cx (Ieee φ)) = ⟨nan, zeroS t⟩ ∧
    (k ≠ 0 → Cx.cosh (⟨nan, fin t k hk⟩ : Cx (Ieee φ)) = ⟨nan, nan⟩) ∧
    Cx.cosh (⟨nan, inf t⟩ : Cx (Ieee φ)) = ⟨nan, nan⟩ ∧
    Cx.cosh (⟨nan, nan⟩ : Cx (Ieee φ)) = ⟨nan, nan⟩ := by
  refine ⟨?_, ?_, ?_, fun h => ?_, fun h => ?_, ?_, fun h => ?_, ?_, ?_, ?_, fun h => ?_, ?_, ?_⟩
  · simp [Cx.cosh, Cx.new]
  · simp [Cx.cosh, Cx.new]
  · simp [Cx.cosh, Cx.new]
  · simp [Cx.cosh, Cx.new, h, cos_inf, sin_inf, mul_nan]
  · simp [Cx.cosh, Cx.new, h, cos_nan, sin_nan, mul_nan]
  · simp [Cx.cosh, Cx.new]
  · simp [Cx.cosh, Cx.new, h, sinh_inf, cosh_inf]
  · simp [Cx.cosh, Cx.new]
  · simp [Cx.cosh, Cx.new]
  · simp [Cx.cosh, Cx.new]
  · simp [Cx.cosh, Cx.new, h, sinh_nan, cosh_nan, nan_mul]
  · simp [Cx.cosh, Cx.new, sinh_nan, cosh_nan, nan_mul]
  · simp [Cx.cosh, Cx.new, sinh_nan, cosh_nan, nan_mul]

/-- So `cosh` is not even there: the sign of the zero imaginary part is wrong for a negative real part. -/
theorem C72_cosh_even_fails : ∃ z : Cx (Ieee φ), z.cosh ≠ (-z).cosh := by
  refine ⟨⟨inf false, zeroS false⟩, ?_⟩
  rw [(C72_cosh false false 0 0 ⟨le_rfl, zero_le_one.trans φ.one_le_big, φ.zero⟩
    ⟨le_rfl, zero_le_one.trans φ.one_le_big, φ.zero⟩).2.2.2.2.2.1]
  change _ ≠ Cx.cosh (⟨inf true, zeroS true⟩ : Cx (Ieee φ))
  rw [(C72_cosh true true 0 0 ⟨le_rfl, zero_le_one.trans φ.one_le_big, φ.zero⟩
    ⟨le_rfl, zero_le_one.trans φ.one_le_big, φ.zero⟩).2.2.2.2.2.1]
  simp

/-- `tanh`: every row of annex G, 6.2.6, in all quadrants -/
theorem C72_tanh (s t : Bool) (m k : ℝ) (hm hk) :
    Cx.tanh (⟨zeroS s, zeroS t⟩ : Cx (Ieee φ)) = ⟨zeroS s, zeroS t⟩ ∧
    Cx.tanh (⟨fin s m hm, inf t⟩ : Cx (Ieee φ)) = ⟨nan, nan⟩ ∧
    Cx.tanh (⟨fin s m hm, nan⟩ : Cx (Ieee φ)) = ⟨nan, nan⟩ ∧
    Cx.tanh (⟨inf s, fin t k hk⟩ : Cx (Ieee φ)) = ⟨flip s 1, fcopysign 0 (fsin ((1 + 1) * fin t k hk))⟩ ∧
    Cx.tanh (⟨inf s, inf t⟩ : Cx (Ieee φ)) = ⟨flip s 1, 0⟩ ∧
    Cx.tanh (⟨inf s, nan⟩ : Cx (Ieee φ)) = ⟨flip s 1, 0⟩ ∧
    Cx.tanh (⟨nan, zeroS t⟩ : Cx (Ieee φ)) = ⟨nan, zeroS t⟩ ∧
    (k ≠ 0 → Cx.tanh (⟨nan, fin t k hk⟩ : Cx (Ieee φ)) = ⟨nan, nan⟩) ∧
    Cx.tanh (⟨nan, inf t⟩ : Cx (Ieee φ)) = ⟨nan, nan⟩ ∧
    Cx.tanh (⟨nan, nan⟩ : Cx (Ieee φ)) = ⟨nan, nan⟩ := by
  have hadd : ∀ t, (inf t : Ieee φ) + inf t = inf t := fun t => if_pos rfl
  refine ⟨?_, ?_, ?_, ?_, ?_, ?_, ?_, fun h => ?_, ?_, ?_⟩
  · have e : Cx.tanh (⟨zeroS s, zeroS t⟩ : Cx (Ieee φ)) =
        ⟨fsinh (zeroS s + zeroS s) / (fcosh (zeroS s + zeroS s) + fcos (zeroS t + zeroS t)),
         fsin (zeroS t + zeroS t) / (fcosh (zeroS s + zeroS s) + fcos (zeroS t + zeroS t))⟩ := by simp [Cx.tanh, Cx.new]
    rw [e, zeroS_add, zeroS_add, sinh_zero, cosh_zero, sin_zero, cos_zero, zeroS_div, zeroS_div]
  · simp [Cx.tanh, Cx.new, hadd, cos_inf, sin_inf, add_nan, div_nan]
  · simp [Cx.tanh, Cx.new, nan_add, cos_nan, sin_nan, add_nan, div_nan]
  · simp [Cx.tanh, Cx.new, copysign_inf hasSign_one]
  · simp [Cx.tanh, Cx.new, copysign_inf hasSign_one]
  · simp [Cx.tanh, Cx.new, copysign_inf hasSign_one]
  · simp [Cx.tanh]
  · simp [Cx.tanh, Cx.new, h, sinh_nan, cosh_nan, nan_add, div_nan]
  · simp [Cx.tanh, Cx.new, sinh_nan, cosh_nan, nan_add, div_nan]
  · simp [Cx.tanh, Cx.new, sinh_nan, cosh_nan, nan_add, div_nan]

/-- For a finite operand whose real part is so large that `sinh` and `cosh` of its double overflow, the real part of
`tanh` is NaN: the quotient of two infinities, where the exact value is within rounding of one. -/
theorem C72_tanh_overflow (s t : Bool) (m k : ℝ) (hm hk)
    (h1 : fsinh (fin s m hm + fin s m hm : Ieee φ) = inf s) (h2 : fcosh (fin s m hm + fin s m hm : Ieee φ) = inf false)
    (h3 : (fcos (fin t k hk + fin t k hk : Ieee φ)).Finite) :
    (Cx.tanh (⟨fin s m hm, fin t k hk⟩ : Cx (Ieee φ))).re = nan := by
  obtain ⟨a, b, c, h3⟩ := h3
  have e : (inf false : Ieee φ) + fin a b c = inf false := rfl
  have e' : (inf s : Ieee φ) / inf false = nan := rfl
  simp [Cx.tanh, Cx.new, h1, h2, h3, e, e']

/-! ### trigonometric functions -/

/-- `sin`, `cos`, `tan`, `asin` and `atan` are the hyperbolic functions turned by a right angle, at special values and
everywhere else, as annex G defines them: `f(z) = -i h(iz)`, `cos z = cosh(iz)`. -/
theorem C72_turned (x y : Ieee φ) :
    Cx.cos (⟨x, y⟩ : Cx (Ieee φ)) = Cx.cosh ⟨-y, x⟩ ∧
    Cx.sin (⟨x, y⟩ : Cx (Ieee φ)) = ⟨(Cx.sinh ⟨-y, x⟩).im, -(Cx.sinh ⟨-y, x⟩).re⟩ ∧
    Cx.tan (⟨x, y⟩ : Cx (Ieee φ)) = ⟨(Cx.tanh ⟨-y, x⟩).im, -(Cx.tanh ⟨-y, x⟩).re⟩ ∧
    Cx.asin (⟨x, y⟩ : Cx (Ieee φ)) = ⟨(Cx.asinh ⟨-y, x⟩).im, -(Cx.asinh ⟨-y, x⟩).re⟩ ∧
    Cx.atan (⟨x, y⟩ : Cx (Ieee φ)) = ⟨(Cx.atanh ⟨-y, x⟩).im, -(Cx.atanh ⟨-y, x⟩).re⟩ := ⟨rfl, rfl, rfl, rfl, rfl⟩

/-- For instance at an infinite imaginary part: `sin` and `cos` grow, `tan` tends to `±i`, `asin` has the sign of the
real part times a zero. -/
theorem C72_imaginary_infinity (s t : Bool) (m : ℝ) (hm) (h0 : m ≠ 0) :
    Cx.cos (⟨fin s m hm, inf t⟩ : Cx (Ieee φ)) = ⟨inf false * fcos (fin s m hm), inf (!t) * fsin (fin s m hm)⟩ ∧
    Cx.sin (⟨fin s m hm, inf t⟩ : Cx (Ieee φ)) = ⟨inf false * fsin (fin s m hm), -(inf (!t) * fcos (fin s m hm))⟩ ∧
    (Cx.tan (⟨fin s m hm, inf t⟩ : Cx (Ieee φ))).im = flip t 1 ∧
    Cx.asin (⟨fin s m hm, inf t⟩ : Cx (Ieee φ)) = ⟨zeroS s, inf t⟩ ∧
    Cx.atan (⟨fin s m hm, inf t⟩ : Cx (Ieee φ)) = ⟨flip s ffracPi2, zeroS t⟩ := by
  obtain ⟨a1, a2, a3, a4, a5⟩ := C72_turned (fin s m hm : Ieee φ) (inf t)
  rw [a1, a2, a3, a4, a5, neg_inf, (C72_cosh (φ := φ) (!t) s m m hm hm).2.2.2.2.2.2.1 h0,
    (C72_sinh (φ := φ) (!t) s m m hm hm).2.2.2.2.2.2.1 h0, (C72_tanh (φ := φ) (!t) s m m hm hm).2.2.2.1,
    (C72_asinh (φ := φ) (!t) s m m hm hm).2.2.1, (C72_atanh (φ := φ) (!t) s m m hm hm).2.2.2.2.1]
  refine ⟨rfl, rfl, ?_, by simp, by simp⟩
  cases t <;> rfl

/-! ### exponential, logarithm and square root -/

/-- `exp`: the rows of annex G, 6.3.1, that hold: all but those of `C72_exp_fails` -/
theorem C72_exp (s t : Bool) (m k : ℝ) (hm hk) :
    Cx.exp (⟨zeroS s, zeroS t⟩ : Cx (Ieee φ)) = ⟨1, zeroS t⟩ ∧
    Cx.exp (⟨fin s m hm, inf t⟩ : Cx (Ieee φ)) = ⟨nan, nan⟩ ∧
    Cx.exp (⟨fin s m hm, nan⟩ : Cx (Ieee φ)) = ⟨nan, nan⟩ ∧
    Cx.exp (⟨inf true, fin t k hk⟩ : Cx (Ieee φ)) = ⟨0 * fcos (fin t k hk), 0 * fsin (fin t k hk)⟩ ∧
    Cx.exp (⟨inf false, fin t k hk⟩ : Cx (Ieee φ)) = ⟨inf false * fcos (fin t k hk), inf false * fsin (fin t k hk)⟩ ∧
    Cx.exp (⟨nan, fin t k hk⟩ : Cx (Ieee φ)) = ⟨nan, nan⟩ ∧
    Cx.exp (⟨nan, nan⟩ : Cx (Ieee φ)) = ⟨nan, nan⟩ := by
  refine ⟨?_, ?_, ?_, ?_, ?_, ?_, ?_⟩
  · simp only [Cx.exp, Cx.new, exp_zero, cos_zero, sin_zero]
    rw [one_mul_one, one_def, mul_zeroS]
    simp
  · simp [Cx.exp, Cx.new, cos_inf, sin_inf, mul_nan]
  · simp [Cx.exp, Cx.new, cos_nan, sin_nan, mul_nan]
  · simp only [Cx.exp, Cx.new, exp_ninf]; rfl
  · simp only [Cx.exp, Cx.new, exp_pinf]
  · simp [Cx.exp, Cx.new, exp_nan, nan_mul]
  · simp [Cx.exp, Cx.new, exp_nan, nan_mul]

/-- The other rows do not hold: `exp` of positive infinity plus zero `i` has a NaN imaginary part (prescribed: zero),
`exp` of negative infinity plus an infinity or NaN is NaN (prescribed: zero), and `exp` of positive infinity plus an
infinity or NaN has a NaN real part (prescribed: infinity). -/
theorem C72_exp_fails (t : Bool) :
    Cx.exp (⟨inf false, zeroS t⟩ : Cx (Ieee φ)) = ⟨inf false, nan⟩ ∧
    Cx.exp (⟨inf true, inf t⟩ : Cx (Ieee φ)) = ⟨nan, nan⟩ ∧ Cx.exp (⟨inf true, nan⟩ : Cx (Ieee φ)) = ⟨nan, nan⟩ ∧
    Cx.exp (⟨inf false, inf t⟩ : Cx (Ieee φ)) = ⟨nan, nan⟩ ∧ Cx.exp (⟨inf false, nan⟩ : Cx (Ieee φ)) = ⟨nan, nan⟩ ∧
    Cx.exp (⟨nan, zeroS t⟩ : Cx (Ieee φ)) = ⟨nan, nan⟩ := by
  have e1 : (inf false : Ieee φ) * 1 = inf false := if_neg one_ne_zero
  have e2 : (inf false : Ieee φ) * zeroS t = nan := if_pos rfl
  refine ⟨?_, ?_, ?_, ?_, ?_, ?_⟩
  · simp only [Cx.exp, Cx.new, exp_pinf, cos_zero, sin_zero, e1, e2]
  all_goals simp [Cx.exp, Cx.new, cos_inf, sin_inf, cos_nan, sin_nan, exp_nan, nan_mul, mul_nan]

/-- `ln`: the rows of annex G, 6.3.2, that hold: all but infinity with NaN -/
theorem C72_ln (s t : Bool) (m k : ℝ) (hm hk) :
    Cx.ln (⟨zeroS true, zeroS t⟩ : Cx (Ieee φ)) = ⟨inf true, flip t fpi⟩ ∧
    Cx.ln (⟨zeroS false, zeroS t⟩ : Cx (Ieee φ)) = ⟨inf true, zeroS t⟩ ∧
    Cx.ln (⟨fin s m hm, inf t⟩ : Cx (Ieee φ)) = ⟨inf false, flip t ffracPi2⟩ ∧
    Cx.ln (⟨fin s m hm, nan⟩ : Cx (Ieee φ)) = ⟨nan, nan⟩ ∧
    Cx.ln (⟨inf true, fin t k hk⟩ : Cx (Ieee φ)) = ⟨inf false, flip t fpi⟩ ∧
    Cx.ln (⟨inf false, fin t k hk⟩ : Cx (Ieee φ)) = ⟨inf false, zeroS t⟩ ∧
    Cx.ln (⟨inf true, inf t⟩ : Cx (Ieee φ)) = ⟨inf false, flip t ((1 + 1 + 1) * ffracPi4)⟩ ∧
    Cx.ln (⟨inf false, inf t⟩ : Cx (Ieee φ)) = ⟨inf false, flip t ffracPi4⟩ ∧
    Cx.ln (⟨nan, fin t k hk⟩ : Cx (Ieee φ)) = ⟨nan, nan⟩ ∧
    Cx.ln (⟨nan, nan⟩ : Cx (Ieee φ)) = ⟨nan, nan⟩ := by
  have hln := ln_inf (φ := φ)
  refine ⟨?_, ?_, ?_, ?_, ?_, ?_, ?_, ?_, ?_, ?_⟩
  · simp only [Cx.ln, Cx.arg, Cx.new, norm_zero, ln_zero, atan2_zero_neg t _ (hasSign_zeroS _)]
  · simp only [Cx.ln, Cx.arg, Cx.new, norm_zero, ln_zero, atan2_zero_pos t _ (hasSign_zeroS _)]
  · simp only [Cx.ln, Cx.arg, Cx.new, norm_inf, hln, atan2_inf_fin]
  · exact nan_ln (Or.inr rfl)
  · simp only [Cx.ln, Cx.arg, Cx.new, norm_inf, hln, atan2_fin_inf, if_true]
  · simp only [Cx.ln, Cx.arg, Cx.new, norm_inf, hln, atan2_fin_inf, Bool.false_eq_true, if_false, flip_zero]
  · simp only [Cx.ln, Cx.arg, Cx.new, norm_inf true t k hk, hln, atan2_inf_inf, if_true]
  · simp only [Cx.ln, Cx.arg, Cx.new, norm_inf false t k hk, hln, atan2_inf_inf, Bool.false_eq_true, if_false]
  · exact nan_ln (Or.inl rfl)
  · exact nan_ln (Or.inl rfl)

/-- An infinite part with a NaN part has a NaN logarithm (prescribed: infinity plus NaN `i`). -/
theorem C72_ln_fails (s : Bool) : Cx.ln (⟨inf s, nan⟩ : Cx (Ieee φ)) = ⟨nan, nan⟩ ∧
    Cx.ln (⟨nan, inf s⟩ : Cx (Ieee φ)) = ⟨nan, nan⟩ := ⟨nan_ln (Or.inr rfl), nan_ln (Or.inl rfl)⟩

/-- `sqrt`: the rows of annex G, 6.4.2, that hold. At an infinite imaginary part the library's cosine and sine of an
eighth turn have to be positive. -/
theorem C72_sqrt (s t : Bool) (m : ℝ) (hm) 
    (hc : ∃ a h, 0 < a ∧ fcos (Ieee.flip t ffracPi2 / (1 + 1) : Ieee φ) = fin false a h)
    (hs : ∃ a h, 0 < a ∧ fsin (Ieee.flip t ffracPi2 / (1 + 1) : Ieee φ) = fin t a h) :
    Cx.sqrt (⟨fin s m hm, inf t⟩ : Cx (Ieee φ)) = ⟨inf false, inf t⟩ ∧
    Cx.sqrt (⟨zeroS false, zeroS t⟩ : Cx (Ieee φ)) = ⟨0, zeroS t⟩ ∧
    Cx.sqrt (⟨fin s m hm, nan⟩ : Cx (Ieee φ)) = ⟨nan, nan⟩ ∧ Cx.sqrt (⟨nan, fin s m hm⟩ : Cx (Ieee φ)) = ⟨nan, nan⟩ ∧
    Cx.sqrt (⟨nan, nan⟩ : Cx (Ieee φ)) = ⟨nan, nan⟩ := by
  have hsq : fsqrt (inf false : Ieee φ) = inf false := (Lib.sqrt_eq _).trans rfl
  have hsz : fsqrt (zeroS false : Ieee φ) = zeroS false := (Lib.sqrt_eq _).trans (if_pos rfl)
  obtain ⟨a, c, ha, hc⟩ := hc
  obtain ⟨a', c', ha', hs⟩ := hs
  refine ⟨?_, ?_, ?_, ?_, nan_sqrt⟩
  · simp only [Cx.sqrt, Cx.arg, Cx.new, norm_inf, hsq, atan2_inf_fin, hc, hs]
    have e1 : (inf false : Ieee φ) * fin false a c = inf (false ^^ false) := if_neg ha.ne'
    have e2 : (inf false : Ieee φ) * fin t a' c' = inf (false ^^ t) := if_neg ha'.ne'
    rw [e1, e2]; simp
  · simp only [Cx.sqrt, Cx.arg, Cx.new, norm_zero, hsz, atan2_zero_pos _ _ (hasSign_zeroS _), zeroS_div, cos_zero,
      sin_zero]
    rw [show (zeroS false : Ieee φ) * 1 = zeroS (false ^^ false) from zeroS_mul false false 1 _,
      show (zeroS false : Ieee φ) * zeroS t = zeroS (false ^^ t) from zeroS_mul false t 0 _]
    simp [zero_def]
  · simp [Cx.sqrt, Cx.norm, Cx.normSquared, Cx.new, nan_mul, add_nan, sqrt_nan]
  · simp [Cx.sqrt, Cx.norm, Cx.normSquared, Cx.new, nan_mul, nan_add, sqrt_nan]

/-- The others do not hold: the square root of positive infinity with a zero imaginary part has a NaN imaginary part
(prescribed: zero), and an infinite part with a NaN part gives NaN (prescribed: an infinite part). -/
theorem C72_sqrt_fails (s : Bool) :
    Cx.sqrt (⟨inf false, zeroS s⟩ : Cx (Ieee φ)) = ⟨inf false, nan⟩ ∧
    Cx.sqrt (⟨inf s, nan⟩ : Cx (Ieee φ)) = ⟨nan, nan⟩ ∧ Cx.sqrt (⟨nan, inf s⟩ : Cx (Ieee φ)) = ⟨nan, nan⟩ := by
  have hsq : fsqrt (inf false : Ieee φ) = inf false := (Lib.sqrt_eq _).trans rfl
  have e1 : (inf false : Ieee φ) * 1 = inf false := if_neg one_ne_zero
  have e2 : (inf false : Ieee φ) * zeroS s = nan := if_pos rfl
  refine ⟨?_, ?_, ?_⟩
  · have hn : Cx.norm (⟨inf false, zeroS s⟩ : Cx (Ieee φ)) = inf false := (norm_inf false s 0 _).2.1
    simp only [Cx.sqrt, Cx.arg, Cx.new, hn, hsq, atan2_zero_pos _ _ (Or.inl rfl), zeroS_div, cos_zero, sin_zero, e1, e2]
  · simp [Cx.sqrt, Cx.norm, Cx.normSquared, Cx.new, nan_mul, add_nan, sqrt_nan]
  · simp [Cx.sqrt, Cx.norm, Cx.normSquared, Cx.new, nan_mul, nan_add, sqrt_nan]

/-! ### the overflow happens -/

section Overflow
attribute [local instance] Libm.correctlyRounded

theorem round64_two_zpow {k : ℤ} (h1 : -1074 ≤ k) (h2 : k ≤ 1023) :
    ∃ h, (Ieee.round false (2 ^ k) : Ieee f64) = fin false (2 ^ k) h := by
  have hp : (0 : ℝ) < 2 ^ k := by positivity
  have e : f64.fl |2 ^ k| = 2 ^ k := by rw [abs_of_pos hp, fl64_two_zpow h1]
  have hb : f64.fl |2 ^ k| ≤ f64.big := by rw [e]; exact two_zpow_le_big h2
  refine ⟨⟨hp.le, two_zpow_le_big h2, fl64_two_zpow h1⟩, ?_⟩
  simp only [Ieee.round, dif_pos hb, if_neg hp.ne', decide_eq_false (not_lt.mpr hp.le)]
  congr 1

theorem round64_overflow {x : ℝ} (h : 2 ^ 1024 ≤ x) : (Ieee.round false x : Ieee f64) = inf false := by
  have hp : (0 : ℝ) < x := lt_of_lt_of_le (by positivity) h
  have h3 : (2 : ℝ) ^ 1024 ≤ f64.fl |x| := by
    have := f64.mono (2 ^ (1024 : ℤ)) |x| (by rw [abs_of_pos hp]; exact_mod_cast h)
    rw [fl64_two_zpow (by norm_num)] at this
    exact_mod_cast this
  have hb : ¬ f64.fl |x| ≤ f64.big := by
    have : f64.big < 2 ^ 1024 := by
      change ((2 : ℝ) ^ 53 - 1) * 2 ^ 971 < 2 ^ 1024
      rw [show (2 : ℝ) ^ 1024 = 2 ^ 53 * 2 ^ 971 from by rw [← pow_add]]
      exact mul_lt_mul_of_pos_right (by linarith) (by positivity)
    linarith
  simp only [Ieee.round, dif_neg hb, if_neg hp.ne', decide_eq_false (not_lt.mpr hp.le)]

theorem two_pow_le_exp (n : ℕ) : (2 : ℝ) ^ n ≤ Real.exp n := by
  rw [← Real.exp_one_pow]
  exact pow_le_pow_left₀ (by norm_num) (by linarith [Real.add_one_le_exp 1]) n

/-- `tanh` of `1024` is NaN in double precision, with correctly rounded library functions. -/
theorem C72_tanh_overflow_fails : ∃ h, (Cx.tanh (⟨fin false 1024 h, 0⟩ : Cx (Ieee f64))).re = nan := by
  have h10 := fl64_two_zpow (k := 10) (by norm_num)
  have hb10 := two_zpow_le_big (k := 10) (by norm_num)
  have e10 : (2 : ℝ) ^ (10 : ℤ) = 1024 := by norm_num
  rw [e10] at h10 hb10
  refine ⟨⟨by norm_num, hb10, h10⟩, ?_⟩
  obtain ⟨h11, e11⟩ := round64_two_zpow (k := 11) (by norm_num) (by norm_num)
  have hadd : (fin false 1024 ⟨by norm_num, hb10, h10⟩ + fin false 1024 ⟨by norm_num, hb10, h10⟩ : Ieee f64) =
      fin false (2 ^ (11 : ℤ)) h11 := by
    rw [← e11]
    change Ieee.round (false && false) (signed false 1024 + signed false 1024) = _
    congr 1; simp only [signed]; norm_num
  have hsinh : (2 : ℝ) ^ 1024 ≤ Real.sinh (2 ^ (11 : ℤ)) := by
    rw [Real.sinh_eq]
    have h1 : (2 : ℝ) ^ 2048 ≤ Real.exp (2 ^ (11 : ℤ)) := by
      have := two_pow_le_exp 2048
      rwa [show ((2048 : ℕ) : ℝ) = 2 ^ (11 : ℤ) from by norm_num] at this
    have h2 : Real.exp (-2 ^ (11 : ℤ)) ≤ 1 := Real.exp_le_one_iff.mpr (by simp)
    have h3 : (2 : ℝ) ^ 2048 = 2 ^ 1024 * 2 ^ 1024 := by rw [← pow_add]
    have h4 : (4 : ℝ) ≤ 2 ^ 1024 := by
      calc (4 : ℝ) = 2 ^ 2 := by norm_num
        _ ≤ 2 ^ 1024 := pow_le_pow_right₀ (by norm_num) (by norm_num)
    rw [h3] at h1
    generalize (2 : ℝ) ^ 1024 = A at h1 h4 ⊢
    generalize Real.exp (2 ^ (11 : ℤ)) = B at h1 ⊢
    generalize Real.exp (-2 ^ (11 : ℤ)) = C at h2 ⊢
    nlinarith
  apply C72_tanh_overflow false false 1024 0
  · rw [hadd]
    change (if (2 : ℝ) ^ (11 : ℤ) = 0 then _ else Ieee.round false (Real.sinh (signed false (2 ^ (11 : ℤ))))) = _
    rw [if_neg (by positivity)]
    exact round64_overflow hsinh
  · rw [hadd]
    change Ieee.round false (Real.cosh (signed false (2 ^ (11 : ℤ)))) = _
    exact round64_overflow (hsinh.trans (Real.sinh_lt_cosh _).le)
  · have : (0 + 0 : Ieee f64) = zeroS false := zeroS_add false
    change (fcos (0 + 0 : Ieee f64)).Finite
    rw [this, cos_zero]; exact finite_one

/-- the requirements of `C72_sqrt` on the cosine and the sine hold for them -/
example : (∃ a h, 0 < a ∧ fcos (Ieee.flip false ffracPi2 / (1 + 1) : Ieee f64) = fin false a h) ∧
    (∃ a h, 0 < a ∧ fsin (Ieee.flip false ffracPi2 / (1 + 1) : Ieee f64) = fin false a h) := by
  have hfl : ∀ {k : ℤ} {x : ℝ}, -1074 ≤ k → (2 : ℝ) ^ k ≤ x → (2 : ℝ) ^ k ≤ f64.fl x := fun hk hx => by
    rw [← fl64_two_zpow hk]; exact f64.mono _ _ hx
  have hfu : ∀ {k : ℤ} {x : ℝ}, -1074 ≤ k → x ≤ (2 : ℝ) ^ k → f64.fl x ≤ (2 : ℝ) ^ k := fun hk hx => by
    rw [← fl64_two_zpow hk]; exact f64.mono _ _ hx
  have hround : ∀ {k : ℤ} {x : ℝ}, -1074 ≤ k → (2 : ℝ) ^ k ≤ x → x ≤ 2 ^ (1 : ℤ) →
      ∃ h, (Ieee.round false x : Ieee f64) = fin false (f64.fl x) h := fun {k x} hk h1 h2 => by
    have hp : (0 : ℝ) < x := lt_of_lt_of_le (by positivity) h1
    have hb : f64.fl |x| ≤ f64.big := by
      rw [abs_of_pos hp]; exact (hfu (by norm_num) h2).trans (two_zpow_le_big (by norm_num))
    have hb' : f64.fl x ≤ f64.big := by rwa [abs_of_pos hp] at hb
    refine ⟨⟨f64.nonneg hp.le, hb', f64.idem _⟩, ?_⟩
    simp only [Ieee.round, dif_pos hb, if_neg hp.ne', decide_eq_false (not_lt.mpr hp.le)]
    congr 1; rw [abs_of_pos hp]
  have hpi1 : (2 : ℝ) ^ (0 : ℤ) ≤ Real.pi / 2 := by simpa using Real.one_le_pi_div_two
  have hpi2 : Real.pi / 2 ≤ (2 : ℝ) ^ (1 : ℤ) := by simpa using Real.pi_div_two_le_two
  have hp : 0 < f64.fl (Real.pi / 2) ∧ f64.fl (Real.pi / 2) ≤ f64.big := by
    constructor
    · exact lt_of_lt_of_le (by positivity) (hfl (by norm_num) hpi1)
    · exact (hfu (by norm_num) hpi2).trans (two_zpow_le_big (by norm_num))
  have e1 : (ffracPi2 : Ieee f64) = fin false (f64.fl (Real.pi / 2)) ⟨hp.1.le, hp.2, f64.idem _⟩ := dif_pos hp
  obtain ⟨h2, e2⟩ := round64_two_zpow (k := 1) (by norm_num) (by norm_num)
  have e3 : (1 + 1 : Ieee f64) = fin false (2 ^ (1 : ℤ)) h2 := by
    rw [← e2]; change Ieee.round (false && false) (signed false 1 + signed false 1) = _
    congr 1; simp only [signed]; norm_num
  have hq1 : (2 : ℝ) ^ (-1 : ℤ) ≤ f64.fl (Real.pi / 2) / 2 ^ (1 : ℤ) := by
    have := hfl (by norm_num) hpi1; norm_num at this ⊢; linarith
  have hq2 : f64.fl (Real.pi / 2) / 2 ^ (1 : ℤ) ≤ 2 ^ (0 : ℤ) := by
    have := hfu (by norm_num) hpi2; norm_num at this ⊢; linarith
  obtain ⟨h4, e4⟩ := hround (by norm_num) hq1 (hq2.trans (by norm_num))
  set q := f64.fl (f64.fl (Real.pi / 2) / 2 ^ (1 : ℤ)) with hq
  have hq3 : (2 : ℝ) ^ (-1 : ℤ) ≤ q := hfl (by norm_num) hq1
  have hq4 : q ≤ (2 : ℝ) ^ (0 : ℤ) := hfu (by norm_num) hq2
  have e5 : (Ieee.flip false ffracPi2 / (1 + 1) : Ieee f64) = fin false q h4 := by
    rw [← e4, e3, show Ieee.flip false (ffracPi2 : Ieee f64) = ffracPi2 from rfl, e1]
    change (if (2 : ℝ) ^ (1 : ℤ) = 0 then _ else Ieee.round (false ^^ false) (signed false _ / signed false _)) = _
    rw [if_neg (by positivity)]; rfl
  rw [e5]
  norm_num at hq3 hq4
  have hc : (2 : ℝ) ^ (-1 : ℤ) ≤ Real.cos q := by
    have := Real.one_sub_sq_div_two_le_cos (x := q); norm_num; nlinarith
  have hs : (2 : ℝ) ^ (-2 : ℤ) ≤ Real.sin q := by
    have := Real.sin_gt_sub_cube (x := q) (by linarith)
    norm_num
    have : q ^ 3 ≤ q := by nlinarith [mul_nonneg (by linarith : (0 : ℝ) ≤ q) (by nlinarith : (0 : ℝ) ≤ 1 - q ^ 2)]
    linarith
  constructor
  · obtain ⟨h, e⟩ := hround (by norm_num) hc ((Real.cos_le_one _).trans (by norm_num))
    exact ⟨_, h, lt_of_lt_of_le (by positivity) (hfl (by norm_num) hc), e⟩
  · obtain ⟨h, e⟩ := hround (by norm_num) hs ((Real.sin_le_one _).trans (by norm_num))
    refine ⟨_, h, lt_of_lt_of_le (by positivity) (hfl (by norm_num) hs), ?_⟩
    refine Eq.trans ?_ e
    exact if_neg (by linarith)

end Overflow

end Cgl
