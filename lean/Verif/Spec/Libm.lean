import Verif.Spec.Ieee

/-! # The elementary functions of a floating-point library at special values

`Libm φ` lists what IEEE 754 (section 9.2) and the C standard (annex F) prescribe for the elementary functions of a
floating-point type at NaN, infinities and zeros, and the signs of the results elsewhere.  Nothing is said about the
accuracy of the results.  `Libm.correctlyRounded` shows that the requirements can be met. -/

namespace Cgl
namespace Ieee
variable {φ : Format}

/-- not NaN, with sign bit `s` -/
def HasSign (s : Bool) (x : Ieee φ) : Prop := x = inf s ∨ ∃ m h, x = fin s m h

/-- the zero with sign bit `s` -/
def zeroS (s : Bool) : Ieee φ := fin s 0 ⟨le_rfl, zero_le_one.trans φ.one_le_big, φ.zero⟩

/-- `x` with its sign flipped when `s` -/
def flip (s : Bool) (x : Ieee φ) : Ieee φ := if s then -x else x

open FloatFns in
class Libm (φ : Format) extends Lib φ where
  sin_nan : fsin (nan : Ieee φ) = nan
  cos_nan : fcos (nan : Ieee φ) = nan
  sin_inf : ∀ s, fsin (inf s : Ieee φ) = nan
  cos_inf : ∀ s, fcos (inf s : Ieee φ) = nan
  sin_zero : ∀ s, fsin (zeroS s : Ieee φ) = zeroS s
  cos_zero : ∀ s, fcos (zeroS s : Ieee φ) = 1
  sin_fin : ∀ s m h, (fsin (fin s m h : Ieee φ)).Finite
  cos_fin : ∀ s m h, (fcos (fin s m h : Ieee φ)).Finite
  sinh_nan : fsinh (nan : Ieee φ) = nan
  cosh_nan : fcosh (nan : Ieee φ) = nan
  sinh_inf : ∀ s, fsinh (inf s : Ieee φ) = inf s
  cosh_inf : ∀ s, fcosh (inf s : Ieee φ) = inf false
  sinh_zero : ∀ s, fsinh (zeroS s : Ieee φ) = zeroS s
  cosh_zero : ∀ s, fcosh (zeroS s : Ieee φ) = 1
  sinh_fin : ∀ s m h, HasSign s (fsinh (fin s m h : Ieee φ))
  cosh_fin : ∀ s m h, HasSign false (fcosh (fin s m h : Ieee φ))
  exp_nan : fexp (nan : Ieee φ) = nan
  exp_pinf : fexp (inf false : Ieee φ) = inf false
  exp_ninf : fexp (inf true : Ieee φ) = zeroS false
  exp_zero : ∀ s, fexp (zeroS s : Ieee φ) = 1
  ln_nan : fln (nan : Ieee φ) = nan
  ln_inf : fln (inf false : Ieee φ) = inf false
  ln_zero : ∀ s, fln (zeroS s : Ieee φ) = inf true
  pi_pos : ∃ m h, 0 < m ∧ (fpi : Ieee φ) = fin false m h
  frac_pi_2_pos : ∃ m h, 0 < m ∧ (ffracPi2 : Ieee φ) = fin false m h
  frac_pi_4_pos : ∃ m h, 0 < m ∧ (ffracPi4 : Ieee φ) = fin false m h
  atan2_nan : ∀ x : Ieee φ, fatan2 nan x = nan ∧ fatan2 x nan = nan
  atan2_zero_pos : ∀ s (x : Ieee φ), HasSign false x → fatan2 (zeroS s) x = zeroS s
  atan2_zero_neg : ∀ s (x : Ieee φ), HasSign true x → fatan2 (zeroS s) x = flip s fpi
  atan2_inf_fin : ∀ s t m h, fatan2 (inf s) (fin t m h : Ieee φ) = flip s ffracPi2
  atan2_inf_inf : ∀ s t, fatan2 (inf s) (inf t : Ieee φ) =
    flip s (if t then (1 + 1 + 1) * ffracPi4 else ffracPi4)
  atan2_fin_inf : ∀ s m h t, fatan2 (fin s m h) (inf t : Ieee φ) = flip s (if t then fpi else 0)

/-! ### the requirements can be met -/

theorem round_of_le_one {s : Bool} {x : ℝ} (h : |x| ≤ 1) : (round s x : Ieee φ).Finite := by
  have : φ.fl |x| ≤ φ.big := (φ.mono _ _ h).trans (by rw [φ.one]; exact φ.one_le_big)
  simp only [round, dif_pos this]
  exact finite_fin _ _ _

theorem round_sign {s : Bool} {x : ℝ} (h0 : x ≠ 0) (h : decide (x < 0) = s) (t : Bool) :
    HasSign s (round t x : Ieee φ) := by
  simp only [round, if_neg h0, h]
  split_ifs with h1
  · exact Or.inr ⟨_, _, rfl⟩
  · exact Or.inl rfl

theorem zeroS_eq (s : Bool) (h) : (fin s 0 h : Ieee φ) = zeroS s := rfl

/-- a real function rounded correctly at finite numbers, NaN elsewhere -/
noncomputable def lift (f : ℝ → ℝ) : Ieee φ → Ieee φ
  | fin s m _ => round false (f (signed s m))
  | _ => nan

open Classical in
/-- a positive constant rounded correctly, or one if that is zero or overflows -/
noncomputable def crPos (x : ℝ) : Ieee φ :=
  if h : 0 < φ.fl x ∧ φ.fl x ≤ φ.big then fin false (φ.fl x) ⟨h.1.le, h.2, φ.idem _⟩ else 1

theorem crPos_pos (x : ℝ) : ∃ m h, 0 < m ∧ (crPos x : Ieee φ) = fin false m h := by
  unfold crPos
  split_ifs with h
  · exact ⟨φ.fl x, ⟨h.1.le, h.2, φ.idem _⟩, h.1, rfl⟩
  · exact ⟨1, ⟨zero_le_one, φ.one_le_big, φ.one⟩, one_pos, rfl⟩

open Classical in
/-- The requirements are met by the correctly rounded functions. -/
@[reducible] noncomputable def Libm.correctlyRounded (φ : Format) : Libm φ where
  fsqrt := Ieee.sqrt
  fcbrt := lift (fcbrt : ℝ → ℝ)
  fsin | fin s m h => if m = 0 then fin s m h else round false (Real.sin (signed s m))
       | _ => nan
  fcos := lift Real.cos
  ftan := lift Real.tan
  fasin := lift Real.arcsin
  facos := lift Real.arccos
  fatan := lift Real.arctan
  fatan2 y x := match y, x with
    | nan, _ => nan
    | _, nan => nan
    | inf s, fin _ _ _ => flip s (crPos (Real.pi / 2))
    | inf s, inf t => flip s (if t then (1 + 1 + 1) * crPos (Real.pi / 4) else crPos (Real.pi / 4))
    | fin s _ _, inf t => flip s (if t then (crPos Real.pi) else 0)
    | fin s m _, fin t k _ =>
      if m = 0 then flip s (if t then (crPos Real.pi) else 0) else round s (Complex.arg ⟨signed t k, signed s m⟩)
  fexp | nan => nan
       | inf s => if s then zeroS false else inf false
       | fin s m _ => round false (Real.exp (signed s m))
  fln | nan => nan
      | inf s => if s then nan else inf false
      | fin s m _ => if m = 0 then inf true else if s then nan else round false (Real.log m)
  fsinh | nan => nan
        | inf s => inf s
        | fin s m h => if m = 0 then fin s m h else round s (Real.sinh (signed s m))
  fcosh | nan => nan
        | inf _ => inf false
        | fin s m _ => round false (Real.cosh (signed s m))
  fpowf _ _ := nan
  ftrunc := lift ftrunc
  fpi := crPos Real.pi
  fexp2 := lift fexp2
  flog _ _ := nan
  fln2 := round false (Real.log 2)
  fln10 := round false (Real.log 10)
  ftanh := lift Real.tanh
  ffracPi2 := crPos (Real.pi / 2)
  ffracPi4 := crPos (Real.pi / 4)
  sqrt_eq _ := rfl
  sin_nan := rfl
  cos_nan := rfl
  sin_inf _ := rfl
  cos_inf _ := rfl
  sin_zero _ := if_pos rfl
  cos_zero s := by
    change round false (Real.cos (signed s 0)) = 1
    have : signed s 0 = 0 := by cases s <;> simp [signed]
    have h1 : φ.fl |1| ≤ φ.big := by rw [abs_one, φ.one]; exact φ.one_le_big
    simp only [this, Real.cos_zero, round, dif_pos h1, one_ne_zero, if_false]
    change _ = fin false 1 _
    simp [φ.one, not_lt.mpr zero_le_one]
  sin_fin s m h := by
    simp only
    split_ifs
    · exact finite_fin _ _ _
    · exact round_of_le_one (Real.abs_sin_le_one _)
  cos_fin s m h := round_of_le_one (Real.abs_cos_le_one _)
  sinh_nan := rfl
  cosh_nan := rfl
  sinh_inf _ := rfl
  cosh_inf _ := rfl
  sinh_zero _ := if_pos rfl
  cosh_zero s := by
    change round false (Real.cosh (signed s 0)) = 1
    have : signed s 0 = 0 := by cases s <;> simp [signed]
    have h1 : φ.fl |1| ≤ φ.big := by rw [abs_one, φ.one]; exact φ.one_le_big
    simp only [this, Real.cosh_zero, round, dif_pos h1, one_ne_zero, if_false]
    change _ = fin false 1 _
    simp [φ.one, not_lt.mpr zero_le_one]
  sinh_fin s m h := by
    simp only
    split_ifs with hm
    · exact Or.inr ⟨_, _, rfl⟩
    · have hp : 0 < m := lt_of_le_of_ne h.1 (Ne.symm hm)
      cases s
      · exact round_sign (by simp [signed, hm]) (by simp [signed, hp.le]) _
      · exact round_sign (by simp [signed, hm]) (by simp [signed, hp]) _
  cosh_fin s m h := round_sign (Real.cosh_pos _).ne' (by simp [(Real.cosh_pos _).le]) _
  exp_nan := rfl
  exp_pinf := rfl
  exp_ninf := rfl
  exp_zero s := by
    change round false (Real.exp (signed s 0)) = 1
    have : signed s 0 = 0 := by cases s <;> simp [signed]
    have h1 : φ.fl |1| ≤ φ.big := by rw [abs_one, φ.one]; exact φ.one_le_big
    simp only [this, Real.exp_zero, round, dif_pos h1, one_ne_zero, if_false]
    change _ = fin false 1 _
    simp [φ.one, not_lt.mpr zero_le_one]
  ln_nan := rfl
  ln_inf := rfl
  ln_zero _ := if_pos rfl
  pi_pos := crPos_pos _
  frac_pi_2_pos := crPos_pos _
  frac_pi_4_pos := crPos_pos _
  atan2_nan x := by cases x <;> exact ⟨rfl, rfl⟩
  atan2_zero_pos s x hx := by
    rcases hx with rfl | ⟨m, h, rfl⟩
    · cases s <;> rfl
    · change (if (0 : ℝ) = 0 then flip s 0 else _) = _
      rw [if_pos rfl]; cases s <;> rfl
  atan2_zero_neg s x hx := by
    rcases hx with rfl | ⟨m, h, rfl⟩
    · rfl
    · exact if_pos rfl
  atan2_inf_fin _ _ _ _ := rfl
  atan2_inf_inf _ _ := rfl
  atan2_fin_inf _ _ _ _ := rfl

end Ieee
end Cgl
