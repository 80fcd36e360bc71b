import Verif.Spec.Rounding

/-! # IEEE 754 arithmetic with infinities, NaN and signed zeros

`Ieee φ` is a floating-point type with the rounding and the largest finite number of the format `φ`: `Ieee.f64` and
`Ieee.f32` are the formats of Rust's `f64` and `f32`.  The payload and the sign of NaN are not modelled. -/

namespace Cgl

/-- A rounding together with the largest finite number. -/
structure Format extends Rounding where
  big : ℝ
  one_le_big : 1 ≤ big

/-- A floating-point datum: not-a-number, an infinity with its sign, or a finite representable number with its sign. -/
inductive Ieee (φ : Format) where
  | nan
  | inf (neg : Bool)
  | fin (neg : Bool) (mag : ℝ) (h : 0 ≤ mag ∧ mag ≤ φ.big ∧ φ.fl mag = mag)

namespace Ieee
variable {φ : Format}

/-- the real number a sign and a magnitude stand for -/
def signed (neg : Bool) (mag : ℝ) : ℝ := if neg then -mag else mag

/-- the value of a finite number -/
def val : Ieee φ → ℝ
  | nan => 0
  | inf _ => 0
  | fin s m _ => signed s m

def IsNan (x : Ieee φ) : Prop := x = nan
def IsInf (x : Ieee φ) : Prop := ∃ s, x = inf s
def Finite (x : Ieee φ) : Prop := ∃ s m h, x = fin s m h

/-- The datum that an exact result `x` is rounded to; `s` is the sign of an exact zero.  A result whose rounding
exceeds the largest finite number overflows to infinity. -/
noncomputable def round (s : Bool) (x : ℝ) : Ieee φ :=
  let neg := if x = 0 then s else decide (x < 0)
  if h : φ.fl |x| ≤ φ.big then fin neg (φ.fl |x|) ⟨φ.nonneg (abs_nonneg x), h, φ.idem _⟩ else inf neg

instance : Zero (Ieee φ) := ⟨fin false 0 ⟨le_rfl, zero_le_one.trans φ.one_le_big, φ.zero⟩⟩
instance : One (Ieee φ) := ⟨fin false 1 ⟨zero_le_one, φ.one_le_big, φ.one⟩⟩

protected def neg : Ieee φ → Ieee φ
  | nan => nan
  | inf s => inf !s
  | fin s m h => fin (!s) m h

protected noncomputable def add : Ieee φ → Ieee φ → Ieee φ
  | nan, _ => nan
  | _, nan => nan
  | inf s, inf t => if s = t then inf s else nan
  | inf s, fin _ _ _ => inf s
  | fin _ _ _, inf t => inf t
  | fin s m _, fin t k _ => round (s && t) (signed s m + signed t k)

protected noncomputable def mul : Ieee φ → Ieee φ → Ieee φ
  | nan, _ => nan
  | _, nan => nan
  | inf s, inf t => inf (s ^^ t)
  | inf s, fin t k _ => if k = 0 then nan else inf (s ^^ t)
  | fin s m _, inf t => if m = 0 then nan else inf (s ^^ t)
  | fin s m _, fin t k _ => round (s ^^ t) (signed s m * signed t k)

protected noncomputable def div : Ieee φ → Ieee φ → Ieee φ
  | nan, _ => nan
  | _, nan => nan
  | inf _, inf _ => nan
  | inf s, fin t _ _ => inf (s ^^ t)
  | fin s _ _, inf t => fin (s ^^ t) 0 ⟨le_rfl, zero_le_one.trans φ.one_le_big, φ.zero⟩
  | fin s m _, fin t k _ =>
    if k = 0 then (if m = 0 then nan else inf (s ^^ t)) else round (s ^^ t) (signed s m / signed t k)

/-- the square root: NaN below zero, `-0` at `-0` -/
protected noncomputable def sqrt : Ieee φ → Ieee φ
  | nan => nan
  | inf s => if s then nan else inf false
  | fin s m h => if m = 0 then fin s m h else if s then nan else round false (Real.sqrt m)

noncomputable instance : Add (Ieee φ) := ⟨Ieee.add⟩
noncomputable instance : Mul (Ieee φ) := ⟨Ieee.mul⟩
noncomputable instance : Div (Ieee φ) := ⟨Ieee.div⟩
instance : Neg (Ieee φ) := ⟨Ieee.neg⟩
/-- `a - b` is `a + (-b)` -/
noncomputable instance : Sub (Ieee φ) := ⟨fun a b => a + -b⟩

/-- the place on the extended real line of a datum that is not NaN -/
noncomputable def place : Ieee φ → Option EReal
  | nan => none
  | inf s => some (if s then ⊥ else ⊤)
  | fin s m _ => some ((signed s m : ℝ) : EReal)

/-- comparisons with NaN are false, the two zeros are equal -/
instance : LT (Ieee φ) := ⟨fun x y => ∃ a b, x.place = some a ∧ y.place = some b ∧ a < b⟩
instance : LE (Ieee φ) := ⟨fun x y => ∃ a b, x.place = some a ∧ y.place = some b ∧ a ≤ b⟩
noncomputable instance : DecidableLT (Ieee φ) := fun _ _ => Classical.propDecidable _
noncomputable instance : DecidableLE (Ieee φ) := fun _ _ => Classical.propDecidable _
/-- `==`: NaN differs from itself, the two zeros are equal -/
noncomputable instance : BEq (Ieee φ) := ⟨fun x y => @decide (∃ a, x.place = some a ∧ y.place = some a)
  (Classical.propDecidable _)⟩
@[simp] theorem beq_iff (x y : Ieee φ) : (x == y) = true ↔ ∃ a, x.place = some a ∧ y.place = some a :=
  @decide_eq_true_iff _ (Classical.propDecidable _)
@[simp] theorem nan_beq (y : Ieee φ) : (nan == y) = false := by
  rw [← Bool.not_eq_true, beq_iff]; rintro ⟨a, h, -⟩; simp [place] at h
@[simp] theorem beq_nan (x : Ieee φ) : (x == nan) = false := by
  rw [← Bool.not_eq_true, beq_iff]; rintro ⟨a, -, h⟩; simp [place] at h

/-- `f64::abs` clears the sign -/
instance : SAbs (Ieee φ) := ⟨fun
  | nan => nan
  | inf _ => inf false
  | fin _ m h => fin false m h⟩

/-- `f64::max` returns the other argument when one is NaN -/
noncomputable instance : Max (Ieee φ) := ⟨fun
  | nan, y => y
  | x, nan => x
  | x, y => if x < y then y else x⟩

noncomputable instance : Min (Ieee φ) := ⟨fun
  | nan, y => y
  | x, nan => x
  | x, y => if y < x then y else x⟩

/-- `f64::is_nan`, `is_infinite`, `is_finite`, the special constants and `copysign` -/
noncomputable instance : FloatSpecial (Ieee φ) where
  isNan | nan => true | _ => false
  isInfinite | inf _ => true | _ => false
  isFinite | fin _ _ _ => true | _ => false
  fnan := nan
  finf := inf false
  fneginf := inf true
  fcopysign x y := match x, y with
    | nan, _ => nan
    | x, nan => x
    | inf _, inf t => inf t
    | inf _, fin t _ _ => inf t
    | fin _ m h, inf t => fin t m h
    | fin _ m h, fin t _ _ => fin t m h

/-- A mathematical library for `Ieee φ`: any functions at all, with the square root IEEE 754 prescribes. -/
class Lib (φ : Format) extends FloatFns (Ieee φ) where
  sqrt_eq : ∀ x : Ieee φ, fsqrt x = x.sqrt

/-! ### the formats of `f64` and `f32` -/

/-- `f64`: 53 bits, last bits from `2 ^ -1074`, largest number `(2 ^ 53 - 1) * 2 ^ 971` -/
noncomputable def f64 : Format := { Rounding.binary64 with
  big := (2 ^ 53 - 1) * 2 ^ 971
  one_le_big := by
    have : (1 : ℝ) ≤ 2 ^ 971 := one_le_pow₀ one_le_two
    exact one_le_mul_of_one_le_of_one_le (by norm_num) this }
/-- `f32`: 24 bits, last bits from `2 ^ -149`, largest number `(2 ^ 24 - 1) * 2 ^ 104` -/
noncomputable def f32 : Format := { Rounding.binary32 with
  big := (2 ^ 24 - 1) * 2 ^ 104
  one_le_big := by
    have : (1 : ℝ) ≤ 2 ^ 104 := one_le_pow₀ one_le_two
    exact one_le_mul_of_one_le_of_one_le (by norm_num) this }

/-! ### NaN and infinities do not disappear -/

theorem finite_fin (s : Bool) (m : ℝ) (h) : (fin s m h : Ieee φ).Finite := ⟨s, m, h, rfl⟩
@[simp] theorem not_finite_nan : ¬(nan : Ieee φ).Finite := by rintro ⟨_, _, _, h⟩; cases h
@[simp] theorem not_finite_inf (s : Bool) : ¬(inf s : Ieee φ).Finite := by rintro ⟨_, _, _, h⟩; cases h
theorem finite_zero : (0 : Ieee φ).Finite := ⟨_, _, _, rfl⟩
theorem finite_one : (1 : Ieee φ).Finite := ⟨_, _, _, rfl⟩
theorem finite_iff (x : Ieee φ) : x.Finite ↔ ¬x.IsNan ∧ ¬x.IsInf := by
  cases x with
  | nan => simp [IsNan]
  | inf s => simp [IsInf]
  | fin s m h => exact ⟨fun _ => ⟨nofun, nofun⟩, fun _ => finite_fin _ _ _⟩

theorem nan_add (x : Ieee φ) : nan + x = nan := by cases x <;> rfl
theorem add_nan (x : Ieee φ) : x + nan = nan := by cases x <;> rfl
theorem nan_mul (x : Ieee φ) : nan * x = nan := by cases x <;> rfl
theorem mul_nan (x : Ieee φ) : x * nan = nan := by cases x <;> rfl
theorem nan_div (x : Ieee φ) : nan / x = nan := by cases x <;> rfl
theorem div_nan (x : Ieee φ) : x / nan = nan := by cases x <;> rfl
theorem nan_sub (x : Ieee φ) : nan - x = nan := nan_add _
theorem sub_nan (x : Ieee φ) : x - nan = nan := add_nan x
theorem neg_nan : -(nan : Ieee φ) = nan := rfl

theorem finite_neg {x : Ieee φ} (h : (-x).Finite) : x.Finite := by
  cases x with
  | nan => exact h
  | inf s => exact absurd h (not_finite_inf _)
  | fin s m h => exact finite_fin _ _ _
theorem finite_add {x y : Ieee φ} (h : (x + y).Finite) : x.Finite ∧ y.Finite := by
  cases x <;> cases y <;> first
    | exact ⟨finite_fin _ _ _, finite_fin _ _ _⟩
    | exact absurd h not_finite_nan
    | exact absurd h (not_finite_inf _)
    | (rename_i s t
       have : (if s = t then inf s else nan : Ieee φ).Finite := h
       split_ifs at this <;> simp at this)
theorem finite_sub {x y : Ieee φ} (h : (x - y).Finite) : x.Finite ∧ y.Finite :=
  ⟨(finite_add h).1, finite_neg (finite_add h).2⟩
theorem finite_mul {x y : Ieee φ} (h : (x * y).Finite) : x.Finite ∧ y.Finite := by
  cases x <;> cases y <;> first
    | exact ⟨finite_fin _ _ _, finite_fin _ _ _⟩
    | exact absurd h not_finite_nan
    | exact absurd h (not_finite_inf _)
    | (rename_i s t k hk
       have : (if k = 0 then nan else inf (s ^^ t) : Ieee φ).Finite := h
       split_ifs at this <;> simp at this)
    | (rename_i s m hm t
       have : (if m = 0 then nan else inf (s ^^ t) : Ieee φ).Finite := h
       split_ifs at this <;> simp at this)
/-- A finite quotient has a finite numerator; the denominator may be infinite. -/
theorem finite_div {x y : Ieee φ} (h : (x / y).Finite) : x.Finite ∧ ¬y.IsNan := by
  cases x <;> cases y <;> first
    | exact absurd h not_finite_nan
    | exact absurd h (not_finite_inf _)
    | exact ⟨finite_fin _ _ _, nofun⟩
theorem finite_sqrt {x : Ieee φ} (h : x.sqrt.Finite) : x.Finite := by
  cases x with
  | nan => exact h
  | inf s => cases s <;> exact absurd h (by simp [Ieee.sqrt])
  | fin s m h => exact finite_fin _ _ _
theorem finite_sabs {x : Ieee φ} (h : (sabs x).Finite) : x.Finite := by
  cases x with
  | nan => exact h
  | inf s => exact absurd h (not_finite_inf _)
  | fin s m h => exact finite_fin _ _ _

/-! ### finite results are the rounded exact results -/

theorem val_round {s : Bool} {x : ℝ} (h : (round s x : Ieee φ).Finite) : (round s x : Ieee φ).val = φ.fl x := by
  unfold round at h ⊢
  simp only at h ⊢
  split_ifs at h ⊢ with h1 h2
  · subst h2; cases s <;> simp [val, signed, φ.zero]
  · rcases lt_or_gt_of_ne h2 with h3 | h3
    · simp [val, signed, h3, abs_of_neg, φ.neg]
    · simp [val, signed, h3, not_lt.mpr h3.le, abs_of_pos]
  all_goals simp at h

theorem val_neg (x : Ieee φ) : (-x).val = -x.val := by
  cases x with
  | nan => exact neg_zero.symm
  | inf s => exact neg_zero.symm
  | fin s m h => change signed (!s) m = -signed s m; cases s <;> simp [signed]
theorem val_add {x y : Ieee φ} (h : (x + y).Finite) : (x + y).val = φ.fl (x.val + y.val) := by
  obtain ⟨⟨s, m, hm, rfl⟩, ⟨t, k, hk, rfl⟩⟩ := finite_add h
  exact val_round h
theorem val_sub {x y : Ieee φ} (h : (x - y).Finite) : (x - y).val = φ.fl (x.val - y.val) := by
  rw [show x - y = x + -y from rfl, val_add h, val_neg, sub_eq_add_neg]
theorem val_mul {x y : Ieee φ} (h : (x * y).Finite) : (x * y).val = φ.fl (x.val * y.val) := by
  obtain ⟨⟨s, m, hm, rfl⟩, ⟨t, k, hk, rfl⟩⟩ := finite_mul h
  exact val_round h
theorem val_div {x y : Ieee φ} (h : (x / y).Finite) (hy : y.Finite) : (x / y).val = φ.fl (x.val / y.val) ∧ y.val ≠ 0 := by
  obtain ⟨⟨s, m, hm, rfl⟩, -⟩ := finite_div h
  obtain ⟨t, k, hk, rfl⟩ := hy
  change (if k = 0 then (if m = 0 then nan else inf (s ^^ t)) else round (s ^^ t) (signed s m / signed t k) :
    Ieee φ).Finite at h
  change (if k = 0 then (if m = 0 then nan else inf (s ^^ t)) else round (s ^^ t) (signed s m / signed t k) :
    Ieee φ).val = _ ∧ _
  split_ifs at h ⊢ with h1
  · simp at h
  · simp at h
  · exact ⟨val_round h, by cases t <;> simp [val, signed, h1]⟩
theorem val_sqrt {x : Ieee φ} (h : x.sqrt.Finite) : x.sqrt.val = φ.fl (Real.sqrt x.val) ∧ 0 ≤ x.val := by
  obtain ⟨s, m, hm, rfl⟩ := finite_sqrt h
  simp only [Ieee.sqrt] at h ⊢
  split_ifs at h ⊢ with h1 h2
  · subst h1; cases s <;> simp [val, signed, φ.zero]
  · simp at h
  · refine ⟨?_, by simp [val, signed, h2, hm.1]⟩
    rw [val_round h]; simp [val, signed, h2]
theorem val_rep (x : Ieee φ) : φ.fl x.val = x.val := by
  cases x with
  | nan => exact φ.zero
  | inf s => exact φ.zero
  | fin s m h => cases s <;> simp [val, signed, φ.neg, h.2.2]
@[simp] theorem val_zero : (0 : Ieee φ).val = 0 := rfl
@[simp] theorem val_one : (1 : Ieee φ).val = 1 := rfl

end Ieee
end Cgl
