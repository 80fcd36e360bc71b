import Mathlib.Algebra.Ring.Int.Defs
import Mathlib.Algebra.Order.Ring.Int
import Mathlib.Tactic.Positivity
import Verif.Model.Prelude

/-! # Integer arithmetic with overflow checks

In a debug build an integer operation whose exact result is not representable panics, and division by zero panics in
every build.  `Checked φ` is the type of the outcomes of such computations: a representable integer, or `overflow`,
which every further operation passes on.  A program has panicked as soon as one operation overflowed; in the functions
of the library that run on integers every intermediate result flows into a component of the result, so a call panics
exactly when a component of its result is `overflow`. -/

namespace Cgl

/-- The range of an integer type. -/
structure IntFormat where
  lo : ℤ
  hi : ℤ
  lo_nonpos : lo ≤ 0
  one_le_hi : 1 ≤ hi

namespace IntFormat
/-- `i8` ... `i128` -/
def signed (w : ℕ) (hw : 2 ≤ w) : IntFormat where
  lo := -2 ^ (w - 1)
  hi := 2 ^ (w - 1) - 1
  lo_nonpos := by have : (0 : ℤ) < 2 ^ (w - 1) := by positivity
                  omega
  one_le_hi := by
    obtain ⟨k, hk⟩ : ∃ k, w - 1 = k + 1 := ⟨w - 2, by omega⟩
    have : (0 : ℤ) < 2 ^ k := by positivity
    rw [hk, pow_succ]; omega
/-- `u8` ... `u128` -/
def unsigned (w : ℕ) (hw : 1 ≤ w) : IntFormat where
  lo := 0
  hi := 2 ^ w - 1
  lo_nonpos := le_rfl
  one_le_hi := by
    obtain ⟨k, hk⟩ : ∃ k, w = k + 1 := ⟨w - 1, by omega⟩
    have : (0 : ℤ) < 2 ^ k := by positivity
    rw [hk, pow_succ]; omega
/-- representable -/
def Fits (φ : IntFormat) (z : ℤ) : Prop := φ.lo ≤ z ∧ z ≤ φ.hi
instance (φ : IntFormat) (z : ℤ) : Decidable (φ.Fits z) := inferInstanceAs (Decidable (_ ∧ _))
theorem fits_zero (φ : IntFormat) : φ.Fits 0 := ⟨φ.lo_nonpos, zero_le_one.trans φ.one_le_hi⟩
theorem fits_one (φ : IntFormat) : φ.Fits 1 := ⟨φ.lo_nonpos.trans zero_le_one, φ.one_le_hi⟩
end IntFormat

/-- The outcome of a computation with checked integers. -/
inductive Checked (φ : IntFormat) where
  | overflow
  | val (z : ℤ) (h : φ.Fits z)

namespace Checked
variable {φ : IntFormat}

/-- the outcome of an operation whose exact result is `z` -/
def ofInt (z : ℤ) : Checked φ := if h : φ.Fits z then val z h else overflow

/-- an operation on two outcomes -/
def lift (f : ℤ → ℤ → Checked φ) : Checked φ → Checked φ → Checked φ
  | val a _, val b _ => f a b
  | _, _ => overflow

instance : Zero (Checked φ) := ⟨val 0 φ.fits_zero⟩
instance : One (Checked φ) := ⟨val 1 φ.fits_one⟩
instance : Add (Checked φ) := ⟨lift fun a b => ofInt (a + b)⟩
instance : Sub (Checked φ) := ⟨lift fun a b => ofInt (a - b)⟩
instance : Mul (Checked φ) := ⟨lift fun a b => ofInt (a * b)⟩
instance : Neg (Checked φ) := ⟨fun | val a _ => ofInt (-a) | overflow => overflow⟩
/-- division truncates and panics at a zero divisor -/
instance : Div (Checked φ) := ⟨lift fun a b => if b = 0 then overflow else ofInt (a.tdiv b)⟩
/-- the remainder has the sign of the dividend; it panics at a zero divisor and when the quotient overflows -/
instance : Mod (Checked φ) :=
  ⟨lift fun a b => if b = 0 then overflow else if φ.Fits (a.tdiv b) then ofInt (a.tmod b) else overflow⟩

/-- `c` returns `z` -/
def Returns (c : Checked φ) (z : ℤ) : Prop := ∃ h, c = val z h

end Checked
end Cgl
