import Verif.Model.Prelude
import Mathlib.Data.EReal.Operations

/-!
# Scalar helpers, cglinalg_numeric/src/lib.rs

Machine integers are bit vectors of an arbitrary width read in two's complement.  Floats are an exact-arithmetic
version of IEEE 754 with a sign bit, infinities and NaN.
-/

namespace Cgl

/-- `cast`, lib.rs 29-35; `conv` is `num_traits::cast` -/
def cast {α β : Type*} (conv : α → Option β) (value : α) : Res β := unwrap (conv value)
/-- `try_cast`, lib.rs 60-66 -/
def tryCast {α β : Type*} (conv : α → Option β) (value : α) : Option β := conv value

/-! ### signed integers -/

/-- The signed machine integers `i8`, ..., `i128`, `isize`: `w` bits in two's complement. -/
abbrev MInt (w : ℕ) := BitVec w

namespace MInt
variable {w : ℕ}

/-- Unary minus: with overflow checks (debug builds) negating the least value panics; without them it wraps. -/
def neg (checked : Bool) (x : MInt w) : Res (MInt w) :=
  if checked && decide (x = BitVec.intMin w) then .error .arithmeticOverflow else .ok (-x)

/-- `is_sign_positive`, lib.rs 1516-1519; `num_traits::Signed::is_positive` is `self > 0` -/
def isSignPositive (x : MInt w) : Bool := (0 : MInt w).slt x
/-- `is_sign_negative`, lib.rs 1521-1524; `num_traits::Signed::is_negative` is `self < 0` -/
def isSignNegative (x : MInt w) : Bool := x.slt 0
/-- `abs`, lib.rs 1540-1543; `num_traits::Signed::abs` is `if self.is_negative() { -self } else { self }` -/
def abs (checked : Bool) (x : MInt w) : Res (MInt w) := if x.slt 0 then neg checked x else .ok x
/-- `signum`, lib.rs 1535-1538; `num_traits::Signed::signum` is `1`, `0` or `-1` -/
def signum (x : MInt w) : MInt w := if (0 : MInt w).slt x then 1 else if x = 0 then 0 else -1
/-- `copysign`, lib.rs 1526-1533 -/
def copysign (checked : Bool) (x sign : MInt w) : Res (MInt w) :=
  if (0 : MInt w).sle sign then abs checked x else (abs checked x).bind (neg checked)
/-- `max`, lib.rs 1548-1551; `Ord::max` returns the second argument on ties -/
def max (x y : MInt w) : MInt w := if y.slt x then x else y
/-- `min`, lib.rs 1553-1556 -/
def min (x y : MInt w) : MInt w := if y.slt x then y else x
/-- `clamp`, lib.rs 1558-1561; `Ord::clamp` asserts `min <= max` -/
def clamp (x lo hi : MInt w) : Res (MInt w) :=
  if lo.sle hi then .ok (if x.slt lo then lo else if hi.slt x then hi else x) else .error .assertFailed
/-- `min_value`, lib.rs 1640-1645 -/
def minValue : MInt w := BitVec.intMin w
/-- `max_value`, lib.rs 1640-1645 -/
def maxValue : MInt w := BitVec.intMax w

end MInt

/-! ### floats -/

/-- `clamp` for floats, lib.rs 1609-1617 -/
def clamp {S : Type*} [LT S] [DecidableLT S] (x lo hi : S) : S := if x < lo then lo else if x > hi then hi else x

/-- magnitude of a float -/
inductive XFloat.Mag where
  | nan
  | inf
  | fin (m : NNReal)

/-- A float: a sign bit and a magnitude.  Simplification: finite magnitudes are exact reals, there is no rounding and
no largest finite value. -/
@[ext] structure XFloat where
  neg : Bool
  mag : XFloat.Mag

namespace XFloat

/-- the value; NaN has none -/
noncomputable def val? (x : XFloat) : Option EReal :=
  match x.mag with
  | .nan => none
  | .inf => some (if x.neg then ⊥ else ⊤)
  | .fin m => some (if x.neg then -((m : ℝ) : EReal) else ((m : ℝ) : EReal))

/-- IEEE comparison: false when an operand is NaN -/
instance : LT XFloat := ⟨fun x y => ∃ a b, x.val? = some a ∧ y.val? = some b ∧ a < b⟩
instance : LE XFloat := ⟨fun x y => ∃ a b, x.val? = some a ∧ y.val? = some b ∧ a ≤ b⟩
noncomputable instance : DecidableLT XFloat := fun _ _ => Classical.propDecidable _
noncomputable instance : DecidableLE XFloat := fun _ _ => Classical.propDecidable _

/-- `is_nan`, lib.rs 1866-1869 -/
def isNan (x : XFloat) : Bool := match x.mag with | .nan => true | _ => false
/-- `is_sign_positive`, lib.rs 1571-1574: the sign bit is clear -/
def isSignPositive (x : XFloat) : Bool := !x.neg
/-- `is_sign_negative`, lib.rs 1576-1579: the sign bit is set -/
def isSignNegative (x : XFloat) : Bool := x.neg
/-- `copysign`, lib.rs 1581-1584 -/
def copysign (x sign : XFloat) : XFloat := ⟨sign.neg, x.mag⟩
/-- `signum`, lib.rs 1586-1589: NaN for NaN, otherwise one with the same sign bit -/
def signum (x : XFloat) : XFloat := match x.mag with | .nan => ⟨x.neg, .nan⟩ | _ => ⟨x.neg, .fin 1⟩
/-- `abs`, lib.rs 1591-1594: clears the sign bit -/
def abs (x : XFloat) : XFloat := ⟨false, x.mag⟩
/-- `max`, lib.rs 1599-1602: a NaN operand is ignored.  IEEE leaves open which of two zeros of different sign is
returned; the model returns the second operand on ties. -/
noncomputable def max (x y : XFloat) : XFloat :=
  if x.isNan then y else if y.isNan then x else if x < y then y else if y < x then x else y
/-- `min`, lib.rs 1604-1607 -/
noncomputable def min (x y : XFloat) : XFloat :=
  if x.isNan then y else if y.isNan then x else if x < y then x else if y < x then y else x
/-- unary minus flips the sign bit -/
instance : Neg XFloat := ⟨fun x => ⟨!x.neg, x.mag⟩⟩
open Classical in
/-- the product of two magnitudes -/
noncomputable def Mag.mul : Mag → Mag → Mag
  | .nan, _ => .nan
  | _, .nan => .nan
  | .inf, .inf => .inf
  | .inf, .fin m => if m = 0 then .nan else .inf
  | .fin m, .inf => if m = 0 then .nan else .inf
  | .fin m, .fin k => .fin (m * k)
/-- multiplication: signs multiply, zero times infinity is NaN -/
noncomputable instance : Mul XFloat := ⟨fun x y => ⟨x.neg ^^ y.neg, x.mag.mul y.mag⟩⟩

end XFloat

end Cgl
