import Verif.Model.Float

/-!
# `Radians`, `Degrees` and the `Angle` trait

Model of cglinalg_trigonometry/src/lib.rs. By-reference operator impls delegate to the same
expressions and are not repeated.
-/

namespace Cgl

/-- `Radians<S>(pub S)`, lib.rs 578 -/
@[ext] structure Radians (S : Type*) where
  val : S

/-- `Degrees<S>(pub S)`, lib.rs 658 -/
@[ext] structure Degrees (S : Type*) where
  val : S

/-- `%` on floats: the remainder of truncated division (exact, as `fmod`). -/
class FRem (S : Type*) where
  frem : S → S → S

export FRem (frem)

/-- exact-real reading of `%`: `x - trunc(x / y) * y` -/
noncomputable instance : FRem ℝ := ⟨fun x y => x - ftrunc (x / y) * y⟩

/-- The `Angle` trait, lib.rs 19-260: the required methods. -/
class Angle (A : Type*) (S : outParam (Type*)) where
  zero : A
  fullTurn : A
  sin : A → S
  cos : A → S
  tan : A → S
  asin : S → A
  acos : S → A
  atan : S → A
  atan2 : S → S → A

variable {S : Type*}

section RadOps

/-- `Radians + Radians`, lib.rs 1305-1351 -/
instance [Add S] : Add (Radians S) := ⟨fun a b => ⟨a.val + b.val⟩⟩
/-- `Radians - Radians`, lib.rs 1353-1399 -/
instance [Sub S] : Sub (Radians S) := ⟨fun a b => ⟨a.val - b.val⟩⟩
/-- `Radians * scalar`, lib.rs 1401-1423 -/
instance [Mul S] : HMul (Radians S) S (Radians S) := ⟨fun a k => ⟨a.val * k⟩⟩
/-- `Radians / scalar`, lib.rs 1425-1447 -/
instance [Div S] : HDiv (Radians S) S (Radians S) := ⟨fun a k => ⟨a.val / k⟩⟩
/-- `Radians / Radians`, lib.rs 1449-1495 -/
instance [Div S] : HDiv (Radians S) (Radians S) S := ⟨fun a b => a.val / b.val⟩
/-- `Radians % Radians`, lib.rs 1497-1543 -/
instance [FRem S] : Mod (Radians S) := ⟨fun a b => ⟨frem a.val b.val⟩⟩
/-- `-Radians`, lib.rs 1545-1567 -/
instance [Neg S] : Neg (Radians S) := ⟨fun a => ⟨-a.val⟩⟩
/-- derived `PartialOrd`, lib.rs 577-578 -/
instance [LT S] : LT (Radians S) := ⟨fun a b => a.val < b.val⟩
instance [LT S] [DecidableLT S] : DecidableLT (Radians S) := fun a b =>
  inferInstanceAs (Decidable (a.val < b.val))

end RadOps

section DegOps

/-- `Degrees + Degrees`, lib.rs 991-1037 -/
instance [Add S] : Add (Degrees S) := ⟨fun a b => ⟨a.val + b.val⟩⟩
/-- `Degrees - Degrees`, lib.rs 1039-1085 -/
instance [Sub S] : Sub (Degrees S) := ⟨fun a b => ⟨a.val - b.val⟩⟩
/-- `Degrees * scalar`, lib.rs 1087-1109 -/
instance [Mul S] : HMul (Degrees S) S (Degrees S) := ⟨fun a k => ⟨a.val * k⟩⟩
/-- `Degrees / scalar`, lib.rs 1111-1133 -/
instance [Div S] : HDiv (Degrees S) S (Degrees S) := ⟨fun a k => ⟨a.val / k⟩⟩
/-- `Degrees / Degrees`, lib.rs 1135-1181 -/
instance [Div S] : HDiv (Degrees S) (Degrees S) S := ⟨fun a b => a.val / b.val⟩
/-- `Degrees % Degrees`, lib.rs 1183-1229 -/
instance [FRem S] : Mod (Degrees S) := ⟨fun a b => ⟨frem a.val b.val⟩⟩
/-- `-Degrees`, lib.rs 1231-1253 -/
instance [Neg S] : Neg (Degrees S) := ⟨fun a => ⟨-a.val⟩⟩
/-- derived `PartialOrd`, lib.rs 657-658 -/
instance [LT S] : LT (Degrees S) := ⟨fun a b => a.val < b.val⟩
instance [LT S] [DecidableLT S] : DecidableLT (Degrees S) := fun a b =>
  inferInstanceAs (Decidable (a.val < b.val))

end DegOps

namespace Radians

/-- `Radians += Radians`, lib.rs 1574-1576 -/
def addAssign [Add S] (a b : Radians S) : Radians S := ⟨a.val + b.val⟩
/-- `Radians -= Radians`, lib.rs 1584-1586 -/
def subAssign [Sub S] (a b : Radians S) : Radians S := ⟨a.val - b.val⟩
/-- `Radians *= scalar`, lib.rs 1594-1596 -/
def mulAssign [Mul S] (a : Radians S) (k : S) : Radians S := ⟨a.val * k⟩
/-- `Radians /= scalar`, lib.rs 1604-1606 -/
def divAssign [Div S] (a : Radians S) (k : S) : Radians S := ⟨a.val / k⟩
/-- `Radians %= Radians`, lib.rs 1614-1616 -/
def remAssign [FRem S] (a b : Radians S) : Radians S := ⟨frem a.val b.val⟩

/-- `From<Degrees<S>> for Radians<S>`, lib.rs 752-760. The factor `PI / 180` is computed in `f64` and then
cast; the model computes it in `S`. -/
def ofDegrees [Mul S] [Div S] [NatCast S] [FloatFns S] (d : Degrees S) : Radians S :=
  ⟨d.val * (fpi / ((180 : ℕ) : S))⟩

end Radians

namespace Degrees

/-- `Degrees += Degrees`, lib.rs 1260-1262 -/
def addAssign [Add S] (a b : Degrees S) : Degrees S := a + b
/-- `Degrees -= Degrees`, lib.rs 1270-1272 -/
def subAssign [Sub S] (a b : Degrees S) : Degrees S := a - b
/-- `Degrees *= scalar`, lib.rs 1280-1282 -/
def mulAssign [Mul S] (a : Degrees S) (k : S) : Degrees S := a * k
/-- `Degrees /= scalar`, lib.rs 1290-1292 -/
def divAssign [Div S] (a : Degrees S) (k : S) : Degrees S := a / k
/-- `Degrees %= Degrees`, lib.rs 1300-1302 -/
def remAssign [FRem S] (a b : Degrees S) : Degrees S := a % b

/-- `From<Radians<S>> for Degrees<S>`, lib.rs 762-770 -/
def ofRadians [Mul S] [Div S] [NatCast S] [FloatFns S] (r : Radians S) : Degrees S :=
  ⟨r.val * (((180 : ℕ) : S) / fpi)⟩

end Degrees

/-- `Angle for Radians`, lib.rs 1619-1674 -/
instance instAngleRadians [Zero S] [Mul S] [NatCast S] [FloatFns S] : Angle (Radians S) S where
  zero := ⟨0⟩
  fullTurn := ⟨((2 : ℕ) : S) * fpi⟩
  sin a := fsin a.val
  cos a := fcos a.val
  tan a := ftan a.val
  asin x := ⟨fasin x⟩
  acos x := ⟨facos x⟩
  atan x := ⟨fatan x⟩
  atan2 y x := ⟨fatan2 y x⟩

/-- `Angle for Degrees`, lib.rs 1676-1731: everything goes through the conversion to radians -/
instance instAngleDegrees [Zero S] [Mul S] [Div S] [NatCast S] [FloatFns S] : Angle (Degrees S) S where
  zero := ⟨0⟩
  fullTurn := ⟨((360 : ℕ) : S)⟩
  sin a := fsin (Radians.ofDegrees a).val
  cos a := fcos (Radians.ofDegrees a).val
  tan a := ftan (Radians.ofDegrees a).val
  asin x := Degrees.ofRadians ⟨fasin x⟩
  acos x := Degrees.ofRadians ⟨facos x⟩
  atan x := Degrees.ofRadians ⟨fatan x⟩
  atan2 y x := Degrees.ofRadians ⟨fatan2 y x⟩

namespace Angle

variable {A : Type*} [Angle A S]

/-- `sin_cos`, lib.rs 282-284 -/
def sinCos (a : A) : S × S := (sin a, cos a)

section
variable [HDiv A S A] [NatCast S]

/-- `full_turn_div_2`, lib.rs 308-311 -/
def fullTurnDiv2 : A := (fullTurn : A) / ((2 : ℕ) : S)
/-- `full_turn_div_4`, lib.rs 335-338 -/
def fullTurnDiv4 : A := (fullTurn : A) / ((4 : ℕ) : S)
/-- `full_turn_div_6`, lib.rs 362-365 -/
def fullTurnDiv6 : A := (fullTurn : A) / ((6 : ℕ) : S)
/-- `full_turn_div_8`, lib.rs 389-392 -/
def fullTurnDiv8 : A := (fullTurn : A) / ((8 : ℕ) : S)

end

variable [Add A] [Sub A] [HMul A S A] [HDiv A S A] [Mod A] [LT A] [DecidableLT A] [NatCast S] [One S]
  [Div S]

/-- `normalize`, lib.rs 413-420 -/
def normalize (a : A) : A :=
  let remainder := a % (fullTurn : A)
  if remainder < zero then remainder + fullTurn else remainder

/-- `normalize_signed`, lib.rs 441-448 -/
def normalizeSigned (a : A) : A :=
  let remainder := normalize a
  if remainder > fullTurnDiv2 then remainder - fullTurn else remainder

/-- `opposite`, lib.rs 469-471 -/
def opposite (a : A) : A := normalize (a + fullTurnDiv2)

/-- `bisect`, lib.rs 502-505 -/
def bisect (a other : A) : A :=
  let oneHalf : S := 1 / ((2 : ℕ) : S)
  normalize ((other - a) * oneHalf + a)

/-- `csc`, lib.rs 526-528 (`recip` is `1 / x`) -/
def csc (a : A) : S := 1 / sin a
/-- `cot`, lib.rs 548-550 -/
def cot (a : A) : S := 1 / tan a
/-- `sec`, lib.rs 570-572 -/
def sec (a : A) : S := 1 / cos a

end Angle
end Cgl
