import Verif
open Cgl

/-! Prelude of the generated conformance tests: the model's operation classes for `Float`/`Float32`, structural
comparison of results, and one name for each family of functions the model indexes by dimension. Not part of the
build: nothing here is used in a proof. -/

instance : Zero Float := ⟨0.0⟩
instance : One Float := ⟨1.0⟩
instance : Zero Float32 := ⟨0.0⟩
instance : One Float32 := ⟨1.0⟩
instance : Cgl.SAbs Float := ⟨Float.abs⟩
instance : Cgl.SAbs Float32 := ⟨Float32.abs⟩
instance : Max Float := ⟨fun a b => if a.isNaN then b else if b.isNaN then a else if a < b then b else a⟩
instance : Min Float := ⟨fun a b => if a.isNaN then b else if b.isNaN then a else if b < a then b else a⟩
instance : Max Float32 := ⟨fun a b => if a.isNaN then b else if b.isNaN then a else if a < b then b else a⟩
instance : Min Float32 := ⟨fun a b => if a.isNaN then b else if b.isNaN then a else if b < a then b else a⟩
namespace Conf
def trunc (x : Float) : Float := if x < 0 then x.ceil else x.floor
/-- `fmod` by repeated subtraction of scaled divisors (exact) -/
partial def fmodAux (x y m : Float) : Float :=
  if x < y then x else
    let rec grow (z : Float) : Float := if z * 2 ≤ m then grow (z * 2) else z
    let z := grow y
    fmodAux (x - z) y (x - z)
def fmod (x y : Float) : Float :=
  if x.isNaN || y.isNaN || x.isInf || y == 0 then 0.0 / 0.0
  else if y.isInf then x
  else let r := fmodAux x.abs y.abs x.abs; if x < 0 then -r else r
end Conf
instance : Cgl.FRem Float := ⟨Conf.fmod⟩
instance : Cgl.FRem Float32 := ⟨fun x y => (Conf.fmod x.toFloat y.toFloat).toFloat32⟩
instance : Mod Float := ⟨Conf.fmod⟩
instance : Mod Float32 := ⟨fun x y => (Conf.fmod x.toFloat y.toFloat).toFloat32⟩
namespace Conf
def pi : Float := 3.14159265358979323846264338327950288
end Conf
instance : Cgl.FloatFns Float where
  fsqrt := Float.sqrt
  fcbrt := Float.cbrt
  fsin := Float.sin
  fcos := Float.cos
  ftan := Float.tan
  fasin := Float.asin
  facos := Float.acos
  fatan := Float.atan
  fatan2 := Float.atan2
  fexp := Float.exp
  fln := Float.log
  fsinh := Float.sinh
  fcosh := Float.cosh
  fpowf := Float.pow
  ftrunc := Conf.trunc
  fpi := Conf.pi
  fexp2 := Float.exp2
  flog x b := x.log / b.log
  fln2 := 0.693147180559945309417232121458176568
  fln10 := 2.30258509299404568401799145468436421
  ftanh := Float.tanh
  ffracPi2 := 1.57079632679489661923132169163975144
  ffracPi4 := 0.785398163397448309615660845819875721
instance : Cgl.FloatFns Float32 where
  fsqrt := Float32.sqrt
  fcbrt := Float32.cbrt
  fsin := Float32.sin
  fcos := Float32.cos
  ftan := Float32.tan
  fasin := Float32.asin
  facos := Float32.acos
  fatan := Float32.atan
  fatan2 := Float32.atan2
  fexp := Float32.exp
  fln := Float32.log
  fsinh := Float32.sinh
  fcosh := Float32.cosh
  fpowf := Float32.pow
  ftrunc x := (Conf.trunc x.toFloat).toFloat32
  fpi := Conf.pi.toFloat32
  fexp2 := Float32.exp2
  flog x b := x.log / b.log
  fln2 := (0.693147180559945309417232121458176568 : Float).toFloat32
  fln10 := (2.30258509299404568401799145468436421 : Float).toFloat32
  ftanh := Float32.tanh
  ffracPi2 := (1.57079632679489661923132169163975144 : Float).toFloat32
  ffracPi4 := (0.785398163397448309615660845819875721 : Float).toFloat32
instance : Cgl.FloatSpecial Float where
  isNan := Float.isNaN
  isInfinite := Float.isInf
  isFinite := Float.isFinite
  fnan := 0.0 / 0.0
  finf := 1.0 / 0.0
  fneginf := -1.0 / 0.0
  fcopysign x y := if y.toBits &&& 0x8000000000000000 = 0 then x.abs else -x.abs
instance : Cgl.FloatSpecial Float32 where
  isNan := Float32.isNaN
  isInfinite := Float32.isInf
  isFinite := Float32.isFinite
  fnan := 0.0 / 0.0
  finf := 1.0 / 0.0
  fneginf := -1.0 / 0.0
  fcopysign x y := if y.toBits &&& 0x80000000 = 0 then x.abs else -x.abs

instance [Cgl.FloatFns S] [One S] [Add S] [Mul S] [Div S] : Inhabited (Radians S) := ⟨⟨fpi⟩⟩
instance [Inhabited S] : Inhabited (Vec S n) := ⟨⟨fun _ => default⟩⟩
instance [Inhabited S] : Inhabited (Mat S r c) := ⟨⟨fun _ _ => default⟩⟩
instance [Inhabited S] : Inhabited (Pt S n) := ⟨⟨default⟩⟩
instance [Inhabited S] : Inhabited (Quat S) := ⟨⟨default⟩⟩
instance [Inhabited S] : Inhabited (Cx S) := ⟨⟨default, default⟩⟩
instance [Inhabited S] : Inhabited (Translation S n) := ⟨⟨default⟩⟩
instance [Inhabited S] : Inhabited (Scale S n) := ⟨⟨default⟩⟩
instance [Inhabited S] : Inhabited (Rotation S n) := ⟨⟨default⟩⟩
instance [Inhabited S] : Inhabited (Transform S n) := ⟨⟨default⟩⟩
instance [Inhabited S] : Inhabited (Isometry S n) := ⟨⟨default, default⟩⟩
instance [Inhabited S] : Inhabited (Similarity S n) := ⟨⟨default, default⟩⟩
instance [Inhabited S] : Inhabited (Shear S n) := ⟨⟨default, default, default, default⟩⟩
instance [Inhabited S] : Inhabited (Unit' S) := ⟨⟨default⟩⟩

namespace Conf
/-- a model result that is a `Res` is unwrapped, as the test would panic otherwise -/
class Un (α : Type) (β : outParam Type) where un : α → β
export Un (un)
instance (priority := low) : Un α α := ⟨id⟩
instance [Inhabited α] : Un (Res α) α := ⟨fun r => match r with | .ok a => a | .error _ => panic! "model panics"⟩
instance [Inhabited α] : Un (Option (Res α)) α :=
  ⟨fun r => match r with | some (.ok a) => a | _ => panic! "model panics"⟩
instance [Inhabited α] : Un (Res (Option α)) α :=
  ⟨fun r => match r with | .ok (some a) => a | _ => panic! "model panics"⟩
class Unwrap (α : Type) (β : outParam Type) where unwrap : α → β
export Unwrap (unwrap)
instance [Inhabited α] : Unwrap (Option α) α := ⟨Option.get!⟩
instance [Inhabited α] : Unwrap (Res (Option α)) α :=
  ⟨fun r => match r with | .ok (some a) => a | _ => panic! "model panics"⟩

class Flat (α : Type) where flat : α → List Float
export Flat (flat)
instance : Flat Float := ⟨fun x => [x]⟩
instance : Flat Float32 := ⟨fun x => [x.toFloat]⟩
instance : Flat Int := ⟨fun x => [Float.ofInt x]⟩
instance : Flat Nat := ⟨fun x => [Float.ofNat x]⟩
instance : Flat Bool := ⟨fun b => [if b then 1 else 0]⟩
instance [Flat α] [Flat β] : Flat (α × β) := ⟨fun p => flat p.1 ++ flat p.2⟩
instance [Flat α] : Flat (Fin n → α) := ⟨fun f => (List.ofFn fun i => flat (f i)).flatten⟩
instance [Flat α] : Flat (List α) := ⟨fun l => (l.map flat).flatten⟩
instance [Flat α] : Flat (Option α) := ⟨fun | none => [] | some a => 1 :: flat a⟩
instance [Flat S] : Flat (Vec S n) := ⟨fun v => flat v.data⟩
instance [Flat S] : Flat (Pt S n) := ⟨fun v => flat v.coords⟩
instance [Flat S] : Flat (Mat S r c) := ⟨fun m => flat m.data⟩
instance [Flat S] : Flat (Quat S) := ⟨fun q => flat q.coords⟩
instance [Flat S] : Flat (Cx S) := ⟨fun q => flat (q.re, q.im)⟩
instance [Flat S] : Flat (Unit' S) := ⟨fun q => flat q.value⟩
instance [Flat S] : Flat (Radians S) := ⟨fun q => flat q.val⟩
instance [Flat S] : Flat (Degrees S) := ⟨fun q => flat q.val⟩
instance [Flat S] : Flat (Euler S) := ⟨fun q => flat (q.x, q.y, q.z)⟩
instance [Flat S] : Flat (Translation S n) := ⟨fun v => flat v.vector⟩
instance [Flat S] : Flat (Scale S n) := ⟨fun v => flat v.vector⟩
instance [Flat S] : Flat (Rotation S n) := ⟨fun v => flat v.matrix⟩
instance [Flat S] : Flat (Transform S n) := ⟨fun v => flat v.matrix⟩
instance [Flat S] : Flat (Isometry S n) := ⟨fun v => flat (v.rotation, v.translation)⟩
instance [Flat S] : Flat (Similarity S n) := ⟨fun v => flat (v.isometry, v.scale)⟩
instance [Flat S] : Flat (Shear S n) := ⟨fun v => flat (v.shearFactor, v.origin, v.direction, v.normal)⟩
instance [Flat S] : Flat (Reflection S n) := ⟨fun v => flat (v.bias, v.normal)⟩
instance [Flat S] : Flat (Orthographic3 S) := ⟨fun v => flat v.matrix⟩
instance [Flat S] : Flat (Perspective3 S) := ⟨fun v => flat v.matrix⟩
def eq {α : Type} [Flat α] (a b : α) : Bool := flat a == flat b
/-- `relative_eq!`: within the absolute tolerance, or within the relative one of the larger magnitude -/
def rel1 (ab re a b : Float) : Bool := a == b || (a - b).abs ≤ ab || (a - b).abs ≤ re * max a.abs b.abs
def rel {α τ : Type} [Flat α] [Flat τ] (a b : α) (ab re : τ) : Bool :=
  let x := flat a; let y := flat b
  let t := (flat ab).headD 0; let u := (flat re).headD 0
  x.length == y.length && (x.zip y).all fun p => rel1 t u p.1 p.2

class Idx (α : Type) (β : outParam Type) where idx : α → Nat → β
export Idx (idx)
instance [Inhabited S] : Idx (Vec S n) S := ⟨fun v i => un (v.index i)⟩
instance [Inhabited S] : Idx (Pt S n) S := ⟨fun v i => un (v.index i)⟩
instance [Inhabited S] : Idx (Quat S) S := ⟨fun v i => un (v.index i)⟩
instance [Inhabited S] : Idx (Cx S) S := ⟨fun v i => un (v.index i)⟩
instance [Inhabited S] : Idx (Mat S r c) (Vec S r) := ⟨fun v i => un (v.indexCol i)⟩
instance [Inhabited S] : Idx (Fin (n+1) → S) S := ⟨fun v i => if h : i < n + 1 then v ⟨i, h⟩ else default⟩
class F0 (α : Type) (β : outParam Type) where f0 : α → β
export F0 (f0)
instance : F0 (Radians S) S := ⟨Radians.val⟩
instance : F0 (Degrees S) S := ⟨Degrees.val⟩
instance : F0 (α × β) α := ⟨Prod.fst⟩
def f1 (p : α × β) : β := p.2
class ToRad (α : Type) (S : outParam Type) where toRadians : α → Radians S
export ToRad (toRadians)
instance : ToRad (Radians S) S := ⟨id⟩
instance [Mul S] [Div S] [NatCast S] [FloatFns S] : ToRad (Degrees S) S := ⟨Radians.ofDegrees⟩
class ToDeg (α : Type) (S : outParam Type) where toDegrees : α → Degrees S
export ToDeg (toDegrees)
instance : ToDeg (Degrees S) S := ⟨id⟩
instance [Mul S] [Div S] [NatCast S] [FloatFns S] : ToDeg (Radians S) S := ⟨Degrees.ofRadians⟩
def amap (v : Fin n → S) (f : S → T) : Fin n → T := fun i => f (v i)
class Mapp (α : Type) (S : outParam Type) (T : Type) (β : outParam Type) where map : α → (S → T) → β
export Mapp (map)
instance : Mapp (Fin n → S) S T (Fin n → T) := ⟨fun v f i => f (v i)⟩
instance : Mapp (Vec S n) S T (Vec T n) := ⟨fun v f => Vec.map f v⟩
instance : Mapp (Pt S n) S T (Pt T n) := ⟨fun v f => Pt.map f v⟩
instance [Inhabited T] : Mapp (Mat S r c) S T (Mat T r c) := ⟨fun v f => Mat.map default f v⟩
instance : Mapp (Quat S) S T (Quat T) := ⟨fun v f => Quat.map v f⟩
instance : Mapp (Cx S) S T (Cx T) := ⟨fun v f => Cx.map v f⟩
def rem [HMod α β γ] (a : α) (b : β) : γ := a % b
def range (a b : Int) (incl : Bool) : List Int := (List.range ((b - a).toNat + if incl then 1 else 0)).map fun i => a + (i : Int)
class Cast (α β : Type) where cast : α → β
export Cast (cast)
instance : Cast Int Float := ⟨Float.ofInt⟩
instance : Cast Nat Float := ⟨Float.ofNat⟩
instance : Cast Int Float32 := ⟨fun i => (Float.ofInt i).toFloat32⟩
class AsRef (α : Type) (β : outParam Type) where asRef : α → β
export AsRef (asRef)
instance : AsRef (Unit' T) T := ⟨Unit'.value⟩
class Arr (α : Type) (β : outParam Type) where arr : α → β
export Arr (arr)
instance : Arr (Vec S n) (Fin n → S) := ⟨Vec.toArray⟩
instance : Arr (Pt S n) (Fin n → S) := ⟨Pt.toArray⟩
instance : Arr (Quat S) (Fin 4 → S) := ⟨Quat.toArray⟩
instance [Inhabited S] : Arr (Cx S) (Fin 2 → S) := ⟨fun z => z.toArray.get!⟩
class Tup (α : Type) (β : outParam Type) where tup : α → β
export Tup (tup)
instance : Tup (Vec S 2) (S × S) := ⟨Vec.toTuple2⟩
instance : Tup (Vec S 3) (S × S × S) := ⟨Vec.toTuple3⟩
instance : Tup (Vec S 4) (S × S × S × S) := ⟨Vec.toTuple4⟩
class IdxR (α : Type) (β : outParam Type) where idxR : α → Nat → Res β
export IdxR (idxR)
instance : IdxR (Vec S n) S := ⟨fun v i => v.index i⟩
instance : IdxR (Pt S n) S := ⟨fun v i => v.index i⟩
instance : IdxR (Quat S) S := ⟨fun v i => v.index i⟩
instance [Inhabited S] : IdxR (Cx S) S := ⟨fun v i => (v.index i).get!⟩
instance : IdxR (Mat S r c) (Vec S r) := ⟨fun v i => v.indexCol i⟩
def pureR (a : α) : Res α := .ok a
def isPanic (r : Res α) : Bool := match r with | .ok _ => false | .error _ => true
class ToVec (α : Type) (β : Type) where toVec : α → β
export ToVec (toVec)
class Eps (S : Type) where
  eps : S
  slerpT : S
export Eps (eps slerpT)
/-- `S::default_epsilon()` of approx_cmp and the literal `0.0005` of quaternion.rs 2844 -/
instance : Eps Float := ⟨2.2204460492503131e-16, 0.0005⟩
instance : Eps Float32 := ⟨(1.1920929e-7 : Float).toFloat32, 0.0005⟩
/-- `ulps_eq!` with the default tolerances, by the absolute difference or four ulps -/
class Ulps (S : Type) where ulpsEq : S → S → Bool
export Ulps (ulpsEq)
instance : Ulps Float := ⟨fun a b => a == b || (a - b).abs ≤ eps ||
  ((decide (a < 0)) == (decide (b < 0)) && ((a.toBits.toNat : Int) - b.toBits.toNat).natAbs ≤ 4)⟩
instance : Ulps Float32 := ⟨fun a b => a == b || (a - b).abs ≤ eps ||
  ((decide (a < 0)) == (decide (b < 0)) && ((a.toBits.toNat : Int) - b.toBits.toNat).natAbs ≤ 4)⟩
class Consts (S : Type) where
  c_PI : S
  c_EPSILON : S
  c_FRAC_PI_2 : S
  c_FRAC_PI_3 : S
  c_FRAC_PI_4 : S
  c_FRAC_PI_6 : S
  c_FRAC_PI_8 : S
  c_SQRT_2 : S
  c_FRAC_1_SQRT_2 : S
  c_INFINITY : S
  c_NEG_INFINITY : S
  c_NAN : S
  c_MAX : S
  c_MIN_POSITIVE : S
  c_E : S
  c_LN_2 : S
  c_LN_10 : S
export Consts (c_PI c_EPSILON c_FRAC_PI_2 c_FRAC_PI_3 c_FRAC_PI_4 c_FRAC_PI_6 c_FRAC_PI_8 c_SQRT_2 c_FRAC_1_SQRT_2 c_INFINITY c_NEG_INFINITY
  c_NAN c_MAX c_MIN_POSITIVE c_E c_LN_2 c_LN_10)
instance : Consts Float where
  c_PI := pi
  c_EPSILON := eps
  c_FRAC_PI_2 := 1.57079632679489661923132169163975144
  c_FRAC_PI_3 := 1.04719755119659774615421446109316763
  c_FRAC_PI_4 := 0.785398163397448309615660845819875721
  c_FRAC_PI_6 := 0.52359877559829887307710723054658381
  c_FRAC_PI_8 := 0.39269908169872415480783042290993786
  c_SQRT_2 := 1.41421356237309504880168872420969808
  c_FRAC_1_SQRT_2 := 0.707106781186547524400844362104849039
  c_INFINITY := 1.0 / 0.0
  c_NEG_INFINITY := -1.0 / 0.0
  c_NAN := 0.0 / 0.0
  c_MAX := 1.7976931348623157e308
  c_MIN_POSITIVE := 2.2250738585072014e-308
  c_E := 2.71828182845904523536028747135266250
  c_LN_2 := fln2
  c_LN_10 := fln10
instance : Consts Float32 where
  c_PI := pi.toFloat32
  c_EPSILON := eps
  c_FRAC_PI_2 := 1.57079632679489661923132169163975144
  c_FRAC_PI_3 := 1.04719755119659774615421446109316763
  c_FRAC_PI_4 := 0.785398163397448309615660845819875721
  c_FRAC_PI_6 := 0.52359877559829887307710723054658381
  c_FRAC_PI_8 := 0.39269908169872415480783042290993786
  c_SQRT_2 := 1.41421356237309504880168872420969808
  c_FRAC_1_SQRT_2 := 0.707106781186547524400844362104849039
  c_INFINITY := 1.0 / 0.0
  c_NEG_INFINITY := -1.0 / 0.0
  c_NAN := 0.0 / 0.0
  c_MAX := 3.40282347e38
  c_MIN_POSITIVE := 1.17549435e-38
  c_E := 2.71828182845904523536028747135266250
  c_LN_2 := fln2
  c_LN_10 := fln10
end Conf
instance : NatCast Float := ⟨Float.ofNat⟩
instance : NatCast Float32 := ⟨Float32.ofNat⟩
instance [Mul S] [Div S] [NatCast S] [FloatFns S] : Coe (Degrees S) (Radians S) := ⟨Radians.ofDegrees⟩
open Conf
namespace Cgl
def Vec.x [Inhabited S] (v : Vec S n) : S := (v.field "x").get!
def Vec.y [Inhabited S] (v : Vec S n) : S := (v.field "y").get!
def Vec.z [Inhabited S] (v : Vec S n) : S := (v.field "z").get!
def Vec.w [Inhabited S] (v : Vec S n) : S := (v.field "w").get!
def Pt.x [Inhabited S] (v : Pt S n) : S := (v.field "x").get!
def Pt.y [Inhabited S] (v : Pt S n) : S := (v.field "y").get!
def Pt.z [Inhabited S] (v : Pt S n) : S := (v.field "z").get!
def Mat.c0r0 [Inhabited S] (m : Mat S R C) : S := (m.field "c0r0").get!
def Mat.c0r1 [Inhabited S] (m : Mat S R C) : S := (m.field "c0r1").get!
def Mat.c0r2 [Inhabited S] (m : Mat S R C) : S := (m.field "c0r2").get!
def Mat.c0r3 [Inhabited S] (m : Mat S R C) : S := (m.field "c0r3").get!
def Mat.c1r0 [Inhabited S] (m : Mat S R C) : S := (m.field "c1r0").get!
def Mat.c1r1 [Inhabited S] (m : Mat S R C) : S := (m.field "c1r1").get!
def Mat.c1r2 [Inhabited S] (m : Mat S R C) : S := (m.field "c1r2").get!
def Mat.c1r3 [Inhabited S] (m : Mat S R C) : S := (m.field "c1r3").get!
def Mat.c2r0 [Inhabited S] (m : Mat S R C) : S := (m.field "c2r0").get!
def Mat.c2r1 [Inhabited S] (m : Mat S R C) : S := (m.field "c2r1").get!
def Mat.c2r2 [Inhabited S] (m : Mat S R C) : S := (m.field "c2r2").get!
def Mat.c2r3 [Inhabited S] (m : Mat S R C) : S := (m.field "c2r3").get!
def Mat.c3r0 [Inhabited S] (m : Mat S R C) : S := (m.field "c3r0").get!
def Mat.c3r1 [Inhabited S] (m : Mat S R C) : S := (m.field "c3r1").get!
def Mat.c3r2 [Inhabited S] (m : Mat S R C) : S := (m.field "c3r2").get!
def Mat.c3r3 [Inhabited S] (m : Mat S R C) : S := (m.field "c3r3").get!
variable {S : Type}
section
variable [Zero S] [One S] [Add S] [Sub S] [Mul S] [Div S] [Neg S] [BEq S] [LE S] [DecidableLE S] [LT S] [DecidableLT S]
  [SAbs S] [FloatFns S] [Eps S] [Ulps S] [Inhabited S] [FloatSpecial S] [Max S] [Min S] [NatCast S]
class MatDim (S : Type) (n : Nat) where
  det : Mat S n n → S
  tryInv : Mat S n n → Option (Mat S n n)
  inv : Mat S n n → Res (Mat S n n)
  isInv : Mat S n n → Bool
instance : MatDim S 1 := ⟨Mat.determinant1, Mat.tryInverse1, Mat.inverse1, Mat.isInvertible1 ulpsEq⟩
instance : MatDim S 2 := ⟨Mat.determinant2, Mat.tryInverse2, Mat.inverse2, Mat.isInvertible2 ulpsEq⟩
instance : MatDim S 3 := ⟨Mat.determinant3, Mat.tryInverse3, Mat.inverse3, Mat.isInvertible3 ulpsEq⟩
instance : MatDim S 4 := ⟨Mat.determinant4, Mat.tryInverse4, Mat.inverse4, Mat.isInvertible4 ulpsEq⟩
class MatDet (S : Type) (n : Nat) where
  det : Mat S n n → S
instance : MatDet S 1 := ⟨Mat.determinant1⟩
instance : MatDet S 2 := ⟨Mat.determinant2⟩
instance : MatDet S 3 := ⟨Mat.determinant3⟩
instance : MatDet S 4 := ⟨Mat.determinant4⟩
def Mat.determinant [MatDet S n] (m : Mat S n n) : S := MatDet.det m
def Mat.tryInverse [MatDim S n] (m : Mat S n n) := MatDim.tryInv m
def Mat.inverse [MatDim S n] (m : Mat S n n) := MatDim.inv m
def Mat.isInvertible [MatDim S n] (m : Mat S n n) := MatDim.isInv m
def Mat.isDiagonalC (m : Mat S n n) : Bool := Mat.isDiagonal ulpsEq m
def Mat.isSymmetricC (m : Mat S n n) : Bool := Mat.isSymmetric ulpsEq m
def Quat.acosC (q : Quat S) := q.acos eps
def Quat.acoshC (q : Quat S) := q.acosh eps
def Quat.argC (q : Quat S) := q.arg eps
def Quat.asinC (q : Quat S) := q.asin eps
def Quat.asinhC (q : Quat S) := q.asinh eps
def Quat.atanC (q : Quat S) := q.atan eps
def Quat.atanhC (q : Quat S) := q.atanh eps
def Quat.expC (q : Quat S) := q.exp eps
def Quat.lnC (q : Quat S) := q.ln eps
def Quat.sqrtC (q : Quat S) := q.sqrt eps
def Quat.powfC (q : Quat S) (e : S) := q.powf eps e
def Quat.slerpC (q r : Quat S) (t : S) := q.slerp slerpT r t
def Quat.divLeftC (q r : Quat S) := q.divLeft eps r
def Quat.divRightC (q r : Quat S) := q.divRight eps r
def Quat.inverseC (q : Quat S) := q.inverse eps
def Quat.tryInverseC (q : Quat S) := q.tryInverse eps
def Quat.isInvertibleC (q : Quat S) := q.isInvertible eps
def Rotation.axis (r : Rotation S 3) := r.axis3 eps
def Rotation.axisAngle (r : Rotation S 3) := r.axisAngle3 eps
def Cx.isInvertibleC (z : Cx S) := z.isInvertible eps
class AffDim (T : Type) (A : outParam Type) (B : outParam Type) where
  aff : T → A
  tr : T → B
instance : AffDim (Reflection S 2) (Mat S 3 3) (Transform S 2) := ⟨Reflection.toAffineMatrix2, Reflection.toTransform2⟩
instance : AffDim (Reflection S 3) (Mat S 4 4) (Transform S 3) := ⟨Reflection.toAffineMatrix3, Reflection.toTransform3⟩
instance : AffDim (Shear S 2) (Mat S 3 3) (Transform S 2) := ⟨Shear.toAffineMatrix2, Shear.toTransform2⟩
instance : AffDim (Shear S 3) (Mat S 4 4) (Transform S 3) := ⟨Shear.toAffineMatrix3, Shear.toTransform3⟩
def Reflection.toAffineMatrix [AffDim (Reflection S n) A B] (r : Reflection S n) := AffDim.aff r
def Reflection.toTransform [AffDim (Reflection S n) A B] (r : Reflection S n) := AffDim.tr r
def Shear.toAffineMatrix [AffDim (Shear S n) A B] (r : Shear S n) := AffDim.aff r
def Shear.toTransform [AffDim (Shear S n) A B] (r : Shear S n) := AffDim.tr r
class RotAngle (n : Nat) (S : Type) where ang : Rotation S n → Radians S
instance : RotAngle 2 S := ⟨Rotation.angle2⟩
instance : RotAngle 3 S := ⟨Rotation.angle3⟩
def Rotation.angle [RotAngle n S] (r : Rotation S n) := RotAngle.ang r
end
def Mat.rowC [Inhabited S] (m : Mat S r c) (i : Nat) := m.row default i
instance [Zero S] [Neg S] : Neg (Unit' (Vec S n)) := ⟨Unit'.negVec⟩
end Cgl
def Float.ln := Float.log
def Float.isNan := Float.isNaN
def Float.isInfinite := Float.isInf
def Float.powi (x : Float) (n : Int) : Float := x.pow (Float.ofInt n)
def Float.powf := Float.pow
def Float.sabs := Float.abs
def Float.sinCos (x : Float) := (x.sin, x.cos)
def Cgl.Radians.sin (a : Radians Float) := Angle.sin a
def Cgl.Radians.cos (a : Radians Float) := Angle.cos a
def Cgl.Radians.tan (a : Radians Float) := Angle.tan a
def Cgl.Radians.sinCos (a : Radians Float) := Angle.sinCos a
def Cgl.Radians.sec (a : Radians Float) := Angle.sec a
def Cgl.Radians.csc (a : Radians Float) := Angle.csc a
def Cgl.Radians.cot (a : Radians Float) := Angle.cot a
def Cgl.Radians.normalize (a : Radians Float) := Angle.normalize a
def Cgl.Radians.normalizeSigned (a : Radians Float) := Angle.normalizeSigned a
def Cgl.Radians.opposite (a : Radians Float) := Angle.opposite a
def Cgl.Radians.bisect (a b : Radians Float) := Angle.bisect a b
def Cgl.Degrees.sin (a : Degrees Float) := Angle.sin a
def Cgl.Degrees.cos (a : Degrees Float) := Angle.cos a
def Cgl.Degrees.tan (a : Degrees Float) := Angle.tan a
def Cgl.Degrees.sinCos (a : Degrees Float) := Angle.sinCos a
def Cgl.Degrees.sec (a : Degrees Float) := Angle.sec a
def Cgl.Degrees.csc (a : Degrees Float) := Angle.csc a
def Cgl.Degrees.cot (a : Degrees Float) := Angle.cot a
def Cgl.Degrees.normalize (a : Degrees Float) := Angle.normalize a
def Cgl.Degrees.normalizeSigned (a : Degrees Float) := Angle.normalizeSigned a
def Cgl.Degrees.opposite (a : Degrees Float) := Angle.opposite a
def Cgl.Degrees.bisect (a b : Degrees Float) := Angle.bisect a b
def Float.expC := Float.exp
def Float.lnC := Float.log
def Cgl.Quat.v {S : Type} (q : Quat S) : Vec S 3 := ⟨fun i => q.coords.data i.succ⟩
def Cgl.Unit'.dot (a b : Unit' (Vec Float 3)) := a.value.dot b.value
