import Verif.Model.Transform
import Verif.Model.Euler
import Verif.Model.Projection
import Verif.Model.Complex

/-!
# Approximate equality

Each type implements six traits of the `approx_cmp` crate: `AbsDiffEq`, `RelativeEq`, `UlpsEq` with a tolerance per
component, and `AbsDiffAllEq`, `RelativeAllEq`, `UlpsAllEq` with one tolerance for all components.  Apart from the
scalar comparison the bodies of the three families are the same (the one exception, `AbsDiffAllEq for Isometry`, is
modelled separately), so the model has one function per type and tolerance style, parameterised by the scalar
comparison `cmp`.  The two tolerances of `relative_eq` and `ulps_eq` are one value of `T` here.  The structures of
tolerances (`RotationTol`, `IsometryTol`, ...) have the fields of the type they belong to and are modelled as that type
over the scalar tolerance type.
-/

namespace Cgl

/-- `abs_diff_eq` on a scalar, from the crate `approx_cmp` (not part of the repository) -/
def absDiffEq {S : Type*} [Sub S] [SAbs S] [LE S] [DecidableLE S] (x y tol : S) : Bool := decide (sabs (x - y) ≤ tol)

/-- `relative_eq` on a scalar, from the crate `approx_cmp`: absolutely close, or close relative to the larger
magnitude.  The tolerance is the pair of `max_abs_diff` and `max_relative`. -/
def relativeEq {S : Type*} [Sub S] [Mul S] [SAbs S] [Max S] [LE S] [DecidableLE S] (x y : S) (tol : S × S) : Bool :=
  decide (sabs (x - y) ≤ tol.1) || decide (sabs (x - y) ≤ max (sabs x) (sabs y) * tol.2)

variable {S T : Type*} {n R C : ℕ} (cmp : S → S → T → Bool)

/-- `AbsDiffEq`, `RelativeEq`, `UlpsEq for Vector`, vector.rs 1211-1219, 1283-1291, 1370-1378 -/
def Vec.approxEq (x y : Vec S n) (tol : Vec T n) : Bool :=
  forRange n true (fun i result => result && cmp (x.data i) (y.data i) (tol.data i))
/-- `AbsDiffAllEq`, `RelativeAllEq`, `UlpsAllEq for Vector`, vector.rs 1229-1237, 1301-1309, 1389-1397 -/
def Vec.approxAllEq (x y : Vec S n) (tol : T) : Bool :=
  forRange n true (fun i result => result && cmp (x.data i) (y.data i) tol)

/-- matrix.rs 8935-8945, 9011-9026, 9107-9117 -/
def Mat.approxEq (x y : Mat S R C) (tol : Mat T R C) : Bool :=
  forRange C true (fun c result => forRange R result (fun r result =>
    result && cmp (x.data c r) (y.data c r) (tol.data c r)))
/-- matrix.rs 8955-8965, 9036-9046, 9128-9138 -/
def Mat.approxAllEq (x y : Mat S R C) (tol : T) : Bool :=
  forRange C true (fun c result => forRange R result (fun r result =>
    result && cmp (x.data c r) (y.data c r) tol))

/-- point.rs 1015-1017, 1069-1071, 1134-1136 -/
def Pt.approxEq (x y : Pt S n) (tol : Pt T n) : Bool := x.coords.approxEq cmp y.coords tol.coords
/-- point.rs 1027-1029, 1081-1083, 1147-1149 -/
def Pt.approxAllEq (x y : Pt S n) (tol : T) : Bool := x.coords.approxAllEq cmp y.coords tol

/-- complex.rs 3042-3045, 3107-3110, 3189-3192 -/
def Cx.approxEq (x y : Cx S) (tol : Cx T) : Bool := cmp x.re y.re tol.re && cmp x.im y.im tol.im
/-- complex.rs 3055-3058, 3120-3123, 3203-3206 -/
def Cx.approxAllEq (x y : Cx S) (tol : T) : Bool := cmp x.re y.re tol && cmp x.im y.im tol

/-- quaternion.rs 4412-4414, 4466-4468, 4531-4533 -/
def Quat.approxEq (x y : Quat S) (tol : Quat T) : Bool := x.coords.approxEq cmp y.coords tol.coords
/-- quaternion.rs 4424-4426, 4478-4480, 4544-4546 -/
def Quat.approxAllEq (x y : Quat S) (tol : T) : Bool := x.coords.approxAllEq cmp y.coords tol

/-- cglinalg_trigonometry/src/lib.rs 800-802 (macro, expanded for `Radians` and `Degrees`) -/
def Radians.approxEq (x y : Radians S) (tol : Radians T) : Bool := cmp x.val y.val tol.val
/-- lib.rs 812-814 -/
def Radians.approxAllEq (x y : Radians S) (tol : T) : Bool := cmp x.val y.val tol
/-- lib.rs 800-802 -/
def Degrees.approxEq (x y : Degrees S) (tol : Degrees T) : Bool := cmp x.val y.val tol.val
/-- lib.rs 812-814 -/
def Degrees.approxAllEq (x y : Degrees S) (tol : T) : Bool := cmp x.val y.val tol

/-- euler.rs 596-600, 666-670, 756-760 -/
def Euler.approxEq (x y : Euler S) (tol : Euler T) : Bool := cmp x.x y.x tol.x && cmp x.y y.y tol.y && cmp x.z y.z tol.z
/-- euler.rs 610-614, 680-684, 771-775 -/
def Euler.approxAllEq (x y : Euler S) (tol : T) : Bool := cmp x.x y.x tol && cmp x.y y.y tol && cmp x.z y.z tol

/-- translation.rs 906-908 -/
def Translation.approxEq (x y : Translation S n) (tol : Translation T n) : Bool := x.vector.approxEq cmp y.vector tol.vector
/-- translation.rs 918-920 -/
def Translation.approxAllEq (x y : Translation S n) (tol : T) : Bool := x.vector.approxAllEq cmp y.vector tol
/-- scale.rs 879-881 -/
def Scale.approxEq (x y : Scale S n) (tol : Scale T n) : Bool := x.vector.approxEq cmp y.vector tol.vector
/-- scale.rs 891-893 -/
def Scale.approxAllEq (x y : Scale S n) (tol : T) : Bool := x.vector.approxAllEq cmp y.vector tol
/-- rotation.rs 1974-1976 -/
def Rotation.approxEq (x y : Rotation S n) (tol : Rotation T n) : Bool := x.matrix.approxEq cmp y.matrix tol.matrix
/-- rotation.rs 1986-1988 -/
def Rotation.approxAllEq (x y : Rotation S n) (tol : T) : Bool := x.matrix.approxAllEq cmp y.matrix tol
/-- transform.rs 923-925 -/
def Transform.approxEq (x y : Transform S n) (tol : Transform T n) : Bool := x.matrix.approxEq cmp y.matrix tol.matrix
/-- transform.rs 937-939 -/
def Transform.approxAllEq (x y : Transform S n) (tol : T) : Bool := x.matrix.approxAllEq cmp y.matrix tol
/-- projection.rs 2477-2479 -/
def Perspective3.approxEq (x y : Perspective3 S) (tol : Perspective3 T) : Bool := x.matrix.approxEq cmp y.matrix tol.matrix
/-- projection.rs 2489-2491 -/
def Perspective3.approxAllEq (x y : Perspective3 S) (tol : T) : Bool := x.matrix.approxAllEq cmp y.matrix tol
/-- projection.rs 4288-4290 -/
def Orthographic3.approxEq (x y : Orthographic3 S) (tol : Orthographic3 T) : Bool := x.matrix.approxEq cmp y.matrix tol.matrix
/-- projection.rs 4300-4302 -/
def Orthographic3.approxAllEq (x y : Orthographic3 S) (tol : T) : Bool := x.matrix.approxAllEq cmp y.matrix tol

/-- `AbsDiffEq`, `RelativeEq`, `UlpsEq for Isometry`, isometry.rs 1819-1827, 1915-1928, 2051-2059 -/
def Isometry.approxEq (x y : Isometry S n) (tol : Isometry T n) : Bool :=
  x.rotation.matrix.approxEq cmp y.rotation.matrix tol.rotation.matrix &&
  x.translation.vector.approxEq cmp y.translation.vector tol.translation.vector
/-- `RelativeAllEq` and `UlpsAllEq for Isometry`, isometry.rs 1938-1946, 2070-2078 -/
def Isometry.approxAllEq (x y : Isometry S n) (tol : T) : Bool :=
  x.rotation.matrix.approxAllEq cmp y.rotation.matrix tol &&
  x.translation.vector.approxAllEq cmp y.translation.vector tol
/-- `AbsDiffAllEq for Isometry`, isometry.rs 1837-1842: compares the rotations only -/
def Isometry.absDiffAllEq (x y : Isometry S n) (tol : T) : Bool := x.rotation.matrix.approxAllEq cmp y.rotation.matrix tol

/-- similarity.rs 1864-1875, 1984-2000, 2151-2162 -/
def Similarity.approxEq (x y : Similarity S n) (tol : Similarity T n) : Bool :=
  x.isometry.rotation.matrix.approxEq cmp y.isometry.rotation.matrix tol.isometry.rotation.matrix &&
  x.isometry.translation.vector.approxEq cmp y.isometry.translation.vector tol.isometry.translation.vector &&
  cmp x.scale y.scale tol.scale
/-- similarity.rs 1885-1896, 2010-2021, 2173-2184 -/
def Similarity.approxAllEq (x y : Similarity S n) (tol : T) : Bool :=
  x.isometry.rotation.matrix.approxAllEq cmp y.isometry.rotation.matrix tol &&
  x.isometry.translation.vector.approxAllEq cmp y.isometry.translation.vector tol &&
  cmp x.scale y.scale tol

/-- reflection.rs 941-944, 1006-1009, 1087-1090 -/
def Reflection.approxEq (x y : Reflection S n) (tol : Reflection T n) : Bool :=
  x.normal.approxEq cmp y.normal tol.normal && x.bias.approxEq cmp y.bias tol.bias
/-- reflection.rs 954-957, 1019-1022, 1101-1104 -/
def Reflection.approxAllEq (x y : Reflection S n) (tol : T) : Bool :=
  x.normal.approxAllEq cmp y.normal tol && x.bias.approxAllEq cmp y.bias tol

/-- shear.rs 2063-2077, 2204-2222, 2401-2419 -/
def Shear.approxEq (x y : Shear S n) (tol : Shear T n) : Bool :=
  cmp x.shearFactor y.shearFactor tol.shearFactor && x.origin.approxEq cmp y.origin tol.origin &&
  x.direction.approxEq cmp y.direction tol.direction && x.normal.approxEq cmp y.normal tol.normal
/-- shear.rs 2087-2101, 2232-2246, 2430-2444 -/
def Shear.approxAllEq (x y : Shear S n) (tol : T) : Bool :=
  cmp x.shearFactor y.shearFactor tol && x.origin.approxAllEq cmp y.origin tol &&
  x.direction.approxAllEq cmp y.direction tol && x.normal.approxAllEq cmp y.normal tol

end Cgl
