import Verif.Model.Approx

/-!
# The reports of failed approximate comparisons

The traits `AssertAbsDiffEq`, `AssertRelativeEq`, `AssertUlpsEq` of `approx_cmp` and their `All` versions produce what
the assertion macros print: the difference of each pair of components, and the tolerance it was held against.  In every
type the functions of the three families have the same bodies up to the name of the scalar function they call, so the
model has three functions per type, parameterised by that scalar function:

* `debugDiff f`: `debug_abs_diff` and `debug_ulps_diff`;
* `debugTol g`: `debug_abs_diff_tolerance`, `debug_relative_tolerance`, `debug_ulps_tolerance`;
* `debugAllTol g`: `debug_abs_diff_all_tolerance`, `debug_relative_all_tolerance`, `debug_ulps_all_tolerance`.

The structures of reports (`RotationDiff`, `IsometryTol`, ...) have the fields of the type they belong to, and are
modelled as that type over the scalar report type `D`.  A report for a point or a quaternion is a vector.  The
implementation of the traits for arrays, in `approx_cmp`, is elementwise.
-/

namespace Cgl
variable {S T D : Type*} {n R C : ℕ} (f : S → S → D) (g : S → S → T → D)

/-- vector.rs 1248-1252, 1320-1324, 1410-1414, 1417-1421 -/
def Vec.debugDiff (x y : Vec S n) : Vec D n := ⟨fun i => f (x.data i) (y.data i)⟩
/-- vector.rs 1255-1259, 1327-1331, 1334-1338, 1424-1428, 1431-1435 -/
def Vec.debugTol (x y : Vec S n) (tol : Vec T n) : Vec D n := ⟨fun i => g (x.data i) (y.data i) (tol.data i)⟩
/-- vector.rs 1269-1273, 1348-1352, 1355-1359, 1446-1450, 1453-1457 -/
def Vec.debugAllTol (x y : Vec S n) (tol : T) : Vec D n := ⟨fun i => g (x.data i) (y.data i) tol⟩

/-- matrix.rs 8976-8980, 9057-9061, 9151-9155, 9158-9162 -/
def Mat.debugDiff (x y : Mat S R C) : Mat D R C := ⟨fun c r => f (x.data c r) (y.data c r)⟩
/-- matrix.rs 8983-8987, 9064-9068, 9071-9075, 9165-9169, 9172-9176 -/
def Mat.debugTol (x y : Mat S R C) (tol : Mat T R C) : Mat D R C :=
  ⟨fun c r => g (x.data c r) (y.data c r) (tol.data c r)⟩
/-- matrix.rs 8997-9001, 9085-9089, 9092-9096, 9187-9191, 9194-9198 -/
def Mat.debugAllTol (x y : Mat S R C) (tol : T) : Mat D R C := ⟨fun c r => g (x.data c r) (y.data c r) tol⟩

/-- point.rs 1040-1042, 1094-1096, 1162-1164, 1167-1169 -/
def Pt.debugDiff (x y : Pt S n) : Vec D n := x.coords.debugDiff f y.coords
/-- point.rs 1045-1047, 1099-1106, 1172-1179 -/
def Pt.debugTol (x y : Pt S n) (tol : Pt T n) : Vec D n := x.coords.debugTol g y.coords tol.coords
/-- point.rs 1057-1059, 1116-1123, 1190-1197 -/
def Pt.debugAllTol (x y : Pt S n) (tol : T) : Vec D n := x.coords.debugAllTol g y.coords tol

/-- complex.rs 3069-3074, 3134-3139, 3219-3232 -/
def Cx.debugDiff (x y : Cx S) : Cx D := ⟨f x.re y.re, f x.im y.im⟩
/-- complex.rs 3077-3082, 3142-3155, 3235-3248 -/
def Cx.debugTol (x y : Cx S) (tol : Cx T) : Cx D := ⟨g x.re y.re tol.re, g x.im y.im tol.im⟩
/-- complex.rs 3092-3097, 3165-3178, 3259-3272 -/
def Cx.debugAllTol (x y : Cx S) (tol : T) : Cx D := ⟨g x.re y.re tol, g x.im y.im tol⟩

/-- quaternion.rs 4437-4439, 4491-4493, 4559-4566 -/
def Quat.debugDiff (x y : Quat S) : Vec D 4 := x.coords.debugDiff f y.coords
/-- quaternion.rs 4442-4444, 4496-4503, 4569-4576 -/
def Quat.debugTol (x y : Quat S) (tol : Quat T) : Vec D 4 := x.coords.debugTol g y.coords tol.coords
/-- quaternion.rs 4454-4456, 4513-4520, 4587-4594 -/
def Quat.debugAllTol (x y : Quat S) (tol : T) : Vec D 4 := x.coords.debugAllTol g y.coords tol

/-- cglinalg_trigonometry/src/lib.rs 825-827, 879-881, 947-954 (macro, expanded for `Radians` and `Degrees`) -/
def Radians.debugDiff (x y : Radians S) : D := f x.val y.val
/-- lib.rs 830-832, 884-891, 957-964 -/
def Radians.debugTol (x y : Radians S) (tol : Radians T) : D := g x.val y.val tol.val
/-- lib.rs 842-844, 901-908, 975-982 -/
def Radians.debugAllTol (x y : Radians S) (tol : T) : D := g x.val y.val tol
/-- lib.rs 825-827, 879-881, 947-954 -/
def Degrees.debugDiff (x y : Degrees S) : D := f x.val y.val
/-- lib.rs 830-832, 884-891, 957-964 -/
def Degrees.debugTol (x y : Degrees S) (tol : Degrees T) : D := g x.val y.val tol.val
/-- lib.rs 842-844, 901-908, 975-982 -/
def Degrees.debugAllTol (x y : Degrees S) (tol : T) : D := g x.val y.val tol

/-- euler.rs 625-631, 695-701, 789-804 -/
def Euler.debugDiff (x y : Euler S) : Euler D := ⟨f x.x y.x, f x.y y.y, f x.z y.z⟩
/-- euler.rs 634-640, 704-719, 807-822 -/
def Euler.debugTol (x y : Euler S) (tol : Euler T) : Euler D := ⟨g x.x y.x tol.x, g x.y y.y tol.y, g x.z y.z tol.z⟩
/-- euler.rs 650-656, 729-744, 833-848 -/
def Euler.debugAllTol (x y : Euler S) (tol : T) : Euler D := ⟨g x.x y.x tol, g x.y y.y tol, g x.z y.z tol⟩

/-- translation.rs 931-935, 991-995, 1069-1080 -/
def Translation.debugDiff (x y : Translation S n) : Translation D n := ⟨x.vector.debugDiff f y.vector⟩
/-- translation.rs 938-942, 998-1009, 1083-1094 -/
def Translation.debugTol (x y : Translation S n) (tol : Translation T n) : Translation D n :=
  ⟨x.vector.debugTol g y.vector tol.vector⟩
/-- translation.rs 952-956, 1019-1030, 1105-1116 -/
def Translation.debugAllTol (x y : Translation S n) (tol : T) : Translation D n := ⟨x.vector.debugAllTol g y.vector tol⟩

/-- scale.rs 904-908, 964-968, 1041-1052 -/
def Scale.debugDiff (x y : Scale S n) : Scale D n := ⟨x.vector.debugDiff f y.vector⟩
/-- scale.rs 911-915, 971-982, 1055-1066 -/
def Scale.debugTol (x y : Scale S n) (tol : Scale T n) : Scale D n := ⟨x.vector.debugTol g y.vector tol.vector⟩
/-- scale.rs 925-929, 992-1003, 1077-1088 -/
def Scale.debugAllTol (x y : Scale S n) (tol : T) : Scale D n := ⟨x.vector.debugAllTol g y.vector tol⟩

/-- rotation.rs 1999-2003, 2059-2063, 2136-2147 -/
def Rotation.debugDiff (x y : Rotation S n) : Rotation D n := ⟨x.matrix.debugDiff f y.matrix⟩
/-- rotation.rs 2006-2010, 2066-2077, 2150-2161 -/
def Rotation.debugTol (x y : Rotation S n) (tol : Rotation T n) : Rotation D n :=
  ⟨x.matrix.debugTol g y.matrix tol.matrix⟩
/-- rotation.rs 2020-2024, 2087-2098, 2172-2183 -/
def Rotation.debugAllTol (x y : Rotation S n) (tol : T) : Rotation D n := ⟨x.matrix.debugAllTol g y.matrix tol⟩

/-- transform.rs 952-956, 1020-1024, 1105-1116 -/
def Transform.debugDiff (x y : Transform S n) : Transform D n := ⟨x.matrix.debugDiff f y.matrix⟩
/-- transform.rs 959-963, 1027-1038, 1119-1130 -/
def Transform.debugTol (x y : Transform S n) (tol : Transform T n) : Transform D n :=
  ⟨x.matrix.debugTol g y.matrix tol.matrix⟩
/-- transform.rs 975-979, 1050-1061, 1143-1154 -/
def Transform.debugAllTol (x y : Transform S n) (tol : T) : Transform D n := ⟨x.matrix.debugAllTol g y.matrix tol⟩

/-- projection.rs 2502-2506, 2562-2566, 2639-2650 -/
def Perspective3.debugDiff (x y : Perspective3 S) : Perspective3 D := ⟨x.matrix.debugDiff f y.matrix⟩
/-- projection.rs 2509-2513, 2569-2580, 2653-2664 -/
def Perspective3.debugTol (x y : Perspective3 S) (tol : Perspective3 T) : Perspective3 D :=
  ⟨x.matrix.debugTol g y.matrix tol.matrix⟩
/-- projection.rs 2523-2527, 2590-2601, 2675-2686 -/
def Perspective3.debugAllTol (x y : Perspective3 S) (tol : T) : Perspective3 D := ⟨x.matrix.debugAllTol g y.matrix tol⟩
/-- projection.rs 4313-4317, 4373-4377, 4450-4461 -/
def Orthographic3.debugDiff (x y : Orthographic3 S) : Orthographic3 D := ⟨x.matrix.debugDiff f y.matrix⟩
/-- projection.rs 4320-4324, 4380-4391, 4464-4475 -/
def Orthographic3.debugTol (x y : Orthographic3 S) (tol : Orthographic3 T) : Orthographic3 D :=
  ⟨x.matrix.debugTol g y.matrix tol.matrix⟩
/-- projection.rs 4334-4338, 4401-4412, 4486-4497 -/
def Orthographic3.debugAllTol (x y : Orthographic3 S) (tol : T) : Orthographic3 D := ⟨x.matrix.debugAllTol g y.matrix tol⟩

/-- isometry.rs 1853-1866, 1957-1970, 2091-2120 -/
def Isometry.debugDiff (x y : Isometry S n) : Isometry D n :=
  ⟨⟨x.rotation.matrix.debugDiff f y.rotation.matrix⟩, ⟨x.translation.vector.debugDiff f y.translation.vector⟩⟩
/-- isometry.rs 1869-1882, 1973-2002, 2123-2152 -/
def Isometry.debugTol (x y : Isometry S n) (tol : Isometry T n) : Isometry D n :=
  ⟨⟨x.rotation.matrix.debugTol g y.rotation.matrix tol.rotation.matrix⟩,
    ⟨x.translation.vector.debugTol g y.translation.vector tol.translation.vector⟩⟩
/-- isometry.rs 1892-1905, 2012-2041, 2163-2192 -/
def Isometry.debugAllTol (x y : Isometry S n) (tol : T) : Isometry D n :=
  ⟨⟨x.rotation.matrix.debugAllTol g y.rotation.matrix tol⟩,
    ⟨x.translation.vector.debugAllTol g y.translation.vector tol⟩⟩

/-- similarity.rs 1907-1925, 2032-2050, 2197-2236 -/
def Similarity.debugDiff (x y : Similarity S n) : Similarity D n :=
  ⟨⟨⟨x.isometry.rotation.matrix.debugDiff f y.isometry.rotation.matrix⟩,
    ⟨x.isometry.translation.vector.debugDiff f y.isometry.translation.vector⟩⟩, f x.scale y.scale⟩
/-- similarity.rs 1928-1946, 2053-2092, 2239-2278 -/
def Similarity.debugTol (x y : Similarity S n) (tol : Similarity T n) : Similarity D n :=
  ⟨⟨⟨x.isometry.rotation.matrix.debugTol g y.isometry.rotation.matrix tol.isometry.rotation.matrix⟩,
    ⟨x.isometry.translation.vector.debugTol g y.isometry.translation.vector tol.isometry.translation.vector⟩⟩,
    g x.scale y.scale tol.scale⟩
/-- similarity.rs 1956-1974, 2102-2141, 2289-2328 -/
def Similarity.debugAllTol (x y : Similarity S n) (tol : T) : Similarity D n :=
  ⟨⟨⟨x.isometry.rotation.matrix.debugAllTol g y.isometry.rotation.matrix tol⟩,
    ⟨x.isometry.translation.vector.debugAllTol g y.isometry.translation.vector tol⟩⟩, g x.scale y.scale tol⟩

/-- reflection.rs 968-973, 1033-1038, 1117-1130; the fields of the report are vectors in the code, as those of a point
are here -/
def Reflection.debugDiff (x y : Reflection S n) : Reflection D n :=
  ⟨x.normal.debugDiff f y.normal, ⟨x.bias.debugDiff f y.bias⟩⟩
/-- reflection.rs 976-981, 1041-1054, 1133-1146 -/
def Reflection.debugTol (x y : Reflection S n) (tol : Reflection T n) : Reflection D n :=
  ⟨x.normal.debugTol g y.normal tol.normal, ⟨x.bias.debugTol g y.bias tol.bias⟩⟩
/-- reflection.rs 991-996, 1064-1077, 1157-1170 -/
def Reflection.debugAllTol (x y : Reflection S n) (tol : T) : Reflection D n :=
  ⟨x.normal.debugAllTol g y.normal tol, ⟨x.bias.debugAllTol g y.bias tol⟩⟩

/-- shear.rs 2112-2135, 2257-2280, 2457-2506 -/
def Shear.debugDiff (x y : Shear S n) : Shear D n :=
  ⟨f x.shearFactor y.shearFactor, ⟨x.origin.debugDiff f y.origin⟩, x.direction.debugDiff f y.direction,
    x.normal.debugDiff f y.normal⟩
/-- shear.rs 2138-2161, 2283-2332, 2509-2558 -/
def Shear.debugTol (x y : Shear S n) (tol : Shear T n) : Shear D n :=
  ⟨g x.shearFactor y.shearFactor tol.shearFactor, ⟨x.origin.debugTol g y.origin tol.origin⟩,
    x.direction.debugTol g y.direction tol.direction, x.normal.debugTol g y.normal tol.normal⟩
/-- shear.rs 2171-2194, 2342-2391, 2569-2618 -/
def Shear.debugAllTol (x y : Shear S n) (tol : T) : Shear D n :=
  ⟨g x.shearFactor y.shearFactor tol, ⟨x.origin.debugAllTol g y.origin tol⟩,
    x.direction.debugAllTol g y.direction tol, x.normal.debugAllTol g y.normal tol⟩

/-! ### `Unit<T>`

The comparisons and reports of a unit wrapper are those of the wrapped value, with its tolerance types. -/

variable {V Tol All Rep : Type*}
/-- unit.rs 234-236, 288-290, 353-355, with `eq` the comparison of the wrapped type -/
def Unit'.approxEq (eq : V → V → Tol → Bool) (x y : Unit' V) (tol : Tol) : Bool := eq x.value y.value tol
/-- unit.rs 246-248, 300-302, 366-368 -/
def Unit'.approxAllEq (eq : V → V → All → Bool) (x y : Unit' V) (tol : All) : Bool := eq x.value y.value tol
/-- unit.rs 259-261, 313-315, 381-388 -/
def Unit'.debugDiff (f : V → V → Rep) (x y : Unit' V) : Rep := f x.value y.value
/-- unit.rs 264-266, 318-325, 391-398 -/
def Unit'.debugTol (g : V → V → Tol → Rep) (x y : Unit' V) (tol : Tol) : Rep := g x.value y.value tol
/-- unit.rs 276-278, 335-342, 409-416 -/
def Unit'.debugAllTol (g : V → V → All → Rep) (x y : Unit' V) (tol : All) : Rep := g x.value y.value tol

end Cgl
