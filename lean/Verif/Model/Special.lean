import Verif.Model.Quaternion
import Verif.Model.Complex
import Verif.Model.MatrixSq
import Verif.Model.Angle

/-! # Predicates for special floating-point values -/

namespace Cgl
variable {S : Type*} {n R C : ℕ} [FloatSpecial S]

/-- `Vector::is_finite`, cglinalg_core/src/vector.rs 813-821 -/
def Vec.isFinite (v : Vec S n) : Bool := forRange n true fun i result => result && FloatSpecial.isFinite (v.data i)

/-- `Matrix::is_finite`, cglinalg_core/src/matrix.rs 1144-1154 -/
def Mat.isFinite (m : Mat S R C) : Bool :=
  forRange C true fun c result => forRange R result fun r result => result && FloatSpecial.isFinite (m.data c r)

/-- `Quaternion::is_finite`, cglinalg_core/src/quaternion.rs 2931-2933 -/
def Quat.isFinite (q : Quat S) : Bool := FloatSpecial.isFinite q.scalar && q.vector.isFinite

/-- `Complex::is_finite`, cglinalg_core/src/complex.rs 648-650 -/
def Cx.isFinite (z : Cx S) : Bool := FloatSpecial.isFinite z.re && FloatSpecial.isFinite z.im

/-- `Complex::is_nan`, cglinalg_core/src/complex.rs 668-670 -/
def Cx.isNan (z : Cx S) : Bool := FloatSpecial.isNan z.re || FloatSpecial.isNan z.im

/-- `Complex::is_infinite`, cglinalg_core/src/complex.rs 687-689 -/
def Cx.isInfinite (z : Cx S) : Bool :=
  !z.isNan && (FloatSpecial.isInfinite z.re || FloatSpecial.isInfinite z.im)

/-- `Radians::is_finite`, cglinalg_trigonometry/src/lib.rs 650-652 -/
def Radians.isFinite (a : Radians S) : Bool := FloatSpecial.isFinite a.val

/-- `Degrees::is_finite`, cglinalg_trigonometry/src/lib.rs 729-731 -/
def Degrees.isFinite (a : Degrees S) : Bool := FloatSpecial.isFinite a.val

end Cgl
