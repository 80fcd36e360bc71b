import Verif.Model.Quaternion

/-!
# Euler angles

Model of cglinalg_core/src/euler.rs and cglinalg_core/src/matrix_euler.rs. The `From` impls for values and
references are the same functions. `Display` is not modelled.
-/

namespace Cgl

variable {S A : Type*}

/-- `Euler<A>`, euler.rs 155-165: roll about x, yaw about y, pitch about z -/
@[ext] structure Euler (A : Type*) where
  x : A
  y : A
  z : A

namespace Euler

section Angle
variable [Zero S] [One S] [Add S] [Sub S] [Mul S] [Neg S] [Angle A S]

/-- `Euler::zero`, euler.rs 215-217 -/
def zero : Euler A := ⟨Angle.zero, Angle.zero, Angle.zero⟩
/-- `Euler::is_zero`, euler.rs 240-242; `isZeroA` is the `is_zero` of the angle type -/
def isZero (isZeroA : A → Bool) (e : Euler A) : Bool := isZeroA e.x && isZeroA e.y && isZeroA e.z

/-- `Euler::to_matrix`, euler.rs 331-353 (also `From<Euler> for Matrix3x3`, 522-542) -/
def toMatrix (e : Euler A) : Mat S 3 3 :=
  let (sinRoll, cosRoll) := Angle.sinCos e.x
  let (sinYaw, cosYaw) := Angle.sinCos e.y
  let (sinPitch, cosPitch) := Angle.sinCos e.z
  let c0r0 := cosYaw * cosPitch
  let c0r1 := cosRoll * sinPitch + cosPitch * sinYaw * sinRoll
  let c0r2 := sinPitch * sinRoll - cosPitch * cosRoll * sinYaw
  let c1r0 := -cosYaw * sinPitch
  let c1r1 := cosPitch * cosRoll - sinYaw * sinPitch * sinRoll
  let c1r2 := cosPitch * sinRoll + cosRoll * sinYaw * sinPitch
  let c2r0 := sinYaw
  let c2r1 := -cosYaw * sinRoll
  let c2r2 := cosYaw * cosRoll
  Mat.new3x3 c0r0 c0r1 c0r2 c1r0 c1r1 c1r2 c2r0 c2r1 c2r2

/-- `Euler::to_affine_matrix`, euler.rs 458-491 (also `From<Euler> for Matrix4x4`, 544-564) -/
def toAffineMatrix (e : Euler A) : Mat S 4 4 :=
  let (sinRoll, cosRoll) := Angle.sinCos e.x
  let (sinYaw, cosYaw) := Angle.sinCos e.y
  let (sinPitch, cosPitch) := Angle.sinCos e.z
  let c0r0 := cosYaw * cosPitch
  let c0r1 := cosRoll * sinPitch + cosPitch * sinYaw * sinRoll
  let c0r2 := sinPitch * sinRoll - cosPitch * cosRoll * sinYaw
  let c1r0 := -cosYaw * sinPitch
  let c1r1 := cosPitch * cosRoll - sinYaw * sinPitch * sinRoll
  let c1r2 := cosPitch * sinRoll + cosRoll * sinYaw * sinPitch
  let c2r0 := sinYaw
  let c2r1 := -cosYaw * sinRoll
  let c2r2 := cosYaw * cosRoll
  Mat.new4x4 c0r0 c0r1 c0r2 0 c1r0 c1r1 c1r2 0 c2r0 c2r1 c2r2 0 0 0 0 1

end Angle

section Radians
variable [Zero S] [One S] [Add S] [Sub S] [Mul S] [Div S] [Neg S] [NatCast S] [FloatFns S] [SAbs S]
  [BEq S]

/-- `Euler::from_matrix`, euler.rs 494-510 -/
def fromMatrix (matrix : Mat S 3 3) : Euler (Radians S) :=
  let yaw : Radians S := Angle.asin (matrix.data 2 0)
  let cosYaw : S := Angle.cos yaw
  let (pitch, roll) : Radians S × Radians S :=
    if sabs cosYaw == 0 then
      let pitch : Radians S := Angle.zero
      let roll : Radians S := Angle.atan2 (matrix.data 1 2) (matrix.data 1 1)
      (pitch, roll)
    else
      let pitch : Radians S := Angle.atan2 (-matrix.data 1 0) (matrix.data 0 0)
      let roll : Radians S := Angle.atan2 (-matrix.data 2 1) (matrix.data 2 2)
      (pitch, roll)
  ⟨roll, yaw, pitch⟩

/-- `From<Quaternion<S>> for Euler<Radians<S>>`, euler.rs 566-586 -/
def fromQuaternion (quaternion : Quat S) : Euler (Radians S) := fromMatrix quaternion.toMatrix

end Radians

end Euler

namespace Mat
variable [Zero S] [One S] [Add S] [Sub S] [Mul S] [Neg S] [NatCast S] [FloatFns S]

/-- `Matrix3x3::from_euler_angles`, matrix_euler.rs 62-73; `into` is the `Into<Radians<S>>` of the angle type -/
def fromEulerAngles3 (into : A → Radians S) (euler : Euler A) : Mat S 3 3 :=
  let eulerRadians : Euler (Radians S) := ⟨into euler.x, into euler.y, into euler.z⟩
  eulerRadians.toMatrix
/-- `Matrix4x4::from_euler_angles`, matrix_euler.rs 133-144 -/
def fromEulerAngles4 (into : A → Radians S) (euler : Euler A) : Mat S 4 4 :=
  let eulerRadians : Euler (Radians S) := ⟨into euler.x, into euler.y, into euler.z⟩
  eulerRadians.toAffineMatrix

end Mat

end Cgl
