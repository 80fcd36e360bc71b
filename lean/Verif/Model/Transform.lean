import Verif.Model.Euler
import Verif.Model.Projection

/-!
# Transformations

Model of cglinalg_transform/src/{translation, scale, rotation, isometry, isometry_ops, similarity, reflection,
shear, transform}.rs. Operators taking references are the same functions as the ones taking values; `Mul` with a
point or a vector is `apply_point` / `apply_vector` (each file's `Mul` impls), `From` into a matrix is
`to_affine_matrix`, `AsRef` and the getters return fields; none of these is repeated. `NPLUS1` is `n + 1`.
`Into<Radians<S>>` arguments are `Radians S`. `Display` is not modelled; `approx_cmp` is in
`Model/Approx.lean`.
-/

namespace Cgl

variable {S : Type*} {n : ℕ}

/-! ### general transformations -/

/-- `Transform`, transform.rs 36-42 -/
@[ext] structure Transform (S : Type*) (n : ℕ) where
  matrix : Mat S (n + 1) (n + 1)

namespace Transform

/-- `from_matrix_unchecked`, transform.rs 96-98 -/
def fromMatrixUnchecked (matrix : Mat S (n + 1) (n + 1)) : Transform S n := ⟨matrix⟩
/-- `to_matrix`, transform.rs 251-253 -/
def toMatrix (t : Transform S n) : Mat S (n + 1) (n + 1) := t.matrix

section
variable [Zero S] [One S] [Add S] [Mul S]

/-- `identity`, transform.rs 213-217 -/
def identity : Transform S n := ⟨Mat.identity⟩
/-- `apply_vector`, transform.rs 310-312 -/
def applyVector (t : Transform S n) (vector : Vec S n) : Vec S n := (t.matrix * vector.extend 0).contract
/-- `apply_point`, transform.rs 361-363: unwraps, so a vanishing homogeneous coordinate panics -/
def applyPoint [Div S] [BEq S] (t : Transform S n) (point : Pt S n) : Res (Pt S n) :=
  unwrap (Pt.fromHomogeneous (t.matrix * point.toHomogeneous))
/-- `Transform * Transform`, transform.rs 540-615 -/
def mul (t u : Transform S n) : Transform S n := ⟨t.matrix * u.matrix⟩
instance : Mul (Transform S n) := ⟨mul⟩

variable [Sub S] [Neg S] [Div S] [BEq S]

/-- `Transform2::try_inverse`, transform.rs 643-645 -/
def tryInverse2 (t : Transform S 2) : Option (Transform S 2) := t.matrix.tryInverse3.map fun matrix => ⟨matrix⟩
/-- `Transform2::inverse`, transform.rs 673-675 -/
def inverse2 (t : Transform S 2) : Res (Transform S 2) := unwrap t.tryInverse2
/-- `Transform2::inverse_apply_vector`, transform.rs 702-704 -/
def inverseApplyVector2 (t : Transform S 2) (vector : Vec S 2) : Option (Vec S 2) :=
  t.tryInverse2.map fun matrixInverse => matrixInverse.applyVector vector
/-- `Transform2::inverse_apply_point`, transform.rs 731-733; the application inside can panic -/
def inverseApplyPoint2 (t : Transform S 2) (point : Pt S 2) : Res (Option (Pt S 2)) :=
  match t.tryInverse2 with
  | some matrixInverse => (matrixInverse.applyPoint point).map some
  | none => .ok none
/-- `Transform3::try_inverse`, transform.rs 763-765 -/
def tryInverse3 (t : Transform S 3) : Option (Transform S 3) := t.matrix.tryInverse4.map fun matrix => ⟨matrix⟩
/-- `Transform3::inverse`, transform.rs 794-796 -/
def inverse3 (t : Transform S 3) : Res (Transform S 3) := unwrap t.tryInverse3
/-- `Transform3::inverse_apply_vector`, transform.rs 825-827 -/
def inverseApplyVector3 (t : Transform S 3) (vector : Vec S 3) : Option (Vec S 3) :=
  t.tryInverse3.map fun matrixInverse => matrixInverse.applyVector vector
/-- `Transform3::inverse_apply_point`, transform.rs 856-858 -/
def inverseApplyPoint3 (t : Transform S 3) (point : Pt S 3) : Res (Option (Pt S 3)) :=
  match t.tryInverse3 with
  | some matrixInverse => (matrixInverse.applyPoint point).map some
  | none => .ok none

end
end Transform

/-- `Perspective3::to_transform`, projection.rs 2306-2308 -/
def Perspective3.toTransform (p : Perspective3 S) : Transform S 3 := Transform.fromMatrixUnchecked p.matrix
/-- `Orthographic3::to_transform`, projection.rs 4118-4120 -/
def Orthographic3.toTransform (p : Orthographic3 S) : Transform S 3 := Transform.fromMatrixUnchecked p.matrix

/-! ### translations -/

/-- `Translation`, translation.rs 62-64 -/
@[ext] structure Translation (S : Type*) (n : ℕ) where
  vector : Vec S n

namespace Translation

/-- `from_vector`, translation.rs 108-110 -/
def fromVector (vector : Vec S n) : Translation S n := ⟨vector⟩
/-- `apply_vector`, translation.rs 342-344 -/
def applyVector (_ : Translation S n) (vector : Vec S n) : Vec S n := vector
/-- `inverse_apply_vector`, translation.rs 420-422 -/
def inverseApplyVector (_ : Translation S n) (vector : Vec S n) : Vec S n := vector
/-- `to_vector`, translation.rs 507-509 -/
def toVector (t : Translation S n) : Vec S n := t.vector
/-- `Translation2::new`, translation.rs 824-828 -/
def new2 (x y : S) : Translation S 2 := ⟨Vec.new2 x y⟩
/-- `Translation3::new`, translation.rs 855-859 -/
def new3 (x y z : S) : Translation S 3 := ⟨Vec.new3 x y z⟩

variable [Zero S]

/-- `between_vectors`, translation.rs 152-156 -/
def betweenVectors [Sub S] (vector1 vector2 : Vec S n) : Translation S n :=
  let distance := vector2 - vector1
  fromVector distance
/-- `between_points`, translation.rs 192-196 -/
def betweenPoints [Sub S] (point1 point2 : Pt S n) : Translation S n :=
  let distance : Vec S n := point2 - point1
  fromVector distance
/-- `inverse`, translation.rs 232-234 -/
def inverse [Neg S] (t : Translation S n) : Translation S n := fromVector (-t.vector)
/-- `inverse_mut`, translation.rs 264-266 -/
def inverseMut [Neg S] (t : Translation S n) : Translation S n := ⟨t.vector.negMut⟩
/-- `apply_point`, translation.rs 306-308 -/
def applyPoint [Add S] (t : Translation S n) (point : Pt S n) : Pt S n := point + t.vector
/-- `inverse_apply_point`, translation.rs 386-388 -/
def inverseApplyPoint [Sub S] (t : Translation S n) (point : Pt S n) : Pt S n := point - t.vector
/-- `identity`, translation.rs 451-453 -/
def identity : Translation S n := ⟨0⟩
/-- `to_affine_matrix`, translation.rs 555-563 -/
def toAffineMatrix [One S] (t : Translation S n) : Mat S (n + 1) (n + 1) :=
  ⟨forRange n (Mat.identity (N := n + 1)).data fun r result =>
    Mat.set result (Fin.last n) r.castSucc (t.vector.data r)⟩
/-- `to_transform`, translation.rs 608-610 -/
def toTransform [One S] (t : Translation S n) : Transform S n := Transform.fromMatrixUnchecked t.toAffineMatrix
/-- `Translation * Translation`, translation.rs 749-799 -/
def mul [Add S] (t u : Translation S n) : Translation S n := fromVector (t.vector + u.vector)
instance [Add S] : Mul (Translation S n) := ⟨mul⟩

end Translation

/-! ### scalings -/

/-- `Scale`, scale.rs 47-49 -/
@[ext] structure Scale (S : Type*) (n : ℕ) where
  vector : Vec S n

namespace Scale

/-- `from_nonuniform_scale`, scale.rs 87-89 -/
def fromNonuniformScale (vector : Vec S n) : Scale S n := ⟨vector⟩
/-- `from_scale`, scale.rs 123-127 -/
def fromScale (scale : S) : Scale S n := ⟨Vec.fromFill scale⟩
/-- `to_vector`, scale.rs 291-293 -/
def toVector (t : Scale S n) : Vec S n := t.vector
/-- `Scale2::new`, scale.rs 815-819 -/
def new2 (x y : S) : Scale S 2 := ⟨Vec.new2 x y⟩
/-- `Scale3::new`, scale.rs 828-832 -/
def new3 (x y z : S) : Scale S 3 := ⟨Vec.new3 x y z⟩

variable [Zero S]

/-- `apply_vector`, scale.rs 166-174 -/
def applyVector [Mul S] (t : Scale S n) (vector : Vec S n) : Vec S n :=
  ⟨forRange n (0 : Vec S n).data fun i result => Function.update result i (t.vector.data i * vector.data i)⟩
/-- `apply_point`, scale.rs 219-227 -/
def applyPoint [Mul S] (t : Scale S n) (point : Pt S n) : Pt S n :=
  ⟨⟨forRange n (Pt.origin : Pt S n).coords.data fun i result =>
    Function.update result i (t.vector.data i * point.coords.data i)⟩⟩
/-- `identity`, scale.rs 258-260 -/
def identity [One S] : Scale S n := fromScale 1
/-- `to_matrix`, scale.rs 341-343 -/
def toMatrix (t : Scale S n) : Mat S n n := Mat.fromDiagonal t.vector
/-- `inverse`, scale.rs 393-400 (`Vector::default()` is the zero vector) -/
def inverse [One S] [Div S] (t : Scale S n) : Scale S n :=
  ⟨⟨forRange n (0 : Vec S n).data fun i vector => Function.update vector i (1 / t.vector.data i)⟩⟩
/-- `inverse_apply_vector`, scale.rs 442-450 -/
def inverseApplyVector [Div S] (t : Scale S n) (vector : Vec S n) : Vec S n :=
  ⟨forRange n (0 : Vec S n).data fun i result => Function.update result i (vector.data i / t.vector.data i)⟩
/-- `inverse_apply_point`, scale.rs 498-506 -/
def inverseApplyPoint [Div S] (t : Scale S n) (point : Pt S n) : Pt S n :=
  ⟨⟨forRange n (Pt.origin : Pt S n).coords.data fun i result =>
    Function.update result i (point.coords.data i / t.vector.data i)⟩⟩
/-- `to_affine_matrix`, scale.rs 561-563 -/
def toAffineMatrix [One S] (t : Scale S n) : Mat S (n + 1) (n + 1) := Mat.fromAffineNonuniformScale t.vector
/-- `to_transform`, scale.rs 616-618 -/
def toTransform [One S] (t : Scale S n) : Transform S n := Transform.fromMatrixUnchecked t.toAffineMatrix
/-- `Scale * Scale`, scale.rs 752-806 -/
def mul [Mul S] (t u : Scale S n) : Scale S n :=
  let vector := t.vector.componentMul u.vector
  fromNonuniformScale vector
instance [Mul S] : Mul (Scale S n) := ⟨mul⟩

end Scale

/-! ### rotations -/

/-- `Rotation`, rotation.rs 53-56 -/
@[ext] structure Rotation (S : Type*) (n : ℕ) where
  matrix : Mat S n n

namespace Rotation

section
variable [Zero S]

/-- `inverse`, rotation.rs 160-164 -/
def inverse (t : Rotation S n) : Rotation S n := ⟨t.matrix.transpose⟩
/-- `inverse_mut`, rotation.rs 207-209; `transpose_mut` swaps bounds-checked entries -/
def inverseMut (t : Rotation S n) : Res (Rotation S n) := t.matrix.transposeMut.map fun matrix => ⟨matrix⟩
/-- `identity`, rotation.rs 450-454 -/
def identity [One S] : Rotation S n := ⟨Mat.identity⟩
/-- `to_matrix`, rotation.rs 502-504 -/
def toMatrix (t : Rotation S n) : Mat S n n := t.matrix
/-- `to_affine_matrix`, rotation.rs 568-570 -/
def toAffineMatrix [One S] (t : Rotation S n) : Mat S (n + 1) (n + 1) := Mat.embed n.lt_succ_self t.matrix
/-- `to_transform`, rotation.rs 632-634 -/
def toTransform [One S] (t : Rotation S n) : Transform S n := Transform.fromMatrixUnchecked t.toAffineMatrix

variable [Add S] [Mul S]

/-- `apply_vector`, rotation.rs 253-255 -/
def applyVector (t : Rotation S n) (vector : Vec S n) : Vec S n := t.matrix * vector
/-- `apply_point`, rotation.rs 300-305 -/
def applyPoint (t : Rotation S n) (point : Pt S n) : Pt S n :=
  let vector := point.toVector
  let result := t.matrix * vector
  Pt.fromVector result
/-- `inverse_apply_vector`, rotation.rs 355-359 -/
def inverseApplyVector (t : Rotation S n) (vector : Vec S n) : Vec S n :=
  let inverse := t.inverse
  inverse.matrix * vector
/-- `inverse_apply_point`, rotation.rs 410-416 -/
def inverseApplyPoint (t : Rotation S n) (point : Pt S n) : Pt S n :=
  let inverse := t.inverse
  let vector := point.toVector
  let result := inverse.matrix * vector
  Pt.fromVector result
/-- `Rotation * Rotation`, rotation.rs 775-833 -/
def mul (t u : Rotation S n) : Rotation S n := ⟨t.matrix * u.matrix⟩
instance : Mul (Rotation S n) := ⟨mul⟩

end

section Float
variable [Zero S] [One S] [Add S] [Sub S] [Mul S] [Div S] [Neg S] [NatCast S] [FloatFns S]

/-- `Rotation2::angle`, rotation.rs 857-859 -/
def angle2 (t : Rotation S 2) : Radians S := Angle.atan2 (t.matrix.data 0 1) (t.matrix.data 0 0)
/-- `Rotation2::from_angle`, rotation.rs 884-891 -/
def fromAngle2 (angle : Radians S) : Rotation S 2 := ⟨Mat.fromAngle2 angle⟩
/-- `Rotation2::rotation_between_axis`, rotation.rs 916-923 -/
def rotationBetweenAxis2 (a b : Unit' (Vec S 2)) : Rotation S 2 :=
  let unitA := a.value
  let unitB := b.value
  let cosAngle := unitA.dot unitB
  let sinAngle := unitA.data 0 * unitB.data 1 - unitA.data 1 * unitB.data 0
  fromAngle2 (Angle.atan2 sinAngle cosAngle)
/-- `Rotation2::rotation_between`, rotation.rs 947-953 -/
def rotationBetween2 [LT S] [DecidableLT S] (a b : Vec S 2) : Rotation S 2 :=
  match Unit'.tryFromValue a (0 : S), Unit'.tryFromValue b (0 : S) with
  | some unitA, some unitB => rotationBetweenAxis2 unitA unitB
  | _, _ => identity

/-- `Rotation3::angle`, rotation.rs 978-983 -/
def angle3 (t : Rotation S 3) : Radians S :=
  let two := ((2 : ℕ) : S)
  let traceSelf := t.matrix.data 0 0 + t.matrix.data 1 1 + t.matrix.data 2 2
  Angle.acos ((traceSelf - 1) / two)
/-- `Rotation3::axis`, rotation.rs 1029-1037; `eps` is `S::default_epsilon()` -/
def axis3 [LT S] [DecidableLT S] (eps : S) (t : Rotation S 3) : Option (Unit' (Vec S 3)) :=
  let axis := Vec.new3 (t.matrix.data 1 2 - t.matrix.data 2 1) (t.matrix.data 2 0 - t.matrix.data 0 2)
    (t.matrix.data 0 1 - t.matrix.data 1 0)
  Unit'.tryFromValue axis eps
/-- `Rotation3::axis_angle`, rotation.rs 1064-1066 -/
def axisAngle3 [LT S] [DecidableLT S] (eps : S) (t : Rotation S 3) : Option (Unit' (Vec S 3) × Radians S) :=
  (t.axis3 eps).map fun axis => (axis, t.angle3)
/-- `Rotation3::from_quaternion`, rotation.rs 1092-1096; also `From<Quaternion>`, 1856-1874 -/
def fromQuaternion (quaternion : Quat S) : Rotation S 3 := ⟨quaternion.toMatrix⟩
/-- `Rotation3::from_axis_angle`, rotation.rs 1130-1137 -/
def fromAxisAngle (axis : Unit' (Vec S 3)) (angle : Radians S) : Rotation S 3 := ⟨Mat.fromAxisAngle3 axis angle⟩
/-- `Rotation3::from_angle_x`, rotation.rs 1163-1168 -/
def fromAngleX (angle : Radians S) : Rotation S 3 := fromAxisAngle ⟨Vec.unitX3⟩ angle
/-- `Rotation3::from_angle_y`, rotation.rs 1194-1199 -/
def fromAngleY (angle : Radians S) : Rotation S 3 := fromAxisAngle ⟨Vec.unitY3⟩ angle
/-- `Rotation3::from_angle_z`, rotation.rs 1225-1230 -/
def fromAngleZ (angle : Radians S) : Rotation S 3 := fromAxisAngle ⟨Vec.unitZ3⟩ angle
/-- `Rotation3::look_to_lh`, rotation.rs 1264-1268 -/
def lookToLh (direction up : Vec S 3) : Rotation S 3 := ⟨Mat.lookToLh3 direction up⟩
/-- `Rotation3::look_to_rh`, rotation.rs 1302-1306 -/
def lookToRh (direction up : Vec S 3) : Rotation S 3 := ⟨Mat.lookToRh3 direction up⟩
/-- `Rotation3::look_at_lh`, rotation.rs 1339-1343 -/
def lookAtLh (eye target : Pt S 3) (up : Vec S 3) : Rotation S 3 := ⟨Mat.lookAtLh3 eye target up⟩
/-- `Rotation3::look_at_rh`, rotation.rs 1376-1380 -/
def lookAtRh (eye target : Pt S 3) (up : Vec S 3) : Rotation S 3 := ⟨Mat.lookAtRh3 eye target up⟩
/-- `Rotation3::look_to_lh_inv`, rotation.rs 1415-1419 -/
def lookToLhInv (direction up : Vec S 3) : Rotation S 3 := ⟨Mat.lookToLhInv3 direction up⟩
/-- `Rotation3::look_to_rh_inv`, rotation.rs 1454-1458 -/
def lookToRhInv (direction up : Vec S 3) : Rotation S 3 := ⟨Mat.lookToRhInv3 direction up⟩
/-- `Rotation3::look_at_lh_inv`, rotation.rs 1496-1500 -/
def lookAtLhInv (eye target : Pt S 3) (up : Vec S 3) : Rotation S 3 := ⟨Mat.lookAtLhInv3 eye target up⟩
/-- `Rotation3::look_at_rh_inv`, rotation.rs 1538-1542 -/
def lookAtRhInv (eye target : Pt S 3) (up : Vec S 3) : Rotation S 3 := ⟨Mat.lookAtRhInv3 eye target up⟩

section
variable [LE S] [DecidableLE S] [LT S] [DecidableLT S]

/-- `Rotation3::rotation_between`, rotation.rs 1566-1568; `threshold` is the one `Quaternion::rotation_between`
passes on -/
def rotationBetween (threshold : S) (v1 v2 : Vec S 3) : Option (Rotation S 3) :=
  (Quat.rotationBetween threshold v1 v2).map fun q => fromQuaternion q
/-- `Rotation3::rotation_between_axis`, rotation.rs 1593-1595 -/
def rotationBetweenAxis (threshold : S) (v1 v2 : Unit' (Vec S 3)) : Option (Rotation S 3) :=
  (Quat.rotationBetweenAxis threshold v1 v2).map fun q => fromQuaternion q
/-- `From<Rotation3<S>> for Quaternion<S>`, rotation.rs 1876-1906 -/
def toQuaternion (t : Rotation S 3) : Quat S :=
  let matrix := Mat.new3x3
    (t.matrix.data 0 0) (t.matrix.data 0 1) (t.matrix.data 0 2)
    (t.matrix.data 1 0) (t.matrix.data 1 1) (t.matrix.data 1 2)
    (t.matrix.data 2 0) (t.matrix.data 2 1) (t.matrix.data 2 2)
  Quat.fromMatrix matrix
end

/-- `Rotation3::from_euler_angles`, rotation.rs 1644-1657; also `From<Euler>`, 1908-1928 -/
def fromEulerAngles {A : Type*} (into : A → Radians S) (eulerAngles : Euler A) : Rotation S 3 :=
  let eulerRadians : Euler (Radians S) := ⟨into eulerAngles.x, into eulerAngles.y, into eulerAngles.z⟩
  ⟨eulerRadians.toMatrix⟩
/-- `Rotation3::euler_angles`, rotation.rs 1837-1853 -/
def eulerAngles [SAbs S] [BEq S] (t : Rotation S 3) : Euler (Radians S) :=
  let yaw : Radians S := Angle.asin (t.matrix.data 2 0)
  let cosYaw : S := Angle.cos yaw
  let (pitch, roll) : Radians S × Radians S :=
    if sabs cosYaw == 0 then
      let pitch : Radians S := Angle.zero
      let roll : Radians S := Angle.atan2 (t.matrix.data 1 2) (t.matrix.data 1 1)
      (pitch, roll)
    else
      let pitch : Radians S := Angle.atan2 (-t.matrix.data 1 0) (t.matrix.data 0 0)
      let roll : Radians S := Angle.atan2 (-t.matrix.data 2 1) (t.matrix.data 2 2)
      (pitch, roll)
  ⟨roll, yaw, pitch⟩

end Float
end Rotation

/-! ### isometries -/

/-- `Isometry`, isometry.rs 54-60 -/
@[ext] structure Isometry (S : Type*) (n : ℕ) where
  rotation : Rotation S n
  translation : Translation S n

namespace Isometry

/-- `from_parts`, isometry.rs 121-126 -/
def fromParts (translation : Translation S n) (rotation : Rotation S n) : Isometry S n := ⟨rotation, translation⟩

section
variable [Zero S]

/-- `from_translation`, isometry.rs 166-168 -/
def fromTranslation [One S] (translation : Translation S n) : Isometry S n :=
  fromParts translation Rotation.identity
/-- `from_rotation`, isometry.rs 214-216 -/
def fromRotation (rotation : Rotation S n) : Isometry S n := fromParts Translation.identity rotation
/-- `identity`, isometry.rs 683-688 -/
def identity [One S] : Isometry S n := ⟨Rotation.identity, Translation.identity⟩
/-- `to_affine_matrix`, isometry.rs 751-760 -/
def toAffineMatrix [One S] (t : Isometry S n) : Mat S (n + 1) (n + 1) :=
  let translation := t.translation.vector
  ⟨forRange n (Mat.embed n.lt_succ_self t.rotation.matrix).data fun i result =>
    Mat.set result (Fin.last n) i.castSucc (translation.data i)⟩
/-- `to_transform`, isometry.rs 821-825 -/
def toTransform [One S] (t : Isometry S n) : Transform S n := Transform.fromMatrixUnchecked t.toAffineMatrix

variable [Add S] [Mul S]

/-- `inverse`, isometry.rs 367-374 -/
def inverse [Neg S] (t : Isometry S n) : Isometry S n :=
  let rotation := t.rotation.inverse
  let distance := t.translation.vector
  let vector := rotation.applyVector (-distance)
  let translation := Translation.fromVector vector
  fromParts translation rotation
/-- `inverse_mut`, isometry.rs 426-430: three assignments in this order -/
def inverseMut [Neg S] (t : Isometry S n) : Res (Isometry S n) :=
  t.rotation.inverseMut.map fun rotation =>
    let translation := t.translation.inverseMut
    let translation : Translation S n := ⟨rotation.applyVector translation.vector⟩
    ⟨rotation, translation⟩
/-- `apply_point`, isometry.rs 482-486 -/
def applyPoint (t : Isometry S n) (point : Pt S n) : Pt S n :=
  let rotatedPoint := t.rotation.applyPoint point
  t.translation.applyPoint rotatedPoint
/-- `apply_vector`, isometry.rs 534-536 -/
def applyVector (t : Isometry S n) (vector : Vec S n) : Vec S n := t.rotation.applyVector vector
/-- `inverse_apply_point`, isometry.rs 591-593 -/
def inverseApplyPoint [Sub S] (t : Isometry S n) (point : Pt S n) : Pt S n :=
  t.rotation.inverseApplyPoint (point - t.translation.vector)
/-- `inverse_apply_vector`, isometry.rs 643-645 -/
def inverseApplyVector (t : Isometry S n) (vector : Vec S n) : Vec S n := t.rotation.inverseApplyVector vector

/-- `Isometry * Isometry`, isometry.rs 963-1033 -/
def mul (t u : Isometry S n) : Isometry S n :=
  let shift := t.rotation.applyVector u.translation.vector
  fromParts (Translation.fromVector (t.translation.vector + shift)) (t.rotation * u.rotation)
instance : Mul (Isometry S n) := ⟨mul⟩
/-- `Rotation * Translation`, isometry_ops.rs 14-72 -/
instance : HMul (Rotation S n) (Translation S n) (Isometry S n) := ⟨fun t u =>
  let distance := t.applyVector u.vector
  let translation := Translation.fromVector distance
  fromParts translation t⟩
/-- `Translation * Rotation`, isometry_ops.rs 74-120 -/
instance : HMul (Translation S n) (Rotation S n) (Isometry S n) := ⟨fun t u => fromParts t u⟩
/-- `Isometry * Translation`, isometry_ops.rs 122-184 -/
instance : HMul (Isometry S n) (Translation S n) (Isometry S n) := ⟨fun t u =>
  let newVector := t.translation.vector + t.rotation.applyVector u.vector
  let newTranslation := Translation.fromVector newVector
  fromParts newTranslation t.rotation⟩
/-- `Translation * Isometry`, isometry_ops.rs 186-240 -/
instance : HMul (Translation S n) (Isometry S n) (Isometry S n) := ⟨fun t u =>
  let newTranslation := t * u.translation
  fromParts newTranslation u.rotation⟩
/-- `Isometry * Rotation`, isometry_ops.rs 242-300 -/
instance : HMul (Isometry S n) (Rotation S n) (Isometry S n) := ⟨fun t u =>
  let newRotation := t.rotation * u
  fromParts t.translation newRotation⟩
/-- `Rotation * Isometry`, isometry_ops.rs 302-368 -/
instance : HMul (Rotation S n) (Isometry S n) (Isometry S n) := ⟨fun t u =>
  let distance := t.applyVector u.translation.vector
  let newTranslation := Translation.fromVector distance
  let newRotation := t * u.rotation
  fromParts newTranslation newRotation⟩

end

section Float
variable [Zero S] [One S] [Add S] [Sub S] [Mul S] [Div S] [Neg S] [NatCast S] [FloatFns S]

/-- `Isometry2::from_angle_translation`, isometry.rs 1066-1074 -/
def fromAngleTranslation2 (angle : Radians S) (distance : Vec S 2) : Isometry S 2 :=
  ⟨Rotation.fromAngle2 angle, Translation.fromVector distance⟩
/-- `Isometry2::from_angle`, isometry.rs 1094-1102 -/
def fromAngle2 (angle : Radians S) : Isometry S 2 :=
  let translation : Translation S 2 := Translation.identity
  let rotation := Rotation.fromAngle2 angle
  fromParts translation rotation
/-- `Isometry2::rotation_between_axis`, isometry.rs 1127-1134 -/
def rotationBetweenAxis2 (a b : Unit' (Vec S 2)) : Isometry S 2 :=
  let unitA := a.value
  let unitB := b.value
  let cosAngle := unitA.dot unitB
  let sinAngle := unitA.data 0 * unitB.data 1 - unitA.data 1 * unitB.data 0
  fromAngle2 (Angle.atan2 sinAngle cosAngle)
/-- `Isometry2::rotation_between`, isometry.rs 1158-1164 -/
def rotationBetween2 [LT S] [DecidableLT S] (a b : Vec S 2) : Isometry S 2 :=
  match Unit'.tryFromValue a (0 : S), Unit'.tryFromValue b (0 : S) with
  | some unitA, some unitB => rotationBetweenAxis2 unitA unitB
  | _, _ => identity

/-- `Isometry3::from_axis_angle_translation`, isometry.rs 1199-1207 -/
def fromAxisAngleTranslation (axis : Unit' (Vec S 3)) (angle : Radians S) (distance : Vec S 3) : Isometry S 3 :=
  ⟨Rotation.fromAxisAngle axis angle, Translation.fromVector distance⟩
/-- `Isometry3::from_axis_angle`, isometry.rs 1234-1242 -/
def fromAxisAngle (axis : Unit' (Vec S 3)) (angle : Radians S) : Isometry S 3 :=
  let translation : Translation S 3 := Translation.identity
  let rotation := Rotation.fromAxisAngle axis angle
  fromParts translation rotation
/-- `Isometry3::from_angle_x`, isometry.rs 1264-1272 -/
def fromAngleX (angle : Radians S) : Isometry S 3 :=
  let translation : Translation S 3 := Translation.identity
  let rotation := Rotation.fromAngleX angle
  fromParts translation rotation
/-- `Isometry3::from_angle_y`, isometry.rs 1294-1302 -/
def fromAngleY (angle : Radians S) : Isometry S 3 :=
  let translation : Translation S 3 := Translation.identity
  let rotation := Rotation.fromAngleY angle
  fromParts translation rotation
/-- `Isometry3::from_angle_z`, isometry.rs 1324-1332 -/
def fromAngleZ (angle : Radians S) : Isometry S 3 :=
  let translation : Translation S 3 := Translation.identity
  let rotation := Rotation.fromAngleZ angle
  fromParts translation rotation

section
variable [LE S] [DecidableLE S] [LT S] [DecidableLT S]

/-- `Isometry3::rotation_between_axis`, isometry.rs 1390-1395; `eps` is `S::default_epsilon()` -/
def rotationBetweenAxis (eps : S) (v1 v2 : Unit' (Vec S 3)) : Option (Isometry S 3) :=
  (Rotation.rotationBetweenAxis eps v1 v2).map fun rotation =>
    let translation : Translation S 3 := Translation.identity
    fromParts translation rotation
/-- `Isometry3::rotation_between`, isometry.rs 1356-1365 -/
def rotationBetween (eps : S) (v1 v2 : Vec S 3) : Option (Isometry S 3) :=
  match Unit'.tryFromValue v1 eps, Unit'.tryFromValue v2 eps with
  | some unitV1, some unitV2 => rotationBetweenAxis eps unitV1 unitV2
  | _, _ => none
end

/-- `Isometry3::look_to_lh`, isometry.rs 1440-1446 -/
def lookToLh (eye : Pt S 3) (direction up : Vec S 3) : Isometry S 3 :=
  let rotation := Rotation.lookToLh direction up
  let vector : Vec S 3 := rotation.applyPoint (-eye) - (Pt.origin : Pt S 3)
  let translation := Translation.fromVector vector
  fromParts translation rotation
/-- `Isometry3::look_to_rh`, isometry.rs 1491-1497 -/
def lookToRh (eye : Pt S 3) (direction up : Vec S 3) : Isometry S 3 :=
  let rotation := Rotation.lookToRh direction up
  let vector : Vec S 3 := rotation.applyPoint (-eye) - (Pt.origin : Pt S 3)
  let translation := Translation.fromVector vector
  fromParts translation rotation
/-- `Isometry3::look_at_lh`, isometry.rs 1542-1548 -/
def lookAtLh (eye target : Pt S 3) (up : Vec S 3) : Isometry S 3 :=
  let rotation := Rotation.lookAtLh eye target up
  let vector : Vec S 3 := rotation.applyPoint (-eye) - (Pt.origin : Pt S 3)
  let translation := Translation.fromVector vector
  fromParts translation rotation
/-- `Isometry3::look_at_rh`, isometry.rs 1593-1599 -/
def lookAtRh (eye target : Pt S 3) (up : Vec S 3) : Isometry S 3 :=
  let rotation := Rotation.lookAtRh eye target up
  let vector : Vec S 3 := rotation.applyPoint (-eye) - (Pt.origin : Pt S 3)
  let translation := Translation.fromVector vector
  fromParts translation rotation
/-- `Isometry3::look_to_lh_inv`, isometry.rs 1639-1645 -/
def lookToLhInv (eye : Pt S 3) (direction up : Vec S 3) : Isometry S 3 :=
  let rotation := Rotation.lookToLhInv direction up
  let vector : Vec S 3 := rotation.applyPoint (-eye) - (Pt.origin : Pt S 3)
  let translation := Translation.fromVector vector
  fromParts translation rotation
/-- `Isometry3::look_to_rh_inv`, isometry.rs 1684-1690 -/
def lookToRhInv (eye : Pt S 3) (direction up : Vec S 3) : Isometry S 3 :=
  let rotation := Rotation.lookToRhInv direction up
  let vector : Vec S 3 := rotation.applyPoint (-eye) - (Pt.origin : Pt S 3)
  let translation := Translation.fromVector vector
  fromParts translation rotation
/-- `Isometry3::look_at_lh_inv`, isometry.rs 1729-1735 -/
def lookAtLhInv (eye target : Pt S 3) (up : Vec S 3) : Isometry S 3 :=
  let rotation := Rotation.lookAtLhInv eye target up
  let vector : Vec S 3 := rotation.applyPoint (-eye) - (Pt.origin : Pt S 3)
  let translation := Translation.fromVector vector
  fromParts translation rotation
/-- `Isometry3::look_at_rh_inv`, isometry.rs 1774-1780 -/
def lookAtRhInv (eye target : Pt S 3) (up : Vec S 3) : Isometry S 3 :=
  let rotation := Rotation.lookAtRhInv eye target up
  let vector : Vec S 3 := rotation.applyPoint (-eye) - (Pt.origin : Pt S 3)
  let translation := Translation.fromVector vector
  fromParts translation rotation

end Float
end Isometry

/-! ### similarities -/

/-- `Similarity`, similarity.rs 41-45 -/
@[ext] structure Similarity (S : Type*) (n : ℕ) where
  isometry : Isometry S n
  scale : S

namespace Similarity

/-- `from_parts`, similarity.rs 113-117 -/
def fromParts (translation : Translation S n) (rotation : Rotation S n) (scale : S) : Similarity S n :=
  let isometry := Isometry.fromParts translation rotation
  ⟨isometry, scale⟩

section
variable [Zero S] [One S]

/-- `from_rotation`, similarity.rs 169-173 -/
def fromRotation (rotation : Rotation S n) : Similarity S n := ⟨Isometry.fromRotation rotation, 1⟩
/-- `from_scale`, similarity.rs 207-211 -/
def fromScale (scale : S) : Similarity S n := ⟨Isometry.identity, scale⟩
/-- `from_translation`, similarity.rs 253-257 -/
def fromTranslation (translation : Translation S n) : Similarity S n := ⟨Isometry.fromTranslation translation, 1⟩
/-- `from_isometry`, similarity.rs 315-320 -/
def fromIsometry (isometry : Isometry S n) : Similarity S n := ⟨isometry, 1⟩
/-- `rotation`, similarity.rs 422-424 -/
def rotation (t : Similarity S n) : Rotation S n := t.isometry.rotation
/-- `translation`, similarity.rs 474-476 -/
def translation (t : Similarity S n) : Translation S n := t.isometry.translation
/-- `identity`, similarity.rs 504-509 -/
def identity : Similarity S n := ⟨Isometry.identity, 1⟩

variable [Add S] [Mul S]

/-- `inverse_mut`, similarity.rs 653-657: the new scale is used in the last assignment -/
def inverseMut [Neg S] [Div S] (t : Similarity S n) : Res (Similarity S n) :=
  let scale := 1 / t.scale
  t.isometry.inverseMut.map fun isometry =>
    let isometry : Isometry S n := ⟨isometry.rotation, ⟨isometry.translation.vector.mulAssign scale⟩⟩
    ⟨isometry, scale⟩
/-- `inverse`, similarity.rs 580-585 -/
def inverse [Neg S] [Div S] (t : Similarity S n) : Res (Similarity S n) := t.inverseMut
/-- `inverse_apply_point`, similarity.rs 723-725 -/
def inverseApplyPoint [Sub S] [Div S] (t : Similarity S n) (point : Pt S n) : Pt S n :=
  t.isometry.inverseApplyPoint point / t.scale
/-- `inverse_apply_vector`, similarity.rs 790-792 -/
def inverseApplyVector [Div S] (t : Similarity S n) (vector : Vec S n) : Vec S n :=
  t.isometry.inverseApplyVector vector / t.scale
/-- `apply_point`, similarity.rs 859-863 -/
def applyPoint (t : Similarity S n) (point : Pt S n) : Pt S n :=
  let scaledPoint := point * t.scale
  t.isometry.applyPoint scaledPoint
/-- `apply_vector`, similarity.rs 929-933 -/
def applyVector (t : Similarity S n) (vector : Vec S n) : Vec S n :=
  let scaledVector := vector * t.scale
  t.isometry.applyVector scaledVector
/-- `to_affine_matrix`, similarity.rs 1015-1027; `scale_mut`, matrix.rs 1977-1979, is `*self = self.scale(..)` -/
def toAffineMatrix (t : Similarity S n) : Mat S (n + 1) (n + 1) :=
  let translation := t.isometry.translation.vector
  let scale := t.scale
  let rotation := t.isometry.rotation.matrix * scale
  ⟨forRange n (Mat.embed n.lt_succ_self rotation).data fun i result =>
    Mat.set result (Fin.last n) i.castSucc (translation.data i)⟩
/-- `to_transform`, similarity.rs 1094-1098 -/
def toTransform (t : Similarity S n) : Transform S n := Transform.fromMatrixUnchecked t.toAffineMatrix
/-- `Similarity * Isometry`, similarity.rs 1236-1302 -/
instance : HMul (Similarity S n) (Isometry S n) (Similarity S n) := ⟨fun t u =>
  let shift := t.isometry.rotation.applyVector u.translation.vector * t.scale
  let translation := Translation.fromVector (t.isometry.translation.vector + shift)
  let rotation := t.isometry.rotation * u.rotation
  fromParts translation rotation t.scale⟩
/-- `Similarity * Similarity`, similarity.rs 1304-1366 -/
def mul (t u : Similarity S n) : Similarity S n :=
  let result : Similarity S n := t * u.isometry
  ⟨result.isometry, result.scale * u.scale⟩
instance : Mul (Similarity S n) := ⟨mul⟩

end

section Float
variable [Zero S] [One S] [Add S] [Sub S] [Mul S] [Div S] [Neg S] [NatCast S] [FloatFns S]

/-- `Similarity2::from_angle`, similarity.rs 1394-1402 -/
def fromAngle2 (angle : Radians S) : Similarity S 2 := ⟨Isometry.fromAngle2 angle, 1⟩
/-- `Similarity3::from_axis_angle`, similarity.rs 1434-1442 -/
def fromAxisAngle (axis : Unit' (Vec S 3)) (angle : Radians S) : Similarity S 3 :=
  ⟨Isometry.fromAxisAngle axis angle, 1⟩
/-- `Similarity3::look_to_lh`, similarity.rs 1488-1492 -/
def lookToLh (eye : Pt S 3) (direction up : Vec S 3) : Similarity S 3 :=
  fromIsometry (Isometry.lookToLh eye direction up)
/-- `Similarity3::look_to_rh`, similarity.rs 1538-1542 -/
def lookToRh (eye : Pt S 3) (direction up : Vec S 3) : Similarity S 3 :=
  fromIsometry (Isometry.lookToRh eye direction up)
/-- `Similarity3::look_at_lh`, similarity.rs 1590-1594 -/
def lookAtLh (eye target : Pt S 3) (up : Vec S 3) : Similarity S 3 :=
  fromIsometry (Isometry.lookAtLh eye target up)
/-- `Similarity3::look_at_rh`, similarity.rs 1639-1643 -/
def lookAtRh (eye target : Pt S 3) (up : Vec S 3) : Similarity S 3 :=
  fromIsometry (Isometry.lookAtRh eye target up)
/-- `Similarity3::look_to_lh_inv`, similarity.rs 1682-1686 -/
def lookToLhInv (eye : Pt S 3) (direction up : Vec S 3) : Similarity S 3 :=
  fromIsometry (Isometry.lookToLhInv eye direction up)
/-- `Similarity3::look_to_rh_inv`, similarity.rs 1725-1729 -/
def lookToRhInv (eye : Pt S 3) (direction up : Vec S 3) : Similarity S 3 :=
  fromIsometry (Isometry.lookToRhInv eye direction up)
/-- `Similarity3::look_at_lh_inv`, similarity.rs 1768-1772 -/
def lookAtLhInv (eye target : Pt S 3) (up : Vec S 3) : Similarity S 3 :=
  fromIsometry (Isometry.lookAtLhInv eye target up)
/-- `Similarity3::look_at_rh_inv`, similarity.rs 1811-1815 -/
def lookAtRhInv (eye target : Pt S 3) (up : Vec S 3) : Similarity S 3 :=
  fromIsometry (Isometry.lookAtRhInv eye target up)

end Float
end Similarity

/-! ### reflections -/

/-- `Reflection`, reflection.rs 36-39 -/
@[ext] structure Reflection (S : Type*) (n : ℕ) where
  normal : Vec S n
  bias : Pt S n

namespace Reflection

/-- `from_normal_bias`, reflection.rs 99-104 -/
def fromNormalBias (normal : Unit' (Vec S n)) (bias : Pt S n) : Reflection S n := ⟨normal.value, bias⟩
/-- `inverse`, reflection.rs 603-605 -/
def inverse (t : Reflection S n) : Reflection S n := t

variable [Zero S] [One S] [Add S] [Sub S] [Mul S]

/-- `apply_vector`, reflection.rs 313-319 -/
def applyVector (t : Reflection S n) (vector : Vec S n) : Vec S n :=
  let two : S := 1 + 1
  let factor := vector.dot t.normal * two
  vector - t.normal * factor
/-- `apply_point`, reflection.rs 426-432 -/
def applyPoint (t : Reflection S n) (point : Pt S n) : Pt S n :=
  let two : S := 1 + 1
  let factor := (point - t.bias).dot t.normal * two
  point - t.normal * factor
/-- `inverse_apply_vector`, reflection.rs 481-483 -/
def inverseApplyVector (t : Reflection S n) (vector : Vec S n) : Vec S n := t.applyVector vector
/-- `inverse_apply_point`, reflection.rs 532-534 -/
def inverseApplyPoint (t : Reflection S n) (point : Pt S n) : Pt S n := t.applyPoint point
/-- `Reflection2::to_affine_matrix`, reflection.rs 746-750 -/
def toAffineMatrix2 [Neg S] (t : Reflection S 2) : Mat S 3 3 := Mat.fromAffineReflection3 ⟨t.normal⟩ t.bias
/-- `Reflection2::to_transform`, reflection.rs 783-785 -/
def toTransform2 [Neg S] (t : Reflection S 2) : Transform S 2 := Transform.fromMatrixUnchecked t.toAffineMatrix2
/-- `Reflection3::to_affine_matrix`, reflection.rs 842-846 -/
def toAffineMatrix3 [Neg S] (t : Reflection S 3) : Mat S 4 4 := Mat.fromAffineReflection4 ⟨t.normal⟩ t.bias
/-- `Reflection3::to_transform`, reflection.rs 880-882 -/
def toTransform3 [Neg S] (t : Reflection S 3) : Transform S 3 := Transform.fromMatrixUnchecked t.toAffineMatrix3

end Reflection

/-! ### shears -/

/-- `Shear`, shear.rs 38-43 -/
@[ext] structure Shear (S : Type*) (n : ℕ) where
  shearFactor : S
  origin : Pt S n
  direction : Vec S n
  normal : Vec S n

namespace Shear

section
variable [Zero S] [Add S] [Sub S] [Mul S]

/-- `apply_vector`, shear.rs 324-329: subtracts the origin from the *vector* -/
def applyVector (t : Shear S n) (vector : Vec S n) : Vec S n :=
  let origin := t.origin.toVector
  let factor := t.shearFactor * (vector - origin).dot t.normal
  vector + t.direction * factor
/-- `apply_point`, shear.rs 406-410 -/
def applyPoint (t : Shear S n) (point : Pt S n) : Pt S n :=
  let factor := t.shearFactor * (point - t.origin).dot t.normal
  point + t.direction * factor
/-- `identity`, shear.rs 461-473; the index `N - 1` and the index `0` are in range only when `N > 0` -/
def identity [One S] : Res (Shear S n) :=
  (writeAt (0 : Vec S n).data 0 1).bind fun direction =>
    (writeAt (0 : Vec S n).data (n - 1) 1).map fun normal =>
      ⟨0, Pt.origin, ⟨direction⟩, ⟨normal⟩⟩
/-- `inverse`, shear.rs 612-619 -/
def inverse [Neg S] (t : Shear S n) : Shear S n := ⟨-t.shearFactor, t.origin, t.direction, t.normal⟩
/-- `inverse_apply_vector`, shear.rs 697-702 -/
def inverseApplyVector (t : Shear S n) (vector : Vec S n) : Vec S n :=
  let origin := t.origin.toVector
  let factor := t.shearFactor * (vector - origin).dot t.normal
  vector - t.direction * factor
/-- `inverse_apply_point`, shear.rs 782-786 -/
def inverseApplyPoint (t : Shear S n) (point : Pt S n) : Pt S n :=
  let factor := t.shearFactor * (point - t.origin).dot t.normal
  point - t.direction * factor
end

/-- `from_shear`, shear.rs 919-926 -/
def fromShear [Zero S] (shearFactor : S) (direction normal : Unit' (Vec S n)) : Shear S n :=
  ⟨shearFactor, Pt.origin, direction.value, normal.value⟩
/-- `from_affine_shear`, shear.rs 1105-1112 -/
def fromAffineShear (shearFactor : S) (origin : Pt S n) (direction normal : Unit' (Vec S n)) : Shear S n :=
  ⟨shearFactor, origin, direction.value, normal.value⟩

section
variable [Zero S] [One S]

/-- `Shear2::from_shear_xy`, shear.rs 1268-1275 -/
def fromShearXY2 (k : S) : Shear S 2 := ⟨k, Pt.origin, Vec.unitX2, Vec.unitY2⟩
/-- `Shear2::from_shear_yx`, shear.rs 1316-1323 -/
def fromShearYX2 (k : S) : Shear S 2 := ⟨k, Pt.origin, Vec.unitY2, Vec.unitX2⟩
/-- `Shear3::from_shear_xy`, shear.rs 1550-1557 -/
def fromShearXY3 (k : S) : Shear S 3 := ⟨k, Pt.origin, Vec.unitX3, Vec.unitY3⟩
/-- `Shear3::from_shear_xz`, shear.rs 1608-1615 -/
def fromShearXZ3 (k : S) : Shear S 3 := ⟨k, Pt.origin, Vec.unitX3, Vec.unitZ3⟩
/-- `Shear3::from_shear_yx`, shear.rs 1666-1673 -/
def fromShearYX3 (k : S) : Shear S 3 := ⟨k, Pt.origin, Vec.unitY3, Vec.unitX3⟩
/-- `Shear3::from_shear_yz`, shear.rs 1724-1731 -/
def fromShearYZ3 (k : S) : Shear S 3 := ⟨k, Pt.origin, Vec.unitY3, Vec.unitZ3⟩
/-- `Shear3::from_shear_zx`, shear.rs 1782-1789 -/
def fromShearZX3 (k : S) : Shear S 3 := ⟨k, Pt.origin, Vec.unitZ3, Vec.unitX3⟩
/-- `Shear3::from_shear_zy`, shear.rs 1840-1847 -/
def fromShearZY3 (k : S) : Shear S 3 := ⟨k, Pt.origin, Vec.unitZ3, Vec.unitY3⟩

variable [Add S] [Mul S] [Neg S] [Div S] [FloatFns S]

/-- `Shear2::to_affine_matrix`, shear.rs 1372-1377 -/
def toAffineMatrix2 (t : Shear S 2) : Mat S 3 3 :=
  let direction := Unit'.fromValue t.direction
  let normal := Unit'.fromValue t.normal
  Mat.fromAffineShear3 t.shearFactor t.origin direction normal
/-- `Shear2::to_transform`, shear.rs 1411-1413 -/
def toTransform2 (t : Shear S 2) : Transform S 2 := Transform.fromMatrixUnchecked t.toAffineMatrix2
/-- `Shear2 * Shear2`, shear.rs 1436-1494 -/
def mul2 (t u : Shear S 2) : Transform S 2 := t.toTransform2 * u.toTransform2
/-- `Shear3::to_affine_matrix`, shear.rs 1887-1892 -/
def toAffineMatrix3 (t : Shear S 3) : Mat S 4 4 :=
  let direction := Unit'.fromValue t.direction
  let normal := Unit'.fromValue t.normal
  Mat.fromAffineShear4 t.shearFactor t.origin direction normal
/-- `Shear3::to_transform`, shear.rs 1927-1929 -/
def toTransform3 (t : Shear S 3) : Transform S 3 := Transform.fromMatrixUnchecked t.toAffineMatrix3
/-- `Shear3 * Shear3`, shear.rs 1952-2010 -/
def mul3 (t u : Shear S 3) : Transform S 3 := t.toTransform3 * u.toTransform3
end

end Shear

end Cgl
