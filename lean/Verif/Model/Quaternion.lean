import Verif.Model.MatrixSq

/-!
# `Quaternion<S>`

Model of cglinalg_core/src/quaternion.rs. The by-reference operator impls repeat the by-value expressions.
Slices, pointers, `Deref` views and `Display` are not modelled. `S::default_epsilon()` is the parameter
`eps` of the functions that compare against it.
-/

namespace Cgl

/-- `Quaternion<S>`, quaternion.rs 47-50: the coordinates are `[s, x, y, z]` -/
@[ext] structure Quat (S : Type*) where
  /-- `Quaternion::from_vector`, quaternion.rs 183-185 -/
  fromVector ::
  coords : Vec S 4

namespace Quat

variable {S T : Type*}

/-- `Quaternion::new`, quaternion.rs 56-60; also the `From` impls, 3810-3848 -/
def new (qs qx qy qz : S) : Quat S := ⟨Vec.new4 qs qx qy qz⟩
/-- `Quaternion::try_cast`, quaternion.rs 123-128 -/
def tryCast (conv : S → Option T) (zeroed : T) (q : Quat S) : Option (Quat T) :=
  (q.coords.tryCast conv zeroed).map fromVector
/-- `Quaternion::from_parts`, quaternion.rs 155-157 -/
def fromParts (scalar : S) (vector : Vec S 3) : Quat S :=
  new scalar (vector.data 0) (vector.data 1) (vector.data 2)
/-- `Quaternion::from_fill`, quaternion.rs 203-205 -/
def fromFill (value : S) : Quat S := new value value value value
/-- `Quaternion::map`, quaternion.rs 222-229 (pure `op`) -/
def map (q : Quat S) (op : S → T) : Quat T := ⟨q.coords.map op⟩
/-- `Quaternion::scalar`, quaternion.rs 248-250 -/
def scalar (q : Quat S) : S := q.coords.data 0
/-- `Quaternion::vector`, quaternion.rs 269-271 -/
def vector (q : Quat S) : Vec S 3 := Vec.new3 (q.coords.data 1) (q.coords.data 2) (q.coords.data 3)
/-- `Index<usize>`, quaternion.rs 3652-3663 -/
def index (q : Quat S) (i : ℕ) : Res S := q.coords.index i
/-- `IndexMut<usize>`, quaternion.rs 3717-3726 -/
def indexSet (q : Quat S) (i : ℕ) (x : S) : Res (Quat S) := (q.coords.indexSet i x).map fromVector

section Basic
variable [Zero S]

/-- `Quaternion::zero`, quaternion.rs 374-376; also `Default`, 3801-3808 -/
instance : Zero (Quat S) := ⟨new 0 0 0 0⟩
/-- `Quaternion::is_zero`, quaternion.rs 401-403 -/
def isZero [BEq S] (q : Quat S) : Bool := q.coords.isZero
/-- `Quaternion::unit_s`, quaternion.rs 293-295 -/
def unitS [One S] : Quat S := fromParts 1 0
/-- `Quaternion::unit_x`, quaternion.rs 312-314 -/
def unitX [One S] : Quat S := fromParts 0 Vec.unitX3
/-- `Quaternion::unit_y`, quaternion.rs 331-333 -/
def unitY [One S] : Quat S := fromParts 0 Vec.unitY3
/-- `Quaternion::unit_z`, quaternion.rs 350-352 -/
def unitZ [One S] : Quat S := fromParts 0 Vec.unitZ3
/-- `Quaternion::identity`, quaternion.rs 419-421; also `one`, 439-441 -/
def identity [One S] : Quat S := fromParts 1 0
instance [One S] : One (Quat S) := ⟨identity⟩
/-- `Quaternion::is_identity`, quaternion.rs 463-465 -/
def isIdentity [One S] [BEq S] (q : Quat S) : Bool := q.scalar == 1 && q.vector.isZero
/-- `Quaternion::is_pure`, quaternion.rs 488-490 -/
def isPure [BEq S] (q : Quat S) : Bool := q.scalar == 0
/-- `Quaternion::is_real`, quaternion.rs 513-515 -/
def isReal [BEq S] (q : Quat S) : Bool := q.vector.isZero
/-- `Quaternion::from_real`, quaternion.rs 530-532 -/
def fromReal (value : S) : Quat S := fromParts value 0
/-- `Quaternion::from_pure`, quaternion.rs 551-553 -/
def fromPure (vector : Vec S 3) : Quat S := fromParts 0 vector
/-- `Quaternion::dot`, quaternion.rs 570-572 -/
def dot [Add S] [Mul S] (q r : Quat S) : S := q.coords.dot r.coords
/-- `Quaternion::modulus_squared`, quaternion.rs 610-612; also `norm_squared`, 639-641,
`magnitude_squared`, 670-672 -/
def normSquared [Add S] [Mul S] (q : Quat S) : S := q.coords.normSquared
/-- `Quaternion::metric_distance_squared`, quaternion.rs 703-705 -/
def metricDistanceSquared [Add S] [Sub S] [Mul S] (q r : Quat S) : S :=
  q.coords.metricDistanceSquared r.coords
/-- `Quaternion::l1_norm`, quaternion.rs 853-855 -/
def l1Norm [Add S] [SAbs S] (q : Quat S) : S := q.coords.l1Norm

/-! ### operators -/

/-- `-Quaternion`, quaternion.rs 3963-3985 -/
instance [Neg S] : Neg (Quat S) := ⟨fun q => fromParts (-q.scalar) (-q.vector)⟩
/-- `Quaternion + Quaternion`, quaternion.rs 3987-4033 -/
instance [Add S] : Add (Quat S) := ⟨fun q r => fromParts (q.scalar + r.scalar) (q.vector + r.vector)⟩
/-- `Quaternion - Quaternion`, quaternion.rs 4035-4081 -/
instance [Sub S] : Sub (Quat S) := ⟨fun q r => fromParts (q.scalar - r.scalar) (q.vector - r.vector)⟩
/-- `Quaternion * S`, quaternion.rs 4083-4129 -/
instance instMulS [Mul S] : HMul (Quat S) S (Quat S) := ⟨fun q k => fromParts (q.scalar * k) (q.vector * k)⟩
/-- `S * Quaternion`, quaternion.rs 4195-4235 -/
instance instSMul [Mul S] : HMul S (Quat S) (Quat S) := ⟨fun k q => fromParts (k * q.scalar) (k * q.vector)⟩
/-- `Quaternion * Quaternion`, quaternion.rs 4131-4193 -/
instance instMul [Add S] [Sub S] [Mul S] : Mul (Quat S) := ⟨fun q r =>
  let scalar := q.scalar * r.scalar - q.vector.dot r.vector
  let vector := r.vector * q.scalar + q.vector * r.scalar + q.vector.cross r.vector
  fromParts scalar vector⟩
/-- `Quaternion / S`, quaternion.rs 4238-4284 -/
instance instDivS [Div S] : HDiv (Quat S) S (Quat S) := ⟨fun q k => fromParts (q.scalar / k) (q.vector / k)⟩
/-- `Quaternion % S`, quaternion.rs 4286-4332 -/
instance instModS [Mod S] : HMod (Quat S) S (Quat S) := ⟨fun q k => fromParts (q.scalar % k) (q.vector % k)⟩

end Basic

/-- `Quaternion += Quaternion`, quaternion.rs 4334-4352 -/
def addAssign [Add S] (q r : Quat S) : Quat S := ⟨q.coords.addAssign r.coords⟩
/-- `Quaternion -= Quaternion`, quaternion.rs 4354-4372 -/
def subAssign [Sub S] (q r : Quat S) : Quat S := ⟨q.coords.subAssign r.coords⟩
/-- `Quaternion *= S`, quaternion.rs 4374-4382 -/
def mulAssign [Mul S] (q : Quat S) (k : S) : Quat S := ⟨q.coords.mulAssign k⟩
/-- `Quaternion /= S`, quaternion.rs 4384-4392 -/
def divAssign [Div S] (q : Quat S) (k : S) : Quat S := ⟨q.coords.divAssign k⟩
/-- `Quaternion %= S`, quaternion.rs 4394-4402 -/
def remAssign [Mod S] (q : Quat S) (k : S) : Quat S := ⟨q.coords.remAssign k⟩

/-! ### algebra -/

/-- `Quaternion::conjugate`, quaternion.rs 738-740 -/
def conjugate [Zero S] [Neg S] (q : Quat S) : Quat S := fromParts q.scalar (-q.vector)
/-- `Quaternion::conjugate_mut`, quaternion.rs 772-776 -/
def conjugateMut [Neg S] (q : Quat S) : Quat S :=
  let d := q.coords.data
  let d := Function.update d 1 (-d 1)
  let d := Function.update d 2 (-d 2)
  let d := Function.update d 3 (-d 3)
  ⟨⟨d⟩⟩
/-- `Quaternion::squared`, quaternion.rs 797-799 -/
def squared [Zero S] [Add S] [Sub S] [Mul S] (q : Quat S) : Quat S := q * q
/-- `Quaternion::half`, quaternion.rs 815-820 -/
def half [Zero S] [One S] [Add S] [Mul S] [Div S] (q : Quat S) : Quat S :=
  let oneHalf : S := 1 / (1 + 1)
  q * oneHalf

section Field
variable [Zero S] [One S] [Add S] [Sub S] [Mul S] [Div S] [Neg S]

/-- `Quaternion::try_inverse_eps`, quaternion.rs 1569-1576; `eps` is `S::default_epsilon()` in the public
function (1564-1566) -/
def tryInverse [LE S] [DecidableLE S] (eps : S) (q : Quat S) : Option (Quat S) :=
  let normSquared := q.normSquared
  if normSquared ≤ eps * eps then none else some (q.conjugate / normSquared)
/-- `Quaternion::is_invertible_eps`, quaternion.rs 1604-1606; public function 1599-1601 -/
def isInvertible [LE S] [DecidableLE S] (eps : S) (q : Quat S) : Bool :=
  decide (q.normSquared ≥ eps * eps)
/-- `Quaternion::inverse`, quaternion.rs 1631-1633 -/
def inverse [LE S] [DecidableLE S] (eps : S) (q : Quat S) : Res (Quat S) := unwrap (q.tryInverse eps)
/-- `Quaternion::div_left`, quaternion.rs 2162-2164 -/
def divLeft [LE S] [DecidableLE S] (eps : S) (q left : Quat S) : Option (Quat S) :=
  (left.tryInverse eps).map fun leftInv => leftInv * q
/-- `Quaternion::div_right`, quaternion.rs 2196-2198 -/
def divRight [LE S] [DecidableLE S] (eps : S) (q right : Quat S) : Option (Quat S) :=
  (right.tryInverse eps).map fun rightInv => q * rightInv
/-- `Quaternion::inner`, quaternion.rs 2245-2250 -/
def inner (q r : Quat S) : Quat S :=
  let oneHalf : S := 1 / (1 + 1)
  (q * r + r * q) * oneHalf
/-- `Quaternion::outer`, quaternion.rs 2291-2296 -/
def outer (q r : Quat S) : Quat S :=
  let oneHalf : S := 1 / (1 + 1)
  (q * r - r * q) * oneHalf
/-- `Quaternion::project`, quaternion.rs 2962-2964 -/
def project (q r : Quat S) : Quat S := r * (q.dot r / r.normSquared)
/-- `Quaternion::reject`, quaternion.rs 3001-3003 -/
def reject (q r : Quat S) : Quat S := q - q.project r

/-- `Quaternion::lerp`, quaternion.rs 2775-2777 -/
def lerp (q r : Quat S) (amount : S) : Quat S := q + (r - q) * amount

/-! ### matrices -/

/-- `Quaternion::to_matrix`, quaternion.rs 1235-1261; also `From<Quaternion> for Matrix3x3`, 3870-3888 -/
def toMatrix (q : Quat S) : Mat S 3 3 :=
  let qs := q.coords.data 0
  let qx := q.coords.data 1
  let qy := q.coords.data 2
  let qz := q.coords.data 3
  let two : S := 1 + 1
  let s := two / q.normSquared
  let c0r0 := 1 - s * qy * qy - s * qz * qz
  let c0r1 := s * qx * qy + s * qs * qz
  let c0r2 := s * qx * qz - s * qs * qy
  let c1r0 := s * qx * qy - s * qs * qz
  let c1r1 := 1 - s * qx * qx - s * qz * qz
  let c1r2 := s * qy * qz + s * qs * qx
  let c2r0 := s * qx * qz + s * qs * qy
  let c2r1 := s * qy * qz - s * qs * qx
  let c2r2 := 1 - s * qx * qx - s * qy * qy
  Mat.new3x3 c0r0 c0r1 c0r2 c1r0 c1r1 c1r2 c2r0 c2r1 c2r2
/-- `Quaternion::to_matrix_mut`, quaternion.rs 1326-1346: assigns the nine fields -/
def toMatrixMut (q : Quat S) (matrix : Mat S 3 3) : Mat S 3 3 :=
  let qs := q.coords.data 0
  let qx := q.coords.data 1
  let qy := q.coords.data 2
  let qz := q.coords.data 3
  let two : S := 1 + 1
  let s := two / q.normSquared
  let m := matrix.data
  let m := Mat.set m 0 0 (1 - s * qy * qy - s * qz * qz)
  let m := Mat.set m 0 1 (s * qx * qy + s * qs * qz)
  let m := Mat.set m 0 2 (s * qx * qz - s * qs * qy)
  let m := Mat.set m 1 0 (s * qx * qy - s * qs * qz)
  let m := Mat.set m 1 1 (1 - s * qx * qx - s * qz * qz)
  let m := Mat.set m 1 2 (s * qy * qz + s * qs * qx)
  let m := Mat.set m 2 0 (s * qx * qz + s * qs * qy)
  let m := Mat.set m 2 1 (s * qy * qz - s * qs * qx)
  let m := Mat.set m 2 2 (1 - s * qx * qx - s * qy * qy)
  ⟨m⟩
/-- `Quaternion::to_affine_matrix`, quaternion.rs 1406-1442; also `From<Quaternion> for Matrix4x4`, 3890-3908 -/
def toAffineMatrix (q : Quat S) : Mat S 4 4 :=
  let qs := q.coords.data 0
  let qx := q.coords.data 1
  let qy := q.coords.data 2
  let qz := q.coords.data 3
  let two : S := 1 + 1
  let s := two / q.normSquared
  let c0r0 := 1 - s * qy * qy - s * qz * qz
  let c0r1 := s * qx * qy + s * qs * qz
  let c0r2 := s * qx * qz - s * qs * qy
  let c1r0 := s * qx * qy - s * qs * qz
  let c1r1 := 1 - s * qx * qx - s * qz * qz
  let c1r2 := s * qy * qz + s * qs * qx
  let c2r0 := s * qx * qz + s * qs * qy
  let c2r1 := s * qy * qz - s * qs * qx
  let c2r2 := 1 - s * qx * qx - s * qy * qy
  Mat.new4x4 c0r0 c0r1 c0r2 0 c1r0 c1r1 c1r2 0 c2r0 c2r1 c2r2 0 0 0 0 1
/-- `Quaternion::to_affine_matrix_mut`, quaternion.rs 1510-1539: assigns the sixteen fields -/
def toAffineMatrixMut (q : Quat S) (matrix : Mat S 4 4) : Mat S 4 4 :=
  let qs := q.coords.data 0
  let qx := q.coords.data 1
  let qy := q.coords.data 2
  let qz := q.coords.data 3
  let two : S := 1 + 1
  let s := two / q.normSquared
  let m := matrix.data
  let m := Mat.set m 0 0 (1 - s * qy * qy - s * qz * qz)
  let m := Mat.set m 0 1 (s * qx * qy + s * qs * qz)
  let m := Mat.set m 0 2 (s * qx * qz - s * qs * qy)
  let m := Mat.set m 0 3 0
  let m := Mat.set m 1 0 (s * qx * qy - s * qs * qz)
  let m := Mat.set m 1 1 (1 - s * qx * qx - s * qz * qz)
  let m := Mat.set m 1 2 (s * qy * qz + s * qs * qx)
  let m := Mat.set m 1 3 0
  let m := Mat.set m 2 0 (s * qx * qz + s * qs * qy)
  let m := Mat.set m 2 1 (s * qy * qz - s * qs * qx)
  let m := Mat.set m 2 2 (1 - s * qx * qx - s * qy * qy)
  let m := Mat.set m 2 3 0
  let m := Mat.set m 3 0 0
  let m := Mat.set m 3 1 0
  let m := Mat.set m 3 2 0
  let m := Mat.set m 3 3 1
  ⟨m⟩

end Field

section Float
variable [Zero S] [One S] [Add S] [Sub S] [Mul S] [Div S] [Neg S] [FloatFns S]

/-- `Quaternion::norm`, quaternion.rs 926-928; also `modulus`, 895-897, `magnitude`, 987-989, `l2_norm`,
1015-1017 -/
def norm (q : Quat S) : S := q.coords.norm
/-- `Quaternion::metric_distance`, quaternion.rs 959-961 -/
def metricDistance (q r : Quat S) : S := q.coords.metricDistance r.coords
/-- `Normed::scale`, quaternion.rs 4614-4618; `scale_mut` (4621-4623) stores the same value -/
def scale (q : Quat S) (norm : S) : Quat S := ⟨q.coords.scale norm⟩
/-- `Normed::unscale`, quaternion.rs 4626-4630; `unscale_mut` (4633-4635) stores the same value -/
def unscale (q : Quat S) (norm : S) : Quat S := ⟨q.coords.unscale norm⟩
/-- `Normed::normalize`, quaternion.rs 4638-4642 -/
def normalize (q : Quat S) : Quat S := ⟨q.coords.normalize⟩
/-- `Normed::normalize_mut`, quaternion.rs 4645-4647 -/
def normalizeMut (q : Quat S) : Quat S × S :=
  let r := q.coords.normalizeMut
  (⟨r.1⟩, r.2)
/-- `Normed::try_normalize`, quaternion.rs 4650-4657 -/
def tryNormalize [LE S] [DecidableLE S] (q : Quat S) (threshold : S) : Option (Quat S) :=
  let norm := q.coords.norm
  if norm ≤ threshold then none else some q.normalize
/-- `Normed::try_normalize_mut`, quaternion.rs 4660-4662 -/
def tryNormalizeMut [LE S] [DecidableLE S] (q : Quat S) (threshold : S) : Quat S × Option S :=
  let r := q.coords.tryNormalizeMut threshold
  (⟨r.1⟩, r.2)
/-- `Normed::distance_squared`, quaternion.rs 4665-4667 -/
def distanceSquared (q r : Quat S) : S := q.coords.metricDistanceSquared r.coords
/-- `Normed::distance`, quaternion.rs 4670-4672 -/
def distance (q r : Quat S) : S := q.coords.metricDistance r.coords

/-- `Normed for Quaternion`, quaternion.rs 4597-4673 -/
instance instNormed : Normed (Quat S) S where
  normSquared := normSquared
  norm := norm
  normalize := normalize

/-- `-Unit<Quaternion>`, quaternion.rs 4675-4697 -/
def negUnit (u : Unit' (Quat S)) : Unit' (Quat S) := ⟨-u.value⟩

/-- `Quaternion::from_axis_angle`, quaternion.rs 1096-1106; the angle is already converted to radians and
`Radians::sin_cos` applies the scalar functions to the wrapped value -/
def fromAxisAngle (axis : Unit' (Vec S 3)) (angle : Radians S) : Quat S :=
  let oneHalf : S := 1 / (1 + 1)
  let half := angle * oneHalf
  let sinAngle := fsin half.val
  let cosAngle := fcos half.val
  fromParts cosAngle (axis.value * sinAngle)

/-- `Quaternion::from_matrix`, quaternion.rs 1136-1177; also `From<Matrix3x3>`, 3910-3928 -/
def fromMatrix [LE S] [DecidableLE S] [LT S] [DecidableLT S] (matrix : Mat S 3 3) : Quat S :=
  let oneHalf : S := 1 / (1 + 1)
  let m := matrix.data
  let trace := matrix.trace
  if trace ≥ 0 then
    let s := fsqrt (1 + trace)
    let qs := oneHalf * s
    let s := oneHalf / s
    let qx := (m 1 2 - m 2 1) * s
    let qy := (m 2 0 - m 0 2) * s
    let qz := (m 0 1 - m 1 0) * s
    new qs qx qy qz
  else if m 0 0 > m 1 1 ∧ m 0 0 > m 2 2 then
    let s := fsqrt ((m 0 0 - m 1 1 - m 2 2) + 1)
    let qx := oneHalf * s
    let s := oneHalf / s
    let qy := (m 1 0 + m 0 1) * s
    let qz := (m 0 2 + m 2 0) * s
    let qs := (m 1 2 - m 2 1) * s
    new qs qx qy qz
  else if m 1 1 > m 2 2 then
    let s := fsqrt ((m 1 1 - m 0 0 - m 2 2) + 1)
    let qy := oneHalf * s
    let s := oneHalf / s
    let qz := (m 2 1 + m 1 2) * s
    let qx := (m 1 0 + m 0 1) * s
    let qs := (m 2 0 - m 0 2) * s
    new qs qx qy qz
  else
    let s := fsqrt ((m 2 2 - m 0 0 - m 1 1) + 1)
    let qz := oneHalf * s
    let s := oneHalf / s
    let qx := (m 0 2 + m 2 0) * s
    let qy := (m 2 1 + m 1 2) * s
    let qs := (m 0 1 - m 1 0) * s
    new qs qx qy qz

/-! ### exponential, logarithm, powers -/

/-- `Quaternion::arg_eps`, quaternion.rs 1687-1693; public function 1682-1684 -/
def arg [LE S] [DecidableLE S] (eps : S) (q : Quat S) : S :=
  if q.scalar * q.scalar ≤ eps * eps then ffracPi2
  else fatan2 q.vector.norm q.scalar
/-- `Quaternion::exp_eps`, quaternion.rs 1799-1811; public function 1794-1796 -/
def exp [LE S] [DecidableLE S] (eps : S) (q : Quat S) : Quat S :=
  let normVSquared := q.vector.normSquared
  if normVSquared ≤ eps * eps then fromParts (fexp q.scalar) 0
  else
    let normV := fsqrt normVSquared
    let expS := fexp q.scalar
    let qScalar := expS * fcos normV
    let qVector := q.vector * (expS * fsin normV / normV)
    fromParts qScalar qVector
/-- `Quaternion::ln_eps`, quaternion.rs 1883-1901; public function 1878-1880 -/
def ln [LE S] [DecidableLE S] [SAbs S] (eps : S) (q : Quat S) : Quat S :=
  let normVSquared := q.vector.normSquared
  if normVSquared ≤ eps * eps then
    let norm := sabs q.scalar
    fromParts (fln norm) 0
  else
    let norm := q.norm
    let arccosSOverNormQ := facos (q.scalar / norm)
    let qScalar := fln norm
    let qVector := q.vector * (arccosSOverNormQ / fsqrt normVSquared)
    fromParts qScalar qVector
/-- `Quaternion::powf`, quaternion.rs 1925-1927 -/
def powf [LE S] [DecidableLE S] [SAbs S] (eps : S) (q : Quat S) (exponent : S) : Quat S :=
  (q.ln eps * exponent).exp eps
/-- `Quaternion::sqrt_eps`, quaternion.rs 2098-2130; public function 2093-2095 -/
def sqrt [LE S] [DecidableLE S] [LT S] [DecidableLT S] (eps : S) (q : Quat S) : Quat S :=
  let normSelfSquared := q.normSquared
  if normSelfSquared ≤ eps * eps then 0
  else
    let normVSquared := q.vector.normSquared
    let normSelf := fsqrt normSelfSquared
    if normVSquared ≤ eps * eps then
      let sqrtNormSelf := fsqrt normSelf
      if q.scalar > 0 then fromReal sqrtNormSelf
      else fromPure (Vec.new3 sqrtNormSelf 0 0)
    else
      let oneHalf : S := 1 / (1 + 1)
      let c := fsqrt (oneHalf / (normSelf + q.scalar))
      fromParts ((normSelf + q.scalar) * c) (q.vector * c)

/-! ### rotations -/

section Rot
variable [LE S] [DecidableLE S] [LT S] [DecidableLT S]

/-- `Quaternion::rotation_between_axis_eps`, quaternion.rs 2370-2400; public function 2365-2367 -/
def rotationBetweenAxis (threshold : S) (unitV1 unitV2 : Unit' (Vec S 3)) : Option (Quat S) :=
  let v1 := unitV1.value
  let v2 := unitV2.value
  let v1CrossV2 := v1.cross v2
  match Unit'.tryFromValue v1CrossV2 threshold with
  | some axis =>
    let cosTheta := v1.dot v2
    if cosTheta ≤ -1 then none
    else if cosTheta ≥ 1 then some identity
    else some (fromAxisAngle axis ⟨facos cosTheta⟩)
  | none => if v1.dot v2 < 0 then none else some identity
/-- `Quaternion::rotation_between`, quaternion.rs 2328-2334 -/
def rotationBetween (threshold : S) (v1 v2 : Vec S 3) : Option (Quat S) :=
  match Unit'.tryFromValue v1 0, Unit'.tryFromValue v2 0 with
  | some unitV1, some unitV2 => rotationBetweenAxis threshold unitV1 unitV2
  | _, _ => some identity

/-- `Quaternion::look_to_lh`, quaternion.rs 2436-2438 -/
def lookToLh (direction up : Vec S 3) : Quat S := fromMatrix (Mat.lookToLh3 direction up)
/-- `Quaternion::look_to_rh`, quaternion.rs 2485-2487 -/
def lookToRh (direction up : Vec S 3) : Quat S := fromMatrix (Mat.lookToRh3 direction up)
/-- `Quaternion::look_at_lh`, quaternion.rs 2530-2532 -/
def lookAtLh (eye target : Pt S 3) (up : Vec S 3) : Quat S := fromMatrix (Mat.lookAtLh3 eye target up)
/-- `Quaternion::look_at_rh`, quaternion.rs 2575-2577 -/
def lookAtRh (eye target : Pt S 3) (up : Vec S 3) : Quat S := fromMatrix (Mat.lookAtRh3 eye target up)
/-- `Quaternion::look_to_lh_inv`, quaternion.rs 2613-2615 -/
def lookToLhInv (direction up : Vec S 3) : Quat S := fromMatrix (Mat.lookToLhInv3 direction up)
/-- `Quaternion::look_to_rh_inv`, quaternion.rs 2662-2664 -/
def lookToRhInv (direction up : Vec S 3) : Quat S := fromMatrix (Mat.lookToRhInv3 direction up)
/-- `Quaternion::look_at_lh_inv`, quaternion.rs 2708-2710 -/
def lookAtLhInv (eye target : Pt S 3) (up : Vec S 3) : Quat S := lookToLhInv (target - eye) up
/-- `Quaternion::look_at_rh_inv`, quaternion.rs 2755-2757 -/
def lookAtRhInv (eye target : Pt S 3) (up : Vec S 3) : Quat S := lookToRhInv (target - eye) up

end Rot

/-- `Quaternion::nlerp`, quaternion.rs 2798-2800 -/
def nlerp (q r : Quat S) (amount : S) : Quat S := (q * (1 - amount) + r * amount).normalize
/-- `Quaternion::slerp_eps`, quaternion.rs 2848-2904; the public function (2843-2845) passes `0.0005` -/
def slerp [LE S] [DecidableLE S] [LT S] [DecidableLT S] [SAbs S] (lerpThreshold : S) (q r : Quat S)
    (amount : S) : Quat S :=
  let p : Quat S × S := if q.dot r < 0 then (-q, (-q).dot r) else (q, q.dot r)
  let result := p.1
  let cosHalfTheta := p.2
  if sabs cosHalfTheta ≥ 1 then result
  else
    let sinHalfTheta := fsqrt (1 - cosHalfTheta * cosHalfTheta)
    if sabs sinHalfTheta < lerpThreshold then result.nlerp r amount
    else
      let halfTheta := facos cosHalfTheta
      let a := fsin ((1 - amount) * halfTheta) / sinHalfTheta
      let b := fsin (amount * halfTheta) / sinHalfTheta
      let qScalar := result.scalar * a + r.scalar * b
      let qVector := result.vector * a + r.vector * b
      fromParts qScalar qVector

/-! ### polar decomposition -/

/-- `Quaternion::polar_decomposition`, quaternion.rs 3055-3070 -/
def polarDecomposition [LT S] [DecidableLT S] [SAbs S] (q : Quat S) :
    S × Radians S × Option (Unit' (Vec S 3)) :=
  match Unit'.tryFromValueWithNorm q (0 : S) with
  | some (unitQ, normQ) =>
    match Unit'.tryFromValue q.vector (0 : S) with
    | some axis =>
      let cosAngleOverTwo := sabs unitQ.value.scalar
      let sinAngleOverTwo := unitQ.value.vector.norm
      let angleOverTwo : Radians S := ⟨fatan2 sinAngleOverTwo cosAngleOverTwo⟩
      (normQ, angleOverTwo, some axis)
    | none => (normQ, ⟨0⟩, none)
  | none => (0, ⟨0⟩, none)
/-- `Quaternion::from_polar_decomposition`, quaternion.rs 3105-3113 -/
def fromPolarDecomposition (scale : S) (angle : Radians S) (axis : Unit' (Vec S 3)) : Quat S :=
  let two : S := 1 + 1
  let half := angle / two
  let sinAngleOverTwo := fsin half.val
  let cosAngleOverTwo := fcos half.val
  let scalar := cosAngleOverTwo * scale
  let vector := axis.value * sinAngleOverTwo * scale
  fromParts scalar vector

/-! ### trigonometric and hyperbolic functions -/

section Trig
variable [BEq S]

/-- `Quaternion::cos`, quaternion.rs 3146-3162 -/
def cos (q : Quat S) : Quat S :=
  let normVecSelf := q.vector.norm
  if normVecSelf == 0 then
    let scalar := fcos q.scalar * fcosh normVecSelf
    fromReal scalar
  else
    let scalar := fcos q.scalar * fcosh normVecSelf
    let vector := q.vector * (-fsin q.scalar * fsinh normVecSelf / normVecSelf)
    fromParts scalar vector
/-- `Quaternion::sin`, quaternion.rs 3228-3244 -/
def sin (q : Quat S) : Quat S :=
  let normVecSelf := q.vector.norm
  if normVecSelf == 0 then
    let scalar := fsin q.scalar * fcosh normVecSelf
    fromReal scalar
  else
    let scalar := fsin q.scalar * fcosh normVecSelf
    let vector := q.vector * (fcos q.scalar * fsinh normVecSelf / normVecSelf)
    fromParts scalar vector
/-- `Quaternion::tan`, quaternion.rs 3322-3342 -/
def tan (q : Quat S) : Quat S :=
  let normV := q.vector.norm
  if normV == 0 then fromReal (ftan q.scalar)
  else
    let coshNormV := fcosh normV
    let sinhNormV := fsinh normV
    let cosS := fcos q.scalar
    let sinS := fsin q.scalar
    let denomS := cosS * cosS + sinhNormV * sinhNormV
    let denomV := denomS * normV
    let scalar := cosS * sinS / denomS
    let vector := q.vector * (coshNormV * sinhNormV / denomV)
    fromParts scalar vector
/-- `Quaternion::cosh`, quaternion.rs 3411-3427 -/
def cosh (q : Quat S) : Quat S :=
  let normVecSelf := q.vector.norm
  if normVecSelf == 0 then
    let scalar := fcosh q.scalar * fcos normVecSelf
    fromReal scalar
  else
    let scalar := fcosh q.scalar * fcos normVecSelf
    let vector := q.vector * (fsinh q.scalar * fsin normVecSelf / normVecSelf)
    fromParts scalar vector
/-- `Quaternion::sinh`, quaternion.rs 3487-3503 -/
def sinh (q : Quat S) : Quat S :=
  let normVecSelf := q.vector.norm
  if normVecSelf == 0 then
    let scalar := fsinh q.scalar * fcos normVecSelf
    fromReal scalar
  else
    let scalar := fsinh q.scalar * fcos normVecSelf
    let vector := q.vector * (fcosh q.scalar * fsin normVecSelf / normVecSelf)
    fromParts scalar vector
/-- `Quaternion::tanh`, quaternion.rs 3576-3596 -/
def tanh (q : Quat S) : Quat S :=
  let normV := q.vector.norm
  if normV == 0 then fromReal (ftanh q.scalar)
  else
    let cosNormV := fcos normV
    let sinNormV := fsin normV
    let coshS := fcosh q.scalar
    let sinhS := fsinh q.scalar
    let denomS := sinhS * sinhS + cosNormV * cosNormV
    let denomV := denomS * normV
    let scalar := coshS * sinhS / denomS
    let vector := q.vector * (cosNormV * sinNormV / denomV)
    fromParts scalar vector

end Trig

section InvTrig
variable [LE S] [DecidableLE S] [LT S] [DecidableLT S] [SAbs S]

/-- `Quaternion::acos`, quaternion.rs 3189-3195 -/
def acos (eps : S) (q : Quat S) : Quat S :=
  let signumVecSelf := fromPure q.vector.normalize
  let identity : Quat S := identity
  let r := (q + (q.squared - identity).sqrt eps).ln eps;
  -(signumVecSelf * r)
/-- `Quaternion::asin`, quaternion.rs 3271-3277 -/
def asin (eps : S) (q : Quat S) : Quat S :=
  let signumVecSelf := fromPure q.vector.normalize
  let identity : Quat S := identity
  let r := ((signumVecSelf * q) + (identity - q.squared).sqrt eps).ln eps;
  -(signumVecSelf * r)
/-- `Quaternion::atan`, quaternion.rs 3369-3376 -/
def atan (eps : S) (q : Quat S) : Res (Quat S) :=
  let signumVecSelf := fromPure q.vector.normalize
  let numerator := signumVecSelf + q
  let denominator := signumVecSelf - q
  (unwrap (numerator.divRight eps denominator)).map fun r => signumVecSelf.half * r.ln eps
/-- `Quaternion::acosh`, quaternion.rs 3448-3452 -/
def acosh (eps : S) (q : Quat S) : Quat S :=
  let identity : Quat S := identity
  (q + (q + identity).sqrt eps * (q - identity).sqrt eps).ln eps
/-- `Quaternion::asinh`, quaternion.rs 3524-3528 -/
def asinh (eps : S) (q : Quat S) : Quat S :=
  let identity : Quat S := identity
  (q + (q.squared + identity).sqrt eps).ln eps
/-- `Quaternion::atanh`, quaternion.rs 3617-3621 -/
def atanh (eps : S) (q : Quat S) : Quat S :=
  let identity : Quat S := identity
  ((identity + q).ln eps - (identity - q).ln eps).half

end InvTrig
end Float

end Quat
end Cgl
