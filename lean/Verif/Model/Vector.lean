import Verif.Model.Float
import Verif.Model.Prelude

/-!
# `Vector<S, N>`

Model of cglinalg_core/src/vector.rs. A `Vector<S, N>` is an array of `N` scalars; the model is a
function from `Fin n`. Every function is transcribed over raw operations; loops stay loops.
By-reference variants of the operators run the same loop and are not repeated.
-/

namespace Cgl

/-- cglinalg_core/src/vector.rs 44-48 -/
@[ext] structure Vec (S : Type*) (n : ℕ) where
  data : Fin n → S

namespace Vec

variable {S T : Type*} {n : ℕ}

instance [DecidableEq S] : DecidableEq (Vec S n) := fun a b =>
  decidable_of_iff (a.data = b.data) Vec.ext_iff.symm

/-! ### construction and access -/

/-- vector.rs 50-55 -/
def len (_ : Vec S n) : ℕ := n

/-- vector.rs 71-73 -/
def shape (_ : Vec S n) : ℕ × ℕ := (n, 1)

/-- `Vector1::new`, vector.rs 1963 -/
def new1 (x : S) : Vec S 1 := ⟨![x]⟩
/-- `Vector2::new`, vector.rs 2027 -/
def new2 (x y : S) : Vec S 2 := ⟨![x, y]⟩
/-- `Vector3::new`, vector.rs 2091 -/
def new3 (x y z : S) : Vec S 3 := ⟨![x, y, z]⟩
/-- `Vector4::new`, vector.rs 2268 -/
def new4 (x y z w : S) : Vec S 4 := ⟨![x, y, z, w]⟩

/-- `Vector1::to_scalar`, vector.rs 2006 -/
def toScalar (v : Vec S 1) : S := v.data 0

/-- `AsRef<[S; N]>`, vector.rs 1094-1099 -/
def toArray (v : Vec S n) : Fin n → S := v.data

/-- `From<[S; N]>`, vector.rs 1131-1149 -/
def fromArray (a : Fin n → S) : Vec S n := ⟨a⟩

/-- `Index<usize>`, vector.rs 1161-1187 (bounds checked by the array) -/
def index (v : Vec S n) (i : ℕ) : Res S := readAt v.data i

/-- `IndexMut<usize>` followed by a write, vector.rs 1173-1179 -/
def indexSet (v : Vec S n) (i : ℕ) (x : S) : Res (Vec S n) := (writeAt v.data i x).map Vec.mk

/-- `From<(S, S)>`, vector.rs 2398-2406 -/
def fromTuple2 (t : S × S) : Vec S 2 := new2 t.1 t.2
/-- `From<(S, S, S)>`, vector.rs 2428-2436 -/
def fromTuple3 (t : S × S × S) : Vec S 3 := new3 t.1 t.2.1 t.2.2
/-- `From<(S, S, S, S)>`, vector.rs 2478-2486 -/
def fromTuple4 (t : S × S × S × S) : Vec S 4 := new4 t.1 t.2.1 t.2.2.1 t.2.2.2
/-- `AsRef<(S, S)>`, vector.rs 2541; the pointer cast is modelled by its documented effect -/
def toTuple2 (v : Vec S 2) : S × S := (v.data 0, v.data 1)
/-- `AsRef<(S, S, S)>`, vector.rs 2542 -/
def toTuple3 (v : Vec S 3) : S × S × S := (v.data 0, v.data 1, v.data 2)
/-- `AsRef<(S, S, S, S)>`, vector.rs 2543 -/
def toTuple4 (v : Vec S 4) : S × S × S × S := (v.data 0, v.data 1, v.data 2, v.data 3)
/-- `From<Vector4<S>> for Vector3<S>`, vector.rs 2458-2476 -/
def truncate4 (v : Vec S 4) : Vec S 3 := new3 (v.data 0) (v.data 1) (v.data 2)

/-- `Vector::from_fill`, vector.rs 152-154 -/
def fromFill (value : S) : Vec S n := ⟨fun _ => value⟩

/-- `Vector::map`, vector.rs 172-177 -/
def map (op : S → T) (v : Vec S n) : Vec T n := ⟨fun i => op (v.data i)⟩

/-- `Vector::try_cast`, vector.rs 113-128. `conv` is the scalar `try_cast`; `zeroed` the initial
contents of the buffer (`mem::zeroed`). -/
def tryCast (conv : S → Option T) (zeroed : T) (v : Vec S n) : Option (Vec T n) :=
  (forRange? n (fun _ => zeroed) fun i data =>
    (conv (v.data i)).map fun value => Function.update data i value).map Vec.mk

/-! ### arithmetic -/

section Arith

variable [Zero S]

/-- `Vector::zero`, vector.rs 200-202 -/
def zero : Vec S n := ⟨fun _ => 0⟩

/-- `Vector::is_zero`, vector.rs 218-226 -/
def isZero [BEq S] (v : Vec S n) : Bool :=
  forRange n true fun i result => result && (v.data i == 0)

/-- `Vector::dot`, vector.rs 241-249 -/
def dot [Add S] [Mul S] (v w : Vec S n) : S :=
  forRange n 0 fun i result => result + v.data i * w.data i

/-- `Vector::component_mul`, vector.rs 272-280 -/
def componentMul [Mul S] (v w : Vec S n) : Vec S n :=
  ⟨forRange n (zero (n := n)).data fun i result => Function.update result i (v.data i * w.data i)⟩

/-- `Vector::component_mul_assign`, vector.rs 297-302 -/
def componentMulAssign [Mul S] (v w : Vec S n) : Vec S n :=
  ⟨forRange n v.data fun i data => Function.update data i (data i * w.data i)⟩

/-- `Vector::neg_mut`, vector.rs 323-328 -/
def negMut [Neg S] (v : Vec S n) : Vec S n :=
  ⟨forRange n v.data fun i data => Function.update data i (-(data i))⟩

/-- `Vector + Vector`, vector.rs 1653-1669 -/
def add [Add S] (v w : Vec S n) : Vec S n :=
  ⟨forRange n (zero (n := n)).data fun i result => Function.update result i (v.data i + w.data i)⟩

/-- `Vector - Vector`, vector.rs 1725-1741 -/
def sub [Sub S] (v w : Vec S n) : Vec S n :=
  ⟨forRange n (zero (n := n)).data fun i result => Function.update result i (v.data i - w.data i)⟩

/-- `-Vector`, vector.rs 1888-1904 -/
def neg [Neg S] (v : Vec S n) : Vec S n :=
  ⟨forRange n (zero (n := n)).data fun i result => Function.update result i (-(v.data i))⟩

/-- `Vector * scalar`, vector.rs 1608-1648 -/
def mulS [Mul S] (v : Vec S n) (k : S) : Vec S n :=
  ⟨forRange n (zero (n := n)).data fun i result => Function.update result i (v.data i * k)⟩

/-- `Vector / scalar`, vector.rs 1608-1649 -/
def divS [Div S] (v : Vec S n) (k : S) : Vec S n :=
  ⟨forRange n (zero (n := n)).data fun i result => Function.update result i (v.data i / k)⟩

/-- `Vector % scalar`, vector.rs 1608-1650 -/
def remS [Mod S] (v : Vec S n) (k : S) : Vec S n :=
  ⟨forRange n (zero (n := n)).data fun i result => Function.update result i (v.data i % k)⟩

/-- `scalar * Vector`, vector.rs 1541-1605 -/
def smul [Mul S] (k : S) (v : Vec S n) : Vec S n :=
  ⟨forRange n (zero (n := n)).data fun i result => Function.update result i (k * v.data i)⟩

instance : Zero (Vec S n) := ⟨zero⟩
instance [Add S] : Add (Vec S n) := ⟨add⟩
instance [Sub S] : Sub (Vec S n) := ⟨sub⟩
instance [Neg S] : Neg (Vec S n) := ⟨neg⟩
instance [Mul S] : HMul (Vec S n) S (Vec S n) := ⟨mulS⟩
instance [Mul S] : HMul S (Vec S n) (Vec S n) := ⟨smul⟩
instance [Div S] : HDiv (Vec S n) S (Vec S n) := ⟨divS⟩
instance [Mod S] : HMod (Vec S n) S (Vec S n) := ⟨remS⟩

end Arith

/-- `Vector += Vector`, vector.rs 1797-1808 -/
def addAssign [Add S] (v w : Vec S n) : Vec S n :=
  ⟨forRange n v.data fun i data => Function.update data i (data i + w.data i)⟩

/-- `Vector -= Vector`, vector.rs 1823-1834 -/
def subAssign [Sub S] (v w : Vec S n) : Vec S n :=
  ⟨forRange n v.data fun i data => Function.update data i (data i - w.data i)⟩

/-- `Vector *= scalar`, vector.rs 1849-1860 -/
def mulAssign [Mul S] (v : Vec S n) (k : S) : Vec S n :=
  ⟨forRange n v.data fun i data => Function.update data i (data i * k)⟩

/-- `Vector /= scalar`, vector.rs 1862-1873 -/
def divAssign [Div S] (v : Vec S n) (k : S) : Vec S n :=
  ⟨forRange n v.data fun i data => Function.update data i (data i / k)⟩

/-- `Vector %= scalar`, vector.rs 1875-1886 -/
def remAssign [Mod S] (v : Vec S n) (k : S) : Vec S n :=
  ⟨forRange n v.data fun i data => Function.update data i (data i % k)⟩

/-! ### norms and metrics -/

section Norms

variable [Zero S] [Add S] [Mul S]

/-- `Vector::norm_squared`, vector.rs 351-353 -/
def normSquared (v : Vec S n) : S := v.dot v

/-- `Vector::magnitude_squared`, vector.rs 393-395 -/
def magnitudeSquared (v : Vec S n) : S := v.normSquared

/-- `Vector::metric_distance_squared`, vector.rs 371-373 -/
def metricDistanceSquared [Sub S] (v w : Vec S n) : S := (v - w).normSquared

/-- `Vector::norm`, vector.rs 572-574 -/
def norm [FloatFns S] (v : Vec S n) : S := fsqrt v.normSquared

/-- `Vector::magnitude`, vector.rs 614-616 -/
def magnitude [FloatFns S] (v : Vec S n) : S := v.norm

/-- `Vector::l2_norm`, vector.rs 636-638 -/
def l2Norm [FloatFns S] (v : Vec S n) : S := v.norm

/-- `Vector::metric_distance`, vector.rs 592-594 -/
def metricDistance [Sub S] [FloatFns S] (v w : Vec S n) : S := (v - w).norm

end Norms

/-- `Vector::l1_norm`, vector.rs 500-508 -/
def l1Norm [Zero S] [Add S] [SAbs S] (v : Vec S n) : S :=
  forRange n 0 fun i result => result + sabs (v.data i)

/-- `Vector::linf_norm`, vector.rs 541-549 -/
def linfNorm [Zero S] [Max S] [SAbs S] (v : Vec S n) : S :=
  forRange n 0 fun i result => max result (sabs (v.data i))

/-- `Vector::lp_norm`, vector.rs 657-665. `powi` is a power with natural exponent; `recipP` is
`cast((p as f64).recip())`. Exponents `p` above `i32::MAX` (which wrap in `p as i32`) and `p = 0` (infinite
reciprocal) are outside the model. -/
def lpNorm [Zero S] [Add S] [SAbs S] [Pow S ℕ] [FloatFns S] (recipP : ℕ → S) (v : Vec S n) (p : ℕ) : S :=
  fpowf (forRange n 0 fun i result => result + (sabs (v.data i)) ^ p) (recipP p)

/-- A value of a type implementing the `Norm` trait for vectors (normed.rs 527-573; impls for
`L1Norm`, `L2Norm`, `LinfNorm`, `LpNorm`, vector.rs 681-779). -/
structure NormImpl (V S : Type*) where
  norm : V → S
  metricDistance : V → V → S

/-- vector.rs 681-696 -/
def L1 [Zero S] [Add S] [Sub S] [SAbs S] : NormImpl (Vec S n) S where
  norm rhs := rhs.l1Norm
  metricDistance lhs rhs := (rhs - lhs).l1Norm

/-- vector.rs 708-723 -/
def L2 [Zero S] [Add S] [Mul S] [Sub S] [FloatFns S] : NormImpl (Vec S n) S where
  norm lhs := fsqrt (dot lhs lhs)
  metricDistance lhs rhs := fsqrt (dot (rhs - lhs) (rhs - lhs))

/-- vector.rs 735-750 -/
def Linf [Zero S] [Max S] [Sub S] [SAbs S] : NormImpl (Vec S n) S where
  norm lhs := lhs.linfNorm
  metricDistance lhs rhs := (rhs - lhs).linfNorm

/-- vector.rs 764-779 -/
def Lp [Zero S] [Add S] [Sub S] [SAbs S] [Pow S ℕ] [FloatFns S] (recipP : ℕ → S) (p : ℕ) :
    NormImpl (Vec S n) S where
  norm lhs := lhs.lpNorm recipP p
  metricDistance lhs rhs := (rhs - lhs).lpNorm recipP p

/-- `Vector::apply_norm`, vector.rs 433-435 -/
def applyNorm (v : Vec S n) (nm : NormImpl (Vec S n) S) : S := nm.norm v

/-- `Vector::apply_metric_distance`, vector.rs 470-472 -/
def applyMetricDistance (v w : Vec S n) (nm : NormImpl (Vec S n) S) : S := nm.metricDistance v w

/-! ### the `Normed` trait -/

section Normed

variable [Zero S] [One S] [Add S] [Mul S] [Div S] [FloatFns S]

/-- `Normed::scale`, vector.rs 1478-1480 -/
def scale (v : Vec S n) (k : S) : Vec S n := v * k

/-- `Normed::unscale`, vector.rs 1488-1490 -/
def unscale (v : Vec S n) (k : S) : Vec S n := v * (1 / k)

/-- `Normed::normalize`, vector.rs 1498-1500 -/
def normalize (v : Vec S n) : Vec S n := v * (1 / v.norm)

/-- `Normed::normalize_mut`, vector.rs 1503-1508: new value and returned norm -/
def normalizeMut (v : Vec S n) : Vec S n × S := (v.normalize, v.norm)

/-- `Normed::try_normalize`, vector.rs 1511-1518 -/
def tryNormalize [LE S] [DecidableLE S] (v : Vec S n) (threshold : S) : Option (Vec S n) :=
  if v.norm ≤ threshold then none else some v.normalize

/-- `Normed::try_normalize_mut`, vector.rs 1521-1528: new value and returned option -/
def tryNormalizeMut [LE S] [DecidableLE S] (v : Vec S n) (threshold : S) : Vec S n × Option S :=
  if v.norm ≤ threshold then (v, none) else ((v.normalizeMut).1, some (v.normalizeMut).2)

/-- `Normed::distance_squared`, vector.rs 1531-1533 -/
def distanceSquared [Sub S] (v w : Vec S n) : S := v.metricDistanceSquared w

/-- `Normed::distance`, vector.rs 1536-1538 -/
def distance [Sub S] (v w : Vec S n) : S := v.metricDistance w

/-! ### geometry -/

/-- `Vector::reflect`, vector.rs 893-898 -/
def reflect [Sub S] (v normal : Vec S n) : Vec S n :=
  let two : S := 1 + 1
  let unitNormal := normal.normalize
  v - unitNormal * (two * v.dot unitNormal)

end Normed

/-- `Vector::lerp`, vector.rs 841-843 -/
def lerp [Zero S] [Add S] [Sub S] [Mul S] (v w : Vec S n) (amount : S) : Vec S n :=
  v + ((w - v) * amount)

/-- `Vector::project`, vector.rs 869-871 -/
def project [Zero S] [Add S] [Mul S] [Div S] (v w : Vec S n) : Vec S n :=
  w * (v.dot w / w.normSquared)

/-- `Vector::component_min`, vector.rs 921-929 -/
def componentMin [Zero S] [Min S] (v w : Vec S n) : Vec S n :=
  ⟨forRange n (zero (n := n)).data fun i result => Function.update result i (min (v.data i) (w.data i))⟩

/-- `Vector::component_max`, vector.rs 952-960 -/
def componentMax [Zero S] [Max S] (v w : Vec S n) : Vec S n :=
  ⟨forRange n (zero (n := n)).data fun i result => Function.update result i (max (v.data i) (w.data i))⟩

/-! ### homogeneous coordinates -/

/-- `Vector::extend`, vector.rs 988-999 (`NPLUS1 = N + 1` by the trait bound 963-968) -/
def extend [Zero S] (v : Vec S n) (last : S) : Vec S (n + 1) :=
  ⟨Function.update
    (forRange n (zero (n := n + 1)).data fun i result => Function.update result i.castSucc (v.data i))
    (Fin.last n) last⟩

/-- `Vector::to_homogeneous`, vector.rs 1020-1022 -/
def toHomogeneous [Zero S] (v : Vec S n) : Vec S (n + 1) := v.extend 0

/-- `Vector::contract`, vector.rs 1049-1057 -/
def contract [Zero S] (v : Vec S (n + 1)) : Vec S n :=
  ⟨forRange n (zero (n := n)).data fun i result => Function.update result i (v.data i.castSucc)⟩

/-- `Vector::from_homogeneous`, vector.rs 1085-1091 -/
def fromHomogeneous [Zero S] [BEq S] (v : Vec S (n + 1)) : Option (Vec S n) :=
  if v.data (Fin.last n) == 0 then some v.contract else none

/-! ### three dimensions -/

section ThreeD

variable [Zero S] [One S]

/-- `Vector1::unit_x`, vector.rs 1985 -/
def unitX1 : Vec S 1 := new1 1
/-- `Vector2::unit_x`, vector.rs 2050 -/
def unitX2 : Vec S 2 := new2 1 0
/-- `Vector2::unit_y`, vector.rs 2068 -/
def unitY2 : Vec S 2 := new2 0 1
/-- `Vector3::unit_x`, vector.rs 2115 -/
def unitX3 : Vec S 3 := new3 1 0 0
/-- `Vector3::unit_y`, vector.rs 2134 -/
def unitY3 : Vec S 3 := new3 0 1 0
/-- `Vector3::unit_z`, vector.rs 2153 -/
def unitZ3 : Vec S 3 := new3 0 0 1
/-- `Vector4::unit_x`, vector.rs 2293 -/
def unitX4 : Vec S 4 := new4 1 0 0 0
/-- `Vector4::unit_y`, vector.rs 2313 -/
def unitY4 : Vec S 4 := new4 0 1 0 0
/-- `Vector4::unit_z`, vector.rs 2333 -/
def unitZ4 : Vec S 4 := new4 0 0 1 0
/-- `Vector4::unit_w`, vector.rs 2353 -/
def unitW4 : Vec S 4 := new4 0 0 0 1

/-- `Vector3::cross`, vector.rs 2186-2192 -/
def cross [Mul S] [Sub S] (v w : Vec S 3) : Vec S 3 :=
  let x := v.data 1 * w.data 2 - v.data 2 * w.data 1
  let y := v.data 2 * w.data 0 - v.data 0 * w.data 2
  let z := v.data 0 * w.data 1 - v.data 1 * w.data 0
  new3 x y z

/-- `Vector3::triple`, vector.rs 2242-2244 -/
def triple [Add S] [Mul S] [Sub S] (v other1 other2 : Vec S 3) : S :=
  (v.cross other1).dot other2

end ThreeD

end Vec

/-- `Unit<T>`, cglinalg_core/src/unit.rs 17-20. Nothing in the type enforces the norm; it is
established by the constructors. -/
@[ext] structure Unit' (T : Type*) where
  /-- `Unit::from_value_unchecked`, unit.rs 71-73 -/
  fromValueUnchecked ::
  /-- `Unit::into_inner`, unit.rs 46-48; also `Deref`, unit.rs 83-90 -/
  value : T

/-- The part of the `Normed` trait (normed.rs 49-514) that `Unit` uses. -/
class Normed (T : Type*) (S : outParam (Type*)) where
  normSquared : T → S
  norm : T → S
  normalize : T → T

/-- `Normed for Vector`, vector.rs 1461-1539 -/
instance instNormedVec {S : Type*} {n : ℕ} [Zero S] [One S] [Add S] [Mul S] [Div S] [FloatFns S] :
    Normed (Vec S n) S where
  normSquared := Vec.normSquared
  norm := Vec.norm
  normalize := Vec.normalize

namespace Unit'

variable {T S : Type*} [Normed T S]

/-- `Unit::from_value_with_norm`, unit.rs 146-152 -/
def fromValueWithNorm (value : T) : Unit' T × S :=
  (⟨Normed.normalize value⟩, Normed.norm value)

/-- `Unit::from_value`, unit.rs 122-124 -/
def fromValue (value : T) : Unit' T := (fromValueWithNorm value).1

/-- `Unit::try_from_value_with_norm`, unit.rs 178-193 -/
def tryFromValueWithNorm [Mul S] [LT S] [DecidableLT S] [FloatFns S] (value : T) (threshold : S) :
    Option (Unit' T × S) :=
  let normSquared := Normed.normSquared value
  if normSquared > threshold * threshold then
    some (⟨Normed.normalize value⟩, fsqrt normSquared)
  else none

/-- `Unit::try_from_value`, unit.rs 218-223 -/
def tryFromValue [Mul S] [LT S] [DecidableLT S] [FloatFns S] (value : T) (threshold : S) :
    Option (Unit' T) :=
  (tryFromValueWithNorm value threshold).map Prod.fst

/-- `-Unit<Vector>`, vector.rs 1924-1946 -/
def negVec {S : Type*} {n : ℕ} [Zero S] [Neg S] (u : Unit' (Vec S n)) : Unit' (Vec S n) := ⟨-u.value⟩

end Unit'

end Cgl
