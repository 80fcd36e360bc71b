import Verif.Model.Vector

/-! # `Point<S, N>` - model of cglinalg_core/src/point.rs -/

namespace Cgl

/-- point.rs 45-47: a point is a wrapper around its coordinate vector -/
@[ext] structure Pt (S : Type*) (n : ℕ) where
  coords : Vec S n

namespace Pt

variable {S T : Type*} {n : ℕ}

/-- `Point1::new`, point.rs 1317-1319 -/
def new1 (x : S) : Pt S 1 := ⟨Vec.new1 x⟩
/-- `Point2::new`, point.rs 1338-1342 -/
def new2 (x y : S) : Pt S 2 := ⟨Vec.new2 x y⟩
/-- `Point3::new`, point.rs 1363-1367 -/
def new3 (x y z : S) : Pt S 3 := ⟨Vec.new3 x y z⟩

/-- `Point::try_cast`, point.rs 111-116 -/
def tryCast (conv : S → Option T) (zeroed : T) (p : Pt S n) : Option (Pt T n) :=
  (p.coords.tryCast conv zeroed).map Pt.mk

/-- `Point::from_fill`, point.rs 137-141 -/
def fromFill (value : S) : Pt S n := ⟨Vec.fromFill value⟩

/-- `Point::map`, point.rs 158-165 -/
def map (op : S → T) (p : Pt S n) : Pt T n := ⟨p.coords.map op⟩

/-- `Point::origin`, point.rs 195-197 -/
def origin [Zero S] : Pt S n := ⟨0⟩

/-- `Point::from_vector`, point.rs 219-221 -/
def fromVector (v : Vec S n) : Pt S n := ⟨v⟩

/-- `Point::to_vector`, point.rs 243-245 -/
def toVector (p : Pt S n) : Vec S n := p.coords

/-- `Index<usize>`, point.rs 611-637 -/
def index (p : Pt S n) (i : ℕ) : Res S := readAt p.coords.data i

section
variable [Zero S] [Add S] [Mul S]

/-- `Point::dot`, point.rs 260-262 -/
def dot (p q : Pt S n) : S := p.coords.dot q.coords

/-- `Point::norm_squared`, point.rs 278-280 -/
def normSquared (p : Pt S n) : S := p.coords.normSquared

/-- `Point::magnitude_squared`, point.rs 318-320 -/
def magnitudeSquared (p : Pt S n) : S := p.normSquared

/-- `Point::metric_distance_squared`, point.rs 298-300 -/
def metricDistanceSquared [Sub S] (p q : Pt S n) : S := p.coords.metricDistanceSquared q.coords

/-- `Point::norm`, point.rs 341-343 -/
def norm [FloatFns S] (p : Pt S n) : S := p.coords.norm

/-- `Point::metric_distance`, point.rs 361-363 -/
def metricDistance [Sub S] [FloatFns S] (p q : Pt S n) : S := p.coords.metricDistance q.coords

/-- `Point::magnitude`, point.rs 381-383 -/
def magnitude [FloatFns S] (p : Pt S n) : S := p.norm

/-- `Point::l2_norm`, point.rs 401-403 -/
def l2Norm [FloatFns S] (p : Pt S n) : S := p.norm

end

/-- `Point::extend`, point.rs 431-442 -/
def extend [Zero S] (p : Pt S n) (last : S) : Pt S (n + 1) :=
  ⟨⟨Function.update
    (forRange n (origin (n := n + 1)).coords.data fun i result =>
      Function.update result i.castSucc (p.coords.data i)) (Fin.last n) last⟩⟩

/-- `Point::to_homogeneous`, point.rs 461-463 -/
def toHomogeneous [Zero S] [One S] (p : Pt S n) : Vec S (n + 1) := p.coords.extend 1

/-- `Point::contract`, point.rs 490-498 -/
def contract [Zero S] (p : Pt S (n + 1)) : Pt S n :=
  ⟨⟨forRange n (origin (n := n)).coords.data fun i result =>
    Function.update result i (p.coords.data i.castSucc)⟩⟩

/-- `Point::from_homogeneous`, point.rs 530-542 -/
def fromHomogeneous [Zero S] [Div S] [BEq S] (v : Vec S (n + 1)) : Option (Pt S n) :=
  if v.data (Fin.last n) != 0 then
    some ⟨⟨forRange n (origin (n := n)).coords.data fun i result =>
      Function.update result i (v.data i.castSucc / v.data (Fin.last n))⟩⟩
  else none

section Ops
variable [Zero S]

/-- `Point + Vector`, point.rs 639-693 -/
instance [Add S] : HAdd (Pt S n) (Vec S n) (Pt S n) := ⟨fun p v => ⟨p.coords + v⟩⟩
/-- `Point - Vector`, point.rs 695-749 -/
instance [Sub S] : HSub (Pt S n) (Vec S n) (Pt S n) := ⟨fun p v => ⟨p.coords - v⟩⟩
/-- `Point - Point`, point.rs 751-797 -/
instance [Sub S] : HSub (Pt S n) (Pt S n) (Vec S n) := ⟨fun p q => p.coords - q.coords⟩
/-- `Point * scalar`, point.rs 799-825 -/
instance [Mul S] : HMul (Pt S n) S (Pt S n) := ⟨fun p k => ⟨p.coords * k⟩⟩
/-- `Point / scalar`, point.rs 827-853 -/
instance [Div S] : HDiv (Pt S n) S (Pt S n) := ⟨fun p k => ⟨p.coords / k⟩⟩
/-- `Point % scalar`, point.rs 855-881 -/
instance [Mod S] : HMod (Pt S n) S (Pt S n) := ⟨fun p k => ⟨p.coords % k⟩⟩
/-- `scalar * Point`, point.rs 884-910 -/
instance [Mul S] : HMul S (Pt S n) (Pt S n) := ⟨fun k p => ⟨k * p.coords⟩⟩
/-- `-Point`, point.rs 913-935 -/
instance [Neg S] : Neg (Pt S n) := ⟨fun p => ⟨-p.coords⟩⟩

end Ops

/-- `Point += Vector`, point.rs 937-955 -/
def addAssign [Add S] (p : Pt S n) (v : Vec S n) : Pt S n := ⟨p.coords.addAssign v⟩
/-- `Point -= Vector`, point.rs 957-975 -/
def subAssign [Sub S] (p : Pt S n) (v : Vec S n) : Pt S n := ⟨p.coords.subAssign v⟩
/-- `Point *= scalar`, point.rs 977-985 -/
def mulAssign [Mul S] (p : Pt S n) (k : S) : Pt S n := ⟨p.coords.mulAssign k⟩
/-- `Point /= scalar`, point.rs 987-995 -/
def divAssign [Div S] (p : Pt S n) (k : S) : Pt S n := ⟨p.coords.divAssign k⟩
/-- `Point %= scalar`, point.rs 997-1005 -/
def remAssign [Mod S] (p : Pt S n) (k : S) : Pt S n := ⟨p.coords.remAssign k⟩

/-! ### `Normed for Point`, point.rs 1200-1276 -/

section Normed
variable [Zero S] [One S] [Add S] [Mul S] [Div S] [FloatFns S]

/-- `Normed::scale`, point.rs 1217-1221; `scale_mut` (1224-1226) stores the same value -/
def scale (p : Pt S n) (norm : S) : Pt S n := ⟨p.coords.scale norm⟩
/-- `Normed::unscale`, point.rs 1229-1233; `unscale_mut` (1236-1238) stores the same value -/
def unscale (p : Pt S n) (norm : S) : Pt S n := ⟨p.coords.unscale norm⟩
/-- `Normed::normalize`, point.rs 1241-1245 -/
def normalize (p : Pt S n) : Pt S n := ⟨p.coords.normalize⟩
/-- `Normed::normalize_mut`, point.rs 1248-1250 -/
def normalizeMut (p : Pt S n) : Pt S n × S :=
  let r := p.coords.normalizeMut
  (⟨r.1⟩, r.2)
/-- `Normed::try_normalize`, point.rs 1253-1260 -/
def tryNormalize [LE S] [DecidableLE S] (p : Pt S n) (threshold : S) : Option (Pt S n) :=
  let norm := p.coords.norm
  if norm ≤ threshold then none else some p.normalize
/-- `Normed::try_normalize_mut`, point.rs 1263-1265 -/
def tryNormalizeMut [LE S] [DecidableLE S] (p : Pt S n) (threshold : S) : Pt S n × Option S :=
  let r := p.coords.tryNormalizeMut threshold
  (⟨r.1⟩, r.2)
/-- `Normed for Point`, point.rs 1200-1276 -/
instance instNormed : Normed (Pt S n) S where
  normSquared := normSquared
  norm := norm
  normalize := normalize
/-- `-Unit<Point>`, point.rs 1278-1300 -/
def negUnit [Neg S] (u : Unit' (Pt S n)) : Unit' (Pt S n) := ⟨-u.value⟩

end Normed

end Pt
end Cgl
