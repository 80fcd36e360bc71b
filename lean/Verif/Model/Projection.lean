import Verif.Model.MatrixSq

/-!
# Projections

Model of cglinalg_transform/src/projection.rs. A projection stores its 4x4 matrix; every accessor
recomputes a parameter from matrix entries. The `Display` and `approx_cmp` impls are not repeated here
(they delegate to the matrix). `point.x` is the coordinate `data 0`, and so on; `matrix.cIrJ` and
`matrix[I][J]` are both `matrix.data I J`.
-/

namespace Cgl

variable {S : Type*}

/-- `Perspective3`, projection.rs 160-163 -/
@[ext] structure Perspective3 (S : Type*) where
  matrix : Mat S 4 4

/-- `Orthographic3`, projection.rs 2817-2820 -/
@[ext] structure Orthographic3 (S : Type*) where
  matrix : Mat S 4 4

namespace Perspective3

variable [Zero S] [One S] [Add S] [Sub S] [Mul S] [Div S] [Neg S]

/-- `Perspective3::new`, projection.rs 305-309 -/
def new (left right bottom top near far : S) : Perspective3 S :=
  ⟨Mat.fromPerspective left right bottom top near far⟩

/-- `Perspective3::from_vfov`, projection.rs 591-600 (the angle already converted to radians) -/
def fromVfov [NatCast S] [FloatFns S] (vfov : Radians S) (aspectRatio near far : S) : Perspective3 S :=
  ⟨Mat.fromPerspectiveVfov vfov aspectRatio near far⟩

/-- `Perspective3::aspect_ratio`, projection.rs 633-667 -/
def aspectRatio (p : Perspective3 S) : S := p.matrix.data 1 1 / p.matrix.data 0 0

/-- `Perspective3::vfov`, projection.rs 689-833 -/
def vfov [FloatFns S] (p : Perspective3 S) : Radians S :=
  let two : S := 1 + 1
  let numerator := two * p.matrix.data 1 1
  let denominator :=
    p.matrix.data 2 1 * p.matrix.data 2 1 + p.matrix.data 1 1 * p.matrix.data 1 1 - 1
  let tanVfov := numerator / denominator
  ⟨fatan tanVfov⟩

/-- `Perspective3::near`, projection.rs 877-951 -/
def near (p : Perspective3 S) : S :=
  let two : S := 1 + 1
  let ratio := (-p.matrix.data 2 2 + 1) / (-p.matrix.data 2 2 - 1)
  ((1 - ratio) / (two * ratio)) * p.matrix.data 3 2

/-- `Perspective3::far`, projection.rs 995-1071 -/
def far (p : Perspective3 S) : S :=
  let two : S := 1 + 1
  let ratio := (-p.matrix.data 2 2 + 1) / (-p.matrix.data 2 2 - 1)
  ((1 - ratio) / two) * p.matrix.data 3 2

/-- `Perspective3::right`, projection.rs 1116-1189 -/
def right (p : Perspective3 S) : S :=
  let two : S := 1 + 1
  let ratio := (p.matrix.data 2 0 + 1) / (-p.matrix.data 2 0 + 1)
  let near := p.near
  ((two * near) * (ratio / (ratio + 1))) * (1 / p.matrix.data 0 0)

/-- `Perspective3::left`, projection.rs 1234-1306 -/
def left (p : Perspective3 S) : S :=
  let two : S := 1 + 1
  let ratio := (p.matrix.data 2 0 + 1) / (-p.matrix.data 2 0 + 1)
  let near := p.near
  ((two * near) * (1 / (ratio + 1))) * (1 / p.matrix.data 0 0)

/-- `Perspective3::top`, projection.rs 1351-1424 -/
def top (p : Perspective3 S) : S :=
  let two : S := 1 + 1
  let ratio := (p.matrix.data 2 1 + 1) / (-p.matrix.data 2 1 + 1)
  let near := p.near
  ((two * near) * (ratio / (ratio + 1))) * (1 / p.matrix.data 1 1)

/-- `Perspective3::bottom`, projection.rs 1469-1541 -/
def bottom (p : Perspective3 S) : S :=
  let two : S := 1 + 1
  let ratio := (p.matrix.data 2 1 + 1) / (-p.matrix.data 2 1 + 1)
  let near := p.near
  ((two * near) * (1 / (ratio + 1))) * (1 / p.matrix.data 1 1)

/-- `Perspective3::project_point`, projection.rs 1919-1927; also `Perspective3 * Point3`, 2337-2383 -/
def projectPoint (p : Perspective3 S) (point : Pt S 3) : Pt S 3 :=
  let x := point.coords.data 0
  let y := point.coords.data 1
  let z := point.coords.data 2
  let inverseW := -1 / z
  Pt.new3
    ((p.matrix.data 0 0 * x + p.matrix.data 2 0 * z) * inverseW)
    ((p.matrix.data 1 1 * y + p.matrix.data 3 1 * z) * inverseW)
    ((p.matrix.data 2 2 * z + p.matrix.data 3 2) * inverseW)

/-- `Perspective3::project_vector`, projection.rs 1979-1984; also `Perspective3 * Vector3`, 2385-2431 -/
def projectVector (p : Perspective3 S) (vector : Vec S 3) : Vec S 3 :=
  let projected : Vec S 4 := p.matrix * vector.extend 1
  let oneDivW := 1 / projected.data 3
  (projected * oneDivW).contract

/-- the common body of `unproject_point` (projection.rs 2041-2079) and `unproject_vector` (2136-2174) -/
def unprojectCoords (p : Perspective3 S) (v : Vec S 3) : Vec S 3 :=
  let two : S := 1 + 1
  let c0r0 := (p.right + p.left) / (two * p.near)
  let c1r1 := (p.top + p.bottom) / (two * p.near)
  let c2r3 := (p.near - p.far) / (two * p.far * p.near)
  let c3r0 := (p.right - p.left) / (two * p.near)
  let c3r1 := (p.top - p.bottom) / (two * p.near)
  let c3r2 : S := -1
  let c3r3 := (p.far + p.near) / (two * p.far * p.near)
  let w := c2r3 * v.data 2 + c3r3
  let inverseW := 1 / w
  Vec.new3
    ((c0r0 * v.data 0 + c3r0) * inverseW)
    ((c1r1 * v.data 1 + c3r1) * inverseW)
    (c3r2 * inverseW)

/-- `Perspective3::unproject_point`, projection.rs 2041-2079 -/
def unprojectPoint (p : Perspective3 S) (point : Pt S 3) : Pt S 3 := ⟨p.unprojectCoords point.coords⟩

/-- `Perspective3::unproject_vector`, projection.rs 2136-2174 -/
def unprojectVector (p : Perspective3 S) (vector : Vec S 3) : Vec S 3 := p.unprojectCoords vector

/-- `Perspective3::to_projective_matrix`, projection.rs 2236-2238; also `matrix`, 1601-1603, `AsRef`,
2311-2316, and `From`, 2327-2335 -/
def toProjectiveMatrix (p : Perspective3 S) : Mat S 4 4 := p.matrix

/-- `Perspective3::view_unit_right`, projection.rs 1630-1632 -/
def viewUnitRight (_ : Perspective3 S) : Unit' (Vec S 3) := ⟨Vec.unitX3⟩
/-- `Perspective3::view_unit_up`, projection.rs 1659-1661 -/
def viewUnitUp (_ : Perspective3 S) : Unit' (Vec S 3) := ⟨Vec.unitY3⟩
/-- `Perspective3::view_unit_depth`, projection.rs 1688-1690 -/
def viewUnitDepth (_ : Perspective3 S) : Unit' (Vec S 3) := ⟨Vec.unitZ3⟩
/-- `Perspective3::view_unit_gaze`, projection.rs 1720-1722 -/
def viewUnitGaze (_ : Perspective3 S) : Unit' (Vec S 3) := ⟨-Vec.unitZ3⟩
/-- `Perspective3::clip_unit_right`, projection.rs 1749-1751 -/
def clipUnitRight (_ : Perspective3 S) : Unit' (Vec S 3) := ⟨Vec.unitX3⟩
/-- `Perspective3::clip_unit_up`, projection.rs 1778-1780 -/
def clipUnitUp (_ : Perspective3 S) : Unit' (Vec S 3) := ⟨Vec.unitY3⟩
/-- `Perspective3::clip_unit_depth`, projection.rs 1807-1809 -/
def clipUnitDepth (_ : Perspective3 S) : Unit' (Vec S 3) := ⟨Vec.unitZ3⟩
/-- `Perspective3::clip_unit_gaze`, projection.rs 1839-1841 -/
def clipUnitGaze (_ : Perspective3 S) : Unit' (Vec S 3) := ⟨Vec.unitZ3⟩
/-- `Perspective3::clip_ndc_bounds`, projection.rs 1865-1867 -/
def clipNdcBounds (_ : Perspective3 S) : (S × S) × (S × S) × (S × S) := ((-1, 1), (-1, 1), (-1, 1))

end Perspective3

namespace Orthographic3

variable [Zero S] [One S] [Add S] [Sub S] [Mul S] [Div S] [Neg S]

/-- `Orthographic3::new`, projection.rs 2978-2982 -/
def new (left right bottom top near far : S) : Orthographic3 S :=
  ⟨Mat.fromOrthographic left right bottom top near far⟩

/-- `Orthographic3::near`, projection.rs 3009-3082 -/
def near (p : Orthographic3 S) : S :=
  let two : S := 1 + 1
  let ratio := (-p.matrix.data 3 2 + 1) / (-p.matrix.data 3 2 - 1)
  (-two * (1 / (ratio - 1))) * (1 / p.matrix.data 2 2)

/-- `Orthographic3::far`, projection.rs 3109-3183 -/
def far (p : Orthographic3 S) : S :=
  let two : S := 1 + 1
  let ratio := (-p.matrix.data 3 2 + 1) / (-p.matrix.data 3 2 - 1)
  (-two * (ratio / (ratio - 1))) * (1 / p.matrix.data 2 2)

/-- `Orthographic3::right`, projection.rs 3210-3283 -/
def right (p : Orthographic3 S) : S :=
  let two : S := 1 + 1
  let ratio := (-p.matrix.data 3 0 + 1) / (p.matrix.data 3 0 + 1)
  (two * (ratio / (ratio + 1))) * (1 / p.matrix.data 0 0)

/-- `Orthographic3::left`, projection.rs 3310-3382 -/
def left (p : Orthographic3 S) : S :=
  let two : S := 1 + 1
  let ratio := (-p.matrix.data 3 0 + 1) / (p.matrix.data 3 0 + 1)
  (two * (1 / (ratio + 1))) * (1 / p.matrix.data 0 0)

/-- `Orthographic3::top`, projection.rs 3409-3481 -/
def top (p : Orthographic3 S) : S :=
  let two : S := 1 + 1
  let ratio := (-p.matrix.data 3 1 + 1) / (p.matrix.data 3 1 + 1)
  (two * (ratio / (ratio + 1))) * (1 / p.matrix.data 1 1)

/-- `Orthographic3::bottom`, projection.rs 3508-3580 -/
def bottom (p : Orthographic3 S) : S :=
  let two : S := 1 + 1
  let ratio := (-p.matrix.data 3 1 + 1) / (p.matrix.data 3 1 + 1)
  (two * (1 / (ratio + 1))) * (1 / p.matrix.data 1 1)

/-- `Orthographic3::project_point`, projection.rs 3906-3912; also `Orthographic3 * Point3`, 4149-4195 -/
def projectPoint (p : Orthographic3 S) (point : Pt S 3) : Pt S 3 :=
  Pt.new3
    (p.matrix.data 0 0 * point.coords.data 0 + p.matrix.data 3 0)
    (p.matrix.data 1 1 * point.coords.data 1 + p.matrix.data 3 1)
    (p.matrix.data 2 2 * point.coords.data 2 + p.matrix.data 3 2)

/-- `Orthographic3::project_vector`, projection.rs 3936-3942; also `Orthographic3 * Vector3`, 4197-4243 -/
def projectVector (p : Orthographic3 S) (vector : Vec S 3) : Vec S 3 :=
  Vec.new3 (p.matrix.data 0 0 * vector.data 0) (p.matrix.data 1 1 * vector.data 1)
    (p.matrix.data 2 2 * vector.data 2)

/-- `Orthographic3::unproject_point`, projection.rs 3970-4000 -/
def unprojectPoint (p : Orthographic3 S) (point : Pt S 3) : Pt S 3 :=
  let oneHalf : S := 1 / (1 + 1)
  let c0r0 := oneHalf * (p.right + p.left)
  let c1r1 := oneHalf * (p.top + p.bottom)
  let c2r2 := -oneHalf * (p.far - p.near)
  let c3r0 := oneHalf * (p.right - p.left)
  let c3r1 := oneHalf * (p.top - p.bottom)
  let c3r2 := -oneHalf * (p.far + p.near)
  Pt.new3 (c0r0 * point.coords.data 0 + c3r0) (c1r1 * point.coords.data 1 + c3r1)
    (c2r2 * point.coords.data 2 + c3r2)

/-- `Orthographic3::unproject_vector`, projection.rs 4028-4055 -/
def unprojectVector (p : Orthographic3 S) (vector : Vec S 3) : Vec S 3 :=
  let oneHalf : S := 1 / (1 + 1)
  let c0r0 := oneHalf * (p.right + p.left)
  let c1r1 := oneHalf * (p.top + p.bottom)
  let c2r2 := -oneHalf * (p.far - p.near)
  Vec.new3 (c0r0 * vector.data 0) (c1r1 * vector.data 1) (c2r2 * vector.data 2)

/-- `Orthographic3::to_projective_matrix`, projection.rs 4084-4086; also `matrix`, 3608-3610 -/
def toProjectiveMatrix (p : Orthographic3 S) : Mat S 4 4 := p.matrix

/-- `Orthographic3::view_unit_right`, projection.rs 3638-3640 -/
def viewUnitRight (_ : Orthographic3 S) : Unit' (Vec S 3) := ⟨Vec.unitX3⟩
/-- `Orthographic3::view_unit_up`, projection.rs 3668-3670 -/
def viewUnitUp (_ : Orthographic3 S) : Unit' (Vec S 3) := ⟨Vec.unitY3⟩
/-- `Orthographic3::view_unit_depth`, projection.rs 3698-3700 -/
def viewUnitDepth (_ : Orthographic3 S) : Unit' (Vec S 3) := ⟨Vec.unitZ3⟩
/-- `Orthographic3::view_unit_gaze`, projection.rs 3731-3733 -/
def viewUnitGaze (_ : Orthographic3 S) : Unit' (Vec S 3) := ⟨-Vec.unitZ3⟩
/-- `Orthographic3::clip_unit_right`, projection.rs 3761-3763 -/
def clipUnitRight (_ : Orthographic3 S) : Unit' (Vec S 3) := ⟨Vec.unitX3⟩
/-- `Orthographic3::clip_unit_up`, projection.rs 3791-3793 -/
def clipUnitUp (_ : Orthographic3 S) : Unit' (Vec S 3) := ⟨Vec.unitY3⟩
/-- `Orthographic3::clip_unit_depth`, projection.rs 3821-3823 -/
def clipUnitDepth (_ : Orthographic3 S) : Unit' (Vec S 3) := ⟨Vec.unitZ3⟩
/-- `Orthographic3::clip_unit_gaze`, projection.rs 3854-3856 -/
def clipUnitGaze (_ : Orthographic3 S) : Unit' (Vec S 3) := ⟨Vec.unitZ3⟩
/-- `Orthographic3::clip_ndc_bounds`, projection.rs 3880-3882 -/
def clipNdcBounds (_ : Orthographic3 S) : (S × S) × (S × S) × (S × S) := ((-1, 1), (-1, 1), (-1, 1))

end Orthographic3

end Cgl
