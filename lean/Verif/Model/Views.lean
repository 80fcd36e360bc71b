import Verif.Model.Point
import Verif.Model.Matrix
import Verif.Model.Quaternion
import Verif.Model.Complex

/-!
# Memory layout, reference casts, slices and named component views

The library turns a reference to one type into a reference to another with
`&*(p as *const A as *const B)`. The model of such a cast goes through memory: every type is stored as a
row of scalars, and the cast reads the row at the same address as the other type. `none` stands for a cast
that reads past the end of the object (undefined behaviour in Rust).

Trusted: arrays and `#[repr(C)]` structs whose fields are all of type `S` (or such structs again) are stored
in order without padding. For tuples, which Rust does not promise to lay out in order, the model assumes the
order the library itself assumes (vector.rs 2388-2506, 2521-2543; point.rs 1400-1468; quaternion.rs
3860-3868; complex.rs 1922-1927, 2132-2140).
-/

namespace Cgl

/-- A type whose values occupy `size` consecutive scalars. -/
class Layout (T : Type*) (S : outParam Type*) where
  size : ℕ
  store : T → Fin size → S
  load : (Fin size → S) → T

/-- `&*(a as *const A as *const B)` -/
def castRef {A S : Type*} (B : Type*) [Layout A S] [Layout B S] (a : A) : Option B :=
  if h : Layout.size B ≤ Layout.size A then
    some (Layout.load fun i => Layout.store a (Fin.castLE h i)) else none

/-- `&mut *(a as *mut A as *mut B)` followed by a write through the new reference: `f` is what the caller
does with it -/
def castMut {A S B : Type*} [Layout A S] [Layout B S] (a : A) (f : B → B) : Option A :=
  if h : Layout.size B ≤ Layout.size A then
    let b : B := f (Layout.load fun i => Layout.store a (Fin.castLE h i))
    some (Layout.load fun i =>
      if hi : (i : ℕ) < Layout.size B then Layout.store b ⟨i, hi⟩ else Layout.store a i)
  else none

section Instances
variable {S : Type*} {n R C : ℕ}

/-- `[S; N]` -/
instance instLayoutArray : Layout (Fin n → S) S where
  size := n
  store a := a
  load w := w

/-- `[[S; R]; C]`: the inner arrays one after the other -/
instance instLayoutArray2 : Layout (Fin C → Fin R → S) S where
  size := C * R
  store a k := a (finProdFinEquiv.symm k).1 (finProdFinEquiv.symm k).2
  load w c r := w (finProdFinEquiv (c, r))

/-- `[Vector<S, R>; C]` -/
instance instLayoutVecArray : Layout (Fin C → Vec S R) S where
  size := C * R
  store a k := (a (finProdFinEquiv.symm k).1).data (finProdFinEquiv.symm k).2
  load w c := ⟨fun r => w (finProdFinEquiv (c, r))⟩

/-- `Vector<S, N>`, vector.rs 43-48: `#[repr(C)]`, one field `data: [S; N]` -/
instance instLayoutVec : Layout (Vec S n) S where
  size := n
  store v := v.data
  load w := ⟨w⟩

/-- `Point<S, N>`, point.rs 43-47: `#[repr(C)]`, one field `coords: Vector<S, N>` -/
instance instLayoutPt : Layout (Pt S n) S where
  size := n
  store p := p.coords.data
  load w := ⟨⟨w⟩⟩

/-- `Quaternion<S>`, quaternion.rs 46-50: `#[repr(C)]`, one field `coords: Vector4<S>` -/
instance instLayoutQuat : Layout (Quat S) S where
  size := 4
  store q := q.coords.data
  load w := ⟨⟨w⟩⟩

/-- `Complex<S>`, complex.rs 19-26: `#[repr(C)]`, fields `re`, `im` -/
instance instLayoutCx : Layout (Cx S) S where
  size := 2
  store z := ![z.re, z.im]
  load w := ⟨w 0, w 1⟩

/-- `Matrix<S, R, C>`, matrix.rs 134-138: `#[repr(C)]`, one field `data: [[S; R]; C]` -/
instance instLayoutMat : Layout (Mat S R C) S where
  size := C * R
  store m := Layout.store m.data
  load w := ⟨Layout.load w⟩

/-- `(S, S)` -/
instance instLayoutTuple2 : Layout (S × S) S where
  size := 2
  store t := ![t.1, t.2]
  load w := (w 0, w 1)

/-- `(S, S, S)` -/
instance instLayoutTuple3 : Layout (S × S × S) S where
  size := 3
  store t := ![t.1, t.2.1, t.2.2]
  load w := (w 0, w 1, w 2)

/-- `(S, S, S, S)` -/
instance instLayoutTuple4 : Layout (S × S × S × S) S where
  size := 4
  store t := ![t.1, t.2.1, t.2.2.1, t.2.2.2]
  load w := (w 0, w 1, w 2, w 3)

end Instances

/-- `ViewSV<S>`, quaternion.rs 3772-3777: `#[repr(C)]`, fields `s` and `v` -/
structure ViewSV (S : Type*) where
  s : S
  v : Vec S 3

/-- layout of `ViewSV`: the scalar, then the vector -/
instance instLayoutViewSV {S : Type*} : Layout (ViewSV S) S where
  size := 4
  store x := ![x.s, x.v.data 0, x.v.data 1, x.v.data 2]
  load w := ⟨w 0, ⟨![w 1, w 2, w 3]⟩⟩

/-- A `#[repr(C)]` struct declared by `impl_coords!(T, { f0, f1, ... })`, coordinates.rs 17-26: every field
has type `S`, in declaration order. The values are kept with the names they are read by. -/
structure Fields (S : Type*) (names : List String) where
  values : Fin names.length → S

/-- layout of the structs declared by `impl_coords!` -/
instance instLayoutFields {S : Type*} {names : List String} : Layout (Fields S names) S where
  size := names.length
  store x := x.values
  load w := ⟨w⟩

/-- `x.f`: read a field by name (`none`: there is no such field, the program does not compile) -/
def Fields.get {S : Type*} {names : List String} (x : Fields S names) (f : String) : Option S :=
  if h : names.idxOf f < names.length then some (x.values ⟨names.idxOf f, h⟩) else none

/-- `x.f = a` -/
def Fields.set {S : Type*} {names : List String} (x : Fields S names) (f : String) (a : S) :
    Fields S names :=
  if h : names.idxOf f < names.length then ⟨Function.update x.values ⟨names.idxOf f, h⟩ a⟩ else x

/-- the component names of `VectorN`, vector.rs 2508-2518, and of `PointN`, point.rs 1470-1477 -/
def coordNames : ℕ → List String
  | 1 => ["x"]
  | 2 => ["x", "y"]
  | 3 => ["x", "y", "z"]
  | 4 => ["x", "y", "z", "w"]
  | _ => []

/-- the component names of `MatrixRxC`, matrix.rs 8194-8220, as `(R, C)` -/
def viewNames : ℕ × ℕ → List String
  | (1, 1) => ["c0r0"]
  | (2, 2) => ["c0r0", "c0r1", "c1r0", "c1r1"]
  | (3, 3) => ["c0r0", "c0r1", "c0r2", "c1r0", "c1r1", "c1r2", "c2r0", "c2r1", "c2r2"]
  | (4, 4) => [
    "c0r0", "c0r1", "c0r2", "c0r3",
    "c1r0", "c1r1", "c1r2", "c1r3",
    "c2r0", "c2r1", "c2r2", "c2r3",
    "c3r0", "c3r1", "c3r2", "c3r3"]
  | (1, 2) => ["c0r0", "c1r0"]
  | (1, 3) => ["c0r0", "c1r0", "c2r0"]
  | (1, 4) => ["c0r0", "c1r0", "c2r0", "c3r0"]
  | (2, 3) => ["c0r0", "c0r1", "c1r0", "c1r1", "c2r0", "c2r1"]
  | (2, 4) => ["c0r0", "c0r1", "c1r0", "c1r1", "c2r0", "c2r1", "c3r0", "c3r1"]
  | (3, 4) => [
    "c0r0", "c0r1", "c0r2",
    "c1r0", "c1r1", "c1r2",
    "c2r0", "c2r1", "c2r2",
    "c3r0", "c3r1", "c3r2"]
  | (3, 2) => ["c0r0", "c0r1", "c0r2", "c1r0", "c1r1", "c1r2"]
  | (4, 2) => ["c0r0", "c0r1", "c0r2", "c0r3", "c1r0", "c1r1", "c1r2", "c1r3"]
  | (4, 3) => [
    "c0r0", "c0r1", "c0r2", "c0r3",
    "c1r0", "c1r1", "c1r2", "c1r3",
    "c2r0", "c2r1", "c2r2", "c2r3"]
  | _ => []

/-- the shapes that have a view, matrix.rs 8222-8234 -/
def viewShapes : List (ℕ × ℕ) :=
  [(1, 1), (2, 2), (3, 3), (4, 4), (1, 2), (1, 3), (1, 4), (2, 3), (2, 4), (3, 2), (3, 4), (4, 2), (4, 3)]

section Access
variable {S : Type*} {n R C : ℕ}

/-- `v.x` through `Deref`, coordinates.rs 32-42 -/
def Vec.field (v : Vec S n) (f : String) : Option S :=
  (castRef (Fields S (coordNames n)) v).bind fun x => x.get f
/-- `v.x = a` through `DerefMut`, coordinates.rs 44-52 -/
def Vec.setField (v : Vec S n) (f : String) (a : S) : Option (Vec S n) :=
  castMut v fun x : Fields S (coordNames n) => x.set f a
/-- `p.x` through `Deref`, coordinates.rs 32-42 -/
def Pt.field (p : Pt S n) (f : String) : Option S :=
  (castRef (Fields S (coordNames n)) p).bind fun x => x.get f
/-- `p.x = a` through `DerefMut`, coordinates.rs 44-52 -/
def Pt.setField (p : Pt S n) (f : String) (a : S) : Option (Pt S n) :=
  castMut p fun x : Fields S (coordNames n) => x.set f a
/-- `m.c0r0` through `Deref`, coordinates.rs 32-42 -/
def Mat.field (m : Mat S R C) (f : String) : Option S :=
  (castRef (Fields S (viewNames (R, C))) m).bind fun x => x.get f
/-- `m.c0r0 = a` through `DerefMut`, coordinates.rs 44-52 -/
def Mat.setField (m : Mat S R C) (f : String) (a : S) : Option (Mat S R C) :=
  castMut m fun x : Fields S (viewNames (R, C)) => x.set f a
/-- `q.s`, `q.v` through `Deref`, quaternion.rs 3779-3789 -/
def Quat.deref (q : Quat S) : Option (ViewSV S) := castRef (ViewSV S) q
/-- writes through `DerefMut`, quaternion.rs 3791-3799 -/
def Quat.derefMut (q : Quat S) (f : ViewSV S → ViewSV S) : Option (Quat S) := castMut q f

/-! ### lengths, pointers and slices -/

/-- `is_empty`, vector.rs 61-63 -/
def Vec.isEmpty (v : Vec S n) : Bool := v.len == 0
/-- `as_slice`, vector.rs 89-91 -/
def Vec.asSlice (v : Vec S n) : List S := List.ofFn v.data
/-- `as_ptr` and `as_mut_ptr`, vector.rs 77-85: the address of element 0, that is the row of scalars that
starts there; panics when there is no element 0 -/
def Vec.asPtr (v : Vec S n) : Res (Fin n → S) := (readAt v.data 0).map fun _ => v.data
/-- `len`, `is_empty`, `shape`, point.rs 52-72 -/
def Pt.len (_ : Pt S n) : ℕ := n
/-- `is_empty`, point.rs 60-62 -/
def Pt.isEmpty (p : Pt S n) : Bool := p.len == 0
/-- `shape`, point.rs 70-72 -/
def Pt.shape (_ : Pt S n) : ℕ × ℕ := (n, 1)
/-- `as_slice`, point.rs 88-90 -/
def Pt.asSlice (p : Pt S n) : List S := p.coords.asSlice
/-- `as_ptr`, point.rs 76-84 -/
def Pt.asPtr (p : Pt S n) : Res (Fin n → S) := p.coords.asPtr
/-- `len`, quaternion.rs 64-66 -/
def Quat.len (q : Quat S) : ℕ := q.coords.len
/-- `shape`, quaternion.rs 82-84 -/
def Quat.shape (q : Quat S) : ℕ × ℕ := q.coords.shape
/-- `is_empty`, quaternion.rs 72-74 -/
def Quat.isEmpty (q : Quat S) : Bool := q.coords.isEmpty
/-- `as_slice`, quaternion.rs 100-102 -/
def Quat.asSlice (q : Quat S) : List S := q.coords.asSlice
/-- `len`, complex.rs 47-49 -/
def Cx.len (_ : Cx S) : ℕ := 2
/-- `shape`, complex.rs 41-43 -/
def Cx.shape (_ : Cx S) : ℕ × ℕ := (2, 1)
/-- `is_empty`, complex.rs 54-56 -/
def Cx.isEmpty (_ : Cx S) : Bool := false
/-- `AsRef<[S; 2]>`, complex.rs 1915-1920 -/
def Cx.toArray (z : Cx S) : Option (Fin 2 → S) := castRef (Fin 2 → S) z
/-- `as_slice`, complex.rs 72-74 -/
def Cx.asSlice (z : Cx S) : Option (List S) := z.toArray.map List.ofFn
/-- `Index<usize>`, complex.rs 1943-1954; `none`: the cast is undefined -/
def Cx.index (z : Cx S) (i : ℕ) : Option (Res S) := z.toArray.map fun a => readAt a i
/-- `IndexMut<usize>` then a write, complex.rs 2008-2017; `AsMut<[S; 2]>`, 1929-1934. The bounds check comes
before the write. -/
def Cx.indexSet (z : Cx S) (i : ℕ) (x : S) : Res (Option (Cx S)) :=
  if h : i < 2 then .ok (castMut z fun a : Fin 2 → S => Function.update a ⟨i, h⟩ x)
  else .error .indexOutOfBounds
/-- `len`, matrix.rs 143-145 -/
def Mat.len (_ : Mat S R C) : ℕ := R * C
/-- `is_empty`, matrix.rs 151-153 -/
def Mat.isEmpty (m : Mat S R C) : Bool := m.len == 0
/-- `as_ptr`, matrix.rs 167-175: the address of `data[0][0]` -/
def Mat.asPtr (m : Mat S R C) : Res (Fin (C * R) → S) :=
  (Mat.get? m.data (0, 0)).map fun _ => Layout.store m
/-- `AsRef<[S; RC]>`, matrix.rs 224-226, as the pointer cast it is -/
def Mat.asFlat (m : Mat S R C) : Option (Fin (C * R) → S) := castRef (Fin (C * R) → S) m
/-- `as_slice`, matrix.rs 185-187 -/
def Mat.asSlice (m : Mat S R C) : Option (List S) := m.asFlat.map List.ofFn
/-- `AsRef<[Vector<S, R>; C]>`, matrix.rs 206-208 -/
def Mat.asColumns (m : Mat S R C) : Option (Fin C → Vec S R) := castRef (Fin C → Vec S R) m
/-- `IndexMut<usize>` then a write of a column, matrix.rs 252-255, through `AsMut<[Vector<S, R>; C]>`,
213-215 -/
def Mat.setCol (m : Mat S R C) (c : ℕ) (v : Vec S R) : Res (Option (Mat S R C)) :=
  if h : c < C then .ok (castMut m fun a : Fin C → Vec S R => Function.update a ⟨c, h⟩ v)
  else .error .indexOutOfBounds
/-- `IndexMut<(usize, usize)>` then a write, matrix.rs 268-274 -/
def Mat.indexSet (m : Mat S R C) (cr : ℕ × ℕ) (x : S) : Res (Mat S R C) :=
  (Mat.set? m.data cr x).map Mat.mk

/-- `a[lo..hi]` on a slice: panics unless `lo ≤ hi ≤ len` -/
def sliceRange (a : List S) (lo hi : ℕ) : Res (List S) :=
  if lo ≤ hi ∧ hi ≤ a.length then .ok ((a.drop lo).take (hi - lo)) else .error .indexOutOfBounds

/-- `Index<Range<usize>>`, vector.rs 1184; point.rs 634 and quaternion.rs 3665-3676 go through the same array -/
def Vec.indexRange (v : Vec S n) (lo hi : ℕ) : Res (List S) := sliceRange v.asSlice lo hi
/-- `Index<RangeTo<usize>>`, vector.rs 1185 -/
def Vec.indexRangeTo (v : Vec S n) (hi : ℕ) : Res (List S) := sliceRange v.asSlice 0 hi
/-- `Index<RangeFrom<usize>>`, vector.rs 1186 -/
def Vec.indexRangeFrom (v : Vec S n) (lo : ℕ) : Res (List S) := sliceRange v.asSlice lo v.len
/-- `Index<RangeFull>`, vector.rs 1187 -/
def Vec.indexRangeFull (v : Vec S n) : List S := v.asSlice
/-- `Point::index` on ranges, point.rs 634-637 -/
def Pt.indexRange (p : Pt S n) (lo hi : ℕ) : Res (List S) := p.coords.indexRange lo hi
/-- `Index<Range<usize>> for Quaternion`, quaternion.rs 3665-3676 -/
def Quat.indexRange (q : Quat S) (lo hi : ℕ) : Res (List S) := q.coords.indexRange lo hi
/-- `IndexMut<usize>`, point.rs 623-628 -/
def Pt.indexSet (p : Pt S n) (i : ℕ) (x : S) : Res (Pt S n) := (p.coords.indexSet i x).map Pt.mk

/-! ### conversions by value -/

/-- `From<[S; N]>`, point.rs 581-599 -/
def Pt.fromArray (a : Fin n → S) : Pt S n := ⟨Vec.fromArray a⟩
/-- `AsRef<[S; N]>`, point.rs 567-572 -/
def Pt.toArray (p : Pt S n) : Fin n → S := p.coords.toArray
/-- `From<(S, S)>`, point.rs 1410-1428 -/
def Pt.fromTuple2 (t : S × S) : Pt S 2 := Pt.new2 t.1 t.2
/-- `From<(S, S, S)>`, point.rs 1440-1458 -/
def Pt.fromTuple3 (t : S × S × S) : Pt S 3 := Pt.new3 t.1 t.2.1 t.2.2
/-- `From<[S; 4]>`, quaternion.rs 3820-3828, 3840-3848 -/
def Quat.fromArray (a : Fin 4 → S) : Quat S := Quat.new (a 0) (a 1) (a 2) (a 3)
/-- `From<(S, S, S, S)>`, quaternion.rs 3810-3818, 3830-3838 -/
def Quat.fromTuple (t : S × S × S × S) : Quat S := Quat.new t.1 t.2.1 t.2.2.1 t.2.2.2
/-- `AsRef<[S; 4]>`, quaternion.rs 3624-3629 -/
def Quat.toArray (q : Quat S) : Fin 4 → S := q.coords.toArray
/-- `From<[S; 2]>`, complex.rs 2102-2110, 2122-2130 -/
def Cx.fromArray (a : Fin 2 → S) : Cx S := Cx.new (a 0) (a 1)
/-- `From<(S, S)>`, complex.rs 2092-2100, 2112-2120 -/
def Cx.fromTuple (t : S × S) : Cx S := Cx.new t.1 t.2
/-- `From<[[S; R]; C]>`, matrix.rs 276-284 -/
def Mat.fromArray2 (a : Fin C → Fin R → S) : Mat S R C := ⟨a⟩

end Access

end Cgl
