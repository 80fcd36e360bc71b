import Mathlib.Data.Nat.Notation
import Mathlib.Init

/-!
# Shape constraints

Model of cglinalg_core/src/constraint.rs: the trait implementations that decide, at compile time, which shapes the
functions of the library accept.  A macro invocation per pair of dimensions implements a trait for `ShapeConstraint`;
the tables below are the lists of these invocations.
-/

namespace Cgl.Shape

/-- `impl_dim_add!`, constraint.rs 81-96 -/
def dimAddTable : List (ℕ × ℕ) :=
  [(1, 1), (1, 2), (1, 3), (1, 4), (2, 1), (2, 2), (2, 3), (2, 4), (3, 1), (3, 2), (3, 3), (3, 4),
   (4, 1), (4, 2), (4, 3), (4, 4)]
/-- `impl_dim_sub!`, constraint.rs 107-122 -/
def dimSubTable : List (ℕ × ℕ) :=
  [(1, 1), (2, 1), (2, 2), (3, 1), (3, 2), (3, 3), (4, 1), (4, 2), (4, 3), (4, 4)]
/-- `impl_dim_mul!`, constraint.rs 133-148 -/
def dimMulTable : List (ℕ × ℕ) :=
  [(1, 1), (1, 2), (1, 3), (1, 4), (2, 1), (2, 2), (2, 3), (2, 4), (3, 1), (3, 2), (3, 3), (3, 4),
   (4, 1), (4, 2), (4, 3), (4, 4)]
/-- `impl_dim_lt!`, constraint.rs 159-174 -/
def dimLtTable : List (ℕ × ℕ) :=
  [(0, 1), (0, 2), (0, 3), (0, 4), (1, 2), (1, 3), (1, 4), (2, 3), (2, 4), (3, 4)]

/-- `DimAdd<Const<a>, Const<b>>` is implemented, and its `Output`: constraint.rs 73-79 -/
def dimAdd (a b : ℕ) : Option ℕ := if (a, b) ∈ dimAddTable then some (a + b) else none
/-- `DimSub`, constraint.rs 99-105 -/
def dimSub (a b : ℕ) : Option ℕ := if (a, b) ∈ dimSubTable then some (a - b) else none
/-- `DimMul`, constraint.rs 125-131 -/
def dimMul (a b : ℕ) : Option ℕ := if (a, b) ∈ dimMulTable then some (a * b) else none
/-- `DimLt`, constraint.rs 151-157 -/
def dimLt (a b : ℕ) : Bool := (a, b) ∈ dimLtTable
/-- `DimEq`, constraint.rs 30-32 -/
def dimEq (a b : ℕ) : Bool := a == b

/-- `CanMultiply`, constraint.rs 37-44 -/
def canMultiply (_r1 c1 r2 _c2 : ℕ) : Bool := dimEq c1 r2 && dimEq r2 c1
/-- `CanTransposeMultiply`, constraint.rs 46-52 -/
def canTransposeMultiply (r1 _c1 r2 _c2 : ℕ) : Bool := dimEq r1 r2 && dimEq r2 r1
/-- `CanExtend`, constraint.rs 54-61 -/
def canExtend (n m : ℕ) : Bool := dimAdd n 1 == some m
/-- `CanContract`, constraint.rs 63-70 -/
def canContract (n m : ℕ) : Bool := dimSub n 1 == some m

/-- the shapes for which `Vector::extend`, `Point::extend` and `Point::to_homogeneous` exist, vector.rs 963-969,
point.rs 406-412 -/
def extendOk (n m : ℕ) : Bool := canExtend n m && dimAdd n 1 == some m && dimSub m 1 == some n
/-- the shapes for which `contract` exists, vector.rs 1025-1031, point.rs 466-472 -/
def contractOk (n m : ℕ) : Bool := canContract n m && dimSub n 1 == some m && dimAdd m 1 == some n
/-- the shapes for which `Point::from_homogeneous` exists (`m` the size of the vector), point.rs 501-507 -/
def fromHomogeneousOk (m n : ℕ) : Bool := canContract m n && dimSub m 1 == some n && dimAdd n 1 == some m

/-- the shapes for which `Matrix * Matrix` exists and the shape of the product, matrix.rs 8705-8713 (the same for
references, 8734, 8763, 8792) -/
def mulShape (s t : ℕ × ℕ) : Option (ℕ × ℕ) :=
  match dimMul s.1 t.2, dimMul t.2 s.1 with
  | some a, some b => if canMultiply s.1 s.2 t.1 t.2 && a == b then some (s.1, t.2) else none
  | _, _ => none
/-- the shapes for which `Matrix::tr_mul` exists and the shape of the result, matrix.rs 948-952 -/
def trMulShape (s t : ℕ × ℕ) : Option (ℕ × ℕ) :=
  match dimMul s.2 t.2, dimMul t.2 s.2 with
  | some a, some b => if canTransposeMultiply s.1 s.2 t.1 t.2 && a == b then some (s.2, t.2) else none
  | _, _ => none
/-- the sizes for which `From<Matrix<S, M, M>> for Matrix<S, N, N>` exists, matrix.rs 5448-5452 -/
def embedOk (m n : ℕ) : Bool := dimLt m n
/-- the sizes for which `Isometry::to_affine_matrix` and its like exist, isometry.rs 691-697 -/
def affineOk (n m : ℕ) : Bool := dimAdd n 1 == some m && dimAdd 1 n == some m && dimLt n m

end Cgl.Shape
