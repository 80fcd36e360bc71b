import Verif.Model.Vector
import Mathlib.Algebra.Order.Ring.Nat

/-!
# `Matrix<S, R, C>`: shape-generic part

Model of cglinalg_core/src/matrix.rs. A matrix is an array of `C` columns of `R` scalars, indexed
`m.data c r` exactly like `self.data[c][r]` in the source. By-reference variants of the operators run the
same loops and are not repeated.
-/

namespace Cgl

/-- matrix.rs 136-138: `data: [[S; R]; C]` -/
@[ext] structure Mat (S : Type*) (R C : ℕ) where
  data : Fin C → Fin R → S

namespace Mat

variable {S T : Type*} {R C N : ℕ}

instance [DecidableEq S] : DecidableEq (Mat S R C) := fun a b =>
  decidable_of_iff (a.data = b.data) Mat.ext_iff.symm

/-- `data[c][r] = x` -/
def set (d : Fin C → Fin R → S) (c : Fin C) (r : Fin R) (x : S) : Fin C → Fin R → S :=
  Function.update d c (Function.update (d c) r x)

/-! ### layout -/

/-- `Index<usize>` gives a column, matrix.rs 240-248 -/
def indexCol (m : Mat S R C) (c : ℕ) : Res (Vec S R) := (readAt m.data c).map Vec.mk

/-- `Index<(usize, usize)>` is (column, row), matrix.rs 258-266 -/
def index (m : Mat S R C) (cr : ℕ × ℕ) : Res S := (readAt m.data cr.1).bind fun col => readAt col cr.2

/-- `From<[S; RC]>`, matrix.rs 306-318: the flat array is reinterpreted column by column. The
`transmute` is modelled by its documented effect: element `k` of the flat array is `data[k / R][k % R]`. -/
def fromFlat (a : Fin (C * R) → S) : Mat S R C := ⟨fun c r => a (finProdFinEquiv (c, r))⟩

/-- `AsRef<[S; RC]>` / `as_slice`, matrix.rs 185-187, 218-227 -/
def toFlat (m : Mat S R C) : Fin (C * R) → S := fun k =>
  m.data (finProdFinEquiv.symm k).1 (finProdFinEquiv.symm k).2

/-- `shape`, matrix.rs 161-163 -/
def shape (_ : Mat S R C) : ℕ × ℕ := (R, C)

/-- `is_square`, matrix.rs 351-355 -/
def isSquare (m : Mat S R C) : Bool := m.shape.1 == m.shape.2

/-- `from_fill`, matrix.rs 383-385 -/
def fromFill (value : S) : Mat S R C := ⟨fun _ _ => value⟩

/-- `from_columns`, matrix.rs 407-411 -/
def fromColumns (columns : Fin C → Vec S R) : Mat S R C := ⟨fun c => (columns c).data⟩

/-- `from_rows`, matrix.rs 434-445; `zeroed` is the initial buffer -/
def fromRows (zeroed : S) (rows : Fin R → Vec S C) : Mat S R C :=
  ⟨forRange R (fun _ _ => zeroed) fun r data =>
    forRange C data fun c data => set data c r ((rows r).data c)⟩

/-- `map`, matrix.rs 473-487 -/
def map (zeroed : T) (op : S → T) (m : Mat S R C) : Mat T R C :=
  ⟨forRange C (fun _ _ => zeroed) fun c data =>
    forRange R data fun r data => set data c r (op (m.data c r))⟩

/-- `row`, matrix.rs 514-523 -/
def row (zeroed : S) (m : Mat S R C) (r : ℕ) : Res (Vec S C) :=
  (forRangeE C (fun _ => zeroed) fun c data =>
    (readAt (m.data c) r).map fun x => Function.update data c x).map Vec.mk

/-- `column`, matrix.rs 549-551 -/
def column (m : Mat S R C) (c : ℕ) : Res (Vec S R) := (readAt m.data c).map Vec.mk

/-- `swap_rows`, matrix.rs 575-580 -/
def swapRows (m : Mat S R C) (a b : ℕ) : Res (Mat S R C) :=
  (forRangeE C m.data fun c data =>
    (sliceSwap (data c) a b).map fun col => Function.update data c col).map Mat.mk

/-- `swap_columns`, matrix.rs 608-610 -/
def swapColumns (m : Mat S R C) (a b : ℕ) : Res (Mat S R C) := (sliceSwap m.data a b).map Mat.mk

/-- bounds-checked `data[c][r]` -/
def get? (d : Fin C → Fin R → S) (cr : ℕ × ℕ) : Res S :=
  (readAt d cr.1).bind fun col => readAt col cr.2

/-- bounds-checked `data[c][r] = x` -/
def set? (d : Fin C → Fin R → S) (cr : ℕ × ℕ) (x : S) : Res (Fin C → Fin R → S) :=
  (readAt d cr.1).bind fun col => (writeAt col cr.2 x).bind fun col => writeAt d cr.1 col

/-- `swap`, matrix.rs 638-642: read `a`, overwrite it with `b`, store the saved element at `b` -/
def swap (m : Mat S R C) (a b : ℕ × ℕ) : Res (Mat S R C) :=
  (get? m.data a).bind fun elementA =>
    (get? m.data b).bind fun elementB =>
      (set? m.data a elementB).bind fun data =>
        (set? data b elementA).map Mat.mk

/-- `try_cast`, matrix.rs 664-681 -/
def tryCast (conv : S → Option T) (zeroed : T) (m : Mat S R C) : Option (Mat T R C) :=
  (forRange? C (fun _ _ => zeroed) fun c data =>
    forRange? R data fun r data =>
      (conv (m.data c r)).map fun value => set data c r value).map Mat.mk

/-! ### entry-wise arithmetic -/

section Arith

variable [Zero S]

/-- `zero`, matrix.rs 751-753 -/
def zero : Mat S R C := ⟨fun _ _ => 0⟩

/-- `transpose`, matrix.rs 720-730 -/
def transpose (m : Mat S R C) : Mat S C R :=
  ⟨forRange C (zero (R := C) (C := R)).data fun c data =>
    forRange R data fun r data => set data r c (m.data c r)⟩

/-- `is_zero`, matrix.rs 769-779 -/
def isZero [BEq S] (m : Mat S R C) : Bool :=
  forRange C true fun c result => forRange R result fun r result => result && (m.data c r == 0)

/-- `component_mul`, matrix.rs 815-825 -/
def componentMul [Mul S] (m k : Mat S R C) : Mat S R C :=
  ⟨forRange C (zero (R := R) (C := C)).data fun c data =>
    forRange R data fun r data => set data c r (m.data c r * k.data c r)⟩

/-- `Matrix + Matrix`, matrix.rs 8237-8255 -/
def add [Add S] (m k : Mat S R C) : Mat S R C :=
  ⟨forRange C (zero (R := R) (C := C)).data fun c data =>
    forRange R data fun r data => set data c r (m.data c r + k.data c r)⟩

/-- `Matrix - Matrix`, matrix.rs 8317-8335 -/
def sub [Sub S] (m k : Mat S R C) : Mat S R C :=
  ⟨forRange C (zero (R := R) (C := C)).data fun c data =>
    forRange R data fun r data => set data c r (m.data c r - k.data c r)⟩

/-- `-Matrix`, matrix.rs 8397-8415 -/
def neg [Neg S] (m : Mat S R C) : Mat S R C :=
  ⟨forRange C (zero (R := R) (C := C)).data fun c data =>
    forRange R data fun r data => set data c r (-(m.data c r))⟩

/-- `Matrix * scalar`, matrix.rs 8437-8455 -/
def mulS [Mul S] (m : Mat S R C) (k : S) : Mat S R C :=
  ⟨forRange C (zero (R := R) (C := C)).data fun c data =>
    forRange R data fun r data => set data c r (m.data c r * k)⟩

/-- `Matrix / scalar`, matrix.rs 8477-8495 -/
def divS [Div S] (m : Mat S R C) (k : S) : Mat S R C :=
  ⟨forRange C (zero (R := R) (C := C)).data fun c data =>
    forRange R data fun r data => set data c r (m.data c r / k)⟩

/-- `Matrix % scalar`, matrix.rs 8517-8535 -/
def remS [Mod S] (m : Mat S R C) (k : S) : Mat S R C :=
  ⟨forRange C (zero (R := R) (C := C)).data fun c data =>
    forRange R data fun r data => set data c r (m.data c r % k)⟩

/-- `scalar * Matrix`, matrix.rs 8558-8630 -/
def smul [Mul S] (k : S) (m : Mat S R C) : Mat S R C :=
  ⟨forRange C (zero (R := R) (C := C)).data fun c data =>
    forRange R data fun r data => set data c r (k * m.data c r)⟩

instance : Zero (Mat S R C) := ⟨zero⟩
instance [Add S] : Add (Mat S R C) := ⟨add⟩
instance [Sub S] : Sub (Mat S R C) := ⟨sub⟩
instance [Neg S] : Neg (Mat S R C) := ⟨neg⟩
instance [Mul S] : HMul (Mat S R C) S (Mat S R C) := ⟨mulS⟩
instance [Mul S] : HMul S (Mat S R C) (Mat S R C) := ⟨smul⟩
instance [Div S] : HDiv (Mat S R C) S (Mat S R C) := ⟨divS⟩
instance [Mod S] : HMod (Mat S R C) S (Mat S R C) := ⟨remS⟩

end Arith

/-- `component_mul_assign`, matrix.rs 854-860 -/
def componentMulAssign [Mul S] (m k : Mat S R C) : Mat S R C :=
  ⟨forRange C m.data fun c data => forRange R data fun r data => set data c r (data c r * k.data c r)⟩

/-- `neg_mut`, matrix.rs 1053-1060 -/
def negMut [Neg S] (m : Mat S R C) : Mat S R C :=
  ⟨forRange C m.data fun c data => forRange R data fun r data => set data c r (-(data c r))⟩

/-- `Matrix += Matrix`, matrix.rs 8822-8835 -/
def addAssign [Add S] (m k : Mat S R C) : Mat S R C :=
  ⟨forRange C m.data fun c data => forRange R data fun r data => set data c r (data c r + k.data c r)⟩

/-- `Matrix -= Matrix`, matrix.rs 8852-8865 -/
def subAssign [Sub S] (m k : Mat S R C) : Mat S R C :=
  ⟨forRange C m.data fun c data => forRange R data fun r data => set data c r (data c r - k.data c r)⟩

/-- `Matrix *= scalar`, matrix.rs 8882-8895 -/
def mulAssign [Mul S] (m : Mat S R C) (k : S) : Mat S R C :=
  ⟨forRange C m.data fun c data => forRange R data fun r data => set data c r (data c r * k)⟩

/-- `Matrix /= scalar`, matrix.rs 8897-8910 -/
def divAssign [Div S] (m : Mat S R C) (k : S) : Mat S R C :=
  ⟨forRange C m.data fun c data => forRange R data fun r data => set data c r (data c r / k)⟩

/-- `Matrix %= scalar`, matrix.rs 8912-8925 -/
def remAssign [Mod S] (m : Mat S R C) (k : S) : Mat S R C :=
  ⟨forRange C m.data fun c data => forRange R data fun r data => set data c r (data c r % k)⟩

/-! ### products -/

section Products

variable [Zero S] [Add S] [Mul S] {R1 C1 C2 : ℕ}

/-- `dot_array_col`, matrix.rs 118-130 -/
def dotArrayCol (arr : Fin C1 → Fin R1 → S) (col : Fin C1 → S) (r : Fin R1) : S :=
  forRange C1 0 fun i result => result + arr i r * col i

/-- `Matrix * Vector`, matrix.rs 8633-8649 -/
def mulVec (m : Mat S R C) (v : Vec S C) : Vec S R :=
  ⟨forRange R (Vec.zero (n := R)).data fun r result =>
    Function.update result r (dotArrayCol m.data v.data r)⟩

/-- `Matrix * Matrix`, matrix.rs 8705-8732 -/
def mul (m : Mat S R1 C1) (k : Mat S C1 C2) : Mat S R1 C2 :=
  ⟨forRange C2 (zero (R := R1) (C := C2)).data fun c data =>
    forRange R1 data fun r data => set data c r (dotArrayCol m.data (k.data c) r)⟩

instance : HMul (Mat S R C) (Vec S C) (Vec S R) := ⟨mulVec⟩
instance : HMul (Mat S R1 C1) (Mat S C1 C2) (Mat S R1 C2) := ⟨mul⟩

/-- `dot`, matrix.rs 892-906 -/
def dot (m k : Mat S R C) : S :=
  forRange R 0 fun r result => forRange C result fun c result => result + m.data c r * k.data c r

/-- `tr_mul`, matrix.rs 948-968 -/
def trMul (m : Mat S R C1) (k : Mat S R C2) : Mat S C1 C2 :=
  ⟨forRange C1 (zero (R := C1) (C := C2)).data fun c1 data =>
    forRange C2 data fun c2 data =>
      set data c2 c1 (forRange R 0 fun r acc => acc + m.data c1 r * k.data c2 r)⟩

/-- `tr_dot`, matrix.rs 1009-1022 -/
def trDot (m : Mat S R C) (k : Mat S C R) : S :=
  forRange R 0 fun c result => forRange C result fun r result => result + m.data r c * k.data c r

/-- `trace`, matrix.rs 1400-1408 -/
def trace (m : Mat S N N) : S := forRange N 0 fun i result => result + m.data i i

/-- `norm_squared`, matrix.rs 1662-1664 -/
def normSquared (m : Mat S R C) : S := m.dot m

/-- `magnitude_squared`, matrix.rs 1687-1689 -/
def magnitudeSquared (m : Mat S R C) : S := m.normSquared

/-- `metric_distance_squared`, matrix.rs 1715-1717 -/
def metricDistanceSquared [Sub S] (m k : Mat S R C) : S := (m - k).normSquared

/-- `norm` (Frobenius), matrix.rs 1815-1817 -/
def norm [FloatFns S] (m : Mat S R C) : S := fsqrt m.normSquared

/-- `magnitude`, matrix.rs 1839-1841 -/
def magnitude [FloatFns S] (m : Mat S R C) : S := m.norm

/-- `metric_distance`, matrix.rs 1868-1870 -/
def metricDistance [Sub S] [FloatFns S] (m k : Mat S R C) : S := (m - k).norm

/-- `lerp`, matrix.rs 1103-1105 -/
def lerp [Sub S] (m k : Mat S R C) (amount : S) : Mat S R C := m + ((k - m) * amount)

end Products

/-- `l1_norm`, matrix.rs 1743-1750 -/
def l1Norm [Zero S] [Add S] [Max S] [SAbs S] (m : Mat S R C) : S :=
  forRange C 0 fun c result => max result (Vec.l1Norm ⟨m.data c⟩)

/-- `linf_norm`, matrix.rs 1773-1785 -/
def linfNorm [Zero S] [Add S] [Max S] [SAbs S] (m : Mat S R C) : S :=
  forRange R 0 fun r result =>
    max result (forRange C 0 fun c rowSum => rowSum + sabs (m.data c r))

/-- `L1MatrixNorm`, matrix.rs 1884-1899 -/
def L1 [Zero S] [Add S] [Sub S] [Max S] [SAbs S] : Vec.NormImpl (Mat S R C) S where
  norm rhs := rhs.l1Norm
  metricDistance lhs rhs := (lhs - rhs).l1Norm

/-- `FrobeniusNorm`, matrix.rs 1911-1926 -/
def Frobenius [Zero S] [Add S] [Mul S] [Sub S] [FloatFns S] : Vec.NormImpl (Mat S R C) S where
  norm rhs := rhs.norm
  metricDistance lhs rhs := lhs.metricDistance rhs

/-- `LinfMatrixNorm`, matrix.rs 1938-1953 -/
def Linf [Zero S] [Add S] [Sub S] [Max S] [SAbs S] : Vec.NormImpl (Mat S R C) S where
  norm rhs := rhs.linfNorm
  metricDistance lhs rhs := (lhs - rhs).linfNorm

/-- `apply_norm`, matrix.rs 1595-1597 -/
def applyNorm (m : Mat S R C) (nm : Vec.NormImpl (Mat S R C) S) : S := nm.norm m

/-- `apply_metric_distance`, matrix.rs 1636-1638 -/
def applyMetricDistance (m k : Mat S R C) (nm : Vec.NormImpl (Mat S R C) S) : S := nm.metricDistance m k

section Normed
variable [Zero S] [One S] [Add S] [Mul S] [Div S] [FloatFns S]

/-- `Normed::scale`, matrix.rs 1972-1974 -/
def scale (m : Mat S R C) (k : S) : Mat S R C := m * k
/-- `Normed::unscale`, matrix.rs 1982-1984 -/
def unscale (m : Mat S R C) (k : S) : Mat S R C := m * (1 / k)
/-- `Normed::normalize`, matrix.rs 1992-1994 -/
def normalize (m : Mat S R C) : Mat S R C := m * (1 / m.norm)
/-- `Normed::normalize_mut`, matrix.rs 1997-2002 -/
def normalizeMut (m : Mat S R C) : Mat S R C × S := (m.normalize, m.norm)
/-- `Normed::try_normalize`, matrix.rs 2005-2012 -/
def tryNormalize [LE S] [DecidableLE S] (m : Mat S R C) (threshold : S) : Option (Mat S R C) :=
  if m.norm ≤ threshold then none else some m.normalize
/-- `Normed::try_normalize_mut`, matrix.rs 2015-2022 -/
def tryNormalizeMut [LE S] [DecidableLE S] (m : Mat S R C) (threshold : S) : Mat S R C × Option S :=
  if m.norm ≤ threshold then (m, none) else ((m.normalizeMut).1, some (m.normalizeMut).2)

end Normed

/-! ### square matrices -/

/-- `transpose_mut`, matrix.rs 1185-1192 -/
def transposeMut (m : Mat S N N) : Res (Mat S N N) :=
  forRangeE N m fun i m => forRangeE (i : ℕ) m fun j m => m.swap (i, j) (j, i)

section Square

variable [Zero S]

/-- the loop `for i in 0..N { result[i][i] = f(i) }` -/
def setDiag (d : Fin N → Fin N → S) (f : Fin N → S) : Fin N → Fin N → S :=
  forRange N d fun i data => set data i i (f i)

/-- `identity`, matrix.rs 1220-1228 -/
def identity [One S] : Mat S N N := ⟨setDiag (zero (R := N) (C := N)).data fun _ => 1⟩

/-- `is_identity`, matrix.rs 1245-1260 -/
def isIdentity [One S] [BEq S] (m : Mat S N N) : Bool :=
  let result := forRange N true fun i result =>
    forRange (i : ℕ) result fun j result =>
      result && ((m.data i (j.castLE i.2.le) == 0) && (m.data (j.castLE i.2.le) i == 0))
  forRange N result fun i result => result && (m.data i i == 1)

/-- `from_diagonal_value`, matrix.rs 1287-1295 -/
def fromDiagonalValue (value : S) : Mat S N N := ⟨setDiag (zero (R := N) (C := N)).data fun _ => value⟩

/-- `from_diagonal`, matrix.rs 1329-1337 -/
def fromDiagonal (diagonal : Vec S N) : Mat S N N :=
  ⟨setDiag (zero (R := N) (C := N)).data fun i => diagonal.data i⟩

/-- `diagonal`, matrix.rs 1367-1375: the return type is `Vector4<S>` for every `N`, so the write
`result[i]` is out of range (panic) as soon as `N > 4`. -/
def diagonal (m : Mat S N N) : Res (Vec S 4) :=
  (forRangeE N (Vec.zero (n := 4)).data fun i result => writeAt result i (m.data i i)).map Vec.mk

/-- `is_diagonal`, matrix.rs 1450-1470; `ulpsEq` is the tolerance comparison of the external crate
`approx_cmp` with the library's default tolerances -/
def isDiagonal (ulpsEq : S → S → Bool) (m : Mat S N N) : Bool :=
  forRange N true fun i result =>
    forRange (i : ℕ) result fun j result =>
      result && (ulpsEq (m.data i (j.castLE i.2.le)) 0 && ulpsEq (m.data (j.castLE i.2.le) i) 0)

end Square

/-- `is_symmetric`, matrix.rs 1507-1522 -/
def isSymmetric (ulpsEq : S → S → Bool) (m : Mat S N N) : Bool :=
  forRange N true fun i result =>
    forRange (i : ℕ) result fun j result =>
      result && ulpsEq (m.data i (j.castLE i.2.le)) (m.data (j.castLE i.2.le) i)

/-! ### scale and translation matrices -/

section Affine

variable [Zero S] [One S] {n : ℕ}

/-- `from_scale`, matrix.rs 2081-2089 -/
def fromScale (scale : S) : Mat S N N := ⟨setDiag (identity (N := N)).data fun _ => scale⟩

/-- `from_nonuniform_scale`, matrix.rs 2135-2143 -/
def fromNonuniformScale (scale : Vec S N) : Mat S N N :=
  ⟨setDiag (identity (N := N)).data fun i => scale.data i⟩

/-- `from_affine_scale`, matrix.rs 2243-2251 (`N = n + 1`, so `N - 1` does not underflow) -/
def fromAffineScale (scale : S) : Mat S (n + 1) (n + 1) :=
  ⟨forRange n (identity (N := n + 1)).data fun i data => set data i.castSucc i.castSucc scale⟩

/-- `from_affine_nonuniform_scale`, matrix.rs 2382-2390 -/
def fromAffineNonuniformScale (scale : Vec S n) : Mat S (n + 1) (n + 1) :=
  ⟨forRange n (identity (N := n + 1)).data fun i data => set data i.castSucc i.castSucc (scale.data i)⟩

/-- `from_affine_translation`, matrix.rs 2539-2547 -/
def fromAffineTranslation (distance : Vec S n) : Mat S (n + 1) (n + 1) :=
  ⟨forRange n (identity (N := n + 1)).data fun r data =>
    set data (Fin.last n) r.castSucc (distance.data r)⟩

end Affine

end Mat
end Cgl
