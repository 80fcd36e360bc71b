import Verif.Model.Matrix
import Verif.Model.Point
import Verif.Model.Angle

/-!
# Fixed-size matrices

Model of the size-specific part of cglinalg_core/src/matrix.rs (lines 2551-8192): constructors,
determinants, inverses, shears, reflections, rotations, view and projection matrices. Constructors
that take `A: Into<Radians<S>>` take the converted angle. `S::one() + S::one()` is `1 + 1`.
-/

namespace Cgl
namespace Mat

variable {S : Type*}

/-! ### constructors -/

/-- `Matrix1x1::new`, matrix.rs 2566-2570 -/
def new1x1 (c0r0 : S) : Mat S 1 1 := ⟨![![c0r0]]⟩
/-- `Matrix1x1::to_scalar`, matrix.rs 2589-2591 -/
def toScalar (m : Mat S 1 1) : S := m.data 0 0
/-- `Matrix2x2::new`, matrix.rs 2724-2731 -/
def new2x2 (c0r0 c0r1 c1r0 c1r1 : S) : Mat S 2 2 := ⟨![![c0r0, c0r1], ![c1r0, c1r1]]⟩
/-- `Matrix3x3::new`, matrix.rs 3371-3383 -/
def new3x3 (c0r0 c0r1 c0r2 c1r0 c1r1 c1r2 c2r0 c2r1 c2r2 : S) : Mat S 3 3 :=
  ⟨![![c0r0, c0r1, c0r2], ![c1r0, c1r1, c1r2], ![c2r0, c2r1, c2r2]]⟩
/-- `Matrix4x4::new`, matrix.rs 5526-5540 -/
def new4x4 (c0r0 c0r1 c0r2 c0r3 c1r0 c1r1 c1r2 c1r3 c2r0 c2r1 c2r2 c2r3 c3r0 c3r1 c3r2 c3r3 : S) :
    Mat S 4 4 :=
  ⟨![![c0r0, c0r1, c0r2, c0r3], ![c1r0, c1r1, c1r2, c1r3], ![c2r0, c2r1, c2r2, c2r3],
    ![c3r0, c3r1, c3r2, c3r3]]⟩
/-- `Matrix1x2::new`, matrix.rs 7848-7855 -/
def new1x2 (c0r0 c1r0 : S) : Mat S 1 2 := ⟨![![c0r0], ![c1r0]]⟩
/-- `Matrix1x3::new`, matrix.rs 7881-7889 -/
def new1x3 (c0r0 c1r0 c2r0 : S) : Mat S 1 3 := ⟨![![c0r0], ![c1r0], ![c2r0]]⟩
/-- `Matrix1x4::new`, matrix.rs 7918-7927 -/
def new1x4 (c0r0 c1r0 c2r0 c3r0 : S) : Mat S 1 4 := ⟨![![c0r0], ![c1r0], ![c2r0], ![c3r0]]⟩
/-- `Matrix2x3::new`, matrix.rs 7956-7968 -/
def new2x3 (c0r0 c0r1 c1r0 c1r1 c2r0 c2r1 : S) : Mat S 2 3 :=
  ⟨![![c0r0, c0r1], ![c1r0, c1r1], ![c2r0, c2r1]]⟩
/-- `Matrix3x2::new`, matrix.rs 7995-8005 -/
def new3x2 (c0r0 c0r1 c0r2 c1r0 c1r1 c1r2 : S) : Mat S 3 2 :=
  ⟨![![c0r0, c0r1, c0r2], ![c1r0, c1r1, c1r2]]⟩
/-- `Matrix2x4::new`, matrix.rs 8038-8052 -/
def new2x4 (c0r0 c0r1 c1r0 c1r1 c2r0 c2r1 c3r0 c3r1 : S) : Mat S 2 4 :=
  ⟨![![c0r0, c0r1], ![c1r0, c1r1], ![c2r0, c2r1], ![c3r0, c3r1]]⟩
/-- `Matrix4x2::new`, matrix.rs 8087-8097 -/
def new4x2 (c0r0 c0r1 c0r2 c0r3 c1r0 c1r1 c1r2 c1r3 : S) : Mat S 4 2 :=
  ⟨![![c0r0, c0r1, c0r2, c0r3], ![c1r0, c1r1, c1r2, c1r3]]⟩
/-- `Matrix3x4::new`, matrix.rs 8130-8144 -/
def new3x4 (c0r0 c0r1 c0r2 c1r0 c1r1 c1r2 c2r0 c2r1 c2r2 c3r0 c3r1 c3r2 : S) : Mat S 3 4 :=
  ⟨![![c0r0, c0r1, c0r2], ![c1r0, c1r1, c1r2], ![c2r0, c2r1, c2r2], ![c3r0, c3r1, c3r2]]⟩
/-- `Matrix4x3::new`, matrix.rs 8179-8191 -/
def new4x3 (c0r0 c0r1 c0r2 c0r3 c1r0 c1r1 c1r2 c1r3 c2r0 c2r1 c2r2 c2r3 : S) : Mat S 4 3 :=
  ⟨![![c0r0, c0r1, c0r2, c0r3], ![c1r0, c1r1, c1r2, c1r3], ![c2r0, c2r1, c2r2, c2r3]]⟩

/-- `From<Matrix<S, M, M>> for Matrix<S, N, N>` with `M < N`, matrix.rs 5448-5486 -/
def embed [Zero S] [One S] {M N : ℕ} (h : M < N) (matrix : Mat S M M) : Mat S N N :=
  ⟨forRange M (identity (N := N)).data fun c data =>
    forRange M data fun r data => set data (c.castLE h.le) (r.castLE h.le) (matrix.data c r)⟩

/-! ### determinants and inverses -/

section Det
variable [Add S] [Sub S] [Mul S]

/-- `Matrix1x1::determinant`, matrix.rs 2613-2615 -/
def determinant1 (m : Mat S 1 1) : S := m.data 0 0
/-- `Matrix2x2::determinant`, matrix.rs 3097-3099 -/
def determinant2 (m : Mat S 2 2) : S := m.data 0 0 * m.data 1 1 - m.data 0 1 * m.data 1 0
/-- `Matrix3x3::determinant`, matrix.rs 4580-4587 -/
def determinant3 (m : Mat S 3 3) : S :=
  m.data 0 0 * m.data 1 1 * m.data 2 2 - m.data 0 0 * m.data 1 2 * m.data 2 1
  - m.data 1 0 * m.data 0 1 * m.data 2 2 + m.data 1 0 * m.data 0 2 * m.data 2 1
  + m.data 2 0 * m.data 0 1 * m.data 1 2 - m.data 2 0 * m.data 0 2 * m.data 1 1
/-- `Matrix4x4::determinant`, matrix.rs 6303-6328 -/
def determinant4 (m : Mat S 4 4) : S :=
  m.data 0 0 * m.data 1 1 * m.data 2 2 * m.data 3 3
  - m.data 0 0 * m.data 1 1 * m.data 2 3 * m.data 3 2
  - m.data 0 0 * m.data 2 1 * m.data 1 2 * m.data 3 3
  + m.data 0 0 * m.data 2 1 * m.data 1 3 * m.data 3 2
  + m.data 0 0 * m.data 3 1 * m.data 1 2 * m.data 2 3
  - m.data 0 0 * m.data 3 1 * m.data 1 3 * m.data 2 2
  - m.data 1 0 * m.data 0 1 * m.data 2 2 * m.data 3 3
  + m.data 1 0 * m.data 0 1 * m.data 2 3 * m.data 3 2
  + m.data 1 0 * m.data 2 1 * m.data 0 2 * m.data 3 3
  - m.data 1 0 * m.data 2 1 * m.data 0 3 * m.data 3 2
  - m.data 1 0 * m.data 3 1 * m.data 0 2 * m.data 2 3
  + m.data 1 0 * m.data 3 1 * m.data 0 3 * m.data 2 2
  + m.data 2 0 * m.data 0 1 * m.data 1 2 * m.data 3 3
  - m.data 2 0 * m.data 0 1 * m.data 1 3 * m.data 3 2
  - m.data 2 0 * m.data 1 1 * m.data 0 2 * m.data 3 3
  + m.data 2 0 * m.data 1 1 * m.data 0 3 * m.data 3 2
  + m.data 2 0 * m.data 3 1 * m.data 0 2 * m.data 1 3
  - m.data 2 0 * m.data 3 1 * m.data 0 3 * m.data 1 2
  - m.data 3 0 * m.data 0 1 * m.data 1 2 * m.data 2 3
  + m.data 3 0 * m.data 0 1 * m.data 1 3 * m.data 2 2
  + m.data 3 0 * m.data 1 1 * m.data 0 2 * m.data 2 3
  - m.data 3 0 * m.data 1 1 * m.data 0 3 * m.data 2 2
  - m.data 3 0 * m.data 2 1 * m.data 0 2 * m.data 1 3
  + m.data 3 0 * m.data 2 1 * m.data 0 3 * m.data 1 2

variable [Zero S] [One S] [Neg S] [Div S] [BEq S]

/-- `Matrix1x1::try_inverse`, matrix.rs 2644-2653 -/
def tryInverse1 (m : Mat S 1 1) : Option (Mat S 1 1) :=
  let det := m.determinant1
  if det == 0 then none
  else
    let detInv := 1 / det
    some (new1x1 detInv)

/-- `Matrix2x2::try_inverse`, matrix.rs 3271-3283 -/
def tryInverse2 (m : Mat S 2 2) : Option (Mat S 2 2) :=
  let det := m.determinant2
  if det == 0 then none
  else
    let detInv := 1 / det
    some (new2x2
      (detInv * m.data 1 1) (detInv * -m.data 0 1)
      (detInv * -m.data 1 0) (detInv * m.data 0 0))

/-- `Matrix3x3::try_inverse`, matrix.rs 5348-5369 -/
def tryInverse3 (m : Mat S 3 3) : Option (Mat S 3 3) :=
  let det := m.determinant3
  if det == 0 then none
  else
    let detInv := 1 / det
    some (new3x3
      (detInv * (m.data 1 1 * m.data 2 2 - m.data 1 2 * m.data 2 1))
      (detInv * (m.data 0 2 * m.data 2 1 - m.data 0 1 * m.data 2 2))
      (detInv * (m.data 0 1 * m.data 1 2 - m.data 0 2 * m.data 1 1))
      (detInv * (m.data 1 2 * m.data 2 0 - m.data 1 0 * m.data 2 2))
      (detInv * (m.data 0 0 * m.data 2 2 - m.data 0 2 * m.data 2 0))
      (detInv * (m.data 0 2 * m.data 1 0 - m.data 0 0 * m.data 1 2))
      (detInv * (m.data 1 0 * m.data 2 1 - m.data 1 1 * m.data 2 0))
      (detInv * (m.data 0 1 * m.data 2 0 - m.data 0 0 * m.data 2 1))
      (detInv * (m.data 0 0 * m.data 1 1 - m.data 0 1 * m.data 1 0)))

/-- `Matrix4x4::try_inverse`, matrix.rs 7697-7763 -/
def tryInverse4 (m : Mat S 4 4) : Option (Mat S 4 4) :=
  let det := m.determinant4
  if det == 0 then none
  else
    let detInv := 1 / det
    let c0r0' := m.data 1 1 * m.data 2 2 * m.data 3 3 + m.data 2 1 * m.data 3 2 * m.data 1 3
      + m.data 3 1 * m.data 1 2 * m.data 2 3 - m.data 3 1 * m.data 2 2 * m.data 1 3
      - m.data 2 1 * m.data 1 2 * m.data 3 3 - m.data 1 1 * m.data 3 2 * m.data 2 3
    let c1r0' := m.data 3 0 * m.data 2 2 * m.data 1 3 + m.data 2 0 * m.data 1 2 * m.data 3 3
      + m.data 1 0 * m.data 3 2 * m.data 2 3 - m.data 1 0 * m.data 2 2 * m.data 3 3
      - m.data 2 0 * m.data 3 2 * m.data 1 3 - m.data 3 0 * m.data 1 2 * m.data 2 3
    let c2r0' := m.data 1 0 * m.data 2 1 * m.data 3 3 + m.data 2 0 * m.data 3 1 * m.data 1 3
      + m.data 3 0 * m.data 1 1 * m.data 2 3 - m.data 3 0 * m.data 2 1 * m.data 1 3
      - m.data 2 0 * m.data 1 1 * m.data 3 3 - m.data 1 0 * m.data 3 1 * m.data 2 3
    let c3r0' := m.data 3 0 * m.data 2 1 * m.data 1 2 + m.data 2 0 * m.data 1 1 * m.data 3 2
      + m.data 1 0 * m.data 3 1 * m.data 2 2 - m.data 1 0 * m.data 2 1 * m.data 3 2
      - m.data 2 0 * m.data 3 1 * m.data 1 2 - m.data 3 0 * m.data 1 1 * m.data 2 2
    let c0r1' := m.data 3 1 * m.data 2 2 * m.data 0 3 + m.data 2 1 * m.data 0 2 * m.data 3 3
      + m.data 0 1 * m.data 3 2 * m.data 2 3 - m.data 0 1 * m.data 2 2 * m.data 3 3
      - m.data 2 1 * m.data 3 2 * m.data 0 3 - m.data 3 1 * m.data 0 2 * m.data 2 3
    let c1r1' := m.data 0 0 * m.data 2 2 * m.data 3 3 + m.data 2 0 * m.data 3 2 * m.data 0 3
      + m.data 3 0 * m.data 0 2 * m.data 2 3 - m.data 3 0 * m.data 2 2 * m.data 0 3
      - m.data 2 0 * m.data 0 2 * m.data 3 3 - m.data 0 0 * m.data 3 2 * m.data 2 3
    let c2r1' := m.data 3 0 * m.data 2 1 * m.data 0 3 + m.data 2 0 * m.data 0 1 * m.data 3 3
      + m.data 0 0 * m.data 3 1 * m.data 2 3 - m.data 0 0 * m.data 2 1 * m.data 3 3
      - m.data 2 0 * m.data 3 1 * m.data 0 3 - m.data 3 0 * m.data 0 1 * m.data 2 3
    let c3r1' := m.data 0 0 * m.data 2 1 * m.data 3 2 + m.data 2 0 * m.data 3 1 * m.data 0 2
      + m.data 3 0 * m.data 0 1 * m.data 2 2 - m.data 3 0 * m.data 2 1 * m.data 0 2
      - m.data 2 0 * m.data 0 1 * m.data 3 2 - m.data 0 0 * m.data 3 1 * m.data 2 2
    let c0r2' := m.data 0 1 * m.data 1 2 * m.data 3 3 + m.data 1 1 * m.data 3 2 * m.data 0 3
      + m.data 3 1 * m.data 0 2 * m.data 1 3 - m.data 3 1 * m.data 1 2 * m.data 0 3
      - m.data 1 1 * m.data 0 2 * m.data 3 3 - m.data 0 1 * m.data 3 2 * m.data 1 3
    let c1r2' := m.data 3 0 * m.data 1 2 * m.data 0 3 + m.data 1 0 * m.data 0 2 * m.data 3 3
      + m.data 0 0 * m.data 3 2 * m.data 1 3 - m.data 0 0 * m.data 1 2 * m.data 3 3
      - m.data 1 0 * m.data 3 2 * m.data 0 3 - m.data 3 0 * m.data 0 2 * m.data 1 3
    let c2r2' := m.data 0 0 * m.data 1 1 * m.data 3 3 + m.data 1 0 * m.data 3 1 * m.data 0 3
      + m.data 3 0 * m.data 0 1 * m.data 1 3 - m.data 3 0 * m.data 1 1 * m.data 0 3
      - m.data 1 0 * m.data 0 1 * m.data 3 3 - m.data 0 0 * m.data 3 1 * m.data 1 3
    let c3r2' := m.data 3 0 * m.data 1 1 * m.data 0 2 + m.data 1 0 * m.data 0 1 * m.data 3 2
      + m.data 0 0 * m.data 3 1 * m.data 1 2 - m.data 0 0 * m.data 1 1 * m.data 3 2
      - m.data 1 0 * m.data 3 1 * m.data 0 2 - m.data 3 0 * m.data 0 1 * m.data 1 2
    let c0r3' := m.data 2 1 * m.data 1 2 * m.data 0 3 + m.data 1 1 * m.data 0 2 * m.data 2 3
      + m.data 0 1 * m.data 2 2 * m.data 1 3 - m.data 0 1 * m.data 1 2 * m.data 2 3
      - m.data 1 1 * m.data 2 2 * m.data 0 3 - m.data 2 1 * m.data 0 2 * m.data 1 3
    let c1r3' := m.data 0 0 * m.data 1 2 * m.data 2 3 + m.data 1 0 * m.data 2 2 * m.data 0 3
      + m.data 2 0 * m.data 0 2 * m.data 1 3 - m.data 2 0 * m.data 1 2 * m.data 0 3
      - m.data 1 0 * m.data 0 2 * m.data 2 3 - m.data 0 0 * m.data 2 2 * m.data 1 3
    let c2r3' := m.data 2 0 * m.data 1 1 * m.data 0 3 + m.data 1 0 * m.data 0 1 * m.data 2 3
      + m.data 0 0 * m.data 2 1 * m.data 1 3 - m.data 0 0 * m.data 1 1 * m.data 2 3
      - m.data 1 0 * m.data 2 1 * m.data 0 3 - m.data 2 0 * m.data 0 1 * m.data 1 3
    let c3r3' := m.data 0 0 * m.data 1 1 * m.data 2 2 + m.data 1 0 * m.data 2 1 * m.data 0 2
      + m.data 2 0 * m.data 0 1 * m.data 1 2 - m.data 2 0 * m.data 1 1 * m.data 0 2
      - m.data 1 0 * m.data 0 1 * m.data 2 2 - m.data 0 0 * m.data 2 1 * m.data 1 2
    some (new4x4
      (detInv * c0r0') (detInv * c0r1') (detInv * c0r2') (detInv * c0r3')
      (detInv * c1r0') (detInv * c1r1') (detInv * c1r2') (detInv * c1r3')
      (detInv * c2r0') (detInv * c2r1') (detInv * c2r2') (detInv * c2r3')
      (detInv * c3r0') (detInv * c3r1') (detInv * c3r2') (detInv * c3r3'))

/-- `Matrix1x1::inverse`, matrix.rs 2696-2698 -/
def inverse1 (m : Mat S 1 1) : Res (Mat S 1 1) := unwrap m.tryInverse1
/-- `Matrix2x2::inverse`, matrix.rs 3337-3339 -/
def inverse2 (m : Mat S 2 2) : Res (Mat S 2 2) := unwrap m.tryInverse2
/-- `Matrix3x3::inverse`, matrix.rs 5443-5445 -/
def inverse3 (m : Mat S 3 3) : Res (Mat S 3 3) := unwrap m.tryInverse3
/-- `Matrix4x4::inverse`, matrix.rs 7823-7825 -/
def inverse4 (m : Mat S 4 4) : Res (Mat S 4 4) := unwrap m.tryInverse4

end Det

/-- `Matrix1x1::is_invertible`, matrix.rs 2670-2677; `ulpsEq` is `approx_cmp`'s comparison with the
library's default tolerances (absolute difference and ulps) -/
def isInvertible1 [Zero S] (ulpsEq : S → S → Bool) (m : Mat S 1 1) : Bool := !ulpsEq m.determinant1 0
/-- `Matrix2x2::is_invertible`, matrix.rs 3303-3310 -/
def isInvertible2 [Zero S] [Sub S] [Mul S] (ulpsEq : S → S → Bool) (m : Mat S 2 2) : Bool :=
  !ulpsEq m.determinant2 0
/-- `Matrix3x3::is_invertible`, matrix.rs 5401-5408 -/
def isInvertible3 [Zero S] [Add S] [Sub S] [Mul S] (ulpsEq : S → S → Bool) (m : Mat S 3 3) : Bool :=
  !ulpsEq m.determinant3 0
/-- `Matrix4x4::is_invertible`, matrix.rs 7785-7792 -/
def isInvertible4 [Zero S] [Add S] [Sub S] [Mul S] (ulpsEq : S → S → Bool) (m : Mat S 4 4) : Bool :=
  !ulpsEq m.determinant4 0

/-! ### shears -/

section Shear
variable [Zero S] [One S]

/-- `Matrix2x2::from_shear_xy`, matrix.rs 2787-2792 -/
def fromShearXY2 (k : S) : Mat S 2 2 := new2x2 1 0 k 1
/-- `Matrix2x2::from_shear_yx`, matrix.rs 2843-2848 -/
def fromShearYX2 (k : S) : Mat S 2 2 := new2x2 1 k 0 1
/-- `Matrix3x3::from_shear_xy`, matrix.rs 3449-3458 -/
def fromShearXY3 (k : S) : Mat S 3 3 := new3x3 1 0 0 k 1 0 0 0 1
/-- `Matrix3x3::from_shear_xz`, matrix.rs 3519-3528 -/
def fromShearXZ3 (k : S) : Mat S 3 3 := new3x3 1 0 0 0 1 0 k 0 1
/-- `Matrix3x3::from_shear_yx`, matrix.rs 3589-3598 -/
def fromShearYX3 (k : S) : Mat S 3 3 := new3x3 1 k 0 0 1 0 0 0 1
/-- `Matrix3x3::from_shear_yz`, matrix.rs 3659-3668 -/
def fromShearYZ3 (k : S) : Mat S 3 3 := new3x3 1 0 0 0 1 0 0 k 1
/-- `Matrix3x3::from_shear_zx`, matrix.rs 3729-3738 -/
def fromShearZX3 (k : S) : Mat S 3 3 := new3x3 1 0 k 0 1 0 0 0 1
/-- `Matrix3x3::from_shear_zy`, matrix.rs 3799-3808 -/
def fromShearZY3 (k : S) : Mat S 3 3 := new3x3 1 0 0 0 1 k 0 0 1
/-- `Matrix3x3::from_affine_shear_xy`, matrix.rs 4037-4046 -/
def fromAffineShearXY3 (k : S) : Mat S 3 3 := new3x3 1 0 0 k 1 0 0 0 1
/-- `Matrix3x3::from_affine_shear_yx`, matrix.rs 4093-4102 -/
def fromAffineShearYX3 (k : S) : Mat S 3 3 := new3x3 1 k 0 0 1 0 0 0 1
/-- `Matrix4x4::from_affine_shear_xy`, matrix.rs 5602-5612 -/
def fromAffineShearXY4 (k : S) : Mat S 4 4 := new4x4 1 0 0 0 k 1 0 0 0 0 1 0 0 0 0 1
/-- `Matrix4x4::from_affine_shear_xz`, matrix.rs 5669-5679 -/
def fromAffineShearXZ4 (k : S) : Mat S 4 4 := new4x4 1 0 0 0 0 1 0 0 k 0 1 0 0 0 0 1
/-- `Matrix4x4::from_affine_shear_yx`, matrix.rs 5736-5746 -/
def fromAffineShearYX4 (k : S) : Mat S 4 4 := new4x4 1 k 0 0 0 1 0 0 0 0 1 0 0 0 0 1
/-- `Matrix4x4::from_affine_shear_yz`, matrix.rs 5803-5813 -/
def fromAffineShearYZ4 (k : S) : Mat S 4 4 := new4x4 1 0 0 0 0 1 0 0 0 k 1 0 0 0 0 1
/-- `Matrix4x4::from_affine_shear_zx`, matrix.rs 5871-5881 -/
def fromAffineShearZX4 (k : S) : Mat S 4 4 := new4x4 1 0 k 0 0 1 0 0 0 0 1 0 0 0 0 1
/-- `Matrix4x4::from_affine_shear_zy`, matrix.rs 5938-5948 -/
def fromAffineShearZY4 (k : S) : Mat S 4 4 := new4x4 1 0 0 0 0 1 k 0 0 0 1 0 0 0 0 1

variable [Add S] [Mul S]

/-- `Matrix2x2::from_shear`, matrix.rs 3003-3014 -/
def fromShear2 (k : S) (direction normal : Unit' (Vec S 2)) : Mat S 2 2 :=
  let d := direction.value.data
  let n := normal.value.data
  new2x2
    (1 + k * d 0 * n 0) (k * d 1 * n 0)
    (k * d 0 * n 1) (1 + k * d 1 * n 1)

/-- `Matrix3x3::from_shear`, matrix.rs 3965-3985 -/
def fromShear3 (k : S) (direction normal : Unit' (Vec S 3)) : Mat S 3 3 :=
  let d := direction.value.data
  let n := normal.value.data
  new3x3
    (1 + k * d 0 * n 0) (k * d 1 * n 0) (k * d 2 * n 0)
    (k * d 0 * n 1) (1 + k * d 1 * n 1) (k * d 2 * n 1)
    (k * d 0 * n 2) (k * d 1 * n 2) (1 + k * d 2 * n 2)

variable [Neg S]

/-- `Matrix3x3::from_affine_shear`, matrix.rs 4314-4342 -/
def fromAffineShear3 (k : S) (origin : Pt S 2) (direction normal : Unit' (Vec S 2)) : Mat S 3 3 :=
  let translation := direction.value * (-k * origin.toVector.dot normal.value)
  let d := direction.value.data
  let n := normal.value.data
  new3x3
    (1 + k * d 0 * n 0) (k * d 1 * n 0) 0
    (k * d 0 * n 1) (1 + k * d 1 * n 1) 0
    (translation.data 0) (translation.data 1) 1

/-- `Matrix4x4::from_affine_shear`, matrix.rs 6110-6147 -/
def fromAffineShear4 (k : S) (origin : Pt S 3) (direction normal : Unit' (Vec S 3)) : Mat S 4 4 :=
  let translation := direction.value * (-k * origin.toVector.dot normal.value)
  let d := direction.value.data
  let n := normal.value.data
  new4x4
    (1 + k * d 0 * n 0) (k * d 1 * n 0) (k * d 2 * n 0) 0
    (k * d 0 * n 1) (1 + k * d 1 * n 1) (k * d 2 * n 1) 0
    (k * d 0 * n 2) (k * d 1 * n 2) (1 + k * d 2 * n 2) 0
    (translation.data 0) (translation.data 1) (translation.data 2) 1

end Shear

/-! ### reflections -/

section Reflection
variable [Zero S] [One S] [Add S] [Sub S] [Mul S] [Neg S]

/-- `Matrix2x2::from_reflection`, matrix.rs 3063-3077 -/
def fromReflection2 (normal : Unit' (Vec S 2)) : Mat S 2 2 :=
  let two : S := 1 + 1
  let n := normal.value.data
  new2x2
    (1 - two * n 0 * n 0) (-two * n 1 * n 0)
    (-two * n 0 * n 1) (1 - two * n 1 * n 1)

/-- `Matrix3x3::from_affine_reflection`, matrix.rs 4489-4511 -/
def fromAffineReflection3 (normal : Unit' (Vec S 2)) (bias : Pt S 2) : Mat S 3 3 :=
  let two : S := 1 + 1
  let n := normal.value.data
  let b := bias.coords.data
  new3x3
    (1 - two * n 0 * n 0) (-two * n 1 * n 0) 0
    (-two * n 0 * n 1) (1 - two * n 1 * n 1) 0
    (two * n 0 * (n 0 * b 0 + n 1 * b 1)) (two * n 1 * (n 0 * b 0 + n 1 * b 1)) 1

/-- `Matrix3x3::from_reflection`, matrix.rs 4537-4558 -/
def fromReflection3 (normal : Unit' (Vec S 3)) : Mat S 3 3 :=
  let two : S := 1 + 1
  let n := normal.value.data
  new3x3
    (1 - two * n 0 * n 0) (-two * n 1 * n 0) (-two * n 2 * n 0)
    (-two * n 0 * n 1) (1 - two * n 1 * n 1) (-two * n 2 * n 1)
    (-two * n 0 * n 2) (-two * n 1 * n 2) (1 - two * n 2 * n 2)

/-- `Matrix4x4::from_affine_reflection`, matrix.rs 6249-6280 -/
def fromAffineReflection4 (normal : Unit' (Vec S 3)) (bias : Pt S 3) : Mat S 4 4 :=
  let two : S := 1 + 1
  let n := normal.value.data
  let b := bias.coords.data
  new4x4
    (1 - two * n 0 * n 0) (-two * n 1 * n 0) (-two * n 2 * n 0) 0
    (-two * n 0 * n 1) (1 - two * n 1 * n 1) (-two * n 2 * n 1) 0
    (-two * n 0 * n 2) (-two * n 1 * n 2) (1 - two * n 2 * n 2) 0
    (two * n 0 * (n 0 * b 0 + n 1 * b 1 + n 2 * b 2))
    (two * n 1 * (n 0 * b 0 + n 1 * b 1 + n 2 * b 2))
    (two * n 2 * (n 0 * b 0 + n 1 * b 1 + n 2 * b 2)) 1

/-- `Matrix3x3::cross_matrix`, matrix.rs 4622-4628 -/
def crossMatrix (v : Vec S 3) : Mat S 3 3 :=
  new3x3
    0 (v.data 2) (-v.data 1)
    (-v.data 2) 0 (v.data 0)
    (v.data 1) (-v.data 0) 0

end Reflection

/-! ### rotations -/

section Rotation
variable [Zero S] [One S] [Add S] [Sub S] [Mul S] [Div S] [Neg S] [NatCast S] [FloatFns S]

/-- `Matrix2x2::from_angle`, matrix.rs 3133-3143 -/
def fromAngle2 (angle : Radians S) : Mat S 2 2 :=
  let sc := Angle.sinCos angle
  new2x2 sc.2 sc.1 (-sc.1) sc.2

/-- `Matrix3x3::from_affine_angle`, matrix.rs 4664-4677 -/
def fromAffineAngle3 (angle : Radians S) : Mat S 3 3 :=
  let sc := Angle.sinCos angle
  new3x3 sc.2 sc.1 0 (-sc.1) sc.2 0 0 0 1

/-- `Matrix3x3::from_angle_x`, matrix.rs 4705-4716 -/
def fromAngleX3 (angle : Radians S) : Mat S 3 3 :=
  let sc := Angle.sinCos angle
  new3x3 1 0 0 0 sc.2 sc.1 0 (-sc.1) sc.2

/-- `Matrix3x3::from_angle_y`, matrix.rs 4744-4755 -/
def fromAngleY3 (angle : Radians S) : Mat S 3 3 :=
  let sc := Angle.sinCos angle
  new3x3 sc.2 0 (-sc.1) 0 1 0 sc.1 0 sc.2

/-- `Matrix3x3::from_angle_z`, matrix.rs 4783-4794 -/
def fromAngleZ3 (angle : Radians S) : Mat S 3 3 :=
  let sc := Angle.sinCos angle
  new3x3 sc.2 sc.1 0 (-sc.1) sc.2 0 0 0 1

/-- `Matrix3x3::from_axis_angle`, matrix.rs 4824-4845 -/
def fromAxisAngle3 (axis : Unit' (Vec S 3)) (angle : Radians S) : Mat S 3 3 :=
  let sc := Angle.sinCos angle
  let sinAngle := sc.1
  let cosAngle := sc.2
  let omc := 1 - cosAngle
  let a := axis.value.data
  new3x3
    (omc * a 0 * a 0 + cosAngle)
    (omc * a 0 * a 1 + sinAngle * a 2)
    (omc * a 0 * a 2 - sinAngle * a 1)
    (omc * a 0 * a 1 - sinAngle * a 2)
    (omc * a 1 * a 1 + cosAngle)
    (omc * a 1 * a 2 + sinAngle * a 0)
    (omc * a 0 * a 2 + sinAngle * a 1)
    (omc * a 1 * a 2 - sinAngle * a 0)
    (omc * a 2 * a 2 + cosAngle)

/-- `Matrix4x4::from_affine_angle_x`, matrix.rs 6361-6375 -/
def fromAffineAngleX4 (angle : Radians S) : Mat S 4 4 :=
  let sc := Angle.sinCos angle
  new4x4 1 0 0 0 0 sc.2 sc.1 0 0 (-sc.1) sc.2 0 0 0 0 1

/-- `Matrix4x4::from_affine_angle_y`, matrix.rs 6404-6418 -/
def fromAffineAngleY4 (angle : Radians S) : Mat S 4 4 :=
  let sc := Angle.sinCos angle
  new4x4 sc.2 0 (-sc.1) 0 0 1 0 0 sc.1 0 sc.2 0 0 0 0 1

/-- `Matrix4x4::from_affine_angle_z`, matrix.rs 6447-6461 -/
def fromAffineAngleZ4 (angle : Radians S) : Mat S 4 4 :=
  let sc := Angle.sinCos angle
  new4x4 sc.2 sc.1 0 0 (-sc.1) sc.2 0 0 0 0 1 0 0 0 0 1

/-- `Matrix4x4::from_affine_axis_angle`, matrix.rs 6492-6521 -/
def fromAffineAxisAngle4 (axis : Unit' (Vec S 3)) (angle : Radians S) : Mat S 4 4 :=
  let sc := Angle.sinCos angle
  let sinAngle := sc.1
  let cosAngle := sc.2
  let omc := 1 - cosAngle
  let a := axis.value.data
  new4x4
    (omc * a 0 * a 0 + cosAngle)
    (omc * a 0 * a 1 + sinAngle * a 2)
    (omc * a 0 * a 2 - sinAngle * a 1)
    0
    (omc * a 0 * a 1 - sinAngle * a 2)
    (omc * a 1 * a 1 + cosAngle)
    (omc * a 1 * a 2 + sinAngle * a 0)
    0
    (omc * a 0 * a 2 + sinAngle * a 1)
    (omc * a 1 * a 2 - sinAngle * a 0)
    (omc * a 2 * a 2 + cosAngle)
    0
    0 0 0 1

/-! ### rotations between vectors -/

/-- `Matrix2x2::rotation_between_axis`, matrix.rs 3235-3240 -/
def rotationBetweenAxis2 (v1 v2 : Unit' (Vec S 2)) : Mat S 2 2 :=
  let cosAngle := v1.value.dot v2.value
  let sinAngle := fsqrt (1 - cosAngle * cosAngle)
  fromAngle2 (Angle.atan2 sinAngle cosAngle)

variable [LT S] [DecidableLT S]

/-- `Matrix2x2::rotation_between`, matrix.rs 3183-3189 -/
def rotationBetween2 (v1 v2 : Vec S 2) : Mat S 2 2 :=
  match Unit'.tryFromValue v1 0, Unit'.tryFromValue v2 0 with
  | some u1, some u2 => rotationBetweenAxis2 u1 u2
  | _, _ => identity

/-- `Matrix3x3::rotation_between_axis_eps`, matrix.rs 5302-5315; `threshold` is
`S::default_epsilon()` in the public function (5297-5299) -/
def rotationBetweenAxis3 (threshold : S) (u1 u2 : Unit' (Vec S 3)) : Option (Mat S 3 3) :=
  let cross := u1.value.cross u2.value
  let cosAngle := u1.value.dot u2.value
  match Unit'.tryFromValue cross threshold with
  | some axis => some (fromAxisAngle3 axis (Angle.acos cosAngle))
  | none => if cosAngle < 0 then none else some identity

variable [LE S] [DecidableLE S]

/-- `Matrix3x3::rotation_between_eps`, matrix.rs 5254-5268; `threshold` is `S::default_epsilon()` in the
public function (5249-5251) -/
def rotationBetween3 (threshold : S) (v1 v2 : Vec S 3) : Option (Mat S 3 3) :=
  match v1.tryNormalize 0, v2.tryNormalize 0 with
  | some u1, some u2 =>
    let cross := u1.cross u2
    match Unit'.tryFromValue cross threshold with
    | some axis => some (fromAxisAngle3 axis (Angle.acos (u1.dot u2)))
    | none => if u1.dot u2 < 0 then none else some identity
  | _, _ => some identity

end Rotation

/-! ### view matrices -/

section Look
variable [Zero S] [One S] [Add S] [Sub S] [Mul S] [Div S] [Neg S] [FloatFns S]

/-- `Matrix3x3::look_to_lh`, matrix.rs 4888-4898 -/
def lookToLh3 (direction up : Vec S 3) : Mat S 3 3 :=
  let z := direction.normalize
  let x := (up.cross z).normalize
  let y := (z.cross x).normalize
  new3x3
    (x.data 0) (y.data 0) (z.data 0)
    (x.data 1) (y.data 1) (z.data 1)
    (x.data 2) (y.data 2) (z.data 2)

/-- `Matrix3x3::look_to_rh`, matrix.rs 4940-4950 -/
def lookToRh3 (direction up : Vec S 3) : Mat S 3 3 :=
  let z := -direction.normalize
  let x := (up.cross z).normalize
  let y := (z.cross x).normalize
  new3x3
    (x.data 0) (y.data 0) (z.data 0)
    (x.data 1) (y.data 1) (z.data 1)
    (x.data 2) (y.data 2) (z.data 2)

/-- `Matrix3x3::look_at_lh`, matrix.rs 4994-4996 -/
def lookAtLh3 (eye target : Pt S 3) (up : Vec S 3) : Mat S 3 3 := lookToLh3 (target - eye) up
/-- `Matrix3x3::look_at_rh`, matrix.rs 5040-5042 -/
def lookAtRh3 (eye target : Pt S 3) (up : Vec S 3) : Mat S 3 3 := lookToRh3 (target - eye) up
/-- `Matrix3x3::look_to_lh_inv`, matrix.rs 5083-5085 -/
def lookToLhInv3 (direction up : Vec S 3) : Mat S 3 3 := (lookToLh3 direction up).transpose
/-- `Matrix3x3::look_to_rh_inv`, matrix.rs 5126-5128 -/
def lookToRhInv3 (direction up : Vec S 3) : Mat S 3 3 := (lookToRh3 direction up).transpose
/-- `Matrix3x3::look_at_lh_inv`, matrix.rs 5173-5175 -/
def lookAtLhInv3 (eye target : Pt S 3) (up : Vec S 3) : Mat S 3 3 := (lookAtLh3 eye target up).transpose
/-- `Matrix3x3::look_at_rh_inv`, matrix.rs 5220-5222 -/
def lookAtRhInv3 (eye target : Pt S 3) (up : Vec S 3) : Mat S 3 3 := (lookAtRh3 eye target up).transpose

/-- `Matrix4x4::look_to_lh`, matrix.rs 7262-7280 -/
def lookToLh4 (eye : Pt S 3) (direction up : Vec S 3) : Mat S 4 4 :=
  let z := direction.normalize
  let x := (up.cross z).normalize
  let y := (z.cross x).normalize
  let eyeVec := eye - (Pt.origin : Pt S 3)
  new4x4
    (x.data 0) (y.data 0) (z.data 0) 0
    (x.data 1) (y.data 1) (z.data 1) 0
    (x.data 2) (y.data 2) (z.data 2) 0
    (-eyeVec.dot x) (-eyeVec.dot y) (-eyeVec.dot z) 1

/-- `Matrix4x4::look_to_rh`, matrix.rs 7328-7346 -/
def lookToRh4 (eye : Pt S 3) (direction up : Vec S 3) : Mat S 4 4 :=
  let z := (-direction).normalize
  let x := (up.cross z).normalize
  let y := (z.cross x).normalize
  let eyeVec := eye - (Pt.origin : Pt S 3)
  new4x4
    (x.data 0) (y.data 0) (z.data 0) 0
    (x.data 1) (y.data 1) (z.data 1) 0
    (x.data 2) (y.data 2) (z.data 2) 0
    (-eyeVec.dot x) (-eyeVec.dot y) (-eyeVec.dot z) 1

/-- `Matrix4x4::look_at_lh`, matrix.rs 7393-7395 -/
def lookAtLh4 (eye target : Pt S 3) (up : Vec S 3) : Mat S 4 4 := lookToLh4 eye (target - eye) up
/-- `Matrix4x4::look_at_rh`, matrix.rs 7442-7444 -/
def lookAtRh4 (eye target : Pt S 3) (up : Vec S 3) : Mat S 4 4 := lookToRh4 eye (target - eye) up

/-- `Matrix4x4::look_to_lh_inv`, matrix.rs 7488-7506 -/
def lookToLhInv4 (eye : Pt S 3) (direction up : Vec S 3) : Mat S 4 4 :=
  let z := direction.normalize
  let x := (up.cross z).normalize
  let y := (z.cross x).normalize
  let eyeVec := eye - (Pt.origin : Pt S 3)
  new4x4
    (x.data 0) (x.data 1) (x.data 2) 0
    (y.data 0) (y.data 1) (y.data 2) 0
    (z.data 0) (z.data 1) (z.data 2) 0
    (eyeVec.dot x) (eyeVec.dot y) (eyeVec.dot z) 1

/-- `Matrix4x4::look_to_rh_inv`, matrix.rs 7551-7569 -/
def lookToRhInv4 (eye : Pt S 3) (direction up : Vec S 3) : Mat S 4 4 :=
  let z := (-direction).normalize
  let x := (up.cross z).normalize
  let y := (z.cross x).normalize
  let eyeVec := eye - (Pt.origin : Pt S 3)
  new4x4
    (x.data 0) (x.data 1) (x.data 2) 0
    (y.data 0) (y.data 1) (y.data 2) 0
    (z.data 0) (z.data 1) (z.data 2) 0
    (eyeVec.dot x) (eyeVec.dot y) (eyeVec.dot z) 1

/-- `Matrix4x4::look_at_lh_inv`, matrix.rs 7613-7615 -/
def lookAtLhInv4 (eye target : Pt S 3) (up : Vec S 3) : Mat S 4 4 := lookToLhInv4 eye (target - eye) up
/-- `Matrix4x4::look_at_rh_inv`, matrix.rs 7659-7661 -/
def lookAtRhInv4 (eye target : Pt S 3) (up : Vec S 3) : Mat S 4 4 := lookToRhInv4 eye (target - eye) up

end Look

/-! ### projection matrices -/

section Projection
variable [Zero S] [One S] [Add S] [Sub S] [Mul S] [Div S] [Neg S]

/-- `Matrix4x4::from_orthographic`, matrix.rs 6674-6705 -/
def fromOrthographic (left right bottom top near far : S) : Mat S 4 4 :=
  let two : S := 1 + 1
  new4x4
    (two / (right - (-left))) 0 0 0
    0 (two / (top - (-bottom))) 0 0
    0 0 (-two / (far - near)) 0
    (-(right + (-left)) / (right - (-left))) (-(top + (-bottom)) / (top - (-bottom)))
    (-(far + near) / (far - near)) 1

/-- `Matrix4x4::from_perspective`, matrix.rs 6861-6892 -/
def fromPerspective (left right bottom top near far : S) : Mat S 4 4 :=
  let two : S := 1 + 1
  new4x4
    ((two * near) / (right - (-left))) 0 0 0
    0 ((two * near) / (top - (-bottom))) 0 0
    ((right + (-left)) / (right - (-left))) ((top + (-bottom)) / (top - (-bottom)))
    (-(far + near) / (far - near)) (-1)
    0 0 (-(two * far * near) / (far - near)) 0

/-- `Matrix4x4::from_perspective_vfov`, matrix.rs 7179-7214 -/
def fromPerspectiveVfov [NatCast S] [FloatFns S] (vfov : Radians S) (aspectRatio near far : S) : Mat S 4 4 :=
  let two : S := 1 + 1
  let range := Angle.tan (vfov / two) * near
  new4x4
    ((two * near) / (range * aspectRatio + range * aspectRatio)) 0 0 0
    0 (near / range) 0 0
    0 0 (-(far + near) / (far - near)) (-1)
    0 0 (-(two * far * near) / (far - near)) 0

end Projection

end Mat
end Cgl
