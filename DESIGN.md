# Formal model of cglinalg in Lean 4

## 1. What is modelled, and how

The model lives in `lean/Verif/Model/*`. It follows the Rust source function by function; every
definition carries a comment with the file and lines it models (paths are relative to
`/repo/crates/`). Specifications (what a user means by "determinant", "rotation", "the angle in
[0, full turn)") live in `lean/Verif/Spec/*` and do not mention any helper of the model. Property theorems
live in `lean/Verif/Props/C*.lean`, one file per property (or group), each with `example`s showing that
the hypotheses are met by concrete non-trivial data. Auxiliary lemmas live in
`lean/Verif/Lemmas/*`.

### Representation

| Rust | Lean |
|---|---|
| `Vector<S, N>` (array of N scalars) | `structure Vec S n where data : Fin n -> S` |
| `Point<S, N>` | `structure Pt S n where coords : Vec S n` |
| `Matrix<S, R, C>` (array of C columns of R scalars) | `structure Mat S R C where data : Fin C -> Fin R -> S` (column first, as `m[c][r]`) |
| `Complex<S>`, `Quaternion<S>`, `EulerAngles`, `Unit<T>` | structures with the same fields |
| transform types | structures with the same fields |
| a `for i in 0..n` loop | `forRange n init body`, a left fold over `0,1,...,n-1` |
| `a[i] = x` in a loop | `Function.update` |
| a while loop | `whileLoop cond body s : Option σ`, the least fixed point of the loop equation (`partial_fixpoint`); `none` = does not terminate, so termination is part of each theorem |
| `Option` | `Option` |
| panic (`unwrap` on `None`, index out of range) | `Except Panic _` |
| `NPLUS1` const generic with constraint trait | `n+1` |

Every loop that the Rust source writes as a loop is modelled as a loop (a fold with the same state and the
same order of updates); the closed form is a theorem, proved by induction for every length.

### Scalars

Model functions are defined over *raw operations* (`[Zero S] [Add S] [Mul S] ...`) with no laws.
The laws are hypotheses of the theorems:

* structural properties (indexing, transposition, swaps, round trips, casts, branch structure) assume
  **no** laws, hence hold for IEEE floats including NaN;
* ring identities assume `CommRing S` - this includes `Int` and wrapping machine integers
  (`BitVec 32` instance shown);
* division/inverses assume `Field S` (exact arithmetic);
* order facts assume a linearly ordered field;
* functions that need `sqrt`, trigonometry, `exp`, `ln` are modelled over the real numbers `ℝ`, with
  `sqrt = Real.sqrt`, `atan2 y x = Complex.arg (x + i y)`, `ln = Real.log`, `powf = Real.rpow`,
  `x % y = x - y * trunc (x / y)`.

Machine integers are modelled in `Model/Numeric.lean`: `MInt` (fixed width, two's complement, with the
panics that overflow checks cause) and `XFloat` (a real, plus or minus infinity, or NaN), used for the scalar
helpers and approximate comparison (C61, C62). `Display` is modelled as text (C65), and the reference casts
between a value, an array and a tuple as reading the same sequence of scalars at a different type (C63).

The same model functions are also instantiated with rounded, wrapping and IEEE scalars (C66 to C69, C72; see the end
of section 3). Scalars are compared with `==` in the model where the source does, so that NaN differs from itself and
the two zeros are equal.

Not modelled: references as opposed to values (`&a + &b` is the same function as `a + b`); `Debug`, `Hash`,
`Serialize`, random generation, SIMD. The tuple casts in the source
rely on Rust laying out a homogeneous tuple in order, which the language does not promise; the model assumes
it. Where real arithmetic in Lean is
totalised (`x / 0 = 0`, `sqrt` of a negative, `log 0`), a theorem carries the hypothesis that keeps the
argument inside the domain of the float function, so no theorem rests on the totalised value.

## 2. Trusted base

* Lean 4.33.0's kernel and Mathlib's definitions (not its proofs, which the kernel rechecks).
* Axioms: only `propext`, `Classical.choice`, `Quot.sound` (checked with `#print axioms`).
  No axioms added; no `sorry`, `admit`, `native_decide`, `bv_decide`, `implemented_by`.
* The faithfulness of the hand transcription from Rust to Lean. Mitigation: same names, same order of
  operations, line citations, mutation tests in `seeded/LOG.jsonl`.
* The exact-real reading of `f32`/`f64` described above.

### References

The model has one definition per operator where the source has up to four implementations (for values and references on
either side). `tools/ref_variants.py` compares them: 398 implementations in 136 groups, and the bodies of each group agree
after references and dereferences are removed.

### Checks of the model against the code's own tests

`tools/conformance.py` translates the unit tests of /repo (`crates/*/tests/test_*.rs`) statement by statement into Lean
definitions over `Float` and `Int` that call the model, and evaluates them. It is a test of the model's fidelity, not a
proof, and is not part of the build. Of 1732 tests, 1721 are translated and all of these pass; 11 are not translated
(`as_mut` borrows, two `Point::from` and one `into` conversion whose target type is inferred, one test of an operator
that panics on purpose).

## 3. Plan per property

| id | model | proof |
|---|---|---|
| C01 | `Vec.dot` loop | fold = Finset sum, induction on N; Cauchy-Schwarz via Mathlib |
| C02 | componentwise loops, assign loops | closed form of update loops by induction |
| C03 | `try_cast` loops with early exit | induction: loop invariant "no failure so far" |
| C04 | `Normed` impls over ℝ | algebra with `Real.sqrt` |
| C05 | `Unit` constructors | threshold comparison by squares |
| C06 | norm loops; folds of `max` | Finset sums/sup; Minkowski from Mathlib for Lp |
| C07 | explicit formulas | `ring` |
| C08-C10 | loops / formulas | algebra, order |
| C11 | `extend`, `contract`, homogeneous | case split on last index |
| C12 | point ops | componentwise algebra |
| C13-C16 | matrix loops | induction on loop length, for every shape |
| C17 | explicit polynomials | equality with `Matrix.det`; multiplicativity from Mathlib |
| C18 | explicit cofactors | `field_simp; ring` for both products; uniqueness |
| C19 | tolerance tests | direction that holds is proved, converse refuted by witness (`_partial`) |
| C20-C22 | loops | sums |
| C23-C27 | explicit matrices | entry-wise algebra for every dimension |
| C28-C30 | look/rotation_between over ℝ | orthonormal frames; refutations for defects |
| C31-C33 | projection | algebra; refutation for off-axis `project_point` |
| C34-C38 | `Complex` | ring isomorphism with Mathlib `ℂ`, transcendental functions compared with `Complex.exp` etc.; loop invariant for `powu` |
| C39-C48 | `Quaternion` | isomorphism with Mathlib `Quaternion`; trigonometric algebra |
| C49 | Euler | product of axis rotations; case split at gimbal lock |
| C50-C52 | `Angle` trait over abstract unit, instances | `Int.floor`/truncation arithmetic |
| C53-C60 | transforms | group laws, homogeneous action |
| C61 | approximate equality | conjunctions; refutation for isometries |
| C62 | scalar helpers | order |
| C63 | indexing, views, casts as reads of the same scalar sequence | bounds case split; layout bijections |
| C64 | the table of swizzle methods | evaluation of the whole finite table fixed by the source, for every receiver |
| C65 | `Display` loops over a text accumulator, with `usize` subtraction | loop invariant; text injectivity by induction |
| C66 | rounded arithmetic `Fl ρ` (`Spec/Rounding.lean`) plugged into the same model functions | loop invariants from monotone, odd, idempotent rounding; binary64 witnesses for the failures |
| C67 | the same | induction over the number of roundings, `(1+u)^k - 1` error calculus |
| C69 | IEEE data `Ieee φ` with infinities, NaN and signed zeros (`Spec/Ieee.lean`), `Model/Special.lean` | every operation shows special operands; induction over the loops; `f64` witnesses for the failures |
| C68 | `BitVec w` plugged into the same model functions | functions commute with ring homomorphisms; signed and unsigned reading of the result |
| C70 | `Model/Debug.lean`: the `debug_*` functions of every type, and `Unit`, parameterised by the scalar report | one specification `Spec.Explains` for all types, instantiated at each; witness for `Isometry` |
| C71 | `Model/Constraint.lean`: the impl tables of constraint.rs as functions from dimensions to optional results, and the bounds of the impls that use them | tables characterised by arithmetic for every dimension; product shapes from there; witness for association beyond four |
| C72 | `Model/Complex.lean` with IEEE scalars and any library that meets the special values of C, annex F (`Spec/Libm.lean`) | case analysis over the table of annex G; witnesses for the rows that fail; binary64 witness for the overflow of `tanh` |
| C73 | `Model/Actions.lean`: the `*` operators between transformations and points or vectors | from C53-C60 for each type; induction over expression trees for mixed products; C31 and C33 for projections |
| C74 | no new model: the 99 laws of tests/spec_complex.rs, with the lines of each, about `Model/Complex.lean` | from C34-C38 by comparison with Mathlib's `ℂ`; branch cuts by case analysis of arguments |
| C75 | no new model: the 74 laws of tests/spec_quaternion.rs, with the lines of each, about `Model/Quaternion.lean` | from C39-C48; every quaternion lies in a plane isomorphic to `ℂ` |
| C76 | no new model: the laws of tests/spec_vector.rs, spec_point.rs, spec_matrix.rs, spec_matrix_vector.rs, with the lines of each | algebra by extensionality; from C01, C02, C06, C07, C12-C15, C20-C22 |
| C77 | no new model: the laws of cglinalg_transform/tests/spec_*.rs except projections, and of spec_euler.rs, with the lines of each | from C18, C20, C25, C49, C55, C73; composition laws for general transformations under affinity |
| C78 | no new model: the laws of spec_projection.rs, spec_unit.rs and spec_angle.rs, with the lines of each | from C05, C32, C50-C52, C73 |
| C79 | no new model: bracketed products and per-frame histories of the products and `normalize` of the model, run on rounded arithmetic `Fl ρ` | induction over the bracketing in a normed ring (quaternions, `ℂ`, operators on Euclidean space); induction over the history |
| C80 | `Model/Angle.lean` on rounded arithmetic `Fl ρ` and on `Ieee φ` (`Spec/FloatAngle.lean` adds `%` and integer constants) | the representable numbers are `m * 2 ^ q` (`Lemmas/Grid.lean`); integer combinations no larger than the operands are exact; `f64` witnesses for the failures |
| C81 | the same functions on `Checked φ` (`Spec/Checked.lean`): a representable integer or `overflow`, which propagates | a relation `Agrees` to any commutative ring (ℤ: exact result; `BitVec w`: wrapped result) is preserved by every operation; partial sums by induction; an interval bound `Safe` for the safe regions |
| C82 | the same constructors on `Fl ρ` with any trigonometric library of accuracy ε (`Spec.TrigWithin`) | entrywise error bounds carried through each formula, turned into operator bounds through the Frobenius norm; the error calculus of C79 for chains |
| C83 | `determinant`, `try_inverse` of sizes 1 to 4 on `Fl ρ` | the determinant errors of C67, the error calculus `NearBy` for the cofactors, one lemma for a quotient of the two; witnesses evaluated by hand for the two refutations |
| C84 | `norm`, `normalize`, `try_normalize` of vectors, quaternions and complex numbers on `Ieee f64` and `Ieee f32` | a finite sum of nonnegative terms is finite all along; C67's bound with its underflow term absorbed by the length; one lemma for an abstract safe range, instantiated for both formats; the loop over squares evaluated outside the range |
| C85 | the functions that take `acos`, `asin` or `sqrt` of a computed number, on `Ieee f64` with an abstract library (`Library64`) | a calculus of power-of-two bounds for finiteness; rounding the square and then the root of a radix-two number does not decrease it; exact evaluation of roundings at literals for the failures |
| C86 | products of any number of quaternions, complex numbers and matrices on `Ieee f64`, in any bracketing, with and without normalization after each product | the direction of a computed product is compared with the product of the directions in a normed division algebra, so errors add; finiteness is the invariant of the induction over the bracketing; C79 and C84 supply the error of one step |
| C87 | the 16 look-to and look-at matrices of `Matrix3x3` and `Matrix4x4` on `Ieee f64` against the same functions on the reals, which C28 describes | vectors as points of Euclidean space: the error of one normalization (C84) and one cross product, the distance of two directions (C86), carried through the three axes of the frame; `C87_view_to` and `C87_view_at` state the result for a rotation characterized by its action (`Spec.Views`, unique by `C87_views_unique`) and carry it to the quaternion functions with C91 |
| C88 | the three projection matrices, `project_point` and the parameter accessors of both projection types on `Ieee f64`; the NaN results on every `Ieee` format | counting roundings: a computed number is the exact one times a factor between `(1 - 2^-53)^k` and its reciprocal; sums of f64 numbers never lose relative accuracy, and differences are not much smaller than sums |
| C89 | the nine products of `Translation`, `Rotation` and `Isometry`, their `inverse`, `apply_point`, `inverse_apply_point`, `apply_vector` on `Ieee f64`, against Mathlib's group of affine isometries | induction over the expression with an invariant that counts the errors entering the rotation and the translation; matrix products by C67's rounding lemmas; the transpose of a nearly orthogonal matrix by its adjoint |
| C90 | `to_transform`, `to_affine_matrix`, `apply_point`, `apply_vector` and the products of `Isometry`, `Rotation`, `Translation`, `Scale`, `Similarity` and `Transform` on `Ieee φ` for every format | the matrix is split in linear part, translation, bottom row and corner; the running sums of the matrix products are followed term by term, adding a zero changes nothing but the sign of a zero; two counterexamples |
| C91 | `Quaternion::from_matrix`, `to_matrix`, `to_matrix_mut`, `to_affine_matrix`, `to_affine_matrix_mut`, `Rotation3` from and to quaternions on `Ieee φ` for every fine format | the branch taken has a pivot well away from zero whatever the rounding did to the comparisons, absolute errors are followed through each operation; a unit quaternion exists for every matrix of `SO(3)`; perturbation of the normalized matrix |
| C92 | `Quaternion::dot`, `nlerp`, `slerp_eps` on `Ieee φ` for every fine format, sine and inverse cosine with a given accuracy | the point of the arc is specified by its angles to the ends; each of the three branches of the code is followed with absolute errors; the weights `sin(tθ)/sin θ` are Lipschitz in `cos θ`, so the error of the inner product is not amplified; the branch that is taken bounds the exact angle; with relative library errors the sine in the denominator has a relative error of at most the root of a rounding, because `2c - 1` is representable and close to `c²`, so the bound needs no lower bound on the angle |
| C93 | `Quaternion::rotation_between(_axis)`, `Rotation3::rotation_between`, `Rotation2::rotation_between(_axis)` on `Ieee φ` for every fine format, sine, cosine, inverse cosine and two-argument inverse tangent with a given accuracy | the shortest rotation is specified by its action on the first direction and its angle; the exact half-angle formulas make the square of every component linear in the cosine, so an error of the cosine is amplified by at most `1/s`; the test against the threshold is related to the exact length from both sides; `C84` bounds the normalization of a short vector product |
| C94 | `from_axis_angle`, `from_angle*` and their affine versions, `Quaternion::from_axis_angle`, `Euler::to_matrix`, the `Rotation3`, `Isometry3` and `Similarity3` constructors on `Ieee φ` for every fine format, sine and cosine with a given accuracy | the exact rotation is specified by Rodrigues' formula for its action and shown to be a rotation described by the half-angle quaternion; absolute errors are propagated through the products of the code |
| C95 | `Euler::from_matrix`, `Rotation3::euler_angles`, `From<Quaternion> for Euler` and `to_matrix` on `Ieee φ` for every fine format, library functions with given accuracies | the exact decomposition comes from `C49`; the two inverse tangents are applied to vectors of length `c`, so errors are amplified by `1/c`; in gimbal lock `fl(π/2)` is evaluated and its cosine bounded below, hence the wrong branch is taken and two different rotations get the same angles |
| C96 | `Rotation3::angle`, `axis`, `axis_angle` and `from_axis_angle` on `Ieee φ` for every fine format, library functions with given accuracies | the antisymmetric part of the exact rotation is `2 s a` and its trace is `1 + 2 cos`; the direction of a nearby vector and the inverse cosine of a nearby number are bounded in exact arithmetic, rounding by the absolute error calculus; for the negative result one rotation is evaluated and the recovered angle is shown to be below `2^-49` |
| C97 | `Quaternion::exp`, `ln`, `powf` on `Ieee φ` for every fine format, library functions with given accuracies | Mathlib's quaternion exponential is compared with itself at nearby quaternions; the length of the vector part has a small relative error, which cancels in `sin(n)/n` and in `arccos/n`; the inverse cosine of a nearby number is bounded as in C96; rounding by the absolute error calculus; for the negative result one quaternion is evaluated |
| C98 | `Complex::sqrt`, `cbrt`, `ln`, `exp`, `powf`, `polar_decomposition`, `cosh`, `sinh`, `cos`, `sin`, products and quotients on `Ieee φ` for every fine format, library functions with given relative accuracies | a calculus of errors relative to a size `a` that neither overflows nor underflows: a modulus with a small relative error times a sine or cosine with a small absolute one; the modulus by C84; powers through the logarithm and the exponential function at a nearby number; the branch is Mathlib's principal one on the slit plane; near the cut through the argument up to full turns |
| C99 | `Orthographic3` and `Perspective3`: `new`, the accessors, `project_point` and `unproject_point` on `Ieee f64` | the accessors by C88; the projection by C88; the way back by the calculus of errors relative to a size (`Lemmas/Scaled.lean`), with the size of each intermediate result: the width over the near distance, the inverse of the near distance, the depth |
| C100 | `Complex::powu`, `Complex::powi`, `Complex *`, `Complex *=` on `Ieee φ` | one multiplication turns relative errors A - 1 and B - 1 into (1 + 10u) A B - 1 (C98); loop invariants for the two loops: the base is z^m with m - 1 units, the result z^s with s - 1 units, and s + m (e - e mod 2) is the exponent; all intermediate powers lie between the number and the power in size; induction over product trees |
| C101 | `Complex::tanh`, `tan`, `asinh`, `asin` on `Ieee f64` | doubling is exact; the denominator has an absolute error relative to cosh(2x), the quotient follows (scale-relative calculus); overflow: inf / inf; asinh: square, sum and principal root with errors relative to 1 + abs(z)^2, perturbation of the root through (A - B)(A + B) = Q - c, of the logarithm by the mean value inequality on a half plane; failures by exact evaluation at powers of two |
| C102 | `Quaternion::try_inverse_eps`, `div_left`, `div_right`, `sqrt_eps` and `*` on `Ieee f64` | the squared length and the squared threshold with relative errors decide the branch; quotient, root and products in the scale-relative calculus with the exact inverse and the exact root as references; products of perturbed factors in the normed algebra of Hamilton's quaternions; that the square root needs K is `C85_quaternion_sqrt_fails` |
| C103 | `Matrix{1x1,2x2,3x3,4x4}::determinant`, `try_inverse` on `Ieee f64` and `Ieee f32` | sums of w products of d entries are carried with the number of roundings (`Tr`), everything relative to w M^d, by a macro that follows the source expression; reciprocal of the determinant and products in the scale-relative calculus; the failures follow 2^k through the expressions |
| C104 | `dot`, `cross`, `norm`, matrix and vector products, `determinant`, `try_inverse`, products of complex numbers and quaternions on `Ieee φ` | a number counts z units of 2^g; sums and products of counted numbers are counted while the integer stays within 2^p, by the grid of representable numbers; loop invariant with prefix sums; determinants with a calculus of sums of w products of d entries; histories by induction, integer orthogonal matrices are closed under products and have column sums of one, norms of Gaussian integers and quaternions multiply |
| C105 | `try_inverse`, matrix times vector, `Transform::{apply_point, apply_vector, inverse_apply_point, inverse_apply_vector}` on `Ieee φ` | the error of the loop of the matrix product by a loop invariant; entries of the exact inverse are at most (n-1)! K / M by Mathlib's adjugate and Leibniz bounds; C103 bounds the computed inverse; the bottom row of the computed inverse is exactly zero up to its corner, because every product in it has a zero factor |
| C106 | `Matrix * Matrix`, `Matrix * Vector`, `Transform * Transform`, `Transform::apply_point` on `Ieee φ` | the error of the loop of a dot product of any length by a loop invariant; rows and columns are bounded by Mathlib's L2 operator norm; induction over the brackets; the bottom row of a product of affine matrices is exactly 0 ... 0 1 |
| C107 | `Reflection::{from_normal_bias, apply_vector, apply_point, inverse_apply_*}`, `Unit::from_value`, `Shear::{apply_point, inverse_apply_point}` on `Ieee φ` | error of the difference, of the dot product (the loop lemma of C106), of the multiple and of the moved component; the exact defect of doing it twice is computed in the real vector space; the length of the normalized normal from C84 |
| C108 | `Vector::{dot, l1_norm, linf_norm, metric_distance, distance, lerp, project, reflect, cross, triple}`, `Point::metric_distance` on `Ieee φ` | the loop lemma of C106 for sums of products, a loop invariant for the maximum, errors relative to the sizes of the vectors for the quotient in `project`; exact results stated with Mathlib's dot and cross products |
| C109 | `Similarity * Similarity`, `Similarity::{apply_point, inverse_apply_point, apply_vector, inverse_apply_vector, inverse}` on `Ieee φ` | one lemma for every step (scaling, turning, adding, subtracting, dividing) that multiplies the allowed error by one plus a unit; induction over the brackets and over the list; exact images stated with Mathlib's matrices and operator norm |
| C110 | `Matrix::{dot, tr_dot, tr_mul, trace, norm, l1_norm, linf_norm, metric_distance, lerp, normalize}`, `Matrix * Matrix`, `Matrix * Vector` on `Ieee φ` | two nested loops are one loop over the entries row by row, by induction on the rows, so the bounds of C84 and C108 for vectors carry over; maxima are exact; exact values stated with Mathlib's matrices |
| C111 | `Quaternion * Quaternion`, `squared`, `conjugate`, negation, `dot`, `metric_distance` on `Ieee φ`; a product with brackets is a binary tree | one product by propagating roundings through its sixteen terms; trees by induction, using that the norm of Mathlib's real quaternions is multiplicative |
| C112 | `Quaternion::{inner, outer, project, reject, lerp, conjugate}`, sums, differences and multiples on `Ieee φ` | roundings of each component propagated in the norm of Mathlib's real quaternions, on top of C111 and C108; exact cancellation because rounding is odd |
| C113 | `Quaternion::{try_inverse, div_left, div_right, conjugate}`, products and negation on `Ieee φ`; an expression is a tree | closeness relative to either of the two values is preserved by exact products and inverses, so each operation adds one factor; induction over the tree |
| C114 | `Complex::{try_inverse, powu, conjugate}`, products, quotients, their assigning forms and negation on `Ieee φ`; an expression is a tree | closeness relative to either of the two values is preserved by exact products, inverses and powers; one step uses the bounds of C98 and C100; induction over the tree |

No property on the list is inexpressible in the model. C66 and C67 use the set of real numbers that are fixed by
a rounding function as scalars (`Fl ρ`; `Rounding.nearestEven p qmin` is round-to-nearest-even with `p` bits and
smallest exponent `qmin`, `binary64` and `binary32` are instances): overflow, infinities, NaN and the sign of zero
are not part of it, and part of the bounds of C67 assume that nothing underflows. `Spec/Ieee.lean` adds infinities, NaN and
signed zeros (not the sign and payload of NaN): `C67_ieee_*` transfers the results of `Fl` to every finite result of
this arithmetic. `Spec/Libm.lean` lists what C and IEEE 754 require of the library functions at special values; C72
holds for every library that meets the list, and `Libm.correctlyRounded` shows that there is one. `Spec/Library64.lean`
adds the domains of the inverse functions for C85, met by `Library64.correctlyRounded`. C68 is the release
build of integer code, which wraps; C81 is the debug build, where an overflow panics (`Checked φ` passes an overflow on; in
the functions covered every intermediate value flows into a component of the result).

## 4. Defects (proved as refutations with a concrete witness)

When the English property is false of the code, the negation is proved with a witness (`_fails`), and the
part that does hold is proved, with the suffix `_partial` where it is a restriction of the full statement.

* `Matrix4x4::look_to_*_inv`, `look_at_*_inv`: wrong translation (C29); so have `Isometry3` and `Similarity3`
  `look_*_inv`, which undo the corresponding `look_*` exactly when the rotation negates the eye position.
* `Matrix2x2::rotation_between(_axis)`: always turns counter-clockwise (C30).
* `Perspective3::project_point` uses the wrong matrix entry for off-axis frusta (C33); `vfov()` beyond
  a quarter turn (C32).
* `Matrix::diagonal` is typed `Vector4` whatever the size of the matrix (C20).
* `Isometry3::rotation_between` is `None` for short vectors, which `rotation_between` of the other types accepts (C30).
* `is_invertible` and `try_inverse` use different thresholds (C19, C40; complex numbers and quaternions too); `Unit::try_from_value` compares the
  squared norm with the threshold (C05).
* scalar - complex keeps the sign of the imaginary part (C35).
* `Complex::powi` for negative exponents other than -2^k (C37).
* `Quaternion::ln` of negative reals loses the sign (C44); `polar_decomposition` /
  `from_polar_decomposition` do not round-trip (C46); `arg` within tolerance of the real axis (C47); the
  inverse transcendental functions `acos`, `asinh`, `atan`, `acosh`, `atanh` (C48).
* Euler angles of a rotation near, but not at, gimbal lock are found by an exact zero test (C49).
* `Rotation3::axis` is `None` for half turns (C55).
* `Shear::apply_vector` depends on the shear origin, unlike its homogeneous matrix (C59).
* `Isometry::abs_diff_all_eq` ignores the translation (C61).
* `copysign` and the sign tests of integers at zero (C62).
* `Display` of a vector, point or matrix without components panics (C65).
* `linf_norm` of vectors and matrices and `l1_norm` of matrices ignore NaN components (C69).
* `normalize` of large (small) finite vectors overflows to zero (underflows to NaN and infinity) (C69).
* `lerp` at amount one, and `p + (q - p)`, need not return the end point in binary64 (C66; inherent in the formula).
* Complex `exp`, `ln`, `sqrt` at infinities and NaN are not those of the C standard's annex G, `tanh` of large finite
  numbers is NaN, `acos`, `atanh` and `cosh` lose the sign of a zero, quotients by zero and infinity are NaN, `powi`
  returns a number with a NaN part unchanged, and `0.powf(0)` is NaN (C72).
* Products of three matrices with a dimension beyond four type-check in only one association order (C71).
* Comments of the property tests: nearer points have the smaller, not the larger, depth after `Perspective3`;
  `normalize_signed` returns half a turn for half a turn, the end the comment excludes (C78). The law of
  spec_transform.rs about composed transformations applied to vectors fails for projective matrices (C77).
* `Angle::normalize` of a tiny negative angle returns the full turn, which its documentation excludes, and is not
  idempotent there (C80).
* Roundings leave the domain of the function applied next (C85): `Matrix2x2::rotation_between((3,4),(3,4))` and
  `Matrix3x3::rotation_between((3,4,0),(3,4,2^-26))` are matrices of NaNs; `Rotation3::angle` of the half turn about
  `(1,1,0)`, and the yaw of `Euler::from(Quaternion(3,1,3,1))`, are NaN; `Quaternion::sqrt` of `(-1, 2^-30, 0, 0)` has a
  NaN scalar part and infinite vector part.
