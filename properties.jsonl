{"id": "C01", "title": "Dot product is the sum of products, symmetric and bilinear", "statement": "For vectors of any dimension, a.dot(b) is the sum over all components of a[i]*b[i]; a.dot(b) = b.dot(a); dot is linear in each argument; a.norm_squared() = a.dot(a); over an ordered field a.dot(a) >= 0 with equality only for the zero vector, and |a.dot(b)|^2 <= norm_squared(a)*norm_squared(b).", "quantifier": "every dimension N, every pair of vectors, every commutative-ring scalar type (ordered field / reals for the order facts)", "why_tests_cant": "the claim ranges over infinitely many inputs (and every dimension); a test fixes finitely many", "anchors": ["crates/cglinalg_core/src/vector.rs:dot", "crates/cglinalg_core/src/vector.rs:norm_squared", "crates/cglinalg_core/src/vector.rs:magnitude_squared"]}
{"id": "C02", "title": "Vector arithmetic is a vector space and in-place operators agree with the pure ones", "statement": "Addition, subtraction, negation and multiplication/division by a scalar on vectors act component by component, satisfy the vector-space laws, scalar*vector = vector*scalar, and each of +=, -=, *=, /=, neg_mut, component_mul_assign leaves the receiver equal to the result of the corresponding pure operation. zero() is the additive identity and is_zero() is true exactly for it.", "quantifier": "every dimension, all vectors and scalars", "why_tests_cant": "the claim ranges over infinitely many inputs (and every dimension); a test fixes finitely many", "anchors": ["crates/cglinalg_core/src/vector.rs:Add/Sub/Neg/Mul/Div impls", "crates/cglinalg_core/src/vector.rs:neg_mut", "crates/cglinalg_core/src/vector.rs:component_mul", "crates/cglinalg_core/src/vector.rs:component_mul_assign", "crates/cglinalg_core/src/vector.rs:zero", "crates/cglinalg_core/src/vector.rs:is_zero"]}
{"id": "C03", "title": "try_cast is all-or-nothing", "statement": "Casting a vector, point, matrix, complex number or quaternion to another scalar type returns Some exactly when every component is representable in the target type, and then every component of the result is the cast of the corresponding component; otherwise it returns None.", "quantifier": "every container shape, every element value, every (possibly partial) scalar conversion", "why_tests_cant": "must hold whichever component is the one that fails and for every pair of scalar types", "anchors": ["crates/cglinalg_core/src/vector.rs:try_cast", "crates/cglinalg_core/src/point.rs:try_cast", "crates/cglinalg_core/src/matrix.rs:try_cast", "crates/cglinalg_core/src/complex.rs:try_cast", "crates/cglinalg_core/src/quaternion.rs:try_cast", "crates/cglinalg_numeric/src/lib.rs:try_cast"]}
{"id": "C04", "title": "Normalisation yields the unit vector in the same direction, with exact failure condition", "statement": "normalize() of any non-zero vector has norm 1 and is a positive multiple of the input; try_normalize(t) returns None exactly when norm() <= t and otherwise returns normalize(); normalize_mut stores normalize() and returns the old norm; try_normalize_mut leaves the vector untouched when it returns None and otherwise behaves like normalize_mut; scale/unscale by k multiply/divide the norm by |k|.", "quantifier": "every dimension, every vector, every threshold (floats read as exact reals)", "why_tests_cant": "the claim ranges over infinitely many inputs (and every dimension); a test fixes finitely many", "anchors": ["crates/cglinalg_core/src/vector.rs:Normed for Vector", "crates/cglinalg_core/src/normed.rs:Normed", "crates/cglinalg_core/src/point.rs:Normed for Point", "crates/cglinalg_core/src/complex.rs:Normed for Complex", "crates/cglinalg_core/src/quaternion.rs:Normed for Quaternion", "crates/cglinalg_core/src/matrix.rs:Normed for Matrix"]}
{"id": "C05", "title": "Unit values really have unit norm", "statement": "Unit::from_value(v) for non-zero v holds a value of norm 1 pointing along v; try_from_value(v, t) is Some exactly when norm_squared(v) > t*t, in which case it holds normalize(v) and try_from_value_with_norm also returns the norm of v; negating a unit value preserves unit norm. Consequently try_from_value(v, t) and try_normalize(t) accept the same vectors for every t >= 0 (and not for negative t).", "quantifier": "every vector, every threshold, every normed type (floats read as exact reals)", "why_tests_cant": "the claim ranges over infinitely many inputs (and every dimension); a test fixes finitely many", "anchors": ["crates/cglinalg_core/src/unit.rs:Unit::from_value", "crates/cglinalg_core/src/unit.rs:Unit::try_from_value", "crates/cglinalg_core/src/unit.rs:Unit::try_from_value_with_norm", "crates/cglinalg_core/src/unit.rs:Unit::from_value_with_norm"]}
{"id": "C06", "title": "The L1, L2, Linf and Lp norms are norms and induce metrics", "statement": "l1_norm, norm/l2_norm, linf_norm and lp_norm(p) (p >= 1) are non-negative, vanish only on the zero vector, satisfy ||k v|| = |k| ||v|| and the triangle inequality; metric_distance and apply_metric_distance computed with any of them is symmetric, zero exactly for equal arguments and satisfies the triangle inequality; l2_norm = lp_norm(2), l1_norm = lp_norm(1), linf <= l2 <= l1; magnitude aliases agree.", "quantifier": "every dimension, all vectors, all p >= 1 (floats read as exact reals)", "why_tests_cant": "the claim ranges over infinitely many inputs (and every dimension); a test fixes finitely many", "anchors": ["crates/cglinalg_core/src/vector.rs:l1_norm", "crates/cglinalg_core/src/vector.rs:linf_norm", "crates/cglinalg_core/src/vector.rs:norm", "crates/cglinalg_core/src/vector.rs:lp_norm", "crates/cglinalg_core/src/vector.rs:apply_norm", "crates/cglinalg_core/src/vector.rs:apply_metric_distance", "crates/cglinalg_core/src/vector.rs:metric_distance"]}
{"id": "C07", "title": "The cross product is the oriented normal", "statement": "In three dimensions a.cross(b) is bilinear, anti-symmetric, orthogonal to both arguments, satisfies ||a x b||^2 = ||a||^2 ||b||^2 - (a.b)^2 and the Jacobi identity; a.triple(b, c) is the determinant of the matrix with rows a, b, c; cross_matrix(a) * b = a.cross(b); unit_x x unit_y = unit_z.", "quantifier": "all 3-vectors over every commutative ring", "why_tests_cant": "the claim ranges over infinitely many inputs (and every dimension); a test fixes finitely many", "anchors": ["crates/cglinalg_core/src/vector.rs:cross", "crates/cglinalg_core/src/vector.rs:triple", "crates/cglinalg_core/src/matrix.rs:Matrix3x3::cross_matrix"]}
{"id": "C08", "title": "Orthogonal projection and mirror reflection of vectors", "statement": "v.project(w) (w non-zero) is a multiple of w and v - v.project(w) is orthogonal to w; v.reflect(n) (n non-zero) preserves norms and dot products, is an involution, fixes every vector orthogonal to n and negates n; it depends only on the direction of n.", "quantifier": "every dimension, all v, all non-zero w, n", "why_tests_cant": "the claim ranges over infinitely many inputs (and every dimension); a test fixes finitely many", "anchors": ["crates/cglinalg_core/src/vector.rs:project", "crates/cglinalg_core/src/vector.rs:reflect"]}
{"id": "C09", "title": "Linear interpolation", "statement": "lerp(a, b, 0) = a, lerp(a, b, 1) = b, lerp(a,b,t) = (1-t) a + t b, and swapping end points is the same as replacing t by 1-t; for t in [0,1] every component of the result lies between the corresponding components of a and b. Holds for vectors, matrices and quaternions.", "quantifier": "every dimension, all end points, all parameters", "why_tests_cant": "the claim ranges over infinitely many inputs (and every dimension); a test fixes finitely many", "anchors": ["crates/cglinalg_core/src/vector.rs:lerp", "crates/cglinalg_core/src/matrix.rs:lerp", "crates/cglinalg_core/src/quaternion.rs:lerp"]}
{"id": "C10", "title": "Componentwise min/max are the lattice operations", "statement": "component_min/component_max of two vectors is, in each component, the smaller/larger of the two; they are commutative, associative, idempotent, and component_min(a,b) + component_max(a,b) = a + b.", "quantifier": "every dimension, all vectors over a linear order", "why_tests_cant": "the claim ranges over infinitely many inputs (and every dimension); a test fixes finitely many", "anchors": ["crates/cglinalg_core/src/vector.rs:component_min", "crates/cglinalg_core/src/vector.rs:component_max"]}
{"id": "C11", "title": "Homogeneous coordinates round-trip", "statement": "Vector::from_homogeneous(v.to_homogeneous()) = Some(v) and Vector::from_homogeneous(w) is None exactly when the last component is non-zero; Point::from_homogeneous(p.to_homogeneous()) = Some(p), Point::from_homogeneous(w) is None exactly when the last component is zero, and it is invariant under multiplying w by any non-zero scalar. extend then contract is the identity; contract drops exactly the last component.", "quantifier": "every dimension, all vectors and points", "why_tests_cant": "the claim ranges over infinitely many inputs (and every dimension); a test fixes finitely many", "anchors": ["crates/cglinalg_core/src/vector.rs:extend", "crates/cglinalg_core/src/vector.rs:contract", "crates/cglinalg_core/src/vector.rs:to_homogeneous", "crates/cglinalg_core/src/vector.rs:from_homogeneous", "crates/cglinalg_core/src/point.rs:to_homogeneous", "crates/cglinalg_core/src/point.rs:from_homogeneous"]}
{"id": "C12", "title": "Points form an affine space over vectors", "statement": "(p + v) - p = v, p + (q - p) = q, (p + v) + w = p + (v + w), (p - v) + v = p, and p - q = -(q - p); converting a point to a vector and back is the identity; the distance between two points is the norm of their difference.", "quantifier": "every dimension, all points and vectors", "why_tests_cant": "the claim ranges over infinitely many inputs (and every dimension); a test fixes finitely many", "anchors": ["crates/cglinalg_core/src/point.rs:ops", "crates/cglinalg_core/src/point.rs:from_vector", "crates/cglinalg_core/src/point.rs:to_vector"]}
{"id": "C13", "title": "Matrix multiplication is the linear-algebra product", "statement": "For all shapes for which it is defined, entry (row r, column c) of A*B is the sum over k of A(r,k)*B(k,c); A*v likewise; multiplication is associative, distributes over addition, has identity() as unit on both sides, commutes with scalars, and (A*B)*v = A*(B*v). Multiplication of matrices with *= scalar agrees with the pure operation.", "quantifier": "all shapes R x N x C, all entries, every commutative ring", "why_tests_cant": "the claim ranges over infinitely many inputs (and every dimension); a test fixes finitely many", "anchors": ["crates/cglinalg_core/src/matrix.rs:Mul impls", "crates/cglinalg_core/src/matrix.rs:dot_array_col", "crates/cglinalg_core/src/matrix.rs:identity"]}
{"id": "C14", "title": "Transposition", "statement": "transpose exchanges rows and columns, is an involution, reverses products, is linear and fixes the identity; transpose_mut leaves a square matrix equal to its transpose; A.tr_mul(B) = A.transpose()*B; A.tr_dot(B) equals A.transpose().dot(B), the sum of the products of corresponding entries of A.transpose() and B.", "quantifier": "all shapes, all entries", "why_tests_cant": "transpose_mut is an in-place double loop whose correctness must hold for every size", "anchors": ["crates/cglinalg_core/src/matrix.rs:transpose", "crates/cglinalg_core/src/matrix.rs:transpose_mut", "crates/cglinalg_core/src/matrix.rs:tr_mul", "crates/cglinalg_core/src/matrix.rs:tr_dot"]}
{"id": "C15", "title": "Row, column and element swaps", "statement": "swap_rows(i, j) exchanges exactly rows i and j, swap_columns(i, j) exactly columns i and j, swap((c,r),(c',r')) exactly those two elements; everything else is unchanged; doing the same swap twice restores the matrix; an index out of range panics instead.", "quantifier": "all shapes, all index pairs (including equal ones), all entries", "why_tests_cant": "the claim ranges over infinitely many inputs (and every dimension); a test fixes finitely many", "anchors": ["crates/cglinalg_core/src/matrix.rs:swap_rows", "crates/cglinalg_core/src/matrix.rs:swap_columns", "crates/cglinalg_core/src/matrix.rs:swap"]}
{"id": "C16", "title": "Column-major layout is consistent across constructors, accessors and conversions", "statement": "For every shape, m[c][r] is the entry in row r of column c; from_columns, from_rows, row, column, new(c0r0, c0r1, ...), the flat-array conversion and as_ref to nested/flat arrays all agree with it and round-trip; map applies the function to every entry and keeps the shape.", "quantifier": "all shapes, all entries, all indices", "why_tests_cant": "the claim ranges over infinitely many inputs (and every dimension); a test fixes finitely many", "anchors": ["crates/cglinalg_core/src/matrix.rs:from_columns", "crates/cglinalg_core/src/matrix.rs:from_rows", "crates/cglinalg_core/src/matrix.rs:row", "crates/cglinalg_core/src/matrix.rs:column", "crates/cglinalg_core/src/matrix.rs:From<[S; RC]>", "crates/cglinalg_core/src/matrix.rs:map", "crates/cglinalg_core/src/vector.rs:map", "crates/cglinalg_core/src/vector.rs:swizzles"]}
{"id": "C17", "title": "determinant() is the determinant", "statement": "For 1x1, 2x2, 3x3 and 4x4 matrices determinant() equals the Leibniz signed-permutation sum; it is multiplicative, invariant under transpose, changes sign when two columns or two rows are swapped, and equals 1 on the identity.", "quantifier": "all matrices of sizes 1-4 over every commutative ring", "why_tests_cant": "24-term hand-expanded polynomial; agreement at sample points does not establish the identity", "anchors": ["crates/cglinalg_core/src/matrix.rs:Matrix1x1::determinant", "crates/cglinalg_core/src/matrix.rs:Matrix2x2::determinant", "crates/cglinalg_core/src/matrix.rs:Matrix3x3::determinant", "crates/cglinalg_core/src/matrix.rs:Matrix4x4::determinant"]}
{"id": "C18", "title": "try_inverse returns the two-sided inverse exactly when it exists", "statement": "For sizes 1-4, try_inverse() is None exactly when the determinant is zero; when it is Some(B), A*B = B*A = identity, and B is the only such matrix; inverse() returns that matrix or panics exactly when try_inverse() is None; inverse of inverse is the original and (A*B)^-1 = B^-1 A^-1.", "quantifier": "all square matrices of sizes 1-4 over every field", "why_tests_cant": "16 hand-expanded cofactors; only a proof covers all matrices", "anchors": ["crates/cglinalg_core/src/matrix.rs:try_inverse", "crates/cglinalg_core/src/matrix.rs:inverse"]}
{"id": "C19", "title": "is_invertible is consistent with try_inverse", "statement": "If is_invertible() holds then try_inverse() is Some. (The converse fails: is_invertible applies a tolerance to the determinant while try_inverse tests for exact zero.) For complex numbers and quaternions is_invertible() should hold exactly when try_inverse() is Some.", "quantifier": "all matrices of sizes 1-4, complex numbers and quaternions", "why_tests_cant": "the disagreement region is a thin band around determinant zero that sampling misses", "anchors": ["crates/cglinalg_core/src/matrix.rs:is_invertible", "crates/cglinalg_core/src/complex.rs:is_invertible", "crates/cglinalg_core/src/quaternion.rs:is_invertible", "crates/cglinalg_core/src/quaternion.rs:try_inverse_eps"]}
{"id": "C20", "title": "Trace and diagonal", "statement": "trace() is the sum of the diagonal entries, is linear, invariant under transposition and cyclic: trace(A*B) = trace(B*A); from_diagonal(v) has v on the diagonal and zero elsewhere, from_diagonal_value(k) = k*identity, and diagonal() of from_diagonal(v) returns v.", "quantifier": "all square sizes and entries", "why_tests_cant": "the claim ranges over infinitely many inputs (and every dimension); a test fixes finitely many", "anchors": ["crates/cglinalg_core/src/matrix.rs:trace", "crates/cglinalg_core/src/matrix.rs:from_diagonal", "crates/cglinalg_core/src/matrix.rs:from_diagonal_value", "crates/cglinalg_core/src/matrix.rs:diagonal"]}
{"id": "C21", "title": "Matrix norms", "statement": "norm (Frobenius), l1_norm (largest absolute column sum) and linf_norm (largest absolute row sum) are norms; ||A v||_2 <= ||A||_F ||v||_2, ||A v||_1 <= ||A||_1 ||v||_1, ||A v||_inf <= ||A||_inf ||v||_inf; they are submultiplicative; A.norm_squared() = A.dot(A); transposing exchanges the L1 and Linf norms.", "quantifier": "all shapes, all real entries", "why_tests_cant": "the claim ranges over infinitely many inputs (and every dimension); a test fixes finitely many", "anchors": ["crates/cglinalg_core/src/matrix.rs:norm", "crates/cglinalg_core/src/matrix.rs:l1_norm", "crates/cglinalg_core/src/matrix.rs:linf_norm", "crates/cglinalg_core/src/matrix.rs:norm_squared", "crates/cglinalg_core/src/matrix.rs:dot"]}
{"id": "C22", "title": "Entrywise matrix arithmetic", "statement": "Matrix +, -, unary -, scalar *, /, component_mul, zero, and the assign/mut variants act entry by entry, obey the module laws, and in-place variants equal the pure ones; is_zero/is_identity are true exactly for the zero/identity matrices.", "quantifier": "all shapes, all entries", "why_tests_cant": "the claim ranges over infinitely many inputs (and every dimension); a test fixes finitely many", "anchors": ["crates/cglinalg_core/src/matrix.rs:ops", "crates/cglinalg_core/src/matrix.rs:neg_mut", "crates/cglinalg_core/src/matrix.rs:component_mul", "crates/cglinalg_core/src/matrix.rs:zero", "crates/cglinalg_core/src/matrix.rs:is_zero", "crates/cglinalg_core/src/matrix.rs:is_identity"]}
{"id": "C23", "title": "Affine matrix constructors act on points and vectors as specified", "statement": "from_affine_translation(d) sends the homogeneous point p to p + d and fixes homogeneous vectors; from_affine_(nonuniform_)scale multiplies each coordinate by its factor; from_affine_shear/reflection/rotation act as the linear part on vectors, and on points as that linear map about the given origin. Composition of translations adds, of scales multiplies.", "quantifier": "every dimension, all points, vectors and parameters", "why_tests_cant": "the claim ranges over infinitely many inputs (and every dimension); a test fixes finitely many", "anchors": ["crates/cglinalg_core/src/matrix.rs:from_affine_translation", "crates/cglinalg_core/src/matrix.rs:from_affine_scale", "crates/cglinalg_core/src/matrix.rs:from_affine_nonuniform_scale", "crates/cglinalg_core/src/matrix.rs:from_scale", "crates/cglinalg_core/src/matrix.rs:from_nonuniform_scale"]}
{"id": "C24", "title": "Shear matrices", "statement": "from_shear(k, d, n) maps v to v + k (n.v) d; when d and n are orthogonal it has determinant 1, from_shear(-k, d, n) is its inverse, shears with the same d, n compose by adding k, and vectors orthogonal to n are fixed. The axis-specific constructors from_shear_xy, _xz, ... equal the general one with the corresponding unit axes, and the affine versions fix the hyperplane through the given origin.", "quantifier": "all factors, all orthogonal unit pairs, all origins", "why_tests_cant": "the claim ranges over infinitely many inputs (and every dimension); a test fixes finitely many", "anchors": ["crates/cglinalg_core/src/matrix.rs:Matrix2x2::from_shear", "crates/cglinalg_core/src/matrix.rs:Matrix3x3::from_shear", "crates/cglinalg_core/src/matrix.rs:from_shear_xy", "crates/cglinalg_core/src/matrix.rs:from_affine_shear"]}
{"id": "C25", "title": "Reflection matrices", "statement": "from_reflection(n) (n unit) maps v to v - 2 (n.v) n; it is symmetric, orthogonal, an involution, has determinant -1, negates n and fixes vectors orthogonal to n; from_affine_reflection(n, b) fixes every point of the plane through b with normal n and maps b + v to b + reflected v.", "quantifier": "all unit normals, all biases", "why_tests_cant": "the claim ranges over infinitely many inputs (and every dimension); a test fixes finitely many", "anchors": ["crates/cglinalg_core/src/matrix.rs:Matrix2x2::from_reflection", "crates/cglinalg_core/src/matrix.rs:Matrix3x3::from_reflection", "crates/cglinalg_core/src/matrix.rs:Matrix3x3::from_affine_reflection", "crates/cglinalg_core/src/matrix.rs:Matrix4x4::from_affine_reflection"]}
{"id": "C26", "title": "Rotation matrices are proper rotations", "statement": "Matrix2x2::from_angle, Matrix3x3::from_angle_x/_y/_z and from_axis_angle (unit axis) and their affine versions are orthogonal with determinant 1, turn angle 0 into the identity, add angles under composition (same axis), have the rotation by -angle as inverse = transpose; from_axis_angle fixes its axis, has trace 1 + 2 cos(angle), and acts by Rodrigues' formula; from_angle_x/y/z equal from_axis_angle about the unit axes; for the plane, from_angle(t) sends (cos s, sin s) to (cos(s+t), sin(s+t)).", "quantifier": "all angles, all unit axes (floats read as exact reals)", "why_tests_cant": "the claim ranges over infinitely many inputs (and every dimension); a test fixes finitely many", "anchors": ["crates/cglinalg_core/src/matrix.rs:Matrix2x2::from_angle", "crates/cglinalg_core/src/matrix.rs:Matrix3x3::from_angle_x", "crates/cglinalg_core/src/matrix.rs:Matrix3x3::from_axis_angle", "crates/cglinalg_core/src/matrix.rs:Matrix3x3::from_affine_angle", "crates/cglinalg_core/src/matrix.rs:Matrix4x4::from_affine_angle_x", "crates/cglinalg_core/src/matrix.rs:Matrix4x4::from_affine_axis_angle"]}
{"id": "C27", "title": "Embedding smaller matrices into larger ones", "statement": "Converting an M x M matrix into an N x N one (M < N) places it in the upper-left block of an identity; the conversion is multiplicative, preserves identity and transpose and determinant.", "quantifier": "all pairs of sizes M < N for which the conversion exists, all entries", "why_tests_cant": "the claim ranges over infinitely many inputs (and every dimension); a test fixes finitely many", "anchors": ["crates/cglinalg_core/src/matrix.rs:From<Matrix2x2> for Matrix3x3", "crates/cglinalg_core/src/matrix.rs:From<Matrix3x3> for Matrix4x4"]}
{"id": "C28", "title": "Look-at / look-to view rotations", "statement": "For a direction not parallel to up (both non-zero), look_to_lh/look_to_rh return a rotation that maps the normalised direction to +z / -z, maps up into the half plane x = 0, y > 0; the 4x4 versions additionally send eye to the origin; look_at(eye, target, up) = look_to(eye, target - eye, up), so the target is mapped onto the +z / -z axis at its distance from eye. The quaternion, Rotation3, Isometry3 and Similarity3 versions perform the same motion.", "quantifier": "all eyes, targets, directions and up vectors in general position (floats read as exact reals)", "why_tests_cant": "the claim ranges over infinitely many inputs (and every dimension); a test fixes finitely many", "anchors": ["crates/cglinalg_core/src/matrix.rs:Matrix3x3::look_to_lh", "crates/cglinalg_core/src/matrix.rs:Matrix3x3::look_to_rh", "crates/cglinalg_core/src/matrix.rs:Matrix4x4::look_to_lh", "crates/cglinalg_core/src/matrix.rs:Matrix4x4::look_at_lh", "crates/cglinalg_core/src/quaternion.rs:look_to_lh", "crates/cglinalg_transform/src/rotation.rs:look_to_lh", "crates/cglinalg_transform/src/isometry.rs:look_to_lh"]}
{"id": "C29", "title": "Inverse view transforms invert the view transforms", "statement": "look_to_lh_inv, look_to_rh_inv, look_at_lh_inv, look_at_rh_inv applied with the same arguments return the inverse of the corresponding look_* transform, for Matrix3x3, Matrix4x4, Quaternion, Rotation3, Isometry3 and Similarity3.", "quantifier": "all eyes, targets, directions and up vectors in general position (floats read as exact reals)", "why_tests_cant": "existing tests use eyes/axes for which the wrong translation happens to coincide", "anchors": ["crates/cglinalg_core/src/matrix.rs:Matrix4x4::look_to_lh_inv", "crates/cglinalg_core/src/matrix.rs:Matrix3x3::look_to_lh_inv", "crates/cglinalg_transform/src/isometry.rs:look_to_lh_inv", "crates/cglinalg_transform/src/similarity.rs:look_to_lh_inv", "crates/cglinalg_core/src/quaternion.rs:look_to_lh_inv"]}
{"id": "C30", "title": "rotation_between maps the first direction onto the second", "statement": "For non-zero u, v: rotation_between(u, v), when it returns a rotation R, satisfies R * normalize(u) = normalize(v), R is a proper rotation through the angle between u and v; it is the identity when u and v are parallel (up to the tolerance of the parallelism test, which is stated in the theorem); in 3D it returns None exactly for inputs antiparallel up to that tolerance. For Matrix2x2, Matrix3x3, Quaternion, Rotation2, Rotation3, Isometry2, Isometry3.", "quantifier": "all pairs of non-zero vectors (floats read as exact reals)", "why_tests_cant": "orientation-dependent errors only show for one half of the inputs", "anchors": ["crates/cglinalg_core/src/matrix.rs:Matrix2x2::rotation_between", "crates/cglinalg_core/src/matrix.rs:Matrix3x3::rotation_between", "crates/cglinalg_core/src/quaternion.rs:rotation_between", "crates/cglinalg_transform/src/rotation.rs:rotation_between", "crates/cglinalg_transform/src/isometry.rs:rotation_between"]}
{"id": "C31", "title": "Orthographic projection maps the view box onto the canonical cube", "statement": "With left+right, bottom+top, far-near non-zero, the orthographic projection maps x in [-left, right], y in [-bottom, top], z in [-far, -near] affinely and exactly onto [-1,1]^3 (near plane to -1, far plane to +1), unproject_point inverts project_point, and left(), right(), bottom(), top(), near(), far() return the construction parameters where they are defined (they divide by a parameter combination that must be non-zero).", "quantifier": "all valid parameter sets, all points (floats read as exact reals)", "why_tests_cant": "the claim ranges over infinitely many inputs (and every dimension); a test fixes finitely many", "anchors": ["crates/cglinalg_core/src/matrix.rs:from_orthographic", "crates/cglinalg_transform/src/projection.rs:Orthographic3"]}
{"id": "C32", "title": "Perspective projection maps the frustum onto the canonical cube", "statement": "For positive frustum parameters with near < far, the perspective matrix followed by division by w maps the eight frustum corners to the corners of [-1,1]^3 and a point with z in [-far,-near] lies in the frustum exactly when its image lies in the cube; depth is strictly monotone; the getters left(), ..., far() return the construction parameters; from_perspective_vfov equals from_perspective with the symmetric frustum of that field of view; vfov()/aspect_ratio() recover the parameters.", "quantifier": "all valid parameter sets, all points in front of the viewer (floats read as exact reals)", "why_tests_cant": "the claim ranges over infinitely many inputs (and every dimension); a test fixes finitely many", "anchors": ["crates/cglinalg_core/src/matrix.rs:from_perspective", "crates/cglinalg_core/src/matrix.rs:from_perspective_vfov", "crates/cglinalg_transform/src/projection.rs:Perspective3"]}
{"id": "C33", "title": "Perspective project_point agrees with the projection matrix and is inverted by unproject_point", "statement": "project_point(p) equals homogeneous multiplication by the perspective matrix followed by division by w, for every frustum (also off-axis ones) and every point with z != 0; unproject_point(project_point(p)) = p.", "quantifier": "all frusta, all points with z != 0 (floats read as exact reals)", "why_tests_cant": "only off-axis (top != bottom) frusta reveal a wrong entry", "anchors": ["crates/cglinalg_transform/src/projection.rs:Perspective3::project_point", "crates/cglinalg_transform/src/projection.rs:Perspective3::unproject_point"]}
{"id": "C34", "title": "Complex arithmetic is the field of complex numbers", "statement": "+, -, unary -, *, / (divisor non-zero), conjugate, modulus and the assign variants agree with the complex numbers; in particular multiplication is commutative, associative and distributive, |z w| = |z||w|, z * conj(z) = |z|^2; try_inverse is None exactly for zero and otherwise returns the multiplicative inverse; inverse panics exactly for zero.", "quantifier": "all complex numbers (commutative-ring components for the ring part)", "why_tests_cant": "the claim ranges over infinitely many inputs (and every dimension); a test fixes finitely many", "anchors": ["crates/cglinalg_core/src/complex.rs:ops", "crates/cglinalg_core/src/complex.rs:conjugate", "crates/cglinalg_core/src/complex.rs:try_inverse", "crates/cglinalg_core/src/complex.rs:modulus"]}
{"id": "C35", "title": "Mixed real/complex operators agree with embedding the real number", "statement": "For a real s and complex z: s + z, z + s, s - z, z - s, s * z, z * s, s / z, z / s equal the complex operation with s embedded as s + 0i.", "quantifier": "all reals and complex numbers, every operator", "why_tests_cant": "one operator out of eight may be wrong only in its imaginary part", "anchors": ["crates/cglinalg_core/src/complex.rs:impl_scalar_complex_add_ops", "crates/cglinalg_core/src/complex.rs:impl_scalar_complex_sub_ops", "crates/cglinalg_core/src/complex.rs:impl_scalar_complex_mul_ops", "crates/cglinalg_core/src/complex.rs:impl_scalar_complex_div_ops"]}
{"id": "C36", "title": "Complex polar form, exp, ln and roots", "statement": "from_polar_decomposition(polar_decomposition(z)) = z with angle in (-pi, pi] and scale |z|; exp is the complex exponential (exp(z+w) = exp z exp w, exp never 0); ln is the principal logarithm and exp(ln z) = z for z != 0; sqrt(z)^2 = z with non-negative real part; cbrt(z)^3 = z; log(b), log2, log10, exp2, powf, powc agree with exp/ln.", "quantifier": "all complex numbers (non-zero where a logarithm is involved) (floats read as exact reals)", "why_tests_cant": "the claim ranges over infinitely many inputs (and every dimension); a test fixes finitely many", "anchors": ["crates/cglinalg_core/src/complex.rs:polar_decomposition", "crates/cglinalg_core/src/complex.rs:exp", "crates/cglinalg_core/src/complex.rs:ln", "crates/cglinalg_core/src/complex.rs:sqrt", "crates/cglinalg_core/src/complex.rs:cbrt", "crates/cglinalg_core/src/complex.rs:log", "crates/cglinalg_core/src/complex.rs:powf", "crates/cglinalg_core/src/complex.rs:powc"]}
{"id": "C37", "title": "Integer powers of complex numbers", "statement": "powu(n) equals z multiplied by itself n times (1 for n = 0) for every u32 n; powi(n) equals that for n >= 0 and its multiplicative inverse for n < 0 (z != 0).", "quantifier": "all complex numbers, all 2^32 exponents", "why_tests_cant": "binary exponentiation loop: needs induction over the exponent; only some negative exponents go wrong", "anchors": ["crates/cglinalg_core/src/complex.rs:powu", "crates/cglinalg_core/src/complex.rs:powi"]}
{"id": "C38", "title": "Complex circular and hyperbolic functions", "statement": "cos, sin, tan, cosh, sinh, tanh agree with the complex functions defined by exp (sin^2+cos^2 = 1, cosh^2-sinh^2 = 1, tan = sin/cos where cos != 0); acos, asin, atan, acosh, asinh, atanh are right inverses of them wherever defined.", "quantifier": "all finite complex numbers in the domain (floats read as exact reals)", "why_tests_cant": "the claim ranges over infinitely many inputs (and every dimension); a test fixes finitely many", "anchors": ["crates/cglinalg_core/src/complex.rs:cos", "crates/cglinalg_core/src/complex.rs:sin", "crates/cglinalg_core/src/complex.rs:tan", "crates/cglinalg_core/src/complex.rs:cosh", "crates/cglinalg_core/src/complex.rs:sinh", "crates/cglinalg_core/src/complex.rs:tanh", "crates/cglinalg_core/src/complex.rs:acos", "crates/cglinalg_core/src/complex.rs:asin", "crates/cglinalg_core/src/complex.rs:atan", "crates/cglinalg_core/src/complex.rs:acosh", "crates/cglinalg_core/src/complex.rs:asinh", "crates/cglinalg_core/src/complex.rs:atanh"]}
{"id": "C39", "title": "Quaternion arithmetic is the quaternion algebra", "statement": "Quaternion +, -, *, conjugate, scalar operations agree with the Hamilton quaternions: multiplication is associative, distributive, has identity(), i^2=j^2=k^2=ijk=-1, conj(p q) = conj(q) conj(p), |p q| = |p||q|, q conj(q) = |q|^2; conjugate_mut agrees with conjugate; is_pure/is_real classify correctly; squared, half, inner and outer products are as named.", "quantifier": "all quaternions over every commutative ring (field for halves)", "why_tests_cant": "the claim ranges over infinitely many inputs (and every dimension); a test fixes finitely many", "anchors": ["crates/cglinalg_core/src/quaternion.rs:Mul", "crates/cglinalg_core/src/quaternion.rs:conjugate", "crates/cglinalg_core/src/quaternion.rs:conjugate_mut", "crates/cglinalg_core/src/quaternion.rs:inner", "crates/cglinalg_core/src/quaternion.rs:outer"]}
{"id": "C40", "title": "Quaternion inverse and one-sided division", "statement": "try_inverse() returns, whenever it is Some, the two-sided multiplicative inverse; it is None exactly when the norm is at most the machine epsilon; inverse() panics exactly then; p.div_left(q) = q^-1 p and p.div_right(q) = p q^-1 with the same failure condition.", "quantifier": "all quaternions, every epsilon", "why_tests_cant": "the claim ranges over infinitely many inputs (and every dimension); a test fixes finitely many", "anchors": ["crates/cglinalg_core/src/quaternion.rs:try_inverse", "crates/cglinalg_core/src/quaternion.rs:inverse", "crates/cglinalg_core/src/quaternion.rs:div_left", "crates/cglinalg_core/src/quaternion.rs:div_right"]}
{"id": "C41", "title": "Quaternion to rotation matrix", "statement": "For every non-zero q, to_matrix(q) is orthogonal with determinant 1, to_matrix(q) v is the vector part of q v q^-1, to_matrix(p q) = to_matrix(p) to_matrix(q), to_matrix(k q) = to_matrix(q) for k != 0, to_matrix(conj q) is the transpose; to_affine_matrix is its embedding; the _mut versions write the same values.", "quantifier": "all non-zero quaternions (floats read as exact reals)", "why_tests_cant": "the claim ranges over infinitely many inputs (and every dimension); a test fixes finitely many", "anchors": ["crates/cglinalg_core/src/quaternion.rs:to_matrix", "crates/cglinalg_core/src/quaternion.rs:to_matrix_mut", "crates/cglinalg_core/src/quaternion.rs:to_affine_matrix", "crates/cglinalg_core/src/quaternion.rs:to_affine_matrix_mut"]}
{"id": "C42", "title": "Rotation matrix to quaternion", "statement": "For every rotation matrix R, from_matrix(R) is a unit quaternion with to_matrix(from_matrix(R)) = R, whichever of the four numerical branches is taken; for a unit quaternion q, from_matrix(to_matrix(q)) is q or -q.", "quantifier": "all rotation matrices / unit quaternions, all four branches (floats read as exact reals)", "why_tests_cant": "each branch covers a different region of SO(3); boundary matrices decide which one runs", "anchors": ["crates/cglinalg_core/src/quaternion.rs:from_matrix"]}
{"id": "C43", "title": "Axis-angle quaternions", "statement": "from_axis_angle(u, t) with u unit is a unit quaternion, fixes u under conjugation, composes by adding angles, and to_matrix of it equals Matrix3x3::from_axis_angle(u, t).", "quantifier": "all unit axes and angles (floats read as exact reals)", "why_tests_cant": "the claim ranges over infinitely many inputs (and every dimension); a test fixes finitely many", "anchors": ["crates/cglinalg_core/src/quaternion.rs:from_axis_angle", "crates/cglinalg_core/src/matrix.rs:Matrix3x3::from_axis_angle"]}
{"id": "C44", "title": "Quaternion exponential, logarithm, powers and square root", "statement": "exp agrees with the quaternion exponential series; exp(ln q) = q for every non-zero q; powf(1) is the identity operation and |powf(q, t)| = |q|^t; sqrt(q)*sqrt(q) = q.", "quantifier": "all (non-zero) quaternions, all exponents, every value of the machine epsilon used by the small-norm tests (floats read as exact reals)", "why_tests_cant": "the claim ranges over infinitely many inputs (and every dimension); a test fixes finitely many", "anchors": ["crates/cglinalg_core/src/quaternion.rs:exp", "crates/cglinalg_core/src/quaternion.rs:ln", "crates/cglinalg_core/src/quaternion.rs:powf", "crates/cglinalg_core/src/quaternion.rs:sqrt"]}
{"id": "C45", "title": "Quaternion interpolation", "statement": "For unit quaternions slerp and nlerp return unit quaternions; slerp(a,b,0) and slerp(a,b,1) represent the same rotations as a and b; slerp takes the shorter arc and moves at constant angular speed: the angle between a (up to sign) and slerp(a,b,t) is t times the angle between a and b; nlerp/lerp end points are exact.", "quantifier": "all unit quaternion pairs, all t in [0,1] (floats read as exact reals)", "why_tests_cant": "the claim ranges over infinitely many inputs (and every dimension); a test fixes finitely many", "anchors": ["crates/cglinalg_core/src/quaternion.rs:slerp", "crates/cglinalg_core/src/quaternion.rs:nlerp", "crates/cglinalg_core/src/quaternion.rs:lerp"]}
{"id": "C46", "title": "Quaternion polar decomposition round-trips", "statement": "from_polar_decomposition applied to the result of polar_decomposition(q) gives back q, for every q with non-zero vector part; the scale is |q|.", "quantifier": "all quaternions (floats read as exact reals)", "why_tests_cant": "the claim ranges over infinitely many inputs (and every dimension); a test fixes finitely many", "anchors": ["crates/cglinalg_core/src/quaternion.rs:polar_decomposition", "crates/cglinalg_core/src/quaternion.rs:from_polar_decomposition"]}
{"id": "C47", "title": "Quaternion projection, rejection and argument", "statement": "project(q, r) is a real multiple of r, q = project + reject with reject orthogonal to r; arg(q) is the angle between q and the real axis.", "quantifier": "all quaternions q and non-zero r (floats read as exact reals)", "why_tests_cant": "the claim ranges over infinitely many inputs (and every dimension); a test fixes finitely many", "anchors": ["crates/cglinalg_core/src/quaternion.rs:project", "crates/cglinalg_core/src/quaternion.rs:reject", "crates/cglinalg_core/src/quaternion.rs:arg"]}
{"id": "C48", "title": "Quaternion transcendental functions", "statement": "cos, sin, cosh, sinh, tan, tanh agree with the complex functions on the plane spanned by 1 and the vector part (so sin^2+cos^2 = 1, cosh^2 - sinh^2 = 1), reduce to the real functions on real quaternions, and the inverse functions are right inverses.", "quantifier": "all quaternions in the domain, every value of the machine epsilon used by the small-norm tests (floats read as exact reals)", "why_tests_cant": "the claim ranges over infinitely many inputs (and every dimension); a test fixes finitely many", "anchors": ["crates/cglinalg_core/src/quaternion.rs:cos", "crates/cglinalg_core/src/quaternion.rs:sin", "crates/cglinalg_core/src/quaternion.rs:tan", "crates/cglinalg_core/src/quaternion.rs:cosh", "crates/cglinalg_core/src/quaternion.rs:sinh", "crates/cglinalg_core/src/quaternion.rs:tanh", "crates/cglinalg_core/src/quaternion.rs:acos", "crates/cglinalg_core/src/quaternion.rs:asin", "crates/cglinalg_core/src/quaternion.rs:atan", "crates/cglinalg_core/src/quaternion.rs:asinh", "crates/cglinalg_core/src/quaternion.rs:acosh", "crates/cglinalg_core/src/quaternion.rs:atanh"]}
{"id": "C49", "title": "Euler angles", "statement": "Euler::to_matrix(x, y, z) = from_angle_x(x) * from_angle_y(y) * from_angle_z(z) and hence is a rotation; to_affine_matrix is its embedding; extracting Euler angles from a rotation (from a quaternion or Rotation3::euler_angles) and rebuilding the rotation gives the same rotation, including in gimbal lock.", "quantifier": "all angle triples, all rotations (floats read as exact reals)", "why_tests_cant": "gimbal lock is a measure-zero set that random tests miss", "anchors": ["crates/cglinalg_core/src/euler.rs:to_matrix", "crates/cglinalg_core/src/euler.rs:from_matrix", "crates/cglinalg_core/src/matrix_euler.rs:from_euler_angles", "crates/cglinalg_transform/src/rotation.rs:euler_angles"]}
{"id": "C50", "title": "normalize maps an angle to its unique representative in [0, full turn)", "statement": "For radians and degrees, a.normalize() is in [0, full_turn), differs from a by an integer number of full turns, is idempotent, equal for angles that differ by full turns, and has the same sine and cosine.", "quantifier": "all angles, both units (floats read as exact reals)", "why_tests_cant": "the claim ranges over infinitely many inputs (and every dimension); a test fixes finitely many", "anchors": ["crates/cglinalg_trigonometry/src/lib.rs:Angle::normalize"]}
{"id": "C51", "title": "normalize_signed, opposite and bisect", "statement": "normalize_signed gives the unique representative in (-half_turn, half_turn]; opposite(a) is half a turn away (mod full turns), opposite of opposite is normalize; bisect(a, b) is a normalised angle equidistant from a and b: twice it is a + b modulo full turns.", "quantifier": "all angles, both units (floats read as exact reals)", "why_tests_cant": "the claim ranges over infinitely many inputs (and every dimension); a test fixes finitely many", "anchors": ["crates/cglinalg_trigonometry/src/lib.rs:Angle::normalize_signed", "crates/cglinalg_trigonometry/src/lib.rs:Angle::opposite", "crates/cglinalg_trigonometry/src/lib.rs:Angle::bisect"]}
{"id": "C52", "title": "Degrees and radians are consistent", "statement": "Converting degrees to radians and back is the identity, the conversion is linear and order preserving and maps full_turn to full_turn, and all trigonometric functions, their reciprocals and inverses give the same results in either unit; sin_cos returns (sin, cos); the full_turn_div_k constants are full_turn / k.", "quantifier": "all angles (floats read as exact reals)", "why_tests_cant": "the claim ranges over infinitely many inputs (and every dimension); a test fixes finitely many", "anchors": ["crates/cglinalg_trigonometry/src/lib.rs:From<Degrees> for Radians", "crates/cglinalg_trigonometry/src/lib.rs:From<Radians> for Degrees", "crates/cglinalg_trigonometry/src/lib.rs:Angle for Degrees", "crates/cglinalg_trigonometry/src/lib.rs:Angle for Radians"]}
{"id": "C53", "title": "Translations form a commutative group acting on points", "statement": "Translation composition adds displacement vectors, inverse undoes apply_point, identity does nothing, vectors are unaffected, between_points(p,q) maps p to q, and to_affine_matrix / to_transform acts identically on points and vectors.", "quantifier": "every dimension, all translations, points, vectors", "why_tests_cant": "the claim ranges over infinitely many inputs (and every dimension); a test fixes finitely many", "anchors": ["crates/cglinalg_transform/src/translation.rs"]}
{"id": "C54", "title": "Rotations form a group of distance-preserving maps", "statement": "Every Rotation built through the public constructors is orthogonal with determinant one; composition is application in sequence, inverse (transpose) undoes it, inverse_mut agrees, dot products and distances are preserved, and the homogeneous matrix acts identically.", "quantifier": "dimension 2 and 3 constructors, all points and vectors (floats read as exact reals)", "why_tests_cant": "the claim ranges over infinitely many inputs (and every dimension); a test fixes finitely many", "anchors": ["crates/cglinalg_transform/src/rotation.rs"]}
{"id": "C55", "title": "Rotation2/Rotation3 angle and axis recover the construction parameters", "statement": "Rotation2::from_angle(t).angle() is t modulo full turns in (-pi, pi]; Rotation3::from_axis_angle(u, t).angle() is |t| for |t| <= pi, and axis_angle() rebuilds the same rotation whenever it is Some.", "quantifier": "all angles and axes (floats read as exact reals)", "why_tests_cant": "the claim ranges over infinitely many inputs (and every dimension); a test fixes finitely many", "anchors": ["crates/cglinalg_transform/src/rotation.rs:angle", "crates/cglinalg_transform/src/rotation.rs:axis", "crates/cglinalg_transform/src/rotation.rs:axis_angle"]}
{"id": "C56", "title": "Isometries form a group and preserve distances", "statement": "apply_point(p) = R p + t, apply_vector(v) = R v; composition of isometries applies the right one first; inverse, inverse_mut and inverse_apply_* undo it; distances between points are preserved; to_affine_matrix is multiplicative and acts identically; multiplying by bare Translation or Rotation on either side agrees with embedding it as an isometry.", "quantifier": "every dimension, all isometries with orthogonal rotation part (floats read as exact reals)", "why_tests_cant": "the claim ranges over infinitely many inputs (and every dimension); a test fixes finitely many", "anchors": ["crates/cglinalg_transform/src/isometry.rs", "crates/cglinalg_transform/src/isometry_ops.rs"]}
{"id": "C57", "title": "Similarities form a group and scale distances", "statement": "apply_point(p) = s R p + t; distances are multiplied by |s|; composition, inverse, inverse_mut, inverse_apply_* are consistent with application for s != 0; to_affine_matrix is multiplicative and acts identically; products with isometries agree with embedding.", "quantifier": "every dimension, all similarities (floats read as exact reals)", "why_tests_cant": "the claim ranges over infinitely many inputs (and every dimension); a test fixes finitely many", "anchors": ["crates/cglinalg_transform/src/similarity.rs"]}
{"id": "C58", "title": "Scales", "statement": "Scale multiplies componentwise; composition multiplies factors; inverse and inverse_apply_* undo apply_* when all factors are non-zero; matrix forms act identically.", "quantifier": "every dimension, all factors", "why_tests_cant": "the claim ranges over infinitely many inputs (and every dimension); a test fixes finitely many", "anchors": ["crates/cglinalg_transform/src/scale.rs"]}
{"id": "C59", "title": "Shear and reflection transforms agree with their homogeneous matrices", "statement": "For Shear and Reflection, apply_point and apply_vector give the same result as to_transform() applied to the same point or vector, and inverse / inverse_apply_* undo apply_* (direction orthogonal to normal for shears; unit normal for reflections).", "quantifier": "all shears and reflections in 2D and 3D (any dimension for the inverse laws)", "why_tests_cant": "agreement on vectors fails only when the shear origin is off the hyperplane through zero", "anchors": ["crates/cglinalg_transform/src/shear.rs", "crates/cglinalg_transform/src/reflection.rs"]}
{"id": "C60", "title": "General transforms", "statement": "Transform composition is application in sequence; apply_point divides by the homogeneous coordinate and panics exactly when it is zero; apply_vector ignores translation; try_inverse is None exactly for singular matrices and otherwise undoes the transform on points and vectors of affine transforms; inverse panics exactly when try_inverse is None.", "quantifier": "all 3x3 and 4x4 homogeneous matrices, all points", "why_tests_cant": "the claim ranges over infinitely many inputs (and every dimension); a test fixes finitely many", "anchors": ["crates/cglinalg_transform/src/transform.rs"]}
{"id": "C61", "title": "Approximate equality of composite values is componentwise", "statement": "abs_diff_eq / abs_diff_all_eq on vectors, points, matrices, complex numbers, quaternions and every transform type is true exactly when every scalar component of the two values differs by at most the tolerance; it is reflexive (tolerance >= 0) and symmetric.", "quantifier": "all values and tolerances", "why_tests_cant": "a component omitted from the conjunction is only visible for values that differ in it alone", "anchors": ["crates/cglinalg_transform/src/isometry.rs:AbsDiffAllEq", "crates/cglinalg_transform/src/similarity.rs:AbsDiffAllEq", "crates/cglinalg_transform/src/translation.rs:AbsDiffEq", "crates/cglinalg_core/src/vector.rs:AbsDiffEq", "crates/cglinalg_core/src/matrix.rs:AbsDiffEq"]}
{"id": "C62", "title": "Scalar helper functions", "statement": "clamp(x, lo, hi) lies in [lo, hi], equals x when x already does and is the nearest bound otherwise (lo <= hi); copysign(x, s) has magnitude |x| and the sign of s (the least integer of a width has no positive counterpart: there abs and copysign panic with overflow checks and return it unchanged without); signum, abs, min, max satisfy abs(x) = x * signum(x), min + max = sum; cast panics exactly when try_cast is None.", "quantifier": "all integers / reals", "why_tests_cant": "the claim ranges over infinitely many inputs (and every dimension); a test fixes finitely many", "anchors": ["crates/cglinalg_numeric/src/lib.rs:clamp", "crates/cglinalg_numeric/src/lib.rs:copysign", "crates/cglinalg_numeric/src/lib.rs:signum", "crates/cglinalg_numeric/src/lib.rs:cast", "crates/cglinalg_numeric/src/lib.rs:try_cast"]}
{"id": "C63", "title": "Component access, views and conversions address the right components", "statement": "Indexing, ranges, slices, pointers, named fields (x, y, z, w, s, v, c0r0, ...) and the reference conversions to arrays and tuples all read and write the component they name and no other; out-of-range indices and ranges panic; converting to an array or tuple and back is the identity; new, from_fill, map and the unit vectors have the stated components.", "quantifier": "every dimension and shape for which the access exists, all values, all indices in and out of range", "why_tests_cant": "each access path is separate code for each shape; a slip in one name of one shape is invisible to tests of the others", "anchors": ["crates/cglinalg_core/src/vector.rs:Index", "crates/cglinalg_core/src/matrix.rs:Index", "crates/cglinalg_core/src/point.rs:Index", "crates/cglinalg_core/src/quaternion.rs:Index", "crates/cglinalg_core/src/complex.rs:Index", "crates/cglinalg_core/src/vector.rs:AsRef", "crates/cglinalg_core/src/vector.rs:View*"]}
{"id": "C64", "title": "Swizzles select the named components", "statement": "Every swizzle method returns the vector or point whose k-th component is the component of the receiver named by the k-th letter of the method, and every word of length 2 to 4 (vectors) over the receiver's letters for which the library offers a method is the method of that name.", "quantifier": "every swizzle method, all receivers", "why_tests_cant": "several hundred hand-written permutations; a test of one method says nothing about another", "anchors": ["crates/cglinalg_core/src/vector.rs:impl_swizzle", "crates/cglinalg_core/src/point.rs:impl_swizzle"]}
{"id": "C65", "title": "Display writes every component once, in order", "statement": "The Display text of a vector, point or matrix of any positive size is its type name and size followed by every component in storage order, separated by commas; the other types print their parts in a fixed frame; printing a value with no components panics; when the scalar's text is comma-free and injective the text of a vector determines the vector.", "quantifier": "every dimension, all values, any scalar Display", "why_tests_cant": "loop bounds computed by subtraction fail only at sizes that tests do not print", "anchors": ["crates/cglinalg_core/src/vector.rs:Display", "crates/cglinalg_core/src/point.rs:Display", "crates/cglinalg_core/src/matrix.rs:Display", "crates/cglinalg_core/src/quaternion.rs:Display", "crates/cglinalg_core/src/complex.rs:Display", "crates/cglinalg_transform/src/isometry.rs:Display"]}
{"id": "C66", "title": "Laws that survive rounding, bit for bit", "statement": "In rounded arithmetic (every operation returns the rounding of the exact result) vector addition commutes and v - v is zero, the dot product is symmetric and flips sign exactly with either argument, squared norms and norms are non-negative and even, v x v is exactly zero and v x w = -(w x v), lerp at 0 returns the start exactly and lerp between equal vectors is constant, the identity matrix is exactly neutral on both sides, transposing a product and the trMul forms agree exactly, the determinant of a 2x2 matrix equals that of its transpose, complex multiplication commutes and conjugation is exactly multiplicative. Addition is not associative and lerp at 1 need not return the end in binary64.", "quantifier": "every rounding mode that is monotone, odd and idempotent (round to nearest even with any precision and exponent floor is one), every dimension, all values", "why_tests_cant": "exact bitwise equalities over 2^64-sized domains; a reordered sum or product breaks them only for some operands", "anchors": ["crates/cglinalg_core/src/vector.rs:Vector::dot", "crates/cglinalg_core/src/vector.rs:Vector3::cross", "crates/cglinalg_core/src/vector.rs:Vector::lerp", "crates/cglinalg_core/src/matrix.rs:Mul", "crates/cglinalg_core/src/complex.rs:Mul"]}
{"id": "C67", "title": "Forward rounding-error bounds", "statement": "In floating-point arithmetic with unit roundoff u and no underflow, a computed dot product, matrix product entry, norm, lerp, cross product, complex or quaternion product and determinant differs from the exact one by at most ((1+u)^k - 1) times the sum of the absolute values of the exact terms, k being the number of roundings on the longest path; a normalized non-zero vector has norm within a stated multiple of u of one.", "quantifier": "every unit roundoff u, every dimension, all operands", "why_tests_cant": "a worst-case bound over all operands; sampled operands say nothing about the worst case", "anchors": ["crates/cglinalg_core/src/vector.rs:Vector::dot", "crates/cglinalg_core/src/vector.rs:normalize", "crates/cglinalg_core/src/matrix.rs:Mul", "crates/cglinalg_core/src/matrix.rs:determinant", "crates/cglinalg_core/src/quaternion.rs:Mul"]}
{"id": "C68", "title": "Wrapping integer scalars", "statement": "With w-bit wrapping integer scalars (signed or unsigned) componentwise operations, lerp, dot and cross products, matrix products, traces, determinants, complex and quaternion products return the exact integer result reduced to w bits: the exact result itself whenever it is representable, even if intermediate results overflow.", "quantifier": "every width w, every dimension, all operands", "why_tests_cant": "the overflowing operand combinations are a vanishing, unsampled part of the domain", "anchors": ["crates/cglinalg_core/src/vector.rs:Vector::dot", "crates/cglinalg_core/src/matrix.rs:Mul", "crates/cglinalg_core/src/matrix.rs:determinant", "crates/cglinalg_core/src/quaternion.rs:Mul"]}
{"id": "C69", "title": "Infinities and NaN do not silently vanish", "statement": "In IEEE arithmetic with infinities and NaN, a NaN component makes dot products, Euclidean and L1 norms, distances, normalized vectors, matrix products, traces, determinants, inverses, complex and quaternion products NaN, and a finite result implies that every input that enters it is finite; is_finite, is_nan and is_infinite report exactly this. The norms built from max (the vector L-infinity norm, the matrix L1 and L-infinity norms) are never NaN: they ignore NaN components. Normalizing a finite non-zero vector can overflow to the zero vector or underflow to infinity and NaN.", "quantifier": "every floating-point format, every dimension, all values including special ones, every implementation of the elementary functions with a correct square root", "why_tests_cant": "special values in every position and combination; a skipped component goes unnoticed for ordinary values", "anchors": ["crates/cglinalg_core/src/vector.rs:is_finite", "crates/cglinalg_core/src/vector.rs:linf_norm", "crates/cglinalg_core/src/matrix.rs:is_finite", "crates/cglinalg_core/src/matrix.rs:try_inverse", "crates/cglinalg_core/src/complex.rs:is_nan", "crates/cglinalg_core/src/quaternion.rs:is_finite", "crates/cglinalg_trigonometry/src/lib.rs:is_finite"]}
{"id": "C70", "title": "Failed approximate comparisons report what failed", "statement": "For every type the differences and tolerances that the assertion macros print for two values have, in each component, the difference of that component of the two values and the tolerance it is held against, and the comparison accepts the values exactly when every printed difference is within the printed tolerance. abs_diff_all_eq of isometries is the exception: it accepts values whose printed translation difference exceeds the printed tolerance.", "quantifier": "every type, dimension, pair of values and tolerance; every scalar comparison and scalar report that agree with each other", "why_tests_cant": "a report that mixes up components or fields is only noticed when a test fails, and then misleads", "anchors": ["crates/cglinalg_core/src/vector.rs:debug_abs_diff", "crates/cglinalg_core/src/matrix.rs:debug_relative_tolerance", "crates/cglinalg_core/src/unit.rs:debug_ulps_all_tolerance", "crates/cglinalg_transform/src/shear.rs:debug_ulps_diff", "crates/cglinalg_transform/src/isometry.rs:debug_abs_diff_all_tolerance", "crates/cglinalg_trigonometry/src/lib.rs:debug_abs_diff"]}
{"id": "C71", "title": "Shapes that type-check", "statement": "A product of matrices is accepted by the type checker exactly when the inner dimensions agree and the outer dimensions are one to four, and has the outer dimensions as its shape; tr_mul exactly when the row counts agree. extend, contract, to_homogeneous, from_homogeneous and the affine constructors exist exactly for consecutive dimensions up to four and fit together; a square matrix embeds exactly in larger ones. Products type-check in either association order within dimensions one to four, and not beyond.", "quantifier": "every pair or triple of dimensions", "why_tests_cant": "a program that should not compile, or should and does not, cannot be a unit test, and the shape tables are written out entry by entry", "anchors": ["crates/cglinalg_core/src/constraint.rs:DimAdd", "crates/cglinalg_core/src/constraint.rs:DimMul", "crates/cglinalg_core/src/constraint.rs:DimLt", "crates/cglinalg_core/src/constraint.rs:CanMultiply", "crates/cglinalg_core/src/matrix.rs:tr_mul"]}
{"id": "C72", "title": "Complex functions at infinities, zeros and NaN", "statement": "With IEEE arithmetic and a C library that meets the special values of annex F, asinh, acosh, atanh, acos, sinh, cosh, tanh (and sin, cos, tan, asin, atan through them) of a complex number with an infinite, zero or NaN part return the value that annex G of the C standard prescribes, in every quadrant, except for the sign of a zero part in cosh, in atanh at plus or minus one, and in acos at a negative-zero imaginary part, which are identified. exp, ln and sqrt do so except in the cases listed, whose actual values are stated. tanh of a finite number whose real part is large is NaN. Quotients by zero or by a number with an infinite part are NaN, try_inverse is None exactly at zeros among these values, powu of a number with a NaN part is NaN from the exponent two on, whereas powi returns the number unchanged; zero to the real power zero is NaN although it is one with an integer or a complex exponent.", "quantifier": "every combination of special and finite parts, every floating-point format, every library that meets the requirements", "why_tests_cant": "the tables range over all finite companions of a special part, over formats and over library implementations; tests sample a few finite values with one library", "anchors": ["crates/cglinalg_core/src/complex.rs:exp", "crates/cglinalg_core/src/complex.rs:ln", "crates/cglinalg_core/src/complex.rs:sqrt", "crates/cglinalg_core/src/complex.rs:sinh", "crates/cglinalg_core/src/complex.rs:tanh", "crates/cglinalg_core/src/complex.rs:acosh", "crates/cglinalg_core/src/complex.rs:atanh", "crates/cglinalg_core/src/complex.rs:powi", "crates/cglinalg_core/src/complex.rs:powf", "crates/cglinalg_core/src/complex.rs:try_inverse"]}
{"id": "C73", "title": "Applying a transformation with the multiplication operator", "statement": "transformation * point and transformation * vector apply the transformation. A product of translations, scales, rotations, isometries or similarities acts as its factors in turn, the right one first; so does every product of a translation, rotation or isometry with another of these types, in every expression of any length and bracketing, and a similarity times an isometry. Identities leave everything alone, inverses undo (scale factors and similarity scale not zero, rotation matrix orthogonal), displacements between points are transformed as vectors are, and the homogeneous matrix and the conversion to Transform act the same. Reflections and shears are undone by their inverses. Transform * point panics exactly when the image lies at infinity, and products of transforms act in turn, panics included. Orthographic and perspective projections act as their matrices do, for perspective points exactly when top and bottom are symmetric.", "quantifier": "every transformation of each type, every point and vector, every dimension, every field of scalars, expressions of any length and shape", "why_tests_cant": "the laws range over all transformations, points and expression trees; tests apply a few transformations to a few vertices of a cube", "anchors": ["crates/cglinalg_transform/src/translation.rs:Mul", "crates/cglinalg_transform/src/scale.rs:Mul", "crates/cglinalg_transform/src/rotation.rs:Mul", "crates/cglinalg_transform/src/isometry.rs:Mul", "crates/cglinalg_transform/src/similarity.rs:Mul", "crates/cglinalg_transform/src/reflection.rs:Mul", "crates/cglinalg_transform/src/shear.rs:Mul", "crates/cglinalg_transform/src/transform.rs:Mul", "crates/cglinalg_transform/src/projection.rs:Mul"]}
{"id": "C74", "title": "Every law the complex number property tests sample", "statement": "Each of the laws that the project's property tests for complex numbers evaluate on random inputs holds for every complex number in exact arithmetic: ring and field laws, conjugation, squared modulus, L1 norm and modulus, exponential and logarithm, arguments of products and quotients up to whole turns, square and cube roots and the ranges of their arguments, parity, addition and double angle formulas of the trigonometric and hyperbolic functions, and functions undoing their inverses. The laws that are false as stated are exhibited with counterexamples and their exact conditions given: exp of ln at zero, the tangent at poles, inverse functions of conjugates on branch cuts.", "quantifier": "every complex number, every integer number of turns, every scalar ring or field where the law is algebraic", "why_tests_cant": "the laws are universally quantified; the tests draw a few hundred samples from bounded ranges that avoid branch cuts, poles and zero", "anchors": ["crates/cglinalg_core/tests/spec_complex.rs", "crates/cglinalg_core/src/complex.rs:exp", "crates/cglinalg_core/src/complex.rs:ln", "crates/cglinalg_core/src/complex.rs:sqrt", "crates/cglinalg_core/src/complex.rs:asin", "crates/cglinalg_core/src/complex.rs:tan"]}
{"id": "C75", "title": "Every law the quaternion property tests sample", "statement": "Each of the laws that the project's property tests for quaternions evaluate on random inputs is settled for every quaternion in exact arithmetic: ring and division laws, dot product, conjugation, square roots of minus one, squared modulus, L1 norm and modulus, exponential of commuting quaternions, arguments, square roots, double angle formulas and parity of the trigonometric and hyperbolic functions. Those that fail are refuted and the exact condition is proved: the scalar part of the logarithm, the square root of negative reals and of products.", "quantifier": "every quaternion, every integer number of turns, every scalar ring or field where the law is algebraic", "why_tests_cant": "the laws are universally quantified; the tests draw a few hundred samples from bounded ranges that avoid the exceptional quaternions", "anchors": ["crates/cglinalg_core/tests/spec_quaternion.rs", "crates/cglinalg_core/src/quaternion.rs:exp", "crates/cglinalg_core/src/quaternion.rs:ln", "crates/cglinalg_core/src/quaternion.rs:sqrt", "crates/cglinalg_core/src/quaternion.rs:arg"]}
{"id": "C76", "title": "Every law the vector, point and matrix property tests sample", "statement": "Each of the laws that the project's property tests for vectors, points, matrices and matrix-vector products evaluate on random inputs holds for every vector, point and matrix: vector space laws, bilinearity and symmetry of the dot product, the cross product laws, point-vector arithmetic, ring laws of the matrix product, transposition, matrix dot product and trace, row vector products, row and column and element swaps, and the Euclidean, L1, L-infinity and Lp norms with their point-wise behaviour, homogeneity and triangle inequality.", "quantifier": "every dimension, every scalar ring, and for norms every real vector, point or matrix and every exponent", "why_tests_cant": "the laws are universally quantified; the tests draw a few hundred samples from bounded ranges and dimensions one to four", "anchors": ["crates/cglinalg_core/tests/spec_vector.rs", "crates/cglinalg_core/tests/spec_point.rs", "crates/cglinalg_core/tests/spec_matrix.rs", "crates/cglinalg_core/tests/spec_matrix_vector.rs", "crates/cglinalg_core/src/vector.rs:dot", "crates/cglinalg_core/src/matrix.rs:transpose"]}
{"id": "C77", "title": "Every law the transformation and Euler angle property tests sample", "statement": "Each of the laws that the project's property tests for isometries, rotations, similarities, reflections, shears, scales, translations, general transformations and Euler angles evaluate on random inputs holds for every such transformation in exact arithmetic: composition with the inverse, application to points and vectors, agreement of angle additions with compositions, determinants and traces, involutivity of reflections, preservation of norms, shears being undone by shears with the opposite factor. The law about composed general transformations applied to vectors is refuted for projective matrices and proved for affine ones; a shear matrix is symmetric only when its factor vanishes, exactly and within a tolerance.", "quantifier": "every transformation of the kind, every point and vector, every angle, every scalar field where the law is algebraic", "why_tests_cant": "the laws are universally quantified; the tests draw a few hundred samples from bounded ranges", "anchors": ["crates/cglinalg_transform/tests/spec_isometry.rs", "crates/cglinalg_transform/tests/spec_rotation.rs", "crates/cglinalg_transform/tests/spec_similarity.rs", "crates/cglinalg_transform/tests/spec_reflection.rs", "crates/cglinalg_transform/tests/spec_shear.rs", "crates/cglinalg_transform/tests/spec_scale.rs", "crates/cglinalg_transform/tests/spec_translation.rs", "crates/cglinalg_transform/tests/spec_transform.rs", "crates/cglinalg_core/tests/spec_euler.rs"]}
{"id": "C78", "title": "Every law the projection, unit and angle property tests sample", "statement": "Each of the laws that the project's property tests for perspective projections, unit values and typed angles evaluate on random inputs is settled for every input in exact arithmetic: the near and far planes go to the ends of the depth range, depth is monotone between them, lines through the eye keep their screen position, parameters are recovered; unit constructors normalize and succeed exactly above the threshold; angles form a group, the trigonometric functions undo their inverses, are periodic under any whole number of turns and satisfy the Pythagorean identity, and normalization lands in the half-open turn. The depth order and the signed interval that the comments of the tests state are refuted.", "quantifier": "every field of view, aspect ratio and depth range with positive planes, every point in front of the eye; every vector, quaternion and complex number and every threshold; every angle and every integer number of turns", "why_tests_cant": "the laws are universally quantified; the tests draw a few hundred samples from bounded ranges that avoid half turns", "anchors": ["crates/cglinalg_transform/tests/spec_projection.rs", "crates/cglinalg_core/tests/spec_unit.rs", "crates/cglinalg_trigonometry/tests/spec_angle.rs", "crates/cglinalg_transform/src/projection.rs:Perspective3", "crates/cglinalg_core/src/unit.rs:Unit", "crates/cglinalg_trigonometry/src/lib.rs:Angle"]}
{"id": "C79", "title": "Composing any number of rotations in floating point drifts by a bounded amount", "statement": "The floating point product of any number of rotation quaternions, unit complex numbers or square rotation matrices, bracketed in any way, differs from the exact product of the rotations meant by at most (1+d)^m (1+k)^(m-1) - 1, where m is the number of factors, d the accuracy of each factor and k the error constant of one product, gradual underflow included; its length (the lengths of the vectors it turns) deviates from one (from theirs) by at most as much. A million f64 factors accurate to 2^-51 stay within 2e-9. If the state is normalised after every product, its length stays within 8 units of roundoff of one after any history, and the rotation drifts at most linearly, 5e-15 per frame in f64.", "quantifier": "every rounding with unit roundoff u and underflow error, every number of factors, every bracketing, every matrix size, every history of frames", "why_tests_cant": "the claim is about every length and every bracketing of the product; tests multiply two or three literals and compare with a tolerance", "anchors": ["crates/cglinalg_core/src/quaternion.rs:impl ops::Mul", "crates/cglinalg_core/src/matrix.rs:impl ops::Mul", "crates/cglinalg_core/src/complex.rs:impl ops::Mul", "crates/cglinalg_core/src/quaternion.rs:normalize"]}
{"id": "C80", "title": "Angle reduction and conversion in floating point", "statement": "In f32 and f64 the remainder of two angles is exact. Normalizing an angle gives the correctly rounded reduction: between zero and a full turn, exact and less than a full turn for an angle that is not negative, within half a unit in the last place of the full turn otherwise; in radians, where the representable full turn differs from 2 pi, sine and cosine of the normalized angle differ from those of the angle by at most (|a|+8) u. The documented half-open range fails: a tiny negative angle normalizes to a full turn, and normalizing again gives zero. The signed reduction always lies in (-half turn, half turn]. Opposite and bisector are within stated error bounds. Conversion between degrees and radians has relative error at most (1+u)^3-1, preserves order and sign, and there and back (1+u)^6-1. Infinite angles and NaN normalize to NaN, finite angles never overflow, whole negative turns give negative zero.", "quantifier": "every binary format with at least 6 bits (f32 and f64 among them), every angle of either unit", "why_tests_cant": "the failing angles are a tiny set next to zero, and exactness of the remainder is a claim about every pair of representable numbers", "anchors": ["crates/cglinalg_trigonometry/src/lib.rs:normalize", "crates/cglinalg_trigonometry/src/lib.rs:normalize_signed", "crates/cglinalg_trigonometry/src/lib.rs:opposite", "crates/cglinalg_trigonometry/src/lib.rs:bisect", "crates/cglinalg_trigonometry/src/lib.rs:impl From<Degrees<S>> for Radians<S>"]}
{"id": "C81", "title": "Integer scalars with overflow checks", "statement": "With integer scalars in a debug build, a vector, matrix, complex or quaternion operation that does not panic returns the exact integer result, and the release build returns the same. A dot product panics exactly when one of its products or partial sums is not representable: for unsigned scalars exactly when the result is not representable, for signed ones possibly although it is. It cannot panic when the sum of the absolute values of the products is in range; the same is shown for matrix products, determinants, cross and quaternion products with bounded components. Division and remainder of a vector by a scalar panic exactly for a zero divisor or a quotient that is not representable, and otherwise truncate.", "quantifier": "every integer range containing 0 and 1 (all signed and unsigned widths), every dimension, all components", "why_tests_cant": "whether some intermediate value overflows depends on all components together; the safe region is a claim about every input inside it", "anchors": ["crates/cglinalg_core/src/vector.rs:dot", "crates/cglinalg_core/src/vector.rs:cross", "crates/cglinalg_core/src/matrix.rs:determinant", "crates/cglinalg_core/src/matrix.rs:impl Mul", "crates/cglinalg_core/src/quaternion.rs:impl Mul", "crates/cglinalg_core/src/complex.rs:impl Mul"]}
{"id": "C82", "title": "Rotations built from angles in floating point", "statement": "In floating point, the rotation matrices built from an angle (2D, about a coordinate axis, about any axis, and their homogeneous forms), the unit complex number and the quaternion built from an angle, and the matrix of a non-zero quaternion all act on every vector within a stated multiple of its length of the exact rotation. With 53 bits and sine and cosine accurate to 2^-52: 3 units of 2^-53 about a coordinate axis and, when no intermediate result underflows, 165 units about any axis given by a vector that the library normalises, 13 units for the quaternion, 80 units for the matrix of a quaternion. A product of a million rotations about coordinate axes is within 2e-9 of the exact product.", "quantifier": "every rounding to nearest, every library of sine and cosine with the stated accuracy, every angle, every axis, every vector, every number and order of factors", "why_tests_cant": "the error depends on the angle and on the axis, which range over all floating-point numbers", "anchors": ["crates/cglinalg_core/src/matrix.rs:from_angle", "crates/cglinalg_core/src/matrix.rs:from_axis_angle", "crates/cglinalg_core/src/matrix.rs:from_angle_x", "crates/cglinalg_core/src/matrix.rs:from_affine_angle", "crates/cglinalg_core/src/quaternion.rs:from_axis_angle", "crates/cglinalg_core/src/quaternion.rs:to_matrix", "crates/cglinalg_core/src/complex.rs:from_angle", "crates/cglinalg_core/src/unit.rs:from_value"]}
{"id": "C83", "title": "Inverting a matrix in floating point", "statement": "In floating point without overflow or underflow, try_inverse of a matrix of size 1 to 4 fails only when the determinant is within the rounding error of its computation, and otherwise every entry of the result is within a stated multiple (growing with that error relative to the determinant) of the entry of the exact inverse. With 53 bits and entries up to M, a 4x4 matrix with |det| >= M^4/10^9 is inverted with error at most 5400 * 2^-53 * M^7 / det^2. A 2x2 matrix that is exactly singular is always refused; a 3x3 one need not be, and an invertible 2x2 matrix may be refused.", "quantifier": "every rounding to nearest, every matrix with representable entries", "why_tests_cant": "the error depends on all entries and on how close the matrix is to singular", "anchors": ["crates/cglinalg_core/src/matrix.rs:try_inverse", "crates/cglinalg_core/src/matrix.rs:determinant"]}
{"id": "C84", "title": "Where norms and normalization are safe from overflow and underflow", "statement": "In IEEE f64, for a vector of at most 2^20 finite components (or a quaternion or complex number) whose exact length lies between 2^-499 and 2^510, the norm is finite and within (n + 3) * 2^-53 of the exact length relative to it; every component of the normalized vector is finite and within (n + 6) * 2^-53 of that of the exact direction, plus half the least subnormal number; the normalized length is within (n + 7) * 2^-53 of one; and try_normalize answers by comparing the exact length with the threshold, up to the rounding of the norm. The same holds in f32 for at most 1000 components and a length between 2^-56 and 2^62. Outside the range it does not: one component of magnitude 2^512 makes the norm infinite and the normalized vector zero, and components all below 2^-538 make the norm zero and no normalized component finite.", "quantifier": "every dimension up to the limit, every finite vector with a length in the range, including components whose squares underflow", "why_tests_cant": "the claim covers every magnitude of every component, with all intermediate sums", "anchors": ["crates/cglinalg_core/src/vector.rs:norm", "crates/cglinalg_core/src/vector.rs:normalize", "crates/cglinalg_core/src/vector.rs:try_normalize", "crates/cglinalg_core/src/quaternion.rs:normalize", "crates/cglinalg_core/src/complex.rs:normalize"]}
{"id": "C85", "title": "Rounding and the domains of acos, asin and sqrt", "statement": "In IEEE f64, with any elementary functions that return NaN outside their domains: Quaternion::rotation_between of finite vectors with lengths between 2^-499 and 2^510 returns nothing or a finite quaternion, also for parallel and nearly parallel vectors; Rotation2::rotation_between of such vectors returns a finite matrix; Quaternion::ln is finite for finite quaternions of lengths between 2^-50 and 2^510 (the rounded norm is never below the scalar part); Quaternion::slerp is finite for finite quaternions within 1/8 of unit length, an amount in [0, 1] and a threshold between 2^-20 and 1/2; Quaternion::from_matrix is finite for every matrix with finite entries up to 2^1000, because the pivot it divides by is at least one. Five other functions have no such guard and fail for ordinary arguments: Matrix2x2::rotation_between((3,4),(3,4)) and Matrix3x3::rotation_between((3,4,0),(3,4,2^-26)) are matrices of NaNs, the angle of the half turn about (1,1,0) is NaN, the second Euler angle of the quaternion (3,1,3,1) is NaN, and the square root of the quaternion (-1,2^-30,0,0) is NaN and infinite.", "quantifier": "every finite argument in the stated ranges, every implementation of the elementary functions with the stated domains; for the failures one argument each, every such implementation", "why_tests_cant": "the failures occur at isolated roundings that random tests with tolerances do not hit; the safe functions must hold at all of them", "anchors": ["crates/cglinalg_core/src/quaternion.rs:rotation_between", "crates/cglinalg_core/src/quaternion.rs:ln", "crates/cglinalg_core/src/quaternion.rs:slerp", "crates/cglinalg_core/src/quaternion.rs:from_matrix", "crates/cglinalg_core/src/quaternion.rs:sqrt", "crates/cglinalg_core/src/matrix.rs:rotation_between", "crates/cglinalg_core/src/euler.rs:from_quaternion", "crates/cglinalg_transform/src/rotation.rs:angle", "crates/cglinalg_transform/src/rotation.rs:rotation_between"]}
{"id": "C86", "title": "Histories of rotations in f64", "statement": "In IEEE f64, with overflow, underflow, infinities and NaN: when rotation quaternions are multiplied in any number and bracketing and every product is normalized, the result is finite and its length is within 11*2^-53 of one however long the history, whatever the lengths of the factors between 2^-240 and 2^240, from either side; its distance from the product of the rotations meant is at most the sum of the errors of the factors plus 40*2^-53 for each factor. The same holds for complex numbers with 9 and 28 in place of 11 and 40. Without normalization a product of up to a million rotation quaternions, or rotation matrices of space, whose factors are accurate to 2^-51 never overflows and is within 2e-9 of the rotation meant.", "quantifier": "every list and every bracketing of factors, every f64 value of the factors in the stated ranges, every frame history", "why_tests_cant": "the history has no bound, and the claim is about the worst case of all roundings in it, including the special values that a test would have to provoke", "anchors": ["crates/cglinalg_core/src/quaternion.rs:impl Mul<Quaternion>", "crates/cglinalg_core/src/quaternion.rs:normalize", "crates/cglinalg_core/src/complex.rs:impl Mul<Complex>", "crates/cglinalg_core/src/complex.rs:normalize", "crates/cglinalg_core/src/matrix.rs:impl Mul<Matrix>"]}
{"id": "C87", "title": "View matrices in f64", "statement": "In IEEE f64, with overflow, underflow, infinities and NaN: for a finite direction and a finite up vector with lengths between 2^-240 and 2^240 and an angle whose sine is at least s >= 2^-40, every entry of look_to_lh, look_to_rh and their inverses in three dimensions is a finite number within 156*2^-53/s of the entry of the exact view rotation. look_at, which rounds the direction from the eye to the target, has the same bound. In four dimensions the rotation columns have that bound and the last column is within 161*2^-53/s*|eye| + 2^-1000 for every eye within 2^500 of the origin. When the direction and the up vector point along the same coordinate axis the first two rows of the three-dimensional matrices are NaN. The exact view rotation is the only rotation that turns the direction to the third axis (its negative in the right-handed case) and the up vector into the half plane of the second and third axes with positive second coordinate. For s >= 2^-35 the quaternions from Quaternion::look_to_lh, look_to_rh, look_at_lh, look_at_rh and their inverses are finite and within 624*2^-53/s, component by component, of a unit quaternion of that rotation or its inverse.", "quantifier": "every f64 direction, up vector, eye and target in the stated ranges and every s", "why_tests_cant": "the bound is the worst case over all roundings of three normalizations and two cross products and depends on the conditioning, which samples do not exhaust", "anchors": ["crates/cglinalg_core/src/matrix.rs:look_to_lh", "crates/cglinalg_core/src/matrix.rs:look_to_rh", "crates/cglinalg_core/src/matrix.rs:look_at_lh", "crates/cglinalg_core/src/matrix.rs:look_at_rh", "crates/cglinalg_core/src/matrix.rs:look_to_lh_inv", "crates/cglinalg_core/src/matrix.rs:look_at_lh_inv", "crates/cglinalg_core/src/quaternion.rs:look_to_lh", "crates/cglinalg_core/src/quaternion.rs:look_at_lh", "crates/cglinalg_core/src/quaternion.rs:look_to_lh_inv"]}
{"id": "C88", "title": "Projections in f64", "statement": "In IEEE f64, with overflow, underflow, infinities and NaN, for parameters up to 2^300 whose widths are at least 2^-300: every entry of the orthographic, perspective and field-of-view projection matrices is finite and has a relative error of at most 4, 5 and j+7 units of 2^-53 (the library's tangent having j), without any absolute error. A projected point differs from the exact one by at most 8 (orthographic) or 12 (perspective) units times the sizes of the two terms of a coordinate, so that points of a view box with far >= 2 near land in the canonical cube up to 2^-47. The accessors left, right, bottom, top, near and far return positive parameters with a relative error of at most 128 L, 200 N M or 200 (N M + L) units, where L, N and M bound the ratios of the parameters. They do not for every volume: when left is zero or is absorbed by right in rounding, right() is NaN and unproject_point and unproject_vector return NaN; likewise bottom and top, and near and far. So a box with left = bottom = near = 0 is never unprojected.", "quantifier": "every f64 parameter and point in the stated ranges; the NaN results hold in every floating-point format and for every point", "why_tests_cant": "the bounds are the worst case over all roundings and parameters, and the NaN results concern a set of parameters no fixed example covers", "anchors": ["crates/cglinalg_core/src/matrix.rs:from_orthographic", "crates/cglinalg_core/src/matrix.rs:from_perspective", "crates/cglinalg_core/src/matrix.rs:from_perspective_vfov", "crates/cglinalg_transform/src/projection.rs:Orthographic3", "crates/cglinalg_transform/src/projection.rs:Perspective3", "crates/cglinalg_transform/src/projection.rs:unproject_point"]}
{"id": "C89", "title": "Histories of rigid motions in f64", "statement": "In IEEE f64, with overflow, underflow, infinities and NaN: a motion built from given translations, rotations and isometries (in one to three dimensions) by any expression in the nine multiplication operators and inverse stays close to the same expression in the group of rigid motions of Euclidean space. If each given motion has accuracy d >= 11 * 2^-53 (its rotation applied to a vector is off by at most d times the length, its translation by at most d times its reach), then all entries of the result are finite, its rotation is off by at most 2 t d and its translation by 2 m d times the sum of the reaches, where t + 1 is twice the number of factors and m + 1 is at most t + 1 times one more than the number of inversions, as long as m d <= 1/2 and the reaches sum to at most 2^520. The result applied to a point, to a vector, and inversely to a point is finite and off by a bound of the same form; bringing a point there and back with the same result returns it up to 8 (t + m + 1) d times the reaches and the point's distance. With up to a million factors of accuracy 2^-49 and no inversion, the result is within 8 * 10^-9.", "quantifier": "every expression over translations, rotations and isometries, of any length, order and bracketing; every list of finite f64 leaves of the given accuracy; every finite point and vector in range", "why_tests_cant": "errors accumulate over histories of unbounded length; a test sees one history and cannot show that no history drifts further", "anchors": ["crates/cglinalg_transform/src/isometry.rs:Isometry", "crates/cglinalg_transform/src/isometry.rs:inverse", "crates/cglinalg_transform/src/isometry.rs:apply_point", "crates/cglinalg_transform/src/isometry.rs:inverse_apply_point", "crates/cglinalg_transform/src/isometry_ops.rs:Mul", "crates/cglinalg_transform/src/rotation.rs:Rotation", "crates/cglinalg_transform/src/translation.rs:Translation"]}
{"id": "C90", "title": "Transformations and their homogeneous matrices in IEEE arithmetic", "statement": "In IEEE arithmetic of any format, with overflow, underflow, infinities and NaN, and in any dimension: the homogeneous matrix of an isometry maps every finite point to exactly what the isometry maps it to, bit for bit, whatever numbers the isometry contains; the matrices of rotations, translations and scales map finite points, and those of isometries, rotations, translations and scales map vectors, to the same data up to the sign of zeros. Multiplying two isometries, rotations, translations or scales, or any two different kinds among the first three, and converting the product gives the product of the converted matrices entry by entry, up to the sign of zeros, when the entries are finite. Identities convert to the identity matrix. An isometry made into a similarity applies, inverts, multiplies and converts bit for bit as before. Outside these conditions the two part company: a homogeneous matrix maps any point with an infinite or NaN coordinate to NaN in every coordinate, although the identity translation leaves it alone; and a similarity whose scaling overflows returns NaN in coordinates that its matrix gets right.", "quantifier": "every format, every dimension, every transformation over that format, every point and vector (finite where said)", "why_tests_cant": "bit-for-bit agreement over all floating-point inputs in every dimension, including overflow and special values, is beyond sampling", "anchors": ["crates/cglinalg_transform/src/isometry.rs:to_transform", "crates/cglinalg_transform/src/isometry.rs:to_affine_matrix", "crates/cglinalg_transform/src/isometry.rs:apply_point", "crates/cglinalg_transform/src/isometry_ops.rs:Mul", "crates/cglinalg_transform/src/rotation.rs:to_transform", "crates/cglinalg_transform/src/translation.rs:to_transform", "crates/cglinalg_transform/src/scale.rs:to_transform", "crates/cglinalg_transform/src/similarity.rs:from_isometry", "crates/cglinalg_transform/src/similarity.rs:apply_point", "crates/cglinalg_transform/src/transform.rs:apply_point", "crates/cglinalg_transform/src/transform.rs:Mul"]}
{"id": "C91", "title": "Conversions between quaternions and rotation matrices in floating point", "statement": "In IEEE f64, f32 and every other format of at least six digits, with u the error of one rounding: the quaternion computed from a matrix that is within e <= 1/1000 of the matrix of a rotation is finite and within 3 e + 12 u, component by component, of one of the two unit quaternions of that rotation, for every rotation, half turns included. The matrix computed from a finite quaternion whose squared length is within 1/50 of one is finite and within 48 u of the matrix of the rotation that the normalized quaternion describes; if the quaternion is within d <= 1/300 of a unit quaternion, the matrix is within 9 d + 48 u of that of the unit quaternion. Going from quaternion to matrix and back returns one of the two unit quaternions in the same direction within 156 u, and going from a matrix within e of a rotation matrix to a quaternion and back returns a matrix within 27 e + 156 u of the same rotation matrix: 2^-44 in f64, 2^-16 in f32. Writing into a given matrix, the 4x4 forms and the conversions from and to Rotation3 compute the same numbers.", "quantifier": "every format that is fine enough, every rotation of three-dimensional space, every matrix over the format within the given distance, every finite quaternion with length within one percent of one", "why_tests_cant": "accuracy has to hold for all rotations, also next to the boundaries between the four branches and next to half turns where the formulas of one branch lose their meaning; tests sample rotations", "anchors": ["crates/cglinalg_core/src/quaternion.rs:from_matrix", "crates/cglinalg_core/src/quaternion.rs:to_matrix", "crates/cglinalg_core/src/quaternion.rs:to_matrix_mut", "crates/cglinalg_core/src/quaternion.rs:to_affine_matrix", "crates/cglinalg_core/src/quaternion.rs:to_affine_matrix_mut", "crates/cglinalg_transform/src/rotation.rs:from_quaternion", "crates/cglinalg_transform/src/rotation.rs:From<Rotation3>"]}
{"id": "C92", "title": "Interpolating between rotations in floating point", "statement": "In every IEEE format of at least six digits, with a library whose sine and inverse cosine have absolute errors of at most d, and for quaternions within d of unit quaternions g and h: nlerp(t) is finite and within 300 d, component by component, of the normalized point (1-t) g + t h of the chord, where that point is at least 1/2 away from zero, and within 300 d + angle^3/12 of the point of the great arc when the angle between g and h is at most a right angle. slerp(t) replaces g by -g, which describes the same rotation, when needed to take the shorter arc up to an error of 16 d in the cosine, and returns a finite quaternion near the point of the arc whose angles to the ends are t and 1-t times the angle between the ends: within 6 sqrt(d) when the ends are too close to be told apart, within 300 d + threshold^3/2 when the sine s of the angle is below about the threshold, and within 54 d/s + 5 u/s^2 otherwise (u the error of one rounding). In f64 with the threshold 0.0005 and arguments accurate to 2^-50 that is within 2e-7 everywhere and within 3.2e-9 when the ends can be told apart. When the library errors are relative, the bound 300 d + (threshold + 7 sqrt(d))^3/3 + sqrt(u) holds for every threshold up to 1/2 and every pair of ends that can be told apart, however small the angle; in f32 with the threshold 0.0005 and arguments accurate to 2^-22 the result is within 0.003 everywhere and within 0.00035 when the ends can be told apart.", "quantifier": "every format that is fine enough, every pair of unit quaternions and every pair of quaternions over the format near them, every fraction t in [0, 1], every threshold up to 1/2 (with 1000 d <= threshold^2 when the library errors are absolute)", "why_tests_cant": "the result must be accurate for all pairs, also where rounding makes the code take another branch than exact arithmetic would, where the sine in the denominator is small, and where the sign of the inner product is decided by rounding; tests sample pairs", "anchors": ["crates/cglinalg_core/src/quaternion.rs:slerp", "crates/cglinalg_core/src/quaternion.rs:slerp_eps", "crates/cglinalg_core/src/quaternion.rs:nlerp", "crates/cglinalg_core/src/quaternion.rs:dot"]}
{"id": "C93", "title": "The rotation between two vectors in floating point", "statement": "In every IEEE format of at least six digits, with a library whose sine, cosine and inverse cosine have absolute errors of at most d, and for directions known up to d: if the sine s of the angle is at least 10 sqrt(d) and above the threshold, Quaternion::rotation_between_axis returns a quaternion within 55 d/s, component by component, of the quaternion of the shortest rotation from the first exact direction to the second; if the angle is at most a right angle it always returns one within 18 sqrt(d) plus the threshold, also for parallel directions; if the angle is obtuse and s + 13 d is below the threshold it returns nothing. From any vector to itself the result is exactly the identity and from a vector to its negation there is none, in spite of rounding errors. Quaternion::rotation_between in f64, for finite vectors of lengths between 2^-499 and 2^510, is within 2^-43/s when s >= 2^-21 and within 2^-20 for all angles up to a right angle; in f32, lengths between 2^-56 and 2^62, within 2^-14/s when s >= 1/100 and within 1/50 up to a right angle; Rotation3::rotation_between is within 2^-39/s of the matrix that takes the first direction to the second. Rotation2::rotation_between is within 2^-44 at every angle, with no condition on the directions.", "quantifier": "every format that is fine enough, every pair of unit vectors and every pair of vectors over the format near them, every threshold between a rounding unit and 1/2; for the f64 and f32 versions all finite vectors of lengths in the safe ranges", "why_tests_cant": "the axis is the normalized vector product, which loses all of its accuracy when the directions become parallel, and rounding decides which of the five exits the code takes; the bounds have to hold for all pairs of directions, tests sample pairs", "anchors": ["crates/cglinalg_core/src/quaternion.rs:rotation_between", "crates/cglinalg_core/src/quaternion.rs:rotation_between_axis", "crates/cglinalg_transform/src/rotation.rs:rotation_between", "crates/cglinalg_transform/src/rotation.rs:rotation_between_axis"]}
{"id": "C94", "title": "Rotations by given angles in floating point", "statement": "In every IEEE format of at least six digits, with a library whose sine and cosine have absolute errors of at most d for the angles used, and for an axis within d of a unit vector, component by component: Matrix3x3::from_axis_angle, Matrix4x4::from_affine_axis_angle and the Rotation3, Isometry3 and Similarity3 versions are finite and within 18 d, entry by entry, of the rotation about the exact axis by the given angle (Rodrigues' formula, a member of SO(3) that fixes the axis), the affine rows and columns being exact; from_angle, from_angle_x, from_angle_y, from_angle_z and their affine versions are within d; Quaternion::from_axis_angle is within 4 d + u B of the unit quaternion of that rotation for angles up to B, and its matrix within 84 d + 9 u B of the rotation; Euler::to_matrix and to_affine_matrix are within 10 d of the product of the three rotations about x, y and z. With d = 2^-50 in f64 and angles up to a thousand: 2^-45, 2^-42 for the quaternion; in f32 with d = 2^-21 and angles up to ten: 2^-16 and 2^-18.", "quantifier": "every fine format, every angle in the range, every unit vector and every computed axis near it, every triple of angles", "why_tests_cant": "sines, cosines and products are rounded for every angle and axis; the bounds have to hold for all of them, while tests compare sample angles with a tolerance", "anchors": ["crates/cglinalg_core/src/matrix.rs:from_axis_angle", "crates/cglinalg_core/src/matrix.rs:from_affine_axis_angle", "crates/cglinalg_core/src/matrix.rs:from_angle_x", "crates/cglinalg_core/src/quaternion.rs:from_axis_angle", "crates/cglinalg_core/src/euler.rs:to_matrix", "crates/cglinalg_transform/src/rotation.rs:from_axis_angle"]}
{"id": "C95", "title": "Extracting Euler angles in floating point", "statement": "Extracting Euler angles from the matrix of a rotation (Euler::from_matrix, Rotation3::euler_angles, or from a quaternion) and rebuilding the rotation gives the rotation back up to a small error. This fails in gimbal lock: the code compares the cosine of the second angle with zero exactly, the cosine of the computed quarter turn is not zero in f64, and for some exact rotation matrices the rebuilt rotation is off by more than 9/10 in some entry. Away from gimbal lock, in every IEEE format of at least six digits, with a library whose sine, cosine, inverse sine and two-argument inverse tangent have absolute errors of at most d, a matrix within e of a rotation whose second angle has the cosine c gives angles whose rotation is within 30 (e + d)/c, entry by entry, whenever c^2 >= 100 (e + d); in f64, for matrices accurate to 2^-45, within 2^-40/c whenever c >= 2^-19. From Euler angles to the matrix and back to angles the rotation is within 330 d/c.", "quantifier": "every fine format, every rotation and every computed matrix near it, every triple of angles", "why_tests_cant": "the inverse functions amplify rounding errors depending on the distance from gimbal lock, and which branch is taken depends on whether a computed cosine is exactly zero; tests sample rotations", "anchors": ["crates/cglinalg_core/src/euler.rs:from_matrix", "crates/cglinalg_transform/src/rotation.rs:euler_angles"]}
{"id": "C96", "title": "Axis and angle of a rotation in floating point", "statement": "Rotation3::axis, angle and axis_angle recover the axis and the angle of a rotation with errors that grow with the inverse of the sine of the angle. In every IEEE format of at least six digits, with a library whose sine, cosine and inverse cosine have absolute errors of at most d, a matrix within e of the rotation by an angle between 0 and pi with the sine s has an axis within (4e + 13d)/s, component by component, whenever s is at least 100 (e + d) and the threshold, and an angle within (5e + 16d)/s whenever s^2 >= 1000 (e + d); the rotation built from the two is within 270 (e + d)/s of the given one, entry by entry. No axis is returned if 2s + 4(e + d) is below 0.99 times the threshold, nor for any symmetric matrix. In f64, for matrices accurate to 2^-45 and s >= 2^-17, the errors are at most 2^-42/s, 2^-42/s and 2^-36/s; similar bounds hold in f32. The growth cannot be avoided with this code: for the rotation by 2^-28, given correctly rounded in f64, an axis is returned but the rotation built from axis and angle differs from the given one by more than 2^-29, whatever the library.", "quantifier": "every fine format, every axis and angle, every computed matrix near the rotation, every threshold of at least the rounding unit, every library with the stated accuracy", "why_tests_cant": "the inverse cosine amplifies rounding errors near 1 and -1, so the errors depend on the angle; tests sample a few angles far from these points", "anchors": ["crates/cglinalg_transform/src/rotation.rs:Rotation3::axis", "crates/cglinalg_transform/src/rotation.rs:Rotation3::angle", "crates/cglinalg_transform/src/rotation.rs:Rotation3::axis_angle"]}
{"id": "C97", "title": "Exponentials, logarithms and powers of quaternions in floating point", "statement": "Quaternion::exp, ln and powf have bounded errors. In every IEEE format of at least six digits, with a library whose sine, cosine, inverse cosine, exponential and logarithm have absolute errors of at most d, and a threshold t of at least the rounding unit: for a quaternion within e of h, with a real part of h between -1 and 1 and a vector part no longer than 3.9, exp is within 20e + 165d + 3t of the exponential series of h, component by component. For a quaternion within e of the quaternion of the rotation by an angle between 0 and a full turn about a unit vector a, with s the sine of half of the angle, ln is within 64(e + d)/s of half of the angle along a whenever s^2 >= 1000 (e + d); exp(ln q) is within 1445 (e + d)/s + 3t of q and powf(x), for exponents between -1 and 1, within 1525 (e + d)/s + 3t of the rotation by x times the angle whenever s^2 >= 10000 (e + d). When the vector part is below 0.99 t the logarithm of a quaternion near 1, and of one near -1, is zero up to the errors. In f64 with quaternions accurate to 2^-45 and s >= 2^-15 the errors of ln and of exp(ln q) and powf are at most 2^-38/s and 2^-34/s. The growth cannot be avoided with this code: the logarithm of (1, 0, 0, 2^-28), which is accurate to 2^-53, is zero up to 2^-45 whatever the library, so that the rotation is lost.", "quantifier": "every fine format, every axis and angle, every computed quaternion near the exact one, every exponent between -1 and 1, every threshold of at least the rounding unit, every library with the stated accuracy", "why_tests_cant": "the errors depend on the angle, because the inverse cosine amplifies rounding errors near 1 and -1 and the length of the vector part is a divisor; tests sample a few quaternions far from these points", "anchors": ["crates/cglinalg_core/src/quaternion.rs:exp", "crates/cglinalg_core/src/quaternion.rs:ln", "crates/cglinalg_core/src/quaternion.rs:powf"]}
{"id": "C98", "title": "Functions of complex numbers in floating point", "statement": "The functions of complex numbers have errors that are small relative to the size of the result. In every IEEE format of at least six digits, with a library whose functions have errors of at most d: for a number off the negative real axis whose modulus is in the safe range, sqrt is within 16 d |z|^(1/2) of the principal square root and cbrt within 16 d |z|^(1/3) of the principal cube root, ln is within 12 d (1 + |log |z||) of the principal logarithm, the polar decomposition has a modulus with a relative error of five rounding units and an argument with an error of d and rebuilds the number up to 10 d |z|, and powf(x) is within 69 d K |z|^x of the principal power, with K = 1 + |x| (1 + |log |z||). For every number of the safe range, the negative real numbers included, sqrt is within 16 d |z|^(1/2) of one of the two square roots. exp has an error of at most 5 d |exp z|, cosh and sinh of at most 5 d cosh(re z), cos and sin of at most 5 d cosh(im z), as long as these sizes neither overflow nor underflow; the product and the quotient of two numbers have errors of at most 7 and 17 rounding units times the modulus of the result. In f64 the bounds are 2^-46, 2^-47, 2^-43 K, 2^-50 and 2^-48 times these sizes, for moduli between 2^-499 and 2^510 (2^-400 and 2^400 for products and quotients) and for real and imaginary parts up to 600.", "quantifier": "every fine format, every complex number in the stated ranges, every exponent, every library with the stated accuracy", "why_tests_cant": "the bounds are relative and must hold over a thousand binary orders of magnitude and for all directions in the plane; tests sample a few numbers near one", "anchors": ["crates/cglinalg_core/src/complex.rs:sqrt", "crates/cglinalg_core/src/complex.rs:cbrt", "crates/cglinalg_core/src/complex.rs:ln", "crates/cglinalg_core/src/complex.rs:exp", "crates/cglinalg_core/src/complex.rs:powf", "crates/cglinalg_core/src/complex.rs:polar_decomposition", "crates/cglinalg_core/src/complex.rs:from_polar_decomposition", "crates/cglinalg_core/src/complex.rs:cosh", "crates/cglinalg_core/src/complex.rs:sinh", "crates/cglinalg_core/src/complex.rs:cos", "crates/cglinalg_core/src/complex.rs:sin", "crates/cglinalg_core/src/complex.rs:div", "crates/cglinalg_core/src/complex.rs:mul"]}
{"id": "C99", "title": "Projecting a point and back in f64", "statement": "In f64, projecting a point of the view volume and projecting the image back returns the point. For an orthographic box whose sides are at most L times smaller than its width, L' times smaller than its height and whose far plane is between 2 and N times as far as the near plane, the three coordinates return within 300 L, 300 L' and 1300 N units of 2^-53 times the width, the height, and the sum of the distances of the two planes. For a perspective frustum with distances of the planes in a ratio of at most N, a ratio of at most M between their sum and their difference, and sides at most L times smaller than the width, the depth returns with a relative error of at most 1400 N^2 M 2^-53 and the first coordinate within 2000 (N^2 M + L) 2^-53 times the width of the frustum at the depth of the point; so does the second coordinate when the top and the bottom are at the same distance (for other frustums it does not return even in exact arithmetic, C33). The results are finite numbers.", "quantifier": "every f64 view volume with parameters between 2^-90 and 2^90 and the stated ratios up to 2^30, every f64 point of the volume", "why_tests_cant": "the error is a composition of some thirty rounded operations and of parameters recovered from a rounded matrix; a test checks a few round trips with a tolerance chosen to pass", "anchors": ["crates/cglinalg_transform/src/projection.rs:Orthographic3", "crates/cglinalg_transform/src/projection.rs:project_point", "crates/cglinalg_transform/src/projection.rs:Perspective3", "crates/cglinalg_transform/src/projection.rs:unproject_point"]}
{"id": "C100", "title": "Integer powers and long products of complex numbers in floating point", "statement": "powu and powi terminate on floating point numbers and return the power with a relative error (of the complex number, against its modulus) of at most 13 (n - 1) rounding units for the exponent n >= 1, whenever the moduli of the number and of the power are away from the limits of the format: repeated squaring neither overflows on the way nor loses more than n - 1 multiplications in a row. In f64 this covers every u32 exponent and every positive i32 exponent, for moduli between 2^-1000 and 2^999. For the exponent -2^k, powi has a relative error of at most 39 * 2^k rounding units; for other negative exponents -2^k m with odd m it computes the power -2^k in floating point as it does in exact arithmetic (C37). More generally any product of n complex numbers, multiplied in any order, has a relative error of at most 13 (n - 1) rounding units if the intermediate results stay in range.", "quantifier": "every fine format, every complex number and exponent in the stated ranges, every order of multiplication of any number of factors", "why_tests_cant": "exponents range over 2^32 values, bases over a plane of floating point numbers, and the number of parenthesisations grows exponentially", "anchors": ["crates/cglinalg_core/src/complex.rs:powu", "crates/cglinalg_core/src/complex.rs:powi", "crates/cglinalg_core/src/complex.rs:mul", "crates/cglinalg_core/src/complex.rs:mul_assign"]}
{"id": "C101", "title": "Hyperbolic tangent and inverse hyperbolic sine of complex numbers in f64", "statement": "With a library accurate to 2^-50, tanh of a number with real part of at most 300 is within 2^-47 K^2 of the hyperbolic tangent, where K <= 2^30 bounds cosh(2x) / (cosh(2x) + cos(2y)), the cancellation in the denominator; tan likewise. From a real part of 356 on, tanh is not a number although the exact value is one to a thousand binary digits. asinh is within 2^-42 (1 + |Re a|) of the principal value a for every number up to 2^200 whose real part is at least the absolute value of its imaginary part, and for every number of modulus at most 1/2; asin likewise in the quadrant below the origin. On the other side it fails: asinh of -2^k is minus infinity for k from 27 to 240, and asin of 2^k i has an infinite imaginary part.", "quantifier": "every library that meets the accuracy, every finite f64 complex number in the stated regions", "why_tests_cant": "the functions take a plane of floating point numbers, and whether a sum cancels depends on the region, not on a sample", "anchors": ["crates/cglinalg_core/src/complex.rs:tanh", "crates/cglinalg_core/src/complex.rs:tan", "crates/cglinalg_core/src/complex.rs:asinh", "crates/cglinalg_core/src/complex.rs:asin"]}
{"id": "C102", "title": "Inverses, quotients and square roots of quaternions in f64", "statement": "The inverse of a finite quaternion of length 2^-499 to 2^500 exists when the length is at least twice the threshold, and is within 15 * 2^-53 of its own length of the quaternion whose products with the argument from either side are one; at half the threshold or less there is none. Left and right quotients are within 25 * 2^-53 of their length of the solutions of left * x = q and x * right = q, and multiplying them back by the divisor gives the dividend up to 35 * 2^-53 of its length. The square root is finite and within 70 K 2^-53 of its length of a quaternion with positive scalar part whose square is the argument, where K <= 2^30 bounds length / (length + scalar), the cancellation against a negative scalar part (K = 1 when the scalar is not negative); its f64 square gives the argument back up to 151 K 2^-53. Square roots of real numbers of either sign are within 19 * 2^-53, whatever the signs of the zeros.", "quantifier": "every finite f64 quaternion, divisor and threshold in the stated ranges, every library with the IEEE square root", "why_tests_cant": "the arguments form a space of four times 64 bits and the error depends on all of them", "anchors": ["crates/cglinalg_core/src/quaternion.rs:try_inverse_eps", "crates/cglinalg_core/src/quaternion.rs:div_left", "crates/cglinalg_core/src/quaternion.rs:div_right", "crates/cglinalg_core/src/quaternion.rs:sqrt_eps"]}
{"id": "C103", "title": "Inverses of matrices in f64 and f32, with overflow and underflow", "statement": "Let M bound the entries of an n by n matrix (n = 2, 3, 4) of finite numbers and let the absolute determinant be at least M^n / K. In f64 with 2^-200 <= M <= 2^200 and K <= 2^30, and in f32 with 2^-25 <= M <= 2^25 and K <= 11, try_inverse returns a matrix of finite numbers, and its entries are within C K^2 u / M of those of the exact two-sided inverse, u = 2^-53 or 2^-24 and C = 22, 317, 11405 for n = 2, 3, 4; the exact product of the matrix and the result in either order is the identity up to n M times that. A 1 by 1 matrix of a number between 2^-1000 and 2^1000 is inverted up to 3 * 2^-53 of the reciprocal. The range of sizes matters: 2^k times the 4 by 4 identity, whose inverse is representable, is rejected in f64 for -358 <= k <= -269 (f32: -49 to -38), and for 256 <= k <= 341 (f32: 32 to 42) try_inverse returns the zero matrix.", "quantifier": "every matrix of finite f64 or f32 numbers with entries and determinant in the stated ranges; every k in the stated ranges", "why_tests_cant": "up to sixteen numbers, cancellation in twenty-four products and the overflow of intermediate results: the bound is over all of them", "anchors": ["crates/cglinalg_core/src/matrix.rs:determinant", "crates/cglinalg_core/src/matrix.rs:try_inverse"]}
{"id": "C104", "title": "Whole numbers and fixed point numbers are computed without rounding", "statement": "When the components of the arguments are whole multiples of a power of two (of 2^g, with the exponents of the result between -1074 and 970 in f64, -149 and 103 in f32) and the sum of the absolute values of the products is at most 2^53 units (2^24 in f32), the dot product of vectors of any dimension, the cross product, products of matrices of any shape with matrices and vectors, and products of complex numbers and quaternions are exactly those of the integers; the length of a vector whose squared length is a perfect square is exact; a test for zero gives the right answer. Determinants of integer matrices with entries of at most B, n! B^n <= 2^53 (4401 for 4x4, 114501 for 3x3, 2^26 for 2x2; in f32 28, 140, 2896), are exact, try_inverse rejects exactly the singular ones, and when the determinant is plus or minus a power of two it returns the exact inverse and multiplying back gives exactly the identity. Any number of quarter turns and axis mirrors may be multiplied from either side without any rounding, and any number of Gaussian integers or integer quaternions as long as the product of their lengths is at most 2^52 or 2^51. The bound is sharp: the dot product of (2^53, 1) and (1, 1) is not exact.", "quantifier": "every vector, matrix, complex number and quaternion of whole multiples of a power of two in the stated bounds, every dimension and shape, every length of a history", "why_tests_cant": "exactness must hold for every combination of integers up to the bound and for histories of any length", "anchors": ["crates/cglinalg_core/src/vector.rs:dot", "crates/cglinalg_core/src/vector.rs:cross", "crates/cglinalg_core/src/vector.rs:norm", "crates/cglinalg_core/src/matrix.rs:determinant", "crates/cglinalg_core/src/matrix.rs:try_inverse", "crates/cglinalg_core/src/complex.rs:Mul", "crates/cglinalg_core/src/quaternion.rs:Mul"]}
{"id": "C105", "title": "Solving linear systems and undoing transformations in floating point", "statement": "Let the entries of a 2x2, 3x3 or 4x4 matrix A of f64 be finite and at most M in size, 2^-200 <= M <= 2^200, and let M^n <= K |det A| with K <= 2^30. For vectors with components of at most X, 2^-200 <= X <= 2^200: try_inverse finds an inverse B; B * (A * x) and A * (B * x), as computed, are finite and differ from x by at most 1100, 9300, 240000 (for n = 2, 3, 4) times K^2 2^-53 X in every component; B * b differs from the unique solution of A x = b by at most 180, 1800, 52000 times K^2 2^-53 X / M. The same round trip holds in f32 (2^-24, M and X between 2^-25 and 2^25, K <= 11). A general transform whose matrix has the bottom row 0 ... 0 1 undoes itself in f64: apply_point followed by inverse_apply_point never panics, finds an inverse and returns every coordinate within 10000 (plane) or 2^18 (space) times K^2 2^-53 X, where X >= 1 bounds the coordinates and K <= 2^16; apply_vector and inverse_apply_vector undo each other in either order with the errors of the matrices.", "quantifier": "every matrix with a determinant of at least M^n / K, every transform with such a matrix and the bottom row 0 ... 0 1, every vector, right hand side and point in the stated ranges", "why_tests_cant": "the errors of the inverse, of both products and of the division by the homogeneous coordinate add up, and the worst case over all matrices and vectors is not found by sampling", "anchors": ["crates/cglinalg_core/src/matrix.rs:try_inverse", "crates/cglinalg_core/src/matrix.rs:Mul", "crates/cglinalg_transform/src/transform.rs:apply_point", "crates/cglinalg_transform/src/transform.rs:inverse_apply_point", "crates/cglinalg_transform/src/transform.rs:apply_vector", "crates/cglinalg_transform/src/transform.rs:inverse_apply_vector"]}
{"id": "C106", "title": "Products of any number of matrices in f64 and f32, in any bracketing", "statement": "Let k square matrices of finite f64 numbers of dimension n be multiplied with *, with the brackets in any place, and let the products of the bounds of their Euclidean operator norms in every pair of brackets lie between 2^-1000 and 2^999. While 10 n^2 k 2^-53 <= 1 every entry of the result is finite and the result differs from the exact product, in the operator norm, by at most 10 n^2 k 2^-53 times the product of the norms. The same holds for the image of a vector, in Euclidean length, whether the matrices are multiplied first, the vector goes through one after the other, or anything in between; two ways of evaluating the same expression differ by at most twice that. Composing and applying general transforms whose matrices have the bottom row 0 ... 0 1 to a point never panics, and every coordinate is as near to the exact image. In f32 the same with 2^-24 and the range 2^-126 to 2^125. A matrix with columns that are orthonormal up to d has a norm of at most 1 + d, so that the error of a long product of rotations grows linearly.", "quantifier": "every dimension up to 10^6 (f64) or 1000 (f32), every number of factors up to the stated limit, every placement of brackets, every matrix, vector and point in the stated ranges", "why_tests_cant": "the number of placements of brackets grows exponentially with the number of factors, and the worst error over all matrices is not found by sampling", "anchors": ["crates/cglinalg_core/src/matrix.rs:Mul", "crates/cglinalg_transform/src/transform.rs:Mul", "crates/cglinalg_transform/src/transform.rs:apply_point", "crates/cglinalg_core/src/point.rs:from_homogeneous"]}
{"id": "C107", "title": "Reflections and shears in f64 and f32", "statement": "Let v be a vector of finite f64 numbers with a length between 2^-499 and 2^510, and let b and p be points with coordinates of a length of at most X, 2^-1000 <= X <= 2^990, in a dimension n up to a million. The reflection made from the normalized v and b takes p to a point whose coordinates are finite and within 180 n 2^-53 X of those of the exact mirror image in the plane through b at right angles to v, whatever the length of v, and applying it twice (or applying the inverse, which is the same function) returns every coordinate of p within 1050 n^2 2^-53 X. Vectors are mirrored as accurately, in the parallel plane through the origin. A shear by a factor of at most k >= 1, with a direction and a normal of about unit length and an origin of a length of at most X, takes p to a point within 40 n 2^-53 k X of the exact one, and so does its inverse; the two undo each other, in either order, within 210 n^2 2^-53 k^2 X plus 3 |d . m| k^2 X, where d . m is the exact dot product of the direction and the normal, which is zero for the shears along the axes. In f32 the same with 2^-24 for dimensions up to 60 and sizes from 2^-126 to 2^116.", "quantifier": "every dimension up to 10^6 (f64) or 60 (f32), every normal, point on the plane, shear factor, origin, direction and every point or vector in the stated ranges", "why_tests_cant": "the bounds must hold for every combination of normals, factors and points, where cancellation makes the worst cases rare; samples do not find them", "anchors": ["crates/cglinalg_transform/src/reflection.rs:apply_point", "crates/cglinalg_transform/src/reflection.rs:apply_vector", "crates/cglinalg_transform/src/reflection.rs:inverse_apply_point", "crates/cglinalg_transform/src/shear.rs:apply_point", "crates/cglinalg_transform/src/shear.rs:inverse_apply_point"]}
{"id": "C108", "title": "Products, norms, distances, interpolation and projections of vectors in f64 and f32", "statement": "For vectors of finite f64 numbers in any dimension n up to a million: a dot product is within 5 n 2^-53 X Y of the exact one, where X and Y bound the lengths and 2^-1000 <= X Y <= 2^1000; the L1 norm has a relative error of at most 5 n 2^-53; the Linf norm is exact, in every format; the distance of two vectors or points has a relative error of at most (n + 6) 2^-53, even if they are very near to each other and far from the origin, as long as it lies between 2^-498 and 2^509; lerp by an amount of at most one in size is, in every component, within 16 2^-53 of the largest component of the exact value, and by the amount zero it gives the first vector exactly; the projection of a vector to another of a length between 2^-490 and 2^490 is within 20 n 2^-53 X of the exact one; reflect is within 180 n 2^-53 X of the exact mirror image for a normal of any length between 2^-499 and 2^510. In three dimensions a cross product is within 9 2^-53 X Y of the exact one in every component, and a triple product within 45 2^-53 X Y Z. In f32 the same holds with 2^-24, dimensions up to 60 and correspondingly smaller ranges.", "quantifier": "every dimension up to 10^6 (f64) or 60 (f32), every vector, point and amount in the stated ranges", "why_tests_cant": "cancellation makes the largest errors rare among random vectors, and the bounds must hold for every dimension", "anchors": ["crates/cglinalg_core/src/vector.rs:dot", "crates/cglinalg_core/src/vector.rs:l1_norm", "crates/cglinalg_core/src/vector.rs:linf_norm", "crates/cglinalg_core/src/vector.rs:metric_distance", "crates/cglinalg_core/src/vector.rs:lerp", "crates/cglinalg_core/src/vector.rs:project", "crates/cglinalg_core/src/vector.rs:reflect", "crates/cglinalg_core/src/vector.rs:cross", "crates/cglinalg_core/src/vector.rs:triple"]}
{"id": "C109", "title": "Similarities composed, applied and undone in f64 and f32", "statement": "Similarities of finite f64 numbers in any dimension n up to a million, multiplied in any bracketing and applied to a point one after the other, take it to finite coordinates within 30 n^2 k 2^-53 R of the exact image, where k is the number of similarities and R is how far from the origin they can take a point at the given distance, computed from the norms of the rotations, the scales and the lengths of the translations; so two ways of evaluating the same composition agree within 60 n^2 k 2^-53 R. inverse_apply_point after apply_point brings a point p with |p| <= X back within 60 n^2 2^-53 N (N X + 2 T / |scale|) + d X, where N is the norm of the matrix of the rotation, T the length of the translation and d the distance of the matrix from orthogonality; apply_point after inverse_apply_point within 60 n^2 2^-53 (N^2 (X + T) + T) + d (X + T). inverse does not panic and returns a similarity that takes a point to within 40 n^2 2^-53 N (X + T) / |scale| of scale^-1 R^T (p - t), and inverse_apply_point comes within 30 n^2 2^-53 N (X + T) / |scale| of it. apply_vector is within 20 n^2 2^-53 N |scale| X of the scaled and turned vector, and inverse_apply_vector brings it back within 40 n^2 2^-53 N^2 X + d X. The sizes of the numbers in between must lie between 2^-1000 and 2^999. In f32 the same holds with 2^-24, smaller dimensions and ranges.", "quantifier": "every list of products of any number of similarities with any brackets, every dimension, every point and every similarity in the stated ranges", "why_tests_cant": "the error depends on the number of factors, on the order of evaluation and on cancellation between translations; no sample of compositions bounds it", "anchors": ["crates/cglinalg_transform/src/similarity.rs:apply_point", "crates/cglinalg_transform/src/similarity.rs:inverse_apply_point", "crates/cglinalg_transform/src/similarity.rs:Mul", "crates/cglinalg_transform/src/similarity.rs:inverse", "crates/cglinalg_transform/src/similarity.rs:apply_vector", "crates/cglinalg_transform/src/similarity.rs:inverse_apply_vector"]}
{"id": "C110", "title": "Products, norms, distances, trace and interpolation of matrices of every shape in f64 and f32", "statement": "For matrices of finite f64 numbers with R rows and C columns: dot is within 5 R C 2^-53 X Y of the sum of the products of the entries, and tr_dot within the same distance of the trace of the product, where X and Y bound the Frobenius norms; every entry of a product of matrices of fitting shapes, of tr_mul and of a matrix times a vector is within 5 K 2^-53 X Y of the exact one, where K is the number of terms and X and Y bound the lengths of the rows and columns; the trace is within 5 N 2^-53 of the sum of the absolute values of the diagonal; l1_norm and linf_norm are within 5 R 2^-53 and 5 C 2^-53, relatively, of the largest column and row sum; norm is within R C + 3 roundings of the Frobenius norm and normalize gives a matrix with a norm within R C + 7 roundings of one; metric_distance has a relative error of at most R C + 6 roundings also when the matrices nearly cancel; lerp by an amount of at most one in size is within 16 roundings of the largest entry and the amount zero gives the first matrix exactly. Nothing overflows within the stated ranges. In f32 the same holds with 2^-24, smaller shapes and ranges.", "quantifier": "every shape up to the stated sizes and every matrix of finite numbers in the stated ranges", "why_tests_cant": "the errors depend on the shape, on the order of the sums, on cancellation and on overflow and underflow in between; no sample of matrices bounds them", "anchors": ["crates/cglinalg_core/src/matrix.rs:dot", "crates/cglinalg_core/src/matrix.rs:tr_dot", "crates/cglinalg_core/src/matrix.rs:tr_mul", "crates/cglinalg_core/src/matrix.rs:trace", "crates/cglinalg_core/src/matrix.rs:norm", "crates/cglinalg_core/src/matrix.rs:l1_norm", "crates/cglinalg_core/src/matrix.rs:linf_norm", "crates/cglinalg_core/src/matrix.rs:metric_distance", "crates/cglinalg_core/src/matrix.rs:lerp", "crates/cglinalg_core/src/matrix.rs:normalize"]}
{"id": "C111", "title": "Products of any number of quaternions of any size in f64 and f32, in whatever way they are bracketed", "statement": "For a product of K quaternions with finite f64 components, of any norms and bracketed in any way, whose exact partial products all have norms between 2^-1000 and 2^999: the components of the result are finite, and it differs from the exact product of the real quaternions, taken in the order they are written, by at most 68 K 2^-53 times the norm of the exact product, for K up to 10^14. Two ways of bracketing the same factors differ by at most twice that. squared is within 34 roundings, relatively, of the exact square; conjugate and negation are exact; dot is within 20 roundings of the product of the norms; metric_distance is within ten roundings, relatively, of the distance, also when the quaternions nearly cancel. In f32 the bound for products is 68 K 2^-24, for K up to 200000 and norms between 2^-126 and 2^125.", "quantifier": "every number of factors up to the stated bound, every bracketing, every quaternion with finite components in the stated range", "why_tests_cant": "the error builds up with the number of factors and depends on the bracketing, on cancellation inside each component, and on overflow and underflow of the partial products; no sample of products bounds it", "anchors": ["crates/cglinalg_core/src/quaternion.rs:Mul for Quaternion", "crates/cglinalg_core/src/quaternion.rs:squared", "crates/cglinalg_core/src/quaternion.rs:conjugate", "crates/cglinalg_core/src/quaternion.rs:dot", "crates/cglinalg_core/src/quaternion.rs:metric_distance"]}
{"id": "C112", "title": "Inner and outer products, projections, interpolation and conjugate products of quaternions of any size in f64 and f32", "statement": "For quaternions q and r with finite f64 components and norms of at most X and Y, with 2^-1000 <= X Y <= 2^999: inner is within 50 X Y 2^-53 of (q r + r q) / 2 and outer within the same distance of (q r - r q) / 2, as real quaternions. The outer product of a quaternion with itself is exactly zero whenever its square does not overflow. A quaternion times its conjugate, in either order, has a vector part of exactly zero, and for norms between 2^-500 and 2^499 is within 34 roundings, relatively, of the square of the norm. lerp by an amount of at most one in size is within 50 roundings of the larger norm, and the amount zero gives the first quaternion exactly. project and reject are within 160 and 170 roundings of the norm of q of the exact projection of q to the line through r and of the rest, for norms of r between 2^-490 and 2^490. In f32 inner, outer, lerp, project and reject satisfy the same bounds with 2^-24, in smaller ranges.", "quantifier": "every pair of quaternions with finite components in the stated ranges, every amount of at most one in size", "why_tests_cant": "the errors depend on cancellation between the two orders of the product and on overflow and underflow in between; that terms cancel exactly for every quaternion is not visible on samples", "anchors": ["crates/cglinalg_core/src/quaternion.rs:inner", "crates/cglinalg_core/src/quaternion.rs:outer", "crates/cglinalg_core/src/quaternion.rs:project", "crates/cglinalg_core/src/quaternion.rs:reject", "crates/cglinalg_core/src/quaternion.rs:lerp", "crates/cglinalg_core/src/quaternion.rs:conjugate"]}
{"id": "C113", "title": "Expressions of any size of products, inverses, quotients, conjugates and negations of quaternions in f64 and f32", "statement": "Take any expression built from quaternions with finite f64 components by multiplication, try_inverse, div_left, div_right, conjugate and negation. If the exact values of all of its parts have norms between 2^-490 and 2^490 and nothing smaller than four times the threshold is inverted, then no inverse is refused, nothing overflows, and the result differs from the exact value, computed with real quaternions, by at most 70 K 2^-53 times the norm of the exact value, where K is the number of products and inverses, up to 10^14. Two expressions with the same exact value, such as the inverse of a product and the product of the inverses in the opposite order, agree up to the sum of these bounds. In f32 the same holds with 2^-24, norms between 2^-60 and 2^60 and K up to 200000.", "quantifier": "every expression of every size up to the stated bound, every quaternion with finite components in the stated range, every non-negative finite threshold", "why_tests_cant": "there is no bound on the shape of the expression; errors of inverses are fed into products and the other way round, and an inverse of an inaccurate value could amplify its error or be refused", "anchors": ["crates/cglinalg_core/src/quaternion.rs:Mul for Quaternion", "crates/cglinalg_core/src/quaternion.rs:try_inverse", "crates/cglinalg_core/src/quaternion.rs:div_left", "crates/cglinalg_core/src/quaternion.rs:div_right", "crates/cglinalg_core/src/quaternion.rs:conjugate", "crates/cglinalg_core/src/quaternion.rs:Neg for Quaternion"]}
{"id": "C114", "title": "Expressions of any size of products, quotients, inverses, powers, conjugates and negations of complex numbers in f64 and f32", "statement": "Take any expression built from complex numbers with finite f64 parts by *, *=, /, /=, try_inverse, powu, conjugate and negation. If the exact values of all of its parts have moduli between 2^-490 and 2^490 and exponents are positive, then no inverse is refused, every power terminates, nothing overflows, and the result differs from the exact value, computed with the complex numbers, by at most 52 K 2^-53 times the modulus of the exact value, where K is the number of products, quotients and inverses and a power counts as products of copies of its base, up to 10^14. Two expressions with the same exact value, such as a / b and the product of a and the inverse of b, agree up to the sum of these bounds. In f32 the same holds with 2^-24, moduli between 2^-60 and 2^60 and K up to 300000.", "quantifier": "every expression of every size up to the stated bound, every complex number with finite parts in the stated range, every positive exponent", "why_tests_cant": "there is no bound on the shape of the expression; errors of quotients, inverses and powers are fed into each other, and an inverse of an inaccurate value could amplify its error or be refused", "anchors": ["crates/cglinalg_core/src/complex.rs:Mul for Complex", "crates/cglinalg_core/src/complex.rs:MulAssign for Complex", "crates/cglinalg_core/src/complex.rs:Div for Complex", "crates/cglinalg_core/src/complex.rs:DivAssign for Complex", "crates/cglinalg_core/src/complex.rs:try_inverse", "crates/cglinalg_core/src/complex.rs:powu", "crates/cglinalg_core/src/complex.rs:conjugate", "crates/cglinalg_core/src/complex.rs:Neg for Complex"]}
