import Verif.Props.C73_Actions
import Verif.Props.C25_Reflection
import Verif.Props.C55_RotationAngle
import Verif.Props.C49_Euler
import Verif.Props.C18_Inverse
import Verif.Props.C20_Trace
import Verif.Props.Misc_Core

/-! # C77: the laws sampled by the property tests of the transformations

Each theorem names the test file and the lines of the laws it settles (crates/cglinalg_transform/tests unless another
crate is named).  The tests draw isometries, rotations and similarities from the crate's constructors; the theorems take
any value whose rotation matrix is a rotation (C54, C56 and C57 prove this of everything the API builds). -/

namespace Cgl
open Mat

variable {n : ℕ}

/-! ### isometries, rotations and similarities -/

private theorem vec_norm {m : ℕ} (A : Mat ℝ m m) (h : A.transpose * A = identity) (v : Vec ℝ m) : (A * v).norm = v.norm :=
  (C54_distance ⟨A⟩ h ⟨v⟩ ⟨v⟩ v).2

/-- spec_isometry.rs 224-336 -/
theorem C77_isometry (m : Isometry ℝ n) (h : Spec.IsRotation m.rotation.matrix) (p : Pt ℝ n) (v : Vec ℝ n) :
    (m * v).norm = v.norm ∧
    m * m.inverse = m.inverse * m ∧ m * m.inverse = Isometry.identity ∧ m.inverse * m = Isometry.identity ∧
    m * (m.inverse * p) = p ∧ m.inverse * (m * p) = p ∧ m * (m.inverse * v) = v ∧ m.inverse * (m * v) = v := by
  obtain ⟨a, b⟩ := C56_inverse m h.transpose_mul
  obtain ⟨c, d, e, f⟩ := C56_inverse_undoes m p v h.transpose_mul
  have ip : ∀ q : Pt ℝ n, m.inverseApplyPoint q = m.inverse.applyPoint q := fun q => (C56_inverse_apply m q v).1
  have iv : ∀ w : Vec ℝ n, m.inverseApplyVector w = m.inverse.applyVector w := fun w => (C56_inverse_apply m p w).2
  rw [ip] at c d; rw [iv] at e f
  refine ⟨?_, by rw [a, b], b, a, d, c, f, e⟩
  show (m.applyVector v).norm = _
  rw [(C56_apply m p v).2]
  exact vec_norm _ h.transpose_mul v

/-- spec_isometry.rs 345-400 -/
theorem C77_isometry_angles (axis : Unit' (Vec ℝ 3)) (h : axis.value.norm = 1) (a b : Radians ℝ) :
    Isometry.fromAngle2 a * Isometry.fromAngle2 b = Isometry.fromAngle2 (a + b) ∧
    Isometry.fromAxisAngle axis a * Isometry.fromAxisAngle axis b = Isometry.fromAxisAngle axis (a + b) := by
  have h1 : axis.value.dot axis.value = 1 := by show Vec.normSquared _ = 1; rw [← Vec.norm_sq, h, one_pow]
  constructor <;> apply Isometry.ext_parts
  · exact C26_angle2_compose a b
  · rw [(Isometry.mul_parts _ _).2]
    show (0 : Vec ℝ 2) + Mat.fromAngle2 a * (0 : Vec ℝ 2) = 0
    ext i; simp [Mat.mulVec_data]
  · exact C26_axis_angle_compose b h1 a
  · rw [(Isometry.mul_parts _ _).2]
    show (0 : Vec ℝ 3) + Mat.fromAxisAngle3 axis a * (0 : Vec ℝ 3) = 0
    ext i; simp [Mat.mulVec_data]

/-- spec_rotation.rs 191-351 -/
theorem C77_rotation (r : Rotation ℝ n) (r2 : Rotation ℝ 2) (r3 : Rotation ℝ 3) (h : Spec.IsRotation r.matrix)
    (h2 : Spec.IsRotation r2.matrix) (h3 : Spec.IsRotation r3.matrix) (p : Pt ℝ n) (v : Vec ℝ n) :
    r2.matrix.determinant2 = 1 ∧ r3.matrix.determinant3 = 1 ∧ (r * v).norm = v.norm ∧
    r * r.inverse = r.inverse * r ∧ r * r.inverse = Rotation.identity ∧ r.inverse * r = Rotation.identity ∧
    r * (r.inverse * p) = p ∧ r.inverse * (r * p) = p ∧ r * (r.inverse * v) = v ∧ r.inverse * (r * v) = v := by
  obtain ⟨a, b, c, d, e, f⟩ := C54_inverse r p v h.transpose_mul
  exact ⟨by rw [C17_det2, h2.det_one], by rw [C17_det3, h3.det_one], vec_norm _ h.transpose_mul v, by rw [a, b], b, a, f, e,
    d, c⟩

/-- spec_rotation.rs 360-415 -/
theorem C77_rotation_angles (axis : Unit' (Vec ℝ 3)) (h : axis.value.norm = 1) (a b : Radians ℝ) :
    Rotation.fromAngle2 a * Rotation.fromAngle2 b = Rotation.fromAngle2 (a + b) ∧
    Rotation.fromAxisAngle axis a * Rotation.fromAxisAngle axis b = Rotation.fromAxisAngle axis (a + b) := by
  have h1 : axis.value.dot axis.value = 1 := by show Vec.normSquared _ = 1; rw [← Vec.norm_sq, h, one_pow]
  exact ⟨by ext1; exact C26_angle2_compose a b, by ext1; exact C26_axis_angle_compose b h1 a⟩

/-- spec_rotation.rs 424-440: the angle read back differs from the angle given by a whole number of turns -/
theorem C77_rotation_angle (a : Radians ℝ) :
    ∃ k : ℤ, (((Rotation.fromAngle2 a).angle2 - a) / (⟨2 * Real.pi⟩ : Radians ℝ) : ℝ) = k := by
  obtain ⟨k, h, -⟩ := C55_angle2 a
  refine ⟨-k, ?_⟩
  show (((Rotation.fromAngle2 a).angle2).val - a.val) / (2 * Real.pi) = _
  rw [h]; push_cast
  field_simp [Real.pi_pos.ne']
  ring

/-- spec_similarity.rs 244-361; the last conjunct is the half of 310-331 that the test leaves out -/
theorem C77_similarity (m : Similarity ℝ n) (h : Spec.IsRotation m.rotation.matrix) (hs : m.scale ≠ 0) (p : Pt ℝ n)
    (v : Vec ℝ n) :
    (m * v).norm = |m.scale| * v.norm ∧
    ∃ m', m.inverse = .ok m' ∧ m * m' = m' * m ∧ m * m' = Similarity.identity ∧ m' * m = Similarity.identity ∧
      m * (m' * p) = p ∧ m * (m' * v) = v ∧ m' * (m * v) = v ∧ m' * (m * p) = p := by
  refine ⟨(C57_distance m h.transpose_mul p p v v).2.1, ?_⟩
  obtain ⟨s, hs', a, b⟩ := C57_inverse m h.transpose_mul hs
  have cp := fun (x y : Similarity ℝ n) => (C57_compose x y p v).1
  have cv := fun (x y : Similarity ℝ n) => (C57_compose x y p v).2
  obtain ⟨-, -, ip, iv⟩ := C57_identity (K := ℝ) (n := n) Similarity.identity p v
  refine ⟨s, hs', by rw [a, b], b, a, ?_, ?_, ?_, ?_⟩
  · exact (cp m s).symm.trans (by rw [b]; exact ip)
  · exact (cv m s).symm.trans (by rw [b]; exact iv)
  · exact (cv s m).symm.trans (by rw [a]; exact iv)
  · exact (cp s m).symm.trans (by rw [a]; exact ip)

/-- spec_similarity.rs 370-425 -/
theorem C77_similarity_angles (axis : Unit' (Vec ℝ 3)) (h : axis.value.norm = 1) (a b : Radians ℝ) :
    Similarity.fromAngle2 a * Similarity.fromAngle2 b = Similarity.fromAngle2 (a + b) ∧
    Similarity.fromAxisAngle axis a * Similarity.fromAxisAngle axis b = Similarity.fromAxisAngle axis (a + b) := by
  have h1 : axis.value.dot axis.value = 1 := by show Vec.normSquared _ = 1; rw [← Vec.norm_sq, h, one_pow]
  constructor <;> apply Similarity.ext_parts
  · exact C26_angle2_compose a b
  · rw [(Similarity.mul_parts _ _).2.1]
    show (0 : Vec ℝ 2) + (Mat.fromAngle2 a * (0 : Vec ℝ 2)) * (1 : ℝ) = 0
    ext i; simp [Mat.mulVec_data]
  · exact mul_one (1 : ℝ)
  · exact C26_axis_angle_compose b h1 a
  · rw [(Similarity.mul_parts _ _).2.1]
    show (0 : Vec ℝ 3) + (Mat.fromAxisAngle3 axis a * (0 : Vec ℝ 3)) * (1 : ℝ) = 0
    ext i; simp [Mat.mulVec_data]
  · exact mul_one (1 : ℝ)

example (a : Radians ℝ) (v : Vec ℝ 2) : (Isometry.fromAngle2 a * v).norm = v.norm :=
  (C77_isometry (Isometry.fromAngle2 a) (C26_angle2_rotation a) Pt.origin v).1
example (a : Radians ℝ) (v : Vec ℝ 2) :
    (Similarity.fromParts (Translation.new2 1 2) (Rotation.fromAngle2 a) (-3) * v).norm = 3 * v.norm :=
  (C77_similarity (Similarity.fromParts (Translation.new2 1 2) (Rotation.fromAngle2 a) (-3)) (C26_angle2_rotation a)
    (by show (-3 : ℝ) ≠ 0; norm_num) Pt.origin v).1.trans (by rw [show |(Similarity.fromParts (Translation.new2 1 2)
      (Rotation.fromAngle2 a) (-3)).scale| = (3 : ℝ) from by show |(-3 : ℝ)| = 3; norm_num])

/-! ### reflections and shears -/

section Ring
variable {K : Type*} [CommRing K]

/-- spec_reflection.rs 186-224 -/
theorem C77_reflection_determinant (r : Reflection K 2) (s : Reflection K 3) (h : r.normal.dot r.normal = 1)
    (h' : s.normal.dot s.normal = 1) :
    r.toAffineMatrix2.determinant3 = -1 ∧ s.toAffineMatrix3.determinant4 = -1 := by
  rw [Vec.dot2] at h; rw [Vec.dot3] at h'
  constructor
  · simp [Reflection.toAffineMatrix2, determinant3, fromAffineReflection3]; linear_combination (-2) * h
  · simp [Reflection.toAffineMatrix3, determinant4, fromAffineReflection4]; linear_combination (-2) * h'

/-- spec_reflection.rs 256-303 -/
theorem C77_reflection_involution (r : Reflection K n) (h : r.normal.dot r.normal = 1) (p : Pt K n) (v : Vec K n) :
    r * (r * p) = p ∧ r * (r * v) = v :=
  ⟨(C73_reflection r h p v).1, (C73_reflection r h p v).2.1⟩

/-- spec_shear.rs 405-435 -/
theorem C77_shear_inverse (s : Shear K n) (h : s.direction.dot s.normal = 0) (p : Pt K n) (v : Vec K n) :
    s.inverseApplyPoint (s.applyPoint p) = p ∧ s.inverseApplyVector (s.applyVector v) = v :=
  ⟨(C59_shear_inverse s p v h).1, (C59_shear_inverse s p v h).2.2.1⟩

/-- spec_shear.rs 405-435, for the shears those tests draw -/
theorem C77_shear_axis_inverse (k : K) (p : Pt K 2) (v : Vec K 2) (q : Pt K 3) (w : Vec K 3) :
    (∀ s ∈ [Shear.fromShearXY2 k, Shear.fromShearYX2 k],
      s.inverseApplyPoint (s.applyPoint p) = p ∧ s.inverseApplyVector (s.applyVector v) = v) ∧
    ∀ s ∈ [Shear.fromShearXY3 k, Shear.fromShearXZ3 k, Shear.fromShearYX3 k, Shear.fromShearYZ3 k, Shear.fromShearZX3 k,
      Shear.fromShearZY3 k], s.inverseApplyPoint (s.applyPoint q) = q ∧ s.inverseApplyVector (s.applyVector w) = w := by
  constructor <;> intro s hs <;> apply C77_shear_inverse <;>
    simp only [List.mem_cons, List.not_mem_nil, or_false] at hs
  · rcases hs with h | h <;> subst h <;>
      simp [Shear.fromShearXY2, Shear.fromShearYX2, Vec.dot2, Vec.unitX2,
        Vec.unitY2]
  · rcases hs with h | h | h | h | h | h <;> subst h <;>
      simp [Shear.fromShearXY3, Shear.fromShearXZ3, Shear.fromShearYX3, Shear.fromShearYZ3, Shear.fromShearZX3,
        Shear.fromShearZY3, Vec.dot3, Vec.unitX3, Vec.unitY3, Vec.unitZ3]

end Ring

/-- spec_reflection.rs 232-247 -/
theorem C77_reflection_norm (r : Reflection ℝ n) (h : r.normal.dot r.normal = 1) (v : Vec ℝ n) : (r * v).norm = v.norm := by
  rw [Vec.norm_def, Vec.norm_def]; congr 1; exact C59_reflection_dot r v h v

section Shear
private theorem unit_value {m : ℕ} {v : Vec ℝ m} (h : v.norm = 1) : (Unit'.fromValue v).value = v := by
  show v.normalize = v
  rw [Vec.normalize_def, h]; ext i; simp

variable (s : Shear ℝ 2) (t : Shear ℝ 3) (hd : s.direction.norm = 1) (hn : s.normal.norm = 1)
  (h : s.direction.dot s.normal = 0) (hd' : t.direction.norm = 1) (hn' : t.normal.norm = 1)
  (h' : t.direction.dot t.normal = 0)
include hd hn h hd' hn' h'

/-- spec_shear.rs 279-360 -/
theorem C77_shear_trace_determinant : s.toAffineMatrix2.trace = 3 ∧ t.toAffineMatrix3.trace = 4 ∧
    s.toAffineMatrix2.determinant3 = 1 ∧ t.toAffineMatrix3.determinant4 = 1 := by
  rw [Vec.dot2] at h; rw [Vec.dot3] at h'
  simp only [Shear.toAffineMatrix2, Shear.toAffineMatrix3, fromAffineShear3, fromAffineShear4, unit_value hd, unit_value hn,
    unit_value hd', unit_value hn']
  refine ⟨?_, ?_, ?_, ?_⟩
  · rw [C20_trace_value]; simp [Fin.sum_univ_three]; linear_combination s.shearFactor * h
  · rw [C20_trace_value]; simp [Fin.sum_univ_four]; linear_combination t.shearFactor * h'
  · simp [determinant3]; linear_combination s.shearFactor * h
  · simp [determinant4]; linear_combination t.shearFactor * h'

/-- spec_shear.rs 370-397: the matrix of a shear is symmetric only when the shear is the identity -/
theorem C77_shear_asymmetric :
    (s.toAffineMatrix2.isSymmetric (fun a b => decide (a = b)) = true ↔ s.shearFactor = 0) ∧
    (t.toAffineMatrix3.isSymmetric (fun a b => decide (a = b)) = true ↔ t.shearFactor = 0) := by
  have u : s.normal.dot s.normal = 1 := by show Vec.normSquared _ = 1; rw [← Vec.norm_sq, hn, one_pow]
  have u' : t.normal.dot t.normal = 1 := by show Vec.normSquared _ = 1; rw [← Vec.norm_sq, hn', one_pow]
  have w : s.direction.dot s.direction = 1 := by show Vec.normSquared _ = 1; rw [← Vec.norm_sq, hd, one_pow]
  have w' : t.direction.dot t.direction = 1 := by show Vec.normSquared _ = 1; rw [← Vec.norm_sq, hd', one_pow]
  rw [Vec.dot2] at h u w; rw [Vec.dot3] at h' u' w'
  simp only [C20_is_symmetric, decide_eq_true_eq, Shear.toAffineMatrix2, Shear.toAffineMatrix3, fromAffineShear3,
    fromAffineShear4, unit_value hd, unit_value hn, unit_value hd', unit_value hn']
  refine ⟨⟨fun e => ?_, fun e c r _ => ?_⟩, ⟨fun e => ?_, fun e c r _ => ?_⟩⟩
  · have e10 := e 1 0 (by decide)
    simp at e10
    have : s.shearFactor ^ 2 = 0 := by grind
    exact pow_eq_zero_iff (two_ne_zero) |>.mp this
  · fin_cases c <;> fin_cases r <;> simp [e]
  · have e10 := e 1 0 (by decide)
    have e20 := e 2 0 (by decide)
    have e21 := e 2 1 (by decide)
    simp at e10 e20 e21
    have : t.shearFactor ^ 2 = 0 := by
      have l : (t.direction.data 0 * t.normal.data 1 - t.direction.data 1 * t.normal.data 0) ^ 2 +
        (t.direction.data 0 * t.normal.data 2 - t.direction.data 2 * t.normal.data 0) ^ 2 +
        (t.direction.data 1 * t.normal.data 2 - t.direction.data 2 * t.normal.data 1) ^ 2 = 1 := by grind
      grind
    exact pow_eq_zero_iff (two_ne_zero) |>.mp this
  · fin_cases c <;> fin_cases r <;> simp [e]

/-- with a tolerance: a shear whose matrix counts as symmetric has a factor of the order of the tolerance -/
theorem C77_shear_asymmetric_tolerance (eq : ℝ → ℝ → Bool) (tol : ℝ) (he : ∀ a b, eq a b = true → |a - b| ≤ tol) :
    (s.toAffineMatrix2.isSymmetric eq = true → |s.shearFactor| ≤ tol) ∧
    (t.toAffineMatrix3.isSymmetric eq = true → |t.shearFactor| ≤ 2 * tol) := by
  have u : s.normal.dot s.normal = 1 := by show Vec.normSquared _ = 1; rw [← Vec.norm_sq, hn, one_pow]
  have u' : t.normal.dot t.normal = 1 := by show Vec.normSquared _ = 1; rw [← Vec.norm_sq, hn', one_pow]
  have w : s.direction.dot s.direction = 1 := by show Vec.normSquared _ = 1; rw [← Vec.norm_sq, hd, one_pow]
  have w' : t.direction.dot t.direction = 1 := by show Vec.normSquared _ = 1; rw [← Vec.norm_sq, hd', one_pow]
  rw [Vec.dot2] at h u w; rw [Vec.dot3] at h' u' w'
  simp only [C20_is_symmetric, Shear.toAffineMatrix2, Shear.toAffineMatrix3, fromAffineShear3,
    fromAffineShear4, unit_value hd, unit_value hn, unit_value hd', unit_value hn']
  have sq : ∀ {x : ℝ}, |x| ≤ tol → x ^ 2 ≤ tol ^ 2 := fun hx => by
    rw [← sq_abs]; exact pow_le_pow_left₀ (abs_nonneg _) hx 2
  constructor
  · intro e
    have e10 := he _ _ (e 1 0 (by decide))
    have t0 : 0 ≤ tol := (abs_nonneg _).trans e10
    simp at e10
    have q := sq e10
    refine abs_le_of_sq_le_sq ?_ t0
    have l : (s.shearFactor * s.direction.data 0 * s.normal.data 1 - s.shearFactor * s.direction.data 1 * s.normal.data 0) ^ 2
      = s.shearFactor ^ 2 := by grind
    linarith
  · intro e
    have e10 := he _ _ (e 1 0 (by decide))
    have e20 := he _ _ (e 2 0 (by decide))
    have e21 := he _ _ (e 2 1 (by decide))
    have t0 : 0 ≤ tol := (abs_nonneg _).trans e10
    simp at e10 e20 e21
    have q1 := sq e10
    have q2 := sq e20
    have q3 := sq e21
    refine abs_le_of_sq_le_sq ?_ (by linarith)
    have l : (t.shearFactor * t.direction.data 0 * t.normal.data 1 - t.shearFactor * t.direction.data 1 * t.normal.data 0) ^ 2 +
        (t.shearFactor * t.direction.data 0 * t.normal.data 2 - t.shearFactor * t.direction.data 2 * t.normal.data 0) ^ 2 +
        (t.shearFactor * t.direction.data 1 * t.normal.data 2 - t.shearFactor * t.direction.data 2 * t.normal.data 1) ^ 2
        = t.shearFactor ^ 2 := by
      have l : (t.direction.data 0 * t.normal.data 1 - t.direction.data 1 * t.normal.data 0) ^ 2 +
        (t.direction.data 0 * t.normal.data 2 - t.direction.data 2 * t.normal.data 0) ^ 2 +
        (t.direction.data 1 * t.normal.data 2 - t.direction.data 2 * t.normal.data 1) ^ 2 = 1 := by grind
      linear_combination t.shearFactor ^ 2 * l
    nlinarith [sq_nonneg tol]
end Shear

example : ∃ (s : Shear ℝ 2) (t : Shear ℝ 3), s.direction.norm = 1 ∧ s.normal.norm = 1 ∧ s.direction.dot s.normal = 0 ∧
    t.direction.norm = 1 ∧ t.normal.norm = 1 ∧ t.direction.dot t.normal = 0 ∧ s.shearFactor = 3 ∧ t.shearFactor = 3 :=
  ⟨Shear.fromAffineShear 3 (Pt.new2 5 7) ⟨Vec.unitX2⟩ ⟨Vec.unitY2⟩,
    Shear.fromAffineShear 3 (Pt.new3 5 7 8) ⟨Vec.unitX3⟩ ⟨Vec.unitZ3⟩, by
      simp [Shear.fromAffineShear, Vec.norm_def, Vec.normSquared, Vec.dot2, Vec.dot3, Vec.unitX2, Vec.unitY2, Vec.unitX3, Vec.unitZ3]⟩

/-! ### scales and translations -/

section Ring
variable {K : Type*} [CommRing K]

/-- spec_scale.rs 129-154, 205-297 -/
theorem C77_scale (s1 s2 s3 : Scale K n) (p : Pt K n) (v : Vec K n) : s1 * s2 = s2 * s1 ∧ (s1 * s2) * s3 = s1 * (s2 * s3) ∧
    (s1 * s2) * p = (s2 * s1) * p ∧ s1 * (s2 * v) = s2 * (s1 * v) ∧ (s1 * s2) * v = (s2 * s1) * v := by
  have c := C58_comm s1 s2
  refine ⟨c, C58_assoc _ _ _, by rw [c], ?_, by rw [c]⟩
  exact ((C58_compose s1 s2 p v).2.symm.trans (by rw [c])).trans (C58_compose s2 s1 p v).2

/-- spec_translation.rs 63-143 -/
theorem C77_translation (t t1 t2 t3 : Translation K n) (p p1 p2 : Pt K n) : t * (p1 - p2) = p1 - p2 ∧
    (t * p1) - (t * p2) = p1 - p2 ∧ (t * t.inverse) * p = p ∧ (t.inverse * t) * p = p ∧
    t * t.inverse = t.inverse * t ∧ t * t.inverse = Translation.identity ∧ t.inverse * t = Translation.identity ∧
    (t1 * t2) * t3 = t1 * (t2 * t3) := by
  obtain ⟨a, b⟩ := C53_inverse t
  have i := (C53_identity t p).2
  refine ⟨rfl, ?_, by rw [a]; exact i, by rw [b]; exact i, by rw [a, b], a, b, C53_assoc _ _ _⟩
  ext i
  show (t.applyPoint p1 - t.applyPoint p2).data i = (p1 - p2).data i
  simp [Translation.applyPoint]
end Ring

/-- spec_scale.rs 162-197, 306-353; without the hypothesis the two products still commute -/
theorem C77_scale_inverse {K : Type*} [Field K] (s : Scale K n) (p : Pt K n) (v : Vec K n) :
    s * s.inverse = s.inverse * s ∧ s * (s.inverse * p) = s.inverse * (s * p) ∧ s * (s.inverse * v) = s.inverse * (s * v) ∧
    ((s * s.inverse = Scale.identity ∧ s.inverse * s = Scale.identity) ↔ ∀ i, s.vector.data i ≠ 0) := by
  have c := C58_comm s s.inverse
  refine ⟨c, ?_, ?_, ⟨fun h i hi => C58_singular s i hi s.inverse h.2, fun h => ⟨(C58_inverse s p v h).2.1, (C58_inverse s p v h).1⟩⟩⟩
  · exact ((C58_compose s s.inverse p v).1.symm.trans (by rw [c])).trans (C58_compose s.inverse s p v).1
  · exact ((C58_compose s s.inverse p v).2.symm.trans (by rw [c])).trans (C58_compose s.inverse s p v).2

/-! ### homogeneous transformations -/

section Transform
variable {K : Type*} [Field K] [DecidableEq K]

/-- spec_transform.rs 170-247, for the affine matrices those tests draw -/
theorem C77_transform (t1 t2 t3 : Transform K n) (h1 : Spec.IsAffine t1) (h2 : Spec.IsAffine t2) (p : Pt K n) (v : Vec K n) :
    (t1 * t2) * t3 = t1 * (t2 * t3) ∧
    (∃ q r, t2 * p = (.ok q : Res (Pt K n)) ∧ t1 * q = (.ok r : Res (Pt K n)) ∧ (t1 * t2) * p = (.ok r : Res (Pt K n))) ∧
    (t1 * t2) * v = t1 * (t2 * v) := by
  obtain ⟨q, -, hq, -, -⟩ := C60_affine t2 h2 p p
  obtain ⟨r, -, hr, -, -⟩ := C60_affine t1 h1 q q
  exact ⟨C60_mul_assoc _ _ _, ⟨q, r, hq, hr, C60_compose_point t1 t2 p q r hq hr⟩, (C73_transform_affine t1 t2 h2 p p v).2⟩

/-- for projective matrices the law about vectors fails -/
theorem C77_transform_vector_fails : ∃ (t1 t2 : Transform ℚ 1) (v : Vec ℚ 1), (t1 * t2) * v ≠ t1 * (t2 * v) := by
  refine ⟨⟨new2x2 1 0 1 1⟩, ⟨new2x2 1 1 0 1⟩, Vec.new1 1, fun h => ?_⟩
  have h0 := congrArg (fun v => v.data 0) h
  have e : ∀ (t : Transform ℚ 1) (v : Vec ℚ 1), (t * v : Vec ℚ 1) = t.applyVector v := fun _ _ => rfl
  have m : ∀ t u : Transform ℚ 1, (t * u).matrix = t.matrix * u.matrix := fun _ _ => rfl
  simp only [e, C60_apply_vector, m] at h0
  simp [mul_data, Fin.sum_univ_two] at h0
end Transform

/-! ### Euler angles -/

private theorem euler (e : Euler (Radians ℝ)) :
    e.toMatrix.tryInverse3 = some e.toMatrix.transpose ∧ e.toAffineMatrix.tryInverse4 = some e.toAffineMatrix.transpose ∧
      e.toMatrix.determinant3 = 1 ∧ e.toAffineMatrix.determinant4 = 1 := by
  have h := C49_rotation e
  have h' : Spec.IsRotation e.toAffineMatrix := by
    obtain ⟨a, -⟩ := C26_affine_angle_xyz e.x
    obtain ⟨-, b, -⟩ := C26_affine_angle_xyz e.y
    obtain ⟨-, -, c⟩ := C26_affine_angle_xyz e.z
    rw [(C49_affine e).2, a, b, c]
    exact ((C26_affine_axis_angle_rotation (by simp [Vec.dot3, Vec.unitX3]) _).mul
      (C26_affine_axis_angle_rotation (by simp [Vec.dot3, Vec.unitY3]) _)).mul
      (C26_affine_axis_angle_rotation (by simp [Vec.dot3, Vec.unitZ3]) _)
  exact ⟨C18_unique_right C18_try_inverse3 _ _ h.mul_transpose, C18_unique_right C18_try_inverse4 _ _ h'.mul_transpose,
    by rw [C17_det3, h.det_one], by rw [C17_det4, h'.det_one]⟩

/-- cglinalg_core spec_euler.rs 58-153, angles in radians and in degrees -/
theorem C77_euler (e : Euler (Radians ℝ)) (d : Euler (Degrees ℝ)) :
    (e.toMatrix.tryInverse3 = some e.toMatrix.transpose ∧ e.toAffineMatrix.tryInverse4 = some e.toAffineMatrix.transpose ∧
      e.toMatrix.determinant3 = 1 ∧ e.toAffineMatrix.determinant4 = 1) ∧
    (d.toMatrix.tryInverse3 = some d.toMatrix.transpose ∧ d.toAffineMatrix.tryInverse4 = some d.toAffineMatrix.transpose ∧
      d.toMatrix.determinant3 = 1 ∧ d.toAffineMatrix.determinant4 = 1) :=
  ⟨euler e, euler ⟨Radians.ofDegrees d.x, Radians.ofDegrees d.y, Radians.ofDegrees d.z⟩⟩

end Cgl
