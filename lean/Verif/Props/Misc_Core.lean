import Verif.Props.C02_VectorSpace
import Verif.Props.C03_TryCast
import Verif.Props.C07_Cross
import Verif.Props.C09_Lerp
import Verif.Props.C12_Points
import Verif.Props.C20_Trace
import Verif.Props.C21_MatrixNorms
import Verif.Props.C32_Perspective
import Verif.Props.C34_ComplexField
import Verif.Props.C39_QuaternionAlgebra
import Verif.Props.C42_QuaternionFromMatrix
import Verif.Props.C52_DegRad
import Verif.Props.C54_Rotation
import Verif.Props.C58_Scale
import Verif.Props.C59_ShearReflection

/-! # Further functions of the properties C03, C07, C09, C12, C19-C21, C32, C35, C39, C42, C52, C58, C59 -/

namespace Cgl
open Mat

variable {S T : Type*} {n N R C : ℕ}

/-! ### C03 - casts of complex numbers and quaternions -/

theorem C03_complex (conv : S → Option T) (z : Cx S) :
    (∀ w, z.tryCast conv = some w ↔ conv z.re = some w.re ∧ conv z.im = some w.im) ∧
    (z.tryCast conv = none ↔ conv z.re = none ∨ conv z.im = none) := by
  unfold Cx.tryCast
  cases h1 : conv z.re <;> cases h2 : conv z.im <;> simp [Cx.new, Cx.ext_iff]

theorem C03_quaternion (conv : S → Option T) (x : T) (q : Quat S) :
    (∀ w, q.tryCast conv x = some w ↔ ∀ i, conv (q.coords.data i) = some (w.coords.data i)) ∧
    (q.tryCast conv x = none ↔ ∃ i, conv (q.coords.data i) = none) := by
  unfold Quat.tryCast
  constructor
  · intro w
    rw [Option.map_eq_some_iff]
    constructor
    · rintro ⟨v, hv, rfl⟩ i; exact (C03_vector_some_iff conv x _ v).mp hv i
    · intro h; exact ⟨w.coords, (C03_vector_some_iff conv x _ _).mpr h, rfl⟩
  · rw [Option.map_eq_none_iff]; exact C03_vector_none_iff conv x _

/-! ### C07 - the cross product as a matrix -/

theorem C07_cross_matrix [CommRing S] (v w : Vec S 3) :
    crossMatrix v * w = v.cross w ∧ (crossMatrix v).transpose = -crossMatrix v := by
  constructor
  · rw [mulVec3]; apply Vec.ext3 <;> simp [crossMatrix, Vec.cross] <;> ring
  · apply ext3 <;> simp [crossMatrix]

/-! ### C09 - interpolation of matrices -/

theorem C09_matrix_lerp [CommRing S] (A B : Mat S R C) (t : S) :
    A.lerp B 0 = A ∧ A.lerp B 1 = B ∧ A.lerp A t = A ∧ A.lerp B t = B.lerp A (1 - t) ∧
    ∀ c r, (A.lerp B t).data c r = A.data c r * (1 - t) + B.data c r * t := by
  refine ⟨?_, ?_, ?_, ?_, fun c r => ?_⟩
  · ext; simp [lerp]
  · ext; simp [lerp]
  · ext; simp [lerp]
  · ext; simp [lerp]; ring
  · simp [lerp]; ring

/-! ### C12 - scalar times point -/

theorem C12_scalar_mul [CommSemiring S] (k : S) (p : Pt S n) :
    k * p = p * k ∧ ∀ i, (k * p).coords.data i = k * p.coords.data i := by
  have e : ∀ i, (k * p).coords.data i = k * p.coords.data i := by
    intro i; simp
  exact ⟨Pt.ext_data fun i => by rw [e]; simp [mul_comm], e⟩

/-! ### C20 - the shape tests -/

theorem C20_is_diagonal [Zero S] (ulpsEq : S → S → Bool) (A : Mat S N N) :
    A.isDiagonal ulpsEq = true ↔ ∀ c r : Fin N, c ≠ r → ulpsEq (A.data c r) 0 = true := by
  have e := forall_lower N fun i j => (ulpsEq (A.data i j) 0 && ulpsEq (A.data j i) 0) = true
  rw [isDiagonal, forRange_and2 N true (fun i => (i : ℕ))
    fun i j => ulpsEq (A.data i (j.castLE i.2.le)) 0 && ulpsEq (A.data (j.castLE i.2.le) i) 0]
  simp only [Bool.true_and, decide_eq_true_eq]
  rw [e]
  simp only [Bool.and_eq_true]
  constructor
  · intro h c r hcr
    rcases lt_or_gt_of_ne hcr with h' | h'
    · exact (h r c h').2
    · exact (h c r h').1
  · intro h i j hj
    exact ⟨h i j hj.ne', h j i hj.ne⟩

theorem C20_is_symmetric (ulpsEq : S → S → Bool) (A : Mat S N N) :
    A.isSymmetric ulpsEq = true ↔ ∀ c r : Fin N, r < c → ulpsEq (A.data c r) (A.data r c) = true := by
  have e := forall_lower N fun i j => ulpsEq (A.data i j) (A.data j i) = true
  rw [isSymmetric, forRange_and2 N true (fun i => (i : ℕ))
    fun i j => ulpsEq (A.data i (j.castLE i.2.le)) (A.data (j.castLE i.2.le) i)]
  simp only [Bool.true_and, decide_eq_true_eq]
  rw [e]

/-- with an exact comparison: the matrices equal to their transpose, and the diagonal matrices -/
theorem C20_shape_tests_exact [DecidableEq S] [Zero S] (A : Mat S N N) :
    (A.isSymmetric (fun a b => decide (a = b)) = true ↔ A.transpose = A) ∧
    (A.isDiagonal (fun a b => decide (a = b)) = true ↔ ∃ v : Vec S N, A = fromDiagonal v) := by
  rw [C20_is_symmetric, C20_is_diagonal]
  simp only [decide_eq_true_eq]
  constructor
  · constructor
    · intro h
      ext c r
      rw [transpose_data]
      rcases lt_trichotomy c r with h' | rfl | h'
      · exact h r c h'
      · rfl
      · exact (h c r h').symm
    · intro h c r _
      conv_lhs => rw [← h]
      rw [transpose_data]
  · constructor
    · intro h
      refine ⟨⟨fun i => A.data i i⟩, ?_⟩
      ext c r
      rw [C20_from_diagonal]
      split_ifs with hc
      · subst hc; rfl
      · exact h c r hc
    · rintro ⟨v, rfl⟩ c r hcr
      rw [C20_from_diagonal, if_neg hcr]

/-! ### C21 - `apply_norm` -/

theorem C21_apply_norm (A : Mat ℝ R C) :
    A.applyNorm L1 = A.l1Norm ∧ A.applyNorm Linf = A.linfNorm ∧ A.applyNorm Frobenius = A.norm := ⟨rfl, rfl, rfl⟩

/-! ### C19 - complex numbers -/

/-- With a positive tolerance `is_invertible` implies that `try_inverse` succeeds. -/
theorem C19_complex_is_invertible (z : Cx ℝ) (eps : ℝ) (he : 0 < eps) (h : z.isInvertible eps = true) :
    ∃ w, z.tryInverse = some w := by
  have h : eps * eps ≤ z.normSquared := by simpa [Cx.isInvertible] using h
  have : z.normSquared ≠ 0 := by nlinarith [mul_pos he he]
  exact ⟨_, by simp only [Cx.tryInverse, beq_iff_eq, if_neg this]; rfl⟩

/-- The converse fails at every positive tolerance (a small non-zero number has an inverse), and at tolerance
zero zero itself passes the test. -/
theorem C19_complex_is_invertible_fails (eps : ℝ) (he : 0 < eps) :
    (∃ z w : Cx ℝ, z.tryInverse = some w ∧ z.isInvertible eps = false) ∧
    (∃ z : Cx ℝ, z.tryInverse = none ∧ z.isInvertible 0 = true) := by
  constructor
  · have h : (⟨eps / 2, 0⟩ : Cx ℝ).normSquared ≠ 0 := by simp [Cx.normSquared]; positivity
    refine ⟨⟨eps / 2, 0⟩, _, by simp only [Cx.tryInverse, beq_iff_eq, if_neg h]; rfl, ?_⟩
    · simp [Cx.isInvertible, Cx.normSquared]; nlinarith
  · exact ⟨⟨0, 0⟩, by simp [Cx.tryInverse, Cx.normSquared], by simp [Cx.isInvertible, Cx.normSquared]⟩

/-! ### C35, C39 - remainders -/

theorem C35_rem [Mod S] (z : Cx S) (k : S) :
    (z % k).re = z.re % k ∧ (z % k).im = z.im % k ∧ z.remAssignS k = z % k := ⟨rfl, rfl, rfl⟩

theorem C39_rem [Zero S] [Mod S] (q : Quat S) (k : S) :
    (∀ i, (q % k).coords.data i = q.coords.data i % k) ∧ q.remAssign k = q % k := by
  have e : ∀ i, (q % k).coords.data i = q.coords.data i % k := by
    intro i
    have : q % k = Quat.fromParts (q.scalar % k) (q.vector % k) := rfl
    rw [this]
    fin_cases i <;> simp [Quat.fromParts, Quat.new, Quat.scalar, Quat.vector, Vec.new4, Vec.new3]
  refine ⟨e, ?_⟩
  apply Quat.ext; ext i
  rw [e, Quat.remAssign]; simp [C02_rem_assign]

theorem C39_l1_norm (q : Quat ℝ) :
    q.l1Norm = |q.scalar| + |q.vector.data 0| + |q.vector.data 1| + |q.vector.data 2| := by
  rw [Quat.l1Norm, C06_l1_norm_value, Fin.sum_univ_four]; rfl

/-! ### C42 - the quaternion of a rotation -/

theorem C42_rotation {t : Rotation ℝ 3} (h : Spec.IsRotation t.matrix) :
    t.toQuaternion.norm = 1 ∧ Rotation.fromQuaternion t.toQuaternion = t ∧ t.toMatrix = t.matrix := by
  have e : t.toQuaternion = Quat.fromMatrix t.matrix := by
    rw [Rotation.toQuaternion]; congr 1; apply ext3 <;> simp
  rw [e]
  exact ⟨(C42_from_matrix h).1, Rotation.ext (C42_from_matrix h).2, rfl⟩

/-! ### C32 - the viewing direction and the bounds of clip space -/

/-- Moving along the viewing direction moves the image along the viewing direction of clip space, and the
clip-space bounds are those of the cube onto which the frustum is mapped. -/
theorem C32_gaze {l r b t n f : ℝ} (hn : 0 < n) (hf : n < f) (p q q' : Pt ℝ 3) (s : ℝ) (hs : 0 < s)
    (hz : p.coords.data 2 < 0)
    (hq : Spec.ndc (fromPerspective l r b t n f) p = some q)
    (hq' : Spec.ndc (fromPerspective l r b t n f)
      (p + (Perspective3.new l r b t n f).viewUnitGaze.value * s) = some q') :
    0 < (q' - q : Vec ℝ 3).dot (Perspective3.new l r b t n f).clipUnitGaze.value := by
  have := (C32_depth_monotone (l := l) (r := r) (b := b) (t := t) hn hf p _ q q' hz
    (by simp [Perspective3.viewUnitGaze, Vec.unitZ3]; linarith) hq hq').mpr
    (by simp [Perspective3.viewUnitGaze, Vec.unitZ3]; linarith)
  simp [Perspective3.clipUnitGaze, Vec.unitZ3, Vec.dot3]
  linarith

theorem C32_bounds (P : Perspective3 ℝ) (q : Pt ℝ 3) :
    Spec.inCube q ↔ (P.clipNdcBounds.1.1 ≤ q.coords.data 0 ∧ q.coords.data 0 ≤ P.clipNdcBounds.1.2) ∧
      (P.clipNdcBounds.2.1.1 ≤ q.coords.data 1 ∧ q.coords.data 1 ≤ P.clipNdcBounds.2.1.2) ∧
      (P.clipNdcBounds.2.2.1 ≤ q.coords.data 2 ∧ q.coords.data 2 ≤ P.clipNdcBounds.2.2.2) := by
  simp only [Perspective3.clipNdcBounds, Spec.inCube]
  constructor
  · intro h; exact ⟨⟨(h 0).1, (h 0).2⟩, ⟨(h 1).1, (h 1).2⟩, (h 2).1, (h 2).2⟩
  · intro h i; fin_cases i
    · exact ⟨h.1.1, h.1.2⟩
    · exact ⟨h.2.1.1, h.2.1.2⟩
    · exact ⟨h.2.2.1, h.2.2.2⟩

/-! ### C52 - arithmetic of degrees -/

theorem C52_ratio [Field S] (a b : Radians S) (c d : Degrees S) (k : S) :
    a / b = a.val / b.val ∧ c / d = c.val / d.val ∧ (b.val ≠ 0 → b * (a / b : S) = a) ∧
    (d.val ≠ 0 → d * (c / d : S) = c) ∧ (-c).val = -c.val ∧ (-a).val = -a.val := by
  refine ⟨rfl, rfl, fun h => ?_, fun h => ?_, rfl, rfl⟩
  · have : (b * (a / b : S)).val = b.val * (a.val / b.val) := rfl
    ext; rw [this]; field_simp
  · have : (d * (c / d : S)).val = d.val * (c.val / d.val) := rfl
    ext; rw [this]; field_simp

/-! ### C49, C58, C59 - constructors -/

theorem C49_is_zero {A : Type*} (isZeroA : A → Bool) (e : Euler A) :
    e.isZero isZeroA = true ↔ isZeroA e.x = true ∧ isZeroA e.y = true ∧ isZeroA e.z = true := by
  simp [Euler.isZero, and_assoc]

theorem C58_new [CommRing S] (x y z : S) (p : Pt S 2) (q : Pt S 3) :
    (Scale.new2 x y).applyPoint p = Pt.new2 (x * p.coords.data 0) (y * p.coords.data 1) ∧
    (Scale.new3 x y z).applyPoint q = Pt.new3 (x * q.coords.data 0) (y * q.coords.data 1) (z * q.coords.data 2) ∧
    (Scale.new3 x y z).toVector = Vec.new3 x y z := by
  refine ⟨?_, ?_, rfl⟩
  · apply Pt.ext_data; intro i; fin_cases i <;> simp [Scale.new2, (C58_apply _ 0 p _).2, Pt.new2, Vec.new2]
  · apply Pt.ext_data; intro i; fin_cases i <;> simp [Scale.new3, (C58_apply _ 0 q _).2, Pt.new3, Vec.new3]

/-- The constructor of a reflection from a unit normal and a point: reflection in the plane through `bias`
orthogonal to `normal`. -/
theorem C59_from_normal_bias [CommRing S] (normal : Unit' (Vec S n)) (bias p : Pt S n)
    (h : normal.value.dot normal.value = 1) :
    (Reflection.fromNormalBias normal bias).applyPoint bias = bias ∧
    (Reflection.fromNormalBias normal bias).applyPoint (bias + normal.value) = bias - normal.value ∧
    ((p - bias : Vec S n).dot normal.value = 0 → (Reflection.fromNormalBias normal bias).applyPoint p = p) := by
  have z : (bias - bias : Vec S n).dot normal.value = 0 := by
    rw [Vec.dot_eq_sum]; simp
  have e : (bias + normal.value - bias : Vec S n) = normal.value := by ext i; simp
  refine ⟨(C59_reflection_fixes (Reflection.fromNormalBias normal bias) bias 0 (by rw [Vec.dot_eq_sum]; simp) z).2, ?_,
    fun hp => (C59_reflection_fixes (Reflection.fromNormalBias normal bias) p 0 (by rw [Vec.dot_eq_sum]; simp) hp).2⟩
  apply Pt.ext_data; intro i
  rw [(C59_reflection_apply _ _ 0 i).2]
  simp only [Reflection.fromNormalBias]
  rw [e, h]; simp; ring

/-- The constructors of a shear from its factor, direction, normal (and origin): the points of the plane through the
origin orthogonal to the normal stay fixed, and a point at height `d` above it moves by `factor * d` along the
direction. -/
theorem C59_from_shear [CommRing S] (k : S) (direction normal : Unit' (Vec S n)) (o p : Pt S n) (i : Fin n) :
    ((Shear.fromShear k direction normal).applyPoint p).coords.data i =
      p.coords.data i + k * p.coords.dot normal.value * direction.value.data i ∧
    ((Shear.fromAffineShear k o direction normal).applyPoint p).coords.data i =
      p.coords.data i + k * (p - o : Vec S n).dot normal.value * direction.value.data i := by
  constructor
  · rw [(C59_shear_apply (Shear.fromShear k direction normal) p 0 i).1]
    have : p - (Pt.origin : Pt S n) = p.coords := by ext i; simp [Pt.origin]
    simp only [Shear.fromShear]; rw [this]
  · rw [(C59_shear_apply (Shear.fromAffineShear k o direction normal) p 0 i).1]; rfl

/-! ### the hypotheses hold for concrete inputs -/

example : (⟨Vec.unitZ3⟩ : Unit' (Vec ℤ 3)).value.dot (⟨Vec.unitZ3⟩ : Unit' (Vec ℤ 3)).value = 1 := by
  rw [Vec.dot3]; simp [Vec.unitZ3]
example : (⟨3, 4⟩ : Cx ℝ).isInvertible 1 = true := by simp [Cx.isInvertible, Cx.normSquared]; norm_num
example : Spec.IsRotation (⟨Mat.identity⟩ : Rotation ℝ 3).matrix := Spec.IsRotation.identity
example : ∃ q q', Spec.ndc (fromPerspective 1 1 1 1 1 10) (Pt.new3 0 0 (-2)) = some q ∧
    Spec.ndc (fromPerspective 1 1 1 1 1 10)
      (Pt.new3 (0 : ℝ) 0 (-2) + (Perspective3.new (1 : ℝ) 1 1 1 1 10).viewUnitGaze.value * (3 : ℝ)) = some q' := by
  refine ⟨_, _, ndc_eq (Pt.new3 0 0 (-2)) (by simp [Pt.new3, Vec.new3]), ndc_eq _ ?_⟩
  simp [Pt.new3, Vec.new3, Perspective3.viewUnitGaze, Vec.unitZ3]; norm_num

end Cgl
