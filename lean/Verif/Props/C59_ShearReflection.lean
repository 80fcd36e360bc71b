import Verif.Lemmas.Transform
import Verif.Lemmas.Norms
import Verif.Props.C24_Shear
import Verif.Props.C25_Reflection
import Verif.Props.C31_Orthographic
import Verif.Props.C60_Transform

/-! # C59 - shear and reflection transforms -/

namespace Cgl
open Mat

theorem Pt.ext2 {S : Type*} {p q : Pt S 2} (h0 : p.coords.data 0 = q.coords.data 0)
    (h1 : p.coords.data 1 = q.coords.data 1) : p = q := by
  apply Pt.ext_data; intro i; fin_cases i <;> assumption

variable {K : Type*} {n : ℕ}

/-! ### reflections -/

section Reflection
variable [CommRing K] (t : Reflection K n) (p : Pt K n) (v : Vec K n)

/-- the mirror image: a vector loses twice its component along the normal; points are reflected relative to the bias -/
theorem C59_reflection_apply (i : Fin n) :
    (t.applyVector v).data i = v.data i - 2 * v.dot t.normal * t.normal.data i ∧
    (t.applyPoint p).coords.data i = p.coords.data i - 2 * (p - t.bias).dot t.normal * t.normal.data i := by
  constructor
  · simp [Reflection.applyVector]; ring
  · simp [Reflection.applyPoint]; ring

/-- points of the mirror, and directions along it, stay put -/
theorem C59_reflection_fixes (h : v.dot t.normal = 0) (h' : (p - t.bias).dot t.normal = 0) :
    t.applyVector v = v ∧ t.applyPoint p = p := by
  constructor
  · ext i; rw [(C59_reflection_apply t p v i).1, h]; ring
  · apply Pt.ext_data; intro i; rw [(C59_reflection_apply t p v i).2, h']; ring

section Unit
variable (h : t.normal.dot t.normal = 1)
include h

private theorem dot_reflect : (t.applyVector v).dot t.normal = -v.dot t.normal := by
  have e : (t.applyVector v).dot t.normal = v.dot t.normal - 2 * v.dot t.normal * t.normal.dot t.normal := by
    rw [Vec.dot_eq_sum, Vec.dot_eq_sum t.normal t.normal, Finset.mul_sum]
    nth_rewrite 1 [Vec.dot_eq_sum v]
    rw [← Finset.sum_sub_distrib]
    apply Finset.sum_congr rfl; intro i _
    rw [(C59_reflection_apply t Pt.origin v i).1]; ring
  rw [e, h]; ring

/-- the normal is reversed -/
theorem C59_reflection_normal : t.applyVector t.normal = -t.normal := by
  ext i; rw [(C59_reflection_apply t Pt.origin _ i).1, h]; simp; ring

/-- reflecting twice is the identity, so `inverse` (the reflection itself) and `inverse_apply_*` undo it -/
theorem C59_reflection_involution : t.applyVector (t.applyVector v) = v ∧ t.applyPoint (t.applyPoint p) = p := by
  have hv : ∀ v, t.applyVector (t.applyVector v) = v := by
    intro v
    ext i
    rw [(C59_reflection_apply t p _ i).1, dot_reflect t v h, (C59_reflection_apply t p v i).1]; ring
  refine ⟨hv v, ?_⟩
  have e : t.applyPoint p - t.bias = t.applyVector (p - t.bias) := by
    ext i
    rw [Pt.sub_eq, Vec.sub_data, (C59_reflection_apply t p v i).2, (C59_reflection_apply t p _ i).1]
    simp; ring
  apply Pt.ext_data; intro i
  rw [(C59_reflection_apply t _ v i).2, e, dot_reflect t _ h, (C59_reflection_apply t p v i).2]; ring

theorem C59_reflection_inverse : t.inverse = t ∧
    t.inverseApplyVector (t.applyVector v) = v ∧ t.applyVector (t.inverseApplyVector v) = v ∧
    t.inverseApplyPoint (t.applyPoint p) = p ∧ t.applyPoint (t.inverseApplyPoint p) = p ∧
    t.inverse.applyVector (t.applyVector v) = v ∧ t.inverse.applyPoint (t.applyPoint p) = p := by
  obtain ⟨a, b⟩ := C59_reflection_involution t p v h
  exact ⟨rfl, a, a, b, b, a, b⟩

/-- dot products are preserved -/
theorem C59_reflection_dot (w : Vec K n) : (t.applyVector v).dot (t.applyVector w) = v.dot w := by
  have e : ∀ x y : Vec K n, x.dot (t.applyVector y) = x.dot y - 2 * y.dot t.normal * x.dot t.normal := by
    intro x y
    rw [Vec.dot_eq_sum, Vec.dot_eq_sum x t.normal, Finset.mul_sum]
    nth_rewrite 1 [Vec.dot_eq_sum x y]
    rw [← Finset.sum_sub_distrib]
    apply Finset.sum_congr rfl; intro i _
    rw [(C59_reflection_apply t Pt.origin y i).1]; ring
  have c : ∀ x y : Vec K n, x.dot y = y.dot x := fun x y => by
    rw [Vec.dot_eq_sum, Vec.dot_eq_sum]; simp [mul_comm]
  rw [e, dot_reflect t v h, c _ w, e]
  rw [c w v]; ring
end Unit
end Reflection

section ReflectionMatrix
variable [Field K] [DecidableEq K]

/-- the homogeneous matrices in two and three dimensions act as the reflection does -/
theorem C59_reflection_transform2 (t : Reflection K 2) : Spec.Represents t.toTransform2 t.applyPoint t.applyVector := by
  have := Transform.represents_of_affine (t := t.toTransform2) (A := fromReflection2 ⟨t.normal⟩)
    (d := t.normal * (2 * t.bias.toVector.dot t.normal)) (fun v w => by
      show fromAffineReflection3 ⟨t.normal⟩ t.bias * v.extend w = _
      rw [mulVec3]
      have e0 : ∀ v : Vec K 2, (v.extend w).data 0 = v.data 0 := fun v => Vec.extend_castSucc v w 0
      have e1 : ∀ v : Vec K 2, (v.extend w).data 1 = v.data 1 := fun v => Vec.extend_castSucc v w 1
      have e2 : ∀ v : Vec K 2, (v.extend w).data 2 = w := fun v => Vec.extend_last v w
      apply Vec.ext3
      · simp [fromAffineReflection3, fromReflection2, mulVec2, Vec.dot2, e0, e1, e2, Pt.toVector]; ring_nf; try simp
      · simp [fromAffineReflection3, fromReflection2, mulVec2, Vec.dot2, e0, e1, e2, Pt.toVector]; ring_nf; try simp
      · simp [fromAffineReflection3, e0, e1, e2])
  refine ⟨fun p => ?_, fun v => ?_⟩
  · rw [this.point]; refine congrArg Except.ok ?_
    apply Pt.ext2 <;> simp [fromReflection2, mulVec2, Reflection.applyPoint, Vec.dot2, Pt.toVector] <;> ring
  · rw [this.vector]
    apply Vec.ext2 <;> simp [fromReflection2, mulVec2, Reflection.applyVector, Vec.dot2] <;> ring

theorem C59_reflection_transform3 (t : Reflection K 3) : Spec.Represents t.toTransform3 t.applyPoint t.applyVector := by
  have := Transform.represents_of_affine (t := t.toTransform3) (A := fromReflection3 ⟨t.normal⟩)
    (d := t.normal * (2 * t.bias.toVector.dot t.normal)) (fun v w => by
      show fromAffineReflection4 ⟨t.normal⟩ t.bias * v.extend w = _
      rw [mulVec4]
      have e0 : ∀ v : Vec K 3, (v.extend w).data 0 = v.data 0 := fun v => Vec.extend_castSucc v w 0
      have e1 : ∀ v : Vec K 3, (v.extend w).data 1 = v.data 1 := fun v => Vec.extend_castSucc v w 1
      have e2 : ∀ v : Vec K 3, (v.extend w).data 2 = v.data 2 := fun v => Vec.extend_castSucc v w 2
      have e3 : ∀ v : Vec K 3, (v.extend w).data 3 = w := fun v => Vec.extend_last v w
      apply Vec.ext4
      · simp [fromAffineReflection4, fromReflection3, mulVec3, Vec.dot3, e0, e1, e2, e3, Pt.toVector]; ring_nf; try simp
      · simp [fromAffineReflection4, fromReflection3, mulVec3, Vec.dot3, e0, e1, e2, e3, Pt.toVector]; ring_nf; try simp
      · simp [fromAffineReflection4, fromReflection3, mulVec3, Vec.dot3, e0, e1, e2, e3, Pt.toVector]; ring_nf; try simp
      · simp [fromAffineReflection4, e0, e1, e2, e3])
  refine ⟨fun p => ?_, fun v => ?_⟩
  · rw [this.point]; refine congrArg Except.ok ?_
    apply Pt.ext3 <;> simp [fromReflection3, mulVec3, Reflection.applyPoint, Vec.dot3, Pt.toVector] <;> ring
  · rw [this.vector]
    apply Vec.ext3 <;> simp [fromReflection3, mulVec3, Reflection.applyVector, Vec.dot3] <;> ring
end ReflectionMatrix

/-! ### shears -/

section Shear
variable [CommRing K] (t : Shear K n) (p : Pt K n) (v : Vec K n)

/-- a point moves along the direction by the shear factor times its signed distance from the plane through the origin;
`apply_vector` treats a vector as the point with the same coordinates -/
theorem C59_shear_apply (i : Fin n) :
    (t.applyPoint p).coords.data i = p.coords.data i + t.shearFactor * (p - t.origin).dot t.normal * t.direction.data i ∧
    (t.applyVector v).data i = v.data i + t.shearFactor * (v - t.origin.coords).dot t.normal * t.direction.data i := by
  constructor
  · simp [Shear.applyPoint]; ring
  · simp [Shear.applyVector, Pt.toVector]; ring

/-- points of the plane stay put -/
theorem C59_shear_fixes (h : (p - t.origin).dot t.normal = 0) : t.applyPoint p = p := by
  apply Pt.ext_data; intro i; rw [(C59_shear_apply t p 0 i).1, h]; ring

section Orthogonal
variable (h : t.direction.dot t.normal = 0)
include h

private theorem dot_shear (k : K) (o x : Vec K n) : (x + t.direction * k - o).dot t.normal = (x - o).dot t.normal := by
  have e : (x + t.direction * k - o).dot t.normal = (x - o).dot t.normal + k * t.direction.dot t.normal := by
    rw [Vec.dot_eq_sum, Vec.dot_eq_sum t.direction, Finset.mul_sum, Vec.dot_eq_sum, ← Finset.sum_add_distrib]
    apply Finset.sum_congr rfl; intro i _
    simp; ring
  rw [e, h]; ring

/-- `inverse_apply_*` and the inverse shear undo the shear -/
theorem C59_shear_inverse :
    t.inverseApplyPoint (t.applyPoint p) = p ∧ t.applyPoint (t.inverseApplyPoint p) = p ∧
    t.inverseApplyVector (t.applyVector v) = v ∧ t.applyVector (t.inverseApplyVector v) = v ∧
    t.inverse.applyPoint (t.applyPoint p) = p ∧ t.inverse.applyVector (t.applyVector v) = v := by
  have key : ∀ k : K, ∀ x o : Vec K n, (x + t.direction * k) - t.direction * (t.shearFactor *
      (x + t.direction * k - o).dot t.normal) = x + t.direction * k - t.direction * (t.shearFactor * (x - o).dot t.normal) := by
    intro k x o; rw [dot_shear t h]
  have sub : ∀ (x : Vec K n) (k : K), x - t.direction * k = x + t.direction * (-k) := by
    intro x k; ext i; simp [sub_eq_add_neg]
  have a : ∀ v, t.inverseApplyVector (t.applyVector v) = v := by
    intro v
    show (v + t.direction * _) - t.direction * (t.shearFactor * (v + t.direction * _ - _).dot t.normal) = v
    rw [key]; ext i; simp
  have b : ∀ v, t.applyVector (t.inverseApplyVector v) = v := by
    intro v
    show (v - t.direction * _) + t.direction * (t.shearFactor * (v - t.direction * _ - _).dot t.normal) = v
    rw [sub, dot_shear t h]; ext i; simp
  have c : ∀ v, t.inverse.applyVector v = t.inverseApplyVector v := by
    intro v; ext i; simp [Shear.inverse, Shear.applyVector, Shear.inverseApplyVector, sub_eq_add_neg]
  refine ⟨?_, ?_, a v, b v, ?_, by rw [c, a]⟩
  · exact congrArg Pt.mk (a p.coords)
  · exact congrArg Pt.mk (b p.coords)
  · exact congrArg Pt.mk ((c _).trans (a p.coords))
end Orthogonal

omit [CommRing K] in
/-- the inverse of the inverse is the shear itself -/
theorem C59_shear_inverse_inverse [CommRing K] (t : Shear K n) : t.inverse.inverse = t := by
  ext1 <;> simp [Shear.inverse]
theorem C59_shear_inverse_apply : t.inverseApplyPoint p = t.inverse.applyPoint p ∧
    t.inverseApplyVector v = t.inverse.applyVector v := by
  have c : ∀ v, t.inverse.applyVector v = t.inverseApplyVector v := by
    intro v; ext i; simp [Shear.inverse, Shear.applyVector, Shear.inverseApplyVector, sub_eq_add_neg]
  exact ⟨congrArg Pt.mk (c _).symm, (c _).symm⟩

/-- the identity shear exists in every positive dimension, acts trivially and panics only in dimension zero -/
theorem C59_shear_identity : (∃ t : Shear K (n + 1), Shear.identity = .ok t ∧ (∀ p, t.applyPoint p = p) ∧
    (∀ v, t.applyVector v = v)) ∧ ∃ e, (Shear.identity : Res (Shear K 0)) = .error e := by
  constructor
  · have e : (Shear.identity : Res (Shear K (n + 1))) = .ok ⟨0, Pt.origin,
        ⟨Function.update (0 : Vec K (n + 1)).data ⟨0, Nat.succ_pos n⟩ 1⟩,
        ⟨Function.update (0 : Vec K (n + 1)).data ⟨n, Nat.lt_succ_self n⟩ 1⟩⟩ := by
      simp only [Shear.identity, writeAt_of_lt _ (Nat.succ_pos n), Nat.add_sub_cancel, writeAt_of_lt _ (Nat.lt_succ_self n)]
      rfl
    refine ⟨_, e, fun p => ?_, fun v => ?_⟩
    · apply Pt.ext_data; intro i; rw [(C59_shear_apply _ p 0 i).1]; simp
    · ext i; rw [(C59_shear_apply _ Pt.origin v i).2]; simp
  · exact ⟨_, rfl⟩
end Shear

section ShearMatrix

private theorem fromValue_unit {m : ℕ} {v : Vec ℝ m} (h : v.norm = 1) : Unit'.fromValue v = (⟨v⟩ : Unit' (Vec ℝ m)) := by
  show (⟨v.normalize⟩ : Unit' (Vec ℝ m)) = _
  rw [Vec.normalize_def, h]
  congr 1; ext i; simp

section
variable [CommRing K] (k : K)
private theorem affine2 (o : Pt K 2) (d m : Unit' (Vec K 2)) (v : Vec K 2) (w : K) :
    fromAffineShear3 k o d m * v.extend w = (fromShear2 k d m * v + (d.value * (-k * o.coords.dot m.value)) * w).extend w := by
  rw [mulVec3]
  have e0 : ∀ v : Vec K 2, (v.extend w).data 0 = v.data 0 := fun v => Vec.extend_castSucc v w 0
  have e1 : ∀ v : Vec K 2, (v.extend w).data 1 = v.data 1 := fun v => Vec.extend_castSucc v w 1
  have e2 : ∀ v : Vec K 2, (v.extend w).data 2 = w := fun v => Vec.extend_last v w
  apply Vec.ext3
  · simp [fromAffineShear3, fromShear2, mulVec2, Vec.dot2, e0, e1, e2, Pt.toVector]
  · simp [fromAffineShear3, fromShear2, mulVec2, Vec.dot2, e0, e1, e2, Pt.toVector]
  · simp [fromAffineShear3, e0, e1, e2]
private theorem affine3 (o : Pt K 3) (d m : Unit' (Vec K 3)) (v : Vec K 3) (w : K) :
    fromAffineShear4 k o d m * v.extend w = (fromShear3 k d m * v + (d.value * (-k * o.coords.dot m.value)) * w).extend w := by
  rw [mulVec4]
  have e0 : ∀ v : Vec K 3, (v.extend w).data 0 = v.data 0 := fun v => Vec.extend_castSucc v w 0
  have e1 : ∀ v : Vec K 3, (v.extend w).data 1 = v.data 1 := fun v => Vec.extend_castSucc v w 1
  have e2 : ∀ v : Vec K 3, (v.extend w).data 2 = v.data 2 := fun v => Vec.extend_castSucc v w 2
  have e3 : ∀ v : Vec K 3, (v.extend w).data 3 = w := fun v => Vec.extend_last v w
  apply Vec.ext4
  · simp [fromAffineShear4, fromShear3, mulVec3, Vec.dot3, e0, e1, e2, e3, Pt.toVector]
  · simp [fromAffineShear4, fromShear3, mulVec3, Vec.dot3, e0, e1, e2, e3, Pt.toVector]
  · simp [fromAffineShear4, fromShear3, mulVec3, Vec.dot3, e0, e1, e2, e3, Pt.toVector]
  · simp [fromAffineShear4, e0, e1, e2, e3]
end

/-- The homogeneous matrix of a shear with unit direction and normal moves points as the shear does, and it moves vectors
by the linear part alone. -/
theorem C59_shear_transform2 (t : Shear ℝ 2) (hd : t.direction.norm = 1) (hn : t.normal.norm = 1) :
    Spec.Represents t.toTransform2 t.applyPoint
      (fun v => v + t.direction * (t.shearFactor * v.dot t.normal)) := by
  have := Transform.represents_of_affine (t := t.toTransform2) (fun v w => by
      show fromAffineShear3 t.shearFactor t.origin (Unit'.fromValue t.direction) (Unit'.fromValue t.normal) * v.extend w = _
      rw [fromValue_unit hd, fromValue_unit hn]
      exact affine2 _ _ _ _ v w)
  refine ⟨fun p => ?_, fun v => ?_⟩
  · rw [this.point]; refine congrArg Except.ok ?_
    apply Pt.ext2 <;> simp [fromShear2, mulVec2, Shear.applyPoint, Vec.dot2] <;> ring
  · rw [this.vector]
    apply Vec.ext2 <;> simp [fromShear2, mulVec2, Vec.dot2] <;> ring
theorem C59_shear_transform3 (t : Shear ℝ 3) (hd : t.direction.norm = 1) (hn : t.normal.norm = 1) :
    Spec.Represents t.toTransform3 t.applyPoint
      (fun v => v + t.direction * (t.shearFactor * v.dot t.normal)) := by
  have := Transform.represents_of_affine (t := t.toTransform3) (fun v w => by
      show fromAffineShear4 t.shearFactor t.origin (Unit'.fromValue t.direction) (Unit'.fromValue t.normal) * v.extend w = _
      rw [fromValue_unit hd, fromValue_unit hn]
      exact affine3 _ _ _ _ v w)
  refine ⟨fun p => ?_, fun v => ?_⟩
  · rw [this.point]; refine congrArg Except.ok ?_
    apply Pt.ext3 <;> simp [fromShear3, mulVec3, Shear.applyPoint, Vec.dot3] <;> ring
  · rw [this.vector]
    apply Vec.ext3 <;> simp [fromShear3, mulVec3, Vec.dot3] <;> ring

/-- `apply_vector` is that linear part exactly when the origin lies on the plane through zero (or the shear is trivial) -/
theorem C59_shear_vector_agrees_iff (t : Shear ℝ n) (hd : t.direction ≠ 0) (v : Vec ℝ n) :
    t.applyVector v = v + t.direction * (t.shearFactor * v.dot t.normal) ↔
      t.shearFactor * t.origin.coords.dot t.normal = 0 := by
  have e : (v - t.origin.coords).dot t.normal = v.dot t.normal - t.origin.coords.dot t.normal := by
    simp only [Vec.dot_eq_sum, ← Finset.sum_sub_distrib, Vec.sub_data, sub_mul]
  constructor
  · intro h
    obtain ⟨i, hi⟩ : ∃ i, t.direction.data i ≠ 0 := by
      by_contra hc; push Not at hc; exact hd (by ext i; simpa using hc i)
    have := congrArg (fun v => v.data i) h
    simp only [(C59_shear_apply t Pt.origin v i).2, e, Vec.add_data, Vec.mulS_data] at this
    have h2 : t.direction.data i * (t.shearFactor * t.origin.coords.dot t.normal) = 0 := by linarith
    exact (mul_eq_zero.mp h2).resolve_left hi
  · intro h
    ext i
    rw [(C59_shear_apply t Pt.origin v i).2, e]
    simp only [Vec.add_data, Vec.mulS_data]
    linear_combination -t.direction.data i * h

/-- In particular the shears built without an origin agree with their matrices on vectors. -/
theorem C59_shear_vector_partial (t : Shear ℝ 2) (u : Shear ℝ 3) (hd : t.direction.norm = 1) (hn : t.normal.norm = 1)
    (hd' : u.direction.norm = 1) (hn' : u.normal.norm = 1) (ho : t.origin.coords.dot t.normal = 0)
    (ho' : u.origin.coords.dot u.normal = 0) :
    Spec.Represents t.toTransform2 t.applyPoint t.applyVector ∧ Spec.Represents u.toTransform3 u.applyPoint u.applyVector := by
  have ne : ∀ {m : ℕ} {v : Vec ℝ m}, v.norm = 1 → v ≠ 0 := by
    rintro m v h rfl; rw [Vec.norm_def] at h; simp [Vec.normSquared, Vec.dot_eq_sum] at h
  constructor
  · refine ⟨(C59_shear_transform2 t hd hn).point, fun v => ?_⟩
    rw [(C59_shear_transform2 t hd hn).vector, (C59_shear_vector_agrees_iff t (ne hd) v).mpr (by rw [ho, mul_zero])]
  · refine ⟨(C59_shear_transform3 u hd' hn').point, fun v => ?_⟩
    rw [(C59_shear_transform3 u hd' hn').vector, (C59_shear_vector_agrees_iff u (ne hd') v).mpr (by rw [ho', mul_zero])]

/-- The defect: for a shear about the origin point (0, 1) along x, `apply_vector` moves even the zero vector, whereas the
matrix of the same shear leaves it alone. -/
theorem C59_shear_vector_fails : ∃ t : Shear ℝ 2, t.direction.norm = 1 ∧ t.normal.norm = 1 ∧
    t.direction.dot t.normal = 0 ∧ t = Shear.fromAffineShear 1 (Pt.new2 0 1) ⟨Vec.unitX2⟩ ⟨Vec.unitY2⟩ ∧
    t.applyVector 0 = Vec.new2 (-1) 0 ∧ t.toTransform2.applyVector 0 = 0 := by
  have hd : (Vec.unitX2 : Vec ℝ 2).norm = 1 := by rw [Vec.norm_def]; simp [Vec.normSquared, Vec.dot2, Vec.unitX2]
  have hn : (Vec.unitY2 : Vec ℝ 2).norm = 1 := by rw [Vec.norm_def]; simp [Vec.normSquared, Vec.dot2, Vec.unitY2]
  refine ⟨Shear.fromAffineShear 1 (Pt.new2 0 1) ⟨Vec.unitX2⟩ ⟨Vec.unitY2⟩, hd, hn, ?_, rfl, ?_, ?_⟩
  · simp [Shear.fromAffineShear, Vec.dot2, Vec.unitX2, Vec.unitY2]
  · apply Vec.ext2 <;> simp [Shear.fromAffineShear, Shear.applyVector, Vec.dot2, Vec.unitX2, Vec.unitY2, Pt.new2, Pt.toVector]
  · rw [(C59_shear_transform2 (Shear.fromAffineShear 1 (Pt.new2 0 1) ⟨Vec.unitX2⟩ ⟨Vec.unitY2⟩) hd hn).vector]
    apply Vec.ext2 <;> simp [Vec.dot2]

/-- the product of two shears is the transform applying the right one first -/
theorem C59_shear_mul (t u : Shear ℝ 2) (t' u' : Shear ℝ 3) (h : t.direction.norm = 1 ∧ t.normal.norm = 1)
    (hu : u.direction.norm = 1 ∧ u.normal.norm = 1) (h' : t'.direction.norm = 1 ∧ t'.normal.norm = 1)
    (hu' : u'.direction.norm = 1 ∧ u'.normal.norm = 1) (p : Pt ℝ 2) (p' : Pt ℝ 3) :
    (t.mul2 u).applyPoint p = .ok (t.applyPoint (u.applyPoint p)) ∧
    (t'.mul3 u').applyPoint p' = .ok (t'.applyPoint (u'.applyPoint p')) :=
  ⟨C60_compose_point _ _ _ _ _ ((C59_shear_transform2 u hu.1 hu.2).point p) ((C59_shear_transform2 t h.1 h.2).point _),
   C60_compose_point _ _ _ _ _ ((C59_shear_transform3 u' hu'.1 hu'.2).point p') ((C59_shear_transform3 t' h'.1 h'.2).point _)⟩
end ShearMatrix

/-! ### the axis constructors -/

/-- `from_shear_ij` moves the i-th coordinate by the factor times the j-th -/
theorem C59_shear_axes [CommRing K] (k : K) (p : Pt K 2) (q : Pt K 3) :
    (Shear.fromShearXY2 k).applyPoint p = Pt.new2 (p.coords.data 0 + k * p.coords.data 1) (p.coords.data 1) ∧
    (Shear.fromShearYX2 k).applyPoint p = Pt.new2 (p.coords.data 0) (p.coords.data 1 + k * p.coords.data 0) ∧
    (Shear.fromShearXY3 k).applyPoint q = Pt.new3 (q.coords.data 0 + k * q.coords.data 1) (q.coords.data 1) (q.coords.data 2) ∧
    (Shear.fromShearXZ3 k).applyPoint q = Pt.new3 (q.coords.data 0 + k * q.coords.data 2) (q.coords.data 1) (q.coords.data 2) ∧
    (Shear.fromShearYX3 k).applyPoint q = Pt.new3 (q.coords.data 0) (q.coords.data 1 + k * q.coords.data 0) (q.coords.data 2) ∧
    (Shear.fromShearYZ3 k).applyPoint q = Pt.new3 (q.coords.data 0) (q.coords.data 1 + k * q.coords.data 2) (q.coords.data 2) ∧
    (Shear.fromShearZX3 k).applyPoint q = Pt.new3 (q.coords.data 0) (q.coords.data 1) (q.coords.data 2 + k * q.coords.data 0) ∧
    (Shear.fromShearZY3 k).applyPoint q = Pt.new3 (q.coords.data 0) (q.coords.data 1) (q.coords.data 2 + k * q.coords.data 1) := by
  refine ⟨?_, ?_, ?_, ?_, ?_, ?_, ?_, ?_⟩
  iterate 2
    · apply Pt.ext2 <;> simp [Shear.fromShearXY2, Shear.fromShearYX2, Shear.applyPoint, Vec.dot2, Vec.unitX2, Vec.unitY2, Pt.new2]
  all_goals
    apply Pt.ext3 <;> simp [Shear.fromShearXY3, Shear.fromShearXZ3, Shear.fromShearYX3, Shear.fromShearYZ3, Shear.fromShearZX3,
      Shear.fromShearZY3, Shear.applyPoint, Vec.dot3, Vec.unitX3, Vec.unitY3, Vec.unitZ3, Pt.new3]

/-- a reflection in a slanted line away from the origin -/
example : (Reflection.fromNormalBias (⟨Vec.new2 (3/5) (4/5)⟩ : Unit' (Vec ℚ 2)) (Pt.new2 0 5)).applyPoint (Pt.new2 0 0) =
    Pt.new2 (24/5) (32/5) := by
  apply Pt.ext2 <;> simp [Reflection.fromNormalBias, Reflection.applyPoint, Vec.dot2, Pt.new2] <;> norm_num

end Cgl
