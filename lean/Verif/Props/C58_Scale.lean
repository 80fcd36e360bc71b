import Verif.Lemmas.Transform
import Verif.Props.C12_Points
import Verif.Props.C23_Affine

/-! # C58 - scales, in every dimension -/

namespace Cgl
open Mat

variable {S : Type*} {n : ℕ}

theorem C58_apply [Zero S] [Mul S] (t : Scale S n) (v : Vec S n) (p : Pt S n) (i : Fin n) :
    (t.applyVector v).data i = t.vector.data i * v.data i ∧
    (t.applyPoint p).coords.data i = t.vector.data i * p.coords.data i := by
  constructor
  · simp only [Scale.applyVector]; rw [forRange_update n _ fun i => t.vector.data i * v.data i]
  · simp only [Scale.applyPoint]; rw [forRange_update n _ fun i => t.vector.data i * p.coords.data i]

theorem C58_inverse_entry [Zero S] [One S] [Div S] (t : Scale S n) (i : Fin n) :
    t.inverse.vector.data i = 1 / t.vector.data i := by
  simp only [Scale.inverse]; rw [forRange_update n _ fun i => 1 / t.vector.data i]

theorem C58_inverse_apply_entry [Zero S] [Div S] (t : Scale S n) (v : Vec S n) (p : Pt S n) (i : Fin n) :
    (t.inverseApplyVector v).data i = v.data i / t.vector.data i ∧
    (t.inverseApplyPoint p).coords.data i = p.coords.data i / t.vector.data i := by
  constructor
  · simp only [Scale.inverseApplyVector]; rw [forRange_update n _ fun i => v.data i / t.vector.data i]
  · simp only [Scale.inverseApplyPoint]; rw [forRange_update n _ fun i => p.coords.data i / t.vector.data i]

section Ring
variable [CommRing S] (t u w : Scale S n) (p : Pt S n) (v : Vec S n)

private theorem mul_vector : (t * u).vector = t.vector.componentMul u.vector := rfl

theorem C58_compose : (t * u).applyPoint p = t.applyPoint (u.applyPoint p) ∧
    (t * u).applyVector v = t.applyVector (u.applyVector v) := by
  constructor
  · apply Pt.ext_data; intro i; simp [(C58_apply _ v _ i).2, mul_vector, mul_assoc]
  · ext i; simp [(C58_apply _ _ p i).1, mul_vector, mul_assoc]
theorem C58_comm : t * u = u * t := by ext i; simp [mul_vector, mul_comm]
theorem C58_assoc : (t * u) * w = t * (u * w) := by ext i; simp [mul_vector, mul_assoc]
theorem C58_identity : Scale.identity * t = t ∧ (Scale.identity : Scale S n).applyPoint p = p ∧
    (Scale.identity : Scale S n).applyVector v = v := by
  refine ⟨?_, ?_, ?_⟩
  · ext i; simp [mul_vector, Scale.identity, Scale.fromScale]
  · apply Pt.ext_data; intro i; rw [(C58_apply _ v _ i).2]; simp [Scale.identity, Scale.fromScale]
  · ext i; rw [(C58_apply _ _ p i).1]; simp [Scale.identity, Scale.fromScale]

/-- a uniform scale multiplies by its factor -/
theorem C58_uniform (k : S) : (Scale.fromScale k : Scale S n).applyVector v = v * k ∧
    (Scale.fromScale k : Scale S n).applyPoint p = p * k := by
  constructor
  · ext i; rw [(C58_apply _ _ p i).1]; simp [Scale.fromScale, mul_comm]
  · apply Pt.ext_data; intro i; rw [(C58_apply _ v _ i).2]; simp [Scale.fromScale, mul_comm]

/-- the matrices act identically -/
theorem C58_matrix : t.toMatrix * v = t.applyVector v := by
  ext r; rw [mulVec_data, (C58_apply _ _ ⟨v⟩ r).1]; simp [Scale.toMatrix]
theorem C58_affine_matrix : t.toAffineMatrix * p.toHomogeneous = (t.applyPoint p).toHomogeneous ∧
    t.toAffineMatrix * v.extend 0 = (t.applyVector v).extend 0 := by
  constructor
  · refine (C23_nonuniform_scale_point t.vector p).trans ?_
    congr 1
  · refine (C23_nonuniform_scale_vector t.vector v).trans ?_
    congr 1
theorem C58_affine_mul : (t * u).toAffineMatrix = t.toAffineMatrix * u.toAffineMatrix :=
  (C23_scale_compose t.vector u.vector).symm
theorem C58_matrix_mul : (t * u).toMatrix = t.toMatrix * u.toMatrix := by
  apply Mat.ext_data; intro c r
  simp [Scale.toMatrix, mul_data, mul_vector]
end Ring

section Field
variable [Field S] (t : Scale S n) (p : Pt S n) (v : Vec S n)

/-- when no factor is zero the inverse undoes the scaling, on both sides and in both forms -/
theorem C58_inverse (h : ∀ i, t.vector.data i ≠ 0) :
    t.inverse * t = Scale.identity ∧ t * t.inverse = Scale.identity ∧
    t.inverseApplyPoint (t.applyPoint p) = p ∧ t.applyPoint (t.inverseApplyPoint p) = p ∧
    t.inverseApplyVector (t.applyVector v) = v ∧ t.applyVector (t.inverseApplyVector v) = v := by
  refine ⟨?_, ?_, ?_, ?_, ?_, ?_⟩
  · ext i; rw [mul_vector]; simp [C58_inverse_entry, Scale.identity, Scale.fromScale, h i]
  · ext i; rw [mul_vector]; simp [C58_inverse_entry, Scale.identity, Scale.fromScale, h i]
  · apply Pt.ext_data; intro i; rw [(C58_inverse_apply_entry _ v _ i).2, (C58_apply _ v _ i).2]; field_simp [h i]
  · apply Pt.ext_data; intro i; rw [(C58_apply _ v _ i).2, (C58_inverse_apply_entry _ v _ i).2]; field_simp [h i]
  · ext i; rw [(C58_inverse_apply_entry _ _ p i).1, (C58_apply _ _ p i).1]; field_simp [h i]
  · ext i; rw [(C58_apply _ _ p i).1, (C58_inverse_apply_entry _ _ p i).1]; field_simp [h i]

/-- the two inverse forms agree (without a condition on the factors, division being total here) -/
theorem C58_inverse_agree : t.inverseApplyPoint p = t.inverse.applyPoint p ∧
    t.inverseApplyVector v = t.inverse.applyVector v := by
  constructor
  · apply Pt.ext_data; intro i
    rw [(C58_inverse_apply_entry _ v _ i).2, (C58_apply _ v _ i).2, C58_inverse_entry]; ring
  · ext i; rw [(C58_inverse_apply_entry _ _ p i).1, (C58_apply _ _ p i).1, C58_inverse_entry]; ring

/-- with a zero factor nothing undoes it -/
theorem C58_singular (i : Fin n) (h : t.vector.data i = 0) (u : Scale S n) : u * t ≠ Scale.identity := by
  intro e
  have := congrArg (fun s : Scale S n => s.vector.data i) e
  simp [mul_vector, h, Scale.identity, Scale.fromScale] at this

theorem C58_transform [DecidableEq S] : Spec.Represents t.toTransform t.applyPoint t.applyVector := by
  have h : ∀ (v : Vec S n) (w : S), t.toTransform.matrix * v.extend w =
      (t.toMatrix * v + (0 : Vec S n) * w).extend w := by
    intro v w
    refine (fromAffineNonuniformScale_mul t.vector v w).trans ?_
    congr 1; rw [C58_matrix]; ext i
    simp [(C58_apply t v ⟨v⟩ i).1]
  have := Transform.represents_of_affine h
  refine ⟨fun p => ?_, fun v => ?_⟩
  · rw [this.point, C58_matrix]; congr 1
    apply Pt.ext_data; intro i; simp [(C58_apply t p.coords p i).1, (C58_apply t p.coords p i).2]
  · rw [this.vector, C58_matrix]
end Field

/-- a uniform scale multiplies distances by the size of its factor -/
theorem C58_distance (k : ℝ) (p q : Pt ℝ n) :
    ((Scale.fromScale k : Scale ℝ n).applyPoint p).metricDistance ((Scale.fromScale k : Scale ℝ n).applyPoint q) =
      |k| * p.metricDistance q := by
  rw [(C58_uniform p 0 k).2, (C58_uniform q 0 k).2, C12_distance, C12_distance]
  have e : p * k - q * k = (p - q) * k := by ext i; simp; ring
  rw [e, Vec.norm_mulS, mul_comm]

example : (Scale.new2 2 3 : Scale ℚ 2).inverse = Scale.new2 (1 / 2) (1 / 3) := by
  ext i; rw [C58_inverse_entry]; fin_cases i <;> rfl

end Cgl
