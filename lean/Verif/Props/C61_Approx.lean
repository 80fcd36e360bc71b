import Verif.Model.Approx
import Verif.Lemmas.Matrix
import Mathlib.Data.Real.Basic

/-! # C61 - approximate equality is componentwise -/

namespace Cgl

/-- Specification.  `X S` is a type of values built from scalars of type `S`: it has a family of components that
determine the value; `eq` compares two values with a tolerance for each component, `allEq` with one tolerance for all;
both accept exactly when the scalar comparison `cmp` accepts every pair of components. -/
def Spec.Componentwise (X : Type → Type)
    (eq : ∀ S T : Type, (S → S → T → Bool) → X S → X S → X T → Bool)
    (allEq : ∀ S T : Type, (S → S → T → Bool) → X S → X S → T → Bool) : Prop :=
  ∃ (ι : Type) (component : ∀ S : Type, X S → ι → S),
    (∀ (S : Type) (x y : X S), (∀ i, component S x i = component S y i) → x = y) ∧
    (∀ (S T : Type) (cmp : S → S → T → Bool) (x y : X S) (tol : X T),
      eq S T cmp x y tol = true ↔ ∀ i, cmp (component S x i) (component S y i) (component T tol i) = true) ∧
    (∀ (S T : Type) (cmp : S → S → T → Bool) (x y : X S) (tol : T),
      allEq S T cmp x y tol = true ↔ ∀ i, cmp (component S x i) (component S y i) tol = true)

section
variable {S T : Type} {n R C : ℕ} (cmp : S → S → T → Bool)

private theorem vec_eq (x y : Vec S n) (tol : Vec T n) :
    x.approxEq cmp y tol = true ↔ ∀ i, cmp (x.data i) (y.data i) (tol.data i) = true := by
  unfold Vec.approxEq; rw [forRange_and]; simp
private theorem vec_all (x y : Vec S n) (tol : T) :
    x.approxAllEq cmp y tol = true ↔ ∀ i, cmp (x.data i) (y.data i) tol = true := by
  unfold Vec.approxAllEq; rw [forRange_and]; simp
private theorem mat_eq (x y : Mat S R C) (tol : Mat T R C) :
    x.approxEq cmp y tol = true ↔ ∀ c r, cmp (x.data c r) (y.data c r) (tol.data c r) = true := by
  unfold Mat.approxEq; rw [Mat.forRange_and2]; simp
private theorem mat_all (x y : Mat S R C) (tol : T) :
    x.approxAllEq cmp y tol = true ↔ ∀ c r, cmp (x.data c r) (y.data c r) tol = true := by
  unfold Mat.approxAllEq; rw [Mat.forRange_and2]; simp
end

theorem C61_vector (n : ℕ) : Spec.Componentwise (Vec · n) (fun _ _ => Vec.approxEq) (fun _ _ => Vec.approxAllEq) :=
  ⟨Fin n, fun _ x i => x.data i, fun _ _ _ h => Vec.ext (funext h), fun _ _ cmp x y t => vec_eq cmp x y t,
    fun _ _ cmp x y t => vec_all cmp x y t⟩
theorem C61_point (n : ℕ) : Spec.Componentwise (Pt · n) (fun _ _ => Pt.approxEq) (fun _ _ => Pt.approxAllEq) :=
  ⟨Fin n, fun _ x i => x.coords.data i, fun _ _ _ h => Pt.ext (Vec.ext (funext h)),
    fun _ _ cmp x y t => vec_eq cmp x.coords y.coords t.coords, fun _ _ cmp x y t => vec_all cmp x.coords y.coords t⟩
theorem C61_matrix (R C : ℕ) : Spec.Componentwise (Mat · R C) (fun _ _ => Mat.approxEq) (fun _ _ => Mat.approxAllEq) :=
  ⟨Fin C × Fin R, fun _ x i => x.data i.1 i.2, fun _ _ _ h => Mat.ext (funext fun c => funext fun r => h (c, r)),
    fun _ _ cmp x y t => (mat_eq cmp x y t).trans ⟨fun h i => h i.1 i.2, fun h c r => h (c, r)⟩,
    fun _ _ cmp x y t => (mat_all cmp x y t).trans ⟨fun h i => h i.1 i.2, fun h c r => h (c, r)⟩⟩
theorem C61_complex : Spec.Componentwise Cx (fun _ _ => Cx.approxEq) (fun _ _ => Cx.approxAllEq) :=
  ⟨Bool, fun _ x i => if i then x.re else x.im, fun _ _ _ h => Cx.ext (h true) (h false),
    fun _ _ cmp x y t => by simp [Cx.approxEq, and_comm], fun _ _ cmp x y t => by simp [Cx.approxAllEq, and_comm]⟩
theorem C61_quaternion : Spec.Componentwise Quat (fun _ _ => Quat.approxEq) (fun _ _ => Quat.approxAllEq) :=
  ⟨Fin 4, fun _ x i => x.coords.data i, fun _ _ _ h => Quat.ext (Vec.ext (funext h)),
    fun _ _ cmp x y t => vec_eq cmp x.coords y.coords t.coords, fun _ _ cmp x y t => vec_all cmp x.coords y.coords t⟩
theorem C61_radians : Spec.Componentwise Radians (fun _ _ => Radians.approxEq) (fun _ _ => Radians.approxAllEq) :=
  ⟨PUnit, fun _ x _ => x.val, fun _ _ _ h => Radians.ext (h ⟨⟩), fun _ _ cmp x y t => by simp [Radians.approxEq],
    fun _ _ cmp x y t => by simp [Radians.approxAllEq]⟩
theorem C61_degrees : Spec.Componentwise Degrees (fun _ _ => Degrees.approxEq) (fun _ _ => Degrees.approxAllEq) :=
  ⟨PUnit, fun _ x _ => x.val, fun _ _ _ h => Degrees.ext (h ⟨⟩), fun _ _ cmp x y t => by simp [Degrees.approxEq],
    fun _ _ cmp x y t => by simp [Degrees.approxAllEq]⟩
theorem C61_euler : Spec.Componentwise Euler (fun _ _ => Euler.approxEq) (fun _ _ => Euler.approxAllEq) :=
  ⟨Fin 3, fun _ x i => ![x.x, x.y, x.z] i, fun _ _ _ h => Euler.ext (h 0) (h 1) (h 2),
    fun _ _ cmp x y t => by simp [Euler.approxEq, Fin.forall_fin_succ, and_assoc],
    fun _ _ cmp x y t => by simp [Euler.approxAllEq, Fin.forall_fin_succ, and_assoc]⟩
theorem C61_translation (n : ℕ) :
    Spec.Componentwise (Translation · n) (fun _ _ => Translation.approxEq) (fun _ _ => Translation.approxAllEq) :=
  ⟨Fin n, fun _ x i => x.vector.data i, fun _ _ _ h => Translation.ext (Vec.ext (funext h)),
    fun _ _ cmp x y t => vec_eq cmp x.vector y.vector t.vector, fun _ _ cmp x y t => vec_all cmp x.vector y.vector t⟩
theorem C61_scale (n : ℕ) : Spec.Componentwise (Scale · n) (fun _ _ => Scale.approxEq) (fun _ _ => Scale.approxAllEq) :=
  ⟨Fin n, fun _ x i => x.vector.data i, fun _ _ _ h => Scale.ext (Vec.ext (funext h)),
    fun _ _ cmp x y t => vec_eq cmp x.vector y.vector t.vector, fun _ _ cmp x y t => vec_all cmp x.vector y.vector t⟩
theorem C61_rotation (n : ℕ) :
    Spec.Componentwise (Rotation · n) (fun _ _ => Rotation.approxEq) (fun _ _ => Rotation.approxAllEq) :=
  ⟨Fin n × Fin n, fun _ x i => x.matrix.data i.1 i.2,
    fun _ _ _ h => Rotation.ext (Mat.ext (funext fun c => funext fun r => h (c, r))),
    fun _ _ cmp x y t => (mat_eq cmp x.matrix y.matrix t.matrix).trans ⟨fun h i => h i.1 i.2, fun h c r => h (c, r)⟩,
    fun _ _ cmp x y t => (mat_all cmp x.matrix y.matrix t).trans ⟨fun h i => h i.1 i.2, fun h c r => h (c, r)⟩⟩
theorem C61_transform (n : ℕ) :
    Spec.Componentwise (Transform · n) (fun _ _ => Transform.approxEq) (fun _ _ => Transform.approxAllEq) :=
  ⟨Fin (n + 1) × Fin (n + 1), fun _ x i => x.matrix.data i.1 i.2,
    fun _ _ _ h => Transform.ext (Mat.ext (funext fun c => funext fun r => h (c, r))),
    fun _ _ cmp x y t => (mat_eq cmp x.matrix y.matrix t.matrix).trans ⟨fun h i => h i.1 i.2, fun h c r => h (c, r)⟩,
    fun _ _ cmp x y t => (mat_all cmp x.matrix y.matrix t).trans ⟨fun h i => h i.1 i.2, fun h c r => h (c, r)⟩⟩
theorem C61_perspective :
    Spec.Componentwise Perspective3 (fun _ _ => Perspective3.approxEq) (fun _ _ => Perspective3.approxAllEq) :=
  ⟨Fin 4 × Fin 4, fun _ x i => x.matrix.data i.1 i.2,
    fun _ _ _ h => Perspective3.ext (Mat.ext (funext fun c => funext fun r => h (c, r))),
    fun _ _ cmp x y t => (mat_eq cmp x.matrix y.matrix t.matrix).trans ⟨fun h i => h i.1 i.2, fun h c r => h (c, r)⟩,
    fun _ _ cmp x y t => (mat_all cmp x.matrix y.matrix t).trans ⟨fun h i => h i.1 i.2, fun h c r => h (c, r)⟩⟩
theorem C61_orthographic :
    Spec.Componentwise Orthographic3 (fun _ _ => Orthographic3.approxEq) (fun _ _ => Orthographic3.approxAllEq) :=
  ⟨Fin 4 × Fin 4, fun _ x i => x.matrix.data i.1 i.2,
    fun _ _ _ h => Orthographic3.ext (Mat.ext (funext fun c => funext fun r => h (c, r))),
    fun _ _ cmp x y t => (mat_eq cmp x.matrix y.matrix t.matrix).trans ⟨fun h i => h i.1 i.2, fun h c r => h (c, r)⟩,
    fun _ _ cmp x y t => (mat_all cmp x.matrix y.matrix t).trans ⟨fun h i => h i.1 i.2, fun h c r => h (c, r)⟩⟩

/-- the relative and ulps comparisons of isometries, and all comparisons with a tolerance per component -/
theorem C61_isometry_relative (n : ℕ) :
    Spec.Componentwise (Isometry · n) (fun _ _ => Isometry.approxEq) (fun _ _ => Isometry.approxAllEq) :=
  ⟨(Fin n × Fin n) ⊕ Fin n,
    fun _ x i => i.elim (fun i : Fin n × Fin n => x.rotation.matrix.data i.1 i.2) (fun i => x.translation.vector.data i),
    fun _ _ _ h => Isometry.ext
      (Rotation.ext (Mat.ext (funext fun c => funext fun r => h (.inl (c, r)))))
      (Translation.ext (Vec.ext (funext fun i => h (.inr i)))),
    fun _ _ cmp x y t => by
      simp only [Isometry.approxEq, Bool.and_eq_true, mat_eq, vec_eq, Sum.forall, Sum.elim_inl, Sum.elim_inr, Prod.forall],
    fun _ _ cmp x y t => by
      simp only [Isometry.approxAllEq, Bool.and_eq_true, mat_all, vec_all, Sum.forall, Sum.elim_inl, Sum.elim_inr,
        Prod.forall]⟩
theorem C61_similarity (n : ℕ) :
    Spec.Componentwise (Similarity · n) (fun _ _ => Similarity.approxEq) (fun _ _ => Similarity.approxAllEq) :=
  ⟨((Fin n × Fin n) ⊕ Fin n) ⊕ PUnit,
    fun _ x i => i.elim (fun i : (Fin n × Fin n) ⊕ Fin n => i.elim (fun i : Fin n × Fin n => x.isometry.rotation.matrix.data i.1 i.2)
      (fun i => x.isometry.translation.vector.data i)) (fun _ => x.scale),
    fun _ _ _ h => Similarity.ext (Isometry.ext
      (Rotation.ext (Mat.ext (funext fun c => funext fun r => h (.inl (.inl (c, r))))))
      (Translation.ext (Vec.ext (funext fun i => h (.inl (.inr i)))))) (h (.inr ⟨⟩)),
    fun _ _ cmp x y t => by
      simp only [Similarity.approxEq, Bool.and_eq_true, mat_eq, vec_eq, Sum.forall, Sum.elim_inl, Sum.elim_inr,
        Prod.forall, forall_const],
    fun _ _ cmp x y t => by
      simp only [Similarity.approxAllEq, Bool.and_eq_true, mat_all, vec_all, Sum.forall, Sum.elim_inl, Sum.elim_inr,
        Prod.forall, forall_const]⟩
theorem C61_reflection (n : ℕ) :
    Spec.Componentwise (Reflection · n) (fun _ _ => Reflection.approxEq) (fun _ _ => Reflection.approxAllEq) :=
  ⟨Fin n ⊕ Fin n, fun _ x i => i.elim (fun i => x.normal.data i) (fun i => x.bias.coords.data i),
    fun _ _ _ h => Reflection.ext (Vec.ext (funext fun i => h (.inl i))) (Pt.ext (Vec.ext (funext fun i => h (.inr i)))),
    fun _ _ cmp x y t => by
      simp only [Reflection.approxEq, Pt.approxEq, Bool.and_eq_true, vec_eq, Sum.forall, Sum.elim_inl, Sum.elim_inr],
    fun _ _ cmp x y t => by
      simp only [Reflection.approxAllEq, Pt.approxAllEq, Bool.and_eq_true, vec_all, Sum.forall, Sum.elim_inl,
        Sum.elim_inr]⟩
theorem C61_shear (n : ℕ) : Spec.Componentwise (Shear · n) (fun _ _ => Shear.approxEq) (fun _ _ => Shear.approxAllEq) :=
  ⟨((PUnit ⊕ Fin n) ⊕ Fin n) ⊕ Fin n,
    fun _ x i => i.elim (fun i : (PUnit ⊕ Fin n) ⊕ Fin n => i.elim (fun i : PUnit ⊕ Fin n => i.elim (fun _ => x.shearFactor) (fun i => x.origin.coords.data i))
      (fun i => x.direction.data i)) (fun i => x.normal.data i),
    fun _ _ _ h => Shear.ext (h (.inl (.inl (.inl ⟨⟩)))) (Pt.ext (Vec.ext (funext fun i => h (.inl (.inl (.inr i))))))
      (Vec.ext (funext fun i => h (.inl (.inr i)))) (Vec.ext (funext fun i => h (.inr i))),
    fun _ _ cmp x y t => by
      simp only [Shear.approxEq, Pt.approxEq, Bool.and_eq_true, vec_eq, Sum.forall, Sum.elim_inl, Sum.elim_inr,
        forall_const],
    fun _ _ cmp x y t => by
      simp only [Shear.approxAllEq, Pt.approxAllEq, Bool.and_eq_true, vec_all, Sum.forall, Sum.elim_inl, Sum.elim_inr,
        forall_const]⟩

/-! ### consequences for the comparison by absolute difference -/

section
variable {X : Type → Type} {eq : ∀ S T : Type, (S → S → T → Bool) → X S → X S → X T → Bool}
  {allEq : ∀ S T : Type, (S → S → T → Bool) → X S → X S → T → Bool} (h : Spec.Componentwise X eq allEq)
include h

/-- reflexive for a non-negative tolerance -/
theorem C61_refl (x : X ℝ) (tol : ℝ) (ht : 0 ≤ tol) : allEq ℝ ℝ absDiffEq x x tol = true := by
  obtain ⟨ι, comp, -, -, ha⟩ := h
  exact (ha _ _ _ _ _ _).mpr fun i => by simpa [absDiffEq, sabs_eq] using ht
/-- symmetric, whatever the tolerance -/
theorem C61_symm (x y : X ℝ) (tol : ℝ) : allEq ℝ ℝ absDiffEq x y tol = allEq ℝ ℝ absDiffEq y x tol := by
  obtain ⟨ι, comp, -, -, ha⟩ := h
  rw [Bool.eq_iff_iff, ha, ha]
  simp only [absDiffEq, sabs_eq, abs_sub_comm]
theorem C61_symm_each (x y : X ℝ) (tol : X ℝ) : eq ℝ ℝ absDiffEq x y tol = eq ℝ ℝ absDiffEq y x tol := by
  obtain ⟨ι, comp, -, he, -⟩ := h
  rw [Bool.eq_iff_iff, he, he]
  simp only [absDiffEq, sabs_eq, abs_sub_comm]
/-- a zero tolerance is equality -/
theorem C61_zero (x y : X ℝ) : allEq ℝ ℝ absDiffEq x y 0 = true ↔ x = y := by
  obtain ⟨ι, comp, hi, -, ha⟩ := h
  rw [ha]
  simp only [absDiffEq, sabs_eq, decide_eq_true_eq, abs_nonpos_iff, sub_eq_zero]
  exact ⟨hi _ _ _, fun e _ => by rw [e]⟩
/-- a larger tolerance accepts more -/
theorem C61_mono (x y : X ℝ) {s t : ℝ} (hst : s ≤ t) (hs : allEq ℝ ℝ absDiffEq x y s = true) :
    allEq ℝ ℝ absDiffEq x y t = true := by
  obtain ⟨ι, comp, -, -, ha⟩ := h
  rw [ha] at hs ⊢
  simp only [absDiffEq, sabs_eq, decide_eq_true_eq] at hs ⊢
  exact fun i => (hs i).trans hst
/-- tolerances add up along a chain -/
theorem C61_triangle (x y z : X ℝ) {s t : ℝ} (h1 : allEq ℝ ℝ absDiffEq x y s = true)
    (h2 : allEq ℝ ℝ absDiffEq y z t = true) : allEq ℝ ℝ absDiffEq x z (s + t) = true := by
  obtain ⟨ι, comp, -, -, ha⟩ := h
  rw [ha] at h1 h2 ⊢
  simp only [absDiffEq, sabs_eq, decide_eq_true_eq] at h1 h2 ⊢
  exact fun i => (abs_sub_le _ _ _).trans (add_le_add (h1 i) (h2 i))
/-- the relative comparison is reflexive and symmetric too -/
theorem C61_relative (x y : X ℝ) (tol : ℝ × ℝ) : (0 ≤ tol.1 → allEq ℝ (ℝ × ℝ) relativeEq x x tol = true) ∧
    allEq ℝ (ℝ × ℝ) relativeEq x y tol = allEq ℝ (ℝ × ℝ) relativeEq y x tol := by
  obtain ⟨ι, comp, -, -, ha⟩ := h
  constructor
  · intro ht
    exact (ha _ _ _ _ _ _).mpr fun i => by simp [relativeEq, sabs_eq, ht]
  · rw [Bool.eq_iff_iff, ha, ha]
    have : ∀ a b : ℝ, relativeEq a b tol = relativeEq b a tol := fun a b => by
      simp only [relativeEq, sabs_eq, abs_sub_comm a b, max_comm |a| |b|]
    simp only [this]
end

/-! ### isometries compared by absolute difference with a single tolerance -/

/-- The full property fails: the translations are not looked at, so isometries any distance apart compare equal. -/
theorem C61_isometry_fails : ∀ tol : ℝ, 0 ≤ tol → ∃ x y : Isometry ℝ 3,
    Isometry.absDiffAllEq absDiffEq x y tol = true ∧ ∃ i, ¬ |x.translation.vector.data i - y.translation.vector.data i| ≤ tol := by
  intro tol ht
  refine ⟨⟨⟨⟨fun _ _ => 0⟩⟩, ⟨⟨fun _ => 0⟩⟩⟩, ⟨⟨⟨fun _ _ => 0⟩⟩, ⟨⟨fun _ => tol + 1⟩⟩⟩, ?_, 0, ?_⟩
  · unfold Isometry.absDiffAllEq
    rw [mat_all]
    intro c r; simpa [absDiffEq, sabs_eq] using ht
  · simp only [zero_sub, abs_neg, not_le]
    exact (lt_add_one tol).trans_le (le_abs_self _)

/-- hence it is not the componentwise comparison -/
theorem C61_isometry_not_componentwise :
    ¬ ∀ x y : Isometry ℝ 3, Isometry.absDiffAllEq absDiffEq x y 0 = true → x = y := by
  intro h
  obtain ⟨x, y, h1, i, h2⟩ := C61_isometry_fails 0 le_rfl
  rw [h x y h1] at h2
  simp at h2

/-- What does hold: it accepts exactly when the rotation components are close. -/
theorem C61_isometry_partial (n : ℕ) (x y : Isometry ℝ n) (tol : ℝ) :
    Isometry.absDiffAllEq absDiffEq x y tol = true ↔
      ∀ c r, |x.rotation.matrix.data c r - y.rotation.matrix.data c r| ≤ tol := by
  unfold Isometry.absDiffAllEq
  rw [mat_all]
  simp [absDiffEq, sabs_eq]

/-- a pair of vectors that is close with tolerance `1` but not with tolerance `1/2` -/
example : Vec.approxAllEq absDiffEq (⟨![1, 2, 3]⟩ : Vec ℝ 3) ⟨![1, 3, 3]⟩ 1 = true ∧
    Vec.approxAllEq absDiffEq (⟨![1, 2, 3]⟩ : Vec ℝ 3) ⟨![1, 3, 3]⟩ (1 / 2) = false := by
  constructor
  · rw [vec_all]
    intro i; fin_cases i <;> simp [absDiffEq, sabs_eq] <;> norm_num
  · rw [Bool.eq_false_iff, Ne, vec_all]
    intro h; have := h 1; simp [absDiffEq, sabs_eq] at this; norm_num at this

end Cgl
