import Verif.Model.Debug
import Verif.Props.C61_Approx

/-! # C70 - what a failed approximate comparison reports -/

namespace Cgl

/-- Specification.  `X S` is a type of values with a family of components, and `Y D` the type of the reports for it,
with the same family of components.  The functions `diff`, `tol`, `allTol` build the reports from functions `f` and `g`
on scalars; `eq` and `allEq` are the comparisons.

* Component `i` of a report is `f` or `g` at component `i` of the values, and of the tolerance; it says nothing else.
* Whenever the scalar comparison holds exactly if the scalar reports `f` and `g` are in a relation `ok`, the comparison
  of two values holds exactly if all components of their reports are: what is printed explains the verdict. -/
def Spec.Explains (X Y : Type → Type)
    (eq : ∀ S T : Type, (S → S → T → Bool) → X S → X S → X T → Bool)
    (allEq : ∀ S T : Type, (S → S → T → Bool) → X S → X S → T → Bool)
    (diff : ∀ S D : Type, (S → S → D) → X S → X S → Y D)
    (tol : ∀ S T D : Type, (S → S → T → D) → X S → X S → X T → Y D)
    (allTol : ∀ S T D : Type, (S → S → T → D) → X S → X S → T → Y D) : Prop :=
  ∃ (ι : Type) (component : ∀ S : Type, X S → ι → S) (entry : ∀ D : Type, Y D → ι → D),
    (∀ (S : Type) (x y : X S), (∀ i, component S x i = component S y i) → x = y) ∧
    (∀ (D : Type) (x y : Y D), (∀ i, entry D x i = entry D y i) → x = y) ∧
    (∀ (S D : Type) (f : S → S → D) (x y : X S) i,
      entry D (diff S D f x y) i = f (component S x i) (component S y i)) ∧
    (∀ (S T D : Type) (g : S → S → T → D) (x y : X S) (t : X T) i,
      entry D (tol S T D g x y t) i = g (component S x i) (component S y i) (component T t i)) ∧
    (∀ (S T D : Type) (g : S → S → T → D) (x y : X S) (t : T) i,
      entry D (allTol S T D g x y t) i = g (component S x i) (component S y i) t) ∧
    (∀ (S T D : Type) (cmp : S → S → T → Bool) (f : S → S → D) (g : S → S → T → D) (ok : D → D → Prop),
      (∀ a b t, cmp a b t = true ↔ ok (f a b) (g a b t)) →
      (∀ (x y : X S) (t : X T), eq S T cmp x y t = true ↔
        ∀ i, ok (entry D (diff S D f x y) i) (entry D (tol S T D g x y t) i)) ∧
      (∀ (x y : X S) (t : T), allEq S T cmp x y t = true ↔
        ∀ i, ok (entry D (diff S D f x y) i) (entry D (allTol S T D g x y t) i)))

section
variable {X Y : Type → Type}
    {eq : ∀ S T : Type, (S → S → T → Bool) → X S → X S → X T → Bool}
    {allEq : ∀ S T : Type, (S → S → T → Bool) → X S → X S → T → Bool}
    {diff : ∀ S D : Type, (S → S → D) → X S → X S → Y D}
    {tol : ∀ S T D : Type, (S → S → T → D) → X S → X S → X T → Y D}
    {allTol : ∀ S T D : Type, (S → S → T → D) → X S → X S → T → Y D}

private theorem explains (ι : Type) (component : ∀ S : Type, X S → ι → S) (entry : ∀ D : Type, Y D → ι → D)
    (h1 : ∀ (S : Type) (x y : X S), (∀ i, component S x i = component S y i) → x = y)
    (h2 : ∀ (D : Type) (x y : Y D), (∀ i, entry D x i = entry D y i) → x = y)
    (h3 : ∀ (S D : Type) (f : S → S → D) (x y : X S) i,
      entry D (diff S D f x y) i = f (component S x i) (component S y i))
    (h4 : ∀ (S T D : Type) (g : S → S → T → D) (x y : X S) (t : X T) i,
      entry D (tol S T D g x y t) i = g (component S x i) (component S y i) (component T t i))
    (h5 : ∀ (S T D : Type) (g : S → S → T → D) (x y : X S) (t : T) i,
      entry D (allTol S T D g x y t) i = g (component S x i) (component S y i) t)
    (h6 : ∀ (S T : Type) (cmp : S → S → T → Bool) (x y : X S) (t : X T),
      eq S T cmp x y t = true ↔ ∀ i, cmp (component S x i) (component S y i) (component T t i) = true)
    (h7 : ∀ (S T : Type) (cmp : S → S → T → Bool) (x y : X S) (t : T),
      allEq S T cmp x y t = true ↔ ∀ i, cmp (component S x i) (component S y i) t = true) :
    Spec.Explains X Y eq allEq diff tol allTol := by
  refine ⟨ι, component, entry, h1, h2, h3, h4, h5, fun S T D cmp f g ok h => ⟨fun x y t => ?_, fun x y t => ?_⟩⟩
  · rw [h6]
    exact forall_congr' fun i => by rw [h, h3, h4]
  · rw [h7]
    exact forall_congr' fun i => by rw [h, h3, h5]
end

section
variable {S T : Type} {n R C : ℕ} (cmp : S → S → T → Bool)
private theorem vec_eq (x y : Vec S n) (tol : Vec T n) :
    x.approxEq cmp y tol = true ↔ ∀ i, cmp (x.data i) (y.data i) (tol.data i) = true := by
  unfold Vec.approxEq; rw [forRange_and]; simp
private theorem vec_all (x y : Vec S n) (tol : T) :
    x.approxAllEq cmp y tol = true ↔ ∀ i, cmp (x.data i) (y.data i) tol = true := by
  unfold Vec.approxAllEq; rw [forRange_and]; simp
private theorem mat_eq (x y : Mat S R C) (tol : Mat T R C) :
    x.approxEq cmp y tol = true ↔ ∀ i : Fin C × Fin R, cmp (x.data i.1 i.2) (y.data i.1 i.2) (tol.data i.1 i.2) = true := by
  unfold Mat.approxEq; rw [Mat.forRange_and2]; simp
private theorem mat_all (x y : Mat S R C) (tol : T) :
    x.approxAllEq cmp y tol = true ↔ ∀ i : Fin C × Fin R, cmp (x.data i.1 i.2) (y.data i.1 i.2) tol = true := by
  unfold Mat.approxAllEq; rw [Mat.forRange_and2]; simp
end

/-- the reports of `Vector` -/
theorem C70_vector (n : ℕ) : Spec.Explains (Vec · n) (Vec · n) (fun _ _ => Vec.approxEq) (fun _ _ => Vec.approxAllEq)
    (fun _ _ => Vec.debugDiff) (fun _ _ _ => Vec.debugTol) (fun _ _ _ => Vec.debugAllTol) :=
  explains (Fin n) (fun _ x i => x.data i) (fun _ x i => x.data i) (fun _ _ _ h => Vec.ext (funext h))
    (fun _ _ _ h => Vec.ext (funext h)) (fun _ _ _ _ _ _ => rfl) (fun _ _ _ _ _ _ _ _ => rfl)
    (fun _ _ _ _ _ _ _ _ => rfl) (fun _ _ => vec_eq) (fun _ _ => vec_all)

/-- the reports of `Matrix` -/
theorem C70_matrix (R C : ℕ) : Spec.Explains (Mat · R C) (Mat · R C) (fun _ _ => Mat.approxEq)
    (fun _ _ => Mat.approxAllEq) (fun _ _ => Mat.debugDiff) (fun _ _ _ => Mat.debugTol)
    (fun _ _ _ => Mat.debugAllTol) :=
  explains (Fin C × Fin R) (fun _ x i => x.data i.1 i.2) (fun _ x i => x.data i.1 i.2)
    (fun _ _ _ h => Mat.ext (funext fun c => funext fun r => h (c, r)))
    (fun _ _ _ h => Mat.ext (funext fun c => funext fun r => h (c, r))) (fun _ _ _ _ _ _ => rfl)
    (fun _ _ _ _ _ _ _ _ => rfl) (fun _ _ _ _ _ _ _ _ => rfl) (fun _ _ => mat_eq) (fun _ _ => mat_all)

/-- the reports of `Point`, which are vectors -/
theorem C70_point (n : ℕ) : Spec.Explains (Pt · n) (Vec · n) (fun _ _ => Pt.approxEq) (fun _ _ => Pt.approxAllEq)
    (fun _ _ => Pt.debugDiff) (fun _ _ _ => Pt.debugTol) (fun _ _ _ => Pt.debugAllTol) :=
  explains (Fin n) (fun _ x i => x.coords.data i) (fun _ x i => x.data i)
    (fun _ _ _ h => Pt.ext (Vec.ext (funext h))) (fun _ _ _ h => Vec.ext (funext h)) (fun _ _ _ _ _ _ => rfl)
    (fun _ _ _ _ _ _ _ _ => rfl) (fun _ _ _ _ _ _ _ _ => rfl)
    (fun _ _ cmp x y t => vec_eq cmp x.coords y.coords t.coords) (fun _ _ cmp x y t => vec_all cmp x.coords y.coords t)

/-- the reports of `Quaternion`, which are vectors -/
theorem C70_quaternion : Spec.Explains Quat (Vec · 4) (fun _ _ => Quat.approxEq) (fun _ _ => Quat.approxAllEq)
    (fun _ _ => Quat.debugDiff) (fun _ _ _ => Quat.debugTol) (fun _ _ _ => Quat.debugAllTol) :=
  explains (Fin 4) (fun _ x i => x.coords.data i) (fun _ x i => x.data i)
    (fun _ _ _ h => Quat.ext (Vec.ext (funext h))) (fun _ _ _ h => Vec.ext (funext h)) (fun _ _ _ _ _ _ => rfl)
    (fun _ _ _ _ _ _ _ _ => rfl) (fun _ _ _ _ _ _ _ _ => rfl)
    (fun _ _ cmp x y t => vec_eq cmp x.coords y.coords t.coords) (fun _ _ cmp x y t => vec_all cmp x.coords y.coords t)

/-- the reports of `Complex` -/
theorem C70_complex : Spec.Explains Cx Cx (fun _ _ => Cx.approxEq) (fun _ _ => Cx.approxAllEq)
    (fun _ _ => Cx.debugDiff) (fun _ _ _ => Cx.debugTol) (fun _ _ _ => Cx.debugAllTol) :=
  explains Bool (fun _ x i => if i then x.re else x.im) (fun _ x i => if i then x.re else x.im)
    (fun _ _ _ h => Cx.ext (h true) (h false)) (fun _ _ _ h => Cx.ext (h true) (h false))
    (fun _ _ _ _ _ i => by cases i <;> rfl) (fun _ _ _ _ _ _ _ i => by cases i <;> rfl)
    (fun _ _ _ _ _ _ _ i => by cases i <;> rfl) (fun _ _ cmp x y t => by simp [Cx.approxEq, and_comm])
    (fun _ _ cmp x y t => by simp [Cx.approxAllEq, and_comm])

/-- the reports of `Radians`, which are those of the number -/
theorem C70_radians : Spec.Explains Radians (fun D => D) (fun _ _ => Radians.approxEq)
    (fun _ _ => Radians.approxAllEq) (fun _ _ => Radians.debugDiff) (fun _ _ _ => Radians.debugTol)
    (fun _ _ _ => Radians.debugAllTol) :=
  explains PUnit (fun _ x _ => x.val) (fun _ x _ => x) (fun _ _ _ h => Radians.ext (h ⟨⟩)) (fun _ _ _ h => h ⟨⟩)
    (fun _ _ _ _ _ _ => rfl) (fun _ _ _ _ _ _ _ _ => rfl) (fun _ _ _ _ _ _ _ _ => rfl)
    (fun _ _ cmp x y t => by simp [Radians.approxEq]) (fun _ _ cmp x y t => by simp [Radians.approxAllEq])

/-- the reports of `Degrees`, which are those of the number -/
theorem C70_degrees : Spec.Explains Degrees (fun D => D) (fun _ _ => Degrees.approxEq)
    (fun _ _ => Degrees.approxAllEq) (fun _ _ => Degrees.debugDiff) (fun _ _ _ => Degrees.debugTol)
    (fun _ _ _ => Degrees.debugAllTol) :=
  explains PUnit (fun _ x _ => x.val) (fun _ x _ => x) (fun _ _ _ h => Degrees.ext (h ⟨⟩)) (fun _ _ _ h => h ⟨⟩)
    (fun _ _ _ _ _ _ => rfl) (fun _ _ _ _ _ _ _ _ => rfl) (fun _ _ _ _ _ _ _ _ => rfl)
    (fun _ _ cmp x y t => by simp [Degrees.approxEq]) (fun _ _ cmp x y t => by simp [Degrees.approxAllEq])

/-- the reports of `EulerAngles` -/
theorem C70_euler : Spec.Explains Euler Euler (fun _ _ => Euler.approxEq) (fun _ _ => Euler.approxAllEq)
    (fun _ _ => Euler.debugDiff) (fun _ _ _ => Euler.debugTol) (fun _ _ _ => Euler.debugAllTol) :=
  explains (Fin 3) (fun _ x i => ![x.x, x.y, x.z] i) (fun _ x i => ![x.x, x.y, x.z] i)
    (fun _ _ _ h => Euler.ext (h 0) (h 1) (h 2)) (fun _ _ _ h => Euler.ext (h 0) (h 1) (h 2))
    (fun _ _ _ _ _ i => by fin_cases i <;> rfl) (fun _ _ _ _ _ _ _ i => by fin_cases i <;> rfl)
    (fun _ _ _ _ _ _ _ i => by fin_cases i <;> rfl)
    (fun _ _ cmp x y t => by simp [Euler.approxEq, Fin.forall_fin_succ, and_assoc])
    (fun _ _ cmp x y t => by simp [Euler.approxAllEq, Fin.forall_fin_succ, and_assoc])

/-- the reports of `Translation` -/
theorem C70_translation (n : ℕ) : Spec.Explains (Translation · n) (Translation · n) (fun _ _ => Translation.approxEq)
    (fun _ _ => Translation.approxAllEq) (fun _ _ => Translation.debugDiff) (fun _ _ _ => Translation.debugTol)
    (fun _ _ _ => Translation.debugAllTol) :=
  explains (Fin n) (fun _ x i => x.vector.data i) (fun _ x i => x.vector.data i)
    (fun _ _ _ h => Translation.ext (Vec.ext (funext h))) (fun _ _ _ h => Translation.ext (Vec.ext (funext h)))
    (fun _ _ _ _ _ _ => rfl) (fun _ _ _ _ _ _ _ _ => rfl) (fun _ _ _ _ _ _ _ _ => rfl)
    (fun _ _ cmp x y t => vec_eq cmp x.vector y.vector t.vector) (fun _ _ cmp x y t => vec_all cmp x.vector y.vector t)

/-- the reports of `Scale` -/
theorem C70_scale (n : ℕ) : Spec.Explains (Scale · n) (Scale · n) (fun _ _ => Scale.approxEq)
    (fun _ _ => Scale.approxAllEq) (fun _ _ => Scale.debugDiff) (fun _ _ _ => Scale.debugTol)
    (fun _ _ _ => Scale.debugAllTol) :=
  explains (Fin n) (fun _ x i => x.vector.data i) (fun _ x i => x.vector.data i)
    (fun _ _ _ h => Scale.ext (Vec.ext (funext h))) (fun _ _ _ h => Scale.ext (Vec.ext (funext h)))
    (fun _ _ _ _ _ _ => rfl) (fun _ _ _ _ _ _ _ _ => rfl) (fun _ _ _ _ _ _ _ _ => rfl)
    (fun _ _ cmp x y t => vec_eq cmp x.vector y.vector t.vector) (fun _ _ cmp x y t => vec_all cmp x.vector y.vector t)

/-- the reports of `Rotation` -/
theorem C70_rotation (n : ℕ) : Spec.Explains (Rotation · n) (Rotation · n) (fun _ _ => Rotation.approxEq)
    (fun _ _ => Rotation.approxAllEq) (fun _ _ => Rotation.debugDiff) (fun _ _ _ => Rotation.debugTol)
    (fun _ _ _ => Rotation.debugAllTol) :=
  explains (Fin n × Fin n) (fun _ x i => x.matrix.data i.1 i.2) (fun _ x i => x.matrix.data i.1 i.2)
    (fun _ _ _ h => Rotation.ext (Mat.ext (funext fun c => funext fun r => h (c, r))))
    (fun _ _ _ h => Rotation.ext (Mat.ext (funext fun c => funext fun r => h (c, r))))
    (fun _ _ _ _ _ _ => rfl) (fun _ _ _ _ _ _ _ _ => rfl) (fun _ _ _ _ _ _ _ _ => rfl)
    (fun _ _ cmp x y t => mat_eq cmp x.matrix y.matrix t.matrix) (fun _ _ cmp x y t => mat_all cmp x.matrix y.matrix t)

/-- the reports of `Transform` -/
theorem C70_transform (n : ℕ) : Spec.Explains (Transform · n) (Transform · n) (fun _ _ => Transform.approxEq)
    (fun _ _ => Transform.approxAllEq) (fun _ _ => Transform.debugDiff) (fun _ _ _ => Transform.debugTol)
    (fun _ _ _ => Transform.debugAllTol) :=
  explains (Fin (n + 1) × Fin (n + 1)) (fun _ x i => x.matrix.data i.1 i.2) (fun _ x i => x.matrix.data i.1 i.2)
    (fun _ _ _ h => Transform.ext (Mat.ext (funext fun c => funext fun r => h (c, r))))
    (fun _ _ _ h => Transform.ext (Mat.ext (funext fun c => funext fun r => h (c, r))))
    (fun _ _ _ _ _ _ => rfl) (fun _ _ _ _ _ _ _ _ => rfl) (fun _ _ _ _ _ _ _ _ => rfl)
    (fun _ _ cmp x y t => mat_eq cmp x.matrix y.matrix t.matrix) (fun _ _ cmp x y t => mat_all cmp x.matrix y.matrix t)

/-- the reports of `Perspective3` -/
theorem C70_perspective : Spec.Explains Perspective3 Perspective3 (fun _ _ => Perspective3.approxEq)
    (fun _ _ => Perspective3.approxAllEq) (fun _ _ => Perspective3.debugDiff) (fun _ _ _ => Perspective3.debugTol)
    (fun _ _ _ => Perspective3.debugAllTol) :=
  explains (Fin 4 × Fin 4) (fun _ x i => x.matrix.data i.1 i.2) (fun _ x i => x.matrix.data i.1 i.2)
    (fun _ _ _ h => Perspective3.ext (Mat.ext (funext fun c => funext fun r => h (c, r))))
    (fun _ _ _ h => Perspective3.ext (Mat.ext (funext fun c => funext fun r => h (c, r))))
    (fun _ _ _ _ _ _ => rfl) (fun _ _ _ _ _ _ _ _ => rfl) (fun _ _ _ _ _ _ _ _ => rfl)
    (fun _ _ cmp x y t => mat_eq cmp x.matrix y.matrix t.matrix) (fun _ _ cmp x y t => mat_all cmp x.matrix y.matrix t)

/-- the reports of `Orthographic3` -/
theorem C70_orthographic : Spec.Explains Orthographic3 Orthographic3 (fun _ _ => Orthographic3.approxEq)
    (fun _ _ => Orthographic3.approxAllEq) (fun _ _ => Orthographic3.debugDiff) (fun _ _ _ => Orthographic3.debugTol)
    (fun _ _ _ => Orthographic3.debugAllTol) :=
  explains (Fin 4 × Fin 4) (fun _ x i => x.matrix.data i.1 i.2) (fun _ x i => x.matrix.data i.1 i.2)
    (fun _ _ _ h => Orthographic3.ext (Mat.ext (funext fun c => funext fun r => h (c, r))))
    (fun _ _ _ h => Orthographic3.ext (Mat.ext (funext fun c => funext fun r => h (c, r))))
    (fun _ _ _ _ _ _ => rfl) (fun _ _ _ _ _ _ _ _ => rfl) (fun _ _ _ _ _ _ _ _ => rfl)
    (fun _ _ cmp x y t => mat_eq cmp x.matrix y.matrix t.matrix) (fun _ _ cmp x y t => mat_all cmp x.matrix y.matrix t)

private def isoComp {n : ℕ} (S : Type) (x : Isometry S n) : (Fin n × Fin n) ⊕ Fin n → S
  | .inl i => x.rotation.matrix.data i.1 i.2
  | .inr i => x.translation.vector.data i
private theorem isoComp_ext {n : ℕ} (S : Type) (x y : Isometry S n) (h : ∀ i, isoComp S x i = isoComp S y i) : x = y :=
  Isometry.ext (Rotation.ext (Mat.ext (funext fun c => funext fun r => h (.inl (c, r)))))
    (Translation.ext (Vec.ext (funext fun i => h (.inr i))))

/-- the reports of `Isometry`, with the comparisons other than `abs_diff_all_eq` -/
theorem C70_isometry_relative (n : ℕ) : Spec.Explains (Isometry · n) (Isometry · n) (fun _ _ => Isometry.approxEq)
    (fun _ _ => Isometry.approxAllEq) (fun _ _ => Isometry.debugDiff) (fun _ _ _ => Isometry.debugTol)
    (fun _ _ _ => Isometry.debugAllTol) :=
  explains ((Fin n × Fin n) ⊕ Fin n) isoComp isoComp isoComp_ext isoComp_ext
    (fun _ _ _ _ _ i => by rcases i with i | i <;> rfl) (fun _ _ _ _ _ _ _ i => by rcases i with i | i <;> rfl)
    (fun _ _ _ _ _ _ _ i => by rcases i with i | i <;> rfl)
    (fun _ _ cmp x y t => by simp only [Isometry.approxEq, Bool.and_eq_true, mat_eq, vec_eq, Sum.forall, isoComp])
    (fun _ _ cmp x y t => by simp only [Isometry.approxAllEq, Bool.and_eq_true, mat_all, vec_all, Sum.forall, isoComp])

/-- the reports of `Similarity` -/
theorem C70_similarity (n : ℕ) : Spec.Explains (Similarity · n) (Similarity · n) (fun _ _ => Similarity.approxEq)
    (fun _ _ => Similarity.approxAllEq) (fun _ _ => Similarity.debugDiff) (fun _ _ _ => Similarity.debugTol)
    (fun _ _ _ => Similarity.debugAllTol) :=
  explains (((Fin n × Fin n) ⊕ Fin n) ⊕ PUnit) (fun S x i => i.elim (isoComp S x.isometry) (fun _ => x.scale))
    (fun S x i => i.elim (isoComp S x.isometry) (fun _ => x.scale))
    (fun _ _ _ h => Similarity.ext (isoComp_ext _ _ _ fun i => h (.inl i)) (h (.inr ⟨⟩)))
    (fun _ _ _ h => Similarity.ext (isoComp_ext _ _ _ fun i => h (.inl i)) (h (.inr ⟨⟩)))
    (fun _ _ _ _ _ i => by rcases i with (i | i) | i <;> rfl)
    (fun _ _ _ _ _ _ _ i => by rcases i with (i | i) | i <;> rfl)
    (fun _ _ _ _ _ _ _ i => by rcases i with (i | i) | i <;> rfl)
    (fun _ _ cmp x y t => by
      simp only [Similarity.approxEq, Bool.and_eq_true, mat_eq, vec_eq, Sum.forall, isoComp, Sum.elim_inl,
        Sum.elim_inr, forall_const])
    (fun _ _ cmp x y t => by
      simp only [Similarity.approxAllEq, Bool.and_eq_true, mat_all, vec_all, Sum.forall, isoComp, Sum.elim_inl,
        Sum.elim_inr, forall_const])

/-- the reports of `Reflection` -/
theorem C70_reflection (n : ℕ) : Spec.Explains (Reflection · n) (Reflection · n) (fun _ _ => Reflection.approxEq)
    (fun _ _ => Reflection.approxAllEq) (fun _ _ => Reflection.debugDiff) (fun _ _ _ => Reflection.debugTol)
    (fun _ _ _ => Reflection.debugAllTol) :=
  explains (Fin n ⊕ Fin n) (fun _ x i => i.elim (fun i => x.normal.data i) (fun i => x.bias.coords.data i))
    (fun _ x i => i.elim (fun i => x.normal.data i) (fun i => x.bias.coords.data i))
    (fun _ _ _ h => Reflection.ext (Vec.ext (funext fun i => h (.inl i))) (Pt.ext (Vec.ext (funext fun i => h (.inr i)))))
    (fun _ _ _ h => Reflection.ext (Vec.ext (funext fun i => h (.inl i))) (Pt.ext (Vec.ext (funext fun i => h (.inr i)))))
    (fun _ _ _ _ _ i => by rcases i with i | i <;> rfl) (fun _ _ _ _ _ _ _ i => by rcases i with i | i <;> rfl)
    (fun _ _ _ _ _ _ _ i => by rcases i with i | i <;> rfl)
    (fun _ _ cmp x y t => by
      simp only [Reflection.approxEq, Pt.approxEq, Bool.and_eq_true, vec_eq, Sum.forall, Sum.elim_inl, Sum.elim_inr])
    (fun _ _ cmp x y t => by
      simp only [Reflection.approxAllEq, Pt.approxAllEq, Bool.and_eq_true, vec_all, Sum.forall, Sum.elim_inl,
        Sum.elim_inr])

private def shearComp {n : ℕ} (S : Type) (x : Shear S n) : ((PUnit ⊕ Fin n) ⊕ Fin n) ⊕ Fin n → S
  | .inl (.inl (.inl _)) => x.shearFactor
  | .inl (.inl (.inr i)) => x.origin.coords.data i
  | .inl (.inr i) => x.direction.data i
  | .inr i => x.normal.data i
private theorem shearComp_ext {n : ℕ} (S : Type) (x y : Shear S n) (h : ∀ i, shearComp S x i = shearComp S y i) :
    x = y :=
  Shear.ext (h (.inl (.inl (.inl ⟨⟩)))) (Pt.ext (Vec.ext (funext fun i => h (.inl (.inl (.inr i))))))
      (Vec.ext (funext fun i => h (.inl (.inr i)))) (Vec.ext (funext fun i => h (.inr i)))

/-- the reports of `Shear` -/
theorem C70_shear (n : ℕ) : Spec.Explains (Shear · n) (Shear · n) (fun _ _ => Shear.approxEq)
    (fun _ _ => Shear.approxAllEq) (fun _ _ => Shear.debugDiff) (fun _ _ _ => Shear.debugTol)
    (fun _ _ _ => Shear.debugAllTol) :=
  explains _ shearComp shearComp shearComp_ext shearComp_ext
    (fun _ _ _ _ _ i => by rcases i with ((i | i) | i) | i <;> rfl)
    (fun _ _ _ _ _ _ _ i => by rcases i with ((i | i) | i) | i <;> rfl)
    (fun _ _ _ _ _ _ _ i => by rcases i with ((i | i) | i) | i <;> rfl)
    (fun _ _ cmp x y t => by
      simp only [Shear.approxEq, Pt.approxEq, Bool.and_eq_true, vec_eq, Sum.forall, shearComp, forall_const])
    (fun _ _ cmp x y t => by
      simp only [Shear.approxAllEq, Pt.approxAllEq, Bool.and_eq_true, vec_all, Sum.forall, shearComp, forall_const])

/-- A unit wrapper compares and reports as the value it wraps: everything that is explained for a type `X` is explained
for `Unit<X>`, with the tolerances and reports of `X`. -/
theorem C70_unit {V Tol Rep : Type*} (eq : V → V → Tol → Bool) (diff : V → V → Rep) (tol : V → V → Tol → Rep)
    (explained : Rep → Rep → Prop) (h : ∀ x y t, eq x y t = true ↔ explained (diff x y) (tol x y t)) (x y : Unit' V)
    (t : Tol) :
    (Unit'.approxEq eq x y t = true ↔ explained (Unit'.debugDiff diff x y) (Unit'.debugTol tol x y t)) ∧
    (Unit'.approxAllEq eq x y t = true ↔ explained (Unit'.debugDiff diff x y) (Unit'.debugAllTol tol x y t)) :=
  ⟨h _ _ _, h _ _ _⟩

/-- A comparison of unit wrappers accepts exactly when the comparison of the wrapped vectors does. -/
theorem C70_unit_vector {S T : Type} {n : ℕ} (cmp : S → S → T → Bool) (x y : Unit' (Vec S n)) (t : T) (ts : Vec T n) :
    (Unit'.approxEq (Vec.approxEq cmp) x y ts = true ↔
      ∀ i, cmp (x.value.data i) (y.value.data i) (ts.data i) = true) ∧
    (Unit'.approxAllEq (Vec.approxAllEq cmp) x y t = true ↔ ∀ i, cmp (x.value.data i) (y.value.data i) t = true) :=
  ⟨vec_eq _ _ _ _, vec_all _ _ _ _⟩

/-! ### the comparisons of `approx_cmp` -/

section
variable {X Y : Type → Type}
    {eq : ∀ S T : Type, (S → S → T → Bool) → X S → X S → X T → Bool}
    {allEq : ∀ S T : Type, (S → S → T → Bool) → X S → X S → T → Bool}
    {diff : ∀ S D : Type, (S → S → D) → X S → X S → Y D}
    {tol : ∀ S T D : Type, (S → S → T → D) → X S → X S → X T → Y D}
    {allTol : ∀ S T D : Type, (S → S → T → D) → X S → X S → T → Y D}

/-- For every type above: `abs_diff_all_eq` accepts two values exactly when every reported difference is at most the
tolerance reported for it, and `abs_diff_eq` likewise; the difference reported for equal values is zero in every
component, and reporting does not depend on the order of the two values. -/
theorem C70_abs_diff (h : Spec.Explains X Y eq allEq diff tol allTol) :
    ∃ (ι : Type) (entry : Y ℝ → ι → ℝ), (∀ r s : Y ℝ, (∀ i, entry r i = entry s i) → r = s) ∧
      ∀ x y : X ℝ,
        (∀ t : ℝ, allEq ℝ ℝ absDiffEq x y t = true ↔ ∀ i,
          entry (diff ℝ ℝ (fun a b => |a - b|) x y) i ≤ entry (allTol ℝ ℝ ℝ (fun _ _ t => t) x y t) i) ∧
        (∀ (t : ℝ) i, entry (allTol ℝ ℝ ℝ (fun _ _ t => t) x y t) i = t) ∧
        (∀ t : X ℝ, eq ℝ ℝ absDiffEq x y t = true ↔ ∀ i,
          entry (diff ℝ ℝ (fun a b => |a - b|) x y) i ≤ entry (tol ℝ ℝ ℝ (fun _ _ t => t) x y t) i) ∧
        (x = y ↔ ∀ i, entry (diff ℝ ℝ (fun a b => |a - b|) x y) i = 0) ∧
        diff ℝ ℝ (fun a b => |a - b|) x y = diff ℝ ℝ (fun a b => |a - b|) y x := by
  obtain ⟨ι, c, e, h1, h2, h3, h4, h5, h6⟩ := h
  have hk := h6 ℝ ℝ ℝ absDiffEq (fun a b => |a - b|) (fun _ _ t => t) (· ≤ ·)
    (fun a b t => by simp [absDiffEq, sabs_eq])
  refine ⟨ι, e ℝ, h2 ℝ, fun x y => ⟨fun t => hk.2 x y t, fun t i => h5 _ _ _ _ _ _ _ _, fun t => hk.1 x y t, ?_, ?_⟩⟩
  · constructor
    · rintro rfl i
      rw [h3]; simp
    · intro hz
      refine h1 _ _ _ fun i => ?_
      have := hz i
      rw [h3, abs_eq_zero, sub_eq_zero] at this
      exact this
  · refine h2 _ _ _ fun i => ?_
    rw [h3, h3, abs_sub_comm]

/-- For every type above: `relative_all_eq` accepts two values exactly when every reported difference is within the
reported absolute tolerance or within the reported relative tolerance, which is the tolerance times the larger of the
two magnitudes. -/
theorem C70_relative (h : Spec.Explains X Y eq allEq diff tol allTol) :
    ∃ (ι : Type) (entry : Y ℝ → ι → ℝ), (∀ r s : Y ℝ, (∀ i, entry r i = entry s i) → r = s) ∧
      ∀ (x y : X ℝ) (t s : ℝ), allEq ℝ (ℝ × ℝ) relativeEq x y (t, s) = true ↔ ∀ i,
          entry (diff ℝ ℝ (fun a b => |a - b|) x y) i ≤ entry (allTol ℝ ℝ ℝ (fun _ _ t => t) x y t) i ∨
          entry (diff ℝ ℝ (fun a b => |a - b|) x y) i ≤
            entry (allTol ℝ ℝ ℝ (fun a b s => max |a| |b| * s) x y s) i := by
  obtain ⟨ι, c, e, h1, h2, h3, h4, h5, h6⟩ := h
  refine ⟨ι, e ℝ, h2 ℝ, fun x y t s => ?_⟩
  have hk := (h6 ℝ (ℝ × ℝ) (ℝ × ℝ) relativeEq (fun a b => (|a - b|, |a - b|))
    (fun a b t => (t.1, max |a| |b| * t.2)) (fun d t => d.1 ≤ t.1 ∨ d.2 ≤ t.2)
    (fun a b t => by simp [relativeEq, sabs_eq])).2 x y (t, s)
  rw [hk]
  exact forall_congr' fun i => by rw [h3, h3, h5, h5, h5]
end

/-- The exception: `abs_diff_all_eq` of isometries accepts values although the report shows a difference above the
tolerance, for any tolerance. -/
theorem C70_isometry_fails : ∀ t : ℝ, 0 ≤ t → ∃ x y : Isometry ℝ 3, Isometry.absDiffAllEq absDiffEq x y t = true ∧
    ∃ i, (Isometry.debugAllTol (fun _ _ t => t) x y t).translation.vector.data i <
      (Isometry.debugDiff (fun a b => |a - b|) x y).translation.vector.data i := by
  intro t ht
  obtain ⟨x, y, h1, i, h2⟩ := C61_isometry_fails t ht
  exact ⟨x, y, h1, i, not_le.mp h2⟩

/-- What holds for it: it accepts exactly when the rotation part of the report is within tolerance. -/
theorem C70_isometry_partial (n : ℕ) (x y : Isometry ℝ n) (t : ℝ) : Isometry.absDiffAllEq absDiffEq x y t = true ↔
    ∀ c r, (Isometry.debugDiff (fun a b => |a - b|) x y).rotation.matrix.data c r ≤
      (Isometry.debugAllTol (fun _ _ t => t) x y t).rotation.matrix.data c r :=
  C61_isometry_partial n x y t

/-- a vector comparison that fails, and its report: the second component is the one that is too far off -/
example : Vec.approxAllEq absDiffEq (⟨![1, 2, 3]⟩ : Vec ℝ 3) ⟨![1, 4, 3]⟩ 1 = false ∧
    (Vec.debugDiff (fun a b => |a - b|) (⟨![1, 2, 3]⟩ : Vec ℝ 3) ⟨![1, 4, 3]⟩) = ⟨![0, 2, 0]⟩ ∧
    (Vec.debugAllTol (fun _ _ t => t) (⟨![1, 2, 3]⟩ : Vec ℝ 3) ⟨![1, 4, 3]⟩ 1) = (⟨![1, 1, 1]⟩ : Vec ℝ 3) := by
  refine ⟨?_, ?_, ?_⟩
  · rw [Bool.eq_false_iff, Ne, vec_all]
    intro h; have := h 1; simp [absDiffEq, sabs_eq] at this; norm_num at this
  · ext i; fin_cases i <;> simp [Vec.debugDiff]; norm_num
  · ext i; fin_cases i <;> simp [Vec.debugAllTol]

end Cgl
