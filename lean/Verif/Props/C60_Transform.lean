import Verif.Lemmas.Transform
import Verif.Props.C11_Homogeneous
import Verif.Props.C13_MatMul
import Verif.Props.C18_Inverse

/-! # C60 - general homogeneous transforms -/

namespace Cgl
open Mat

variable {K : Type*} {n : ℕ}

/-- The homogeneous coordinate of the image of a point: last row of the matrix against `(p, 1)`. -/
def Spec.weight [CommRing K] (t : Transform K n) (p : Pt K n) : K :=
  (∑ i : Fin n, t.matrix.data i.castSucc (Fin.last n) * p.coords.data i) + t.matrix.data (Fin.last n) (Fin.last n)

/-- The transform is affine: its last row is `(0, ..., 0, 1)`. -/
def Spec.IsAffine [CommRing K] (t : Transform K n) : Prop :=
  (∀ i : Fin n, t.matrix.data i.castSucc (Fin.last n) = 0) ∧ t.matrix.data (Fin.last n) (Fin.last n) = 1

section Ring
variable [CommRing K] (t u w : Transform K n)

theorem C60_mul_assoc : (t * u) * w = t * (u * w) := by
  ext1; exact C13_mul_assoc _ _ _
theorem C60_identity : Transform.identity * t = t ∧ t * Transform.identity = t := by
  constructor <;> ext1
  · exact C13_one_mul _
  · exact C13_mul_one _

private theorem weight_eq (p : Pt K n) : (t.matrix * p.toHomogeneous).data (Fin.last n) = Spec.weight t p := by
  rw [mulVec_data, Fin.sum_univ_castSucc]
  simp [Pt.toHomogeneous_eq, Spec.weight]

/-- on vectors only the linear part acts -/
theorem C60_apply_vector (v : Vec K n) (i : Fin n) :
    (t.applyVector v).data i = ∑ j : Fin n, t.matrix.data j.castSucc i.castSucc * v.data j := by
  unfold Transform.applyVector
  rw [Vec.contract_data, mulVec_data, Fin.sum_univ_castSucc]; simp

theorem C60_apply_vector_linear (v v' : Vec K n) (k : K) :
    t.applyVector (v + v' * k) = t.applyVector v + t.applyVector v' * k := by
  ext i; simp only [Vec.add_data, Vec.mulS_data, C60_apply_vector, Finset.sum_mul, ← Finset.sum_add_distrib]
  apply Finset.sum_congr rfl; intro j _; ring

/-- vectors under composition of affine transforms (the inner one being affine is what is needed) -/
theorem C60_compose_vector (hu : ∀ i : Fin n, u.matrix.data i.castSucc (Fin.last n) = 0) (v : Vec K n) :
    (t * u).applyVector v = t.applyVector (u.applyVector v) := by
  have h : u.matrix * v.extend 0 = (u.applyVector v).extend 0 := by
    have e := Vec.extend_contract (u.matrix * v.extend 0)
    have l : (u.matrix * v.extend 0).data (Fin.last n) = 0 := by
      rw [mulVec_data, Fin.sum_univ_castSucc]; simp [hu]
    rw [l] at e; exact e.symm
  show ((t.matrix * u.matrix) * v.extend 0).contract = (t.matrix * (u.applyVector v).extend 0).contract
  rw [mul_mulVec, h]
end Ring

section Field
variable [Field K] [DecidableEq K] (t u w : Transform K n)

/-- panics exactly when the homogeneous coordinate of the image vanishes -/
theorem C60_apply_point_panics_iff (p : Pt K n) :
    (∃ e, t.applyPoint p = .error e) ↔ Spec.weight t p = 0 := by
  rw [← weight_eq]
  unfold Transform.applyPoint
  constructor
  · rintro ⟨e, h⟩
    by_contra hne
    rw [Pt.fromHomogeneous_of_ne _ hne] at h
    cases h
  · intro h
    rw [Pt.fromHomogeneous_of_eq _ h]; exact ⟨_, rfl⟩

/-- otherwise it is the image divided by its homogeneous coordinate -/
theorem C60_apply_point (p : Pt K n) (h : Spec.weight t p ≠ 0) : ∃ q, t.applyPoint p = .ok q ∧
    (t.matrix * p.toHomogeneous = q.toHomogeneous * Spec.weight t p) ∧
    ∀ i : Fin n, q.coords.data i =
      ((∑ j : Fin n, t.matrix.data j.castSucc i.castSucc * p.coords.data j) +
        t.matrix.data (Fin.last n) i.castSucc) / Spec.weight t p := by
  have hw := weight_eq t p
  have hv : ∀ i : Fin n, (t.matrix * p.toHomogeneous).data i.castSucc =
      (∑ j : Fin n, t.matrix.data j.castSucc i.castSucc * p.coords.data j) +
        t.matrix.data (Fin.last n) i.castSucc := by
    intro i; rw [mulVec_data, Fin.sum_univ_castSucc]; simp [Pt.toHomogeneous_eq]
  refine ⟨⟨(t.matrix * p.toHomogeneous).contract / (t.matrix * p.toHomogeneous).data (Fin.last n)⟩, ?_, ?_, ?_⟩
  · unfold Transform.applyPoint
    rw [Pt.fromHomogeneous_of_ne _ (by rw [hw]; exact h)]; rfl
  · ext i
    refine Fin.lastCases ?_ (fun i => ?_) i
    · rw [hw]; simp [Pt.toHomogeneous_eq]
    · rw [hw]; simp [Pt.toHomogeneous_eq, h]
  · intro i; rw [hw]; simp only [Vec.divS_data, Vec.contract_data]; rw [hv]

/-- composition is application in sequence: if the inner and outer images exist, the composite image is the outer
one -/
theorem C60_compose_point (p q r : Pt K n) (hu : u.applyPoint p = .ok q) (ht : t.applyPoint q = .ok r) :
    (t * u).applyPoint p = .ok r := by
  have wu : Spec.weight u p ≠ 0 := fun h => by
    obtain ⟨e, he⟩ := (C60_apply_point_panics_iff u p).mpr h; rw [he] at hu; cases hu
  have wt : Spec.weight t q ≠ 0 := fun h => by
    obtain ⟨e, he⟩ := (C60_apply_point_panics_iff t q).mpr h; rw [he] at ht; cases ht
  obtain ⟨q', h1, h2, -⟩ := C60_apply_point u p wu
  rw [h1] at hu; cases hu
  have e : (t * u).matrix * p.toHomogeneous = (t.matrix * q.toHomogeneous) * Spec.weight u p := by
    show (t.matrix * u.matrix) * p.toHomogeneous = _
    rw [mul_mulVec, h2, C13_mul_vec_scalar]
  unfold Transform.applyPoint at *
  rw [e, C11_point_scale_invariant _ _ wu, ht]

/-- and it never panics when both steps succeed; when the inner step succeeds it panics exactly when the outer
one does -/
theorem C60_compose_point_panics (p q : Pt K n) (hu : u.applyPoint p = .ok q) :
    (∃ e, (t * u).applyPoint p = .error e) ↔ (∃ e, t.applyPoint q = .error e) := by
  constructor
  · rintro ⟨e, he⟩
    cases h : t.applyPoint q with
    | error e' => exact ⟨e', rfl⟩
    | ok r => rw [C60_compose_point t u p q r hu h] at he; cases he
  · rintro ⟨e, he⟩
    have wu : Spec.weight u p ≠ 0 := fun h => by
      obtain ⟨e, he⟩ := (C60_apply_point_panics_iff u p).mpr h; rw [he] at hu; cases hu
    obtain ⟨q', h1, h2, -⟩ := C60_apply_point u p wu
    rw [h1] at hu; cases hu
    have e' : (t * u).matrix * p.toHomogeneous = (t.matrix * q.toHomogeneous) * Spec.weight u p := by
      show (t.matrix * u.matrix) * p.toHomogeneous = _
      rw [mul_mulVec, h2, C13_mul_vec_scalar]
    refine ⟨e, ?_⟩
    unfold Transform.applyPoint at *
    rw [e', C11_point_scale_invariant _ _ wu, he]

theorem C60_identity_action (p : Pt K n) (v : Vec K n) :
    (Transform.identity : Transform K n).applyPoint p = .ok p ∧
    (Transform.identity : Transform K n).applyVector v = v := by
  constructor
  · unfold Transform.applyPoint Transform.identity
    rw [identity_mulVec, C11_point_round_trip]; rfl
  · unfold Transform.applyVector Transform.identity
    rw [identity_mulVec, Vec.contract_extend]

/-- an affine transform never panics, and moves the difference of two points as a vector -/
theorem C60_affine (h : Spec.IsAffine t) (p q : Pt K n) : ∃ p' q', t.applyPoint p = .ok p' ∧ t.applyPoint q = .ok q' ∧
    p' - q' = t.applyVector (p - q) := by
  have hw : ∀ p, Spec.weight t p = 1 := fun p => by unfold Spec.weight; simp [h.1, h.2]
  obtain ⟨p', hp, -, ep⟩ := C60_apply_point t p (by rw [hw]; exact one_ne_zero)
  obtain ⟨q', hq, -, eq⟩ := C60_apply_point t q (by rw [hw]; exact one_ne_zero)
  refine ⟨p', q', hp, hq, ?_⟩
  ext i
  simp only [Pt.sub_eq, Vec.sub_data, ep, eq, hw, C60_apply_vector, div_one, mul_sub, Finset.sum_sub_distrib]
  ring

/-! ### inverses -/

/-- What an inverse function of transforms must satisfy. -/
structure Spec.InvertsTransforms (f : Transform K n → Option (Transform K n)) : Prop where
  none_iff : ∀ t, f t = none ↔ Spec.leibniz t.matrix = 0
  right : ∀ t s, f t = some s → t * s = Transform.identity
  left : ∀ t s, f t = some s → s * t = Transform.identity

theorem C60_try_inverse2 : Spec.InvertsTransforms (Transform.tryInverse2 (S := K)) where
  none_iff t := by unfold Transform.tryInverse2; rw [Option.map_eq_none_iff, C18_try_inverse3.none_iff]
  right t s h := by
    unfold Transform.tryInverse2 at h
    obtain ⟨m, hm, rfl⟩ := Option.map_eq_some_iff.mp h
    ext1; exact C18_try_inverse3.right _ _ hm
  left t s h := by
    unfold Transform.tryInverse2 at h
    obtain ⟨m, hm, rfl⟩ := Option.map_eq_some_iff.mp h
    ext1; exact C18_try_inverse3.left _ _ hm

theorem C60_try_inverse3 : Spec.InvertsTransforms (Transform.tryInverse3 (S := K)) where
  none_iff t := by unfold Transform.tryInverse3; rw [Option.map_eq_none_iff, C18_try_inverse4.none_iff]
  right t s h := by
    unfold Transform.tryInverse3 at h
    obtain ⟨m, hm, rfl⟩ := Option.map_eq_some_iff.mp h
    ext1; exact C18_try_inverse4.right _ _ hm
  left t s h := by
    unfold Transform.tryInverse3 at h
    obtain ⟨m, hm, rfl⟩ := Option.map_eq_some_iff.mp h
    ext1; exact C18_try_inverse4.left _ _ hm

/-- `inverse` is `try_inverse` with a panic for `None` -/
theorem C60_inverse (t : Transform K 2) (t' : Transform K 3) :
    ((∃ e, t.inverse2 = .error e) ↔ Spec.leibniz t.matrix = 0) ∧
    (∀ s, t.inverse2 = .ok s ↔ t.tryInverse2 = some s) ∧
    ((∃ e, t'.inverse3 = .error e) ↔ Spec.leibniz t'.matrix = 0) ∧
    (∀ s, t'.inverse3 = .ok s ↔ t'.tryInverse3 = some s) := by
  refine ⟨?_, ?_, ?_, ?_⟩
  · rw [← C60_try_inverse2.none_iff]; unfold Transform.inverse2
    cases t.tryInverse2 <;> simp [unwrap]
  · intro s; unfold Transform.inverse2
    cases t.tryInverse2 <;> simp [unwrap]
  · rw [← C60_try_inverse3.none_iff]; unfold Transform.inverse3
    cases t'.tryInverse3 <;> simp [unwrap]
  · intro s; unfold Transform.inverse3
    cases t'.tryInverse3 <;> simp [unwrap]

/-- the inverse undoes the transform on every point the transform can be applied to, in any dimension -/
theorem C60_undo_point {f : Transform K n → Option (Transform K n)} (hf : Spec.InvertsTransforms f) {t s : Transform K n}
    (h : f t = some s) (p q : Pt K n) (hp : t.applyPoint p = .ok q) : s.applyPoint q = .ok p := by
  have wt : Spec.weight t p ≠ 0 := fun h => by
    obtain ⟨e, he⟩ := (C60_apply_point_panics_iff t p).mpr h; rw [he] at hp; cases hp
  obtain ⟨q', h1, h2, -⟩ := C60_apply_point t p wt
  rw [h1] at hp; cases hp
  have e : s.matrix * (t.matrix * p.toHomogeneous) = p.toHomogeneous := by
    rw [← mul_mulVec, show s.matrix * t.matrix = identity from congrArg Transform.matrix (hf.left _ _ h),
      identity_mulVec]
  rw [h2, C13_mul_vec_scalar] at e
  have := C11_point_scale_invariant (s.matrix * q.toHomogeneous) _ wt
  rw [e, C11_point_round_trip] at this
  unfold Transform.applyPoint; rw [← this]; rfl

/-- and on every vector, when it is affine -/
theorem C60_undo_vector {f : Transform K n → Option (Transform K n)} (hf : Spec.InvertsTransforms f) {t s : Transform K n}
    (h : f t = some s) (ht : Spec.IsAffine t) (v : Vec K n) : s.applyVector (t.applyVector v) = v := by
  rw [← C60_compose_vector s t ht.1, hf.left _ _ h]
  exact (C60_identity_action ⟨v⟩ v).2

/-- `inverse_apply_*` apply the inverse, when there is one -/
theorem C60_inverse_apply (t : Transform K 2) (t' : Transform K 3) (v : Vec K 2) (v' : Vec K 3) (p : Pt K 2) (p' : Pt K 3) :
    t.inverseApplyVector2 v = (t.tryInverse2).map (fun s => s.applyVector v) ∧
    t'.inverseApplyVector3 v' = (t'.tryInverse3).map (fun s => s.applyVector v') ∧
    (∀ q, t.inverseApplyPoint2 p = .ok (some q) ↔ ∃ s, t.tryInverse2 = some s ∧ s.applyPoint p = .ok q) ∧
    (∀ q, t'.inverseApplyPoint3 p' = .ok (some q) ↔ ∃ s, t'.tryInverse3 = some s ∧ s.applyPoint p' = .ok q) ∧
    (t.inverseApplyPoint2 p = .ok none ↔ t.tryInverse2 = none) ∧
    (t'.inverseApplyPoint3 p' = .ok none ↔ t'.tryInverse3 = none) := by
  refine ⟨rfl, rfl, ?_, ?_, ?_, ?_⟩
  · intro q; unfold Transform.inverseApplyPoint2
    cases h : t.tryInverse2 with
    | none => simp
    | some s => cases h' : s.applyPoint p <;> simp [Except.map, h']
  · intro q; unfold Transform.inverseApplyPoint3
    cases h : t'.tryInverse3 with
    | none => simp
    | some s => cases h' : s.applyPoint p' <;> simp [Except.map, h']
  · unfold Transform.inverseApplyPoint2
    cases h : t.tryInverse2 with
    | none => simp
    | some s => cases h' : s.applyPoint p <;> simp [Except.map, h']
  · unfold Transform.inverseApplyPoint3
    cases h : t'.tryInverse3 with
    | none => simp
    | some s => cases h' : s.applyPoint p' <;> simp [Except.map, h']

/-- a projective transform can be inverted on points but `inverse_apply_vector` need not undo `apply_vector`:
affineness is needed -/
theorem C60_undo_vector_projective_fails : ∃ (t s : Transform ℚ 2) (v : Vec ℚ 2), t.tryInverse2 = some s ∧
    s.applyVector (t.applyVector v) ≠ v := by
  let m : Mat ℚ 3 3 := new3x3 1 0 1 0 1 0 1 0 2
  let k : Mat ℚ 3 3 := new3x3 2 0 (-1) 0 1 0 (-1) 0 1
  have hmk : m * k = identity := by
    apply ext3 <;> simp [m, k, mul_data, Fin.sum_univ_three] <;> norm_num
  refine ⟨⟨m⟩, ⟨k⟩, Vec.unitX2, ?_, ?_⟩
  · unfold Transform.tryInverse2
    rw [C18_unique_right C18_try_inverse3 m k hmk]; rfl
  · intro h
    have := congrArg (fun v : Vec ℚ 2 => v.data 0) h
    simp [C60_apply_vector, Fin.sum_univ_two, m, k, Vec.unitX2] at this
end Field

/-- the transforms made from projections carry the projection's matrix -/
theorem C60_projections {S : Type*} (a : Perspective3 S) (b : Orthographic3 S) :
    a.toTransform.toMatrix = a.matrix ∧ b.toTransform.toMatrix = b.matrix := ⟨rfl, rfl⟩

example : Spec.weight (⟨new3x3 1 0 1 0 1 0 1 0 2⟩ : Transform ℚ 2) (Pt.new2 (-2) 5) = 0 ∧
    Spec.weight (⟨new3x3 1 0 1 0 1 0 1 0 2⟩ : Transform ℚ 2) (Pt.new2 1 5) = 3 := by
  constructor <;> simp [Spec.weight, Fin.sum_univ_two, Pt.new2] <;> norm_num

end Cgl
