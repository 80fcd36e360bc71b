import Verif.Model.Actions
import Verif.Props.C31_Orthographic
import Verif.Props.C33_ProjectPoint
import Verif.Props.C57_Similarity
import Verif.Props.C58_Scale
import Verif.Props.C59_ShearReflection

/-! # C73: applying a transformation with the `*` operator -/

namespace Cgl
open Mat

namespace Spec

section
variable {T U W P V : Type*}

/-- `(t * u) * x = t * (u * x)` for points and for vectors: a product acts as its factors, the right one first. -/
def ActsInTurn (T U : Type*) {W : Type*} (P V : Type*) [HMul T U W] [HMul T P P] [HMul T V V] [HMul U P P] [HMul U V V]
    [HMul W P P] [HMul W V V] : Prop :=
  ∀ (t : T) (u : U) (p : P) (v : V), (t * u : W) * p = t * (u * p) ∧ (t * u : W) * v = t * (u * v)

/-- Displacements are transformed as vectors are, and vectors linearly. -/
def ActsAffinely {S : Type*} {n : ℕ} [CommRing S] (f : Pt S n → Pt S n) (g : Vec S n → Vec S n) : Prop :=
  (∀ p q, f p - f q = g (p - q)) ∧ (∀ p v, f (p + v) = f p + g v) ∧ (∀ v w, g (v + w) = g v + g w) ∧
    ∀ v (k : S), g (v * k) = g v * k

/-- The matrix `m` does to homogeneous coordinates what `f` does to points and `g` to vectors. -/
def ActsAs {S : Type*} {n : ℕ} [CommRing S] (m : Mat S (n + 1) (n + 1)) (f : Pt S n → Pt S n)
    (g : Vec S n → Vec S n) : Prop :=
  (∀ p : Pt S n, m * p.coords.extend 1 = (f p).coords.extend 1) ∧ ∀ v : Vec S n, m * v.extend 0 = (g v).extend 0
end

/-- a value of one of the three rigid types that can be multiplied with each other -/
inductive Motion (S : Type*) (n : ℕ)
  | tra (t : Translation S n)
  | rot (t : Rotation S n)
  | iso (t : Isometry S n)

variable {S : Type*} {n : ℕ} [CommRing S]

/-- the product of two motions, with the operator the crate defines for their types -/
def Motion.times : Motion S n → Motion S n → Motion S n
  | .tra t, .tra u => .tra (t * u)
  | .tra t, .rot u => .iso (t * u)
  | .tra t, .iso u => .iso (t * u)
  | .rot t, .tra u => .iso (t * u)
  | .rot t, .rot u => .rot (t * u)
  | .rot t, .iso u => .iso (t * u)
  | .iso t, .tra u => .iso (t * u)
  | .iso t, .rot u => .iso (t * u)
  | .iso t, .iso u => .iso (t * u)

/-- `motion * point` -/
def Motion.onPoint : Motion S n → Pt S n → Pt S n
  | .tra t, p => t * p
  | .rot t, p => t * p
  | .iso t, p => t * p
/-- `motion * vector` -/
def Motion.onVector : Motion S n → Vec S n → Vec S n
  | .tra t, v => t * v
  | .rot t, v => t * v
  | .iso t, v => t * v

/-- an expression made of motions with `*` and brackets -/
inductive Product (S : Type*) (n : ℕ)
  | factor (m : Motion S n)
  | times (a b : Product S n)

/-- what the expression evaluates to -/
def Product.eval : Product S n → Motion S n
  | .factor m => m
  | .times a b => a.eval.times b.eval
/-- the factors of the expression, from left to right -/
def Product.factors : Product S n → List (Motion S n)
  | .factor m => [m]
  | .times a b => a.factors ++ b.factors

end Spec

variable {K : Type*} {n : ℕ}

section Ring
variable [CommRing K]

/-- **C73**: the coordinates of the result, for each kind of transformation -/
theorem C73_coordinates (t : Translation K n) (s : Scale K n) (r : Rotation K n) (a : Isometry K n) (b : Similarity K n)
    (p : Pt K n) (v : Vec K n) (i : Fin n) :
    (t * p).coords.data i = p.coords.data i + t.vector.data i ∧ (t * v).data i = v.data i ∧
    (s * p).coords.data i = s.vector.data i * p.coords.data i ∧ (s * v).data i = s.vector.data i * v.data i ∧
    (r * p).coords.data i = ∑ j, r.matrix.data j i * p.coords.data j ∧
    (r * v).data i = ∑ j, r.matrix.data j i * v.data j ∧
    (a * p).coords.data i = (∑ j, a.rotation.matrix.data j i * p.coords.data j) + a.translation.vector.data i ∧
    (a * v).data i = ∑ j, a.rotation.matrix.data j i * v.data j ∧
    (b * p).coords.data i =
      (∑ j, b.rotation.matrix.data j i * p.coords.data j) * b.scale + b.translation.vector.data i ∧
    (b * v).data i = (∑ j, b.rotation.matrix.data j i * v.data j) * b.scale := by
  refine ⟨C53_apply_point t p i, rfl, (C58_apply s v p i).2, (C58_apply s v p i).1, ?_, ?_, ?_, ?_, ?_, ?_⟩
  · exact mulVec_data _ _ _
  · exact mulVec_data _ _ _
  · show (a.applyPoint p).coords.data i = _
    rw [(C56_apply a p v).1, Vec.add_data, mulVec_data]
  · exact mulVec_data _ _ _
  · show (b.applyPoint p).coords.data i = _
    rw [(C57_apply b p v).1, Vec.add_data, Vec.mulS_data, mulVec_data]
  · show (b.applyVector v).data i = _
    rw [(C57_apply b p v).2, Vec.mulS_data, mulVec_data]

/-- **C73**: products of transformations of one type -/
theorem C73_compose : Spec.ActsInTurn (Translation K n) (Translation K n) (Pt K n) (Vec K n) ∧
    Spec.ActsInTurn (Scale K n) (Scale K n) (Pt K n) (Vec K n) ∧
    Spec.ActsInTurn (Rotation K n) (Rotation K n) (Pt K n) (Vec K n) ∧
    Spec.ActsInTurn (Isometry K n) (Isometry K n) (Pt K n) (Vec K n) ∧
    Spec.ActsInTurn (Similarity K n) (Similarity K n) (Pt K n) (Vec K n) :=
  ⟨fun t u p _ => ⟨(C53_compose t u p).1, rfl⟩, fun t u p v => C58_compose t u p v,
    fun t u p v => (C54_compose t u p v).symm, fun t u p v => C56_compose t u p v, fun t u p v => C57_compose t u p v⟩

/-- **C73**: products of transformations of two types -/
theorem C73_compose_mixed : Spec.ActsInTurn (Rotation K n) (Translation K n) (Pt K n) (Vec K n) ∧
    Spec.ActsInTurn (Translation K n) (Rotation K n) (Pt K n) (Vec K n) ∧
    Spec.ActsInTurn (Isometry K n) (Translation K n) (Pt K n) (Vec K n) ∧
    Spec.ActsInTurn (Translation K n) (Isometry K n) (Pt K n) (Vec K n) ∧
    Spec.ActsInTurn (Isometry K n) (Rotation K n) (Pt K n) (Vec K n) ∧
    Spec.ActsInTurn (Rotation K n) (Isometry K n) (Pt K n) (Vec K n) ∧
    Spec.ActsInTurn (Similarity K n) (Isometry K n) (Pt K n) (Vec K n) := by
  have e := fun (r : Rotation K n) (d : Translation K n) p v => C56_embeddings p v r d
  have c := fun (t u : Isometry K n) p v => C56_compose t u p v
  refine ⟨fun t u p v => ?_, fun t u p v => ?_, fun t u p v => ?_, fun t u p v => ?_, fun t u p v => ?_, fun t u p v => ?_,
    fun t u p v => ?_⟩
  · rw [(C56_mixed Isometry.identity t u).1]
    exact ⟨((c _ _ p v).1.trans ((e t u _ v).1.trans (congrArg t.applyPoint (e t u p v).2.2.1))),
      ((c _ _ p v).2.trans ((e t u p _).2.1.trans (congrArg t.applyVector (e t u p v).2.2.2)))⟩
  · rw [(C56_mixed Isometry.identity u t).2.1]
    exact ⟨((c _ _ p v).1.trans ((e u t _ v).2.2.1.trans (congrArg t.applyPoint (e u t p v).1))),
      ((c _ _ p v).2.trans ((e u t p _).2.2.2.trans (e u t p v).2.1))⟩
  · rw [(C56_mixed t Rotation.identity u).2.2.1]
    exact ⟨(c _ _ p v).1.trans (congrArg t.applyPoint (e Rotation.identity u p v).2.2.1),
      (c _ _ p v).2.trans (congrArg t.applyVector (e Rotation.identity u p v).2.2.2)⟩
  · rw [(C56_mixed u Rotation.identity t).2.2.2.1]
    exact ⟨(c _ _ p v).1.trans (e Rotation.identity t _ v).2.2.1, (c _ _ p v).2.trans (e Rotation.identity t p _).2.2.2⟩
  · rw [(C56_mixed t u Translation.identity).2.2.2.2.1]
    exact ⟨(c _ _ p v).1.trans (congrArg t.applyPoint (e u Translation.identity p v).1),
      (c _ _ p v).2.trans (congrArg t.applyVector (e u Translation.identity p v).2.1)⟩
  · rw [(C56_mixed u t Translation.identity).2.2.2.2.2]
    exact ⟨(c _ _ p v).1.trans (e t Translation.identity _ v).1, (c _ _ p v).2.trans (e t Translation.identity p _).2.1⟩
  · rw [C57_mul_isometry]
    have g := C57_embeddings p v u Rotation.identity Translation.identity (1 : K)
    exact ⟨(C57_compose _ _ p v).1.trans (congrArg t.applyPoint g.1),
      (C57_compose _ _ p v).2.trans (congrArg t.applyVector g.2.1)⟩

/-- **C73**: however an expression mixing translations, rotations and isometries is bracketed, and however long it is,
its value acts as its factors one after another, the last first -/
theorem C73_expression (e : Spec.Product K n) (p : Pt K n) (v : Vec K n) :
    e.eval.onPoint p = e.factors.foldr (fun m q => m.onPoint q) p ∧
    e.eval.onVector v = e.factors.foldr (fun m w => m.onVector w) v := by
  have step : ∀ (a b : Spec.Motion K n) (p : Pt K n) (v : Vec K n),
      (a.times b).onPoint p = a.onPoint (b.onPoint p) ∧ (a.times b).onVector v = a.onVector (b.onVector v) := by
    obtain ⟨h1, -, h2, h3, -⟩ := C73_compose (K := K) (n := n)
    obtain ⟨m1, m2, m3, m4, m5, m6, -⟩ := C73_compose_mixed (K := K) (n := n)
    intro a b p v
    cases a <;> cases b
    · exact h1 _ _ p v
    · exact m2 _ _ p v
    · exact m4 _ _ p v
    · exact m1 _ _ p v
    · exact h2 _ _ p v
    · exact m6 _ _ p v
    · exact m3 _ _ p v
    · exact m5 _ _ p v
    · exact h3 _ _ p v
  induction e generalizing p v with
  | factor m => exact ⟨rfl, rfl⟩
  | times a b iha ihb =>
    simp only [Spec.Product.eval, Spec.Product.factors, List.foldr_append]
    exact ⟨(step _ _ p v).1.trans (by rw [(ihb p v).1, (iha _ v).1]),
      (step _ _ p v).2.trans (by rw [(ihb p v).2, (iha p _).2])⟩

/-- a rotated translation is translated along the rotated axis: the expression theorem on three factors -/
example (r : Rotation K n) (d : Translation K n) (a : Isometry K n) (p : Pt K n) : ((r * d) * a) * p = r * (d * (a * p)) :=
  (C73_expression (.times (.times (.factor (.rot r)) (.factor (.tra d))) (.factor (.iso a))) p 0).1

/-- **C73**: the identity of each type leaves points and vectors alone -/
theorem C73_identity (p : Pt K n) (v : Vec K n) :
    ((Translation.identity : Translation K n) * p = p ∧ (Translation.identity : Translation K n) * v = v) ∧
    ((Scale.identity : Scale K n) * p = p ∧ (Scale.identity : Scale K n) * v = v) ∧
    ((Rotation.identity : Rotation K n) * p = p ∧ (Rotation.identity : Rotation K n) * v = v) ∧
    ((Isometry.identity : Isometry K n) * p = p ∧ (Isometry.identity : Isometry K n) * v = v) ∧
    ((Similarity.identity : Similarity K n) * p = p ∧ (Similarity.identity : Similarity K n) * v = v) :=
  ⟨⟨(C53_identity Translation.identity p).2, rfl⟩, (C58_identity Scale.identity p v).2,
    (C54_identity Rotation.identity p v).2.2.symm, (C56_identity Isometry.identity p v).2.2,
    (C57_identity Similarity.identity p v).2.2⟩

private theorem affinely {f : Pt K n → Pt K n} {g : Vec K n → Vec K n} (a : Fin n → Fin n → K) (b : Fin n → K)
    (hf : ∀ p i, (f p).coords.data i = (∑ j, a j i * p.coords.data j) + b i)
    (hg : ∀ v i, (g v).data i = ∑ j, a j i * v.data j) : Spec.ActsAffinely f g := by
  refine ⟨fun p q => ?_, fun p v => ?_, fun v w => ?_, fun v k => ?_⟩
  · ext i; rw [Pt.sub_eq, Vec.sub_data, hf, hf, hg]; simp [mul_sub]
  · apply Pt.ext_data; intro i; rw [hf, Pt.add_coords, Pt.add_coords, Vec.add_data, hf, hg]
    simp [mul_add, Finset.sum_add_distrib]; ring
  · ext i; rw [Vec.add_data, hg, hg, hg]; simp [mul_add, Finset.sum_add_distrib]
  · ext i; rw [Vec.mulS_data, hg, hg, Finset.sum_mul]; simp [mul_assoc]

/-- **C73**: every one of these transformations, and every reflection, is affine on points, with its action on vectors as
the linear part -/
theorem C73_affine (t : Translation K n) (s : Scale K n) (r : Rotation K n) (a : Isometry K n) (b : Similarity K n)
    (m : Reflection K n) :
    Spec.ActsAffinely (S := K) (n := n) (t * ·) (t * ·) ∧ Spec.ActsAffinely (S := K) (n := n) (s * ·) (s * ·) ∧
    Spec.ActsAffinely (S := K) (n := n) (r * ·) (r * ·) ∧ Spec.ActsAffinely (S := K) (n := n) (a * ·) (a * ·) ∧
    Spec.ActsAffinely (S := K) (n := n) (b * ·) (b * ·) ∧ Spec.ActsAffinely (S := K) (n := n) (m * ·) (m * ·) := by
  have h := fun p v i => C73_coordinates t s r a b p v i
  refine ⟨?_, ?_, ?_, ?_, ?_, ?_⟩
  · exact affinely (fun j i => if j = i then 1 else 0) t.vector.data (fun p i => by simpa using (h p 0 i).1)
      (fun v i => by simpa using (h Pt.origin v i).2.1)
  · exact affinely (fun j i => if j = i then s.vector.data i else 0) 0 (fun p i => by simpa using (h p 0 i).2.2.1)
      (fun v i => by simpa using (h Pt.origin v i).2.2.2.1)
  · exact affinely r.matrix.data 0 (fun p i => by simpa using (h p 0 i).2.2.2.2.1)
      (fun v i => (h Pt.origin v i).2.2.2.2.2.1)
  · exact affinely a.rotation.matrix.data a.translation.vector.data (fun p i => (h p 0 i).2.2.2.2.2.2.1)
      (fun v i => (h Pt.origin v i).2.2.2.2.2.2.2.1)
  · refine affinely (fun j i => b.rotation.matrix.data j i * b.scale) b.translation.vector.data
      (fun p i => ((h p 0 i).2.2.2.2.2.2.2.2.1).trans ?_) (fun v i => ((h Pt.origin v i).2.2.2.2.2.2.2.2.2).trans ?_)
    · congr 1; rw [Finset.sum_mul]; exact Finset.sum_congr rfl fun j _ => by ring
    · rw [Finset.sum_mul]; exact Finset.sum_congr rfl fun j _ => by ring
  · refine affinely (fun j i => (if j = i then 1 else 0) - 2 * m.normal.data j * m.normal.data i)
      (fun i => 2 * m.bias.coords.dot m.normal * m.normal.data i) (fun p i => ?_) (fun v i => ?_)
    · refine ((C59_reflection_apply m p 0 i).2).trans ?_
      rw [Vec.dot_eq_sum, Vec.dot_eq_sum]
      simp only [sub_mul, Finset.sum_sub_distrib, Pt.sub_eq, Vec.sub_data]
      simp only [ite_mul, one_mul, zero_mul, Finset.sum_ite_eq', Finset.mem_univ, if_true]
      rw [show ∑ j, 2 * m.normal.data j * m.normal.data i * p.coords.data j =
        2 * (∑ j, p.coords.data j * m.normal.data j) * m.normal.data i by
          rw [Finset.mul_sum, Finset.sum_mul]; exact Finset.sum_congr rfl fun j _ => by ring]
      ring
    · refine ((C59_reflection_apply m Pt.origin v i).1).trans ?_
      rw [Vec.dot_eq_sum]
      simp only [sub_mul, Finset.sum_sub_distrib]
      simp only [ite_mul, one_mul, zero_mul, Finset.sum_ite_eq', Finset.mem_univ, if_true]
      rw [show ∑ j, 2 * m.normal.data j * m.normal.data i * v.data j =
        2 * (∑ j, v.data j * m.normal.data j) * m.normal.data i by
          rw [Finset.mul_sum, Finset.sum_mul]; exact Finset.sum_congr rfl fun j _ => by ring]

/-- **C73**: the homogeneous matrix of the transformation does the same -/
theorem C73_matrix (t : Translation K n) (s : Scale K n) (r : Rotation K n) (a : Isometry K n) (b : Similarity K n) :
    Spec.ActsAs t.toAffineMatrix (t * ·) (t * ·) ∧ Spec.ActsAs s.toAffineMatrix (s * ·) (s * ·) ∧
    Spec.ActsAs r.toAffineMatrix (r * ·) (r * ·) ∧ Spec.ActsAs a.toAffineMatrix (a * ·) (a * ·) ∧
    Spec.ActsAs b.toAffineMatrix (b * ·) (b * ·) :=
  ⟨⟨fun p => (C53_affine_matrix t p 0).2.1, fun v => (C53_affine_matrix t Pt.origin v).2.2⟩,
    ⟨fun p => (C58_affine_matrix s p 0).1, fun v => (C58_affine_matrix s Pt.origin v).2⟩,
    ⟨fun p => (C54_affine_matrix r p 0).1, fun v => (C54_affine_matrix r Pt.origin v).2⟩,
    ⟨fun p => (C56_affine_matrix a p 0).1, fun v => (C56_affine_matrix a Pt.origin v).2⟩,
    ⟨fun p => (C57_affine_matrix b p 0).1, fun v => (C57_affine_matrix b Pt.origin v).2⟩⟩

/-- **C73**: a reflection in a plane with a unit normal is undone by itself -/
theorem C73_reflection (m : Reflection K n) (h : m.normal.dot m.normal = 1) (p : Pt K n) (v : Vec K n) :
    m * (m * p) = p ∧ m * (m * v) = v ∧ m.inverse * (m * p) = p ∧ m.inverse * (m * v) = v := by
  obtain ⟨a, b⟩ := C59_reflection_involution m p v h
  exact ⟨b, a, b, a⟩

example (p : Pt ℝ 2) : (⟨Vec.new2 0 1, Pt.new2 3 1⟩ : Reflection ℝ 2) *
    ((⟨Vec.new2 0 1, Pt.new2 3 1⟩ : Reflection ℝ 2) * p) = p :=
  (C73_reflection _ (by simp [Vec.dot2]) p 0).1

/-- **C73**: a shear along a direction in its plane is undone by its inverse -/
theorem C73_shear (t : Shear K n) (h : t.direction.dot t.normal = 0) (p : Pt K n) (v : Vec K n) :
    t.inverse * (t * p) = p ∧ t.inverse * (t * v) = v ∧ t * (t.inverse * p) = p ∧ t * (t.inverse * v) = v := by
  obtain ⟨-, b, -, d, a, c⟩ := C59_shear_inverse t p v h
  obtain ⟨e, f⟩ := C59_shear_inverse_apply t p v
  exact ⟨a, c, (congrArg t.applyPoint e.symm).trans b, (congrArg t.applyVector f.symm).trans d⟩

end Ring

/-- **C73**: inverses undo: translations always, scales without a zero factor, rotations and isometries with an orthogonal
matrix, similarities with, besides, a scale other than zero -/
theorem C73_inverse [Field K] (p : Pt K n) (v : Vec K n) :
    (∀ t : Translation K n, t.inverse * (t * p) = p ∧ t.inverse * (t * v) = v) ∧
    (∀ s : Scale K n, (∀ i, s.vector.data i ≠ 0) → s.inverse * (s * p) = p ∧ s.inverse * (s * v) = v) ∧
    (∀ r : Rotation K n, r.matrix.transpose * r.matrix = identity → r.inverse * (r * p) = p ∧ r.inverse * (r * v) = v) ∧
    (∀ a : Isometry K n, a.rotation.matrix.transpose * a.rotation.matrix = identity →
      a.inverse * (a * p) = p ∧ a.inverse * (a * v) = v) ∧
    (∀ b : Similarity K n, b.rotation.matrix.transpose * b.rotation.matrix = identity → b.scale ≠ 0 →
      ∃ c, b.inverse = .ok c ∧ c * (b * p) = p ∧ c * (b * v) = v) := by
  obtain ⟨h1, h2, h3, h4, h5⟩ := C73_compose (K := K) (n := n)
  obtain ⟨i1, i2, i3, i4, i5⟩ := C73_identity p v
  refine ⟨fun t => ?_, fun s hs => ?_, fun r hr => ?_, fun a ha => ?_, fun b hb hs => ?_⟩
  · rw [← (h1 _ _ p v).1, ← (h1 _ _ p v).2, (C53_inverse t).2]; exact i1
  · rw [← (h2 _ _ p v).1, ← (h2 _ _ p v).2, (C58_inverse s p v hs).1]; exact i2
  · rw [← (h3 _ _ p v).1, ← (h3 _ _ p v).2, (C54_inverse r p v hr).1]; exact i3
  · rw [← (h4 _ _ p v).1, ← (h4 _ _ p v).2, (C56_inverse a ha).1]; exact i4
  · obtain ⟨c, hc, e, -⟩ := C57_inverse b hb hs
    refine ⟨c, hc, ?_⟩
    rw [← (h5 _ _ p v).1, ← (h5 _ _ p v).2, e]; exact i5

example (p : Pt ℝ 2) : ∃ c, (⟨⟨⟨identity⟩, ⟨Vec.new2 3 1⟩⟩, 2⟩ : Similarity ℝ 2).inverse = .ok c ∧
    c * ((⟨⟨⟨identity⟩, ⟨Vec.new2 3 1⟩⟩, 2⟩ : Similarity ℝ 2) * p) = p := by
  obtain ⟨c, h, e, -⟩ := (C73_inverse p (0 : Vec ℝ 2)).2.2.2.2 ⟨⟨⟨identity⟩, ⟨Vec.new2 3 1⟩⟩, 2⟩
    (by show (identity : Mat ℝ 2 2).transpose * identity = identity; rw [C14_transpose_identity, C13_one_mul])
    (by norm_num)
  exact ⟨c, h, e⟩

section Transform
variable [Field K] [DecidableEq K] (t u : Transform K n)

/-- **C73**: `Transform * Point` panics exactly when the image lies at infinity, and otherwise is the image divided by its
homogeneous coordinate -/
theorem C73_transform (p : Pt K n) :
    ((∃ e, t * p = (.error e : Res (Pt K n))) ↔ Spec.weight t p = 0) ∧
    (Spec.weight t p ≠ 0 → ∃ q, t * p = (.ok q : Res (Pt K n)) ∧ ∀ i : Fin n, q.coords.data i =
      ((∑ j : Fin n, t.matrix.data j.castSucc i.castSucc * p.coords.data j) +
        t.matrix.data (Fin.last n) i.castSucc) / Spec.weight t p) := by
  refine ⟨C60_apply_point_panics_iff t p, fun h => ?_⟩
  obtain ⟨q, a, -, b⟩ := C60_apply_point t p h
  exact ⟨q, a, b⟩

/-- **C73**: where the inner transform does not panic, the product does what the two do in turn, panics included -/
theorem C73_transform_compose (p q : Pt K n) (hu : u * p = (.ok q : Res (Pt K n))) :
    (∀ r, (t * u) * p = (.ok r : Res (Pt K n)) ↔ t * q = (.ok r : Res (Pt K n))) ∧
    ((∃ e, (t * u) * p = (.error e : Res (Pt K n))) ↔ ∃ e, t * q = (.error e : Res (Pt K n))) := by
  have h2 := C60_compose_point_panics t u p q hu
  refine ⟨fun r => ⟨fun h => ?_, fun h => C60_compose_point t u p q r hu h⟩, h2⟩
  change (t * u).applyPoint p = .ok r at h
  show t.applyPoint q = .ok r
  cases h' : t.applyPoint q with
  | error e => obtain ⟨e', he⟩ := h2.mpr ⟨e, h'⟩; rw [he] at h; cases h
  | ok r' => rw [C60_compose_point t u p q r' hu h'] at h; rw [h]

/-- **C73**: an affine transform acts affinely, never panics, and its products act in turn -/
theorem C73_transform_affine (h : Spec.IsAffine u) (p q : Pt K n) (v : Vec K n) :
    (∃ p' q', u * p = (.ok p' : Res (Pt K n)) ∧ u * q = (.ok q' : Res (Pt K n)) ∧ p' - q' = u * (p - q)) ∧
    (t * u) * v = t * (u * v) :=
  ⟨C60_affine u h p q, C60_compose_vector t u h.1 v⟩

example : Spec.IsAffine (Transform.identity : Transform ℚ 2) := by
  refine ⟨fun i => ?_, ?_⟩
  · fin_cases i <;> simp [Transform.identity, Fin.ext_iff]
  · simp [Transform.identity]

/-- **C73**: converting a transformation to a `Transform` does not change what `*` does -/
theorem C73_to_transform (d : Translation K n) (s : Scale K n) (r : Rotation K n) (a : Isometry K n) (b : Similarity K n) (m : Reflection K 2)
    (m' : Reflection K 3) (p : Pt K n) (v : Vec K n) (p2 : Pt K 2) (p3 : Pt K 3) :
    (d.toTransform * p = (.ok (d * p) : Res (Pt K n)) ∧ d.toTransform * v = d * v) ∧
    (s.toTransform * p = (.ok (s * p) : Res (Pt K n)) ∧ s.toTransform * v = s * v) ∧
    (r.toTransform * p = (.ok (r * p) : Res (Pt K n)) ∧ r.toTransform * v = r * v) ∧
    (a.toTransform * p = (.ok (a * p) : Res (Pt K n)) ∧ a.toTransform * v = a * v) ∧
    (b.toTransform * p = (.ok (b * p) : Res (Pt K n)) ∧ b.toTransform * v = b * v) ∧
    m.toTransform2 * p2 = (.ok (m * p2) : Res (Pt K 2)) ∧ m'.toTransform3 * p3 = (.ok (m' * p3) : Res (Pt K 3)) :=
  ⟨⟨(C53_transform d).point p, (C53_transform d).vector v⟩, ⟨(C58_transform s).point p, (C58_transform s).vector v⟩, ⟨(C54_transform r).point p, (C54_transform r).vector v⟩,
    ⟨(C56_transform a).point p, (C56_transform a).vector v⟩, ⟨(C57_transform b).point p, (C57_transform b).vector v⟩,
    (C59_reflection_transform2 m).point p2, (C59_reflection_transform3 m').point p3⟩
end Transform

/-- **C73**: the product of two shears with unit direction and normal applies the right one first -/
theorem C73_shear_mul (t u : Shear ℝ 2) (t' u' : Shear ℝ 3) (h : t.direction.norm = 1 ∧ t.normal.norm = 1)
    (hu : u.direction.norm = 1 ∧ u.normal.norm = 1) (h' : t'.direction.norm = 1 ∧ t'.normal.norm = 1)
    (hu' : u'.direction.norm = 1 ∧ u'.normal.norm = 1) (p : Pt ℝ 2) (p' : Pt ℝ 3) :
    (t * u : Transform ℝ 2) * p = (.ok (t * (u * p)) : Res (Pt ℝ 2)) ∧
    (t' * u' : Transform ℝ 3) * p' = (.ok (t' * (u' * p')) : Res (Pt ℝ 3)) :=
  C59_shear_mul t u t' u' h hu h' hu' p p'

/-- **C73**: `projection * point` maps the view volume of an orthographic projection onto the cube; displacements are
mapped as vectors are -/
theorem C73_orthographic (l r b t n f : ℝ) (hx : 0 < l + r) (hy : 0 < b + t) (hz : n < f) (p q : Pt ℝ 3) :
    (Spec.inCube (Orthographic3.new l r b t n f * p) ↔ Spec.inBox l r b t n f p) ∧
    Spec.ActsAs (Orthographic3.new l r b t n f).toProjectiveMatrix (Orthographic3.new l r b t n f * ·)
      (Orthographic3.new l r b t n f * ·) ∧
    (Orthographic3.new l r b t n f * p) - (Orthographic3.new l r b t n f * q) =
      Orthographic3.new l r b t n f * (p - q) := by
  refine ⟨C31_box_iff_cube hx hy hz p, ⟨fun p => C31_matrix_action p, fun v => C31_matrix_action_vector v⟩, ?_⟩
  show (Orthographic3.new l r b t n f).projectPoint p - (Orthographic3.new l r b t n f).projectPoint q =
    (Orthographic3.new l r b t n f).projectVector (p - q)
  apply Vec.ext3 <;> simp [Orthographic3.projectPoint, Orthographic3.projectVector, Pt.new3] <;> ring

/-- **C73**: `projection * vector` is perspective division of the projected vector; `projection * point` is so exactly when
top and bottom planes are symmetric (see C33) -/
theorem C73_perspective (l r b t n f : ℝ) (hy : b + t ≠ 0) (p : Pt ℝ 3) (v : Vec ℝ 3) (hp : p.coords.data 2 ≠ 0)
    (hv : v.data 2 ≠ 0) :
    (Spec.ndc (Perspective3.new l r b t n f).toProjectiveMatrix p = some (Perspective3.new l r b t n f * p) ↔ t = b) ∧
    Spec.ndc (Perspective3.new l r b t n f).toProjectiveMatrix ⟨v⟩ = some ⟨Perspective3.new l r b t n f * v⟩ :=
  ⟨C33_project_point_iff hy p hp, C33_project_vector v hv⟩

end Cgl
