import Verif.Model.Projection
import Verif.Lemmas.Affine
import Verif.Lemmas.Point
import Mathlib.Tactic.FieldSimp
import Mathlib.Tactic.Linarith

/-! # C31 - orthographic projection

`left`, `right`, `bottom`, `top` are distances from the view axis: the view box is
`[-left, right] x [-bottom, top] x [-far, -near]`. -/

namespace Cgl
open Mat

/-- the box a projection with these parameters is meant to see -/
def Spec.inBox (l r b t n f : ℝ) (p : Pt ℝ 3) : Prop :=
  (-l ≤ p.coords.data 0 ∧ p.coords.data 0 ≤ r) ∧ (-b ≤ p.coords.data 1 ∧ p.coords.data 1 ≤ t) ∧
    (-f ≤ p.coords.data 2 ∧ p.coords.data 2 ≤ -n)

/-- the canonical cube -/
def Spec.inCube (p : Pt ℝ 3) : Prop := ∀ i, -1 ≤ p.coords.data i ∧ p.coords.data i ≤ 1

variable {l r b t n f : ℝ}

theorem Pt.ext3 {S : Type*} {p q : Pt S 3} (h0 : p.coords.data 0 = q.coords.data 0)
    (h1 : p.coords.data 1 = q.coords.data 1) (h2 : p.coords.data 2 = q.coords.data 2) : p = q :=
  Pt.ext (Vec.ext3 h0 h1 h2)

/-- the same point is obtained by homogeneous multiplication with the projection matrix, for any
parameters -/
theorem C31_matrix_action (p : Pt ℝ 3) :
    (Orthographic3.new l r b t n f).toProjectiveMatrix * p.toHomogeneous =
      ((Orthographic3.new l r b t n f).projectPoint p).toHomogeneous := by
  rw [Pt.toHomogeneous, Pt.toHomogeneous, mulVec4_extend, extend3_eq]
  apply Vec.ext4 <;> simp [Orthographic3.new, Orthographic3.toProjectiveMatrix, Orthographic3.projectPoint,
    fromOrthographic, Pt.new3]

theorem C31_matrix_action_vector (v : Vec ℝ 3) :
    (Orthographic3.new l r b t n f).toProjectiveMatrix * v.extend 0 =
      ((Orthographic3.new l r b t n f).projectVector v).extend 0 := by
  rw [mulVec4_extend, extend3_eq]
  apply Vec.ext4 <;> simp [Orthographic3.new, Orthographic3.toProjectiveMatrix, Orthographic3.projectVector,
    fromOrthographic]

section Axis

private theorem axis {a c x : ℝ} (h : 0 < a + c) :
    (-1 ≤ 2 / (c + a) * x + -(c - a) / (c + a) ↔ -a ≤ x) ∧
    (2 / (c + a) * x + -(c - a) / (c + a) ≤ 1 ↔ x ≤ c) := by
  have h' : 0 < c + a := by linarith
  have e : 2 / (c + a) * x + -(c - a) / (c + a) = (2 * x - c + a) / (c + a) := by field_simp; ring
  rw [e, le_div_iff₀ h', div_le_iff₀ h']
  constructor <;> constructor <;> intro h2 <;> linarith

end Axis

/-- a point is in the view box exactly when its image is in the canonical cube -/
theorem C31_box_iff_cube (hx : 0 < l + r) (hy : 0 < b + t) (hz : n < f) (p : Pt ℝ 3) :
    Spec.inCube ((Orthographic3.new l r b t n f).projectPoint p) ↔ Spec.inBox l r b t n f p := by
  have ax := axis (x := p.coords.data 0) hx
  have ay := axis (x := p.coords.data 1) hy
  have az : (-1 ≤ -2 / (f - n) * p.coords.data 2 + -(f + n) / (f - n) ↔ p.coords.data 2 ≤ -n) ∧
      (-2 / (f - n) * p.coords.data 2 + -(f + n) / (f - n) ≤ 1 ↔ -f ≤ p.coords.data 2) := by
    have h' : 0 < f - n := by linarith
    have e : -2 / (f - n) * p.coords.data 2 + -(f + n) / (f - n) =
      (-2 * p.coords.data 2 - (f + n)) / (f - n) := by field_simp; ring
    rw [e, le_div_iff₀ h', div_le_iff₀ h']
    constructor <;> constructor <;> intro h2 <;> linarith
  unfold Spec.inCube Spec.inBox
  rw [Fin.forall_fin_succ, Fin.forall_fin_two]
  simp only [Orthographic3.new, Orthographic3.projectPoint, fromOrthographic, Pt.new3, new4x4,
    Matrix.cons_val, sub_neg_eq_add, Vec.new3]
  simp only [one_add_one_eq_two, ← sub_eq_add_neg]
  have s1 : (Fin.succ 0 : Fin 3) = 1 := rfl
  have s2 : (Fin.succ 1 : Fin 3) = 2 := rfl
  rw [s1, s2]
  simp only [Matrix.cons_val]
  rw [ax.1, ax.2, ay.1, ay.2, az.1, az.2]
  tauto

/-- each corner of the view box goes to the corresponding corner of the cube (near to -1, far to +1) -/
theorem C31_corners (hx : l + r ≠ 0) (hy : b + t ≠ 0) (hz : n ≠ f) :
    (Orthographic3.new l r b t n f).projectPoint (Pt.new3 (-l) (-b) (-n)) = Pt.new3 (-1) (-1) (-1) ∧
    (Orthographic3.new l r b t n f).projectPoint (Pt.new3 r t (-f)) = Pt.new3 1 1 1 := by
  have h1 : r + l ≠ 0 := by rwa [add_comm]
  have h2 : t + b ≠ 0 := by rwa [add_comm]
  have h3 : f - n ≠ 0 := sub_ne_zero.mpr hz.symm
  constructor <;> apply Pt.ext3 <;>
    simp [Orthographic3.new, Orthographic3.projectPoint, fromOrthographic, Pt.new3] <;>
    field_simp <;> ring

/-- the projection acts coordinatewise and affinely: midpoints go to midpoints -/
theorem C31_affine (p q : Pt ℝ 3) (s : ℝ) :
    ((Orthographic3.new l r b t n f).projectPoint (p + (q - p) * s)).coords =
      ((Orthographic3.new l r b t n f).projectPoint p).coords +
        (((Orthographic3.new l r b t n f).projectPoint q).coords -
          ((Orthographic3.new l r b t n f).projectPoint p).coords) * s := by
  apply Vec.ext3 <;> simp [Orthographic3.projectPoint, Pt.new3] <;> ring

/-- the accessors return the construction parameters -/
theorem C31_getters (hx : l + r ≠ 0) (hy : b + t ≠ 0) (hz : n ≠ f) (hl : l ≠ 0) (hb : b ≠ 0) (hn : n ≠ 0) :
    (Orthographic3.new l r b t n f).left = l ∧ (Orthographic3.new l r b t n f).right = r ∧
    (Orthographic3.new l r b t n f).bottom = b ∧ (Orthographic3.new l r b t n f).top = t ∧
    (Orthographic3.new l r b t n f).near = n ∧ (Orthographic3.new l r b t n f).far = f := by
  have h1 : r + l ≠ 0 := by rwa [add_comm]
  have h2 : t + b ≠ 0 := by rwa [add_comm]
  have h3 : f - n ≠ 0 := sub_ne_zero.mpr hz.symm
  have r1 : (-(-(r + -l) / (r + l)) + 1) / (-(r + -l) / (r + l) + 1) = r / l := by
    have : -(r + -l) / (r + l) + 1 = 2 * l / (r + l) := by field_simp; ring
    rw [this]; field_simp; ring
  have r2 : (-(-(t + -b) / (t + b)) + 1) / (-(t + -b) / (t + b) + 1) = t / b := by
    have : -(t + -b) / (t + b) + 1 = 2 * b / (t + b) := by field_simp; ring
    rw [this]; field_simp; ring
  have r3 : (-(-(f + n) / (f - n)) + 1) / (-(-(f + n) / (f - n)) - 1) = f / n := by
    have : -(-(f + n) / (f - n)) - 1 = 2 * n / (f - n) := by field_simp; ring
    rw [this]; field_simp; ring
  have q1 : r / l + 1 = (r + l) / l := by field_simp
  have q2 : t / b + 1 = (t + b) / b := by field_simp
  have q3 : f / n - 1 = (f - n) / n := by field_simp
  simp only [Orthographic3.new, Orthographic3.left, Orthographic3.right, Orthographic3.bottom,
    Orthographic3.top, Orthographic3.near, Orthographic3.far, fromOrthographic, new4x4, Matrix.cons_val,
    sub_neg_eq_add, r1, r2, r3, q1, q2, q3, one_add_one_eq_two]
  refine ⟨?_, ?_, ?_, ?_, ?_, ?_⟩ <;> field_simp

/-- `unproject_point` is the two-sided inverse of `project_point` -/
theorem C31_unproject (hx : l + r ≠ 0) (hy : b + t ≠ 0) (hz : n ≠ f) (hl : l ≠ 0) (hb : b ≠ 0) (hn : n ≠ 0)
    (p : Pt ℝ 3) :
    (Orthographic3.new l r b t n f).unprojectPoint ((Orthographic3.new l r b t n f).projectPoint p) = p ∧
    (Orthographic3.new l r b t n f).projectPoint ((Orthographic3.new l r b t n f).unprojectPoint p) = p := by
  obtain ⟨g1, g2, g3, g4, g5, g6⟩ := C31_getters hx hy hz hl hb hn
  have h1 : r + l ≠ 0 := by rwa [add_comm]
  have h2 : t + b ≠ 0 := by rwa [add_comm]
  have h3 : f - n ≠ 0 := sub_ne_zero.mpr hz.symm
  unfold Orthographic3.unprojectPoint
  rw [g1, g2, g3, g4, g5, g6]
  constructor <;> apply Pt.ext3 <;>
    simp [Orthographic3.new, Orthographic3.projectPoint, fromOrthographic, Pt.new3] <;>
    field_simp <;> ring

theorem C31_unproject_vector (hx : l + r ≠ 0) (hy : b + t ≠ 0) (hz : n ≠ f) (hl : l ≠ 0) (hb : b ≠ 0)
    (hn : n ≠ 0) (v : Vec ℝ 3) :
    (Orthographic3.new l r b t n f).unprojectVector ((Orthographic3.new l r b t n f).projectVector v) = v ∧
    (Orthographic3.new l r b t n f).projectVector ((Orthographic3.new l r b t n f).unprojectVector v) = v := by
  obtain ⟨g1, g2, g3, g4, g5, g6⟩ := C31_getters hx hy hz hl hb hn
  have h1 : r + l ≠ 0 := by rwa [add_comm]
  have h2 : t + b ≠ 0 := by rwa [add_comm]
  have h3 : f - n ≠ 0 := sub_ne_zero.mpr hz.symm
  unfold Orthographic3.unprojectVector
  rw [g1, g2, g3, g4, g5, g6]
  constructor <;> apply Vec.ext3 <;>
    simp [Orthographic3.new, Orthographic3.projectVector, fromOrthographic] <;>
    field_simp <;> ring

/-- a concrete valid parameter set, off-axis -/
example : (0 : ℝ) < 4 + 3 ∧ (0 : ℝ) < 2 + 5 ∧ (1 : ℝ) < 100 := by norm_num

end Cgl
