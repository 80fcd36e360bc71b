import Verif.Lemmas.Affine
import Verif.Lemmas.Norms
import Verif.Props.C26_Rotation

/-! # Orthonormal frames built by the view constructors -/

namespace Cgl
open Mat

theorem Vec.ne_zero_of_cross_ne {u v : Vec ℝ 3} (h : u.cross v ≠ 0) : u ≠ 0 ∧ v ≠ 0 := by
  constructor <;> rintro rfl <;> apply h <;> apply Vec.ext3 <;> simp [Vec.cross]

theorem Vec.cross_mulS (u v : Vec ℝ 3) (k : ℝ) : u.cross (v * k) = u.cross v * k := by
  apply Vec.ext3 <;> simp [Vec.cross] <;> ring

theorem Vec.mulS_ne_zero {n : ℕ} {v : Vec ℝ n} (h : v ≠ 0) {k : ℝ} (hk : k ≠ 0) : v * k ≠ 0 := by
  intro e
  apply h
  ext i
  have := congrArg (fun w : Vec ℝ n => w.data i) e
  simpa [hk] using this

/-- The axes computed by the view constructors from the forward axis `z` and `up`. -/
structure IsFrame (x y z : Vec ℝ 3) : Prop where
  xx : x.dot x = 1
  yy : y.dot y = 1
  zz : z.dot z = 1
  xy : x.dot y = 0
  xz : x.dot z = 0
  yz : y.dot z = 0
  yeq : y = z.cross x

theorem isFrame_of {z up : Vec ℝ 3} (hz : z.dot z = 1) (h : up.cross z ≠ 0) :
    let x := (up.cross z).normalize
    let y := (z.cross x).normalize
    IsFrame x y z ∧ up.dot x = 0 ∧ 0 < up.dot y := by
  intro x y
  have hx : x.dot x = 1 := Vec.normalize_dot_self h
  have hxz : x.dot z = 0 := by
    show (up.cross z * (1 / (up.cross z).norm)).dot z = 0
    simp [Vec.dot3, Vec.cross]; ring
  have hyx : (z.cross x).dot (z.cross x) = 1 := by
    have e : (z.cross x).dot (z.cross x) = z.dot z * x.dot x - x.dot z * x.dot z := by
      simp [Vec.dot3, Vec.cross]; ring
    rw [e, hz, hx, hxz]; ring
  have hyn : (z.cross x).norm = 1 := by
    rw [Vec.norm_def, Vec.normSquared, hyx]; simp
  have hy : y = z.cross x := by
    show (z.cross x) * (1 / (z.cross x).norm) = _
    rw [hyn]; ext i; simp
  have hupx : up.dot x = 0 := by
    show up.dot (up.cross z * (1 / (up.cross z).norm)) = 0
    simp [Vec.dot3, Vec.cross]; ring
  refine ⟨⟨hx, ?_, hz, ?_, hxz, ?_, hy⟩, hupx, ?_⟩
  · rw [hy, hyx]
  · rw [hy]; simp [Vec.dot3, Vec.cross]; ring
  · rw [hy]; simp [Vec.dot3, Vec.cross]; ring
  · have hn := Vec.norm_pos h
    have e : up.dot y = (up.cross z).norm := by
      rw [hy]
      show up.dot (z.cross (up.cross z * (1 / (up.cross z).norm))) = _
      have : up.dot (z.cross (up.cross z * (1 / (up.cross z).norm))) =
          (up.cross z).dot (up.cross z) * (1 / (up.cross z).norm) := by
        simp [Vec.dot3, Vec.cross]; ring
      rw [this]
      have e2 : (up.cross z).dot (up.cross z) = (up.cross z).norm * (up.cross z).norm :=
        (Vec.norm_mul_norm _).symm
      rw [e2]; field_simp
    rw [e]; exact hn

/-- the matrix with rows `x, y, z` -/
def rowsOf (x y z : Vec ℝ 3) : Mat ℝ 3 3 :=
  new3x3 (x.data 0) (y.data 0) (z.data 0) (x.data 1) (y.data 1) (z.data 1) (x.data 2) (y.data 2) (z.data 2)

theorem rowsOf_mul (x y z v : Vec ℝ 3) : rowsOf x y z * v = Vec.new3 (x.dot v) (y.dot v) (z.dot v) := by
  rw [mulVec3]; apply Vec.ext3 <;> simp [rowsOf, Vec.dot3]

theorem IsFrame.rotation {x y z : Vec ℝ 3} (h : IsFrame x y z) : Spec.IsRotation (rowsOf x y z) := by
  obtain ⟨xx, yy, zz, xy, xz, yz, yeq⟩ := h
  have h1 : rowsOf x y z * (rowsOf x y z).transpose = identity := by
    simp only [Vec.dot3] at *
    apply ext3 <;> simp [mul_data, Fin.sum_univ_three, rowsOf] <;> linarith
  refine ⟨mul_comm_of_identity h1, h1, ?_⟩
  rw [← C17_det3]
  have e0 := congrArg (fun v : Vec ℝ 3 => v.data 0) yeq
  have e1 := congrArg (fun v : Vec ℝ 3 => v.data 1) yeq
  have e2 := congrArg (fun v : Vec ℝ 3 => v.data 2) yeq
  simp [Vec.cross] at e0 e1 e2
  simp only [Vec.dot3] at yy
  simp [determinant3, rowsOf]
  linear_combination yy - y.data 0 * e0 - y.data 1 * e1 - y.data 2 * e2

end Cgl
