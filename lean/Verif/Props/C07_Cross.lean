import Verif.Lemmas.Vector
import Mathlib.LinearAlgebra.Matrix.Determinant.Basic

/-!
# C07 - cross product and triple product (every commutative ring)
-/

namespace Cgl
open Vec

variable {S : Type*} [CommRing S] (a b c : Vec S 3) (k : S)

theorem C07_cross_anticomm : a.cross b = -(b.cross a) := by
  apply ext3 <;> simp [cross] <;> ring

theorem C07_cross_self : a.cross a = 0 := by
  apply ext3 <;> simp [cross] <;> ring

theorem C07_cross_add_left : (a + b).cross c = a.cross c + b.cross c := by
  apply ext3 <;> simp [cross] <;> ring

theorem C07_cross_add_right : a.cross (b + c) = a.cross b + a.cross c := by
  apply ext3 <;> simp [cross] <;> ring

theorem C07_cross_smul_left : (k * a).cross b = k * (a.cross b) := by
  apply ext3 <;> simp [cross] <;> ring

theorem C07_cross_smul_right : a.cross (k * b) = k * (a.cross b) := by
  apply ext3 <;> simp [cross] <;> ring

/-- orthogonal to both arguments -/
theorem C07_cross_orthogonal : (a.cross b).dot a = 0 ∧ (a.cross b).dot b = 0 := by
  constructor <;> (rw [dot3]; simp [cross]; ring)

/-- Lagrange's identity -/
theorem C07_cross_norm_squared :
    (a.cross b).normSquared = a.normSquared * b.normSquared - (a.dot b) * (a.dot b) := by
  simp only [normSquared, dot3]; simp [cross]; ring

/-- Jacobi's identity -/
theorem C07_jacobi : a.cross (b.cross c) + b.cross (c.cross a) + c.cross (a.cross b) = 0 := by
  apply ext3 <;> simp [cross] <;> ring

/-- `a × (b × c) = b (a·c) - c (a·b)` -/
theorem C07_triple_cross : a.cross (b.cross c) = b * (a.dot c) - c * (a.dot b) := by
  apply ext3 <;> simp [cross, dot3] <;> ring

/-- `triple` is the determinant of the matrix with rows `a`, `b`, `c`. -/
theorem C07_triple_eq_det :
    a.triple b c = Matrix.det (Matrix.of ![a.data, b.data, c.data]) := by
  rw [Matrix.det_fin_three, triple, dot3]; simp [cross]; ring

theorem C07_triple_cyclic : a.triple b c = b.triple c a ∧ a.triple b c = -(b.triple a c) := by
  constructor <;> (simp only [triple, dot3]; simp [cross]; ring)

/-- right handed orientation -/
theorem C07_right_handed : (unitX3 : Vec S 3).cross unitY3 = unitZ3 ∧
    (unitY3 : Vec S 3).cross unitZ3 = unitX3 ∧ (unitZ3 : Vec S 3).cross unitX3 = unitY3 := by
  refine ⟨?_, ?_, ?_⟩ <;> (apply ext3 <;> simp [cross, unitX3, unitY3, unitZ3])

example : (new3 (1 : ℤ) 2 3).cross (new3 4 5 6) = new3 (-3) 6 (-3) := by decide

end Cgl
