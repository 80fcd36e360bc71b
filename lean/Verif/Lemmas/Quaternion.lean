import Verif.Model.Quaternion
import Verif.Lemmas.Norms
import Verif.Lemmas.MatrixSq
import Verif.Lemmas.Affine
import Mathlib.Tactic.FieldSimp
import Mathlib.Tactic.LinearCombination
import Mathlib.Tactic.Positivity
import Mathlib.Tactic.Ring

/-!
# Facts about the quaternion model

`q.s`, `q.x`, `q.y`, `q.z` abbreviate the four stored coordinates; every operation gets a simp lemma giving
its coordinates.
-/

namespace Cgl
namespace Quat

variable {S T : Type*}

/-- the scalar coordinate -/
def s (q : Quat S) : S := q.coords.data 0
/-- the first vector coordinate -/
def x (q : Quat S) : S := q.coords.data 1
/-- the second vector coordinate -/
def y (q : Quat S) : S := q.coords.data 2
/-- the third vector coordinate -/
def z (q : Quat S) : S := q.coords.data 3

theorem ext4 {q r : Quat S} (hs : q.s = r.s) (hx : q.x = r.x) (hy : q.y = r.y) (hz : q.z = r.z) : q = r :=
  Quat.ext (Vec.ext4 hs hx hy hz)

@[simp] theorem coords_data (q : Quat S) (i) : q.coords.data i = ![q.s, q.x, q.y, q.z] i := by
  fin_cases i <;> rfl

@[simp] theorem mk_s (v : Vec S 4) : (fromVector v).s = v.data 0 := rfl
@[simp] theorem mk_x (v : Vec S 4) : (fromVector v).x = v.data 1 := rfl
@[simp] theorem mk_y (v : Vec S 4) : (fromVector v).y = v.data 2 := rfl
@[simp] theorem mk_z (v : Vec S 4) : (fromVector v).z = v.data 3 := rfl
@[simp] theorem new_s (a b c d : S) : (new a b c d).s = a := rfl
@[simp] theorem new_x (a b c d : S) : (new a b c d).x = b := rfl
@[simp] theorem new_y (a b c d : S) : (new a b c d).y = c := rfl
@[simp] theorem new_z (a b c d : S) : (new a b c d).z = d := rfl
@[simp] theorem fromParts_s (a : S) (v : Vec S 3) : (fromParts a v).s = a := rfl
@[simp] theorem fromParts_x (a : S) (v : Vec S 3) : (fromParts a v).x = v.data 0 := rfl
@[simp] theorem fromParts_y (a : S) (v : Vec S 3) : (fromParts a v).y = v.data 1 := rfl
@[simp] theorem fromParts_z (a : S) (v : Vec S 3) : (fromParts a v).z = v.data 2 := rfl
@[simp] theorem scalar_eq (q : Quat S) : q.scalar = q.s := rfl
theorem vector_eq (q : Quat S) : q.vector = Vec.new3 q.x q.y q.z := rfl
@[simp] theorem vector_data (q : Quat S) (i) : q.vector.data i = ![q.x, q.y, q.z] i := rfl
@[simp] theorem vector_fromParts (a : S) (v : Vec S 3) : (fromParts a v).vector = v :=
  Vec.ext3 rfl rfl rfl
theorem eta (q : Quat S) : q = new q.s q.x q.y q.z := ext4 rfl rfl rfl rfl
theorem eta_parts (q : Quat S) : q = fromParts q.s q.vector := ext4 rfl rfl rfl rfl
@[simp] theorem map_s (q : Quat S) (f : S → T) : (q.map f).s = f q.s := rfl
@[simp] theorem map_x (q : Quat S) (f : S → T) : (q.map f).x = f q.x := rfl
@[simp] theorem map_y (q : Quat S) (f : S → T) : (q.map f).y = f q.y := rfl
@[simp] theorem map_z (q : Quat S) (f : S → T) : (q.map f).z = f q.z := rfl

section Proj
variable [Zero S]
@[simp] theorem zero_s : (0 : Quat S).s = 0 := rfl
@[simp] theorem zero_x : (0 : Quat S).x = 0 := rfl
@[simp] theorem zero_y : (0 : Quat S).y = 0 := rfl
@[simp] theorem zero_z : (0 : Quat S).z = 0 := rfl
@[simp] theorem one_s [One S] : (1 : Quat S).s = 1 := rfl
@[simp] theorem one_x [One S] : (1 : Quat S).x = 0 := rfl
@[simp] theorem one_y [One S] : (1 : Quat S).y = 0 := rfl
@[simp] theorem one_z [One S] : (1 : Quat S).z = 0 := rfl
@[simp] theorem identity_s [One S] : (identity : Quat S).s = 1 := rfl
@[simp] theorem identity_x [One S] : (identity : Quat S).x = 0 := rfl
@[simp] theorem identity_y [One S] : (identity : Quat S).y = 0 := rfl
@[simp] theorem identity_z [One S] : (identity : Quat S).z = 0 := rfl
theorem identity_eq_one [One S] : (identity : Quat S) = 1 := rfl
@[simp] theorem fromReal_s (a : S) : (fromReal a).s = a := rfl
@[simp] theorem fromReal_x (a : S) : (fromReal a).x = 0 := rfl
@[simp] theorem fromReal_y (a : S) : (fromReal a).y = 0 := rfl
@[simp] theorem fromReal_z (a : S) : (fromReal a).z = 0 := rfl
@[simp] theorem fromPure_s (v : Vec S 3) : (fromPure v).s = 0 := rfl
@[simp] theorem fromPure_x (v : Vec S 3) : (fromPure v).x = v.data 0 := rfl
@[simp] theorem fromPure_y (v : Vec S 3) : (fromPure v).y = v.data 1 := rfl
@[simp] theorem fromPure_z (v : Vec S 3) : (fromPure v).z = v.data 2 := rfl
end Proj

@[simp] theorem neg_s [Zero S] [Neg S] (q : Quat S) : (-q).s = -q.s := rfl
@[simp] theorem neg_x [Zero S] [Neg S] (q : Quat S) : (-q).x = -q.x := by
  change (-q.vector).data 0 = _; simp
@[simp] theorem neg_y [Zero S] [Neg S] (q : Quat S) : (-q).y = -q.y := by
  change (-q.vector).data 1 = _; simp
@[simp] theorem neg_z [Zero S] [Neg S] (q : Quat S) : (-q).z = -q.z := by
  change (-q.vector).data 2 = _; simp
@[simp] theorem add_s [Zero S] [Add S] (q r : Quat S) : (q + r).s = q.s + r.s := rfl
@[simp] theorem add_x [Zero S] [Add S] (q r : Quat S) : (q + r).x = q.x + r.x := by
  change (q.vector + r.vector).data 0 = _; simp
@[simp] theorem add_y [Zero S] [Add S] (q r : Quat S) : (q + r).y = q.y + r.y := by
  change (q.vector + r.vector).data 1 = _; simp
@[simp] theorem add_z [Zero S] [Add S] (q r : Quat S) : (q + r).z = q.z + r.z := by
  change (q.vector + r.vector).data 2 = _; simp
@[simp] theorem sub_s [Zero S] [Sub S] (q r : Quat S) : (q - r).s = q.s - r.s := rfl
@[simp] theorem sub_x [Zero S] [Sub S] (q r : Quat S) : (q - r).x = q.x - r.x := by
  change (q.vector - r.vector).data 0 = _; simp
@[simp] theorem sub_y [Zero S] [Sub S] (q r : Quat S) : (q - r).y = q.y - r.y := by
  change (q.vector - r.vector).data 1 = _; simp
@[simp] theorem sub_z [Zero S] [Sub S] (q r : Quat S) : (q - r).z = q.z - r.z := by
  change (q.vector - r.vector).data 2 = _; simp
@[simp] theorem mulS_s [Zero S] [Mul S] (q : Quat S) (k : S) : (q * k).s = q.s * k := rfl
@[simp] theorem mulS_x [Zero S] [Mul S] (q : Quat S) (k : S) : (q * k).x = q.x * k := by
  change (q.vector * k).data 0 = _; simp
@[simp] theorem mulS_y [Zero S] [Mul S] (q : Quat S) (k : S) : (q * k).y = q.y * k := by
  change (q.vector * k).data 1 = _; simp
@[simp] theorem mulS_z [Zero S] [Mul S] (q : Quat S) (k : S) : (q * k).z = q.z * k := by
  change (q.vector * k).data 2 = _; simp
@[simp] theorem sMul_s [Zero S] [Mul S] (q : Quat S) (k : S) : (k * q).s = k * q.s := rfl
@[simp] theorem sMul_x [Zero S] [Mul S] (q : Quat S) (k : S) : (k * q).x = k * q.x := by
  change (k * q.vector).data 0 = _; simp
@[simp] theorem sMul_y [Zero S] [Mul S] (q : Quat S) (k : S) : (k * q).y = k * q.y := by
  change (k * q.vector).data 1 = _; simp
@[simp] theorem sMul_z [Zero S] [Mul S] (q : Quat S) (k : S) : (k * q).z = k * q.z := by
  change (k * q.vector).data 2 = _; simp
@[simp] theorem divS_s [Zero S] [Div S] (q : Quat S) (k : S) : (q / k).s = q.s / k := rfl
@[simp] theorem divS_x [Zero S] [Div S] (q : Quat S) (k : S) : (q / k).x = q.x / k := by
  change (q.vector / k).data 0 = _; simp
@[simp] theorem divS_y [Zero S] [Div S] (q : Quat S) (k : S) : (q / k).y = q.y / k := by
  change (q.vector / k).data 1 = _; simp
@[simp] theorem divS_z [Zero S] [Div S] (q : Quat S) (k : S) : (q / k).z = q.z / k := by
  change (q.vector / k).data 2 = _; simp
@[simp] theorem remS_s [Zero S] [Mod S] (q : Quat S) (k : S) : (q % k).s = q.s % k := rfl
@[simp] theorem remS_x [Zero S] [Mod S] (q : Quat S) (k : S) : (q % k).x = q.x % k := by
  change (q.vector % k).data 0 = _; simp
@[simp] theorem remS_y [Zero S] [Mod S] (q : Quat S) (k : S) : (q % k).y = q.y % k := by
  change (q.vector % k).data 1 = _; simp
@[simp] theorem remS_z [Zero S] [Mod S] (q : Quat S) (k : S) : (q % k).z = q.z % k := by
  change (q.vector % k).data 2 = _; simp
@[simp] theorem conjugate_s [Zero S] [Neg S] (q : Quat S) : q.conjugate.s = q.s := rfl
@[simp] theorem conjugate_x [Zero S] [Neg S] (q : Quat S) : q.conjugate.x = -q.x := by
  simp [conjugate]
@[simp] theorem conjugate_y [Zero S] [Neg S] (q : Quat S) : q.conjugate.y = -q.y := by
  simp [conjugate]
@[simp] theorem conjugate_z [Zero S] [Neg S] (q : Quat S) : q.conjugate.z = -q.z := by
  simp [conjugate]

section Ring
variable [CommRing S]

theorem mul_def (q r : Quat S) : q * r = fromParts (q.scalar * r.scalar - q.vector.dot r.vector)
    (r.vector * q.scalar + q.vector * r.scalar + q.vector.cross r.vector) := rfl
@[simp] theorem mul_s (q r : Quat S) : (q * r).s = q.s * r.s - q.x * r.x - q.y * r.y - q.z * r.z := by
  simp [mul_def, Vec.dot3]; ring
@[simp] theorem mul_x (q r : Quat S) : (q * r).x = q.s * r.x + q.x * r.s + q.y * r.z - q.z * r.y := by
  simp [mul_def, Vec.cross]; ring
@[simp] theorem mul_y (q r : Quat S) : (q * r).y = q.s * r.y + q.y * r.s + q.z * r.x - q.x * r.z := by
  simp [mul_def, Vec.cross]; ring
@[simp] theorem mul_z (q r : Quat S) : (q * r).z = q.s * r.z + q.z * r.s + q.x * r.y - q.y * r.x := by
  simp [mul_def, Vec.cross]; ring

theorem normSquared_eq (q : Quat S) :
    q.normSquared = q.s * q.s + q.x * q.x + q.y * q.y + q.z * q.z := by
  simp [normSquared, Vec.normSquared, Vec.dot4]
theorem dot_eq (q r : Quat S) : q.dot r = q.s * r.s + q.x * r.x + q.y * r.y + q.z * r.z := by
  simp [dot, Vec.dot4]
theorem vector_normSquared (q : Quat S) :
    q.vector.normSquared = q.x * q.x + q.y * q.y + q.z * q.z := by
  simp [Vec.normSquared, Vec.dot3]
theorem normSquared_mul (q r : Quat S) : (q * r).normSquared = q.normSquared * r.normSquared := by
  simp only [normSquared_eq, mul_s, mul_x, mul_y, mul_z]; ring
theorem mul_assoc' (p q r : Quat S) : p * q * r = p * (q * r) := by apply ext4 <;> simp <;> ring
theorem normSquared_mulS (q : Quat S) (k : S) : (q * k).normSquared = q.normSquared * (k * k) := by
  simp only [normSquared_eq, mulS_s, mulS_x, mulS_y, mulS_z]; ring

end Ring

theorem ne_zero_of_normSquared [CommRing S] {q : Quat S} (h : q.normSquared ≠ 0) : q ≠ 0 := by
  rintro rfl; simp [normSquared_eq] at h

section Ordered
variable {K : Type*} [Field K] [LinearOrder K] [IsStrictOrderedRing K]

theorem normSquared_nonneg (q : Quat K) : 0 ≤ q.normSquared := by
  rw [normSquared_eq]
  have := mul_self_nonneg q.s
  have := mul_self_nonneg q.x
  have := mul_self_nonneg q.y
  have := mul_self_nonneg q.z
  positivity

theorem normSquared_eq_zero {q : Quat K} : q.normSquared = 0 ↔ q = 0 := by
  constructor
  · intro h
    rw [normSquared_eq] at h
    have h1 := mul_self_nonneg q.s
    have h2 := mul_self_nonneg q.x
    have h3 := mul_self_nonneg q.y
    have h4 := mul_self_nonneg q.z
    apply ext4 <;> apply mul_self_eq_zero.mp <;> simp <;> nlinarith
  · rintro rfl; simp [normSquared_eq]

theorem normSquared_pos {q : Quat K} (h : q ≠ 0) : 0 < q.normSquared :=
  lt_of_le_of_ne q.normSquared_nonneg (Ne.symm (normSquared_eq_zero.not.mpr h))

end Ordered

theorem norm_def (q : Quat ℝ) : q.norm = Real.sqrt q.normSquared := rfl
theorem norm_nonneg (q : Quat ℝ) : 0 ≤ q.norm := Real.sqrt_nonneg _
theorem norm_sq (q : Quat ℝ) : q.norm ^ 2 = q.normSquared := Real.sq_sqrt q.normSquared_nonneg
theorem norm_mul_norm (q : Quat ℝ) : q.norm * q.norm = q.normSquared :=
  Real.mul_self_sqrt q.normSquared_nonneg
theorem norm_eq_zero {q : Quat ℝ} : q.norm = 0 ↔ q = 0 := by
  rw [norm_def, Real.sqrt_eq_zero q.normSquared_nonneg, normSquared_eq_zero]
theorem norm_pos {q : Quat ℝ} (h : q ≠ 0) : 0 < q.norm :=
  lt_of_le_of_ne q.norm_nonneg (Ne.symm (norm_eq_zero.not.mpr h))
theorem norm_eq_one_iff {q : Quat ℝ} : q.norm = 1 ↔ q.normSquared = 1 := by
  rw [norm_def, Real.sqrt_eq_one]
theorem norm_mul (q r : Quat ℝ) : (q * r).norm = q.norm * r.norm := by
  rw [norm_def, normSquared_mul, Real.sqrt_mul q.normSquared_nonneg]; rfl
theorem norm_mulS (q : Quat ℝ) (k : ℝ) : (q * k).norm = q.norm * |k| := by
  rw [norm_def, normSquared_mulS, Real.sqrt_mul q.normSquared_nonneg, Real.sqrt_mul_self_eq_abs]; rfl
theorem normalize_def (q : Quat ℝ) : q.normalize = q * (1 / q.norm) := by
  apply ext4 <;> simp [normalize, Vec.normalize_def, norm]
theorem normalize_norm {q : Quat ℝ} (h : q ≠ 0) : q.normalize.norm = 1 := by
  rw [normalize_def, norm_mulS, abs_of_pos (by have := norm_pos h; positivity)]
  field_simp [(norm_pos h).ne']

end Quat
end Cgl
