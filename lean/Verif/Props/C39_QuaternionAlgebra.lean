import Verif.Lemmas.Quaternion
import Verif.Spec.Norm
import Mathlib.Algebra.Quaternion

/-!
# C39 - quaternion arithmetic is the Hamilton quaternion algebra

The ring laws are stated over every commutative ring of components. The agreement theorems identify every
operation with the quaternions `ℍ[R]` of Mathlib, whose product is defined by structure constants and not by
dot and cross products.
-/

namespace Cgl
open Quat
open scoped Quaternion

section Ring
variable {K : Type*} [CommRing K] (p q r : Quat K)

theorem C39_add_comm : p + q = q + p := by apply ext4 <;> simp <;> ring
theorem C39_add_assoc : p + q + r = p + (q + r) := by apply ext4 <;> simp <;> ring
theorem C39_add_zero : p + 0 = p := by apply ext4 <;> simp
theorem C39_add_neg : p + -p = 0 := by apply ext4 <;> simp
theorem C39_sub_eq : p - q = p + -q := by apply ext4 <;> simp <;> ring
theorem C39_mul_assoc : p * q * r = p * (q * r) := mul_assoc' p q r
theorem C39_mul_add : p * (q + r) = p * q + p * r := by apply ext4 <;> simp <;> ring
theorem C39_add_mul : (p + q) * r = p * r + q * r := by apply ext4 <;> simp <;> ring
theorem C39_mul_identity : p * identity = p ∧ identity * p = p := by
  constructor <;> apply ext4 <;> simp
theorem C39_mul_zero : p * 0 = 0 ∧ 0 * p = 0 := by
  constructor <;> apply ext4 <;> simp

/-- `i² = j² = k² = i j k = -1` -/
theorem C39_hamilton : (unitX : Quat K) * unitX = -identity ∧ (unitY : Quat K) * unitY = -identity ∧
    (unitZ : Quat K) * unitZ = -identity ∧ (unitX : Quat K) * unitY * unitZ = -identity := by
  refine ⟨?_, ?_, ?_, ?_⟩ <;> apply ext4 <;> simp [unitX, unitY, unitZ, Vec.unitX3, Vec.unitY3, Vec.unitZ3]

/-- `i j = k`, `j k = i`, `k i = j`, and the reversed products have the opposite sign -/
theorem C39_unit_products : (unitX : Quat K) * unitY = unitZ ∧ (unitY : Quat K) * unitZ = unitX ∧
    (unitZ : Quat K) * unitX = unitY ∧ (unitY : Quat K) * unitX = -unitZ ∧
    (unitZ : Quat K) * unitY = -unitX ∧ (unitX : Quat K) * unitZ = -unitY := by
  refine ⟨?_, ?_, ?_, ?_, ?_, ?_⟩ <;> apply ext4 <;>
    simp [unitX, unitY, unitZ, Vec.unitX3, Vec.unitY3, Vec.unitZ3]

/-- every quaternion is `s + x i + y j + z k` -/
theorem C39_decompose : q = (unitS : Quat K) * q.scalar + (unitX : Quat K) * q.vector.data 0 +
    (unitY : Quat K) * q.vector.data 1 + (unitZ : Quat K) * q.vector.data 2 := by
  apply ext4 <;> simp [unitS, unitX, unitY, unitZ, Vec.unitX3, Vec.unitY3, Vec.unitZ3]

/-- real quaternions are central and scalar multiplication, on either side, is multiplication by them -/
theorem C39_scalar (k : K) : q * k = q * fromReal k ∧ k * q = fromReal k * q ∧ k * q = q * k := by
  refine ⟨?_, ?_, ?_⟩ <;> apply ext4 <;> simp <;> ring

theorem C39_conj_mul : (p * q).conjugate = q.conjugate * p.conjugate := by apply ext4 <;> simp <;> ring
theorem C39_conj_add : (p + q).conjugate = p.conjugate + q.conjugate := by apply ext4 <;> simp <;> ring
theorem C39_conj_conj : p.conjugate.conjugate = p := by apply ext4 <;> simp
/-- `q conj(q) = conj(q) q = |q|²` -/
theorem C39_mul_conj : q * q.conjugate = fromReal q.normSquared ∧ q.conjugate * q = fromReal q.normSquared := by
  constructor <;> apply ext4 <;> simp [normSquared_eq] <;> ring_nf
/-- `|p q|² = |p|² |q|²` -/
theorem C39_norm_squared_mul : (p * q).normSquared = p.normSquared * q.normSquared := normSquared_mul p q
theorem C39_conjugate_mut : q.conjugateMut = q.conjugate := by
  apply ext4 <;> simp [conjugateMut, Function.update]
theorem C39_squared : q.squared = q * q := rfl
/-- `q.dot(r)` is the scalar part of `q conj(r)` -/
theorem C39_dot : q.dot r = (q * r.conjugate).scalar := by simp [dot_eq]

/-- The in-place operators store the value of the binary operators. -/
theorem C39_assign (k : K) : p.addAssign q = p + q ∧ p.subAssign q = p - q ∧ p.mulAssign k = p * k := by
  refine ⟨?_, ?_, ?_⟩ <;> apply ext4 <;> simp [addAssign, subAssign, mulAssign]

theorem C39_is_pure [DecidableEq K] : q.isPure = true ↔ ∃ v, q = fromPure v := by
  rw [isPure, beq_iff_eq, scalar_eq]
  constructor
  · intro h; exact ⟨q.vector, by apply ext4 <;> simp [h]⟩
  · rintro ⟨v, rfl⟩; rfl
theorem C39_is_real [DecidableEq K] : q.isReal = true ↔ ∃ a, q = fromReal a := by
  simp only [isReal, Vec.isZero_iff]
  constructor
  · intro h
    refine ⟨q.scalar, ?_⟩
    conv_lhs => rw [eta_parts q, h]
    rfl
  · rintro ⟨a, rfl⟩; exact Vec.ext3 rfl rfl rfl
theorem C39_is_zero [DecidableEq K] : q.isZero = true ↔ q = 0 := by
  simp only [isZero, Vec.isZero_iff]
  constructor
  · intro h; exact Quat.ext (h.trans (by apply Vec.ext4 <;> rfl))
  · rintro rfl; apply Vec.ext4 <;> rfl
theorem C39_is_identity [DecidableEq K] : q.isIdentity = true ↔ q = identity := by
  rw [isIdentity, Bool.and_eq_true, beq_iff_eq, Vec.isZero_iff, scalar_eq]
  constructor
  · rintro ⟨h1, h2⟩; conv_lhs => rw [eta_parts q, h2, h1]
    rfl
  · rintro rfl; exact ⟨rfl, Vec.ext3 rfl rfl rfl⟩
end Ring

section Field
variable {K : Type*} [Field K] [CharZero K] (p q : Quat K)

theorem C39_half : q.half + q.half = q := by
  have h : (1 + 1 : K) ≠ 0 := by rw [one_add_one_eq_two]; exact two_ne_zero
  apply ext4 <;> simp [half] <;> field_simp
/-- the inner product is the symmetric, the outer product the antisymmetric part of the product -/
theorem C39_inner_outer : p.inner q + p.inner q = p * q + q * p ∧ p.outer q + p.outer q = p * q - q * p ∧
    p * q = p.inner q + p.outer q := by
  have h : (1 + 1 : K) ≠ 0 := by rw [one_add_one_eq_two]; exact two_ne_zero
  refine ⟨?_, ?_, ?_⟩ <;> apply ext4 <;> simp [inner, outer] <;> field_simp <;> ring
/-- the outer product is the pure quaternion of the cross product of the vector parts -/
theorem C39_outer_cross : p.outer q = fromPure (p.vector.cross q.vector) := by
  have h : (1 + 1 : K) ≠ 0 := by rw [one_add_one_eq_two]; exact two_ne_zero
  apply ext4 <;> simp [outer, Vec.cross] <;> field_simp <;> ring
omit [CharZero K] in
theorem C39_div_assign (k : K) : q.divAssign k = q / k := by
  apply ext4 <;> simp [divAssign]
omit [CharZero K] in
theorem C39_div (k : K) (hk : k ≠ 0) : q / k * k = q := by
  apply ext4 <;> simp <;> field_simp
end Field

/-! ### agreement with Mathlib's quaternions -/

/-- the quaternion of Mathlib with the same four components -/
def Spec.hamilton {R : Type*} [CommRing R] (q : Quat R) : ℍ[R] :=
  ⟨q.scalar, q.vector.data 0, q.vector.data 1, q.vector.data 2⟩

section Proj
variable {R : Type*} [CommRing R] (q : Quat R)
@[simp] theorem Spec.hamilton_re : (Spec.hamilton q).re = q.s := rfl
@[simp] theorem Spec.hamilton_imI : (Spec.hamilton q).imI = q.x := rfl
@[simp] theorem Spec.hamilton_imJ : (Spec.hamilton q).imJ = q.y := rfl
@[simp] theorem Spec.hamilton_imK : (Spec.hamilton q).imK = q.z := rfl
end Proj

section Agree
variable {R : Type*} [CommRing R] (p q : Quat R)

theorem C39_hamilton_injective : Function.Injective (Spec.hamilton (R := R)) := by
  intro p q h
  rw [Quaternion.ext_iff] at h
  exact ext4 h.1 h.2.1 h.2.2.1 h.2.2.2
theorem C39_hamilton_surjective : Function.Surjective (Spec.hamilton (R := R)) :=
  fun h => ⟨new h.re h.imI h.imJ h.imK, by ext <;> rfl⟩
theorem C39_hamilton_mul : Spec.hamilton (p * q) = Spec.hamilton p * Spec.hamilton q := by
  ext <;> simp <;> ring
theorem C39_hamilton_add : Spec.hamilton (p + q) = Spec.hamilton p + Spec.hamilton q := by
  ext <;> simp
theorem C39_hamilton_sub : Spec.hamilton (p - q) = Spec.hamilton p - Spec.hamilton q := by
  ext <;> simp
theorem C39_hamilton_neg : Spec.hamilton (-q) = -Spec.hamilton q := by
  ext <;> simp
theorem C39_hamilton_smul (k : R) : Spec.hamilton (q * k) = k • Spec.hamilton q := by
  ext <;> simp <;> ring
theorem C39_hamilton_one : Spec.hamilton (identity : Quat R) = 1 := by ext <;> simp
theorem C39_hamilton_zero : Spec.hamilton (0 : Quat R) = 0 := by ext <;> simp
theorem C39_hamilton_conj : Spec.hamilton q.conjugate = star (Spec.hamilton q) := by
  ext <;> simp
theorem C39_hamilton_norm_squared : q.normSquared = Quaternion.normSq (Spec.hamilton q) := by
  rw [Quaternion.normSq_def']; simp [normSquared_eq]; ring

end Agree

/-! ### the norm -/

/-- `|p q| = |p| |q|` -/
theorem C39_norm_mul (p q : Quat ℝ) : (p * q).norm = p.norm * q.norm := norm_mul p q
/-- the norm is a norm and the distance is the norm of the difference -/
theorem C39_norm_conj (q : Quat ℝ) : q.conjugate.norm = q.norm := by
  rw [norm_def, norm_def]; simp [normSquared_eq]
theorem C39_norm_zero (q : Quat ℝ) : q.norm = 0 ↔ q = 0 := norm_eq_zero
theorem C39_norm_scale (q : Quat ℝ) (k : ℝ) : (q * k).norm = q.norm * |k| := norm_mulS q k
theorem C39_norm_triangle (p q : Quat ℝ) : (p + q).norm ≤ p.norm + q.norm := by
  have e : (p + q).coords = p.coords + q.coords := by apply Vec.ext4 <;> simp
  unfold Quat.norm
  rw [e, Vec.norm_eq_euclidean, Vec.norm_eq_euclidean, Vec.norm_eq_euclidean]
  have e2 : (p.coords + q.coords).data = p.coords.data + q.coords.data := by
    funext i; exact Vec.add_data _ _ i
  rw [e2, WithLp.toLp_add]
  exact norm_add_le _ _
theorem C39_distance (p q : Quat ℝ) : p.metricDistance q = (p - q).norm ∧ p.distance q = (p - q).norm ∧
    p.metricDistanceSquared q = (p - q).normSquared := by
  have e : (p - q).coords = p.coords - q.coords := by apply Vec.ext4 <;> simp
  have h' : p.metricDistanceSquared q = (p - q).normSquared := by
    unfold metricDistanceSquared normSquared Vec.metricDistanceSquared
    rw [e]
  refine ⟨?_, ?_, h'⟩
  · change Real.sqrt (p.metricDistanceSquared q) = _; rw [h']; rfl
  · change Real.sqrt (p.metricDistanceSquared q) = _; rw [h']; rfl

/-- a concrete product, with every component of both factors non-zero -/
example : (new 1 2 3 4 : Quat ℤ) * new 5 6 7 8 = new (-60) 12 30 24 := by
  apply ext4 <;> simp
/-- the product is not commutative -/
example : (new 1 2 3 4 : Quat ℤ) * new 5 6 7 8 ≠ new 5 6 7 8 * new 1 2 3 4 := by
  intro h; have := congrArg Quat.x h; simp at this
example : (fromPure (Vec.new3 1 2 3) : Quat ℤ).isPure = true ∧ (new 1 2 3 4 : Quat ℤ).isPure = false ∧
    (fromReal 5 : Quat ℤ).isReal = true ∧ (new 1 0 3 0 : Quat ℤ).isReal = false := by decide

end Cgl
