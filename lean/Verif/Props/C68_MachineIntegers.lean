import Mathlib.Data.BitVec
import Mathlib.Algebra.Quaternion
import Verif.Props.C17_Determinant
import Verif.Props.C34_ComplexField
import Verif.Props.C39_QuaternionAlgebra
import Verif.Props.C09_Lerp

/-! # C68 - wrapping machine integers

`BitVec w` is the type of `w`-bit integers with wrapping arithmetic, and `BitVec.toInt` reads one as a signed number.
The division-free functions commute with every ring homomorphism, so a wrapping computation returns the exact integer
result reduced to `w` bits: the exact result itself whenever that fits, even when intermediate results overflow. -/

namespace Cgl
open Mat
open scoped Quaternion

variable {S T : Type*} {n N R C R1 C1 C2 : ℕ}

section Hom
variable [CommRing S] [CommRing T] (f : S →+* T)

theorem C68_vector_hom (v w : Vec S n) (k : S) :
    (v + w).map f = v.map f + w.map f ∧ (v - w).map f = v.map f - w.map f ∧ (-v).map f = -v.map f ∧
    (v * k).map f = v.map f * f k ∧ (v.lerp w k).map f = (v.map f).lerp (w.map f) (f k) ∧
    f (v.dot w) = (v.map f).dot (w.map f) ∧ f v.normSquared = (v.map f).normSquared ∧
    f (v.metricDistanceSquared w) = (v.map f).metricDistanceSquared (w.map f) := by
  have hdot : ∀ v w : Vec S n, f (v.dot w) = (v.map f).dot (w.map f) := fun v w => by
    simp [Vec.dot_eq_sum]
  have hsub : (v - w).map f = v.map f - w.map f := by ext i; simp
  refine ⟨?_, hsub, ?_, ?_, ?_, hdot v w, hdot v v, ?_⟩
  · ext i; simp
  · ext i; simp
  · ext i; simp
  · ext i; simp [Vec.lerp]
  · rw [Vec.metricDistanceSquared, Vec.metricDistanceSquared, ← hsub]; exact hdot _ _

theorem C68_cross_hom (v w x : Vec S 3) : (v.cross w).map f = (v.map f).cross (w.map f) ∧
    f (v.triple w x) = (v.map f).triple (w.map f) (x.map f) := by
  have h : ∀ v w : Vec S 3, (v.cross w).map f = (v.map f).cross (w.map f) := fun v w => by
    apply Vec.ext3 <;> simp [Vec.cross]
  exact ⟨h v w, by rw [Vec.triple, Vec.triple, ← h]; exact (C68_vector_hom f _ _ 0).2.2.2.2.2.1⟩

theorem C68_matrix_hom (A : Mat S R1 C1) (B : Mat S C1 C2) (v : Vec S C1) (A' : Mat S R1 C1) (k : S) :
    (A * B).map 0 f = A.map 0 f * B.map 0 f ∧ (A * v).map f = A.map 0 f * v.map f ∧
    (A + A').map 0 f = A.map 0 f + A'.map 0 f ∧ (A - A').map 0 f = A.map 0 f - A'.map 0 f ∧
    (A * k).map 0 f = A.map 0 f * f k ∧ A.transpose.map 0 f = (A.map 0 f).transpose ∧
    (identity : Mat S N N).map 0 f = identity := by
  refine ⟨?_, ?_, ?_, ?_, ?_, ?_, ?_⟩
  · ext c r; simp [mul_data]
  · ext r; simp [mulVec_data]
  · ext c r; simp
  · ext c r; simp
  · ext c r; simp
  · ext c r; simp
  · ext c r; simp only [map_data, identity_data]; split <;> simp

theorem C68_determinant_hom (A : Mat S N N) (A1 : Mat S 1 1) (A2 : Mat S 2 2) (A3 : Mat S 3 3) (A4 : Mat S 4 4) :
    f A.trace = (A.map 0 f).trace ∧ f A1.determinant1 = (A1.map 0 f).determinant1 ∧
    f A2.determinant2 = (A2.map 0 f).determinant2 ∧ f A3.determinant3 = (A3.map 0 f).determinant3 ∧
    f A4.determinant4 = (A4.map 0 f).determinant4 := by
  refine ⟨by simp [trace_eq_sum], by simp [determinant1], by simp [determinant2], by simp [determinant3],
    by simp [determinant4]⟩

theorem C68_complex_hom (z w : Cx S) : (z * w).map f = z.map f * w.map f ∧ (z + w).map f = z.map f + w.map f ∧
    (z - w).map f = z.map f - w.map f ∧ z.conjugate.map f = (z.map f).conjugate ∧
    f z.normSquared = (z.map f).normSquared := by
  refine ⟨?_, ?_, ?_, ?_, by simp [Cx.normSquared, Cx.map, Cx.new]⟩ <;> apply Cx.ext <;>
    simp [Cx.map, Cx.new, Cx.conjugate]

theorem C68_quaternion_hom (q r : Quat S) : (q * r).map f = q.map f * r.map f ∧ (q + r).map f = q.map f + r.map f ∧
    q.conjugate.map f = (q.map f).conjugate ∧ f q.normSquared = (q.map f).normSquared := by
  refine ⟨?_, ?_, ?_, ?_⟩
  · apply Quat.ext4 <;> simp
  · apply Quat.ext4 <;> simp
  · apply Quat.ext4 <;> simp
  · exact (C68_vector_hom f q.coords q.coords 0).2.2.2.2.2.2.1

end Hom

/-! ### wrapping integers -/

section Wrap
variable {w : ℕ}

/-- A `w`-bit result that is congruent to the exact one is the exact one when that is a signed `w`-bit number. -/
theorem wrap_exact {x : ℤ} (h : -2 ^ (w - 1) ≤ x ∧ x < 2 ^ (w - 1)) (hw : 0 < w) : ((x : ℤ) : BitVec w).toInt = x := by
  rw [BitVec.toInt_intCast, Int.bmod_eq_of_le]
  · have : ((2 ^ w : ℕ) : ℤ) = 2 * 2 ^ (w - 1) := by
      push_cast; rw [← pow_succ']; congr 1; omega
    rw [this]; omega
  · have : ((2 ^ w : ℕ) : ℤ) = 2 * 2 ^ (w - 1) := by
      push_cast; rw [← pow_succ']; congr 1; omega
    rw [this]; omega

theorem cast_toInt (a : BitVec w) : ((a.toInt : ℤ) : BitVec w) = a := by
  apply BitVec.eq_of_toInt_eq
  rw [BitVec.toInt_intCast]
  exact BitVec.toInt_bmod_cancel a

/-- `y` is the `w`-bit number that the exact result `x` wraps to. -/
def Spec.Wraps (x : ℤ) (y : BitVec w) : Prop :=
  (2 ^ w : ℤ) ∣ y.toInt - x ∧ (0 < w → -2 ^ (w - 1) ≤ x → x < 2 ^ (w - 1) → y.toInt = x)

theorem wraps_cast (x : ℤ) : Spec.Wraps x ((x : ℤ) : BitVec w) := by
  refine ⟨?_, fun hw h h' => wrap_exact ⟨h, h'⟩ hw⟩
  rw [BitVec.toInt_intCast]
  have := Int.dvd_bmod_sub_self (x := x) (m := 2 ^ w)
  exact_mod_cast this

theorem wraps_of_hom {y : BitVec w} {x : ℤ} (h : Int.castRingHom (BitVec w) x = y) : Spec.Wraps x y :=
  h ▸ wraps_cast x
open Spec

/-- dot product and squared norm -/
theorem C68_dot (v u : Vec (BitVec w) n) : Wraps (∑ i, (v.data i).toInt * (u.data i).toInt) (v.dot u) ∧
    Wraps (∑ i, (v.data i).toInt ^ 2) v.normSquared := by
  constructor <;> apply wraps_of_hom
  · simp [Vec.dot_eq_sum, cast_toInt]
  · simp [Vec.normSquared, Vec.dot_eq_sum, cast_toInt, pow_two]

/-- componentwise operations -/
theorem C68_vector (v u : Vec (BitVec w) n) (k : BitVec w) (i : Fin n) :
    Wraps ((v.data i).toInt + (u.data i).toInt) ((v + u).data i) ∧
    Wraps ((v.data i).toInt - (u.data i).toInt) ((v - u).data i) ∧ Wraps (-(v.data i).toInt) ((-v).data i) ∧
    Wraps ((v.data i).toInt * k.toInt) ((v * k).data i) ∧
    Wraps ((v.data i).toInt + ((u.data i).toInt - (v.data i).toInt) * k.toInt) ((v.lerp u k).data i) := by
  refine ⟨wraps_of_hom ?_, wraps_of_hom ?_, wraps_of_hom ?_, wraps_of_hom ?_, wraps_of_hom ?_⟩ <;>
    simp [cast_toInt, Vec.lerp]

theorem C68_cross (u v : Vec (BitVec w) 3) :
    Wraps ((u.data 1).toInt * (v.data 2).toInt - (u.data 2).toInt * (v.data 1).toInt) ((u.cross v).data 0) ∧
    Wraps ((u.data 2).toInt * (v.data 0).toInt - (u.data 0).toInt * (v.data 2).toInt) ((u.cross v).data 1) ∧
    Wraps ((u.data 0).toInt * (v.data 1).toInt - (u.data 1).toInt * (v.data 0).toInt) ((u.cross v).data 2) := by
  refine ⟨wraps_of_hom ?_, wraps_of_hom ?_, wraps_of_hom ?_⟩ <;> simp [Vec.cross, cast_toInt]

/-- matrix products -/
theorem C68_matrix (A : Mat (BitVec w) R1 C1) (B : Mat (BitVec w) C1 C2) (v : Vec (BitVec w) C1) :
    (∀ c r, Wraps (∑ k, (A.data k r).toInt * (B.data c k).toInt) ((A * B).data c r)) ∧
    (∀ r, Wraps (∑ k, (A.data k r).toInt * (v.data k).toInt) ((A * v).data r)) := by
  refine ⟨fun c r => wraps_of_hom ?_, fun r => wraps_of_hom ?_⟩
  · simp [mul_data, cast_toInt]
  · simp [mulVec_data, cast_toInt]

/-- the exact values of the entries of a matrix of machine integers -/
def Spec.exactM (A : Mat (BitVec w) N N) : Matrix (Fin N) (Fin N) ℤ := .of fun r c => (A.data c r).toInt

theorem exactM_cast (A : Mat (BitVec w) N N) : (exactM A).map (Int.castRingHom (BitVec w)) = A.toMatrix := by
  ext r c; simp [exactM, cast_toInt]

/-- trace and determinants -/
theorem C68_determinant (A : Mat (BitVec w) N N) (A1 : Mat (BitVec w) 1 1) (A2 : Mat (BitVec w) 2 2)
    (A3 : Mat (BitVec w) 3 3) (A4 : Mat (BitVec w) 4 4) :
    Wraps (exactM A).trace A.trace ∧ Wraps (exactM A1).det A1.determinant1 ∧
    Wraps (exactM A2).det A2.determinant2 ∧ Wraps (exactM A3).det A3.determinant3 ∧
    Wraps (exactM A4).det A4.determinant4 := by
  refine ⟨wraps_of_hom ?_, wraps_of_hom ?_, wraps_of_hom ?_, wraps_of_hom ?_, wraps_of_hom ?_⟩
  · simp [trace_eq_sum, Matrix.trace, exactM, cast_toInt]
  all_goals
    rw [RingHom.map_det]
    simp only [RingHom.mapMatrix_apply, exactM_cast]
  · exact (C17_det1 A1).symm
  · exact (C17_det2 A2).symm
  · exact (C17_det3 A3).symm
  · exact (C17_det4 A4).symm

/-- products of complex numbers -/
theorem C68_complex (z z' : Cx (BitVec w)) :
    Wraps (z.re.toInt * z'.re.toInt - z.im.toInt * z'.im.toInt) (z * z').re ∧
    Wraps (z.re.toInt * z'.im.toInt + z.im.toInt * z'.re.toInt) (z * z').im := by
  refine ⟨wraps_of_hom ?_, wraps_of_hom ?_⟩ <;> simp [cast_toInt]

/-- products of quaternions: those of Mathlib's integer quaternions -/
theorem C68_quaternion (q q' : Quat (BitVec w)) (e e' : ℍ[ℤ])
    (he : e.re = q.s.toInt ∧ e.imI = q.x.toInt ∧ e.imJ = q.y.toInt ∧ e.imK = q.z.toInt)
    (he' : e'.re = q'.s.toInt ∧ e'.imI = q'.x.toInt ∧ e'.imJ = q'.y.toInt ∧ e'.imK = q'.z.toInt) :
    Wraps (e * e').re (q * q').s ∧ Wraps (e * e').imI (q * q').x ∧
    Wraps (e * e').imJ (q * q').y ∧ Wraps (e * e').imK (q * q').z := by
  refine ⟨wraps_of_hom ?_, wraps_of_hom ?_, wraps_of_hom ?_, wraps_of_hom ?_⟩ <;>
    simp [he, he', cast_toInt] <;> ring

/-- unsigned integers -/
theorem C68_unsigned (v u : Vec (BitVec w) n) (A : Mat (BitVec w) R1 C1) (B : Mat (BitVec w) C1 C2) :
    (v.dot u).toNat = (∑ i, (v.data i).toNat * (u.data i).toNat) % 2 ^ w ∧
    ∀ c r, ((A * B).data c r).toNat = (∑ k, (A.data k r).toNat * (B.data c k).toNat) % 2 ^ w := by
  have h : ∀ (m : ℕ) (y : BitVec w), ((m : ℕ) : BitVec w) = y → y.toNat = m % 2 ^ w := by
    rintro m _ rfl; simp
  refine ⟨h _ _ ?_, fun c r => h _ _ ?_⟩
  · simp [Vec.dot_eq_sum]
  · simp [mul_data]

/-- an intermediate overflow that cancels: `100 * 2 + -100 * 1` in eight bits, where `200` does not fit -/
example : ((Vec.new2 (100 : BitVec 8) (-100)).dot (Vec.new2 2 1)).toInt = 100 := by
  rw [(C68_dot _ _).1.2 (by norm_num)] <;> simp [Fin.sum_univ_two] <;> decide

end Wrap

end Cgl
