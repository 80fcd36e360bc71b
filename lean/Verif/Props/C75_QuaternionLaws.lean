import Verif.Props.C39_QuaternionAlgebra
import Verif.Props.C40_QuaternionInverse
import Verif.Props.C44_QuaternionExpLn
import Verif.Props.C46_QuaternionPolar
import Verif.Props.C47_QuaternionProjection
import Verif.Props.C48_QuaternionTrig

/-!
# C75 - the laws the project's property tests sample for quaternions

crates/cglinalg_core/tests/spec_quaternion.rs states 74 laws as generic functions `prop_*` and evaluates each on
random samples, with tolerances. Here they are theorems about all quaternions, read as in C74. `eps` is the
threshold the functions `exp`, `ln`, `sqrt`, `arg`, `try_inverse` compare with (`S::default_epsilon()` in the
public API). The laws comparing by-reference operators with by-value ones (341-354, 439-452) are not repeated.
-/

namespace Cgl
open Quat

section Ring
variable {K : Type*} [CommRing K] (q q1 q2 q3 : Quat K) (a b c : K)

/-- spec_quaternion.rs 221-323, 362-421, 477-488 -/
theorem C75_additive_and_units :
    0 * q = 0 ∧ q * 0 = 0 ∧ q + 0 = q ∧ 0 + q = q ∧ 1 * q = q ∧ q * 1 = q ∧ q1 + q2 = q2 + q1 ∧
    q1 + q2 + q3 = q1 + (q2 + q3) ∧ q - 0 = q ∧ q - q = 0 ∧ -q + q = 0 ∧ q + -q = 0 ∧
    q * identity = q ∧ identity * q = q := by
  refine ⟨?_, ?_, ?_, ?_, ?_, ?_, ?_, ?_, ?_, ?_, ?_, ?_, ?_, ?_⟩ <;> apply ext4 <;> simp <;> ring

/-- spec_quaternion.rs 460-469, 534-639 -/
theorem C75_multiplicative :
    fromReal c * q = q * fromReal c ∧ q * (a * b) = q * a * b ∧ q1 * (q2 * q3) = q1 * q2 * q3 ∧
    (q1 + q2) * a = q1 * a + q2 * a ∧ q * (a + b) = q * a + q * b ∧
    (q1 + q2) * q3 = q1 * q3 + q2 * q3 ∧ q1 * (q2 + q3) = q1 * q2 + q1 * q3 := by
  refine ⟨?_, ?_, ?_, ?_, ?_, ?_, ?_⟩ <;> apply ext4 <;> simp <;> ring

/-- spec_quaternion.rs 647-754: the dot product is a symmetric bilinear form -/
theorem C75_dot :
    q1.dot q2 = q2.dot q1 ∧ q1.dot (q2 + q3) = q1.dot q2 + q1.dot q3 ∧
    (q1 + q2).dot q3 = q1.dot q3 + q2.dot q3 ∧ (q1 * a).dot (q2 * b) = q1.dot q2 * (a * b) ∧
    q1.dot (q2 * a + q3 * b) = q1.dot q2 * a + q1.dot q3 * b ∧
    (q1 * a + q2 * b).dot q3 = q1.dot q3 * a + q2.dot q3 * b := by
  refine ⟨?_, ?_, ?_, ?_, ?_, ?_⟩ <;> simp [dot_eq] <;> ring

/-- spec_quaternion.rs 762-799 -/
theorem C75_conjugation :
    q.conjugate.conjugate = q ∧ (q1 + q2).conjugate = q1.conjugate + q2.conjugate ∧
    (q1 * q2).conjugate = q2.conjugate * q1.conjugate := by
  refine ⟨?_, ?_, ?_⟩ <;> apply ext4 <;> simp <;> ring

/-- spec_quaternion.rs 1431-1446: a pure quaternion of norm one squares to `-1` (over the reals, where the norm
exists, `normSquared = 1` says `norm = 1`) -/
theorem C75_pure_unit_squared [DecidableEq K] (hp : q.isPure = true) (hn : q.normSquared = 1) :
    q.squared = fromReal (-1) := by
  obtain ⟨v, rfl⟩ := (C39_is_pure q).mp hp
  rw [normSquared_eq] at hn
  apply ext4 <;> simp [C39_squared] at hn ⊢
  · linear_combination -hn
  all_goals ring

example : (new 0 0 1 0 : Quat ℚ).isPure = true ∧ (new 0 0 1 0 : Quat ℚ).normSquared = 1 := by
  constructor
  · exact (C39_is_pure _).mpr ⟨Vec.new3 0 1 0, rfl⟩
  · simp [normSquared_eq]

end Ring

/-- The converse: only the pure quaternions of norm one square to `-1`, the "unit two-sphere" of the test's
documentation. -/
theorem C75_square_roots_of_minus_one (q : Quat ℝ) :
    q.squared = fromReal (-1) ↔ q.isPure = true ∧ q.norm = 1 := by
  constructor
  · intro h
    have hs := congrArg s h
    have hx := congrArg x h
    have hy := congrArg y h
    have hz := congrArg z h
    simp [C39_squared] at hs hx hy hz
    have h0 : q.s = 0 := by
      by_contra h0
      have ex : q.x = 0 := by
        have : q.s * q.x = 0 := by linarith
        exact (mul_eq_zero.mp this).resolve_left h0
      have ey : q.y = 0 := by
        have : q.s * q.y = 0 := by linarith
        exact (mul_eq_zero.mp this).resolve_left h0
      have ez : q.z = 0 := by
        have : q.s * q.z = 0 := by linarith
        exact (mul_eq_zero.mp this).resolve_left h0
      rw [ex, ey, ez] at hs
      nlinarith [mul_self_nonneg q.s]
    refine ⟨(C39_is_pure q).mpr ⟨q.vector, ?_⟩, ?_⟩
    · apply ext4 <;> simp [h0]
    · rw [norm_def, normSquared_eq, h0]
      rw [h0] at hs
      rw [Real.sqrt_eq_one]; linarith
  · rintro ⟨hp, hn⟩
    apply C75_pure_unit_squared q hp
    rw [← Quat.norm_mul_norm, hn]; norm_num

/-- spec_quaternion.rs 497-521: whenever `try_inverse` returns an inverse it is two-sided, and it returns one
for every quaternion longer than the threshold -/
theorem C75_multiplicative_inverse (eps : ℝ) (heps : 0 ≤ eps) (q : Quat ℝ) (h : eps < q.norm) :
    ∃ r, q.tryInverse eps = some r ∧ q * r = identity ∧ r * q = identity := by
  cases hr : q.tryInverse eps with
  | none => exact absurd ((C40_try_inverse_none_norm heps q).mp hr) (not_le.mpr h)
  | some r => exact ⟨r, rfl, C40_try_inverse_some _ _ hr⟩

/-! ### norms -/

section Ordered
variable {K : Type*} [CommRing K] [LinearOrder K] [IsStrictOrderedRing K] (q q1 q2 : Quat K) (c : K)

omit [LinearOrder K] [IsStrictOrderedRing K] in
private theorem eq_zero_of (h : q.s = 0 ∧ q.x = 0 ∧ q.y = 0 ∧ q.z = 0) : q = 0 :=
  ext4 h.1 h.2.1 h.2.2.1 h.2.2.2

/-- spec_quaternion.rs 807-892 -/
theorem C75_modulus_squared :
    0 ≤ q.normSquared ∧ (q ≠ 0 → q.normSquared ≠ 0) ∧ (q ≠ 0 → 0 < q.normSquared) ∧
    (q * c).normSquared = q.normSquared * |c| * |c| := by
  have hs := mul_self_nonneg q.s
  have hx := mul_self_nonneg q.x
  have hy := mul_self_nonneg q.y
  have hz := mul_self_nonneg q.z
  have h0 : 0 ≤ q.normSquared := by rw [normSquared_eq]; linarith
  have h1 : q ≠ 0 → q.normSquared ≠ 0 := by
    intro hq h
    apply hq
    rw [normSquared_eq] at h
    exact eq_zero_of q ⟨mul_self_eq_zero.mp (by linarith), mul_self_eq_zero.mp (by linarith),
      mul_self_eq_zero.mp (by linarith), mul_self_eq_zero.mp (by linarith)⟩
  refine ⟨h0, h1, fun hq => lt_of_le_of_ne h0 (h1 hq).symm, ?_⟩
  rw [mul_assoc, abs_mul_abs_self]
  simp [normSquared_eq]; ring

variable [SAbs K] (habs : ∀ x : K, sabs x = |x|)
include habs

private theorem l1_eq : q.l1Norm = |q.s| + |q.x| + |q.y| + |q.z| := by
  simp [l1Norm, Vec.l1Norm, forRange, Fin.foldl_succ, habs]

/-- spec_quaternion.rs 978-1081 -/
theorem C75_l1_norm :
    0 ≤ q.l1Norm ∧ (q ≠ 0 → q.l1Norm ≠ 0) ∧ (q ≠ 0 → 0 < q.l1Norm) ∧ (q * c).l1Norm = q.l1Norm * |c| ∧
    (q1 + q2).l1Norm ≤ q1.l1Norm + q2.l1Norm := by
  simp only [l1_eq _ habs]
  have hs := abs_nonneg q.s
  have hx := abs_nonneg q.x
  have hy := abs_nonneg q.y
  have hz := abs_nonneg q.z
  have h1 : q ≠ 0 → |q.s| + |q.x| + |q.y| + |q.z| ≠ 0 := by
    intro hq h
    apply hq
    exact eq_zero_of q ⟨abs_eq_zero.mp (by linarith), abs_eq_zero.mp (by linarith),
      abs_eq_zero.mp (by linarith), abs_eq_zero.mp (by linarith)⟩
  refine ⟨by linarith, h1, fun hq => lt_of_le_of_ne (by linarith) (h1 hq).symm, ?_, ?_⟩
  · simp [abs_mul]; ring
  · simp
    linarith [abs_add_le q1.s q2.s, abs_add_le q1.x q2.x, abs_add_le q1.y q2.y, abs_add_le q1.z q2.z]

end Ordered

/-- spec_quaternion.rs 930-970 -/
theorem C75_modulus (q : Quat ℝ) : 0 ≤ q.norm ∧ (q ≠ 0 → 0 < q.norm) :=
  ⟨q.norm_nonneg, fun h => lt_of_le_of_ne q.norm_nonneg (Ne.symm (Quat.norm_eq_zero.not.mpr h))⟩

/-! ### exponential and logarithm -/

private theorem neg_vector (q : Quat ℝ) : (-q).vector = -q.vector := by apply Vec.ext3 <;> simp
private theorem neg_vector_normSquared (q : Quat ℝ) : (-q).vector.normSquared = q.vector.normSquared := by
  simp [vector_normSquared]
private theorem neg_vector_norm (q : Quat ℝ) : (-q).vector.norm = q.vector.norm := by
  rw [Vec.norm_def, Vec.norm_def, neg_vector_normSquared]

/-- spec_quaternion.rs 1135-1194: for every threshold, `exp` turns the sum of scalar and vector part into a
product, has no zeros, and `exp (-q)` is the inverse of `exp q`. -/
theorem C75_exp (eps : ℝ) (q : Quat ℝ) :
    (fromReal q.scalar + fromPure q.vector).exp eps = (fromReal q.scalar).exp eps * (fromPure q.vector).exp eps ∧
    q.exp eps ≠ 0 ∧
    (-q).exp eps * q.exp eps = unitS ∧ q.exp eps * (-q).exp eps = unitS := by
  have e1 : fromReal q.scalar + fromPure q.vector = q := by apply ext4 <;> simp
  have hr : (fromReal q.scalar).exp eps = fromReal (Real.exp q.s) := by
    unfold Quat.exp
    dsimp only
    rw [if_pos (by rw [vector_normSquared]; simp; nlinarith [mul_self_nonneg eps])]
    apply ext4 <;> simp
  have hv : (fromPure q.vector).vector = q.vector := by apply Vec.ext3 <;> simp
  have hexp : q.exp eps = (fromReal q.scalar).exp eps * (fromPure q.vector).exp eps := by
    rw [hr]
    unfold Quat.exp
    dsimp only
    rw [hv]
    split_ifs <;> apply ext4 <;> simp <;> ring
  have hmul : ∀ p : Quat ℝ, (-p).exp eps * p.exp eps = unitS := by
    intro p
    have hE : Real.exp (-p.s) * Real.exp p.s = 1 := by rw [← Real.exp_add]; simp
    unfold Quat.exp
    dsimp only
    rw [neg_vector_normSquared]
    split_ifs with hle
    · apply ext4 <;> simp [unitS, hE]
    · have hn : 0 < p.vector.normSquared := by
        rcases (Vec.normSquared_nonneg p.vector).eq_or_lt with h | h
        · exact absurd (by rw [← h]; exact mul_self_nonneg eps) hle
        · exact h
      set n := Real.sqrt p.vector.normSquared with hnd
      have hnn : n * n = p.x * p.x + p.y * p.y + p.z * p.z := by
        rw [hnd, Real.mul_self_sqrt hn.le, vector_normSquared]
      have hn0 : n ≠ 0 := (Real.sqrt_pos.mpr hn).ne'
      have hsc := Real.sin_sq_add_cos_sq n
      simp only [fsqrt_real, ← hnd, fexp_real, fcos_real, fsin_real]
      have ek : ∀ t : ℝ, t * (Real.sin n) / n = t * (Real.sin n / n) := fun t => by ring
      have hk : (Real.sin n / n) * (Real.sin n / n) * (n * n) = Real.sin n ^ 2 := by field_simp
      rw [hnn] at hk
      rw [ek, ek]
      generalize Real.sin n / n = k at hk
      simp only [neg_vector]
      apply ext4 <;> simp [unitS]
      · linear_combination (Real.exp (-p.s) * Real.exp p.s) * hk + (Real.exp (-p.s) * Real.exp p.s) * hsc + hE
      all_goals ring
  refine ⟨by rw [e1, hexp], ?_, hmul q, ?_⟩
  · intro h0
    have := hmul q
    rw [h0] at this
    have := congrArg s this
    simp [unitS] at this
  · have := hmul (-q)
    have e : - -q = q := by apply ext4 <;> simp
    rwa [e] at this

/-- spec_quaternion.rs 1203-1218: the scalar part of the logarithm is the logarithm of the norm, whenever the
vector part is zero or longer than the threshold ... -/
theorem C75_ln_scalar_part_partial {eps : ℝ} (heps : 0 ≤ eps) (q : Quat ℝ) (h : Spec.Resolved eps q) :
    (q.ln eps).scalar = Real.log q.norm := by
  rcases h with h | h
  · unfold Quat.ln
    dsimp only
    have hv : q.vector.normSquared = 0 := by rw [h]; simp [Vec.normSquared, Vec.dot3]
    rw [if_pos (by rw [hv]; exact mul_self_nonneg eps)]
    have : q.norm = |q.s| := by
      have h2 := vector_normSquared q
      rw [norm_def, normSquared_eq, ← Real.sqrt_mul_self_eq_abs]; congr 1; linarith
    rw [this]; simp [Vec.sabs_real]
  · exact (C44_ln heps q h).1

/-- ... and within `eps² / s²` of it for every other quaternion with non-zero scalar part `s` ... -/
theorem C75_ln_scalar_part_error (eps : ℝ) (q : Quat ℝ) (h : q.vector.normSquared ≤ eps * eps)
    (hs : q.scalar ≠ 0) :
    |(q.ln eps).scalar - Real.log q.norm| ≤ eps ^ 2 / q.scalar ^ 2 := by
  unfold Quat.ln
  dsimp only
  rw [if_pos h]
  rw [scalar_eq] at hs
  have hpos : 0 < q.s ^ 2 := by positivity
  have hv := vector_normSquared q
  have hvn : 0 ≤ q.vector.normSquared := Vec.normSquared_nonneg _
  have hn2 : q.norm ^ 2 = q.s ^ 2 + q.vector.normSquared := by
    rw [Quat.norm_sq, normSquared_eq, hv]; ring
  have hn0 : 0 < q.norm := lt_of_le_of_ne q.norm_nonneg (by intro h0; rw [← h0] at hn2; nlinarith)
  have hsl : Real.log |q.s| = Real.log (q.s ^ 2) / 2 := by
    rw [← sq_abs, Real.log_pow]; push_cast; ring
  have hnl : Real.log q.norm = Real.log (q.norm ^ 2) / 2 := by rw [Real.log_pow]; push_cast; ring
  simp only [scalar_eq, fromParts_s, fln_real, Vec.sabs_real]
  rw [hsl, hnl, hn2, abs_sub_comm, ← sub_div, ← Real.log_div (by positivity) hpos.ne']
  have hr : (q.s ^ 2 + q.vector.normSquared) / q.s ^ 2 = 1 + q.vector.normSquared / q.s ^ 2 := by
    field_simp
  rw [hr]
  have ht : 0 ≤ q.vector.normSquared / q.s ^ 2 := by positivity
  have hl := Real.log_le_sub_one_of_pos (show 0 < 1 + q.vector.normSquared / q.s ^ 2 by positivity)
  have hl0 := Real.log_nonneg (show 1 ≤ 1 + q.vector.normSquared / q.s ^ 2 by linarith)
  rw [abs_of_nonneg (by positivity)]
  have hb : q.vector.normSquared / q.s ^ 2 ≤ eps ^ 2 / q.s ^ 2 := by
    apply div_le_div_of_nonneg_right _ hpos.le; rw [sq eps]; exact h
  linarith

/-- ... but for no positive threshold exactly for all. -/
theorem C75_ln_scalar_part_fails {eps : ℝ} (heps : 0 < eps) :
    ¬ ∀ q : Quat ℝ, q ≠ 0 → (q.ln eps).scalar = Real.log q.norm := by
  intro h
  have h1 := h (new 1 eps 0 0) (fun h0 => by have := congrArg s h0; simp at this)
  unfold Quat.ln at h1
  dsimp only at h1
  rw [if_pos (by rw [vector_normSquared]; simp)] at h1
  simp [Vec.sabs_real, norm_def, normSquared_eq] at h1
  have h2 : 1 < Real.sqrt (1 + eps * eps) := by
    rw [Real.lt_sqrt (by norm_num)]; nlinarith
  have := Real.log_pos h2
  rw [← h1] at this
  exact lt_irrefl _ this

/-- spec_quaternion.rs 1227-1237, 1306-1316: arguments lie in `[0, π]` -/
theorem C75_arg_range (eps : ℝ) (q : Quat ℝ) :
    0 ≤ q.arg eps ∧ q.arg eps ≤ Real.pi ∧ 0 ≤ (q.ln eps).arg eps ∧ (q.ln eps).arg eps ≤ Real.pi :=
  ⟨(C47_arg_range q).1, (C47_arg_range q).2, (C47_arg_range _).1, (C47_arg_range _).2⟩

/-- spec_quaternion.rs 1246-1256: `exp (ln q) = q` holds for every quaternion with non-zero vector part or
positive scalar when the threshold is `0`; C44_exp_ln_partial, C44_exp_ln_error and C44_exp_ln_fails give the
exact condition, the error bound and the witness for a positive one. -/
theorem C75_exp_ln_identity_partial (q : Quat ℝ) (h : q.vector ≠ 0 ∨ 0 < q.scalar) : (q.ln 0).exp 0 = q :=
  C44_exp_ln_exact_partial q h

private theorem arg_of_fromPolar (eps : ℝ) (q : Quat ℝ) (hv : q.vector ≠ 0) :
    (fromPolarDecomposition q.norm ⟨2 * q.arg eps⟩ ⟨q.vector.normalize⟩).arg eps = q.arg eps := by
  have hq : q ≠ 0 := by rintro rfl; apply hv; apply Vec.ext3 <;> simp
  have hvn : 0 < q.vector.norm :=
    lt_of_le_of_ne (Vec.norm_nonneg _) (fun h => hv ((Vec.norm_eq_zero _).mp h.symm))
  have hqn : 0 < q.norm := lt_of_le_of_ne q.norm_nonneg (Ne.symm (Quat.norm_eq_zero.not.mpr hq))
  by_cases hs : q.scalar * q.scalar ≤ eps * eps
  · have ha : q.arg eps = Real.pi / 2 := by unfold Quat.arg; rw [if_pos hs]; rfl
    rw [ha]
    unfold Quat.arg
    rw [if_pos]
    · rfl
    · simp only [fromPolarDecomposition, scalar_eq, fromParts_s, fcos_real]
      have : ((⟨2 * (Real.pi / 2)⟩ : Radians ℝ) / (1 + 1 : ℝ)).val = Real.pi / 2 := by
        change 2 * (Real.pi / 2) / (1 + 1) = _; norm_num
      rw [this]; simp; exact mul_self_nonneg eps
  · have ha : q.arg eps = Complex.arg ⟨q.s, q.vector.norm⟩ := by unfold Quat.arg; rw [if_neg hs]; rfl
    have hN : ‖(⟨q.s, q.vector.norm⟩ : ℂ)‖ = q.norm := by
      have h1 : Complex.normSq ⟨q.s, q.vector.norm⟩ = q.norm ^ 2 := by
        rw [Complex.normSq_mk, Quat.norm_sq, Vec.norm_mul_norm, vector_normSquared, normSquared_eq]; ring
      rw [Complex.norm_def, h1, Real.sqrt_sq q.norm_nonneg]
    have hc : (⟨q.s, q.vector.norm⟩ : ℂ) ≠ 0 := by rw [← norm_ne_zero_iff, hN]; exact hqn.ne'
    have hcos : Real.cos (q.arg eps) * q.norm = q.s := by
      rw [ha, Complex.cos_arg hc, hN]; field_simp
    have hsin : Real.sin (q.arg eps) * q.norm = q.vector.norm := by
      rw [ha, Complex.sin_arg, hN]; field_simp
    have : fromPolarDecomposition q.norm ⟨2 * q.arg eps⟩ ⟨q.vector.normalize⟩ = q := by
      have e : ((⟨2 * q.arg eps⟩ : Radians ℝ) / (1 + 1 : ℝ)).val = q.arg eps := by
        change 2 * q.arg eps / (1 + 1) = _; field_simp; ring
      have hm := Vec.normalize_mul_norm hv
      have hm0 := fun i => congrArg (fun v : Vec ℝ 3 => v.data i) hm
      simp only [Vec.mulS_data] at hm0
      unfold fromPolarDecomposition
      dsimp only
      rw [e]
      apply ext4
      · simpa using hcos
      · have := hm0 0; simp [mul_assoc, hsin] at this ⊢; exact this
      · have := hm0 1; simp [mul_assoc, hsin] at this ⊢; exact this
      · have := hm0 2; simp [mul_assoc, hsin] at this ⊢; exact this
    rw [this]

/-- spec_quaternion.rs 1269-1298: rebuilding a quaternion from its norm, its axis and its argument plus whole
turns gives a quaternion with the same argument -/
theorem C75_arg_congruent (eps : ℝ) (q : Quat ℝ) (k : ℤ) (axis : Unit' (Vec ℝ 3))
    (h : q.polarDecomposition.2.2 = some axis) :
    (fromPolarDecomposition q.polarDecomposition.1 ⟨2 * (q.arg eps + 2 * Real.pi * k)⟩ axis).arg eps
      = q.arg eps := by
  have hv : q.vector ≠ 0 := by
    intro h0; rw [(C46_axis q).2 h0] at h; exact absurd h (by simp)
  have hax : axis = ⟨q.vector.normalize⟩ := by
    have := (C46_axis q).1 hv; rw [h] at this; exact Option.some.inj this
  have e1 : ((⟨2 * (q.arg eps + 2 * Real.pi * k)⟩ : Radians ℝ) / (1 + 1 : ℝ)).val
      = q.arg eps + k * (2 * Real.pi) := by
    change 2 * (q.arg eps + 2 * Real.pi * k) / (1 + 1) = _; field_simp; ring
  have e2 : ((⟨2 * q.arg eps⟩ : Radians ℝ) / (1 + 1 : ℝ)).val = q.arg eps := by
    change 2 * q.arg eps / (1 + 1) = _; field_simp; ring
  have e3 : fromPolarDecomposition q.norm ⟨2 * (q.arg eps + 2 * Real.pi * k)⟩ ⟨q.vector.normalize⟩
      = fromPolarDecomposition q.norm ⟨2 * q.arg eps⟩ ⟨q.vector.normalize⟩ := by
    unfold fromPolarDecomposition
    dsimp only
    rw [e1, e2]
    simp only [fcos_real, fsin_real, Real.cos_add_int_mul_two_pi, Real.sin_add_int_mul_two_pi]
  rw [C46_scale, hax, e3, arg_of_fromPolar eps q hv]

example : ∃ axis, (new 1 2 3 4 : Quat ℝ).polarDecomposition.2.2 = some axis := by
  refine ⟨_, (C46_axis _).1 ?_⟩
  intro h; have := congrArg (fun v : Vec ℝ 3 => v.data 0) h; simp at this

/-! ### square root -/

/-- spec_quaternion.rs 1326-1374: squares of square roots. Exact for every quaternion when the threshold is `0`;
for a positive one exact when the vector part is zero or longer than the threshold and the quaternion is zero or
longer than it, and within `2 eps` always. -/
theorem C75_square_root_partial {eps : ℝ} (heps : 0 ≤ eps) (q : Quat ℝ) :
    (Spec.Resolved eps q → (q = 0 ∨ eps < q.norm) →
      q.sqrt eps * q.sqrt eps = q ∧ q.conjugate.sqrt eps * q.conjugate.sqrt eps = q.conjugate) ∧
    (q.sqrt eps * q.sqrt eps - q).norm ≤ 2 * eps ∧
    q.sqrt 0 * q.sqrt 0 = q := by
  have key0 : Spec.Resolved 0 q := by
    by_cases h : q.vector = 0
    · exact Or.inl h
    · exact Or.inr (lt_of_le_of_ne (Vec.norm_nonneg _) (fun h' => h ((Vec.norm_eq_zero _).mp h'.symm)))
  have hn0 : q = 0 ∨ 0 < q.norm := by
    by_cases h : q = 0
    · exact Or.inl h
    · exact Or.inr (lt_of_le_of_ne q.norm_nonneg (Ne.symm (Quat.norm_eq_zero.not.mpr h)))
  refine ⟨fun h1 h2 => ⟨C44_sqrt heps q h1 h2, C44_sqrt heps _ ?_ ?_⟩, C44_sqrt_error heps q,
    C44_sqrt le_rfl q key0 hn0⟩
  · have hcv : q.conjugate.vector.norm = q.vector.norm := by
      rw [Vec.norm_def, Vec.norm_def, vector_normSquared, vector_normSquared]; simp
    rcases h1 with h | h
    · left
      have hx := fun i => congrArg (fun v : Vec ℝ 3 => v.data i) h
      apply Vec.ext3
      · have := hx 0; simp at this ⊢; exact this
      · have := hx 1; simp at this ⊢; exact this
      · have := hx 2; simp at this ⊢; exact this
    · right; rwa [hcv]
  · rcases h2 with h | h
    · left; rw [h]; apply ext4 <;> simp
    · right; rwa [C39_norm_conj]

/-- With a positive threshold the square of the square root is not always the argument: a quaternion shorter
than the threshold has the square root zero. -/
theorem C75_square_root_fails {eps : ℝ} (heps : 0 < eps) :
    ¬ ∀ q : Quat ℝ, q.vector ≠ 0 → q.sqrt eps * q.sqrt eps = q := by
  intro h
  have h1 := h (new 0 eps 0 0) (fun h0 => by
    have := congrArg (fun v : Vec ℝ 3 => v.data 0) h0; simp at this; exact heps.ne' this)
  unfold Quat.sqrt at h1
  dsimp only at h1
  rw [if_pos (by rw [normSquared_eq]; simp)] at h1
  have := congrArg x h1
  simp at this
  exact heps.ne' this.symm

private theorem sqrt_norm {eps : ℝ} (q : Quat ℝ) (h : ¬ q.normSquared ≤ eps * eps) :
    (q.sqrt eps).norm = Real.sqrt q.norm := by
  have hN : 0 ≤ q.norm := q.norm_nonneg
  have key : ∀ r : Quat ℝ, r.normSquared = q.norm → r.norm = Real.sqrt q.norm := by
    intro r hr; rw [norm_def, hr]
  have hss : Real.sqrt q.norm * Real.sqrt q.norm = q.norm := Real.mul_self_sqrt hN
  unfold Quat.sqrt
  dsimp only
  rw [if_neg h]
  change (if _ then (if _ then fromReal (Real.sqrt q.norm) else fromPure (Vec.new3 (Real.sqrt q.norm) 0 0))
    else _ : Quat ℝ).norm = _
  split_ifs with h1 h2
  · apply key; simp [normSquared_eq, hss]
  · apply key; simp [normSquared_eq, hss]
  · change (fromParts ((q.norm + q.s) * Real.sqrt (1 / (1 + 1) / (q.norm + q.s)))
      (q.vector * Real.sqrt (1 / (1 + 1) / (q.norm + q.s)))).norm = _
    apply key
    have hv : 0 < q.vector.normSquared := by
      rcases (Vec.normSquared_nonneg q.vector).eq_or_lt with h | h
      · exact absurd (by rw [← h]; exact mul_self_nonneg eps) h1
      · exact h
    have hns : q.norm * q.norm = q.s * q.s + q.vector.normSquared := by
      rw [Quat.norm_mul_norm, normSquared_eq, vector_normSquared]; ring
    have hd : 0 < q.norm + q.s := by
      by_contra hc
      push Not at hc
      nlinarith
    have hk : Real.sqrt (1 / (1 + 1) / (q.norm + q.s)) * Real.sqrt (1 / (1 + 1) / (q.norm + q.s))
        = 1 / (1 + 1) / (q.norm + q.s) := Real.mul_self_sqrt (by positivity)
    have hk2 : Real.sqrt (1 / (1 + 1) / (q.norm + q.s)) * Real.sqrt (1 / (1 + 1) / (q.norm + q.s))
        * (q.norm + q.s) * 2 = 1 := by rw [hk]; field_simp; norm_num
    generalize Real.sqrt (1 / (1 + 1) / (q.norm + q.s)) = k at hk2
    have hv2 := vector_normSquared q
    rw [normSquared_eq]
    simp
    have hns' : q.norm * q.norm = q.s * q.s + (q.x * q.x + q.y * q.y + q.z * q.z) := by rw [hns, hv2]
    linear_combination q.norm * hk2 - (k * k) * hns'

/-- spec_quaternion.rs 1383-1393: the norm of the square root of a product is the product of the norms of the
square roots, when the factors and the product are zero or longer than the threshold ... -/
theorem C75_square_root_product_norm_partial {eps : ℝ} (heps : 0 ≤ eps) (q1 q2 : Quat ℝ)
    (h : q1 = 0 ∨ q2 = 0 ∨ (eps < q1.norm ∧ eps < q2.norm ∧ eps < (q1 * q2).norm)) :
    ((q1 * q2).sqrt eps).norm = (q1.sqrt eps).norm * (q2.sqrt eps).norm := by
  have h0 : (0 : Quat ℝ).sqrt eps = 0 := by
    unfold Quat.sqrt
    dsimp only
    rw [if_pos (by rw [normSquared_eq]; simp; exact mul_self_nonneg eps)]
  have hn0 : (0 : Quat ℝ).norm = 0 := Quat.norm_eq_zero.mpr rfl
  have key : ∀ q : Quat ℝ, eps < q.norm → (q.sqrt eps).norm = Real.sqrt q.norm := by
    intro q hq
    apply sqrt_norm
    rw [← Quat.norm_mul_norm]; nlinarith
  rcases h with h | h | ⟨a, b, c⟩
  · rw [h, (C39_mul_zero q2).2, h0, hn0, zero_mul]
  · rw [h, (C39_mul_zero q1).1, h0, hn0, mul_zero]
  · rw [key _ a, key _ b, key _ c, C39_norm_mul, Real.sqrt_mul q1.norm_nonneg]

/-- ... so for all quaternions when the threshold is zero ... -/
theorem C75_square_root_product_norm_exact (q1 q2 : Quat ℝ) :
    ((q1 * q2).sqrt 0).norm = (q1.sqrt 0).norm * (q2.sqrt 0).norm := by
  apply C75_square_root_product_norm_partial le_rfl
  by_cases h1 : q1 = 0
  · exact Or.inl h1
  by_cases h2 : q2 = 0
  · exact Or.inr (Or.inl h2)
  have p1 := (C75_modulus q1).2 h1
  have p2 := (C75_modulus q2).2 h2
  exact Or.inr (Or.inr ⟨p1, p2, by rw [C39_norm_mul]; exact mul_pos p1 p2⟩)

/-- ... and not for all when it is positive: a short factor has the square root zero. -/
theorem C75_square_root_product_norm_fails {eps : ℝ} (heps : 0 < eps) :
    ¬ ∀ q1 q2 : Quat ℝ, ((q1 * q2).sqrt eps).norm = (q1.sqrt eps).norm * (q2.sqrt eps).norm := by
  intro h
  have h1 := h (fromReal eps) (fromReal 2)
  have e0 : (fromReal eps : Quat ℝ).sqrt eps = 0 := by
    unfold Quat.sqrt
    dsimp only
    rw [if_pos (by rw [normSquared_eq]; simp)]
  rw [e0, Quat.norm_eq_zero.mpr rfl, zero_mul, sqrt_norm] at h1
  · have hp : 0 < (fromReal eps * fromReal 2 : Quat ℝ).norm := by
      apply (C75_modulus _).2
      intro h0; have := congrArg s h0; simp at this; exact heps.ne' this
    rw [Real.sqrt_eq_zero hp.le] at h1
    exact hp.ne' h1
  · rw [normSquared_eq]; simp; nlinarith

/-- spec_quaternion.rs 1401-1411: the square root has an argument in `[0, π/2]` -/
theorem C75_square_root_arg_range (eps : ℝ) (q : Quat ℝ) :
    0 ≤ (q.sqrt eps).arg eps ∧ (q.sqrt eps).arg eps ≤ Real.pi / 2 := by
  refine ⟨(C47_arg_range _).1, ?_⟩
  have hs := C44_sqrt_principal eps q
  generalize q.sqrt eps = r at hs
  unfold Quat.arg
  split_ifs
  · exact le_rfl
  · change Complex.arg ⟨r.s, r.vector.norm⟩ ≤ _
    exact (abs_le.mp ((Complex.abs_arg_le_pi_div_two_iff (z := ⟨r.s, r.vector.norm⟩)).mpr hs)).2

/-! ### circular and hyperbolic functions -/

private theorem add_self_plane (u : Vec ℝ 3) (c : ℂ) : plane u c + plane u c = plane u (2 * c) := by
  rw [← plane_add, two_mul]

private theorem two_plane (u : Vec ℝ 3) (c : ℂ) : plane u c * (1 + 1 : ℝ) = plane u (2 * c) := by
  rw [← plane_mulS]; congr 1; push_cast; ring

/-- spec_quaternion.rs 1454-1508, 1593-1647 -/
theorem C75_double_angle (q : Quat ℝ) :
    q.cos * q.cos + q.sin * q.sin = identity ∧
    (q + q).cos = q.cos * q.cos * (1 + 1 : ℝ) - identity ∧
    (q + q).sin = q.sin * q.cos * (1 + 1 : ℝ) ∧
    q.cosh * q.cosh - q.sinh * q.sinh = identity ∧
    (q + q).cosh = q.sinh * q.sinh * (1 + 1 : ℝ) + identity ∧
    (q + q).sinh = q.sinh * q.cosh * (1 + 1 : ℝ) := by
  obtain ⟨u, hu, c, -, -, rfl⟩ := exists_plane q
  simp only [add_self_plane, plane_cos hu, plane_sin hu, plane_cosh hu, plane_sinh hu, ← plane_mul _ _ hu,
    two_plane, ← plane_one u, ← plane_add, ← plane_sub]
  refine ⟨?_, ?_, ?_, ?_, ?_, ?_⟩ <;> congr 1
  · linear_combination Complex.sin_sq_add_cos_sq c
  · rw [Complex.cos_two_mul]; ring
  · rw [Complex.sin_two_mul]; ring
  · linear_combination Complex.cosh_sq_sub_sinh_sq c
  · rw [Complex.cosh_two_mul]; linear_combination Complex.cosh_sq_sub_sinh_sq c
  · rw [Complex.sinh_two_mul]; ring

/-- spec_quaternion.rs 1516-1530, 1655-1669: double angles of the tangents, away from the poles -/
theorem C75_tangent_double_angle (q : Quat ℝ) :
    (q.cos ≠ 0 → (q + q).cos ≠ 0 → (q + q).tan * (identity - q.tan * q.tan) = q.tan * (1 + 1 : ℝ)) ∧
    (q.cosh ≠ 0 → (q + q).cosh ≠ 0 → (q + q).tanh * (identity + q.tanh * q.tanh) = q.tanh * (1 + 1 : ℝ)) := by
  obtain ⟨u, hu, c, -, -, rfl⟩ := exists_plane q
  rw [add_self_plane]
  constructor
  · intro h1 h2
    have g1 : Complex.cos c ≠ 0 := by rintro h0; apply h1; rw [plane_cos hu, h0, plane_zero]
    have g2 : Complex.cos (2 * c) ≠ 0 := by rintro h0; apply h2; rw [plane_cos hu, h0, plane_zero]
    simp only [plane_tan hu, ← plane_mul _ _ hu, two_plane, ← plane_one u, ← plane_sub]
    congr 1
    have t1 := Complex.tan_mul_cos g1
    have t2 := Complex.tan_mul_cos g2
    have c2 := Complex.cos_two_mul' c
    have s2 := Complex.sin_two_mul c
    rw [c2] at g2 t2
    rw [s2] at t2
    apply mul_right_cancel₀ g1
    apply mul_right_cancel₀ g1
    generalize Complex.tan c = t at *
    generalize Complex.tan (2 * c) = T at *
    grind
  · intro h1 h2
    have g1 : Complex.cosh c ≠ 0 := by rintro h0; apply h1; rw [plane_cosh hu, h0, plane_zero]
    have g2 : Complex.cosh (2 * c) ≠ 0 := by rintro h0; apply h2; rw [plane_cosh hu, h0, plane_zero]
    rw [plane_tanh hu _ g1, plane_tanh hu _ g2]
    simp only [← plane_mul _ _ hu, two_plane, ← plane_one u, ← plane_add]
    congr 1
    have t1 : Complex.tanh c * Complex.cosh c = Complex.sinh c := by
      rw [Complex.tanh_eq_sinh_div_cosh, div_mul_cancel₀ _ g1]
    have t2 : Complex.tanh (2 * c) * Complex.cosh (2 * c) = Complex.sinh (2 * c) := by
      rw [Complex.tanh_eq_sinh_div_cosh, div_mul_cancel₀ _ g2]
    have c2 := Complex.cosh_two_mul c
    have s2 := Complex.sinh_two_mul c
    rw [c2] at g2 t2
    rw [s2] at t2
    apply mul_right_cancel₀ g1
    apply mul_right_cancel₀ g1
    generalize Complex.tanh c = t at *
    generalize Complex.tanh (2 * c) = T at *
    grind

example : (0 : Quat ℝ).cos ≠ 0 ∧ (0 : Quat ℝ).cosh ≠ 0 := by
  have hu := unitX3_normSquared
  constructor
  · rw [← plane_zero Vec.unitX3, plane_cos hu]
    exact fun h => by have := plane_injective hu h; simp at this
  · rw [← plane_zero Vec.unitX3, plane_cosh hu]
    exact fun h => by have := plane_injective hu h; simp at this

/-- spec_quaternion.rs 1538-1584, 1677-1723: parity, at every quaternion -/
theorem C75_parity (q : Quat ℝ) :
    (-q).cos = q.cos ∧ (-q).sin = -q.sin ∧ (-q).tan = -q.tan ∧
    (-q).cosh = q.cosh ∧ (-q).sinh = -q.sinh ∧ (-q).tanh = -q.tanh := by
  have htanh : (-q).tanh = -q.tanh := by
    unfold Quat.tanh
    simp only [neg_vector_norm, beq_iff_eq]
    split_ifs
    · apply ext4 <;> simp [Real.tanh_neg]
    · rw [neg_vector]; apply ext4 <;> simp [neg_div]
  obtain ⟨u, hu, c, -, -, rfl⟩ := exists_plane q
  refine ⟨?_, ?_, ?_, ?_, ?_, htanh⟩ <;> rw [← plane_neg]
  · rw [plane_cos hu, plane_cos hu, Complex.cos_neg]
  · rw [plane_sin hu, plane_sin hu, Complex.sin_neg, plane_neg]
  · rw [plane_tan hu, plane_tan hu, Complex.tan_neg, plane_neg]
  · rw [plane_cosh hu, plane_cosh hu, Complex.cosh_neg]
  · rw [plane_sinh hu, plane_sinh hu, Complex.sinh_neg, plane_neg]

end Cgl
