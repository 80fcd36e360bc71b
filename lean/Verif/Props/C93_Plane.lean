import Verif.Props.C93_Vectors
import Mathlib.LinearAlgebra.UnitaryGroup
import Mathlib.Analysis.SpecialFunctions.Complex.Arg

/-! # C93 - rotations of the plane between two directions -/

namespace Cgl
open Ieee FloatFns Spec InnerProductGeometry

variable {φ : Format} [Lib φ]

namespace Spec

/-- The inverse tangent of two arguments has an absolute error of at most `a`, up to full turns, unless both arguments are
zero; the result does not exceed four. -/
def ArgWithin (φ : Format) [Lib φ] (a : ℝ) : Prop :=
  ∀ y x : Ieee φ, y.Finite → x.Finite → (y.val ≠ 0 ∨ x.val ≠ 0) → (fatan2 y x).Finite ∧ |(fatan2 y x).val| ≤ 4 ∧
    ∃ k : ℤ, |(fatan2 y x).val - (Complex.arg ⟨x.val, y.val⟩ + k * (2 * Real.pi))| ≤ a

end Spec

theorem normsq2 (a : EuclideanSpace ℝ (Fin 2)) : ‖a‖ ^ 2 = a 0 ^ 2 + a 1 ^ 2 := by
  rw [EuclideanSpace.norm_sq_eq, Fin.sum_univ_two, Real.norm_eq_abs, Real.norm_eq_abs, sq_abs, sq_abs]

section
variable {d e : ℝ} (hφ : Fine φ) (hd : d ≤ 1 / 1000000) (hwd : unit φ ≤ d) (he : CosineWithin φ e) (hed : e ≤ d)
  (he' : ArgWithin φ e) {u v : Unit' (Vec (Ieee φ) 2)}
  {a b : EuclideanSpace ℝ (Fin 2)} (ha : ‖a‖ = 1) (hb : ‖b‖ = 1) (hu : VecWithin u.value a d) (hv : VecWithin v.value b d)
include hφ hd hwd he hed he' ha hb hu hv

set_option maxHeartbeats 1000000 in
/-- **`Rotation2::rotation_between_axis`.**  For all directions, however close to parallel or opposite, the computed matrix is
within `25 d` of the rotation that takes the first to the second. -/
theorem C93_plane : ∃ A ∈ Matrix.specialOrthogonalGroup (Fin 2) ℝ, A.mulVec a.ofLp = b.ofLp ∧
    ∀ c r, ((Rotation.rotationBetweenAxis2 u v).matrix.data c r).Finite ∧
      |((Rotation.rotationBetweenAxis2 u v).matrix.data c r).val - A r c| ≤ 25 * d := by
  have hw0 : 0 ≤ unit φ := unit_nonneg
  have hd0 : 0 ≤ d := hw0.trans hwd
  have na := normsq2 a
  have nb := normsq2 b
  rw [ha] at na
  rw [hb] at nb
  obtain ⟨c, hc⟩ : ∃ c, c = a 0 * b 0 + a 1 * b 1 := ⟨_, rfl⟩
  obtain ⟨s, hs⟩ : ∃ s, s = a 0 * b 1 - a 1 * b 0 := ⟨_, rfl⟩
  have hcs : c ^ 2 + s ^ 2 = 1 := by
    rw [hc, hs]; linear_combination (-(b 0 ^ 2 + b 1 ^ 2)) * na - nb
  have p : ∀ i j, Nr (u.value.data i * v.value.data j) (a i * b j) (302 / 100 * d) := fun i j => by
    have := Nr.mul hφ (hu i) (hv j) (unit_comp ha i) (unit_comp hb j) (M := 1001 / 1000) (by nlinarith) (by norm_num) (by norm_num)
    exact this.mono (by nlinarith)
  have hC : Nr (u.value.dot v.value) c (71 / 10 * d) := by
    have := (p 0 0).zero_add.add hφ (p 1 1) (M := 101 / 100)
      (by rw [← le_sub_iff_add_le, ← hc]; exact abs_le_of_sq_le_sq (by nlinarith [sq_nonneg s]) (by linarith)) (by norm_num) (by norm_num)
    rw [← hc] at this
    exact this.mono (by linarith)
  have hS : Nr (u.value.data 0 * v.value.data 1 - u.value.data 1 * v.value.data 0) s (71 / 10 * d) := by
    have := (p 0 1).sub hφ (p 1 0) (M := 101 / 100)
      (by rw [← le_sub_iff_add_le, ← hs]; exact abs_le_of_sq_le_sq (by nlinarith [sq_nonneg c]) (by linarith)) (by norm_num) (by norm_num)
    rw [← hs] at this
    exact this.mono (by linarith)
  obtain ⟨C, hCd⟩ : ∃ C, C = u.value.dot v.value := ⟨_, rfl⟩
  obtain ⟨S, hSd⟩ : ∃ S, S = u.value.data 0 * v.value.data 1 - u.value.data 1 * v.value.data 0 := ⟨_, rfl⟩
  rw [← hCd] at hC
  rw [← hSd] at hS
  have hm : (Rotation.rotationBetweenAxis2 u v).matrix = Mat.new2x2 (fcos (fatan2 S C)) (fsin (fatan2 S C)) (-fsin (fatan2 S C))
      (fcos (fatan2 S C)) := by rw [hCd, hSd]; rfl
  -- the computed pair as a complex number
  obtain ⟨z, hz⟩ : ∃ z : ℂ, z = ⟨C.val, S.val⟩ := ⟨_, rfl⟩
  obtain ⟨z0, hz0⟩ : ∃ z : ℂ, z = ⟨c, s⟩ := ⟨_, rfl⟩
  have hn0 : ‖z0‖ = 1 := by
    have : ‖z0‖ ^ 2 = 1 := by rw [Complex.sq_norm, Complex.normSq_apply, hz0]; simp only; linarith [sq c, sq s]
    nlinarith [_root_.norm_nonneg z0]
  have hdz : ‖z - z0‖ ≤ 102 / 10 * d := by
    refine le_of_sq_le_sq ?_ (by linarith)
    rw [Complex.sq_norm, Complex.normSq_apply, hz, hz0]
    simp only [Complex.sub_re, Complex.sub_im]
    have h1 := sq_le_sq' (abs_le.mp hC.2).1 (abs_le.mp hC.2).2
    have h2 := sq_le_sq' (abs_le.mp hS.2).1 (abs_le.mp hS.2).2
    nlinarith
  have hn : |‖z‖ - 1| ≤ 102 / 10 * d := by rw [← hn0]; exact (abs_norm_sub_norm_le z z0).trans hdz
  have hn' := abs_le.mp hn
  have hzp : 0 < ‖z‖ := by linarith
  have hz1 : z ≠ 0 := norm_pos_iff.mp hzp
  have hne : S.val ≠ 0 ∨ C.val ≠ 0 := by
    by_contra hcon
    push Not at hcon
    refine hz1 ?_
    rw [hz, hcon.1, hcon.2]; rfl
  obtain ⟨t1, t2, k, t3⟩ := he' S C hS.1 hC.1 hne
  rw [← hz] at t3
  obtain ⟨s1, s2⟩ := he.sin _ t1 t2
  obtain ⟨c1, c2⟩ := he.cos _ t1 t2
  have cosz : Real.cos (Complex.arg z + k * (2 * Real.pi)) = z.re / ‖z‖ := by
    rw [Real.cos_add_int_mul_two_pi, Complex.cos_arg hz1]
  have sinz : Real.sin (Complex.arg z + k * (2 * Real.pi)) = z.im / ‖z‖ := by
    rw [Real.sin_add_int_mul_two_pi, Complex.sin_arg]
  have ks := (Real.abs_sin_sub_sin_le (fatan2 S C).val (Complex.arg z + k * (2 * Real.pi))).trans t3
  have kc := (Real.abs_cos_sub_cos_le (fatan2 S C).val (Complex.arg z + k * (2 * Real.pi))).trans t3
  rw [sinz] at ks
  rw [cosz] at kc
  have near : ∀ {x y : ℝ}, |x| ≤ ‖z‖ → |x - y| ≤ 71 / 10 * d → |x / ‖z‖ - y| ≤ 175 / 10 * d := fun {x y} h1 h2 => by
    have e1 : x / ‖z‖ - y = (x / ‖z‖) * (1 - ‖z‖) + (x - y) := by field_simp; ring
    have h3 : |x / ‖z‖| ≤ 1 := by rw [abs_div, abs_of_pos hzp, div_le_one hzp]; exact h1
    rw [e1]
    refine (abs_add_le _ _).trans ?_
    rw [abs_mul, abs_sub_comm 1]
    have := mul_le_mul h3 hn (abs_nonneg _) (by norm_num)
    linarith
  have fs : Nr (fsin (fatan2 S C)) s (25 * d) := by
    refine ⟨s1, ?_⟩
    have h1 := near (x := z.im) (y := s) (Complex.abs_im_le_norm z) (by rw [hz]; exact hS.2)
    rw [abs_le] at *
    constructor <;> linarith
  have fc : Nr (fcos (fatan2 S C)) c (25 * d) := by
    refine ⟨c1, ?_⟩
    have h1 := near (x := z.re) (y := c) (Complex.abs_re_le_norm z) (by rw [hz]; exact hC.2)
    rw [abs_le] at *
    constructor <;> linarith
  refine ⟨!![c, -s; s, c], ?_, ?_, fun i j => ?_⟩
  · rw [Matrix.mem_specialOrthogonalGroup_iff, Matrix.mem_orthogonalGroup_iff]
    refine ⟨?_, by rw [Matrix.det_fin_two_of]; linarith [sq c, sq s]⟩
    ext i j
    fin_cases i <;> fin_cases j <;> simp [Matrix.mul_apply, Fin.sum_univ_two] <;> linarith [sq c, sq s, mul_comm c s]
  · ext i
    fin_cases i
    · simp only [Matrix.mulVec, dotProduct, Fin.sum_univ_two, hc, hs]
      simp
      linear_combination -b 0 * na
    · simp only [Matrix.mulVec, dotProduct, Fin.sum_univ_two, hc, hs]
      simp
      linear_combination -b 1 * na
  · rw [hm]
    fin_cases i <;> fin_cases j
    · exact fc
    · exact fs
    · exact fs.neg
    · exact fc

end

/-- `Rotation2::rotation_between` in `f64`, for vectors of lengths between `2 ^ -499` and `2 ^ 510` at any angle: within
`2 ^ -44` of the rotation that takes the direction of the first to that of the second. -/
theorem C93_plane_f64 [Lib f64] {e : ℝ} (he : CosineWithin f64 e) (he' : ArgWithin f64 e) (hed : e ≤ 2 ^ (-49 : ℤ))
    {v w : Vec (Ieee f64) 2} (hv : ∀ i, (v.data i).Finite) (hw : ∀ i, (w.data i).Finite)
    (hv1 : (2 : ℝ) ^ (-499 : ℤ) ≤ Spec.length v) (hv2 : Spec.length v ≤ 2 ^ (510 : ℤ))
    (hw1 : (2 : ℝ) ^ (-499 : ℤ) ≤ Spec.length w) (hw2 : Spec.length w ≤ 2 ^ (510 : ℤ)) :
    ∃ A ∈ Matrix.specialOrthogonalGroup (Fin 2) ℝ, A.mulVec (dir (exactVec v)).ofLp = (dir (exactVec w)).ofLp ∧
      ∀ c r, ((Rotation.rotationBetween2 v w).matrix.data c r).Finite ∧
        |((Rotation.rotationBetween2 v w).matrix.data c r).val - A r c| ≤ 2 ^ (-44 : ℤ) := by
  obtain ⟨a1, a2, a3⟩ := unit_of_safe (by norm_num) hv (safe64 (by norm_num) hv1 hv2)
  obtain ⟨b1, b2, b3⟩ := unit_of_safe (by norm_num) hw (safe64 (by norm_num) hw1 hw2)
  have hu : f64.u = 2 ^ (-53 : ℤ) := rfl
  have htn : f64.tiny = 2 ^ (-1075 : ℤ) := rfl
  have h3 : (2 : ℝ) ^ (-1075 : ℤ) ≤ 2 ^ (-60 : ℤ) := zpow_le_zpow_right₀ one_le_two (by norm_num)
  have hwd : 9 * unit f64 ≤ 2 ^ (-49 : ℤ) := by
    rw [Spec.unit, hu, htn]
    norm_num at h3 ⊢
    linarith
  have hwd' : unit f64 ≤ 2 ^ (-49 : ℤ) := by linarith [unit_nonneg (φ := f64)]
  have hq : Rotation.rotationBetween2 v w = Rotation.rotationBetweenAxis2 ⟨v.normalize⟩ ⟨w.normalize⟩ := by
    simp only [Rotation.rotationBetween2, a1, b1]
  obtain ⟨A, h1, h2, h4⟩ := C93_plane fine64 (d := 2 ^ (-49 : ℤ)) (by norm_num) hwd' he hed he' (u := ⟨v.normalize⟩) (v := ⟨w.normalize⟩)
    a3 b3 (fun i => ⟨(a2 i).1, (a2 i).2.trans hwd⟩) (fun i => ⟨(b2 i).1, (b2 i).2.trans hwd⟩)
  refine ⟨A, h1, h2, fun c r => ?_⟩
  rw [hq]
  exact ⟨(h4 c r).1, (h4 c r).2.trans (by norm_num)⟩

section
attribute [local instance] Library64.correctlyRounded

/-- a library with this accuracy exists -/
theorem argWithin_correctlyRounded : ArgWithin f64 (2 ^ (-50 : ℤ)) := by
  have hpi := Real.pi_gt_three
  have hpi' := Real.pi_le_four
  have hle : ∀ {x y : ℝ}, |x - y| ≤ 2 ^ (-50 : ℤ) → |y| ≤ Real.pi → |x| ≤ 4 := fun {x y} h1 h2 => by
    have := abs_sub_abs_le_abs_sub x y
    have := Real.pi_lt_d2
    norm_num at h1
    linarith
  have pin : (crPos Real.pi : Ieee f64).Finite ∧ |(crPos Real.pi : Ieee f64).val - Real.pi| ≤ 2 ^ (-50 : ℤ) := by
    have hr := round_near (x := Real.pi) (s := false) (by rw [abs_of_pos Real.pi_pos]; exact hpi')
    have hb : f64.fl Real.pi ≤ f64.big := by
      have := fl_big fine64 (z := Real.pi) (M := 4) (by rw [abs_of_pos Real.pi_pos]; exact hpi') (by norm_num) (by norm_num)
      exact (le_abs_self _).trans this
    have hv : (Ieee.round false Real.pi : Ieee f64).val = f64.fl Real.pi := val_round hr.1
    have h0 : 0 < f64.fl Real.pi := by
      have := (abs_le.mp hr.2).1
      rw [hv] at this
      norm_num at this
      linarith
    rw [crPos, dif_pos ⟨h0, hb⟩]
    refine ⟨finite_fin _ _ _, ?_⟩
    change |f64.fl Real.pi - Real.pi| ≤ _
    rw [← hv]; exact hr.2
  rintro _ _ ⟨s, m, h, rfl⟩ ⟨t, k, h', rfl⟩ hne
  change (if m = 0 then flip s (if t then (crPos Real.pi) else 0) else Ieee.round s (Complex.arg ⟨signed t k, signed s m⟩) : Ieee f64).Finite ∧
    |(if m = 0 then flip s (if t then (crPos Real.pi) else 0) else Ieee.round s (Complex.arg ⟨signed t k, signed s m⟩) : Ieee f64).val| ≤ 4 ∧
    ∃ j : ℤ, |(if m = 0 then flip s (if t then (crPos Real.pi) else 0) else Ieee.round s (Complex.arg ⟨signed t k, signed s m⟩) : Ieee f64).val -
      (Complex.arg ⟨signed t k, signed s m⟩ + j * (2 * Real.pi))| ≤ _
  split_ifs with hm ht
  · -- a negative number on the axis
    subst hm
    have hk : 0 < k := by
      rcases h'.1.lt_or_eq with h1 | h1
      · exact h1
      · subst h1
        refine absurd hne ?_
        have : signed s 0 = 0 ∧ signed t 0 = 0 := by cases s <;> cases t <;> simp [signed]
        simp [Ieee.val, this.1, this.2]
    have ha : Complex.arg ⟨signed t k, signed s 0⟩ = Real.pi := by
      rw [Complex.arg_eq_pi_iff]
      constructor
      · simp [signed, ht, hk]
      · cases s <;> simp [signed]
    rw [ha]
    cases s
    · exact ⟨pin.1, hle pin.2 (by rw [abs_of_pos Real.pi_pos]), 0, by
        change |(crPos Real.pi : Ieee f64).val - _| ≤ _
        simpa using pin.2⟩
    · have hn : |(-(crPos Real.pi : Ieee f64)).val - -Real.pi| ≤ 2 ^ (-50 : ℤ) := by
        rw [val_neg, ← neg_sub', abs_neg]; exact pin.2
      refine ⟨(Nr.exact pin.1).neg.1, hle hn (by rw [abs_neg, abs_of_pos Real.pi_pos]), -1, ?_⟩
      rw [show Real.pi + ((-1 : ℤ) : ℝ) * (2 * Real.pi) = -Real.pi by push_cast; ring]
      exact hn
  · subst hm
    have ha : Complex.arg ⟨signed t k, signed s 0⟩ = 0 := by
      rw [Complex.arg_eq_zero_iff]
      constructor
      · simp [signed, ht, h'.1]
      · cases s <;> simp [signed]
    have hz : (flip s (0 : Ieee f64)).val = 0 := by cases s <;> simp [Ieee.flip, val_neg, val_zero]
    rw [ha, hz]
    refine ⟨?_, by simp, 0, by simp⟩
    cases s
    · exact finite_zero
    · exact (Nr.exact finite_zero).neg.1
  · have hr := round_near (x := Complex.arg ⟨signed t k, signed s m⟩) (s := s) ((Complex.abs_arg_le_pi _).trans hpi')
    exact ⟨hr.1, hle hr.2 (Complex.abs_arg_le_pi _), 0, by simpa using hr.2⟩

end

end Cgl
