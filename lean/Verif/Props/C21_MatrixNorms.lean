import Verif.Lemmas.MatrixSq
import Verif.Lemmas.Norms
import Verif.Spec.Norm
import Mathlib.Analysis.Matrix.Normed

/-! # C21 - matrix norms -/

namespace Cgl
open Mat Spec

variable {R C K : ℕ}

/-! ### the three norms against Mathlib's -/

theorem matrix_norm_sq (A : Mat ℝ R C) : A.normSquared = ∑ r, ∑ c, A.data c r ^ 2 := by
  rw [Mat.normSquared_eq_sum]; simp [sq]

section Frob
open scoped Matrix.Norms.Frobenius

theorem norm_eq_frobenius (A : Mat ℝ R C) : A.norm = ‖A.toMatrix‖ := by
  rw [Matrix.frobenius_norm_def, Mat.norm, matrix_norm_sq, fsqrt_real, Real.sqrt_eq_rpow]
  simp

end Frob

section Linf
open scoped Matrix.Norms.Operator

theorem linfNorm_eq_op (A : Mat ℝ R C) : A.linfNorm = ‖A.toMatrix‖ := by
  have h : A.linfNorm = ‖fun r => ∑ c, |A.data c r|‖ := by
    rw [← Vec.linfNorm_loop]
    unfold Mat.linfNorm
    apply forRange_congr
    intro r s
    congr 1
    rw [forRange_sum C fun c => sabs (A.data c r), abs_of_nonneg (Finset.sum_nonneg fun _ _ => abs_nonneg _)]
    rfl
  rw [h, Matrix.linfty_opNorm_def, Pi.norm_def]
  congr 1
  apply Finset.sup_congr rfl
  intro r _
  ext
  simp [abs_of_nonneg (Finset.sum_nonneg fun c (_ : c ∈ Finset.univ) => abs_nonneg (A.data c r))]

end Linf

theorem C21_l1_transpose (A : Mat ℝ R C) : A.transpose.l1Norm = A.linfNorm := by
  unfold l1Norm linfNorm
  apply forRange_congr
  intro r s
  congr 1
  simp [Vec.l1Norm]

theorem C21_linf_transpose (A : Mat ℝ R C) : A.transpose.linfNorm = A.l1Norm := by
  rw [← C21_l1_transpose]; congr 1; ext; simp

/-! ### values -/

/-- Frobenius norm: square root of the sum of the squared entries -/
theorem C21_norm_value (A : Mat ℝ R C) : A.norm = Real.sqrt (∑ r, ∑ c, A.data c r ^ 2) := by
  rw [Mat.norm, matrix_norm_sq]; rfl

theorem C21_norm_squared_eq_dot {S : Type*} [Zero S] [Add S] [Mul S] (A : Mat S R C) :
    A.normSquared = A.dot A := rfl

theorem C21_norm_squared_eq_norm_sq (A : Mat ℝ R C) : A.normSquared = A.norm ^ 2 := by
  rw [C21_norm_value, Real.sq_sqrt (by positivity), matrix_norm_sq]

/-- `linf_norm` is the largest absolute row sum -/
theorem C21_linf_norm_value (A : Mat ℝ R C) :
    (∀ r, ∑ c, |A.data c r| ≤ A.linfNorm) ∧
    ((∃ r, A.linfNorm = ∑ c, |A.data c r|) ∨ (R = 0 ∧ A.linfNorm = 0)) := by
  have h : A.linfNorm = ‖fun r => ∑ c, |A.data c r|‖ := by
    rw [← Vec.linfNorm_loop]
    unfold Mat.linfNorm
    apply forRange_congr
    intro r s
    congr 1
    rw [forRange_sum C fun c => sabs (A.data c r), abs_of_nonneg (Finset.sum_nonneg fun _ _ => abs_nonneg _)]
    rfl
  have hn : ∀ r, ‖∑ c, |A.data c r|‖ = ∑ c, |A.data c r| := fun r =>
    abs_of_nonneg (Finset.sum_nonneg fun _ _ => abs_nonneg _)
  rw [h]
  refine ⟨fun r => ?_, ?_⟩
  · rw [← hn r]; exact norm_le_pi_norm (fun r => ∑ c, |A.data c r|) r
  · rcases Nat.eq_zero_or_pos R with h0 | h0
    · right; subst h0; exact ⟨rfl, by rw [norm_eq_zero]; exact Subsingleton.elim _ _⟩
    · left
      have : Nonempty (Fin R) := ⟨⟨0, h0⟩⟩
      obtain ⟨r, hr⟩ := Finite.exists_max fun r => ∑ c, |A.data c r|
      refine ⟨r, le_antisymm ?_ ?_⟩
      · rw [pi_norm_le_iff_of_nonneg (by rw [← hn r]; exact norm_nonneg _)]
        intro s; rw [hn]; exact hr s
      · rw [← hn r]; exact norm_le_pi_norm (fun r => ∑ c, |A.data c r|) r

/-- `l1_norm` is the largest absolute column sum -/
theorem C21_l1_norm_value (A : Mat ℝ R C) :
    (∀ c, ∑ r, |A.data c r| ≤ A.l1Norm) ∧
    ((∃ c, A.l1Norm = ∑ r, |A.data c r|) ∨ (C = 0 ∧ A.l1Norm = 0)) := by
  have := C21_linf_norm_value A.transpose
  rw [C21_linf_transpose] at this
  simpa using this

/-! ### they are norms -/

section Norms
variable {M : Type*} [Zero M] [Add M] [HMul M ℝ M]

theorem isNorm_of_embedding {E : Type*} [NormedAddCommGroup E] [NormedSpace ℝ E] (e : M → E)
    (he : Function.Injective e) (h0 : e 0 = 0) (ha : ∀ a b, e (a + b) = e a + e b)
    (hm : ∀ (a : M) (k : ℝ), e (a * k) = k • e a) (f : M → ℝ) (hf : ∀ a, f a = ‖e a‖) : IsNorm f where
  nonneg v := by rw [hf]; exact norm_nonneg _
  eq_zero_iff v := by rw [hf, norm_eq_zero, ← h0, he.eq_iff]
  homogeneous v k := by rw [hf, hf, hm, norm_smul, Real.norm_eq_abs]
  triangle v w := by rw [hf, hf, hf, ha]; exact norm_add_le _ _

end Norms

private theorem toMatrix_mulS (A : Mat ℝ R C) (k : ℝ) : (A * k).toMatrix = k • A.toMatrix := by
  ext; simp [mul_comm]

theorem C21_norm_is_norm : IsNorm (fun A : Mat ℝ R C => A.norm) := by
  let i1 := Matrix.frobeniusNormedAddCommGroup (m := Fin R) (n := Fin C) (α := ℝ)
  let i2 := Matrix.frobeniusNormedSpace (R := ℝ) (m := Fin R) (n := Fin C) (α := ℝ)
  exact isNorm_of_embedding toMatrix toMatrix_injective toMatrix_zero toMatrix_add toMatrix_mulS _
    norm_eq_frobenius

theorem C21_linf_is_norm : IsNorm (fun A : Mat ℝ R C => A.linfNorm) := by
  let i1 := Matrix.linftyOpNormedAddCommGroup (m := Fin R) (n := Fin C) (α := ℝ)
  let i2 := Matrix.linftyOpNormedSpace (R := ℝ) (m := Fin R) (n := Fin C) (α := ℝ)
  exact isNorm_of_embedding toMatrix toMatrix_injective toMatrix_zero toMatrix_add toMatrix_mulS _
    linfNorm_eq_op

theorem C21_l1_is_norm : IsNorm (fun A : Mat ℝ R C => A.l1Norm) := by
  have hn := C21_linf_is_norm (R := C) (C := R)
  refine ⟨fun A => ?_, fun A => ?_, fun A k => ?_, fun A B => ?_⟩ <;> simp only [← C21_linf_transpose]
  · exact hn.nonneg _
  · rw [hn.eq_zero_iff]
    constructor
    · intro h; ext c r
      have := congrArg (fun X : Mat ℝ C R => X.data r c) h
      simpa using this
    · rintro rfl; ext; simp
  · rw [← hn.homogeneous]; congr 1; ext; simp
  · refine le_trans (le_of_eq ?_) (hn.triangle _ _); congr 1; ext; simp

/-- distances derived from the three norms are metrics -/
theorem isMetric_of_isNorm_mat {f : Mat ℝ R C → ℝ} (hf : IsNorm f) : IsMetric fun A B => f (A - B) where
  nonneg a b := hf.nonneg _
  eq_zero_iff a b := by
    rw [hf.eq_zero_iff]
    constructor
    · intro h; ext c r
      have := congrArg (fun X : Mat ℝ R C => X.data c r) h
      simpa [sub_eq_zero] using this
    · rintro rfl; ext; simp
  symm a b := by
    have h : a - b = (b - a) * (-1 : ℝ) := by ext; simp
    rw [h, hf.homogeneous]; simp
  triangle a b c := by
    have h : a - c = (a - b) + (b - c) := by ext; simp
    rw [h]; exact hf.triangle _ _

theorem C21_metric_frobenius : IsMetric fun A B : Mat ℝ R C => A.applyMetricDistance B Frobenius :=
  isMetric_of_isNorm_mat C21_norm_is_norm
theorem C21_metric_l1 : IsMetric fun A B : Mat ℝ R C => A.applyMetricDistance B L1 :=
  isMetric_of_isNorm_mat C21_l1_is_norm
theorem C21_metric_linf : IsMetric fun A B : Mat ℝ R C => A.applyMetricDistance B Linf :=
  isMetric_of_isNorm_mat C21_linf_is_norm
theorem C21_metric_distance : IsMetric fun A B : Mat ℝ R C => A.metricDistance B :=
  isMetric_of_isNorm_mat C21_norm_is_norm

/-! ### compatibility with multiplication -/

section
open scoped Matrix.Norms.Operator

theorem C21_linf_mul (A : Mat ℝ R K) (B : Mat ℝ K C) : (A * B).linfNorm ≤ A.linfNorm * B.linfNorm := by
  simp only [linfNorm_eq_op, toMatrix_mul]; exact Matrix.linfty_opNorm_mul _ _

theorem C21_linf_mul_vec (A : Mat ℝ R C) (v : Vec ℝ C) : (A * v).linfNorm ≤ A.linfNorm * v.linfNorm := by
  rw [Vec.linfNorm_eq, Vec.linfNorm_eq, linfNorm_eq_op, mulVec_eq]
  exact Matrix.linfty_opNorm_mulVec _ _

end

theorem C21_l1_mul (A : Mat ℝ R K) (B : Mat ℝ K C) : (A * B).l1Norm ≤ A.l1Norm * B.l1Norm := by
  simp only [← C21_linf_transpose]
  have h : (A * B).transpose = B.transpose * A.transpose := by
    apply toMatrix_injective; simp only [toMatrix_mul, toMatrix_transpose, Matrix.transpose_mul]
  rw [h, mul_comm]
  exact C21_linf_mul _ _

theorem C21_l1_mul_vec (A : Mat ℝ R C) (v : Vec ℝ C) : (A * v).l1Norm ≤ A.l1Norm * v.l1Norm := by
  have hc := (C21_l1_norm_value A).1
  rw [Vec.l1Norm_eq_sum, Vec.l1Norm_eq_sum]
  simp only [sabs_eq, mulVec_data]
  calc ∑ r, |∑ c, A.data c r * v.data c|
      ≤ ∑ r, ∑ c, |A.data c r * v.data c| :=
        Finset.sum_le_sum fun r _ => Finset.abs_sum_le_sum_abs _ _
    _ = ∑ c, (∑ r, |A.data c r|) * |v.data c| := by
        rw [Finset.sum_comm]
        refine Finset.sum_congr rfl fun c _ => ?_
        rw [Finset.sum_mul]
        exact Finset.sum_congr rfl fun r _ => abs_mul _ _
    _ ≤ ∑ c, A.l1Norm * |v.data c| :=
        Finset.sum_le_sum fun c _ => mul_le_mul_of_nonneg_right (hc c) (abs_nonneg _)
    _ = A.l1Norm * ∑ c, |v.data c| := by rw [Finset.mul_sum]

section
open scoped Matrix.Norms.Frobenius

theorem C21_norm_mul (A : Mat ℝ R K) (B : Mat ℝ K C) : (A * B).norm ≤ A.norm * B.norm := by
  simp only [norm_eq_frobenius, toMatrix_mul]; exact Matrix.frobenius_norm_mul _ _

end

theorem C21_norm_mul_vec (A : Mat ℝ R C) (v : Vec ℝ C) : (A * v).norm ≤ A.norm * v.norm := by
  have h := C21_norm_mul A (⟨fun _ => v.data⟩ : Mat ℝ C 1)
  have e1 : (⟨fun _ => v.data⟩ : Mat ℝ C 1).norm = v.norm := by
    rw [C21_norm_value, Vec.norm_def, Vec.normSquared_eq_sum]; simp [sq]
  have e2 : (A * (⟨fun _ => v.data⟩ : Mat ℝ C 1)).norm = (A * v).norm := by
    rw [C21_norm_value, Vec.norm_def, Vec.normSquared_eq_sum]
    simp only [mul_data, mulVec_data, Finset.univ_unique, Finset.sum_singleton, sq]
  rwa [e1, e2] at h

/-- no entry exceeds any of the three norms -/
theorem C21_entry_le (A : Mat ℝ R C) (c r) :
    |A.data c r| ≤ A.norm ∧ |A.data c r| ≤ A.l1Norm ∧ |A.data c r| ≤ A.linfNorm := by
  refine ⟨?_, ?_, ?_⟩
  · rw [C21_norm_value]
    apply Real.le_sqrt_of_sq_le
    rw [sq_abs]
    calc A.data c r ^ 2 ≤ ∑ c, A.data c r ^ 2 :=
          Finset.single_le_sum (f := fun c => A.data c r ^ 2) (fun _ _ => sq_nonneg _) (Finset.mem_univ c)
      _ ≤ ∑ r, ∑ c, A.data c r ^ 2 :=
          Finset.single_le_sum (f := fun r => ∑ c, A.data c r ^ 2)
            (fun _ _ => Finset.sum_nonneg fun _ _ => sq_nonneg _) (Finset.mem_univ r)
  · exact le_trans (Finset.single_le_sum (f := fun r => |A.data c r|) (fun _ _ => abs_nonneg _)
      (Finset.mem_univ r)) ((C21_l1_norm_value A).1 c)
  · exact le_trans (Finset.single_le_sum (f := fun c => |A.data c r|) (fun _ _ => abs_nonneg _)
      (Finset.mem_univ c)) ((C21_linf_norm_value A).1 r)

/-- rows and columns are told apart: columns (1,3) and (-2,4) -/
example : (new2x2 1 3 (-2) 4 : Mat ℝ 2 2).l1Norm = 6 ∧ (new2x2 1 3 (-2) 4 : Mat ℝ 2 2).linfNorm = 7 := by
  constructor
  · rcases C21_l1_norm_value (new2x2 1 3 (-2) 4 : Mat ℝ 2 2) with ⟨h1, ⟨c, hc⟩ | ⟨h, -⟩⟩
    · have h10 := h1 1
      fin_cases c <;> simp [Fin.sum_univ_two] at hc h10 <;> linarith
    · simp at h
  · rcases C21_linf_norm_value (new2x2 1 3 (-2) 4 : Mat ℝ 2 2) with ⟨h1, ⟨c, hc⟩ | ⟨h, -⟩⟩
    · have h10 := h1 1
      fin_cases c <;> simp [Fin.sum_univ_two] at hc h10 <;> linarith
    · simp at h

end Cgl
