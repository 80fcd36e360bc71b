import Verif.Lemmas.Norms
import Verif.Spec.Norm

/-!
# C06 - the vector norms (exact real arithmetic)
-/

namespace Cgl
open Vec Spec

variable {n : ℕ}

theorem toLp_add (p : ENNReal) (v w : Vec ℝ n) :
    WithLp.toLp p (v + w).data = WithLp.toLp p v.data + WithLp.toLp p w.data := by
  ext i; simp
theorem toLp_mul (p : ENNReal) (v : Vec ℝ n) (k : ℝ) :
    WithLp.toLp p (v * k).data = k • WithLp.toLp p v.data := by
  ext i; simp [mul_comm]
theorem toLp_eq_zero (p : ENNReal) (v : Vec ℝ n) : WithLp.toLp p v.data = 0 ↔ v = 0 := by
  simp [Vec.ext_iff, funext_iff]

theorem isNorm_of_toLp (p : ENNReal) [Fact (1 ≤ p)] (f : Vec ℝ n → ℝ)
    (hf : ∀ v, f v = ‖WithLp.toLp p v.data‖) : IsNorm f where
  nonneg v := by rw [hf]; exact _root_.norm_nonneg _
  eq_zero_iff v := by rw [hf, _root_.norm_eq_zero, toLp_eq_zero]
  homogeneous v k := by rw [hf, hf, toLp_mul, norm_smul, Real.norm_eq_abs]
  triangle v w := by rw [hf, hf, hf, toLp_add]; exact norm_add_le _ _

theorem C06_l1_norm_is_norm : IsNorm (fun v : Vec ℝ n => v.l1Norm) :=
  isNorm_of_toLp 1 _ l1Norm_eq

theorem C06_l2_norm_is_norm : IsNorm (fun v : Vec ℝ n => v.norm) :=
  isNorm_of_toLp 2 _ norm_eq_euclidean

theorem C06_lp_norm_is_norm (p : ℕ) (hp : 1 ≤ p) : IsNorm (fun v : Vec ℝ n => v.lpNorm recipR p) := by
  have : Fact ((1 : ENNReal) ≤ (p : ENNReal)) := ⟨by exact_mod_cast hp⟩
  exact isNorm_of_toLp p _ fun v => lpNorm_eq v p hp

theorem C06_linf_norm_is_norm : IsNorm (fun v : Vec ℝ n => v.linfNorm) where
  nonneg v := by rw [linfNorm_eq]; exact _root_.norm_nonneg _
  eq_zero_iff v := by rw [linfNorm_eq, _root_.norm_eq_zero, Vec.ext_iff]; rfl
  homogeneous v k := by
    rw [linfNorm_eq, linfNorm_eq]
    have : (v * k).data = k • v.data := by funext i; simp [mul_comm]
    rw [this, norm_smul, Real.norm_eq_abs]
  triangle v w := by
    rw [linfNorm_eq, linfNorm_eq, linfNorm_eq]
    have : (v + w).data = v.data + w.data := by funext i; simp
    rw [this]; exact norm_add_le _ _

/-! ### values: what each norm is -/

theorem C06_l1_norm_value (v : Vec ℝ n) : v.l1Norm = ∑ i, |v.data i| := l1Norm_eq_sum v

theorem C06_l2_norm_value (v : Vec ℝ n) : v.norm = Real.sqrt (∑ i, v.data i ^ 2) := by
  rw [norm_def, normSquared_eq_sum]; simp only [sq]

/-- `linf_norm` is the least upper bound of `0` and all `|v[i]|`. -/
theorem C06_linf_norm_value (v : Vec ℝ n) :
    (∀ i, |v.data i| ≤ v.linfNorm) ∧ ∀ b, 0 ≤ b → (∀ i, |v.data i| ≤ b) → v.linfNorm ≤ b := by
  rw [linfNorm_eq]
  exact ⟨fun i => norm_le_pi_norm v.data i, fun b hb h => (pi_norm_le_iff_of_nonneg hb).mpr h⟩

theorem C06_lp_norm_value (v : Vec ℝ n) (p : ℕ) :
    v.lpNorm recipR p = (∑ i, |v.data i| ^ p) ^ (1 / (p : ℝ)) := by
  rw [lpNorm, forRange_sum n fun i => (sabs (v.data i)) ^ p]; rfl

theorem C06_aliases (v : Vec ℝ n) : v.l2Norm = v.norm ∧ v.magnitude = v.norm ∧
    v.applyNorm L2 = v.norm ∧ v.applyNorm L1 = v.l1Norm ∧ v.applyNorm Linf = v.linfNorm :=
  ⟨rfl, rfl, rfl, rfl, rfl⟩

theorem C06_l1_eq_lp_one (v : Vec ℝ n) : v.lpNorm recipR 1 = v.l1Norm := by
  rw [C06_lp_norm_value, C06_l1_norm_value]; simp

theorem C06_l2_eq_lp_two (v : Vec ℝ n) : v.lpNorm recipR 2 = v.norm := by
  rw [C06_lp_norm_value, C06_l2_norm_value, Real.sqrt_eq_rpow]; simp

theorem C06_linf_le_l2 (v : Vec ℝ n) : v.linfNorm ≤ v.norm := by
  refine (C06_linf_norm_value v).2 _ v.norm_nonneg fun i => ?_
  rw [C06_l2_norm_value]
  apply Real.le_sqrt_of_sq_le
  rw [sq_abs]
  exact Finset.single_le_sum (f := fun i => v.data i ^ 2) (fun i _ => sq_nonneg _) (Finset.mem_univ i)

theorem C06_l2_le_l1 (v : Vec ℝ n) : v.norm ≤ v.l1Norm := by
  have h0 : 0 ≤ v.l1Norm := C06_l1_norm_is_norm.nonneg v
  rw [C06_l2_norm_value]
  apply Real.sqrt_le_iff.mpr ⟨h0, ?_⟩
  rw [C06_l1_norm_value]
  have := Finset.sum_sq_le_sq_sum_of_nonneg (s := Finset.univ) (f := fun i => |v.data i|)
    (fun i _ => abs_nonneg _)
  simpa [sq_abs] using this

/-! ### the induced metrics -/

theorem isMetric_of_isNorm {f : Vec ℝ n → ℝ} (hf : IsNorm f) : IsMetric fun a b => f (b - a) where
  nonneg a b := hf.nonneg _
  eq_zero_iff a b := by
    rw [hf.eq_zero_iff]
    simp only [Vec.ext_iff, funext_iff, sub_data, zero_data, sub_eq_zero]
    exact forall_congr' fun i => eq_comm
  symm a b := by
    have : b - a = (a - b) * (-1 : ℝ) := by ext i; simp
    rw [this, hf.homogeneous]; simp
  triangle a b c := by
    have : c - a = (b - a) + (c - b) := by ext i; simp
    rw [this]; exact hf.triangle _ _

theorem C06_metric_l1 : IsMetric fun a b : Vec ℝ n => a.applyMetricDistance b L1 :=
  isMetric_of_isNorm C06_l1_norm_is_norm
theorem C06_metric_l2 : IsMetric fun a b : Vec ℝ n => a.applyMetricDistance b L2 :=
  isMetric_of_isNorm C06_l2_norm_is_norm
theorem C06_metric_linf : IsMetric fun a b : Vec ℝ n => a.applyMetricDistance b Linf :=
  isMetric_of_isNorm C06_linf_norm_is_norm
theorem C06_metric_lp (p : ℕ) (hp : 1 ≤ p) :
    IsMetric fun a b : Vec ℝ n => a.applyMetricDistance b (Lp recipR p) :=
  isMetric_of_isNorm (C06_lp_norm_is_norm p hp)

/-- `metric_distance` (which subtracts in the other order) is the same metric. -/
theorem C06_metric_distance_eq (a b : Vec ℝ n) :
    a.metricDistance b = a.applyMetricDistance b L2 ∧ a.distance b = a.metricDistance b := by
  refine ⟨?_, rfl⟩
  have := C06_metric_l2.symm b a
  exact this.symm ▸ rfl

theorem C06_metric_distance : IsMetric fun a b : Vec ℝ n => a.metricDistance b := by
  have : (fun a b : Vec ℝ n => a.metricDistance b) = fun a b => a.applyMetricDistance b L2 := by
    funext a b; exact (C06_metric_distance_eq a b).1
  rw [this]; exact C06_metric_l2

theorem C06_metric_distance_squared (a b : Vec ℝ n) :
    a.metricDistanceSquared b = (a.metricDistance b) ^ 2 ∧
    a.distanceSquared b = a.metricDistanceSquared b := ⟨(norm_sq _).symm, rfl⟩

/-- the three norms of (3,-4) are 7, 5, 4 - all different -/
example : (new2 (3 : ℝ) (-4)).l1Norm = 7 ∧ (new2 (3 : ℝ) (-4)).norm = 5 ∧
    (new2 (3 : ℝ) (-4)).linfNorm = 4 := by
  refine ⟨?_, ?_, ?_⟩
  · rw [C06_l1_norm_value]; simp [Fin.sum_univ_two]; norm_num
  · rw [C06_l2_norm_value]; simp [Fin.sum_univ_two]
    rw [show (3:ℝ)^2 + 4^2 = 5^2 by norm_num]; exact Real.sqrt_sq (by norm_num)
  · apply le_antisymm
    · refine (C06_linf_norm_value _).2 _ (by norm_num) fun i => ?_
      fin_cases i <;> simp; norm_num
    · have := (C06_linf_norm_value (new2 (3 : ℝ) (-4))).1 1
      simpa using this

end Cgl
