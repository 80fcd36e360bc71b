import Verif.Props.C91_MatrixQuaternion
import Mathlib.Geometry.Euclidean.Angle.Unoriented.Basic
import Mathlib.Analysis.InnerProductSpace.PiL2

/-! # The shortest rotation from one direction to another, and the directions of nearby vectors

Real arithmetic only. -/

namespace Cgl
open InnerProductGeometry

/-- The unit quaternion `h` describes the rotation from `a` to `b` by the angle between them. -/
structure Spec.Shortest (h : Quaternion ℝ) (a b : EuclideanSpace ℝ (Fin 3)) : Prop where
  unit : ‖h‖ = 1
  carries : h * Spec.pure a * star h = Spec.pure b
  angle : h.re = Real.cos (angle a b / 2)

/-- the vector product in coordinates -/
noncomputable def cr (a b : EuclideanSpace ℝ (Fin 3)) : EuclideanSpace ℝ (Fin 3) :=
  WithLp.toLp 2 ![a 1 * b 2 - a 2 * b 1, a 2 * b 0 - a 0 * b 2, a 0 * b 1 - a 1 * b 0]

variable {a b : EuclideanSpace ℝ (Fin 3)}

theorem inner3 (a b : EuclideanSpace ℝ (Fin 3)) : inner ℝ a b = a 0 * b 0 + a 1 * b 1 + a 2 * b 2 := by
  simp [PiLp.inner_apply, Fin.sum_univ_three, mul_comm]

theorem normsq3 (a : EuclideanSpace ℝ (Fin 3)) : ‖a‖ ^ 2 = a 0 ^ 2 + a 1 ^ 2 + a 2 ^ 2 := by
  rw [← real_inner_self_eq_norm_sq, inner3]; ring

theorem cr_sq (ha : ‖a‖ = 1) (hb : ‖b‖ = 1) : ‖cr a b‖ ^ 2 = 1 - inner ℝ a b ^ 2 := by
  have h1 := normsq3 a
  have h2 := normsq3 b
  rw [ha] at h1
  rw [hb] at h2
  rw [normsq3, inner3]
  simp only [cr, Matrix.cons_val_zero, Matrix.cons_val_one, Matrix.cons_val]
  linear_combination (-(b 0 ^ 2 + b 1 ^ 2 + b 2 ^ 2)) * h1 - h2

/-- the length of the vector product of unit vectors is the sine of their angle -/
theorem cr_norm (ha : ‖a‖ = 1) (hb : ‖b‖ = 1) : ‖cr a b‖ = Real.sin (angle a b) := by
  have h1 : ‖cr a b‖ ^ 2 = Real.sin (angle a b) ^ 2 := by
    rw [cr_sq ha hb, Real.sin_sq, cos_angle, ha, hb]; norm_num
  exact (sq_eq_sq₀ (norm_nonneg _) (sin_angle_nonneg a b)).mp h1

/-- the cosine and the sine of half of an angle -/
theorem half_angle (ha : ‖a‖ = 1) (hb : ‖b‖ = 1) :
    0 ≤ Real.cos (angle a b / 2) ∧ 0 ≤ Real.sin (angle a b / 2) ∧
    Real.cos (angle a b / 2) ^ 2 = (1 + inner ℝ a b) / 2 ∧ Real.sin (angle a b / 2) ^ 2 = (1 - inner ℝ a b) / 2 ∧
    ‖cr a b‖ = 2 * Real.cos (angle a b / 2) * Real.sin (angle a b / 2) := by
  have h0 := angle_nonneg a b
  have h1 := angle_le_pi a b
  have hc : Real.cos (angle a b) = inner ℝ a b := by rw [cos_angle, ha, hb]; norm_num
  have h2 : Real.cos (angle a b / 2) ^ 2 = (1 + inner ℝ a b) / 2 := by
    rw [Real.cos_sq, ← hc]; ring_nf
  refine ⟨Real.cos_nonneg_of_neg_pi_div_two_le_of_le (by linarith [Real.pi_pos]) (by linarith), ?_, h2, ?_, ?_⟩
  · exact Real.sin_nonneg_of_nonneg_of_le_pi (by linarith) (by linarith)
  · rw [Real.sin_sq, h2]; ring
  · rw [cr_norm ha hb, show angle a b = 2 * (angle a b / 2) by ring, Real.sin_two_mul]; ring_nf

theorem half_arccos {c : ℝ} (h1 : -1 ≤ c) (h2 : c ≤ 1) :
    0 ≤ Real.cos (Real.arccos c / 2) ∧ 0 ≤ Real.sin (Real.arccos c / 2) ∧
    Real.cos (Real.arccos c / 2) ^ 2 = (1 + c) / 2 ∧ Real.sin (Real.arccos c / 2) ^ 2 = (1 - c) / 2 := by
  have h0 := Real.arccos_nonneg c
  have h3 := Real.arccos_le_pi c
  have h4 : Real.cos (Real.arccos c / 2) ^ 2 = (1 + c) / 2 := by
    have e := Real.cos_arccos h1 h2
    rw [Real.cos_sq, show 2 * (Real.arccos c / 2) = Real.arccos c by ring, e]; ring
  refine ⟨Real.cos_nonneg_of_neg_pi_div_two_le_of_le (by linarith [Real.pi_pos]) (by linarith), ?_, h4, ?_⟩
  · exact Real.sin_nonneg_of_nonneg_of_le_pi (by linarith) (by linarith)
  · rw [Real.sin_sq, h4]; ring

/-- Unless the directions are opposite there is a shortest rotation; its vector part is a multiple of the vector
product. -/
theorem shortest_exists (ha : ‖a‖ = 1) (hb : ‖b‖ = 1) (hκ : 0 < Real.cos (angle a b / 2)) :
    ∃ h : Quaternion ℝ, Spec.Shortest h a b ∧ h.re = Real.cos (angle a b / 2) ∧
      h.imI = (2 * Real.cos (angle a b / 2))⁻¹ * cr a b 0 ∧ h.imJ = (2 * Real.cos (angle a b / 2))⁻¹ * cr a b 1 ∧
      h.imK = (2 * Real.cos (angle a b / 2))⁻¹ * cr a b 2 := by
  obtain ⟨-, -, h1, h2, h3⟩ := half_angle ha hb
  generalize hκ' : Real.cos (angle a b / 2) = κ at *
  generalize hσ' : Real.sin (angle a b / 2) = σ at *
  obtain ⟨k, hk⟩ : ∃ k, k = (2 * κ)⁻¹ := ⟨_, rfl⟩
  rw [← hk]
  have hk2 : 2 * κ * k = 1 := by rw [hk]; field_simp
  have na := normsq3 a
  rw [ha] at na
  have nc := normsq3 (cr a b)
  have hX : k ^ 2 * ‖cr a b‖ ^ 2 = (1 - inner ℝ a b) / 2 := by
    rw [h3, ← h2]
    linear_combination σ ^ 2 * (2 * κ * k + 1) * hk2
  rw [nc] at hX
  rw [inner3] at hX h1
  simp only [cr, Matrix.cons_val_zero, Matrix.cons_val_one, Matrix.cons_val] at hX ⊢
  obtain ⟨g, hg⟩ : ∃ g : Quaternion ℝ, g = ⟨κ, k * (a 1 * b 2 - a 2 * b 1), k * (a 2 * b 0 - a 0 * b 2),
    k * (a 0 * b 1 - a 1 * b 0)⟩ := ⟨_, rfl⟩
  refine ⟨g, ⟨?_, ?_, by rw [hg, hκ']⟩, by rw [hg], by rw [hg], by rw [hg], by rw [hg]⟩
  · have e : ‖g‖ * ‖g‖ = 1 := by
      rw [← Quaternion.normSq_eq_norm_mul_self, Quaternion.normSq_def', hg]
      linear_combination h1 + hX
    nlinarith [norm_nonneg g]
  · have hS : κ ^ 2 - k ^ 2 * ((a 1 * b 2 - a 2 * b 1) ^ 2 + (a 2 * b 0 - a 0 * b 2) ^ 2 + (a 0 * b 1 - a 1 * b 0) ^ 2) =
        a 0 * b 0 + a 1 * b 1 + a 2 * b 2 := by linear_combination h1 - hX
    have r1 : g.re = κ := by rw [hg]
    have r2 : g.imI = k * (a 1 * b 2 - a 2 * b 1) := by rw [hg]
    have r3 : g.imJ = k * (a 2 * b 0 - a 0 * b 2) := by rw [hg]
    have r4 : g.imK = k * (a 0 * b 1 - a 1 * b 0) := by rw [hg]
    ext
    · simp only [Quaternion.imI_mul, Quaternion.imJ_mul, Quaternion.imK_mul, Quaternion.re_mul, Quaternion.re_star,
        Quaternion.imI_star, Quaternion.imJ_star, Quaternion.imK_star]
      simp only [Spec.pure, r1, r2, r3, r4]
      ring
    · simp only [Quaternion.imI_mul, Quaternion.imJ_mul, Quaternion.imK_mul, Quaternion.re_mul, Quaternion.re_star,
        Quaternion.imI_star, Quaternion.imJ_star, Quaternion.imK_star]
      simp only [Spec.pure, r1, r2, r3, r4]
      linear_combination a 0 * hS + (b 0 * (a 0 ^ 2 + a 1 ^ 2 + a 2 ^ 2) - a 0 * (a 0 * b 0 + a 1 * b 1 + a 2 * b 2)) * hk2 -
        b 0 * na
    · simp only [Quaternion.imI_mul, Quaternion.imJ_mul, Quaternion.imK_mul, Quaternion.re_mul, Quaternion.re_star,
        Quaternion.imI_star, Quaternion.imJ_star, Quaternion.imK_star]
      simp only [Spec.pure, r1, r2, r3, r4]
      linear_combination a 1 * hS + (b 1 * (a 0 ^ 2 + a 1 ^ 2 + a 2 ^ 2) - a 1 * (a 0 * b 0 + a 1 * b 1 + a 2 * b 2)) * hk2 -
        b 1 * na
    · simp only [Quaternion.imI_mul, Quaternion.imJ_mul, Quaternion.imK_mul, Quaternion.re_mul, Quaternion.re_star,
        Quaternion.imI_star, Quaternion.imJ_star, Quaternion.imK_star]
      simp only [Spec.pure, r1, r2, r3, r4]
      linear_combination a 2 * hS + (b 2 * (a 0 ^ 2 + a 1 ^ 2 + a 2 ^ 2) - a 2 * (a 0 * b 0 + a 1 * b 1 + a 2 * b 2)) * hk2 -
        b 2 * na

/-- The name is justified: the angle of no rotation from `a` to `b` is smaller. -/
theorem shortest_least (ha : ‖a‖ = 1) (hb : ‖b‖ = 1) {g : Quaternion ℝ} (hg : ‖g‖ = 1)
    (hc : g * Spec.pure a * star g = Spec.pure b) : |g.re| ≤ Real.cos (angle a b / 2) := by
  obtain ⟨h0, -, h1, -, -⟩ := half_angle ha hb
  refine abs_le_of_sq_le_sq ?_ h0
  rw [h1]
  have hn : g.re ^ 2 + g.imI ^ 2 + g.imJ ^ 2 + g.imK ^ 2 = 1 := by
    have := Quaternion.normSq_eq_norm_mul_self g
    rw [hg, Quaternion.normSq_def'] at this
    linarith
  have na := normsq3 a
  rw [ha] at na
  have e1 := congrArg (fun q : Quaternion ℝ => q.imI) hc
  have e2 := congrArg (fun q : Quaternion ℝ => q.imJ) hc
  have e3 := congrArg (fun q : Quaternion ℝ => q.imK) hc
  simp only [Quaternion.imI_mul, Quaternion.imJ_mul, Quaternion.imK_mul, Quaternion.re_mul, Quaternion.re_star,
        Quaternion.imI_star, Quaternion.imJ_star, Quaternion.imK_star] at e1 e2 e3
  simp only [Spec.pure] at e1 e2 e3
  rw [inner3]
  have key : a 0 * b 0 + a 1 * b 1 + a 2 * b 2 = 2 * g.re ^ 2 - 1 + 2 * (g.imI * a 0 + g.imJ * a 1 + g.imK * a 2) ^ 2 := by
    linear_combination (-a 0) * e1 - a 1 * e2 - a 2 * e3 + (2 * g.re ^ 2 - 1) * (-na) + (a 0 ^ 2 + a 1 ^ 2 + a 2 ^ 2) * (-hn)
  nlinarith [sq_nonneg (g.imI * a 0 + g.imJ * a 1 + g.imK * a 2)]

/-- vectors that agree up to `e` in every coordinate -/
theorem dist_le3 {x X : EuclideanSpace ℝ (Fin 3)} {e f : ℝ} (h : ∀ i, |x i - X i| ≤ e) (hf : 0 ≤ f) (hef : 3 * e ^ 2 ≤ f ^ 2) :
    ‖x - X‖ ≤ f := by
  refine le_of_sq_le_sq ?_ hf
  rw [normsq3]
  simp only [PiLp.sub_apply]
  have k := fun i => sq_le_sq' (abs_le.mp (h i)).1 (abs_le.mp (h i)).2
  linarith [k 0, k 1, k 2]

/-- the directions of nearby vectors -/
theorem direction_near {x X : EuclideanSpace ℝ (Fin 3)} (hx : 0 < ‖x‖) (hX : 0 < ‖X‖) (i : Fin 3) :
    |x i / ‖x‖ - X i / ‖X‖| ≤ 2 * ‖x - X‖ / ‖X‖ := by
  have h1 : |x i - X i| ≤ ‖x - X‖ := by
    have := PiLp.norm_apply_le (x - X) i
    rwa [Real.norm_eq_abs] at this
  have h2 : |x i| ≤ ‖x‖ := by
    have := PiLp.norm_apply_le x i
    rwa [Real.norm_eq_abs] at this
  have h3 : |‖X‖ - ‖x‖| ≤ ‖x - X‖ := by rw [norm_sub_rev]; exact abs_norm_sub_norm_le X x
  rw [le_div_iff₀ hX, ← abs_of_pos hX, ← abs_mul, abs_of_pos hX]
  have e : (x i / ‖x‖ - X i / ‖X‖) * ‖X‖ = (x i / ‖x‖) * (‖X‖ - ‖x‖) + (x i - X i) := by field_simp; ring
  have h4 : |x i / ‖x‖| ≤ 1 := by rw [abs_div, abs_of_pos hx, div_le_one hx]; exact h2
  rw [e]
  calc _ ≤ |(x i / ‖x‖) * (‖X‖ - ‖x‖)| + |x i - X i| := abs_add_le _ _
    _ ≤ 1 * ‖x - X‖ + ‖x - X‖ := by
      rw [abs_mul]
      exact add_le_add (mul_le_mul h4 h3 (abs_nonneg _) (by norm_num)) h1
    _ = _ := by ring

/-- roots of nearby numbers, one of them not small -/
theorem root_near {x y e lo : ℝ} (hx : 0 ≤ x) (hlo : 0 < lo) (hy : lo ≤ y) (h : |x ^ 2 - y ^ 2| ≤ e) : |x - y| ≤ e / lo := by
  rw [le_div_iff₀ hlo]
  have : |x ^ 2 - y ^ 2| = |x - y| * (x + y) := by
    rw [← abs_of_nonneg (show 0 ≤ x + y by linarith), ← abs_mul]; congr 1; ring
  rw [this] at h
  exact (mul_le_mul_of_nonneg_left (by linarith) (abs_nonneg _)).trans h

/-- roots of nearby numbers -/
theorem root_near' {x y e : ℝ} (hx : 0 ≤ x) (hy : 0 ≤ y) (he : 0 ≤ e) (h : |x ^ 2 - y ^ 2| ≤ e ^ 2) : |x - y| ≤ e := by
  refine abs_le_of_sq_le_sq ?_ he
  have : |x ^ 2 - y ^ 2| = |x - y| * (x + y) := by
    rw [← abs_of_nonneg (show 0 ≤ x + y by linarith), ← abs_mul]; congr 1; ring
  rw [this] at h
  have h2 : |x - y| ≤ x + y := by rw [abs_le]; constructor <;> linarith
  have := mul_le_mul_of_nonneg_left h2 (abs_nonneg (x - y))
  rw [← sq_abs]
  nlinarith

end Cgl
