import Verif.Lemmas.Norms
import Verif.Props.C01_Dot

/-!
# C08 - projection and reflection of vectors
-/

namespace Cgl
open Vec

variable {S : Type*} {n : ℕ}

/-- The projection is a multiple of `w` ... -/
theorem C08_project_parallel [Field S] (v w : Vec S n) : ∃ k : S, v.project w = w * k := ⟨_, rfl⟩

/-- ... and the remainder is orthogonal to `w`. -/
theorem C08_project_orthogonal [Field S] (v w : Vec S n) (hw : w.normSquared ≠ 0) :
    (v - v.project w).dot w = 0 := by
  rw [C01_dot_sub_left]
  have : (v.project w).dot w = v.dot w := by
    unfold project
    have h : w * (v.dot w / w.normSquared) = (v.dot w / w.normSquared) * w := by
      ext i; simp [mul_comm]
    rw [h, C01_dot_smul_left]
    exact div_mul_cancel₀ _ hw
  rw [this, sub_self]

/-- The two properties characterise the projection. -/
theorem C08_project_unique [Field S] (v w p : Vec S n) (hw : w.normSquared ≠ 0) (k : S)
    (hp : p = w * k) (ho : (v - p).dot w = 0) : p = v.project w := by
  have h : w * k = k * w := by ext i; simp [mul_comm]
  rw [C01_dot_sub_left, hp, h, C01_dot_smul_left, sub_eq_zero] at ho
  have : k = v.dot w / w.normSquared := by
    rw [eq_div_iff hw]; exact ho.symm
  rw [hp, this]; rfl

theorem C08_project_idempotent [Field S] (v w : Vec S n) (hw : w.normSquared ≠ 0) :
    (v.project w).project w = v.project w := by
  refine (C08_project_unique (v.project w) w (v.project w) hw _ rfl ?_).symm
  have : v.project w - v.project w = 0 := by ext i; simp
  rw [this, dot_eq_sum]; simp

/-! Reflection normalises its argument, so it lives over `ℝ`. -/

theorem reflect_eq (v m : Vec ℝ n) (hm : m ≠ 0) :
    v.reflect m = v - m * (2 * v.dot m / m.normSquared) := by
  have hn := norm_pos hm
  have hs := norm_mul_norm m
  have h : m.normalize = (1 / m.norm) * m := by ext i; simp [normalize_def, mul_comm]
  ext i
  simp only [reflect, sub_data, mulS_data]
  rw [h, C01_dot_smul_right]
  simp only [smul_data]
  rw [← hs]
  field_simp
  ring

theorem dot_reflect (v w m : Vec ℝ n) (hm : m ≠ 0) : (v.reflect m).dot (w.reflect m) = v.dot w := by
  have hs := (normSquared_pos hm).ne'
  rw [reflect_eq v m hm, reflect_eq w m hm]
  have e : ∀ k : ℝ, m * k = k * m := fun k => by ext i; simp [mul_comm]
  rw [e, e, C01_dot_sub_left, C01_dot_comm v, C01_dot_comm _ (w - _), C01_dot_sub_left, C01_dot_sub_left,
    C01_dot_smul_left, C01_dot_smul_left, C01_dot_smul_right, C01_dot_smul_right]
  rw [show m.dot m = m.normSquared from rfl, C01_dot_comm w v, C01_dot_comm m v]
  field_simp
  ring

/-- Reflection preserves dot products, hence norms. -/
theorem C08_reflect_preserves_dot (v w m : Vec ℝ n) (hm : m ≠ 0) :
    (v.reflect m).dot (w.reflect m) = v.dot w := dot_reflect v w m hm

theorem C08_reflect_preserves_norm (v m : Vec ℝ n) (hm : m ≠ 0) : (v.reflect m).norm = v.norm := by
  rw [norm_def, norm_def, normSquared, normSquared, dot_reflect v v m hm]

theorem C08_reflect_involutive (v m : Vec ℝ n) (hm : m ≠ 0) : (v.reflect m).reflect m = v := by
  have hs := (normSquared_pos hm).ne'
  rw [reflect_eq _ m hm, reflect_eq v m hm]
  have e : ∀ k : ℝ, m * k = k * m := fun k => by ext i; simp [mul_comm]
  rw [C01_dot_sub_left, e, C01_dot_smul_left, show m.dot m = m.normSquared from rfl]
  ext i
  simp only [sub_data, smul_data, mulS_data]
  field_simp
  ring

theorem C08_reflect_fixes_hyperplane (v m : Vec ℝ n) (hm : m ≠ 0) (h : v.dot m = 0) :
    v.reflect m = v := by
  rw [reflect_eq v m hm, h]; ext i; simp

theorem C08_reflect_negates_normal (m : Vec ℝ n) (hm : m ≠ 0) : m.reflect m = -m := by
  have hs := (normSquared_pos hm).ne'
  rw [reflect_eq m m hm, show m.dot m = m.normSquared from rfl]
  ext i; simp; field_simp; ring

/-- Only the direction of the normal matters. -/
theorem C08_reflect_direction (v m : Vec ℝ n) (hm : m ≠ 0) (k : ℝ) (hk : k ≠ 0) :
    v.reflect (m * k) = v.reflect m := by
  have hs := (normSquared_pos hm).ne'
  have hmk : m * k ≠ 0 := by
    intro h
    apply hm
    ext i
    have := congrArg (fun v => v.data i) h
    simpa [hk] using this
  rw [reflect_eq v _ hmk, reflect_eq v m hm, normSquared_mulS]
  have e : m * k = k * m := by ext i; simp [mul_comm]
  rw [show v.dot (m * k) = k * v.dot m by rw [e, C01_dot_smul_right]]
  ext i; simp; field_simp

/-- concrete data meeting the hypotheses -/
example : (new2 (1 : ℚ) 1).normSquared ≠ 0 := by rw [normSquared, dot2]; simp
example : (new2 (1 : ℝ) 1) ≠ 0 := by
  intro h; have := congrArg (fun v => v.data 0) h; simp at this

end Cgl
