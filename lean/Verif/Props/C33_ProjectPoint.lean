import Verif.Props.C32_Perspective

/-! # C33 - `Perspective3::project_point` against the projection matrix, and `unproject_point`

`project_point` reads the entry `c3r1` (which is zero) where the y coordinate needs `c2r1`, so it agrees with
the projection exactly for frusta with `top = bottom`. -/

namespace Cgl
open Mat

variable {l r b t n f : ℝ}

/-- the exact condition under which `project_point` is the projection -/
theorem C33_project_point_iff (hy : b + t ≠ 0) (p : Pt ℝ 3) (hz : p.coords.data 2 ≠ 0) :
    Spec.ndc (Perspective3.new l r b t n f).toProjectiveMatrix p =
      some ((Perspective3.new l r b t n f).projectPoint p) ↔ t = b := by
  have h2 : t + b ≠ 0 := by rwa [add_comm]
  show Spec.ndc (fromPerspective l r b t n f) p = _ ↔ _
  rw [ndc_eq p hz, Option.some.injEq]
  constructor
  · intro h
    have := congrArg (fun q : Pt ℝ 3 => q.coords.data 1) h
    simp [Perspective3.new, Perspective3.projectPoint, fromPerspective, Pt.new3] at this
    field_simp at this
    rw [one_add_one_eq_two] at this
    have h0 : (t - b) * p.coords.data 2 = 0 := by linarith
    rcases mul_eq_zero.mp h0 with h0 | h0
    · linarith
    · exact absurd h0 hz
  · intro h
    subst h
    apply Pt.ext3 <;> simp [Perspective3.new, Perspective3.projectPoint, fromPerspective, Pt.new3,
      one_add_one_eq_two, sub_eq_add_neg] <;> field_simp

/-- Missing from the full claim: frusta with `top != bottom` (where the claim is false, below). -/
theorem C33_project_point_partial (hy : t ≠ 0) (p : Pt ℝ 3) (hz : p.coords.data 2 ≠ 0) :
    Spec.ndc (Perspective3.new l r t t n f).toProjectiveMatrix p =
      some ((Perspective3.new l r t t n f).projectPoint p) :=
  (C33_project_point_iff (by intro h; apply hy; linarith) p hz).mpr rfl

/-- for every frustum the x and depth coordinates are right -/
theorem C33_project_point_xz (p q : Pt ℝ 3) (hz : p.coords.data 2 ≠ 0)
    (hq : Spec.ndc (Perspective3.new l r b t n f).toProjectiveMatrix p = some q) :
    ((Perspective3.new l r b t n f).projectPoint p).coords.data 0 = q.coords.data 0 ∧
    ((Perspective3.new l r b t n f).projectPoint p).coords.data 2 = q.coords.data 2 := by
  change Spec.ndc (fromPerspective l r b t n f) p = _ at hq
  rw [ndc_eq p hz, Option.some.injEq] at hq
  subst hq
  constructor <;> simp [Perspective3.new, Perspective3.projectPoint, fromPerspective, Pt.new3,
    one_add_one_eq_two, sub_eq_add_neg] <;> field_simp

theorem C33_project_point_fails : ∃ l r b t n f : ℝ, 0 < l ∧ 0 < r ∧ 0 < b ∧ 0 < t ∧ 0 < n ∧ n < f ∧
    ∃ p : Pt ℝ 3, p.coords.data 2 < 0 ∧ Spec.ndc (Perspective3.new l r b t n f).toProjectiveMatrix p ≠
      some ((Perspective3.new l r b t n f).projectPoint p) := by
  refine ⟨1, 1, 1, 2, 1, 10, by norm_num, by norm_num, by norm_num, by norm_num, by norm_num, by norm_num,
    Pt.new3 0 0 (-1), by simp [Pt.new3, Vec.new3], ?_⟩
  rw [Ne, C33_project_point_iff (by norm_num) _ (by simp [Pt.new3, Vec.new3])]
  norm_num

/-- `project_vector` is the projection of the point with those coordinates (it extends the vector with 1) -/
theorem C33_project_vector (v : Vec ℝ 3) (hz : v.data 2 ≠ 0) :
    Spec.ndc (Perspective3.new l r b t n f).toProjectiveMatrix ⟨v⟩ =
      some ⟨(Perspective3.new l r b t n f).projectVector v⟩ := by
  show Spec.ndc (fromPerspective l r b t n f) ⟨v⟩ = _
  rw [ndc_eq _ hz, Option.some.injEq]
  have e : fromPerspective l r b t n f * v.extend 1 = _ := persp_mul ⟨v⟩
  unfold Perspective3.projectVector
  simp only [Perspective3.new, e]
  apply Pt.ext3 <;> (show _ = (Vec.contract _).data _; rw [Vec.contract_data, Vec.mulS_data]) <;>
    simp [Pt.new3, Vec.new4, div_eq_mul_inv]

/-- `unproject_point` undoes the projection, for every frustum -/
theorem C33_unproject_ndc (hx : l + r ≠ 0) (hy : b + t ≠ 0) (hnf : n ≠ f) (hl : l ≠ 0) (hb : b ≠ 0)
    (hn : n ≠ 0) (hf : f ≠ 0) (p q : Pt ℝ 3) (hz : p.coords.data 2 ≠ 0)
    (hq : Spec.ndc (Perspective3.new l r b t n f).toProjectiveMatrix p = some q) :
    (Perspective3.new l r b t n f).unprojectPoint q = p := by
  obtain ⟨g1, g2, g3, g4, g5, g6, -⟩ := C32_getters hx hy hnf hl hb hn hf
  change Spec.ndc (fromPerspective l r b t n f) p = _ at hq
  rw [ndc_eq p hz, Option.some.injEq] at hq
  subst hq
  have h1 : r + l ≠ 0 := by rwa [add_comm]
  have h2 : t + b ≠ 0 := by rwa [add_comm]
  have h3 : f - n ≠ 0 := sub_ne_zero.mpr hnf.symm
  unfold Perspective3.unprojectPoint Perspective3.unprojectCoords
  rw [g1, g2, g3, g4, g5, g6]
  have hw : (n - f) / ((1 + 1) * f * n) *
      ((-(f + n) / (f - n) * p.coords.data 2 - 2 * f * n / (f - n)) / -p.coords.data 2) +
      (f + n) / ((1 + 1) * f * n) = -1 / p.coords.data 2 := by
    field_simp; ring
  simp only [Pt.new3, Vec.new3, Matrix.cons_val, hw]
  apply Pt.ext3 <;> simp only [Matrix.cons_val] <;> field_simp <;> ring

/-- hence it undoes `project_point` for frusta with `top = bottom` ... -/
theorem C33_unproject_project_partial (hx : l + r ≠ 0) (hnf : n ≠ f) (hl : l ≠ 0) (ht : t ≠ 0)
    (hn : n ≠ 0) (hf : f ≠ 0) (p : Pt ℝ 3) (hz : p.coords.data 2 ≠ 0) :
    (Perspective3.new l r t t n f).unprojectPoint ((Perspective3.new l r t t n f).projectPoint p) = p :=
  C33_unproject_ndc hx (by intro h; apply ht; linarith) hnf hl ht hn hf p _ hz (C33_project_point_partial ht p hz)

/-- ... and not otherwise: for `top != bottom` it does not, at any point -/
theorem C33_unproject_project_fails (hx : l + r ≠ 0) (hy : b + t ≠ 0) (hnf : n ≠ f) (hl : l ≠ 0) (hb : b ≠ 0)
    (hn : n ≠ 0) (hf : f ≠ 0) (htb : t ≠ b) (p : Pt ℝ 3) (hz : p.coords.data 2 ≠ 0) :
    (Perspective3.new l r b t n f).unprojectPoint ((Perspective3.new l r b t n f).projectPoint p) ≠ p := by
  obtain ⟨g1, g2, g3, g4, g5, g6, -⟩ := C32_getters hx hy hnf hl hb hn hf
  have h2 : t + b ≠ 0 := by rwa [add_comm]
  have h3 : f - n ≠ 0 := sub_ne_zero.mpr hnf.symm
  intro h
  have := congrArg (fun q : Pt ℝ 3 => q.coords.data 1) h
  unfold Perspective3.unprojectPoint Perspective3.unprojectCoords at this
  rw [g1, g2, g3, g4, g5, g6] at this
  simp only [Perspective3.new, Perspective3.projectPoint, fromPerspective, new4x4, Pt.new3, Vec.new3,
    Matrix.cons_val] at this
  have hw : (n - f) / ((1 + 1) * f * n) *
      ((-(f + n) / (f - n) * p.coords.data 2 + -((1 + 1) * f * n) / (f - n)) * (-1 / p.coords.data 2)) +
      (f + n) / ((1 + 1) * f * n) = -1 / p.coords.data 2 := by
    field_simp; ring
  rw [hw, sub_neg_eq_add] at this
  field_simp at this
  apply htb
  have h0 : p.coords.data 2 * (t - b) = 0 := by linarith
  rcases mul_eq_zero.mp h0 with h0 | h0
  · exact absurd h0 hz
  · linarith

/-- `unproject_vector` undoes `project_vector`, for every frustum -/
theorem C33_unproject_vector (hx : l + r ≠ 0) (hy : b + t ≠ 0) (hnf : n ≠ f) (hl : l ≠ 0) (hb : b ≠ 0)
    (hn : n ≠ 0) (hf : f ≠ 0) (v : Vec ℝ 3) (hz : v.data 2 ≠ 0) :
    (Perspective3.new l r b t n f).unprojectVector ((Perspective3.new l r b t n f).projectVector v) = v := by
  have := C33_unproject_ndc hx hy hnf hl hb hn hf ⟨v⟩ _ hz (C33_project_vector v hz)
  exact congrArg Pt.coords this

end Cgl
