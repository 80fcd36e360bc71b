import Verif.Props.C31_Orthographic
import Mathlib.Analysis.SpecialFunctions.Trigonometric.Arctan
import Mathlib.Analysis.SpecialFunctions.Trigonometric.Bounds

/-! # C32 - perspective projection

The viewer is at the origin looking along -z.  `left`, `right`, `bottom`, `top` are the distances of the
frustum's sides from the axis in the near plane. -/

namespace Cgl
open Mat

/-- the frustum with these parameters: at depth `-z` the side planes are at `left * (-z) / near`, and so on -/
def Spec.inFrustum (l r b t n f : ℝ) (p : Pt ℝ 3) : Prop :=
  let d := -p.coords.data 2
  (-(l * d / n) ≤ p.coords.data 0 ∧ p.coords.data 0 ≤ r * d / n) ∧
  (-(b * d / n) ≤ p.coords.data 1 ∧ p.coords.data 1 ≤ t * d / n) ∧ (n ≤ d ∧ d ≤ f)

/-- homogeneous multiplication followed by division by `w`; `none` when `w` is zero -/
noncomputable def Spec.ndc (M : Mat ℝ 4 4) (p : Pt ℝ 3) : Option (Pt ℝ 3) := Pt.fromHomogeneous (M * p.toHomogeneous)

variable {l r b t n f : ℝ}

theorem persp_mul (p : Pt ℝ 3) : fromPerspective l r b t n f * p.toHomogeneous = Vec.new4
    (2 * n / (r + l) * p.coords.data 0 + (r - l) / (r + l) * p.coords.data 2)
    (2 * n / (t + b) * p.coords.data 1 + (t - b) / (t + b) * p.coords.data 2)
    (-(f + n) / (f - n) * p.coords.data 2 - 2 * f * n / (f - n)) (-p.coords.data 2) := by
  rw [Pt.toHomogeneous, mulVec4_extend]
  apply Vec.ext4 <;> simp [fromPerspective, one_add_one_eq_two, sub_eq_add_neg] <;> ring

/-- the image of a point in front of (or behind) the viewer, explicitly -/
theorem ndc_eq (p : Pt ℝ 3) (hz : p.coords.data 2 ≠ 0) :
    Spec.ndc (fromPerspective l r b t n f) p = some (Pt.new3
      ((2 * n / (r + l) * p.coords.data 0 + (r - l) / (r + l) * p.coords.data 2) / -p.coords.data 2)
      ((2 * n / (t + b) * p.coords.data 1 + (t - b) / (t + b) * p.coords.data 2) / -p.coords.data 2)
      ((-(f + n) / (f - n) * p.coords.data 2 - 2 * f * n / (f - n)) / -p.coords.data 2)) := by
  have h3 : (fromPerspective l r b t n f * p.toHomogeneous).data (Fin.last 3) = -p.coords.data 2 := by
    rw [persp_mul]; rfl
  have hne : (fromPerspective l r b t n f * p.toHomogeneous).data (Fin.last 3) ≠ 0 := by
    rw [h3]; exact neg_ne_zero.mpr hz
  unfold Spec.ndc
  rw [Pt.fromHomogeneous_of_ne _ hne, h3, Option.some.injEq, persp_mul]
  apply Pt.ext3 <;> rw [Vec.divS_data, Vec.contract_data] <;> rfl

/-- points in the plane of the viewer have no image -/
theorem C32_no_image (p : Pt ℝ 3) (hz : p.coords.data 2 = 0) :
    Spec.ndc (fromPerspective l r b t n f) p = none := by
  have h3 : (fromPerspective l r b t n f * p.toHomogeneous).data (Fin.last 3) = 0 := by
    rw [persp_mul]; show -p.coords.data 2 = 0; rw [hz, neg_zero]
  exact Pt.fromHomogeneous_of_eq _ h3

private theorem side {a c x d : ℝ} (h : 0 < a + c) (hn : 0 < n) (hd : 0 < d) :
    (-1 ≤ (2 * n / (c + a) * x + (c - a) / (c + a) * -d) / d ↔ -(a * d / n) ≤ x) ∧
    ((2 * n / (c + a) * x + (c - a) / (c + a) * -d) / d ≤ 1 ↔ x ≤ c * d / n) := by
  have h' : 0 < c + a := by linarith
  have e : (2 * n / (c + a) * x + (c - a) / (c + a) * -d) / d =
      (2 * n * x - (c - a) * d) / ((c + a) * d) := by field_simp; ring
  rw [e, le_div_iff₀ (by positivity), div_le_iff₀ (by positivity), le_div_iff₀ hn,
    ← neg_div, div_le_iff₀ hn]
  constructor <;> constructor <;> intro h2 <;> nlinarith

/-- a point in front of the viewer is in the frustum exactly when its image is in the cube -/
theorem C32_frustum_iff_cube (hx : 0 < l + r) (hy : 0 < b + t) (hn : 0 < n) (hf : n < f) (p q : Pt ℝ 3)
    (hz : p.coords.data 2 < 0) (hq : Spec.ndc (fromPerspective l r b t n f) p = some q) :
    Spec.inCube q ↔ Spec.inFrustum l r b t n f p := by
  rw [ndc_eq p hz.ne, Option.some.injEq] at hq
  subst hq
  have hd : 0 < -p.coords.data 2 := by linarith
  obtain ⟨x1, x2⟩ := side (x := p.coords.data 0) hx hn hd
  obtain ⟨y1, y2⟩ := side (x := p.coords.data 1) hy hn hd
  rw [neg_neg] at x1 x2 y1 y2
  have hfn : 0 < f - n := by linarith
  have e : (-(f + n) / (f - n) * p.coords.data 2 - 2 * f * n / (f - n)) / -p.coords.data 2 =
      ((f + n) * -p.coords.data 2 - 2 * f * n) / ((f - n) * -p.coords.data 2) := by
    field_simp
  have z1 : -1 ≤ ((f + n) * -p.coords.data 2 - 2 * f * n) / ((f - n) * -p.coords.data 2) ↔
      n ≤ -p.coords.data 2 := by
    rw [le_div_iff₀ (by positivity)]
    have hf0 : 0 < f := by linarith
    constructor <;> intro h <;> nlinarith
  have z2 : ((f + n) * -p.coords.data 2 - 2 * f * n) / ((f - n) * -p.coords.data 2) ≤ 1 ↔
      -p.coords.data 2 ≤ f := by
    rw [div_le_iff₀ (by positivity)]
    constructor <;> intro h <;> nlinarith
  unfold Spec.inCube Spec.inFrustum
  rw [Fin.forall_fin_succ, Fin.forall_fin_two]
  have s1 : (Fin.succ 0 : Fin 3) = 1 := rfl
  have s2 : (Fin.succ 1 : Fin 3) = 2 := rfl
  rw [s1, s2]
  simp only [Pt.new3, Vec.new3, Matrix.cons_val]
  rw [x1, x2, y1, y2, e, z1, z2]

/-- the eight corners of the frustum go to the eight corners of the cube (near to -1, far to +1) -/
theorem C32_corners (hx : l + r ≠ 0) (hy : b + t ≠ 0) (hn : 0 < n) (hf : n < f) (sx sy sz : Bool) :
    let d := if sz then f else n
    let x := if sx then r * d / n else -(l * d / n)
    let y := if sy then t * d / n else -(b * d / n)
    Spec.ndc (fromPerspective l r b t n f) (Pt.new3 x y (-d)) =
      some (Pt.new3 (if sx then 1 else -1) (if sy then 1 else -1) (if sz then 1 else -1)) := by
  intro d x y
  have h1 : r + l ≠ 0 := by rwa [add_comm]
  have h2 : t + b ≠ 0 := by rwa [add_comm]
  have h3 : f - n ≠ 0 := (sub_pos.mpr hf).ne'
  have hd : d ≠ 0 := by
    simp only [d]; split_ifs
    · exact (hn.trans hf).ne'
    · exact hn.ne'
  rw [ndc_eq _ (by simpa [Pt.new3] using hd), Option.some.injEq]
  apply Pt.ext3
  · simp only [Pt.new3, Vec.new3, Matrix.cons_val, x]; split_ifs <;> field_simp <;> ring
  · simp only [Pt.new3, Vec.new3, Matrix.cons_val, y]; split_ifs <;> field_simp <;> ring
  · have hf0 : f ≠ 0 := (hn.trans hf).ne'
    have hn0 := hn.ne'
    simp only [Pt.new3, Vec.new3, Matrix.cons_val, d]; split_ifs <;> field_simp <;> ring

/-- depth is strictly monotone in front of the viewer: farther points get larger depth values -/
theorem C32_depth_monotone (hn : 0 < n) (hf : n < f) (p p' q q' : Pt ℝ 3)
    (hz : p.coords.data 2 < 0) (hz' : p'.coords.data 2 < 0)
    (hq : Spec.ndc (fromPerspective l r b t n f) p = some q)
    (hq' : Spec.ndc (fromPerspective l r b t n f) p' = some q') :
    q.coords.data 2 < q'.coords.data 2 ↔ p'.coords.data 2 < p.coords.data 2 := by
  rw [ndc_eq p hz.ne, Option.some.injEq] at hq
  rw [ndc_eq p' hz'.ne, Option.some.injEq] at hq'
  subst hq hq'
  simp only [Pt.new3, Vec.new3, Matrix.cons_val]
  have hfn : 0 < f - n := by linarith
  have hf0 : 0 < f := by linarith
  have e : ∀ z : ℝ, z < 0 → (-(f + n) / (f - n) * z - 2 * f * n / (f - n)) / -z =
      (f + n) / (f - n) + (2 * f * n / (f - n)) * (1 / z) := by
    intro z hz; have := hz.ne; field_simp; ring
  rw [e _ hz, e _ hz']
  have hk : 0 < 2 * f * n / (f - n) := by positivity
  rw [add_lt_add_iff_left, mul_lt_mul_iff_right₀ hk]
  exact one_div_lt_one_div_of_neg hz hz'

/-- the accessors return the construction parameters -/
theorem C32_getters (hx : l + r ≠ 0) (hy : b + t ≠ 0) (hz : n ≠ f) (hl : l ≠ 0) (hb : b ≠ 0) (hn : n ≠ 0)
    (hf : f ≠ 0) :
    (Perspective3.new l r b t n f).left = l ∧ (Perspective3.new l r b t n f).right = r ∧
    (Perspective3.new l r b t n f).bottom = b ∧ (Perspective3.new l r b t n f).top = t ∧
    (Perspective3.new l r b t n f).near = n ∧ (Perspective3.new l r b t n f).far = f ∧
    (Perspective3.new l r b t n f).aspectRatio = (l + r) / (b + t) := by
  have h1 : r + l ≠ 0 := by rwa [add_comm]
  have h2 : t + b ≠ 0 := by rwa [add_comm]
  have h3 : f - n ≠ 0 := sub_ne_zero.mpr hz.symm
  have h3' : n - f ≠ 0 := sub_ne_zero.mpr hz
  have r1 : ((r + -l) / (r + l) + 1) / (-((r + -l) / (r + l)) + 1) = r / l := by
    have : -((r + -l) / (r + l)) + 1 = 2 * l / (r + l) := by field_simp; ring
    rw [this]; field_simp; ring
  have r2 : ((t + -b) / (t + b) + 1) / (-((t + -b) / (t + b)) + 1) = t / b := by
    have : -((t + -b) / (t + b)) + 1 = 2 * b / (t + b) := by field_simp; ring
    rw [this]; field_simp; ring
  have r3 : (-(-(f + n) / (f - n)) + 1) / (-(-(f + n) / (f - n)) - 1) = f / n := by
    have : -(-(f + n) / (f - n)) - 1 = 2 * n / (f - n) := by field_simp; ring
    rw [this]; field_simp; ring
  have q1 : r / l + 1 = (r + l) / l := by field_simp
  have q2 : t / b + 1 = (t + b) / b := by field_simp
  have q3 : 1 - f / n = (n - f) / n := by field_simp
  have e32 : -(2 * f * n) / (f - n) = 2 * f * n / (n - f) := by
    rw [← neg_sub n f, neg_div_neg_eq]
  simp only [Perspective3.new, Perspective3.left, Perspective3.right, Perspective3.bottom,
    Perspective3.top, Perspective3.near, Perspective3.far, Perspective3.aspectRatio, fromPerspective, new4x4,
    Matrix.cons_val, sub_neg_eq_add, r1, r2, r3, q1, q2, q3, one_add_one_eq_two, e32]
  refine ⟨?_, ?_, ?_, ?_, ?_, ?_, ?_⟩ <;> field_simp <;> ring

/-- the field-of-view constructor is the symmetric frustum with half height `near * tan(vfov / 2)` and
half width `aspect` times that -/
theorem C32_from_vfov (vfov : Radians ℝ) (aspect : ℝ) (hn : n ≠ 0)
    (ht : Real.tan (vfov.val / 2) ≠ 0) :
    Perspective3.fromVfov vfov aspect n f =
      let h := n * Real.tan (vfov.val / 2)
      Perspective3.new (aspect * h) (aspect * h) h h n f := by
  apply Perspective3.ext
  simp only [Perspective3.fromVfov, Perspective3.new, fromPerspectiveVfov, fromPerspective, Radians.tan_eq,
    Radians.div_val, one_add_one_eq_two]
  congr 1 <;> simp [mul_comm]
  field_simp; norm_num

/-- the vertical field of view of a frustum: the angle between its top and bottom planes -/
noncomputable def Spec.vfov (b t n : ℝ) : ℝ := Real.arctan (t / n) + Real.arctan (b / n)

private theorem vfov_eq (hy : b + t ≠ 0) (hn : n ≠ 0) :
    (Perspective3.new l r b t n f).vfov.val = Real.arctan ((t / n + b / n) / (1 - t / n * (b / n))) := by
  have h2 : t + b ≠ 0 := by rwa [add_comm]
  simp only [Perspective3.new, Perspective3.vfov, fromPerspective, new4x4, Matrix.cons_val, fatan_real,
    sub_neg_eq_add, one_add_one_eq_two]
  congr 1
  have e : (t + -b) / (t + b) * ((t + -b) / (t + b)) + 2 * n / (t + b) * (2 * n / (t + b)) - 1 =
      4 * (n ^ 2 - t * b) / (t + b) ^ 2 := by field_simp; ring
  have e2 : 1 - t / n * (b / n) = (n ^ 2 - t * b) / n ^ 2 := by field_simp
  rw [e, e2]
  by_cases h0 : n ^ 2 - t * b = 0
  · simp [h0]
  · field_simp; ring

/-- Missing from the full claim: fields of view of a right angle or more.  Below a right angle
(`top * bottom < near^2`) `vfov()` recovers the field of view. -/
theorem C32_vfov_partial (hy : b + t ≠ 0) (hn : 0 < n) (h : t * b < n ^ 2) :
    (Perspective3.new l r b t n f).vfov.val = Spec.vfov b t n := by
  rw [vfov_eq hy hn.ne', Spec.vfov, Real.arctan_add]
  rw [div_mul_div_comm, div_lt_one (by positivity)]
  linarith [sq n]

/-- beyond a right angle it is off by half a turn (and negative) -/
theorem C32_vfov_wide (ht : 0 < t) (hb : 0 < b) (hn : 0 < n) (h : n ^ 2 < t * b) :
    (Perspective3.new l r b t n f).vfov.val = Spec.vfov b t n - Real.pi := by
  have hy : b + t ≠ 0 := by positivity
  rw [vfov_eq hy hn.ne', Spec.vfov, Real.arctan_add_eq_add_pi]
  · ring
  · rw [div_mul_div_comm, lt_div_iff₀ (by positivity)]
    linarith [sq n]
  · positivity

/-- so the claim that `vfov()` returns the field of view fails: a frustum twice as wide as deep -/
theorem C32_vfov_fails : ∃ l r b t n f : ℝ, 0 < l ∧ 0 < r ∧ 0 < b ∧ 0 < t ∧ 0 < n ∧ n < f ∧
    (Perspective3.new l r b t n f).vfov.val ≠ Spec.vfov b t n := by
  refine ⟨2, 2, 2, 2, 1, 10, by norm_num, by norm_num, by norm_num, by norm_num, by norm_num, by norm_num, ?_⟩
  rw [C32_vfov_wide (by norm_num) (by norm_num) (by norm_num) (by norm_num)]
  have := Real.pi_pos
  intro h; linarith

/-- round trip of the field of view and the aspect ratio through the constructor -/
theorem C32_from_vfov_getters (vfov : Radians ℝ) (aspect : ℝ) (hn : 0 < n) (ha : aspect ≠ 0)
    (h0 : 0 < vfov.val) (h1 : vfov.val < Real.pi / 2) :
    (Perspective3.fromVfov vfov aspect n f).vfov = vfov ∧
    (Perspective3.fromVfov vfov aspect n f).aspectRatio = aspect := by
  have ht : 0 < Real.tan (vfov.val / 2) := Real.tan_pos_of_pos_of_lt_pi_div_two (by linarith) (by linarith)
  have e := C32_from_vfov (f := f) vfov aspect hn.ne' ht.ne'
  simp only at e
  rw [e]
  have harc : Real.arctan (Real.tan (vfov.val / 2)) = vfov.val / 2 :=
    Real.arctan_tan (by linarith [Real.pi_pos]) (by linarith)
  have ht1 : Real.tan (vfov.val / 2) < 1 := by
    rw [← Real.tan_pi_div_four]
    exact Real.tan_lt_tan_of_nonneg_of_lt_pi_div_two (by linarith) (by linarith [Real.pi_pos]) (by linarith)
  constructor
  · apply Radians.ext
    rw [C32_vfov_partial (by positivity) hn]
    · rw [Spec.vfov, mul_comm n, mul_div_assoc, div_self hn.ne', mul_one, harc]; ring
    · have : Real.tan (vfov.val / 2) * Real.tan (vfov.val / 2) < 1 := by nlinarith
      have hn2 : 0 < n ^ 2 := by positivity
      nlinarith
  · simp only [Perspective3.new, Perspective3.aspectRatio, fromPerspective, new4x4, Matrix.cons_val,
      sub_neg_eq_add]
    field_simp

/-- for a field of view between a right angle and a half turn the round trip fails -/
theorem C32_from_vfov_wide (vfov : Radians ℝ) (aspect : ℝ) (hn : 0 < n)
    (h0 : Real.pi / 2 < vfov.val) (h1 : vfov.val < Real.pi) :
    (Perspective3.fromVfov vfov aspect n f).vfov.val = vfov.val - Real.pi := by
  have hp := Real.pi_pos
  have ht : 0 < Real.tan (vfov.val / 2) := Real.tan_pos_of_pos_of_lt_pi_div_two (by linarith) (by linarith)
  have e := C32_from_vfov (f := f) vfov aspect hn.ne' ht.ne'
  simp only at e
  rw [e]
  have harc : Real.arctan (Real.tan (vfov.val / 2)) = vfov.val / 2 :=
    Real.arctan_tan (by linarith [Real.pi_pos]) (by linarith)
  have ht1 : 1 < Real.tan (vfov.val / 2) := by
    rw [← Real.tan_pi_div_four]
    exact Real.tan_lt_tan_of_nonneg_of_lt_pi_div_two (by linarith) (by linarith) (by linarith)
  rw [C32_vfov_wide (by positivity) (by positivity) hn]
  · rw [Spec.vfov, mul_comm n, mul_div_assoc, div_self hn.ne', mul_one, harc]; ring
  · have : 1 < Real.tan (vfov.val / 2) * Real.tan (vfov.val / 2) := by nlinarith
    have hn2 : 0 < n ^ 2 := by positivity
    nlinarith

/-- a concrete off-axis frustum and a point inside it -/
example : (0 : ℝ) < 1 ∧ (1 : ℝ) < 10 ∧ Spec.inFrustum 2 3 1 4 1 10 (Pt.new3 1 2 (-2)) := by
  refine ⟨by norm_num, by norm_num, ?_⟩
  unfold Spec.inFrustum; simp [Pt.new3, Vec.new3]; norm_num

end Cgl
