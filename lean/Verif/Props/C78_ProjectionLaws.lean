import Verif.Props.C73_Actions
import Verif.Props.C05_Unit
import Verif.Props.C05_UnitAll
import Verif.Props.C51_AngleSigned
import Verif.Props.C52_DegRad

/-! # C78: the laws sampled by the property tests of perspective projections, unit values and angles -/

namespace Cgl
open Mat

/-! ### perspective projections: cglinalg_transform/tests/spec_projection.rs -/

section Perspective
variable (vfov : Radians ℝ) (aspect near far : ℝ)

private theorem entries : (Perspective3.fromVfov vfov aspect near far).matrix.data 2 2 = -(far + near) / (far - near) ∧
    (Perspective3.fromVfov vfov aspect near far).matrix.data 3 2 = -(2 * far * near) / (far - near) := by
  constructor <;> simp [Perspective3.fromVfov, fromPerspectiveVfov]
  norm_num

private theorem point_z (m : Perspective3 ℝ) (p : Pt ℝ 3) : (m * p).coords.data 2 =
    (m.matrix.data 2 2 * p.coords.data 2 + m.matrix.data 3 2) * (-1 / p.coords.data 2) := rfl

private theorem vector_entries (v : Vec ℝ 3) :
    (Perspective3.fromVfov vfov aspect near far * v).data 2 =
      ((Perspective3.fromVfov vfov aspect near far) * (⟨v⟩ : Pt ℝ 3)).coords.data 2 ∧
    (Perspective3.fromVfov vfov aspect near far * v).data 0 =
      ((Perspective3.fromVfov vfov aspect near far) * (⟨v⟩ : Pt ℝ 3)).coords.data 0 ∧
    (Perspective3.fromVfov vfov aspect near far * v).data 1 =
      ((Perspective3.fromVfov vfov aspect near far) * (⟨v⟩ : Pt ℝ 3)).coords.data 1 := by
  have e : ∀ (m : Perspective3 ℝ) (v : Vec ℝ 3), (m * v : Vec ℝ 3) = m.projectVector v := fun _ _ => rfl
  have e' : ∀ (m : Perspective3 ℝ) (p : Pt ℝ 3), (m * p : Pt ℝ 3) = m.projectPoint p := fun _ _ => rfl
  have x0 : (v.extend 1).data 0 = v.data 0 := Vec.extend_castSucc v 1 0
  have x1 : (v.extend 1).data 1 = v.data 1 := Vec.extend_castSucc v 1 1
  have x2 : (v.extend 1).data 2 = v.data 2 := Vec.extend_castSucc v 1 2
  have x3 : (v.extend 1).data 3 = 1 := Vec.extend_last v 1
  simp only [e, e']
  refine ⟨?_, ?_, ?_⟩ <;>
    simp [x0, x1, x2, x3, Perspective3.projectVector, Perspective3.projectPoint, Perspective3.fromVfov, fromPerspectiveVfov, mulVec_data,
      Fin.sum_univ_four, Pt.new3, neg_div, div_neg]

private theorem depth (hn : near ≠ far) (p : Pt ℝ 3) (hz : p.coords.data 2 ≠ 0) :
    (Perspective3.fromVfov vfov aspect near far * p).coords.data 2 =
      (far + near) / (far - near) + 2 * far * near / (far - near) / p.coords.data 2 := by
  have : far - near ≠ 0 := sub_ne_zero.mpr hn.symm
  rw [point_z, (entries vfov aspect near far).1, (entries vfov aspect near far).2]
  field_simp; ring

/-- the planes are read back whatever the field of view and aspect ratio -/
theorem C78_planes (hn : near ≠ 0) (hf : far ≠ 0) (hnf : near ≠ far) :
    (Perspective3.fromVfov vfov aspect near far).near = near ∧ (Perspective3.fromVfov vfov aspect near far).far = far := by
  have : far - near ≠ 0 := sub_ne_zero.mpr hnf.symm
  have r : (-(-(far + near) / (far - near)) + 1) / (-(-(far + near) / (far - near)) - 1) = far / near := by
    have : -(-(far + near) / (far - near)) - 1 ≠ 0 := by
      have : -(-(far + near) / (far - near)) - 1 = 2 * near / (far - near) := by field_simp; ring
      rw [this]; positivity
    rw [div_eq_div_iff this hn]
    field_simp; ring
  unfold Perspective3.near Perspective3.far
  simp only [(entries vfov aspect near far).1, (entries vfov aspect near far).2, r]
  constructor <;> field_simp <;> ring

/-- spec_projection.rs 413-507: the near plane is sent to depth -1 and the far plane to depth 1 -/
theorem C78_near_far_planes (hn : near ≠ 0) (hf : far ≠ 0) (hnf : near ≠ far) (p : Pt ℝ 2) (v : Vec ℝ 2) (q : Pt ℝ 3)
    (w : Vec ℝ 3) :
    (q = p.extend (-(Perspective3.fromVfov vfov aspect near far).near) →
      (Perspective3.fromVfov vfov aspect near far * q).coords.data 2 = -1) ∧
    (w = v.extend (-(Perspective3.fromVfov vfov aspect near far).near) →
      (Perspective3.fromVfov vfov aspect near far * w).data 2 = -1) ∧
    (q = p.extend (-(Perspective3.fromVfov vfov aspect near far).far) →
      (Perspective3.fromVfov vfov aspect near far * q).coords.data 2 = 1) ∧
    (w = v.extend (-(Perspective3.fromVfov vfov aspect near far).far) →
      (Perspective3.fromVfov vfov aspect near far * w).data 2 = 1) := by
  obtain ⟨a, b⟩ := C78_planes vfov aspect near far hn hf hnf
  have h : far - near ≠ 0 := sub_ne_zero.mpr hnf.symm
  rw [a, b, (vector_entries vfov aspect near far _).1]
  have z : ∀ (p : Pt ℝ 2) (k : ℝ), (p.extend k).coords.data 2 = k := fun p k => Vec.extend_last p.coords k
  have z' : ∀ (v : Vec ℝ 2) (k : ℝ), (v.extend k).data 2 = k := fun p k => Vec.extend_last p k
  have key : ∀ q : Pt ℝ 3, (q.coords.data 2 = -near → (Perspective3.fromVfov vfov aspect near far * q).coords.data 2 = -1) ∧
      (q.coords.data 2 = -far → (Perspective3.fromVfov vfov aspect near far * q).coords.data 2 = 1) := by
    intro q
    constructor <;> intro e <;> rw [depth vfov aspect near far hnf _ (by rw [e]; simpa), e] <;> field_simp <;> ring
  refine ⟨fun e => (key q).1 ?_, fun e => (key ⟨w⟩).1 ?_, fun e => (key q).2 ?_, fun e => (key ⟨w⟩).2 ?_⟩
  · rw [e]; exact z _ _
  · rw [e]; exact z' _ _
  · rw [e]; exact z _ _
  · rw [e]; exact z' _ _

/-- farther points have greater depth (so, of two points in front of the eye, the one with the smaller `z`) -/
theorem C78_depth_order (hn : 0 < near) (hnf : near < far) (p q : Pt ℝ 3) (hp : p.coords.data 2 < 0)
    (hq : q.coords.data 2 < 0) :
    (Perspective3.fromVfov vfov aspect near far * p).coords.data 2 <
      (Perspective3.fromVfov vfov aspect near far * q).coords.data 2 ↔ q.coords.data 2 < p.coords.data 2 := by
  rw [depth vfov aspect near far hnf.ne p hp.ne, depth vfov aspect near far hnf.ne q hq.ne, add_lt_add_iff_left]
  have c : 0 < 2 * far * near / (far - near) := by
    have : 0 < far - near := sub_pos.mpr hnf
    have : 0 < far := hn.trans hnf
    positivity
  rw [div_eq_mul_inv _ (p.coords.data 2), div_eq_mul_inv _ (q.coords.data 2), mul_lt_mul_iff_right₀ c, inv_lt_inv_of_neg hp hq]

/-- spec_projection.rs 516-573: depth does not decrease along a segment from the near plane to the far plane -/
theorem C78_depth_along_line (hn : 0 < near) (hnf : near < far) (start stop : Pt ℝ 3) (vstart vstop : Vec ℝ 3)
    (h0 : start.coords.data 2 = -near) (h1 : stop.coords.data 2 = -far) (w0 : vstart.data 2 = -near)
    (w1 : vstop.data 2 = -far) (t1 t2 : ℝ) (ht1 : 0 ≤ t1) (ht : t1 ≤ t2) :
    (Perspective3.fromVfov vfov aspect near far * (start + (stop - start) * t1)).coords.data 2 ≤
      (Perspective3.fromVfov vfov aspect near far * (start + (stop - start) * t2)).coords.data 2 ∧
    (Perspective3.fromVfov vfov aspect near far * (vstart + (vstop - vstart) * t1)).data 2 ≤
      (Perspective3.fromVfov vfov aspect near far * (vstart + (vstop - vstart) * t2)).data 2 := by
  have key : ∀ (p q : Pt ℝ 3), p.coords.data 2 < 0 → q.coords.data 2 < 0 → q.coords.data 2 ≤ p.coords.data 2 →
      (Perspective3.fromVfov vfov aspect near far * p).coords.data 2 ≤
        (Perspective3.fromVfov vfov aspect near far * q).coords.data 2 := fun p q hp hq h => by
    rw [← not_lt, C78_depth_order vfov aspect near far hn hnf q p hq hp, not_lt]; exact h
  rw [(vector_entries vfov aspect near far _).1, (vector_entries vfov aspect near far _).1]
  constructor <;> apply key <;> simp [h0, h1, w0, w1] <;> nlinarith

/-- the order the comment of those tests states is the reverse of the true one -/
theorem C78_depth_comment_fails (hn : 0 < near) (hnf : near < far) : ∃ p q : Pt ℝ 3, p.coords.data 2 < q.coords.data 2 ∧
    -far ≤ p.coords.data 2 ∧ q.coords.data 2 ≤ -near ∧
    ¬ (Perspective3.fromVfov vfov aspect near far * p).coords.data 2 <
      (Perspective3.fromVfov vfov aspect near far * q).coords.data 2 := by
  refine ⟨Pt.new3 0 0 (-far), Pt.new3 0 0 (-near), ?_, ?_, ?_, ?_⟩
  · simp [Pt.new3]; exact hnf
  · simp [Pt.new3]
  · simp [Pt.new3]
  · rw [C78_depth_order vfov aspect near far hn hnf _ _ (by simp [Pt.new3]; linarith) (by simp [Pt.new3]; linarith)]
    simp [Pt.new3]; exact hnf.le

/-- spec_projection.rs 577-627: the points of a line through the eye have the same horizontal and vertical coordinates -/
theorem C78_lines_through_eye (p : Pt ℝ 3) (v : Vec ℝ 3) (k : ℝ) (hk : k ≠ 0) (hp : p.coords.data 2 ≠ 0)
    (hv : v.data 2 ≠ 0) :
    (Perspective3.fromVfov vfov aspect near far * (p * k)).contract = (Perspective3.fromVfov vfov aspect near far * p).contract ∧
    (Perspective3.fromVfov vfov aspect near far * (v * k)).contract = (Perspective3.fromVfov vfov aspect near far * v).contract := by
  have x : ∀ (m : Perspective3 ℝ) (p : Pt ℝ 3), (m * p).coords.data 0 =
      (m.matrix.data 0 0 * p.coords.data 0 + m.matrix.data 2 0 * p.coords.data 2) * (-1 / p.coords.data 2) := fun _ _ => rfl
  have y : ∀ (m : Perspective3 ℝ) (p : Pt ℝ 3), (m * p).coords.data 1 =
      (m.matrix.data 1 1 * p.coords.data 1 + m.matrix.data 3 1 * p.coords.data 2) * (-1 / p.coords.data 2) := fun _ _ => rfl
  have key : ∀ p : Pt ℝ 3, p.coords.data 2 ≠ 0 →
      (Perspective3.fromVfov vfov aspect near far * (p * k)).coords.data 0 =
        (Perspective3.fromVfov vfov aspect near far * p).coords.data 0 ∧
      (Perspective3.fromVfov vfov aspect near far * (p * k)).coords.data 1 =
        (Perspective3.fromVfov vfov aspect near far * p).coords.data 1 := fun p hp => by
    rw [x, x, y, y]
    simp only [Pt.mul_coords, Vec.mulS_data]
    constructor <;> field_simp
  constructor
  · obtain ⟨a, b⟩ := key p hp
    apply Pt.ext_data; intro i
    rw [show ∀ q : Pt ℝ 3, (Pt.contract q).coords = q.coords.contract from fun _ => rfl]
    simp only [Vec.contract_data]
    fin_cases i
    · exact a
    · exact b
  · obtain ⟨a, b⟩ := key ⟨v⟩ hv
    ext i
    simp only [Vec.contract_data]
    fin_cases i
    · exact (vector_entries vfov aspect near far _).2.1.trans (a.trans (vector_entries vfov aspect near far _).2.1.symm)
    · exact (vector_entries vfov aspect near far _).2.2.trans (b.trans (vector_entries vfov aspect near far _).2.2.symm)

/-- spec_projection.rs 635-717: the parameters of a frustum opening in front of the eye are positive -/
theorem C78_parameters (h0 : 0 < vfov.val) (h1 : vfov.val < Real.pi) (ha : 0 < aspect) (hn : 0 < near) (hnf : near < far) :
    0 < (Perspective3.fromVfov vfov aspect near far).left ∧ 0 < (Perspective3.fromVfov vfov aspect near far).right ∧
    0 < (Perspective3.fromVfov vfov aspect near far).bottom ∧ 0 < (Perspective3.fromVfov vfov aspect near far).top ∧
    0 < (Perspective3.fromVfov vfov aspect near far).near ∧ 0 < (Perspective3.fromVfov vfov aspect near far).far := by
  have ht : 0 < Real.tan (vfov.val / 2) := Real.tan_pos_of_pos_of_lt_pi_div_two (by linarith) (by linarith)
  have e := C32_from_vfov (f := far) vfov aspect hn.ne' ht.ne'
  simp only at e
  have hh : 0 < near * Real.tan (vfov.val / 2) := mul_pos hn ht
  have ha' : 0 < aspect * (near * Real.tan (vfov.val / 2)) := mul_pos ha hh
  obtain ⟨a, b, c, d, g, i, -⟩ := C32_getters (add_pos ha' ha').ne' (add_pos hh hh).ne' hnf.ne ha'.ne' hh.ne' hn.ne'
    (hn.trans hnf).ne'
  rw [e, a, b, c, d, g, i]
  exact ⟨ha', ha', hh, hh, hn, hn.trans hnf⟩

example : 0 < (⟨1⟩ : Radians ℝ).val ∧ (⟨1⟩ : Radians ℝ).val < Real.pi ∧ (0 : ℝ) < 1.5 ∧ (0 : ℝ) < 1 ∧ (1 : ℝ) < 100 := by
  have := Real.two_le_pi
  refine ⟨by norm_num, by show (1 : ℝ) < _; linarith, by norm_num, by norm_num, by norm_num⟩
end Perspective

/-! ### unit values: cglinalg_core/tests/spec_unit.rs -/

/-- spec_unit.rs 68-140: the constructors normalize, report the norm, and the unchecked one keeps the value -/
theorem C78_unit {X : Type*} [Normed X ℝ] (x : X) :
    (Unit'.fromValue x).value = Normed.normalize x ∧ (Unit'.fromValueWithNorm x).1.value = Normed.normalize x ∧
    (Unit'.fromValueWithNorm x).2 = Normed.norm x ∧ (Unit'.fromValueUnchecked x).value = x := ⟨rfl, rfl, rfl, rfl⟩

/-- spec_unit.rs 145-172: the fallible constructors succeed exactly above the threshold, for vectors, quaternions and
complex numbers -/
theorem C78_unit_try {n : ℕ} (v : Vec ℝ n) (q : Quat ℝ) (z : Cx ℝ) (t : ℝ) (ht : 0 ≤ t) :
    ((Unit'.tryFromValueWithNorm v t).isSome ↔ t < v.norm) ∧ ((Unit'.tryFromValue v t).isSome ↔ t < v.norm) ∧
    ((Unit'.tryFromValueWithNorm q t).isSome ↔ t < q.norm) ∧ ((Unit'.tryFromValue q t).isSome ↔ t < q.norm) ∧
    ((Unit'.tryFromValueWithNorm z t).isSome ↔ t < z.norm) ∧ ((Unit'.tryFromValue z t).isSome ↔ t < z.norm) := by
  have hv : (Unit'.tryFromValue v t).isSome ↔ t < v.norm := by
    rw [← not_iff_not, Option.not_isSome_iff_eq_none, C05_try_from_value_none_iff, not_lt, ← Vec.norm_sq, ← pow_two,
      sq_le_sq₀ (Vec.norm_nonneg v) ht]
  have hq : (Unit'.tryFromValue q t).isSome ↔ t < q.norm := by
    rw [← not_iff_not, Option.not_isSome_iff_eq_none, C05_quaternion.none_iff, not_lt, abs_of_nonneg ht]
  have hz : (Unit'.tryFromValue z t).isSome ↔ t < z.norm := by
    rw [← not_iff_not, Option.not_isSome_iff_eq_none, C05_complex.none_iff, not_lt, abs_of_nonneg ht]
  have e : ∀ {X : Type} [Normed X ℝ] (x : X), (Unit'.tryFromValueWithNorm x t).isSome = (Unit'.tryFromValue x t).isSome := by
    intro X _ x; unfold Unit'.tryFromValue; rw [Option.isSome_map]
  exact ⟨by rw [e]; exact hv, hv, by rw [e]; exact hq, hq, by rw [e]; exact hz, hz⟩

/-! ### typed angles: cglinalg_trigonometry/tests/spec_angle.rs -/

/-- spec_angle.rs 42-90 -/
theorem C78_angle_additive {S : Type*} [CommRing S] (a : Radians S) (b : Degrees S) :
    (a + ⟨0⟩ = a ∧ a - a = ⟨0⟩ ∧ a + -a = ⟨0⟩ ∧ -a + a = ⟨0⟩ ∧ a * (1 : S) = a) ∧
    (b + ⟨0⟩ = b ∧ b - b = ⟨0⟩ ∧ b + -b = ⟨0⟩ ∧ -b + b = ⟨0⟩ ∧ b * (1 : S) = b) := by
  refine ⟨⟨?_, ?_, ?_, ?_, ?_⟩, ⟨?_, ?_, ?_, ?_, ?_⟩⟩
  all_goals ext1
  · exact add_zero a.val
  · exact sub_self a.val
  · exact add_neg_cancel a.val
  · exact neg_add_cancel a.val
  · exact mul_one a.val
  · exact add_zero b.val
  · exact sub_self b.val
  · exact add_neg_cancel b.val
  · exact neg_add_cancel b.val
  · exact mul_one b.val

/-- spec_angle.rs 103-184; the tangent law holds at its poles too, where the model's tangent is zero -/
theorem C78_angle_inverses (a : Radians ℝ) (b : Degrees ℝ) :
    Angle.sin (Angle.asin (Angle.sin a) : Radians ℝ) = Angle.sin a ∧
    Angle.cos (Angle.acos (Angle.cos a) : Radians ℝ) = Angle.cos a ∧
    Angle.tan (Angle.atan (Angle.tan a) : Radians ℝ) = Angle.tan a ∧
    Angle.sin (Angle.asin (Angle.sin b) : Degrees ℝ) = Angle.sin b ∧
    Angle.cos (Angle.acos (Angle.cos b) : Degrees ℝ) = Angle.cos b ∧
    Angle.tan (Angle.atan (Angle.tan b) : Degrees ℝ) = Angle.tan b :=
  ⟨(C52_sin_asin _ (Real.neg_one_le_sin _) (Real.sin_le_one _)).2, (C52_cos_acos _ (Real.neg_one_le_cos _) (Real.cos_le_one _)).2,
    (C52_tan_atan _).2, (C52_sin_asin _ (Real.neg_one_le_sin _) (Real.sin_le_one _)).1,
    (C52_cos_acos _ (Real.neg_one_le_cos _) (Real.cos_le_one _)).1, (C52_tan_atan _).1⟩

/-- spec_angle.rs 195-216, for any whole number of turns and the tangent as well -/
theorem C78_angle_congruent (a : Radians ℝ) (b : Degrees ℝ) (k : ℤ) :
    Angle.sin (a + (Angle.fullTurn : Radians ℝ) * (k : ℝ)) = Angle.sin a ∧
    Angle.cos (a + (Angle.fullTurn : Radians ℝ) * (k : ℝ)) = Angle.cos a ∧
    Angle.tan (a + (Angle.fullTurn : Radians ℝ) * (k : ℝ)) = Angle.tan a ∧
    Angle.sin (b + (Angle.fullTurn : Degrees ℝ) * (k : ℝ)) = Angle.sin b ∧
    Angle.cos (b + (Angle.fullTurn : Degrees ℝ) * (k : ℝ)) = Angle.cos b ∧
    Angle.tan (b + (Angle.fullTurn : Degrees ℝ) * (k : ℝ)) = Angle.tan b := by
  have e : (a + (Angle.fullTurn : Radians ℝ) * (k : ℝ)).val = a.val + k * (2 * Real.pi) := by
    show a.val + ((2 : ℕ) : ℝ) * Real.pi * k = _; push_cast; ring
  have e' : ((b + (Angle.fullTurn : Degrees ℝ) * (k : ℝ)).val) * ((fpi : ℝ) / ((180 : ℕ) : ℝ)) =
      b.val * ((fpi : ℝ) / ((180 : ℕ) : ℝ)) + k * (2 * Real.pi) := by
    show (b.val + ((360 : ℕ) : ℝ) * k) * (Real.pi / _) = b.val * (Real.pi / _) + _; push_cast; ring
  have t : ∀ x : ℝ, Real.tan (x + k * (2 * Real.pi)) = Real.tan x := fun x => by
    rw [Real.tan_eq_sin_div_cos, Real.tan_eq_sin_div_cos, Real.sin_add_int_mul_two_pi, Real.cos_add_int_mul_two_pi]
  refine ⟨?_, ?_, ?_, ?_, ?_, ?_⟩
  · show Real.sin _ = Real.sin _; rw [e, Real.sin_add_int_mul_two_pi]
  · show Real.cos _ = Real.cos _; rw [e, Real.cos_add_int_mul_two_pi]
  · show Real.tan _ = Real.tan _; rw [e, t]
  · show Real.sin (_ * _) = Real.sin (_ * _); rw [e', Real.sin_add_int_mul_two_pi]
  · show Real.cos (_ * _) = Real.cos (_ * _); rw [e', Real.cos_add_int_mul_two_pi]
  · show Real.tan (_ * _) = Real.tan (_ * _); rw [e', t]

/-- spec_angle.rs 224-236 -/
theorem C78_angle_pythagorean (a : Radians ℝ) (b : Degrees ℝ) :
    Angle.cos a * Angle.cos a + Angle.sin a * Angle.sin a = 1 ∧ Angle.cos b * Angle.cos b + Angle.sin b * Angle.sin b = 1 := by
  have h : ∀ x : ℝ, Real.cos x * Real.cos x + Real.sin x * Real.sin x = 1 := fun x => by
    rw [← pow_two, ← pow_two]; exact Real.cos_sq_add_sin_sq x
  exact ⟨h _, h _⟩

/-- spec_angle.rs 244-285 -/
theorem C78_angle_normalize (a : Radians ℝ) (b : Degrees ℝ) :
    (0 ≤ (Angle.normalize a).val ∧ (Angle.normalize a).val < 2 * Real.pi) ∧
    (0 ≤ (Angle.normalize b).val ∧ (Angle.normalize b).val < 360) ∧
    (-Real.pi < (Angle.normalizeSigned a).val ∧ (Angle.normalizeSigned a).val ≤ Real.pi) ∧
    (-180 < (Angle.normalizeSigned b).val ∧ (Angle.normalizeSigned b).val ≤ 180) :=
  ⟨C50_radians_range a, C50_degrees_range b, C51_signed_radians_range a, C51_signed_degrees_range b⟩

/-- the interval the comment of the last test states, closed at minus half a turn and open at half a turn, is not the one:
half a turn is left as it is -/
theorem C78_angle_normalize_signed_comment_fails :
    (∃ a : Radians ℝ, ¬ (Angle.normalizeSigned a).val < Real.pi) ∧ ∃ b : Degrees ℝ, ¬ (Angle.normalizeSigned b).val < 180 := by
  have hp := Real.pi_pos
  refine ⟨⟨⟨Real.pi⟩, ?_⟩, ⟨⟨180⟩, ?_⟩⟩
  · rw [C51_signed_radians_unique ⟨Real.pi⟩ ⟨Real.pi⟩ (by simp; linarith) le_rfl 0 (by simp)]; simp
  · rw [C51_signed_degrees_unique ⟨180⟩ ⟨180⟩ (by norm_num) le_rfl 0 (by simp)]; simp

end Cgl
