import Verif.Props.C41_QuaternionToMatrix
import Mathlib.Analysis.SpecialFunctions.Trigonometric.Bounds

/-!
# C45 - quaternion interpolation

Exact real arithmetic. `thr` is the threshold below which `slerp` falls back to `nlerp` (the public function
passes 0.0005).
-/

namespace Cgl
open Quat

/-! ### `lerp` and `nlerp` -/

theorem C45_lerp_ends {K : Type*} [Field K] (q r : Quat K) : q.lerp r 0 = q ∧ q.lerp r 1 = r := by
  constructor <;> apply ext4 <;> simp [lerp]
/-- `lerp` is the affine combination `(1-t) q + t r` -/
theorem C45_lerp {K : Type*} [Field K] (q r : Quat K) (t : K) : q.lerp r t = q * (1 - t) + r * t := by
  apply ext4 <;> simp [lerp] <;> ring

theorem unit_normalize {q : Quat ℝ} (h : q.norm = 1) : q.normalize = q := by
  rw [normalize_def, h]; apply ext4 <;> simp

theorem C45_nlerp_ends (q r : Quat ℝ) (hq : q.norm = 1) (hr : r.norm = 1) :
    q.nlerp r 0 = q ∧ q.nlerp r 1 = r := by
  have e0 : q * (1 - 0 : ℝ) + r * (0 : ℝ) = q := by apply ext4 <;> simp
  have e1 : q * (1 - 1 : ℝ) + r * (1 : ℝ) = r := by apply ext4 <;> simp
  simp only [nlerp]
  rw [e0, e1]; exact ⟨unit_normalize hq, unit_normalize hr⟩

/-- `nlerp` points along the chord and has unit length, whenever the chord point is not zero ... -/
theorem C45_nlerp_unit (q r : Quat ℝ) (t : ℝ) (h : q.lerp r t ≠ 0) : (q.nlerp r t).norm = 1 := by
  rw [C45_lerp] at h; exact normalize_norm h

private theorem chord_sq {q r : Quat ℝ} (hq : q.norm = 1) (hr : r.norm = 1) (t : ℝ) :
    (q * (1 - t) + r * t).normSquared = (1 - t) ^ 2 + t ^ 2 + 2 * t * (1 - t) * q.dot r := by
  rw [norm_eq_one_iff, normSquared_eq] at hq hr
  rw [normSquared_eq, dot_eq]; simp
  linear_combination (1 - t) ^ 2 * hq + t ^ 2 * hr

theorem dot_le_one {q r : Quat ℝ} (hq : q.norm = 1) (hr : r.norm = 1) : |q.dot r| ≤ 1 := by
  rw [norm_eq_one_iff, normSquared_eq] at hq hr
  rw [dot_eq, abs_le]
  constructor <;> nlinarith [sq_nonneg (q.s - r.s), sq_nonneg (q.x - r.x), sq_nonneg (q.y - r.y),
    sq_nonneg (q.z - r.z), sq_nonneg (q.s + r.s), sq_nonneg (q.x + r.x), sq_nonneg (q.y + r.y),
    sq_nonneg (q.z + r.z)]

private theorem eq_of_dot {q r : Quat ℝ} (hq : q.norm = 1) (hr : r.norm = 1) (h : q.dot r = 1) : q = r := by
  rw [norm_eq_one_iff, normSquared_eq] at hq hr
  rw [dot_eq] at h
  have : (q - r).normSquared = 0 := by
    rw [normSquared_eq]; simp; linear_combination hq + hr - 2 * h
  have := normSquared_eq_zero.mp this
  apply ext4
  · have := congrArg Quat.s this; simp at this; linarith
  · have := congrArg Quat.x this; simp at this; linarith
  · have := congrArg Quat.y this; simp at this; linarith
  · have := congrArg Quat.z this; simp at this; linarith

/-- ... in particular between unit quaternions that are not opposite. -/
theorem C45_nlerp_unit_of_unit (q r : Quat ℝ) (hq : q.norm = 1) (hr : r.norm = 1) (hne : q ≠ -r) (t : ℝ)
    (ht : 0 ≤ t ∧ t ≤ 1) : (q.nlerp r t).norm = 1 := by
  apply C45_nlerp_unit
  rw [C45_lerp, Ne, ← normSquared_eq_zero, chord_sq hq hr]
  have hd := abs_le.mp (dot_le_one hq hr)
  have hd' : -1 < q.dot r := by
    rcases lt_or_eq_of_le hd.1 with h | h
    · exact h
    · exfalso; apply hne
      have hr' : (-r).norm = 1 := by rw [norm_def] at hr ⊢; rw [← hr]; simp [normSquared_eq]
      apply eq_of_dot hq hr'
      rw [dot_eq] at h ⊢; simp; linarith
  intro h0
  have h1 : (1 - 2 * t) ^ 2 + 2 * (t * (1 - t)) * (1 + q.dot r) = 0 := by linear_combination h0
  have h2 : 0 ≤ t * (1 - t) := mul_nonneg ht.1 (by linarith)
  have h3 : (1 - 2 * t) ^ 2 = 0 := by nlinarith [sq_nonneg (1 - 2 * t)]
  have h4 : t = 1 / 2 := by
    have := pow_eq_zero_iff two_ne_zero |>.mp h3; linarith
  rw [h4] at h1; nlinarith

/-! ### `slerp` -/

/-- `a` or `-a`, whichever is on `b`'s side -/
noncomputable def Spec.nearest (a b : Quat ℝ) : Quat ℝ := if a.dot b < 0 then -a else a

theorem nearest_norm (a b : Quat ℝ) (ha : a.norm = 1) : (Spec.nearest a b).norm = 1 := by
  unfold Spec.nearest; split_ifs
  · rw [norm_def] at ha ⊢; rw [← ha]; simp [normSquared_eq]
  · exact ha
theorem nearest_dot (a b : Quat ℝ) : (Spec.nearest a b).dot b = |a.dot b| := by
  unfold Spec.nearest; split_ifs with h
  · rw [abs_of_neg h, dot_eq, dot_eq]; simp; ring
  · rw [abs_of_nonneg (not_lt.mp h)]
theorem nearest_matrix (a b : Quat ℝ) : (Spec.nearest a b).toMatrix = a.toMatrix := by
  unfold Spec.nearest; split_ifs
  · exact C41_neg a
  · rfl

/-- the code in terms of the nearer representative `a'` and the angle `θ = arccos(a'·b)` -/
theorem slerp_eq (thr : ℝ) (a b : Quat ℝ) (t : ℝ) : slerp thr a b t =
    let a' := Spec.nearest a b
    let c := a'.dot b
    if |c| ≥ 1 then a'
    else if |Real.sqrt (1 - c * c)| < thr then a'.nlerp b t
    else a' * (Real.sin ((1 - t) * Real.arccos c) / Real.sqrt (1 - c * c)) +
      b * (Real.sin (t * Real.arccos c) / Real.sqrt (1 - c * c)) := by
  have h : (if a.dot b < 0 then (-a, (-a).dot b) else (a, a.dot b)) =
      (Spec.nearest a b, (Spec.nearest a b).dot b) := by unfold Spec.nearest; split_ifs <;> rfl
  unfold slerp
  rw [h]
  rfl

section
variable {thr : ℝ} {a b : Quat ℝ} (ha : a.norm = 1) (hb : b.norm = 1)
include ha hb

omit ha hb in
private theorem setup (h : ¬ |(Spec.nearest a b).dot b| ≥ 1) :
    0 < Real.sqrt (1 - (Spec.nearest a b).dot b * (Spec.nearest a b).dot b) ∧
    Real.sin (Real.arccos ((Spec.nearest a b).dot b)) =
      Real.sqrt (1 - (Spec.nearest a b).dot b * (Spec.nearest a b).dot b) ∧
    Real.cos (Real.arccos ((Spec.nearest a b).dot b)) = (Spec.nearest a b).dot b := by
  obtain ⟨h1, h2⟩ := abs_lt.mp (not_le.mp h)
  refine ⟨Real.sqrt_pos.mpr (by nlinarith), ?_, Real.cos_arccos h1.le h2.le⟩
  rw [Real.sin_arccos, sq]

/-- `slerp` of unit quaternions is a unit quaternion, for every `t`. -/
theorem C45_slerp_unit (t : ℝ) : (slerp thr a b t).norm = 1 := by
  have ha' := nearest_norm a b ha
  rw [slerp_eq]
  dsimp only
  split_ifs with h1 h2
  · exact ha'
  · apply normalize_norm
    rw [Ne, ← normSquared_eq_zero, chord_sq ha' hb]
    obtain ⟨h3, h4⟩ := abs_lt.mp (not_le.mp h1)
    intro h0
    set c := (Spec.nearest a b).dot b
    -- `(1-t)² + t² + 2t(1-t)c = ((1-t) + t c)² + t²(1-c²)`
    have e : ((1 - t) + t * c) ^ 2 + t ^ 2 * (1 - c ^ 2) = 0 := by linear_combination h0
    have hc : 0 < 1 - c ^ 2 := by nlinarith
    have ht : t = 0 := by
      by_contra htne
      have : 0 < t ^ 2 * (1 - c ^ 2) := by positivity
      nlinarith [sq_nonneg ((1 - t) + t * c)]
    rw [ht] at e; norm_num at e
  · obtain ⟨hs, hsin, hcos⟩ := setup h1
    rw [norm_eq_one_iff]
    rw [norm_eq_one_iff, normSquared_eq] at ha' hb
    set c := (Spec.nearest a b).dot b with hc
    set S := Real.sqrt (1 - c * c)
    set th := Real.arccos c
    have e : Real.sin ((1 - t) * th) = S * Real.cos (t * th) - c * Real.sin (t * th) := by
      rw [show (1 - t) * th = th - t * th by ring, Real.sin_sub, hsin, hcos]
    have hsc := Real.sin_sq_add_cos_sq (t * th)
    have hS : S ^ 2 + c ^ 2 = 1 := by rw [← hsin, ← hcos]; exact Real.sin_sq_add_cos_sq th
    rw [dot_eq] at hc
    have key : ((Spec.nearest a b) * (Real.sin ((1 - t) * th) / S) + b * (Real.sin (t * th) / S)).normSquared =
        (Real.sin ((1 - t) * th) / S) ^ 2 + (Real.sin (t * th) / S) ^ 2 +
        2 * (Real.sin ((1 - t) * th) / S) * (Real.sin (t * th) / S) * c := by
      rw [normSquared_eq, hc]; simp
      linear_combination (Real.sin ((1 - t) * th) / S) ^ 2 * ha' + (Real.sin (t * th) / S) ^ 2 * hb
    rw [key, e]
    clear_value S
    field_simp
    grind

/-- At `t = 1` the result is `b`; at `t = 0` it is `a` or `-a`, the same rotation as `a`. -/
theorem C45_slerp_ends : slerp thr a b 1 = b ∧ slerp thr a b 0 = Spec.nearest a b ∧
    (slerp thr a b 0).toMatrix = a.toMatrix := by
  have ha' := nearest_norm a b ha
  have h0 : slerp thr a b 0 = Spec.nearest a b := by
    rw [slerp_eq]
    dsimp only
    split_ifs with h1 h2
    · rfl
    · exact (C45_nlerp_ends _ b ha' hb).1
    · obtain ⟨hs, hsin, hcos⟩ := setup h1
      rw [sub_zero, one_mul, zero_mul, hsin, Real.sin_zero, div_self hs.ne', zero_div]
      apply ext4 <;> simp
  refine ⟨?_, h0, by rw [h0]; exact nearest_matrix a b⟩
  rw [slerp_eq]
  dsimp only
  split_ifs with h1 h2
  · apply eq_of_dot ha' hb
    rw [nearest_dot, abs_abs] at h1
    rw [nearest_dot]; exact le_antisymm (dot_le_one ha hb) h1
  · exact (C45_nlerp_ends _ b ha' hb).2
  · obtain ⟨hs, hsin, hcos⟩ := setup h1
    rw [sub_self, one_mul, zero_mul, hsin, Real.sin_zero, div_self hs.ne', zero_div]
    apply ext4 <;> simp

omit ha hb in
/-- The arc is the shorter one: the angle between the representative used and `b` is at most 90°. -/
theorem C45_slerp_short_arc (a b : Quat ℝ) : 0 ≤ (Spec.nearest a b).dot b ∧
    Real.arccos ((Spec.nearest a b).dot b) ≤ Real.pi / 2 := by
  rw [nearest_dot]; exact ⟨abs_nonneg _, Real.arccos_le_pi_div_two.mpr (abs_nonneg _)⟩

/-- Constant angular speed: outside the `nlerp` fallback, the angle from the start is exactly `t` times the
whole angle, and the angle to the end is `1 - t` times it. Missing: exactness inside the fallback region,
where it is false (`C45_slerp_constant_speed_fails`) but nearly true (`C45_slerp_fallback`, `C45_slerp_speed`). -/
theorem C45_slerp_constant_speed_partial {t : ℝ} (ht : 0 ≤ t ∧ t ≤ 1)
    (hthr : thr ≤ Real.sin (Real.arccos |a.dot b|)) :
    Real.arccos ((Spec.nearest a b).dot (slerp thr a b t)) = t * Real.arccos ((Spec.nearest a b).dot b) ∧
    Real.arccos ((slerp thr a b t).dot b) = (1 - t) * Real.arccos ((Spec.nearest a b).dot b) := by
  have ha' := nearest_norm a b ha
  have hth0 : 0 ≤ Real.arccos ((Spec.nearest a b).dot b) := Real.arccos_nonneg _
  have hthpi : Real.arccos ((Spec.nearest a b).dot b) ≤ Real.pi := Real.arccos_le_pi _
  rw [slerp_eq]
  dsimp only
  split_ifs with h1 h2
  · rw [nearest_dot, abs_abs] at h1
    have hc : (Spec.nearest a b).dot b = 1 := by
      rw [nearest_dot]; exact le_antisymm (dot_le_one ha hb) h1
    have hself : (Spec.nearest a b).dot (Spec.nearest a b) = 1 := by
      rw [norm_eq_one_iff, normSquared_eq] at ha'; rw [dot_eq, ha']
    rw [hself, hc, Real.arccos_one]; simp
  · exfalso
    obtain ⟨hs, hsin, hcos⟩ := setup h1
    rw [← nearest_dot, hsin] at hthr
    rw [abs_of_pos hs] at h2
    linarith
  · obtain ⟨hs, hsin, hcos⟩ := setup h1
    have hself : (Spec.nearest a b).dot (Spec.nearest a b) = 1 := by
      rw [norm_eq_one_iff, normSquared_eq] at ha'; rw [dot_eq, ha']
    have hbb : b.dot b = 1 := by
      rw [norm_eq_one_iff, normSquared_eq] at hb; rw [dot_eq, hb]
    set a' := Spec.nearest a b
    have lin1 : ∀ k l : ℝ, a'.dot (a' * k + b * l) = a'.dot a' * k + a'.dot b * l := by
      intro k l; simp only [dot_eq, add_s, add_x, add_y, add_z, mulS_s, mulS_x, mulS_y, mulS_z]; ring
    have lin2 : ∀ k l : ℝ, (a' * k + b * l).dot b = a'.dot b * k + b.dot b * l := by
      intro k l; simp only [dot_eq, add_s, add_x, add_y, add_z, mulS_s, mulS_x, mulS_y, mulS_z]; ring
    rw [lin1, lin2, hself, hbb]
    set c := a'.dot b
    set S := Real.sqrt (1 - c * c)
    set th := Real.arccos c
    have e : Real.sin ((1 - t) * th) = S * Real.cos (t * th) - c * Real.sin (t * th) := by
      rw [show (1 - t) * th = th - t * th by ring, Real.sin_sub, hsin, hcos]
    have hS : S ^ 2 + c ^ 2 = 1 := by rw [← hsin, ← hcos]; exact Real.sin_sq_add_cos_sq th
    have e1 : 1 * (Real.sin ((1 - t) * th) / S) + c * (Real.sin (t * th) / S) = Real.cos (t * th) := by
      rw [e]; field_simp; ring
    have e2 : c * (Real.sin ((1 - t) * th) / S) + 1 * (Real.sin (t * th) / S) = Real.cos ((1 - t) * th) := by
      rw [show (1 - t) * th = th - t * th by ring, Real.sin_sub, Real.cos_sub, hsin, hcos]
      field_simp
      linear_combination (-Real.sin (t * th)) * hS
    rw [e1, e2]
    constructor
    · exact Real.arccos_cos (mul_nonneg ht.1 hth0) (by nlinarith)
    · exact Real.arccos_cos (mul_nonneg (by linarith) hth0) (by nlinarith)

omit ha hb in
/-- `t sin((1-t)θ) - (1-t) sin(tθ)`, the sine of the lag of `nlerp` times the length of the chord point -/
private theorem lag_le {t θ : ℝ} (ht : 0 ≤ t ∧ t ≤ 1) (hθ : 0 ≤ θ) :
    |t * Real.sin ((1 - t) * θ) - (1 - t) * Real.sin (t * θ)| ≤ θ ^ 3 / 24 := by
  obtain ⟨h0, h1⟩ := ht
  have a1 := Real.sin_le (mul_nonneg (sub_nonneg.mpr h1) hθ)
  have a2 := Real.sin_le (mul_nonneg h0 hθ)
  have b1 := Real.sin_ge_sub_cube (mul_nonneg (sub_nonneg.mpr h1) hθ)
  have b2 := Real.sin_ge_sub_cube (mul_nonneg h0 hθ)
  have hq : t * (1 - t) ≤ 1 / 4 := by nlinarith [sq_nonneg (1 - 2 * t)]
  have hq0 : 0 ≤ t * (1 - t) := mul_nonneg h0 (by linarith)
  have h3 : 0 ≤ θ ^ 3 := pow_nonneg hθ 3
  have k1 : t * (1 - t) * t ^ 2 * θ ^ 3 ≤ 1 / 4 * 1 * θ ^ 3 :=
    mul_le_mul_of_nonneg_right (mul_le_mul hq (pow_le_one₀ h0 h1) (sq_nonneg _) (by norm_num)) h3
  have k2 : t * (1 - t) * (1 - t) ^ 2 * θ ^ 3 ≤ 1 / 4 * 1 * θ ^ 3 :=
    mul_le_mul_of_nonneg_right (mul_le_mul hq (pow_le_one₀ (by linarith) (by linarith)) (sq_nonneg _) (by norm_num)) h3
  rw [abs_le]
  constructor
  · nlinarith [mul_le_mul_of_nonneg_left b1 h0, mul_le_mul_of_nonneg_left a2 (sub_nonneg.mpr h1)]
  · nlinarith [mul_le_mul_of_nonneg_left a1 h0, mul_le_mul_of_nonneg_left b2 (sub_nonneg.mpr h1)]

/-- The point at constant angular speed on the shorter arc from `±a` to `b`. -/
noncomputable def Spec.arc (a b : Quat ℝ) (t : ℝ) : Quat ℝ :=
  Spec.nearest a b * (Real.sin ((1 - t) * Real.arccos |a.dot b|) / Real.sin (Real.arccos |a.dot b|)) +
    b * (Real.sin (t * Real.arccos |a.dot b|) / Real.sin (Real.arccos |a.dot b|))

omit ha hb in
private theorem arc_eq (hab : |a.dot b| < 1) (t : ℝ) : Spec.arc a b t = slerp 0 a b t := by
  rw [slerp_eq]
  dsimp only
  rw [nearest_dot, abs_abs, if_neg (not_le.mpr hab), if_neg (not_lt.mpr (abs_nonneg _)), Spec.arc, Real.sin_arccos, sq]

omit ha hb in
private theorem cos_part {t θ : ℝ} (ht : 0 ≤ t ∧ t ≤ 1) (h0 : 0 ≤ θ) (h1 : θ ≤ Real.pi / 2) : 0 ≤ Real.cos (t * θ) :=
  Real.cos_nonneg_of_mem_Icc ⟨by linarith [Real.pi_pos, mul_nonneg ht.1 h0], (mul_le_of_le_one_left h0 ht.2).trans h1⟩

/-- where `nlerp` is relative to the point at constant speed: `x` along it and `y` across, over the length of the chord point -/
private theorem lag {t : ℝ} (ht : 0 ≤ t ∧ t ≤ 1) (hab : |a.dot b| < 1) (hthr : Real.sin (Real.arccos |a.dot b|) < thr) :
    ∃ x y N : ℝ, 0 ≤ x ∧ y = t * Real.sin ((1 - t) * Real.arccos |a.dot b|) - (1 - t) * Real.sin (t * Real.arccos |a.dot b|) ∧
      0 < N ∧ N ^ 2 = x ^ 2 + y ^ 2 ∧ 1 / 2 ≤ N ^ 2 ∧
      (slerp thr a b t - Spec.arc a b t).normSquared = 2 - 2 * (x / N) := by
  have ha' := nearest_norm a b ha
  have hu1 := C45_slerp_unit (thr := thr) ha hb t
  have hu2 := C45_slerp_unit (thr := 0) ha hb t
  rw [← arc_eq hab] at hu2
  have h1 : ¬ |(Spec.nearest a b).dot b| ≥ 1 := by rw [nearest_dot, abs_abs]; exact not_le.mpr hab
  obtain ⟨hs, hsin, hcos⟩ := setup h1
  have hself : (Spec.nearest a b).dot (Spec.nearest a b) = 1 := by
    rw [norm_eq_one_iff, normSquared_eq] at ha'; rw [dot_eq, ha']
  have hbb : b.dot b = 1 := by
    rw [norm_eq_one_iff, normSquared_eq] at hb; rw [dot_eq, hb]
  have hp : slerp thr a b t = (Spec.nearest a b).nlerp b t := by
    rw [slerp_eq]; dsimp only
    rw [if_neg h1, if_pos]
    rwa [abs_of_pos hs, ← hsin, nearest_dot]
  have harc := C45_slerp_short_arc a b
  have hth0 : 0 ≤ Real.arccos ((Spec.nearest a b).dot b) := Real.arccos_nonneg _
  have hsq := chord_sq ha' hb t
  have hdd : ∀ p q : Quat ℝ, p.norm = 1 → q.norm = 1 → (p - q).normSquared = 2 - 2 * p.dot q := fun p q hp hq => by
    rw [norm_eq_one_iff, normSquared_eq] at hp hq
    rw [normSquared_eq, dot_eq]; simp only [sub_s, sub_x, sub_y, sub_z]; linear_combination hp + hq
  rw [hdd _ _ hu1 hu2, hp]
  unfold Spec.arc
  rw [← nearest_dot]
  set a' := Spec.nearest a b
  set c := a'.dot b
  set θ := Real.arccos c
  have hS : Real.sin θ ^ 2 + c ^ 2 = 1 := by rw [← hcos]; exact Real.sin_sq_add_cos_sq θ
  have hSpos : 0 < Real.sin θ := hsin ▸ hs
  have e1 : Real.sin ((1 - t) * θ) = Real.sin θ * Real.cos (t * θ) - c * Real.sin (t * θ) := by
    rw [show (1 - t) * θ = θ - t * θ by ring, Real.sin_sub, hcos]
  have e2 : Real.cos ((1 - t) * θ) = c * Real.cos (t * θ) + Real.sin θ * Real.sin (t * θ) := by
    rw [show (1 - t) * θ = θ - t * θ by ring, Real.cos_sub, hcos]
  have hcs := Real.sin_sq_add_cos_sq (t * θ)
  have hq0 : 0 ≤ t * (1 - t) := mul_nonneg ht.1 (by linarith)
  have hN2 : 1 / 2 ≤ (1 - t) ^ 2 + t ^ 2 + 2 * t * (1 - t) * c := by
    nlinarith [sq_nonneg (1 - 2 * t), mul_nonneg hq0 harc.1]
  have hm : (a' * (1 - t) + b * t) ≠ 0 := by
    rw [Ne, ← normSquared_eq_zero, hsq]; linarith
  have hNpos := norm_pos hm
  have hNsq : (a' * (1 - t) + b * t).norm ^ 2 = (1 - t) ^ 2 + t ^ 2 + 2 * t * (1 - t) * c := by
    rw [norm_def, Real.sq_sqrt (by rw [hsq]; linarith), hsq]
  refine ⟨(1 - t) * Real.cos (t * θ) + t * Real.cos ((1 - t) * θ), _, (a' * (1 - t) + b * t).norm, ?_, rfl, hNpos, ?_,
    by rw [hNsq]; exact hN2, ?_⟩
  · exact add_nonneg (mul_nonneg (by linarith [ht.2]) (cos_part ht hth0 harc.2))
      (mul_nonneg ht.1 (cos_part ⟨by linarith [ht.2], by linarith [ht.1]⟩ hth0 harc.2))
  · rw [hNsq, e1, e2]
    linear_combination (-((1 - t) ^ 2 + t ^ 2 * (Real.sin θ ^ 2 + c ^ 2) + 2 * t * (1 - t) * c)) * hcs - t ^ 2 * hS
  · have lin : ∀ k l m n : ℝ, (a' * k + b * l).dot (a' * m + b * n) = a'.dot a' * (k * m) + b.dot b * (l * n) + a'.dot b * (k * n + l * m) := by
      intro k l m n; simp only [dot_eq, add_s, add_x, add_y, add_z, mulS_s, mulS_x, mulS_y, mulS_z]; ring
    have lin2 : ∀ (p q : Quat ℝ) (k : ℝ), (p * k).dot q = p.dot q * k := by
      intro p q k; simp only [dot_eq, mulS_s, mulS_x, mulS_y, mulS_z]; ring
    have hn : a'.nlerp b t = (a' * (1 - t) + b * t) * (a' * (1 - t) + b * t).norm⁻¹ := by
      rw [← one_div, ← normalize_def]; rfl
    have key : 1 * ((1 - t) * (Real.sin ((1 - t) * θ) / Real.sin θ)) + 1 * (t * (Real.sin (t * θ) / Real.sin θ)) +
        c * ((1 - t) * (Real.sin (t * θ) / Real.sin θ) + t * (Real.sin ((1 - t) * θ) / Real.sin θ)) =
        (1 - t) * Real.cos (t * θ) + t * Real.cos ((1 - t) * θ) := by
      rw [e1, e2]
      field_simp
      linear_combination (-(t * Real.sin (t * θ))) * hS
    rw [hn, lin2, lin, hself, hbb, key, div_eq_mul_inv]

/-- In the fallback region (the sine of the whole angle `θ` below the threshold) `slerp` is within `θ³ / 12` of the point
at constant speed. -/
theorem C45_slerp_fallback {t : ℝ} (ht : 0 ≤ t ∧ t ≤ 1) (hab : |a.dot b| < 1) (hthr : Real.sin (Real.arccos |a.dot b|) < thr) :
    (slerp thr a b t - Spec.arc a b t).norm ≤ Real.arccos |a.dot b| ^ 3 / 12 := by
  obtain ⟨x, y, N, hx, hy, hN, hsq, hN2, hd⟩ := lag ha hb ht hab hthr
  have hyl := lag_le ht (Real.arccos_nonneg |a.dot b|)
  rw [← hy] at hyl
  have h3 : 0 ≤ Real.arccos |a.dot b| ^ 3 := pow_nonneg (Real.arccos_nonneg _) 3
  rw [norm_def]
  apply Real.sqrt_le_iff.mpr ⟨by positivity, _⟩
  rw [hd]
  have hxN : x ≤ N := abs_le_of_sq_le_sq' (by nlinarith [sq_nonneg y]) hN.le |>.2
  have : 2 - 2 * (x / N) = 2 * (y ^ 2 / (N * (N + x))) := by
    have : 0 < N + x := by linarith
    field_simp
    nlinarith
  rw [this]
  have hy2 : y ^ 2 ≤ (Real.arccos |a.dot b| ^ 3 / 24) ^ 2 := sq_le_sq' (by linarith [neg_abs_le y]) (le_trans (le_abs_self y) hyl)
  have hden : 1 / 2 ≤ N * (N + x) := by nlinarith
  have : y ^ 2 / (N * (N + x)) ≤ y ^ 2 / (1 / 2) := div_le_div_of_nonneg_left (sq_nonneg y) (by norm_num) hden
  nlinarith

omit ha hb in
/-- Everywhere else it is that point. -/
theorem C45_slerp_exact {t : ℝ} (hab : |a.dot b| < 1) (hthr : thr ≤ Real.sin (Real.arccos |a.dot b|)) :
    slerp thr a b t = Spec.arc a b t := by
  rw [slerp_eq]
  dsimp only
  rw [nearest_dot, abs_abs, if_neg (not_le.mpr hab), Spec.arc, Real.sin_arccos, sq, if_neg]
  rw [Real.sin_arccos, sq] at hthr
  rwa [abs_of_nonneg (Real.sqrt_nonneg _), not_lt]

/-- For the public function, whose threshold is `0.0005`: within `2e-11` of constant speed for every pair of unit
quaternions that represent different rotations. -/
theorem C45_slerp_speed {t : ℝ} (ht : 0 ≤ t ∧ t ≤ 1) (hab : |a.dot b| < 1) :
    (slerp 0.0005 a b t - Spec.arc a b t).norm ≤ 2e-11 := by
  rcases le_or_gt 0.0005 (Real.sin (Real.arccos |a.dot b|)) with h | h
  · rw [C45_slerp_exact hab h, norm_def, normSquared_eq]; simp; norm_num
  · refine (C45_slerp_fallback ha hb ht hab h).trans ?_
    set θ := Real.arccos |a.dot b|
    have h0 : 0 ≤ θ := Real.arccos_nonneg _
    have h1 : θ ≤ Real.pi / 2 := Real.arccos_le_pi_div_two.mpr (abs_nonneg _)
    have h2 := Real.mul_le_sin h0 h1
    have h3 := Real.sin_ge_sub_cube h0
    have hpi : 2 / 4 * θ ≤ 2 / Real.pi * θ := mul_le_mul_of_nonneg_right
      (div_le_div_of_nonneg_left (by norm_num) Real.pi_pos Real.pi_le_four) h0
    have h4 : θ ≤ 0.001 := by linarith
    have h5 : θ ^ 3 ≤ 0.001 ^ 3 := pow_le_pow_left₀ h0 h4 3
    have h6 : θ ≤ 0.000501 := by norm_num at h5 ⊢; linarith
    have h7 : θ ^ 3 ≤ 0.000501 ^ 3 := pow_le_pow_left₀ h0 h6 3
    norm_num at h7 ⊢; linarith

/-- Constant speed is not exact there: a quarter of the way, no pair of different rotations in the fallback region is at a
quarter of the angle. -/
theorem C45_slerp_constant_speed_fails (hab : |a.dot b| < 1) (hthr : Real.sin (Real.arccos |a.dot b|) < thr) :
    slerp thr a b (1 / 4) ≠ Spec.arc a b (1 / 4) := by
  obtain ⟨x, y, N, hx, hy, hN, hsq, hN2, hd⟩ := lag (t := 1 / 4) ha hb ⟨by norm_num, by norm_num⟩ hab hthr
  intro e
  rw [e, show (2 : ℝ) - 2 * (x / N) = 2 * ((N - x) / N) by field_simp] at hd
  have h0 : N - x = 0 := by
    have : (Spec.arc a b (1 / 4) - Spec.arc a b (1 / 4)).normSquared = 0 := by rw [normSquared_eq]; simp
    rw [this] at hd
    have := (mul_eq_zero.mp hd.symm).resolve_left two_ne_zero
    exact (div_eq_zero_iff.mp this).resolve_right hN.ne'
  have hy0 : y = 0 := by nlinarith
  set θ := Real.arccos |a.dot b|
  have h1 : θ ≤ Real.pi / 2 := Real.arccos_le_pi_div_two.mpr (abs_nonneg _)
  have h2 : 0 < θ := Real.arccos_pos.mpr hab
  have h3 : 0 < Real.sin (1 / 4 * θ) := Real.sin_pos_of_pos_of_lt_pi (by linarith) (by linarith [Real.pi_pos])
  rw [hy0, show (1 - 1 / 4 : ℝ) * θ = 3 * (1 / 4 * θ) by ring, Real.sin_three_mul] at hy
  have : Real.sin (1 / 4 * θ) ^ 3 = 0 := by linarith
  exact (pow_pos h3 3).ne' this

end

/-- `slerp` from `a` and from `-a` is the same path: the two signs of a rotation are not distinguished
(when the two are not orthogonal). -/
theorem C45_slerp_neg (thr : ℝ) (a b : Quat ℝ) (h : a.dot b ≠ 0) (t : ℝ) : slerp thr (-a) b t = slerp thr a b t := by
  have e : Spec.nearest (-a) b = Spec.nearest a b := by
    have hn : (-a).dot b = -a.dot b := by simp only [dot_eq, neg_s, neg_x, neg_y, neg_z]; ring
    unfold Spec.nearest
    rw [hn]
    rcases lt_or_gt_of_ne h with h | h
    · rw [if_neg (by linarith), if_pos h]
    · rw [if_pos (by linarith), if_neg (by linarith)]; apply ext4 <;> simp
  rw [slerp_eq, slerp_eq, e]

/-- two unit quaternions on opposite sides, outside the fallback region -/
example : (identity : Quat ℝ).norm = 1 ∧ (unitX : Quat ℝ).norm = 1 ∧
    (0.0005 : ℝ) ≤ Real.sin (Real.arccos |(identity : Quat ℝ).dot unitX|) := by
  refine ⟨?_, ?_, ?_⟩
  · rw [norm_eq_one_iff]; simp [normSquared_eq]
  · rw [norm_eq_one_iff]; simp [normSquared_eq, unitX, Vec.unitX3]
  · simp [dot_eq, unitX, Vec.unitX3]; norm_num

/-- two unit quaternions about `2e-4` radians apart, inside the fallback region of the public function -/
example : ∃ b : Quat ℝ, (identity : Quat ℝ).norm = 1 ∧ b.norm = 1 ∧ |(identity : Quat ℝ).dot b| < 1 ∧
    Real.sin (Real.arccos |(identity : Quat ℝ).dot b|) < 0.0005 := by
  refine ⟨new ((10 ^ 8 - 1) / (10 ^ 8 + 1)) (2 * 10 ^ 4 / (10 ^ 8 + 1)) 0 0, ?_, ?_, ?_, ?_⟩
  · rw [norm_eq_one_iff]; simp [normSquared_eq]
  · rw [norm_eq_one_iff]; simp [normSquared_eq]; norm_num
  · simp [dot_eq]; norm_num [abs_lt]
  · rw [Real.sin_arccos, Real.sqrt_lt' (by norm_num)]
    simp [dot_eq]; norm_num

end Cgl
