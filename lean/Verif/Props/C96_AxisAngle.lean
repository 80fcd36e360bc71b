import Verif.Props.C94_Angles
import Verif.Lemmas.Num64

/-! # C96 - the axis and the angle of a rotation in floating point -/

namespace Cgl
open Ieee FloatFns Spec

variable {φ : Format}

/-- the angle with a given cosine, near the angle `t` -/
theorem arccos_near {c t κ : ℝ} (ht0 : 0 ≤ t) (htp : t ≤ Real.pi) (hs : 0 < Real.sin t) (hc : |c - Real.cos t| ≤ κ)
    (hc1 : |c| ≤ 1) : |Real.arccos c - t| ≤ 315 / 100 * κ / Real.sin t := by
  obtain ⟨p, hp⟩ : ∃ p, p = Real.arccos c := ⟨_, rfl⟩
  have hp0 : 0 ≤ p := hp ▸ Real.arccos_nonneg c
  have hpp : p ≤ Real.pi := hp ▸ Real.arccos_le_pi c
  have hcp : Real.cos p = c := by rw [hp]; exact Real.cos_arccos (abs_le.mp hc1).1 (abs_le.mp hc1).2
  rw [← hcp, Real.cos_sub_cos] at hc
  rw [← hp]
  have hpi := Real.pi_lt_d2
  have hpi0 := Real.pi_pos
  have k1 : 0 ≤ Real.sin (p / 2) := Real.sin_nonneg_of_nonneg_of_le_pi (by linarith) (by linarith)
  have k2 : 0 ≤ Real.cos (p / 2) := Real.cos_nonneg_of_neg_pi_div_two_le_of_le (by linarith) (by linarith)
  have k3 : 0 ≤ Real.sin (t / 2) := Real.sin_nonneg_of_nonneg_of_le_pi (by linarith) (by linarith)
  have k4 : 0 ≤ Real.cos (t / 2) := Real.cos_nonneg_of_neg_pi_div_two_le_of_le (by linarith) (by linarith)
  have hst : Real.sin t = 2 * Real.sin (t / 2) * Real.cos (t / 2) := by rw [← Real.sin_two_mul]; ring_nf
  have l1 : Real.sin t / 2 ≤ Real.sin (t / 2) := by
    have := mul_le_mul_of_nonneg_left (Real.cos_le_one (t / 2)) k3
    rw [hst]; linarith
  have l2 : Real.sin t / 2 ≤ Real.cos (t / 2) := by
    have := mul_le_mul_of_nonneg_right (Real.sin_le_one (t / 2)) k4
    rw [hst]; linarith
  have l3 : 1 ≤ Real.sin (p / 2) + Real.cos (p / 2) := by
    have := Real.sin_sq_add_cos_sq (p / 2)
    nlinarith [mul_nonneg k1 k2]
  have l4 : Real.sin t / 2 ≤ Real.sin ((p + t) / 2) := by
    rw [add_div, Real.sin_add]
    have a1 := mul_le_mul_of_nonneg_left l2 k1
    have a2 := mul_le_mul_of_nonneg_left l1 k2
    have a3 := mul_le_mul_of_nonneg_right l3 (show 0 ≤ Real.sin t / 2 by linarith)
    linarith
  have l5 : |p - t| / Real.pi ≤ |Real.sin ((p - t) / 2)| := by
    have hx : |(p - t) / 2| ≤ Real.pi / 2 := by rw [abs_le]; constructor <;> linarith
    have := Real.mul_abs_le_abs_sin hx
    rwa [abs_div, abs_two, show 2 / Real.pi * (|p - t| / 2) = |p - t| / Real.pi by field_simp] at this
  rw [abs_mul, abs_mul, abs_neg, abs_two, abs_of_nonneg ((by linarith : (0 : ℝ) ≤ Real.sin t / 2).trans l4)] at hc
  have l6 : Real.sin t / 2 * (|p - t| / Real.pi) ≤ Real.sin ((p + t) / 2) * |Real.sin ((p - t) / 2)| :=
    mul_le_mul l4 l5 (by positivity) (by linarith)
  have l7 : Real.sin t * |p - t| / Real.pi ≤ κ := by
    calc _ = 2 * (Real.sin t / 2 * (|p - t| / Real.pi)) := by ring
      _ ≤ _ := by linarith
  rw [div_le_iff₀ hpi0] at l7
  rw [le_div_iff₀ hs]
  have hκ : 0 ≤ κ := by
    have : 0 ≤ Real.sin t * |p - t| := by positivity
    by_contra h
    push Not at h
    nlinarith
  nlinarith

theorem natCast_two_nr (hφ : Fine φ) : Nr (((2 : ℕ) : Ieee φ)) 2 0 := by
  have h2 : ((2 : ℕ) : Ieee φ) = Ieee.round false 2 := by
    change Ieee.round false ((2 : ℕ) : ℝ) = _
    norm_num
  have hf : (Ieee.round false 2 : Ieee φ).Finite := by
    simp only [Ieee.round, abs_two, hφ.two]
    rw [dif_pos (by linarith [hφ.big])]
    exact finite_fin _ _ _
  rw [h2]
  exact ⟨hf, by rw [val_round hf, hφ.two]; simp⟩

/-- the vector from which the axis is taken -/
noncomputable def axisVec (M : Mat (Ieee φ) 3 3) : Vec (Ieee φ) 3 :=
  Vec.new3 (M.data 1 2 - M.data 2 1) (M.data 2 0 - M.data 0 2) (M.data 0 1 - M.data 1 0)

theorem axis3_eq [Lib φ] (t : Ieee φ) (R : Rotation (Ieee φ) 3) : R.axis3 t = Unit'.tryFromValue (axisVec R.matrix) t := rfl

section
variable {d ε : ℝ} (hφ : Fine φ) (hd : d ≤ 1 / 1000000) (hwd : unit φ ≤ d) {R : Rotation (Ieee φ) 3}
  {A : Matrix (Fin 3) (Fin 3) ℝ} {a : EuclideanSpace ℝ (Fin 3)} {θ : ℝ} (ha : ‖a‖ = 1) (hA : Turns a θ A)
  (hM : MatWithin R.matrix A ε) (hε : ε ≤ 1 / 1000000)
include hφ hd hwd ha hA hM hε

omit hd in
theorem axisVec_near (i : Fin 3) : Nr ((axisVec R.matrix).data i) (2 * Real.sin θ * a i) (2 * ε + 21 / 10 * d) := by
  have hw0 : 0 ≤ unit φ := unit_nonneg
  have a1 := unit_comp ha
  have s1 := Real.abs_sin_le_one θ
  have hb : ∀ i, |2 * Real.sin θ * a i| ≤ 2 := fun i => by
    rw [abs_mul, abs_mul, abs_two]
    have := mul_le_mul s1 (a1 i) (abs_nonneg _) (by norm_num)
    linarith
  have ent : ∀ r s, Nr (R.matrix.data s r) (A r s) ε := fun r s => hM s r
  rw [turns_entries hA, rodrigues] at ent
  have sub : ∀ {x y : Ieee φ} {p q : ℝ} (i : Fin 3), Nr x p ε → Nr y q ε → p - q = 2 * Real.sin θ * a i →
      Nr (x - y) (2 * Real.sin θ * a i) (2 * ε + 21 / 10 * d) := fun i hx hy h => by
    have := hx.sub hφ hy (M := 21 / 10) (by rw [h]; linarith [hb i]) (by norm_num) (by norm_num)
    rw [h] at this
    exact this.mono (by linarith)
  fin_cases i
  · exact sub 0 (ent 2 1) (ent 1 2) (by simp; ring)
  · exact sub 1 (ent 0 2) (ent 2 0) (by simp; ring)
  · exact sub 2 (ent 1 0) (ent 0 1) (by simp; ring)

omit hd in
theorem axisVec_dist : ‖exactVec (axisVec R.matrix) - (2 * Real.sin θ) • a‖ ≤ 4 * (ε + d) := by
  have hd0 : 0 ≤ d := unit_nonneg.trans hwd
  have hε0 : 0 ≤ ε := (abs_nonneg _).trans (hM 0 0).2
  refine dist_le3 (e := 2 * ε + 21 / 10 * d) (fun i => ?_) (by linarith) (by nlinarith)
  exact (axisVec_near hφ hwd ha hA hM hε i).2

variable (hR : Roomy φ) [Lib φ] {t : Ieee φ} (ht : t.Finite) (ht1 : φ.u ≤ t.val)

include hR ht ht1 in
/-- **The axis.**  It is there unless the sine of the angle is below the threshold, and its error grows with the inverse of
the sine. -/
theorem C96_axis (hs0 : 0 < Real.sin θ) (hs : 100 * (ε + d) ≤ Real.sin θ) (ht2 : t.val ≤ Real.sin θ) :
    ∃ u, R.axis3 t = some u ∧ VecWithin u.value a ((4 * ε + 13 * d) / Real.sin θ) := by
  have hw0 : 0 ≤ unit φ := unit_nonneg
  have hd0 : 0 ≤ d := hw0.trans hwd
  have hε0 : 0 ≤ ε := (abs_nonneg _).trans (hM 0 0).2
  have hu0 := φ.u_nonneg
  have htn := φ.tiny_nonneg
  have huw : φ.u ≤ d := by have : φ.u ≤ unit φ := by unfold Spec.unit; linarith
                           linarith
  have h1 := axisVec_near hφ hwd ha hA hM hε
  have h2 := axisVec_dist hφ hwd ha hA hM hε
  have s1 := Real.sin_le_one θ
  obtain ⟨s, hsd⟩ : ∃ s, s = Real.sin θ := ⟨_, rfl⟩
  rw [← hsd] at h2 h1 hs0 hs ht2 s1 ⊢
  have hX : ‖(2 * s) • a‖ = 2 * s := by rw [norm_smul, ha, Real.norm_eq_abs, abs_of_pos (by linarith), mul_one]
  have hl : |Spec.length (axisVec R.matrix) - 2 * s| ≤ 4 * (ε + d) := by
    rw [length_exactVec, ← hX]
    exact (abs_norm_sub_norm_le _ _).trans h2
  have hl' := abs_le.mp hl
  have hfin : ∀ i, ((axisVec R.matrix).data i).Finite := fun i => (h1 i).1
  have hth := (threshold hφ hR hfin (by linarith) ht ht1 (by linarith)).2.2.2 (by linarith) (by linarith)
  refine ⟨⟨(axisVec R.matrix).normalize⟩, ?_, fun i => ?_⟩
  · rw [axis3_eq, tryFromValue_eq, if_pos hth]
  · obtain ⟨g1, g2⟩ := axis_near hφ hR hfin (by linarith) (by linarith) i
    refine ⟨g1.1, ?_⟩
    have g3 := direction_near (x := exactVec (axisVec R.matrix)) (X := (2 * s) • a) (by rw [← length_exactVec]; linarith) (by rw [hX]; linarith) i
    rw [hX, PiLp.smul_apply, smul_eq_mul, mul_div_cancel_left₀ _ (by linarith : 2 * s ≠ 0)] at g3
    have g4 : 2 * ‖exactVec (axisVec R.matrix) - (2 * s) • a‖ / (2 * s) ≤ 4 * (ε + d) / s := by
      rw [mul_div_mul_left _ _ two_ne_zero]
      exact (div_le_div_iff_of_pos_right hs0).mpr h2
    have g5 : d ≤ d / s := le_div_self hd0 hs0 s1
    have g6 := abs_le.mp (g3.trans g4)
    have g7 := abs_le.mp g1.2
    rw [show (4 * ε + 13 * d) / s = 4 * (ε + d) / s + 9 * (d / s) by ring, abs_le]
    constructor <;> linarith

include hR ht ht1 in
/-- There is no axis if the sine of the angle is well below the threshold. -/
theorem C96_no_axis (hs : 2 * |Real.sin θ| + 4 * (ε + d) ≤ 99 / 100 * t.val) (ht2 : t.val ≤ 1) :
    R.axis3 t = none ∧ R.axisAngle3 t = none := by
  have h1 := axisVec_near hφ hwd ha hA hM hε
  have h2 := axisVec_dist hφ hwd ha hA hM hε
  have hX : ‖(2 * Real.sin θ) • a‖ = 2 * |Real.sin θ| := by
    rw [norm_smul, ha, Real.norm_eq_abs, abs_mul, abs_two, mul_one]
  have hl : |Spec.length (axisVec R.matrix) - 2 * (|Real.sin θ|)| ≤ 4 * (ε + d) := by
    rw [length_exactVec, ← hX]
    exact (abs_norm_sub_norm_le _ _).trans h2
  have hl' := abs_le.mp hl
  have hfin : ∀ i, ((axisVec R.matrix).data i).Finite := fun i => (h1 i).1
  have hth := (threshold hφ hR hfin (by linarith) ht ht1 ht2).2.1 (by linarith)
  have : R.axis3 t = none := by rw [axis3_eq, tryFromValue_eq, if_neg hth]
  exact ⟨this, by rw [Rotation.axisAngle3, this]; rfl⟩

variable {e : ℝ} (he : CosineWithin φ e) (hed : e ≤ d) (hθ0 : 0 ≤ θ) (hθp : θ ≤ Real.pi) (hs0 : 0 < Real.sin θ)
  (hs : 1000 * (ε + d) ≤ Real.sin θ ^ 2)

include he hed hθ0 hθp hs0 hs in
/-- **The angle.**  Its error grows with the inverse of the sine. -/
theorem C96_angle : R.angle3.val.Finite ∧ |R.angle3.val.val - θ| ≤ (5 * ε + 16 * d) / Real.sin θ ∧ |R.angle3.val.val| ≤ 4 := by
  have hw0 : 0 ≤ unit φ := unit_nonneg
  have hd0 : 0 ≤ d := hw0.trans hwd
  have hε0 : 0 ≤ ε := (abs_nonneg _).trans (hM 0 0).2
  have na := normsq3 a
  rw [ha] at na
  have ent : ∀ r s, Nr (R.matrix.data s r) (A r s) ε := fun r s => hM s r
  rw [turns_entries hA, rodrigues] at ent
  have c1 := Real.neg_one_le_cos θ
  have c2 := Real.cos_le_one θ
  have hsc := Real.sin_sq_add_cos_sq θ
  have p0 : Nr (R.matrix.data 0 0) ((1 - Real.cos θ) * a 0 * a 0 + Real.cos θ) ε := ent 0 0
  have p1 : Nr (R.matrix.data 1 1) ((1 - Real.cos θ) * a 1 * a 1 + Real.cos θ) ε := ent 1 1
  have p2 : Nr (R.matrix.data 2 2) ((1 - Real.cos θ) * a 2 * a 2 + Real.cos θ) ε := ent 2 2
  have q : ∀ i, 0 ≤ (1 - Real.cos θ) * a i * a i ∧ (1 - Real.cos θ) * a i * a i ≤ 1 - Real.cos θ := fun i => by
    have h := abs_le.mp (unit_comp ha i)
    have h2 : a i ^ 2 ≤ 1 := by nlinarith
    constructor
    · rw [mul_assoc]; exact mul_nonneg (by linarith) (mul_self_nonneg _)
    · rw [mul_assoc, ← sq]; nlinarith
  have t1 := p0.add hφ p1 (M := 21 / 10) (by
    have : |(1 - Real.cos θ) * a 0 * a 0 + Real.cos θ + ((1 - Real.cos θ) * a 1 * a 1 + Real.cos θ)| ≤ 2 := by
      rw [abs_le]; constructor <;> linarith [q 0, q 1]
    linarith) (by norm_num) (by norm_num)
  have t2 := t1.add hφ p2 (M := 31 / 10) (by
    have : |(1 - Real.cos θ) * a 0 * a 0 + Real.cos θ + ((1 - Real.cos θ) * a 1 * a 1 + Real.cos θ) +
        ((1 - Real.cos θ) * a 2 * a 2 + Real.cos θ)| ≤ 3 := by
      rw [abs_le]; constructor <;> linarith [q 0, q 1, q 2]
    linarith) (by norm_num) (by norm_num)
  rw [show (1 - Real.cos θ) * a 0 * a 0 + Real.cos θ + ((1 - Real.cos θ) * a 1 * a 1 + Real.cos θ) +
    ((1 - Real.cos θ) * a 2 * a 2 + Real.cos θ) = 1 + 2 * Real.cos θ by linear_combination -(1 - Real.cos θ) * na] at t2
  have hb : |1 + 2 * Real.cos θ - 1| ≤ 2 := by rw [abs_le]; constructor <;> linarith
  have t3 := t2.sub hφ Nr.one (M := 21 / 10) (by linarith) (by norm_num) (by norm_num)
  have t4 := t3.div hφ (natCast_two_nr hφ) (lo := 2) (A := 2) (M := 11 / 10) (by norm_num) (by norm_num) hb (by linarith)
    (by norm_num) (by norm_num)
  rw [show (1 + 2 * Real.cos θ - 1) / 2 = Real.cos θ by ring] at t4
  replace t4 := t4.mono (f := 3 / 2 * ε + 475 / 100 * d) (by linarith)
  have hca : |Real.cos θ| ≤ 1 - Real.sin θ ^ 2 / 2 := by
    refine abs_le_of_sq_le_sq ?_ (by nlinarith)
    nlinarith [sq_nonneg (Real.sin θ ^ 2)]
  have hv := (t4.val_le hca).trans (show _ ≤ (1 : ℝ) by linarith)
  obtain ⟨f1, f2⟩ := he.acos _ t4.1 hv
  have near := arccos_near hθ0 hθp hs0 t4.2 hv
  have g5 : d ≤ d / Real.sin θ := le_div_self hd0 hs0 (Real.sin_le_one θ)
  have hε' : 0 ≤ ε / Real.sin θ := by positivity
  have hd' : 0 ≤ d / Real.sin θ := by positivity
  have eq : (R.angle3 : Radians (Ieee φ)).val = facos ((R.matrix.data 0 0 + R.matrix.data 1 1 + R.matrix.data 2 2 - 1) / ((2 : ℕ) : Ieee φ)) := rfl
  rw [eq]
  refine ⟨f1, ?_, ?_⟩
  · rw [show 315 / 100 * (3 / 2 * ε + 475 / 100 * d) / Real.sin θ =
      315 / 100 * (3 / 2) * (ε / Real.sin θ) + 315 / 100 * (475 / 100) * (d / Real.sin θ) by ring] at near
    rw [show (5 * ε + 16 * d) / Real.sin θ = 5 * (ε / Real.sin θ) + 16 * (d / Real.sin θ) by ring]
    have := abs_le.mp near
    have := abs_le.mp f2
    rw [abs_le]; constructor <;> linarith
  · have h1 := Real.arccos_nonneg ((R.matrix.data 0 0 + R.matrix.data 1 1 + R.matrix.data 2 2 - 1) / ((2 : ℕ) : Ieee φ)).val
    have h2 := Real.arccos_le_pi ((R.matrix.data 0 0 + R.matrix.data 1 1 + R.matrix.data 2 2 - 1) / ((2 : ℕ) : Ieee φ)).val
    have h3 := Real.pi_lt_d2
    have := abs_le.mp f2
    rw [abs_le]; constructor <;> linarith

include hR ht ht1 he hed hθ0 hθp hs0 hs in
/-- **The rotation is rebuilt** from its axis and angle, with an error that grows with the inverse of the sine. -/
theorem C96_rebuild (ht2 : t.val ≤ Real.sin θ) :
    ∃ u angle, R.axisAngle3 t = some (u, angle) ∧ MatWithin (Rotation.fromAxisAngle u angle).matrix A (270 * (ε + d) / Real.sin θ) := by
  have hw0 : 0 ≤ unit φ := unit_nonneg
  have hd0 : 0 ≤ d := hw0.trans hwd
  have hε0 : 0 ≤ ε := (abs_nonneg _).trans (hM 0 0).2
  have s1 := Real.sin_le_one θ
  have hss : Real.sin θ ^ 2 ≤ Real.sin θ := by nlinarith
  obtain ⟨u, hu1, hu2⟩ := C96_axis hφ hd hwd ha hA hM hε hR ht ht1 hs0 (by linarith) ht2
  obtain ⟨f1, f2, f3⟩ := C96_angle hφ hd hwd ha hA hM hε he hed hθ0 hθp hs0 hs
  refine ⟨u, R.angle3, by rw [Rotation.axisAngle3, hu1]; rfl, ?_⟩
  obtain ⟨r, hr⟩ : ∃ r, r = (ε + d) / Real.sin θ := ⟨_, rfl⟩
  have hr0 : 0 ≤ r := by rw [hr]; positivity
  have hdr : d ≤ r := by rw [hr, le_div_iff₀ hs0]; nlinarith
  have hr1 : 13 * r ≤ 1 / 1000 := by
    have e : r * Real.sin θ = ε + d := by rw [hr]; field_simp
    by_contra h
    push Not at h
    have h3 : 1000 * r ≤ Real.sin θ := by
      rw [← e] at hs
      by_contra h'
      push Not at h'
      nlinarith
    have : 13 * r * (1000 * r) ≤ 13 * (ε + d) := by rw [← e]; nlinarith
    nlinarith
  have hu3 : VecWithin u.value a (13 * r) := fun i => ⟨(hu2 i).1, (hu2 i).2.trans (by
    rw [hr, ← mul_div_assoc]
    exact (div_le_div_iff_of_pos_right hs0).mpr (by linarith))⟩
  have hsc : SinCosWithin φ e 4 := fun x hx hx4 => ⟨he.sin x hx hx4, he.cos x hx hx4⟩
  have key := axis_angle_near hφ hr1 (by linarith) hsc (by linarith : e ≤ 13 * r) ha hu3 f1 f3 turns_of_entries
  have hΔ : |R.angle3.val.val - θ| ≤ 16 * r := f2.trans (by
    rw [hr, ← mul_div_assoc]
    exact (div_le_div_iff_of_pos_right hs0).mpr (by linarith))
  have ds := (Real.abs_sin_sub_sin_le R.angle3.val.val θ).trans hΔ
  have dc := (Real.abs_cos_sub_cos_le R.angle3.val.val θ).trans hΔ
  obtain ⟨p, hp⟩ : ∃ p, p = R.angle3.val.val := ⟨_, rfl⟩
  rw [← hp] at key ds dc
  have a1 := unit_comp ha
  have off : ∀ i j k, |((1 - Real.cos p) * a i * a j + Real.sin p * a k) - ((1 - Real.cos θ) * a i * a j + Real.sin θ * a k)| ≤ 32 * r ∧
      |((1 - Real.cos p) * a i * a j - Real.sin p * a k) - ((1 - Real.cos θ) * a i * a j - Real.sin θ * a k)| ≤ 32 * r := fun i j k => by
    have m1 : |(Real.cos p - Real.cos θ) * (a i * a j)| ≤ 16 * r := by
      rw [abs_mul]
      have : |a i * a j| ≤ 1 := by rw [abs_mul]; exact mul_le_one₀ (a1 i) (abs_nonneg _) (a1 j)
      have := mul_le_mul dc this (abs_nonneg _) (by linarith)
      linarith
    have m2 : |(Real.sin p - Real.sin θ) * a k| ≤ 16 * r := by
      rw [abs_mul]
      have := mul_le_mul ds (a1 k) (abs_nonneg _) (by linarith)
      linarith
    have m1' := abs_le.mp m1
    have m2' := abs_le.mp m2
    constructor <;> (rw [abs_le]; constructor <;> linarith)
  have dia : ∀ i, |((1 - Real.cos p) * a i * a i + Real.cos p) - ((1 - Real.cos θ) * a i * a i + Real.cos θ)| ≤ 32 * r := fun i => by
    have h1 := abs_le.mp (a1 i)
    have h2 : |1 - a i * a i| ≤ 1 := by rw [abs_le]; constructor <;> nlinarith
    rw [show ((1 - Real.cos p) * a i * a i + Real.cos p) - ((1 - Real.cos θ) * a i * a i + Real.cos θ) =
      (Real.cos p - Real.cos θ) * (1 - a i * a i) by ring, abs_mul]
    have := mul_le_mul dc h2 (abs_nonneg _) (by linarith)
    linarith
  have hAA : ∀ r' c', |rodrigues a p r' c' - A r' c'| ≤ 32 * r := by
    rw [turns_entries hA]
    intro r' c'
    fin_cases r' <;> fin_cases c'
    · exact dia 0
    · exact (off 0 1 2).2
    · exact (off 0 2 1).1
    · exact (off 0 1 2).1
    · exact dia 1
    · exact (off 1 2 0).2
    · exact (off 0 2 1).2
    · exact (off 1 2 0).1
    · exact dia 2
  intro c' r'
  refine ⟨(key c' r').1, ?_⟩
  have k1 := abs_le.mp (key c' r').2
  have k2 := abs_le.mp (hAA r' c')
  change |((Mat.fromAxisAngle3 u R.angle3).data c' r').val - A r' c'| ≤ _
  rw [mul_div_assoc, ← hr, abs_le]
  constructor <;> linarith

end

/-- There is no axis if the matrix is symmetric, as it is for the identity and for half turns without rounding errors. -/
theorem C96_symmetric (hφ : Fine φ) (hR : Roomy φ) [Lib φ] {R : Rotation (Ieee φ) 3} (hf : ∀ c r, (R.matrix.data c r).Finite)
    (hsym : ∀ c r, (R.matrix.data c r).val = (R.matrix.data r c).val) {t : Ieee φ} (ht : t.Finite) (ht1 : φ.u ≤ t.val)
    (ht2 : t.val ≤ 1) : R.axis3 t = none ∧ R.axisAngle3 t = none := by
  have z : ∀ c r, (R.matrix.data c r - R.matrix.data r c).Finite ∧ (R.matrix.data c r - R.matrix.data r c).val = 0 := fun c r => by
    have h0 : φ.fl ((R.matrix.data c r).val - (R.matrix.data r c).val) = 0 := by rw [hsym c r, sub_self, φ.zero]
    have hfin : (R.matrix.data c r - R.matrix.data r c).Finite := by
      change (R.matrix.data c r + -R.matrix.data r c).Finite
      refine finite_add_of (hf c r) (Nr.exact (hf r c)).neg.1 ?_
      rw [val_neg, ← sub_eq_add_neg, h0, abs_zero]
      linarith [hφ.big]
    exact ⟨hfin, by rw [val_sub hfin, h0]⟩
  have h : ∀ i, ((axisVec R.matrix).data i).Finite ∧ ((axisVec R.matrix).data i).val = 0 := fun i => by
    fin_cases i
    · exact z 1 2
    · exact z 2 0
    · exact z 0 1
  have hl : Spec.length (axisVec R.matrix) = 0 := by
    rw [Spec.length]
    simp [fun i => (h i).2]
  have hth := (threshold hφ hR (fun i => (h i).1) (by linarith) ht ht1 ht2).2.1 (by rw [hl]; linarith [φ.u_nonneg])
  have : R.axis3 t = none := by rw [axis3_eq, tryFromValue_eq, if_neg hth]
  exact ⟨this, by rw [Rotation.axisAngle3, this]; rfl⟩

/-- In `f64`, for matrices accurate to `2^-45` and a library accurate to a few units, with the threshold of the code. -/
theorem C96_f64 [Lib f64] {e : ℝ} (he : CosineWithin f64 e) (hed : e ≤ 2 ^ (-49 : ℤ)) {R : Rotation (Ieee f64) 3}
    {A : Matrix (Fin 3) (Fin 3) ℝ} {a : EuclideanSpace ℝ (Fin 3)} {θ : ℝ} (ha : ‖a‖ = 1) (hA : Turns a θ A)
    (hM : MatWithin R.matrix A (2 ^ (-45 : ℤ))) (hθ0 : 0 ≤ θ) (hθp : θ ≤ Real.pi) (hs : 2 ^ (-17 : ℤ) ≤ Real.sin θ)
    {t : Ieee f64} (ht : t.Finite) (ht1 : t.val = 2 ^ (-52 : ℤ)) :
    ∃ u angle, R.axisAngle3 t = some (u, angle) ∧ VecWithin u.value a (2 ^ (-42 : ℤ) / Real.sin θ) ∧
      angle.val.Finite ∧ |angle.val.val - θ| ≤ 2 ^ (-42 : ℤ) / Real.sin θ ∧
      MatWithin (Rotation.fromAxisAngle u angle).matrix A (2 ^ (-36 : ℤ) / Real.sin θ) := by
  have hw : unit f64 ≤ 2 ^ (-49 : ℤ) := by
    refine unit64.trans ?_
    have h : (2 : ℝ) ^ (-1075 : ℤ) ≤ 2 ^ (-53 : ℤ) := zpow_le_zpow_right₀ one_le_two (by norm_num)
    norm_num at h ⊢
    linarith
  have hu : f64.u = 2 ^ (-53 : ℤ) := rfl
  have hs0 : 0 < Real.sin θ := lt_of_lt_of_le (by positivity) hs
  have hs2 : 1000 * ((2 : ℝ) ^ (-45 : ℤ) + 2 ^ (-49 : ℤ)) ≤ Real.sin θ ^ 2 := by
    refine le_trans ?_ (pow_le_pow_left₀ (by positivity) hs 2)
    norm_num
  have hd : (2 : ℝ) ^ (-49 : ℤ) ≤ 1 / 1000000 := by norm_num
  have hε : (2 : ℝ) ^ (-45 : ℤ) ≤ 1 / 1000000 := by norm_num
  have ht3 : f64.u ≤ t.val := by rw [ht1, hu]; norm_num
  have ht2 : t.val ≤ Real.sin θ := by rw [ht1]; exact le_trans (by norm_num) hs
  obtain ⟨u, h1, h2⟩ := C96_axis fine64 hd hw ha hA hM hε roomy64 ht ht3 hs0 (le_trans (by norm_num) hs) ht2
  obtain ⟨g1, g2, -⟩ := C96_angle fine64 hd hw ha hA hM hε he hed hθ0 hθp hs0 hs2
  obtain ⟨u', an, k1, k2⟩ := C96_rebuild fine64 hd hw ha hA hM hε roomy64 ht ht3 he hed hθ0 hθp hs0 hs2 ht2
  rw [Rotation.axisAngle3, h1, Option.map_some, Option.some.injEq, Prod.mk.injEq] at k1
  obtain ⟨rfl, rfl⟩ := k1
  refine ⟨u, R.angle3, by rw [Rotation.axisAngle3, h1]; rfl, fun i => ⟨(h2 i).1, (h2 i).2.trans ?_⟩, g1, g2.trans ?_,
    fun c r => ⟨(k2 c r).1, (k2 c r).2.trans ?_⟩⟩ <;> exact (div_le_div_iff_of_pos_right hs0).mpr (by norm_num)

/-- In `f32`, for matrices accurate to `2^-20`. -/
theorem C96_f32 [Lib f32] {e : ℝ} (he : CosineWithin f32 e) (hed : e ≤ 2 ^ (-21 : ℤ)) {R : Rotation (Ieee f32) 3}
    {A : Matrix (Fin 3) (Fin 3) ℝ} {a : EuclideanSpace ℝ (Fin 3)} {θ : ℝ} (ha : ‖a‖ = 1) (hA : Turns a θ A)
    (hM : MatWithin R.matrix A (2 ^ (-20 : ℤ))) (hθ0 : 0 ≤ θ) (hθp : θ ≤ Real.pi) (hs : 2 ^ (-4 : ℤ) ≤ Real.sin θ)
    {t : Ieee f32} (ht : t.Finite) (ht1 : t.val = 2 ^ (-23 : ℤ)) :
    ∃ u angle, R.axisAngle3 t = some (u, angle) ∧ VecWithin u.value a (2 ^ (-16 : ℤ) / Real.sin θ) ∧
      angle.val.Finite ∧ |angle.val.val - θ| ≤ 2 ^ (-16 : ℤ) / Real.sin θ ∧
      MatWithin (Rotation.fromAxisAngle u angle).matrix A (2 ^ (-11 : ℤ) / Real.sin θ) := by
  have hw : unit f32 ≤ 2 ^ (-21 : ℤ) := (show unit f32 ≤ 2 ^ (-24 : ℤ) + 2 ^ (-150 : ℤ) from le_rfl).trans (by norm_num)
  have hu : f32.u = 2 ^ (-24 : ℤ) := rfl
  have hs0 : 0 < Real.sin θ := lt_of_lt_of_le (by positivity) hs
  have hs2 : 1000 * ((2 : ℝ) ^ (-20 : ℤ) + 2 ^ (-21 : ℤ)) ≤ Real.sin θ ^ 2 := by
    refine le_trans ?_ (pow_le_pow_left₀ (by positivity) hs 2)
    norm_num
  have hd : (2 : ℝ) ^ (-21 : ℤ) ≤ 1 / 1000000 := by norm_num
  have hε : (2 : ℝ) ^ (-20 : ℤ) ≤ 1 / 1000000 := by norm_num
  have ht3 : f32.u ≤ t.val := by rw [ht1, hu]; norm_num
  have ht2 : t.val ≤ Real.sin θ := by rw [ht1]; exact le_trans (by norm_num) hs
  obtain ⟨u, h1, h2⟩ := C96_axis fine32 hd hw ha hA hM hε roomy32 ht ht3 hs0 (le_trans (by norm_num) hs) ht2
  obtain ⟨g1, g2, -⟩ := C96_angle fine32 hd hw ha hA hM hε he hed hθ0 hθp hs0 hs2
  obtain ⟨u', an, k1, k2⟩ := C96_rebuild fine32 hd hw ha hA hM hε roomy32 ht ht3 he hed hθ0 hθp hs0 hs2 ht2
  rw [Rotation.axisAngle3, h1, Option.map_some, Option.some.injEq, Prod.mk.injEq] at k1
  obtain ⟨rfl, rfl⟩ := k1
  refine ⟨u, R.angle3, by rw [Rotation.axisAngle3, h1]; rfl, fun i => ⟨(h2 i).1, (h2 i).2.trans ?_⟩, g1, g2.trans ?_,
    fun c r => ⟨(k2 c r).1, (k2 c r).2.trans ?_⟩⟩ <;> exact (div_le_div_iff_of_pos_right hs0).mpr (by norm_num)

/-! ### small angles -/

/-- **No bound holds for all angles.**  With any accurate library, the rotation by the angle `2^-28` about the third axis,
given correctly rounded, has an axis, but the rotation about that axis by the angle that is found is off by more than
`2^-29`: half of the rotation or more is lost. -/
theorem C96_small_angle_fails [Lib f64] {e : ℝ} (he : CosineWithin f64 e) (hed : e ≤ 2 ^ (-49 : ℤ)) {t : Ieee f64}
    (ht : t.Finite) (ht1 : t.val = 2 ^ (-52 : ℤ)) :
    ∃ (R : Rotation (Ieee f64) 3) (A : Matrix (Fin 3) (Fin 3) ℝ), Turns (coordAxis 2) (2 ^ (-28 : ℤ)) A ∧
      MatWithin R.matrix A (2 ^ (-53 : ℤ)) ∧
      ∃ u angle, R.axisAngle3 t = some (u, angle) ∧ ¬ MatWithin (Rotation.fromAxisAngle u angle).matrix A (2 ^ (-29 : ℤ)) := by
  have hw : 9 * unit f64 ≤ 2 ^ (-49 : ℤ) := by
    have := unit64
    have h : (2 : ℝ) ^ (-1075 : ℤ) ≤ 2 ^ (-60 : ℤ) := zpow_le_zpow_right₀ one_le_two (by norm_num)
    norm_num at this h ⊢
    linarith
  have hu : f64.u = 2 ^ (-53 : ℤ) := rfl
  have hw0 : 0 ≤ unit f64 := unit_nonneg
  have hs : Is (num (2 ^ (-28 : ℤ))) (2 ^ (-28 : ℤ)) := is_num' (fl64_two_zpow (by norm_num)) (by norm_num)
  obtain ⟨s, hsd⟩ : ∃ s : Ieee f64, s = num (2 ^ (-28 : ℤ)) := ⟨_, rfl⟩
  rw [← hsd] at hs
  obtain ⟨θ, hθ⟩ : ∃ θ : ℝ, θ = 2 ^ (-28 : ℤ) := ⟨_, rfl⟩
  have hθ' : θ = 1 / 268435456 := by rw [hθ]; norm_num
  have c1 := Real.one_sub_sq_div_two_le_cos (x := θ)
  have c2 := Real.cos_le_one θ
  have s1 := Real.sin_lt (show 0 < θ by rw [hθ']; norm_num)
  have s2 := Real.sin_gt_sub_cube (x := θ) (by rw [hθ']; norm_num)
  rw [← hθ] at hs
  refine ⟨⟨Mat.new3x3 1 s 0 (-s) 1 0 0 0 1⟩, rodrigues (coordAxis 2) θ, hθ ▸ turns_of_entries, ?_, ?_⟩
  · rw [turns_z turns_of_entries]
    have hp : (0 : ℝ) ≤ 2 ^ (-53 : ℤ) := by positivity
    have h0 : Nr (0 : Ieee f64) 0 (2 ^ (-53 : ℤ)) := Nr.zero.mono hp
    have h1 : Nr (1 : Ieee f64) 1 (2 ^ (-53 : ℤ)) := Nr.one.mono hp
    have hc : Nr (1 : Ieee f64) (Real.cos θ) (2 ^ (-53 : ℤ)) := ⟨finite_one, by
      rw [val_one, abs_le]; rw [hθ'] at c1 c2 ⊢; constructor <;> (norm_num at c1 ⊢; linarith)⟩
    have hS : Nr s (Real.sin θ) (2 ^ (-53 : ℤ)) := ⟨hs.1, by
      rw [hs.2, abs_le]; rw [hθ'] at s1 s2 ⊢; constructor <;> (norm_num at s1 s2 ⊢; linarith)⟩
    intro c r
    fin_cases c <;> fin_cases r <;> first | exact h0 | exact h1 | exact hc | exact hS | exact hS.neg
  · have two_s : Is (s - -s) (2 ^ (-27 : ℤ)) := by
      refine hs.sub hs.neg ?_ (by norm_num)
      rw [show θ - -θ = 2 ^ (-27 : ℤ) by rw [hθ']; norm_num]
      exact fl64_two_zpow (by norm_num)
    have zz : Is ((0 : Ieee f64) - 0) 0 := Is.zero.sub Is.zero (by rw [sub_self, f64.zero]) (by norm_num)
    obtain ⟨M, hM⟩ : ∃ M : Mat (Ieee f64) 3 3, M = Mat.new3x3 1 s 0 (-s) 1 0 0 0 1 := ⟨_, rfl⟩
    have x0 : Is ((axisVec M).data 0) 0 := by rw [hM]; exact zz
    have x1 : Is ((axisVec M).data 1) 0 := by rw [hM]; exact zz
    have x2 : Is ((axisVec M).data 2) (2 ^ (-27 : ℤ)) := by rw [hM]; exact two_s
    have hfin : ∀ i, ((axisVec M).data i).Finite := fun i => by fin_cases i; exacts [x0.1, x1.1, x2.1]
    have hX : exactVec (axisVec M) = (2 ^ (-27 : ℤ) : ℝ) • coordAxis 2 := by
      ext i
      have h : exactVec (axisVec M) i = ((axisVec M).data i).val := rfl
      rw [h]
      fin_cases i
      · simp [x0.2, coordAxis]
      · simp [x1.2, coordAxis]
      · simp [x2.2, coordAxis]
    have hn : ‖exactVec (axisVec M)‖ = 2 ^ (-27 : ℤ) := by
      rw [hX, norm_smul, coordAxis_norm, mul_one, Real.norm_eq_abs, abs_of_pos (by positivity)]
    have hl : Spec.length (axisVec M) = 2 ^ (-27 : ℤ) := by rw [length_exactVec, hn]
    have hth := (threshold fine64 roomy64 hfin (by rw [hl]; norm_num) ht (by rw [ht1, hu]; norm_num) (by rw [ht1]; norm_num)).2.2.2
      (by rw [hl, hu]; norm_num) (by rw [hl, ht1]; norm_num)
    have hax : VecWithin (axisVec M).normalize (coordAxis 2) (2 ^ (-49 : ℤ)) := fun i => by
      have g := (axis_near fine64 roomy64 hfin (by rw [hl, hu]; norm_num) (by rw [hl]; norm_num) i).1
      rw [hn, hX, PiLp.smul_apply, smul_eq_mul, mul_div_cancel_left₀ _ (by positivity)] at g
      exact g.mono hw
    refine ⟨⟨(axisVec M).normalize⟩, (⟨M⟩ : Rotation (Ieee f64) 3).angle3, ?_, ?_⟩
    · rw [← hM, Rotation.axisAngle3, axis3_eq, tryFromValue_eq, if_pos hth]; rfl
    have ha : Is (((1 : Ieee f64) + 1 + 1 - 1) / ((2 : ℕ) : Ieee f64)) 1 := by
      have h2 : Is ((1 : Ieee f64) + 1) 2 := Is.one.add Is.one (fl64 1 4503599627370496) (by norm_num)
      have h3 : Is ((1 : Ieee f64) + 1 + 1) 3 := h2.add Is.one (fl64 1 6755399441055744) (by norm_num)
      have h4 : Is ((1 : Ieee f64) + 1 + 1 - 1) 2 := h3.sub Is.one (fl64 1 4503599627370496) (by norm_num)
      have n2 := natCast_two_nr fine64
      have htwo : Is (((2 : ℕ) : Ieee f64)) 2 := ⟨n2.1, by
        have := n2.2
        rw [abs_nonpos_iff] at this
        linarith⟩
      exact h4.div htwo (by norm_num) (fl64 0 4503599627370496) (by norm_num)
    have hang : (⟨M⟩ : Rotation (Ieee f64) 3).angle3.val = facos (((1 : Ieee f64) + 1 + 1 - 1) / ((2 : ℕ) : Ieee f64)) := by
      rw [hM]; rfl
    obtain ⟨f1, f2⟩ := he.acos _ ha.1 (by rw [ha.2, abs_one])
    rw [ha.2, Real.arccos_one, sub_zero] at f2
    rw [← hang] at f1 f2
    obtain ⟨p, hp⟩ : ∃ p, p = (⟨M⟩ : Rotation (Ieee f64) 3).angle3 := ⟨_, rfl⟩
    rw [← hp] at f1 f2 ⊢
    have hsc : SinCosWithin f64 e 4 := fun x hx hx4 => ⟨he.sin x hx hx4, he.cos x hx hx4⟩
    have key := C94_axis_angle (d := 2 ^ (-49 : ℤ)) fine64 (by norm_num) (by linarith) hsc hed (coordAxis_norm 2)
      (axis := ⟨(axisVec M).normalize⟩) hax f1 (f2.trans (by norm_num at hed ⊢; linarith)) turns_of_entries 0 1
    intro hcon
    have k1 := hcon 0 1
    rw [turns_z turns_of_entries] at key k1
    have k2 := abs_le.mp key.2
    have k3 := abs_le.mp k1.2
    have k4 : |Real.sin p.val.val| ≤ 2 ^ (-49 : ℤ) := (Real.abs_sin_le_abs).trans (f2.trans hed)
    have k5 := abs_le.mp k4
    have k6 : ((Rotation.fromAxisAngle ⟨(axisVec M).normalize⟩ p).matrix.data 0 1).val =
      ((Mat.fromAxisAngle3 ⟨(axisVec M).normalize⟩ p).data 0 1).val := rfl
    simp at k2 k3
    rw [k6] at k3
    rw [hθ'] at s2 k3
    norm_num at k2 k3 k5 s2
    linarith [k2.2, k3.1, k5.2]

/-- accurate libraries exist -/
example : ∃ _ : Lib f64, CosineWithin f64 (2 ^ (-50 : ℤ)) := ⟨(Library64.correctlyRounded).toLib, cosineWithin_correctlyRounded⟩

/-- a quarter turn is far from the half turns -/
example : ∃ (R : Rotation (Ieee f64) 3) (A : Matrix (Fin 3) (Fin 3) ℝ) (a : EuclideanSpace ℝ (Fin 3)), ‖a‖ = 1 ∧
    Turns a (Real.pi / 2) A ∧ MatWithin R.matrix A (2 ^ (-45 : ℤ)) ∧ (2 : ℝ) ^ (-17 : ℤ) ≤ Real.sin (Real.pi / 2) := by
  have hp : (0 : ℝ) ≤ 2 ^ (-45 : ℤ) := by positivity
  have h1 : Nr (1 : Ieee f64) 1 (2 ^ (-45 : ℤ)) := Nr.one.mono hp
  have h0 : Nr (0 : Ieee f64) 0 (2 ^ (-45 : ℤ)) := Nr.zero.mono hp
  refine ⟨⟨Mat.new3x3 0 1 0 (-1) 0 0 0 0 1⟩, _, coordAxis 2, coordAxis_norm 2, turns_of_entries, ?_, by rw [Real.sin_pi_div_two]; norm_num⟩
  rw [turns_z turns_of_entries, Real.sin_pi_div_two, Real.cos_pi_div_two]
  intro c r
  fin_cases c <;> fin_cases r <;> first | exact h1 | exact h0 | exact h1.neg

end Cgl
