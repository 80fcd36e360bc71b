import Verif.Props.C80_AngleRounding

/-! # C80 - angles with infinities, NaN and signed zeros -/

namespace Cgl
open Rounding Ieee

section
variable {φ : Format} {p : ℕ} {qmin : Option ℤ} {hp : 1 ≤ p} {hq : ∀ m ∈ qmin, m ≤ 1 - p}

theorem finite_round_of_finite {s : Bool} {x : ℝ} {B : Ieee φ} (hB : B.Finite) (h : |x| ≤ |B.val|) :
    (Ieee.round s x : Ieee φ).Finite := by
  obtain ⟨t, m, hm, rfl⟩ := hB
  have hb : |(fin t m hm : Ieee φ).val| = m := by
    cases t <;> simp [val, signed, abs_of_nonneg hm.1]
  rw [hb] at h
  have : φ.fl |x| ≤ φ.big := by
    have := φ.mono _ _ h
    rw [hm.2.2] at this
    exact this.trans hm.2.1
  unfold Ieee.round
  simp only [this, dif_pos]
  exact finite_fin _ _ _

theorem lt_zero_iff {x : Ieee φ} (hx : x.Finite) : x < 0 ↔ x.val < 0 := by
  obtain ⟨s, m, h, rfl⟩ := hx
  constructor
  · rintro ⟨a, b, ha, hb, hab⟩
    have ha' : a = ((signed s m : ℝ) : EReal) := (Option.some.inj ha).symm
    have hb' : b = ((signed false 0 : ℝ) : EReal) := (Option.some.inj hb).symm
    rw [ha', hb', EReal.coe_lt_coe_iff] at hab
    simpa [signed, val] using hab
  · intro h'
    refine ⟨_, _, rfl, rfl, ?_⟩
    rw [EReal.coe_lt_coe_iff]
    simpa [signed, val] using h'

theorem nan_lt_zero : ¬(nan : Ieee φ) < 0 := by rintro ⟨a, b, ha, -⟩; simp [place] at ha

/-- what `normalize` computes for either unit -/
noncomputable def ieeeReduce (x T : Ieee φ) : Ieee φ := if frem x T < 0 then frem x T + T else frem x T

theorem frem_special {x T : Ieee φ} (hx : ¬x.Finite) : frem x T = nan := by
  cases x with
  | nan => cases T <;> rfl
  | inf s => cases T <;> rfl
  | fin s m h => exact absurd (finite_fin _ _ _) hx

theorem ieeeReduce_special {x T : Ieee φ} (hx : ¬x.Finite) : ieeeReduce x T = nan := by
  unfold ieeeReduce; rw [frem_special hx, if_neg nan_lt_zero]

theorem frem_finite (hφ : φ.toRounding = nearestEven p qmin hp hq) {x T : Ieee φ} (hx : x.Finite) (hT : T.Finite)
    (h0 : T.val ≠ 0) : (frem x T).Finite ∧ (frem x T).val = frem x.val T.val := by
  obtain ⟨s, m, hm, rfl⟩ := hx
  obtain ⟨t, k, hk, rfl⟩ := hT
  have hk0 : k ≠ 0 := by rintro rfl; cases t <;> simp [val, signed] at h0
  have e : frem (fin s m hm : Ieee φ) (fin t k hk) = Ieee.round s (frem (signed s m) (signed t k)) := if_neg hk0
  have hf : (Ieee.round s (frem (signed s m) (signed t k)) : Ieee φ).Finite :=
    finite_round_of_finite (finite_fin t k hk) (frem_spec (signed s m) (signed t k) h0).2.1.le
  rw [e]
  refine ⟨hf, ?_⟩
  rw [val_round hf]
  have hfl : φ.fl = flEven p qmin := congrArg Rounding.fl hφ
  have g1 : OnGrid p qmin (signed s m) := grid_of_flEven_eq hp (hfl ▸ val_rep (fin s m hm))
  have g2 : OnGrid p qmin (signed t k) := grid_of_flEven_eq hp (hfl ▸ val_rep (fin t k hk))
  obtain ⟨⟨j, hj⟩, h1, h2, -⟩ := frem_spec (signed s m) (signed t k) h0
  have e' : frem (signed s m) (signed t k) = ((1 : ℤ) : ℝ) * signed s m + ((-j : ℤ) : ℝ) * signed t k := by
    push_cast; linarith
  rw [hfl]
  show flEven p qmin (frem (signed s m) (signed t k)) = frem (signed s m) (signed t k)
  rw [e']
  exact flEven_eq_of_grid (g1.combination g2 _ _ (e' ▸ h2) (e' ▸ h1.le))

theorem ieeeReduce_finite (hφ : φ.toRounding = nearestEven p qmin hp hq) {x T : Ieee φ} (hx : x.Finite) (hT : T.Finite)
    (h0 : 0 < T.val) : (ieeeReduce x T).Finite ∧ (ieeeReduce x T).val = φ.fl (reduce T.val x.val) := by
  obtain ⟨hf, hv⟩ := frem_finite hφ hx hT h0.ne'
  have hlt := (frem_spec x.val T.val h0.ne').2.1
  unfold ieeeReduce reduce
  by_cases h : frem x.val T.val < 0
  · rw [if_pos h, if_pos ((lt_zero_iff hf).mpr (hv ▸ h))]
    have hf' : (frem x T + T).Finite := by
      obtain ⟨s, m, hm, e1⟩ := hf
      obtain ⟨t, k, hk, e2⟩ := id hT
      have hv' : frem x.val T.val = signed s m := by rw [← hv, e1]; rfl
      have hT' : T.val = signed t k := by rw [e2]; rfl
      have e : frem x T + T = Ieee.round (s && t) (frem x.val T.val + T.val) := by rw [e1, hv', hT', e2]; rfl
      rw [e]
      refine finite_round_of_finite hT ?_
      rw [abs_of_pos h0] at hlt ⊢
      have := abs_lt.mp hlt
      rw [abs_of_pos] <;> linarith
    refine ⟨hf', ?_⟩
    rw [val_add hf', hv]
  · rw [if_neg h, if_neg (fun h' => h (hv ▸ (lt_zero_iff hf).mp h'))]
    refine ⟨hf, ?_⟩
    rw [← hv, val_rep]

variable [Lib φ]

theorem Degrees.normalize_ieee (a : Degrees (Ieee φ)) :
    (Angle.normalize a).val = ieeeReduce a.val (Angle.fullTurn : Degrees (Ieee φ)).val := by
  unfold Angle.normalize ieeeReduce
  by_cases h : frem a.val (Angle.fullTurn : Degrees (Ieee φ)).val < 0
  · have h' : a % (Angle.fullTurn : Degrees (Ieee φ)) < Angle.zero := h
    simp only [if_pos h, if_pos h']; rfl
  · have h' : ¬a % (Angle.fullTurn : Degrees (Ieee φ)) < Angle.zero := h
    simp only [if_neg h, if_neg h']; rfl

theorem Radians.normalize_ieee (a : Radians (Ieee φ)) :
    (Angle.normalize a).val = ieeeReduce a.val (Angle.fullTurn : Radians (Ieee φ)).val := by
  unfold Angle.normalize ieeeReduce
  by_cases h : frem a.val (Angle.fullTurn : Radians (Ieee φ)).val < 0
  · have h' : a % (Angle.fullTurn : Radians (Ieee φ)) < Angle.zero := h
    simp only [if_pos h, if_pos h']; rfl
  · have h' : ¬a % (Angle.fullTurn : Radians (Ieee φ)) < Angle.zero := h
    simp only [if_neg h, if_neg h']; rfl

/-- `normalize` of an infinite angle or NaN is NaN, in degrees and radians, whatever the library. -/
theorem C80_ieee_special (a : Degrees (Ieee φ)) (b : Radians (Ieee φ)) :
    (¬a.val.Finite → (Angle.normalize a).val = nan) ∧ (¬b.val.Finite → (Angle.normalize b).val = nan) :=
  ⟨fun h => by rw [Degrees.normalize_ieee, ieeeReduce_special h],
    fun h => by rw [Radians.normalize_ieee, ieeeReduce_special h]⟩

omit [Lib φ] in
theorem natCast_finite (hφ : φ.toRounding = nearestEven p qmin hp hq) (n : ℕ) (hn : φ.fl n = n) (hb : (n : ℝ) ≤ φ.big) :
    ((n : ℕ) : Ieee φ).Finite ∧ ((n : ℕ) : Ieee φ).val = n := by
  have hf : ((n : ℕ) : Ieee φ).Finite := by
    show (Ieee.round false (n : ℝ) : Ieee φ).Finite
    have : φ.fl |(n : ℝ)| ≤ φ.big := by rw [abs_of_nonneg (Nat.cast_nonneg n), hn]; exact hb
    unfold Ieee.round
    simp only [this, dif_pos]
    exact finite_fin _ _ _
  exact ⟨hf, (val_round hf).trans hn⟩

/-- A finite angle in degrees is normalized without overflow, and the result is the correctly rounded reduction. -/
theorem C80_ieee_degrees (hφ : φ.toRounding = nearestEven p qmin hp hq) (h6 : 6 ≤ p) (hb : 360 ≤ φ.big)
    (a : Degrees (Ieee φ)) (ha : a.val.Finite) :
    (Angle.normalize a).val.Finite ∧
      (Angle.normalize a).val.val = φ.fl (Angle.normalize (⟨a.val.val⟩ : Degrees ℝ)).val := by
  obtain ⟨hT, hv⟩ := natCast_finite hφ 360 (by
    rw [show φ.fl = _ from congrArg Rounding.fl hφ, fl_360 h6]; norm_num) (by push_cast; exact hb)
  have hv' : (Angle.fullTurn : Degrees (Ieee φ)).val.val = 360 := by rw [← Nat.cast_ofNat]; exact hv
  rw [Degrees.normalize_ieee, Degrees.normalize_val]
  have := ieeeReduce_finite hφ ha (T := (Angle.fullTurn : Degrees (Ieee φ)).val) hT (by rw [hv']; norm_num)
  rwa [hv'] at this

/-- The same in radians, for a library whose `π` is the representable number nearest to it. -/
theorem C80_ieee_radians (hφ : φ.toRounding = nearestEven p qmin hp hq) (h6 : 6 ≤ p) (hb : 8 ≤ φ.big)
    (hpi : (fpi : Ieee φ) = Ieee.round false Real.pi) (a : Radians (Ieee φ)) (ha : a.val.Finite) :
    (Angle.normalize a).val.Finite ∧ 0 ≤ (Angle.normalize a).val.val ∧
      (Angle.normalize a).val.val ≤ 2 * φ.fl Real.pi ∧
      ∃ k : ℤ, |(Angle.normalize a).val.val - (a.val.val + k * (2 * Real.pi))| ≤ (|a.val.val| + 8) * φ.u := by
  have hfl : φ.fl = flEven p qmin := congrArg Rounding.fl hφ
  obtain ⟨p3, p4, -⟩ := fl_pi_bounds (hp := hp) (hq := hq) h6
  rw [← hφ] at p3 p4
  obtain ⟨h2, hv2⟩ := natCast_finite hφ 2 (by
    rw [show φ.fl = _ from congrArg Rounding.fl hφ, fl_two]; norm_num) (by push_cast; linarith)
  obtain ⟨h8, hv8⟩ := natCast_finite hφ 8 (by
    rw [show φ.fl = _ from congrArg Rounding.fl hφ]
    refine fl_natCast (m := 1) (k := 3) (by norm_num) ?_
    have := two_pow_le h6; norm_num at this ⊢; linarith) (by push_cast; exact hb)
  have hpf : (fpi : Ieee φ).Finite := by
    rw [hpi]; exact finite_round_of_finite h8 (by
      rw [hv8, abs_of_pos Real.pi_pos]; norm_num; linarith [Real.pi_le_four])
  have hpv : (fpi : Ieee φ).val = φ.fl Real.pi := by rw [hpi] at hpf ⊢; exact val_round hpf
  have hT : (Angle.fullTurn : Radians (Ieee φ)).val.Finite := by
    show (((2 : ℕ) : Ieee φ) * fpi).Finite
    obtain ⟨s, m, hm, e1⟩ := h2
    obtain ⟨t, k, hk, e2⟩ := hpf
    have : ((2 : ℕ) : Ieee φ) * fpi = Ieee.round (s ^^ t) (((2 : ℕ) : Ieee φ).val * (fpi : Ieee φ).val) := by
      rw [e1, e2]; rfl
    rw [this]
    refine finite_round_of_finite h8 ?_
    rw [hv2, hpv, hv8]
    rw [abs_of_nonneg (by norm_num; linarith)]; norm_num; linarith
  have hTv : (Angle.fullTurn : Radians (Ieee φ)).val.val = 2 * φ.fl Real.pi := by
    have e : (Angle.fullTurn : Radians (Ieee φ)).val.val = φ.fl (((2 : ℕ) : Ieee φ).val * (fpi : Ieee φ).val) :=
      val_mul hT
    rw [e, hv2, hpv]
    have := Radians.fullTurn_fl (hp := hp) (hq := hq)
    have h3 := (Angle.fullTurn : Radians (Fl (nearestEven p qmin hp hq))).val.rep
    rw [this, ← hφ] at h3
    push_cast; exact h3
  obtain ⟨hf, hv⟩ := ieeeReduce_finite hφ ha hT (by rw [hTv]; linarith)
  rw [← Radians.normalize_ieee, hTv] at hv
  rw [← Radians.normalize_ieee] at hf
  let x : Radians (Fl (nearestEven p qmin hp hq)) := ⟨⟨a.val.val, by rw [← hφ]; exact val_rep _⟩⟩
  have hx : (Angle.normalize x).val.val = (Angle.normalize a).val.val := by
    rw [Radians.normalize_fl h6, hv, Fl.round_val, hfl]; rfl
  have hr := C80_radians_range h6 x
  have hc := C80_radians_congruent h6 x
  rw [hx, show (nearestEven p qmin hp hq).fl = φ.fl from hfl.symm] at hr
  rw [hx, show (nearestEven p qmin hp hq).u = φ.u from congrArg Rounding.u hφ.symm] at hc
  exact ⟨hf, hr.1, hr.2.1, hc⟩

/-- Whole negative turns are normalized to the negative zero: `-0.0` stays, and `-360` becomes, `-0.0`. -/
theorem C80_ieee_negative_zero (hφ : φ.toRounding = nearestEven p qmin hp hq) (h6 : 6 ≤ p) (hb : 360 ≤ φ.big)
    (a : Degrees (Ieee φ)) (m : ℝ) (hm) (ha : a.val = fin true m hm) (n : ℕ) (hn : m = n * 360) :
    (Angle.normalize a).val = -0 := by
  obtain ⟨hT, hv⟩ := natCast_finite hφ 360 (by
    rw [show φ.fl = _ from congrArg Rounding.fl hφ, fl_360 h6]; norm_num) (by push_cast; exact hb)
  have hv' : (Angle.fullTurn : Degrees (Ieee φ)).val.val = 360 := by rw [← Nat.cast_ofNat]; exact hv
  change (Angle.fullTurn : Degrees (Ieee φ)).val.Finite at hT
  rw [Degrees.normalize_ieee, ha]
  obtain ⟨t, k, hk, e⟩ := hT
  rw [e] at hv' ⊢
  change signed t k = 360 at hv'
  have hk0 : k ≠ 0 := by rintro rfl; cases t <;> simp [signed] at hv'
  have hz : frem (signed true m) (signed t k) = 0 := by
    show signed true m - ftrunc (signed true m / signed t k) * signed t k = 0
    rw [hv', hn]
    have h1 : signed true (n * 360 : ℝ) / 360 = ((-n : ℤ) : ℝ) := by
      simp only [signed, if_true]; push_cast; ring
    have h2 : ftrunc (((-n : ℤ) : ℝ)) = ((-n : ℤ) : ℝ) := by
      show (if 0 ≤ (((-n : ℤ) : ℝ)) then ((⌊((-n : ℤ) : ℝ)⌋ : ℤ) : ℝ) else ((⌈((-n : ℤ) : ℝ)⌉ : ℤ) : ℝ)) = _
      rw [Int.floor_intCast, Int.ceil_intCast, ite_self]
    rw [h1, h2]; simp only [signed, if_true]; push_cast; ring
  have hr : frem (fin true m hm : Ieee φ) (fin t k hk) = -0 := by
    have e' : frem (fin true m hm : Ieee φ) (fin t k hk) = Ieee.round true (frem (signed true m) (signed t k)) :=
      if_neg hk0
    rw [e', hz]
    unfold Ieee.round
    have : φ.fl |(0 : ℝ)| ≤ φ.big := by rw [abs_zero, φ.zero]; exact zero_le_one.trans φ.one_le_big
    simp only [this, dif_pos, if_true]
    show (fin true (φ.fl |0|) _ : Ieee φ) = fin (!false) 0 _
    congr 1
    rw [abs_zero, φ.zero]
  unfold ieeeReduce
  rw [hr, if_neg]
  rw [lt_zero_iff (show (-0 : Ieee φ).Finite from finite_fin _ _ _), val_neg, val_zero]
  norm_num

end

/-! `f64` and `f32` meet the hypotheses -/

example [Lib f64] (a : Degrees (Ieee f64)) (ha : a.val.Finite) : (Angle.normalize a).val.Finite :=
  (C80_ieee_degrees (φ := f64) (p := 53) (qmin := some (-1074)) (hp := by norm_num) (hq := by simp) rfl (by norm_num) (by
    show (360 : ℝ) ≤ (2 ^ 53 - 1) * 2 ^ 971
    have : (1 : ℝ) ≤ 2 ^ 971 := one_le_pow₀ one_le_two
    exact le_trans (b := (2 ^ 53 - 1) * 1) (by norm_num)
      (mul_le_mul_of_nonneg_left this (by norm_num))) a ha).1
example [Lib f32] (a : Degrees (Ieee f32)) (ha : a.val.Finite) : (Angle.normalize a).val.Finite :=
  (C80_ieee_degrees (φ := f32) (p := 24) (qmin := some (-149)) (hp := by norm_num) (hq := by simp) rfl (by norm_num) (by
    show (360 : ℝ) ≤ (2 ^ 24 - 1) * 2 ^ 104
    have : (1 : ℝ) ≤ 2 ^ 104 := one_le_pow₀ one_le_two
    exact le_trans (b := (2 ^ 24 - 1) * 1) (by norm_num)
      (mul_le_mul_of_nonneg_left this (by norm_num))) a ha).1

end Cgl
