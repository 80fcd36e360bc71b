import Verif.Props.C92_Interpolation
import Verif.Props.C91_RoundTrips
import Verif.Props.C85_Library

/-! # C92 - interpolating between rotations in floating point: the theorems -/

namespace Cgl
open Ieee FloatFns Quat Spec InnerProductGeometry

variable {φ : Format} [Lib φ]

omit [Lib φ] in
theorem near_of_within {d : ℝ} {q : Quat (Ieee φ)} {g : Quaternion ℝ} (hg : ‖g‖ = 1) (hq : QuatWithin q g d) : UnitNear d q g :=
  ⟨hg, quatWithin_iff.mp hq⟩

/-- The normalized linear interpolation of two quaternions that are within `d` of the unit quaternions `g` and `h` is
within `300 d` of the normalized linear interpolation of `g` and `h`, where that one does not pass near zero. -/
theorem C92_nlerp (hφ : Fine φ) {d : ℝ} (hd : d ≤ 1 / 1000000) (hwd : unit φ ≤ d) {q r : Quat (Ieee φ)} {g h : Quaternion ℝ}
    (hg : ‖g‖ = 1) (hh : ‖h‖ = 1) (hq : QuatWithin q g d) (hr : QuatWithin r h d)
    {t : Ieee φ} (ht : t.Finite) (h0 : 0 ≤ t.val) (h1 : t.val ≤ 1) (hc : 1 / 2 ≤ ‖(1 - t.val) • g + t.val • h‖) :
    QuatWithin (q.nlerp r t) (‖(1 - t.val) • g + t.val • h‖⁻¹ • ((1 - t.val) • g + t.val • h)) (300 * d) :=
  quatWithin_iff.mpr (nlerp_near hφ hd hwd (near_of_within hg hq) (near_of_within hh hr) ht h0 h1 hc)

/-- At angles of at most a right angle (a right angle between quaternions is a half turn between rotations) it does not
pass near zero, and the result is that near the point of the shorter arc. -/
theorem C92_nlerp_arc (hφ : Fine φ) {d : ℝ} (hd : d ≤ 1 / 1000000) (hwd : unit φ ≤ d) {q r : Quat (Ieee φ)} {g h k : Quaternion ℝ}
    (hg : ‖g‖ = 1) (hh : ‖h‖ = 1) (hq : QuatWithin q g d) (hr : QuatWithin r h d)
    {t : Ieee φ} (ht : t.Finite) (h0 : 0 ≤ t.val) (h1 : t.val ≤ 1) (hc : 0 ≤ inner ℝ g h) (hk : OnArc g h k t.val) :
    QuatWithin (q.nlerp r t) k (300 * d + angle g h ^ 3 / 12) := by
  obtain ⟨c1, c2⟩ := hk.chord hg hh ⟨h0, h1⟩ hc
  have hhalf : 1 / 2 ≤ ‖(1 - t.val) • g + t.val • h‖ := by
    refine abs_le_of_sq_le_sq' ?_ (_root_.norm_nonneg _) |>.2
    linarith
  refine quatWithin_iff.mpr fun i => ?_
  obtain ⟨n1, n2⟩ := quatWithin_iff.mp (C92_nlerp hφ hd hwd hg hh hq hr ht h0 h1 hhalf) i
  refine ⟨n1, ?_⟩
  have n3 := (cmp_le_norm (‖(1 - t.val) • g + t.val • h‖⁻¹ • ((1 - t.val) • g + t.val • h) - k) i).trans c2
  rw [cmp_sub] at n3
  rw [abs_le] at *
  constructor <;> linarith

/-- Spherical interpolation of two quaternions that are within `d` of the unit quaternions `g` and `h`, with a library
whose sine and inverse cosine have errors of at most `d`: up to the sign of `g`, which does not change the rotation and
is chosen such that the arc is the shorter one up to errors, the result is near the point `k` of the arc from `g` to `h`
at the fraction `t` of the angle.  How near depends on which of the branches is taken, and that depends on the angle. -/
theorem C92_slerp (hφ : Fine φ) {d a : ℝ} (hd : d ≤ 1 / 1000000) (hwd : unit φ ≤ d) (ha : SineWithin φ a) (had : a ≤ d)
    {q r : Quat (Ieee φ)} {g h : Quaternion ℝ} (hg : ‖g‖ = 1) (hh : ‖h‖ = 1) (hq : QuatWithin q g d) (hr : QuatWithin r h d)
    {t th : Ieee φ} (ht : t.Finite) (h0 : 0 ≤ t.val) (h1 : t.val ≤ 1)
    (hth : th.Finite) (hth0 : 0 < th.val) (hth1 : th.val ≤ 1 / 2) (hthd : 1000 * d ≤ th.val ^ 2) :
    ∃ g', (g' = g ∨ g' = -g) ∧ -(16 * d) ≤ inner ℝ g' h ∧ ∀ k, OnArc g' h k t.val →
      (1 - 16 * d ≤ inner ℝ g' h ∧ QuatWithin (slerp th q r t) k (6 * Real.sqrt d)) ∨
      (Real.sin (angle g' h) ≤ 105 / 100 * th.val ∧ QuatWithin (slerp th q r t) k (300 * d + th.val ^ 3 / 2)) ∨
      (97 / 100 * th.val ≤ Real.sin (angle g' h) ∧ QuatWithin (slerp th q r t) k
        (54 * d / Real.sin (angle g' h) + 5 * unit φ / Real.sin (angle g' h) ^ 2)) := by
  have hw0 : 0 ≤ unit φ := unit_nonneg
  have hd0 : 0 ≤ d := hw0.trans hwd
  have hq' := near_of_within hg hq
  have hr' := near_of_within hh hr
  have key : ∀ {p : Quat (Ieee φ)} {g' : Quaternion ℝ}, UnitNear d p g' → -(16 * d) ≤ inner ℝ g' h → ∀ k, OnArc g' h k t.val →
      (1 - 16 * d ≤ inner ℝ g' h ∧ QuatWithin (branches th p r t) k (6 * Real.sqrt d)) ∨
      (Real.sin (angle g' h) ≤ 105 / 100 * th.val ∧ QuatWithin (branches th p r t) k (300 * d + th.val ^ 3 / 2)) ∨
      (97 / 100 * th.val ≤ Real.sin (angle g' h) ∧ QuatWithin (branches th p r t) k
        (54 * d / Real.sin (angle g' h) + 5 * unit φ / Real.sin (angle g' h) ^ 2)) := by
    intro p g' hp hc k hk
    obtain ⟨s1, s2⟩ := sabs_val (dot_near_inner hφ hd hwd hp hr').1
    unfold branches
    split_ifs with c1 c2
    · rw [ge_iff_le, ieee_le_iff finite_one s1, val_one, s2] at c1
      obtain ⟨b1, b2⟩ := branch_same hφ hd hwd hp hr' hc h0 h1 hk c1
      exact Or.inl ⟨b1, quatWithin_iff.mpr b2⟩
    · rw [ge_iff_le, ieee_le_iff finite_one s1, val_one, s2, not_le] at c1
      obtain ⟨v1, v2⟩ := one_sub_sq hφ (dot_near_inner hφ hd hwd hp hr').1 c1
      have hv := abs_le.mp v1.2
      have hf := (sqrt_plain hφ (M := 1001 / 1000) v1.1 v2 (by linarith [sq_nonneg (p.dot r).val, hφ.unit_le]) (by norm_num) (by norm_num)).1
      obtain ⟨w1, w2⟩ := sabs_val hf
      rw [ieee_lt_iff w1 hth, w2] at c2
      obtain ⟨b1, b2⟩ := branch_chord hφ hd hwd hp hr' hc ht h0 h1 hk hth1 hth0 hthd c1 c2
      exact Or.inr (Or.inl ⟨b1, quatWithin_iff.mpr b2⟩)
    · rw [ge_iff_le, ieee_le_iff finite_one s1, val_one, s2, not_le] at c1
      obtain ⟨v1, v2⟩ := one_sub_sq hφ (dot_near_inner hφ hd hwd hp hr').1 c1
      have hv := abs_le.mp v1.2
      have hf := (sqrt_plain hφ (M := 1001 / 1000) v1.1 v2 (by linarith [sq_nonneg (p.dot r).val, hφ.unit_le]) (by norm_num) (by norm_num)).1
      obtain ⟨w1, w2⟩ := sabs_val hf
      rw [ieee_lt_iff w1 hth, w2, not_lt] at c2
      obtain ⟨b1, b2⟩ := branch_arc hφ hd hwd hp hr' hc ht h0 h1 hk hth1 hth0 hthd ha had c1 c2
      exact Or.inr (Or.inr ⟨b1, quatWithin_iff.mpr b2⟩)
  obtain ⟨f1, f2⟩ := dot_near_inner hφ hd hwd hq' hr'
  rw [abs_le] at f2
  by_cases hneg : q.dot r < 0
  · refine ⟨-g, Or.inr rfl, ?_, ?_⟩
    · rw [ieee_lt_iff f1 finite_zero, val_zero] at hneg
      rw [inner_neg_left]; linarith
    · have e : slerp th q r t = branches th (-q) r t := by
        unfold slerp branches
        simp only [if_pos hneg]
      rw [e]
      refine key hq'.neg ?_
      rw [ieee_lt_iff f1 finite_zero, val_zero] at hneg
      rw [inner_neg_left]; linarith
  · have hc : -(16 * d) ≤ inner ℝ g h := by
      rw [ieee_lt_iff f1 finite_zero, val_zero] at hneg
      linarith
    refine ⟨g, Or.inl rfl, hc, ?_⟩
    have e : slerp th q r t = branches th q r t := by
      unfold slerp branches
      simp only [if_neg hneg]
    rw [e]
    exact key hq' hc

/-- `f64` with a threshold near that of the code, `0.0005`: away from equal rotations the errors of the arguments grow by
a factor of less than `120000`, and the rest is below `3e-9`. -/
theorem C92_slerp_f64 [Lib f64] {d a : ℝ} (hd : d ≤ 2 / 10 ^ 10) (hwd : unit f64 ≤ d) (ha : SineWithin f64 a) (had : a ≤ d)
    {q r : Quat (Ieee f64)} {g h : Quaternion ℝ} (hg : ‖g‖ = 1) (hh : ‖h‖ = 1) (hq : QuatWithin q g d) (hr : QuatWithin r h d)
    {t th : Ieee f64} (ht : t.Finite) (h0 : 0 ≤ t.val) (h1 : t.val ≤ 1)
    (hth : th.Finite) (hth0 : |th.val - 5 / 10000| ≤ 1 / 100000) :
    ∃ g', (g' = g ∨ g' = -g) ∧ -(16 * d) ≤ inner ℝ g' h ∧ ∀ k, OnArc g' h k t.val →
      QuatWithin (slerp th q r t) k (6 * Real.sqrt d + 120000 * d + 3 / 10 ^ 9) ∧
      (inner ℝ g' h < 1 - 16 * d → QuatWithin (slerp th q r t) k (120000 * d + 3 / 10 ^ 9)) := by
  have hw0 : 0 ≤ unit f64 := unit_nonneg
  have hd0 : 0 ≤ d := hw0.trans hwd
  have hsq := Real.sqrt_nonneg d
  have hth' := abs_le.mp hth0
  have hu : unit f64 ≤ 112 / 10 ^ 18 := by
    have h3 : (2 : ℝ) ^ (-1075 : ℤ) ≤ 2 ^ (-100 : ℤ) := zpow_le_zpow_right₀ one_le_two (by norm_num)
    have := unit64
    norm_num at h3 this ⊢
    linarith
  obtain ⟨g', hg', hi, H⟩ := C92_slerp fine64 (by linarith) hwd ha had hg hh hq hr ht h0 h1 hth (by linarith) (by linarith)
    (by nlinarith)
  refine ⟨g', hg', hi, fun k hk => ?_⟩
  have step : (1 - 16 * d ≤ inner ℝ g' h ∧ QuatWithin (slerp th q r t) k (6 * Real.sqrt d)) ∨
      QuatWithin (slerp th q r t) k (120000 * d + 3 / 10 ^ 9) := by
    rcases H k hk with hx | ⟨-, hx⟩ | ⟨hs, hx⟩
    · exact Or.inl hx
    · refine Or.inr (hx.mono ?_)
      have : th.val ^ 3 ≤ (51 / 100000) ^ 3 := pow_le_pow_left₀ (by linarith) (by linarith) 3
      norm_num at this ⊢
      linarith
    · refine Or.inr (hx.mono ?_)
      have hs' : 475 / 1000000 ≤ Real.sin (angle g' h) := by linarith
      have i1 : 54 * d / Real.sin (angle g' h) ≤ 54 * d / (475 / 1000000) :=
        div_le_div_of_nonneg_left (by positivity) (by norm_num) hs'
      have i2 : 5 * unit f64 / Real.sin (angle g' h) ^ 2 ≤ 5 * unit f64 / (475 / 1000000) ^ 2 :=
        div_le_div_of_nonneg_left (by positivity) (by norm_num) (pow_le_pow_left₀ (by norm_num) hs' 2)
      norm_num at i1 i2 hu ⊢
      linarith
  rcases step with ⟨s1, s2⟩ | s
  · exact ⟨s2.mono (by have : (0 : ℝ) ≤ 3 / 10 ^ 9 := by norm_num
                       linarith), fun h => absurd s1 (not_le.mpr h)⟩
  · exact ⟨s.mono (by linarith), fun _ => s⟩

/-- arguments accurate to `2^-50`, as normalizing yields: the result is within `2e-7` everywhere, and within `3.2e-9`
away from equal rotations -/
theorem C92_slerp_unit [Lib f64] (ha : SineWithin f64 (2 ^ (-50 : ℤ)))
    {q r : Quat (Ieee f64)} {g h : Quaternion ℝ} (hg : ‖g‖ = 1) (hh : ‖h‖ = 1)
    (hq : QuatWithin q g (2 ^ (-50 : ℤ))) (hr : QuatWithin r h (2 ^ (-50 : ℤ)))
    {t th : Ieee f64} (ht : t.Finite) (h0 : 0 ≤ t.val) (h1 : t.val ≤ 1)
    (hth : th.Finite) (hth0 : |th.val - 5 / 10000| ≤ 1 / 100000) :
    ∃ g', (g' = g ∨ g' = -g) ∧ -(2 ^ (-46 : ℤ)) ≤ inner ℝ g' h ∧ ∀ k, OnArc g' h k t.val →
      QuatWithin (slerp th q r t) k (2 / 10 ^ 7) ∧
      (inner ℝ g' h < 1 - 2 ^ (-46 : ℤ) → QuatWithin (slerp th q r t) k (32 / 10 ^ 10)) := by
  have hu : unit f64 ≤ 2 ^ (-50 : ℤ) := by
    have h3 : (2 : ℝ) ^ (-1075 : ℤ) ≤ 2 ^ (-100 : ℤ) := zpow_le_zpow_right₀ one_le_two (by norm_num)
    have := unit64
    norm_num at h3 this ⊢
    linarith
  have e : 16 * (2 : ℝ) ^ (-50 : ℤ) = 2 ^ (-46 : ℤ) := by norm_num
  have es : Real.sqrt (2 ^ (-50 : ℤ)) = 2 ^ (-25 : ℤ) := by
    rw [Real.sqrt_eq_iff_mul_self_eq_of_pos (by positivity)]; norm_num
  obtain ⟨g', hg', hi, H⟩ := C92_slerp_f64 (by norm_num) hu ha le_rfl hg hh hq hr ht h0 h1 hth hth0
  rw [e] at hi H
  rw [es] at H
  refine ⟨g', hg', hi, fun k hk => ⟨(H k hk).1.mono (by norm_num), fun h => ((H k hk).2 h).mono (by norm_num)⟩⟩

/-- The point of the arc exists, and away from equal and opposite rotations it is the only one. -/
theorem C92_arc {g h : Quaternion ℝ} (hg : ‖g‖ = 1) (hh : ‖h‖ = 1) (hs : Real.sin (angle g h) ≠ 0) {t : ℝ} (h0 : 0 ≤ t) (h1 : t ≤ 1) :
    ∃! k, OnArc g h k t :=
  ⟨_, OnArc.of_eq hg hh hs ⟨h0, h1⟩, fun _ hk => hk.eq hg hh hs⟩

/-! ### the hypotheses are met -/

theorem round_near {s : Bool} {x : ℝ} (h : |x| ≤ 4) : (Ieee.round s x : Ieee f64).Finite ∧
    |(Ieee.round s x : Ieee f64).val - x| ≤ 2 ^ (-50 : ℤ) := by
  have hf : (Ieee.round s x : Ieee f64).Finite := finite_round_of_le (by linarith)
  refine ⟨hf, ?_⟩
  rw [val_round hf]
  refine (fl_err_unit h (by norm_num)).trans ?_
  have h3 : (2 : ℝ) ^ (-1075 : ℤ) ≤ 2 ^ (-100 : ℤ) := zpow_le_zpow_right₀ one_le_two (by norm_num)
  have := unit64
  norm_num at h3 this ⊢
  linarith

section
attribute [local instance] Library64.correctlyRounded

/-- a library with these accuracies exists -/
theorem sineWithin_correctlyRounded : SineWithin f64 (2 ^ (-50 : ℤ)) where
  sin := by
    rintro _ ⟨s, m, h, rfl⟩ h1
    change (if m = 0 then fin s m h else Ieee.round false (Real.sin (signed s m)) : Ieee f64).Finite ∧
      |(if m = 0 then fin s m h else Ieee.round false (Real.sin (signed s m)) : Ieee f64).val - Real.sin (signed s m)| ≤ _
    split_ifs with hm
    · refine ⟨finite_fin _ _ _, ?_⟩
      subst hm
      have : signed s 0 = 0 := by cases s <;> simp [signed]
      simp [Ieee.val, this]
    · exact round_near ((Real.abs_sin_le_one _).trans (by norm_num))
  acos := by
    rintro _ ⟨s, m, h, rfl⟩ h1
    have : |m| ≤ 1 := by cases s <;> simpa [Ieee.val, signed] using h1
    change (if 1 < m then nan else Ieee.round false (Real.arccos (signed s m)) : Ieee f64).Finite ∧
      |(if 1 < m then nan else Ieee.round false (Real.arccos (signed s m)) : Ieee f64).val - Real.arccos (signed s m)| ≤ _
    rw [if_neg (not_lt.mpr ((le_abs_self m).trans this))]
    refine round_near ?_
    rw [abs_of_nonneg (Real.arccos_nonneg _)]
    exact (Real.arccos_le_pi _).trans Real.pi_le_four

end

/-- the identity and a half turn are exact, and their arc has the sine one -/
example : QuatWithin (identity : Quat (Ieee f64)) 1 0 ∧ (∀ g : Quaternion ℝ, g = ⟨0, 1, 0, 0⟩ →
    QuatWithin (unitX : Quat (Ieee f64)) g 0 ∧ ‖g‖ = 1 ∧ inner ℝ 1 g = 0 ∧ Real.sin (angle 1 g) = 1) := by
  have h1 : (1 : Ieee f64).val = 1 := Ieee.val_one
  have h0 : (0 : Ieee f64).val = 0 := Ieee.val_zero
  refine ⟨quatWithin_iff.mpr fun i => ?_, fun g hg => ⟨quatWithin_iff.mpr fun i => ?_, ?_, ?_, ?_⟩⟩
  · fin_cases i
    · exact Nr.one
    · exact Nr.zero
    · exact Nr.zero
    · exact Nr.zero
  · rw [hg]
    fin_cases i
    · exact Nr.zero
    · exact Nr.one
    · exact Nr.zero
    · exact Nr.zero
  · have h3 : ‖g‖ ^ 2 = 1 := by rw [norm_sq_parts, hg]; norm_num
    nlinarith [_root_.norm_nonneg g]
  · rw [inner_cmp, hg]; simp [cmp]; rfl
  · have : inner ℝ 1 g = 0 := by rw [inner_cmp, hg]; simp [cmp]; rfl
    rw [InnerProductGeometry.inner_eq_zero_iff_angle_eq_pi_div_two] at this
    rw [this, Real.sin_pi_div_two]

end Cgl
