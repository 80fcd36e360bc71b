import Mathlib.Analysis.Real.Pi.Bounds
import Mathlib.Analysis.SpecialFunctions.Trigonometric.Bounds
import Verif.Lemmas.Num64
import Verif.Spec.Library64

/-! # C85 - the requirements of `Library64` can be met -/

namespace Cgl
open Ieee FloatFns

theorem fl64_two_pow_nat (k : ℕ) (hk : k ≤ 1000) : f64.fl (2 ^ k) = 2 ^ k := by
  have := fl64_two_zpow (k := (k : ℤ)) (by omega)
  simpa using this

theorem finite_round_of_le {s : Bool} {x : ℝ} (h : |x| ≤ 2 ^ 10) :
    (Ieee.round s x : Ieee f64).Finite := by
  refine finite_round ((f64.mono _ _ h).trans ?_)
  rw [fl64_two_pow_nat 10 (by norm_num)]
  exact (le_abs_self _).trans (le_big_of (by norm_num))

theorem val_round_bounds {s : Bool} {x : ℝ} (h0 : 0 ≤ x) (h : x ≤ 4) :
    (Ieee.round s x : Ieee f64).Finite ∧ 0 ≤ (Ieee.round s x : Ieee f64).val ∧ (Ieee.round s x : Ieee f64).val ≤ 4 := by
  have hf : (Ieee.round s x : Ieee f64).Finite := finite_round_of_le (by rw [abs_of_nonneg h0]; linarith)
  refine ⟨hf, ?_, ?_⟩ <;> rw [val_round hf]
  · exact f64.nonneg h0
  · have h4 : f64.fl 4 = 4 := by
      have := fl64_two_pow_nat 2 (by norm_num); norm_num at this; exact this
    have := f64.mono _ _ h
    rwa [h4] at this

theorem abs_round_le_one {s : Bool} {x : ℝ} (h : |x| ≤ 1) : |(Ieee.round s x : Ieee f64).val| ≤ 1 := by
  have hf : (Ieee.round s x : Ieee f64).Finite := finite_round_of_le (by linarith)
  rw [val_round hf, ← fl_abs]
  have := f64.mono _ _ h
  rwa [f64.one] at this

theorem pi64 : f64.fl Real.pi ≤ f64.big ∧ 0 < f64.fl Real.pi ∧ |f64.fl Real.pi - Real.pi| ≤ 1 / 2 ^ 51 := by
  have hp3 := Real.pi_gt_three
  have hp4 := Real.pi_le_four
  have he := normal64 Real.pi (by
    rw [abs_of_pos Real.pi_pos]
    calc (2 : ℝ) ^ (-1022 : ℤ) ≤ 1 := zpow_le_one_of_nonpos₀ (by norm_num) (by norm_num)
      _ ≤ _ := by linarith)
  have hu : f64.u = 1 / 2 ^ 53 := by
    have : f64.u = 2 ^ (-53 : ℤ) := rfl
    rw [this]; norm_num
  rw [hu, abs_of_pos Real.pi_pos] at he
  have he' : |f64.fl Real.pi - Real.pi| ≤ 1 / 2 ^ 51 := by
    refine he.trans ?_
    have : (1 : ℝ) / 2 ^ 51 = 1 / 2 ^ 53 * 4 := by norm_num
    rw [this]
    exact mul_le_mul_of_nonneg_left hp4 (by positivity)
  have h2 : (1 : ℝ) / 2 ^ 51 ≤ 1 := by norm_num
  have := abs_le.mp (he'.trans h2)
  refine ⟨?_, by linarith [this.1], he'⟩
  exact (show f64.fl Real.pi ≤ 5 by linarith [this.2]).trans ((le_abs_self _).trans (le_big_of (by norm_num)))

theorem fl64_near_one {x : ℝ} (h : 1 - 1 / 2 ^ 60 ≤ x) (h1 : x ≤ 1) : f64.fl x = 1 := by
  rcases h1.eq_or_lt with rfl | h1
  · exact f64.one
  · have := fl64_eval (x := x) (-1) 9007199254740992 (by norm_num) (by norm_num at h ⊢; linarith) (by norm_num; exact h1)
      (by norm_num at h ⊢; linarith) (by norm_num at h ⊢; linarith) (Or.inr (Int.even_iff.mpr (by norm_num)))
    rw [this]; norm_num

theorem cos_near {p : ℝ} (hp : |p - Real.pi| ≤ 1 / 2 ^ 51) : f64.fl (Real.cos p) = -1 := by
  have e : Real.cos p = -Real.cos (p - Real.pi) := by rw [Real.cos_sub_pi]; ring
  rw [e, f64.neg, fl64_near_one _ (Real.cos_le_one _)]
  have h1 := Real.one_sub_sq_div_two_le_cos (x := p - Real.pi)
  have h2 : (p - Real.pi) ^ 2 ≤ (1 / 2 ^ 51) ^ 2 := sq_le_sq' (by linarith [(abs_le.mp hp).1]) (abs_le.mp hp).2
  norm_num at h2 ⊢
  linarith

open Classical in
/-- The requirements are met by the correctly rounded functions. -/
@[reducible] noncomputable def Library64.correctlyRounded : Library64 :=
  { Libm.correctlyRounded f64 with
    facos := fun x => match x with
      | fin s m _ => if 1 < m then nan else Ieee.round false (Real.arccos (signed s m))
      | _ => nan
    fasin := fun x => match x with
      | fin s m _ => if 1 < m then nan else Ieee.round s (Real.arcsin (signed s m))
      | _ => nan
    acos_in := by
      rintro _ ⟨s, m, h, rfl⟩ h1
      have : |m| ≤ 1 := by cases s <;> simpa [Ieee.val, signed] using h1
      simp only [if_neg (not_lt.mpr ((le_abs_self m).trans this))]
      exact val_round_bounds (Real.arccos_nonneg _) ((Real.arccos_le_pi _).trans Real.pi_le_four)
    acos_out := by
      rintro _ ⟨s, m, h, rfl⟩ h1
      have : 1 < |m| := by cases s <;> simpa [Ieee.val, signed] using h1
      rw [abs_of_nonneg h.1] at this
      exact if_pos this
    asin_in := by
      rintro _ ⟨s, m, h, rfl⟩ h1
      have : |m| ≤ 1 := by cases s <;> simpa [Ieee.val, signed] using h1
      simp only [if_neg (not_lt.mpr ((le_abs_self m).trans this))]
      refine finite_round_of_le ?_
      have h2 := Real.neg_pi_div_two_le_arcsin (signed s m)
      have h3 := Real.arcsin_le_pi_div_two (signed s m)
      have := Real.pi_le_four
      exact abs_le.mpr ⟨by linarith, by linarith⟩
    asin_out := by
      rintro _ ⟨s, m, h, rfl⟩ h1
      have : 1 < |m| := by cases s <;> simpa [Ieee.val, signed] using h1
      rw [abs_of_nonneg h.1] at this
      exact if_pos this
    sin_bound := by
      rintro _ ⟨s, m, h, rfl⟩
      change |(if m = 0 then fin s m h else Ieee.round false (Real.sin (signed s m)) : Ieee f64).val| ≤ 1
      split_ifs with hm
      · subst hm; cases s <;> simp [Ieee.val, signed]
      · exact abs_round_le_one (Real.abs_sin_le_one _)
    cos_bound := by
      rintro _ ⟨s, m, h, rfl⟩
      exact abs_round_le_one (Real.abs_cos_le_one _)
    ln_fin := by
      rintro _ ⟨s, m, h, rfl⟩ h1
      have hpos : (0 : ℝ) < 2 ^ (-1000 : ℤ) := by positivity
      cases s with
      | true => exact absurd (hpos.trans_le h1) (not_lt.mpr (neg_nonpos.mpr h.1))
      | false =>
        have h1' : (2 : ℝ) ^ (-1000 : ℤ) ≤ m := h1
        have hm : 0 < m := hpos.trans_le h1'
        change (if m = 0 then inf true else Ieee.round false (Real.log m) : Ieee f64).Finite
        rw [if_neg hm.ne']
        refine finite_round_of_le ?_
        have hb : m ≤ 2 ^ (1024 : ℤ) := h.2.1.trans (by
          have : f64.big = (2 ^ 53 - 1) * 2 ^ 971 := rfl
          rw [this, show (1024 : ℤ) = ((53 + 971 : ℕ) : ℤ) by norm_num, zpow_natCast, pow_add]
          exact mul_le_mul_of_nonneg_right (by norm_num) (by positivity))
        have l2 : Real.log 2 ≤ 1 := by
          have := Real.log_le_sub_one_of_pos (x := 2) two_pos; linarith
        have l0 : 0 ≤ Real.log 2 := Real.log_nonneg (by norm_num)
        have a := Real.log_le_log hpos h1'
        have b := Real.log_le_log hm hb
        rw [Real.log_zpow] at a b
        push_cast at a b
        exact abs_le.mpr ⟨by nlinarith, by nlinarith⟩
    atan2_fin := by
      rintro _ _ ⟨s, m, h, rfl⟩ ⟨t, k, h', rfl⟩
      change (if m = 0 then flip s (if t then (crPos Real.pi) else 0) else
        Ieee.round s (Complex.arg ⟨signed t k, signed s m⟩) : Ieee f64).Finite
      have hpi : ∀ b, (Ieee.flip b (crPos Real.pi : Ieee f64)).Finite := fun b => by
        obtain ⟨m, hm, -, e⟩ := crPos_pos (φ := f64) Real.pi
        rw [e]; cases b <;> exact finite_fin _ _ _
      split_ifs with h1 h2
      · exact hpi s
      · cases s <;> exact finite_fin _ _ _
      · refine finite_round_of_le ((Complex.abs_arg_le_pi _).trans ?_)
        linarith [Real.pi_le_four]
    cos_pi := by
      have e : (crPos Real.pi : Ieee f64) = fin false (f64.fl Real.pi) ⟨pi64.2.1.le, pi64.1, f64.idem _⟩ :=
        dif_pos ⟨pi64.2.1, pi64.1⟩
      change Ieee.lift Real.cos (crPos Real.pi) = -1
      rw [e]
      change Ieee.round false (Real.cos (f64.fl Real.pi)) = -1
      have hc := cos_near pi64.2.2
      have hx : Is (Ieee.round false (Real.cos (f64.fl Real.pi)) : Ieee f64) (-1) := by
        have hf : (Ieee.round false (Real.cos (f64.fl Real.pi)) : Ieee f64).Finite :=
          finite_round_of_le ((Real.abs_cos_le_one _).trans (by norm_num))
        exact ⟨hf, by rw [val_round hf, hc]⟩
      have h3 : (-Ieee.round false (Real.cos (f64.fl Real.pi)) : Ieee f64) = 1 :=
        hx.neg.eq_pos (by rw [neg_neg]; exact Is.one) (by norm_num)
      rw [← h3]
      generalize (Ieee.round false (Real.cos (f64.fl Real.pi)) : Ieee f64) = x
      cases x with
      | nan => rfl
      | inf s => cases s <;> rfl
      | fin s m h => cases s <;> rfl }

end Cgl
