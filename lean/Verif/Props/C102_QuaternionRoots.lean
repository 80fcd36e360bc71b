import Verif.Props.C86_Histories
import Verif.Lemmas.Scaled

/-! # C102 - inverses, quotients and square roots of quaternions in `f64`

The computed inverse, the left and right quotients and the principal square root are compared with the quaternions they
stand for: the one whose product with the argument is one, the solutions of `left * x = q` and `x * right = q`, and a
quaternion whose square is the argument.  The arithmetic is IEEE `f64` with overflow, underflow, infinities and NaN. -/

namespace Cgl
open Ieee FloatFns Mat Spec

namespace Spec

/-- every part of `r` is a finite number, and the quaternion of those numbers is at most `ε` away from `a` -/
def QuatNear (r : Quat (Ieee f64)) (a : Quat ℝ) (ε : ℝ) : Prop := FiniteQuat r ∧ (realQuat r - a).norm ≤ ε

end Spec

theorem u64_small : f64.u ≤ 1 / 1000000 := by rw [show f64.u = (2 : ℝ) ^ (-53 : ℤ) from rfl]; norm_num

/-- four parts within `e` make a quaternion within `2 e` -/
theorem near_of_parts {r : Quat (Ieee f64)} {a : Quat ℝ} {e : ℝ} (h : ∀ i, Nr (r.coords.data i) (a.coords.data i) e) :
    QuatNear r a (2 * e) := by
  refine ⟨fun i => (h i).1, ?_⟩
  have he : 0 ≤ e := (abs_nonneg _).trans (h 0).2
  have k : ∀ i, ((r.coords.data i).val - a.coords.data i) * ((r.coords.data i).val - a.coords.data i) ≤ e * e := fun i => by
    rw [← abs_mul_abs_self]
    exact mul_le_mul (h i).2 (h i).2 (abs_nonneg _) he
  rw [Quat.norm_def, Quat.normSquared_eq]
  apply Real.sqrt_le_iff.mpr
  refine ⟨by linarith, ?_⟩
  have e0 := k 0
  have e1 := k 1
  have e2 := k 2
  have e3 := k 3
  simp only [Quat.sub_s, Quat.sub_x, Quat.sub_y, Quat.sub_z]
  change ((r.coords.data 0).val - a.coords.data 0) * ((r.coords.data 0).val - a.coords.data 0) +
    ((r.coords.data 1).val - a.coords.data 1) * ((r.coords.data 1).val - a.coords.data 1) +
    ((r.coords.data 2).val - a.coords.data 2) * ((r.coords.data 2).val - a.coords.data 2) +
    ((r.coords.data 3).val - a.coords.data 3) * ((r.coords.data 3).val - a.coords.data 3) ≤ _
  linarith

/-- the square root of a number with a relative error -/
theorem Spec.Sc.sqrt [Lib f64] {t : Ieee f64} {τ e : ℝ} (hτ : 0 < τ) (hF : Fits f64 (Real.sqrt τ)) (ht : Sc τ t τ e) (he : e ≤ 1 / 1000) :
    Sc (Real.sqrt τ) (fsqrt t) (Real.sqrt τ) (e + 203 / 100 * f64.u) := by
  have hr : 0 < Real.sqrt τ := hF.pos
  have hsq : Real.sqrt τ * Real.sqrt τ = τ := Real.mul_self_sqrt hτ.le
  have h1 := abs_le.mp ht.2
  have h2 := mul_le_mul_of_nonneg_right he hτ.le
  have ht0 : 0 ≤ t.val := by linarith
  have hd : |Real.sqrt t.val - Real.sqrt τ| ≤ e * Real.sqrt τ := by
    have k : |Real.sqrt t.val - Real.sqrt τ| * Real.sqrt τ ≤ |t.val - τ| := by
      have e1 : t.val - τ = (Real.sqrt t.val - Real.sqrt τ) * (Real.sqrt t.val + Real.sqrt τ) := by
        have := Real.mul_self_sqrt ht0
        linear_combination hsq - this
      rw [e1, abs_mul]
      refine mul_le_mul_of_nonneg_left ?_ (abs_nonneg _)
      rw [abs_of_nonneg (by positivity)]
      linarith [Real.sqrt_nonneg t.val]
    have k2 : |Real.sqrt t.val - Real.sqrt τ| * Real.sqrt τ ≤ e * Real.sqrt τ * Real.sqrt τ := by
      rw [mul_assoc, hsq]; exact k.trans ht.2
    exact le_of_mul_le_mul_right k2 hr
  have hd' := abs_le.mp hd
  have he' := mul_le_mul_of_nonneg_right he hr.le
  obtain ⟨r1, r2⟩ := hF.round u64_small (z := Real.sqrt t.val) (by rw [abs_le]; constructor <;> linarith)
  have hfin := finite_sqrt_of ht.1 ht0 r1
  rw [Spec.Sc, Lib.sqrt_eq]
  refine ⟨hfin, ?_⟩
  rw [(val_sqrt hfin).1]
  have h4 := abs_le.mp r2
  rw [abs_le]; constructor <;> linarith

/-! ### the test against the threshold -/

/-- the square of a threshold of at most the size of `a` -/
theorem square_scaled {e : Ieee f64} {a : ℝ} (ha : Fits f64 (a ^ 2)) (he : e.Finite) (h0 : 0 ≤ e.val) (h : e.val ≤ a) :
    Sc (a ^ 2) (e * e) (e.val ^ 2) (203 / 100 * f64.u) := by
  have h1 : e.val ^ 2 ≤ a ^ 2 := pow_le_pow_left₀ h0 h 2
  have h2 := sq_nonneg e.val
  have h3 := sq_nonneg a
  obtain ⟨r1, r2⟩ := ha.round u64_small (z := e.val * e.val) (by rw [abs_le]; constructor <;> linarith)
  have hf := finite_mul_of he he r1
  exact ⟨hf, by rw [val_mul hf, sq]; exact r2⟩

theorem length_fits {L : ℝ} (h1 : (2 : ℝ) ^ (-499 : ℤ) ≤ L) (h2 : L ≤ 2 ^ (500 : ℤ)) : Fits f64 (L ^ 2) := by
  have hp : (0 : ℝ) < 2 ^ (-499 : ℤ) := by positivity
  refine fits64 ?_ ?_
  · calc (2 : ℝ) ^ (-1020 : ℤ) ≤ 2 ^ (-998 : ℤ) := two_zpow_le_self_of_le (by norm_num)
      _ = (2 ^ (-499 : ℤ)) ^ 2 := by rw [sq, ← zpow_add₀ two_ne_zero]; norm_num
      _ ≤ _ := pow_le_pow_left₀ hp.le h1 2
  · calc L ^ 2 ≤ ((2 : ℝ) ^ (500 : ℤ)) ^ 2 := pow_le_pow_left₀ (hp.le.trans h1) h2 2
      _ = _ := by rw [sq, ← zpow_add₀ two_ne_zero]; norm_num

section Threshold
variable {n : ℕ} (v : Vec (Ieee f64) n)

theorem square_near (hn : n ≤ 4) (hv : ∀ i, (v.data i).Finite) (h1 : (2 : ℝ) ^ (-499 : ℤ) ≤ Spec.length v)
    (h2 : Spec.length v ≤ 2 ^ (500 : ℤ)) : Sc (Spec.length v ^ 2) v.normSquared (Spec.length v ^ 2) (5 * f64.u) := by
  obtain ⟨a, b⟩ := safe_norm_squared v hv (safe64 (by omega) h1 (h2.trans (two_zpow_le_self_of_le (by norm_num))))
  refine ⟨a, b.trans ?_⟩
  have : (n : ℝ) ≤ 4 := by exact_mod_cast hn
  refine mul_le_mul_of_nonneg_right (mul_le_mul_of_nonneg_right (by linarith) f64.u_nonneg) (sq_nonneg _)

theorem above_threshold (hn : n ≤ 4) (hv : ∀ i, (v.data i).Finite) (h1 : (2 : ℝ) ^ (-499 : ℤ) ≤ Spec.length v)
    (h2 : Spec.length v ≤ 2 ^ (500 : ℤ)) {eps : Ieee f64} (he : eps.Finite) (h0 : 0 ≤ eps.val)
    (h : 2 * eps.val ≤ Spec.length v) : ¬ v.normSquared ≤ eps * eps := by
  have hF := length_fits h1 h2
  have hs := square_near v hn hv h1 h2
  have hl : 0 < Spec.length v := lt_of_lt_of_le (by positivity) h1
  have ht := square_scaled hF he h0 (by linarith)
  rw [le_iff_val hs.1 ht.1, not_le]
  have a := abs_le.mp hs.2
  have b := abs_le.mp ht.2
  have c : eps.val ^ 2 ≤ (Spec.length v / 2) ^ 2 := pow_le_pow_left₀ h0 (by linarith) 2
  have d := mul_le_mul_of_nonneg_right u64_small hF.pos.le
  have := hF.pos
  nlinarith

theorem below_threshold (hn : n ≤ 4) (hv : ∀ i, (v.data i).Finite) (h1 : (2 : ℝ) ^ (-499 : ℤ) ≤ Spec.length v)
    {eps : Ieee f64} (he : eps.Finite) (h : 2 * Spec.length v ≤ eps.val) (h2 : eps.val ≤ 2 ^ (500 : ℤ)) :
    v.normSquared ≤ eps * eps := by
  have hl : 0 < Spec.length v := lt_of_lt_of_le (by positivity) h1
  have hF := length_fits (L := eps.val) (h1.trans (by linarith)) h2
  have hs := square_near v hn hv h1 (le_trans (by linarith) h2)
  have ht := square_scaled hF he (by linarith) le_rfl
  rw [le_iff_val hs.1 ht.1]
  have a := abs_le.mp hs.2
  have b := abs_le.mp ht.2
  have c : Spec.length v ^ 2 ≤ (eps.val / 2) ^ 2 := pow_le_pow_left₀ hl.le (by linarith) 2
  have d := mul_le_mul_of_nonneg_right u64_small hF.pos.le
  have d' := mul_le_mul_of_nonneg_right u64_small (sq_nonneg (Spec.length v))
  have := hF.pos
  nlinarith

end Threshold

/-! ### the inverse -/

/-- the exact inverse -/
noncomputable def inverseOf (a : Quat ℝ) : Quat ℝ := Quat.new (a.s / a.norm ^ 2) (-a.x / a.norm ^ 2) (-a.y / a.norm ^ 2) (-a.z / a.norm ^ 2)

theorem quat_norm_sq (a : Quat ℝ) : a.norm ^ 2 = a.s * a.s + a.x * a.x + a.y * a.y + a.z * a.z := by
  rw [Quat.norm_def, Quat.normSquared_eq, Real.sq_sqrt]
  nlinarith [mul_self_nonneg a.s, mul_self_nonneg a.x, mul_self_nonneg a.y, mul_self_nonneg a.z]

theorem inverseOf_mul {a : Quat ℝ} (h : a.norm ≠ 0) : inverseOf a * a = 1 ∧ a * inverseOf a = 1 := by
  have h2 : a.norm ^ 2 ≠ 0 := pow_ne_zero 2 h
  have e := quat_norm_sq a
  constructor <;> apply Quat.ext4 <;> simp [inverseOf] <;> field_simp <;> first | ring1 | linear_combination -e | linear_combination e

theorem inverse_near {q : Quat (Ieee f64)} (hq : FiniteQuat q) (h1 : (2 : ℝ) ^ (-499 : ℤ) ≤ Spec.length q.coords)
    (h2 : Spec.length q.coords ≤ 2 ^ (500 : ℤ)) :
    QuatNear (q.conjugate / q.normSquared) (inverseOf (realQuat q)) (15 * f64.u / Spec.length q.coords) := by
  have hl : 0 < Spec.length q.coords := lt_of_lt_of_le (by positivity) h1
  have hs := square_near q.coords le_rfl hq h1 h2
  have hu := u64_small
  have hu0 := f64.u_nonneg
  have hL2 : (0 : ℝ) < Spec.length q.coords ^ 2 := by positivity
  have hF : Fits f64 (Spec.length q.coords / Spec.length q.coords ^ 2) := by
    have e : Spec.length q.coords / Spec.length q.coords ^ 2 = (Spec.length q.coords)⁻¹ := by field_simp
    rw [e]
    refine fits64 ?_ ?_
    · calc (2 : ℝ) ^ (-1020 : ℤ) ≤ 2 ^ (-500 : ℤ) := two_zpow_le_self_of_le (by norm_num)
        _ = (2 ^ (500 : ℤ))⁻¹ := by rw [← zpow_neg]
        _ ≤ _ := inv_anti₀ hl h2
    · calc _ ≤ ((2 : ℝ) ^ (-499 : ℤ))⁻¹ := inv_anti₀ (by positivity) h1
        _ = 2 ^ (499 : ℤ) := by rw [← zpow_neg]; norm_num
        _ ≤ _ := two_zpow_le_self_of_le (by norm_num)
  have key : ∀ (x : Ieee f64) (c : ℝ), x.Finite → x.val = c → |c| ≤ Spec.length q.coords →
      Nr (x / q.normSquared) (c / (realQuat q).norm ^ 2) (15 / 2 * f64.u / Spec.length q.coords) := by
    intro x c hx hc hle
    have hx' : Sc (Spec.length q.coords) x c 0 := ⟨hx, by rw [hc, sub_self, abs_zero, zero_mul]⟩
    have h := hx'.div hu hL2 hF hle hs (by norm_num) (by linarith)
    rw [realQuat_norm]
    refine ⟨h.1, h.2.trans ?_⟩
    have e : Spec.length q.coords / Spec.length q.coords ^ 2 = (Spec.length q.coords)⁻¹ := by field_simp
    rw [e, div_eq_mul_inv]
    exact mul_le_mul_of_nonneg_right (by linarith) (by positivity)
  have hc : ∀ i, |(q.coords.data i).val| ≤ Spec.length q.coords := comp_le_length q.coords
  have hc' : ∀ i, |-(q.coords.data i).val| ≤ Spec.length q.coords := fun i => by rw [abs_neg]; exact hc i
  have e15 : 15 * f64.u / Spec.length q.coords = 2 * (15 / 2 * f64.u / Spec.length q.coords) := by ring
  rw [e15]
  apply near_of_parts
  intro i
  fin_cases i
  · exact key _ _ (hq 0) rfl (hc 0)
  · have := key (-(q.coords.data 1)) _ (Is.neg ⟨hq 1, rfl⟩).1 (val_neg _) (hc' 1)
    have e : (q.conjugate / q.normSquared).x = -(q.coords.data 1) / q.normSquared := by simp
    change Nr (q.conjugate / q.normSquared).x _ _
    rw [e]; exact this
  · have := key (-(q.coords.data 2)) _ (Is.neg ⟨hq 2, rfl⟩).1 (val_neg _) (hc' 2)
    have e : (q.conjugate / q.normSquared).y = -(q.coords.data 2) / q.normSquared := by simp
    change Nr (q.conjugate / q.normSquared).y _ _
    rw [e]; exact this
  · have := key (-(q.coords.data 3)) _ (Is.neg ⟨hq 3, rfl⟩).1 (val_neg _) (hc' 3)
    have e : (q.conjugate / q.normSquared).z = -(q.coords.data 3) / q.normSquared := by simp
    change Nr (q.conjugate / q.normSquared).z _ _
    rw [e]; exact this

/-- **C102.**  The inverse of a finite quaternion whose length is at least twice the threshold exists, and it is within
`15` roundings, relative to its length, of the quaternion whose products with the argument, from either side, are one. -/
theorem C102_inverse {q : Quat (Ieee f64)} (hq : FiniteQuat q) (h1 : (2 : ℝ) ^ (-499 : ℤ) ≤ Spec.length q.coords)
    (h2 : Spec.length q.coords ≤ 2 ^ (500 : ℤ)) {eps : Ieee f64} (he : eps.Finite) (h0 : 0 ≤ eps.val)
    (h : 2 * eps.val ≤ Spec.length q.coords) :
    ∃ r a, q.tryInverse eps = some r ∧ a * realQuat q = 1 ∧ realQuat q * a = 1 ∧
      QuatNear r a (15 * 2 ^ (-53 : ℤ) / Spec.length q.coords) := by
  have hl : 0 < Spec.length q.coords := lt_of_lt_of_le (by positivity) h1
  obtain ⟨m1, m2⟩ := inverseOf_mul (a := realQuat q) (by rw [realQuat_norm]; exact hl.ne')
  refine ⟨_, _, ?_, m1, m2, inverse_near hq h1 h2⟩
  simp only [Quat.tryInverse]
  exact if_neg (above_threshold q.coords le_rfl hq h1 h2 he h0 h)

/-- **C102.**  A quaternion of at most half the threshold has no inverse: nothing is divided by a number that small. -/
theorem C102_inverse_none {q : Quat (Ieee f64)} (hq : FiniteQuat q) (h1 : (2 : ℝ) ^ (-499 : ℤ) ≤ Spec.length q.coords)
    {eps : Ieee f64} (he : eps.Finite) (h : 2 * Spec.length q.coords ≤ eps.val) (h2 : eps.val ≤ 2 ^ (500 : ℤ)) :
    q.tryInverse eps = none := by
  simp only [Quat.tryInverse]
  exact if_pos (below_threshold q.coords le_rfl hq h1 he h h2)

/-! ### quotients -/

theorem near_hamilton {r : Quat (Ieee f64)} {a : Quat ℝ} {ε : ℝ} (h : QuatNear r a ε) : ‖hamilton (realQuat r) - hamilton a‖ ≤ ε := by
  rw [← C39_hamilton_sub, hamilton_norm]; exact h.2

/-- a product of factors with relative errors `α` and `β` -/
theorem product_near {q r : Quat (Ieee f64)} {a b : Quat ℝ} {α β : ℝ} (hq : Moderate q) (hr : Moderate r)
    (ha : QuatNear q a (α * a.norm)) (hb : QuatNear r b (β * b.norm)) (hα : 0 ≤ α) (hβ : 0 ≤ β) :
    QuatNear (q * r) (a * b) ((9 * f64.u * ((1 + α) * (1 + β)) + α * (1 + β) + β) * (a.norm * b.norm)) := by
  refine ⟨quat_product_finite hq hr, ?_⟩
  rw [← hamilton_norm, C39_hamilton_sub, C39_hamilton_mul]
  have ea := near_hamilton ha
  have eb := near_hamilton hb
  have ep := quat_product_error hq hr
  rw [← hamilton_norm] at ea eb
  rw [← hamilton_norm a, ← hamilton_norm b]
  set Q := hamilton (realQuat q)
  set R := hamilton (realQuat r)
  set A := hamilton a
  set B := hamilton b
  have nQ : ‖Q‖ ≤ (1 + α) * ‖A‖ := by
    have := norm_sub_norm_le Q A; linarith
  have nR : ‖R‖ ≤ (1 + β) * ‖B‖ := by
    have := norm_sub_norm_le R B; linarith
  have e : hamilton (realQuat (q * r)) - A * B = (hamilton (realQuat (q * r)) - Q * R) + ((Q - A) * R + A * (R - B)) := by noncomm_ring
  rw [e]
  have k1 : ‖Q * R‖ ≤ ((1 + α) * ‖A‖) * ((1 + β) * ‖B‖) := by
    rw [norm_mul]; exact mul_le_mul nQ nR (norm_nonneg _) (by positivity)
  have k2 : ‖(Q - A) * R‖ ≤ (α * ‖A‖) * ((1 + β) * ‖B‖) := by
    rw [norm_mul]; exact mul_le_mul ea nR (norm_nonneg _) (by positivity)
  have k3 : ‖A * (R - B)‖ ≤ ‖A‖ * (β * ‖B‖) := by
    rw [norm_mul]; exact mul_le_mul_of_nonneg_left eb (norm_nonneg _)
  have k4 : (9 : ℝ) * 2 ^ (-53 : ℤ) * ‖Q * R‖ ≤ 9 * f64.u * (((1 + α) * ‖A‖) * ((1 + β) * ‖B‖)) :=
    mul_le_mul_of_nonneg_left k1 (mul_nonneg (by norm_num) f64.u_nonneg)
  calc _ ≤ _ := (norm_add_le _ _).trans (add_le_add ep (norm_add_le _ _))
    _ ≤ _ := by linarith

theorem inverseOf_norm {a : Quat ℝ} (h : 0 < a.norm) : (inverseOf a).norm = a.norm⁻¹ := by
  have e := (inverseOf_mul h.ne').1
  have e2 : (inverseOf a * a).norm = 1 := by rw [e, Quat.norm_def, Quat.normSquared_eq]; simp
  rw [Quat.norm_mul] at e2
  exact eq_inv_of_mul_eq_one_left e2

theorem near_length {r : Quat (Ieee f64)} {a : Quat ℝ} {ε : ℝ} (h : QuatNear r a ε) : |Spec.length r.coords - a.norm| ≤ ε := by
  rw [← hamilton_real, ← hamilton_norm]
  exact (abs_norm_sub_norm_le _ _).trans (near_hamilton h)

theorem moderate_of_near {r : Quat (Ieee f64)} {a : Quat ℝ} {α : ℝ} (h : QuatNear r a (α * a.norm)) (hα : α ≤ 1 / 2)
    (h1 : (2 : ℝ) ^ (-239 : ℤ) ≤ a.norm) (h2 : a.norm ≤ 2 ^ (239 : ℤ)) : Moderate r := by
  have hl := abs_le.mp (near_length h)
  have hp : 0 < a.norm := lt_of_lt_of_le (by positivity) h1
  have hk := mul_le_mul_of_nonneg_right hα hp.le
  have e1 : (2 : ℝ) ^ (-239 : ℤ) = 2 ^ (-240 : ℤ) * 2 := by rw [← zpow_add_one₀ two_ne_zero]; norm_num
  have e2 : (2 : ℝ) ^ (240 : ℤ) = 2 ^ (239 : ℤ) * 2 := by rw [← zpow_add_one₀ two_ne_zero]; norm_num
  refine ⟨h.1, ?_, ?_⟩
  · rw [e1] at h1; linarith
  · rw [e2]; linarith

theorem near_self {q : Quat (Ieee f64)} (hq : FiniteQuat q) : QuatNear q (realQuat q) (0 * (realQuat q).norm) := by
  refine ⟨hq, ?_⟩
  have : realQuat q - realQuat q = 0 := by apply Quat.ext4 <;> simp
  rw [this, Quat.norm_def, Quat.normSquared_eq]; simp

theorem QuatNear_mono {r : Quat (Ieee f64)} {a : Quat ℝ} {ε δ : ℝ} (h : QuatNear r a ε) (hle : ε ≤ δ) : QuatNear r a δ := ⟨h.1, h.2.trans hle⟩

theorem moderate_wide {q : Quat (Ieee f64)} (h : Moderate q) : (2 : ℝ) ^ (-499 : ℤ) ≤ Spec.length q.coords ∧ Spec.length q.coords ≤ 2 ^ (500 : ℤ) :=
  ⟨(two_zpow_le_self_of_le (by norm_num)).trans h.2.1, h.2.2.trans (two_zpow_le_self_of_le (by norm_num))⟩

/-- the computed inverse as a factor of a product -/
theorem inverse_factor {d : Quat (Ieee f64)} (hd : FiniteQuat d) (d1 : (2 : ℝ) ^ (-239 : ℤ) ≤ Spec.length d.coords)
    (d2 : Spec.length d.coords ≤ 2 ^ (239 : ℤ)) : Moderate d ∧ Moderate (d.conjugate / d.normSquared) ∧
      QuatNear (d.conjugate / d.normSquared) (inverseOf (realQuat d)) (15 * f64.u * (inverseOf (realQuat d)).norm) := by
  have hM : Moderate d := ⟨hd, (two_zpow_le_self_of_le (by norm_num)).trans d1, d2.trans (two_zpow_le_self_of_le (by norm_num))⟩
  obtain ⟨w1, w2⟩ := moderate_wide hM
  have hp : 0 < (realQuat d).norm := by rw [realQuat_norm]; exact lt_of_lt_of_le (by positivity) w1
  have hn := inverse_near hd w1 w2
  rw [← realQuat_norm, div_eq_mul_inv, ← inverseOf_norm hp] at hn
  refine ⟨hM, moderate_of_near hn (by have := u64_small; linarith) ?_ ?_, hn⟩
  · rw [inverseOf_norm hp, realQuat_norm]
    calc (2 : ℝ) ^ (-239 : ℤ) = (2 ^ (239 : ℤ))⁻¹ := zpow_neg _ _
      _ ≤ _ := inv_anti₀ (by rw [← realQuat_norm]; exact hp) d2
  · rw [inverseOf_norm hp, realQuat_norm]
    calc _ ≤ ((2 : ℝ) ^ (-239 : ℤ))⁻¹ := inv_anti₀ (by positivity) d1
      _ = _ := by rw [← zpow_neg]; norm_num

/-- **C102.**  The left quotient is within `25` roundings, relative to its length, of the solution of `left * x = q`. -/
theorem C102_div_left {q left : Quat (Ieee f64)} (hq : FiniteQuat q) (q1 : (2 : ℝ) ^ (-240 : ℤ) ≤ Spec.length q.coords)
    (q2 : Spec.length q.coords ≤ 2 ^ (240 : ℤ)) (hl : FiniteQuat left) (l1 : (2 : ℝ) ^ (-239 : ℤ) ≤ Spec.length left.coords)
    (l2 : Spec.length left.coords ≤ 2 ^ (239 : ℤ)) {eps : Ieee f64} (he : eps.Finite) (h0 : 0 ≤ eps.val)
    (h : 2 * eps.val ≤ Spec.length left.coords) :
    ∃ r x, q.divLeft eps left = some r ∧ realQuat left * x = realQuat q ∧ QuatNear r x (25 * 2 ^ (-53 : ℤ) * x.norm) := by
  obtain ⟨hM, hI, hn⟩ := inverse_factor hl l1 l2
  obtain ⟨w1, w2⟩ := moderate_wide hM
  have hp : 0 < (realQuat left).norm := by rw [realQuat_norm]; exact lt_of_lt_of_le (by positivity) w1
  refine ⟨left.conjugate / left.normSquared * q, inverseOf (realQuat left) * realQuat q, ?_, ?_, ?_⟩
  · simp only [Quat.divLeft, Quat.tryInverse]
    rw [if_neg (show ¬ left.normSquared ≤ eps * eps from above_threshold left.coords le_rfl hl w1 w2 he h0 h)]
    rfl
  · rw [← Quat.mul_assoc', (inverseOf_mul hp.ne').2]; apply Quat.ext4 <;> simp
  · have := product_near hI ⟨hq, q1, q2⟩ hn (near_self hq) (mul_nonneg (by norm_num) f64.u_nonneg) le_rfl
    refine QuatNear_mono this ?_
    rw [Quat.norm_mul]
    refine mul_le_mul_of_nonneg_right ?_ (mul_nonneg (Quat.norm_nonneg _) (Quat.norm_nonneg _))
    rw [show f64.u = (2 : ℝ) ^ (-53 : ℤ) from rfl]; norm_num

/-- **C102.**  The right quotient is within `25` roundings, relative to its length, of the solution of `x * right = q`. -/
theorem C102_div_right {q right : Quat (Ieee f64)} (hq : FiniteQuat q) (q1 : (2 : ℝ) ^ (-240 : ℤ) ≤ Spec.length q.coords)
    (q2 : Spec.length q.coords ≤ 2 ^ (240 : ℤ)) (hl : FiniteQuat right) (l1 : (2 : ℝ) ^ (-239 : ℤ) ≤ Spec.length right.coords)
    (l2 : Spec.length right.coords ≤ 2 ^ (239 : ℤ)) {eps : Ieee f64} (he : eps.Finite) (h0 : 0 ≤ eps.val)
    (h : 2 * eps.val ≤ Spec.length right.coords) :
    ∃ r x, q.divRight eps right = some r ∧ x * realQuat right = realQuat q ∧ QuatNear r x (25 * 2 ^ (-53 : ℤ) * x.norm) := by
  obtain ⟨hM, hI, hn⟩ := inverse_factor hl l1 l2
  obtain ⟨w1, w2⟩ := moderate_wide hM
  have hp : 0 < (realQuat right).norm := by rw [realQuat_norm]; exact lt_of_lt_of_le (by positivity) w1
  refine ⟨q * (right.conjugate / right.normSquared), realQuat q * inverseOf (realQuat right), ?_, ?_, ?_⟩
  · simp only [Quat.divRight, Quat.tryInverse]
    rw [if_neg (show ¬ right.normSquared ≤ eps * eps from above_threshold right.coords le_rfl hl w1 w2 he h0 h)]
    rfl
  · rw [Quat.mul_assoc', (inverseOf_mul hp.ne').1]; apply Quat.ext4 <;> simp
  · have := product_near ⟨hq, q1, q2⟩ hI (near_self hq) hn le_rfl (mul_nonneg (by norm_num) f64.u_nonneg)
    refine QuatNear_mono this ?_
    rw [Quat.norm_mul]
    refine mul_le_mul_of_nonneg_right ?_ (mul_nonneg (Quat.norm_nonneg _) (Quat.norm_nonneg _))
    rw [show f64.u = (2 : ℝ) ^ (-53 : ℤ) from rfl]; norm_num

/-- **C102.**  Multiplying the computed quotient by the divisor, on the side it was divided from, gives the dividend back
up to `35` roundings of its length. -/
theorem C102_quotient_returns {q d : Quat (Ieee f64)} (hq : FiniteQuat q) (q1 : (2 : ℝ) ^ (-119 : ℤ) ≤ Spec.length q.coords)
    (q2 : Spec.length q.coords ≤ 2 ^ (119 : ℤ)) (hd : FiniteQuat d) (d1 : (2 : ℝ) ^ (-119 : ℤ) ≤ Spec.length d.coords)
    (d2 : Spec.length d.coords ≤ 2 ^ (119 : ℤ)) {eps : Ieee f64} (he : eps.Finite) (h0 : 0 ≤ eps.val)
    (h : 2 * eps.val ≤ Spec.length d.coords) :
    (∃ r, q.divLeft eps d = some r ∧ QuatNear (d * r) (realQuat q) (35 * 2 ^ (-53 : ℤ) * Spec.length q.coords)) ∧
    (∃ r, q.divRight eps d = some r ∧ QuatNear (r * d) (realQuat q) (35 * 2 ^ (-53 : ℤ) * Spec.length q.coords)) := by
  have z1 : ∀ {k : ℤ}, k ≤ -119 → (2 : ℝ) ^ k ≤ 2 ^ (-119 : ℤ) := fun h => two_zpow_le_self_of_le h
  have z2 : ∀ {k : ℤ}, 119 ≤ k → (2 : ℝ) ^ (119 : ℤ) ≤ 2 ^ k := fun h => two_zpow_le_self_of_le h
  have dM : Moderate d := ⟨hd, (z1 (by norm_num)).trans d1, d2.trans (z2 (by norm_num))⟩
  have dp : 0 < (realQuat d).norm := by rw [realQuat_norm]; exact lt_of_lt_of_le (by positivity) d1
  have hsmall : (9 * f64.u * ((1 + 0) * (1 + 25 * 2 ^ (-53 : ℤ))) + 0 * (1 + 25 * 2 ^ (-53 : ℤ)) + 25 * 2 ^ (-53 : ℤ)) ≤ 35 * 2 ^ (-53 : ℤ) ∧
      (9 * f64.u * ((1 + 25 * 2 ^ (-53 : ℤ)) * (1 + 0)) + 25 * 2 ^ (-53 : ℤ) * (1 + 0) + 0) ≤ 35 * 2 ^ (-53 : ℤ) := by
    rw [show f64.u = (2 : ℝ) ^ (-53 : ℤ) from rfl]; constructor <;> norm_num
  have range : ∀ x : Quat ℝ, x.norm * (realQuat d).norm = (realQuat q).norm → (2 : ℝ) ^ (-239 : ℤ) ≤ x.norm ∧ x.norm ≤ 2 ^ (239 : ℤ) := by
    intro x hx
    have ex : x.norm = (realQuat q).norm / (realQuat d).norm := by rw [← hx]; field_simp
    rw [ex, realQuat_norm, realQuat_norm]
    rw [realQuat_norm] at dp
    constructor
    · rw [le_div_iff₀ dp]
      calc (2 : ℝ) ^ (-239 : ℤ) * Spec.length d.coords ≤ 2 ^ (-239 : ℤ) * 2 ^ (119 : ℤ) := mul_le_mul_of_nonneg_left d2 (by positivity)
        _ = 2 ^ (-120 : ℤ) := by rw [← zpow_add₀ two_ne_zero]; norm_num
        _ ≤ _ := (z1 (by norm_num)).trans q1
    · rw [div_le_iff₀ dp]
      calc _ ≤ (2 : ℝ) ^ (119 : ℤ) := q2
        _ ≤ 2 ^ (120 : ℤ) := z2 (by norm_num)
        _ = 2 ^ (239 : ℤ) * 2 ^ (-119 : ℤ) := by rw [← zpow_add₀ two_ne_zero]; norm_num
        _ ≤ _ := mul_le_mul_of_nonneg_left d1 (by positivity)
  have a1 := (z1 (k := -240) (by norm_num)).trans q1
  have a2 := q2.trans (z2 (k := 240) (by norm_num))
  have b1 := (z1 (k := -239) (by norm_num)).trans d1
  have b2 := d2.trans (z2 (k := 239) (by norm_num))
  constructor
  · obtain ⟨r, x, hr, hx, hn⟩ := C102_div_left hq a1 a2 hd b1 b2 he h0 h
    have hnx : x.norm * (realQuat d).norm = (realQuat q).norm := by rw [mul_comm, ← Quat.norm_mul, hx]
    obtain ⟨x1, x2⟩ := range x hnx
    have hp := product_near dM (moderate_of_near hn (by norm_num) x1 x2) (near_self hd) hn le_rfl (by positivity)
    rw [hx, mul_comm (realQuat d).norm, hnx, realQuat_norm] at hp
    exact ⟨r, hr, QuatNear_mono hp (mul_le_mul_of_nonneg_right hsmall.1 (Real.sqrt_nonneg _))⟩
  · obtain ⟨r, x, hr, hx, hn⟩ := C102_div_right hq a1 a2 hd b1 b2 he h0 h
    have hnx : x.norm * (realQuat d).norm = (realQuat q).norm := by rw [← Quat.norm_mul, hx]
    obtain ⟨x1, x2⟩ := range x hnx
    have hp := product_near (moderate_of_near hn (by norm_num) x1 x2) dM hn (near_self hd) (by positivity) le_rfl
    rw [hx, hnx, realQuat_norm] at hp
    exact ⟨r, hr, QuatNear_mono hp (mul_le_mul_of_nonneg_right hsmall.2 (Real.sqrt_nonneg _))⟩

/-! ### the square root -/

theorem is_halfF : Is ((1 : Ieee f64) / (1 + 1)) (1 / 2) := by
  have h2 : Is ((1 : Ieee f64) + 1) 2 := Is.one.add Is.one (fl64 1 4503599627370496) (by norm_num)
  exact Is.one.div h2 (by norm_num) (fl64 (-1) 4503599627370496) (by norm_num)

theorem vector_length (q : Quat (Ieee f64)) : Spec.length q.coords ^ 2 = q.scalar.val ^ 2 + Spec.length q.vector ^ 2 := by
  rw [Spec.length, Spec.length, Real.sq_sqrt (Finset.sum_nonneg fun _ _ => sq_nonneg _),
    Real.sq_sqrt (Finset.sum_nonneg fun _ _ => sq_nonneg _), Fin.sum_univ_four, Fin.sum_univ_three]
  simp only [Quat.coords_data, Quat.vector_data, Quat.scalar_eq]
  simp
  ring

/-- the principal square root of a quaternion of length `L` whose vector part is not zero -/
noncomputable def rootOf (a : Quat ℝ) (L : ℝ) : Quat ℝ :=
  Quat.new ((L + a.s) * Real.sqrt (1 / 2 / (L + a.s))) (a.x * Real.sqrt (1 / 2 / (L + a.s))) (a.y * Real.sqrt (1 / 2 / (L + a.s)))
    (a.z * Real.sqrt (1 / 2 / (L + a.s)))

theorem rootOf_sq {a : Quat ℝ} {L : ℝ} (hL : L ^ 2 = a.s * a.s + a.x * a.x + a.y * a.y + a.z * a.z) (h : 0 < L + a.s) :
    rootOf a L * rootOf a L = a := by
  have e : Real.sqrt (1 / 2 / (L + a.s)) * Real.sqrt (1 / 2 / (L + a.s)) = 1 / 2 / (L + a.s) := Real.mul_self_sqrt (by positivity)
  have e1 : Real.sqrt (1 / 2 / (L + a.s)) * Real.sqrt (1 / 2 / (L + a.s)) * (L + a.s) = 1 / 2 := by rw [e]; field_simp
  have hne := h.ne'
  have e2 : Real.sqrt (1 / 2 / (L + a.s)) * Real.sqrt (1 / 2 / (L + a.s)) * ((L + a.s) * (L + a.s) - (a.x * a.x + a.y * a.y + a.z * a.z)) = a.s := by
    rw [e]
    have : (L + a.s) * (L + a.s) - (a.x * a.x + a.y * a.y + a.z * a.z) = 2 * a.s * (L + a.s) := by linear_combination hL
    rw [this]; field_simp
  unfold rootOf
  generalize Real.sqrt (1 / 2 / (L + a.s)) = c at e1 e2
  apply Quat.ext4 <;> simp
  · linear_combination e2
  · linear_combination 2 * a.x * e1
  · linear_combination 2 * a.y * e1
  · linear_combination 2 * a.z * e1

theorem rootOf_scalar {a : Quat ℝ} {L : ℝ} (h : 0 < L + a.s) : 0 < (rootOf a L).s := by
  change 0 < (L + a.s) * Real.sqrt (1 / 2 / (L + a.s))
  have : 0 < Real.sqrt (1 / 2 / (L + a.s)) := Real.sqrt_pos.mpr (by positivity)
  positivity

/-- the computed factors of the square root and the sizes of their products -/
theorem root_parts [Lib f64] {q : Quat (Ieee f64)} (hq : FiniteQuat q) (v1 : (2 : ℝ) ^ (-499 : ℤ) ≤ Spec.length q.vector)
    (h2 : Spec.length q.coords ≤ 2 ^ (500 : ℤ)) {K : ℝ} (k1 : 1 ≤ K) (k2 : K ≤ 2 ^ (30 : ℤ))
    (hK : Spec.length q.coords ≤ K * (Spec.length q.coords + q.scalar.val)) :
    QuatNear (Quat.fromParts ((fsqrt q.normSquared + q.scalar) * fsqrt (1 / (1 + 1) / (fsqrt q.normSquared + q.scalar)))
      (q.vector * fsqrt (1 / (1 + 1) / (fsqrt q.normSquared + q.scalar))))
      (rootOf (realQuat q) (Spec.length q.coords)) (70 * K * f64.u * Real.sqrt (Spec.length q.coords)) := by
  have hu := u64_small
  have hu0 := f64.u_nonneg
  have hvec := vector_length q
  have hle : Spec.length q.vector ≤ Spec.length q.coords := by
    refine le_of_sq_le_sq ?_ (Real.sqrt_nonneg _)
    have := sq_nonneg q.scalar.val
    linarith
  have hs : |q.scalar.val| ≤ Spec.length q.coords := comp_le_length q.coords 0
  have hv : ∀ i, |(q.vector.data i).val| ≤ Spec.length q.vector := comp_le_length q.vector
  have h1 : (2 : ℝ) ^ (-499 : ℤ) ≤ Spec.length q.coords := v1.trans hle
  have hn := square_near q.coords le_rfl hq h1 h2
  have hq0 : (q.scalar).Finite := hq 0
  have hvf : ∀ i, (q.vector.data i).Finite := fun i => by fin_cases i; exacts [hq 1, hq 2, hq 3]
  change Sc _ q.normSquared _ _ at hn
  set L := Spec.length q.coords with hLdef
  set V := Spec.length q.vector with hVdef
  set s := q.scalar with hsdef
  have hL : 0 < L := lt_of_lt_of_le (by positivity) h1
  have hV : 0 < V := lt_of_lt_of_le (by positivity) v1
  have hs' := abs_le.mp hs
  set σ := L + s.val with hσdef
  have hσ : 0 < σ := by
    by_contra hc
    have : K * σ ≤ 0 := mul_nonpos_of_nonneg_of_nonpos (by linarith) (not_lt.mp hc)
    linarith
  have hσ2 : σ ≤ 2 * L := by linarith
  have hKu : K * f64.u ≤ 1 / 1000000 := by
    rw [show f64.u = (2 : ℝ) ^ (-53 : ℤ) from rfl]
    calc K * 2 ^ (-53 : ℤ) ≤ 2 ^ (30 : ℤ) * 2 ^ (-53 : ℤ) := mul_le_mul_of_nonneg_right k2 (by positivity)
      _ ≤ _ := by norm_num
  have huK : f64.u ≤ K * f64.u := le_mul_of_one_le_left hu0 k1
  -- sizes
  have p30 : (0 : ℝ) < 2 ^ (30 : ℤ) := by positivity
  have hσlo : (2 : ℝ) ^ (-529 : ℤ) ≤ σ := by
    have a1 : K * σ ≤ 2 ^ (30 : ℤ) * σ := mul_le_mul_of_nonneg_right k2 hσ.le
    have a2 : (2 : ℝ) ^ (30 : ℤ) * 2 ^ (-529 : ℤ) = 2 ^ (-499 : ℤ) := by rw [← zpow_add₀ two_ne_zero]; norm_num
    refine le_of_mul_le_mul_left ?_ p30
    rw [a2]
    exact (h1.trans hK).trans a1
  have hσhi : σ ≤ 2 ^ (501 : ℤ) := by
    have : (2 : ℝ) ^ (501 : ℤ) = 2 * 2 ^ (500 : ℤ) := by rw [← zpow_one_add₀ two_ne_zero]; norm_num
    rw [this]
    exact hσ2.trans (mul_le_mul_of_nonneg_left h2 (by norm_num))
  have hF2L : Fits f64 (2 * L) := by
    refine fits64 ?_ ?_
    · exact ((two_zpow_le_self_of_le (by norm_num)).trans h1).trans (by linarith)
    · calc 2 * L ≤ 2 * 2 ^ (500 : ℤ) := mul_le_mul_of_nonneg_left h2 (by norm_num)
        _ = (2 : ℝ) ^ (501 : ℤ) := by rw [← zpow_one_add₀ two_ne_zero]; norm_num
        _ ≤ _ := two_zpow_le_self_of_le (by norm_num)
  have hsqL : Real.sqrt (L ^ 2) = L := Real.sqrt_sq hL.le
  have hFL : Fits f64 (Real.sqrt (L ^ 2)) := by
    rw [hsqL]; exact fits64 ((two_zpow_le_self_of_le (by norm_num)).trans h1) (h2.trans (two_zpow_le_self_of_le (by norm_num)))
  have hnorm := Spec.Sc.sqrt (by positivity) hFL hn (by linarith)
  rw [hsqL] at hnorm
  have hnorm' : Sc (2 * L) (fsqrt q.normSquared) L (4 * f64.u) := hnorm.rescale (by
    rw [← mul_assoc]
    exact mul_le_mul_of_nonneg_right (by linarith) hL.le)
  have hs0 : Sc (2 * L) s s.val 0 := ⟨hq0, by rw [sub_self, abs_zero, zero_mul]⟩
  have hsum := hnorm'.add hu hF2L hs0 (by rw [abs_of_pos hσ]; exact hσ2) (by linarith)
  have hsum' : Sc σ (fsqrt q.normSquared + s) σ (13 * (K * f64.u)) := by
    refine hsum.rescale ?_
    have a1 : f64.u * L ≤ f64.u * (K * σ) := mul_le_mul_of_nonneg_left hK hu0
    have a2 : 0 ≤ f64.u * (K * σ) := mul_nonneg hu0 (mul_nonneg (by linarith) hσ.le)
    calc _ = (4 + 203 / 100) * 2 * (f64.u * L) := by ring
      _ ≤ 13 * (f64.u * (K * σ)) := by linarith
      _ = _ := by ring
  set w := fsqrt q.normSquared + s with hw
  have hhalf : Sc (1 / 2) ((1 : Ieee f64) / (1 + 1)) (1 / 2) 0 := by
    have := is_halfF
    exact ⟨this.1, by rw [this.2, sub_self, abs_zero, zero_mul]⟩
  set τ := 1 / 2 / σ with hτdef
  have hτ : 0 < τ := by positivity
  have hτlo : (2 : ℝ) ^ (-502 : ℤ) ≤ τ := by
    rw [hτdef, le_div_iff₀ hσ]
    calc (2 : ℝ) ^ (-502 : ℤ) * σ ≤ 2 ^ (-502 : ℤ) * 2 ^ (501 : ℤ) := mul_le_mul_of_nonneg_left hσhi (by positivity)
      _ = _ := by rw [← zpow_add₀ two_ne_zero]; norm_num
  have hτhi : τ ≤ 2 ^ (528 : ℤ) := by
    rw [hτdef, div_le_iff₀ hσ]
    calc (1 / 2 : ℝ) = 2 ^ (528 : ℤ) * 2 ^ (-529 : ℤ) := by rw [← zpow_add₀ two_ne_zero]; norm_num
      _ ≤ _ := mul_le_mul_of_nonneg_left hσlo (by positivity)
  have hFτ : Fits f64 τ := fits64 ((two_zpow_le_self_of_le (by norm_num)).trans hτlo) (hτhi.trans (two_zpow_le_self_of_le (by norm_num)))
  have hdiv := hhalf.div hu hσ hFτ (by norm_num) hsum' (by norm_num) (by linarith)
  have hdiv' : Sc τ ((1 : Ieee f64) / (1 + 1) / w) τ (16 * (K * f64.u)) := hdiv.mono hτ.le (by linarith)
  set c0 := Real.sqrt τ with hc0
  have hc0lo : (2 : ℝ) ^ (-251 : ℤ) ≤ c0 := by
    refine Real.le_sqrt_of_sq_le (le_trans (le_of_eq ?_) hτlo)
    rw [sq, ← zpow_add₀ two_ne_zero]; norm_num
  have hc0hi : c0 ≤ 2 ^ (264 : ℤ) := by
    refine Real.sqrt_le_iff.mpr ⟨by positivity, hτhi.trans (le_of_eq ?_)⟩
    rw [sq, ← zpow_add₀ two_ne_zero]; norm_num
  have hc0p : 0 < c0 := lt_of_lt_of_le (by positivity) hc0lo
  have hFc : Fits f64 c0 := fits64 ((two_zpow_le_self_of_le (by norm_num)).trans hc0lo) (hc0hi.trans (two_zpow_le_self_of_le (by norm_num)))
  have hc := Spec.Sc.sqrt hτ hFc hdiv' (by linarith)
  have hc' : Sc c0 (fsqrt ((1 : Ieee f64) / (1 + 1) / w)) c0 (19 * (K * f64.u)) := hc.mono hc0p.le (by linarith)
  set c := fsqrt ((1 : Ieee f64) / (1 + 1) / w) with hcdef
  have hcsq : c0 * c0 = τ := Real.mul_self_sqrt hτ.le
  have hτσ : τ * σ = 1 / 2 := by rw [hτdef]; field_simp
  -- the sizes of the products
  have hrootL : ∀ y : ℝ, 0 ≤ y → y * y ≤ L → y ≤ Real.sqrt L := fun y h0 h => Real.le_sqrt_of_sq_le (by rw [sq]; exact h)
  have hA : σ * c0 ≤ Real.sqrt L := by
    refine hrootL _ (by positivity) ?_
    have : σ * c0 * (σ * c0) = σ / 2 := by linear_combination σ * σ * hcsq + σ * hτσ
    rw [this]; linarith
  have hB : V * c0 ≤ Real.sqrt L := by
    refine hrootL _ (by positivity) ?_
    have e : V * c0 * (V * c0) = (L - s.val) / 2 := by
      have e1 : V ^ 2 = (L - s.val) * σ := by rw [hσdef]; linear_combination -hvec
      linear_combination V * V * hcsq + τ * e1 + (L - s.val) * hτσ
    rw [e]; linarith
  have hFA : Fits f64 (σ * c0) := by
    refine fits64 ?_ ?_
    · calc (2 : ℝ) ^ (-1020 : ℤ) ≤ 2 ^ (-529 : ℤ) * 2 ^ (-251 : ℤ) := by
            rw [← zpow_add₀ two_ne_zero]; exact two_zpow_le_self_of_le (by norm_num)
        _ ≤ _ := mul_le_mul hσlo hc0lo (by positivity) hσ.le
    · calc σ * c0 ≤ 2 ^ (501 : ℤ) * 2 ^ (264 : ℤ) := mul_le_mul hσhi hc0hi hc0p.le (by positivity)
        _ ≤ _ := by rw [← zpow_add₀ two_ne_zero]; exact two_zpow_le_self_of_le (by norm_num)
  have hFB : Fits f64 (V * c0) := by
    refine fits64 ?_ ?_
    · calc (2 : ℝ) ^ (-1020 : ℤ) ≤ 2 ^ (-499 : ℤ) * 2 ^ (-251 : ℤ) := by
            rw [← zpow_add₀ two_ne_zero]; exact two_zpow_le_self_of_le (by norm_num)
        _ ≤ _ := mul_le_mul v1 hc0lo (by positivity) hV.le
    · calc V * c0 ≤ 2 ^ (500 : ℤ) * 2 ^ (264 : ℤ) := mul_le_mul (hle.trans h2) hc0hi hc0p.le (by positivity)
        _ ≤ _ := by rw [← zpow_add₀ two_ne_zero]; exact two_zpow_le_self_of_le (by norm_num)
  have hKu0 : 0 ≤ K * f64.u := by linarith
  have hsc := hsum'.mulSc hu hFA hσ hc0p (le_of_eq (abs_of_pos hσ)) hc' (le_of_eq (abs_of_pos hc0p)) (by linarith) (by linarith)
  have hpart0 : Nr (w * c) (σ * c0) (35 * (K * f64.u) * Real.sqrt L) := by
    refine ⟨hsc.1, hsc.2.trans ?_⟩
    exact mul_le_mul (by linarith) hA (by positivity) (by linarith)
  have hparts : ∀ i, Nr (q.vector.data i * c) ((q.vector.data i).val * c0) (35 * (K * f64.u) * Real.sqrt L) := by
    intro i
    have hx : Sc V (q.vector.data i) (q.vector.data i).val 0 := ⟨hvf i, by rw [sub_self, abs_zero, zero_mul]⟩
    have h := hx.mulSc hu hFB hV hc0p (hv i) hc' (le_of_eq (abs_of_pos hc0p)) (by norm_num) (by linarith)
    refine ⟨h.1, h.2.trans ?_⟩
    exact mul_le_mul (by linarith) hB (by positivity) (by linarith)
  have e70 : 70 * K * f64.u * Real.sqrt L = 2 * (35 * (K * f64.u) * Real.sqrt L) := by ring
  rw [e70]
  apply near_of_parts
  intro i
  fin_cases i
  · exact hpart0
  · have := hparts 0
    change Nr (Quat.fromParts (w * c) (q.vector * c)).x _ _
    rw [Quat.fromParts_x, Vec.mulS_data]; exact this
  · have := hparts 1
    change Nr (Quat.fromParts (w * c) (q.vector * c)).y _ _
    rw [Quat.fromParts_y, Vec.mulS_data]; exact this
  · have := hparts 2
    change Nr (Quat.fromParts (w * c) (q.vector * c)).z _ _
    rw [Quat.fromParts_z, Vec.mulS_data]; exact this

/-- **C102.**  The square root of a quaternion whose vector part is at least twice the threshold is finite and close to a
quaternion with positive scalar part whose square is the argument.  The error is `70 K` roundings of the length of the
root, where `K` measures the cancellation of the length against a negative scalar part. -/
theorem C102_sqrt [Lib f64] {q : Quat (Ieee f64)} (hq : FiniteQuat q) (v1 : (2 : ℝ) ^ (-499 : ℤ) ≤ Spec.length q.vector)
    (h2 : Spec.length q.coords ≤ 2 ^ (500 : ℤ)) {K : ℝ} (k1 : 1 ≤ K) (k2 : K ≤ 2 ^ (30 : ℤ))
    (hK : Spec.length q.coords ≤ K * (Spec.length q.coords + q.scalar.val)) {eps : Ieee f64} (he : eps.Finite)
    (h0 : 0 ≤ eps.val) (h : 2 * eps.val ≤ Spec.length q.vector) :
    ∃ a : Quat ℝ, a * a = realQuat q ∧ 0 < a.scalar ∧
      QuatNear (q.sqrt eps) a (70 * K * 2 ^ (-53 : ℤ) * Real.sqrt (Spec.length q.coords)) := by
  have hvec := vector_length q
  have hle : Spec.length q.vector ≤ Spec.length q.coords := by
    refine le_of_sq_le_sq ?_ (Real.sqrt_nonneg _)
    have := sq_nonneg q.scalar.val
    linarith
  have h1 := v1.trans hle
  have hL : 0 < Spec.length q.coords := lt_of_lt_of_le (by positivity) h1
  have hvf : ∀ i, (q.vector.data i).Finite := fun i => by fin_cases i; exacts [hq 1, hq 2, hq 3]
  have hσ : 0 < Spec.length q.coords + (realQuat q).s := by
    change 0 < Spec.length q.coords + q.scalar.val
    by_contra hc
    have : K * (Spec.length q.coords + q.scalar.val) ≤ 0 := mul_nonpos_of_nonneg_of_nonpos (by linarith) (not_lt.mp hc)
    linarith
  refine ⟨rootOf (realQuat q) (Spec.length q.coords), rootOf_sq ?_ hσ, rootOf_scalar hσ, ?_⟩
  · rw [← realQuat_norm, quat_norm_sq]
  · have hp := root_parts hq v1 h2 k1 k2 hK
    have e1 : ¬ q.normSquared ≤ eps * eps := above_threshold q.coords le_rfl hq h1 h2 he h0 (h.trans hle)
    have e2 : ¬ q.vector.normSquared ≤ eps * eps := above_threshold q.vector (by norm_num) hvf v1 (hle.trans h2) he h0 h
    simp only [Quat.sqrt]
    rw [if_neg e1, if_neg e2]
    exact hp

theorem zero_vector_square {v : Vec (Ieee f64) 3} (hv : ∀ i, Is (v.data i) 0) : Is v.normSquared 0 := by
  have sq : ∀ i, Is (v.data i * v.data i) 0 := fun i => (hv i).mul (hv i) (by rw [mul_zero]; exact f64.zero) (by simp)
  have e : v.normSquared = ((0 + v.data 0 * v.data 0) + v.data 1 * v.data 1) + v.data 2 * v.data 2 := rfl
  rw [e]
  exact ((Is.zero.zero_add (sq 0) (by simp)).zero_add (sq 1) (by simp)).zero_add (sq 2) (by simp)

/-- **C102.**  The square root of a real number: whatever its sign, and whatever the signs of the zeros of the vector part,
the result is close to a quaternion whose square is that number. -/
theorem C102_sqrt_real [Lib f64] {q : Quat (Ieee f64)} (hq : FiniteQuat q) (hv : ∀ i, (q.vector.data i).val = 0)
    (h1 : (2 : ℝ) ^ (-499 : ℤ) ≤ |q.scalar.val|) (h2 : |q.scalar.val| ≤ 2 ^ (500 : ℤ)) {eps : Ieee f64} (he : eps.Finite)
    (h0 : 0 ≤ eps.val) (h : 2 * eps.val ≤ |q.scalar.val|) :
    ∃ a : Quat ℝ, a * a = realQuat q ∧ 0 ≤ a.scalar ∧
      QuatNear (q.sqrt eps) a (19 * 2 ^ (-53 : ℤ) * Real.sqrt |q.scalar.val|) := by
  have hvf : ∀ i, (q.vector.data i).Finite := fun i => by fin_cases i; exacts [hq 1, hq 2, hq 3]
  have hV := zero_vector_square fun i => ⟨hvf i, hv i⟩
  have hlen : Spec.length q.coords = |q.scalar.val| := by
    have e := vector_length q
    have e0 : Spec.length q.vector = 0 := by
      rw [Spec.length, Fin.sum_univ_three, hv 0, hv 1, hv 2]; simp
    rw [e0] at e
    refine (abs_eq_abs.mpr ?_ : |Spec.length q.coords| = |q.scalar.val|) ▸ (abs_of_nonneg (Real.sqrt_nonneg _)).symm
    exact sq_eq_sq_iff_eq_or_eq_neg.mp (by rw [e]; ring)
  rw [← hlen] at h1 h2 h ⊢
  have hL : 0 < Spec.length q.coords := lt_of_lt_of_le (by positivity) h1
  have hu := u64_small
  have hn := square_near q.coords le_rfl hq h1 h2
  have hsqL : Real.sqrt (Spec.length q.coords ^ 2) = Spec.length q.coords := Real.sqrt_sq hL.le
  have hFL : Fits f64 (Real.sqrt (Spec.length q.coords ^ 2)) := by
    rw [hsqL]; exact fits64 ((two_zpow_le_self_of_le (by norm_num)).trans h1) (h2.trans (two_zpow_le_self_of_le (by norm_num)))
  have hnorm := Spec.Sc.sqrt (by positivity) hFL hn (by linarith)
  rw [hsqL] at hnorm
  have hFr : Fits f64 (Real.sqrt (Spec.length q.coords)) := by
    refine fits64 ?_ ?_
    · refine Real.le_sqrt_of_sq_le (le_trans ?_ h1)
      rw [sq, ← zpow_add₀ two_ne_zero]; exact two_zpow_le_self_of_le (by norm_num)
    · refine Real.sqrt_le_iff.mpr ⟨by positivity, h2.trans ?_⟩
      rw [sq, ← zpow_add₀ two_ne_zero]; exact two_zpow_le_self_of_le (by norm_num)
  have hroot := Spec.Sc.sqrt hL hFr hnorm (by linarith)
  change Sc _ (fsqrt (fsqrt q.normSquared)) _ _ at hroot
  have hu0 := f64.u_nonneg
  have hr0 := Real.sqrt_nonneg (Spec.length q.coords)
  have hroot' : Nr (fsqrt (fsqrt q.normSquared)) (Real.sqrt (Spec.length q.coords)) (19 / 2 * f64.u * Real.sqrt (Spec.length q.coords)) :=
    ⟨hroot.1, hroot.2.trans (mul_le_mul_of_nonneg_right (by linarith) hr0)⟩
  have hz : Nr (0 : Ieee f64) 0 (19 / 2 * f64.u * Real.sqrt (Spec.length q.coords)) :=
    ⟨finite_zero, by rw [show (0 : Ieee f64).val = 0 from rfl, sub_self, abs_zero]; positivity⟩
  have e19 : 19 * 2 ^ (-53 : ℤ) * Real.sqrt (Spec.length q.coords) = 2 * (19 / 2 * f64.u * Real.sqrt (Spec.length q.coords)) := by
    rw [show f64.u = (2 : ℝ) ^ (-53 : ℤ) from rfl]; ring
  have e1 : ¬ q.normSquared ≤ eps * eps := above_threshold q.coords le_rfl hq h1 h2 he h0 h
  have hFq := length_fits h1 h2
  have hee := square_scaled hFq he h0 (by linarith)
  have e2 : q.vector.normSquared ≤ eps * eps := by
    rw [le_iff_val hV.1 hee.1, hV.2, val_mul hee.1]
    exact f64.nonneg (mul_self_nonneg _)
  have hsq : Real.sqrt (Spec.length q.coords) * Real.sqrt (Spec.length q.coords) = |q.scalar.val| := by
    rw [Real.mul_self_sqrt hL.le, hlen]
  have hvx : (realQuat q).x = 0 := hv 0
  have hvy : (realQuat q).y = 0 := hv 1
  have hvz : (realQuat q).z = 0 := hv 2
  have hvs : (realQuat q).s = q.scalar.val := rfl
  rw [e19]
  simp only [Quat.sqrt]
  rw [if_neg e1, if_pos e2]
  have hq0 : q.scalar.Finite := hq 0
  by_cases hpos : q.scalar > 0
  · rw [if_pos hpos]
    have hp : 0 < q.scalar.val := (Is.lt_iff Is.zero ⟨hq0, rfl⟩).mp hpos
    rw [abs_of_pos hp] at hsq
    refine ⟨Quat.fromReal (Real.sqrt (Spec.length q.coords)), ?_, hr0, ?_⟩
    · apply Quat.ext4 <;> simp [hvx, hvy, hvz, hvs, hsq]
    · apply near_of_parts
      intro i
      fin_cases i
      exacts [hroot', hz, hz, hz]
  · rw [if_neg hpos]
    have hp : q.scalar.val ≤ 0 := by
      by_contra hc
      exact hpos ((Is.lt_iff Is.zero ⟨hq0, rfl⟩).mpr (not_le.mp hc))
    rw [abs_of_nonpos hp] at hsq
    refine ⟨Quat.fromPure (Vec.new3 (Real.sqrt (Spec.length q.coords)) 0 0), ?_, le_rfl, ?_⟩
    · apply Quat.ext4 <;> simp [hvx, hvy, hvz, hvs, hsq, Vec.new3]
    · apply near_of_parts
      intro i
      fin_cases i
      exacts [hz, hroot', hz, hz]

/-- **C102.**  The computed square root, multiplied by itself in `f64`, gives the quaternion back. -/
theorem C102_sqrt_squares [Lib f64] {q : Quat (Ieee f64)} (hq : FiniteQuat q) (v1 : (2 : ℝ) ^ (-400 : ℤ) ≤ Spec.length q.vector)
    (h2 : Spec.length q.coords ≤ 2 ^ (400 : ℤ)) {K : ℝ} (k1 : 1 ≤ K) (k2 : K ≤ 2 ^ (30 : ℤ))
    (hK : Spec.length q.coords ≤ K * (Spec.length q.coords + q.scalar.val)) {eps : Ieee f64} (he : eps.Finite)
    (h0 : 0 ≤ eps.val) (h : 2 * eps.val ≤ Spec.length q.vector) :
    QuatNear (q.sqrt eps * q.sqrt eps) (realQuat q) (151 * K * 2 ^ (-53 : ℤ) * Spec.length q.coords) := by
  have hvec := vector_length q
  have hle : Spec.length q.vector ≤ Spec.length q.coords := by
    refine le_of_sq_le_sq ?_ (Real.sqrt_nonneg _)
    have := sq_nonneg q.scalar.val
    linarith
  have h1 := v1.trans hle
  have hL : 0 < Spec.length q.coords := lt_of_lt_of_le (by positivity) h1
  obtain ⟨a, ha, -, hn⟩ := C102_sqrt hq ((two_zpow_le_self_of_le (by norm_num)).trans v1) (h2.trans (two_zpow_le_self_of_le (by norm_num)))
    k1 k2 hK he h0 h
  have hna : a.norm * a.norm = Spec.length q.coords := by rw [← Quat.norm_mul, ha, realQuat_norm]
  have han : a.norm = Real.sqrt (Spec.length q.coords) := by
    rw [← hna, Real.sqrt_mul_self (Quat.norm_nonneg _)]
  rw [← han] at hn
  have hKu : K * 2 ^ (-53 : ℤ) ≤ 1 / 1000000 := by
    calc K * 2 ^ (-53 : ℤ) ≤ 2 ^ (30 : ℤ) * 2 ^ (-53 : ℤ) := mul_le_mul_of_nonneg_right k2 (by positivity)
      _ ≤ _ := by norm_num
  have hKu0 : (0 : ℝ) ≤ K * 2 ^ (-53 : ℤ) := by positivity
  have huK : (2 : ℝ) ^ (-53 : ℤ) ≤ K * 2 ^ (-53 : ℤ) := le_mul_of_one_le_left (by positivity) k1
  have hM : Moderate (q.sqrt eps) := by
    refine moderate_of_near hn (by linarith) ?_ ?_
    · rw [han]
      refine Real.le_sqrt_of_sq_le (le_trans ?_ h1)
      rw [sq, ← zpow_add₀ two_ne_zero]; exact two_zpow_le_self_of_le (by norm_num)
    · rw [han]
      refine Real.sqrt_le_iff.mpr ⟨by positivity, h2.trans ?_⟩
      rw [sq, ← zpow_add₀ two_ne_zero]; exact two_zpow_le_self_of_le (by norm_num)
  have hp := product_near hM hM hn hn (by linarith) (by linarith)
  rw [ha, hna] at hp
  refine QuatNear_mono hp (mul_le_mul_of_nonneg_right ?_ hL.le)
  rw [show f64.u = (2 : ℝ) ^ (-53 : ℤ) from rfl]
  have e : ∀ t v : ℝ, 0 ≤ t → t ≤ 1 / 1000000 → 0 ≤ v → v ≤ t →
      9 * v * ((1 + 70 * t) * (1 + 70 * t)) + 70 * t * (1 + 70 * t) + 70 * t ≤ 151 * t := by
    intro t v t0 t1 v0 v1
    have a1 : (1 + 70 * t) * (1 + 70 * t) ≤ 10002 / 10000 := by nlinarith
    have a2 : v * ((1 + 70 * t) * (1 + 70 * t)) ≤ t * (10002 / 10000) := mul_le_mul v1 a1 (by positivity) t0
    nlinarith
  have := e (K * 2 ^ (-53 : ℤ)) (2 ^ (-53 : ℤ)) hKu0 hKu (by positivity) huK
  rw [← mul_assoc 70, ← mul_assoc 151] at this
  exact this

/-! ### the hypotheses are met -/

theorem is_small : Is (num (1 / 1024)) (1 / 1024) := is_num' (fl64 (-10) 4503599627370496) (by norm_num)

/-- `3 + 4 i` with the threshold `1 / 1024` -/
example : ∃ r a, (Quat.new (num 3) (num 4) 0 0).tryInverse (num (1 / 1024)) = some r ∧
    a * realQuat (Quat.new (num 3) (num 4) 0 0) = 1 ∧ realQuat (Quat.new (num 3) (num 4) 0 0) * a = 1 ∧
    QuatNear r a (15 * 2 ^ (-53 : ℤ) / Spec.length (Quat.new (num 3) (num 4) 0 0).coords) :=
  C102_inverse finite_345 (by rw [length_345]; exact (two_zpow_le_self_of_le (k := 0) (by norm_num)).trans (by norm_num))
    (by rw [length_345]; exact le_trans (by norm_num) (two_zpow_le_self_of_le (j := 3) (by norm_num))) is_small.1
    (by rw [is_small.2]; norm_num) (by rw [is_small.2, length_345]; norm_num)

theorem vector_length_345 : Spec.length (Quat.new (num 3) (num 4) 0 0).vector = 4 := by
  have e : Spec.length (Quat.new (num 3) (num 4) 0 0).vector = Real.sqrt ((num 4).val ^ 2 + (0 : Ieee f64).val ^ 2 + (0 : Ieee f64).val ^ 2) := by
    rw [Spec.length, Fin.sum_univ_three]; rfl
  rw [e, is_four.2, show (0 : Ieee f64).val = 0 from rfl, show ((4 : ℝ) ^ 2 + 0 ^ 2 + 0 ^ 2) = 4 ^ 2 by norm_num, Real.sqrt_sq (by norm_num)]

/-- the square root of `3 + 4 i`, whose scalar part is positive -/
example [Lib f64] : ∃ a : Quat ℝ, a * a = realQuat (Quat.new (num 3) (num 4) 0 0) ∧ 0 < a.scalar ∧
    QuatNear ((Quat.new (num 3) (num 4) 0 0).sqrt (num (1 / 1024))) a
      (70 * 1 * 2 ^ (-53 : ℤ) * Real.sqrt (Spec.length (Quat.new (num 3) (num 4) 0 0).coords)) :=
  C102_sqrt finite_345 (by rw [vector_length_345]; exact (two_zpow_le_self_of_le (k := 0) (by norm_num)).trans (by norm_num))
    (by rw [length_345]; exact le_trans (by norm_num) (two_zpow_le_self_of_le (j := 3) (by norm_num))) le_rfl (by norm_num)
    (by rw [length_345]; change 5 ≤ 1 * (5 + (num 3).val); rw [is_three.2]; norm_num) is_small.1 (by rw [is_small.2]; norm_num)
    (by rw [is_small.2, vector_length_345]; norm_num)

/-- dividing `3 + 4 i` by itself and multiplying it back -/
example : ∃ r, (Quat.new (num 3) (num 4) 0 0).divLeft (num (1 / 1024)) (Quat.new (num 3) (num 4) 0 0) = some r ∧
    QuatNear (Quat.new (num 3) (num 4) 0 0 * r) (realQuat (Quat.new (num 3) (num 4) 0 0))
      (35 * 2 ^ (-53 : ℤ) * Spec.length (Quat.new (num 3) (num 4) 0 0).coords) :=
  have l : (2 : ℝ) ^ (-119 : ℤ) ≤ Spec.length (Quat.new (num 3) (num 4) 0 0).coords := by
    rw [length_345]; exact (two_zpow_le_self_of_le (k := 0) (by norm_num)).trans (by norm_num)
  have m : Spec.length (Quat.new (num 3) (num 4) 0 0).coords ≤ 2 ^ (119 : ℤ) := by
    rw [length_345]; exact le_trans (by norm_num) (two_zpow_le_self_of_le (j := 3) (by norm_num))
  (C102_quotient_returns finite_345 l m finite_345 l m is_small.1 (by rw [is_small.2]; norm_num)
    (by rw [is_small.2, length_345]; norm_num)).1

/-- the square root of `-4`, the vector part being zero -/
example [Lib f64] : ∃ a : Quat ℝ, a * a = realQuat (Quat.new (-num 4) 0 0 0) ∧ 0 ≤ a.scalar ∧
    QuatNear ((Quat.new (-num 4) 0 0 0).sqrt (num (1 / 1024))) a (19 * 2 ^ (-53 : ℤ) * Real.sqrt |(-num 4 : Ieee f64).val|) := by
  have e : |(-num 4 : Ieee f64).val| = 4 := by rw [is_four.neg.2]; norm_num
  refine C102_sqrt_real (q := Quat.new (-num 4) 0 0 0) (fun i => ?_) (fun i => ?_) ?_ ?_ is_small.1 (by rw [is_small.2]; norm_num) ?_
  · fin_cases i
    exacts [is_four.neg.1, finite_zero, finite_zero, finite_zero]
  · fin_cases i <;> rfl
  · change _ ≤ |(-num 4 : Ieee f64).val|
    rw [e]; exact (two_zpow_le_self_of_le (k := 0) (by norm_num)).trans (by norm_num)
  · change |(-num 4 : Ieee f64).val| ≤ _
    rw [e]; exact le_trans (by norm_num) (two_zpow_le_self_of_le (j := 3) (by norm_num))
  · change _ ≤ |(-num 4 : Ieee f64).val|
    rw [e, is_small.2]; norm_num

/-- `-3 + 4 i` meets the condition on the cancellation with `K = 5 / 2` -/
example : (5 : ℝ) ≤ 5 / 2 * (5 + (-num 3 : Ieee f64).val) ∧ (1 : ℝ) ≤ 5 / 2 ∧ (5 / 2 : ℝ) ≤ 2 ^ (30 : ℤ) := by
  rw [is_three.neg.2]; norm_num

end Cgl
