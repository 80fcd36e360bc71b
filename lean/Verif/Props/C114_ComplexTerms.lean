import Verif.Props.C100_ComplexPowers
import Verif.Props.C112_QuaternionFunctions

/-! # C114 - expressions of any size made of products, quotients, inverses, powers, conjugates and negations of complex numbers, in IEEE arithmetic -/

namespace Cgl
open Ieee FloatFns Spec Rounding

variable {φ : Format}

namespace Spec

/-- two complex numbers differ by at most `G - 1`, relative to either of them -/
def CxAlike (G : ℝ) (a b : ℂ) : Prop := ‖a - b‖ ≤ (G - 1) * ‖a‖ ∧ ‖a - b‖ ≤ (G - 1) * ‖b‖

/-- an expression of complex numbers; `timesAssign` and `overAssign` are the operators that assign to their first operand -/
inductive CxTerm (φ : Format) where
  | leaf (z : Cx (Ieee φ))
  | neg (t : CxTerm φ)
  | conj (t : CxTerm φ)
  | inv (t : CxTerm φ)
  | times (l r : CxTerm φ)
  | timesAssign (l r : CxTerm φ)
  | over (l r : CxTerm φ)
  | overAssign (l r : CxTerm φ)
  | power (t : CxTerm φ) (n : ℕ)

namespace CxTerm

/-- the number of products, quotients and inverses in an expression, where a power counts as that many products of copies of its base -/
def size : CxTerm φ → ℕ
  | leaf _ => 0
  | neg t => t.size
  | conj t => t.size
  | inv t => t.size + 1
  | times l r => l.size + r.size + 1
  | timesAssign l r => l.size + r.size + 1
  | over l r => l.size + r.size + 1
  | overAssign l r => l.size + r.size + 1
  | power t n => n * t.size + n

/-- the exact value -/
noncomputable def exactly : CxTerm φ → ℂ
  | leaf z => complexOf z
  | neg t => -t.exactly
  | conj t => star t.exactly
  | inv t => t.exactly⁻¹
  | times l r => l.exactly * r.exactly
  | timesAssign l r => l.exactly * r.exactly
  | over l r => l.exactly / r.exactly
  | overAssign l r => l.exactly / r.exactly
  | power t n => t.exactly ^ n

/-- what the program computes -/
noncomputable def run : CxTerm φ → Option (Cx (Ieee φ))
  | leaf z => some z
  | neg t => t.run.map fun z => -z
  | conj t => t.run.map fun z => z.conjugate
  | inv t => t.run.bind fun z => z.tryInverse
  | times l r => l.run.bind fun z => r.run.map fun w => z * w
  | timesAssign l r => l.run.bind fun z => r.run.map fun w => z.mulAssign w
  | over l r => l.run.bind fun z => r.run.map fun w => z / w
  | overAssign l r => l.run.bind fun z => r.run.map fun w => z.divAssign w
  | power t n => t.run.bind fun z => z.powu n

/-- the numbers in the expression are finite, the exact values of all its parts have moduli between `1 / hi` and `hi`, and exponents are positive -/
def Fair (hi : ℝ) : CxTerm φ → Prop
  | leaf z => (z.re.Finite ∧ z.im.Finite) ∧ hi⁻¹ ≤ ‖complexOf z‖ ∧ ‖complexOf z‖ ≤ hi
  | neg t => t.Fair hi
  | conj t => t.Fair hi
  | inv t => t.Fair hi
  | times l r => l.Fair hi ∧ r.Fair hi ∧ hi⁻¹ ≤ ‖l.exactly * r.exactly‖ ∧ ‖l.exactly * r.exactly‖ ≤ hi
  | timesAssign l r => l.Fair hi ∧ r.Fair hi ∧ hi⁻¹ ≤ ‖l.exactly * r.exactly‖ ∧ ‖l.exactly * r.exactly‖ ≤ hi
  | over l r => l.Fair hi ∧ r.Fair hi ∧ hi⁻¹ ≤ ‖l.exactly / r.exactly‖ ∧ ‖l.exactly / r.exactly‖ ≤ hi
  | overAssign l r => l.Fair hi ∧ r.Fair hi ∧ hi⁻¹ ≤ ‖l.exactly / r.exactly‖ ∧ ‖l.exactly / r.exactly‖ ≤ hi
  | power t n => t.Fair hi ∧ 1 ≤ n ∧ hi⁻¹ ≤ ‖t.exactly ^ n‖ ∧ ‖t.exactly ^ n‖ ≤ hi

end CxTerm
end Spec

/-! ### closeness in either direction -/

section
variable {G H : ℝ} {a b c d : ℂ}

theorem Spec.CxAlike.symm (h : CxAlike G a b) : CxAlike G b a := by
  rw [CxAlike, norm_sub_rev]; exact ⟨h.2, h.1⟩

theorem cx_alike_refl (hG : 1 ≤ G) : CxAlike G a a := by
  rw [CxAlike, sub_self, _root_.norm_zero]
  have := mul_nonneg (sub_nonneg.mpr hG) (norm_nonneg a)
  exact ⟨this, this⟩

theorem Spec.CxAlike.left_le (h : CxAlike G a b) : ‖a‖ ≤ G * ‖b‖ := by
  have := norm_add_le (a - b) b
  rw [sub_add_cancel] at this; linarith [h.2]

theorem Spec.CxAlike.right_le (h : CxAlike G a b) : ‖b‖ ≤ G * ‖a‖ := h.symm.left_le

theorem cx_alike_trans_half (hG : 1 ≤ G) (h : CxAlike G a b) (k : CxAlike H b c) : ‖a - c‖ ≤ (G * H - 1) * ‖c‖ := by
  have := norm_add_le (a - b) (b - c)
  rw [sub_add_sub_cancel] at this
  have h1 := mul_le_mul_of_nonneg_left k.left_le (sub_nonneg.mpr hG)
  linarith [h.2, k.2]

theorem Spec.CxAlike.trans (hG : 1 ≤ G) (hH : 1 ≤ H) (h : CxAlike G a b) (k : CxAlike H b c) : CxAlike (G * H) a c := by
  refine ⟨?_, cx_alike_trans_half hG h k⟩
  have := cx_alike_trans_half hH k.symm h.symm
  rwa [norm_sub_rev, mul_comm H] at this

theorem cx_alike_mul_half (hG : 1 ≤ G) (h : CxAlike G a b) (k : CxAlike H c d) : ‖a * c - b * d‖ ≤ (G * H - 1) * ‖b * d‖ := by
  have e : a * c - b * d = (a - b) * c + b * (c - d) := by rw [sub_mul, mul_sub]; abel
  rw [e, norm_mul b d]
  refine (norm_add_le _ _).trans ?_
  rw [norm_mul, norm_mul]
  have h1 := mul_le_mul h.2 k.left_le (norm_nonneg _) (mul_nonneg (sub_nonneg.mpr hG) (norm_nonneg _))
  have h2 := mul_le_mul_of_nonneg_left k.2 (norm_nonneg b)
  linarith

theorem Spec.CxAlike.mul (hG : 1 ≤ G) (h : CxAlike G a b) (k : CxAlike H c d) : CxAlike (G * H) (a * c) (b * d) := by
  refine ⟨?_, cx_alike_mul_half hG h k⟩
  rw [norm_sub_rev]; exact cx_alike_mul_half hG h.symm k.symm

theorem Spec.CxAlike.inv (ha : a ≠ 0) (hb : b ≠ 0) (h : CxAlike G a b) : CxAlike G a⁻¹ b⁻¹ := by
  have pa := norm_pos_iff.mpr ha
  have pb := norm_pos_iff.mpr hb
  have e : a⁻¹ - b⁻¹ = a⁻¹ * (b - a) * b⁻¹ := by
    rw [mul_sub, sub_mul, mul_assoc, mul_inv_cancel₀ hb, mul_one, inv_mul_cancel₀ ha, one_mul]
  have n : ‖a⁻¹ - b⁻¹‖ = ‖a - b‖ * (‖a‖⁻¹ * ‖b‖⁻¹) := by
    rw [e, norm_mul, norm_mul, norm_inv, norm_inv, norm_sub_rev]; ring
  have p : 0 ≤ ‖a‖⁻¹ * ‖b‖⁻¹ := by positivity
  rw [CxAlike, n, norm_inv, norm_inv]
  constructor
  · calc _ ≤ (G - 1) * ‖b‖ * (‖a‖⁻¹ * ‖b‖⁻¹) := mul_le_mul_of_nonneg_right h.2 p
      _ = _ := by field_simp
  · calc _ ≤ (G - 1) * ‖a‖ * (‖a‖⁻¹ * ‖b‖⁻¹) := mul_le_mul_of_nonneg_right h.1 p
      _ = _ := by field_simp

theorem Spec.CxAlike.star (h : CxAlike G a b) : CxAlike G (star a) (star b) := by
  rw [CxAlike, ← star_sub, norm_star, norm_star, norm_star]; exact h

theorem Spec.CxAlike.neg (h : CxAlike G a b) : CxAlike G (-a) (-b) := by
  rw [CxAlike, ← neg_sub', norm_neg, norm_neg, norm_neg]; exact h

theorem Spec.CxAlike.pow (hG : 1 ≤ G) (h : CxAlike G a b) (n : ℕ) : CxAlike (G ^ n) (a ^ n) (b ^ n) := by
  induction n with
  | zero => rw [pow_zero, pow_zero, pow_zero]; exact cx_alike_refl le_rfl
  | succ n ih => rw [pow_succ, pow_succ, pow_succ]; exact ih.mul (one_le_pow₀ hG) h

theorem cx_alike_of_rel {w : Cx (Ieee φ)} {e : ℝ} (h : CxRel w a e) (he0 : 0 ≤ e) (hG : 1 ≤ G) (he : e ≤ (1 - e) * (G - 1)) : CxAlike G (complexOf w) a := by
  have ha := norm_nonneg a
  have h1 := h.2
  have h2 : ‖a‖ ≤ ‖complexOf w‖ + e * ‖a‖ := by
    have := norm_add_le (a - complexOf w) (complexOf w)
    rw [sub_add_cancel, norm_sub_rev] at this; linarith
  have hG0 := sub_nonneg.mpr hG
  constructor
  · have h3 := mul_le_mul_of_nonneg_left (show (1 - e) * ‖a‖ ≤ ‖complexOf w‖ by linarith) hG0
    have h4 := mul_le_mul_of_nonneg_right he ha
    linarith
  · refine h1.trans (mul_le_mul_of_nonneg_right ?_ ha)
    have := mul_nonneg he0 hG0
    linarith

end

/-! ### one operation -/

/-- between half of `1 / hi` and twice `hi` -/
def Widely (hi x : ℝ) : Prop := hi⁻¹ / 2 ≤ x ∧ x ≤ 2 * hi

/-- what is needed of a format and a range -/
structure CxSteps (φ : Format) (hi : ℝ) : Prop where
  one_le : 1 ≤ hi
  small : φ.u ≤ 1 / 1000000
  mid : ∀ a, (hi⁻¹ / 2) * (hi⁻¹ / 2) ≤ a → a ≤ (2 * hi) * (2 * hi) → Midrange φ a

section
variable {hi : ℝ} (S : CxSteps φ hi)
include S

theorem CxSteps.pos : 0 < hi := by linarith [S.one_le]

theorem CxSteps.prod {x y : ℝ} (hx : Widely hi x) (hy : Widely hi y) : Midrange φ (x * y) := by
  have h := inv_pos.mpr S.pos
  have h1 := S.pos
  have hx0 : 0 < x := by linarith [hx.1]
  have hy0 : 0 < y := by linarith [hy.1]
  exact S.mid _ (mul_le_mul hx.1 hy.1 (by positivity) hx0.le) (mul_le_mul hx.2 hy.2 hy0.le (by positivity))

theorem CxSteps.one : Widely hi 1 := by
  have h := inv_le_one_of_one_le₀ S.one_le
  have h1 := S.one_le
  exact ⟨by linarith, by linarith⟩

theorem CxSteps.single {x : ℝ} (hx : Widely hi x) : Midrange φ x := by
  have := S.prod hx S.one
  rwa [mul_one] at this

theorem CxSteps.inv {x : ℝ} (hx : Widely hi x) : Midrange φ x⁻¹ := by
  have h := inv_pos.mpr S.pos
  have h1 := S.pos
  have h2 := S.one_le
  have h3 := inv_le_one_of_one_le₀ S.one_le
  have hx0 : 0 < x := by linarith [hx.1]
  have a := inv_anti₀ hx0 hx.2
  have b := inv_anti₀ (by positivity) hx.1
  rw [mul_inv] at a
  rw [inv_div, div_inv_eq_mul] at b
  refine S.mid _ (le_trans ?_ a) (b.trans ?_)
  · nlinarith
  · nlinarith

omit S in
theorem mid_fits {a : ℝ} (h : Midrange φ a) : Fits φ a := h.1.between h.2 (by linarith [h.pos]) (by linarith [h.pos])

omit S in
theorem widely_of_alike {G : ℝ} {a b : ℂ} (h : CxAlike G a b) (h2 : G ≤ 2) (l1 : hi⁻¹ ≤ ‖b‖) (l2 : ‖b‖ ≤ hi) : Widely hi ‖a‖ := by
  have n1 := h.left_le
  have n2 := h.right_le
  have z1 := mul_le_mul_of_nonneg_right h2 (norm_nonneg b)
  have z2 := mul_le_mul_of_nonneg_right h2 (norm_nonneg a)
  exact ⟨by linarith, by linarith⟩

omit S in
theorem within_rel {w : Cx (Ieee φ)} {c : ℂ} {e : ℝ} (h : CxWithin w c (e * ‖c‖)) : CxRel w c (10 / 7 * e) := by
  refine ⟨⟨h.1.1, h.2.1⟩, (norm_le_of_within h).trans (le_of_eq ?_)⟩
  ring

variable {z w : Cx (Ieee φ)} {a b : ℂ} {k m : ℕ} (hz : z.re.Finite ∧ z.im.Finite) (ha : CxAlike ((1 + 26 * φ.u) ^ k) (complexOf z) a)
  (hw : w.re.Finite ∧ w.im.Finite) (hb : CxAlike ((1 + 26 * φ.u) ^ m) (complexOf w) b)
include hz ha

theorem cx_inverse_step (h2 : (1 + 26 * φ.u) ^ k ≤ 2) (l1 : hi⁻¹ ≤ ‖a‖) (l2 : ‖a‖ ≤ hi) :
    ∃ r, z.tryInverse = some r ∧ (r.re.Finite ∧ r.im.Finite) ∧ CxAlike ((1 + 26 * φ.u) ^ (k + 1)) (complexOf r) a⁻¹ := by
  have hu := φ.u_nonneg
  have hu1 := S.small
  have hx : 1 ≤ 1 + 26 * φ.u := by linarith
  have W := widely_of_alike ha h2 l1 l2
  have h0 := inv_pos.mpr S.pos
  have p1 : 0 < ‖a‖ := by linarith
  have p2 : 0 < ‖complexOf z‖ := by linarith [W.1]
  obtain ⟨i1, i2⟩ := inverse_units S.small hz.1 hz.2 (S.prod W W) (S.inv W)
  refine ⟨_, by rw [Cx.tryInverse]; simp only [i1]; rfl, i2.1, ?_⟩
  have i3 : CxRel (Cx.new (z.re / z.normSquared) (-z.im / z.normSquared)) (complexOf z)⁻¹ (21 * φ.u) :=
    ⟨i2.1, i2.2.trans (mul_le_mul_of_nonneg_right (by nlinarith) (norm_nonneg _))⟩
  have := (cx_alike_of_rel (G := 1 + 26 * φ.u) i3 (by positivity) hx (by nlinarith)).trans hx (one_le_pow₀ hx) (ha.inv (norm_pos_iff.mp p2) (norm_pos_iff.mp p1))
  rwa [← pow_succ'] at this

theorem cx_power_step {n : ℕ} (hn : 1 ≤ n) (h2 : (1 + 26 * φ.u) ^ (n * k + n) ≤ 2) (hu50 : n * φ.u ≤ 1 / 50) (l1 : hi⁻¹ ≤ ‖a‖) (l2 : ‖a‖ ≤ hi)
    (l3 : hi⁻¹ ≤ ‖a ^ n‖) (l4 : ‖a ^ n‖ ≤ hi) :
    ∃ r, z.powu n = some r ∧ (r.re.Finite ∧ r.im.Finite) ∧ CxAlike ((1 + 26 * φ.u) ^ (n * k + n)) (complexOf r) (a ^ n) := by
  have hu := φ.u_nonneg
  have hu1 := S.small
  have hx : 1 ≤ 1 + 26 * φ.u := by linarith
  have less : ∀ {j : ℕ}, j ≤ n * k + n → (1 + 26 * φ.u) ^ j ≤ 2 := fun hj => (pow_le_pow_right₀ hx hj).trans h2
  have A := ha.pow (one_le_pow₀ hx) n
  rw [← pow_mul, mul_comm k] at A
  have W1 := widely_of_alike ha (less (by nlinarith)) l1 l2
  have W2 := widely_of_alike A (less (by omega)) l3 l4
  have M := S.single W2
  rw [norm_pow] at M
  obtain ⟨r, e, c⟩ := C100_powu S.small hz.1 hz.2 hn hu50 (S.single W1) M
  have g := one_add_mul_le_pow (show (-2 : ℝ) ≤ 26 * φ.u by linarith) n
  have hn1 : ((n - 1 : ℕ) : ℝ) * φ.u ≤ n * φ.u := mul_le_mul_of_nonneg_right (by exact_mod_cast Nat.sub_le n 1) hu
  have hn0 : 0 ≤ ((n - 1 : ℕ) : ℝ) * φ.u := by positivity
  have hnu : 0 ≤ (n : ℝ) * φ.u := by positivity
  refine ⟨r, e, c.1, ?_⟩
  have := (cx_alike_of_rel (G := (1 + 26 * φ.u) ^ n) c (by linarith) (one_le_pow₀ hx) (by
    refine le_trans (b := (1 - 13 * ((n - 1 : ℕ) : ℝ) * φ.u) * (26 * (n * φ.u))) ?_ (mul_le_mul_of_nonneg_left (by linarith) (by linarith))
    nlinarith)).trans (one_le_pow₀ hx) (one_le_pow₀ hx) A
  rwa [← pow_add, add_comm n] at this

include hw hb

theorem cx_times_step (h2 : (1 + 26 * φ.u) ^ (k + m) ≤ 2) (l1 : hi⁻¹ ≤ ‖a * b‖) (l2 : ‖a * b‖ ≤ hi) {r : Cx (Ieee φ)} (hr : r = z * w ∨ r = z.mulAssign w) :
    (r.re.Finite ∧ r.im.Finite) ∧ CxAlike ((1 + 26 * φ.u) ^ (k + m + 1)) (complexOf r) (a * b) := by
  have hu := φ.u_nonneg
  have hu1 := S.small
  have hx : 1 ≤ 1 + 26 * φ.u := by linarith
  have A := ha.mul (one_le_pow₀ hx) hb
  rw [← pow_add] at A
  have F := mid_fits (S.single (widely_of_alike A h2 l1 l2))
  rw [norm_mul] at F
  have P : CxWithin r (complexOf z * complexOf w) (7 * φ.u * ‖complexOf z * complexOf w‖) := by
    rw [norm_mul]
    rcases hr with rfl | rfl
    · exact C98_mul S.small hz.1 hz.2 hw.1 hw.2 F
    · exact mulAssign_within S.small hz.1 hz.2 hw.1 hw.2 F
  have R := within_rel P
  refine ⟨R.1, ?_⟩
  have := (cx_alike_of_rel (G := 1 + 26 * φ.u) R (by linarith) hx (by nlinarith)).trans hx (one_le_pow₀ hx) A
  rwa [← pow_succ'] at this

theorem cx_over_step (h2 : (1 + 26 * φ.u) ^ (k + m) ≤ 2) (l1 : hi⁻¹ ≤ ‖a‖) (l2 : ‖a‖ ≤ hi) (l3 : hi⁻¹ ≤ ‖b‖) (l4 : ‖b‖ ≤ hi)
    (l5 : hi⁻¹ ≤ ‖a / b‖) (l6 : ‖a / b‖ ≤ hi) :
    ((z / w).re.Finite ∧ (z / w).im.Finite) ∧ CxAlike ((1 + 26 * φ.u) ^ (k + m + 1)) (complexOf (z / w)) (a / b) := by
  have hu := φ.u_nonneg
  have hu1 := S.small
  have hx : 1 ≤ 1 + 26 * φ.u := by linarith
  have less : ∀ {j : ℕ}, j ≤ k + m → (1 + 26 * φ.u) ^ j ≤ 2 := fun hj => (pow_le_pow_right₀ hx hj).trans h2
  have W1 := widely_of_alike ha (less (by omega)) l1 l2
  have W2 := widely_of_alike hb (less (by omega)) l3 l4
  have h0 := inv_pos.mpr S.pos
  have p1 : 0 < ‖b‖ := by linarith
  have p2 : 0 < ‖complexOf w‖ := by linarith [W2.1]
  have A := ha.mul (one_le_pow₀ hx) (hb.inv (norm_pos_iff.mp p2) (norm_pos_iff.mp p1))
  rw [← pow_add, ← div_eq_mul_inv, ← div_eq_mul_inv] at A
  have F := mid_fits (S.single (widely_of_alike A h2 l5 l6))
  rw [norm_div] at F
  have P := C98_div S.small hz.1 hz.2 hw.1 hw.2 (mid_fits (S.prod W1 W2)) (mid_fits (S.prod W2 W2)) F
  rw [← norm_div] at P
  have R := within_rel P
  refine ⟨R.1, ?_⟩
  have := (cx_alike_of_rel (G := 1 + 26 * φ.u) R (by linarith) hx (by nlinarith)).trans hx (one_le_pow₀ hx) A
  rwa [← pow_succ'] at this

end

/-! ### expressions -/

theorem Spec.CxTerm.Fair.range {hi : ℝ} (h1 : 0 < hi) {t : CxTerm φ} (h : t.Fair hi) : hi⁻¹ ≤ ‖t.exactly‖ ∧ ‖t.exactly‖ ≤ hi := by
  induction t with
  | leaf q => exact h.2
  | neg t ih => rw [CxTerm.exactly, norm_neg]; exact ih h
  | conj t ih => rw [CxTerm.exactly, norm_star]; exact ih h
  | inv t ih =>
    obtain ⟨a, b⟩ := ih h
    have hp := (inv_pos.mpr h1).trans_le a
    rw [CxTerm.exactly, norm_inv]
    exact ⟨inv_anti₀ hp b, (inv_le_comm₀ hp h1).mpr a⟩
  | times l r _ _ => exact h.2.2
  | timesAssign l r _ _ => exact h.2.2
  | over l r _ _ => exact h.2.2
  | overAssign l r _ _ => exact h.2.2
  | power t n _ => exact h.2.2

theorem cx_terms_run {hi : ℝ} (S : CxSteps φ hi) (t : CxTerm φ) (h : t.Fair hi) (h2 : (1 + 26 * φ.u) ^ t.size ≤ 2) (h50 : t.size * φ.u ≤ 1 / 50) :
    ∃ r, t.run = some r ∧ (r.re.Finite ∧ r.im.Finite) ∧ CxAlike ((1 + 26 * φ.u) ^ t.size) (complexOf r) t.exactly := by
  have hu := φ.u_nonneg
  have hx : 1 ≤ 1 + 26 * φ.u := by linarith
  have hi0 := S.pos
  have less : ∀ {k m : ℕ}, k ≤ m → (1 + 26 * φ.u) ^ m ≤ 2 → (1 + 26 * φ.u) ^ k ≤ 2 := fun hk hm => (pow_le_pow_right₀ hx hk).trans hm
  have less' : ∀ {k m : ℕ}, k ≤ m → m * φ.u ≤ 1 / 50 → k * φ.u ≤ 1 / 50 := fun hk hm => (mul_le_mul_of_nonneg_right (by exact_mod_cast hk) hu).trans hm
  induction t with
  | leaf z => exact ⟨z, rfl, h.1, cx_alike_refl (one_le_pow₀ hx)⟩
  | neg t ih =>
    obtain ⟨r, e, f, a⟩ := ih h h2 h50
    have e2 : complexOf (-r) = -complexOf r := Complex.ext (val_neg _) (val_neg _)
    exact ⟨-r, by rw [CxTerm.run, e]; rfl, ⟨cx_finite_neg f.1, cx_finite_neg f.2⟩, by rw [e2]; exact a.neg⟩
  | conj t ih =>
    obtain ⟨r, e, f, a⟩ := ih h h2 h50
    have e2 : complexOf r.conjugate = star (complexOf r) := Complex.ext rfl (val_neg _)
    exact ⟨r.conjugate, by rw [CxTerm.run, e]; rfl, ⟨f.1, cx_finite_neg f.2⟩, by rw [e2]; exact a.star⟩
  | inv t ih =>
    rw [CxTerm.size] at h2 h50
    have h3 := less (Nat.le_succ _) h2
    obtain ⟨r, e, f, a⟩ := ih h h3 (less' (Nat.le_succ _) h50)
    obtain ⟨l1, l2⟩ := CxTerm.Fair.range (t := t) hi0 h
    obtain ⟨s, e2, f2, a2⟩ := cx_inverse_step S f a h3 l1 l2
    exact ⟨s, by rw [CxTerm.run, e, ← e2]; rfl, f2, a2⟩
  | times l r ihl ihr =>
    obtain ⟨hl, hr, l1, l2⟩ := h
    rw [CxTerm.size] at h2 h50
    obtain ⟨p, e, f, a⟩ := ihl hl (less (by omega) h2) (less' (by omega) h50)
    obtain ⟨q, e', f', a'⟩ := ihr hr (less (by omega) h2) (less' (by omega) h50)
    obtain ⟨f2, a2⟩ := cx_times_step S f a f' a' (less (by omega) h2) l1 l2 (.inl rfl)
    exact ⟨p * q, by rw [CxTerm.run, e, e']; rfl, f2, a2⟩
  | timesAssign l r ihl ihr =>
    obtain ⟨hl, hr, l1, l2⟩ := h
    rw [CxTerm.size] at h2 h50
    obtain ⟨p, e, f, a⟩ := ihl hl (less (by omega) h2) (less' (by omega) h50)
    obtain ⟨q, e', f', a'⟩ := ihr hr (less (by omega) h2) (less' (by omega) h50)
    obtain ⟨f2, a2⟩ := cx_times_step S f a f' a' (less (by omega) h2) l1 l2 (.inr rfl)
    exact ⟨p.mulAssign q, by rw [CxTerm.run, e, e']; rfl, f2, a2⟩
  | over l r ihl ihr =>
    obtain ⟨hl, hr, l5, l6⟩ := h
    rw [CxTerm.size] at h2 h50
    obtain ⟨p, e, f, a⟩ := ihl hl (less (by omega) h2) (less' (by omega) h50)
    obtain ⟨q, e', f', a'⟩ := ihr hr (less (by omega) h2) (less' (by omega) h50)
    obtain ⟨l1, l2⟩ := hl.range hi0
    obtain ⟨l3, l4⟩ := hr.range hi0
    obtain ⟨f2, a2⟩ := cx_over_step S f a f' a' (less (by omega) h2) l1 l2 l3 l4 l5 l6
    exact ⟨p / q, by rw [CxTerm.run, e, e']; rfl, f2, a2⟩
  | overAssign l r ihl ihr =>
    obtain ⟨hl, hr, l5, l6⟩ := h
    rw [CxTerm.size] at h2 h50
    obtain ⟨p, e, f, a⟩ := ihl hl (less (by omega) h2) (less' (by omega) h50)
    obtain ⟨q, e', f', a'⟩ := ihr hr (less (by omega) h2) (less' (by omega) h50)
    obtain ⟨l1, l2⟩ := hl.range hi0
    obtain ⟨l3, l4⟩ := hr.range hi0
    obtain ⟨f2, a2⟩ := cx_over_step S f a f' a' (less (by omega) h2) l1 l2 l3 l4 l5 l6
    have e3 : p.divAssign q = p / q := rfl
    exact ⟨p.divAssign q, by rw [CxTerm.run, e, e']; rfl, by rw [e3]; exact f2, by rw [e3]; exact a2⟩
  | power t n ih =>
    obtain ⟨ht, hn, l3, l4⟩ := h
    rw [CxTerm.size] at h2 h50
    have k1 : t.size ≤ n * t.size + n := by nlinarith
    obtain ⟨p, e, f, a⟩ := ih ht (less k1 h2) (less' k1 h50)
    obtain ⟨l1, l2⟩ := ht.range hi0
    obtain ⟨s, e2, f2, a2⟩ := cx_power_step S f a hn h2 (less' (by omega) h50) l1 l2 l3 l4
    exact ⟨s, by rw [CxTerm.run, e, ← e2]; rfl, f2, a2⟩

theorem cx_terms_bound {hi : ℝ} (S : CxSteps φ hi) (t : CxTerm φ) (h : t.Fair hi) (hk : 52 * t.size * φ.u ≤ 1) :
    ∃ r, t.run = some r ∧ CxRel r t.exactly (52 * t.size * φ.u) := by
  have hu := φ.u_nonneg
  have g := growth (x := 26 * φ.u) (k := t.size) (by positivity) (by linarith)
  obtain ⟨r, e, f, a⟩ := cx_terms_run S t h (by linarith) (by linarith)
  exact ⟨r, e, f, a.2.trans (mul_le_mul_of_nonneg_right (by linarith) (norm_nonneg _))⟩

/-! ### the formats -/

theorem cxSteps64 : CxSteps f64 (2 ^ (490 : ℤ)) := by
  have lo : ((2 : ℝ) ^ (490 : ℤ))⁻¹ / 2 = 2 ^ (-491 : ℤ) := by rw [← zpow_neg, div_eq_mul_inv, ← zpow_sub_one₀ (two_ne_zero (α := ℝ))]; norm_num
  have up : 2 * (2 : ℝ) ^ (490 : ℤ) = 2 ^ (491 : ℤ) := by rw [← zpow_one_add₀ two_ne_zero]; norm_num
  refine ⟨one_le_zpow₀ one_le_two (by norm_num), roundoff64, fun a h1 h2 => ?_⟩
  rw [lo, ← zpow_add₀ two_ne_zero] at h1
  rw [up, ← zpow_add₀ two_ne_zero] at h2
  exact midrange64 ((zpow_le_zpow_right₀ one_le_two (by norm_num)).trans h1) (h2.trans (zpow_le_zpow_right₀ one_le_two (by norm_num)))

theorem cxSteps32 : CxSteps f32 (2 ^ (60 : ℤ)) := by
  have lo : ((2 : ℝ) ^ (60 : ℤ))⁻¹ / 2 = 2 ^ (-61 : ℤ) := by rw [← zpow_neg, div_eq_mul_inv, ← zpow_sub_one₀ (two_ne_zero (α := ℝ))]; norm_num
  have up : 2 * (2 : ℝ) ^ (60 : ℤ) = 2 ^ (61 : ℤ) := by rw [← zpow_one_add₀ two_ne_zero]; norm_num
  refine ⟨one_le_zpow₀ one_le_two (by norm_num), roundoff32, fun a h1 h2 => ?_⟩
  rw [lo, ← zpow_add₀ two_ne_zero] at h1
  rw [up, ← zpow_add₀ two_ne_zero] at h2
  have p : (0 : ℝ) < 2 ^ (-61 + -61 : ℤ) := by positivity
  refine ⟨(twice_fits32 ?_ ?_).1, (twice_fits32 (h1.trans' ?_) (h2.trans ?_)).2⟩
  · have : (2 : ℝ) ^ (-126 : ℤ) ≤ 2 ^ (-61 + -61 : ℤ) / 2 := by norm_num
    exact this.trans (div_le_div_of_nonneg_right h1 two_pos.le)
  · have : (2 : ℝ) ^ (61 + 61 : ℤ) ≤ 2 ^ (125 : ℤ) := by norm_num
    linarith
  · exact zpow_le_zpow_right₀ one_le_two (by norm_num)
  · exact zpow_le_zpow_right₀ one_le_two (by norm_num)

/-! ### the property -/

/-- **C114.**  `f64`: an expression of size `k`, all of whose parts have exact moduli between `2 ^ -490` and `2 ^ 490`, is computed: no inverse is refused,
all powers terminate, nothing overflows, and the relative error is at most `52 k` roundings. -/
theorem C114_expression64 (t : CxTerm f64) (h : t.Fair (2 ^ (490 : ℤ))) (hk : t.size ≤ 100000000000000) :
    ∃ r, t.run = some r ∧ CxRel r t.exactly (52 * t.size * 2 ^ (-53 : ℤ)) := by
  refine cx_terms_bound cxSteps64 t h ?_
  have h : (t.size : ℝ) ≤ 100000000000000 := by exact_mod_cast hk
  have h2 : (2 : ℝ) ^ (-53 : ℤ) ≤ 12 / 100000000000000000 := by norm_num
  change 52 * (t.size : ℝ) * 2 ^ (-53 : ℤ) ≤ 1
  have h3 := mul_le_mul h h2 (by positivity) (by norm_num)
  norm_num at h3 ⊢
  linarith

/-- **C114.**  `f32`: the same for moduli between `2 ^ -60` and `2 ^ 60`. -/
theorem C114_expression32 (t : CxTerm f32) (h : t.Fair (2 ^ (60 : ℤ))) (hk : t.size ≤ 300000) :
    ∃ r, t.run = some r ∧ CxRel r t.exactly (52 * t.size * 2 ^ (-24 : ℤ)) := by
  refine cx_terms_bound cxSteps32 t h ?_
  have h : (t.size : ℝ) ≤ 300000 := by exact_mod_cast hk
  have h2 : (2 : ℝ) ^ (-24 : ℤ) ≤ 6 / 100000000 := by norm_num
  change 52 * (t.size : ℝ) * 2 ^ (-24 : ℤ) ≤ 1
  have h3 := mul_le_mul h h2 (by positivity) (by norm_num)
  norm_num at h3 ⊢
  linarith

/-- **C114.**  `f64`: two expressions with the same exact value agree up to the sum of their errors, such as `a / b` and `a b⁻¹`. -/
theorem C114_equal64 (t s : CxTerm f64) (ht : t.Fair (2 ^ (490 : ℤ))) (hs : s.Fair (2 ^ (490 : ℤ))) (kt : t.size ≤ 100000000000000)
    (ks : s.size ≤ 100000000000000) (h : t.exactly = s.exactly) :
    ∃ p q, t.run = some p ∧ s.run = some q ∧ ‖complexOf p - complexOf q‖ ≤ 52 * (t.size + s.size) * 2 ^ (-53 : ℤ) * ‖t.exactly‖ := by
  obtain ⟨p, e, -, a⟩ := C114_expression64 t ht kt
  obtain ⟨q, e', -, a'⟩ := C114_expression64 s hs ks
  refine ⟨p, q, e, e', ?_⟩
  rw [← h] at a'
  have h3 := norm_sub_le (complexOf p - t.exactly) (complexOf q - t.exactly)
  rw [sub_sub_sub_cancel_right] at h3
  linarith

/-! ### the hypotheses can be met -/

/-- `(i i)⁻¹ / i³` -/
noncomputable def unitExpression : CxTerm f64 :=
  .over (.inv (.times (.leaf ⟨0, 1⟩) (.leaf ⟨0, 1⟩))) (.power (.leaf ⟨0, 1⟩) 3)
/-- minus the product of the conjugate of `i` and `i / -i` -/
noncomputable def otherUnitExpression : CxTerm f64 := .neg (.timesAssign (.conj (.leaf ⟨0, 1⟩)) (.overAssign (.leaf ⟨0, 1⟩) (.neg (.leaf ⟨0, 1⟩))))

theorem imaginary_unit : complexOf (⟨0, 1⟩ : Cx (Ieee f64)) = Complex.I := Complex.ext (val_zero (φ := f64)) (val_one (φ := f64))

theorem unit_range : ((2 : ℝ) ^ (490 : ℤ))⁻¹ ≤ 1 ∧ (1 : ℝ) ≤ 2 ^ (490 : ℤ) := by
  have h : (1 : ℝ) ≤ 2 ^ (490 : ℤ) := one_le_zpow₀ one_le_two (by norm_num)
  exact ⟨inv_le_one_of_one_le₀ h, h⟩

theorem unit_expressions_fair : unitExpression.Fair (2 ^ (490 : ℤ)) ∧ otherUnitExpression.Fair (2 ^ (490 : ℤ)) := by
  have f : (0 : Ieee f64).Finite ∧ (1 : Ieee f64).Finite := ⟨finite_zero, finite_one⟩
  obtain ⟨u1, u2⟩ := unit_range
  constructor <;>
  simp only [unitExpression, otherUnitExpression, CxTerm.Fair, CxTerm.exactly, imaginary_unit, norm_mul, norm_div, norm_inv, norm_pow, norm_star, norm_neg, Complex.norm_I,
    mul_one, one_pow, inv_one, div_one] <;>
  simp only [f, u1, u2, true_and, and_true] <;> norm_num

example : ∃ p q, unitExpression.run = some p ∧ otherUnitExpression.run = some q ∧ ‖complexOf p - complexOf q‖ ≤ 52 * 8 * 2 ^ (-53 : ℤ) := by
  have e1 : unitExpression.exactly = -Complex.I := by
    simp only [unitExpression, CxTerm.exactly, imaginary_unit]
    rw [Complex.I_mul_I, Complex.I_pow_three]; field_simp; simp
  have e2 : otherUnitExpression.exactly = -Complex.I := by
    simp only [otherUnitExpression, CxTerm.exactly, imaginary_unit]
    rw [div_neg, div_self Complex.I_ne_zero]; simp
  obtain ⟨p, q, h1, h2, h3⟩ := C114_equal64 unitExpression otherUnitExpression unit_expressions_fair.1 unit_expressions_fair.2
    (by simp [unitExpression, CxTerm.size]) (by simp [otherUnitExpression, CxTerm.size]) (e1.trans e2.symm)
  refine ⟨p, q, h1, h2, h3.trans (le_of_eq ?_)⟩
  rw [e1, norm_neg, Complex.norm_I]
  simp only [unitExpression, otherUnitExpression, CxTerm.size]
  norm_num

end Cgl
