import Verif.Props.C112_QuaternionFunctions

/-! # C113 - expressions of any size made of products, inverses, quotients, conjugates and negations of quaternions, in IEEE arithmetic -/

namespace Cgl
open Ieee FloatFns Spec Rounding Matrix
open scoped Quaternion

variable {φ : Format}

namespace Spec

/-- two quaternions differ by at most `G - 1`, relative to either of them -/
def Alike (G : ℝ) (a b : ℍ[ℝ]) : Prop := ‖a - b‖ ≤ (G - 1) * ‖a‖ ∧ ‖a - b‖ ≤ (G - 1) * ‖b‖

/-- an expression of quaternions -/
inductive QuatTerm (φ : Format) where
  | leaf (q : Quat (Ieee φ))
  | neg (t : QuatTerm φ)
  | conj (t : QuatTerm φ)
  | inv (t : QuatTerm φ)
  | times (l r : QuatTerm φ)
  | divLeft (t l : QuatTerm φ)
  | divRight (t r : QuatTerm φ)

namespace QuatTerm

/-- the number of products and inverses in an expression -/
def size : QuatTerm φ → ℕ
  | leaf _ => 0
  | neg t => t.size
  | conj t => t.size
  | inv t => t.size + 1
  | times l r => l.size + r.size + 1
  | divLeft t l => l.size + t.size + 2
  | divRight t r => t.size + r.size + 2

/-- the exact value -/
noncomputable def exactly : QuatTerm φ → ℍ[ℝ]
  | leaf q => ieeeQuat q
  | neg t => -t.exactly
  | conj t => star t.exactly
  | inv t => t.exactly⁻¹
  | times l r => l.exactly * r.exactly
  | divLeft t l => l.exactly⁻¹ * t.exactly
  | divRight t r => t.exactly * r.exactly⁻¹

/-- what the program computes, where inverses and quotients are refused under the threshold `eps` -/
noncomputable def run (eps : Ieee φ) : QuatTerm φ → Option (Quat (Ieee φ))
  | leaf q => some q
  | neg t => (t.run eps).map fun q => -q
  | conj t => (t.run eps).map fun q => q.conjugate
  | inv t => (t.run eps).bind fun q => q.tryInverse eps
  | times l r => (l.run eps).bind fun p => (r.run eps).map fun q => p * q
  | divLeft t l => (t.run eps).bind fun p => (l.run eps).bind fun q => p.divLeft eps q
  | divRight t r => (t.run eps).bind fun p => (r.run eps).bind fun q => p.divRight eps q

/-- the quaternions in the expression have finite components; the exact values of all its parts have norms between `1 / hi` and `hi`, and
what is inverted is at least four times as large as the threshold -/
def Fair (hi eps : ℝ) : QuatTerm φ → Prop
  | leaf q => (∀ i, (q.coords.data i).Finite) ∧ hi⁻¹ ≤ ‖ieeeQuat q‖ ∧ ‖ieeeQuat q‖ ≤ hi
  | neg t => t.Fair hi eps
  | conj t => t.Fair hi eps
  | inv t => t.Fair hi eps ∧ 4 * eps ≤ ‖t.exactly‖
  | times l r => l.Fair hi eps ∧ r.Fair hi eps ∧ hi⁻¹ ≤ ‖l.exactly * r.exactly‖ ∧ ‖l.exactly * r.exactly‖ ≤ hi
  | divLeft t l => t.Fair hi eps ∧ l.Fair hi eps ∧ 4 * eps ≤ ‖l.exactly‖ ∧ hi⁻¹ ≤ ‖l.exactly⁻¹ * t.exactly‖ ∧ ‖l.exactly⁻¹ * t.exactly‖ ≤ hi
  | divRight t r => t.Fair hi eps ∧ r.Fair hi eps ∧ 4 * eps ≤ ‖r.exactly‖ ∧ hi⁻¹ ≤ ‖t.exactly * r.exactly⁻¹‖ ∧ ‖t.exactly * r.exactly⁻¹‖ ≤ hi

end QuatTerm
end Spec

/-! ### closeness in either direction -/

section
variable {G H : ℝ} {a b c d : ℍ[ℝ]}

theorem Spec.Alike.symm (h : Alike G a b) : Alike G b a := by
  rw [Alike, norm_sub_rev]; exact ⟨h.2, h.1⟩

theorem alike_refl (hG : 1 ≤ G) : Alike G a a := by
  rw [Alike, sub_self, norm_zero]
  have := mul_nonneg (sub_nonneg.mpr hG) (norm_nonneg a)
  exact ⟨this, this⟩

theorem Spec.Alike.left_le (h : Alike G a b) : ‖a‖ ≤ G * ‖b‖ := by
  have := norm_add_le (a - b) b
  rw [sub_add_cancel] at this; linarith [h.2]

theorem Spec.Alike.right_le (h : Alike G a b) : ‖b‖ ≤ G * ‖a‖ := h.symm.left_le

theorem alike_trans_half (hG : 1 ≤ G) (h : Alike G a b) (k : Alike H b c) : ‖a - c‖ ≤ (G * H - 1) * ‖c‖ := by
  have := norm_add_le (a - b) (b - c)
  rw [sub_add_sub_cancel] at this
  have h1 := mul_le_mul_of_nonneg_left k.left_le (sub_nonneg.mpr hG)
  linarith [h.2, k.2]

theorem Spec.Alike.trans (hG : 1 ≤ G) (hH : 1 ≤ H) (h : Alike G a b) (k : Alike H b c) : Alike (G * H) a c := by
  refine ⟨?_, alike_trans_half hG h k⟩
  have := alike_trans_half hH k.symm h.symm
  rwa [norm_sub_rev, mul_comm H] at this

theorem alike_mul_half (hG : 1 ≤ G) (h : Alike G a b) (k : Alike H c d) : ‖a * c - b * d‖ ≤ (G * H - 1) * ‖b * d‖ := by
  have e : a * c - b * d = (a - b) * c + b * (c - d) := by rw [sub_mul, mul_sub]; abel
  rw [e, norm_mul b d]
  refine (norm_add_le _ _).trans ?_
  rw [norm_mul, norm_mul]
  have h1 := mul_le_mul h.2 k.left_le (norm_nonneg _) (mul_nonneg (sub_nonneg.mpr hG) (norm_nonneg _))
  have h2 := mul_le_mul_of_nonneg_left k.2 (norm_nonneg b)
  linarith

theorem Spec.Alike.mul (hG : 1 ≤ G) (h : Alike G a b) (k : Alike H c d) : Alike (G * H) (a * c) (b * d) := by
  refine ⟨?_, alike_mul_half hG h k⟩
  rw [norm_sub_rev]; exact alike_mul_half hG h.symm k.symm

theorem Spec.Alike.inv (ha : a ≠ 0) (hb : b ≠ 0) (h : Alike G a b) : Alike G a⁻¹ b⁻¹ := by
  have pa := norm_pos_iff.mpr ha
  have pb := norm_pos_iff.mpr hb
  have e : a⁻¹ - b⁻¹ = a⁻¹ * (b - a) * b⁻¹ := by
    rw [mul_sub, sub_mul, mul_assoc, mul_inv_cancel₀ hb, mul_one, inv_mul_cancel₀ ha, one_mul]
  have n : ‖a⁻¹ - b⁻¹‖ = ‖a - b‖ * (‖a‖⁻¹ * ‖b‖⁻¹) := by
    rw [e, norm_mul, norm_mul, norm_inv, norm_inv, norm_sub_rev]; ring
  have p : 0 ≤ ‖a‖⁻¹ * ‖b‖⁻¹ := by positivity
  rw [Alike, n, norm_inv, norm_inv]
  constructor
  · calc _ ≤ (G - 1) * ‖b‖ * (‖a‖⁻¹ * ‖b‖⁻¹) := mul_le_mul_of_nonneg_right h.2 p
      _ = _ := by field_simp
  · calc _ ≤ (G - 1) * ‖a‖ * (‖a‖⁻¹ * ‖b‖⁻¹) := mul_le_mul_of_nonneg_right h.1 p
      _ = _ := by field_simp

theorem Spec.Alike.star (h : Alike G a b) : Alike G (star a) (star b) := by
  rw [Alike, ← star_sub, norm_star, norm_star, norm_star]; exact h

theorem Spec.Alike.neg (h : Alike G a b) : Alike G (-a) (-b) := by
  rw [Alike, ← neg_sub', norm_neg, norm_neg, norm_neg]; exact h

theorem alike_of_close {q : Quat (Ieee φ)} (hu : φ.u ≤ 1 / 1000000) (h : QuatClose q a (34 * φ.u * ‖a‖)) : Alike (1 + 35 * φ.u) (ieeeQuat q) a := by
  have hu0 := φ.u_nonneg
  have ha := norm_nonneg a
  have hua : 0 ≤ φ.u * ‖a‖ := by positivity
  have h1 := h.2
  have h2 : ‖a‖ ≤ ‖ieeeQuat q‖ + 34 * φ.u * ‖a‖ := by
    have := norm_add_le (a - ieeeQuat q) (ieeeQuat q)
    rw [sub_add_cancel, norm_sub_rev] at this; linarith
  constructor
  · have h3 := mul_le_mul_of_nonneg_left h2 hu0
    have h4 := mul_le_mul_of_nonneg_right hu hua
    refine h1.trans ?_
    rw [add_sub_cancel_left]
    linarith
  · refine h1.trans ?_
    rw [add_sub_cancel_left]
    linarith

end

/-! ### one inverse -/

theorem quat_div_data (q : Quat (Ieee φ)) (k : Ieee φ) (i) : (q / k).coords.data i = q.coords.data i / k := by fin_cases i <;> rfl

theorem quat_inverse_near (hu : φ.u ≤ 1 / 1000000) {q : Quat (Ieee φ)} {eps : Ieee φ} (hq : ∀ i, (q.coords.data i).Finite) (hp : 0 < ‖ieeeQuat q‖)
    (hN : NearTo q.normSquared (‖ieeeQuat q‖ ^ 2) (20 * φ.u * ‖ieeeQuat q‖ ^ 2)) (h1 : Fits φ (‖ieeeQuat q‖ ^ 2)) (h2 : Fits φ ‖ieeeQuat q‖⁻¹)
    (he : eps.Finite) (he0 : 0 ≤ eps.val) (h : 2 * eps.val ≤ ‖ieeeQuat q‖) :
    ∃ r, q.tryInverse eps = some r ∧ QuatClose r (ieeeQuat q)⁻¹ (34 * φ.u * ‖(ieeeQuat q)⁻¹‖) := by
  have hu0 := φ.u_nonneg
  set n := ‖ieeeQuat q‖ with hn
  have hn2 : 0 < n ^ 2 := by positivity
  have hun : φ.u * n ^ 2 ≤ 1 / 1000000 * n ^ 2 := mul_le_mul_of_nonneg_right hu hn2.le
  obtain ⟨hN1, hN2⟩ := hN
  have c := abs_le.mp hN2
  have hNp : 99 / 100 * n ^ 2 ≤ q.normSquared.val := by linarith
  have hN0 : 0 < q.normSquared.val := by linarith
  have he2 : eps.val * eps.val ≤ n ^ 2 / 4 := by nlinarith
  obtain ⟨r1, r2⟩ := h1.round hu (z := eps.val * eps.val) (by rw [abs_of_nonneg (by positivity)]; linarith)
  obtain ⟨l1, l2⟩ := mul_of he he r1
  have c2 := abs_le.mp r2
  have hne : ¬ q.normSquared ≤ eps * eps := by
    rw [ieee_le_iff hN1 l1, l2]
    intro hle
    linarith
  refine ⟨q.conjugate / q.normSquared, if_neg hne, ?_⟩
  have cj := (C111_conjugate hq).1
  have e : ieeeQuat q.conjugate = star (ieeeQuat q) := sub_eq_zero.mp (norm_le_zero_iff.mp cj.2)
  have hinv : ‖(ieeeQuat q)⁻¹‖ = n⁻¹ := norm_inv _
  have hq1 : q.normSquared.val⁻¹ * n ≤ 102 / 100 * n⁻¹ := by
    rw [inv_mul_eq_div, ← div_eq_mul_inv, div_le_div_iff₀ hN0 hp]
    linarith
  have H : QuatClose (q.conjugate / q.normSquared) (q.normSquared.val⁻¹ • star (ieeeQuat q)) (2 * (203 / 100 * φ.u * n⁻¹)) := by
    refine quat_of_components (by positivity) fun i => ?_
    have hi := fourOf_le (q.normSquared.val⁻¹ • star (ieeeQuat q)) i
    rw [norm_smul, norm_star, Real.norm_eq_abs, abs_of_pos (inv_pos.mpr hN0), ← hn] at hi
    rw [← e, fourOf_smul, fourOf_ieee, inv_mul_eq_div] at hi ⊢
    obtain ⟨s1, s2⟩ := h2.round hu (z := (q.conjugate.coords.data i).val / q.normSquared.val) (hi.trans hq1)
    have hf := finite_div_of (cj.1 i) hN1 hN0.ne' s1
    rw [quat_div_data]
    exact ⟨hf, by rw [(val_div hf hN1).1]; exact s2⟩
  have e2 : (ieeeQuat q)⁻¹ = (n ^ 2)⁻¹ • star (ieeeQuat q) := by
    rw [sq, hn, ← Quaternion.normSq_eq_norm_mul_self]; rfl
  have hd : ‖q.normSquared.val⁻¹ • star (ieeeQuat q) - (ieeeQuat q)⁻¹‖ ≤ 21 * φ.u * n⁻¹ := by
    rw [e2, ← sub_smul, norm_smul, norm_star, Real.norm_eq_abs, ← hn]
    have e3 : q.normSquared.val⁻¹ - (n ^ 2)⁻¹ = (n ^ 2 - q.normSquared.val) * (q.normSquared.val⁻¹ * (n ^ 2)⁻¹) := by field_simp
    rw [e3, abs_mul, abs_of_pos (by positivity : 0 < q.normSquared.val⁻¹ * (n ^ 2)⁻¹), abs_sub_comm]
    calc _ ≤ 20 * φ.u * n ^ 2 * (q.normSquared.val⁻¹ * (n ^ 2)⁻¹) * n := by gcongr
      _ = 20 * φ.u * (q.normSquared.val⁻¹ * n) := by field_simp
      _ ≤ 20 * φ.u * (102 / 100 * n⁻¹) := by gcongr
      _ ≤ _ := by have : 0 ≤ φ.u * n⁻¹ := by positivity
                  linarith
  rw [hinv]
  refine close_weaken (close_trans H hd) ?_
  have : 0 ≤ φ.u * n⁻¹ := by positivity
  linarith

/-! ### expressions -/

/-- what is needed of a format, a threshold and a range -/
structure Steps (φ : Format) (eps : Ieee φ) (hi : ℝ) : Prop where
  one_le : 1 ≤ hi
  small : φ.u ≤ 1 / 1000000
  fits : ∀ a, hi⁻¹ / 2 ≤ a → a ≤ 2 * hi → Fits φ a
  inverse : ∀ q : Quat (Ieee φ), (∀ i, (q.coords.data i).Finite) → hi⁻¹ / 2 ≤ ‖ieeeQuat q‖ → ‖ieeeQuat q‖ ≤ 2 * hi → 2 * eps.val ≤ ‖ieeeQuat q‖ →
    ∃ r, q.tryInverse eps = some r ∧ QuatClose r (ieeeQuat q)⁻¹ (34 * φ.u * ‖(ieeeQuat q)⁻¹‖)

theorem Spec.QuatTerm.Fair.range {hi eps : ℝ} (h1 : 0 < hi) {t : QuatTerm φ} (h : t.Fair hi eps) : hi⁻¹ ≤ ‖t.exactly‖ ∧ ‖t.exactly‖ ≤ hi := by
  induction t with
  | leaf q => exact h.2
  | neg t ih => rw [QuatTerm.exactly, norm_neg]; exact ih h
  | conj t ih => rw [QuatTerm.exactly, norm_star]; exact ih h
  | inv t ih =>
    obtain ⟨a, b⟩ := ih h.1
    have hp := (inv_pos.mpr h1).trans_le a
    rw [QuatTerm.exactly, norm_inv]
    exact ⟨inv_anti₀ hp b, (inv_le_comm₀ hp h1).mpr a⟩
  | times l r _ _ => exact h.2.2
  | divLeft t l _ _ => exact h.2.2.2
  | divRight t r _ _ => exact h.2.2.2

/-- what an expression of `k` operations has to satisfy -/
def RunsTo (eps : Ieee φ) (t : QuatTerm φ) : Prop :=
  ∃ r, t.run eps = some r ∧ (∀ i, (r.coords.data i).Finite) ∧ Alike ((1 + 35 * φ.u) ^ t.size) (ieeeQuat r) t.exactly

theorem product_step {eps : Ieee φ} {hi : ℝ} (S : Steps φ eps hi) {p q : Quat (Ieee φ)} {a b : ℍ[ℝ]} {k m : ℕ} (hp : ∀ i, (p.coords.data i).Finite)
    (hq : ∀ i, (q.coords.data i).Finite) (ha : Alike ((1 + 35 * φ.u) ^ k) (ieeeQuat p) a) (hb : Alike ((1 + 35 * φ.u) ^ m) (ieeeQuat q) b)
    (h2 : (1 + 35 * φ.u) ^ (k + m) ≤ 2) (l1 : hi⁻¹ ≤ ‖a * b‖) (l2 : ‖a * b‖ ≤ hi) :
    (∀ i, ((p * q).coords.data i).Finite) ∧ Alike ((1 + 35 * φ.u) ^ (k + m + 1)) (ieeeQuat (p * q)) (a * b) := by
  have hx : 1 ≤ 1 + 35 * φ.u := by have := φ.u_nonneg; linarith
  have A := ha.mul (one_le_pow₀ hx) hb
  rw [← pow_add] at A
  have n1 := A.left_le
  have n2 := A.right_le
  rw [norm_mul (ieeeQuat p)] at n1 n2
  have z1 := mul_le_mul_of_nonneg_right h2 (norm_nonneg (a * b))
  have z2 := mul_le_mul_of_nonneg_right h2 (mul_nonneg (norm_nonneg (ieeeQuat p)) (norm_nonneg (ieeeQuat q)))
  have F := S.fits (‖ieeeQuat p‖ * ‖ieeeQuat q‖) (by linarith) (by linarith)
  have P := quat_product_near S.small F hp hq le_rfl
  rw [← norm_mul] at P
  refine ⟨P.1, ?_⟩
  have := (alike_of_close S.small P).trans hx (one_le_pow₀ hx) A
  rwa [← pow_succ'] at this

theorem inverse_step {eps : Ieee φ} {hi : ℝ} (S : Steps φ eps hi) {q : Quat (Ieee φ)} {a : ℍ[ℝ]} {k : ℕ} (hq : ∀ i, (q.coords.data i).Finite)
    (ha : Alike ((1 + 35 * φ.u) ^ k) (ieeeQuat q) a) (h2 : (1 + 35 * φ.u) ^ k ≤ 2) (l1 : hi⁻¹ ≤ ‖a‖) (l2 : ‖a‖ ≤ hi) (l3 : 4 * eps.val ≤ ‖a‖) :
    ∃ r, q.tryInverse eps = some r ∧ (∀ i, (r.coords.data i).Finite) ∧ Alike ((1 + 35 * φ.u) ^ (k + 1)) (ieeeQuat r) a⁻¹ := by
  have hx : 1 ≤ 1 + 35 * φ.u := by have := φ.u_nonneg; linarith
  have hi0 : 0 < hi := by linarith [S.one_le]
  have hi1 := inv_pos.mpr hi0
  have n1 := ha.left_le
  have n2 := ha.right_le
  have z1 := mul_le_mul_of_nonneg_right h2 (norm_nonneg a)
  have z2 := mul_le_mul_of_nonneg_right h2 (norm_nonneg (ieeeQuat q))
  obtain ⟨r, e, c⟩ := S.inverse q hq (by linarith) (by linarith) (by linarith)
  refine ⟨r, e, c.1, ?_⟩
  have p1 : 0 < ‖a‖ := by linarith
  have p2 : 0 < ‖ieeeQuat q‖ := by linarith
  have := (alike_of_close S.small c).trans hx (one_le_pow₀ hx) (ha.inv (norm_pos_iff.mp p2) (norm_pos_iff.mp p1))
  rwa [← pow_succ'] at this

theorem terms_run {eps : Ieee φ} {hi : ℝ} (S : Steps φ eps hi) (t : QuatTerm φ) (h : t.Fair hi eps.val) (h2 : (1 + 35 * φ.u) ^ t.size ≤ 2) : RunsTo eps t := by
  have hx : 1 ≤ 1 + 35 * φ.u := by have := φ.u_nonneg; linarith
  have hi0 : 0 < hi := by linarith [S.one_le]
  have less : ∀ {k m : ℕ}, k ≤ m → (1 + 35 * φ.u) ^ m ≤ 2 → (1 + 35 * φ.u) ^ k ≤ 2 := fun hk hm => (pow_le_pow_right₀ hx hk).trans hm
  induction t with
  | leaf q => exact ⟨q, rfl, h.1, alike_refl (one_le_pow₀ hx)⟩
  | neg t ih =>
    obtain ⟨r, e, f, a⟩ := ih h h2
    have c := (C111_conjugate f).2
    have e2 : ieeeQuat (-r) = -ieeeQuat r := sub_eq_zero.mp (norm_le_zero_iff.mp c.2)
    exact ⟨-r, by rw [QuatTerm.run, e]; rfl, c.1, by rw [e2]; exact a.neg⟩
  | conj t ih =>
    obtain ⟨r, e, f, a⟩ := ih h h2
    have c := (C111_conjugate f).1
    have e2 : ieeeQuat r.conjugate = star (ieeeQuat r) := sub_eq_zero.mp (norm_le_zero_iff.mp c.2)
    exact ⟨r.conjugate, by rw [QuatTerm.run, e]; rfl, c.1, by rw [e2]; exact a.star⟩
  | inv t ih =>
    rw [QuatTerm.size] at h2
    have h3 := less (Nat.le_succ _) h2
    obtain ⟨r, e, f, a⟩ := ih h.1 h3
    obtain ⟨l1, l2⟩ := h.1.range hi0
    obtain ⟨s, e2, f2, a2⟩ := inverse_step S f a h3 l1 l2 h.2
    exact ⟨s, by rw [QuatTerm.run, e, ← e2]; rfl, f2, a2⟩
  | times l r ihl ihr =>
    obtain ⟨hl, hr, l1, l2⟩ := h
    rw [QuatTerm.size] at h2
    obtain ⟨p, e, f, a⟩ := ihl hl (less (by omega) h2)
    obtain ⟨q, e', f', a'⟩ := ihr hr (less (by omega) h2)
    obtain ⟨f2, a2⟩ := product_step S f f' a a' (less (by omega) h2) l1 l2
    exact ⟨p * q, by rw [QuatTerm.run, e, e']; rfl, f2, a2⟩
  | divLeft t l iht ihl =>
    obtain ⟨ht, hl, l0, l1, l2⟩ := h
    rw [QuatTerm.size] at h2
    obtain ⟨p, e, f, a⟩ := iht ht (less (by omega) h2)
    obtain ⟨q, e', f', a'⟩ := ihl hl (less (by omega) h2)
    obtain ⟨m1, m2⟩ := hl.range hi0
    obtain ⟨s, e2, f2, a2⟩ := inverse_step S f' a' (less (by omega) h2) m1 m2 l0
    obtain ⟨f3, a3⟩ := product_step S f2 f a2 a (less (by omega) h2) l1 l2
    refine ⟨s * p, ?_, f3, ?_⟩
    · rw [QuatTerm.run, e, e']
      change (q.tryInverse eps).map _ = _
      rw [e2]; rfl
    · rwa [QuatTerm.size, show l.size + t.size + 2 = l.size + 1 + t.size + 1 by omega]
  | divRight t r iht ihr =>
    obtain ⟨ht, hr, l0, l1, l2⟩ := h
    rw [QuatTerm.size] at h2
    obtain ⟨p, e, f, a⟩ := iht ht (less (by omega) h2)
    obtain ⟨q, e', f', a'⟩ := ihr hr (less (by omega) h2)
    obtain ⟨m1, m2⟩ := hr.range hi0
    obtain ⟨s, e2, f2, a2⟩ := inverse_step S f' a' (less (by omega) h2) m1 m2 l0
    obtain ⟨f3, a3⟩ := product_step S f f2 a a2 (less (by omega) h2) l1 l2
    refine ⟨p * s, ?_, f3, ?_⟩
    · rw [QuatTerm.run, e, e']
      change (q.tryInverse eps).map _ = _
      rw [e2]; rfl
    · rwa [QuatTerm.size, show t.size + r.size + 2 = t.size + (r.size + 1) + 1 by omega]

theorem terms_bound {eps : Ieee φ} {hi : ℝ} (S : Steps φ eps hi) (t : QuatTerm φ) (h : t.Fair hi eps.val) (hk : 70 * t.size * φ.u ≤ 1) :
    ∃ r, t.run eps = some r ∧ QuatClose r t.exactly (70 * t.size * φ.u * ‖t.exactly‖) := by
  have hu := φ.u_nonneg
  have g := growth (x := 35 * φ.u) (k := t.size) (by positivity) (by linarith)
  obtain ⟨r, e, f, a⟩ := terms_run S t h (by linarith)
  refine ⟨r, e, f, a.2.trans (mul_le_mul_of_nonneg_right ?_ (norm_nonneg _))⟩
  linarith

/-! ### the formats -/

theorem steps64 {eps : Ieee f64} (he : eps.Finite) (he0 : 0 ≤ eps.val) : Steps f64 eps (2 ^ (490 : ℤ)) := by
  have z : ∀ n : ℤ, ((2 : ℝ) ^ n)⁻¹ = 2 ^ (-n) := fun n => (zpow_neg 2 n).symm
  have lo : ((2 : ℝ) ^ (490 : ℤ))⁻¹ / 2 = 2 ^ (-491 : ℤ) := by rw [z, div_eq_mul_inv, ← zpow_sub_one₀ (two_ne_zero (α := ℝ))]; norm_num
  have up : 2 * (2 : ℝ) ^ (490 : ℤ) = 2 ^ (491 : ℤ) := by rw [← zpow_one_add₀ two_ne_zero]; norm_num
  have fits : ∀ a : ℝ, (2 : ℝ) ^ (-1000 : ℤ) ≤ a → a ≤ 2 ^ (999 : ℤ) → Fits f64 a := fun a h1 h2 => (twice_fits64 h1 h2).1
  refine ⟨one_le_zpow₀ one_le_two (by norm_num), roundoff64, fun a h1 h2 => ?_, fun q hq h1 h2 h3 => ?_⟩
  · rw [lo] at h1
    rw [up] at h2
    exact fits a ((zpow_le_zpow_right₀ one_le_two (by norm_num)).trans h1) (h2.trans (zpow_le_zpow_right₀ one_le_two (by norm_num)))
  · rw [lo] at h1
    rw [up] at h2
    have hp : (0 : ℝ) < 2 ^ (-491 : ℤ) := by positivity
    have hn := hp.trans_le h1
    have s1 : (2 : ℝ) ^ (-1000 : ℤ) ≤ ‖ieeeQuat q‖ * ‖ieeeQuat q‖ := by
      calc (2 : ℝ) ^ (-1000 : ℤ) ≤ 2 ^ (-982 : ℤ) := zpow_le_zpow_right₀ one_le_two (by norm_num)
        _ = 2 ^ (-491 : ℤ) * 2 ^ (-491 : ℤ) := by rw [← zpow_add₀ two_ne_zero]; norm_num
        _ ≤ _ := mul_le_mul h1 h1 hp.le hn.le
    have s2 : ‖ieeeQuat q‖ * ‖ieeeQuat q‖ ≤ 2 ^ (982 : ℤ) := by
      calc _ ≤ (2 : ℝ) ^ (491 : ℤ) * 2 ^ (491 : ℤ) := mul_le_mul h2 h2 hn.le (by positivity)
        _ = 2 ^ (982 : ℤ) := by rw [← zpow_add₀ two_ne_zero]; norm_num
    have i1 := inv_anti₀ hn h2
    have i2 := inv_anti₀ hp h1
    rw [z] at i1 i2
    rw [neg_neg] at i2
    have N := C111_dot64 hq hq s1 (s2.trans (zpow_le_zpow_right₀ one_le_two (by norm_num)))
    rw [Quaternion.self_mul_star, Quaternion.re_coe, Quaternion.normSq_eq_norm_mul_self, ← sq] at N
    rw [← sq] at s1 s2
    exact quat_inverse_near roundoff64 hq hn N (fits _ s1 (s2.trans (zpow_le_zpow_right₀ one_le_two (by norm_num))))
      (fits _ ((zpow_le_zpow_right₀ one_le_two (by norm_num)).trans i1) (i2.trans (zpow_le_zpow_right₀ one_le_two (by norm_num)))) he he0 h3

theorem steps32 {eps : Ieee f32} (he : eps.Finite) (he0 : 0 ≤ eps.val) : Steps f32 eps (2 ^ (60 : ℤ)) := by
  have z : ∀ n : ℤ, ((2 : ℝ) ^ n)⁻¹ = 2 ^ (-n) := fun n => (zpow_neg 2 n).symm
  have lo : ((2 : ℝ) ^ (60 : ℤ))⁻¹ / 2 = 2 ^ (-61 : ℤ) := by rw [z, div_eq_mul_inv, ← zpow_sub_one₀ (two_ne_zero (α := ℝ))]; norm_num
  have up : 2 * (2 : ℝ) ^ (60 : ℤ) = 2 ^ (61 : ℤ) := by rw [← zpow_one_add₀ two_ne_zero]; norm_num
  have fits : ∀ a : ℝ, (2 : ℝ) ^ (-126 : ℤ) ≤ a → a ≤ 2 ^ (125 : ℤ) → Fits f32 a := fun a h1 h2 => (twice_fits32 h1 h2).1
  refine ⟨one_le_zpow₀ one_le_two (by norm_num), roundoff32, fun a h1 h2 => ?_, fun q hq h1 h2 h3 => ?_⟩
  · rw [lo] at h1
    rw [up] at h2
    exact fits a ((zpow_le_zpow_right₀ one_le_two (by norm_num)).trans h1) (h2.trans (zpow_le_zpow_right₀ one_le_two (by norm_num)))
  · rw [lo] at h1
    rw [up] at h2
    have hp : (0 : ℝ) < 2 ^ (-61 : ℤ) := by positivity
    have hn := hp.trans_le h1
    have s1 : (2 : ℝ) ^ (-126 : ℤ) ≤ ‖ieeeQuat q‖ * ‖ieeeQuat q‖ := by
      calc (2 : ℝ) ^ (-126 : ℤ) ≤ 2 ^ (-122 : ℤ) := zpow_le_zpow_right₀ one_le_two (by norm_num)
        _ = 2 ^ (-61 : ℤ) * 2 ^ (-61 : ℤ) := by rw [← zpow_add₀ two_ne_zero]; norm_num
        _ ≤ _ := mul_le_mul h1 h1 hp.le hn.le
    have s2 : ‖ieeeQuat q‖ * ‖ieeeQuat q‖ ≤ 2 ^ (122 : ℤ) := by
      calc _ ≤ (2 : ℝ) ^ (61 : ℤ) * 2 ^ (61 : ℤ) := mul_le_mul h2 h2 hn.le (by positivity)
        _ = 2 ^ (122 : ℤ) := by rw [← zpow_add₀ two_ne_zero]; norm_num
    have i1 := inv_anti₀ hn h2
    have i2 := inv_anti₀ hp h1
    rw [z] at i1 i2
    rw [neg_neg] at i2
    have N := C108_dot32 (n := 4) (by norm_num) (v := q.coords) (w := q.coords) ⟨hq, (ieeeQuat_norm q).ge⟩ ⟨hq, (ieeeQuat_norm q).ge⟩ s1
      (s2.trans (zpow_le_zpow_right₀ one_le_two (by norm_num)))
    have e : values q.coords ⬝ᵥ values q.coords = ‖ieeeQuat q‖ ^ 2 := by
      rw [ieeeQuat_norm, vecNorm, Real.sq_sqrt (Finset.sum_nonneg fun i _ => sq_nonneg _)]
      exact Finset.sum_congr rfl fun i _ => (sq _).symm
    rw [e] at N
    rw [← sq] at s1 s2 N
    exact quat_inverse_near roundoff32 hq hn (near_weaken N (le_of_eq (by change _ = 20 * (2 : ℝ) ^ (-24 : ℤ) * _; push_cast; ring)))
      (fits _ s1 (s2.trans (zpow_le_zpow_right₀ one_le_two (by norm_num))))
      (fits _ ((zpow_le_zpow_right₀ one_le_two (by norm_num)).trans i1) (i2.trans (zpow_le_zpow_right₀ one_le_two (by norm_num)))) he he0 h3

/-! ### the property -/

/-- **C113.**  `f64`: an expression with `k` products and inverses, all of whose parts have exact norms between `2 ^ -490` and `2 ^ 490`, and which inverts
nothing smaller than four times the threshold, is computed: no inverse is refused, nothing overflows, and the relative error is at most `70 k` roundings. -/
theorem C113_expression64 {eps : Ieee f64} (he : eps.Finite) (he0 : 0 ≤ eps.val) (t : QuatTerm f64) (h : t.Fair (2 ^ (490 : ℤ)) eps.val)
    (hk : t.size ≤ 100000000000000) : ∃ r, t.run eps = some r ∧ QuatClose r t.exactly (70 * t.size * 2 ^ (-53 : ℤ) * ‖t.exactly‖) := by
  refine terms_bound (steps64 he he0) t h ?_
  have h : (t.size : ℝ) ≤ 100000000000000 := by exact_mod_cast hk
  have h2 : (2 : ℝ) ^ (-53 : ℤ) ≤ 12 / 100000000000000000 := by norm_num
  change 70 * (t.size : ℝ) * 2 ^ (-53 : ℤ) ≤ 1
  have h3 := mul_le_mul h h2 (by positivity) (by norm_num)
  norm_num at h3 ⊢
  linarith

/-- **C113.**  `f32`: the same for norms between `2 ^ -60` and `2 ^ 60`. -/
theorem C113_expression32 {eps : Ieee f32} (he : eps.Finite) (he0 : 0 ≤ eps.val) (t : QuatTerm f32) (h : t.Fair (2 ^ (60 : ℤ)) eps.val)
    (hk : t.size ≤ 200000) : ∃ r, t.run eps = some r ∧ QuatClose r t.exactly (70 * t.size * 2 ^ (-24 : ℤ) * ‖t.exactly‖) := by
  refine terms_bound (steps32 he he0) t h ?_
  have h : (t.size : ℝ) ≤ 200000 := by exact_mod_cast hk
  have h2 : (2 : ℝ) ^ (-24 : ℤ) ≤ 6 / 100000000 := by norm_num
  change 70 * (t.size : ℝ) * 2 ^ (-24 : ℤ) ≤ 1
  have h3 := mul_le_mul h h2 (by positivity) (by norm_num)
  norm_num at h3 ⊢
  linarith

/-- **C113.**  `f64`: two expressions with the same exact value agree up to the sum of their errors, such as `(a b)⁻¹` and `b⁻¹ a⁻¹`. -/
theorem C113_equal64 {eps : Ieee f64} (he : eps.Finite) (he0 : 0 ≤ eps.val) (t s : QuatTerm f64) (ht : t.Fair (2 ^ (490 : ℤ)) eps.val)
    (hs : s.Fair (2 ^ (490 : ℤ)) eps.val) (kt : t.size ≤ 100000000000000) (ks : s.size ≤ 100000000000000) (h : t.exactly = s.exactly) :
    ∃ p q, t.run eps = some p ∧ s.run eps = some q ∧ ‖ieeeQuat p - ieeeQuat q‖ ≤ 70 * (t.size + s.size) * 2 ^ (-53 : ℤ) * ‖t.exactly‖ := by
  obtain ⟨p, e, -, a⟩ := C113_expression64 he he0 t ht kt
  obtain ⟨q, e', -, a'⟩ := C113_expression64 he he0 s hs ks
  refine ⟨p, q, e, e', ?_⟩
  rw [← h] at a'
  have h3 := norm_sub_le (ieeeQuat p - t.exactly) (ieeeQuat q - t.exactly)
  rw [sub_sub_sub_cancel_right] at h3
  linarith

/-! ### the hypotheses can be met -/

theorem big_range {x : ℝ} (h1 : 1 / 8 ≤ x) (h2 : x ≤ 8) : ((2 : ℝ) ^ (490 : ℤ))⁻¹ ≤ x ∧ x ≤ 2 ^ (490 : ℤ) := by
  have h : (8 : ℝ) ≤ 2 ^ (490 : ℤ) := by
    calc (8 : ℝ) = 2 ^ (3 : ℤ) := by norm_num
      _ ≤ _ := zpow_le_zpow_right₀ one_le_two (by norm_num)
  refine ⟨le_trans ?_ h1, h2.trans h⟩
  rw [one_div]; exact inv_anti₀ (by norm_num) h

/-- `(a a)⁻¹` and `a⁻¹ a⁻¹`, for `a = 1 + i + j + k` -/
noncomputable def inverseOfSquare : QuatTerm f64 := .inv (.times (.leaf allOneQuat) (.leaf allOneQuat))
noncomputable def squareOfInverse : QuatTerm f64 := .times (.inv (.leaf allOneQuat)) (.inv (.leaf allOneQuat))

theorem inverseOfSquare_fair : inverseOfSquare.Fair (2 ^ (490 : ℤ)) (0 : Ieee f64).val := by
  have e : (0 : Ieee f64).val = 0 := rfl
  simp only [inverseOfSquare, QuatTerm.Fair, QuatTerm.exactly, norm_mul, allOneQuat_norm, e]
  have a := big_range (x := 2) (by norm_num) (by norm_num)
  have b := big_range (x := 2 * 2) (by norm_num) (by norm_num)
  exact ⟨⟨⟨allOneQuat_finite, a⟩, ⟨allOneQuat_finite, a⟩, b⟩, by norm_num⟩

theorem squareOfInverse_fair : squareOfInverse.Fair (2 ^ (490 : ℤ)) (0 : Ieee f64).val := by
  have e : (0 : Ieee f64).val = 0 := rfl
  simp only [squareOfInverse, QuatTerm.Fair, QuatTerm.exactly, norm_mul, norm_inv, allOneQuat_norm, e]
  have a := big_range (x := 2) (by norm_num) (by norm_num)
  have b := big_range (x := 2⁻¹ * 2⁻¹) (by norm_num) (by norm_num)
  exact ⟨⟨⟨allOneQuat_finite, a⟩, by norm_num⟩, ⟨⟨allOneQuat_finite, a⟩, by norm_num⟩, b⟩

example : ∃ p q, inverseOfSquare.run 0 = some p ∧ squareOfInverse.run 0 = some q ∧
    ‖ieeeQuat p - ieeeQuat q‖ ≤ 70 * (((2 : ℕ) : ℝ) + ((3 : ℕ) : ℝ)) * 2 ^ (-53 : ℤ) * ‖inverseOfSquare.exactly‖ :=
  C113_equal64 finite_zero le_rfl inverseOfSquare squareOfInverse inverseOfSquare_fair squareOfInverse_fair (by simp [inverseOfSquare, QuatTerm.size])
    (by simp [squareOfInverse, QuatTerm.size]) (by simp [inverseOfSquare, squareOfInverse, QuatTerm.exactly, _root_.mul_inv_rev])

end Cgl
