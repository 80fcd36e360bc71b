import Verif.Props.C98_ComplexFunctions

/-!
# C100 - integer powers and long products of complex numbers in floating point

Every multiplication adds one unit of relative error, so a product of `n` numbers, multiplied in any order, has `n - 1` units; repeated squaring is no
worse and no better.
-/

namespace Cgl
open Ieee FloatFns Spec Cx

variable {φ : Format}

namespace Spec

/-- numbers of half and of twice the size `a` neither overflow nor underflow -/
def Midrange (φ : Format) (a : ℝ) : Prop := Fits φ (a / 2) ∧ Fits φ (2 * a)

/-- a finite number whose distance from `c` is at most `e` times the modulus of `c` -/
def CxRel (w : Cx (Ieee φ)) (c : ℂ) (e : ℝ) : Prop := (w.re.Finite ∧ w.im.Finite) ∧ ‖complexOf w - c‖ ≤ e * ‖c‖

/-- an order in which to multiply numbers: one number, or the product of two products -/
inductive ProductOrder (α : Type*)
  | number (z : α)
  | times (p q : ProductOrder α)

namespace ProductOrder
variable {α : Type*}

/-- how many numbers are multiplied -/
def count : ProductOrder α → ℕ
  | number _ => 1
  | times p q => p.count + q.count

/-- multiply in this order -/
def eval [Mul α] : ProductOrder α → α
  | number z => z
  | times p q => p.eval * q.eval

/-- the same product of other numbers -/
def map {β : Type*} (f : α → β) : ProductOrder α → ProductOrder β
  | number z => number (f z)
  | times p q => times (p.map f) (q.map f)

/-- a condition on every intermediate result -/
def Each [Mul α] (P : α → Prop) : ProductOrder α → Prop
  | number z => P z
  | times p q => p.Each P ∧ q.Each P ∧ P (p.eval * q.eval)

/-- a condition on every factor -/
def Factors (P : α → Prop) : ProductOrder α → Prop
  | number z => P z
  | times p q => p.Factors P ∧ q.Factors P

end ProductOrder
end Spec

/-! ### the error of one product -/

theorem Spec.Fits.between {a b c : ℝ} (ha : Fits φ a) (hc : Fits φ c) (h1 : a ≤ b) (h2 : b ≤ c) : Fits φ b := by
  refine ⟨ha.pos.trans_le h1, ha.under.trans (mul_le_mul_of_nonneg_left h1 φ.u_nonneg), ?_⟩
  linarith [hc.over]

theorem Spec.Midrange.between {a b c : ℝ} (ha : Midrange φ a) (hc : Midrange φ c) (h1 : a ≤ b) (h2 : b ≤ c) : Midrange φ b :=
  ⟨ha.1.between hc.1 (by linarith) (by linarith), ha.2.between hc.2 (by linarith) (by linarith)⟩

theorem Spec.Midrange.pos {a : ℝ} (h : Midrange φ a) : 0 < a := by have := h.2.pos; linarith

theorem Spec.Midrange.power {a : ℝ} {n k : ℕ} (h1 : Midrange φ a) (hn : Midrange φ (a ^ n)) (hk : 1 ≤ k) (hkn : k ≤ n) : Midrange φ (a ^ k) := by
  have h0 := h1.pos
  rcases le_total 1 a with h | h
  · exact h1.between hn (le_self_pow₀ h (by omega)) (pow_le_pow_right₀ h hkn)
  · exact hn.between h1 (pow_le_pow_of_le_one h0.le h hkn) (pow_le_of_le_one h0.le h (by omega))

theorem norm_le_of_within {w : Cx (Ieee φ)} {c : ℂ} {e : ℝ} (h : CxWithin w c e) : ‖complexOf w - c‖ ≤ 10 / 7 * e := by
  have he : 0 ≤ e := (abs_nonneg _).trans h.1.2
  rw [Complex.norm_def]
  refine Real.sqrt_le_iff.mpr ⟨by positivity, ?_⟩
  rw [Complex.normSq_apply]
  have h1 := sq_le_sq' (abs_le.mp h.1.2).1 (abs_le.mp h.1.2).2
  have h2 := sq_le_sq' (abs_le.mp h.2.2).1 (abs_le.mp h.2.2).2
  change (w.re.val - c.re) * (w.re.val - c.re) + (w.im.val - c.im) * (w.im.val - c.im) ≤ _
  nlinarith

/-- the in-place product -/
theorem mulAssign_within {z w : Cx (Ieee φ)} (hu : φ.u ≤ 1 / 1000000) (hre : z.re.Finite) (him : z.im.Finite) (hre' : w.re.Finite) (him' : w.im.Finite)
    (hF : Fits φ (‖complexOf z‖ * ‖complexOf w‖)) :
    CxWithin (z.mulAssign w) (complexOf z * complexOf w) (7 * φ.u * (‖complexOf z‖ * ‖complexOf w‖)) := by
  refine ⟨(C98_mul hu hre him hre' him' hF).1, ?_⟩
  obtain ⟨z1, z2⟩ := cx_bounds (z := z)
  obtain ⟨w1, w2⟩ := cx_bounds (z := w)
  have hb : ∀ {s t : ℝ}, |s| ≤ ‖complexOf z‖ → |t| ≤ ‖complexOf w‖ → |s * t| ≤ ‖complexOf z‖ * ‖complexOf w‖ := fun h1 h2 => by
    rw [abs_mul]; exact mul_le_mul h1 h2 (abs_nonneg _) (norm_nonneg _)
  have q3 := prod_scaled hu hF hre him' (hb z1 w2)
  have q4 := prod_scaled hu hF him hre' (hb z2 w1)
  have n2 := Complex.abs_im_le_norm (complexOf z * complexOf w)
  rw [norm_mul, Complex.mul_im, add_comm] at n2
  rw [Complex.mul_im, add_comm]
  exact sum_scaled hu hF q4 q3 n2

section
variable {w v : Cx (Ieee φ)} {c d : ℂ} {A B : ℝ}

theorem rel_product_fits (hA : 1 ≤ A) (hB : 1 ≤ B) (hAB : A * B ≤ 3 / 2) (hw : CxRel w c (A - 1)) (hv : CxRel v d (B - 1)) (hF : Midrange φ (‖c‖ * ‖d‖)) :
    Fits φ (‖complexOf w‖ * ‖complexOf v‖) ∧ ‖complexOf w‖ ≤ A * ‖c‖ ∧ ‖complexOf v‖ ≤ B * ‖d‖ := by
  have hc := norm_nonneg c
  have hd := norm_nonneg d
  have w1 : ‖complexOf w‖ ≤ A * ‖c‖ := by
    have := norm_sub_norm_le (complexOf w) c
    linarith [hw.2]
  have w2 : (2 - A) * ‖c‖ ≤ ‖complexOf w‖ := by
    have := norm_sub_norm_le c (complexOf w)
    rw [norm_sub_rev] at this
    linarith [hw.2]
  have v1 : ‖complexOf v‖ ≤ B * ‖d‖ := by
    have := norm_sub_norm_le (complexOf v) d
    linarith [hv.2]
  have v2 : (2 - B) * ‖d‖ ≤ ‖complexOf v‖ := by
    have := norm_sub_norm_le d (complexOf v)
    rw [norm_sub_rev] at this
    linarith [hv.2]
  have hA2 : A ≤ 3 / 2 := by nlinarith
  have hB2 : B ≤ 3 / 2 := by nlinarith
  refine ⟨hF.1.between hF.2 ?_ ?_, w1, v1⟩
  · have h1 := mul_le_mul w2 v2 (mul_nonneg (by linarith) hd) (norm_nonneg _)
    have h2 : 1 / 2 ≤ (2 - A) * (2 - B) := by nlinarith
    have h3 := mul_le_mul_of_nonneg_right h2 (mul_nonneg hc hd)
    calc ‖c‖ * ‖d‖ / 2 = 1 / 2 * (‖c‖ * ‖d‖) := by ring
      _ ≤ _ := h3
      _ = (2 - A) * ‖c‖ * ((2 - B) * ‖d‖) := by ring
      _ ≤ _ := h1
  · have h1 := mul_le_mul w1 v1 (norm_nonneg _) (by positivity)
    have h3 := mul_le_mul_of_nonneg_right hAB (mul_nonneg hc hd)
    have := mul_nonneg hc hd
    linarith

/-- a computed product of approximations -/
theorem rel_product {x : Cx (Ieee φ)} (hA : 1 ≤ A) (hB : 1 ≤ B) (hw : CxRel w c (A - 1)) (hv : CxRel v d (B - 1))
    (h1 : ‖complexOf w‖ ≤ A * ‖c‖) (h2 : ‖complexOf v‖ ≤ B * ‖d‖)
    (hx : CxWithin x (complexOf w * complexOf v) (7 * φ.u * (‖complexOf w‖ * ‖complexOf v‖))) :
    CxRel x (c * d) ((1 + 10 * φ.u) * (A * B) - 1) := by
  have hu0 := φ.u_nonneg
  have hc := norm_nonneg c
  have hd := norm_nonneg d
  refine ⟨⟨hx.1.1, hx.2.1⟩, ?_⟩
  have k1 := norm_le_of_within hx
  have k2 : ‖complexOf w * complexOf v - c * d‖ ≤ (A * B - 1) * (‖c‖ * ‖d‖) := by
    have e : complexOf w * complexOf v - c * d = (complexOf w - c) * complexOf v + c * (complexOf v - d) := by ring
    rw [e]
    refine (norm_add_le _ _).trans ?_
    rw [norm_mul, norm_mul]
    have a1 := mul_le_mul hw.2 h2 (norm_nonneg _) (mul_nonneg (by linarith) hc)
    have a2 := mul_le_mul_of_nonneg_left hv.2 hc
    linarith
  have k3 := mul_le_mul h1 h2 (norm_nonneg _) (mul_nonneg (by linarith) hc)
  have k4 := mul_le_mul_of_nonneg_left k3 (show 0 ≤ 10 * φ.u by positivity)
  rw [norm_mul]
  have k5 := norm_sub_le_norm_sub_add_norm_sub (complexOf x) (complexOf w * complexOf v) (c * d)
  linarith
end

/-- `k` units of relative error -/
def Spec.RelUnits (φ : Format) (w : Cx (Ieee φ)) (c : ℂ) (k : ℕ) : Prop := CxRel w c ((1 + 10 * φ.u) ^ k - 1)

section
variable {w v : Cx (Ieee φ)} {c d : ℂ} {j k : ℕ} (hu : φ.u ≤ 1 / 1000000) (hw : RelUnits φ w c j) (hv : RelUnits φ v d k)
  (hjk : (1 + 10 * φ.u) ^ (j + k) ≤ 3 / 2) (hF : Midrange φ (‖c‖ * ‖d‖))
include hu hw hv hjk hF

theorem units_mul : RelUnits φ (w * v) (c * d) (j + k + 1) ∧ RelUnits φ (w.mulAssign v) (c * d) (j + k + 1) := by
  have hu0 := φ.u_nonneg
  have hA : 1 ≤ (1 + 10 * φ.u) ^ j := one_le_pow₀ (by linarith)
  have hB : 1 ≤ (1 + 10 * φ.u) ^ k := one_le_pow₀ (by linarith)
  rw [pow_add] at hjk
  obtain ⟨h1, h2, h3⟩ := rel_product_fits hA hB hjk hw hv hF
  have e : (1 + 10 * φ.u) ^ (j + k + 1) - 1 = (1 + 10 * φ.u) * ((1 + 10 * φ.u) ^ j * (1 + 10 * φ.u) ^ k) - 1 := by ring
  unfold RelUnits
  rw [e]
  exact ⟨rel_product hA hB hw hv h2 h3 (C98_mul hu hw.1.1 hw.1.2 hv.1.1 hv.1.2 h1),
    rel_product hA hB hw hv h2 h3 (mulAssign_within hu hw.1.1 hw.1.2 hv.1.1 hv.1.2 h1)⟩
end

/-- a few units of error add up -/
theorem units_le {ρ : ℝ} (h0 : 0 ≤ ρ) {k : ℕ} (hk : k * ρ ≤ 1 / 5) : (1 + ρ) ^ k - 1 ≤ 5 / 4 * (k * ρ) := by
  rcases Nat.eq_zero_or_pos k with rfl | hk0
  · simp
  have hk1 : (1 : ℝ) ≤ k := by exact_mod_cast hk0
  have hρ : ρ ≤ 1 / 5 := by nlinarith
  have h1 := one_add_mul_le_pow (show (-2 : ℝ) ≤ -ρ by linarith) k
  have h2 : ((1 + ρ) * (1 + -ρ)) ^ k ≤ 1 := pow_le_one₀ (mul_nonneg (by linarith) (by linarith)) (by nlinarith)
  rw [mul_pow] at h2
  have h3 : 0 < (1 + ρ) ^ k := by positivity
  have h4 := mul_le_mul_of_nonneg_left h1 h3.le
  have h5 : 0 ≤ k * ρ := by positivity
  have h6 : (1 + ρ) ^ k * (1 - k * ρ) ≤ 1 := by
    refine le_trans (le_of_eq ?_) (h4.trans h2)
    ring
  nlinarith

/-! ### products in any order -/

/-- **Long products.** A product of finite numbers, multiplied in any order, has a relative error of at most `13 (n - 1)` rounding units, where `n` is
the number of factors, if no intermediate result comes near the limits of the format. -/
theorem C100_product (hu : φ.u ≤ 1 / 1000000) (p : ProductOrder (Cx (Ieee φ))) (hfin : p.Factors (fun z => z.re.Finite ∧ z.im.Finite))
    (hn : p.count * φ.u ≤ 1 / 50) (hp : (p.map complexOf).Each (fun c => Midrange φ ‖c‖)) :
    CxRel p.eval (p.map complexOf).eval (13 * (p.count - 1) * φ.u) := by
  have hu0 := φ.u_nonneg
  have pos : ∀ q : ProductOrder (Cx (Ieee φ)), 1 ≤ q.count := by
    intro q
    induction q with
    | number z => exact le_refl 1
    | times a b ha hb => exact le_trans ha (Nat.le_add_right _ _)
  have small : ∀ {k : ℕ}, k * φ.u ≤ 1 / 50 → (1 + 10 * φ.u) ^ k - 1 ≤ 25 / 2 * (k * φ.u) := fun {k} h => by
    have := units_le (show 0 ≤ 10 * φ.u by positivity) (k := k) (by linarith)
    linarith
  have main : ∀ q : ProductOrder (Cx (Ieee φ)), q.count * φ.u ≤ 1 / 50 → q.Factors (fun z => z.re.Finite ∧ z.im.Finite) →
      (q.map complexOf).Each (fun c => Midrange φ ‖c‖) → RelUnits φ q.eval (q.map complexOf).eval (q.count - 1) := by
    intro q
    induction q with
    | number z =>
      intro _ hf _
      refine ⟨hf, ?_⟩
      change ‖complexOf z - complexOf z‖ ≤ _
      rw [sub_self, _root_.norm_zero]
      change 0 ≤ ((1 + 10 * φ.u) ^ 0 - 1) * _
      simp
    | times a b ha hb =>
      intro hq hf he
      have hq' : (a.count + b.count : ℝ) * φ.u ≤ 1 / 50 := by
        have : ((a.count + b.count : ℕ) : ℝ) * φ.u ≤ 1 / 50 := hq
        push_cast at this; exact this
      have pa := pos a
      have pb := pos b
      have ka : 0 ≤ a.count * φ.u := by positivity
      have kb : 0 ≤ b.count * φ.u := by positivity
      have ia := ha (by linarith) hf.1 he.1
      have ib := hb (by linarith) hf.2 he.2.1
      have hR : Midrange φ ‖(a.map complexOf).eval * (b.map complexOf).eval‖ := he.2.2
      rw [norm_mul] at hR
      have hsum : a.count - 1 + (b.count - 1) ≤ a.count + b.count := by omega
      have h32 : (1 + 10 * φ.u) ^ (a.count - 1 + (b.count - 1)) ≤ 3 / 2 := by
        refine (pow_le_pow_right₀ (by linarith) hsum).trans ?_
        have := small (k := a.count + b.count) (by push_cast; exact hq')
        push_cast at this
        linarith
      have := (units_mul hu ia ib h32 hR).1
      rw [show a.count - 1 + (b.count - 1) + 1 = a.count + b.count - 1 by omega] at this
      exact this
  obtain ⟨h1, h2⟩ := main p hn hfin hp
  refine ⟨h1, h2.trans (mul_le_mul_of_nonneg_right ?_ (norm_nonneg _))⟩
  have hpos := pos p
  have hc : ((p.count - 1 : ℕ) : ℝ) = p.count - 1 := by rw [Nat.cast_sub hpos]; simp
  have h3 : ((p.count - 1 : ℕ) : ℝ) * φ.u ≤ 1 / 50 := by rw [hc]; linarith
  have h4 : 0 ≤ ((p.count - 1 : ℕ) : ℝ) * φ.u := by positivity
  have := small h3
  rw [hc] at this h4
  rw [hc] at h3
  linarith

/-! ### repeated squaring -/

section
variable {ζ : ℂ} {D n : ℕ} (hu : φ.u ≤ 1 / 1000000) (hD : 1 ≤ D) (hn : (1 + 10 * φ.u) ^ (D * n) ≤ 3 / 2) (h1 : Midrange φ ‖ζ‖) (h2 : Midrange φ (‖ζ‖ ^ n))
include hu hD hn h1 h2

/-- the product of the computed powers `m` and `s` -/
theorem power_step {w v : Cx (Ieee φ)} {m s : ℕ} (hm : 1 ≤ m) (hs : 1 ≤ s) (hms : m + s ≤ n) (hw : RelUnits φ w (ζ ^ m) (D * m - 1))
    (hv : RelUnits φ v (ζ ^ s) (D * s - 1)) :
    RelUnits φ (w * v) (ζ ^ (m + s)) (D * (m + s) - 1) ∧ RelUnits φ (w.mulAssign v) (ζ ^ (m + s)) (D * (m + s) - 1) := by
  have hu0 := φ.u_nonneg
  have a1 : 1 ≤ D * m := Nat.mul_pos hD hm
  have a2 : 1 ≤ D * s := Nat.mul_pos hD hs
  have a3 : D * (m + s) ≤ D * n := Nat.mul_le_mul_left D hms
  have a4 : D * (m + s) = D * m + D * s := Nat.mul_add D m s
  have key := units_mul hu hw hv ((pow_le_pow_right₀ (by linarith) (by omega)).trans hn) (by
    rw [← norm_mul, ← pow_add, norm_pow]
    exact h1.power h2 (by omega) hms)
  rw [← pow_add, show D * m - 1 + (D * s - 1) + 1 = D * (m + s) - 1 by omega] at key
  exact key

/-- the first loop, with natural exponents -/
theorem power_loop (e : ℕ) : ∀ (b : Cx (Ieee φ)) (m : ℕ), 0 < e → 1 ≤ m → m * e = n → RelUnits φ b (ζ ^ m) (D * m - 1) → ∃ e' b' m',
    whileLoop (fun s : ℕ × Cx (Ieee φ) => s.1 % 2 = 0) (fun s => (s.1 >>> 1, s.2 * s.2)) (e, b) = some (e', b') ∧
    e' % 2 = 1 ∧ 1 ≤ m' ∧ m' * e' = n ∧ RelUnits φ b' (ζ ^ m') (D * m' - 1) := by
  induction e using Nat.strong_induction_on with
  | _ e ih =>
    intro b m he hm hme hb
    rw [whileLoop]
    by_cases h : e % 2 = 0
    · have hs : e >>> 1 = e / 2 := Nat.shiftRight_one e
      have he2 : e = 2 * (e / 2) := by omega
      have hmm : (m + m) * (e / 2) = n := by
        calc (m + m) * (e / 2) = m * (2 * (e / 2)) := by ring
          _ = n := by rw [← he2, hme]
      have hle : m + m ≤ n := by rw [← hmm]; exact Nat.le_mul_of_pos_right _ (by omega)
      obtain ⟨e', b', m', k1, k2⟩ := ih (e / 2) (by omega) (b * b) (m + m) (by omega) (by omega) hmm
        (power_step hu hD hn h1 h2 hm hm hle hb hb).1
      exact ⟨e', b', m', by simpa [h, hs] using k1, k2⟩
    · exact ⟨e, b, m, by simp [h], by omega, hm, hme, hb⟩

/-- the second loop, with natural exponents -/
theorem power_loop2 (e : ℕ) : ∀ (b r : Cx (Ieee φ)) (m s : ℕ), 1 ≤ m → 1 ≤ s → s + m * (e - e % 2) = n → RelUnits φ b (ζ ^ m) (D * m - 1) →
    RelUnits φ r (ζ ^ s) (D * s - 1) → ∃ s',
    whileLoop (fun s : PowState (Ieee φ) ℕ => s.exponent > 1) (fun s =>
      let exponent := s.exponent >>> 1
      let base := s.base * s.base
      if exponent % 2 = 1 then ⟨exponent, base, s.result.mulAssign base⟩
      else ⟨exponent, base, s.result⟩) ⟨e, b, r⟩ = some s' ∧ RelUnits φ s'.result (ζ ^ n) (D * n - 1) := by
  induction e using Nat.strong_induction_on with
  | _ e ih =>
    intro b r m s hm hs hme hb hr
    rw [whileLoop]
    by_cases h : e > 1
    · have hlt : e >>> 1 < e := by rw [Nat.shiftRight_one]; omega
      have hsh : e >>> 1 = e / 2 := Nat.shiftRight_one e
      have hle : s + (m + m) ≤ n := by
        rw [← hme]
        have : m * 2 ≤ m * (e - e % 2) := Nat.mul_le_mul_left m (by omega)
        omega
      have hbb := (power_step hu hD hn h1 h2 hm hm (by omega) hb hb).1
      simp only [h, decide_true, if_true]
      by_cases ho : (e >>> 1) % 2 = 1
      · have hrr := (power_step hu hD hn h1 h2 hs (by omega) hle hr hbb).2
        obtain ⟨s', h3, h4⟩ := ih (e >>> 1) hlt (b * b) (r.mulAssign (b * b)) (m + m) (s + (m + m)) (by omega) (by omega) (by
          rw [← hme, hsh]
          rw [hsh] at ho
          obtain ⟨q, hq⟩ : ∃ q, e / 2 = 2 * q + 1 := ⟨e / 2 / 2, by omega⟩
          rw [show e / 2 - e / 2 % 2 = 2 * q by omega, show e - e % 2 = 2 * (2 * q + 1) by omega]
          ring) hbb hrr
        exact ⟨s', by simpa [ho] using h3, h4⟩
      · obtain ⟨s', h3, h4⟩ := ih (e >>> 1) hlt (b * b) r (m + m) s (by omega) hs (by
          rw [← hme, hsh]
          rw [hsh] at ho
          obtain ⟨q, hq⟩ : ∃ q, e / 2 = 2 * q := ⟨e / 2 / 2, by omega⟩
          rw [show e / 2 - e / 2 % 2 = 2 * q by omega, show e - e % 2 = 2 * (2 * q) by omega]
          ring) hbb hr
        exact ⟨s', by simpa [ho] using h3, h4⟩
    · refine ⟨⟨e, b, r⟩, by simp [h], ?_⟩
      have : e - e % 2 = 0 := by omega
      rw [this, Nat.mul_zero, Nat.add_zero] at hme
      rw [← hme]; exact hr

/-- the first loop, with positive integer exponents -/
theorem power_loop_int (e : ℕ) : ∀ (b : Cx (Ieee φ)) (m : ℕ), 0 < e → 1 ≤ m → m * e = n → RelUnits φ b (ζ ^ m) (D * m - 1) → ∃ (e' : ℕ) (b' : Cx (Ieee φ)) (m' : ℕ),
    whileLoop (fun s : ℤ × Cx (Ieee φ) => s.1.tmod 2 = 0) (fun s => (s.1 >>> 1, s.2 * s.2)) ((e : ℤ), b) = some ((e' : ℤ), b') ∧
    e' % 2 = 1 ∧ 1 ≤ m' ∧ m' * e' = n ∧ RelUnits φ b' (ζ ^ m') (D * m' - 1) := by
  induction e using Nat.strong_induction_on with
  | _ e ih =>
    intro b m he hm hme hb
    rw [whileLoop]
    have hcast : ((e : ℤ).tmod 2 = 0) ↔ e % 2 = 0 := by
      rw [Int.tmod_eq_emod_of_nonneg (by omega)]; omega
    by_cases h : e % 2 = 0
    · have hs : (e : ℤ) >>> 1 = ((e / 2 : ℕ) : ℤ) := by
        rw [Int.shiftRight_eq_div_pow]; norm_num
      have he2 : e = 2 * (e / 2) := by omega
      have hmm : (m + m) * (e / 2) = n := by
        calc (m + m) * (e / 2) = m * (2 * (e / 2)) := by ring
          _ = n := by rw [← he2, hme]
      have hle : m + m ≤ n := by rw [← hmm]; exact Nat.le_mul_of_pos_right _ (by omega)
      obtain ⟨e', b', m', k1, k2⟩ := ih (e / 2) (by omega) (b * b) (m + m) (by omega) (by omega) hmm
        (power_step hu hD hn h1 h2 hm hm hle hb hb).1
      refine ⟨e', b', m', ?_, k2⟩
      simp only [hcast.mpr h, decide_true, if_true, hs]; exact k1
    · exact ⟨e, b, m, by simp [mt hcast.mp h], by omega, hm, hme, hb⟩

/-- the second loop, with positive integer exponents -/
theorem power_loop2_int (e : ℕ) : ∀ (b r : Cx (Ieee φ)) (m s : ℕ), 1 ≤ m → 1 ≤ s → s + m * (e - e % 2) = n → RelUnits φ b (ζ ^ m) (D * m - 1) →
    RelUnits φ r (ζ ^ s) (D * s - 1) → ∃ s',
    whileLoop (fun s : PowState (Ieee φ) ℤ => s.exponent > 1) (fun s =>
      let exponent := s.exponent >>> 1
      let base := s.base * s.base
      if exponent.tmod 2 = 1 then ⟨exponent, base, s.result.mulAssign base⟩
      else ⟨exponent, base, s.result⟩) ⟨e, b, r⟩ = some s' ∧ RelUnits φ s'.result (ζ ^ n) (D * n - 1) := by
  induction e using Nat.strong_induction_on with
  | _ e ih =>
    intro b r m s hm hs hme hb hr
    rw [whileLoop]
    by_cases h : e > 1
    · have hsh : (e : ℤ) >>> 1 = ((e / 2 : ℕ) : ℤ) := by
        rw [Int.shiftRight_eq_div_pow]; norm_num
      have hz : (e : ℤ) > 1 := by omega
      have hc : (((e / 2 : ℕ) : ℤ).tmod 2 = 1) ↔ (e / 2) % 2 = 1 := by
        rw [Int.tmod_eq_emod_of_nonneg (by omega)]; omega
      have hle : s + (m + m) ≤ n := by
        rw [← hme]
        have : m * 2 ≤ m * (e - e % 2) := Nat.mul_le_mul_left m (by omega)
        omega
      have hbb := (power_step hu hD hn h1 h2 hm hm (by omega) hb hb).1
      simp only [hz, decide_true, if_true, hsh]
      by_cases ho : (e / 2) % 2 = 1
      · have hrr := (power_step hu hD hn h1 h2 hs (by omega) hle hr hbb).2
        obtain ⟨s', h3, h4⟩ := ih (e / 2) (by omega) (b * b) (r.mulAssign (b * b)) (m + m) (s + (m + m)) (by omega) (by omega) (by
          rw [← hme]
          obtain ⟨q, hq⟩ : ∃ q, e / 2 = 2 * q + 1 := ⟨e / 2 / 2, by omega⟩
          rw [show e / 2 - e / 2 % 2 = 2 * q by omega, show e - e % 2 = 2 * (2 * q + 1) by omega]
          ring) hbb hrr
        exact ⟨s', by rw [if_pos (hc.mpr ho)]; exact h3, h4⟩
      · obtain ⟨s', h3, h4⟩ := ih (e / 2) (by omega) (b * b) r (m + m) s (by omega) hs (by
          rw [← hme]
          obtain ⟨q, hq⟩ : ∃ q, e / 2 = 2 * q := ⟨e / 2 / 2, by omega⟩
          rw [show e / 2 - e / 2 % 2 = 2 * q by omega, show e - e % 2 = 2 * (2 * q) by omega]
          ring) hbb hr
        exact ⟨s', by rw [if_neg (mt hc.mp ho)]; exact h3, h4⟩
    · have hz : ¬ (e : ℤ) > 1 := by omega
      refine ⟨⟨e, b, r⟩, by simp [hz], ?_⟩
      have : e - e % 2 = 0 := by omega
      rw [this, Nat.mul_zero, Nat.add_zero] at hme
      rw [← hme]; exact hr

/-- the first loop, with negative exponents -/
theorem power_loop_neg (k : ℕ) : ∀ (b : Cx (Ieee φ)) (m m' : ℕ), 1 ≤ m → m' % 2 = 1 → m * 2 ^ k = n → RelUnits φ b (ζ ^ m) (D * m - 1) → ∃ b' : Cx (Ieee φ),
    whileLoop (fun s : ℤ × Cx (Ieee φ) => s.1.tmod 2 = 0) (fun s => (s.1 >>> 1, s.2 * s.2)) (-((2 ^ k * m' : ℕ) : ℤ), b) = some (-(m' : ℤ), b') ∧
    RelUnits φ b' (ζ ^ n) (D * n - 1) := by
  induction k with
  | zero =>
    intro b m m' hm hm' hme hb
    rw [pow_zero, mul_one] at hme
    rw [whileLoop, pow_zero, one_mul]
    have : ¬ (-(m' : ℤ)).tmod 2 = 0 := by
      rw [Int.neg_tmod, Int.tmod_eq_emod_of_nonneg (by omega)]; omega
    exact ⟨b, by rw [decide_eq_false this]; simp, by rw [← hme]; exact hb⟩
  | succ k ih =>
    intro b m m' hm hm' hme hb
    have hmm : (m + m) * 2 ^ k = n := by rw [← hme, pow_succ]; ring
    have hle : m + m ≤ n := by rw [← hmm]; exact Nat.le_mul_of_pos_right _ (by positivity)
    obtain ⟨b', k1, k2⟩ := ih (b * b) (m + m) m' (by omega) hm' hmm (power_step hu hD hn h1 h2 hm hm hle hb hb).1
    refine ⟨b', ?_, k2⟩
    have e2 : 2 ^ (k + 1) * m' = 2 * (2 ^ k * m') := by rw [pow_succ]; ring
    have hc : (-((2 ^ (k + 1) * m' : ℕ) : ℤ)).tmod 2 = 0 := by
      rw [e2, Int.neg_tmod, Int.tmod_eq_emod_of_nonneg (by omega)]; omega
    have hs : (-((2 ^ (k + 1) * m' : ℕ) : ℤ)) >>> 1 = -((2 ^ k * m' : ℕ) : ℤ) := by
      rw [Int.shiftRight_eq_div_pow, e2]; omega
    rw [whileLoop]
    simp only [hc, decide_true, if_true, hs]
    exact k1
end

/-! ### powers -/

theorem nan_of_finite {x : Ieee φ} (h : x.Finite) : FloatSpecial.isNan x = false := by
  obtain ⟨s, m, hm, rfl⟩ := h
  rfl

theorem beq_zero_of_ne {x : Ieee φ} (hx : x.Finite) (h : x.val ≠ 0) : (x == 0) = false := by
  obtain ⟨s, m, hm, rfl⟩ := hx
  rw [← Bool.not_eq_true, beq_iff]
  rintro ⟨a, h1, h2⟩
  have h1' : some ((signed s m : ℝ) : EReal) = some a := h1
  have h2' : some ((signed false 0 : ℝ) : EReal) = some a := h2
  have h3 : ((signed s m : ℝ) : EReal) = ((signed false 0 : ℝ) : EReal) := Option.some.inj (h1'.trans h2'.symm)
  have h4 : signed s m = 0 := by simpa [signed] using h3
  exact h h4

/-- the computed inverse, where `powi` begins with a negative exponent -/
theorem inverse_units {z : Cx (Ieee φ)} (hu : φ.u ≤ 1 / 1000000) (hre : z.re.Finite) (him : z.im.Finite) (h1 : Midrange φ (‖complexOf z‖ * ‖complexOf z‖))
    (h2 : Midrange φ ‖complexOf z‖⁻¹) :
    (z.normSquared == 0) = false ∧ RelUnits φ (new (z.re / z.normSquared) (-z.im / z.normSquared)) (complexOf z)⁻¹ 2 := by
  have hu0 := φ.u_nonneg
  have hF1 := h1.1.between h1.2 (b := ‖complexOf z‖ * ‖complexOf z‖) (by linarith [h1.pos]) (by linarith [h1.pos])
  have hF2 := h2.1.between h2.2 (b := ‖complexOf z‖⁻¹) (by linarith [h2.pos]) (by linarith [h2.pos])
  have hμ : 0 < ‖complexOf z‖ := inv_pos.mp h2.pos
  obtain ⟨z1, z2⟩ := cx_bounds (z := z)
  have hb : ∀ {s : ℝ}, |s| ≤ ‖complexOf z‖ → |s * s| ≤ ‖complexOf z‖ * ‖complexOf z‖ := fun h1 => by
    rw [abs_mul]; exact mul_le_mul h1 h1 (abs_nonneg _) (norm_nonneg _)
  have hns : z.re.val * z.re.val + z.im.val * z.im.val = ‖complexOf z‖ * ‖complexOf z‖ := by
    rw [Complex.norm_mul_self_eq_normSq, Complex.normSq_apply]; rfl
  have q := sum_scaled hu hF1 (prod_scaled hu hF1 hre hre (hb z1)) (prod_scaled hu hF1 him him (hb z2)) (by rw [hns, abs_of_pos hF1.pos])
  rw [hns] at q
  have hq : Sc (‖complexOf z‖ * ‖complexOf z‖) z.normSquared (‖complexOf z‖ * ‖complexOf z‖) (7 * φ.u) := q
  have he : ‖complexOf z‖ / (‖complexOf z‖ * ‖complexOf z‖) = ‖complexOf z‖⁻¹ := by field_simp
  have part : ∀ {x : Ieee φ}, x.Finite → |x.val| ≤ ‖complexOf z‖ → Sc ‖complexOf z‖⁻¹ (x / z.normSquared) (x.val / (‖complexOf z‖ * ‖complexOf z‖)) (91 / 10 * φ.u) :=
    fun {x} hx hle => by
      have hx0 : Sc ‖complexOf z‖ x x.val 0 := ⟨hx, by simp⟩
      have := hx0.div hu hF1.pos (by rw [he]; exact hF2) hle hq (by norm_num) (by linarith)
      rw [he] at this
      exact this.mono hF2.pos.le (by linarith)
  refine ⟨?_, ?_⟩
  · refine beq_zero_of_ne hq.1 fun h0 => ?_
    have := hq.2
    rw [h0, zero_sub, abs_neg, abs_of_pos hF1.pos] at this
    have := hF1.pos
    nlinarith
  · have hin : (complexOf z)⁻¹.re = z.re.val / (‖complexOf z‖ * ‖complexOf z‖) ∧ (complexOf z)⁻¹.im = (-z.im).val / (‖complexOf z‖ * ‖complexOf z‖) := by
      rw [Complex.norm_mul_self_eq_normSq, val_neg]
      exact ⟨Complex.inv_re _, Complex.inv_im _⟩
    have p1 := part hre z1
    have p2 := part (x := -z.im) (cx_finite_neg him) (by rw [val_neg, abs_neg]; exact z2)
    have w : CxWithin (new (z.re / z.normSquared) (-z.im / z.normSquared)) (complexOf z)⁻¹ (91 / 10 * φ.u * ‖complexOf z‖⁻¹) :=
      ⟨⟨p1.1, by rw [hin.1]; exact p1.2⟩, ⟨p2.1, by rw [hin.2]; exact p2.2⟩⟩
    refine ⟨⟨w.1.1, w.2.1⟩, (norm_le_of_within w).trans ?_⟩
    rw [norm_inv]
    have := mul_le_mul_of_nonneg_right (show 13 * φ.u ≤ (1 + 10 * φ.u) ^ 2 - 1 by nlinarith) hF2.pos.le
    linarith

/-- the number of units is small -/
theorem units_small {k : ℕ} (h : k * φ.u ≤ 1 / 50) : (1 + 10 * φ.u) ^ k ≤ 3 / 2 ∧ (1 + 10 * φ.u) ^ (k - 1) - 1 ≤ 13 * (k - 1 : ℕ) * φ.u := by
  have hu0 := φ.u_nonneg
  have a1 := units_le (show 0 ≤ 10 * φ.u by positivity) (k := k) (by linarith)
  have a3 : ((k - 1 : ℕ) : ℝ) * φ.u ≤ k * φ.u := mul_le_mul_of_nonneg_right (by exact_mod_cast Nat.sub_le k 1) hu0
  have a4 : 0 ≤ ((k - 1 : ℕ) : ℝ) * φ.u := by positivity
  have a2 := units_le (show 0 ≤ 10 * φ.u by positivity) (k := k - 1) (by linarith)
  constructor <;> linarith

section
variable {z : Cx (Ieee φ)} (hu : φ.u ≤ 1 / 1000000) (hre : z.re.Finite) (him : z.im.Finite)
include hu hre him

/-- **Powers with natural exponents.** `powu` terminates and has a relative error of at most `13 (n - 1)` rounding units, if the number and the power are
away from the limits of the format. -/
theorem C100_powu {n : ℕ} (hn0 : 1 ≤ n) (hn : n * φ.u ≤ 1 / 50) (h1 : Midrange φ ‖complexOf z‖) (h2 : Midrange φ (‖complexOf z‖ ^ n)) :
    ∃ w, z.powu n = some w ∧ CxRel w (complexOf z ^ n) (13 * (n - 1 : ℕ) * φ.u) := by
  obtain ⟨u1, u2⟩ := units_small hn
  have hn' : (1 + 10 * φ.u) ^ (1 * n) ≤ 3 / 2 := by rw [one_mul]; exact u1
  have start : RelUnits φ z (complexOf z ^ 1) (1 * 1 - 1) := ⟨⟨hre, him⟩, by simp⟩
  have fin : ∀ {w : Cx (Ieee φ)}, RelUnits φ w (complexOf z ^ n) (1 * n - 1) → CxRel w (complexOf z ^ n) (13 * (n - 1 : ℕ) * φ.u) := fun {w} h =>
    ⟨h.1, h.2.trans (mul_le_mul_of_nonneg_right (by rw [one_mul]; exact u2) (norm_nonneg _))⟩
  obtain ⟨e', b', m', k1, k2, k3, k4, k5⟩ := power_loop hu le_rfl hn' h1 h2 n z 1 (by omega) le_rfl (one_mul n) start
  unfold powu
  rw [if_neg (by omega), k1, Option.bind_some]
  dsimp only
  split_ifs with h4
  · refine ⟨b', rfl, fin ?_⟩
    rw [h4, mul_one] at k4
    rw [← k4]; exact k5
  · obtain ⟨s', h5, h6⟩ := power_loop2 hu le_rfl hn' h1 h2 e' b' b' m' m' k3 k3 (by
      rw [← k4, k2]
      obtain ⟨q, rfl⟩ : ∃ q, e' = q + 1 := ⟨e' - 1, by omega⟩
      rw [Nat.add_sub_cancel]; ring) k5 k5
    exact ⟨_, by rw [h5]; rfl, fin h6⟩

/-- **Powers with positive integer exponents.** -/
theorem C100_powi {n : ℕ} (hn0 : 1 ≤ n) (hn : n * φ.u ≤ 1 / 50) (h1 : Midrange φ ‖complexOf z‖) (h2 : Midrange φ (‖complexOf z‖ ^ n)) :
    ∃ w, z.powi n = some w ∧ CxRel w (complexOf z ^ n) (13 * (n - 1 : ℕ) * φ.u) := by
  obtain ⟨u1, u2⟩ := units_small hn
  have hn' : (1 + 10 * φ.u) ^ (1 * n) ≤ 3 / 2 := by rw [one_mul]; exact u1
  have start : RelUnits φ z (complexOf z ^ 1) (1 * 1 - 1) := ⟨⟨hre, him⟩, by simp⟩
  have fin : ∀ {w : Cx (Ieee φ)}, RelUnits φ w (complexOf z ^ n) (1 * n - 1) → CxRel w (complexOf z ^ n) (13 * (n - 1 : ℕ) * φ.u) := fun {w} h =>
    ⟨h.1, h.2.trans (mul_le_mul_of_nonneg_right (by rw [one_mul]; exact u2) (norm_nonneg _))⟩
  obtain ⟨e', b', m', k1, k2, k3, k4, k5⟩ := power_loop_int hu le_rfl hn' h1 h2 n z 1 (by omega) le_rfl (one_mul n) start
  have hz : ¬ (n : ℤ) = 0 := by omega
  have hp : (n : ℤ) > 0 := by omega
  unfold powi
  simp only [hz, if_false, hp, if_true, nan_of_finite hre, nan_of_finite him, Bool.or_self, Bool.false_eq_true, k1, Option.bind_some]
  split_ifs with h4
  · refine ⟨b', rfl, fin ?_⟩
    have : e' = 1 := by omega
    rw [this, mul_one] at k4
    rw [← k4]; exact k5
  · obtain ⟨s', h5, h6⟩ := power_loop2_int hu le_rfl hn' h1 h2 e' b' b' m' m' k3 k3 (by
      rw [← k4, k2]
      obtain ⟨q, rfl⟩ : ∃ q, e' = q + 1 := ⟨e' - 1, by omega⟩
      rw [Nat.add_sub_cancel]; ring) k5 k5
    exact ⟨_, by rw [h5]; rfl, fin h6⟩

/-- **Powers with negative exponents.** The exponent is `-2^k m'` with `m'` odd. What is computed is the inverse raised to `2^k` (the odd factor is lost, as in exact
arithmetic, C37), with a relative error of at most `13 (3 * 2^k - 1)` rounding units. For minus powers of two this is the right power. -/
theorem C100_powi_negative {k m' : ℕ} (hm : m' % 2 = 1) (hk : 3 * 2 ^ k * φ.u ≤ 1 / 50) (h0 : Midrange φ (‖complexOf z‖ * ‖complexOf z‖))
    (h1 : Midrange φ ‖complexOf z‖⁻¹) (h2 : Midrange φ (‖complexOf z‖⁻¹ ^ 2 ^ k)) :
    ∃ w, z.powi (-((2 ^ k * m' : ℕ) : ℤ)) = some w ∧ CxRel w ((complexOf z)⁻¹ ^ 2 ^ k) (13 * (3 * 2 ^ k - 1 : ℕ) * φ.u) := by
  obtain ⟨b1, b2⟩ := inverse_units hu hre him h0 h1
  obtain ⟨u1, u2⟩ := units_small (k := 3 * 2 ^ k) (φ := φ) (by push_cast; exact hk)
  rw [← norm_inv] at h1 h2
  obtain ⟨b', k1, k2⟩ := power_loop_neg hu (D := 3) (by norm_num) u1 h1 h2 k (new (z.re / z.normSquared) (-z.im / z.normSquared)) 1 m' le_rfl hm (one_mul _)
    (by rw [pow_one]; exact b2)
  have hpos : 0 < 2 ^ k * m' := Nat.mul_pos (by positivity) (by omega)
  have hne : ¬ -((2 ^ k * m' : ℕ) : ℤ) = 0 := by omega
  have hng : ¬ -((2 ^ k * m' : ℕ) : ℤ) > 0 := by omega
  have he1 : ¬ -(m' : ℤ) = 1 := by omega
  have he2 : ¬ -(m' : ℤ) > 1 := by omega
  refine ⟨b', ?_, k2.1, k2.2.trans (mul_le_mul_of_nonneg_right u2 (norm_nonneg _))⟩
  unfold powi
  simp only [hne, if_false, hng, b1, Bool.false_eq_true, nan_of_finite b2.1.1, nan_of_finite b2.1.2, Bool.or_self, k1, Option.bind_some, he1]
  rw [whileLoop]
  simp [he2]
end

/-! ### `f64` -/

theorem midrange64 {a : ℝ} (h1 : (2 : ℝ) ^ (-1000 : ℤ) ≤ a) (h2 : a ≤ 2 ^ (999 : ℤ)) : Midrange f64 a := by
  have e1 : (2 : ℝ) ^ (-1001 : ℤ) * 2 = 2 ^ (-1000 : ℤ) := by rw [← zpow_add_one₀ two_ne_zero]; norm_num
  have e2 : (2 : ℝ) ^ (999 : ℤ) * 2 = 2 ^ (1000 : ℤ) := by rw [← zpow_add_one₀ two_ne_zero]; norm_num
  have e3 : (2 : ℝ) ^ (-1020 : ℤ) ≤ 2 ^ (-1001 : ℤ) := zpow_le_zpow_right₀ one_le_two (by norm_num)
  have h0 : 0 < a := lt_of_lt_of_le (by positivity) h1
  have e4 : (2 : ℝ) ^ (-1020 : ℤ) ≤ 2 ^ (-1000 : ℤ) := zpow_le_zpow_right₀ one_le_two (by norm_num)
  have e5 : (2 : ℝ) ^ (999 : ℤ) ≤ 2 ^ (1000 : ℤ) := zpow_le_zpow_right₀ one_le_two (by norm_num)
  generalize (2 : ℝ) ^ (-1001 : ℤ) = p at *
  generalize (2 : ℝ) ^ (-1000 : ℤ) = q at *
  refine ⟨fits64 ?_ ((half_le_self h0.le).trans (h2.trans e5)), fits64 ?_ ?_⟩
  · exact e3.trans (by linarith)
  · exact (e4.trans h1).trans (by linarith)
  · rw [← e2, mul_comm]; exact mul_le_mul_of_nonneg_right h2 zero_le_two

/-- **Powers in `f64`.** For every exponent of type `u32` other than zero, and for every positive exponent of type `i32`, the power of a number has a relative error of at most
`13 (n - 1) * 2 ^ -53`, if the moduli of the number and of the power are between `2 ^ -1000` and `2 ^ 999`. For `-2 ^ k` the error is at most
`39 * 2 ^ k * 2 ^ -53`. -/
theorem C100_f64 {z : Cx (Ieee f64)} (hre : z.re.Finite) (him : z.im.Finite) (h1 : (2 : ℝ) ^ (-1000 : ℤ) ≤ ‖complexOf z‖) (h2 : ‖complexOf z‖ ≤ 2 ^ (999 : ℤ)) :
    (∀ n : ℕ, 1 ≤ n → n < 2 ^ 32 → (2 : ℝ) ^ (-1000 : ℤ) ≤ ‖complexOf z ^ n‖ → ‖complexOf z ^ n‖ ≤ 2 ^ (999 : ℤ) →
      (∃ w, z.powu n = some w ∧ CxRel w (complexOf z ^ n) (13 * (n - 1) * 2 ^ (-53 : ℤ))) ∧
      ∃ w, z.powi n = some w ∧ CxRel w (complexOf z ^ n) (13 * (n - 1) * 2 ^ (-53 : ℤ))) ∧
    ∀ k : ℕ, k ≤ 31 → (2 : ℝ) ^ (-500 : ℤ) ≤ ‖complexOf z‖ → ‖complexOf z‖ ≤ 2 ^ (499 : ℤ) → (2 : ℝ) ^ (-1000 : ℤ) ≤ ‖(complexOf z)⁻¹ ^ 2 ^ k‖ →
      ‖(complexOf z)⁻¹ ^ 2 ^ k‖ ≤ 2 ^ (999 : ℤ) →
      ∃ w, z.powi (-2 ^ k) = some w ∧ CxRel w ((complexOf z)⁻¹ ^ 2 ^ k) (39 * 2 ^ k * 2 ^ (-53 : ℤ)) := by
  have hu : f64.u ≤ 1 / 1000000 := by change (2 : ℝ) ^ (-53 : ℤ) ≤ _; norm_num
  have hv : f64.u = 2 ^ (-53 : ℤ) := rfl
  have m1 := midrange64 h1 h2
  refine ⟨fun n hn hn32 h3 h4 => ?_, fun k hk h3 h4 h5 h6 => ?_⟩
  · have hnu : n * f64.u ≤ 1 / 50 := by
      have : (n : ℝ) ≤ 2 ^ 32 := by exact_mod_cast hn32.le
      calc (n : ℝ) * f64.u ≤ 2 ^ 32 * 2 ^ (-53 : ℤ) := mul_le_mul_of_nonneg_right this (by rw [hv]; positivity)
        _ ≤ 1 / 50 := by norm_num
    rw [norm_pow] at h3 h4
    have m2 := midrange64 h3 h4
    have hc : ((n - 1 : ℕ) : ℝ) = n - 1 := by rw [Nat.cast_sub hn]; simp
    have a := C100_powu hu hre him hn hnu m1 m2
    have b := C100_powi hu hre him hn hnu m1 m2
    rw [hc, hv] at a b
    exact ⟨a, b⟩
  · have hz0 : 0 < ‖complexOf z‖ := lt_of_lt_of_le (by positivity) h3
    have hku : 3 * 2 ^ k * f64.u ≤ 1 / 50 := by
      have : (2 : ℝ) ^ k ≤ 2 ^ 31 := pow_le_pow_right₀ one_le_two hk
      calc 3 * (2 : ℝ) ^ k * f64.u ≤ 3 * 2 ^ 31 * 2 ^ (-53 : ℤ) := mul_le_mul_of_nonneg_right (by linarith) (by rw [hv]; positivity)
        _ ≤ 1 / 50 := by norm_num
    have w : ∀ {x y : ℤ}, x ≤ y → (2 : ℝ) ^ x ≤ 2 ^ y := fun h => zpow_le_zpow_right₀ one_le_two h
    have e1 : (2 : ℝ) ^ (-500 : ℤ) * 2 ^ (-500 : ℤ) = 2 ^ (-1000 : ℤ) := by rw [← zpow_add₀ two_ne_zero]; norm_num
    have e2 : (2 : ℝ) ^ (499 : ℤ) * 2 ^ (499 : ℤ) = 2 ^ (998 : ℤ) := by rw [← zpow_add₀ two_ne_zero]; norm_num
    have m0 : Midrange f64 (‖complexOf z‖ * ‖complexOf z‖) := midrange64
      (by rw [← e1]; exact mul_le_mul h3 h3 (by positivity) hz0.le)
      ((mul_le_mul h4 h4 hz0.le (by positivity)).trans (by rw [e2]; exact w (by norm_num)))
    have mi : Midrange f64 ‖complexOf z‖⁻¹ := midrange64
      ((w (show (-1000 : ℤ) ≤ -499 by norm_num)).trans (by rw [zpow_neg]; exact inv_anti₀ hz0 h4))
      (le_trans (inv_anti₀ (by positivity) h3) (by rw [← zpow_neg]; exact w (by norm_num)))
    rw [norm_pow, norm_inv] at h5 h6
    obtain ⟨v, a1, a2, a3⟩ := C100_powi_negative hu hre him (k := k) (m' := 1) rfl hku m0 mi (midrange64 h5 h6)
    refine ⟨v, ?_, a2, a3.trans (mul_le_mul_of_nonneg_right ?_ (norm_nonneg _))⟩
    · rw [mul_one] at a1; push_cast at a1; exact a1
    · rw [hv]
      have : ((3 * 2 ^ k - 1 : ℕ) : ℝ) ≤ 3 * 2 ^ k := by exact_mod_cast Nat.sub_le _ _
      have := mul_le_mul_of_nonneg_right this (show (0 : ℝ) ≤ 2 ^ (-53 : ℤ) by positivity)
      linarith

/-- the hundredth power of `1 + i` is `-2 ^ 50`, up to `1287 * 2 ^ -53` -/
example : ∃ w, (⟨1, 1⟩ : Cx (Ieee f64)).powu 100 = some w ∧ ‖complexOf w + 2 ^ 50‖ ≤ 1287 * 2 ^ (-53 : ℤ) * 2 ^ 50 := by
  have e : complexOf (⟨1, 1⟩ : Cx (Ieee f64)) = 1 + Complex.I := Complex.ext (by simp [complexOf, val_one]) (by simp [complexOf, val_one])
  have e2 : (1 + Complex.I) ^ 2 = 2 * Complex.I := by ring_nf; rw [Complex.I_sq]; ring
  have e100 : (1 + Complex.I) ^ 100 = -2 ^ 50 := by
    rw [show 100 = 2 * 50 by norm_num, pow_mul, e2, mul_pow, show 50 = 4 * 12 + 2 by norm_num, pow_add Complex.I, pow_mul Complex.I, Complex.I_pow_four, one_pow, one_mul,
      Complex.I_sq]
    ring
  have hn : ‖1 + Complex.I‖ ^ 2 = 2 := by
    rw [← norm_pow, e2]; simp
  have h0 : 0 ≤ ‖1 + Complex.I‖ := norm_nonneg _
  have lo : 1 ≤ ‖1 + Complex.I‖ := by nlinarith
  have hi : ‖1 + Complex.I‖ ≤ 2 := by nlinarith
  have nn : ‖(-2 ^ 50 : ℂ)‖ = 2 ^ 50 := by simp
  have key := (C100_f64 (z := ⟨1, 1⟩) finite_one finite_one
    (by rw [e]; exact le_trans (by rw [zpow_neg]; exact inv_le_one_of_one_le₀ (one_le_zpow₀ one_le_two (by norm_num))) lo)
    (by rw [e]; exact hi.trans (by simpa using zpow_le_zpow_right₀ one_le_two (show (1 : ℤ) ≤ 999 by norm_num)))).1 100 (by norm_num) (by norm_num)
    (by rw [e, e100, nn]; exact le_trans (by rw [zpow_neg]; exact inv_le_one_of_one_le₀ (one_le_zpow₀ one_le_two (by norm_num))) (one_le_pow₀ one_le_two))
    (by rw [e, e100, nn, ← zpow_natCast]; exact zpow_le_zpow_right₀ one_le_two (by norm_num))
  obtain ⟨⟨w, h1, -, h2⟩, -⟩ := key
  rw [e, e100, nn, sub_neg_eq_add] at h2
  refine ⟨w, h1, h2.trans ?_⟩
  norm_num

/-- three numbers of modulus one, multiplied in one of the two orders -/
example : ‖complexOf (((⟨0, 1⟩ : Cx (Ieee f64)) * ⟨0, 1⟩) * ⟨0, 1⟩) + Complex.I‖ ≤ 26 * 2 ^ (-53 : ℤ) := by
  have e : complexOf (⟨0, 1⟩ : Cx (Ieee f64)) = Complex.I := Complex.ext (val_zero (φ := f64)) (val_one (φ := f64))
  have m1 : Midrange f64 1 := midrange64 (by rw [zpow_neg]; exact inv_le_one_of_one_le₀ (one_le_zpow₀ one_le_two (by norm_num)))
    (one_le_zpow₀ one_le_two (by norm_num))
  have key := C100_product (φ := f64) (by change (2 : ℝ) ^ (-53 : ℤ) ≤ _; norm_num) (.times (.times (.number ⟨0, 1⟩) (.number ⟨0, 1⟩)) (.number ⟨0, 1⟩))
    ⟨⟨⟨finite_zero, finite_one⟩, ⟨finite_zero, finite_one⟩⟩, ⟨finite_zero, finite_one⟩⟩
    (by change ((3 : ℕ) : ℝ) * 2 ^ (-53 : ℤ) ≤ _; norm_num)
    (by simp only [ProductOrder.map, ProductOrder.Each, ProductOrder.eval, e]; simpa using m1)
  have h := key.2
  simp only [ProductOrder.map, ProductOrder.eval, e] at h
  rw [show Complex.I * Complex.I * Complex.I = -Complex.I by rw [Complex.I_mul_I]; ring, sub_neg_eq_add] at h
  refine h.trans (le_of_eq ?_)
  change 13 * (((3 : ℕ) : ℝ) - 1) * 2 ^ (-53 : ℤ) * _ = _
  rw [norm_neg, Complex.norm_I]
  norm_num

end Cgl
