import Verif.Props.C34_ComplexField
import Mathlib.Algebra.BigOperators.Group.Finset.Defs

/-!
# C37 - integer powers of complex numbers

`powu` and `powi` return `none` in the model when one of their loops does not terminate.
-/

namespace Cgl
open Cx

/-- `z` multiplied by itself `n` times. -/
def Spec.power {K : Type*} [CommRing K] (z : Cx K) : ℕ → Cx K
  | 0 => 1
  | n + 1 => z * Spec.power z n

section
variable {K : Type*} [CommRing K]

/-- the multiplicative monoid of `Cx K`, used to borrow the laws of exponents -/
local instance : CommMonoid (Cx K) where
  mul_assoc := C34_mul_assoc
  one_mul z := by rw [C34_mul_comm, C34_mul_one]
  mul_one := C34_mul_one
  mul_comm := C34_mul_comm

private theorem power_eq (z : Cx K) (n : ℕ) : Spec.power z n = z ^ n := by
  induction n with
  | zero => rw [pow_zero]; rfl
  | succ n ih => rw [pow_succ', ← ih]; rfl

theorem Spec.power_add (z : Cx K) (m n : ℕ) : Spec.power z (m + n) = Spec.power z m * Spec.power z n := by
  simp only [power_eq, pow_add]

theorem Spec.power_mul (z : Cx K) (m n : ℕ) : Spec.power z (m * n) = Spec.power (Spec.power z m) n := by
  simp only [power_eq, pow_mul]

theorem Spec.mul_power (z w : Cx K) (n : ℕ) : Spec.power (z * w) n = Spec.power z n * Spec.power w n := by
  simp only [power_eq, mul_pow]

private theorem sq_pow (b : Cx K) (n : ℕ) : (b * b) ^ n = b ^ (2 * n) := by
  rw [← sq, ← pow_mul]

private theorem loop1 (e : ℕ) : ∀ (b : Cx K), 0 < e → ∃ e' b',
    whileLoop (fun s : ℕ × Cx K => s.1 % 2 = 0) (fun s => (s.1 >>> 1, s.2 * s.2)) (e, b) = some (e', b') ∧
    e' % 2 = 1 ∧ b' ^ e' = b ^ e := by
  induction e using Nat.strong_induction_on with
  | _ e ih =>
    intro b he
    rw [whileLoop]
    by_cases h : e % 2 = 0
    · obtain ⟨e', b', h1, h2, h3⟩ := ih (e >>> 1) (by rw [Nat.shiftRight_one]; omega) (b * b)
        (by rw [Nat.shiftRight_one]; omega)
      refine ⟨e', b', by simpa [h] using h1, h2, ?_⟩
      rw [h3, sq_pow, Nat.shiftRight_one]; congr 1; omega
    · exact ⟨e, b, by simp [h], by omega, rfl⟩

private theorem loop2 (e : ℕ) : ∀ (b r : Cx K), ∃ s',
    whileLoop (fun s : PowState K ℕ => s.exponent > 1) (fun s =>
      let exponent := s.exponent >>> 1
      let base := s.base * s.base
      if exponent % 2 = 1 then ⟨exponent, base, s.result.mulAssign base⟩
      else ⟨exponent, base, s.result⟩) ⟨e, b, r⟩ = some s' ∧ s'.result = r * b ^ (e - e % 2) := by
  induction e using Nat.strong_induction_on with
  | _ e ih =>
    intro b r
    rw [whileLoop]
    by_cases h : e > 1
    · have hlt : e >>> 1 < e := by rw [Nat.shiftRight_one]; omega
      have hs : e >>> 1 = e / 2 := Nat.shiftRight_one e
      simp only [h, decide_true, if_true]
      by_cases h2 : (e >>> 1) % 2 = 1
      · obtain ⟨s', h3, h4⟩ := ih (e >>> 1) hlt (b * b) (r.mulAssign (b * b))
        refine ⟨s', by simpa [h2] using h3, ?_⟩
        rw [h4, (C34_assign r (b * b)).2.2, sq_pow, mul_assoc, ← sq, ← pow_add]
        congr 2; omega
      · obtain ⟨s', h3, h4⟩ := ih (e >>> 1) hlt (b * b) r
        refine ⟨s', by simpa [h2] using h3, ?_⟩
        rw [h4, sq_pow]; congr 2; omega
    · refine ⟨⟨e, b, r⟩, by simp [h], ?_⟩
      have : e - e % 2 = 0 := by omega
      rw [this, pow_zero, mul_one]

/-- `powu` terminates and equals repeated multiplication, for every exponent. -/
theorem C37_powu (z : Cx K) (n : ℕ) : z.powu n = some (Spec.power z n) := by
  rw [power_eq]
  unfold powu
  split_ifs with h
  · rw [h, pow_zero]
  · obtain ⟨e', b', h1, h2, h3⟩ := loop1 n z (Nat.pos_of_ne_zero h)
    rw [h1, Option.bind_some]
    dsimp only
    split_ifs with h4
    · rw [← h3, h4, pow_one]
    · obtain ⟨s', h5, h6⟩ := loop2 e' b' b'
      rw [h5, Option.map_some, h6, ← h3, ← pow_succ']
      congr 2; omega

section
variable {K : Type*} [Field K]

private theorem loop1i (e : ℕ) : ∀ (b : Cx K), 0 < e → ∃ (e' : ℕ) (b' : Cx K),
    whileLoop (fun s : ℤ × Cx K => s.1.tmod 2 = 0) (fun s => (s.1 >>> 1, s.2 * s.2)) ((e : ℤ), b)
      = some ((e' : ℤ), b') ∧
    e' % 2 = 1 ∧ b' ^ e' = b ^ e := by
  induction e using Nat.strong_induction_on with
  | _ e ih =>
    intro b he
    rw [whileLoop]
    have hcast : ((e : ℤ).tmod 2 = 0) ↔ e % 2 = 0 := by
      rw [Int.tmod_eq_emod_of_nonneg (by omega)]; omega
    by_cases h : e % 2 = 0
    · obtain ⟨e', b', h1, h2, h3⟩ := ih (e / 2) (by omega) (b * b) (by omega)
      have hs : (e : ℤ) >>> 1 = ((e / 2 : ℕ) : ℤ) := by
        rw [Int.shiftRight_eq_div_pow]; norm_num
      refine ⟨e', b', ?_, h2, ?_⟩
      · simp only [hcast.mpr h, decide_true, if_true, hs]; exact h1
      · rw [h3, sq_pow]; congr 1; omega
    · exact ⟨e, b, by simp [mt hcast.mp h], by omega, rfl⟩

private theorem loop1neg (e : ℕ) : ∀ (b : Cx K), 0 < e → ∃ (k e' : ℕ),
    whileLoop (fun s : ℤ × Cx K => s.1.tmod 2 = 0) (fun s => (s.1 >>> 1, s.2 * s.2)) (-(e : ℤ), b)
      = some (-(e' : ℤ), b ^ (2 ^ k)) ∧
    e' % 2 = 1 ∧ e = 2 ^ k * e' := by
  induction e using Nat.strong_induction_on with
  | _ e ih =>
    intro b he
    rw [whileLoop]
    have hcast : ((-(e : ℤ)).tmod 2 = 0) ↔ e % 2 = 0 := by
      rw [Int.neg_tmod, Int.tmod_eq_emod_of_nonneg (by omega)]; omega
    by_cases h : e % 2 = 0
    · obtain ⟨k, e', h1, h2, h3⟩ := ih (e / 2) (by omega) (b * b) (by omega)
      have hs : (-(e : ℤ)) >>> 1 = -((e / 2 : ℕ) : ℤ) := by
        rw [Int.shiftRight_eq_div_pow]; omega
      refine ⟨k + 1, e', ?_, h2, ?_⟩
      · simp only [hcast.mpr h, decide_true, if_true, hs]
        rw [h1, sq_pow, pow_succ']
      · rw [pow_succ, mul_assoc, mul_comm 2, ← mul_assoc, ← h3]; omega
    · exact ⟨0, e, by rw [decide_eq_false (mt hcast.mp h)]; simp, by omega, by simp⟩

private theorem loop2i (e : ℕ) : ∀ (b r : Cx K), ∃ s',
    whileLoop (fun s : PowState K ℤ => s.exponent > 1) (fun s =>
      let exponent := s.exponent >>> 1
      let base := s.base * s.base
      if exponent.tmod 2 = 1 then ⟨exponent, base, s.result.mulAssign base⟩
      else ⟨exponent, base, s.result⟩) ⟨e, b, r⟩ = some s' ∧ s'.result = r * b ^ (e - e % 2) := by
  induction e using Nat.strong_induction_on with
  | _ e ih =>
    intro b r
    rw [whileLoop]
    by_cases h : e > 1
    · have hs : (e : ℤ) >>> 1 = ((e / 2 : ℕ) : ℤ) := by
        rw [Int.shiftRight_eq_div_pow]; norm_num
      have hz : (e : ℤ) > 1 := by omega
      have hc : (((e / 2 : ℕ) : ℤ).tmod 2 = 1) ↔ (e / 2) % 2 = 1 := by
        rw [Int.tmod_eq_emod_of_nonneg (by omega)]; omega
      simp only [hz, decide_true, if_true, hs]
      by_cases h2 : (e / 2) % 2 = 1
      · obtain ⟨s', h3, h4⟩ := ih (e / 2) (by omega) (b * b) (r.mulAssign (b * b))
        refine ⟨s', by rw [if_pos (hc.mpr h2)]; exact h3, ?_⟩
        rw [h4, (C34_assign r (b * b)).2.2, sq_pow, mul_assoc, ← sq, ← pow_add]
        congr 2; omega
      · obtain ⟨s', h3, h4⟩ := ih (e / 2) (by omega) (b * b) r
        refine ⟨s', by rw [if_neg (mt hc.mp h2)]; exact h3, ?_⟩
        rw [h4, sq_pow]; congr 2; omega
    · refine ⟨⟨e, b, r⟩, ?_, ?_⟩
      · have hz : ¬ (e : ℤ) > 1 := by omega
        simp [hz]
      · have : e - e % 2 = 0 := by omega
        rw [this, pow_zero, mul_one]

variable [DecidableEq K] [FloatSpecial K]

/-- `powi` with a non-negative exponent is repeated multiplication, for numbers without NaN components. -/
theorem C37_powi_nonneg (z : Cx K) (n : ℕ) (hre : isNan z.re = false) (him : isNan z.im = false) :
    z.powi n = some (Spec.power z n) := by
  rw [power_eq]
  unfold powi
  by_cases h : n = 0
  · subst h; simp
  · have hz : ¬ (n : ℤ) = 0 := by omega
    have hp : (n : ℤ) > 0 := by omega
    obtain ⟨e', b', h1, h2, h3⟩ := loop1i n z (Nat.pos_of_ne_zero h)
    simp only [hz, if_false, hp, if_true, hre, him, Bool.or_self, Bool.false_eq_true, h1, Option.bind_some]
    split_ifs with h4
    · have : e' = 1 := by omega
      rw [← h3, this, pow_one]
    · obtain ⟨s', h5, h6⟩ := loop2i e' b' b'
      rw [h5, Option.map_some, h6, ← h3, ← pow_succ']
      congr 2; omega

/-- What `powi` computes for a negative exponent `-m`: with `m = 2^k m'`, `m'` odd, it is the inverse of `z`
raised to `2^k` only; the odd factor of the exponent is lost. `w` is the inverse of `z`. -/
theorem C37_powi_negative (z w : Cx K) (hnan : ∀ x : K, isNan x = false) (h0 : z.normSquared ≠ 0)
    (hw : z * w = 1) (k m' : ℕ) (hm : m' % 2 = 1) :
    z.powi (-((2 ^ k * m' : ℕ) : ℤ)) = some (Spec.power w (2 ^ k)) := by
  rw [power_eq]
  have h2k : 0 < 2 ^ k := by positivity
  have hm0 : 0 < m' := by omega
  have hpos : 0 < 2 ^ k * m' := Nat.mul_pos h2k hm0
  obtain ⟨k', e', h1, h2, h3⟩ := loop1neg (2 ^ k * m') w hpos
  have hk : k' = k := by
    rcases Nat.lt_trichotomy k' k with h | h | h
    · exfalso
      obtain ⟨d, rfl⟩ := Nat.exists_eq_add_of_lt h
      rw [show k' + d + 1 = k' + (d + 1) from rfl, pow_add, mul_assoc] at h3
      have := Nat.eq_of_mul_eq_mul_left (by positivity) h3
      rw [← this, pow_succ, mul_comm _ 2, mul_assoc] at h2; omega
    · exact h
    · exfalso
      obtain ⟨d, rfl⟩ := Nat.exists_eq_add_of_lt h
      rw [show k + d + 1 = k + (d + 1) from rfl, pow_add, mul_assoc] at h3
      have := Nat.eq_of_mul_eq_mul_left (by positivity) h3
      rw [this, pow_succ, mul_comm _ 2, mul_assoc] at hm; omega
  subst hk
  have hw' : new (z.re / z.normSquared) (-z.im / z.normSquared) = w := by
    have h1 := congrArg re hw
    have h2 := congrArg im hw
    simp only [mul_re, mul_im, one_re, one_im] at h1 h2
    have h0' : z.re * z.re + z.im * z.im ≠ 0 := h0
    ext
    · simp only [new_re, normSquared]; rw [div_eq_iff h0']
      linear_combination (-z.re) * h1 - z.im * h2
    · simp only [new_im, normSquared]; rw [div_eq_iff h0']
      linear_combination z.im * h1 - z.re * h2
  unfold powi
  have hne : ¬ -((2 ^ k' * m' : ℕ) : ℤ) = 0 := by omega
  have hng : ¬ -((2 ^ k' * m' : ℕ) : ℤ) > 0 := by omega
  have he1 : ¬ -(e' : ℤ) = 1 := by omega
  have he2 : ¬ -(e' : ℤ) > 1 := by omega
  simp only [beq_iff_eq, hne, if_false, hng, h0, hw', hnan, Bool.or_self, Bool.false_eq_true, h1, Option.bind_some, he1]
  rw [whileLoop]
  simp [he2]

/-- Missing from the full property: negative exponents that are not minus a power of two. -/
theorem C37_powi_negative_partial (z w : Cx K) (hnan : ∀ x : K, isNan x = false) (h0 : z.normSquared ≠ 0)
    (hw : z * w = 1) (k : ℕ) : z.powi (-((2 ^ k : ℕ) : ℤ)) = some (Spec.power w (2 ^ k)) := by
  simpa using C37_powi_negative z w hnan h0 hw k 1 rfl

/-- `0` raised to a negative exponent is NaN. -/
theorem C37_powi_zero_negative {S : Type*} [Zero S] [One S] [Add S] [Sub S] [Mul S] [Div S] [Neg S]
    [DecidableEq S] [FloatSpecial S] (z : Cx S) (h : z.normSquared = 0) (hn : isNan (fnan : S) = true) (e : ℤ)
    (he : e < 0) : ∃ w, z.powi e = some w ∧ isNan w.re = true ∧ isNan w.im = true := by
  refine ⟨new fnan fnan, ?_, hn, hn⟩
  unfold powi
  have h1 : ¬ e = 0 := by omega
  have h2 : ¬ e > 0 := by omega
  simp [h1, h2, h, hn]

end

end

/-- The full property, over the reals. -/
def Spec.PowiCorrect : Prop :=
  ∀ (z : Cx ℝ) (e : ℤ), z ≠ 0 → ∃ r, z.powi e = some r ∧
    (0 ≤ e → r = Spec.power z e.toNat) ∧ (e < 0 → r * Spec.power z (-e).toNat = 1)

/-- It is false of the code: `2^(-3)` is computed as `1/2`. -/
theorem C37_powi_fails : ¬ Spec.PowiCorrect := by
  intro h
  obtain ⟨r, h1, -, h2⟩ := h ⟨2, 0⟩ (-3) (by rw [Cx.ne_zero_iff]; norm_num)
  have h3 := C37_powi_negative (⟨2, 0⟩ : Cx ℝ) ⟨1 / 2, 0⟩ (fun _ => rfl) (by norm_num [normSquared])
    (by ext <;> norm_num) 0 3 rfl
  have h4 : (-((2 ^ 0 * 3 : ℕ) : ℤ)) = -3 := by norm_num
  rw [h4, h1, Option.some.injEq] at h3
  have h5 := congrArg re (h2 (by norm_num))
  rw [h3] at h5
  have h6 : (- -(3 : ℤ)).toNat = 3 := rfl
  rw [h6] at h5
  norm_num [Spec.power] at h5

/-- For the reals: what does hold, in one statement. -/
theorem C37_powi_real_partial (z : Cx ℝ) (hz : z ≠ 0) (e : ℤ) (he : 0 ≤ e ∨ ∃ k : ℕ, e = -2 ^ k) :
    ∃ r, z.powi e = some r ∧
      (0 ≤ e → r = Spec.power z e.toNat) ∧ (e < 0 → r * Spec.power z (-e).toNat = 1) := by
  rcases he with he | ⟨k, rfl⟩
  · obtain ⟨n, rfl⟩ := Int.eq_ofNat_of_zero_le he
    exact ⟨_, C37_powi_nonneg z n rfl rfl, fun _ => by simp, fun h => by omega⟩
  · have h0 : z.normSquared ≠ 0 := normSquared_eq_zero.not.mpr hz
    obtain ⟨w, hw⟩ : ∃ w, z * w = 1 := by
      cases hi : z.tryInverse with
      | none => exact absurd ((C34_try_inverse_none_iff z).mp hi) hz
      | some w => exact ⟨w, (C34_try_inverse_some_iff z w).mp hi⟩
    have hpos : (0 : ℤ) < 2 ^ k := by positivity
    refine ⟨_, by simpa using C37_powi_negative_partial z w (fun _ => rfl) h0 hw k, fun h => by omega, fun _ => ?_⟩
    have : (- -(2 : ℤ) ^ k).toNat = 2 ^ k := by
      rw [neg_neg]; exact Int.toNat_natCast (2 ^ k) |>.symm ▸ by norm_cast
    rw [this, ← Spec.mul_power, C34_mul_comm, hw, ]
    have h1 : ∀ n, Spec.power (1 : Cx ℝ) n = 1 := by
      intro n; induction n with
      | zero => rfl
      | succ n ih => rw [Spec.power, ih, C34_mul_one]
    exact h1 _

example : (⟨1, 1⟩ : Cx ℤ).powu 5 = some ⟨-4, -4⟩ := by
  rw [C37_powu]; congr 1
example : (⟨2, 0⟩ : Cx ℝ).normSquared ≠ 0 ∧ (⟨2, 0⟩ : Cx ℝ) * ⟨1 / 2, 0⟩ = 1 := by
  constructor
  · norm_num [normSquared]
  · ext <;> norm_num

end Cgl
