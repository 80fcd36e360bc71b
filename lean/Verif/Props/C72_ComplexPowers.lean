import Verif.Props.C72_ComplexSpecial

/-! # C72 - quotients and powers of complex numbers at zeros, infinities and NaN -/

namespace Cgl
open Ieee Ieee.Libm
variable {φ : Format}

/-! ### quotients and inverses -/

theorem div_special {x y : Ieee φ} (hx : ¬x.Finite) (hy : ¬y.Finite) : x / y = nan := by
  cases x with
  | nan => exact nan_div _
  | fin s m h => exact absurd (finite_fin _ _ _) hx
  | inf s => cases y with
    | nan => rfl
    | inf t => rfl
    | fin t k h => exact absurd (finite_fin _ _ _) hy

/-- A quotient by a number with an infinite or NaN part is NaN in both parts, whatever the dividend (annex G
prescribes a zero for a finite dividend and an infinite divisor). -/
theorem C72_div_infinity_fails (z w : Cx (Ieee φ)) (h : ¬w.re.Finite ∨ ¬w.im.Finite) : z / w = ⟨nan, nan⟩ := by
  change (⟨(z.re * w.re + z.im * w.im) / (w.re * w.re + w.im * w.im),
    (z.im * w.re - z.re * w.im) / (w.re * w.re + w.im * w.im)⟩ : Cx (Ieee φ)) = _
  congr 1
  · refine div_special (fun hf => ?_) (fun hf => ?_)
    · exact h.elim (fun h => h (finite_mul (finite_add hf).1).2) (fun h => h (finite_mul (finite_add hf).2).2)
    · exact h.elim (fun h => h (finite_mul (finite_add hf).1).2) (fun h => h (finite_mul (finite_add hf).2).2)
  · refine div_special (fun hf => ?_) (fun hf => ?_)
    · exact h.elim (fun h => h (finite_mul (finite_sub hf).1).2) (fun h => h (finite_mul (finite_sub hf).2).2)
    · exact h.elim (fun h => h (finite_mul (finite_add hf).1).2) (fun h => h (finite_mul (finite_add hf).2).2)
example : ∃ w : Cx (Ieee f64), ¬w.re.Finite ∧ (1 : Cx (Ieee f64)) / w = ⟨nan, nan⟩ :=
  ⟨⟨inf false, 0⟩, not_finite_inf _, C72_div_infinity_fails _ _ (Or.inl (not_finite_inf _))⟩

/-- zero or NaN -/
def Spec.ZeroOrNan (x : Ieee φ) : Prop := x = nan ∨ ∃ s, x = zeroS s

theorem zeroOrNan_mul (x : Ieee φ) (s : Bool) : Spec.ZeroOrNan (x * zeroS s) := by
  cases x with
  | nan => exact Or.inl (nan_mul _)
  | inf t => exact Or.inl (if_pos rfl)
  | fin t m h => exact Or.inr ⟨_, mul_zeroS s t m h⟩
theorem zeroOrNan_add {x y : Ieee φ} (hx : Spec.ZeroOrNan x) (hy : Spec.ZeroOrNan y) : Spec.ZeroOrNan (x + y) := by
  rcases hx with rfl | ⟨s, rfl⟩
  · exact Or.inl (nan_add _)
  rcases hy with rfl | ⟨t, rfl⟩
  · exact Or.inl (add_nan _)
  refine Or.inr ⟨s && t, ?_⟩
  change Ieee.round (s && t) (signed s 0 + signed t 0) = _
  have : signed s 0 + signed t 0 = 0 := by cases s <;> cases t <;> simp [signed]
  have hz : φ.fl |0| ≤ φ.big := by rw [abs_zero, φ.zero]; exact zero_le_one.trans φ.one_le_big
  rw [this]
  simp only [Ieee.round, dif_pos hz, if_true, zeroS]
  simp [φ.zero]
theorem zeroOrNan_neg {x : Ieee φ} (hx : Spec.ZeroOrNan x) : Spec.ZeroOrNan (-x) := by
  rcases hx with rfl | ⟨s, rfl⟩
  · exact Or.inl rfl
  · exact Or.inr ⟨!s, rfl⟩
theorem zeroOrNan_div {x y : Ieee φ} (hx : Spec.ZeroOrNan x) (hy : Spec.ZeroOrNan y) : x / y = nan := by
  rcases hx with rfl | ⟨s, rfl⟩
  · exact nan_div _
  rcases hy with rfl | ⟨t, rfl⟩
  · exact div_nan _
  exact (if_pos rfl).trans (if_pos rfl)

/-- A quotient by zero, of whatever signs, is NaN in both parts, whatever the dividend (annex G prescribes an infinity
for a dividend other than zero; the quotient of the scalars is infinite). -/
theorem C72_div_zero_fails (z : Cx (Ieee φ)) (s t : Bool) : z / (⟨zeroS s, zeroS t⟩ : Cx (Ieee φ)) = ⟨nan, nan⟩ := by
  change (⟨(z.re * zeroS s + z.im * zeroS t) / (zeroS s * zeroS s + zeroS t * zeroS t),
    (z.im * zeroS s - z.re * zeroS t) / (zeroS s * zeroS s + zeroS t * zeroS t)⟩ : Cx (Ieee φ)) = _
  have hd := zeroOrNan_add (zeroOrNan_mul (zeroS s : Ieee φ) s) (zeroOrNan_mul (zeroS t : Ieee φ) t)
  congr 1
  · exact zeroOrNan_div (zeroOrNan_add (zeroOrNan_mul _ _) (zeroOrNan_mul _ _)) hd
  · exact zeroOrNan_div (zeroOrNan_add (zeroOrNan_mul _ _) (zeroOrNan_neg (zeroOrNan_mul _ _))) hd

theorem zero_normSquared (s t : Bool) : Cx.normSquared (⟨zeroS s, zeroS t⟩ : Cx (Ieee φ)) = zeroS false := by
  have h : ∀ s : Bool, (zeroS s : Ieee φ) * zeroS s = zeroS false := fun s => by
    rw [show (zeroS s : Ieee φ) * zeroS s = zeroS (s ^^ s) from zeroS_mul s s 0 _, Bool.xor_self]
  simp only [Cx.normSquared, h]
  exact zeroS_add false

/-- The inverse: none at zero, whatever the signs; none of the NaN cases is taken for zero. An infinite part does not
lead to zero: the infinite part becomes NaN. -/
theorem C72_try_inverse (s t : Bool) (m : ℝ) (hm) (x : Ieee φ) :
    Cx.tryInverse (⟨zeroS s, zeroS t⟩ : Cx (Ieee φ)) = none ∧
    Cx.tryInverse (⟨nan, x⟩ : Cx (Ieee φ)) = some ⟨nan, nan⟩ ∧ Cx.tryInverse (⟨x, nan⟩ : Cx (Ieee φ)) = some ⟨nan, nan⟩ ∧
    Cx.tryInverse (⟨inf s, fin t m hm⟩ : Cx (Ieee φ)) = some ⟨nan, zeroS !t⟩ ∧
    Cx.tryInverse (⟨fin t m hm, inf s⟩ : Cx (Ieee φ)) = some ⟨zeroS t, nan⟩ ∧
    Cx.tryInverse (⟨inf s, inf t⟩ : Cx (Ieee φ)) = some ⟨nan, nan⟩ := by
  have hi : ∀ {x : Ieee φ}, HasSign false x → inf false + x = inf false ∧ x + inf false = inf false := inf_add_of
  have d1 : ∀ s : Bool, (inf s : Ieee φ) / inf false = nan := fun _ => rfl
  have d2 : ∀ (s : Bool) (m) (h), (fin s m h : Ieee φ) / inf false = zeroS s := fun s m h => by
    change fin (s ^^ false) 0 _ = _; simp
  refine ⟨?_, ?_, ?_, ?_, ?_, ?_⟩ <;> unfold Cx.tryInverse
  · simp only [zero_normSquared]; simp
  · simp [Cx.normSquared, Cx.new, nan_mul, nan_add, div_nan]
  · simp [Cx.normSquared, Cx.new, nan_mul, add_nan, div_nan]
  · simp only [Cx.normSquared, inf_sq, (hi (hasSign_sq t m hm)).1, inf_beq_zero, Bool.false_eq_true, if_false, Cx.new,
      d1, neg_fin, d2]
  · simp only [Cx.normSquared, inf_sq, (hi (hasSign_sq t m hm)).2, inf_beq_zero, Bool.false_eq_true, if_false, Cx.new,
      d1, neg_inf, d2]
  · simp only [Cx.normSquared, inf_sq, (hi (Or.inl rfl)).1, inf_beq_zero, Bool.false_eq_true, if_false, Cx.new,
      d1, neg_inf]

/-! ### integer powers -/

/-- a NaN part -/
def Spec.HasNan (z : Cx (Ieee φ)) : Prop := z.re = nan ∨ z.im = nan

theorem hasNan_sq {z : Cx (Ieee φ)} (h : Spec.HasNan z) : z * z = ⟨nan, nan⟩ := nan_mulC (h.elim Or.inl (Or.inr ∘ Or.inl))
theorem hasNan_nan : Spec.HasNan (⟨nan, nan⟩ : Cx (Ieee φ)) := Or.inl rfl
theorem mulAssign_nan {z w : Cx (Ieee φ)} (h : Spec.HasNan z) : z.mulAssign w = ⟨nan, nan⟩ := by
  rcases h with h | h <;> simp [Cx.mulAssign, h, nan_mul, mul_nan, nan_add, add_nan, nan_sub, sub_nan]

private theorem nan_loop1 (e : ℕ) : ∀ (b : Cx (Ieee φ)), 0 < e → Spec.HasNan b → ∃ e' b',
    whileLoop (fun s : ℕ × Cx (Ieee φ) => s.1 % 2 = 0) (fun s => (s.1 >>> 1, s.2 * s.2)) (e, b) = some (e', b') ∧
    0 < e' ∧ (e' = 1 → 2 ≤ e → b' = ⟨nan, nan⟩) ∧ Spec.HasNan b' := by
  induction e using Nat.strong_induction_on with
  | _ e ih =>
    intro b he hb
    rw [whileLoop]
    by_cases h : e % 2 = 0
    · have hs : e >>> 1 = e / 2 := Nat.shiftRight_one e
      obtain ⟨e', b', h1, h2, h3, h4⟩ := ih (e >>> 1) (by omega) (b * b) (by omega) (by rw [hasNan_sq hb]; exact hasNan_nan)
      refine ⟨e', b', by simpa [h] using h1, h2, fun he' _ => ?_, h4⟩
      by_cases h5 : 2 ≤ e >>> 1
      · exact h3 he' h5
      · have h6 : e >>> 1 = 1 := by omega
        rw [h6, whileLoop] at h1
        simp at h1
        rw [← h1.2, hasNan_sq hb]
    · exact ⟨e, b, by simp [h], he, fun h1 h2 => by omega, hb⟩

private theorem nan_loop2 (e : ℕ) : ∀ (b r : Cx (Ieee φ)), Spec.HasNan r → ∃ s',
    whileLoop (fun s : Cx.PowState (Ieee φ) ℕ => s.exponent > 1) (fun s =>
      let exponent := s.exponent >>> 1
      let base := s.base * s.base
      if exponent % 2 = 1 then ⟨exponent, base, s.result.mulAssign base⟩
      else ⟨exponent, base, s.result⟩) ⟨e, b, r⟩ = some s' ∧ (1 < e → s'.result = ⟨nan, nan⟩) ∧
      (r = ⟨nan, nan⟩ → s'.result = ⟨nan, nan⟩) := by
  induction e using Nat.strong_induction_on with
  | _ e ih =>
    intro b r hr
    rw [whileLoop]
    by_cases h : e > 1
    · have hs : e >>> 1 = e / 2 := Nat.shiftRight_one e
      simp only [h, decide_true, if_true]
      by_cases h2 : (e >>> 1) % 2 = 1
      · obtain ⟨s', h3, h4, h5⟩ := ih (e >>> 1) (by omega) (b * b) (r.mulAssign (b * b))
          (by rw [mulAssign_nan hr]; exact hasNan_nan)
        exact ⟨s', by simpa [h2] using h3, fun _ => h5 (mulAssign_nan hr), fun _ => h5 (mulAssign_nan hr)⟩
      · obtain ⟨s', h3, h4, h5⟩ := ih (e >>> 1) (by omega) (b * b) r hr
        exact ⟨s', by simpa [h2] using h3, fun _ => h4 (by omega), fun hr => h5 hr⟩
    · exact ⟨⟨e, b, r⟩, by simp [h], fun h' => absurd h' h, fun h => h⟩

/-- `powu` of a number with a NaN part: one for the exponent zero, the number itself for the exponent one, and NaN in
both parts, as the product has, for the others. -/
theorem C72_powu_nan (z : Cx (Ieee φ)) (h : z.re = nan ∨ z.im = nan) (n : ℕ) :
    z.powu 0 = some 1 ∧ z.powu 1 = some z ∧ (2 ≤ n → z.powu n = some ⟨nan, nan⟩) := by
  refine ⟨rfl, ?_, fun hn => ?_⟩
  · unfold Cx.powu
    rw [if_neg one_ne_zero, whileLoop]; simp
  · unfold Cx.powu
    rw [if_neg (by omega)]
    obtain ⟨e', b', h1, h2, h3, h4⟩ := nan_loop1 n z (by omega) h
    rw [h1, Option.bind_some]
    dsimp only
    split_ifs with h5
    · rw [h3 h5 hn]
    · obtain ⟨s', h6, h7, -⟩ := nan_loop2 e' b' b' h4
      rw [h6, Option.map_some, h7 (by omega)]

/-- `powi` with a positive exponent returns a number with a NaN part unchanged, with the other part as it is: not what
`powu` and the product return. -/
theorem C72_powi_nan_fails (z : Cx (Ieee φ)) (h : z.re = nan ∨ z.im = nan) (n : ℤ) (hn : 0 < n) : z.powi n = some z := by
  unfold Cx.powi
  rw [if_neg hn.ne']
  simp only [gt_iff_lt, hn, if_true]
  rw [if_pos]
  rcases h with h | h <;> simp [h]
example : ∃ z : Cx (Ieee f64), z.powi 2 ≠ z.powu 2 ∧ z.powi 2 = some ⟨1, nan⟩ := by
  refine ⟨⟨1, nan⟩, ?_, C72_powi_nan_fails _ (Or.inr rfl) 2 two_pos⟩
  rw [C72_powi_nan_fails _ (Or.inr rfl) 2 two_pos, (C72_powu_nan _ (Or.inr rfl) 2).2.2 le_rfl]
  simp [one_def]

/-- `powi` with a negative exponent: NaN in both parts at zero, for numbers with a NaN part, and for numbers with two
infinite parts. -/
theorem C72_powi_negative (z : Cx (Ieee φ)) (n : ℤ) (hn : n < 0)
    (h : (∃ s t, z = ⟨zeroS s, zeroS t⟩) ∨ (z.re = nan ∨ z.im = nan) ∨ ∃ s t, z = ⟨inf s, inf t⟩) :
    z.powi n = some ⟨nan, nan⟩ := by
  have hb : (if z.normSquared == 0 then Cx.new fnan fnan
      else Cx.new (z.re / z.normSquared) (-z.im / z.normSquared) : Cx (Ieee φ)) = ⟨nan, nan⟩ := by
    rcases h with ⟨s, t, rfl⟩ | h | ⟨s, t, rfl⟩
    · rw [zero_normSquared]; simp [Cx.new]
    · have : z.normSquared = nan := by
        rcases h with h | h <;> simp [Cx.normSquared, h, nan_mul, nan_add, add_nan]
      rw [this]; simp [Cx.new, div_nan]
    · have : Cx.normSquared (⟨inf s, inf t⟩ : Cx (Ieee φ)) = inf false := by
        simp only [Cx.normSquared, inf_sq]; exact (inf_add_of (Or.inl rfl)).1
      rw [this]
      simp only [inf_beq_zero, Bool.false_eq_true, if_false, Cx.new, neg_inf]; rfl
  unfold Cx.powi
  rw [if_neg hn.ne]
  simp only [gt_iff_lt, not_lt.mpr hn.le, if_false]
  rw [hb]
  simp

/-! ### real and complex powers -/

variable [Libm φ]

/-- Powers of zero: zero for a positive exponent. -/
theorem C72_powf_zero (m : ℝ) (hm) (h0 : m ≠ 0) : Cx.powf 0 (fin false m hm : Ieee φ) = 0 := by
  have hl : Cx.ln (0 : Cx (Ieee φ)) = ⟨inf true, zeroS false⟩ := (C72_ln false false m m hm hm).2.1
  unfold Cx.powf
  rw [hl]
  have e : (⟨inf true, zeroS false⟩ : Cx (Ieee φ)) * (fin false m hm : Ieee φ) = ⟨inf true, zeroS false⟩ := by
    change (⟨inf true * fin false m hm, zeroS false * fin false m hm⟩ : Cx (Ieee φ)) = _
    rw [show (inf true : Ieee φ) * fin false m hm = inf (true ^^ false) from if_neg h0, zeroS_mul]
    rfl
  rw [e]
  simp only [Cx.exp, Cx.new, exp_ninf, cos_zero, sin_zero]
  rw [show (zeroS false : Ieee φ) * 1 = zeroS (false ^^ false) from zeroS_mul false false 1 _,
    show (zeroS false : Ieee φ) * zeroS false = zeroS (false ^^ false) from zeroS_mul false false 0 _]
  rfl

/-- Zero to the power zero is one with a complex or an integer exponent, but NaN with a real one. -/
theorem C72_powf_fails : Cx.powc (0 : Cx (Ieee φ)) 0 = 1 ∧ Cx.powu (0 : Cx (Ieee φ)) 0 = some 1 ∧
    Cx.powf (0 : Cx (Ieee φ)) 0 = ⟨nan, nan⟩ := by
  refine ⟨?_, rfl, ?_⟩
  · unfold Cx.powc
    rw [if_pos]
    · rfl
    · simp only [Cx.isZero]
      change ((zeroS false : Ieee φ) == 0 && (zeroS false : Ieee φ) == 0) = true
      simp
  · have h0 : (0 : ℝ) ≤ 0 ∧ (0 : ℝ) ≤ φ.big ∧ φ.fl 0 = 0 := ⟨le_rfl, zero_le_one.trans φ.one_le_big, φ.zero⟩
    have hl : Cx.ln (0 : Cx (Ieee φ)) = ⟨inf true, zeroS false⟩ := (C72_ln false false 0 0 h0 h0).2.1
    unfold Cx.powf
    rw [hl]
    have e : (⟨inf true, zeroS false⟩ : Cx (Ieee φ)) * (0 : Ieee φ) = ⟨nan, zeroS false⟩ := by
      change (⟨inf true * 0, zeroS false * zeroS false⟩ : Cx (Ieee φ)) = _
      rw [show (inf true : Ieee φ) * 0 = nan from if_pos rfl,
        show (zeroS false : Ieee φ) * zeroS false = zeroS (false ^^ false) from zeroS_mul false false 0 _]
      rfl
    rw [e]
    simp [Cx.exp, Cx.new, exp_nan, nan_mul]

/-- Zero to a negative power has an infinite real part and a NaN imaginary part. -/
theorem C72_powf_zero_negative (m : ℝ) (hm) (h0 : m ≠ 0) :
    Cx.powf 0 (fin true m hm : Ieee φ) = ⟨inf false, nan⟩ := by
  have hl : Cx.ln (0 : Cx (Ieee φ)) = ⟨inf true, zeroS false⟩ := (C72_ln false false m m hm hm).2.1
  unfold Cx.powf
  rw [hl]
  have e : (⟨inf true, zeroS false⟩ : Cx (Ieee φ)) * (fin true m hm : Ieee φ) = ⟨inf false, zeroS true⟩ := by
    change (⟨inf true * fin true m hm, zeroS false * fin true m hm⟩ : Cx (Ieee φ)) = _
    rw [show (inf true : Ieee φ) * fin true m hm = inf (true ^^ true) from if_neg h0, zeroS_mul]
    rfl
  rw [e, (C72_exp_fails true).1]

end Cgl
