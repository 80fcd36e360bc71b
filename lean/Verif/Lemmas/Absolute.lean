import Verif.Props.C84_SafeRange

/-! # Absolute errors of calculations with numbers of moderate size

For formats that are fine enough, `f64` and `f32` among them.  `Nr x a e`: the computed `x` is a finite number that
differs from `a` by at most `e`. -/

namespace Cgl
open Ieee FloatFns

variable {φ : Format}

/-- a bound for one rounding of a number of absolute value at most one -/
noncomputable def Spec.unit (φ : Format) : ℝ := φ.u + φ.tiny

/-- The format is accurate to six digits, covers the numbers up to a million and has the number two. -/
structure Spec.Fine (φ : Format) : Prop where
  unit_le : Spec.unit φ ≤ 1 / 1000000
  big : 1000000 ≤ φ.big
  two : φ.fl 2 = 2
  half : φ.fl (1 / 2) = 1 / 2

theorem fine64 : Spec.Fine f64 where
  unit_le := by
    have h1 : f64.u = 2 ^ (-53 : ℤ) := rfl
    have h2 : f64.tiny = 2 ^ (-1075 : ℤ) := rfl
    have h3 : (2 : ℝ) ^ (-1075 : ℤ) ≤ 2 ^ (-53 : ℤ) := zpow_le_zpow_right₀ one_le_two (by norm_num)
    rw [Spec.unit, h1, h2]
    norm_num at h3 ⊢
    linarith
  big := by
    have h : (2 : ℝ) ^ (20 : ℤ) ≤ f64.big := two_zpow_le_big (by norm_num)
    norm_num at h ⊢
    linarith
  two := by simpa using fl64_two_zpow (k := 1) (by norm_num)
  half := by simpa using fl64_two_zpow (k := -1) (by norm_num)

theorem unit64 : Spec.unit f64 ≤ 2 ^ (-53 : ℤ) + 2 ^ (-1075 : ℤ) := le_rfl

open Rounding in
theorem fl32_two_zpow {k : ℤ} (hk : -149 ≤ k) : f32.fl (2 ^ k) = 2 ^ k := by
  have hq : lastBit 24 (some (-149)) k ≤ k := by simp only [lastBit]; omega
  obtain ⟨d, hd⟩ := Int.le.dest hq
  have h := flEven_eq (p := 24) (qmin := some (-149)) (x := 2 ^ k) (e := k) (m := 2 ^ d)
    (by rw [abs_of_pos (by positivity)]) (by
      rw [abs_of_pos (by positivity)]; exact zpow_lt_zpow_right₀ one_lt_two (by omega)) (by
      rw [← zpow_sub₀ two_ne_zero]; push_cast
      rw [← zpow_natCast, show k - lastBit 24 (some (-149)) k = (d : ℤ) by omega]; simp)
  refine h.trans ?_
  push_cast
  rw [← zpow_natCast, ← zpow_add₀ two_ne_zero]; congr 1; omega

theorem fine32 : Spec.Fine f32 where
  unit_le := by
    have h1 : f32.u = 2 ^ (-24 : ℤ) := rfl
    have h2 : f32.tiny = 2 ^ (-150 : ℤ) := rfl
    rw [Spec.unit, h1, h2]
    norm_num
  big := by
    have h : f32.big = (2 ^ 24 - 1) * 2 ^ 104 := rfl
    rw [h]; norm_num
  two := by simpa using fl32_two_zpow (k := 1) (by norm_num)
  half := by simpa using fl32_two_zpow (k := -1) (by norm_num)

/-- `x` is finite and within `e` of `a` -/
def Nr (x : Ieee φ) (a e : ℝ) : Prop := x.Finite ∧ |x.val - a| ≤ e

theorem Spec.unit_nonneg : 0 ≤ Spec.unit φ := add_nonneg φ.u_nonneg φ.tiny_nonneg

theorem fl_err_unit {z M : ℝ} (h : |z| ≤ M) (hM : 1 ≤ M) : |φ.fl z - z| ≤ Spec.unit φ * M := by
  refine (φ.err z).trans ?_
  have h1 := mul_le_mul_of_nonneg_left h φ.u_nonneg
  have h2 := le_mul_of_one_le_right φ.tiny_nonneg hM
  unfold Spec.unit
  linarith

theorem fl_big (hφ : Spec.Fine φ) {z M : ℝ} (h : |z| ≤ M) (hM : 1 ≤ M) (hM' : M ≤ 999000) : |φ.fl z| ≤ φ.big := by
  have h1 := fl_err_unit (φ := φ) h hM
  have h2 : Spec.unit φ * M ≤ 1 / 1000000 * 999000 := mul_le_mul hφ.unit_le hM' (by linarith) (by norm_num)
  have h3 := abs_sub_abs_le_abs_sub (φ.fl z) z
  have := hφ.big
  linarith

namespace Nr
variable {x y : Ieee φ} {a b e f A B M : ℝ}

theorem mono (h : Nr x a e) (hef : e ≤ f) : Nr x a f := ⟨h.1, h.2.trans hef⟩
theorem exact (h : x.Finite) : Nr x x.val 0 := ⟨h, by simp⟩
theorem zero : Nr (0 : Ieee φ) 0 0 := exact finite_zero
theorem one : Nr (1 : Ieee φ) 1 0 := exact finite_one
theorem val_le (h : Nr x a e) (ha : |a| ≤ A) : |x.val| ≤ A + e := by
  have := abs_sub_abs_le_abs_sub x.val a
  linarith [h.2]
theorem nonneg (h : Nr x a e) : 0 ≤ e := (abs_nonneg _).trans h.2
theorem neg (h : Nr x a e) : Nr (-x) (-a) e := by
  obtain ⟨⟨s, m, hm, rfl⟩, h⟩ := h
  refine ⟨finite_fin _ _ _, ?_⟩
  rw [val_neg, ← neg_sub', abs_neg]
  exact h

theorem add (hφ : Spec.Fine φ) (hx : Nr x a e) (hy : Nr y b f) (h : |a + b| + (e + f) ≤ M) (hM : 1 ≤ M)
    (hM' : M ≤ 999000) : Nr (x + y) (a + b) (e + f + Spec.unit φ * M) := by
  have h0 : |(x.val + y.val) - (a + b)| ≤ e + f := by
    calc _ = |(x.val - a) + (y.val - b)| := by ring_nf
      _ ≤ _ := (abs_add_le _ _).trans (add_le_add hx.2 hy.2)
  have h1 : |x.val + y.val| ≤ M := by linarith [abs_sub_abs_le_abs_sub (x.val + y.val) (a + b)]
  have hf := finite_add_of hx.1 hy.1 (fl_big hφ h1 hM hM')
  refine ⟨hf, ?_⟩
  rw [val_add hf]
  calc _ = |(φ.fl (x.val + y.val) - (x.val + y.val)) + ((x.val + y.val) - (a + b))| := by ring_nf
    _ ≤ _ := abs_add_le _ _
    _ ≤ _ := by linarith [fl_err_unit (φ := φ) h1 hM]

theorem sub (hφ : Spec.Fine φ) (hx : Nr x a e) (hy : Nr y b f) (h : |a - b| + (e + f) ≤ M) (hM : 1 ≤ M)
    (hM' : M ≤ 999000) : Nr (x - y) (a - b) (e + f + Spec.unit φ * M) := by
  have := hx.add hφ hy.neg (by rwa [← sub_eq_add_neg]) hM hM'
  rwa [← sub_eq_add_neg] at this

theorem zero_add (hx : Nr x a e) : Nr (0 + x) a e := by
  have h1 : φ.fl ((0 : Ieee φ).val + x.val) = x.val := by rw [val_zero, _root_.zero_add, val_rep]
  have hb : |x.val| ≤ φ.big := by
    obtain ⟨⟨s, m, hm, rfl⟩, -⟩ := hx
    change |signed s m| ≤ _
    have : |signed s m| = m := by cases s <;> simp [signed, abs_of_nonneg hm.1]
    rw [this]; exact hm.2.1
  have hf := finite_add_of (finite_zero (φ := φ)) hx.1 (by rw [h1]; exact hb)
  exact ⟨hf, by rw [val_add hf, h1]; exact hx.2⟩

theorem mul (hφ : Spec.Fine φ) (hx : Nr x a e) (hy : Nr y b f) (ha : |a| ≤ A) (hb : |b| ≤ B)
    (h : (A + e) * (B + f) ≤ M) (hM : 1 ≤ M) (hM' : M ≤ 999000) :
    Nr (x * y) (a * b) (e * (B + f) + A * f + Spec.unit φ * M) := by
  have hxv := hx.val_le ha
  have hyv := hy.val_le hb
  have h0 : |x.val * y.val - a * b| ≤ e * (B + f) + A * f := by
    calc _ = |(x.val - a) * y.val + a * (y.val - b)| := by ring_nf
      _ ≤ |(x.val - a) * y.val| + |a * (y.val - b)| := abs_add_le _ _
      _ = |x.val - a| * |y.val| + |a| * |y.val - b| := by rw [abs_mul, abs_mul]
      _ ≤ _ := add_le_add (mul_le_mul hx.2 hyv (abs_nonneg _) hx.nonneg)
        (mul_le_mul ha hy.2 (abs_nonneg _) ((abs_nonneg _).trans ha))
  have h1 : |x.val * y.val| ≤ M := by
    rw [abs_mul]
    exact (mul_le_mul hxv hyv (abs_nonneg _) ((abs_nonneg _).trans hxv)).trans h
  have hf := finite_mul_of hx.1 hy.1 (fl_big hφ h1 hM hM')
  refine ⟨hf, ?_⟩
  rw [val_mul hf]
  calc _ = |(φ.fl (x.val * y.val) - (x.val * y.val)) + ((x.val * y.val) - (a * b))| := by ring_nf
    _ ≤ _ := abs_add_le _ _
    _ ≤ _ := by linarith [fl_err_unit (φ := φ) h1 hM]

/-- dividing by a number that is not small: `lo ≤ |y|, |b|` -/
theorem div (hφ : Spec.Fine φ) {lo : ℝ} (hx : Nr x a e) (hy : Nr y b f) (hlo : 0 < lo) (hb : lo + f ≤ |b|) (ha : |a| ≤ A)
    (h : (A + e) / lo ≤ M) (hM : 1 ≤ M) (hM' : M ≤ 999000) :
    Nr (x / y) (a / b) (e / lo + A * f / (lo * lo) + Spec.unit φ * M) := by
  have hxv := hx.val_le ha
  have hf0 := hy.nonneg
  have hA0 : 0 ≤ A := (abs_nonneg _).trans ha
  have hyv : lo ≤ |y.val| := by
    have := abs_sub_abs_le_abs_sub b y.val
    rw [abs_sub_comm] at this
    linarith [hy.2]
  have hblo : lo ≤ |b| := by linarith
  have hy0 : y.val ≠ 0 := fun h => by rw [h, abs_zero] at hyv; linarith
  have hb0 : b ≠ 0 := fun h => by rw [h, abs_zero] at hblo; linarith
  have h0 : |x.val / y.val - a / b| ≤ e / lo + A * f / (lo * lo) := by
    calc _ = |(x.val - a) / y.val + a * (b - y.val) / (y.val * b)| := by congr 1; field_simp; ring
      _ ≤ |(x.val - a) / y.val| + |a * (b - y.val) / (y.val * b)| := abs_add_le _ _
      _ = |x.val - a| / |y.val| + |a| * |b - y.val| / (|y.val| * |b|) := by rw [abs_div, abs_div, abs_mul, abs_mul]
      _ ≤ _ := by
        refine add_le_add (div_le_div₀ hx.nonneg hx.2 hlo hyv) (div_le_div₀ (by positivity) ?_ (by positivity) ?_)
        · rw [abs_sub_comm]; exact mul_le_mul ha hy.2 (abs_nonneg _) hA0
        · exact mul_le_mul hyv hblo hlo.le (abs_nonneg _)
  have h1 : |x.val / y.val| ≤ M := by
    rw [abs_div]
    exact (div_le_div₀ ((abs_nonneg _).trans hxv) hxv hlo hyv).trans h
  have hf := finite_div_of hx.1 hy.1 hy0 (fl_big hφ h1 hM hM')
  refine ⟨hf, ?_⟩
  rw [(val_div hf hy.1).1]
  calc _ = |(φ.fl (x.val / y.val) - (x.val / y.val)) + ((x.val / y.val) - (a / b))| := by ring_nf
    _ ≤ _ := abs_add_le _ _
    _ ≤ _ := by linarith [fl_err_unit (φ := φ) h1 hM]

/-- square roots away from zero -/
theorem sqrt [Lib φ] (hφ : Spec.Fine φ) {lo : ℝ} (hx : Nr x a e) (hlo : 0 < lo) (h1 : lo ^ 2 + e ≤ a) (h2 : a + e ≤ M ^ 2)
    (hM : 1 ≤ M) (hM' : M ≤ 999000) : Nr (fsqrt x) (Real.sqrt a) (e / (2 * lo) + Spec.unit φ * M) := by
  have he := hx.nonneg
  have hl := (abs_le.mp hx.2).1
  have hu := (abs_le.mp hx.2).2
  have hx0 : lo ^ 2 ≤ x.val := by linarith
  have ha0 : lo ^ 2 ≤ a := by linarith
  have hsx : lo ≤ Real.sqrt x.val := Real.le_sqrt_of_sq_le hx0
  have hsa : lo ≤ Real.sqrt a := Real.le_sqrt_of_sq_le ha0
  have h0 : |Real.sqrt x.val - Real.sqrt a| ≤ e / (2 * lo) := by
    rw [le_div_iff₀ (by positivity)]
    have h3 : (Real.sqrt x.val - Real.sqrt a) * (Real.sqrt x.val + Real.sqrt a) = x.val - a := by
      have := Real.mul_self_sqrt (show 0 ≤ x.val by nlinarith)
      have := Real.mul_self_sqrt (show 0 ≤ a by nlinarith)
      ring_nf at *; linarith
    have h4 : |Real.sqrt x.val - Real.sqrt a| * (Real.sqrt x.val + Real.sqrt a) ≤ e := by
      rw [← abs_of_pos (show 0 < Real.sqrt x.val + Real.sqrt a by linarith), ← abs_mul, h3]
      exact hx.2
    exact le_trans (mul_le_mul_of_nonneg_left (by linarith) (abs_nonneg _)) h4
  have hsM : |Real.sqrt x.val| ≤ M := by
    rw [abs_of_nonneg (Real.sqrt_nonneg _)]
    exact Real.sqrt_le_iff.mpr ⟨by linarith, by linarith⟩
  rw [Lib.sqrt_eq]
  have hf := finite_sqrt_of hx.1 (by nlinarith) (fl_big hφ hsM hM hM')
  refine ⟨hf, ?_⟩
  rw [(val_sqrt hf).1]
  calc _ = |(φ.fl (Real.sqrt x.val) - Real.sqrt x.val) + (Real.sqrt x.val - Real.sqrt a)| := by ring_nf
    _ ≤ _ := abs_add_le _ _
    _ ≤ _ := by linarith [fl_err_unit (φ := φ) hsM hM]

end Nr

theorem two_nr (hφ : Spec.Fine φ) : Nr ((1 : Ieee φ) + 1) 2 0 := by
  have h : φ.fl ((1 : Ieee φ).val + (1 : Ieee φ).val) = 2 := by rw [val_one, one_add_one_eq_two, hφ.two]
  have hf := finite_add_of (finite_one (φ := φ)) finite_one (by rw [h, abs_two]; linarith [hφ.big])
  exact ⟨hf, by rw [val_add hf, h]; simp⟩

theorem half_nr (hφ : Spec.Fine φ) : Nr ((1 : Ieee φ) / (1 + 1)) (1 / 2) 0 := by
  have h2 := two_nr hφ
  have hv : ((1 : Ieee φ) + 1).val = 2 := by
    have := abs_nonpos_iff.mp h2.2; linarith
  have h : φ.fl ((1 : Ieee φ).val / ((1 : Ieee φ) + 1).val) = 1 / 2 := by rw [val_one, hv, hφ.half]
  have hf := finite_div_of (finite_one (φ := φ)) h2.1 (by rw [hv]; norm_num) (by
    rw [h, abs_of_pos (by norm_num)]; linarith [hφ.big])
  exact ⟨hf, by rw [(val_div hf h2.1).1, h]; simp⟩

theorem ieee_le_iff {x y : Ieee φ} (hx : x.Finite) (hy : y.Finite) : x ≤ y ↔ x.val ≤ y.val := by
  obtain ⟨s, m, h, rfl⟩ := hx
  obtain ⟨t, k, h', rfl⟩ := hy
  constructor
  · rintro ⟨a, b, ha, hb, hab⟩
    cases ha; cases hb
    exact_mod_cast hab
  · intro hab
    exact ⟨_, _, rfl, rfl, by exact_mod_cast hab⟩

theorem ieee_lt_iff {x y : Ieee φ} (hx : x.Finite) (hy : y.Finite) : x < y ↔ x.val < y.val := by
  obtain ⟨s, m, h, rfl⟩ := hx
  obtain ⟨t, k, h', rfl⟩ := hy
  constructor
  · rintro ⟨a, b, ha, hb, hab⟩
    cases ha; cases hb
    exact_mod_cast hab
  · intro hab
    exact ⟨_, _, rfl, rfl, by exact_mod_cast hab⟩

end Cgl
