import Verif.Props.C91_MatrixQuaternion
import Verif.Lemmas.Arc

/-! # C92 - interpolating between rotations in floating point -/

namespace Cgl
open Ieee FloatFns Quat Spec InnerProductGeometry

variable {φ : Format}

/-- The sine and the inverse cosine of the library have absolute errors of at most `a`, the sine for arguments up to
four. -/
structure Spec.SineWithin (φ : Format) [Lib φ] (a : ℝ) : Prop where
  sin : ∀ x : Ieee φ, x.Finite → |x.val| ≤ 4 → (fsin x).Finite ∧ |(fsin x).val - Real.sin x.val| ≤ a
  acos : ∀ x : Ieee φ, x.Finite → |x.val| ≤ 1 → (facos x).Finite ∧ |(facos x).val - Real.arccos x.val| ≤ a

/-- the components in the order of the code -/
def cmp (h : Quaternion ℝ) : Fin 4 → ℝ := ![h.re, h.imI, h.imJ, h.imK]

theorem quatWithin_iff {q : Quat (Ieee φ)} {h : Quaternion ℝ} {ε : ℝ} :
    QuatWithin q h ε ↔ ∀ i, Nr (q.coords.data i) (cmp h i) ε := by
  constructor
  · rintro ⟨h1, h2, h3, h4, h5⟩ i
    fin_cases i
    · exact ⟨h1 0, h2⟩
    · exact ⟨h1 1, h3⟩
    · exact ⟨h1 2, h4⟩
    · exact ⟨h1 3, h5⟩
  · intro h
    exact ⟨fun i => (h i).1, (h 0).2, (h 1).2, (h 2).2, (h 3).2⟩

theorem inner_cmp (g h : Quaternion ℝ) : inner ℝ g h = cmp g 0 * cmp h 0 + cmp g 1 * cmp h 1 + cmp g 2 * cmp h 2 + cmp g 3 * cmp h 3 := by
  rw [Quaternion.inner_def, Quaternion.re_mul]
  simp [cmp]

theorem norm_cmp (g : Quaternion ℝ) : ‖g‖ ^ 2 = cmp g 0 ^ 2 + cmp g 1 ^ 2 + cmp g 2 ^ 2 + cmp g 3 ^ 2 := by
  rw [← real_inner_self_eq_norm_sq, inner_cmp]; ring

theorem cmp_le_norm (g : Quaternion ℝ) (i : Fin 4) : |cmp g i| ≤ ‖g‖ := by
  refine abs_le_of_sq_le_sq ?_ (_root_.norm_nonneg _)
  rw [norm_cmp]
  have := sq_nonneg (cmp g 0); have := sq_nonneg (cmp g 1); have := sq_nonneg (cmp g 2); have := sq_nonneg (cmp g 3)
  fin_cases i <;> simp only [Fin.zero_eta, Fin.mk_one, Fin.reduceFinMk] <;> linarith

theorem cmp_add (g h : Quaternion ℝ) (i : Fin 4) : cmp (g + h) i = cmp g i + cmp h i := by
  fin_cases i <;> rfl
theorem cmp_sub (g h : Quaternion ℝ) (i : Fin 4) : cmp (g - h) i = cmp g i - cmp h i := by
  fin_cases i <;> rfl
theorem cmp_smul (k : ℝ) (h : Quaternion ℝ) (i : Fin 4) : cmp (k • h) i = k * cmp h i := by
  fin_cases i <;> simp [cmp]
theorem cmp_neg (h : Quaternion ℝ) (i : Fin 4) : cmp (-h) i = -cmp h i := by
  fin_cases i <;> rfl

/-- the accuracies of the arguments of an interpolation -/
structure UnitNear (d : ℝ) (p : Quat (Ieee φ)) (g : Quaternion ℝ) : Prop where
  unit : ‖g‖ = 1
  near : ∀ i, Nr (p.coords.data i) (cmp g i) d

theorem UnitNear.neg {d : ℝ} {p : Quat (Ieee φ)} {g : Quaternion ℝ} (h : UnitNear d p g) : UnitNear d (-p) (-g) where
  unit := by rw [norm_neg, h.unit]
  near i := by
    rw [cmp_neg]
    have : (-p).coords.data i = -p.coords.data i := by fin_cases i <;> rfl
    rw [this]
    exact (h.near i).neg

theorem UnitNear.le_one {d : ℝ} {p : Quat (Ieee φ)} {g : Quaternion ℝ} (h : UnitNear d p g) (i : Fin 4) : |cmp g i| ≤ 1 := by
  rw [← h.unit]; exact cmp_le_norm g i

section
variable {d : ℝ} (hφ : Fine φ) (hd : d ≤ 1 / 1000000) (hwd : unit φ ≤ d)
include hφ hd hwd

theorem sum_products {x y : Fin 4 → Ieee φ} {a b : Fin 4 → ℝ} {e m : ℝ} (he : ∀ i, Nr (x i * y i) (a i * b i) e)
    (hm : 0 ≤ m) (h1 : a 0 ^ 2 + a 1 ^ 2 + a 2 ^ 2 + a 3 ^ 2 ≤ m) (h2 : b 0 ^ 2 + b 1 ^ 2 + b 2 ^ 2 + b 3 ^ 2 ≤ m)
    (hm1 : m + 7 * e ≤ 101 / 100) (he' : d ≤ e) :
    Nr (0 + x 0 * y 0 + x 1 * y 1 + x 2 * y 2 + x 3 * y 3) (a 0 * b 0 + a 1 * b 1 + a 2 * b 2 + a 3 * b 3) (4 * e + 31 / 10 * d) := by
  have hw0 : 0 ≤ unit φ := unit_nonneg
  have s := fun i => sq_nonneg (a i + b i)
  have s' := fun i => sq_nonneg (a i - b i)
  have q := fun i => sq_nonneg (a i)
  have q' := fun i => sq_nonneg (b i)
  have t1 := (he 0).zero_add.add hφ (he 1) (M := 101 / 100)
    (by rw [← le_sub_iff_add_le, abs_le]; constructor <;> linarith [s 0, s 1, s' 0, s' 1, q 2, q 3, q' 2, q' 3]) (by norm_num) (by norm_num)
  have t2 := t1.add hφ (he 2) (M := 101 / 100)
    (by rw [← le_sub_iff_add_le, abs_le]; constructor <;> linarith [s 0, s 1, s 2, s' 0, s' 1, s' 2, q 3, q' 3]) (by norm_num) (by norm_num)
  have t3 := t2.add hφ (he 3) (M := 101 / 100)
    (by rw [← le_sub_iff_add_le, abs_le]; constructor <;> linarith [s 0, s 1, s 2, s 3, s' 0, s' 1, s' 2, s' 3]) (by norm_num) (by norm_num)
  exact t3.mono (by linarith)

theorem dot_near_inner {p r : Quat (Ieee φ)} {g h : Quaternion ℝ} (hp : UnitNear d p g) (hr : UnitNear d r h) :
    Nr (p.dot r) (inner ℝ g h) (16 * d) := by
  have hw0 : 0 ≤ unit φ := unit_nonneg
  have he : ∀ i, Nr (p.coords.data i * r.coords.data i) (cmp g i * cmp h i) (32 / 10 * d) := fun i => by
    have := (hp.near i).mul hφ (hr.near i) (hp.le_one i) (hr.le_one i) (M := 101 / 100) (by nlinarith) (by norm_num) (by norm_num)
    exact this.mono (by nlinarith)
  rw [inner_cmp]
  have h1 := norm_cmp g
  have h2 := norm_cmp h
  rw [hp.unit] at h1
  rw [hr.unit] at h2
  change Nr (0 + p.coords.data 0 * r.coords.data 0 + p.coords.data 1 * r.coords.data 1 + p.coords.data 2 * r.coords.data 2 +
    p.coords.data 3 * r.coords.data 3) _ _
  exact (sum_products hφ hd hwd he (by norm_num : (0 : ℝ) ≤ 1) (by linarith) (by linarith) (by linarith) (by linarith)).mono
    (by linarith)

variable [Lib φ]

/-- `nlerp`, when the chord stays away from the origin -/
theorem nlerp_near {p r : Quat (Ieee φ)} {g h : Quaternion ℝ} (hp : UnitNear d p g) (hr : UnitNear d r h) {t : Ieee φ} (ht : t.Finite)
    (h0 : 0 ≤ t.val) (h1 : t.val ≤ 1) (hc : 1 / 2 ≤ ‖(1 - t.val) • g + t.val • h‖) (i : Fin 4) :
    Nr ((p.nlerp r t).coords.data i)
      (cmp (‖(1 - t.val) • g + t.val • h‖⁻¹ • ((1 - t.val) • g + t.val • h)) i) (300 * d) := by
  have hw0 : 0 ≤ unit φ := unit_nonneg
  have hd0 : 0 ≤ d := hw0.trans hwd
  have ht1 : |t.val| ≤ 1 := by rw [abs_of_nonneg h0]; exact h1
  have ht2 : |1 - t.val| ≤ 1 := by rw [abs_of_nonneg (by linarith)]; linarith
  have tn : Nr (1 - t) (1 - t.val) (unit φ) := by
    have := Nr.one.sub hφ (Nr.exact ht) (M := 1) (by simpa using ht2) le_rfl (by norm_num)
    exact this.mono (by linarith)
  set ξ := (1 - t.val) • g + t.val • h with hξ
  have hξ1 : ‖ξ‖ ≤ 1 := by
    refine (norm_add_le _ _).trans ?_
    rw [norm_smul, norm_smul, hp.unit, hr.unit, Real.norm_eq_abs, Real.norm_eq_abs, abs_of_nonneg h0, abs_of_nonneg (by linarith)]
    linarith
  have hx : ∀ i, Nr (p.coords.data i * (1 - t) + r.coords.data i * t) (cmp ξ i) (63 / 10 * d) := fun i => by
    have a := (hp.near i).mul hφ tn (hp.le_one i) ht2 (M := 101 / 100) (by nlinarith) (by norm_num) (by norm_num)
    have b := (hr.near i).mul hφ (Nr.exact ht) (hr.le_one i) ht1 (M := 101 / 100) (by nlinarith) (by norm_num) (by norm_num)
    have e : cmp g i * (1 - t.val) + cmp h i * t.val = cmp ξ i := by rw [hξ, cmp_add, cmp_smul, cmp_smul]; ring
    have a' := a.mono (f := 302 / 100 * d) (by nlinarith)
    have b' := b.mono (f := 202 / 100 * d) (by nlinarith)
    have c := a'.add hφ b' (M := 101 / 100) (by
      rw [e]; have := (cmp_le_norm ξ i).trans hξ1; linarith) (by norm_num) (by norm_num)
    rw [e] at c
    exact c.mono (by linarith)
  have hsq : ∀ i, Nr ((p.coords.data i * (1 - t) + r.coords.data i * t) * (p.coords.data i * (1 - t) + r.coords.data i * t))
      (cmp ξ i * cmp ξ i) (137 / 10 * d) := fun i => by
    have := (hx i).mul hφ (hx i) ((cmp_le_norm ξ i).trans hξ1) ((cmp_le_norm ξ i).trans hξ1) (M := 101 / 100)
      (by nlinarith) (by norm_num) (by norm_num)
    exact this.mono (by nlinarith)
  have hn2 := norm_cmp ξ
  have hs := sum_products hφ hd hwd hsq (by norm_num : (0 : ℝ) ≤ 1) (by nlinarith [_root_.norm_nonneg ξ]) (by nlinarith [_root_.norm_nonneg ξ])
    (by linarith) (by linarith)
  have e2 : cmp ξ 0 * cmp ξ 0 + cmp ξ 1 * cmp ξ 1 + cmp ξ 2 * cmp ξ 2 + cmp ξ 3 * cmp ξ 3 = ‖ξ‖ ^ 2 := by rw [hn2]; ring
  rw [e2] at hs
  have hr' := hs.sqrt hφ (lo := 49 / 100) (M := 101 / 100) (by norm_num) (by nlinarith) (by nlinarith [_root_.norm_nonneg ξ]) (by norm_num)
    (by norm_num)
  rw [Real.sqrt_sq (_root_.norm_nonneg _)] at hr'
  have hr2 := hr'.mono (f := 603 / 10 * d) (by
    rw [div_add' _ _ _ (by norm_num), div_le_iff₀ (by norm_num)]; linarith)
  have hi := Nr.one.div hφ hr2 (lo := 49 / 100) (A := 1) (M := 21 / 10) (by norm_num)
    (by rw [abs_of_nonneg (_root_.norm_nonneg _)]; linarith) (by norm_num) (by norm_num) (by norm_num) (by norm_num)
  have hi2 := hi.mono (f := 254 * d) (by
    rw [zero_div, zero_add, div_add' _ _ _ (by norm_num), div_le_iff₀ (by norm_num)]; linarith)
  have hb : |1 / ‖ξ‖| ≤ 2 := by
    rw [abs_of_nonneg (by positivity), div_le_iff₀ (by linarith)]; linarith
  have fin := (hx i).mul hφ hi2 ((cmp_le_norm ξ i).trans hξ1) hb (M := 21 / 10) (by nlinarith) (by norm_num) (by norm_num)
  have e3 : cmp ξ i * (1 / ‖ξ‖) = cmp (‖ξ‖⁻¹ • ξ) i := by rw [cmp_smul]; ring
  rw [e3] at fin
  have fin' := fin.mono (f := 300 * d) (by nlinarith)
  have e4 : ∀ i, (p * (1 - t) + r * t).coords.data i = p.coords.data i * (1 - t) + r.coords.data i * t := fun i => by
    fin_cases i <;> rfl
  have e5 : (p.nlerp r t).coords.data i = (p.coords.data i * (1 - t) + r.coords.data i * t) *
      (1 / fsqrt (0 + (p.coords.data 0 * (1 - t) + r.coords.data 0 * t) * (p.coords.data 0 * (1 - t) + r.coords.data 0 * t) +
        (p.coords.data 1 * (1 - t) + r.coords.data 1 * t) * (p.coords.data 1 * (1 - t) + r.coords.data 1 * t) +
        (p.coords.data 2 * (1 - t) + r.coords.data 2 * t) * (p.coords.data 2 * (1 - t) + r.coords.data 2 * t) +
        (p.coords.data 3 * (1 - t) + r.coords.data 3 * t) * (p.coords.data 3 * (1 - t) + r.coords.data 3 * t))) := by
    fin_cases i <;> rfl
  rw [e5]
  exact fin'

omit hd hwd in
theorem sqrt_plain {x : Ieee φ} {M : ℝ} (hx : x.Finite) (h0 : 0 ≤ x.val) (h1 : x.val ≤ M ^ 2) (hM : 1 ≤ M) (hM' : M ≤ 1000) :
    Nr (fsqrt x) (Real.sqrt x.val) (unit φ * M) := by
  have hsM : |Real.sqrt x.val| ≤ M := by
    rw [abs_of_nonneg (Real.sqrt_nonneg _)]
    exact Real.sqrt_le_iff.mpr ⟨by linarith, h1⟩
  rw [Lib.sqrt_eq]
  have hf := finite_sqrt_of hx h0 (fl_big hφ hsM hM (by linarith))
  refine ⟨hf, ?_⟩
  rw [(val_sqrt hf).1]
  exact fl_err_unit hsM hM

omit hwd hd [Lib φ] in
theorem one_sub_sq {c : Ieee φ} (hc : c.Finite) (h1 : |c.val| < 1) :
    Nr (1 - c * c) (1 - c.val ^ 2) (201 / 100 * unit φ) ∧ 0 ≤ (1 - c * c).val := by
  have hw0 : 0 ≤ unit φ := unit_nonneg
  have hw := hφ.unit_le
  have hsq : c.val ^ 2 ≤ 1 := by rw [← sq_abs]; nlinarith [abs_nonneg c.val]
  have m := (Nr.exact hc).mul hφ (Nr.exact hc) h1.le h1.le (M := 1) (by norm_num) le_rfl (by norm_num)
  have m' := m.mono (f := unit φ) (by linarith)
  have s := Nr.one.sub hφ m' (M := 1001 / 1000) (by
    rw [← sq, abs_of_nonneg (by linarith)]; nlinarith [sq_nonneg c.val]) (by norm_num) (by norm_num)
  rw [← sq] at s
  refine ⟨s.mono (by linarith), ?_⟩
  rw [val_sub s.1, val_mul m.1, val_one]
  refine φ.nonneg ?_
  have := φ.mono (c.val * c.val) 1 (by rw [← sq]; exact hsq)
  rw [φ.one] at this
  linarith

omit hφ hd hwd [Lib φ] in
theorem arccos_le {c : ℝ} (h : -(1 / 1000) ≤ c) : Real.arccos c ≤ 8 / 5 := by
  have p1 := Real.pi_gt_d2
  have p2 := Real.pi_lt_d2
  have h1 : Real.cos (8 / 5) ≤ c := by
    rw [show (8 / 5 : ℝ) = (8 / 5 - Real.pi / 2) + Real.pi / 2 by ring, Real.cos_add_pi_div_two]
    have h2 := Real.mul_le_sin (x := 8 / 5 - Real.pi / 2) (by linarith) (by linarith)
    have h3 : 1 / 10 ≤ 2 / Real.pi := by rw [le_div_iff₀ Real.pi_pos]; linarith
    nlinarith
  have := Real.arccos_le_arccos h1
  rwa [Real.arccos_cos (by norm_num) (by linarith)] at this

/-- one weight of `slerp` -/
theorem weight_near {a : ℝ} (ha : SineWithin φ a) (had : a ≤ d) {c : Ieee φ} (hc : c.Finite) (h1 : |c.val| < 1)
    (h2 : -(1 / 1000) ≤ c.val) (hs : 900 * d ≤ 1 - c.val ^ 2) {x : Ieee φ} {X : ℝ} (hx : Nr x X (unit φ)) (hX : 0 ≤ X ∧ X ≤ 1) :
    |Real.sin (X * Real.arccos c.val) / Real.sin (Real.arccos c.val)| ≤ 101 / 100 ∧
    Nr (fsin (x * facos c) / fsqrt (1 - c * c)) (Real.sin (X * Real.arccos c.val) / Real.sin (Real.arccos c.val))
      (62 / 10 * d / Real.sin (Real.arccos c.val) + 22 / 10 * unit φ / Real.sin (Real.arccos c.val) ^ 2 + 11 / 10 * unit φ) := by
  have hw0 : 0 ≤ unit φ := unit_nonneg
  have hd0 : 0 ≤ d := hw0.trans hwd
  obtain ⟨-, c1⟩ := abs_lt.mp h1
  have hθ := arccos_le h2
  have hθ0 : 0 < Real.arccos c.val := Real.arccos_pos.mpr c1
  have ac := ha.acos c hc h1.le
  have ha0 : 0 ≤ a := (abs_nonneg _).trans ac.2
  obtain ⟨v1, v2⟩ := one_sub_sq hφ hc h1
  rw [Real.sin_arccos]
  have hs1 : Real.sqrt (1 - c.val ^ 2) ≤ 1 := Real.sqrt_le_one.mpr (by linarith [sq_nonneg c.val])
  have hs2 : Real.sqrt (1 - c.val ^ 2) ^ 2 = 1 - c.val ^ 2 := Real.sq_sqrt (by linarith)
  have hsp : 0 < Real.sqrt (1 - c.val ^ 2) := Real.sqrt_pos.mpr (by
    have : c.val ^ 2 < 1 := by rw [← sq_abs]; nlinarith [abs_nonneg c.val]
    linarith)
  have hN : |Real.sin (X * Real.arccos c.val)| ≤ 101 / 100 * Real.sqrt (1 - c.val ^ 2) := by
    have p1 := Real.pi_gt_three
    have k0 : 0 ≤ X * Real.arccos c.val := mul_nonneg hX.1 hθ0.le
    have k1 : X * Real.arccos c.val ≤ Real.arccos c.val := mul_le_of_le_one_left hθ0.le hX.2
    rw [abs_of_nonneg (Real.sin_nonneg_of_nonneg_of_le_pi k0 (by linarith))]
    rcases le_or_gt 0 c.val with h | h
    · have := Real.sin_le_sin_of_le_of_le_pi_div_two (by linarith) (Real.arccos_le_pi_div_two.mpr h) k1
      rw [Real.sin_arccos] at this
      linarith
    · have : 999 / 1000 ≤ Real.sqrt (1 - c.val ^ 2) := Real.le_sqrt_of_sq_le (by nlinarith)
      linarith [Real.sin_le_one (X * Real.arccos c.val)]
  have m := hx.mul hφ (show Nr (facos c) _ a from ac) (A := 1) (B := 8 / 5) (M := 17 / 10)
    (by rw [abs_of_nonneg hX.1]; exact hX.2) (by rw [abs_of_pos hθ0]; exact hθ) (by nlinarith) (by norm_num) (by norm_num)
  have m' := m.mono (f := 44 / 10 * d) (by nlinarith)
  have hv := m'.val_le (A := 8 / 5) (by
    rw [abs_of_nonneg (mul_nonneg hX.1 hθ0.le)]; nlinarith)
  have sn := ha.sin _ m'.1 (by linarith)
  have sn' : Nr (fsin (x * facos c)) (Real.sin (X * Real.arccos c.val)) (6 * d) := by
    refine ⟨sn.1, ?_⟩
    calc _ = |((fsin (x * facos c)).val - Real.sin (x * facos c).val) +
          (Real.sin (x * facos c).val - Real.sin (X * Real.arccos c.val))| := by ring_nf
      _ ≤ _ := abs_add_le _ _
      _ ≤ a + 44 / 10 * d := add_le_add sn.2 ((Real.abs_sin_sub_sin_le _ _).trans m'.2)
      _ ≤ _ := by linarith
  have q := v1.sqrt hφ (lo := 98 / 100 * Real.sqrt (1 - c.val ^ 2)) (M := 1001 / 1000) (by positivity)
    (by nlinarith) (by nlinarith [sq_nonneg c.val]) (by norm_num) (by norm_num)
  set s := Real.sqrt (1 - c.val ^ 2)
  have hds : 900 * d ≤ s * s := by nlinarith
  have q' := q.mono (f := 204 / 100 * unit φ / s) (by
    rw [le_div_iff₀ hsp, add_mul, show 201 / 100 * unit φ / (2 * (98 / 100 * s)) * s = 201 / 196 * unit φ by field_simp; ring]
    nlinarith)
  have hws : unit φ / s ≤ s / 900 := by rw [div_le_iff₀ hsp]; linarith
  have hws' : 204 / 100 * unit φ / s = 204 / 100 * (unit φ / s) := by ring
  have hd2 : 6 * d ≤ s / 100 := by nlinarith
  refine ⟨by rw [abs_div, abs_of_pos hsp, div_le_iff₀ hsp]; exact hN, ?_⟩
  have r := sn'.div hφ q' (lo := 97 / 100 * s) (A := 101 / 100 * s) (M := 11 / 10) (by positivity)
    (by rw [abs_of_pos hsp, hws']; linarith) hN (by rw [div_le_iff₀ (by positivity)]; linarith) (by norm_num) (by norm_num)
  refine r.mono ?_
  have e1 : 6 * d / (97 / 100 * s) ≤ 62 / 10 * d / s := by
    rw [div_le_div_iff₀ (by positivity) hsp]
    nlinarith [mul_nonneg hd0 hsp.le]
  have e2 : 101 / 100 * s * (204 / 100 * unit φ / s) / (97 / 100 * s * (97 / 100 * s)) ≤ 22 / 10 * unit φ / s ^ 2 := by
    rw [show 101 / 100 * s * (204 / 100 * unit φ / s) / (97 / 100 * s * (97 / 100 * s)) =
      (101 / 100 * (204 / 100) / (97 / 100 * (97 / 100))) * unit φ / s ^ 2 by field_simp]
    refine div_le_div_of_nonneg_right (mul_le_mul_of_nonneg_right (by norm_num) hw0) (sq_nonneg s)
  linarith
omit hφ hd hwd [Lib φ] in
theorem sabs_val {y : Ieee φ} (h : y.Finite) : (sabs y).Finite ∧ (sabs y).val = |y.val| := by
  obtain ⟨s, m, hm, rfl⟩ := h
  refine ⟨finite_fin _ _ _, ?_⟩
  change m = _
  cases s <;> simp [Ieee.val, signed, abs_of_nonneg hm.1]

/-- the three branches of `slerp` after the choice of the sign -/
noncomputable def branches (threshold : Ieee φ) (p r : Quat (Ieee φ)) (t : Ieee φ) : Quat (Ieee φ) :=
  if sabs (p.dot r) ≥ 1 then p
  else if sabs (fsqrt (1 - p.dot r * p.dot r)) < threshold then p.nlerp r t
  else fromParts
    (p.scalar * (fsin ((1 - t) * facos (p.dot r)) / fsqrt (1 - p.dot r * p.dot r)) +
      r.scalar * (fsin (t * facos (p.dot r)) / fsqrt (1 - p.dot r * p.dot r)))
    (p.vector * (fsin ((1 - t) * facos (p.dot r)) / fsqrt (1 - p.dot r * p.dot r)) +
      r.vector * (fsin (t * facos (p.dot r)) / fsqrt (1 - p.dot r * p.dot r)))

omit hφ hd hwd [Lib φ] in
theorem weight_errors {w s s1 τ : ℝ} (hw0 : 0 ≤ w) (hwd : w ≤ d) (hthd : 1000 * d ≤ τ ^ 2) (h0 : 0 < τ)
    (hs : 97 / 100 * τ ≤ s) (hs' : s ≤ 1) (hs1 : 0 < s1) (h2 : 96 / 100 * s ^ 2 ≤ s1 ^ 2) (h1 : 97 / 100 * s ≤ s1) :
    62 / 10 * d / s1 + 22 / 10 * w / s1 ^ 2 + 11 / 10 * w ≤ 64 / 10 * (d / s) + 23 / 10 * (w / s ^ 2) + 11 / 10 * w ∧
    d / s ≤ 1 / 900 ∧ w / s ^ 2 ≤ 1 / 900 ∧ d ≤ d / s := by
  have hsp : 0 < s := by linarith
  have hd0 : 0 ≤ d := hw0.trans hwd
  have hds : 900 * d ≤ s ^ 2 := by nlinarith
  refine ⟨?_, ?_, ?_, ?_⟩
  · have k1 : 62 / 10 * d / s1 ≤ 64 / 10 * (d / s) := by
      rw [← mul_div_assoc, div_le_div_iff₀ hs1 hsp]
      nlinarith [mul_le_mul_of_nonneg_left h1 hd0]
    have k2 : 22 / 10 * w / s1 ^ 2 ≤ 23 / 10 * (w / s ^ 2) := by
      rw [← mul_div_assoc, div_le_div_iff₀ (by positivity) (by positivity)]
      nlinarith [mul_le_mul_of_nonneg_left h2 hw0]
    linarith
  · rw [div_le_iff₀ hsp]; nlinarith
  · rw [div_le_iff₀ (by positivity)]; linarith
  · rw [le_div_iff₀ hsp]; nlinarith

omit [Lib φ] in
theorem weighted {x y : Ieee φ} {X Y E : ℝ} (hx : Nr x X d) (hX : |X| ≤ 1) (hy : Nr y Y E) (hY : |Y| ≤ 102 / 100)
    (hE : E ≤ 3 / 100) : Nr (x * y) (X * Y) (E + 22 / 10 * d) := by
  have hw0 : 0 ≤ unit φ := unit_nonneg
  have hE0 := hy.nonneg
  have hd0 := hx.nonneg
  exact (hx.mul hφ hy hX hY (M := 11 / 10) (by nlinarith) (by norm_num) (by norm_num)).mono (by nlinarith)

section
variable {p r : Quat (Ieee φ)} {g h k : Quaternion ℝ} (hp : UnitNear d p g) (hr : UnitNear d r h) (hc0 : -(16 * d) ≤ inner ℝ g h)
  {t : Ieee φ} (ht : t.Finite) (h0 : 0 ≤ t.val) (h1 : t.val ≤ 1) (hk : OnArc g h k t.val)
include hp hr hc0 ht h0 h1 hk

omit ht in
theorem branch_same (hb : 1 ≤ |(p.dot r).val|) :
    1 - 16 * d ≤ inner ℝ g h ∧ ∀ i, Nr (p.coords.data i) (cmp k i) (6 * Real.sqrt d) := by
  have hw0 : 0 ≤ unit φ := unit_nonneg
  have hd0 : 0 ≤ d := hw0.trans hwd
  obtain ⟨-, hc⟩ := dot_near_inner hφ hd hwd hp hr
  rw [abs_le] at hc
  have hc1 : 1 - 16 * d ≤ inner ℝ g h := by
    rcases le_abs.mp hb with h | h <;> linarith
  refine ⟨hc1, fun i => ⟨(hp.near i).1, ?_⟩⟩
  have n1 := hk.near hp.unit hr.unit ⟨h0, h1⟩
  have hy := Real.sqrt_nonneg d
  have hy2 := Real.sq_sqrt hd0
  have hy1 : Real.sqrt d ≤ 1 / 1000 := Real.sqrt_le_iff.mpr ⟨by norm_num, by linarith⟩
  have n2 : ‖k - g‖ ≤ 59 / 10 * Real.sqrt d := by
    refine abs_le_of_sq_le_sq' ?_ (by positivity) |>.2
    nlinarith
  have n3 := (cmp_le_norm (k - g) i).trans n2
  rw [cmp_sub] at n3
  have n4 := (hp.near i).2
  have : d ≤ 1 / 10 * Real.sqrt d := by nlinarith
  rw [abs_le] at *
  constructor <;> linarith

variable {th : Ieee φ} (hth : th.Finite) (hth1 : th.val ≤ 1 / 2) (hth0 : 0 < th.val) (hthd : 1000 * d ≤ th.val ^ 2)
include hth1 hth0 hthd

omit hk h0 h1 ht hth1 hth0 hthd hc0 in
theorem sin_angle_sq (hb : |(p.dot r).val| < 1) : Real.sin (angle g h) ^ 2 = 1 - inner ℝ g h ^ 2 ∧
    |Real.sin (angle g h) ^ 2 - (1 - (p.dot r).val ^ 2)| ≤ 33 * d ∧ 0 ≤ Real.sin (angle g h) ∧ |inner ℝ g h| ≤ 1 := by
  have hw0 : 0 ≤ unit φ := unit_nonneg
  have hd0 : 0 ≤ d := hw0.trans hwd
  obtain ⟨-, hc⟩ := dot_near_inner hφ hd hwd hp hr
  have e : Real.sin (angle g h) ^ 2 = 1 - inner ℝ g h ^ 2 := by
    rw [inner_of_unit hp.unit hr.unit]; linarith [Real.sin_sq_add_cos_sq (angle g h)]
  have hi : |inner ℝ g h| ≤ 1 := by rw [inner_of_unit hp.unit hr.unit]; exact Real.abs_cos_le_one _
  refine ⟨e, ?_, Real.sin_nonneg_of_nonneg_of_le_pi (angle_nonneg _ _) (angle_le_pi _ _), hi⟩
  rw [e, show 1 - inner ℝ g h ^ 2 - (1 - (p.dot r).val ^ 2) = ((p.dot r).val - inner ℝ g h) * ((p.dot r).val + inner ℝ g h) by ring, abs_mul]
  have : |(p.dot r).val + inner ℝ g h| ≤ 2 := (abs_add_le _ _).trans (by linarith)
  calc _ ≤ 16 * d * 2 := mul_le_mul hc this (abs_nonneg _) (by linarith)
    _ ≤ _ := by linarith

theorem branch_chord (hb : |(p.dot r).val| < 1) (hs : |(fsqrt (1 - p.dot r * p.dot r)).val| < th.val) :
    Real.sin (angle g h) ≤ 105 / 100 * th.val ∧
    ∀ i, Nr ((p.nlerp r t).coords.data i) (cmp k i) (300 * d + th.val ^ 3 / 2) := by
  have hw0 : 0 ≤ unit φ := unit_nonneg
  have hd0 : 0 ≤ d := hw0.trans hwd
  have hcf := (dot_near_inner hφ hd hwd hp hr).1
  obtain ⟨e1, e2, e3, e4⟩ := sin_angle_sq hφ hd hwd hp hr hb
  obtain ⟨v1, v2⟩ := one_sub_sq hφ hcf hb
  have hv := (abs_le.mp v1.2)
  have hq := sqrt_plain hφ (M := 1001 / 1000) v1.1 v2 (by linarith [sq_nonneg (p.dot r).val]) (by norm_num) (by norm_num)
  have hwt : unit φ ≤ th.val ^ 2 / 1000 := by linarith
  have hwt' : unit φ ≤ th.val / 2000 := by nlinarith
  have hv2 : (1 - p.dot r * p.dot r).val ≤ (1001 / 1000 * th.val) ^ 2 := by
    have h3 := (abs_le.mp hq.2).1
    have h4 := (abs_lt.mp hs).2
    have h5 : Real.sqrt (1 - p.dot r * p.dot r).val ≤ 1001 / 1000 * th.val := by linarith
    have h6 := Real.sq_sqrt v2
    rw [← h6]
    exact pow_le_pow_left₀ (Real.sqrt_nonneg _) h5 2
  have hs2 : Real.sin (angle g h) ≤ 105 / 100 * th.val := by
    refine abs_le_of_sq_le_sq' ?_ (by positivity) |>.2
    have := (abs_le.mp e2).2
    nlinarith
  refine ⟨hs2, fun i => ?_⟩
  have hin : 0 ≤ inner ℝ g h := by
    by_contra hneg
    push Not at hneg
    have : inner ℝ g h ^ 2 ≤ 1 / 4 := by nlinarith
    have : Real.sin (angle g h) ^ 2 ≤ (105 / 100 * (1 / 2)) ^ 2 := pow_le_pow_left₀ e3 (by linarith) 2
    linarith
  obtain ⟨c1, c2⟩ := hk.chord hp.unit hr.unit ⟨h0, h1⟩ hin
  have hhalf : 1 / 2 ≤ ‖(1 - t.val) • g + t.val • h‖ := by
    refine abs_le_of_sq_le_sq' ?_ (_root_.norm_nonneg _) |>.2
    linarith
  have hn := nlerp_near hφ hd hwd hp hr ht h0 h1 hhalf i
  refine ⟨hn.1, ?_⟩
  have a0 := angle_nonneg g h
  have ha : angle g h ≤ 166 / 100 * th.val := by
    have hp2 : angle g h ≤ Real.pi / 2 := by
      rw [angle_of_unit hp.unit hr.unit]; exact Real.arccos_le_pi_div_two.mpr hin
    have h3 := (Real.mul_le_sin a0 hp2).trans hs2
    have h4 : 2 / (315 / 100) ≤ 2 / Real.pi := by
      have := Real.pi_lt_d2
      exact div_le_div_of_nonneg_left (by norm_num) Real.pi_pos (by linarith)
    have h5 := mul_le_mul_of_nonneg_right h4 a0
    norm_num at h5
    linarith
  have ha3 : angle g h ^ 3 ≤ (166 / 100 * th.val) ^ 3 := pow_le_pow_left₀ a0 ha 3
  have t3 : 0 ≤ th.val ^ 3 := by positivity
  have n3 := (cmp_le_norm (‖(1 - t.val) • g + t.val • h‖⁻¹ • ((1 - t.val) • g + t.val • h) - k) i).trans c2
  rw [cmp_sub] at n3
  have n4 := hn.2
  rw [abs_le] at *
  constructor <;> nlinarith

set_option maxHeartbeats 1000000 in
theorem branch_arc {a : ℝ} (ha : SineWithin φ a) (had : a ≤ d) (hb : |(p.dot r).val| < 1)
    (hs : th.val ≤ |(fsqrt (1 - p.dot r * p.dot r)).val|) :
    97 / 100 * th.val ≤ Real.sin (angle g h) ∧
    ∀ i, Nr ((fromParts
    (p.scalar * (fsin ((1 - t) * facos (p.dot r)) / fsqrt (1 - p.dot r * p.dot r)) +
      r.scalar * (fsin (t * facos (p.dot r)) / fsqrt (1 - p.dot r * p.dot r)))
    (p.vector * (fsin ((1 - t) * facos (p.dot r)) / fsqrt (1 - p.dot r * p.dot r)) +
      r.vector * (fsin (t * facos (p.dot r)) / fsqrt (1 - p.dot r * p.dot r)))).coords.data i) (cmp k i)
      (54 * d / Real.sin (angle g h) + 5 * unit φ / Real.sin (angle g h) ^ 2) := by
  have hw0 : 0 ≤ unit φ := unit_nonneg
  have hd0 : 0 ≤ d := hw0.trans hwd
  have hcn := dot_near_inner hφ hd hwd hp hr
  have hcf := hcn.1
  obtain ⟨e1, e2, e3, e4⟩ := sin_angle_sq hφ hd hwd hp hr hb
  obtain ⟨v1, v2⟩ := one_sub_sq hφ hcf hb
  have hv := (abs_le.mp v1.2)
  have hq := sqrt_plain hφ (M := 1001 / 1000) v1.1 v2 (by linarith [sq_nonneg (p.dot r).val]) (by norm_num) (by norm_num)
  have hwt : unit φ ≤ th.val ^ 2 / 1000 := by linarith
  have hwt' : unit φ ≤ th.val / 2000 := by nlinarith
  have hb' := abs_lt.mp hb
  have hv2 : (999 / 1000 * th.val) ^ 2 ≤ (1 - p.dot r * p.dot r).val := by
    have h3 := (abs_le.mp hq.2)
    have h0 := Real.sqrt_nonneg (1 - p.dot r * p.dot r).val
    have h5 : 999 / 1000 * th.val ≤ Real.sqrt (1 - p.dot r * p.dot r).val := by
      rcases le_abs.mp hs with h | h <;> linarith
    have h6 := Real.sq_sqrt v2
    rw [← h6]
    exact pow_le_pow_left₀ (by positivity) h5 2
  have hv3 : 99 / 100 * th.val ^ 2 ≤ 1 - (p.dot r).val ^ 2 := by nlinarith
  have hlow : -(1 / 1000) ≤ (p.dot r).val := by linarith [(abs_le.mp hcn.2).1]
  have ht1 : |t.val| ≤ 1 := by rw [abs_of_nonneg h0]; exact h1
  have ht2 : |1 - t.val| ≤ 1 := by rw [abs_of_nonneg (by linarith)]; linarith
  have tn : Nr (1 - t) (1 - t.val) (unit φ) := by
    have := Nr.one.sub hφ (Nr.exact ht) (M := 1) (by simpa using ht2) le_rfl (by norm_num)
    exact this.mono (by linarith)
  obtain ⟨wa0, wa⟩ := weight_near hφ hd hwd ha had hcf hb hlow (by linarith) tn ⟨by linarith, by linarith⟩
  obtain ⟨wb0, wb⟩ := weight_near hφ hd hwd ha had hcf hb hlow (by linarith) ((Nr.exact ht).mono hw0) ⟨h0, h1⟩
  -- the sine of the angle between the exact quaternions
  have hss : Real.sin (Real.arccos (p.dot r).val) ^ 2 = 1 - (p.dot r).val ^ 2 := by
    rw [Real.sin_arccos]; exact Real.sq_sqrt (by nlinarith)
  have he2 := abs_le.mp e2
  have hs1 : 97 / 100 * th.val ≤ Real.sin (angle g h) := by
    refine abs_le_of_sq_le_sq' ?_ e3 |>.2
    nlinarith
  refine ⟨hs1, ?_⟩
  have hsp : 0 < Real.sin (angle g h) := by linarith
  have hsle : Real.sin (angle g h) ≤ 1 := Real.sin_le_one _
  have hs1p : 0 < Real.sin (Real.arccos (p.dot r).val) := by
    rw [Real.sin_arccos]; exact Real.sqrt_pos.mpr (by nlinarith)
  have hcmp : 96 / 100 * Real.sin (angle g h) ^ 2 ≤ Real.sin (Real.arccos (p.dot r).val) ^ 2 := by
    rw [hss]; linarith
  have hcmp1 : 97 / 100 * Real.sin (angle g h) ≤ Real.sin (Real.arccos (p.dot r).val) := by
    refine abs_le_of_sq_le_sq' ?_ hs1p.le |>.2
    rw [mul_pow]
    linarith [sq_nonneg (Real.sin (angle g h))]
  -- the angles
  have ang := angle_of_unit hp.unit hr.unit
  have hθ2 : angle g h ≤ 8 / 5 := by rw [ang]; exact arccos_le (by linarith)
  have hθ20 : 0 < angle g h := by
    rcases (angle_nonneg g h).eq_or_lt with h | h
    · rw [← h, Real.sin_zero] at hsp; exact absurd hsp (lt_irrefl _)
    · exact h
  have hθ1 := arccos_le hlow
  have hθ10 : 0 < Real.arccos (p.dot r).val := Real.arccos_pos.mpr hb'.2
  have hcos : |Real.cos (Real.arccos (p.dot r).val) - Real.cos (angle g h)| ≤ 16 * d := by
    rw [Real.cos_arccos hb'.1.le hb'.2.le, ← inner_of_unit hp.unit hr.unit]; exact hcn.2
  have la := (weight_lipschitz (t := 1 - t.val) ⟨by linarith, by linarith⟩ hθ10 hθ1 hθ20 hθ2).trans hcos
  have lb := (weight_lipschitz (t := t.val) ⟨h0, h1⟩ hθ10 hθ1 hθ20 hθ2).trans hcos
  have ke := hk.eq hp.unit hr.unit hsp.ne'
  set s := Real.sin (angle g h)
  set s1 := Real.sin (Real.arccos (p.dot r).val)
  obtain ⟨hE, hds, hws, hds0⟩ := weight_errors hw0 hwd hthd hth0 hs1 hsle hs1p hcmp hcmp1
  have hws0 : 0 ≤ unit φ / s ^ 2 := by positivity
  have wt : ∀ {x : Ieee φ} {X Y : ℝ}, |X| ≤ 101 / 100 →
      Nr x X (62 / 10 * d / s1 + 22 / 10 * unit φ / s1 ^ 2 + 11 / 10 * unit φ) → |X - Y| ≤ 16 * d →
      Nr x Y (64 / 10 * (d / s) + 23 / 10 * (unit φ / s ^ 2) + 11 / 10 * unit φ + 16 * d) ∧ |Y| ≤ 102 / 100 := by
    intro x X Y hX hx hXY
    have h3 := hx.2.trans hE
    refine ⟨⟨hx.1, ?_⟩, ?_⟩
    · rw [abs_le] at *
      constructor <;> linarith
    · rw [abs_le] at *
      constructor <;> linarith
  obtain ⟨xa, ya⟩ := wt wa0 wa la
  obtain ⟨xb, yb⟩ := wt wb0 wb lb
  intro i
  set E := 64 / 10 * (d / s) + 23 / 10 * (unit φ / s ^ 2) + 11 / 10 * unit φ + 16 * d with hEdef
  have hE1 : E ≤ 3 / 100 := by linarith
  have m1' := weighted hφ hd hwd (hp.near i) (hp.le_one i) xa ya hE1
  have m2' := weighted hφ hd hwd (hr.near i) (hr.le_one i) xb yb hE1
  have kb : ∀ j, |cmp k j| ≤ 1 := fun j => by rw [← hk.1]; exact cmp_le_norm k j
  have ki : cmp g i * (Real.sin ((1 - t.val) * angle g h) / s) + cmp h i * (Real.sin (t.val * angle g h) / s) = cmp k i := by
    rw [ke, cmp_add, cmp_smul, cmp_smul]; ring
  have m3 := m1'.add hφ m2' (M := 11 / 10) (by rw [ki]; linarith [kb i]) (by norm_num) (by norm_num)
  rw [ki] at m3
  have m4 := m3.mono (f := 54 * d / s + 5 * unit φ / s ^ 2) (by
    rw [mul_div_assoc, mul_div_assoc, hEdef]; linarith)
  have e5 : (fromParts
      (p.scalar * (fsin ((1 - t) * facos (p.dot r)) / fsqrt (1 - p.dot r * p.dot r)) +
        r.scalar * (fsin (t * facos (p.dot r)) / fsqrt (1 - p.dot r * p.dot r)))
      (p.vector * (fsin ((1 - t) * facos (p.dot r)) / fsqrt (1 - p.dot r * p.dot r)) +
        r.vector * (fsin (t * facos (p.dot r)) / fsqrt (1 - p.dot r * p.dot r)))).coords.data i =
      p.coords.data i * (fsin ((1 - t) * facos (p.dot r)) / fsqrt (1 - p.dot r * p.dot r)) +
      r.coords.data i * (fsin (t * facos (p.dot r)) / fsqrt (1 - p.dot r * p.dot r)) := by
    fin_cases i <;> rfl
  rw [e5]
  exact m4

end

end

end Cgl
