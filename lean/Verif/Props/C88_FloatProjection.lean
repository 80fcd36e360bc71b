import Verif.Lemmas.Relative64
import Verif.Props.C31_Orthographic
import Verif.Props.C69_SpecialValues

/-! # C88 - projections in `f64`

The projection matrices of C31 and C32 computed in IEEE `f64`: every entry is finite and has a relative error of a few
units of `2 ^ -53`, projected points are correspondingly close to the exact ones, and points of the view box land in the
canonical cube up to `2 ^ -48`.  The accessors that recompute a parameter from the matrix return NaN for a view volume
with `left = 0`, `bottom = 0` or `near = 0`. -/

namespace Cgl
open Ieee FloatFns Mat

namespace Spec

/-- The orthographic projection matrix, columns first. -/
noncomputable def orthographic (l r b t n f : ℝ) : Fin 4 → Fin 4 → ℝ :=
  ![![2 / (r + l), 0, 0, 0],
    ![0, 2 / (t + b), 0, 0],
    ![0, 0, -2 / (f - n), 0],
    ![-(r - l) / (r + l), -(t - b) / (t + b), -(f + n) / (f - n), 1]]

/-- The perspective projection matrix, columns first. -/
noncomputable def perspective (l r b t n f : ℝ) : Fin 4 → Fin 4 → ℝ :=
  ![![2 * n / (r + l), 0, 0, 0],
    ![0, 2 * n / (t + b), 0, 0],
    ![(r - l) / (r + l), (t - b) / (t + b), -(f + n) / (f - n), -1],
    ![0, 0, -(2 * f * n) / (f - n), 0]]

/-- The perspective projection matrix for half the height of the image plane `tan` at distance one, columns first. -/
noncomputable def perspectiveFov (tan aspect n f : ℝ) : Fin 4 → Fin 4 → ℝ :=
  ![![1 / (tan * aspect), 0, 0, 0],
    ![0, 1 / tan, 0, 0],
    ![0, 0, -(f + n) / (f - n), -1],
    ![0, 0, -(2 * f * n) / (f - n), 0]]

/-- a finite number of absolute value at most `2 ^ e` -/
def Moderate (e : ℤ) (x : Ieee f64) : Prop := x.Finite ∧ |x.val| ≤ 2 ^ e

/-- a number whose absolute value is at least `2 ^ -e` -/
def NotTiny (e : ℤ) (x : ℝ) : Prop := (2 : ℝ) ^ (-e) ≤ |x|

/-- `x` is a finite number within `k * 2 ^ -53`, relatively, of `a` -/
def Relative64 (k : ℝ) (x : Ieee f64) (a : ℝ) : Prop := x.Finite ∧ |x.val - a| ≤ k * 2 ^ (-53 : ℤ) * |a|

/-- the real point with the coordinates of `p` -/
noncomputable def realPoint (p : Pt (Ieee f64) 3) : Pt ℝ 3 := ⟨p.coords.map Ieee.val⟩

end Spec
open Spec

/-! ### helpers -/

theorem is_two64 : Is ((1 : Ieee f64) + 1) 2 := Is.one.add Is.one (fl64 1 4503599627370496) (by norm_num)
theorem rl_two : Rl 0 ((1 : Ieee f64) + 1) 2 := by
  have := Rl.exact is_two64.1; rwa [is_two64.2] at this
theorem rl_one : Rl 0 (1 : Ieee f64) 1 := Rl.exact finite_one
theorem rl_zero : Rl 0 (0 : Ieee f64) 0 := Rl.exact finite_zero

theorem Rl.relative {k : ℕ} {x : Ieee f64} {a c : ℝ} (h : Rl k x a) (hk : k ≤ 64) (hc : (k : ℝ) + 1 ≤ c) : Relative64 c x a :=
  ⟨h.1, (h.err hk).trans (by gcongr)⟩

theorem Rl.quot {j k : ℕ} {x y : Ieee f64} {a b : ℝ} (hx : Rl j x a) (hy : Rl k y b) (hjk : j + k ≤ 2 ^ 50)
    (ha : a = 0 ∨ (2 : ℝ) ^ (-650 : ℤ) ≤ |a|) (ha' : |a| ≤ 2 ^ (650 : ℤ)) (hb : (2 : ℝ) ^ (-320 : ℤ) ≤ |b|) (hb' : |b| ≤ 2 ^ (320 : ℤ)) :
    Rl (j + k + 1) (x / y) (a / b) := by
  have hb0 : 0 < |b| := lt_of_lt_of_le (by positivity) hb
  refine Rl.div hx hy hjk (abs_pos.mp hb0) (ha.imp (fun h => by rw [h, zero_div]) fun h => ?_) ?_
  · rw [abs_div, le_div_iff₀ hb0]
    calc (2 : ℝ) ^ (-1000 : ℤ) * |b| ≤ 2 ^ (-1000 : ℤ) * 2 ^ (320 : ℤ) := by gcongr
      _ = 2 ^ (-680 : ℤ) := by rw [← zpow_add₀ two_ne_zero]; norm_num
      _ ≤ 2 ^ (-650 : ℤ) := two_zpow_le_self_of_le (by norm_num)
      _ ≤ _ := h
  · rw [abs_div, div_le_iff₀ hb0]
    calc |a| ≤ 2 ^ (650 : ℤ) := ha'
      _ ≤ 2 ^ (680 : ℤ) := two_zpow_le_self_of_le (by norm_num)
      _ = 2 ^ (1000 : ℤ) * 2 ^ (-320 : ℤ) := by rw [← zpow_add₀ two_ne_zero]; norm_num
      _ ≤ _ := by gcongr

theorem Rl.prod {j k : ℕ} {x y : Ieee f64} {a b : ℝ} (hx : Rl j x a) (hy : Rl k y b) (hjk : j + k ≤ 2 ^ 50)
    (ha : a = 0 ∨ (2 : ℝ) ^ (-650 : ℤ) ≤ |a|) (ha' : |a| ≤ 2 ^ (650 : ℤ)) (hb : (2 : ℝ) ^ (-320 : ℤ) ≤ |b|) (hb' : |b| ≤ 2 ^ (320 : ℤ)) :
    Rl (j + k + 1) (x * y) (a * b) := by
  refine Rl.mul hx hy hjk (ha.imp (fun h => by rw [h, zero_mul]) fun h => ?_) ?_
  · rw [abs_mul]
    calc (2 : ℝ) ^ (-1000 : ℤ) ≤ 2 ^ (-970 : ℤ) := two_zpow_le_self_of_le (by norm_num)
      _ = 2 ^ (-650 : ℤ) * 2 ^ (-320 : ℤ) := by rw [← zpow_add₀ two_ne_zero]; norm_num
      _ ≤ _ := by gcongr
  · rw [abs_mul]
    calc |a| * |b| ≤ 2 ^ (650 : ℤ) * 2 ^ (320 : ℤ) := by gcongr
      _ = 2 ^ (970 : ℤ) := by rw [← zpow_add₀ two_ne_zero]; norm_num
      _ ≤ _ := two_zpow_le_self_of_le (by norm_num)

section
variable {l r b t n f : Ieee f64}

theorem moderate_neg {x : Ieee f64} (h : Moderate 300 x) : Moderate 300 (-x) := by
  obtain ⟨⟨s, m, hm, rfl⟩, h2⟩ := h
  exact ⟨finite_fin _ _ _, by rw [val_neg, abs_neg]; exact h2⟩

theorem moderate_add_le (hl : Moderate 300 l) (hr : Moderate 300 r) : |r.val + l.val| ≤ 2 ^ (301 : ℤ) :=
  (abs_add_le _ _).trans ((add_le_add hr.2 hl.2).trans (le_of_eq (by rw [← two_mul, zpow_two_mul]; norm_num)))

theorem le301 {a : ℝ} (h : |a| ≤ 2 ^ (301 : ℤ)) {k : ℤ} (hk : 301 ≤ k := by norm_num) : |a| ≤ 2 ^ k :=
  h.trans (two_zpow_le_self_of_le hk)
theorem ge300 {a : ℝ} (h : NotTiny 300 a) {k : ℤ} (hk : k ≤ -300 := by norm_num) : (2 : ℝ) ^ k ≤ |a| :=
  (two_zpow_le_self_of_le hk).trans h

/-- the width `r - (-l)` -/
theorem rl_width (hl : Moderate 300 l) (hr : Moderate 300 r) : Rl 1 (r - (-l)) (r.val + l.val) := by
  have := Rl.sub (x := r) (y := -l) hr.1 (moderate_neg hl).1 (by
    rw [val_neg, sub_neg_eq_add]; exact le301 (moderate_add_le hl hr))
  rwa [val_neg, sub_neg_eq_add] at this

/-- the offset `r + (-l)` -/
theorem rl_offset (hl : Moderate 300 l) (hr : Moderate 300 r) : Rl 1 (r + (-l)) (r.val - l.val) := by
  have := Rl.add (x := r) (y := -l) hr.1 (moderate_neg hl).1 (by
    have := moderate_add_le (moderate_neg hl) hr
    exact le301 this)
  rwa [val_neg, ← sub_eq_add_neg] at this

theorem moderate_sub_le (hl : Moderate 300 l) (hr : Moderate 300 r) : |r.val - l.val| ≤ 2 ^ (301 : ℤ) := by
  have := moderate_add_le (moderate_neg hl) hr
  rwa [val_neg, ← sub_eq_add_neg] at this

theorem offset_lo (hw : NotTiny 300 (r.val + l.val)) :
    r.val - l.val = 0 ∨ (2 : ℝ) ^ (-650 : ℤ) ≤ |r.val - l.val| := by
  by_cases h : r.val - l.val = 0
  · exact Or.inl h
  · exact Or.inr ((two_zpow_le_self_of_le (by norm_num)).trans (sub_ge_of_add_ge (val_rep r) (val_rep l) hw h))

theorem sum_lo (hw : NotTiny 300 (f.val - n.val)) :
    f.val + n.val = 0 ∨ (2 : ℝ) ^ (-650 : ℤ) ≤ |f.val + n.val| := by
  have := offset_lo (r := f) (l := -n) (by rw [val_neg, ← sub_eq_add_neg]; exact hw)
  rwa [val_neg, sub_neg_eq_add] at this

theorem neg_lo {a : ℝ} (h : a = 0 ∨ (2 : ℝ) ^ (-650 : ℤ) ≤ |a|) : -a = 0 ∨ (2 : ℝ) ^ (-650 : ℤ) ≤ |-a| := by
  rw [neg_eq_zero, abs_neg]; exact h

theorem lo_of_ge {a : ℝ} {k : ℤ} (h : (2 : ℝ) ^ k ≤ |a|) (hk : -650 ≤ k := by norm_num) : a = 0 ∨ (2 : ℝ) ^ (-650 : ℤ) ≤ |a| :=
  Or.inr ((two_zpow_le_self_of_le hk).trans h)

theorem two_ge : (2 : ℝ) ^ (0 : ℤ) ≤ |(2 : ℝ)| := by norm_num
theorem two_le301 : |(2 : ℝ)| ≤ 2 ^ (301 : ℤ) := by
  rw [abs_two]
  calc (2 : ℝ) = 2 ^ (1 : ℤ) := by norm_num
    _ ≤ _ := two_zpow_le_self_of_le (by norm_num)

/-- the entry `2 / (r - (-l))` -/
theorem rl_scale (hl : Moderate 300 l) (hr : Moderate 300 r) (hw : NotTiny 300 (r.val + l.val)) :
    Rl 2 ((1 + 1) / (r - (-l))) (2 / (r.val + l.val)) :=
  Rl.quot rl_two (rl_width hl hr) (by norm_num) (lo_of_ge two_ge) (le301 two_le301) (ge300 hw) (le301 (moderate_add_le hl hr))

/-- the entry `(r + (-l)) / (r - (-l))` -/
theorem rl_shift (hl : Moderate 300 l) (hr : Moderate 300 r) (hw : NotTiny 300 (r.val + l.val)) :
    Rl 3 ((r + (-l)) / (r - (-l))) ((r.val - l.val) / (r.val + l.val)) :=
  Rl.quot (rl_offset hl hr) (rl_width hl hr) (by norm_num) (offset_lo hw) (le301 (moderate_sub_le hl hr)) (ge300 hw)
    (le301 (moderate_add_le hl hr))

theorem rl_shift_neg (hl : Moderate 300 l) (hr : Moderate 300 r) (hw : NotTiny 300 (r.val + l.val)) :
    Rl 3 (-(r + (-l)) / (r - (-l))) (-(r.val - l.val) / (r.val + l.val)) :=
  Rl.quot (rl_offset hl hr).neg (rl_width hl hr) (by norm_num) (neg_lo (offset_lo hw))
    (by rw [abs_neg]; exact le301 (moderate_sub_le hl hr)) (ge300 hw) (le301 (moderate_add_le hl hr))

theorem rl_depth (hn : Moderate 300 n) (hf : Moderate 300 f) (hw : NotTiny 300 (f.val - n.val)) :
    Rl 3 (-(f + n) / (f - n)) (-(f.val + n.val) / (f.val - n.val)) := by
  have h1 := Rl.add (x := f) (y := n) hf.1 hn.1 (le301 (moderate_add_le hn hf))
  have h2 := Rl.sub (x := f) (y := n) hf.1 hn.1 (le301 (moderate_sub_le hn hf))
  exact Rl.quot h1.neg h2 (by norm_num) (neg_lo (sum_lo hw))
    (by rw [abs_neg]; exact le301 (moderate_add_le hn hf)) (ge300 hw) (le301 (moderate_sub_le hn hf))

theorem rl_depth_scale (hn : Moderate 300 n) (hf : Moderate 300 f) (hw : NotTiny 300 (f.val - n.val)) :
    Rl 2 (-(1 + 1) / (f - n)) (-2 / (f.val - n.val)) :=
  Rl.quot rl_two.neg (Rl.sub (x := f) (y := n) hf.1 hn.1 (le301 (moderate_sub_le hn hf))) (by norm_num)
    (neg_lo (lo_of_ge two_ge)) (by rw [abs_neg]; exact le301 two_le301) (ge300 hw) (le301 (moderate_sub_le hn hf))

theorem two_n_le (hn : Moderate 300 n) : |2 * n.val| ≤ 2 ^ (301 : ℤ) := by
  rw [abs_mul, abs_two]
  calc 2 * |n.val| ≤ 2 * 2 ^ (300 : ℤ) := by linarith [hn.2]
    _ = _ := by rw [zpow_two_mul]; norm_num

theorem two_n_ge (hn : NotTiny 300 n.val) : (2 : ℝ) ^ (-300 : ℤ) ≤ |2 * n.val| := by
  rw [abs_mul, abs_two]
  have := abs_nonneg n.val
  have h : (2 : ℝ) ^ (-300 : ℤ) ≤ |n.val| := hn
  linarith

theorem rl_two_mul (hn : Moderate 300 n) (hn' : NotTiny 300 n.val) : Rl 1 ((1 + 1) * n) (2 * n.val) :=
  Rl.prod rl_two (Rl.exact hn.1) (by norm_num) (lo_of_ge two_ge) (le301 two_le301) (ge300 hn')
    (hn.2.trans (two_zpow_le_self_of_le (by norm_num)))

/-- the entry `2 * n / (r - (-l))` -/
theorem rl_perspective_scale (hl : Moderate 300 l) (hr : Moderate 300 r) (hw : NotTiny 300 (r.val + l.val)) (hn : Moderate 300 n)
    (hn' : NotTiny 300 n.val) : Rl 3 ((1 + 1) * n / (r - (-l))) (2 * n.val / (r.val + l.val)) :=
  Rl.quot (rl_two_mul hn hn') (rl_width hl hr) (by norm_num) (lo_of_ge (two_n_ge hn')) (le301 (two_n_le hn)) (ge300 hw)
    (le301 (moderate_add_le hl hr))

theorem rl_perspective_depth (hn : Moderate 300 n) (hn' : NotTiny 300 n.val) (hf : Moderate 300 f) (hf' : NotTiny 300 f.val)
    (hw : NotTiny 300 (f.val - n.val)) :
    Rl 4 (-((1 + 1) * f * n) / (f - n)) (-(2 * f.val * n.val) / (f.val - n.val)) := by
  have h2 := Rl.sub (x := f) (y := n) hf.1 hn.1 (le301 (moderate_sub_le hn hf))
  have h3 : Rl 2 ((1 + 1) * f * n) (2 * f.val * n.val) :=
    Rl.prod (rl_two_mul hf hf') (Rl.exact hn.1) (by norm_num) (lo_of_ge (two_n_ge hf')) (le301 (two_n_le hf)) (ge300 hn')
      (hn.2.trans (two_zpow_le_self_of_le (by norm_num)))
  refine Rl.quot h3.neg h2 (by norm_num) (neg_lo (Or.inr ?_)) ?_ (ge300 hw) (le301 (moderate_sub_le hn hf))
  · rw [abs_mul]
    calc (2 : ℝ) ^ (-650 : ℤ) ≤ 2 ^ (-300 + -300 : ℤ) := two_zpow_le_self_of_le (by norm_num)
      _ = 2 ^ (-300 : ℤ) * 2 ^ (-300 : ℤ) := zpow_add₀ two_ne_zero _ _
      _ ≤ _ := mul_le_mul (two_n_ge hf') hn' (by positivity) (abs_nonneg _)
  · rw [abs_neg, abs_mul]
    calc |2 * f.val| * |n.val| ≤ 2 ^ (301 : ℤ) * 2 ^ (300 : ℤ) := mul_le_mul (two_n_le hf) hn.2 (abs_nonneg _) (by positivity)
      _ = 2 ^ (601 : ℤ) := by rw [← zpow_add₀ two_ne_zero]; norm_num
      _ ≤ _ := two_zpow_le_self_of_le (by norm_num)
end

/-! ### the matrices -/

/-- Every entry of the orthographic projection matrix computed in `f64` is finite and within `4 * 2 ^ -53` of the exact
one, relatively: there is no absolute error, and the entries that should be zero or one are. -/
theorem C88_orthographic_matrix (l r b t n f : Ieee f64) (hl : Moderate 300 l) (hr : Moderate 300 r) (hb : Moderate 300 b) (ht : Moderate 300 t)
    (hn : Moderate 300 n) (hf : Moderate 300 f) (hx : NotTiny 300 (r.val + l.val)) (hy : NotTiny 300 (t.val + b.val)) (hz : NotTiny 300 (f.val - n.val))
    (c i : Fin 4) :
    Relative64 4 ((fromOrthographic l r b t n f).data c i) (orthographic l.val r.val b.val t.val n.val f.val c i) := by
  have h0 := rl_zero.relative (c := 4) (by norm_num) (by norm_num)
  have h1 := rl_one.relative (c := 4) (by norm_num) (by norm_num)
  have s1 := (rl_scale hl hr hx).relative (c := 4) (by norm_num) (by norm_num)
  have s2 := (rl_scale hb ht hy).relative (c := 4) (by norm_num) (by norm_num)
  have s3 := (rl_depth_scale hn hf hz).relative (c := 4) (by norm_num) (by norm_num)
  have o1 := (rl_shift_neg hl hr hx).relative (c := 4) (by norm_num) (by norm_num)
  have o2 := (rl_shift_neg hb ht hy).relative (c := 4) (by norm_num) (by norm_num)
  have o3 := (rl_depth hn hf hz).relative (c := 4) (by norm_num) (by norm_num)
  fin_cases c <;> fin_cases i <;> assumption

/-- The same for the perspective projection matrix, with `5 * 2 ^ -53`. -/
theorem C88_perspective_matrix (l r b t n f : Ieee f64) (hl : Moderate 300 l) (hr : Moderate 300 r) (hb : Moderate 300 b) (ht : Moderate 300 t)
    (hn : Moderate 300 n) (hf : Moderate 300 f) (hx : NotTiny 300 (r.val + l.val)) (hy : NotTiny 300 (t.val + b.val)) (hz : NotTiny 300 (f.val - n.val))
    (hn' : NotTiny 300 n.val) (hf' : NotTiny 300 f.val) (c i : Fin 4) :
    Relative64 5 ((fromPerspective l r b t n f).data c i) (perspective l.val r.val b.val t.val n.val f.val c i) := by
  have h0 := rl_zero.relative (c := 5) (by norm_num) (by norm_num)
  have h1 := rl_one.neg.relative (c := 5) (by norm_num) (by norm_num)
  have s1 := (rl_perspective_scale hl hr hx hn hn').relative (c := 5) (by norm_num) (by norm_num)
  have s2 := (rl_perspective_scale hb ht hy hn hn').relative (c := 5) (by norm_num) (by norm_num)
  have s3 := (rl_perspective_depth hn hn' hf hf' hz).relative (c := 5) (by norm_num) (by norm_num)
  have o1 := (rl_shift hl hr hx).relative (c := 5) (by norm_num) (by norm_num)
  have o2 := (rl_shift hb ht hy).relative (c := 5) (by norm_num) (by norm_num)
  have o3 := (rl_depth hn hf hz).relative (c := 5) (by norm_num) (by norm_num)
  fin_cases c <;> fin_cases i <;> assumption

/-! ### the field of view -/

theorem rd_pow_mul (k : ℕ) : rd ^ k * (1 + k * 2 ^ (-53 : ℤ)) ≤ 1 := by
  have h1 : 1 + (k : ℝ) * 2 ^ (-53 : ℤ) ≤ (1 + 2 ^ (-53 : ℤ)) ^ k := one_add_mul_le_pow (by norm_num) k
  calc rd ^ k * (1 + k * 2 ^ (-53 : ℤ)) ≤ rd ^ k * (1 + 2 ^ (-53 : ℤ)) ^ k :=
        mul_le_mul_of_nonneg_left h1 (pow_nonneg rd_pos.le _)
    _ = (rd * (1 + 2 ^ (-53 : ℤ))) ^ k := by rw [mul_pow]
    _ ≤ 1 := pow_le_one₀ (mul_nonneg rd_pos.le (by positivity)) (by unfold rd; norm_num)

/-- a number known to a relative error counts as one more rounding -/
theorem rl_of_relative {j : ℕ} {x : Ieee f64} {a : ℝ} (hj : j ≤ 32) (h : Relative64 j x a) : Rl (j + 1) x a := by
  by_cases h0 : a = 0
  · refine ⟨h.1, 1, ?_, pow_le_one₀ rd_pos.le rd_le, by rw [one_mul]; exact pow_le_one₀ rd_pos.le rd_le⟩
    have := h.2
    rw [h0, sub_zero, abs_zero, mul_zero] at this
    rw [h0, zero_mul]; exact abs_nonpos_iff.mp this
  refine ⟨h.1, x.val / a, by field_simp, ?_, ?_⟩
  all_goals
    have hb : |x.val / a - 1| ≤ j * 2 ^ (-53 : ℤ) := by
      rw [show x.val / a - 1 = (x.val - a) / a by field_simp, abs_div, div_le_iff₀ (abs_pos.mpr h0)]
      exact h.2
    have hb' := abs_le.mp hb
    have hm := rd_pow_mul (j + 1)
    have hp := pow_pos rd_pos (j + 1)
    have hu0 : (0 : ℝ) < (2 : ℝ) ^ (-53 : ℤ) := by positivity
    have hu1 : 5000 * (2 : ℝ) ^ (-53 : ℤ) ≤ 1 := by norm_num
    have hj' : (j : ℝ) ≤ 32 := by exact_mod_cast hj
    have hj0 : (0 : ℝ) ≤ j := Nat.cast_nonneg j
    push_cast at hm
    generalize (2 : ℝ) ^ (-53 : ℤ) = u at *
  · have h1 : 1 - j * u ≤ x.val / a := by linarith [hb'.1]
    refine le_trans ?_ h1
    have hkk : (j : ℝ) * (j + 1) ≤ 32 * 33 := mul_le_mul hj' (by linarith) (by linarith) (by norm_num)
    have h2 : (j : ℝ) * (j + 1) * u ≤ 1 := by
      have := mul_le_mul_of_nonneg_right hkk hu0.le
      linarith
    have h3 : 1 ≤ (1 - j * u) * (1 + (j + 1) * u) := by nlinarith
    have h4 : 0 < 1 + ((j : ℝ) + 1) * u := by positivity
    exact le_of_mul_le_mul_right (hm.trans h3) h4
  · have h1 : x.val / a ≤ 1 + (j + 1) * u := by linarith [hb'.2]
    calc x.val / a * rd ^ (j + 1) ≤ (1 + (j + 1) * u) * rd ^ (j + 1) := mul_le_mul_of_nonneg_right h1 hp.le
      _ ≤ 1 := by linarith [mul_comm (rd ^ (j + 1)) (1 + ((j : ℝ) + 1) * u)]

theorem Rl.double {k : ℕ} {x : Ieee f64} {a : ℝ} (h : Rl k x a) (hk : k ≤ 2 ^ 50) (ha : |a| ≤ 2 ^ (1000 : ℤ)) :
    Rl (k + 1) (x + x) (a + a) := by
  have hb := (h.bounds hk).2
  obtain ⟨hf, s, hv, h1, h2⟩ := h
  have hle : |x.val + x.val| ≤ 2 ^ (1023 : ℤ) := by
    calc |x.val + x.val| ≤ 2 * (2 * |a|) := by rw [← two_mul, abs_mul, abs_two]; linarith
      _ ≤ 2 * (2 * 2 ^ (1000 : ℤ)) := by gcongr
      _ = 2 ^ (1002 : ℤ) := by rw [zpow_two_mul, zpow_two_mul]; norm_num
      _ ≤ _ := two_zpow_le_self_of_le (by norm_num)
  have hf' := finite_add_of hf hf ((fl_le_pow (by norm_num) hle).trans (two_zpow_le_big (by norm_num)))
  exact Rl.round hf' (val_add hf') (by rw [hv]; ring) h1 h2 (fl_sum_err (val_rep x) (val_rep x))

/-- The perspective matrix of a vertical field of view: if the library's tangent of half the angle has a relative error
of at most `j * 2 ^ -53`, the entries have a relative error of at most `(j + 7) * 2 ^ -53`. -/
theorem C88_vfov_matrix [Lib f64] [NatCast (Ieee f64)] (vfov : Radians (Ieee f64)) (aspect n f : Ieee f64) (tan : ℝ) (j : ℕ) (hj : j ≤ 32)
    (htan : Relative64 j (ftan (vfov.val / (1 + 1))) tan)
    (ht : (2 : ℝ) ^ (-100 : ℤ) ≤ |tan| ∧ |tan| ≤ 2 ^ (100 : ℤ)) (ha : aspect.Finite)
    (ha' : (2 : ℝ) ^ (-100 : ℤ) ≤ |aspect.val| ∧ |aspect.val| ≤ 2 ^ (100 : ℤ))
    (hn : Moderate 300 n) (hf : Moderate 300 f) (hz : NotTiny 300 (f.val - n.val)) (hn' : NotTiny 300 n.val) (hf' : NotTiny 300 f.val) (c i : Fin 4) :
    Relative64 (j + 7) ((fromPerspectiveVfov vfov aspect n f).data c i) (perspectiveFov tan aspect.val n.val f.val c i) := by
  have hj0 : (0 : ℝ) ≤ j := Nat.cast_nonneg j
  have hT := rl_of_relative hj htan
  have hn0 : 0 < |n.val| := lt_of_lt_of_le (by positivity) hn'
  have ht0 : 0 < |tan| := lt_of_lt_of_le (by positivity) ht.1
  have ha0 : 0 < |aspect.val| := lt_of_lt_of_le (by positivity) ha'.1
  have w : ∀ {x y : ℤ}, x ≤ y → (2 : ℝ) ^ x ≤ 2 ^ y := two_zpow_le_self_of_le
  have tn1 : (2 : ℝ) ^ (-400 : ℤ) ≤ |tan * n.val| := by
    rw [abs_mul, show (-400 : ℤ) = -100 + -300 by norm_num, zpow_add₀ two_ne_zero]
    exact mul_le_mul ht.1 hn' (by positivity) (abs_nonneg _)
  have tn2 : |tan * n.val| ≤ 2 ^ (400 : ℤ) := by
    rw [abs_mul, show (400 : ℤ) = 100 + 300 by norm_num, zpow_add₀ two_ne_zero]
    exact mul_le_mul ht.2 hn.2 (abs_nonneg _) (by positivity)
  have tna1 : (2 : ℝ) ^ (-500 : ℤ) ≤ |tan * n.val * aspect.val| := by
    rw [abs_mul, show (-500 : ℤ) = -400 + -100 by norm_num, zpow_add₀ two_ne_zero]
    exact mul_le_mul tn1 ha'.1 (by positivity) (abs_nonneg _)
  have tna2 : |tan * n.val * aspect.val| ≤ 2 ^ (500 : ℤ) := by
    rw [abs_mul, show (500 : ℤ) = 400 + 100 by norm_num, zpow_add₀ two_ne_zero]
    exact mul_le_mul tn2 ha'.2 (abs_nonneg _) (by positivity)
  have hrange : Rl (j + 1 + 0 + 1) (ftan (vfov.val / (1 + 1)) * n) (tan * n.val) :=
    Rl.mul (j := j + 1) (k := 0) hT (Rl.exact hn.1) (by omega) (Or.inr ((w (by norm_num)).trans tn1)) (tn2.trans (w (by norm_num)))
  have hra : Rl (j + 1 + 0 + 1 + 0 + 1) (ftan (vfov.val / (1 + 1)) * n * aspect) (tan * n.val * aspect.val) :=
    Rl.mul (j := j + 1 + 0 + 1) (k := 0) hrange (Rl.exact ha) (by omega) (Or.inr ((w (by norm_num)).trans tna1)) (tna2.trans (w (by norm_num)))
  have hw := hra.double (by omega) (tna2.trans (w (by norm_num)))
  have hn00 := abs_pos.mp hn0
  have ht00 := abs_pos.mp ht0
  have ha00 := abs_pos.mp ha0
  have q : 2 * n.val / (tan * n.val * aspect.val + tan * n.val * aspect.val) = 1 / (tan * aspect.val) := by field_simp; ring
  have q' : n.val / (tan * n.val) = 1 / tan := by field_simp
  have inv1 : (2 : ℝ) ^ (-100 : ℤ) ≤ |1 / tan| := by
    rw [abs_div, abs_one, le_div_iff₀ ht0]
    calc (2 : ℝ) ^ (-100 : ℤ) * |tan| ≤ 2 ^ (-100 : ℤ) * 2 ^ (100 : ℤ) := by gcongr; exact ht.2
      _ = 1 := by rw [← zpow_add₀ two_ne_zero]; norm_num
  have inv2 : |1 / tan| ≤ 2 ^ (100 : ℤ) := by
    rw [abs_div, abs_one, div_le_iff₀ ht0]
    calc (1 : ℝ) = 2 ^ (100 : ℤ) * 2 ^ (-100 : ℤ) := by rw [← zpow_add₀ two_ne_zero]; norm_num
      _ ≤ _ := by gcongr; exact ht.1
  have hta1 : |tan * aspect.val| ≤ 2 ^ (200 : ℤ) := by
    rw [abs_mul, show (200 : ℤ) = 100 + 100 by norm_num, zpow_add₀ two_ne_zero]
    exact mul_le_mul ht.2 ha'.2 (abs_nonneg _) (by positivity)
  have hta2 : (2 : ℝ) ^ (-200 : ℤ) ≤ |tan * aspect.val| := by
    rw [abs_mul, show (-200 : ℤ) = -100 + -100 by norm_num, zpow_add₀ two_ne_zero]
    exact mul_le_mul ht.1 ha'.1 (by positivity) (abs_nonneg _)
  have hta0 : 0 < |tan * aspect.val| := lt_of_lt_of_le (by positivity) hta2
  have inv3 : (2 : ℝ) ^ (-200 : ℤ) ≤ |1 / (tan * aspect.val)| := by
    rw [abs_div, abs_one, le_div_iff₀ hta0]
    calc (2 : ℝ) ^ (-200 : ℤ) * |tan * aspect.val| ≤ 2 ^ (-200 : ℤ) * 2 ^ (200 : ℤ) := by gcongr
      _ = 1 := by rw [← zpow_add₀ two_ne_zero]; norm_num
  have inv4 : |1 / (tan * aspect.val)| ≤ 2 ^ (200 : ℤ) := by
    rw [abs_div, abs_one, div_le_iff₀ hta0]
    calc (1 : ℝ) = 2 ^ (200 : ℤ) * 2 ^ (-200 : ℤ) := by rw [← zpow_add₀ two_ne_zero]; norm_num
      _ ≤ _ := by gcongr
  have s1 := Rl.div (rl_two_mul hn hn') hw (by omega)
    (by rw [← two_mul]; exact mul_ne_zero two_ne_zero (mul_ne_zero (mul_ne_zero ht00 hn00) ha00))
    (Or.inr (by rw [q]; exact (w (by norm_num)).trans inv3)) (by rw [q]; exact inv4.trans (w (by norm_num)))
  have s2 := Rl.div (Rl.exact hn.1) hrange (by omega) (mul_ne_zero ht00 hn00)
    (Or.inr (by rw [q']; exact (w (by norm_num)).trans inv1)) (by rw [q']; exact inv2.trans (w (by norm_num)))
  rw [q] at s1
  rw [q'] at s2
  replace s1 := (s1.mono (k := j + 6) (by omega)).relative (c := j + 7) (by omega) (by push_cast; linarith)
  replace s2 := (s2.mono (k := j + 6) (by omega)).relative (c := j + 7) (by omega) (by push_cast; linarith)
  have h0 := rl_zero.relative (c := j + 7) (by norm_num) (by push_cast; linarith)
  have h1 := rl_one.neg.relative (c := j + 7) (by norm_num) (by push_cast; linarith)
  have s3 := (rl_perspective_depth hn hn' hf hf' hz).relative (c := j + 7) (by norm_num) (by push_cast; linarith)
  have o3 := (rl_depth hn hf hz).relative (c := j + 7) (by norm_num) (by push_cast; linarith)
  fin_cases c <;> fin_cases i <;> assumption

/-! ### projected points -/

theorem f64_err (z : ℝ) : |f64.fl z - z| ≤ 2 ^ (-53 : ℤ) * |z| + 2 ^ (-1075 : ℤ) := f64.err z

theorem Spec.Moderate.mono {d e : ℤ} {x : Ieee f64} (h : Moderate d x) (hde : d ≤ e) : Moderate e x :=
  ⟨h.1, h.2.trans (two_zpow_le_self_of_le hde)⟩
theorem Spec.NotTiny.mono {d e : ℤ} {x : ℝ} (h : NotTiny d x) (hde : d ≤ e) : NotTiny e x :=
  (two_zpow_le_self_of_le (by omega)).trans h

/-- a quotient of bounded numbers -/
theorem abs_quot_le {a b : ℝ} {j e : ℤ} (ha : |a| ≤ 2 ^ j) (hb : NotTiny e b) : |a / b| ≤ 2 ^ (j + e) := by
  have hb0 : 0 < |b| := lt_of_lt_of_le (by positivity) hb
  rw [abs_div, div_le_iff₀ hb0]
  have hb' : (2 : ℝ) ^ (-e) ≤ |b| := hb
  calc |a| ≤ 2 ^ j := ha
    _ = 2 ^ (j + e) * 2 ^ (-e) := by rw [← zpow_add₀ two_ne_zero]; ring_nf
    _ ≤ _ := by gcongr

theorem abs_prod_le {a b : ℝ} {j k : ℤ} (ha : |a| ≤ 2 ^ j) (hb : |b| ≤ 2 ^ k) : |a * b| ≤ 2 ^ (j + k) := by
  rw [abs_mul, zpow_add₀ two_ne_zero]
  exact mul_le_mul ha hb (abs_nonneg _) (by positivity)

/-- a product with an entry known up to four roundings -/
theorem prod_err {m x : Ieee f64} {A : ℝ} (hm : Rl 4 m A) (hx : x.Finite) (h1 : |A * x.val| ≤ 2 ^ (700 : ℤ)) :
    (m * x).Finite ∧ |(m * x).val| ≤ 2 ^ (701 : ℤ) ∧
      |(m * x).val - A * x.val| ≤ 6.1 * 2 ^ (-53 : ℤ) * |A * x.val| + 2 ^ (-1075 : ℤ) := by
  have em := hm.err (by norm_num)
  have bm := (hm.bounds (by norm_num)).2
  have hmx : |m.val * x.val| ≤ 2 * |A * x.val| := by
    rw [abs_mul, abs_mul, ← mul_assoc]; exact mul_le_mul_of_nonneg_right bm (abs_nonneg _)
  have hmx' : |m.val * x.val| ≤ 2 ^ (701 : ℤ) := by
    refine hmx.trans ?_
    rw [show (701 : ℤ) = 700 + 1 by norm_num, ← zpow_two_mul]; linarith
  have hp := fl_le_pow (by norm_num) hmx'
  have hf1 := finite_mul_of hm.1 hx (hp.trans (two_zpow_le_big (by norm_num)))
  have v1 := val_mul hf1
  refine ⟨hf1, by rw [v1]; exact hp, ?_⟩
  have e1 := f64_err (m.val * x.val)
  rw [← v1] at e1
  have e0 : |m.val * x.val - A * x.val| ≤ 5 * 2 ^ (-53 : ℤ) * |A * x.val| := by
    rw [← sub_mul, abs_mul, abs_mul A, ← mul_assoc]
    refine mul_le_mul_of_nonneg_right ?_ (abs_nonneg _)
    calc _ ≤ _ := em
      _ = _ := by norm_num
  have hmx2 : |m.val * x.val| ≤ (1 + 5 * 2 ^ (-53 : ℤ)) * |A * x.val| := by
    have := abs_sub_abs_le_abs_sub (m.val * x.val) (A * x.val)
    linarith
  have htri := abs_sub_le (m * x).val (m.val * x.val) (A * x.val)
  have hu : (0 : ℝ) < 2 ^ (-53 : ℤ) := by positivity
  have hu1 : 1000 * (2 : ℝ) ^ (-53 : ℤ) ≤ 1 := by norm_num
  have hA := abs_nonneg (A * x.val)
  generalize (2 : ℝ) ^ (-53 : ℤ) = u at *
  generalize (2 : ℝ) ^ (-1075 : ℤ) = τ at *
  generalize |A * x.val| = a at *
  generalize |m.val * x.val| = mx at *
  have umx : u * mx ≤ u * ((1 + 5 * u) * a) := mul_le_mul_of_nonneg_left hmx2 hu.le
  have ua : 1000 * (u * (u * a)) ≤ u * a := by
    have := mul_le_mul_of_nonneg_right hu1 (by positivity : 0 ≤ u * a)
    linarith
  have hua : 0 ≤ u * a := by positivity
  linarith

/-- a sum of two approximate terms -/
theorem sum_err {x y : Ieee f64} {a b : ℝ} (hx : x.Finite) (hy : y.Finite) (hx' : |x.val| ≤ 2 ^ (701 : ℤ))
    (hy' : |y.val| ≤ 2 ^ (701 : ℤ)) (ex : |x.val - a| ≤ 6.1 * 2 ^ (-53 : ℤ) * |a| + 2 ^ (-1075 : ℤ))
    (ey : |y.val - b| ≤ 6.1 * 2 ^ (-53 : ℤ) * |b| + 2 ^ (-1075 : ℤ)) :
    (x + y).Finite ∧ |(x + y).val| ≤ 2 ^ (702 : ℤ) ∧
      |(x + y).val - (a + b)| ≤ 8 * 2 ^ (-53 : ℤ) * (|a| + |b|) + 3 * 2 ^ (-1075 : ℤ) := by
  have hs : |x.val + y.val| ≤ 2 ^ (702 : ℤ) := by
    rw [show (702 : ℤ) = 701 + 1 by norm_num, ← zpow_two_mul]
    exact (abs_add_le _ _).trans ((add_le_add hx' hy').trans (le_of_eq (two_mul _).symm))
  have hp := fl_le_pow (by norm_num) hs
  have hf := finite_add_of hx hy (hp.trans (two_zpow_le_big (by norm_num)))
  refine ⟨hf, by rw [val_add hf]; exact hp, ?_⟩
  have e2 := fl_sum_err (val_rep x) (val_rep y)
  rw [← val_add hf, show f64.u = 2 ^ (-53 : ℤ) from rfl] at e2
  have htri : |x.val + y.val - (a + b)| ≤ |x.val - a| + |y.val - b| := by
    rw [add_sub_add_comm]; exact abs_add_le _ _
  have hsz : |x.val + y.val| ≤ |x.val + y.val - (a + b)| + (|a| + |b|) := by
    calc _ = |(x.val + y.val - (a + b)) + (a + b)| := by ring_nf
      _ ≤ _ := (abs_add_le _ _).trans (add_le_add le_rfl (abs_add_le _ _))
  have htot := abs_sub_le (x + y).val (x.val + y.val) (a + b)
  have hu : (0 : ℝ) < 2 ^ (-53 : ℤ) := by positivity
  have hu1 : 1000 * (2 : ℝ) ^ (-53 : ℤ) ≤ 1 := by norm_num
  have ht : (0 : ℝ) < 2 ^ (-1075 : ℤ) := by positivity
  have ha := abs_nonneg a
  have hb := abs_nonneg b
  generalize (2 : ℝ) ^ (-53 : ℤ) = u at *
  generalize (2 : ℝ) ^ (-1075 : ℤ) = τ at *
  generalize |a| = A at *
  generalize |b| = B at *
  generalize |x.val + y.val - (a + b)| = d at *
  have d2 : d ≤ 6.1 * (u * A) + 6.1 * (u * B) + 2 * τ := by linarith
  have ua : 1000 * (u * (u * A)) ≤ u * A := by
    have := mul_le_mul_of_nonneg_right hu1 (by positivity : 0 ≤ u * A)
    linarith
  have ub : 1000 * (u * (u * B)) ≤ u * B := by
    have := mul_le_mul_of_nonneg_right hu1 (by positivity : 0 ≤ u * B)
    linarith
  have ut : 1000 * (u * τ) ≤ τ := by
    have := mul_le_mul_of_nonneg_right hu1 ht.le
    linarith
  have d3 : u * d ≤ 6.1 * (u * (u * A)) + 6.1 * (u * (u * B)) + 2 * (u * τ) := by
    have := mul_le_mul_of_nonneg_left d2 hu.le
    linarith
  have d4 : u * |x.val + y.val| ≤ u * d + u * A + u * B := by
    have := mul_le_mul_of_nonneg_left hsz hu.le
    linarith
  have hua : 0 ≤ u * A := by positivity
  have hub : 0 ≤ u * B := by positivity
  linarith

/-- an entry known up to four roundings as a term -/
theorem entry_err {c : Ieee f64} {B : ℝ} (hc : Rl 4 c B) (h2 : |B| ≤ 2 ^ (700 : ℤ)) :
    |c.val| ≤ 2 ^ (701 : ℤ) ∧ |c.val - B| ≤ 6.1 * 2 ^ (-53 : ℤ) * |B| + 2 ^ (-1075 : ℤ) := by
  constructor
  · have bc := (hc.bounds (by norm_num)).2
    rw [show (701 : ℤ) = 700 + 1 by norm_num, ← zpow_two_mul]; linarith
  · have ec := hc.err (by norm_num)
    have ht : (0 : ℝ) < 2 ^ (-1075 : ℤ) := by positivity
    have hu : (0 : ℝ) ≤ 2 ^ (-53 : ℤ) * |B| := by positivity
    push_cast at ec
    generalize (2 : ℝ) ^ (-53 : ℤ) = u at *
    generalize (2 : ℝ) ^ (-1075 : ℤ) = τ at *
    nlinarith

/-- `m * x + c` -/
theorem axis_err {m c x : Ieee f64} {A B : ℝ} (hm : Rl 4 m A) (hc : Rl 4 c B) (hx : x.Finite)
    (h1 : |A * x.val| ≤ 2 ^ (700 : ℤ)) (h2 : |B| ≤ 2 ^ (700 : ℤ)) :
    (m * x + c).Finite ∧ |(m * x + c).val| ≤ 2 ^ (702 : ℤ) ∧
      |(m * x + c).val - (A * x.val + B)| ≤ 8 * 2 ^ (-53 : ℤ) * (|A * x.val| + |B|) + 3 * 2 ^ (-1075 : ℤ) := by
  obtain ⟨f1, b1, e1⟩ := prod_err hm hx h1
  obtain ⟨b2, e2⟩ := entry_err hc h2
  exact sum_err f1 hc.1 b1 b2 e1 e2

/-- `m * x + c * z` -/
theorem axis_err2 {m c x z : Ieee f64} {A B : ℝ} (hm : Rl 4 m A) (hc : Rl 4 c B) (hx : x.Finite) (hz : z.Finite)
    (h1 : |A * x.val| ≤ 2 ^ (700 : ℤ)) (h2 : |B * z.val| ≤ 2 ^ (700 : ℤ)) :
    (m * x + c * z).Finite ∧ |(m * x + c * z).val| ≤ 2 ^ (702 : ℤ) ∧
      |(m * x + c * z).val - (A * x.val + B * z.val)| ≤
        8 * 2 ^ (-53 : ℤ) * (|A * x.val| + |B * z.val|) + 3 * 2 ^ (-1075 : ℤ) := by
  obtain ⟨f1, b1, e1⟩ := prod_err hm hx h1
  obtain ⟨f2, b2, e2⟩ := prod_err hc hz h2
  exact sum_err f1 f2 b1 b2 e1 e2

/-- the perspective division -/
theorem wdiv_err {q z : Ieee f64} {a b : ℝ} (hq : q.Finite) (hq' : |q.val| ≤ 2 ^ (702 : ℤ))
    (he : |q.val - (a + b)| ≤ 8 * 2 ^ (-53 : ℤ) * (|a| + |b|) + 3 * 2 ^ (-1075 : ℤ)) (hz : Moderate 150 z) (hz' : NotTiny 150 z.val) :
    (q * (-1 / z)).Finite ∧ |(q * (-1 / z)).val - -(a + b) / z.val| ≤
      12 * 2 ^ (-53 : ℤ) * (|a / z.val| + |b / z.val|) + 2 ^ (-900 : ℤ) := by
  have one1 : (2 : ℝ) ^ (0 : ℤ) ≤ |(-1 : ℝ)| := by norm_num
  have hw : Rl 1 (-1 / z) (-1 / z.val) :=
    Rl.quot (j := 0) (k := 0) rl_one.neg (Rl.exact hz.1) (by norm_num) (lo_of_ge one1)
      (by rw [abs_neg, abs_one]; exact one_le_zpow₀ one_le_two (by norm_num)) ((two_zpow_le_self_of_le (by norm_num)).trans hz')
      (hz.2.trans (two_zpow_le_self_of_le (by norm_num)))
  have hz0 : 0 < |z.val| := lt_of_lt_of_le (by positivity) hz'
  have hz00 := abs_pos.mp hz0
  have hW : |-1 / z.val| ≤ 2 ^ (150 : ℤ) := by
    have := abs_quot_le (a := -1) (b := z.val) (j := 0) (e := 150) (by norm_num) hz'
    simpa using this
  have ew := hw.err (by norm_num)
  have bw := (hw.bounds (by norm_num)).2
  have hqw : |q.val * (-1 / z).val| ≤ 2 ^ (853 : ℤ) := by
    rw [abs_mul, show (853 : ℤ) = 702 + (150 + 1) by norm_num, zpow_add₀ two_ne_zero, ← zpow_two_mul]
    exact mul_le_mul hq' (bw.trans (by linarith)) (abs_nonneg _) (by positivity)
  have hf := finite_mul_of hq hw.1 ((fl_le_pow (by norm_num) hqw).trans (two_zpow_le_big (by norm_num)))
  refine ⟨hf, ?_⟩
  have e1 := f64_err (q.val * (-1 / z).val)
  rw [← val_mul hf] at e1
  have htot := abs_sub_le (q * (-1 / z)).val (q.val * (-1 / z).val) (-(a + b) / z.val)
  have hmid : |q.val * (-1 / z).val - -(a + b) / z.val| ≤
      |q.val - (a + b)| * |(-1 / z).val| + |a + b| * |(-1 / z).val - -1 / z.val| := by
    rw [← abs_mul, ← abs_mul]
    refine le_trans (le_of_eq ?_) (abs_add_le _ _)
    congr 1
    field_simp
    ring
  have hab := abs_add_le a b
  have hqs : |q.val| ≤ |q.val - (a + b)| + (|a| + |b|) := by
    calc _ = |(q.val - (a + b)) + (a + b)| := by ring_nf
      _ ≤ _ := (abs_add_le _ _).trans (add_le_add le_rfl hab)
  have hMW : |a / z.val| + |b / z.val| = (|a| + |b|) * |-1 / z.val| := by
    rw [abs_div, abs_div, abs_div, abs_neg, abs_one]; ring
  rw [hMW]
  have hw1 : |(-1 / z).val| ≤ (1 + 2 * 2 ^ (-53 : ℤ)) * |-1 / z.val| := by
    have := abs_sub_abs_le_abs_sub (-1 / z).val (-1 / z.val)
    push_cast at ew
    linarith
  rw [abs_mul] at e1
  have hslack : (2 : ℝ) ^ (-1075 : ℤ) * 2 ^ (150 : ℤ) ≤ 2 ^ (-10 : ℤ) * 2 ^ (-900 : ℤ) := by
    rw [← zpow_add₀ two_ne_zero, ← zpow_add₀ two_ne_zero]; exact two_zpow_le_self_of_le (by norm_num)
  have hslack2 : (2 : ℝ) ^ (-1075 : ℤ) ≤ 2 ^ (-10 : ℤ) * 2 ^ (-900 : ℤ) := by
    rw [← zpow_add₀ two_ne_zero]; exact two_zpow_le_self_of_le (by norm_num)
  have h10 : (2 : ℝ) ^ (-10 : ℤ) = 1 / 1024 := by norm_num
  rw [h10] at hslack hslack2
  have hu : (0 : ℝ) < 2 ^ (-53 : ℤ) := by positivity
  have hu1 : 1000 * (2 : ℝ) ^ (-53 : ℤ) ≤ 1 := by norm_num
  have ht : (0 : ℝ) < 2 ^ (-1075 : ℤ) := by positivity
  have hM : 0 ≤ |a| + |b| := by positivity
  push_cast at ew
  have n1 := abs_nonneg (q.val - (a + b))
  have n2 := abs_nonneg (-1 / z.val)
  have n3 := abs_nonneg (-1 / z).val
  have n4 := abs_nonneg q.val
  have n5 := abs_nonneg ((-1 / z).val - -1 / z.val)
  generalize (2 : ℝ) ^ (-53 : ℤ) = u at *
  generalize (2 : ℝ) ^ (-1075 : ℤ) = τ at *
  generalize (2 : ℝ) ^ (-900 : ℤ) = σ at *
  generalize (2 : ℝ) ^ (150 : ℤ) = K at *
  generalize |a| + |b| = M at *
  generalize |-1 / z.val| = W at *
  generalize |(-1 / z).val| = w at *
  generalize |q.val - (a + b)| = d at *
  generalize |q.val| = Q at *
  generalize |(-1 / z).val - -1 / z.val| = ω at *
  generalize |a + b| = s at *
  have tW : τ * W ≤ 1 / 1024 * σ := le_trans (mul_le_mul_of_nonneg_left hW ht.le) hslack
  have hσ : 0 ≤ σ := by nlinarith
  have hMW0 : 0 ≤ M * W := by positivity
  have uMW : 0 ≤ u * (M * W) := by positivity
  have hu2 : u * u ≤ 1 / 1000 * u := by nlinarith
  -- the size of the computed factor
  have hw2 : w ≤ 1.01 * W := by nlinarith
  have dW : d * w ≤ (8 * u * M + 3 * τ) * (1.01 * W) := mul_le_mul he hw2 n3 (by positivity)
  have sω : s * ω ≤ M * (2 * u * W) := mul_le_mul hab (by linarith) n5 hM
  have Q2 : Q ≤ 1.01 * M + 3 * τ := by nlinarith
  have Qw : Q * w ≤ (1.01 * M + 3 * τ) * (1.01 * W) := mul_le_mul Q2 hw2 n3 (by positivity)
  have uQw := mul_le_mul_of_nonneg_left Qw hu.le
  have utW : u * (τ * W) ≤ τ * W := by
    have : 0 ≤ τ * W := by positivity
    nlinarith
  have x1 : (8 * u * M + 3 * τ) * (1.01 * W) = 8.08 * (u * (M * W)) + 3.03 * (τ * W) := by ring
  have x2 : u * ((1.01 * M + 3 * τ) * (1.01 * W)) = 1.0201 * (u * (M * W)) + 3.03 * (u * (τ * W)) := by ring
  have x3 : M * (2 * u * W) = 2 * (u * (M * W)) := by ring
  have x4 : 12 * u * (M * W) = 12 * (u * (M * W)) := by ring
  rw [x1] at dW
  rw [x2] at uQw
  rw [x3] at sω
  rw [x4]
  linarith

/-- Orthographic projection of a point in `f64`: every coordinate is finite, and its error is at most `8 * 2 ^ -53` times
the sum of the absolute values of the two terms of the exact coordinate (plus a subnormal number). -/
theorem C88_orthographic_point (l r b t n f : Ieee f64) (hl : Moderate 300 l) (hr : Moderate 300 r) (hb : Moderate 300 b)
    (ht : Moderate 300 t) (hn : Moderate 300 n) (hf : Moderate 300 f) (hx : NotTiny 300 (r.val + l.val))
    (hy : NotTiny 300 (t.val + b.val)) (hz : NotTiny 300 (f.val - n.val)) (p : Pt (Ieee f64) 3)
    (hp : ∀ i, Moderate 90 (p.coords.data i)) (i : Fin 3) :
    let P := orthographic l.val r.val b.val t.val n.val f.val
    let x := (p.coords.data i).val
    let q := ((Orthographic3.new l r b t n f).projectPoint p).coords.data i
    q.Finite ∧ |q.val - (P i.castSucc i.castSucc * x + P 3 i.castSucc)| ≤
      8 * 2 ^ (-53 : ℤ) * (|P i.castSucc i.castSucc * x| + |P 3 i.castSucc|) + 2 ^ (-1073 : ℤ) := by
  have ht' : 3 * (2 : ℝ) ^ (-1075 : ℤ) ≤ 2 ^ (-1073 : ℤ) := by
    rw [show (-1073 : ℤ) = -1075 + 1 + 1 by norm_num, ← zpow_two_mul, ← zpow_two_mul]
    have : (0 : ℝ) < 2 ^ (-1075 : ℤ) := by positivity
    linarith
  have w : ∀ {x y : ℤ}, x ≤ y → (2 : ℝ) ^ x ≤ 2 ^ y := two_zpow_le_self_of_le
  have key : ∀ {m c x : Ieee f64} {a d A : ℝ}, Rl 2 m (a / d) → Rl 3 c (A / d) → Moderate 90 x → |a| ≤ 2 ^ (301 : ℤ) →
      |A| ≤ 2 ^ (301 : ℤ) → NotTiny 300 d → (m * x + c).Finite ∧ |(m * x + c).val - (a / d * x.val + A / d)| ≤
        8 * 2 ^ (-53 : ℤ) * (|a / d * x.val| + |A / d|) + 2 ^ (-1073 : ℤ) := by
    intro m c x a d A h1 h2 h3 h4 h5 h6
    obtain ⟨e1, -, e2⟩ := axis_err (h1.mono (by norm_num)) (h2.mono (by norm_num)) h3.1
      ((abs_prod_le (abs_quot_le h4 h6) h3.2).trans (w (by norm_num))) ((abs_quot_le h5 h6).trans (w (by norm_num)))
    exact ⟨e1, e2.trans (add_le_add le_rfl ht')⟩
  fin_cases i
  · exact key (rl_scale hl hr hx) (rl_shift_neg hl hr hx) (hp 0) two_le301 (by rw [abs_neg]; exact moderate_sub_le hl hr) hx
  · exact key (rl_scale hb ht hy) (rl_shift_neg hb ht hy) (hp 1) two_le301 (by rw [abs_neg]; exact moderate_sub_le hb ht) hy
  · exact key (rl_depth_scale hn hf hz) (rl_depth hn hf hz) (hp 2) (by rw [abs_neg]; exact two_le301)
      (by rw [abs_neg]; exact moderate_add_le hn hf) hz

/-- A point of the view box is projected to within `2 ^ -47` of its exact image, so into the cube up to `2 ^ -47`, if
the box contains the view axis and its far plane is at least twice as far away as the near plane. -/
theorem C88_orthographic_box (l r b t n f : Ieee f64) (hl : Moderate 90 l) (hr : Moderate 90 r) (hb : Moderate 90 b)
    (ht : Moderate 90 t) (hn : Moderate 90 n) (hf : Moderate 90 f) (hx : NotTiny 300 (r.val + l.val))
    (hy : NotTiny 300 (t.val + b.val)) (hz : NotTiny 300 (f.val - n.val)) (hl0 : 0 ≤ l.val) (hr0 : 0 ≤ r.val) (hb0 : 0 ≤ b.val)
    (ht0 : 0 ≤ t.val) (hn0 : 0 ≤ n.val) (hnf : 2 * n.val ≤ f.val) (p : Pt (Ieee f64) 3) (hfin : ∀ i, (p.coords.data i).Finite)
    (hp : inBox l.val r.val b.val t.val n.val f.val (realPoint p)) (i : Fin 3) :
    let q := ((Orthographic3.new l r b t n f).projectPoint p).coords.data i
    q.Finite ∧
      |q.val - ((Orthographic3.new l.val r.val b.val t.val n.val f.val).projectPoint (realPoint p)).coords.data i| ≤ 2 ^ (-47 : ℤ) ∧
      |q.val| ≤ 1 + 2 ^ (-47 : ℤ) := by
  intro q
  have pos : ∀ {a : ℝ}, NotTiny 300 a → a ≠ 0 := fun h => abs_pos.mp (lt_of_lt_of_le (by positivity) h)
  have hx0 : 0 < r.val + l.val := lt_of_le_of_ne (by linarith) (pos hx).symm
  have hy0 : 0 < t.val + b.val := lt_of_le_of_ne (by linarith) (pos hy).symm
  have hz0 : 0 < f.val - n.val := lt_of_le_of_ne (by linarith) (pos hz).symm
  obtain ⟨⟨x1, x2⟩, ⟨y1, y2⟩, z1, z2⟩ := hp
  have le90 : ∀ {x : Ieee f64}, Moderate 90 x → x.val ≤ 2 ^ (90 : ℤ) := fun h => (le_abs_self _).trans h.2
  have hp' : ∀ i, Moderate 90 (p.coords.data i) := by
    intro i
    refine ⟨hfin i, abs_le.mpr ?_⟩
    fin_cases i
    · exact ⟨(neg_le_neg (le90 hl)).trans x1, x2.trans (le90 hr)⟩
    · exact ⟨(neg_le_neg (le90 hb)).trans y1, y2.trans (le90 ht)⟩
    · exact ⟨(neg_le_neg (le90 hf)).trans z1, z2.trans ((neg_nonpos.mpr hn0).trans (by positivity))⟩
  have m300 : ∀ {x : Ieee f64}, Moderate 90 x → Moderate 300 x := fun h => h.mono (by norm_num)
  obtain ⟨hq, herr⟩ := C88_orthographic_point l r b t n f (m300 hl) (m300 hr) (m300 hb) (m300 ht) (m300 hn) (m300 hf) hx hy hz p hp' i
  have hexact : ((Orthographic3.new l.val r.val b.val t.val n.val f.val).projectPoint (realPoint p)).coords.data i =
      orthographic l.val r.val b.val t.val n.val f.val i.castSucc i.castSucc * (p.coords.data i).val +
        orthographic l.val r.val b.val t.val n.val f.val 3 i.castSucc := by
    have e1 : r.val - -l.val = r.val + l.val := by ring
    have e2 : t.val - -b.val = t.val + b.val := by ring
    have e3 : r.val + -l.val = r.val - l.val := by ring
    have e4 : t.val + -b.val = t.val - b.val := by ring
    fin_cases i
    · change (1 + 1) / (r.val - -l.val) * (p.coords.data 0).val + -(r.val + -l.val) / (r.val - -l.val) =
        2 / (r.val + l.val) * (p.coords.data 0).val + -(r.val - l.val) / (r.val + l.val)
      rw [e1, e3]; norm_num
    · change (1 + 1) / (t.val - -b.val) * (p.coords.data 1).val + -(t.val + -b.val) / (t.val - -b.val) =
        2 / (t.val + b.val) * (p.coords.data 1).val + -(t.val - b.val) / (t.val + b.val)
      rw [e2, e4]; norm_num
    · change -(1 + 1) / (f.val - n.val) * (p.coords.data 2).val + -(f.val + n.val) / (f.val - n.val) =
        -2 / (f.val - n.val) * (p.coords.data 2).val + -(f.val + n.val) / (f.val - n.val)
      norm_num
  have hsum : |orthographic l.val r.val b.val t.val n.val f.val i.castSucc i.castSucc * (p.coords.data i).val| +
      |orthographic l.val r.val b.val t.val n.val f.val 3 i.castSucc| ≤ 7 := by
    have axis : ∀ {d a x c : ℝ}, 0 < d → |a * x| + |c| ≤ 7 * d → |a / d * x| + |c / d| ≤ 7 := by
      intro d a x c hd h
      rw [div_mul_eq_mul_div, abs_div, abs_div, abs_of_pos hd, ← add_div, div_le_iff₀ hd]
      exact h
    fin_cases i
    · refine axis hx0 ?_
      change -l.val ≤ (p.coords.data 0).val at x1
      change (p.coords.data 0).val ≤ r.val at x2
      have a1 : |2 * (p.coords.data 0).val| ≤ 2 * (r.val + l.val) := abs_le.mpr ⟨by linarith, by linarith⟩
      have a2 : |-(r.val - l.val)| ≤ r.val + l.val := abs_le.mpr ⟨by linarith, by linarith⟩
      refine (add_le_add a1 a2).trans (by linarith)
    · refine axis hy0 ?_
      change -b.val ≤ (p.coords.data 1).val at y1
      change (p.coords.data 1).val ≤ t.val at y2
      have a1 : |2 * (p.coords.data 1).val| ≤ 2 * (t.val + b.val) := abs_le.mpr ⟨by linarith, by linarith⟩
      have a2 : |-(t.val - b.val)| ≤ t.val + b.val := abs_le.mpr ⟨by linarith, by linarith⟩
      refine (add_le_add a1 a2).trans (by linarith)
    · refine axis hz0 ?_
      change -f.val ≤ (p.coords.data 2).val at z1
      change (p.coords.data 2).val ≤ -n.val at z2
      have a1 : |-2 * (p.coords.data 2).val| ≤ 2 * f.val := abs_le.mpr ⟨by linarith, by linarith⟩
      have a2 : |-(f.val + n.val)| ≤ f.val + n.val := abs_le.mpr ⟨by linarith, by linarith⟩
      refine (add_le_add a1 a2).trans (by linarith)
  have hfinal : |q.val - ((Orthographic3.new l.val r.val b.val t.val n.val f.val).projectPoint (realPoint p)).coords.data i| ≤
      2 ^ (-47 : ℤ) := by
    rw [hexact]
    refine herr.trans ?_
    have h53 : (2 : ℝ) ^ (-1073 : ℤ) ≤ 2 ^ (-53 : ℤ) := two_zpow_le_self_of_le (by norm_num)
    refine (add_le_add (mul_le_mul_of_nonneg_left hsum (by positivity)) h53).trans ?_
    norm_num
  refine ⟨hq, hfinal, ?_⟩
  have hc := (C31_box_iff_cube (by linarith) (by linarith) (by linarith) (realPoint p)).mpr ⟨⟨x1, x2⟩, ⟨y1, y2⟩, z1, z2⟩ i
  have hc' := abs_le.mpr hc
  have := abs_sub_abs_le_abs_sub q.val (((Orthographic3.new l.val r.val b.val t.val n.val f.val).projectPoint (realPoint p)).coords.data i)
  linarith

/-- Perspective projection of a point in `f64`: every coordinate is finite, and its error is at most `12 * 2 ^ -53` times
the sum of the absolute values of the two terms of the exact coordinate (plus a negligible number).  The second
coordinate is the one the code computes, which leaves out the offset `(t - b) / (t + b)` (C33). -/
theorem C88_perspective_point (l r b t n f : Ieee f64) (hl : Moderate 150 l) (hr : Moderate 150 r) (hb : Moderate 150 b)
    (ht : Moderate 150 t) (hn : Moderate 150 n) (hf : Moderate 150 f) (hx : NotTiny 150 (r.val + l.val))
    (hy : NotTiny 150 (t.val + b.val)) (hw : NotTiny 150 (f.val - n.val)) (hn' : NotTiny 150 n.val) (hf' : NotTiny 150 f.val)
    (p : Pt (Ieee f64) 3) (hp : ∀ i, Moderate 150 (p.coords.data i)) (hz : NotTiny 150 (p.coords.data 2).val) :
    let P := perspective l.val r.val b.val t.val n.val f.val
    let x := (p.coords.data 0).val
    let y := (p.coords.data 1).val
    let z := (p.coords.data 2).val
    let q := ((Perspective3.new l r b t n f).projectPoint p).coords
    ((q.data 0).Finite ∧ |(q.data 0).val - -(P 0 0 * x + P 2 0 * z) / z| ≤
      12 * 2 ^ (-53 : ℤ) * (|P 0 0 * x / z| + |P 2 0 * z / z|) + 2 ^ (-900 : ℤ)) ∧
    ((q.data 1).Finite ∧ |(q.data 1).val - -(P 1 1 * y + 0 * z) / z| ≤
      12 * 2 ^ (-53 : ℤ) * (|P 1 1 * y / z| + |0 * z / z|) + 2 ^ (-900 : ℤ)) ∧
    ((q.data 2).Finite ∧ |(q.data 2).val - -(P 2 2 * z + P 3 2) / z| ≤
      12 * 2 ^ (-53 : ℤ) * (|P 2 2 * z / z| + |P 3 2 / z|) + 2 ^ (-900 : ℤ)) := by
  intro P x y z q
  have w : ∀ {x y : ℤ}, x ≤ y → (2 : ℝ) ^ x ≤ 2 ^ y := two_zpow_le_self_of_le
  have m : ∀ {x : Ieee f64}, Moderate 150 x → Moderate 300 x := fun h => h.mono (by norm_num)
  have nt : ∀ {x : ℝ}, NotTiny 150 x → NotTiny 300 x := fun h => h.mono (by norm_num)
  have sum : ∀ {u v : Ieee f64}, Moderate 150 u → Moderate 150 v → |v.val + u.val| ≤ 2 ^ (151 : ℤ) := by
    intro u v hu hv
    rw [show (151 : ℤ) = 150 + 1 by norm_num, ← zpow_two_mul]
    exact (abs_add_le _ _).trans (by linarith [hu.2, hv.2])
  have dif : ∀ {u v : Ieee f64}, Moderate 150 u → Moderate 150 v → |v.val - u.val| ≤ 2 ^ (151 : ℤ) := by
    intro u v hu hv
    rw [show (151 : ℤ) = 150 + 1 by norm_num, ← zpow_two_mul]
    exact (abs_sub _ _).trans (by linarith [hu.2, hv.2])
  have tw : ∀ {u : Ieee f64}, Moderate 150 u → |2 * u.val| ≤ 2 ^ (151 : ℤ) := by
    intro u hu
    rw [show (151 : ℤ) = 150 + 1 by norm_num, ← zpow_two_mul, abs_mul, abs_two]
    linarith [hu.2]
  refine ⟨?_, ?_, ?_⟩
  · obtain ⟨f1, b1, e1⟩ := axis_err2 (x := p.coords.data 0) (z := p.coords.data 2)
      ((rl_perspective_scale (m hl) (m hr) (nt hx) (m hn) (nt hn')).mono (by norm_num))
      ((rl_shift (m hl) (m hr) (nt hx)).mono (by norm_num)) (hp 0).1 (hp 2).1
      ((abs_prod_le (abs_quot_le (tw hn) hx) (hp 0).2).trans (w (by norm_num)))
      ((abs_prod_le (abs_quot_le (dif hl hr) hx) (hp 2).2).trans (w (by norm_num)))
    exact wdiv_err f1 b1 e1 (hp 2) hz
  · obtain ⟨f1, b1, e1⟩ := axis_err2 (x := p.coords.data 1) (z := p.coords.data 2)
      ((rl_perspective_scale (m hb) (m ht) (nt hy) (m hn) (nt hn')).mono (by norm_num))
      (rl_zero.mono (by norm_num)) (hp 1).1 (hp 2).1
      ((abs_prod_le (abs_quot_le (tw hn) hy) (hp 1).2).trans (w (by norm_num)))
      (by rw [zero_mul, abs_zero]; positivity)
    exact wdiv_err f1 b1 e1 (hp 2) hz
  · obtain ⟨f1, b1, e1⟩ := axis_err (x := p.coords.data 2)
      ((rl_depth (m hn) (m hf) (nt hw)).mono (by norm_num))
      (rl_perspective_depth (m hn) (nt hn') (m hf) (nt hf') (nt hw)) (hp 2).1
      ((abs_prod_le (abs_quot_le (by rw [abs_neg]; exact sum hn hf) hw) (hp 2).2).trans (w (by norm_num)))
      ((abs_quot_le (by rw [abs_neg]; exact abs_prod_le (tw hf) hn.2) hw).trans (w (by norm_num)))
    exact wdiv_err f1 b1 e1 (hp 2) hz

/-! ### view volumes with a plane through the origin -/

section Nan
variable {φ : Format}

theorem ieee_add_zero {x y : Ieee φ} (hx : x.Finite) (h0 : x.val ≠ 0) (hy : y.Finite) (hy0 : y.val = 0) : x + y = x := by
  obtain ⟨s, m, hm, rfl⟩ := hx
  obtain ⟨t, k, hk, rfl⟩ := hy
  have hv : signed s m + signed t k = signed s m := by
    have : signed t k = 0 := hy0
    rw [this, add_zero]
  change Ieee.round (s && t) (signed s m + signed t k) = _
  rw [hv]
  have h0' : signed s m ≠ 0 := h0
  have hm0 : m ≠ 0 := by rintro rfl; apply h0'; cases s <;> simp [signed]
  have habs : |signed s m| = m := by cases s <;> simp [signed, abs_of_nonneg hm.1]
  have hs : decide (signed s m < 0) = s := by
    have : 0 < m := lt_of_le_of_ne hm.1 hm0.symm
    cases s <;> simp [signed, this, this.le]
  unfold Ieee.round
  simp only [h0', if_false, habs, hm.2.2, hs, hm.2.1, dite_true]

theorem ieee_zero_sub_neg {x y : Ieee φ} (hx : x.Finite) (h0 : x.val ≠ 0) (hy : y.Finite) (hy0 : y.val = 0) : x - -y = x := by
  have : - -y = y := by obtain ⟨t, k, hk, rfl⟩ := hy; cases t <;> rfl
  change x + - -y = x
  rw [this]; exact ieee_add_zero hx h0 hy hy0

theorem ieee_finite_neg {x : Ieee φ} (hx : x.Finite) : (-x).Finite := by obtain ⟨t, k, hk, rfl⟩ := hx; exact finite_fin _ _ _

theorem ieee_neg_div_self {x : Ieee φ} (hx : x.Finite) (h0 : x.val ≠ 0) : -x / x = -1 := by
  obtain ⟨s, m, hm, rfl⟩ := hx
  have h0' : signed s m ≠ 0 := h0
  have hm0 : m ≠ 0 := by rintro rfl; apply h0'; cases s <;> simp [signed]
  change (if m = 0 then (if m = 0 then nan else inf ((!s) ^^ s)) else Ieee.round ((!s) ^^ s) (signed (!s) m / signed s m) : Ieee φ) = _
  rw [if_neg hm0]
  have : signed (!s) m / signed s m = -1 := by cases s <;> simp [signed] <;> field_simp
  rw [this]
  unfold Ieee.round
  simp [φ.one, φ.one_le_big]
  rfl

theorem ieee_neg_one_add_one : (-1 + 1 : Ieee φ) = 0 := by
  change Ieee.round (true && false) (signed true 1 + signed false 1) = _
  have : signed true 1 + signed false 1 = 0 := by simp [signed]
  rw [this]
  exact round_zero

theorem ieee_neg_neg_one : (- -1 : Ieee φ) = 1 := rfl

theorem ieee_two_div_zero : ((1 + 1 : Ieee φ) / 0) = inf false := by
  have h2 : (1 + 1 : Ieee φ) = Ieee.round false (1 + 1) := rfl
  rw [h2]
  unfold Ieee.round
  have h : ¬ ((1 : ℝ) + 1 = 0) := by norm_num
  have h' : ¬ ((1 : ℝ) + 1 < 0) := by norm_num
  simp only [h, if_false, h', decide_false]
  split_ifs with hb
  · change (if (0 : ℝ) = 0 then (if φ.fl |(1 : ℝ) + 1| = 0 then nan else inf (false ^^ false)) else _ : Ieee φ) = _
    have h1 : (1 : ℝ) ≤ φ.fl |(1 : ℝ) + 1| := by
      calc (1 : ℝ) = φ.fl 1 := φ.one.symm
        _ ≤ _ := φ.mono _ _ (by rw [abs_of_pos] <;> norm_num)
    rw [if_pos rfl, if_neg (by linarith)]
    rfl
  · rfl

theorem ieee_nan_mul (x : Ieee φ) : nan * x = nan := by cases x <;> rfl
theorem ieee_mul_nan (x : Ieee φ) : x * nan = nan := by cases x <;> rfl
theorem ieee_nan_add (x : Ieee φ) : nan + x = nan := by cases x <;> rfl
theorem ieee_nan_sub (x : Ieee φ) : nan - x = nan := by cases x <;> rfl

variable {a c m : Ieee φ}

/-- `right()` and `top()` from the entries -/
theorem ratio_nan (k : Ieee φ) :
    ((1 + 1) * (((- -1 + 1 : Ieee φ) / (-1 + 1)) / ((- -1 + 1) / (-1 + 1) + 1))) * k = nan := by
  rw [ieee_neg_neg_one, ieee_neg_one_add_one, ieee_two_div_zero]
  have : (inf false : Ieee φ) / (inf false + 1) = nan := rfl
  rw [this, ieee_mul_nan, ieee_nan_mul]

theorem ratio_nan' (k : Ieee φ) :
    (-(1 + 1) * (((- -1 + 1 : Ieee φ) / (- -1 - 1)) / ((- -1 + 1) / (- -1 - 1) - 1))) * k = nan := by
  have h0 : (- -1 - 1 : Ieee φ) = 0 := by
    change Ieee.round (false && true) (signed false 1 + signed true 1) = _
    have : signed false 1 + signed true 1 = 0 := by simp [signed]
    rw [this]
    exact round_zero
  rw [h0, ieee_neg_neg_one, ieee_two_div_zero]
  have : (inf false : Ieee φ) / (inf false - 1) = nan := rfl
  rw [this, ieee_mul_nan, ieee_nan_mul]

theorem ieee_div_self {x : Ieee φ} (hx : x.Finite) (h0 : x.val ≠ 0) : x / x = 1 := by
  obtain ⟨s, m, hm, rfl⟩ := hx
  have h0' : signed s m ≠ 0 := h0
  have hm0 : m ≠ 0 := by rintro rfl; apply h0'; cases s <;> simp [signed]
  change (if m = 0 then (if m = 0 then nan else inf (s ^^ s)) else Ieee.round (s ^^ s) (signed s m / signed s m) : Ieee φ) = _
  rw [if_neg hm0, div_self h0']
  have h1 : ¬ ((1 : ℝ) < 0) := by norm_num
  unfold Ieee.round
  simp only [one_ne_zero, if_false, h1, decide_false, abs_one, φ.one, φ.one_le_big, dite_true]
  rfl

theorem ieee_one_sub_one : (1 + -1 : Ieee φ) = 0 := by
  change Ieee.round (false && true) (signed false 1 + signed true 1) = _
  have : signed false 1 + signed true 1 = 0 := by simp [signed]
  rw [this]
  exact round_zero

end Nan

namespace Spec
/-- `x` is so small that adding it to `y` or subtracting it from `y` returns `y` -/
def LostIn {φ : Format} (x y : Ieee φ) : Prop := y.Finite ∧ y.val ≠ 0 ∧ y + x = y ∧ y - x = y
end Spec

section Nan
variable {φ : Format}

theorem lostIn_zero {x y : Ieee φ} (hx : x.Finite) (hx0 : x.val = 0) (hy : y.Finite) (hy0 : y.val ≠ 0) : LostIn x y :=
  ⟨hy, hy0, ieee_add_zero hy hy0 hx hx0,
    ieee_add_zero hy hy0 (ieee_finite_neg hx) (by rw [val_neg, hx0, neg_zero])⟩

theorem ieee_neg_neg (x : Ieee φ) : - -x = x := by
  cases x with
  | nan => rfl
  | inf s => cases s <;> rfl
  | fin s m h => cases s <;> rfl

/-- `r + (-l)` and `r - (-l)` when `l` is lost in `r` -/
theorem Spec.LostIn.width {x y : Ieee φ} (h : LostIn x y) : y + -x = y ∧ y - -x = y := by
  refine ⟨h.2.2.2, ?_⟩
  change y + - -x = y
  rw [ieee_neg_neg]; exact h.2.2.1

/-- In every floating-point format: if the distance `left` is zero or is lost in `right` by rounding, the orthographic
projection reports NaN as its `right`, and `unproject_point` and `unproject_vector` return NaN in the first coordinate,
for every argument.  The same holds of `bottom` and `top`, and of `near` and `far`. -/
theorem C88_orthographic_lost_fails (l r b t n f : Ieee φ) (p : Pt (Ieee φ) 3) (v : Vec (Ieee φ) 3) :
    let P := Orthographic3.new l r b t n f
    (LostIn l r → P.right = nan ∧ (P.unprojectPoint p).coords.data 0 = nan ∧ (P.unprojectVector v).data 0 = nan) ∧
    (LostIn b t → P.top = nan ∧ (P.unprojectPoint p).coords.data 1 = nan ∧ (P.unprojectVector v).data 1 = nan) ∧
    (LostIn n f → P.far = nan ∧ (P.unprojectPoint p).coords.data 2 = nan ∧ (P.unprojectVector v).data 2 = nan) := by
  intro P
  refine ⟨fun h => ?_, fun h => ?_, fun h => ?_⟩
  · have h30 : P.matrix.data 3 0 = -1 := by
      change -(r + -l) / (r - -l) = -1
      rw [h.width.1, h.width.2]
      exact ieee_neg_div_self h.1 h.2.1
    have hR : P.right = nan := by
      unfold Orthographic3.right
      simp only
      rw [h30]
      exact ratio_nan _
    refine ⟨hR, ?_, ?_⟩
    · change (1 / (1 + 1)) * (P.right + P.left) * p.coords.data 0 + (1 / (1 + 1)) * (P.right - P.left) = nan
      rw [hR, ieee_nan_add, ieee_mul_nan, ieee_nan_mul, ieee_nan_add]
    · change (1 / (1 + 1)) * (P.right + P.left) * v.data 0 = nan
      rw [hR, ieee_nan_add, ieee_mul_nan, ieee_nan_mul]
  · have h31 : P.matrix.data 3 1 = -1 := by
      change -(t + -b) / (t - -b) = -1
      rw [h.width.1, h.width.2]
      exact ieee_neg_div_self h.1 h.2.1
    have hR : P.top = nan := by
      unfold Orthographic3.top
      simp only
      rw [h31]
      exact ratio_nan _
    refine ⟨hR, ?_, ?_⟩
    · change (1 / (1 + 1)) * (P.top + P.bottom) * p.coords.data 1 + (1 / (1 + 1)) * (P.top - P.bottom) = nan
      rw [hR, ieee_nan_add, ieee_mul_nan, ieee_nan_mul, ieee_nan_add]
    · change (1 / (1 + 1)) * (P.top + P.bottom) * v.data 1 = nan
      rw [hR, ieee_nan_add, ieee_mul_nan, ieee_nan_mul]
  · have h32 : P.matrix.data 3 2 = -1 := by
      change -(f + n) / (f - n) = -1
      rw [h.2.2.1, h.2.2.2]
      exact ieee_neg_div_self h.1 h.2.1
    have hR : P.far = nan := by
      unfold Orthographic3.far
      simp only
      rw [h32]
      exact ratio_nan' _
    refine ⟨hR, ?_, ?_⟩
    · change -(1 / (1 + 1)) * (P.far - P.near) * p.coords.data 2 + -(1 / (1 + 1)) * (P.far + P.near) = nan
      rw [hR, ieee_nan_sub, ieee_mul_nan, ieee_nan_mul, ieee_nan_add]
    · change -(1 / (1 + 1)) * (P.far - P.near) * v.data 2 = nan
      rw [hR, ieee_nan_sub, ieee_mul_nan, ieee_nan_mul]

theorem ieee_nan_div (x : Ieee φ) : nan / x = nan := by cases x <;> rfl
theorem ieee_div_nan (x : Ieee φ) : x / nan = nan := by cases x <;> rfl
theorem ieee_add_nan (x : Ieee φ) : x + nan = nan := by cases x <;> rfl

/-- A perspective projection: if `left` is zero or lost in `right`, `right` is reported as NaN and the first coordinate
of every unprojected point and vector is NaN; the same holds of `bottom` and `top`.  If `near` is lost in `far`, then
`near` and all four sides are reported as NaN, and all coordinates of unprojected points and vectors are. -/
theorem C88_perspective_lost_fails (l r b t n f : Ieee φ) (v : Vec (Ieee φ) 3) :
    let P := Perspective3.new l r b t n f
    (LostIn l r → P.right = nan ∧ (P.unprojectPoint ⟨v⟩).coords.data 0 = nan ∧ (P.unprojectVector v).data 0 = nan) ∧
    (LostIn b t → P.top = nan ∧ (P.unprojectPoint ⟨v⟩).coords.data 1 = nan ∧ (P.unprojectVector v).data 1 = nan) ∧
    (LostIn n f → P.near = nan ∧ P.left = nan ∧ P.right = nan ∧ P.bottom = nan ∧ P.top = nan ∧
      ∀ i, (P.unprojectPoint ⟨v⟩).coords.data i = nan ∧ (P.unprojectVector v).data i = nan) := by
  intro P
  have c0 : (P.unprojectVector v).data 0 = ((P.right + P.left) / ((1 + 1) * P.near) * v.data 0 +
      (P.right - P.left) / ((1 + 1) * P.near)) *
      (1 / ((P.near - P.far) / ((1 + 1) * P.far * P.near) * v.data 2 + (P.far + P.near) / ((1 + 1) * P.far * P.near))) := rfl
  have c1 : (P.unprojectVector v).data 1 = ((P.top + P.bottom) / ((1 + 1) * P.near) * v.data 1 +
      (P.top - P.bottom) / ((1 + 1) * P.near)) *
      (1 / ((P.near - P.far) / ((1 + 1) * P.far * P.near) * v.data 2 + (P.far + P.near) / ((1 + 1) * P.far * P.near))) := rfl
  have c2 : (P.unprojectVector v).data 2 = -1 *
      (1 / ((P.near - P.far) / ((1 + 1) * P.far * P.near) * v.data 2 + (P.far + P.near) / ((1 + 1) * P.far * P.near))) := rfl
  have same : ∀ i, (P.unprojectPoint ⟨v⟩).coords.data i = (P.unprojectVector v).data i := fun _ => rfl
  have one_ratio : ((1 + 1 : Ieee φ) / (-1 + 1)) / ((1 + 1) / (-1 + 1) + 1) = nan := by
    rw [ieee_neg_one_add_one, ieee_two_div_zero]; rfl
  refine ⟨fun h => ?_, fun h => ?_, fun h => ?_⟩
  · have h20 : P.matrix.data 2 0 = 1 := by
      change (r + -l) / (r - -l) = 1
      rw [h.width.1, h.width.2]
      exact ieee_div_self h.1 h.2.1
    have hR : P.right = nan := by
      unfold Perspective3.right
      simp only
      rw [h20, one_ratio, ieee_mul_nan, ieee_nan_mul]
    have : (P.unprojectVector v).data 0 = nan := by
      rw [c0, hR, ieee_nan_add, ieee_nan_div, ieee_nan_mul, ieee_nan_add, ieee_nan_mul]
    exact ⟨hR, (same 0).trans this, this⟩
  · have h21 : P.matrix.data 2 1 = 1 := by
      change (t + -b) / (t - -b) = 1
      rw [h.width.1, h.width.2]
      exact ieee_div_self h.1 h.2.1
    have hR : P.top = nan := by
      unfold Perspective3.top
      simp only
      rw [h21, one_ratio, ieee_mul_nan, ieee_nan_mul]
    have : (P.unprojectVector v).data 1 = nan := by
      rw [c1, hR, ieee_nan_add, ieee_nan_div, ieee_nan_mul, ieee_nan_add, ieee_nan_mul]
    exact ⟨hR, (same 1).trans this, this⟩
  · have h22 : P.matrix.data 2 2 = -1 := by
      change -(f + n) / (f - n) = -1
      rw [h.2.2.1, h.2.2.2]
      exact ieee_neg_div_self h.1 h.2.1
    have hN : P.near = nan := by
      unfold Perspective3.near
      simp only
      rw [h22, ieee_neg_neg_one]
      have h0 : (1 - 1 : Ieee φ) = 0 := ieee_one_sub_one
      rw [h0, ieee_two_div_zero]
      have h2 : (1 + 1 : Ieee φ) * inf false = inf false := by
        have h2 : (1 + 1 : Ieee φ) = Ieee.round false (1 + 1) := rfl
        rw [h2]
        unfold Ieee.round
        have h : ¬ ((1 : ℝ) + 1 = 0) := by norm_num
        have h' : ¬ ((1 : ℝ) + 1 < 0) := by norm_num
        simp only [h, if_false, h', decide_false]
        split_ifs with hb
        · change (if φ.fl |(1 : ℝ) + 1| = 0 then nan else inf (false ^^ false) : Ieee φ) = _
          have h1 : (1 : ℝ) ≤ φ.fl |(1 : ℝ) + 1| := by
            calc (1 : ℝ) = φ.fl 1 := φ.one.symm
              _ ≤ _ := φ.mono _ _ (by rw [abs_of_pos] <;> norm_num)
          rw [if_neg (by linarith)]
          rfl
        · rfl
      rw [h2]
      have : ((1 - inf false) / inf false : Ieee φ) = nan := rfl
      rw [this, ieee_nan_mul]
    have side : ∀ x y : Ieee φ, (1 + 1) * P.near * x * y = nan := by
      intro x y; rw [hN, ieee_mul_nan, ieee_nan_mul, ieee_nan_mul]
    have hz : (1 / ((P.near - P.far) / ((1 + 1) * P.far * P.near) * v.data 2 + (P.far + P.near) / ((1 + 1) * P.far * P.near))) = nan := by
      rw [hN, ieee_nan_sub, ieee_nan_div, ieee_nan_mul, ieee_nan_add, ieee_div_nan]
    refine ⟨hN, side _ _, side _ _, side _ _, side _ _, fun i => ?_⟩
    have : (P.unprojectVector v).data i = nan := by
      fin_cases i
      · exact c0.trans (by rw [hz, ieee_mul_nan])
      · exact c1.trans (by rw [hz, ieee_mul_nan])
      · exact c2.trans (by rw [hz, ieee_mul_nan])
    exact ⟨(same i).trans this, this⟩

/-- So a first-quadrant box, with `left = 0` and `bottom = 0`, is never unprojected, and neither is a box that begins
at the eye, with `near = 0`. -/
theorem C88_first_quadrant_fails (r t f : Ieee φ) (hr : r.Finite) (hr0 : r.val ≠ 0) (ht : t.Finite) (ht0 : t.val ≠ 0)
    (hf : f.Finite) (hf0 : f.val ≠ 0) (p : Pt (Ieee φ) 3) (i : Fin 3) :
    ((Orthographic3.new 0 r 0 t 0 f).unprojectPoint p).coords.data i = nan := by
  have z : ∀ {y : Ieee φ}, y.Finite → y.val ≠ 0 → LostIn 0 y := fun hy hy0 => lostIn_zero finite_zero rfl hy hy0
  obtain ⟨h0, h1, h2⟩ := C88_orthographic_lost_fails 0 r 0 t 0 f p p.coords
  fin_cases i
  · exact (h0 (z hr hr0)).2.1
  · exact (h1 (z ht ht0)).2.1
  · exact (h2 (z hf hf0)).2.1

end Nan

/-! ### examples -/

section
/-- a box of the sizes of the theorems -/
example : Moderate 90 (1 : Ieee f64) ∧ NotTiny 300 ((1 : Ieee f64).val + (1 : Ieee f64).val) := by
  refine ⟨⟨finite_one, ?_⟩, ?_⟩
  · rw [val_one, abs_one]; exact one_le_zpow₀ one_le_two (by norm_num)
  · rw [val_one]
    change (2 : ℝ) ^ (-300 : ℤ) ≤ _
    calc (2 : ℝ) ^ (-300 : ℤ) ≤ 2 ^ (0 : ℤ) := two_zpow_le_self_of_le (by norm_num)
      _ ≤ _ := by norm_num

/-- the perspective matrix of the frustum with the sides 1, 1, 1, 1 and the planes 1 and 2 -/
example (c i : Fin 4) : Relative64 5 ((fromPerspective 1 1 1 1 1 ((1 : Ieee f64) + 1)).data c i) (perspective 1 1 1 1 1 2 c i) := by
  have w0 : ∀ {a : ℝ}, 1 ≤ |a| → NotTiny 300 a := fun h => by
    change (2 : ℝ) ^ (-300 : ℤ) ≤ _
    exact le_trans (two_zpow_le_self_of_le (show (-300 : ℤ) ≤ 0 by norm_num)) (by simpa using h)
  have m1 : Moderate 300 (1 : Ieee f64) := ⟨finite_one, by rw [val_one, abs_one]; exact one_le_zpow₀ one_le_two (by norm_num)⟩
  have m2 : Moderate 300 ((1 : Ieee f64) + 1) := ⟨is_two64.1, by
    rw [is_two64.2, abs_two]
    calc (2 : ℝ) = 2 ^ (1 : ℤ) := by norm_num
      _ ≤ _ := two_zpow_le_self_of_le (by norm_num)⟩
  have := C88_perspective_matrix 1 1 1 1 1 (1 + 1) m1 m1 m1 m1 m1 m2 (w0 (by norm_num)) (w0 (by norm_num))
    (w0 (by rw [is_two64.2]; norm_num)) (w0 (by norm_num)) (w0 (by rw [is_two64.2]; norm_num)) c i
  rwa [is_two64.2, val_one] at this

/-- a near plane at distance 1 is lost in a far plane at distance `2 ^ 60` -/
example : LostIn (1 : Ieee f64) (num (2 ^ 60)) := by
  have h : Is (num (2 ^ 60)) (2 ^ 60) := is_num' (fl64 60 4503599627370496) (by norm_num)
  refine ⟨h.1, by rw [h.2]; positivity, ?_, ?_⟩
  · exact (h.add Is.one (c := 2 ^ 60) (fl64 60 4503599627370496) (by norm_num)).eq_pos h (by positivity)
  · exact (h.sub Is.one (c := 2 ^ 60) (fl64 59 9007199254740992) (by norm_num)).eq_pos h (by positivity)
end

end Cgl
