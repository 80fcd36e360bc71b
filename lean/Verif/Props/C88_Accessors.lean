import Verif.Props.C88_FloatProjection

/-! # C88 - the accessors of projections in `f64`

The accessors recompute the parameters from the matrix.  For a positive view volume they return them with a relative
error that grows with the ratio of the parameters. -/

namespace Cgl
open Ieee FloatFns Mat Spec

/-! ### sums of approximate numbers -/

/-- a factor close to one -/
theorem factor_near {m : ℕ} {θ w : ℝ} (hm : m ≤ 2 ^ 50) (hw : 2 * w ≤ m * 2 ^ (-53 : ℤ)) (hw0 : 0 ≤ w) (h : |θ - 1| ≤ w) :
    rd ^ m ≤ θ ∧ θ * rd ^ m ≤ 1 := by
  have h1 := rd_pow_mul m
  have hp := pow_pos rd_pos m
  obtain ⟨h2, h3⟩ := abs_le.mp h
  have hm' : (m : ℝ) ≤ 2 ^ 50 := by exact_mod_cast hm
  have hmu : (m : ℝ) * 2 ^ (-53 : ℤ) ≤ 1 / 8 := by
    have := mul_le_mul_of_nonneg_right hm' (by positivity : (0 : ℝ) ≤ 2 ^ (-53 : ℤ))
    have h : (2 : ℝ) ^ 50 * 2 ^ (-53 : ℤ) = 1 / 8 := by norm_num
    linarith
  generalize (m : ℝ) * 2 ^ (-53 : ℤ) = v at *
  constructor
  · have h4 : 1 ≤ (1 - w) * (1 + v) := by nlinarith
    have h5 : rd ^ m ≤ 1 - w := le_of_mul_le_mul_right (h1.trans h4) (by linarith)
    linarith
  · calc θ * rd ^ m ≤ (1 + v) * rd ^ m := mul_le_mul_of_nonneg_right (by linarith) hp.le
      _ ≤ 1 := by linarith [mul_comm (rd ^ m) (1 + v)]

theorem rl_sum_finite {k : ℕ} {x y : Ieee f64} {a b : ℝ} (hx : Rl k x a) (hy : Rl k y b) (hk : k ≤ 2 ^ 50)
    (ha : |a| ≤ 2 ^ (1000 : ℤ)) (hb : |b| ≤ 2 ^ (1000 : ℤ)) : (x + y).Finite := by
  have bx := (hx.bounds hk).2
  have by' := (hy.bounds hk).2
  have hs : |x.val + y.val| ≤ 2 ^ (1002 : ℤ) := by
    rw [show (1002 : ℤ) = 1000 + 1 + 1 by norm_num, ← zpow_two_mul, ← zpow_two_mul]
    exact (abs_add_le _ _).trans (by linarith)
  exact finite_add_of hx.1 hy.1 ((fl_le_pow (by norm_num) hs).trans (two_zpow_le_big (by norm_num)))

/-- a sum in which at most a factor `N` cancels -/
theorem Rl.cancel {k N : ℕ} {x y : Ieee f64} {a b : ℝ} (hx : Rl k x a) (hy : Rl k y b)
    (h : |a| + |b| ≤ N * |a + b|) (hk : k ≤ 2 ^ 50) (hkN : 4 * k * N ≤ 2 ^ 50) (ha : |a| ≤ 2 ^ (1000 : ℤ)) (hb : |b| ≤ 2 ^ (1000 : ℤ)) :
    Rl (4 * k * N + 1) (x + y) (a + b) := by
  have hf := rl_sum_finite hx hy hk ha hb
  have ex := hx.err2 hk
  have ey := hy.err2 hk
  have hN : (0 : ℝ) ≤ N := Nat.cast_nonneg N
  have hk0 : (0 : ℝ) ≤ k := Nat.cast_nonneg k
  have hfin : ∃ s : ℝ, x.val + y.val = (a + b) * s ∧ rd ^ (4 * k * N) ≤ s ∧ s * rd ^ (4 * k * N) ≤ 1 := by
    by_cases h0 : a + b = 0
    · rw [h0, abs_zero, mul_zero] at h
      have ha0 : a = 0 := abs_nonpos_iff.mp (by linarith [abs_nonneg a, abs_nonneg b])
      have hb0 : b = 0 := abs_nonpos_iff.mp (by linarith [abs_nonneg a, abs_nonneg b])
      rw [ha0, abs_zero, mul_zero, sub_zero] at ex
      rw [hb0, abs_zero, mul_zero, sub_zero] at ey
      refine ⟨1, ?_, pow_le_one₀ rd_pos.le rd_le, by rw [one_mul]; exact pow_le_one₀ rd_pos.le rd_le⟩
      rw [abs_nonpos_iff.mp ex, abs_nonpos_iff.mp ey, h0]; ring
    · refine ⟨(x.val + y.val) / (a + b), by field_simp, ?_⟩
      refine factor_near (w := 2 * k * 2 ^ (-53 : ℤ) * N) hkN (by push_cast; linarith) (by positivity) ?_
      rw [show (x.val + y.val) / (a + b) - 1 = ((x.val - a) + (y.val - b)) / (a + b) by field_simp; ring, abs_div,
        div_le_iff₀ (abs_pos.mpr h0)]
      calc |x.val - a + (y.val - b)| ≤ |x.val - a| + |y.val - b| := abs_add_le _ _
        _ ≤ 2 * k * 2 ^ (-53 : ℤ) * (|a| + |b|) := by linarith
        _ ≤ 2 * k * 2 ^ (-53 : ℤ) * (N * |a + b|) := mul_le_mul_of_nonneg_left h (by positivity)
        _ = _ := by ring
  obtain ⟨s, hs, h1, h2⟩ := hfin
  exact Rl.round hf (val_add hf) hs h1 h2 (fl_sum_err (val_rep x) (val_rep y))

/-- a sum of positive numbers -/
theorem Rl.addPos {k : ℕ} {x y : Ieee f64} {a b : ℝ} (hx : Rl k x a) (hy : Rl k y b) (hk : k ≤ 2 ^ 50)
    (ha0 : 0 < a) (hb0 : 0 < b) (ha : |a| ≤ 2 ^ (1000 : ℤ)) (hb : |b| ≤ 2 ^ (1000 : ℤ)) : Rl (k + 1) (x + y) (a + b) := by
  have hf := rl_sum_finite hx hy hk ha hb
  obtain ⟨-, s, hvx, hs1, hs2⟩ := hx
  obtain ⟨-, t, hvy, ht1, ht2⟩ := hy
  have hab : 0 < a + b := by linarith
  refine Rl.round (s := (a * s + b * t) / (a + b)) hf (val_add hf) (by rw [hvx, hvy]; field_simp) ?_ ?_
    (fl_sum_err (val_rep x) (val_rep y))
  · rw [le_div_iff₀ hab]; nlinarith
  · rw [div_mul_eq_mul_div, div_le_iff₀ hab]; nlinarith

/-! ### the sides of the volume -/

theorem le1000 {a : ℝ} {k : ℤ} (h : |a| ≤ 2 ^ k) (hk : k ≤ 1000 := by norm_num) : |a| ≤ 2 ^ (1000 : ℤ) :=
  h.trans (two_zpow_le_self_of_le hk)

theorem one_le1000 : |(1 : ℝ)| ≤ 2 ^ (1000 : ℤ) := by rw [abs_one]; exact one_le_zpow₀ one_le_two (by norm_num)

section
variable {l r m3 m0 : Ieee f64} {L : ℕ}

/-- the ratio `(1 - A) / (1 + A)` of the sides, from the entry `A = -(r - l) / (r + l)` and its negative -/
theorem rl_ratio {p q : Ieee f64} {x y : ℝ} (hx : 0 < x) (hy : 0 < y) (hL : L ≤ 2 ^ 40) (h1 : y + x ≤ L * x) (h2 : y + x ≤ L * y)
    (hp : Rl 3 p ((y - x) / (y + x))) (hq : Rl 3 q (-(y - x) / (y + x))) :
    Rl (24 * L + 3) ((p + 1) / (q + 1)) (y / x) ∧ Rl (24 * L + 4) ((p + 1) / (q + 1) + 1) ((y + x) / x) := by
  have hyx : 0 < y + x := by linarith
  have hL0 : (0 : ℝ) ≤ L := Nat.cast_nonneg L
  have habs : |(y - x) / (y + x)| ≤ 1 := by
    rw [abs_div, abs_of_pos hyx, div_le_one hyx]
    exact abs_le.mpr ⟨by linarith, by linarith⟩
  have habs' : |-(y - x) / (y + x)| ≤ 1 := by rw [neg_div, abs_neg]; exact habs
  have e1 : (y - x) / (y + x) + 1 = 2 * y / (y + x) := by field_simp; ring
  have e2 : -(y - x) / (y + x) + 1 = 2 * x / (y + x) := by field_simp; ring
  have p1 : (1 : ℝ) ≤ 2 ^ (1000 : ℤ) := one_le_zpow₀ one_le_two (by norm_num)
  have c1 : Rl (4 * 3 * L + 1) (p + 1) ((y - x) / (y + x) + 1) := by
    refine Rl.cancel hp (rl_one.mono (by norm_num)) ?_ (by norm_num) (by omega) (habs.trans p1) one_le1000
    rw [e1, abs_one, abs_of_pos (show 0 < 2 * y / (y + x) by positivity)]
    have : 2 ≤ L * (2 * y / (y + x)) := by
      rw [mul_div_assoc', le_div_iff₀ hyx]; linarith
    linarith
  have c2 : Rl (4 * 3 * L + 1) (q + 1) (-(y - x) / (y + x) + 1) := by
    refine Rl.cancel hq (rl_one.mono (by norm_num)) ?_ (by norm_num) (by omega) (habs'.trans p1) one_le1000
    rw [e2, abs_one, abs_of_pos (show 0 < 2 * x / (y + x) by positivity)]
    have : 2 ≤ L * (2 * x / (y + x)) := by
      rw [mul_div_assoc', le_div_iff₀ hyx]; linarith
    linarith
  rw [e1] at c1
  rw [e2] at c2
  have hL' : (L : ℝ) ≤ 2 ^ (40 : ℤ) := by exact_mod_cast hL
  have hr : 2 * y / (y + x) / (2 * x / (y + x)) = y / x := by field_simp
  have hyx1 : y / x ≤ 2 ^ (40 : ℤ) := by
    rw [div_le_iff₀ hx]
    have := mul_le_mul_of_nonneg_right hL' hx.le
    linarith
  have hyx2 : (2 : ℝ) ^ (-40 : ℤ) ≤ y / x := by
    rw [le_div_iff₀ hx, zpow_neg, inv_mul_le_iff₀ (by positivity)]
    have := mul_le_mul_of_nonneg_right hL' hy.le
    linarith
  have hpos : 0 < y / x := by positivity
  have q1 : Rl (24 * L + 3) ((p + 1) / (q + 1)) (y / x) := by
    have := Rl.div c1 c2 (by omega) (by positivity)
      (Or.inr (by rw [hr, abs_of_pos hpos]; exact (two_zpow_le_self_of_le (by norm_num)).trans hyx2))
      (by rw [hr, abs_of_pos hpos]; exact hyx1.trans (two_zpow_le_self_of_le (by norm_num)))
    rw [hr] at this
    exact this.mono (by omega)
  refine ⟨q1, ?_⟩
  have := Rl.addPos q1 (rl_one.mono (by omega)) (by omega) hpos one_pos
    (by rw [abs_of_pos hpos]; exact hyx1.trans (two_zpow_le_self_of_le (by norm_num))) one_le1000
  rwa [show y / x + 1 = (y + x) / x by field_simp] at this

/-- the two shares of the width: `y / (y + x)` and `x / (y + x)` -/
theorem rl_shares {ρ ρ1 : Ieee f64} {x y : ℝ} (hx : 0 < x) (hy : 0 < y) (hL : L ≤ 2 ^ 40) (h1 : y + x ≤ L * x) (h2 : y + x ≤ L * y)
    (hρ : Rl (24 * L + 3) ρ (y / x)) (hρ1 : Rl (24 * L + 4) ρ1 ((y + x) / x)) :
    Rl (48 * L + 8) (ρ / ρ1) (y / (y + x)) ∧ Rl (48 * L + 8) (1 / ρ1) (x / (y + x)) := by
  have hyx : 0 < y + x := by linarith
  have hL' : (L : ℝ) ≤ 2 ^ (40 : ℤ) := by exact_mod_cast hL
  have w : ∀ {x y : ℤ}, x ≤ y → (2 : ℝ) ^ x ≤ 2 ^ y := two_zpow_le_self_of_le
  have p1 : (1 : ℝ) ≤ 2 ^ (1000 : ℤ) := one_le_zpow₀ one_le_two (by norm_num)
  have share : ∀ z : ℝ, 0 < z → z ≤ y + x → y + x ≤ L * z → (2 : ℝ) ^ (-1000 : ℤ) ≤ |z / (y + x)| ∧ |z / (y + x)| ≤ 2 ^ (1000 : ℤ) := by
    intro z hz hz1 hz2
    have hpos : 0 < z / (y + x) := by positivity
    rw [abs_of_pos hpos]
    constructor
    · refine (w (show (-1000 : ℤ) ≤ -40 by norm_num)).trans ?_
      rw [le_div_iff₀ hyx, zpow_neg, inv_mul_le_iff₀ (by positivity)]
      exact hz2.trans (mul_le_mul_of_nonneg_right hL' hz.le)
    · exact ((div_le_one hyx).mpr hz1).trans p1
  constructor
  · have e : y / x / ((y + x) / x) = y / (y + x) := by field_simp
    obtain ⟨s1, s2⟩ := share y hy (by linarith) h2
    have := Rl.div hρ hρ1 (by omega) (by positivity) (Or.inr (by rw [e]; exact s1)) (by rw [e]; exact s2)
    rw [e] at this
    exact this.mono (by omega)
  · have e : 1 / ((y + x) / x) = x / (y + x) := by field_simp
    obtain ⟨s1, s2⟩ := share x hx (by linarith) h1
    have := Rl.div rl_one hρ1 (by omega) (by positivity) (Or.inr (by rw [e]; exact s1)) (by rw [e]; exact s2)
    rw [e] at this
    exact this.mono (by omega)

/-- `two * share * (1 / scale)` -/
theorem rl_side {k : ℕ} {s m : Ieee f64} {z d : ℝ} (hz : 0 < z) (hd : 0 < d) (hd1 : (2 : ℝ) ^ (-300 : ℤ) ≤ d) (hd2 : d ≤ 2 ^ (301 : ℤ))
    (hzd : z ≤ d) (hzL : d ≤ L * z) (hL : L ≤ 2 ^ 40) (hk : k ≤ 2 ^ 49) (hs : Rl k s (z / d)) (hm : Rl 2 m (2 / d)) :
    Rl (k + 5) ((1 + 1) * s * (1 / m)) z := by
  have hL' : (L : ℝ) ≤ 2 ^ (40 : ℤ) := by exact_mod_cast hL
  have w : ∀ {x y : ℤ}, x ≤ y → (2 : ℝ) ^ x ≤ 2 ^ y := two_zpow_le_self_of_le
  have p1 : (1 : ℝ) ≤ 2 ^ (1000 : ℤ) := one_le_zpow₀ one_le_two (by norm_num)
  have hzd1 : z / d ≤ 1 := (div_le_one hd).mpr hzd
  have hzd2 : (2 : ℝ) ^ (-40 : ℤ) ≤ z / d := by
    rw [le_div_iff₀ hd, zpow_neg, inv_mul_le_iff₀ (by positivity)]
    exact hzL.trans (mul_le_mul_of_nonneg_right hL' hz.le)
  have hpos : 0 < z / d := by positivity
  have a1 : Rl (0 + k + 1) ((1 + 1) * s) (2 * (z / d)) := by
    refine Rl.mul rl_two hs (by omega) (Or.inr ?_) ?_
    · rw [abs_of_pos (by positivity)]
      have := (w (show (-1000 : ℤ) ≤ -40 by norm_num)).trans hzd2
      linarith
    · rw [abs_of_pos (by positivity)]
      have : (2 : ℝ) ≤ 2 ^ (1000 : ℤ) := by
        calc (2 : ℝ) = 2 ^ (1 : ℤ) := by norm_num
          _ ≤ _ := w (by norm_num)
      exact le_trans (by linarith) this
  have e : 1 / (2 / d) = d / 2 := by field_simp
  have a2 : Rl (0 + 2 + 1) (1 / m) (1 / (2 / d)) := by
    refine Rl.div rl_one hm (by norm_num) (by positivity) (Or.inr ?_) ?_
    · rw [e, abs_of_pos (by positivity)]
      refine (w (show (-1000 : ℤ) ≤ -300 - 1 by norm_num)).trans ?_
      rw [← zpow_half]; linarith
    · rw [e, abs_of_pos (by positivity)]
      exact le_trans (by linarith) (hd2.trans (w (show (301 : ℤ) ≤ 1000 by norm_num)))
  rw [e] at a2
  have e2 : 2 * (z / d) * (d / 2) = z := by field_simp
  have := Rl.mul a1 a2 (by omega) (Or.inr (by
      rw [e2, abs_of_pos hz]
      refine (w (show (-1000 : ℤ) ≤ -40 + -300 by norm_num)).trans ?_
      rw [zpow_add₀ two_ne_zero]
      calc (2 : ℝ) ^ (-40 : ℤ) * 2 ^ (-300 : ℤ) ≤ z / d * d := mul_le_mul hzd2 hd1 (by positivity) hpos.le
        _ = z := by field_simp)) (by
      rw [e2, abs_of_pos hz]
      exact hzd.trans (hd2.trans (w (by norm_num))))
  rw [e2] at this
  exact this.mono (by omega)
end

theorem relative_of_rl {k : ℕ} {x : Ieee f64} {a c : ℝ} (h : Rl k x a) (hk : k ≤ 2 ^ 50) (hc : 2 * (k : ℝ) ≤ c) : Relative64 c x a :=
  ⟨h.1, (h.err2 hk).trans (by gcongr)⟩

theorem two_le_of_sum {x y : ℝ} {L : ℕ} (hx : 0 < x) (hy : 0 < y) (h1 : y + x ≤ L * x) (h2 : y + x ≤ L * y) : 2 ≤ (L : ℝ) := by
  by_contra h
  rw [not_le] at h
  rcases le_total x y with hxy | hxy <;> nlinarith

/-- The sides of an orthographic projection with positive distances are recovered from its matrix with a relative error of
at most `128 L * 2 ^ -53`, where the width is at most `L` times the smaller distance. -/
theorem C88_orthographic_sides (l r b t n f : Ieee f64) (hl : Moderate 300 l) (hr : Moderate 300 r)
    (hw : NotTiny 300 (r.val + l.val)) (hl0 : 0 < l.val) (hr0 : 0 < r.val) (L : ℕ) (hL : L ≤ 2 ^ 40)
    (h1 : r.val + l.val ≤ L * l.val) (h2 : r.val + l.val ≤ L * r.val) :
    Relative64 (128 * L) (Orthographic3.new l r b t n f).left l.val ∧
      Relative64 (128 * L) (Orthographic3.new l r b t n f).right r.val := by
  have hm0 := rl_scale hl hr hw
  have hm3 := rl_shift_neg hl hr hw
  have hm3' := hm3.neg
  rw [show -(-(r.val - l.val) / (r.val + l.val)) = (r.val - l.val) / (r.val + l.val) by rw [neg_div, neg_neg]] at hm3'
  obtain ⟨q1, q2⟩ := rl_ratio hl0 hr0 hL h1 h2 hm3' hm3
  obtain ⟨s1, s2⟩ := rl_shares hl0 hr0 hL h1 h2 q1 q2
  have hd : 0 < r.val + l.val := by linarith
  have hd1 : (2 : ℝ) ^ (-300 : ℤ) ≤ r.val + l.val := by have := ge300 (k := -300) hw; rwa [abs_of_pos hd] at this
  have hd2 : r.val + l.val ≤ 2 ^ (301 : ℤ) := by have := moderate_add_le hl hr; rwa [abs_of_pos hd] at this
  have hL2 := two_le_of_sum hl0 hr0 h1 h2
  have R := rl_side hr0 hd hd1 hd2 (by linarith) h2 hL (by omega) s1 hm0
  have Lf := rl_side hl0 hd hd1 hd2 (by linarith) h1 hL (by omega) s2 hm0
  exact ⟨relative_of_rl Lf (by omega) (by push_cast; linarith), relative_of_rl R (by omega) (by push_cast; linarith)⟩

/-- The same for `bottom` and `top`. -/
theorem C88_orthographic_heights (l r b t n f : Ieee f64) (hl : Moderate 300 b) (hr : Moderate 300 t)
    (hw : NotTiny 300 (t.val + b.val)) (hl0 : 0 < b.val) (hr0 : 0 < t.val) (L : ℕ) (hL : L ≤ 2 ^ 40)
    (h1 : t.val + b.val ≤ L * b.val) (h2 : t.val + b.val ≤ L * t.val) :
    Relative64 (128 * L) (Orthographic3.new l r b t n f).bottom b.val ∧
      Relative64 (128 * L) (Orthographic3.new l r b t n f).top t.val :=
  C88_orthographic_sides b t b t n f hl hr hw hl0 hr0 L hL h1 h2

/-! ### the near and far planes -/

/-- a positive number in the range in which products and quotients have relative errors -/
def InR (c : ℝ) : Prop := (2 : ℝ) ^ (-1000 : ℤ) ≤ |c| ∧ |c| ≤ 2 ^ (1000 : ℤ)

theorem inR_of {c : ℝ} (k : ℤ) (hk : k ≤ 1000) (h1 : (2 : ℝ) ^ (-k) ≤ |c|) (h2 : |c| ≤ 2 ^ k) : InR c :=
  ⟨(two_zpow_le_self_of_le (by omega)).trans h1, h2.trans (two_zpow_le_self_of_le hk)⟩

theorem inR_neg {c : ℝ} (h : InR c) : InR (-c) := by unfold InR; rw [abs_neg]; exact h

theorem Rl.mulR {j k : ℕ} {x y : Ieee f64} {a b c : ℝ} (hx : Rl j x a) (hy : Rl k y b) (hjk : j + k ≤ 2 ^ 50) (e : a * b = c)
    (h : InR c) : Rl (j + k + 1) (x * y) c := by
  subst e; exact Rl.mul hx hy hjk (Or.inr h.1) h.2

theorem Rl.divR {j k : ℕ} {x y : Ieee f64} {a b c : ℝ} (hx : Rl j x a) (hy : Rl k y b) (hjk : j + k ≤ 2 ^ 50) (hb : b ≠ 0)
    (e : a / b = c) (h : InR c) : Rl (j + k + 1) (x / y) c := by
  subst e; exact Rl.div hx hy hjk hb (Or.inr h.1) h.2

section
variable {n f : ℝ} {N M : ℕ}

/-- bounds that follow from the ratios `f ≤ N n` and `f + n ≤ M (f - n)` -/
theorem planes_bounds (hn : 0 < n) (hf : n < f) (hNM : N * M ≤ 2 ^ 40) (h1 : f ≤ N * n) (h2 : f + n ≤ M * (f - n)) :
    1 ≤ N ∧ 1 ≤ M ∧ N ≤ N * M ∧ M ≤ N * M ∧ InR (f / n) ∧ InR ((f - n) / n) ∧ InR (n / (f - n)) ∧ InR (f / (f - n)) ∧
      InR (2 * (f / n)) ∧ InR ((f - n) / (2 * f)) ∧ InR ((f - n) / n / 2) ∧ InR (2 * (n / (f - n))) ∧ InR (2 * (f / (f - n))) := by
  have hd : 0 < f - n := by linarith
  have hf0 : 0 < f := by linarith
  have hN1 : 1 ≤ N := by
    by_contra h
    have : N = 0 := by omega
    rw [this] at h1; push_cast at h1; linarith
  have hM1 : 1 ≤ M := by
    by_contra h
    have : M = 0 := by omega
    rw [this] at h2; push_cast at h2; linarith
  have a1 : N ≤ N * M := Nat.le_mul_of_pos_right _ hM1
  have a2 : M ≤ N * M := Nat.le_mul_of_pos_left _ hN1
  have hN' : (N : ℝ) ≤ 2 ^ (40 : ℤ) := by exact_mod_cast a1.trans hNM
  have hM' : (M : ℝ) ≤ 2 ^ (40 : ℤ) := by exact_mod_cast a2.trans hNM
  have i40 : (2 : ℝ) ^ (-40 : ℤ) ≤ 1 := by norm_num
  have v1 : f ≤ 2 ^ (40 : ℤ) * n := h1.trans (mul_le_mul_of_nonneg_right hN' hn.le)
  have v2 : f + n ≤ 2 ^ (40 : ℤ) * (f - n) := h2.trans (mul_le_mul_of_nonneg_right hM' hd.le)
  have k : ∀ x y : ℝ, 0 < x → 0 < y → x ≤ 2 ^ (43 : ℤ) * y → y ≤ 2 ^ (43 : ℤ) * x → InR (x / y) := by
    intro x y hx hy h3 h4
    refine inR_of 43 (by norm_num) ?_ ?_
    · rw [abs_of_pos (by positivity), le_div_iff₀ hy, zpow_neg, inv_mul_le_iff₀ (by positivity)]; exact h4
    · rw [abs_of_pos (by positivity), div_le_iff₀ hy]; exact h3
  have e43 : (2 : ℝ) ^ (43 : ℤ) = 8 * 2 ^ (40 : ℤ) := by norm_num
  have e40 : (1 : ℝ) ≤ 2 ^ (40 : ℤ) := by norm_num
  rw [e43] at k
  generalize (2 : ℝ) ^ (40 : ℤ) = K at *
  have t1 : n ≤ K * n := by nlinarith
  have t2 : f ≤ K * f := by nlinarith
  have t3 : f - n ≤ K * (f - n) := by nlinarith
  refine ⟨hN1, hM1, a1, a2, k _ _ hf0 hn ?_ ?_, k _ _ hd hn ?_ ?_, k _ _ hn hd ?_ ?_, k _ _ hf0 hd ?_ ?_, ?_, k _ _ hd (by positivity) ?_ ?_,
    ?_, ?_, ?_⟩
  · linarith
  · linarith
  · linarith
  · linarith
  · linarith
  · linarith
  · linarith
  · linarith
  · rw [← mul_div_assoc]; exact k _ _ (by positivity) hn (by linarith) (by linarith)
  · linarith
  · linarith
  · rw [div_div]; exact k _ _ hd (by positivity) (by linarith) (by linarith)
  · rw [← mul_div_assoc]; exact k _ _ (by positivity) hd (by linarith) (by linarith)
  · rw [← mul_div_assoc]; exact k _ _ (by positivity) hd (by linarith) (by linarith)

/-- the ratio of the planes, and the ratio less one -/
theorem rl_planes {m : Ieee f64} (hn : 0 < n) (hf : n < f) (hNM : N * M ≤ 2 ^ 40) (h1 : f ≤ N * n) (h2 : f + n ≤ M * (f - n))
    (hm : Rl 3 m (-(f + n) / (f - n))) :
    Rl (12 * N + 6) ((-m + 1) / (-m - 1)) (f / n) ∧
      Rl (48 * (N * M) + 24 * M + 1) ((-m + 1) / (-m - 1) - 1) ((f - n) / n) ∧
      Rl (48 * (N * M) + 24 * M + 1) (1 - (-m + 1) / (-m - 1)) (-((f - n) / n)) := by
  obtain ⟨hN1, hM1, a1, a2, r1, r2, r3, r4, -⟩ := planes_bounds hn hf hNM h1 h2
  have hd : 0 < f - n := by linarith
  have hf0 : 0 < f := by linarith
  have hmn := hm.neg
  have e0 : -(-(f + n) / (f - n)) = (f + n) / (f - n) := by rw [neg_div, neg_neg]
  rw [e0] at hmn
  have hpos : 0 < (f + n) / (f - n) := by positivity
  have hC : |(f + n) / (f - n)| ≤ 2 ^ (1000 : ℤ) := by
    rw [abs_of_pos hpos, div_le_iff₀ hd]
    have : (M : ℝ) ≤ 2 ^ (40 : ℤ) := by exact_mod_cast a2.trans hNM
    exact h2.trans (mul_le_mul_of_nonneg_right (this.trans (two_zpow_le_self_of_le (by norm_num))) hd.le)
  have c1 : Rl 4 (-m + 1) ((f + n) / (f - n) + 1) :=
    Rl.addPos hmn (rl_one.mono (by norm_num)) (by norm_num) hpos one_pos hC one_le1000
  have c2 : Rl (4 * 3 * N + 1) (-m - 1) ((f + n) / (f - n) + -1) := by
    refine Rl.cancel hmn (rl_one.neg.mono (by norm_num)) ?_ (by norm_num) (by omega) hC (by rw [abs_neg]; exact one_le1000)
    have e : (f + n) / (f - n) + -1 = 2 * n / (f - n) := by field_simp; ring
    rw [e, abs_neg, abs_one, abs_of_pos hpos, abs_of_pos (show 0 < 2 * n / (f - n) by positivity)]
    have e' : (f + n) / (f - n) + 1 = 2 * f / (f - n) := by field_simp; ring
    rw [e', mul_div_assoc', div_le_div_iff_of_pos_right hd]
    linarith
  have e1 : ((f + n) / (f - n) + 1) / ((f + n) / (f - n) + -1) = f / n := by
    have h3 : (f + n) / (f - n) + 1 = 2 * f / (f - n) := by field_simp; ring
    have h4 : (f + n) / (f - n) + -1 = 2 * n / (f - n) := by field_simp; ring
    rw [h3, h4]; field_simp
  have hb : (f + n) / (f - n) + -1 ≠ 0 := by
    have h4 : (f + n) / (f - n) + -1 = 2 * n / (f - n) := by field_simp; ring
    rw [h4]; positivity
  have q : Rl (12 * N + 6) ((-m + 1) / (-m - 1)) (f / n) := (Rl.divR c1 c2 (by omega) hb e1 r1).mono (by omega)
  have hfn : 0 < f / n := by positivity
  have hcan : |f / n| + |(-1 : ℝ)| ≤ M * |f / n + -1| := by
    have e : f / n + -1 = (f - n) / n := by field_simp; ring
    rw [e, abs_neg, abs_one, abs_of_pos hfn, abs_of_pos (show 0 < (f - n) / n by positivity)]
    have e' : f / n + 1 = (f + n) / n := by field_simp
    rw [e', mul_div_assoc', div_le_div_iff_of_pos_right hn]
    exact h2
  have hsz : 4 * (12 * N + 6) * M = 48 * (N * M) + 24 * M := by ring
  have d1 : Rl (4 * (12 * N + 6) * M + 1) ((-m + 1) / (-m - 1) - 1) (f / n + -1) :=
    Rl.cancel q (rl_one.neg.mono (by omega)) hcan (by omega) (by omega) r1.2 (by rw [abs_neg]; exact one_le1000)
  have d2 : Rl (4 * (12 * N + 6) * M + 1) (1 - (-m + 1) / (-m - 1)) (1 + -(f / n)) := by
    refine Rl.cancel (rl_one.mono (by omega)) q.neg ?_ (by omega) (by omega) one_le1000 (by rw [abs_neg]; exact r1.2)
    have : |(1 : ℝ) + -(f / n)| = |f / n + -1| := by rw [← abs_neg]; congr 1; ring
    rw [this, abs_neg, abs_one, add_comm]
    rwa [abs_neg, abs_one] at hcan
  rw [hsz] at d1 d2
  refine ⟨q, ?_, ?_⟩
  · rwa [show f / n + -1 = (f - n) / n by field_simp; ring] at d1
  · rwa [show 1 + -(f / n) = -((f - n) / n) by field_simp; ring] at d2
end

section
variable {n f : Ieee f64}

theorem inR_plane {x : Ieee f64} (h : Moderate 300 x) (h' : NotTiny 300 x.val) : InR x.val :=
  inR_of 300 (by norm_num) h' h.2

/-- The near and far planes of an orthographic projection are recovered from its matrix with a relative error of at most
`200 N M * 2 ^ -53`, where `far` is at most `N` times `near`, and their sum is at most `M` times their difference. -/
theorem C88_orthographic_planes (l r b t n f : Ieee f64) (hn : Moderate 300 n) (hf : Moderate 300 f) (hn' : NotTiny 300 n.val)
    (hw : NotTiny 300 (f.val - n.val)) (hn0 : 0 < n.val) (hnf : n.val < f.val) (N M : ℕ) (hNM : N * M ≤ 2 ^ 40)
    (h1 : f.val ≤ N * n.val) (h2 : f.val + n.val ≤ M * (f.val - n.val)) :
    Relative64 (200 * (N * M)) (Orthographic3.new l r b t n f).near n.val ∧
      Relative64 (200 * (N * M)) (Orthographic3.new l r b t n f).far f.val := by
  obtain ⟨hN1, hM1, a1, a2, r1, r2, r3, r4, -, -, -, r5, r6⟩ := planes_bounds hn0 hnf hNM h1 h2
  have hd : 0 < f.val - n.val := by linarith
  have hf0 : 0 < f.val := by linarith
  have hf' : NotTiny 300 f.val := by
    have : (2 : ℝ) ^ (-300 : ℤ) ≤ |n.val| := hn'
    rw [abs_of_pos hn0] at this
    change (2 : ℝ) ^ (-300 : ℤ) ≤ |f.val|
    rw [abs_of_pos hf0]; linarith
  obtain ⟨q1, q2, -⟩ := rl_planes hn0 hnf hNM h1 h2 (rl_depth hn hf hw)
  have m22 := rl_depth_scale hn hf hw
  have hw1 : |f.val - n.val| ≤ 2 ^ (301 : ℤ) := moderate_sub_le hn hf
  have hw2 : (2 : ℝ) ^ (-300 : ℤ) ≤ |f.val - n.val| := hw
  have rw2 : InR (-((f.val - n.val) / 2)) := by
    refine inR_of 301 (by norm_num) ?_ ?_
    · rw [abs_neg, abs_div, abs_two, show (-301 : ℤ) = -300 - 1 by norm_num, ← zpow_half]
      exact div_le_div_of_nonneg_right hw2 (by norm_num)
    · rw [abs_neg, abs_div, abs_two]
      exact (half_le_self (abs_nonneg _)).trans hw1
  have inv : Rl 3 (1 / (-(1 + 1) / (f - n))) (-((f.val - n.val) / 2)) :=
    Rl.divR rl_one m22 (by norm_num) (by rw [neg_div]; exact neg_ne_zero.mpr (by positivity))
      (by field_simp) rw2
  have s1 : Rl (48 * (N * M) + 24 * M + 2) (1 / ((- (-(f + n) / (f - n)) + 1) / (- (-(f + n) / (f - n)) - 1) - 1)) (n.val / (f.val - n.val)) :=
    (Rl.divR rl_one q2 (by omega) (by positivity) (by field_simp) r3).mono (by omega)
  have s2 : Rl (48 * (N * M) + 24 * M + 12 * N + 8) (((- (-(f + n) / (f - n)) + 1) / (- (-(f + n) / (f - n)) - 1)) /
      ((- (-(f + n) / (f - n)) + 1) / (- (-(f + n) / (f - n)) - 1) - 1)) (f.val / (f.val - n.val)) :=
    (Rl.divR q1 q2 (by omega) (by positivity) (by field_simp) r4).mono (by omega)
  have n1 : Rl (48 * (N * M) + 24 * M + 3) (-(1 + 1) * (1 / ((- (-(f + n) / (f - n)) + 1) / (- (-(f + n) / (f - n)) - 1) - 1)))
      (-(2 * (n.val / (f.val - n.val)))) :=
    (Rl.mulR rl_two.neg s1 (by omega) (by ring) (inR_neg r5)).mono (by omega)
  have f1 : Rl (48 * (N * M) + 24 * M + 12 * N + 9) (-(1 + 1) * (((- (-(f + n) / (f - n)) + 1) / (- (-(f + n) / (f - n)) - 1)) /
      ((- (-(f + n) / (f - n)) + 1) / (- (-(f + n) / (f - n)) - 1) - 1))) (-(2 * (f.val / (f.val - n.val)))) :=
    (Rl.mulR rl_two.neg s2 (by omega) (by ring) (inR_neg r6)).mono (by omega)
  have n2 := Rl.mulR n1 inv (c := n.val) (by omega) (by field_simp) (inR_plane hn hn')
  have f2 := Rl.mulR f1 inv (c := f.val) (by omega) (by field_simp) (inR_plane hf hf')
  have hNM1 : (1 : ℝ) ≤ N * M := by exact_mod_cast Nat.one_le_iff_ne_zero.mpr (Nat.mul_ne_zero (by omega) (by omega))
  have hN2 : (N : ℝ) ≤ N * M := by exact_mod_cast a1
  have hM2 : (M : ℝ) ≤ N * M := by exact_mod_cast a2
  exact ⟨relative_of_rl n2 (by omega) (by push_cast; linarith), relative_of_rl f2 (by omega) (by push_cast; linarith)⟩

/-- the computed near and far planes of a perspective projection -/
theorem rl_perspective_planes (l r b t : Ieee f64) (hn : Moderate 300 n) (hf : Moderate 300 f) (hn' : NotTiny 300 n.val)
    (hw : NotTiny 300 (f.val - n.val)) (hn0 : 0 < n.val) (hnf : n.val < f.val) {N M : ℕ} (hNM : N * M ≤ 2 ^ 40)
    (h1 : f.val ≤ N * n.val) (h2 : f.val + n.val ≤ M * (f.val - n.val)) :
    Rl (98 * (N * M)) (Perspective3.new l r b t n f).near n.val ∧ Rl (98 * (N * M)) (Perspective3.new l r b t n f).far f.val := by
  obtain ⟨hN1, hM1, a1, a2, r1, r2, r3, r4, r5, r6, r7, -⟩ := planes_bounds hn0 hnf hNM h1 h2
  have hd : 0 < f.val - n.val := by linarith
  have hf0 : 0 < f.val := by linarith
  have hf' : NotTiny 300 f.val := by
    have : (2 : ℝ) ^ (-300 : ℤ) ≤ |n.val| := hn'
    rw [abs_of_pos hn0] at this
    change (2 : ℝ) ^ (-300 : ℤ) ≤ |f.val|
    rw [abs_of_pos hf0]; linarith
  obtain ⟨q1, -, q3⟩ := rl_planes hn0 hnf hNM h1 h2 (rl_depth hn hf hw)
  have m32 := rl_perspective_depth hn hn' hf hf' hw
  have s1 := Rl.mulR rl_two q1 (by omega) rfl r5
  have e1 : -((f.val - n.val) / n.val) / (2 * (f.val / n.val)) = -((f.val - n.val) / (2 * f.val)) := by field_simp
  have s2 := Rl.divR q3 s1 (by omega) (by positivity) e1 (inR_neg r6)
  have e2 : -((f.val - n.val) / (2 * f.val)) * (-(2 * f.val * n.val) / (f.val - n.val)) = n.val := by field_simp
  have s3 := Rl.mulR s2 m32 (by omega) e2 (inR_plane hn hn')
  have e3 : -((f.val - n.val) / n.val) / 2 = -((f.val - n.val) / n.val / 2) := by ring
  have u2 := Rl.divR q3 rl_two (by omega) (by norm_num) e3 (inR_neg r7)
  have e4 : -((f.val - n.val) / n.val / 2) * (-(2 * f.val * n.val) / (f.val - n.val)) = f.val := by field_simp
  have u3 := Rl.mulR u2 m32 (by omega) e4 (inR_plane hf hf')
  have hNM1 : 1 ≤ N * M := Nat.one_le_iff_ne_zero.mpr (Nat.mul_ne_zero (by omega) (by omega))
  exact ⟨s3.mono (by omega), u3.mono (by omega)⟩

/-- The near and far planes of a perspective projection are recovered with the same accuracy. -/
theorem C88_perspective_planes (l r b t n f : Ieee f64) (hn : Moderate 300 n) (hf : Moderate 300 f) (hn' : NotTiny 300 n.val)
    (hw : NotTiny 300 (f.val - n.val)) (hn0 : 0 < n.val) (hnf : n.val < f.val) (N M : ℕ) (hNM : N * M ≤ 2 ^ 40)
    (h1 : f.val ≤ N * n.val) (h2 : f.val + n.val ≤ M * (f.val - n.val)) :
    Relative64 (200 * (N * M)) (Perspective3.new l r b t n f).near n.val ∧
      Relative64 (200 * (N * M)) (Perspective3.new l r b t n f).far f.val := by
  obtain ⟨p1, p2⟩ := rl_perspective_planes l r b t hn hf hn' hw hn0 hnf hNM h1 h2
  have h : (0 : ℝ) ≤ N * M := by positivity
  exact ⟨relative_of_rl p1 (by omega) (by push_cast; linarith), relative_of_rl p2 (by omega) (by push_cast; linarith)⟩

/-- The sides of a perspective projection are recovered with a relative error of at most `200 (N M + L) * 2 ^ -53`. -/
theorem C88_perspective_sides (l r b t n f : Ieee f64) (hl : Moderate 300 l) (hr : Moderate 300 r) (hwx : NotTiny 300 (r.val + l.val))
    (hl0 : 0 < l.val) (hr0 : 0 < r.val) (L : ℕ) (hL : L ≤ 2 ^ 40) (hL1 : r.val + l.val ≤ L * l.val) (hL2 : r.val + l.val ≤ L * r.val)
    (hn : Moderate 300 n) (hf : Moderate 300 f) (hn' : NotTiny 300 n.val)
    (hw : NotTiny 300 (f.val - n.val)) (hn0 : 0 < n.val) (hnf : n.val < f.val) (N M : ℕ) (hNM : N * M ≤ 2 ^ 40)
    (h1 : f.val ≤ N * n.val) (h2 : f.val + n.val ≤ M * (f.val - n.val)) :
    Relative64 (200 * (N * M + L)) (Perspective3.new l r b t n f).left l.val ∧
      Relative64 (200 * (N * M + L)) (Perspective3.new l r b t n f).right r.val := by
  obtain ⟨p1, -⟩ := rl_perspective_planes l r b t hn hf hn' hw hn0 hnf hNM h1 h2
  have hm0 := rl_perspective_scale hl hr hwx hn hn'
  have hm2 := rl_shift hl hr hwx
  have hm2' := hm2.neg
  rw [show -((r.val - l.val) / (r.val + l.val)) = -(r.val - l.val) / (r.val + l.val) by rw [neg_div]] at hm2'
  obtain ⟨q1, q2⟩ := rl_ratio hl0 hr0 hL hL1 hL2 hm2 hm2'
  obtain ⟨s1, s2⟩ := rl_shares hl0 hr0 hL hL1 hL2 q1 q2
  have hd : 0 < r.val + l.val := by linarith
  have hd1 : (2 : ℝ) ^ (-300 : ℤ) ≤ r.val + l.val := by have := ge300 (k := -300) hwx; rwa [abs_of_pos hd] at this
  have hd2 : r.val + l.val ≤ 2 ^ (301 : ℤ) := by have := moderate_add_le hl hr; rwa [abs_of_pos hd] at this
  have hLge := two_le_of_sum hl0 hr0 hL1 hL2
  have hLge' : 2 ≤ L := by exact_mod_cast hLge
  have hL' : (L : ℝ) ≤ 2 ^ (40 : ℤ) := by exact_mod_cast hL
  have nlo : (2 : ℝ) ^ (-300 : ℤ) ≤ n.val := by
    have : (2 : ℝ) ^ (-300 : ℤ) ≤ |n.val| := hn'
    rwa [abs_of_pos hn0] at this
  have nhi : n.val ≤ 2 ^ (300 : ℤ) := by have := hn.2; rwa [abs_of_pos hn0] at this
  have key : ∀ {s : Ieee f64} {z : ℝ}, 0 < z → z ≤ r.val + l.val → r.val + l.val ≤ L * z → Rl (48 * L + 8) s (z / (r.val + l.val)) →
      Rl (98 * (N * M) + 48 * L + 15) ((1 + 1) * (Perspective3.new l r b t n f).near * s * (1 / ((1 + 1) * n / (r - -l)))) z := by
    intro s z hz hz1 hz2 hs
    have sh1 : z / (r.val + l.val) ≤ 1 := (div_le_one hd).mpr hz1
    have sh2 : (2 : ℝ) ^ (-40 : ℤ) ≤ z / (r.val + l.val) := by
      rw [le_div_iff₀ hd, zpow_neg, inv_mul_le_iff₀ (by positivity)]
      exact hz2.trans (mul_le_mul_of_nonneg_right hL' hz.le)
    have sh0 : 0 < z / (r.val + l.val) := by positivity
    have t1 : Rl (98 * (N * M) + 1) ((1 + 1) * (Perspective3.new l r b t n f).near) (2 * n.val) := by
      refine (Rl.mulR rl_two p1 (by omega) rfl (inR_of 301 (by norm_num) ?_ (two_n_le hn))).mono (by omega)
      exact (two_zpow_le_self_of_le (by norm_num)).trans (two_n_ge hn')
    have t2 : Rl (98 * (N * M) + 48 * L + 10) ((1 + 1) * (Perspective3.new l r b t n f).near * s) (2 * n.val * (z / (r.val + l.val))) := by
      refine (Rl.mulR t1 hs (by omega) rfl (inR_of 341 (by norm_num) ?_ ?_)).mono (by omega)
      · rw [abs_mul, abs_of_pos sh0, show (-341 : ℤ) = -301 + -40 by norm_num, zpow_add₀ two_ne_zero]
        exact mul_le_mul ((two_zpow_le_self_of_le (by norm_num)).trans (two_n_ge hn')) sh2 (by positivity) (abs_nonneg _)
      · rw [abs_mul, abs_of_pos sh0]
        refine (mul_le_mul (two_n_le hn) sh1 sh0.le (by positivity)).trans ?_
        rw [mul_one]; exact two_zpow_le_self_of_le (by norm_num)
    have t3 : Rl 4 (1 / ((1 + 1) * n / (r - -l))) ((r.val + l.val) / (2 * n.val)) := by
      refine (Rl.divR rl_one hm0 (by norm_num) (by positivity) (by field_simp) (inR_of 601 (by norm_num) ?_ ?_)).mono (by norm_num)
      · rw [abs_of_pos (by positivity), le_div_iff₀ (by positivity)]
        have h3 : 2 * n.val ≤ 2 ^ (301 : ℤ) := by have := two_n_le hn; rwa [abs_of_pos (by positivity)] at this
        calc (2 : ℝ) ^ (-601 : ℤ) * (2 * n.val) ≤ 2 ^ (-601 : ℤ) * 2 ^ (301 : ℤ) := by gcongr
          _ = 2 ^ (-300 : ℤ) := by rw [← zpow_add₀ two_ne_zero]; norm_num
          _ ≤ _ := hd1
      · rw [abs_of_pos (by positivity), div_le_iff₀ (by positivity)]
        have h3 : (2 : ℝ) ^ (-300 : ℤ) ≤ 2 * n.val := by linarith
        calc r.val + l.val ≤ 2 ^ (301 : ℤ) := hd2
          _ = 2 ^ (601 : ℤ) * 2 ^ (-300 : ℤ) := by rw [← zpow_add₀ two_ne_zero]; norm_num
          _ ≤ _ := by gcongr
    have e : 2 * n.val * (z / (r.val + l.val)) * ((r.val + l.val) / (2 * n.val)) = z := by field_simp
    refine (Rl.mulR t2 t3 (by omega) e (inR_of 340 (by norm_num) ?_ ?_)).mono (by omega)
    · rw [abs_of_pos hz, show (-340 : ℤ) = -40 + -300 by norm_num, zpow_add₀ two_ne_zero]
      calc (2 : ℝ) ^ (-40 : ℤ) * 2 ^ (-300 : ℤ) ≤ z / (r.val + l.val) * (r.val + l.val) := mul_le_mul sh2 hd1 (by positivity) sh0.le
        _ = z := by field_simp
    · rw [abs_of_pos hz]
      exact hz1.trans (hd2.trans (two_zpow_le_self_of_le (by norm_num)))
  have R := key hr0 (by linarith) hL2 s1
  have Lf := key hl0 (by linarith) hL1 s2
  have hNM0 : (0 : ℝ) ≤ N * M := by positivity
  exact ⟨relative_of_rl Lf (by omega) (by push_cast; linarith), relative_of_rl R (by omega) (by push_cast; linarith)⟩

/-- The same for `bottom` and `top`. -/
theorem C88_perspective_heights (l r b t n f : Ieee f64) (hl : Moderate 300 b) (hr : Moderate 300 t) (hwx : NotTiny 300 (t.val + b.val))
    (hl0 : 0 < b.val) (hr0 : 0 < t.val) (L : ℕ) (hL : L ≤ 2 ^ 40) (hL1 : t.val + b.val ≤ L * b.val) (hL2 : t.val + b.val ≤ L * t.val)
    (hn : Moderate 300 n) (hf : Moderate 300 f) (hn' : NotTiny 300 n.val)
    (hw : NotTiny 300 (f.val - n.val)) (hn0 : 0 < n.val) (hnf : n.val < f.val) (N M : ℕ) (hNM : N * M ≤ 2 ^ 40)
    (h1 : f.val ≤ N * n.val) (h2 : f.val + n.val ≤ M * (f.val - n.val)) :
    Relative64 (200 * (N * M + L)) (Perspective3.new l r b t n f).bottom b.val ∧
      Relative64 (200 * (N * M + L)) (Perspective3.new l r b t n f).top t.val :=
  C88_perspective_sides b t b t n f hl hr hwx hl0 hr0 L hL hL1 hL2 hn hf hn' hw hn0 hnf N M hNM h1 h2
end

/-- the ratios of the symmetric frustum with the planes 1 and 2 -/
example : (1 : ℝ) + 1 ≤ (2 : ℕ) * 1 ∧ (2 : ℝ) ≤ (2 : ℕ) * 1 ∧ (2 : ℝ) + 1 ≤ (3 : ℕ) * (2 - 1) := by norm_num

/-- planes at distances 1 and 2 are recovered to within `1200 * 2 ^ -53` -/
example (l r b t : Ieee f64) : Relative64 1200 (Perspective3.new l r b t 1 (1 + 1)).near 1 ∧
    Relative64 1200 (Perspective3.new l r b t 1 (1 + 1)).far 2 := by
  have w0 : ∀ {a : ℝ}, 1 ≤ |a| → NotTiny 300 a := fun h => by
    change (2 : ℝ) ^ (-300 : ℤ) ≤ _
    exact le_trans (two_zpow_le_self_of_le (show (-300 : ℤ) ≤ 0 by norm_num)) (by simpa using h)
  have m1 : Moderate 300 (1 : Ieee f64) := ⟨finite_one, by rw [val_one, abs_one]; exact one_le_zpow₀ one_le_two (by norm_num)⟩
  have m2 : Moderate 300 ((1 : Ieee f64) + 1) := ⟨is_two64.1, by
    rw [is_two64.2, abs_two]
    calc (2 : ℝ) = 2 ^ (1 : ℤ) := by norm_num
      _ ≤ _ := two_zpow_le_self_of_le (by norm_num)⟩
  have := C88_perspective_planes l r b t 1 (1 + 1) m1 m2 (w0 (by norm_num)) (w0 (by rw [is_two64.2]; norm_num))
    (by norm_num) (by rw [is_two64.2]; norm_num) 2 3 (by norm_num) (by rw [is_two64.2]; norm_num) (by rw [is_two64.2]; norm_num)
  rw [is_two64.2] at this
  norm_num at this
  exact this

end Cgl
