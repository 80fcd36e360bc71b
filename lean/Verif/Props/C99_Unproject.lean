import Verif.Props.C88_Accessors
import Verif.Props.C32_Perspective
import Verif.Lemmas.Scaled

/-! # C99 - projecting a point and back in `f64` -/

namespace Cgl
open Ieee FloatFns Spec

theorem u64_le : f64.u ≤ 1 / 1000000 := by change (2 : ℝ) ^ (-53 : ℤ) ≤ _; norm_num

/-- a parameter with a relative error, compared with a sum it is part of -/
theorem sc_part {x : Ieee f64} {a s k : ℝ} (h : Relative64 k x a) (ha : 0 ≤ a) (hs : 0 < s) :
    Sc s x a (k * 2 ^ (-53 : ℤ) * (a / s)) := by
  refine ⟨h.1, h.2.trans_eq ?_⟩
  rw [abs_of_nonneg ha]; field_simp

section Axis
variable {φ : Format} {s cx cy E η q f : ℝ} {h X Y Q : Ieee φ}

/-- a coordinate of an unprojected point -/
theorem unproject_axis (hu : φ.u ≤ 1 / 1000000) (hs : Fits φ s) (hX : Sc s X cx E) (hY : Sc s Y cy E) (hcx : |cx| ≤ s) (hcy : |cy| ≤ s)
    (hE : E ≤ 1 / 2000) (hh : Nr h η 0) (hη : |η| ≤ 1 / 2) (hQ : Nr Q q f) (hq : |q| ≤ 1) (hf : f ≤ 1 / 1000) :
    Sc s (h * X * Q + h * Y) (η * cx * q + η * cy) (201 / 100 * E + f + 9 * φ.u) := by
  have hp := hs.pos
  have hu0 := φ.u_nonneg
  have hη1 : |η| ≤ 1 := by linarith
  have hE0 : 0 ≤ E := le_of_mul_le_mul_right (by rw [zero_mul]; exact (abs_nonneg _).trans hX.2) hp
  have hm : ∀ {c : ℝ}, |c| ≤ s → |η * c| ≤ 1 / 2 * s := fun hc => by
    rw [abs_mul]; exact mul_le_mul hη hc (abs_nonneg _) (by norm_num)
  have hX2 := hX.mul' hu hs hcx hh hη1 (by linarith) (by norm_num)
  have hY2 := hY.mul' hu hs hcy hh hη1 (by linarith) (by norm_num)
  have hXQ := hX2.mul hu hs ((hm hcx).trans (by linarith)) hQ hq (by linarith) hf
  have hb : |η * cx * q| ≤ 1 / 2 * s := by
    rw [abs_mul]
    have := mul_le_mul (hm hcx) hq (abs_nonneg _) (by positivity)
    linarith
  refine (hXQ.add hu hs hY2 ?_ (by linarith)).mono hp.le (by linarith)
  refine (abs_add_le _ _).trans ?_
  have := hm hcy
  linarith
end Axis

section
variable {l r b t n f : Ieee f64}

theorem half64 : Nr ((1 : Ieee f64) / (1 + 1)) (1 / 2) 0 := half_nr fine64

/-- the first two coordinates -/
theorem side_back {R L : Ieee f64} {a c : ℝ} {k : ℝ} {Q : Ieee f64} {q : ℝ} (hF : Fits f64 (c + a)) (ha : 0 < a) (hc : 0 < c)
    (hL : Relative64 k L a) (hR : Relative64 k R c) (hk0 : 0 ≤ k) (hk : k * 2 ^ (-53 : ℤ) ≤ 1 / 4000) (hQ : Nr Q q (2 ^ (-47 : ℤ))) (hq : |q| ≤ 1) :
    Sc (c + a) ((1 : Ieee f64) / (1 + 1) * (R + L) * Q + 1 / (1 + 1) * (R - L)) ((c + a) / 2 * q + (c - a) / 2)
      ((201 / 100 * k + 78) * 2 ^ (-53 : ℤ)) := by
  have hs : 0 < c + a := by linarith
  have p1 := sc_part hR hc.le hs
  have p2 := sc_part hL ha.le hs
  have hsum : k * 2 ^ (-53 : ℤ) * (c / (c + a)) + k * 2 ^ (-53 : ℤ) * (a / (c + a)) = k * 2 ^ (-53 : ℤ) := by field_simp
  have hS := p1.add u64_le hF p2 (by rw [abs_of_pos hs]) (by rw [hsum]; linarith)
  have hD := p1.sub u64_le hF p2 (by rw [abs_le]; constructor <;> linarith) (by rw [hsum]; linarith)
  rw [hsum] at hS hD
  have hu : f64.u = 2 ^ (-53 : ℤ) := rfl
  rw [hu] at hS hD
  have key := unproject_axis u64_le hF hS hD (by rw [abs_of_pos hs]) (by rw [abs_le]; constructor <;> linarith)
    (by norm_num at hk ⊢; linarith) half64 (by norm_num) hQ hq (by norm_num)
  rw [hu] at key
  rw [show (c + a) / 2 * q + (c - a) / 2 = 1 / 2 * (c + a) * q + 1 / 2 * (c - a) by ring]
  refine key.mono hs.le ?_
  norm_num
  linarith

/-- the third coordinate -/
theorem depth_back {N F : Ieee f64} {a c : ℝ} {k : ℝ} {Q : Ieee f64} {q : ℝ} (hF : Fits f64 (c + a)) (ha : 0 < a) (hc : a < c)
    (hL : Relative64 k N a) (hR : Relative64 k F c) (hk0 : 0 ≤ k) (hk : k * 2 ^ (-53 : ℤ) ≤ 1 / 4000) (hQ : Nr Q q (2 ^ (-47 : ℤ))) (hq : |q| ≤ 1) :
    Sc (c + a) (-((1 : Ieee f64) / (1 + 1)) * (F - N) * Q + -((1 : Ieee f64) / (1 + 1)) * (F + N)) (-((c - a) / 2) * q - (c + a) / 2)
      ((201 / 100 * k + 78) * 2 ^ (-53 : ℤ)) := by
  have hs : 0 < c + a := by linarith
  have p1 := sc_part hR (by linarith) hs
  have p2 := sc_part hL ha.le hs
  have hsum : k * 2 ^ (-53 : ℤ) * (c / (c + a)) + k * 2 ^ (-53 : ℤ) * (a / (c + a)) = k * 2 ^ (-53 : ℤ) := by field_simp
  have hS := p1.add u64_le hF p2 (by rw [abs_of_pos hs]) (by rw [hsum]; linarith)
  have hD := p1.sub u64_le hF p2 (by rw [abs_le]; constructor <;> linarith) (by rw [hsum]; linarith)
  rw [hsum] at hS hD
  have hu : f64.u = 2 ^ (-53 : ℤ) := rfl
  rw [hu] at hS hD
  have key := unproject_axis u64_le hF hD hS (by rw [abs_le]; constructor <;> linarith) (by rw [abs_of_pos hs])
    (by norm_num at hk ⊢; linarith) half64.neg (by norm_num) hQ hq (by norm_num)
  rw [hu] at key
  rw [show -((c - a) / 2) * q - (c + a) / 2 = -(1 / 2) * (c - a) * q + -(1 / 2) * (c + a) by ring]
  refine key.mono hs.le ?_
  norm_num
  linarith

theorem fits_sum {x y : Ieee f64} (hx : Spec.Moderate 90 x) (hy : Spec.Moderate 90 y) (hw : NotTiny 300 (x.val + y.val)) (h0 : 0 < x.val + y.val) :
    Fits f64 (x.val + y.val) := by
  have hw' : (2 : ℝ) ^ (-300 : ℤ) ≤ |x.val + y.val| := hw
  rw [abs_of_pos h0] at hw'
  have h1 := (le_abs_self _).trans hx.2
  have h2 := (le_abs_self _).trans hy.2
  refine fits64 ((zpow_le_zpow_right₀ one_le_two (by norm_num)).trans hw') ?_
  calc x.val + y.val ≤ 2 ^ (90 : ℤ) * 2 := by linarith
    _ = 2 ^ (91 : ℤ) := (zpow_add_one₀ two_ne_zero 90).symm
    _ ≤ _ := zpow_le_zpow_right₀ one_le_two (by norm_num)

/-- **Orthographic projection and back.**  A point of the view box returns with errors of at most `300 L` units of `2 ^ -53` times the
width and the height and `1300 N` units times the sum of the distances of the planes.  `L` and `L'` bound the width and the height
over their smaller parts, `N` bounds the far plane over the near one. -/
theorem C99_orthographic (hl : Spec.Moderate 90 l) (hr : Spec.Moderate 90 r) (hb : Spec.Moderate 90 b)
    (ht : Spec.Moderate 90 t) (hn : Spec.Moderate 90 n) (hf : Spec.Moderate 90 f) (hx : NotTiny 300 (r.val + l.val))
    (hy : NotTiny 300 (t.val + b.val)) (hz : NotTiny 300 (f.val - n.val)) (hn' : NotTiny 300 n.val) (hl0 : 0 < l.val) (hr0 : 0 < r.val) (hb0 : 0 < b.val)
    (ht0 : 0 < t.val) (hn0 : 0 < n.val) (hnf : 2 * n.val ≤ f.val) {L L' N : ℕ} (hL : L ≤ 2 ^ 30) (hL' : L' ≤ 2 ^ 30) (hN : N ≤ 2 ^ 30)
    (h1 : r.val + l.val ≤ L * l.val) (h2 : r.val + l.val ≤ L * r.val) (h3 : t.val + b.val ≤ L' * b.val) (h4 : t.val + b.val ≤ L' * t.val)
    (h5 : f.val ≤ N * n.val) (p : Pt (Ieee f64) 3) (hfin : ∀ i, (p.coords.data i).Finite)
    (hp : inBox l.val r.val b.val t.val n.val f.val (realPoint p)) :
    let P := Orthographic3.new l r b t n f
    let back := (P.unprojectPoint (P.projectPoint p)).coords
    ((back.data 0).Finite ∧ |(back.data 0).val - (p.coords.data 0).val| ≤ 300 * L * 2 ^ (-53 : ℤ) * (r.val + l.val)) ∧
    ((back.data 1).Finite ∧ |(back.data 1).val - (p.coords.data 1).val| ≤ 300 * L' * 2 ^ (-53 : ℤ) * (t.val + b.val)) ∧
    ((back.data 2).Finite ∧ |(back.data 2).val - (p.coords.data 2).val| ≤ 1300 * N * 2 ^ (-53 : ℤ) * (f.val + n.val)) := by
  intro P back
  have m300 : ∀ {x : Ieee f64}, Spec.Moderate 90 x → Spec.Moderate 300 x := fun h => h.mono (by norm_num)
  have box := C88_orthographic_box l r b t n f hl hr hb ht hn hf hx hy hz hl0.le hr0.le hb0.le ht0.le hn0.le hnf p hfin hp
  have two_le : ∀ {a c : ℝ} {K : ℕ}, 0 < a → 0 < c → c + a ≤ K * a → c + a ≤ K * c → (2 : ℝ) ≤ K := fun {a c K} ha hc k1 k2 => by
    by_contra h
    have : (K : ℝ) < 2 := not_le.mp h
    nlinarith
  have hL2 := two_le hl0 hr0 h1 h2
  have hL2' := two_le hb0 ht0 h3 h4
  have hN2 : (2 : ℝ) ≤ N := le_of_mul_le_mul_right (hnf.trans h5) hn0
  have cast : ∀ {K : ℕ}, K ≤ 2 ^ 30 → (K : ℝ) ≤ 2 ^ 30 := fun h => by exact_mod_cast h
  have hLr := cast hL
  have hLr' := cast hL'
  have hNr := cast hN
  have hp40 : (2 : ℕ) ^ 30 ≤ 2 ^ 40 := by norm_num
  obtain ⟨A1, A2⟩ := C88_orthographic_sides l r b t n f (m300 hl) (m300 hr) hx hl0 hr0 L (hL.trans hp40) h1 h2
  obtain ⟨B1, B2⟩ := C88_orthographic_heights l r b t n f (m300 hb) (m300 ht) hy hb0 ht0 L' (hL'.trans hp40) h3 h4
  obtain ⟨D1, D2⟩ := C88_orthographic_planes l r b t n f (m300 hn) (m300 hf) hn' hz hn0 (by linarith) N 3 (by omega) h5
    (by push_cast; linarith)
  have hx0 : 0 < r.val + l.val := by linarith
  have hy0 : 0 < t.val + b.val := by linarith
  have hd0 : 0 < f.val - n.val := by linarith
  have hs0 : 0 < f.val + n.val := by linarith
  have hsn : NotTiny 300 (f.val + n.val) := by
    have hh : (2 : ℝ) ^ (-300 : ℤ) ≤ |n.val| := hn'
    rw [abs_of_pos hn0] at hh
    change (2 : ℝ) ^ (-300 : ℤ) ≤ |f.val + n.val|
    rw [abs_of_pos hs0]; linarith
  obtain ⟨⟨x1, x2⟩, ⟨y1, y2⟩, z1, z2⟩ := hp
  change -l.val ≤ (p.coords.data 0).val at x1
  change (p.coords.data 0).val ≤ r.val at x2
  change -b.val ≤ (p.coords.data 1).val at y1
  change (p.coords.data 1).val ≤ t.val at y2
  change -f.val ≤ (p.coords.data 2).val at z1
  change (p.coords.data 2).val ≤ -n.val at z2
  refine ⟨?_, ?_, ?_⟩
  · obtain ⟨b1, b2, -⟩ := box 0
    have e : ((Orthographic3.new l.val r.val b.val t.val n.val f.val).projectPoint (realPoint p)).coords.data 0 =
        (2 * (p.coords.data 0).val - (r.val - l.val)) / (r.val + l.val) := by
      change (1 + 1) / (r.val - -l.val) * (p.coords.data 0).val + -(r.val + -l.val) / (r.val - -l.val) = _
      rw [show r.val - -l.val = r.val + l.val by ring]; field_simp; ring
    rw [e] at b2
    have key := side_back (fits_sum hr hl hx hx0) hl0 hr0 A1 A2 (by positivity) (by norm_num; linarith) ⟨b1, b2⟩
      (by rw [abs_div, abs_of_pos hx0, div_le_one hx0, abs_le]; constructor <;> linarith)
    rw [show (r.val + l.val) / 2 * ((2 * (p.coords.data 0).val - (r.val - l.val)) / (r.val + l.val)) + (r.val - l.val) / 2 = (p.coords.data 0).val by
      field_simp; ring] at key
    refine key.rescale (mul_le_mul_of_nonneg_right (mul_le_mul_of_nonneg_right ?_ (by positivity)) hx0.le)
    linarith
  · obtain ⟨b1, b2, -⟩ := box 1
    have e : ((Orthographic3.new l.val r.val b.val t.val n.val f.val).projectPoint (realPoint p)).coords.data 1 =
        (2 * (p.coords.data 1).val - (t.val - b.val)) / (t.val + b.val) := by
      change (1 + 1) / (t.val - -b.val) * (p.coords.data 1).val + -(t.val + -b.val) / (t.val - -b.val) = _
      rw [show t.val - -b.val = t.val + b.val by ring]; field_simp; ring
    rw [e] at b2
    have key := side_back (fits_sum ht hb hy hy0) hb0 ht0 B1 B2 (by positivity) (by norm_num; linarith) ⟨b1, b2⟩
      (by rw [abs_div, abs_of_pos hy0, div_le_one hy0, abs_le]; constructor <;> linarith)
    rw [show (t.val + b.val) / 2 * ((2 * (p.coords.data 1).val - (t.val - b.val)) / (t.val + b.val)) + (t.val - b.val) / 2 = (p.coords.data 1).val by
      field_simp; ring] at key
    refine key.rescale (mul_le_mul_of_nonneg_right (mul_le_mul_of_nonneg_right ?_ (by positivity)) hy0.le)
    linarith
  · obtain ⟨b1, b2, -⟩ := box 2
    have e : ((Orthographic3.new l.val r.val b.val t.val n.val f.val).projectPoint (realPoint p)).coords.data 2 =
        -(2 * (p.coords.data 2).val + (f.val + n.val)) / (f.val - n.val) := by
      change -(1 + 1) / (f.val - n.val) * (p.coords.data 2).val + -(f.val + n.val) / (f.val - n.val) = _
      field_simp; ring
    rw [e] at b2
    have key := depth_back (fits_sum hf hn hsn hs0) hn0 (by linarith) D1 D2 (by positivity) (by push_cast; norm_num; linarith) ⟨b1, b2⟩
      (by rw [abs_div, abs_of_pos hd0, div_le_one hd0, abs_le]; constructor <;> linarith)
    rw [show -((f.val - n.val) / 2) * (-(2 * (p.coords.data 2).val + (f.val + n.val)) / (f.val - n.val)) - (f.val + n.val) / 2 = (p.coords.data 2).val by
      field_simp; ring] at key
    refine key.rescale (mul_le_mul_of_nonneg_right (mul_le_mul_of_nonneg_right ?_ (by positivity)) hs0.le)
    push_cast
    linarith

end

end Cgl
