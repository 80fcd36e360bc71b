import Verif.Props.C99_Unproject

/-! # C99 - perspective projection and back in `f64` -/

namespace Cgl
open Ieee FloatFns Spec

theorem sc_two : Sc 2 ((1 : Ieee f64) + 1) 2 0 := by
  have := two_nr fine64
  exact ⟨this.1, this.2.trans (by norm_num)⟩

section Core
variable {n f ζ q K K2 v : ℝ} {N F Q : Ieee f64} (hn : Rng 100 n) (hf : Rng 100 f) (hnf : n < f)
  (hN : Sc n N n (200 * K * v)) (hF : Sc f F f (200 * K * v)) (hv : f64.u = v) (hK : 1 ≤ K) (hKv : K * v ≤ 1 / 5000000)
include hn hf hnf hN hF hv hK hKv

/-- twice the distance of the near plane -/
theorem twice_near : Sc (2 * n) ((1 + 1) * N) (2 * n) (205 * K * v) := by
  have hv0 : 0 ≤ v := by rw [← hv]; exact f64.u_nonneg
  have hn0 := hn.pos
  have h1 : v ≤ K * v := by nlinarith
  have := sc_two.mulSc u64_le ((Rng.two.mul hn).fits (by norm_num)) two_pos hn0 (by norm_num) hN (by rw [abs_of_pos hn0]) (by norm_num) (by linarith)
  rw [hv] at this
  exact this.mono (by positivity) (by linarith)

/-- the denominator of the last row -/
theorem denominator : Sc (2 * f * n) ((1 + 1) * F * N) (2 * f * n) (412 * K * v) := by
  have hv0 : 0 ≤ v := by rw [← hv]; exact f64.u_nonneg
  have hn0 := hn.pos
  have hf0 := hf.pos
  have h1 : v ≤ K * v := by nlinarith
  have h2 := sc_two.mulSc u64_le ((Rng.two.mul hf).fits (by norm_num)) two_pos hf0 (by norm_num) hF (by rw [abs_of_pos hf0]) (by norm_num) (by linarith)
  rw [hv] at h2
  have h3 := h2.mulSc u64_le (((Rng.two.mul hf).mul hn).fits (by norm_num)) (by positivity) hn0 (by rw [abs_of_pos (by positivity)]) hN (by rw [abs_of_pos hn0])
    (by linarith) (by linarith)
  rw [hv] at h3
  exact h3.mono (by positivity) (by linarith)

/-- the fourth coordinate before the division -/
theorem fourth (hz : n ≤ ζ) (hzf : ζ ≤ f) (hQ : Nr Q q (37 * K * v)) (hq : |q| ≤ 1) (hqe : (n - f) / (2 * f * n) * q + (f + n) / (2 * f * n) = 1 / ζ) :
    Sc (1 / n) ((N - F) / ((1 + 1) * F * N) * Q + (F + N) / ((1 + 1) * F * N)) (1 / ζ) (1300 * K * v) := by
  have hv0 : 0 ≤ v := by rw [← hv]; exact f64.u_nonneg
  have hn0 := hn.pos
  have hf0 := hf.pos
  have h1 : v ≤ K * v := by nlinarith
  have hs : 0 < f + n := by linarith
  have hD := denominator hn hf hnf hN hF hv hK hKv
  have hsr : Rng 101 (f + n) := by
    refine ⟨(zpow_le_zpow_right₀ one_le_two (by norm_num)).trans (hn.1.trans (by linarith)), ?_⟩
    have : (2 : ℝ) ^ (101 : ℤ) = 2 ^ (100 : ℤ) * 2 := zpow_add_one₀ two_ne_zero 100
    rw [this]
    linarith [hn.2, hf.2]
  have hF2 : Sc (f + n) F f (200 * K * v * (f / (f + n))) := hF.rescale (by rw [mul_assoc (200 * K * v), div_mul_cancel₀ _ hs.ne'])
  have hN2 : Sc (f + n) N n (200 * K * v * (n / (f + n))) := hN.rescale (by rw [mul_assoc (200 * K * v), div_mul_cancel₀ _ hs.ne'])
  have hsum : 200 * K * v * (f / (f + n)) + 200 * K * v * (n / (f + n)) = 200 * K * v := by field_simp
  have hA := hF2.add u64_le (hsr.fits (by norm_num)) hN2 (by rw [abs_of_pos hs]) (by rw [hsum]; linarith)
  have hB := hN2.sub u64_le (hsr.fits (by norm_num)) hF2 (by rw [abs_le]; constructor <;> linarith) (by rw [add_comm, hsum]; linarith)
  rw [add_comm (200 * K * v * (n / (f + n)))] at hB
  rw [hsum, hv] at hA hB
  have hden : 0 < 2 * f * n := by positivity
  have hfit := (hsr.div ((Rng.two.mul hf).mul hn)).fits (by norm_num)
  have hA2 := hA.div u64_le hden hfit (by rw [abs_of_pos hs]) hD (by linarith) (by linarith)
  have hB2 := hB.div u64_le hden hfit (by rw [abs_le]; constructor <;> linarith) hD (by linarith) (by linarith)
  rw [hv] at hA2 hB2
  have hle : (f + n) / (2 * f * n) ≤ 1 / n := by
    rw [div_le_div_iff₀ hden hn0]; nlinarith
  have hsc0 : 0 < (f + n) / (2 * f * n) := by positivity
  have hE : ∀ {x : Ieee f64} {c : ℝ}, Sc ((f + n) / (2 * f * n)) x c (101 / 100 * (200 * K * v + 203 / 100 * v + 412 * K * v) + 203 / 100 * v) →
      Sc (1 / n) x c (624 * K * v) := fun h => h.rescale (mul_le_mul (by linarith) hle hsc0.le (by positivity))
  have hA3 := hE hA2
  have hB3 := hE hB2
  have hnr : Fits f64 (1 / n) := by rw [one_div]; exact hn.inv.fits (by norm_num)
  have hC := hB3.mul u64_le hnr (by
    rw [abs_div, abs_of_pos hden]
    refine le_trans (div_le_div_of_nonneg_right ?_ hden.le) hle
    rw [abs_le]; constructor <;> linarith) hQ hq (by linarith) (by linarith)
  rw [hv] at hC
  have hz0 : 0 < ζ := by linarith
  have hW := hC.add u64_le hnr hA3 (by
    rw [hqe, abs_of_pos (by positivity)]; exact one_div_le_one_div_of_le hn0 hz) (by linarith)
  rw [hqe, hv] at hW
  exact hW.mono (by positivity) (by linarith)

/-- the reciprocal of the fourth coordinate is the depth -/
theorem depth_core (hz : n ≤ ζ) (hzf : ζ ≤ f) (hQ : Nr Q q (37 * K * v)) (hq : |q| ≤ 1) (hqe : (n - f) / (2 * f * n) * q + (f + n) / (2 * f * n) = 1 / ζ)
    (hK2 : K * (ζ / n) ≤ K2) (hKv2 : K2 * v ≤ 1 / 5000000) :
    Sc ζ (1 / ((N - F) / ((1 + 1) * F * N) * Q + (F + N) / ((1 + 1) * F * N))) ζ (1320 * K2 * v) := by
  have hv0 : 0 ≤ v := by rw [← hv]; exact f64.u_nonneg
  have hn0 := hn.pos
  have hz0 : 0 < ζ := by linarith
  have hrz : Rng 100 ζ := ⟨hn.1.trans hz, hzf.trans hf.2⟩
  have hone : 1 ≤ ζ / n := by rw [le_div_iff₀ hn0, one_mul]; exact hz
  have hKK : 1 ≤ K2 := le_trans (by nlinarith) hK2
  have h1 : v ≤ K2 * v := by nlinarith
  have hw := fourth hn hf hnf hN hF hv hK hKv hz hzf hQ hq hqe
  have hw2 : Sc (1 / ζ) ((N - F) / ((1 + 1) * F * N) * Q + (F + N) / ((1 + 1) * F * N)) (1 / ζ) (1300 * K2 * v) := by
    refine hw.rescale ?_
    have := mul_le_mul_of_nonneg_right hK2 (show 0 ≤ 1300 * v * (1 / ζ) by positivity)
    calc 1300 * K * v * (1 / n) = K * (ζ / n) * (1300 * v * (1 / ζ)) := by field_simp
      _ ≤ _ := this
      _ = _ := by ring
  have h11 : Sc 1 (1 : Ieee f64) 1 0 := ⟨finite_one, by rw [val_one]; simp⟩
  have he : 1 / (1 / ζ) = ζ := one_div_one_div ζ
  have hfin : Fits f64 (1 / (1 / ζ)) := by rw [he]; exact hrz.fits (by norm_num)
  have key := h11.div u64_le (show 0 < 1 / ζ by positivity) hfin (by norm_num) hw2 (by norm_num) (by linarith)
  rw [he, hv] at key
  exact key.mono hz0.le (by linarith)

/-- one of the first two coordinates -/
theorem side_core {R L Qx I : Ieee f64} {r l qx Ls x : ℝ} (hl0 : 0 < l) (hr0 : 0 < r) (hsr : Rng 101 (r + l))
    (hR : Sc (r + l) R r (200 * (K + Ls) * v * (r / (r + l)))) (hL : Sc (r + l) L l (200 * (K + Ls) * v * (l / (r + l)))) (hLs : 1 ≤ Ls)
    (hLv : Ls * v ≤ 1 / 5000000) (hQx : Nr Qx qx (37 * v)) (hqx : |qx| ≤ 1) (hz : Rng 100 ζ)
    (hI : Sc ζ I ζ (1320 * K2 * v)) (hKK : K ≤ K2) (hKv2 : K2 * v ≤ 1 / 5000000)
    (hx : ((r + l) / (2 * n) * qx + (r - l) / (2 * n)) * ζ = x) :
    Sc ((r + l) / n * ζ) (((R + L) / ((1 + 1) * N) * Qx + (R - L) / ((1 + 1) * N)) * I) x (2000 * (K2 + Ls) * v) := by
  have hv0 : 0 ≤ v := by rw [← hv]; exact f64.u_nonneg
  have hn0 := hn.pos
  have hz0 := hz.pos
  have hs : 0 < r + l := by linarith
  have h1 : v ≤ K * v := by nlinarith
  have h2 : K * v ≤ K2 * v := mul_le_mul_of_nonneg_right hKK hv0
  have h3 : v ≤ Ls * v := by nlinarith
  have hD := twice_near hn hf hnf hN hF hv hK hKv
  have hsum : 200 * (K + Ls) * v * (r / (r + l)) + 200 * (K + Ls) * v * (l / (r + l)) = 200 * (K + Ls) * v := by field_simp
  have hA := hR.add u64_le (hsr.fits (by norm_num)) hL (by rw [abs_of_pos hs]) (by rw [hsum]; linarith)
  have hB := hR.sub u64_le (hsr.fits (by norm_num)) hL (by rw [abs_le]; constructor <;> linarith) (by rw [hsum]; linarith)
  rw [hsum, hv] at hA hB
  have hden : 0 < 2 * n := by positivity
  have hfit := (hsr.div (Rng.two.mul hn)).fits (by norm_num)
  have hd1 : |r - l| ≤ r + l := by rw [abs_le]; constructor <;> linarith
  have hA2 := hA.div u64_le hden hfit (by rw [abs_of_pos hs]) hD (by linarith) (by linarith)
  have hB2 := hB.div u64_le hden hfit hd1 hD (by linarith) (by linarith)
  rw [hv] at hA2 hB2
  have hC := hA2.mul u64_le hfit (by rw [abs_of_pos (by positivity)]) hQx hqx (by linarith) (by linarith)
  rw [hv] at hC
  have hfit2 := (hsr.div hn).fits (by norm_num)
  have hsz : 0 < (r + l) / n := by positivity
  have hhalf : (r + l) / (2 * n) = 1 / 2 * ((r + l) / n) := by field_simp
  have hE : ∀ {x : Ieee f64} {c e : ℝ}, Sc ((r + l) / (2 * n)) x c e → Sc ((r + l) / n) x c (1 / 2 * e) := fun h => h.rescale (by rw [hhalf]; linarith)
  have b1 : |(r + l) / (2 * n) * qx| ≤ 1 / 2 * ((r + l) / n) := by
    rw [hhalf, abs_mul, abs_of_pos (by positivity)]
    have := mul_le_mul_of_nonneg_left hqx (show 0 ≤ 1 / 2 * ((r + l) / n) by positivity)
    linarith
  have b2 : |(r - l) / (2 * n)| ≤ 1 / 2 * ((r + l) / n) := by
    rw [← hhalf, abs_div, abs_of_pos hden]; exact div_le_div_of_nonneg_right hd1 hden.le
  have b3 : |(r + l) / (2 * n) * qx + (r - l) / (2 * n)| ≤ (r + l) / n := (abs_add_le _ _).trans (by linarith)
  have hG := (hE hC).add u64_le hfit2 (hE hB2) b3 (by linarith)
  rw [hv] at hG
  have hH := hG.mulSc u64_le (((hsr.div hn).mul hz).fits (by norm_num)) hsz hz0 b3 hI (by rw [abs_of_pos hz0]) (by linarith) (by linarith)
  rw [hv, hx] at hH
  refine hH.mono (by positivity) ?_
  linarith

end Core

theorem sc_of_relative {x : Ieee f64} {a k : ℝ} (ha : 0 < a) (h : Relative64 k x a) : Sc a x a (k * 2 ^ (-53 : ℤ)) :=
  ⟨h.1, by have := h.2; rwa [abs_of_pos ha] at this⟩

theorem sc_share {x : Ieee f64} {a s k : ℝ} (ha : 0 < a) (hs : 0 < s) (h : Relative64 k x a) : Sc s x a (k * 2 ^ (-53 : ℤ) * (a / s)) :=
  (sc_of_relative ha h).rescale (by rw [mul_assoc (k * 2 ^ (-53 : ℤ)), div_mul_cancel₀ _ hs.ne'])

/-- the image of a point between two side planes -/
theorem side_image {r l n x z : ℝ} (hl0 : 0 < l) (hr0 : 0 < r) (hn0 : 0 < n) (hz : z < 0) (h1 : -(l * -z / n) ≤ x) (h2 : x ≤ r * -z / n) :
    |2 * n / (r + l) * x / z| ≤ 2 ∧ |(r - l) / (r + l)| ≤ 1 ∧ |-(2 * n / (r + l) * x + (r - l) / (r + l) * z) / z| ≤ 1 ∧
      ((r + l) / (2 * n) * (-(2 * n / (r + l) * x + (r - l) / (r + l) * z) / z) + (r - l) / (2 * n)) * -z = x := by
  have hs : 0 < r + l := by linarith
  have hz' : 0 < -z := by linarith
  have a1 : -(l * -z) ≤ x * n := by
    rw [← neg_div, div_le_iff₀ hn0] at h1; exact h1
  have a2 : x * n ≤ r * -z := by rwa [le_div_iff₀ hn0] at h2
  refine ⟨?_, ?_, ?_, ?_⟩
  · rw [show 2 * n / (r + l) * x / z = -(2 * (x * n)) / ((r + l) * -z) by field_simp, abs_div, abs_of_pos (show 0 < (r + l) * -z by positivity),
      div_le_iff₀ (by positivity), abs_le]
    have e1 : 0 < r * -z := mul_pos hr0 hz'
    have e2 : 0 < l * -z := mul_pos hl0 hz'
    constructor <;> linarith
  · rw [abs_div, abs_of_pos hs, div_le_one hs, abs_le]; constructor <;> linarith
  · rw [show -(2 * n / (r + l) * x + (r - l) / (r + l) * z) / z = (2 * (x * n) - (r - l) * -z) / ((r + l) * -z) by field_simp; ring, abs_div,
      abs_of_pos (show 0 < (r + l) * -z by positivity), div_le_one (by positivity), abs_le]
    constructor <;> linarith
  · have := hz.ne
    field_simp
    ring

/-- the image of a point between the near and the far plane -/
theorem depth_image {n f z : ℝ} (hn0 : 0 < n) (hnf : n < f) (h1 : n ≤ -z) (h2 : -z ≤ f) {M : ℝ} (hM : f + n ≤ M * (f - n)) :
    |-(f + n) / (f - n) * z / z| ≤ M ∧ |-(2 * f * n) / (f - n) / z| ≤ 2 * M ∧ |-(-(f + n) / (f - n) * z + -(2 * f * n) / (f - n)) / z| ≤ 1 ∧
      (n - f) / (2 * f * n) * (-(-(f + n) / (f - n) * z + -(2 * f * n) / (f - n)) / z) + (f + n) / (2 * f * n) = 1 / -z := by
  have hf0 : 0 < f := hn0.trans hnf
  have hz : z < 0 := by linarith
  have hz' : 0 < -z := by linarith
  have hd : 0 < f - n := by linarith
  refine ⟨?_, ?_, ?_, ?_⟩
  · rw [mul_div_assoc, div_self hz.ne, mul_one, abs_div, abs_neg, abs_of_pos (show 0 < f + n by linarith), abs_of_pos hd, div_le_iff₀ hd]
    exact hM
  · rw [show -(2 * f * n) / (f - n) / z = 2 * f * n / ((f - n) * -z) by field_simp, abs_of_pos (by positivity), div_le_iff₀ (by positivity)]
    have e1 := mul_le_mul_of_nonneg_right (show 2 * f ≤ 2 * (M * (f - n)) by linarith) hz'.le
    have e2 := mul_le_mul_of_nonneg_left h1 (show 0 ≤ 2 * f by linarith)
    linarith
  · rw [show -(-(f + n) / (f - n) * z + -(2 * f * n) / (f - n)) / z = ((f + n) * -z - 2 * f * n) / ((f - n) * -z) by field_simp; ring, abs_div,
      abs_of_pos (show 0 < (f - n) * -z by positivity), div_le_one (by positivity), abs_le]
    constructor
    · nlinarith
    · nlinarith
  · have := hz.ne
    have := hd.ne'
    field_simp
    ring

variable {l r b t n f : Ieee f64}

set_option maxHeartbeats 1000000 in
/-- A point of a view frustum, projected by the perspective projection of the frustum and projected back in `f64`, returns. The ratio of the distances of
the two planes is at most `N`, the ratio of their sum to their difference at most `M`, and the ratio of the width of the frustum to either of
its sides at most `L`. The depth returns with a relative error of at most `1400 N^2 M * 2 ^ -53`; the first coordinate is within
`2000 (N^2 M + L) * 2 ^ -53` times the width of the frustum at the depth of the point. The second coordinate returns in the same way from a frustum as high above the
line of sight as it is below. -/
theorem C99_perspective (hl : Spec.Moderate 90 l) (hr : Spec.Moderate 90 r) (hb : Spec.Moderate 90 b) (ht : Spec.Moderate 90 t)
    (hn : Spec.Moderate 90 n) (hf : Spec.Moderate 90 f) (hx : NotTiny 90 (r.val + l.val)) (hy : NotTiny 90 (t.val + b.val))
    (hw : NotTiny 90 (f.val - n.val)) (hn' : NotTiny 90 n.val) (hl0 : 0 < l.val) (hr0 : 0 < r.val) (hb0 : 0 < b.val) (ht0 : 0 < t.val)
    (hn0 : 0 < n.val) (hnf : n.val < f.val) {N M L L' : ℕ} (hNM : N ^ 2 * M ≤ 2 ^ 30) (hL : L ≤ 2 ^ 30) (hL' : L' ≤ 2 ^ 30)
    (h1 : f.val ≤ N * n.val) (h2 : f.val + n.val ≤ M * (f.val - n.val)) (h3 : r.val + l.val ≤ L * l.val) (h4 : r.val + l.val ≤ L * r.val)
    (h5 : t.val + b.val ≤ L' * b.val) (h6 : t.val + b.val ≤ L' * t.val) (p : Pt (Ieee f64) 3) (hfin : ∀ i, (p.coords.data i).Finite)
    (hp : inFrustum l.val r.val b.val t.val n.val f.val (realPoint p)) :
    let P := Perspective3.new l r b t n f
    let back := (P.unprojectPoint (P.projectPoint p)).coords
    let depth := -(p.coords.data 2).val
    ((back.data 0).Finite ∧ |(back.data 0).val - (p.coords.data 0).val| ≤
      2000 * (N ^ 2 * M + L) * 2 ^ (-53 : ℤ) * ((r.val + l.val) / n.val * depth)) ∧
    (b.val = t.val → (back.data 1).Finite ∧ |(back.data 1).val - (p.coords.data 1).val| ≤
      2000 * (N ^ 2 * M + L') * 2 ^ (-53 : ℤ) * ((t.val + b.val) / n.val * depth)) ∧
    ((back.data 2).Finite ∧ |(back.data 2).val - (p.coords.data 2).val| ≤ 1400 * (N ^ 2 * M) * 2 ^ (-53 : ℤ) * depth) := by
  intro P back depth
  have hf0 : 0 < f.val := hn0.trans hnf
  have hd0 : 0 < f.val - n.val := by linarith
  have m300 : ∀ {x : Ieee f64}, Spec.Moderate 90 x → Spec.Moderate 300 x := fun h => h.mono (by norm_num)
  have m150 : ∀ {x : Ieee f64}, Spec.Moderate 90 x → Spec.Moderate 150 x := fun h => h.mono (by norm_num)
  have nt300 : ∀ {x : ℝ}, NotTiny 90 x → NotTiny 300 x := fun h => h.mono (by norm_num)
  have nt150 : ∀ {x : ℝ}, NotTiny 90 x → NotTiny 150 x := fun h => h.mono (by norm_num)
  obtain ⟨⟨x1, x2⟩, ⟨y1, y2⟩, z1, z2⟩ := hp
  set x := (p.coords.data 0).val with hxd
  set y := (p.coords.data 1).val with hyd
  set z := (p.coords.data 2).val with hzd
  change -(l.val * -z / n.val) ≤ x at x1
  change x ≤ r.val * -z / n.val at x2
  change -(b.val * -z / n.val) ≤ y at y1
  change y ≤ t.val * -z / n.val at y2
  change n.val ≤ -z at z1
  change -z ≤ f.val at z2
  have hzneg : z < 0 := by linarith
  have hN1 : (1 : ℝ) < N := by
    by_contra h
    nlinarith [not_lt.mp h]
  have hM1 : (1 : ℝ) ≤ M := by
    by_contra h
    nlinarith [not_le.mp h]
  have ratio : ∀ {r l : ℝ} {L : ℕ}, 0 < r → 0 < l → r + l ≤ L * l → (1 : ℝ) ≤ L := fun {r l L} hr hl h => by
    by_contra k
    nlinarith [not_le.mp k]
  have hLs := ratio hr0 hl0 h3
  have hLs' := ratio ht0 hb0 h5
  have hK1 : (1 : ℝ) ≤ N * M := one_le_mul_of_one_le_of_one_le hN1.le hM1
  have hKK : (N : ℝ) * M ≤ N ^ 2 * M := mul_le_mul_of_nonneg_right (le_self_pow₀ hN1.le two_ne_zero) (by linarith)
  have hK2 : (N : ℝ) ^ 2 * M ≤ 2 ^ 30 := by exact_mod_cast hNM
  have hLr : (L : ℝ) ≤ 2 ^ 30 := by exact_mod_cast hL
  have hLr' : (L' : ℝ) ≤ 2 ^ 30 := by exact_mod_cast hL'
  have hNM40 : N * M ≤ 2 ^ 40 := by
    have : ((N * M : ℕ) : ℝ) ≤ ((2 ^ 40 : ℕ) : ℝ) := by push_cast; linarith
    exact_mod_cast this
  have p40 : (2 : ℕ) ^ 30 ≤ 2 ^ 40 := by norm_num
  have hNr : (N : ℝ) ≤ 2 ^ 30 := (le_mul_of_one_le_right (by linarith) hM1).trans (hKK.trans hK2)
  obtain ⟨A1, A2⟩ := C88_perspective_planes l r b t n f (m300 hn) (m300 hf) (nt300 hn') (nt300 hw) hn0 hnf N M hNM40 h1 h2
  obtain ⟨B1, B2⟩ := C88_perspective_sides l r b t n f (m300 hl) (m300 hr) (nt300 hx) hl0 hr0 L (hL.trans p40) h3 h4 (m300 hn) (m300 hf) (nt300 hn')
    (nt300 hw) hn0 hnf N M hNM40 h1 h2
  obtain ⟨D1, D2⟩ := C88_perspective_heights l r b t n f (m300 hb) (m300 ht) (nt300 hy) hb0 ht0 L' (hL'.trans p40) h5 h6 (m300 hn) (m300 hf) (nt300 hn')
    (nt300 hw) hn0 hnf N M hNM40 h1 h2
  have lo : ∀ {a : ℝ}, 0 < a → NotTiny 90 a → (2 : ℝ) ^ (-90 : ℤ) ≤ a := fun {a} ha h => by
    have : (2 : ℝ) ^ (-90 : ℤ) ≤ |a| := h
    rwa [abs_of_pos ha] at this
  have hi : ∀ {a : Ieee f64}, 0 < a.val → Spec.Moderate 90 a → a.val ≤ (2 : ℝ) ^ (90 : ℤ) := fun {a} ha h => by
    have := h.2
    rwa [abs_of_pos ha] at this
  have w : ∀ {x y : ℤ}, x ≤ y → (2 : ℝ) ^ x ≤ 2 ^ y := two_zpow_le_self_of_le
  have rn : Rng 100 n.val := ⟨(w (by norm_num)).trans (lo hn0 hn'), (hi hn0 hn).trans (w (by norm_num))⟩
  have rf : Rng 100 f.val := ⟨rn.1.trans hnf.le, (hi hf0 hf).trans (w (by norm_num))⟩
  have rz : Rng 100 (-z) := ⟨rn.1.trans z1, z2.trans rf.2⟩
  have rsum : ∀ {a c : Ieee f64}, 0 < a.val → 0 < c.val → Spec.Moderate 90 a → Spec.Moderate 90 c → NotTiny 90 (a.val + c.val) → Rng 101 (a.val + c.val) :=
    fun {a c} ha hc h k hac => by
      refine ⟨(w (by norm_num)).trans (lo (by linarith) hac), ?_⟩
      have e : (2 : ℝ) ^ (91 : ℤ) = 2 ^ (90 : ℤ) * 2 := zpow_add_one₀ two_ne_zero 90
      have := w (show (91 : ℤ) ≤ 101 by norm_num)
      linarith [hi ha h, hi hc k]
  have hzn : -z / n.val ≤ N := by rw [div_le_iff₀ hn0]; linarith
  have hzn0 : 0 ≤ -z / n.val := div_nonneg (by linarith) hn0.le
  have big : ∀ {a c q : ℝ}, 0 < a → 0 < c → a ≤ 2 ^ (90 : ℤ) → c ≤ 2 ^ (90 : ℤ) → -(a * -z / n.val) ≤ q → q ≤ c * -z / n.val → |q| ≤ 2 ^ (150 : ℤ) :=
    fun {a c q} ha hc ha2 hc2 q1 q2 => by
      have e : (2 : ℝ) ^ (120 : ℤ) = 2 ^ (90 : ℤ) * 2 ^ 30 := by
        rw [← zpow_natCast, ← zpow_add₀ two_ne_zero]; norm_num
      have hh := w (show (120 : ℤ) ≤ 150 by norm_num)
      have k1 : a * -z / n.val ≤ 2 ^ (90 : ℤ) * 2 ^ 30 := by
        rw [mul_div_assoc]; exact mul_le_mul ha2 (hzn.trans hNr) hzn0 (by positivity)
      have k2 : c * -z / n.val ≤ 2 ^ (90 : ℤ) * 2 ^ 30 := by
        rw [mul_div_assoc]; exact mul_le_mul hc2 (hzn.trans hNr) hzn0 (by positivity)
      rw [abs_le]; constructor <;> linarith
  have hpm : ∀ i, Spec.Moderate 150 (p.coords.data i) := by
    intro i
    refine ⟨hfin i, ?_⟩
    fin_cases i
    · exact big hl0 hr0 (hi hl0 hl) (hi hr0 hr) x1 x2
    · exact big hb0 ht0 (hi hb0 hb) (hi ht0 ht) y1 y2
    · change |z| ≤ _
      rw [abs_of_neg hzneg]; exact rz.2.trans (w (by norm_num))
  have hzt : NotTiny 150 z := by
    change (2 : ℝ) ^ (-150 : ℤ) ≤ |z|
    rw [abs_of_neg hzneg]; exact (w (by norm_num)).trans rz.1
  have hft : NotTiny 150 f.val := by
    change (2 : ℝ) ^ (-150 : ℤ) ≤ |f.val|
    rw [abs_of_pos hf0]; exact (w (by norm_num)).trans rf.1
  obtain ⟨⟨qx1, qx2⟩, ⟨qy1, qy2⟩, qz1, qz2⟩ := C88_perspective_point l r b t n f (m150 hl) (m150 hr) (m150 hb) (m150 ht) (m150 hn) (m150 hf) (nt150 hx)
    (nt150 hy) (nt150 hw) (nt150 hn') hft p hpm hzt
  have hv : f64.u = 2 ^ (-53 : ℤ) := rfl
  have t9 : (2 : ℝ) ^ (-900 : ℤ) ≤ 2 ^ (-53 : ℤ) := w (by norm_num)
  have hvv : (2 : ℝ) ^ (-53 : ℤ) * 2 ^ 30 ≤ 1 / 5000000 := by norm_num
  have hv0 : (0 : ℝ) < 2 ^ (-53 : ℤ) := by positivity
  have hKv2 : (N : ℝ) ^ 2 * M * 2 ^ (-53 : ℤ) ≤ 1 / 5000000 := by
    have := mul_le_mul_of_nonneg_right hK2 hv0.le
    linarith
  have hKv : (N : ℝ) * M * 2 ^ (-53 : ℤ) ≤ 1 / 5000000 := (mul_le_mul_of_nonneg_right hKK hv0.le).trans hKv2
  have hLv : (L : ℝ) * 2 ^ (-53 : ℤ) ≤ 1 / 5000000 := by
    have := mul_le_mul_of_nonneg_right hLr hv0.le
    linarith
  have hLv' : (L' : ℝ) * 2 ^ (-53 : ℤ) ≤ 1 / 5000000 := by
    have := mul_le_mul_of_nonneg_right hLr' hv0.le
    linarith
  obtain ⟨dx1, dx2, dx3, dx4⟩ := side_image hl0 hr0 hn0 hzneg x1 x2
  obtain ⟨dz1, dz2, dz3, dz4⟩ := depth_image hn0 hnf z1 z2 h2
  have sN := sc_of_relative hn0 A1
  have sF := sc_of_relative hf0 A2
  have hzz : (N : ℝ) * M * (-z / n.val) ≤ N ^ 2 * M := by
    have := mul_le_mul_of_nonneg_left hzn (show (0 : ℝ) ≤ N * M by positivity)
    linarith
  have nz : Nr ((P.projectPoint p).coords.data 2) (-(-(f.val + n.val) / (f.val - n.val) * z + -(2 * f.val * n.val) / (f.val - n.val)) / z)
      (37 * (N * M) * 2 ^ (-53 : ℤ)) := by
    refine ⟨qz1, qz2.trans ?_⟩
    have k1 : (M : ℝ) ≤ N * M := le_mul_of_one_le_left (by linarith) hN1.le
    have k2 := mul_le_mul_of_nonneg_left (add_le_add dz1 dz2) (show (0 : ℝ) ≤ 12 * 2 ^ (-53 : ℤ) by positivity)
    have k3 := mul_le_mul_of_nonneg_left k1 hv0.le
    have k4 := mul_le_mul_of_nonneg_left hK1 hv0.le
    refine (add_le_add k2 t9).trans ?_
    linarith
  have hI := depth_core rn rf hnf sN sF hv hK1 hKv z1 z2 nz dz3 dz4 hzz hKv2
  have small : ∀ {a c : ℝ}, |a| ≤ 2 → |c| ≤ 1 → 12 * 2 ^ (-53 : ℤ) * (|a| + |c|) + 2 ^ (-900 : ℤ) ≤ 37 * (2 : ℝ) ^ (-53 : ℤ) := fun {a c} ha hc => by
    have k2 := mul_le_mul_of_nonneg_left (add_le_add ha hc) (show (0 : ℝ) ≤ 12 * 2 ^ (-53 : ℤ) by positivity)
    linarith
  refine ⟨?_, fun hbt => ?_, ?_⟩
  · have hs0 : 0 < r.val + l.val := by linarith
    have nx : Nr ((P.projectPoint p).coords.data 0) (-(2 * n.val / (r.val + l.val) * x + (r.val - l.val) / (r.val + l.val) * z) / z)
        (37 * 2 ^ (-53 : ℤ)) := ⟨qx1, qx2.trans (small dx1 (by
          change |(r.val - l.val) / (r.val + l.val) * z / z| ≤ 1
          rwa [mul_div_assoc, div_self hzneg.ne, mul_one]))⟩
    exact side_core rn rf hnf sN sF hv hK1 hKv hl0 hr0 (rsum hr0 hl0 hr hl hx) (sc_share hr0 hs0 B2) (sc_share hl0 hs0 B1) hLs hLv nx dx3 rz hI hKK hKv2 dx4
  · have hs0 : 0 < t.val + b.val := by linarith
    obtain ⟨dy1, dy2, dy3, dy4⟩ := side_image hb0 ht0 hn0 hzneg y1 y2
    have e0 : (t.val - b.val) / (t.val + b.val) = 0 := by rw [hbt, sub_self, zero_div]
    have ny : Nr ((P.projectPoint p).coords.data 1) (-(2 * n.val / (t.val + b.val) * y + (t.val - b.val) / (t.val + b.val) * z) / z)
        (37 * 2 ^ (-53 : ℤ)) := by
      rw [e0]
      exact ⟨qy1, qy2.trans (small dy1 (by simp))⟩
    exact side_core rn rf hnf sN sF hv hK1 hKv hb0 ht0 (rsum ht0 hb0 ht hb hy) (sc_share ht0 hs0 D2) (sc_share hb0 hs0 D1) hLs' hLv' ny dy3 rz hI hKK hKv2 dy4
  · have h11 : Nr (-1 : Ieee f64) (-1) 0 := (Nr.one (φ := f64)).neg
    have key := hI.mul' u64_le (rz.fits (by norm_num)) (by rw [abs_of_pos (show 0 < -z by linarith)]) h11 (by norm_num) (by linarith) (by norm_num)
    rw [hv, show -1 * -z = z by ring] at key
    refine key.mono (by linarith) ?_
    have := mul_le_mul_of_nonneg_right (hK1.trans hKK) hv0.le
    linarith

theorem moderate_one (e : ℤ) (he : 0 ≤ e) : Spec.Moderate e (1 : Ieee f64) := ⟨finite_one, by rw [val_one, abs_one]; exact one_le_zpow₀ one_le_two he⟩

theorem moderate_two (e : ℤ) (he : 1 ≤ e) : Spec.Moderate e ((1 : Ieee f64) + 1) := ⟨is_two64.1, by
  rw [is_two64.2, abs_two]
  calc (2 : ℝ) = 2 ^ (1 : ℤ) := by norm_num
    _ ≤ 2 ^ e := two_zpow_le_self_of_le he⟩

theorem notTiny_of_one_le {e : ℤ} (he : 0 ≤ e) {a : ℝ} (h : 1 ≤ |a|) : NotTiny e a := by
  change (2 : ℝ) ^ (-e) ≤ _
  exact le_trans (two_zpow_le_self_of_le (show -e ≤ 0 by omega)) (by simpa using h)

/-- the point (1, -1, -2) -/
noncomputable def Spec.samplePoint : Pt (Ieee f64) 3 := Pt.new3 1 (-1) (-(1 + 1))

theorem samplePoint_finite (i : Fin 3) : (samplePoint.coords.data i).Finite := by
  fin_cases i
  · exact finite_one
  · exact (Nr.one (φ := f64)).neg.1
  · exact (two_nr fine64).neg.1

theorem samplePoint_vals : (samplePoint.coords.data 0).val = 1 ∧ (samplePoint.coords.data 1).val = -1 ∧ (samplePoint.coords.data 2).val = -2 := by
  refine ⟨val_one, ?_, ?_⟩
  · change (-(1 : Ieee f64)).val = -1
    rw [val_neg, val_one]
  · change (-((1 : Ieee f64) + 1)).val = -2
    rw [val_neg, is_two64.2]

/-- the point (1, -1, -2), on the edge of the box with sides at distance 1 and planes at the distances 1 and 2, goes through the cube and back -/
example :
    let P := Orthographic3.new (1 : Ieee f64) 1 1 1 1 (1 + 1)
    let back := (P.unprojectPoint (P.projectPoint samplePoint)).coords
    |(back.data 0).val - 1| ≤ 1200 * 2 ^ (-53 : ℤ) ∧ |(back.data 1).val + 1| ≤ 1200 * 2 ^ (-53 : ℤ) ∧ |(back.data 2).val + 2| ≤ 7800 * 2 ^ (-53 : ℤ) := by
  intro P back
  obtain ⟨v0, v1, v2⟩ := samplePoint_vals
  have m1 := moderate_one 90 (by norm_num)
  have key := C99_orthographic (l := 1) (r := 1) (b := 1) (t := 1) (n := 1) (f := 1 + 1) m1 m1 m1 m1 m1 (moderate_two 90 (by norm_num))
    (notTiny_of_one_le (by norm_num) (by norm_num [val_one])) (notTiny_of_one_le (by norm_num) (by norm_num [val_one]))
    (notTiny_of_one_le (by norm_num) (by norm_num [val_one, is_two64.2])) (notTiny_of_one_le (by norm_num) (by norm_num [val_one]))
    (by norm_num [val_one]) (by norm_num [val_one]) (by norm_num [val_one]) (by norm_num [val_one]) (by norm_num [val_one])
    (by norm_num [val_one, is_two64.2]) (L := 2) (L' := 2) (N := 2) (by norm_num) (by norm_num) (by norm_num) (by norm_num [val_one]) (by norm_num [val_one])
    (by norm_num [val_one]) (by norm_num [val_one]) (by norm_num [val_one, is_two64.2]) samplePoint samplePoint_finite (by
      unfold inBox
      change (_ ≤ (samplePoint.coords.data 0).val ∧ (samplePoint.coords.data 0).val ≤ _) ∧
        (_ ≤ (samplePoint.coords.data 1).val ∧ (samplePoint.coords.data 1).val ≤ _) ∧ _ ≤ (samplePoint.coords.data 2).val ∧ (samplePoint.coords.data 2).val ≤ _
      rw [v0, v1, v2, val_one, is_two64.2]; norm_num)
  obtain ⟨⟨-, a⟩, ⟨-, b⟩, -, c⟩ := key
  rw [v0, val_one] at a
  rw [v1, val_one] at b
  rw [v2, val_one, is_two64.2] at c
  rw [sub_neg_eq_add] at b c
  exact ⟨a.trans (by push_cast; linarith [show (0 : ℝ) < 2 ^ (-53 : ℤ) by positivity]), b.trans (by push_cast; linarith [show (0 : ℝ) < 2 ^ (-53 : ℤ) by positivity]),
    c.trans (by push_cast; linarith [show (0 : ℝ) < 2 ^ (-53 : ℤ) by positivity])⟩

/-- the same point in the frustum with the near plane at distance 1, the far plane at distance 2 and sides at distance 1 on the near plane -/
example :
    let P := Perspective3.new (1 : Ieee f64) 1 1 1 1 (1 + 1)
    let back := (P.unprojectPoint (P.projectPoint samplePoint)).coords
    |(back.data 0).val - 1| ≤ 112000 * 2 ^ (-53 : ℤ) ∧ |(back.data 1).val + 1| ≤ 112000 * 2 ^ (-53 : ℤ) ∧
      |(back.data 2).val + 2| ≤ 33600 * 2 ^ (-53 : ℤ) := by
  intro P back
  obtain ⟨v0, v1, v2⟩ := samplePoint_vals
  have m1 := moderate_one 90 (by norm_num)
  have key := C99_perspective (l := 1) (r := 1) (b := 1) (t := 1) (n := 1) (f := 1 + 1) m1 m1 m1 m1 m1 (moderate_two 90 (by norm_num))
    (notTiny_of_one_le (by norm_num) (by norm_num [val_one])) (notTiny_of_one_le (by norm_num) (by norm_num [val_one]))
    (notTiny_of_one_le (by norm_num) (by norm_num [val_one, is_two64.2])) (notTiny_of_one_le (by norm_num) (by norm_num [val_one]))
    (by norm_num [val_one]) (by norm_num [val_one]) (by norm_num [val_one]) (by norm_num [val_one]) (by norm_num [val_one])
    (by norm_num [val_one, is_two64.2]) (N := 2) (M := 3) (L := 2) (L' := 2) (by norm_num) (by norm_num) (by norm_num)
    (by norm_num [val_one, is_two64.2]) (by norm_num [val_one, is_two64.2]) (by norm_num [val_one]) (by norm_num [val_one])
    (by norm_num [val_one]) (by norm_num [val_one]) samplePoint samplePoint_finite (by
      unfold inFrustum
      change (_ ≤ (samplePoint.coords.data 0).val ∧ (samplePoint.coords.data 0).val ≤ _ * -(samplePoint.coords.data 2).val / _) ∧
        (_ ≤ (samplePoint.coords.data 1).val ∧ (samplePoint.coords.data 1).val ≤ _) ∧ _ ≤ -(samplePoint.coords.data 2).val ∧ -(samplePoint.coords.data 2).val ≤ _
      change (-((1 : Ieee f64).val * -(samplePoint.coords.data 2).val / (1 : Ieee f64).val) ≤ _ ∧ _) ∧
        (-((1 : Ieee f64).val * -(samplePoint.coords.data 2).val / (1 : Ieee f64).val) ≤ _ ∧ _ ≤ (1 : Ieee f64).val * -(samplePoint.coords.data 2).val / (1 : Ieee f64).val) ∧ _
      rw [v0, v1, v2, val_one, is_two64.2]; norm_num)
  obtain ⟨⟨-, a⟩, b, -, c⟩ := key
  have b := (b rfl).2
  rw [v0, v2, val_one] at a
  rw [v1, v2, val_one] at b
  rw [v2] at c
  rw [sub_neg_eq_add] at b c
  exact ⟨a.trans (by push_cast; linarith [show (0 : ℝ) < 2 ^ (-53 : ℤ) by positivity]), b.trans (by push_cast; linarith [show (0 : ℝ) < 2 ^ (-53 : ℤ) by positivity]),
    c.trans (by push_cast; linarith [show (0 : ℝ) < 2 ^ (-53 : ℤ) by positivity])⟩

end Cgl
