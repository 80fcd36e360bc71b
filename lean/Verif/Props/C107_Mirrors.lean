import Verif.Props.C106_Products

/-! # C107 - reflections and shears in IEEE arithmetic

Both move a point along a fixed direction by a multiple of its distance from a plane. -/

namespace Cgl
open Ieee FloatFns Mat Spec Rounding Matrix

variable {φ : Format} {n : ℕ}

namespace Spec

/-- the exact mirror image in the plane through `b` with the normal `m` -/
def mirror (b m p : Fin n → ℝ) : Fin n → ℝ := p - (2 * ((p - b) ⬝ᵥ m)) • m

/-- the exact image of a shear by the factor `k` along `d`, which leaves the plane through `o` with the normal `m` in place -/
def slide (k : ℝ) (o d m p : Fin n → ℝ) : Fin n → ℝ := p + (k * ((p - o) ⬝ᵥ m)) • d

/-- a vector of finite numbers of at most the length `X` -/
def Short (X : ℝ) (v : Vec (Ieee φ) n) : Prop := (∀ i, (v.data i).Finite) ∧ vecNorm (values v) ≤ X

/-- a reflection in a plane through a point of at most the length `X`, with a normal of finite numbers, of at most about the length one -/
def FairReflection (X : ℝ) (t : Reflection (Ieee φ) n) : Prop := Short X t.bias.coords ∧ Short (101 / 100) t.normal

/-- a shear by a factor of at most `κ`, with an origin of at most the length `X` and a direction and a normal of at most about the length one -/
def FairShear (X κ : ℝ) (t : Shear (Ieee φ) n) : Prop :=
  t.shearFactor.Finite ∧ |t.shearFactor.val| ≤ κ ∧ Short X t.origin.coords ∧ Short (101 / 100) t.direction ∧ Short (101 / 100) t.normal

end Spec

theorem sub_of {x y : Ieee φ} (hx : x.Finite) (hy : y.Finite) (h : |φ.fl (x.val - y.val)| ≤ φ.big) :
    (x - y).Finite ∧ (x - y).val = φ.fl (x.val - y.val) := by
  have hn : (-y).Finite := by
    obtain ⟨s, m, hm, rfl⟩ := hy
    exact finite_fin _ _ _
  have hf : (x - y).Finite := finite_add_of hx hn (by rw [val_neg, ← sub_eq_add_neg]; exact h)
  exact ⟨hf, val_sub hf⟩

theorem component_le (x : Fin n → ℝ) (i : Fin n) : |x i| ≤ vecNorm x := by
  rw [vecNorm]
  refine Real.le_sqrt_of_sq_le ?_
  rw [sq_abs]
  exact Finset.single_le_sum (f := fun j => x j ^ 2) (fun j _ => sq_nonneg _) (Finset.mem_univ i)

theorem vecNorm_neg (x : Fin n → ℝ) : vecNorm (-x) = vecNorm x := by simp [vecNorm]

theorem vecNorm_sub (x y : Fin n → ℝ) : vecNorm (x - y) ≤ vecNorm x + vecNorm y := by
  rw [sub_eq_add_neg, ← vecNorm_neg y]; exact vecNorm_add _ _

theorem vecNorm_smul (k : ℝ) (x : Fin n → ℝ) : vecNorm (k • x) = |k| * vecNorm x := by
  rw [vecNorm_eq, vecNorm_eq, WithLp.toLp_smul, norm_smul, Real.norm_eq_abs]

theorem dotProduct_le (x y : Fin n → ℝ) : |x ⬝ᵥ y| ≤ vecNorm x * vecNorm y :=
  (Finset.abs_sum_le_sum_abs _ _).trans (sum_le_vecNorm x y)

theorem dotProduct_self_eq (x : Fin n → ℝ) : x ⬝ᵥ x = vecNorm x ^ 2 := by
  rw [vecNorm, Real.sq_sqrt (Finset.sum_nonneg fun i _ => sq_nonneg _)]
  exact Finset.sum_congr rfl fun i _ => (sq _).symm

theorem vecNorm_le_all {x : Fin n → ℝ} {e : ℝ} (he : 0 ≤ e) (h : ∀ i, |x i| ≤ e) : vecNorm x ≤ n * e := by
  refine (vecNorm_le he h).trans (mul_le_mul_of_nonneg_right ?_ he)
  rcases Nat.eq_zero_or_pos n with h | h
  · simp [h]
  · rw [Real.sqrt_le_iff]
    have : (1 : ℝ) ≤ n := by exact_mod_cast h
    exact ⟨by linarith, by nlinarith⟩

section Core
variable (hu : φ.u ≤ 1 / 1000000) (hn : 40 * n ^ 2 * φ.u ≤ 1 / 100) {X κ : ℝ} (hX : 0 < X) (hκ : 1 ≤ κ)
  (hfits : ∀ a, X ≤ a → a ≤ 10 * κ * X → Fits φ a)

theorem few_of (hn : 40 * n ^ 2 * φ.u ≤ 1 / 100) : n * φ.u ≤ 1 / 4000 := by
  have h1 : (n : ℝ) ≤ n ^ 2 := by
    have : n ≤ n ^ 2 := Nat.le_self_pow two_ne_zero n
    exact_mod_cast this
  have := mul_le_mul_of_nonneg_right h1 φ.u_nonneg
  linarith

include hu hn hX hκ hfits

/-- the distance from the plane -/
theorem distance_near {x m : Vec (Ieee φ) n} {y : Fin n → ℝ} (hx : ∀ i, (x.data i).Finite ∧ |(x.data i).val - y i| ≤ 41 / 10 * φ.u * X)
    (hy : vecNorm y ≤ 2 * X) (hm : Short (101 / 100) m) :
    (x.dot m).Finite ∧ |(x.dot m).val - y ⬝ᵥ values m| ≤ 15 * n * φ.u * X ∧ |y ⬝ᵥ values m| ≤ 202 / 100 * X := by
  have hu0 := φ.u_nonneg
  have hnu := few_of hn
  have hux : 0 ≤ φ.u * X := by positivity
  have d1 : vecNorm (values x - y) ≤ n * (41 / 10 * φ.u * X) := vecNorm_le_all (by positivity) fun i => (hx i).2
  have d2 : n * (41 / 10 * φ.u * X) ≤ 1 / 100 * X := by
    have := mul_le_mul_of_nonneg_right hnu hX.le
    linarith
  have d3 : vecNorm (values x) ≤ 201 / 100 * X := by
    have := vecNorm_add (values x - y) y
    rw [sub_add_cancel] at this; linarith
  have hκX : X ≤ κ * X := le_mul_of_one_le_left hX.le hκ
  have hb : ∑ i, |(x.data i).val * (m.data i).val| ≤ 21 / 10 * X := by
    refine (sum_le_vecNorm (values x) (values m)).trans ?_
    have := mul_le_mul d3 hm.2 (vecNorm_nonneg _) (by positivity)
    linarith
  obtain ⟨k1, k2⟩ := dot_loop_sum hu (by linarith) (hfits (21 / 10 * X) (by linarith) (by linarith)) (fun i => (hx i).1) hm.1 hb
  have e : x.dot m = forRange n 0 fun i result => result + x.data i * m.data i := rfl
  rw [← e] at k1 k2
  have k3 : |values x ⬝ᵥ values m - y ⬝ᵥ values m| ≤ 42 / 10 * (n * φ.u * X) := by
    rw [← sub_dotProduct]
    refine (dotProduct_le _ _).trans ?_
    have := mul_le_mul d1 hm.2 (vecNorm_nonneg _) (by positivity)
    have : 0 ≤ n * φ.u * X := by positivity
    linarith
  refine ⟨k1, ?_, ?_⟩
  · have c1 := abs_le.mp k2
    have c2 := abs_le.mp k3
    have : (0 : ℝ) ≤ n * φ.u * X := by positivity
    change -_ ≤ (x.dot m).val - values x ⬝ᵥ values m ∧ (x.dot m).val - values x ⬝ᵥ values m ≤ _ at c1
    rw [abs_le]; constructor <;> linarith
  · refine (dotProduct_le _ _).trans ?_
    have := mul_le_mul hy hm.2 (vecNorm_nonneg _) (by positivity)
    linarith

/-- the multiple of the direction -/
theorem multiple_near (h1 : 1 ≤ n) {s k f : Ieee φ} {σ : ℝ} (hs : s.Finite) (hsv : |s.val - σ| ≤ 15 * n * φ.u * X) (hσ : |σ| ≤ 202 / 100 * X)
    (hk : k.Finite) (hkv : |k.val| ≤ κ) (hf : f = k * s ∨ f = s * k) : f.Finite ∧ |f.val - k.val * σ| ≤ 20 * n * φ.u * (κ * X) ∧ |k.val * σ| ≤ 202 / 100 * (κ * X) := by
  have hu0 := φ.u_nonneg
  have hnu := few_of hn
  have hκX : X ≤ κ * X := le_mul_of_one_le_left hX.le hκ
  have h1' : (1 : ℝ) ≤ n := by exact_mod_cast h1
  have hs2 : |s.val| ≤ 206 / 100 * X := by
    have := abs_sub_abs_le_abs_sub s.val σ
    have := mul_le_mul_of_nonneg_right hnu hX.le
    linarith
  have b1 : |k.val * s.val| ≤ 21 / 10 * (κ * X) := by
    rw [abs_mul]
    have := mul_le_mul hkv hs2 (abs_nonneg _) (by linarith)
    have : 0 ≤ κ * X := by linarith
    linarith
  have hpos : 0 < κ * X := by linarith
  obtain ⟨r1, r2⟩ := (hfits (21 / 10 * (κ * X)) (by linarith) (by linarith)).round hu (z := k.val * s.val) (by linarith)
  have hfin : f.Finite ∧ f.val = φ.fl (k.val * s.val) := by
    rcases hf with rfl | rfl
    · have h := finite_mul_of hk hs r1
      exact ⟨h, val_mul h⟩
    · have h := finite_mul_of hs hk (by rw [_root_.mul_comm]; exact r1)
      exact ⟨h, by rw [val_mul h, _root_.mul_comm]⟩
  refine ⟨hfin.1, ?_, ?_⟩
  · rw [hfin.2]
    have b2 : |k.val * s.val - k.val * σ| ≤ κ * (15 * n * φ.u * X) := by
      rw [← mul_sub, abs_mul]; exact mul_le_mul hkv hsv (abs_nonneg _) (by linarith)
    have b3 : φ.u * (κ * X) ≤ n * φ.u * (κ * X) := by
      rw [mul_assoc]; exact le_mul_of_one_le_left (by positivity) h1'
    have c1 := abs_le.mp r2
    have c2 := abs_le.mp b2
    have : 0 ≤ φ.u * (κ * X) := by positivity
    rw [abs_le]; constructor <;> linarith
  · rw [abs_mul]
    have := mul_le_mul hkv hσ (abs_nonneg _) (by linarith)
    linarith

/-- the moved component -/
theorem moved_near (h1 : 1 ≤ n) {p d f q : Ieee φ} {τ : ℝ} (hp : p.Finite) (hpv : |p.val| ≤ X) (hd : d.Finite) (hdv : |d.val| ≤ 101 / 100)
    (hf : f.Finite) (hfv : |f.val - τ| ≤ 20 * n * φ.u * (κ * X)) (hτ : |τ| ≤ 202 / 100 * (κ * X)) {ε : ℝ}
    (hq : q = p + d * f ∧ ε = 1 ∨ q = p - d * f ∧ ε = -1) : q.Finite ∧ |q.val - (p.val + ε * (τ * d.val))| ≤ 40 * n * φ.u * (κ * X) := by
  have hu0 := φ.u_nonneg
  have hnu := few_of hn
  have hκX : X ≤ κ * X := le_mul_of_one_le_left hX.le hκ
  have hpos : 0 < κ * X := by linarith
  have h1' : (1 : ℝ) ≤ n := by exact_mod_cast h1
  have b3 : φ.u * (κ * X) ≤ n * φ.u * (κ * X) := by
    rw [mul_assoc]; exact le_mul_of_one_le_left (by positivity) h1'
  have b4 : n * φ.u * (κ * X) ≤ 1 / 4000 * (κ * X) := mul_le_mul_of_nonneg_right hnu hpos.le
  have b0 : 0 ≤ φ.u * (κ * X) := by positivity
  have hf2 : |f.val| ≤ 203 / 100 * (κ * X) := by
    have := abs_sub_abs_le_abs_sub f.val τ
    linarith
  have m0 : |d.val * f.val| ≤ 206 / 100 * (κ * X) := by
    rw [abs_mul]
    have := mul_le_mul hdv hf2 (abs_nonneg _) (by norm_num)
    linarith
  obtain ⟨r1, r2⟩ := (hfits (206 / 100 * (κ * X)) (by linarith) (by linarith)).round hu (z := d.val * f.val) (by linarith)
  have m1 := finite_mul_of hd hf r1
  have m2 := val_mul m1
  rw [← m2] at r2
  have m3 : |d.val * f.val - τ * d.val| ≤ 101 / 100 * (20 * n * φ.u * (κ * X)) := by
    rw [show d.val * f.val - τ * d.val = d.val * (f.val - τ) by ring, abs_mul]
    exact mul_le_mul hdv hfv (abs_nonneg _) (by norm_num)
  have c1 := abs_le.mp r2
  have c2 := abs_le.mp m3
  have c3 := abs_le.mp m0
  have c4 := abs_le.mp hpv
  rcases hq with ⟨rfl, rfl⟩ | ⟨rfl, rfl⟩
  · obtain ⟨s1, s2⟩ := (hfits (32 / 10 * (κ * X)) (by linarith) (by linarith)).round hu (z := p.val + (d * f).val)
      (by rw [abs_le]; constructor <;> linarith)
    have a1 := finite_add_of hp m1 s1
    refine ⟨a1, ?_⟩
    rw [val_add a1]
    have c5 := abs_le.mp s2
    rw [abs_le]; constructor <;> linarith
  · obtain ⟨s1, s2⟩ := (hfits (32 / 10 * (κ * X)) (by linarith) (by linarith)).round hu (z := p.val - (d * f).val)
      (by rw [abs_le]; constructor <;> linarith)
    obtain ⟨a1, a2⟩ := sub_of hp m1 s1
    refine ⟨a1, ?_⟩
    rw [a2]
    have c5 := abs_le.mp s2
    rw [abs_le]; constructor <;> linarith

/-- the difference from the point on the plane -/
theorem displacement_near {p o : Vec (Ieee φ) n} (hp : Short X p) (ho : Short X o) :
    (∀ i, ((p - o).data i).Finite ∧ |((p - o).data i).val - (values p - values o) i| ≤ 41 / 10 * φ.u * X) ∧ vecNorm (values p - values o) ≤ 2 * X := by
  have hκX : X ≤ κ * X := le_mul_of_one_le_left hX.le hκ
  refine ⟨fun i => ?_, (vecNorm_sub _ _).trans (by linarith [hp.2, ho.2])⟩
  rw [Vec.sub_data]
  have h1 := (component_le (values p) i).trans hp.2
  have h2 := (component_le (values o) i).trans ho.2
  have c1 := abs_le.mp h1
  have c2 := abs_le.mp h2
  obtain ⟨r1, r2⟩ := (hfits (2 * X) (by linarith) (by linarith)).round hu (z := (p.data i).val - (o.data i).val)
    (by change -_ ≤ (p.data i).val ∧ (p.data i).val ≤ _ at c1; change -_ ≤ (o.data i).val ∧ (o.data i).val ≤ _ at c2; rw [abs_le]; constructor <;> linarith)
  obtain ⟨a1, a2⟩ := sub_of (hp.1 i) (ho.1 i) r1
  refine ⟨a1, ?_⟩
  rw [a2]
  refine r2.trans ?_
  have := φ.u_nonneg
  have : 0 ≤ φ.u * X := by positivity
  linarith

/-- all of it -/
theorem both_moves {p x d m : Vec (Ieee φ) n} {y : Fin n → ℝ} {k f : Ieee φ} (hp : Short X p)
    (hx : ∀ i, (x.data i).Finite ∧ |(x.data i).val - y i| ≤ 41 / 10 * φ.u * X) (hy : vecNorm y ≤ 2 * X) (hd : Short (101 / 100) d) (hm : Short (101 / 100) m)
    (hk : k.Finite) (hkv : |k.val| ≤ κ) (hf : f = k * x.dot m ∨ f = x.dot m * k) :
    Close (p + d * f) (values p + (k.val * (y ⬝ᵥ values m)) • values d) (40 * n * φ.u * (κ * X)) ∧
    Close (p - d * f) (values p - (k.val * (y ⬝ᵥ values m)) • values d) (40 * n * φ.u * (κ * X)) := by
  rcases Nat.eq_zero_or_pos n with h0 | h0
  · subst h0; exact ⟨fun i => i.elim0, fun i => i.elim0⟩
  obtain ⟨s1, s2, s3⟩ := distance_near hu hn hX hκ hfits hx hy hm
  obtain ⟨f1, f2, f3⟩ := multiple_near hu hn hX hκ hfits h0 s1 s2 s3 hk hkv hf
  have hpi := fun i => (component_le (values p) i).trans hp.2
  have hdi := fun i => (component_le (values d) i).trans hd.2
  refine ⟨fun i => ?_, fun i => ?_⟩
  · rw [Vec.add_data, Vec.mulS_data]
    have := moved_near hu hn hX hκ hfits h0 (hp.1 i) (hpi i) (hd.1 i) (hdi i) f1 f2 f3 (Or.inl ⟨rfl, rfl⟩)
    rw [_root_.one_mul] at this
    exact this
  · rw [Vec.sub_data, Vec.mulS_data]
    have := moved_near hu hn hX hκ hfits h0 (hp.1 i) (hpi i) (hd.1 i) (hdi i) f1 f2 f3 (Or.inr ⟨rfl, rfl⟩)
    rw [neg_one_mul, ← sub_eq_add_neg] at this
    exact this


end Core

/-- `40 n^2` roundings are little, and numbers of sizes from `lo` to `hi` are neither too small nor too large -/
structure Adequate (φ : Format) (n : ℕ) (lo hi : ℝ) : Prop where
  small : φ.u ≤ 1 / 1000000
  few : 40 * n ^ 2 * φ.u ≤ 1 / 100
  pos : 0 < lo
  fits : ∀ a, lo ≤ a → a ≤ hi → Fits φ a
  two : (1 + 1 : Ieee φ).Finite ∧ (1 + 1 : Ieee φ).val = 2

section Bounds
variable {lo hi X κ : ℝ} (A : Adequate φ n lo hi) (h1 : lo ≤ X)
include A h1

theorem mirrored_point (h2 : 20 * X ≤ hi) {t : Reflection (Ieee φ) n} (ht : FairReflection X t) {p : Pt (Ieee φ) n} (hp : Short X p.coords) :
    Close (t.applyPoint p).coords (mirror (values t.bias.coords) (values t.normal) (values p.coords)) (80 * n * φ.u * X) := by
  have hf : ∀ a, X ≤ a → a ≤ 10 * 2 * X → Fits φ a := fun a a1 a2 => A.fits a (h1.trans a1) (a2.trans (by linarith))
  have hX := A.pos.trans_le h1
  obtain ⟨d1, d2⟩ := displacement_near A.small A.few hX one_le_two hf hp ht.1
  have := (both_moves A.small A.few hX one_le_two hf hp d1 d2 ht.2 ht.2 A.two.1 (by rw [A.two.2]; norm_num) (Or.inr rfl)).2
  rw [A.two.2, show 40 * n * φ.u * (2 * X) = 80 * n * φ.u * X by ring] at this
  exact this

theorem mirrored_vector (h2 : 20 * X ≤ hi) {t : Reflection (Ieee φ) n} (ht : Short (101 / 100) t.normal) {v : Vec (Ieee φ) n} (hv : Short X v) :
    Close (t.applyVector v) (mirror 0 (values t.normal) (values v)) (80 * n * φ.u * X) := by
  have hf : ∀ a, X ≤ a → a ≤ 10 * 2 * X → Fits φ a := fun a a1 a2 => A.fits a (h1.trans a1) (a2.trans (by linarith))
  have hX := A.pos.trans_le h1
  have hu0 := φ.u_nonneg
  have := (both_moves A.small A.few hX one_le_two hf hv (x := v) (y := values v)
    (fun i => ⟨hv.1 i, by rw [values, sub_self, abs_zero]; positivity⟩) (hv.2.trans (by linarith)) ht ht A.two.1 (by rw [A.two.2]; norm_num) (Or.inr rfl)).2
  rw [A.two.2, show 40 * n * φ.u * (2 * X) = 80 * n * φ.u * X by ring] at this
  rw [mirror, sub_zero]
  exact this

theorem slid_point (hκ : 1 ≤ κ) (h2 : 10 * κ * X ≤ hi) {t : Shear (Ieee φ) n} (ht : FairShear X κ t) {p : Pt (Ieee φ) n} (hp : Short X p.coords) :
    Close (t.applyPoint p).coords (slide t.shearFactor.val (values t.origin.coords) (values t.direction) (values t.normal) (values p.coords))
      (40 * n * φ.u * (κ * X)) ∧
    Close (t.inverseApplyPoint p).coords (slide (-t.shearFactor.val) (values t.origin.coords) (values t.direction) (values t.normal) (values p.coords))
      (40 * n * φ.u * (κ * X)) := by
  have hf : ∀ a, X ≤ a → a ≤ 10 * κ * X → Fits φ a := fun a a1 a2 => A.fits a (h1.trans a1) (a2.trans h2)
  have hX := A.pos.trans_le h1
  obtain ⟨k1, k2, o1, d1, m1⟩ := ht
  obtain ⟨e1, e2⟩ := displacement_near A.small A.few hX hκ hf hp o1
  obtain ⟨r1, r2⟩ := both_moves A.small A.few hX hκ hf hp e1 e2 d1 m1 k1 k2 (Or.inl rfl)
  refine ⟨r1, ?_⟩
  rw [slide, neg_mul, neg_smul, ← sub_eq_add_neg]
  exact r2

end Bounds

/-! ### there and back -/

theorem mirror_sub (b m p q : Fin n → ℝ) : mirror b m p - mirror b m q = mirror 0 m (p - q) := by
  simp only [mirror, sub_zero, sub_dotProduct]
  module

theorem mirror_mirror (b m p : Fin n → ℝ) : mirror b m (mirror b m p) - p = (4 * ((p - b) ⬝ᵥ m) * (m ⬝ᵥ m - 1)) • m := by
  have : (mirror b m p - b) ⬝ᵥ m = (p - b) ⬝ᵥ m - 2 * ((p - b) ⬝ᵥ m) * (m ⬝ᵥ m) := by
    simp only [mirror, sub_dotProduct, smul_dotProduct, smul_eq_mul]; ring
  rw [mirror, this]
  simp only [mirror]
  module

theorem slide_sub (k : ℝ) (o d m p q : Fin n → ℝ) : slide k o d m p - slide k o d m q = slide k 0 d m (p - q) := by
  simp only [slide, sub_zero, sub_dotProduct]
  module

theorem slide_slide (k : ℝ) (o d m p : Fin n → ℝ) : slide (-k) o d m (slide k o d m p) - p = (-(k ^ 2 * ((p - o) ⬝ᵥ m) * (d ⬝ᵥ m))) • d := by
  have : (slide k o d m p - o) ⬝ᵥ m = (p - o) ⬝ᵥ m + k * ((p - o) ⬝ᵥ m) * (d ⬝ᵥ m) := by
    simp only [slide, sub_dotProduct, add_dotProduct, smul_dotProduct, smul_eq_mul]; ring
  rw [slide, this]
  simp only [slide]
  module

theorem slide_norm {k κ Y : ℝ} {o d m p : Fin n → ℝ} (hk : |k| ≤ κ) (hd : vecNorm d ≤ 101 / 100) (hm : vecNorm m ≤ 101 / 100) (hY : vecNorm (p - o) ≤ Y) :
    vecNorm (slide k o d m p) ≤ vecNorm p + 103 / 100 * (κ * Y) := by
  refine (vecNorm_add _ _).trans (add_le_add le_rfl ?_)
  rw [vecNorm_smul, abs_mul]
  have hY0 := (vecNorm_nonneg _).trans hY
  have hκ := (abs_nonneg _).trans hk
  have e1 := (dotProduct_le (p - o) m).trans (mul_le_mul hY hm (vecNorm_nonneg _) hY0)
  have e2 := mul_le_mul (mul_le_mul hk e1 (abs_nonneg _) hκ) hd (vecNorm_nonneg _) (by positivity)
  have : 0 ≤ κ * Y := by positivity
  linarith

theorem mirror_eq_slide (b m p : Fin n → ℝ) : mirror b m p = slide (-2) b m m p := by
  simp only [mirror, slide]; module

theorem Spec.Close.norm {w : Vec (Ieee φ) n} {x : Fin n → ℝ} {e : ℝ} (h : Close w x e) (he : 0 ≤ e) : vecNorm (values w - x) ≤ n * e :=
  vecNorm_le_all he fun i => (h i).2

theorem Spec.Close.trans {w : Vec (Ieee φ) n} {x y : Fin n → ℝ} {e f : ℝ} (h : Close w x e) (h2 : vecNorm (x - y) ≤ f) : Close w y (e + f) := fun i => by
  refine ⟨(h i).1, ?_⟩
  have := (abs_sub_le (w.data i).val (x i) (y i))
  have := (component_le (x - y) i).trans h2
  have := (h i).2
  simp only [Pi.sub_apply] at *
  linarith

theorem Spec.Close.mono {w : Vec (Ieee φ) n} {x : Fin n → ℝ} {e f : ℝ} (h : Close w x e) (h2 : e ≤ f) : Close w x f := fun i => ⟨(h i).1, (h i).2.trans h2⟩

section Back
variable {lo hi X κ : ℝ} (A : Adequate φ n lo hi) (h1 : lo ≤ X)
include A h1

/-- the shared argument: `q` is the computed image of `p`, `r` that of `q` -/
theorem comes_back {k l : ℝ} {o d m p : Fin n → ℝ} {q r : Vec (Ieee φ) n} (hκ : 1 ≤ κ) (hl : |l| ≤ κ) (hk : |k| ≤ κ) (ho : vecNorm o ≤ X) (hp : vecNorm p ≤ X)
    (hd : vecNorm d ≤ 101 / 100) (hm : vecNorm m ≤ 101 / 100) (hq : Close q (slide k o d m p) (40 * n * φ.u * (κ * X)))
    (hr : Short (31 / 10 * κ * X) q → Close r (slide l o d m (values q)) (40 * n * φ.u * (κ * (31 / 10 * κ * X)))) {D : ℝ}
    (hD : vecNorm (slide l o d m (slide k o d m p) - p) ≤ D) : Close r p (210 * n ^ 2 * φ.u * (κ ^ 2 * X) + D) := by
  have hX := A.pos.trans_le h1
  have hu0 := φ.u_nonneg
  have hκX : X ≤ κ * X := le_mul_of_one_le_left hX.le hκ
  have hpos : 0 < κ * X := hX.trans_le hκX
  have e1 := hq.norm (by positivity)
  have e2 : n * (40 * n * φ.u * (κ * X)) = 40 * n ^ 2 * φ.u * (κ * X) := by ring
  have e3 : 40 * n ^ 2 * φ.u * (κ * X) ≤ 1 / 100 * (κ * X) := mul_le_mul_of_nonneg_right A.few hpos.le
  have hY : vecNorm (p - o) ≤ 2 * X := (vecNorm_sub _ _).trans (by linarith)
  have e4 := slide_norm hk hd hm hY
  have e5 : vecNorm (values q) ≤ 31 / 10 * κ * X := by
    have := vecNorm_add (values q - slide k o d m p) (slide k o d m p)
    rw [sub_add_cancel] at this
    linarith
  have e6 := hr ⟨fun i => (hq i).1, e5⟩
  have e7 : vecNorm (slide l o d m (values q) - slide l o d m (slide k o d m p)) ≤ 204 / 100 * κ * (40 * n ^ 2 * φ.u * (κ * X)) := by
    rw [slide_sub]
    have h0 : 0 ≤ 40 * n ^ 2 * φ.u * (κ * X) := by positivity
    have h3 := le_mul_of_one_le_left h0 hκ
    refine (slide_norm (Y := 40 * n ^ 2 * φ.u * (κ * X)) hl hd hm (by rw [sub_zero]; linarith)).trans ?_
    linarith
  refine ((e6.trans e7).trans hD).mono ?_
  have hnn : (n : ℝ) ≤ n ^ 2 := by
    have : n ≤ n ^ 2 := Nat.le_self_pow two_ne_zero n
    exact_mod_cast this
  have h9 : n * (φ.u * (κ ^ 2 * X)) ≤ n ^ 2 * (φ.u * (κ ^ 2 * X)) := mul_le_mul_of_nonneg_right hnn (by positivity)
  have : 0 ≤ n ^ 2 * (φ.u * (κ ^ 2 * X)) := by positivity
  nlinarith

theorem mirrored_back (h2 : 140 * X ≤ hi) {t : Reflection (Ieee φ) n} (ht : FairReflection X t) {p : Pt (Ieee φ) n} (hp : Short X p.coords) :
    Close (t.applyPoint (t.applyPoint p)).coords (values p.coords) (840 * n ^ 2 * φ.u * X + 10 * |vecNorm (values t.normal) ^ 2 - 1| * X) := by
  have hX := A.pos.trans_le h1
  have q1 := mirrored_point A h1 (by linarith) ht hp
  rw [mirror_eq_slide] at q1
  have hY : vecNorm (values p.coords - values t.bias.coords) ≤ 2 * X := (vecNorm_sub _ _).trans (by linarith [hp.2, ht.1.2])
  refine (comes_back A h1 one_le_two (by norm_num) (by norm_num) ht.1.2 hp.2 ht.2.2 ht.2.2 (l := -2) (k := -2)
    (q1.mono (by linarith)) (fun hq => ?_) (D := 10 * |vecNorm (values t.normal) ^ 2 - 1| * X) ?_).mono (by linarith)
  · have hb : FairReflection (31 / 10 * 2 * X) t := ⟨⟨ht.1.1, ht.1.2.trans (by linarith)⟩, ht.2⟩
    have := mirrored_point A (X := 31 / 10 * 2 * X) (by linarith) (by linarith) hb hq
    rw [mirror_eq_slide] at this
    exact this.mono (by linarith)
  · rw [← mirror_eq_slide, ← mirror_eq_slide, mirror_mirror, vecNorm_smul, dotProduct_self_eq, abs_mul, abs_mul]
    have e1 := (dotProduct_le (values p.coords - values t.bias.coords) (values t.normal)).trans (mul_le_mul hY ht.2.2 (vecNorm_nonneg _) (by linarith))
    have a0 := abs_nonneg (vecNorm (values t.normal) ^ 2 - 1)
    have e2 := mul_le_mul_of_nonneg_right e1 a0
    have e3 := mul_le_mul e2 ht.2.2 (vecNorm_nonneg _) (by positivity)
    rw [abs_of_nonneg (by norm_num : (0 : ℝ) ≤ 4)]
    have : 0 ≤ |vecNorm (values t.normal) ^ 2 - 1| * X := by positivity
    linarith

theorem mirrored_vector_back (h2 : 140 * X ≤ hi) {t : Reflection (Ieee φ) n} (ht : Short (101 / 100) t.normal) {v : Vec (Ieee φ) n} (hv : Short X v) :
    Close (t.applyVector (t.applyVector v)) (values v) (840 * n ^ 2 * φ.u * X + 10 * |vecNorm (values t.normal) ^ 2 - 1| * X) := by
  have hX := A.pos.trans_le h1
  have q1 := mirrored_vector A h1 (by linarith) ht hv
  rw [mirror_eq_slide] at q1
  have hz : vecNorm (0 : Fin n → ℝ) ≤ X := by simp [vecNorm]; exact hX.le
  have hY : vecNorm (values v - 0) ≤ 2 * X := by rw [sub_zero]; linarith [hv.2]
  refine (comes_back A h1 one_le_two (by norm_num) (by norm_num) hz hv.2 ht.2 ht.2 (l := -2) (k := -2)
    (q1.mono (by linarith)) (fun hq => ?_) (D := 10 * |vecNorm (values t.normal) ^ 2 - 1| * X) ?_).mono (by linarith)
  · have := mirrored_vector A (X := 31 / 10 * 2 * X) (by linarith) (by linarith) ht hq
    rw [mirror_eq_slide] at this
    exact this.mono (by linarith)
  · rw [← mirror_eq_slide, ← mirror_eq_slide, mirror_mirror, vecNorm_smul, dotProduct_self_eq, abs_mul, abs_mul]
    have e1 := (dotProduct_le (values v - 0) (values t.normal)).trans (mul_le_mul hY ht.2 (vecNorm_nonneg _) (by linarith))
    have a0 := abs_nonneg (vecNorm (values t.normal) ^ 2 - 1)
    have e2 := mul_le_mul_of_nonneg_right e1 a0
    have e3 := mul_le_mul e2 ht.2 (vecNorm_nonneg _) (by positivity)
    rw [abs_of_nonneg (by norm_num : (0 : ℝ) ≤ 4)]
    have : 0 ≤ |vecNorm (values t.normal) ^ 2 - 1| * X := by positivity
    linarith

theorem slid_back (hκ : 1 ≤ κ) (h2 : 31 * κ ^ 2 * X ≤ hi) {t : Shear (Ieee φ) n} (ht : FairShear X κ t) {p : Pt (Ieee φ) n} (hp : Short X p.coords) :
    Close (t.inverseApplyPoint (t.applyPoint p)).coords (values p.coords)
      (210 * n ^ 2 * φ.u * (κ ^ 2 * X) + 3 * |values t.direction ⬝ᵥ values t.normal| * (κ ^ 2 * X)) ∧
    Close (t.applyPoint (t.inverseApplyPoint p)).coords (values p.coords)
      (210 * n ^ 2 * φ.u * (κ ^ 2 * X) + 3 * |values t.direction ⬝ᵥ values t.normal| * (κ ^ 2 * X)) := by
  have hX := A.pos.trans_le h1
  have hκX : X ≤ κ * X := le_mul_of_one_le_left hX.le hκ
  have hκ2 : κ * X ≤ κ ^ 2 * X := by nlinarith
  have ht' := ht
  obtain ⟨k1, k2, o1, d1, m1⟩ := ht'
  have hb : FairShear (31 / 10 * κ * X) κ t := ⟨k1, k2, ⟨o1.1, o1.2.trans (by linarith)⟩, d1, m1⟩
  have hY : vecNorm (values p.coords - values t.origin.coords) ≤ 2 * X := (vecNorm_sub _ _).trans (by linarith [hp.2, o1.2])
  obtain ⟨q1, q2⟩ := slid_point A h1 hκ (by linarith) ht hp
  have hi' : 10 * κ * (31 / 10 * κ * X) ≤ hi := by linarith
  have hk2 : |-t.shearFactor.val| ≤ κ := by rw [abs_neg]; exact k2
  have defect : ∀ k : ℝ, |k| ≤ κ → vecNorm (slide (-k) (values t.origin.coords) (values t.direction) (values t.normal)
      (slide k (values t.origin.coords) (values t.direction) (values t.normal) (values p.coords)) - values p.coords) ≤
      3 * |values t.direction ⬝ᵥ values t.normal| * (κ ^ 2 * X) := by
    intro k hk
    rw [slide_slide, vecNorm_smul, abs_neg, abs_mul, abs_mul, abs_pow]
    have e0 := pow_le_pow_left₀ (abs_nonneg k) hk 2
    have e1 := (dotProduct_le (values p.coords - values t.origin.coords) (values t.normal)).trans (mul_le_mul hY m1.2 (vecNorm_nonneg _) (by linarith))
    have a0 := abs_nonneg (values t.direction ⬝ᵥ values t.normal)
    have e2 := mul_le_mul_of_nonneg_right (mul_le_mul e0 e1 (abs_nonneg _) (by positivity)) a0
    have e3 := mul_le_mul e2 d1.2 (vecNorm_nonneg _) (by positivity)
    have : 0 ≤ |values t.direction ⬝ᵥ values t.normal| * (κ ^ 2 * X) := by positivity
    linarith
  refine ⟨comes_back A h1 hκ hk2 k2 o1.2 hp.2 d1.2 m1.2 q1 (fun hq => ?_) (defect _ k2), comes_back A h1 hκ k2 hk2 o1.2 hp.2 d1.2 m1.2 q2 (fun hq => ?_) ?_⟩
  · exact (slid_point A (X := 31 / 10 * κ * X) (by linarith) hκ hi' hb (p := t.applyPoint p) hq).2
  · exact (slid_point A (X := 31 / 10 * κ * X) (by linarith) hκ hi' hb (p := t.inverseApplyPoint p) hq).1
  · have := defect _ hk2
    rw [neg_neg] at this
    exact this

end Back

/-! ### reflections in planes with given normals -/

section Built
variable [FloatFns (Ieee φ)] {lo hi X : ℝ} (A : Adequate φ n lo hi) (h1 : lo ≤ X) (htiny : n * φ.tiny ≤ φ.u) {v : Vec (Ieee φ) n}
  (L : LengthAndDirection (n + 3) v) (hv : 0 < Spec.length v)
include A h1 htiny L hv

theorem built_normal : Short (101 / 100) v.normalize ∧ |vecNorm (values v.normalize) - 1| ≤ (n + 7) * φ.u ∧
    vecNorm (values v.normalize - (vecNorm (values v))⁻¹ • values v) ≤ (n + 7) * φ.u ∧ vecNorm ((vecNorm (values v))⁻¹ • values v) = 1 ∧
    (n + 7) * φ.u ≤ 1 / 1000 := by
  obtain ⟨-, -, l1, l2⟩ := L
  push_cast at l1 l2
  have hu0 := φ.u_nonneg
  have hnu := few_of A.few
  have hs := A.small
  have e0 : vecNorm (values v) = Spec.length v := rfl
  have e1 : vecNorm (values v.normalize) = Spec.length v.normalize := rfl
  rw [← e0] at hv l1
  rw [← e1] at l2
  have l2' : |vecNorm (values v.normalize) - 1| ≤ (n + 7) * φ.u := l2.trans_eq (by ring)
  have l3 := abs_le.mp l2'
  have hm : vecNorm ((vecNorm (values v))⁻¹ • values v) = 1 := by
    rw [vecNorm_smul, abs_of_pos (inv_pos.mpr hv), inv_mul_cancel₀ hv.ne']
  refine ⟨⟨fun i => (l1 i).1, by linarith⟩, l2', ?_, hm, by linarith⟩
  set m := (vecNorm (values v))⁻¹ • values v with hmd
  have ht0 : 0 ≤ φ.tiny := φ.tiny_nonneg
  have k1 : ∀ i, |(values v.normalize - m) i| ≤ ((n + 6) * φ.u) * |m i| + φ.tiny := fun i => by
    have := (l1 i).2
    rw [show (v.data i).val / vecNorm (values v) = m i by rw [hmd, Pi.smul_apply, smul_eq_mul, values, div_eq_inv_mul]] at this
    exact this.trans_eq (by ring)
  have k2 : vecNorm (values v.normalize - m) ≤ vecNorm ((((n + 6) * φ.u) • fun i => |m i|) + fun _ => φ.tiny) := by
    refine Real.sqrt_le_sqrt (Finset.sum_le_sum fun i _ => ?_)
    have k := abs_le.mp (k1 i)
    change (values v.normalize - m) i ^ 2 ≤ ((n + 6) * φ.u * |m i| + φ.tiny) ^ 2
    exact sq_le_sq' k.1 k.2
  have k3 : vecNorm (fun i => |m i|) = 1 := by
    rw [← hm]; simp only [vecNorm, sq_abs]
  have k4 : vecNorm (fun _ : Fin n => φ.tiny) ≤ n * φ.tiny := vecNorm_le_all ht0 fun i => (abs_of_nonneg ht0).le
  refine k2.trans ((vecNorm_add _ _).trans ?_)
  rw [vecNorm_smul, k3, abs_of_nonneg (by positivity)]
  linarith

omit A h1 htiny L hv in
theorem mirror_normal {b m m' p : Fin n → ℝ} {e : ℝ} (hb : vecNorm b ≤ X) (hp : vecNorm p ≤ X) (hm : vecNorm m ≤ 1) (hm' : vecNorm m' ≤ 101 / 100)
    (he : vecNorm (m' - m) ≤ e) : vecNorm (mirror b m' p - mirror b m p) ≤ 9 * e * X := by
  have hY : vecNorm (p - b) ≤ 2 * X := (vecNorm_sub _ _).trans (by linarith)
  have hX := (vecNorm_nonneg _).trans hb
  have he0 := (vecNorm_nonneg _).trans he
  have e1 : mirror b m' p - mirror b m p = (-2 * ((p - b) ⬝ᵥ (m' - m))) • m' + (-2 * ((p - b) ⬝ᵥ m)) • (m' - m) := by
    simp only [mirror, dotProduct_sub]
    module
  rw [e1]
  refine (vecNorm_add _ _).trans ?_
  rw [vecNorm_smul, vecNorm_smul, abs_mul, abs_mul, abs_neg, abs_of_pos (two_pos : (0 : ℝ) < 2)]
  have a1 := (dotProduct_le (p - b) (m' - m)).trans (mul_le_mul hY he (vecNorm_nonneg _) (by linarith))
  have a2 := (dotProduct_le (p - b) m).trans (mul_le_mul hY hm (vecNorm_nonneg _) (by linarith))
  have b1 := mul_le_mul a1 hm' (vecNorm_nonneg _) (by positivity)
  have b2 := mul_le_mul a2 he (vecNorm_nonneg _) (by positivity)
  have : 0 ≤ e * X := by positivity
  linarith

theorem built_mirror (h2 : 140 * X ≤ hi) {b p : Pt (Ieee φ) n} (hb : Short X b.coords) (hp : Short X p.coords) :
    Close ((Reflection.fromNormalBias (Unit'.fromValue v) b).applyPoint p).coords
      (mirror (values b.coords) ((vecNorm (values v))⁻¹ • values v) (values p.coords)) (180 * n * φ.u * X) ∧
    Close ((Reflection.fromNormalBias (Unit'.fromValue v) b).applyPoint ((Reflection.fromNormalBias (Unit'.fromValue v) b).applyPoint p)).coords
      (values p.coords) (1050 * n ^ 2 * φ.u * X) := by
  obtain ⟨m1, m2, m3, m4, m5⟩ := built_normal A h1 htiny L hv
  have hX := A.pos.trans_le h1
  have ht : FairReflection X (Reflection.fromNormalBias (Unit'.fromValue v) b) := ⟨hb, m1⟩
  have hu0 := φ.u_nonneg
  rcases Nat.eq_zero_or_pos n with h0 | h0
  · subst h0; exact ⟨fun i => i.elim0, fun i => i.elim0⟩
  have h0' : (1 : ℝ) ≤ n := by exact_mod_cast h0
  have hnn : (n : ℝ) ≤ n ^ 2 := by nlinarith
  have hux : 0 ≤ φ.u * X := by positivity
  have s1 := le_mul_of_one_le_left hux h0'
  have s2 := mul_le_mul_of_nonneg_right hnn hux
  constructor
  · exact ((mirrored_point A h1 (by linarith) ht hp).trans (mirror_normal hb.2 hp.2 m4.le m1.2 m3)).mono (by linarith)
  · refine (mirrored_back A h1 h2 ht hp).mono ?_
    have d1 : |vecNorm (values v.normalize) ^ 2 - 1| ≤ 201 / 100 * ((n + 7) * φ.u) := by
      rw [show vecNorm (values v.normalize) ^ 2 - 1 = (vecNorm (values v.normalize) + 1) * (vecNorm (values v.normalize) - 1) by ring, abs_mul]
      have := vecNorm_nonneg (values v.normalize)
      refine mul_le_mul ?_ m2 (abs_nonneg _) (by norm_num)
      rw [abs_of_nonneg (by linarith)]
      linarith [m1.2]
    have d2 := mul_le_mul_of_nonneg_right d1 hX.le
    change 840 * n ^ 2 * φ.u * X + 10 * |vecNorm (values v.normalize) ^ 2 - 1| * X ≤ _
    linarith

theorem built_mirror_vector (h2 : 140 * X ≤ hi) (b : Pt (Ieee φ) n) {w : Vec (Ieee φ) n} (hw : Short X w) :
    Close ((Reflection.fromNormalBias (Unit'.fromValue v) b).applyVector w)
      (mirror 0 ((vecNorm (values v))⁻¹ • values v) (values w)) (180 * n * φ.u * X) ∧
    Close ((Reflection.fromNormalBias (Unit'.fromValue v) b).applyVector ((Reflection.fromNormalBias (Unit'.fromValue v) b).applyVector w))
      (values w) (1050 * n ^ 2 * φ.u * X) := by
  obtain ⟨m1, m2, m3, m4, m5⟩ := built_normal A h1 htiny L hv
  have hX := A.pos.trans_le h1
  have ht : Short (101 / 100) (Reflection.fromNormalBias (Unit'.fromValue v) b).normal := m1
  have hu0 := φ.u_nonneg
  rcases Nat.eq_zero_or_pos n with h0 | h0
  · subst h0; exact ⟨fun i => i.elim0, fun i => i.elim0⟩
  have h0' : (1 : ℝ) ≤ n := by exact_mod_cast h0
  have hnn : (n : ℝ) ≤ n ^ 2 := by nlinarith
  have hux : 0 ≤ φ.u * X := by positivity
  have s1 := le_mul_of_one_le_left hux h0'
  have s2 := mul_le_mul_of_nonneg_right hnn hux
  have hz : vecNorm (0 : Fin n → ℝ) ≤ X := by simp [vecNorm]; exact hX.le
  constructor
  · exact ((mirrored_vector A h1 (by linarith) ht hw).trans (mirror_normal hz hw.2 m4.le m1.2 m3)).mono (by linarith)
  · refine (mirrored_vector_back A h1 h2 ht hw).mono ?_
    have d1 : |vecNorm (values v.normalize) ^ 2 - 1| ≤ 201 / 100 * ((n + 7) * φ.u) := by
      rw [show vecNorm (values v.normalize) ^ 2 - 1 = (vecNorm (values v.normalize) + 1) * (vecNorm (values v.normalize) - 1) by ring, abs_mul]
      have := vecNorm_nonneg (values v.normalize)
      refine mul_le_mul ?_ m2 (abs_nonneg _) (by norm_num)
      rw [abs_of_nonneg (by linarith)]
      linarith [m1.2]
    have d2 := mul_le_mul_of_nonneg_right d1 hX.le
    change 840 * n ^ 2 * φ.u * X + 10 * |vecNorm (values v.normalize) ^ 2 - 1| * X ≤ _
    linarith

end Built

/-! ### the property -/

theorem adequate64 (hn : n ≤ 1000000) : Adequate f64 n (2 ^ (-1000 : ℤ)) (2 ^ (1000 : ℤ)) where
  small := roundoff64
  few := by
    have h : (n : ℝ) ≤ 1000000 := by exact_mod_cast hn
    have h2 : (n : ℝ) ^ 2 ≤ 1000000 ^ 2 := pow_le_pow_left₀ (by positivity) h 2
    have h3 : (2 : ℝ) ^ (-53 : ℤ) ≤ 2 / 10000000000000000 := by norm_num
    have h4 : (0 : ℝ) ≤ 2 ^ (-53 : ℤ) := by positivity
    change 40 * (n : ℝ) ^ 2 * 2 ^ (-53 : ℤ) ≤ _
    nlinarith
  pos := by positivity
  fits a h1 h2 := fits64 ((zpow_le_zpow_right₀ one_le_two (by norm_num)).trans h1) h2
  two := by
    have e : f64.fl (1 + 1) = 2 := by
      have := fl64_two_zpow (k := 1) (by norm_num)
      rw [zpow_one] at this
      rw [one_add_one_eq_two, this]
    have hb : (2 : ℝ) ≤ f64.big := (by norm_num : (2 : ℝ) = 2 ^ (1 : ℤ)).trans_le (two_zpow_le_big (by norm_num))
    have h := finite_add_of (x := (1 : Ieee f64)) (y := 1) finite_one finite_one (by
      rw [show (1 : Ieee f64).val = 1 from rfl, e, abs_of_pos two_pos]; exact hb)
    exact ⟨h, by rw [val_add h, show (1 : Ieee f64).val = 1 from rfl, e]⟩

theorem adequate32 (hn : n ≤ 60) : Adequate f32 n (2 ^ (-126 : ℤ)) (2 ^ (126 : ℤ)) where
  small := roundoff32
  few := by
    have h : (n : ℝ) ≤ 60 := by exact_mod_cast hn
    have h2 : (n : ℝ) ^ 2 ≤ 60 ^ 2 := pow_le_pow_left₀ (by positivity) h 2
    have h3 : (2 : ℝ) ^ (-24 : ℤ) ≤ 6 / 100000000 := by norm_num
    have h4 : (0 : ℝ) ≤ 2 ^ (-24 : ℤ) := by positivity
    change 40 * (n : ℝ) ^ 2 * 2 ^ (-24 : ℤ) ≤ _
    nlinarith
  pos := by positivity
  fits a h1 h2 := fits32 h1 h2
  two := by
    have e : f32.fl (1 + 1) = 2 := by
      have := fl32_two_zpow (k := 1) (by norm_num)
      rw [zpow_one] at this
      rw [one_add_one_eq_two, this]
    have hb : (2 : ℝ) ≤ f32.big := le_trans (by norm_num) two_zpow_le_big32
    have h := finite_add_of (x := (1 : Ieee f32)) (y := 1) finite_one finite_one (by
      rw [show (1 : Ieee f32).val = 1 from rfl, e, abs_of_pos two_pos]; exact hb)
    exact ⟨h, by rw [val_add h, show (1 : Ieee f32).val = 1 from rfl, e]⟩

variable {X κ : ℝ}

theorem room_above {a : ℤ} {Y : ℝ} (c : ℝ) (hc : c ≤ 2 ^ (10 : ℤ)) (hY0 : 0 ≤ Y) (hY : Y ≤ 2 ^ (a - 10)) : c * Y ≤ 2 ^ a := by
  calc c * Y ≤ 2 ^ (10 : ℤ) * 2 ^ (a - 10) := mul_le_mul hc hY hY0 (by positivity)
    _ = 2 ^ a := by rw [← zpow_add₀ two_ne_zero]; congr 1; ring

/-- **C107.**  What is proved of a reflection of points: the computed mirror image in the plane through `b` at right angles to `v` is within `180 n`
roundings of the exact one, and the mirror image of the mirror image within `1050 n^2` roundings of the point. -/
theorem C107_reflection64 [Lib f64] (hn : n ≤ 1000000) {v : Vec (Ieee f64) n} (hv : ∀ i, (v.data i).Finite)
    (v1 : (2 : ℝ) ^ (-499 : ℤ) ≤ vecNorm (values v)) (v2 : vecNorm (values v) ≤ 2 ^ (510 : ℤ)) (x1 : (2 : ℝ) ^ (-1000 : ℤ) ≤ X) (x2 : X ≤ 2 ^ (990 : ℤ))
    {b p : Pt (Ieee f64) n} (hb : Short X b.coords) (hp : Short X p.coords) :
    let t := Reflection.fromNormalBias (Unit'.fromValue v) b
    Close (t.applyPoint p).coords (mirror (values b.coords) ((vecNorm (values v))⁻¹ • values v) (values p.coords)) (180 * n * 2 ^ (-53 : ℤ) * X) ∧
    Close (t.applyPoint (t.applyPoint p)).coords (values p.coords) (1050 * n ^ 2 * 2 ^ (-53 : ℤ) * X) ∧
    t.inverseApplyPoint p = t.applyPoint p := by
  have A := adequate64 hn
  have hX := A.pos.trans_le x1
  have ht : n * f64.tiny ≤ f64.u := by
    have h : (n : ℝ) ≤ 1000000 := by exact_mod_cast hn
    change (n : ℝ) * 2 ^ (-1075 : ℤ) ≤ 2 ^ (-53 : ℤ)
    calc (n : ℝ) * 2 ^ (-1075 : ℤ) ≤ 2 ^ (20 : ℤ) * 2 ^ (-1075 : ℤ) := mul_le_mul_of_nonneg_right (h.trans (by norm_num)) (by positivity)
      _ = 2 ^ (-1055 : ℤ) := by rw [← zpow_add₀ two_ne_zero]; norm_num
      _ ≤ _ := zpow_le_zpow_right₀ one_le_two (by norm_num)
  obtain ⟨a, c⟩ := built_mirror A x1 ht (C84_vector_f64 (hn.trans (by norm_num)) v hv v1 v2) (lt_of_lt_of_le (by positivity) v1)
    (room_above 140 (by norm_num) hX.le x2) hb hp
  exact ⟨a, c, rfl⟩

/-- **C107.**  The same for vectors, which ignore the point on the plane. -/
theorem C107_reflection_vector64 [Lib f64] (hn : n ≤ 1000000) {v : Vec (Ieee f64) n} (hv : ∀ i, (v.data i).Finite)
    (v1 : (2 : ℝ) ^ (-499 : ℤ) ≤ vecNorm (values v)) (v2 : vecNorm (values v) ≤ 2 ^ (510 : ℤ)) (x1 : (2 : ℝ) ^ (-1000 : ℤ) ≤ X) (x2 : X ≤ 2 ^ (990 : ℤ))
    (b : Pt (Ieee f64) n) {w : Vec (Ieee f64) n} (hw : Short X w) :
    let t := Reflection.fromNormalBias (Unit'.fromValue v) b
    Close (t.applyVector w) (mirror 0 ((vecNorm (values v))⁻¹ • values v) (values w)) (180 * n * 2 ^ (-53 : ℤ) * X) ∧
    Close (t.applyVector (t.applyVector w)) (values w) (1050 * n ^ 2 * 2 ^ (-53 : ℤ) * X) ∧
    t.inverseApplyVector w = t.applyVector w := by
  have A := adequate64 hn
  have hX := A.pos.trans_le x1
  have ht : n * f64.tiny ≤ f64.u := by
    have h : (n : ℝ) ≤ 1000000 := by exact_mod_cast hn
    change (n : ℝ) * 2 ^ (-1075 : ℤ) ≤ 2 ^ (-53 : ℤ)
    calc (n : ℝ) * 2 ^ (-1075 : ℤ) ≤ 2 ^ (20 : ℤ) * 2 ^ (-1075 : ℤ) := mul_le_mul_of_nonneg_right (h.trans (by norm_num)) (by positivity)
      _ = 2 ^ (-1055 : ℤ) := by rw [← zpow_add₀ two_ne_zero]; norm_num
      _ ≤ _ := zpow_le_zpow_right₀ one_le_two (by norm_num)
  obtain ⟨a, c⟩ := built_mirror_vector A x1 ht (C84_vector_f64 (hn.trans (by norm_num)) v hv v1 v2) (lt_of_lt_of_le (by positivity) v1)
    (room_above 140 (by norm_num) hX.le x2) b hw
  exact ⟨a, c, rfl⟩

/-- **C107.**  `f32` -/
theorem C107_reflection32 [Lib f32] (hn : n ≤ 60) {v : Vec (Ieee f32) n} (hv : ∀ i, (v.data i).Finite)
    (v1 : (2 : ℝ) ^ (-56 : ℤ) ≤ vecNorm (values v)) (v2 : vecNorm (values v) ≤ 2 ^ (62 : ℤ)) (x1 : (2 : ℝ) ^ (-126 : ℤ) ≤ X) (x2 : X ≤ 2 ^ (116 : ℤ))
    {b p : Pt (Ieee f32) n} (hb : Short X b.coords) (hp : Short X p.coords) :
    let t := Reflection.fromNormalBias (Unit'.fromValue v) b
    Close (t.applyPoint p).coords (mirror (values b.coords) ((vecNorm (values v))⁻¹ • values v) (values p.coords)) (180 * n * 2 ^ (-24 : ℤ) * X) ∧
    Close (t.applyPoint (t.applyPoint p)).coords (values p.coords) (1050 * n ^ 2 * 2 ^ (-24 : ℤ) * X) ∧
    t.inverseApplyPoint p = t.applyPoint p := by
  have A := adequate32 hn
  have hX := A.pos.trans_le x1
  have ht : n * f32.tiny ≤ f32.u := by
    have h : (n : ℝ) ≤ 60 := by exact_mod_cast hn
    change (n : ℝ) * 2 ^ (-150 : ℤ) ≤ 2 ^ (-24 : ℤ)
    calc (n : ℝ) * 2 ^ (-150 : ℤ) ≤ 60 * 2 ^ (-150 : ℤ) := mul_le_mul_of_nonneg_right h (by positivity)
      _ ≤ _ := by norm_num
  obtain ⟨a, c⟩ := built_mirror A x1 ht (C84_vector_f32 (hn.trans (by norm_num)) v hv v1 v2) (lt_of_lt_of_le (by positivity) v1)
    (room_above 140 (by norm_num) hX.le x2) hb hp
  exact ⟨a, c, rfl⟩

/-- **C107.**  A shear of points by a factor of at most `κ`: the computed images under the shear and under its inverse are within `40 n` roundings of
the exact ones. -/
theorem C107_shear64 (hn : n ≤ 1000000) (hκ : 1 ≤ κ) (x1 : (2 : ℝ) ^ (-1000 : ℤ) ≤ X) (x2 : κ * X ≤ 2 ^ (990 : ℤ))
    {t : Shear (Ieee f64) n} (ht : FairShear X κ t) {p : Pt (Ieee f64) n} (hp : Short X p.coords) :
    Close (t.applyPoint p).coords (slide t.shearFactor.val (values t.origin.coords) (values t.direction) (values t.normal) (values p.coords))
      (40 * n * 2 ^ (-53 : ℤ) * (κ * X)) ∧
    Close (t.inverseApplyPoint p).coords (slide (-t.shearFactor.val) (values t.origin.coords) (values t.direction) (values t.normal) (values p.coords))
      (40 * n * 2 ^ (-53 : ℤ) * (κ * X)) := by
  have A := adequate64 hn
  have hX := A.pos.trans_le x1
  exact slid_point A x1 hκ (by rw [mul_assoc]; exact room_above 10 (by norm_num) (by positivity) x2) ht hp

/-- **C107.**  A shear and its inverse undo each other, in either order, within `210 n^2` roundings, and as far as the direction and the normal of the
shear are at right angles. -/
theorem C107_shear_back64 (hn : n ≤ 1000000) (hκ : 1 ≤ κ) (x1 : (2 : ℝ) ^ (-1000 : ℤ) ≤ X) (x2 : κ ^ 2 * X ≤ 2 ^ (990 : ℤ))
    {t : Shear (Ieee f64) n} (ht : FairShear X κ t) {p : Pt (Ieee f64) n} (hp : Short X p.coords) :
    let e := 210 * n ^ 2 * 2 ^ (-53 : ℤ) * (κ ^ 2 * X) + 3 * |values t.direction ⬝ᵥ values t.normal| * (κ ^ 2 * X)
    Close (t.inverseApplyPoint (t.applyPoint p)).coords (values p.coords) e ∧ Close (t.applyPoint (t.inverseApplyPoint p)).coords (values p.coords) e := by
  have A := adequate64 hn
  have hX := A.pos.trans_le x1
  exact slid_back A x1 hκ (by rw [mul_assoc]; exact room_above 31 (by norm_num) (by positivity) x2) ht hp

/-- **C107.**  `f32` -/
theorem C107_shear32 (hn : n ≤ 60) (hκ : 1 ≤ κ) (x1 : (2 : ℝ) ^ (-126 : ℤ) ≤ X) (x2 : κ * X ≤ 2 ^ (116 : ℤ))
    {t : Shear (Ieee f32) n} (ht : FairShear X κ t) {p : Pt (Ieee f32) n} (hp : Short X p.coords) :
    Close (t.applyPoint p).coords (slide t.shearFactor.val (values t.origin.coords) (values t.direction) (values t.normal) (values p.coords))
      (40 * n * 2 ^ (-24 : ℤ) * (κ * X)) ∧
    Close (t.inverseApplyPoint p).coords (slide (-t.shearFactor.val) (values t.origin.coords) (values t.direction) (values t.normal) (values p.coords))
      (40 * n * 2 ^ (-24 : ℤ) * (κ * X)) := by
  have A := adequate32 hn
  have hX := A.pos.trans_le x1
  exact slid_point A x1 hκ (by rw [mul_assoc]; exact room_above 10 (by norm_num) (by positivity) x2) ht hp

/-- **C107.**  `f32` -/
theorem C107_shear_back32 (hn : n ≤ 60) (hκ : 1 ≤ κ) (x1 : (2 : ℝ) ^ (-126 : ℤ) ≤ X) (x2 : κ ^ 2 * X ≤ 2 ^ (116 : ℤ))
    {t : Shear (Ieee f32) n} (ht : FairShear X κ t) {p : Pt (Ieee f32) n} (hp : Short X p.coords) :
    let e := 210 * n ^ 2 * 2 ^ (-24 : ℤ) * (κ ^ 2 * X) + 3 * |values t.direction ⬝ᵥ values t.normal| * (κ ^ 2 * X)
    Close (t.inverseApplyPoint (t.applyPoint p)).coords (values p.coords) e ∧ Close (t.applyPoint (t.inverseApplyPoint p)).coords (values p.coords) e := by
  have A := adequate32 hn
  have hX := A.pos.trans_le x1
  exact slid_back A x1 hκ (by rw [mul_assoc]; exact room_above 31 (by norm_num) (by positivity) x2) ht hp

/-- **C107.**  The specification: for a normal of the length one, the exact mirror image has the opposite distance from the plane, the same distance
from every point of the plane, and differs from the point by a multiple of the normal. -/
theorem C107_mirror_image {b m : Fin n → ℝ} (hm : vecNorm m = 1) (p : Fin n → ℝ) :
    (mirror b m p - b) ⬝ᵥ m = -((p - b) ⬝ᵥ m) ∧ (∃ k : ℝ, mirror b m p - p = k • m) ∧
    ∀ c, (c - b) ⬝ᵥ m = 0 → vecNorm (mirror b m p - c) = vecNorm (p - c) := by
  have hmm : m ⬝ᵥ m = 1 := by rw [dotProduct_self_eq, hm, one_pow]
  refine ⟨?_, ⟨-(2 * ((p - b) ⬝ᵥ m)), ?_⟩, fun c hc => ?_⟩
  · simp only [mirror, sub_dotProduct, smul_dotProduct, smul_eq_mul, hmm]; ring
  · simp only [mirror]; module
  · rw [← sq_eq_sq₀ (vecNorm_nonneg _) (vecNorm_nonneg _), ← dotProduct_self_eq, ← dotProduct_self_eq]
    have e : mirror b m p - c = (p - c) - (2 * ((p - b) ⬝ᵥ m)) • m := by simp only [mirror]; module
    have h : (p - b) ⬝ᵥ m = (p - c) ⬝ᵥ m := by
      rw [sub_dotProduct] at hc
      rw [sub_dotProduct, sub_dotProduct]; linarith
    rw [e, h]
    simp only [sub_dotProduct (p - c), dotProduct_sub _ (p - c), smul_dotProduct, dotProduct_smul, smul_eq_mul, hmm, dotProduct_comm m (p - c)]
    ring

/-! ### the hypotheses can be met -/

theorem short_of {k : ℕ} {w : Vec (Ieee f64) k} {c : ℝ} (h : ∀ i, w.data i = 0 ∨ w.data i = 1) (hc : k ≤ c) : Short c w := by
  have hf : ∀ i, (w.data i).Finite ∧ |(w.data i).val| ≤ 1 := fun i => by
    rcases h i with h | h <;> rw [h]
    · exact ⟨finite_zero, by rw [show (0 : Ieee f64).val = 0 from rfl]; norm_num⟩
    · exact ⟨finite_one, by rw [show (1 : Ieee f64).val = 1 from rfl]; norm_num⟩
  exact ⟨fun i => (hf i).1, (vecNorm_le_all zero_le_one fun i => (hf i).2).trans (by linarith)⟩

/-- the mirror image of the point `(1, 0)` in the line through `(0, 1)` at right angles to `(1, 1)` -/
example [Lib f64] : let t := Reflection.fromNormalBias (Unit'.fromValue (Vec.new2 1 1 : Vec (Ieee f64) 2)) (Pt.new2 0 1)
    Close (t.applyPoint (t.applyPoint (Pt.new2 1 0))).coords (values (Pt.new2 1 0 : Pt (Ieee f64) 2).coords) (1050 * (2 : ℕ) ^ 2 * 2 ^ (-53 : ℤ) * 2) := by
  have hv : vecNorm (values (Vec.new2 1 1 : Vec (Ieee f64) 2)) = Real.sqrt 2 := by
    rw [vecNorm, Fin.sum_univ_two]
    congr 1
    change (1 : ℝ) ^ 2 + 1 ^ 2 = 2
    norm_num
  have b1 : (1 : ℝ) ≤ Real.sqrt 2 := by rw [Real.one_le_sqrt]; norm_num
  have b2 : Real.sqrt 2 ≤ 2 := by rw [Real.sqrt_le_iff]; norm_num
  have c1 : (2 : ℝ) ^ (-499 : ℤ) ≤ 1 := zpow_le_one_of_nonpos₀ one_le_two (by norm_num)
  have c2 : (2 : ℝ) ≤ 2 ^ (510 : ℤ) := by
    calc (2 : ℝ) = 2 ^ (1 : ℤ) := (zpow_one _).symm
      _ ≤ _ := zpow_le_zpow_right₀ one_le_two (by norm_num)
  obtain ⟨d1, d2⟩ := between (x := 2) (by norm_num) (by norm_num)
  have d3 : (2 : ℝ) ≤ 2 ^ (990 : ℤ) := by
    calc (2 : ℝ) = 2 ^ (1 : ℤ) := (zpow_one _).symm
      _ ≤ _ := zpow_le_zpow_right₀ one_le_two (by norm_num)
  exact (C107_reflection64 (by norm_num) (fun i => by fin_cases i <;> exact finite_one) (by rw [hv]; exact c1.trans b1) (by rw [hv]; exact b2.trans c2)
    d1 d3 (short_of (fun i => by fin_cases i <;> simp [Pt.new2, Vec.new2]) (by norm_num))
    (short_of (fun i => by fin_cases i <;> simp [Pt.new2, Vec.new2]) (by norm_num))).2.1

/-- shears along the axes, as the library builds them, have a direction and a normal at right angles -/
example : FairShear 2 1 (Shear.fromShearXY2 (1 : Ieee f64)) ∧
    values (Shear.fromShearXY2 (1 : Ieee f64)).direction ⬝ᵥ values (Shear.fromShearXY2 (1 : Ieee f64)).normal = 0 := by
  have hx : values (Vec.unitX2 : Vec (Ieee f64) 2) = ![1, 0] := by
    ext i; fin_cases i <;> rfl
  have hy : values (Vec.unitY2 : Vec (Ieee f64) 2) = ![0, 1] := by
    ext i; fin_cases i <;> rfl
  have hfx : ∀ i, ((Vec.unitX2 : Vec (Ieee f64) 2).data i).Finite := fun i => by
    fin_cases i
    · exact finite_one
    · exact finite_zero
  have hfy : ∀ i, ((Vec.unitY2 : Vec (Ieee f64) 2).data i).Finite := fun i => by
    fin_cases i
    · exact finite_zero
    · exact finite_one
  refine ⟨⟨finite_one, ?_, ⟨fun i => finite_zero, ?_⟩, ⟨hfx, ?_⟩, ⟨hfy, ?_⟩⟩, ?_⟩
  · change |(1 : ℝ)| ≤ 1; norm_num
  · exact (vecNorm_le_all zero_le_one fun i => by change |(0 : ℝ)| ≤ 1; norm_num).trans (by norm_num)
  · change vecNorm (values (Vec.unitX2 : Vec (Ieee f64) 2)) ≤ _
    rw [hx, vecNorm, Fin.sum_univ_two]; norm_num
  · change vecNorm (values (Vec.unitY2 : Vec (Ieee f64) 2)) ≤ _
    rw [hy, vecNorm, Fin.sum_univ_two]; norm_num
  · change values (Vec.unitX2 : Vec (Ieee f64) 2) ⬝ᵥ values (Vec.unitY2 : Vec (Ieee f64) 2) = 0
    rw [hx, hy]; simp

end Cgl
