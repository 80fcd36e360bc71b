import Verif.Props.C107_Mirrors
import Mathlib.LinearAlgebra.CrossProduct

/-! # C108 - products, norms, distances, interpolation and projections of vectors in IEEE arithmetic -/

namespace Cgl
open Ieee FloatFns Mat Spec Rounding Matrix

variable {φ : Format} {n : ℕ}

namespace Spec

/-- the exact point on the way from `v` to `w` -/
def onTheWay (v w : Fin n → ℝ) (t : ℝ) : Fin n → ℝ := v + t • (w - v)

/-- the exact projection of `v` to the line through `w` -/
noncomputable def shadow (v w : Fin n → ℝ) : Fin n → ℝ := (v ⬝ᵥ w / w ⬝ᵥ w) • w

/-- a finite number within `e` of `c` -/
def NearTo (x : Ieee φ) (c e : ℝ) : Prop := x.Finite ∧ |x.val - c| ≤ e

end Spec

theorem mul_of {x y : Ieee φ} (hx : x.Finite) (hy : y.Finite) (h : |φ.fl (x.val * y.val)| ≤ φ.big) :
    (x * y).Finite ∧ (x * y).val = φ.fl (x.val * y.val) := ⟨finite_mul_of hx hy h, val_mul (finite_mul_of hx hy h)⟩

theorem add_of {x y : Ieee φ} (hx : x.Finite) (hy : y.Finite) (h : |φ.fl (x.val + y.val)| ≤ φ.big) :
    (x + y).Finite ∧ (x + y).val = φ.fl (x.val + y.val) := ⟨finite_add_of hx hy h, val_add (finite_add_of hx hy h)⟩

theorem sabs_of {x : Ieee φ} (h : x.Finite) : (sabs x).Finite ∧ (sabs x).val = |x.val| := by
  obtain ⟨s, m, hm, rfl⟩ := h
  refine ⟨finite_fin _ _ _, ?_⟩
  change m = _
  cases s <;> simp [Ieee.val, signed, abs_of_nonneg hm.1]

theorem max_of {x y : Ieee φ} (hx : x.Finite) (hy : y.Finite) : (max x y).Finite ∧ (max x y).val = max x.val y.val := by
  have hlt : x < y ↔ x.val < y.val := by
    obtain ⟨s, m, hm, rfl⟩ := hx
    obtain ⟨t, k, hk, rfl⟩ := hy
    constructor
    · rintro ⟨a, b, ha, hb, hab⟩
      simp only [place, Option.some.injEq] at ha hb
      subst ha hb
      exact EReal.coe_lt_coe_iff.mp hab
    · exact fun h => ⟨_, _, rfl, rfl, EReal.coe_lt_coe_iff.mpr h⟩
  have e : max x y = if x < y then y else x := by
    obtain ⟨s, m, hm, rfl⟩ := hx
    obtain ⟨t, k, hk, rfl⟩ := hy
    rfl
  rw [e]
  by_cases h : x < y
  · rw [if_pos h]; exact ⟨hy, (max_eq_right (hlt.mp h).le).symm⟩
  · rw [if_neg h]; exact ⟨hx, (max_eq_left (not_lt.mp fun h' => h (hlt.mpr h'))).symm⟩

theorem dot_eq_loop (v w : Vec (Ieee φ) n) : v.dot w = forRange n 0 fun i result => result + v.data i * w.data i := rfl

/-- `linf_norm` is exact -/
theorem linf_loop (f : Fin n → Ieee φ) (hf : ∀ i, (f i).Finite) :
    (forRange n 0 fun i result => max result (sabs (f i))).Finite ∧ 0 ≤ (forRange n 0 fun i result => max result (sabs (f i))).val ∧
    (∀ i, |(f i).val| ≤ (forRange n 0 fun i result => max result (sabs (f i))).val) ∧
    ((forRange n 0 fun i result => max result (sabs (f i))).val = 0 ∨ ∃ i, (forRange n 0 fun i result => max result (sabs (f i))).val = |(f i).val|) := by
  induction n with
  | zero => exact ⟨finite_zero, le_rfl, fun i => i.elim0, Or.inl rfl⟩
  | succ n ih =>
    rw [forRange_succ]
    obtain ⟨h1, h2, h3, h4⟩ := ih (fun i => f i.castSucc) fun i => hf _
    obtain ⟨a1, a2⟩ := sabs_of (hf (Fin.last n))
    obtain ⟨m1, m2⟩ := max_of h1 a1
    refine ⟨m1, ?_, fun i => ?_, ?_⟩
    · rw [m2]; exact le_max_of_le_left h2
    · rw [m2, a2]
      rcases Fin.eq_castSucc_or_eq_last i with ⟨j, rfl⟩ | rfl
      · exact le_max_of_le_left (h3 j)
      · exact le_max_right _ _
    · rw [m2, a2]
      rcases max_choice (forRange n 0 fun i result => max result (sabs (f i.castSucc))).val |(f (Fin.last n)).val| with h | h <;> rw [h]
      · exact h4.imp id fun ⟨i, hi⟩ => ⟨i.castSucc, hi⟩
      · exact Or.inr ⟨_, rfl⟩

section Products
variable {lo hi X Y Z : ℝ} (A : Adequate φ n lo hi)
include A

theorem few_loops : 5 * n * φ.u ≤ 1 / 100 := by
  have := few_of A.few
  linarith

theorem dot_value {v w : Vec (Ieee φ) n} (hv : Short X v) (hw : Short Y w) (h1 : lo ≤ X * Y) (h2 : X * Y ≤ hi) :
    NearTo (v.dot w) (values v ⬝ᵥ values w) (5 * n * φ.u * (X * Y)) := by
  have hb : ∑ i, |(v.data i).val * (w.data i).val| ≤ X * Y :=
    (sum_le_vecNorm (values v) (values w)).trans (mul_le_mul hv.2 hw.2 (vecNorm_nonneg _) ((vecNorm_nonneg _).trans hv.2))
  exact dot_loop_sum A.small (few_loops A) (A.fits _ h1 h2) hv.1 hw.1 hb

theorem l1_value {v : Vec (Ieee φ) n} (hv : ∀ i, (v.data i).Finite) (hX : ∑ i, |values v i| ≤ X) (h1 : lo ≤ X) (h2 : X ≤ hi) :
    NearTo v.l1Norm (∑ i, |values v i|) (5 * n * φ.u * X) := by
  have e : v.l1Norm = forRange n 0 fun i result => result + sabs (v.data i) * 1 := by
    simp only [Homogeneous.mul_one]; rfl
  have hs : ∀ i, (sabs (v.data i)).val * (1 : Ieee φ).val = |values v i| := fun i => by
    rw [(sabs_of (hv i)).2, show (1 : Ieee φ).val = 1 from rfl, _root_.mul_one]; rfl
  have := dot_loop_sum A.small (few_loops A) (A.fits _ h1 h2) (f := fun i => sabs (v.data i)) (g := fun _ => 1)
    (fun i => (sabs_of (hv i)).1) (fun _ => finite_one) (by simp only [hs, abs_abs]; exact hX)
  rw [← e] at this
  simp only [hs] at this
  exact this

/-- one component of a cross product -/
theorem minor_value {a b c d : Ieee φ} (ha : a.Finite) (hb : b.Finite) (hc : c.Finite) (hd : d.Finite) {S : ℝ} (h1 : lo ≤ S) (h2 : 5 * S ≤ hi)
    (hab : |a.val * b.val| ≤ S) (hcd : |c.val * d.val| ≤ S) : NearTo (a * b - c * d) (a.val * b.val - c.val * d.val) (9 * φ.u * S) := by
  have hS := A.pos.trans_le h1
  have hu := A.small
  have hu0 := φ.u_nonneg
  have f1 := A.fits S h1 (by linarith)
  obtain ⟨r1, r2⟩ := f1.round hu (z := a.val * b.val) (by linarith)
  obtain ⟨s1, s2⟩ := f1.round hu (z := c.val * d.val) (by linarith)
  obtain ⟨m1, m2⟩ := mul_of ha hb r1
  obtain ⟨k1, k2⟩ := mul_of hc hd s1
  rw [← m2] at r2
  rw [← k2] at s2
  have hus : φ.u * S ≤ 1 / 1000000 * S := mul_le_mul_of_nonneg_right hu hS.le
  have c1 := abs_le.mp r2
  have c2 := abs_le.mp s2
  have c3 := abs_le.mp hab
  have c4 := abs_le.mp hcd
  obtain ⟨t1, t2⟩ := (A.fits (21 / 10 * S) (by linarith) (by linarith)).round hu (z := (a * b).val - (c * d).val) (by rw [abs_le]; constructor <;> linarith)
  obtain ⟨l1, l2⟩ := sub_of m1 k1 t1
  refine ⟨l1, ?_⟩
  rw [l2]
  have c5 := abs_le.mp t2
  have : 0 ≤ φ.u * S := by positivity
  rw [abs_le]; constructor <;> linarith

end Products

theorem product_le {v w : Vec (Ieee φ) n} {X Y : ℝ} (hv : Short X v) (hw : Short Y w) (i j : Fin n) : |(v.data i).val * (w.data j).val| ≤ X * Y := by
  rw [abs_mul]
  exact mul_le_mul ((component_le (values v) i).trans hv.2) ((component_le (values w) j).trans hw.2) (abs_nonneg _) ((vecNorm_nonneg _).trans hv.2)

section Three
variable {lo hi X Y Z : ℝ} (A : Adequate φ 3 lo hi)
include A

theorem cross_value {v w : Vec (Ieee φ) 3} (hv : Short X v) (hw : Short Y w) (h1 : lo ≤ X * Y) (h2 : 5 * (X * Y) ≤ hi) :
    Close (v.cross w) (crossProduct (values v) (values w)) (9 * φ.u * (X * Y)) := by
  intro i
  rw [cross_apply]
  fin_cases i
  · exact minor_value A (hv.1 1) (hw.1 2) (hv.1 2) (hw.1 1) h1 h2 (product_le hv hw _ _) (product_le hv hw _ _)
  · exact minor_value A (hv.1 2) (hw.1 0) (hv.1 0) (hw.1 2) h1 h2 (product_le hv hw _ _) (product_le hv hw _ _)
  · exact minor_value A (hv.1 0) (hw.1 1) (hv.1 1) (hw.1 0) h1 h2 (product_le hv hw _ _) (product_le hv hw _ _)

omit A in
theorem crossProduct_norm (x y : Fin 3 → ℝ) : vecNorm (crossProduct x y) ≤ vecNorm x * vecNorm y := by
  have h0 : 0 ≤ vecNorm x * vecNorm y := mul_nonneg (vecNorm_nonneg _) (vecNorm_nonneg _)
  refine Real.sqrt_le_iff.mpr ⟨h0, ?_⟩
  rw [mul_pow, ← dotProduct_self_eq, ← dotProduct_self_eq, cross_apply]
  simp only [Fin.sum_univ_three, dotProduct]
  change (x 1 * y 2 - x 2 * y 1) ^ 2 + (x 2 * y 0 - x 0 * y 2) ^ 2 + (x 0 * y 1 - x 1 * y 0) ^ 2 ≤ _
  nlinarith [sq_nonneg (x 0 * y 0 + x 1 * y 1 + x 2 * y 2)]

theorem triple_value {v w z : Vec (Ieee φ) 3} (hv : Short X v) (hw : Short Y w) (hz : Short Z z) (h1 : lo ≤ X * Y) (h2 : 5 * (X * Y) ≤ hi)
    (h3 : lo ≤ X * Y * Z) (h4 : 2 * (X * Y * Z) ≤ hi) :
    NearTo (v.triple w z) (crossProduct (values v) (values w) ⬝ᵥ values z) (45 * φ.u * (X * Y * Z)) := by
  have hXY := A.pos.trans_le h1
  have hXYZ := A.pos.trans_le h3
  have hu := A.small
  have hu0 := φ.u_nonneg
  have c := cross_value A hv hw h1 h2
  have e1 := c.norm (by positivity)
  push_cast at e1
  have e2 : vecNorm (crossProduct (values v) (values w)) ≤ X * Y :=
    (crossProduct_norm _ _).trans (mul_le_mul hv.2 hw.2 (vecNorm_nonneg _) ((vecNorm_nonneg _).trans hv.2))
  have e3 : φ.u * (X * Y) ≤ 1 / 1000000 * (X * Y) := mul_le_mul_of_nonneg_right hu hXY.le
  have e4 : Short (101 / 100 * (X * Y)) (v.cross w) := ⟨fun i => (c i).1, by
    have := vecNorm_add (values (v.cross w) - crossProduct (values v) (values w)) (crossProduct (values v) (values w))
    rw [sub_add_cancel] at this
    linarith⟩
  obtain ⟨d1, d2⟩ := dot_value A e4 hz (by linarith) (by linarith)
  refine ⟨d1, ?_⟩
  have d3 : |values (v.cross w) ⬝ᵥ values z - crossProduct (values v) (values w) ⬝ᵥ values z| ≤ 27 * φ.u * (X * Y * Z) := by
    rw [← sub_dotProduct]
    refine (dotProduct_le _ _).trans ?_
    have := mul_le_mul e1 hz.2 (vecNorm_nonneg _) (by positivity)
    linarith
  have a1 := abs_le.mp d2
  have a2 := abs_le.mp d3
  push_cast at a1
  have : 0 ≤ φ.u * (X * Y * Z) := by positivity
  change |((v.cross w).dot z).val - _| ≤ _
  rw [abs_le]; constructor <;> linarith

end Three

section Ways
variable {lo hi X Y : ℝ} (A : Adequate φ n lo hi)
include A

/-- interpolation -/
theorem lerp_value {v w : Vec (Ieee φ) n} {t : Ieee φ} (hv : Within X v) (hw : Within X w) (ht : t.Finite) (ht1 : |t.val| ≤ 1) (h1 : lo ≤ X)
    (h2 : 5 * X ≤ hi) : Close (v.lerp w t) (onTheWay (values v) (values w) t.val) (16 * φ.u * X) := by
  intro i
  have hX := A.pos.trans_le h1
  have hu := A.small
  have hu0 := φ.u_nonneg
  have hux : φ.u * X ≤ 1 / 1000000 * X := mul_le_mul_of_nonneg_right hu hX.le
  have hux0 : 0 ≤ φ.u * X := by positivity
  obtain ⟨v1, v2⟩ := hv i
  obtain ⟨w1, w2⟩ := hw i
  have c1 := abs_le.mp v2
  have c2 := abs_le.mp w2
  obtain ⟨r1, r2⟩ := (A.fits (2 * X) (by linarith) (by linarith)).round hu (z := (w.data i).val - (v.data i).val) (by rw [abs_le]; constructor <;> linarith)
  obtain ⟨d1, d2⟩ := sub_of w1 v1 r1
  rw [← d2] at r2
  have c3 := abs_le.mp r2
  have hd : |(w.data i - v.data i).val| ≤ 201 / 100 * X := by rw [abs_le]; constructor <;> linarith
  have hm : |(w.data i - v.data i).val * t.val| ≤ 201 / 100 * X := by
    rw [abs_mul]
    have := mul_le_mul hd ht1 (abs_nonneg _) (by linarith)
    linarith
  obtain ⟨s1, s2⟩ := (A.fits (201 / 100 * X) (by linarith) (by linarith)).round hu (z := (w.data i - v.data i).val * t.val) (by linarith)
  obtain ⟨m1, m2⟩ := mul_of d1 ht s1
  rw [← m2] at s2
  have c4 := abs_le.mp s2
  have c5 := abs_le.mp hm
  obtain ⟨q1, q2⟩ := (A.fits (302 / 100 * X) (by linarith) (by linarith)).round hu (z := (v.data i).val + ((w.data i - v.data i) * t).val)
    (by rw [abs_le]; constructor <;> linarith)
  obtain ⟨l1, l2⟩ := add_of v1 m1 q1
  have e : (v.lerp w t).data i = v.data i + (w.data i - v.data i) * t := by
    rw [Vec.lerp, Vec.add_data, Vec.mulS_data, Vec.sub_data]
  rw [e]
  refine ⟨l1, ?_⟩
  rw [l2]
  have c6 := abs_le.mp q2
  have p1 : |(w.data i - v.data i).val * t.val - ((w.data i).val - (v.data i).val) * t.val| ≤ 407 / 100 * φ.u * X := by
    rw [← sub_mul, abs_mul]
    have := mul_le_mul (r2.trans (le_of_eq (by ring) : _ ≤ 406 / 100 * (φ.u * X))) ht1 (abs_nonneg _) (by positivity)
    linarith
  have c7 := abs_le.mp p1
  change |_ - ((v.data i).val + t.val * ((w.data i).val - (v.data i).val))| ≤ _
  rw [abs_le]; constructor <;> linarith

/-- the start of the way is exact -/
theorem lerp_start {v w : Vec (Ieee φ) n} (hv : Within X v) (hw : Within X w) (h1 : lo ≤ X) (h2 : 5 * X ≤ hi) : values (v.lerp w 0) = values v := by
  ext i
  have hX := A.pos.trans_le h1
  obtain ⟨v1, v2⟩ := hv i
  obtain ⟨w1, w2⟩ := hw i
  have c1 := abs_le.mp v2
  have c2 := abs_le.mp w2
  obtain ⟨r1, r2⟩ := (A.fits (2 * X) (by linarith) (by linarith)).round A.small (z := (w.data i).val - (v.data i).val) (by rw [abs_le]; constructor <;> linarith)
  obtain ⟨d1, d2⟩ := sub_of w1 v1 r1
  have hz : φ.fl ((w.data i - v.data i).val * (0 : Ieee φ).val) = 0 := by
    rw [show (0 : Ieee φ).val = 0 from rfl, mul_zero, φ.zero]
  obtain ⟨m1, m2⟩ := mul_of d1 finite_zero (by rw [hz, abs_zero]; exact (abs_nonneg _).trans r1)
  rw [hz] at m2
  have hv' : φ.fl ((v.data i).val + ((w.data i - v.data i) * 0).val) = (v.data i).val := by rw [m2, add_zero, val_rep]
  obtain ⟨l1, l2⟩ := add_of v1 m1 (by rw [hv']; exact abs_val_le_big _)
  have e : (v.lerp w 0).data i = v.data i + (w.data i - v.data i) * 0 := by
    rw [Vec.lerp, Vec.add_data, Vec.mulS_data, Vec.sub_data]
  rw [values, e, l2, hv', values]

set_option maxHeartbeats 1000000 in
/-- projection: `‖w‖ = Y` exactly -/
theorem project_value {v w : Vec (Ieee φ) n} (hv : Short X v) (hw : ∀ i, (w.data i).Finite) (hY : vecNorm (values w) = Y) (hX : 0 < X) (hY0 : 0 < Y)
    (a1 : lo ≤ X * Y) (a2 : X * Y ≤ hi) (b1 : lo ≤ Y * Y) (b2 : Y * Y ≤ hi) (r1 : lo ≤ X / Y) (r2 : 2 * (X / Y) ≤ hi) (x1 : lo ≤ X) (x2 : 2 * X ≤ hi) :
    Close (v.project w) (shadow (values v) (values w)) (20 * n * φ.u * X) := by
  rcases Nat.eq_zero_or_pos n with h0 | h0
  · subst h0; exact fun i => i.elim0
  have h0' : (1 : ℝ) ≤ n := by exact_mod_cast h0
  have hu := A.small
  have hu0 := φ.u_nonneg
  have hnu := few_of A.few
  have hun : φ.u ≤ n * φ.u := le_mul_of_one_le_left hu0 h0'
  have hw' : Short Y w := ⟨hw, hY.le⟩
  obtain ⟨s1, s2⟩ := dot_value A hv hw' a1 a2
  obtain ⟨q1, q2⟩ := dot_value A hw' hw' b1 b2
  change w.normSquared.Finite at q1
  change |w.normSquared.val - _| ≤ _ at q2
  rw [dotProduct_self_eq, hY] at q2
  set e := n * φ.u with he
  have hss : |values v ⬝ᵥ values w| ≤ X * Y := (dotProduct_le _ _).trans (mul_le_mul hv.2 hY.le (vecNorm_nonneg _) hX.le)
  have hXY : 0 < X * Y := by positivity
  have hYY : 0 < Y * Y := by positivity
  -- the quotients, relative to `X / Y`
  have hρ : 0 < X / Y := by positivity
  obtain ⟨σ, hσ⟩ : ∃ σ, values v ⬝ᵥ values w = σ * (X * Y) := ⟨values v ⬝ᵥ values w / (X * Y), by field_simp⟩
  obtain ⟨σ', hσ'⟩ : ∃ σ, (v.dot w).val = σ * (X * Y) := ⟨(v.dot w).val / (X * Y), by field_simp⟩
  obtain ⟨ν, hν⟩ : ∃ ν, w.normSquared.val = ν * (Y * Y) := ⟨w.normSquared.val / (Y * Y), by field_simp⟩
  have k1 : |σ| ≤ 1 := by
    rw [hσ, abs_mul, abs_of_pos hXY] at hss
    exact le_of_mul_le_mul_right (by linarith) hXY
  have k2 : |σ' - σ| ≤ 5 * e := by
    rw [hσ, hσ', ← sub_mul, abs_mul, abs_of_pos hXY] at s2
    exact le_of_mul_le_mul_right (by linarith) hXY
  have k3 : |ν - 1| ≤ 5 * e := by
    rw [hν, show ν * (Y * Y) - Y ^ 2 = (ν - 1) * (Y * Y) by ring, abs_mul, abs_of_pos hYY] at q2
    exact le_of_mul_le_mul_right (by linarith) hYY
  have c1 := abs_le.mp k1
  have c2 := abs_le.mp k2
  have c3 := abs_le.mp k3
  have hν0 : 99 / 100 ≤ ν := by linarith
  have e0 : 0 ≤ e := by positivity
  have k4 : |σ' / ν - σ| ≤ 102 / 10 * e := by
    rw [show σ' / ν - σ = ((σ' - σ) - σ * (ν - 1)) / ν by field_simp; ring, abs_div, abs_of_pos (by linarith : 0 < ν), div_le_iff₀ (by linarith)]
    have t1 : |σ * (ν - 1)| ≤ 5 * e := by
      rw [abs_mul]
      calc |σ| * |ν - 1| ≤ 1 * (5 * e) := mul_le_mul k1 k3 (abs_nonneg _) zero_le_one
        _ = 5 * e := _root_.one_mul _
    have t2 := abs_sub (σ' - σ) (σ * (ν - 1))
    nlinarith
  have hq : (v.dot w).val / w.normSquared.val = σ' / ν * (X / Y) := by
    rw [hσ', hν]; field_simp
  have hN0 : w.normSquared.val ≠ 0 := by rw [hν]; positivity
  have c4 := abs_le.mp k4
  obtain ⟨p1, p2⟩ := (A.fits (101 / 100 * (X / Y)) (by linarith) (by linarith)).round hu (z := (v.dot w).val / w.normSquared.val) (by
    rw [hq, abs_mul, abs_of_pos hρ, ← mul_assoc]
    refine mul_le_mul_of_nonneg_right ?_ hρ.le
    rw [abs_le]; constructor <;> linarith)
  have f1 := finite_div_of s1 q1 hN0 p1
  have f2 := (val_div f1 q1).1
  rw [← f2, hq] at p2
  obtain ⟨τ, hτ⟩ : ∃ τ, (v.dot w / w.normSquared).val = τ * (X / Y) := ⟨(v.dot w / w.normSquared).val / (X / Y), by field_simp⟩
  have k5 : |τ - σ' / ν| ≤ 21 / 10 * φ.u := by
    rw [hτ, ← sub_mul, abs_mul, abs_of_pos hρ] at p2
    have : |τ - σ' / ν| * (X / Y) ≤ 21 / 10 * φ.u * (X / Y) := by nlinarith
    exact le_of_mul_le_mul_right this hρ
  have c5 := abs_le.mp k5
  have k6 : |τ - σ| ≤ 123 / 10 * e := by rw [abs_le]; constructor <;> linarith
  have k7 : |τ| ≤ 101 / 100 := by
    have := abs_le.mp k6
    rw [abs_le]; constructor <;> linarith
  intro i
  have wi : |(w.data i).val| ≤ Y := (component_le (values w) i).trans hY.le
  have m0 : |(w.data i).val * (v.dot w / w.normSquared).val| ≤ 101 / 100 * X := by
    rw [hτ, abs_mul, abs_mul, abs_of_pos hρ]
    calc |(w.data i).val| * (|τ| * (X / Y)) ≤ Y * (101 / 100 * (X / Y)) := mul_le_mul wi (mul_le_mul_of_nonneg_right k7 hρ.le) (by positivity) hY0.le
      _ = 101 / 100 * X := by field_simp
  obtain ⟨g1, g2⟩ := (A.fits X x1 (by linarith)).round hu (z := (w.data i).val * (v.dot w / w.normSquared).val) (by linarith)
  obtain ⟨l1, l2⟩ := mul_of (hw i) f1 g1
  have ed : (v.project w).data i = w.data i * (v.dot w / w.normSquared) := by rw [Vec.project, Vec.mulS_data]
  rw [ed]
  refine ⟨l1, ?_⟩
  rw [l2]
  have hsh : shadow (values v) (values w) i = (w.data i).val * (σ * (X / Y)) := by
    rw [shadow, Pi.smul_apply, smul_eq_mul, hσ, dotProduct_self_eq, hY, values]
    field_simp
  rw [hsh]
  have k8 : |(w.data i).val * (v.dot w / w.normSquared).val - (w.data i).val * (σ * (X / Y))| ≤ 123 / 10 * e * X := by
    rw [hτ, ← mul_sub, ← sub_mul, abs_mul, abs_mul, abs_of_pos hρ]
    calc |(w.data i).val| * (|τ - σ| * (X / Y)) ≤ Y * (123 / 10 * e * (X / Y)) := mul_le_mul wi (mul_le_mul_of_nonneg_right k6 hρ.le) (by positivity) hY0.le
      _ = 123 / 10 * e * X := by field_simp
  have := abs_sub_le (φ.fl ((w.data i).val * (v.dot w / w.normSquared).val)) ((w.data i).val * (v.dot w / w.normSquared).val) ((w.data i).val * (σ * (X / Y)))
  have hx := mul_le_mul_of_nonneg_right hun hX.le
  have : 0 ≤ e * X := by positivity
  rw [show 20 * n * φ.u * X = 20 * (e * X) by rw [he]; ring]
  linarith

end Ways

section Distance
variable [FloatFns (Ieee φ)] {lo hi : ℝ} (A : Adequate φ n lo hi)
include A

omit [FloatFns (Ieee φ)] in
theorem subtracted {v w : Vec (Ieee φ) n} (hv : ∀ i, (v.data i).Finite) (hw : ∀ i, (w.data i).Finite) {D : ℝ} (hD : vecNorm (values v - values w) = D)
    (h1 : lo ≤ D) (h2 : D ≤ hi) (htiny : n * φ.tiny ≤ φ.u * D) :
    (∀ i, ((v - w).data i).Finite) ∧ |vecNorm (values (v - w)) - D| ≤ 2 * φ.u * D := by
  have hu0 := φ.u_nonneg
  have ht0 := φ.tiny_nonneg
  have hs : ∀ i, ((v - w).data i).Finite ∧ |values (v - w) i - (values v - values w) i| ≤ φ.u * |(values v - values w) i| + φ.tiny := fun i => by
    have hd : |(v.data i).val - (w.data i).val| ≤ D := by rw [← hD]; exact component_le (values v - values w) i
    obtain ⟨r1, -⟩ := (A.fits D h1 h2).round A.small (z := (v.data i).val - (w.data i).val) (by linarith [A.pos])
    obtain ⟨d1, d2⟩ := sub_of (hv i) (hw i) r1
    rw [values, Vec.sub_data]
    refine ⟨d1, ?_⟩
    rw [d2]
    exact φ.err _
  refine ⟨fun i => (hs i).1, ?_⟩
  have hsub : vecNorm (values (v - w) - (values v - values w)) ≤ 2 * φ.u * D := by
    have k2 : vecNorm (values (v - w) - (values v - values w)) ≤ vecNorm ((φ.u • fun i => |(values v - values w) i|) + fun _ => φ.tiny) := by
      refine Real.sqrt_le_sqrt (Finset.sum_le_sum fun i _ => ?_)
      have k := abs_le.mp (hs i).2
      change (values (v - w) i - (values v - values w) i) ^ 2 ≤ (φ.u * |(values v - values w) i| + φ.tiny) ^ 2
      exact sq_le_sq' k.1 k.2
    have k3 : vecNorm (fun i => |(values v - values w) i|) = D := by
      rw [← hD]; simp only [vecNorm, sq_abs]
    have k4 : vecNorm (fun _ : Fin n => φ.tiny) ≤ n * φ.tiny := vecNorm_le_all ht0 fun i => (abs_of_nonneg ht0).le
    refine k2.trans ((vecNorm_add _ _).trans ?_)
    rw [vecNorm_smul, k3, abs_of_nonneg hu0]
    linarith
  have t1 := vecNorm_add (values (v - w) - (values v - values w)) (values v - values w)
  have t2 := vecNorm_sub (values (v - w)) (values (v - w) - (values v - values w))
  rw [sub_add_cancel] at t1
  rw [sub_sub_cancel] at t2
  rw [abs_le]; constructor <;> linarith

theorem distance_value {v w : Vec (Ieee φ) n} {D : ℝ} (hD0 : 0 < D) (hs : |vecNorm (values (v - w)) - D| ≤ 2 * φ.u * D) (L : LengthAndDirection (n + 3) (v - w)) :
    NearTo (v.metricDistance w) D ((n + 6) * φ.u * D) := by
  obtain ⟨l1, l2, -, -⟩ := L
  refine ⟨l1, ?_⟩
  change |(v - w).norm.val - D| ≤ _
  change |(v - w).norm.val - vecNorm (values (v - w))| ≤ _ * vecNorm (values (v - w)) at l2
  push_cast at l2
  have hu0 := φ.u_nonneg
  have c1 := abs_le.mp hs
  have hn := few_of A.few
  have hsm := A.small
  have hk : (n + 3) * φ.u ≤ 1 / 1000 := by linarith
  have : (n + 3) * φ.u * vecNorm (values (v - w)) ≤ (n + 3) * φ.u * D + 1 / 1000 * (2 * φ.u * D) := by
    have a : (n + 3) * φ.u * vecNorm (values (v - w)) ≤ (n + 3) * φ.u * (D + 2 * φ.u * D) := mul_le_mul_of_nonneg_left (by linarith) (by positivity)
    have b : (n + 3) * φ.u * (2 * φ.u * D) ≤ 1 / 1000 * (2 * φ.u * D) := mul_le_mul_of_nonneg_right hk (by positivity)
    linarith
  have c2 := abs_le.mp l2
  have : 0 ≤ φ.u * D := by positivity
  rw [abs_le]; constructor <;> linarith

end Distance

section Mirrored
variable [FloatFns (Ieee φ)] {lo hi X : ℝ} (A : Adequate φ n lo hi) (h1 : lo ≤ X) (htiny : n * φ.tiny ≤ φ.u) {m : Vec (Ieee φ) n}
  (L : LengthAndDirection (n + 3) m) (hm : 0 < Spec.length m)
include A h1 htiny L hm

theorem reflect_value (h2 : 140 * X ≤ hi) {w : Vec (Ieee φ) n} (hw : Short X w) :
    Close (w.reflect m) (mirror 0 ((vecNorm (values m))⁻¹ • values m) (values w)) (180 * n * φ.u * X) := by
  obtain ⟨m1, m2, m3, m4, m5⟩ := built_normal A h1 htiny L hm
  have hX := A.pos.trans_le h1
  have hu0 := φ.u_nonneg
  rcases Nat.eq_zero_or_pos n with h0 | h0
  · subst h0; exact fun i => i.elim0
  have h0' : (1 : ℝ) ≤ n := by exact_mod_cast h0
  have hux : 0 ≤ φ.u * X := by positivity
  have s1 := le_mul_of_one_le_left hux h0'
  have hz : vecNorm (0 : Fin n → ℝ) ≤ X := by simp [vecNorm]; exact hX.le
  have hf : ∀ a, X ≤ a → a ≤ 10 * 2 * X → Fits φ a := fun a a1 a2 => A.fits a (h1.trans a1) (a2.trans (by linarith))
  have key := (both_moves A.small A.few hX one_le_two hf hw (x := w) (y := values w)
    (fun i => ⟨hw.1 i, by rw [values, sub_self, abs_zero]; positivity⟩) (hw.2.trans (by linarith)) m1 m1 A.two.1 (by rw [A.two.2]; norm_num) (Or.inl rfl)).2
  rw [A.two.2] at key
  have e : mirror 0 (values m.normalize) (values w) = values w - (2 * (values w ⬝ᵥ values m.normalize)) • values m.normalize := by
    rw [mirror, sub_zero]
  rw [← e] at key
  exact (key.trans (mirror_normal hz hw.2 m4.le m1.2 m3)).mono (by linarith)

end Mirrored

/-! ### the property -/

variable {X Y Z : ℝ}

theorem dust64 (hn : n ≤ 1000000) : n * f64.tiny ≤ f64.u * 2 ^ (-500 : ℤ) := by
  have h : (n : ℝ) ≤ 1000000 := by exact_mod_cast hn
  change (n : ℝ) * 2 ^ (-1075 : ℤ) ≤ 2 ^ (-53 : ℤ) * 2 ^ (-500 : ℤ)
  calc (n : ℝ) * 2 ^ (-1075 : ℤ) ≤ 2 ^ (20 : ℤ) * 2 ^ (-1075 : ℤ) := mul_le_mul_of_nonneg_right (h.trans (by norm_num)) (by positivity)
    _ = 2 ^ (-1055 : ℤ) := by rw [← zpow_add₀ two_ne_zero]; norm_num
    _ ≤ 2 ^ (-553 : ℤ) := zpow_le_zpow_right₀ one_le_two (by norm_num)
    _ = _ := by rw [← zpow_add₀ two_ne_zero]; norm_num

theorem dust32 (hn : n ≤ 60) : n * f32.tiny ≤ f32.u * 2 ^ (-56 : ℤ) := by
  have h : (n : ℝ) ≤ 60 := by exact_mod_cast hn
  change (n : ℝ) * 2 ^ (-150 : ℤ) ≤ 2 ^ (-24 : ℤ) * 2 ^ (-56 : ℤ)
  calc (n : ℝ) * 2 ^ (-150 : ℤ) ≤ 60 * 2 ^ (-150 : ℤ) := mul_le_mul_of_nonneg_right h (by positivity)
    _ ≤ _ := by norm_num

/-- **C108.**  Dot products, relative to the product of the lengths. -/
theorem C108_dot64 (hn : n ≤ 1000000) {v w : Vec (Ieee f64) n} (hv : Short X v) (hw : Short Y w) (h1 : (2 : ℝ) ^ (-1000 : ℤ) ≤ X * Y)
    (h2 : X * Y ≤ 2 ^ (1000 : ℤ)) : NearTo (v.dot w) (values v ⬝ᵥ values w) (5 * n * 2 ^ (-53 : ℤ) * (X * Y)) :=
  dot_value (adequate64 hn) hv hw h1 h2

theorem C108_dot32 (hn : n ≤ 60) {v w : Vec (Ieee f32) n} (hv : Short X v) (hw : Short Y w) (h1 : (2 : ℝ) ^ (-126 : ℤ) ≤ X * Y)
    (h2 : X * Y ≤ 2 ^ (126 : ℤ)) : NearTo (v.dot w) (values v ⬝ᵥ values w) (5 * n * 2 ^ (-24 : ℤ) * (X * Y)) :=
  dot_value (adequate32 hn) hv hw h1 h2

/-- **C108.**  The sum of the absolute values. -/
theorem C108_l1_norm64 (hn : n ≤ 1000000) {v : Vec (Ieee f64) n} (hv : ∀ i, (v.data i).Finite) (h1 : (2 : ℝ) ^ (-1000 : ℤ) ≤ ∑ i, |values v i|)
    (h2 : ∑ i, |values v i| ≤ 2 ^ (1000 : ℤ)) : NearTo v.l1Norm (∑ i, |values v i|) (5 * n * 2 ^ (-53 : ℤ) * ∑ i, |values v i|) :=
  l1_value (adequate64 hn) hv le_rfl h1 h2

theorem C108_l1_norm32 (hn : n ≤ 60) {v : Vec (Ieee f32) n} (hv : ∀ i, (v.data i).Finite) (h1 : (2 : ℝ) ^ (-126 : ℤ) ≤ ∑ i, |values v i|)
    (h2 : ∑ i, |values v i| ≤ 2 ^ (126 : ℤ)) : NearTo v.l1Norm (∑ i, |values v i|) (5 * n * 2 ^ (-24 : ℤ) * ∑ i, |values v i|) :=
  l1_value (adequate32 hn) hv le_rfl h1 h2

/-- **C108.**  The largest absolute value is found exactly, in every format. -/
theorem C108_linf_norm {v : Vec (Ieee φ) n} (hv : ∀ i, (v.data i).Finite) :
    v.linfNorm.Finite ∧ (∀ i, |values v i| ≤ v.linfNorm.val) ∧ ((n = 0 ∧ v.linfNorm.val = 0) ∨ ∃ i, v.linfNorm.val = |values v i|) := by
  obtain ⟨h1, h2, h3, h4⟩ := linf_loop v.data hv
  refine ⟨h1, h3, ?_⟩
  rcases h4 with h4 | h4
  · rcases Nat.eq_zero_or_pos n with h0 | h0
    · exact Or.inl ⟨h0, h4⟩
    · refine Or.inr ⟨⟨0, h0⟩, ?_⟩
      have := h3 ⟨0, h0⟩
      rw [h4] at this
      exact h4.trans (le_antisymm (abs_nonneg _) this)
  · exact Or.inr h4

/-- **C108.**  Cross products and triple products. -/
theorem C108_cross64 {v w : Vec (Ieee f64) 3} (hv : Short X v) (hw : Short Y w) (h1 : (2 : ℝ) ^ (-1000 : ℤ) ≤ X * Y) (h2 : X * Y ≤ 2 ^ (990 : ℤ)) :
    Close (v.cross w) (crossProduct (values v) (values w)) (9 * 2 ^ (-53 : ℤ) * (X * Y)) := by
  have A := adequate64 (n := 3) (by norm_num)
  exact cross_value A hv hw h1 (room_above 5 (by norm_num) (A.pos.trans_le h1).le h2)

theorem C108_cross32 {v w : Vec (Ieee f32) 3} (hv : Short X v) (hw : Short Y w) (h1 : (2 : ℝ) ^ (-126 : ℤ) ≤ X * Y) (h2 : X * Y ≤ 2 ^ (116 : ℤ)) :
    Close (v.cross w) (crossProduct (values v) (values w)) (9 * 2 ^ (-24 : ℤ) * (X * Y)) := by
  have A := adequate32 (n := 3) (by norm_num)
  exact cross_value A hv hw h1 (room_above 5 (by norm_num) (A.pos.trans_le h1).le h2)

theorem C108_triple64 {v w z : Vec (Ieee f64) 3} (hv : Short X v) (hw : Short Y w) (hz : Short Z z) (h1 : (2 : ℝ) ^ (-1000 : ℤ) ≤ X * Y)
    (h2 : X * Y ≤ 2 ^ (990 : ℤ)) (h3 : (2 : ℝ) ^ (-1000 : ℤ) ≤ X * Y * Z) (h4 : X * Y * Z ≤ 2 ^ (990 : ℤ)) :
    NearTo (v.triple w z) (crossProduct (values v) (values w) ⬝ᵥ values z) (45 * 2 ^ (-53 : ℤ) * (X * Y * Z)) := by
  have A := adequate64 (n := 3) (by norm_num)
  exact triple_value A hv hw hz h1 (room_above 5 (by norm_num) (A.pos.trans_le h1).le h2) h3 (room_above 2 (by norm_num) (A.pos.trans_le h3).le h4)

theorem C108_triple32 {v w z : Vec (Ieee f32) 3} (hv : Short X v) (hw : Short Y w) (hz : Short Z z) (h1 : (2 : ℝ) ^ (-126 : ℤ) ≤ X * Y)
    (h2 : X * Y ≤ 2 ^ (116 : ℤ)) (h3 : (2 : ℝ) ^ (-126 : ℤ) ≤ X * Y * Z) (h4 : X * Y * Z ≤ 2 ^ (116 : ℤ)) :
    NearTo (v.triple w z) (crossProduct (values v) (values w) ⬝ᵥ values z) (45 * 2 ^ (-24 : ℤ) * (X * Y * Z)) := by
  have A := adequate32 (n := 3) (by norm_num)
  exact triple_value A hv hw hz h1 (room_above 5 (by norm_num) (A.pos.trans_le h1).le h2) h3 (room_above 2 (by norm_num) (A.pos.trans_le h3).le h4)

/-- **C108.**  Interpolation by an amount of at most one in size: every component is within sixteen roundings of the exact one, and the amount zero gives
the first vector exactly. -/
theorem C108_lerp64 (hn : n ≤ 1000000) {v w : Vec (Ieee f64) n} {t : Ieee f64} (hv : Within X v) (hw : Within X w) (ht : t.Finite) (ht1 : |t.val| ≤ 1)
    (h1 : (2 : ℝ) ^ (-1000 : ℤ) ≤ X) (h2 : X ≤ 2 ^ (990 : ℤ)) :
    Close (v.lerp w t) (onTheWay (values v) (values w) t.val) (16 * 2 ^ (-53 : ℤ) * X) ∧ values (v.lerp w 0) = values v := by
  have A := adequate64 hn
  have h3 : 5 * X ≤ 2 ^ (1000 : ℤ) := room_above 5 (by norm_num) (A.pos.trans_le h1).le h2
  exact ⟨lerp_value A hv hw ht ht1 h1 h3, lerp_start A hv hw h1 h3⟩

theorem C108_lerp32 (hn : n ≤ 60) {v w : Vec (Ieee f32) n} {t : Ieee f32} (hv : Within X v) (hw : Within X w) (ht : t.Finite) (ht1 : |t.val| ≤ 1)
    (h1 : (2 : ℝ) ^ (-126 : ℤ) ≤ X) (h2 : X ≤ 2 ^ (116 : ℤ)) :
    Close (v.lerp w t) (onTheWay (values v) (values w) t.val) (16 * 2 ^ (-24 : ℤ) * X) ∧ values (v.lerp w 0) = values v := by
  have A := adequate32 hn
  have h3 : 5 * X ≤ 2 ^ (126 : ℤ) := room_above 5 (by norm_num) (A.pos.trans_le h1).le h2
  exact ⟨lerp_value A hv hw ht ht1 h1 h3, lerp_start A hv hw h1 h3⟩

/-- **C108.**  Projection of `v` to the line through `w`. -/
theorem C108_project64 (hn : n ≤ 1000000) {v w : Vec (Ieee f64) n} (hv : Short X v) (hw : ∀ i, (w.data i).Finite)
    (w1 : (2 : ℝ) ^ (-490 : ℤ) ≤ vecNorm (values w)) (w2 : vecNorm (values w) ≤ 2 ^ (490 : ℤ)) (h1 : (2 : ℝ) ^ (-490 : ℤ) ≤ X) (h2 : X ≤ 2 ^ (490 : ℤ)) :
    Close (v.project w) (shadow (values v) (values w)) (20 * n * 2 ^ (-53 : ℤ) * X) := by
  have A := adequate64 hn
  set Y := vecNorm (values w) with hY
  have hp : (0 : ℝ) < 2 ^ (-490 : ℤ) := by positivity
  have hX0 := hp.trans_le h1
  have hY0 := hp.trans_le w1
  have lo : (2 : ℝ) ^ (-1000 : ℤ) ≤ 2 ^ (-490 : ℤ) * 2 ^ (-490 : ℤ) := by
    rw [← zpow_add₀ two_ne_zero]; exact zpow_le_zpow_right₀ one_le_two (by norm_num)
  have hi : (2 : ℝ) ^ (490 : ℤ) * 2 ^ (490 : ℤ) ≤ 2 ^ (990 : ℤ) := by
    rw [← zpow_add₀ two_ne_zero]; exact zpow_le_zpow_right₀ one_le_two (by norm_num)
  have hi' : (2 : ℝ) ^ (990 : ℤ) ≤ 2 ^ (1000 : ℤ) := zpow_le_zpow_right₀ one_le_two (by norm_num)
  have e1 : X / Y = X * Y⁻¹ := div_eq_mul_inv _ _
  have i1 : (2 : ℝ) ^ (-490 : ℤ) ≤ Y⁻¹ := by
    rw [zpow_neg]; exact inv_anti₀ hY0 w2
  have i2 : Y⁻¹ ≤ 2 ^ (490 : ℤ) := by
    have := inv_anti₀ hp w1
    rwa [zpow_neg, inv_inv] at this
  refine project_value A hv hw hY.symm hX0 hY0 (lo.trans (mul_le_mul h1 w1 hp.le hX0.le)) ((mul_le_mul h2 w2 hY0.le (by positivity)).trans (hi.trans hi'))
    (lo.trans (mul_le_mul w1 w1 hp.le hY0.le)) ((mul_le_mul w2 w2 hY0.le (by positivity)).trans (hi.trans hi'))
    ?_ ?_ ((zpow_le_zpow_right₀ one_le_two (by norm_num)).trans h1) (room_above 2 (by norm_num) hX0.le (h2.trans (zpow_le_zpow_right₀ one_le_two (by norm_num))))
  · rw [e1]; exact lo.trans (mul_le_mul h1 i1 hp.le hX0.le)
  · refine room_above 2 (by norm_num) (by positivity) ?_
    rw [e1]; exact (mul_le_mul h2 i2 (by positivity) (by positivity)).trans hi

theorem C108_project32 (hn : n ≤ 60) {v w : Vec (Ieee f32) n} (hv : Short X v) (hw : ∀ i, (w.data i).Finite)
    (w1 : (2 : ℝ) ^ (-55 : ℤ) ≤ vecNorm (values w)) (w2 : vecNorm (values w) ≤ 2 ^ (55 : ℤ)) (h1 : (2 : ℝ) ^ (-55 : ℤ) ≤ X) (h2 : X ≤ 2 ^ (55 : ℤ)) :
    Close (v.project w) (shadow (values v) (values w)) (20 * n * 2 ^ (-24 : ℤ) * X) := by
  have A := adequate32 hn
  set Y := vecNorm (values w) with hY
  have hp : (0 : ℝ) < 2 ^ (-55 : ℤ) := by positivity
  have hX0 := hp.trans_le h1
  have hY0 := hp.trans_le w1
  have lo : (2 : ℝ) ^ (-126 : ℤ) ≤ 2 ^ (-55 : ℤ) * 2 ^ (-55 : ℤ) := by
    rw [← zpow_add₀ two_ne_zero]; exact zpow_le_zpow_right₀ one_le_two (by norm_num)
  have hi : (2 : ℝ) ^ (55 : ℤ) * 2 ^ (55 : ℤ) ≤ 2 ^ (116 : ℤ) := by
    rw [← zpow_add₀ two_ne_zero]; exact zpow_le_zpow_right₀ one_le_two (by norm_num)
  have hi' : (2 : ℝ) ^ (116 : ℤ) ≤ 2 ^ (126 : ℤ) := zpow_le_zpow_right₀ one_le_two (by norm_num)
  have e1 : X / Y = X * Y⁻¹ := div_eq_mul_inv _ _
  have i1 : (2 : ℝ) ^ (-55 : ℤ) ≤ Y⁻¹ := by
    rw [zpow_neg]; exact inv_anti₀ hY0 w2
  have i2 : Y⁻¹ ≤ 2 ^ (55 : ℤ) := by
    have := inv_anti₀ hp w1
    rwa [zpow_neg, inv_inv] at this
  refine project_value A hv hw hY.symm hX0 hY0 (lo.trans (mul_le_mul h1 w1 hp.le hX0.le)) ((mul_le_mul h2 w2 hY0.le (by positivity)).trans (hi.trans hi'))
    (lo.trans (mul_le_mul w1 w1 hp.le hY0.le)) ((mul_le_mul w2 w2 hY0.le (by positivity)).trans (hi.trans hi'))
    ?_ ?_ ((zpow_le_zpow_right₀ one_le_two (by norm_num)).trans h1) (room_above 2 (by norm_num) hX0.le (h2.trans (zpow_le_zpow_right₀ one_le_two (by norm_num))))
  · rw [e1]; exact lo.trans (mul_le_mul h1 i1 hp.le hX0.le)
  · refine room_above 2 (by norm_num) (by positivity) ?_
    rw [e1]; exact (mul_le_mul h2 i2 (by positivity) (by positivity)).trans hi

/-- **C108.**  Distances of vectors and points have a small relative error, however near to each other and however far from the origin they are. -/
theorem C108_distance64 [Lib f64] (hn : n ≤ 1000000) {v w : Vec (Ieee f64) n} (hv : ∀ i, (v.data i).Finite) (hw : ∀ i, (w.data i).Finite)
    (h1 : (2 : ℝ) ^ (-498 : ℤ) ≤ vecNorm (values v - values w)) (h2 : vecNorm (values v - values w) ≤ 2 ^ (509 : ℤ)) :
    NearTo (v.metricDistance w) (vecNorm (values v - values w)) ((n + 6) * 2 ^ (-53 : ℤ) * vecNorm (values v - values w)) ∧
    v.distance w = v.metricDistance w ∧ (Pt.mk v).metricDistance (Pt.mk w) = v.metricDistance w := by
  have A := adequate64 hn
  set D := vecNorm (values v - values w) with hD
  have hp : (0 : ℝ) < 2 ^ (-498 : ℤ) := by positivity
  have hD0 := hp.trans_le h1
  have ht : n * f64.tiny ≤ f64.u * D := (dust64 hn).trans (mul_le_mul_of_nonneg_left ((zpow_le_zpow_right₀ one_le_two (by norm_num)).trans h1) f64.u_nonneg)
  obtain ⟨s1, s2⟩ := subtracted A hv hw hD.symm ((zpow_le_zpow_right₀ one_le_two (by norm_num)).trans h1)
    (h2.trans (zpow_le_zpow_right₀ one_le_two (by norm_num))) ht
  have hu := mul_le_mul_of_nonneg_right A.small hD0.le
  have c := abs_le.mp s2
  have z1 : (2 : ℝ) ^ (-498 : ℤ) = 2 * 2 ^ (-499 : ℤ) := by rw [← zpow_one_add₀ two_ne_zero]; norm_num
  have z2 : (2 : ℝ) ^ (510 : ℤ) = 2 * 2 ^ (509 : ℤ) := by rw [← zpow_one_add₀ two_ne_zero]; norm_num
  refine ⟨distance_value A hD0 s2 (C84_vector_f64 (hn.trans (by norm_num)) _ s1 ?_ ?_), rfl, rfl⟩
  · change _ ≤ vecNorm (values (v - w)); linarith
  · change vecNorm (values (v - w)) ≤ _
    have h3 : vecNorm (values (v - w)) ≤ 2 * D := by linarith
    exact h3.trans (by rw [z2]; exact mul_le_mul_of_nonneg_left h2 two_pos.le)

theorem C108_distance32 [Lib f32] (hn : n ≤ 60) {v w : Vec (Ieee f32) n} (hv : ∀ i, (v.data i).Finite) (hw : ∀ i, (w.data i).Finite)
    (h1 : (2 : ℝ) ^ (-55 : ℤ) ≤ vecNorm (values v - values w)) (h2 : vecNorm (values v - values w) ≤ 2 ^ (61 : ℤ)) :
    NearTo (v.metricDistance w) (vecNorm (values v - values w)) ((n + 6) * 2 ^ (-24 : ℤ) * vecNorm (values v - values w)) ∧
    v.distance w = v.metricDistance w ∧ (Pt.mk v).metricDistance (Pt.mk w) = v.metricDistance w := by
  have A := adequate32 hn
  set D := vecNorm (values v - values w) with hD
  have hp : (0 : ℝ) < 2 ^ (-55 : ℤ) := by positivity
  have hD0 := hp.trans_le h1
  have ht : n * f32.tiny ≤ f32.u * D := (dust32 hn).trans (mul_le_mul_of_nonneg_left ((zpow_le_zpow_right₀ one_le_two (by norm_num)).trans h1) f32.u_nonneg)
  obtain ⟨s1, s2⟩ := subtracted A hv hw hD.symm ((zpow_le_zpow_right₀ one_le_two (by norm_num)).trans h1)
    (h2.trans (zpow_le_zpow_right₀ one_le_two (by norm_num))) ht
  have hu := mul_le_mul_of_nonneg_right A.small hD0.le
  have c := abs_le.mp s2
  have z1 : (2 : ℝ) ^ (-55 : ℤ) = 2 * 2 ^ (-56 : ℤ) := by rw [← zpow_one_add₀ two_ne_zero]; norm_num
  have z2 : (2 : ℝ) ^ (62 : ℤ) = 2 * 2 ^ (61 : ℤ) := by rw [← zpow_one_add₀ two_ne_zero]; norm_num
  refine ⟨distance_value A hD0 s2 (C84_vector_f32 (hn.trans (by norm_num)) _ s1 ?_ ?_), rfl, rfl⟩
  · change _ ≤ vecNorm (values (v - w)); linarith
  · change vecNorm (values (v - w)) ≤ _
    have h3 : vecNorm (values (v - w)) ≤ 2 * D := by linarith
    exact h3.trans (by rw [z2]; exact mul_le_mul_of_nonneg_left h2 two_pos.le)

/-- **C108.**  `Vector::reflect`, for a normal of any length. -/
theorem C108_reflect64 [Lib f64] (hn : n ≤ 1000000) {v m : Vec (Ieee f64) n} (hv : Short X v) (hm : ∀ i, (m.data i).Finite)
    (m1 : (2 : ℝ) ^ (-499 : ℤ) ≤ vecNorm (values m)) (m2 : vecNorm (values m) ≤ 2 ^ (510 : ℤ)) (x1 : (2 : ℝ) ^ (-1000 : ℤ) ≤ X) (x2 : X ≤ 2 ^ (990 : ℤ)) :
    Close (v.reflect m) (mirror 0 ((vecNorm (values m))⁻¹ • values m) (values v)) (180 * n * 2 ^ (-53 : ℤ) * X) := by
  have A := adequate64 hn
  have hX := A.pos.trans_le x1
  have ht : n * f64.tiny ≤ f64.u := (dust64 hn).trans (mul_le_of_le_one_right f64.u_nonneg (zpow_le_one_of_nonpos₀ one_le_two (by norm_num)))
  exact reflect_value A x1 ht (C84_vector_f64 (hn.trans (by norm_num)) m hm m1 m2) (lt_of_lt_of_le (by positivity) m1)
    (room_above 140 (by norm_num) hX.le x2) hv

theorem C108_reflect32 [Lib f32] (hn : n ≤ 60) {v m : Vec (Ieee f32) n} (hv : Short X v) (hm : ∀ i, (m.data i).Finite)
    (m1 : (2 : ℝ) ^ (-56 : ℤ) ≤ vecNorm (values m)) (m2 : vecNorm (values m) ≤ 2 ^ (62 : ℤ)) (x1 : (2 : ℝ) ^ (-126 : ℤ) ≤ X) (x2 : X ≤ 2 ^ (116 : ℤ)) :
    Close (v.reflect m) (mirror 0 ((vecNorm (values m))⁻¹ • values m) (values v)) (180 * n * 2 ^ (-24 : ℤ) * X) := by
  have A := adequate32 hn
  have hX := A.pos.trans_le x1
  have ht : n * f32.tiny ≤ f32.u := (dust32 hn).trans (mul_le_of_le_one_right f32.u_nonneg (zpow_le_one_of_nonpos₀ one_le_two (by norm_num)))
  exact reflect_value A x1 ht (C84_vector_f32 (hn.trans (by norm_num)) m hm m1 m2) (lt_of_lt_of_le (by positivity) m1)
    (room_above 140 (by norm_num) hX.le x2) hv

/-! ### the hypotheses can be met -/

theorem corner_norm : vecNorm (values (Vec.new2 1 1 : Vec (Ieee f64) 2)) = Real.sqrt 2 ∧ (1 : ℝ) ≤ Real.sqrt 2 ∧ Real.sqrt 2 ≤ 2 := by
  refine ⟨?_, by rw [Real.one_le_sqrt]; norm_num, by rw [Real.sqrt_le_iff]; norm_num⟩
  rw [vecNorm, Fin.sum_univ_two]
  congr 1
  change (1 : ℝ) ^ 2 + 1 ^ 2 = 2
  norm_num

theorem two_le_zpow {k : ℤ} (h : 1 ≤ k) : (2 : ℝ) ≤ 2 ^ k := by
  calc (2 : ℝ) = 2 ^ (1 : ℤ) := (zpow_one _).symm
    _ ≤ _ := zpow_le_zpow_right₀ one_le_two h

/-- the projection of `(1, 0)` to the line through `(1, 1)` -/
example : Close ((Vec.new2 1 0 : Vec (Ieee f64) 2).project (Vec.new2 1 1)) (shadow (values (Vec.new2 1 0 : Vec (Ieee f64) 2)) (values (Vec.new2 1 1 : Vec (Ieee f64) 2)))
    (20 * (2 : ℕ) * 2 ^ (-53 : ℤ) * 2) := by
  obtain ⟨c1, c2, c3⟩ := corner_norm
  exact C108_project64 (by norm_num) (short_of (fun i => by fin_cases i <;> simp [Vec.new2]) (by norm_num))
    (fun i => by fin_cases i <;> exact finite_one) (by rw [c1]; exact (zpow_le_one_of_nonpos₀ one_le_two (by norm_num)).trans c2)
    (by rw [c1]; exact c3.trans (two_le_zpow (by norm_num))) ((zpow_le_one_of_nonpos₀ one_le_two (by norm_num)).trans one_le_two) (two_le_zpow (by norm_num))

/-- the distance of `(1, 1)` from the origin -/
example [Lib f64] : ((Vec.new2 1 1 : Vec (Ieee f64) 2).metricDistance 0).Finite ∧
    |((Vec.new2 1 1 : Vec (Ieee f64) 2).metricDistance 0).val - Real.sqrt 2| ≤ ((2 : ℕ) + 6) * 2 ^ (-53 : ℤ) * Real.sqrt 2 := by
  obtain ⟨c1, c2, c3⟩ := corner_norm
  have e : values (Vec.new2 1 1 : Vec (Ieee f64) 2) - values (0 : Vec (Ieee f64) 2) = values (Vec.new2 1 1 : Vec (Ieee f64) 2) := by
    ext i
    change _ - (0 : ℝ) = _
    rw [sub_zero]
  have := (C108_distance64 (by norm_num) (v := (Vec.new2 1 1 : Vec (Ieee f64) 2)) (w := 0) (fun i => by fin_cases i <;> exact finite_one) (fun i => finite_zero)
    (by rw [e, c1]; exact (zpow_le_one_of_nonpos₀ one_le_two (by norm_num)).trans c2) (by rw [e, c1]; exact c3.trans (two_le_zpow (by norm_num)))).1
  rw [e, c1] at this
  exact this

/-- cross and triple products, interpolation and the dot product of such vectors -/
example : Short 3 (Vec.new3 1 0 1 : Vec (Ieee f64) 3) ∧ Within 3 (Vec.new3 1 0 1 : Vec (Ieee f64) 3) ∧ (2 : ℝ) ^ (-1000 : ℤ) ≤ 3 * 3 ∧ 3 * 3 ≤ (2 : ℝ) ^ (990 : ℤ) := by
  have h : Short 3 (Vec.new3 1 0 1 : Vec (Ieee f64) 3) := short_of (fun i => by fin_cases i <;> simp [Vec.new3]) (by norm_num)
  refine ⟨h, fun i => ⟨h.1 i, (component_le _ i).trans h.2⟩, (zpow_le_one_of_nonpos₀ one_le_two (by norm_num)).trans (by norm_num), ?_⟩
  calc (3 * 3 : ℝ) ≤ 2 ^ (4 : ℤ) := by norm_num
    _ ≤ _ := zpow_le_zpow_right₀ one_le_two (by norm_num)

end Cgl
