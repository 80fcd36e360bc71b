import Verif.Props.C91_RoundTrips
import Verif.Props.C92_Interpolation
import Verif.Lemmas.ShortestRotation

/-! # C93 - the rotation between two directions in floating point -/

namespace Cgl
open Ieee FloatFns Quat Spec InnerProductGeometry

variable {φ : Format}

namespace Spec

/-- The sine, the cosine and the inverse cosine of the library have absolute errors of at most `a`, for arguments up to
four. -/
structure CosineWithin (φ : Format) [Lib φ] (a : ℝ) : Prop extends SineWithin φ a where
  cos : ∀ x : Ieee φ, x.Finite → |x.val| ≤ 4 → (fcos x).Finite ∧ |(fcos x).val - Real.cos x.val| ≤ a

/-- Lengths between half of a rounding unit and four are safe from underflow and overflow. -/
def Roomy (φ : Format) : Prop := ∃ lo, ∀ q, φ.u / 2 ≤ q → q ≤ 4 → Safe φ 3 lo q

/-- the computed vector is finite and within `d` of `a`, component by component -/
def VecWithin {n : ℕ} (v : Vec (Ieee φ) n) (a : EuclideanSpace ℝ (Fin n)) (d : ℝ) : Prop :=
  ∀ i, (v.data i).Finite ∧ |(v.data i).val - a i| ≤ d

end Spec

theorem roomy64 : Roomy f64 := by
  refine ⟨2 ^ (-1022 : ℤ), fun q h1 h2 => safe64 (by norm_num) ?_ (h2.trans ?_)⟩
  · refine le_trans ?_ h1
    rw [show f64.u = 2 ^ (-53 : ℤ) from rfl]
    calc (2 : ℝ) ^ (-499 : ℤ) ≤ 2 ^ (-54 : ℤ) := zpow_le_zpow_right₀ one_le_two (by norm_num)
      _ = _ := by norm_num
  · calc (4 : ℝ) ≤ 2 ^ (2 : ℤ) := by norm_num
      _ ≤ _ := zpow_le_zpow_right₀ one_le_two (by norm_num)

theorem roomy32 : Roomy f32 := by
  refine ⟨2 ^ (-126 : ℤ), fun q h1 h2 => safe32 (by norm_num) ?_ (h2.trans ?_)⟩
  · refine le_trans ?_ h1
    rw [show f32.u = 2 ^ (-24 : ℤ) from rfl]
    calc (2 : ℝ) ^ (-56 : ℤ) ≤ 2 ^ (-25 : ℤ) := zpow_le_zpow_right₀ one_le_two (by norm_num)
      _ = _ := by norm_num
  · calc (4 : ℝ) ≤ 2 ^ (2 : ℤ) := by norm_num
      _ ≤ _ := zpow_le_zpow_right₀ one_le_two (by norm_num)

/-! ### products of unit vectors -/

theorem unit_comp {n : ℕ} {a : EuclideanSpace ℝ (Fin n)} (ha : ‖a‖ = 1) (i : Fin n) : |a i| ≤ 1 := by
  have := PiLp.norm_apply_le a i
  rwa [Real.norm_eq_abs, ha] at this

/-- the vector of numbers that the components stand for -/
noncomputable def Spec.exactVec {n : ℕ} (v : Vec (Ieee φ) n) : EuclideanSpace ℝ (Fin n) := WithLp.toLp 2 fun i => (v.data i).val

theorem length_exactVec {n : ℕ} (v : Vec (Ieee φ) n) : Spec.length v = ‖exactVec v‖ := by
  rw [EuclideanSpace.norm_eq, Spec.length]
  congr 1
  exact Finset.sum_congr rfl fun i _ => (sq_abs _).symm

section
variable {d : ℝ} (hφ : Fine φ) (hd : d ≤ 1 / 1000000) (hwd : unit φ ≤ d) {u v : Vec (Ieee φ) 3}
  {a b : EuclideanSpace ℝ (Fin 3)} (ha : ‖a‖ = 1) (hb : ‖b‖ = 1) (hu : VecWithin u a d) (hv : VecWithin v b d)
include hφ hd hwd ha hb hu hv

theorem product3 (i j : Fin 3) : Nr (u.data i * v.data j) (a i * b j) (302 / 100 * d) := by
  have hw0 : 0 ≤ unit φ := unit_nonneg
  have := Nr.mul hφ (hu i) (hv j) (unit_comp ha i) (unit_comp hb j) (M := 1001 / 1000) (by nlinarith) (by norm_num) (by norm_num)
  exact this.mono (by nlinarith)

theorem dot3 : Nr (u.dot v) (inner ℝ a b) (12 * d) := by
  have hw0 : 0 ≤ unit φ := unit_nonneg
  have p := product3 hφ hd hwd ha hb hu hv
  have na := normsq3 a
  have nb := normsq3 b
  rw [ha] at na
  rw [hb] at nb
  have s := fun i => sq_nonneg (a i + b i)
  have s' := fun i => sq_nonneg (a i - b i)
  have q := sq_nonneg (a 2)
  have q' := sq_nonneg (b 2)
  have t1 := (p 0 0).zero_add.add hφ (p 1 1) (M := 101 / 100)
    (by rw [← le_sub_iff_add_le, abs_le]; constructor <;> linarith [s 0, s 1, s' 0, s' 1]) (by norm_num) (by norm_num)
  have t2 := t1.add hφ (p 2 2) (M := 101 / 100)
    (by rw [← le_sub_iff_add_le, abs_le]; constructor <;> linarith [s 0, s 1, s 2, s' 0, s' 1, s' 2]) (by norm_num) (by norm_num)
  rw [inner3]
  exact t2.mono (by linarith)

theorem cross3 (i : Fin 3) : Nr ((u.cross v).data i) (cr a b i) (15 / 2 * d) := by
  have hw0 : 0 ≤ unit φ := unit_nonneg
  have p := product3 hφ hd hwd ha hb hu hv
  have na := normsq3 a
  have nb := normsq3 b
  rw [ha] at na
  rw [hb] at nb
  have key : ∀ i j, i ≠ j → Nr (u.data i * v.data j - u.data j * v.data i) (a i * b j - a j * b i) (15 / 2 * d) := by
    intro i j hij
    have h2 : a i ^ 2 + a j ^ 2 ≤ 1 ∧ b i ^ 2 + b j ^ 2 ≤ 1 := by
      fin_cases i <;> fin_cases j <;> first
        | exact absurd rfl hij
        | constructor <;> simp only [Fin.zero_eta, Fin.mk_one, Fin.reduceFinMk] <;>
            nlinarith [sq_nonneg (a 0), sq_nonneg (a 1), sq_nonneg (a 2), sq_nonneg (b 0), sq_nonneg (b 1), sq_nonneg (b 2)]
    have t := (p i j).sub hφ (p j i) (M := 101 / 100)
      (by
        rw [← le_sub_iff_add_le, abs_le]
        constructor <;> linarith [sq_nonneg (a i + b j), sq_nonneg (a i - b j), sq_nonneg (a j + b i), sq_nonneg (a j - b i), h2.1, h2.2])
      (by norm_num) (by norm_num)
    exact t.mono (by linarith)
  fin_cases i
  · exact key 1 2 (by decide)
  · exact key 2 0 (by decide)
  · exact key 0 1 (by decide)

theorem cross_dist : ‖exactVec (u.cross v) - cr a b‖ ≤ 13 * d := by
  have hd0 : 0 ≤ d := unit_nonneg.trans hwd
  exact dist_le3 (fun i => (cross3 hφ hd hwd ha hb hu hv i).2) (by linarith) (by nlinarith)

end

/-! ### the length of the vector product and the threshold -/

/-- an upper bound that needs no lower bound for the length -/
theorem norm_squared_le (hφ : Fine φ) {x : Vec (Ieee φ) 3} (hx : ∀ i, (x.data i).Finite) (hL : Spec.length x ≤ 4) :
    x.normSquared.Finite ∧ x.normSquared.val ≤ 1001 / 1000 * Spec.length x ^ 2 + 10 * φ.tiny := by
  have hu := φ.u_nonneg
  have ht := φ.tiny_nonneg
  have huw : φ.u ≤ 1 / 1000000 := by have := hφ.unit_le; unfold Spec.unit at this; linarith
  have hL2 : Spec.length x ^ 2 = (x.data 0).val ^ 2 + (x.data 1).val ^ 2 + (x.data 2).val ^ 2 := by
    rw [length_exactVec, normsq3]; rfl
  have hc : ∀ i, |(x.data i).val| ≤ 4 := fun i => by
    have := PiLp.norm_apply_le (exactVec x) i
    rw [Real.norm_eq_abs, ← length_exactVec] at this
    exact this.trans hL
  have p : ∀ i, (x.data i * x.data i).Finite ∧ 0 ≤ (x.data i * x.data i).val ∧
      (x.data i * x.data i).val ≤ 1000001 / 1000000 * (x.data i).val ^ 2 + φ.tiny := fun i => by
    have h := (Nr.exact (hx i)).mul hφ (Nr.exact (hx i)) (hc i) (hc i) (M := 16) (by norm_num) (by norm_num) (by norm_num)
    refine ⟨h.1, ?_, ?_⟩
    · rw [val_mul h.1]; exact φ.nonneg (mul_self_nonneg _)
    · rw [val_mul h.1]
      have e := (abs_le.mp (φ.err ((x.data i).val * (x.data i).val))).2
      rw [abs_mul_self] at e
      nlinarith [sq_nonneg (x.data i).val]
  have add : ∀ {y z : Ieee φ} {m n : ℝ}, y.Finite → z.Finite → 0 ≤ y.val → 0 ≤ z.val → y.val ≤ m → z.val ≤ n → m + n ≤ 100 →
      (y + z).Finite ∧ 0 ≤ (y + z).val ∧ (y + z).val ≤ 1000001 / 1000000 * (m + n) + φ.tiny := by
    intro y z m n hy hz hy0 hz0 hm hn hmn
    have h := (Nr.exact hy).add hφ (Nr.exact hz) (M := 100) (by rw [abs_of_nonneg (by linarith)]; linarith) (by norm_num) (by norm_num)
    refine ⟨h.1, ?_, ?_⟩
    · rw [val_add h.1]; exact φ.nonneg (by linarith)
    · rw [val_add h.1]
      have e := (abs_le.mp (φ.err (y.val + z.val))).2
      rw [abs_of_nonneg (by linarith)] at e
      nlinarith
  have htw : φ.tiny ≤ 1 / 1000000 := by have := hφ.unit_le; unfold Spec.unit at this; linarith
  have q := fun i => sq_nonneg (x.data i).val
  have hs := hL2 ▸ (pow_le_pow_left₀ (by rw [length_exactVec]; exact _root_.norm_nonneg _) hL 2)
  have z : ((0 : Ieee φ) + x.data 0 * x.data 0).Finite ∧ 0 ≤ ((0 : Ieee φ) + x.data 0 * x.data 0).val ∧
      ((0 : Ieee φ) + x.data 0 * x.data 0).val ≤ 1000001 / 1000000 * (x.data 0).val ^ 2 + φ.tiny := by
    have h := (Nr.exact (p 0).1).zero_add
    have e : ((0 : Ieee φ) + x.data 0 * x.data 0).val = (x.data 0 * x.data 0).val := by
      have := h.2; rw [abs_nonpos_iff] at this; linarith
    exact ⟨h.1, by rw [e]; exact (p 0).2.1, by rw [e]; exact (p 0).2.2⟩
  have t1 := add z.1 (p 1).1 z.2.1 (p 1).2.1 z.2.2 (p 1).2.2 (by linarith [q 0, q 1, q 2])
  have t2 := add t1.1 (p 2).1 t1.2.1 (p 2).2.1 t1.2.2 (p 2).2.2 (by linarith [q 0, q 1, q 2])
  refine ⟨t2.1, t2.2.2.trans ?_⟩
  rw [hL2]
  linarith [q 0, q 1, q 2]

/-- how the test against the threshold `t` relates to the exact length -/
theorem threshold (hφ : Fine φ) (hR : Roomy φ) [Lib φ] {x : Vec (Ieee φ) 3} (hx : ∀ i, (x.data i).Finite) (hL : Spec.length x ≤ 4)
    {t : Ieee φ} (ht : t.Finite) (ht1 : φ.u ≤ t.val) (ht2 : t.val ≤ 1) :
    (x.normSquared > t * t → φ.u / 2 ≤ Spec.length x) ∧
    (Spec.length x ≤ 99 / 100 * t.val → ¬ x.normSquared > t * t) ∧
    (¬ x.normSquared > t * t → Spec.length x ≤ 1001 / 1000 * t.val) ∧
    (φ.u / 2 ≤ Spec.length x → t.val ≤ 95 / 100 * Spec.length x → x.normSquared > t * t) := by
  obtain ⟨lo, hs⟩ := hR
  have htn := φ.tiny_nonneg
  have huw : φ.u ≤ 1 / 1000000 := by have := hφ.unit_le; unfold Spec.unit at this; linarith
  have hu : 0 < φ.u := by have := (hs (φ.u / 2) le_rfl (by linarith)).pos; linarith
  have htiny : 96 * φ.tiny ≤ φ.u * φ.u ^ 2 := by
    have := (hs (φ.u / 2) le_rfl (by linarith)).squares
    norm_num at this
    nlinarith
  have ht0 : 0 < t.val := by linarith
  have hu2 : φ.u ^ 2 ≤ t.val ^ 2 := pow_le_pow_left₀ hu.le ht1 2
  have htiny' : 96 * φ.tiny ≤ 1 / 1000000 * t.val ^ 2 := htiny.trans (mul_le_mul huw hu2 (sq_nonneg _) (by norm_num))
  have hT := (Nr.exact ht).mul hφ (Nr.exact ht) (A := 1) (B := 1) (M := 1) (by rw [abs_of_pos ht0]; exact ht2)
    (by rw [abs_of_pos ht0]; exact ht2) (by norm_num) le_rfl (by norm_num)
  have hTe := φ.err (t.val * t.val)
  rw [abs_mul_self, ← val_mul hT.1, abs_le] at hTe
  have hut : φ.u * (t.val * t.val) ≤ 1 / 1000000 * t.val ^ 2 := by
    rw [← sq]; exact mul_le_mul_of_nonneg_right huw (sq_nonneg _)
  have hTl : 999 / 1000 * t.val ^ 2 ≤ (t * t).val := by nlinarith
  have hTu : (t * t).val ≤ 1000002 / 1000000 * t.val ^ 2 := by nlinarith
  obtain ⟨hNf, hNu⟩ := norm_squared_le hφ hx hL
  have hL0 : 0 ≤ Spec.length x := by rw [length_exactVec]; exact _root_.norm_nonneg _
  have hNl : φ.u / 2 ≤ Spec.length x → 99999 / 100000 * Spec.length x ^ 2 ≤ x.normSquared.val := fun h => by
    have := (abs_le.mp (safe_norm_squared x hx (hs _ h hL)).2).1
    have h3 := mul_le_mul_of_nonneg_right huw (sq_nonneg (Spec.length x))
    push_cast at this
    nlinarith
  rw [gt_iff_lt, ieee_lt_iff hT.1 hNf]
  refine ⟨fun h => ?_, fun h => ?_, fun h => ?_, fun h h' => ?_⟩
  · by_contra hc
    rw [not_le] at hc
    have : Spec.length x ^ 2 ≤ (φ.u / 2) ^ 2 := pow_le_pow_left₀ hL0 hc.le 2
    nlinarith
  · have : Spec.length x ^ 2 ≤ (99 / 100 * t.val) ^ 2 := pow_le_pow_left₀ hL0 h 2
    rw [not_lt]
    nlinarith
  · rw [not_lt] at h
    rcases le_total (φ.u / 2) (Spec.length x) with hc | hc
    · have := hNl hc
      refine le_of_sq_le_sq ?_ (by linarith)
      nlinarith
    · linarith
  · have := hNl h
    have h3 : t.val ^ 2 ≤ (95 / 100 * Spec.length x) ^ 2 := pow_le_pow_left₀ ht0.le h' 2
    have h4 : 0 < Spec.length x := by linarith
    have h5 : 0 < Spec.length x ^ 2 := by positivity
    nlinarith

theorem tryFromValue_eq [Lib φ] {n : ℕ} (x : Vec (Ieee φ) n) (t : Ieee φ) :
    Unit'.tryFromValue x t = if x.normSquared > t * t then some ⟨x.normalize⟩ else none := by
  simp only [Unit'.tryFromValue, Unit'.tryFromValueWithNorm]
  change Option.map _ (if x.normSquared > t * t then _ else _) = _
  split_ifs <;> rfl

/-- the computed direction of the vector product -/
theorem axis_near [Lib φ] (hφ : Fine φ) (hR : Roomy φ) {x : Vec (Ieee φ) 3} (hx : ∀ i, (x.data i).Finite) (h1 : φ.u / 2 ≤ Spec.length x)
    (h2 : Spec.length x ≤ 4) (i : Fin 3) :
    Nr (x.normalize.data i) (exactVec x i / ‖exactVec x‖) (9 * unit φ) ∧ |exactVec x i / ‖exactVec x‖| ≤ 1 := by
  obtain ⟨lo, hs⟩ := hR
  obtain ⟨-, -, hc, -⟩ := safe x hx (hs _ h1 h2)
  obtain ⟨hf, he⟩ := hc i
  have hp : 0 < ‖exactVec x‖ := by rw [← length_exactVec]; exact (hs _ h1 h2).pos
  have h3 : |exactVec x i / ‖exactVec x‖| ≤ 1 := by
    have := PiLp.norm_apply_le (exactVec x) i
    rw [abs_div, abs_of_pos hp, div_le_one hp]
    rwa [Real.norm_eq_abs] at this
  refine ⟨⟨hf, ?_⟩, h3⟩
  rw [length_exactVec] at he
  change |(x.normalize.data i).val - (x.data i).val / ‖exactVec x‖| ≤ _
  refine he.trans ?_
  change _ * |exactVec x i / ‖exactVec x‖| + _ ≤ _
  have hu := φ.u_nonneg
  have ht := φ.tiny_nonneg
  have := mul_le_mul_of_nonneg_left h3 (show 0 ≤ ((3 + 3 : ℕ) + 3 : ℝ) * φ.u by positivity)
  push_cast at this ⊢
  unfold Spec.unit
  linarith

/-! ### half of the angle -/

theorem half_trig [Lib φ] (hφ : Fine φ) {d e : ℝ} (hd : d ≤ 1 / 1000000) (hwd : unit φ ≤ d) (he : CosineWithin φ e) (hed : e ≤ d)
    {c : Ieee φ} (hc : c.Finite) (h1 : |c.val| ≤ 1) :
    Nr (fsin (facos c * ((1 : Ieee φ) / (1 + 1)))) (Real.sin (Real.arccos c.val / 2)) (32 / 10 * d) ∧
    Nr (fcos (facos c * ((1 : Ieee φ) / (1 + 1)))) (Real.cos (Real.arccos c.val / 2)) (32 / 10 * d) := by
  have hw0 : 0 ≤ unit φ := unit_nonneg
  have ha : Nr (facos c) (Real.arccos c.val) d := ⟨(he.acos c hc h1).1, (he.acos c hc h1).2.trans hed⟩
  have h0 := Real.arccos_nonneg c.val
  have h3 := Real.arccos_le_pi c.val
  have h4 := Real.pi_lt_d2
  have hm := ha.mul hφ (half_nr hφ) (A := 315 / 100) (B := 1 / 2) (M := 16 / 10) (by rw [abs_of_nonneg h0]; linarith)
    (by rw [abs_of_pos (by norm_num)]) (by linarith) (by norm_num) (by norm_num)
  rw [mul_one_div] at hm
  have hm' : Nr _ _ (22 / 10 * d) := hm.mono (by linarith)
  have hb : |(facos c * ((1 : Ieee φ) / (1 + 1))).val| ≤ 4 := by
    have := hm'.val_le (A := 2) (by rw [abs_of_nonneg (by linarith)]; linarith)
    linarith
  obtain ⟨s1, s2⟩ := he.sin _ hm'.1 hb
  obtain ⟨c1, c2⟩ := he.cos _ hm'.1 hb
  refine ⟨⟨s1, ?_⟩, ⟨c1, ?_⟩⟩
  · have k := (Real.abs_sin_sub_sin_le (facos c * ((1 : Ieee φ) / (1 + 1))).val (Real.arccos c.val / 2)).trans hm'.2
    rw [abs_le] at *
    constructor <;> linarith
  · have k := (Real.abs_cos_sub_cos_le (facos c * ((1 : Ieee φ) / (1 + 1))).val (Real.arccos c.val / 2)).trans hm'.2
    rw [abs_le] at *
    constructor <;> linarith

/-! ### the arc -/

section
variable [Lib φ] {d e : ℝ} (hφ : Fine φ) (hR : Roomy φ) (hd : d ≤ 1 / 1000000) (hwd : unit φ ≤ d) (he : CosineWithin φ e) (hed : e ≤ d)
  {u v : Unit' (Vec (Ieee φ) 3)} {a b : EuclideanSpace ℝ (Fin 3)} (ha : ‖a‖ = 1) (hb : ‖b‖ = 1) (hu : VecWithin u.value a d)
  (hv : VecWithin v.value b d)
include hφ hR hd hwd he hed ha hb hu hv

omit hR [Lib φ] he hed in
theorem cross_length : |Spec.length (u.value.cross v.value) - ‖cr a b‖| ≤ 13 * d ∧ Spec.length (u.value.cross v.value) ≤ 2 := by
  have h1 := cross_dist hφ hd hwd ha hb hu hv
  have h2 := (abs_norm_sub_norm_le (exactVec (u.value.cross v.value)) (cr a b)).trans h1
  rw [← length_exactVec] at h2
  refine ⟨h2, ?_⟩
  have h3 : ‖cr a b‖ ≤ 1 := by rw [cr_norm ha hb]; exact Real.sin_le_one _
  have := (abs_le.mp h2).2
  linarith

set_option maxHeartbeats 1000000 in
/-- away from parallel directions -/
theorem arc_large (hs : 100 * d ≤ ‖cr a b‖ ^ 2) (h1 : |(u.value.dot v.value).val| ≤ 1) {h : Quaternion ℝ}
    (r0 : h.re = Real.cos (angle a b / 2))
    (r1 : h.imI = (2 * Real.cos (angle a b / 2))⁻¹ * cr a b 0) (r2 : h.imJ = (2 * Real.cos (angle a b / 2))⁻¹ * cr a b 1)
    (r3 : h.imK = (2 * Real.cos (angle a b / 2))⁻¹ * cr a b 2) :
    QuatWithin (fromAxisAngle ⟨(u.value.cross v.value).normalize⟩ ⟨facos (u.value.dot v.value)⟩) h (55 * d / ‖cr a b‖) := by
  have hw0 : 0 ≤ unit φ := unit_nonneg
  have hd0 : 0 ≤ d := hw0.trans hwd
  have hdpos : 0 < d := by
    obtain ⟨lo, hs⟩ := hR
    have huw : φ.u ≤ 1 / 1000000 := by have := hφ.unit_le; have := φ.tiny_nonneg; unfold Spec.unit at *; linarith
    have := (hs (φ.u / 2) le_rfl (by linarith)).pos
    have := φ.tiny_nonneg; unfold Spec.unit at *; linarith
  obtain ⟨hκ0, hσ0, hκ2, hσ2, hsks⟩ := half_angle ha hb
  have hcr := cross3 hφ hd hwd ha hb hu hv
  have hdist := cross_dist hφ hd hwd ha hb hu hv
  obtain ⟨hlen, hlen2⟩ := cross_length hφ hd hwd ha hb hu hv
  have hdot := dot3 hφ hd hwd ha hb hu hv
  obtain ⟨hS, hC⟩ := half_trig hφ hd hwd he hed hdot.1 h1
  obtain ⟨hκ0', hσ0', hκ2', hσ2'⟩ := half_arccos (abs_le.mp h1).1 (abs_le.mp h1).2
  have hs1 : ‖cr a b‖ ≤ 1 := by rw [cr_norm ha hb]; exact Real.sin_le_one _
  have hs0 : 0 < ‖cr a b‖ := by
    rcases (_root_.norm_nonneg (cr a b)).lt_or_eq with h | h
    · exact h
    · rw [← h] at hs; norm_num at hs; linarith
  generalize hκ : Real.cos (angle a b / 2) = κ at *
  generalize hσ : Real.sin (angle a b / 2) = σ at *
  generalize hκ' : Real.cos (Real.arccos (u.value.dot v.value).val / 2) = κ' at *
  generalize hσ' : Real.sin (Real.arccos (u.value.dot v.value).val / 2) = σ' at *
  set s := ‖cr a b‖ with hsdef
  have hκ1 : κ ≤ 1 := by rw [← hκ]; exact Real.cos_le_one _
  have hσ1 : σ ≤ 1 := by rw [← hσ]; exact Real.sin_le_one _
  have hσs : s / 2 ≤ σ := by linarith [mul_le_mul_of_nonneg_right hκ1 hσ0]
  have hκs : s / 2 ≤ κ := by linarith [mul_le_mul_of_nonneg_left hσ1 hκ0]
  obtain ⟨r, hr⟩ : ∃ r, r = d / s := ⟨_, rfl⟩
  have hrs : r * s = d := by rw [hr]; field_simp
  have hr0 : 0 < r := by rw [hr]; positivity
  have hdr : d ≤ r := by linarith [mul_le_mul_of_nonneg_left hs1 hr0.le]
  have hsr : 100 * r ≤ s := le_of_mul_le_mul_right (by rw [mul_assoc, hrs]; linarith [sq s]) hs0
  have hr1 : r ≤ 1 / 10000 := by
    refine le_of_sq_le_sq ?_ (by norm_num)
    linarith [mul_le_mul_of_nonneg_left hsr hr0.le, sq r]
  have hcd : |(u.value.dot v.value).val - inner ℝ a b| ≤ 12 * d := hdot.2
  have e1 : |σ' ^ 2 - σ ^ 2| ≤ 6 * d := by
    rw [hσ2, hσ2', abs_le]
    rw [abs_le] at hcd
    constructor <;> linarith
  have e2 : |κ' ^ 2 - κ ^ 2| ≤ 6 * d := by
    rw [hκ2, hκ2', abs_le]
    rw [abs_le] at hcd
    constructor <;> linarith
  have hsd : 6 * d / (s / 2) = 12 * r := by rw [hr]; field_simp; norm_num
  have f1 := root_near hσ0' (by linarith) hσs e1
  have f2 := root_near hκ0' (by linarith) hκs e2
  rw [hsd] at f1 f2
  have hS' : Nr (fsin (facos (u.value.dot v.value) * ((1 : Ieee φ) / (1 + 1)))) σ (16 * r) := by
    refine ⟨hS.1, ?_⟩
    have := hS.2
    rw [abs_le] at *
    constructor <;> linarith
  have hC' : Nr (fcos (facos (u.value.dot v.value) * ((1 : Ieee φ) / (1 + 1)))) κ (16 * r) := by
    refine ⟨hC.1, ?_⟩
    have := hC.2
    rw [abs_le] at *
    constructor <;> linarith
  have hu2 : φ.u / 2 ≤ Spec.length (u.value.cross v.value) := by
    have h3 : φ.u ≤ d := by have := φ.tiny_nonneg; unfold Spec.unit at hwd; linarith
    have := (abs_le.mp hlen).1
    linarith
  have hax : ∀ i, Nr ((u.value.cross v.value).normalize.data i) (cr a b i / s) (35 * r) := fun i => by
    obtain ⟨g1, g2⟩ := axis_near hφ hR (fun i => (hcr i).1) hu2 (by linarith) i
    have hp : 0 < ‖exactVec (u.value.cross v.value)‖ := by
      rw [← length_exactVec]
      have := (abs_le.mp hlen).1
      linarith
    have g3 := direction_near hp (show 0 < ‖cr a b‖ from hs0) i
    have g4 : 2 * ‖exactVec (u.value.cross v.value) - cr a b‖ / ‖cr a b‖ ≤ 26 * r := by
      rw [← hsdef, div_le_iff₀ hs0, mul_assoc, hrs]; linarith
    refine ⟨g1.1, ?_⟩
    have g5 := g1.2
    have g6 := g3.trans g4
    rw [abs_le] at *
    constructor <;> linarith
  have hX : ∀ i, |cr a b i / s| ≤ 1 := fun i => by
    rw [abs_div, abs_of_pos hs0, div_le_one hs0]
    have := PiLp.norm_apply_le (cr a b) i
    rwa [Real.norm_eq_abs] at this
  have hprod : ∀ i, Nr ((u.value.cross v.value).normalize.data i * fsin (facos (u.value.dot v.value) * ((1 : Ieee φ) / (1 + 1))))
      ((2 * κ)⁻¹ * cr a b i) (55 * r) := fun i => by
    have := (hax i).mul hφ hS' (hX i) (B := 1) (M := 101 / 100) (by rw [abs_of_nonneg hσ0]; exact hσ1)
      (by linarith [mul_le_mul_of_nonneg_left hr1 hr0.le]) (by norm_num) (by norm_num)
    have e3 : cr a b i / s * σ = (2 * κ)⁻¹ * cr a b i := by
      have : 0 < κ := by linarith
      have : 0 < σ := by linarith
      rw [hsks]; field_simp
    rw [e3] at this
    exact this.mono (by linarith [mul_le_mul_of_nonneg_left hr1 hr0.le])
  rw [mul_div_assoc, ← hr, quatWithin_iff]
  intro i
  fin_cases i
  · change Nr (fcos _) h.re _
    rw [r0]
    exact hC'.mono (by linarith)
  · change Nr _ h.imI _
    rw [r1]; exact hprod 0
  · change Nr _ h.imJ _
    rw [r2]; exact hprod 1
  · change Nr _ h.imK _
    rw [r3]; exact hprod 2

set_option maxHeartbeats 1000000 in
/-- close to parallel directions -/
theorem arc_small (hs : ‖cr a b‖ ^ 2 ≤ 100 * d) (hc0 : 0 ≤ inner ℝ a b) (hu2 : φ.u / 2 ≤ Spec.length (u.value.cross v.value))
    (h1 : |(u.value.dot v.value).val| ≤ 1) {h : Quaternion ℝ} (r0 : h.re = Real.cos (angle a b / 2))
    (r1 : h.imI = (2 * Real.cos (angle a b / 2))⁻¹ * cr a b 0) (r2 : h.imJ = (2 * Real.cos (angle a b / 2))⁻¹ * cr a b 1)
    (r3 : h.imK = (2 * Real.cos (angle a b / 2))⁻¹ * cr a b 2) :
    QuatWithin (fromAxisAngle ⟨(u.value.cross v.value).normalize⟩ ⟨facos (u.value.dot v.value)⟩) h (18 * Real.sqrt d) := by
  have hw0 : 0 ≤ unit φ := unit_nonneg
  have hd0 : 0 ≤ d := hw0.trans hwd
  obtain ⟨hκ0, hσ0, hκ2, hσ2, hsks⟩ := half_angle ha hb
  have hcr := cross3 hφ hd hwd ha hb hu hv
  obtain ⟨hlen, hlen2⟩ := cross_length hφ hd hwd ha hb hu hv
  have hdot := dot3 hφ hd hwd ha hb hu hv
  obtain ⟨hS, hC⟩ := half_trig hφ hd hwd he hed hdot.1 h1
  obtain ⟨hκ0', hσ0', hκ2', hσ2'⟩ := half_arccos (abs_le.mp h1).1 (abs_le.mp h1).2
  have hX : ∀ i, |cr a b i| ≤ ‖cr a b‖ := fun i => by
    have := PiLp.norm_apply_le (cr a b) i
    rwa [Real.norm_eq_abs] at this
  have hs0 := _root_.norm_nonneg (cr a b)
  generalize hκ : Real.cos (angle a b / 2) = κ at *
  generalize hσ : Real.sin (angle a b / 2) = σ at *
  generalize hκ' : Real.cos (Real.arccos (u.value.dot v.value).val / 2) = κ' at *
  generalize hσ' : Real.sin (Real.arccos (u.value.dot v.value).val / 2) = σ' at *
  obtain ⟨s, hsdef⟩ : ∃ s, s = ‖cr a b‖ := ⟨_, rfl⟩
  rw [← hsdef] at hs hs0 hsks hX
  obtain ⟨w, hw⟩ : ∃ w, w = Real.sqrt d := ⟨_, rfl⟩
  have hw1 : 0 ≤ w := by rw [hw]; exact Real.sqrt_nonneg _
  have hw2 : w ^ 2 = d := by rw [hw]; exact Real.sq_sqrt hd0
  have hw3 : w ≤ 1 / 1000 := le_of_sq_le_sq (by rw [hw2]; linarith) (by norm_num)
  have hdw : d ≤ w / 1000 := by rw [← hw2, sq]; linarith [mul_le_mul_of_nonneg_left hw3 hw1]
  rw [← hw]
  have hκlo : 7 / 10 ≤ κ := le_of_sq_le_sq (by rw [hκ2]; linarith) hκ0
  have hs10 : s ≤ 10 * w := le_of_sq_le_sq (by rw [mul_pow, hw2]; linarith) (by linarith)
  have hσ7 : σ ≤ 72 / 10 * w := by
    have := mul_le_mul_of_nonneg_right hκlo hσ0
    linarith
  have hcd := hdot.2
  have e1 : |σ' ^ 2 - σ ^ 2| ≤ (5 / 2 * w) ^ 2 := by
    rw [hσ2, hσ2', mul_pow, hw2, abs_le]
    rw [abs_le] at hcd
    constructor <;> linarith
  have e2 : |κ' ^ 2 - κ ^ 2| ≤ 6 * d := by
    rw [hκ2, hκ2', abs_le]
    rw [abs_le] at hcd
    constructor <;> linarith
  have f1 := root_near' hσ0' hσ0 (by linarith) e1
  have f2 := root_near hκ0' (by norm_num) hκlo e2
  have hS' : Nr (fsin (facos (u.value.dot v.value) * ((1 : Ieee φ) / (1 + 1)))) 0 (975 / 100 * w) := by
    refine ⟨hS.1, ?_⟩
    have := hS.2
    rw [abs_le] at *
    constructor <;> linarith
  have hC' : Nr (fcos (facos (u.value.dot v.value) * ((1 : Ieee φ) / (1 + 1)))) κ w := by
    refine ⟨hC.1, ?_⟩
    have := hC.2
    rw [abs_le] at *
    constructor <;> linarith
  have hax : ∀ i, Nr ((u.value.cross v.value).normalize.data i) 0 (1001 / 1000) := fun i => by
    obtain ⟨g1, g2⟩ := axis_near hφ hR (fun i => (hcr i).1) hu2 (by linarith) i
    refine ⟨g1.1, ?_⟩
    have g5 := g1.2
    rw [abs_le] at *
    constructor <;> linarith
  have hprod : ∀ i, Nr ((u.value.cross v.value).normalize.data i * fsin (facos (u.value.dot v.value) * ((1 : Ieee φ) / (1 + 1))))
      ((2 * κ)⁻¹ * cr a b i) (18 * w) := fun i => by
    have := (hax i).mul hφ hS' (A := 0) (B := 0) (M := 1) (by simp) (by simp) (by linarith) le_rfl (by norm_num)
    have g : |(2 * κ)⁻¹ * cr a b i| ≤ 72 / 10 * w := by
      have hκp : 0 < 2 * κ := by linarith
      rw [abs_mul, abs_of_pos (inv_pos.mpr hκp), inv_mul_le_iff₀ hκp]
      refine (hX i).trans ?_
      rw [hsks]
      exact mul_le_mul_of_nonneg_left hσ7 hκp.le
    refine ⟨this.1, ?_⟩
    have g5 := this.2
    rw [mul_zero, abs_le] at g5
    rw [abs_le] at g ⊢
    constructor <;> linarith
  rw [quatWithin_iff]
  intro i
  fin_cases i
  · change Nr (fcos _) h.re _
    rw [r0]
    exact hC'.mono (by linarith)
  · change Nr _ h.imI _
    rw [r1]; exact hprod 0
  · change Nr _ h.imJ _
    rw [r2]; exact hprod 1
  · change Nr _ h.imK _
    rw [r3]; exact hprod 2

omit hφ hR [Lib φ] hd hwd he hed hu hv in
/-- the identity for directions that are almost the same -/
theorem identity_near {η : ℝ} (hη : 0 ≤ η) (hη1 : η ≤ 1) (hσ : Real.sin (angle a b / 2) ≤ η) {h : Quaternion ℝ}
    (hκp : 0 < Real.cos (angle a b / 2)) (r0 : h.re = Real.cos (angle a b / 2))
    (r1 : h.imI = (2 * Real.cos (angle a b / 2))⁻¹ * cr a b 0) (r2 : h.imJ = (2 * Real.cos (angle a b / 2))⁻¹ * cr a b 1)
    (r3 : h.imK = (2 * Real.cos (angle a b / 2))⁻¹ * cr a b 2) : QuatWithin (identity : Quat (Ieee φ)) h η := by
  obtain ⟨hκ0, hσ0, hκ2, hσ2, hsks⟩ := half_angle ha hb
  have hX : ∀ i, |cr a b i| ≤ ‖cr a b‖ := fun i => by
    have := PiLp.norm_apply_le (cr a b) i
    rwa [Real.norm_eq_abs] at this
  have hκ1 : Real.cos (angle a b / 2) ≤ 1 := Real.cos_le_one _
  generalize hκ : Real.cos (angle a b / 2) = κ at *
  generalize Real.sin (angle a b / 2) = σ at *
  have hprod : ∀ i, Nr (0 : Ieee φ) ((2 * κ)⁻¹ * cr a b i) η := fun i => by
    refine ⟨finite_zero, ?_⟩
    have hκp : 0 < 2 * κ := by linarith
    rw [val_zero, zero_sub, abs_neg, abs_mul, abs_of_pos (inv_pos.mpr hκp), inv_mul_le_iff₀ hκp]
    refine (hX i).trans ?_
    rw [hsks]
    exact mul_le_mul_of_nonneg_left hσ hκp.le
  rw [quatWithin_iff]
  intro i
  fin_cases i
  · change Nr (1 : Ieee φ) h.re _
    refine ⟨finite_one, ?_⟩
    rw [r0, val_one, abs_of_nonneg (by linarith)]
    have h1 : κ ^ 2 + σ ^ 2 = 1 := by rw [hκ2, hσ2]; ring
    have h2 : κ ^ 2 ≤ κ := by rw [sq]; exact mul_le_of_le_one_left hκ0 hκ1
    have h3 : σ ^ 2 ≤ σ * 1 := by rw [sq]; exact mul_le_mul_of_nonneg_left (hσ.trans hη1) hσ0
    linarith
  · change Nr _ h.imI _
    rw [r1]; exact hprod 0
  · change Nr _ h.imJ _
    rw [r2]; exact hprod 1
  · change Nr _ h.imK _
    rw [r3]; exact hprod 2

omit hR he hed in
theorem between_eq (t : Ieee φ) : Quat.rotationBetweenAxis t u v =
    if (u.value.cross v.value).normSquared > t * t then
      if (u.value.dot v.value).val ≤ -1 then none
      else if 1 ≤ (u.value.dot v.value).val then some identity
      else some (fromAxisAngle ⟨(u.value.cross v.value).normalize⟩ ⟨facos (u.value.dot v.value)⟩)
    else if (u.value.dot v.value).val < 0 then none else some identity := by
  have hf := (dot3 hφ hd hwd ha hb hu hv).1
  have n1 : (-1 : Ieee φ).Finite := Nr.one.neg.1
  have v1 : (-1 : Ieee φ).val = -1 := by
    have := Nr.one (φ := φ).neg.2
    rw [abs_nonpos_iff] at this; linarith
  simp only [Quat.rotationBetweenAxis, tryFromValue_eq]
  by_cases h : (u.value.cross v.value).normSquared > t * t
  · simp only [if_pos h, ge_iff_le, ieee_le_iff hf n1, ieee_le_iff finite_one hf, v1, val_one]
  · simp only [if_neg h, ieee_lt_iff hf finite_zero, val_zero]

/-- **The rotation between two directions.**  The arguments are within `d` of the exact directions `a` and `b`, the rounding
unit of the format and the errors of the library are at most `d`, and the sine of the angle is at least `10 √d` and larger
than the threshold.  The result is within `55 d / sin` of the quaternion of the shortest rotation from `a` to `b`. -/
theorem C93_between {t : Ieee φ} (ht : t.Finite) (ht1 : φ.u ≤ t.val) (hs : 100 * d ≤ Real.sin (angle a b) ^ 2)
    (hts : t.val ≤ 9 / 10 * Real.sin (angle a b)) :
    ∃ q h, Quat.rotationBetweenAxis t u v = some q ∧ Shortest h a b ∧ QuatWithin q h (55 * d / Real.sin (angle a b)) := by
  have hw0 : 0 ≤ unit φ := unit_nonneg
  have hd0 : 0 ≤ d := hw0.trans hwd
  have hu0 := φ.u_nonneg
  have hs1 := Real.sin_le_one (angle a b)
  rw [← cr_norm ha hb] at *
  have hs0 : 0 < ‖cr a b‖ := by
    obtain ⟨lo, hs⟩ := hR
    have huw : φ.u ≤ 1 / 1000000 := by have := hφ.unit_le; have := φ.tiny_nonneg; unfold Spec.unit at *; linarith
    have := (hs (φ.u / 2) le_rfl (by linarith)).pos
    linarith
  have hsd : 13 * d ≤ 1 / 100 * ‖cr a b‖ := by
    obtain ⟨s, hsd⟩ : ∃ s, s = ‖cr a b‖ := ⟨_, rfl⟩
    rw [← hsd] at hs hs0 ⊢
    rcases le_total (1 / 100) s with h | h
    · linarith
    · nlinarith
  obtain ⟨hlen, hlen2⟩ := cross_length hφ hd hwd ha hb hu hv
  have hcr := cross3 hφ hd hwd ha hb hu hv
  have hdot := dot3 hφ hd hwd ha hb hu hv
  have hl := (abs_le.mp hlen).1
  have h1 := (threshold hφ hR (fun i => (hcr i).1) (by linarith) ht ht1 (by linarith)).2.2.2 (by linarith) (by linarith)
  have hc2 := cr_sq ha hb
  have hcd := abs_le.mp hdot.2
  have hin : |inner ℝ a b| ≤ 1 - 50 * d := by
    refine abs_le_of_sq_le_sq ?_ (by linarith)
    nlinarith
  have hin' := abs_le.mp hin
  have hdpos : 0 < d := by
    by_contra hc
    have : d = 0 := by linarith
    subst this
    linarith [φ.tiny_nonneg, show φ.u ≤ 0 by unfold Spec.unit at hwd; linarith [φ.tiny_nonneg], φ.u_nonneg,
      (hR.choose_spec (φ.u / 2) le_rfl (by linarith [show φ.u ≤ 0 by unfold Spec.unit at hwd; linarith [φ.tiny_nonneg]])).pos]
  obtain ⟨hκ0, hσ0, hκ2, hσ2, hsks⟩ := half_angle ha hb
  have hκp : 0 < Real.cos (angle a b / 2) := by
    rcases hκ0.lt_or_eq with h | h
    · exact h
    · rw [← h] at hsks; linarith
  obtain ⟨h, hh, r0, r1, r2, r3⟩ := shortest_exists ha hb hκp
  refine ⟨_, h, ?_, hh, arc_large hφ hR hd hwd he hed ha hb hu hv hs ?_ r0 r1 r2 r3⟩
  · rw [between_eq hφ hd hwd ha hb hu hv, if_pos h1, if_neg (by linarith), if_neg (by linarith)]
  · rw [abs_le]; constructor <;> linarith

set_option maxHeartbeats 1000000 in
/-- **Directions at most a right angle apart** have a rotation, whether or not they are parallel: the error is at most
`18 √d` plus the threshold. -/
theorem C93_between_acute {t : Ieee φ} (ht : t.Finite) (ht1 : φ.u ≤ t.val) (ht2 : t.val ≤ 1 / 2) (hc0 : angle a b ≤ Real.pi / 2) :
    ∃ q h, Quat.rotationBetweenAxis t u v = some q ∧ Shortest h a b ∧ QuatWithin q h (18 * Real.sqrt d + t.val) := by
  have hw0 : 0 ≤ unit φ := unit_nonneg
  have hd0 : 0 ≤ d := hw0.trans hwd
  have hu0 := φ.u_nonneg
  replace hc0 : 0 ≤ inner ℝ a b := by
    have : 0 ≤ Real.cos (angle a b) := Real.cos_nonneg_of_neg_pi_div_two_le_of_le (by linarith [angle_nonneg a b, Real.pi_pos]) hc0
    rw [cos_angle, ha, hb] at this
    simpa using this
  obtain ⟨hlen, hlen2⟩ := cross_length hφ hd hwd ha hb hu hv
  have hcr := cross3 hφ hd hwd ha hb hu hv
  have hdot := dot3 hφ hd hwd ha hb hu hv
  have hl := (abs_le.mp hlen).1
  have hcd := abs_le.mp hdot.2
  have hth := threshold hφ hR (fun i => (hcr i).1) (by linarith) ht ht1 (by linarith)
  obtain ⟨hκ0, hσ0, hκ2, hσ2, hsks⟩ := half_angle ha hb
  have hκlo : 7 / 10 ≤ Real.cos (angle a b / 2) := le_of_sq_le_sq (by rw [hκ2]; linarith) hκ0
  have hκp : 0 < Real.cos (angle a b / 2) := by linarith
  obtain ⟨h, hh, r0, r1, r2, r3⟩ := shortest_exists ha hb hκp
  obtain ⟨w, hw⟩ : ∃ w, w = Real.sqrt d := ⟨_, rfl⟩
  have hw1 : 0 ≤ w := by rw [hw]; exact Real.sqrt_nonneg _
  have hw2 : w ^ 2 = d := by rw [hw]; exact Real.sq_sqrt hd0
  have hw3 : w ≤ 1 / 1000 := le_of_sq_le_sq (by rw [hw2]; linarith) (by norm_num)
  have hdw : d ≤ w / 1000 := by rw [← hw2, sq]; linarith [mul_le_mul_of_nonneg_left hw3 hw1]
  have mono : ∀ {q : Quat (Ieee φ)} {x y : ℝ}, QuatWithin q h x → x ≤ y → QuatWithin q h y := fun h1 h2 =>
    quatWithin_iff.mpr fun i => (quatWithin_iff.mp h1 i).mono h2
  rw [between_eq hφ hd hwd ha hb hu hv]
  by_cases h1 : (u.value.cross v.value).normSquared > t * t
  · rw [if_pos h1, if_neg (by linarith)]
    by_cases h2 : 1 ≤ (u.value.dot v.value).val
    · rw [if_pos h2]
      refine ⟨_, h, rfl, hh, ?_⟩
      rw [← hw]
      refine identity_near ha hb (by linarith) (by linarith) ?_ hκp r0 r1 r2 r3
      refine le_of_sq_le_sq ?_ (by linarith)
      rw [hσ2]
      have : d ≤ (18 * w + t.val) ^ 2 / 324 := by
        rw [← hw2]; have := mul_nonneg hw1 (show 0 ≤ t.val by linarith); nlinarith [sq_nonneg t.val]
      linarith
    · rw [if_neg h2]
      refine ⟨_, h, rfl, hh, ?_⟩
      have h3 : |(u.value.dot v.value).val| ≤ 1 := by rw [abs_le]; constructor <;> linarith
      rcases le_total (100 * d) (‖cr a b‖ ^ 2) with h4 | h4
      · refine mono (arc_large hφ hR hd hwd he hed ha hb hu hv h4 h3 r0 r1 r2 r3) ?_
        rw [← hw]
        have hs10 : 10 * w ≤ ‖cr a b‖ := le_of_sq_le_sq (by rw [mul_pow, hw2]; linarith) (_root_.norm_nonneg _)
        rcases hw1.lt_or_eq with h5 | h5
        · have hs0 : 0 < ‖cr a b‖ := by linarith
          rw [div_le_iff₀ hs0, ← hw2]
          have := mul_le_mul_of_nonneg_left hs10 (show 0 ≤ 18 * w + t.val by linarith)
          have := mul_nonneg hw1 (show 0 ≤ t.val by linarith)
          nlinarith
        · rw [← hw2, ← h5]; norm_num; linarith
      · exact mono (arc_small hφ hR hd hwd he hed ha hb hu hv h4 hc0 (hth.1 h1) h3 r0 r1 r2 r3) (by linarith)
  · have h2 := hth.2.2.1 h1
    have hs : ‖cr a b‖ ≤ 6 / 10 := by linarith
    have hc2 := cr_sq ha hb
    have hin : 1 / 2 ≤ inner ℝ a b := by
      refine le_of_sq_le_sq ?_ hc0
      linarith [mul_le_mul hs hs (_root_.norm_nonneg (cr a b)) (by norm_num), sq ‖cr a b‖]
    rw [if_neg h1, if_neg (by linarith)]
    refine ⟨_, h, rfl, hh, ?_⟩
    rw [← hw]
    refine identity_near ha hb (by linarith) (by linarith) ?_ hκp r0 r1 r2 r3
    have := mul_le_mul_of_nonneg_right hκlo hσ0
    linarith

omit he hed in
/-- **Opposite directions** have none: the sine of the angle is below the threshold, and the angle is obtuse. -/
theorem C93_between_opposite {t : Ieee φ} (ht : t.Finite) (ht1 : φ.u ≤ t.val) (ht2 : t.val ≤ 1 / 2) (hc0 : Real.pi / 2 ≤ angle a b)
    (hs : Real.sin (angle a b) + 13 * d ≤ 99 / 100 * t.val) : Quat.rotationBetweenAxis t u v = none := by
  have hw0 : 0 ≤ unit φ := unit_nonneg
  have hd0 : 0 ≤ d := hw0.trans hwd
  rw [← cr_norm ha hb] at hs
  replace hc0 : 0 ≤ -inner ℝ a b := by
    have : Real.cos (angle a b) ≤ 0 := Real.cos_nonpos_of_pi_div_two_le_of_le hc0 (by linarith [angle_le_pi a b, Real.pi_pos])
    rw [cos_angle, ha, hb] at this
    simpa using this
  obtain ⟨hlen, hlen2⟩ := cross_length hφ hd hwd ha hb hu hv
  have hcr := cross3 hφ hd hwd ha hb hu hv
  have hdot := dot3 hφ hd hwd ha hb hu hv
  have hl := (abs_le.mp hlen).2
  have hcd := abs_le.mp hdot.2
  have hth := threshold hφ hR (fun i => (hcr i).1) (by linarith) ht ht1 (by linarith)
  have hc2 := cr_sq ha hb
  have hin : 1 / 2 ≤ -inner ℝ a b := by
    refine le_of_sq_le_sq ?_ hc0
    have h6 : ‖cr a b‖ ≤ 6 / 10 := by linarith
    linarith [mul_le_mul h6 h6 (_root_.norm_nonneg (cr a b)) (by norm_num), sq ‖cr a b‖, neg_sq (inner ℝ a b)]
  rw [between_eq hφ hd hwd ha hb hu hv, if_neg (hth.2.1 (by linarith)), if_pos (by linarith)]

end

end Cgl
