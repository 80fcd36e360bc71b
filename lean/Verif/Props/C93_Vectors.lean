import Verif.Props.C93_RotationBetween
import Verif.Props.C86_Histories
import Verif.Props.C92_Slerp

/-! # C93 - the rotation between two vectors, which need not be normalized -/

namespace Cgl
open Ieee FloatFns Quat Spec InnerProductGeometry

variable {φ : Format} [Lib φ] {lo lo' : ℝ} {n : ℕ}

/-- a vector of a safe length has a direction, and the computed direction is close to it -/
theorem unit_of_safe (hn : n ≤ 3) {x : Vec (Ieee φ) n} (hx : ∀ i, (x.data i).Finite) (hs : Safe φ n lo (Spec.length x)) :
    Unit'.tryFromValue x 0 = some ⟨x.normalize⟩ ∧ VecWithin x.normalize (dir (exactVec x)) (9 * unit φ) ∧ ‖dir (exactVec x)‖ = 1 := by
  have hp : 0 < ‖exactVec x‖ := by rw [← length_exactVec]; exact hs.pos
  have hdi : ∀ i, dir (exactVec x) i = exactVec x i / ‖exactVec x‖ := fun i => by
    rw [dir, PiLp.smul_apply, smul_eq_mul, div_eq_inv_mul]
  refine ⟨?_, fun i => ?_, ?_⟩
  · rw [tryFromValue_eq, if_pos]
    obtain ⟨hf, he⟩ := safe_norm_squared x hx hs
    have h0 : ((0 : Ieee φ) * 0).Finite := finite_mul_of finite_zero finite_zero (by
      rw [val_zero, mul_zero, φ.zero, abs_zero]; linarith [hs.over, sq_nonneg (Spec.length x)])
    rw [gt_iff_lt, ieee_lt_iff h0 hf, val_mul h0, val_zero, mul_zero, φ.zero]
    have h1 := (abs_le.mp he).1
    have h2 := hs.dim
    have hu := φ.u_nonneg
    have hn' : (n : ℝ) ≤ 3 := by exact_mod_cast hn
    have h3 : ((n : ℝ) + 1) * φ.u ≤ 1 / 2 := by
      have h6 : (n : ℝ) + 1 ≤ 2 * ((n : ℝ) + 4) ^ 2 := by nlinarith [(Nat.cast_nonneg n : (0 : ℝ) ≤ n)]
      have := mul_le_mul_of_nonneg_right h6 hu
      linarith
    have h4 : 0 < Spec.length x ^ 2 := pow_pos hs.pos 2
    have h5 := mul_le_mul_of_nonneg_right h3 h4.le
    norm_num at h1
    linarith
  · obtain ⟨-, -, hc, -⟩ := safe x hx hs
    obtain ⟨hf, he⟩ := hc i
    refine ⟨hf, ?_⟩
    rw [length_exactVec] at he
    have h3 : |exactVec x i / ‖exactVec x‖| ≤ 1 := by
      have := PiLp.norm_apply_le (exactVec x) i
      rw [abs_div, abs_of_pos hp, div_le_one hp]
      rwa [Real.norm_eq_abs] at this
    rw [hdi]
    change |(x.normalize.data i).val - (x.data i).val / ‖exactVec x‖| ≤ _
    refine he.trans ?_
    change _ * |exactVec x i / ‖exactVec x‖| + _ ≤ _
    have hu := φ.u_nonneg
    have ht := φ.tiny_nonneg
    have hn' : (n : ℝ) ≤ 3 := by exact_mod_cast hn
    have := mul_le_mul_of_nonneg_left h3 (show 0 ≤ ((n + 3 : ℕ) + 3 : ℝ) * φ.u by positivity)
    have h4 := mul_le_mul_of_nonneg_right hn' hu
    push_cast at this ⊢
    unfold Spec.unit
    linarith
  · rw [dir, norm_smul, norm_inv, norm_norm, inv_mul_cancel₀ hp.ne']

theorem angle_dir {x y : EuclideanSpace ℝ (Fin 3)} (hx : 0 < ‖x‖) (hy : 0 < ‖y‖) : angle (dir x) (dir y) = angle x y := by
  rw [dir, dir, angle_smul_left_of_pos _ _ (inv_pos.mpr hx), angle_smul_right_of_pos _ _ (inv_pos.mpr hy)]

section
variable {d e : ℝ} (hφ : Fine φ) (hR : Roomy φ) (hd : d ≤ 1 / 1000000) (hwd : 9 * unit φ ≤ d) (he : CosineWithin φ e) (hed : e ≤ d)
  {v w : Vec (Ieee φ) 3} (hv : ∀ i, (v.data i).Finite) (hw : ∀ i, (w.data i).Finite)
  (sv : Safe φ 3 lo (Spec.length v)) (sw : Safe φ 3 lo' (Spec.length w))
include hφ hR hd hwd he hed hv hw sv sw

/-- `Quaternion::rotation_between` for vectors of safe lengths -/
theorem C93_vectors {t : Ieee φ} (ht : t.Finite) (ht1 : φ.u ≤ t.val) (ht2 : t.val ≤ 1 / 2) :
    (100 * d ≤ Real.sin (angle (exactVec v) (exactVec w)) ^ 2 → t.val ≤ 9 / 10 * Real.sin (angle (exactVec v) (exactVec w)) →
      ∃ q h, Quat.rotationBetween t v w = some q ∧ Shortest h (dir (exactVec v)) (dir (exactVec w)) ∧
        QuatWithin q h (55 * d / Real.sin (angle (exactVec v) (exactVec w)))) ∧
    (angle (exactVec v) (exactVec w) ≤ Real.pi / 2 →
      ∃ q h, Quat.rotationBetween t v w = some q ∧ Shortest h (dir (exactVec v)) (dir (exactVec w)) ∧
        QuatWithin q h (18 * Real.sqrt d + t.val)) := by
  obtain ⟨a1, a2, a3⟩ := unit_of_safe le_rfl hv sv
  obtain ⟨b1, b2, b3⟩ := unit_of_safe le_rfl hw sw
  have ea : angle (dir (exactVec v)) (dir (exactVec w)) = angle (exactVec v) (exactVec w) :=
    angle_dir (by rw [← length_exactVec]; exact sv.pos) (by rw [← length_exactVec]; exact sw.pos)
  have hw0 : 0 ≤ unit φ := unit_nonneg
  have hwd' : unit φ ≤ d := by linarith
  have a2' : VecWithin v.normalize (dir (exactVec v)) d := fun i => ⟨(a2 i).1, (a2 i).2.trans hwd⟩
  have b2' : VecWithin w.normalize (dir (exactVec w)) d := fun i => ⟨(b2 i).1, (b2 i).2.trans hwd⟩
  have hq : Quat.rotationBetween t v w = Quat.rotationBetweenAxis t ⟨v.normalize⟩ ⟨w.normalize⟩ := by
    simp only [Quat.rotationBetween, a1, b1]
  rw [hq, ← ea]
  exact ⟨fun h1 h2 => C93_between hφ hR hd hwd' he hed a3 b3 (u := ⟨v.normalize⟩) (v := ⟨w.normalize⟩) a2' b2' ht ht1 h1 h2,
    fun h1 => C93_between_acute hφ hR hd hwd' he hed a3 b3 (u := ⟨v.normalize⟩) (v := ⟨w.normalize⟩) a2' b2' ht ht1 ht2 h1⟩

end

/-- In `f64`, with a library whose sines, cosines and inverse cosines are right up to `2 ^ -49`, for vectors of lengths
between `2 ^ -499` and `2 ^ 510` and the threshold of the code, `2 ^ -52`:

* if the sine of the angle is at least `2 ^ -21` there is a result within `2 ^ -43 / sin` of the shortest rotation;
* if the angle is at most a right angle there is a result within `2 ^ -20` of the shortest rotation. -/
theorem C93_f64 [Lib f64] {e : ℝ} (he : CosineWithin f64 e) (hed : e ≤ 2 ^ (-49 : ℤ)) {v w : Vec (Ieee f64) 3}
    (hv : ∀ i, (v.data i).Finite) (hw : ∀ i, (w.data i).Finite)
    (hv1 : (2 : ℝ) ^ (-499 : ℤ) ≤ Spec.length v) (hv2 : Spec.length v ≤ 2 ^ (510 : ℤ))
    (hw1 : (2 : ℝ) ^ (-499 : ℤ) ≤ Spec.length w) (hw2 : Spec.length w ≤ 2 ^ (510 : ℤ))
    {t : Ieee f64} (ht : t.Finite) (ht1 : t.val = 2 ^ (-52 : ℤ)) :
    ((2 : ℝ) ^ (-21 : ℤ) ≤ Real.sin (angle (exactVec v) (exactVec w)) →
      ∃ q h, Quat.rotationBetween t v w = some q ∧ Shortest h (dir (exactVec v)) (dir (exactVec w)) ∧
        QuatWithin q h (2 ^ (-43 : ℤ) / Real.sin (angle (exactVec v) (exactVec w)))) ∧
    (angle (exactVec v) (exactVec w) ≤ Real.pi / 2 →
      ∃ q h, Quat.rotationBetween t v w = some q ∧ Shortest h (dir (exactVec v)) (dir (exactVec w)) ∧
        QuatWithin q h (2 ^ (-20 : ℤ))) := by
  have hu : f64.u = 2 ^ (-53 : ℤ) := rfl
  have htn : f64.tiny = 2 ^ (-1075 : ℤ) := rfl
  have h3 : (2 : ℝ) ^ (-1075 : ℤ) ≤ 2 ^ (-60 : ℤ) := zpow_le_zpow_right₀ one_le_two (by norm_num)
  have hwd : 9 * unit f64 ≤ 2 ^ (-49 : ℤ) := by
    rw [Spec.unit, hu, htn]
    norm_num at h3 ⊢
    linarith
  have key := C93_vectors fine64 roomy64 (d := 2 ^ (-49 : ℤ)) (by norm_num) hwd he hed hv hw (safe64 (by norm_num) hv1 hv2)
    (safe64 (by norm_num) hw1 hw2) ht (by rw [ht1, hu]; norm_num) (by rw [ht1]; norm_num)
  have mono : ∀ {q : Quat (Ieee f64)} {h : Quaternion ℝ} {x y : ℝ}, QuatWithin q h x → x ≤ y → QuatWithin q h y := fun h1 h2 =>
    quatWithin_iff.mpr fun i => (quatWithin_iff.mp h1 i).mono h2
  refine ⟨fun hs => ?_, fun hc => ?_⟩
  · have hs0 : 0 < Real.sin (angle (exactVec v) (exactVec w)) := lt_of_lt_of_le (by positivity) hs
    obtain ⟨q, h, h1, h2, h4⟩ := key.1 (by
        refine le_trans ?_ (pow_le_pow_left₀ (by positivity) hs 2)
        norm_num) (by
        rw [ht1]
        norm_num at hs ⊢
        linarith)
    refine ⟨q, h, h1, h2, mono h4 ?_⟩
    rw [div_le_div_iff_of_pos_right hs0]
    norm_num
  · obtain ⟨q, h, h1, h2, h4⟩ := key.2 hc
    refine ⟨q, h, h1, h2, mono h4 ?_⟩
    have h5 : Real.sqrt (2 ^ (-49 : ℤ)) ≤ 3 / 2 ^ (26 : ℤ) := by
      rw [Real.sqrt_le_iff]
      constructor <;> norm_num
    rw [ht1]
    norm_num at h5 ⊢
    linarith

/-- In `f32`, with a library whose sines, cosines and inverse cosines are right up to `2 ^ -20`, for vectors of lengths
between `2 ^ -56` and `2 ^ 62` and the threshold of the code, `2 ^ -23`. -/
theorem C93_f32 [Lib f32] {e : ℝ} (he : CosineWithin f32 e) (hed : e ≤ 2 ^ (-20 : ℤ)) {v w : Vec (Ieee f32) 3}
    (hv : ∀ i, (v.data i).Finite) (hw : ∀ i, (w.data i).Finite)
    (hv1 : (2 : ℝ) ^ (-56 : ℤ) ≤ Spec.length v) (hv2 : Spec.length v ≤ 2 ^ (62 : ℤ))
    (hw1 : (2 : ℝ) ^ (-56 : ℤ) ≤ Spec.length w) (hw2 : Spec.length w ≤ 2 ^ (62 : ℤ))
    {t : Ieee f32} (ht : t.Finite) (ht1 : t.val = 2 ^ (-23 : ℤ)) :
    (1 / 100 ≤ Real.sin (angle (exactVec v) (exactVec w)) →
      ∃ q h, Quat.rotationBetween t v w = some q ∧ Shortest h (dir (exactVec v)) (dir (exactVec w)) ∧
        QuatWithin q h (2 ^ (-14 : ℤ) / Real.sin (angle (exactVec v) (exactVec w)))) ∧
    (angle (exactVec v) (exactVec w) ≤ Real.pi / 2 →
      ∃ q h, Quat.rotationBetween t v w = some q ∧ Shortest h (dir (exactVec v)) (dir (exactVec w)) ∧
        QuatWithin q h (1 / 50)) := by
  have hu : f32.u = 2 ^ (-24 : ℤ) := rfl
  have htn : f32.tiny = 2 ^ (-150 : ℤ) := rfl
  have hwd : 9 * unit f32 ≤ 2 ^ (-20 : ℤ) := by
    rw [Spec.unit, hu, htn]
    norm_num
  have key := C93_vectors fine32 roomy32 (d := 2 ^ (-20 : ℤ)) (by norm_num) hwd he hed hv hw (safe32 (by norm_num) hv1 hv2)
    (safe32 (by norm_num) hw1 hw2) ht (by rw [ht1, hu]; norm_num) (by rw [ht1]; norm_num)
  have mono : ∀ {q : Quat (Ieee f32)} {h : Quaternion ℝ} {x y : ℝ}, QuatWithin q h x → x ≤ y → QuatWithin q h y := fun h1 h2 =>
    quatWithin_iff.mpr fun i => (quatWithin_iff.mp h1 i).mono h2
  refine ⟨fun hs => ?_, fun hc => ?_⟩
  · have hs0 : 0 < Real.sin (angle (exactVec v) (exactVec w)) := lt_of_lt_of_le (by positivity) hs
    obtain ⟨q, h, h1, h2, h4⟩ := key.1 (by
        refine le_trans ?_ (pow_le_pow_left₀ (by positivity) hs 2)
        norm_num) (by
        rw [ht1]
        norm_num at hs ⊢
        linarith)
    refine ⟨q, h, h1, h2, mono h4 ?_⟩
    rw [div_le_div_iff_of_pos_right hs0]
    norm_num
  · obtain ⟨q, h, h1, h2, h4⟩ := key.2 hc
    refine ⟨q, h, h1, h2, mono h4 ?_⟩
    have h5 : Real.sqrt (2 ^ (-20 : ℤ)) ≤ 1 / 2 ^ (10 : ℤ) := by
      rw [Real.sqrt_le_iff]
      constructor <;> norm_num
    rw [ht1]
    norm_num at h5 ⊢
    linarith

/-! ### parallel vectors -/

theorem neg_mul_neg_ieee (x : Ieee φ) : -x * -x = x * x := by
  cases x with
  | nan => rfl
  | inf s => cases s <;> rfl
  | fin s m h =>
    change Ieee.round _ (signed (!s) m * signed (!s) m) = Ieee.round _ (signed s m * signed s m)
    cases s <;> simp [signed]

theorem normSquared_neg_ieee (v : Vec (Ieee φ) 3) : (-v).normSquared = v.normSquared := by
  change 0 + -v.data 0 * -v.data 0 + -v.data 1 * -v.data 1 + -v.data 2 * -v.data 2 = 0 + v.data 0 * v.data 0 + v.data 1 * v.data 1 + v.data 2 * v.data 2
  simp only [neg_mul_neg_ieee]

theorem normalize_neg_val (v : Vec (Ieee φ) 3) (hf : ∀ i, (v.normalize.data i).Finite) (hf' : ∀ i, ((-v).normalize.data i).Finite)
    (i : Fin 3) : ((-v).normalize.data i).val = -(v.normalize.data i).val := by
  have e : (-v).normalize.data i = -v.data i * (1 / v.norm) := by
    have h : (-v).norm = v.norm := by change fsqrt (-v).normSquared = fsqrt v.normSquared; rw [normSquared_neg_ieee]
    rw [Vec.normalize, h, Vec.mulS_data, Vec.neg_data]
  have h1 := hf' i
  have h2 := hf i
  rw [e] at h1 ⊢
  rw [Vec.normalize, Vec.mulS_data] at h2 ⊢
  rw [val_mul h1, val_mul h2, val_neg, neg_mul, φ.neg]

/-- vectors whose computed directions are equal or opposite have a vector product of zero, whatever the rounding errors -/
theorem cross_parallel (hφ : Fine φ) {u v : Unit' (Vec (Ieee φ) 3)} {t : Ieee φ} (ht : t.Finite) (ht2 : |t.val| ≤ 1) {k : ℝ}
    (hu : ∀ i, (u.value.data i).Finite ∧ |(u.value.data i).val| ≤ 2) (hv : ∀ i, (v.value.data i).Finite ∧ |(v.value.data i).val| ≤ 2)
    (h : ∀ i, (v.value.data i).val = k * (u.value.data i).val) :
    Quat.rotationBetweenAxis t u v = if u.value.dot v.value < 0 then none else some identity := by
  have p : ∀ i j, (u.value.data i * v.value.data j).Finite ∧ |(u.value.data i * v.value.data j).val| ≤ 5 := fun i j => by
    have := (Nr.exact (hu i).1).mul hφ (Nr.exact (hv j).1) (hu i).2 (hv j).2 (M := 4) (by norm_num) (by norm_num) (by norm_num)
    refine ⟨this.1, ?_⟩
    have h2 : |(u.value.data i).val * (v.value.data j).val| ≤ 4 := by
      rw [abs_mul]
      exact (mul_le_mul (hu i).2 (hv j).2 (abs_nonneg _) (by norm_num)).trans (by norm_num)
    have := this.val_le h2
    have := hφ.unit_le
    linarith
  have z : ∀ i j, Nr (u.value.data i * v.value.data j - u.value.data j * v.value.data i) 0 0 := fun i j => by
    have e : (u.value.data i * v.value.data j).val = (u.value.data j * v.value.data i).val := by
      rw [val_mul (p i j).1, val_mul (p j i).1, h, h]; congr 1; ring
    have := (Nr.exact (p i j).1).sub hφ (Nr.exact (p j i).1) (M := 1) (by rw [e]; simp) le_rfl (by norm_num)
    refine ⟨this.1, ?_⟩
    rw [val_sub this.1, e, sub_self, φ.zero]; simp
  have hc : ∀ i, Nr ((u.value.cross v.value).data i) 0 0 := fun i => by
    fin_cases i
    · exact z 1 2
    · exact z 2 0
    · exact z 0 1
  have sq : ∀ i, Nr ((u.value.cross v.value).data i * (u.value.cross v.value).data i) 0 0 := fun i => by
    have := (hc i).mul hφ (hc i) (A := 0) (B := 0) (M := 1) (by simp) (by simp) (by simp) le_rfl (by norm_num)
    have e : ((u.value.cross v.value).data i).val = 0 := by have := (hc i).2; rw [abs_nonpos_iff] at this; linarith
    refine ⟨this.1, ?_⟩
    rw [val_mul this.1, e, mul_zero, φ.zero]; simp
  have add : ∀ {x y : Ieee φ}, Nr x 0 0 → Nr y 0 0 → Nr (x + y) 0 0 := fun {x y} hx hy => by
    have := hx.add hφ hy (M := 1) (by simp) le_rfl (by norm_num)
    have e1 : x.val = 0 := by have := hx.2; rw [abs_nonpos_iff] at this; linarith
    have e2 : y.val = 0 := by have := hy.2; rw [abs_nonpos_iff] at this; linarith
    refine ⟨this.1, ?_⟩
    rw [val_add this.1, e1, e2, add_zero, φ.zero]; simp
  have hN : Nr (u.value.cross v.value).normSquared 0 0 := add (add (add Nr.zero (sq 0)) (sq 1)) (sq 2)
  have hT := (Nr.exact ht).mul hφ (Nr.exact ht) ht2 ht2 (M := 1) (by norm_num) le_rfl (by norm_num)
  have hn : ¬ (u.value.cross v.value).normSquared > t * t := by
    rw [gt_iff_lt, ieee_lt_iff hT.1 hN.1, not_lt, val_mul hT.1]
    have : (u.value.cross v.value).normSquared.val = 0 := by have := hN.2; rw [abs_nonpos_iff] at this; linarith
    rw [this]
    exact φ.nonneg (mul_self_nonneg _)
  simp only [Quat.rotationBetweenAxis, tryFromValue_eq, if_neg hn]

/-- **Exactly parallel vectors.**  From a vector to itself the result is exactly the identity, and from a vector to its
negation there is none, for every vector of a safe length and in spite of the rounding errors of the normalization. -/
theorem C93_parallel (hφ : Fine φ) {v : Vec (Ieee φ) 3} (hv : ∀ i, (v.data i).Finite) (sv : Safe φ 3 lo (Spec.length v)) {t : Ieee φ}
    (ht : t.Finite) (ht2 : |t.val| ≤ 1) (hw : 9 * unit φ ≤ 1 / 1000000) :
    Quat.rotationBetween t v v = some identity ∧ Quat.rotationBetween t v (-v) = none := by
  have hw0 : 0 ≤ unit φ := unit_nonneg
  obtain ⟨a1, a2, a3⟩ := unit_of_safe le_rfl hv sv
  have hvn : ∀ i, ((-v).data i).Finite := fun i => by rw [Vec.neg_data]; exact (Nr.exact (hv i)).neg.1
  have hlen : Spec.length (-v) = Spec.length v := by
    unfold Spec.length
    congr 1
    refine Finset.sum_congr rfl fun i _ => ?_
    rw [Vec.neg_data, val_neg, neg_sq]
  obtain ⟨b1, b2, b3⟩ := unit_of_safe le_rfl hvn (hlen ▸ sv)
  have ed : dir (exactVec (-v)) = -dir (exactVec v) := by
    have : exactVec (-v) = -exactVec v := by
      ext i
      change ((-v).data i).val = -(v.data i).val
      rw [Vec.neg_data, val_neg]
    rw [this, dir, dir, norm_neg, smul_neg]
  have bd : ∀ {x : Vec (Ieee φ) 3} {a : EuclideanSpace ℝ (Fin 3)}, ‖a‖ = 1 → VecWithin x a (9 * unit φ) →
      ∀ i, (x.data i).Finite ∧ |(x.data i).val| ≤ 2 := fun ha hx i => by
    refine ⟨(hx i).1, ?_⟩
    have := Nr.val_le (hx i) (unit_comp ha i)
    linarith
  have ww : unit φ ≤ 9 * unit φ := by linarith
  constructor
  · have := cross_parallel hφ (u := ⟨v.normalize⟩) (v := ⟨v.normalize⟩) ht ht2 (bd a3 a2) (bd a3 a2) (k := 1) (fun i => by ring)
    simp only [Quat.rotationBetween, a1, this]
    have hd := dot3 hφ hw ww a3 a3 a2 a2
    rw [if_neg]
    rw [ieee_lt_iff hd.1 finite_zero, val_zero, not_lt]
    have h1 := (abs_le.mp hd.2).1
    rw [real_inner_self_eq_norm_sq, a3] at h1
    linarith
  · have := cross_parallel hφ (u := ⟨v.normalize⟩) (v := ⟨(-v).normalize⟩) ht ht2 (bd a3 a2) (bd b3 b2) (k := -1) (fun i => by
      change ((-v).normalize.data i).val = _
      rw [normalize_neg_val v (fun i => (a2 i).1) (fun i => (b2 i).1)]
      ring)
    simp only [Quat.rotationBetween, a1, b1, this]
    have hd := dot3 hφ hw ww a3 b3 a2 b2
    rw [if_pos]
    rw [ieee_lt_iff hd.1 finite_zero, val_zero]
    have h1 := (abs_le.mp hd.2).2
    rw [ed, inner_neg_right, real_inner_self_eq_norm_sq, a3] at h1
    linarith

/-! ### the matrices -/

/-- the matrix of the shortest rotation takes the first direction to the second -/
theorem shortest_matrix {h : Quaternion ℝ} {a b : EuclideanSpace ℝ (Fin 3)} (hh : Shortest h a b) :
    ∃ A : Matrix (Fin 3) (Fin 3) ℝ, Describes h A ∧ A.mulVec a = b := by
  obtain ⟨A, hA⟩ := describes_exists hh.unit
  refine ⟨A, hA, ?_⟩
  have := hA.2 a
  rw [hh.carries] at this
  ext i
  have e1 := congrArg (fun q : Quaternion ℝ => q.imI) this
  have e2 := congrArg (fun q : Quaternion ℝ => q.imJ) this
  have e3 := congrArg (fun q : Quaternion ℝ => q.imK) this
  fin_cases i
  · exact e1.symm
  · exact e2.symm
  · exact e3.symm

/-- `Rotation3::rotation_between`: the matrix is within `2 ^ -39 / sin` of the matrix of the shortest rotation, which takes the
direction of `v` to that of `w`. -/
theorem C93_matrix_f64 [Lib f64] {e : ℝ} (he : CosineWithin f64 e) (hed : e ≤ 2 ^ (-49 : ℤ)) {v w : Vec (Ieee f64) 3}
    (hv : ∀ i, (v.data i).Finite) (hw : ∀ i, (w.data i).Finite)
    (hv1 : (2 : ℝ) ^ (-499 : ℤ) ≤ Spec.length v) (hv2 : Spec.length v ≤ 2 ^ (510 : ℤ))
    (hw1 : (2 : ℝ) ^ (-499 : ℤ) ≤ Spec.length w) (hw2 : Spec.length w ≤ 2 ^ (510 : ℤ))
    {t : Ieee f64} (ht : t.Finite) (ht1 : t.val = 2 ^ (-52 : ℤ))
    (hs : (2 : ℝ) ^ (-21 : ℤ) ≤ Real.sin (angle (exactVec v) (exactVec w))) :
    ∃ R h A, Rotation.rotationBetween t v w = some R ∧ Shortest h (dir (exactVec v)) (dir (exactVec w)) ∧ Describes h A ∧
      A.mulVec (dir (exactVec v)).ofLp = (dir (exactVec w)).ofLp ∧
      MatWithin R.matrix A (2 ^ (-39 : ℤ) / Real.sin (angle (exactVec v) (exactVec w))) := by
  obtain ⟨q, h, h1, h2, h3⟩ := (C93_f64 he hed hv hw hv1 hv2 hw1 hw2 ht ht1).1 hs
  obtain ⟨A, hA, hA'⟩ := shortest_matrix h2
  have hs0 : 0 < Real.sin (angle (exactVec v) (exactVec w)) := lt_of_lt_of_le (by positivity) hs
  have hs1 := Real.sin_le_one (angle (exactVec v) (exactVec w))
  refine ⟨⟨q.toMatrix⟩, h, A, by simp only [Rotation.rotationBetween, h1]; rfl, h2, hA, hA', ?_⟩
  have hδ : (2 : ℝ) ^ (-43 : ℤ) / Real.sin (angle (exactVec v) (exactVec w)) ≤ 1 / 300 := by
    rw [div_le_iff₀ hs0]
    norm_num at hs ⊢
    linarith
  have key := C91_to_matrix_near fine64 hA h3 hδ
  intro c r
  refine ⟨(key c r).1, (key c r).2.trans ?_⟩
  have hu : f64.u = 2 ^ (-53 : ℤ) := rfl
  have htn : f64.tiny = 2 ^ (-1075 : ℤ) := rfl
  have h3 : (2 : ℝ) ^ (-1075 : ℤ) ≤ 2 ^ (-60 : ℤ) := zpow_le_zpow_right₀ one_le_two (by norm_num)
  have hwd : 9 * unit f64 ≤ 2 ^ (-49 : ℤ) := by
    rw [Spec.unit, hu, htn]
    norm_num at h3 ⊢
    linarith
  have h5 : (2 : ℝ) ^ (-43 : ℤ) ≤ 2 ^ (-43 : ℤ) / Real.sin (angle (exactVec v) (exactVec w)) :=
    le_div_self (by positivity) hs0 hs1
  have h6 : (2 : ℝ) ^ (-39 : ℤ) / Real.sin (angle (exactVec v) (exactVec w)) =
      16 * (2 ^ (-43 : ℤ) / Real.sin (angle (exactVec v) (exactVec w))) := by rw [← mul_div_assoc]; norm_num
  rw [h6]
  norm_num at hwd h5 ⊢
  linarith

section
attribute [local instance] Library64.correctlyRounded

/-- a library with these accuracies exists -/
theorem cosineWithin_correctlyRounded : CosineWithin f64 (2 ^ (-50 : ℤ)) where
  toSineWithin := sineWithin_correctlyRounded
  cos := by
    rintro _ ⟨s, m, h, rfl⟩ h1
    change (Ieee.round false (Real.cos (signed s m)) : Ieee f64).Finite ∧ |(Ieee.round false (Real.cos (signed s m)) : Ieee f64).val - Real.cos (signed s m)| ≤ _
    exact round_near ((Real.abs_cos_le_one _).trans (by norm_num))

end

/-- the first two axes -/
example : ∃ v w : Vec (Ieee f64) 3, (∀ i, (v.data i).Finite) ∧ (∀ i, (w.data i).Finite) ∧ Spec.length v = 1 ∧ Spec.length w = 1 ∧
    angle (exactVec v) (exactVec w) = Real.pi / 2 ∧ Real.sin (angle (exactVec v) (exactVec w)) = 1 ∧
    ∃ t : Ieee f64, t.Finite ∧ t.val = 2 ^ (-52 : ℤ) := by
  have h1 : (1 : Ieee f64).val = 1 := Ieee.val_one
  have h0 : (0 : Ieee f64).val = 0 := Ieee.val_zero
  have hin : inner ℝ (exactVec (Vec.new3 (1 : Ieee f64) 0 0)) (exactVec (Vec.new3 (0 : Ieee f64) 1 0)) = 0 := by
    rw [inner3]
    change (1 : Ieee f64).val * (0 : Ieee f64).val + (0 : Ieee f64).val * (1 : Ieee f64).val + (0 : Ieee f64).val * (0 : Ieee f64).val = 0
    rw [h1, h0]; norm_num
  have ha := (InnerProductGeometry.inner_eq_zero_iff_angle_eq_pi_div_two _ _).mp hin
  refine ⟨Vec.new3 1 0 0, Vec.new3 0 1 0, fun i => ?_, fun i => ?_, ?_, ?_, ha, by rw [ha, Real.sin_pi_div_two], ?_⟩
  · fin_cases i
    · exact finite_one
    · exact finite_zero
    · exact finite_zero
  · fin_cases i
    · exact finite_zero
    · exact finite_one
    · exact finite_zero
  · rw [Spec.length, Fin.sum_univ_three]
    change Real.sqrt ((1 : Ieee f64).val ^ 2 + (0 : Ieee f64).val ^ 2 + (0 : Ieee f64).val ^ 2) = 1
    rw [h1, h0]; norm_num
  · rw [Spec.length, Fin.sum_univ_three]
    change Real.sqrt ((0 : Ieee f64).val ^ 2 + (1 : Ieee f64).val ^ 2 + (0 : Ieee f64).val ^ 2) = 1
    rw [h1, h0]; norm_num
  · have h2 : f64.fl (2 ^ (-52 : ℤ)) = 2 ^ (-52 : ℤ) := fl64_two_zpow (by norm_num)
    have hb : |(2 : ℝ) ^ (-52 : ℤ)| ≤ f64.big := by
      rw [abs_of_pos (by positivity)]
      exact two_zpow_le_big (by norm_num)
    have hf : (Ieee.round false (2 ^ (-52 : ℤ)) : Ieee f64).Finite := finite_round (by rw [fl_abs, h2]; exact hb)
    exact ⟨_, hf, by rw [val_round hf, h2]⟩

end Cgl
