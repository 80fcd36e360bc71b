import Verif.Props.C96_AxisAngle
import Mathlib.Analysis.Normed.Algebra.QuaternionExponential
import Mathlib.Analysis.Complex.ExponentialBounds

/-! # C97 - exponentials, logarithms and powers of quaternions in floating point -/

namespace Cgl
open Ieee FloatFns Quat Spec
open scoped Quaternion

variable {φ : Format}

namespace Spec

/-- the pure quaternion along `a` of length `r` -/
noncomputable def angleQuat (a : EuclideanSpace ℝ (Fin 3)) (r : ℝ) : ℍ[ℝ] := ⟨0, r * a 0, r * a 1, r * a 2⟩

/-- The exponential of the library has an absolute error of at most `a` for arguments of absolute value at most 1.1, the
logarithm for arguments between a half and two. -/
structure ExpLogWithin (φ : Format) [Lib φ] (a : ℝ) : Prop where
  exp : ∀ x : Ieee φ, x.Finite → |x.val| ≤ 11 / 10 → (fexp x).Finite ∧ |(fexp x).val - Real.exp x.val| ≤ a
  ln : ∀ x : Ieee φ, x.Finite → 1 / 2 ≤ x.val → x.val ≤ 2 → (fln x).Finite ∧ |(fln x).val - Real.log x.val| ≤ a

end Spec

/-! ### exact exponentials -/

/-- the vector part -/
noncomputable def imVec (h : ℍ[ℝ]) : EuclideanSpace ℝ (Fin 3) := WithLp.toLp 2 ![h.imI, h.imJ, h.imK]

theorem imVec_norm (h : ℍ[ℝ]) : ‖imVec h‖ = ‖h.im‖ := by
  have h1 := normsq3 (imVec h)
  have h2 : ‖h.im‖ * ‖h.im‖ = h.imI ^ 2 + h.imJ ^ 2 + h.imK ^ 2 := by
    rw [← Quaternion.normSq_eq_norm_mul_self, Quaternion.normSq_def']
    simp
  have h3 : ‖imVec h‖ ^ 2 = ‖h.im‖ ^ 2 := by
    rw [h1, sq ‖h.im‖, h2]
    simp [imVec]
  exact (sq_eq_sq₀ (_root_.norm_nonneg _) (_root_.norm_nonneg _)).mp h3

/-- the factor of the vector part -/
theorem sinc_near {v w : EuclideanSpace ℝ (Fin 3)} (i : Fin 3) :
    |Real.sin ‖v‖ / ‖v‖ * v i - Real.sin ‖w‖ / ‖w‖ * w i| ≤ 3 * ‖v - w‖ := by
  have comp : ∀ x : EuclideanSpace ℝ (Fin 3), |x i| ≤ ‖x‖ := fun x => by
    have := PiLp.norm_apply_le x i
    rwa [Real.norm_eq_abs] at this
  have hs : ∀ x : ℝ, 0 ≤ x → |Real.sin x| ≤ x := fun x hx => by
    have := Real.abs_sin_le_abs (x := x)
    rwa [abs_of_nonneg hx] at this
  rcases (_root_.norm_nonneg v).lt_or_eq with hv | hv
  · rcases (_root_.norm_nonneg w).lt_or_eq with hw | hw
    · have e : Real.sin ‖v‖ / ‖v‖ * v i - Real.sin ‖w‖ / ‖w‖ * w i =
          Real.sin ‖v‖ / ‖v‖ * (v i - w i) + ((Real.sin ‖v‖ / ‖v‖) * (‖w‖ - ‖v‖) + (Real.sin ‖v‖ - Real.sin ‖w‖)) * (w i / ‖w‖) := by
        field_simp; ring
      have f1 : |Real.sin ‖v‖ / ‖v‖| ≤ 1 := by
        rw [abs_div, abs_of_pos hv, div_le_one hv]; exact hs _ hv.le
      have f2 : |w i / ‖w‖| ≤ 1 := by rw [abs_div, abs_of_pos hw, div_le_one hw]; exact comp w
      have f3 : |v i - w i| ≤ ‖v - w‖ := comp (v - w)
      have f4 : |‖w‖ - ‖v‖| ≤ ‖v - w‖ := by rw [norm_sub_rev]; exact abs_norm_sub_norm_le w v
      have f5 : |Real.sin ‖v‖ - Real.sin ‖w‖| ≤ ‖v - w‖ := (Real.abs_sin_sub_sin_le _ _).trans (abs_norm_sub_norm_le v w)
      rw [e]
      refine (abs_add_le _ _).trans ?_
      rw [abs_mul, abs_mul]
      have g1 := mul_le_mul f1 f3 (abs_nonneg _) zero_le_one
      have g2 : |Real.sin ‖v‖ / ‖v‖ * (‖w‖ - ‖v‖) + (Real.sin ‖v‖ - Real.sin ‖w‖)| ≤ 2 * ‖v - w‖ := by
        refine (abs_add_le _ _).trans ?_
        rw [abs_mul]
        have := mul_le_mul f1 f4 (abs_nonneg _) zero_le_one
        linarith
      have g3 := mul_le_mul g2 f2 (abs_nonneg _) (by positivity)
      linarith
    · rw [← hw, div_zero, zero_mul, sub_zero]
      have h0 : w = 0 := norm_eq_zero.mp hw.symm
      rw [h0, sub_zero, abs_mul]
      have f1 : |Real.sin ‖v‖ / ‖v‖| ≤ 1 := by
        rw [abs_div, abs_of_pos hv, div_le_one hv]; exact hs _ hv.le
      have := mul_le_mul f1 (comp v) (abs_nonneg _) zero_le_one
      linarith
  · rw [← hv, div_zero, zero_mul, zero_sub, abs_neg]
    have h0 : v = 0 := norm_eq_zero.mp hv.symm
    rw [h0, zero_sub, norm_neg]
    rcases (_root_.norm_nonneg w).lt_or_eq with hw | hw
    · rw [abs_mul]
      have f1 : |Real.sin ‖w‖ / ‖w‖| ≤ 1 := by
        rw [abs_div, abs_of_pos hw, div_le_one hw]; exact hs _ hw.le
      have := mul_le_mul f1 (comp w) (abs_nonneg _) zero_le_one
      linarith
    · rw [← hw]; simp

theorem sinc_le (v : EuclideanSpace ℝ (Fin 3)) (i : Fin 3) : |Real.sin ‖v‖ / ‖v‖ * v i| ≤ 1 ∧ |Real.sin ‖v‖ / ‖v‖ * v i| ≤ ‖v‖ := by
  have comp : |v i| ≤ ‖v‖ := by
    have := PiLp.norm_apply_le v i
    rwa [Real.norm_eq_abs] at this
  rcases (_root_.norm_nonneg v).lt_or_eq with hv | hv
  · have h1 : |v i / ‖v‖| ≤ 1 := by rw [abs_div, abs_of_pos hv, div_le_one hv]; exact comp
    have h2 := Real.abs_sin_le_one ‖v‖
    have h3 := Real.abs_sin_le_abs (x := ‖v‖)
    rw [abs_of_pos hv] at h3
    rw [div_mul_eq_mul_div, mul_div_assoc, abs_mul]
    constructor
    · exact mul_le_one₀ h2 (abs_nonneg _) h1
    · have := mul_le_mul h3 h1 (abs_nonneg _) hv.le
      linarith
  · rw [← hv]; simp

theorem exp_le {a : ℝ} (ha : a ≤ 101 / 100) : Real.exp a ≤ 275 / 100 := by
  have h1 : Real.exp a ≤ Real.exp (1 + 1 / 100) := Real.exp_le_exp.mpr (by linarith)
  have h2 := Real.exp_one_lt_d9
  have h3 := Real.add_one_le_exp (-(1 / 100) : ℝ)
  have h4 : Real.exp (1 / 100) * Real.exp (-(1 / 100)) = 1 := by rw [← Real.exp_add]; simp
  have h5 := Real.exp_pos (1 / 100)
  rw [Real.exp_add] at h1
  have h6 : Real.exp (1 / 100) ≤ 100 / 99 := by nlinarith
  have := mul_le_mul h2.le h6 h5.le (by norm_num)
  linarith

theorem exp_near {a b : ℝ} (ha : a ≤ 101 / 100) (hb : b ≤ 101 / 100) : |Real.exp a - Real.exp b| ≤ 275 / 100 * |a - b| := by
  have one : ∀ x y : ℝ, x ≤ 101 / 100 → Real.exp x - Real.exp y ≤ 275 / 100 * |x - y| := fun x y hx => by
    have h1 := Real.add_one_le_exp (y - x)
    have h2 : Real.exp y = Real.exp x * Real.exp (y - x) := by rw [← Real.exp_add]; ring_nf
    have h3 := Real.exp_pos x
    have h4 : Real.exp x - Real.exp y ≤ Real.exp x * (x - y) := by rw [h2]; nlinarith
    have h5 := mul_le_mul_of_nonneg_left (le_abs_self (x - y)) h3.le
    have h6 := mul_le_mul_of_nonneg_right (exp_le hx) (abs_nonneg (x - y))
    linarith
  rw [abs_le]
  constructor
  · have := one b a hb
    rw [abs_sub_comm] at this
    linarith
  · exact one a b ha

theorem exp_parts (h : ℍ[ℝ]) : (NormedSpace.exp h).re = Real.exp h.re * Real.cos ‖imVec h‖ ∧
    (NormedSpace.exp h).imI = Real.exp h.re * (Real.sin ‖imVec h‖ / ‖imVec h‖ * imVec h 0) ∧
    (NormedSpace.exp h).imJ = Real.exp h.re * (Real.sin ‖imVec h‖ / ‖imVec h‖ * imVec h 1) ∧
    (NormedSpace.exp h).imK = Real.exp h.re * (Real.sin ‖imVec h‖ / ‖imVec h‖ * imVec h 2) := by
  rw [Quaternion.exp_eq, imVec_norm, ← Real.exp_eq_exp_ℝ]
  simp [imVec]

theorem angleQuat_exp {a : EuclideanSpace ℝ (Fin 3)} (ha : ‖a‖ = 1) (r : ℝ) :
    NormedSpace.exp (angleQuat a r) = turnQuat a (2 * r) := by
  have h1 : imVec (angleQuat a r) = r • a := by
    ext i; fin_cases i <;> rfl
  have h2 : ‖imVec (angleQuat a r)‖ = |r| := by rw [h1, norm_smul, ha, mul_one, Real.norm_eq_abs]
  obtain ⟨p0, p1, p2, p3⟩ := exp_parts (angleQuat a r)
  rw [h2, h1] at p1 p2 p3
  rw [h2] at p0
  have h3 : Real.exp (angleQuat a r).re = 1 := Real.exp_zero
  rw [h3] at p0 p1 p2 p3
  have h4 : 2 * r / 2 = r := by ring
  have h5 : Real.sin |r| / |r| * r = Real.sin r := by
    rcases le_total 0 r with h | h
    · rw [abs_of_nonneg h]
      rcases h.lt_or_eq with h | h
      · field_simp
      · rw [← h]; simp
    · rw [abs_of_nonpos h, Real.sin_neg]
      rcases h.lt_or_eq with h | h
      · have : r ≠ 0 := h.ne
        field_simp
      · rw [h]; simp
  have h6 : ∀ i, 1 * (Real.sin |r| / |r| * (r • a) i) = Real.sin r * a i := fun i => by
    rw [← h5]; simp only [PiLp.smul_apply, smul_eq_mul]; ring
  rw [h6] at p1 p2 p3
  rw [Real.cos_abs, one_mul] at p0
  apply QuaternionAlgebra.ext
  · rw [p0, turnQuat, h4]
  · rw [p1, turnQuat, h4]
  · rw [p2, turnQuat, h4]
  · rw [p3, turnQuat, h4]

/-- the norm of a quaternion that is near a unit quaternion -/
theorem norm_near [Lib φ] (hφ : Fine φ) {q : Quat (Ieee φ)} {h : ℍ[ℝ]} (hh : ‖h‖ = 1) {δ : ℝ} (hq : QuatWithin q h δ) (hδ : δ ≤ 1 / 1000) :
    Nr q.norm 1 (2 * δ + 5 * unit φ) := by
  have hw0 : 0 ≤ unit φ := unit_nonneg
  have hw := hφ.unit_le
  obtain ⟨hf, q0, q1, q2, q3⟩ := hq
  have hδ0 : 0 ≤ δ := (abs_nonneg _).trans q0
  obtain ⟨p, hp⟩ : ∃ p : ℍ[ℝ], p = ⟨q.s.val, q.x.val, q.y.val, q.z.val⟩ := ⟨_, rfl⟩
  obtain ⟨n, hn⟩ : ∃ n, n = q.s.val ^ 2 + q.x.val ^ 2 + q.y.val ^ 2 + q.z.val ^ 2 := ⟨_, rfl⟩
  have hpn : ‖p‖ * ‖p‖ = n := by
    rw [← Quaternion.normSq_eq_norm_mul_self, Quaternion.normSq_def', hp, hn]
  have hd : ‖p - h‖ ≤ 2 * δ := by
    have h1 : ‖p - h‖ * ‖p - h‖ ≤ (2 * δ) * (2 * δ) := by
      rw [← Quaternion.normSq_eq_norm_mul_self, Quaternion.normSq_def', hp]
      change (q.s.val - h.re) ^ 2 + (q.x.val - h.imI) ^ 2 + (q.y.val - h.imJ) ^ 2 + (q.z.val - h.imK) ^ 2 ≤ _
      have k0 := sq_le_sq' (abs_le.mp q0).1 (abs_le.mp q0).2
      have k1 := sq_le_sq' (abs_le.mp q1).1 (abs_le.mp q1).2
      have k2 := sq_le_sq' (abs_le.mp q2).1 (abs_le.mp q2).2
      have k3 := sq_le_sq' (abs_le.mp q3).1 (abs_le.mp q3).2
      linarith
    exact abs_le_of_sq_le_sq' (by nlinarith) (by linarith) |>.2
  have h1 := (abs_norm_sub_norm_le p h).trans hd
  rw [hh] at h1
  have h1' := abs_le.mp h1
  have n0 := _root_.norm_nonneg p
  have hu : NearlyUnit q n := ⟨.exact (hf 0), .exact (hf 1), .exact (hf 2), .exact (hf 3), hn, by nlinarith, by nlinarith⟩
  have hr : Real.sqrt n = ‖p‖ := by rw [← hpn, Real.sqrt_mul_self n0]
  have hS := (hu.normSquared hφ).sqrt hφ (lo := 95 / 100) (M := 102 / 100) (by norm_num) (by nlinarith [hu.lo]) (by nlinarith [hu.hi])
    (by norm_num) (by norm_num)
  rw [hr] at hS
  refine ⟨hS.1, ?_⟩
  have e1 := abs_le.mp hS.2
  have e2 : 75 / 10 * unit φ / (2 * (95 / 100)) + unit φ * (102 / 100) ≤ 5 * unit φ := by
    rw [div_add' _ _ _ (by norm_num), div_le_iff₀ (by norm_num)]; linarith
  change |(fsqrt q.normSquared).val - 1| ≤ _
  rw [abs_le]; constructor <;> linarith

theorem log_near {x κ : ℝ} (hx : |x - 1| ≤ κ) (hκ : κ ≤ 1 / 2) : |Real.log x| ≤ 2 * κ := by
  have hx' := abs_le.mp hx
  have hx0 : 0 < x := by linarith
  have h1 := Real.log_le_sub_one_of_pos hx0
  have h2 := Real.one_sub_inv_le_log_of_pos hx0
  have h3 : 1 - x⁻¹ = (x - 1) * x⁻¹ := by field_simp
  have h4 : x⁻¹ ≤ 2 := by rw [inv_le_comm₀ hx0 (by norm_num)]; linarith
  have h5 : 0 < x⁻¹ := inv_pos.mpr hx0
  have hκ0 : 0 ≤ κ := (abs_nonneg _).trans hx
  have h6 : -(2 * κ) ≤ (x - 1) * x⁻¹ := by
    have := mul_le_mul_of_nonneg_right hx'.1 h5.le
    nlinarith
  rw [abs_le]; constructor <;> linarith

section
variable [Lib φ] {d e : ℝ} (hφ : Fine φ) (hR : Roomy φ) (hd : d ≤ 1 / 1000000) (hwd : unit φ ≤ d) (he : CosineWithin φ e)
  (he' : ExpLogWithin φ e) (hed : e ≤ d) {t : Ieee φ} (ht : t.Finite) (ht1 : φ.u ≤ t.val) (ht2 : t.val ≤ 1 / 2)

include hφ hR hd hwd he he' hed ht ht1 ht2 in
set_option maxHeartbeats 1000000 in
/-- the exponential at a computed quaternion -/
theorem exp_terms (htd : d ≤ 12 * t.val) {q : Quat (Ieee φ)} (hq : ∀ i, (q.coords.data i).Finite) (hs : |q.scalar.val| ≤ 101 / 100)
    (hv : Spec.length q.vector ≤ 395 / 100) :
    Nr (q.exp t).scalar (Real.exp q.scalar.val * Real.cos (Spec.length q.vector)) (165 * d + 3 * t.val) ∧
    ∀ i, Nr ((q.exp t).vector.data i) (Real.exp q.scalar.val *
      (Real.sin ‖exactVec q.vector‖ / ‖exactVec q.vector‖ * exactVec q.vector i)) (165 * d + 3 * t.val) := by
  have hw0 : 0 ≤ unit φ := unit_nonneg
  have hd0 : 0 ≤ d := hw0.trans hwd
  have hu0 := φ.u_nonneg
  have htn := φ.tiny_nonneg
  have huw : φ.u ≤ unit φ := by unfold Spec.unit; linarith
  have hvf : ∀ i, (q.vector.data i).Finite := fun i => by fin_cases i; exacts [hq 1, hq 2, hq 3]
  have hth := threshold hφ hR hvf (by linarith) ht ht1 (by linarith)
  have hE0 := Real.exp_pos q.scalar.val
  have hE1 := exp_le (abs_le.mp hs).2
  obtain ⟨E, hEd⟩ : ∃ E, E = Real.exp q.scalar.val := ⟨_, rfl⟩
  have hE : Nr (fexp q.scalar) E d := by
    rw [hEd]
    exact Nr.mono (he'.exp _ (hq 0) (hs.trans (by norm_num))) hed
  rw [← hEd] at hE0 hE1 ⊢
  obtain ⟨n, hn⟩ : ∃ n, n = Spec.length q.vector := ⟨_, rfl⟩
  have hn' : ‖exactVec q.vector‖ = n := by rw [hn, length_exactVec]
  have hn0 : 0 ≤ n := by rw [← hn']; exact _root_.norm_nonneg _
  have hsl := sinc_le (exactVec q.vector)
  rw [hn'] at hsl ⊢
  rw [← hn] at hth hv ⊢
  have hvc : ∀ i, |(q.vector.data i).val| ≤ n := fun i => by
    have := PiLp.norm_apply_le (exactVec q.vector) i
    rwa [Real.norm_eq_abs, hn'] at this
  have hc1 := Real.abs_cos_le_one n
  have hs1 := Real.abs_sin_le_abs (x := n)
  rw [abs_of_nonneg hn0] at hs1
  have hs2 := Real.abs_sin_le_one n
  have hTf : (t * t).Finite := ((Nr.exact ht).mul hφ (Nr.exact ht) (A := 1) (B := 1) (M := 1)
    (by rw [abs_of_nonneg (by linarith)]; linarith) (by rw [abs_of_nonneg (by linarith)]; linarith) (by norm_num) le_rfl (by norm_num)).1
  have hNf := (norm_squared_le hφ hvf (by rw [← hn]; linarith)).1
  by_cases hb : q.vector.normSquared > t * t
  · have hlo := hth.1 hb
    have hnt : 99 / 100 * t.val < n := by
      by_contra h
      exact hth.2.1 (not_lt.mp h) hb
    have hnb : ¬ q.vector.normSquared ≤ t * t := by
      rw [ieee_le_iff hNf hTf, not_le]
      exact (ieee_lt_iff hTf hNf).mp hb
    have ex : q.exp t = fromParts (fexp q.scalar * fcos q.vector.norm)
        (q.vector * (fexp q.scalar * fsin q.vector.norm / q.vector.norm)) := by
      unfold Quat.exp
      simp only [if_neg hnb]
      rfl
    obtain ⟨lo, hsafe⟩ := hR
    have hsf := hsafe n hlo (by linarith)
    have hnp : 0 < n := hsf.pos
    obtain ⟨nf, nv⟩ := safe_norm q.vector hvf (hn ▸ hsf)
    rw [← hn] at nv
    push_cast at nv
    have hund : φ.u ≤ d := by linarith
    have hnn : φ.u * n ≤ d * n := mul_le_mul_of_nonneg_right hund hn0
    have hN : Nr q.vector.norm n (6 * (d * n)) := ⟨nf, nv.trans (by linarith)⟩
    have hdn : d * n ≤ 395 / 100 * d := by rw [mul_comm]; exact mul_le_mul_of_nonneg_right hv hd0
    have hdn' : d * n ≤ 1 / 1000000 * n := mul_le_mul_of_nonneg_right hd hn0
    have hdn0 : 0 ≤ d * n := by positivity
    have hN4 : |q.vector.norm.val| ≤ 4 := (hN.val_le (A := 395 / 100) (by rw [abs_of_nonneg hn0]; exact hv)).trans (by linarith)
    have hC : Nr (fcos q.vector.norm) (Real.cos n) (25 * d) := by
      obtain ⟨c1, c2⟩ := he.cos _ nf hN4
      have c3 := (Real.abs_cos_sub_cos_le q.vector.norm.val n).trans hN.2
      exact ⟨c1, by rw [abs_le] at *; constructor <;> linarith⟩
    have hS : Nr (fsin q.vector.norm) (Real.sin n) (25 * d) := by
      obtain ⟨c1, c2⟩ := he.sin _ nf hN4
      have c3 := (Real.abs_sin_sub_sin_le q.vector.norm.val n).trans hN.2
      exact ⟨c1, by rw [abs_le] at *; constructor <;> linarith⟩
    have hEa : |E| ≤ 275 / 100 := by rw [abs_of_pos hE0]; exact hE1
    have hdd : d * d ≤ 1 / 1000000 * d := mul_le_mul_of_nonneg_right hd hd0
    have P1 := (hE.mul hφ hC hEa hc1 (M := 3) (by nlinarith) (by norm_num) (by norm_num)).mono (f := 73 * d) (by nlinarith)
    have P2 := (hE.mul hφ hS hEa hs2 (M := 3) (by nlinarith) (by norm_num) (by norm_num)).mono (f := 73 * d) (by nlinarith)
    rw [ex]
    refine ⟨P1.mono (by linarith), fun i => ?_⟩
    obtain ⟨r, hr⟩ : ∃ r, r = d / n := ⟨_, rfl⟩
    have hr0 : 0 ≤ r := by rw [hr]; positivity
    have hrn : r * n = d := by rw [hr]; field_simp
    have hr13 : r ≤ 125 / 10 := by
      rw [hr, div_le_iff₀ hnp]; linarith
    have hPa : |E * Real.sin n| ≤ 275 / 100 * n := by
      rw [abs_mul]; exact mul_le_mul hEa hs1 (abs_nonneg _) (by norm_num)
    have K := P2.div hφ hN (lo := 99 / 100 * n) (A := 275 / 100 * n) (M := 28 / 10 + 74 * r) (by positivity)
      (by rw [abs_of_pos hnp]; linarith) hPa (by
        rw [div_le_iff₀ (by positivity)]
        nlinarith) (by linarith) (by linarith)
    have hudd : unit φ * r ≤ 1 / 1000000 * r := mul_le_mul_of_nonneg_right (hwd.trans hd) hr0
    replace K := K.mono (f := 74 * r + 20 * d) (by
      have e1 : 73 * d / (99 / 100 * n) = 73 * 100 / 99 * r := by rw [hr]; field_simp
      have e2 : 275 / 100 * n * (6 * (d * n)) / (99 / 100 * n * (99 / 100 * n)) = 275 / 100 * 6 * (100 / 99) * (100 / 99) * d := by
        field_simp
      rw [e1, e2]
      nlinarith)
    have hKa : |E * Real.sin n / n| ≤ 275 / 100 := by
      rw [abs_div, abs_of_pos hnp, div_le_iff₀ hnp]; exact hPa
    have V := (Nr.exact (hvf i)).mul hφ K (hvc i) hKa (M := 11) (by nlinarith) (by norm_num) (by norm_num)
    have e3 : (q.vector.data i).val * (E * Real.sin n / n) = E * (Real.sin n / n * exactVec q.vector i) := by
      change _ = E * (Real.sin n / n * (q.vector.data i).val)
      ring
    rw [e3] at V
    have V' := V.mono (f := 165 * d + 3 * t.val) (by nlinarith)
    fin_cases i
    · exact V'
    · exact V'
    · exact V'
  · have hnt := hth.2.2.1 hb
    have hyb : q.vector.normSquared ≤ t * t := by
      rw [ieee_le_iff hNf hTf]
      rw [gt_iff_lt, ieee_lt_iff hTf hNf, not_lt] at hb
      exact hb
    have ex : q.exp t = fromParts (fexp q.scalar) 0 := by
      unfold Quat.exp
      simp only [if_pos hyb]
    rw [ex]
    have hn1 : n ≤ 1 := by linarith
    have hEn : E * n ≤ 276 / 100 * t.val := by nlinarith
    refine ⟨⟨hE.1, ?_⟩, fun i => ?_⟩
    · have h1 := Real.one_sub_sq_div_two_le_cos (x := n)
      have h2 := Real.cos_le_one n
      have h3 : |E - E * Real.cos n| ≤ E * n := by
        have g1 : E * Real.cos n ≤ E * 1 := mul_le_mul_of_nonneg_left h2 hE0.le
        have g2 : n ^ 2 ≤ n := by nlinarith
        have g3 : E * (1 - Real.cos n) ≤ E * n := mul_le_mul_of_nonneg_left (by linarith) hE0.le
        have g4 : 0 ≤ E * n := by positivity
        rw [abs_le]
        constructor <;> linarith
      have h4 := abs_le.mp h3
      have h5 := abs_le.mp hE.2
      change |(fexp q.scalar).val - _| ≤ _
      rw [abs_le]; constructor <;> linarith
    · have h1 : |E * (Real.sin n / n * exactVec q.vector i)| ≤ E * n := by
        rw [abs_mul, abs_of_pos hE0]
        exact mul_le_mul_of_nonneg_left (hsl i).2 hE0.le
      have h2 : Nr (0 : Ieee φ) (E * (Real.sin n / n * exactVec q.vector i)) (165 * d + 3 * t.val) :=
        ⟨finite_zero, by rw [val_zero, zero_sub, abs_neg]; linarith⟩
      fin_cases i
      · exact h2
      · exact h2
      · exact h2

include hφ hR hd hwd he he' hed ht ht1 ht2 in
/-- **The exponential.**  The vector part has a length below `3.9`, the real part is at most one. -/
theorem C97_exp (htd : d ≤ 12 * t.val) {q : Quat (Ieee φ)} {h : ℍ[ℝ]} {δ : ℝ} (hq : QuatWithin q h δ) (hδ : δ ≤ 1 / 100)
    (hs : |h.re| ≤ 1) (hv : ‖h.im‖ ≤ 39 / 10) : QuatWithin (q.exp t) (NormedSpace.exp h) (20 * δ + 165 * d + 3 * t.val) := by
  have hq' := quatWithin_iff.mp hq
  have hδ0 : 0 ≤ δ := (hq' 0).nonneg
  have h0 : Nr q.scalar h.re δ := hq' 0
  have hdist : ‖exactVec q.vector - imVec h‖ ≤ 2 * δ := by
    refine dist_le3 (e := δ) (fun i => ?_) (by linarith) (by nlinarith)
    fin_cases i
    · exact (hq' 1).2
    · exact (hq' 2).2
    · exact (hq' 3).2
  have hn := (abs_norm_sub_norm_le (exactVec q.vector) (imVec h)).trans hdist
  have hn' := abs_le.mp hn
  have hs' : |q.scalar.val| ≤ 101 / 100 := (h0.val_le hs).trans (by linarith)
  have hre := (abs_le.mp hs).2
  rw [← imVec_norm] at hv
  obtain ⟨k0, k1⟩ := exp_terms hφ hR hd hwd he he' hed ht ht1 ht2 htd (fun i => (hq' i).1) hs' (by rw [length_exactVec]; linarith)
  rw [length_exactVec] at k0
  obtain ⟨p0, p1, p2, p3⟩ := exp_parts h
  have dE := (exp_near (abs_le.mp hs').2 (show h.re ≤ 101 / 100 by linarith)).trans (mul_le_mul_of_nonneg_left h0.2 (by norm_num))
  have hE1 := exp_le (show h.re ≤ 101 / 100 by linarith)
  have hE0 := Real.exp_pos h.re
  have gen : ∀ {x : Ieee φ} {f g : ℝ}, Nr x (Real.exp q.scalar.val * f) (165 * d + 3 * t.val) → |f| ≤ 1 → |f - g| ≤ 6 * δ →
      Nr x (Real.exp h.re * g) (20 * δ + 165 * d + 3 * t.val) := fun {x f g} hx hf hfg => by
    refine ⟨hx.1, ?_⟩
    have e1 : Real.exp q.scalar.val * f - Real.exp h.re * g = (Real.exp q.scalar.val - Real.exp h.re) * f + Real.exp h.re * (f - g) := by ring
    have e2 : |Real.exp q.scalar.val * f - Real.exp h.re * g| ≤ 20 * δ := by
      rw [e1]
      refine (abs_add_le _ _).trans ?_
      rw [abs_mul, abs_mul, abs_of_pos hE0]
      have := mul_le_mul dE hf (abs_nonneg _) (by linarith)
      have := mul_le_mul hE1 hfg (abs_nonneg _) (by norm_num)
      linarith
    have e3 := abs_le.mp e2
    have e4 := abs_le.mp hx.2
    rw [abs_le]; constructor <;> linarith
  have vec : ∀ i, Nr ((q.exp t).vector.data i) (Real.exp h.re * (Real.sin ‖imVec h‖ / ‖imVec h‖ * imVec h i)) (20 * δ + 165 * d + 3 * t.val) :=
    fun i => gen (k1 i) (sinc_le _ i).1 ((sinc_near i).trans (by linarith))
  refine quatWithin_iff.mpr fun i => ?_
  fin_cases i
  · change Nr (q.exp t).scalar (NormedSpace.exp h).re _
    rw [p0]
    exact gen k0 (Real.abs_cos_le_one _) ((Real.abs_cos_sub_cos_le _ _).trans (hn.trans (by linarith)))
  · change Nr _ (NormedSpace.exp h).imI _
    rw [p1]; exact vec 0
  · change Nr _ (NormedSpace.exp h).imJ _
    rw [p2]; exact vec 1
  · change Nr _ (NormedSpace.exp h).imK _
    rw [p3]; exact vec 2

section
variable {q : Quat (Ieee φ)} {a : EuclideanSpace ℝ (Fin 3)} (ha : ‖a‖ = 1) {α δ : ℝ} (hq : QuatWithin q (turnQuat a α) δ)

include hφ hd hwd he he' hed ha hq in
set_option maxHeartbeats 1000000 in
theorem ln_angle {r σ g : ℝ} (hr : r = α / 2) (hσ : σ = Real.sin r) (hr0 : 0 ≤ r) (hrp : r ≤ Real.pi) (hσ0 : 0 < σ)
    (hs2 : 1000 * (δ + d) ≤ σ ^ 2) (hgs : g * σ = δ + d) :
    Nr (fln q.norm) 0 (4 * δ + 11 * d) ∧ Nr (facos (q.scalar / q.norm)) r (21 * g) := by
  have hw0 : 0 ≤ unit φ := unit_nonneg
  have hd0 : 0 ≤ d := hw0.trans hwd
  have hq' := quatWithin_iff.mp hq
  have hδ0 : 0 ≤ δ := (hq' 0).nonneg
  have hsr : 0 < Real.sin r := hσ ▸ hσ0
  have hσ1 : σ ≤ 1 := hσ ▸ Real.sin_le_one r
  have hσσ : σ ^ 2 ≤ σ := by nlinarith
  have hδd : δ + d ≤ 1 / 1000 := by linarith
  -- the norm and its logarithm
  have hN := norm_near hφ (turnQuat_norm ha α) hq (by linarith)
  replace hN := hN.mono (f := 2 * δ + 5 * d) (by linarith)
  have hNb := abs_le.mp hN.2
  obtain ⟨l1, l2⟩ := he'.ln _ hN.1 (by linarith) (by linarith)
  have l3 := log_near hN.2 (by linarith)
  refine ⟨?_, ?_⟩
  · exact (show Nr (fln q.norm) 0 (4 * δ + 11 * d) from ⟨l1, by
    have k1 := abs_le.mp l2
    have k2 := abs_le.mp l3
    rw [sub_zero, abs_le]; constructor <;> linarith⟩)
  -- the angle
  have h0 : Nr q.scalar (Real.cos r) δ := by
    have := hq' 0
    rw [hr]; exact this
  have hC := h0.div hφ hN (lo := 99 / 100) (A := 1) (M := 102 / 100) (by norm_num) (by rw [abs_one]; linarith) (Real.abs_cos_le_one r)
    (by rw [div_le_iff₀ (by norm_num)]; linarith) (by norm_num) (by norm_num)
  rw [div_one] at hC
  replace hC := hC.mono (f := 31 / 10 * δ + 62 / 10 * d) (by
    rw [div_eq_mul_inv, div_eq_mul_inv]; norm_num; linarith)
  have hcos : |Real.cos r| ≤ 1 - σ ^ 2 / 2 := by
    have h1 := Real.sin_sq_add_cos_sq r
    rw [← hσ] at h1
    refine abs_le_of_sq_le_sq ?_ (by nlinarith)
    nlinarith [sq_nonneg (σ ^ 2)]
  have hc1 : |(q.scalar / q.norm).val| ≤ 1 := (hC.val_le hcos).trans (by nlinarith)
  have hac := arccos_near hr0 hrp hsr hC.2 hc1
  rw [← hσ] at hac
  have hg0 : 0 ≤ g := by
    by_contra h
    nlinarith
  have hgd : δ + d ≤ g := by rw [← hgs]; nlinarith
  obtain ⟨c1, c2⟩ := he.acos _ hC.1 hc1
  have c3 : 315 / 100 * (31 / 10 * δ + 62 / 10 * d) / σ ≤ 20 * g := by
      rw [div_le_iff₀ hσ0]; linarith
  have c4 := abs_le.mp c2
  have c5 := abs_le.mp hac
  exact ⟨c1, by rw [abs_le]; constructor <;> linarith⟩

include hφ hR hd hwd in
omit he he' in
set_option maxHeartbeats 1000000 in
theorem scaled_direction (ha : ‖a‖ = 1) {x : Vec (Ieee φ) 3} (hvf : ∀ i, (x.data i).Finite) {T : Ieee φ} {r σ g : ℝ}
    (hr0 : 0 ≤ r) (hrp : r ≤ Real.pi) (hσ : 1 / 200000 ≤ σ) (hσ1 : σ ≤ 1) (hu : φ.u ≤ 9 / 10 * σ) (hT : Nr T r (21 * g)) (hgd : d ≤ g) (hgσ : 1000 * g ≤ σ)
    (hdist : ‖exactVec x - σ • a‖ ≤ 2 * (g * σ)) (i : Fin 3) : Nr (x.data i * (T / x.norm)) (r * a i) (64 * g) := by
  have hw0 : 0 ≤ unit φ := unit_nonneg
  have hd0 : 0 ≤ d := hw0.trans hwd
  have hu0 := φ.u_nonneg
  have htn := φ.tiny_nonneg
  have huw : φ.u ≤ unit φ := by unfold Spec.unit; linarith
  have hpi := Real.pi_lt_d2
  have hσ0 : 0 < σ := by linarith
  have hg0 : 0 ≤ g := by linarith
  have hgg : g * σ ≤ σ / 1000 := by nlinarith
  have hX : ‖σ • a‖ = σ := by rw [norm_smul, ha, mul_one, Real.norm_eq_abs, abs_of_pos hσ0]
  have hLn := (abs_norm_sub_norm_le _ _).trans hdist
  rw [hX] at hLn
  obtain ⟨n, hn⟩ : ∃ n, n = Spec.length x := ⟨_, rfl⟩
  have hn' : ‖exactVec x‖ = n := by rw [hn, length_exactVec]
  rw [hn'] at hLn
  have hLb := abs_le.mp hLn
  have hnl : 998 / 1000 * σ ≤ n := by linarith
  have hnh : n ≤ 1002 / 1000 * σ := by linarith
  have hnp : 0 < n := by linarith
  obtain ⟨lo, hsafe⟩ := hR
  have hsf := hsafe n (by linarith) (by linarith)
  obtain ⟨nf, nv⟩ := safe_norm x hvf (hn ▸ hsf)
  rw [← hn] at nv
  push_cast at nv
  have hnn : φ.u * n ≤ d * n := mul_le_mul_of_nonneg_right (huw.trans hwd) hnp.le
  have hN3 : Nr x.norm n (6 * (d * n)) := ⟨nf, nv.trans (by linarith)⟩
  have hdn : d * n ≤ 1 / 1000000 * n := mul_le_mul_of_nonneg_right hd hnp.le
  have hra : |r| ≤ 32 / 10 := by rw [abs_of_nonneg hr0]; linarith
  have K := hT.div hφ hN3 (lo := 99 / 100 * n) (A := 32 / 10) (M := 4 / n) (by positivity) (by rw [abs_of_pos hnp]; linarith) hra
    (by
      have e : (32 / 10 + 21 * g) / (99 / 100 * n) = ((32 / 10 + 21 * g) / (99 / 100)) / n := by field_simp
      rw [e]
      exact (div_le_div_iff_of_pos_right hnp).mpr (by rw [div_le_iff₀ (by norm_num)]; linarith)) (by rw [le_div_iff₀ hnp]; linarith) (by rw [div_le_iff₀ hnp]; linarith)
  replace K := K.mono (f := 46 * (g / n)) (by
    have e1 : 21 * g / (99 / 100 * n) = 21 * 100 / 99 * (g / n) := by field_simp
    have e2 : 32 / 10 * (6 * (d * n)) / (99 / 100 * n * (99 / 100 * n)) = 32 / 10 * 6 * (100 / 99) * (100 / 99) * (d / n) := by
      field_simp
    have e3 : unit φ * (4 / n) = 4 * (unit φ / n) := by ring
    have e4 : unit φ / n ≤ d / n := (div_le_div_iff_of_pos_right hnp).mpr hwd
    have e6 : 0 ≤ g / n := by positivity
    have e5 : d / n ≤ g / n := (div_le_div_iff_of_pos_right hnp).mpr (by linarith)
    rw [e1, e2, e3]
    linarith)
  have hKa : |r / n| ≤ 32 / 10 / n := by rw [abs_div, abs_of_pos hnp]; exact (div_le_div_iff_of_pos_right hnp).mpr hra
  have hvc : |(x.data i).val| ≤ n := by
    have := PiLp.norm_apply_le (exactVec x) i
    rwa [Real.norm_eq_abs, hn'] at this
  have V := (Nr.exact (hvf i)).mul hφ K hvc hKa (M := 4) (by
    have : (n + 0) * (32 / 10 / n + 46 * (g / n)) = 32 / 10 + 46 * g := by field_simp; ring
    rw [this]; linarith) (by norm_num) (by norm_num)
  replace V := V.mono (f := 50 * g) (by
    have : n * (46 * (g / n)) = 46 * g := by field_simp
    rw [this]; linarith)
  have D := direction_near (x := exactVec x) (X := σ • a) (by rw [hn']; exact hnp) (by rw [hX]; exact hσ0) i
  rw [hn', hX] at D
  have D1 : 2 * ‖exactVec x - σ • a‖ / σ ≤ 4 * g := by
    rw [div_le_iff₀ hσ0]; linarith
  have D2 : (σ • a) i / σ = a i := by
    simp only [PiLp.smul_apply, smul_eq_mul]; field_simp
  have D3 : (exactVec x) i = (x.data i).val := rfl
  rw [D2, D3] at D
  refine ⟨V.1, ?_⟩
  have V2 := abs_le.mp V.2
  have e1 : (x.data i).val * (r / n) - r * a i = r * ((x.data i).val / n - a i) := by ring
  have e2 : |(x.data i).val * (r / n) - r * a i| ≤ 32 / 10 * (4 * g) := by
    rw [e1, abs_mul]
    exact mul_le_mul hra (D.trans D1) (abs_nonneg _) (by norm_num)
  have e3 := abs_le.mp e2
  rw [abs_le]; constructor <;> linarith

include hφ hR hd hwd he he' hed ht ht1 ha hq in
set_option maxHeartbeats 1000000 in
/-- **The logarithm** of the quaternion of the rotation by an angle `α` between zero and a full turn about the unit vector
`a`, given up to `δ` by entry: half of the angle along the axis. -/
theorem C97_ln (hα0 : 0 ≤ α) (hα : α ≤ 2 * Real.pi) (hs : 1 / 200000 ≤ Real.sin (α / 2))
    (hs2 : 1000 * (δ + d) ≤ Real.sin (α / 2) ^ 2) (hts : t.val ≤ 9 / 10 * Real.sin (α / 2)) :
    QuatWithin (q.ln t) (angleQuat a (α / 2)) (64 * (δ + d) / Real.sin (α / 2)) := by
  have hw0 : 0 ≤ unit φ := unit_nonneg
  have hd0 : 0 ≤ d := hw0.trans hwd
  have hu0 := φ.u_nonneg
  have htn := φ.tiny_nonneg
  have huw : φ.u ≤ unit φ := by unfold Spec.unit; linarith
  have hq' := quatWithin_iff.mp hq
  have hδ0 : 0 ≤ δ := (hq' 0).nonneg
  obtain ⟨r, hr⟩ : ∃ r, r = α / 2 := ⟨_, rfl⟩
  rw [← hr] at hs hs2 hts ⊢
  obtain ⟨σ, hσ⟩ : ∃ σ, σ = Real.sin r := ⟨_, rfl⟩
  have hr0 : 0 ≤ r := by linarith
  have hrp : r ≤ Real.pi := by linarith
  have hpi := Real.pi_lt_d2
  have hsr : 0 < Real.sin r := by linarith
  rw [← hσ] at hs hs2 hts ⊢
  have hσ0 : 0 < σ := by linarith
  have hσ1 : σ ≤ 1 := hσ ▸ Real.sin_le_one r
  have hσσ : σ ^ 2 ≤ σ := by nlinarith
  have hδd : δ + d ≤ 1 / 1000 := by linarith
  obtain ⟨g, hg⟩ : ∃ g, g = (δ + d) / σ := ⟨_, rfl⟩
  have hgs : g * σ = δ + d := by rw [hg]; field_simp
  have hg0 : 0 ≤ g := by rw [hg]; positivity
  have hgd : δ + d ≤ g := by rw [← hgs]; nlinarith
  have hgσ : 1000 * g ≤ σ := by nlinarith
  obtain ⟨hL, hT⟩ := ln_angle hφ hd hwd he he' hed ha hq hr hσ hr0 hrp hσ0 hs2 hgs
  -- the direction
  have hvf : ∀ i, (q.vector.data i).Finite := fun i => by fin_cases i; exacts [hq.1 1, hq.1 2, hq.1 3]
  have hdist : ‖exactVec q.vector - σ • a‖ ≤ 2 * δ := by
    refine dist_le3 (e := δ) (fun i => ?_) (by linarith) (by nlinarith)
    rw [hσ, hr]
    fin_cases i
    · exact (hq' 1).2
    · exact (hq' 2).2
    · exact (hq' 3).2
  have hX : ‖σ • a‖ = σ := by rw [norm_smul, ha, mul_one, Real.norm_eq_abs, abs_of_pos hσ0]
  have hLn := (abs_norm_sub_norm_le _ _).trans hdist
  rw [hX] at hLn
  obtain ⟨n, hn⟩ : ∃ n, n = Spec.length q.vector := ⟨_, rfl⟩
  have hn' : ‖exactVec q.vector‖ = n := by rw [hn, length_exactVec]
  rw [hn'] at hLn
  have hLb := abs_le.mp hLn
  have hnl : 998 / 1000 * σ ≤ n := by linarith
  have hnh : n ≤ 1002 / 1000 * σ := by linarith
  have hnp : 0 < n := by linarith
  have hth := threshold hφ hR hvf (by rw [← hn]; linarith) ht ht1 (by linarith)
  rw [← hn] at hth
  have hb := hth.2.2.2 (by linarith) (by linarith)
  have hTf : (t * t).Finite := ((Nr.exact ht).mul hφ (Nr.exact ht) (A := 1) (B := 1) (M := 1)
    (by rw [abs_of_nonneg (by linarith)]; linarith) (by rw [abs_of_nonneg (by linarith)]; linarith) (by norm_num) le_rfl (by norm_num)).1
  have hNf := (norm_squared_le hφ hvf (by rw [← hn]; linarith)).1
  have hnb : ¬ q.vector.normSquared ≤ t * t := by
    rw [ieee_le_iff hNf hTf, not_le]
    exact (ieee_lt_iff hTf hNf).mp hb
  have ex : q.ln t = fromParts (fln q.norm) (q.vector * (facos (q.scalar / q.norm) / q.vector.norm)) := by
    unfold Quat.ln
    simp only [if_neg hnb]
    rfl
  have vec := fun i => scaled_direction hφ hR hd hwd ha hvf hr0 hrp hs hσ1 (by linarith) hT (by linarith) hgσ (hdist.trans (by linarith)) i
  rw [show 64 * (δ + d) / σ = 64 * g by rw [hg]; ring, ex]
  refine quatWithin_iff.mpr fun i => ?_
  fin_cases i
  · exact hL.mono (by linarith)
  · exact vec 0
  · exact vec 1
  · exact vec 2

include hφ hR hd hwd he he' hed ht ht1 ha hq in
set_option maxHeartbeats 1000000 in
/-- **Powers** with exponents between minus one and one: the angle is multiplied by the exponent. -/
theorem C97_powf (hα0 : 0 ≤ α) (hα : α ≤ 2 * Real.pi) (hs : 1 / 200000 ≤ Real.sin (α / 2))
    (hs2 : 10000 * (δ + d) ≤ Real.sin (α / 2) ^ 2) (hts : t.val ≤ 9 / 10 * Real.sin (α / 2)) (ht2 : t.val ≤ 1 / 2) (htd : d ≤ 12 * t.val)
    {x : Ieee φ} (hx : x.Finite) (hx1 : |x.val| ≤ 1) :
    QuatWithin (q.powf t x) (turnQuat a (x.val * α)) (1525 * (δ + d) / Real.sin (α / 2) + 3 * t.val) := by
  have hw0 : 0 ≤ unit φ := unit_nonneg
  have hd0 : 0 ≤ d := hw0.trans hwd
  have hδ0 : 0 ≤ δ := (quatWithin_iff.mp hq 0).nonneg
  have hL := quatWithin_iff.mp (C97_ln hφ hR hd hwd he he' hed ht ht1 ha hq hα0 hα hs (by linarith) hts)
  obtain ⟨σ, hσ⟩ : ∃ σ, σ = Real.sin (α / 2) := ⟨_, rfl⟩
  rw [← hσ] at hs hs2 hts hL ⊢
  have hσ0 : 0 < σ := by linarith
  have hσ1 : σ ≤ 1 := hσ ▸ Real.sin_le_one _
  obtain ⟨g, hg⟩ : ∃ g, g = (δ + d) / σ := ⟨_, rfl⟩
  have hgs : g * σ = δ + d := by rw [hg]; field_simp
  have hg0 : 0 ≤ g := by rw [hg]; positivity
  have hgd : δ + d ≤ g := by rw [← hgs]; nlinarith
  have hgσ : 10000 * g ≤ σ := by nlinarith
  rw [show 64 * (δ + d) / σ = 64 * g by rw [hg]; ring] at hL
  have hpi := Real.pi_lt_d2
  have a1 := unit_comp ha
  have hc : ∀ i, |cmp (angleQuat a (α / 2)) i| ≤ 32 / 10 := fun i => by
    have hv : ∀ k, |α / 2 * a k| ≤ 32 / 10 := fun k => by
      rw [abs_mul, abs_of_nonneg (by linarith)]
      have := mul_le_mul (show α / 2 ≤ 32 / 10 by linarith) (a1 k) (abs_nonneg _) (by norm_num)
      linarith
    fin_cases i
    · change |(0 : ℝ)| ≤ _
      norm_num
    · exact hv 0
    · exact hv 1
    · exact hv 2
  have hP : QuatWithin (q.ln t * x) (angleQuat a (x.val * (α / 2))) (64 * g + 4 * d) := by
    refine quatWithin_iff.mpr fun i => ?_
    have := ((hL i).mul hφ (Nr.exact hx) (hc i) hx1 (M := 4) (by linarith) (by norm_num) (by norm_num)).mono (f := 64 * g + 4 * d)
      (by linarith)
    have e : cmp (angleQuat a (α / 2)) i * x.val = cmp (angleQuat a (x.val * (α / 2))) i := by
      fin_cases i
      · exact zero_mul _
      · change α / 2 * a 0 * x.val = x.val * (α / 2) * a 0
        ring
      · change α / 2 * a 1 * x.val = x.val * (α / 2) * a 1
        ring
      · change α / 2 * a 2 * x.val = x.val * (α / 2) * a 2
        ring
    rw [e] at this
    fin_cases i <;> exact this
  have him : ‖(angleQuat a (x.val * (α / 2))).im‖ ≤ 39 / 10 := by
    have h1 : imVec (angleQuat a (x.val * (α / 2))) = (x.val * (α / 2)) • a := by
      ext i; fin_cases i <;> rfl
    rw [← imVec_norm, h1, norm_smul, ha, mul_one, Real.norm_eq_abs, abs_mul, abs_of_nonneg (show 0 ≤ α / 2 by linarith)]
    nlinarith [abs_nonneg x.val]
  have key := C97_exp hφ hR hd hwd he he' hed ht ht1 ht2 htd hP (by linarith) (by change |(0 : ℝ)| ≤ 1; norm_num) him
  rw [angleQuat_exp ha, show 2 * (x.val * (α / 2)) = x.val * α by ring] at key
  refine quatWithin_iff.mpr fun i => (quatWithin_iff.mp key i).mono ?_
  rw [show 1525 * (δ + d) / σ = 1525 * g by rw [hg]; ring]
  linarith

include hφ hR hd hwd he he' hed ht ht1 ha hq in
/-- **The exponential of the logarithm** is the quaternion, up to rounding. -/
theorem C97_exp_ln (hα0 : 0 ≤ α) (hα : α ≤ 2 * Real.pi) (hs : 1 / 200000 ≤ Real.sin (α / 2))
    (hs2 : 10000 * (δ + d) ≤ Real.sin (α / 2) ^ 2) (hts : t.val ≤ 9 / 10 * Real.sin (α / 2)) (ht2 : t.val ≤ 1 / 2) (htd : d ≤ 12 * t.val) :
    QuatWithin ((q.ln t).exp t) (turnQuat a α) (1445 * (δ + d) / Real.sin (α / 2) + 3 * t.val) := by
  have hw0 : 0 ≤ unit φ := unit_nonneg
  have hd0 : 0 ≤ d := hw0.trans hwd
  have hδ0 : 0 ≤ δ := (quatWithin_iff.mp hq 0).nonneg
  have hL := C97_ln hφ hR hd hwd he he' hed ht ht1 ha hq hα0 hα hs (by linarith) hts
  obtain ⟨σ, hσ⟩ : ∃ σ, σ = Real.sin (α / 2) := ⟨_, rfl⟩
  rw [← hσ] at hs hs2 hts hL ⊢
  have hσ0 : 0 < σ := by linarith
  have hσ1 : σ ≤ 1 := hσ ▸ Real.sin_le_one _
  obtain ⟨g, hg⟩ : ∃ g, g = (δ + d) / σ := ⟨_, rfl⟩
  have hgs : g * σ = δ + d := by rw [hg]; field_simp
  have hg0 : 0 ≤ g := by rw [hg]; positivity
  have hgd : δ + d ≤ g := by rw [← hgs]; nlinarith
  have hgσ : 10000 * g ≤ σ := by nlinarith
  rw [show 64 * (δ + d) / σ = 64 * g by rw [hg]; ring] at hL
  have hpi := Real.pi_lt_d2
  have him : ‖(angleQuat a (α / 2)).im‖ ≤ 39 / 10 := by
    have h1 : imVec (angleQuat a (α / 2)) = (α / 2) • a := by
      ext i; fin_cases i <;> rfl
    rw [← imVec_norm, h1, norm_smul, ha, mul_one, Real.norm_eq_abs, abs_of_nonneg (show 0 ≤ α / 2 by linarith)]
    linarith
  have key := C97_exp hφ hR hd hwd he he' hed ht ht1 ht2 htd hL (by linarith) (by change |(0 : ℝ)| ≤ 1; norm_num) him
  rw [angleQuat_exp ha, show 2 * (α / 2) = α by ring] at key
  refine quatWithin_iff.mpr fun i => (quatWithin_iff.mp key i).mono ?_
  rw [show 1445 * (δ + d) / σ = 1445 * g by rw [hg]; ring]
  linarith

end

include hφ hR hd hwd he' hed ht ht1 in
/-- **Small angles.**  If the vector part is not longer than `0.99` times the threshold, the logarithm is real: zero up to the
errors of the quaternion and of the library for quaternions near one - and for quaternions near minus one. -/
theorem C97_ln_small {q : Quat (Ieee φ)} (hq : ∀ i, (q.coords.data i).Finite) {δ : ℝ} (hδ : δ ≤ 1 / 2) (h0 : |(|q.scalar.val| - 1)| ≤ δ)
    (ht2 : t.val ≤ 1) (hv : Spec.length q.vector ≤ 99 / 100 * t.val) : QuatWithin (q.ln t) 0 (2 * δ + d) := by
  have hw0 : 0 ≤ unit φ := unit_nonneg
  have hd0 : 0 ≤ d := hw0.trans hwd
  have hu0 := φ.u_nonneg
  have hδ0 : 0 ≤ δ := (abs_nonneg _).trans h0
  have hvf : ∀ i, (q.vector.data i).Finite := fun i => by fin_cases i; exacts [hq 1, hq 2, hq 3]
  have hth := (threshold hφ hR hvf (by linarith) ht ht1 ht2).2.1 hv
  have hTf : (t * t).Finite := ((Nr.exact ht).mul hφ (Nr.exact ht) (A := 1) (B := 1) (M := 1)
    (by rw [abs_of_nonneg (by linarith)]; linarith) (by rw [abs_of_nonneg (by linarith)]; linarith) (by norm_num) le_rfl (by norm_num)).1
  have hNf := (norm_squared_le hφ hvf (by linarith)).1
  have hyb : q.vector.normSquared ≤ t * t := by
    rw [ieee_le_iff hNf hTf]
    rw [gt_iff_lt, ieee_lt_iff hTf hNf, not_lt] at hth
    exact hth
  have ex : q.ln t = fromParts (fln (sabs q.scalar)) 0 := by
    unfold Quat.ln
    simp only [if_pos hyb]
  have hsf : (sabs q.scalar).Finite ∧ (sabs q.scalar).val = |q.scalar.val| := by
    obtain ⟨s, m, h, e⟩ := hq 0
    have e' : q.scalar = fin s m h := e
    rw [e']
    refine ⟨finite_fin _ _ _, ?_⟩
    cases s <;> simp [Ieee.val, signed, sabs, abs_of_nonneg h.1]
  have hb := abs_le.mp h0
  obtain ⟨l1, l2⟩ := he'.ln _ hsf.1 (by rw [hsf.2]; linarith) (by rw [hsf.2]; linarith)
  have l3 := log_near (x := (sabs q.scalar).val) (by rw [hsf.2]; exact h0) hδ
  have hL : Nr (fln (sabs q.scalar)) 0 (2 * δ + d) := ⟨l1, by
    have k1 := abs_le.mp l2
    have k2 := abs_le.mp l3
    rw [sub_zero, abs_le]; constructor <;> linarith⟩
  have hZ : Nr (0 : Ieee φ) 0 (2 * δ + d) := Nr.zero.mono (by linarith)
  rw [ex]
  refine quatWithin_iff.mpr fun i => ?_
  fin_cases i
  · exact hL
  · exact hZ
  · exact hZ
  · exact hZ

end

/-! ### the two formats -/

/-- In `f64`, with the threshold of the code and a library accurate to a few units: quaternions accurate to `2^-45`. -/
theorem C97_f64 [Lib f64] {e : ℝ} (he : CosineWithin f64 e) (he' : ExpLogWithin f64 e) (hed : e ≤ 2 ^ (-49 : ℤ)) {t : Ieee f64}
    (ht : t.Finite) (ht1 : t.val = 2 ^ (-52 : ℤ)) {q : Quat (Ieee f64)} {a : EuclideanSpace ℝ (Fin 3)} (ha : ‖a‖ = 1) {α : ℝ}
    (hq : QuatWithin q (turnQuat a α) (2 ^ (-45 : ℤ))) (hα0 : 0 ≤ α) (hα : α ≤ 2 * Real.pi) (hs : 2 ^ (-15 : ℤ) ≤ Real.sin (α / 2)) :
    QuatWithin (q.ln t) (angleQuat a (α / 2)) (2 ^ (-38 : ℤ) / Real.sin (α / 2)) ∧
    QuatWithin ((q.ln t).exp t) (turnQuat a α) (2 ^ (-34 : ℤ) / Real.sin (α / 2)) ∧
    ∀ x : Ieee f64, x.Finite → |x.val| ≤ 1 → QuatWithin (q.powf t x) (turnQuat a (x.val * α)) (2 ^ (-34 : ℤ) / Real.sin (α / 2)) := by
  have hw : unit f64 ≤ 2 ^ (-49 : ℤ) := by
    refine unit64.trans ?_
    have h : (2 : ℝ) ^ (-1075 : ℤ) ≤ 2 ^ (-53 : ℤ) := zpow_le_zpow_right₀ one_le_two (by norm_num)
    norm_num at h ⊢
    linarith
  have hu : f64.u = 2 ^ (-53 : ℤ) := rfl
  have hs0 : 0 < Real.sin (α / 2) := lt_of_lt_of_le (by positivity) hs
  have hs2 : 10000 * ((2 : ℝ) ^ (-45 : ℤ) + 2 ^ (-49 : ℤ)) ≤ Real.sin (α / 2) ^ 2 := by
    refine le_trans ?_ (pow_le_pow_left₀ (by positivity) hs 2)
    norm_num
  have hs3 : 1000 * ((2 : ℝ) ^ (-45 : ℤ) + 2 ^ (-49 : ℤ)) ≤ Real.sin (α / 2) ^ 2 := le_trans (by norm_num) hs2
  have hs4 : 1 / 200000 ≤ Real.sin (α / 2) := le_trans (by norm_num) hs
  have hd : (2 : ℝ) ^ (-49 : ℤ) ≤ 1 / 1000000 := by norm_num
  have ht3 : f64.u ≤ t.val := by rw [ht1, hu]; norm_num
  have ht2 : t.val ≤ 9 / 10 * Real.sin (α / 2) := by rw [ht1]; norm_num at hs ⊢; linarith
  have ht4 : t.val ≤ 1 / 2 := by rw [ht1]; norm_num
  have htd : (2 : ℝ) ^ (-49 : ℤ) ≤ 12 * t.val := by rw [ht1]; norm_num
  have hσ1 := Real.sin_le_one (α / 2)
  have hts : 3 * t.val ≤ 3 * 2 ^ (-52 : ℤ) / Real.sin (α / 2) := by
    rw [ht1]; exact le_div_self (by positivity) hs0 hσ1
  refine ⟨quatWithin_iff.mpr fun i => (quatWithin_iff.mp (C97_ln fine64 roomy64 hd hw he he' hed ht ht3 ha hq hα0 hα hs4 hs3 ht2) i).mono
    ((div_le_div_iff_of_pos_right hs0).mpr (by norm_num)),
    quatWithin_iff.mpr fun i => (quatWithin_iff.mp (C97_exp_ln fine64 roomy64 hd hw he he' hed ht ht3 ha hq hα0 hα hs4 hs2 ht2 ht4 htd) i).mono ?_,
    fun x hx hx1 => quatWithin_iff.mpr fun i => (quatWithin_iff.mp (C97_powf fine64 roomy64 hd hw he he' hed ht ht3 ha hq hα0 hα hs4 hs2 ht2 ht4 htd
      hx hx1) i).mono ?_⟩
  · refine (add_le_add_right hts _).trans ?_
    rw [← add_div]
    exact (div_le_div_iff_of_pos_right hs0).mpr (by norm_num)
  · refine (add_le_add_right hts _).trans ?_
    rw [← add_div]
    exact (div_le_div_iff_of_pos_right hs0).mpr (by norm_num)

/-- **No such bound holds for small angles.**  Whatever the library, the logarithm of the quaternion `(1, 0, 0, 2^-28)`, which
is accurate to `2^-53`, is zero up to `2^-45`: the angle `2^-27` of the rotation is lost, and the exponential of the logarithm
is not the quaternion. -/
theorem C97_small_angle_fails [Lib f64] {e : ℝ} (he : CosineWithin f64 e) (he' : ExpLogWithin f64 e) (hed : e ≤ 2 ^ (-49 : ℤ))
    {t : Ieee f64} (ht : t.Finite) (ht1 : t.val = 2 ^ (-52 : ℤ)) :
    ∃ q : Quat (Ieee f64), QuatWithin q (turnQuat (coordAxis 2) (2 ^ (-27 : ℤ))) (2 ^ (-53 : ℤ)) ∧
      ¬ QuatWithin (q.ln t) (angleQuat (coordAxis 2) (2 ^ (-28 : ℤ))) (2 ^ (-29 : ℤ)) ∧
      ¬ QuatWithin ((q.ln t).exp t) (turnQuat (coordAxis 2) (2 ^ (-27 : ℤ))) (2 ^ (-29 : ℤ)) := by
  have hw : unit f64 ≤ 2 ^ (-52 : ℤ) := by
    refine unit64.trans ?_
    have h : (2 : ℝ) ^ (-1075 : ℤ) ≤ 2 ^ (-53 : ℤ) := zpow_le_zpow_right₀ one_le_two (by norm_num)
    norm_num at h ⊢
    linarith
  have hw0 : 0 ≤ unit f64 := unit_nonneg
  have hu : f64.u = 2 ^ (-53 : ℤ) := rfl
  have hs : Is (num (2 ^ (-28 : ℤ))) (2 ^ (-28 : ℤ)) := is_num' (fl64_two_zpow (by norm_num)) (by norm_num)
  obtain ⟨s, hsd⟩ : ∃ s : Ieee f64, s = num (2 ^ (-28 : ℤ)) := ⟨_, rfl⟩
  rw [← hsd] at hs
  obtain ⟨q, hqd⟩ : ∃ q : Quat (Ieee f64), q = Quat.fromParts 1 (Vec.new3 0 0 s) := ⟨_, rfl⟩
  have hvf : ∀ i, (q.vector.data i).Finite := fun i => by
    rw [hqd]; fin_cases i; exacts [finite_zero, finite_zero, hs.1]
  have hv2 : ∀ i, (q.vector.data i).val = if i = 2 then 2 ^ (-28 : ℤ) else 0 := fun i => by
    rw [hqd]; fin_cases i; exacts [val_zero, val_zero, hs.2]
  have hX : exactVec q.vector = (2 ^ (-28 : ℤ) : ℝ) • coordAxis 2 := by
    ext i
    change (q.vector.data i).val = _
    rw [hv2]
    fin_cases i <;> simp [coordAxis]
  have hl : Spec.length q.vector = 2 ^ (-28 : ℤ) := by
    rw [length_exactVec, hX, norm_smul, coordAxis_norm, mul_one, Real.norm_eq_abs, abs_of_pos (by positivity)]
  have hth := (threshold fine64 roomy64 hvf (by rw [hl]; norm_num) ht (by rw [ht1, hu]; norm_num) (by rw [ht1]; norm_num)).2.2.2
    (by rw [hl, hu]; norm_num) (by rw [hl, ht1]; norm_num)
  have hTf : (t * t).Finite := ((Nr.exact ht).mul fine64 (Nr.exact ht) (A := 1) (B := 1) (M := 1)
    (by rw [ht1]; norm_num) (by rw [ht1]; norm_num) (by norm_num) le_rfl (by norm_num)).1
  have hNf := (norm_squared_le fine64 hvf (by rw [hl]; norm_num)).1
  have hnb : ¬ q.vector.normSquared ≤ t * t := by
    rw [ieee_le_iff hNf hTf, not_le]
    exact (ieee_lt_iff hTf hNf).mp hth
  have ex : q.ln t = fromParts (fln q.norm) (q.vector * (facos (q.scalar / q.norm) / q.vector.norm)) := by
    unfold Quat.ln
    simp only [if_neg hnb]
    rfl
  have b100 : |(1 : ℝ)| ≤ 2 ^ (100 : ℤ) := by norm_num
  have hn1 : Is q.norm 1 := by
    have hz : Is ((0 : Ieee f64) * 0) 0 := Is.zero.zero_mul
    have h1 : Is ((1 : Ieee f64) * 1) 1 := Is.one.mul_one b100
    have hss : Is (s * s) (1 / 2 ^ 56) := hs.mul hs (by
      rw [← zpow_add₀ two_ne_zero, fl64_two_zpow (by norm_num)]; norm_num) (by norm_num)
    have h2 : Is (0 + 1 * 1 + 0 * 0 + 0 * 0 + s * s : Ieee f64) 1 :=
      (((Is.zero.zero_add h1 b100).add_zero hz b100).add_zero hz b100).add hss (fl64 0 4503599627370496) b100
    rw [hqd]
    exact h2.sqrt zero_le_one (by rw [Real.sqrt_one, f64.one]) b100
  have hc : Is (q.scalar / q.norm) 1 := by
    have h1 : Is q.scalar 1 := by rw [hqd]; exact Is.one
    exact h1.div hn1 one_ne_zero (by rw [div_one, f64.one]) b100
  obtain ⟨f1, f2⟩ := he.acos _ hc.1 (by rw [hc.2, abs_one])
  rw [hc.2, Real.arccos_one] at f2
  have hT : Nr (facos (q.scalar / q.norm)) 0 (2 ^ (-49 : ℤ)) := ⟨f1, f2.trans hed⟩
  obtain ⟨lo, hsafe⟩ := roomy64
  have hsf := hsafe (2 ^ (-28 : ℤ)) (by rw [hu]; norm_num) (by norm_num)
  obtain ⟨nf, nv⟩ := safe_norm q.vector hvf (by rw [hl]; exact hsf)
  rw [hl, hu] at nv
  have hN3 : Nr q.vector.norm (2 ^ (-28 : ℤ)) (2 ^ (-40 : ℤ)) := ⟨nf, nv.trans (by norm_num)⟩
  have K := (hT.div fine64 hN3 (lo := 2 ^ (-29 : ℤ)) (A := 0) (M := 1) (by positivity) (by rw [abs_of_pos (by positivity)]; norm_num)
    (by norm_num) (by norm_num) le_rfl (by norm_num)).mono (f := 2 ^ (-19 : ℤ)) (by norm_num at hw ⊢; linarith)
  rw [zero_div] at K
  have V : ∀ i, Nr (q.vector.data i * (facos (q.scalar / q.norm) / q.vector.norm)) 0 (2 ^ (-45 : ℤ)) := fun i => by
    have := ((Nr.exact (hvf i)).mul fine64 K (A := 2 ^ (-28 : ℤ)) (B := 0) (M := 1) (by
      rw [hv2]
      split_ifs
      · rw [abs_of_pos (by positivity)]
      · rw [abs_zero]; positivity) (by norm_num) (by norm_num) le_rfl (by norm_num)).mono (f := 2 ^ (-45 : ℤ)) (by norm_num at hw ⊢; linarith)
    rwa [mul_zero] at this
  obtain ⟨l1, l2⟩ := he'.ln _ hn1.1 (by rw [hn1.2]; norm_num) (by rw [hn1.2]; norm_num)
  rw [hn1.2, Real.log_one] at l2
  have hL : Nr (fln q.norm) 0 (2 ^ (-45 : ℤ)) := ⟨l1, l2.trans (hed.trans (by norm_num))⟩
  have hln : QuatWithin (q.ln t) 0 (2 ^ (-45 : ℤ)) := by
    rw [ex]
    refine quatWithin_iff.mpr fun i => ?_
    fin_cases i
    · exact hL
    · exact V 0
    · exact V 1
    · exact V 2
  have him : ‖(0 : ℍ[ℝ]).im‖ ≤ 39 / 10 := by simp; norm_num
  have hexp := C97_exp (d := 2 ^ (-49 : ℤ)) fine64 roomy64 (by norm_num) (hw.trans (by norm_num)) he he' hed ht (by rw [ht1, hu]; norm_num)
    (by rw [ht1]; norm_num) (by rw [ht1]; norm_num) hln (by norm_num) (by simp) him
  rw [NormedSpace.exp_zero] at hexp
  have e0 : (2 : ℝ) ^ (-27 : ℤ) / 2 = 2 ^ (-28 : ℤ) := by norm_num
  obtain ⟨θ, hθ⟩ : ∃ θ : ℝ, θ = 2 ^ (-28 : ℤ) := ⟨_, rfl⟩
  have hθ' : θ = 1 / 268435456 := by rw [hθ]; norm_num
  have c1 := Real.one_sub_sq_div_two_le_cos (x := θ)
  have c2 := Real.cos_le_one θ
  have s1 := Real.sin_lt (show 0 < θ by rw [hθ']; norm_num)
  have s2 := Real.sin_gt_sub_cube (x := θ) (by rw [hθ']; norm_num)
  have a2 : (coordAxis 2) 2 = 1 := by simp [coordAxis]
  have a0 : (coordAxis 2) 0 = 0 := by simp [coordAxis]
  have a1 : (coordAxis 2) 1 = 0 := by simp [coordAxis]
  refine ⟨q, quatWithin_iff.mpr fun i => ?_, fun hc => ?_, fun hc => ?_⟩
  · rw [hqd]
    fin_cases i
    · change Nr (1 : Ieee f64) (Real.cos (2 ^ (-27 : ℤ) / 2)) _
      rw [e0, ← hθ]
      refine ⟨finite_one, ?_⟩
      rw [val_one, abs_le]
      rw [hθ'] at c1 c2 ⊢
      constructor <;> norm_num at c1 c2 ⊢ <;> linarith
    · change Nr (0 : Ieee f64) (Real.sin (2 ^ (-27 : ℤ) / 2) * (coordAxis 2) 0) _
      rw [a0, mul_zero]
      exact Nr.zero.mono (by positivity)
    · change Nr (0 : Ieee f64) (Real.sin (2 ^ (-27 : ℤ) / 2) * (coordAxis 2) 1) _
      rw [a1, mul_zero]
      exact Nr.zero.mono (by positivity)
    · change Nr s (Real.sin (2 ^ (-27 : ℤ) / 2) * (coordAxis 2) 2) _
      rw [a2, mul_one, e0]
      refine ⟨hs.1, ?_⟩
      rw [hs.2, ← hθ, abs_le]
      rw [hθ'] at s1 s2 ⊢
      constructor <;> norm_num at s1 s2 ⊢ <;> linarith
  · have h1 := (quatWithin_iff.mp hln 3).2
    have h2 := (quatWithin_iff.mp hc 3).2
    change |_ - (0 : ℝ)| ≤ _ at h1
    change |_ - 2 ^ (-28 : ℤ) * (coordAxis 2) 2| ≤ _ at h2
    rw [a2] at h2
    have h3 := abs_le.mp h1
    have h4 := abs_le.mp h2
    norm_num at h3 h4
    linarith [h3.2, h4.1]
  · have h1 := (quatWithin_iff.mp hexp 3).2
    have h2 := (quatWithin_iff.mp hc 3).2
    change |_ - (0 : ℝ)| ≤ _ at h1
    change |_ - Real.sin (2 ^ (-27 : ℤ) / 2) * (coordAxis 2) 2| ≤ _ at h2
    rw [a2, e0, ← hθ] at h2
    rw [ht1] at h1
    have h3 := abs_le.mp h1
    have h4 := abs_le.mp h2
    rw [hθ'] at s2 h4
    norm_num at h3 h4 s2
    linarith [h3.2, h4.1]

section
attribute [local instance] Library64.correctlyRounded

/-- a library with these accuracies exists -/
theorem expLogWithin_correctlyRounded : ExpLogWithin f64 (2 ^ (-50 : ℤ)) where
  exp := by
    rintro _ ⟨s, m, h, rfl⟩ h1
    change (Ieee.round false (Real.exp (signed s m)) : Ieee f64).Finite ∧ |(Ieee.round false (Real.exp (signed s m)) : Ieee f64).val - Real.exp (signed s m)| ≤ _
    refine round_near ?_
    have h2 : signed s m ≤ 11 / 10 := (abs_le.mp h1).2
    rw [abs_of_pos (Real.exp_pos _)]
    have h3 : Real.exp (signed s m) ≤ Real.exp (101 / 100 + 1 / 10) := Real.exp_le_exp.mpr (by linarith)
    rw [Real.exp_add] at h3
    have h4 := exp_le (le_refl (101 / 100 : ℝ))
    have h5 := Real.add_one_le_exp (-(1 / 10) : ℝ)
    have h6 : Real.exp (1 / 10) * Real.exp (-(1 / 10)) = 1 := by rw [← Real.exp_add]; simp
    have h7 := Real.exp_pos (1 / 10)
    have h8 : Real.exp (1 / 10) ≤ 10 / 9 := by nlinarith
    have := mul_le_mul h4 h8 h7.le (by norm_num)
    linarith
  ln := by
    rintro _ ⟨s, m, h, rfl⟩ h1 h2
    have hs : s = false := by
      cases s
      · rfl
      · have h3 : (1 : ℝ) / 2 ≤ -m := h1
        have := h.1
        linarith
    subst hs
    have h3 : (1 : ℝ) / 2 ≤ m := h1
    have h4 : m ≤ 2 := h2
    have hm : m ≠ 0 := by linarith
    change (if m = 0 then inf true else Ieee.round false (Real.log m) : Ieee f64).Finite ∧
      |(if m = 0 then inf true else Ieee.round false (Real.log m) : Ieee f64).val - Real.log m| ≤ _
    rw [if_neg hm]
    refine round_near ?_
    have h5 := Real.log_le_sub_one_of_pos (show 0 < m by linarith)
    have h6 := Real.one_sub_inv_le_log_of_pos (show 0 < m by linarith)
    have h7 : m⁻¹ ≤ 2 := by rw [inv_le_comm₀ (by linarith) (by norm_num)]; linarith
    rw [abs_le]; constructor <;> linarith

end

/-- accurate libraries exist -/
example : ∃ _ : Lib f64, CosineWithin f64 (2 ^ (-50 : ℤ)) ∧ ExpLogWithin f64 (2 ^ (-50 : ℤ)) :=
  ⟨(Library64.correctlyRounded).toLib, cosineWithin_correctlyRounded, expLogWithin_correctlyRounded⟩

/-- the half turn about the third axis -/
example : ∃ (q : Quat (Ieee f64)) (a : EuclideanSpace ℝ (Fin 3)) (t : Ieee f64), ‖a‖ = 1 ∧ QuatWithin q (turnQuat a Real.pi) (2 ^ (-45 : ℤ)) ∧
    (2 : ℝ) ^ (-15 : ℤ) ≤ Real.sin (Real.pi / 2) ∧ t.Finite ∧ t.val = 2 ^ (-52 : ℤ) := by
  have hp : (0 : ℝ) ≤ 2 ^ (-45 : ℤ) := by positivity
  have h1 : Nr (1 : Ieee f64) 1 (2 ^ (-45 : ℤ)) := Nr.one.mono hp
  have h0 : Nr (0 : Ieee f64) 0 (2 ^ (-45 : ℤ)) := Nr.zero.mono hp
  have ht : Is (num (2 ^ (-52 : ℤ))) (2 ^ (-52 : ℤ)) := is_num' (fl64_two_zpow (by norm_num)) (by norm_num)
  refine ⟨Quat.fromParts 0 (Vec.new3 0 0 1), coordAxis 2, num (2 ^ (-52 : ℤ)), coordAxis_norm 2, quatWithin_iff.mpr fun i => ?_,
    by rw [Real.sin_pi_div_two]; norm_num, ht.1, ht.2⟩
  have e : turnQuat (coordAxis 2) Real.pi = ⟨0, 0, 0, 1⟩ := by
    unfold turnQuat coordAxis
    rw [Real.sin_pi_div_two, Real.cos_pi_div_two]
    simp
    rfl
  rw [e]
  fin_cases i
  · exact h0
  · exact h0
  · exact h0
  · exact h1

end Cgl
