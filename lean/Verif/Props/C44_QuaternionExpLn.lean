import Verif.Lemmas.QuatPlane
import Verif.Props.C39_QuaternionAlgebra
import Mathlib.Analysis.Normed.Algebra.QuaternionExponential
import Mathlib.Analysis.SpecialFunctions.Trigonometric.Bounds

/-!
# C44 - quaternion exponential, logarithm, powers and square root

Exact real arithmetic. `eps` is the machine epsilon the public functions pass: a vector part of norm at most
`eps` is treated as zero. The exact statements are therefore about quaternions whose vector part is zero or
longer than `eps`; error bounds cover the rest.
-/

namespace Cgl
open Quat
open scoped Quaternion

/-- the vector part is exactly zero, or long enough not to be dropped -/
def Spec.Resolved (eps : ℝ) (q : Quat ℝ) : Prop := q.vector = 0 ∨ eps < q.vector.norm

theorem hamilton_im_norm (q : Quat ℝ) : ‖(Spec.hamilton q).im‖ = q.vector.norm := by
  have h : ‖(Spec.hamilton q).im‖ * ‖(Spec.hamilton q).im‖ = q.vector.normSquared := by
    rw [← Quaternion.normSq_eq_norm_mul_self, Quaternion.normSq_def', vector_normSquared]
    simp; ring
  rw [Vec.norm_def, ← h, Real.sqrt_mul_self (_root_.norm_nonneg _)]

/-- `exp` is the exponential power series of the quaternion algebra. -/
theorem C44_exp {eps : ℝ} (heps : 0 ≤ eps) (q : Quat ℝ) (h : Spec.Resolved eps q) :
    Spec.hamilton (q.exp eps) = NormedSpace.exp (Spec.hamilton q) := by
  rw [Quaternion.exp_eq, hamilton_im_norm]
  unfold Quat.exp
  dsimp only
  by_cases hle : q.vector.normSquared ≤ eps * eps
  · rw [if_pos hle]
    have h0 : q.vector = 0 := by
      rcases h with h | h
      · exact h
      · rw [← Vec.norm_mul_norm] at hle
        nlinarith [q.vector.norm_nonneg]
    have hn : q.vector.norm = 0 := (Vec.norm_eq_zero _).mpr h0
    rw [hn]
    ext <;> simp [← Real.exp_eq_exp_ℝ]
  · rw [if_neg hle]
    change Spec.hamilton (fromParts (Real.exp q.s * Real.cos q.vector.norm)
      (q.vector * (Real.exp q.s * Real.sin q.vector.norm / q.vector.norm))) = _
    ext <;> simp [← Real.exp_eq_exp_ℝ] <;> ring

/-- Dropping a vector part of norm at most `eps` changes the exponential by at most `e^s eps`. -/
theorem C44_exp_error {eps : ℝ} (heps : 0 ≤ eps) (q : Quat ℝ) :
    ‖Spec.hamilton (q.exp eps) - NormedSpace.exp (Spec.hamilton q)‖ ≤ Real.exp q.s * eps := by
  by_cases h : Spec.Resolved eps q
  · rw [C44_exp heps q h, sub_self, norm_zero]; positivity
  · have hv : q.vector.norm ≤ eps := by
      unfold Spec.Resolved at h; push Not at h; exact h.2
    have hv0 : q.vector ≠ 0 := by unfold Spec.Resolved at h; push Not at h; exact h.1
    have hpos := Vec.norm_pos hv0
    have hle : q.vector.normSquared ≤ eps * eps := by
      rw [← Vec.norm_mul_norm]; nlinarith
    have hns : q.vector.norm * q.vector.norm = q.x * q.x + q.y * q.y + q.z * q.z := by
      rw [Vec.norm_mul_norm, vector_normSquared]
    rw [Quaternion.exp_eq, hamilton_im_norm]
    unfold Quat.exp
    dsimp only
    rw [if_pos hle]
    set n := q.vector.norm with hn
    have key : ‖Spec.hamilton (fromParts (fexp q.scalar) 0) - NormedSpace.exp (Spec.hamilton q).re •
        (((Real.cos n : ℝ) : ℍ[ℝ]) + (Real.sin n / n) • (Spec.hamilton q).im)‖ ^ 2 =
        (Real.exp q.s) ^ 2 * (2 - 2 * Real.cos n) := by
      rw [sq, ← Quaternion.normSq_eq_norm_mul_self, Quaternion.normSq_def']
      have hsc := Real.sin_sq_add_cos_sq n
      simp [← Real.exp_eq_exp_ℝ]
      have e : (Real.exp q.s * (Real.sin n / n * q.x)) ^ 2 + (Real.exp q.s * (Real.sin n / n * q.y)) ^ 2 +
          (Real.exp q.s * (Real.sin n / n * q.z)) ^ 2 = Real.exp q.s ^ 2 * Real.sin n ^ 2 := by
        have : (Real.exp q.s * (Real.sin n / n * q.x)) ^ 2 + (Real.exp q.s * (Real.sin n / n * q.y)) ^ 2 +
          (Real.exp q.s * (Real.sin n / n * q.z)) ^ 2 =
          Real.exp q.s ^ 2 * (Real.sin n / n) ^ 2 * (q.x * q.x + q.y * q.y + q.z * q.z) := by ring
        rw [this, ← hns]; field_simp
      linear_combination e + Real.exp q.s ^ 2 * hsc
    have hcos : 1 - n ^ 2 / 2 ≤ Real.cos n := Real.one_sub_sq_div_two_le_cos
    have he := Real.exp_pos q.s
    apply (sq_le_sq₀ (_root_.norm_nonneg _) (by positivity)).mp
    rw [key, mul_pow]
    apply mul_le_mul_of_nonneg_left _ (by positivity)
    nlinarith

/-! ### planes -/

theorem resolved_plane {u : Vec ℝ 3} (hu : u.normSquared = 1) {c : ℂ} {eps : ℝ} :
    Spec.Resolved eps (plane u c) ↔ c.im = 0 ∨ eps < |c.im| := by
  unfold Spec.Resolved
  rw [plane_vector_norm c hu, ← Vec.norm_eq_zero, plane_vector_norm c hu, abs_eq_zero]

/-- the exponential with the vector part dropped -/
theorem plane_exp_small {u : Vec ℝ 3} (hu : u.normSquared = 1) (c : ℂ) {eps : ℝ} (heps : 0 ≤ eps)
    (h : |c.im| ≤ eps) : (plane u c).exp eps = plane u (Real.exp c.re : ℝ) := by
  unfold Quat.exp
  dsimp only
  rw [if_pos ((vector_le_iff hu c heps).mpr h), plane_ofReal]; rfl
theorem plane_ln_small {u : Vec ℝ 3} (hu : u.normSquared = 1) (c : ℂ) {eps : ℝ} (heps : 0 ≤ eps)
    (h : |c.im| ≤ eps) : (plane u c).ln eps = plane u (Real.log c.re : ℝ) := by
  unfold Quat.ln
  dsimp only
  rw [if_pos ((vector_le_iff hu c heps).mpr h), plane_ofReal]
  simp only [fln_real, Vec.sabs_real, plane_scalar, Real.log_abs]; rfl

theorem abs_arg_ge (c : ℂ) : |c.im| ≤ ‖c‖ * |c.arg| := by
  have h1 : ‖c‖ * Real.sin c.arg = c.im := Complex.norm_mul_sin_arg c
  rw [← h1, abs_mul, abs_of_nonneg (_root_.norm_nonneg c)]
  exact mul_le_mul_of_nonneg_left Real.abs_sin_le_abs (_root_.norm_nonneg c)

/-! ### logarithm -/

/-- `exp(ln q) = q`, for positive reals and for quaternions whose vector part is neither below `eps` nor
below `eps |q|`. The remaining cases are covered by `C44_exp_ln_error` and `C44_exp_ln_fails`. -/
theorem C44_exp_ln_partial {eps : ℝ} (heps : 0 ≤ eps) (q : Quat ℝ)
    (h : (q.vector = 0 ∧ 0 < q.scalar) ∨ (eps < q.vector.norm ∧ eps * q.norm < q.vector.norm)) :
    (q.ln eps).exp eps = q := by
  obtain ⟨u, hu, c, hre, him, rfl⟩ := exists_plane q
  rw [plane_vector_norm c hu, plane_norm c hu, ← Vec.norm_eq_zero, plane_vector_norm c hu, abs_eq_zero] at h
  have hc : c ≠ 0 := by
    rintro rfl
    rcases h with h | h
    · simp at h
    · simp at h
  rw [plane_ln hu c heps]
  · rw [plane_exp hu _ heps, Complex.exp_log hc]
    rw [Complex.log_im]
    rcases h with ⟨h1, h2⟩ | ⟨h1, h2⟩
    · left; rw [real_or c h1]; exact Complex.arg_ofReal_of_nonneg h2.le
    · right
      have := abs_arg_ge c
      have hn : 0 < ‖c‖ := norm_pos_iff.mpr hc
      by_contra hcon
      push Not at hcon
      nlinarith
  · rcases h with ⟨h1, h2⟩ | ⟨h1, h2⟩
    · exact Or.inl ⟨h1, h2.le⟩
    · exact Or.inr h1

/-- with a zero tolerance: every non-zero quaternion that is not a negative real -/
theorem C44_exp_ln_exact_partial (q : Quat ℝ) (h : q.vector ≠ 0 ∨ 0 < q.scalar) : (q.ln 0).exp 0 = q := by
  apply C44_exp_ln_partial le_rfl
  by_cases h0 : q.vector = 0
  · exact Or.inl ⟨h0, h.resolve_left (not_not.mpr h0)⟩
  · exact Or.inr ⟨Vec.norm_pos h0, by simpa using Vec.norm_pos h0⟩

/-- Away from the negative real axis `exp(ln q)` is within `eps max(1, |q|)` of `q`, whatever `q` is. -/
theorem C44_exp_ln_error {eps : ℝ} (heps : 0 ≤ eps) (q : Quat ℝ) (h : 0 < q.scalar ∨ eps < q.vector.norm) :
    ((q.ln eps).exp eps - q).norm ≤ eps * max 1 q.norm := by
  obtain ⟨u, hu, c, hre, him, rfl⟩ := exists_plane q
  rw [plane_vector_norm c hu, plane_scalar] at h
  rw [plane_norm c hu]
  have hn := _root_.norm_nonneg c
  by_cases h1 : eps < |c.im|
  · have hc : c ≠ 0 := by rintro rfl; simp at h1; linarith
    rw [plane_ln hu c heps (Or.inr h1)]
    by_cases h2 : |(Complex.log c).im| ≤ eps
    · rw [plane_exp_small hu _ heps h2, ← plane_sub, plane_norm _ hu, Complex.log_re,
        Real.exp_log (norm_pos_iff.mpr hc)]
      rw [Complex.log_im] at h2
      have e : ((‖c‖ : ℝ) : ℂ) - c = -((‖c‖ : ℂ) * (Complex.exp (Complex.I * c.arg) - 1)) := by
        conv_lhs => rw [← Complex.norm_mul_exp_arg_mul_I c]
        rw [Complex.norm_mul, Complex.norm_exp_ofReal_mul_I]
        simp only [Complex.norm_real, norm_norm, mul_one]
        rw [mul_comm Complex.I]; ring
      rw [e, norm_neg, Complex.norm_mul, Complex.norm_real, norm_norm]
      have hb : ‖Complex.exp (Complex.I * c.arg) - 1‖ ≤ |c.arg| := Real.norm_exp_I_mul_ofReal_sub_one_le
      calc ‖c‖ * ‖Complex.exp (Complex.I * c.arg) - 1‖ ≤ ‖c‖ * eps :=
            mul_le_mul_of_nonneg_left (hb.trans h2) hn
        _ = eps * ‖c‖ := mul_comm _ _
        _ ≤ eps * max 1 ‖c‖ := mul_le_mul_of_nonneg_left (le_max_right _ _) heps
    · rw [plane_exp hu _ heps (Or.inr (not_le.mp h2)), Complex.exp_log hc, ← plane_sub, sub_self,
        plane_norm _ hu, norm_zero]
      positivity
  · have hs : 0 < c.re := h.resolve_right h1
    rw [plane_ln_small hu c heps (not_lt.mp h1), plane_exp_small hu _ heps (by simpa using heps), ← plane_sub,
      plane_norm _ hu]
    have e : ((Real.exp ((Real.log c.re : ℝ) : ℂ).re : ℝ) : ℂ) - c = ((-c.im : ℝ) : ℂ) * Complex.I := by
      rw [Complex.ofReal_re, Real.exp_log hs]
      apply Complex.ext <;> simp
    rw [e, Complex.norm_mul, Complex.norm_I, mul_one, Complex.norm_real, Real.norm_eq_abs, abs_neg]
    calc |c.im| ≤ eps := not_lt.mp h1
      _ = eps * 1 := (mul_one _).symm
      _ ≤ eps * max 1 ‖c‖ := mul_le_mul_of_nonneg_left (le_max_left _ _) heps

/-- On the negative real axis the logarithm loses the sign: `exp(ln q) = -q`. -/
theorem C44_exp_ln_negative_real {eps : ℝ} (heps : 0 ≤ eps) (k : ℝ) (hk : k < 0) :
    ((fromReal k).ln eps).exp eps = -fromReal k := by
  have hu := unitX3_normSquared
  rw [← plane_ofReal Vec.unitX3, plane_ln_small hu _ heps (by simpa using heps),
    plane_exp_small hu _ heps (by simpa using heps), ← plane_neg]
  congr 1
  rw [Complex.ofReal_re, Complex.ofReal_re, Real.exp_log_of_neg hk]
  simp

/-- the claim `exp(ln q) = q` for every non-zero `q` -/
def Spec.ExpLnInverse (eps : ℝ) : Prop := ∀ q : Quat ℝ, q ≠ 0 → (q.ln eps).exp eps = q

/-- It is false of the code, whatever the tolerance: `exp(ln(-1)) = 1`. -/
theorem C44_exp_ln_fails {eps : ℝ} (heps : 0 ≤ eps) : ¬ Spec.ExpLnInverse eps := by
  intro h
  have h1 := h (fromReal (-1)) (by intro h; have := congrArg Quat.s h; simp at this)
  rw [C44_exp_ln_negative_real heps _ (by norm_num)] at h1
  have := congrArg Quat.s h1
  simp at this; norm_num at this

/-- `ln` is the principal logarithm: its scalar part is `ln |q|` and its vector part points along the vector
part of `q` with length the angle of `q` in `(0, π)`. -/
theorem C44_ln {eps : ℝ} (heps : 0 ≤ eps) (q : Quat ℝ) (h : eps < q.vector.norm) :
    (q.ln eps).scalar = Real.log q.norm ∧
    (q.ln eps).vector = q.vector.normalize * Real.arccos (q.scalar / q.norm) := by
  have hpos : 0 < q.vector.norm := heps.trans_lt h
  have hle : ¬ q.vector.normSquared ≤ eps * eps := by
    rw [← Vec.norm_mul_norm]; nlinarith
  unfold Quat.ln
  dsimp only
  rw [if_neg hle]
  refine ⟨rfl, ?_⟩
  rw [vector_fromParts, Vec.normalize_def]
  change q.vector * (Real.arccos (q.scalar / q.norm) / q.vector.norm) = _
  apply Vec.ext3 <;> simp <;> ring

/-- `ln(exp q) = q` as long as the vector part has length in `(eps, π)` and the result is resolved. -/
theorem C44_ln_exp {eps : ℝ} (heps : 0 ≤ eps) (q : Quat ℝ) (h1 : q.vector = 0 ∨
    (eps < q.vector.norm ∧ q.vector.norm < Real.pi ∧ eps < Real.exp q.scalar * Real.sin q.vector.norm)) :
    (q.exp eps).ln eps = q := by
  obtain ⟨u, hu, c, hre, him, rfl⟩ := exists_plane q
  rw [plane_vector_norm c hu] at him
  rw [← Vec.norm_eq_zero, plane_vector_norm c hu, plane_scalar, abs_eq_zero] at h1
  rw [plane_exp hu c heps (h1.imp id (fun h => h.1)), plane_ln hu _ heps]
  · congr 1
    apply Complex.log_exp
    · rcases h1 with h | h
      · rw [h]; linarith [Real.pi_pos]
      · linarith [neg_abs_le c.im]
    · rcases h1 with h | h
      · rw [h]; linarith [Real.pi_pos]
      · linarith [le_abs_self c.im]
  · rcases h1 with h | h
    · left; simp [Complex.exp_im, Complex.exp_re, h, (Real.exp_pos _).le]
    · right
      rw [Complex.exp_im, abs_mul, abs_of_pos (Real.exp_pos _)]
      rw [← him] at h
      refine h.2.2.trans_le ?_
      exact mul_le_mul_of_nonneg_left (le_abs_self _) (Real.exp_pos _).le

/-! ### powers -/

/-- `|q^t| = |q|^t` -/
theorem C44_powf_norm {eps : ℝ} (heps : 0 ≤ eps) (q : Quat ℝ) (hq : q ≠ 0) (h : Spec.Resolved eps q) (t : ℝ) :
    (q.powf eps t).norm = q.norm ^ t := by
  obtain ⟨u, hu, c, hre, him, rfl⟩ := exists_plane q
  rw [resolved_plane hu] at h
  have hc : c ≠ 0 := by rintro rfl; exact hq (plane_zero u)
  -- the logarithm has scalar part `ln |c|` in every case
  obtain ⟨d, hd, hdre⟩ : ∃ d : ℂ, (plane u c).ln eps = plane u d ∧ d.re = Real.log ‖c‖ := by
    rcases h with h | h
    · refine ⟨_, plane_ln_small hu c heps (by simpa [h] using heps), ?_⟩
      rw [real_or c h, Complex.norm_real, Real.norm_eq_abs, Real.log_abs]; simp
    · exact ⟨_, plane_ln hu c heps (Or.inr h), Complex.log_re c⟩
  unfold Quat.powf
  rw [hd, ← plane_mulS, plane_norm c hu]
  have hre' : (d * (t : ℂ)).re = Real.log ‖c‖ * t := by simp [hdre]
  rw [Real.rpow_def_of_pos (norm_pos_iff.mpr hc)]
  by_cases hs : |(d * (t : ℂ)).im| ≤ eps
  · rw [plane_exp_small hu _ heps hs, plane_norm _ hu, Complex.norm_real, hre', Real.norm_eq_abs,
      abs_of_pos (Real.exp_pos _)]
  · rw [plane_exp hu _ heps (Or.inr (not_le.mp hs)), plane_norm _ hu, Complex.norm_exp, hre']

/-- `powf(1)` is `exp(ln q)`, so it is the identity operation exactly where that is. -/
theorem C44_powf_one (eps : ℝ) (q : Quat ℝ) : q.powf eps 1 = (q.ln eps).exp eps := by
  unfold Quat.powf
  congr 1
  apply ext4 <;> simp
theorem C44_powf_zero {eps : ℝ} (heps : 0 ≤ eps) (q : Quat ℝ) : q.powf eps 0 = identity := by
  have e : q.ln eps * (0 : ℝ) = plane Vec.unitX3 0 := by rw [plane_zero]; apply ext4 <;> simp
  unfold Quat.powf
  rw [e, plane_exp unitX3_normSquared _ heps (Or.inl rfl), Complex.exp_zero, plane_one]

/-- Powers of the same quaternion multiply by adding the exponents. -/
theorem C44_powf_add {eps : ℝ} (heps : 0 ≤ eps) (q : Quat ℝ) (a b : ℝ) (ha : Spec.Resolved eps (q.ln eps * a))
    (hb : Spec.Resolved eps (q.ln eps * b)) (hab : Spec.Resolved eps (q.ln eps * (a + b))) :
    q.powf eps (a + b) = q.powf eps a * q.powf eps b := by
  unfold Quat.powf
  obtain ⟨u, hu, d, -, -, hd⟩ := exists_plane (q.ln eps)
  rw [hd] at ha hb hab ⊢
  rw [← plane_mulS, resolved_plane hu] at ha hb hab
  rw [← plane_mulS, ← plane_mulS, ← plane_mulS, plane_exp hu _ heps ha, plane_exp hu _ heps hb,
    plane_exp hu _ heps hab, ← plane_mul _ _ hu, ← Complex.exp_add]
  congr 2; push_cast; ring

/-- the quaternion product of `n` copies of `q` -/
def Spec.qpow (q : Quat ℝ) : ℕ → Quat ℝ
  | 0 => identity
  | n + 1 => Spec.qpow q n * q

theorem Spec.qpow_plane {u : Vec ℝ 3} (hu : u.normSquared = 1) (c : ℂ) (n : ℕ) :
    Spec.qpow (plane u c) n = plane u (c ^ n) := by
  induction n with
  | zero => rw [pow_zero, plane_one]; rfl
  | succ n ih => rw [pow_succ, plane_mul _ _ hu, ← ih]; rfl

/-- Natural powers are repeated products, away from the negative real axis. -/
theorem C44_powf_nat {eps : ℝ} (heps : 0 ≤ eps) (q : Quat ℝ) (n : ℕ)
    (h : (q.vector = 0 ∧ 0 < q.scalar) ∨ eps < q.vector.norm)
    (hn : Spec.Resolved eps (q.ln eps * (n : ℝ))) : q.powf eps n = Spec.qpow q n := by
  obtain ⟨u, hu, c, hre, him, rfl⟩ := exists_plane q
  rw [plane_vector_norm c hu, ← Vec.norm_eq_zero, plane_vector_norm c hu, abs_eq_zero] at h
  have hc : c ≠ 0 := by
    rintro rfl
    rcases h with h | h
    · simp at h
    · simp at h; linarith
  unfold Quat.powf
  rw [plane_ln hu c heps (h.imp (fun h => ⟨h.1, h.2.le⟩) id)] at *
  rw [← plane_mulS] at *
  rw [resolved_plane hu] at hn
  rw [plane_exp hu _ heps hn, Spec.qpow_plane hu]
  congr 1
  push_cast
  rw [mul_comm, Complex.exp_nat_mul, Complex.exp_log hc]

/-! ### square root -/

/-- `sqrt(q) sqrt(q) = q`, on the negative real axis too. -/
theorem C44_sqrt {eps : ℝ} (heps : 0 ≤ eps) (q : Quat ℝ) (h : Spec.Resolved eps q)
    (hq : q = 0 ∨ eps < q.norm) : q.sqrt eps * q.sqrt eps = q := by
  obtain ⟨u, hu, c, hre, him, rfl⟩ := exists_plane q
  rw [resolved_plane hu] at h
  rcases hq with hq | hq
  · have : (plane u c).normSquared ≤ eps * eps := by rw [hq]; simp [normSquared_eq]; nlinarith
    unfold Quat.sqrt
    dsimp only
    rw [if_pos this, hq]; apply ext4 <;> simp
  · rw [plane_norm c hu] at hq
    rcases h with h | h
    · rcases lt_or_ge 0 c.re with hp | hp
      · have : eps < c.re := by
          rwa [real_or c h, Complex.norm_real, Real.norm_eq_abs, abs_of_pos hp] at hq
        obtain ⟨d, hd, hdd, -⟩ := plane_sqrt hu c heps (Or.inl ⟨h, this⟩)
        rw [hd, ← plane_mul _ _ hu, hdd]
      · have hn : ‖c‖ = -c.re := by
          conv_lhs => rw [real_or c h]
          rw [Complex.norm_real, Real.norm_eq_abs, abs_of_nonpos hp]
        have h1 : ¬ (plane u c).normSquared ≤ eps * eps := by
          rw [plane_normSquared c hu, Complex.normSq_eq_norm_sq]; nlinarith
        have h2 : (plane u c).vector.normSquared ≤ eps * eps := by
          rw [plane_vector_normSquared c hu, h]; nlinarith
        have h3 : fsqrt (plane u c).normSquared = -c.re := (plane_norm c hu).trans hn
        unfold Quat.sqrt
        dsimp only
        rw [if_neg h1, if_pos h2, if_neg (by simpa using hp), h3]
        have h4 := Real.mul_self_sqrt (show 0 ≤ -c.re by linarith)
        apply ext4 <;> simp [h]
        linarith
    · obtain ⟨d, hd, hdd, -⟩ := plane_sqrt hu c heps (Or.inr h)
      rw [hd, ← plane_mul _ _ hu, hdd]

/-- For every quaternion whatsoever, `sqrt(q) sqrt(q)` is within `2 eps` of `q`. -/
theorem C44_sqrt_error {eps : ℝ} (heps : 0 ≤ eps) (q : Quat ℝ) :
    (q.sqrt eps * q.sqrt eps - q).norm ≤ 2 * eps := by
  have hz : ∀ p : Quat ℝ, p = q → (p - q).norm ≤ 2 * eps := by
    rintro p rfl
    have : p - p = 0 := by apply ext4 <;> simp
    rw [this, Quat.norm_eq_zero.mpr rfl]; positivity
  by_cases hq : q.norm ≤ eps
  · have h1 : q.normSquared ≤ eps * eps := by
      rw [← Quat.norm_mul_norm]; nlinarith [q.norm_nonneg]
    have e : (0 : Quat ℝ) * 0 - q = q * (-1 : ℝ) := by apply ext4 <;> simp
    unfold Quat.sqrt
    dsimp only
    rw [if_pos h1, e, Quat.norm_mulS]
    simp; linarith
  · by_cases h : Spec.Resolved eps q
    · exact hz _ (C44_sqrt heps q h (Or.inr (not_le.mp hq)))
    · unfold Spec.Resolved at h
      push Not at h
      obtain ⟨-, hv⟩ := h
      have hq' := not_le.mp hq
      have h1 : ¬ q.normSquared ≤ eps * eps := by
        rw [← Quat.norm_mul_norm]; nlinarith
      have h2 : q.vector.normSquared ≤ eps * eps := by
        rw [← Vec.norm_mul_norm]; nlinarith [q.vector.norm_nonneg]
      have hN := Quat.norm_mul_norm q
      have hns : q.norm * q.norm = q.s * q.s + q.vector.normSquared := by
        rw [hN, normSquared_eq, vector_normSquared]; ring
      have hvn : 0 ≤ q.vector.normSquared := Vec.normSquared_nonneg _
      have hv2 : q.vector.normSquared = q.x * q.x + q.y * q.y + q.z * q.z := vector_normSquared q
      have hsN : Real.sqrt q.norm * Real.sqrt q.norm = q.norm := Real.mul_self_sqrt q.norm_nonneg
      have hp : 0 < q.norm := heps.trans_lt hq'
      unfold Quat.sqrt
      dsimp only
      rw [if_neg h1, if_pos h2]
      change ((if q.scalar > 0 then fromReal (Real.sqrt q.norm)
        else fromPure (Vec.new3 (Real.sqrt q.norm) 0 0)) * (if q.scalar > 0 then fromReal (Real.sqrt q.norm)
        else fromPure (Vec.new3 (Real.sqrt q.norm) 0 0)) - q).norm ≤ _
      apply (sq_le_sq₀ (Quat.norm_nonneg _) (by positivity)).mp
      rw [Quat.norm_sq, normSquared_eq]
      by_cases hs : q.scalar > 0
      · rw [if_pos hs]
        rw [scalar_eq] at hs
        have hle : (q.norm - q.s) * (q.norm - q.s) ≤ q.vector.normSquared := by nlinarith
        simp [hsN]
        nlinarith
      · rw [if_neg hs]
        rw [scalar_eq, gt_iff_lt, not_lt] at hs
        have hle : (q.norm + q.s) * (q.norm + q.s) ≤ q.vector.normSquared := by nlinarith
        simp [hsN]
        nlinarith

/-- the root chosen has non-negative scalar part -/
theorem C44_sqrt_principal (eps : ℝ) (q : Quat ℝ) : 0 ≤ (q.sqrt eps).scalar := by
  unfold Quat.sqrt
  dsimp only
  have hs : -q.s ≤ Real.sqrt q.normSquared := by
    apply Real.le_sqrt_of_sq_le
    rw [normSquared_eq]
    nlinarith [mul_self_nonneg q.x, mul_self_nonneg q.y, mul_self_nonneg q.z]
  split_ifs
  · exact le_rfl
  · exact Real.sqrt_nonneg _
  · exact le_rfl
  · simp only [scalar_eq, fromParts_s]
    exact mul_nonneg (by simp only [fsqrt_real]; linarith) (Real.sqrt_nonneg _)

example : Spec.Resolved (1 / 10) (new 1 2 3 4) := by
  right
  rw [Vec.norm_def, vector_normSquared]
  apply Real.lt_sqrt_of_sq_lt; simp; norm_num
example : (fromReal (-4) : Quat ℝ).sqrt 0 = fromPure (Vec.new3 2 0 0) := by
  have h4 : Real.sqrt 4 = 2 := by rw [Real.sqrt_eq_iff_mul_self_eq] <;> norm_num
  have h16 : Real.sqrt 16 = 4 := by rw [Real.sqrt_eq_iff_mul_self_eq] <;> norm_num
  unfold Quat.sqrt
  simp [normSquared_eq, vector_normSquared]
  norm_num [h4, h16]

end Cgl
