import Verif.Props.C94_Angles
import Verif.Props.C49_Euler

/-! # C95 - extracting Euler angles in floating point

The property, that the rotation of the extracted angles is the given one up to a small error, is false in gimbal lock and
near it: `C95_gimbal_lock_fails`.  The theorems with the suffix `_partial` prove it with an error that grows with the
inverse of the cosine of the second angle; what is missing is a bound that does not grow. -/

namespace Cgl
open Ieee FloatFns Spec

variable {φ : Format}

namespace Spec

/-- The inverse sine of the library has an absolute error of at most `a`. -/
def AsinWithin (φ : Format) [Lib φ] (a : ℝ) : Prop :=
  ∀ x : Ieee φ, x.Finite → |x.val| ≤ 1 → (fasin x).Finite ∧ |(fasin x).val - Real.arcsin x.val| ≤ a

end Spec

theorem sabs_ne_zero {x : Ieee φ} (hx : x.Finite) (h : x.val ≠ 0) : (sabs x == 0) = false := by
  obtain ⟨s, m, hm, rfl⟩ := hx
  rw [← Bool.not_eq_true, beq_iff]
  rintro ⟨a, h1, h2⟩
  have h1' : some ((signed false m : ℝ) : EReal) = some a := h1
  have h2' : some ((signed false 0 : ℝ) : EReal) = some a := h2
  have h3 : ((signed false m : ℝ) : EReal) = ((signed false 0 : ℝ) : EReal) := Option.some.inj (h1'.trans h2'.symm)
  have h4 : m = 0 := by simpa [signed] using h3
  subst h4
  exact h (by cases s <;> simp [Ieee.val, signed])

/-- every rotation is the product of three rotations about the axes, the second by at most a quarter turn -/
theorem euler_decomposition {A : Matrix (Fin 3) (Fin 3) ℝ} (hA : A ∈ Matrix.specialOrthogonalGroup (Fin 3) ℝ) :
    ∃ x z : ℝ, ∀ y, y = Real.arcsin (A 0 2) → Real.sin y = A 0 2 ∧
    A = !![Real.cos y * Real.cos z, -Real.cos y * Real.sin z, Real.sin y;
      Real.cos x * Real.sin z + Real.cos z * Real.sin y * Real.sin x, Real.cos z * Real.cos x - Real.sin y * Real.sin z * Real.sin x,
      -Real.cos y * Real.sin x;
      Real.sin z * Real.sin x - Real.cos z * Real.cos x * Real.sin y, Real.cos z * Real.sin x + Real.cos x * Real.sin y * Real.sin z,
      Real.cos y * Real.cos x] := by
  rw [Matrix.mem_specialOrthogonalGroup_iff, Matrix.mem_orthogonalGroup_iff'] at hA
  have hR : Spec.IsRotation (⟨fun c r => A r c⟩ : Mat ℝ 3 3) := by
    apply Spec.IsRotation.of_transpose_mul
    · apply Mat.toMatrix_injective
      rw [Mat.toMatrix_mul, Mat.toMatrix_transpose, Mat.toMatrix_identity]
      exact hA.1
    · rw [leibniz_eq]
      exact hA.2
  have h := C49_round_trip hR
  have hy : (Euler.fromMatrix (⟨fun c r => A r c⟩ : Mat ℝ 3 3)).y.val = Real.arcsin (A 0 2) := by
    simp only [Euler.fromMatrix]
    rfl
  obtain ⟨t, ht⟩ : ∃ t, t = Euler.fromMatrix (⟨fun c r => A r c⟩ : Mat ℝ 3 3) := ⟨_, rfl⟩
  rw [← ht] at h hy
  rw [Euler.toMatrix_eq] at h
  refine ⟨t.x.val, t.z.val, fun y hy' => ?_⟩
  rw [← hy] at hy'
  rw [← hy'] at h
  have e : ∀ r c, A r c = (⟨fun c r => A r c⟩ : Mat ℝ 3 3).data c r := fun _ _ => rfl
  refine ⟨?_, ?_⟩
  · rw [e, ← h]; rfl
  · ext r c
    rw [e, ← h]
    fin_cases r <;> fin_cases c <;> rfl

/-- the direction of a vector near a multiple of a unit vector -/
theorem arg_near {X Y c t ε : ℝ} (hX : |X - c * Real.cos t| ≤ ε) (hY : |Y - c * Real.sin t| ≤ ε) (hc : 0 < c)
    (hε : 100 * ε ≤ c) : (Y ≠ 0 ∨ X ≠ 0) ∧ |Real.cos (Complex.arg ⟨X, Y⟩) - Real.cos t| ≤ 3 * ε / c ∧
      |Real.sin (Complex.arg ⟨X, Y⟩) - Real.sin t| ≤ 3 * ε / c := by
  have hε0 : 0 ≤ ε := (abs_nonneg _).trans hX
  obtain ⟨n, hn⟩ : ∃ n, n = ‖(⟨X, Y⟩ : ℂ)‖ := ⟨_, rfl⟩
  have hnc : |n - c| ≤ 15 / 10 * ε := by
    have hw : ‖(⟨c * Real.cos t, c * Real.sin t⟩ : ℂ)‖ = c := by
      rw [Complex.norm_eq_sqrt_sq_add_sq]
      rw [show (c * Real.cos t) ^ 2 + (c * Real.sin t) ^ 2 = c ^ 2 by linear_combination c ^ 2 * Real.cos_sq_add_sin_sq t]
      exact Real.sqrt_sq hc.le
    rw [hn]
    calc _ = |‖(⟨X, Y⟩ : ℂ)‖ - ‖(⟨c * Real.cos t, c * Real.sin t⟩ : ℂ)‖| := by rw [hw]
      _ ≤ ‖(⟨X, Y⟩ : ℂ) - ⟨c * Real.cos t, c * Real.sin t⟩‖ := abs_norm_sub_norm_le _ _
      _ ≤ _ := by
        rw [Complex.norm_eq_sqrt_sq_add_sq]
        refine Real.sqrt_le_iff.mpr ⟨by linarith, ?_⟩
        have h1 := sq_le_sq' (abs_le.mp hX).1 (abs_le.mp hX).2
        have h2 := sq_le_sq' (abs_le.mp hY).1 (abs_le.mp hY).2
        change (X - c * Real.cos t) ^ 2 + (Y - c * Real.sin t) ^ 2 ≤ _
        nlinarith
  have hn' := abs_le.mp hnc
  have hnlo : 985 / 1000 * c ≤ n := by linarith
  have hn0 : 0 < n := by linarith
  have hz : (⟨X, Y⟩ : ℂ) ≠ 0 := by rw [← norm_pos_iff, ← hn]; exact hn0
  have part : ∀ {V s : ℝ}, |V - c * s| ≤ ε → |s| ≤ 1 → |V / n - s| ≤ 3 * ε / c := by
    intro V s hV hs
    have e : V / n - s = (V - c * s + (c - n) * s) / n := by field_simp; ring
    rw [e, abs_div, abs_of_pos hn0, div_le_div_iff₀ hn0 hc]
    have h1 : |V - c * s + (c - n) * s| ≤ 25 / 10 * ε := by
      refine (abs_add_le _ _).trans ?_
      rw [abs_mul, abs_sub_comm c n]
      have := mul_le_mul hnc hs (abs_nonneg _) (by linarith)
      linarith
    nlinarith
  refine ⟨?_, ?_, ?_⟩
  · by_contra h
    push Not at h
    exact hz (Complex.ext h.2 h.1)
  · rw [Complex.cos_arg hz, ← hn]
    exact part hX (Real.abs_cos_le_one t)
  · rw [Complex.sin_arg, ← hn]
    exact part hY (Real.abs_sin_le_one t)

section
variable [Lib φ] {d e : ℝ} (hφ : Fine φ) (hd : d ≤ 1 / 1000000) (hwd : unit φ ≤ d) (he : SinCosWithin φ e 4) (hed : e ≤ d)
  (harg : ArgWithin φ e)

include he hed harg in
/-- the sine and the cosine of a computed direction -/
theorem direction_trig {X Y : Ieee φ} {c t ε : ℝ} (hX : Nr X (c * Real.cos t) ε) (hY : Nr Y (c * Real.sin t) ε) (hc : 0 < c)
    (hε : 100 * ε ≤ c) : Nr (fsin (fatan2 Y X)) (Real.sin t) (3 * ε / c + 2 * d) ∧ Nr (fcos (fatan2 Y X)) (Real.cos t) (3 * ε / c + 2 * d) := by
  obtain ⟨h0, h1, h2⟩ := arg_near hX.2 hY.2 hc hε
  obtain ⟨f1, f2, k, hk⟩ := harg Y X hY.1 hX.1 h0
  obtain ⟨⟨s1, s2⟩, ⟨c1, c2⟩⟩ := he _ f1 f2
  have s3 := (Real.abs_sin_sub_sin_le _ _).trans hk
  have c3 := (Real.abs_cos_sub_cos_le _ _).trans hk
  rw [Real.sin_add_int_mul_two_pi] at s3
  rw [Real.cos_add_int_mul_two_pi] at c3
  refine ⟨⟨s1, ?_⟩, ⟨c1, ?_⟩⟩
  · rw [abs_le] at *; constructor <;> linarith
  · rw [abs_le] at *; constructor <;> linarith

include hφ hd hwd he hed harg in
/-- **Away from gimbal lock.**  The rotation is rebuilt with an error of at most `30 (ε + d) / c`, where `c` is the cosine of
the second angle. -/
theorem C95_round_trip_partial (hasin : AsinWithin φ e) {A : Matrix (Fin 3) (Fin 3) ℝ} (hA : A ∈ Matrix.specialOrthogonalGroup (Fin 3) ℝ)
    {M : Mat (Ieee φ) 3 3} {ε c : ℝ} (hM : MatWithin M A ε) (hε : ε ≤ 1 / 1000000) (hc : 0 < c) (hAc : A 0 2 ^ 2 + c ^ 2 = 1)
    (hc' : 100 * (ε + d) ≤ c ^ 2) : MatWithin (Euler.fromMatrix M).toMatrix A (30 * (ε + d) / c) := by
  have hw0 : 0 ≤ unit φ := unit_nonneg
  have hd0 : 0 ≤ d := hw0.trans hwd
  have hε0 : 0 ≤ ε := (abs_nonneg _).trans (hM 0 0).2
  have hc1 : c ≤ 1 := by nlinarith [sq_nonneg (A 0 2)]
  have hcc : c ^ 2 ≤ c := by nlinarith
  obtain ⟨x, z, h⟩ := euler_decomposition hA
  obtain ⟨hk, hAe⟩ := h _ rfl
  have hcy : Real.cos (Real.arcsin (A 0 2)) = c := by
    rw [Real.cos_arcsin, show 1 - A 0 2 ^ 2 = c ^ 2 by linarith, Real.sqrt_sq hc.le]
  obtain ⟨k, hkd⟩ : ∃ k, k = A 0 2 := ⟨_, rfl⟩
  rw [hk, hcy] at hAe
  rw [← hkd] at hAe hAc
  have hk1 : |k| ≤ 1 - c ^ 2 / 2 := by
    refine abs_le_of_sq_le_sq ?_ (by nlinarith)
    nlinarith [sq_nonneg (c ^ 2)]
  have ent : ∀ r s, Nr (M.data s r) (A r s) ε := fun r s => hM s r
  -- the second angle
  have hm : Nr (M.data 2 0) k ε := hkd ▸ ent 0 2
  have hm1 : |(M.data 2 0).val| ≤ 1 := (hm.val_le hk1).trans (by linarith)
  obtain ⟨y1, y2⟩ := hasin _ hm.1 hm1
  have hm1' := abs_le.mp hm1
  have y4 : |(fasin (M.data 2 0)).val| ≤ 4 := by
    have h1 := Real.arcsin_le_pi_div_two (M.data 2 0).val
    have h2 := Real.neg_pi_div_two_le_arcsin (M.data 2 0).val
    have h3 := Real.pi_lt_d2
    have := abs_le.mp y2
    rw [abs_le]; constructor <;> linarith
  obtain ⟨⟨s1, s2⟩, ⟨c1, c2⟩⟩ := he _ y1 y4
  have s3 := (Real.abs_sin_sub_sin_le (fasin (M.data 2 0)).val (Real.arcsin (M.data 2 0).val)).trans y2
  have c3 := (Real.abs_cos_sub_cos_le (fasin (M.data 2 0)).val (Real.arcsin (M.data 2 0).val)).trans y2
  rw [Real.sin_arcsin hm1'.1 hm1'.2] at s3
  rw [Real.cos_arcsin] at c3
  have c4 : |Real.sqrt (1 - (M.data 2 0).val ^ 2) - c| ≤ 21 / 10 * ε / c := by
    refine root_near (Real.sqrt_nonneg _) hc le_rfl ?_
    rw [Real.sq_sqrt (by nlinarith), show 1 - (M.data 2 0).val ^ 2 - c ^ 2 = (k - (M.data 2 0).val) * (k + (M.data 2 0).val) by
      linear_combination -hAc, abs_mul, abs_sub_comm]
    have h1 : |k + (M.data 2 0).val| ≤ 2 := (abs_add_le _ _).trans (by linarith [sq_nonneg c])
    have := mul_le_mul hm.2 h1 (abs_nonneg _) hε0
    linarith
  obtain ⟨η, hη⟩ : ∃ η, η = 3 * (ε + d) / c := ⟨_, rfl⟩
  have hdc : d ≤ d / c := le_div_self hd0 hc hc1
  have hεc : ε ≤ ε / c := le_div_self hε0 hc hc1
  have hεc0 : 0 ≤ ε / c := by positivity
  have hη' : η = 3 * (ε / c) + 3 * (d / c) := by rw [hη]; ring
  have sy : Nr (fsin (fasin (M.data 2 0))) k η := by
    refine ⟨s1, ?_⟩
    have := abs_le.mp hm.2
    rw [abs_le] at *
    constructor <;> linarith
  have e21 : 21 / 10 * ε / c = 21 / 10 * (ε / c) := by ring
  have cy : Nr (fcos (fasin (M.data 2 0))) c η := by
    refine ⟨c1, ?_⟩
    rw [e21] at c4
    rw [abs_le] at *
    constructor <;> linarith
  -- the branch
  have hηc : η ≤ 3 / 100 * c := by
    rw [hη, div_le_iff₀ hc]; nlinarith
  have hη3 : η ≤ 1 / 1000 := by
    rw [hη, div_le_iff₀ hc]
    have h1 : 0 ≤ ε + d := by linarith
    by_contra hlt
    push Not at hlt
    have h3 := mul_lt_mul'' hlt hlt (by positivity) (by positivity)
    nlinarith
  have hb : (sabs (fcos (fasin (M.data 2 0))) == 0) = false := by
    refine sabs_ne_zero cy.1 fun h0 => ?_
    have := (abs_le.mp cy.2).1
    rw [h0] at this
    linarith
  have hE : Euler.fromMatrix M = ⟨⟨fatan2 (-M.data 2 1) (M.data 2 2)⟩, ⟨fasin (M.data 2 0)⟩, ⟨fatan2 (-M.data 1 0) (M.data 0 0)⟩⟩ := by
    have hb' : (sabs (Angle.cos (Angle.asin (M.data 2 0) : Radians (Ieee φ))) == 0) = false := hb
    simp only [Euler.fromMatrix, hb']
    rfl
  have e3 : 3 * ε / c = 3 * (ε / c) := by ring
  have hx : Nr (M.data 2 2) (c * Real.cos x) ε ∧ Nr (-M.data 2 1) (c * Real.sin x) ε := by
    refine ⟨?_, ?_⟩
    · have := ent 2 2; rw [hAe] at this; exact this
    · have := (ent 1 2).neg; rw [hAe] at this; simpa using this
  have hz : Nr (M.data 0 0) (c * Real.cos z) ε ∧ Nr (-M.data 1 0) (c * Real.sin z) ε := by
    refine ⟨?_, ?_⟩
    · have := ent 0 0; rw [hAe] at this; exact this
    · have := (ent 0 1).neg; rw [hAe] at this; simpa using this
  obtain ⟨sx, cx⟩ := direction_trig he hed harg hx.1 hx.2 hc (by linarith)
  obtain ⟨sz, cz⟩ := direction_trig he hed harg hz.1 hz.2 hc (by linarith)
  have hle : 3 * ε / c + 2 * d ≤ η := by rw [hη', e3]; linarith
  have fin := euler_near hφ hη3 (by rw [hη']; linarith) (t := Euler.fromMatrix M) (Real.cos_sq_add_sin_sq x) (show c ^ 2 + k ^ 2 = 1 by linarith)
    (Real.cos_sq_add_sin_sq z) (by rw [hE]; exact sx.mono hle) (by rw [hE]; exact cx.mono hle) (by rw [hE]; exact sy)
    (by rw [hE]; exact cy) (by rw [hE]; exact sz.mono hle) (by rw [hE]; exact cz.mono hle)
  rw [hAe, show 30 * (ε + d) / c = 10 * η by rw [hη]; ring]
  exact fin

include hφ hd hwd he hed harg in
/-- The same from a quaternion near a unit quaternion. -/
theorem C95_from_quaternion_partial (hasin : AsinWithin φ e) {h : Quaternion ℝ} {A : Matrix (Fin 3) (Fin 3) ℝ} (hA : Describes h A)
    (hA' : A ∈ Matrix.specialOrthogonalGroup (Fin 3) ℝ)
    {q : Quat (Ieee φ)} {δ c : ℝ} (hq : QuatWithin q h δ) (hδ : δ ≤ 1 / 100000000) (hwδ : unit φ ≤ 1 / 100000000) (hc : 0 < c)
    (hAc : A 0 2 ^ 2 + c ^ 2 = 1) (hc' : 100 * (9 * δ + 48 * unit φ + d) ≤ c ^ 2) :
    MatWithin (Euler.fromQuaternion q).toMatrix A (30 * (9 * δ + 48 * unit φ + d) / c) :=
  C95_round_trip_partial hφ hd hwd he hed harg hasin hA' (C91_to_matrix_near hφ hA hq (by linarith)) (by linarith) hc hAc hc'

include hφ hd hwd he hed harg in
/-- From Euler angles to the matrix, to the extracted angles and to their matrix, which is near the rotation of the first
angles unless the cosine of the second is small. -/
theorem C95_angles_partial (hasin : AsinWithin φ e) (hd' : d ≤ 1 / 10000000) {t : Euler (Radians (Ieee φ))} (hx : t.x.val.Finite)
    (hy : t.y.val.Finite) (hz : t.z.val.Finite) (hxB : |t.x.val.val| ≤ 4) (hyB : |t.y.val.val| ≤ 4) (hzB : |t.z.val.val| ≤ 4)
    {X Y Z : Matrix (Fin 3) (Fin 3) ℝ} (hX : Turns (coordAxis 0) t.x.val.val X) (hY : Turns (coordAxis 1) t.y.val.val Y)
    (hZ : Turns (coordAxis 2) t.z.val.val Z) (hc : 1100 * d ≤ Real.cos t.y.val.val ^ 2) (hc0 : Real.cos t.y.val.val ≠ 0) :
    MatWithin (Euler.fromMatrix t.toMatrix).toMatrix (X * Y * Z) (330 * d / |Real.cos t.y.val.val|) := by
  have hM := (C94_euler hφ hd hwd he hed hx hy hz hxB hyB hzB hX hY hZ).1
  have hXYZ : X * Y * Z ∈ Matrix.specialOrthogonalGroup (Fin 3) ℝ :=
    mul_mem (mul_mem (turns_rotation (coordAxis_norm 0) hX).1 (turns_rotation (coordAxis_norm 1) hY).1)
      (turns_rotation (coordAxis_norm 2) hZ).1
  have h02 : (X * Y * Z) 0 2 = Real.sin t.y.val.val := by
    rw [turns_x hX, turns_y hY, turns_z hZ, euler_product]; rfl
  have := C95_round_trip_partial hφ hd hwd he hed harg hasin hXYZ hM (by linarith) (abs_pos.mpr hc0)
    (by rw [h02, sq_abs]; exact Real.sin_sq_add_cos_sq _) (by rw [sq_abs]; linarith)
  rwa [show 30 * (10 * d + d) / |Real.cos t.y.val.val| = 330 * d / |Real.cos t.y.val.val| by ring] at this

end

/-- `Rotation3::euler_angles` is the same function. -/
theorem C95_rotation3 [Lib φ] (t : Rotation (Ieee φ) 3) : t.eulerAngles = Euler.fromMatrix t.matrix := rfl

/-! ### in gimbal lock -/

/-- With a library for which the cosine of the inverse sine of one is not exactly zero, rotations in gimbal lock are not
recovered, although the matrix is exact: the error of some entry exceeds `9/10`. -/
theorem C95_gimbal_lock_fails [Lib φ] (hcos : (sabs (fcos (fasin (1 : Ieee φ))) == 0) = false) :
    ∃ (M : Mat (Ieee φ) 3 3) (A : Matrix (Fin 3) (Fin 3) ℝ), A ∈ Matrix.specialOrthogonalGroup (Fin 3) ℝ ∧
      MatWithin M A 0 ∧ ¬ MatWithin (Euler.fromMatrix M).toMatrix A (9 / 10) := by
  have h1 : Nr (1 : Ieee φ) 1 0 := Nr.one
  have h0 : Nr (0 : Ieee φ) 0 0 := Nr.zero
  have hm : Nr (-1 : Ieee φ) (-1) 0 := Nr.one.neg
  have so : ∀ s : ℝ, s * s = 1 → (!![0, 0, 1; 0, s, 0; -s, 0, 0] : Matrix (Fin 3) (Fin 3) ℝ) ∈ Matrix.specialOrthogonalGroup (Fin 3) ℝ := by
    intro s hs
    rw [Matrix.mem_specialOrthogonalGroup_iff, Matrix.mem_orthogonalGroup_iff]
    refine ⟨?_, ?_⟩
    · ext r c
      fin_cases r <;> fin_cases c <;> simp [Matrix.mul_apply, Fin.sum_univ_three, hs]
    · rw [Matrix.det_fin_three]; simp [hs]
  have w1 : MatWithin (Mat.new3x3 0 0 (-1) 0 1 0 1 0 0 : Mat (Ieee φ) 3 3) !![0, 0, 1; 0, 1, 0; -1, 0, 0] 0 := by
    intro c r
    fin_cases c <;> fin_cases r <;> first | exact h1 | exact h0 | exact hm
  have w2 : MatWithin (Mat.new3x3 0 0 1 0 (-1) 0 1 0 0 : Mat (Ieee φ) 3 3) !![0, 0, 1; 0, -1, 0; -(-1), 0, 0] 0 := by
    intro c r
    rw [neg_neg]
    fin_cases c <;> fin_cases r <;> first | exact h1 | exact h0 | exact hm
  have hE := C49_gimbal_lock_inexact hcos (1 : Ieee φ) 0 (-1) 0 0 (-1) 0 1
  by_contra hcon
  push Not at hcon
  have b1 := hcon _ _ (so 1 (by norm_num)) w1 1 1
  have b2 := hcon _ _ (so (-1) (by norm_num)) w2 1 1
  rw [← hE] at b2
  have c1 := abs_le.mp b1.2
  have c2 := abs_le.mp b2.2
  simp at c1 c2
  linarith [c1.1, c2.2]

section
attribute [local instance] Library64.correctlyRounded

theorem fl64_half_pi : f64.fl (Real.pi / 2) = 7074237752028440 * 2 ^ (-52 : ℤ) := by
  have h1 := Real.pi_gt_d20
  have h2 := Real.pi_lt_d20
  have := fl64_eval (x := Real.pi / 2) 0 7074237752028440 (by norm_num) (by norm_num; linarith) (by norm_num; linarith)
    (by norm_num at h1 ⊢; linarith) (by norm_num at h2 ⊢; linarith) (Or.inr (Int.even_iff.mpr (by norm_num)))
  rw [this]; norm_num

/-- So it is with correctly rounded functions in `f64`: half of π is not a floating point number, and its cosine is about
6e-17. -/
theorem cos_asin_one : (sabs (fcos (fasin (1 : Ieee f64))) == 0) = false := by
  have h1 := Real.pi_gt_d20
  have h2 := Real.pi_lt_d20
  have hp := fl64_half_pi
  have hf : (Ieee.round false (Real.pi / 2) : Ieee f64).Finite := finite_round_of_le (by rw [abs_of_pos (by linarith)]; linarith)
  have hv : (Ieee.round false (Real.pi / 2) : Ieee f64).val = 7074237752028440 * 2 ^ (-52 : ℤ) := by rw [val_round hf, hp]
  have ha : fasin (1 : Ieee f64) = Ieee.round false (Real.pi / 2) := by
    change (if (1 : ℝ) < 1 then nan else Ieee.round false (Real.arcsin (signed false 1)) : Ieee f64) = _
    rw [if_neg (lt_irrefl _)]
    simp [signed]
  rw [ha]
  obtain ⟨s, m, h, e⟩ := hf
  rw [e] at hv ⊢
  have hcf : (fcos (fin s m h : Ieee f64)).Finite := finite_round_of_le ((Real.abs_cos_le_one _).trans (by norm_num))
  refine sabs_ne_zero hcf ?_
  have hv' : signed s m = 7074237752028440 * 2 ^ (-52 : ℤ) := hv
  have e2 : (fcos (fin s m h : Ieee f64)).val = f64.fl (Real.cos (signed s m)) := val_round hcf
  rw [e2, hv']
  have hx : (2 : ℝ) ^ (-56 : ℤ) ≤ Real.cos (7074237752028440 * 2 ^ (-52 : ℤ)) := by
    rw [← Real.sin_pi_div_two_sub]
    obtain ⟨x, hx⟩ : ∃ x, x = Real.pi / 2 - 7074237752028440 * 2 ^ (-52 : ℤ) := ⟨_, rfl⟩
    rw [← hx]
    have l : (6 / 10 ^ 17 : ℝ) ≤ x := by rw [hx]; norm_num at h1 ⊢; linarith
    have u : x ≤ 1 / 10 := by rw [hx]; norm_num at h2 ⊢; linarith
    have := Real.mul_le_sin (by linarith : 0 ≤ x) (by linarith)
    have k : 1 ≤ 2 / Real.pi * (2 : ℝ) := by rw [div_mul_eq_mul_div, le_div_iff₀ (by linarith)]; linarith
    have : x / 2 ≤ Real.sin x := by nlinarith
    norm_num
    linarith
  have hfl := f64.mono _ _ hx
  rw [fl64_two_zpow (by norm_num)] at hfl
  have : (0 : ℝ) < 2 ^ (-56 : ℤ) := by positivity
  linarith

/-- In `f64` with correctly rounded functions, rotations in gimbal lock are not recovered. -/
theorem C95_gimbal_lock_fails_f64 :
    ∃ (M : Mat (Ieee f64) 3 3) (A : Matrix (Fin 3) (Fin 3) ℝ), A ∈ Matrix.specialOrthogonalGroup (Fin 3) ℝ ∧
      MatWithin M A 0 ∧ ¬ MatWithin (Euler.fromMatrix M).toMatrix A (9 / 10) :=
  C95_gimbal_lock_fails cos_asin_one

/-- a library with this accuracy exists -/
theorem asinWithin_correctlyRounded : AsinWithin f64 (2 ^ (-50 : ℤ)) := by
  rintro _ ⟨s, m, h, rfl⟩ h1
  have : |m| ≤ 1 := by cases s <;> simpa [Ieee.val, signed] using h1
  change (if 1 < m then nan else Ieee.round s (Real.arcsin (signed s m)) : Ieee f64).Finite ∧
    |(if 1 < m then nan else Ieee.round s (Real.arcsin (signed s m)) : Ieee f64).val - Real.arcsin (signed s m)| ≤ _
  rw [if_neg (not_lt.mpr ((le_abs_self m).trans this))]
  refine round_near ?_
  have h2 := Real.neg_pi_div_two_le_arcsin (signed s m)
  have h3 := Real.arcsin_le_pi_div_two (signed s m)
  have := Real.pi_le_four
  exact abs_le.mpr ⟨by linarith, by linarith⟩

end

/-- In `f64`, for matrices accurate to `2^-45`, with a library accurate to a few units: the rebuilt rotation is within
`2^-40 / c`. -/
theorem C95_round_trip_f64_partial [Lib f64] {e : ℝ} (he : SinCosWithin f64 e 4) (hed : e ≤ 2 ^ (-50 : ℤ)) (harg : ArgWithin f64 e)
    (hasin : AsinWithin f64 e) {A : Matrix (Fin 3) (Fin 3) ℝ} (hA : A ∈ Matrix.specialOrthogonalGroup (Fin 3) ℝ)
    {M : Mat (Ieee f64) 3 3} {c : ℝ} (hM : MatWithin M A (2 ^ (-45 : ℤ))) (hc : 2 ^ (-19 : ℤ) ≤ c) (hAc : A 0 2 ^ 2 + c ^ 2 = 1) :
    MatWithin (Euler.fromMatrix M).toMatrix A (2 ^ (-40 : ℤ) / c) := by
  have hw : unit f64 ≤ 2 ^ (-50 : ℤ) := by
    refine unit64.trans ?_
    have h : (2 : ℝ) ^ (-1075 : ℤ) ≤ 2 ^ (-53 : ℤ) := zpow_le_zpow_right₀ one_le_two (by norm_num)
    norm_num at h ⊢
    linarith
  have hc0 : 0 < c := lt_of_lt_of_le (by positivity) hc
  have hc2 := pow_le_pow_left₀ (by positivity) hc 2
  have := C95_round_trip_partial fine64 (by norm_num) hw he hed harg hasin hA hM (by norm_num) hc0 hAc
    (by norm_num at hc2 ⊢; linarith)
  refine fun r s => ⟨(this r s).1, (this r s).2.trans ?_⟩
  exact (div_le_div_iff_of_pos_right hc0).mpr (by norm_num)

/-- a quarter turn about `z` is far from gimbal lock -/
example : ∃ (M : Mat (Ieee f64) 3 3) (A : Matrix (Fin 3) (Fin 3) ℝ), A ∈ Matrix.specialOrthogonalGroup (Fin 3) ℝ ∧
    MatWithin M A (2 ^ (-45 : ℤ)) ∧ A 0 2 ^ 2 + (1 : ℝ) ^ 2 = 1 ∧ A ≠ 1 := by
  have hp : (0 : ℝ) ≤ 2 ^ (-45 : ℤ) := by positivity
  have h1 : Nr (1 : Ieee f64) 1 (2 ^ (-45 : ℤ)) := Nr.one.mono hp
  have h0 : Nr (0 : Ieee f64) 0 (2 ^ (-45 : ℤ)) := Nr.zero.mono hp
  refine ⟨Mat.new3x3 0 1 0 (-1) 0 0 0 0 1, !![0, -1, 0; 1, 0, 0; 0, 0, 1], ?_, fun c r => ?_, by simp, fun h => ?_⟩
  · rw [Matrix.mem_specialOrthogonalGroup_iff, Matrix.mem_orthogonalGroup_iff]
    refine ⟨?_, ?_⟩
    · ext r c
      fin_cases r <;> fin_cases c <;> simp [Matrix.mul_apply, Fin.sum_univ_three]
    · rw [Matrix.det_fin_three]; simp
  · fin_cases c <;> fin_cases r <;> first | exact h1 | exact h0 | exact h1.neg
  · have := congrFun (congrFun h 0) 0
    simp at this

end Cgl
