import Verif.Props.C04_Normalize
import Verif.Props.C21_MatrixNorms
import Verif.Props.C34_ComplexField
import Verif.Props.C40_QuaternionInverse
import Verif.Props.C05_Unit
import Verif.Lemmas.Point

/-!
# C04 - normalisation of points, complex numbers, quaternions and matrices (exact real arithmetic)
-/

namespace Cgl

/-- Specification of the normalisation functions of a type with a norm and multiplication by a scalar. -/
structure Spec.Normalisation {X : Type*} [Zero X] [HMul X ℝ X] (norm : X → ℝ) (normalize : X → X)
    (tryNormalize : X → ℝ → Option X) (normalizeMut : X → X × ℝ) (tryNormalizeMut : X → ℝ → X × Option ℝ)
    (scale unscale : X → ℝ → X) : Prop where
  /-- a non-zero value normalises to norm one ... -/
  unit : ∀ x, x ≠ 0 → norm (normalize x) = 1
  /-- ... and is a positive multiple of the input -/
  direction : ∀ x, x ≠ 0 → ∃ k : ℝ, 0 < k ∧ normalize x = x * k
  recompose : ∀ x, x ≠ 0 → normalize x * norm x = x
  /-- the fallible version fails exactly when the norm does not exceed the threshold -/
  none_iff : ∀ x t, tryNormalize x t = none ↔ norm x ≤ t
  some_iff : ∀ x t y, tryNormalize x t = some y ↔ t < norm x ∧ y = normalize x
  /-- the in-place versions store the same value and return the previous norm; on failure nothing changes -/
  mut_eq : ∀ x, normalizeMut x = (normalize x, norm x)
  try_mut_fail : ∀ x t, norm x ≤ t → tryNormalizeMut x t = (x, none)
  try_mut_ok : ∀ x t, t < norm x → tryNormalizeMut x t = (normalize x, some (norm x))
  scale_norm : ∀ x k, norm (scale x k) = |k| * norm x
  unscale_norm : ∀ x k, k ≠ 0 → norm (unscale x k) = norm x / |k|
  unscale_scale : ∀ x k, k ≠ 0 → unscale (scale x k) k = x

/-- how the laws follow from the norm axioms and the defining equations -/
private theorem normalisation_of {X : Type*} [Zero X] [HMul X ℝ X] {norm : X → ℝ} {normalize : X → X}
    {tryNormalize : X → ℝ → Option X} {normalizeMut : X → X × ℝ} {tryNormalizeMut : X → ℝ → X × Option ℝ}
    {scale unscale : X → ℝ → X} (hn : ∀ x, 0 ≤ norm x) (hz : ∀ x, norm x = 0 → x = 0)
    (hm : ∀ (x : X) (k : ℝ), norm (x * k) = |k| * norm x) (ha : ∀ (x : X) (j k : ℝ), x * j * k = x * (j * k))
    (h1 : ∀ x : X, x * (1 : ℝ) = x) (h2 : ∀ x, normalize x = x * (1 / norm x))
    (h3 : ∀ x t, tryNormalize x t = if norm x ≤ t then none else some (normalize x))
    (h4 : ∀ x, normalizeMut x = (normalize x, norm x))
    (h5 : ∀ x t, tryNormalizeMut x t = if norm x ≤ t then (x, none) else (normalize x, some (norm x)))
    (h6 : ∀ x k, scale x k = x * k) (h7 : ∀ x k, unscale x k = x * (1 / k)) :
    Spec.Normalisation norm normalize tryNormalize normalizeMut tryNormalizeMut scale unscale := by
  have pos : ∀ x, x ≠ 0 → 0 < norm x := fun x hx => lt_of_le_of_ne (hn x) fun h => hx (hz x h.symm)
  refine ⟨fun x hx => ?_, fun x hx => ⟨1 / norm x, one_div_pos.mpr (pos x hx), h2 x⟩, fun x hx => ?_, fun x t => ?_,
    fun x t y => ?_, h4, fun x t h => by rw [h5, if_pos h], fun x t h => by rw [h5, if_neg (not_le.mpr h)],
    fun x k => by rw [h6, hm], fun x k _ => ?_, fun x k hk => ?_⟩
  · rw [h2, hm, abs_of_pos (one_div_pos.mpr (pos x hx)), one_div_mul_cancel (pos x hx).ne']
  · rw [h2, ha, one_div_mul_cancel (pos x hx).ne', h1]
  · rw [h3]; split <;> simp_all
  · rw [h3]; split
    · rename_i h; simp [not_lt.mpr h]
    · rename_i h; simp [not_le.mp h, eq_comm]
  · rw [h7, hm, abs_div, abs_one, one_div_mul_eq_div]
  · rw [h6, h7, ha, mul_one_div_cancel hk, h1]

section
variable {n R C : ℕ}

/-- the zero point: the origin -/
local instance : Zero (Pt ℝ n) := ⟨Pt.origin⟩

theorem C04_point : Spec.Normalisation (X := Pt ℝ n) Pt.norm Pt.normalize Pt.tryNormalize Pt.normalizeMut
    Pt.tryNormalizeMut Pt.scale Pt.unscale := by
  refine normalisation_of (fun x => Vec.norm_nonneg _) (fun x h => Pt.ext ((Vec.norm_eq_zero _).mp h))
    (fun x k => (Vec.norm_mulS x.coords k).trans (mul_comm _ _)) (fun x j k => ?_) (fun x => ?_) (fun _ => rfl)
    (fun _ _ => rfl) (fun _ => rfl) (fun x t => ?_) (fun _ _ => rfl) (fun _ _ => rfl)
  · apply Pt.ext; show x.coords * j * k = x.coords * (j * k); ext i; simp [mul_assoc]
  · apply Pt.ext; show x.coords * (1 : ℝ) = x.coords; ext i; simp
  · show ((⟨(x.coords.tryNormalizeMut t).1⟩, (x.coords.tryNormalizeMut t).2) : Pt ℝ n × Option ℝ) = _
    by_cases h : x.norm ≤ t
    · rw [if_pos h, C04_try_normalize_mut_fail _ _ h]
    · rw [if_neg h, C04_try_normalize_mut_ok _ _ (not_le.mp h)]; rfl

theorem C04_complex : Spec.Normalisation (X := Cx ℝ) Cx.norm Cx.normalize Cx.tryNormalize Cx.normalizeMut
    Cx.tryNormalizeMut Cx.scaleN Cx.unscaleN := by
  refine normalisation_of (fun x => Real.sqrt_nonneg _) (fun x h => (C34_norm_zero_iff x).mp h)
    (fun x k => ?_) (fun x j k => ?_) (fun x => ?_) (fun _ => rfl)
    (fun _ _ => rfl) (fun _ => rfl) (fun _ _ => rfl) (fun _ _ => rfl) (fun _ _ => rfl)
  · show Real.sqrt (x.re * k * (x.re * k) + x.im * k * (x.im * k)) = |k| * Real.sqrt (x.re * x.re + x.im * x.im)
    rw [show x.re * k * (x.re * k) + x.im * k * (x.im * k) = k ^ 2 * (x.re * x.re + x.im * x.im) by ring,
      Real.sqrt_mul (sq_nonneg k), Real.sqrt_sq_eq_abs]
  · ext <;> simp [mul_assoc]
  · ext <;> simp

theorem C04_quaternion : Spec.Normalisation (X := Quat ℝ) Quat.norm Quat.normalize Quat.tryNormalize Quat.normalizeMut
    Quat.tryNormalizeMut Quat.scale Quat.unscale := by
  have hz : (0 : Quat ℝ).coords = 0 := by ext i; fin_cases i <;> rfl
  have hm : ∀ (x : Quat ℝ) (k : ℝ), (x * k).coords = x.coords * k := fun x k => by ext i; fin_cases i <;> simp <;> rfl
  have he : ∀ x y : Quat ℝ, x.coords = y.coords → x = y := fun x y h => Quat.ext h
  refine normalisation_of (fun x => Vec.norm_nonneg _) (fun x h => he _ _ (((Vec.norm_eq_zero _).mp h).trans hz.symm))
    (fun x k => ?_) (fun x j k => ?_) (fun x => ?_) (fun x => ?_)
    (fun _ _ => rfl) (fun _ => rfl) (fun x t => ?_) (fun x k => ?_) (fun x k => ?_)
  · show (x * k).coords.norm = _; rw [hm, Vec.norm_mulS, mul_comm]; rfl
  · apply he; rw [hm, hm, hm]; ext i; simp [mul_assoc]
  · apply he; rw [hm]; ext i; simp
  · apply he; rw [hm]; rfl
  · show ((⟨(x.coords.tryNormalizeMut t).1⟩, (x.coords.tryNormalizeMut t).2) : Quat ℝ × Option ℝ) = _
    by_cases h : x.norm ≤ t
    · rw [if_pos h, C04_try_normalize_mut_fail _ _ h]
    · rw [if_neg h, C04_try_normalize_mut_ok _ _ (not_le.mp h)]; rfl
  · apply he; rw [hm]; rfl
  · apply he; rw [hm]; rfl

theorem C04_matrix : Spec.Normalisation (X := Mat ℝ R C) Mat.norm Mat.normalize Mat.tryNormalize Mat.normalizeMut
    Mat.tryNormalizeMut Mat.scale Mat.unscale := by
  have hN : Spec.IsNorm fun A : Mat ℝ R C => A.norm := C21_norm_is_norm
  refine normalisation_of hN.nonneg (fun x => (hN.eq_zero_iff x).mp) hN.homogeneous (fun x j k => ?_) (fun x => ?_)
    (fun _ => rfl) (fun _ _ => rfl) (fun _ => rfl) (fun _ _ => rfl) (fun _ _ => rfl) (fun _ _ => rfl)
  · ext c r; simp [mul_assoc]
  · ext c r; simp

/-- the distances of the `Normed` trait are the Euclidean distances -/
theorem C04_distance (z w : Cx ℝ) (q r : Quat ℝ) (A B : Mat ℝ R C) :
    z.distance w = Real.sqrt ((z.re - w.re) ^ 2 + (z.im - w.im) ^ 2) ∧ z.distanceSquared w = z.distance w ^ 2 ∧
    q.distance r = Real.sqrt (∑ i, (q.coords.data i - r.coords.data i) ^ 2) ∧ q.distanceSquared r = q.distance r ^ 2 ∧
    A.metricDistance B = Real.sqrt (∑ r, ∑ c, (A.data c r - B.data c r) ^ 2) ∧
    A.metricDistanceSquared B = A.metricDistance B ^ 2 := by
  refine ⟨?_, ?_, ?_, ?_, ?_, ?_⟩
  · show Real.sqrt ((z.re - w.re) * (z.re - w.re) + (z.im - w.im) * (z.im - w.im)) = _
    congr 1; ring
  · show (z - w).normSquared = Real.sqrt (z - w).normSquared ^ 2
    rw [Real.sq_sqrt]
    show 0 ≤ (z.re - w.re) * (z.re - w.re) + (z.im - w.im) * (z.im - w.im)
    nlinarith [sq_nonneg (z.re - w.re), sq_nonneg (z.im - w.im)]
  · show Real.sqrt (q.coords - r.coords).normSquared = _
    rw [Vec.normSquared, Vec.dot_eq_sum]; congr 1; apply Finset.sum_congr rfl; intro i _; simp; ring
  · exact (Vec.norm_sq (q.coords - r.coords)).symm
  · show (A - B).norm = _
    rw [C21_norm_value]; simp
  · exact C21_norm_squared_eq_norm_sq (A - B)

/-- the older name `magnitude` for the norm -/
theorem C04_magnitude (p : Pt ℝ n) (A : Mat ℝ R C) : p.magnitude = p.norm ∧ p.magnitudeSquared = p.norm ^ 2 ∧
    p.l2Norm = p.norm ∧ p.normSquared = p.norm ^ 2 ∧ A.magnitude = A.norm ∧ A.magnitudeSquared = A.norm ^ 2 ∧
    p.norm = Real.sqrt (∑ i, p.coords.data i ^ 2) ∧ p.normSquared = p.dot p := by
  refine ⟨rfl, (Vec.norm_sq p.coords).symm, rfl, (Vec.norm_sq p.coords).symm, rfl, C21_norm_squared_eq_norm_sq A, ?_, rfl⟩
  show Real.sqrt p.coords.normSquared = _
  rw [Vec.normSquared, Vec.dot_eq_sum]; congr 1; apply Finset.sum_congr rfl; intro i _; ring

/-- `3 + 4i` normalises (threshold 4) and does not (threshold 5) -/
example : (Cx.new (3 : ℝ) 4).norm = 5 ∧ (Cx.new (3 : ℝ) 4).tryNormalize 5 = none ∧
    (Cx.new (3 : ℝ) 4).tryNormalize 4 = some (Cx.new (3 : ℝ) 4).normalize := by
  have h : (Cx.new (3 : ℝ) 4).norm = 5 := by
    show Real.sqrt (3 * 3 + 4 * 4) = 5
    rw [show (3:ℝ) * 3 + 4 * 4 = 5 ^ 2 by norm_num]; exact Real.sqrt_sq (by norm_num)
  refine ⟨h, (C04_complex.none_iff _ _).mpr h.le, (C04_complex.some_iff _ _ _).mpr ⟨?_, rfl⟩⟩
  rw [h]; norm_num
end

end Cgl
