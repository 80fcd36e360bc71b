import Verif.Model.Angle
import Mathlib.Tactic.Linarith
import Mathlib.Tactic.FieldSimp
import Mathlib.Algebra.Order.Floor.Ring
import Mathlib.Algebra.Order.ToIntervalMod

/-! # Closed forms for angles over the reals -/

namespace Cgl

@[simp] theorem Radians.add_val (a b : Radians ℝ) : (a + b).val = a.val + b.val := rfl
@[simp] theorem Radians.sub_val (a b : Radians ℝ) : (a - b).val = a.val - b.val := rfl
@[simp] theorem Radians.neg_val (a : Radians ℝ) : (-a).val = -a.val := rfl
@[simp] theorem Radians.mul_val (a : Radians ℝ) (k : ℝ) : (a * k).val = a.val * k := rfl
@[simp] theorem Radians.div_val (a : Radians ℝ) (k : ℝ) : (a / k).val = a.val / k := rfl
@[simp] theorem Degrees.add_val (a b : Degrees ℝ) : (a + b).val = a.val + b.val := rfl
@[simp] theorem Degrees.sub_val (a b : Degrees ℝ) : (a - b).val = a.val - b.val := rfl
@[simp] theorem Degrees.neg_val (a : Degrees ℝ) : (-a).val = -a.val := rfl
@[simp] theorem Degrees.mul_val (a : Degrees ℝ) (k : ℝ) : (a * k).val = a.val * k := rfl
@[simp] theorem Degrees.div_val (a : Degrees ℝ) (k : ℝ) : (a / k).val = a.val / k := rfl
@[simp] theorem Radians.ofDegrees_val (d : Degrees ℝ) :
    (Radians.ofDegrees d).val = d.val * (Real.pi / 180) := by simp [Radians.ofDegrees]
@[simp] theorem Degrees.ofRadians_val (r : Radians ℝ) :
    (Degrees.ofRadians r).val = r.val * (180 / Real.pi) := by simp [Degrees.ofRadians]
@[simp] theorem Radians.fullTurn_val : (Angle.fullTurn : Radians ℝ).val = 2 * Real.pi := by
  simp [Angle.fullTurn]
@[simp] theorem Degrees.fullTurn_val : (Angle.fullTurn : Degrees ℝ).val = 360 := by
  simp [Angle.fullTurn]
@[simp] theorem Radians.zero_val : (Angle.zero : Radians ℝ).val = 0 := rfl
@[simp] theorem Degrees.zero_val : (Angle.zero : Degrees ℝ).val = 0 := rfl

@[simp] theorem Radians.sin_eq (a : Radians ℝ) : Angle.sin a = Real.sin a.val := rfl
@[simp] theorem Radians.cos_eq (a : Radians ℝ) : Angle.cos a = Real.cos a.val := rfl
@[simp] theorem Radians.tan_eq (a : Radians ℝ) : Angle.tan a = Real.tan a.val := rfl
@[simp] theorem Radians.sinCos_eq (a : Radians ℝ) :
    Angle.sinCos a = (Real.sin a.val, Real.cos a.val) := rfl

/-- The reduction both units perform, on the numerical value, for a full turn of size `T`. -/
noncomputable def reduce (T x : ℝ) : ℝ :=
  if frem x T < 0 then frem x T + T else frem x T

/-- It is Mathlib's reduction into `[0, T)`. -/
theorem reduce_eq (T x : ℝ) (hT : 0 < T) : reduce T x = toIcoMod hT 0 x := by
  have hT' := hT.ne'
  have hfrem : frem x T = x - ftrunc (x / T) * T := rfl
  have htr : ftrunc (x / T) = if 0 ≤ x / T then (⌊x / T⌋ : ℝ) else (⌈x / T⌉ : ℝ) := rfl
  have hx : x / T * T = x := by field_simp
  symm
  unfold reduce
  by_cases h0 : 0 ≤ x / T
  · rw [hfrem, htr, if_pos h0]
    have h1 := Int.floor_le (x / T)
    have h2 := Int.lt_floor_add_one (x / T)
    have h3 : 0 ≤ x - ⌊x / T⌋ * T := by nlinarith
    have h4 : x - ⌊x / T⌋ * T < T := by nlinarith
    rw [if_neg (not_lt.mpr h3), toIcoMod_eq_iff hT]
    exact ⟨by simp only [zero_add, Set.mem_Ico]; exact ⟨h3, h4⟩, ⌊x / T⌋, by rw [zsmul_eq_mul]; ring⟩
  · rw [hfrem, htr, if_neg h0]
    have h1 := Int.le_ceil (x / T)
    have h2 := Int.ceil_lt_add_one (x / T)
    have h3 : x - ⌈x / T⌉ * T ≤ 0 := by nlinarith
    have h4 : -T < x - ⌈x / T⌉ * T := by nlinarith
    split_ifs with h5
    · rw [toIcoMod_eq_iff hT]
      refine ⟨by simp only [zero_add, Set.mem_Ico]; constructor <;> linarith, ⌈x / T⌉ - 1, ?_⟩
      rw [zsmul_eq_mul]; push_cast; ring
    · rw [toIcoMod_eq_iff hT]
      refine ⟨by simp only [zero_add, Set.mem_Ico]; constructor <;> linarith, ⌈x / T⌉, ?_⟩
      rw [zsmul_eq_mul]; ring

theorem Radians.normalize_val (a : Radians ℝ) :
    (Angle.normalize a).val = reduce (2 * Real.pi) a.val := by
  have hm : (a % (Angle.fullTurn : Radians ℝ)).val = frem a.val (2 * Real.pi) := by
    show frem a.val (Angle.fullTurn : Radians ℝ).val = _
    rw [Radians.fullTurn_val]
  have hlt : (a % (Angle.fullTurn : Radians ℝ) < Angle.zero) ↔ frem a.val (2 * Real.pi) < 0 := by
    show (a % (Angle.fullTurn : Radians ℝ)).val < 0 ↔ _
    rw [hm]
  unfold Angle.normalize reduce
  by_cases h : frem a.val (2 * Real.pi) < 0
  · simp only [if_pos (hlt.mpr h), if_pos h, Radians.add_val, hm, Radians.fullTurn_val]
  · simp only [if_neg (fun h' => h (hlt.mp h')), if_neg h, hm]

theorem Degrees.normalize_val (a : Degrees ℝ) :
    (Angle.normalize a).val = reduce 360 a.val := by
  have hm : (a % (Angle.fullTurn : Degrees ℝ)).val = frem a.val 360 := by
    show frem a.val (Angle.fullTurn : Degrees ℝ).val = _
    rw [Degrees.fullTurn_val]
  have hlt : (a % (Angle.fullTurn : Degrees ℝ) < Angle.zero) ↔ frem a.val 360 < 0 := by
    show (a % (Angle.fullTurn : Degrees ℝ)).val < 0 ↔ _
    rw [hm]
  unfold Angle.normalize reduce
  by_cases h : frem a.val 360 < 0
  · simp only [if_pos (hlt.mpr h), if_pos h, Degrees.add_val, hm, Degrees.fullTurn_val]
  · simp only [if_neg (fun h' => h (hlt.mp h')), if_neg h, hm]

@[simp] theorem Radians.fullTurnDiv2_val : (Angle.fullTurnDiv2 : Radians ℝ).val = Real.pi := by
  simp [Angle.fullTurnDiv2]
@[simp] theorem Degrees.fullTurnDiv2_val : (Angle.fullTurnDiv2 : Degrees ℝ).val = 180 := by
  simp [Angle.fullTurnDiv2]; norm_num

theorem Radians.normalizeSigned_val (a : Radians ℝ) :
    (Angle.normalizeSigned a).val =
      if Real.pi < reduce (2 * Real.pi) a.val then reduce (2 * Real.pi) a.val - 2 * Real.pi
      else reduce (2 * Real.pi) a.val := by
  have hlt : (Angle.normalize a > (Angle.fullTurnDiv2 : Radians ℝ)) ↔
      Real.pi < reduce (2 * Real.pi) a.val := by
    show (Angle.fullTurnDiv2 : Radians ℝ).val < (Angle.normalize a).val ↔ _
    rw [Radians.fullTurnDiv2_val, Radians.normalize_val]
  unfold Angle.normalizeSigned
  by_cases h : Real.pi < reduce (2 * Real.pi) a.val
  · simp only [if_pos (hlt.mpr h), if_pos h, Radians.sub_val, Radians.normalize_val, Radians.fullTurn_val]
  · simp only [if_neg (fun h' => h (hlt.mp h')), if_neg h, Radians.normalize_val]

theorem Degrees.normalizeSigned_val (a : Degrees ℝ) :
    (Angle.normalizeSigned a).val =
      if 180 < reduce 360 a.val then reduce 360 a.val - 360 else reduce 360 a.val := by
  have hlt : (Angle.normalize a > (Angle.fullTurnDiv2 : Degrees ℝ)) ↔ 180 < reduce 360 a.val := by
    show (Angle.fullTurnDiv2 : Degrees ℝ).val < (Angle.normalize a).val ↔ _
    rw [Degrees.fullTurnDiv2_val, Degrees.normalize_val]
  unfold Angle.normalizeSigned
  by_cases h : 180 < reduce 360 a.val
  · simp only [if_pos (hlt.mpr h), if_pos h, Degrees.sub_val, Degrees.normalize_val, Degrees.fullTurn_val]
  · simp only [if_neg (fun h' => h (hlt.mp h')), if_neg h, Degrees.normalize_val]

/-! consequences of `reduce_eq` -/

theorem reduce_range {T : ℝ} (hT : 0 < T) (x : ℝ) : 0 ≤ reduce T x ∧ reduce T x < T := by
  rw [reduce_eq T x hT]
  have := toIcoMod_mem_Ico hT 0 x
  simpa using this

theorem reduce_congruent {T : ℝ} (hT : 0 < T) (x : ℝ) : ∃ k : ℤ, x = reduce T x + k * T := by
  rw [reduce_eq T x hT]
  refine ⟨toIcoDiv hT 0 x, ?_⟩
  have := toIcoMod_add_toIcoDiv_zsmul hT 0 x
  rw [zsmul_eq_mul] at this
  exact this.symm

theorem reduce_unique {T : ℝ} (hT : 0 < T) (x y : ℝ) (h0 : 0 ≤ y) (h1 : y < T) (k : ℤ)
    (h : x = y + k * T) : reduce T x = y := by
  rw [reduce_eq T x hT, toIcoMod_eq_iff hT]
  exact ⟨by simpa using ⟨h0, h1⟩, k, by rw [zsmul_eq_mul]; exact h⟩

end Cgl
