import Verif.Props.C04_NormalizeAll

/-!
# C05 - `Unit` values of points, complex numbers and quaternions (exact real arithmetic)
-/

namespace Cgl

/-- Specification of the constructors of `Unit<X>`. -/
structure Spec.UnitConstructors (X : Type*) [Zero X] [HMul X ℝ X] [Normed X ℝ] (norm : X → ℝ) : Prop where
  /-- a value built from a non-zero `x` has norm one and is a positive multiple of `x` -/
  from_value : ∀ x : X, x ≠ 0 → norm (Unit'.fromValue x).value = 1 ∧ ∃ k : ℝ, 0 < k ∧ (Unit'.fromValue x).value = x * k
  from_value_with_norm : ∀ x : X, Unit'.fromValueWithNorm x = (Unit'.fromValue x, norm x)
  /-- the fallible constructor rejects `x` exactly when its norm is at most `|threshold|` -/
  none_iff : ∀ (x : X) (t : ℝ), Unit'.tryFromValue x t = none ↔ norm x ≤ |t|
  /-- and otherwise gives the same unit value, of norm one, with the norm of `x` -/
  some_iff : ∀ (x : X) (t : ℝ) (u : Unit' X), Unit'.tryFromValue x t = some u ↔ |t| < norm x ∧ u = Unit'.fromValue x
  with_norm : ∀ (x : X) (t : ℝ), Unit'.tryFromValueWithNorm x t = (Unit'.tryFromValue x t).map fun u => (u, norm x)
  unit : ∀ (x : X) (t : ℝ) (u : Unit' X), Unit'.tryFromValue x t = some u → norm u.value = 1

private theorem unit_of {X : Type*} [Zero X] [HMul X ℝ X] [Normed X ℝ] {norm : X → ℝ} {normalize : X → X}
    {a b c d e} (h : Spec.Normalisation norm normalize a b c d e) (h1 : ∀ x : X, Normed.norm x = norm x)
    (h2 : ∀ x : X, Normed.normalize x = normalize x) (h3 : ∀ x : X, Normed.normSquared x = norm x ^ 2)
    (hn : ∀ x, 0 ≤ norm x) (hz : norm 0 = 0) : Spec.UnitConstructors X norm := by
  have key : ∀ (x : X) (t : ℝ), (Normed.normSquared x > t * t) ↔ |t| < norm x := fun x t => by
    rw [h3, gt_iff_lt, ← pow_two, sq_lt_sq, abs_of_nonneg (hn x)]
  have ne : ∀ (x : X) (t : ℝ), |t| < norm x → x ≠ 0 := by
    rintro x t hx rfl; rw [hz] at hx; exact absurd (abs_nonneg t) (not_le.mpr hx)
  have sq : ∀ x : X, Real.sqrt (Normed.normSquared x) = norm x := fun x => by rw [h3, Real.sqrt_sq (hn x)]
  have some_iff : ∀ (x : X) (t : ℝ) (u : Unit' X), Unit'.tryFromValue x t = some u ↔ |t| < norm x ∧ u = Unit'.fromValue x := by
    intro x t u
    unfold Unit'.tryFromValue Unit'.tryFromValueWithNorm
    simp only [key]
    by_cases hx : |t| < norm x
    · simp [hx, Unit'.fromValue, Unit'.fromValueWithNorm, eq_comm]
    · simp [hx]
  refine ⟨fun x hx => ?_, fun x => ?_, fun x t => ?_, some_iff, fun x t => ?_, fun x t u hu => ?_⟩
  · have e : (Unit'.fromValue x).value = normalize x := h2 x
    rw [e]; exact ⟨h.unit x hx, h.direction x hx⟩
  · unfold Unit'.fromValue Unit'.fromValueWithNorm; rw [h1]
  · unfold Unit'.tryFromValue Unit'.tryFromValueWithNorm
    simp only [key]
    by_cases hx : |t| < norm x
    · simp [hx, not_le.mpr hx]
    · simp [hx, not_lt.mp hx]
  · unfold Unit'.tryFromValue Unit'.tryFromValueWithNorm
    simp only [key]
    have e : FloatFns.fsqrt (Normed.normSquared x) = norm x := sq x
    by_cases hx : |t| < norm x
    · simp [hx, e]
    · simp [hx]
  · obtain ⟨hx, rfl⟩ := (some_iff x t u).mp hu
    have e : (Unit'.fromValue x).value = normalize x := h2 x
    rw [e]; exact h.unit x (ne x t hx)

section
variable {n : ℕ}
local instance : Zero (Pt ℝ n) := ⟨Pt.origin⟩

theorem C05_point : Spec.UnitConstructors (Pt ℝ n) Pt.norm :=
  unit_of C04_point (fun _ => rfl) (fun _ => rfl) (fun x => (Vec.norm_sq x.coords).symm)
    (fun x => Vec.norm_nonneg x.coords) ((Vec.norm_eq_zero _).mpr rfl)
theorem C05_complex : Spec.UnitConstructors (Cx ℝ) Cx.norm :=
  unit_of C04_complex (fun _ => rfl) (fun _ => rfl)
    (fun x => (Real.sq_sqrt (add_nonneg (mul_self_nonneg x.re) (mul_self_nonneg x.im))).symm)
    (fun x => Real.sqrt_nonneg _) ((C34_norm_zero_iff 0).mpr rfl)
theorem C05_quaternion : Spec.UnitConstructors (Quat ℝ) Quat.norm :=
  unit_of C04_quaternion (fun _ => rfl) (fun _ => rfl) (fun x => (Vec.norm_sq x.coords).symm)
    (fun x => Vec.norm_nonneg x.coords) ((Vec.norm_eq_zero _).mpr (by ext i; fin_cases i <;> rfl))

/-- changing the sign of a unit value keeps the norm and changes every component -/
theorem C05_neg (u : Unit' (Pt ℝ n)) (q : Unit' (Quat ℝ)) :
    (Pt.negUnit u).value.norm = u.value.norm ∧ (∀ i, (Pt.negUnit u).value.coords.data i = -u.value.coords.data i) ∧
    (Quat.negUnit q).value.norm = q.value.norm ∧ ∀ i, (Quat.negUnit q).value.coords.data i = -q.value.coords.data i := by
  have hv : ∀ {m : ℕ} (v : Vec ℝ m), (-v).norm = v.norm := fun v => by
    have : (-v) = v * (-1 : ℝ) := by ext i; simp
    rw [this, Vec.norm_mulS]; simp
  have hq : (-q.value).coords = -q.value.coords := by ext i; fin_cases i <;> simp <;> rfl
  refine ⟨hv _, fun i => ?_, ?_, fun i => ?_⟩
  · show (-u.value.coords).data i = _; simp
  · show (-q.value).coords.norm = _; rw [hq, hv]; rfl
  · show (-q.value).coords.data i = _; rw [hq]; simp

/-- `3 + 4i` is accepted with threshold `-4` and rejected with threshold `-6` -/
example : Unit'.tryFromValue (Cx.new (3 : ℝ) 4) (-4) ≠ none ∧ Unit'.tryFromValue (Cx.new (3 : ℝ) 4) (-6) = none := by
  have h : (Cx.new (3 : ℝ) 4).norm = 5 := by
    show Real.sqrt (3 * 3 + 4 * 4) = 5
    rw [show (3:ℝ) * 3 + 4 * 4 = 5 ^ 2 by norm_num]; exact Real.sqrt_sq (by norm_num)
  rw [Ne, C05_complex.none_iff, C05_complex.none_iff, h]
  norm_num
end

end Cgl
