import Mathlib.Data.Real.Basic

/-! # What a norm and a metric are

Stated for a bare type with the operations the library exposes; nothing here mentions how a norm is
computed. -/

namespace Cgl.Spec

/-- `f` is a norm on `V` (real scalars acting on the right, as in `v * k`). -/
structure IsNorm {V : Type*} [Zero V] [Add V] [HMul V ℝ V] (f : V → ℝ) : Prop where
  nonneg : ∀ v, 0 ≤ f v
  eq_zero_iff : ∀ v, f v = 0 ↔ v = 0
  homogeneous : ∀ (v : V) (k : ℝ), f (v * k) = |k| * f v
  triangle : ∀ v w, f (v + w) ≤ f v + f w

/-- `d` is a metric on `V`. -/
structure IsMetric {V : Type*} (d : V → V → ℝ) : Prop where
  nonneg : ∀ a b, 0 ≤ d a b
  eq_zero_iff : ∀ a b, d a b = 0 ↔ a = b
  symm : ∀ a b, d a b = d b a
  triangle : ∀ a b c, d a c ≤ d a b + d b c

end Cgl.Spec
