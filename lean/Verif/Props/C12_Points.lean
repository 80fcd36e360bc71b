import Verif.Lemmas.Point
import Verif.Props.C06_VectorNorms

/-! # C12 - points form an affine space over vectors -/

namespace Cgl

variable {S : Type*} {n : ℕ}

section
variable [CommRing S] (p q : Pt S n) (v w : Vec S n)

theorem C12_add_sub : (p + v) - p = v := by ext i; simp
theorem C12_add_diff : p + (q - p) = q := by apply Pt.ext_data; intro i; simp
theorem C12_add_assoc : (p + v) + w = p + (v + w) := by apply Pt.ext_data; intro i; simp [add_assoc]
theorem C12_sub_add : (p - v) + v = p := by apply Pt.ext_data; intro i; simp
theorem C12_add_zero : p + (0 : Vec S n) = p := by apply Pt.ext_data; intro i; simp
theorem C12_diff_antisymm : p - q = -(q - p) := by ext i; simp
/-- Chasles -/
theorem C12_chasles (r : Pt S n) : (p - q) + (q - r) = p - r := by ext i; simp
/-- the vector from `p` to `q` is unique -/
theorem C12_torsor (h : p + v = q) : v = q - p := by rw [← h, C12_add_sub]

end

theorem C12_vector_round_trip (p : Pt S n) (v : Vec S n) :
    Pt.fromVector p.toVector = p ∧ (Pt.fromVector v).toVector = v := ⟨rfl, rfl⟩

theorem C12_origin [CommRing S] (p : Pt S n) : (Pt.origin : Pt S n) + p.toVector = p ∧ p - (Pt.origin : Pt S n) = p.toVector := by
  constructor
  · apply Pt.ext_data; intro i; simp [Pt.toVector]
  · ext i; simp [Pt.toVector]

/-! in-place operators, no laws needed -/

theorem C12_assign_ops [Zero S] [Add S] [Sub S] [Mul S] [Div S] [Mod S] (p : Pt S n) (v : Vec S n) (k : S) :
    p.addAssign v = p + v ∧ p.subAssign v = p - v ∧ p.mulAssign k = p * k ∧ p.divAssign k = p / k ∧
      p.remAssign k = p % k := by
  refine ⟨?_, ?_, ?_, ?_, ?_⟩ <;>
    (apply Pt.ext_data; intro i
     simp [Pt.addAssign, Pt.subAssign, Pt.mulAssign, Pt.divAssign, Pt.remAssign])

/-! distances -/

theorem C12_distance (p q : Pt ℝ n) : p.metricDistance q = (p - q).norm := rfl

theorem C12_distance_is_metric : Spec.IsMetric fun p q : Pt ℝ n => p.metricDistance q where
  nonneg p q := C06_metric_distance.nonneg _ _
  eq_zero_iff p q := by
    rw [show p.metricDistance q = p.coords.metricDistance q.coords from rfl,
      C06_metric_distance.eq_zero_iff, Pt.ext_iff]
  symm p q := C06_metric_distance.symm _ _
  triangle p q r := C06_metric_distance.triangle _ _ _

/-- translating both points does not change their distance -/
theorem C12_distance_translation (p q : Pt ℝ n) (v : Vec ℝ n) :
    (p + v).metricDistance (q + v) = p.metricDistance q := by
  rw [C12_distance, C12_distance]
  congr 1; ext i; simp

example : (Pt.new2 (1 : ℤ) 2 + Vec.new2 (10 : ℤ) 20) = Pt.new2 11 22 := by
  apply Pt.ext_data; intro i; fin_cases i <;> rfl

end Cgl
