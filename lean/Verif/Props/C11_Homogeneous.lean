import Verif.Lemmas.Point
import Mathlib.Algebra.Field.Rat
import Mathlib.Tactic.FieldSimp
import Mathlib.Tactic.NormNum

/-! # C11 - homogeneous coordinates -/

namespace Cgl

variable {S : Type*} {n : ℕ}

/-! ### vectors: no law of the scalars is used -/

theorem C11_extend_components [Zero S] (v : Vec S n) (x : S) :
    (∀ i : Fin n, (v.extend x).data i.castSucc = v.data i) ∧ (v.extend x).data (Fin.last n) = x :=
  ⟨Vec.extend_castSucc v x, Vec.extend_last v x⟩

theorem C11_contract_components [Zero S] (v : Vec S (n + 1)) (i : Fin n) :
    v.contract.data i = v.data i.castSucc := Vec.contract_data v i

theorem C11_contract_extend [Zero S] (v : Vec S n) (x : S) : (v.extend x).contract = v :=
  Vec.contract_extend v x

theorem C11_extend_contract [Zero S] (v : Vec S (n + 1)) :
    v.contract.extend (v.data (Fin.last n)) = v := Vec.extend_contract v

theorem C11_vector_round_trip [Zero S] [DecidableEq S] (v : Vec S n) :
    v.toHomogeneous.fromHomogeneous = some v := by
  simp [Vec.toHomogeneous, Vec.fromHomogeneous]

theorem C11_vector_from_homogeneous_none_iff [Zero S] [DecidableEq S] (w : Vec S (n + 1)) :
    w.fromHomogeneous = none ↔ w.data (Fin.last n) ≠ 0 := by
  unfold Vec.fromHomogeneous; split <;> simp_all

theorem C11_vector_from_homogeneous_some_iff [Zero S] [DecidableEq S] (w : Vec S (n + 1)) (v : Vec S n) :
    w.fromHomogeneous = some v ↔ w = v.toHomogeneous := by
  unfold Vec.fromHomogeneous
  constructor
  · split
    · rename_i h
      intro hv
      simp only [Option.some.injEq] at hv
      rw [← hv, Vec.toHomogeneous, ← beq_iff_eq.mp h, Vec.extend_contract]
    · simp
  · rintro rfl
    simp [Vec.toHomogeneous]

/-! ### points -/

theorem C11_point_round_trip [Field S] [DecidableEq S] (p : Pt S n) :
    Pt.fromHomogeneous p.toHomogeneous = some p := by
  rw [Pt.fromHomogeneous_of_ne]
  · simp only [Pt.toHomogeneous, Vec.contract_extend, Vec.extend_last, Option.some.injEq]
    apply Pt.ext_data; intro i; simp
  · simp [Pt.toHomogeneous]

theorem C11_point_from_homogeneous_none_iff [Zero S] [Div S] [DecidableEq S] (w : Vec S (n + 1)) :
    (Pt.fromHomogeneous w : Option (Pt S n)) = none ↔ w.data (Fin.last n) = 0 := by
  unfold Pt.fromHomogeneous; split <;> simp_all

/-- when it succeeds, the coordinates are the leading components divided by the last one -/
theorem C11_point_from_homogeneous_value [Zero S] [Div S] [DecidableEq S] (w : Vec S (n + 1)) (p : Pt S n)
    (h : Pt.fromHomogeneous w = some p) (i : Fin n) :
    p.coords.data i = w.data i.castSucc / w.data (Fin.last n) := by
  have hne : w.data (Fin.last n) ≠ 0 := by
    intro h0; rw [Pt.fromHomogeneous_of_eq w h0] at h; simp at h
  rw [Pt.fromHomogeneous_of_ne w hne, Option.some.injEq] at h
  rw [← h]; simp

theorem C11_point_scale_invariant [Field S] [DecidableEq S] (w : Vec S (n + 1)) (k : S) (hk : k ≠ 0) :
    (Pt.fromHomogeneous (w * k) : Option (Pt S n)) = Pt.fromHomogeneous w := by
  by_cases h : w.data (Fin.last n) = 0
  · rw [Pt.fromHomogeneous_of_eq w h, Pt.fromHomogeneous_of_eq (w * k) (by simp [h])]
  · rw [Pt.fromHomogeneous_of_ne w h, Pt.fromHomogeneous_of_ne (w * k) (by simp [h, hk])]
    rw [Option.some.injEq]
    apply Pt.ext_data; intro i
    simp only [Vec.divS_data, Vec.contract_data, Vec.mulS_data]
    field_simp

/-- `Point::extend` / `Point::contract` agree with the vector ones. -/
theorem C11_point_extend_contract [Zero S] (p : Pt S n) (x : S) :
    (p.extend x).contract = p ∧ (p.extend x).coords = p.coords.extend x := by
  refine ⟨?_, rfl⟩
  apply Pt.ext; rw [Pt.contract_coords, Pt.extend_coords, Vec.contract_extend]

/-- (2, 4, 2) is the point (1, 2); (2, 4, 0) is no point -/
example : Pt.fromHomogeneous (Vec.new3 (2 : ℚ) 4 2) = some (Pt.new2 1 2) := by
  rw [Pt.fromHomogeneous_of_ne _ (by simp [Fin.last])]
  rw [Option.some.injEq]; apply Pt.ext_data; intro i
  fin_cases i <;> simp [Pt.new2, Fin.last] ; norm_num
example : (Pt.fromHomogeneous (Vec.new3 (2 : ℚ) 4 0) : Option (Pt ℚ 2)) = none := by
  rw [C11_point_from_homogeneous_none_iff]; rfl

end Cgl
