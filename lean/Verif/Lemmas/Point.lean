import Verif.Model.Point
import Verif.Lemmas.Vector

/-! # Closed forms for points -/

namespace Cgl
namespace Pt

variable {S T : Type*} {n : ℕ}

theorem ext_data {p q : Pt S n} (h : ∀ i, p.coords.data i = q.coords.data i) : p = q := by
  ext i; exact h i

section
variable [Zero S]
@[simp] theorem add_coords [Add S] (p : Pt S n) (v : Vec S n) : (p + v).coords = p.coords + v := rfl
@[simp] theorem subV_coords [Sub S] (p : Pt S n) (v : Vec S n) : (p - v).coords = p.coords - v := rfl
@[simp] theorem sub_eq [Sub S] (p q : Pt S n) : p - q = p.coords - q.coords := rfl
@[simp] theorem mul_coords [Mul S] (p : Pt S n) (k : S) : (p * k).coords = p.coords * k := rfl
@[simp] theorem smul_coords [Mul S] (p : Pt S n) (k : S) : (k * p).coords = k * p.coords := rfl
@[simp] theorem div_coords [Div S] (p : Pt S n) (k : S) : (p / k).coords = p.coords / k := rfl
@[simp] theorem rem_coords [Mod S] (p : Pt S n) (k : S) : (p % k).coords = p.coords % k := rfl
@[simp] theorem neg_coords [Neg S] (p : Pt S n) : (-p).coords = -p.coords := rfl
@[simp] theorem origin_coords : (origin : Pt S n).coords = 0 := rfl

theorem extend_coords (p : Pt S n) (x : S) : (p.extend x).coords = p.coords.extend x := rfl
theorem contract_coords (p : Pt S (n + 1)) : p.contract.coords = p.coords.contract := rfl

theorem fromHomogeneous_of_ne [Div S] [DecidableEq S] (v : Vec S (n + 1)) (h : v.data (Fin.last n) ≠ 0) :
    fromHomogeneous v = some ⟨v.contract / v.data (Fin.last n)⟩ := by
  simp only [fromHomogeneous, bne_iff_ne, h, ne_eq, not_false_eq_true, if_true, Option.some.injEq]
  apply ext_data
  intro i
  rw [forRange_update n _ fun i => v.data i.castSucc / v.data (Fin.last n)]
  simp

theorem fromHomogeneous_of_eq [Div S] [DecidableEq S] (v : Vec S (n + 1)) (h : v.data (Fin.last n) = 0) :
    fromHomogeneous v = none := by simp [fromHomogeneous, h]

end
end Pt
end Cgl
