import Verif.Model.Vector
import Verif.Lemmas.Loop
import Mathlib.Tactic.Ring
import Mathlib.Tactic.FinCases
import Mathlib.Tactic.Linarith
import Mathlib.Algebra.Order.BigOperators.Group.Finset
import Mathlib.Algebra.Order.BigOperators.Ring.Finset

/-! # Closed forms of the vector operations -/

namespace Cgl
namespace Vec

variable {S T : Type*} {n : ℕ}

@[simp] theorem new1_data (x : S) (i) : (new1 x).data i = ![x] i := rfl
@[simp] theorem new2_data (x y : S) (i) : (new2 x y).data i = ![x, y] i := rfl
@[simp] theorem new3_data (x y z : S) (i) : (new3 x y z).data i = ![x, y, z] i := rfl
@[simp] theorem new4_data (x y z w : S) (i) : (new4 x y z w).data i = ![x, y, z, w] i := rfl

@[simp] theorem map_data (f : S → T) (v : Vec S n) (i) : (v.map f).data i = f (v.data i) := rfl
@[simp] theorem fromFill_data (x : S) (i) : (fromFill x : Vec S n).data i = x := rfl

theorem ext2 {v w : Vec S 2} (h0 : v.data 0 = w.data 0) (h1 : v.data 1 = w.data 1) : v = w := by
  ext i; fin_cases i <;> assumption
theorem ext3 {v w : Vec S 3} (h0 : v.data 0 = w.data 0) (h1 : v.data 1 = w.data 1)
    (h2 : v.data 2 = w.data 2) : v = w := by
  ext i; fin_cases i <;> assumption
theorem ext4 {v w : Vec S 4} (h0 : v.data 0 = w.data 0) (h1 : v.data 1 = w.data 1)
    (h2 : v.data 2 = w.data 2) (h3 : v.data 3 = w.data 3) : v = w := by
  ext i; fin_cases i <;> assumption

section
variable [Zero S]

@[simp] theorem zero_data (i) : (0 : Vec S n).data i = 0 := rfl
@[simp] theorem zero_data' (i) : (zero : Vec S n).data i = 0 := rfl
theorem zero_eq : (zero : Vec S n) = 0 := rfl

@[simp] theorem add_data [Add S] (v w : Vec S n) (i) : (v + w).data i = v.data i + w.data i := by
  show (add v w).data i = _
  simp only [add]; rw [forRange_update n _ fun i => v.data i + w.data i]
@[simp] theorem sub_data [Sub S] (v w : Vec S n) (i) : (v - w).data i = v.data i - w.data i := by
  show (sub v w).data i = _
  simp only [sub]; rw [forRange_update n _ fun i => v.data i - w.data i]
@[simp] theorem neg_data [Neg S] (v : Vec S n) (i) : (-v).data i = -v.data i := by
  show (neg v).data i = _
  simp only [neg]; rw [forRange_update n _ fun i => -v.data i]
@[simp] theorem mulS_data [Mul S] (v : Vec S n) (k : S) (i) : (v * k).data i = v.data i * k := by
  show (mulS v k).data i = _
  simp only [mulS]; rw [forRange_update n _ fun i => v.data i * k]
@[simp] theorem smul_data [Mul S] (v : Vec S n) (k : S) (i) : (k * v).data i = k * v.data i := by
  show (smul k v).data i = _
  simp only [smul]; rw [forRange_update n _ fun i => k * v.data i]
@[simp] theorem divS_data [Div S] (v : Vec S n) (k : S) (i) : (v / k).data i = v.data i / k := by
  show (divS v k).data i = _
  simp only [divS]; rw [forRange_update n _ fun i => v.data i / k]
@[simp] theorem remS_data [Mod S] (v : Vec S n) (k : S) (i) : (v % k).data i = v.data i % k := by
  show (remS v k).data i = _
  simp only [remS]; rw [forRange_update n _ fun i => v.data i % k]
@[simp] theorem componentMul_data [Mul S] (v w : Vec S n) (i) :
    (v.componentMul w).data i = v.data i * w.data i := by
  simp only [componentMul]; rw [forRange_update n _ fun i => v.data i * w.data i]
@[simp] theorem componentMin_data [Min S] (v w : Vec S n) (i) :
    (v.componentMin w).data i = min (v.data i) (w.data i) := by
  simp only [componentMin]; rw [forRange_update n _ fun i => min (v.data i) (w.data i)]
@[simp] theorem componentMax_data [Max S] (v w : Vec S n) (i) :
    (v.componentMax w).data i = max (v.data i) (w.data i) := by
  simp only [componentMax]; rw [forRange_update n _ fun i => max (v.data i) (w.data i)]

end

@[simp] theorem addAssign_data [Add S] (v w : Vec S n) (i) :
    (v.addAssign w).data i = v.data i + w.data i := by
  simp only [addAssign]; rw [forRange_update_self n _ fun i x => x + w.data i]
@[simp] theorem subAssign_data [Sub S] (v w : Vec S n) (i) :
    (v.subAssign w).data i = v.data i - w.data i := by
  simp only [subAssign]; rw [forRange_update_self n _ fun i x => x - w.data i]
@[simp] theorem mulAssign_data [Mul S] (v : Vec S n) (k : S) (i) :
    (v.mulAssign k).data i = v.data i * k := by
  simp only [mulAssign]; rw [forRange_update_self n _ fun i x => x * k]
@[simp] theorem divAssign_data [Div S] (v : Vec S n) (k : S) (i) :
    (v.divAssign k).data i = v.data i / k := by
  simp only [divAssign]; rw [forRange_update_self n _ fun i x => x / k]
@[simp] theorem remAssign_data [Mod S] (v : Vec S n) (k : S) (i) :
    (v.remAssign k).data i = v.data i % k := by
  simp only [remAssign]; rw [forRange_update_self n _ fun i x => x % k]
@[simp] theorem componentMulAssign_data [Mul S] (v w : Vec S n) (i) :
    (v.componentMulAssign w).data i = v.data i * w.data i := by
  simp only [componentMulAssign]; rw [forRange_update_self n _ fun i x => x * w.data i]
@[simp] theorem negMut_data [Neg S] (v : Vec S n) (i) : (v.negMut).data i = -v.data i := by
  simp only [negMut]; rw [forRange_update_self n _ fun i x => -x]

theorem isZero_iff [Zero S] [DecidableEq S] (v : Vec S n) : v.isZero = true ↔ v = 0 := by
  rw [isZero, forRange_and n true fun i => v.data i == 0]
  simp [Vec.ext_iff, funext_iff]

theorem dot_eq_sum [NonUnitalNonAssocSemiring S] (v w : Vec S n) :
    v.dot w = ∑ i, v.data i * w.data i := by
  rw [dot, forRange_sum n fun i => v.data i * w.data i]

theorem normSquared_eq_sum [NonUnitalNonAssocSemiring S] (v : Vec S n) :
    v.normSquared = ∑ i, v.data i * v.data i := dot_eq_sum v v

theorem l1Norm_eq_sum [AddCommMonoid S] [SAbs S] (v : Vec S n) :
    v.l1Norm = ∑ i, sabs (v.data i) := by
  rw [l1Norm, forRange_sum n fun i => sabs (v.data i)]

/-! ### extend / contract -/

theorem extend_loop [Zero S] (v : Vec S n) (d : Fin (n + 1) → S) (i : Fin n) :
    forRange n d (fun i result => Function.update result i.castSucc (v.data i)) i.castSucc = v.data i := by
  have := forRange_sim (n := n) (s := d) (t := fun i : Fin n => d i.castSucc)
    (b := fun i result => Function.update result i.castSucc (v.data i))
    (c := fun i s => Function.update s i (v.data i)) (fun (s : Fin (n+1) → S) (i : Fin n) => s i.castSucc) rfl
    (by
      intro i x; funext k
      by_cases h : k = i
      · subst h; simp
      · have h' : k.castSucc ≠ i.castSucc := fun hh => h (Fin.castSucc_injective n hh)
        simp [Function.update_of_ne h, Function.update_of_ne h'])
  have h2 := congrFun this i
  rw [forRange_update] at h2
  exact h2

@[simp] theorem extend_castSucc [Zero S] (v : Vec S n) (x : S) (i : Fin n) :
    (v.extend x).data i.castSucc = v.data i := by
  simp only [extend]
  rw [Function.update_of_ne (Fin.castSucc_lt_last i).ne, extend_loop]

@[simp] theorem extend_last [Zero S] (v : Vec S n) (x : S) : (v.extend x).data (Fin.last n) = x := by
  simp [extend]

@[simp] theorem contract_data [Zero S] (v : Vec S (n + 1)) (i : Fin n) :
    v.contract.data i = v.data i.castSucc := by
  simp only [contract]; rw [forRange_update n _ fun i => v.data i.castSucc]

@[simp] theorem contract_extend [Zero S] (v : Vec S n) (x : S) : (v.extend x).contract = v := by
  ext i; simp

theorem extend_contract [Zero S] (v : Vec S (n + 1)) : v.contract.extend (v.data (Fin.last n)) = v := by
  ext i
  refine Fin.lastCases ?_ (fun i => ?_) i
  · simp
  · simp

@[simp] theorem extend2 [Zero S] (x y z : S) : (new2 x y).extend z = new3 x y z := by
  ext i; refine Fin.lastCases ?_ (fun i => ?_) i
  · simp only [extend_last]; rfl
  · simp only [extend_castSucc]; fin_cases i <;> rfl
@[simp] theorem extend3 [Zero S] (x y z w : S) : (new3 x y z).extend w = new4 x y z w := by
  ext i; refine Fin.lastCases ?_ (fun i => ?_) i
  · simp only [extend_last]; rfl
  · simp only [extend_castSucc]; fin_cases i <;> rfl

/-! ### explicit dimensions -/

theorem dot2 [NonUnitalNonAssocSemiring S] (v w : Vec S 2) :
    v.dot w = v.data 0 * w.data 0 + v.data 1 * w.data 1 := by
  rw [dot_eq_sum, Fin.sum_univ_two]
theorem dot3 [NonUnitalNonAssocSemiring S] (v w : Vec S 3) :
    v.dot w = v.data 0 * w.data 0 + v.data 1 * w.data 1 + v.data 2 * w.data 2 := by
  rw [dot_eq_sum, Fin.sum_univ_three]
theorem dot4 [NonUnitalNonAssocSemiring S] (v w : Vec S 4) :
    v.dot w = v.data 0 * w.data 0 + v.data 1 * w.data 1 + v.data 2 * w.data 2 + v.data 3 * w.data 3 := by
  rw [dot_eq_sum, Fin.sum_univ_four]

end Vec
end Cgl
