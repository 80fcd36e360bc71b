import Verif.Lemmas.Vector
import Mathlib.Algebra.Field.Basic

/-!
# C02 - vector arithmetic and in-place operators
-/

namespace Cgl
open Vec

variable {S : Type*} {n : ℕ}

/-! ### every operator acts on each component, with no assumption about the scalars (IEEE floats
included) -/

theorem C02_add_component [Zero S] [Add S] (a b : Vec S n) (i : Fin n) :
    (a + b).data i = a.data i + b.data i := add_data a b i
theorem C02_sub_component [Zero S] [Sub S] (a b : Vec S n) (i : Fin n) :
    (a - b).data i = a.data i - b.data i := sub_data a b i
theorem C02_neg_component [Zero S] [Neg S] (a : Vec S n) (i : Fin n) :
    (-a).data i = -(a.data i) := neg_data a i
theorem C02_mul_component [Zero S] [Mul S] (a : Vec S n) (k : S) (i : Fin n) :
    (a * k).data i = a.data i * k := mulS_data a k i
theorem C02_scalar_mul_component [Zero S] [Mul S] (a : Vec S n) (k : S) (i : Fin n) :
    (k * a).data i = k * a.data i := smul_data a k i
theorem C02_div_component [Zero S] [Div S] (a : Vec S n) (k : S) (i : Fin n) :
    (a / k).data i = a.data i / k := divS_data a k i
theorem C02_rem_component [Zero S] [Mod S] (a : Vec S n) (k : S) (i : Fin n) :
    (a % k).data i = a.data i % k := remS_data a k i
theorem C02_component_mul_component [Zero S] [Mul S] (a b : Vec S n) (i : Fin n) :
    (a.componentMul b).data i = a.data i * b.data i := componentMul_data a b i
theorem C02_map_component {T : Type*} (f : S → T) (a : Vec S n) (i : Fin n) :
    (a.map f).data i = f (a.data i) := rfl
theorem C02_from_fill_component (x : S) (i : Fin n) : (fromFill x : Vec S n).data i = x := rfl

/-! ### in-place operators leave the receiver equal to the result of the pure operator -/

theorem C02_add_assign [Zero S] [Add S] (a b : Vec S n) : a.addAssign b = a + b := by
  ext i; simp
theorem C02_sub_assign [Zero S] [Sub S] (a b : Vec S n) : a.subAssign b = a - b := by
  ext i; simp
theorem C02_mul_assign [Zero S] [Mul S] (a : Vec S n) (k : S) : a.mulAssign k = a * k := by
  ext i; simp
theorem C02_div_assign [Zero S] [Div S] (a : Vec S n) (k : S) : a.divAssign k = a / k := by
  ext i; simp
theorem C02_rem_assign [Zero S] [Mod S] (a : Vec S n) (k : S) : a.remAssign k = a % k := by
  ext i; simp
theorem C02_neg_mut [Zero S] [Neg S] (a : Vec S n) : a.negMut = -a := by
  ext i; simp
theorem C02_component_mul_assign [Zero S] [Mul S] (a b : Vec S n) :
    a.componentMulAssign b = a.componentMul b := by
  ext i; simp

/-! ### vector space laws -/

section Ring
variable [CommRing S] (a b c : Vec S n) (k l : S)

theorem C02_add_comm : a + b = b + a := by ext i; simp [add_comm]
theorem C02_add_assoc : a + b + c = a + (b + c) := by ext i; simp [add_assoc]
theorem C02_add_zero : a + 0 = a := by ext i; simp
theorem C02_add_neg : a + -a = 0 := by ext i; simp
theorem C02_sub_eq_add_neg : a - b = a + -b := by ext i; simp [sub_eq_add_neg]
theorem C02_mul_add : (a + b) * k = a * k + b * k := by ext i; simp [add_mul]
theorem C02_mul_scalar_add : a * (k + l) = a * k + a * l := by ext i; simp [mul_add]
theorem C02_mul_mul : a * k * l = a * (k * l) := by ext i; simp [mul_assoc]
theorem C02_mul_one : a * (1 : S) = a := by ext i; simp
theorem C02_mul_zero : a * (0 : S) = 0 := by ext i; simp
theorem C02_scalar_mul_eq_mul_scalar : k * a = a * k := by ext i; simp [mul_comm]
theorem C02_component_mul_comm : a.componentMul b = b.componentMul a := by ext i; simp [mul_comm]

end Ring

theorem C02_div_mul_cancel [Field S] (a : Vec S n) (k : S) (hk : k ≠ 0) : (a / k) * k = a := by
  ext i; simp [hk]

theorem C02_div_eq_mul_recip [Field S] (a : Vec S n) (k : S) : a / k = a * (1 / k) := by
  ext i; simp [div_eq_mul_inv]

/-! ### zero -/

theorem C02_is_zero_iff [Zero S] [DecidableEq S] (a : Vec S n) :
    a.isZero = true ↔ ∀ i, a.data i = 0 := by
  rw [isZero_iff]; simp [Vec.ext_iff, funext_iff]

theorem C02_is_zero_iff_eq_zero [Zero S] [DecidableEq S] (a : Vec S n) :
    a.isZero = true ↔ a = Vec.zero := isZero_iff a

/-- the in-place operators really change a non-trivial vector -/
example : (new3 (1 : ℤ) 2 3).addAssign (new3 10 20 30) = new3 11 22 33 := by
  rw [C02_add_assign]; ext i; fin_cases i <;> rfl
example : (new2 (0 : ℤ) 5).isZero = false := by decide
example : (new2 (7 : ℤ) 5 % (3 : ℤ)) = new2 1 2 := by decide

end Cgl
