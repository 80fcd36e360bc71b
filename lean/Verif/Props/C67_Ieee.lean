import Verif.Props.C67_RoundingError
import Verif.Props.C69_SpecialValues

/-! # C67 - error bounds for IEEE arithmetic

A result that is finite was computed without overflow anywhere on the way, so it is the result of the rounded
arithmetic `Fl`, and the error bounds hold for it - with gradual underflow included. -/

namespace Cgl
open Mat Ieee Finset

variable {φ : Format} {n R C R1 C1 C2 : ℕ}

/-- the representable number a finite datum stands for -/
def toFl (x : Ieee φ) : Fl φ.toRounding := ⟨x.val, val_rep x⟩

/-- when `x` is finite its value is `y` -/
def Agrees (x : Ieee φ) (y : Fl φ.toRounding) : Prop := x.Finite → x.val = y.val

namespace Agrees
variable {a b : Ieee φ} {x y : Fl φ.toRounding}
theorem self (a : Ieee φ) : Agrees a (toFl a) := fun _ => rfl
theorem zero : Agrees (0 : Ieee φ) 0 := fun _ => rfl
theorem add (h : Agrees a x) (h' : Agrees b y) : Agrees (a + b) (x + y) := fun hf => by
  rw [val_add hf, h (finite_add hf).1, h' (finite_add hf).2]; rfl
theorem sub (h : Agrees a x) (h' : Agrees b y) : Agrees (a - b) (x - y) := fun hf => by
  rw [val_sub hf, h (finite_sub hf).1, h' (finite_sub hf).2]; rfl
theorem mul (h : Agrees a x) (h' : Agrees b y) : Agrees (a * b) (x * y) := fun hf => by
  rw [val_mul hf, h (finite_mul hf).1, h' (finite_mul hf).2]; rfl
theorem neg (h : Agrees a x) : Agrees (-a) (-x) := fun hf => by
  rw [val_neg, h (finite_neg hf)]; rfl
theorem sqrt [Lib φ] (h : Agrees a x) : Agrees (fsqrt a) (fsqrt x) := fun hf => by
  rw [Lib.sqrt_eq] at hf ⊢
  rw [(val_sqrt hf).1, h (finite_sqrt hf)]; rfl
theorem loop {n : ℕ} (f : Fin n → Ieee φ) (g : Fin n → Fl φ.toRounding) (h : ∀ i, Agrees (f i) (g i)) :
    Agrees (forRange n (0 : Ieee φ) fun i s => s + f i) (forRange n 0 fun i s => s + g i) := by
  induction n with
  | zero => simpa using zero
  | succ n ih => rw [forRange_succ, forRange_succ]; exact (ih _ _ fun i => h i.castSucc).add (h _)
end Agrees

syntax "agrees" : tactic
macro_rules
  | `(tactic| agrees) => `(tactic| first
    | with_reducible exact Agrees.self _
    | (with_reducible apply Agrees.add <;> agrees) | (with_reducible apply Agrees.sub <;> agrees)
    | (with_reducible apply Agrees.mul <;> agrees) | (with_reducible apply Agrees.neg <;> agrees))

/-! ### finite results are those of rounded arithmetic -/

theorem C67_ieee_dot (v w : Vec (Ieee φ) n) : Agrees (v.dot w) ((v.map toFl).dot (w.map toFl)) :=
  Agrees.loop (fun i => v.data i * w.data i) _ fun i => by
    simp only [Vec.map_data]; agrees

theorem C67_ieee_norm [Lib φ] (v : Vec (Ieee φ) n) : Agrees v.norm (v.map toFl).norm := (C67_ieee_dot v v).sqrt

theorem C67_ieee_vector (v w : Vec (Ieee φ) n) (k : Ieee φ) (i : Fin n) :
    Agrees ((v + w).data i) ((v.map toFl + w.map toFl).data i) ∧
    Agrees ((v - w).data i) ((v.map toFl - w.map toFl).data i) ∧
    Agrees ((v * k).data i) ((v.map toFl * toFl k).data i) ∧
    Agrees ((v.lerp w k).data i) (((v.map toFl).lerp (w.map toFl) (toFl k)).data i) := by
  simp only [Vec.lerp, Vec.add_data, Vec.sub_data, Vec.mulS_data, Vec.map_data]
  refine ⟨?_, ?_, ?_, ?_⟩ <;> agrees

theorem C67_ieee_cross (v w : Vec (Ieee φ) 3) (i : Fin 3) :
    Agrees ((v.cross w).data i) (((v.map toFl).cross (w.map toFl)).data i) := by
  fin_cases i <;> simp [Vec.cross] <;> agrees

theorem C67_ieee_matrix (A : Mat (Ieee φ) R1 C1) (B : Mat (Ieee φ) C1 C2) (v : Vec (Ieee φ) C1) :
    (∀ c r, Agrees ((A * B).data c r) ((A.map 0 toFl * B.map 0 toFl).data c r)) ∧
    (∀ r, Agrees ((A * v).data r) ((A.map 0 toFl * v.map toFl).data r)) := by
  refine ⟨fun c r => ?_, fun r => ?_⟩
  · rw [mul_entry, mul_entry]
    exact Agrees.loop (fun i => A.data i r * B.data c i) _ fun i => by simp only [map_data]; agrees
  · rw [mulVec_entry, mulVec_entry]
    exact Agrees.loop (fun i => A.data i r * v.data i) _ fun i => by simp only [map_data, Vec.map_data]; agrees

theorem C67_ieee_determinant (A2 : Mat (Ieee φ) 2 2) (A3 : Mat (Ieee φ) 3 3) (A4 : Mat (Ieee φ) 4 4) :
    Agrees A2.determinant2 (A2.map 0 toFl).determinant2 ∧ Agrees A3.determinant3 (A3.map 0 toFl).determinant3 ∧
    Agrees A4.determinant4 (A4.map 0 toFl).determinant4 := by
  simp only [determinant2, determinant3, determinant4, map_data]
  refine ⟨?_, ?_, ?_⟩ <;> agrees

theorem C67_ieee_products (z w : Cx (Ieee φ)) (q r : Quat (Ieee φ)) :
    Agrees (z * w).re (z.map toFl * w.map toFl).re ∧ Agrees (z * w).im (z.map toFl * w.map toFl).im ∧
    ∀ i, Agrees ((q * r).coords.data i) ((q.map toFl * r.map toFl).coords.data i) := by
  refine ⟨?_, ?_, fun i => ?_⟩
  · change Agrees (z.re * w.re - z.im * w.im) (toFl z.re * toFl w.re - toFl z.im * toFl w.im); agrees
  · change Agrees (z.re * w.im + z.im * w.re) (toFl z.re * toFl w.im + toFl z.im * toFl w.re); agrees
  · have d : Agrees (q.vector.dot r.vector) ((q.map toFl).vector.dot (r.map toFl).vector) := C67_ieee_dot q.vector r.vector
    fin_cases i
    · change Agrees (q.scalar * r.scalar - q.vector.dot r.vector)
        (toFl q.scalar * toFl r.scalar - (q.map toFl).vector.dot (r.map toFl).vector)
      exact Agrees.sub (by agrees) d
    · change Agrees (r.vector.data 0 * q.scalar + q.vector.data 0 * r.scalar +
        (q.vector.data 1 * r.vector.data 2 - q.vector.data 2 * r.vector.data 1))
        (toFl (r.vector.data 0) * toFl q.scalar + toFl (q.vector.data 0) * toFl r.scalar +
        (toFl (q.vector.data 1) * toFl (r.vector.data 2) - toFl (q.vector.data 2) * toFl (r.vector.data 1)))
      agrees
    · change Agrees (r.vector.data 1 * q.scalar + q.vector.data 1 * r.scalar +
        (q.vector.data 2 * r.vector.data 0 - q.vector.data 0 * r.vector.data 2))
        (toFl (r.vector.data 1) * toFl q.scalar + toFl (q.vector.data 1) * toFl r.scalar +
        (toFl (q.vector.data 2) * toFl (r.vector.data 0) - toFl (q.vector.data 0) * toFl (r.vector.data 2)))
      agrees
    · change Agrees (r.vector.data 2 * q.scalar + q.vector.data 2 * r.scalar +
        (q.vector.data 0 * r.vector.data 1 - q.vector.data 1 * r.vector.data 0))
        (toFl (r.vector.data 2) * toFl q.scalar + toFl (q.vector.data 2) * toFl r.scalar +
        (toFl (q.vector.data 0) * toFl (r.vector.data 1) - toFl (q.vector.data 1) * toFl (r.vector.data 0)))
      agrees

/-! ### bounds for finite results -/

/-- A finite dot product: no assumption about underflow or overflow is left. -/
theorem C67_ieee_dot_error (v w : Vec (Ieee φ) n) (h : (v.dot w).Finite) :
    |(v.dot w).val - ∑ i, (v.data i).val * (w.data i).val| ≤
      ((1 + φ.u) ^ n - 1) * (∑ i, |(v.data i).val| * |(w.data i).val|) + 2 * n * (1 + φ.u) ^ n * φ.tiny := by
  have := C67_dot (v.map toFl) (w.map toFl)
  rw [← C67_ieee_dot v w h] at this
  exact this

theorem C67_ieee_product_error (A : Mat (Ieee φ) R1 C1) (B : Mat (Ieee φ) C1 C2) (c : Fin C2) (r : Fin R1)
    (h : ((A * B).data c r).Finite) :
    |((A * B).data c r).val - ∑ i, (A.data i r).val * (B.data c i).val| ≤
      ((1 + φ.u) ^ C1 - 1) * (∑ i, |(A.data i r).val| * |(B.data c i).val|) + 2 * C1 * (1 + φ.u) ^ C1 * φ.tiny := by
  have := C67_matrix_product (A.map 0 toFl) (B.map 0 toFl) c r
  rw [← (C67_ieee_matrix A B 0).1 c r h] at this
  simpa [toFl] using this

theorem C67_ieee_matrix_vector_error (A : Mat (Ieee φ) R C) (v : Vec (Ieee φ) C) (r : Fin R)
    (h : ((A * v).data r).Finite) :
    |((A * v).data r).val - ∑ i, (A.data i r).val * (v.data i).val| ≤
      ((1 + φ.u) ^ C - 1) * (∑ i, |(A.data i r).val| * |(v.data i).val|) + 2 * C * (1 + φ.u) ^ C * φ.tiny := by
  have := C67_matrix_vector (A.map 0 toFl) (v.map toFl) r
  rw [← (C67_ieee_matrix A (0 : Mat (Ieee φ) C 0) v).2 r h] at this
  simpa [toFl] using this

/-- Four-dimensional `f64` products, the case of homogeneous coordinates: the constants evaluated. -/
theorem C67_f64_transform (A : Mat (Ieee f64) 4 4) (v : Vec (Ieee f64) 4) (r : Fin 4) (h : ((A * v).data r).Finite) :
    |((A * v).data r).val - ∑ i, (A.data i r).val * (v.data i).val| ≤
      5 * 2 ^ (-53 : ℤ) * (∑ i, |(A.data i r).val| * |(v.data i).val|) + 2 ^ (-1071 : ℤ) := by
  refine (C67_ieee_matrix_vector_error A v r h).trans (add_le_add (mul_le_mul_of_nonneg_right ?_ ?_) ?_)
  · have : f64.u = 2 ^ (-53 : ℤ) := rfl
    rw [this]; norm_num
  · exact sum_nonneg fun _ _ => by positivity
  · have h1 : f64.u = 2 ^ (-53 : ℤ) := rfl
    have h2 : f64.tiny = 2 ^ (-1074 - 1 : ℤ) := rfl
    have h3 : (2 : ℝ) ^ (-1071 : ℤ) = 16 * 2 ^ (-1074 - 1 : ℤ) := by
      rw [show (16 : ℝ) = 2 ^ (4 : ℤ) by norm_num, ← zpow_add₀ two_ne_zero]; norm_num
    rw [h1, h2, h3]
    exact mul_le_mul_of_nonneg_right (by norm_num) (by positivity)

/-- the hypotheses are met: `(1, 0, 0, 0)` under the identity matrix -/
example : (((identity : Mat (Ieee f64) 4 4) * (Vec.new4 1 0 0 0 : Vec (Ieee f64) 4)).data 0).Finite := by
  have h11 : (1 : Ieee f64) * 1 = 1 := by
    change Ieee.round (false ^^ false) (signed false 1 * signed false 1) = _
    simp only [signed, Ieee.round, Bool.false_eq_true, if_false, mul_one, abs_one]
    rw [dif_pos (by rw [f64.one]; exact f64.one_le_big)]
    simp only [f64.one]
    norm_num
    rfl
  have h01 : (0 : Ieee f64) + 1 = 1 := by
    change Ieee.round (false && false) (signed false 0 + signed false 1) = _
    simp only [signed, Ieee.round, Bool.false_eq_true, if_false, zero_add, abs_one]
    rw [dif_pos (by rw [f64.one]; exact f64.one_le_big)]
    simp only [f64.one]
    norm_num
    rfl
  have h10 : (1 : Ieee f64) + 0 = 1 := by
    change Ieee.round (false && false) (signed false 1 + signed false 0) = _
    simp only [signed, Ieee.round, Bool.false_eq_true, if_false, add_zero, abs_one]
    rw [dif_pos (by rw [f64.one]; exact f64.one_le_big)]
    simp only [f64.one]
    norm_num
    rfl
  have h00 := (zero_mul_fin (0 : Ieee f64) ⟨_, _, rfl⟩).1
  have e : ((identity : Mat (Ieee f64) 4 4) * (Vec.new4 1 0 0 0 : Vec (Ieee f64) 4)).data 0 = 1 := by
    rw [mulVec_entry]
    simp only [dotArrayCol, identity_data]
    change (((0 + 1 * 1) + 0 * 0) + 0 * 0) + (0 : Ieee f64) * 0 = 1
    rw [h11, h00, h01, h10, h10, h10]
  rw [e]; exact finite_one

end Cgl
