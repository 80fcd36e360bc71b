import Mathlib.Analysis.SpecialFunctions.Sqrt
import Mathlib.Analysis.InnerProductSpace.PiL2
import Verif.Props.C66_FloatLaws
import Verif.Props.C06_VectorNorms

/-! # C67 - how far rounded results are from the exact ones

The model functions run on `Fl ρ` are compared with their exact values, for an arbitrary rounding `ρ` with unit
roundoff `u` and underflow error `tiny`. -/

namespace Cgl
open Mat Finset

variable {ρ : Rounding} {n N R C R1 C1 C2 : ℕ}

/-! ### sums of products -/

/-- A loop that accumulates products. -/
theorem sum_products_error (a b : Fin n → Fl ρ) :
    |(forRange n (0 : Fl ρ) fun i s => s + a i * b i).val - ∑ i, (a i).val * (b i).val| ≤
      ((1 + ρ.u) ^ n - 1) * (∑ i, |(a i).val * (b i).val|) + 2 * n * (1 + ρ.u) ^ n * ρ.tiny := by
  have hu := ρ.u_nonneg
  have ht := ρ.tiny_nonneg
  induction n with
  | zero => simp
  | succ k ih =>
    rw [forRange_succ, Fin.sum_univ_castSucc, Fin.sum_univ_castSucc]
    have ih := ih (fun i => a i.castSucc) (fun i => b i.castSucc)
    set s := forRange k (0 : Fl ρ) fun i s => s + a i.castSucc * b i.castSucc with hs
    set X := ∑ i : Fin k, (a i.castSucc).val * (b i.castSucc).val
    set A := ∑ i : Fin k, |(a i.castSucc).val * (b i.castSucc).val| with hA
    set x := (a (Fin.last k)).val * (b (Fin.last k)).val
    have hXA : |X| ≤ A := abs_sum_le_sum_abs _ _
    have hA0 : 0 ≤ A := sum_nonneg fun _ _ => abs_nonneg _
    have hp := ρ.err x
    rcases Nat.eq_zero_or_pos k with rfl | hk
    · have e : (s + a (Fin.last 0) * b (Fin.last 0)).val = ρ.fl x := by
        rw [hs, forRange_zero, Fl.zero_add]; rfl
      rw [e]
      have hX : X = 0 := rfl
      have hA' : A = 0 := rfl
      rw [hX, hA']
      norm_num
      have : 0 ≤ ρ.u * ρ.tiny := by positivity
      nlinarith
    · have e : (s + a (Fin.last k) * b (Fin.last k)).val = ρ.fl (s.val + ρ.fl x) := rfl
      rw [e]
      have h1 := ρ.err (s.val + ρ.fl x)
      have hP1 : (1 + ρ.u) ≤ (1 + ρ.u) ^ k := le_self_pow₀ (by linarith) hk.ne'
      set P := (1 + ρ.u) ^ k
      have hxn := abs_nonneg x
      have h2 : |s.val + ρ.fl x - (X + x)| ≤ ((P - 1) * A + 2 * k * P * ρ.tiny) + (ρ.u * |x| + ρ.tiny) := by
        calc _ = |(s.val - X) + (ρ.fl x - x)| := by ring_nf
          _ ≤ _ := (abs_add_le _ _).trans (add_le_add ih hp)
      have h3 : |s.val + ρ.fl x| ≤ A + |x| + (((P - 1) * A + 2 * k * P * ρ.tiny) + (ρ.u * |x| + ρ.tiny)) := by
        calc _ = |(X + x) + (s.val + ρ.fl x - (X + x))| := by ring_nf
          _ ≤ |X + x| + |s.val + ρ.fl x - (X + x)| := abs_add_le _ _
          _ ≤ _ := add_le_add ((abs_add_le _ _).trans (add_le_add hXA le_rfl)) h2
      have h4 : |ρ.fl (s.val + ρ.fl x) - (X + x)| ≤ ρ.u * (A + |x| + (((P - 1) * A + 2 * k * P * ρ.tiny) +
          (ρ.u * |x| + ρ.tiny))) + ρ.tiny + (((P - 1) * A + 2 * k * P * ρ.tiny) + (ρ.u * |x| + ρ.tiny)) := by
        calc _ = |(ρ.fl (s.val + ρ.fl x) - (s.val + ρ.fl x)) + (s.val + ρ.fl x - (X + x))| := by ring_nf
          _ ≤ _ := (abs_add_le _ _).trans (add_le_add (h1.trans (by gcongr)) h2)
      refine h4.trans ?_
      rw [pow_succ]
      push_cast
      have c1 : 0 ≤ (P - (1 + ρ.u)) * ((1 + ρ.u) * |x|) :=
        mul_nonneg (by linarith) (mul_nonneg (by linarith) hxn)
      have c2 : 0 ≤ (P - 1) * ρ.tiny := mul_nonneg (by linarith) ht
      have c3 : 0 ≤ ρ.u * ρ.tiny := by positivity
      have c4 : 0 ≤ (P - 1) * ρ.tiny * ρ.u := mul_nonneg c2 hu
      nlinarith

/-- `(1 + u) ^ n - 1` is at most `n u / (1 - n u)`, the constant usual in error analysis. -/
theorem gamma_le (h : n * ρ.u < 1) : (1 + ρ.u) ^ n - 1 ≤ n * ρ.u / (1 - n * ρ.u) := by
  have hu := ρ.u_nonneg
  have key : ∀ k : ℕ, (1 + ρ.u) ^ k * (1 - k * ρ.u) ≤ 1 := by
    intro k
    induction k with
    | zero => simp
    | succ k ih =>
      have hp : 0 ≤ (1 + ρ.u) ^ k := by positivity
      have : (1 + ρ.u) * (1 - ((k + 1 : ℕ) : ℝ) * ρ.u) ≤ 1 - k * ρ.u := by
        have : 0 ≤ ((k : ℝ) + 1) * (ρ.u * ρ.u) := by positivity
        push_cast; linarith
      calc _ = (1 + ρ.u) ^ k * ((1 + ρ.u) * (1 - ((k + 1 : ℕ) : ℝ) * ρ.u)) := by rw [pow_succ]; ring
        _ ≤ (1 + ρ.u) ^ k * (1 - k * ρ.u) := mul_le_mul_of_nonneg_left this hp
        _ ≤ 1 := ih
  rw [le_div_iff₀ (by linarith)]
  linarith [key n]

/-- The dot product: the error is a small multiple of the sum of the absolute values of the products. -/
theorem C67_dot (v w : Vec (Fl ρ) n) :
    |(v.dot w).val - ∑ i, (v.data i).val * (w.data i).val| ≤
      ((1 + ρ.u) ^ n - 1) * (∑ i, |(v.data i).val| * |(w.data i).val|) + 2 * n * (1 + ρ.u) ^ n * ρ.tiny := by
  simp only [← abs_mul]
  exact sum_products_error v.data w.data

/-- The entries of a matrix product. -/
theorem C67_matrix_product (A : Mat (Fl ρ) R1 C1) (B : Mat (Fl ρ) C1 C2) (c : Fin C2) (r : Fin R1) :
    |((A * B).data c r).val - ∑ i, (A.data i r).val * (B.data c i).val| ≤
      ((1 + ρ.u) ^ C1 - 1) * (∑ i, |(A.data i r).val| * |(B.data c i).val|) + 2 * C1 * (1 + ρ.u) ^ C1 * ρ.tiny := by
  simp only [← abs_mul]
  rw [mul_entry]
  exact sum_products_error (fun i => A.data i r) (B.data c)

/-- The components of a matrix applied to a vector. -/
theorem C67_matrix_vector (A : Mat (Fl ρ) R C) (v : Vec (Fl ρ) C) (r : Fin R) :
    |((A * v).data r).val - ∑ i, (A.data i r).val * (v.data i).val| ≤
      ((1 + ρ.u) ^ C - 1) * (∑ i, |(A.data i r).val| * |(v.data i).val|) + 2 * C * (1 + ρ.u) ^ C * ρ.tiny := by
  simp only [← abs_mul]
  rw [mulVec_entry]
  exact sum_products_error (fun i => A.data i r) v.data

/-! ### norms, without underflow -/

section NoUnderflow
variable (ht : ρ.tiny = 0)
include ht

theorem err0 (x : ℝ) : |ρ.fl x - x| ≤ ρ.u * |x| := by simpa [ht] using ρ.err x

/-- The squared norm has a small relative error. -/
theorem C67_norm_squared (v : Vec (Fl ρ) n) :
    |v.normSquared.val - ∑ i, (v.data i).val ^ 2| ≤ ((1 + ρ.u) ^ n - 1) * ∑ i, (v.data i).val ^ 2 := by
  have := C67_dot v v
  rw [ht, mul_zero, add_zero] at this
  simp only [abs_mul_abs_self] at this
  simpa [sq, Vec.normSquared] using this

omit ht in
theorem sqrt_error {s S d : ℝ} (hS : 0 ≤ S) (h : |s - S| ≤ d * S) : |Real.sqrt s - Real.sqrt S| ≤ d * Real.sqrt S := by
  rcases hS.eq_or_lt with rfl | hS'
  · have : s = 0 := by simpa using h
    simp [this]
  have hq := Real.sqrt_pos.mpr hS'
  have hsq := Real.mul_self_sqrt hS
  have h1 : |Real.sqrt s - Real.sqrt S| * Real.sqrt S ≤ |s - S| := by
    rcases le_total 0 s with hs | hs
    · have e : s - S = (Real.sqrt s - Real.sqrt S) * (Real.sqrt s + Real.sqrt S) := by
        have := Real.mul_self_sqrt hs; nlinarith
      rw [e, abs_mul]
      refine mul_le_mul_of_nonneg_left ?_ (abs_nonneg _)
      rw [abs_of_nonneg (by positivity)]
      linarith [Real.sqrt_nonneg s]
    · rw [Real.sqrt_eq_zero_of_nonpos hs, zero_sub, abs_neg, abs_of_pos hq, hsq, abs_of_nonpos (by linarith)]
      linarith
  have h2 : |Real.sqrt s - Real.sqrt S| * Real.sqrt S ≤ (d * Real.sqrt S) * Real.sqrt S := by
    rw [mul_assoc, hsq]; exact h1.trans h
  exact le_of_mul_le_mul_right h2 hq

/-- The norm has a small relative error. -/
theorem C67_norm (v : Vec (Fl ρ) n) :
    |v.norm.val - Real.sqrt (∑ i, (v.data i).val ^ 2)| ≤
      ((1 + ρ.u) ^ (n + 1) - 1) * Real.sqrt (∑ i, (v.data i).val ^ 2) := by
  have hS : 0 ≤ ∑ i, (v.data i).val ^ 2 := sum_nonneg fun _ _ => sq_nonneg _
  have h1 := sqrt_error hS (C67_norm_squared ht v)
  set q := Real.sqrt (∑ i, (v.data i).val ^ 2)
  have hq : 0 ≤ q := Real.sqrt_nonneg _
  have h2 := err0 ht (Real.sqrt v.normSquared.val)
  have e : v.norm.val = ρ.fl (Real.sqrt v.normSquared.val) := rfl
  rw [e]
  set r := Real.sqrt v.normSquared.val
  have hu := ρ.u_nonneg
  have h3 : |r| ≤ q + ((1 + ρ.u) ^ n - 1) * q := by
    calc |r| = |q + (r - q)| := by ring_nf
      _ ≤ |q| + |r - q| := abs_add_le _ _
      _ ≤ _ := by rw [abs_of_nonneg hq]; linarith
  calc _ = |(ρ.fl r - r) + (r - q)| := by ring_nf
    _ ≤ ρ.u * |r| + |r - q| := (abs_add_le _ _).trans (by linarith)
    _ ≤ ρ.u * (q + ((1 + ρ.u) ^ n - 1) * q) + ((1 + ρ.u) ^ n - 1) * q := by gcongr
    _ = _ := by rw [pow_succ]; ring

/-- Every component of the normalised vector has a small relative error, so the result points along the
vector and has norm close to one. -/
theorem C67_normalize_component (v : Vec (Fl ρ) n) (hv : v ≠ 0) (hn : (1 + ρ.u) ^ (n + 1) < 2) (i : Fin n) :
    |(v.normalize.data i).val - (v.data i).val / Real.sqrt (∑ i, (v.data i).val ^ 2)| ≤
      ((1 + ρ.u) ^ 2 / (2 - (1 + ρ.u) ^ (n + 1)) - 1) *
        |(v.data i).val / Real.sqrt (∑ i, (v.data i).val ^ 2)| := by
  have hu := ρ.u_nonneg
  have hS : 0 < ∑ i, (v.data i).val ^ 2 := by
    refine lt_of_le_of_ne (sum_nonneg fun _ _ => sq_nonneg _) fun h => hv ?_
    have := (sum_eq_zero_iff_of_nonneg fun i _ => sq_nonneg (v.data i).val).mp h.symm
    ext i : 2
    exact Fl.ext (by simpa using this i (mem_univ i))
  have hnorm := C67_norm ht v
  set q := Real.sqrt (∑ i, (v.data i).val ^ 2)
  have hq : 0 < q := Real.sqrt_pos.mpr hS
  set g := (1 + ρ.u) ^ (n + 1) - 1 with hg
  have hg1 : 2 - (1 + ρ.u) ^ (n + 1) = 1 - g := by rw [hg]; ring
  rw [hg1]
  have hg2 : g < 1 := by linarith
  have hg0 : 0 ≤ g := by rw [hg]; linarith [one_le_pow₀ (n := n + 1) (show 1 ≤ 1 + ρ.u by linarith)]
  obtain ⟨δ, hδ, hδe⟩ : ∃ δ, |δ| ≤ g ∧ v.norm.val = q * (1 + δ) := by
    refine ⟨(v.norm.val - q) / q, ?_, by field_simp; ring⟩
    rw [abs_div, abs_of_pos hq, div_le_iff₀ hq]; exact hnorm
  have hrel : ∀ x, ∃ ε, |ε| ≤ ρ.u ∧ ρ.fl x = x * (1 + ε) := by
    intro x
    rcases eq_or_ne x 0 with rfl | hx
    · exact ⟨0, by simpa using hu, by simp [ρ.zero]⟩
    · refine ⟨(ρ.fl x - x) / x, ?_, by field_simp; ring⟩
      rw [abs_div, div_le_iff₀ (abs_pos.mpr hx)]; exact err0 ht x
  have e : (v.normalize.data i).val = ρ.fl ((v.data i).val * ρ.fl (1 / v.norm.val)) := by
    rw [Vec.normalize, Vec.mulS_data]; rfl
  obtain ⟨ε₁, h1, e1⟩ := hrel (1 / v.norm.val)
  obtain ⟨ε₂, h2, e2⟩ := hrel ((v.data i).val * ρ.fl (1 / v.norm.val))
  rw [e, e2, e1, hδe]
  have hδ' := abs_le.mp hδ
  have hpos : 0 < 1 + δ := by linarith
  have hx : (v.data i).val * (1 / (q * (1 + δ)) * (1 + ε₁)) * (1 + ε₂) - (v.data i).val / q =
      (((1 + ε₁) * (1 + ε₂) - 1 - δ) / (1 + δ)) * ((v.data i).val / q) := by field_simp; ring
  rw [hx, abs_mul]
  refine mul_le_mul_of_nonneg_right ?_ (abs_nonneg _)
  rw [abs_div, abs_of_pos hpos, div_sub_one (by linarith)]
  have hnum : |(1 + ε₁) * (1 + ε₂) - 1 - δ| ≤ (1 + ρ.u) ^ 2 - (1 - g) := by
    calc _ = |ε₁ + ε₂ + ε₁ * ε₂ + -δ| := by ring_nf
      _ ≤ |ε₁| + |ε₂| + |ε₁| * |ε₂| + |δ| := by
        refine (abs_add_le _ _).trans ?_
        rw [abs_neg]
        refine add_le_add ((abs_add_le _ _).trans ?_) le_rfl
        rw [abs_mul]
        exact add_le_add (abs_add_le _ _) le_rfl
      _ ≤ ρ.u + ρ.u + ρ.u * ρ.u + g := by gcongr
      _ = _ := by ring
  have hnn : 0 ≤ (1 + ρ.u) ^ 2 - (1 - g) := (abs_nonneg _).trans hnum
  exact div_le_div₀ hnn hnum (by linarith) (by linarith)

/-- The exact norm of the computed normalisation of a non-zero vector is close to one. -/
theorem C67_normalize (v : Vec (Fl ρ) n) (hv : v ≠ 0) (hn : (1 + ρ.u) ^ (n + 1) < 2) :
    |Real.sqrt (∑ i, (v.normalize.data i).val ^ 2) - 1| ≤ (1 + ρ.u) ^ 2 / (2 - (1 + ρ.u) ^ (n + 1)) - 1 := by
  have hS : 0 < ∑ i, (v.data i).val ^ 2 := by
    refine lt_of_le_of_ne (sum_nonneg fun _ _ => sq_nonneg _) fun h => hv ?_
    have := (sum_eq_zero_iff_of_nonneg fun i _ => sq_nonneg (v.data i).val).mp h.symm
    ext i : 2
    exact Fl.ext (by simpa using this i (mem_univ i))
  have hc := C67_normalize_component ht v hv hn
  set q := Real.sqrt (∑ i, (v.data i).val ^ 2) with hqd
  have hq : 0 < q := Real.sqrt_pos.mpr hS
  set K := (1 + ρ.u) ^ 2 / (2 - (1 + ρ.u) ^ (n + 1)) - 1
  let x : EuclideanSpace ℝ (Fin n) := WithLp.toLp 2 fun i => (v.normalize.data i).val
  let y : EuclideanSpace ℝ (Fin n) := WithLp.toLp 2 fun i => (v.data i).val / q
  have hx : Real.sqrt (∑ i, (v.normalize.data i).val ^ 2) = ‖x‖ := by
    rw [EuclideanSpace.norm_eq]; simp [x]
  have hysq : ∑ i, ((v.data i).val / q) ^ 2 = 1 := by
    simp only [div_pow]
    rw [← sum_div, hqd, Real.sq_sqrt hS.le, div_self hS.ne']
  have hy : ‖y‖ = 1 := by
    rw [EuclideanSpace.norm_eq]; simp only [Real.norm_eq_abs, sq_abs, y]; rw [hysq, Real.sqrt_one]
  rw [hx, ← hy]
  refine (abs_norm_sub_norm_le x y).trans ?_
  have hK : 0 ≤ K := by
    have hpos : ∃ i, 0 < |(v.data i).val / q| := by
      by_contra hcon
      push Not at hcon
      have : ∑ i, ((v.data i).val / q) ^ 2 = 0 := sum_eq_zero fun i _ => by
        have := abs_nonpos_iff.mp (hcon i); rw [this]; ring
      rw [hysq] at this; exact one_ne_zero this
    obtain ⟨i, hi⟩ := hpos
    exact nonneg_of_mul_nonneg_left ((abs_nonneg _).trans (hc i)) hi
  rw [EuclideanSpace.norm_eq]
  have : ∑ i, ‖(x - y) i‖ ^ 2 ≤ K ^ 2 := by
    calc ∑ i, ‖(x - y) i‖ ^ 2 ≤ ∑ i, K ^ 2 * ((v.data i).val / q) ^ 2 := by
          refine sum_le_sum fun i _ => ?_
          have := hc i
          have e : ‖(x - y) i‖ = |(v.normalize.data i).val - (v.data i).val / q| := by simp [x, y]
          rw [e, ← mul_pow, ← sq_abs (K * _), abs_mul, abs_of_nonneg hK]
          gcongr
      _ = K ^ 2 := by rw [← mul_sum, hysq, mul_one]
  calc Real.sqrt _ ≤ Real.sqrt (K ^ 2) := Real.sqrt_le_sqrt this
    _ = K := Real.sqrt_sq hK

/-! ### polynomial expressions -/

omit ht in
/-- `x` is `X` up to `k` roundings relative to the majorant `A`. -/
def NearBy (ρ : Rounding) (k : ℕ) (A X x : ℝ) : Prop := |X| ≤ A ∧ |x - X| ≤ ((1 + ρ.u) ^ k - 1) * A

omit ht in
theorem NearBy.exact (x : ℝ) : NearBy ρ 0 |x| x x := ⟨le_rfl, by simp⟩

omit ht in
theorem NearBy.mono {k l : ℕ} {A X x : ℝ} (h : NearBy ρ k A X x) (hkl : k ≤ l) : NearBy ρ l A X x := by
  refine ⟨h.1, h.2.trans (mul_le_mul_of_nonneg_right ?_ ((abs_nonneg _).trans h.1))⟩
  have := pow_le_pow_right₀ (show 1 ≤ 1 + ρ.u by linarith [ρ.u_nonneg]) hkl
  linarith

omit ht in
theorem NearBy.neg {k : ℕ} {A X x : ℝ} (h : NearBy ρ k A X x) : NearBy ρ k A (-X) (-x) := by
  refine ⟨by rw [abs_neg]; exact h.1, ?_⟩
  rw [show -x - -X = -(x - X) by ring, abs_neg]; exact h.2

omit ht in
theorem NearBy.abs_le {k : ℕ} {A X x : ℝ} (h : NearBy ρ k A X x) : |x| ≤ (1 + ρ.u) ^ k * A := by
  calc |x| = |X + (x - X)| := by ring_nf
    _ ≤ |X| + |x - X| := abs_add_le _ _
    _ ≤ A + ((1 + ρ.u) ^ k - 1) * A := add_le_add h.1 h.2
    _ = _ := by ring

theorem NearBy.add {k l : ℕ} {A X x B Y y : ℝ} (h : NearBy ρ k A X x) (h' : NearBy ρ l B Y y) :
    NearBy ρ (max k l + 1) (A + B) (X + Y) (ρ.fl (x + y)) := by
  have h := h.mono (le_max_left k l)
  have h' := h'.mono (le_max_right k l)
  refine ⟨(abs_add_le _ _).trans (add_le_add h.1 h'.1), ?_⟩
  have hu := ρ.u_nonneg
  have e := err0 ht (x + y)
  set P := (1 + ρ.u) ^ max k l
  calc |ρ.fl (x + y) - (X + Y)| = |(ρ.fl (x + y) - (x + y)) + ((x - X) + (y - Y))| := by ring_nf
    _ ≤ ρ.u * |x + y| + (|x - X| + |y - Y|) :=
        (abs_add_le _ _).trans (add_le_add e (abs_add_le _ _))
    _ ≤ ρ.u * (P * A + P * B) + ((P - 1) * A + (P - 1) * B) := by
        refine add_le_add (mul_le_mul_of_nonneg_left ?_ hu) (add_le_add h.2 h'.2)
        exact (abs_add_le _ _).trans (add_le_add h.abs_le h'.abs_le)
    _ = _ := by rw [pow_succ]; ring

theorem NearBy.sub {k l : ℕ} {A X x B Y y : ℝ} (h : NearBy ρ k A X x) (h' : NearBy ρ l B Y y) :
    NearBy ρ (max k l + 1) (A + B) (X - Y) (ρ.fl (x - y)) := by
  rw [sub_eq_add_neg, sub_eq_add_neg]; exact NearBy.add ht h h'.neg

theorem NearBy.mul {k l : ℕ} {A X x B Y y : ℝ} (h : NearBy ρ k A X x) (h' : NearBy ρ l B Y y) :
    NearBy ρ (k + l + 1) (A * B) (X * Y) (ρ.fl (x * y)) := by
  have hA := (abs_nonneg _).trans h.1
  have hB := (abs_nonneg _).trans h'.1
  refine ⟨by rw [abs_mul]; exact mul_le_mul h.1 h'.1 (abs_nonneg _) hA, ?_⟩
  have hu := ρ.u_nonneg
  have e := err0 ht (x * y)
  have hx := h.abs_le
  have hy := h'.abs_le
  have h2 := h.2
  have h2' := h'.2
  have hP : 0 ≤ (1 + ρ.u) ^ k - 1 := by linarith [one_le_pow₀ (n := k) (show 1 ≤ 1 + ρ.u by linarith)]
  have hP0 : 0 ≤ (1 + ρ.u) ^ k := by positivity
  set P := (1 + ρ.u) ^ k
  set Q := (1 + ρ.u) ^ l with hQ
  calc |ρ.fl (x * y) - X * Y| = |(ρ.fl (x * y) - x * y) + ((x - X) * y + X * (y - Y))| := by ring_nf
    _ ≤ ρ.u * |x * y| + (|x - X| * |y| + |X| * |y - Y|) := by
        refine (abs_add_le _ _).trans (add_le_add e ((abs_add_le _ _).trans ?_))
        rw [abs_mul, abs_mul]
    _ ≤ ρ.u * ((P * A) * (Q * B)) + (((P - 1) * A) * (Q * B) + A * ((Q - 1) * B)) := by
        rw [abs_mul x y]
        have a1 : |x| * |y| ≤ (P * A) * (Q * B) := mul_le_mul hx hy (abs_nonneg _) (by positivity)
        have a2 : |x - X| * |y| ≤ ((P - 1) * A) * (Q * B) := mul_le_mul h2 hy (abs_nonneg _) (by positivity)
        have a3 : |X| * |y - Y| ≤ A * ((Q - 1) * B) := mul_le_mul h.1 h2' (abs_nonneg _) hA
        have a4 := mul_le_mul_of_nonneg_left a1 hu
        linarith
    _ = _ := by rw [pow_succ, pow_add]; ring

/-- Interpolation. -/
theorem C67_lerp (v w : Vec (Fl ρ) n) (t : Fl ρ) (i : Fin n) :
    |((v.lerp w t).data i).val - ((v.data i).val + ((w.data i).val - (v.data i).val) * t.val)| ≤
      ((1 + ρ.u) ^ 3 - 1) * (|(v.data i).val| + (|(w.data i).val| + |(v.data i).val|) * |t.val|) := by
  have h := (NearBy.exact (ρ := ρ) (v.data i).val).add ht
    (((NearBy.exact (w.data i).val).sub ht (NearBy.exact (v.data i).val)).mul ht (NearBy.exact t.val))
  have e : ((v.lerp w t).data i).val =
      ρ.fl ((v.data i).val + ρ.fl (ρ.fl ((w.data i).val - (v.data i).val) * t.val)) := by
    simp [Vec.lerp]
  rw [e]; exact h.2

/-- The components of the cross product. -/
theorem C67_cross (v w : Vec (Fl ρ) 3) :
    |((v.cross w).data 0).val - ((v.data 1).val * (w.data 2).val - (v.data 2).val * (w.data 1).val)| ≤
      ((1 + ρ.u) ^ 2 - 1) * (|(v.data 1).val| * |(w.data 2).val| + |(v.data 2).val| * |(w.data 1).val|) ∧
    |((v.cross w).data 1).val - ((v.data 2).val * (w.data 0).val - (v.data 0).val * (w.data 2).val)| ≤
      ((1 + ρ.u) ^ 2 - 1) * (|(v.data 2).val| * |(w.data 0).val| + |(v.data 0).val| * |(w.data 2).val|) ∧
    |((v.cross w).data 2).val - ((v.data 0).val * (w.data 1).val - (v.data 1).val * (w.data 0).val)| ≤
      ((1 + ρ.u) ^ 2 - 1) * (|(v.data 0).val| * |(w.data 1).val| + |(v.data 1).val| * |(w.data 0).val|) := by
  have h : ∀ a b c d : Fl ρ, NearBy ρ 2 (|a.val| * |b.val| + |c.val| * |d.val|) (a.val * b.val - c.val * d.val)
      (a * b - c * d).val := fun a b c d =>
    ((NearBy.exact a.val).mul ht (NearBy.exact b.val)).sub ht ((NearBy.exact c.val).mul ht (NearBy.exact d.val))
  exact ⟨(h _ _ _ _).2, (h _ _ _ _).2, (h _ _ _ _).2⟩

/-- The parts of a complex product. -/
theorem C67_complex_product (z w : Cx (Fl ρ)) :
    |(z * w).re.val - (z.re.val * w.re.val - z.im.val * w.im.val)| ≤
      ((1 + ρ.u) ^ 2 - 1) * (|z.re.val| * |w.re.val| + |z.im.val| * |w.im.val|) ∧
    |(z * w).im.val - (z.re.val * w.im.val + z.im.val * w.re.val)| ≤
      ((1 + ρ.u) ^ 2 - 1) * (|z.re.val| * |w.im.val| + |z.im.val| * |w.re.val|) :=
  ⟨(((NearBy.exact z.re.val).mul ht (NearBy.exact w.re.val)).sub ht
      ((NearBy.exact z.im.val).mul ht (NearBy.exact w.im.val))).2,
    (((NearBy.exact z.re.val).mul ht (NearBy.exact w.im.val)).add ht
      ((NearBy.exact z.im.val).mul ht (NearBy.exact w.re.val))).2⟩

/-- The determinants: the error is relative to the permanent of the absolute values of the entries. -/
theorem C67_determinant2 (A : Mat (Fl ρ) 2 2) :
    |A.determinant2.val - ((A.data 0 0).val * (A.data 1 1).val - (A.data 0 1).val * (A.data 1 0).val)| ≤
      ((1 + ρ.u) ^ 2 - 1) *
        (|(A.data 0 0).val| * |(A.data 1 1).val| + |(A.data 0 1).val| * |(A.data 1 0).val|) := by
  have h := fun c r => NearBy.exact (ρ := ρ) (A.data c r).val
  exact (((h 0 0).mul ht (h 1 1)).sub ht ((h 0 1).mul ht (h 1 0))).2

end NoUnderflow

/-- The permanent of a square array: the determinant without its signs, expanded along the first column. -/
def Spec.permanent : (n : ℕ) → (Fin n → Fin n → ℝ) → ℝ
  | 0, _ => 1
  | n + 1, A => ∑ i, A 0 i * Spec.permanent n fun c r => A c.succ (i.succAbove r)

/-- the exact matrix of the entries -/
def Spec.exactMat (A : Mat (Fl ρ) R C) : Mat ℝ R C := A.map 0 Fl.val

section NoUnderflow
variable (ht : ρ.tiny = 0)
include ht

theorem C67_determinant3 (A : Mat (Fl ρ) 3 3) :
    |A.determinant3.val - (Spec.exactMat A).determinant3| ≤
      ((1 + ρ.u) ^ 7 - 1) * Spec.permanent 3 fun c r => |(A.data c r).val| := by
  have h := fun c r => NearBy.exact (ρ := ρ) (A.data c r).val
  have p := fun c r c' r' c'' r'' => (((h c r).mul ht (h c' r')).mul ht (h c'' r''))
  have := ((((((p 0 0 1 1 2 2).sub ht (p 0 0 1 2 2 1)).sub ht (p 1 0 0 1 2 2)).add ht (p 1 0 0 2 2 1)).add ht
    (p 2 0 0 1 1 2)).sub ht (p 2 0 0 2 1 1)).2
  simp only [determinant3, Spec.exactMat, map_data]
  refine this.trans (le_of_eq ?_)
  refine congrArg (((1 + ρ.u) ^ 7 - 1) * ·) ?_
  simp [Spec.permanent, Fin.sum_univ_succ, Fin.succAbove]
  ring

theorem C67_determinant4 (A : Mat (Fl ρ) 4 4) :
    |A.determinant4.val - (Spec.exactMat A).determinant4| ≤
      ((1 + ρ.u) ^ 26 - 1) * Spec.permanent 4 fun c r => |(A.data c r).val| := by
  have h := fun c r => NearBy.exact (ρ := ρ) (A.data c r).val
  have p := fun c r c' r' c'' r'' d d' => ((((h c r).mul ht (h c' r')).mul ht (h c'' r'')).mul ht (h d d'))
  have :=
    ((((((((((((((((((((((((p 0 0 1 1 2 2 3 3).sub ht (p 0 0 1 1 2 3 3 2)).sub ht (p 0 0 2 1 1 2 3 3)).add ht (p 0
    0 2 1 1 3 3 2)).add ht (p 0 0 3 1 1 2 2 3)).sub ht (p 0 0 3 1 1 3 2 2)).sub ht (p 1 0 0 1 2 2 3 3)).add ht (p 1
    0 0 1 2 3 3 2)).add ht (p 1 0 2 1 0 2 3 3)).sub ht (p 1 0 2 1 0 3 3 2)).sub ht (p 1 0 3 1 0 2 2 3)).add ht (p 1
    0 3 1 0 3 2 2)).add ht (p 2 0 0 1 1 2 3 3)).sub ht (p 2 0 0 1 1 3 3 2)).sub ht (p 2 0 1 1 0 2 3 3)).add ht (p 2
    0 1 1 0 3 3 2)).add ht (p 2 0 3 1 0 2 1 3)).sub ht (p 2 0 3 1 0 3 1 2)).sub ht (p 3 0 0 1 1 2 2 3)).add ht (p 3
    0 0 1 1 3 2 2)).add ht (p 3 0 1 1 0 2 2 3)).sub ht (p 3 0 1 1 0 3 2 2)).sub ht (p 3 0 2 1 0 2 1 3)).add ht (p 3
    0 2 1 0 3 1 2)).2
  simp only [determinant4, Spec.exactMat, map_data]
  refine this.trans (le_of_eq ?_)
  refine congrArg (((1 + ρ.u) ^ 26 - 1) * ·) ?_
  simp [Spec.permanent, Fin.sum_univ_succ, Fin.succAbove]
  ring

theorem NearBy.dot (v w : Vec (Fl ρ) n) : NearBy ρ n (∑ i, |(v.data i).val| * |(w.data i).val|)
    (∑ i, (v.data i).val * (w.data i).val) (v.dot w).val := by
  refine ⟨?_, by simpa [ht] using C67_dot v w⟩
  simp only [← abs_mul]; exact abs_sum_le_sum_abs _ _

/-- The parts of a quaternion product. -/
theorem C67_quaternion_product (q r : Quat (Fl ρ)) :
    |(q * r).scalar.val - (q.scalar.val * r.scalar.val - ∑ i, (q.vector.data i).val * (r.vector.data i).val)| ≤
      ((1 + ρ.u) ^ 4 - 1) *
        (|q.scalar.val| * |r.scalar.val| + ∑ i, |(q.vector.data i).val| * |(r.vector.data i).val|) ∧
    ∀ i j k : Fin 3, (i = 0 ∧ j = 1 ∧ k = 2) ∨ (i = 1 ∧ j = 2 ∧ k = 0) ∨ (i = 2 ∧ j = 0 ∧ k = 1) →
      |((q * r).vector.data i).val - ((r.vector.data i).val * q.scalar.val + (q.vector.data i).val * r.scalar.val +
        ((q.vector.data j).val * (r.vector.data k).val - (q.vector.data k).val * (r.vector.data j).val))| ≤
      ((1 + ρ.u) ^ 3 - 1) *
        (|(r.vector.data i).val| * |q.scalar.val| + |(q.vector.data i).val| * |r.scalar.val| +
        (|(q.vector.data j).val| * |(r.vector.data k).val| + |(q.vector.data k).val| * |(r.vector.data j).val|)) := by
  constructor
  · exact (((NearBy.exact q.scalar.val).mul ht (NearBy.exact r.scalar.val)).sub ht (NearBy.dot ht q.vector r.vector)).2
  · intro i j k h
    have a := fun x y : Fl ρ => (NearBy.exact (ρ := ρ) x.val).mul ht (NearBy.exact y.val)
    have b := ((a (r.vector.data i) q.scalar).add ht (a (q.vector.data i) r.scalar)).add ht
      ((a (q.vector.data j) (r.vector.data k)).sub ht (a (q.vector.data k) (r.vector.data j)))
    have e : ((q * r).vector.data i) = (r.vector.data i * q.scalar + q.vector.data i * r.scalar) +
        (q.vector.data j * r.vector.data k - q.vector.data k * r.vector.data j) := by
      rcases h with ⟨rfl, rfl, rfl⟩ | ⟨rfl, rfl, rfl⟩ | ⟨rfl, rfl, rfl⟩ <;> rfl
    rw [e]; exact b.2

end NoUnderflow

/-! ### the precision of `f64`, with an unbounded exponent range -/

/-- `f64` arithmetic without overflow or underflow -/
noncomputable def precision53 : Rounding := Rounding.nearestEven 53 none (by norm_num) (by simp)

theorem precision53_tiny : precision53.tiny = 0 := rfl
theorem precision53_u : precision53.u = 2 ^ (-53 : ℤ) := rfl

/-- A normalised three-dimensional `f64` vector has norm one up to seven units of roundoff (`7 * 2^-53 < 1e-15`). -/
theorem C67_normalize_f64 (v : Vec (Fl precision53) 3) (hv : v ≠ 0) :
    |Real.sqrt (∑ i, (v.normalize.data i).val ^ 2) - 1| ≤ 7 * 2 ^ (-53 : ℤ) := by
  refine (C67_normalize precision53_tiny v hv (by rw [precision53_u]; norm_num)).trans ?_
  rw [precision53_u]; norm_num

/-- The dot product of two `f64` vectors of at most a thousand components is off by at most `1001 * 2^-53` of the sum
of absolute values. -/
theorem C67_dot_f64 (hn : n ≤ 1000) (v w : Vec (Fl precision53) n) :
    |(v.dot w).val - ∑ i, (v.data i).val * (w.data i).val| ≤
      (1001 * 2 ^ (-53 : ℤ)) * ∑ i, |(v.data i).val| * |(w.data i).val| := by
  have h := C67_dot v w
  rw [precision53_tiny, mul_zero, add_zero] at h
  refine h.trans (mul_le_mul_of_nonneg_right ?_ (sum_nonneg fun _ _ => by positivity))
  have hn' : (n : ℝ) ≤ 1000 := by exact_mod_cast hn
  have hu : precision53.u = 1 / 2 ^ 53 := by rw [precision53_u, zpow_neg]; norm_num
  have h2 : (n : ℝ) * precision53.u ≤ 1000 * (1 / 2 ^ 53) := by rw [hu]; gcongr
  have h3 : (n : ℝ) * precision53.u < 1 := h2.trans_lt (by norm_num)
  refine (gamma_le h3).trans ?_
  rw [div_le_iff₀ (by linarith)]
  refine h2.trans ?_
  have : (1 : ℝ) - 1000 * (1 / 2 ^ 53) ≤ 1 - n * precision53.u := by linarith
  calc (1000 : ℝ) * (1 / 2 ^ 53) ≤ 1001 * 2 ^ (-53 : ℤ) * (1 - 1000 * (1 / 2 ^ 53)) := by norm_num
    _ ≤ _ := by gcongr

/-! ### the hypotheses hold for concrete inputs -/

example : (Vec.unitX3 : Vec (Fl precision53) 3) ≠ 0 := by
  intro h
  have := congrArg (fun v => (v.data 0).val) h
  simp [Vec.unitX3] at this
example : (1 + precision53.u) ^ (3 + 1) < 2 := by rw [precision53_u]; norm_num

end Cgl
