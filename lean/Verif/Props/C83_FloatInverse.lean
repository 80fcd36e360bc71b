import Verif.Props.C67_RoundingError
import Verif.Props.C18_Inverse
import Verif.Lemmas.Grid
import Mathlib.LinearAlgebra.Matrix.AbsoluteValue

/-!
# C83 - inverting a matrix in floating point

`Fl ρ` without underflow. `|det A|` close to the rounding error of the computed determinant is the only reason for `try_inverse`
to fail or to be inaccurate: `Spec.doubt` is that error relative to the determinant.
-/

namespace Cgl
open Mat Finset Rounding

variable {ρ : Rounding} {n : ℕ}

/-- The absolute values of the entries of `A`, without row `r` and column `c`. -/
def Spec.minorAbs (A : Mat (Fl ρ) (n + 1) (n + 1)) (r c : Fin (n + 1)) : Fin n → Fin n → ℝ :=
  fun c' r' => |(A.data (c.succAbove c') (r.succAbove r')).val|

/-- `k` roundings relative to the permanent of the absolute values of the entries, divided by the determinant. -/
noncomputable def Spec.doubt (k : ℕ) (A : Mat (Fl ρ) n n) : ℝ :=
  ((1 + ρ.u) ^ k - 1) * Spec.permanent n (fun c r => |(A.data c r).val|) / |Spec.leibniz (Spec.exactMat A)|

/-- `f` inverts with error: unless the determinant is zero or its doubt reaches one, `f` returns a matrix; its entry in column
`c` and row `r` differs from that of the exact inverse by a multiple of the minor's permanent over the determinant. -/
structure Spec.InvertsWithin (kd ka : ℕ) (f : Mat (Fl ρ) (n + 1) (n + 1) → Option (Mat (Fl ρ) (n + 1) (n + 1))) : Prop where
  found : ∀ A, Spec.leibniz (Spec.exactMat A) ≠ 0 → Spec.doubt kd A < 1 → ∃ B, f A = some B
  near : ∀ A B (E : Mat ℝ (n + 1) (n + 1)), Spec.exactMat A * E = identity → Spec.doubt kd A < 1 → f A = some B → ∀ c r,
    |(B.data c r).val - E.data c r| ≤ ((1 + ρ.u) ^ ka - 1 + Spec.doubt kd A) / (1 - Spec.doubt kd A) *
      (Spec.permanent n (Spec.minorAbs A c r) / |Spec.leibniz (Spec.exactMat A)|)

section NoUnderflow
variable (ht : ρ.tiny = 0)
include ht

omit ht in
theorem NearBy.exactF (x : Fl ρ) : NearBy ρ 0 |x.val| x.val x.val := NearBy.exact _
omit ht in
theorem NearBy.negF {k : ℕ} {A X : ℝ} {x : Fl ρ} (h : NearBy ρ k A X x.val) : NearBy ρ k A (-X) (-x).val := h.neg
theorem NearBy.addF {k l : ℕ} {A X B Y : ℝ} {x y : Fl ρ} (h : NearBy ρ k A X x.val) (h' : NearBy ρ l B Y y.val) :
    NearBy ρ (max k l + 1) (A + B) (X + Y) (x + y).val := h.add ht h'
theorem NearBy.subF {k l : ℕ} {A X B Y : ℝ} {x y : Fl ρ} (h : NearBy ρ k A X x.val) (h' : NearBy ρ l B Y y.val) :
    NearBy ρ (max k l + 1) (A + B) (X - Y) (x - y).val := h.sub ht h'
theorem NearBy.mulF {k l : ℕ} {A X B Y : ℝ} {x y : Fl ρ} (h : NearBy ρ k A X x.val) (h' : NearBy ρ l B Y y.val) :
    NearBy ρ (k + l + 1) (A * B) (X * Y) (x * y).val := h.mul ht h'

/-- one entry: the computed cofactor over the computed determinant -/
theorem inverse_entry {kd ka : ℕ} {p D q X : ℝ} {d x : Fl ρ} (hd : |d.val - D| ≤ ((1 + ρ.u) ^ kd - 1) * p) (hD : D ≠ 0)
    (hκ : ((1 + ρ.u) ^ kd - 1) * p / |D| < 1) (hx : NearBy ρ ka q X x.val) :
    |(1 / d * x).val - 1 / D * X| ≤ ((1 + ρ.u) ^ (ka + 2) - 1 + ((1 + ρ.u) ^ kd - 1) * p / |D|) /
      (1 - ((1 + ρ.u) ^ kd - 1) * p / |D|) * (q / |D|) := by
  have hu := ρ.u_nonneg
  have hD0 := abs_pos.mpr hD
  set e := ((1 + ρ.u) ^ kd - 1) * p
  set κ := e / |D|
  have he : e = κ * |D| := by simp only [κ]; field_simp
  have hdl : |D| * (1 - κ) ≤ |d.val| := by
    have := abs_sub_abs_le_abs_sub D d.val
    rw [abs_sub_comm] at this; linarith
  have hd0 : 0 < |d.val| := lt_of_lt_of_le (mul_pos hD0 (by linarith)) hdl
  have hdne : d.val ≠ 0 := abs_pos.mp hd0
  have hq : 0 ≤ q := (abs_nonneg _).trans hx.1
  have hy : |(1 / d).val * d.val - 1| ≤ ρ.u := by
    have h := err0 ht (1 / d.val)
    have e1 : (1 / d).val = ρ.fl (1 / d.val) := by simp
    rw [e1]
    have : ρ.fl (1 / d.val) * d.val - 1 = (ρ.fl (1 / d.val) - 1 / d.val) * d.val := by field_simp
    rw [this, abs_mul]
    calc _ ≤ ρ.u * |1 / d.val| * |d.val| := mul_le_mul_of_nonneg_right h hd0.le
      _ = ρ.u := by rw [mul_assoc, ← abs_mul]; field_simp; simp
  have hyd : |(1 / d).val * d.val| ≤ 1 + ρ.u := by
    calc _ = |((1 / d).val * d.val - 1) + 1| := by ring_nf
      _ ≤ ρ.u + 1 := (abs_add_le _ _).trans (by rw [abs_one]; linarith)
      _ = _ := by ring
  have hz : |(1 / d * x).val * d.val - x.val| ≤ ((1 + ρ.u) ^ 2 - 1) * |x.val| := by
    have h := err0 ht ((1 / d).val * x.val)
    have e1 : (1 / d * x).val = ρ.fl ((1 / d).val * x.val) := rfl
    rw [e1]
    have : ρ.fl ((1 / d).val * x.val) * d.val - x.val =
      (ρ.fl ((1 / d).val * x.val) - (1 / d).val * x.val) * d.val + ((1 / d).val * d.val - 1) * x.val := by ring
    rw [this]
    calc _ ≤ ρ.u * |(1 / d).val * x.val| * |d.val| + ρ.u * |x.val| := by
          refine (abs_add_le _ _).trans (add_le_add ?_ ?_) <;> rw [abs_mul]
          · exact mul_le_mul_of_nonneg_right h hd0.le
          · exact mul_le_mul_of_nonneg_right hy (abs_nonneg _)
      _ = ρ.u * |(1 / d).val * d.val| * |x.val| + ρ.u * |x.val| := by simp only [abs_mul]; ring
      _ ≤ ρ.u * (1 + ρ.u) * |x.val| + ρ.u * |x.val| := by gcongr
      _ = _ := by ring
  have key : (1 / d * x).val - 1 / D * X = (((1 / d * x).val * d.val - x.val) + (x.val - X) + X * ((D - d.val) / D)) / d.val := by
    field_simp; ring
  rw [key, abs_div]
  have hnum : |((1 / d * x).val * d.val - x.val) + (x.val - X) + X * ((D - d.val) / D)| ≤ ((1 + ρ.u) ^ (ka + 2) - 1 + κ) * q := by
    have a1 : |x.val| ≤ (1 + ρ.u) ^ ka * q := hx.abs_le
    have a2 : |X * ((D - d.val) / D)| ≤ q * κ := by
      rw [abs_mul, abs_div, abs_sub_comm]
      exact mul_le_mul hx.1 (div_le_div_of_nonneg_right hd hD0.le) (by positivity) hq
    have a3 : ((1 + ρ.u) ^ 2 - 1) * |x.val| ≤ ((1 + ρ.u) ^ 2 - 1) * ((1 + ρ.u) ^ ka * q) :=
      mul_le_mul_of_nonneg_left a1 (by nlinarith)
    calc _ ≤ ((1 + ρ.u) ^ 2 - 1) * ((1 + ρ.u) ^ ka * q) + ((1 + ρ.u) ^ ka - 1) * q + q * κ :=
          (abs_add_le _ _).trans (add_le_add ((abs_add_le _ _).trans (add_le_add (hz.trans a3) hx.2)) a2)
      _ = _ := by rw [pow_add]; ring
  have h1κ : 0 < 1 - κ := by linarith
  calc _ ≤ ((1 + ρ.u) ^ (ka + 2) - 1 + κ) * q / |d.val| := div_le_div_of_nonneg_right hnum hd0.le
    _ ≤ ((1 + ρ.u) ^ (ka + 2) - 1 + κ) * q / (|D| * (1 - κ)) :=
        div_le_div_of_nonneg_left ((abs_nonneg _).trans hnum) (mul_pos hD0 h1κ) hdl
    _ = _ := by field_simp

omit ht in
theorem doubt_ne_zero {kd : ℕ} {A : Mat (Fl ρ) n n} {d : Fl ρ} (hd : |d.val - Spec.leibniz (Spec.exactMat A)| ≤
    ((1 + ρ.u) ^ kd - 1) * Spec.permanent n (fun c r => |(A.data c r).val|)) (hD : Spec.leibniz (Spec.exactMat A) ≠ 0)
    (hκ : Spec.doubt kd A < 1) : d ≠ 0 := by
  rintro rfl
  rw [Spec.doubt, div_lt_one (abs_pos.mpr hD)] at hκ
  simp only [Fl.zero_val, zero_sub, abs_neg] at hd
  linarith

omit ht in
theorem NearBy.congr {k l : ℕ} {A B X x : ℝ} (h : NearBy ρ k A X x) (hk : k ≤ l) (hA : A = B) : NearBy ρ l B X x :=
  hA ▸ h.mono hk

local macro "near" h:ident : tactic => `(tactic| repeat' first
  | exact NearBy.exactF _ | apply NearBy.addF $h | apply NearBy.subF $h | apply NearBy.mulF $h | apply NearBy.negF)

theorem determinant2_error (A : Mat (Fl ρ) 2 2) : |A.determinant2.val - Spec.leibniz (Spec.exactMat A)| ≤
    ((1 + ρ.u) ^ 2 - 1) * Spec.permanent 2 (fun c r => |(A.data c r).val|) := by
  rw [← C17_det2]
  have := C67_determinant2 ht A
  simpa [Spec.permanent, Fin.sum_univ_succ, Fin.succAbove, determinant2, Spec.exactMat] using this

/-- 2x2 matrices -/
theorem C83_inverse2 [BEq (Fl ρ)] [LawfulBEq (Fl ρ)] : Spec.InvertsWithin 2 2 (tryInverse2 (S := Fl ρ)) := by
  constructor
  · intro A hD hκ
    simp [tryInverse2, doubt_ne_zero (determinant2_error ht A) hD hκ]
  · intro A B E hE hκ hB c r
    have hE' := C18_unique_right C18_try_inverse2 _ E hE
    have hD : Spec.leibniz (Spec.exactMat A) ≠ 0 := fun h => by
      rw [(C18_try_inverse2.none_iff _).mpr h] at hE'; simp at hE'
    have hdet := determinant2_error ht A
    simp only [tryInverse2, beq_iff_eq, doubt_ne_zero hdet hD hκ, if_false, Option.some.injEq] at hB
    simp only [tryInverse2, beq_iff_eq, C17_det2, hD, if_false, Option.some.injEq] at hE'
    subst hB hE'
    have key := fun q X x (h : NearBy ρ 0 q X (Fl.val x)) => inverse_entry ht hdet hD hκ h
    have e : ∀ c r, (Spec.exactMat A).data c r = (A.data c r).val := fun c r => by simp [Spec.exactMat]
    simp only [Spec.doubt]
    fin_cases c <;> fin_cases r <;>
    · simp only [new2x2, e]
      refine key _ _ _ ?_
      refine NearBy.congr (by near ht) (by norm_num) ?_
      simp [Spec.permanent, Spec.minorAbs, Fin.sum_univ_succ, Fin.succAbove]
      try ring

theorem determinant3_error (A : Mat (Fl ρ) 3 3) : |A.determinant3.val - Spec.leibniz (Spec.exactMat A)| ≤
    ((1 + ρ.u) ^ 7 - 1) * Spec.permanent 3 (fun c r => |(A.data c r).val|) := by
  rw [← C17_det3]
  exact C67_determinant3 ht A

/-- 3x3 matrices -/
theorem C83_inverse3 [BEq (Fl ρ)] [LawfulBEq (Fl ρ)] : Spec.InvertsWithin 7 4 (tryInverse3 (S := Fl ρ)) := by
  constructor
  · intro A hD hκ
    simp [tryInverse3, doubt_ne_zero (determinant3_error ht A) hD hκ]
  · intro A B E hE hκ hB c r
    have hE' := C18_unique_right C18_try_inverse3 _ E hE
    have hD : Spec.leibniz (Spec.exactMat A) ≠ 0 := fun h => by
      rw [(C18_try_inverse3.none_iff _).mpr h] at hE'; simp at hE'
    have hdet := determinant3_error ht A
    simp only [tryInverse3, beq_iff_eq, doubt_ne_zero hdet hD hκ, if_false, Option.some.injEq] at hB
    simp only [tryInverse3, beq_iff_eq, C17_det3, hD, if_false, Option.some.injEq] at hE'
    subst hB hE'
    have key := fun q X x (h : NearBy ρ 2 q X (Fl.val x)) => inverse_entry ht hdet hD hκ h
    have e : ∀ c r, (Spec.exactMat A).data c r = (A.data c r).val := fun c r => by simp [Spec.exactMat]
    simp only [Spec.doubt]
    fin_cases c <;> fin_cases r <;>
    · simp only [new3x3, e]
      refine key _ _ _ ?_
      refine NearBy.congr (by near ht) (by norm_num) ?_
      simp [Spec.permanent, Spec.minorAbs, Fin.sum_univ_succ, Fin.succAbove]
      try ring

theorem determinant4_error (A : Mat (Fl ρ) 4 4) : |A.determinant4.val - Spec.leibniz (Spec.exactMat A)| ≤
    ((1 + ρ.u) ^ 26 - 1) * Spec.permanent 4 (fun c r => |(A.data c r).val|) := by
  rw [← C17_det4]
  exact C67_determinant4 ht A

/-- 4x4 matrices -/
theorem C83_inverse4 [BEq (Fl ρ)] [LawfulBEq (Fl ρ)] : Spec.InvertsWithin 26 9 (tryInverse4 (S := Fl ρ)) := by
  constructor
  · intro A hD hκ
    simp [tryInverse4, doubt_ne_zero (determinant4_error ht A) hD hκ]
  · intro A B E hE hκ hB c r
    have hE' := C18_unique_right C18_try_inverse4 _ E hE
    have hD : Spec.leibniz (Spec.exactMat A) ≠ 0 := fun h => by
      rw [(C18_try_inverse4.none_iff _).mpr h] at hE'; simp at hE'
    have hdet := determinant4_error ht A
    simp only [tryInverse4, beq_iff_eq, doubt_ne_zero hdet hD hκ, if_false, Option.some.injEq] at hB
    simp only [tryInverse4, beq_iff_eq, C17_det4, hD, if_false, Option.some.injEq] at hE'
    subst hB hE'
    have key := fun q X x (h : NearBy ρ 7 q X (Fl.val x)) => inverse_entry ht hdet hD hκ h
    have e : ∀ c r, (Spec.exactMat A).data c r = (A.data c r).val := fun c r => by simp [Spec.exactMat]
    simp only [Spec.doubt]
    fin_cases c <;> fin_cases r <;>
    · simp only [new4x4, e]
      refine key _ _ _ ?_
      refine NearBy.congr (by near ht) (by norm_num) ?_
      simp [Spec.permanent, Spec.minorAbs, Fin.sum_univ_succ, Fin.succAbove]
      try ring

/-- 1x1 matrices: one rounding, never in doubt -/
theorem C83_inverse1 [BEq (Fl ρ)] [LawfulBEq (Fl ρ)] : Spec.InvertsWithin 0 1 (tryInverse1 (S := Fl ρ)) := by
  have hd : ∀ A : Mat (Fl ρ) 1 1, |A.determinant1.val - Spec.leibniz (Spec.exactMat A)| ≤
      ((1 + ρ.u) ^ 0 - 1) * Spec.permanent 1 (fun c r => |(A.data c r).val|) := fun A => by
    rw [← C17_det1]; simp [determinant1, Spec.exactMat]
  constructor
  · intro A hD hκ
    simp [tryInverse1, doubt_ne_zero (hd A) hD hκ]
  · intro A B E hE hκ hB c r
    have hE' := C18_unique_right C18_try_inverse1 _ E hE
    have hD : Spec.leibniz (Spec.exactMat A) ≠ 0 := fun h => by
      rw [(C18_try_inverse1.none_iff _).mpr h] at hE'; simp at hE'
    have hdet := hd A
    simp only [tryInverse1, beq_iff_eq, doubt_ne_zero hdet hD hκ, if_false, Option.some.injEq] at hB
    simp only [tryInverse1, beq_iff_eq, C17_det1, hD, if_false, Option.some.injEq] at hE'
    subst hB hE'
    have hd1 : A.determinant1.val = Spec.leibniz (Spec.exactMat A) := by
      rw [← C17_det1]; simp [determinant1, Spec.exactMat]
    fin_cases c; fin_cases r
    have h := err0 ht (1 / A.determinant1.val)
    simp only [new1x1, Spec.doubt, Spec.permanent]
    rw [← hd1]
    simpa [abs_div] using h

omit ht in
/-- `try_inverse` of a 2x2 matrix whose determinant is exactly zero returns nothing. -/
theorem C83_singular2 [BEq (Fl ρ)] [LawfulBEq (Fl ρ)] (A : Mat (Fl ρ) 2 2) (h : Spec.leibniz (Spec.exactMat A) = 0) :
    A.tryInverse2 = none := by
  rw [← C17_det2] at h
  have e : A.determinant2 = 0 := Fl.ext (by
    simp only [determinant2, Spec.exactMat, map_data] at h ⊢
    simp only [Fl.sub_val, Fl.mul_val, sub_eq_zero.mp h, sub_self, ρ.zero, Fl.zero_val])
  simp [tryInverse2, e]

end NoUnderflow

/-! ### bounded entries -/

theorem permanent_le {M : ℝ} (n : ℕ) (a : Fin n → Fin n → ℝ) (h0 : ∀ c r, 0 ≤ a c r) (h : ∀ c r, a c r ≤ M) :
    0 ≤ Spec.permanent n a ∧ Spec.permanent n a ≤ n.factorial * M ^ n := by
  induction n with
  | zero => simp [Spec.permanent]
  | succ n ih =>
    have hM : 0 ≤ M := (h0 0 0).trans (h 0 0)
    have ih' := fun i : Fin (n + 1) => ih (fun c r => a c.succ (i.succAbove r)) (fun _ _ => h0 _ _) (fun _ _ => h _ _)
    constructor
    · exact sum_nonneg fun i _ => mul_nonneg (h0 _ _) (ih' i).1
    · calc Spec.permanent (n + 1) a ≤ ∑ _i : Fin (n + 1), M * (n.factorial * M ^ n) :=
            sum_le_sum fun i _ => mul_le_mul (h 0 i) (ih' i).2 (ih' i).1 hM
        _ = _ := by simp [Nat.factorial_succ]; ring

/-- For entries of absolute value at most `M` the doubt is at most `n!` errors of `M^n` over the determinant ... -/
theorem C83_doubt_le {M : ℝ} (k : ℕ) (A : Mat (Fl ρ) n n) (h : ∀ c r, |(A.data c r).val| ≤ M) :
    Spec.doubt k A ≤ ((1 + ρ.u) ^ k - 1) * (n.factorial * M ^ n) / |Spec.leibniz (Spec.exactMat A)| := by
  have := one_le_pow₀ (n := k) (show 1 ≤ 1 + ρ.u by linarith [ρ.u_nonneg])
  exact div_le_div_of_nonneg_right (mul_le_mul_of_nonneg_left (permanent_le n _ (fun _ _ => abs_nonneg _) h).2 (by linarith))
    (abs_nonneg _)

/-- ... and the error of every entry of the inverse is at most the relative error times `(n-1)! M^(n-1)` over the determinant. -/
theorem C83_bounded {kd ka : ℕ} {f : Mat (Fl ρ) (n + 1) (n + 1) → Option (Mat (Fl ρ) (n + 1) (n + 1))}
    (hf : Spec.InvertsWithin kd ka f) {M κ : ℝ} {A : Mat (Fl ρ) (n + 1) (n + 1)} (h : ∀ c r, |(A.data c r).val| ≤ M)
    (hD : Spec.leibniz (Spec.exactMat A) ≠ 0)
    (hκ : ((1 + ρ.u) ^ kd - 1) * ((n + 1).factorial * M ^ (n + 1)) / |Spec.leibniz (Spec.exactMat A)| ≤ κ) (hκ1 : κ < 1) :
    ∃ B, f A = some B ∧ ∀ E : Mat ℝ (n + 1) (n + 1), Spec.exactMat A * E = identity → ∀ c r,
      |(B.data c r).val - E.data c r| ≤ ((1 + ρ.u) ^ ka - 1 + κ) / (1 - κ) *
        (n.factorial * M ^ n / |Spec.leibniz (Spec.exactMat A)|) := by
  have hd := (C83_doubt_le kd A h).trans hκ
  obtain ⟨B, hB⟩ := hf.found A hD (by linarith)
  refine ⟨B, hB, fun E hE c r => (hf.near A B E hE (by linarith) hB c r).trans ?_⟩
  have h1 := one_le_pow₀ (n := ka) (show 1 ≤ 1 + ρ.u by linarith [ρ.u_nonneg])
  have h2 := one_le_pow₀ (n := kd) (show 1 ≤ 1 + ρ.u by linarith [ρ.u_nonneg])
  have hp := permanent_le (n + 1) (fun c r => |(A.data c r).val|) (fun _ _ => abs_nonneg _) h
  have hd0 : 0 ≤ Spec.doubt kd A := div_nonneg (mul_nonneg (by linarith) hp.1) (abs_nonneg _)
  have hm := permanent_le n (Spec.minorAbs A c r) (fun _ _ => abs_nonneg _) (fun _ _ => h _ _)
  refine mul_le_mul ?_ (div_le_div_of_nonneg_right hm.2 (abs_nonneg _)) (div_nonneg hm.1 (abs_nonneg _))
    (div_nonneg (by linarith) (by linarith))
  exact div_le_div₀ (by linarith) (by linarith) (by linarith) (by linarith)

theorem leibniz_le {M : ℝ} (A : Mat ℝ 4 4) (h : ∀ c r, |A.data c r| ≤ M) : |Spec.leibniz A| ≤ 24 * M ^ 4 := by
  have := Matrix.det_le (A := A.toMatrix) (abv := AbsoluteValue.abs) (x := M) fun i j => h j i
  rw [← leibniz_eq] at this
  simpa [Nat.factorial] using this

/-- With 53 bits: a 4x4 matrix with entries up to `M` and a determinant of at least `M^4 / 10^9` is inverted, with an error of
at most `5400` units times `M^7` over the square of the determinant. -/
theorem C83_inverse4_f64 [BEq (Fl precision53)] [LawfulBEq (Fl precision53)] {M : ℝ} {A : Mat (Fl precision53) 4 4}
    (h : ∀ c r, |(A.data c r).val| ≤ M) (hM : 0 < M) (hD : M ^ 4 / 10 ^ 9 ≤ |Spec.leibniz (Spec.exactMat A)|) :
    ∃ B, A.tryInverse4 = some B ∧ ∀ E : Mat ℝ 4 4, Spec.exactMat A * E = identity → ∀ c r,
      |(B.data c r).val - E.data c r| ≤ 5400 * 2 ^ (-53 : ℤ) * M ^ 7 / Spec.leibniz (Spec.exactMat A) ^ 2 := by
  have hM4 : 0 < M ^ 4 := by positivity
  have hD0 : 0 < |Spec.leibniz (Spec.exactMat A)| := lt_of_lt_of_le (by positivity) hD
  have hD1 : |Spec.leibniz (Spec.exactMat A)| ≤ 24 * M ^ 4 := leibniz_le _ fun c r => by simpa [Spec.exactMat] using h c r
  rw [← sq_abs (Spec.leibniz _)]
  set D := |Spec.leibniz (Spec.exactMat A)| with hDdef
  have hr0 : 1 / 24 ≤ M ^ 4 / D := by rw [div_le_div_iff₀ (by norm_num) hD0]; linarith
  have hr1 : M ^ 4 / D ≤ 10 ^ 9 := by rw [div_le_iff₀ hD0]; rw [div_le_iff₀ (by norm_num)] at hD; linarith
  set r := M ^ 4 / D with hr
  have hκ : ((1 + precision53.u) ^ 26 - 1) * ((3 + 1 : ℕ).factorial * M ^ (3 + 1)) / D ≤ 648 * 2 ^ (-53 : ℤ) * r := by
    have e : ((1 + precision53.u) ^ 26 - 1) * (((3 + 1 : ℕ).factorial : ℝ) * M ^ (3 + 1)) / D =
        (24 * ((1 + precision53.u) ^ 26 - 1)) * r := by
      have : (((3 + 1 : ℕ).factorial : ℕ) : ℝ) = 24 := by norm_num [Nat.factorial]
      rw [this, hr]; ring
    rw [e]
    refine mul_le_mul_of_nonneg_right ?_ (by linarith)
    rw [precision53_u]; norm_num
  have hκ1 : 648 * (2 : ℝ) ^ (-53 : ℤ) * r ≤ 1 / 10000 := by norm_num; linarith
  have hκ2 := lt_of_le_of_lt hκ1 (by norm_num : (1 / 10000 : ℝ) < 1)
  obtain ⟨B, hB, hE⟩ := C83_bounded (C83_inverse4 precision53_tiny) h (abs_pos.mp hD0) hκ hκ2
  refine ⟨B, hB, fun E hEi c r' => (hE E hEi c r').trans ?_⟩
  have e2 : 5400 * (2 : ℝ) ^ (-53 : ℤ) * M ^ 7 / D ^ 2 = 5400 / 6 * 2 ^ (-53 : ℤ) * r * ((3 : ℕ).factorial * M ^ 3 / D) := by
    have : ((3 : ℕ).factorial : ℝ) = 6 := by norm_num [Nat.factorial]
    rw [this, hr]; field_simp
  rw [e2]
  refine mul_le_mul_of_nonneg_right ?_ (by positivity)
  rw [div_le_iff₀ (sub_pos.mpr hκ2)]
  have h9 : (1 + precision53.u) ^ 9 - 1 ≤ 10 * 2 ^ (-53 : ℤ) := by rw [precision53_u]; norm_num
  have : (648 * (2 : ℝ) ^ (-53 : ℤ) * r) * r ≤ 1 / 10000 * r := mul_le_mul_of_nonneg_right hκ1 (by linarith)
  norm_num at h9 this ⊢
  nlinarith

/-! ### what rounding does to the test for singularity -/

theorem log_two_eq {x : ℝ} {e : ℤ} (h0 : 2 ^ e ≤ |x|) (h1 : |x| < 2 ^ (e + 1)) : Int.log 2 |x| = e := by
  have hx : 0 < |x| := lt_of_lt_of_le (by positivity) h0
  apply le_antisymm
  · have := (Int.lt_zpow_iff_log_lt (b := 2) one_lt_two hx).mp (by exact_mod_cast h1)
    omega
  · exact (Int.zpow_le_iff_le_log (b := 2) one_lt_two hx).mp (by exact_mod_cast h0)

/-- the value of a rounding that is not a tie -/
theorem fl53_eq {x : ℝ} (e m : ℤ) (h0 : 2 ^ e ≤ |x|) (h1 : |x| < 2 ^ (e + 1)) (h : |x / 2 ^ (e - 52) - m| < 1 / 2) :
    precision53.fl x = m * 2 ^ (e - 52) := by
  show flEven 53 none x = _
  simp only [flEven, log_two_eq h0 h1, lastBit]
  rw [show e + 1 - ((53 : ℕ) : ℤ) = e - 52 by push_cast; ring]
  congr 2
  have h2 := roundEven_err (x / 2 ^ (e - 52))
  have : |((roundEven (x / 2 ^ (e - 52)) - m : ℤ) : ℝ)| < 1 := by
    push_cast
    calc |(roundEven (x / 2 ^ (e - 52)) : ℝ) - m| = |((roundEven (x / 2 ^ (e - 52)) : ℝ) - x / 2 ^ (e - 52)) + (x / 2 ^ (e - 52) - m)| := by ring_nf
      _ < 1 := lt_of_le_of_lt (abs_add_le _ _) (by linarith)
  have h3 : |roundEven (x / 2 ^ (e - 52)) - m| < 1 := by exact_mod_cast this
  have := Int.abs_lt_one_iff.mp h3
  omega

/-- a representable number -/
noncomputable def num53 (m e : ℤ) (hm : |m| < 2 ^ 53) : Fl precision53 := ⟨m * 2 ^ e, by
  show flEven 53 none _ = _
  exact flEven_eq_of_grid ⟨m, e, rfl, by exact_mod_cast hm, by simp⟩⟩

/-- An invertible 2x2 matrix with entries near one that `try_inverse` calls singular. -/
theorem C83_rejects_invertible [BEq (Fl precision53)] [LawfulBEq (Fl precision53)] :
    ∃ A : Mat (Fl precision53) 2 2, Spec.leibniz (Spec.exactMat A) ≠ 0 ∧ A.tryInverse2 = none := by
  set X := num53 (2 ^ 52 + 1) (-52) (by norm_num) with hX
  set Y := num53 (2 ^ 52 - 1) (-52) (by norm_num) with hY
  have hXv : X.val = ((2 : ℝ) ^ 52 + 1) * 2 ^ (-52 : ℤ) := by rw [hX, num53]; push_cast; ring
  have hYv : Y.val = ((2 : ℝ) ^ 52 - 1) * 2 ^ (-52 : ℤ) := by rw [hY, num53]; push_cast; ring
  refine ⟨new2x2 X 1 1 Y, ?_, ?_⟩
  · rw [← C17_det2]
    simp only [determinant2, Spec.exactMat, map_data]
    show X.val * Y.val - Fl.val 1 * Fl.val 1 ≠ 0
    rw [hXv, hYv, Fl.one_val]
    norm_num
  · have h : precision53.fl (((2 : ℝ) ^ 52 + 1) * 2 ^ (-52 : ℤ) * ((2 ^ 52 - 1) * 2 ^ (-52 : ℤ))) = 1 := by
      rw [fl53_eq (-1) (2 ^ 53)] <;> norm_num [abs_lt]
    have e : (new2x2 X 1 1 Y).determinant2 = 0 := by
      apply Fl.ext
      show (X * Y - 1 * 1).val = 0
      rw [Fl.one_mul, Fl.sub_val, Fl.mul_val, hXv, hYv, h, Fl.one_val, sub_self, precision53.zero]
    simp [tryInverse2, e]

/-- A singular 3x3 matrix for which `try_inverse` returns an "inverse": `2` by `2` matrices apart (`C83_singular2`), a result
does not show that the matrix is invertible. -/
theorem C83_accepts_singular [BEq (Fl precision53)] [LawfulBEq (Fl precision53)] :
    ∃ A : Mat (Fl precision53) 3 3, Spec.leibniz (Spec.exactMat A) = 0 ∧ A.tryInverse3 ≠ none := by
  set X := num53 (2 ^ 52 + 1) (-52) (by norm_num) with hX
  set a := num53 5 0 (by norm_num) with ha
  set b := num53 25 0 (by norm_num) with hb
  refine ⟨new3x3 X 0 0 0 1 a 0 a b, ?_, ?_⟩
  · rw [← C17_det3]
    simp [determinant3, Spec.exactMat, new3x3, num53, X, a, b]
    norm_num
  · have h1 : precision53.fl (((2 : ℝ) ^ 52 + 1) * 2 ^ (-52 : ℤ) * 25) = 25 + 2 ^ (-47 : ℤ) := by
      rw [fl53_eq 4 (25 * 2 ^ 48 + 2)] <;> norm_num [abs_lt]
    have h2 : precision53.fl (((2 : ℝ) ^ 52 + 1) * 2 ^ (-52 : ℤ) * 5) = 5 + 2 ^ (-50 : ℤ) := by
      rw [fl53_eq 2 (5 * 2 ^ 50 + 1)] <;> norm_num [abs_lt]
    have h3 : precision53.fl ((5 + (2 : ℝ) ^ (-50 : ℤ)) * 5) = 25 + 2 ^ (-48 : ℤ) := by
      rw [fl53_eq 4 (25 * 2 ^ 48 + 1)] <;> norm_num [abs_lt]
    have h4 : precision53.fl ((25 + (2 : ℝ) ^ (-47 : ℤ)) - (25 + 2 ^ (-48 : ℤ))) = 2 ^ (-48 : ℤ) := by
      rw [fl53_eq (-48) (2 ^ 52)] <;> norm_num [abs_lt]
    have e : (new3x3 X 0 0 0 1 a 0 a b).determinant3 ≠ 0 := by
      have : (new3x3 X 0 0 0 1 a 0 a b).determinant3 = X * b - X * a * a := by
        show X * 1 * b - X * a * a - 0 * 0 * b + 0 * 0 * a + 0 * 0 * a - 0 * 0 * 1 = _
        simp only [Fl.mul_one, Fl.zero_mul, Fl.sub_zero, Fl.add_zero]
      rw [this]
      intro h0
      have hv := congrArg Fl.val h0
      have hXv : X.val = ((2 : ℝ) ^ 52 + 1) * 2 ^ (-52 : ℤ) := by rw [hX, num53]; push_cast; ring
      have hav : a.val = 5 := by simp [a, num53]
      have hbv : b.val = 25 := by simp [b, num53]
      rw [Fl.sub_val, Fl.mul_val, Fl.mul_val, Fl.mul_val, hXv, hav, hbv, h1, h2, h3, h4, Fl.zero_val] at hv
      norm_num at hv
    simp [tryInverse3, e]

/-- a matrix the bound applies to: `[[1, 1, 0, 0], [-1, 1, 0, 0], [0, 0, 1, 0], [0, 0, 1, 1]]`, of determinant two -/
example : ∃ A : Mat (Fl precision53) 4 4, (∀ c r, |(A.data c r).val| ≤ 1) ∧
    (1 : ℝ) ^ 4 / 10 ^ 9 ≤ |Spec.leibniz (Spec.exactMat A)| := by
  refine ⟨new4x4 1 (-1) 0 0 1 1 0 0 0 0 1 1 0 0 0 1, fun c r => ?_, ?_⟩
  · fin_cases c <;> fin_cases r <;> simp [new4x4]
  · rw [← C17_det4]
    simp [determinant4, Spec.exactMat, new4x4]
    norm_num

end Cgl
