import Verif.Lemmas.Absolute
import Verif.Props.C41_QuaternionToMatrix
import Mathlib.Analysis.Quaternion

/-! # C91 - conversions between quaternions and rotation matrices in floating point

In `f64`, in `f32` and in every other format that is fine enough: the quaternion computed from the matrix of a rotation is
one of the two unit quaternions of that rotation up to a small error, for every rotation: no angle is close to a
singularity. -/

namespace Cgl
open Ieee FloatFns Quat

variable {φ : Format}

namespace Spec

/-- the vector `v` as a quaternion -/
def pure (v : Fin 3 → ℝ) : Quaternion ℝ := ⟨0, v 0, v 1, v 2⟩
/-- The unit quaternion `h` describes the rotation with the matrix `A`, whose entry in row `r` and column `c` is `A r c`. -/
def Describes (h : Quaternion ℝ) (A : Matrix (Fin 3) (Fin 3) ℝ) : Prop :=
  ‖h‖ = 1 ∧ ∀ v : Fin 3 → ℝ, h * pure v * star h = pure (A.mulVec v)
/-- the computed matrix is finite and within `ε` of `A`, entry by entry -/
def MatWithin (M : Mat (Ieee φ) 3 3) (A : Matrix (Fin 3) (Fin 3) ℝ) (ε : ℝ) : Prop :=
  ∀ c r, (M.data c r).Finite ∧ |(M.data c r).val - A r c| ≤ ε
/-- the computed quaternion is finite and within `ε` of `h`, component by component -/
def QuatWithin (q : Quat (Ieee φ)) (h : Quaternion ℝ) (ε : ℝ) : Prop :=
  (∀ i, (q.coords.data i).Finite) ∧ |q.s.val - h.re| ≤ ε ∧ |q.x.val - h.imI| ≤ ε ∧ |q.y.val - h.imJ| ≤ ε ∧
    |q.z.val - h.imK| ≤ ε

end Spec
open Spec

/-- the entries of the matrix of a unit quaternion -/
theorem describes_entries {h : Quaternion ℝ} {A : Matrix (Fin 3) (Fin 3) ℝ} (hA : Describes h A) :
    h.re ^ 2 + h.imI ^ 2 + h.imJ ^ 2 + h.imK ^ 2 = 1 ∧
    A 0 0 = 1 - 2 * (h.imJ ^ 2 + h.imK ^ 2) ∧ A 1 1 = 1 - 2 * (h.imI ^ 2 + h.imK ^ 2) ∧
    A 2 2 = 1 - 2 * (h.imI ^ 2 + h.imJ ^ 2) ∧
    A 1 0 = 2 * (h.imI * h.imJ + h.re * h.imK) ∧ A 0 1 = 2 * (h.imI * h.imJ - h.re * h.imK) ∧
    A 2 0 = 2 * (h.imI * h.imK - h.re * h.imJ) ∧ A 0 2 = 2 * (h.imI * h.imK + h.re * h.imJ) ∧
    A 2 1 = 2 * (h.imJ * h.imK + h.re * h.imI) ∧ A 1 2 = 2 * (h.imJ * h.imK - h.re * h.imI) := by
  obtain ⟨hn, hv⟩ := hA
  have hn' : h.re ^ 2 + h.imI ^ 2 + h.imJ ^ 2 + h.imK ^ 2 = 1 := by
    have := Quaternion.normSq_eq_norm_mul_self h
    rw [hn, Quaternion.normSq_def'] at this
    linarith
  have key : ∀ v : Fin 3 → ℝ, (h * Spec.pure v * star h).imI = (A.mulVec v) 0 ∧ (h * Spec.pure v * star h).imJ = (A.mulVec v) 1 ∧
      (h * Spec.pure v * star h).imK = (A.mulVec v) 2 := fun v => by
    rw [hv v]; exact ⟨rfl, rfl, rfl⟩
  obtain ⟨a1, a2, a3⟩ := key ![1, 0, 0]
  obtain ⟨b1, b2, b3⟩ := key ![0, 1, 0]
  obtain ⟨c1, c2, c3⟩ := key ![0, 0, 1]
  simp only [Quaternion.imI_mul, Quaternion.imJ_mul, Quaternion.imK_mul, Quaternion.re_mul, Quaternion.re_star,
    Quaternion.imI_star, Quaternion.imJ_star, Quaternion.imK_star] at a1 a2 a3 b1 b2 b3 c1 c2 c3
  simp [Spec.pure, Matrix.mulVec, dotProduct, Fin.sum_univ_three] at a1 a2 a3 b1 b2 b3 c1 c2 c3
  exact ⟨hn', by linear_combination hn' - a1, by linear_combination hn' - b2, by linear_combination hn' - c3,
    by linear_combination -a2, by linear_combination -b1, by linear_combination -a3, by linear_combination -c1,
    by linear_combination -b3, by linear_combination -c2⟩

/-- the formulas of one branch: `p` is the component that is computed first and is not small -/
theorem pivot_root [Lib φ] (hφ : Fine φ) {ε : ℝ} (hε : 0 ≤ ε) (hε' : ε ≤ 1 / 1000) {W : Ieee φ} {p : ℝ} (hp : |p| ≤ 1)
    (hp' : 99 / 100 ≤ 4 * p ^ 2) (hW : Nr W (4 * p ^ 2) (3 * ε + 10 * unit φ)) :
    Nr ((1 : Ieee φ) / (1 + 1) * fsqrt W) |p| (3 * ε + 12 * unit φ) ∧
    ∀ {N : Ieee φ} {r : ℝ}, Nr N (4 * p * r) (2 * ε + 21 / 10 * unit φ) → |p * r| ≤ 1 / 2 →
      Nr (N * ((1 : Ieee φ) / (1 + 1) / fsqrt W)) (p / |p| * r) (3 * ε + 12 * unit φ) := by
  have hw0 : 0 ≤ unit φ := unit_nonneg
  have hw := hφ.unit_le
  have hs : Real.sqrt (4 * p ^ 2) = 2 * |p| := by
    rw [show 4 * p ^ 2 = (2 * |p|) ^ 2 by rw [mul_pow, sq_abs]; norm_num]
    exact Real.sqrt_sq (by positivity)
  have hp2 : |p| ^ 2 = p ^ 2 := sq_abs p
  have hp0 := abs_nonneg p
  have hplo : 497 / 1000 ≤ |p| := by nlinarith
  have hppos : 0 < |p| := by linarith
  have hS := (hW.sqrt hφ (lo := 99 / 100) (M := 21 / 10) (by norm_num) (by nlinarith) (by nlinarith) (by norm_num)
    (by norm_num))
  rw [hs] at hS
  replace hS := hS.mono (f := 16 / 10 * ε + 72 / 10 * unit φ) (by ring_nf; linarith)
  have hH := half_nr hφ
  refine ⟨?_, ?_⟩
  · have h := hH.mul hφ hS (A := 1 / 2) (B := 2) (M := 11 / 10) (by rw [abs_of_pos (by norm_num)]) (by
      rw [abs_of_pos (by linarith)]; linarith) (by linarith) (by norm_num) (by norm_num)
    rw [show 1 / 2 * (2 * |p|) = |p| by ring] at h
    exact h.mono (by linarith)
  · intro N r hN hr
    have hi := hH.div hφ hS (lo := 99 / 100) (A := 1 / 2) (M := 1) (by norm_num) (by
      rw [abs_of_pos (by linarith)]; linarith) (by rw [abs_of_pos (by norm_num)]) (by norm_num) (by norm_num) (by norm_num)
    replace hi := hi.mono (f := 84 / 100 * ε + 47 / 10 * unit φ) (by ring_nf; linarith)
    have hb : |1 / 2 / (2 * |p|)| ≤ 504 / 1000 := by
      rw [abs_of_pos (by positivity), div_div, div_le_iff₀ (by positivity)]
      linarith
    have h := hN.mul hφ hi (A := 2) (B := 504 / 1000) (M := 102 / 100) (by
      rw [show 4 * p * r = 4 * (p * r) by ring, abs_mul, abs_of_pos (by norm_num : (0 : ℝ) < 4)]; linarith) hb (by nlinarith)
      (by norm_num) (by norm_num)
    rw [show 4 * p * r * (1 / 2 / (2 * |p|)) = p / |p| * r by field_simp; ring] at h
    exact h.mono (by nlinarith)

set_option maxHeartbeats 1000000 in
/-- The quaternion of a computed rotation matrix. -/
theorem C91_from_matrix [Lib φ] (hφ : Fine φ) {h : Quaternion ℝ} {A : Matrix (Fin 3) (Fin 3) ℝ} (hA : Describes h A)
    {M : Mat (Ieee φ) 3 3} {ε : ℝ} (hM : MatWithin M A ε) (hε : ε ≤ 1 / 1000) :
    QuatWithin (fromMatrix M) h (3 * ε + 12 * unit φ) ∨ QuatWithin (fromMatrix M) (-h) (3 * ε + 12 * unit φ) := by
  have hε0 : 0 ≤ ε := (abs_nonneg _).trans (hM 0 0).2
  have hw0 : 0 ≤ unit φ := unit_nonneg
  have hw := hφ.unit_le
  obtain ⟨hn, e00, e11, e22, e10, e01, e20, e02, e21, e12⟩ := describes_entries hA
  have hre : |h.re| ≤ 1 := abs_le_one_iff_mul_self_le_one.mpr (by nlinarith [sq_nonneg h.imI, sq_nonneg h.imJ, sq_nonneg h.imK])
  have hI : |h.imI| ≤ 1 := abs_le_one_iff_mul_self_le_one.mpr (by nlinarith [sq_nonneg h.re, sq_nonneg h.imJ, sq_nonneg h.imK])
  have hJ : |h.imJ| ≤ 1 := abs_le_one_iff_mul_self_le_one.mpr (by nlinarith [sq_nonneg h.imI, sq_nonneg h.re, sq_nonneg h.imK])
  have hK : |h.imK| ≤ 1 := abs_le_one_iff_mul_self_le_one.mpr (by nlinarith [sq_nonneg h.imI, sq_nonneg h.imJ, sq_nonneg h.re])
  have half : ∀ {a b : ℝ}, a ^ 2 + b ^ 2 ≤ 1 → |a * b| ≤ 1 / 2 := fun {a b} hab => by
    rw [abs_le]; constructor <;> nlinarith [sq_nonneg (a + b), sq_nonneg (a - b)]
  have m : ∀ c r, Nr (M.data c r) (A r c) ε := hM
  -- the signs
  have finish : ∀ {p : ℝ} {Q : Quat (Ieee φ)}, 99 / 100 ≤ 4 * p ^ 2 → (Nr Q.s (p / |p| * h.re) (3 * ε + 12 * unit φ) ∧
      Nr Q.x (p / |p| * h.imI) (3 * ε + 12 * unit φ) ∧ Nr Q.y (p / |p| * h.imJ) (3 * ε + 12 * unit φ) ∧
      Nr Q.z (p / |p| * h.imK) (3 * ε + 12 * unit φ)) →
      QuatWithin Q h (3 * ε + 12 * unit φ) ∨ QuatWithin Q (-h) (3 * ε + 12 * unit φ) := by
    rintro p Q hp ⟨h1, h2, h3, h4⟩
    have hf : ∀ i, (Q.coords.data i).Finite := fun i => by
      fin_cases i
      exacts [h1.1, h2.1, h3.1, h4.1]
    rcases lt_trichotomy p 0 with hlt | heq | hgt
    · right
      rw [abs_of_neg hlt, div_neg, div_self hlt.ne, neg_one_mul] at h1
      rw [abs_of_neg hlt, div_neg, div_self hlt.ne, neg_one_mul] at h2
      rw [abs_of_neg hlt, div_neg, div_self hlt.ne, neg_one_mul] at h3
      rw [abs_of_neg hlt, div_neg, div_self hlt.ne, neg_one_mul] at h4
      exact ⟨hf, h1.2, h2.2, h3.2, h4.2⟩
    · rw [heq] at hp; norm_num at hp
    · left
      rw [abs_of_pos hgt, div_self hgt.ne', one_mul] at h1
      rw [abs_of_pos hgt, div_self hgt.ne', one_mul] at h2
      rw [abs_of_pos hgt, div_self hgt.ne', one_mul] at h3
      rw [abs_of_pos hgt, div_self hgt.ne', one_mul] at h4
      exact ⟨hf, h1.2, h2.2, h3.2, h4.2⟩
  have self : ∀ {p : ℝ}, p / |p| * p = |p| := fun {p} => by
    rcases eq_or_ne p 0 with rfl | hp
    · simp
    · rw [div_mul_eq_mul_div, ← abs_mul_abs_self, mul_div_assoc, div_self (abs_ne_zero.mpr hp), mul_one]
  -- sums and differences of two entries
  have dif : ∀ {c r c' r' : Fin 3} {p q : ℝ}, A r c - A r' c' = 4 * p * q → |p * q| ≤ 1 / 2 →
      Nr (M.data c r - M.data c' r') (4 * p * q) (2 * ε + 21 / 10 * unit φ) := fun {c r c' r' p q} e hb => by
    have := (m c r).sub hφ (m c' r') (M := 21 / 10) (by
      rw [e, show 4 * p * q = 4 * (p * q) by ring, abs_mul, abs_of_pos (by norm_num : (0 : ℝ) < 4)]; linarith)
      (by norm_num) (by norm_num)
    rw [e] at this
    exact this.mono (by linarith)
  have sum : ∀ {c r c' r' : Fin 3} {p q : ℝ}, A r c + A r' c' = 4 * p * q → |p * q| ≤ 1 / 2 →
      Nr (M.data c r + M.data c' r') (4 * p * q) (2 * ε + 21 / 10 * unit φ) := fun {c r c' r' p q} e hb => by
    have := (m c r).add hφ (m c' r') (M := 21 / 10) (by
      rw [e, show 4 * p * q = 4 * (p * q) by ring, abs_mul, abs_of_pos (by norm_num : (0 : ℝ) < 4)]; linarith)
      (by norm_num) (by norm_num)
    rw [e] at this
    exact this.mono (by linarith)
  have sq := fun a : ℝ => sq_nonneg a
  have hS2 := sq h.re; have hI2 := sq h.imI; have hJ2 := sq h.imJ; have hK2 := sq h.imK
  -- the trace
  have hT : Nr M.trace (4 * h.re ^ 2 - 1) (3 * ε + 52 / 10 * unit φ) := by
    change Nr (0 + M.data 0 0 + M.data 1 1 + M.data 2 2) _ _
    have t1 := (m 0 0).zero_add.add hφ (m 1 1) (M := 201 / 100)
      (by have : |A 0 0 + A 1 1| ≤ 2 := by rw [abs_le]; constructor <;> linarith
          linarith) (by norm_num) (by norm_num)
    have t2 := t1.add hφ (m 2 2) (M := 31 / 10)
      (by have : |A 0 0 + A 1 1 + A 2 2| ≤ 3 := by rw [abs_le]; constructor <;> linarith
          linarith) (by norm_num) (by norm_num)
    rw [show A 0 0 + A 1 1 + A 2 2 = 4 * h.re ^ 2 - 1 by linarith] at t2
    exact t2.mono (by linarith)
  have hTv := abs_le.mp hT.2
  -- the other pivots
  have hP : ∀ {i j k : Fin 3} {p : ℝ}, A i i - A j j - A k k = 4 * p ^ 2 - 1 → |A i i - A j j| ≤ 2 → 4 * p ^ 2 ≤ 4 → 0 ≤ p ^ 2 →
      Nr ((M.data i i - M.data j j - M.data k k) + 1) (4 * p ^ 2) (3 * ε + 10 * unit φ) := by
    intro i j k p e hb hp hp0
    have t1 := (m i i).sub hφ (m j j) (M := 201 / 100) (by linarith) (by norm_num) (by norm_num)
    have t2 := t1.sub hφ (m k k) (M := 31 / 10)
      (by have : |A i i - A j j - A k k| ≤ 3 := by rw [e, abs_le]; constructor <;> linarith
          linarith) (by norm_num) (by norm_num)
    have t3 := t2.add hφ Nr.one (M := 41 / 10)
      (by have : |A i i - A j j - A k k + 1| ≤ 4 := by rw [e, abs_le]; constructor <;> linarith
          linarith) (by norm_num) (by norm_num)
    rw [show A i i - A j j - A k k + 1 = 4 * p ^ 2 by linarith] at t3
    exact t3.mono (by linarith)
  have v : ∀ c r, A r c - ε ≤ (M.data c r).val ∧ (M.data c r).val ≤ A r c + ε := fun c r => by
    have := abs_le.mp (m c r).2
    constructor <;> linarith
  have v0 := v 0 0; have v1 := v 1 1; have v2 := v 2 2
  unfold fromMatrix
  simp only []
  split_ifs with c1 c2 c3
  · rw [ge_iff_le, ieee_le_iff finite_zero hT.1, val_zero] at c1
    have hp : 99 / 100 ≤ 4 * h.re ^ 2 := by linarith
    have hW := Nr.one.add hφ hT (M := 41 / 10)
      (by have : |1 + (4 * h.re ^ 2 - 1)| ≤ 4 := by rw [abs_le]; constructor <;> linarith
          linarith) (by norm_num) (by norm_num)
    rw [show 1 + (4 * h.re ^ 2 - 1) = 4 * h.re ^ 2 by ring] at hW
    obtain ⟨r1, r2⟩ := pivot_root hφ hε0 hε hre hp (hW.mono (by linarith))
    refine finish hp ⟨by rw [self]; exact r1, r2 (dif (by linarith) (half (by linarith))) (half (by linarith)),
      r2 (dif (by linarith) (half (by linarith))) (half (by linarith)), r2 (dif (by linarith) (half (by linarith))) (half (by linarith))⟩
  · rw [ge_iff_le, ieee_le_iff finite_zero hT.1, val_zero, not_le] at c1
    rw [gt_iff_lt, gt_iff_lt, ieee_lt_iff (m 1 1).1 (m 0 0).1, ieee_lt_iff (m 2 2).1 (m 0 0).1] at c2
    have hp : 99 / 100 ≤ 4 * h.imI ^ 2 := by linarith
    obtain ⟨r1, r2⟩ := pivot_root hφ hε0 hε hI hp (hP (i := 0) (j := 1) (k := 2) (by linarith)
      (by rw [abs_le]; constructor <;> linarith) (by linarith) hI2)
    refine finish hp ⟨r2 (dif (by linarith) (half (by linarith))) (half (by linarith)), by rw [self]; exact r1,
      r2 (sum (by linarith) (half (by linarith))) (half (by linarith)), r2 (sum (by linarith) (half (by linarith))) (half (by linarith))⟩
  · rw [ge_iff_le, ieee_le_iff finite_zero hT.1, val_zero, not_le] at c1
    rw [gt_iff_lt, gt_iff_lt, ieee_lt_iff (m 1 1).1 (m 0 0).1, ieee_lt_iff (m 2 2).1 (m 0 0).1] at c2
    rw [gt_iff_lt, ieee_lt_iff (m 2 2).1 (m 1 1).1] at c3
    have c2' : (M.data 0 0).val ≤ (M.data 1 1).val := by
      by_contra hc; rw [not_le] at hc; exact c2 ⟨hc, by linarith⟩
    have hp : 99 / 100 ≤ 4 * h.imJ ^ 2 := by linarith
    obtain ⟨r1, r2⟩ := pivot_root hφ hε0 hε hJ hp (hP (i := 1) (j := 0) (k := 2) (by linarith)
      (by rw [abs_le]; constructor <;> linarith) (by linarith) hJ2)
    refine finish hp ⟨r2 (dif (by linarith) (half (by linarith))) (half (by linarith)),
      r2 (sum (by linarith) (half (by linarith))) (half (by linarith)), by rw [self]; exact r1,
      r2 (sum (by linarith) (half (by linarith))) (half (by linarith))⟩
  · rw [ge_iff_le, ieee_le_iff finite_zero hT.1, val_zero, not_le] at c1
    rw [gt_iff_lt, gt_iff_lt, ieee_lt_iff (m 1 1).1 (m 0 0).1, ieee_lt_iff (m 2 2).1 (m 0 0).1] at c2
    rw [gt_iff_lt, ieee_lt_iff (m 2 2).1 (m 1 1).1, not_lt] at c3
    have c2' : (M.data 0 0).val ≤ (M.data 2 2).val := by
      by_contra hc; rw [not_le] at hc; exact c2 ⟨by linarith, hc⟩
    have hp : 99 / 100 ≤ 4 * h.imK ^ 2 := by linarith
    obtain ⟨r1, r2⟩ := pivot_root hφ hε0 hε hK hp (hP (i := 2) (j := 0) (k := 1) (by linarith)
      (by rw [abs_le]; constructor <;> linarith) (by linarith) hK2)
    refine finish hp ⟨r2 (dif (by linarith) (half (by linarith))) (half (by linarith)),
      r2 (sum (by linarith) (half (by linarith))) (half (by linarith)),
      r2 (sum (by linarith) (half (by linarith))) (half (by linarith)), by rw [self]; exact r1⟩

end Cgl
