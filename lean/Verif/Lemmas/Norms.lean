import Verif.Lemmas.Vector
import Mathlib.Analysis.Normed.Lp.PiLp
import Mathlib.Tactic.Positivity
import Mathlib.Tactic.FieldSimp

/-! # The vector norms over `ℝ` compared with Mathlib's `L^p` norms -/

namespace Cgl
namespace Vec

variable {n : ℕ}

/-- reciprocal of the exponent, `cast((p as f64).recip())` -/
noncomputable def recipR (p : ℕ) : ℝ := 1 / (p : ℝ)

theorem sabs_real (x : ℝ) : sabs x = |x| := rfl

theorem normSquared_nonneg (v : Vec ℝ n) : 0 ≤ v.normSquared := by
  rw [normSquared_eq_sum]; exact Finset.sum_nonneg fun i _ => mul_self_nonneg _

theorem norm_def (v : Vec ℝ n) : v.norm = Real.sqrt v.normSquared := rfl

theorem norm_nonneg (v : Vec ℝ n) : 0 ≤ v.norm := Real.sqrt_nonneg _

theorem norm_sq (v : Vec ℝ n) : v.norm ^ 2 = v.normSquared := Real.sq_sqrt v.normSquared_nonneg
theorem norm_mul_norm (v : Vec ℝ n) : v.norm * v.norm = v.normSquared :=
  Real.mul_self_sqrt v.normSquared_nonneg

theorem normSquared_eq_zero (v : Vec ℝ n) : v.normSquared = 0 ↔ v = 0 := by
  rw [normSquared_eq_sum, Finset.sum_eq_zero_iff_of_nonneg fun i _ => mul_self_nonneg _]
  simp [Vec.ext_iff, funext_iff]

theorem norm_eq_zero (v : Vec ℝ n) : v.norm = 0 ↔ v = 0 := by
  rw [norm_def, Real.sqrt_eq_zero v.normSquared_nonneg, normSquared_eq_zero]

theorem norm_pos {v : Vec ℝ n} (h : v ≠ 0) : 0 < v.norm :=
  lt_of_le_of_ne v.norm_nonneg fun h' => h ((norm_eq_zero v).mp h'.symm)

theorem normSquared_pos {v : Vec ℝ n} (h : v ≠ 0) : 0 < v.normSquared :=
  lt_of_le_of_ne v.normSquared_nonneg fun h' => h ((normSquared_eq_zero v).mp h'.symm)

theorem normSquared_mulS {S : Type*} [CommRing S] (v : Vec S n) (k : S) :
    (v * k).normSquared = v.normSquared * (k * k) := by
  simp only [normSquared_eq_sum, mulS_data, Finset.sum_mul]
  exact Finset.sum_congr rfl fun i _ => by ring

theorem norm_mulS (v : Vec ℝ n) (k : ℝ) : (v * k).norm = v.norm * |k| := by
  rw [norm_def, normSquared_mulS, Real.sqrt_mul v.normSquared_nonneg, Real.sqrt_mul_self_eq_abs, ← norm_def]

/-- The model's L2 norm is Mathlib's Euclidean norm. -/
theorem norm_eq_euclidean (v : Vec ℝ n) : v.norm = ‖WithLp.toLp 2 v.data‖ := by
  rw [PiLp.norm_eq_of_L2, norm_def, normSquared_eq_sum]
  congr 1
  exact Finset.sum_congr rfl fun i _ => by simp [Real.norm_eq_abs, sq]

theorem linfNorm_loop (a : Fin n → ℝ) :
    forRange n 0 (fun i result => max result |a i|) = ‖a‖ := by
  apply le_antisymm
  · refine forRange_induction (n := n) (s := (0:ℝ)) (b := fun i result => max result |a i|)
      (fun _ s => s ≤ ‖a‖) (_root_.norm_nonneg _) ?_
    intro i t ht
    exact max_le ht (norm_le_pi_norm a i)
  · have h0 : 0 ≤ forRange n 0 (fun i result => max result |a i|) :=
      forRange_induction (n := n) (s := (0:ℝ)) (b := fun i result => max result |a i|)
        (fun _ s => 0 ≤ s) le_rfl (fun i t ht => le_max_of_le_left ht)
    rw [pi_norm_le_iff_of_nonneg h0]
    intro i
    have := forRange_induction (n := n) (s := (0:ℝ)) (b := fun i result => max result |a i|)
        (fun m s => ∀ k : Fin n, (k : ℕ) < m → |a k| ≤ s) (by intro k hk; omega)
        (by
          intro i t ht k hk
          by_cases hki : k = i
          · subst hki; exact le_max_right _ _
          · have : (k : ℕ) ≠ i := fun h => hki (Fin.ext h)
            exact le_max_of_le_left (ht k (by omega)))
    exact this i i.2

/-- The model's L-infinity norm is Mathlib's sup norm. -/
theorem linfNorm_eq (v : Vec ℝ n) : v.linfNorm = ‖v.data‖ := linfNorm_loop v.data

theorem l1Norm_eq (v : Vec ℝ n) : v.l1Norm = ‖WithLp.toLp 1 v.data‖ := by
  rw [l1Norm_eq_sum, PiLp.norm_eq_of_nat 1 (by simp)]
  simp [sabs_real]

theorem lpNorm_eq (v : Vec ℝ n) (p : ℕ) (hp : 1 ≤ p) :
    v.lpNorm recipR p = ‖WithLp.toLp (p : ENNReal) v.data‖ := by
  have : Fact ((1 : ENNReal) ≤ (p : ENNReal)) := ⟨by exact_mod_cast hp⟩
  rw [PiLp.norm_eq_of_nat p rfl, lpNorm, forRange_sum n fun i => (sabs (v.data i)) ^ p]
  rfl

/-! ### normalisation -/

theorem normalize_def (v : Vec ℝ n) : v.normalize = v * (1 / v.norm) := rfl

theorem normalize_norm {v : Vec ℝ n} (h : v ≠ 0) : v.normalize.norm = 1 := by
  have hp := norm_pos h
  rw [normalize_def, norm_mulS, abs_of_pos (by positivity)]
  field_simp

theorem normalize_normSquared {v : Vec ℝ n} (h : v ≠ 0) : v.normalize.normSquared = 1 := by
  rw [← norm_sq, normalize_norm h]; norm_num

theorem normalize_dot_self {v : Vec ℝ n} (h : v ≠ 0) : v.normalize.dot v.normalize = 1 :=
  normalize_normSquared h

theorem normalize_mul_norm {v : Vec ℝ n} (h : v ≠ 0) : v.normalize * v.norm = v := by
  have hp := (norm_pos h).ne'
  ext i; simp [normalize_def]; field_simp

end Vec
end Cgl
