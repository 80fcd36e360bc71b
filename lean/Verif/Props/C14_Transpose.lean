import Verif.Lemmas.Matrix

/-! # C14 - transposition -/

namespace Cgl
open Mat

variable {S : Type*} {R N C C1 C2 : ℕ}

theorem C14_transpose_entry [Zero S] (A : Mat S R C) (c : Fin C) (r : Fin R) :
    A.transpose.data r c = A.data c r := transpose_data A r c

theorem C14_transpose_involutive [Zero S] (A : Mat S R C) : A.transpose.transpose = A := by
  ext c r; simp

theorem C14_transpose_add [Zero S] [Add S] (A B : Mat S R C) :
    (A + B).transpose = A.transpose + B.transpose := by ext c r; simp

theorem C14_transpose_scalar [Zero S] [Mul S] (A : Mat S R C) (k : S) :
    (A * k).transpose = A.transpose * k := by ext c r; simp

theorem C14_transpose_identity [Zero S] [One S] :
    (identity : Mat S N N).transpose = identity := by ext c r; simp [eq_comm]

theorem C14_transpose_mul [CommSemiring S] (A : Mat S R N) (B : Mat S N C) :
    (A * B).transpose = B.transpose * A.transpose := by
  ext c r; simp [mul_data, mul_comm]

theorem C14_tr_mul [NonUnitalNonAssocSemiring S] (A : Mat S R C1) (B : Mat S R C2) :
    A.trMul B = A.transpose * B := by
  ext c r; simp [trMul_data, mul_data]

/-- `tr_dot` is the dot product of the transpose with the argument ... -/
theorem C14_tr_dot [NonUnitalNonAssocSemiring S] (A : Mat S R C) (B : Mat S C R) :
    A.trDot B = A.transpose.dot B := by
  rw [trDot_eq_sum, dot_eq_sum, Finset.sum_comm]
  simp

/-- ... and the trace of the product. -/
theorem C14_tr_dot_eq_trace [NonUnitalNonAssocSemiring S] (A : Mat S R C) (B : Mat S C R) :
    A.trDot B = (A * B).trace := by
  rw [trDot_eq_sum, trace_eq_sum]; simp [mul_data]

/-- moving a matrix across a dot product transposes it -/
theorem C14_dot_adjoint [CommSemiring S] (A : Mat S R C) (v : Vec S C) (w : Vec S R) :
    (A * v).dot w = v.dot (A.transpose * w) := by
  simp only [Vec.dot_eq_sum, mulVec_data, transpose_data, Finset.sum_mul, Finset.mul_sum]
  rw [Finset.sum_comm]
  exact Finset.sum_congr rfl fun i _ => Finset.sum_congr rfl fun j _ => by ring

/-- one step of the in-place loop -/
private theorem swap_step (m : Mat S N N) (i j : Fin N) :
    ∃ m' : Mat S N N, m.swap ((i : ℕ), (j : ℕ)) ((j : ℕ), (i : ℕ)) = .ok m' ∧
      ∀ c r, m'.data c r = if c = i ∧ r = j ∨ c = j ∧ r = i then m.data r c else m.data c r := by
  simp only [swap, get?, set?, readAt_of_lt _ i.2, readAt_of_lt _ j.2, writeAt_of_lt _ i.2,
    writeAt_of_lt _ j.2, Except.bind, Except.map]
  refine ⟨_, rfl, fun c r => ?_⟩
  simp only [Fin.eta]
  by_cases h1 : c = i <;> by_cases h2 : c = j <;> by_cases h3 : r = i <;> by_cases h4 : r = j <;>
    simp_all [Function.update_apply, eq_comm]

/-- The in-place loop never panics and leaves the transpose behind. -/
theorem C14_transpose_mut [Zero S] (A : Mat S N N) : A.transposeMut = .ok A.transpose := by
  have key : ∃ t, A.transposeMut = .ok t ∧ ∀ c r : Fin N, t.data c r =
      if (c : ℕ) < N ∧ (r : ℕ) < N then A.data r c else A.data c r := by
    refine forRangeE_ok_of (fun k (t : Mat S N N) => ∀ c r : Fin N, t.data c r =
      if (c : ℕ) < k ∧ (r : ℕ) < k then A.data r c else A.data c r) (by simp) ?_
    intro i t ht
    have inner := forRangeE_ok_of (n := (i : ℕ)) (s := t)
      (b := fun j m => m.swap ((i : ℕ), (j : ℕ)) ((j : ℕ), (i : ℕ)))
      (fun k (u : Mat S N N) => ∀ c r : Fin N, u.data c r =
        if ((c : ℕ) < i ∧ (r : ℕ) < i) ∨ (c = i ∧ (r : ℕ) < k) ∨ (r = i ∧ (c : ℕ) < k)
        then A.data r c else A.data c r) (by intro c r; simp [ht c r]) (by
          intro j u hu
          have hjN : (j : ℕ) < N := j.2.trans i.2
          obtain ⟨u', h1, h2⟩ := swap_step u i ⟨j, hjN⟩
          refine ⟨u', h1, fun c r => ?_⟩
          rw [h2 c r, hu c r, hu r c]
          have hj := j.2
          simp only [Fin.ext_iff]
          by_cases h : ((c : ℕ) = i ∧ (r : ℕ) = j) ∨ ((c : ℕ) = j ∧ (r : ℕ) = i)
          · rw [if_pos h, if_neg (by omega), if_pos (by omega)]
          · rw [if_neg h]
            congr 1
            apply propext
            omega)
    obtain ⟨u, h1, h2⟩ := inner
    refine ⟨u, h1, fun c r => ?_⟩
    rw [h2 c r]
    simp only [Fin.ext_iff]
    by_cases hcr : c = r
    · subst hcr; split <;> split <;> rfl
    · have hne : (c : ℕ) ≠ r := fun h => hcr (Fin.ext h)
      congr 1
      apply propext
      omega
  obtain ⟨t, h1, h2⟩ := key
  rw [h1]
  congr 1
  ext c r
  simp [h2 c r]

example : (⟨![![1, 2, 3], ![4, 5, 6], ![7, 8, 9]]⟩ : Mat ℤ 3 3).transposeMut =
    .ok ⟨![![1, 4, 7], ![2, 5, 8], ![3, 6, 9]]⟩ := by
  rw [C14_transpose_mut]; congr 1; ext c r; fin_cases c <;> fin_cases r <;> simp

end Cgl
