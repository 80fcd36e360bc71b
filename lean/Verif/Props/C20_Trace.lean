import Verif.Lemmas.MatrixSq

/-! # C20 - trace and diagonal -/

namespace Cgl
open Mat

variable {S : Type*} {N R C : ℕ}

theorem C20_trace_value [NonUnitalNonAssocSemiring S] (A : Mat S N N) : A.trace = ∑ i, A.data i i :=
  trace_eq_sum A

theorem C20_trace_add [CommRing S] (A B : Mat S N N) : (A + B).trace = A.trace + B.trace := by
  simp [trace_eq_sum, Finset.sum_add_distrib]

theorem C20_trace_sub [CommRing S] (A B : Mat S N N) : (A - B).trace = A.trace - B.trace := by
  simp [trace_eq_sum, Finset.sum_sub_distrib]

theorem C20_trace_scalar [CommRing S] (A : Mat S N N) (k : S) : (A * k).trace = A.trace * k := by
  simp [trace_eq_sum, Finset.sum_mul]

theorem C20_trace_transpose [CommRing S] (A : Mat S N N) : A.transpose.trace = A.trace := by
  simp [trace_eq_sum]

/-- the trace is cyclic, also for rectangular factors -/
theorem C20_trace_mul_comm [CommRing S] (A : Mat S R C) (B : Mat S C R) :
    (A * B).trace = (B * A).trace := by
  simp only [trace_eq_sum, mul_data]
  rw [Finset.sum_comm]
  exact Finset.sum_congr rfl fun i _ => Finset.sum_congr rfl fun j _ => mul_comm _ _

theorem C20_trace_identity [CommRing S] : (identity : Mat S N N).trace = (N : S) := by
  simp [trace_eq_sum]

theorem C20_from_diagonal [Zero S] (v : Vec S N) (c r : Fin N) :
    (fromDiagonal v).data c r = if c = r then v.data c else 0 := by
  simp

theorem C20_from_diagonal_value [CommRing S] (k : S) :
    (fromDiagonalValue k : Mat S N N) = k * (identity : Mat S N N) := by
  ext c r; simp

theorem C20_from_diagonal_fill [Zero S] (k : S) :
    (fromDiagonalValue k : Mat S N N) = fromDiagonal (Vec.fromFill k) := by
  ext c r; simp

/-- what `diagonal()` returns: four numbers, the diagonal padded with zeros, when the size is at most 4 -/
theorem C20_diagonal_small [Zero S] (hN : N ≤ 4) (A : Mat S N N) :
    ∃ v : Vec S 4, A.diagonal = .ok v ∧
      ∀ i : Fin 4, v.data i = if h : (i : ℕ) < N then A.data ⟨i, h⟩ ⟨i, h⟩ else 0 := by
  have key := forRangeE_ok_of (n := N) (s := (Vec.zero (S := S) (n := 4)).data)
    (b := fun i result => writeAt result i (A.data i i))
    (fun k (e : Fin 4 → S) => ∀ i : Fin 4,
      e i = if h : (i : ℕ) < k ∧ (i : ℕ) < N then A.data ⟨i, h.2⟩ ⟨i, h.2⟩ else 0)
    (by simp) (by
      intro i t ht
      have hi : (i : ℕ) < 4 := by omega
      rw [writeAt_of_lt _ hi]
      refine ⟨_, rfl, fun j => ?_⟩
      by_cases h : (j : ℕ) = i
      · have hj : j = ⟨i, hi⟩ := Fin.ext h
        subst hj; simp
      · have hj : j ≠ ⟨i, hi⟩ := fun e => h (congrArg Fin.val e)
        rw [Function.update_of_ne hj, ht j]
        have hiff : (j : ℕ) < i + 1 ↔ (j : ℕ) < i := by omega
        simp only [hiff])
  obtain ⟨t, h1, h2⟩ := key
  refine ⟨⟨t⟩, ?_, fun i => ?_⟩
  · rw [diagonal, h1]; rfl
  · show t i = _
    rw [h2 i]
    by_cases h : (i : ℕ) < N <;> simp [h]

/-- `diagonal()` of a 4x4 matrix returns its diagonal; in particular it recovers `v` from
`from_diagonal(v)`. For the other sizes see the next three theorems. -/
theorem C20_diagonal4_partial [Zero S] (v : Vec S 4) : (fromDiagonal v).diagonal = .ok v := by
  obtain ⟨w, h1, h2⟩ := C20_diagonal_small (le_refl 4) (fromDiagonal v)
  rw [h1]; congr 1; ext i; rw [h2]; simp

/-- For sizes above 4 `diagonal()` panics on every matrix: its result type has room for four entries. -/
theorem C20_diagonal_large_panics [Zero S] (hN : 4 < N) (A : Mat S N N) :
    A.diagonal = .error .indexOutOfBounds := by
  have key : ∀ (m : ℕ) (hm : m ≤ N) (b : Fin m → (Fin 4 → S) → Res (Fin 4 → S))
      (_ : ∀ (i : Fin m) t, b i t = writeAt t i (A.data (i.castLE hm) (i.castLE hm))),
      4 < m → ∀ s, forRangeE m s b = .error .indexOutOfBounds := by
    intro m
    induction m with
    | zero => intro _ _ _ h; omega
    | succ m ih =>
      intro hm b hb h4 s
      have hsucc : forRangeE (m + 1) s b =
          (forRangeE m s (fun i t => b i.castSucc t)).bind (b (Fin.last m)) := by
        simp only [forRangeE, forRange_succ]
      rw [hsucc]
      by_cases h : 4 < m
      · rw [ih (by omega) _ (fun i t => by rw [hb]; rfl) h]; rfl
      · cases hX : forRangeE m s (fun i t => b i.castSucc t) with
        | error e =>
          have := forRangeE_ok_of (n := m) (s := s) (b := fun i t => b i.castSucc t)
            (fun _ _ => True) trivial (by
              intro i t _
              rw [hb]
              exact ⟨_, writeAt_of_lt _ (show (i.castSucc : ℕ) < 4 by simp; omega) _, trivial⟩)
          obtain ⟨t, ht, -⟩ := this
          rw [ht] at hX; cases hX
        | ok t =>
          show b (Fin.last m) t = _
          rw [hb, writeAt_of_ge _ (show 4 ≤ ((Fin.last m : Fin (m + 1)) : ℕ) by simp; omega)]
  rw [diagonal, key N le_rfl (fun i result => writeAt result i (A.data i i)) (fun i t => rfl) hN]; rfl

/-- For sizes below 4 the result carries entries the matrix does not have. -/
theorem C20_diagonal_small_pads [Zero S] (hN : N < 4) (A : Mat S N N) :
    ∃ v : Vec S 4, A.diagonal = .ok v ∧ v.data 3 = 0 := by
  obtain ⟨v, h1, h2⟩ := C20_diagonal_small hN.le A
  refine ⟨v, h1, ?_⟩
  rw [h2]; simp; omega

example : (new2x2 1 2 3 4 : Mat ℤ 2 2).trace = 5 := by rw [C20_trace_value]; simp
example : (new4x4 1 2 0 1 3 7 4 0 0 2 9 5 2 0 1 8 : Mat ℤ 4 4).diagonal = .ok (Vec.new4 1 7 9 8) := by
  obtain ⟨v, h1, h2⟩ := C20_diagonal_small (le_refl 4) (new4x4 1 2 0 1 3 7 4 0 0 2 9 5 2 0 1 8 : Mat ℤ 4 4)
  rw [h1]; congr 1; ext i; rw [h2]; fin_cases i <;> rfl

/-- the property asked of every size fails for 2x2: the result is not even a 2-vector, its entries 2
and 3 are zero whatever the diagonal is -/
example : ∃ v : Vec ℤ 4, (fromDiagonal (Vec.new2 5 6) : Mat ℤ 2 2).diagonal = .ok v ∧
    v = Vec.new4 5 6 0 0 := by
  obtain ⟨v, h1, h2⟩ := C20_diagonal_small (show 2 ≤ 4 by norm_num) (fromDiagonal (Vec.new2 5 6) : Mat ℤ 2 2)
  refine ⟨v, h1, ?_⟩
  ext i; rw [h2]; fin_cases i <;> simp

end Cgl
