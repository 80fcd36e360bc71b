import Verif.Lemmas.Matrix

/-! # C15 - row, column and element swaps -/

namespace Cgl
open Mat

variable {S : Type*} {R C : ℕ}

/-- Exchange two indices, leave the others alone. -/
def Spec.exchange (n : ℕ) (a b i : Fin n) : Fin n := if i = a then b else if i = b then a else i

private theorem sliceSwap_ok {α : Type*} {n : ℕ} (x : Fin n → α) (a b : Fin n) :
    sliceSwap x a b = .ok fun i => x (Spec.exchange n a b i) := by
  simp only [sliceSwap, readAt_of_lt _ a.2, readAt_of_lt _ b.2, writeAt_of_lt _ a.2,
    writeAt_of_lt _ b.2, Except.bind]
  congr 1
  funext i
  simp only [Spec.exchange, Fin.eta, Function.update_apply]
  by_cases h1 : i = a <;> by_cases h2 : i = b <;> simp_all

private theorem sliceSwap_oob {α : Type*} {n : ℕ} (x : Fin n → α) (a b : ℕ) (h : n ≤ a ∨ n ≤ b) :
    sliceSwap x a b = .error .indexOutOfBounds := by
  by_cases ha : a < n
  · have hb : n ≤ b := by omega
    simp [sliceSwap, readAt_of_lt _ ha, readAt_of_ge _ hb, Except.bind]
  · simp [sliceSwap, readAt_of_ge _ (not_lt.mp ha), Except.bind]

/-- `swap_columns` exchanges exactly the two columns. -/
theorem C15_swap_columns (A : Mat S R C) (a b : Fin C) :
    ∃ B, A.swapColumns a b = .ok B ∧ ∀ c r, B.data c r = A.data (Spec.exchange C a b c) r := by
  refine ⟨⟨fun c => A.data (Spec.exchange C a b c)⟩, ?_, fun _ _ => rfl⟩
  simp [swapColumns, sliceSwap_ok, Except.map]

theorem C15_swap_columns_out_of_range (A : Mat S R C) (a b : ℕ) (h : C ≤ a ∨ C ≤ b) :
    A.swapColumns a b = .error .indexOutOfBounds := by
  simp [swapColumns, sliceSwap_oob _ a b h, Except.map]

/-- `swap_rows` exchanges exactly the two rows. -/
theorem C15_swap_rows (A : Mat S R C) (a b : Fin R) :
    ∃ B, A.swapRows a b = .ok B ∧ ∀ c r, B.data c r = A.data c (Spec.exchange R a b r) := by
  have key := forRangeE_ok_of (n := C) (s := A.data)
    (b := fun c data => (sliceSwap (data c) a b).map fun col => Function.update data c col)
    (fun k e => ∀ (c : Fin C) (r : Fin R), e c r =
      if (c : ℕ) < k then A.data c (Spec.exchange R a b r) else A.data c r) (by simp) (by
      intro i t ht
      rw [sliceSwap_ok]
      refine ⟨_, rfl, fun c r => ?_⟩
      by_cases h : c = i
      · subst h; simp [ht c]
      · have hne : (c : ℕ) ≠ i := fun h' => h (Fin.ext h')
        have hiff : (c : ℕ) < i + 1 ↔ (c : ℕ) < i := by omega
        simp [Function.update_of_ne h, ht c r, hiff])
  obtain ⟨t, h1, h2⟩ := key
  refine ⟨⟨t⟩, ?_, fun c r => by simp [h2 c r]⟩
  rw [swapRows, h1]; rfl

/-- out-of-range row indices panic as soon as there is a column to look at -/
theorem C15_swap_rows_out_of_range (A : Mat S R C) (hC : 0 < C) (a b : ℕ) (h : R ≤ a ∨ R ≤ b) :
    A.swapRows a b = .error .indexOutOfBounds := by
  rw [swapRows, forRangeE_error_of (e := .indexOutOfBounds) hC]
  · rfl
  · intro i t; simp [sliceSwap_oob _ a b h, Except.map]

/-- `swap` exchanges exactly the two elements (given as (column, row)). -/
theorem C15_swap (A : Mat S R C) (a b : Fin C × Fin R) :
    ∃ B, A.swap (a.1, a.2) (b.1, b.2) = .ok B ∧ ∀ c r, B.data c r =
      if (c, r) = a then A.data b.1 b.2 else if (c, r) = b then A.data a.1 a.2 else A.data c r := by
  obtain ⟨a1, a2⟩ := a
  obtain ⟨b1, b2⟩ := b
  simp only [swap, get?, set?, readAt_of_lt _ a1.2, readAt_of_lt _ a2.2, readAt_of_lt _ b1.2,
    readAt_of_lt _ b2.2, writeAt_of_lt _ a1.2, writeAt_of_lt _ a2.2, writeAt_of_lt _ b1.2,
    writeAt_of_lt _ b2.2, Except.bind, Except.map]
  refine ⟨_, rfl, fun c r => ?_⟩
  simp only [Fin.eta, Prod.mk.injEq]
  by_cases h1 : c = a1 <;> by_cases h2 : c = b1 <;> by_cases h3 : r = a2 <;> by_cases h4 : r = b2 <;>
    simp_all [Function.update_apply]

theorem C15_swap_out_of_range (A : Mat S R C) (a b : ℕ × ℕ)
    (h : (C ≤ a.1 ∨ R ≤ a.2) ∨ (C ≤ b.1 ∨ R ≤ b.2)) : A.swap a b = .error .indexOutOfBounds := by
  have hg : ∀ x : ℕ × ℕ, (C ≤ x.1 ∨ R ≤ x.2) → get? A.data x = .error .indexOutOfBounds := by
    intro x hx
    by_cases h1 : x.1 < C
    · simp [get?, readAt_of_lt _ h1, readAt_of_ge _ (show R ≤ x.2 by omega), Except.bind]
    · simp [get?, readAt_of_ge _ (not_lt.mp h1), Except.bind]
  by_cases ha : C ≤ a.1 ∨ R ≤ a.2
  · simp [swap, hg a ha, Except.bind]
  · have hb := h.resolve_left ha
    push Not at ha
    rw [swap, hg b hb, get?, readAt_of_lt _ ha.1]
    show (Except.bind (readAt (A.data ⟨a.1, ha.1⟩) a.2) _ : Res _) = _
    rw [readAt_of_lt _ ha.2]; rfl

private theorem exchange_exchange {n : ℕ} (a b i : Fin n) :
    Spec.exchange n a b (Spec.exchange n a b i) = i := by
  simp only [Spec.exchange]; split_ifs <;> simp_all

/-- repeating a swap restores the matrix -/
theorem C15_swap_columns_twice (A : Mat S R C) (a b : Fin C) :
    (A.swapColumns a b).bind (fun B => B.swapColumns a b) = .ok A := by
  obtain ⟨B, h1, h2⟩ := C15_swap_columns A a b
  obtain ⟨D, h3, h4⟩ := C15_swap_columns B a b
  rw [h1]; show B.swapColumns a b = _; rw [h3]; congr 1
  ext c r; rw [h4, h2, exchange_exchange]

theorem C15_swap_rows_twice (A : Mat S R C) (a b : Fin R) :
    (A.swapRows a b).bind (fun B => B.swapRows a b) = .ok A := by
  obtain ⟨B, h1, h2⟩ := C15_swap_rows A a b
  obtain ⟨D, h3, h4⟩ := C15_swap_rows B a b
  rw [h1]; show B.swapRows a b = _; rw [h3]; congr 1
  ext c r; rw [h4, h2, exchange_exchange]

theorem C15_swap_twice (A : Mat S R C) (a b : Fin C × Fin R) :
    (A.swap (a.1, a.2) (b.1, b.2)).bind (fun B => B.swap (a.1, a.2) (b.1, b.2)) = .ok A := by
  obtain ⟨B, h1, h2⟩ := C15_swap A a b
  obtain ⟨D, h3, h4⟩ := C15_swap B a b
  rw [h1]; show B.swap _ _ = _; rw [h3]; congr 1
  ext c r
  rw [h4, h2, h2, h2]
  by_cases hca : (c, r) = a
  · subst hca; obtain ⟨b1, b2⟩ := b; simp; rintro rfl rfl; rfl
  · by_cases hcb : (c, r) = b
    · subst hcb; simp [hca]
    · simp [hca, hcb]

/-- `swap_rows(i, j)` is left multiplication by the permutation matrix: every row of the result is a
row of the input, so for distinct rows the result differs from the input. -/
example : (⟨![![1, 2], ![3, 4]]⟩ : Mat ℤ 2 2).swapRows 0 1 = .ok ⟨![![2, 1], ![4, 3]]⟩ := by
  obtain ⟨B, h1, h2⟩ := C15_swap_rows (⟨![![1, 2], ![3, 4]]⟩ : Mat ℤ 2 2) 0 1
  have : (⟨![![1, 2], ![3, 4]]⟩ : Mat ℤ 2 2).swapRows 0 1 = .ok B := h1
  rw [this]; congr 1; ext c r; rw [h2]; fin_cases c <;> fin_cases r <;> simp [Spec.exchange]

end Cgl
