import Verif.Lemmas.MatrixSq

/-! # C16 - column-major layout, constructors and accessors

`data c r` is the entry in column `c`, row `r`: what `m[c][r]` reads. -/

namespace Cgl
open Mat

variable {S T U : Type*} {R C : ℕ}

/-- `m[(c, r)]` reads column `c`, row `r`; any index outside the shape panics. -/
theorem C16_index (A : Mat S R C) (c : Fin C) (r : Fin R) : A.index (c, r) = .ok (A.data c r) := by
  simp [index, readAt_of_lt _ c.2, readAt_of_lt _ r.2, Except.bind]

theorem C16_index_out_of_range (A : Mat S R C) (c r : ℕ) (h : C ≤ c ∨ R ≤ r) :
    A.index (c, r) = .error .indexOutOfBounds := by
  by_cases hc : c < C
  · simp [index, readAt_of_lt _ hc, readAt_of_ge _ (show R ≤ r by omega), Except.bind]
  · simp [index, readAt_of_ge _ (not_lt.mp hc), Except.bind]

/-- `m[c]` and `column(c)` are column `c`. -/
theorem C16_index_col (A : Mat S R C) (c : Fin C) : A.indexCol c = .ok ⟨A.data c⟩ := by
  simp [indexCol, readAt_of_lt _ c.2, Except.map]

theorem C16_column (A : Mat S R C) (c : Fin C) :
    ∃ v, A.column c = .ok v ∧ ∀ r, v.data r = A.data c r := by
  refine ⟨⟨A.data c⟩, ?_, fun _ => rfl⟩
  simp [column, readAt_of_lt _ c.2, Except.map]

theorem C16_column_out_of_range (A : Mat S R C) (c : ℕ) (h : C ≤ c) :
    A.column c = .error .indexOutOfBounds := by
  simp [column, readAt_of_ge _ h, Except.map]

/-- `row(r)` is row `r`. -/
theorem C16_row (zeroed : S) (A : Mat S R C) (r : Fin R) :
    ∃ v, A.row zeroed r = .ok v ∧ ∀ c, v.data c = A.data c r := by
  have key := forRangeE_ok_of (n := C) (s := fun _ => zeroed)
    (b := fun c data => (readAt (A.data c) r).map fun x => Function.update data c x)
    (fun k (e : Fin C → S) => ∀ c : Fin C, (c : ℕ) < k → e c = A.data c r) (by simp) (by
      intro i t ht
      rw [readAt_of_lt _ r.2]
      refine ⟨_, rfl, fun c hc => ?_⟩
      by_cases h : c = i
      · subst h; simp
      · have hne : (c : ℕ) ≠ i := fun h' => h (Fin.ext h')
        simp [Function.update_of_ne h, ht c (by omega)])
  obtain ⟨t, h1, h2⟩ := key
  refine ⟨⟨t⟩, ?_, fun c => h2 c c.2⟩
  rw [row, h1]; rfl

theorem C16_row_out_of_range (zeroed : S) (A : Mat S R C) (hC : 0 < C) (r : ℕ) (h : R ≤ r) :
    A.row zeroed r = .error .indexOutOfBounds := by
  rw [row, forRangeE_error_of (e := .indexOutOfBounds) hC]
  · rfl
  · intro i t; simp [readAt_of_ge _ h, Except.map]

theorem C16_from_columns (cols : Fin C → Vec S R) (c : Fin C) :
    (fromColumns cols).column c = .ok (cols c) := by
  obtain ⟨v, h1, h2⟩ := C16_column (fromColumns cols) c
  rw [h1]; congr 1; ext r; rw [h2]; rfl

theorem C16_from_rows (zeroed : S) (rows : Fin R → Vec S C) (r : Fin R) :
    (fromRows zeroed rows).row zeroed r = .ok (rows r) := by
  obtain ⟨v, h1, h2⟩ := C16_row zeroed (fromRows zeroed rows) r
  rw [h1]; congr 1; ext c; rw [h2]; simp

/-- a matrix is determined by its columns, and by its rows -/
theorem C16_columns_round_trip (A : Mat S R C) (cols : Fin C → Vec S R)
    (h : ∀ c : Fin C, A.column c = .ok (cols c)) : fromColumns cols = A := by
  ext c r
  obtain ⟨v, h1, h2⟩ := C16_column A c
  have h3 : cols c = v := by
    have := (h c).symm.trans h1
    injection this
  rw [fromColumns_data, h3, h2]

theorem C16_rows_round_trip (zeroed : S) (A : Mat S R C) (rows : Fin R → Vec S C)
    (h : ∀ r : Fin R, A.row zeroed r = .ok (rows r)) : fromRows zeroed rows = A := by
  ext c r
  obtain ⟨v, h1, h2⟩ := C16_row zeroed A r
  have h3 : rows r = v := by
    have := (h r).symm.trans h1
    injection this
  rw [fromRows_data, h3, h2]

theorem C16_from_rows_eq_transpose [Zero S] (zeroed : S) (rows : Fin R → Vec S C) :
    fromRows zeroed rows = (fromColumns rows).transpose := by
  ext c r; simp

/-- the flat array lists the columns one after the other: element `k` is row `k % R` of column `k / R` -/
theorem C16_flat (A : Mat S R C) (k : Fin (C * R)) (c : Fin C) (r : Fin R)
    (hc : (c : ℕ) = k / R) (hr : (r : ℕ) = k % R) : A.toFlat k = A.data c r := by
  have h1 : (finProdFinEquiv.symm k : Fin C × Fin R).1 = c := Fin.ext (by simp [hc])
  have h2 : (finProdFinEquiv.symm k : Fin C × Fin R).2 = r := Fin.ext (by simp [hr])
  simp only [toFlat, h1, h2]

theorem C16_flat_position (A : Mat S R C) (c : Fin C) (r : Fin R) (k : Fin (C * R))
    (hk : (k : ℕ) = c * R + r) : A.toFlat k = A.data c r := by
  have hR : 0 < R := r.pos
  apply C16_flat
  · rw [hk, mul_comm, Nat.mul_add_div hR, Nat.div_eq_of_lt r.2, add_zero]
  · rw [hk, mul_comm, Nat.mul_add_mod, Nat.mod_eq_of_lt r.2]

theorem C16_from_flat_to_flat (A : Mat S R C) : fromFlat A.toFlat = A := by
  ext c r; simp [fromFlat, toFlat]

theorem C16_to_flat_from_flat (a : Fin (C * R) → S) : (fromFlat a : Mat S R C).toFlat = a := by
  funext k; simp only [fromFlat, toFlat, Prod.mk.eta, Equiv.apply_symm_apply]

section New
variable (a b c d e f g h i j k l m n o p : S)

/-! The arguments of every `new` are the flat array, in order. -/

theorem C16_new1x1 : (new1x1 a).toFlat = ![a] := by funext t; fin_cases t; rfl
theorem C16_new2x2 : (new2x2 a b c d).toFlat = ![a, b, c, d] := by funext t; fin_cases t <;> rfl
theorem C16_new3x3 : (new3x3 a b c d e f g h i).toFlat = ![a, b, c, d, e, f, g, h, i] := by
  funext t; fin_cases t <;> rfl
theorem C16_new4x4 : (new4x4 a b c d e f g h i j k l m n o p).toFlat =
    ![a, b, c, d, e, f, g, h, i, j, k, l, m, n, o, p] := by funext t; fin_cases t <;> rfl
theorem C16_new1x2 : (new1x2 a b).toFlat = ![a, b] := by funext t; fin_cases t <;> rfl
theorem C16_new1x3 : (new1x3 a b c).toFlat = ![a, b, c] := by funext t; fin_cases t <;> rfl
theorem C16_new1x4 : (new1x4 a b c d).toFlat = ![a, b, c, d] := by funext t; fin_cases t <;> rfl
theorem C16_new2x3 : (new2x3 a b c d e f).toFlat = ![a, b, c, d, e, f] := by funext t; fin_cases t <;> rfl
theorem C16_new3x2 : (new3x2 a b c d e f).toFlat = ![a, b, c, d, e, f] := by funext t; fin_cases t <;> rfl
theorem C16_new2x4 : (new2x4 a b c d e f g h).toFlat = ![a, b, c, d, e, f, g, h] := by
  funext t; fin_cases t <;> rfl
theorem C16_new4x2 : (new4x2 a b c d e f g h).toFlat = ![a, b, c, d, e, f, g, h] := by
  funext t; fin_cases t <;> rfl
theorem C16_new3x4 : (new3x4 a b c d e f g h i j k l).toFlat = ![a, b, c, d, e, f, g, h, i, j, k, l] := by
  funext t; fin_cases t <;> rfl
theorem C16_new4x3 : (new4x3 a b c d e f g h i j k l).toFlat = ![a, b, c, d, e, f, g, h, i, j, k, l] := by
  funext t; fin_cases t <;> rfl

end New

theorem C16_to_scalar (a : S) : (new1x1 a).toScalar = a := rfl

/-- `map` applies the function to every entry -/
theorem C16_map (z : T) (f : S → T) (A : Mat S R C) (c r) : (A.map z f).data c r = f (A.data c r) :=
  map_data z f A c r

theorem C16_map_id (z : S) (A : Mat S R C) : A.map z id = A := by ext c r; simp

theorem C16_map_map (y : T) (z : U) (f : S → T) (g : T → U) (A : Mat S R C) :
    (A.map y f).map z g = A.map z (g ∘ f) := by ext c r; simp

theorem C16_from_fill (x : S) (c r) : (fromFill x : Mat S R C).data c r = x := rfl

/-- shapes are (rows, columns) -/
theorem C16_shape (A : Mat S R C) : A.shape = (R, C) := rfl
theorem C16_is_square (A : Mat S R C) : A.isSquare = true ↔ R = C := by simp [isSquare, shape]

/-- a 2-row, 3-column matrix: rows and columns are told apart -/
example : (new2x3 1 2 3 4 5 6 : Mat ℤ 2 3).index (2, 0) = .ok 5 := C16_index _ 2 0
example : (new2x3 1 2 3 4 5 6 : Mat ℤ 2 3).index (0, 2) = .error .indexOutOfBounds :=
  C16_index_out_of_range _ 0 2 (by simp)
example : ∃ v, (new2x3 1 2 3 4 5 6 : Mat ℤ 2 3).row 0 1 = .ok v ∧ v = Vec.new3 2 4 6 := by
  obtain ⟨v, h1, h2⟩ := C16_row 0 (new2x3 1 2 3 4 5 6 : Mat ℤ 2 3) 1
  refine ⟨v, h1, Vec.ext3 ?_ ?_ ?_⟩ <;> rw [h2] <;> rfl

end Cgl
