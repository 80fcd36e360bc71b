import Verif.Model.Views
import Verif.Lemmas.Matrix
import Mathlib.Tactic.IntervalCases

/-! # C63 - components: indexing, slices, named fields, conversions

What a component read returns, what a component write changes, when an access panics, and that the
conversions to and from arrays and tuples keep the components in order. -/

namespace Cgl

/-- A type whose value is a row of `n` components is indexed correctly: reading in range returns the
component, writing in range changes that component and no other, and an index out of range panics. -/
structure Spec.Indexed {T S : Type*} {n : ℕ} (comp : T → Fin n → S) (read : T → ℕ → Res S)
    (write : T → ℕ → S → Res T) : Prop where
  read_in : ∀ t (i : Fin n), read t i = .ok (comp t i)
  read_out : ∀ t i, n ≤ i → read t i = .error .indexOutOfBounds
  write_in : ∀ t (i : Fin n) x, ∃ t', write t i x = .ok t' ∧ comp t' i = x ∧
    ∀ j, j ≠ i → comp t' j = comp t j
  write_out : ∀ t i x, n ≤ i → write t i x = .error .indexOutOfBounds

/-- Named fields are correct: field `f` reads component `i` and writing it changes that component only. -/
structure Spec.NamedField {T S ι : Type*} (comp : T → ι → S) (read : T → Option S)
    (write : T → S → Option T) (i : ι) : Prop where
  read_eq : ∀ t, read t = some (comp t i)
  write_eq : ∀ t x, ∃ t', write t x = some t' ∧ comp t' i = x ∧ ∀ j, j ≠ i → comp t' j = comp t j

section
variable {S T : Type*} {n R C : ℕ}

/-! ### indexing -/

theorem C63_vector_index :
    Spec.Indexed (fun v : Vec S n => v.data) Vec.index Vec.indexSet where
  read_in v i := by simp [Vec.index, readAt]
  read_out v i h := by simp [Vec.index, readAt, Nat.not_lt.mpr h]
  write_in v i x := by
    refine ⟨⟨Function.update v.data i x⟩, ?_, by simp, fun j hj => by simp [hj]⟩
    simp [Vec.indexSet, writeAt, Except.map]
  write_out v i x h := by simp [Vec.indexSet, writeAt, Nat.not_lt.mpr h, Except.map]

theorem C63_point_index :
    Spec.Indexed (fun p : Pt S n => p.coords.data) Pt.index Pt.indexSet where
  read_in p i := by simp [Pt.index, readAt]
  read_out p i h := by simp [Pt.index, readAt, Nat.not_lt.mpr h]
  write_in p i x := by
    refine ⟨⟨⟨Function.update p.coords.data i x⟩⟩, ?_, by simp, fun j hj => by simp [hj]⟩
    simp [Pt.indexSet, Vec.indexSet, writeAt, Except.map]
  write_out p i x h := by simp [Pt.indexSet, Vec.indexSet, writeAt, Nat.not_lt.mpr h, Except.map]

/-- component 0 of a quaternion is its scalar part, components 1 to 3 its vector part -/
theorem C63_quaternion_index :
    Spec.Indexed (fun q : Quat S => ![q.scalar, q.vector.data 0, q.vector.data 1, q.vector.data 2])
      Quat.index Quat.indexSet := by
  have e : ∀ q : Quat S, ![q.scalar, q.vector.data 0, q.vector.data 1, q.vector.data 2]
      = q.coords.data := by
    intro q; funext i; fin_cases i <;> rfl
  simp only [e]
  exact {
    read_in := fun q i => by simp [Quat.index, Vec.index, readAt]
    read_out := fun q i h => by simp [Quat.index, Vec.index, readAt, Nat.not_lt.mpr h]
    write_in := fun q i x => by
      refine ⟨⟨⟨Function.update q.coords.data i x⟩⟩, ?_, by simp, fun j hj => by simp [hj]⟩
      simp [Quat.indexSet, Vec.indexSet, writeAt, Except.map]
    write_out := fun q i x h => by
      simp [Quat.indexSet, Vec.indexSet, writeAt, Nat.not_lt.mpr h, Except.map] }

/-- the cast of a complex number to an array is defined, and indexing reads `re` then `im` -/
theorem C63_complex_index (z : Cx S) :
    z.index 0 = some (.ok z.re) ∧ z.index 1 = some (.ok z.im) ∧
    (∀ i, 2 ≤ i → z.index i = some (.error .indexOutOfBounds)) ∧
    (∀ x, z.indexSet 0 x = .ok (some ⟨x, z.im⟩)) ∧ (∀ x, z.indexSet 1 x = .ok (some ⟨z.re, x⟩)) ∧
    (∀ i x, 2 ≤ i → z.indexSet i x = .error .indexOutOfBounds) := by
  refine ⟨?_, ?_, ?_, ?_, ?_, ?_⟩
  · simp [Cx.index, Cx.toArray, castRef, Layout.size, readAt, Layout.store, Layout.load]
  · simp [Cx.index, Cx.toArray, castRef, Layout.size, readAt, Layout.store, Layout.load]
  · intro i h
    simp [Cx.index, Cx.toArray, castRef, Layout.size, readAt, Nat.not_lt.mpr h]
  · intro x
    simp [Cx.indexSet, castMut, Layout.size, Layout.store, Layout.load, Function.update]
  · intro x
    simp [Cx.indexSet, castMut, Layout.size, Layout.store, Layout.load, Function.update]
  · intro i x h
    simp [Cx.indexSet, Nat.not_lt.mpr h]

/-- `m[(c, r)] = x` changes the entry in column `c`, row `r` and no other; out of the shape it panics. -/
theorem C63_matrix_write (m : Mat S R C) (x : S) :
    (∀ (c : Fin C) (r : Fin R), ∃ m', m.indexSet (c, r) x = .ok m' ∧ m'.data c r = x ∧
      ∀ c' r', (c', r') ≠ (c, r) → m'.data c' r' = m.data c' r') ∧
    (∀ c r : ℕ, C ≤ c ∨ R ≤ r → m.indexSet (c, r) x = .error .indexOutOfBounds) := by
  constructor
  · intro c r
    refine ⟨⟨Function.update m.data c (Function.update (m.data c) r x)⟩, ?_, by simp, ?_⟩
    · simp [Mat.indexSet, Mat.set?, readAt, writeAt, Except.bind, Except.map]
    · intro c' r' h
      by_cases hc : c' = c
      · subst hc
        have : r' ≠ r := fun h' => h (by rw [h'])
        simp [this]
      · simp [hc]
  · intro c r h
    by_cases hc : c < C
    · have hr : ¬ r < R := by omega
      simp [Mat.indexSet, Mat.set?, readAt, writeAt, hc, hr, Except.bind, Except.map]
    · simp [Mat.indexSet, Mat.set?, readAt, hc, Except.bind, Except.map]

/-! ### reference casts -/

/-- storing a value and reading it back as the same type gives the value -/
class Spec.LawfulLayout (T : Type*) {S : outParam (Type*)} [Layout T S] : Prop where
  load_store : ∀ t : T, Layout.load (Layout.store t) = t
  store_load : ∀ w : Fin (Layout.size T) → S, Layout.store (Layout.load w : T) = w

instance : Spec.LawfulLayout (Fin n → S) := ⟨fun _ => rfl, fun _ => rfl⟩
instance : Spec.LawfulLayout (Vec S n) := ⟨fun _ => rfl, fun _ => rfl⟩
instance : Spec.LawfulLayout (Pt S n) := ⟨fun _ => rfl, fun _ => rfl⟩
instance : Spec.LawfulLayout (Quat S) := ⟨fun _ => rfl, fun _ => rfl⟩
instance : Spec.LawfulLayout (Cx S) := ⟨fun _ => rfl, fun w => by
  funext i; fin_cases i <;> rfl⟩
instance : Spec.LawfulLayout (S × S) := ⟨fun _ => rfl, fun w => by
  funext i; fin_cases i <;> rfl⟩
instance : Spec.LawfulLayout (S × S × S) := ⟨fun _ => rfl, fun w => by
  funext i; fin_cases i <;> rfl⟩
instance : Spec.LawfulLayout (S × S × S × S) := ⟨fun _ => rfl, fun w => by
  funext i; fin_cases i <;> rfl⟩
instance : Spec.LawfulLayout (ViewSV S) := ⟨fun x => by
  obtain ⟨s, v⟩ := x
  simp only [Layout.load, Layout.store]
  congr
  ext i; fin_cases i <;> rfl, fun w => by
  funext i; fin_cases i <;> rfl⟩
instance {names : List String} : Spec.LawfulLayout (Fields S names) := ⟨fun _ => rfl, fun _ => rfl⟩
instance : Spec.LawfulLayout (Fin C → Fin R → S) := ⟨fun t => by
  funext c r; simp [Layout.load, Layout.store], fun w => by
  funext k; exact congrArg w (finProdFinEquiv.apply_symm_apply k)⟩
instance : Spec.LawfulLayout (Fin C → Vec S R) := ⟨fun t => by
  funext c; ext r; simp [Layout.load, Layout.store], fun w => by
  funext k; exact congrArg w (finProdFinEquiv.apply_symm_apply k)⟩
instance : Spec.LawfulLayout (Mat S R C) := ⟨fun t => by
  ext c r; simp [Layout.load, Layout.store], fun w => by
  funext k; exact congrArg w (finProdFinEquiv.apply_symm_apply k)⟩

theorem castRef_of_le {A B : Type*} [Layout A S] [Layout B S] (h : Layout.size B ≤ Layout.size A) (a : A) :
    castRef B a = some (Layout.load fun i => Layout.store a (Fin.castLE h i)) := by
  rw [castRef, dif_pos h]

theorem castMut_of_le {A B : Type*} [Layout A S] [Layout B S] (h : Layout.size B ≤ Layout.size A) (a : A)
    (f : B → B) : castMut a f = some (Layout.load fun i =>
      if hi : (i : ℕ) < Layout.size B then
        Layout.store (f (Layout.load fun i => Layout.store a (Fin.castLE h i))) ⟨i, hi⟩
      else Layout.store a i) := by
  rw [castMut, dif_pos h]

theorem castRef_self_size {A B : Type*} [Layout A S] [Layout B S] [Spec.LawfulLayout A]
    [Spec.LawfulLayout B] (h : Layout.size A = Layout.size B) (a : A) :
    ∃ b : B, castRef B a = some b ∧ castRef A b = some a := by
  refine ⟨Layout.load fun i => Layout.store a (Fin.castLE h.ge i), castRef_of_le h.ge a, ?_⟩
  rw [castRef_of_le h.le]
  congr 1
  conv_rhs => rw [← Spec.LawfulLayout.load_store a]
  congr 1
  funext i
  rw [Spec.LawfulLayout.store_load (T := B)]
  rfl

/-- Casting a reference and casting it back gives the same value: vectors, points, quaternions, complex
numbers and matrices against arrays, tuples and arrays of columns. -/
theorem C63_cast_round_trip :
    (∀ v : Vec S n, ∃ a : Fin n → S, castRef (Fin n → S) v = some a ∧ castRef (Vec S n) a = some v) ∧
    (∀ p : Pt S n, ∃ a : Fin n → S, castRef (Fin n → S) p = some a ∧ castRef (Pt S n) a = some p) ∧
    (∀ q : Quat S, ∃ a : Fin 4 → S, castRef (Fin 4 → S) q = some a ∧ castRef (Quat S) a = some q) ∧
    (∀ q : Quat S, ∃ t : S × S × S × S, castRef (S × S × S × S) q = some t ∧
      castRef (Quat S) t = some q) ∧
    (∀ z : Cx S, ∃ a : Fin 2 → S, castRef (Fin 2 → S) z = some a ∧ castRef (Cx S) a = some z) ∧
    (∀ z : Cx S, ∃ t : S × S, castRef (S × S) z = some t ∧ castRef (Cx S) t = some z) ∧
    (∀ m : Mat S R C, ∃ a : Fin C → Vec S R, castRef (Fin C → Vec S R) m = some a ∧
      castRef (Mat S R C) a = some m) ∧
    (∀ m : Mat S R C, ∃ a : Fin C → Fin R → S, castRef (Fin C → Fin R → S) m = some a ∧
      castRef (Mat S R C) a = some m) ∧
    (∀ m : Mat S R C, ∃ a : Fin (C * R) → S, castRef (Fin (C * R) → S) m = some a ∧
      castRef (Mat S R C) a = some m) :=
  ⟨castRef_self_size rfl, castRef_self_size rfl, castRef_self_size rfl, castRef_self_size rfl,
    castRef_self_size rfl, castRef_self_size rfl, castRef_self_size rfl, castRef_self_size rfl,
    castRef_self_size rfl⟩

/-- The tuple a vector reference is cast to has the components in order. -/
theorem C63_vector_as_tuple :
    (∀ v : Vec S 2, castRef (S × S) v = some (v.data 0, v.data 1)) ∧
    (∀ v : Vec S 3, castRef (S × S × S) v = some (v.data 0, v.data 1, v.data 2)) ∧
    (∀ v : Vec S 4, castRef (S × S × S × S) v = some (v.data 0, v.data 1, v.data 2, v.data 3)) ∧
    (∀ v : Vec S 2, castRef (S × S) v = some v.toTuple2) ∧
    (∀ v : Vec S 3, castRef (S × S × S) v = some v.toTuple3) ∧
    (∀ v : Vec S 4, castRef (S × S × S × S) v = some v.toTuple4) :=
  ⟨fun _ => rfl, fun _ => rfl, fun _ => rfl, fun _ => rfl, fun _ => rfl, fun _ => rfl⟩

/-- Column `c` of a matrix seen as an array of vectors has the entries of column `c`; element `c * R + r` of
the flat array is the entry in column `c`, row `r`. -/
theorem C63_matrix_as (m : Mat S R C) :
    (∃ cols, m.asColumns = some cols ∧ ∀ c r, (cols c).data r = m.data c r) ∧
    (∃ flat, m.asFlat = some flat ∧ ∀ (c : Fin C) (r : Fin R) (h : (c : ℕ) * R + r < C * R),
      flat ⟨c * R + r, h⟩ = m.data c r) := by
  constructor
  · refine ⟨fun c => ⟨m.data c⟩, ?_, fun _ _ => rfl⟩
    rw [Mat.asColumns, castRef_of_le (le_refl (C * R))]
    congr 1
    funext c
    ext r
    change m.data (finProdFinEquiv.symm (finProdFinEquiv (c, r))).1
      (finProdFinEquiv.symm (finProdFinEquiv (c, r))).2 = m.data c r
    simp
  · refine ⟨Layout.store m, ?_, ?_⟩
    · rw [Mat.asFlat, castRef_of_le (le_refl (C * R))]; rfl
    · intro c r h
      have : (⟨c * R + r, h⟩ : Fin (C * R)) = finProdFinEquiv (c, r) := by
        apply Fin.ext
        simp only [finProdFinEquiv_apply_val]
        rw [Nat.mul_comm, Nat.add_comm]
      rw [this]
      change m.data (finProdFinEquiv.symm (finProdFinEquiv (c, r))).1
        (finProdFinEquiv.symm (finProdFinEquiv (c, r))).2 = m.data c r
      simp

/-- Assigning a column, `m[c] = v`, replaces column `c` and keeps the others. -/
theorem C63_matrix_set_column (m : Mat S R C) (v : Vec S R) :
    (∀ c : Fin C, ∃ m', m.setCol c v = .ok (some m') ∧ (∀ r, m'.data c r = v.data r) ∧
      ∀ c', c' ≠ c → ∀ r, m'.data c' r = m.data c' r) ∧
    (∀ c : ℕ, C ≤ c → m.setCol c v = .error .indexOutOfBounds) := by
  constructor
  · intro c
    refine ⟨⟨Function.update m.data c v.data⟩, ?_, by simp, fun c' h r => by simp [h]⟩
    rw [Mat.setCol, dif_pos c.2, castMut_of_le (le_refl (C * R))]
    congr 2
    ext c' r
    simp only [Layout.load]
    have hlt : (finProdFinEquiv (c', r) : ℕ) < Layout.size (Fin C → Vec S R) :=
      (finProdFinEquiv (c', r)).2
    rw [dif_pos hlt]
    change ((Function.update _ c v : Fin C → Vec S R)
      (finProdFinEquiv.symm (finProdFinEquiv (c', r))).1).data
      (finProdFinEquiv.symm (finProdFinEquiv (c', r))).2 = _
    simp only [Equiv.symm_apply_apply]
    by_cases h : c' = c
    · subst h; simp
    · simp only [ne_eq, h, not_false_eq_true, Function.update_of_ne]
      change m.data (finProdFinEquiv.symm (finProdFinEquiv (c', r))).1
        (finProdFinEquiv.symm (finProdFinEquiv (c', r))).2 = m.data c' r
      simp
  · intro c h
    rw [Mat.setCol, dif_neg (Nat.not_lt.mpr h)]

/-! ### named fields -/

/-- the letters of the first `n` components -/
def Spec.letters : List String := ["x", "y", "z", "w"]

theorem fields_get {names : List String} (x : Fields S names) (k : Fin names.length)
    (h : names.idxOf names[k] = k) : x.get names[k] = some (x.values k) := by
  have : names.idxOf names[k] < names.length := by omega
  rw [Fields.get, dif_pos this]
  congr 2
  exact Fin.ext h

theorem fields_set {names : List String} (x : Fields S names) (k : Fin names.length) (a : S)
    (h : names.idxOf names[k] = k) : x.set names[k] a = ⟨Function.update x.values k a⟩ := by
  have : names.idxOf names[k] < names.length := by omega
  rw [Fields.set, dif_pos this]
  congr 2
  exact Fin.ext h

theorem namedField_of_layout {A : Type*} [Layout A S] [Spec.LawfulLayout A] {names : List String}
    (hn : Layout.size A = names.length) (k : Fin names.length) (h : names.idxOf names[k] = k) :
    Spec.NamedField (fun a : A => Layout.store a)
      (fun a => (castRef (Fields S names) a).bind fun x => x.get names[k])
      (fun a x => castMut a fun f : Fields S names => f.set names[k] x) (Fin.cast hn.symm k) where
  read_eq a := by
    rw [castRef_of_le hn.ge]
    exact fields_get _ _ h
  write_eq a x := by
    refine ⟨Layout.load (Function.update (Layout.store a) (Fin.cast hn.symm k) x), ?_, ?_, ?_⟩
    · rw [castMut_of_le hn.ge]
      congr 2
      funext i
      have hi : (i : ℕ) < Layout.size (Fields S names) := lt_of_lt_of_eq i.2 hn
      rw [dif_pos hi, fields_set _ _ _ h]
      change (Function.update (fun j => Layout.store a (Fin.castLE hn.ge j)) k x : Fin names.length → S)
        ⟨i, hi⟩ = _
      by_cases e : i = Fin.cast hn.symm k
      · subst e
        have : (⟨(Fin.cast hn.symm k : ℕ), hi⟩ : Fin names.length) = k := Fin.ext rfl
        rw [this]; simp
      · have : (⟨(i : ℕ), hi⟩ : Fin names.length) ≠ k := fun e' => e (Fin.ext (by
          have := congrArg Fin.val e'
          simpa using this))
        rw [Function.update_of_ne this, Function.update_of_ne e]
        rfl
    · simp only [Spec.LawfulLayout.store_load]; simp
    · intro j hj
      simp only [Spec.LawfulLayout.store_load]; simp [hj]

/-- `v.x`, `v.y`, `v.z`, `v.w` are components 0, 1, 2, 3 of a vector of dimension at most four, for
reading and for writing. -/
theorem C63_vector_fields (hn : n ≤ 4) (i : Fin n) :
    Spec.NamedField (fun v : Vec S n => v.data)
      (fun v => v.field (Spec.letters[(i : ℕ)]'(by simp [Spec.letters]; omega)))
      (fun v => v.setField (Spec.letters[(i : ℕ)]'(by simp [Spec.letters]; omega))) i := by
  have hl : n = (coordNames n).length := by interval_cases n <;> simp [coordNames]
  have key := namedField_of_layout (A := Vec S n) (names := coordNames n) hl (Fin.cast hl i) (by
    have hnd : (coordNames n).Nodup := by interval_cases n <;> simp [coordNames]
    exact List.Nodup.idxOf_getElem hnd _ _)
  have e : (coordNames n)[Fin.cast hl i] = Spec.letters[(i : ℕ)]'(by simp [Spec.letters]; omega) := by
    clear key
    interval_cases n <;> fin_cases i <;> rfl
  rw [e] at key
  exact key

/-- `p.x`, `p.y`, `p.z` are components 0, 1, 2 of a point of dimension at most three. -/
theorem C63_point_fields (hn : n ≤ 3) (i : Fin n) :
    Spec.NamedField (fun p : Pt S n => p.coords.data)
      (fun v => v.field (Spec.letters[(i : ℕ)]'(by simp [Spec.letters]; omega)))
      (fun v => v.setField (Spec.letters[(i : ℕ)]'(by simp [Spec.letters]; omega))) i := by
  have hl : n = (coordNames n).length := by interval_cases n <;> simp [coordNames]
  have key := namedField_of_layout (A := Pt S n) (names := coordNames n) hl (Fin.cast hl i) (by
    have hnd : (coordNames n).Nodup := by interval_cases n <;> simp [coordNames]
    exact List.Nodup.idxOf_getElem hnd _ _)
  have e : (coordNames n)[Fin.cast hl i] = Spec.letters[(i : ℕ)]'(by simp [Spec.letters]; omega) := by
    clear key
    interval_cases n <;> fin_cases i <;> rfl
  rw [e] at key
  exact key

/-- the name `c<c>r<r>` of an entry -/
def Spec.entryName (c r : ℕ) : String := "c" ++ toString c ++ "r" ++ toString r

/-- The shapes with named entries: up to four rows and columns, except the single columns of two to four rows. -/
theorem C63_view_shapes (p : ℕ × ℕ) :
    p ∈ viewShapes ↔ (1 ≤ p.1 ∧ p.1 ≤ 4) ∧ (1 ≤ p.2 ∧ p.2 ≤ 4) ∧ (p.2 = 1 → p.1 = 1) := by
  obtain ⟨r, c⟩ := p
  simp only [viewShapes, List.mem_cons, Prod.mk.injEq, List.not_mem_nil, or_false]
  omega

/-- `m.c<c>r<r>` is the entry in column `c`, row `r`, for every shape that has named entries. -/
theorem C63_matrix_fields (hs : (R, C) ∈ viewShapes) (c : Fin C) (r : Fin R) :
    Spec.NamedField (fun (m : Mat S R C) (cr : Fin C × Fin R) => m.data cr.1 cr.2)
      (fun m => m.field (Spec.entryName c r)) (fun m => m.setField (Spec.entryName c r)) (c, r) := by
  have hR : R ≤ 4 := by
    have : ∀ p ∈ viewShapes, p.1 ≤ 4 := by decide
    exact this _ hs
  have hC : C ≤ 4 := by
    have : ∀ p ∈ viewShapes, p.2 ≤ 4 := by decide
    exact this _ hs
  have hl : C * R = (viewNames (R, C)).length := by
    have : ∀ p ∈ viewShapes, p.2 * p.1 = (viewNames p).length := by decide
    exact this _ hs
  have hnames : (viewNames (R, C))[Fin.cast hl (finProdFinEquiv (c, r))] = Spec.entryName c r := by
    interval_cases R <;> interval_cases C <;> first
      | (exfalso; revert hs; decide)
      | (revert hl c r; decide +kernel)
  have hidx : (viewNames (R, C)).idxOf (viewNames (R, C))[Fin.cast hl (finProdFinEquiv (c, r))]
      = Fin.cast hl (finProdFinEquiv (c, r)) := by
    have hnd : (viewNames (R, C)).Nodup := by
      have : ∀ p ∈ viewShapes, (viewNames p).Nodup := by decide +kernel
      exact this _ hs
    exact List.Nodup.idxOf_getElem hnd _ _
  have key := namedField_of_layout (A := Mat S R C) (names := viewNames (R, C)) hl
    (Fin.cast hl (finProdFinEquiv (c, r))) hidx
  rw [hnames] at key
  have hst : ∀ (m : Mat S R C) (k : Fin (C * R)), (Layout.store m k : S)
      = m.data (finProdFinEquiv.symm k).1 (finProdFinEquiv.symm k).2 := fun _ _ => rfl
  refine ⟨fun m => ?_, fun m x => ?_⟩
  · have := key.read_eq m
    refine this.trans ?_
    congr 1
    refine (hst m _).trans ?_
    change m.data (finProdFinEquiv.symm (finProdFinEquiv (c, r))).1
      (finProdFinEquiv.symm (finProdFinEquiv (c, r))).2 = m.data c r
    simp
  · obtain ⟨t, h1, h2, h3⟩ := key.write_eq m x
    refine ⟨t, h1, ?_, ?_⟩
    · refine Eq.trans ?_ h2
      refine Eq.trans ?_ (hst t _).symm
      change t.data c r = t.data (finProdFinEquiv.symm (finProdFinEquiv (c, r))).1
        (finProdFinEquiv.symm (finProdFinEquiv (c, r))).2
      simp
    · rintro ⟨c', r'⟩ hne
      have := h3 (finProdFinEquiv (c', r')) (fun e => hne (finProdFinEquiv.injective (by
        exact Fin.ext (congrArg Fin.val e))))
      have e1 := hst t (finProdFinEquiv (c', r'))
      have e2 := hst m (finProdFinEquiv (c', r'))
      simp only [Equiv.symm_apply_apply] at e1 e2
      exact (e1.symm.trans this).trans e2

/-- `q.s` is the scalar part and `q.v` the vector part, for reading and for writing. -/
theorem C63_quaternion_fields (q : Quat S) :
    (∃ view, q.deref = some view ∧ view.s = q.scalar ∧ view.v = q.vector) ∧
    (∀ a, ∃ q', q.derefMut (fun x => { x with s := a }) = some q' ∧ q'.scalar = a ∧
      q'.vector = q.vector) ∧
    (∀ w, ∃ q', q.derefMut (fun x => { x with v := w }) = some q' ∧ q'.scalar = q.scalar ∧
      q'.vector = w) := by
  refine ⟨⟨_, rfl, rfl, rfl⟩, fun a => ⟨_, rfl, rfl, rfl⟩, fun w => ⟨_, rfl, rfl, ?_⟩⟩
  ext i; fin_cases i <;> rfl

/-! ### lengths, pointers, slices -/

theorem C63_lengths (v : Vec S n) (p : Pt S n) (q : Quat S) (z : Cx S) (m : Mat S R C) :
    v.len = n ∧ v.shape = (n, 1) ∧ (v.isEmpty = true ↔ n = 0) ∧ v.asSlice.length = v.len ∧
    p.len = n ∧ p.shape = (n, 1) ∧ (p.isEmpty = true ↔ n = 0) ∧ p.asSlice.length = p.len ∧
    q.len = 4 ∧ q.shape = (4, 1) ∧ q.isEmpty = false ∧ q.asSlice.length = q.len ∧
    z.len = 2 ∧ z.shape = (2, 1) ∧ z.isEmpty = false ∧ (z.asSlice.map List.length) = some z.len ∧
    m.len = R * C ∧ m.shape = (R, C) ∧ (m.isEmpty = true ↔ R = 0 ∨ C = 0) ∧
    (m.asSlice.map List.length) = some m.len := by
  have hm : (m.asSlice.map List.length) = some m.len := by
    rw [Mat.asSlice, Mat.asFlat, castRef_of_le (le_refl (C * R))]
    simp [Mat.len, Nat.mul_comm]
  simp [Vec.len, Vec.shape, Vec.isEmpty, Vec.asSlice, Pt.len, Pt.shape, Pt.isEmpty, Pt.asSlice,
    Quat.len, Quat.shape, Quat.isEmpty, Quat.asSlice, Cx.len, Cx.shape, Cx.isEmpty,
    Mat.len, Mat.shape, Mat.isEmpty, hm]
  exact ⟨_, rfl, rfl⟩

/-- Element `i` of the slice is component `i`; for a matrix, element `c * R + r` is the entry in column
`c`, row `r`. -/
theorem C63_slices (v : Vec S n) (p : Pt S n) (q : Quat S) (z : Cx S) (m : Mat S R C) :
    (∀ i : Fin n, v.asSlice[(i : ℕ)]? = some (v.data i)) ∧
    (∀ i : Fin n, p.asSlice[(i : ℕ)]? = some (p.coords.data i)) ∧
    q.asSlice = [q.scalar, q.vector.data 0, q.vector.data 1, q.vector.data 2] ∧
    z.asSlice = some [z.re, z.im] ∧
    (∃ l, m.asSlice = some l ∧ ∀ (c : Fin C) (r : Fin R), l[(c : ℕ) * R + r]? = some (m.data c r)) := by
  refine ⟨fun i => by simp [Vec.asSlice], fun i => by simp [Pt.asSlice, Vec.asSlice], ?_, rfl, ?_⟩
  · simp [Quat.asSlice, Vec.asSlice, List.ofFn_succ]
    exact ⟨rfl, rfl, rfl, rfl⟩
  · obtain ⟨flat, h1, h2⟩ := (C63_matrix_as m).2
    refine ⟨List.ofFn flat, by rw [Mat.asSlice, h1]; rfl, fun c r => ?_⟩
    have hlt : (c : ℕ) * R + r < C * R := by
      calc (c : ℕ) * R + r < c * R + R := by omega
        _ = (c + 1) * R := by ring
        _ ≤ C * R := Nat.mul_le_mul_right _ c.2
    rw [List.getElem?_ofFn, dif_pos hlt, h2]

/-- `v[lo..hi]` holds the components `lo, ..., hi - 1` when `lo ≤ hi ≤ n` and panics otherwise. -/
theorem C63_vector_range (v : Vec S n) (lo hi : ℕ) :
    (lo ≤ hi → hi ≤ n → ∃ l, v.indexRange lo hi = .ok l ∧ l.length = hi - lo ∧
      ∀ k (hk : k < hi - lo) (hn : lo + k < n), l[k]? = some (v.data ⟨lo + k, hn⟩)) ∧
    (¬ (lo ≤ hi ∧ hi ≤ n) → v.indexRange lo hi = .error .indexOutOfBounds) ∧
    v.indexRangeTo hi = v.indexRange 0 hi ∧ v.indexRangeFrom lo = v.indexRange lo n ∧
    v.indexRange 0 n = .ok v.indexRangeFull := by
  refine ⟨fun h1 h2 => ?_, fun h => ?_, rfl, rfl, ?_⟩
  · refine ⟨_, by rw [Vec.indexRange, sliceRange, if_pos ⟨h1, by simpa [Vec.asSlice] using h2⟩], ?_, ?_⟩
    · simp [Vec.asSlice]; omega
    · intro k hk hn
      rw [List.getElem?_take, if_pos hk, List.getElem?_drop]
      simp [Vec.asSlice, hn]
  · rw [Vec.indexRange, sliceRange, if_neg (by simpa [Vec.asSlice] using h)]
  · rw [Vec.indexRange, sliceRange, if_pos ⟨Nat.zero_le _, by simp [Vec.asSlice]⟩]
    congr 1
    simp only [List.drop_zero, Nat.sub_zero, Vec.indexRangeFull]
    rw [List.take_of_length_le (by simp [Vec.asSlice])]

/-- ranges of points and quaternions are ranges of their coordinates -/
theorem C63_range_point_quaternion (p : Pt S n) (q : Quat S) (lo hi : ℕ) :
    p.indexRange lo hi = p.toVector.indexRange lo hi ∧
    q.indexRange lo hi = (Vec.new4 q.scalar (q.vector.data 0) (q.vector.data 1)
      (q.vector.data 2)).indexRange lo hi := by
  refine ⟨rfl, ?_⟩
  have : Vec.new4 q.scalar (q.vector.data 0) (q.vector.data 1) (q.vector.data 2) = q.coords := by
    ext i; fin_cases i <;> rfl
  rw [this]; rfl

/-- The pointer to the components exists exactly when there is a component; `as_ptr` of an empty vector or
matrix panics. -/
theorem C63_pointers (v : Vec S n) (p : Pt S n) (m : Mat S R C) :
    (0 < n → v.asPtr = .ok v.data) ∧ (n = 0 → v.asPtr = .error .indexOutOfBounds) ∧
    (0 < n → p.asPtr = .ok p.coords.data) ∧ (n = 0 → p.asPtr = .error .indexOutOfBounds) ∧
    (0 < R → 0 < C → ∃ w, m.asPtr = .ok w ∧ ∀ (c : Fin C) (r : Fin R) h,
      w ⟨c * R + r, h⟩ = m.data c r) ∧
    (R = 0 ∨ C = 0 → m.asPtr = .error .indexOutOfBounds) := by
  refine ⟨fun h => by simp [Vec.asPtr, readAt, h, Except.map],
    fun h => by subst h; simp [Vec.asPtr, readAt, Except.map],
    fun h => by simp [Pt.asPtr, Vec.asPtr, readAt, h, Except.map],
    fun h => by subst h; simp [Pt.asPtr, Vec.asPtr, readAt, Except.map], fun hR hC => ?_, fun h => ?_⟩
  · obtain ⟨flat, h1, h2⟩ := (C63_matrix_as m).2
    refine ⟨Layout.store m, by simp [Mat.asPtr, Mat.get?, readAt, hR, hC, Except.map, Except.bind], ?_⟩
    have : flat = Layout.store m := by
      rw [Mat.asFlat, castRef_of_le (le_refl (C * R))] at h1
      exact (Option.some.inj h1).symm
    subst this
    exact h2
  · by_cases hC : 0 < C
    · have hR : R = 0 := by omega
      subst hR
      simp [Mat.asPtr, Mat.get?, readAt, hC, Except.map, Except.bind]
    · simp [Mat.asPtr, Mat.get?, readAt, hC, Except.map, Except.bind]

/-! ### construction and conversion by value -/

theorem C63_new (a b c d : S) :
    (Vec.new1 a).data 0 = a ∧
    ((Vec.new2 a b).data 0 = a ∧ (Vec.new2 a b).data 1 = b) ∧
    ((Vec.new3 a b c).data 0 = a ∧ (Vec.new3 a b c).data 1 = b ∧ (Vec.new3 a b c).data 2 = c) ∧
    ((Vec.new4 a b c d).data 0 = a ∧ (Vec.new4 a b c d).data 1 = b ∧ (Vec.new4 a b c d).data 2 = c ∧
      (Vec.new4 a b c d).data 3 = d) ∧
    (Vec.new1 a).toScalar = a ∧
    (Pt.new1 a).coords = Vec.new1 a ∧ (Pt.new2 a b).coords = Vec.new2 a b ∧
    (Pt.new3 a b c).coords = Vec.new3 a b c ∧
    ((Quat.new a b c d).scalar = a ∧ (Quat.new a b c d).vector = Vec.new3 b c d) ∧
    ((Cx.new a b).re = a ∧ (Cx.new a b).im = b ∧ (Cx.new a b).real = a ∧ (Cx.new a b).imaginary = b) := by
  simp [Vec.new1, Vec.new2, Vec.new3, Vec.new4, Vec.toScalar, Pt.new1, Pt.new2, Pt.new3, Quat.new,
    Quat.scalar, Quat.vector, Cx.new, Cx.real, Cx.imaginary]

/-- `from_fill` puts the value in every component. -/
theorem C63_from_fill (x : S) :
    (∀ i, (Vec.fromFill x : Vec S n).data i = x) ∧ (∀ i, (Pt.fromFill x : Pt S n).coords.data i = x) ∧
    (Quat.fromFill x).scalar = x ∧ (∀ i, (Quat.fromFill x).vector.data i = x) := by
  refine ⟨fun _ => rfl, fun _ => rfl, rfl, fun i => by fin_cases i <;> rfl⟩

/-- `map` applies the function to every component. -/
theorem C63_map (f : S → T) (v : Vec S n) (p : Pt S n) (q : Quat S) (z : Cx S) :
    (∀ i, (v.map f).data i = f (v.data i)) ∧ (∀ i, (p.map f).coords.data i = f (p.coords.data i)) ∧
    (q.map f).scalar = f q.scalar ∧ (∀ i, (q.map f).vector.data i = f (q.vector.data i)) ∧
    (z.map f).re = f z.re ∧ (z.map f).im = f z.im := by
  refine ⟨fun _ => rfl, fun _ => rfl, rfl, fun i => by fin_cases i <;> rfl, rfl, rfl⟩

/-- Arrays and tuples convert to the value with those components in that order, and back. -/
theorem C63_conversions :
    (∀ v : Vec S n, Vec.fromArray v.toArray = v) ∧
    (∀ a : Fin n → S, (Vec.fromArray a).toArray = a ∧ ∀ i, (Vec.fromArray a).data i = a i) ∧
    (∀ p : Pt S n, Pt.fromArray p.toArray = p) ∧
    (∀ a : Fin n → S, (Pt.fromArray a).toArray = a ∧ ∀ i, (Pt.fromArray a).coords.data i = a i) ∧
    (∀ q : Quat S, Quat.fromArray q.toArray = q) ∧
    (∀ a : Fin 4 → S, (Quat.fromArray a).toArray = a ∧ (Quat.fromArray a).scalar = a 0) ∧
    (∀ z : Cx S, z.toArray.map Cx.fromArray = some z) ∧
    (∀ a : Fin 2 → S, (Cx.fromArray a).toArray = some a) ∧
    (∀ t : S × S, (Vec.fromTuple2 t).toTuple2 = t ∧ (Vec.fromTuple2 t).data = ![t.1, t.2]) ∧
    (∀ t : S × S × S, (Vec.fromTuple3 t).toTuple3 = t ∧
      (Vec.fromTuple3 t).data = ![t.1, t.2.1, t.2.2]) ∧
    (∀ t : S × S × S × S, (Vec.fromTuple4 t).toTuple4 = t ∧
      (Vec.fromTuple4 t).data = ![t.1, t.2.1, t.2.2.1, t.2.2.2]) ∧
    (∀ t : S × S, (Pt.fromTuple2 t).coords = Vec.fromTuple2 t) ∧
    (∀ t : S × S × S, (Pt.fromTuple3 t).coords = Vec.fromTuple3 t) ∧
    (∀ t : S × S × S × S, castRef (S × S × S × S) (Quat.fromTuple t) = some t) ∧
    (∀ t : S × S, castRef (S × S) (Cx.fromTuple t) = some t) ∧
    (∀ (a : Fin C → Fin R → S) c r, (Mat.fromArray2 a).data c r = a c r) := by
  refine ⟨fun _ => rfl, fun _ => ⟨rfl, fun _ => rfl⟩, fun _ => rfl, fun _ => ⟨rfl, fun _ => rfl⟩,
    fun q => ?_, fun a => ⟨?_, rfl⟩, fun z => rfl, fun a => ?_, fun _ => ⟨rfl, rfl⟩,
    fun _ => ⟨rfl, rfl⟩, fun _ => ⟨rfl, rfl⟩, fun _ => rfl, fun _ => rfl, fun _ => rfl, fun _ => rfl,
    fun _ _ _ => rfl⟩
  · ext i; fin_cases i <;> rfl
  · funext i; fin_cases i <;> rfl
  · change some _ = some _
    congr 1; funext i; fin_cases i <;> rfl

/-- A four-dimensional vector converts to the three-dimensional vector of its first three components. -/
theorem C63_truncate (v : Vec S 4) :
    v.truncate4.data 0 = v.data 0 ∧ v.truncate4.data 1 = v.data 1 ∧ v.truncate4.data 2 = v.data 2 := by
  simp [Vec.truncate4, Vec.new3]

/-- The unit vectors have one component 1 and the others 0. -/
theorem C63_unit_vectors [Zero S] [One S] :
    (Vec.unitX1 : Vec S 1).data = Pi.single 0 1 ∧
    (Vec.unitX2 : Vec S 2).data = Pi.single 0 1 ∧ (Vec.unitY2 : Vec S 2).data = Pi.single 1 1 ∧
    (Vec.unitX3 : Vec S 3).data = Pi.single 0 1 ∧ (Vec.unitY3 : Vec S 3).data = Pi.single 1 1 ∧
    (Vec.unitZ3 : Vec S 3).data = Pi.single 2 1 ∧
    (Vec.unitX4 : Vec S 4).data = Pi.single 0 1 ∧ (Vec.unitY4 : Vec S 4).data = Pi.single 1 1 ∧
    (Vec.unitZ4 : Vec S 4).data = Pi.single 2 1 ∧ (Vec.unitW4 : Vec S 4).data = Pi.single 3 1 := by
  refine ⟨?_, ?_, ?_, ?_, ?_, ?_, ?_, ?_, ?_, ?_⟩ <;> funext i <;> fin_cases i <;> rfl

end

/-! ### concrete cases -/

example : (⟨![10, 20, 30]⟩ : Vec ℕ 3).field "y" = some 20 := by rfl
example : (⟨![10, 20, 30]⟩ : Vec ℕ 3).field "w" = none := by rfl
example : (Mat.mk ![![1, 2], ![3, 4], ![5, 6]] : Mat ℕ 2 3).field "c2r0" = some 5 := by rfl
example : (Mat.mk ![![1, 2], ![3, 4], ![5, 6]] : Mat ℕ 2 3).asSlice = some [1, 2, 3, 4, 5, 6] := by rfl
example : (⟨![10, 20, 30]⟩ : Vec ℕ 3).indexRange 1 3 = .ok [20, 30] := by rfl
example : (⟨![10, 20, 30]⟩ : Vec ℕ 3).index 3 = .error .indexOutOfBounds := by rfl
example : (2, 3) ∈ viewShapes := by decide

end Cgl
