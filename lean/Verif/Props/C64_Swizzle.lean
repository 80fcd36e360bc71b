import Verif.Model.Swizzle
import Verif.Lemmas.Loop

/-! # C64 - swizzles

The method whose name is the word `w` over the letters `x y z w` returns the components the letters
name, in that order. The tables of methods are finite and fixed by the source, so the part of the claim
that concerns names is settled by evaluating it over the whole table in the kernel; the part that concerns
vectors is proved for every vector. -/

namespace Cgl

/-- the component a letter names: `x` is 0, `y` is 1, `z` is 2, `w` is 3 -/
def Spec.letterIndex (c : Char) : Option ℕ :=
  if c = 'x' then some 0 else if c = 'y' then some 1 else if c = 'z' then some 2
  else if c = 'w' then some 3 else none

/-- what the method called `name`, from dimension `n` to dimension `m`, must return on components `a` -/
def Spec.SwizzleResult {S : Type*} {n m : ℕ} (name : String) (a : Fin n → S) (b : Fin m → S) : Prop :=
  name.toList.length = m ∧
  ∀ (k : Fin m) (c : Char), name.toList[(k : ℕ)]? = some c →
    ∃ i : Fin n, Spec.letterIndex c = some (i : ℕ) ∧ b k = a i

/-- all words of length `k` over the first `n` letters -/
def Spec.words (n : ℕ) : ℕ → List (List Char)
  | 0 => [[]]
  | k + 1 => (['x', 'y', 'z', 'w'].take n).flatMap fun c => (Spec.words n k).map (c :: ·)

/-- the row is well formed: as many letters as components of the result, as many indices as letters,
every letter names its index and every index is in range -/
def swizzleOk (s : Swizzle) : Bool :=
  s.name.toList.length == s.target && s.indices.length == s.target &&
    (s.name.toList.map Spec.letterIndex == s.indices.map some) && s.indices.all (· < s.source)

theorem vectorSwizzles_ok : ∀ s ∈ vectorSwizzles, swizzleOk s = true := by decide +kernel
theorem pointSwizzles_ok : ∀ s ∈ pointSwizzles, swizzleOk s = true := by decide +kernel

theorem mapM_readAt {S : Type*} {n : ℕ} (a : Fin n → S) :
    ∀ l : List ℕ, l.all (· < n) = true →
      ∃ r : List S, l.mapM (fun i => readAt a i) = Except.ok r ∧ r.length = l.length ∧
        ∀ (k i : ℕ), l[k]? = some i → ∃ h : i < n, r[k]? = some (a ⟨i, h⟩)
  | [], _ => ⟨[], rfl, rfl, by simp⟩
  | i :: l, h => by
    simp only [List.all_cons, Bool.and_eq_true, decide_eq_true_eq] at h
    obtain ⟨r, h1, h2, h3⟩ := mapM_readAt a l h.2
    refine ⟨a ⟨i, h.1⟩ :: r, ?_, by simp [h2], ?_⟩
    · rw [List.mapM_cons, h1]
      simp only [readAt, h.1, dif_pos]
      rfl
    · rintro (_ | k) j hj
      · simp only [List.getElem?_cons_zero, Option.some.injEq] at hj
        subst hj
        exact ⟨h.1, rfl⟩
      · simpa using h3 k j (by simpa using hj)

theorem swizzle_core {S : Type*} (s : Swizzle) (hs : swizzleOk s = true) (a : Fin s.source → S) :
    ∃ (r : List S) (h : r.length = s.target), s.indices.mapM (fun i => readAt a i) = Except.ok r ∧
      Spec.SwizzleResult s.name a (fun i : Fin s.target => r[(i : ℕ)]'(by omega)) := by
  simp only [swizzleOk, Bool.and_eq_true, beq_iff_eq] at hs
  obtain ⟨⟨⟨h1, h2⟩, h3⟩, h4⟩ := hs
  obtain ⟨r, e1, e2, e3⟩ := mapM_readAt a s.indices h4
  refine ⟨r, e2.trans h2, e1, h1, fun k c hc => ?_⟩
  have hk : (s.indices.map some)[(k : ℕ)]? = some (Spec.letterIndex c) := by
    rw [← h3, List.getElem?_map, hc]; rfl
  rw [List.getElem?_map] at hk
  obtain ⟨i, hi, hi'⟩ := Option.map_eq_some_iff.mp hk
  obtain ⟨hlt, hr⟩ := e3 k i hi
  refine ⟨⟨i, hlt⟩, hi'.symm, ?_⟩
  rw [List.getElem?_eq_some_iff] at hr
  exact hr.2

/-- Every swizzle method of a vector succeeds, and its result has as many components as the name has
letters, component `k` being the component the `k`-th letter names. -/
theorem C64_vector {S : Type*} (s : Swizzle) (hs : s ∈ vectorSwizzles) (v : Vec S s.source) :
    ∃ w : Vec S s.target, s.apply v = .ok (some w) ∧ Spec.SwizzleResult s.name v.data w.data := by
  obtain ⟨r, h, e, hr⟩ := swizzle_core s (vectorSwizzles_ok s hs) v.data
  refine ⟨⟨fun i => r[(i : ℕ)]'(by omega)⟩, ?_, hr⟩
  rw [Swizzle.apply, e]
  simp only [Except.map, arrayOfList, h, dif_pos, Option.map_some]
  rfl

/-- The same for points. -/
theorem C64_point {S : Type*} (s : Swizzle) (hs : s ∈ pointSwizzles) (p : Pt S s.source) :
    ∃ q : Pt S s.target, s.applyPoint p = .ok (some q) ∧
      Spec.SwizzleResult s.name p.coords.data q.coords.data := by
  obtain ⟨r, h, e, hr⟩ := swizzle_core s (pointSwizzles_ok s hs) p.coords.data
  refine ⟨⟨⟨fun i => r[(i : ℕ)]'(by omega)⟩⟩, ?_, hr⟩
  have e' : (s.indices.mapM fun i => p.index i) = Except.ok r := e
  rw [Swizzle.applyPoint, e']
  simp only [Except.map, arrayOfList, h, dif_pos, Option.map_some]
  rfl

/-- the methods a type of dimension `n` should have, in the order of the source -/
def expectedSwizzles (dims : List ℕ) : List (String × ℕ × ℕ) :=
  dims.flatMap fun n => (List.range n).flatMap fun k =>
    (Spec.words n (k + 1)).map fun w => (String.ofList w, n, k + 1)

/-- an injective-enough code, increasing along the source -/
def swizzleCode (p : String × ℕ) : ℕ :=
  p.1.toList.foldl (fun a c => 5 * a + ((Spec.letterIndex c).getD 0 + 1)) 0 + 10000 * p.2

theorem vectorSwizzles_expected :
    vectorSwizzles.map (fun s => (s.name, s.source, s.target)) = expectedSwizzles [1, 2, 3, 4] := by
  decide +kernel

theorem pointSwizzles_expected :
    pointSwizzles.map (fun s => (s.name, s.source, s.target)) = expectedSwizzles [1, 2, 3] := by
  decide +kernel

theorem vectorSwizzles_chain :
    ((vectorSwizzles.map fun s => (s.name, s.source)).map swizzleCode).IsChain (· < ·) := by
  decide +kernel

theorem pointSwizzles_chain :
    ((pointSwizzles.map fun s => (s.name, s.source)).map swizzleCode).IsChain (· < ·) := by
  decide +kernel

theorem complete_of_expected {l : List Swizzle} {dims : List ℕ}
    (h : l.map (fun s => (s.name, s.source, s.target)) = expectedSwizzles dims)
    (n : ℕ) (hn : n ∈ dims) (k : ℕ) (hk : k < n) (w : List Char) (hw : w ∈ Spec.words n (k + 1)) :
    ∃ s ∈ l, s.name = String.ofList w ∧ s.source = n ∧ s.target = k + 1 := by
  have : (String.ofList w, n, k + 1) ∈ l.map (fun s => (s.name, s.source, s.target)) := by
    rw [h, expectedSwizzles]
    exact List.mem_flatMap.mpr ⟨n, hn, List.mem_flatMap.mpr ⟨k, List.mem_range.mpr hk,
      List.mem_map.mpr ⟨w, hw, rfl⟩⟩⟩
  obtain ⟨s, hs, e⟩ := List.mem_map.mp this
  simp only [Prod.mk.injEq] at e
  exact ⟨s, hs, e.1, e.2.1, e.2.2⟩

theorem nodup_of_chain {l : List (String × ℕ)} (h : (l.map swizzleCode).IsChain (· < ·)) : l.Nodup := by
  rw [List.isChain_iff_pairwise] at h
  have : (l.map swizzleCode).Nodup := h.imp (fun hab => Nat.ne_of_lt hab)
  exact List.Nodup.of_map _ this

/-- membership in `Spec.words` is what one expects: `k` letters, each among the first `n` -/
theorem mem_words (n k : ℕ) (w : List Char) :
    w ∈ Spec.words n k ↔ w.length = k ∧ ∀ c ∈ w, c ∈ ['x', 'y', 'z', 'w'].take n := by
  induction k generalizing w with
  | zero => simp only [Spec.words, List.mem_singleton, List.length_eq_zero_iff]
            exact ⟨fun h => ⟨h, by simp [h]⟩, fun h => h.1⟩
  | succ k ih =>
    simp only [Spec.words, List.mem_flatMap, List.mem_map]
    constructor
    · rintro ⟨c, hc, u, hu, rfl⟩
      have := (ih u).mp hu
      refine ⟨by simp [this.1], ?_⟩
      rintro d hd
      rcases List.mem_cons.mp hd with rfl | hd
      · exact hc
      · exact this.2 d hd
    · rintro ⟨h1, h2⟩
      obtain ⟨c, u, rfl⟩ := List.exists_cons_of_length_eq_add_one h1
      exact ⟨c, h2 c (by simp), u, (ih u).mpr ⟨by simpa using h1, fun d hd => h2 d (by simp [hd])⟩, rfl⟩

/-- Every nonempty word of length at most `n` over the first `n` letters is a method of `VectorN`,
`n ≤ 4`, with a result of the dimension of the word; and no method is declared twice. -/
theorem C64_vector_complete :
    (∀ n, 1 ≤ n → n ≤ 4 → ∀ w : List Char, 1 ≤ w.length → w.length ≤ n →
      (∀ c ∈ w, c ∈ ['x', 'y', 'z', 'w'].take n) →
      ∃ s ∈ vectorSwizzles, s.name = String.ofList w ∧ s.source = n ∧ s.target = w.length) ∧
    (vectorSwizzles.map fun s => (s.name, s.source)).Nodup := by
  refine ⟨fun n h1 h4 w w1 wn hw => ?_, nodup_of_chain vectorSwizzles_chain⟩
  obtain ⟨k, hk⟩ : ∃ k, w.length = k + 1 := ⟨w.length - 1, by omega⟩
  rw [hk]
  exact complete_of_expected vectorSwizzles_expected n (by simp; omega) k (by omega) w
    ((mem_words n (k + 1) w).mpr ⟨hk, hw⟩)

/-- The same for `PointN`, `n ≤ 3`. -/
theorem C64_point_complete :
    (∀ n, 1 ≤ n → n ≤ 3 → ∀ w : List Char, 1 ≤ w.length → w.length ≤ n →
      (∀ c ∈ w, c ∈ ['x', 'y', 'z', 'w'].take n) →
      ∃ s ∈ pointSwizzles, s.name = String.ofList w ∧ s.source = n ∧ s.target = w.length) ∧
    (pointSwizzles.map fun s => (s.name, s.source)).Nodup := by
  refine ⟨fun n h1 h4 w w1 wn hw => ?_, nodup_of_chain pointSwizzles_chain⟩
  obtain ⟨k, hk⟩ : ∃ k, w.length = k + 1 := ⟨w.length - 1, by omega⟩
  rw [hk]
  exact complete_of_expected pointSwizzles_expected n (by simp; omega) k (by omega) w
    ((mem_words n (k + 1) w).mpr ⟨hk, hw⟩)

/-- a swizzle that permutes the letters is undone by the inverse permutation: for instance `zxy` after
`yzx` is the identity, whatever the components -/
theorem C64_round_trip {S : Type*} (v : Vec S 3) (s t : Swizzle) (hs : s ∈ vectorSwizzles)
    (ht : t ∈ vectorSwizzles) (s1 : s.name = "yzx") (s2 : s.source = 3)
    (t1 : t.name = "zxy") (t2 : t.source = 3) :
    ∃ w : Vec S 3, s.apply v = .ok (some w) ∧ t.apply w = .ok (some v) := by
  have e1 : s = ⟨"yzx", 3, 3, [1, 2, 0]⟩ := by
    revert s1 s2 hs; revert s; decide +kernel
  have e2 : t = ⟨"zxy", 3, 3, [2, 0, 1]⟩ := by
    revert t1 t2 ht; revert t; decide +kernel
  subst e1 e2
  refine ⟨⟨![v.data 1, v.data 2, v.data 0]⟩, ?_, ?_⟩
  · change Except.ok (some (Vec.mk _)) = _
    congr 3; funext i; fin_cases i <;> rfl
  · change Except.ok (some (Vec.mk _)) = _
    congr 2; ext i; fin_cases i <;> rfl

example : (⟨"wzyx", 4, 4, [3, 2, 1, 0]⟩ : Swizzle) ∈ vectorSwizzles := by decide +kernel

example : (⟨"wzyx", 4, 4, [3, 2, 1, 0]⟩ : Swizzle).apply (⟨![1, 2, 3, 4]⟩ : Vec ℕ 4)
    = .ok (some (⟨![4, 3, 2, 1]⟩ : Vec ℕ 4)) := by
  change Except.ok (some (Vec.mk _)) = _
  congr 3; funext i; fin_cases i <;> rfl

/-- the specification is not vacuous: a wrong index violates it -/
example : ¬ Spec.SwizzleResult "yx" (![1, 2] : Fin 2 → ℕ) (![1, 2] : Fin 2 → ℕ) := by
  rintro ⟨-, h⟩
  obtain ⟨i, h1, h2⟩ := h 0 'y' (by decide +kernel)
  have : i = 1 := by
    apply Fin.ext
    have : Spec.letterIndex 'y' = some 1 := by decide
    rw [this] at h1
    simpa using h1.symm
  subst this
  simp at h2

end Cgl
