import Verif.Model.Display
import Verif.Lemmas.Matrix

/-! # C65 - the printed form

`Display` writes every component, in order, exactly once, and the text determines the value. The scalar's own
`Display` is a parameter `d`. -/

namespace Cgl

/-- the components of a row, printed and separated by commas -/
def Spec.row {S : Type*} {n : ℕ} (d : S → String) (a : Fin n → S) : String :=
  ", ".intercalate (List.ofFn fun i => d (a i))

variable {S : Type*} (d : S → String) {n R C : ℕ} (checked : Bool)

theorem toList_intercalate (s : String) (l : List String) :
    (s.intercalate l).toList = s.toList.intercalate (l.map String.toList) := by
  simp

theorem intercalate_snoc {α : Type*} (sep x : List α) (l : List (List α)) :
    sep.intercalate (l ++ [x]) = (l.map (· ++ sep)).flatten ++ x := by
  induction l with
  | nil => simp
  | cons y l ih =>
    rw [List.cons_append, List.map_cons, List.flatten_cons, List.append_assoc, List.append_assoc, ← ih]
    cases l with
    | nil => simp [List.intercalate]
    | cons z l => rw [List.cons_append, List.intercalate_cons_cons, List.append_assoc]

/-- the text of the first `k` entries, each followed by a comma -/
theorem displayRow_eq (a : Fin (n + 1) → S) (s : String) :
    displayRow d a n s = .ok (s ++ Spec.row d a ++ "]") := by
  have key := forRangeE_ok_of (n := n) (s := s)
    (b := fun i s => (readAt a i).map fun x => s ++ d x ++ ", ")
    (fun k t => ∀ h : k ≤ n, t.toList = s.toList ++
      ((List.ofFn fun i : Fin k => (d (a (Fin.castLE (by omega) i))).toList ++ [',', ' ']).flatten))
    (by simp) (by
      intro i t ht
      refine ⟨t ++ d (a i.castSucc) ++ ", ", ?_, ?_⟩
      · rw [readAt_of_lt _ (by omega : (i : ℕ) < n + 1)]; rfl
      · intro h
        have := ht (by omega)
        rw [String.toList_append, String.toList_append, this, List.ofFn_succ_last]
        simp [List.append_assoc]
        rfl)
  obtain ⟨t, h1, h2⟩ := key
  rw [displayRow, h1]
  have h3 := h2 le_rfl
  simp only [Except.bind, readAt_of_lt _ (Nat.lt_succ_self n), Except.map, Except.ok.injEq]
  apply String.toList_injective
  rw [String.toList_append, String.toList_append, h3, String.toList_append, String.toList_append, Spec.row,
    toList_intercalate]
  simp only [List.append_assoc, List.append_cancel_left_eq]
  rw [← List.append_assoc]
  congr 1
  rw [List.map_ofFn, List.ofFn_succ_last, intercalate_snoc, List.map_ofFn]
  rfl

/-- `usizeSub` at zero, in both kinds of build -/
theorem usizeSub_checked : usizeSub true 0 1 = .error .arithmeticOverflow := by
  simp [usizeSub]

theorem usizeSub_wraps : ∃ k, 0 < k ∧ usizeSub false 0 1 = .ok k := by
  refine ⟨2 ^ 64 + 0 - 1, by norm_num, ?_⟩
  rw [usizeSub, if_neg (by norm_num), if_neg (by simp)]

theorem displayRow_empty (a : Fin 0 → S) (k : ℕ) (s : String) :
    displayRow d a k s = .error .indexOutOfBounds := by
  have hr : ∀ i, readAt a i = .error .indexOutOfBounds := fun i => readAt_of_ge _ (Nat.zero_le i)
  rcases Nat.eq_zero_or_pos k with rfl | hk
  · simp [displayRow, hr, forRangeE, Except.bind, Except.map]
  · rw [displayRow, forRangeE_error_of (e := .indexOutOfBounds) hk]
    · rfl
    · intro i t; rw [hr]; rfl

/-- A nonempty vector prints as `VectorN [v0, v1, ...]`. -/
theorem C65_vector (v : Vec S n) (hn : 0 < n) :
    v.display d checked = .ok ("Vector" ++ toString n ++ " [" ++ Spec.row d v.data ++ "]") := by
  obtain ⟨n, rfl⟩ : ∃ k, n = k + 1 := ⟨n - 1, by omega⟩
  simp only [Vec.display, usizeSub, Nat.le_add_left, if_true, Except.bind, Nat.add_sub_cancel]
  rw [displayRow_eq]

/-- A nonempty point prints as `PointN [p0, p1, ...]`. -/
theorem C65_point (p : Pt S n) (hn : 0 < n) :
    p.display d checked = .ok ("Point" ++ toString n ++ " [" ++ Spec.row d p.coords.data ++ "]") := by
  obtain ⟨n, rfl⟩ : ∃ k, n = k + 1 := ⟨n - 1, by omega⟩
  simp only [Pt.display, usizeSub, Nat.le_add_left, if_true, Except.bind, Nat.add_sub_cancel]
  rw [displayRow_eq]

/-- Printing an empty vector or point panics: by overflow when overflow checks are on, by an index out of
range otherwise. -/
theorem C65_empty (v : Vec S 0) (p : Pt S 0) :
    v.display d true = .error .arithmeticOverflow ∧ v.display d false = .error .indexOutOfBounds ∧
    p.display d true = .error .arithmeticOverflow ∧ p.display d false = .error .indexOutOfBounds := by
  refine ⟨by simp [Vec.display, usizeSub_checked, Except.bind], ?_,
    by simp [Pt.display, usizeSub_checked, Except.bind], ?_⟩
  · obtain ⟨k, -, hk⟩ := usizeSub_wraps
    rw [Vec.display, hk]; exact displayRow_empty d _ _ _
  · obtain ⟨k, -, hk⟩ := usizeSub_wraps
    rw [Pt.display, hk]; exact displayRow_empty d _ _ _

/-- one column, in brackets -/
def Spec.column (m : Mat S R C) (c : Fin C) : String := "[" ++ Spec.row d (m.data c) ++ "]"

theorem displayColumn_eq (m : Mat S (R + 1) C) (c : Fin C) (s : String) :
    displayColumn d checked m c s = .ok (s ++ Spec.column d m c) := by
  simp only [displayColumn, usizeSub, Nat.le_add_left, if_true, Except.bind, Nat.add_sub_cancel,
    readAt_of_lt _ c.2]
  rw [displayRow_eq]
  simp [Spec.column, String.append_assoc]

/-- A matrix with at least one entry prints its columns in order, each in brackets. -/
theorem C65_matrix (m : Mat S R C) (hR : 0 < R) (hC : 0 < C) :
    m.display d checked = .ok ("Matrix" ++ toString R ++ "x" ++ toString C ++ " ["
      ++ ", ".intercalate (List.ofFn fun c => "[" ++ Spec.row d (m.data c) ++ "]") ++ "]") := by
  obtain ⟨R, rfl⟩ : ∃ k, R = k + 1 := ⟨R - 1, by omega⟩
  obtain ⟨C, rfl⟩ : ∃ k, C = k + 1 := ⟨C - 1, by omega⟩
  simp only [Mat.display, usizeSub, Nat.le_add_left, if_true, Except.bind, Nat.add_sub_cancel]
  generalize "Matrix" ++ toString (R + 1) ++ "x" ++ toString (C + 1) ++ " [" = s
  have key := forRangeE_ok_of (n := C) (s := s)
    (b := fun c s => (displayColumn d checked m c s).map fun s => s ++ ", ")
    (fun k t => ∀ h : k ≤ C, t.toList = s.toList ++
      ((List.ofFn fun i : Fin k => (Spec.column d m (Fin.castLE (by omega) i)).toList
        ++ [',', ' ']).flatten))
    (by simp) (by
      intro i t ht
      refine ⟨t ++ Spec.column d m i.castSucc ++ ", ", ?_, ?_⟩
      · have := displayColumn_eq d checked m i.castSucc t
        simp only [Fin.val_castSucc] at this
        rw [this]; rfl
      · intro h
        have := ht (by omega)
        rw [String.toList_append, String.toList_append, this, List.ofFn_succ_last]
        simp [List.append_assoc]
        rfl)
  obtain ⟨t, h1, h2⟩ := key
  rw [h1]
  have h3 := h2 le_rfl
  have h4 := displayColumn_eq d checked m (Fin.last C) t
  simp only [Fin.val_last] at h4
  simp only [h4, Except.map, Except.ok.injEq]
  apply String.toList_injective
  rw [String.toList_append, String.toList_append, h3, String.toList_append, String.toList_append,
    toList_intercalate]
  simp only [List.append_assoc, List.append_cancel_left_eq]
  rw [← List.append_assoc]
  congr 1
  rw [List.map_ofFn, List.ofFn_succ_last, intercalate_snoc, List.map_ofFn]
  rfl

theorem usizeSub_pos (h : 0 < n) : usizeSub checked n 1 = .ok (n - 1) := by
  have h' : 1 ≤ n := h
  rw [usizeSub, if_pos h']

theorem Mat.display_error (m : Mat S R C) (last : ℕ) (e : Panic) (hl : usizeSub checked C 1 = .ok last)
    (h : ∀ c s, c ≤ last → displayColumn d checked m c s = .error e) : m.display d checked = .error e := by
  rw [Mat.display, hl]
  rcases Nat.eq_zero_or_pos last with rfl | hp
  · simp only [forRangeE, forRange_zero, Except.bind, h 0 _ le_rfl, Except.map]
  · simp only [Except.bind]
    rw [forRangeE_error_of (e := e) hp]
    intro i t
    rw [h _ _ (by omega)]; rfl

/-- Printing a matrix with no columns, or with columns but no rows, panics. -/
theorem C65_matrix_empty (m : Mat S R C) (h : R = 0 ∨ C = 0) :
    ∃ e, m.display d checked = .error e := by
  obtain ⟨k, hk0, hk⟩ := usizeSub_wraps
  by_cases hC : C = 0
  · subst hC
    cases checked
    · refine ⟨.indexOutOfBounds, Mat.display_error d _ m k _ hk fun c s _ => ?_⟩
      obtain ⟨l, hl⟩ : ∃ l, usizeSub false R 1 = .ok l := by
        rcases Nat.eq_zero_or_pos R with rfl | hR
        · exact ⟨k, hk⟩
        · exact ⟨_, usizeSub_pos false hR⟩
      rw [displayColumn, hl]
      simp only [Except.bind]
      rw [readAt_of_ge m.data (Nat.zero_le c)]
    · refine ⟨.arithmeticOverflow, ?_⟩
      rw [Mat.display, usizeSub_checked, Except.bind]
  · have hR : R = 0 := by tauto
    subst hR
    have hC : 0 < C := by omega
    refine ⟨if checked then .arithmeticOverflow else .indexOutOfBounds,
      Mat.display_error d _ m _ _ (usizeSub_pos _ hC) fun c s hc => ?_⟩
    cases checked
    · rw [displayColumn, hk]
      simp only [Except.bind]
      rw [readAt_of_lt m.data (by omega : c < C)]
      simp only
      rw [displayRow_empty]; rfl
    · rw [displayColumn, usizeSub_checked, Except.bind]; rfl

/-- The other types print their parts in a fixed frame. -/
theorem C65_scalars (z : Cx S) (q : Quat S) (a : Radians S) (b : Degrees S) {A : Type*} (dA : A → String)
    (e : Euler A) :
    z.display d = d z.re ++ " + i" ++ d z.im ∧
    q.display d = d q.scalar ++ " + [" ++ Spec.row d q.vector.data ++ "]\n" ∧
    a.display d = d a.val ++ " radians" ∧ b.display d = d b.val ++ " degrees" ∧
    e.display dA = "Euler [roll=" ++ dA e.x ++ ", yaw=" ++ dA e.y ++ ", pitch=" ++ dA e.z ++ "]" := by
  refine ⟨rfl, ?_, rfl, rfl, rfl⟩
  apply String.toList_injective
  simp [Quat.display, Quat.scalar, Quat.vector, Vec.new3, Spec.row, List.ofFn_succ]

/-- the transformation types in dimension `n ≥ 1` -/
theorem C65_transforms (hn : 0 < n) (t : Translation S n) (s : Scale S n) (r : Rotation S n)
    (f : Transform S n) (i : Isometry S n) (g : Similarity S n) (m : Reflection S n) (h : Shear S n) :
    (∃ v, t.vector.display d checked = .ok v ∧
      t.display d checked = .ok ("Translation" ++ toString n ++ " " ++ v)) ∧
    (∃ v, s.vector.display d checked = .ok v ∧
      s.display d checked = .ok ("Scale" ++ toString n ++ " [" ++ v ++ "]")) ∧
    (∃ v, r.matrix.display d checked = .ok v ∧
      r.display d checked = .ok ("Rotation" ++ toString n ++ " [" ++ v ++ "]")) ∧
    (∃ v, f.matrix.display d checked = .ok v ∧
      f.display d checked = .ok ("Transform" ++ toString n ++ " [" ++ v ++ "]")) ∧
    (∃ v w, i.rotation.display d checked = .ok v ∧ i.translation.display d checked = .ok w ∧
      i.display d checked
        = .ok ("Isometry" ++ toString n ++ " [rotation=" ++ v ++ ", translation=" ++ w ++ "]")) ∧
    (∃ v w, g.isometry.rotation.display d checked = .ok v ∧
      g.isometry.translation.vector.display d checked = .ok w ∧
      g.display d checked = .ok ("Similarity" ++ toString n ++ " [scale=" ++ d g.scale ++ ", rotation=" ++ v
        ++ ", translation=" ++ w ++ "]")) ∧
    (∃ v w, m.normal.display d checked = .ok v ∧ m.bias.display d checked = .ok w ∧
      m.display d checked
        = .ok ("Reflection" ++ toString n ++ " [normal = " ++ v ++ ", bias = " ++ w ++ "]")) ∧
    (∃ o u w, h.origin.display d checked = .ok o ∧ h.direction.display d checked = .ok u ∧
      h.normal.display d checked = .ok w ∧
      h.display d checked = .ok ("Shear" ++ toString n ++ " [shear_factor=" ++ d h.shearFactor ++ ", origin="
        ++ o ++ ", direction=" ++ u ++ ", normal=" ++ w ++ "]")) := by
  refine ⟨⟨_, C65_vector d checked _ hn, ?_⟩, ⟨_, C65_vector d checked _ hn, ?_⟩,
    ⟨_, C65_matrix d checked _ hn hn, ?_⟩, ⟨_, C65_matrix d checked _ (by omega) (by omega), ?_⟩,
    ?_, ?_,
    ⟨_, _, C65_vector d checked _ hn, C65_point d checked _ hn, ?_⟩,
    ⟨_, _, _, C65_point d checked _ hn, C65_vector d checked _ hn, C65_vector d checked _ hn, ?_⟩⟩
  · rw [Translation.display, C65_vector d checked _ hn]; rfl
  · rw [Scale.display, C65_vector d checked _ hn]; rfl
  · rw [Rotation.display, C65_matrix d checked _ hn hn]; rfl
  · rw [Transform.display, C65_matrix d checked _ (by omega) (by omega)]; rfl
  · have h1 : ∃ v, i.rotation.display d checked = .ok v :=
      ⟨_, by rw [Rotation.display, C65_matrix d checked _ hn hn, Except.map]⟩
    have h2 : ∃ v, i.translation.display d checked = .ok v :=
      ⟨_, by rw [Translation.display, C65_vector d checked _ hn, Except.map]⟩
    obtain ⟨v, hv⟩ := h1
    obtain ⟨w, hw⟩ := h2
    exact ⟨v, w, hv, hw, by rw [Isometry.display, hv, hw]; rfl⟩
  · have h1 : ∃ v, g.isometry.rotation.display d checked = .ok v :=
      ⟨_, by rw [Rotation.display, C65_matrix d checked _ hn hn, Except.map]⟩
    have h2 := C65_vector d checked g.isometry.translation.vector hn
    obtain ⟨v, hv⟩ := h1
    exact ⟨v, _, hv, h2, by rw [Similarity.display, hv, h2]; rfl⟩
  · rw [Reflection.display, C65_vector d checked _ hn, C65_point d checked _ hn]; rfl
  · rw [Shear.display, C65_point d checked _ hn]
    simp only [Except.bind]
    rw [C65_vector d checked _ hn]
    simp only [Except.bind]
    rw [C65_vector d checked _ hn]; rfl

/-- the projections print their matrix -/
theorem C65_projections (p : Perspective3 S) (o : Orthographic3 S) :
    (∃ v, p.matrix.display d checked = .ok v ∧ p.display d checked = .ok ("Perspective3 [" ++ v ++ "]")) ∧
    (∃ v, o.matrix.display d checked = .ok v ∧
      o.display d checked = .ok ("Orthographic3 [" ++ v ++ "]")) := by
  refine ⟨⟨_, C65_matrix d checked _ (by omega) (by omega), ?_⟩,
    ⟨_, C65_matrix d checked _ (by omega) (by omega), ?_⟩⟩
  · rw [Perspective3.display, C65_matrix d checked _ (by omega) (by omega)]; rfl
  · rw [Orthographic3.display, C65_matrix d checked _ (by omega) (by omega)]; rfl

/-! ### the text determines the value -/

theorem snoc_sep_inj {x y u v : List Char} (hx : ',' ∉ x) (hy : ',' ∉ y)
    (h : x ++ ',' :: u = y ++ ',' :: v) : x = y ∧ u = v := by
  induction x generalizing y with
  | nil =>
    cases y with
    | nil => simpa using h
    | cons c y => simp at h hy; exact absurd h.1 hy.1
  | cons c x ih =>
    cases y with
    | nil => simp at h hx; exact absurd h.1.symm hx.1
    | cons c' y =>
      simp only [List.cons_append, List.cons.injEq] at h
      obtain ⟨rfl, h⟩ := h
      simp only [List.mem_cons, not_or] at hx hy
      obtain ⟨rfl, rfl⟩ := ih hx.2 hy.2 h
      exact ⟨rfl, rfl⟩

theorem intercalate_inj {k l : List (List Char)} (hk : ∀ x ∈ k, ',' ∉ x) (hl : ∀ x ∈ l, ',' ∉ x)
    (hlen : k.length = l.length) (h : [',', ' '].intercalate k = [',', ' '].intercalate l) : k = l := by
  induction k generalizing l with
  | nil => exact (List.length_eq_zero_iff.mp hlen.symm).symm
  | cons x k ih =>
    cases l with
    | nil => simp at hlen
    | cons y l =>
      cases k with
      | nil =>
        cases l with
        | nil => simpa [List.intercalate] using h
        | cons z l => simp at hlen
      | cons z k =>
        cases l with
        | nil => simp at hlen
        | cons w l =>
          rw [List.intercalate_cons_cons, List.intercalate_cons_cons] at h
          simp only [List.append_assoc, List.cons_append, List.nil_append] at h
          obtain ⟨rfl, h'⟩ := snoc_sep_inj (hk x (by simp)) (hl y (by simp)) h
          have := ih (l := w :: l) (fun a ha => hk a (by simp [ha])) (fun a ha => hl a (by simp [ha]))
            (by simpa using hlen) (by simpa using h')
          rw [this]

/-- If the scalar's text determines the scalar and contains no comma, the vector's text determines the
vector. -/
theorem C65_vector_injective (hd : Function.Injective d) (hc : ∀ x, ',' ∉ (d x).toList) (hn : 0 < n)
    (v w : Vec S n) (h : v.display d checked = w.display d checked) : v = w := by
  rw [C65_vector d checked v hn, C65_vector d checked w hn] at h
  have h := congrArg String.toList (Except.ok.inj h)
  simp only [String.toList_append, List.append_assoc, List.append_cancel_left_eq] at h
  rw [List.append_cancel_right_eq, Spec.row, Spec.row, toList_intercalate, toList_intercalate,
    List.map_ofFn, List.map_ofFn] at h
  have := intercalate_inj (k := List.ofFn (String.toList ∘ fun i => d (v.data i)))
    (l := List.ofFn (String.toList ∘ fun i => d (w.data i)))
    (by simp only [List.mem_ofFn]; rintro _ ⟨i, rfl⟩; exact hc _)
    (by simp only [List.mem_ofFn]; rintro _ ⟨i, rfl⟩; exact hc _) (by simp) h
  have := List.ofFn_injective this
  ext i
  exact hd (String.toList_injective (congrFun this i))

example : (⟨![1, 22, 3]⟩ : Vec ℕ 3).display (fun k => toString k) true = .ok "Vector3 [1, 22, 3]" := by
  rw [C65_vector _ _ _ (by norm_num)]
  decide +kernel

example : (⟨![![1, 2], ![3, 4], ![5, 6]]⟩ : Mat ℕ 2 3).display (fun k => toString k) false
    = .ok "Matrix2x3 [[1, 2], [3, 4], [5, 6]]" := by
  rw [C65_matrix _ _ _ (by norm_num) (by norm_num)]
  decide +kernel

end Cgl
