import Verif.Model.Matrix
import Verif.Lemmas.Vector
import Mathlib.Data.Matrix.Mul

/-! # Closed forms of the shape-generic matrix operations -/

namespace Cgl
namespace Mat

variable {S T : Type*} {R C N : ℕ}

theorem ext_data {m k : Mat S R C} (h : ∀ c r, m.data c r = k.data c r) : m = k := by
  ext c r; exact h c r

@[simp] theorem set_self (d : Fin C → Fin R → S) (c r x) : set d c r x c r = x := by simp [set]

theorem set_apply (d : Fin C → Fin R → S) (c r x c' r') :
    set d c r x c' r' = if c' = c ∧ r' = r then x else d c' r' := by
  unfold set
  by_cases hc : c' = c
  · subst hc
    by_cases hr : r' = r
    · subst hr; simp
    · simp [hr]
  · simp [hc]

/-! ### loops over all entries -/

theorem loop_col_self (d : Fin C → Fin R → S) (c : Fin C) (g : Fin R → S → S) :
    forRange R d (fun r data => set data c r (g r (data c r))) =
      Function.update d c fun r => g r (d c r) := by
  have h1 : ∀ e : Fin C → Fin R → S, (∀ c', c' ≠ c → e c' = d c') →
      e = Function.update d c (e c) := by
    intro e he; funext c'
    by_cases h : c' = c
    · subst h; simp
    · rw [Function.update_of_ne h, he c' h]
  have h2 := forRange_sim (n := R) (s := d) (t := d c)
    (b := fun r data => set data c r (g r (data c r)))
    (c := fun r s => Function.update s r (g r (s r))) (fun e => e c) rfl
    (by intro i x; simp [set])
  rw [forRange_update_self] at h2
  rw [h1 (forRange R d _) ?_, h2]
  refine forRange_induction (n := R) (s := d) (b := fun r data => set data c r (g r (data c r)))
    (fun _ e => ∀ c', c' ≠ c → e c' = d c') (by simp) ?_
  intro i t ht c' hc'
  simp [set, hc', ht c' hc']

theorem loop_all_self (d : Fin C → Fin R → S) (g : Fin C → Fin R → S → S) :
    forRange C d (fun c data => forRange R data fun r data => set data c r (g c r (data c r))) =
      fun c r => g c r (d c r) := by
  have : (fun (c : Fin C) (data : Fin C → Fin R → S) =>
      forRange R data fun r data => set data c r (g c r (data c r))) =
      fun c data => Function.update data c ((fun c (col : Fin R → S) r => g c r (col r)) c (data c)) := by
    funext c data; exact loop_col_self data c (g c)
  rw [this]
  exact forRange_update_self C d (fun c (col : Fin R → S) r => g c r (col r))

theorem loop_all (d : Fin C → Fin R → S) (f : Fin C → Fin R → S) :
    forRange C d (fun c data => forRange R data fun r data => set data c r (f c r)) = f :=
  loop_all_self d fun c r _ => f c r

/-- the same with the row loop outside (or the target transposed) -/
theorem loop_all_swap (d : Fin C → Fin R → S) (f : Fin C → Fin R → S) :
    forRange R d (fun r data => forRange C data fun c data => set data c r (f c r)) = f := by
  have hflip : ∀ (e : Fin C → Fin R → S) c r x,
      (fun r' c' => set e c r x c' r') = set (fun r' c' => e c' r') r c x := by
    intro e c r x; funext r' c'; rw [set_apply, set_apply]; simp [and_comm]
  have h := forRange_sim (n := R) (s := d) (t := fun r c => d c r)
    (b := fun r data => forRange C data fun c data => set data c r (f c r))
    (c := fun r data => forRange C data fun c data => set data r c (f c r))
    (fun e r c => e c r) rfl
    (by
      intro r x
      exact forRange_sim (n := C) (s := x) (b := fun c data => set data c r (f c r))
        (c := fun c data => set data r c (f c r)) (fun e r c => e c r) rfl
        (fun c y => hflip y c r (f c r)))
  rw [loop_all (fun r c => d c r) fun r c => f c r] at h
  funext c r
  exact congrFun (congrFun h r) c

/-! ### entry-wise operations -/

@[simp] theorem fromFill_data (x : S) (c r) : (fromFill x : Mat S R C).data c r = x := rfl
@[simp] theorem fromColumns_data (cs : Fin C → Vec S R) (c r) :
    (fromColumns cs).data c r = (cs c).data r := rfl
@[simp] theorem fromRows_data (z : S) (rs : Fin R → Vec S C) (c r) :
    (fromRows z rs).data c r = (rs r).data c := by
  simp only [fromRows]; rw [loop_all_swap _ fun c r => (rs r).data c]
@[simp] theorem map_data (z : T) (f : S → T) (m : Mat S R C) (c r) :
    (m.map z f).data c r = f (m.data c r) := by
  simp only [map]; rw [loop_all _ fun c r => f (m.data c r)]

section
variable [Zero S]

@[simp] theorem zero_data (c r) : (0 : Mat S R C).data c r = 0 := rfl
@[simp] theorem zero_data' (c r) : (zero : Mat S R C).data c r = 0 := rfl
@[simp] theorem transpose_data (m : Mat S R C) (c r) : m.transpose.data c r = m.data r c := by
  simp only [transpose]; rw [loop_all_swap _ fun r c => m.data c r]
@[simp] theorem componentMul_data [Mul S] (m k : Mat S R C) (c r) :
    (m.componentMul k).data c r = m.data c r * k.data c r := by
  simp only [componentMul]; rw [loop_all _ fun c r => m.data c r * k.data c r]
@[simp] theorem add_data [Add S] (m k : Mat S R C) (c r) :
    (m + k).data c r = m.data c r + k.data c r := by
  show (add m k).data c r = _
  simp only [add]; rw [loop_all _ fun c r => m.data c r + k.data c r]
@[simp] theorem sub_data [Sub S] (m k : Mat S R C) (c r) :
    (m - k).data c r = m.data c r - k.data c r := by
  show (sub m k).data c r = _
  simp only [sub]; rw [loop_all _ fun c r => m.data c r - k.data c r]
@[simp] theorem neg_data [Neg S] (m : Mat S R C) (c r) : (-m).data c r = -m.data c r := by
  show (neg m).data c r = _
  simp only [neg]; rw [loop_all _ fun c r => -m.data c r]
@[simp] theorem mulS_data [Mul S] (m : Mat S R C) (k : S) (c r) :
    (m * k).data c r = m.data c r * k := by
  show (mulS m k).data c r = _
  simp only [mulS]; rw [loop_all _ fun c r => m.data c r * k]
@[simp] theorem smul_data [Mul S] (m : Mat S R C) (k : S) (c r) :
    (k * m).data c r = k * m.data c r := by
  show (smul k m).data c r = _
  simp only [smul]; rw [loop_all _ fun c r => k * m.data c r]
@[simp] theorem divS_data [Div S] (m : Mat S R C) (k : S) (c r) :
    (m / k).data c r = m.data c r / k := by
  show (divS m k).data c r = _
  simp only [divS]; rw [loop_all _ fun c r => m.data c r / k]
@[simp] theorem remS_data [Mod S] (m : Mat S R C) (k : S) (c r) :
    (m % k).data c r = m.data c r % k := by
  show (remS m k).data c r = _
  simp only [remS]; rw [loop_all _ fun c r => m.data c r % k]

end

@[simp] theorem addAssign_data [Add S] (m k : Mat S R C) (c r) :
    (m.addAssign k).data c r = m.data c r + k.data c r := by
  simp only [addAssign]; rw [loop_all_self _ fun c r x => x + k.data c r]
@[simp] theorem subAssign_data [Sub S] (m k : Mat S R C) (c r) :
    (m.subAssign k).data c r = m.data c r - k.data c r := by
  simp only [subAssign]; rw [loop_all_self _ fun c r x => x - k.data c r]
@[simp] theorem mulAssign_data [Mul S] (m : Mat S R C) (k : S) (c r) :
    (m.mulAssign k).data c r = m.data c r * k := by
  simp only [mulAssign]; rw [loop_all_self _ fun c r x => x * k]
@[simp] theorem divAssign_data [Div S] (m : Mat S R C) (k : S) (c r) :
    (m.divAssign k).data c r = m.data c r / k := by
  simp only [divAssign]; rw [loop_all_self _ fun c r x => x / k]
@[simp] theorem remAssign_data [Mod S] (m : Mat S R C) (k : S) (c r) :
    (m.remAssign k).data c r = m.data c r % k := by
  simp only [remAssign]; rw [loop_all_self _ fun c r x => x % k]
@[simp] theorem componentMulAssign_data [Mul S] (m k : Mat S R C) (c r) :
    (m.componentMulAssign k).data c r = m.data c r * k.data c r := by
  simp only [componentMulAssign]; rw [loop_all_self _ fun c r x => x * k.data c r]
@[simp] theorem negMut_data [Neg S] (m : Mat S R C) (c r) : m.negMut.data c r = -m.data c r := by
  simp only [negMut]; rw [loop_all_self _ fun c r x => -x]

/-! ### products -/

/-- The mathematical matrix (row index first) that a model matrix stores. -/
def toMatrix (m : Mat S R C) : Matrix (Fin R) (Fin C) S := Matrix.of fun r c => m.data c r

@[simp] theorem toMatrix_apply (m : Mat S R C) (r c) : m.toMatrix r c = m.data c r := rfl

theorem toMatrix_injective : Function.Injective (toMatrix : Mat S R C → _) := by
  intro a b h; ext c r; exact congrFun (congrFun h r) c

theorem toMatrix_inj {a b : Mat S R C} : a.toMatrix = b.toMatrix ↔ a = b := toMatrix_injective.eq_iff

section
variable [NonUnitalNonAssocSemiring S] {R1 C1 C2 : ℕ}

theorem dotArrayCol_eq (arr : Fin C1 → Fin R1 → S) (col : Fin C1 → S) (r) :
    dotArrayCol arr col r = ∑ i, arr i r * col i := by
  rw [dotArrayCol, forRange_sum C1 fun i => arr i r * col i]

theorem mulVec_data (m : Mat S R C) (v : Vec S C) (r) :
    (m * v).data r = ∑ i, m.data i r * v.data i := by
  show (mulVec m v).data r = _
  simp only [mulVec]; rw [forRange_update, dotArrayCol_eq]

theorem mul_data (m : Mat S R1 C1) (k : Mat S C1 C2) (c r) :
    (m * k).data c r = ∑ i, m.data i r * k.data c i := by
  show (mul m k).data c r = _
  simp only [mul]; rw [loop_all _ fun c r => dotArrayCol m.data (k.data c) r]
  exact dotArrayCol_eq _ _ _

theorem trMul_data (m : Mat S R C1) (k : Mat S R C2) (c r) :
    (m.trMul k).data c r = ∑ i, m.data r i * k.data c i := by
  simp only [trMul]
  rw [loop_all_swap _ fun c2 c1 => forRange R 0 fun r acc => acc + m.data c1 r * k.data c2 r]
  exact forRange_sum R fun i => m.data r i * k.data c i

theorem dot_eq_sum (m k : Mat S R C) : m.dot k = ∑ r, ∑ c, m.data c r * k.data c r := by
  rw [dot]
  have : (fun (r : Fin R) (result : S) => forRange C result fun c result =>
      result + m.data c r * k.data c r) = fun r result => result + ∑ c, m.data c r * k.data c r := by
    funext r result; exact forRange_add C result fun c => m.data c r * k.data c r
  rw [this, forRange_sum R fun r => ∑ c, m.data c r * k.data c r]

theorem trDot_eq_sum (m : Mat S R C) (k : Mat S C R) :
    m.trDot k = ∑ c, ∑ r, m.data r c * k.data c r := by
  rw [trDot]
  have : (fun (c : Fin R) (result : S) => forRange C result fun r result =>
      result + m.data r c * k.data c r) = fun c result => result + ∑ r, m.data r c * k.data c r := by
    funext c result; exact forRange_add C result fun r => m.data r c * k.data c r
  rw [this, forRange_sum R fun c => ∑ r, m.data r c * k.data c r]

theorem trace_eq_sum (m : Mat S N N) : m.trace = ∑ i, m.data i i := by
  rw [trace, forRange_sum N fun i => m.data i i]

theorem toMatrix_mul (m : Mat S R1 C1) (k : Mat S C1 C2) :
    (m * k).toMatrix = m.toMatrix * k.toMatrix := by
  ext r c; simp [mul_data, Matrix.mul_apply]

theorem mulVec_eq (m : Mat S R C) (v : Vec S C) : (m * v).data = m.toMatrix.mulVec v.data := by
  funext r; simp [mulVec_data, Matrix.mulVec, dotProduct]

theorem normSquared_eq_sum (m : Mat S R C) : m.normSquared = ∑ r, ∑ c, m.data c r * m.data c r :=
  dot_eq_sum m m

end

section
variable [AddMonoid S]

theorem toMatrix_zero : (0 : Mat S R C).toMatrix = 0 := rfl
theorem toMatrix_add (m k : Mat S R C) : (m + k).toMatrix = m.toMatrix + k.toMatrix := by ext; simp
theorem toMatrix_transpose (m : Mat S R C) : m.transpose.toMatrix = m.toMatrix.transpose := by
  ext; simp
end

/-! ### diagonals -/

theorem setDiag_apply (d : Fin N → Fin N → S) (f : Fin N → S) (c r) :
    setDiag d f c r = if c = r then f c else d c r := by
  have := forRange_induction (n := N) (s := d) (b := fun i data => set data i i (f i))
    (fun k e => ∀ c r : Fin N, e c r = if c = r ∧ (c : ℕ) < k then f c else d c r) (by simp)
    (by
      intro i t ht c r
      rw [set_apply, ht c r]
      by_cases hcr : c = r
      · subst hcr
        by_cases hci : c = i
        · subst hci; simp
        · have hne : (c : ℕ) ≠ i := fun h => hci (Fin.ext h)
          have : (c : ℕ) < i + 1 ↔ (c : ℕ) < i := by omega
          simp [hci, this]
      · have : ¬ (c = i ∧ r = i) := fun h => hcr (h.1.trans h.2.symm)
        simp [hcr, this]) c r
  simpa [setDiag] using this

section
variable [Zero S]

@[simp] theorem identity_data [One S] (c r : Fin N) :
    (identity : Mat S N N).data c r = if c = r then 1 else 0 := by
  simp only [identity, setDiag_apply, zero_data']
@[simp] theorem fromDiagonalValue_data (x : S) (c r : Fin N) :
    (fromDiagonalValue x : Mat S N N).data c r = if c = r then x else 0 := by
  simp only [fromDiagonalValue, setDiag_apply, zero_data']
@[simp] theorem fromDiagonal_data (v : Vec S N) (c r : Fin N) :
    (fromDiagonal v).data c r = if c = r then v.data c else 0 := by
  simp only [fromDiagonal, setDiag_apply, zero_data']
@[simp] theorem fromScale_data [One S] (x : S) (c r : Fin N) :
    (fromScale x : Mat S N N).data c r = if c = r then x else 0 := by
  simp only [fromScale, setDiag_apply, identity_data]; split <;> rfl
@[simp] theorem fromNonuniformScale_data [One S] (v : Vec S N) (c r : Fin N) :
    (fromNonuniformScale v).data c r = if c = r then v.data c else 0 := by
  simp only [fromNonuniformScale, setDiag_apply, identity_data]; split <;> rfl

end

theorem toMatrix_identity [Zero S] [One S] : (identity : Mat S N N).toMatrix = 1 := by
  ext r c; simp [Matrix.one_apply, eq_comm]

/-! ### triangular Boolean loops -/

theorem forRange_and2 (N : ℕ) (b : Bool) (k : Fin N → ℕ) (p : (i : Fin N) → Fin (k i) → Bool) :
    (forRange N b fun i result => forRange (k i) result fun j result => result && p i j) =
      (b && decide (∀ i j, p i j = true)) := by
  have : (fun (i : Fin N) (result : Bool) => forRange (k i) result fun j result => result && p i j) =
      fun i result => result && decide (∀ j, p i j = true) := by
    funext i result; exact forRange_and _ _ _
  rw [this, forRange_and N b fun i => decide (∀ j, p i j = true)]
  simp

/-- A statement about all pairs `j < i` of loop indices. -/
theorem forall_lower (N : ℕ) (P : Fin N → Fin N → Prop) :
    (∀ (i : Fin N) (j : Fin (i : ℕ)), P i (j.castLE i.2.le)) ↔ ∀ i j : Fin N, j < i → P i j := by
  constructor
  · intro h i j hj; exact h i ⟨j, hj⟩
  · intro h i j; exact h i _ (by simp [Fin.lt_def])

end Mat

/-! ### loops that may panic -/

theorem forRangeE_ok_of {σ : Type*} {n : ℕ} {s : σ} {b : Fin n → σ → Res σ} (P : ℕ → σ → Prop)
    (h0 : P 0 s) (hs : ∀ (i : Fin n) t, P i t → ∃ t', b i t = .ok t' ∧ P (i + 1) t') :
    ∃ t, forRangeE n s b = .ok t ∧ P n t := by
  refine forRange_induction (n := n) (s := (.ok s : Res σ)) (b := fun i s => s.bind (b i))
    (fun k x => ∃ t, x = .ok t ∧ P k t) ⟨s, rfl, h0⟩ ?_
  rintro i x ⟨t, rfl, ht⟩
  obtain ⟨t', h1, h2⟩ := hs i t ht
  exact ⟨t', h1, h2⟩

theorem forRangeE_error_of {σ : Type*} {n : ℕ} {s : σ} {b : Fin n → σ → Res σ} {e : Panic}
    (hn : 0 < n) (hs : ∀ i t, b i t = .error e) : forRangeE n s b = .error e := by
  obtain ⟨n, rfl⟩ := Nat.exists_eq_succ_of_ne_zero hn.ne'
  have : ∀ x : Res σ, (∃ t, x = .ok t) ∨ x = .error e →
      ∀ i, x.bind (b i) = .error e := by
    rintro x (⟨t, rfl⟩ | rfl) i
    · exact hs i t
    · rfl
  have h := forRange_induction (n := n + 1) (s := (.ok s : Res σ)) (b := fun i s => s.bind (b i))
    (fun k x => if k = 0 then ∃ t, x = .ok t else x = .error e) (by simp) (by
      intro i x hx
      have h1 : (∃ t, x = .ok t) ∨ x = .error e := by
        by_cases h : (i : ℕ) = 0
        · left; simpa [h] using hx
        · right; simpa [h] using hx
      simpa using this x h1 i)
  simpa [forRangeE] using h

theorem readAt_of_lt {α : Type*} {n : ℕ} (a : Fin n → α) {i : ℕ} (h : i < n) :
    readAt a i = .ok (a ⟨i, h⟩) := by simp [readAt, h]
theorem readAt_of_ge {α : Type*} {n : ℕ} (a : Fin n → α) {i : ℕ} (h : n ≤ i) :
    readAt a i = .error .indexOutOfBounds := by simp [readAt, not_lt.mpr h]
theorem writeAt_of_lt {α : Type*} {n : ℕ} (a : Fin n → α) {i : ℕ} (h : i < n) (x : α) :
    writeAt a i x = .ok (Function.update a ⟨i, h⟩ x) := by simp [writeAt, h]
theorem writeAt_of_ge {α : Type*} {n : ℕ} (a : Fin n → α) {i : ℕ} (h : n ≤ i) (x : α) :
    writeAt a i x = .error .indexOutOfBounds := by simp [writeAt, not_lt.mpr h]

end Cgl
