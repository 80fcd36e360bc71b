import Verif.Model.Prelude
import Mathlib.Algebra.BigOperators.Fin
import Mathlib.Order.Lattice

/-!
# Closed forms of counted loops

All of these are inductions over the number of iterations.
-/

namespace Cgl

variable {σ α β : Type*}

@[simp] theorem forRange_zero (s : σ) (b : Fin 0 → σ → σ) : forRange 0 s b = s := by
  simp [forRange, Fin.foldl_zero]

theorem forRange_succ (n : ℕ) (s : σ) (b : Fin (n + 1) → σ → σ) :
    forRange (n + 1) s b = b (Fin.last n) (forRange n s fun i => b i.castSucc) := by
  simp [forRange, Fin.foldl_succ_last]

theorem forRange_succ' (n : ℕ) (s : σ) (b : Fin (n + 1) → σ → σ) :
    forRange (n + 1) s b = forRange n (b 0 s) fun i => b i.succ := by
  simp [forRange, Fin.foldl_succ]

theorem forRange_congr {n : ℕ} {s : σ} {b b' : Fin n → σ → σ} (h : ∀ i s, b i s = b' i s) :
    forRange n s b = forRange n s b' := by
  have : b = b' := by funext i s; exact h i s
  rw [this]

/-- Loop invariant rule. -/
theorem forRange_induction {n : ℕ} {s : σ} {b : Fin n → σ → σ} (P : ℕ → σ → Prop) (h0 : P 0 s)
    (hs : ∀ (i : Fin n) t, P i t → P (i + 1) (b i t)) : P n (forRange n s b) := by
  induction n with
  | zero => simpa
  | succ n ih =>
    rw [forRange_succ]
    have := hs (Fin.last n) (forRange n s fun i => b i.castSucc)
      (by simpa using ih (b := fun i => b i.castSucc) (fun i t ht => by simpa using hs i.castSucc t ht))
    simpa using this

/-- Two loops running in lock step. -/
theorem forRange_sim {n : ℕ} {s : σ} {t : α} {b : Fin n → σ → σ} {c : Fin n → α → α} (f : σ → α)
    (h0 : f s = t) (hs : ∀ i x, f (b i x) = c i (f x)) : f (forRange n s b) = forRange n t c := by
  induction n with
  | zero => simpa
  | succ n ih =>
    rw [forRange_succ, forRange_succ, hs, ih (b := fun i => b i.castSucc) (c := fun i => c i.castSucc)
      (fun i x => hs _ _)]

/-- Accumulating sum. -/
theorem forRange_add [AddCommMonoid α] (n : ℕ) (z : α) (f : Fin n → α) :
    forRange n z (fun i s => s + f i) = z + ∑ i, f i := by
  induction n with
  | zero => simp
  | succ n ih => rw [forRange_succ, ih, Fin.sum_univ_castSucc, add_assoc]

theorem forRange_sum [AddCommMonoid α] (n : ℕ) (f : Fin n → α) :
    forRange n 0 (fun i s => s + f i) = ∑ i, f i := by rw [forRange_add, zero_add]

theorem forRange_and (n : ℕ) (b : Bool) (p : Fin n → Bool) :
    forRange n b (fun i s => s && p i) = (b && decide (∀ i, p i = true)) := by
  induction n with
  | zero => simp
  | succ n ih =>
    rw [forRange_succ, ih]
    simp only [Fin.forall_fin_succ']
    cases b <;> by_cases h : ∀ i : Fin n, p i.castSucc = true <;> simp [h]

/-- A loop that overwrites position `i` with `f i` in iteration `i` produces `f`, whatever the
initial contents. -/
theorem forRange_update (n : ℕ) (d f : Fin n → α) :
    forRange n d (fun i s => Function.update s i (f i)) = f := by
  have key : ∀ k : Fin n, (k : ℕ) < n →
      forRange n d (fun i s => Function.update s i (f i)) k = f k := by
    have := forRange_induction (n := n) (s := d) (b := fun i s => Function.update s i (f i))
      (fun m s => ∀ k : Fin n, (k : ℕ) < m → s k = f k) (by intro k hk; omega)
      (by
        intro i t ht k hk
        by_cases hki : k = i
        · subst hki; simp
        · rw [Function.update_of_ne hki]
          apply ht
          have : (k : ℕ) ≠ i := fun h => hki (Fin.ext h)
          omega)
    exact this
  funext k
  exact key k k.2

/-- A loop that replaces position `i` by a function of its old contents. -/
theorem forRange_update_self (n : ℕ) (d : Fin n → α) (g : Fin n → α → α) :
    forRange n d (fun i s => Function.update s i (g i (s i))) = fun i => g i (d i) := by
  have := forRange_induction (n := n) (s := d) (b := fun i s => Function.update s i (g i (s i)))
      (fun m s => ∀ k : Fin n, s k = if (k : ℕ) < m then g k (d k) else d k) (by intro k; simp)
      (by
        intro i t ht k
        by_cases hki : k = i
        · subst hki; simp [ht k]
        · rw [Function.update_of_ne hki, ht k]
          have hne : (k : ℕ) ≠ i := fun h => hki (Fin.ext h)
          have hiff : (k : ℕ) < i ↔ (k : ℕ) < i + 1 := by omega
          simp [hiff])
  funext k
  rw [this k, if_pos k.2]

/-- A loop that may leave early: it succeeds exactly when every step does. -/
theorem forRange?_update (n : ℕ) (d : Fin n → α) (f : Fin n → Option α) :
    (∀ out : Fin n → α,
      forRange? n d (fun i s => (f i).map fun x => Function.update s i x) = some out ↔
        ∀ i, f i = some (out i)) := by
  have key : ∀ m (hm : m ≤ n) (out : Fin n → α),
      forRange m (some d) (fun i s => s.bind fun s =>
        (f (i.castLE hm)).map fun x => Function.update s (i.castLE hm) x) = some out ↔
        ∀ i : Fin n, if (i : ℕ) < m then f i = some (out i) else out i = d i := by
    intro m
    induction m with
    | zero =>
      intro hm out
      simp only [forRange_zero, Option.some.injEq, Nat.not_lt_zero, if_false]
      exact ⟨fun h i => by rw [h], fun h => (funext h).symm⟩
    | succ m ih =>
      intro hm out
      rw [forRange_succ]
      have ihm := ih (by omega)
      have hb : (fun (i : Fin m) (s : Option (Fin n → α)) => s.bind fun s =>
            (f ((Fin.castSucc i).castLE hm)).map fun x =>
              Function.update s ((Fin.castSucc i).castLE hm) x) =
          (fun (i : Fin m) (s : Option (Fin n → α)) => s.bind fun s =>
            (f (i.castLE (by omega))).map fun x =>
              Function.update s (i.castLE (by omega)) x) := rfl
      rw [hb]
      set k : Fin n := (Fin.last m).castLE hm with hk
      have hkv : (k : ℕ) = m := by simp [hk]
      constructor
      · intro h
        rw [Option.bind_eq_some_iff] at h
        obtain ⟨s, hs, h⟩ := h
        rw [ihm] at hs
        rw [Option.map_eq_some_iff] at h
        obtain ⟨x, hx, rfl⟩ := h
        intro i
        by_cases hik : i = k
        · subst hik
          simp [hkv, hx]
        · have hne : (i : ℕ) ≠ m := fun h => hik (Fin.ext (by omega))
          have := hs i
          rw [Function.update_of_ne hik]
          have hiff : (i : ℕ) < m + 1 ↔ (i : ℕ) < m := by omega
          simpa [hiff] using this
      · intro h
        rw [Option.bind_eq_some_iff]
        refine ⟨Function.update out k (d k), ?_, ?_⟩
        · rw [ihm]
          intro i
          by_cases hik : i = k
          · subst hik; simp [hkv]
          · have hne : (i : ℕ) ≠ m := fun h => hik (Fin.ext (by omega))
            rw [Function.update_of_ne hik]
            have := h i
            have hiff : (i : ℕ) < m + 1 ↔ (i : ℕ) < m := by omega
            simpa [hiff] using this
        · have := h k
          rw [if_pos (by omega)] at this
          simp [this]
  intro out
  have := key n le_rfl out
  simp only [Fin.is_lt, if_true] at this
  exact this

theorem forRange?_update_eq_none (n : ℕ) (d : Fin n → α) (f : Fin n → Option α) :
    forRange? n d (fun i s => (f i).map fun x => Function.update s i x) = none ↔
      ∃ i, f i = none := by
  constructor
  · intro h
    by_contra hne
    push Not at hne
    have : ∀ i, ∃ x, f i = some x := fun i => Option.ne_none_iff_exists'.mp (hne i)
    choose out hout using this
    have := (forRange?_update n d f out).mpr hout
    rw [h] at this
    exact absurd this (by simp)
  · rintro ⟨i, hi⟩
    by_contra hne
    obtain ⟨out, hout⟩ := Option.ne_none_iff_exists'.mp hne
    have := (forRange?_update n d f out).mp hout i
    rw [hi] at this
    exact absurd this (by simp)

theorem forRange?_of_some {n : ℕ} {s : σ} {body : Fin n → σ → Option σ} {b : Fin n → σ → σ}
    (h : ∀ i s, body i s = some (b i s)) : forRange? n s body = some (forRange n s b) := by
  refine (forRange_sim (n := n) (s := s) (b := b) (c := fun i s => s.bind (body i)) some rfl ?_).symm
  intro i x; simp [h]

theorem forRange?_of_none {n : ℕ} {s : σ} {body : Fin n → σ → Option σ} (i : Fin n)
    (h : ∀ s, body i s = none) : forRange? n s body = none := by
  have := forRange_induction (n := n) (s := some s) (b := fun i s => s.bind (body i))
    (fun k x => (i : ℕ) < k → x = none) (by intro h; omega) (by
      intro j t ht hj
      by_cases hij : (i : ℕ) < j
      · simp [ht hij]
      · have : i = j := Fin.ext (by omega)
        subst this
        cases t with
        | none => rfl
        | some t => exact h t)
  exact this i.2

end Cgl
