import Verif.Lemmas.Matrix
import Verif.Lemmas.Point

/-!
# C03 - `try_cast` is all-or-nothing

`conv : S → Option T` is the scalar conversion, an arbitrary partial function; `z` is the content of
the buffer before it is filled, which must not be observable.
-/

namespace Cgl

variable {S T : Type*} {n R C : ℕ}

theorem C03_vector_some_iff (conv : S → Option T) (z : T) (v : Vec S n) (w : Vec T n) :
    v.tryCast conv z = some w ↔ ∀ i, conv (v.data i) = some (w.data i) := by
  simp only [Vec.tryCast, Option.map_eq_some_iff]
  constructor
  · rintro ⟨d, hd, rfl⟩; exact (forRange?_update n _ (fun i => conv (v.data i)) d).mp hd
  · intro h; exact ⟨w.data, (forRange?_update n _ (fun i => conv (v.data i)) w.data).mpr h, rfl⟩

theorem C03_vector_none_iff (conv : S → Option T) (z : T) (v : Vec S n) :
    v.tryCast conv z = none ↔ ∃ i, conv (v.data i) = none := by
  simp only [Vec.tryCast, Option.map_eq_none_iff]
  exact forRange?_update_eq_none n _ fun i => conv (v.data i)

theorem C03_point_some_iff (conv : S → Option T) (z : T) (p : Pt S n) (q : Pt T n) :
    p.tryCast conv z = some q ↔ ∀ i, conv (p.coords.data i) = some (q.coords.data i) := by
  simp only [Pt.tryCast, Option.map_eq_some_iff]
  constructor
  · rintro ⟨d, hd, rfl⟩; exact (C03_vector_some_iff conv z _ d).mp hd
  · intro h; exact ⟨q.coords, (C03_vector_some_iff conv z _ _).mpr h, rfl⟩

theorem C03_point_none_iff (conv : S → Option T) (z : T) (p : Pt S n) :
    p.tryCast conv z = none ↔ ∃ i, conv (p.coords.data i) = none := by
  simp only [Pt.tryCast, Option.map_eq_none_iff]
  exact C03_vector_none_iff conv z _

private theorem mat_some (conv : S → Option T) (z : T) (m : Mat S R C) (k : Mat T R C)
    (h : ∀ c r, conv (m.data c r) = some (k.data c r)) : m.tryCast conv z = some k := by
  have h1 : ∀ (c : Fin C) (data : Fin C → Fin R → T),
      (forRange? R data fun r data =>
        (conv (m.data c r)).map fun value => Mat.set data c r value) =
      some (forRange R data fun r data => Mat.set data c r (k.data c r)) := by
    intro c data
    exact forRange?_of_some fun r s => by simp [h]
  rw [Mat.tryCast, forRange?_of_some h1, Mat.loop_all]
  rfl

private theorem mat_none (conv : S → Option T) (z : T) (m : Mat S R C) (c : Fin C) (r : Fin R)
    (h : conv (m.data c r) = none) : m.tryCast conv z = none := by
  rw [Mat.tryCast, forRange?_of_none c]
  · rfl
  · intro data
    exact forRange?_of_none r fun s => by simp [h]

theorem C03_matrix_some_iff (conv : S → Option T) (z : T) (m : Mat S R C) (k : Mat T R C) :
    m.tryCast conv z = some k ↔ ∀ c r, conv (m.data c r) = some (k.data c r) := by
  refine ⟨fun h => ?_, mat_some conv z m k⟩
  have hall : ∀ c r, ∃ x, conv (m.data c r) = some x := by
    intro c r
    by_contra hne
    have hn : conv (m.data c r) = none := by
      cases hc : conv (m.data c r) with
      | none => rfl
      | some x => exact absurd ⟨x, hc⟩ hne
    rw [mat_none conv z m c r hn] at h
    exact absurd h (by simp)
  choose f hf using hall
  have := mat_some conv z m ⟨f⟩ hf
  rw [this, Option.some.injEq] at h
  subst h
  exact hf

theorem C03_matrix_none_iff (conv : S → Option T) (z : T) (m : Mat S R C) :
    m.tryCast conv z = none ↔ ∃ c r, conv (m.data c r) = none := by
  constructor
  · intro h
    by_contra hne
    push Not at hne
    have hall : ∀ c r, ∃ x, conv (m.data c r) = some x := fun c r =>
      Option.ne_none_iff_exists'.mp (hne c r)
    choose f hf using hall
    rw [mat_some conv z m ⟨f⟩ hf] at h
    exact absurd h (by simp)
  · rintro ⟨c, r, h⟩; exact mat_none conv z m c r h

/-- narrowing to a byte: 300 is not representable, 200 is -/
private def toByte : ℤ → Option (Fin 256) := fun k =>
  if h : 0 ≤ k ∧ k < 256 then some ⟨k.toNat, by omega⟩ else none

example : (Vec.new2 (200 : ℤ) 300).tryCast toByte 0 = none := by
  rw [C03_vector_none_iff]; exact ⟨1, by simp [toByte]⟩
example : (Vec.new2 (200 : ℤ) 7).tryCast toByte 0 = some (Vec.new2 200 7) := by
  rw [C03_vector_some_iff]
  intro i
  fin_cases i <;> simp [toByte]

end Cgl
