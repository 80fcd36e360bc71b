import Verif.Lemmas.Affine
import Verif.Props.C17_Determinant
import Mathlib.LinearAlgebra.Matrix.Block
import Mathlib.Data.Matrix.Block

/-! # C27 - embedding an M x M matrix into an N x N one, for all sizes M < N -/

namespace Cgl
open Mat

variable {S : Type*} {M N : ℕ}

/-- the matrix in the upper-left block, the identity elsewhere -/
theorem C27_entry [Zero S] [One S] (h : M < N) (A : Mat S M M) (c r : Fin N) :
    (embed h A).data c r =
      if hcr : (c : ℕ) < M ∧ (r : ℕ) < M then A.data ⟨c, hcr.1⟩ ⟨r, hcr.2⟩ else if c = r then 1 else 0 := by
  have inner : ∀ (d : Fin N → Fin N → S) (c : Fin M) (c' r' : Fin N),
      (forRange M d fun r data => set data (c.castLE h.le) (r.castLE h.le) (A.data c r)) c' r' =
        if hr : c' = c.castLE h.le ∧ (r' : ℕ) < M then A.data c ⟨r', hr.2⟩ else d c' r' := by
    intro d c c' r'
    have key := loop_positions M d (fun _ => c.castLE h.le) (fun r => r.castLE h.le) (fun r => A.data c r)
      (fun i j _ hij => Fin.castLE_injective h.le hij)
    by_cases hr : c' = c.castLE h.le ∧ (r' : ℕ) < M
    · rw [dif_pos hr]
      obtain ⟨rfl, hr2⟩ := hr
      exact key.1 ⟨r', hr2⟩
    · rw [dif_neg hr]
      apply key.2
      rintro i ⟨h1, h2⟩
      exact hr ⟨h1.symm, by rw [← h2]; exact i.2⟩
  have key := forRange_induction (n := M) (s := (identity (S := S) (N := N)).data)
    (b := fun c data => forRange M data fun r data => set data (c.castLE h.le) (r.castLE h.le) (A.data c r))
    (fun k e => ∀ c r : Fin N, e c r =
      if hcr : ((c : ℕ) < M ∧ (r : ℕ) < M) ∧ (c : ℕ) < k then A.data ⟨c, hcr.1.1⟩ ⟨r, hcr.1.2⟩
      else if c = r then 1 else 0) (by intro c r; simp) (by
      intro i t ht c r
      rw [inner t i c r]
      by_cases hc : c = i.castLE h.le
      · subst hc
        by_cases hr : (r : ℕ) < M
        · simp [hr]
        · simp [hr, ht]
      · have hne : (c : ℕ) ≠ i := fun e => hc (Fin.ext e)
        have hiff : (c : ℕ) < i + 1 ↔ (c : ℕ) < i := by omega
        simp only [hc, false_and, dite_false, ht, hiff])
  have := key c r
  refine Eq.trans this ?_
  by_cases h1 : (c : ℕ) < M ∧ (r : ℕ) < M
  · simp [h1]
  · simp [h1]

section Block
variable [CommRing S] {k : ℕ}

private theorem embed_block (h : M < M + k) (A : Mat S M M) : (embed h A).toMatrix =
    Matrix.reindex finSumFinEquiv finSumFinEquiv (Matrix.fromBlocks A.toMatrix 0 0 1) := by
  ext r c
  rw [toMatrix_apply, C27_entry]
  refine Fin.addCases (fun r => ?_) (fun r => ?_) r <;> refine Fin.addCases (fun c => ?_) (fun c => ?_) c
  · simp
  · have : ¬ (Fin.natAdd M c = Fin.castAdd k r) := by
      intro e; have := congrArg Fin.val e; simp at this; omega
    simp [this]
  · have : ¬ (Fin.castAdd k c = Fin.natAdd M r) := by
      intro e; have := congrArg Fin.val e; simp at this; omega
    simp [this]
  · simp [Matrix.one_apply, eq_comm]

/-- the conversion is multiplicative -/
theorem C27_mul (h : M < N) (A B : Mat S M M) : embed h (A * B) = embed h A * embed h B := by
  obtain ⟨k, rfl⟩ := Nat.exists_eq_add_of_le h.le
  apply toMatrix_injective
  rw [toMatrix_mul]
  simp only [embed_block, toMatrix_mul, Matrix.reindex_apply, Matrix.submatrix_mul_equiv,
    Matrix.fromBlocks_multiply]
  simp

theorem C27_identity (h : M < N) : embed h (identity : Mat S M M) = identity := by
  ext c r; rw [C27_entry]
  by_cases hcr : (c : ℕ) < M ∧ (r : ℕ) < M
  · simp [hcr, Fin.ext_iff]
  · simp [hcr]

theorem C27_transpose (h : M < N) (A : Mat S M M) : (embed h A).transpose = embed h A.transpose := by
  ext c r; rw [transpose_data, C27_entry, C27_entry]
  by_cases hcr : (c : ℕ) < M ∧ (r : ℕ) < M
  · simp [hcr]
  · simp [hcr, and_comm, eq_comm]

theorem C27_determinant (h : M < N) (A : Mat S M M) : Spec.leibniz (embed h A) = Spec.leibniz A := by
  obtain ⟨k, rfl⟩ := Nat.exists_eq_add_of_le h.le
  rw [leibniz_eq, leibniz_eq, embed_block, Matrix.det_reindex_self, Matrix.det_fromBlocks_zero₂₁]
  simp

/-- nothing is lost -/
theorem C27_injective (h : M < N) (A B : Mat S M M) (e : embed h A = embed h B) : A = B := by
  ext c r
  have := congrArg (fun X : Mat S N N => X.data (c.castLE h.le) (r.castLE h.le)) e
  simpa [C27_entry] using this

end Block

/-- in terms of the `determinant()` methods: 2 into 3, 2 into 4, 3 into 4 -/
theorem C27_determinant_methods [CommRing S] (A : Mat S 2 2) (B : Mat S 3 3) :
    (embed (by decide : 2 < 3) A).determinant3 = A.determinant2 ∧
    (embed (by decide : 2 < 4) A).determinant4 = A.determinant2 ∧
    (embed (by decide : 3 < 4) B).determinant4 = B.determinant3 := by
  simp only [C17_det2, C17_det3, C17_det4, C27_determinant, and_self]

/-- composition of embeddings is the embedding -/
theorem C27_compose [Zero S] [One S] {K : ℕ} (h : M < N) (h' : N < K) (A : Mat S M M) :
    embed h' (embed h A) = embed (h.trans h') A := by
  ext c r
  rw [C27_entry, C27_entry]
  by_cases h1 : (c : ℕ) < N ∧ (r : ℕ) < N
  · rw [dif_pos h1, C27_entry]; simp [Fin.ext_iff]
  · rw [dif_neg h1, dif_neg]
    rintro ⟨h2, h3⟩; exact h1 ⟨by omega, by omega⟩

example : embed (by decide : 2 < 3) (new2x2 1 2 3 4 : Mat ℤ 2 2) = new3x3 1 2 0 3 4 0 0 0 1 := by
  apply ext3 <;> simp [C27_entry]

end Cgl
