import Verif.Model.Transform
import Verif.Lemmas.Affine
import Verif.Lemmas.Point
import Verif.Props.C27_Embedding

/-! # Transforms: closed forms and action of the homogeneous matrices -/

namespace Cgl
open Mat

variable {S : Type*} {n : ℕ}

namespace Mat

/-- the matrix built by writing a translation into the last column of an embedded matrix -/
theorem embed_translation_mul [CommRing S] (A : Mat S n n) (t v : Vec S n) (w : S) :
    (⟨forRange n (embed n.lt_succ_self A).data fun i result => set result (Fin.last n) i.castSucc (t.data i)⟩ :
      Mat S (n + 1) (n + 1)) * v.extend w = (A * v + t * w).extend w := by
  have L := loop_positions n (embed n.lt_succ_self A).data (fun _ => Fin.last n) Fin.castSucc t.data
    (fun _ _ _ h => Fin.castSucc_injective _ h)
  have other : ∀ c r : Fin (n + 1), (c ≠ Fin.last n ∨ r = Fin.last n) →
      (forRange n (embed n.lt_succ_self A).data fun i result =>
        set result (Fin.last n) i.castSucc (t.data i)) c r = (embed n.lt_succ_self A).data c r := by
    intro c r h
    apply L.2
    rintro i ⟨h1, h2⟩
    rcases h with h | h
    · exact h h1.symm
    · subst h; exact (Fin.castSucc_lt_last i).ne h2
  ext r
  rw [mulVec_data, Fin.sum_univ_castSucc]
  dsimp only
  refine Fin.lastCases ?_ (fun r => ?_) r
  · rw [other _ _ (Or.inr rfl), C27_entry, Finset.sum_eq_zero]
    · simp
    · intro i _
      rw [other _ _ (Or.inr rfl), C27_entry]
      simp [(Fin.castSucc_lt_last i).ne]
  · rw [L.1 r, Vec.extend_last, Vec.extend_castSucc, Vec.add_data, Vec.mulS_data, mulVec_data]
    congr 1
    apply Finset.sum_congr rfl
    intro i _
    rw [other _ _ (Or.inl (Fin.castSucc_lt_last i).ne), C27_entry]
    simp

theorem embed_mul [CommRing S] (A : Mat S n n) (v : Vec S n) (w : S) :
    embed n.lt_succ_self A * v.extend w = (A * v).extend w := by
  ext r
  rw [mulVec_data, Fin.sum_univ_castSucc]
  refine Fin.lastCases ?_ (fun r => ?_) r
  · rw [C27_entry, Finset.sum_eq_zero]
    · simp
    · intro i _; rw [C27_entry]; simp [(Fin.castSucc_lt_last i).ne]
  · rw [Vec.extend_last, Vec.extend_castSucc, mulVec_data, C27_entry]
    simp [C27_entry, (Fin.castSucc_lt_last r).ne']

end Mat

theorem Pt.toHomogeneous_eq [Zero S] [One S] (p : Pt S n) : p.toHomogeneous = p.coords.extend 1 := rfl

/-- The homogeneous transform `t` performs `fp` on points and `fv` on vectors. -/
structure Spec.Represents [Field S] [DecidableEq S] (t : Transform S n) (fp : Pt S n → Pt S n)
    (fv : Vec S n → Vec S n) : Prop where
  point : ∀ p, t.applyPoint p = .ok (fp p)
  vector : ∀ v, t.applyVector v = fv v

theorem Transform.represents_of_affine [Field S] [DecidableEq S] {t : Transform S n} {A : Mat S n n} {d : Vec S n}
    (h : ∀ (v : Vec S n) (w : S), t.matrix * v.extend w = (A * v + d * w).extend w) :
    Spec.Represents t (fun p => ⟨A * p.coords + d⟩) (fun v => A * v) where
  point p := by
    unfold applyPoint
    rw [Pt.toHomogeneous_eq, h]
    have e : (A * p.coords + d * (1 : S)).extend 1 = (Pt.mk (A * p.coords + d)).toHomogeneous := by
      rw [Pt.toHomogeneous_eq]; congr 1; ext i; simp
    rw [e]
    have r : Pt.fromHomogeneous (Pt.mk (A * p.coords + d)).toHomogeneous = some (Pt.mk (A * p.coords + d)) := by
      rw [Pt.fromHomogeneous_of_ne]
      · simp only [Pt.toHomogeneous_eq, Vec.contract_extend, Vec.extend_last, Option.some.injEq]
        apply Pt.ext_data; intro i; simp
      · simp [Pt.toHomogeneous_eq]
    rw [r]; rfl
  vector v := by
    unfold applyVector
    rw [h, Vec.contract_extend]; ext i; simp

end Cgl
