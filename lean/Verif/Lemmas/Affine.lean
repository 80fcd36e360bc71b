import Verif.Lemmas.MatrixSq

/-! # Affine matrices: entries and action on homogeneous vectors -/

namespace Cgl
namespace Mat

variable {S : Type*} {R C n : ℕ}

/-- a loop writing at pairwise distinct positions -/
theorem loop_positions (n : ℕ) (d : Fin C → Fin R → S) (f : Fin n → Fin C) (g : Fin n → Fin R) (x : Fin n → S)
    (hinj : ∀ i j, f i = f j → g i = g j → i = j) :
    (∀ i, (forRange n d fun i data => set data (f i) (g i) (x i)) (f i) (g i) = x i) ∧
    (∀ c r, (∀ i, ¬ (f i = c ∧ g i = r)) →
      (forRange n d fun i data => set data (f i) (g i) (x i)) c r = d c r) := by
  have key := forRange_induction (n := n) (s := d) (b := fun i data => set data (f i) (g i) (x i))
    (fun k (e : Fin C → Fin R → S) => (∀ i : Fin n, (i : ℕ) < k → e (f i) (g i) = x i) ∧
      (∀ c r, (∀ i, ¬ (f i = c ∧ g i = r)) → e c r = d c r)) (by simp) (by
      intro i t ht
      refine ⟨fun j hj => ?_, fun c r h => ?_⟩
      · by_cases h : j = i
        · subst h; simp
        · have hne : (j : ℕ) ≠ i := fun h' => h (Fin.ext h')
          rw [set_apply, if_neg]
          · exact ht.1 j (by omega)
          · rintro ⟨h1, h2⟩; exact h (hinj _ _ h1 h2)
      · rw [set_apply, if_neg, ht.2 c r h]
        rintro ⟨h1, h2⟩; exact h i ⟨h1.symm, h2.symm⟩)
  exact ⟨fun i => key.1 i i.2, key.2⟩

section
variable [Zero S] [One S]

theorem fromAffineTranslation_last (d : Vec S n) (r : Fin n) :
    (fromAffineTranslation d).data (Fin.last n) r.castSucc = d.data r :=
  (loop_positions n (identity (N := n + 1)).data (fun _ => Fin.last n) Fin.castSucc d.data
    (fun _ _ _ h => Fin.castSucc_injective _ h)).1 r

theorem fromAffineTranslation_other (d : Vec S n) (c r : Fin (n + 1))
    (h : c ≠ Fin.last n ∨ r = Fin.last n) :
    (fromAffineTranslation d).data c r = if c = r then 1 else 0 := by
  refine ((loop_positions n (identity (N := n + 1)).data (fun _ => Fin.last n) Fin.castSucc d.data
    (fun _ _ _ h => Fin.castSucc_injective _ h)).2 c r ?_).trans (by simp)
  rintro i ⟨h1, h2⟩
  rcases h with h | h
  · exact h h1.symm
  · subst h; exact (Fin.castSucc_lt_last i).ne h2

theorem fromAffineNonuniformScale_diag (s : Vec S n) (i : Fin n) :
    (fromAffineNonuniformScale s).data i.castSucc i.castSucc = s.data i :=
  (loop_positions n (identity (N := n + 1)).data Fin.castSucc Fin.castSucc s.data
    (fun _ _ h _ => Fin.castSucc_injective _ h)).1 i

theorem fromAffineNonuniformScale_other (s : Vec S n) (c r : Fin (n + 1)) (h : c ≠ r ∨ c = Fin.last n) :
    (fromAffineNonuniformScale s).data c r = if c = r then 1 else 0 := by
  refine ((loop_positions n (identity (N := n + 1)).data Fin.castSucc Fin.castSucc s.data
    (fun _ _ h _ => Fin.castSucc_injective _ h)).2 c r ?_).trans (by simp)
  rintro i ⟨h1, h2⟩
  rcases h with h | h
  · exact h (h1.symm.trans h2)
  · subst h; exact (Fin.castSucc_lt_last i).ne h1

theorem fromAffineScale_eq (k : S) :
    (fromAffineScale k : Mat S (n + 1) (n + 1)) = fromAffineNonuniformScale (Vec.fromFill k) := rfl

end

section
variable [CommRing S]

theorem fromAffineTranslation_mul (d v : Vec S n) (w : S) :
    fromAffineTranslation d * v.extend w = (v + d * w).extend w := by
  ext r
  rw [mulVec_data, Fin.sum_univ_castSucc]
  refine Fin.lastCases ?_ (fun r => ?_) r
  · rw [fromAffineTranslation_other d (Fin.last n) (Fin.last n) (Or.inr rfl)]
    rw [Finset.sum_eq_zero]
    · simp
    · intro i _
      rw [fromAffineTranslation_other d _ _ (Or.inl (Fin.castSucc_lt_last i).ne),
        if_neg (Fin.castSucc_lt_last i).ne, zero_mul]
  · rw [fromAffineTranslation_last, Finset.sum_eq_single r]
    · rw [fromAffineTranslation_other d _ _ (Or.inl (Fin.castSucc_lt_last r).ne)]; simp
    · intro i _ hi
      rw [fromAffineTranslation_other d _ _ (Or.inl (Fin.castSucc_lt_last i).ne),
        if_neg (fun h => hi (Fin.castSucc_injective _ h)), zero_mul]
    · simp

theorem fromAffineNonuniformScale_mul (s v : Vec S n) (w : S) :
    fromAffineNonuniformScale s * v.extend w = (s.componentMul v).extend w := by
  ext r
  rw [mulVec_data, Fin.sum_univ_castSucc]
  refine Fin.lastCases ?_ (fun r => ?_) r
  · rw [fromAffineNonuniformScale_other s (Fin.last n) (Fin.last n) (Or.inr rfl)]
    rw [Finset.sum_eq_zero]
    · simp
    · intro i _
      rw [fromAffineNonuniformScale_other s _ _ (Or.inl (Fin.castSucc_lt_last i).ne),
        if_neg (Fin.castSucc_lt_last i).ne, zero_mul]
  · rw [fromAffineNonuniformScale_other s _ _ (Or.inl (Fin.castSucc_lt_last r).ne'),
      if_neg (Fin.castSucc_lt_last r).ne', zero_mul, add_zero, Finset.sum_eq_single r]
    · rw [fromAffineNonuniformScale_diag]; simp
    · intro i _ hi
      rw [fromAffineNonuniformScale_other s _ _ (Or.inl fun h => hi (Fin.castSucc_injective _ h)),
        if_neg (fun h => hi (Fin.castSucc_injective _ h)), zero_mul]
    · simp

/-- a matrix is determined by its action on homogeneous vectors -/
theorem eq_of_mul_extend (A B : Mat S (n + 1) (n + 1))
    (h : ∀ (v : Vec S n) (w : S), A * v.extend w = B * v.extend w) : A = B := by
  apply toMatrix_injective
  apply Matrix.mulVec_injective
  funext x
  have := congrArg Vec.data (h (Vec.contract ⟨x⟩) (x (Fin.last n)))
  have e : (Vec.contract ⟨x⟩ : Vec S n).extend (x (Fin.last n)) = ⟨x⟩ := Vec.extend_contract ⟨x⟩
  rw [e, mulVec_eq, mulVec_eq] at this
  exact this

/-- agreeing on free vectors (last coordinate 0) and on points (last coordinate 1) is enough -/
theorem eq_of_mul_extend01 (A B : Mat S (n + 1) (n + 1))
    (h0 : ∀ v : Vec S n, A * v.extend 0 = B * v.extend 0)
    (h1 : ∀ v : Vec S n, A * v.extend 1 = B * v.extend 1) : A = B := by
  apply eq_of_mul_extend
  intro v w
  have key : ∀ M : Mat S (n + 1) (n + 1),
      M * v.extend w = M * v.extend 0 + (M * (0 : Vec S n).extend 1) * w := by
    intro M
    ext i
    simp only [mulVec_data, Vec.add_data, Vec.mulS_data, Finset.sum_mul, ← Finset.sum_add_distrib]
    refine Finset.sum_congr rfl fun j _ => ?_
    refine Fin.lastCases ?_ (fun k => ?_) j
    · simp [Vec.extend_last]
    · simp [Vec.extend_castSucc]
  rw [key A, key B, h0, h1]

theorem mul_mulVec (A : Mat S R C) {K : ℕ} (B : Mat S C K) (v : Vec S K) : (A * B) * v = A * (B * v) := by
  apply Vec.ext; simp only [mulVec_eq, toMatrix_mul, Matrix.mulVec_mulVec]

theorem identity_mulVec (v : Vec S n) : (identity : Mat S n n) * v = v := by
  apply Vec.ext; simp only [mulVec_eq, toMatrix_identity, Matrix.one_mulVec]

end

/-! ### small sizes -/

theorem vec2_eta (v : Vec S 2) : v = Vec.new2 (v.data 0) (v.data 1) := Vec.ext2 rfl rfl
theorem vec3_eta (v : Vec S 3) : v = Vec.new3 (v.data 0) (v.data 1) (v.data 2) := Vec.ext3 rfl rfl rfl

section
variable [NonUnitalNonAssocSemiring S]

theorem mulVec2 (A : Mat S 2 2) (v : Vec S 2) : A * v =
    Vec.new2 (A.data 0 0 * v.data 0 + A.data 1 0 * v.data 1) (A.data 0 1 * v.data 0 + A.data 1 1 * v.data 1) := by
  apply Vec.ext2 <;> simp [mulVec_data, Fin.sum_univ_two]

theorem mulVec3 (A : Mat S 3 3) (v : Vec S 3) : A * v = Vec.new3
    (A.data 0 0 * v.data 0 + A.data 1 0 * v.data 1 + A.data 2 0 * v.data 2)
    (A.data 0 1 * v.data 0 + A.data 1 1 * v.data 1 + A.data 2 1 * v.data 2)
    (A.data 0 2 * v.data 0 + A.data 1 2 * v.data 1 + A.data 2 2 * v.data 2) := by
  apply Vec.ext3 <;> simp [mulVec_data, Fin.sum_univ_three]

theorem mulVec4 (A : Mat S 4 4) (v : Vec S 4) : A * v = Vec.new4
    (A.data 0 0 * v.data 0 + A.data 1 0 * v.data 1 + A.data 2 0 * v.data 2 + A.data 3 0 * v.data 3)
    (A.data 0 1 * v.data 0 + A.data 1 1 * v.data 1 + A.data 2 1 * v.data 2 + A.data 3 1 * v.data 3)
    (A.data 0 2 * v.data 0 + A.data 1 2 * v.data 1 + A.data 2 2 * v.data 2 + A.data 3 2 * v.data 3)
    (A.data 0 3 * v.data 0 + A.data 1 3 * v.data 1 + A.data 2 3 * v.data 2 + A.data 3 3 * v.data 3) := by
  apply Vec.ext4 <;> simp [mulVec_data, Fin.sum_univ_four]

end

theorem extend2_eq [Zero S] (v : Vec S 2) (w : S) : v.extend w = Vec.new3 (v.data 0) (v.data 1) w := by
  rw [vec2_eta v]; simp
theorem extend3_eq [Zero S] (v : Vec S 3) (w : S) :
    v.extend w = Vec.new4 (v.data 0) (v.data 1) (v.data 2) w := by
  rw [vec3_eta v]; simp

section
variable [NonUnitalNonAssocSemiring S]

theorem mulVec3_extend (A : Mat S 3 3) (v : Vec S 2) (w : S) : A * v.extend w = Vec.new3
    (A.data 0 0 * v.data 0 + A.data 1 0 * v.data 1 + A.data 2 0 * w)
    (A.data 0 1 * v.data 0 + A.data 1 1 * v.data 1 + A.data 2 1 * w)
    (A.data 0 2 * v.data 0 + A.data 1 2 * v.data 1 + A.data 2 2 * w) := by
  rw [extend2_eq]; exact mulVec3 A _

theorem mulVec4_extend (A : Mat S 4 4) (v : Vec S 3) (w : S) : A * v.extend w = Vec.new4
    (A.data 0 0 * v.data 0 + A.data 1 0 * v.data 1 + A.data 2 0 * v.data 2 + A.data 3 0 * w)
    (A.data 0 1 * v.data 0 + A.data 1 1 * v.data 1 + A.data 2 1 * v.data 2 + A.data 3 1 * w)
    (A.data 0 2 * v.data 0 + A.data 1 2 * v.data 1 + A.data 2 2 * v.data 2 + A.data 3 2 * w)
    (A.data 0 3 * v.data 0 + A.data 1 3 * v.data 1 + A.data 2 3 * v.data 2 + A.data 3 3 * w) := by
  rw [extend3_eq]; exact mulVec4 A _

end

end Mat
end Cgl
