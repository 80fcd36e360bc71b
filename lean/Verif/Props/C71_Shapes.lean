import Verif.Model.Constraint
import Mathlib.Tactic.FinCases
import Mathlib.Tactic.IntervalCases
import Mathlib.Tactic.NormNum
import Mathlib.Tactic.Linarith

/-! # C71 - the shapes that type-check -/

namespace Cgl
open Shape

/-- `DimAdd` is implemented exactly for dimensions one to four, and its output is the sum. -/
theorem C71_dim_add (a b c : ℕ) : dimAdd a b = some c ↔ (1 ≤ a ∧ a ≤ 4) ∧ (1 ≤ b ∧ b ≤ 4) ∧ c = a + b := by
  unfold dimAdd dimAddTable
  constructor
  · intro h
    split_ifs at h with hm
    simp only [List.mem_cons, Prod.mk.injEq, List.not_mem_nil, or_false] at hm
    injection h with h
    omega
  · rintro ⟨⟨h1, h2⟩, ⟨h3, h4⟩, rfl⟩
    interval_cases a <;> interval_cases b <;> rfl

/-- `DimSub` is implemented exactly for a minuend of at most four and a subtrahend from one up to the minuend; its
output is the difference, which added to the subtrahend gives the minuend. -/
theorem C71_dim_sub (a b c : ℕ) : dimSub a b = some c ↔ 1 ≤ b ∧ a ≤ 4 ∧ c + b = a := by
  unfold dimSub dimSubTable
  constructor
  · intro h
    split_ifs at h with hm
    simp only [List.mem_cons, Prod.mk.injEq, List.not_mem_nil, or_false] at hm
    injection h with h
    omega
  · rintro ⟨h1, h2, rfl⟩
    have hb : b ≤ 4 := by omega
    have hc : c ≤ 4 := by omega
    interval_cases b <;> interval_cases c <;> first | rfl | omega

/-- `DimMul` is implemented exactly for dimensions one to four, and its output is the product. -/
theorem C71_dim_mul (a b c : ℕ) : dimMul a b = some c ↔ (1 ≤ a ∧ a ≤ 4) ∧ (1 ≤ b ∧ b ≤ 4) ∧ c = a * b := by
  unfold dimMul dimMulTable
  constructor
  · intro h
    split_ifs at h with hm
    simp only [List.mem_cons, Prod.mk.injEq, List.not_mem_nil, or_false] at hm
    injection h with h
    refine ⟨by omega, by omega, h.symm⟩
  · rintro ⟨⟨h1, h2⟩, ⟨h3, h4⟩, rfl⟩
    interval_cases a <;> interval_cases b <;> rfl

/-- `DimLt` is implemented exactly for the smaller dimension below the larger, up to four. -/
theorem C71_dim_lt (a b : ℕ) : dimLt a b = true ↔ a < b ∧ b ≤ 4 := by
  unfold dimLt dimLtTable
  simp only [List.mem_cons, Prod.mk.injEq, List.not_mem_nil, or_false, decide_eq_true_eq]
  omega

/-- Extending is possible from dimensions one, two and three, to the next dimension and no other. -/
theorem C71_extend (n m : ℕ) : extendOk n m = true ↔ 1 ≤ n ∧ n ≤ 3 ∧ m = n + 1 := by
  simp only [extendOk, canExtend, Bool.and_eq_true, beq_iff_eq, C71_dim_add, C71_dim_sub]
  omega

/-- What can be extended can be contracted back to the dimension it came from, and conversely: the result types of
`extend` and `contract`, and of `to_homogeneous` and `from_homogeneous`, fit together. -/
theorem C71_extend_contract (n m : ℕ) :
    (extendOk n m = contractOk m n) ∧ (extendOk n m = fromHomogeneousOk m n) := by
  constructor <;> rw [Bool.eq_iff_iff] <;>
    simp only [extendOk, contractOk, fromHomogeneousOk, canExtend, canContract, Bool.and_eq_true, beq_iff_eq,
      C71_dim_add, C71_dim_sub] <;> omega

/-- The product of an `r1 x c1` and an `r2 x c2` matrix exists exactly when the inner dimensions agree and the outer
dimensions are one to four; it is an `r1 x c2` matrix. -/
theorem C71_product (r1 c1 r2 c2 : ℕ) (s : ℕ × ℕ) :
    mulShape (r1, c1) (r2, c2) = some s ↔ c1 = r2 ∧ (1 ≤ r1 ∧ r1 ≤ 4) ∧ (1 ≤ c2 ∧ c2 ≤ 4) ∧ s = (r1, c2) := by
  have hm : ∀ a b, (1 ≤ a ∧ a ≤ 4) ∧ (1 ≤ b ∧ b ≤ 4) → dimMul a b = some (a * b) := fun a b h =>
    (C71_dim_mul a b _).mpr ⟨h.1, h.2, rfl⟩
  by_cases h : (1 ≤ r1 ∧ r1 ≤ 4) ∧ (1 ≤ c2 ∧ c2 ≤ 4)
  · simp only [mulShape, hm r1 c2 h, hm c2 r1 ⟨h.2, h.1⟩, canMultiply, dimEq, Bool.and_eq_true, beq_iff_eq,
      Nat.mul_comm c2 r1, and_true]
    constructor
    · intro hs
      split_ifs at hs with hc
      exact ⟨hc.1, h.1, h.2, (Option.some.inj hs).symm⟩
    · rintro ⟨rfl, _, _, rfl⟩
      simp
  · have : dimMul r1 c2 = none := by
      rw [Option.eq_none_iff_forall_not_mem]
      intro c hc
      exact h ⟨((C71_dim_mul _ _ _).mp hc).1, ((C71_dim_mul _ _ _).mp hc).2.1⟩
    simp only [mulShape, this]
    constructor
    · intro hs; simp at hs
    · rintro ⟨_, h1, h2, _⟩; exact absurd ⟨h1, h2⟩ h

/-- `tr_mul` of an `r1 x c1` and an `r2 x c2` matrix exists exactly when they have the same number of rows and between
one and four columns each; the result has a row for each column of the first and a column for each column of the
second. -/
theorem C71_tr_mul (r1 c1 r2 c2 : ℕ) (s : ℕ × ℕ) :
    trMulShape (r1, c1) (r2, c2) = some s ↔ r1 = r2 ∧ (1 ≤ c1 ∧ c1 ≤ 4) ∧ (1 ≤ c2 ∧ c2 ≤ 4) ∧ s = (c1, c2) := by
  have e : trMulShape (r1, c1) (r2, c2) = mulShape (c1, r1) (r2, c2) := rfl
  rw [e, C71_product]

/-- Within dimensions one to four products associate: one order of two products type-checks exactly when the other
does, with the same shape. -/
theorem C71_product_assoc (a b c d : ℕ × ℕ) (hb : 1 ≤ b.1 ∧ b.1 ≤ 4) (hc : 1 ≤ b.2 ∧ b.2 ≤ 4) :
    ((mulShape a b).bind (fun s => mulShape s c) = some d) ↔ ((mulShape b c).bind (fun s => mulShape a s) = some d) := by
  obtain ⟨a1, a2⟩ := a; obtain ⟨b1, b2⟩ := b; obtain ⟨c1, c2⟩ := c; obtain ⟨d1, d2⟩ := d
  simp only [Option.bind_eq_some_iff, Prod.exists, C71_product, Prod.mk.injEq]
  constructor
  · rintro ⟨x, y, ⟨h1, h2, h3, rfl, rfl⟩, h4, h5, h6, h7, h8⟩
    exact ⟨b1, c2, ⟨h4, hb, h6, rfl, rfl⟩, h1, h2, h6, h7, h8⟩
  · rintro ⟨x, y, ⟨h1, h2, h3, rfl, rfl⟩, h4, h5, h6, h7, h8⟩
    exact ⟨a1, b2, ⟨h4, h5, hc, rfl, rfl⟩, h1, h5, h3, h7, h8⟩

/-- Beyond four they do not: a `1 x 5` by `5 x 1` by `1 x 1` product type-checks in one order only. -/
theorem C71_product_assoc_fails :
    (mulShape (1, 5) (5, 1)).bind (fun s => mulShape s (1, 1)) = some (1, 1) ∧
    (mulShape (5, 1) (1, 1)).bind (fun s => mulShape (1, 5) s) = none := by
  decide

/-- A square matrix embeds in every larger square matrix up to four by four, and in nothing else; embeddings compose. -/
theorem C71_embed (m n : ℕ) : (embedOk m n = true ↔ m < n ∧ n ≤ 4) ∧
    ∀ k, embedOk m n = true → embedOk n k = true → embedOk m k = true := by
  refine ⟨C71_dim_lt m n, fun k h1 h2 => ?_⟩
  have h1 := (C71_dim_lt m n).mp h1
  have h2 := (C71_dim_lt n k).mp h2
  exact (C71_dim_lt m k).mpr ⟨by omega, h2.2⟩

/-- Affine matrices exist for one, two and three dimensions. -/
theorem C71_affine (n m : ℕ) : affineOk n m = true ↔ 1 ≤ n ∧ n ≤ 3 ∧ m = n + 1 := by
  simp only [affineOk, Bool.and_eq_true, beq_iff_eq, C71_dim_add, C71_dim_lt]
  omega

/-- Where an affine matrix exists, so does the product of two of them, of the same shape, and a homogeneous vector can
be multiplied by it and contracted again. -/
theorem C71_affine_product (n m : ℕ) (h : affineOk n m = true) :
    mulShape (m, m) (m, m) = some (m, m) ∧ mulShape (m, m) (m, 1) = some (m, 1) ∧ extendOk n m = true ∧
    fromHomogeneousOk m n = true := by
  have h' := (C71_affine n m).mp h
  have he := (C71_extend n m).mpr h'
  exact ⟨(C71_product _ _ _ _ _).mpr ⟨rfl, by omega, by omega, rfl⟩,
    (C71_product _ _ _ _ _).mpr ⟨rfl, by omega, by omega, rfl⟩, he, (C71_extend_contract n m).2 ▸ he⟩

/-- a rectangular product, and one that does not type-check -/
example : mulShape (2, 3) (3, 4) = some (2, 4) ∧ mulShape (2, 3) (2, 3) = none := by decide

end Cgl
