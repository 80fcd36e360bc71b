import Verif.Props.C108_VectorFunctions

/-! # C110 - products, norms, distances, trace and interpolation of matrices of every shape in IEEE arithmetic -/

namespace Cgl
open Ieee FloatFns Mat Spec Rounding Matrix

variable {φ : Format} {R C N : ℕ}

namespace Spec

/-- the real matrix that the entries stand for -/
noncomputable def grid (m : Mat (Ieee φ) R C) : Matrix (Fin R) (Fin C) ℝ := Matrix.of fun r c => (m.data c r).val

/-- the square root of the sum of the squares of all entries -/
noncomputable def frobNorm (A : Matrix (Fin R) (Fin C) ℝ) : ℝ := Real.sqrt (∑ r, ∑ c, A r c ^ 2)

/-- every entry is a finite number -/
def EveryFinite (m : Mat (Ieee φ) R C) : Prop := ∀ r c, (m.data c r).Finite

/-- every entry of `m` is a finite number within `e` of that of the matrix `A` of real numbers -/
def CloseMat (m : Mat (Ieee φ) R C) (A : Matrix (Fin R) (Fin C) ℝ) (e : ℝ) : Prop := ∀ r c, NearTo (m.data c r) (A r c) e

/-- the computed norm is within `k` roundings of the exact one; so the normalized matrix has finite entries, within `k + 3` roundings of those of the
exact one, plus the rounding of a subnormal number, and its norm is within `k + 4` roundings of one -/
def NormAndDirection [FloatFns (Ieee φ)] (k : ℕ) (m : Mat (Ieee φ) R C) : Prop :=
  NearTo m.norm (frobNorm (grid m)) (k * φ.u * frobNorm (grid m)) ∧
  (∀ r c, NearTo (m.normalize.data c r) (grid m r c / frobNorm (grid m)) ((k + 3) * φ.u * |grid m r c / frobNorm (grid m)| + φ.tiny)) ∧
  |frobNorm (grid m.normalize) - 1| ≤ (k + 4) * φ.u

end Spec

/-! ### a matrix as a vector -/

/-- the entries row by row -/
def flat {S : Type*} (m : Mat S R C) : Vec S (R * C) := ⟨fun k => m.data k.modNat k.divNat⟩

theorem loop_join {σ : Type*} {a b : ℕ} (s : σ) (f : Fin (a + b) → σ → σ) :
    forRange (a + b) s f = forRange b (forRange a s fun i => f (Fin.castAdd b i)) fun i => f (Fin.natAdd a i) := by
  exact Fin.foldl_add _ _

theorem loop_cast {σ : Type*} {a b : ℕ} (h : a = b) (s : σ) (f : Fin b → σ → σ) : forRange b s f = forRange a s fun i => f (Fin.cast h i) := by
  subst h; rfl

/-- two loops, one inside the other, are one loop -/
theorem nested_loop {σ : Type*} (s : σ) (f : Fin R → Fin C → σ → σ) :
    (forRange R s fun r st => forRange C st (f r)) = forRange (R * C) s fun k => f k.divNat k.modNat := by
  induction R with
  | zero => rw [loop_cast (Nat.zero_mul C).symm]; simp
  | succ R ih =>
    rw [forRange_succ, ih fun r => f r.castSucc, loop_cast (Nat.succ_mul R C).symm, loop_join]
    have e1 : ∀ i : Fin (R * C), (Fin.cast (Nat.succ_mul R C).symm (Fin.castAdd C i)).divNat = i.divNat.castSucc := fun i => Fin.ext rfl
    have e2 : ∀ i : Fin (R * C), (Fin.cast (Nat.succ_mul R C).symm (Fin.castAdd C i)).modNat = i.modNat := fun i => Fin.ext rfl
    have e3 : ∀ i : Fin C, (Fin.cast (Nat.succ_mul R C).symm (Fin.natAdd (R * C) i)).divNat = Fin.last R := fun i => Fin.ext (by
      have hC : 0 < C := i.pos
      simp [Fin.divNat, Nat.add_div_of_dvd_right (Dvd.intro_left R rfl), Nat.mul_div_cancel R hC, Nat.div_eq_of_lt i.2])
    have e4 : ∀ i : Fin C, (Fin.cast (Nat.succ_mul R C).symm (Fin.natAdd (R * C) i)).modNat = i := fun i => Fin.ext (by
      simp [Fin.modNat, Nat.mod_eq_of_lt i.2])
    simp only [e1, e2, e3, e4]

section Flat
variable {S : Type*} [Zero S] [Add S] [Mul S]

theorem flat_dot (m k : Mat S R C) : m.dot k = (flat m).dot (flat k) :=
  nested_loop (0 : S) fun r c result => result + m.data c r * k.data c r

theorem flat_trDot (m : Mat S R C) (k : Mat S C R) : m.trDot k = (flat m).dot (flat k.transpose) := by
  have h := nested_loop (0 : S) fun (r : Fin R) (c : Fin C) result => result + m.data c r * k.data r c
  refine h.trans ?_
  have e : ∀ c r, k.transpose.data c r = k.data r c := fun c r => by simp
  unfold Vec.dot flat
  simp only [e]

theorem flat_normSquared (m : Mat S R C) : m.normSquared = (flat m).normSquared := flat_dot m m

theorem flat_norm [FloatFns S] (m : Mat S R C) : m.norm = (flat m).norm := by rw [Mat.norm, flat_normSquared]; rfl

omit [Add S] [Mul S] in
theorem flat_sub [Sub S] (m k : Mat S R C) : flat (m - k) = flat m - flat k := by
  apply Vec.ext; funext i; simp [flat]

theorem flat_lerp [Sub S] (m k : Mat S R C) (t : S) : flat (m.lerp k t) = (flat m).lerp (flat k) t := by
  apply Vec.ext; funext i; simp [flat, Mat.lerp, Vec.lerp]

theorem flat_normalize [One S] [Div S] [FloatFns S] (m : Mat S R C) : flat m.normalize = (flat m).normalize := by
  apply Vec.ext; funext i; simp [flat, Mat.normalize, Vec.normalize, flat_norm]

end Flat

theorem sum_grid (f : Fin R → Fin C → ℝ) : ∑ k : Fin (R * C), f k.divNat k.modNat = ∑ r, ∑ c, f r c := by
  rw [← Fintype.sum_prod_type' f]
  exact Equiv.sum_comp finProdFinEquiv.symm fun p : Fin R × Fin C => f p.1 p.2

theorem flat_length (m : Mat (Ieee φ) R C) : vecNorm (values (flat m)) = frobNorm (grid m) :=
  congrArg Real.sqrt (sum_grid fun r c => grid m r c ^ 2)

theorem flat_values (m : Mat (Ieee φ) R C) (k) : values (flat m) k = grid m k.divNat k.modNat := rfl

theorem flat_difference (m k : Mat (Ieee φ) R C) : vecNorm (values (flat m) - values (flat k)) = frobNorm (grid m - grid k) :=
  congrArg Real.sqrt (sum_grid fun r c => (grid m - grid k) r c ^ 2)

theorem flat_product (m k : Mat (Ieee φ) R C) : values (flat m) ⬝ᵥ values (flat k) = ∑ r, ∑ c, grid m r c * grid k r c :=
  sum_grid fun r c => grid m r c * grid k r c

theorem flat_entry {S : Type*} (m : Mat S R C) (r : Fin R) (c : Fin C) : (flat m).data (finProdFinEquiv (r, c)) = m.data c r := by
  have h := finProdFinEquiv.symm_apply_apply (r, c)
  have h1 : (finProdFinEquiv (r, c)).divNat = r := congrArg Prod.fst h
  have h2 : (finProdFinEquiv (r, c)).modNat = c := congrArg Prod.snd h
  change m.data (finProdFinEquiv (r, c)).modNat (finProdFinEquiv (r, c)).divNat = _
  rw [h1, h2]

theorem Spec.EveryFinite.flat {m : Mat (Ieee φ) R C} (h : EveryFinite m) (k) : ((Cgl.flat m).data k).Finite := h _ _

theorem flat_direction [FloatFns (Ieee φ)] {k : ℕ} {m : Mat (Ieee φ) R C} (h : LengthAndDirection k (flat m)) : NormAndDirection k m := by
  obtain ⟨h1, h2, h3, h4⟩ := h
  change |_ - vecNorm (values (flat m))| ≤ _ * vecNorm (values (flat m)) at h2
  change |vecNorm (values (flat m).normalize) - 1| ≤ _ at h4
  rw [← flat_normalize, flat_length] at h4
  rw [← flat_norm] at h1 h2
  rw [flat_length] at h2
  refine ⟨⟨h1, h2⟩, fun r c => ?_, h4⟩
  have := h3 (finProdFinEquiv (r, c))
  rw [← flat_normalize, flat_entry, flat_entry] at this
  change _ ∧ |_ - _ / vecNorm (values (flat m))| ≤ _ * |_ / vecNorm (values (flat m))| + _ at this
  rw [flat_length] at this
  exact this

/-! ### loops for the largest sum and for the trace -/

theorem max_loop {n : ℕ} {g : Fin n → Ieee φ} (hg : ∀ i, (g i).Finite) :
    (forRange n 0 fun i result => max result (g i)).Finite ∧
    (∀ i, (g i).val ≤ (forRange n 0 fun i result => max result (g i)).val) ∧
    ((forRange n 0 fun i result => max result (g i)).val = 0 ∨ ∃ i, (forRange n 0 fun i result => max result (g i)).val = (g i).val) := by
  induction n with
  | zero => exact ⟨finite_zero, fun i => i.elim0, Or.inl rfl⟩
  | succ n ih =>
    rw [forRange_succ]
    obtain ⟨h1, h3, h4⟩ := ih fun i => hg i.castSucc
    obtain ⟨m1, m2⟩ := max_of h1 (hg (Fin.last n))
    refine ⟨m1, fun i => ?_, ?_⟩
    · rw [m2]
      rcases Fin.eq_castSucc_or_eq_last i with ⟨j, rfl⟩ | rfl
      · exact le_max_of_le_left (h3 j)
      · exact le_max_right _ _
    · rw [m2]
      rcases max_choice (forRange n 0 fun i result => max result (g i.castSucc)).val (g (Fin.last n)).val with h | h <;> rw [h]
      · exact h4.imp id fun ⟨i, hi⟩ => ⟨i.castSucc, hi⟩
      · exact Or.inr ⟨_, rfl⟩

theorem largest_value {n : ℕ} {g : Fin n → Ieee φ} {s : Fin n → ℝ} {e M : ℝ} (hg : ∀ i, NearTo (g i) (s i) e) (hs : ∀ i, 0 ≤ s i)
    (hM : IsGreatest (Set.range s) M) : NearTo (forRange n 0 fun i result => max result (g i)) M e := by
  obtain ⟨h1, h2, h3⟩ := max_loop fun i => (hg i).1
  refine ⟨h1, ?_⟩
  obtain ⟨⟨j, rfl⟩, hM⟩ := hM
  have c1 := abs_le.mp (hg j).2
  have c2 := h2 j
  have c3 := hs j
  rcases h3 with h3 | ⟨i, h3⟩
  · rw [abs_le]; constructor <;> linarith
  · have c4 := abs_le.mp (hg i).2
    have c5 : s i ≤ s j := hM ⟨i, rfl⟩
    rw [abs_le]; constructor <;> linarith

section Sums
variable {lo hi X Y M : ℝ}

theorem trace_value (A : Adequate φ N lo hi) {m : Mat (Ieee φ) N N} (hm : ∀ i, (m.data i i).Finite) (hX : ∑ i, |grid m i i| ≤ X) (h1 : lo ≤ X)
    (h2 : X ≤ hi) : NearTo m.trace (Matrix.trace (grid m)) (5 * N * φ.u * X) := by
  have e : m.trace = forRange N 0 fun i result => result + m.data i i * 1 := by
    simp only [Homogeneous.mul_one]; rfl
  have hs : ∀ i, (m.data i i).val * (1 : Ieee φ).val = grid m i i := fun i => by
    rw [show (1 : Ieee φ).val = 1 from rfl, _root_.mul_one]; rfl
  have := dot_loop_sum A.small (few_loops A) (A.fits _ h1 h2) (f := fun i => m.data i i) (g := fun _ => 1)
    hm (fun _ => finite_one) (by simp only [hs]; exact hX)
  rw [← e] at this
  simp only [hs] at this
  exact this

theorem columns_value (A : Adequate φ R lo hi) {m : Mat (Ieee φ) R C} (hm : EveryFinite m) (hM : IsGreatest (Set.range fun c => ∑ r, |grid m r c|) M)
    (h1 : lo ≤ M) (h2 : M ≤ hi) : NearTo m.l1Norm M (5 * R * φ.u * M) :=
  largest_value (fun c => l1_value A (v := ⟨m.data c⟩) (fun r => hm r c) (hM.2 ⟨c, rfl⟩) h1 h2)
    (fun _ => Finset.sum_nonneg fun _ _ => abs_nonneg _) hM

theorem rows_value (A : Adequate φ C lo hi) {m : Mat (Ieee φ) R C} (hm : EveryFinite m) (hM : IsGreatest (Set.range fun r => ∑ c, |grid m r c|) M)
    (h1 : lo ≤ M) (h2 : M ≤ hi) : NearTo m.linfNorm M (5 * C * φ.u * M) :=
  largest_value (fun r => l1_value A (v := ⟨fun c => m.data c r⟩) (fun c => hm r c) (hM.2 ⟨r, rfl⟩) h1 h2)
    (fun _ => Finset.sum_nonneg fun _ _ => abs_nonneg _) hM

theorem entrywise_value (A : Adequate φ (R * C) lo hi) {m k : Mat (Ieee φ) R C} (hm : EveryFinite m) (hk : EveryFinite k) (hX : frobNorm (grid m) ≤ X)
    (hY : frobNorm (grid k) ≤ Y) (h1 : lo ≤ X * Y) (h2 : X * Y ≤ hi) :
    NearTo (m.dot k) (∑ r, ∑ c, grid m r c * grid k r c) (5 * (R * C : ℕ) * φ.u * (X * Y)) := by
  rw [flat_dot, ← flat_product]
  exact dot_value A ⟨hm.flat, (flat_length m).le.trans hX⟩ ⟨hk.flat, (flat_length k).le.trans hY⟩ h1 h2

theorem frobNorm_transpose (B : Matrix (Fin R) (Fin C) ℝ) : frobNorm Bᵀ = frobNorm B := by
  unfold frobNorm; rw [Finset.sum_comm]; rfl

theorem grid_transpose (k : Mat (Ieee φ) R C) : grid k.transpose = (grid k)ᵀ := by
  ext r c; simp [grid]

theorem transposed_value (A : Adequate φ (R * C) lo hi) {m : Mat (Ieee φ) R C} {k : Mat (Ieee φ) C R} (hm : EveryFinite m) (hk : EveryFinite k)
    (hX : frobNorm (grid m) ≤ X) (hY : frobNorm (grid k) ≤ Y) (h1 : lo ≤ X * Y) (h2 : X * Y ≤ hi) :
    NearTo (m.trDot k) (Matrix.trace (grid m * grid k)) (5 * (R * C : ℕ) * φ.u * (X * Y)) := by
  have h := entrywise_value A (k := k.transpose) hm (fun r c => by simpa using hk c r) hX (by rw [grid_transpose, frobNorm_transpose]; exact hY) h1 h2
  rw [flat_dot, ← flat_trDot, grid_transpose] at h
  exact h

theorem product_entry_of {S : Type*} [Zero S] [Add S] [Mul S] {K : ℕ} (m : Mat S R K) (k : Mat S K C) (c r) :
    (m * k).data c r = forRange K 0 fun i result => result + m.data i r * k.data c i := by
  show (mul m k).data c r = _
  simp only [mul]; rw [loop_all _ fun c r => dotArrayCol m.data (k.data c) r]; rfl

/-- a product of two matrices: the rows of the first are at most `X` long and the columns of the second at most `Y` -/
theorem product_value {K : ℕ} (A : Adequate φ K lo hi) {m : Mat (Ieee φ) R K} {k : Mat (Ieee φ) K C} (hm : EveryFinite m) (hk : EveryFinite k)
    (hX : ∀ r, vecNorm (grid m r) ≤ X) (hY : ∀ c, vecNorm ((grid k)ᵀ c) ≤ Y) (h1 : lo ≤ X * Y) (h2 : X * Y ≤ hi) :
    CloseMat (m * k) (grid m * grid k) (5 * K * φ.u * (X * Y)) := fun r c => by
  rw [product_entry_of]
  exact dot_value A (v := ⟨fun i => m.data i r⟩) (w := ⟨k.data c⟩) ⟨fun i => hm r i, hX r⟩ ⟨fun i => hk i c, hY c⟩ h1 h2

theorem transposed_product_entry {S : Type*} [Zero S] [Add S] [Mul S] {C1 C2 : ℕ} (m : Mat S R C1) (k : Mat S R C2) (c r) :
    (m.trMul k).data c r = forRange R 0 fun i acc => acc + m.data r i * k.data c i := by
  simp only [trMul]
  rw [loop_all_swap _ fun c2 c1 => forRange R 0 fun r acc => acc + m.data c1 r * k.data c2 r]

theorem transposed_product_value {K : ℕ} (A : Adequate φ K lo hi) {m : Mat (Ieee φ) K R} {k : Mat (Ieee φ) K C} (hm : EveryFinite m) (hk : EveryFinite k)
    (hX : ∀ r, vecNorm ((grid m)ᵀ r) ≤ X) (hY : ∀ c, vecNorm ((grid k)ᵀ c) ≤ Y) (h1 : lo ≤ X * Y) (h2 : X * Y ≤ hi) :
    CloseMat (m.trMul k) ((grid m)ᵀ * grid k) (5 * K * φ.u * (X * Y)) := fun r c => by
  rw [transposed_product_entry]
  exact dot_value A (v := ⟨m.data r⟩) (w := ⟨k.data c⟩) ⟨fun i => hm i r, hX r⟩ ⟨fun i => hk i c, hY c⟩ h1 h2

theorem applied_value (A : Adequate φ C lo hi) {m : Mat (Ieee φ) R C} {v : Vec (Ieee φ) C} (hm : EveryFinite m) (hv : Short Y v)
    (hX : ∀ r, vecNorm (grid m r) ≤ X) (h1 : lo ≤ X * Y) (h2 : X * Y ≤ hi) : Close (m * v) (grid m *ᵥ values v) (5 * C * φ.u * (X * Y)) := fun r => by
  rw [mulVec_data_op]
  exact dot_value A (v := ⟨fun i => m.data i r⟩) ⟨fun i => hm r i, hX r⟩ hv h1 h2

end Sums

/-! ### the property -/

section Property
variable {X Y M : ℝ}

/-- **C110.**  The sum of the products of the entries of two matrices with norms of at most `X` and `Y`. -/
theorem C110_dot64 (hn : R * C ≤ 1000000) {m k : Mat (Ieee f64) R C} (hm : EveryFinite m) (hk : EveryFinite k) (hX : frobNorm (grid m) ≤ X)
    (hY : frobNorm (grid k) ≤ Y) (h1 : (2 : ℝ) ^ (-1000 : ℤ) ≤ X * Y) (h2 : X * Y ≤ 2 ^ (1000 : ℤ)) :
    NearTo (m.dot k) (∑ r, ∑ c, grid m r c * grid k r c) (5 * (R * C : ℕ) * 2 ^ (-53 : ℤ) * (X * Y)) :=
  entrywise_value (adequate64 hn) hm hk hX hY h1 h2

theorem C110_dot32 (hn : R * C ≤ 60) {m k : Mat (Ieee f32) R C} (hm : EveryFinite m) (hk : EveryFinite k) (hX : frobNorm (grid m) ≤ X)
    (hY : frobNorm (grid k) ≤ Y) (h1 : (2 : ℝ) ^ (-126 : ℤ) ≤ X * Y) (h2 : X * Y ≤ 2 ^ (126 : ℤ)) :
    NearTo (m.dot k) (∑ r, ∑ c, grid m r c * grid k r c) (5 * (R * C : ℕ) * 2 ^ (-24 : ℤ) * (X * Y)) :=
  entrywise_value (adequate32 hn) hm hk hX hY h1 h2

/-- **C110.**  `tr_dot` is near the trace of the product. -/
theorem C110_tr_dot64 (hn : R * C ≤ 1000000) {m : Mat (Ieee f64) R C} {k : Mat (Ieee f64) C R} (hm : EveryFinite m) (hk : EveryFinite k)
    (hX : frobNorm (grid m) ≤ X) (hY : frobNorm (grid k) ≤ Y) (h1 : (2 : ℝ) ^ (-1000 : ℤ) ≤ X * Y) (h2 : X * Y ≤ 2 ^ (1000 : ℤ)) :
    NearTo (m.trDot k) (Matrix.trace (grid m * grid k)) (5 * (R * C : ℕ) * 2 ^ (-53 : ℤ) * (X * Y)) :=
  transposed_value (adequate64 hn) hm hk hX hY h1 h2

theorem C110_tr_dot32 (hn : R * C ≤ 60) {m : Mat (Ieee f32) R C} {k : Mat (Ieee f32) C R} (hm : EveryFinite m) (hk : EveryFinite k)
    (hX : frobNorm (grid m) ≤ X) (hY : frobNorm (grid k) ≤ Y) (h1 : (2 : ℝ) ^ (-126 : ℤ) ≤ X * Y) (h2 : X * Y ≤ 2 ^ (126 : ℤ)) :
    NearTo (m.trDot k) (Matrix.trace (grid m * grid k)) (5 * (R * C : ℕ) * 2 ^ (-24 : ℤ) * (X * Y)) :=
  transposed_value (adequate32 hn) hm hk hX hY h1 h2

/-- **C110.**  The trace; only the diagonal has to be finite. -/
theorem C110_trace64 (hn : N ≤ 1000000) {m : Mat (Ieee f64) N N} (hm : ∀ i, (m.data i i).Finite) (hX : ∑ i, |grid m i i| ≤ X)
    (h1 : (2 : ℝ) ^ (-1000 : ℤ) ≤ X) (h2 : X ≤ 2 ^ (1000 : ℤ)) : NearTo m.trace (Matrix.trace (grid m)) (5 * N * 2 ^ (-53 : ℤ) * X) :=
  trace_value (adequate64 hn) hm hX h1 h2

theorem C110_trace32 (hn : N ≤ 60) {m : Mat (Ieee f32) N N} (hm : ∀ i, (m.data i i).Finite) (hX : ∑ i, |grid m i i| ≤ X)
    (h1 : (2 : ℝ) ^ (-126 : ℤ) ≤ X) (h2 : X ≤ 2 ^ (126 : ℤ)) : NearTo m.trace (Matrix.trace (grid m)) (5 * N * 2 ^ (-24 : ℤ) * X) :=
  trace_value (adequate32 hn) hm hX h1 h2

/-- **C110.**  `l1_norm` is near the largest sum of the absolute values of a column, however many columns there are. -/
theorem C110_l1_norm64 (hn : R ≤ 1000000) {m : Mat (Ieee f64) R C} (hm : EveryFinite m) (hM : IsGreatest (Set.range fun c => ∑ r, |grid m r c|) M)
    (h1 : (2 : ℝ) ^ (-1000 : ℤ) ≤ M) (h2 : M ≤ 2 ^ (1000 : ℤ)) : NearTo m.l1Norm M (5 * R * 2 ^ (-53 : ℤ) * M) :=
  columns_value (adequate64 hn) hm hM h1 h2

theorem C110_l1_norm32 (hn : R ≤ 60) {m : Mat (Ieee f32) R C} (hm : EveryFinite m) (hM : IsGreatest (Set.range fun c => ∑ r, |grid m r c|) M)
    (h1 : (2 : ℝ) ^ (-126 : ℤ) ≤ M) (h2 : M ≤ 2 ^ (126 : ℤ)) : NearTo m.l1Norm M (5 * R * 2 ^ (-24 : ℤ) * M) :=
  columns_value (adequate32 hn) hm hM h1 h2

/-- **C110.**  `linf_norm` is near the largest sum of the absolute values of a row, however many rows there are. -/
theorem C110_linf_norm64 (hn : C ≤ 1000000) {m : Mat (Ieee f64) R C} (hm : EveryFinite m) (hM : IsGreatest (Set.range fun r => ∑ c, |grid m r c|) M)
    (h1 : (2 : ℝ) ^ (-1000 : ℤ) ≤ M) (h2 : M ≤ 2 ^ (1000 : ℤ)) : NearTo m.linfNorm M (5 * C * 2 ^ (-53 : ℤ) * M) :=
  rows_value (adequate64 hn) hm hM h1 h2

theorem C110_linf_norm32 (hn : C ≤ 60) {m : Mat (Ieee f32) R C} (hm : EveryFinite m) (hM : IsGreatest (Set.range fun r => ∑ c, |grid m r c|) M)
    (h1 : (2 : ℝ) ^ (-126 : ℤ) ≤ M) (h2 : M ≤ 2 ^ (126 : ℤ)) : NearTo m.linfNorm M (5 * C * 2 ^ (-24 : ℤ) * M) :=
  rows_value (adequate32 hn) hm hM h1 h2

/-- **C110.**  The Frobenius norm and the normalized matrix. -/
theorem C110_norm64 [Lib f64] (hn : R * C ≤ 2 ^ 20) {m : Mat (Ieee f64) R C} (hm : EveryFinite m) (h1 : (2 : ℝ) ^ (-499 : ℤ) ≤ frobNorm (grid m))
    (h2 : frobNorm (grid m) ≤ 2 ^ (510 : ℤ)) : NormAndDirection (R * C + 3) m :=
  flat_direction (C84_vector_f64 hn (flat m) hm.flat (h1.trans (flat_length m).ge) ((flat_length m).le.trans h2))

theorem C110_norm32 [Lib f32] (hn : R * C ≤ 1000) {m : Mat (Ieee f32) R C} (hm : EveryFinite m) (h1 : (2 : ℝ) ^ (-56 : ℤ) ≤ frobNorm (grid m))
    (h2 : frobNorm (grid m) ≤ 2 ^ (62 : ℤ)) : NormAndDirection (R * C + 3) m :=
  flat_direction (C84_vector_f32 hn (flat m) hm.flat (h1.trans (flat_length m).ge) ((flat_length m).le.trans h2))

/-- **C110.**  The distance of two matrices has a small relative error, also when they nearly cancel. -/
theorem C110_distance64 [Lib f64] (hn : R * C ≤ 1000000) {m k : Mat (Ieee f64) R C} (hm : EveryFinite m) (hk : EveryFinite k)
    (h1 : (2 : ℝ) ^ (-498 : ℤ) ≤ frobNorm (grid m - grid k)) (h2 : frobNorm (grid m - grid k) ≤ 2 ^ (509 : ℤ)) :
    NearTo (m.metricDistance k) (frobNorm (grid m - grid k)) (((R * C : ℕ) + 6) * 2 ^ (-53 : ℤ) * frobNorm (grid m - grid k)) := by
  rw [← flat_difference] at *
  rw [Mat.metricDistance, flat_norm, flat_sub]
  exact (C108_distance64 hn hm.flat hk.flat h1 h2).1

theorem C110_distance32 [Lib f32] (hn : R * C ≤ 60) {m k : Mat (Ieee f32) R C} (hm : EveryFinite m) (hk : EveryFinite k)
    (h1 : (2 : ℝ) ^ (-55 : ℤ) ≤ frobNorm (grid m - grid k)) (h2 : frobNorm (grid m - grid k) ≤ 2 ^ (61 : ℤ)) :
    NearTo (m.metricDistance k) (frobNorm (grid m - grid k)) (((R * C : ℕ) + 6) * 2 ^ (-24 : ℤ) * frobNorm (grid m - grid k)) := by
  rw [← flat_difference] at *
  rw [Mat.metricDistance, flat_norm, flat_sub]
  exact (C108_distance32 hn hm.flat hk.flat h1 h2).1

/-- **C110.**  Interpolation by an amount of at most one in size; the amount zero gives the first matrix exactly. -/
theorem C110_lerp64 (hn : R * C ≤ 1000000) {m k : Mat (Ieee f64) R C} {t : Ieee f64} (hm : EveryFinite m) (hk : EveryFinite k)
    (bm : ∀ r c, |grid m r c| ≤ X) (bk : ∀ r c, |grid k r c| ≤ X) (ht : t.Finite) (ht1 : |t.val| ≤ 1)
    (h1 : (2 : ℝ) ^ (-1000 : ℤ) ≤ X) (h2 : X ≤ 2 ^ (990 : ℤ)) :
    CloseMat (m.lerp k t) (grid m + t.val • (grid k - grid m)) (16 * 2 ^ (-53 : ℤ) * X) ∧ grid (m.lerp k 0) = grid m := by
  obtain ⟨h3, h4⟩ := C108_lerp64 hn (v := flat m) (w := flat k) (t := t) (fun i => ⟨hm.flat i, bm _ _⟩) (fun i => ⟨hk.flat i, bk _ _⟩) ht ht1 h1 h2
  rw [← flat_lerp] at h3 h4
  refine ⟨fun r c => ?_, ?_⟩
  · have := h3 (finProdFinEquiv (r, c))
    rw [flat_entry] at this
    simp only [onTheWay, Pi.add_apply, Pi.smul_apply, Pi.sub_apply, values, flat_entry] at this
    exact this
  · ext r c
    have := congrFun h4 (finProdFinEquiv (r, c))
    simp only [values, flat_entry] at this
    exact this

theorem C110_lerp32 (hn : R * C ≤ 60) {m k : Mat (Ieee f32) R C} {t : Ieee f32} (hm : EveryFinite m) (hk : EveryFinite k)
    (bm : ∀ r c, |grid m r c| ≤ X) (bk : ∀ r c, |grid k r c| ≤ X) (ht : t.Finite) (ht1 : |t.val| ≤ 1)
    (h1 : (2 : ℝ) ^ (-126 : ℤ) ≤ X) (h2 : X ≤ 2 ^ (116 : ℤ)) :
    CloseMat (m.lerp k t) (grid m + t.val • (grid k - grid m)) (16 * 2 ^ (-24 : ℤ) * X) ∧ grid (m.lerp k 0) = grid m := by
  obtain ⟨h3, h4⟩ := C108_lerp32 hn (v := flat m) (w := flat k) (t := t) (fun i => ⟨hm.flat i, bm _ _⟩) (fun i => ⟨hk.flat i, bk _ _⟩) ht ht1 h1 h2
  rw [← flat_lerp] at h3 h4
  refine ⟨fun r c => ?_, ?_⟩
  · have := h3 (finProdFinEquiv (r, c))
    rw [flat_entry] at this
    simp only [onTheWay, Pi.add_apply, Pi.smul_apply, Pi.sub_apply, values, flat_entry] at this
    exact this
  · ext r c
    have := congrFun h4 (finProdFinEquiv (r, c))
    simp only [values, flat_entry] at this
    exact this

/-- **C110.**  Products of matrices of any shapes that fit: rows of at most the length `X` and columns of at most the length `Y`. -/
theorem C110_mul64 {K : ℕ} (hn : K ≤ 1000000) {m : Mat (Ieee f64) R K} {k : Mat (Ieee f64) K C} (hm : EveryFinite m) (hk : EveryFinite k)
    (hX : ∀ r, vecNorm (grid m r) ≤ X) (hY : ∀ c, vecNorm ((grid k)ᵀ c) ≤ Y) (h1 : (2 : ℝ) ^ (-1000 : ℤ) ≤ X * Y) (h2 : X * Y ≤ 2 ^ (1000 : ℤ)) :
    CloseMat (m * k) (grid m * grid k) (5 * K * 2 ^ (-53 : ℤ) * (X * Y)) :=
  product_value (adequate64 hn) hm hk hX hY h1 h2

theorem C110_mul32 {K : ℕ} (hn : K ≤ 60) {m : Mat (Ieee f32) R K} {k : Mat (Ieee f32) K C} (hm : EveryFinite m) (hk : EveryFinite k)
    (hX : ∀ r, vecNorm (grid m r) ≤ X) (hY : ∀ c, vecNorm ((grid k)ᵀ c) ≤ Y) (h1 : (2 : ℝ) ^ (-126 : ℤ) ≤ X * Y) (h2 : X * Y ≤ 2 ^ (126 : ℤ)) :
    CloseMat (m * k) (grid m * grid k) (5 * K * 2 ^ (-24 : ℤ) * (X * Y)) :=
  product_value (adequate32 hn) hm hk hX hY h1 h2

theorem C110_tr_mul64 {K : ℕ} (hn : K ≤ 1000000) {m : Mat (Ieee f64) K R} {k : Mat (Ieee f64) K C} (hm : EveryFinite m) (hk : EveryFinite k)
    (hX : ∀ r, vecNorm ((grid m)ᵀ r) ≤ X) (hY : ∀ c, vecNorm ((grid k)ᵀ c) ≤ Y) (h1 : (2 : ℝ) ^ (-1000 : ℤ) ≤ X * Y) (h2 : X * Y ≤ 2 ^ (1000 : ℤ)) :
    CloseMat (m.trMul k) ((grid m)ᵀ * grid k) (5 * K * 2 ^ (-53 : ℤ) * (X * Y)) :=
  transposed_product_value (adequate64 hn) hm hk hX hY h1 h2

theorem C110_tr_mul32 {K : ℕ} (hn : K ≤ 60) {m : Mat (Ieee f32) K R} {k : Mat (Ieee f32) K C} (hm : EveryFinite m) (hk : EveryFinite k)
    (hX : ∀ r, vecNorm ((grid m)ᵀ r) ≤ X) (hY : ∀ c, vecNorm ((grid k)ᵀ c) ≤ Y) (h1 : (2 : ℝ) ^ (-126 : ℤ) ≤ X * Y) (h2 : X * Y ≤ 2 ^ (126 : ℤ)) :
    CloseMat (m.trMul k) ((grid m)ᵀ * grid k) (5 * K * 2 ^ (-24 : ℤ) * (X * Y)) :=
  transposed_product_value (adequate32 hn) hm hk hX hY h1 h2

/-- **C110.**  The product of a matrix of any shape and a vector. -/
theorem C110_mul_vector64 (hn : C ≤ 1000000) {m : Mat (Ieee f64) R C} {v : Vec (Ieee f64) C} (hm : EveryFinite m) (hv : Short Y v)
    (hX : ∀ r, vecNorm (grid m r) ≤ X) (h1 : (2 : ℝ) ^ (-1000 : ℤ) ≤ X * Y) (h2 : X * Y ≤ 2 ^ (1000 : ℤ)) :
    Close (m * v) (grid m *ᵥ values v) (5 * C * 2 ^ (-53 : ℤ) * (X * Y)) :=
  applied_value (adequate64 hn) hm hv hX h1 h2

theorem C110_mul_vector32 (hn : C ≤ 60) {m : Mat (Ieee f32) R C} {v : Vec (Ieee f32) C} (hm : EveryFinite m) (hv : Short Y v)
    (hX : ∀ r, vecNorm (grid m r) ≤ X) (h1 : (2 : ℝ) ^ (-126 : ℤ) ≤ X * Y) (h2 : X * Y ≤ 2 ^ (126 : ℤ)) :
    Close (m * v) (grid m *ᵥ values v) (5 * C * 2 ^ (-24 : ℤ) * (X * Y)) :=
  applied_value (adequate32 hn) hm hv hX h1 h2

end Property

/-! ### the hypotheses can be met -/

/-- three rows and two columns of ones -/
noncomputable def allOnes : Mat (Ieee f64) 3 2 := ⟨fun _ _ => 1⟩

theorem allOnes_finite : EveryFinite allOnes := fun _ _ => finite_one

theorem allOnes_grid (r c) : grid allOnes r c = 1 := rfl

theorem allOnes_norm : frobNorm (grid allOnes) = Real.sqrt 6 ∧ (1 : ℝ) ≤ Real.sqrt 6 ∧ Real.sqrt 6 ≤ 3 := by
  refine ⟨?_, by rw [Real.one_le_sqrt]; norm_num, by rw [Real.sqrt_le_iff]; norm_num⟩
  simp only [frobNorm, allOnes_grid]
  norm_num

theorem three_le_zpow {k : ℤ} (h : 2 ≤ k) : (3 : ℝ) ≤ 2 ^ k := by
  calc (3 : ℝ) ≤ 2 ^ (2 : ℤ) := by norm_num
    _ ≤ _ := zpow_le_zpow_right₀ one_le_two h

/-- the largest column sum is three and the largest row sum is two -/
example : NearTo allOnes.l1Norm 3 (5 * (3 : ℕ) * 2 ^ (-53 : ℤ) * 3) ∧ NearTo allOnes.linfNorm 2 (5 * (2 : ℕ) * 2 ^ (-53 : ℤ) * 2) := by
  refine ⟨C110_l1_norm64 (by norm_num) allOnes_finite ?_ ((zpow_le_one_of_nonpos₀ one_le_two (by norm_num)).trans (by norm_num)) (three_le_zpow (by norm_num)),
    C110_linf_norm64 (by norm_num) allOnes_finite ?_ ((zpow_le_one_of_nonpos₀ one_le_two (by norm_num)).trans one_le_two) (two_le_zpow (by norm_num))⟩
  · simp only [allOnes_grid]
    norm_num
  · simp only [allOnes_grid]
    norm_num

/-- the norm is the square root of six, and the matrix can be normalized -/
example [Lib f64] : |allOnes.norm.val - Real.sqrt 6| ≤ ((3 * 2 + 3 : ℕ) : ℝ) * 2 ^ (-53 : ℤ) * Real.sqrt 6 ∧
    |frobNorm (grid allOnes.normalize) - 1| ≤ ((3 * 2 + 3 : ℕ) + 4) * 2 ^ (-53 : ℤ) := by
  obtain ⟨c1, c2, c3⟩ := allOnes_norm
  obtain ⟨h1, -, h3⟩ := C110_norm64 (by norm_num) allOnes_finite (by rw [c1]; exact (zpow_le_one_of_nonpos₀ one_le_two (by norm_num)).trans c2)
    (by rw [c1]; exact c3.trans (three_le_zpow (by norm_num)))
  rw [c1] at h1
  exact ⟨h1.2, h3⟩

/-- the product of the matrix and itself, entry by entry, is six -/
example : NearTo (allOnes.dot allOnes) 6 (5 * (3 * 2 : ℕ) * 2 ^ (-53 : ℤ) * (3 * 3)) := by
  obtain ⟨c1, c2, c3⟩ := allOnes_norm
  have h := C110_dot64 (by norm_num) allOnes_finite allOnes_finite (c1.le.trans c3) (c1.le.trans c3)
    ((zpow_le_one_of_nonpos₀ one_le_two (by norm_num)).trans (by norm_num)) (by
      calc (3 * 3 : ℝ) ≤ 2 ^ (4 : ℤ) := by norm_num
        _ ≤ _ := zpow_le_zpow_right₀ one_le_two (by norm_num))
  simp only [allOnes_grid] at h
  norm_num at h ⊢
  exact h

/-- every entry of the transpose times the matrix is near three -/
example : CloseMat (allOnes.trMul allOnes) (Matrix.of fun _ _ => 3) (5 * (3 : ℕ) * 2 ^ (-53 : ℤ) * (2 * 2)) := by
  have hl : ∀ c, vecNorm ((grid allOnes)ᵀ c) ≤ 2 := fun c => by
    rw [vecNorm, Real.sqrt_le_iff]
    simp only [Matrix.transpose_apply, allOnes_grid]
    norm_num
  have h := C110_tr_mul64 (by norm_num) allOnes_finite allOnes_finite hl hl
    ((zpow_le_one_of_nonpos₀ one_le_two (by norm_num)).trans (by norm_num)) (by
      calc (2 * 2 : ℝ) ≤ 2 ^ (4 : ℤ) := by norm_num
        _ ≤ _ := zpow_le_zpow_right₀ one_le_two (by norm_num))
  convert h using 1
  ext r c
  simp only [Matrix.mul_apply, Matrix.transpose_apply, allOnes_grid]
  norm_num

/-- the start of the way from the matrix to itself -/
example : grid (allOnes.lerp allOnes 0) = grid allOnes :=
  (C110_lerp64 (X := 1) (t := 0) (by norm_num) allOnes_finite allOnes_finite (fun r c => by rw [allOnes_grid]; norm_num) (fun r c => by rw [allOnes_grid]; norm_num)
    finite_zero (by rw [show (0 : Ieee f64).val = 0 from rfl]; norm_num) (zpow_le_one_of_nonpos₀ one_le_two (by norm_num)) (one_le_two.trans (two_le_zpow (by norm_num)))).2

end Cgl
