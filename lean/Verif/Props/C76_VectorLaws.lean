import Verif.Props.C01_Dot
import Verif.Props.C02_VectorSpace
import Verif.Props.C06_VectorNorms
import Verif.Props.C07_Cross
import Verif.Props.C12_Points
import Verif.Props.C13_MatMul
import Verif.Props.C14_Transpose
import Verif.Props.C15_Swaps
import Verif.Props.C20_Trace
import Verif.Props.C21_MatrixNorms
import Verif.Props.C22_MatArith
import Mathlib.Algebra.Order.Ring.Abs
import Mathlib.Algebra.Order.BigOperators.Group.Finset
import Mathlib.Tactic.Linarith
import Mathlib.Tactic.Positivity

/-!
# C76 - the laws the project's property tests sample for vectors, points and matrices

crates/cglinalg_core/tests/spec_vector.rs (48 laws), spec_point.rs (19), spec_matrix.rs (63) and
spec_matrix_vector.rs (3) state laws as generic functions `prop_*` and evaluate each on random samples. Here they
are theorems: the algebraic ones for every commutative ring, the ones about absolute values and order for every
linearly ordered commutative ring (so for the integers and the reals alike, which C06 and C21 treat for the reals
only), those about square roots for the reals. The tests of point separation in floating point assume that some
component differs from zero by more than a tolerance (`relative_ne!` against zero with a relative tolerance below
one) and assert that the norm exceeds the tolerance; that is how they read here. The laws comparing by-reference
operators with by-value ones (spec_vector.rs 248-261, 344-357; spec_point.rs 193-206, 305-318) are not repeated.
-/

namespace Cgl

section Vectors
variable {S : Type*} [CommRing S] {n : ℕ} (a b : S) (v v1 v2 v3 : Vec S n)

/-- spec_vector.rs 169-230, 269-326, 365-460: zero, addition, subtraction and scalar multiples -/
theorem C76_vector_space :
    v * (0 : S) = 0 ∧ (0 : S) * v = 0 ∧ v + 0 = v ∧ 0 + v = v ∧ v * (1 : S) = v ∧ (1 : S) * v = v ∧
    v1 + v2 = v2 + v1 ∧ (v1 + v2) + v3 = v1 + (v2 + v3) ∧ v - 0 = v ∧ v - v = 0 ∧
    (v * a) * b = v * (a * b) ∧ (v1 + v2) * a = v1 * a + v2 * a ∧ v * (a + b) = v * a + v * b := by
  refine ⟨?_, ?_, ?_, ?_, ?_, ?_, ?_, ?_, ?_, ?_, ?_, ?_, ?_⟩ <;> ext i <;> simp <;> ring

/-- spec_vector.rs 468-590: the dot product is symmetric and bilinear -/
theorem C76_vector_dot :
    v1.dot v2 = v2.dot v1 ∧ v1.dot (v2 + v3) = v1.dot v2 + v1.dot v3 ∧
    (v1 + v2).dot v3 = v1.dot v3 + v2.dot v3 ∧ (v1 * a).dot (v2 * b) = v1.dot v2 * (a * b) ∧
    v1.dot (v2 * a + v3 * b) = v1.dot v2 * a + v1.dot v3 * b ∧
    (v1 * a + v2 * b).dot v3 = v1.dot v3 * a + v2.dot v3 * b := by
  refine ⟨?_, ?_, ?_, ?_, ?_, ?_⟩ <;>
    simp only [Vec.dot_eq_sum, Vec.add_data, Vec.mulS_data, Finset.sum_mul, ← Finset.sum_add_distrib] <;>
    exact Finset.sum_congr rfl fun i _ => by ring

/-- spec_vector.rs 599-690: the cross product -/
theorem C76_vector_cross (c : S) (v v1 v2 v3 : Vec S 3) :
    v.cross v = 0 ∧ (v1 * c).cross v2 = v1.cross v2 * c ∧ v1.cross (v2 * c) = v1.cross v2 * c ∧
    v1.cross (v2 + v3) = v1.cross v2 + v1.cross v3 ∧ v1.dot (v2.cross v3) = (v1.cross v2).dot v3 ∧
    v1.cross v2 = -(v2.cross v1) ∧
    v1.cross (v2.cross v3) = v2 * (v1.dot v3) - v3 * (v1.dot v2) := by
  refine ⟨C07_cross_self v, ?_, ?_, C07_cross_add_right v1 v2 v3, ?_, C07_cross_anticomm v1 v2,
    C07_triple_cross v1 v2 v3⟩
  · rw [← C02_scalar_mul_eq_mul_scalar, C07_cross_smul_left, C02_scalar_mul_eq_mul_scalar]
  · rw [← C02_scalar_mul_eq_mul_scalar, C07_cross_smul_right, C02_scalar_mul_eq_mul_scalar]
  · simp [Vec.dot3, Vec.cross, Vec.new3]; ring

/-- spec_vector.rs 748-755, 1116-1138; spec_point.rs 423-430, 494-516; spec_matrix.rs 1148-1171: synonyms -/
theorem C76_synonyms {R C : ℕ} [FloatFns S] (p : Pt S n) (m : Mat S R C) :
    v.magnitudeSquared = v.normSquared ∧ v.magnitude = v.norm ∧ v.l2Norm = v.norm ∧
    p.magnitudeSquared = p.normSquared ∧ p.magnitude = p.norm ∧ p.l2Norm = p.norm ∧
    m.magnitudeSquared = m.normSquared ∧ m.magnitude = m.norm :=
  ⟨rfl, rfl, rfl, rfl, rfl, rfl, rfl, rfl⟩

end Vectors

section Points
variable {S : Type*} [CommRing S] {n : ℕ} (a b : S) (p : Pt S n) (v1 v2 : Vec S n)

/-- spec_point.rs 128-175, 215-287 -/
theorem C76_points :
    p * (1 : S) = p ∧ (p * a) * b = p * (a * b) ∧ p + (0 : Vec S n) = p ∧ (p + v1) + v2 = p + (v1 + v2) ∧
    p - (0 : Vec S n) = p ∧ p - p = (0 : Vec S n) := by
  refine ⟨?_, ?_, ?_, ?_, ?_, ?_⟩
  · apply Pt.ext_data; intro i; simp
  · apply Pt.ext_data; intro i; simp [mul_assoc]
  · exact C12_add_zero p
  · exact C12_add_assoc p v1 v2
  · apply Pt.ext_data; intro i; simp
  · ext i; simp

end Points

section OrderedVectors
variable {S : Type*} [CommRing S] [LinearOrder S] [IsStrictOrderedRing S] {n : ℕ} (c : S) (v v1 v2 : Vec S n)

omit [IsStrictOrderedRing S] in
/-- A running maximum from zero is the least non-negative bound. -/
private theorem max_loop {n : ℕ} (f : Fin n → S) :
    0 ≤ forRange n 0 (fun i r => max r (f i)) ∧ (∀ i, f i ≤ forRange n 0 (fun i r => max r (f i))) ∧
    ∀ b, 0 ≤ b → (∀ i, f i ≤ b) → forRange n 0 (fun i r => max r (f i)) ≤ b := by
  refine ⟨?_, ?_, ?_⟩
  · exact forRange_induction (n := n) (s := (0 : S)) (b := fun i r => max r (f i)) (fun _ s => 0 ≤ s) le_rfl
      fun i t ht => le_max_of_le_left ht
  · intro i
    have := forRange_induction (n := n) (s := (0 : S)) (b := fun i r => max r (f i))
        (fun m s => ∀ k : Fin n, (k : ℕ) < m → f k ≤ s) (by intro k hk; omega)
        (by
          intro i t ht k hk
          by_cases hki : k = i
          · subst hki; exact le_max_right _ _
          · have : (k : ℕ) ≠ i := fun h => hki (Fin.ext h)
            exact le_max_of_le_left (ht k (by omega)))
    exact this i i.2
  · intro b hb h
    exact forRange_induction (n := n) (s := (0 : S)) (b := fun i r => max r (f i)) (fun _ s => s ≤ b) hb
      fun i t ht => max_le ht (h i)

/-- The running maximum of a family scaled by a non-negative factor. -/
private theorem max_loop_mul {n : ℕ} (f : Fin n → S) (hf : ∀ i, 0 ≤ f i) (k : S) (hk : 0 ≤ k) :
    forRange n 0 (fun i r => max r (f i * k)) = forRange n 0 (fun i r => max r (f i)) * k := by
  have := forRange_sim (n := n) (s := (0 : S)) (t := (0 : S)) (b := fun i r => max r (f i))
    (c := fun i r => max r (f i * k)) (fun x => x * k) (zero_mul k)
    (fun i x => max_mul_of_nonneg _ _ hk)
  exact this.symm

omit [IsStrictOrderedRing S] in
private theorem vec_exists_ne {v : Vec S n} (hv : v ≠ 0) : ∃ i, v.data i ≠ 0 := by
  by_contra h
  push Not at h
  exact hv (by ext i; exact h i)

/-- spec_vector.rs 698-707, 721-740, 769-802: the squared norm. The first clause but one is the test with
tolerances: a component above `t` makes the squared norm exceed `t * t`. -/
theorem C76_vector_norm_squared :
    0 ≤ v.normSquared ∧ (v ≠ 0 → v.normSquared ≠ 0) ∧
    (v * c).normSquared = v.normSquared * |c| * |c| ∧
    (∀ t, 0 ≤ t → (∃ i, t < |v.data i|) → t * t < v.normSquared) := by
  have hsum : v.normSquared = ∑ i, v.data i * v.data i := Vec.dot_eq_sum v v
  have key : ∀ t, 0 ≤ t → (∃ i, t < |v.data i|) → t * t < v.normSquared := by
    rintro t ht ⟨i, hi⟩
    rw [hsum]
    have h1 : v.data i * v.data i ≤ ∑ j, v.data j * v.data j :=
      Finset.single_le_sum (f := fun j => v.data j * v.data j) (fun j _ => mul_self_nonneg _) (Finset.mem_univ i)
    have h2 : t * t < |v.data i| * |v.data i| := mul_self_lt_mul_self ht hi
    rw [abs_mul_abs_self] at h2
    exact lt_of_lt_of_le h2 h1
  refine ⟨?_, ?_, ?_, key⟩
  · rw [hsum]; exact Finset.sum_nonneg fun j _ => mul_self_nonneg _
  · intro hv
    obtain ⟨i, hi⟩ := vec_exists_ne hv
    have := key 0 le_rfl ⟨i, abs_pos.mpr hi⟩
    rw [mul_zero] at this
    exact ne_of_gt this
  · rw [mul_assoc, abs_mul_abs_self, hsum]
    show (v * c).dot (v * c) = _
    rw [Vec.dot_eq_sum, Finset.sum_mul]
    exact Finset.sum_congr rfl fun i _ => by simp; ring

/-- spec_vector.rs 856-955: the `L1` norm is a norm, and exceeds any tolerance that a component exceeds -/
theorem C76_vector_l1_norm :
    0 ≤ v.l1Norm ∧ (v ≠ 0 → v.l1Norm ≠ 0) ∧ (v * c).l1Norm = v.l1Norm * |c| ∧
    (v1 + v2).l1Norm ≤ v1.l1Norm + v2.l1Norm ∧ (∀ t, (∃ i, t < |v.data i|) → t < v.l1Norm) := by
  have hsum : ∀ v : Vec S n, v.l1Norm = ∑ i, |v.data i| := fun v => Vec.l1Norm_eq_sum v
  have key : ∀ t, (∃ i, t < |v.data i|) → t < v.l1Norm := by
    rintro t ⟨i, hi⟩
    rw [hsum]
    exact lt_of_lt_of_le hi
      (Finset.single_le_sum (f := fun j => |v.data j|) (fun j _ => abs_nonneg _) (Finset.mem_univ i))
  refine ⟨?_, ?_, ?_, ?_, key⟩
  · rw [hsum]; exact Finset.sum_nonneg fun j _ => abs_nonneg _
  · intro hv
    obtain ⟨i, hi⟩ := vec_exists_ne hv
    exact ne_of_gt (key 0 ⟨i, abs_pos.mpr hi⟩)
  · rw [hsum, hsum, Finset.sum_mul]
    exact Finset.sum_congr rfl fun i _ => by simp [abs_mul]
  · rw [hsum, hsum, hsum, ← Finset.sum_add_distrib]
    exact Finset.sum_le_sum fun i _ => by simpa using abs_add_le _ _

/-- spec_vector.rs 1009-1108: the `L∞` norm is a norm, and exceeds any tolerance that a component exceeds -/
theorem C76_vector_linf_norm :
    0 ≤ v.linfNorm ∧ (v ≠ 0 → v.linfNorm ≠ 0) ∧ (v * c).linfNorm = v.linfNorm * |c| ∧
    (v1 + v2).linfNorm ≤ v1.linfNorm + v2.linfNorm ∧ (∀ t, (∃ i, t < |v.data i|) → t < v.linfNorm) := by
  have hb : ∀ v : Vec S n, 0 ≤ v.linfNorm ∧ (∀ i, |v.data i| ≤ v.linfNorm) ∧
      ∀ b, 0 ≤ b → (∀ i, |v.data i| ≤ b) → v.linfNorm ≤ b := fun v => max_loop fun i => |v.data i|
  have key : ∀ t, (∃ i, t < |v.data i|) → t < v.linfNorm := by
    rintro t ⟨i, hi⟩
    exact lt_of_lt_of_le hi ((hb v).2.1 i)
  refine ⟨(hb v).1, ?_, ?_, ?_, key⟩
  · intro hv
    obtain ⟨i, hi⟩ := vec_exists_ne hv
    exact ne_of_gt (key 0 ⟨i, abs_pos.mpr hi⟩)
  · have := max_loop_mul (fun i => |v.data i|) (fun i => abs_nonneg _) |c| (abs_nonneg c)
    unfold Vec.linfNorm
    refine Eq.trans (forRange_congr fun i s => ?_) this
    show max s |(v * c).data i| = _
    rw [Vec.mulS_data, abs_mul]
  · refine (hb _).2.2 _ (add_nonneg (hb v1).1 (hb v2).1) fun i => ?_
    rw [Vec.add_data]
    exact (abs_add_le _ _).trans (add_le_add ((hb v1).2.1 i) ((hb v2).2.1 i))

/-- spec_point.rs 326-415: the squared norm of a point -/
theorem C76_point_norm_squared (p : Pt S n) :
    0 ≤ p.normSquared ∧ (p ≠ Pt.origin → p.normSquared ≠ 0) ∧
    (p * c).normSquared = p.normSquared * |c| * |c| ∧
    (∀ t, 0 ≤ t → (∃ i, t < |p.coords.data i|) → t * t < p.normSquared) := by
  obtain ⟨h1, h2, h3, h4⟩ := C76_vector_norm_squared c p.coords
  refine ⟨h1, fun hp => h2 fun h => hp ?_, h3, h4⟩
  cases p; simp only at h; subst h; rfl

end OrderedVectors

section RealVectors
variable {n : ℕ} (v : Vec ℝ n) (p : Pt ℝ n)

/-- spec_vector.rs 810-848; spec_point.rs 438-486: the Euclidean norm, separation with a tolerance included -/
theorem C76_norm :
    0 ≤ v.norm ∧ (v ≠ 0 → v.norm ≠ 0) ∧ (∀ t, (∃ i, t < |v.data i|) → t < v.norm) ∧
    0 ≤ p.norm ∧ (p ≠ Pt.origin → p.norm ≠ 0) ∧ (∀ t, (∃ i, t < |p.coords.data i|) → t < p.norm) := by
  have h : ∀ v : Vec ℝ n, 0 ≤ v.norm ∧ (v ≠ 0 → v.norm ≠ 0) ∧ (∀ t, (∃ i, t < |v.data i|) → t < v.norm) := by
    intro v
    refine ⟨C06_l2_norm_is_norm.nonneg v, fun hv h => hv ((C06_l2_norm_is_norm.eq_zero_iff v).mp h), ?_⟩
    intro t ht
    exact lt_of_lt_of_le ((C76_vector_linf_norm 1 v v v).2.2.2.2 t ht) (C06_linf_le_l2 v)
  refine ⟨(h v).1, (h v).2.1, (h v).2.2, (h p.coords).1, fun hp => (h p.coords).2.1 fun h => hp ?_,
    (h p.coords).2.2⟩
  cases p; simp only at h; subst h; rfl

/-- spec_vector.rs 963-1001: the `Lp` norms, separation with a tolerance included -/
theorem C76_lp_norm (q : ℕ) (hq : 1 ≤ q) :
    0 ≤ v.lpNorm Vec.recipR q ∧ (v ≠ 0 → v.lpNorm Vec.recipR q ≠ 0) ∧
    (∀ t, (∃ i, t < |v.data i|) → t < v.lpNorm Vec.recipR q) := by
  refine ⟨(C06_lp_norm_is_norm q hq).nonneg v,
    fun hv h => hv (((C06_lp_norm_is_norm q hq).eq_zero_iff v).mp h), ?_⟩
  rintro t ⟨i, hi⟩
  refine lt_of_lt_of_le hi ?_
  rw [C06_lp_norm_value]
  have h1 : |v.data i| ^ q ≤ ∑ j, |v.data j| ^ q :=
    Finset.single_le_sum (f := fun j => |v.data j| ^ q) (fun j _ => by positivity) (Finset.mem_univ i)
  have h2 : |v.data i| = (|v.data i| ^ q) ^ (1 / (q : ℝ)) := by
    rw [← Real.rpow_natCast, ← Real.rpow_mul (abs_nonneg _), mul_one_div_cancel (by positivity), Real.rpow_one]
  rw [h2]
  exact Real.rpow_le_rpow (by positivity) h1 (by positivity)

end RealVectors

section Matrices
variable {S : Type*} [CommRing S] {R C N : ℕ} (a b c : S) (m m1 m2 m3 : Mat S R C)

/-- spec_matrix.rs 131-356, 471-482: addition and scalar multiples -/
theorem C76_matrix_space :
    0 + m = m ∧ m + 0 = m ∧ m1 + m2 = m2 + m1 ∧ (m1 + m2) + m3 = m1 + (m2 + m3) ∧ m1 + -m2 = m1 - m2 ∧
    m * (0 : S) = 0 ∧ m * (1 : S) = m ∧ m * (-1 : S) = -m ∧ (m1 + m2) * c = m1 * c + m2 * c ∧
    (m1 - m2) * c = m1 * c - m2 * c ∧ m * (a * b) = (m * a) * b := by
  refine ⟨?_, ?_, ?_, ?_, ?_, ?_, ?_, ?_, ?_, ?_, ?_⟩ <;> ext c r <;> simp <;> ring

/-- spec_matrix.rs 326-337, 365-462: matrix multiplication -/
theorem C76_matrix_product (m m1 m2 m3 : Mat S N N) :
    ((Mat.identity : Mat S N N) * c) * m = m * ((Mat.identity : Mat S N N) * c) ∧
    m * (Mat.identity : Mat S N N) = m ∧ (Mat.identity : Mat S N N) * m = m ∧
    (0 : Mat S N N) * m = 0 ∧ m * (0 : Mat S N N) = 0 ∧ (m1 * m2) * m3 = m1 * (m2 * m3) ∧
    m1 * (m2 + m3) = m1 * m2 + m1 * m3 ∧ (m1 * m2) * c = m1 * (m2 * c) := by
  refine ⟨?_, C13_mul_one m, C13_one_mul m, C13_zero_mul m, C13_mul_zero m, C13_mul_assoc m1 m2 m3,
    C13_mul_add m1 m2 m3, (C13_scalar_right c m1 m2).symm⟩
  rw [C13_scalar_right, C13_mul_one, ← C13_scalar_comm, C13_scalar_left, C13_one_mul, C13_scalar_comm]

/-- spec_matrix.rs 490-547, 1391-1424: transposition -/
theorem C76_matrix_transpose (n1 n2 : Mat S N N) {C' : ℕ} (k : Mat S R C') (l : Mat S C R) :
    m.transpose.transpose = m ∧ (m1 + m2).transpose = m1.transpose + m2.transpose ∧
    (m * c).transpose = m.transpose * c ∧ (n1 * n2).transpose = n2.transpose * n1.transpose ∧
    m.trMul k = m.transpose * k ∧ m.trDot l = m.transpose.dot l :=
  ⟨C14_transpose_involutive m, C14_transpose_add m1 m2, C14_transpose_scalar m c, C14_transpose_mul n1 n2,
    C14_tr_mul m k, C14_tr_dot m l⟩

/-- spec_matrix.rs 799-859: the dot product of matrices is bilinear -/
theorem C76_matrix_dot :
    (m1 + m2).dot m3 = m1.dot m3 + m2.dot m3 ∧ m1.dot (m2 + m3) = m1.dot m2 + m1.dot m3 ∧
    (m1 * a).dot (m2 * b) = m1.dot m2 * (a * b) := by
  refine ⟨?_, ?_, ?_⟩ <;>
    simp only [Mat.dot_eq_sum, Mat.add_data, Mat.mulS_data, Finset.sum_mul, ← Finset.sum_add_distrib] <;>
    exact Finset.sum_congr rfl fun i _ => Finset.sum_congr rfl fun j _ => by ring

/-- spec_matrix.rs 1233-1368: the trace -/
theorem C76_matrix_trace (m m1 m2 : Mat S N N) :
    (m1 + m2).trace = m1.trace + m2.trace ∧ m.transpose.trace = m.trace ∧
    (m1 * m2).trace = (m2 * m1).trace ∧ (m * c).trace = m.trace * c :=
  ⟨C20_trace_add m1 m2, C20_trace_transpose m, C20_trace_mul_comm m1 m2, C20_trace_scalar m c⟩

/-- spec_matrix.rs 1376-1388: the dot product of row vectors as a matrix product. spec_matrix_vector.rs 144-156:
a row vector times a vector. -/
theorem C76_row_vectors (m1 m2 : Mat S 1 C) (v : Vec S C) :
    m1.dot m2 = (m1 * m2.transpose).data 0 0 ∧ m1.dot m2 = (m2 * m1.transpose).data 0 0 ∧
    (m1 * v).data 0 = (⟨m1.transpose.data 0⟩ : Vec S C).dot v := by
  refine ⟨?_, ?_, ?_⟩
  · simp [Mat.dot_eq_sum, Mat.mul_data]
  · simp only [Mat.dot_eq_sum, Mat.mul_data, Finset.univ_unique, Finset.sum_singleton, Mat.transpose_data]
    exact Finset.sum_congr rfl fun i _ => mul_comm _ _
  · simp [Mat.mulVec_data, Vec.dot_eq_sum]

/-- spec_matrix_vector.rs 100-136 -/
theorem C76_matrix_vector (v v1 v2 : Vec S C) :
    (m1 + m2) * v = m1 * v + m2 * v ∧ m * (v1 + v2) = m * v1 + m * v2 :=
  ⟨C13_add_mul_vec m1 m2 v, C13_mul_vec_add m v1 v2⟩

end Matrices

section Swaps
variable {S : Type*} {R C : ℕ} (m : Mat S R C)

private theorem exchange_comm {n : ℕ} (a b i : Fin n) : Spec.exchange n a b i = Spec.exchange n b a i := by
  unfold Spec.exchange
  split_ifs <;> simp_all

private theorem exchange_self {n : ℕ} (a i : Fin n) : Spec.exchange n a a i = i := by
  unfold Spec.exchange
  split_ifs <;> simp_all

/-- spec_matrix.rs 556-610: exchanging rows, which does not panic for rows in range -/
theorem C76_swap_rows (row row1 row2 : Fin R) :
    (∃ m', m.swapRows row1 row2 = .ok m' ∧ m.swapRows row2 row1 = .ok m' ∧ m'.swapRows row1 row2 = .ok m) ∧
    m.swapRows row row = .ok m := by
  obtain ⟨A, hA, hA'⟩ := C15_swap_rows m row1 row2
  obtain ⟨B, hB, hB'⟩ := C15_swap_rows m row2 row1
  obtain ⟨D, hD, hD'⟩ := C15_swap_rows m row row
  have e1 : B = A := by ext c r; rw [hA', hB', exchange_comm]
  have e2 : D = m := by ext c r; rw [hD', exchange_self]
  have h2 := C15_swap_rows_twice m row1 row2
  rw [hA] at h2
  exact ⟨⟨A, hA, e1 ▸ hB, h2⟩, e2 ▸ hD⟩

/-- spec_matrix.rs 618-676: exchanging columns -/
theorem C76_swap_columns (col col1 col2 : Fin C) :
    (∃ m', m.swapColumns col1 col2 = .ok m' ∧ m.swapColumns col2 col1 = .ok m' ∧
      m'.swapColumns col1 col2 = .ok m) ∧
    m.swapColumns col col = .ok m := by
  obtain ⟨A, hA, hA'⟩ := C15_swap_columns m col1 col2
  obtain ⟨B, hB, hB'⟩ := C15_swap_columns m col2 col1
  obtain ⟨D, hD, hD'⟩ := C15_swap_columns m col col
  have e1 : B = A := by ext c r; rw [hA', hB', exchange_comm]
  have e2 : D = m := by ext c r; rw [hD', exchange_self]
  have h2 := C15_swap_columns_twice m col1 col2
  rw [hA] at h2
  exact ⟨⟨A, hA, e1 ▸ hB, h2⟩, e2 ▸ hD⟩

/-- spec_matrix.rs 684-750: exchanging elements -/
theorem C76_swap (e e1 e2 : Fin C × Fin R) :
    (∃ m', m.swap (e1.1, e1.2) (e2.1, e2.2) = .ok m' ∧ m.swap (e2.1, e2.2) (e1.1, e1.2) = .ok m' ∧
      m'.swap (e1.1, e1.2) (e2.1, e2.2) = .ok m) ∧
    m.swap (e.1, e.2) (e.1, e.2) = .ok m := by
  obtain ⟨A, hA, hA'⟩ := C15_swap m e1 e2
  obtain ⟨B, hB, hB'⟩ := C15_swap m e2 e1
  obtain ⟨D, hD, hD'⟩ := C15_swap m e e
  have q1 : B = A := by
    ext c r; rw [hA', hB']
    by_cases h1 : (c, r) = e1
    · by_cases h2 : (c, r) = e2
      · subst h2; subst h1; simp
      · rw [if_neg h2, if_pos h1, if_pos h1]
    · by_cases h2 : (c, r) = e2
      · rw [if_pos h2, if_neg h1, if_pos h2]
      · simp [h1, h2]
  have q2 : D = m := by
    ext c r; rw [hD']
    by_cases h1 : (c, r) = e
    · subst h1; simp
    · simp [h1]
  have h2 := C15_swap_twice m e1 e2
  rw [hA] at h2
  exact ⟨⟨A, hA, q1 ▸ hB, h2⟩, q2 ▸ hD⟩

end Swaps

section OrderedMatrices
variable {S : Type*} [CommRing S] [LinearOrder S] [IsStrictOrderedRing S] {R C : ℕ} (c : S)
  (m m1 m2 : Mat S R C)

omit [IsStrictOrderedRing S] in
private theorem mat_exists_ne {m : Mat S R C} (hm : m ≠ 0) : ∃ c r, m.data c r ≠ 0 := by
  by_contra h
  push Not at h
  exact hm (by ext c r; exact h c r)

/-- spec_matrix.rs 758-791, 1089-1140: the dot product with itself, the squared Frobenius norm -/
theorem C76_matrix_norm_squared :
    0 ≤ m.dot m ∧ (m ≠ 0 → m.dot m ≠ 0) ∧ 0 ≤ m.normSquared ∧ (m ≠ 0 → m.normSquared ≠ 0) ∧
    (m * c).normSquared = m.normSquared * |c| * |c| := by
  have hsum : m.dot m = ∑ r, ∑ c, m.data c r * m.data c r := Mat.dot_eq_sum m m
  have h1 : 0 ≤ m.dot m := by
    rw [hsum]; exact Finset.sum_nonneg fun r _ => Finset.sum_nonneg fun c _ => mul_self_nonneg _
  have h2 : m ≠ 0 → m.dot m ≠ 0 := by
    intro hm
    obtain ⟨i, j, hij⟩ := mat_exists_ne hm
    rw [hsum]
    apply ne_of_gt
    refine lt_of_lt_of_le (mul_self_pos.mpr hij) ?_
    refine le_trans (Finset.single_le_sum (f := fun c => m.data c j * m.data c j)
      (fun c _ => mul_self_nonneg _) (Finset.mem_univ i)) ?_
    exact Finset.single_le_sum (f := fun r => ∑ c, m.data c r * m.data c r)
      (fun r _ => Finset.sum_nonneg fun c _ => mul_self_nonneg _) (Finset.mem_univ j)
  refine ⟨h1, h2, h1, h2, ?_⟩
  rw [mul_assoc, abs_mul_abs_self]
  exact (C76_matrix_dot c c m m m).2.2

/-- spec_matrix.rs 867-970: the `L1` norm is a norm, and exceeds any tolerance that an entry exceeds -/
theorem C76_matrix_l1_norm :
    0 ≤ m.l1Norm ∧ (m ≠ 0 → m.l1Norm ≠ 0) ∧ (m * c).l1Norm = m.l1Norm * |c| ∧
    (m1 + m2).l1Norm ≤ m1.l1Norm + m2.l1Norm ∧ (∀ t, (∃ i j, t < |m.data i j|) → t < m.l1Norm) := by
  have hb : ∀ m : Mat S R C, 0 ≤ m.l1Norm ∧ (∀ i, (⟨m.data i⟩ : Vec S R).l1Norm ≤ m.l1Norm) ∧
      ∀ b, 0 ≤ b → (∀ i, (⟨m.data i⟩ : Vec S R).l1Norm ≤ b) → m.l1Norm ≤ b :=
    fun m => max_loop fun i => (⟨m.data i⟩ : Vec S R).l1Norm
  have hv := fun (v : Vec S R) => C76_vector_l1_norm c v v v
  have key : ∀ t, (∃ i j, t < |m.data i j|) → t < m.l1Norm := by
    rintro t ⟨i, j, h⟩
    exact lt_of_lt_of_le ((hv ⟨m.data i⟩).2.2.2.2 t ⟨j, h⟩) ((hb m).2.1 i)
  refine ⟨(hb m).1, ?_, ?_, ?_, key⟩
  · intro hm
    obtain ⟨i, j, hij⟩ := mat_exists_ne hm
    exact ne_of_gt (key 0 ⟨i, j, abs_pos.mpr hij⟩)
  · have := max_loop_mul (fun i => (⟨m.data i⟩ : Vec S R).l1Norm) (fun i => (hv _).1) |c| (abs_nonneg c)
    unfold Mat.l1Norm
    refine Eq.trans (forRange_congr fun i s => ?_) this
    have e : (⟨(m * c).data i⟩ : Vec S R) = (⟨m.data i⟩ : Vec S R) * c := by ext j; simp
    rw [e, (hv ⟨m.data i⟩).2.2.1]
  · refine (hb _).2.2 _ (add_nonneg (hb m1).1 (hb m2).1) fun i => ?_
    have e : (⟨(m1 + m2).data i⟩ : Vec S R) = (⟨m1.data i⟩ : Vec S R) + (⟨m2.data i⟩ : Vec S R) := by
      ext j; simp
    rw [e]
    exact (C76_vector_l1_norm c ⟨m1.data i⟩ ⟨m1.data i⟩ ⟨m2.data i⟩).2.2.2.1.trans
      (add_le_add ((hb m1).2.1 i) ((hb m2).2.1 i))

omit [IsStrictOrderedRing S] in
private theorem linf_eq_l1_transpose (m : Mat S R C) : m.linfNorm = m.transpose.l1Norm := by
  unfold Mat.linfNorm Mat.l1Norm Vec.l1Norm
  refine forRange_congr fun i s => ?_
  congr 1
  refine forRange_congr fun j s => ?_
  simp only [Mat.transpose_data]

/-- spec_matrix.rs 978-1081: the `L∞` norm is a norm, and exceeds any tolerance that an entry exceeds -/
theorem C76_matrix_linf_norm :
    0 ≤ m.linfNorm ∧ (m ≠ 0 → m.linfNorm ≠ 0) ∧ (m * c).linfNorm = m.linfNorm * |c| ∧
    (m1 + m2).linfNorm ≤ m1.linfNorm + m2.linfNorm ∧ (∀ t, (∃ i j, t < |m.data i j|) → t < m.linfNorm) := by
  obtain ⟨h1, h2, h3, h4, h5⟩ := C76_matrix_l1_norm c m.transpose m1.transpose m2.transpose
  rw [← C14_transpose_scalar] at h3
  rw [← C14_transpose_add] at h4
  simp only [linf_eq_l1_transpose]
  refine ⟨h1, fun hm => h2 fun h => hm ?_, h3, h4, ?_⟩
  · rw [← C14_transpose_involutive m, h]; ext i j; simp
  · rintro t ⟨i, j, h⟩
    exact h5 t ⟨j, i, by rwa [Mat.transpose_data]⟩

end OrderedMatrices

/-- spec_matrix.rs 1179-1225: the Frobenius norm, separation with a tolerance included -/
theorem C76_matrix_norm {R C : ℕ} (m : Mat ℝ R C) :
    0 ≤ m.norm ∧ (m ≠ 0 → m.norm ≠ 0) ∧ (∀ t, (∃ i j, t < |m.data i j|) → t < m.norm) := by
  refine ⟨C21_norm_is_norm.nonneg m, fun hm h => hm ((C21_norm_is_norm.eq_zero_iff m).mp h), ?_⟩
  rintro t ⟨i, j, h⟩
  exact lt_of_lt_of_le h (C21_entry_le m i j).1

/-! ### concrete instances -/

/-- integers, where the real-number theorems of C06 and C21 do not apply -/
example : ((Vec.new2 3 (-4) : Vec ℤ 2) ≠ 0) ∧ (Vec.new2 3 (-4) : Vec ℤ 2).l1Norm = 7 ∧
    (Vec.new2 3 (-4) : Vec ℤ 2).linfNorm = 4 ∧ (Vec.new2 3 (-4) : Vec ℤ 2).normSquared = 25 := by
  decide

/-- the hypothesis of the tolerance clauses -/
example : ∃ i, (2 : ℤ) < |(Vec.new2 1 (-4) : Vec ℤ 2).data i| := ⟨1, by decide⟩

end Cgl
