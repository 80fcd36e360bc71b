import Verif.Spec.Rounding
import Verif.Lemmas.Vector
import Verif.Lemmas.Matrix
import Verif.Lemmas.Point
import Verif.Model.MatrixSq
import Verif.Model.Complex
import Verif.Model.Quaternion

/-! # C66 - the laws that hold bit for bit in rounded arithmetic, and some that do not

Everything here is about the model functions run on `Fl ρ`, the representable numbers with every operation
rounded, for an arbitrary rounding `ρ` (round to nearest, ties to even, with the precision of `f32` or `f64` is one). -/

namespace Cgl
open Mat

variable {ρ : Rounding} {n N R C R1 C1 C2 : ℕ}

namespace Mat
variable {S : Type*} [Zero S] [Add S] [Mul S]
theorem mulVec_entry (m : Mat S R C) (v : Vec S C) (r) : (m * v).data r = dotArrayCol m.data v.data r := by
  show (mulVec m v).data r = _
  simp only [mulVec]; rw [forRange_update]
theorem mul_entry (m : Mat S R1 C1) (k : Mat S C1 C2) (c r) : (m * k).data c r = dotArrayCol m.data (k.data c) r := by
  show (mul m k).data c r = _
  simp only [mul]; rw [loop_all _ fun c r => dotArrayCol m.data (k.data c) r]
theorem trMul_entry (m : Mat S R C1) (k : Mat S R C2) (c r) :
    (m.trMul k).data c r = forRange R 0 fun i acc => acc + m.data r i * k.data c i := by
  simp only [trMul]
  rw [loop_all_swap _ fun c2 c1 => forRange R 0 fun r acc => acc + m.data c1 r * k.data c2 r]
end Mat

/-! ### vectors and points -/

/-- Vector addition commutes; adding zero, multiplying or dividing by one change nothing; `v - v` is
zero; negation is exact. -/
theorem C66_vector (v w : Vec (Fl ρ) n) (k : Fl ρ) :
    v + w = w + v ∧ v + 0 = v ∧ v - 0 = v ∧ v - v = 0 ∧ v * (1 : Fl ρ) = v ∧ v / (1 : Fl ρ) = v ∧ k * v = v * k ∧
    - -v = v ∧ -(v - w) = w - v ∧ -(v + w) = -v + -w ∧ -v * k = -(v * k) ∧ v - w = v + -w := by
  refine ⟨?_, ?_, ?_, ?_, ?_, ?_, ?_, ?_, ?_, ?_, ?_, ?_⟩ <;> ext i : 2 <;>
    simp only [Vec.add_data, Vec.sub_data, Vec.neg_data, Vec.mulS_data, Vec.smul_data, Vec.divS_data, Vec.zero_data]
  · exact Fl.add_comm _ _
  · exact Fl.add_zero _
  · exact Fl.sub_zero _
  · exact Fl.sub_self _
  · exact Fl.mul_one _
  · exact Fl.div_one _
  · exact Fl.mul_comm _ _
  · exact Fl.neg_neg _
  · exact Fl.neg_sub _ _
  · exact Fl.neg_add _ _
  · exact Fl.neg_mul _ _
  · exact Fl.sub_eq_add_neg _ _

/-- The dot product is symmetric. -/
theorem C66_dot_comm (v w : Vec (Fl ρ) n) : v.dot w = w.dot v := by
  rw [Vec.dot, Vec.dot]; exact forRange_congr fun i s => by rw [Fl.mul_comm]

/-- The dot product is odd in each argument. -/
theorem C66_dot_neg (v w : Vec (Fl ρ) n) : (-v).dot w = -v.dot w ∧ v.dot (-w) = -v.dot w ∧ (-v).dot (-w) = v.dot w := by
  have h : ∀ v w : Vec (Fl ρ) n, (-v).dot w = -v.dot w := by
    intro v w
    rw [Vec.dot, Vec.dot]
    refine (forRange_sim (fun x : Fl ρ => -x) (Fl.ext (by simp)) ?_).symm
    intro i x
    rw [Fl.neg_add, Vec.neg_data, Fl.neg_mul]
  refine ⟨h v w, ?_, ?_⟩
  · rw [C66_dot_comm, h, C66_dot_comm]
  · rw [h, C66_dot_comm, h, C66_dot_comm, Fl.neg_neg]

/-- The squared norm and the norm are never negative. -/
theorem C66_norm_nonneg (v w : Vec (Fl ρ) n) :
    0 ≤ v.normSquared.val ∧ 0 ≤ v.norm.val ∧ 0 ≤ (v.metricDistance w).val := by
  refine ⟨?_, ρ.nonneg (Real.sqrt_nonneg _), ρ.nonneg (Real.sqrt_nonneg _)⟩
  rw [Vec.normSquared, Vec.dot]
  refine forRange_induction (fun _ (s : Fl ρ) => 0 ≤ s.val) le_rfl fun i t h => ?_
  exact ρ.nonneg (add_nonneg h (Fl.mul_self_nonneg _))

/-- A vector and its negation have the same norm; distances are symmetric; the distance of a vector from itself is
zero. -/
theorem C66_norm_neg (v w : Vec (Fl ρ) n) :
    (-v).normSquared = v.normSquared ∧ (-v).norm = v.norm ∧
    v.metricDistanceSquared w = w.metricDistanceSquared v ∧ v.metricDistance w = w.metricDistance v ∧
    v.metricDistance v = 0 := by
  have h : ∀ v : Vec (Fl ρ) n, (-v).normSquared = v.normSquared := fun v => (C66_dot_neg v v).2.2
  have hd : v.metricDistanceSquared w = w.metricDistanceSquared v := by
    rw [Vec.metricDistanceSquared, Vec.metricDistanceSquared, ← h, (C66_vector v w 0).2.2.2.2.2.2.2.2.1]
  refine ⟨h v, by rw [Vec.norm, Vec.norm, h], hd, congrArg fsqrt hd, ?_⟩
  rw [Vec.metricDistance, (C66_vector v w 0).2.2.2.1]
  have z : (0 : Vec (Fl ρ) n).normSquared = 0 := by
    rw [Vec.normSquared, Vec.dot]
    exact forRange_induction (fun _ s => s = 0) rfl fun i t h => by
      rw [h]; simp only [Vec.zero_data]; rw [Fl.mul_zero, Fl.add_zero]
  rw [Vec.norm, z]
  exact Fl.ext (by simp [ρ.zero])

/-- The cross product changes sign exactly when its arguments are exchanged, and vanishes exactly on equal arguments. -/
theorem C66_cross (v w : Vec (Fl ρ) 3) : v.cross w = -w.cross v ∧ v.cross v = 0 ∧ (-v).cross w = -v.cross w := by
  refine ⟨?_, ?_, ?_⟩ <;> apply Vec.ext3 <;>
    simp only [Vec.cross, Vec.neg_data, Vec.new3_data, Vec.zero_data, Matrix.cons_val_zero, Matrix.cons_val_one,
      Matrix.cons_val]
  all_goals first
    | (rw [Fl.neg_sub]; congr 1 <;> exact Fl.mul_comm _ _)
    | (rw [Fl.mul_comm, Fl.sub_self])
    | (rw [Fl.neg_mul, Fl.neg_mul, Fl.neg_sub]; exact Fl.ext (by simp; ring_nf))

/-- Interpolation returns its first argument at zero, and a vector interpolated with itself does not move. -/
theorem C66_lerp (v w : Vec (Fl ρ) n) (t : Fl ρ) : v.lerp w 0 = v ∧ v.lerp v t = v := by
  constructor <;> ext i : 2 <;> simp only [Vec.lerp, Vec.add_data, Vec.sub_data, Vec.mulS_data]
  · rw [Fl.mul_zero, Fl.add_zero]
  · rw [Fl.sub_self, Fl.zero_mul, Fl.add_zero]

theorem C66_point (p q : Pt (Fl ρ) n) (v : Vec (Fl ρ) n) : p - p = (0 : Vec (Fl ρ) n) ∧ p + (0 : Vec (Fl ρ) n) = p ∧
    p - v = p + -v ∧ (p - q : Vec (Fl ρ) n) = -(q - p) := by
  refine ⟨(C66_vector p.coords v 0).2.2.2.1, congrArg Pt.mk (C66_vector p.coords v 0).2.1,
    congrArg Pt.mk (C66_vector p.coords v 0).2.2.2.2.2.2.2.2.2.2.2,
    ((C66_vector q.coords p.coords 0).2.2.2.2.2.2.2.2.1).symm⟩

/-! ### matrices -/

theorem dotArrayCol_single (f : Fin n → Fl ρ) (j : Fin n) :
    (forRange n (0 : Fl ρ) fun i s => s + f i * (if i = j then 1 else 0)) = f j := by
  have := forRange_induction (n := n) (s := (0 : Fl ρ)) (b := fun i s => s + f i * (if i = j then 1 else 0))
    (fun k s => s = if (j : ℕ) < k then f j else 0) (by simp) (by
      intro i t ht
      subst ht
      rcases lt_trichotomy i j with h | h | h
      · have h1 : ¬ (j : ℕ) < i := by simpa using h.le
        have h2 : ¬ (j : ℕ) < i + 1 := by have : (i : ℕ) < j := h; omega
        rw [if_neg h1, if_neg h2, if_neg h.ne, Fl.mul_zero, Fl.add_zero]
      · subst h
        simp only [lt_self_iff_false, if_false, if_true, Nat.lt_succ_self]
        rw [Fl.mul_one, Fl.zero_add]
      · have h1 : (j : ℕ) < i := h
        have h2 : (j : ℕ) < i + 1 := by omega
        rw [if_pos h1, if_pos h2, if_neg h.ne', Fl.mul_zero, Fl.add_zero])
  rw [this, if_pos j.2]

/-- Multiplication by the identity is exact on both sides, and so is its action on vectors. -/
theorem C66_identity (A : Mat (Fl ρ) R C) (v : Vec (Fl ρ) C) :
    A * (identity : Mat (Fl ρ) C C) = A ∧ (identity : Mat (Fl ρ) R R) * A = A ∧ (identity : Mat (Fl ρ) C C) * v = v := by
  refine ⟨?_, ?_, ?_⟩
  · apply ext_data; intro c r
    rw [mul_entry, dotArrayCol]
    rw [← dotArrayCol_single (fun i => A.data i r) c]
    exact forRange_congr fun i s => by simp only [identity_data, eq_comm]
  · apply ext_data; intro c r
    rw [mul_entry, dotArrayCol]
    conv_lhs => enter [3, i, s]; rw [identity_data, Fl.mul_comm]
    exact dotArrayCol_single (fun i => A.data c i) r
  · ext r : 2
    rw [mulVec_entry, dotArrayCol]
    conv_lhs => enter [3, i, s]; rw [identity_data, Fl.mul_comm]
    exact dotArrayCol_single (fun i => v.data i) r

/-- Transposing a product is exact, and `tr_mul` is the product with the transpose. -/
theorem C66_transpose (A : Mat (Fl ρ) R1 C1) (B : Mat (Fl ρ) C1 C2) (D : Mat (Fl ρ) C1 C2) (E : Mat (Fl ρ) C1 R1) :
    (A * B).transpose = B.transpose * A.transpose ∧ E.trMul D = E.transpose * D ∧ A.transpose.trMul D = A * D := by
  refine ⟨?_, ?_, ?_⟩ <;> apply ext_data <;> intro c r
  · rw [transpose_data, mul_entry, mul_entry, dotArrayCol, dotArrayCol]
    exact forRange_congr fun i s => by rw [transpose_data, transpose_data, Fl.mul_comm]
  · rw [trMul_entry, mul_entry, dotArrayCol]
    exact forRange_congr fun i s => by rw [transpose_data]
  · rw [trMul_entry, mul_entry, dotArrayCol]
    exact forRange_congr fun i s => by rw [transpose_data]

/-- The sign of a factor moves out of a product exactly; sums commute. -/
theorem C66_matrix (A A' : Mat (Fl ρ) R1 C1) (B : Mat (Fl ρ) C1 C2) :
    -A * B = -(A * B) ∧ A * -B = -(A * B) ∧ A + A' = A' + A ∧ A - A = 0 := by
  refine ⟨?_, ?_, ?_, ?_⟩ <;> apply ext_data <;> intro c r
  · rw [neg_data, mul_entry, mul_entry, dotArrayCol, dotArrayCol]
    refine (forRange_sim (fun x : Fl ρ => -x) (Fl.ext (by simp)) fun i x => ?_).symm
    rw [Fl.neg_add, neg_data, Fl.neg_mul]
  · rw [neg_data, mul_entry, mul_entry, dotArrayCol, dotArrayCol]
    refine (forRange_sim (fun x : Fl ρ => -x) (Fl.ext (by simp)) fun i x => ?_).symm
    rw [Fl.neg_add, neg_data, Fl.mul_neg]
  · rw [add_data, add_data, Fl.add_comm]
  · rw [sub_data, Fl.sub_self]; rfl

/-- The determinant of a two-by-two matrix and of its transpose are the same float. -/
theorem C66_determinant2 (A : Mat (Fl ρ) 2 2) : A.transpose.determinant2 = A.determinant2 := by
  simp only [determinant2, transpose_data]; congr 1; exact Fl.mul_comm _ _

/-! ### complex numbers and quaternions -/

theorem Cx.ext_fl {z w : Cx (Fl ρ)} (h : z.re = w.re) (h' : z.im = w.im) : z = w := by
  cases z; cases w; simp_all

/-- Complex multiplication commutes; `z * conj z` has imaginary part exactly zero and real part exactly the
squared norm, which is never negative; conjugation is exact; `*=` is `*`. -/
theorem C66_complex (z w : Cx (Fl ρ)) :
    z * w = w * z ∧ (z * z.conjugate).im = 0 ∧ (z * z.conjugate).re = z.normSquared ∧ 0 ≤ z.normSquared.val ∧
    z.conjugate.normSquared = z.normSquared ∧ (z * w).conjugate = z.conjugate * w.conjugate ∧ z.mulAssign w = z * w ∧
    z + w = w + z ∧ z - z = 0 := by
  have mre : ∀ z w : Cx (Fl ρ), (z * w).re = z.re * w.re - z.im * w.im := fun _ _ => rfl
  have mim : ∀ z w : Cx (Fl ρ), (z * w).im = z.re * w.im + z.im * w.re := fun _ _ => rfl
  have cre : ∀ z : Cx (Fl ρ), z.conjugate.re = z.re := fun _ => rfl
  have cim : ∀ z : Cx (Fl ρ), z.conjugate.im = -z.im := fun _ => rfl
  refine ⟨?_, ?_, ?_, ?_, ?_, ?_, ?_, ?_, ?_⟩
  · apply Cx.ext_fl
    · rw [mre, mre, Fl.mul_comm, Fl.mul_comm z.im]
    · rw [mim, mim, Fl.add_comm, Fl.mul_comm, Fl.mul_comm z.re]
  · rw [mim, cim, cre, Fl.mul_neg, Fl.mul_comm z.im, Fl.add_comm, ← Fl.sub_eq_add_neg, Fl.sub_self]
  · rw [mre, cim, cre, Fl.mul_neg, Fl.sub_eq_add_neg, Fl.neg_neg]; rfl
  · exact ρ.nonneg (add_nonneg (Fl.mul_self_nonneg _) (Fl.mul_self_nonneg _))
  · rw [Cx.normSquared, Cx.normSquared, cre, cim, Fl.neg_mul_neg]
  · apply Cx.ext_fl
    · rw [mre, cre, cre, cre, mre, cim, cim, Fl.neg_mul_neg]
    · rw [cim, mim, mim, cre, cre, cim, cim, Fl.mul_neg, Fl.neg_mul, Fl.neg_add]
  · apply Cx.ext_fl
    · rfl
    · rw [mim, Fl.add_comm]; rfl
  · apply Cx.ext_fl <;> exact Fl.add_comm _ _
  · apply Cx.ext_fl <;> exact Fl.sub_self _

theorem dot_zero_fl (v : Vec (Fl ρ) n) : v.dot 0 = 0 := by
  rw [Vec.dot]
  exact forRange_induction (fun _ s => s = 0) rfl fun i t h => by
    rw [h]; simp only [Vec.zero_data]; rw [Fl.mul_zero, Fl.add_zero]

theorem cross_zero_fl (v : Vec (Fl ρ) 3) : v.cross 0 = 0 := by
  apply Vec.ext3 <;> simp only [Vec.cross, Vec.new3_data, Vec.zero_data, Matrix.cons_val_zero, Matrix.cons_val_one,
    Matrix.cons_val] <;> rw [Fl.mul_zero, Fl.mul_zero, Fl.sub_self]

/-- The norm of a quaternion is the norm of its conjugate; it is never negative. -/
theorem C66_quaternion (q r : Quat (Fl ρ)) : q.conjugate.normSquared = q.normSquared ∧ 0 ≤ q.normSquared.val ∧
    q.dot r = r.dot q ∧ q * (1 : Quat (Fl ρ)) = q ∧ (1 : Quat (Fl ρ)) * q = q := by
  refine ⟨?_, (C66_norm_nonneg q.coords q.coords).1, C66_dot_comm _ _, ?_, ?_⟩
  · rw [Quat.normSquared, Quat.normSquared, Vec.normSquared, Vec.normSquared, Vec.dot, Vec.dot]
    refine forRange_congr fun i s => ?_
    congr 1
    fin_cases i
    · rfl
    · exact Fl.neg_mul_neg _ _
    · exact Fl.neg_mul_neg _ _
    · exact Fl.neg_mul_neg _ _
  · have hs : (q * (1 : Quat (Fl ρ))).coords.data 0 = q.scalar * 1 - q.vector.dot 0 := rfl
    have hv : ∀ i : Fin 3, (q * (1 : Quat (Fl ρ))).vector.data i =
        ((0 : Vec (Fl ρ) 3) * q.scalar + q.vector * (1 : Fl ρ) + q.vector.cross 0).data i := fun i => by
      fin_cases i <;> rfl
    apply Quat.ext; apply Vec.ext4
    · rw [hs, dot_zero_fl, Fl.mul_one, Fl.sub_zero]; rfl
    · refine (hv 0).trans ?_; rw [Vec.add_data, Vec.add_data, Vec.mulS_data, Vec.mulS_data, cross_zero_fl]
      rw [Vec.zero_data, Fl.zero_mul, Fl.mul_one, Fl.zero_add, Fl.add_zero]; rfl
    · refine (hv 1).trans ?_; rw [Vec.add_data, Vec.add_data, Vec.mulS_data, Vec.mulS_data, cross_zero_fl]
      rw [Vec.zero_data, Fl.zero_mul, Fl.mul_one, Fl.zero_add, Fl.add_zero]; rfl
    · refine (hv 2).trans ?_; rw [Vec.add_data, Vec.add_data, Vec.mulS_data, Vec.mulS_data, cross_zero_fl]
      rw [Vec.zero_data, Fl.zero_mul, Fl.mul_one, Fl.zero_add, Fl.add_zero]; rfl
  · have hs : ((1 : Quat (Fl ρ)) * q).coords.data 0 = 1 * q.scalar - (0 : Vec (Fl ρ) 3).dot q.vector := rfl
    have hv : ∀ i : Fin 3, ((1 : Quat (Fl ρ)) * q).vector.data i =
        (q.vector * (1 : Fl ρ) + (0 : Vec (Fl ρ) 3) * q.scalar + (0 : Vec (Fl ρ) 3).cross q.vector).data i := fun i => by
      fin_cases i <;> rfl
    have hc : (0 : Vec (Fl ρ) 3).cross q.vector = 0 := by
      rw [(C66_cross _ _).1, cross_zero_fl]; ext i : 2; rw [Vec.neg_data]; exact Fl.ext (by simp)
    apply Quat.ext; apply Vec.ext4
    · rw [hs, C66_dot_comm, dot_zero_fl, Fl.one_mul, Fl.sub_zero]; rfl
    · refine (hv 0).trans ?_; rw [Vec.add_data, Vec.add_data, Vec.mulS_data, Vec.mulS_data, hc]
      rw [Vec.zero_data, Fl.zero_mul, Fl.mul_one, Fl.add_zero, Fl.add_zero]; rfl
    · refine (hv 1).trans ?_; rw [Vec.add_data, Vec.add_data, Vec.mulS_data, Vec.mulS_data, hc]
      rw [Vec.zero_data, Fl.zero_mul, Fl.mul_one, Fl.add_zero, Fl.add_zero]; rfl
    · refine (hv 2).trans ?_; rw [Vec.add_data, Vec.add_data, Vec.mulS_data, Vec.mulS_data, hc]
      rw [Vec.zero_data, Fl.zero_mul, Fl.mul_one, Fl.add_zero, Fl.add_zero]; rfl

/-! ### laws that fail -/

open Rounding in
/-- The nearest representable number, found from the exponent and the integer significand. -/
theorem flEven_eq {p : ℕ} {qmin : Option ℤ} {x : ℝ} {e m : ℤ} (h1 : 2 ^ e ≤ |x|) (h2 : |x| < 2 ^ (e + 1))
    (h3 : |x / 2 ^ lastBit p qmin e - m| < 1 / 2) : flEven p qmin x = m * 2 ^ lastBit p qmin e := by
  have he : Int.log 2 |x| = e := by
    have hx : 0 < |x| := lt_of_lt_of_le (by positivity) h1
    have hx' : x ≠ 0 := abs_pos.mp hx
    have a := (two_zpow_log_le hx').trans_lt h2
    have b := h1.trans_lt (lt_two_zpow_log x)
    rw [zpow_lt_zpow_iff_right₀ one_lt_two] at a b
    omega
  simp only [flEven, he]
  congr 2
  rw [abs_lt] at h3
  unfold roundEven
  rcases lt_trichotomy ⌊x / 2 ^ lastBit p qmin e⌋ m with h | h | h
  · have : ⌊x / 2 ^ lastBit p qmin e⌋ = m - 1 := by
      rw [Int.floor_eq_iff]; push_cast
      refine ⟨by linarith, ?_⟩
      have := Int.lt_floor_add_one (x / 2 ^ lastBit p qmin e)
      have hm : ((⌊x / 2 ^ lastBit p qmin e⌋ : ℤ) : ℝ) + 1 ≤ m := by exact_mod_cast h
      linarith
    rw [this]; push_cast
    rw [if_neg (by linarith), if_pos (by linarith)]; ring
  · rw [h, if_pos (by linarith)]
  · have := Int.floor_le (x / 2 ^ lastBit p qmin e)
    have hm : ((m : ℤ) : ℝ) + 1 ≤ ⌊x / 2 ^ lastBit p qmin e⌋ := by exact_mod_cast h
    linarith

section Fails
open Rounding

/-- `2 ^ -60` as an `f64` -/
noncomputable def small64 : Fl binary64 := ⟨2 ^ (-60 : ℤ), by
  have := flEven_eq (p := 53) (qmin := some (-1074)) (x := 2 ^ (-60 : ℤ)) (e := -60) (m := 2 ^ 52)
    (by rw [abs_of_pos (by positivity)]) (by norm_num) (by norm_num [lastBit])
  refine (show binary64.fl _ = _ from this).trans ?_
  norm_num [lastBit]⟩

theorem small64_sub_one : (small64 - 1 : Fl binary64) = -1 := by
  apply Fl.ext
  have := flEven_eq (p := 53) (qmin := some (-1074)) (x := 2 ^ (-60 : ℤ) - 1) (e := -1) (m := -2 ^ 53)
    (by norm_num [abs_of_neg]) (by norm_num [abs_of_neg]) (by norm_num [lastBit, abs_of_pos])
  refine (show binary64.fl _ = _ from this).trans ?_
  norm_num [lastBit]

theorem one_add_neg_one : (1 + -1 : Fl binary64) = 0 := by rw [← Fl.sub_eq_add_neg, Fl.sub_self]

/-- `f64` addition is not associative: `(1 + -1) + 2^-60` is `2^-60`, but `1 + (-1 + 2^-60)` is zero. -/
theorem C66_add_assoc_fails : ∃ a b c : Fl binary64, a + b + c ≠ a + (b + c) := by
  refine ⟨1, -1, small64, ?_⟩
  rw [one_add_neg_one, Fl.zero_add, Fl.add_comm (-1), ← Fl.sub_eq_add_neg, small64_sub_one, one_add_neg_one]
  intro h
  have := congrArg Fl.val h
  norm_num [small64] at this

/-- `lerp` with amount one does not return its second argument in `f64`: between 1 and `2^-60` it ends
at 0.  Likewise `p + (q - p)` is not `q`. -/
theorem C66_lerp_one_fails : (∃ v w : Vec (Fl binary64) 3, v.lerp w 1 ≠ w) ∧
    ∃ p q : Pt (Fl binary64) 3, p + (q - p : Vec (Fl binary64) 3) ≠ q := by
  have key : (1 : Fl binary64) + (small64 - 1) ≠ small64 := by
    rw [small64_sub_one, one_add_neg_one]
    intro h
    have := congrArg Fl.val h
    norm_num [small64] at this
  constructor
  · refine ⟨Vec.fromFill 1, Vec.fromFill small64, fun h => key ?_⟩
    have := congrArg (fun v => v.data 0) h
    simp only [Vec.lerp, Vec.add_data, Vec.sub_data, Vec.mulS_data, Vec.fromFill_data] at this
    rwa [Fl.mul_one] at this
  · refine ⟨⟨Vec.fromFill 1⟩, ⟨Vec.fromFill small64⟩, fun h => key ?_⟩
    have := congrArg (fun v => v.coords.data 0) h
    simpa using this

end Fails

end Cgl
