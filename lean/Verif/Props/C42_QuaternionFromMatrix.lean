import Verif.Props.C41_QuaternionToMatrix

/-!
# C42 - the quaternion of a rotation matrix
-/

namespace Cgl
open Quat

/-- If the pairwise products of the components of `q` are the entries of the symmetric 4x4 matrix built from
`R`, then `q` is a unit quaternion whose matrix is `R`. -/
theorem Quat.of_products {R : Mat ℝ 3 3} {q : Quat ℝ}
    (ss : 4 * (q.s * q.s) = 1 + R.data 0 0 + R.data 1 1 + R.data 2 2)
    (xx : 4 * (q.x * q.x) = 1 + R.data 0 0 - R.data 1 1 - R.data 2 2)
    (yy : 4 * (q.y * q.y) = 1 - R.data 0 0 + R.data 1 1 - R.data 2 2)
    (zz : 4 * (q.z * q.z) = 1 - R.data 0 0 - R.data 1 1 + R.data 2 2)
    (sx : 4 * (q.s * q.x) = R.data 1 2 - R.data 2 1)
    (sy : 4 * (q.s * q.y) = R.data 2 0 - R.data 0 2)
    (sz : 4 * (q.s * q.z) = R.data 0 1 - R.data 1 0)
    (xy : 4 * (q.x * q.y) = R.data 1 0 + R.data 0 1)
    (xz : 4 * (q.x * q.z) = R.data 0 2 + R.data 2 0)
    (yz : 4 * (q.y * q.z) = R.data 2 1 + R.data 1 2) : q.normSquared = 1 ∧ q.toMatrix = R := by
  have hn : q.normSquared = 1 := by rw [normSquared_eq]; linarith
  refine ⟨hn, ?_⟩
  apply Mat.ext3 <;> simp only [toMatrix, hn] <;> simp [one_add_one_eq_two] <;> linarith

theorem Spec.IsRotation.cofactors {R : Mat ℝ 3 3} (h : Spec.IsRotation R) :
    (R.data 1 1 * R.data 2 2 - R.data 1 2 * R.data 2 1 = R.data 0 0 ∧
     R.data 1 2 * R.data 2 0 - R.data 1 0 * R.data 2 2 = R.data 0 1 ∧
     R.data 1 0 * R.data 2 1 - R.data 1 1 * R.data 2 0 = R.data 0 2) ∧
    (R.data 2 1 * R.data 0 2 - R.data 2 2 * R.data 0 1 = R.data 1 0 ∧
     R.data 2 2 * R.data 0 0 - R.data 2 0 * R.data 0 2 = R.data 1 1 ∧
     R.data 2 0 * R.data 0 1 - R.data 2 1 * R.data 0 0 = R.data 1 2) ∧
    (R.data 0 1 * R.data 1 2 - R.data 0 2 * R.data 1 1 = R.data 2 0 ∧
     R.data 0 2 * R.data 1 0 - R.data 0 0 * R.data 1 2 = R.data 2 1 ∧
     R.data 0 0 * R.data 1 1 - R.data 0 1 * R.data 1 0 = R.data 2 2) := by
  obtain ⟨h1, h2, hd⟩ := h
  rw [← C17_det3] at hd
  have e' : ∀ c r, (R * R.transpose).data c r = (Mat.identity : Mat ℝ 3 3).data c r := fun c r => by rw [h2]
  have r00 := e' 0 0; have r01 := e' 0 1; have r02 := e' 0 2
  have r11 := e' 1 1; have r12 := e' 1 2; have r22 := e' 2 2
  simp [Mat.mul_data, Fin.sum_univ_three] at r00 r01 r02 r11 r12 r22
  simp [Mat.determinant3] at hd
  generalize R.data 0 0 = a at *
  generalize R.data 0 1 = b at *
  generalize R.data 0 2 = c at *
  generalize R.data 1 0 = d at *
  generalize R.data 1 1 = f at *
  generalize R.data 1 2 = g at *
  generalize R.data 2 0 = k at *
  generalize R.data 2 1 = l at *
  generalize R.data 2 2 = m at *
  refine ⟨⟨?_, ?_, ?_⟩, ⟨?_, ?_, ?_⟩, ⟨?_, ?_, ?_⟩⟩
  all_goals grind

/-- `q_i q_j` from the formulas `q_k = s/2`, `q_i = a/(2s)`, `q_j = b/(2s)` with `s² = n` -/
private theorem prods {s n a b c : ℝ} (hs : s * s = n) (hn : 0 < n) (h : a * b = n * c) :
    4 * (a * ((1 / (1 + 1)) / s) * (b * ((1 / (1 + 1)) / s))) = c := by
  have hs0 : s ≠ 0 := by rintro rfl; simp at hs; exact hn.ne hs
  rw [one_add_one_eq_two]; field_simp
  linear_combination 4 * h - 4 * c * hs
private theorem prod1 {s n a : ℝ} (hs : s * s = n) (hn : 0 < n) :
    4 * ((1 / (1 + 1)) * s * (a * ((1 / (1 + 1)) / s))) = a := by
  have hs0 : s ≠ 0 := by rintro rfl; simp at hs; exact hn.ne hs
  rw [one_add_one_eq_two]; field_simp; ring
private theorem prod0 {s n : ℝ} (hs : s * s = n) :
    4 * ((1 / (1 + 1)) * s * ((1 / (1 + 1)) * s)) = n := by
  rw [one_add_one_eq_two]; linear_combination hs

/-- For every rotation matrix, in whichever branch, `from_matrix` returns a unit quaternion and `to_matrix`
recovers the matrix. -/
theorem C42_from_matrix {R : Mat ℝ 3 3} (h : Spec.IsRotation R) :
    (fromMatrix R).norm = 1 ∧ (fromMatrix R).toMatrix = R := by
  rw [norm_eq_one_iff]
  obtain ⟨⟨c00, c01, c02⟩, ⟨c10, c11, c12⟩, c20, c21, c22⟩ := h.cofactors
  have e : ∀ c r, (R.transpose * R).data c r = (Mat.identity : Mat ℝ 3 3).data c r :=
    fun c r => by rw [h.transpose_mul]
  have e' : ∀ c r, (R * R.transpose).data c r = (Mat.identity : Mat ℝ 3 3).data c r :=
    fun c r => by rw [h.mul_transpose]
  have e00 := e 0 0; have e01 := e 0 1; have e02 := e 0 2
  have e11 := e 1 1; have e12 := e 1 2; have e22 := e 2 2
  have r00 := e' 0 0; have r01 := e' 0 1; have r02 := e' 0 2
  have r11 := e' 1 1; have r12 := e' 1 2; have r22 := e' 2 2
  simp [Mat.mul_data, Fin.sum_univ_three] at e00 e01 e02 e11 e12 e22 r00 r01 r02 r11 r12 r22
  have ht : R.trace = R.data 0 0 + R.data 1 1 + R.data 2 2 := by
    rw [Mat.trace_eq_sum, Fin.sum_univ_three]
  unfold fromMatrix
  dsimp only
  rw [ht]
  split_ifs with h1 h2 h3
  · have hn : (0 : ℝ) < 1 + (R.data 0 0 + R.data 1 1 + R.data 2 2) := by linarith
    have hs := Real.mul_self_sqrt hn.le
    apply Quat.of_products <;> simp only [new_s, new_x, new_y, new_z, fsqrt_real]
    · rw [prod0 hs]; ring
    · apply prods hs hn; grind
    · apply prods hs hn; grind
    · apply prods hs hn; grind
    · exact prod1 hs hn
    · exact prod1 hs hn
    · exact prod1 hs hn
    · apply prods hs hn; grind
    · apply prods hs hn; grind
    · apply prods hs hn; grind
  · push Not at h1
    obtain ⟨h2, h2'⟩ := h2
    have hn : (0 : ℝ) < R.data 0 0 - R.data 1 1 - R.data 2 2 + 1 := by linarith
    have hs := Real.mul_self_sqrt hn.le
    apply Quat.of_products <;> simp only [new_s, new_x, new_y, new_z, fsqrt_real]
    · apply prods hs hn; grind
    · rw [prod0 hs]; ring
    · apply prods hs hn; grind
    · apply prods hs hn; grind
    · rw [mul_comm (_ * _) (1 / (1 + 1) * _), prod1 hs hn]
    · apply prods hs hn; grind
    · apply prods hs hn; grind
    · rw [prod1 hs hn]
    · rw [prod1 hs hn]
    · apply prods hs hn; grind
  · push Not at h1
    have h2' : R.data 0 0 ≤ R.data 1 1 := by
      by_contra hc; push Not at hc; exact h2 ⟨hc, h3.trans hc⟩
    have hn : (0 : ℝ) < R.data 1 1 - R.data 0 0 - R.data 2 2 + 1 := by linarith
    have hs := Real.mul_self_sqrt hn.le
    apply Quat.of_products <;> simp only [new_s, new_x, new_y, new_z, fsqrt_real]
    · apply prods hs hn; grind
    · apply prods hs hn; grind
    · rw [prod0 hs]; ring
    · apply prods hs hn; grind
    · apply prods hs hn; grind
    · rw [mul_comm (_ * _) (1 / (1 + 1) * _), prod1 hs hn]
    · apply prods hs hn; grind
    · rw [mul_comm (_ * _) (1 / (1 + 1) * _), prod1 hs hn]
    · apply prods hs hn; grind
    · rw [prod1 hs hn]
  · push Not at h1
    push Not at h3
    have h2' : R.data 0 0 ≤ R.data 2 2 := by
      by_contra hc; push Not at hc; exact h2 ⟨lt_of_le_of_lt h3 hc, hc⟩
    have hn : (0 : ℝ) < R.data 2 2 - R.data 0 0 - R.data 1 1 + 1 := by linarith
    have hs := Real.mul_self_sqrt hn.le
    apply Quat.of_products <;> simp only [new_s, new_x, new_y, new_z, fsqrt_real]
    · apply prods hs hn; grind
    · apply prods hs hn; grind
    · apply prods hs hn; grind
    · rw [prod0 hs]; ring
    · apply prods hs hn; grind
    · apply prods hs hn; grind
    · rw [mul_comm (_ * _) (1 / (1 + 1) * _), prod1 hs hn]
    · apply prods hs hn; grind
    · rw [mul_comm (_ * _) (1 / (1 + 1) * _), prod1 hs hn]
    · rw [mul_comm (_ * _) (1 / (1 + 1) * _), prod1 hs hn]

/-- For a unit quaternion, `from_matrix` of its matrix is the quaternion or its negative. -/
theorem C42_round_trip (q : Quat ℝ) (hq : q.norm = 1) :
    fromMatrix q.toMatrix = q ∨ fromMatrix q.toMatrix = -q := by
  have h0 : q ≠ 0 := by rintro rfl; rw [norm_eq_zero.mpr rfl] at hq; exact zero_ne_one hq
  obtain ⟨h1, h2⟩ := C42_from_matrix (C41_rotation q h0)
  exact C41_injective _ _ h1 hq h2

/-- For any non-zero quaternion the round trip gives the normalised quaternion up to sign. -/
theorem C42_round_trip_normalize (q : Quat ℝ) (hq : q ≠ 0) :
    fromMatrix q.toMatrix = q.normalize ∨ fromMatrix q.toMatrix = -q.normalize := by
  have e : q.normalize.toMatrix = q.toMatrix := by
    rw [normalize_def]
    exact C41_scale q (normSquared_eq_zero.not.mpr hq) (one_div_ne_zero (norm_pos hq).ne')
  rw [← e]; exact C42_round_trip _ (normalize_norm hq)

/-- every rotation matrix is the matrix of a unit quaternion -/
theorem C42_surjective {R : Mat ℝ 3 3} (h : Spec.IsRotation R) : ∃ q : Quat ℝ, q.norm = 1 ∧ q.toMatrix = R :=
  ⟨fromMatrix R, C42_from_matrix h⟩

/-- The sign chosen: in the first branch (non-negative trace, rotation angle at most 120°) the scalar part is
positive. -/
theorem C42_scalar_pos {R : Mat ℝ 3 3} (ht : 0 ≤ R.trace) : 0 < (fromMatrix R).scalar := by
  unfold fromMatrix
  dsimp only
  rw [if_pos ht]
  simp only [scalar_eq, new_s, fsqrt_real]
  have : 0 < Real.sqrt (1 + R.trace) := Real.sqrt_pos.mpr (by linarith)
  positivity

/-! ### one rotation for each branch -/

private theorem half_turn (a b c : ℝ) (h : a ^ 2 = 1 ∧ b ^ 2 = 1 ∧ c ^ 2 = 1 ∧ a * b * c = 1) :
    Spec.IsRotation (Mat.new3x3 a 0 0 0 b 0 0 0 c) := by
  obtain ⟨h1, h2, h3, h4⟩ := h
  apply Spec.IsRotation.of_transpose_mul
  · apply Mat.ext3 <;> simp [Mat.mul_data, Fin.sum_univ_three] <;> nlinarith
  · rw [← C17_det3]; simp [Mat.determinant3]; linarith

/-- trace `≥ 0` -/
example : Spec.IsRotation (Mat.identity : Mat ℝ 3 3) ∧ fromMatrix (Mat.identity : Mat ℝ 3 3) = identity := by
  constructor
  · apply Spec.IsRotation.of_transpose_mul
    · apply Mat.ext3 <;> simp [Mat.mul_data]
    · rw [← C17_det3]; simp [Mat.determinant3]
  · have ht : (Mat.identity : Mat ℝ 3 3).trace = 3 := by
      rw [Mat.trace_eq_sum]; simp
    have h4 : Real.sqrt (1 + 3) = 2 := by rw [Real.sqrt_eq_iff_mul_self_eq] <;> norm_num
    unfold fromMatrix; dsimp only
    rw [ht, if_pos (by norm_num)]
    apply ext4 <;> simp [h4]
    norm_num
/-- half turns about x, y and z take the other three branches -/
example : Spec.IsRotation (Mat.new3x3 1 0 0 0 (-1) 0 0 0 (-1) : Mat ℝ 3 3) ∧
    Spec.IsRotation (Mat.new3x3 (-1) 0 0 0 1 0 0 0 (-1) : Mat ℝ 3 3) ∧
    Spec.IsRotation (Mat.new3x3 (-1) 0 0 0 (-1) 0 0 0 1 : Mat ℝ 3 3) :=
  ⟨half_turn _ _ _ (by norm_num), half_turn _ _ _ (by norm_num), half_turn _ _ _ (by norm_num)⟩
example : fromMatrix (Mat.new3x3 (-1) 0 0 0 1 0 0 0 (-1) : Mat ℝ 3 3) = unitY := by
  have h4 : Real.sqrt 4 = 2 := by rw [Real.sqrt_eq_iff_mul_self_eq] <;> norm_num
  unfold fromMatrix; dsimp only
  rw [Mat.trace_eq_sum]
  apply ext4 <;> simp [Fin.sum_univ_three, unitY, Vec.unitY3] <;> norm_num [h4]

end Cgl
