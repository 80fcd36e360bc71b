import Verif.Props.C109_Similarities

/-! # C109 - inverses of similarities, and similarities of vectors, in IEEE arithmetic

`inverse` builds a new similarity, with the scale `1 / scale`; `inverse_apply_point` undoes the steps one after the other. The two round differently;
both are near the exact inverse. -/

namespace Cgl
open Ieee FloatFns Mat Spec Rounding Matrix
open scoped Matrix.Norms.L2Operator

variable {φ : Format} {n : ℕ}

namespace Spec

/-- the exact inverse of a similarity with an orthogonal matrix: move back, turn back, scale back -/
noncomputable def exactInverse (S : Similarity (Ieee φ) n) (y : Fin n → ℝ) : Fin n → ℝ :=
  S.scale.val⁻¹ • ((exactly S.isometry.rotation.matrix)ᵀ *ᵥ (y - values S.isometry.translation.vector))

/-- no size of a number in building and applying the inverse is below `lo` or above `hi` -/
def InverseRange (lo hi σ N T X : ℝ) : Prop :=
  Between lo hi N ∧ Between lo hi σ⁻¹ ∧ Between lo hi (N * T) ∧ Between lo hi (σ⁻¹ * (N * T)) ∧ Between lo hi (σ⁻¹ * X) ∧ Between lo hi (N * (σ⁻¹ * X)) ∧
    Between lo hi (N * (σ⁻¹ * X) + σ⁻¹ * (N * T))

/-- no size of a number in undoing is below `lo` or above `hi` -/
def UndoRange (lo hi σ N T X : ℝ) : Prop :=
  Between lo hi N ∧ Between lo hi (X + T) ∧ Between lo hi (N * (X + T)) ∧ Between lo hi (N * (X + T) / σ)

/-- no size of a number on the way there and back of a vector is below `lo` or above `hi` -/
def VectorRange (lo hi σ N X : ℝ) : Prop :=
  Between lo hi N ∧ Between lo hi (σ * X) ∧ Between lo hi (N * (σ * X)) ∧ Between lo hi (N * (N * (σ * X))) ∧ Between lo hi (N * (N * (σ * X)) / σ)

end Spec

section
variable (hu : φ.u ≤ 1 / 1000000) (hn : 10 * n ^ 2 * 8 * φ.u ≤ 1) (h0 : 0 < n) {lo hi : ℝ} (hlo : 0 < lo) (hfits : ∀ a, lo ≤ a → a ≤ 2 * hi → Fits φ a)
variable (hn' : 5 * n * φ.u ≤ 1 / 100)
include hu hn h0 hlo hfits

theorem reciprocal_near {c : Ieee φ} (hc : c.Finite) (hs : 0 < |c.val|) (hr : Between lo hi |c.val|⁻¹) :
    (1 / c).Finite ∧ |(1 / c).val - c.val⁻¹| ≤ (1 + Spec.step φ n - 1) * |c.val|⁻¹ := by
  have hc0 : c.val ≠ 0 := abs_pos.mp hs
  have hp := hlo.trans_le hr.1
  have hf := hfits _ hr.1 (by linarith [hr.2])
  have e1 : (1 : Ieee φ).val = 1 := rfl
  have hz : |(1 : Ieee φ).val / c.val| ≤ 102 / 100 * |c.val|⁻¹ := by
    rw [e1, abs_div, abs_one, one_div]; linarith
  obtain ⟨r1, r2⟩ := hf.round hu hz
  have r3 := finite_div_of finite_one hc hc0 r1
  refine ⟨r3, ?_⟩
  rw [(val_div r3 hc).1]
  rw [e1] at r2 ⊢
  rw [one_div] at r2 ⊢
  refine r2.trans (mul_le_mul_of_nonneg_right ?_ hp.le)
  have := two_roundings (φ := φ) h0
  linarith

include hn'

theorem turned_back {S : Similarity (Ieee φ) n} {N Z : ℝ} (f1 : FiniteEntries S.isometry.rotation.matrix) (f2 : ‖exactly S.isometry.rotation.matrix‖ ≤ N) (hN : 0 < N)
    {w : Vec (Ieee φ) n} {y : Fin n → ℝ} {k : ℕ} (hk : k ≤ 7) (hw : Tracks ((1 + Spec.step φ n) ^ k) Z w y) (hr : Between lo hi (N * Z)) :
    Tracks ((1 + Spec.step φ n) ^ (k + 1)) (N * Z) (S.isometry.rotation.matrix.transpose * w) ((exactly S.isometry.rotation.matrix)ᵀ *ᵥ y) := by
  have hx : 0 ≤ Spec.step φ n := Spec.step_nonneg
  have hk8 : ((8 : ℕ) : ℝ) * Spec.step φ n ≤ 1 / 2 := by push_cast; exact few_steps hn
  have hb := growth_le hx hk8 (m := k) (by omega)
  obtain ⟨u1, u2⟩ := norm_transposed S.isometry.rotation.matrix
  have a := turned_tracks hu hn' h0 hlo hfits (A := S.isometry.rotation.matrix.transpose)
    (fun c r => by rw [show S.isometry.rotation.matrix.transpose.data c r = S.isometry.rotation.matrix.data r c by simp]; exact f1 r c) (G := 1)
    (E := (exactly S.isometry.rotation.matrix)ᵀ) (P := N) (by rw [u2, sub_self, norm_zero, sub_self, zero_mul]) (by rw [← u2, u1]; exact f2) hN hw le_rfl hb.1
    (by rw [_root_.one_mul]; exact hb.2) hr
  rw [_root_.one_mul, ← pow_succ] at a
  exact a

theorem turned_on {S : Similarity (Ieee φ) n} {N Z : ℝ} (f1 : FiniteEntries S.isometry.rotation.matrix) (f2 : ‖exactly S.isometry.rotation.matrix‖ ≤ N) (hN : 0 < N)
    {w : Vec (Ieee φ) n} {y : Fin n → ℝ} {k : ℕ} (hk : k ≤ 7) (hw : Tracks ((1 + Spec.step φ n) ^ k) Z w y) (hr : Between lo hi (N * Z)) :
    Tracks ((1 + Spec.step φ n) ^ (k + 1)) (N * Z) (S.isometry.rotation.matrix * w) (exactly S.isometry.rotation.matrix *ᵥ y) := by
  have hx : 0 ≤ Spec.step φ n := Spec.step_nonneg
  have hk8 : ((8 : ℕ) : ℝ) * Spec.step φ n ≤ 1 / 2 := by push_cast; exact few_steps hn
  have hb := growth_le hx hk8 (m := k) (by omega)
  have a := turned_tracks hu hn' h0 hlo hfits f1 (G := 1)
    (E := exactly S.isometry.rotation.matrix) (P := N) (by rw [sub_self, norm_zero, sub_self, zero_mul]) f2 hN hw le_rfl hb.1
    (by rw [_root_.one_mul]; exact hb.2) hr
  rw [_root_.one_mul, ← pow_succ] at a
  exact a

theorem built_inverse_near {S : Similarity (Ieee φ) n} {N T X : ℝ} (hS : ProperSimilarity (S, N, T)) (hs : 0 < |S.scale.val|) {p : Pt (Ieee φ) n}
    (hp : ∀ i, (p.coords.data i).Finite) (hX : vecNorm (values p.coords) ≤ X) (hr : InverseRange lo hi |S.scale.val| N T X) :
    ∃ I, S.inverse = .ok I ∧ (∀ i, ((I.applyPoint p).coords.data i).Finite) ∧
      vecNorm (values (I.applyPoint p).coords - exactInverse S (values p.coords)) ≤ 40 * n ^ 2 * φ.u * (N * (X + T) / |S.scale.val|) := by
  have hx : 0 ≤ Spec.step φ n := Spec.step_nonneg
  have hk : ((8 : ℕ) : ℝ) * Spec.step φ n ≤ 1 / 2 := by push_cast; exact few_steps hn
  have hb := fun m hm => growth_le hx hk (m := m) hm
  obtain ⟨f1, f2, f3, f4, f5⟩ := hS
  obtain ⟨r0, r1, r2, r3, r4, r5, r6⟩ := hr
  have hN : 0 < N := hlo.trans_le r0.1
  have hi : S.inverse = .ok ⟨⟨⟨S.isometry.rotation.matrix.transpose⟩,
      ⟨(S.isometry.rotation.matrix.transpose * S.isometry.translation.vector.negMut).mulAssign (1 / S.scale)⟩⟩, 1 / S.scale⟩ := by
    unfold Similarity.inverse Similarity.inverseMut Isometry.inverseMut Rotation.inverseMut
    rw [C14_transpose_mut]
    rfl
  refine ⟨_, hi, ?_⟩
  obtain ⟨c1, c2⟩ := reciprocal_near hu hn h0 hlo hfits f3 hs r1
  have c3 : |S.scale.val⁻¹| ≤ |S.scale.val|⁻¹ := (abs_inv _).le
  have c4 := hb 1 (by norm_num)
  rw [pow_one] at c4
  -- the translation of the inverse
  have t0 : Tracks ((1 + Spec.step φ n) ^ 0) T S.isometry.translation.vector.negMut (-values S.isometry.translation.vector) := by
    have e : values S.isometry.translation.vector.negMut = -values S.isometry.translation.vector := by
      funext i
      rw [values, Vec.negMut_data, val_neg]; rfl
    refine ⟨fun i => ?_, ?_, by rw [vecNorm_neg]; exact f5⟩
    · rw [Vec.negMut_data]
      obtain ⟨s, m, hm, h⟩ := f4 i
      rw [h]
      exact finite_fin _ _ _
    · rw [e, sub_self, pow_zero, sub_self, zero_mul]
      simp [vecNorm]
  have t1 := turned_back hu hn h0 hlo hfits hn' f1 f2 hN (by norm_num) t0 r2
  have t2 := scaled_tracks hu h0 hlo hfits t1 c1 c2 c3 (hb _ (by norm_num)).1 c4.1 (by rw [← pow_succ]; exact (hb _ (by norm_num)).2) r3
  rw [← pow_succ, ← pow_succ] at t2
  have em : (S.isometry.rotation.matrix.transpose * S.isometry.translation.vector.negMut).mulAssign (1 / S.scale) =
      (S.isometry.rotation.matrix.transpose * S.isometry.translation.vector.negMut) * (1 / S.scale) := by
    refine Vec.ext ?_
    funext i
    rw [Vec.mulAssign_data, Vec.mulS_data]
  -- the point
  have a0 := Spec.Tracks.exact hp hX
  have a1 := scaled_tracks hu h0 hlo hfits a0 c1 c2 c3 le_rfl c4.1 (by rw [_root_.one_mul]; exact c4.2) r4
  rw [_root_.one_mul, show (1 + Spec.step φ n) * (1 + Spec.step φ n) = (1 + Spec.step φ n) ^ 2 by ring] at a1
  have a2 := turned_back hu hn h0 hlo hfits hn' f1 f2 hN (by norm_num) a1 r5
  have a3 := added_tracks hu h0 hlo hfits a2 t2 (hb _ (by norm_num)).1 (hb _ (by norm_num)).2 r6
  rw [← pow_succ, ← em] at a3
  obtain ⟨b1, b2, b3⟩ := a3
  refine ⟨b1, ?_⟩
  have e : (exactly S.isometry.rotation.matrix)ᵀ *ᵥ (S.scale.val⁻¹ • values p.coords) +
      S.scale.val⁻¹ • ((exactly S.isometry.rotation.matrix)ᵀ *ᵥ (-values S.isometry.translation.vector)) = exactInverse S (values p.coords) := by
    rw [exactInverse, Matrix.mulVec_smul, ← smul_add, ← Matrix.mulVec_add, ← sub_eq_add_neg]
  have b4 := b2.trans (growth_linear (k := 4) (φ := φ) (n := n) le_rfl (by push_cast; linarith [few_steps hn]) ((vecNorm_nonneg _).trans b3))
  rw [e] at b4
  refine b4.trans_eq ?_
  push_cast
  field_simp
  ring

theorem inverse_apply_near {S : Similarity (Ieee φ) n} {N T X : ℝ} (hS : ProperSimilarity (S, N, T)) (hs : 0 < |S.scale.val|) {p : Pt (Ieee φ) n}
    (hp : ∀ i, (p.coords.data i).Finite) (hX : vecNorm (values p.coords) ≤ X) (hr : UndoRange lo hi |S.scale.val| N T X) :
    (∀ i, ((S.inverseApplyPoint p).coords.data i).Finite) ∧
      vecNorm (values (S.inverseApplyPoint p).coords - exactInverse S (values p.coords)) ≤ 30 * n ^ 2 * φ.u * (N * (X + T) / |S.scale.val|) := by
  have hx : 0 ≤ Spec.step φ n := Spec.step_nonneg
  have hk : ((8 : ℕ) : ℝ) * Spec.step φ n ≤ 1 / 2 := by push_cast; exact few_steps hn
  have hb := fun m hm => growth_le hx hk (m := m) hm
  obtain ⟨f1, f2, f3, f4, f5⟩ := hS
  obtain ⟨r0, r1, r2, r3⟩ := hr
  have hN : 0 < N := hlo.trans_le r0.1
  have a1 := subtracted_tracks hu h0 hlo hfits (Spec.Tracks.exact hp hX) (Spec.Tracks.exact f4 f5) le_rfl (by norm_num) r1
  rw [_root_.one_mul, ← pow_one (1 + Spec.step φ n)] at a1
  have a2 := turned_back hu hn h0 hlo hfits hn' f1 f2 hN (by norm_num) a1 r2
  have a3 := divided_tracks hu h0 hlo hfits a2 f3 hs rfl (hb _ (by norm_num)).1 (hb _ (by norm_num)).2 r3
  rw [← pow_succ] at a3
  obtain ⟨b1, b2, b3⟩ := a3
  refine ⟨b1, (b2.trans (growth_linear (k := 3) (φ := φ) (n := n) le_rfl (by push_cast; linarith [few_steps hn]) ((vecNorm_nonneg _).trans b3))).trans_eq ?_⟩
  push_cast
  ring

theorem vector_near {S : Similarity (Ieee φ) n} {N T X δ : ℝ} (hS : ProperSimilarity (S, N, T)) (hs : 0 < |S.scale.val|)
    (hδ : ‖(exactly S.isometry.rotation.matrix)ᵀ * exactly S.isometry.rotation.matrix - 1‖ ≤ δ) {v : Vec (Ieee φ) n}
    (hv : ∀ i, (v.data i).Finite) (hX : vecNorm (values v) ≤ X) (hr : VectorRange lo hi |S.scale.val| N X) :
    (∀ i, ((S.applyVector v).data i).Finite) ∧
      vecNorm (values (S.applyVector v) - S.scale.val • (exactly S.isometry.rotation.matrix *ᵥ values v)) ≤ 20 * n ^ 2 * φ.u * (N * |S.scale.val| * X) ∧
      (∀ i, ((S.inverseApplyVector (S.applyVector v)).data i).Finite) ∧
      vecNorm (values (S.inverseApplyVector (S.applyVector v)) - values v) ≤ 40 * n ^ 2 * φ.u * (N ^ 2 * X) + δ * X := by
  have hx : 0 ≤ Spec.step φ n := Spec.step_nonneg
  have hk : ((8 : ℕ) : ℝ) * Spec.step φ n ≤ 1 / 2 := by push_cast; exact few_steps hn
  have hb := fun m hm => growth_le hx hk (m := m) hm
  obtain ⟨f1, f2, f3, f4, f5⟩ := hS
  obtain ⟨r0, r1, r2, r3, r4⟩ := hr
  have hN : 0 < N := hlo.trans_le r0.1
  have hs0 : S.scale.val ≠ 0 := abs_pos.mp hs
  have a1 := scaled_tracks hu h0 hlo hfits (Spec.Tracks.exact hv hX) f3 (s := S.scale.val) (K := 1) (σ := |S.scale.val|) (by rw [sub_self, abs_zero, sub_self, zero_mul]) le_rfl
    le_rfl le_rfl (by norm_num) r1
  rw [_root_.one_mul, _root_.one_mul, ← pow_one (1 + Spec.step φ n)] at a1
  have a2 := turned_on hu hn h0 hlo hfits hn' f1 f2 hN (by norm_num) a1 r2
  have a3 := turned_back hu hn h0 hlo hfits hn' f1 f2 hN (by norm_num) a2 r3
  have a4 := divided_tracks hu h0 hlo hfits a3 f3 hs rfl (hb _ (by norm_num)).1 (hb _ (by norm_num)).2 r4
  rw [← pow_succ] at a4
  obtain ⟨b1, b2, b3⟩ := a2
  obtain ⟨d1, d2, d3⟩ := a4
  have b4 := b2.trans (growth_linear (k := 2) (φ := φ) (n := n) le_rfl (by push_cast; linarith [few_steps hn]) ((vecNorm_nonneg _).trans b3))
  have d4 := d2.trans (growth_linear (k := 4) (φ := φ) (n := n) le_rfl (by push_cast; linarith [few_steps hn]) ((vecNorm_nonneg _).trans d3))
  refine ⟨b1, ?_, d1, ?_⟩
  · rw [Matrix.mulVec_smul] at b4
    refine b4.trans_eq ?_
    push_cast
    ring
  · set R := exactly S.isometry.rotation.matrix
    have e : S.scale.val⁻¹ • (Rᵀ *ᵥ (R *ᵥ (S.scale.val • values v))) = values v + (Rᵀ * R - 1) *ᵥ values v := by
      rw [Matrix.mulVec_smul, Matrix.mulVec_smul, smul_smul, inv_mul_cancel₀ hs0, one_smul, Matrix.sub_mulVec, Matrix.one_mulVec, Matrix.mulVec_mulVec]
      abel
    change vecNorm (values (S.inverseApplyVector (S.applyVector v)) - _) ≤ _ at d4
    rw [e] at d4
    have e2 : values (S.inverseApplyVector (S.applyVector v)) - values v =
        (values (S.inverseApplyVector (S.applyVector v)) - (values v + (Rᵀ * R - 1) *ᵥ values v)) + (Rᵀ * R - 1) *ᵥ values v := by abel
    rw [e2]
    refine (vecNorm_add _ _).trans (add_le_add (d4.trans_eq ?_) ?_)
    · push_cast
      field_simp
      ring
    · exact (vecNorm_mulVec _ _).trans (mul_le_mul hδ hX (vecNorm_nonneg _) ((norm_nonneg _).trans hδ))

end

/-! ### the results -/

/-- **C109.**  `f64`: `inverse` does not panic, and the similarity it returns takes a point to within `40 n^2` roundings of where the exact inverse takes it. -/
theorem C109_inverse64 (h0 : 0 < n) (hn : n ≤ 1000000) {S : Similarity (Ieee f64) n} {N T X : ℝ} (hS : ProperSimilarity (S, N, T)) (hs : S.scale.val ≠ 0)
    {p : Pt (Ieee f64) n} (hp : ∀ i, (p.coords.data i).Finite) (hX : vecNorm (values p.coords) ≤ X)
    (hr : InverseRange (2 ^ (-1000 : ℤ)) (2 ^ (999 : ℤ)) |S.scale.val| N T X) :
    ∃ I, S.inverse = .ok I ∧ (∀ i, ((I.applyPoint p).coords.data i).Finite) ∧
      vecNorm (values (I.applyPoint p).coords - exactInverse S (values p.coords)) ≤ 40 * n ^ 2 * 2 ^ (-53 : ℤ) * (N * (X + T) / |S.scale.val|) :=
  built_inverse_near roundoff64 (eight64 hn) h0 (by positivity) room64 (few64 hn) hS (abs_pos.mpr hs) hp hX hr

/-- **C109.**  `f64`: `inverse_apply_point` takes a point to within `30 n^2` roundings of where the exact inverse takes it. -/
theorem C109_inverse_apply64 (h0 : 0 < n) (hn : n ≤ 1000000) {S : Similarity (Ieee f64) n} {N T X : ℝ} (hS : ProperSimilarity (S, N, T)) (hs : S.scale.val ≠ 0)
    {p : Pt (Ieee f64) n} (hp : ∀ i, (p.coords.data i).Finite) (hX : vecNorm (values p.coords) ≤ X)
    (hr : UndoRange (2 ^ (-1000 : ℤ)) (2 ^ (999 : ℤ)) |S.scale.val| N T X) :
    (∀ i, ((S.inverseApplyPoint p).coords.data i).Finite) ∧
      vecNorm (values (S.inverseApplyPoint p).coords - exactInverse S (values p.coords)) ≤ 30 * n ^ 2 * 2 ^ (-53 : ℤ) * (N * (X + T) / |S.scale.val|) :=
  inverse_apply_near roundoff64 (eight64 hn) h0 (by positivity) room64 (few64 hn) hS (abs_pos.mpr hs) hp hX hr

/-- **C109.**  `f64`: a vector is scaled and turned, and undoing brings it back. -/
theorem C109_vector64 (h0 : 0 < n) (hn : n ≤ 1000000) {S : Similarity (Ieee f64) n} {N T X δ : ℝ} (hS : ProperSimilarity (S, N, T)) (hs : S.scale.val ≠ 0)
    (hδ : ‖(exactly S.isometry.rotation.matrix)ᵀ * exactly S.isometry.rotation.matrix - 1‖ ≤ δ) {v : Vec (Ieee f64) n}
    (hv : ∀ i, (v.data i).Finite) (hX : vecNorm (values v) ≤ X) (hr : VectorRange (2 ^ (-1000 : ℤ)) (2 ^ (999 : ℤ)) |S.scale.val| N X) :
    (∀ i, ((S.applyVector v).data i).Finite) ∧
      vecNorm (values (S.applyVector v) - S.scale.val • (exactly S.isometry.rotation.matrix *ᵥ values v)) ≤ 20 * n ^ 2 * 2 ^ (-53 : ℤ) * (N * |S.scale.val| * X) ∧
      (∀ i, ((S.inverseApplyVector (S.applyVector v)).data i).Finite) ∧
      vecNorm (values (S.inverseApplyVector (S.applyVector v)) - values v) ≤ 40 * n ^ 2 * 2 ^ (-53 : ℤ) * (N ^ 2 * X) + δ * X :=
  vector_near roundoff64 (eight64 hn) h0 (by positivity) room64 (few64 hn) hS (abs_pos.mpr hs) hδ hv hX hr

/-- **C109.**  `f32` -/
theorem C109_inverse32 (h0 : 0 < n) (hn : n ≤ 300) {S : Similarity (Ieee f32) n} {N T X : ℝ} (hS : ProperSimilarity (S, N, T)) (hs : S.scale.val ≠ 0)
    {p : Pt (Ieee f32) n} (hp : ∀ i, (p.coords.data i).Finite) (hX : vecNorm (values p.coords) ≤ X)
    (hr : InverseRange (2 ^ (-126 : ℤ)) (2 ^ (125 : ℤ)) |S.scale.val| N T X) :
    ∃ I, S.inverse = .ok I ∧ (∀ i, ((I.applyPoint p).coords.data i).Finite) ∧
      vecNorm (values (I.applyPoint p).coords - exactInverse S (values p.coords)) ≤ 40 * n ^ 2 * 2 ^ (-24 : ℤ) * (N * (X + T) / |S.scale.val|) :=
  built_inverse_near roundoff32 (eight32 hn) h0 (by positivity) room32 (few32 (hn.trans (by norm_num))) hS (abs_pos.mpr hs) hp hX hr

/-- **C109.**  `f32` -/
theorem C109_inverse_apply32 (h0 : 0 < n) (hn : n ≤ 300) {S : Similarity (Ieee f32) n} {N T X : ℝ} (hS : ProperSimilarity (S, N, T)) (hs : S.scale.val ≠ 0)
    {p : Pt (Ieee f32) n} (hp : ∀ i, (p.coords.data i).Finite) (hX : vecNorm (values p.coords) ≤ X)
    (hr : UndoRange (2 ^ (-126 : ℤ)) (2 ^ (125 : ℤ)) |S.scale.val| N T X) :
    (∀ i, ((S.inverseApplyPoint p).coords.data i).Finite) ∧
      vecNorm (values (S.inverseApplyPoint p).coords - exactInverse S (values p.coords)) ≤ 30 * n ^ 2 * 2 ^ (-24 : ℤ) * (N * (X + T) / |S.scale.val|) :=
  inverse_apply_near roundoff32 (eight32 hn) h0 (by positivity) room32 (few32 (hn.trans (by norm_num))) hS (abs_pos.mpr hs) hp hX hr

/-- **C109.**  `f32` -/
theorem C109_vector32 (h0 : 0 < n) (hn : n ≤ 300) {S : Similarity (Ieee f32) n} {N T X δ : ℝ} (hS : ProperSimilarity (S, N, T)) (hs : S.scale.val ≠ 0)
    (hδ : ‖(exactly S.isometry.rotation.matrix)ᵀ * exactly S.isometry.rotation.matrix - 1‖ ≤ δ) {v : Vec (Ieee f32) n}
    (hv : ∀ i, (v.data i).Finite) (hX : vecNorm (values v) ≤ X) (hr : VectorRange (2 ^ (-126 : ℤ)) (2 ^ (125 : ℤ)) |S.scale.val| N X) :
    (∀ i, ((S.applyVector v).data i).Finite) ∧
      vecNorm (values (S.applyVector v) - S.scale.val • (exactly S.isometry.rotation.matrix *ᵥ values v)) ≤ 20 * n ^ 2 * 2 ^ (-24 : ℤ) * (N * |S.scale.val| * X) ∧
      (∀ i, ((S.inverseApplyVector (S.applyVector v)).data i).Finite) ∧
      vecNorm (values (S.inverseApplyVector (S.applyVector v)) - values v) ≤ 40 * n ^ 2 * 2 ^ (-24 : ℤ) * (N ^ 2 * X) + δ * X :=
  vector_near roundoff32 (eight32 hn) h0 (by positivity) room32 (few32 (hn.trans (by norm_num))) hS (abs_pos.mpr hs) hδ hv hX hr

/-! ### the hypotheses can be met -/

theorem half_size {x : ℝ} (h1 : 1 / 2 ≤ x) (h2 : x ≤ 1000) : Between (2 ^ (-1000 : ℤ)) (2 ^ (999 : ℤ)) x := by
  refine ⟨le_trans ?_ h1, h2.trans (le_trans (by norm_num) (zpow_le_zpow_right₀ one_le_two (by norm_num : (10 : ℤ) ≤ 999)))⟩
  calc (2 : ℝ) ^ (-1000 : ℤ) ≤ 2 ^ (-1 : ℤ) := zpow_le_zpow_right₀ one_le_two (by norm_num)
    _ = 1 / 2 := by norm_num

example : ∃ I, doubleAndMove.inverse = .ok I ∧
    vecNorm (values (I.applyPoint corner).coords - exactInverse doubleAndMove (values corner.coords)) ≤ 40 * 2 ^ 2 * 2 ^ (-53 : ℤ) * (2 * (2 + 2) / 2) := by
  have hs := doubleAndMove_scale.2
  have ha : |(2 : ℝ)| = 2 := abs_of_pos two_pos
  obtain ⟨I, h1, -, h2⟩ := C109_inverse64 (by norm_num) (by norm_num) doubleAndMove_proper (by rw [hs]; norm_num) corner_size.1 corner_size.2 (by
    rw [hs, ha]
    refine ⟨?_, ?_, ?_, ?_, ?_, ?_, ?_⟩ <;> exact half_size (by norm_num) (by norm_num))
  rw [hs, ha] at h2
  exact ⟨I, h1, by exact_mod_cast h2⟩

example : vecNorm (values (doubleAndMove.inverseApplyPoint corner).coords - exactInverse doubleAndMove (values corner.coords)) ≤
    30 * 2 ^ 2 * 2 ^ (-53 : ℤ) * (2 * (2 + 2) / 2) := by
  have hs := doubleAndMove_scale.2
  have ha : |(2 : ℝ)| = 2 := abs_of_pos two_pos
  have h2 := (C109_inverse_apply64 (by norm_num) (by norm_num) doubleAndMove_proper (by rw [hs]; norm_num) corner_size.1 corner_size.2 (by
    rw [hs, ha]
    refine ⟨?_, ?_, ?_, ?_⟩ <;> exact half_size (by norm_num) (by norm_num))).2
  rw [hs, ha] at h2
  exact_mod_cast h2

example : vecNorm (values (doubleAndMove.inverseApplyVector (doubleAndMove.applyVector corner.coords)) - values corner.coords) ≤
    40 * 2 ^ 2 * 2 ^ (-53 : ℤ) * (2 ^ 2 * 2) + 0 * 2 := by
  have hs := doubleAndMove_scale.2
  have ha : |(2 : ℝ)| = 2 := abs_of_pos two_pos
  have h2 := (C109_vector64 (by norm_num) (by norm_num) doubleAndMove_proper (by rw [hs]; norm_num) (δ := 0) (by rw [doubleAndMove_turn]; simp)
    corner_size.1 corner_size.2 (by
    rw [hs, ha]
    refine ⟨?_, ?_, ?_, ?_, ?_⟩ <;> exact half_size (by norm_num) (by norm_num))).2.2.2
  exact_mod_cast h2

end Cgl
