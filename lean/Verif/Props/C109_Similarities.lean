import Verif.Props.C108_VectorFunctions

/-! # C109 - similarities in IEEE arithmetic: composed, applied, and undone

A similarity scales, turns and moves. Composing similarities and applying them to points rounds in every step, and differently for every way of
bracketing. All of these are near the exact image: the error is a multiple of the number of similarities, of the unit of rounding and of how far the
point can get. Undoing a similarity brings a point back up to such an error, and up to how far the matrix of the rotation is from orthogonal. -/

namespace Cgl
open Ieee FloatFns Mat Spec Rounding Matrix
open scoped Matrix.Norms.L2Operator

variable {φ : Format} {n : ℕ}

namespace Spec

/-- similarities composed, with all of the brackets. `N` bounds the norm of the matrix of the rotation, and `T` the length of the translation. -/
inductive Composite (φ : Format) (n : ℕ) where
  | factor (S : Similarity (Ieee φ) n) (N T : ℝ)
  | times (l r : Composite φ n)

/-- a similarity with bounds of its parts -/
abbrev BoundedSimilarity (φ : Format) (n : ℕ) := Similarity (Ieee φ) n × ℝ × ℝ

/-- the numbers of the similarity are finite, and the bounds are true -/
def ProperSimilarity (f : BoundedSimilarity φ n) : Prop :=
  FiniteEntries f.1.isometry.rotation.matrix ∧ ‖exactly f.1.isometry.rotation.matrix‖ ≤ f.2.1 ∧ f.1.scale.Finite ∧
    (∀ i, (f.1.isometry.translation.vector.data i).Finite) ∧ vecNorm (values f.1.isometry.translation.vector) ≤ f.2.2

/-- where similarities take a point in exact arithmetic, the last one first: scaled, turned, moved -/
noncomputable def exactImage : List (BoundedSimilarity φ n) → (Fin n → ℝ) → Fin n → ℝ
  | [], x => x
  | f :: fs, x => f.1.scale.val • (exactly f.1.isometry.rotation.matrix *ᵥ exactImage fs x) + values f.1.isometry.translation.vector

/-- how far from the origin they can take a point at the distance `X` -/
noncomputable def reach : List (BoundedSimilarity φ n) → ℝ → ℝ
  | [], X => X
  | f :: fs, X => f.2.1 * (|f.1.scale.val| * reach fs X) + f.2.2

/-- neither smaller than `lo` nor larger than `hi` -/
def Between (lo hi x : ℝ) : Prop := lo ≤ x ∧ x ≤ hi

namespace Composite

/-- the similarities, from left to right -/
def factors : Composite φ n → List (BoundedSimilarity φ n)
  | factor S N T => [(S, N, T)]
  | times l r => l.factors ++ r.factors

/-- what the program computes: every pair of brackets is one call of the product of two similarities -/
noncomputable def computed : Composite φ n → Similarity (Ieee φ) n
  | factor S _ _ => S
  | times l r => l.computed * r.computed

/-- the product of the bounds of the rotations -/
noncomputable def turnSize : Composite φ n → ℝ
  | factor _ N _ => N
  | times l r => l.turnSize * r.turnSize

/-- the product of the scales -/
noncomputable def exactScale : Composite φ n → ℝ
  | factor S _ _ => S.scale.val
  | times l r => l.exactScale * r.exactScale

/-- a bound of the translation -/
noncomputable def moveSize : Composite φ n → ℝ
  | factor _ _ T => T
  | times l r => l.moveSize + |l.exactScale| * (l.turnSize * r.moveSize)

/-- no size of a number in the course of composing is below `lo` or above `hi` -/
def InRange (lo hi : ℝ) : Composite φ n → Prop
  | factor S N T => Between lo hi N ∧ Between lo hi |S.scale.val| ∧ Between lo hi T
  | times l r => l.InRange lo hi ∧ r.InRange lo hi ∧ Between lo hi (l.turnSize * r.turnSize) ∧ Between lo hi |l.exactScale * r.exactScale| ∧
      Between lo hi (l.turnSize * r.moveSize) ∧ Between lo hi (|l.exactScale| * (l.turnSize * r.moveSize)) ∧
      Between lo hi (l.moveSize + |l.exactScale| * (l.turnSize * r.moveSize))

end Composite

/-- all similarities, from left to right -/
def everyFactor (ts : List (Composite φ n)) : List (BoundedSimilarity φ n) := ts.flatMap Composite.factors

/-- the composed similarities applied to a point, one after the other, the last one first -/
noncomputable def applyEach (ts : List (Composite φ n)) (p : Pt (Ieee φ) n) : Pt (Ieee φ) n := ts.foldr (fun t q => t.computed.applyPoint q) p

/-- no size of a number on the way of a point at the distance `X` is below `lo` or above `hi` -/
def Travels (lo hi X : ℝ) : List (Composite φ n) → Prop
  | [] => Between lo hi X
  | t :: ts => t.InRange lo hi ∧ Travels lo hi X ts ∧ Between lo hi (|t.exactScale| * reach (everyFactor ts) X) ∧
      Between lo hi (t.turnSize * (|t.exactScale| * reach (everyFactor ts) X)) ∧
      Between lo hi (t.turnSize * (|t.exactScale| * reach (everyFactor ts) X) + t.moveSize)

/-- finite numbers near the exact ones: the error is at most `G - 1` of the size `Z` -/
def Tracks (G Z : ℝ) (w : Vec (Ieee φ) n) (y : Fin n → ℝ) : Prop :=
  (∀ i, (w.data i).Finite) ∧ vecNorm (values w - y) ≤ (G - 1) * Z ∧ vecNorm y ≤ Z

end Spec

/-! ### the steps -/

theorem Spec.Tracks.mono {G H Z : ℝ} {w : Vec (Ieee φ) n} {y : Fin n → ℝ} (h : Tracks G Z w y) (hGH : G ≤ H) : Tracks H Z w y :=
  ⟨h.1, h.2.1.trans (mul_le_mul_of_nonneg_right (by linarith) ((vecNorm_nonneg _).trans h.2.2)), h.2.2⟩

theorem Spec.Tracks.size {G Z : ℝ} {w : Vec (Ieee φ) n} {y : Fin n → ℝ} (h : Tracks G Z w y) : vecNorm (values w) ≤ G * Z := by
  have := vecNorm_add (values w - y) y
  rw [sub_add_cancel] at this
  linarith [h.2.1, h.2.2]

theorem Spec.Tracks.exact {X : ℝ} {w : Vec (Ieee φ) n} (hw : ∀ i, (w.data i).Finite) (h : vecNorm (values w) ≤ X) : Tracks 1 X w (values w) := by
  refine ⟨hw, ?_, h⟩
  rw [sub_self, sub_self, zero_mul, vecNorm]
  simp

section Steps
variable (hu : φ.u ≤ 1 / 1000000) (hn : 5 * n * φ.u ≤ 1 / 100) (h0 : 0 < n)

include h0 in
theorem rounded_vec {a : ℝ} (ha : 0 ≤ a) {v : Vec (Ieee φ) n} {z : Fin n → ℝ} (h : ∀ i, |(v.data i).val - z i| ≤ 203 / 100 * φ.u * a) :
    vecNorm (values v - z) ≤ Spec.step φ n * a := by
  have hu0 := φ.u_nonneg
  refine (vecNorm_le_all (e := 203 / 100 * φ.u * a) (by positivity) h).trans ?_
  rw [Spec.step]
  have h1 : (1 : ℝ) ≤ n := by exact_mod_cast h0
  have h2 : (n : ℝ) * 1 ≤ n * n := mul_le_mul_of_nonneg_left h1 (by linarith)
  have h3 := mul_nonneg hu0 ha
  nlinarith

variable {lo hi : ℝ} (hlo : 0 < lo) (hfits : ∀ a, lo ≤ a → a ≤ 2 * hi → Fits φ a)
include hu h0 hlo hfits

theorem fits_grown {G Z : ℝ} (hG : 1 ≤ G) (hG2 : G ≤ 2) (hZ : Between lo hi Z) : Fits φ (G * Z) := by
  have hp := hlo.trans_le hZ.1
  refine hfits _ (hZ.1.trans (le_mul_of_one_le_left hp.le hG)) ?_
  have := mul_le_mul_of_nonneg_right hG2 hp.le
  linarith [hZ.2]

theorem scaled_tracks {H K Z σ s : ℝ} {w : Vec (Ieee φ) n} {y : Fin n → ℝ} {c : Ieee φ} (hw : Tracks H Z w y) (hc : c.Finite)
    (hcs : |c.val - s| ≤ (K - 1) * σ) (hs : |s| ≤ σ) (hH : 1 ≤ H) (hK : 1 ≤ K) (hHK : H * K ≤ 2) (hr : Between lo hi (σ * Z)) :
    Tracks (H * K * (1 + Spec.step φ n)) (σ * Z) (w * c) (s • y) := by
  have hσ := (abs_nonneg _).trans hs
  have hZ := (vecNorm_nonneg _).trans hw.2.2
  have hf := fits_grown hu h0 hlo hfits (one_le_mul_of_one_le_of_one_le hH hK) hHK hr
  have hcK : |c.val| ≤ K * σ := by
    have := abs_add_le (c.val - s) s
    rw [sub_add_cancel] at this
    linarith
  have hp := hf.pos
  have key : ∀ i, ((w * c).data i).Finite ∧ |((w * c).data i).val - (w.data i).val * c.val| ≤ 203 / 100 * φ.u * (H * K * (σ * Z)) := by
    intro i
    rw [Vec.mulS_data]
    have hz : |(w.data i).val * c.val| ≤ 102 / 100 * (H * K * (σ * Z)) := by
      rw [abs_mul]
      have := mul_le_mul ((component_le (values w) i).trans hw.size) hcK (abs_nonneg _) (by positivity)
      have e : H * Z * (K * σ) = H * K * (σ * Z) := by ring
      rw [e] at this
      exact this.trans (by linarith)
    obtain ⟨r1, r2⟩ := hf.round hu hz
    obtain ⟨r3, r4⟩ := mul_of (hw.1 i) hc r1
    exact ⟨r3, by rw [r4]; exact r2⟩
  refine ⟨fun i => (key i).1, ?_, ?_⟩
  · have k1 := rounded_vec h0 hp.le (z := c.val • values w) fun i => by
      have := (key i).2
      rw [mul_comm (w.data i).val] at this
      exact this
    have e : values (w * c) - s • y = (values (w * c) - c.val • values w) + (c.val • (values w - y) + (c.val - s) • y) := by module
    rw [e]
    refine (vecNorm_add _ _).trans ?_
    have k2 := vecNorm_add (c.val • (values w - y)) ((c.val - s) • y)
    rw [vecNorm_smul, vecNorm_smul] at k2
    have k3 := mul_le_mul hcK hw.2.1 (vecNorm_nonneg _) (by positivity)
    have k4 := mul_le_mul hcs hw.2.2 (vecNorm_nonneg _) ((abs_nonneg _).trans hcs)
    calc _ ≤ Spec.step φ n * (H * K * (σ * Z)) + (K * σ * ((H - 1) * Z) + (K - 1) * σ * Z) := by linarith
      _ = _ := by ring
  · rw [vecNorm_smul]
    exact mul_le_mul hs hw.2.2 (vecNorm_nonneg _) hσ

theorem divided_tracks {H Z σ : ℝ} {w : Vec (Ieee φ) n} {y : Fin n → ℝ} {c : Ieee φ} (hw : Tracks H Z w y) (hc : c.Finite)
    (hσ : 0 < σ) (hs : σ = |c.val|) (hH : 1 ≤ H) (hH2 : H ≤ 2) (hr : Between lo hi (Z / σ)) :
    Tracks (H * (1 + Spec.step φ n)) (Z / σ) (w / c) (c.val⁻¹ • y) := by
  have hZ := (vecNorm_nonneg _).trans hw.2.2
  have hf := fits_grown hu h0 hlo hfits hH hH2 hr
  have hp := hf.pos
  have hc0 : c.val ≠ 0 := by
    intro h
    rw [h, abs_zero] at hs
    linarith
  have key : ∀ i, ((w / c).data i).Finite ∧ |((w / c).data i).val - (w.data i).val / c.val| ≤ 203 / 100 * φ.u * (H * (Z / σ)) := by
    intro i
    rw [Vec.divS_data]
    have hz : |(w.data i).val / c.val| ≤ 102 / 100 * (H * (Z / σ)) := by
      rw [abs_div, ← hs]
      have := div_le_div_of_nonneg_right ((component_le (values w) i).trans hw.size) hσ.le
      rw [mul_div_assoc] at this
      exact this.trans (by linarith)
    obtain ⟨r1, r2⟩ := hf.round hu hz
    have r3 := finite_div_of (hw.1 i) hc hc0 r1
    exact ⟨r3, by rw [(val_div r3 hc).1]; exact r2⟩
  refine ⟨fun i => (key i).1, ?_, ?_⟩
  · have k1 := rounded_vec h0 hp.le (z := c.val⁻¹ • values w) fun i => by
      have := (key i).2
      rw [div_eq_inv_mul (w.data i).val] at this
      exact this
    have e : values (w / c) - c.val⁻¹ • y = (values (w / c) - c.val⁻¹ • values w) + c.val⁻¹ • (values w - y) := by module
    rw [e]
    refine (vecNorm_add _ _).trans ?_
    have k2 := vecNorm_smul c.val⁻¹ (values w - y)
    rw [abs_inv, ← hs] at k2
    have k3 := mul_le_mul_of_nonneg_left hw.2.1 (inv_nonneg.mpr hσ.le)
    calc _ ≤ Spec.step φ n * (H * (Z / σ)) + σ⁻¹ * ((H - 1) * Z) := by linarith
      _ = _ := by rw [div_eq_inv_mul]; ring
  · rw [vecNorm_smul, abs_inv, ← hs, div_eq_inv_mul]
    exact mul_le_mul_of_nonneg_left hw.2.2 (inv_nonneg.mpr hσ.le)

theorem added_tracks {G Z Z' : ℝ} {w w' : Vec (Ieee φ) n} {y y' : Fin n → ℝ} (hw : Tracks G Z w y) (hw' : Tracks G Z' w' y') (hG : 1 ≤ G) (hG2 : G ≤ 2)
    (hr : Between lo hi (Z + Z')) : Tracks (G * (1 + Spec.step φ n)) (Z + Z') (w + w') (y + y') := by
  have hf := fits_grown hu h0 hlo hfits hG hG2 hr
  have hp := hf.pos
  have key : ∀ i, ((w + w').data i).Finite ∧ |((w + w').data i).val - ((w.data i).val + (w'.data i).val)| ≤ 203 / 100 * φ.u * (G * (Z + Z')) := by
    intro i
    rw [Vec.add_data]
    have hz : |(w.data i).val + (w'.data i).val| ≤ 102 / 100 * (G * (Z + Z')) := by
      have a1 := (component_le (values w) i).trans hw.size
      have a2 := (component_le (values w') i).trans hw'.size
      have a3 := abs_add_le (w.data i).val (w'.data i).val
      simp only [values] at a1 a2
      linarith
    obtain ⟨r1, r2⟩ := hf.round hu hz
    obtain ⟨r3, r4⟩ := add_of (hw.1 i) (hw'.1 i) r1
    exact ⟨r3, by rw [r4]; exact r2⟩
  refine ⟨fun i => (key i).1, ?_, (vecNorm_add _ _).trans (add_le_add hw.2.2 hw'.2.2)⟩
  have k1 := rounded_vec h0 hp.le (z := values w + values w') fun i => (key i).2
  have e : values (w + w') - (y + y') = (values (w + w') - (values w + values w')) + ((values w - y) + (values w' - y')) := by abel
  rw [e]
  refine (vecNorm_add _ _).trans ?_
  have k2 := vecNorm_add (values w - y) (values w' - y')
  calc _ ≤ Spec.step φ n * (G * (Z + Z')) + ((G - 1) * Z + (G - 1) * Z') := by linarith [hw.2.1, hw'.2.1]
    _ = _ := by ring

theorem subtracted_tracks {G Z Z' : ℝ} {w w' : Vec (Ieee φ) n} {y y' : Fin n → ℝ} (hw : Tracks G Z w y) (hw' : Tracks G Z' w' y') (hG : 1 ≤ G) (hG2 : G ≤ 2)
    (hr : Between lo hi (Z + Z')) : Tracks (G * (1 + Spec.step φ n)) (Z + Z') (w - w') (y - y') := by
  have hf := fits_grown hu h0 hlo hfits hG hG2 hr
  have hp := hf.pos
  have key : ∀ i, ((w - w').data i).Finite ∧ |((w - w').data i).val - ((w.data i).val - (w'.data i).val)| ≤ 203 / 100 * φ.u * (G * (Z + Z')) := by
    intro i
    rw [Vec.sub_data]
    have hz : |(w.data i).val - (w'.data i).val| ≤ 102 / 100 * (G * (Z + Z')) := by
      have a1 := (component_le (values w) i).trans hw.size
      have a2 := (component_le (values w') i).trans hw'.size
      have a3 := abs_sub (w.data i).val (w'.data i).val
      simp only [values] at a1 a2
      linarith
    obtain ⟨r1, r2⟩ := hf.round hu hz
    obtain ⟨r3, r4⟩ := sub_of (hw.1 i) (hw'.1 i) r1
    exact ⟨r3, by rw [r4]; exact r2⟩
  refine ⟨fun i => (key i).1, ?_, (vecNorm_sub _ _).trans (add_le_add hw.2.2 hw'.2.2)⟩
  have k1 := rounded_vec h0 hp.le (z := values w - values w') fun i => (key i).2
  have e : values (w - w') - (y - y') = (values (w - w') - (values w - values w')) + ((values w - y) - (values w' - y')) := by abel
  rw [e]
  refine (vecNorm_add _ _).trans ?_
  have k2 := vecNorm_sub (values w - y) (values w' - y')
  calc _ ≤ Spec.step φ n * (G * (Z + Z')) + ((G - 1) * Z + (G - 1) * Z') := by linarith [hw.2.1, hw'.2.1]
    _ = _ := by ring

include hn

theorem turned_tracks {G H P Z : ℝ} {A : Mat (Ieee φ) n n} {E : Matrix (Fin n) (Fin n) ℝ} {w : Vec (Ieee φ) n} {y : Fin n → ℝ} (hA : FiniteEntries A)
    (nA : ‖exactly A - E‖ ≤ (G - 1) * P) (sA : ‖E‖ ≤ P) (hP : 0 < P) (hw : Tracks H Z w y) (hG : 1 ≤ G) (hH : 1 ≤ H) (hGH : G * H ≤ 2)
    (hr : Between lo hi (P * Z)) : Tracks (G * H * (1 + Spec.step φ n)) (P * Z) (A * w) (E *ᵥ y) := by
  have hZ : 0 < Z := pos_of_mul_pos_right (hlo.trans_le hr.1) hP.le
  exact applied_near hu hn hlo hfits hA hG hH hP hZ nA sA hw.1 hw.2.1 hw.2.2 hr.1 hr.2 hGH

end Steps

/-! ### the exact composition -/

namespace Spec.Composite

/-- the rotations of the similarities -/
def rotations : Composite φ n → Bracketed φ n
  | factor S N _ => .factor S.isometry.rotation.matrix N
  | times l r => .times l.rotations r.rotations

/-- the exact translation -/
noncomputable def exactShift : Composite φ n → Fin n → ℝ
  | factor S _ _ => values S.isometry.translation.vector
  | times l r => l.exactShift + l.exactScale • (exactProduct l.rotations.factors *ᵥ r.exactShift)

end Spec.Composite

theorem rotations_size (t : Composite φ n) : t.rotations.size = t.turnSize := by
  induction t with
  | factor S N T => rfl
  | times l r h1 h2 => simp only [Composite.rotations, Bracketed.size, Composite.turnSize, h1, h2]

theorem rotations_length (t : Composite φ n) : t.rotations.factors.length = t.factors.length := by
  induction t with
  | factor S N T => rfl
  | times l r h1 h2 => simp only [Composite.rotations, Bracketed.factors, Composite.factors, List.length_append, h1, h2]

theorem rotations_computed (t : Composite φ n) : t.computed.isometry.rotation.matrix = t.rotations.computed := by
  induction t with
  | factor S N T => rfl
  | times l r h1 h2 =>
    show l.computed.isometry.rotation.matrix * r.computed.isometry.rotation.matrix = _
    rw [h1, h2]; rfl

theorem rotations_range {lo hi : ℝ} (t : Composite φ n) (h : t.InRange lo hi) : t.rotations.InRange lo hi := by
  induction t with
  | factor S N T => exact h.1
  | times l r h1 h2 =>
    refine ⟨h1 h.1, h2 h.2.1, ?_⟩
    rw [rotations_size, rotations_size]
    exact h.2.2.1

theorem rotations_proper (t : Composite φ n) (h : ∀ f ∈ t.factors, ProperSimilarity f) : ProperFactors t.rotations.factors := by
  induction t with
  | factor S N T =>
    intro p hp
    obtain rfl : p = (S.isometry.rotation.matrix, N) := by simpa [Composite.rotations, Bracketed.factors] using hp
    obtain ⟨k1, k2, _⟩ := h (S, N, T) (by simp [Composite.factors])
    exact ⟨k1, k2⟩
  | times l r h1 h2 =>
    intro p hp
    rcases List.mem_append.mp (show p ∈ l.rotations.factors ++ r.rotations.factors from hp) with hp | hp
    · exact h1 (fun f hf => h f (List.mem_append_left _ hf)) p hp
    · exact h2 (fun f hf => h f (List.mem_append_right _ hf)) p hp

theorem exactImage_append (t : Composite φ n) (fs : List (BoundedSimilarity φ n)) (x : Fin n → ℝ) :
    exactImage (t.factors ++ fs) x = t.exactScale • (exactProduct t.rotations.factors *ᵥ exactImage fs x) + t.exactShift := by
  induction t generalizing fs with
  | factor S N T =>
    show S.scale.val • _ + _ = _
    simp [Composite.exactScale, Composite.rotations, Bracketed.factors, exactProduct, Composite.exactShift]
  | times l r h1 h2 =>
    show exactImage ((l.factors ++ r.factors) ++ fs) x = (l.exactScale * r.exactScale) • (exactProduct (l.rotations.factors ++ r.rotations.factors) *ᵥ _) +
      (l.exactShift + l.exactScale • (exactProduct l.rotations.factors *ᵥ r.exactShift))
    rw [List.append_assoc, h1, h2, exactProduct_append, Matrix.mulVec_add, Matrix.mulVec_smul, Matrix.mulVec_mulVec]
    module

theorem reach_append (t : Composite φ n) (fs : List (BoundedSimilarity φ n)) (X : ℝ) :
    reach (t.factors ++ fs) X = t.turnSize * (|t.exactScale| * reach fs X) + t.moveSize := by
  induction t generalizing fs with
  | factor S N T => rfl
  | times l r h1 h2 =>
    show reach ((l.factors ++ r.factors) ++ fs) X = l.turnSize * r.turnSize * (|l.exactScale * r.exactScale| * _) +
      (l.moveSize + |l.exactScale| * (l.turnSize * r.moveSize))
    rw [List.append_assoc, h1, h2, abs_mul]
    ring

theorem composite_pos (t : Composite φ n) : 1 ≤ t.factors.length := by
  induction t with
  | factor S N T => simp [Composite.factors]
  | times l r h1 h2 => simp only [Composite.factors, List.length_append]; omega

theorem composite_sizes {lo hi : ℝ} {t : Composite φ n} (h : t.InRange lo hi) :
    Between lo hi t.turnSize ∧ Between lo hi |t.exactScale| ∧ Between lo hi t.moveSize := by
  cases t with
  | factor S N T => exact h
  | times l r => exact ⟨h.2.2.1, h.2.2.2.1, h.2.2.2.2.2.2⟩

/-! ### composing -/

section Composing
variable (hu : φ.u ≤ 1 / 1000000) (hn : 5 * n * φ.u ≤ 1 / 100) (h0 : 0 < n) {lo hi : ℝ} (hlo : 0 < lo) (hfits : ∀ a, lo ≤ a → a ≤ 2 * hi → Fits φ a)

include h0 in
theorem two_roundings : 203 / 100 * φ.u ≤ Spec.step φ n := by
  rw [Spec.step]
  have h1 : (1 : ℝ) ≤ n := by exact_mod_cast h0
  have h2 : (1 : ℝ) ≤ n ^ 2 := one_le_pow₀ h1
  have := mul_le_mul_of_nonneg_right h2 φ.u_nonneg
  have := φ.u_nonneg
  linarith

include hu hn h0 hlo hfits

theorem scale_near (t : Composite φ n) (hr : t.InRange lo hi) (hf : ∀ f ∈ t.factors, ProperSimilarity f) (hk : t.factors.length * Spec.step φ n ≤ 1 / 2) :
    t.computed.scale.Finite ∧ |t.computed.scale.val - t.exactScale| ≤ ((1 + Spec.step φ n) ^ (t.factors.length - 1) - 1) * |t.exactScale| := by
  have hx : 0 ≤ Spec.step φ n := Spec.step_nonneg
  induction t with
  | factor S N T =>
    obtain ⟨_, _, k3, _⟩ := hf (S, N, T) (by simp [Composite.factors])
    exact ⟨k3, by simp [Composite.factors, Composite.computed, Composite.exactScale]⟩
  | times l r ihl ihr =>
    have el : (Composite.times l r).factors = l.factors ++ r.factors := rfl
    rw [el, List.length_append] at hk
    rw [el] at hf
    have hl0 := composite_pos l
    have hr0 := composite_pos r
    obtain ⟨fl, nl⟩ := ihl hr.1 (fun p hp => hf p (List.mem_append_left _ hp)) (le_trans (by gcongr; omega) hk)
    obtain ⟨fr, nr⟩ := ihr hr.2.1 (fun p hp => hf p (List.mem_append_right _ hp)) (le_trans (by gcongr; omega) hk)
    have hS := hr.2.2.2.1
    rw [el, List.length_append]
    show (l.computed.scale * r.computed.scale).Finite ∧ |(l.computed.scale * r.computed.scale).val - l.exactScale * r.exactScale| ≤ _ * |l.exactScale * r.exactScale|
    have ePow : (1 + Spec.step φ n) ^ (l.factors.length + r.factors.length - 1) =
        (1 + Spec.step φ n) ^ (l.factors.length - 1) * (1 + Spec.step φ n) ^ (r.factors.length - 1) * (1 + Spec.step φ n) := by
      rw [← pow_add, ← pow_succ]; congr 1; omega
    have g1 := (growth_le hx hk (m := l.factors.length - 1) (by omega)).1
    have g2 := (growth_le hx hk (m := r.factors.length - 1) (by omega)).1
    have g3 := (growth_le hx hk (m := (l.factors.length - 1) + (r.factors.length - 1)) (by omega)).2
    rw [pow_add] at g3
    rw [ePow]
    set x := Spec.step φ n
    set G := (1 + x) ^ (l.factors.length - 1)
    set H := (1 + x) ^ (r.factors.length - 1)
    have hfit := fits_grown hu h0 hlo hfits (one_le_mul_of_one_le_of_one_le g1 g2) g3 hS
    have hp := hfit.pos
    have n1 : |l.computed.scale.val| ≤ G * |l.exactScale| := by
      have := abs_add_le (l.computed.scale.val - l.exactScale) l.exactScale
      rw [sub_add_cancel] at this; linarith
    have n2 : |r.computed.scale.val| ≤ H * |r.exactScale| := by
      have := abs_add_le (r.computed.scale.val - r.exactScale) r.exactScale
      rw [sub_add_cancel] at this; linarith
    have hz : |l.computed.scale.val * r.computed.scale.val| ≤ 102 / 100 * (G * H * |l.exactScale * r.exactScale|) := by
      rw [abs_mul]
      have := mul_le_mul n1 n2 (abs_nonneg _) (by positivity)
      have e : G * |l.exactScale| * (H * |r.exactScale|) = G * H * |l.exactScale * r.exactScale| := by rw [abs_mul]; ring
      rw [e] at this
      exact this.trans (by linarith)
    obtain ⟨r1, r2⟩ := hfit.round hu hz
    obtain ⟨r3, r4⟩ := mul_of fl fr r1
    refine ⟨r3, ?_⟩
    rw [r4]
    have e : φ.fl (l.computed.scale.val * r.computed.scale.val) - l.exactScale * r.exactScale =
        (φ.fl (l.computed.scale.val * r.computed.scale.val) - l.computed.scale.val * r.computed.scale.val) +
          ((l.computed.scale.val - l.exactScale) * r.computed.scale.val + l.exactScale * (r.computed.scale.val - r.exactScale)) := by ring
    rw [e]
    refine (abs_add_le _ _).trans ?_
    have k1 := abs_add_le ((l.computed.scale.val - l.exactScale) * r.computed.scale.val) (l.exactScale * (r.computed.scale.val - r.exactScale))
    rw [abs_mul, abs_mul l.exactScale] at k1
    have k2 := mul_le_mul nl n2 (abs_nonneg _) ((abs_nonneg _).trans nl)
    have k3 := mul_le_mul_of_nonneg_left nr (abs_nonneg l.exactScale)
    have k4 := mul_le_mul_of_nonneg_right (two_roundings (φ := φ) h0) hp.le
    calc _ ≤ x * (G * H * |l.exactScale * r.exactScale|) + ((G - 1) * |l.exactScale| * (H * |r.exactScale|) + |l.exactScale| * ((H - 1) * |r.exactScale|)) := by linarith
      _ = _ := by rw [abs_mul]; ring

theorem shift_near (t : Composite φ n) (hr : t.InRange lo hi) (hf : ∀ f ∈ t.factors, ProperSimilarity f)
    (hk : (3 * t.factors.length : ℕ) * Spec.step φ n ≤ 1 / 2) :
    Tracks ((1 + Spec.step φ n) ^ (3 * (t.factors.length - 1))) t.moveSize t.computed.isometry.translation.vector t.exactShift := by
  have hx : 0 ≤ Spec.step φ n := Spec.step_nonneg
  induction t with
  | factor S N T =>
    obtain ⟨_, _, _, k4, k5⟩ := hf (S, N, T) (by simp [Composite.factors])
    have k := Spec.Tracks.exact k4 k5
    rw [show (1 : ℝ) = (1 + Spec.step φ n) ^ (3 * (1 - 1)) by simp] at k
    exact k
  | times l r ihl ihr =>
    have el : (Composite.times l r).factors = l.factors ++ r.factors := rfl
    rw [el, List.length_append] at hk
    rw [el] at hf
    have hl0 := composite_pos l
    have hr0 := composite_pos r
    have hfl := fun p hp => hf p (List.mem_append_left _ hp)
    have hfr := fun p hp => hf p (List.mem_append_right _ hp)
    have tl := ihl hr.1 hfl (le_trans (by gcongr; omega) hk)
    have tr := ihr hr.2.1 hfr (le_trans (by gcongr; omega) hk)
    obtain ⟨s1, s2⟩ := scale_near hu hn h0 hlo hfits l hr.1 hfl (le_trans (by gcongr; omega) hk)
    obtain ⟨m1, m2, m3⟩ := bracketed_near hu hn hlo hfits l.rotations (rotations_range l hr.1) (rotations_proper l hfl)
      (by rw [rotations_length]; exact le_trans (by gcongr; omega) hk)
    rw [rotations_size, rotations_length, ← rotations_computed] at m2
    rw [← rotations_computed] at m1
    rw [rotations_size] at m3
    have hb := fun m hm => growth_le hx hk (m := m) hm
    obtain ⟨_, _, _, _, r5, r6, r7⟩ := hr
    have hP : 0 < l.turnSize := hlo.trans_le (composite_sizes (by assumption : l.InRange lo hi)).1.1
    have a1 := turned_tracks hu hn h0 hlo hfits m1 m2 m3 hP tr (hb _ (by omega)).1 (hb _ (by omega)).1
      (by rw [← pow_add]; exact (hb _ (by omega)).2) r5
    rw [← pow_add, ← pow_succ] at a1
    have a2 := scaled_tracks hu h0 hlo hfits a1 s1 s2 le_rfl (hb _ (by omega)).1 (hb _ (by omega)).1
      (by rw [← pow_add]; exact (hb _ (by omega)).2) r6
    rw [← pow_add, ← pow_succ] at a2
    have hm : ∀ i j, i ≤ j → (1 + Spec.step φ n) ^ i ≤ (1 + Spec.step φ n) ^ j := fun i j h => pow_le_pow_right₀ (by linarith) h
    have a3 := added_tracks hu h0 hlo hfits (tl.mono (hm _ (3 * l.factors.length + 3 * r.factors.length - 4) (by omega)))
      (a2.mono (hm _ (3 * l.factors.length + 3 * r.factors.length - 4) (by omega))) (hb _ (by omega)).1 (hb _ (by omega)).2 r7
    rw [← pow_succ] at a3
    rw [el, List.length_append]
    have e : 3 * (l.factors.length + r.factors.length - 1) = 3 * l.factors.length + 3 * r.factors.length - 4 + 1 := by omega
    rw [e]
    exact a3

/-- a composed similarity applied to a point that is near its exact place -/
theorem moved_tracks (t : Composite φ n) (hr : t.InRange lo hi) (hf : ∀ f ∈ t.factors, ProperSimilarity f) {h : ℕ} {Z : ℝ}
    {q : Pt (Ieee φ) n} {y : Fin n → ℝ} (hq : Tracks ((1 + Spec.step φ n) ^ h) Z q.coords y) (hk : (h + 3 * t.factors.length : ℕ) * Spec.step φ n ≤ 1 / 2)
    (r1 : Between lo hi (|t.exactScale| * Z)) (r2 : Between lo hi (t.turnSize * (|t.exactScale| * Z)))
    (r3 : Between lo hi (t.turnSize * (|t.exactScale| * Z) + t.moveSize)) :
    Tracks ((1 + Spec.step φ n) ^ (h + 3 * t.factors.length)) (t.turnSize * (|t.exactScale| * Z) + t.moveSize) (t.computed.applyPoint q).coords
      (t.exactScale • (exactProduct t.rotations.factors *ᵥ y) + t.exactShift) := by
  have hx : 0 ≤ Spec.step φ n := Spec.step_nonneg
  have h1 := composite_pos t
  have hm : ∀ i j, i ≤ j → (1 + Spec.step φ n) ^ i ≤ (1 + Spec.step φ n) ^ j := fun i j h => pow_le_pow_right₀ (by linarith) h
  have hb := fun m hm => growth_le hx hk (m := m) hm
  obtain ⟨s1, s2⟩ := scale_near hu hn h0 hlo hfits t hr hf (le_trans (by gcongr; omega) hk)
  have ts := shift_near hu hn h0 hlo hfits t hr hf (le_trans (by gcongr; omega) hk)
  obtain ⟨m1, m2, m3⟩ := bracketed_near hu hn hlo hfits t.rotations (rotations_range t hr) (rotations_proper t hf)
    (by rw [rotations_length]; exact le_trans (by gcongr; omega) hk)
  rw [rotations_size, rotations_length, ← rotations_computed] at m2
  rw [← rotations_computed] at m1
  rw [rotations_size] at m3
  have hP : 0 < t.turnSize := hlo.trans_le (composite_sizes hr).1.1
  have a1 := scaled_tracks hu h0 hlo hfits hq s1 s2 le_rfl (hb _ (by omega)).1 (hb _ (by omega)).1
    (by rw [← pow_add]; exact (hb _ (by omega)).2) r1
  rw [← pow_add, ← pow_succ] at a1
  have a2 := turned_tracks hu hn h0 hlo hfits m1 m2 m3 hP a1 (hb _ (by omega)).1 (hb _ (by omega)).1
    (by rw [← pow_add]; exact (hb _ (by omega)).2) r2
  rw [← pow_add, ← pow_succ] at a2
  have a3 := added_tracks hu h0 hlo hfits (a2.mono (hm _ (h + 3 * t.factors.length - 1) (by omega)))
    (ts.mono (hm _ (h + 3 * t.factors.length - 1) (by omega))) (hb _ (by omega)).1 (hb _ (by omega)).2 r3
  rw [← pow_succ, Nat.sub_add_cancel (by omega), Matrix.mulVec_smul] at a3
  exact a3

theorem travel_tracks (ts : List (Composite φ n)) {X : ℝ} {p : Pt (Ieee φ) n} (hp : ∀ i, (p.coords.data i).Finite) (hX : vecNorm (values p.coords) ≤ X)
    (hf : ∀ f ∈ everyFactor ts, ProperSimilarity f) (hr : Travels lo hi X ts) (hk : (3 * (everyFactor ts).length : ℕ) * Spec.step φ n ≤ 1 / 2) :
    Tracks ((1 + Spec.step φ n) ^ (3 * (everyFactor ts).length)) (reach (everyFactor ts) X) (applyEach ts p).coords
      (exactImage (everyFactor ts) (values p.coords)) := by
  have hx : 0 ≤ Spec.step φ n := Spec.step_nonneg
  induction ts with
  | nil =>
    have k := Spec.Tracks.exact hp hX
    rw [show (1 : ℝ) = (1 + Spec.step φ n) ^ (3 * 0) by simp] at k
    exact k
  | cons t ts ih =>
    have el : everyFactor (t :: ts) = t.factors ++ everyFactor ts := rfl
    rw [el, List.length_append] at hk ⊢
    rw [el] at hf
    obtain ⟨r1, r2, r3, r4, r5⟩ := hr
    have a := ih (fun p hp => hf p (List.mem_append_right _ hp)) r2 (le_trans (by gcongr; omega) hk)
    have b := moved_tracks hu hn h0 hlo hfits t r1 (fun p hp => hf p (List.mem_append_left _ hp)) a
      (by rw [← Nat.mul_add, Nat.add_comm]; exact hk) r3 r4 r5
    rw [← exactImage_append, ← reach_append, ← Nat.mul_add, Nat.add_comm (everyFactor ts).length] at b
    exact b

theorem travel_bound (ts : List (Composite φ n)) {X : ℝ} {p : Pt (Ieee φ) n} (hp : ∀ i, (p.coords.data i).Finite) (hX : vecNorm (values p.coords) ≤ X)
    (hf : ∀ f ∈ everyFactor ts, ProperSimilarity f) (hr : Travels lo hi X ts) (hk : 30 * n ^ 2 * (everyFactor ts).length * φ.u ≤ 1) :
    (∀ i, ((applyEach ts p).coords.data i).Finite) ∧ vecNorm (values (applyEach ts p).coords - exactImage (everyFactor ts) (values p.coords)) ≤
      30 * n ^ 2 * (everyFactor ts).length * φ.u * reach (everyFactor ts) X := by
  have hk' : (3 * (everyFactor ts).length : ℕ) * Spec.step φ n ≤ 1 / 2 := by
    refine step_le ?_
    push_cast
    linarith
  obtain ⟨h1, h2, h3⟩ := travel_tracks hu hn h0 hlo hfits ts hp hX hf hr hk'
  refine ⟨h1, h2.trans ((growth_linear le_rfl hk' ((vecNorm_nonneg _).trans h3)).trans_eq ?_)⟩
  push_cast
  ring

end Composing

/-! ### undoing -/

theorem norm_transposed (A : Mat (Ieee φ) n n) : ‖exactly A.transpose‖ = ‖exactly A‖ ∧ exactly A.transpose = (exactly A)ᵀ := by
  have e : exactly A.transpose = (exactly A)ᵀ := by
    ext r c
    simp [exactly]
  refine ⟨?_, e⟩
  rw [e, ← Matrix.conjTranspose_eq_transpose_of_trivial, Matrix.l2_opNorm_conjTranspose]

namespace Spec

/-- no size of a number on the way there and back of a point at the distance `X` is below `lo` or above `hi` -/
def ThereAndBack (lo hi σ N T X : ℝ) : Prop :=
  Between lo hi N ∧ Between lo hi (σ * X) ∧ Between lo hi (N * (σ * X)) ∧ Between lo hi (N * (σ * X) + T) ∧ Between lo hi (N * (σ * X) + T + T) ∧
    Between lo hi (N * (N * (σ * X) + T + T)) ∧ Between lo hi (N * (N * (σ * X) + T + T) / σ)

/-- the same for the opposite order -/
def BackAndThere (lo hi σ N T X : ℝ) : Prop :=
  Between lo hi N ∧ Between lo hi (X + T) ∧ Between lo hi (N * (X + T)) ∧ Between lo hi (N * (X + T) / σ) ∧ Between lo hi (σ * (N * (X + T) / σ)) ∧
    Between lo hi (N * (σ * (N * (X + T) / σ))) ∧ Between lo hi (N * (σ * (N * (X + T) / σ)) + T)

end Spec

section Undoing
variable (hu : φ.u ≤ 1 / 1000000) (hn : 10 * n ^ 2 * 8 * φ.u ≤ 1) (h0 : 0 < n) {lo hi : ℝ} (hlo : 0 < lo) (hfits : ∀ a, lo ≤ a → a ≤ 2 * hi → Fits φ a)

include hn in
theorem few_steps : 8 * Spec.step φ n ≤ 1 / 2 := by
  have := step_le (φ := φ) (n := n) (k := 8) (by push_cast; exact hn)
  push_cast at this
  exact this

variable (hn' : 5 * n * φ.u ≤ 1 / 100)
include hu hn h0 hlo hfits hn'

theorem there_and_back {S : Similarity (Ieee φ) n} {N T X δ : ℝ} (hS : ProperSimilarity (S, N, T)) (hs : 0 < |S.scale.val|)
    (hδ : ‖(exactly S.isometry.rotation.matrix)ᵀ * exactly S.isometry.rotation.matrix - 1‖ ≤ δ) {p : Pt (Ieee φ) n}
    (hp : ∀ i, (p.coords.data i).Finite) (hX : vecNorm (values p.coords) ≤ X) (hr : ThereAndBack lo hi |S.scale.val| N T X) :
    (∀ i, ((S.inverseApplyPoint (S.applyPoint p)).coords.data i).Finite) ∧
      vecNorm (values (S.inverseApplyPoint (S.applyPoint p)).coords - values p.coords) ≤
        60 * n ^ 2 * φ.u * (N * (N * X + 2 * T / |S.scale.val|)) + δ * X := by
  have hx : 0 ≤ Spec.step φ n := Spec.step_nonneg
  have hk : ((8 : ℕ) : ℝ) * Spec.step φ n ≤ 1 / 2 := by push_cast; exact few_steps hn
  have hb := fun m hm => growth_le hx hk (m := m) hm
  obtain ⟨f1, f2, f3, f4, f5⟩ := hS
  obtain ⟨r0, r1, r2, r3, r4, r5, r6⟩ := hr
  have hN : 0 < N := hlo.trans_le r0.1
  set σ := |S.scale.val| with hσ
  set x := Spec.step φ n with hxd
  set R := exactly S.isometry.rotation.matrix with hR
  have z : ∀ {P : ℝ}, (0 : ℝ) ≤ (1 - 1) * P := fun {P} => by rw [sub_self, zero_mul]
  have a0 := Spec.Tracks.exact hp hX
  have t0 := Spec.Tracks.exact f4 f5
  have a1 := scaled_tracks hu h0 hlo hfits a0 f3 (s := S.scale.val) (K := 1) (σ := σ) (by rw [sub_self, abs_zero]; exact z) le_rfl le_rfl le_rfl (by norm_num) r1
  rw [← hxd, show (1 : ℝ) * 1 * (1 + x) = (1 + x) ^ 1 by ring] at a1
  have a2 := turned_tracks hu hn' h0 hlo hfits f1 (G := 1) (E := R) (P := N) (by rw [sub_self, norm_zero]; exact z) f2 hN a1 le_rfl (hb 1 (by norm_num)).1
    (by rw [_root_.one_mul]; exact (hb 1 (by norm_num)).2) r2
  rw [← hxd, show 1 * (1 + x) ^ 1 * (1 + x) = (1 + x) ^ 2 by ring] at a2
  have a3 := added_tracks hu h0 hlo hfits a2 (t0.mono (hb 2 (by norm_num)).1) (hb 2 (by norm_num)).1 (hb 2 (by norm_num)).2 r3
  rw [← hxd, ← pow_succ] at a3
  have a4 := subtracted_tracks hu h0 hlo hfits a3 (t0.mono (hb (2 + 1) (by norm_num)).1) (hb _ (by norm_num)).1 (hb _ (by norm_num)).2 r4
  rw [← hxd, ← pow_succ, add_sub_cancel_right] at a4
  obtain ⟨u1, u2⟩ := norm_transposed S.isometry.rotation.matrix
  have a5 := turned_tracks hu hn' h0 hlo hfits (A := S.isometry.rotation.matrix.transpose) (fun c r => by rw [show S.isometry.rotation.matrix.transpose.data c r = S.isometry.rotation.matrix.data r c by simp]; exact f1 r c) (G := 1) (E := Rᵀ) (P := N)
    (by rw [u2, sub_self, norm_zero]; exact z) (by rw [← u2, u1]; exact f2) hN a4 le_rfl (hb _ (by norm_num)).1
    (by rw [_root_.one_mul]; exact (hb _ (by norm_num)).2) r5
  rw [← hxd, show 1 * (1 + x) ^ (2 + 1 + 1) * (1 + x) = (1 + x) ^ 5 by ring] at a5
  have a6 := divided_tracks hu h0 hlo hfits a5 f3 hs rfl (hb _ (by norm_num)).1 (hb _ (by norm_num)).2 r6
  rw [← hxd, ← pow_succ] at a6
  obtain ⟨b1, b2, b3⟩ := a6
  refine ⟨b1, ?_⟩
  have hs0 : S.scale.val ≠ 0 := abs_pos.mp hs
  have e : S.scale.val⁻¹ • (Rᵀ *ᵥ (R *ᵥ (S.scale.val • values p.coords))) = values p.coords + (Rᵀ * R - 1) *ᵥ values p.coords := by
    rw [Matrix.mulVec_smul, Matrix.mulVec_smul, smul_smul, inv_mul_cancel₀ hs0, one_smul, Matrix.sub_mulVec, Matrix.one_mulVec, Matrix.mulVec_mulVec]
    abel
  have b4 := b2.trans (growth_linear (k := 6) (φ := φ) (n := n) le_rfl (by push_cast; linarith [few_steps hn]) ((vecNorm_nonneg _).trans b3))
  change vecNorm (values (S.inverseApplyPoint (S.applyPoint p)).coords - _) ≤ _ at b4
  rw [e] at b4
  have e2 : values (S.inverseApplyPoint (S.applyPoint p)).coords - values p.coords =
      (values (S.inverseApplyPoint (S.applyPoint p)).coords - (values p.coords + (Rᵀ * R - 1) *ᵥ values p.coords)) + (Rᵀ * R - 1) *ᵥ values p.coords := by abel
  rw [e2]
  refine (vecNorm_add _ _).trans (add_le_add (b4.trans_eq ?_) ?_)
  · push_cast
    field_simp
    ring
  · exact (vecNorm_mulVec _ _).trans (mul_le_mul hδ hX (vecNorm_nonneg _) ((norm_nonneg _).trans hδ))

theorem back_and_there {S : Similarity (Ieee φ) n} {N T X δ : ℝ} (hS : ProperSimilarity (S, N, T)) (hs : 0 < |S.scale.val|)
    (hδ : ‖exactly S.isometry.rotation.matrix * (exactly S.isometry.rotation.matrix)ᵀ - 1‖ ≤ δ) {p : Pt (Ieee φ) n}
    (hp : ∀ i, (p.coords.data i).Finite) (hX : vecNorm (values p.coords) ≤ X) (hr : BackAndThere lo hi |S.scale.val| N T X) :
    (∀ i, ((S.applyPoint (S.inverseApplyPoint p)).coords.data i).Finite) ∧
      vecNorm (values (S.applyPoint (S.inverseApplyPoint p)).coords - values p.coords) ≤
        60 * n ^ 2 * φ.u * (N ^ 2 * (X + T) + T) + δ * (X + T) := by
  have hx : 0 ≤ Spec.step φ n := Spec.step_nonneg
  have hk : ((8 : ℕ) : ℝ) * Spec.step φ n ≤ 1 / 2 := by push_cast; exact few_steps hn
  have hb := fun m hm => growth_le hx hk (m := m) hm
  obtain ⟨f1, f2, f3, f4, f5⟩ := hS
  obtain ⟨r0, r1, r2, r3, r4, r5, r6⟩ := hr
  have hN : 0 < N := hlo.trans_le r0.1
  set σ := |S.scale.val| with hσ
  set x := Spec.step φ n with hxd
  set R := exactly S.isometry.rotation.matrix with hR
  have z : ∀ {P : ℝ}, (0 : ℝ) ≤ (1 - 1) * P := fun {P} => by rw [sub_self, zero_mul]
  have a0 := Spec.Tracks.exact hp hX
  have t0 := Spec.Tracks.exact f4 f5
  have a1 := subtracted_tracks hu h0 hlo hfits a0 t0 le_rfl (by norm_num) r1
  rw [← hxd, show (1 : ℝ) * (1 + x) = (1 + x) ^ 1 by ring] at a1
  obtain ⟨u1, u2⟩ := norm_transposed S.isometry.rotation.matrix
  have a2 := turned_tracks hu hn' h0 hlo hfits (A := S.isometry.rotation.matrix.transpose) (fun c r => by rw [show S.isometry.rotation.matrix.transpose.data c r = S.isometry.rotation.matrix.data r c by simp]; exact f1 r c) (G := 1) (E := Rᵀ) (P := N)
    (by rw [u2, sub_self, norm_zero]; exact z) (by rw [← u2, u1]; exact f2) hN a1 le_rfl (hb _ (by norm_num)).1
    (by rw [_root_.one_mul]; exact (hb _ (by norm_num)).2) r2
  rw [← hxd, show 1 * (1 + x) ^ 1 * (1 + x) = (1 + x) ^ 2 by ring] at a2
  have a3 := divided_tracks hu h0 hlo hfits a2 f3 hs rfl (hb _ (by norm_num)).1 (hb _ (by norm_num)).2 r3
  rw [← hxd, ← pow_succ] at a3
  have a4 := scaled_tracks hu h0 hlo hfits a3 f3 (s := S.scale.val) (K := 1) (σ := σ) (by rw [sub_self, abs_zero]; exact z) le_rfl (hb _ (by norm_num)).1 le_rfl
    (by rw [_root_.mul_one]; exact (hb _ (by norm_num)).2) r4
  rw [← hxd, show (1 + x) ^ (2 + 1) * 1 * (1 + x) = (1 + x) ^ 4 by ring] at a4
  have a5 := turned_tracks hu hn' h0 hlo hfits f1 (G := 1) (E := R) (P := N) (by rw [sub_self, norm_zero]; exact z) f2 hN a4 le_rfl (hb _ (by norm_num)).1
    (by rw [_root_.one_mul]; exact (hb _ (by norm_num)).2) r5
  rw [← hxd, show 1 * (1 + x) ^ 4 * (1 + x) = (1 + x) ^ 5 by ring] at a5
  have a6 := added_tracks hu h0 hlo hfits a5 (t0.mono (hb 5 (by norm_num)).1) (hb 5 (by norm_num)).1 (hb 5 (by norm_num)).2 r6
  rw [← hxd, ← pow_succ] at a6
  obtain ⟨b1, b2, b3⟩ := a6
  refine ⟨b1, ?_⟩
  have hs0 : S.scale.val ≠ 0 := abs_pos.mp hs
  set t := values S.isometry.translation.vector
  have e : R *ᵥ (S.scale.val • S.scale.val⁻¹ • (Rᵀ *ᵥ (values p.coords - t))) + t = values p.coords + (R * Rᵀ - 1) *ᵥ (values p.coords - t) := by
    rw [smul_smul, mul_inv_cancel₀ hs0, one_smul, Matrix.sub_mulVec, Matrix.one_mulVec, Matrix.mulVec_mulVec]
    abel
  have b4 := b2.trans (growth_linear (k := 6) (φ := φ) (n := n) le_rfl (by push_cast; linarith [few_steps hn]) ((vecNorm_nonneg _).trans b3))
  change vecNorm (values (S.applyPoint (S.inverseApplyPoint p)).coords - _) ≤ _ at b4
  rw [e] at b4
  have e2 : values (S.applyPoint (S.inverseApplyPoint p)).coords - values p.coords =
      (values (S.applyPoint (S.inverseApplyPoint p)).coords - (values p.coords + (R * Rᵀ - 1) *ᵥ (values p.coords - t))) + (R * Rᵀ - 1) *ᵥ (values p.coords - t) := by abel
  rw [e2]
  refine (vecNorm_add _ _).trans (add_le_add (b4.trans_eq ?_) ?_)
  · push_cast
    field_simp
    ring
  · exact (vecNorm_mulVec _ _).trans (mul_le_mul hδ ((vecNorm_sub _ _).trans (add_le_add hX f5)) (vecNorm_nonneg _) ((norm_nonneg _).trans hδ))

end Undoing

/-! ### the results -/

theorem eight64 (hn : n ≤ 1000000) : 10 * (n : ℝ) ^ 2 * 8 * f64.u ≤ 1 := by
  have h1 : (n : ℝ) ≤ 1000000 := by exact_mod_cast hn
  have h2 : (n : ℝ) ^ 2 ≤ 1000000 ^ 2 := pow_le_pow_left₀ (by positivity) h1 2
  change 10 * (n : ℝ) ^ 2 * 8 * (2 : ℝ) ^ (-53 : ℤ) ≤ 1
  have h : (2 : ℝ) ^ (-53 : ℤ) ≤ 2 / 10000000000000000 := by norm_num
  have h3 := mul_le_mul h2 h (by positivity) (by positivity)
  norm_num at h3 ⊢
  linarith

theorem eight32 (hn : n ≤ 300) : 10 * (n : ℝ) ^ 2 * 8 * f32.u ≤ 1 := by
  have h1 : (n : ℝ) ≤ 300 := by exact_mod_cast hn
  have h2 : (n : ℝ) ^ 2 ≤ 300 ^ 2 := pow_le_pow_left₀ (by positivity) h1 2
  change 10 * (n : ℝ) ^ 2 * 8 * (2 : ℝ) ^ (-24 : ℤ) ≤ 1
  have h : (2 : ℝ) ^ (-24 : ℤ) ≤ 6 / 100000000 := by norm_num
  have h3 := mul_le_mul h2 h (by positivity) (by positivity)
  norm_num at h3 ⊢
  linarith

/-- **C109.**  `f64`: `k` similarities, composed in any way of bracketing and applied to a point one after the other, take it to within `30 n^2 k`
roundings of its exact image, in units of how far from the origin they can take it. -/
theorem C109_similarities64 (h0 : 0 < n) (hn : n ≤ 1000000) (ts : List (Composite f64 n)) {X : ℝ} {p : Pt (Ieee f64) n} (hp : ∀ i, (p.coords.data i).Finite)
    (hX : vecNorm (values p.coords) ≤ X) (hf : ∀ f ∈ everyFactor ts, ProperSimilarity f) (hr : Travels (2 ^ (-1000 : ℤ)) (2 ^ (999 : ℤ)) X ts)
    (hk : 30 * n ^ 2 * (everyFactor ts).length * 2 ^ (-53 : ℤ) ≤ (1 : ℝ)) :
    (∀ i, ((applyEach ts p).coords.data i).Finite) ∧ vecNorm (values (applyEach ts p).coords - exactImage (everyFactor ts) (values p.coords)) ≤
      30 * n ^ 2 * (everyFactor ts).length * 2 ^ (-53 : ℤ) * reach (everyFactor ts) X :=
  travel_bound roundoff64 (few64 hn) h0 (by positivity) room64 ts hp hX hf hr hk

/-- **C109.**  `f64`: two ways of composing and applying the same similarities take a point to places near each other. -/
theorem C109_order64 (h0 : 0 < n) (hn : n ≤ 1000000) (ts ts' : List (Composite f64 n)) (he : everyFactor ts = everyFactor ts') {X : ℝ} {p : Pt (Ieee f64) n}
    (hp : ∀ i, (p.coords.data i).Finite) (hX : vecNorm (values p.coords) ≤ X) (hf : ∀ f ∈ everyFactor ts, ProperSimilarity f)
    (hr : Travels (2 ^ (-1000 : ℤ)) (2 ^ (999 : ℤ)) X ts) (hr' : Travels (2 ^ (-1000 : ℤ)) (2 ^ (999 : ℤ)) X ts')
    (hk : 30 * n ^ 2 * (everyFactor ts).length * 2 ^ (-53 : ℤ) ≤ (1 : ℝ)) :
    vecNorm (values (applyEach ts p).coords - values (applyEach ts' p).coords) ≤
      60 * n ^ 2 * (everyFactor ts).length * 2 ^ (-53 : ℤ) * reach (everyFactor ts) X := by
  have h1 := (C109_similarities64 h0 hn ts hp hX hf hr hk).2
  have h2 := (C109_similarities64 h0 hn ts' hp hX (he ▸ hf) hr' (he ▸ hk)).2
  rw [← he] at h2
  have e : values (applyEach ts p).coords - values (applyEach ts' p).coords =
      (values (applyEach ts p).coords - exactImage (everyFactor ts) (values p.coords)) -
        (values (applyEach ts' p).coords - exactImage (everyFactor ts) (values p.coords)) := by abel
  rw [e]
  refine (vecNorm_sub _ _).trans ?_
  linarith

/-- **C109.**  `f64`: undoing a similarity after applying it brings a point back. `δ` is how far the matrix of the rotation is from orthogonal. -/
theorem C109_there_and_back64 (h0 : 0 < n) (hn : n ≤ 1000000) {S : Similarity (Ieee f64) n} {N T X δ : ℝ} (hS : ProperSimilarity (S, N, T)) (hs : S.scale.val ≠ 0)
    (hδ : ‖(exactly S.isometry.rotation.matrix)ᵀ * exactly S.isometry.rotation.matrix - 1‖ ≤ δ) {p : Pt (Ieee f64) n}
    (hp : ∀ i, (p.coords.data i).Finite) (hX : vecNorm (values p.coords) ≤ X) (hr : ThereAndBack (2 ^ (-1000 : ℤ)) (2 ^ (999 : ℤ)) |S.scale.val| N T X) :
    (∀ i, ((S.inverseApplyPoint (S.applyPoint p)).coords.data i).Finite) ∧
      vecNorm (values (S.inverseApplyPoint (S.applyPoint p)).coords - values p.coords) ≤
        60 * n ^ 2 * 2 ^ (-53 : ℤ) * (N * (N * X + 2 * T / |S.scale.val|)) + δ * X :=
  there_and_back roundoff64 (eight64 hn) h0 (by positivity) room64 (few64 hn) hS (abs_pos.mpr hs) hδ hp hX hr

/-- **C109.**  `f64`: applying a similarity after undoing it brings a point back. -/
theorem C109_back_and_there64 (h0 : 0 < n) (hn : n ≤ 1000000) {S : Similarity (Ieee f64) n} {N T X δ : ℝ} (hS : ProperSimilarity (S, N, T)) (hs : S.scale.val ≠ 0)
    (hδ : ‖exactly S.isometry.rotation.matrix * (exactly S.isometry.rotation.matrix)ᵀ - 1‖ ≤ δ) {p : Pt (Ieee f64) n}
    (hp : ∀ i, (p.coords.data i).Finite) (hX : vecNorm (values p.coords) ≤ X) (hr : BackAndThere (2 ^ (-1000 : ℤ)) (2 ^ (999 : ℤ)) |S.scale.val| N T X) :
    (∀ i, ((S.applyPoint (S.inverseApplyPoint p)).coords.data i).Finite) ∧
      vecNorm (values (S.applyPoint (S.inverseApplyPoint p)).coords - values p.coords) ≤
        60 * n ^ 2 * 2 ^ (-53 : ℤ) * (N ^ 2 * (X + T) + T) + δ * (X + T) :=
  back_and_there roundoff64 (eight64 hn) h0 (by positivity) room64 (few64 hn) hS (abs_pos.mpr hs) hδ hp hX hr

/-- **C109.**  `f32` -/
theorem C109_similarities32 (h0 : 0 < n) (hn : n ≤ 1000) (ts : List (Composite f32 n)) {X : ℝ} {p : Pt (Ieee f32) n} (hp : ∀ i, (p.coords.data i).Finite)
    (hX : vecNorm (values p.coords) ≤ X) (hf : ∀ f ∈ everyFactor ts, ProperSimilarity f) (hr : Travels (2 ^ (-126 : ℤ)) (2 ^ (125 : ℤ)) X ts)
    (hk : 30 * n ^ 2 * (everyFactor ts).length * 2 ^ (-24 : ℤ) ≤ (1 : ℝ)) :
    (∀ i, ((applyEach ts p).coords.data i).Finite) ∧ vecNorm (values (applyEach ts p).coords - exactImage (everyFactor ts) (values p.coords)) ≤
      30 * n ^ 2 * (everyFactor ts).length * 2 ^ (-24 : ℤ) * reach (everyFactor ts) X :=
  travel_bound roundoff32 (few32 hn) h0 (by positivity) room32 ts hp hX hf hr hk

/-- **C109.**  `f32` -/
theorem C109_there_and_back32 (h0 : 0 < n) (hn : n ≤ 300) {S : Similarity (Ieee f32) n} {N T X δ : ℝ} (hS : ProperSimilarity (S, N, T)) (hs : S.scale.val ≠ 0)
    (hδ : ‖(exactly S.isometry.rotation.matrix)ᵀ * exactly S.isometry.rotation.matrix - 1‖ ≤ δ) {p : Pt (Ieee f32) n}
    (hp : ∀ i, (p.coords.data i).Finite) (hX : vecNorm (values p.coords) ≤ X) (hr : ThereAndBack (2 ^ (-126 : ℤ)) (2 ^ (125 : ℤ)) |S.scale.val| N T X) :
    (∀ i, ((S.inverseApplyPoint (S.applyPoint p)).coords.data i).Finite) ∧
      vecNorm (values (S.inverseApplyPoint (S.applyPoint p)).coords - values p.coords) ≤
        60 * n ^ 2 * 2 ^ (-24 : ℤ) * (N * (N * X + 2 * T / |S.scale.val|)) + δ * X :=
  there_and_back roundoff32 (eight32 hn) h0 (by positivity) room32 (few32 (hn.trans (by norm_num))) hS (abs_pos.mpr hs) hδ hp hX hr

/-- **C109.**  `f32` -/
theorem C109_back_and_there32 (h0 : 0 < n) (hn : n ≤ 300) {S : Similarity (Ieee f32) n} {N T X δ : ℝ} (hS : ProperSimilarity (S, N, T)) (hs : S.scale.val ≠ 0)
    (hδ : ‖exactly S.isometry.rotation.matrix * (exactly S.isometry.rotation.matrix)ᵀ - 1‖ ≤ δ) {p : Pt (Ieee f32) n}
    (hp : ∀ i, (p.coords.data i).Finite) (hX : vecNorm (values p.coords) ≤ X) (hr : BackAndThere (2 ^ (-126 : ℤ)) (2 ^ (125 : ℤ)) |S.scale.val| N T X) :
    (∀ i, ((S.applyPoint (S.inverseApplyPoint p)).coords.data i).Finite) ∧
      vecNorm (values (S.applyPoint (S.inverseApplyPoint p)).coords - values p.coords) ≤
        60 * n ^ 2 * 2 ^ (-24 : ℤ) * (N ^ 2 * (X + T) + T) + δ * (X + T) :=
  back_and_there roundoff32 (eight32 hn) h0 (by positivity) room32 (few32 (hn.trans (by norm_num))) hS (abs_pos.mpr hs) hδ hp hX hr

/-! ### the hypotheses can be met -/

/-- doubles, and moves by one -/
noncomputable def doubleAndMove : Similarity (Ieee f64) 2 := Similarity.fromParts (Translation.new2 1 0) Rotation.identity (1 + 1)

theorem doubleAndMove_scale : doubleAndMove.scale.Finite ∧ doubleAndMove.scale.val = 2 := (adequate64 (n := 2) (by norm_num)).two

theorem doubleAndMove_turn : exactly doubleAndMove.isometry.rotation.matrix = 1 := by
  ext r c
  change ((Mat.identity : Mat (Ieee f64) 2 2).data c r).val = _
  fin_cases r <;> fin_cases c <;> simp [Mat.identity] <;> rfl

theorem unit_norm_le : ‖(1 : Matrix (Fin 2) (Fin 2) ℝ)‖ ≤ 2 := by
  refine (norm_le_of_all (e := 1) zero_le_one fun r c => ?_).trans (by norm_num)
  rw [Matrix.one_apply]
  split_ifs <;> norm_num

theorem doubleAndMove_proper : ProperSimilarity (doubleAndMove, 2, 2) := by
  have hv : ∀ i, doubleAndMove.isometry.translation.vector.data i = 0 ∨ doubleAndMove.isometry.translation.vector.data i = 1 := by
    intro i
    fin_cases i
    · exact Or.inr rfl
    · exact Or.inl rfl
  refine ⟨fun c r => ?_, by rw [doubleAndMove_turn]; exact unit_norm_le, doubleAndMove_scale.1, fun i => ?_, ?_⟩
  · change ((Mat.identity : Mat (Ieee f64) 2 2).data c r).Finite
    fin_cases r <;> fin_cases c <;> simp [Mat.identity] <;> first | exact finite_one | exact finite_zero
  · rcases hv i with h | h <;> rw [h]
    · exact finite_zero
    · exact finite_one
  · refine (vecNorm_le_all (e := 1) zero_le_one fun i => ?_).trans (by norm_num)
    rw [values]
    rcases hv i with h | h <;> rw [h]
    · rw [show (0 : Ieee f64).val = 0 from rfl]; norm_num
    · rw [show (1 : Ieee f64).val = 1 from rfl]; norm_num

/-- the point `(1, 1)` -/
noncomputable def corner : Pt (Ieee f64) 2 := ⟨⟨fun _ => 1⟩⟩

theorem corner_size : (∀ i, (corner.coords.data i).Finite) ∧ vecNorm (values corner.coords) ≤ 2 := by
  refine ⟨fun i => finite_one, (vecNorm_le_all (e := 1) zero_le_one fun i => ?_).trans (by norm_num)⟩
  change |(1 : Ieee f64).val| ≤ 1
  rw [show (1 : Ieee f64).val = 1 from rfl]; norm_num

/-- the corner doubled and moved three times: the first two composed, after the third -/
noncomputable def thrice : List (Composite f64 2) := [.times (.factor doubleAndMove 2 2) (.factor doubleAndMove 2 2), .factor doubleAndMove 2 2]

example : (∀ i, ((applyEach thrice corner).coords.data i).Finite) ∧
    vecNorm (values (applyEach thrice corner).coords - exactImage (everyFactor thrice) (values corner.coords)) ≤
      30 * 2 ^ 2 * 3 * 2 ^ (-53 : ℤ) * reach (everyFactor thrice) 2 := by
  have hs := doubleAndMove_scale.2
  have ha : |(2 : ℝ)| = 2 := abs_of_pos two_pos
  have hr : Travels (2 ^ (-1000 : ℤ)) (2 ^ (999 : ℤ)) 2 thrice := by
    have k : ∀ x : ℝ, 1 ≤ x → x ≤ 1000 → Between (2 ^ (-1000 : ℤ)) (2 ^ (999 : ℤ)) x := fun x h1 h2 => between h1 h2
    simp only [thrice, Travels, Composite.InRange, Composite.exactScale, Composite.turnSize, Composite.moveSize, everyFactor, List.flatMap_cons, List.flatMap_nil,
      Composite.factors, List.append_nil, reach, hs, abs_mul, ha]
    refine ⟨⟨⟨?_, ?_, ?_⟩, ⟨?_, ?_, ?_⟩, ?_, ?_, ?_, ?_, ?_⟩, ⟨⟨?_, ?_, ?_⟩, ?_, ?_, ?_, ?_⟩, ?_, ?_, ?_⟩ <;> exact k _ (by norm_num) (by norm_num)
  have hl : (everyFactor thrice).length = 3 := rfl
  have := C109_similarities64 (by norm_num) (by norm_num) thrice corner_size.1 corner_size.2
    (fun f hf => by
      obtain rfl : f = (doubleAndMove, 2, 2) := by simpa [thrice, everyFactor, Composite.factors] using hf
      exact doubleAndMove_proper) hr (by rw [hl]; norm_num)
  rw [hl] at this
  exact_mod_cast this

example : vecNorm (values (doubleAndMove.inverseApplyPoint (doubleAndMove.applyPoint corner)).coords - values corner.coords) ≤
    60 * 2 ^ 2 * 2 ^ (-53 : ℤ) * (2 * (2 * 2 + 2 * 2 / 2)) + 0 * 2 := by
  have hs := doubleAndMove_scale.2
  have ha : |(2 : ℝ)| = 2 := abs_of_pos two_pos
  have k : ∀ x : ℝ, 1 ≤ x → x ≤ 1000 → Between (2 ^ (-1000 : ℤ)) (2 ^ (999 : ℤ)) x := fun x h1 h2 => between h1 h2
  have := (C109_there_and_back64 (by norm_num) (by norm_num) doubleAndMove_proper (by rw [hs]; norm_num) (δ := 0)
    (by rw [doubleAndMove_turn]; simp) corner_size.1 corner_size.2 (by
      rw [hs, ha]
      refine ⟨?_, ?_, ?_, ?_, ?_, ?_, ?_⟩ <;> exact k _ (by norm_num) (by norm_num))).2
  rw [hs, ha] at this
  exact_mod_cast this

example : vecNorm (values (doubleAndMove.applyPoint (doubleAndMove.inverseApplyPoint corner)).coords - values corner.coords) ≤
    60 * 2 ^ 2 * 2 ^ (-53 : ℤ) * (2 ^ 2 * (2 + 2) + 2) + 0 * (2 + 2) := by
  have hs := doubleAndMove_scale.2
  have ha : |(2 : ℝ)| = 2 := abs_of_pos two_pos
  have k : ∀ x : ℝ, 1 ≤ x → x ≤ 1000 → Between (2 ^ (-1000 : ℤ)) (2 ^ (999 : ℤ)) x := fun x h1 h2 => between h1 h2
  have := (C109_back_and_there64 (by norm_num) (by norm_num) doubleAndMove_proper (by rw [hs]; norm_num) (δ := 0)
    (by rw [doubleAndMove_turn]; simp) corner_size.1 corner_size.2 (by
      rw [hs, ha]
      refine ⟨?_, ?_, ?_, ?_, ?_, ?_, ?_⟩ <;> exact k _ (by norm_num) (by norm_num))).2
  exact_mod_cast this

end Cgl
