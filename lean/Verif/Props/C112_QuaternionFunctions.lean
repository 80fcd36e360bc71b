import Verif.Props.C111_QuaternionProducts

/-! # C112 - inner and outer products, projections, interpolation and norms of quaternions of any size in IEEE arithmetic -/

namespace Cgl
open Ieee FloatFns Spec Rounding Matrix
open scoped Quaternion

variable {φ : Format}

namespace Spec

/-- the four components of a real quaternion, the scalar first -/
def fourOf (h : ℍ[ℝ]) : Fin 4 → ℝ := ![h.re, h.imI, h.imJ, h.imK]

/-- the quaternion has finite components and at most the norm `X` -/
def QuatWithinNorm (X : ℝ) (q : Quat (Ieee φ)) : Prop := (∀ i, (q.coords.data i).Finite) ∧ ‖ieeeQuat q‖ ≤ X

/-- the exact projection of `g` to the line through `h` -/
noncomputable def quatShadow (g h : ℍ[ℝ]) : ℍ[ℝ] := ((g * star h).re / ‖h‖ ^ 2) • h

end Spec

/-! ### sums and multiples -/

theorem fourOf_norm (h : ℍ[ℝ]) : ‖h‖ = vecNorm (fourOf h) := quaternion_norm_eq h

theorem fourOf_le (h : ℍ[ℝ]) (i) : |fourOf h i| ≤ ‖h‖ := by
  rw [fourOf_norm, vecNorm]
  refine Real.le_sqrt_of_sq_le ?_
  rw [sq_abs]
  exact Finset.single_le_sum (f := fun i => fourOf h i ^ 2) (fun i _ => sq_nonneg _) (Finset.mem_univ i)

theorem fourOf_ieee (q : Quat (Ieee φ)) (i) : fourOf (ieeeQuat q) i = (q.coords.data i).val := by fin_cases i <;> rfl

theorem fourOf_add (g h : ℍ[ℝ]) (i) : fourOf (g + h) i = fourOf g i + fourOf h i := by fin_cases i <;> rfl

theorem fourOf_sub (g h : ℍ[ℝ]) (i) : fourOf (g - h) i = fourOf g i - fourOf h i := by fin_cases i <;> rfl

theorem fourOf_smul (k : ℝ) (h : ℍ[ℝ]) (i) : fourOf (k • h) i = k * fourOf h i := by fin_cases i <;> rfl

/-- a quaternion with every component within `e` is within `2 e` -/
theorem quat_of_components {q : Quat (Ieee φ)} {h : ℍ[ℝ]} {e : ℝ} (he : 0 ≤ e) (H : ∀ i, NearTo (q.coords.data i) (fourOf h i) e) : QuatClose q h (2 * e) := by
  refine ⟨fun i => (H i).1, ?_⟩
  rw [fourOf_norm]
  have hs : Real.sqrt ((4 : ℕ) : ℝ) = 2 := by
    rw [show ((4 : ℕ) : ℝ) = 2 ^ 2 by norm_num, Real.sqrt_sq (by norm_num)]
  refine (vecNorm_le he fun i => ?_).trans (le_of_eq (by rw [hs]))
  rw [fourOf_sub, fourOf_ieee]
  exact (H i).2

theorem close_norm {q : Quat (Ieee φ)} {h : ℍ[ℝ]} {e : ℝ} (H : QuatClose q h e) : ‖ieeeQuat q‖ ≤ ‖h‖ + e := by
  have := norm_add_le (ieeeQuat q - h) h
  rw [sub_add_cancel] at this; linarith [H.2]

theorem close_trans {q : Quat (Ieee φ)} {g h : ℍ[ℝ]} {e f : ℝ} (H : QuatClose q g e) (hf : ‖g - h‖ ≤ f) : QuatClose q h (e + f) := by
  refine ⟨H.1, ?_⟩
  have := norm_add_le (ieeeQuat q - g) (g - h)
  rw [sub_add_sub_cancel] at this; linarith [H.2]

theorem close_weaken {q : Quat (Ieee φ)} {g : ℍ[ℝ]} {e f : ℝ} (H : QuatClose q g e) (hf : e ≤ f) : QuatClose q g f := ⟨H.1, H.2.trans hf⟩

theorem quat_add_data (q r : Quat (Ieee φ)) (i) : (q + r).coords.data i = q.coords.data i + r.coords.data i := by fin_cases i <;> rfl
theorem quat_sub_data (q r : Quat (Ieee φ)) (i) : (q - r).coords.data i = q.coords.data i - r.coords.data i := by fin_cases i <;> rfl
theorem quat_scale_data (q : Quat (Ieee φ)) (k : Ieee φ) (i) : (q * k).coords.data i = q.coords.data i * k := by fin_cases i <;> rfl

theorem quat_add_near {B e f : ℝ} {q r : Quat (Ieee φ)} {g h : ℍ[ℝ]} (hu : φ.u ≤ 1 / 1000000) (hB : Fits φ B) (hq : QuatClose q g e) (hr : QuatClose r h f)
    (hn : ‖g + h‖ ≤ B) (hef : e + f ≤ B / 100) : QuatClose (q + r) (g + h) (e + f + 5 * φ.u * B) := by
  have hu0 := φ.u_nonneg
  have hp := hB.pos
  have hd : ‖(ieeeQuat q + ieeeQuat r) - (g + h)‖ ≤ e + f := by
    rw [add_sub_add_comm]; exact (norm_add_le _ _).trans (add_le_add hq.2 hr.2)
  have hs : ‖ieeeQuat q + ieeeQuat r‖ ≤ 101 / 100 * B := by
    have := norm_add_le ((ieeeQuat q + ieeeQuat r) - (g + h)) (g + h)
    rw [sub_add_cancel] at this; linarith
  have H : QuatClose (q + r) (ieeeQuat q + ieeeQuat r) (2 * (203 / 100 * φ.u * B)) := by
    refine quat_of_components (by positivity) fun i => ?_
    have hi := (fourOf_le _ i).trans hs
    rw [fourOf_add, fourOf_ieee, fourOf_ieee] at hi ⊢
    obtain ⟨r1, r2⟩ := hB.round hu (z := (q.coords.data i).val + (r.coords.data i).val) (by linarith)
    obtain ⟨l1, l2⟩ := add_of (hq.1 i) (hr.1 i) r1
    rw [quat_add_data]
    exact ⟨l1, by rw [l2]; exact r2⟩
  refine close_weaken (close_trans H hd) ?_
  have : 0 ≤ φ.u * B := by positivity
  linarith

theorem quat_sub_near {B e f : ℝ} {q r : Quat (Ieee φ)} {g h : ℍ[ℝ]} (hu : φ.u ≤ 1 / 1000000) (hB : Fits φ B) (hq : QuatClose q g e) (hr : QuatClose r h f)
    (hn : ‖g - h‖ ≤ B) (hef : e + f ≤ B / 100) : QuatClose (q - r) (g - h) (e + f + 5 * φ.u * B) := by
  have hu0 := φ.u_nonneg
  have hp := hB.pos
  have hd : ‖(ieeeQuat q - ieeeQuat r) - (g - h)‖ ≤ e + f := by
    rw [sub_sub_sub_comm]; exact (norm_sub_le _ _).trans (add_le_add hq.2 hr.2)
  have hs : ‖ieeeQuat q - ieeeQuat r‖ ≤ 101 / 100 * B := by
    have := norm_add_le ((ieeeQuat q - ieeeQuat r) - (g - h)) (g - h)
    rw [sub_add_cancel] at this; linarith
  have H : QuatClose (q - r) (ieeeQuat q - ieeeQuat r) (2 * (203 / 100 * φ.u * B)) := by
    refine quat_of_components (by positivity) fun i => ?_
    have hi := (fourOf_le _ i).trans hs
    rw [fourOf_sub, fourOf_ieee, fourOf_ieee] at hi ⊢
    obtain ⟨r1, r2⟩ := hB.round hu (z := (q.coords.data i).val - (r.coords.data i).val) (by linarith)
    obtain ⟨l1, l2⟩ := sub_of (hq.1 i) (hr.1 i) r1
    rw [quat_sub_data]
    exact ⟨l1, by rw [l2]; exact r2⟩
  refine close_weaken (close_trans H hd) ?_
  have : 0 ≤ φ.u * B := by positivity
  linarith

theorem quat_scale_near {B e : ℝ} {q : Quat (Ieee φ)} {k : Ieee φ} {g : ℍ[ℝ]} (hu : φ.u ≤ 1 / 1000000) (hB : Fits φ B) (hq : QuatClose q g e) (hk : k.Finite)
    (hn : |k.val| * (‖g‖ + e) ≤ B) : QuatClose (q * k) (k.val • g) (|k.val| * e + 5 * φ.u * B) := by
  have hu0 := φ.u_nonneg
  have hp := hB.pos
  have hd : ‖k.val • ieeeQuat q - k.val • g‖ ≤ |k.val| * e := by
    rw [← smul_sub, norm_smul, Real.norm_eq_abs]; exact mul_le_mul_of_nonneg_left hq.2 (abs_nonneg _)
  have hs : ‖k.val • ieeeQuat q‖ ≤ B := by
    rw [norm_smul, Real.norm_eq_abs]; exact (mul_le_mul_of_nonneg_left (close_norm hq) (abs_nonneg _)).trans hn
  have H : QuatClose (q * k) (k.val • ieeeQuat q) (2 * (203 / 100 * φ.u * B)) := by
    refine quat_of_components (by positivity) fun i => ?_
    have hi := (fourOf_le _ i).trans hs
    rw [fourOf_smul, fourOf_ieee, mul_comm] at hi ⊢
    obtain ⟨r1, r2⟩ := hB.round hu (z := (q.coords.data i).val * k.val) (by linarith)
    obtain ⟨l1, l2⟩ := mul_of (hq.1 i) hk r1
    rw [quat_scale_data]
    exact ⟨l1, by rw [l2]; exact r2⟩
  refine close_weaken (close_trans H hd) ?_
  have : 0 ≤ φ.u * B := by positivity
  linarith

/-! ### inner and outer products -/

theorem halved_val (hφ : Fine φ) : ((1 : Ieee φ) / (1 + 1)).Finite ∧ ((1 : Ieee φ) / (1 + 1)).val = 1 / 2 := by
  have h := half_nr hφ
  exact ⟨h.1, by have := abs_nonpos_iff.mp h.2; linarith⟩

theorem inner_near (hφ : Fine φ) (hu : φ.u ≤ 1 / 1000000) {q r : Quat (Ieee φ)} {A : ℝ} (hA : Fits φ A) (hA2 : Fits φ (2 * A))
    (hq : ∀ i, (q.coords.data i).Finite) (hr : ∀ i, (r.coords.data i).Finite) (h : ‖ieeeQuat q‖ * ‖ieeeQuat r‖ ≤ A) :
    QuatClose (q.inner r) ((1 / 2 : ℝ) • (ieeeQuat q * ieeeQuat r + ieeeQuat r * ieeeQuat q)) (50 * φ.u * A) := by
  have hu0 := φ.u_nonneg
  have hp := hA.pos
  have hua : φ.u * A ≤ 1 / 1000000 * A := mul_le_mul_of_nonneg_right hu hp.le
  have hua0 : 0 ≤ φ.u * A := by positivity
  obtain ⟨f1, f2⟩ := halved_val hφ
  have p1 := quat_product_near hu hA hq hr h
  have p2 := quat_product_near hu hA hr hq (by rwa [mul_comm])
  have hn : ‖ieeeQuat q * ieeeQuat r + ieeeQuat r * ieeeQuat q‖ ≤ 2 * A := by
    refine (norm_add_le _ _).trans ?_
    rw [norm_mul, norm_mul, mul_comm ‖ieeeQuat r‖]; linarith
  have s := quat_add_near hu hA2 p1 p2 hn (by linarith)
  have t := quat_scale_near (k := (1 : Ieee φ) / (1 + 1)) hu hA2 s f1 (by rw [f2, abs_of_pos (by norm_num)]; linarith)
  rw [f2, abs_of_pos (by norm_num)] at t
  exact close_weaken t (by linarith)

theorem outer_near (hφ : Fine φ) (hu : φ.u ≤ 1 / 1000000) {q r : Quat (Ieee φ)} {A : ℝ} (hA : Fits φ A) (hA2 : Fits φ (2 * A))
    (hq : ∀ i, (q.coords.data i).Finite) (hr : ∀ i, (r.coords.data i).Finite) (h : ‖ieeeQuat q‖ * ‖ieeeQuat r‖ ≤ A) :
    QuatClose (q.outer r) ((1 / 2 : ℝ) • (ieeeQuat q * ieeeQuat r - ieeeQuat r * ieeeQuat q)) (50 * φ.u * A) := by
  have hu0 := φ.u_nonneg
  have hp := hA.pos
  have hua : φ.u * A ≤ 1 / 1000000 * A := mul_le_mul_of_nonneg_right hu hp.le
  have hua0 : 0 ≤ φ.u * A := by positivity
  obtain ⟨f1, f2⟩ := halved_val hφ
  have p1 := quat_product_near hu hA hq hr h
  have p2 := quat_product_near hu hA hr hq (by rwa [mul_comm])
  have hn : ‖ieeeQuat q * ieeeQuat r - ieeeQuat r * ieeeQuat q‖ ≤ 2 * A := by
    refine (norm_sub_le _ _).trans ?_
    rw [norm_mul, norm_mul, mul_comm ‖ieeeQuat r‖]; linarith
  have s := quat_sub_near hu hA2 p1 p2 hn (by linarith)
  have t := quat_scale_near (k := (1 : Ieee φ) / (1 + 1)) hu hA2 s f1 (by rw [f2, abs_of_pos (by norm_num)]; linarith)
  rw [f2, abs_of_pos (by norm_num)] at t
  exact close_weaken t (by linarith)

/-! ### what cancels -/

theorem cancel_all {a b c d a' b' c' d' : Ieee φ} (hf : (a * a' + b * b' + (c * c' - d * d')).Finite) (h1 : a.val * a'.val = -(b.val * b'.val))
    (h2 : c.val * c'.val = d.val * d'.val) : (a * a' + b * b' + (c * c' - d * d')).val = 0 := by
  obtain ⟨f1, f2⟩ := finite_add hf
  obtain ⟨f3, f4⟩ := finite_add f1
  obtain ⟨f5, f6⟩ := finite_sub f2
  rw [val_add hf, val_add f1, val_sub f2, val_mul f3, val_mul f4, val_mul f5, val_mul f6, h1, h2, φ.neg, neg_add_cancel, sub_self, φ.zero, add_zero, φ.zero]

theorem self_sub {x : Ieee φ} (h : x.Finite) : (x - x).Finite ∧ (x - x).val = 0 := by
  have h0 : (0 : ℝ) ≤ φ.big := zero_le_one.trans φ.one_le_big
  obtain ⟨h1, h2⟩ := sub_of h h (by rw [sub_self, φ.zero, abs_zero]; exact h0)
  exact ⟨h1, by rw [h2, sub_self, φ.zero]⟩

theorem zero_mul_of {x y : Ieee φ} (hx : x.Finite) (h0 : x.val = 0) (hy : y.Finite) : (x * y).Finite ∧ (x * y).val = 0 := by
  have hb : (0 : ℝ) ≤ φ.big := zero_le_one.trans φ.one_le_big
  obtain ⟨h1, h2⟩ := mul_of hx hy (by rw [h0, zero_mul, φ.zero, abs_zero]; exact hb)
  exact ⟨h1, by rw [h2, h0, zero_mul, φ.zero]⟩

theorem quat_eq_zero {h : ℍ[ℝ]} (H : ∀ i, fourOf h i = 0) : h = 0 := by
  ext
  exacts [H 0, H 1, H 2, H 3]

/-! ### interpolation and projection -/

theorem quat_close_self {q : Quat (Ieee φ)} (h : ∀ i, (q.coords.data i).Finite) : QuatClose q (ieeeQuat q) 0 := ⟨h, by simp⟩

theorem quat_lerp_near (hu : φ.u ≤ 1 / 1000000) {X : ℝ} {q r : Quat (Ieee φ)} {t : Ieee φ} (hq : QuatWithinNorm X q) (hr : QuatWithinNorm X r) (ht : t.Finite)
    (ht1 : |t.val| ≤ 1) (h2 : Fits φ (2 * X)) (h3 : Fits φ (4 * X)) :
    QuatClose (q.lerp r t) (ieeeQuat q + t.val • (ieeeQuat r - ieeeQuat q)) (50 * φ.u * X) := by
  have hu0 := φ.u_nonneg
  have hp : 0 < X := by linarith [h2.pos]
  have hua : φ.u * X ≤ 1 / 1000000 * X := mul_le_mul_of_nonneg_right hu hp.le
  have hua0 : 0 ≤ φ.u * X := by positivity
  have hd : ‖ieeeQuat r - ieeeQuat q‖ ≤ 2 * X := (norm_sub_le _ _).trans (by linarith [hq.2, hr.2])
  have s := quat_sub_near hu h2 (quat_close_self hr.1) (quat_close_self hq.1) hd (by linarith)
  have e1 : 0 + 0 + 5 * φ.u * (2 * X) = 10 * (φ.u * X) := by ring
  rw [e1] at s
  have hd0 := norm_nonneg (ieeeQuat r - ieeeQuat q)
  have m1 := mul_le_mul_of_nonneg_right ht1 (by positivity : 0 ≤ ‖ieeeQuat r - ieeeQuat q‖ + 10 * (φ.u * X))
  have m2 := mul_le_mul_of_nonneg_right ht1 (by positivity : 0 ≤ 10 * (φ.u * X))
  have m3 := mul_le_mul_of_nonneg_right ht1 hd0
  have m := quat_scale_near hu h3 s ht (by linarith)
  have hn : ‖ieeeQuat q + t.val • (ieeeQuat r - ieeeQuat q)‖ ≤ 4 * X := by
    refine (norm_add_le _ _).trans ?_
    rw [norm_smul, Real.norm_eq_abs]
    linarith [hq.2]
  have a := quat_add_near hu h3 (quat_close_self hq.1) m hn (by linarith)
  exact close_weaken a (by linarith)

theorem quat_project_coords (q r : Quat (Ieee φ)) : (q.project r).coords = q.coords.project r.coords := by
  apply Vec.ext; funext i; fin_cases i <;> rfl

theorem quat_lerp_coords (q r : Quat (Ieee φ)) (t : Ieee φ) : (q.lerp r t).coords = q.coords.lerp r.coords t := by
  apply Vec.ext; funext i; fin_cases i <;> rfl

theorem quatShadow_components (q r : Quat (Ieee φ)) (i) : fourOf (quatShadow (ieeeQuat q) (ieeeQuat r)) i = shadow (values q.coords) (values r.coords) i := by
  have e1 : (ieeeQuat q * star (ieeeQuat r)).re = values q.coords ⬝ᵥ values r.coords := by
    simp [dotProduct, Fin.sum_univ_four, values]
  have e2 : ‖ieeeQuat r‖ ^ 2 = values r.coords ⬝ᵥ values r.coords := by
    rw [ieeeQuat_norm, vecNorm, Real.sq_sqrt (Finset.sum_nonneg fun i _ => sq_nonneg _)]
    exact Finset.sum_congr rfl fun i _ => sq _
  rw [quatShadow, fourOf_smul, fourOf_ieee, e1, e2]
  rfl

theorem quat_project_near {q r : Quat (Ieee φ)} {e : ℝ} (he : 0 ≤ e) (h : Close (q.coords.project r.coords) (shadow (values q.coords) (values r.coords)) e) :
    QuatClose (q.project r) (quatShadow (ieeeQuat q) (ieeeQuat r)) (2 * e) := by
  refine quat_of_components he fun i => ?_
  rw [quatShadow_components, quat_project_coords]
  exact h i

theorem quatShadow_le (g h : ℍ[ℝ]) : ‖quatShadow g h‖ ≤ ‖g‖ := by
  rcases eq_or_ne h 0 with rfl | hh
  · rw [quatShadow, smul_zero, norm_zero]; exact norm_nonneg _
  have hp := norm_pos_iff.mpr hh
  rw [quatShadow, norm_smul, Real.norm_eq_abs, abs_div, abs_of_pos (pow_pos hp 2)]
  have h1 : |(g * star h).re| ≤ ‖g‖ * ‖h‖ := by
    have := fourOf_le (g * star h) 0
    rwa [norm_mul, norm_star] at this
  rw [div_mul_eq_mul_div, div_le_iff₀ (pow_pos hp 2)]
  calc _ ≤ ‖g‖ * ‖h‖ * ‖h‖ := mul_le_mul_of_nonneg_right h1 hp.le
    _ = _ := by ring

theorem quat_reject_near (hu : φ.u ≤ 1 / 1000000) {X e : ℝ} {q r : Quat (Ieee φ)} (hq : QuatWithinNorm X q) (h2 : Fits φ (2 * X)) (he : e ≤ X / 100)
    (h : QuatClose (q.project r) (quatShadow (ieeeQuat q) (ieeeQuat r)) e) :
    QuatClose (q.reject r) (ieeeQuat q - quatShadow (ieeeQuat q) (ieeeQuat r)) (e + 10 * φ.u * X) := by
  have hp : 0 < X := by linarith [h2.pos]
  have hn : ‖ieeeQuat q - quatShadow (ieeeQuat q) (ieeeQuat r)‖ ≤ 2 * X :=
    (norm_sub_le _ _).trans (by linarith [hq.2, (quatShadow_le (ieeeQuat q) (ieeeQuat r)).trans hq.2])
  exact close_weaken (quat_sub_near hu h2 (quat_close_self hq.1) h hn (by linarith)) (by linarith)

/-! ### the property -/

section
variable {X Y : ℝ}

theorem twice_fits64 {A : ℝ} (h1 : (2 : ℝ) ^ (-1000 : ℤ) ≤ A) (h2 : A ≤ 2 ^ (999 : ℤ)) : Fits f64 A ∧ Fits f64 (2 * A) := by
  have hp : (0 : ℝ) < A := lt_of_lt_of_le (by positivity) h1
  exact ⟨room64 _ h1 (h2.trans (le_mul_of_one_le_left (by positivity) one_le_two)), room64 _ (by linarith) (mul_le_mul_of_nonneg_left h2 two_pos.le)⟩

theorem twice_fits32 {A : ℝ} (h1 : (2 : ℝ) ^ (-126 : ℤ) ≤ A) (h2 : A ≤ 2 ^ (125 : ℤ)) : Fits f32 A ∧ Fits f32 (2 * A) := by
  have hp : (0 : ℝ) < A := lt_of_lt_of_le (by positivity) h1
  exact ⟨room32 _ h1 (h2.trans (le_mul_of_one_le_left (by positivity) one_le_two)), room32 _ (by linarith) (mul_le_mul_of_nonneg_left h2 two_pos.le)⟩

/-- **C112.**  `f64`: the symmetric part of a product. -/
theorem C112_inner64 {q r : Quat (Ieee f64)} (hq : QuatWithinNorm X q) (hr : QuatWithinNorm Y r) (h1 : (2 : ℝ) ^ (-1000 : ℤ) ≤ X * Y)
    (h2 : X * Y ≤ 2 ^ (999 : ℤ)) :
    QuatClose (q.inner r) ((1 / 2 : ℝ) • (ieeeQuat q * ieeeQuat r + ieeeQuat r * ieeeQuat q)) (50 * 2 ^ (-53 : ℤ) * (X * Y)) :=
  inner_near fine64 roundoff64 (twice_fits64 h1 h2).1 (twice_fits64 h1 h2).2 hq.1 hr.1
    (mul_le_mul hq.2 hr.2 (norm_nonneg _) ((norm_nonneg _).trans hq.2))

theorem C112_inner32 {q r : Quat (Ieee f32)} (hq : QuatWithinNorm X q) (hr : QuatWithinNorm Y r) (h1 : (2 : ℝ) ^ (-126 : ℤ) ≤ X * Y)
    (h2 : X * Y ≤ 2 ^ (125 : ℤ)) :
    QuatClose (q.inner r) ((1 / 2 : ℝ) • (ieeeQuat q * ieeeQuat r + ieeeQuat r * ieeeQuat q)) (50 * 2 ^ (-24 : ℤ) * (X * Y)) :=
  inner_near fine32 roundoff32 (twice_fits32 h1 h2).1 (twice_fits32 h1 h2).2 hq.1 hr.1
    (mul_le_mul hq.2 hr.2 (norm_nonneg _) ((norm_nonneg _).trans hq.2))

/-- **C112.**  `f64`: the antisymmetric part of a product. -/
theorem C112_outer64 {q r : Quat (Ieee f64)} (hq : QuatWithinNorm X q) (hr : QuatWithinNorm Y r) (h1 : (2 : ℝ) ^ (-1000 : ℤ) ≤ X * Y)
    (h2 : X * Y ≤ 2 ^ (999 : ℤ)) :
    QuatClose (q.outer r) ((1 / 2 : ℝ) • (ieeeQuat q * ieeeQuat r - ieeeQuat r * ieeeQuat q)) (50 * 2 ^ (-53 : ℤ) * (X * Y)) :=
  outer_near fine64 roundoff64 (twice_fits64 h1 h2).1 (twice_fits64 h1 h2).2 hq.1 hr.1
    (mul_le_mul hq.2 hr.2 (norm_nonneg _) ((norm_nonneg _).trans hq.2))

theorem C112_outer32 {q r : Quat (Ieee f32)} (hq : QuatWithinNorm X q) (hr : QuatWithinNorm Y r) (h1 : (2 : ℝ) ^ (-126 : ℤ) ≤ X * Y)
    (h2 : X * Y ≤ 2 ^ (125 : ℤ)) :
    QuatClose (q.outer r) ((1 / 2 : ℝ) • (ieeeQuat q * ieeeQuat r - ieeeQuat r * ieeeQuat q)) (50 * 2 ^ (-24 : ℤ) * (X * Y)) :=
  outer_near fine32 roundoff32 (twice_fits32 h1 h2).1 (twice_fits32 h1 h2).2 hq.1 hr.1
    (mul_le_mul hq.2 hr.2 (norm_nonneg _) ((norm_nonneg _).trans hq.2))

/-- **C112.**  The outer product of a quaternion with itself is exactly zero. -/
theorem C112_outer_self {q : Quat (Ieee φ)} (hφ : Fine φ) (hq : ∀ i, ((q * q).coords.data i).Finite) : QuatClose (q.outer q) 0 0 := by
  obtain ⟨f1, f2⟩ := halved_val hφ
  have H : ∀ i, ((q.outer q).coords.data i).Finite ∧ ((q.outer q).coords.data i).val = 0 := by
    intro i
    rw [Quat.outer, quat_scale_data, quat_sub_data]
    obtain ⟨s1, s2⟩ := self_sub (hq i)
    exact zero_mul_of s1 s2 f1
  refine ⟨fun i => (H i).1, le_of_eq ?_⟩
  rw [sub_zero, norm_eq_zero]
  exact quat_eq_zero fun i => by rw [fourOf_ieee]; exact (H i).2

/-- **C112.**  A quaternion times its conjugate, in either order, is real: the vector part is exactly zero, in every format, if nothing overflows. -/
theorem C112_conjugate_real {q : Quat (Ieee φ)} (h1 : ∀ i, ((q * q.conjugate).coords.data i).Finite) (h2 : ∀ i, ((q.conjugate * q).coords.data i).Finite) :
    ieeeQuat (q * q.conjugate) = (((q * q.conjugate).coords.data 0).val : ℍ[ℝ]) ∧ ieeeQuat (q.conjugate * q) = (((q.conjugate * q).coords.data 0).val : ℍ[ℝ]) := by
  have c0 : q.conjugate.coords.data 0 = q.coords.data 0 := rfl
  have c1 : (q.conjugate.coords.data 1).val = -(q.coords.data 1).val := Ieee.val_neg _
  have c2 : (q.conjugate.coords.data 2).val = -(q.coords.data 2).val := Ieee.val_neg _
  have c3 : (q.conjugate.coords.data 3).val = -(q.coords.data 3).val := Ieee.val_neg _
  obtain ⟨-, e1, e2, e3⟩ := quat_mul_ops q q.conjugate
  obtain ⟨-, d1, d2, d3⟩ := quat_mul_ops q.conjugate q
  have k1 := h1 1
  have k2 := h1 2
  have k3 := h1 3
  have l1 := h2 1
  have l2 := h2 2
  have l3 := h2 3
  rw [e1] at k1
  rw [e2] at k2
  rw [e3] at k3
  rw [d1] at l1
  rw [d2] at l2
  rw [d3] at l3
  constructor
  · ext
    · rfl
    · rw [ieeeQuat_imI, e1, Quaternion.imI_coe]; exact cancel_all k1 (by rw [c1, c0]; ring) (by rw [c2, c3]; ring)
    · rw [ieeeQuat_imJ, e2, Quaternion.imJ_coe]; exact cancel_all k2 (by rw [c2, c0]; ring) (by rw [c1, c3]; ring)
    · rw [ieeeQuat_imK, e3, Quaternion.imK_coe]; exact cancel_all k3 (by rw [c3, c0]; ring) (by rw [c2, c1]; ring)
  · ext
    · rfl
    · rw [ieeeQuat_imI, d1, Quaternion.imI_coe]; exact cancel_all l1 (by rw [c1, c0]; ring) (by rw [c2, c3]; ring)
    · rw [ieeeQuat_imJ, d2, Quaternion.imJ_coe]; exact cancel_all l2 (by rw [c2, c0]; ring) (by rw [c1, c3]; ring)
    · rw [ieeeQuat_imK, d3, Quaternion.imK_coe]; exact cancel_all l3 (by rw [c3, c0]; ring) (by rw [c2, c1]; ring)

/-- **C112.**  `f64`: a quaternion times its conjugate is real, and within 34 roundings of the square of the norm. -/
theorem C112_conjugate64 {q : Quat (Ieee f64)} (hq : ∀ i, (q.coords.data i).Finite) (h1 : (2 : ℝ) ^ (-500 : ℤ) ≤ ‖ieeeQuat q‖) (h2 : ‖ieeeQuat q‖ ≤ 2 ^ (499 : ℤ)) :
    (QuatClose (q * q.conjugate) ((‖ieeeQuat q‖ ^ 2 : ℝ) : ℍ[ℝ]) (34 * 2 ^ (-53 : ℤ) * ‖ieeeQuat q‖ ^ 2) ∧
      ieeeQuat (q * q.conjugate) = (((q * q.conjugate).coords.data 0).val : ℍ[ℝ])) ∧
    QuatClose (q.conjugate * q) ((‖ieeeQuat q‖ ^ 2 : ℝ) : ℍ[ℝ]) (34 * 2 ^ (-53 : ℤ) * ‖ieeeQuat q‖ ^ 2) ∧
      ieeeQuat (q.conjugate * q) = (((q.conjugate * q).coords.data 0).val : ℍ[ℝ]) := by
  have hp : (0 : ℝ) < 2 ^ (-500 : ℤ) := by positivity
  have c := (C111_conjugate hq).1
  have e : ieeeQuat q.conjugate = star (ieeeQuat q) := sub_eq_zero.mp (norm_le_zero_iff.mp c.2)
  have hA : Fits f64 (‖ieeeQuat q‖ ^ 2) := by
    refine (twice_fits64 ?_ ?_).1
    · calc (2 : ℝ) ^ (-1000 : ℤ) = 2 ^ (-500 : ℤ) * 2 ^ (-500 : ℤ) := by rw [← zpow_add₀ two_ne_zero]; norm_num
        _ ≤ ‖ieeeQuat q‖ ^ 2 := by rw [sq]; exact mul_le_mul h1 h1 hp.le (norm_nonneg _)
    · calc ‖ieeeQuat q‖ ^ 2 ≤ 2 ^ (499 : ℤ) * 2 ^ (499 : ℤ) := by rw [sq]; exact mul_le_mul h2 h2 (norm_nonneg _) (by positivity)
        _ = 2 ^ (998 : ℤ) := by rw [← zpow_add₀ two_ne_zero]; norm_num
        _ ≤ _ := zpow_le_zpow_right₀ one_le_two (by norm_num)
  have n : ‖ieeeQuat q.conjugate‖ = ‖ieeeQuat q‖ := by rw [e, norm_star]
  have p1 := quat_product_near roundoff64 hA hq c.1 (by rw [n, sq])
  have p2 := quat_product_near roundoff64 hA c.1 hq (by rw [n, sq])
  rw [e] at p1 p2
  rw [Quaternion.self_mul_star, Quaternion.normSq_eq_norm_mul_self, ← sq] at p1
  rw [Quaternion.star_mul_self, Quaternion.normSq_eq_norm_mul_self, ← sq] at p2
  obtain ⟨r1, r2⟩ := C112_conjugate_real p1.1 p2.1
  exact ⟨⟨p1, r1⟩, p2, r2⟩

/-- **C112.**  `f64`: interpolation by an amount of at most one in size; the amount zero gives the first quaternion exactly. -/
theorem C112_lerp64 {q r : Quat (Ieee f64)} {t : Ieee f64} (hq : QuatWithinNorm X q) (hr : QuatWithinNorm X r) (ht : t.Finite) (ht1 : |t.val| ≤ 1)
    (h1 : (2 : ℝ) ^ (-1000 : ℤ) ≤ X) (h2 : X ≤ 2 ^ (990 : ℤ)) :
    QuatClose (q.lerp r t) (ieeeQuat q + t.val • (ieeeQuat r - ieeeQuat q)) (50 * 2 ^ (-53 : ℤ) * X) ∧ ieeeQuat (q.lerp r 0) = ieeeQuat q := by
  have hp : (0 : ℝ) < X := lt_of_lt_of_le (by positivity) h1
  have hz : ∀ k : ℝ, 1 ≤ k → k ≤ 8 → Fits f64 (k * X) := fun k k1 k2 => room64 _ (h1.trans (le_mul_of_one_le_left hp.le k1)) (by
    calc k * X ≤ 8 * 2 ^ (990 : ℤ) := mul_le_mul k2 h2 hp.le (by norm_num)
      _ = 2 ^ (993 : ℤ) := by rw [show (8 : ℝ) = 2 ^ (3 : ℤ) by norm_num, ← zpow_add₀ two_ne_zero]; norm_num
      _ ≤ 2 ^ (1000 : ℤ) := zpow_le_zpow_right₀ one_le_two (by norm_num)
      _ = 2 * 2 ^ (999 : ℤ) := by rw [← zpow_one_add₀ two_ne_zero]; norm_num)
  refine ⟨quat_lerp_near roundoff64 hq hr ht ht1 (hz 2 (by norm_num) (by norm_num)) (hz 4 (by norm_num) (by norm_num)), ?_⟩
  have w : ∀ {p : Quat (Ieee f64)}, QuatWithinNorm X p → Within X p.coords := fun {p} h i => ⟨h.1 i, by
    have := (fourOf_le (ieeeQuat p) i).trans h.2
    rwa [fourOf_ieee] at this⟩
  have h := (C108_lerp64 (n := 4) (by norm_num) (w hq) (w hr) ht ht1 h1 h2).2
  rw [← quat_lerp_coords] at h
  ext
  exacts [congrFun h 0, congrFun h 1, congrFun h 2, congrFun h 3]

theorem C112_lerp32 {q r : Quat (Ieee f32)} {t : Ieee f32} (hq : QuatWithinNorm X q) (hr : QuatWithinNorm X r) (ht : t.Finite) (ht1 : |t.val| ≤ 1)
    (h1 : (2 : ℝ) ^ (-126 : ℤ) ≤ X) (h2 : X ≤ 2 ^ (116 : ℤ)) :
    QuatClose (q.lerp r t) (ieeeQuat q + t.val • (ieeeQuat r - ieeeQuat q)) (50 * 2 ^ (-24 : ℤ) * X) ∧ ieeeQuat (q.lerp r 0) = ieeeQuat q := by
  have hp : (0 : ℝ) < X := lt_of_lt_of_le (by positivity) h1
  have hz : ∀ k : ℝ, 1 ≤ k → k ≤ 8 → Fits f32 (k * X) := fun k k1 k2 => room32 _ (h1.trans (le_mul_of_one_le_left hp.le k1)) (by
    calc k * X ≤ 8 * 2 ^ (116 : ℤ) := mul_le_mul k2 h2 hp.le (by norm_num)
      _ = 2 ^ (119 : ℤ) := by rw [show (8 : ℝ) = 2 ^ (3 : ℤ) by norm_num, ← zpow_add₀ two_ne_zero]; norm_num
      _ ≤ 2 ^ (126 : ℤ) := zpow_le_zpow_right₀ one_le_two (by norm_num)
      _ = 2 * 2 ^ (125 : ℤ) := by rw [← zpow_one_add₀ two_ne_zero]; norm_num)
  refine ⟨quat_lerp_near roundoff32 hq hr ht ht1 (hz 2 (by norm_num) (by norm_num)) (hz 4 (by norm_num) (by norm_num)), ?_⟩
  have w : ∀ {p : Quat (Ieee f32)}, QuatWithinNorm X p → Within X p.coords := fun {p} h i => ⟨h.1 i, by
    have := (fourOf_le (ieeeQuat p) i).trans h.2
    rwa [fourOf_ieee] at this⟩
  have h := (C108_lerp32 (n := 4) (by norm_num) (w hq) (w hr) ht ht1 h1 h2).2
  rw [← quat_lerp_coords] at h
  ext
  exacts [congrFun h 0, congrFun h 1, congrFun h 2, congrFun h 3]

/-- **C112.**  `f64`: projections to the line through another quaternion, and what is left. -/
theorem C112_project64 {q r : Quat (Ieee f64)} (hq : QuatWithinNorm X q) (hr : ∀ i, (r.coords.data i).Finite) (r1 : (2 : ℝ) ^ (-490 : ℤ) ≤ ‖ieeeQuat r‖)
    (r2 : ‖ieeeQuat r‖ ≤ 2 ^ (490 : ℤ)) (h1 : (2 : ℝ) ^ (-490 : ℤ) ≤ X) (h2 : X ≤ 2 ^ (490 : ℤ)) :
    QuatClose (q.project r) (quatShadow (ieeeQuat q) (ieeeQuat r)) (160 * 2 ^ (-53 : ℤ) * X) ∧
    QuatClose (q.reject r) (ieeeQuat q - quatShadow (ieeeQuat q) (ieeeQuat r)) (170 * 2 ^ (-53 : ℤ) * X) := by
  have hp : (0 : ℝ) < X := lt_of_lt_of_le (by positivity) h1
  rw [ieeeQuat_norm] at r1 r2
  have h := quat_project_near (by positivity) (C108_project64 (n := 4) (by norm_num) ⟨hq.1, by rw [← ieeeQuat_norm]; exact hq.2⟩ hr r1 r2 h1 h2)
  have p := close_weaken h (f := 160 * 2 ^ (-53 : ℤ) * X) (le_of_eq (by push_cast; ring))
  have hu : (2 : ℝ) ^ (-53 : ℤ) ≤ 1 / 1000000 := by norm_num
  have hux := mul_le_mul_of_nonneg_right hu hp.le
  refine ⟨p, close_weaken (quat_reject_near roundoff64 hq (twice_fits64 ((zpow_le_zpow_right₀ one_le_two (by norm_num)).trans h1)
    (h2.trans (zpow_le_zpow_right₀ one_le_two (by norm_num)))).2 (by linarith) p) (le_of_eq ?_)⟩
  change _ + 10 * (2 : ℝ) ^ (-53 : ℤ) * X = _
  ring

theorem C112_project32 {q r : Quat (Ieee f32)} (hq : QuatWithinNorm X q) (hr : ∀ i, (r.coords.data i).Finite) (r1 : (2 : ℝ) ^ (-55 : ℤ) ≤ ‖ieeeQuat r‖)
    (r2 : ‖ieeeQuat r‖ ≤ 2 ^ (55 : ℤ)) (h1 : (2 : ℝ) ^ (-55 : ℤ) ≤ X) (h2 : X ≤ 2 ^ (55 : ℤ)) :
    QuatClose (q.project r) (quatShadow (ieeeQuat q) (ieeeQuat r)) (160 * 2 ^ (-24 : ℤ) * X) ∧
    QuatClose (q.reject r) (ieeeQuat q - quatShadow (ieeeQuat q) (ieeeQuat r)) (170 * 2 ^ (-24 : ℤ) * X) := by
  have hp : (0 : ℝ) < X := lt_of_lt_of_le (by positivity) h1
  rw [ieeeQuat_norm] at r1 r2
  have h := quat_project_near (by positivity) (C108_project32 (n := 4) (by norm_num) ⟨hq.1, by rw [← ieeeQuat_norm]; exact hq.2⟩ hr r1 r2 h1 h2)
  have p := close_weaken h (f := 160 * 2 ^ (-24 : ℤ) * X) (le_of_eq (by push_cast; ring))
  have hu : (2 : ℝ) ^ (-24 : ℤ) ≤ 1 / 1000000 := by norm_num
  have hux := mul_le_mul_of_nonneg_right hu hp.le
  refine ⟨p, close_weaken (quat_reject_near roundoff32 hq (twice_fits32 ((zpow_le_zpow_right₀ one_le_two (by norm_num)).trans h1)
    (h2.trans (zpow_le_zpow_right₀ one_le_two (by norm_num)))).2 (by linarith) p) (le_of_eq ?_)⟩
  change _ + 10 * (2 : ℝ) ^ (-24 : ℤ) * X = _
  ring

end

/-! ### the hypotheses can be met -/

theorem allOneQuat_within : QuatWithinNorm 2 allOneQuat := ⟨allOneQuat_finite, allOneQuat_norm.le⟩

theorem unitX_within : QuatWithinNorm 2 (Quat.new 0 1 0 0 : Quat (Ieee f64)) := by
  refine ⟨fun i => by fin_cases i; exacts [finite_zero, finite_one, finite_zero, finite_zero], ?_⟩
  rw [quaternion_norm_eq, vecNorm, Fin.sum_univ_four]
  change Real.sqrt ((0 : ℝ) ^ 2 + 1 ^ 2 + 0 ^ 2 + 0 ^ 2) ≤ 2
  norm_num

example := C112_inner64 allOneQuat_within unitX_within (small_range (by norm_num) (by norm_num)).1 (small_range (by norm_num) (by norm_num)).2
example := C112_outer64 allOneQuat_within unitX_within (small_range (by norm_num) (by norm_num)).1 (small_range (by norm_num) (by norm_num)).2
example := C112_lerp64 (t := 1) allOneQuat_within unitX_within finite_one (by rw [val_one]; norm_num) (small_range (by norm_num) (by norm_num)).1
  (two_le_zpow (by norm_num))
example := C112_project64 unitX_within allOneQuat_finite (by rw [allOneQuat_norm]; exact (zpow_le_one_of_nonpos₀ one_le_two (by norm_num)).trans one_le_two)
  (by rw [allOneQuat_norm]; exact two_le_zpow (by norm_num)) ((zpow_le_one_of_nonpos₀ one_le_two (by norm_num)).trans one_le_two) (two_le_zpow (by norm_num))

/-- the exact outer product of `1 + i + j + k` and `i` has the component one at `j` -/
example : ((1 / 2 : ℝ) • (ieeeQuat allOneQuat * ieeeQuat (Quat.new 0 1 0 0 : Quat (Ieee f64)) - ieeeQuat (Quat.new 0 1 0 0 : Quat (Ieee f64)) * ieeeQuat allOneQuat)).imJ = 1 := by
  rw [Quaternion.imJ_smul, Quaternion.imJ_sub, Quaternion.imJ_mul, Quaternion.imJ_mul]
  have z0 : (ieeeQuat (Quat.new 0 1 0 0 : Quat (Ieee f64))).re = 0 := rfl
  have z1 : (ieeeQuat (Quat.new 0 1 0 0 : Quat (Ieee f64))).imI = 1 := rfl
  have z2 : (ieeeQuat (Quat.new 0 1 0 0 : Quat (Ieee f64))).imJ = 0 := rfl
  have z3 : (ieeeQuat (Quat.new 0 1 0 0 : Quat (Ieee f64))).imK = 0 := rfl
  obtain ⟨a, b, c, d⟩ := allOneQuat_exact
  rw [z0, z1, z2, z3, a, b, c, d]
  norm_num

theorem allOneQuat_squared_finite (i) : ((allOneQuat * allOneQuat).coords.data i).Finite :=
  (C111_squared64 allOneQuat_finite (by rw [allOneQuat_norm]; exact (zpow_le_one_of_nonpos₀ one_le_two (by norm_num)).trans one_le_two)
    (by rw [allOneQuat_norm]; exact two_le_zpow (by norm_num))).1 i

example := C112_conjugate64 allOneQuat_finite (by rw [allOneQuat_norm]; exact (zpow_le_one_of_nonpos₀ one_le_two (by norm_num)).trans one_le_two)
  (by rw [allOneQuat_norm]; exact two_le_zpow (by norm_num))

example : QuatClose (allOneQuat.outer allOneQuat) 0 0 := C112_outer_self fine64 allOneQuat_squared_finite

end Cgl
