import Verif.Props.C69_SpecialValues
import Verif.Props.C66_FloatLaws
import Verif.Lemmas.Transform
import Verif.Props.C14_Transpose

/-! # C90 - transformations and their homogeneous matrices in IEEE arithmetic

Every transformation can be converted to a homogeneous matrix.  In IEEE arithmetic of any format, with overflow,
underflow, infinities and NaN, the matrix acts on finite points and vectors as the transformation does, bit for bit up to
the sign of zeros; and multiplying transformations multiplies their matrices. -/

namespace Cgl
open Ieee Mat

variable {φ : Format} {n : ℕ}

namespace Spec

/-- one of the two zeros -/
def IsZero (x : Ieee φ) : Prop := ∃ s h, x = fin s 0 h
/-- the same datum (NaN is the same as NaN), or two zeros with different signs -/
def Same (x y : Ieee φ) : Prop := x = y ∨ (IsZero x ∧ IsZero y)

end Spec
open Spec

namespace Homogeneous

theorem round_signed (s : Bool) (m : ℝ) (h : 0 ≤ m ∧ m ≤ φ.big ∧ φ.fl m = m) :
    round s (signed s m) = (fin s m h : Ieee φ) := by
  have ha : |signed s m| = m := by cases s <;> simp [signed, abs_of_nonneg h.1]
  unfold Ieee.round
  simp only [ha, h.2.2, h.2.1, dite_true]
  congr 1
  cases s <;> simp only [signed, Bool.false_eq_true, if_false, if_true]
  · split_ifs
    · rfl
    · simpa using h.1
  · split_ifs with h0
    · rfl
    · have : m ≠ 0 := fun e => h0 (by rw [e, neg_zero])
      simpa using lt_of_le_of_ne h.1 this.symm

/-- a non-zero value determines its sign -/
theorem round_signed' {s : Bool} {m : ℝ} (h : 0 ≤ m ∧ m ≤ φ.big ∧ φ.fl m = m) (hm : m ≠ 0) (s' : Bool) :
    round s' (signed s m) = (fin s m h : Ieee φ) := by
  rw [← round_signed s m h]
  have : signed s m ≠ 0 := by cases s <;> simpa [signed] using hm
  unfold Ieee.round
  simp only [this, if_false]

theorem round_isZero (s : Bool) : IsZero (round s 0 : Ieee φ) :=
  ⟨s, ⟨le_rfl, zero_le_one.trans φ.one_le_big, φ.zero⟩, by
    have := round_signed (φ := φ) s 0 ⟨le_rfl, zero_le_one.trans φ.one_le_big, φ.zero⟩
    rw [← this]
    cases s <;> simp [signed]⟩

theorem mul_one (x : Ieee φ) : x * 1 = x := by
  cases x with
  | nan => rfl
  | inf s =>
    change (if (1 : ℝ) = 0 then nan else inf (s ^^ false) : Ieee φ) = _
    simp
  | fin s m h =>
    change round (s ^^ false) (signed s m * signed false 1) = _
    rw [Bool.xor_false, signed, show signed false (1 : ℝ) = 1 from rfl, _root_.mul_one]
    exact round_signed s m h

theorem one_mul (x : Ieee φ) : 1 * x = x := by
  cases x with
  | nan => rfl
  | inf s =>
    change (if (1 : ℝ) = 0 then nan else inf (false ^^ s) : Ieee φ) = _
    simp
  | fin s m h =>
    change round (false ^^ s) (signed false 1 * signed s m) = _
    rw [Bool.false_xor, show signed false (1 : ℝ) = 1 from rfl, _root_.one_mul]
    exact round_signed s m h

theorem div_one (x : Ieee φ) : x / 1 = x := by
  cases x with
  | nan => rfl
  | inf s =>
    change (inf (s ^^ false) : Ieee φ) = _
    simp
  | fin s m h =>
    change (if (1 : ℝ) = 0 then _ else round (s ^^ false) (signed s m / signed false 1) : Ieee φ) = _
    rw [if_neg one_ne_zero, Bool.xor_false, show signed false (1 : ℝ) = 1 from rfl, _root_.div_one]
    exact round_signed s m h

theorem add_comm (x y : Ieee φ) : x + y = y + x := by
  cases x <;> cases y <;> first
    | rfl
    | (rename_i s t
       change (if s = t then inf s else nan : Ieee φ) = if t = s then inf t else nan
       by_cases h : s = t
       · subst h; rfl
       · rw [if_neg h, if_neg (Ne.symm h)])
    | (rename_i s m _ t k _
       change round (s && t) (signed s m + signed t k) = round (t && s) (signed t k + signed s m)
       rw [Bool.and_comm, _root_.add_comm])

theorem isZero_zero : IsZero (0 : Ieee φ) := ⟨_, _, rfl⟩

theorem mul_isZero {x z : Ieee φ} (hx : x.Finite) (hz : IsZero z) : IsZero (x * z) ∧ IsZero (z * x) := by
  obtain ⟨s, m, h, rfl⟩ := hx
  obtain ⟨t, h', rfl⟩ := hz
  constructor
  · change IsZero (round (s ^^ t) (signed s m * signed t 0))
    rw [show signed t 0 = 0 by cases t <;> simp [signed], mul_zero]
    exact round_isZero _
  · change IsZero (round (t ^^ s) (signed t 0 * signed s m))
    rw [show signed t 0 = 0 by cases t <;> simp [signed], zero_mul]
    exact round_isZero _

theorem add_isZero {x z : Ieee φ} (hx : IsZero x) (hz : IsZero z) : IsZero (x + z) := by
  obtain ⟨s, h, rfl⟩ := hx
  obtain ⟨t, h', rfl⟩ := hz
  change IsZero (round (s && t) (signed s 0 + signed t 0))
  rw [show signed s 0 = 0 by cases s <;> simp [signed], show signed t 0 = 0 by cases t <;> simp [signed], add_zero]
  exact round_isZero _

theorem same_refl (x : Ieee φ) : Same x x := .inl rfl
theorem same_symm {x y : Ieee φ} (h : Same x y) : Same y x := h.elim (fun h => .inl h.symm) fun h => .inr ⟨h.2, h.1⟩
theorem same_trans {x y z : Ieee φ} (h : Same x y) (h' : Same y z) : Same x z := by
  rcases h with rfl | h
  · exact h'
  · rcases h' with rfl | h'
    · exact .inr h
    · exact .inr ⟨h.1, h'.2⟩

theorem add_zero_same (x : Ieee φ) {z : Ieee φ} (hz : IsZero z) : Same (x + z) x := by
  obtain ⟨t, h', rfl⟩ := hz
  cases x with
  | nan => exact .inl rfl
  | inf s => exact .inl rfl
  | fin s m h =>
    have e : fin s m h + fin t 0 h' = (round (s && t) (signed s m) : Ieee φ) := by
      change round (s && t) (signed s m + signed t 0) = _
      rw [show signed t 0 = 0 by cases t <;> simp [signed], _root_.add_zero]
    by_cases hm : m = 0
    · subst hm
      refine .inr ⟨?_, _, _, rfl⟩
      rw [e, show signed s 0 = 0 by cases s <;> simp [signed]]
      exact round_isZero _
    · exact .inl (e.trans (round_signed' h hm _))

theorem zero_add_same (x : Ieee φ) {z : Ieee φ} (hz : IsZero z) : Same (z + x) x := by
  rw [add_comm]; exact add_zero_same x hz

theorem add_same {x y : Ieee φ} (h : Same x y) (z : Ieee φ) : Same (x + z) (y + z) := by
  rcases h with rfl | ⟨h1, h2⟩
  · exact same_refl _
  · exact same_trans (zero_add_same z h1) (same_symm (zero_add_same z h2))

/-- a sum of zeros -/
theorem loop_zero {f : Fin n → Ieee φ} (h : ∀ i, IsZero (f i)) : IsZero (forRange n 0 fun i acc => acc + f i) := by
  induction n with
  | zero => exact isZero_zero
  | succ n ih =>
    rw [forRange_succ]
    exact add_isZero (ih fun i => h i.castSucc) (h _)

/-- a sum with one term that need not be zero -/
theorem loop_single {f : Fin n → Ieee φ} (k : Fin n) (h : ∀ i, i ≠ k → IsZero (f i)) :
    Same (forRange n 0 fun i acc => acc + f i) (f k) := by
  induction n with
  | zero => exact k.elim0
  | succ n ih =>
    rw [forRange_succ]
    induction k using Fin.lastCases with
    | last => exact zero_add_same _ (loop_zero fun i => h _ (Fin.castSucc_lt_last i).ne)
    | cast k =>
      exact same_trans (add_zero_same _ (h _ (Fin.castSucc_lt_last k).ne'))
        (ih k fun i hi => h _ fun e => hi (Fin.castSucc_injective _ e))

/-- `M` is the homogeneous matrix with the linear part `A` and the translation `d` -/
structure Parts {S : Type*} [Zero S] [One S] (M : Mat S (n + 1) (n + 1)) (A : Mat S n n) (d : Vec S n) : Prop where
  linear : ∀ c r : Fin n, M.data c.castSucc r.castSucc = A.data c r
  translation : ∀ r : Fin n, M.data (Fin.last n) r.castSucc = d.data r
  bottom : ∀ c : Fin n, M.data c.castSucc (Fin.last n) = 0
  corner : M.data (Fin.last n) (Fin.last n) = 1

section
variable {S : Type*} [Zero S] [One S]

theorem parts_embed (A : Mat S n n) : Parts (embed n.lt_succ_self A) A 0 where
  linear c r := by rw [C27_entry]; simp
  translation r := by rw [C27_entry]; simp [(Fin.castSucc_lt_last r).ne']
  bottom c := by rw [C27_entry]; simp [(Fin.castSucc_lt_last c).ne]
  corner := by rw [C27_entry]; simp

theorem parts_translated {M : Mat S (n + 1) (n + 1)} {A : Mat S n n} {e : Vec S n} (h : Parts M A e) (d : Vec S n) :
    Parts (⟨forRange n M.data fun i result => set result (Fin.last n) i.castSucc (d.data i)⟩ : Mat S (n + 1) (n + 1)) A d := by
  have L := loop_positions n M.data (fun _ => Fin.last n) Fin.castSucc d.data (fun _ _ _ h => Fin.castSucc_injective _ h)
  have other : ∀ c r : Fin (n + 1), (c ≠ Fin.last n ∨ r = Fin.last n) →
      (forRange n M.data fun i result => set result (Fin.last n) i.castSucc (d.data i)) c r = M.data c r := by
    intro c r h
    apply L.2
    rintro i ⟨h1, h2⟩
    rcases h with h | h
    · exact h h1.symm
    · subst h; exact (Fin.castSucc_lt_last i).ne h2
  exact ⟨fun c r => (other _ _ (.inl (Fin.castSucc_lt_last c).ne)).trans (h.linear c r), fun r => L.1 r,
    fun c => (other _ _ (.inr rfl)).trans (h.bottom c), (other _ _ (.inr rfl)).trans h.corner⟩

theorem parts_identity : Parts (identity : Mat S (n + 1) (n + 1)) (identity : Mat S n n) 0 where
  linear c r := by simp
  translation r := by simp [(Fin.castSucc_lt_last r).ne']
  bottom c := by simp [(Fin.castSucc_lt_last c).ne]
  corner := by simp

theorem parts_rotation (t : Rotation S n) : Parts t.toTransform.matrix t.matrix 0 := parts_embed _
theorem parts_translation (t : Translation S n) : Parts t.toTransform.matrix identity t.vector :=
  parts_translated parts_identity _
theorem parts_isometry (t : Isometry S n) : Parts t.toTransform.matrix t.rotation.matrix t.translation.vector :=
  parts_translated (parts_embed _) _
theorem parts_similarity [Add S] [Mul S] (t : Similarity S n) :
    Parts t.toTransform.matrix (t.isometry.rotation.matrix * t.scale) t.isometry.translation.vector :=
  parts_translated (parts_embed _) _
theorem parts_scale (t : Scale S n) : Parts t.toTransform.matrix (fromDiagonal t.vector) 0 where
  linear c r := by
    change (fromAffineNonuniformScale t.vector).data _ _ = _
    by_cases h : c = r
    · subst h; rw [fromAffineNonuniformScale_diag]; simp
    · rw [fromAffineNonuniformScale_other _ _ _ (.inl fun e => h (Fin.castSucc_injective _ e))]
      simp [h]
  translation r := by
    change (fromAffineNonuniformScale t.vector).data _ _ = _
    rw [fromAffineNonuniformScale_other _ _ _ (.inr rfl)]
    simp [(Fin.castSucc_lt_last r).ne']
  bottom c := by
    change (fromAffineNonuniformScale t.vector).data _ _ = _
    rw [fromAffineNonuniformScale_other _ _ _ (.inl (Fin.castSucc_lt_last c).ne)]
    simp [(Fin.castSucc_lt_last c).ne]
  corner := by
    change (fromAffineNonuniformScale t.vector).data _ _ = _
    rw [fromAffineNonuniformScale_other _ _ _ (.inr rfl)]
    simp

end

variable {M N K : Mat (Ieee φ) (n + 1) (n + 1)} {A B P : Mat (Ieee φ) n n} {d e q : Vec (Ieee φ) n}

theorem zero_add_one {z : Ieee φ} (hz : IsZero z) : z + 1 = 1 := by
  rcases zero_add_same 1 hz with h | ⟨-, s, h, h'⟩
  · exact h
  · have : (1 : ℝ) = 0 := (Ieee.fin.inj h').2
    norm_num at this

/-- points -/
theorem apply_point (h : Parts M A d) (p : Pt (Ieee φ) n) (hp : ∀ i, (p.coords.data i).Finite) :
    (Transform.fromMatrixUnchecked M).applyPoint p = .ok ⟨A * p.coords + d⟩ := by
  have hw : (M * p.toHomogeneous).data (Fin.last n) = 1 := by
    rw [mulVec_entry, dotArrayCol, forRange_succ, h.corner]
    rw [Pt.toHomogeneous, Vec.extend_last, mul_one]
    refine zero_add_one (loop_zero fun i => ?_)
    rw [h.bottom, Vec.extend_castSucc]
    exact (mul_isZero (hp i) isZero_zero).2
  have hr : ∀ r : Fin n, (M * p.toHomogeneous).data r.castSucc = (A * p.coords + d).data r := by
    intro r
    rw [mulVec_entry, dotArrayCol, forRange_succ, h.translation, Pt.toHomogeneous, Vec.extend_last, mul_one, Vec.add_data,
      mulVec_entry, dotArrayCol]
    congr 1
    refine forRange_congr fun i s => ?_
    rw [h.linear, Vec.extend_castSucc]
  have hn : ((M * p.toHomogeneous).data (Fin.last n) != 0) = true := by
    have : ((1 : Ieee φ) == 0) = false := by
      rw [← Bool.not_eq_true, beq_iff]
      rintro ⟨a, h1, h2⟩
      rw [← h2] at h1
      have h3 : ((signed false 1 : ℝ) : EReal) = ((signed false 0 : ℝ) : EReal) := Option.some.inj h1
      have h4 : (1 : ℝ) = 0 := EReal.coe_injective h3
      norm_num at h4
    rw [hw, bne, this]; rfl
  have hf : (Pt.fromHomogeneous (M * p.toHomogeneous)) = some (⟨A * p.coords + d⟩ : Pt (Ieee φ) n) := by
    rw [Pt.fromHomogeneous, if_pos hn, forRange_update]
    congr 3
    funext r
    rw [hw, div_one, hr, Vec.add_data, forRange_update]
  change unwrap (Pt.fromHomogeneous (M * p.toHomogeneous)) = _
  rw [hf]; rfl

/-- vectors -/
theorem apply_vector (h : Parts M A d) (hd : ∀ i, (d.data i).Finite) (v : Vec (Ieee φ) n) (r : Fin n) :
    Same (((Transform.fromMatrixUnchecked M).applyVector v).data r) ((A * v).data r) := by
  change Same ((M * v.extend 0).contract.data r) _
  rw [Vec.contract_data, mulVec_entry, dotArrayCol, forRange_succ, h.translation, Vec.extend_last]
  refine same_trans (add_zero_same _ (mul_isZero (hd r) isZero_zero).1) (.inl ?_)
  rw [mulVec_entry, dotArrayCol]
  refine forRange_congr fun i s => ?_
  rw [h.linear, Vec.extend_castSucc]

/-- products -/
theorem product (hM : Parts M A d) (hN : Parts N B e) (hK : Parts K P q) (hd : ∀ i, (d.data i).Finite)
    (hB : ∀ c r, (B.data c r).Finite) (he : ∀ i, (e.data i).Finite) (hP : ∀ c r, Same (P.data c r) ((A * B).data c r))
    (hq : ∀ r, Same (q.data r) ((A * e).data r + d.data r)) (c r : Fin (n + 1)) :
    Same (K.data c r) ((M * N).data c r) := by
  rw [mul_entry, dotArrayCol, forRange_succ]
  induction c using Fin.lastCases with
  | last =>
    rw [hN.corner, mul_one]
    induction r using Fin.lastCases with
    | last =>
      rw [hK.corner, hM.corner, zero_add_one]
      · exact same_refl _
      · refine loop_zero fun i => ?_
        rw [hM.bottom, hN.translation]
        exact (mul_isZero (he i) isZero_zero).2
    | cast r =>
      rw [hK.translation, hM.translation]
      refine same_trans (hq r) (.inl ?_)
      rw [mulVec_entry, dotArrayCol]
      congr 1
      exact forRange_congr fun i s => by rw [hM.linear, hN.translation]
  | cast c =>
    rw [hN.bottom]
    induction r using Fin.lastCases with
    | last =>
      rw [hK.bottom, hM.corner, one_mul]
      refine .inr ⟨isZero_zero, add_isZero (loop_zero fun i => ?_) isZero_zero⟩
      rw [hM.bottom, hN.linear]
      exact (mul_isZero (hB c i) isZero_zero).2
    | cast r =>
      rw [hK.linear, hM.translation]
      refine same_trans (hP c r) (same_trans (.inl ?_) (same_symm (add_zero_same _ (mul_isZero (hd r) isZero_zero).1)))
      rw [mul_entry, dotArrayCol]
      exact forRange_congr fun i s => by rw [hM.linear, hN.linear]

theorem mul_identity (hA : ∀ c r, (A.data c r).Finite) (c r : Fin n) : Same (A.data c r) ((A * (identity : Mat (Ieee φ) n n)).data c r) := by
  rw [mul_entry, dotArrayCol]
  refine same_symm (same_trans (loop_single c fun i hi => ?_) (.inl ?_))
  · rw [identity_data, if_neg (Ne.symm hi)]; exact (mul_isZero (hA i r) isZero_zero).1
  · rw [identity_data, if_pos rfl, mul_one]

theorem identity_mul (hA : ∀ c r, (A.data c r).Finite) (c r : Fin n) : Same (A.data c r) (((identity : Mat (Ieee φ) n n) * A).data c r) := by
  rw [mul_entry, dotArrayCol]
  refine same_symm (same_trans (loop_single r fun i hi => ?_) (.inl ?_))
  · rw [identity_data, if_neg hi]; exact (mul_isZero (hA c i) isZero_zero).2
  · rw [identity_data, if_pos rfl, one_mul]

theorem identity_vec (hd : ∀ i, (d.data i).Finite) (r : Fin n) :
    Same (d.data r) (((identity : Mat (Ieee φ) n n) * d).data r) := by
  rw [mulVec_entry, dotArrayCol]
  refine same_symm (same_trans (loop_single r fun i hi => ?_) (.inl ?_))
  · rw [identity_data, if_neg hi]; exact (mul_isZero (hd i) isZero_zero).2
  · rw [identity_data, if_pos rfl, one_mul]

theorem diagonal_vec (s : Vec (Ieee φ) n) (hs : ∀ i, (d.data i).Finite) (r : Fin n) :
    Same (s.data r * d.data r) ((fromDiagonal s * d).data r) := by
  rw [mulVec_entry, dotArrayCol]
  refine same_symm (same_trans (loop_single r fun i hi => ?_) (.inl ?_))
  · rw [fromDiagonal_data, if_neg hi]; exact (mul_isZero (hs i) isZero_zero).2
  · rw [fromDiagonal_data, if_pos rfl]

theorem vec_zero (hA : ∀ c r, (A.data c r).Finite) (r : Fin n) : IsZero ((A * (0 : Vec (Ieee φ) n)).data r) := by
  rw [mulVec_entry, dotArrayCol]
  exact loop_zero fun i => (mul_isZero (hA i r) isZero_zero).1

end Homogeneous
open Homogeneous

namespace Spec
/-- every entry is a finite number -/
def AllFinite (A : Mat (Ieee φ) n n) : Prop := ∀ c r, (A.data c r).Finite
/-- every component is a finite number -/
def Ordinary (v : Vec (Ieee φ) n) : Prop := ∀ i, (v.data i).Finite
/-- the two transforms have the same matrix, up to the signs of zeros -/
def SameMatrix (t u : Transform (Ieee φ) n) : Prop := ∀ c r, Same (t.matrix.data c r) (u.matrix.data c r)
/-- the same components, up to the signs of zeros -/
def SameVec (v w : Vec (Ieee φ) n) : Prop := ∀ i, Same (v.data i) (w.data i)
end Spec

/-! ### the matrix does what the transformation does -/

/-- Isometries: bit for bit, signs of zeros included; even when the isometry contains infinities or NaN. -/
theorem C90_isometry_point (t : Isometry (Ieee φ) n) (p : Pt (Ieee φ) n) (hp : Ordinary p.coords) :
    t.toTransform.applyPoint p = .ok (t.applyPoint p) :=
  apply_point (parts_isometry t) p hp

theorem C90_isometry_vector (t : Isometry (Ieee φ) n) (ht : Ordinary t.translation.vector) (v : Vec (Ieee φ) n) :
    SameVec (t.toTransform.applyVector v) (t.applyVector v) :=
  apply_vector (parts_isometry t) ht v

theorem C90_rotation_point (t : Rotation (Ieee φ) n) (p : Pt (Ieee φ) n) (hp : Ordinary p.coords) :
    ∃ q, t.toTransform.applyPoint p = .ok q ∧ SameVec q.coords (t.applyPoint p).coords := by
  refine ⟨_, apply_point (parts_rotation t) p hp, fun i => ?_⟩
  rw [Vec.add_data]
  exact add_zero_same _ isZero_zero

theorem C90_rotation_vector (t : Rotation (Ieee φ) n) (v : Vec (Ieee φ) n) :
    SameVec (t.toTransform.applyVector v) (t.applyVector v) :=
  apply_vector (parts_rotation t) (fun _ => finite_zero) v

theorem C90_translation_point (t : Translation (Ieee φ) n) (p : Pt (Ieee φ) n) (hp : Ordinary p.coords) :
    ∃ q, t.toTransform.applyPoint p = .ok q ∧ SameVec q.coords (t.applyPoint p).coords := by
  refine ⟨_, apply_point (parts_translation t) p hp, fun i => ?_⟩
  rw [Vec.add_data]
  change Same _ ((p.coords + t.vector).data i)
  rw [Vec.add_data]
  exact add_same (same_symm (identity_vec hp i)) _

theorem C90_translation_vector (t : Translation (Ieee φ) n) (ht : Ordinary t.vector) (v : Vec (Ieee φ) n) (hv : Ordinary v) :
    SameVec (t.toTransform.applyVector v) (t.applyVector v) := fun i =>
  same_trans (apply_vector (parts_translation t) ht v i) (same_symm (identity_vec hv i))

theorem C90_scale_point (t : Scale (Ieee φ) n) (p : Pt (Ieee φ) n) (hp : Ordinary p.coords) :
    ∃ q, t.toTransform.applyPoint p = .ok q ∧ SameVec q.coords (t.applyPoint p).coords := by
  refine ⟨_, apply_point (parts_scale t) p hp, fun i => ?_⟩
  rw [Vec.add_data]
  refine same_trans (add_zero_same _ isZero_zero) (same_trans (same_symm (diagonal_vec t.vector hp i)) (.inl ?_))
  rw [Scale.applyPoint, forRange_update]

theorem C90_scale_vector (t : Scale (Ieee φ) n) (v : Vec (Ieee φ) n) (hv : Ordinary v) :
    SameVec (t.toTransform.applyVector v) (t.applyVector v) := fun i => by
  refine same_trans (apply_vector (parts_scale t) (fun _ => finite_zero) v i)
    (same_trans (same_symm (diagonal_vec t.vector hv i)) (.inl ?_))
  rw [Scale.applyVector, forRange_update]

/-! ### multiplying transformations multiplies their matrices -/

theorem C90_isometry_product (t u : Isometry (Ieee φ) n) (ht : Ordinary t.translation.vector)
    (hu : AllFinite u.rotation.matrix) (hu' : Ordinary u.translation.vector) :
    SameMatrix (t * u).toTransform (t.toTransform * u.toTransform) :=
  product (parts_isometry t) (parts_isometry u) (parts_isometry (t * u)) ht hu hu' (fun _ _ => same_refl _) fun r => by
    change Same ((t.translation.vector + t.rotation.matrix * u.translation.vector).data r) _
    rw [Vec.add_data, add_comm]
    exact same_refl _

theorem C90_rotation_product (t u : Rotation (Ieee φ) n) (ht : AllFinite t.matrix) (hu : AllFinite u.matrix) :
    SameMatrix (t * u).toTransform (t.toTransform * u.toTransform) :=
  product (parts_rotation t) (parts_rotation u) (parts_rotation (t * u)) (fun _ => finite_zero) hu (fun _ => finite_zero)
    (fun _ _ => same_refl _) fun r => .inr ⟨isZero_zero, add_isZero (vec_zero ht r) isZero_zero⟩

theorem identity_finite (c r : Fin n) : ((identity : Mat (Ieee φ) n n).data c r).Finite := by
  rw [identity_data]; split_ifs
  · exact finite_one
  · exact finite_zero

theorem C90_translation_product (t u : Translation (Ieee φ) n) (ht : Ordinary t.vector) (hu : Ordinary u.vector) :
    SameMatrix (t * u).toTransform (t.toTransform * u.toTransform) :=
  product (parts_translation t) (parts_translation u) (parts_translation (t * u)) ht identity_finite hu
    (mul_identity identity_finite) fun r => by
    change Same ((t.vector + u.vector).data r) _
    rw [Vec.add_data, add_comm]
    exact add_same (identity_vec hu r) _

theorem C90_rotation_translation (t : Rotation (Ieee φ) n) (u : Translation (Ieee φ) n) (ht : AllFinite t.matrix)
    (hu : Ordinary u.vector) : SameMatrix (t * u).toTransform (t.toTransform * u.toTransform) :=
  product (parts_rotation t) (parts_translation u) (parts_isometry (t * u)) (fun _ => finite_zero) identity_finite hu
    (mul_identity ht) fun _ => same_symm (add_zero_same _ isZero_zero)

theorem C90_translation_rotation (t : Translation (Ieee φ) n) (u : Rotation (Ieee φ) n) (ht : Ordinary t.vector)
    (hu : AllFinite u.matrix) : SameMatrix (t * u).toTransform (t.toTransform * u.toTransform) :=
  product (parts_translation t) (parts_rotation u) (parts_isometry (t * u)) ht hu (fun _ => finite_zero)
    (identity_mul hu) fun r => same_symm (zero_add_same _ (vec_zero identity_finite r))

theorem C90_isometry_translation (t : Isometry (Ieee φ) n) (u : Translation (Ieee φ) n) (ht : AllFinite t.rotation.matrix)
    (ht' : Ordinary t.translation.vector) (hu : Ordinary u.vector) :
    SameMatrix (t * u).toTransform (t.toTransform * u.toTransform) :=
  product (parts_isometry t) (parts_translation u) (parts_isometry (t * u)) ht' identity_finite hu (mul_identity ht)
    fun r => by
    change Same ((t.translation.vector + t.rotation.matrix * u.vector).data r) _
    rw [Vec.add_data, add_comm]
    exact same_refl _

theorem C90_translation_isometry (t : Translation (Ieee φ) n) (u : Isometry (Ieee φ) n) (ht : Ordinary t.vector)
    (hu : AllFinite u.rotation.matrix) (hu' : Ordinary u.translation.vector) :
    SameMatrix (t * u).toTransform (t.toTransform * u.toTransform) :=
  product (parts_translation t) (parts_isometry u) (parts_isometry (t * u)) ht hu hu' (identity_mul hu) fun r => by
    change Same ((t.vector + u.translation.vector).data r) _
    rw [Vec.add_data, add_comm]
    exact add_same (identity_vec hu' r) _

theorem C90_isometry_rotation (t : Isometry (Ieee φ) n) (u : Rotation (Ieee φ) n) (ht : AllFinite t.rotation.matrix)
    (ht' : Ordinary t.translation.vector) (hu : AllFinite u.matrix) :
    SameMatrix (t * u).toTransform (t.toTransform * u.toTransform) :=
  product (parts_isometry t) (parts_rotation u) (parts_isometry (t * u)) ht' hu (fun _ => finite_zero)
    (fun _ _ => same_refl _) fun r => same_symm (zero_add_same _ (vec_zero ht r))

theorem C90_rotation_isometry (t : Rotation (Ieee φ) n) (u : Isometry (Ieee φ) n)
    (hu : AllFinite u.rotation.matrix) (hu' : Ordinary u.translation.vector) :
    SameMatrix (t * u).toTransform (t.toTransform * u.toTransform) :=
  product (parts_rotation t) (parts_isometry u) (parts_isometry (t * u)) (fun _ => finite_zero) hu hu'
    (fun _ _ => same_refl _) fun _ => same_symm (add_zero_same _ isZero_zero)

theorem C90_scale_product (t u : Scale (Ieee φ) n) (ht : Ordinary t.vector) (hu : Ordinary u.vector) :
    SameMatrix (t * u).toTransform (t.toTransform * u.toTransform) := by
  have fd : ∀ (s : Vec (Ieee φ) n), Ordinary s → AllFinite (fromDiagonal s) := fun s hs c r => by
    rw [fromDiagonal_data]; split_ifs
    · exact hs _
    · exact finite_zero
  refine product (parts_scale t) (parts_scale u) (parts_scale (t * u)) (fun _ => finite_zero) (fd _ hu) (fun _ => finite_zero)
    (fun c r => ?_) fun r => .inr ⟨isZero_zero, add_isZero (vec_zero (fd _ ht) r) isZero_zero⟩
  refine same_symm ?_
  rw [mul_entry, dotArrayCol]
  refine same_trans (loop_single r fun i hi => ?_) ?_
  · rw [fromDiagonal_data, if_neg hi]
    exact (mul_isZero (fd _ hu c i) isZero_zero).2
  · rw [fromDiagonal_data, if_pos rfl, fromDiagonal_data, fromDiagonal_data]
    by_cases h : c = r
    · subst h
      rw [if_pos rfl, if_pos rfl]
      refine .inl ?_
      change _ = (t.vector.componentMul u.vector).data c
      rw [Vec.componentMul_data]
    · rw [if_neg h, if_neg h]
      exact .inr ⟨(mul_isZero (ht r) isZero_zero).1, isZero_zero⟩

/-- the identities all have the identity matrix -/
theorem C90_identity : (Isometry.identity : Isometry (Ieee φ) n).toTransform = Transform.identity ∧
    (Rotation.identity : Rotation (Ieee φ) n).toTransform = Transform.identity ∧
    (Translation.identity : Translation (Ieee φ) n).toTransform = Transform.identity ∧
    (Scale.identity : Scale (Ieee φ) n).toTransform = Transform.identity ∧
    (Similarity.identity : Similarity (Ieee φ) n).toTransform = Transform.identity := by
  have key : ∀ (t : Transform (Ieee φ) n) (d : Vec (Ieee φ) n), Parts t.matrix identity d → (∀ i, d.data i = 0) →
      t = Transform.identity := by
    intro t d h hd
    ext c r
    change _ = (identity : Mat (Ieee φ) (n + 1) (n + 1)).data c r
    rw [identity_data]
    induction c using Fin.lastCases with
    | last =>
      induction r using Fin.lastCases with
      | last => simp [h.corner]
      | cast r => simp [h.translation, hd, (Fin.castSucc_lt_last r).ne']
    | cast c =>
      induction r using Fin.lastCases with
      | last => simp [h.bottom, (Fin.castSucc_lt_last c).ne]
      | cast r => simp [h.linear]
  refine ⟨key _ _ (parts_isometry _) fun _ => rfl, key _ _ (parts_rotation _) fun _ => rfl,
    key _ _ (parts_translation _) fun _ => rfl, ?_, ?_⟩
  · refine key _ _ (?_ : Parts _ _ 0) fun _ => rfl
    have h := parts_scale (Scale.identity : Scale (Ieee φ) n)
    have e : fromDiagonal (Scale.identity : Scale (Ieee φ) n).vector = identity := by
      ext c r
      rw [fromDiagonal_data, identity_data]
      simp [Scale.identity, Scale.fromScale]
    rwa [e] at h
  · have h := parts_similarity (Similarity.identity : Similarity (Ieee φ) n)
    have e : (Similarity.identity : Similarity (Ieee φ) n).isometry.rotation.matrix *
        (Similarity.identity : Similarity (Ieee φ) n).scale = identity := by
      ext c r
      change ((identity : Mat (Ieee φ) n n) * (1 : Ieee φ)).data c r = _
      rw [mulS_data, Homogeneous.mul_one]
    rw [e] at h
    exact key _ _ h fun _ => rfl

/-! ### isometries as similarities -/

theorem vec_mul_one (v : Vec (Ieee φ) n) : v * (1 : Ieee φ) = v := by
  ext i; rw [Vec.mulS_data, mul_one]
theorem vec_div_one (v : Vec (Ieee φ) n) : v / (1 : Ieee φ) = v := by
  ext i; rw [Vec.divS_data, div_one]
theorem mat_mul_one (A : Mat (Ieee φ) n n) : A * (1 : Ieee φ) = A := by
  ext c r; rw [mulS_data, mul_one]

/-- An isometry made into a similarity computes bit for bit what the isometry computes, whatever it contains. -/
theorem C90_from_isometry (t u : Isometry (Ieee φ) n) (p : Pt (Ieee φ) n) (v : Vec (Ieee φ) n) :
    (Similarity.fromIsometry t).applyPoint p = t.applyPoint p ∧
    (Similarity.fromIsometry t).applyVector v = t.applyVector v ∧
    (Similarity.fromIsometry t).inverseApplyPoint p = t.inverseApplyPoint p ∧
    (Similarity.fromIsometry t).inverseApplyVector v = t.inverseApplyVector v ∧
    (Similarity.fromIsometry t).inverse = .ok (Similarity.fromIsometry t.inverse) ∧
    Similarity.fromIsometry t * u = Similarity.fromIsometry (t * u) ∧
    Similarity.fromIsometry t * Similarity.fromIsometry u = Similarity.fromIsometry (t * u) ∧
    (Similarity.fromIsometry t).toTransform = t.toTransform := by
  have hm : Similarity.fromIsometry t * u = Similarity.fromIsometry (t * u) := by
    change Similarity.fromParts (.fromVector (t.translation.vector + t.rotation.applyVector u.translation.vector * (1 : Ieee φ)))
      (t.rotation * u.rotation) 1 = _
    rw [vec_mul_one]; rfl
  refine ⟨?_, ?_, ?_, ?_, ?_, hm, ?_, ?_⟩
  · change t.applyPoint ⟨p.coords * (1 : Ieee φ)⟩ = _
    rw [vec_mul_one]
  · change t.applyVector (v * (1 : Ieee φ)) = _
    rw [vec_mul_one]
  · change (⟨(t.inverseApplyPoint p).coords / (1 : Ieee φ)⟩ : Pt (Ieee φ) n) = _
    rw [vec_div_one]
  · change t.inverseApplyVector v / (1 : Ieee φ) = _
    rw [vec_div_one]
  · have hi : t.inverseMut = .ok t.inverse := by
      unfold Isometry.inverseMut Rotation.inverseMut
      rw [C14_transpose_mut]
      change Except.ok _ = _
      congr 1
      unfold Isometry.inverse
      have : t.translation.vector.negMut = -t.translation.vector := by ext i; simp
      simp only [Translation.inverseMut, this]
      rfl
    have h11 : (1 : Ieee φ) / 1 = 1 := div_one 1
    change t.inverseMut.map _ = _
    rw [hi]
    change Except.ok _ = _
    have : ∀ w : Vec (Ieee φ) n, w.mulAssign 1 = w := fun w => by ext i; rw [Vec.mulAssign_data, mul_one]
    simp only [Similarity.fromIsometry, h11, this]
  · change (⟨(Similarity.fromIsometry t * u).isometry, (Similarity.fromIsometry t * u).scale * 1⟩ : Similarity (Ieee φ) n) = _
    rw [hm, Homogeneous.mul_one]
  · change Transform.fromMatrixUnchecked _ = Transform.fromMatrixUnchecked _
    simp only [Similarity.toAffineMatrix, Similarity.fromIsometry, mat_mul_one]
    rfl

/-! ### where the matrix and the transformation part company -/

theorem zero_mul_not_finite {x : Ieee φ} (h : ¬x.Finite) : (0 : Ieee φ) * x = nan := by
  cases x with
  | nan => exact mul_nan _
  | inf s => change (if (0 : ℝ) = 0 then _ else _) = _; simp
  | fin s m hm => exact absurd (finite_fin _ _ _) h

theorem point_nan {M : Mat (Ieee φ) (n + 1) (n + 1)} {A : Mat (Ieee φ) n n} {d : Vec (Ieee φ) n} (h : Parts M A d)
    (p : Pt (Ieee φ) n) (i : Fin n) (hi : ¬(p.coords.data i).Finite) :
    (Transform.fromMatrixUnchecked M).applyPoint p = .ok ⟨⟨fun _ => nan⟩⟩ := by
  have hw : (M * p.toHomogeneous).data (Fin.last n) = nan := by
    rw [mulVec_entry, dotArrayCol]
    refine (Shows.loop (x := nan) 0 (fun k => M.data k (Fin.last n) * p.toHomogeneous.data k) i.castSucc ?_).1 rfl
    change Shows (M.data i.castSucc (Fin.last n) * (p.coords.extend 1).data i.castSucc) nan
    rw [h.bottom, Vec.extend_castSucc, zero_mul_not_finite hi]
    exact Shows.refl _
  have hn : ((M * p.toHomogeneous).data (Fin.last n) != 0) = true := by
    have : ((nan : Ieee φ) == 0) = false := by rw [← Bool.not_eq_true]; exact nan_ne_zero
    rw [hw, bne, this]; rfl
  have hf : Pt.fromHomogeneous (M * p.toHomogeneous) = some ⟨⟨fun _ => nan⟩⟩ := by
    rw [Pt.fromHomogeneous, if_pos hn, forRange_update]
    congr 3
    funext j
    rw [hw, div_nan]
  change unwrap (Pt.fromHomogeneous (M * p.toHomogeneous)) = _
  rw [hf]; rfl

/-- A homogeneous matrix turns every coordinate into NaN as soon as one coordinate of the point is infinite or NaN:
its last row adds zero times every coordinate. -/
theorem C90_infinite_point (p : Pt (Ieee φ) n) (i : Fin n) (hi : ¬(p.coords.data i).Finite) :
    (∀ t : Isometry (Ieee φ) n, t.toTransform.applyPoint p = .ok ⟨⟨fun _ => nan⟩⟩) ∧
    (∀ t : Rotation (Ieee φ) n, t.toTransform.applyPoint p = .ok ⟨⟨fun _ => nan⟩⟩) ∧
    (∀ t : Translation (Ieee φ) n, t.toTransform.applyPoint p = .ok ⟨⟨fun _ => nan⟩⟩) ∧
    (∀ t : Scale (Ieee φ) n, t.toTransform.applyPoint p = .ok ⟨⟨fun _ => nan⟩⟩) ∧
    (∀ t : Similarity (Ieee φ) n, t.toTransform.applyPoint p = .ok ⟨⟨fun _ => nan⟩⟩) :=
  ⟨fun t => point_nan (parts_isometry t) p i hi, fun t => point_nan (parts_rotation t) p i hi,
    fun t => point_nan (parts_translation t) p i hi, fun t => point_nan (parts_scale t) p i hi,
    fun t => point_nan (parts_similarity t) p i hi⟩

/-- So on points that are not finite the two differ: the identity translation leaves `(∞, 0)` alone, its matrix turns
both coordinates into NaN. -/
theorem C90_infinite_fails : ∃ p : Pt (Ieee φ) 2, p.coords.data 0 = inf false ∧ p.coords.data 1 = 0 ∧
    (Translation.identity : Translation (Ieee φ) 2).applyPoint p = p ∧
    (Translation.identity : Translation (Ieee φ) 2).toTransform.applyPoint p = .ok ⟨⟨fun _ => nan⟩⟩ := by
  refine ⟨⟨Vec.new2 (inf false) 0⟩, rfl, rfl, ?_, ?_⟩
  · apply Pt.ext_data
    intro i
    change (Vec.new2 (inf false) 0 + (0 : Vec (Ieee φ) 2)).data i = _
    rw [Vec.add_data]
    fin_cases i
    · rfl
    · exact zero_add_zero
  · exact (C90_infinite_point _ 0 fun h => by simp [Ieee.Finite] at h).2.2.1 _

/-- A similarity scales before it rotates and its matrix does not. When the scaling overflows, `apply_point` returns NaN
in coordinates that the matrix gets right: here the point is `(x, 0)` and `x` times the scale overflows. -/
theorem C90_similarity_overflow (s x : Ieee φ) (hs : s.Finite) (hx : x.Finite) (ho : ¬(x * s).Finite) :
    ((Similarity.fromScale s : Similarity (Ieee φ) 2).applyPoint ⟨Vec.new2 x 0⟩).coords.data 1 = nan ∧
    ∃ q, (Similarity.fromScale s : Similarity (Ieee φ) 2).toTransform.applyPoint ⟨Vec.new2 x 0⟩ = .ok q ∧
      IsZero (q.coords.data 1) := by
  constructor
  · change ((0 : Ieee φ) + 0 * (x * s) + 1 * (0 * s)) + 0 = nan
    rw [zero_mul_not_finite ho, add_nan, nan_add, nan_add]
  · refine ⟨_, apply_point (parts_similarity _) _ fun i => ?_, ?_⟩
    · fin_cases i
      · exact hx
      · exact finite_zero
    · change IsZero (((0 : Ieee φ) + (0 * s) * x + (1 * s) * 0) + 0)
      have h0 : IsZero ((0 : Ieee φ) * s) := (mul_isZero hs isZero_zero).2
      refine add_isZero (add_isZero (add_isZero isZero_zero (mul_isZero hx h0).2) ?_) isZero_zero
      rw [Homogeneous.one_mul]
      exact (mul_isZero hs isZero_zero).1

theorem big64_square : ¬(pow64 600 (by norm_num) * pow64 600 (by norm_num)).Finite := by
  have haa : pow64 600 (by norm_num) * pow64 600 (by norm_num) = inf false := by
    change Ieee.round (false ^^ false) (signed false (2 ^ (600 : ℤ)) * signed false (2 ^ (600 : ℤ))) = _
    have e : (2 : ℝ) ^ (600 : ℤ) * 2 ^ (600 : ℤ) = 2 ^ (1200 : ℤ) := by rw [← zpow_add₀ two_ne_zero]; norm_num
    simp only [Ieee.round, signed, Bool.false_eq_true, if_false, e]
    have hp : (0 : ℝ) < 2 ^ (1200 : ℤ) := by positivity
    rw [dif_neg]
    · simp [hp.ne', hp.le]
    · rw [abs_of_pos hp, fl64_two_zpow (by norm_num), not_le]
      have h4 : f64.big = (2 ^ 53 - 1) * 2 ^ 971 := rfl
      have h5 : (2 : ℝ) ^ (1200 : ℤ) = 2 ^ 229 * 2 ^ 971 := by
        rw [show (1200 : ℤ) = ((229 + 971 : ℕ) : ℤ) by norm_num, zpow_natCast, pow_add]
      rw [h4, h5]
      exact mul_lt_mul_of_pos_right (by norm_num) (by positivity)
  rw [haa]
  intro h
  simp [Ieee.Finite] at h

/-- In `f64`: scaling by `2^600` and the point `(2^600, 0)`. -/
theorem C90_similarity_overflow_fails : ∃ (t : Similarity (Ieee f64) 2) (p : Pt (Ieee f64) 2), Ordinary p.coords ∧
    t.scale.Finite ∧ (t.applyPoint p).coords.data 1 = nan ∧
    ∃ q, t.toTransform.applyPoint p = .ok q ∧ IsZero (q.coords.data 1) := by
  refine ⟨.fromScale (pow64 600 (by norm_num)), ⟨Vec.new2 (pow64 600 (by norm_num)) 0⟩, fun i => ?_, finite_fin _ _ _,
    C90_similarity_overflow _ _ (finite_fin _ _ _) (finite_fin _ _ _) big64_square⟩
  fin_cases i
  · exact finite_fin _ _ _
  · exact finite_zero

/-! ### the hypotheses can be met -/

/-- the identity isometry is made of finite numbers -/
example : Ordinary (Isometry.identity : Isometry (Ieee φ) n).translation.vector ∧
    AllFinite (Isometry.identity : Isometry (Ieee φ) n).rotation.matrix := ⟨fun _ => finite_zero, identity_finite⟩

/-- a large point, a large translation and a matrix that is no rotation: the two still agree bit for bit -/
example : (Isometry.mk ⟨fromDiagonal (Vec.new2 (pow64 1000 (by norm_num)) 1)⟩ ⟨Vec.new2 1 (pow64 (-1000) (by norm_num))⟩
      : Isometry (Ieee f64) 2).toTransform.applyPoint ⟨Vec.new2 (pow64 900 (by norm_num)) 1⟩ =
    .ok ((Isometry.mk ⟨fromDiagonal (Vec.new2 (pow64 1000 (by norm_num)) 1)⟩
      ⟨Vec.new2 1 (pow64 (-1000) (by norm_num))⟩ : Isometry (Ieee f64) 2).applyPoint
        ⟨Vec.new2 (pow64 900 (by norm_num)) 1⟩) :=
  C90_isometry_point _ _ fun i => by
    fin_cases i
    · exact finite_fin _ _ _
    · exact finite_one

/-- two different zeros and nothing else are the same without being equal -/
example (x y : Ieee φ) (h : Same x y) (hx : ¬IsZero x) : x = y := h.resolve_right fun h' => hx h'.1

end Cgl
