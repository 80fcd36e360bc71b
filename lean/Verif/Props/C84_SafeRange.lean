import Verif.Props.C67_Ieee
import Verif.Lemmas.Grid

/-! # C84 - where lengths and directions are safe from overflow and underflow

`C67` bounds the error of a norm when nothing underflows, or of a result that is known to be finite; `C69` shows
vectors whose norm overflows or vanishes.  Here the range in which neither matters is made explicit: for finite
components, whatever they are, a length between `2 ^ -499` and `2 ^ 510` (`f64`) makes every intermediate result
finite and the underflow of small components harmless. -/

namespace Cgl
open Ieee Finset

variable {φ : Format} {n : ℕ}

namespace Spec

/-- the exact length of the vector of numbers that the components stand for -/
noncomputable def length (v : Vec (Ieee φ) n) : ℝ := Real.sqrt (∑ i, (v.data i).val ^ 2)

/-- The computed norm is a finite number within `k` roundings of the exact length; so the computed normalized vector
is finite, its components are within `k + 3` roundings of those of the exact direction, plus the rounding of a
subnormal number, and its length is within `k + 4` roundings of one. -/
def LengthAndDirection [FloatFns (Ieee φ)] (k : ℕ) (v : Vec (Ieee φ) n) : Prop :=
  v.norm.Finite ∧ |v.norm.val - length v| ≤ k * φ.u * length v ∧
  (∀ i, (v.normalize.data i).Finite ∧ |(v.normalize.data i).val - (v.data i).val / length v| ≤
    (k + 3) * φ.u * |(v.data i).val / length v| + φ.tiny) ∧
  |length v.normalize - 1| ≤ (k + 4) * φ.u

end Spec

/-! ### results that do not overflow -/

theorem finite_round {s : Bool} {x : ℝ} (h : φ.fl |x| ≤ φ.big) : (Ieee.round s x : Ieee φ).Finite := by
  unfold Ieee.round
  simp only [dif_pos h]
  exact finite_fin _ _ _

theorem fl_abs (ρ : Rounding) (x : ℝ) : ρ.fl |x| = |ρ.fl x| := by
  rcases le_total 0 x with h | h
  · rw [abs_of_nonneg h, abs_of_nonneg (ρ.nonneg h)]
  · rw [abs_of_nonpos h, ρ.neg, abs_of_nonpos]
    have := ρ.mono x 0 h
    rwa [ρ.zero] at this

theorem finite_add_of {x y : Ieee φ} (hx : x.Finite) (hy : y.Finite) (h : |φ.fl (x.val + y.val)| ≤ φ.big) :
    (x + y).Finite := by
  obtain ⟨s, m, hm, rfl⟩ := hx
  obtain ⟨t, k, hk, rfl⟩ := hy
  exact finite_round (by rw [fl_abs]; exact h)

theorem finite_mul_of {x y : Ieee φ} (hx : x.Finite) (hy : y.Finite) (h : |φ.fl (x.val * y.val)| ≤ φ.big) :
    (x * y).Finite := by
  obtain ⟨s, m, hm, rfl⟩ := hx
  obtain ⟨t, k, hk, rfl⟩ := hy
  exact finite_round (by rw [fl_abs]; exact h)

theorem finite_div_of {x y : Ieee φ} (hx : x.Finite) (hy : y.Finite) (h0 : y.val ≠ 0)
    (h : |φ.fl (x.val / y.val)| ≤ φ.big) : (x / y).Finite := by
  obtain ⟨s, m, hm, rfl⟩ := hx
  obtain ⟨t, k, hk, rfl⟩ := hy
  have hk0 : k ≠ 0 := by
    rintro rfl; exact h0 (by cases t <;> simp [Ieee.val, signed])
  change (if k = 0 then (if m = 0 then nan else inf (s ^^ t)) else Ieee.round (s ^^ t) (signed s m / signed t k) :
    Ieee φ).Finite
  rw [if_neg hk0]
  exact finite_round (by rw [fl_abs]; exact h)

theorem finite_sqrt_of {x : Ieee φ} (hx : x.Finite) (h0 : 0 ≤ x.val) (h : |φ.fl (Real.sqrt x.val)| ≤ φ.big) :
    x.sqrt.Finite := by
  obtain ⟨s, m, hm, rfl⟩ := hx
  simp only [Ieee.sqrt]
  split_ifs with h1 h2
  · exact finite_fin _ _ _
  · subst h2
    have : (fin true m hm : Ieee φ).val = -m := rfl
    rw [this] at h0
    exact absurd (le_antisymm (by linarith) hm.1) h1
  · refine finite_round ?_
    rw [fl_abs]
    simpa [Ieee.val, signed, h2] using h

/-- A sum of nonnegative terms that is finite at the end is finite all along. -/
theorem loop_finite {n : ℕ} (f : Fin n → Ieee φ) (g : Fin n → Fl φ.toRounding) (h0 : ∀ i, 0 ≤ (g i).val)
    (hf : ∀ i, (g i).val ≤ φ.big → (f i).Finite) (ha : ∀ i, Agrees (f i) (g i))
    (hs : (forRange n 0 fun i s => s + g i : Fl φ.toRounding).val ≤ φ.big) :
    (forRange n (0 : Ieee φ) fun i s => s + f i).Finite ∧ 0 ≤ (forRange n 0 fun i s => s + g i : Fl φ.toRounding).val := by
  induction n with
  | zero => exact ⟨by simpa using finite_zero, by rw [forRange_zero]; exact le_rfl⟩
  | succ n ih =>
    rw [forRange_succ] at hs
    rw [forRange_succ, forRange_succ]
    set t : Fl φ.toRounding := forRange n 0 fun i s => s + g i.castSucc with htd
    have hnn : 0 ≤ t.val := by
      rw [htd]
      clear hs htd t ih hf ha
      induction n with
      | zero => rw [forRange_zero]; exact le_rfl
      | succ n ih =>
        rw [forRange_succ]
        exact φ.nonneg (add_nonneg (ih (fun i => f i.castSucc) (fun i => g i.castSucc) fun i => h0 _) (h0 _))
    have e : (t + g (Fin.last n)).val = φ.fl (t.val + (g (Fin.last n)).val) := rfl
    rw [e] at hs
    have h1 : t.val ≤ φ.big := by
      refine le_trans ?_ hs
      conv_lhs => rw [← t.rep]
      exact φ.mono _ _ (by linarith [h0 (Fin.last n)])
    have h2 : (g (Fin.last n)).val ≤ φ.big := by
      refine le_trans ?_ hs
      conv_lhs => rw [← (g (Fin.last n)).rep]
      exact φ.mono _ _ (by linarith)
    have ht := ih (fun i => f i.castSucc) (fun i => g i.castSucc) (fun i => h0 _) (fun i => hf _) (fun i => ha _) h1
    have hl := hf _ h2
    have ea := Agrees.loop (fun i => f i.castSucc) (fun i => g i.castSucc) (fun i => ha _) ht.1
    refine ⟨finite_add_of ht.1 hl ?_, ?_⟩
    · rw [ea, ha _ hl, abs_of_nonneg (φ.nonneg (add_nonneg hnn (h0 _)))]; exact hs
    · rw [e]; exact φ.nonneg (add_nonneg hnn (h0 _))

theorem norm_squared_finite (v : Vec (Ieee φ) n) (hv : ∀ i, (v.data i).Finite)
    (h : ((v.map toFl).dot (v.map toFl)).val ≤ φ.big) : (v.dot v).Finite := by
  refine (loop_finite (fun i => v.data i * v.data i) _ (fun i => ?_) (fun i hi => ?_) (fun i => ?_) h).1
  · simp only [Vec.map_data]; exact φ.nonneg (mul_self_nonneg _)
  · simp only [Vec.map_data] at hi
    refine finite_mul_of (hv i) (hv i) ?_
    rw [abs_of_nonneg (φ.nonneg (mul_self_nonneg _))]; exact hi
  · simp only [Vec.map_data]; agrees

/-! ### the error bounds with underflow -/

theorem pow_sub_one_le {u : ℝ} (hu : 0 ≤ u) (hn : 4 * ((n : ℝ) + 4) ^ 2 * u ≤ 1) : (1 + u) ^ n - 1 ≤ (n + 1 / 2) * u := by
  have hn0 : (0 : ℝ) ≤ n := Nat.cast_nonneg n
  have h1 : (n : ℝ) * u ≤ 1 := by nlinarith
  have h2 : (1 + u) ^ n ≤ Real.exp (n * u) := by
    rw [Real.exp_nat_mul]
    exact pow_le_pow_left₀ (by linarith) (by linarith [Real.add_one_le_exp u]) n
  have h3 := Real.abs_exp_sub_one_sub_id_le (x := n * u) (by rw [abs_of_nonneg (by positivity)]; exact h1)
  have h4 := (abs_le.mp h3).2
  have h5 : ((n : ℝ) * u) ^ 2 ≤ u / 2 := by nlinarith [mul_nonneg hn0 hu, mul_nonneg (mul_nonneg hn0 hu) hu]
  linarith

/-- What makes a length `q` safe for the format `φ` in dimension `n`; `lo` is the least normal number. -/
structure Safe (φ : Format) (n : ℕ) (lo q : ℝ) : Prop where
  normal : ∀ x, lo ≤ |x| → |φ.fl x - x| ≤ φ.u * |x|
  dim : 4 * ((n : ℝ) + 4) ^ 2 * φ.u ≤ 1
  pos : 0 < q
  squares : 8 * n * φ.tiny ≤ φ.u * q ^ 2
  tiny : n * φ.tiny ≤ φ.u
  root : 2 * lo ≤ q
  recip : 2 * lo * q ≤ 1
  over : 4 * q ^ 2 ≤ φ.big
  over_recip : 2 ≤ q * φ.big
  two : 2 ≤ φ.big

section
variable {lo : ℝ} [Lib φ] (v : Vec (Ieee φ) n) (hv : ∀ i, (v.data i).Finite)
include hv

omit [Lib φ] in
theorem safe_norm_squared (hs : Safe φ n lo (Spec.length v)) :
    v.normSquared.Finite ∧ |v.normSquared.val - Spec.length v ^ 2| ≤ (n + 1) * φ.u * Spec.length v ^ 2 := by
  have hu := φ.u_nonneg
  have hS : 0 ≤ ∑ i, (v.data i).val ^ 2 := sum_nonneg fun _ _ => sq_nonneg _
  have hq2 : Spec.length v ^ 2 = ∑ i, (v.data i).val ^ 2 := Real.sq_sqrt hS
  have hd := C67_dot (v.map toFl) (v.map toFl)
  simp only [Vec.map_data, toFl, ← sq, sq_abs] at hd
  change |((v.map toFl).dot (v.map toFl)).val - _| ≤ _ at hd
  rw [← hq2] at hd
  have h1 := pow_sub_one_le hu hs.dim
  have hn0 : (0 : ℝ) ≤ n := Nat.cast_nonneg n
  have h2 : (1 + φ.u) ^ n ≤ 2 := by nlinarith [hs.dim]
  have ht := φ.tiny_nonneg
  have hbound : ((1 + φ.u) ^ n - 1) * Spec.length v ^ 2 + 2 * n * (1 + φ.u) ^ n * φ.tiny ≤
      (n + 1) * φ.u * Spec.length v ^ 2 := by
    have a1 : ((1 + φ.u) ^ n - 1) * Spec.length v ^ 2 ≤ (n + 1 / 2) * φ.u * Spec.length v ^ 2 :=
      mul_le_mul_of_nonneg_right h1 (sq_nonneg _)
    have a2 : 2 * n * (1 + φ.u) ^ n * φ.tiny ≤ 2 * n * 2 * φ.tiny := by gcongr
    have a3 := hs.squares
    linarith
  have hd' := hd.trans hbound
  have hle : ((v.map toFl).dot (v.map toFl)).val ≤ φ.big := by
    have := (abs_le.mp hd').2
    have b1 : ((n : ℝ) + 1) * φ.u ≤ 1 := by nlinarith [hs.dim]
    have b2 : ((n : ℝ) + 1) * φ.u * Spec.length v ^ 2 ≤ 1 * Spec.length v ^ 2 :=
      mul_le_mul_of_nonneg_right b1 (sq_nonneg _)
    have := hs.over
    linarith [sq_nonneg (Spec.length v)]
  have hf := norm_squared_finite v hv hle
  refine ⟨hf, ?_⟩
  have e := C67_ieee_dot v v hf
  change |(v.dot v).val - _| ≤ _
  rw [e]; exact hd'

theorem safe_norm (hs : Safe φ n lo (Spec.length v)) :
    v.norm.Finite ∧ |v.norm.val - Spec.length v| ≤ (n + 3) * φ.u * Spec.length v := by
  obtain ⟨hf, he⟩ := safe_norm_squared v hv hs
  have hu := φ.u_nonneg
  have hn0 : (0 : ℝ) ≤ n := Nat.cast_nonneg n
  have hq := hs.pos
  have hsq : Real.sqrt (Spec.length v ^ 2) = Spec.length v := Real.sqrt_sq hq.le
  have h1 := sqrt_error (sq_nonneg _) he
  rw [hsq] at h1
  have hb : ((n : ℝ) + 1) * φ.u ≤ 1 / 16 := by nlinarith [hs.dim]
  set q := Spec.length v
  set r := Real.sqrt v.normSquared.val with hr
  have h2 : ((n : ℝ) + 1) * φ.u * q ≤ 1 / 16 * q := mul_le_mul_of_nonneg_right hb hq.le
  obtain ⟨h3, h4⟩ := abs_le.mp h1
  have hr0 : 0 ≤ r := Real.sqrt_nonneg _
  have h5 := hs.normal r (by rw [abs_of_nonneg hr0]; linarith [hs.root])
  rw [abs_of_nonneg hr0] at h5
  have hu1 : φ.u ≤ 1 / 16 := by nlinarith [hs.dim]
  have h6 : φ.u * r ≤ φ.u * (q + (n + 1) * φ.u * q) := mul_le_mul_of_nonneg_left (by linarith) hu
  have h7 : |φ.fl r - q| ≤ (n + 3) * φ.u * q := by
    have e1 : |φ.fl r - q| ≤ |φ.fl r - r| + |r - q| := abs_sub_le _ _ _
    have e2 : φ.u * ((n + 1) * φ.u * q) ≤ φ.u * (1 / 16 * q) := mul_le_mul_of_nonneg_left h2 hu
    have e3 : 0 ≤ φ.u * q := by positivity
    nlinarith
  have hpos : 0 ≤ v.normSquared.val := by
    have : ((n : ℝ) + 1) * φ.u * q ^ 2 ≤ 1 / 16 * q ^ 2 := mul_le_mul_of_nonneg_right hb (sq_nonneg _)
    linarith [(abs_le.mp he).1, sq_nonneg q]
  have hbig : |φ.fl r| ≤ φ.big := by
    rw [abs_of_nonneg (φ.nonneg hr0)]
    have : φ.fl r ≤ 2 * q := by
      have := (abs_le.mp h7).2
      have : ((n : ℝ) + 3) * φ.u * q ≤ 1 * q := mul_le_mul_of_nonneg_right (by nlinarith [hs.dim]) hq.le
      linarith
    refine this.trans ?_
    rcases le_total (2 * q) 1 with h | h
    · exact h.trans φ.one_le_big
    · nlinarith [hs.over]
  have hfin : v.norm.Finite := by
    change (fsqrt v.normSquared).Finite
    rw [Lib.sqrt_eq]; exact finite_sqrt_of hf hpos hbig
  refine ⟨hfin, ?_⟩
  have e : v.norm.val = φ.fl r := by
    change (fsqrt v.normSquared).Finite at hfin
    change (fsqrt v.normSquared).val = _
    rw [Lib.sqrt_eq] at hfin ⊢
    exact (val_sqrt hfin).1
  rw [e]; exact h7

/-- the reciprocal of the computed norm -/
theorem safe_recip (hs : Safe φ n lo (Spec.length v)) :
    (1 / v.norm).Finite ∧ |(1 / v.norm).val * Spec.length v - 1| ≤ (n + 9 / 2) * φ.u := by
  obtain ⟨hf, he⟩ := safe_norm v hv hs
  have hu := φ.u_nonneg
  have hn0 : (0 : ℝ) ≤ n := Nat.cast_nonneg n
  have hq := hs.pos
  set q := Spec.length v
  set N := v.norm.val
  have hdim := hs.dim
  have ha : ((n : ℝ) + 3) * φ.u ≤ 1 / 16 := by nlinarith
  have ha' : ((n : ℝ) + 3) * φ.u * q ≤ 1 / 16 * q := mul_le_mul_of_nonneg_right ha hq.le
  obtain ⟨h1, h2⟩ := abs_le.mp he
  have hN : 0 < N := by linarith
  have hu1 : φ.u ≤ 1 / 64 := by
    have : (16 : ℝ) ≤ (n + 4) ^ 2 := by nlinarith
    nlinarith
  have hinv : 0 < 1 / N := by positivity
  have hlo : lo ≤ |1 / N| := by
    rw [abs_of_pos hinv, le_div_iff₀ hN]
    rcases le_total lo 0 with h | h
    · nlinarith
    · nlinarith [hs.recip]
  have h3 := hs.normal _ hlo
  rw [abs_of_pos hinv] at h3
  have hval : |φ.fl (1 / N) * q - 1| ≤ (n + 9 / 2) * φ.u := by
    set R := φ.fl (1 / N)
    have hqN : |1 / N * q - 1| ≤ (n + 3) * φ.u * (q / N) := by
      have : 1 / N * q - 1 = (q - N) / N := by field_simp
      rw [this, abs_div, abs_of_pos hN, mul_div_assoc', abs_sub_comm]
      exact div_le_div_of_nonneg_right he hN.le
    have hqN2 : q / N ≤ 1 + 2 * ((n + 3) * φ.u) := by
      rw [div_le_iff₀ hN]
      have e1 : q - (n + 3) * φ.u * q ≤ N := by linarith
      have e2 : 0 ≤ (n + 3) * φ.u := by positivity
      have e3 : 0 ≤ q * (((n + 3) * φ.u) * (1 - 2 * ((n + 3) * φ.u))) :=
        mul_nonneg hq.le (mul_nonneg e2 (by linarith))
      nlinarith
    have e4 : |R * q - 1| ≤ |R - 1 / N| * q + |1 / N * q - 1| := by
      have : R * q - 1 = (R - 1 / N) * q + (1 / N * q - 1) := by ring
      rw [this]
      refine (abs_add_le _ _).trans ?_
      rw [abs_mul, abs_of_pos hq]
    have e5 : |R - 1 / N| * q ≤ φ.u * (1 / N) * q := mul_le_mul_of_nonneg_right h3 hq.le
    have e6 : φ.u * (1 / N) * q = φ.u * (q / N) := by ring
    have e7 : (n + 4) * φ.u * (q / N) ≤ (n + 4) * φ.u * (1 + 2 * ((n + 3) * φ.u)) := by gcongr
    have e8 : ((n : ℝ) + 4) * φ.u * (2 * ((n + 3) * φ.u)) ≤ 1 / 2 * φ.u := by
      have : ((n : ℝ) + 4) * φ.u * (2 * ((n + 3) * φ.u)) = 2 * ((n + 4) * (n + 3) * φ.u) * φ.u := by ring
      rw [this]
      refine mul_le_mul_of_nonneg_right ?_ hu
      nlinarith
    linarith
  have hbig : |φ.fl (1 / N)| ≤ φ.big := by
    rw [abs_of_nonneg (φ.nonneg hinv.le)]
    have h4 := (abs_le.mp hval).2
    have h5 : φ.fl (1 / N) * q ≤ 2 := by nlinarith
    have h6 := hs.over_recip
    by_contra hc
    push Not at hc
    nlinarith
  have hfin : (1 / v.norm).Finite := finite_div_of finite_one hf hN.ne' (by rw [val_one]; exact hbig)
  refine ⟨hfin, ?_⟩
  rw [(val_div hfin hf).1, val_one]; exact hval

theorem safe_normalize (hs : Safe φ n lo (Spec.length v)) (i : Fin n) :
    (v.normalize.data i).Finite ∧ |(v.normalize.data i).val - (v.data i).val / Spec.length v| ≤
      (n + 6) * φ.u * |(v.data i).val / Spec.length v| + φ.tiny := by
  obtain ⟨hf, he⟩ := safe_recip v hv hs
  have hu := φ.u_nonneg
  have hn0 : (0 : ℝ) ≤ n := Nat.cast_nonneg n
  have hq := hs.pos
  have hx1 : |(v.data i).val / Spec.length v| ≤ 1 := by
    rw [abs_div, abs_of_pos hq, div_le_one hq]
    refine Real.abs_le_sqrt ?_
    exact single_le_sum (f := fun i => (v.data i).val ^ 2) (fun i _ => sq_nonneg _) (mem_univ i)
  set q := Spec.length v
  set x := (v.data i).val / q with hxd
  set R := (1 / v.norm).val
  have hdim := hs.dim
  have hxe : (v.data i).val * R = x * (R * q) := by rw [hxd]; field_simp
  have hb : ((n : ℝ) + 9 / 2) * φ.u ≤ 1 / 8 := by nlinarith
  have h1 := φ.err ((v.data i).val * R)
  have h2 : |(v.data i).val * R| ≤ |x| * (9 / 8) := by
    rw [hxe, abs_mul]
    refine mul_le_mul_of_nonneg_left ?_ (abs_nonneg _)
    obtain ⟨a, b⟩ := abs_le.mp he
    rw [abs_le]; constructor <;> linarith
  have h3 : |(v.data i).val * R - x| ≤ |x| * ((n + 9 / 2) * φ.u) := by
    have : (v.data i).val * R - x = x * (R * q - 1) := by rw [hxe]; ring
    rw [this, abs_mul]
    exact mul_le_mul_of_nonneg_left he (abs_nonneg _)
  have h4 : φ.u * |(v.data i).val * R| ≤ φ.u * (|x| * (9 / 8)) := mul_le_mul_of_nonneg_left h2 hu
  have hval : |φ.fl ((v.data i).val * R) - x| ≤ (n + 6) * φ.u * |x| + φ.tiny := by
    have e1 := abs_sub_le (φ.fl ((v.data i).val * R)) ((v.data i).val * R) x
    have e2 : 0 ≤ φ.u * |x| := mul_nonneg hu (abs_nonneg _)
    nlinarith
  have htiny : φ.tiny ≤ 1 / 64 := by
    have hn1 : (1 : ℝ) ≤ n := by
      have : 1 ≤ n := by have := i.2; omega
      exact_mod_cast this
    have := hs.tiny
    nlinarith [φ.tiny_nonneg]
  have hbig : |φ.fl ((v.data i).val * R)| ≤ φ.big := by
    have e1 : |φ.fl ((v.data i).val * R)| ≤ |φ.fl ((v.data i).val * R) - x| + |x| := by
      have := abs_add_le (φ.fl ((v.data i).val * R) - x) x
      rwa [sub_add_cancel] at this
    have e2 : ((n : ℝ) + 6) * φ.u ≤ 1 / 2 := by nlinarith
    have e3 : ((n : ℝ) + 6) * φ.u * |x| ≤ 1 / 2 * 1 := mul_le_mul e2 hx1 (abs_nonneg _) (by norm_num)
    linarith [hs.two]
  have e : v.normalize.data i = v.data i * (1 / v.norm) := by simp [Vec.normalize]
  rw [e]
  have hfin := finite_mul_of (hv i) hf hbig
  refine ⟨hfin, ?_⟩
  rw [val_mul hfin]; exact hval

theorem safe (hs : Safe φ n lo (Spec.length v)) : Spec.LengthAndDirection (n + 3) v := by
  obtain ⟨hf, he⟩ := safe_norm v hv hs
  have hc := safe_normalize v hv hs
  refine ⟨hf, by push_cast; exact he, fun i => ⟨(hc i).1, by push_cast; convert (hc i).2 using 4; ring⟩, ?_⟩
  have hu := φ.u_nonneg
  have ht := φ.tiny_nonneg
  have hn0 : (0 : ℝ) ≤ n := Nat.cast_nonneg n
  have hq := hs.pos
  have hS : 0 ≤ ∑ i, (v.data i).val ^ 2 := sum_nonneg fun _ _ => sq_nonneg _
  have hq2 : Spec.length v ^ 2 = ∑ i, (v.data i).val ^ 2 := Real.sq_sqrt hS
  let x : EuclideanSpace ℝ (Fin n) := WithLp.toLp 2 fun i => (v.normalize.data i).val
  let y : EuclideanSpace ℝ (Fin n) := WithLp.toLp 2 fun i => (v.data i).val / Spec.length v
  have hx : Spec.length v.normalize = ‖x‖ := by
    rw [EuclideanSpace.norm_eq]; simp [x, Spec.length]
  have hy : ‖y‖ = 1 := by
    rw [EuclideanSpace.norm_eq]; simp only [Real.norm_eq_abs, sq_abs, y, div_pow]
    rw [← sum_div, ← hq2, div_self (by positivity), Real.sqrt_one]
  let d : EuclideanSpace ℝ (Fin n) := WithLp.toLp 2 fun i => ((n + 6) * φ.u) * |(v.data i).val / Spec.length v|
  let t : EuclideanSpace ℝ (Fin n) := WithLp.toLp 2 fun _ => φ.tiny
  have hd : ‖d‖ = (n + 6) * φ.u := by
    have hk : 0 ≤ ((n : ℝ) + 6) * φ.u := by positivity
    have : ‖d‖ = ‖((n + 6) * φ.u) • y‖ := by
      rw [EuclideanSpace.norm_eq, EuclideanSpace.norm_eq]
      simp only [d, y, Real.norm_eq_abs, sq_abs, PiLp.smul_apply, smul_eq_mul, mul_pow, div_pow, sq_abs]
    rw [this, norm_smul, hy, mul_one, Real.norm_eq_abs, abs_of_nonneg hk]
  have htn : ‖t‖ ≤ n * φ.tiny := by
    rw [EuclideanSpace.norm_eq]
    simp only [t, Real.norm_eq_abs, sq_abs, sum_const, card_univ, Fintype.card_fin, nsmul_eq_mul]
    refine Real.sqrt_le_iff.mpr ⟨by positivity, ?_⟩
    rw [mul_pow]
    refine mul_le_mul_of_nonneg_right ?_ (sq_nonneg _)
    have : n ≤ n ^ 2 := Nat.le_self_pow two_ne_zero n
    exact_mod_cast this
  have hxy : ‖x - y‖ ≤ ‖d + t‖ := by
    rw [EuclideanSpace.norm_eq, EuclideanSpace.norm_eq]
    refine Real.sqrt_le_sqrt (sum_le_sum fun i _ => ?_)
    refine pow_le_pow_left₀ (norm_nonneg _) ?_ 2
    refine ((hc i).2).trans (le_abs_self _)
  rw [hx, ← hy]
  refine (abs_norm_sub_norm_le x y).trans (hxy.trans ((norm_add_le _ _).trans ?_))
  rw [hd]
  have := hs.tiny
  push_cast
  linarith
end

/-! ### the formats -/

theorem normal64 (x : ℝ) (h : (2 : ℝ) ^ (-1022 : ℤ) ≤ |x|) : |f64.fl x - x| ≤ f64.u * |x| :=
  Rounding.flEven_err_normal (p := 53) (qmin := some (-1074)) h (by simp)
theorem normal32 (x : ℝ) (h : (2 : ℝ) ^ (-126 : ℤ) ≤ |x|) : |f32.fl x - x| ≤ f32.u * |x| :=
  Rounding.flEven_err_normal (p := 24) (qmin := some (-149)) h (by simp)

theorem safe64 {q : ℝ} (hn : n ≤ 2 ^ 20) (hlo : (2 : ℝ) ^ (-499 : ℤ) ≤ q) (hhi : q ≤ 2 ^ (510 : ℤ)) :
    Safe f64 n (2 ^ (-1022 : ℤ)) q := by
  have hu : f64.u = 2 ^ (-53 : ℤ) := rfl
  have ht : f64.tiny = 2 ^ (-1075 : ℤ) := rfl
  have hq : 0 < q := lt_of_lt_of_le (by positivity) hlo
  have hn' : (n : ℝ) ≤ 2 ^ (20 : ℤ) := by exact_mod_cast hn
  have hn2 : (n : ℝ) ≤ 1048576 := by norm_num at hn'; exact_mod_cast hn'
  have hn0 : (0 : ℝ) ≤ n := Nat.cast_nonneg n
  have hb := two_zpow_le_big (k := 1023) le_rfl
  have z : ∀ a b : ℤ, (2 : ℝ) ^ a * 2 ^ b = 2 ^ (a + b) := fun a b => (zpow_add₀ two_ne_zero a b).symm
  have le : ∀ {a b : ℤ}, a ≤ b → (2 : ℝ) ^ a ≤ 2 ^ b := fun h => zpow_le_zpow_right₀ one_le_two h
  refine ⟨normal64, ?_, hq, ?_, ?_, ?_, ?_, ?_, ?_, ?_⟩
  · rw [hu]
    have : (4 : ℝ) * (n + 4) ^ 2 ≤ 2 ^ (53 : ℤ) := by
      have : (n : ℝ) + 4 ≤ 2 ^ 20 + 4 := by norm_num; linarith
      calc (4 : ℝ) * (n + 4) ^ 2 ≤ 4 * (2 ^ 20 + 4) ^ 2 := by gcongr
        _ ≤ _ := by norm_num
    calc (4 : ℝ) * (n + 4) ^ 2 * 2 ^ (-53 : ℤ) ≤ 2 ^ (53 : ℤ) * 2 ^ (-53 : ℤ) :=
          mul_le_mul_of_nonneg_right this (by positivity)
      _ = 1 := by rw [z]; norm_num
  · rw [hu, ht]
    calc (8 : ℝ) * n * 2 ^ (-1075 : ℤ) ≤ 2 ^ (3 : ℤ) * 2 ^ (20 : ℤ) * 2 ^ (-1075 : ℤ) :=
          mul_le_mul_of_nonneg_right (by norm_num; linarith) (by positivity)
      _ = 2 ^ (-1052 : ℤ) := by rw [z, z]; norm_num
      _ ≤ 2 ^ (-53 : ℤ) * (2 ^ (-499 : ℤ)) ^ 2 := by rw [sq, z, z]; exact le (by norm_num)
      _ ≤ _ := by gcongr
  · rw [hu, ht]
    calc (n : ℝ) * 2 ^ (-1075 : ℤ) ≤ 2 ^ (20 : ℤ) * 2 ^ (-1075 : ℤ) := mul_le_mul_of_nonneg_right hn' (by positivity)
      _ ≤ _ := by rw [z]; exact le (by norm_num)
  · calc (2 : ℝ) * 2 ^ (-1022 : ℤ) = 2 ^ (1 : ℤ) * 2 ^ (-1022 : ℤ) := by rw [zpow_one]
      _ ≤ 2 ^ (-499 : ℤ) := by rw [z]; exact le (by norm_num)
      _ ≤ q := hlo
  · calc (2 : ℝ) * 2 ^ (-1022 : ℤ) * q ≤ 2 ^ (1 : ℤ) * 2 ^ (-1022 : ℤ) * 2 ^ (510 : ℤ) := by
          rw [zpow_one]; gcongr
      _ ≤ 2 ^ (0 : ℤ) := by rw [z, z]; exact le (by norm_num)
      _ = 1 := zpow_zero _
  · calc (4 : ℝ) * q ^ 2 ≤ 2 ^ (2 : ℤ) * (2 ^ (510 : ℤ)) ^ 2 := by
          rw [show (2 : ℝ) ^ (2 : ℤ) = 4 by norm_num]; gcongr
      _ ≤ 2 ^ (1023 : ℤ) := by rw [sq, z, z]; exact le (by norm_num)
      _ ≤ _ := hb
  · calc (2 : ℝ) = 2 ^ (1 : ℤ) := (zpow_one _).symm
      _ ≤ 2 ^ (-499 : ℤ) * 2 ^ (1023 : ℤ) := by rw [z]; exact le (by norm_num)
      _ ≤ _ := by gcongr
  · calc (2 : ℝ) = 2 ^ (1 : ℤ) := (zpow_one _).symm
      _ ≤ 2 ^ (1023 : ℤ) := le (by norm_num)
      _ ≤ _ := hb

theorem two_zpow_le_big32 : (2 : ℝ) ^ (127 : ℤ) ≤ f32.big := by
  have h4 : f32.big = (2 ^ 24 - 1) * 2 ^ 104 := rfl
  rw [h4]; norm_num

theorem safe32 {q : ℝ} (hn : n ≤ 1000) (hlo : (2 : ℝ) ^ (-56 : ℤ) ≤ q) (hhi : q ≤ 2 ^ (62 : ℤ)) :
    Safe f32 n (2 ^ (-126 : ℤ)) q := by
  have hu : f32.u = 2 ^ (-24 : ℤ) := rfl
  have ht : f32.tiny = 2 ^ (-150 : ℤ) := rfl
  have hq : 0 < q := lt_of_lt_of_le (by positivity) hlo
  have hn' : (n : ℝ) ≤ 1000 := by exact_mod_cast hn
  have hn0 : (0 : ℝ) ≤ n := Nat.cast_nonneg n
  have hb := two_zpow_le_big32
  refine ⟨normal32, ?_, hq, ?_, ?_, ?_, ?_, ?_, ?_, ?_⟩
  · rw [hu]
    calc (4 : ℝ) * (n + 4) ^ 2 * 2 ^ (-24 : ℤ) ≤ 4 * (1000 + 4) ^ 2 * 2 ^ (-24 : ℤ) := by gcongr
      _ ≤ 1 := by norm_num
  · rw [hu, ht]
    calc (8 : ℝ) * n * 2 ^ (-150 : ℤ) ≤ 8 * 1000 * 2 ^ (-150 : ℤ) := by gcongr
      _ ≤ 2 ^ (-24 : ℤ) * (2 ^ (-56 : ℤ)) ^ 2 := by norm_num
      _ ≤ _ := by gcongr
  · rw [hu, ht]
    calc (n : ℝ) * 2 ^ (-150 : ℤ) ≤ 1000 * 2 ^ (-150 : ℤ) := by gcongr
      _ ≤ _ := by norm_num
  · refine le_trans ?_ hlo; norm_num
  · calc (2 : ℝ) * 2 ^ (-126 : ℤ) * q ≤ 2 * 2 ^ (-126 : ℤ) * 2 ^ (62 : ℤ) := by gcongr
      _ ≤ 1 := by norm_num
  · calc (4 : ℝ) * q ^ 2 ≤ 4 * (2 ^ (62 : ℤ)) ^ 2 := by gcongr
      _ ≤ 2 ^ (127 : ℤ) := by norm_num
      _ ≤ _ := hb
  · calc (2 : ℝ) ≤ 2 ^ (-56 : ℤ) * 2 ^ (127 : ℤ) := by norm_num
      _ ≤ _ := by gcongr
  · refine le_trans ?_ hb; norm_num

/-! ### the property -/

/-- `f64` vectors of up to a million components with a length between `2 ^ -499` and `2 ^ 510`. -/
theorem C84_vector_f64 [Lib f64] (hn : n ≤ 2 ^ 20) (v : Vec (Ieee f64) n) (hv : ∀ i, (v.data i).Finite)
    (hlo : (2 : ℝ) ^ (-499 : ℤ) ≤ Spec.length v) (hhi : Spec.length v ≤ 2 ^ (510 : ℤ)) :
    Spec.LengthAndDirection (n + 3) v :=
  safe v hv (safe64 hn hlo hhi)

/-- `f32` vectors of up to a thousand components with a length between `2 ^ -56` and `2 ^ 62`. -/
theorem C84_vector_f32 [Lib f32] (hn : n ≤ 1000) (v : Vec (Ieee f32) n) (hv : ∀ i, (v.data i).Finite)
    (hlo : (2 : ℝ) ^ (-56 : ℤ) ≤ Spec.length v) (hhi : Spec.length v ≤ 2 ^ (62 : ℤ)) :
    Spec.LengthAndDirection (n + 3) v :=
  safe v hv (safe32 hn hlo hhi)

/-- The familiar case with the constants written out: a three-dimensional `f64` vector. -/
theorem C84_vector3_f64 [Lib f64] (v : Vec (Ieee f64) 3) (hv : ∀ i, (v.data i).Finite)
    (hlo : (2 : ℝ) ^ (-499 : ℤ) ≤ Spec.length v) (hhi : Spec.length v ≤ 2 ^ (510 : ℤ)) :
    |v.norm.val - Spec.length v| ≤ 6 * 2 ^ (-53 : ℤ) * Spec.length v ∧
    (∀ i, (v.normalize.data i).Finite) ∧ |Spec.length v.normalize - 1| ≤ 10 * 2 ^ (-53 : ℤ) := by
  obtain ⟨_, h1, h2, h3⟩ := C84_vector_f64 (by norm_num) v hv hlo hhi
  have hu : f64.u = 2 ^ (-53 : ℤ) := rfl
  rw [hu] at h1 h3
  refine ⟨by norm_num at h1 ⊢; exact h1, fun i => (h2 i).1, by norm_num at h3 ⊢; exact h3⟩

/-- Quaternions. -/
theorem C84_quaternion_f64 [Lib f64] (q : Quat (Ieee f64)) (hq : ∀ i, (q.coords.data i).Finite)
    (hlo : (2 : ℝ) ^ (-499 : ℤ) ≤ Spec.length q.coords) (hhi : Spec.length q.coords ≤ 2 ^ (510 : ℤ)) :
    q.norm.Finite ∧ |q.norm.val - Spec.length q.coords| ≤ 7 * 2 ^ (-53 : ℤ) * Spec.length q.coords ∧
    (∀ i, (q.normalize.coords.data i).Finite) ∧ |Spec.length q.normalize.coords - 1| ≤ 11 * 2 ^ (-53 : ℤ) := by
  obtain ⟨h0, h1, h2, h3⟩ := C84_vector_f64 (by norm_num) q.coords hq hlo hhi
  have hu : f64.u = 2 ^ (-53 : ℤ) := rfl
  rw [hu] at h1 h3
  refine ⟨h0, by norm_num at h1 ⊢; exact h1, fun i => (h2 i).1, by norm_num at h3 ⊢; exact h3⟩

/-- adding zero first, as the loop of a dot product does, changes no square -/
theorem zero_add_sq (x : Ieee φ) : 0 + x * x = x * x := by
  cases x with
  | nan => rfl
  | inf s => rfl
  | fin s m hm =>
    have e : (fin s m hm * fin s m hm : Ieee φ) = Ieee.round false (m * m) := by
      change Ieee.round (s ^^ s) (signed s m * signed s m) = _
      cases s <;> simp [signed]
    rw [e]
    have hmm : 0 ≤ m * m := mul_self_nonneg m
    unfold Ieee.round
    simp only [abs_of_nonneg hmm, not_lt.mpr hmm, decide_false, ite_self]
    split_ifs with h
    · change Ieee.round (false && false) (signed false 0 + signed false (φ.fl (m * m))) = _
      have hf := φ.nonneg hmm
      simp only [Ieee.round, signed, Bool.false_eq_true, if_false, zero_add, abs_of_nonneg hf, not_lt.mpr hf,
        decide_false, Bool.and_self, ite_self, φ.idem]
      rw [dif_pos h]
    · rfl

/-- Complex numbers. -/
theorem C84_complex_f64 [Lib f64] (z : Cx (Ieee f64)) (hr : z.re.Finite) (hi : z.im.Finite)
    (hlo : (2 : ℝ) ^ (-499 : ℤ) ≤ Real.sqrt (z.re.val ^ 2 + z.im.val ^ 2))
    (hhi : Real.sqrt (z.re.val ^ 2 + z.im.val ^ 2) ≤ 2 ^ (510 : ℤ)) :
    z.norm.Finite ∧ |z.norm.val - Real.sqrt (z.re.val ^ 2 + z.im.val ^ 2)| ≤
      5 * 2 ^ (-53 : ℤ) * Real.sqrt (z.re.val ^ 2 + z.im.val ^ 2) ∧
    z.normalize.re.Finite ∧ z.normalize.im.Finite ∧
    |Real.sqrt (z.normalize.re.val ^ 2 + z.normalize.im.val ^ 2) - 1| ≤ 9 * 2 ^ (-53 : ℤ) := by
  let v : Vec (Ieee f64) 2 := Vec.new2 z.re z.im
  have hl : ∀ a b : Ieee f64, Spec.length (Vec.new2 a b) = Real.sqrt (a.val ^ 2 + b.val ^ 2) := fun a b => by
    rw [Spec.length, Fin.sum_univ_two]; rfl
  have hnorm : v.norm = z.norm := by
    change fsqrt ((0 + z.re * z.re) + z.im * z.im) = fsqrt (z.re * z.re + z.im * z.im)
    rw [zero_add_sq]
  have hz : v.normalize = Vec.new2 z.normalize.re z.normalize.im := by
    ext i : 2
    simp only [Vec.normalize, Vec.mulS_data, hnorm]
    fin_cases i <;> rfl
  rw [← hl] at hlo hhi
  obtain ⟨h0, h1, h2, h3⟩ := C84_vector_f64 (by norm_num) v (fun i => by fin_cases i <;> assumption) hlo hhi
  have hu : f64.u = 2 ^ (-53 : ℤ) := rfl
  rw [hz, hl, hu] at h3
  rw [hu, hnorm, show Spec.length v = _ from hl _ _] at h1
  rw [hnorm] at h0
  have f0 := (h2 0).1
  have f1 := (h2 1).1
  rw [hz] at f0 f1
  exact ⟨h0, by norm_num at h1 ⊢; exact h1, f0, f1, by norm_num at h3 ⊢; exact h3⟩

/-- `try_normalize` tells the exact length from the threshold, up to the rounding of the norm. -/
theorem C84_try_normalize_f64 [Lib f64] (hn : n ≤ 2 ^ 20) (v : Vec (Ieee f64) n) (hv : ∀ i, (v.data i).Finite)
    (hlo : (2 : ℝ) ^ (-499 : ℤ) ≤ Spec.length v) (hhi : Spec.length v ≤ 2 ^ (510 : ℤ))
    (threshold : Ieee f64) (ht : threshold.Finite) :
    (threshold.val < (1 - (n + 3) * 2 ^ (-53 : ℤ)) * Spec.length v → v.tryNormalize threshold = some v.normalize) ∧
    ((1 + (n + 3) * 2 ^ (-53 : ℤ)) * Spec.length v ≤ threshold.val → v.tryNormalize threshold = none) := by
  obtain ⟨h0, h1, -, -⟩ := C84_vector_f64 hn v hv hlo hhi
  have hu : f64.u = 2 ^ (-53 : ℤ) := rfl
  rw [hu] at h1
  push_cast at h1
  obtain ⟨a, b⟩ := abs_le.mp h1
  have hle : v.norm ≤ threshold ↔ v.norm.val ≤ threshold.val := by
    obtain ⟨s, m, hm, e⟩ := h0
    obtain ⟨t, k, hk, e'⟩ := ht
    rw [e, e']
    constructor
    · rintro ⟨x, y, hx, hy, hxy⟩
      simp only [place, Option.some.injEq] at hx hy
      subst hx hy
      exact EReal.coe_le_coe_iff.mp hxy
    · exact fun h => ⟨_, _, rfl, rfl, EReal.coe_le_coe_iff.mpr h⟩
  constructor
  · intro h
    rw [Vec.tryNormalize, if_neg]
    rw [hle]; intro h'; linarith
  · intro h
    rw [Vec.tryNormalize, if_pos]
    rw [hle]; linarith

/-! ### outside the range -/

/-- data a sum of squares can be: positive infinity, or a finite number with a positive sign -/
def SquareSum (x : Ieee φ) : Prop := x = inf false ∨ ∃ m h, x = fin false m h

theorem squareSum_round {x : ℝ} (hx : 0 ≤ x) : SquareSum (Ieee.round false x : Ieee φ) := by
  unfold Ieee.round
  simp only [not_lt.mpr hx, decide_false, ite_self]
  split_ifs
  · exact .inr ⟨_, _, rfl⟩
  · exact .inl rfl

theorem mul_self_eq {x : Ieee φ} (h : x.Finite) : x * x = Ieee.round false (x.val * x.val) := by
  obtain ⟨s, m, hm, rfl⟩ := h
  change Ieee.round (s ^^ s) (signed s m * signed s m) = _
  cases s <;> simp [signed, Ieee.val]

theorem SquareSum.add {x y : Ieee φ} (hx : SquareSum x) (hy : SquareSum y) :
    SquareSum (x + y) ∧ ((x = inf false ∨ y = inf false) → x + y = inf false) := by
  rcases hx with rfl | ⟨m, hm, rfl⟩ <;> rcases hy with rfl | ⟨k, hk, rfl⟩
  · exact ⟨.inl rfl, fun _ => rfl⟩
  · exact ⟨.inl rfl, fun _ => rfl⟩
  · exact ⟨.inl rfl, fun _ => rfl⟩
  · refine ⟨?_, by rintro (h | h) <;> cases h⟩
    change SquareSum (Ieee.round (false && false) (signed false m + signed false k))
    exact squareSum_round (add_nonneg hm.1 hk.1)

theorem loop_squareSum {n : ℕ} (f : Fin n → Ieee φ) (hf : ∀ i, SquareSum (f i)) :
    SquareSum (forRange n (0 : Ieee φ) fun i s => s + f i) ∧
    ((∃ i, f i = inf false) → forRange n (0 : Ieee φ) (fun i s => s + f i) = inf false) := by
  induction n with
  | zero => exact ⟨.inr ⟨_, _, rfl⟩, fun ⟨i, _⟩ => i.elim0⟩
  | succ n ih =>
    rw [forRange_succ]
    obtain ⟨h1, h2⟩ := ih (fun i => f i.castSucc) fun i => hf _
    refine ⟨(h1.add (hf _)).1, fun ⟨i, hi⟩ => (h1.add (hf _)).2 ?_⟩
    rcases Fin.eq_castSucc_or_eq_last i with ⟨j, rfl⟩ | rfl
    · exact .inl (h2 ⟨j, hi⟩)
    · exact .inr hi

/-- A single component of magnitude `2 ^ 512` or more makes the norm infinite, and the normalized vector the zero
vector. -/
theorem C84_overflow_f64 [Lib f64] (v : Vec (Ieee f64) n) (hv : ∀ i, (v.data i).Finite) (i : Fin n)
    (hi : (2 : ℝ) ^ (512 : ℤ) ≤ |(v.data i).val|) :
    v.norm = inf false ∧ ∀ j, (v.normalize.data j).Finite ∧ (v.normalize.data j).val = 0 := by
  have hsq : v.data i * v.data i = inf false := by
    rw [mul_self_eq (hv i)]
    have h1 : (2 : ℝ) ^ (1024 : ℤ) ≤ (v.data i).val * (v.data i).val := by
      rw [← abs_mul_abs_self]
      calc (2 : ℝ) ^ (1024 : ℤ) = 2 ^ (512 : ℤ) * 2 ^ (512 : ℤ) := by rw [← zpow_add₀ two_ne_zero]; norm_num
        _ ≤ _ := by gcongr
    have h2 := f64.mono _ _ h1
    have h3 : f64.fl (2 ^ (1024 : ℤ)) = 2 ^ (1024 : ℤ) := fl64_two_zpow (by norm_num)
    rw [h3] at h2
    have h0 : 0 < (v.data i).val * (v.data i).val := lt_of_lt_of_le (by positivity) h1
    unfold Ieee.round
    rw [dif_neg]
    · simp [not_lt.mpr h0.le]
    · rw [abs_of_pos h0, not_le]
      refine lt_of_lt_of_le ?_ h2
      have h4 : f64.big = (2 ^ 53 - 1) * 2 ^ 971 := rfl
      have h5 : (2 : ℝ) ^ (1024 : ℤ) = 2 ^ 53 * 2 ^ 971 := by
        rw [show (1024 : ℤ) = ((53 + 971 : ℕ) : ℤ) by norm_num, zpow_natCast, pow_add]
      rw [h4, h5]
      exact mul_lt_mul_of_pos_right (by norm_num) (by positivity)
  have hns : v.normSquared = inf false :=
    (loop_squareSum (fun i => v.data i * v.data i) fun j => by
      rw [mul_self_eq (hv j)]; exact squareSum_round (mul_self_nonneg _)).2 ⟨i, hsq⟩
  have hnorm : v.norm = inf false := by rw [Vec.norm, hns, Lib.sqrt_eq]; rfl
  refine ⟨hnorm, fun j => ?_⟩
  have hrec : (1 : Ieee f64) / v.norm = 0 := by rw [hnorm]; rfl
  simp only [Vec.normalize, Vec.mulS_data, hrec]
  have hf : (v.data j * 0).Finite := finite_mul_of (hv j) finite_zero (by
    rw [val_zero, mul_zero, f64.zero, abs_zero]; exact zero_le_one.trans f64.one_le_big)
  exact ⟨hf, by rw [val_mul hf, val_zero, mul_zero, f64.zero]⟩

theorem fl64_below {x : ℝ} (h : |x| ≤ 2 ^ (-1076 : ℤ)) : f64.fl x = 0 := by
  have hp : f64.fl (2 ^ (-1076 : ℤ)) = 0 := by
    have := flEven_eq (p := 53) (qmin := some (-1074)) (x := 2 ^ (-1076 : ℤ)) (e := -1076) (m := 0)
      (by rw [abs_of_pos (by positivity)]) (by
        rw [abs_of_pos (by positivity)]; exact zpow_lt_zpow_right₀ one_lt_two (by norm_num)) (by
        simp only [Rounding.lastBit]
        rw [← zpow_sub₀ two_ne_zero, Int.cast_zero, sub_zero, abs_of_pos (by positivity)]
        calc (2 : ℝ) ^ _ < 2 ^ (-1 : ℤ) := zpow_lt_zpow_right₀ one_lt_two (by norm_num)
          _ = 1 / 2 := by norm_num)
    refine (show f64.fl _ = _ from this).trans ?_
    simp
  obtain ⟨h1, h2⟩ := abs_le.mp h
  have a := f64.mono _ _ h1
  have b := f64.mono _ _ h2
  rw [f64.neg, hp] at a
  rw [hp] at b
  linarith

/-- If every component is at most `2 ^ -538` in magnitude the norm is zero, no component of the normalized vector is
finite, and `try_normalize` rejects the vector whatever the threshold. -/
theorem C84_underflow_f64 [Lib f64] (v : Vec (Ieee f64) n) (hv : ∀ i, (v.data i).Finite)
    (h : ∀ i, |(v.data i).val| ≤ 2 ^ (-538 : ℤ)) :
    v.norm = 0 ∧ (∀ j, ¬(v.normalize.data j).Finite) ∧
    ∀ threshold : Ieee f64, 0 ≤ threshold → v.tryNormalize threshold = none := by
  have hsq : ∀ i, v.data i * v.data i = 0 := fun i => by
    rw [mul_self_eq (hv i)]
    have h0 := mul_self_nonneg (v.data i).val
    have h1 : |(v.data i).val * (v.data i).val| ≤ 2 ^ (-1076 : ℤ) := by
      rw [abs_mul]
      calc |(v.data i).val| * |(v.data i).val| ≤ 2 ^ (-538 : ℤ) * 2 ^ (-538 : ℤ) :=
            mul_le_mul (h i) (h i) (abs_nonneg _) (by positivity)
        _ = _ := by rw [← zpow_add₀ two_ne_zero]; norm_num
    have h2 := fl64_below h1
    unfold Ieee.round
    simp only [abs_of_nonneg h0, not_lt.mpr h0, decide_false, ite_self, h2]
    rw [dif_pos (zero_le_one.trans f64.one_le_big)]
    rfl
  have hns : v.normSquared = 0 := by
    have : ∀ {n : ℕ} (f : Fin n → Ieee f64), (∀ i, f i = 0) → forRange n (0 : Ieee f64) (fun i s => s + f i) = 0 := by
      intro n
      induction n with
      | zero => intro f _; rfl
      | succ n ih => intro f hf; rw [forRange_succ, ih _ fun i => hf _, hf, zero_add_zero]
    exact this (fun i => v.data i * v.data i) hsq
  have hnorm : v.norm = 0 := by
    rw [Vec.norm, hns, Lib.sqrt_eq]
    change (if (0 : ℝ) = 0 then (0 : Ieee f64) else _) = 0
    simp
  refine ⟨hnorm, fun j => ?_, fun t ht => by rw [Vec.tryNormalize, hnorm, if_pos ht]⟩
  have hrec : (1 : Ieee f64) / v.norm = inf false := by
    rw [hnorm]
    change (if (0 : ℝ) = 0 then (if (1 : ℝ) = 0 then nan else inf (false ^^ false)) else _ : Ieee f64) = _
    simp
  simp only [Vec.normalize, Vec.mulS_data, hrec]
  intro hf
  exact not_finite_inf _ (finite_mul hf).2

/-- the hypotheses are met: `(2, 2 ^ -1000, -4)`, whose second component has a square that underflows -/
example : ∃ v : Vec (Ieee f64) 3, (∀ i, (v.data i).Finite) ∧ (v.data 1).val = 2 ^ (-1000 : ℤ) ∧
    (2 : ℝ) ^ (-499 : ℤ) ≤ Spec.length v ∧ Spec.length v ≤ 2 ^ (510 : ℤ) := by
  refine ⟨Vec.new3 (pow64 1 (by norm_num)) (pow64 (-1000) (by norm_num)) (-pow64 2 (by norm_num)), ?_, ?_, ?_⟩
  · intro i
    fin_cases i <;> exact finite_fin _ _ _
  · rfl
  · have e : Spec.length (Vec.new3 (pow64 1 (by norm_num)) (pow64 (-1000) (by norm_num)) (-pow64 2 (by norm_num))) =
        Real.sqrt (20 + (2 ^ (-1000 : ℤ)) ^ 2) := by
      rw [Spec.length, Fin.sum_univ_three]
      change Real.sqrt ((2 ^ (1 : ℤ)) ^ 2 + (2 ^ (-1000 : ℤ)) ^ 2 + (-2 ^ (2 : ℤ)) ^ 2) = _
      congr 1; ring
    have h1 : ((2 : ℝ) ^ (-1000 : ℤ)) ^ 2 ≤ 1 := by
      rw [← zpow_natCast, ← zpow_mul]
      exact zpow_le_one_of_nonpos₀ one_le_two (by norm_num)
    have h2 : (2 : ℝ) ^ (-499 : ℤ) ≤ 1 := zpow_le_one_of_nonpos₀ one_le_two (by norm_num)
    have h3 : (2 : ℝ) ^ (3 : ℤ) ≤ 2 ^ (510 : ℤ) := zpow_le_zpow_right₀ one_le_two (by norm_num)
    rw [e]
    refine ⟨h2.trans (Real.one_le_sqrt.mpr (by nlinarith [sq_nonneg ((2 : ℝ) ^ (-1000 : ℤ))])), ?_⟩
    refine le_trans (Real.sqrt_le_iff.mpr ⟨by norm_num, ?_⟩) h3
    norm_num at h1 ⊢; linarith

end Cgl
