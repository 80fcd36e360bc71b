import Verif.Props.C83_FloatInverse
import Verif.Props.C84_SafeRange
import Verif.Lemmas.Scaled
import Verif.Lemmas.Bound64

/-! # C103 - determinants and inverses of matrices in IEEE arithmetic

C83 bounds the errors of `try_inverse` for a rounding without overflow and underflow.  Here the arithmetic is IEEE `f64` or
`f32`.  `M` bounds the entries and `K` the quotient of `M ^ n` and the determinant: in a range of sizes the inverse is
found, it is finite, and its entries are within a multiple of `K ^ 2 / M` roundings of those of the exact inverse.  Outside
of it a multiple of the identity, the best conditioned matrix there is, is rejected, or 'inverted' to the zero matrix. -/

namespace Cgl
open Ieee FloatFns Mat Spec Rounding

variable {φ : Format} {n : ℕ}

namespace Spec

/-- the mathematical matrix, row index first, of the numbers the entries stand for -/
noncomputable def exactly (A : Mat (Ieee φ) n n) : Matrix (Fin n) (Fin n) ℝ := Matrix.of fun r c => (A.data c r).val

/-- every entry is a finite number of at most `M` -/
def Entries (M : ℝ) (A : Mat (Ieee φ) n n) : Prop := ∀ c r, (A.data c r).Finite ∧ |(A.data c r).val| ≤ M

/-- `f` inverts: it returns a matrix of finite numbers, each of them within `ε` of the entry of the exact inverse -/
def Inverted (f : Mat (Ieee φ) n n → Option (Mat (Ieee φ) n n)) (A : Mat (Ieee φ) n n) (ε : ℝ) : Prop :=
  ∃ (B : Mat (Ieee φ) n n) (E : Matrix (Fin n) (Fin n) ℝ), f A = some B ∧ exactly A * E = 1 ∧ E * exactly A = 1 ∧
    ∀ r c, (B.data c r).Finite ∧ |(B.data c r).val - E r c| ≤ ε

/-- sizes `M` of the entries of `n` by `n` matrices with a determinant of at least `M ^ n / K` such that nothing overflows or
underflows -/
structure Sizes (φ : Format) (n : ℕ) (M K : ℝ) : Prop where
  small : φ.u ≤ 1 / 1000000
  pos : 0 < M
  size : ∀ w d : ℕ, 1 ≤ w → w ≤ 24 → d ≤ n → Fits φ (w * M ^ d)
  recip : ∀ D, 0 < D → M ^ n ≤ K * D → D ≤ 24 * M ^ n → Fits φ (1 / D)
  quot : ∀ (w : ℕ) (D : ℝ), 1 ≤ w → w ≤ 6 → 0 < D → M ^ n ≤ K * D → D ≤ 24 * M ^ n → Fits φ (1 / D * (w * M ^ (n - 1)))
  tame : 1311 * K * φ.u ≤ 1 / 1100

end Spec

/-- the same as a matrix of the model -/
noncomputable def numbers (A : Mat (Ieee φ) n n) : Mat ℝ n n := ⟨fun c r => (A.data c r).val⟩

/-- `Inverted`, in the model's matrices -/
def InvertedM (f : Mat (Ieee φ) n n → Option (Mat (Ieee φ) n n)) (A : Mat (Ieee φ) n n) (ε : ℝ) : Prop :=
  ∃ (B : Mat (Ieee φ) n n) (E : Mat ℝ n n), f A = some B ∧ numbers A * E = identity ∧ E * numbers A = identity ∧
    ∀ c r, (B.data c r).Finite ∧ |(B.data c r).val - E.data c r| ≤ ε

theorem toMatrix_numbers (A : Mat (Ieee φ) n n) : (numbers A).toMatrix = exactly A := rfl

theorem inverted_of {f : Mat (Ieee φ) n n → Option (Mat (Ieee φ) n n)} {A : Mat (Ieee φ) n n} {ε : ℝ} (h : InvertedM f A ε) : Inverted f A ε := by
  obtain ⟨B, E, h1, h2, h3, h4⟩ := h
  refine ⟨B, E.toMatrix, h1, ?_, ?_, fun r c => h4 c r⟩
  · rw [← toMatrix_numbers, ← toMatrix_mul, h2, toMatrix_identity]
  · rw [← toMatrix_numbers, ← toMatrix_mul, h3, toMatrix_identity]

/-- `x` computes `c`, a sum of `w` products of `d` entries, with `k` roundings -/
def Tr (φ : Format) (n : ℕ) (M : ℝ) (w d k : ℕ) (x : Ieee φ) (c : ℝ) : Prop :=
  1 ≤ w ∧ (w ≤ 24 → d ≤ n → k ≤ 60 → x.Finite ∧ |c| ≤ w * M ^ d ∧ |x.val - c| ≤ k * (21 / 10 * φ.u) * (w * M ^ d))

namespace Tr
variable {M K : ℝ} {w w' d d' k k' : ℕ} {x y : Ieee φ} {c c' : ℝ}

theorem entry (hx : x.Finite) (h : |x.val| ≤ M) : Tr φ n M 1 1 0 x x.val :=
  ⟨le_rfl, fun _ _ _ => ⟨hx, by simpa using h, by simp⟩⟩

theorem neg (h : Tr φ n M w d k x c) : Tr φ n M w d k (-x) (-c) :=
  ⟨h.1, fun h1 h2 h3 => by
    obtain ⟨a, b, e⟩ := h.2 h1 h2 h3
    have := (show Nr x c _ from ⟨a, e⟩).neg
    exact ⟨this.1, by rwa [abs_neg], this.2⟩⟩

theorem mul (hs : Sizes φ n M K) (hx : Tr φ n M w d k x c) (hy : Tr φ n M w' d' k' y c') :
    Tr φ n M (w * w') (d + d') (k + k' + 1) (x * y) (c * c') := by
  have hw := hx.1
  have hw' := hy.1
  refine ⟨Nat.mul_pos hw hw', fun h1 h2 h3 => ?_⟩
  obtain ⟨x1, x2, x3⟩ := hx.2 ((Nat.le_mul_of_pos_right w hw').trans h1) (by omega) (by omega)
  obtain ⟨y1, y2, y3⟩ := hy.2 ((Nat.le_mul_of_pos_left w' hw).trans h1) (by omega) (by omega)
  have hF := hs.size (w * w') (d + d') (Nat.mul_pos hw hw') h1 h2
  have hu0 := φ.u_nonneg
  have hu := hs.small
  have eA : ((w * w' : ℕ) : ℝ) * M ^ (d + d') = (w * M ^ d) * (w' * M ^ d') := by push_cast; rw [pow_add]; ring
  rw [eA] at hF ⊢
  set A : ℝ := w * M ^ d
  set B : ℝ := w' * M ^ d'
  have hA : 0 ≤ A := (abs_nonneg _).trans x2
  have hB : 0 ≤ B := (abs_nonneg _).trans y2
  set η := 21 / 10 * φ.u with hη
  have hη0 : 0 ≤ η := by positivity
  have hk : (k : ℝ) ≤ 60 := by exact_mod_cast (by omega : k ≤ 60)
  have hk' : (k' : ℝ) ≤ 60 := by exact_mod_cast (by omega : k' ≤ 60)
  have hk0 : (0 : ℝ) ≤ k := Nat.cast_nonneg k
  have hk0' : (0 : ℝ) ≤ k' := Nat.cast_nonneg k'
  have hke : k' * η ≤ 2 / 10000 := by
    have := mul_le_mul hk' (show η ≤ 21 / 10 * (1 / 1000000) by rw [hη]; linarith) hη0 (by norm_num)
    linarith
  have hkx : k * η ≤ 2 / 10000 := by
    have := mul_le_mul hk (show η ≤ 21 / 10 * (1 / 1000000) by rw [hη]; linarith) hη0 (by norm_num)
    linarith
  have hyv : |y.val| ≤ (1 + k' * η) * B := by
    have := abs_sub_abs_le_abs_sub y.val c'
    linarith
  have hAB : 0 ≤ A * B := mul_nonneg hA hB
  have hd : |x.val * y.val - c * c'| ≤ (k * η * (1 + k' * η) + k' * η) * (A * B) := by
    have e1 : x.val * y.val - c * c' = (x.val - c) * y.val + c * (y.val - c') := by ring
    rw [e1]
    refine (abs_add_le _ _).trans ?_
    rw [abs_mul, abs_mul]
    have k1 := mul_le_mul x3 hyv (abs_nonneg _) (by positivity)
    have k2 := mul_le_mul x2 y3 (abs_nonneg _) hA
    linarith
  have hcc : |c * c'| ≤ A * B := by rw [abs_mul]; exact mul_le_mul x2 y2 (abs_nonneg _) hA
  have hsm : k * η * (1 + k' * η) + k' * η ≤ 5 / 10000 := by nlinarith [mul_nonneg hk0 hη0, mul_nonneg hk0' hη0]
  have hsm' := mul_le_mul_of_nonneg_right hsm hAB
  have hd' := abs_le.mp hd
  have hc' := abs_le.mp hcc
  obtain ⟨r1, r2⟩ := hF.round hu (z := x.val * y.val) (by rw [abs_le]; constructor <;> linarith)
  have hf := finite_mul_of x1 y1 r1
  refine ⟨hf, hcc, ?_⟩
  rw [val_mul hf]
  have hfin : (k * η * (1 + k' * η) + k' * η + 203 / 100 * φ.u) * (A * B) ≤ ((k + k' + 1 : ℕ) : ℝ) * η * (A * B) := by
    refine mul_le_mul_of_nonneg_right ?_ hAB
    push_cast
    have q1 : k * η * (k' * η) ≤ 60 * η * (2 / 10000) :=
      mul_le_mul (mul_le_mul_of_nonneg_right hk hη0) hke (by positivity) (by positivity)
    have q2 : 203 / 100 * φ.u ≤ 203 / 210 * η := by rw [hη]; linarith
    linarith
  refine le_trans (le_trans (abs_sub_le _ (x.val * y.val) _) (add_le_add r2 hd)) (le_trans (le_of_eq ?_) hfin)
  ring

theorem add (hs : Sizes φ n M K) (hx : Tr φ n M w d k x c) (hy : Tr φ n M w' d k' y c') :
    Tr φ n M (w + w') d (max k k' + 1) (x + y) (c + c') := by
  have hw := hx.1
  have hw' := hy.1
  refine ⟨by omega, fun h1 h2 h3 => ?_⟩
  have hm1 := le_max_left k k'
  have hm2 := le_max_right k k'
  obtain ⟨x1, x2, x3⟩ := hx.2 (by omega) h2 (by omega)
  obtain ⟨y1, y2, y3⟩ := hy.2 (by omega) h2 (by omega)
  have hF := hs.size (w + w') d (by omega) h1 h2
  have hu0 := φ.u_nonneg
  have hu := hs.small
  have eA : ((w + w' : ℕ) : ℝ) * M ^ d = w * M ^ d + w' * M ^ d := by push_cast; ring
  rw [eA] at hF ⊢
  set A : ℝ := w * M ^ d
  set B : ℝ := w' * M ^ d
  have hA : 0 ≤ A := (abs_nonneg _).trans x2
  have hB : 0 ≤ B := (abs_nonneg _).trans y2
  set η := 21 / 10 * φ.u with hη
  have hη0 : 0 ≤ η := by positivity
  set m := max k k' with hm
  have hmk : (m : ℝ) ≤ 60 := by exact_mod_cast (by omega : m ≤ 60)
  have hme : m * η ≤ 2 / 10000 := by
    have := mul_le_mul hmk (show η ≤ 21 / 10 * (1 / 1000000) by rw [hη]; linarith) hη0 (by norm_num)
    linarith
  have x4 : |x.val - c| ≤ m * η * A := x3.trans (mul_le_mul_of_nonneg_right (mul_le_mul_of_nonneg_right (by exact_mod_cast hm1) hη0) hA)
  have y4 : |y.val - c'| ≤ m * η * B := y3.trans (mul_le_mul_of_nonneg_right (mul_le_mul_of_nonneg_right (by exact_mod_cast hm2) hη0) hB)
  have a1 := abs_le.mp x2
  have a2 := abs_le.mp y2
  have a3 := abs_le.mp x4
  have a4 := abs_le.mp y4
  have hcc : |c + c'| ≤ A + B := (abs_add_le _ _).trans (add_le_add x2 y2)
  have b1 := mul_le_mul_of_nonneg_right hme hA
  have b2 := mul_le_mul_of_nonneg_right hme hB
  obtain ⟨r1, r2⟩ := hF.round hu (z := x.val + y.val) (by rw [abs_le]; constructor <;> linarith)
  have hf := finite_add_of x1 y1 r1
  refine ⟨hf, hcc, ?_⟩
  rw [val_add hf]
  have a5 := abs_le.mp r2
  have q2 : 203 / 100 * φ.u * (A + B) ≤ η * (A + B) := mul_le_mul_of_nonneg_right (by rw [hη]; linarith) (by linarith)
  push_cast
  rw [abs_le]; constructor <;> linarith

theorem sub (hs : Sizes φ n M K) (hx : Tr φ n M w d k x c) (hy : Tr φ n M w' d k' y c') :
    Tr φ n M (w + w') d (max k k' + 1) (x - y) (c - c') := by
  have := hx.add hs hy.neg
  rw [← sub_eq_add_neg] at this
  exact this

theorem congr (h : Tr φ n M w d k x c) (hw : w = w') (hd : d = d') (hk : k ≤ k') : Tr φ n M w' d' k' x c := by
  subst hw hd
  refine ⟨h.1, fun h1 h2 h3 => ?_⟩
  obtain ⟨a, b, e⟩ := h.2 h1 h2 (hk.trans h3)
  refine ⟨a, b, e.trans (mul_le_mul_of_nonneg_right (mul_le_mul_of_nonneg_right (by exact_mod_cast hk) ?_) ((abs_nonneg _).trans b))⟩
  have := φ.u_nonneg
  positivity

end Tr

local macro "trace" h:ident : tactic => `(tactic| repeat' first
  | exact Tr.entry (And.left (‹Entries _ _› _ _)) (And.right (‹Entries _ _› _ _)) | apply Tr.add $h | apply Tr.sub $h | apply Tr.mul $h | apply Tr.neg)

/-! ### cofactors over the determinant -/

theorem nonzero_beq {x : Ieee φ} (h : x.Finite) (h0 : x.val ≠ 0) : (x == 0) = false := by
  obtain ⟨s, m, hm, rfl⟩ := h
  rw [← Bool.not_eq_true, beq_iff]
  rintro ⟨a, h1, h2⟩
  simp only [place, Option.some.injEq] at h1
  have : (0 : Ieee φ).place = some ((0 : ℝ) : EReal) := rfl
  rw [this, Option.some.injEq, ← h1] at h2
  exact h0 (EReal.coe_eq_coe_iff.mp h2).symm

section Entry
variable {M K : ℝ} {w w' k k' : ℕ} {x det : Ieee φ} {c D : ℝ}

/-- the computed determinant relative to the determinant -/
theorem det_near (hs : Sizes φ n M K) (hd : Tr φ n M w n k det D) (hw : w ≤ 24) (hk : k ≤ 26) (hK : M ^ n ≤ K * |D|) :
    det.Finite ∧ |det.val - D| ≤ (k * w * K * (21 / 10 * φ.u)) * |D| ∧ |D| ≤ 24 * M ^ n ∧ 0 < |D| ∧ 0 < K ∧
      k * w * K * (21 / 10 * φ.u) ≤ 1 / 1100 ∧ 1 ≤ w * K := by
  obtain ⟨a, b, e⟩ := hd.2 hw le_rfl (by omega)
  have hu := φ.u_nonneg
  have hM : 0 < M ^ n := pow_pos hs.pos n
  have hD : 0 < |D| := by
    rcases (abs_nonneg D).lt_or_eq with h | h
    · exact h
    · rw [← h, mul_zero] at hK; linarith
  have hK0 : 0 < K := by
    by_contra hc
    have := mul_nonpos_of_nonpos_of_nonneg (not_lt.mp hc) hD.le
    linarith
  have hw24 : (w : ℝ) ≤ 24 := by exact_mod_cast hw
  have hk26 : (k : ℝ) ≤ 26 := by exact_mod_cast hk
  have hw0 : (0 : ℝ) ≤ w := Nat.cast_nonneg w
  have hk0 : (0 : ℝ) ≤ k := Nat.cast_nonneg k
  refine ⟨a, e.trans ?_, b.trans (mul_le_mul_of_nonneg_right hw24 hM.le), hD, hK0, ?_, ?_⟩
  · have : k * (21 / 10 * φ.u) * (w * M ^ n) ≤ k * (21 / 10 * φ.u) * (w * (K * |D|)) :=
      mul_le_mul_of_nonneg_left (mul_le_mul_of_nonneg_left hK hw0) (by positivity)
    refine this.trans (le_of_eq (by ring))
  · have : (k : ℝ) * w ≤ 26 * 24 := mul_le_mul hk26 hw24 hw0 (by norm_num)
    calc k * w * K * (21 / 10 * φ.u) = (k * w) * (K * (21 / 10 * φ.u)) := by ring
      _ ≤ 26 * 24 * (K * (21 / 10 * φ.u)) := mul_le_mul_of_nonneg_right this (by positivity)
      _ ≤ 1311 * K * φ.u := by nlinarith [mul_nonneg hK0.le hu]
      _ ≤ _ := hs.tame
  · have h1 : M ^ n ≤ K * (w * M ^ n) := hK.trans (mul_le_mul_of_nonneg_left b hK0.le)
    have h2 : 1 * M ^ n ≤ w * K * M ^ n := by rw [one_mul]; refine h1.trans (le_of_eq (by ring))
    exact le_of_mul_le_mul_right h2 hM

/-- an entry of the inverse -/
theorem inverse_entry_near (hs : Sizes φ n M K) (hn : 1 ≤ n) (hd : Tr φ n M w n k det D) (hw : w ≤ 24) (hk : k ≤ 26)
    (hK : M ^ n ≤ K * |D|) (hx : Tr φ n M w' (n - 1) k' x c) (hw' : w' ≤ 6) (hk' : k' ≤ 7) {C : ℝ}
    (hC : 22 / 10 * w * w' * ((k : ℝ) + k' + 3) ≤ C) :
    (1 / det * x).Finite ∧ |(1 / det * x).val - 1 / D * c| ≤ C * K ^ 2 * φ.u / M := by
  obtain ⟨d1, d2, d3, d4, d5, d6, d7⟩ := det_near hs hd hw hk hK
  obtain ⟨x1, x2, x3⟩ := hx.2 (by omega) (by omega) (by omega)
  have hu := φ.u_nonneg
  have hF := hs.recip |D| d4 hK d3
  have hQ := hs.quot w' |D| hx.1 hw' d4 hK d3
  set f := k * w * K * (21 / 10 * φ.u) with hf
  have hf0 : 0 ≤ f := by positivity
  have hfD : f * |D| ≤ 1 / 1100 * |D| := mul_le_mul_of_nonneg_right d6 d4.le
  have hlow : 1099 / 1100 * |D| ≤ |det.val| := by
    have := abs_sub_abs_le_abs_sub D det.val
    rw [abs_sub_comm] at this
    linarith
  have hdp : 0 < |det.val| := by linarith
  have hdne : det.val ≠ 0 := abs_pos.mp hdp
  have hDne : D ≠ 0 := abs_pos.mp d4
  -- the reciprocal
  have hr : |1 / det.val - 1 / D| ≤ 1002 / 1000 * f * (1 / |D|) := by
    have e : 1 / det.val - 1 / D = (D - det.val) / (det.val * D) := by field_simp
    rw [e, abs_div, abs_mul, abs_sub_comm, div_le_iff₀ (by positivity)]
    have e2 : 1002 / 1000 * f * (1 / |D|) * (|det.val| * |D|) = 1002 / 1000 * f * |det.val| := by field_simp
    rw [e2]
    have := mul_le_mul_of_nonneg_left hlow (show 0 ≤ 1002 / 1000 * f by positivity)
    have h3 : 0 ≤ f * |D| := by positivity
    linarith
  have hR : 0 < 1 / |D| := by positivity
  have hfR := mul_le_mul_of_nonneg_right d6 hR.le
  have h1D : |1 / D| = 1 / |D| := by rw [abs_div, abs_one]
  have h1 := abs_le.mp hr
  have h1' := abs_le.mp (le_of_eq h1D)
  obtain ⟨r1, r2⟩ := hF.round hs.small (z := 1 / det.val) (by rw [abs_le]; constructor <;> linarith)
  have one1 : (1 : Ieee φ).Finite := finite_one
  have onev : (1 : Ieee φ).val = 1 := rfl
  have hif := finite_div_of one1 d1 hdne (by rw [onev]; exact r1)
  have hrec : Sc (1 / |D|) (1 / det) (1 / D) (1002 / 1000 * f + 203 / 100 * φ.u) := by
    refine ⟨hif, ?_⟩
    rw [(val_div hif d1).1, onev]
    have := abs_le.mp r2
    rw [abs_le]; constructor <;> linarith
  have hcof : Sc (w' * M ^ (n - 1)) x c (k' * (21 / 10 * φ.u)) := ⟨x1, x3⟩
  have hw1 : (1 : ℝ) ≤ w' := by exact_mod_cast hx.1
  have hp : 0 < (w' : ℝ) * M ^ (n - 1) := by have := pow_pos hs.pos (n - 1); positivity
  have hk7 : (k' : ℝ) ≤ 7 := by exact_mod_cast hk'
  have hk0 : (0 : ℝ) ≤ k' := Nat.cast_nonneg k'
  have hku : k' * (21 / 10 * φ.u) ≤ 7 * (21 / 10 * φ.u) := mul_le_mul_of_nonneg_right hk7 (by positivity)
  have hsm := hs.small
  have hm := hrec.mulSc hs.small hQ hR hp (le_of_eq h1D) hcof x2 (by linarith) (by linarith)
  refine ⟨hm.1, hm.2.trans ?_⟩
  -- numbers
  have hw0 : (0 : ℝ) ≤ w := Nat.cast_nonneg w
  have hkk : (0 : ℝ) ≤ k := Nat.cast_nonneg k
  have hwK : φ.u ≤ w * K * φ.u := le_mul_of_one_le_left hu d7
  have hrel : 101 / 100 * (1002 / 1000 * f + 203 / 100 * φ.u + k' * (21 / 10 * φ.u)) + 203 / 100 * φ.u ≤
      22 / 10 * w * ((k : ℝ) + k' + 3) * (K * φ.u) := by
    have g1 : k' * φ.u ≤ k' * (w * K * φ.u) := mul_le_mul_of_nonneg_left hwK hk0
    have g2 : 0 ≤ k * (w * K * φ.u) := by positivity
    have g3 : 0 ≤ k' * (w * K * φ.u) := by positivity
    have g4 : 0 ≤ w * K * φ.u := by positivity
    have e : 22 / 10 * w * ((k : ℝ) + k' + 3) * (K * φ.u) = 22 / 10 * (k * (w * K * φ.u)) + 22 / 10 * (k' * (w * K * φ.u)) + 66 / 10 * (w * K * φ.u) := by ring
    have ef : f = 21 / 10 * (k * (w * K * φ.u)) := by rw [hf]; ring
    rw [e, ef]
    linarith
  have hsize : 1 / |D| * (w' * M ^ (n - 1)) ≤ w' * K / M := by
    have hM := hs.pos
    rw [le_div_iff₀ hM, div_mul_eq_mul_div, div_mul_eq_mul_div, div_le_iff₀ d4, one_mul]
    have e : M ^ (n - 1) * M = M ^ n := by rw [← pow_succ]; congr 1; omega
    calc w' * M ^ (n - 1) * M = w' * M ^ n := by rw [mul_assoc, e]
      _ ≤ w' * (K * |D|) := mul_le_mul_of_nonneg_left hK (by linarith)
      _ = _ := by ring
  have hM := hs.pos
  calc _ ≤ 22 / 10 * w * ((k : ℝ) + k' + 3) * (K * φ.u) * (w' * K / M) :=
        mul_le_mul hrel hsize (by positivity) (by positivity)
    _ = (22 / 10 * w * w' * ((k : ℝ) + k' + 3)) * (K ^ 2 * φ.u / M) := by ring
    _ ≤ C * (K ^ 2 * φ.u / M) := mul_le_mul_of_nonneg_right hC (by positivity)
    _ = _ := by ring

end Entry

/-! ### the inverses -/

theorem numbers_data (A : Mat (Ieee φ) n n) (c r : Fin n) : (numbers A).data c r = (A.data c r).val := rfl

section Inverses
variable {M K : ℝ}

/-- **C103.**  2x2 matrices: the inverse is found and every entry is within `22 K ^ 2 / M` roundings of the exact one. -/
theorem inverse2_near {A : Mat (Ieee φ) 2 2} (hA : Entries M A) (hs : Sizes φ 2 M K)
    (hK : M ^ 2 ≤ K * |leibniz (numbers A)|) : InvertedM tryInverse2 A (22 * K ^ 2 * φ.u / M) := by
  rw [← C17_det2] at hK
  have hdet : Tr φ 2 M 2 2 2 A.determinant2 (numbers A).determinant2 := by
    refine Tr.congr (k := _) (by unfold determinant2; simp only [numbers_data]; trace hs) (by norm_num) (by norm_num) (by norm_num)
  obtain ⟨d1, d2, d3, d4, d5, d6, d7⟩ := det_near hs hdet (by norm_num) (by norm_num) hK
  have hne : A.determinant2.val ≠ 0 := by
    intro h0
    rw [h0, zero_sub, abs_neg] at d2
    have := mul_le_mul_of_nonneg_right d6 d4.le
    linarith
  obtain ⟨E, hE⟩ : ∃ E, (numbers A).tryInverse2 = some E := by
    cases h : (numbers A).tryInverse2 with
    | some E => exact ⟨E, rfl⟩
    | none =>
      have := (C18_try_inverse2.none_iff _).mp h
      rw [← C17_det2] at this
      rw [this, abs_zero] at d4
      exact absurd d4 (lt_irrefl _)
  have i1 := C18_try_inverse2.right _ _ hE
  have i2 := C18_try_inverse2.left _ _ hE
  have hD : (numbers A).determinant2 ≠ 0 := abs_pos.mp d4
  have key := fun c x (h : Tr φ 2 M 1 1 0 x c) => inverse_entry_near hs (by norm_num) hdet (by norm_num) (by norm_num) hK h
    (by norm_num) (by norm_num) (C := 22) (by norm_num)
  refine ⟨_, E, by rw [tryInverse2]; simp only [nonzero_beq d1 hne]; rfl, i1, i2, ?_⟩
  simp only [tryInverse2, beq_iff_eq, hD, if_false, Option.some.injEq] at hE
  subst hE
  intro c r
  fin_cases c <;> fin_cases r <;>
  · simp only [new2x2, numbers_data]
    refine key _ _ ?_
    refine Tr.congr (by trace hs) (by norm_num) (by norm_num) (by norm_num)

/-- **C103.**  3x3 matrices: the inverse is found and every entry is within `317 K ^ 2 / M` roundings of the exact one. -/
theorem inverse3_near {A : Mat (Ieee φ) 3 3} (hA : Entries M A) (hs : Sizes φ 3 M K)
    (hK : M ^ 3 ≤ K * |leibniz (numbers A)|) : InvertedM tryInverse3 A (317 * K ^ 2 * φ.u / M) := by
  rw [← C17_det3] at hK
  have hdet : Tr φ 3 M 6 3 7 A.determinant3 (numbers A).determinant3 := by
    refine Tr.congr (k := _) (by unfold determinant3; simp only [numbers_data]; trace hs) (by norm_num) (by norm_num) (by norm_num)
  obtain ⟨d1, d2, d3, d4, d5, d6, d7⟩ := det_near hs hdet (by norm_num) (by norm_num) hK
  have hne : A.determinant3.val ≠ 0 := by
    intro h0
    rw [h0, zero_sub, abs_neg] at d2
    have := mul_le_mul_of_nonneg_right d6 d4.le
    linarith
  obtain ⟨E, hE⟩ : ∃ E, (numbers A).tryInverse3 = some E := by
    cases h : (numbers A).tryInverse3 with
    | some E => exact ⟨E, rfl⟩
    | none =>
      have := (C18_try_inverse3.none_iff _).mp h
      rw [← C17_det3] at this
      rw [this, abs_zero] at d4
      exact absurd d4 (lt_irrefl _)
  have i1 := C18_try_inverse3.right _ _ hE
  have i2 := C18_try_inverse3.left _ _ hE
  have hD : (numbers A).determinant3 ≠ 0 := abs_pos.mp d4
  have key := fun c x (h : Tr φ 3 M 2 2 2 x c) => inverse_entry_near hs (by norm_num) hdet (by norm_num) (by norm_num) hK h
    (by norm_num) (by norm_num) (C := 317) (by norm_num)
  refine ⟨_, E, by rw [tryInverse3]; simp only [nonzero_beq d1 hne]; rfl, i1, i2, ?_⟩
  simp only [tryInverse3, beq_iff_eq, hD, if_false, Option.some.injEq] at hE
  subst hE
  intro c r
  fin_cases c <;> fin_cases r <;>
  · simp only [new3x3, numbers_data]
    refine key _ _ ?_
    refine Tr.congr (by trace hs) (by norm_num) (by norm_num) (by norm_num)

/-- **C103.**  4x4 matrices: the inverse is found and every entry is within `11405 K ^ 2 / M` roundings of the exact one. -/
theorem inverse4_near {A : Mat (Ieee φ) 4 4} (hA : Entries M A) (hs : Sizes φ 4 M K)
    (hK : M ^ 4 ≤ K * |leibniz (numbers A)|) : InvertedM tryInverse4 A (11405 * K ^ 2 * φ.u / M) := by
  rw [← C17_det4] at hK
  have hdet : Tr φ 4 M 24 4 26 A.determinant4 (numbers A).determinant4 := by
    refine Tr.congr (k := _) (by unfold determinant4; simp only [numbers_data]; trace hs) (by norm_num) (by norm_num) (by norm_num)
  obtain ⟨d1, d2, d3, d4, d5, d6, d7⟩ := det_near hs hdet (by norm_num) (by norm_num) hK
  have hne : A.determinant4.val ≠ 0 := by
    intro h0
    rw [h0, zero_sub, abs_neg] at d2
    have := mul_le_mul_of_nonneg_right d6 d4.le
    linarith
  obtain ⟨E, hE⟩ : ∃ E, (numbers A).tryInverse4 = some E := by
    cases h : (numbers A).tryInverse4 with
    | some E => exact ⟨E, rfl⟩
    | none =>
      have := (C18_try_inverse4.none_iff _).mp h
      rw [← C17_det4] at this
      rw [this, abs_zero] at d4
      exact absurd d4 (lt_irrefl _)
  have i1 := C18_try_inverse4.right _ _ hE
  have i2 := C18_try_inverse4.left _ _ hE
  have hD : (numbers A).determinant4 ≠ 0 := abs_pos.mp d4
  have key := fun c x (h : Tr φ 4 M 6 3 7 x c) => inverse_entry_near hs (by norm_num) hdet (by norm_num) (by norm_num) hK h
    (by norm_num) (by norm_num) (C := 11405) (by norm_num)
  refine ⟨_, E, by rw [tryInverse4]; simp only [nonzero_beq d1 hne]; rfl, i1, i2, ?_⟩
  simp only [tryInverse4, beq_iff_eq, hD, if_false, Option.some.injEq] at hE
  subst hE
  intro c r
  fin_cases c <;> fin_cases r <;>
  · simp only [new4x4, numbers_data]
    refine key _ _ ?_
    refine Tr.congr (by trace hs) (by norm_num) (by norm_num) (by norm_num)

/-- **C103.**  2x2 matrices: the inverse is found and every entry is within `22 K ^ 2 / M` roundings of the exact one. -/
theorem C103_inverse2 {A : Mat (Ieee φ) 2 2} (hA : Entries M A) (hs : Sizes φ 2 M K)
    (hK : M ^ 2 ≤ K * |(exactly A).det|) : Inverted tryInverse2 A (22 * K ^ 2 * φ.u / M) :=
  inverted_of (inverse2_near hA hs (by rw [leibniz_eq]; exact hK))

/-- **C103.**  3x3 matrices: the inverse is found and every entry is within `317 K ^ 2 / M` roundings of the exact one. -/
theorem C103_inverse3 {A : Mat (Ieee φ) 3 3} (hA : Entries M A) (hs : Sizes φ 3 M K)
    (hK : M ^ 3 ≤ K * |(exactly A).det|) : Inverted tryInverse3 A (317 * K ^ 2 * φ.u / M) :=
  inverted_of (inverse3_near hA hs (by rw [leibniz_eq]; exact hK))

/-- **C103.**  4x4 matrices: the inverse is found and every entry is within `11405 K ^ 2 / M` roundings of the exact one. -/
theorem C103_inverse4 {A : Mat (Ieee φ) 4 4} (hA : Entries M A) (hs : Sizes φ 4 M K)
    (hK : M ^ 4 ≤ K * |(exactly A).det|) : Inverted tryInverse4 A (11405 * K ^ 2 * φ.u / M) :=
  inverted_of (inverse4_near hA hs (by rw [leibniz_eq]; exact hK))

end Inverses

/-! ### the formats -/

/-- a range of sizes for a format in which numbers between `2 ^ -e` and `2 ^ e` fit -/
theorem sizes_of {e p j : ℕ} (hu : φ.u ≤ 1 / 1000000) (hfits : ∀ a : ℝ, 1 ≤ 2 ^ e * a → a ≤ 2 ^ e → Fits φ a) {M K : ℝ} (hn : n ≤ 4)
    (h1 : 1 ≤ 2 ^ p * M) (h2 : M ≤ 2 ^ p) (hK : K ≤ 2 ^ j) (he : 4 * p + j + 5 ≤ e) (ht : 1311 * K * φ.u ≤ 1 / 1100) : Sizes φ n M K := by
  have hM : 0 < M := by
    by_contra hc
    have := mul_nonpos_of_nonneg_of_nonpos (show (0 : ℝ) ≤ 2 ^ p by positivity) (not_lt.mp hc)
    linarith
  have pw : ∀ {a b : ℕ}, a ≤ b → (2 : ℝ) ^ a ≤ 2 ^ b := fun h => pow_le_pow_right₀ one_le_two h
  have hpow : ∀ d ≤ 4, 1 ≤ (2 : ℝ) ^ (4 * p) * M ^ d ∧ M ^ d ≤ 2 ^ (4 * p) := by
    intro d hd
    have a : (2 : ℝ) ^ (p * d) ≤ 2 ^ (4 * p) := pw (by rw [mul_comm]; exact Nat.mul_le_mul_right p hd)
    constructor
    · have : (1 : ℝ) ≤ (2 ^ p * M) ^ d := one_le_pow₀ h1
      rw [mul_pow, ← pow_mul] at this
      exact this.trans (mul_le_mul_of_nonneg_right a (by positivity))
    · have := pow_le_pow_left₀ hM.le h2 d
      rw [← pow_mul] at this
      exact this.trans a
  have hE : (2 : ℝ) ^ (4 * p) * 2 ^ j * 32 ≤ 2 ^ e := by
    have := pw he
    rw [pow_add, pow_add] at this
    norm_num at this ⊢
    exact this
  have hj : (1 : ℝ) ≤ 2 ^ j := one_le_pow₀ one_le_two
  have hH : (1 : ℝ) ≤ 2 ^ (4 * p) := one_le_pow₀ one_le_two
  set H : ℝ := 2 ^ (4 * p) with hHdef
  set J : ℝ := 2 ^ j
  set X : ℝ := 2 ^ e
  have hHJ : H ≤ H * J := le_mul_of_one_le_right (by linarith) hj
  have hHX : H * 32 ≤ X := by linarith
  have hDrange : ∀ D, 0 < D → M ^ n ≤ K * D → D ≤ 24 * M ^ n → 0 < K ∧ 1 / D ≤ K / M ^ n ∧ 1 / (24 * M ^ n) ≤ 1 / D := by
    intro D hD a b
    have hMn := pow_pos hM n
    refine ⟨?_, ?_, one_div_le_one_div_of_le hD b⟩
    · by_contra hc
      have := mul_nonpos_of_nonpos_of_nonneg (not_lt.mp hc) hD.le
      linarith
    · rw [div_le_div_iff₀ hD hMn]; linarith
  refine ⟨hu, hM, ?_, ?_, ?_, ht⟩
  · intro w d w1 w2 hd
    obtain ⟨a, b⟩ := hpow d (hd.trans hn)
    have w1' : (1 : ℝ) ≤ w := by exact_mod_cast w1
    have w2' : (w : ℝ) ≤ 24 := by exact_mod_cast w2
    have hMd : 0 < M ^ d := pow_pos hM d
    refine hfits _ ?_ ?_
    · calc (1 : ℝ) ≤ H * M ^ d := a
        _ ≤ X * (w * M ^ d) := mul_le_mul (by linarith) (le_mul_of_one_le_left hMd.le w1') hMd.le (by linarith)
    · calc w * M ^ d ≤ 24 * H := mul_le_mul w2' b hMd.le (by norm_num)
        _ ≤ X := by linarith
  · intro D hD a b
    obtain ⟨k0, k1, k2⟩ := hDrange D hD a b
    obtain ⟨m1, m2⟩ := hpow n hn
    have hMn := pow_pos hM n
    refine hfits _ ?_ ?_
    · have : 1 ≤ X * (1 / (24 * M ^ n)) := by
        rw [mul_one_div, le_div_iff₀ (by positivity), one_mul]
        linarith
      exact this.trans (mul_le_mul_of_nonneg_left k2 (by linarith))
    · refine k1.trans ?_
      rw [div_le_iff₀ hMn]
      have q1 : K * 1 ≤ J * (H * M ^ n) := mul_le_mul hK m1 zero_le_one (by linarith)
      have q2 : H * J * M ^ n ≤ X * M ^ n := mul_le_mul_of_nonneg_right (by linarith) hMn.le
      linarith
  · intro w D w1 w2 hD a b
    obtain ⟨k0, k1, k2⟩ := hDrange D hD a b
    have w1' : (1 : ℝ) ≤ w := by exact_mod_cast w1
    have w2' : (w : ℝ) ≤ 6 := by exact_mod_cast w2
    have hMn := pow_pos hM n
    have hMn1 := pow_pos hM (n - 1)
    have hHJ0 : 0 < H * J := by positivity
    rcases Nat.eq_zero_or_pos n with h0 | h0
    · subst h0
      simp only [pow_zero, mul_one, Nat.zero_sub] at *
      refine hfits _ ?_ ?_
      · have q1 : 1 / 24 * 1 ≤ 1 / D * w := mul_le_mul k2 w1' zero_le_one (by positivity)
        have q2 := mul_le_mul_of_nonneg_left q1 (show 0 ≤ X by linarith)
        linarith
      · have q1 : 1 / D * w ≤ J * 6 := mul_le_mul (k1.trans (by rw [div_one]; exact hK)) w2' (by linarith) (by linarith)
        have : J ≤ H * J := le_mul_of_one_le_left (by linarith) hH
        linarith
    · have e : M ^ n = M ^ (n - 1) * M := by rw [← pow_succ]; congr 1; omega
      obtain ⟨m1, m2⟩ := hpow 1 (by norm_num)
      rw [pow_one] at m1 m2
      refine hfits _ ?_ ?_
      · have q : 1 / (24 * M) ≤ 1 / D * (w * M ^ (n - 1)) := by
          calc 1 / (24 * M) = 1 / (24 * M ^ n) * (1 * M ^ (n - 1)) := by rw [e]; field_simp
            _ ≤ _ := mul_le_mul k2 (mul_le_mul_of_nonneg_right w1' hMn1.le) (by positivity) (by positivity)
        have : 1 ≤ X * (1 / (24 * M)) := by
          rw [mul_one_div, le_div_iff₀ (by positivity), one_mul]
          linarith
        exact this.trans (mul_le_mul_of_nonneg_left q (by linarith))
      · have q : 1 / D * (w * M ^ (n - 1)) ≤ 6 * K / M := by
          calc 1 / D * (w * M ^ (n - 1)) ≤ K / M ^ n * (6 * M ^ (n - 1)) :=
                mul_le_mul k1 (mul_le_mul_of_nonneg_right w2' hMn1.le) (by positivity) (by positivity)
            _ = _ := by rw [e]; field_simp
        refine q.trans ?_
        rw [div_le_iff₀ hM]
        have q1 : K * 1 ≤ J * (H * M) := mul_le_mul hK m1 zero_le_one (by linarith)
        have q2 : H * J * 6 * M ≤ X * M := mul_le_mul_of_nonneg_right (by linarith) hM.le
        linarith

theorem two_pow_eq (e : ℕ) : (2 : ℝ) ^ (-(e : ℤ)) * 2 ^ e = 1 := by
  rw [zpow_neg, zpow_natCast]; exact inv_mul_cancel₀ (by positivity)

theorem above_zpow {e : ℕ} {a : ℝ} (h : 1 ≤ 2 ^ e * a) : (2 : ℝ) ^ (-(e : ℤ)) ≤ a := by
  have := two_pow_eq e
  have h2 := mul_le_mul_of_nonneg_left h (show (0 : ℝ) ≤ 2 ^ (-(e : ℤ)) by positivity)
  rw [← mul_assoc, this] at h2
  linarith

/-- `f64`: entries of up to `M` between `2 ^ -200` and `2 ^ 200`, `K` of up to `2 ^ 30` -/
theorem sizes64 {M K : ℝ} (hn : n ≤ 4) (h1 : (2 : ℝ) ^ (-200 : ℤ) ≤ M) (h2 : M ≤ 2 ^ (200 : ℤ)) (hK : K ≤ 2 ^ 30) : Sizes f64 n M K := by
  have hu : f64.u = 2 ^ (-53 : ℤ) := rfl
  refine sizes_of (e := 900) (p := 200) (j := 30) (by rw [hu]; norm_num) ?_ hn ?_ (by exact_mod_cast h2) hK (by norm_num) ?_
  · intro a a1 a2
    refine fits64 ((zpow_le_zpow_right₀ one_le_two (by norm_num)).trans (above_zpow a1)) (a2.trans ?_)
    rw [← zpow_natCast]; exact zpow_le_zpow_right₀ one_le_two (by norm_num)
  · have := two_pow_eq 200
    have h3 := mul_le_mul_of_nonneg_left h1 (show (0 : ℝ) ≤ 2 ^ 200 by positivity)
    rw [mul_comm] at this
    exact le_trans (le_of_eq this.symm) h3
  · have hnn : (0 : ℝ) ≤ 1311 * f64.u := by rw [hu]; positivity
    have := mul_le_mul_of_nonneg_left hK hnn
    have e : (1311 : ℝ) * f64.u * 2 ^ 30 ≤ 1 / 1100 := by rw [hu]; norm_num
    linarith

theorem fits32 {a : ℝ} (h1 : (2 : ℝ) ^ (-126 : ℤ) ≤ a) (h2 : a ≤ 2 ^ (126 : ℤ)) : Fits f32 a := by
  refine ⟨lt_of_lt_of_le (by positivity) h1, ?_, ?_⟩
  · change (2 : ℝ) ^ (-150 : ℤ) ≤ 2 ^ (-24 : ℤ) * a
    calc (2 : ℝ) ^ (-150 : ℤ) = 2 ^ (-24 : ℤ) * 2 ^ (-126 : ℤ) := by rw [← zpow_add₀ two_ne_zero]; norm_num
      _ ≤ _ := mul_le_mul_of_nonneg_left h1 (by positivity)
  · calc 2 * a ≤ 2 * 2 ^ (126 : ℤ) := mul_le_mul_of_nonneg_left h2 (by norm_num)
      _ = 2 ^ (127 : ℤ) := by rw [← zpow_one_add₀ two_ne_zero]; norm_num
      _ ≤ _ := two_zpow_le_big32

/-- `f32`: entries of up to `M` between `2 ^ -25` and `2 ^ 25`, `K` of up to `11` -/
theorem sizes32 {M K : ℝ} (hn : n ≤ 4) (h1 : (2 : ℝ) ^ (-25 : ℤ) ≤ M) (h2 : M ≤ 2 ^ (25 : ℤ)) (hK : K ≤ 11) : Sizes f32 n M K := by
  have hu : f32.u = 2 ^ (-24 : ℤ) := rfl
  refine sizes_of (e := 126) (p := 25) (j := 4) (by rw [hu]; norm_num) ?_ hn ?_ (by exact_mod_cast h2) (by linarith) (by norm_num) ?_
  · intro a a1 a2
    refine fits32 ((zpow_le_zpow_right₀ one_le_two (by norm_num)).trans (above_zpow a1)) (a2.trans ?_)
    rw [← zpow_natCast]; exact zpow_le_zpow_right₀ one_le_two (by norm_num)
  · have := two_pow_eq 25
    have h3 := mul_le_mul_of_nonneg_left h1 (show (0 : ℝ) ≤ 2 ^ 25 by positivity)
    rw [mul_comm] at this
    exact le_trans (le_of_eq this.symm) h3
  · rw [hu]
    have : (1311 : ℝ) * K * 2 ^ (-24 : ℤ) ≤ 1311 * 11 * 2 ^ (-24 : ℤ) := by gcongr
    refine this.trans (by norm_num)

/-- **C103.**  `f64`: the determinant decides. -/
theorem C103_f64 {M K : ℝ} (h1 : (2 : ℝ) ^ (-200 : ℤ) ≤ M) (h2 : M ≤ 2 ^ (200 : ℤ)) (hK : K ≤ 2 ^ 30) :
    (∀ A : Mat (Ieee f64) 2 2, Entries M A → M ^ 2 ≤ K * |(exactly A).det| → Inverted tryInverse2 A (22 * K ^ 2 * 2 ^ (-53 : ℤ) / M)) ∧
    (∀ A : Mat (Ieee f64) 3 3, Entries M A → M ^ 3 ≤ K * |(exactly A).det| → Inverted tryInverse3 A (317 * K ^ 2 * 2 ^ (-53 : ℤ) / M)) ∧
    (∀ A : Mat (Ieee f64) 4 4, Entries M A → M ^ 4 ≤ K * |(exactly A).det| →
      Inverted tryInverse4 A (11405 * K ^ 2 * 2 ^ (-53 : ℤ) / M)) :=
  ⟨fun _ hA h => C103_inverse2 hA (sizes64 (by norm_num) h1 h2 hK) h, fun _ hA h => C103_inverse3 hA (sizes64 (by norm_num) h1 h2 hK) h,
    fun _ hA h => C103_inverse4 hA (sizes64 (by norm_num) h1 h2 hK) h⟩

/-- **C103.**  `f32` -/
theorem C103_f32 {M K : ℝ} (h1 : (2 : ℝ) ^ (-25 : ℤ) ≤ M) (h2 : M ≤ 2 ^ (25 : ℤ)) (hK : K ≤ 11) :
    (∀ A : Mat (Ieee f32) 2 2, Entries M A → M ^ 2 ≤ K * |(exactly A).det| → Inverted tryInverse2 A (22 * K ^ 2 * 2 ^ (-24 : ℤ) / M)) ∧
    (∀ A : Mat (Ieee f32) 3 3, Entries M A → M ^ 3 ≤ K * |(exactly A).det| → Inverted tryInverse3 A (317 * K ^ 2 * 2 ^ (-24 : ℤ) / M)) ∧
    (∀ A : Mat (Ieee f32) 4 4, Entries M A → M ^ 4 ≤ K * |(exactly A).det| →
      Inverted tryInverse4 A (11405 * K ^ 2 * 2 ^ (-24 : ℤ) / M)) :=
  ⟨fun _ hA h => C103_inverse2 hA (sizes32 (by norm_num) h1 h2 hK) h, fun _ hA h => C103_inverse3 hA (sizes32 (by norm_num) h1 h2 hK) h,
    fun _ hA h => C103_inverse4 hA (sizes32 (by norm_num) h1 h2 hK) h⟩

/-! ### multiplying back -/

/-- **C103.**  The exact product of the matrix and its computed inverse, in either order, differs from the identity by at
most `n M` times the error of the entries. -/
theorem C103_residual {f : Mat (Ieee φ) n n → Option (Mat (Ieee φ) n n)} {A : Mat (Ieee φ) n n} {M ε : ℝ} (hA : Entries M A)
    (h : Inverted f A ε) : ∃ B, f A = some B ∧ ∀ r c,
      |(exactly A * exactly B - 1) r c| ≤ n * M * ε ∧ |(exactly B * exactly A - 1) r c| ≤ n * M * ε := by
  obtain ⟨B, E, hB, h1, h2, h3⟩ := h
  refine ⟨B, hB, fun r c => ?_⟩
  have bound : ∀ g : Fin n → ℝ, (∀ i, |g i| ≤ M * ε) → |∑ i, g i| ≤ n * M * ε := by
    intro g hg
    refine (Finset.abs_sum_le_sum_abs _ _).trans ((Finset.sum_le_sum fun i _ => hg i).trans (le_of_eq ?_))
    rw [Finset.sum_const, Finset.card_univ, Fintype.card_fin, nsmul_eq_mul]; ring
  constructor
  · rw [← h1, ← Matrix.mul_sub, Matrix.mul_apply]
    refine bound _ fun i => ?_
    rw [abs_mul]
    exact mul_le_mul (hA _ _).2 (h3 _ _).2 (abs_nonneg _) ((abs_nonneg _).trans (hA c r).2)
  · rw [← h2, ← Matrix.sub_mul, Matrix.mul_apply]
    refine bound _ fun i => ?_
    rw [abs_mul, mul_comm]
    exact mul_le_mul (hA _ _).2 (h3 _ _).2 (abs_nonneg _) ((abs_nonneg _).trans (hA c r).2)

/-! ### outside the range -/

/-- `t` times the identity -/
def Spec.uniform [Zero S] (t : S) : Mat S n n := ⟨fun c r => if c = r then t else 0⟩

section Uniform

/-- a positive number -/
def Positive (x : Ieee φ) : Prop := ∃ m h, 0 < m ∧ x = fin false m h

theorem pos_mul_zero {x : Ieee φ} (h : Positive x) : x * 0 = 0 ∧ 0 * x = 0 ∧ x + 0 = x ∧ x - 0 = x := by
  obtain ⟨m, hm, hp, rfl⟩ := h
  have hb : (0 : ℝ) ≤ φ.big := zero_le_one.trans φ.one_le_big
  have r0 : (Ieee.round false 0 : Ieee φ) = 0 := by
    unfold Ieee.round
    simp only [abs_zero, φ.zero, if_true]
    rw [dif_pos hb]; rfl
  have rm : ∀ s, (Ieee.round s m : Ieee φ) = fin false m hm := fun s => by
    unfold Ieee.round
    simp only [abs_of_pos hp, hm.2.2, hp.ne', if_false, not_lt.mpr hp.le, decide_false]
    rw [dif_pos hm.2.1]
  refine ⟨?_, ?_, ?_, ?_⟩
  · change Ieee.round (false ^^ false) (signed false m * signed false 0) = _
    simp only [signed, Bool.false_eq_true, if_false, mul_zero]; exact r0
  · change Ieee.round (false ^^ false) (signed false 0 * signed false m) = _
    simp only [signed, Bool.false_eq_true, if_false, zero_mul]; exact r0
  · change Ieee.round (false && false) (signed false m + signed false 0) = _
    simp only [signed, Bool.false_eq_true, if_false, add_zero]; exact rm _
  · change Ieee.round (false && true) (signed false m + signed true 0) = _
    simp only [signed, Bool.false_eq_true, if_false, if_true, neg_zero, add_zero]; exact rm _

theorem zeros : (0 : Ieee φ) * 0 = 0 ∧ (0 : Ieee φ) + 0 = 0 ∧ (0 : Ieee φ) - 0 = 0 := by
  have hb : (0 : ℝ) ≤ φ.big := zero_le_one.trans φ.one_le_big
  have r0 : (Ieee.round false 0 : Ieee φ) = 0 := by
    unfold Ieee.round
    simp only [abs_zero, φ.zero, if_true]
    rw [dif_pos hb]; rfl
  refine ⟨?_, ?_, ?_⟩
  · change Ieee.round (false ^^ false) (signed false 0 * signed false 0) = _
    simp only [signed, Bool.false_eq_true, if_false, mul_zero]; exact r0
  · change Ieee.round (false && false) (signed false 0 + signed false 0) = _
    simp only [signed, Bool.false_eq_true, if_false, add_zero]; exact r0
  · change Ieee.round (false && true) (signed false 0 + signed true 0) = _
    simp only [signed, Bool.false_eq_true, if_false, if_true, neg_zero, add_zero]; exact r0

theorem inf_zero : (inf false : Ieee φ) + 0 = inf false ∧ (inf false : Ieee φ) - 0 = inf false := ⟨rfl, rfl⟩

theorem uniform_inverse {t t2 t3 : Ieee φ} (h1 : Positive t) (h2 : Positive t2) (h3 : Positive t3) (e2 : t * t = t2) (e3 : t2 * t = t3) :
    (t3 * t = 0 → (uniform t : Mat (Ieee φ) 4 4).tryInverse4 = none) ∧
    (t3 * t = inf false → (uniform t : Mat (Ieee φ) 4 4).tryInverse4 = some (uniform 0)) := by
  obtain ⟨a1, a2, a3, a4⟩ := pos_mul_zero h1
  obtain ⟨b1, b2, b3, b4⟩ := pos_mul_zero h2
  obtain ⟨c1, c2, c3, c4⟩ := pos_mul_zero h3
  obtain ⟨z1, z2, z3⟩ := zeros (φ := φ)
  obtain ⟨i1, i2⟩ := inf_zero (φ := φ)
  have b00 : ((0 : Ieee φ) == 0) = true := by rw [beq_iff]; exact ⟨_, rfl, rfl⟩
  have bi : ((inf false : Ieee φ) == 0) = false := by
    rw [← Bool.not_eq_true, beq_iff]
    rintro ⟨a, h, h'⟩
    have : (0 : Ieee φ).place = some ((0 : ℝ) : EReal) := rfl
    rw [this] at h'
    simp only [place, Bool.false_eq_true, if_false, Option.some.injEq] at h h'
    rw [← h] at h'
    exact EReal.coe_ne_top 0 h'
  have hdiv : (1 : Ieee φ) / inf false = 0 := rfl
  constructor
  · intro e4
    have hd : (uniform t : Mat (Ieee φ) 4 4).determinant4 = 0 := by
      simp [determinant4, uniform, e2, e3, e4, a1, a2, b1, z1, z2, z3]
    rw [tryInverse4]
    simp only [hd, b00, if_true]
  · intro e4
    have hd : (uniform t : Mat (Ieee φ) 4 4).determinant4 = inf false := by
      simp [determinant4, uniform, e2, e3, e4, a1, a2, b1, z1, i1, i2]
    rw [tryInverse4]
    simp only [hd, bi, hdiv]
    simp only [Bool.false_eq_true, if_false, Option.some.injEq]
    ext c r
    fin_cases c <;> fin_cases r <;>
      simp [new4x4, uniform, e2, e3, a1, a2, b1, b2, b3, b4, c2, c3, c4, z1, z2, z3]

/-- `2 ^ k` -/
noncomputable def Spec.twoPow (φ : Format) (k : ℤ) : Ieee φ := Ieee.round false (2 ^ k)

theorem power_fin {k : ℤ} (h1 : φ.fl (2 ^ k) = 2 ^ k) (h2 : (2 : ℝ) ^ k ≤ φ.big) :
    twoPow φ k = fin false (2 ^ k) ⟨by positivity, h2, h1⟩ := by
  have hp : (0 : ℝ) < 2 ^ k := by positivity
  unfold twoPow Ieee.round
  simp only [abs_of_pos hp, h1, hp.ne', if_false, not_lt.mpr hp.le, decide_false]
  rw [dif_pos h2]

theorem power_mul {j k : ℤ} (h1 : φ.fl (2 ^ k) = 2 ^ k) (h2 : (2 : ℝ) ^ k ≤ φ.big) (h3 : φ.fl (2 ^ j) = 2 ^ j) (h4 : (2 : ℝ) ^ j ≤ φ.big) :
    twoPow φ j * twoPow φ k = twoPow φ (j + k) := by
  rw [power_fin h1 h2, power_fin h3 h4]
  change Ieee.round (false ^^ false) (signed false _ * signed false _) = _
  simp only [signed, Bool.false_eq_true, if_false, Bool.xor_self, twoPow]
  rw [← zpow_add₀ two_ne_zero]

/-- a power of two and its second, third and fourth power -/
theorem power_inverse {k : ℤ} (h : ∀ j ∈ [k, 2 * k, 3 * k], φ.fl (2 ^ j) = 2 ^ j ∧ (2 : ℝ) ^ j ≤ φ.big) :
    (twoPow φ (4 * k) = 0 → (uniform (twoPow φ k) : Mat (Ieee φ) 4 4).tryInverse4 = none) ∧
    (twoPow φ (4 * k) = inf false → (uniform (twoPow φ k) : Mat (Ieee φ) 4 4).tryInverse4 = some (uniform 0)) := by
  simp only [List.mem_cons, List.not_mem_nil, or_false, forall_eq_or_imp, forall_eq] at h
  obtain ⟨⟨a, a'⟩, ⟨b, b'⟩, c, c'⟩ := h
  have hpos : ∀ j : ℤ, φ.fl (2 ^ j) = 2 ^ j → (2 : ℝ) ^ j ≤ φ.big → Positive (twoPow φ j) := fun j h1 h2 =>
    ⟨_, _, by positivity, power_fin h1 h2⟩
  have := uniform_inverse (hpos _ a a') (hpos _ b b') (hpos _ c c') (by rw [power_mul a a' a a']; congr 1; ring)
    (by rw [power_mul a a' b b']; congr 1; ring)
  rwa [power_mul a a' c c', show 3 * k + k = 4 * k by ring] at this

theorem uniform_exactM {k : ℤ} (h1 : φ.fl (2 ^ k) = 2 ^ k) (h2 : (2 : ℝ) ^ k ≤ φ.big) (h3 : φ.fl (2 ^ (-k)) = 2 ^ (-k))
    (h4 : (2 : ℝ) ^ (-k) ≤ φ.big) :
    numbers (n := n) (uniform (twoPow φ k)) * numbers (n := n) (uniform (twoPow φ (-k))) = identity := by
  have e : ∀ j : ℤ, φ.fl (2 ^ j) = 2 ^ j → (2 : ℝ) ^ j ≤ φ.big → (twoPow φ j).val = 2 ^ j := fun j a b => by
    rw [power_fin a b]; rfl
  have hz : (0 : Ieee φ).val = 0 := rfl
  ext c r
  rw [Mat.mul_data, identity_data]
  simp only [numbers, uniform]
  rw [Finset.sum_eq_single c]
  · by_cases hc : c = r
    · subst hc
      simp only [if_true, e k h1 h2, e (-k) h3 h4]
      rw [← zpow_add₀ two_ne_zero, add_neg_cancel, zpow_zero]
    · simp only [if_neg hc, hz, zero_mul]
  · intro b _ hb
    simp only [if_neg hb.symm, hz, mul_zero]
  · intro h; exact absurd (Finset.mem_univ c) h

theorem uniform_exact {k : ℤ} (h1 : φ.fl (2 ^ k) = 2 ^ k) (h2 : (2 : ℝ) ^ k ≤ φ.big) (h3 : φ.fl (2 ^ (-k)) = 2 ^ (-k))
    (h4 : (2 : ℝ) ^ (-k) ≤ φ.big) : exactly (n := n) (uniform (twoPow φ k)) * exactly (n := n) (uniform (twoPow φ (-k))) = 1 := by
  rw [← toMatrix_numbers, ← toMatrix_numbers, ← toMatrix_mul, uniform_exactM h1 h2 h3 h4, toMatrix_identity]

end Uniform

theorem fl32_below {x : ℝ} (h : |x| ≤ 2 ^ (-151 : ℤ)) : f32.fl x = 0 := by
  have hp : f32.fl (2 ^ (-151 : ℤ)) = 0 := by
    have := flEven_eq (p := 24) (qmin := some (-149)) (x := 2 ^ (-151 : ℤ)) (e := -151) (m := 0)
      (by rw [abs_of_pos (by positivity)]) (by
        rw [abs_of_pos (by positivity)]; exact zpow_lt_zpow_right₀ one_lt_two (by norm_num)) (by
        simp only [Rounding.lastBit]
        rw [← zpow_sub₀ two_ne_zero, Int.cast_zero, sub_zero, abs_of_pos (by positivity)]
        calc (2 : ℝ) ^ _ < 2 ^ (-1 : ℤ) := zpow_lt_zpow_right₀ one_lt_two (by norm_num)
          _ = 1 / 2 := by norm_num)
    refine (show f32.fl _ = _ from this).trans ?_
    simp
  obtain ⟨h1, h2⟩ := abs_le.mp h
  have a := f32.mono _ _ h1
  have b := f32.mono _ _ h2
  rw [f32.neg, hp] at a
  rw [hp] at b
  linarith

theorem power_under {k : ℤ} (h : φ.fl (2 ^ k) = 0) : twoPow φ k = 0 := by
  have hp : (0 : ℝ) < 2 ^ k := by positivity
  have hb : (0 : ℝ) ≤ φ.big := zero_le_one.trans φ.one_le_big
  unfold twoPow Ieee.round
  simp only [abs_of_pos hp, h, hp.ne', if_false, not_lt.mpr hp.le, decide_false]
  rw [dif_pos hb]; rfl

theorem power_over {k : ℤ} (h : φ.fl (2 ^ k) = 2 ^ k) (h2 : φ.big < 2 ^ k) : twoPow φ k = inf false := by
  have hp : (0 : ℝ) < 2 ^ k := by positivity
  unfold twoPow Ieee.round
  simp only [abs_of_pos hp, h, hp.ne', if_false, not_lt.mpr hp.le, decide_false]
  rw [dif_neg (not_le.mpr h2)]

/-- **C103.**  Outside the range of sizes the claim is false, even of `2 ^ k` times the identity, whose inverse `2 ^ -k` times the
identity can be represented exactly: its determinant underflows and the matrix is rejected, or it overflows, and the 'inverse' is
the zero matrix.  `f64` -/
theorem C103_uniform64_fails (k : ℤ) :
    (-358 ≤ k → k ≤ -269 → (uniform (twoPow f64 k) : Mat (Ieee f64) 4 4).tryInverse4 = none) ∧
    (256 ≤ k → k ≤ 341 → (uniform (twoPow f64 k) : Mat (Ieee f64) 4 4).tryInverse4 = some (uniform 0)) ∧
    (-358 ≤ k → k ≤ 341 → exactly (n := 4) (uniform (twoPow f64 k)) * exactly (n := 4) (uniform (twoPow f64 (-k))) = 1) := by
  have ok : ∀ j : ℤ, -1074 ≤ j → j ≤ 1023 → f64.fl (2 ^ j) = 2 ^ j ∧ (2 : ℝ) ^ j ≤ f64.big := fun j a b =>
    ⟨fl64_two_zpow a, two_zpow_le_big b⟩
  refine ⟨fun h1 h2 => (power_inverse ?_).1 (power_under (fl64_below ?_)), fun h1 h2 => (power_inverse ?_).2
    (power_over (fl64_two_zpow (by omega)) ?_), fun h1 h2 => uniform_exact (ok _ ?_ ?_).1 (ok _ ?_ ?_).2 (ok _ ?_ ?_).1 (ok _ ?_ ?_).2⟩
  · simp only [List.mem_cons, List.not_mem_nil, or_false, forall_eq_or_imp, forall_eq]
    exact ⟨ok _ (by omega) (by omega), ok _ (by omega) (by omega), ok _ (by omega) (by omega)⟩
  · rw [abs_of_pos (by positivity)]; exact zpow_le_zpow_right₀ one_le_two (by omega)
  · simp only [List.mem_cons, List.not_mem_nil, or_false, forall_eq_or_imp, forall_eq]
    exact ⟨ok _ (by omega) (by omega), ok _ (by omega) (by omega), ok _ (by omega) (by omega)⟩
  · refine lt_of_lt_of_le ?_ (zpow_le_zpow_right₀ one_le_two (show (1024 : ℤ) ≤ 4 * k by omega))
    change ((2 : ℝ) ^ 53 - 1) * 2 ^ 971 < 2 ^ (1024 : ℤ)
    rw [show (2 : ℝ) ^ (1024 : ℤ) = 2 ^ 53 * 2 ^ 971 from by rw [← pow_add]; exact_mod_cast rfl]
    exact mul_lt_mul_of_pos_right (by linarith) (by positivity)
  all_goals omega

/-- **C103.**  The same in `f32`, where numbers like `4e-12` and `4e9` are out of the range -/
theorem C103_uniform32_fails (k : ℤ) :
    (-49 ≤ k → k ≤ -38 → (uniform (twoPow f32 k) : Mat (Ieee f32) 4 4).tryInverse4 = none) ∧
    (32 ≤ k → k ≤ 42 → (uniform (twoPow f32 k) : Mat (Ieee f32) 4 4).tryInverse4 = some (uniform 0)) ∧
    (-49 ≤ k → k ≤ 42 → exactly (n := 4) (uniform (twoPow f32 k)) * exactly (n := 4) (uniform (twoPow f32 (-k))) = 1) := by
  have ok : ∀ j : ℤ, -149 ≤ j → j ≤ 127 → f32.fl (2 ^ j) = 2 ^ j ∧ (2 : ℝ) ^ j ≤ f32.big := fun j a b =>
    ⟨fl32_two_zpow a, (zpow_le_zpow_right₀ one_le_two b).trans two_zpow_le_big32⟩
  refine ⟨fun h1 h2 => (power_inverse ?_).1 (power_under (fl32_below ?_)), fun h1 h2 => (power_inverse ?_).2
    (power_over (fl32_two_zpow (by omega)) ?_), fun h1 h2 => uniform_exact (ok _ ?_ ?_).1 (ok _ ?_ ?_).2 (ok _ ?_ ?_).1 (ok _ ?_ ?_).2⟩
  · simp only [List.mem_cons, List.not_mem_nil, or_false, forall_eq_or_imp, forall_eq]
    exact ⟨ok _ (by omega) (by omega), ok _ (by omega) (by omega), ok _ (by omega) (by omega)⟩
  · rw [abs_of_pos (by positivity)]; exact zpow_le_zpow_right₀ one_le_two (by omega)
  · simp only [List.mem_cons, List.not_mem_nil, or_false, forall_eq_or_imp, forall_eq]
    exact ⟨ok _ (by omega) (by omega), ok _ (by omega) (by omega), ok _ (by omega) (by omega)⟩
  · refine lt_of_lt_of_le ?_ (zpow_le_zpow_right₀ one_le_two (show (128 : ℤ) ≤ 4 * k by omega))
    change ((2 : ℝ) ^ 24 - 1) * 2 ^ 104 < 2 ^ (128 : ℤ)
    norm_num
  all_goals omega

/-- **C103.**  A number: the `1` by `1` matrix is inverted within `3 * 2 ^ -53` of the size of its reciprocal. -/
theorem C103_inverse1 {A : Mat (Ieee f64) 1 1} (hf : (A.data 0 0).Finite) (h1 : (2 : ℝ) ^ (-1000 : ℤ) ≤ |(A.data 0 0).val|)
    (h2 : |(A.data 0 0).val| ≤ 2 ^ (1000 : ℤ)) :
    Inverted tryInverse1 A (3 * 2 ^ (-53 : ℤ) / |(A.data 0 0).val|) := by
  set a := A.data 0 0 with ha
  have hpos : 0 < |a.val| := lt_of_lt_of_le (by positivity) h1
  have h0 : a.val ≠ 0 := abs_pos.mp hpos
  have hfit : Fits f64 (1 / |a.val|) := by
    refine fits64 ?_ ?_
    · rw [le_div_iff₀ hpos]
      calc (2 : ℝ) ^ (-1020 : ℤ) * |a.val| ≤ 2 ^ (-1020 : ℤ) * 2 ^ (1000 : ℤ) := mul_le_mul_of_nonneg_left h2 (by positivity)
        _ = 2 ^ (-20 : ℤ) := by rw [← zpow_add₀ two_ne_zero]; norm_num
        _ ≤ 1 := by norm_num
    · rw [div_le_iff₀ hpos]
      calc (1 : ℝ) = 2 ^ (1000 : ℤ) * 2 ^ (-1000 : ℤ) := by rw [← zpow_add₀ two_ne_zero]; norm_num
        _ ≤ _ := mul_le_mul_of_nonneg_left h1 (by positivity)
  have hu : f64.u = 2 ^ (-53 : ℤ) := rfl
  obtain ⟨r1, r2⟩ := hfit.round (by rw [hu]; norm_num) (z := 1 / a.val) (by
    rw [abs_div, abs_one]
    have := hfit.pos
    linarith)
  have onev : (1 : Ieee f64).val = 1 := rfl
  have hif := finite_div_of finite_one hf h0 (by rw [onev]; exact r1)
  have hv := (val_div hif hf).1
  rw [onev] at hv
  refine inverted_of ⟨new1x1 (1 / a), new1x1 (1 / a.val), ?_, ?_, ?_, ?_⟩
  · simp only [tryInverse1, determinant1, ← ha, nonzero_beq hf h0, Bool.false_eq_true, if_false]
  · ext c r
    fin_cases c; fin_cases r
    rw [Mat.mul_data, identity_data, Fin.sum_univ_one, numbers_data]
    simp only [new1x1_data]
    simp [← ha, h0]
  · ext c r
    fin_cases c; fin_cases r
    rw [Mat.mul_data, identity_data, Fin.sum_univ_one, numbers_data]
    simp only [new1x1_data]
    simp [← ha, h0]
  · intro c r
    fin_cases c; fin_cases r
    refine ⟨hif, ?_⟩
    change |(1 / a).val - 1 / a.val| ≤ _
    rw [hv]
    refine r2.trans ?_
    rw [hu, mul_one_div]
    exact div_le_div_of_nonneg_right (by norm_num) hpos.le

/-! ### the hypotheses are met -/

section Example

/-- two blocks on the diagonal and one beside them -/
noncomputable def example4 : Mat (Ieee f64) 4 4 :=
  new4x4 (num 3) 1 0 0 1 (num 4) 0 0 (num 4) 0 (num 3) 1 0 (num 4) 1 (num 4)

theorem example4_entries : Entries 4 example4 := by
  have h3 : Is (num 3) 3 := is_num' (fl64 1 6755399441055744) (by norm_num)
  have h4 : Is (num 4) 4 := is_num' (fl64 2 4503599627370496) (by norm_num)
  have e3 : (num 3).Finite ∧ |(num 3).val| ≤ 4 := ⟨h3.1, by rw [h3.2]; norm_num⟩
  have e4 : (num 4).Finite ∧ |(num 4).val| ≤ 4 := ⟨h4.1, by rw [h4.2]; norm_num⟩
  have e1 : (1 : Ieee f64).Finite ∧ |(1 : Ieee f64).val| ≤ 4 := ⟨finite_one, by rw [show (1 : Ieee f64).val = 1 from rfl]; norm_num⟩
  have e0 : (0 : Ieee f64).Finite ∧ |(0 : Ieee f64).val| ≤ 4 := ⟨finite_zero, by rw [show (0 : Ieee f64).val = 0 from rfl]; norm_num⟩
  intro c r
  fin_cases c <;> fin_cases r <;> first | exact e3 | exact e4 | exact e1 | exact e0

theorem example4_det : (exactly example4).det = 121 := by
  have h3 : Is (num 3) 3 := is_num' (fl64 1 6755399441055744) (by norm_num)
  have h4 : Is (num 4) 4 := is_num' (fl64 2 4503599627370496) (by norm_num)
  have e1 : (1 : Ieee f64).val = 1 := rfl
  have e0 : (0 : Ieee f64).val = 0 := rfl
  rw [← toMatrix_numbers, ← leibniz_eq, ← C17_det4]
  simp [determinant4, numbers, example4, new4x4, h3.2, h4.2, e1, e0]
  norm_num

/-- a matrix is inverted in `f64`, every entry within `10 ^ -11` -/
example : Inverted tryInverse4 example4 (10 ^ (-11 : ℤ)) := by
  obtain ⟨B, E, a, b, c, d⟩ := (C103_f64 (M := 4) (K := 3) (by norm_num) (by norm_num) (by norm_num)).2.2 example4 example4_entries (by
    rw [example4_det]; norm_num)
  exact ⟨B, E, a, b, c, fun i j => ⟨(d i j).1, (d i j).2.trans (by norm_num)⟩⟩

/-- and multiplying back gives the identity up to `2 * 10 ^ -10` -/
example : ∃ B, example4.tryInverse4 = some B ∧ ∀ r c,
    |(exactly example4 * exactly B - 1) r c| ≤ 2 * 10 ^ (-10 : ℤ) := by
  obtain ⟨B, h, h'⟩ := C103_residual example4_entries ((C103_f64 (M := 4) (K := 3) (by norm_num) (by norm_num) (by norm_num)).2.2
    example4 example4_entries (by rw [example4_det]; norm_num))
  exact ⟨B, h, fun r c => (h' r c).1.trans (by norm_num)⟩

/-- `f32` -/
example : Inverted tryInverse2 (new2x2 1 1 (-1) 1 : Mat (Ieee f32) 2 2) (2 * 10 ^ (-6 : ℤ)) := by
  have hv : (1 : Ieee f32).val = 1 := rfl
  have hn : (-1 : Ieee f32).val = -1 := by rw [val_neg, hv]
  have e1 : (1 : Ieee f32).Finite ∧ |(1 : Ieee f32).val| ≤ 1 := ⟨finite_one, by rw [hv]; norm_num⟩
  have e2 : (-1 : Ieee f32).Finite ∧ |(-1 : Ieee f32).val| ≤ 1 := ⟨⟨true, 1, _, rfl⟩, by rw [hn]; norm_num⟩
  obtain ⟨B, E, a, b, c, d⟩ := (C103_f32 (M := 1) (K := 1) (by norm_num) (by norm_num) (by norm_num)).1 (new2x2 1 1 (-1) 1) (by
    intro c r
    fin_cases c <;> fin_cases r <;> first | exact e1 | exact e2) (by
    rw [← toMatrix_numbers, ← leibniz_eq, ← C17_det2]
    simp [determinant2, numbers, new2x2, hv, hn]
    norm_num)
  exact ⟨B, E, a, b, c, fun i j => ⟨(d i j).1, (d i j).2.trans (by norm_num)⟩⟩

end Example

end Cgl
