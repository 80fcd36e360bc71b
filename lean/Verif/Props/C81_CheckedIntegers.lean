import Verif.Spec.Checked
import Verif.Props.C66_FloatLaws
import Verif.Props.C68_MachineIntegers

/-! # C81 - integers in debug builds

The division-free functions of the model, run on integers with overflow checks (`Checked φ`): a call that does not
panic returns the exact result, which is also what a release build returns. -/

namespace Cgl
open Mat
open scoped Quaternion

variable {φ : IntFormat} {n N R C R1 C1 C2 : ℕ}

namespace Checked
variable {T : Type*} [CommRing T] {s t : T} {c d : Checked φ}

/-- If `c` did not overflow, then `t` is its value, read in the ring `T`.  For `T = ℤ`: `t` is the exact result; for
`T = BitVec w`: `t` is the wrapped result. -/
def Agrees (t : T) (c : Checked φ) : Prop := ∀ z : ℤ, c.Returns z → t = z

theorem returns_ofInt {z y : ℤ} : (ofInt z : Checked φ).Returns y ↔ φ.Fits z ∧ y = z := by
  unfold ofInt Returns
  constructor
  · rintro ⟨h, e⟩
    split_ifs at e with h'
    exact ⟨h', (Checked.val.inj e).symm⟩
  · rintro ⟨h, rfl⟩
    exact ⟨h, by rw [dif_pos h]⟩

theorem returns_val {z y : ℤ} (h) : (val z h : Checked φ).Returns y ↔ y = z := by
  constructor
  · rintro ⟨_, e⟩; exact (Checked.val.inj e).symm
  · rintro rfl; exact ⟨h, rfl⟩
@[simp] theorem not_returns_overflow {y : ℤ} : ¬(overflow : Checked φ).Returns y := by rintro ⟨_, e⟩; cases e

theorem returns_fits {z : ℤ} (h : c.Returns z) : φ.Fits z := h.1
theorem Returns.unique {y z : ℤ} (h : c.Returns y) (h' : c.Returns z) : y = z := by
  obtain ⟨_, rfl⟩ := h; exact ((returns_val _).mp h').symm

theorem returns_add {y : ℤ} : (c + d).Returns y ↔ ∃ a b, c.Returns a ∧ d.Returns b ∧ φ.Fits (a + b) ∧ y = a + b := by
  cases c with
  | overflow => exact ⟨fun h => absurd h not_returns_overflow, fun ⟨_, _, h, _⟩ => absurd h not_returns_overflow⟩
  | val a ha => cases d with
    | overflow => exact ⟨fun h => absurd h not_returns_overflow, fun ⟨_, _, _, h, _⟩ => absurd h not_returns_overflow⟩
    | val b hb =>
      refine (show (val a ha + val b hb : Checked φ).Returns y ↔ (ofInt (a + b) : Checked φ).Returns y from Iff.rfl).trans
        (returns_ofInt.trans ⟨fun h => ⟨a, b, ⟨ha, rfl⟩, ⟨hb, rfl⟩, h⟩, ?_⟩)
      rintro ⟨a', b', h1, h2, h⟩
      rw [returns_val] at h1 h2; subst h1 h2; exact h
theorem returns_sub {y : ℤ} : (c - d).Returns y ↔ ∃ a b, c.Returns a ∧ d.Returns b ∧ φ.Fits (a - b) ∧ y = a - b := by
  cases c with
  | overflow => exact ⟨fun h => absurd h not_returns_overflow, fun ⟨_, _, h, _⟩ => absurd h not_returns_overflow⟩
  | val a ha => cases d with
    | overflow => exact ⟨fun h => absurd h not_returns_overflow, fun ⟨_, _, _, h, _⟩ => absurd h not_returns_overflow⟩
    | val b hb =>
      refine (show (val a ha - val b hb : Checked φ).Returns y ↔ (ofInt (a - b) : Checked φ).Returns y from Iff.rfl).trans
        (returns_ofInt.trans ⟨fun h => ⟨a, b, ⟨ha, rfl⟩, ⟨hb, rfl⟩, h⟩, ?_⟩)
      rintro ⟨a', b', h1, h2, h⟩
      rw [returns_val] at h1 h2; subst h1 h2; exact h
theorem returns_mul {y : ℤ} : (c * d).Returns y ↔ ∃ a b, c.Returns a ∧ d.Returns b ∧ φ.Fits (a * b) ∧ y = a * b := by
  cases c with
  | overflow => exact ⟨fun h => absurd h not_returns_overflow, fun ⟨_, _, h, _⟩ => absurd h not_returns_overflow⟩
  | val a ha => cases d with
    | overflow => exact ⟨fun h => absurd h not_returns_overflow, fun ⟨_, _, _, h, _⟩ => absurd h not_returns_overflow⟩
    | val b hb =>
      refine (show (val a ha * val b hb : Checked φ).Returns y ↔ (ofInt (a * b) : Checked φ).Returns y from Iff.rfl).trans
        (returns_ofInt.trans ⟨fun h => ⟨a, b, ⟨ha, rfl⟩, ⟨hb, rfl⟩, h⟩, ?_⟩)
      rintro ⟨a', b', h1, h2, h⟩
      rw [returns_val] at h1 h2; subst h1 h2; exact h
theorem returns_neg {y : ℤ} : (-c).Returns y ↔ ∃ a, c.Returns a ∧ φ.Fits (-a) ∧ y = -a := by
  cases c with
  | overflow => exact ⟨fun h => absurd h not_returns_overflow, fun ⟨_, h, _⟩ => absurd h not_returns_overflow⟩
  | val a ha =>
    refine (show (-val a ha : Checked φ).Returns y ↔ (ofInt (-a) : Checked φ).Returns y from Iff.rfl).trans
      (returns_ofInt.trans ⟨fun h => ⟨a, ⟨ha, rfl⟩, h⟩, ?_⟩)
    rintro ⟨a', h1, h⟩
    rw [returns_val] at h1; subst h1; exact h

namespace Agrees
theorem zero : Agrees (0 : T) (0 : Checked φ) := fun z h => by
  have : z = 0 := (returns_val _).mp h
  rw [this, Int.cast_zero]
theorem one : Agrees (1 : T) (1 : Checked φ) := fun z h => by
  have : z = 1 := (returns_val _).mp h
  rw [this, Int.cast_one]
theorem add (h : Agrees s c) (h' : Agrees t d) : Agrees (s + t) (c + d) := fun z hz => by
  obtain ⟨a, b, ha, hb, -, rfl⟩ := returns_add.mp hz
  rw [h a ha, h' b hb, Int.cast_add]
theorem sub (h : Agrees s c) (h' : Agrees t d) : Agrees (s - t) (c - d) := fun z hz => by
  obtain ⟨a, b, ha, hb, -, rfl⟩ := returns_sub.mp hz
  rw [h a ha, h' b hb, Int.cast_sub]
theorem mul (h : Agrees s c) (h' : Agrees t d) : Agrees (s * t) (c * d) := fun z hz => by
  obtain ⟨a, b, ha, hb, -, rfl⟩ := returns_mul.mp hz
  rw [h a ha, h' b hb, Int.cast_mul]
theorem neg (h : Agrees s c) : Agrees (-s) (-c) := fun z hz => by
  obtain ⟨a, ha, -, rfl⟩ := returns_neg.mp hz
  rw [h a ha, Int.cast_neg]
theorem loop {f : Fin n → T} {g : Fin n → Checked φ} (h : ∀ i, Agrees (f i) (g i)) {s : T} {c : Checked φ}
    (h0 : Agrees s c) : Agrees (forRange n s fun i acc => acc + f i) (forRange n c fun i acc => acc + g i) := by
  induction n with
  | zero => simpa
  | succ n ih => rw [forRange_succ, forRange_succ]; exact (ih fun i => h i.castSucc).add (h _)
end Agrees
end Checked

open Checked

/-- component by component -/
def Spec.AgreesV {T : Type*} [CommRing T] (x : Vec T n) (v : Vec (Checked φ) n) : Prop := ∀ i, Agrees (x.data i) (v.data i)
def Spec.AgreesM {T : Type*} [CommRing T] (X : Mat T R C) (A : Mat (Checked φ) R C) : Prop :=
  ∀ c r, Agrees (X.data c r) (A.data c r)
open Spec

section
variable {T : Type*} [CommRing T]

/-- Componentwise operations and `lerp`. -/
theorem C81_vector {x y : Vec T n} {v w : Vec (Checked φ) n} {t : T} {k : Checked φ} (hv : AgreesV x v) (hw : AgreesV y w)
    (hk : Agrees t k) :
    AgreesV (x + y) (v + w) ∧ AgreesV (x - y) (v - w) ∧ AgreesV (-x) (-v) ∧ AgreesV (x * t) (v * k) ∧
    AgreesV (x.componentMul y) (v.componentMul w) ∧ AgreesV (x.lerp y t) (v.lerp w k) := by
  refine ⟨fun i => ?_, fun i => ?_, fun i => ?_, fun i => ?_, fun i => ?_, fun i => ?_⟩
  · simpa using (hv i).add (hw i)
  · simpa using (hv i).sub (hw i)
  · simpa using (hv i).neg
  · simpa using (hv i).mul hk
  · simpa using (hv i).mul (hw i)
  · simpa [Vec.lerp] using (hv i).add (((hw i).sub (hv i)).mul hk)

theorem agrees_dot {x y : Vec T n} {v w : Vec (Checked φ) n} (hv : AgreesV x v) (hw : AgreesV y w) :
    Agrees (x.dot y) (v.dot w) := Agrees.loop (fun i => (hv i).mul (hw i)) Agrees.zero

theorem agrees_cross {x y : Vec T 3} {v w : Vec (Checked φ) 3} (hv : AgreesV x v) (hw : AgreesV y w) :
    AgreesV (x.cross y) (v.cross w) := by
  intro i
  fin_cases i
  · exact ((hv 1).mul (hw 2)).sub ((hv 2).mul (hw 1))
  · exact ((hv 2).mul (hw 0)).sub ((hv 0).mul (hw 2))
  · exact ((hv 0).mul (hw 1)).sub ((hv 1).mul (hw 0))

/-- Scalar products, squared distances. -/
theorem C81_dot {x y : Vec T n} {v w : Vec (Checked φ) n} (hv : AgreesV x v) (hw : AgreesV y w) :
    Agrees (x.dot y) (v.dot w) ∧ Agrees x.normSquared v.normSquared ∧
    Agrees (x.metricDistanceSquared y) (v.metricDistanceSquared w) :=
  ⟨agrees_dot hv hw, agrees_dot hv hv,
    agrees_dot (C81_vector hv hw Agrees.zero).2.1 (C81_vector hv hw Agrees.zero).2.1⟩

/-- Cross and triple products. -/
theorem C81_cross {x y z : Vec T 3} {u v w : Vec (Checked φ) 3} (hu : AgreesV x u) (hv : AgreesV y v) (hw : AgreesV z w) :
    AgreesV (x.cross y) (u.cross v) ∧ Agrees (x.triple y z) (u.triple v w) :=
  ⟨agrees_cross hu hv, agrees_dot (agrees_cross hu hv) hw⟩

/-- Matrix arithmetic. -/
theorem C81_matrix {X X' : Mat T R1 C1} {Y : Mat T C1 C2} {x : Vec T C1} {t : T} {A A' : Mat (Checked φ) R1 C1}
    {B : Mat (Checked φ) C1 C2} {v : Vec (Checked φ) C1} {k : Checked φ} (hA : AgreesM X A) (hA' : AgreesM X' A')
    (hB : AgreesM Y B) (hv : AgreesV x v) (hk : Agrees t k) :
    AgreesM (X * Y) (A * B) ∧ AgreesV (X * x) (A * v) ∧ AgreesM (X + X') (A + A') ∧ AgreesM (X - X') (A - A') ∧
    AgreesM (X * t) (A * k) ∧ AgreesM X.transpose A.transpose ∧ AgreesM (identity : Mat T N N) (identity : Mat (Checked φ) N N) := by
  refine ⟨fun c r => ?_, fun r => ?_, fun c r => ?_, fun c r => ?_, fun c r => ?_, fun c r => ?_, fun c r => ?_⟩
  · rw [mul_entry, mul_entry]
    exact Agrees.loop (fun i => (hA i r).mul (hB c i)) Agrees.zero
  · rw [mulVec_entry, mulVec_entry]
    exact Agrees.loop (fun i => (hA i r).mul (hv i)) Agrees.zero
  · simpa using (hA c r).add (hA' c r)
  · simpa using (hA c r).sub (hA' c r)
  · simpa using (hA c r).mul hk
  · simpa using hA r c
  · rw [identity_data, identity_data]; split
    · exact Agrees.one
    · exact Agrees.zero

/-- Trace and determinants. -/
theorem C81_determinant {X : Mat T N N} {X2 : Mat T 2 2} {X3 : Mat T 3 3} {X4 : Mat T 4 4} {A : Mat (Checked φ) N N}
    {A2 : Mat (Checked φ) 2 2} {A3 : Mat (Checked φ) 3 3} {A4 : Mat (Checked φ) 4 4} (h : AgreesM X A) (h2 : AgreesM X2 A2)
    (h3 : AgreesM X3 A3) (h4 : AgreesM X4 A4) :
    Agrees X.trace A.trace ∧ Agrees X2.determinant2 A2.determinant2 ∧ Agrees X3.determinant3 A3.determinant3 ∧
    Agrees X4.determinant4 A4.determinant4 := by
  refine ⟨Agrees.loop (fun i => h i i) Agrees.zero, ((h2 _ _).mul (h2 _ _)).sub ((h2 _ _).mul (h2 _ _)), ?_, ?_⟩
  · unfold determinant3
    repeat' first | exact h3 _ _ | apply Agrees.sub | apply Agrees.add | apply Agrees.mul
  · unfold determinant4
    repeat' first | exact h4 _ _ | apply Agrees.sub | apply Agrees.add | apply Agrees.mul

/-- Complex numbers. -/
theorem C81_complex {x y : Cx T} {z w : Cx (Checked φ)} (h1 : Agrees x.re z.re) (h2 : Agrees x.im z.im)
    (h3 : Agrees y.re w.re) (h4 : Agrees y.im w.im) :
    (Agrees (x * y).re (z * w).re ∧ Agrees (x * y).im (z * w).im) ∧
    (Agrees (x + y).re (z + w).re ∧ Agrees (x + y).im (z + w).im) ∧
    (Agrees (x - y).re (z - w).re ∧ Agrees (x - y).im (z - w).im) ∧ Agrees x.normSquared z.normSquared :=
  ⟨⟨(h1.mul h3).sub (h2.mul h4), (h1.mul h4).add (h2.mul h3)⟩, ⟨h1.add h3, h2.add h4⟩, ⟨h1.sub h3, h2.sub h4⟩,
    (h1.mul h1).add (h2.mul h2)⟩

/-- Quaternions. -/
theorem C81_quaternion {x y : Quat T} {q r : Quat (Checked φ)} (hq : AgreesV x.coords q.coords)
    (hr : AgreesV y.coords r.coords) : AgreesV (x * y).coords (q * r).coords ∧ AgreesV (x + y).coords (q + r).coords ∧
    AgreesV (x - y).coords (q - r).coords ∧ Agrees x.normSquared q.normSquared := by
  have pq : AgreesV x.vector q.vector := by intro i; fin_cases i; exacts [hq 1, hq 2, hq 3]
  have pr : AgreesV y.vector r.vector := by intro i; fin_cases i; exacts [hr 1, hr 2, hr 3]
  have sq : Agrees x.scalar q.scalar := hq 0
  have sr : Agrees y.scalar r.scalar := hr 0
  have parts : ∀ {a : T} {c : Checked φ} {u : Vec T 3} {v : Vec (Checked φ) 3}, Agrees a c → AgreesV u v →
      AgreesV (Quat.fromParts a u).coords (Quat.fromParts c v).coords := by
    intro a c u v h h' i
    fin_cases i; exacts [h, h' 0, h' 1, h' 2]
  have hx := agrees_cross pq pr
  have h1 := (C81_vector pr pq sq).2.2.2.1
  have h2 := (C81_vector pq pr sr).2.2.2.1
  refine ⟨parts ((sq.mul sr).sub (agrees_dot pq pr)) ((C81_vector (C81_vector h1 h2 sq).1 hx sq).1),
    parts (sq.add sr) (C81_vector pq pr sq).1, parts (sq.sub sr) (C81_vector pq pr sq).2.1, agrees_dot hq hq⟩

end

/-! ### when a debug build panics -/

theorem returns_loop (g : Fin n → Checked φ) (y : ℤ) : (forRange n 0 fun i acc => acc + g i : Checked φ).Returns y ↔
    ∃ a : Fin n → ℤ, (∀ i, (g i).Returns (a i)) ∧
      (∀ k ≤ n, φ.Fits (∑ i with i.val < k, a i)) ∧ y = ∑ i, a i := by
  induction n generalizing y with
  | zero =>
    rw [forRange_zero]
    refine ⟨fun h => ⟨Fin.elim0, fun i => i.elim0, fun k _ => ?_, ?_⟩, ?_⟩
    · simpa using φ.fits_zero
    · simpa using (returns_val _).mp h
    · rintro ⟨a, -, -, rfl⟩
      exact ⟨φ.fits_zero, rfl⟩
  | succ n ih =>
    have hsum : ∀ (a : Fin (n + 1) → ℤ) (k : ℕ), k ≤ n →
        ∑ i : Fin (n + 1) with i.val < k, a i = ∑ i : Fin n with i.val < k, a i.castSucc := by
      intro a k hk
      rw [Finset.sum_filter, Finset.sum_filter, Fin.sum_univ_castSucc, if_neg (by simp; omega), add_zero]
      rfl
    have hall : ∀ (m : ℕ) (a : Fin m → ℤ), ∑ i : Fin m with i.val < m, a i = ∑ i, a i := by
      intro m a
      rw [Finset.filter_true_of_mem fun i _ => i.isLt]
    rw [forRange_succ, returns_add]
    constructor
    · rintro ⟨b, c, hb, hc, hf, rfl⟩
      obtain ⟨a, h1, h2, rfl⟩ := (ih _ b).mp hb
      refine ⟨Fin.snoc (α := fun _ => ℤ) a c, fun i => ?_, fun k hk => ?_, ?_⟩
      · refine Fin.lastCases ?_ (fun j => ?_) i
        · rw [Fin.snoc_last]; exact hc
        · rw [Fin.snoc_castSucc]; exact h1 j
      · rcases Nat.lt_or_ge n k with h | h
        · obtain rfl : k = n + 1 := by omega
          rw [hall, Fin.sum_univ_castSucc]
          simpa using hf
        · rw [hsum _ _ h]; simpa using h2 k h
      · rw [Fin.sum_univ_castSucc]; simp
    · rintro ⟨a, h1, h2, rfl⟩
      have h3 := h2 (n + 1) le_rfl
      rw [hall, Fin.sum_univ_castSucc] at h3
      refine ⟨∑ i : Fin n, a i.castSucc, a (Fin.last n), (ih _ _).mpr ⟨fun i => a i.castSucc, fun i => h1 _,
        fun k hk => ?_, rfl⟩, h1 _, h3, Fin.sum_univ_castSucc _⟩
      have := h2 k (by omega)
      rwa [hsum a k hk] at this

/-- vectors of representable integers -/
def Spec.ReturnsV (v : Vec (Checked φ) n) (a : Fin n → ℤ) : Prop := ∀ i, (v.data i).Returns (a i)

/-- A dot product returns exactly when every product and every partial sum is representable. -/
theorem C81_dot_returns {v w : Vec (Checked φ) n} {a b : Fin n → ℤ} (hv : ReturnsV v a) (hw : ReturnsV w b) (y : ℤ) :
    (v.dot w).Returns y ↔ (∀ i, φ.Fits (a i * b i)) ∧ (∀ k ≤ n, φ.Fits (∑ i with i.val < k, a i * b i)) ∧
      y = ∑ i, a i * b i := by
  have key : ∀ i z, (v.data i * w.data i).Returns z ↔ φ.Fits (a i * b i) ∧ z = a i * b i := by
    intro i z
    rw [returns_mul]
    constructor
    · rintro ⟨p, q, hp, hq, h⟩
      rw [hp.unique (hv i), hq.unique (hw i)] at h; exact h
    · intro h; exact ⟨_, _, hv i, hw i, h⟩
  refine (returns_loop (fun i => v.data i * w.data i) y).trans ⟨?_, ?_⟩
  · rintro ⟨c, h1, h2, rfl⟩
    have hc : c = fun i => a i * b i := funext fun i => ((key i _).mp (h1 i)).2
    subst hc
    exact ⟨fun i => ((key i _).mp (h1 i)).1, h2, rfl⟩
  · rintro ⟨h1, h2, rfl⟩
    exact ⟨_, fun i => (key i _).mpr ⟨h1 i, rfl⟩, h2, rfl⟩

/-- It cannot panic if the sum of the absolute values of the products is in range on both sides. -/
theorem C81_dot_safe {v w : Vec (Checked φ) n} {a b : Fin n → ℤ} (hv : ReturnsV v a) (hw : ReturnsV w b)
    (h1 : ∑ i, |a i * b i| ≤ φ.hi) (h2 : ∑ i, |a i * b i| ≤ -φ.lo) : (v.dot w).Returns (∑ i, a i * b i) := by
  have fits : ∀ s : Finset (Fin n), φ.Fits (∑ i ∈ s, a i * b i) := fun s => by
    have h3 : |∑ i ∈ s, a i * b i| ≤ ∑ i, |a i * b i| :=
      (Finset.abs_sum_le_sum_abs _ _).trans
        (Finset.sum_le_sum_of_subset_of_nonneg (Finset.subset_univ _) fun _ _ _ => abs_nonneg _)
    have := abs_le.mp h3
    exact ⟨by linarith, by linarith⟩
  refine (C81_dot_returns hv hw _).mpr ⟨fun i => ?_, fun k _ => fits _, rfl⟩
  simpa using fits {i}

/-- With unsigned integers it panics exactly when the result is not representable. -/
theorem C81_dot_unsigned (h0 : φ.lo = 0) {v w : Vec (Checked φ) n} {a b : Fin n → ℤ} (hv : ReturnsV v a)
    (hw : ReturnsV w b) : (∃ y, (v.dot w).Returns y) ↔ ∑ i, a i * b i ≤ φ.hi := by
  have pos : ∀ i, 0 ≤ a i * b i := fun i =>
    mul_nonneg (h0 ▸ (returns_fits (hv i)).1) (h0 ▸ (returns_fits (hw i)).1)
  constructor
  · rintro ⟨y, hy⟩
    obtain ⟨-, -, rfl⟩ := (C81_dot_returns hv hw y).mp hy
    exact (returns_fits hy).2
  · intro h
    refine ⟨_, (C81_dot_returns hv hw _).mpr ⟨fun i => ?_, fun k _ => ?_, rfl⟩⟩
    · exact ⟨h0 ▸ pos i, (Finset.single_le_sum (fun j _ => pos j) (Finset.mem_univ i)).trans h⟩
    · exact ⟨h0 ▸ Finset.sum_nonneg fun i _ => pos i,
        (Finset.sum_le_sum_of_subset_of_nonneg (Finset.filter_subset _ _) fun i _ _ => pos i).trans h⟩

/-- A matrix product returns if the entries are bounded by `M` and `K` with `C1 * M * K` in range. -/
theorem C81_matrix_safe {A : Mat (Checked φ) R1 C1} {B : Mat (Checked φ) C1 C2} {a : Fin C1 → Fin R1 → ℤ}
    {b : Fin C2 → Fin C1 → ℤ} (hA : ∀ c r, (A.data c r).Returns (a c r)) (hB : ∀ c r, (B.data c r).Returns (b c r))
    {M K : ℤ} (hM : ∀ c r, |a c r| ≤ M) (hK : ∀ c r, |b c r| ≤ K) (h1 : C1 * (M * K) ≤ φ.hi) (h2 : C1 * (M * K) ≤ -φ.lo)
    (c : Fin C2) (r : Fin R1) : ((A * B).data c r).Returns (∑ k, a k r * b c k) := by
  have e : (A * B).data c r = Vec.dot (⟨fun k => A.data k r⟩ : Vec (Checked φ) C1) ⟨B.data c⟩ := by rw [mul_entry]; rfl
  rw [e]
  have hs : ∑ k, |a k r * b c k| ≤ C1 * (M * K) := by
    calc ∑ k, |a k r * b c k| ≤ ∑ _k : Fin C1, M * K := Finset.sum_le_sum fun k _ => by
          rw [abs_mul]; exact mul_le_mul (hM k r) (hK c k) (abs_nonneg _) ((abs_nonneg _).trans (hM k r))
      _ = C1 * (M * K) := by simp
  exact C81_dot_safe (fun k => hA k r) (fun k => hB c k) (hs.trans h1) (hs.trans h2)

theorem tmod_le_self' {x c : ℤ} (h : 0 ≤ x) : x.tmod c ≤ x := by
  have h1 := Int.natAbs_tmod x c
  have h2 := Nat.mod_le x.natAbs c.natAbs
  omega

/-- Division and remainder by a scalar panic at zero, in every component; otherwise they are those of integers that
truncate, unless the quotient is not representable (the smallest integer by `-1`). -/
theorem C81_division {v : Vec (Checked φ) n} {a : Fin n → ℤ} (hv : ReturnsV v a) {k : Checked φ} {c : ℤ} (hk : k.Returns c)
    (i : Fin n) (y : ℤ) :
    (((v / k).data i).Returns y ↔ c ≠ 0 ∧ φ.Fits ((a i).tdiv c) ∧ y = (a i).tdiv c) ∧
    (((v % k).data i).Returns y ↔ c ≠ 0 ∧ φ.Fits ((a i).tdiv c) ∧ y = (a i).tmod c) := by
  obtain ⟨ha, ea⟩ := hv i
  obtain ⟨hc, rfl⟩ := hk
  have e1 : (v / (val c hc : Checked φ)).data i = v.data i / val c hc := by simp
  have e2 : (v % (val c hc : Checked φ)).data i = v.data i % val c hc := by simp
  rw [e1, e2, ea]
  constructor
  · change (if c = 0 then overflow else ofInt ((a i).tdiv c) : Checked φ).Returns y ↔ _
    split_ifs with h
    · simp [h]
    · rw [returns_ofInt]; simp [h]
  · change (if c = 0 then overflow else if φ.Fits ((a i).tdiv c) then ofInt ((a i).tmod c) else overflow :
      Checked φ).Returns y ↔ _
    split_ifs with h h'
    · simp [h]
    · rw [returns_ofInt]
      refine ⟨fun h2 => ⟨h, h', h2.2⟩, fun h2 => ⟨?_, h2.2.2⟩⟩
      rcases le_total 0 (a i) with h0 | h0
      · exact ⟨φ.lo_nonpos.trans (Int.tmod_nonneg _ h0), (tmod_le_self' h0).trans ha.2⟩
      · have h3 : (-a i).tmod c ≤ -a i := tmod_le_self' (by omega)
        have h4 : 0 ≤ (-a i).tmod c := Int.tmod_nonneg _ (by omega)
        rw [Int.neg_tmod] at h3 h4
        have := φ.one_le_hi
        exact ⟨by linarith [ha.1], by linarith⟩
    · simp [h']

/-! ### exact results -/

theorem agrees_int {c : Checked φ} {z : ℤ} (h : c.Returns z) : Agrees z c := fun y hy => by simp [hy.unique h]

/-- A determinant that does not panic is the exact determinant; a matrix product that does not panic is the exact
product. -/
theorem C81_exact_matrix {A : Mat (Checked φ) R1 C1} {B : Mat (Checked φ) C1 C2} {a : Mat ℤ R1 C1} {b : Mat ℤ C1 C2}
    (hA : ∀ c r, (A.data c r).Returns (a.data c r)) (hB : ∀ c r, (B.data c r).Returns (b.data c r)) (c : Fin C2)
    (r : Fin R1) (z : ℤ) (h : ((A * B).data c r).Returns z) : z = ∑ k, a.data k r * b.data c k := by
  have := (C81_matrix (N := 0) (X' := a) (A' := A) (x := ⟨fun _ => 0⟩) (v := ⟨fun _ => 0⟩) (fun c r => agrees_int (hA c r))
    (fun c r => agrees_int (hA c r)) (fun c r => agrees_int (hB c r)) (fun _ => Agrees.zero) Agrees.zero).1 c r z h
  rw [mul_data] at this
  simpa using this.symm
theorem C81_exact_determinant {A2 : Mat (Checked φ) 2 2} {A3 : Mat (Checked φ) 3 3} {A4 : Mat (Checked φ) 4 4}
    {a2 : Mat ℤ 2 2} {a3 : Mat ℤ 3 3} {a4 : Mat ℤ 4 4} (h2 : ∀ c r, (A2.data c r).Returns (a2.data c r))
    (h3 : ∀ c r, (A3.data c r).Returns (a3.data c r)) (h4 : ∀ c r, (A4.data c r).Returns (a4.data c r)) (z : ℤ) :
    (A2.determinant2.Returns z → z = Spec.leibniz a2) ∧ (A3.determinant3.Returns z → z = Spec.leibniz a3) ∧
    (A4.determinant4.Returns z → z = Spec.leibniz a4) := by
  have h := C81_determinant (X := a2) (A := A2) (X2 := a2) (A2 := A2) (X3 := a3) (A3 := A3) (X4 := a4) (A4 := A4)
    (fun c r => agrees_int (h2 c r)) (fun c r => agrees_int (h2 c r)) (fun c r => agrees_int (h3 c r))
    (fun c r => agrees_int (h4 c r))
  refine ⟨fun hz => ?_, fun hz => ?_, fun hz => ?_⟩
  · rw [← C17_det2]; simpa using (h.2.1 z hz).symm
  · rw [← C17_det3]; simpa using (h.2.2.1 z hz).symm
  · rw [← C17_det4]; simpa using (h.2.2.2 z hz).symm
/-- A quaternion product that does not panic is Hamilton's product. -/
theorem C81_exact_quaternion {p q : Quat (Checked φ)} {a b : Quat ℤ} (hp : ReturnsV p.coords a.coords.data)
    (hq : ReturnsV q.coords b.coords.data) (i : Fin 4) (z : ℤ) (h : ((p * q).coords.data i).Returns z) :
    z = (fun h : ℍ[ℤ] => ![h.re, h.imI, h.imJ, h.imK] i) (Spec.hamilton a * Spec.hamilton b) := by
  have := (C81_quaternion (fun i => agrees_int (hp i)) (fun i => agrees_int (hq i))).1 i z h
  rw [Int.cast_id] at this
  rw [← this]
  have e := C39_hamilton_mul a b
  rw [Quaternion.ext_iff] at e
  fin_cases i
  exacts [e.1, e.2.1, e.2.2.1, e.2.2.2]

/-! ### how large the components may be -/

/-- `c` returns `z` as soon as `B`, which bounds `|z|`, is in range on both sides -/
structure Spec.Safe (B z : ℤ) (c : Checked φ) : Prop where
  nonneg : 0 ≤ B
  bound : |z| ≤ B
  ret : B ≤ φ.hi → B ≤ -φ.lo → c.Returns z

namespace Spec.Safe
variable {A B y z : ℤ} {c d : Checked φ}
theorem fits (h1 : |z| ≤ B) (h : B ≤ φ.hi) (h' : B ≤ -φ.lo) : φ.Fits z :=
  ⟨by linarith [neg_le_of_abs_le h1], by linarith [le_of_abs_le h1]⟩
theorem leaf (h : c.Returns z) (hB : |z| ≤ B) : Safe B z c := ⟨(abs_nonneg _).trans hB, hB, fun _ _ => h⟩
theorem zero : Safe 0 0 (0 : Checked φ) := leaf ⟨φ.fits_zero, rfl⟩ (by simp)
theorem add (h : Safe A y c) (h' : Safe B z d) : Safe (A + B) (y + z) (c + d) :=
  have hb := (abs_add_le _ _).trans (add_le_add h.bound h'.bound)
  ⟨add_nonneg h.nonneg h'.nonneg, hb, fun h1 h2 => returns_add.mpr ⟨y, z, h.ret (by linarith [h'.nonneg]) (by linarith [h'.nonneg]),
    h'.ret (by linarith [h.nonneg]) (by linarith [h.nonneg]), fits hb h1 h2, rfl⟩⟩
theorem sub (h : Safe A y c) (h' : Safe B z d) : Safe (A + B) (y - z) (c - d) :=
  have hb := (abs_sub _ _).trans (add_le_add h.bound h'.bound)
  ⟨add_nonneg h.nonneg h'.nonneg, hb, fun h1 h2 => returns_sub.mpr ⟨y, z, h.ret (by linarith [h'.nonneg]) (by linarith [h'.nonneg]),
    h'.ret (by linarith [h.nonneg]) (by linarith [h.nonneg]), fits hb h1 h2, rfl⟩⟩
theorem mul (h : Safe A y c) (h' : Safe B z d) (hA : 1 ≤ A) (hB : 1 ≤ B) : Safe (A * B) (y * z) (c * d) :=
  have hb : |y * z| ≤ A * B := by rw [abs_mul]; exact mul_le_mul h.bound h'.bound (abs_nonneg _) h.nonneg
  have h3 : A ≤ A * B := le_mul_of_one_le_right h.nonneg hB
  have h4 : B ≤ A * B := le_mul_of_one_le_left h'.nonneg hA
  ⟨mul_nonneg h.nonneg h'.nonneg, hb, fun h1 h2 => returns_mul.mpr ⟨y, z, h.ret (h3.trans h1) (h3.trans h2),
    h'.ret (h4.trans h1) (h4.trans h2), fits hb h1 h2, rfl⟩⟩
theorem returns (h : Safe B z c) (h1 : B ≤ φ.hi) (h2 : B ≤ -φ.lo) : c.Returns z := h.ret h1 h2
end Spec.Safe

/-- A determinant of entries bounded by `M` cannot panic if `n! * M ^ n` is in range. -/
theorem C81_determinant_safe {A2 : Mat (Checked φ) 2 2} {A3 : Mat (Checked φ) 3 3} {A4 : Mat (Checked φ) 4 4}
    {a2 : Mat ℤ 2 2} {a3 : Mat ℤ 3 3} {a4 : Mat ℤ 4 4} (h2 : ∀ c r, (A2.data c r).Returns (a2.data c r))
    (h3 : ∀ c r, (A3.data c r).Returns (a3.data c r)) (h4 : ∀ c r, (A4.data c r).Returns (a4.data c r)) {M : ℤ} (hM : 1 ≤ M)
    (m2 : ∀ c r, |a2.data c r| ≤ M) (m3 : ∀ c r, |a3.data c r| ≤ M) (m4 : ∀ c r, |a4.data c r| ≤ M) :
    (2 * M ^ 2 ≤ φ.hi → 2 * M ^ 2 ≤ -φ.lo → A2.determinant2.Returns (Spec.leibniz a2)) ∧
    (6 * M ^ 3 ≤ φ.hi → 6 * M ^ 3 ≤ -φ.lo → A3.determinant3.Returns (Spec.leibniz a3)) ∧
    (24 * M ^ 4 ≤ φ.hi → 24 * M ^ 4 ≤ -φ.lo → A4.determinant4.Returns (Spec.leibniz a4)) := by
  have l2 := fun c r => Safe.leaf (h2 c r) (m2 c r)
  have l3 := fun c r => Safe.leaf (h3 c r) (m3 c r)
  have l4 := fun c r => Safe.leaf (h4 c r) (m4 c r)
  have hMM : 1 ≤ M * M := by nlinarith
  have hMMM : 1 ≤ M * M * M := by nlinarith
  have t2 := fun c r c' r' => Safe.mul (l2 c r) (l2 c' r') hM hM
  have t3 := fun c r c' r' c'' r'' => Safe.mul (Safe.mul (l3 c r) (l3 c' r') hM hM) (l3 c'' r'') hMM hM
  have t4 := fun c r c' r' c'' r'' d e =>
    Safe.mul (Safe.mul (Safe.mul (l4 c r) (l4 c' r') hM hM) (l4 c'' r'') hMM hM) (l4 d e) hMMM hM
  refine ⟨fun i j => ?_, fun i j => ?_, fun i j => ?_⟩
  · rw [← C17_det2]
    exact Safe.returns ((t2 _ _ _ _).sub (t2 _ _ _ _)) (by linarith) (by linarith)
  · rw [← C17_det3]
    have := (((((t3 0 0 1 1 2 2).sub (t3 0 0 1 2 2 1)).sub (t3 1 0 0 1 2 2)).add (t3 1 0 0 2 2 1)).add
      (t3 2 0 0 1 1 2)).sub (t3 2 0 0 2 1 1)
    exact Safe.returns this (by linarith) (by linarith)
  · rw [← C17_det4]
    have : Safe (24 * M ^ 4) a4.determinant4 A4.determinant4 := by
      have e : 24 * M ^ 4 = ((((((((((((((((((((((((M * M * M * M) + (M * M * M * M)) + (M * M * M * M)) + (M * M * M * M)) +
        (M * M * M * M)) + (M * M * M * M)) + (M * M * M * M)) + (M * M * M * M)) + (M * M * M * M)) + (M * M * M * M)) +
        (M * M * M * M)) + (M * M * M * M)) + (M * M * M * M)) + (M * M * M * M)) + (M * M * M * M)) + (M * M * M * M)) +
        (M * M * M * M)) + (M * M * M * M)) + (M * M * M * M)) + (M * M * M * M)) + (M * M * M * M)) + (M * M * M * M)) +
        (M * M * M * M)) + (M * M * M * M)) := by ring
      rw [e]
      unfold determinant4
      repeat' first | exact t4 _ _ _ _ _ _ _ _ | apply Safe.sub | apply Safe.add
    exact this.returns i j

/-- Cross products and quaternion products of components bounded by `M` cannot panic if `2 * M ^ 2` and `4 * M ^ 2` are
in range. -/
theorem C81_cross_safe {v w : Vec (Checked φ) 3} {a b : Vec ℤ 3} (hv : ReturnsV v a.data) (hw : ReturnsV w b.data) {M : ℤ}
    (hM : 1 ≤ M) (ha : ∀ i, |a.data i| ≤ M) (hb : ∀ i, |b.data i| ≤ M) (h1 : 2 * M ^ 2 ≤ φ.hi) (h2 : 2 * M ^ 2 ≤ -φ.lo) :
    ReturnsV (v.cross w) (a.cross b).data := by
  have t := fun i j => Safe.mul (Safe.leaf (hv i) (ha i)) (Safe.leaf (hw j) (hb j)) hM hM
  intro i
  fin_cases i <;> exact Safe.returns ((t _ _).sub (t _ _)) (by linarith) (by linarith)
theorem C81_quaternion_safe {p q : Quat (Checked φ)} {a b : Quat ℤ} (hp : ReturnsV p.coords a.coords.data)
    (hq : ReturnsV q.coords b.coords.data) {M : ℤ} (hM : 1 ≤ M) (ha : ∀ i, |a.coords.data i| ≤ M)
    (hb : ∀ i, |b.coords.data i| ≤ M) (h1 : 4 * M ^ 2 ≤ φ.hi) (h2 : 4 * M ^ 2 ≤ -φ.lo) :
    ReturnsV (p * q).coords (a * b).coords.data := by
  have t := fun i j => Safe.mul (Safe.leaf (hp i) (ha i)) (Safe.leaf (hq j) (hb j)) hM hM
  have t' := fun i j => Safe.mul (Safe.leaf (hq i) (hb i)) (Safe.leaf (hp j) (ha j)) hM hM
  intro i
  fin_cases i
  · exact Safe.returns ((t 0 0).sub (((Safe.zero.add (t 1 1)).add (t 2 2)).add (t 3 3))) (by linarith) (by linarith)
  · exact Safe.returns (((t' 1 0).add (t 1 0)).add ((t 2 3).sub (t 3 2))) (by linarith) (by linarith)
  · exact Safe.returns (((t' 2 0).add (t 2 0)).add ((t 3 1).sub (t 1 3))) (by linarith) (by linarith)
  · exact Safe.returns (((t' 3 0).add (t 3 0)).add ((t 1 2).sub (t 2 1))) (by linarith) (by linarith)

/-- A case that returns: `3 * 7 - 2 * 10 = 1` in `i8`. -/
example : ((Vec.new2 (val 3 (by decide)) (val (-2) (by decide)) : Vec (Checked (.signed 8 (by norm_num))) 2).dot
    (Vec.new2 (val 7 (by decide)) (val 10 (by decide)))).Returns 1 :=
  C81_dot_safe (a := ![3, -2]) (b := ![7, 10]) (by intro i; fin_cases i <;> exact ⟨_, rfl⟩)
    (by intro i; fin_cases i <;> exact ⟨_, rfl⟩) (by decide) (by decide)
/-- The hypotheses are met by all quaternions of `i32` components up to 23170. -/
example : 4 * (23170 : ℤ) ^ 2 ≤ (IntFormat.signed 32 (by norm_num)).hi ∧
    4 * (23170 : ℤ) ^ 2 ≤ -(IntFormat.signed 32 (by norm_num)).lo := by decide

/-! ### debug and release builds -/

/-- If the debug build returns `z`, so does the release build, which wraps: for dot products, matrix products, and
determinants.  (`T = BitVec w` in the theorems above.) -/
theorem C81_release {w : ℕ} (hw : 2 ≤ w) (v u : Vec (Checked (.signed w hw)) n) (a b : Fin n → ℤ) (hv : ReturnsV v a)
    (hu : ReturnsV u b) (z : ℤ) (hz : (v.dot u).Returns z) :
    ((⟨fun i => (a i : BitVec w)⟩ : Vec (BitVec w) n).dot ⟨fun i => (b i : BitVec w)⟩).toInt = z := by
  have h := agrees_dot (x := (⟨fun i => (a i : BitVec w)⟩ : Vec (BitVec w) n)) (y := ⟨fun i => (b i : BitVec w)⟩)
    (v := v) (w := u) (fun i y hy => by rw [hy.unique (hv i)]) (fun i y hy => by rw [hy.unique (hu i)]) z hz
  rw [h]
  have hf := returns_fits hz
  exact wrap_exact ⟨hf.1, by have := hf.2; change z ≤ 2 ^ (w - 1) - 1 at this; omega⟩ (by omega)

/-- The converse fails: `100 * 2 + -100 * 1` is `100`, but `200` is not an `i8`, so the debug build panics where the
release build (C68) returns the correct result. -/
theorem C81_debug_stricter : ∃ v u : Vec (Checked (.signed 8 (by norm_num))) 2,
    ReturnsV v ![100, -100] ∧ ReturnsV u ![2, 1] ∧ (∀ z, ¬(v.dot u).Returns z) ∧
    ((Vec.new2 (100 : BitVec 8) (-100)).dot (Vec.new2 2 1)).toInt = 100 := by
  refine ⟨Vec.new2 (val 100 (by decide)) (val (-100) (by decide)), Vec.new2 (val 2 (by decide)) (val 1 (by decide)),
    ?_, ?_, ?_, ?_⟩
  · intro i; fin_cases i <;> exact ⟨_, rfl⟩
  · intro i; fin_cases i <;> exact ⟨_, rfl⟩
  · intro z hz
    have := ((C81_dot_returns (a := ![100, -100]) (b := ![2, 1]) (by intro i; fin_cases i <;> exact ⟨_, rfl⟩)
      (by intro i; fin_cases i <;> exact ⟨_, rfl⟩) z).mp hz).1 0
    exact absurd this (by decide)
  · rw [(C68_dot _ _).1.2 (by norm_num)] <;> simp [Fin.sum_univ_two] <;> decide

end Cgl
