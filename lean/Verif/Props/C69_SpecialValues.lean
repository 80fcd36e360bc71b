import Verif.Model.Special
import Verif.Spec.Ieee
import Verif.Props.C66_FloatLaws

/-! # C69 - infinities and NaN do not vanish

The model functions over IEEE arithmetic (`Spec/Ieee.lean`). `Shows out inp` says that a NaN input makes the output
NaN, and an infinite or NaN input makes it infinite or NaN. -/

namespace Cgl
open Mat Ieee

variable {φ : Format} {n R C R1 C1 C2 : ℕ}

/-- A special value in `inp` shows in `out`. -/
def Spec.Shows (out inp : Ieee φ) : Prop := (inp.IsNan → out.IsNan) ∧ (out.Finite → inp.Finite)
open Spec

namespace Spec.Shows
variable {a b x : Ieee φ}
theorem refl (x : Ieee φ) : Shows x x := ⟨id, id⟩
theorem add_right (h : Shows b x) : Shows (a + b) x :=
  ⟨fun hx => by rw [h.1 hx]; exact add_nan a, fun hf => h.2 (finite_add hf).2⟩
theorem add_left (h : Shows a x) : Shows (a + b) x :=
  ⟨fun hx => by rw [h.1 hx]; exact nan_add b, fun hf => h.2 (finite_add hf).1⟩
theorem sub_right (h : Shows b x) : Shows (a - b) x :=
  ⟨fun hx => by rw [h.1 hx]; exact sub_nan a, fun hf => h.2 (finite_sub hf).2⟩
theorem sub_left (h : Shows a x) : Shows (a - b) x :=
  ⟨fun hx => by rw [h.1 hx]; exact nan_sub b, fun hf => h.2 (finite_sub hf).1⟩
theorem mul_right (h : Shows b x) : Shows (a * b) x :=
  ⟨fun hx => by rw [h.1 hx]; exact mul_nan a, fun hf => h.2 (finite_mul hf).2⟩
theorem mul_left (h : Shows a x) : Shows (a * b) x :=
  ⟨fun hx => by rw [h.1 hx]; exact nan_mul b, fun hf => h.2 (finite_mul hf).1⟩
theorem div_left (h : Shows a x) : Shows (a / b) x :=
  ⟨fun hx => by rw [h.1 hx]; exact nan_div b, fun hf => h.2 (finite_div hf).1⟩
theorem neg (h : Shows a x) : Shows (-a) x :=
  ⟨fun hx => by rw [h.1 hx]; rfl, fun hf => h.2 (finite_neg hf)⟩
theorem sqrt [Lib φ] (h : Shows a x) : Shows (fsqrt a) x :=
  ⟨fun hx => by rw [Lib.sqrt_eq, h.1 hx]; rfl, fun hf => h.2 (finite_sqrt (Lib.sqrt_eq a ▸ hf))⟩
theorem sabs (h : Shows a x) : Shows (sabs a) x :=
  ⟨fun hx => by rw [h.1 hx]; rfl, fun hf => h.2 (finite_sabs hf)⟩
/-- a running sum -/
theorem loop {n : ℕ} (z : Ieee φ) (f : Fin n → Ieee φ) (i : Fin n) (h : Shows (f i) x) :
    Shows (forRange n z fun i acc => acc + f i) x := by
  induction n with
  | zero => exact i.elim0
  | succ n ih =>
    rw [forRange_succ]
    refine Fin.lastCases (fun h => ?_) (fun i h => ?_) i h
    · exact add_right h
    · exact add_left (ih (fun i => f i.castSucc) i h)
end Spec.Shows

/-- finds the input in an expression built from the operations -/
syntax "shows" : tactic
macro_rules
  | `(tactic| shows) => `(tactic| first
    | with_reducible exact Spec.Shows.refl _
    | (with_reducible apply Spec.Shows.add_right; shows) | (with_reducible apply Spec.Shows.sub_right; shows)
    | (with_reducible apply Spec.Shows.mul_right; shows) | (with_reducible apply Spec.Shows.mul_left; shows)
    | (with_reducible apply Spec.Shows.div_left; shows) | (with_reducible apply Spec.Shows.neg; shows)
    | (with_reducible apply Spec.Shows.add_left; shows) | (with_reducible apply Spec.Shows.sub_left; shows))

/-! ### vectors -/

theorem C69_vector (v w : Vec (Ieee φ) n) (k : Ieee φ) (i : Fin n) :
    Shows ((v + w).data i) (v.data i) ∧ Shows ((v + w).data i) (w.data i) ∧
    Shows ((v - w).data i) (v.data i) ∧ Shows ((v - w).data i) (w.data i) ∧ Shows ((-v).data i) (v.data i) ∧
    Shows ((v * k).data i) (v.data i) ∧ Shows ((v * k).data i) k ∧ Shows ((v / k).data i) (v.data i) ∧
    Shows ((v.lerp w k).data i) (v.data i) ∧ Shows ((v.lerp w k).data i) (w.data i) ∧ Shows ((v.lerp w k).data i) k := by
  simp only [Vec.lerp, Vec.add_data, Vec.sub_data, Vec.neg_data, Vec.mulS_data, Vec.divS_data]
  refine ⟨?_, ?_, ?_, ?_, ?_, ?_, ?_, ?_, ?_, ?_, ?_⟩ <;> first | shows | exact (Shows.refl _).add_left

theorem C69_dot (v w : Vec (Ieee φ) n) (i : Fin n) : Shows (v.dot w) (v.data i) ∧ Shows (v.dot w) (w.data i) :=
  ⟨Shows.loop _ (fun i => v.data i * w.data i) i (by shows), Shows.loop _ (fun i => v.data i * w.data i) i (by shows)⟩

theorem C69_norm [Lib φ] (v w : Vec (Ieee φ) n) (i : Fin n) :
    Shows v.normSquared (v.data i) ∧ Shows v.norm (v.data i) ∧ Shows v.l1Norm (v.data i) ∧
    Shows (v.metricDistance w) (v.data i) ∧ Shows (v.metricDistance w) (w.data i) := by
  refine ⟨(C69_dot v v i).1, (C69_dot v v i).1.sqrt, ?_, ?_, ?_⟩
  · exact Shows.loop _ (fun i => sabs (v.data i)) i (Shows.refl _).sabs
  all_goals
    have h := (C69_dot (v - w) (v - w) i).1
    rw [Vec.sub_data] at h
    refine Shows.sqrt ⟨fun hx => h.1 ?_, fun hf => ?_⟩
  · exact (C69_vector v w 0 i).2.2.1.1 hx |> (Vec.sub_data v w i ▸ ·)
  · exact (finite_sub (h.2 hf)).1
  · exact (C69_vector v w 0 i).2.2.2.1.1 hx |> (Vec.sub_data v w i ▸ ·)
  · exact (finite_sub (h.2 hf)).2

theorem C69_cross (v w : Vec (Ieee φ) 3) (i j : Fin 3) (hij : i ≠ j) :
    Shows ((v.cross w).data i) (v.data j) ∧ Shows ((v.cross w).data i) (w.data j) := by
  fin_cases i <;> fin_cases j <;> first | exact absurd rfl hij | (constructor <;> simp [Vec.cross] <;> shows)

/-- A NaN component makes every component of the normalized vector NaN; the normalized vector is finite only if
the vector is. -/
theorem C69_normalize [Lib φ] (v : Vec (Ieee φ) n) (i j : Fin n) :
    ((v.data i).IsNan → (v.normalize.data j).IsNan) ∧ ((v.normalize.data j).Finite → (v.data j).Finite) := by
  have e : v.normalize.data j = v.data j * (1 / v.norm) := by simp [Vec.normalize]
  rw [e]
  refine ⟨fun h => ?_, fun h => (finite_mul h).1⟩
  rw [((C69_norm v v i).2.1).1 h, div_nan]; exact mul_nan _

/-- `try_normalize` of a vector with a NaN component is not `None`. -/
theorem C69_try_normalize [Lib φ] (v : Vec (Ieee φ) n) (threshold : Ieee φ) (i : Fin n) (h : (v.data i).IsNan) :
    v.tryNormalize threshold = some v.normalize ∧ ∀ j, (v.normalize.data j).IsNan := by
  refine ⟨?_, fun j => (C69_normalize v i j).1 h⟩
  rw [Vec.tryNormalize, if_neg]
  rintro ⟨a, b, h', -⟩
  rw [((C69_norm v v i).2.1).1 h] at h'
  cases h'

/-! ### matrices -/

theorem C69_matrix_product (A : Mat (Ieee φ) R1 C1) (B : Mat (Ieee φ) C1 C2) (c : Fin C2) (r : Fin R1) (k : Fin C1) :
    Shows ((A * B).data c r) (A.data k r) ∧ Shows ((A * B).data c r) (B.data c k) := by
  rw [mul_entry]
  exact ⟨Shows.loop _ (fun i => A.data i r * B.data c i) k (by shows),
    Shows.loop _ (fun i => A.data i r * B.data c i) k (by shows)⟩

theorem C69_matrix_vector (A : Mat (Ieee φ) R C) (v : Vec (Ieee φ) C) (r : Fin R) (k : Fin C) :
    Shows ((A * v).data r) (A.data k r) ∧ Shows ((A * v).data r) (v.data k) := by
  rw [mulVec_entry]
  exact ⟨Shows.loop _ (fun i => A.data i r * v.data i) k (by shows),
    Shows.loop _ (fun i => A.data i r * v.data i) k (by shows)⟩

theorem C69_trace (A : Mat (Ieee φ) n n) (i : Fin n) : Shows A.trace (A.data i i) :=
  Shows.loop _ (fun i => A.data i i) i (Shows.refl _)

theorem C69_determinant2 (A : Mat (Ieee φ) 2 2) (c r) : Shows A.determinant2 (A.data c r) := by
  unfold determinant2; fin_cases c <;> fin_cases r <;> simp only [Fin.zero_eta, Fin.mk_one, Fin.reduceFinMk] <;> shows
theorem C69_determinant3 (A : Mat (Ieee φ) 3 3) (c r) : Shows A.determinant3 (A.data c r) := by
  unfold determinant3; fin_cases c <;> fin_cases r <;> simp only [Fin.zero_eta, Fin.mk_one, Fin.reduceFinMk] <;> shows
theorem C69_determinant4 (A : Mat (Ieee φ) 4 4) (c r) : Shows A.determinant4 (A.data c r) := by
  unfold determinant4; fin_cases c <;> fin_cases r <;> simp only [Fin.zero_eta, Fin.mk_one, Fin.reduceFinMk] <;> shows

theorem nan_ne_zero : ¬((nan : Ieee φ) == 0) = true := by simp

/-- The inverse of a matrix with a NaN entry exists and has only NaN entries. -/
theorem C69_inverse_nan :
    (∀ (A : Mat (Ieee φ) 2 2) (c r), (A.data c r).IsNan → ∃ B, A.tryInverse2 = some B ∧ ∀ c r, (B.data c r).IsNan) ∧
    (∀ (A : Mat (Ieee φ) 3 3) (c r), (A.data c r).IsNan → ∃ B, A.tryInverse3 = some B ∧ ∀ c r, (B.data c r).IsNan) ∧
    (∀ (A : Mat (Ieee φ) 4 4) (c r), (A.data c r).IsNan → ∃ B, A.tryInverse4 = some B ∧ ∀ c r, (B.data c r).IsNan) := by
  refine ⟨fun A c r h => ?_, fun A c r h => ?_, fun A c r h => ?_⟩
  · have hd : A.determinant2 = nan := (C69_determinant2 A c r).1 h
    rw [tryInverse2]; simp only [hd, if_neg nan_ne_zero, div_nan, nan_mul]
    refine ⟨_, rfl, fun c r => ?_⟩
    fin_cases c <;> fin_cases r <;> rfl
  · have hd : A.determinant3 = nan := (C69_determinant3 A c r).1 h
    rw [tryInverse3]; simp only [hd, if_neg nan_ne_zero, div_nan, nan_mul]
    refine ⟨_, rfl, fun c r => ?_⟩
    fin_cases c <;> fin_cases r <;> rfl
  · have hd : A.determinant4 = nan := (C69_determinant4 A c r).1 h
    rw [tryInverse4]; simp only [hd, if_neg nan_ne_zero, div_nan, nan_mul]
    refine ⟨_, rfl, fun c r => ?_⟩
    fin_cases c <;> fin_cases r <;> rfl

/-! ### complex numbers and quaternions -/

theorem C69_complex (z w : Cx (Ieee φ)) :
    (Shows (z * w).re z.re ∧ Shows (z * w).re z.im ∧ Shows (z * w).re w.re ∧ Shows (z * w).re w.im) ∧
    (Shows (z * w).im z.re ∧ Shows (z * w).im z.im ∧ Shows (z * w).im w.re ∧ Shows (z * w).im w.im) ∧
    (Shows (z / w).re z.re ∧ Shows (z / w).re z.im ∧ Shows (z / w).re w.re ∧ Shows (z / w).re w.im) ∧
    (Shows (z / w).im z.re ∧ Shows (z / w).im z.im ∧ Shows (z / w).im w.re ∧ Shows (z / w).im w.im) ∧
    (Shows z.normSquared z.re ∧ Shows z.normSquared z.im) := by
  have e1 : (z * w).re = z.re * w.re - z.im * w.im := rfl
  have e2 : (z * w).im = z.re * w.im + z.im * w.re := rfl
  have e3 : (z / w).re = (z.re * w.re + z.im * w.im) / (w.re * w.re + w.im * w.im) := rfl
  have e4 : (z / w).im = (z.im * w.re - z.re * w.im) / (w.re * w.re + w.im * w.im) := rfl
  rw [e1, e2, e3, e4, Cx.normSquared]
  refine ⟨⟨?_, ?_, ?_, ?_⟩, ⟨?_, ?_, ?_, ?_⟩, ⟨?_, ?_, ?_, ?_⟩, ⟨?_, ?_, ?_, ?_⟩, ?_, ?_⟩ <;> shows

theorem C69_quaternion (q r : Quat (Ieee φ)) (i j : Fin 4) :
    Shows ((q * r).coords.data i) (q.coords.data j) ∧ Shows ((q * r).coords.data i) (r.coords.data j) ∧
    Shows q.normSquared (q.coords.data j) := by
  have e0 : (q * r).coords.data 0 = q.coords.data 0 * r.coords.data 0 - q.vector.dot r.vector := rfl
  have e1 : (q * r).coords.data 1 = r.vector.data 0 * q.scalar + q.vector.data 0 * r.scalar +
    (q.vector.data 1 * r.vector.data 2 - q.vector.data 2 * r.vector.data 1) := rfl
  have e2 : (q * r).coords.data 2 = r.vector.data 1 * q.scalar + q.vector.data 1 * r.scalar +
    (q.vector.data 2 * r.vector.data 0 - q.vector.data 0 * r.vector.data 2) := rfl
  have e3 : (q * r).coords.data 3 = r.vector.data 2 * q.scalar + q.vector.data 2 * r.scalar +
    (q.vector.data 0 * r.vector.data 1 - q.vector.data 1 * r.vector.data 0) := rfl
  have a0 : ∀ q : Quat (Ieee φ), q.coords.data 0 = q.scalar := fun _ => rfl
  have a1 : ∀ q : Quat (Ieee φ), q.coords.data 1 = q.vector.data 0 := fun _ => rfl
  have a2 : ∀ q : Quat (Ieee φ), q.coords.data 2 = q.vector.data 1 := fun _ => rfl
  have a3 : ∀ q : Quat (Ieee φ), q.coords.data 3 = q.vector.data 2 := fun _ => rfl
  have d := C69_dot q.vector r.vector
  refine ⟨?_, ?_, (C69_dot q.coords q.coords j).1⟩ <;> fin_cases i <;> fin_cases j <;>
    simp only [Fin.zero_eta, Fin.mk_one, Fin.reduceFinMk] <;> simp only [e0, e1, e2, e3] <;>
    simp only [a0, a1, a2, a3] <;> first | shows | exact (d _).1.sub_right | exact (d _).2.sub_right

/-! ### predicates -/

theorem isFinite_iff (x : Ieee φ) : isFinite x = true ↔ x.Finite := by
  cases x with
  | nan => simp [isFinite]
  | inf s => simp [isFinite]
  | fin s m h => simp [isFinite, finite_fin]
theorem isNan_iff (x : Ieee φ) : isNan x = true ↔ x.IsNan := by cases x <;> simp [isNan, IsNan]
theorem isInfinite_iff (x : Ieee φ) : isInfinite x = true ↔ x.IsInf := by cases x <;> simp [isInfinite, IsInf]

/-- `is_finite` is true exactly when every component is finite. -/
theorem C69_is_finite (v : Vec (Ieee φ) n) (A : Mat (Ieee φ) R C) (q : Quat (Ieee φ)) (z : Cx (Ieee φ))
    (a : Radians (Ieee φ)) (b : Degrees (Ieee φ)) :
    (v.isFinite = true ↔ ∀ i, (v.data i).Finite) ∧ (A.isFinite = true ↔ ∀ c r, (A.data c r).Finite) ∧
    (q.isFinite = true ↔ ∀ i, (q.coords.data i).Finite) ∧ (z.isFinite = true ↔ z.re.Finite ∧ z.im.Finite) ∧
    (a.isFinite = true ↔ a.val.Finite) ∧ (b.isFinite = true ↔ b.val.Finite) := by
  have hv : ∀ {m : ℕ} (v : Vec (Ieee φ) m), v.isFinite = true ↔ ∀ i, (v.data i).Finite := fun v => by
    simp [Vec.isFinite, forRange_and, isFinite_iff]
  refine ⟨hv v, ?_, ?_, ?_, isFinite_iff _, isFinite_iff _⟩
  · simp only [Mat.isFinite, forRange_and]
    simp [isFinite_iff]
  · simp only [Quat.isFinite, Bool.and_eq_true, isFinite_iff, hv]
    constructor
    · rintro ⟨h0, h⟩ i
      fin_cases i
      · exact h0
      · exact h 0
      · exact h 1
      · exact h 2
    · intro h
      refine ⟨h 0, fun i => ?_⟩
      fin_cases i
      · exact h 1
      · exact h 2
      · exact h 3
  · simp [Cx.isFinite, isFinite_iff]

/-- Every complex number is exactly one of finite, infinite and NaN. -/
theorem C69_complex_kinds (z : Cx (Ieee φ)) :
    (z.isNan = true ↔ z.re.IsNan ∨ z.im.IsNan) ∧
    (z.isInfinite = true ↔ ¬(z.re.IsNan ∨ z.im.IsNan) ∧ (z.re.IsInf ∨ z.im.IsInf)) ∧
    ((z.isFinite = true ∧ z.isInfinite = false ∧ z.isNan = false) ∨
      (z.isFinite = false ∧ z.isInfinite = true ∧ z.isNan = false) ∨
      (z.isFinite = false ∧ z.isInfinite = false ∧ z.isNan = true)) := by
  obtain ⟨re, im⟩ := z
  cases re <;> cases im <;>
    simp [Cx.isNan, Cx.isInfinite, Cx.isFinite, isNan, isInfinite, isFinite, IsNan, IsInf]

/-! ### norms that hide NaN -/

theorem max_not_nan {x : Ieee φ} (hx : ¬x.IsNan) (y : Ieee φ) : ¬(max x y).IsNan := by
  cases x with
  | nan => exact absurd rfl hx
  | inf s => cases y with
    | nan => exact hx
    | inf t => change ¬(if (inf s : Ieee φ) < inf t then inf t else inf s).IsNan; split_ifs <;> nofun
    | fin t k h => change ¬(if (inf s : Ieee φ) < fin t k h then fin t k h else inf s).IsNan; split_ifs <;> nofun
  | fin s m hm => cases y with
    | nan => exact hx
    | inf t => change ¬(if (fin s m hm : Ieee φ) < inf t then inf t else fin s m hm).IsNan; split_ifs <;> nofun
    | fin t k h =>
      change ¬(if (fin s m hm : Ieee φ) < fin t k h then fin t k h else fin s m hm).IsNan; split_ifs <;> nofun

theorem max_loop_not_nan {n : ℕ} (f : Fin n → Ieee φ) : ¬(forRange n (0 : Ieee φ) fun i s => max s (f i)).IsNan := by
  induction n with
  | zero => rw [forRange_zero]; nofun
  | succ n ih => rw [forRange_succ]; exact max_not_nan (ih _) _

/-- The L-infinity norm of a vector, and the L1 and L-infinity norms of a matrix, are never NaN: a NaN component is
ignored. -/
theorem C69_max_norms_hide_nan (v : Vec (Ieee φ) n) (A : Mat (Ieee φ) R C) :
    ¬v.linfNorm.IsNan ∧ ¬A.l1Norm.IsNan ∧ ¬A.linfNorm.IsNan :=
  ⟨max_loop_not_nan _, max_loop_not_nan _, max_loop_not_nan _⟩

theorem zero_max_one : max (0 : Ieee φ) 1 = 1 := by
  change (if (0 : Ieee φ) < 1 then (1 : Ieee φ) else 0) = 1
  rw [if_pos]
  exact ⟨_, _, rfl, rfl, by simp [signed]⟩

/-- So these norms do not show special values as the other norms do: the vector (NaN, 1) has L-infinity norm 1. -/
theorem C69_linf_norm_fails : ∃ v : Vec (Ieee φ) 2, (v.data 0).IsNan ∧ v.linfNorm = 1 :=
  ⟨Vec.new2 nan 1, rfl, by
    change max (max (0 : Ieee φ) (sabs (nan : Ieee φ))) (sabs (1 : Ieee φ)) = 1
    exact zero_max_one⟩

theorem max_inf_left (y : Ieee φ) : max (inf false) y = inf false := by
  cases y with
  | nan => rfl
  | inf t =>
    change (if (inf false : Ieee φ) < inf t then inf t else inf false) = inf false
    rw [if_neg]; rintro ⟨a, b, h, -, h'⟩; cases h; simp at h'
  | fin t k hk =>
    change (if (inf false : Ieee φ) < fin t k hk then fin t k hk else inf false) = inf false
    rw [if_neg]; rintro ⟨a, b, h, -, h'⟩; cases h; simp at h'
theorem max_inf_right (x : Ieee φ) : max x (inf false) = inf false := by
  cases x with
  | nan => rfl
  | inf t =>
    change (if (inf t : Ieee φ) < inf false then inf false else inf t) = inf false
    cases t
    · simp
    · rw [if_pos]; exact ⟨_, _, rfl, rfl, by simp⟩
  | fin t k hk =>
    change (if (fin t k hk : Ieee φ) < inf false then inf false else fin t k hk) = inf false
    rw [if_pos]; exact ⟨_, _, rfl, rfl, by simp⟩

/-- Infinite components are not ignored. -/
theorem C69_linf_norm_inf (v : Vec (Ieee φ) n) (i : Fin n) (h : (v.data i).IsInf) : v.linfNorm = inf false := by
  have key : ∀ {n : ℕ} (f : Fin n → Ieee φ) (i : Fin n), f i = inf false →
      (forRange n (0 : Ieee φ) fun i s => max s (f i)) = inf false := by
    intro n
    induction n with
    | zero => intro f i; exact i.elim0
    | succ n ih =>
      intro f i hi
      rw [forRange_succ]
      revert hi
      refine Fin.lastCases (fun hi => ?_) (fun i hi => ?_) i
      · rw [hi]; exact max_inf_right _
      · rw [ih (fun i => f i.castSucc) i hi]; exact max_inf_left _
  obtain ⟨s, hs⟩ := h
  exact key (fun i => sabs (v.data i)) i (by rw [hs]; rfl)

/-! ### overflow and underflow inside `normalize` -/

open Rounding in
theorem fl64_two_zpow {k : ℤ} (hk : -1074 ≤ k) : f64.fl (2 ^ k) = 2 ^ k := by
  have hq : lastBit 53 (some (-1074)) k ≤ k := by simp only [lastBit]; omega
  obtain ⟨d, hd⟩ := Int.le.dest hq
  have h := flEven_eq (p := 53) (qmin := some (-1074)) (x := 2 ^ k) (e := k) (m := 2 ^ d)
    (by rw [abs_of_pos (by positivity)]) (by
      rw [abs_of_pos (by positivity)]; exact zpow_lt_zpow_right₀ one_lt_two (by omega)) (by
      rw [← zpow_sub₀ two_ne_zero]; push_cast
      rw [← zpow_natCast, show k - lastBit 53 (some (-1074)) k = (d : ℤ) by omega]; simp)
  refine h.trans ?_
  push_cast
  rw [← zpow_natCast, ← zpow_add₀ two_ne_zero]; congr 1; omega

theorem two_zpow_le_big {k : ℤ} (hk : k ≤ 1023) : (2 : ℝ) ^ k ≤ f64.big := by
  have h1 : (2 : ℝ) ^ k ≤ 2 ^ (1023 : ℤ) := zpow_le_zpow_right₀ one_le_two hk
  have h2 : (2 : ℝ) ^ (1023 : ℤ) = 2 ^ 52 * 2 ^ 971 := by
    rw [show (1023 : ℤ) = ((52 + 971 : ℕ) : ℤ) by norm_num, zpow_natCast, pow_add]
  have h3 : (0 : ℝ) < 2 ^ 971 := by positivity
  have h4 : f64.big = (2 ^ 53 - 1) * 2 ^ 971 := rfl
  rw [h4]
  rw [h2] at h1
  refine h1.trans ?_
  exact mul_le_mul_of_nonneg_right (by norm_num) h3.le

/-- `2 ^ k` as an `f64` -/
noncomputable def pow64 (k : ℤ) (h : -1074 ≤ k ∧ k ≤ 1023) : Ieee f64 :=
  fin false (2 ^ k) ⟨by positivity, two_zpow_le_big h.2, fl64_two_zpow h.1⟩

theorem round_zero : (Ieee.round false 0 : Ieee φ) = 0 := by
  simp only [Ieee.round]
  rw [dif_pos (by rw [abs_zero, φ.zero]; exact zero_le_one.trans φ.one_le_big)]
  simp only [abs_zero, φ.zero]
  rfl

theorem zero_mul_fin (a : Ieee φ) (ha : ∃ m h, a = fin false m h) : a * 0 = 0 ∧ (0 : Ieee φ) * a = 0 := by
  obtain ⟨m, h, rfl⟩ := ha
  constructor
  · change Ieee.round (false ^^ false) (signed false m * signed false 0) = _
    simpa [signed] using round_zero
  · change Ieee.round (false ^^ false) (signed false 0 * signed false m) = _
    simpa [signed] using round_zero

theorem zero_add_zero : (0 : Ieee φ) + 0 = 0 := by
  change Ieee.round (false && false) (signed false 0 + signed false 0) = _
  simpa [signed] using round_zero

/-- Normalizing a finite non-zero `f64` vector can return the zero vector: the squared norm of `(2^600, 0, 0)`
overflows. -/
theorem C69_normalize_overflow_fails [Lib f64] : ∃ v : Vec (Ieee f64) 3, (∀ i, (v.data i).Finite) ∧
    (v.data 0).val = 2 ^ 600 ∧ v.normalize = 0 := by
  set a := pow64 600 (by norm_num) with ha
  refine ⟨Vec.new3 a 0 0, fun i => ?_, ?_, ?_⟩
  · fin_cases i
    · exact finite_fin _ _ _
    · exact finite_zero
    · exact finite_zero
  · change signed false (2 ^ (600 : ℤ)) = _
    simp [signed]
  · have haa : a * a = inf false := by
      change Ieee.round (false ^^ false) (signed false (2 ^ (600 : ℤ)) * signed false (2 ^ (600 : ℤ))) = _
      have e : (2 : ℝ) ^ (600 : ℤ) * 2 ^ (600 : ℤ) = 2 ^ (1200 : ℤ) := by rw [← zpow_add₀ two_ne_zero]; norm_num
      simp only [Ieee.round, signed, Bool.false_eq_true, if_false, e]
      have hp : (0 : ℝ) < 2 ^ (1200 : ℤ) := by positivity
      rw [dif_neg]
      · simp [hp.ne', hp.le]
      · rw [abs_of_pos hp, fl64_two_zpow (by norm_num), not_le]
        have h4 : f64.big = (2 ^ 53 - 1) * 2 ^ 971 := rfl
        have h5 : (2 : ℝ) ^ (1200 : ℤ) = 2 ^ 229 * 2 ^ 971 := by
          rw [show (1200 : ℤ) = ((229 + 971 : ℕ) : ℤ) by norm_num, zpow_natCast, pow_add]
        rw [h4, h5]
        exact mul_lt_mul_of_pos_right (by norm_num) (by positivity)
    have h00 : (0 : Ieee f64) * 0 = 0 := (zero_mul_fin 0 ⟨_, _, rfl⟩).1
    have hns : (Vec.new3 a 0 0).normSquared = inf false := by
      change ((0 + a * a) + (0 : Ieee f64) * 0) + (0 : Ieee f64) * 0 = inf false
      rw [haa, h00]; rfl
    have hnorm : (Vec.new3 a 0 0).norm = inf false := by
      rw [Vec.norm, hns, Lib.sqrt_eq]; rfl
    have hrec : (1 : Ieee f64) / (Vec.new3 a 0 0).norm = 0 := by rw [hnorm]; rfl
    ext i : 2
    simp only [Vec.normalize, Vec.mulS_data, hrec]
    fin_cases i
    · exact (zero_mul_fin a ⟨_, _, rfl⟩).1
    · exact h00
    · exact h00

/-- Normalizing a finite non-zero `f64` vector can return infinities and NaN: the squared norm of `(2^-600, 0, 0)`
underflows to zero. `try_normalize` returns `None` for it. -/
theorem C69_normalize_underflow_fails [Lib f64] : ∃ v : Vec (Ieee f64) 3, (∀ i, (v.data i).Finite) ∧
    (v.data 0).val ≠ 0 ∧ (v.normalize.data 0).IsInf ∧ (v.normalize.data 1).IsNan ∧ v.tryNormalize 0 = none := by
  set a := pow64 (-600) (by norm_num) with ha
  refine ⟨Vec.new3 a 0 0, fun i => ?_, ?_, ?_⟩
  · fin_cases i
    · exact finite_fin _ _ _
    · exact finite_zero
    · exact finite_zero
  · change signed false (2 ^ (-600 : ℤ)) ≠ 0
    simp [signed]
  · have haa : a * a = 0 := by
      change Ieee.round (false ^^ false) (signed false (2 ^ (-600 : ℤ)) * signed false (2 ^ (-600 : ℤ))) = _
      have e : (2 : ℝ) ^ (-600 : ℤ) * 2 ^ (-600 : ℤ) = 2 ^ (-1200 : ℤ) := by rw [← zpow_add₀ two_ne_zero]; norm_num
      simp only [Ieee.round, signed, Bool.false_eq_true, if_false, e]
      have hp : (0 : ℝ) < 2 ^ (-1200 : ℤ) := by positivity
      have hfl : f64.fl |2 ^ (-1200 : ℤ)| = 0 := by
        rw [abs_of_pos hp]
        have := flEven_eq (p := 53) (qmin := some (-1074)) (x := 2 ^ (-1200 : ℤ)) (e := -1200) (m := 0)
          (by rw [abs_of_pos (by positivity)]) (by
            rw [abs_of_pos (by positivity)]; exact zpow_lt_zpow_right₀ one_lt_two (by norm_num)) (by
            simp only [Rounding.lastBit]
            rw [← zpow_sub₀ two_ne_zero, Int.cast_zero, sub_zero, abs_of_pos (by positivity)]
            calc (2 : ℝ) ^ _ < 2 ^ (-1 : ℤ) := zpow_lt_zpow_right₀ one_lt_two (by norm_num)
              _ = 1 / 2 := by norm_num)
        refine (show f64.fl _ = _ from this).trans ?_
        simp
      rw [dif_pos (by rw [hfl]; exact zero_le_one.trans f64.one_le_big)]
      simp only [hfl, hp.ne', if_false, not_lt.mpr hp.le, decide_false]
      rfl
    have h00 : (0 : Ieee f64) * 0 = 0 := (zero_mul_fin 0 ⟨_, _, rfl⟩).1
    have hns : (Vec.new3 a 0 0).normSquared = 0 := by
      change ((0 + a * a) + (0 : Ieee f64) * 0) + (0 : Ieee f64) * 0 = 0
      rw [haa, h00, zero_add_zero, zero_add_zero, zero_add_zero]
    have hnorm : (Vec.new3 a 0 0).norm = 0 := by
      rw [Vec.norm, hns, Lib.sqrt_eq]
      change (if (0 : ℝ) = 0 then (0 : Ieee f64) else _) = 0
      simp
    have hrec : (1 : Ieee f64) / (Vec.new3 a 0 0).norm = inf false := by
      rw [hnorm]
      change (if (0 : ℝ) = 0 then (if (1 : ℝ) = 0 then nan else inf (false ^^ false)) else _ : Ieee f64) = _
      simp
    refine ⟨?_, ?_, ?_⟩
    · simp only [Vec.normalize, Vec.mulS_data, hrec]
      refine ⟨false, ?_⟩
      change (if (2 : ℝ) ^ (-600 : ℤ) = 0 then nan else inf (false ^^ false) : Ieee f64) = _
      rw [if_neg (by positivity)]; rfl
    · simp only [Vec.normalize, Vec.mulS_data, hrec]
      change (if (0 : ℝ) = 0 then nan else inf (false ^^ false) : Ieee f64) = _
      simp
    · rw [Vec.tryNormalize, if_pos]
      rw [hnorm]
      exact ⟨_, _, rfl, rfl, le_rfl⟩

/-- there is such a mathematical library -/
noncomputable instance : Inhabited (Lib φ) := ⟨{
  fsqrt := Ieee.sqrt, sqrt_eq := fun _ => rfl
  fcbrt := id, fsin := id, fcos := id, ftan := id, fasin := id, facos := id, fatan := id, fatan2 := fun x _ => x
  fexp := id, fln := id, fsinh := id, fcosh := id, fpowf := fun x _ => x, ftrunc := id, fpi := 0, fexp2 := id
  flog := fun x _ => x, fln2 := 0, fln10 := 0, ftanh := id, ffracPi2 := 0, ffracPi4 := 0 }⟩

example : (Vec.new3 (inf true) 1 0 : Vec (Ieee f64) 3).dot (Vec.new3 0 1 1) = nan := by
  have h : (inf true : Ieee f64) * 0 = nan := by
    change (if (0 : ℝ) = 0 then nan else inf (true ^^ false) : Ieee f64) = nan; simp
  change ((0 + inf true * (0 : Ieee f64)) + _) + _ = nan
  rw [h, add_nan, nan_add, nan_add]

end Cgl
