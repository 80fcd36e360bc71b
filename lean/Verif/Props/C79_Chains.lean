import Mathlib.Analysis.Quaternion
import Mathlib.Analysis.CStarAlgebra.Matrix
import Verif.Props.C67_RoundingError
import Verif.Props.C39_QuaternionAlgebra
import Verif.Lemmas.Complex

/-! # C79 - rounding errors of products of any number of factors

A user who composes rotations frame after frame multiplies any number of matrices, quaternions or complex numbers,
bracketed in any way.  The computed product is compared with the product of the rotations meant, in exact arithmetic. -/

namespace Cgl
open Mat Finset

variable {ρ : Rounding} {ι : Type*}

/-! ### the specification: bracketings -/

/-- A product of factors named by `ι`, bracketed in some way. -/
inductive Spec.Bracketing (ι : Type*) where
  | factor (i : ι)
  | times (l r : Spec.Bracketing ι)

/-- the factors in order -/
def Spec.Bracketing.factors : Spec.Bracketing ι → List ι
  | .factor i => [i]
  | .times l r => l.factors ++ r.factors

/-- the number of factors -/
def Spec.Bracketing.size (t : Spec.Bracketing ι) : ℕ := t.factors.length

/-- the value of the product when the factor `i` is `x i` -/
def Spec.Bracketing.eval {X : Type*} (op : X → X → X) (x : ι → X) : Spec.Bracketing ι → X
  | .factor i => x i
  | .times l r => op (l.eval op x) (r.eval op x)

/-- the exact quaternion with the parts of `q` -/
def Spec.exactQuat (q : Quat (Fl ρ)) : Quat ℝ := ⟨⟨fun i => (q.coords.data i).val⟩⟩

/-- the exact complex number with the parts of `z` -/
def Spec.exactCx (z : Cx (Fl ρ)) : Cx ℝ := ⟨z.re.val, z.im.val⟩

namespace Spec.Bracketing

theorem size_factor (i : ι) : (factor i).size = 1 := rfl
theorem size_times (l r : Spec.Bracketing ι) : (times l r).size = l.size + r.size := List.length_append
theorem size_pos (t : Spec.Bracketing ι) : 1 ≤ t.size := by
  induction t with
  | factor i => exact le_rfl
  | times l r hl hr => rw [size_times]; omega

/-- in a monoid the value depends only on the factors in order -/
theorem eval_eq_prod {M : Type*} [Monoid M] (x : ι → M) (t : Spec.Bracketing ι) :
    t.eval (· * ·) x = (t.factors.map x).prod := by
  induction t with
  | factor i => simp [eval, factors]
  | times l r hl hr => simp [eval, factors, hl, hr]

theorem eval_hom {X Y : Type*} (op : X → X → X) (op' : Y → Y → Y) (f : X → Y) (h : ∀ a b, f (op a b) = op' (f a) (f b))
    (x : ι → X) (t : Spec.Bracketing ι) : f (t.eval op x) = t.eval op' (f ∘ x) := by
  induction t with
  | factor i => rfl
  | times l r hl hr => simp only [eval, h, hl, hr]

end Spec.Bracketing

open Spec (Bracketing)

/-! ### products in a normed ring -/

/-- Every bracketing of `m` factors, each with relative error `δ`, with products of relative error `κ` and absolute
error `τ`.  The sizes of the exact factors are bounded by `P`, at least one if there is an absolute error. -/
theorem bracketing_error {X A : Type*} [NormedRing A] (op : X → X → X) (e : X → A) {κ τ δ : ℝ} (hκ : 0 ≤ κ) (hτ : 0 ≤ τ)
    (hδ : 0 ≤ δ) (hop : ∀ x y, ‖e (op x y) - e x * e y‖ ≤ κ * (‖e x‖ * ‖e y‖) + τ) (x : ι → X) (a : ι → A) (P : ι → ℝ)
    (t : Bracketing ι) (ha : ∀ i ∈ t.factors, ‖a i‖ ≤ P i) (hP : τ = 0 ∨ ∀ i ∈ t.factors, 1 ≤ P i)
    (hx : ∀ i ∈ t.factors, ‖e (x i) - a i‖ ≤ δ * P i) :
    ‖t.eval (· * ·) a‖ ≤ (t.factors.map P).prod ∧ (τ = 0 ∨ 1 ≤ (t.factors.map P).prod) ∧
    ‖e (t.eval op x) - t.eval (· * ·) a‖ ≤
      ((1 + δ) ^ t.size * (1 + (κ + τ)) ^ (t.size - 1) - 1) * (t.factors.map P).prod := by
  induction t with
  | factor i =>
    simp only [Bracketing.eval, Bracketing.factors, List.mem_singleton, forall_eq, List.map_cons, List.map_nil,
      List.prod_cons, List.prod_nil, mul_one, Bracketing.size_factor, pow_one, Nat.sub_self, pow_zero] at *
    exact ⟨ha, hP, by simpa using hx⟩
  | times l r hl hr =>
    simp only [Bracketing.factors, List.mem_append, or_imp, forall_and] at ha hP hx
    obtain ⟨al, pl, bl⟩ := hl ha.1 (hP.imp_right fun h => h.1) hx.1
    obtain ⟨ar, pr, br⟩ := hr ha.2 (hP.imp_right fun h => h.2) hx.2
    simp only [Bracketing.eval, Bracketing.factors, List.map_append, List.prod_append, Bracketing.size_times]
    set L := (l.factors.map P).prod
    set R := (r.factors.map P).prod
    set u := l.eval (· * ·) a
    set v := r.eval (· * ·) a
    set p := e (l.eval op x)
    set q := e (r.eval op x)
    have hL : 0 ≤ L := (norm_nonneg _).trans al
    have hR : 0 ≤ R := (norm_nonneg _).trans ar
    have c : ∀ m : ℕ, 1 ≤ (1 + δ) ^ m * (1 + (κ + τ)) ^ (m - 1) := fun m =>
      one_le_mul_of_one_le_of_one_le (one_le_pow₀ (by linarith)) (one_le_pow₀ (by linarith))
    have cl := c l.size
    have cr := c r.size
    have he : (1 + δ) ^ (l.size + r.size) * (1 + (κ + τ)) ^ (l.size + r.size - 1) = (1 + (κ + τ)) *
        (((1 + δ) ^ l.size * (1 + (κ + τ)) ^ (l.size - 1)) * ((1 + δ) ^ r.size * (1 + (κ + τ)) ^ (r.size - 1))) := by
      have h1 := l.size_pos
      have h2 := r.size_pos
      rw [show l.size + r.size - 1 = (l.size - 1) + (r.size - 1) + 1 by omega]
      ring
    rw [he]
    set cL := (1 + δ) ^ l.size * (1 + (κ + τ)) ^ (l.size - 1)
    set cR := (1 + δ) ^ r.size * (1 + (κ + τ)) ^ (r.size - 1)
    have hp : ‖p‖ ≤ cL * L := by
      calc ‖p‖ = ‖u + (p - u)‖ := by rw [add_sub_cancel]
        _ ≤ ‖u‖ + ‖p - u‖ := norm_add_le _ _
        _ ≤ L + (cL - 1) * L := add_le_add al bl
        _ = _ := by ring
    have hq : ‖q‖ ≤ cR * R := by
      calc ‖q‖ = ‖v + (q - v)‖ := by rw [add_sub_cancel]
        _ ≤ ‖v‖ + ‖q - v‖ := norm_add_le _ _
        _ ≤ R + (cR - 1) * R := add_le_add ar br
        _ = _ := by ring
    have hτ' : τ ≤ τ * ((cL * L) * (cR * R)) := by
      rcases pl with h | h
      · rw [h]; simp
      · rcases pr with h' | h'
        · rw [h']; simp
        · exact le_mul_of_one_le_right hτ (one_le_mul_of_one_le_of_one_le
            (one_le_mul_of_one_le_of_one_le cl h) (one_le_mul_of_one_le_of_one_le cr h'))
    refine ⟨(norm_mul_le _ _).trans (mul_le_mul al ar (norm_nonneg _) hL), ?_, ?_⟩
    · rcases pl with h | h
      · exact Or.inl h
      · rcases pr with h' | h'
        · exact Or.inl h'
        · exact Or.inr (one_le_mul_of_one_le_of_one_le h h')
    · calc ‖e (op (l.eval op x) (r.eval op x)) - u * v‖
          = ‖(e (op (l.eval op x) (r.eval op x)) - p * q) + ((p - u) * q + u * (q - v))‖ := by congr 1; noncomm_ring
        _ ≤ (κ * (‖p‖ * ‖q‖) + τ) + (‖p - u‖ * ‖q‖ + ‖u‖ * ‖q - v‖) :=
            (norm_add_le _ _).trans (add_le_add (hop _ _) ((norm_add_le _ _).trans
              (add_le_add (norm_mul_le _ _) (norm_mul_le _ _))))
        _ ≤ (κ * ((cL * L) * (cR * R)) + τ * ((cL * L) * (cR * R))) +
            (((cL - 1) * L) * (cR * R) + L * ((cR - 1) * R)) := by
            have : 0 ≤ cL * L := by positivity
            have : 0 ≤ (cL - 1) * L := mul_nonneg (by linarith) hL
            gcongr
        _ = _ := by ring

/-! ### sums and products with underflow -/

/-- `x` is `X` up to `k` roundings relative to the majorant `A` and `j` underflows. -/
def NearT (ρ : Rounding) (k j : ℕ) (A X x : ℝ) : Prop :=
  |X| ≤ A ∧ |x - X| ≤ ((1 + ρ.u) ^ k - 1) * A + j * (1 + ρ.u) ^ k * ρ.tiny

namespace NearT

theorem mono {k l j m : ℕ} {A X x : ℝ} (h : NearT ρ k j A X x) (hkl : k ≤ l) (hj : j ≤ m) : NearT ρ l m A X x := by
  have hp := pow_le_pow_right₀ (show 1 ≤ 1 + ρ.u by linarith [ρ.u_nonneg]) hkl
  have hA := (abs_nonneg _).trans h.1
  have ht := ρ.tiny_nonneg
  have hj' : (j : ℝ) ≤ m := by exact_mod_cast hj
  have : (0 : ℝ) ≤ (1 + ρ.u) ^ k := by have := ρ.u_nonneg; positivity
  refine ⟨h.1, h.2.trans (add_le_add (mul_le_mul_of_nonneg_right (by linarith) hA) ?_)⟩
  gcongr

theorem neg {k j : ℕ} {A X x : ℝ} (h : NearT ρ k j A X x) : NearT ρ k j A (-X) (-x) := by
  refine ⟨by rw [abs_neg]; exact h.1, ?_⟩
  rw [show -x - -X = -(x - X) by ring, abs_neg]; exact h.2

theorem add {k l j m : ℕ} {A X x B Y y : ℝ} (h : NearT ρ k j A X x) (h' : NearT ρ l m B Y y) :
    NearT ρ (max k l + 1) (j + m + 1) (A + B) (X + Y) (ρ.fl (x + y)) := by
  have h := h.mono (le_max_left k l) le_rfl
  have h' := h'.mono (le_max_right k l) le_rfl
  refine ⟨(abs_add_le _ _).trans (add_le_add h.1 h'.1), ?_⟩
  have hu := ρ.u_nonneg
  have ht := ρ.tiny_nonneg
  have e := ρ.err (x + y)
  have hP1 : 1 ≤ (1 + ρ.u) ^ max k l := one_le_pow₀ (by linarith)
  set P := (1 + ρ.u) ^ max k l
  have hs : |(x + y) - (X + Y)| ≤ ((P - 1) * A + j * P * ρ.tiny) + ((P - 1) * B + m * P * ρ.tiny) := by
    rw [show (x + y) - (X + Y) = (x - X) + (y - Y) by ring]
    exact (abs_add_le _ _).trans (add_le_add h.2 h'.2)
  have hx : |x + y| ≤ (A + B) + (((P - 1) * A + j * P * ρ.tiny) + ((P - 1) * B + m * P * ρ.tiny)) := by
    calc |x + y| = |(X + Y) + ((x + y) - (X + Y))| := by ring_nf
      _ ≤ |X + Y| + |(x + y) - (X + Y)| := abs_add_le _ _
      _ ≤ _ := add_le_add ((abs_add_le _ _).trans (add_le_add h.1 h'.1)) hs
  calc |ρ.fl (x + y) - (X + Y)| = |(ρ.fl (x + y) - (x + y)) + ((x + y) - (X + Y))| := by ring_nf
    _ ≤ (ρ.u * |x + y| + ρ.tiny) + |(x + y) - (X + Y)| := (abs_add_le _ _).trans (add_le_add e le_rfl)
    _ ≤ (ρ.u * ((A + B) + (((P - 1) * A + j * P * ρ.tiny) + ((P - 1) * B + m * P * ρ.tiny))) + ρ.tiny) +
        (((P - 1) * A + j * P * ρ.tiny) + ((P - 1) * B + m * P * ρ.tiny)) := by gcongr
    _ ≤ _ := by
        rw [pow_succ]; push_cast
        have : 0 ≤ (P - 1) * ρ.tiny := mul_nonneg (by linarith) ht
        have : 0 ≤ P * ρ.u * ρ.tiny := by positivity
        nlinarith

theorem sub {k l j m : ℕ} {A X x B Y y : ℝ} (h : NearT ρ k j A X x) (h' : NearT ρ l m B Y y) :
    NearT ρ (max k l + 1) (j + m + 1) (A + B) (X - Y) (ρ.fl (x - y)) := by
  rw [sub_eq_add_neg, sub_eq_add_neg]; exact h.add h'.neg

theorem prod (x y : ℝ) : NearT ρ 1 1 (|x| * |y|) (x * y) (ρ.fl (x * y)) := by
  refine ⟨(abs_mul x y).le, (ρ.err _).trans ?_⟩
  rw [abs_mul]
  have := mul_nonneg ρ.u_nonneg ρ.tiny_nonneg
  push_cast
  nlinarith

theorem dot {n : ℕ} (v w : Vec (Fl ρ) n) : NearT ρ n (2 * n) (∑ i, |(v.data i).val| * |(w.data i).val|)
    (∑ i, (v.data i).val * (w.data i).val) (v.dot w).val := by
  refine ⟨?_, by have := C67_dot v w; push_cast; exact this⟩
  simp only [← abs_mul]; exact abs_sum_le_sum_abs _ _

end NearT

/-! ### quaternions -/

/-- relative error of one quaternion product, `8 u` to first order -/
noncomputable def Spec.quatStep (ρ : Rounding) : ℝ := 2 * ((1 + ρ.u) ^ 4 - 1)
/-- absolute error of one quaternion product, from underflow -/
noncomputable def Spec.quatTiny (ρ : Rounding) : ℝ := 16 * (1 + ρ.u) ^ 4 * ρ.tiny

theorem quatStep_nonneg : 0 ≤ Spec.quatStep ρ := by
  have := one_le_pow₀ (n := 4) (show 1 ≤ 1 + ρ.u by linarith [ρ.u_nonneg])
  unfold Spec.quatStep; linarith
theorem quatTiny_nonneg : 0 ≤ Spec.quatTiny ρ := by
  have := ρ.u_nonneg; have := ρ.tiny_nonneg
  unfold Spec.quatTiny; positivity

theorem hamilton_norm (q : Quat ℝ) : ‖Spec.hamilton q‖ = q.norm := by
  rw [Quat.norm_def, C39_hamilton_norm_squared, Quaternion.normSq_eq_norm_mul_self, Real.sqrt_mul_self (norm_nonneg _)]

/-- Cauchy's inequality for four terms -/
theorem cauchy4 {a b c d x y z w p q : ℝ} (hp : 0 ≤ p) (hq : 0 ≤ q) (h : a * a + b * b + c * c + d * d = p * p)
    (h' : x * x + y * y + z * z + w * w = q * q) : |a| * |x| + |b| * |y| + |c| * |z| + |d| * |w| ≤ p * q := by
  refine abs_le_of_sq_le_sq' ?_ (mul_nonneg hp hq) |>.2
  rw [← abs_mul_abs_self a, ← abs_mul_abs_self b, ← abs_mul_abs_self c, ← abs_mul_abs_self d] at h
  rw [← abs_mul_abs_self x, ← abs_mul_abs_self y, ← abs_mul_abs_self z, ← abs_mul_abs_self w] at h'
  rw [mul_pow, pow_two p, pow_two q, ← h, ← h']
  nlinarith [sq_nonneg (|a| * |y| - |b| * |x|), sq_nonneg (|a| * |z| - |c| * |x|), sq_nonneg (|a| * |w| - |d| * |x|),
    sq_nonneg (|b| * |z| - |c| * |y|), sq_nonneg (|b| * |w| - |d| * |y|), sq_nonneg (|c| * |w| - |d| * |z|)]

/-- One product of quaternions. -/
theorem C79_quaternion_step (q r : Quat (Fl ρ)) :
    (Spec.exactQuat (q * r) - Spec.exactQuat q * Spec.exactQuat r).norm ≤
      Spec.quatStep ρ * ((Spec.exactQuat q).norm * (Spec.exactQuat r).norm) + Spec.quatTiny ρ := by
  set N := (Spec.exactQuat q).norm * (Spec.exactQuat r).norm with hN
  have p0 := Quat.norm_nonneg (Spec.exactQuat q)
  have q0 := Quat.norm_nonneg (Spec.exactQuat r)
  have sq : ∀ q : Quat (Fl ρ), (q.coords.data 0).val * (q.coords.data 0).val + (q.coords.data 1).val * (q.coords.data 1).val +
      (q.coords.data 2).val * (q.coords.data 2).val + (q.coords.data 3).val * (q.coords.data 3).val =
      (Spec.exactQuat q).norm * (Spec.exactQuat q).norm := fun q => by
    rw [Quat.norm_mul_norm, Quat.normSquared_eq]; rfl
  have hn := sq q
  have hm := sq r
  have a := fun x y : Fl ρ => NearT.prod (ρ := ρ) x.val y.val
  -- each part is off by at most `e`
  set e := ((1 + ρ.u) ^ 4 - 1) * N + 8 * (1 + ρ.u) ^ 4 * ρ.tiny with he
  have part : ∀ {A X x y : ℝ}, NearT ρ 4 8 A X x → A ≤ N → y = x - X → |y| ≤ e := by
    intro A X x y h hA hy
    rw [hy]
    refine h.2.trans ?_
    have := one_le_pow₀ (n := 4) (show 1 ≤ 1 + ρ.u by linarith [ρ.u_nonneg])
    have := mul_le_mul_of_nonneg_left hA (show 0 ≤ (1 + ρ.u) ^ 4 - 1 by linarith)
    push_cast
    linarith
  set E := Spec.exactQuat (q * r) - Spec.exactQuat q * Spec.exactQuat r with hE
  have h0 : |E.s| ≤ e := by
    refine part (((a q.scalar r.scalar).sub (NearT.dot q.vector r.vector)).mono (by norm_num) (by norm_num)) ?_ ?_
    · refine le_trans (le_of_eq ?_) (cauchy4 p0 q0 hn hm)
      simp [Fin.sum_univ_three, Quat.vector, Quat.scalar]; ring
    · have e1 : E.s = (Spec.exactQuat (q * r)).s - (Spec.exactQuat q * Spec.exactQuat r).s := Quat.sub_s _ _
      have e2 : (Spec.exactQuat q * Spec.exactQuat r).s = q.scalar.val * r.scalar.val -
          ∑ i, (q.vector.data i).val * (r.vector.data i).val := by
        rw [Quat.mul_s, Fin.sum_univ_three, ← sub_sub, ← sub_sub]; rfl
      rw [e1, e2]; rfl
  have comp : ∀ i j k : Fin 3, (i = 0 ∧ j = 1 ∧ k = 2) ∨ (i = 1 ∧ j = 2 ∧ k = 0) ∨ (i = 2 ∧ j = 0 ∧ k = 1) →
      NearT ρ 4 8 (|(r.vector.data i).val| * |q.scalar.val| + |(q.vector.data i).val| * |r.scalar.val| +
        (|(q.vector.data j).val| * |(r.vector.data k).val| + |(q.vector.data k).val| * |(r.vector.data j).val|))
        ((r.vector.data i).val * q.scalar.val + (q.vector.data i).val * r.scalar.val +
        ((q.vector.data j).val * (r.vector.data k).val - (q.vector.data k).val * (r.vector.data j).val))
        ((q * r).vector.data i).val := by
    intro i j k h
    have e : ((q * r).vector.data i) = (r.vector.data i * q.scalar + q.vector.data i * r.scalar) +
        (q.vector.data j * r.vector.data k - q.vector.data k * r.vector.data j) := by
      rcases h with ⟨rfl, rfl, rfl⟩ | ⟨rfl, rfl, rfl⟩ | ⟨rfl, rfl, rfl⟩ <;> rfl
    rw [e]
    exact (((a (r.vector.data i) q.scalar).add (a (q.vector.data i) r.scalar)).add
      ((a (q.vector.data j) (r.vector.data k)).sub (a (q.vector.data k) (r.vector.data j)))).mono (by norm_num) (by norm_num)
  have h1 : |E.x| ≤ e := by
    refine part (comp 0 1 2 (by simp)) ?_ ?_
    · refine le_trans (le_of_eq ?_) (cauchy4 (a := (q.coords.data 1).val) (b := (q.coords.data 0).val)
        (c := (q.coords.data 2).val) (d := (q.coords.data 3).val) (x := (r.coords.data 0).val)
        (y := (r.coords.data 1).val) (z := (r.coords.data 3).val) (w := (r.coords.data 2).val) p0 q0
        (by linarith [hn]) (by linarith [hm]))
      show |(r.coords.data 1).val| * |(q.coords.data 0).val| + |(q.coords.data 1).val| * |(r.coords.data 0).val| +
        (|(q.coords.data 2).val| * |(r.coords.data 3).val| + |(q.coords.data 3).val| * |(r.coords.data 2).val|) = _
      ring
    · have e1 : E.x = (Spec.exactQuat (q * r)).x - (Spec.exactQuat q * Spec.exactQuat r).x := Quat.sub_x _ _
      rw [e1, Quat.mul_x]
      refine congrArg₂ (· - ·) rfl ?_
      show _ = (r.coords.data 1).val * (q.coords.data 0).val + (q.coords.data 1).val * (r.coords.data 0).val +
        ((q.coords.data 2).val * (r.coords.data 3).val - (q.coords.data 3).val * (r.coords.data 2).val)
      simp only [Spec.exactQuat, Quat.s, Quat.x, Quat.y, Quat.z]
      ring
  have h2 : |E.y| ≤ e := by
    refine part (comp 1 2 0 (by simp)) ?_ ?_
    · refine le_trans (le_of_eq ?_) (cauchy4 (a := (q.coords.data 2).val) (b := (q.coords.data 0).val)
        (c := (q.coords.data 3).val) (d := (q.coords.data 1).val) (x := (r.coords.data 0).val)
        (y := (r.coords.data 2).val) (z := (r.coords.data 1).val) (w := (r.coords.data 3).val) p0 q0
        (by linarith [hn]) (by linarith [hm]))
      show |(r.coords.data 2).val| * |(q.coords.data 0).val| + |(q.coords.data 2).val| * |(r.coords.data 0).val| +
        (|(q.coords.data 3).val| * |(r.coords.data 1).val| + |(q.coords.data 1).val| * |(r.coords.data 3).val|) = _
      ring
    · have e1 : E.y = (Spec.exactQuat (q * r)).y - (Spec.exactQuat q * Spec.exactQuat r).y := Quat.sub_y _ _
      rw [e1, Quat.mul_y]
      refine congrArg₂ (· - ·) rfl ?_
      show _ = (r.coords.data 2).val * (q.coords.data 0).val + (q.coords.data 2).val * (r.coords.data 0).val +
        ((q.coords.data 3).val * (r.coords.data 1).val - (q.coords.data 1).val * (r.coords.data 3).val)
      simp only [Spec.exactQuat, Quat.s, Quat.x, Quat.y, Quat.z]
      ring
  have h3 : |E.z| ≤ e := by
    refine part (comp 2 0 1 (by simp)) ?_ ?_
    · refine le_trans (le_of_eq ?_) (cauchy4 (a := (q.coords.data 3).val) (b := (q.coords.data 0).val)
        (c := (q.coords.data 1).val) (d := (q.coords.data 2).val) (x := (r.coords.data 0).val)
        (y := (r.coords.data 3).val) (z := (r.coords.data 2).val) (w := (r.coords.data 1).val) p0 q0
        (by linarith [hn]) (by linarith [hm]))
      show |(r.coords.data 3).val| * |(q.coords.data 0).val| + |(q.coords.data 3).val| * |(r.coords.data 0).val| +
        (|(q.coords.data 1).val| * |(r.coords.data 2).val| + |(q.coords.data 2).val| * |(r.coords.data 1).val|) = _
      ring
    · have e1 : E.z = (Spec.exactQuat (q * r)).z - (Spec.exactQuat q * Spec.exactQuat r).z := Quat.sub_z _ _
      rw [e1, Quat.mul_z]
      refine congrArg₂ (· - ·) rfl ?_
      show _ = (r.coords.data 3).val * (q.coords.data 0).val + (q.coords.data 3).val * (r.coords.data 0).val +
        ((q.coords.data 1).val * (r.coords.data 2).val - (q.coords.data 2).val * (r.coords.data 1).val)
      simp only [Spec.exactQuat, Quat.s, Quat.x, Quat.y, Quat.z]
      ring
  have e0 : 0 ≤ e := (abs_nonneg _).trans h0
  have : E.norm ≤ 2 * e := by
    refine abs_le_of_sq_le_sq' ?_ (by linarith) |>.2
    rw [Quat.norm_sq, Quat.normSquared_eq, ← pow_two, ← pow_two, ← pow_two, ← pow_two, ← sq_abs E.s, ← sq_abs E.x,
      ← sq_abs E.y, ← sq_abs E.z]
    have g : ∀ {t : ℝ}, |t| ≤ e → |t| ^ 2 ≤ e ^ 2 := fun h => pow_le_pow_left₀ (abs_nonneg _) h 2
    nlinarith [g h0, g h1, g h2, g h3]
  refine this.trans (le_of_eq ?_)
  rw [he, Spec.quatStep, Spec.quatTiny]; ring

/-- A product of any number of rotation quaternions, bracketed in any way: the computed quaternion differs from the
product of the unit quaternions meant, in exact arithmetic, by at most a bound that depends only on the number of
factors, the accuracy `δ` of the factors and the precision. -/
theorem C79_quaternion_chain (t : Bracketing ι) (q : ι → Quat (Fl ρ)) (a : ι → Quat ℝ) {δ : ℝ}
    (ha : ∀ i ∈ t.factors, (a i).norm = 1) (hq : ∀ i ∈ t.factors, (Spec.exactQuat (q i) - a i).norm ≤ δ) :
    (Spec.exactQuat (t.eval (· * ·) q) - t.eval (· * ·) a).norm ≤
      (1 + δ) ^ t.size * (1 + (Spec.quatStep ρ + Spec.quatTiny ρ)) ^ (t.size - 1) - 1 := by
  have hδ : 0 ≤ δ := by
    have : ∃ i, i ∈ t.factors := List.exists_mem_of_length_pos t.size_pos
    obtain ⟨i, hi⟩ := this
    exact (Quat.norm_nonneg _).trans (hq i hi)
  have h := (bracketing_error (A := Quaternion ℝ) (· * ·) (fun q : Quat (Fl ρ) => Spec.hamilton (Spec.exactQuat q))
    quatStep_nonneg quatTiny_nonneg hδ (fun x y => by
      rw [← C39_hamilton_mul, ← C39_hamilton_sub, hamilton_norm, hamilton_norm, hamilton_norm]
      exact C79_quaternion_step x y) q (fun i => Spec.hamilton (a i)) (fun _ => 1) t
    (fun i hi => by rw [hamilton_norm, ha i hi]) (Or.inr fun _ _ => le_rfl)
    (fun i hi => by rw [← C39_hamilton_sub, hamilton_norm, mul_one]; exact hq i hi)).2.2
  have e : t.eval (· * ·) (fun i => Spec.hamilton (a i)) = Spec.hamilton (t.eval (· * ·) a) :=
    (Bracketing.eval_hom _ _ _ C39_hamilton_mul a t).symm
  rw [e, ← C39_hamilton_sub, hamilton_norm] at h
  simpa using h

/-- The length of the computed product stays near one. -/
theorem C79_quaternion_norm (t : Bracketing ι) (q : ι → Quat (Fl ρ)) (a : ι → Quat ℝ) {δ : ℝ}
    (ha : ∀ i ∈ t.factors, (a i).norm = 1) (hq : ∀ i ∈ t.factors, (Spec.exactQuat (q i) - a i).norm ≤ δ) :
    |(Spec.exactQuat (t.eval (· * ·) q)).norm - 1| ≤
      (1 + δ) ^ t.size * (1 + (Spec.quatStep ρ + Spec.quatTiny ρ)) ^ (t.size - 1) - 1 := by
  have h1 : (t.eval (· * ·) a).norm = 1 := by
    clear hq
    induction t with
    | factor i => exact ha i (by simp [Bracketing.factors])
    | times l r hl hr =>
      simp only [Bracketing.factors, List.mem_append, or_imp, forall_and] at ha
      simp only [Bracketing.eval]
      rw [Quat.norm_mul, hl ha.1, hr ha.2, one_mul]
  refine le_trans ?_ (C79_quaternion_chain t q a ha hq)
  rw [← h1, ← hamilton_norm, ← hamilton_norm, ← hamilton_norm, C39_hamilton_sub]
  exact abs_norm_sub_norm_le _ _

/-! ### complex numbers -/

/-- relative error of one complex product, `4 u` to first order -/
noncomputable def Spec.cxStep (ρ : Rounding) : ℝ := 2 * ((1 + ρ.u) ^ 2 - 1)
/-- absolute error of one complex product, from underflow -/
noncomputable def Spec.cxTiny (ρ : Rounding) : ℝ := 6 * (1 + ρ.u) ^ 2 * ρ.tiny

/-- One product of complex numbers. -/
theorem C79_complex_step (z w : Cx (Fl ρ)) :
    (Spec.exactCx (z * w) - Spec.exactCx z * Spec.exactCx w).norm ≤
      Spec.cxStep ρ * ((Spec.exactCx z).norm * (Spec.exactCx w).norm) + Spec.cxTiny ρ := by
  set N := (Spec.exactCx z).norm * (Spec.exactCx w).norm with hN
  have p0 := Cx.norm_nonneg (Spec.exactCx z)
  have q0 := Cx.norm_nonneg (Spec.exactCx w)
  have sq : ∀ q : Cx (Fl ρ), q.re.val * q.re.val + q.im.val * q.im.val =
      (Spec.exactCx q).norm * (Spec.exactCx q).norm := fun q => by
    rw [Cx.norm_def, Real.mul_self_sqrt (by rw [Cx.normSquared]; exact add_nonneg (mul_self_nonneg _) (mul_self_nonneg _))]; rfl
  have hn := sq z
  have hm := sq w
  have a := fun x y : Fl ρ => NearT.prod (ρ := ρ) x.val y.val
  set e := ((1 + ρ.u) ^ 2 - 1) * N + 3 * (1 + ρ.u) ^ 2 * ρ.tiny with he
  have part : ∀ {A X x y : ℝ}, NearT ρ 2 3 A X x → A ≤ N → y = x - X → |y| ≤ e := by
    intro A X x y h hA hy
    rw [hy]
    refine h.2.trans ?_
    have := one_le_pow₀ (n := 2) (show 1 ≤ 1 + ρ.u by linarith [ρ.u_nonneg])
    have := mul_le_mul_of_nonneg_left hA (show 0 ≤ (1 + ρ.u) ^ 2 - 1 by linarith)
    push_cast
    linarith
  set E := Spec.exactCx (z * w) - Spec.exactCx z * Spec.exactCx w with hE
  have h0 : |E.re| ≤ e := by
    refine part ((a z.re w.re).sub (a z.im w.im)) ?_ rfl
    have := cauchy4 (a := z.re.val) (b := z.im.val) (c := 0) (d := 0) (x := w.re.val) (y := w.im.val) (z := 0) (w := 0)
      p0 q0 (by linarith) (by linarith)
    simpa using this
  have h1 : |E.im| ≤ e := by
    refine part ((a z.re w.im).add (a z.im w.re)) ?_ rfl
    have := cauchy4 (a := z.re.val) (b := z.im.val) (c := 0) (d := 0) (x := w.im.val) (y := w.re.val) (z := 0) (w := 0)
      p0 q0 (by linarith) (by linarith)
    simpa using this
  have : E.norm ≤ |E.re| + |E.im| := by rw [Cx.norm_eq]; exact Complex.norm_le_abs_re_add_abs_im _
  refine this.trans ((add_le_add h0 h1).trans (le_of_eq ?_))
  rw [he, Spec.cxStep, Spec.cxTiny]; ring

theorem cxStep_nonneg : 0 ≤ Spec.cxStep ρ := by
  have := one_le_pow₀ (n := 2) (show 1 ≤ 1 + ρ.u by linarith [ρ.u_nonneg])
  unfold Spec.cxStep; linarith
theorem cxTiny_nonneg : 0 ≤ Spec.cxTiny ρ := by
  have := ρ.u_nonneg; have := ρ.tiny_nonneg
  unfold Spec.cxTiny; positivity

/-- A product of any number of complex numbers of modulus one. -/
theorem C79_complex_chain (t : Bracketing ι) (z : ι → Cx (Fl ρ)) (a : ι → Cx ℝ) {δ : ℝ}
    (ha : ∀ i ∈ t.factors, (a i).norm = 1) (hz : ∀ i ∈ t.factors, (Spec.exactCx (z i) - a i).norm ≤ δ) :
    (Spec.exactCx (t.eval (· * ·) z) - t.eval (· * ·) a).norm ≤
      (1 + δ) ^ t.size * (1 + (Spec.cxStep ρ + Spec.cxTiny ρ)) ^ (t.size - 1) - 1 ∧
    |(Spec.exactCx (t.eval (· * ·) z)).norm - 1| ≤
      (1 + δ) ^ t.size * (1 + (Spec.cxStep ρ + Spec.cxTiny ρ)) ^ (t.size - 1) - 1 := by
  have hδ : 0 ≤ δ := by
    obtain ⟨i, hi⟩ : ∃ i, i ∈ t.factors := List.exists_mem_of_length_pos t.size_pos
    exact (Cx.norm_nonneg _).trans (hz i hi)
  have h := (bracketing_error (A := ℂ) (· * ·) (fun q : Cx (Fl ρ) => (Spec.exactCx q).toC)
    cxStep_nonneg cxTiny_nonneg hδ (fun x y => by
      rw [← Cx.toC_mul, ← Cx.toC_sub, ← Cx.norm_eq, ← Cx.norm_eq, ← Cx.norm_eq]
      exact C79_complex_step x y) z (fun i => (a i).toC) (fun _ => 1) t
    (fun i hi => by rw [← Cx.norm_eq, ha i hi]) (Or.inr fun _ _ => le_rfl)
    (fun i hi => by rw [← Cx.toC_sub, ← Cx.norm_eq, mul_one]; exact hz i hi)).2.2
  have e : t.eval (· * ·) (fun i => (a i).toC) = (t.eval (· * ·) a).toC :=
    (Bracketing.eval_hom _ _ _ Cx.toC_mul a t).symm
  have h1 : (t.eval (· * ·) a).norm = 1 := by
    clear hz h e
    induction t with
    | factor i => exact ha i (by simp [Bracketing.factors])
    | times l r hl hr =>
      simp only [Bracketing.factors, List.mem_append, or_imp, forall_and] at ha
      simp only [Bracketing.eval]
      rw [Cx.norm_eq, Cx.toC_mul, Complex.norm_mul, ← Cx.norm_eq, ← Cx.norm_eq, hl ha.1, hr ha.2, one_mul]
  rw [e, ← Cx.toC_sub, ← Cx.norm_eq] at h
  have h' : (Spec.exactCx (t.eval (· * ·) z) - t.eval (· * ·) a).norm ≤
      (1 + δ) ^ t.size * (1 + (Spec.cxStep ρ + Spec.cxTiny ρ)) ^ (t.size - 1) - 1 := by simpa using h
  refine ⟨h', le_trans ?_ h'⟩
  rw [← h1, Cx.norm_eq, Cx.norm_eq, Cx.norm_eq, Cx.toC_sub]
  exact abs_norm_sub_norm_le _ _

/-! ### matrices -/
variable {n : ℕ}

/-- relative error of one matrix product, `n ^ 2 u` to first order -/
noncomputable def Spec.matStep (ρ : Rounding) (n : ℕ) : ℝ := n * ((1 + ρ.u) ^ n - 1)
/-- absolute error of one matrix product, from underflow -/
noncomputable def Spec.matTiny (ρ : Rounding) (n : ℕ) : ℝ := n * (2 * n * (1 + ρ.u) ^ n * ρ.tiny)

/-- the linear map of a matrix on Euclidean space -/
noncomputable def Spec.linear (m : Mat ℝ n n) : EuclideanSpace ℝ (Fin n) →L[ℝ] EuclideanSpace ℝ (Fin n) :=
  Matrix.toEuclideanCLM (𝕜 := ℝ) m.toMatrix

theorem linear_mul (m k : Mat ℝ n n) : Spec.linear (m * k) = Spec.linear m * Spec.linear k := by
  rw [Spec.linear, Mat.toMatrix_mul, map_mul]; rfl
theorem linear_sub (m k : Mat ℝ n n) : Spec.linear (m - k) = Spec.linear m - Spec.linear k := by
  rw [Spec.linear, show (m - k).toMatrix = m.toMatrix - k.toMatrix by ext; simp, map_sub]; rfl
theorem linear_apply (m : Mat ℝ n n) (v : Vec ℝ n) : Spec.linear m (WithLp.toLp 2 v.data) = WithLp.toLp 2 (m * v).data := by
  rw [Mat.mulVec_eq]; rfl
theorem norm_toLp (v : Vec ℝ n) : ‖(WithLp.toLp 2 v.data : EuclideanSpace ℝ (Fin n))‖ = v.norm := by
  rw [Vec.norm_eq_euclidean]
theorem linear_norm_le {m : Mat ℝ n n} {B : ℝ} (hB : 0 ≤ B) (h : ∀ v : Vec ℝ n, (m * v).norm ≤ B * v.norm) :
    ‖Spec.linear m‖ ≤ B := by
  refine ContinuousLinearMap.opNorm_le_bound _ hB fun x => ?_
  have := h ⟨x.ofLp⟩
  rw [← norm_toLp, ← norm_toLp, ← linear_apply] at this
  exact this
theorem le_linear_norm (m : Mat ℝ n n) (v : Vec ℝ n) : (m * v).norm ≤ ‖Spec.linear m‖ * v.norm := by
  rw [← norm_toLp, ← norm_toLp, ← linear_apply]
  exact (Spec.linear m).le_opNorm _

/-- the length of a column, and of a row, is at most the norm of the map -/
theorem column_le (m : Mat ℝ n n) (c : Fin n) : Real.sqrt (∑ r, m.data c r ^ 2) ≤ ‖Spec.linear m‖ := by
  have h := le_linear_norm m ⟨Pi.single c 1⟩
  have e : (⟨Pi.single c 1⟩ : Vec ℝ n).norm = 1 := by rw [← norm_toLp]; simp
  have e' : (m * (⟨Pi.single c 1⟩ : Vec ℝ n)).norm = Real.sqrt (∑ r, m.data c r ^ 2) := by
    rw [← norm_toLp, EuclideanSpace.norm_eq]
    simp [Mat.mulVec_data, Pi.single_apply]
  rw [e, e', mul_one] at h
  exact h
theorem row_le (m : Mat ℝ n n) (r : Fin n) : Real.sqrt (∑ c, m.data c r ^ 2) ≤ ‖Spec.linear m‖ := by
  set s := Real.sqrt (∑ c, m.data c r ^ 2) with hs
  have hs2 : s ^ 2 = ∑ c, m.data c r ^ 2 := Real.sq_sqrt (sum_nonneg fun _ _ => sq_nonneg _)
  rcases (Real.sqrt_nonneg (∑ c, m.data c r ^ 2)).eq_or_lt with h0 | h0
  · rw [hs, ← h0]; exact _root_.norm_nonneg _
  have h := le_linear_norm m ⟨fun c => m.data c r⟩
  have e : (⟨fun c => m.data c r⟩ : Vec ℝ n).norm = s := by
    rw [← norm_toLp, EuclideanSpace.norm_eq]; simp [hs]
  rw [e] at h
  have h1 : s ^ 2 ≤ (m * (⟨fun c => m.data c r⟩ : Vec ℝ n)).norm := by
    rw [← norm_toLp]
    refine le_trans (le_of_eq ?_) (PiLp.norm_apply_le _ r)
    simp only [Mat.mulVec_data]
    rw [hs2, Real.norm_eq_abs, abs_of_nonneg (sum_nonneg fun _ _ => mul_self_nonneg _)]
    exact sum_congr rfl fun _ _ => pow_two _
  have h2 : s * s ≤ ‖Spec.linear m‖ * s := by rw [← pow_two]; exact h1.trans h
  exact le_of_mul_le_mul_right h2 h0

theorem matStep_nonneg : 0 ≤ Spec.matStep ρ n := by
  have := one_le_pow₀ (n := n) (show 1 ≤ 1 + ρ.u by linarith [ρ.u_nonneg])
  unfold Spec.matStep; exact mul_nonneg (by positivity) (by linarith)
theorem matTiny_nonneg : 0 ≤ Spec.matTiny ρ n := by
  have := ρ.u_nonneg; have := ρ.tiny_nonneg
  unfold Spec.matTiny; positivity

/-- entries of size `e` make a map of norm at most `n e` -/
theorem norm_le_of_entries {m : Mat ℝ n n} {e : ℝ} (he : 0 ≤ e) (h : ∀ c r, |m.data c r| ≤ e) (v : Vec ℝ n) :
    (m * v).norm ≤ n * e * v.norm := by
  refine abs_le_of_sq_le_sq' ?_ (by have := v.norm_nonneg; positivity) |>.2
  rw [← norm_toLp, EuclideanSpace.norm_sq_eq, mul_pow, Vec.norm_sq, Vec.normSquared, Vec.dot_eq_sum]
  simp only [Mat.mulVec_data, Real.norm_eq_abs, sq_abs]
  calc ∑ r, (∑ c, m.data c r * v.data c) ^ 2 ≤ ∑ r : Fin n, (∑ c, m.data c r ^ 2) * (∑ c, v.data c ^ 2) :=
        sum_le_sum fun r _ => sum_mul_sq_le_sq_mul_sq _ _ _
    _ ≤ ∑ r : Fin n, (∑ c : Fin n, e ^ 2) * (∑ c, v.data c ^ 2) := by
        refine sum_le_sum fun r _ => mul_le_mul_of_nonneg_right (sum_le_sum fun c _ => ?_)
          (sum_nonneg fun _ _ => sq_nonneg _)
        rw [← sq_abs]; exact pow_le_pow_left₀ (abs_nonneg _) (h c r) 2
    _ = _ := by simp only [sum_const, card_univ, Fintype.card_fin, nsmul_eq_mul, ← pow_two]; ring

/-- One product of square matrices, as maps of Euclidean space. -/
theorem matrix_step (A B : Mat (Fl ρ) n n) :
    ‖Spec.linear (Spec.exactMat (A * B)) - Spec.linear (Spec.exactMat A) * Spec.linear (Spec.exactMat B)‖ ≤
      Spec.matStep ρ n * (‖Spec.linear (Spec.exactMat A)‖ * ‖Spec.linear (Spec.exactMat B)‖) + Spec.matTiny ρ n := by
  set a := Spec.exactMat A with ha
  set b := Spec.exactMat B with hb
  have hA : ∀ c r, a.data c r = (A.data c r).val := fun c r => by simp [ha, Spec.exactMat]
  have hB : ∀ c r, b.data c r = (B.data c r).val := fun c r => by simp [hb, Spec.exactMat]
  have hu := ρ.u_nonneg
  have ht := ρ.tiny_nonneg
  have hp := one_le_pow₀ (n := n) (show 1 ≤ 1 + ρ.u by linarith)
  rw [← linear_mul, ← linear_sub]
  set e := ((1 + ρ.u) ^ n - 1) * (‖Spec.linear a‖ * ‖Spec.linear b‖) + 2 * n * (1 + ρ.u) ^ n * ρ.tiny with he
  have e0 : 0 ≤ e := add_nonneg (mul_nonneg (by linarith) (by positivity)) (by positivity)
  have := linear_norm_le (by positivity) (norm_le_of_entries (m := Spec.exactMat (A * B) - a * b) e0 fun c r => by
    have h := C67_matrix_product A B c r
    have hd : (Spec.exactMat (A * B) - a * b).data c r =
        ((A * B).data c r).val - ∑ i, (A.data i r).val * (B.data c i).val := by
      simp [Spec.exactMat, Mat.mul_data, hA, hB]
    rw [hd]
    refine h.trans (add_le_add (mul_le_mul_of_nonneg_left ?_ (by linarith)) le_rfl)
    have h1 := row_le a r
    have h2 := column_le b c
    simp only [hA, hB] at h1 h2
    calc ∑ i, |(A.data i r).val| * |(B.data c i).val| ≤
          Real.sqrt (∑ i, |(A.data i r).val| ^ 2) * Real.sqrt (∑ i, |(B.data c i).val| ^ 2) := Real.sum_mul_le_sqrt_mul_sqrt _ _ _
      _ ≤ _ := by simp only [sq_abs]; exact mul_le_mul h1 h2 (Real.sqrt_nonneg _) (_root_.norm_nonneg _))
  refine this.trans (le_of_eq ?_)
  rw [he, Spec.matStep, Spec.matTiny]; ring

/-- A product of any number of rotation matrices, bracketed in any way: what it does to a vector differs from what the
exact product of the rotations meant does by at most a bound times the length of the vector. -/
theorem C79_matrix_chain (t : Bracketing ι) (A : ι → Mat (Fl ρ) n n) (a : ι → Mat ℝ n n) {δ : ℝ} (hδ : 0 ≤ δ)
    (ha : ∀ i ∈ t.factors, ∀ v : Vec ℝ n, (a i * v).norm = v.norm)
    (hA : ∀ i ∈ t.factors, ∀ v : Vec ℝ n, ((Spec.exactMat (A i) - a i) * v).norm ≤ δ * v.norm) (v : Vec ℝ n) :
    ((Spec.exactMat (t.eval (· * ·) A) - t.eval (· * ·) a) * v).norm ≤
      ((1 + δ) ^ t.size * (1 + (Spec.matStep ρ n + Spec.matTiny ρ n)) ^ (t.size - 1) - 1) * v.norm := by
  have h := (bracketing_error (· * ·) (fun A : Mat (Fl ρ) n n => Spec.linear (Spec.exactMat A))
    matStep_nonneg matTiny_nonneg hδ matrix_step A (fun i => Spec.linear (a i)) (fun _ => 1) t
    (fun i hi => linear_norm_le zero_le_one fun v => by rw [ha i hi, one_mul]) (Or.inr fun _ _ => le_rfl)
    (fun i hi => by rw [← linear_sub, mul_one]; exact linear_norm_le hδ (hA i hi))).2.2
  have e : t.eval (· * ·) (fun i => Spec.linear (a i)) = Spec.linear (t.eval (· * ·) a) :=
    (Bracketing.eval_hom _ _ _ linear_mul a t).symm
  rw [e, ← linear_sub] at h
  refine (le_linear_norm _ v).trans (mul_le_mul_of_nonneg_right ?_ v.norm_nonneg)
  simpa using h

/-- The computed product nearly preserves lengths. -/
theorem C79_matrix_lengths (t : Bracketing ι) (A : ι → Mat (Fl ρ) n n) (a : ι → Mat ℝ n n) {δ : ℝ} (hδ : 0 ≤ δ)
    (ha : ∀ i ∈ t.factors, ∀ v : Vec ℝ n, (a i * v).norm = v.norm)
    (hA : ∀ i ∈ t.factors, ∀ v : Vec ℝ n, ((Spec.exactMat (A i) - a i) * v).norm ≤ δ * v.norm) (v : Vec ℝ n) :
    |(Spec.exactMat (t.eval (· * ·) A) * v).norm - v.norm| ≤
      ((1 + δ) ^ t.size * (1 + (Spec.matStep ρ n + Spec.matTiny ρ n)) ^ (t.size - 1) - 1) * v.norm := by
  have h1 : ∀ v : Vec ℝ n, (t.eval (· * ·) a * v).norm = v.norm := by
    clear hA
    induction t with
    | factor i => exact ha i (by simp [Bracketing.factors])
    | times l r hl hr =>
      intro v
      simp only [Bracketing.factors, List.mem_append, or_imp, forall_and] at ha
      simp only [Bracketing.eval]
      rw [Mat.mul_mulVec, hl ha.1, hr ha.2]
  refine le_trans ?_ (C79_matrix_chain t A a hδ ha hA v)
  conv_lhs => rw [← h1 v]
  rw [← norm_toLp, ← norm_toLp, ← norm_toLp, ← linear_apply, ← linear_apply, ← linear_apply, linear_sub]
  exact abs_norm_sub_norm_le _ _

/-! ### normalising after every product -/

/-- relative error of the normalisation of a quaternion, `7 u` to first order -/
noncomputable def Spec.quatUnit (ρ : Rounding) : ℝ := (1 + ρ.u) ^ 2 / (2 - (1 + ρ.u) ^ 5) - 1

theorem exactQuat_norm (q : Quat (Fl ρ)) : (Spec.exactQuat q).norm = Real.sqrt (∑ i, (q.coords.data i).val ^ 2) := by
  rw [Quat.norm_def, Quat.normSquared, Vec.normSquared, Vec.dot_eq_sum]
  congr 1
  exact sum_congr rfl fun i _ => (pow_two _).symm

theorem exactQuat_eq_zero {q : Quat (Fl ρ)} : Spec.exactQuat q = 0 ↔ q.coords = 0 := by
  rw [← Quat.norm_eq_zero, exactQuat_norm, Real.sqrt_eq_zero (sum_nonneg fun _ _ => sq_nonneg _),
    sum_eq_zero_iff_of_nonneg fun _ _ => sq_nonneg _]
  constructor
  · intro h
    ext i : 2
    exact Fl.ext (by simpa using h i (mem_univ i))
  · intro h i _
    rw [h]; simp

section NoUnderflow
variable (ht : ρ.tiny = 0)
include ht

/-- The normalised quaternion is the exact one up to a relative error. -/
theorem normalize_error (q : Quat (Fl ρ)) (hq : Spec.exactQuat q ≠ 0) (hu : (1 + ρ.u) ^ 5 < 2) :
    0 ≤ Spec.quatUnit ρ ∧ (Spec.exactQuat q.normalize - (Spec.exactQuat q).normalize).norm ≤ Spec.quatUnit ρ := by
  have hv : q.coords ≠ 0 := fun h => hq (exactQuat_eq_zero.mpr h)
  have hK : 0 ≤ Spec.quatUnit ρ := (abs_nonneg _).trans (C67_normalize ht q.coords hv hu)
  have hc := C67_normalize_component ht q.coords hv hu
  have hN : 0 < (Spec.exactQuat q).norm := Quat.norm_pos hq
  refine ⟨hK, ?_⟩
  set N := (Spec.exactQuat q).norm with hNd
  rw [← exactQuat_norm, ← hNd] at hc
  refine abs_le_of_sq_le_sq' ?_ hK |>.2
  have part : ∀ i, ((Spec.exactQuat q.normalize - (Spec.exactQuat q).normalize).coords.data i) ^ 2 ≤
      Spec.quatUnit ρ ^ 2 * ((q.coords.data i).val / N) ^ 2 := by
    intro i
    have e : (Spec.exactQuat q.normalize - (Spec.exactQuat q).normalize).coords.data i =
        (q.coords.normalize.data i).val - (q.coords.data i).val / N := by
      have e1 : ∀ a b : Quat ℝ, (a - b).coords.data i = a.coords.data i - b.coords.data i := by
        intro a b
        have h0 := Quat.sub_s a b
        have h1 := Quat.sub_x a b
        have h2 := Quat.sub_y a b
        have h3 := Quat.sub_z a b
        fin_cases i
        · exact h0
        · exact h1
        · exact h2
        · exact h3
      rw [e1]
      refine congrArg₂ (· - ·) rfl ?_
      show ((Spec.exactQuat q).coords * (1 / (Spec.exactQuat q).coords.norm)).data i = _
      rw [Vec.mulS_data, div_eq_mul_one_div (q.coords.data i).val]; rfl
    rw [e, ← mul_pow, ← sq_abs, ← sq_abs (_ * _), abs_mul, abs_of_nonneg hK]
    exact pow_le_pow_left₀ (abs_nonneg _) (hc i) 2
  rw [Quat.norm_sq, Quat.normSquared, Vec.normSquared, Vec.dot_eq_sum]
  simp only [← pow_two]
  refine (sum_le_sum fun i _ => part i).trans (le_of_eq ?_)
  rw [← mul_sum]
  simp only [div_pow]
  rw [← sum_div, ← Real.sq_sqrt (sum_nonneg fun i _ => sq_nonneg ((q.coords.data i).val)), ← exactQuat_norm, div_self (by positivity),
    mul_one]

/-- The error of one frame: the rotation of the frame, its product with the state and the normalisation. -/
theorem frame_error (f s : Quat (Fl ρ)) (a σ : Quat ℝ) {δ E : ℝ} (hu : (1 + ρ.u) ^ 5 < 2) (hκ : Spec.quatStep ρ < 1)
    (hη : Spec.quatUnit ρ < 1) (hδ : δ < 1) (ha : a.norm = 1) (hf : (Spec.exactQuat f - a).norm ≤ δ)
    (hs : |(Spec.exactQuat s).norm - 1| ≤ Spec.quatUnit ρ) (hσ : (Spec.exactQuat s - σ).norm ≤ E) :
    |(Spec.exactQuat (f * s).normalize).norm - 1| ≤ Spec.quatUnit ρ ∧
    (Spec.exactQuat (f * s).normalize - a * σ).norm ≤
      E + 2 * ((1 + Spec.quatStep ρ) * (1 + δ) * (1 + Spec.quatUnit ρ) - 1) := by
  set κ := Spec.quatStep ρ
  set η := Spec.quatUnit ρ
  have κ0 : 0 ≤ κ := quatStep_nonneg
  have δ0 : 0 ≤ δ := (Quat.norm_nonneg _).trans hf
  have η0 : 0 ≤ η := (abs_nonneg _).trans hs
  have hp := C79_quaternion_step f s
  rw [show Spec.quatTiny ρ = 0 by rw [Spec.quatTiny, ht, mul_zero], add_zero] at hp
  have hfa : |(Spec.exactQuat f).norm - 1| ≤ δ := by
    rw [← ha]; refine le_trans ?_ hf
    rw [← hamilton_norm, ← hamilton_norm, ← hamilton_norm, C39_hamilton_sub]
    exact abs_norm_sub_norm_le _ _
  have hpn : |(Spec.exactQuat (f * s)).norm - (Spec.exactQuat f).norm * (Spec.exactQuat s).norm| ≤
      κ * ((Spec.exactQuat f).norm * (Spec.exactQuat s).norm) := by
    refine le_trans ?_ hp
    rw [← Quat.norm_mul, ← hamilton_norm, ← hamilton_norm, ← hamilton_norm, C39_hamilton_sub]
    exact abs_norm_sub_norm_le _ _
  have f0 := Quat.norm_nonneg (Spec.exactQuat f)
  have s0 := Quat.norm_nonneg (Spec.exactQuat s)
  rw [abs_le] at hfa hs hpn
  set p := Spec.exactQuat (f * s) with hpd
  set F := (Spec.exactQuat f).norm
  set S := (Spec.exactQuat s).norm
  have hF : 0 < F := by linarith [hfa.1]
  have hS : 0 < S := by linarith [hs.1]
  have hFS : 0 < F * S := mul_pos hF hS
  have hP : 0 < p.norm := by nlinarith [hpn.1]
  have hp0 : p ≠ 0 := fun h => by rw [h, Quat.norm_eq_zero.mpr rfl] at hP; exact lt_irrefl _ hP
  obtain ⟨-, hn⟩ := normalize_error ht (f * s) hp0 hu
  rw [← hpd] at hn
  have hn1 : p.normalize.norm = 1 := Quat.normalize_norm hp0
  have hFS' : F * S ≤ (1 + δ) * (1 + η) := mul_le_mul (by linarith [hfa.2]) (by linarith [hs.2]) s0 (by linarith)
  have hFS'' : (1 - δ) * (1 - η) ≤ F * S := mul_le_mul (by linarith [hfa.1]) (by linarith [hs.1]) (by linarith) f0
  set G := (1 + κ) * (1 + δ) * (1 + η) - 1 with hG
  have hP1 : |p.norm - 1| ≤ G := by
    rw [abs_le]
    have h1 : 0 ≤ κ * δ := by positivity
    have h2 : 0 ≤ κ * η := by positivity
    have h3 : 0 ≤ δ * η := by positivity
    have h4 : 0 ≤ κ * δ * η := by positivity
    constructor
    · have : (1 - κ) * ((1 - δ) * (1 - η)) ≤ p.norm := by
        refine (mul_le_mul_of_nonneg_left hFS'' (by linarith)).trans ?_
        linarith [hpn.1]
      have h5 : 1 - κ - δ - η ≤ (1 - κ) * ((1 - δ) * (1 - η)) := by
        have : κ * δ * η ≤ κ * δ := mul_le_of_le_one_right h1 hη.le
        nlinarith
      have h6 : κ + δ + η ≤ G := by rw [hG]; nlinarith
      linarith
    · have : p.norm ≤ (1 + κ) * ((1 + δ) * (1 + η)) := by
        refine le_trans ?_ (mul_le_mul_of_nonneg_left hFS' (by linarith))
        linarith [hpn.2]
      rw [hG]; linarith
  refine ⟨?_, ?_⟩
  · rw [← hn1]; refine le_trans ?_ hn
    rw [← hamilton_norm, ← hamilton_norm, ← hamilton_norm, C39_hamilton_sub]
    exact abs_norm_sub_norm_le _ _
  · have hnp : (p.normalize - p).norm = |p.norm - 1| := by
      have : p.normalize - p = p * (1 / p.norm - 1) := by
        rw [Quat.normalize_def]; apply C39_hamilton_injective
        rw [C39_hamilton_sub, C39_hamilton_smul, C39_hamilton_smul, sub_smul, one_smul]
      rw [this, Quat.norm_mulS, show 1 / p.norm - 1 = -(p.norm - 1) / p.norm by field_simp; ring, abs_div, abs_neg,
        abs_of_pos hP, mul_div_cancel₀ _ hP.ne']
    have hsum : Spec.exactQuat (f * s).normalize - a * σ = (Spec.exactQuat (f * s).normalize - p.normalize) +
        (p.normalize - p) + (p - Spec.exactQuat f * Spec.exactQuat s) + ((Spec.exactQuat f - a) * Spec.exactQuat s) +
        (a * (Spec.exactQuat s - σ)) := by
      apply C39_hamilton_injective
      simp only [C39_hamilton_sub, C39_hamilton_add, C39_hamilton_mul]
      noncomm_ring
    rw [hsum]
    have t := fun a b : Quat ℝ => C39_norm_triangle a b
    refine (t _ _).trans ?_
    have h1 := t ((Spec.exactQuat (f * s).normalize - p.normalize) + (p.normalize - p) +
      (p - Spec.exactQuat f * Spec.exactQuat s)) ((Spec.exactQuat f - a) * Spec.exactQuat s)
    have h2 := t ((Spec.exactQuat (f * s).normalize - p.normalize) + (p.normalize - p))
      (p - Spec.exactQuat f * Spec.exactQuat s)
    have h3 := t (Spec.exactQuat (f * s).normalize - p.normalize) (p.normalize - p)
    rw [Quat.norm_mul, ha, one_mul]
    have h4 : ((Spec.exactQuat f - a) * Spec.exactQuat s).norm ≤ δ * (1 + η) := by
      rw [Quat.norm_mul]; exact mul_le_mul hf (by linarith [hs.2]) s0 δ0
    have h5 : κ * (F * S) ≤ κ * ((1 + δ) * (1 + η)) := mul_le_mul_of_nonneg_left hFS' κ0
    have h6 : G = κ * ((1 + δ) * (1 + η)) + δ * (1 + η) + η := by rw [hG]; ring
    linarith

/-- The state of any history of frames: its length is always that of a freshly normalised quaternion, and its distance
from the exact rotation grows at most linearly with the number of frames. -/
theorem C79_normalized_history (frames : List (Quat (Fl ρ) × Quat ℝ)) (s : Quat (Fl ρ)) (σ : Quat ℝ) {δ E : ℝ}
    (hu : (1 + ρ.u) ^ 5 < 2) (hκ : Spec.quatStep ρ < 1) (hη : Spec.quatUnit ρ < 1) (hδ : δ < 1)
    (hf : ∀ f ∈ frames, f.2.norm = 1 ∧ (Spec.exactQuat f.1 - f.2).norm ≤ δ)
    (hs : |(Spec.exactQuat s).norm - 1| ≤ Spec.quatUnit ρ) (hσ : (Spec.exactQuat s - σ).norm ≤ E) :
    |(Spec.exactQuat (frames.foldl (fun s f => (f.1 * s).normalize) s)).norm - 1| ≤ Spec.quatUnit ρ ∧
    (Spec.exactQuat (frames.foldl (fun s f => (f.1 * s).normalize) s) - frames.foldl (fun σ f => f.2 * σ) σ).norm ≤
      E + frames.length * (2 * ((1 + Spec.quatStep ρ) * (1 + δ) * (1 + Spec.quatUnit ρ) - 1)) := by
  induction frames generalizing s σ E with
  | nil => exact ⟨hs, by simpa using hσ⟩
  | cons f l ih =>
    have hf1 := hf f (by simp)
    obtain ⟨h1, h2⟩ := frame_error ht f.1 s f.2 σ hu hκ hη hδ hf1.1 hf1.2 hs hσ
    obtain ⟨h3, h4⟩ := ih (f.1 * s).normalize (f.2 * σ) (fun g hg => hf g (by simp [hg])) h1 h2
    refine ⟨h3, h4.trans (le_of_eq ?_)⟩
    rw [List.length_cons]; push_cast; ring

end NoUnderflow

/-! ### numbers for `f64` -/

/-- `(1 + x) ^ m` is at most `1 / (1 - m x)` -/
theorem pow_le_inv {x : ℝ} (hx : 0 ≤ x) (hx1 : x ≤ 1) (m : ℕ) (h : m * x < 1) : (1 + x) ^ m ≤ 1 / (1 - m * x) := by
  rw [le_div_iff₀ (by linarith)]
  have h1 : 1 - m * x ≤ (1 - x) ^ m := by
    have := one_add_mul_le_pow (a := -x) (by linarith) m
    simpa [sub_eq_add_neg] using this
  calc (1 + x) ^ m * (1 - m * x) ≤ (1 + x) ^ m * (1 - x) ^ m := by gcongr
    _ = (1 - x ^ 2) ^ m := by rw [← mul_pow]; ring
    _ ≤ 1 := pow_le_one₀ (by nlinarith) (by nlinarith)

theorem binary64_u : Rounding.binary64.u = 2 ^ (-53 : ℤ) := rfl
theorem binary64_tiny : Rounding.binary64.tiny = 2 ^ (-1074 - 1 : ℤ) := rfl

theorem binary64_tiny_le : Rounding.binary64.tiny ≤ 2 ^ (-100 : ℤ) := by
  rw [binary64_tiny]; exact zpow_le_zpow_right₀ one_le_two (by norm_num)

/-- the bound of the theorems above for at most a million factors -/
theorem million {m : ℕ} (hm : m ≤ 1000000) {δ κ : ℝ} (δ0 : 0 ≤ δ) (κ0 : 0 ≤ κ) (hδ : δ ≤ 2 ^ (-51 : ℤ))
    (hκ : κ ≤ 11 * 2 ^ (-53 : ℤ)) : (1 + δ) ^ m * (1 + κ) ^ (m - 1) - 1 ≤ 2 / 10 ^ 9 := by
  have h1 : (1 + κ) ^ (m - 1) ≤ (1 + κ) ^ m := pow_le_pow_right₀ (by linarith) (Nat.sub_le _ _)
  have h2 : (1 + δ) * (1 + κ) ≤ 1 + 16 * 2 ^ (-53 : ℤ) := by
    calc (1 + δ) * (1 + κ) ≤ (1 + 2 ^ (-51 : ℤ)) * (1 + 11 * 2 ^ (-53 : ℤ)) := by gcongr
      _ ≤ _ := by norm_num
  have hm' : (m : ℝ) * (16 * 2 ^ (-53 : ℤ)) ≤ 1000000 * (16 * 2 ^ (-53 : ℤ)) := by
    have : (m : ℝ) ≤ 1000000 := by exact_mod_cast hm
    gcongr
  have h3 : (1 + δ) ^ m * (1 + κ) ^ (m - 1) ≤ (1 + 16 * 2 ^ (-53 : ℤ)) ^ m := by
    calc (1 + δ) ^ m * (1 + κ) ^ (m - 1) ≤ (1 + δ) ^ m * (1 + κ) ^ m := by gcongr
      _ = ((1 + δ) * (1 + κ)) ^ m := (mul_pow _ _ _).symm
      _ ≤ _ := by gcongr
  have h4 := pow_le_inv (x := 16 * 2 ^ (-53 : ℤ)) (by positivity) (by norm_num) m
    (hm'.trans_lt (by norm_num))
  have h5 : 1 / (1 - (m : ℝ) * (16 * 2 ^ (-53 : ℤ))) ≤ 1 / (1 - 1000000 * (16 * 2 ^ (-53 : ℤ))) := by
    apply one_div_le_one_div_of_le
    · norm_num
    · linarith
  have h6 : (1 : ℝ) / (1 - 1000000 * (16 * 2 ^ (-53 : ℤ))) ≤ 1 + 2 / 10 ^ 9 := by norm_num
  rw [sub_le_iff_le_add']
  exact h3.trans (h4.trans (h5.trans h6))

theorem binary64_quat : Spec.quatStep Rounding.binary64 + Spec.quatTiny Rounding.binary64 ≤ 11 * 2 ^ (-53 : ℤ) := by
  have := binary64_tiny_le
  unfold Spec.quatStep Spec.quatTiny
  rw [binary64_u]
  calc _ ≤ (2 : ℝ) * ((1 + 2 ^ (-53 : ℤ)) ^ 4 - 1) + 16 * (1 + 2 ^ (-53 : ℤ)) ^ 4 * 2 ^ (-100 : ℤ) := by gcongr
    _ ≤ _ := by norm_num

theorem binary64_mat : Spec.matStep Rounding.binary64 3 + Spec.matTiny Rounding.binary64 3 ≤ 11 * 2 ^ (-53 : ℤ) := by
  have := binary64_tiny_le
  unfold Spec.matStep Spec.matTiny
  rw [binary64_u]
  calc _ ≤ ((3 : ℕ) : ℝ) * ((1 + 2 ^ (-53 : ℤ)) ^ 3 - 1) +
        ((3 : ℕ) : ℝ) * (2 * ((3 : ℕ) : ℝ) * (1 + 2 ^ (-53 : ℤ)) ^ 3 * 2 ^ (-100 : ℤ)) := by gcongr
    _ ≤ _ := by norm_num

/-- A million products of `f64` rotation quaternions, each accurate to `2 ^ -51`, with gradual underflow: the product is
within `2e-9` of the exact rotation. -/
theorem C79_quaternion_million (t : Bracketing ι) (q : ι → Quat (Fl Rounding.binary64)) (a : ι → Quat ℝ)
    (hm : t.size ≤ 1000000) (ha : ∀ i ∈ t.factors, (a i).norm = 1)
    (hq : ∀ i ∈ t.factors, (Spec.exactQuat (q i) - a i).norm ≤ 2 ^ (-51 : ℤ)) :
    (Spec.exactQuat (t.eval (· * ·) q) - t.eval (· * ·) a).norm ≤ 2 / 10 ^ 9 ∧
    |(Spec.exactQuat (t.eval (· * ·) q)).norm - 1| ≤ 2 / 10 ^ 9 :=
  have h := million hm (by positivity) (add_nonneg quatStep_nonneg quatTiny_nonneg) le_rfl binary64_quat
  ⟨(C79_quaternion_chain t q a ha hq).trans h, (C79_quaternion_norm t q a ha hq).trans h⟩

/-- A million products of `f64` rotation matrices of space, each accurate to `2 ^ -51`. -/
theorem C79_rotation_million (t : Bracketing ι) (A : ι → Mat (Fl Rounding.binary64) 3 3) (a : ι → Mat ℝ 3 3)
    (hm : t.size ≤ 1000000) (ha : ∀ i ∈ t.factors, ∀ v : Vec ℝ 3, (a i * v).norm = v.norm)
    (hA : ∀ i ∈ t.factors, ∀ v : Vec ℝ 3, ((Spec.exactMat (A i) - a i) * v).norm ≤ 2 ^ (-51 : ℤ) * v.norm) (v : Vec ℝ 3) :
    ((Spec.exactMat (t.eval (· * ·) A) - t.eval (· * ·) a) * v).norm ≤ 2 / 10 ^ 9 * v.norm ∧
    |(Spec.exactMat (t.eval (· * ·) A) * v).norm - v.norm| ≤ 2 / 10 ^ 9 * v.norm :=
  have h := million hm (by positivity) (add_nonneg matStep_nonneg matTiny_nonneg) le_rfl binary64_mat
  have hv := v.norm_nonneg
  ⟨(C79_matrix_chain t A a (by positivity) ha hA v).trans (mul_le_mul_of_nonneg_right h hv),
    (C79_matrix_lengths t A a (by positivity) ha hA v).trans (mul_le_mul_of_nonneg_right h hv)⟩

/-- Any number of frames with `f64` precision and normalisation in each: the length stays within `8 u` of one for ever, and
the rotation drifts by at most `5e-15` per frame. -/
theorem C79_history_f64 (frames : List (Quat (Fl precision53) × Quat ℝ)) (s : Quat (Fl precision53)) (σ : Quat ℝ) {E : ℝ}
    (hf : ∀ f ∈ frames, f.2.norm = 1 ∧ (Spec.exactQuat f.1 - f.2).norm ≤ 2 ^ (-51 : ℤ))
    (hs : |(Spec.exactQuat s).norm - 1| ≤ 7 * 2 ^ (-53 : ℤ)) (hσ : (Spec.exactQuat s - σ).norm ≤ E) :
    |(Spec.exactQuat (frames.foldl (fun s f => (f.1 * s).normalize) s)).norm - 1| ≤ 8 * 2 ^ (-53 : ℤ) ∧
    (Spec.exactQuat (frames.foldl (fun s f => (f.1 * s).normalize) s) - frames.foldl (fun σ f => f.2 * σ) σ).norm ≤
      E + frames.length * (5 / 10 ^ 15) := by
  have k1 : Spec.quatStep precision53 ≤ 9 * 2 ^ (-53 : ℤ) := by
    unfold Spec.quatStep; rw [precision53_u]; norm_num
  have k2 : 7 * 2 ^ (-53 : ℤ) ≤ Spec.quatUnit precision53 ∧ Spec.quatUnit precision53 ≤ 8 * 2 ^ (-53 : ℤ) := by
    unfold Spec.quatUnit; rw [precision53_u]; norm_num
  have k0 := quatStep_nonneg (ρ := precision53)
  have u0 : 0 ≤ Spec.quatUnit precision53 := le_trans (by positivity) k2.1
  obtain ⟨h1, h2⟩ := C79_normalized_history precision53_tiny frames s σ (by rw [precision53_u]; norm_num)
    (k1.trans_lt (by norm_num)) (k2.2.trans_lt (by norm_num)) (show (2 : ℝ) ^ (-51 : ℤ) < 1 by norm_num) hf (hs.trans k2.1) hσ
  refine ⟨h1.trans k2.2, h2.trans (add_le_add le_rfl (mul_le_mul_of_nonneg_left ?_ (Nat.cast_nonneg _)))⟩
  calc _ ≤ (2 : ℝ) * ((1 + 9 * 2 ^ (-53 : ℤ)) * (1 + 2 ^ (-51 : ℤ)) * (1 + 8 * 2 ^ (-53 : ℤ)) - 1) := by
        have := k2.2
        gcongr
    _ ≤ _ := by norm_num

/-! ### the hypotheses hold for concrete inputs -/

/-- the rotation by the angle with cosine `-7/25` about the horizontal axis, and its nearest `f64` parts -/
example : (Quat.new (3 / 5) (4 / 5) 0 0 : Quat ℝ).norm = 1 ∧
    (Spec.exactQuat (Quat.new (Fl.round (3 / 5)) (Fl.round (4 / 5)) 0 0 : Quat (Fl precision53)) -
      Quat.new (3 / 5) (4 / 5) 0 0).norm ≤ 2 ^ (-51 : ℤ) := by
  constructor
  · rw [Quat.norm_eq_one_iff, Quat.normSquared_eq]; simp [Quat.new, Quat.s, Quat.x, Quat.y, Quat.z]; norm_num
  · refine abs_le_of_sq_le_sq' ?_ (by positivity) |>.2
    rw [Quat.norm_sq, Quat.normSquared_eq]
    have h1 := err0 precision53_tiny (3 / 5)
    have h2 := err0 precision53_tiny (4 / 5)
    rw [precision53_u, abs_of_pos (show (0 : ℝ) < 3 / 5 by norm_num)] at h1
    rw [precision53_u, abs_of_pos (show (0 : ℝ) < 4 / 5 by norm_num)] at h2
    have g : ∀ {t e : ℝ}, |t| ≤ e → t * t ≤ e ^ 2 := fun h => by
      rw [← abs_mul_abs_self, ← pow_two]; exact pow_le_pow_left₀ (abs_nonneg _) h 2
    have g1 := g h1
    have g2 := g h2
    simp only [Quat.sub_s, Quat.sub_x, Quat.sub_y, Quat.sub_z]
    simp only [Spec.exactQuat, Quat.new, Quat.s, Quat.x, Quat.y, Quat.z]
    refine le_trans (b := (2 ^ (-53 : ℤ) * (3 / 5)) ^ 2 + (2 ^ (-53 : ℤ) * (4 / 5)) ^ 2) ?_ (by norm_num)
    refine le_trans (le_of_eq ?_) (add_le_add g1 g2)
    simp [Vec.new4]

end Cgl
