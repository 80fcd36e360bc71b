import Verif.Props.C108_VectorFunctions
import Verif.Props.C104_WholeNumbers
import Mathlib.Analysis.Quaternion

/-! # C111 - products of any number of quaternions of any size in IEEE arithmetic, in whatever way they are bracketed

The norm of a product of quaternions is the product of the norms, so the error is relative: a multiple of the number of factors and of the unit of
rounding, times the norm of the exact product. -/

namespace Cgl
open Ieee FloatFns Spec Rounding Matrix
open scoped Quaternion

variable {φ : Format}

namespace Spec

/-- the exact quaternion that the components stand for -/
noncomputable def ieeeQuat (q : Quat (Ieee φ)) : ℍ[ℝ] := ⟨(q.coords.data 0).val, (q.coords.data 1).val, (q.coords.data 2).val, (q.coords.data 3).val⟩

/-- the components are finite numbers, and the quaternion is within `e` of `h` -/
def QuatClose (q : Quat (Ieee φ)) (h : ℍ[ℝ]) (e : ℝ) : Prop := (∀ i, (q.coords.data i).Finite) ∧ ‖ieeeQuat q - h‖ ≤ e

/-- a product of quaternions with all of its brackets -/
inductive QuatProduct (φ : Format) where
  | factor (q : Quat (Ieee φ))
  | times (l r : QuatProduct φ)

namespace QuatProduct

/-- the factors, from left to right -/
def factors : QuatProduct φ → List (Quat (Ieee φ))
  | factor q => [q]
  | times l r => l.factors ++ r.factors

/-- what the program computes: every pair of brackets is one product of two quaternions -/
noncomputable def computed : QuatProduct φ → Quat (Ieee φ)
  | factor q => q
  | times l r => l.computed * r.computed

/-- the exact product of the factors -/
noncomputable def exact (t : QuatProduct φ) : ℍ[ℝ] := (t.factors.map ieeeQuat).prod

/-- the norm of the exact product in every pair of brackets is between `lo` and `hi` -/
def InRange (lo hi : ℝ) : QuatProduct φ → Prop
  | factor q => lo ≤ ‖ieeeQuat q‖ ∧ ‖ieeeQuat q‖ ≤ hi
  | times l r => l.InRange lo hi ∧ r.InRange lo hi ∧ lo ≤ ‖(times l r).exact‖ ∧ ‖(times l r).exact‖ ≤ hi

end QuatProduct
end Spec

/-! ### one product -/

theorem near_add {A e f c d : ℝ} {x y : Ieee φ} (hu : φ.u ≤ 1 / 1000000) (hA : Fits φ A) (hx : NearTo x c e) (hy : NearTo y d f) (h : |c + d| ≤ A)
    (he : e + f ≤ A / 100) : NearTo (x + y) (c + d) (e + f + 203 / 100 * φ.u * A) := by
  have c1 := abs_le.mp hx.2
  have c2 := abs_le.mp hy.2
  have c3 := abs_le.mp h
  obtain ⟨r1, r2⟩ := hA.round hu (z := x.val + y.val) (by rw [abs_le]; constructor <;> linarith)
  obtain ⟨l1, l2⟩ := add_of hx.1 hy.1 r1
  refine ⟨l1, ?_⟩
  rw [l2]
  have c4 := abs_le.mp r2
  rw [abs_le]; constructor <;> linarith

theorem near_sub {A e f c d : ℝ} {x y : Ieee φ} (hu : φ.u ≤ 1 / 1000000) (hA : Fits φ A) (hx : NearTo x c e) (hy : NearTo y d f) (h : |c - d| ≤ A)
    (he : e + f ≤ A / 100) : NearTo (x - y) (c - d) (e + f + 203 / 100 * φ.u * A) := by
  have c1 := abs_le.mp hx.2
  have c2 := abs_le.mp hy.2
  have c3 := abs_le.mp h
  obtain ⟨r1, r2⟩ := hA.round hu (z := x.val - y.val) (by rw [abs_le]; constructor <;> linarith)
  obtain ⟨l1, l2⟩ := sub_of hx.1 hy.1 r1
  refine ⟨l1, ?_⟩
  rw [l2]
  have c4 := abs_le.mp r2
  rw [abs_le]; constructor <;> linarith

theorem near_mul {A : ℝ} {x y : Ieee φ} (hu : φ.u ≤ 1 / 1000000) (hA : Fits φ A) (hx : x.Finite) (hy : y.Finite) (h : |x.val * y.val| ≤ A) :
    NearTo (x * y) (x.val * y.val) (203 / 100 * φ.u * A) := by
  obtain ⟨r1, r2⟩ := hA.round hu (z := x.val * y.val) (by linarith [hA.pos])
  obtain ⟨l1, l2⟩ := mul_of hx hy r1
  exact ⟨l1, by rw [l2]; exact r2⟩

theorem near_weaken {x : Ieee φ} {c e f : ℝ} (h : NearTo x c e) (hef : e ≤ f) : NearTo x c f := ⟨h.1, h.2.trans hef⟩

/-- four products added up in the way of the vector part -/
theorem four_vector {A : ℝ} {a b c d a' b' c' d' : Ieee φ} (hu : φ.u ≤ 1 / 1000000) (hA : Fits φ A) (ha : a.Finite) (hb : b.Finite) (hc : c.Finite)
    (hd : d.Finite) (ha' : a'.Finite) (hb' : b'.Finite) (hc' : c'.Finite) (hd' : d'.Finite)
    (h : |a.val * a'.val| + |b.val * b'.val| + |c.val * c'.val| + |d.val * d'.val| ≤ A) :
    NearTo (a * a' + b * b' + (c * c' - d * d')) (a.val * a'.val + b.val * b'.val + (c.val * c'.val - d.val * d'.val)) (17 * φ.u * A) := by
  have hu0 := φ.u_nonneg
  have hp := hA.pos
  have hua : φ.u * A ≤ 1 / 1000000 * A := mul_le_mul_of_nonneg_right hu hp.le
  have hua0 : 0 ≤ φ.u * A := by positivity
  have p1 := abs_nonneg (a.val * a'.val)
  have p2 := abs_nonneg (b.val * b'.val)
  have p3 := abs_nonneg (c.val * c'.val)
  have p4 := abs_nonneg (d.val * d'.val)
  have q1 := abs_add_le (a.val * a'.val) (b.val * b'.val)
  have q2 := abs_sub (c.val * c'.val) (d.val * d'.val)
  have q3 := abs_add_le (a.val * a'.val + b.val * b'.val) (c.val * c'.val - d.val * d'.val)
  have t1 := near_mul hu hA ha ha' (by linarith)
  have t2 := near_mul hu hA hb hb' (by linarith)
  have t3 := near_mul hu hA hc hc' (by linarith)
  have t4 := near_mul hu hA hd hd' (by linarith)
  have s1 := near_add hu hA t1 t2 (by linarith) (by linarith)
  have s2 := near_sub hu hA t3 t4 (by linarith) (by linarith)
  exact near_weaken (near_add hu hA s1 s2 (by linarith) (by linarith)) (by linarith)

/-- ... and in the way of the scalar part -/
theorem four_scalar {A : ℝ} {a b c d a' b' c' d' : Ieee φ} (hu : φ.u ≤ 1 / 1000000) (hA : Fits φ A) (ha : a.Finite) (hb : b.Finite) (hc : c.Finite)
    (hd : d.Finite) (ha' : a'.Finite) (hb' : b'.Finite) (hc' : c'.Finite) (hd' : d'.Finite)
    (h : |a.val * a'.val| + |b.val * b'.val| + |c.val * c'.val| + |d.val * d'.val| ≤ A) :
    NearTo (a * a' - (0 + b * b' + c * c' + d * d')) (a.val * a'.val - (0 + b.val * b'.val + c.val * c'.val + d.val * d'.val)) (17 * φ.u * A) := by
  have hu0 := φ.u_nonneg
  have hp := hA.pos
  have hua : φ.u * A ≤ 1 / 1000000 * A := mul_le_mul_of_nonneg_right hu hp.le
  have hua0 : 0 ≤ φ.u * A := by positivity
  have p1 := abs_nonneg (a.val * a'.val)
  have p2 := abs_nonneg (b.val * b'.val)
  have p3 := abs_nonneg (c.val * c'.val)
  have p4 := abs_nonneg (d.val * d'.val)
  have b1 := neg_abs_le (a.val * a'.val)
  have b2 := neg_abs_le (b.val * b'.val)
  have b3 := neg_abs_le (c.val * c'.val)
  have b4 := neg_abs_le (d.val * d'.val)
  have a1 := le_abs_self (a.val * a'.val)
  have a2 := le_abs_self (b.val * b'.val)
  have a3 := le_abs_self (c.val * c'.val)
  have a4 := le_abs_self (d.val * d'.val)
  have t1 := near_mul hu hA ha ha' (by linarith)
  have t2 := near_mul hu hA hb hb' (by linarith)
  have t3 := near_mul hu hA hc hc' (by linarith)
  have t4 := near_mul hu hA hd hd' (by linarith)
  have z : NearTo (0 : Ieee φ) 0 0 := ⟨finite_zero, by rw [show (0 : Ieee φ).val = 0 from rfl]; simp⟩
  have s1 := near_add hu hA z t2 (by rw [abs_le]; constructor <;> linarith) (by linarith)
  have s2 := near_add hu hA s1 t3 (by rw [abs_le]; constructor <;> linarith) (by linarith)
  have s3 := near_add hu hA s2 t4 (by rw [abs_le]; constructor <;> linarith) (by linarith)
  exact near_weaken (near_sub hu hA t1 s3 (by rw [abs_le]; constructor <;> linarith) (by linarith)) (by linarith)

theorem quaternion_norm_eq (h : ℍ[ℝ]) : ‖h‖ = vecNorm ![h.re, h.imI, h.imJ, h.imK] := by
  rw [vecNorm, Fin.sum_univ_four]
  refine ((Real.sqrt_eq_iff_mul_self_eq (by positivity) (norm_nonneg h)).mpr ?_).symm
  rw [← Quaternion.normSq_eq_norm_mul_self, Quaternion.normSq_def']
  simp

@[simp] theorem ieeeQuat_re (q : Quat (Ieee φ)) : (ieeeQuat q).re = (q.coords.data 0).val := rfl
@[simp] theorem ieeeQuat_imI (q : Quat (Ieee φ)) : (ieeeQuat q).imI = (q.coords.data 1).val := rfl
@[simp] theorem ieeeQuat_imJ (q : Quat (Ieee φ)) : (ieeeQuat q).imJ = (q.coords.data 2).val := rfl
@[simp] theorem ieeeQuat_imK (q : Quat (Ieee φ)) : (ieeeQuat q).imK = (q.coords.data 3).val := rfl

theorem ieeeQuat_norm (q : Quat (Ieee φ)) : ‖ieeeQuat q‖ = vecNorm (values q.coords) := by
  rw [quaternion_norm_eq]
  congr 1
  ext i; fin_cases i <;> rfl

/-- the products of the components, in every order, add up to at most the product of the norms -/
theorem four_products (q r : Quat (Ieee φ)) (σ : Equiv.Perm (Fin 4)) :
    |(q.coords.data 0).val * (r.coords.data (σ 0)).val| + |(q.coords.data 1).val * (r.coords.data (σ 1)).val| +
      |(q.coords.data 2).val * (r.coords.data (σ 2)).val| + |(q.coords.data 3).val * (r.coords.data (σ 3)).val| ≤ ‖ieeeQuat q‖ * ‖ieeeQuat r‖ := by
  have h := sum_le_vecNorm (values q.coords) fun i => values r.coords (σ i)
  have e : vecNorm (fun i => values r.coords (σ i)) = vecNorm (values r.coords) :=
    congrArg Real.sqrt (Equiv.sum_comp σ fun i => values r.coords i ^ 2)
  rw [e, ← ieeeQuat_norm, ← ieeeQuat_norm, Fin.sum_univ_four] at h
  exact h

theorem quat_product_near (hu : φ.u ≤ 1 / 1000000) {q r : Quat (Ieee φ)} {A : ℝ} (hA : Fits φ A) (hq : ∀ i, (q.coords.data i).Finite)
    (hr : ∀ i, (r.coords.data i).Finite) (h : ‖ieeeQuat q‖ * ‖ieeeQuat r‖ ≤ A) :
    QuatClose (q * r) (ieeeQuat q * ieeeQuat r) (34 * φ.u * A) := by
  obtain ⟨e0, e1, e2, e3⟩ := quat_mul_ops q r
  have n0 := (four_products q r 1).trans h
  have n1 := (four_products q r (Equiv.swap 0 1 * Equiv.swap 2 3)).trans h
  have n2 := (four_products q r (Equiv.swap 0 2 * Equiv.swap 1 3)).trans h
  have n3 := (four_products q r (Equiv.swap 0 3 * Equiv.swap 1 2)).trans h
  simp only [show (Equiv.swap 0 1 * Equiv.swap 2 3 : Equiv.Perm (Fin 4)) 0 = 1 by decide, show (Equiv.swap 0 1 * Equiv.swap 2 3 : Equiv.Perm (Fin 4)) 1 = 0 by decide,
    show (Equiv.swap 0 1 * Equiv.swap 2 3 : Equiv.Perm (Fin 4)) 2 = 3 by decide, show (Equiv.swap 0 1 * Equiv.swap 2 3 : Equiv.Perm (Fin 4)) 3 = 2 by decide] at n1
  simp only [show (Equiv.swap 0 2 * Equiv.swap 1 3 : Equiv.Perm (Fin 4)) 0 = 2 by decide, show (Equiv.swap 0 2 * Equiv.swap 1 3 : Equiv.Perm (Fin 4)) 1 = 3 by decide,
    show (Equiv.swap 0 2 * Equiv.swap 1 3 : Equiv.Perm (Fin 4)) 2 = 0 by decide, show (Equiv.swap 0 2 * Equiv.swap 1 3 : Equiv.Perm (Fin 4)) 3 = 1 by decide] at n2
  simp only [show (Equiv.swap 0 3 * Equiv.swap 1 2 : Equiv.Perm (Fin 4)) 0 = 3 by decide, show (Equiv.swap 0 3 * Equiv.swap 1 2 : Equiv.Perm (Fin 4)) 1 = 2 by decide,
    show (Equiv.swap 0 3 * Equiv.swap 1 2 : Equiv.Perm (Fin 4)) 2 = 1 by decide, show (Equiv.swap 0 3 * Equiv.swap 1 2 : Equiv.Perm (Fin 4)) 3 = 0 by decide] at n3
  simp only [Equiv.Perm.coe_one, id] at n0
  have c0 := four_scalar hu hA (hq 0) (hq 1) (hq 2) (hq 3) (hr 0) (hr 1) (hr 2) (hr 3) n0
  have c1 := four_vector hu hA (hr 1) (hq 1) (hq 2) (hq 3) (hq 0) (hr 0) (hr 3) (hr 2) (by rw [mul_comm (r.coords.data 1).val]; linarith)
  have c2 := four_vector hu hA (hr 2) (hq 2) (hq 3) (hq 1) (hq 0) (hr 0) (hr 1) (hr 3) (by rw [mul_comm (r.coords.data 2).val]; linarith)
  have c3 := four_vector hu hA (hr 3) (hq 3) (hq 1) (hq 2) (hq 0) (hr 0) (hr 2) (hr 1) (by rw [mul_comm (r.coords.data 3).val]; linarith)
  rw [← e0] at c0
  rw [← e1] at c1
  rw [← e2] at c2
  rw [← e3] at c3
  refine ⟨fun i => ?_, ?_⟩
  · fin_cases i
    exacts [c0.1, c1.1, c2.1, c3.1]
  have hu0 := φ.u_nonneg
  have hp := hA.pos
  rw [quaternion_norm_eq]
  have hs : Real.sqrt ((4 : ℕ) : ℝ) = 2 := by
    rw [show ((4 : ℕ) : ℝ) = 2 ^ 2 by norm_num, Real.sqrt_sq (by norm_num)]
  refine (vecNorm_le (e := 17 * φ.u * A) (by positivity) fun i => ?_).trans (le_of_eq (by rw [hs]; ring))
  fin_cases i
  · refine (le_of_eq ?_).trans c0.2
    congr 1
    simp; ring
  · refine (le_of_eq ?_).trans c1.2
    congr 1
    simp; ring
  · refine (le_of_eq ?_).trans c2.2
    congr 1
    simp; ring
  · refine (le_of_eq ?_).trans c3.2
    congr 1
    simp; ring

/-! ### many products -/

theorem Spec.QuatProduct.exact_times (l r : QuatProduct φ) : (QuatProduct.times l r).exact = l.exact * r.exact := by
  simp [QuatProduct.exact, QuatProduct.factors]

theorem Spec.QuatProduct.exact_factor (q : Quat (Ieee φ)) : (QuatProduct.factor q).exact = ieeeQuat q := by
  simp [QuatProduct.exact, QuatProduct.factors]

theorem Spec.QuatProduct.length_pos (t : QuatProduct φ) : 1 ≤ t.factors.length := by
  induction t with
  | factor q => simp [QuatProduct.factors]
  | times l r ihl ihr => simp only [QuatProduct.factors, List.length_append]; omega

theorem Spec.QuatProduct.InRange.norm {lo hi : ℝ} {t : QuatProduct φ} (h : t.InRange lo hi) : lo ≤ ‖t.exact‖ ∧ ‖t.exact‖ ≤ hi := by
  cases t with
  | factor q => rw [QuatProduct.exact_factor]; exact h
  | times l r => exact h.2.2

theorem quat_products_near (hu : φ.u ≤ 1 / 1000000) {lo hi : ℝ} (hlo : 0 < lo) (hfits : ∀ a, lo ≤ a → a ≤ 2 * hi → Fits φ a) (t : QuatProduct φ)
    (hr : t.InRange lo hi) (hf : ∀ q ∈ t.factors, ∀ i, (q.coords.data i).Finite) (hk : t.factors.length * (34 * φ.u) ≤ 1 / 2) :
    QuatClose t.computed t.exact (((1 + 34 * φ.u) ^ (t.factors.length - 1) - 1) * ‖t.exact‖) := by
  have hx : 0 ≤ 34 * φ.u := by have := φ.u_nonneg; positivity
  induction t with
  | factor q =>
    rw [QuatProduct.exact_factor]
    exact ⟨hf q (by simp [QuatProduct.factors]), by simp [QuatProduct.factors, QuatProduct.computed]⟩
  | times l r ihl ihr =>
    obtain ⟨hrl, hrr, h1, h2⟩ := hr
    have el : (QuatProduct.times l r).factors = l.factors ++ r.factors := rfl
    rw [el, List.length_append] at hk
    have hl0 := l.length_pos
    have hr0 := r.length_pos
    rw [el] at hf
    obtain ⟨fl, nl⟩ := ihl hrl (fun p hp => hf p (List.mem_append_left _ hp)) (le_trans (by gcongr; omega) hk)
    obtain ⟨fr, nr⟩ := ihr hrr (fun p hp => hf p (List.mem_append_right _ hp)) (le_trans (by gcongr; omega) hk)
    rw [QuatProduct.exact_times] at h1 h2 ⊢
    rw [el, List.length_append]
    change QuatClose (l.computed * r.computed) _ _
    have ePow : (1 + 34 * φ.u) ^ (l.factors.length + r.factors.length - 1) =
        (1 + 34 * φ.u) ^ (l.factors.length - 1) * (1 + 34 * φ.u) ^ (r.factors.length - 1) * (1 + 34 * φ.u) := by
      rw [← pow_add, ← pow_succ]; congr 1; omega
    have g1 := (growth_le hx hk (m := l.factors.length - 1) (by omega)).1
    have g2 := (growth_le hx hk (m := r.factors.length - 1) (by omega)).1
    have g3 := (growth_le hx hk (m := (l.factors.length - 1) + (r.factors.length - 1)) (by omega)).2
    rw [pow_add] at g3
    rw [ePow]
    set x := 34 * φ.u with hxe
    set G := (1 + x) ^ (l.factors.length - 1)
    set H := (1 + x) ^ (r.factors.length - 1)
    set A := l.exact
    set B := r.exact
    set A' := ieeeQuat l.computed with hA'
    set B' := ieeeQuat r.computed with hB'
    have pA := hlo.trans_le hrl.norm.1
    have pB := hlo.trans_le hrr.norm.1
    have n1 : ‖A'‖ ≤ G * ‖A‖ := by
      have := norm_add_le (A' - A) A
      rw [sub_add_cancel] at this; linarith
    have n2 : ‖B'‖ ≤ H * ‖B‖ := by
      have := norm_add_le (B' - B) B
      rw [sub_add_cancel] at this; linarith
    rw [norm_mul] at h1 h2 ⊢
    have hP : 0 < ‖A‖ * ‖B‖ := mul_pos pA pB
    have hGH : 1 ≤ G * H := one_le_mul_of_one_le_of_one_le g1 g2
    have k1 : Fits φ (G * H * (‖A‖ * ‖B‖)) := by
      refine hfits _ (h1.trans (le_mul_of_one_le_left hP.le hGH)) ?_
      calc G * H * (‖A‖ * ‖B‖) ≤ 2 * (‖A‖ * ‖B‖) := mul_le_mul_of_nonneg_right g3 hP.le
        _ ≤ 2 * hi := by linarith
    obtain ⟨k2, k3⟩ := quat_product_near hu k1 fl fr (by
      calc ‖A'‖ * ‖B'‖ ≤ (G * ‖A‖) * (H * ‖B‖) := mul_le_mul n1 n2 (norm_nonneg _) (by positivity)
        _ = _ := by ring)
    refine ⟨k2, ?_⟩
    have e : ieeeQuat (l.computed * r.computed) - A * B = (ieeeQuat (l.computed * r.computed) - A' * B') + ((A' - A) * B' + A * (B' - B)) := by
      rw [sub_mul, mul_sub]; abel
    rw [e]
    refine (norm_add_le _ _).trans ?_
    have k4 := norm_add_le ((A' - A) * B') (A * (B' - B))
    have k5 := (norm_mul (A' - A) B').le.trans (mul_le_mul nl n2 (norm_nonneg _) (mul_nonneg (by linarith) pA.le))
    have k6 := (norm_mul A (B' - B)).le.trans (mul_le_mul le_rfl nr (norm_nonneg _) pA.le)
    rw [← hxe, ← hA', ← hB'] at k3
    calc _ ≤ x * (G * H * (‖A‖ * ‖B‖)) + ((G - 1) * ‖A‖ * (H * ‖B‖) + ‖A‖ * ((H - 1) * ‖B‖)) := by linarith
      _ = _ := by ring

theorem quat_products_bound (hu : φ.u ≤ 1 / 1000000) {lo hi : ℝ} (hlo : 0 < lo) (hfits : ∀ a, lo ≤ a → a ≤ 2 * hi → Fits φ a) (t : QuatProduct φ)
    (hr : t.InRange lo hi) (hf : ∀ q ∈ t.factors, ∀ i, (q.coords.data i).Finite) (hk : 68 * t.factors.length * φ.u ≤ 1) :
    QuatClose t.computed t.exact (68 * t.factors.length * φ.u * ‖t.exact‖) := by
  have hk' : t.factors.length * (34 * φ.u) ≤ 1 / 2 := by linarith
  have hx : 0 ≤ 34 * φ.u := by have := φ.u_nonneg; positivity
  obtain ⟨h1, h2⟩ := quat_products_near hu hlo hfits t hr hf hk'
  refine ⟨h1, h2.trans (mul_le_mul_of_nonneg_right ?_ (norm_nonneg _))⟩
  have := growth hx hk'
  have h3 : (1 + 34 * φ.u) ^ (t.factors.length - 1) ≤ (1 + 34 * φ.u) ^ t.factors.length := pow_le_pow_right₀ (by linarith) (Nat.sub_le _ _)
  linarith

/-! ### the property -/

/-- **C111.**  `f64`: a product of `k` quaternions, bracketed in any way, with finite components and with norms of the products between `2 ^ -1000` and
`2 ^ 999`, has finite components and differs from the exact product by at most `68 k` roundings of the norm of the exact product. -/
theorem C111_product64 (t : QuatProduct f64) (hr : t.InRange (2 ^ (-1000 : ℤ)) (2 ^ (999 : ℤ))) (hf : ∀ q ∈ t.factors, ∀ i, (q.coords.data i).Finite)
    (hk : t.factors.length ≤ 100000000000000) : QuatClose t.computed t.exact (68 * t.factors.length * 2 ^ (-53 : ℤ) * ‖t.exact‖) := by
  refine quat_products_bound roundoff64 (by positivity) room64 t hr hf ?_
  have h : (t.factors.length : ℝ) ≤ 100000000000000 := by exact_mod_cast hk
  have h2 : (2 : ℝ) ^ (-53 : ℤ) ≤ 12 / 100000000000000000 := by norm_num
  change 68 * (t.factors.length : ℝ) * 2 ^ (-53 : ℤ) ≤ 1
  have h3 := mul_le_mul h h2 (by positivity) (by norm_num)
  norm_num at h3 ⊢
  linarith

/-- **C111.**  `f32`: the same for norms between `2 ^ -126` and `2 ^ 125`. -/
theorem C111_product32 (t : QuatProduct f32) (hr : t.InRange (2 ^ (-126 : ℤ)) (2 ^ (125 : ℤ))) (hf : ∀ q ∈ t.factors, ∀ i, (q.coords.data i).Finite)
    (hk : t.factors.length ≤ 200000) : QuatClose t.computed t.exact (68 * t.factors.length * 2 ^ (-24 : ℤ) * ‖t.exact‖) := by
  refine quat_products_bound roundoff32 (by positivity) room32 t hr hf ?_
  have h : (t.factors.length : ℝ) ≤ 200000 := by exact_mod_cast hk
  have h2 : (2 : ℝ) ^ (-24 : ℤ) ≤ 6 / 100000000 := by norm_num
  change 68 * (t.factors.length : ℝ) * 2 ^ (-24 : ℤ) ≤ 1
  have h3 := mul_le_mul h h2 (by positivity) (by norm_num)
  norm_num at h3 ⊢
  linarith

/-- **C111.**  Two ways of bracketing the same factors agree. -/
theorem C111_brackets64 (t s : QuatProduct f64) (ht : t.InRange (2 ^ (-1000 : ℤ)) (2 ^ (999 : ℤ))) (hs : s.InRange (2 ^ (-1000 : ℤ)) (2 ^ (999 : ℤ)))
    (hf : ∀ q ∈ t.factors, ∀ i, (q.coords.data i).Finite) (hk : t.factors.length ≤ 100000000000000) (h : s.factors = t.factors) :
    ‖ieeeQuat s.computed - ieeeQuat t.computed‖ ≤ 136 * t.factors.length * 2 ^ (-53 : ℤ) * ‖t.exact‖ := by
  have h1 := (C111_product64 t ht hf hk).2
  have h2 := (C111_product64 s hs (by rw [h]; exact hf) (by rw [h]; exact hk)).2
  rw [show s.exact = t.exact by rw [QuatProduct.exact, h, QuatProduct.exact], h] at h2
  have h3 := norm_sub_le (ieeeQuat s.computed - t.exact) (ieeeQuat t.computed - t.exact)
  rw [sub_sub_sub_cancel_right] at h3
  linarith

/-- **C111.**  The square of a quaternion. -/
theorem C111_squared64 {q : Quat (Ieee f64)} (hq : ∀ i, (q.coords.data i).Finite) (h1 : (2 : ℝ) ^ (-500 : ℤ) ≤ ‖ieeeQuat q‖) (h2 : ‖ieeeQuat q‖ ≤ 2 ^ (499 : ℤ)) :
    QuatClose q.squared (ieeeQuat q ^ 2) (34 * 2 ^ (-53 : ℤ) * ‖ieeeQuat q‖ ^ 2) := by
  have hp : (0 : ℝ) < 2 ^ (-500 : ℤ) := by positivity
  have := quat_product_near roundoff64 (A := ‖ieeeQuat q‖ ^ 2) (room64 _ ?_ ?_) hq hq (by rw [sq])
  · rw [sq (ieeeQuat q)]; exact this
  · calc (2 : ℝ) ^ (-1000 : ℤ) = 2 ^ (-500 : ℤ) * 2 ^ (-500 : ℤ) := by rw [← zpow_add₀ two_ne_zero]; norm_num
      _ ≤ ‖ieeeQuat q‖ ^ 2 := by rw [sq]; exact mul_le_mul h1 h1 hp.le (norm_nonneg _)
  · calc ‖ieeeQuat q‖ ^ 2 ≤ 2 ^ (499 : ℤ) * 2 ^ (499 : ℤ) := by rw [sq]; exact mul_le_mul h2 h2 (norm_nonneg _) (by positivity)
      _ = 2 ^ (998 : ℤ) := by rw [← zpow_add₀ two_ne_zero]; norm_num
      _ ≤ 1 * 2 ^ (999 : ℤ) := by rw [one_mul]; exact zpow_le_zpow_right₀ one_le_two (by norm_num)
      _ ≤ 2 * 2 ^ (999 : ℤ) := mul_le_mul_of_nonneg_right one_le_two (by positivity)

theorem negated_finite {x : Ieee φ} (h : x.Finite) : (-x).Finite := by
  obtain ⟨s, m, hm, rfl⟩ := h
  exact finite_fin _ _ _

/-- **C111.**  Conjugation and negation are exact, in every format. -/
theorem C111_conjugate {q : Quat (Ieee φ)} (hq : ∀ i, (q.coords.data i).Finite) :
    QuatClose q.conjugate (star (ieeeQuat q)) 0 ∧ QuatClose (-q) (-ieeeQuat q) 0 := by
  have e1 : ieeeQuat q.conjugate = star (ieeeQuat q) := by
    ext
    · rw [Quaternion.re_star]; rfl
    · exact Ieee.val_neg _
    · exact Ieee.val_neg _
    · exact Ieee.val_neg _
  have e2 : ieeeQuat (-q) = -ieeeQuat q := by
    ext
    · exact Ieee.val_neg _
    · exact Ieee.val_neg _
    · exact Ieee.val_neg _
    · exact Ieee.val_neg _
  refine ⟨⟨fun i => ?_, by rw [e1]; simp⟩, fun i => ?_, by rw [e2]; simp⟩
  · fin_cases i
    exacts [hq 0, negated_finite (hq 1), negated_finite (hq 2), negated_finite (hq 3)]
  · fin_cases i
    exacts [negated_finite (hq 0), negated_finite (hq 1), negated_finite (hq 2), negated_finite (hq 3)]

/-- **C111.**  The dot product of quaternions is near the dot product of the exact ones. -/
theorem C111_dot64 {q r : Quat (Ieee f64)} (hq : ∀ i, (q.coords.data i).Finite) (hr : ∀ i, (r.coords.data i).Finite)
    (h1 : (2 : ℝ) ^ (-1000 : ℤ) ≤ ‖ieeeQuat q‖ * ‖ieeeQuat r‖) (h2 : ‖ieeeQuat q‖ * ‖ieeeQuat r‖ ≤ 2 ^ (1000 : ℤ)) :
    NearTo (q.dot r) (ieeeQuat q * star (ieeeQuat r)).re (20 * 2 ^ (-53 : ℤ) * (‖ieeeQuat q‖ * ‖ieeeQuat r‖)) := by
  have h := C108_dot64 (n := 4) (by norm_num) (v := q.coords) (w := r.coords) ⟨hq, (ieeeQuat_norm q).ge⟩ ⟨hr, (ieeeQuat_norm r).ge⟩ h1 h2
  have e : (ieeeQuat q * star (ieeeQuat r)).re = values q.coords ⬝ᵥ values r.coords := by
    simp [dotProduct, Fin.sum_univ_four, values]
  rw [e]
  exact near_weaken h (by norm_num)

/-- **C111.**  The distance of two quaternions has a small relative error, also when they nearly cancel. -/
theorem C111_distance64 [Lib f64] {q r : Quat (Ieee f64)} (hq : ∀ i, (q.coords.data i).Finite) (hr : ∀ i, (r.coords.data i).Finite)
    (h1 : (2 : ℝ) ^ (-498 : ℤ) ≤ ‖ieeeQuat q - ieeeQuat r‖) (h2 : ‖ieeeQuat q - ieeeQuat r‖ ≤ 2 ^ (509 : ℤ)) :
    NearTo (q.metricDistance r) ‖ieeeQuat q - ieeeQuat r‖ (10 * 2 ^ (-53 : ℤ) * ‖ieeeQuat q - ieeeQuat r‖) := by
  have e : ‖ieeeQuat q - ieeeQuat r‖ = vecNorm (values q.coords - values r.coords) := by
    rw [quaternion_norm_eq]
    congr 1
    ext i; fin_cases i <;> rfl
  rw [e] at h1 h2 ⊢
  exact near_weaken (C108_distance64 (n := 4) (by norm_num) hq hr h1 h2).1 (by norm_num)

/-! ### the hypotheses can be met -/

/-- `1 + i + j + k`, of norm two -/
noncomputable def allOneQuat : Quat (Ieee f64) := Quat.new 1 1 1 1

theorem allOneQuat_finite (i) : (allOneQuat.coords.data i).Finite := by fin_cases i <;> exact finite_one

theorem allOneQuat_exact : (ieeeQuat allOneQuat).re = 1 ∧ (ieeeQuat allOneQuat).imI = 1 ∧ (ieeeQuat allOneQuat).imJ = 1 ∧
    (ieeeQuat allOneQuat).imK = 1 := ⟨rfl, rfl, rfl, rfl⟩

theorem allOneQuat_norm : ‖ieeeQuat allOneQuat‖ = 2 := by
  rw [quaternion_norm_eq, vecNorm, Fin.sum_univ_four]
  change Real.sqrt ((1 : ℝ) ^ 2 + 1 ^ 2 + 1 ^ 2 + 1 ^ 2) = 2
  rw [show (1 : ℝ) ^ 2 + 1 ^ 2 + 1 ^ 2 + 1 ^ 2 = 2 ^ 2 by norm_num, Real.sqrt_sq (by norm_num)]

theorem small_range {x : ℝ} (h1 : 1 ≤ x) (h2 : x ≤ 8) : (2 : ℝ) ^ (-1000 : ℤ) ≤ x ∧ x ≤ 2 ^ (999 : ℤ) := by
  refine ⟨(zpow_le_one_of_nonpos₀ one_le_two (by norm_num)).trans h1, h2.trans ?_⟩
  calc (8 : ℝ) = 2 ^ (3 : ℤ) := by norm_num
    _ ≤ _ := zpow_le_zpow_right₀ one_le_two (by norm_num)

/-- the cube of `1 + i + j + k`, bracketed in both ways -/
noncomputable def cubeLeft : QuatProduct f64 := .times (.times (.factor allOneQuat) (.factor allOneQuat)) (.factor allOneQuat)
noncomputable def cubeRight : QuatProduct f64 := .times (.factor allOneQuat) (.times (.factor allOneQuat) (.factor allOneQuat))

theorem cube_ranges : cubeLeft.InRange (2 ^ (-1000 : ℤ)) (2 ^ (999 : ℤ)) ∧ cubeRight.InRange (2 ^ (-1000 : ℤ)) (2 ^ (999 : ℤ)) := by
  simp only [cubeLeft, cubeRight, QuatProduct.InRange, QuatProduct.exact_times, QuatProduct.exact_factor, norm_mul, allOneQuat_norm]
  have a := small_range (x := 2) (by norm_num) (by norm_num)
  have b := small_range (x := 2 * 2) (by norm_num) (by norm_num)
  have c := small_range (x := 2 * 2 * 2) (by norm_num) (by norm_num)
  have d := small_range (x := 2 * (2 * 2)) (by norm_num) (by norm_num)
  exact ⟨⟨⟨a, a, b⟩, a, c⟩, a, ⟨a, a, b⟩, d⟩

theorem cube_factors : ∀ q ∈ cubeLeft.factors, ∀ i, (q.coords.data i).Finite := by
  intro q hq
  simp [cubeLeft, QuatProduct.factors] at hq
  subst hq
  exact allOneQuat_finite

/-- the exact cube is `-8` -/
theorem cube_exact : cubeLeft.exact = ((-8 : ℝ) : ℍ[ℝ]) := by
  rw [cubeLeft, QuatProduct.exact_times, QuatProduct.exact_times, QuatProduct.exact_factor]
  obtain ⟨a, b, c, d⟩ := allOneQuat_exact
  ext <;> simp only [Quaternion.re_mul, Quaternion.imI_mul, Quaternion.imJ_mul, Quaternion.imK_mul, a, b, c, d, Quaternion.re_coe,
    Quaternion.imI_coe, Quaternion.imJ_coe, Quaternion.imK_coe] <;> norm_num

example : ‖ieeeQuat cubeLeft.computed - ((-8 : ℝ) : ℍ[ℝ])‖ ≤ 68 * (3 : ℕ) * 2 ^ (-53 : ℤ) * 8 := by
  have h := (C111_product64 cubeLeft cube_ranges.1 cube_factors (by simp [cubeLeft, QuatProduct.factors])).2
  rw [cube_exact] at h
  have e : ‖((-8 : ℝ) : ℍ[ℝ])‖ = 8 := by rw [Quaternion.norm_coe]; norm_num
  rw [e] at h
  exact h

example : ‖ieeeQuat cubeRight.computed - ieeeQuat cubeLeft.computed‖ ≤ 136 * (3 : ℕ) * 2 ^ (-53 : ℤ) * ‖cubeLeft.exact‖ :=
  C111_brackets64 cubeLeft cubeRight cube_ranges.1 cube_ranges.2 cube_factors (by simp [cubeLeft, QuatProduct.factors]) rfl

/-- the square is near `-2 + 2 i + 2 j + 2 k` -/
example : QuatClose allOneQuat.squared (ieeeQuat allOneQuat ^ 2) (34 * 2 ^ (-53 : ℤ) * 2 ^ 2) ∧ (ieeeQuat allOneQuat ^ 2).re = -2 ∧
    (ieeeQuat allOneQuat ^ 2).imI = 2 := by
  have h := C111_squared64 allOneQuat_finite (by rw [allOneQuat_norm]; exact (zpow_le_one_of_nonpos₀ one_le_two (by norm_num)).trans one_le_two)
    (by rw [allOneQuat_norm]; exact two_le_zpow (by norm_num))
  obtain ⟨a, b, c, d⟩ := allOneQuat_exact
  rw [allOneQuat_norm] at h
  refine ⟨h, ?_, ?_⟩ <;> rw [sq]
  · rw [Quaternion.re_mul, a, b, c, d]; norm_num
  · rw [Quaternion.imI_mul, a, b, c, d]; norm_num

example : NearTo (allOneQuat.dot allOneQuat) (ieeeQuat allOneQuat * star (ieeeQuat allOneQuat)).re (20 * 2 ^ (-53 : ℤ) * (2 * 2)) := by
  have a := small_range (x := 2 * 2) (by norm_num) (by norm_num)
  have h := C111_dot64 allOneQuat_finite allOneQuat_finite (by rw [allOneQuat_norm]; exact a.1)
    (by rw [allOneQuat_norm]; exact a.2.trans (zpow_le_zpow_right₀ one_le_two (by norm_num)))
  rwa [allOneQuat_norm] at h

end Cgl
