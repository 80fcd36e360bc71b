import Verif.Props.C86_Histories
import Verif.Lemmas.Relative64
import Mathlib.Analysis.Normed.Affine.Isometry
import Mathlib.Analysis.InnerProductSpace.Adjoint

/-! # C89 - histories of isometries in `f64`

A motion is built from given translations, rotations and isometries, mixed as the operators of the library allow, by
multiplying and inverting, in any number, order and bracketing, in IEEE `f64` arithmetic with its overflow, underflow,
infinities and NaN.  It is compared with the same expression in the group of rigid motions of Euclidean space (Mathlib's
affine isometries, where nothing is rounded), and so is its effect on points and vectors. -/

namespace Cgl
open Ieee FloatFns Mat Spec
open Finset (sum_nonneg sum_le_sum)

variable {ι : Type*} {n : ℕ}

namespace Spec

/-- an expression in given motions -/
inductive Combination (ι : Type*) where
  | given (i : ι)
  | times (l r : Combination ι)
  | inverse (e : Combination ι)

namespace Combination

/-- the given motions that occur, with repetitions -/
def factors : Combination ι → List ι
  | given i => [i]
  | times l r => l.factors ++ r.factors
  | inverse e => e.factors

/-- the value of the expression, for a product and an inverse -/
def eval {X : Type*} (mul : X → X → X) (inv : X → X) (x : ι → X) : Combination ι → X
  | given i => x i
  | times l r => mul (l.eval mul inv x) (r.eval mul inv x)
  | inverse e => inv (e.eval mul inv x)

/-- the sum of the reaches of the given motions -/
def reach (D : ι → ℝ) (e : Combination ι) : ℝ := (e.factors.map D).sum

/-- the number of errors that enter the rotation: one for each factor and each product -/
def turns : Combination ι → ℕ
  | given _ => 1
  | times l r => l.turns + r.turns + 1
  | inverse e => e.turns

/-- the number of errors that enter the translation: a product turns the translation of its right factor with the
rotation of the left one, an inverse turns its translation with its own rotation -/
def moves : Combination ι → ℕ
  | given _ => 1
  | times l r => max l.moves (l.turns + r.moves) + 1
  | inverse e => e.turns + e.moves + 1

/-- the number of inversions -/
def inversions : Combination ι → ℕ
  | given _ => 0
  | times l r => l.inversions + r.inversions
  | inverse e => e.inversions + 1

end Combination

/-- the point of Euclidean space with the coordinates of `v` -/
noncomputable def place (v : Vec (Ieee f64) n) : EuclideanSpace ℝ (Fin n) := WithLp.toLp 2 fun i => (v.data i).val

/-- the linear map of the matrix with the entries of `A` -/
noncomputable def turn (A : Mat (Ieee f64) n n) : EuclideanSpace ℝ (Fin n) →L[ℝ] EuclideanSpace ℝ (Fin n) :=
  Spec.linear (Spec.realMat A)

/-- every coordinate is a finite number -/
def VecFinite (v : Vec (Ieee f64) n) : Prop := ∀ i, (v.data i).Finite
/-- every entry is a finite number -/
def MatFinite (A : Mat (Ieee f64) n n) : Prop := ∀ c r, (A.data c r).Finite

/-- a value of one of the three rigid types that can be multiplied with each other -/
inductive Rigid (n : ℕ)
  | tra (t : Translation (Ieee f64) n)
  | rot (t : Rotation (Ieee f64) n)
  | iso (t : Isometry (Ieee f64) n)

namespace Rigid

/-- the product, with the operator the crate defines for the two types -/
noncomputable def times : Rigid n → Rigid n → Rigid n
  | .tra t, .tra u => .tra (t * u)
  | .tra t, .rot u => .iso (t * u)
  | .tra t, .iso u => .iso (t * u)
  | .rot t, .tra u => .iso (t * u)
  | .rot t, .rot u => .rot (t * u)
  | .rot t, .iso u => .iso (t * u)
  | .iso t, .tra u => .iso (t * u)
  | .iso t, .rot u => .iso (t * u)
  | .iso t, .iso u => .iso (t * u)

/-- `inverse` -/
noncomputable def inverse : Rigid n → Rigid n
  | .tra t => .tra t.inverse
  | .rot t => .rot t.inverse
  | .iso t => .iso t.inverse

/-- `apply_point` -/
noncomputable def applyPoint : Rigid n → Pt (Ieee f64) n → Pt (Ieee f64) n
  | .tra t => t.applyPoint
  | .rot t => t.applyPoint
  | .iso t => t.applyPoint

/-- `inverse_apply_point` -/
noncomputable def inverseApplyPoint : Rigid n → Pt (Ieee f64) n → Pt (Ieee f64) n
  | .tra t => t.inverseApplyPoint
  | .rot t => t.inverseApplyPoint
  | .iso t => t.inverseApplyPoint

/-- `apply_vector` -/
noncomputable def applyVector : Rigid n → Vec (Ieee f64) n → Vec (Ieee f64) n
  | .tra t => t.applyVector
  | .rot t => t.applyVector
  | .iso t => t.applyVector

/-- the rotation matrix; a translation does not turn -/
noncomputable def matrix : Rigid n → Mat (Ieee f64) n n
  | .tra _ => Mat.identity
  | .rot t => t.matrix
  | .iso t => t.rotation.matrix

/-- the displacement of the origin; a rotation does not move it -/
noncomputable def vector : Rigid n → Vec (Ieee f64) n
  | .tra t => t.vector
  | .rot _ => 0
  | .iso t => t.translation.vector

end Rigid

/-- `T` consists of finite numbers, turns vectors as `g` does up to `δ` times their length, and moves the origin to where
`g` moves it up to `η` -/
structure Follows (δ η : ℝ) (T : Rigid n) (g : EuclideanSpace ℝ (Fin n) ≃ᵃⁱ[ℝ] EuclideanSpace ℝ (Fin n)) : Prop where
  finite_matrix : MatFinite T.matrix
  finite_vector : VecFinite T.vector
  rotation : ∀ v, ‖turn T.matrix v - g.linearIsometryEquiv v‖ ≤ δ * ‖v‖
  translation : ‖place T.vector - g 0‖ ≤ η

end Spec

/-! ### coordinates -/

theorem place_apply (v : Vec (Ieee f64) n) (i : Fin n) : place v i = (v.data i).val := rfl

theorem turn_place (A : Mat (Ieee f64) n n) (v : Vec (Ieee f64) n) (r : Fin n) :
    turn A (place v) r = ∑ i, (A.data i r).val * (v.data i).val := by
  have := linear_apply (Spec.realMat A) ⟨fun i => (v.data i).val⟩
  have h := congrFun (congrArg WithLp.ofLp this) r
  refine h.trans ?_
  simp [Mat.mulVec_data, Spec.realMat]

theorem entry_le_turn (A : Mat (Ieee f64) n n) (c r : Fin n) : |(A.data c r).val| ≤ ‖turn A‖ := by
  refine le_trans ?_ (column_le (Spec.realMat A) c)
  rw [← Real.sqrt_sq_eq_abs]
  refine Real.sqrt_le_sqrt ?_
  have := Finset.single_le_sum (f := fun r => (Spec.realMat A).data c r ^ 2) (fun _ _ => sq_nonneg _) (Finset.mem_univ r)
  simpa [Spec.realMat] using this

theorem row_le_turn (A : Mat (Ieee f64) n n) (r : Fin n) : Real.sqrt (∑ c, |(A.data c r).val| ^ 2) ≤ ‖turn A‖ := by
  refine le_trans (le_of_eq ?_) (row_le (Spec.realMat A) r)
  simp [Spec.realMat]

theorem coord_le (x : EuclideanSpace ℝ (Fin n)) (i : Fin n) : |x i| ≤ ‖x‖ := by
  have := PiLp.norm_apply_le x i
  rwa [Real.norm_eq_abs] at this

theorem norm_le_of_coord {x : EuclideanSpace ℝ (Fin n)} {e : ℝ} (he : 0 ≤ e) (h : ∀ i, |x i| ≤ e) : ‖x‖ ≤ n * e := by
  rcases Nat.eq_zero_or_pos n with rfl | hn
  · rw [Subsingleton.elim x 0, norm_zero]; simp
  rw [EuclideanSpace.norm_eq]
  refine Real.sqrt_le_iff.mpr ⟨by positivity, ?_⟩
  calc ∑ i, ‖x i‖ ^ 2 ≤ ∑ _i : Fin n, e ^ 2 := sum_le_sum fun i _ => by
        rw [Real.norm_eq_abs]; exact pow_le_pow_left₀ (abs_nonneg _) (h i) 2
    _ = n * e ^ 2 := by simp
    _ ≤ (n * e) ^ 2 := by
        have : (1 : ℝ) ≤ n := by exact_mod_cast hn
        rw [mul_pow]
        nlinarith [sq_nonneg e, mul_nonneg (sub_nonneg.mpr this) (sq_nonneg e)]

theorem norm_le_of_coord_le {x y : EuclideanSpace ℝ (Fin n)} {k : ℝ} (hk : 0 ≤ k) (h : ∀ i, |x i| ≤ k * |y i|) :
    ‖x‖ ≤ k * ‖y‖ := by
  rw [EuclideanSpace.norm_eq, EuclideanSpace.norm_eq]
  refine Real.sqrt_le_iff.mpr ⟨by positivity, ?_⟩
  rw [mul_pow, Real.sq_sqrt (sum_nonneg fun _ _ => sq_nonneg _), Finset.mul_sum]
  refine sum_le_sum fun i _ => ?_
  rw [Real.norm_eq_abs, Real.norm_eq_abs, ← mul_pow]
  exact pow_le_pow_left₀ (abs_nonneg _) (h i) 2

/-! ### finite results -/

theorem Bd.loop {k : ℤ} (f : Fin n → Ieee f64) (h : ∀ i, Bd k (f i)) (h1 : -1075 ≤ k) (h2 : k + n ≤ 1022) :
    Bd (k + n) (forRange n 0 fun i acc => acc + f i) := by
  induction n with
  | zero => simpa [forRange] using (Bd.zero : Bd k 0)
  | succ m ih =>
    have hm : k + m ≤ 1022 := by push_cast at h2; omega
    have := (ih (fun i => f i.castSucc) (fun i => h _) hm).add ((h (Fin.last m)).mono (k := k + m) (by omega))
      (by omega) (by push_cast at h2; omega)
    rw [forRange, Fin.foldl_succ_last]
    push_cast
    rw [← add_assoc]
    exact this

theorem finite_neg' {x : Ieee f64} (h : x.Finite) : (-x).Finite := by
  obtain ⟨s, m, hm, rfl⟩ := h
  exact finite_fin _ _ _

theorem mulVec_finite {A : Mat (Ieee f64) n n} {v : Vec (Ieee f64) n} (hA : MatFinite A) (hv : VecFinite v) (hn : n ≤ 3)
    (a : ‖turn A‖ ≤ 2) (b : ‖place v‖ ≤ 2 ^ (600 : ℤ)) : VecFinite (A * v) := fun r => by
  rw [mulVec_entry]
  refine (Bd.loop (k := 601) (fun i => A.data i r * v.data i) (fun i => ?_) (by norm_num) (by omega)).1
  have h1 : Bd 1 (A.data i r) := ⟨hA i r, by rw [zpow_one]; exact (entry_le_turn A i r).trans a⟩
  have h2 : Bd 600 (v.data i) := ⟨hv i, (coord_le (place v) i).trans b⟩
  exact h1.mul h2

theorem mul_finite {A B : Mat (Ieee f64) n n} (hA : MatFinite A) (hB : MatFinite B) (hn : n ≤ 3)
    (a : ‖turn A‖ ≤ 2) (b : ‖turn B‖ ≤ 2) : MatFinite (A * B) := fun c r => by
  rw [mul_entry]
  refine (Bd.loop (k := 2) (fun i => A.data i r * B.data c i) (fun i => ?_) (by norm_num) (by omega)).1
  have h1 : Bd 1 (A.data i r) := ⟨hA i r, by rw [zpow_one]; exact (entry_le_turn A i r).trans a⟩
  have h2 : Bd 1 (B.data c i) := ⟨hB c i, by rw [zpow_one]; exact (entry_le_turn B c i).trans b⟩
  exact h1.mul h2

theorem add_finite {v w : Vec (Ieee f64) n} (hv : VecFinite v) (hw : VecFinite w)
    (a : ‖place v‖ ≤ 2 ^ (600 : ℤ)) (b : ‖place w‖ ≤ 2 ^ (600 : ℤ)) : VecFinite (v + w) := fun i => by
  rw [Vec.add_data]
  have h1 : Bd 600 (v.data i) := ⟨hv i, (coord_le (place v) i).trans a⟩
  have h2 : Bd 600 (w.data i) := ⟨hw i, (coord_le (place w) i).trans b⟩
  exact (h1.add h2).1

/-! ### one operation -/

theorem f64_step (hn : n ≤ 3) : Spec.matStep f64.toRounding n ≤ 91 / 10 * 2 ^ (-53 : ℤ) := by
  have hu : f64.toRounding.u = 2 ^ (-53 : ℤ) := rfl
  unfold Spec.matStep
  rw [hu]
  interval_cases n <;> norm_num

theorem f64_small (hn : n ≤ 3) : Spec.matTiny f64.toRounding n ≤ 2 ^ (-1000 : ℤ) := by
  have hu : f64.toRounding.u = 2 ^ (-53 : ℤ) := rfl
  have ht : f64.toRounding.tiny = 2 ^ (-1074 - 1 : ℤ) := rfl
  unfold Spec.matTiny
  rw [hu, ht]
  have h2 : (2 : ℝ) ^ (-1000 : ℤ) = 2 ^ (75 : ℤ) * 2 ^ (-1074 - 1 : ℤ) := by
    rw [← zpow_add₀ two_ne_zero]; norm_num
  rw [h2]
  calc (n : ℝ) * (2 * n * (1 + 2 ^ (-53 : ℤ)) ^ n * 2 ^ (-1074 - 1 : ℤ))
      = n * (2 * n * (1 + 2 ^ (-53 : ℤ)) ^ n) * 2 ^ (-1074 - 1 : ℤ) := by ring
    _ ≤ _ := mul_le_mul_of_nonneg_right (by interval_cases n <;> norm_num) (by positivity)

/-- a matrix times a vector -/
theorem mulVec_step {A : Mat (Ieee f64) n n} {v : Vec (Ieee f64) n} (h : VecFinite (A * v)) (hn : n ≤ 3) :
    ‖place (A * v) - turn A (place v)‖ ≤ 91 / 10 * 2 ^ (-53 : ℤ) * (‖turn A‖ * ‖place v‖) + 2 ^ (-1000 : ℤ) := by
  have hu : 0 ≤ f64.toRounding.u := f64.u_nonneg
  have ht : 0 ≤ f64.toRounding.tiny := f64.tiny_nonneg
  have hp := one_le_pow₀ (n := n) (show 1 ≤ 1 + f64.toRounding.u by linarith)
  set e := ((1 + f64.toRounding.u) ^ n - 1) * (‖turn A‖ * ‖place v‖) + 2 * n * (1 + f64.toRounding.u) ^ n * f64.toRounding.tiny
    with he
  have e0 : 0 ≤ e := add_nonneg (mul_nonneg (by linarith) (by positivity)) (by positivity)
  have := norm_le_of_coord (x := place (A * v) - turn A (place v)) e0 fun r => by
    rw [PiLp.sub_apply, place_apply, turn_place]
    refine (C67_ieee_matrix_vector_error A v r (h r)).trans (add_le_add (mul_le_mul_of_nonneg_left ?_ (by linarith)) le_rfl)
    calc ∑ i, |(A.data i r).val| * |(v.data i).val| ≤
          Real.sqrt (∑ i, |(A.data i r).val| ^ 2) * Real.sqrt (∑ i, |(v.data i).val| ^ 2) := Real.sum_mul_le_sqrt_mul_sqrt _ _ _
      _ ≤ ‖turn A‖ * ‖place v‖ := mul_le_mul (row_le_turn A r) (le_of_eq (by
          rw [EuclideanSpace.norm_eq]; rfl)) (Real.sqrt_nonneg _) (_root_.norm_nonneg _)
  refine this.trans ?_
  have h1 := f64_step hn
  have h2 := f64_small hn
  have h3 : (n : ℝ) * e = Spec.matStep f64.toRounding n * (‖turn A‖ * ‖place v‖) + Spec.matTiny f64.toRounding n := by
    rw [he, Spec.matStep, Spec.matTiny]; ring
  rw [h3]
  exact add_le_add (mul_le_mul_of_nonneg_right h1 (by positivity)) h2

/-- a matrix times a matrix -/
theorem turn_step {A B : Mat (Ieee f64) n n} (h : MatFinite (A * B)) (hn : n ≤ 3) :
    ‖turn (A * B) - turn A * turn B‖ ≤ 91 / 10 * 2 ^ (-53 : ℤ) * (‖turn A‖ * ‖turn B‖) + 2 ^ (-1000 : ℤ) := by
  have er : ∀ A : Mat (Ieee f64) n n, Spec.realMat A = Spec.exactMat (A.map 0 toFl) := fun A => by
    ext c r; simp [Spec.realMat, Spec.exactMat, toFl]
  have eAB : Spec.realMat (A * B) = Spec.exactMat (A.map 0 toFl * B.map 0 toFl) := by
    ext c r
    have := (C67_ieee_matrix A B (0 : Vec (Ieee f64) n)).1 c r (h c r)
    simpa [Spec.realMat, Spec.exactMat, toFl] using this
  have := matrix_step (ρ := f64.toRounding) (A.map 0 toFl) (B.map 0 toFl)
  rw [← er, ← er, ← eAB] at this
  exact this.trans (add_le_add (mul_le_mul_of_nonneg_right (f64_step hn) (by positivity)) (f64_small hn))

/-- a vector plus a vector -/
theorem add_step {v w : Vec (Ieee f64) n} (h : VecFinite (v + w)) :
    ‖place (v + w) - (place v + place w)‖ ≤ 2 ^ (-53 : ℤ) * ‖place v + place w‖ := by
  refine norm_le_of_coord_le (by positivity) fun i => ?_
  have hi := h i
  rw [Vec.add_data] at hi
  rw [PiLp.sub_apply, PiLp.add_apply, place_apply, place_apply, place_apply, Vec.add_data, val_add hi]
  exact fl_sum_err (val_rep _) (val_rep _)

theorem place_neg (v : Vec (Ieee f64) n) : place (-v) = -place v := by
  ext i
  change ((-v).data i).val = -(v.data i).val
  rw [Vec.neg_data, val_neg]

theorem vec_sub (v w : Vec (Ieee f64) n) : v - w = v + -w := by
  ext i : 2
  rw [Vec.sub_data, Vec.add_data, Vec.neg_data]
  rfl

theorem turn_transpose (A : Mat (Ieee f64) n n) : turn A.transpose = ContinuousLinearMap.adjoint (turn A) := by
  rw [turn, turn, Spec.linear, Spec.linear, ← ContinuousLinearMap.star_eq_adjoint, ← map_star]
  congr 1
  ext i j
  simp [Matrix.star_apply, Spec.realMat, Mat.toMatrix]

/-! ### rigid motions -/

section
variable (g h : EuclideanSpace ℝ (Fin n) ≃ᵃⁱ[ℝ] EuclideanSpace ℝ (Fin n))

/-- the rotation of a rigid motion -/
noncomputable def spin : EuclideanSpace ℝ (Fin n) →L[ℝ] EuclideanSpace ℝ (Fin n) :=
  g.linearIsometryEquiv.toContinuousLinearEquiv.toContinuousLinearMap

theorem spin_apply (v : EuclideanSpace ℝ (Fin n)) : spin g v = g.linearIsometryEquiv v := rfl
theorem spin_norm (v : EuclideanSpace ℝ (Fin n)) : ‖spin g v‖ = ‖v‖ := g.linearIsometryEquiv.norm_map v
theorem spin_le : ‖spin g‖ ≤ 1 :=
  ContinuousLinearMap.opNorm_le_bound _ zero_le_one fun v => by rw [spin_norm, one_mul]
theorem motion_apply (v : EuclideanSpace ℝ (Fin n)) : g v = spin g v + g 0 := by
  have := g.map_vadd 0 v
  rwa [vadd_eq_add, vadd_eq_add, add_zero] at this
theorem spin_mul : spin (g * h) = spin g * spin h := by
  ext1 v
  rfl
theorem spin_inv : spin g⁻¹ = ContinuousLinearMap.adjoint (spin g) :=
  (LinearIsometryEquiv.adjoint_eq_symm g.linearIsometryEquiv).symm
theorem mul_origin : (g * h) 0 = spin g (h 0) + g 0 := by
  rw [AffineIsometryEquiv.coe_mul, Function.comp_apply, motion_apply]
theorem inv_origin : g⁻¹ 0 = spin g⁻¹ (-g 0) := by
  have h1 : g⁻¹ (g 0) = 0 := by
    rw [AffineIsometryEquiv.coe_inv]; exact g.symm_apply_apply 0
  rw [motion_apply] at h1
  rw [map_neg]
  exact eq_neg_of_add_eq_zero_right h1
end

/-! ### the induction -/

/-- what is kept: the rotation is accurate to `c - 1`, the translation to `C - 1` times the reach `D` -/
structure Kept (c C D : ℝ) (T : Rigid n) (g : EuclideanSpace ℝ (Fin n) ≃ᵃⁱ[ℝ] EuclideanSpace ℝ (Fin n)) :
    Prop where
  one_le : 1 ≤ c
  fr : MatFinite T.matrix
  ft : VecFinite T.vector
  rot : ‖turn T.matrix - spin g‖ ≤ c - 1
  tr : ‖place T.vector - g 0‖ ≤ (C - 1) * D
  reach : ‖g 0‖ ≤ D
  low : 2 ^ (-900 : ℤ) ≤ D

namespace Kept
variable {c C D : ℝ} {T : Rigid n} {g : EuclideanSpace ℝ (Fin n) ≃ᵃⁱ[ℝ] EuclideanSpace ℝ (Fin n)}

theorem turn_le (k : Kept c C D T g) : ‖turn T.matrix‖ ≤ c := by
  have := norm_le_norm_add_norm_sub' (turn T.matrix) (spin g)
  linarith [k.rot, spin_le g]
theorem place_le (k : Kept c C D T g) : ‖place T.vector‖ ≤ C * D := by
  have := norm_le_norm_add_norm_sub' (place T.vector) (g 0)
  linarith [k.tr, k.reach]
theorem pos (k : Kept c C D T g) : 0 < D := lt_of_lt_of_le (by positivity) k.low
end Kept

/-- turning a vector: `A` near the rotation `S`, `v` near `x` -/
theorem turned {A : Mat (Ieee f64) n n} {v : Vec (Ieee f64) n} {S : EuclideanSpace ℝ (Fin n) →L[ℝ] EuclideanSpace ℝ (Fin n)}
    {x : EuclideanSpace ℝ (Fin n)} {c K X : ℝ} (hn : n ≤ 3) (h : VecFinite (A * v)) (hS : ‖S‖ ≤ 1)
    (hA : ‖turn A - S‖ ≤ c - 1) (hx : ‖x‖ ≤ X) (hv : ‖place v - x‖ ≤ K - X) :
    ‖place (A * v) - S x‖ ≤ (1 + 91 / 10 * 2 ^ (-53 : ℤ)) * (c * K) + 2 ^ (-1000 : ℤ) - X := by
  have h1 := mulVec_step h hn
  have h2 : ‖turn A‖ ≤ c := by
    have := norm_le_norm_add_norm_sub' (turn A) S
    linarith
  have h3 : ‖place v‖ ≤ K := by
    have := norm_le_norm_add_norm_sub' (place v) x
    linarith
  have h4 : 0 ≤ c - 1 := (_root_.norm_nonneg _).trans hA
  have e : place (A * v) - S x = (place (A * v) - turn A (place v)) + ((turn A - S) (place v) + S (place v - x)) := by
    rw [show (turn A - S) (place v) = turn A (place v) - S (place v) from rfl, map_sub]; abel
  have h5 : ‖(turn A - S) (place v)‖ ≤ (c - 1) * K :=
    ((turn A - S).le_opNorm _).trans (mul_le_mul hA h3 (_root_.norm_nonneg _) h4)
  have h6 : ‖S (place v - x)‖ ≤ K - X :=
    ((S.le_opNorm _).trans (mul_le_mul hS hv (_root_.norm_nonneg _) zero_le_one)).trans (le_of_eq (one_mul _))
  have h7 : ‖turn A‖ * ‖place v‖ ≤ c * K := mul_le_mul h2 h3 (_root_.norm_nonneg _) (by linarith)
  have h8 : 91 / 10 * (2 : ℝ) ^ (-53 : ℤ) * (‖turn A‖ * ‖place v‖) ≤ 91 / 10 * 2 ^ (-53 : ℤ) * (c * K) :=
    mul_le_mul_of_nonneg_left h7 (by positivity)
  rw [e]
  refine (norm_add_le _ _).trans ((add_le_add h1 (norm_add_le _ _)).trans ?_)
  generalize (2 : ℝ) ^ (-1000 : ℤ) = τ at *
  linarith

theorem tiny_le {D : ℝ} (h : (2 : ℝ) ^ (-900 : ℤ) ≤ D) : 2 * (2 : ℝ) ^ (-1000 : ℤ) ≤ 1 / 10 * 2 ^ (-53 : ℤ) * D := by
  calc 2 * (2 : ℝ) ^ (-1000 : ℤ) = 2 * 2 ^ (-100 : ℤ) * 2 ^ (-900 : ℤ) := by
        rw [mul_assoc, ← zpow_add₀ two_ne_zero]; norm_num
    _ ≤ 1 / 10 * 2 ^ (-53 : ℤ) * 2 ^ (-900 : ℤ) := mul_le_mul_of_nonneg_right (by norm_num) (by positivity)
    _ ≤ _ := mul_le_mul_of_nonneg_left h (by positivity)

theorem tiny_le_one : 2 * (2 : ℝ) ^ (-1000 : ℤ) ≤ 1 / 10 * 2 ^ (-53 : ℤ) := by
  have := tiny_le (D := 1) (by
    calc (2 : ℝ) ^ (-900 : ℤ) ≤ 2 ^ (0 : ℤ) := two_zpow_le_self_of_le (by norm_num)
      _ = 1 := zpow_zero _)
  rwa [mul_one] at this

/-- a sum of vectors near `x` and `y` -/
theorem summed {v w : Vec (Ieee f64) n} {x y : EuclideanSpace ℝ (Fin n)} {M N X Y : ℝ} (h : VecFinite (v + w))
    (hx : ‖x‖ ≤ X) (hy : ‖y‖ ≤ Y) (hv : ‖place v - x‖ ≤ M - X) (hw : ‖place w - y‖ ≤ N - Y) :
    ‖place (v + w) - (x + y)‖ ≤ (1 + 2 ^ (-53 : ℤ)) * (M + N) - (X + Y) := by
  have h1 := add_step h
  have h2 : ‖place v‖ ≤ M := by
    have := norm_le_norm_add_norm_sub' (place v) x
    linarith
  have h3 : ‖place w‖ ≤ N := by
    have := norm_le_norm_add_norm_sub' (place w) y
    linarith
  have h4 : (2 : ℝ) ^ (-53 : ℤ) * ‖place v + place w‖ ≤ 2 ^ (-53 : ℤ) * (M + N) :=
    mul_le_mul_of_nonneg_left ((norm_add_le _ _).trans (add_le_add h2 h3)) (by positivity)
  have e : place (v + w) - (x + y) = (place (v + w) - (place v + place w)) + ((place v - x) + (place w - y)) := by abel
  rw [e]
  refine (norm_add_le _ _).trans ((add_le_add h1 (norm_add_le _ _)).trans ?_)
  linarith

theorem turn_identity : turn (Mat.identity : Mat (Ieee f64) n n) = 1 := by
  rw [turn, Spec.linear, show (Spec.realMat (Mat.identity : Mat (Ieee f64) n n)).toMatrix = 1 by
    ext r c
    have : ((Mat.identity : Mat (Ieee f64) n n).data c r).val = (1 : Matrix (Fin n) (Fin n) ℝ) r c := by
      rw [Mat.identity_data, Matrix.one_apply]
      by_cases h : c = r
      · rw [if_pos h, if_pos h.symm]; rfl
      · rw [if_neg h, if_neg (Ne.symm h)]; rfl
    simpa [Spec.realMat, Mat.toMatrix] using this, map_one]

theorem place_zero : place (0 : Vec (Ieee f64) n) = 0 := by
  ext i
  rfl

theorem finite_identity : MatFinite (Mat.identity : Mat (Ieee f64) n n) := fun c r => by
  rw [Mat.identity_data]
  split
  · exact finite_one
  · exact finite_zero

theorem room : (8 : ℝ) * 2 ^ (520 : ℤ) + 1 ≤ 2 ^ (600 : ℤ) := by
  have h1 : (1 : ℝ) ≤ 2 ^ (520 : ℤ) := one_le_zpow₀ one_le_two (by norm_num)
  calc (8 : ℝ) * 2 ^ (520 : ℤ) + 1 ≤ 16 * 2 ^ (520 : ℤ) := by
        generalize (2 : ℝ) ^ (520 : ℤ) = B at *
        linarith
    _ = 2 ^ (524 : ℤ) := by
        rw [show (16 : ℝ) = 2 ^ (4 : ℤ) by norm_num, ← zpow_add₀ two_ne_zero]; norm_num
    _ ≤ _ := two_zpow_le_self_of_le (by norm_num)

theorem Kept.le_room {c C D : ℝ} {T : Rigid n} {g : EuclideanSpace ℝ (Fin n) ≃ᵃⁱ[ℝ] EuclideanSpace ℝ (Fin n)}
    (k : Kept c C D T g) (C2 : C ≤ 2) (hD : D ≤ 2 ^ (520 : ℤ)) : ‖place T.vector‖ ≤ 2 ^ (600 : ℤ) := by
  refine le_trans ?_ room
  have := k.place_le
  have := k.pos
  generalize (2 : ℝ) ^ (520 : ℤ) = B at *
  nlinarith

theorem Kept.C_le {c C D : ℝ} {T : Rigid n} {g : EuclideanSpace ℝ (Fin n) ≃ᵃⁱ[ℝ] EuclideanSpace ℝ (Fin n)}
    (k : Kept c C D T g) : 1 ≤ C := by
  have := (_root_.norm_nonneg _).trans k.tr
  have := k.pos
  by_contra hc
  nlinarith

/-- what each of the nine products shares -/
theorem Kept.combine {cl Cl Dl cr Cr Dr δ : ℝ} {T U V : Rigid n}
    {g h : EuclideanSpace ℝ (Fin n) ≃ᵃⁱ[ℝ] EuclideanSpace ℝ (Fin n)} (kl : Kept cl Cl Dl T g) (kr : Kept cr Cr Dr U h)
    (hδ : 11 * 2 ^ (-53 : ℤ) ≤ δ) {C : ℝ} (C1 : Cl ≤ C) (C2 : cl * Cr ≤ C) (fm : MatFinite V.matrix) (fs : VecFinite V.vector)
    (h1 : ‖turn V.matrix - turn T.matrix * turn U.matrix‖ ≤
      91 / 10 * 2 ^ (-53 : ℤ) * (‖turn T.matrix‖ * ‖turn U.matrix‖) + 2 ^ (-1000 : ℤ))
    (hsum : ‖place V.vector - (g 0 + spin g (h 0))‖ ≤ (1 + 2 ^ (-53 : ℤ)) * (Cl * Dl +
      ((1 + 91 / 10 * 2 ^ (-53 : ℤ)) * (cl * (Cr * Dr)) + 2 ^ (-1000 : ℤ))) - (Dl + Dr)) :
    Kept (cl * cr * (1 + δ)) (C * (1 + δ)) (Dl + Dr) V (g * h) := by
  have l1 := kl.one_le
  have r1 := kr.one_le
  have pl := kl.pos
  have pr := kr.pos
  have tl := kl.turn_le
  have tr := kr.turn_le
  have cc : 1 ≤ cl * cr := by nlinarith
  have hr : ‖spin g (h 0)‖ ≤ Dr := by rw [spin_norm]; exact kr.reach
  have C0 := kr.C_le
  have t0 : (0 : ℝ) < 2 ^ (-1000 : ℤ) := by positivity
  have t1 := tiny_le_one
  have t2 := tiny_le (D := Dl + Dr) (by linarith [kl.low])
  have a1 : Cl * Dl ≤ C * Dl := mul_le_mul_of_nonneg_right C1 pl.le
  have a2 : cl * (Cr * Dr) ≤ C * Dr := by rw [← mul_assoc]; exact mul_le_mul_of_nonneg_right C2 pr.le
  have hD0 : 1 ≤ C := C2.trans' (by nlinarith)
  refine ⟨?_, fm, fs, ?_, ?_, ?_, ?_⟩
  · have : 0 ≤ δ := le_trans (by positivity) hδ
    nlinarith
  · rw [spin_mul]
    have e : turn V.matrix - spin g * spin h = (turn V.matrix - turn T.matrix * turn U.matrix) +
        ((turn T.matrix - spin g) * turn U.matrix + spin g * (turn U.matrix - spin h)) := by
      rw [sub_mul, mul_sub]; abel
    have h2 : ‖(turn T.matrix - spin g) * turn U.matrix‖ ≤ (cl - 1) * cr :=
      (norm_mul_le _ _).trans (mul_le_mul kl.rot tr (_root_.norm_nonneg _) (by linarith))
    have h3 : ‖spin g * (turn U.matrix - spin h)‖ ≤ 1 * (cr - 1) :=
      (norm_mul_le _ _).trans (mul_le_mul (spin_le g) kr.rot (_root_.norm_nonneg _) zero_le_one)
    have h4 : ‖turn T.matrix‖ * ‖turn U.matrix‖ ≤ cl * cr :=
      mul_le_mul tl tr (_root_.norm_nonneg _) (by linarith)
    have h5 : 91 / 10 * (2 : ℝ) ^ (-53 : ℤ) * (‖turn T.matrix‖ * ‖turn U.matrix‖) ≤
        91 / 10 * 2 ^ (-53 : ℤ) * (cl * cr) := mul_le_mul_of_nonneg_left h4 (by positivity)
    have h6 : 11 * (2 : ℝ) ^ (-53 : ℤ) * (cl * cr) ≤ δ * (cl * cr) := mul_le_mul_of_nonneg_right hδ (by positivity)
    have h7 : (2 : ℝ) ^ (-53 : ℤ) * 1 ≤ 2 ^ (-53 : ℤ) * (cl * cr) := mul_le_mul_of_nonneg_left cc (by positivity)
    rw [e]
    refine (norm_add_le _ _).trans ((add_le_add h1 (norm_add_le _ _)).trans ?_)
    clear hsum t2 a1 a2 hδ e h1
    generalize (2 : ℝ) ^ (-1000 : ℤ) = τ at *
    generalize ‖turn T.matrix‖ * ‖turn U.matrix‖ = x at *
    generalize (2 : ℝ) ^ (-53 : ℤ) = u at *
    linarith
  · rw [mul_origin, add_comm (spin g (h 0))]
    refine le_trans hsum ?_
    have b1 : C * (Dl + Dr) * (11 * 2 ^ (-53 : ℤ)) ≤ C * (Dl + Dr) * δ := mul_le_mul_of_nonneg_left hδ (by positivity)
    have b2 : 1 * (Dl + Dr) ≤ C * (Dl + Dr) := mul_le_mul_of_nonneg_right hD0 (by positivity)
    have b3 : 0 ≤ C * Dl := by positivity
    have b4 : 0 ≤ C * Dr := by positivity
    generalize (2 : ℝ) ^ (-1000 : ℤ) = τ at *
    norm_num at b1 t1 t2 ⊢
    linarith
  · rw [mul_origin]
    exact (norm_add_le _ _).trans (by linarith [kl.reach])
  · linarith [kl.low]

theorem Kept.times {cl Cl Dl cr Cr Dr δ : ℝ} {T U : Rigid n}
    {g h : EuclideanSpace ℝ (Fin n) ≃ᵃⁱ[ℝ] EuclideanSpace ℝ (Fin n)} (kl : Kept cl Cl Dl T g) (kr : Kept cr Cr Dr U h)
    (hn : n ≤ 3) (hδ : 11 * 2 ^ (-53 : ℤ) ≤ δ) (l2 : cl ≤ 2) (L2 : Cl ≤ 2) (r2 : cr ≤ 2) (R2 : Cr ≤ 2)
    (hD : Dl + Dr ≤ 2 ^ (520 : ℤ)) {C : ℝ} (C1 : Cl ≤ C) (C2 : cl * Cr ≤ C) :
    Kept (cl * cr * (1 + δ)) (C * (1 + δ)) (Dl + Dr) (T.times U) (g * h) := by
  have hu : (0 : ℝ) < 2 ^ (-53 : ℤ) := by positivity
  have t0 : (0 : ℝ) < 2 ^ (-1000 : ℤ) := by positivity
  have l1 := kl.one_le
  have r1 := kr.one_le
  have pl := kl.pos
  have pr := kr.pos
  have tl := kl.turn_le
  have tr := kr.turn_le
  have L1 := kl.C_le
  have R1 := kr.C_le
  have ql := kl.le_room L2 (by linarith)
  have qr := kr.le_room R2 (by linarith)
  -- the matrices
  have fm : MatFinite (T.matrix * U.matrix) := mul_finite kl.fr kr.fr hn (tl.trans l2) (tr.trans r2)
  have mm := turn_step fm hn
  have m0 : ∀ {W : Mat (Ieee f64) n n}, turn W = turn T.matrix * turn U.matrix → ‖turn W - turn T.matrix * turn U.matrix‖ ≤
      91 / 10 * 2 ^ (-53 : ℤ) * (‖turn T.matrix‖ * ‖turn U.matrix‖) + 2 ^ (-1000 : ℤ) := fun h => by
    rw [h, sub_self, norm_zero]; positivity
  -- the shift
  have fv : VecFinite (T.matrix * U.vector) := mulVec_finite kl.fr kr.ft hn (tl.trans l2) qr
  have hr : ‖spin g (h 0)‖ ≤ Dr := by rw [spin_norm]; exact kr.reach
  set N := (1 + 91 / 10 * 2 ^ (-53 : ℤ)) * (cl * (Cr * Dr)) + 2 ^ (-1000 : ℤ) with hN
  have s1 : ‖place (T.matrix * U.vector) - spin g (h 0)‖ ≤ N - Dr :=
    turned hn fv (spin_le g) kl.rot kr.reach (K := Cr * Dr) (by linarith [kr.tr])
  have N0 : cl * (Cr * Dr) ≤ N := by
    rw [hN]
    have : 0 ≤ 91 / 10 * (2 : ℝ) ^ (-53 : ℤ) * (cl * (Cr * Dr)) := by positivity
    generalize (2 : ℝ) ^ (-1000 : ℤ) = τ at *
    linarith
  have N1 : Cr * Dr - Dr + (cl - 1) * Dr ≤ N - Dr := by
    have : 0 ≤ (cl - 1) * (Cr - 1) * Dr := mul_nonneg (mul_nonneg (by linarith) (by linarith)) pr.le
    nlinarith
  have s2 : turn T.matrix = 1 → ‖place U.vector - spin g (h 0)‖ ≤ N - Dr := fun h1 => by
    have e : place U.vector - spin g (h 0) = (place U.vector - h 0) + (turn T.matrix - spin g) (h 0) := by
      rw [show (turn T.matrix - spin g) (h 0) = turn T.matrix (h 0) - spin g (h 0) from rfl, h1,
        show (1 : EuclideanSpace ℝ (Fin n) →L[ℝ] EuclideanSpace ℝ (Fin n)) (h 0) = h 0 from rfl]
      abel
    have h2 : ‖(turn T.matrix - spin g) (h 0)‖ ≤ (cl - 1) * Dr :=
      ((turn T.matrix - spin g).le_opNorm _).trans (mul_le_mul kl.rot kr.reach (_root_.norm_nonneg _) (by linarith))
    rw [e]
    refine (norm_add_le _ _).trans (le_trans (add_le_add kr.tr h2) ?_)
    linarith
  have s3 : U.vector = 0 → ‖spin g (h 0)‖ ≤ N - Dr := fun h1 => by
    have h2 := kr.tr
    rw [h1, place_zero, zero_sub, norm_neg] at h2
    rw [spin_norm]
    refine h2.trans (le_trans ?_ N1)
    have : 0 ≤ (cl - 1) * Dr := mul_nonneg (by linarith) pr.le
    linarith
  -- sums
  have w1 : ∀ {s : Vec (Ieee f64) n}, VecFinite s → ‖place s - spin g (h 0)‖ ≤ N - Dr → VecFinite (T.vector + s) ∧
      ‖place (T.vector + s) - (g 0 + spin g (h 0))‖ ≤ (1 + 2 ^ (-53 : ℤ)) * (Cl * Dl + N) - (Dl + Dr) := fun {s} fs hs => by
    have qs : ‖place s‖ ≤ 2 ^ (600 : ℤ) := by
      have h1 := norm_le_norm_add_norm_sub' (place s) (spin g (h 0))
      refine le_trans ?_ room
      have h2 : (1 + 91 / 10 * 2 ^ (-53 : ℤ)) * (cl * (Cr * Dr)) ≤ 2 * (cl * (Cr * Dr)) :=
        mul_le_mul_of_nonneg_right (by norm_num) (by positivity)
      have h3 : (2 : ℝ) ^ (-53 : ℤ) ≤ 1 := by norm_num
      have t1 := tiny_le_one
      have a3 : cl * (Cr * Dr) ≤ 4 * 2 ^ (520 : ℤ) := by
        have : cl * (Cr * Dr) ≤ 2 * (2 * Dr) := mul_le_mul l2 (mul_le_mul_of_nonneg_right R2 pr.le) (by positivity) (by norm_num)
        linarith
      rw [hN] at hs
      clear N0 N1 s1 s2 s3 hN
      generalize (2 : ℝ) ^ (-1000 : ℤ) = τ at *
      generalize (2 : ℝ) ^ (520 : ℤ) = B at *
      linarith
    have fa := add_finite kl.ft fs ql qs
    exact ⟨fa, summed fa kl.reach hr (M := Cl * Dl) (by linarith [kl.tr]) hs⟩
  have pN : 0 ≤ Cl * Dl + N := by
    have : 0 ≤ cl * (Cr * Dr) := by positivity
    have : 0 ≤ Cl * Dl := by positivity
    linarith
  have slack : Cl * Dl + N ≤ (1 + 2 ^ (-53 : ℤ)) * (Cl * Dl + N) := by
    have := mul_nonneg hu.le pN
    linarith
  have w2 : ∀ {s : Vec (Ieee f64) n}, T.vector = 0 → ‖place s - spin g (h 0)‖ ≤ N - Dr →
      ‖place s - (g 0 + spin g (h 0))‖ ≤ (1 + 2 ^ (-53 : ℤ)) * (Cl * Dl + N) - (Dl + Dr) := fun {s} h0 hs => by
    have h1 := kl.tr
    rw [h0, place_zero, zero_sub, norm_neg] at h1
    rw [← sub_sub, sub_right_comm]
    refine (norm_sub_le _ _).trans ?_
    linarith
  have w3 : U.vector = 0 → ‖place T.vector - (g 0 + spin g (h 0))‖ ≤
      (1 + 2 ^ (-53 : ℤ)) * (Cl * Dl + N) - (Dl + Dr) := fun h0 => by
    rw [← sub_sub]
    refine (norm_sub_le _ _).trans ?_
    have := s3 h0
    have := kl.tr
    linarith
  have i1 : ∀ {t : Translation (Ieee f64) n}, turn (Rigid.tra t).matrix = 1 := turn_identity
  cases T with
  | tra t =>
    cases U with
    | tra u =>
      obtain ⟨f, w⟩ := w1 kr.ft (s2 i1)
      exact Kept.combine kl kr hδ C1 C2 (V := .tra (t * u)) finite_identity f
        (m0 (by rw [i1, i1, i1, one_mul])) w
    | rot u =>
      exact Kept.combine kl kr hδ C1 C2 (V := .iso (t * u)) kr.fr kl.ft
        (m0 (by rw [i1, one_mul]; rfl)) (w3 rfl)
    | iso u =>
      obtain ⟨f, w⟩ := w1 kr.ft (s2 i1)
      exact Kept.combine kl kr hδ C1 C2 (V := .iso (t * u)) kr.fr f
        (m0 (by rw [i1, one_mul]; rfl)) w
  | rot t =>
    cases U with
    | tra u =>
      exact Kept.combine kl kr hδ C1 C2 (V := .iso (t * u)) kl.fr fv
        (m0 (by rw [i1, mul_one]; rfl)) (w2 rfl s1)
    | rot u =>
      refine Kept.combine kl kr hδ C1 C2 (V := .rot (t * u)) fm kl.ft mm ?_
      refine w2 rfl ?_
      rw [show (Rigid.rot (t * u)).vector = 0 from rfl, place_zero, zero_sub, norm_neg]
      exact s3 rfl
    | iso u =>
      exact Kept.combine kl kr hδ C1 C2 (V := .iso (t * u)) fm fv mm (w2 rfl s1)
  | iso t =>
    cases U with
    | tra u =>
      obtain ⟨f, w⟩ := w1 fv s1
      exact Kept.combine kl kr hδ C1 C2 (V := .iso (t * u)) kl.fr f (m0 (by rw [i1, mul_one]; rfl)) w
    | rot u =>
      exact Kept.combine kl kr hδ C1 C2 (V := .iso (t * u)) fm kl.ft mm (w3 rfl)
    | iso u =>
      obtain ⟨f, w⟩ := w1 fv s1
      exact Kept.combine kl kr hδ C1 C2 (V := .iso (t * u)) fm f mm w

theorem Kept.inverse {c C D δ : ℝ} {T : Rigid n} {g : EuclideanSpace ℝ (Fin n) ≃ᵃⁱ[ℝ] EuclideanSpace ℝ (Fin n)}
    (k : Kept c C D T g) (hn : n ≤ 3) (hδ : 11 * 2 ^ (-53 : ℤ) ≤ δ) (c2 : c ≤ 2) (C2 : C ≤ 2) (hD : D ≤ 2 ^ (520 : ℤ)) :
    Kept c (c * C * (1 + δ)) D T.inverse g⁻¹ := by
  have l1 := k.one_le
  have p := k.pos
  have tl := k.turn_le
  have C0 := k.C_le
  have d0 : 0 ≤ δ := le_trans (by positivity) hδ
  have rot : ‖turn T.matrix.transpose - spin g⁻¹‖ ≤ c - 1 := by
    rw [turn_transpose, spin_inv, ← map_sub, LinearIsometryEquiv.norm_map]
    exact k.rot
  have tl' : ‖turn T.matrix.transpose‖ ≤ c := by
    rw [turn_transpose, LinearIsometryEquiv.norm_map]; exact tl
  have fm : MatFinite T.matrix.transpose := fun i j => by rw [Mat.transpose_data]; exact k.fr j i
  have fn : VecFinite (-T.vector) := fun i => by rw [Vec.neg_data]; exact finite_neg' (k.ft i)
  have fv : VecFinite (T.matrix.transpose * (-T.vector)) :=
    mulVec_finite fm fn hn (tl'.trans c2) (by rw [place_neg, norm_neg]; exact k.le_room C2 hD)
  have hr : ‖-g 0‖ ≤ D := by rw [norm_neg]; exact k.reach
  have hi : ‖g⁻¹ 0‖ ≤ D := by rw [inv_origin, spin_norm]; exact hr
  have h := turned hn fv (spin_le g⁻¹) rot hr (K := C * D) (by
    rw [place_neg, ← neg_sub', norm_neg]; linarith [k.tr])
  have b2 : 1 * D ≤ c * C * D := mul_le_mul_of_nonneg_right (by nlinarith) p.le
  have b3 : 0 ≤ c * C * D * δ := by positivity
  have iT : turn T.matrix = 1 → turn T.matrix.transpose = 1 := fun h => by
    rw [turn_transpose, h, ← ContinuousLinearMap.star_eq_adjoint, star_one]
  cases T with
  | tra t =>
    have rot' := rot
    rw [iT turn_identity] at rot'
    refine ⟨l1, k.fr, fn, by rw [show (Rigid.tra t).inverse.matrix = Mat.identity from rfl, turn_identity]; exact rot',
      ?_, hi, k.low⟩
    rw [inv_origin, show (Rigid.tra t).inverse.vector = -(Rigid.tra t).vector from rfl, place_neg]
    have e : -place (Rigid.tra t).vector - spin g⁻¹ (-g 0) = -(place (Rigid.tra t).vector - g 0) + (1 - spin g⁻¹) (-g 0) := by
      rw [show (1 - spin g⁻¹) (-g 0) = -g 0 - spin g⁻¹ (-g 0) from rfl]; abel
    have h2 : ‖(1 - spin g⁻¹) (-g 0)‖ ≤ (c - 1) * D :=
      ((1 - spin g⁻¹).le_opNorm _).trans (mul_le_mul rot' hr (_root_.norm_nonneg _) (by linarith))
    rw [e]
    refine (norm_add_le _ _).trans ?_
    rw [norm_neg]
    refine (add_le_add k.tr h2).trans ?_
    have : 0 ≤ (c - 1) * (C - 1) * D := mul_nonneg (mul_nonneg (by linarith) (by linarith)) p.le
    nlinarith
  | rot t =>
    refine ⟨l1, fm, k.ft, rot, ?_, hi, k.low⟩
    have h2 := k.tr
    rw [show (Rigid.rot t).vector = 0 from rfl, place_zero, zero_sub, norm_neg] at h2
    rw [inv_origin, show (Rigid.rot t).inverse.vector = 0 from rfl, place_zero, zero_sub, norm_neg, spin_norm, norm_neg]
    refine h2.trans ?_
    have : 0 ≤ (c - 1) * (C * D) := mul_nonneg (by linarith) (by positivity)
    nlinarith
  | iso t =>
    refine ⟨l1, fm, fv, rot, ?_, hi, k.low⟩
    rw [inv_origin]
    refine le_trans h ?_
    have t2 := tiny_le k.low
    have t0 : (0 : ℝ) < 2 ^ (-1000 : ℤ) := by positivity
    have b1 : c * C * D * (11 * 2 ^ (-53 : ℤ)) ≤ c * C * D * δ := mul_le_mul_of_nonneg_left hδ (by positivity)
    generalize (2 : ℝ) ^ (-1000 : ℤ) = τ at *
    norm_num at b1 t2 ⊢
    linarith

/-! ### counting -/

theorem C89_turns (e : Combination ι) : e.turns + 1 = 2 * e.factors.length := by
  induction e with
  | given i => rfl
  | times l r hl hr => simp only [Combination.turns, Combination.factors, List.length_append]; omega
  | inverse e h => simpa only [Combination.turns, Combination.factors] using h

theorem C89_moves (e : Combination ι) : e.moves + 1 ≤ 2 * e.factors.length * (e.inversions + 1) := by
  rw [← C89_turns]
  have : e.moves ≤ e.turns * (e.inversions + 1) + e.inversions := by
    induction e with
    | given i => simp [Combination.moves, Combination.turns, Combination.inversions]
    | times l r hl hr =>
      simp only [Combination.moves, Combination.turns, Combination.inversions]
      have : max l.moves (l.turns + r.moves) ≤ (l.turns + r.turns) * (l.inversions + r.inversions + 1) +
          (l.inversions + r.inversions) := by
        refine max_le ?_ ?_ <;> nlinarith [Nat.zero_le (r.turns * l.inversions), Nat.zero_le (l.turns * r.inversions),
          Nat.zero_le (l.turns * l.inversions), Nat.zero_le (r.turns * r.inversions)]
      nlinarith [Nat.zero_le l.inversions, Nat.zero_le r.inversions]
    | inverse e h =>
      simp only [Combination.moves, Combination.turns, Combination.inversions]
      nlinarith
  nlinarith

theorem turns_le_moves (e : Combination ι) : e.turns ≤ e.moves := by
  induction e with
  | given i => exact le_rfl
  | times l r hl hr => simp only [Combination.moves, Combination.turns]; omega
  | inverse e h => simp only [Combination.moves, Combination.turns]; omega

theorem pow_small {δ : ℝ} (h0 : 0 ≤ δ) {k : ℕ} (h : k * δ ≤ 1 / 2) : (1 + δ) ^ k ≤ 2 ∧ (1 + δ) ^ k - 1 ≤ 2 * k * δ := by
  rcases Nat.eq_zero_or_pos k with rfl | hk
  · norm_num
  have k1 : (1 : ℝ) ≤ k := by exact_mod_cast hk
  have h1 : δ ≤ 1 := by nlinarith
  have := pow_le_inv h0 h1 k (by linarith)
  have k0 : 0 ≤ k * δ := by positivity
  have h2 : 1 / (1 - k * δ) ≤ 1 + 2 * (k * δ) := by
    rw [div_le_iff₀ (by linarith)]
    nlinarith
  constructor <;> linarith

/-! ### histories -/

theorem kept_motion (e : Combination ι) (T : ι → Rigid n)
    (g : ι → EuclideanSpace ℝ (Fin n) ≃ᵃⁱ[ℝ] EuclideanSpace ℝ (Fin n)) (D : ι → ℝ) {δ : ℝ} (hn : n ≤ 3)
    (hδ : 11 * 2 ^ (-53 : ℤ) ≤ δ) (hm : e.moves * δ ≤ 1 / 2) (hD : e.reach D ≤ 2 ^ (520 : ℤ))
    (hg : ∀ i ∈ e.factors, ‖g i 0‖ ≤ D i ∧ 2 ^ (-900 : ℤ) ≤ D i)
    (hT : ∀ i ∈ e.factors, Follows δ (δ * D i) (T i) (g i)) :
    Kept ((1 + δ) ^ e.turns) ((1 + δ) ^ e.moves) (e.reach D) (e.eval Rigid.times Rigid.inverse T)
      (e.eval (· * ·) (·⁻¹) g) := by
  have d0 : 0 ≤ δ := le_trans (by positivity) hδ
  have one : ∀ k : ℕ, 1 ≤ (1 + δ) ^ k := fun k => one_le_pow₀ (by linarith)
  have mono : ∀ {j k : ℕ}, j ≤ k → k * δ ≤ 1 / 2 → j * δ ≤ 1 / 2 := fun {j k} h h' =>
    le_trans (mul_le_mul_of_nonneg_right (by exact_mod_cast h) d0) h'
  induction e with
  | given i =>
    obtain ⟨h1, h2⟩ := hg i (by simp [Combination.factors])
    obtain ⟨a, b, r, t⟩ := hT i (by simp [Combination.factors])
    have e1 : (Combination.given i).reach D = D i := by simp [Combination.reach, Combination.factors]
    rw [e1]
    refine ⟨one _, a, b, ?_, ?_, h1, h2⟩
    · refine ContinuousLinearMap.opNorm_le_bound _ (sub_nonneg.mpr (one _)) fun v => ?_
      refine (r v).trans (le_of_eq ?_)
      simp [Combination.turns]
    · refine t.trans (le_of_eq ?_)
      simp [Combination.moves]
  | times l r hl hr =>
    have hg' : (∀ i ∈ l.factors, ‖g i 0‖ ≤ D i ∧ 2 ^ (-900 : ℤ) ≤ D i) ∧
        ∀ i ∈ r.factors, ‖g i 0‖ ≤ D i ∧ 2 ^ (-900 : ℤ) ≤ D i :=
      ⟨fun i hi => hg i (by simp [Combination.factors, hi]), fun i hi => hg i (by simp [Combination.factors, hi])⟩
    have hT' : (∀ i ∈ l.factors, Follows δ (δ * D i) (T i) (g i)) ∧ ∀ i ∈ r.factors, Follows δ (δ * D i) (T i) (g i) :=
      ⟨fun i hi => hT i (by simp [Combination.factors, hi]), fun i hi => hT i (by simp [Combination.factors, hi])⟩
    have er : (Combination.times l r).reach D = l.reach D + r.reach D := by simp [Combination.reach, Combination.factors]
    have pos : ∀ {m : Combination ι}, (∀ i ∈ m.factors, ‖g i 0‖ ≤ D i ∧ 2 ^ (-900 : ℤ) ≤ D i) → 0 ≤ m.reach D := fun {m} h =>
      List.sum_nonneg fun x hx => by
        obtain ⟨i, hi, rfl⟩ := List.mem_map.mp hx
        exact le_trans (by positivity) (h i hi).2
    have pl := pos hg'.1
    have pr := pos hg'.2
    rw [er] at hD
    have ml : l.moves * δ ≤ 1 / 2 := mono (by simp only [Combination.moves]; omega) hm
    have mr : r.moves * δ ≤ 1 / 2 := mono (by simp only [Combination.moves]; omega) hm
    have tl : l.turns * δ ≤ 1 / 2 := mono (turns_le_moves l) ml
    have tr : r.turns * δ ≤ 1 / 2 := mono (turns_le_moves r) mr
    have kl := hl ml ((le_add_of_nonneg_right pr).trans hD) hg'.1 hT'.1
    have kr := hr mr ((le_add_of_nonneg_left pl).trans hD) hg'.2 hT'.2
    have := Kept.times kl kr hn hδ (pow_small d0 tl).1 (pow_small d0 ml).1 (pow_small d0 tr).1 (pow_small d0 mr).1 hD
      (C := (1 + δ) ^ max l.moves (l.turns + r.moves))
      (pow_le_pow_right₀ (by linarith) (le_max_left _ _))
      (by rw [← pow_add]; exact pow_le_pow_right₀ (by linarith) (le_max_right _ _))
    rw [er]
    rw [← pow_add, ← pow_succ, ← pow_succ] at this
    exact this
  | inverse e h =>
    have me : e.moves * δ ≤ 1 / 2 := mono (by simp only [Combination.moves]; omega) hm
    have te : e.turns * δ ≤ 1 / 2 := mono (turns_le_moves e) me
    have k := h me hD hg hT
    have := Kept.inverse k hn hδ (pow_small d0 te).1 (pow_small d0 me).1 hD
    rw [← pow_add, ← pow_succ] at this
    exact this

/-- Every expression in isometries of the plane or of space, built by multiplying and inverting in any number, order and
bracketing, each factor accurate to `δ`: the result is finite, its rotation is accurate to `2 δ` for each factor and
product, and its translation to `2 δ` times the total reach of the factors, for each error that enters it. -/
theorem C89_motion (e : Combination ι) (T : ι → Rigid n)
    (g : ι → EuclideanSpace ℝ (Fin n) ≃ᵃⁱ[ℝ] EuclideanSpace ℝ (Fin n)) (D : ι → ℝ) {δ : ℝ} (hn : n ≤ 3)
    (hδ : 11 * 2 ^ (-53 : ℤ) ≤ δ) (hm : e.moves * δ ≤ 1 / 2) (hD : e.reach D ≤ 2 ^ (520 : ℤ))
    (hg : ∀ i ∈ e.factors, ‖g i 0‖ ≤ D i ∧ 2 ^ (-900 : ℤ) ≤ D i)
    (hT : ∀ i ∈ e.factors, Follows δ (δ * D i) (T i) (g i)) :
    Follows (2 * e.turns * δ) (2 * e.moves * δ * e.reach D) (e.eval Rigid.times Rigid.inverse T) (e.eval (· * ·) (·⁻¹) g) := by
  have d0 : 0 ≤ δ := le_trans (by positivity) hδ
  have k := kept_motion e T g D hn hδ hm hD hg hT
  have ht : e.turns * δ ≤ 1 / 2 := le_trans (mul_le_mul_of_nonneg_right (by exact_mod_cast turns_le_moves e) d0) hm
  refine ⟨k.fr, k.ft, fun v => ?_, k.tr.trans (mul_le_mul_of_nonneg_right (pow_small d0 hm).2 k.pos.le)⟩
  have := (turn (e.eval Rigid.times Rigid.inverse T).matrix - spin (e.eval (· * ·) (·⁻¹) g)).le_opNorm v
  exact this.trans (mul_le_mul_of_nonneg_right (k.rot.trans (pow_small d0 ht).2) (_root_.norm_nonneg _))

/-! ### points and vectors -/

section
variable {c C D δ : ℝ} {T : Rigid n} {g : EuclideanSpace ℝ (Fin n) ≃ᵃⁱ[ℝ] EuclideanSpace ℝ (Fin n)}

/-- turning a given vector -/
theorem Kept.turn_vector (k : Kept c C D T g) (hn : n ≤ 3) (c2 : c ≤ 2) {v : Vec (Ieee f64) n} (hv : VecFinite v)
    (hV : ‖place v‖ ≤ 2 ^ (520 : ℤ)) : VecFinite (T.applyVector v) ∧ ‖place (T.applyVector v) - spin g (place v)‖ ≤
      (1 + 91 / 10 * 2 ^ (-53 : ℤ)) * (c * ‖place v‖) + 2 ^ (-1000 : ℤ) - ‖place v‖ := by
  have big : (2 : ℝ) ^ (520 : ℤ) ≤ 2 ^ (600 : ℤ) := two_zpow_le_self_of_le (by norm_num)
  have fv : VecFinite (T.matrix * v) := mulVec_finite k.fr hv hn (k.turn_le.trans c2) (hV.trans big)
  have h := turned hn fv (spin_le g) k.rot (le_refl ‖place v‖) (K := ‖place v‖) (by simp)
  cases T with
  | tra t =>
    refine ⟨hv, ?_⟩
    have r := k.rot
    rw [show turn (Rigid.tra t).matrix = 1 from turn_identity] at r
    have h2 : ‖(1 - spin g) (place v)‖ ≤ (c - 1) * ‖place v‖ :=
      ((1 - spin g).le_opNorm _).trans (mul_le_mul_of_nonneg_right r (_root_.norm_nonneg _))
    refine h2.trans ?_
    have h3 := k.one_le
    have h4 : 0 ≤ 91 / 10 * (2 : ℝ) ^ (-53 : ℤ) * (c * ‖place v‖) := by positivity
    have h5 : (0 : ℝ) < 2 ^ (-1000 : ℤ) := by positivity
    generalize (2 : ℝ) ^ (-1000 : ℤ) = τ at *
    linarith
  | rot t => exact ⟨fv, h⟩
  | iso t => exact ⟨fv, h⟩

theorem Kept.point (k : Kept c C D T g) (hn : n ≤ 3) (hδ : 11 * 2 ^ (-53 : ℤ) ≤ δ) (cC : c ≤ C) (C2 : C ≤ 2)
    (hD : D ≤ 2 ^ (520 : ℤ)) {p : Pt (Ieee f64) n} (hp : VecFinite p.coords) (hP : ‖place p.coords‖ ≤ 2 ^ (520 : ℤ)) :
    VecFinite (T.applyPoint p).coords ∧
    ‖place (T.applyPoint p).coords - g (place p.coords)‖ ≤ (C * (1 + δ) - 1) * (D + ‖place p.coords‖) := by
  obtain ⟨fs, hs⟩ := k.turn_vector hn (cC.trans C2) hp hP
  set P := ‖place p.coords‖ with hP'
  set N := (1 + 91 / 10 * 2 ^ (-53 : ℤ)) * (c * P) + 2 ^ (-1000 : ℤ) with hN
  have P0 : 0 ≤ P := _root_.norm_nonneg _
  have l1 := k.one_le
  have p0 := k.pos
  have qt := k.le_room C2 hD
  have hr : ‖spin g (place p.coords)‖ ≤ P := (spin_norm g _).le
  have qs : ‖place (T.applyVector p.coords)‖ ≤ 2 ^ (600 : ℤ) := by
    have h1 := norm_le_norm_add_norm_sub' (place (T.applyVector p.coords)) (spin g (place p.coords))
    refine le_trans ?_ room
    have h2 : (1 + 91 / 10 * 2 ^ (-53 : ℤ)) * (c * P) ≤ 2 * (2 * P) :=
      mul_le_mul (by norm_num) (mul_le_mul_of_nonneg_right (cC.trans C2) P0) (by positivity) (by norm_num)
    have h3 : (2 : ℝ) ^ (-53 : ℤ) ≤ 1 := by norm_num
    have t1 := tiny_le_one
    have t0 : (0 : ℝ) < 2 ^ (-1000 : ℤ) := by positivity
    rw [hN] at hs
    clear hN
    generalize (2 : ℝ) ^ (-1000 : ℤ) = τ at *
    generalize (2 : ℝ) ^ (520 : ℤ) = B at *
    linarith
  have fin : ∀ x : ℝ, x ≤ (1 + 2 ^ (-53 : ℤ)) * (N + C * D) - (P + D) → x ≤ (C * (1 + δ) - 1) * (D + P) := by
    intro x hx
    refine hx.trans ?_
    have b1 : C * (D + P) * (11 * 2 ^ (-53 : ℤ)) ≤ C * (D + P) * δ :=
      mul_le_mul_of_nonneg_left hδ (mul_nonneg (by linarith) (by linarith))
    have b2 : 1 * (D + P) ≤ C * (D + P) := mul_le_mul_of_nonneg_right (by linarith) (by linarith)
    have b3 : 0 ≤ C * D := mul_nonneg (by linarith) p0.le
    have b4 : c * P ≤ C * P := mul_le_mul_of_nonneg_right cC P0
    have b5 : 0 ≤ c * P := mul_nonneg (by linarith) P0
    have t2 := tiny_le (D := D + P) (by linarith [k.low])
    have t1 := tiny_le_one
    have t0 : (0 : ℝ) < 2 ^ (-1000 : ℤ) := by positivity
    rw [hN]
    clear hx hN hs
    generalize (2 : ℝ) ^ (-1000 : ℤ) = τ at *
    norm_num at b1 t1 t2 ⊢
    linarith
  have fa := add_finite fs k.ft qs qt
  have ha := summed fa hr k.reach hs (N := C * D) (by linarith [k.tr])
  rw [motion_apply]
  cases T with
  | tra t => exact ⟨fa, fin _ ha⟩
  | rot t =>
    refine ⟨fs, fin _ ?_⟩
    have h1 := k.tr
    rw [show (Rigid.rot t).vector = 0 from rfl, place_zero, zero_sub, norm_neg] at h1
    rw [← sub_sub]
    refine (norm_sub_le _ _).trans ((add_le_add hs h1).trans ?_)
    have N0 : 0 ≤ N := by rw [hN]; positivity
    have : 0 ≤ (2 : ℝ) ^ (-53 : ℤ) * (N + C * D) := by
      have : 0 ≤ C * D := mul_nonneg (by linarith) p0.le
      positivity
    linarith
  | iso t => exact ⟨fa, fin _ ha⟩

theorem Kept.inverse_point (k : Kept c C D T g) (hn : n ≤ 3) (hδ : 11 * 2 ^ (-53 : ℤ) ≤ δ) (cC : c ≤ C) (C2 : C ≤ 2)
    (hD : D ≤ 2 ^ (520 : ℤ)) {p : Pt (Ieee f64) n} (hp : VecFinite p.coords) (hP : ‖place p.coords‖ ≤ 2 ^ (520 : ℤ)) :
    VecFinite (T.inverseApplyPoint p).coords ∧
    ‖place (T.inverseApplyPoint p).coords - g⁻¹ (place p.coords)‖ ≤ (c * C * (1 + δ) - 1) * (D + ‖place p.coords‖) := by
  set P := ‖place p.coords‖ with hP'
  have P0 : 0 ≤ P := _root_.norm_nonneg _
  have l1 := k.one_le
  have p0 := k.pos
  have C1 := k.C_le
  have qt := k.le_room C2 hD
  have big : (2 : ℝ) ^ (520 : ℤ) ≤ 2 ^ (600 : ℤ) := two_zpow_le_self_of_le (by norm_num)
  have rot : ‖turn T.matrix.transpose - spin g⁻¹‖ ≤ c - 1 := by
    rw [turn_transpose, spin_inv, ← map_sub, LinearIsometryEquiv.norm_map]
    exact k.rot
  have tl' : ‖turn T.matrix.transpose‖ ≤ 2 := by
    rw [turn_transpose, LinearIsometryEquiv.norm_map]; exact k.turn_le.trans (cC.trans C2)
  have fm : MatFinite T.matrix.transpose := fun i j => by rw [Mat.transpose_data]; exact k.fr j i
  have fn : VecFinite (-T.vector) := fun i => by rw [Vec.neg_data]; exact finite_neg' (k.ft i)
  have fq : VecFinite (p.coords + -T.vector) := add_finite hp fn (hP.trans big) (by rw [place_neg, norm_neg]; exact qt)
  have hq := summed fq (le_refl P) (show ‖-g 0‖ ≤ D by rw [norm_neg]; exact k.reach) (M := P) (N := C * D)
    (by rw [sub_self, sub_self, norm_zero]) (by rw [place_neg, ← neg_sub', norm_neg]; linarith [k.tr])
  set K := (1 + 2 ^ (-53 : ℤ)) * (P + C * D) with hK
  have X0 : ‖place p.coords + -g 0‖ ≤ P + D := (norm_add_le _ _).trans (by rw [norm_neg]; linarith [k.reach])
  have CD : 0 ≤ C * D := mul_nonneg (by linarith) p0.le
  have K0 : P + C * D ≤ K := by
    have : 0 ≤ (2 : ℝ) ^ (-53 : ℤ) * (P + C * D) := by positivity
    linarith
  have qq : ‖place (p.coords + -T.vector)‖ ≤ 2 ^ (600 : ℤ) := by
    have h1 := norm_le_norm_add_norm_sub' (place (p.coords + -T.vector)) (place p.coords + -g 0)
    refine le_trans ?_ room
    have h2 : K ≤ 2 * (P + 2 * D) :=
      mul_le_mul (by norm_num) (by nlinarith) (by positivity) (by norm_num)
    generalize (2 : ℝ) ^ (520 : ℤ) = B at *
    linarith
  have eg : g⁻¹ (place p.coords) = spin g⁻¹ (place p.coords + -g 0) := by
    rw [motion_apply, inv_origin, ← map_add]
  have fin : ∀ x : ℝ, x ≤ (1 + 91 / 10 * 2 ^ (-53 : ℤ)) * (c * K) + 2 ^ (-1000 : ℤ) - (P + D) →
      x ≤ (c * C * (1 + δ) - 1) * (D + P) := by
    intro x hx
    refine hx.trans ?_
    have cC0 : 1 ≤ c * C := by nlinarith
    have b1 : c * C * (D + P) * (11 * 2 ^ (-53 : ℤ)) ≤ c * C * (D + P) * δ :=
      mul_le_mul_of_nonneg_left hδ (mul_nonneg (by linarith) (by linarith))
    have b2 : 1 * (D + P) ≤ c * C * (D + P) := mul_le_mul_of_nonneg_right cC0 (by linarith)
    have b4 : c * P ≤ c * C * P := by
      have : 0 ≤ c * P * (C - 1) := mul_nonneg (mul_nonneg (by linarith) P0) (by linarith)
      linarith
    have b5 : 0 ≤ c * P := mul_nonneg (by linarith) P0
    have b6 : 0 ≤ c * C * D := mul_nonneg (by linarith) p0.le
    have t2 := tiny_le (D := D + P) (by linarith [k.low])
    have t0 : (0 : ℝ) < 2 ^ (-1000 : ℤ) := by positivity
    rw [hK]
    clear hx hK hq K0
    generalize (2 : ℝ) ^ (-1000 : ℤ) = τ at *
    norm_num at b1 t2 ⊢
    linarith
  have fv : VecFinite (T.matrix.transpose * (p.coords + -T.vector)) := mulVec_finite fm fq hn tl' qq
  have hv := turned hn fv (spin_le g⁻¹) rot X0 hq
  rw [eg]
  cases T with
  | tra t =>
    have ei : ((Rigid.tra t).inverseApplyPoint p).coords = p.coords + -(Rigid.tra t).vector := vec_sub _ _
    rw [ei]
    refine ⟨fq, fin _ ?_⟩
    have rot' := rot
    rw [turn_transpose, show turn (Rigid.tra t).matrix = 1 from turn_identity, ← ContinuousLinearMap.star_eq_adjoint,
      star_one] at rot'
    have e : place (p.coords + -(Rigid.tra t).vector) - spin g⁻¹ (place p.coords + -g 0) =
        (place (p.coords + -(Rigid.tra t).vector) - (place p.coords + -g 0)) + (1 - spin g⁻¹) (place p.coords + -g 0) := by
      rw [show (1 - spin g⁻¹) (place p.coords + -g 0) = place p.coords + -g 0 - spin g⁻¹ (place p.coords + -g 0) from rfl]
      abel
    have h2 : ‖(1 - spin g⁻¹) (place p.coords + -g 0)‖ ≤ (c - 1) * (P + D) :=
      ((1 - spin g⁻¹).le_opNorm _).trans (mul_le_mul rot' X0 (_root_.norm_nonneg _) (by linarith))
    rw [e]
    refine (norm_add_le _ _).trans ((add_le_add hq h2).trans ?_)
    have h3 : (c - 1) * (P + D) ≤ (c - 1) * K :=
      mul_le_mul_of_nonneg_left (K0.trans' (by nlinarith)) (by linarith)
    have h4 : 0 ≤ 91 / 10 * (2 : ℝ) ^ (-53 : ℤ) * (c * K) := by positivity
    have t0 : (0 : ℝ) < 2 ^ (-1000 : ℤ) := by positivity
    generalize (2 : ℝ) ^ (-1000 : ℤ) = τ at *
    linarith
  | rot t =>
    have fw : VecFinite ((Rigid.rot t).matrix.transpose * p.coords) := mulVec_finite fm hp hn tl' (hP.trans big)
    rw [show ((Rigid.rot t).inverseApplyPoint p).coords = (Rigid.rot t).matrix.transpose * p.coords from rfl]
    refine ⟨fw, fin _ ?_⟩
    have h1 := k.tr
    rw [show (Rigid.rot t).vector = 0 from rfl, place_zero, zero_sub, norm_neg] at h1
    exact turned hn fw (spin_le g⁻¹) rot X0 (K := K) (by
      rw [sub_add_cancel_left, neg_neg]
      linarith)
  | iso t =>
    have ei : ((Rigid.iso t).inverseApplyPoint p).coords =
        (Rigid.iso t).matrix.transpose * (p.coords + -(Rigid.iso t).vector) := by
      rw [← vec_sub]; rfl
    rw [ei]
    exact ⟨fv, fin _ hv⟩
end

/-- Such a result applied to points: finite, and accurate to `2 δ` times the total reach of the factors and the distance of
the point from the origin, for each error that enters; also when the point is brought back. -/
theorem C89_points (e : Combination ι) (T : ι → Rigid n)
    (g : ι → EuclideanSpace ℝ (Fin n) ≃ᵃⁱ[ℝ] EuclideanSpace ℝ (Fin n)) (D : ι → ℝ) {δ : ℝ} (hn : n ≤ 3)
    (hδ : 11 * 2 ^ (-53 : ℤ) ≤ δ) (hm : (e.turns + e.moves + 1 : ℕ) * δ ≤ 1 / 2) (hD : e.reach D ≤ 2 ^ (520 : ℤ))
    (hg : ∀ i ∈ e.factors, ‖g i 0‖ ≤ D i ∧ 2 ^ (-900 : ℤ) ≤ D i)
    (hT : ∀ i ∈ e.factors, Follows δ (δ * D i) (T i) (g i)) (p : Pt (Ieee f64) n) (hp : VecFinite p.coords)
    (hP : ‖place p.coords‖ ≤ 2 ^ (520 : ℤ)) :
    VecFinite ((e.eval Rigid.times Rigid.inverse T).applyPoint p).coords ∧
    ‖place ((e.eval Rigid.times Rigid.inverse T).applyPoint p).coords - e.eval (· * ·) (·⁻¹) g (place p.coords)‖ ≤
      2 * (e.moves + 1 : ℕ) * δ * (e.reach D + ‖place p.coords‖) ∧
    VecFinite ((e.eval Rigid.times Rigid.inverse T).inverseApplyPoint p).coords ∧
    ‖place ((e.eval Rigid.times Rigid.inverse T).inverseApplyPoint p).coords - (e.eval (· * ·) (·⁻¹) g)⁻¹ (place p.coords)‖ ≤
      2 * (e.turns + e.moves + 1 : ℕ) * δ * (e.reach D + ‖place p.coords‖) := by
  have d0 : 0 ≤ δ := le_trans (by positivity) hδ
  have mono : ∀ {j k : ℕ}, j ≤ k → k * δ ≤ 1 / 2 → j * δ ≤ 1 / 2 := fun {j k} h h' =>
    le_trans (mul_le_mul_of_nonneg_right (by exact_mod_cast h) d0) h'
  have m0 : e.moves * δ ≤ 1 / 2 := mono (by omega) hm
  have m1 : (e.moves + 1 : ℕ) * δ ≤ 1 / 2 := mono (by omega) hm
  have k := kept_motion e T g D hn hδ m0 hD hg hT
  have cC : (1 + δ) ^ e.turns ≤ (1 + δ) ^ e.moves := pow_le_pow_right₀ (by linarith) (turns_le_moves e)
  have R : 0 ≤ e.reach D + ‖place p.coords‖ := add_nonneg k.pos.le (_root_.norm_nonneg _)
  obtain ⟨a, b⟩ := k.point hn hδ cC (pow_small d0 m0).1 hD hp hP
  obtain ⟨a', b'⟩ := k.inverse_point hn hδ cC (pow_small d0 m0).1 hD hp hP
  rw [← pow_succ] at b
  rw [← pow_add, ← pow_succ] at b'
  exact ⟨a, b.trans (mul_le_mul_of_nonneg_right (pow_small d0 m1).2 R), a',
    b'.trans (mul_le_mul_of_nonneg_right (pow_small d0 hm).2 R)⟩

/-- Such a result applied to vectors. -/
theorem C89_vectors (e : Combination ι) (T : ι → Rigid n)
    (g : ι → EuclideanSpace ℝ (Fin n) ≃ᵃⁱ[ℝ] EuclideanSpace ℝ (Fin n)) (D : ι → ℝ) {δ : ℝ} (hn : n ≤ 3)
    (hδ : 11 * 2 ^ (-53 : ℤ) ≤ δ) (hm : (e.moves + 1 : ℕ) * δ ≤ 1 / 2) (hD : e.reach D ≤ 2 ^ (520 : ℤ))
    (hg : ∀ i ∈ e.factors, ‖g i 0‖ ≤ D i ∧ 2 ^ (-900 : ℤ) ≤ D i)
    (hT : ∀ i ∈ e.factors, Follows δ (δ * D i) (T i) (g i)) (v : Vec (Ieee f64) n) (hv : VecFinite v)
    (hV : ‖place v‖ ≤ 2 ^ (520 : ℤ)) :
    VecFinite ((e.eval Rigid.times Rigid.inverse T).applyVector v) ∧
    ‖place ((e.eval Rigid.times Rigid.inverse T).applyVector v) -
        (e.eval (· * ·) (·⁻¹) g).linearIsometryEquiv (place v)‖ ≤
      2 * (e.turns + 1 : ℕ) * δ * ‖place v‖ + 2 ^ (-1000 : ℤ) := by
  have d0 : 0 ≤ δ := le_trans (by positivity) hδ
  have mono : ∀ {j k : ℕ}, j ≤ k → k * δ ≤ 1 / 2 → j * δ ≤ 1 / 2 := fun {j k} h h' =>
    le_trans (mul_le_mul_of_nonneg_right (by exact_mod_cast h) d0) h'
  have tm := turns_le_moves e
  have t0 : e.turns * δ ≤ 1 / 2 := mono (by omega) hm
  have t1 : (e.turns + 1 : ℕ) * δ ≤ 1 / 2 := mono (by omega) hm
  have k := kept_motion e T g D hn hδ (mono (by omega) hm) hD hg hT
  obtain ⟨a, b⟩ := k.turn_vector hn (pow_small d0 t0).1 hv hV
  refine ⟨a, b.trans ?_⟩
  have h1 := mul_le_mul_of_nonneg_right (pow_small d0 t1).2 (_root_.norm_nonneg (place v))
  rw [pow_succ] at h1
  have h2 : 0 ≤ (1 + δ) ^ e.turns * ‖place v‖ := by positivity
  have h3 := mul_le_mul_of_nonneg_left hδ h2
  have h4 : 0 ≤ (2 : ℝ) ^ (-53 : ℤ) * ((1 + δ) ^ e.turns * ‖place v‖) := by positivity
  clear b
  generalize (1 + δ) ^ e.turns = c at *
  generalize (2 : ℝ) ^ (-1000 : ℤ) = τ at *
  generalize (2 : ℝ) ^ (-53 : ℤ) = u at *
  generalize 2 * ((e.turns + 1 : ℕ) : ℝ) * δ * ‖place v‖ = x at *
  generalize ‖place v‖ = y at *
  nlinarith

/-- Bringing a point back with the same result. -/
theorem C89_round_trip (e : Combination ι) (T : ι → Rigid n)
    (g : ι → EuclideanSpace ℝ (Fin n) ≃ᵃⁱ[ℝ] EuclideanSpace ℝ (Fin n)) (D : ι → ℝ) {δ : ℝ} (hn : n ≤ 3)
    (hδ : 11 * 2 ^ (-53 : ℤ) ≤ δ) (hm : (e.turns + e.moves + 1 : ℕ) * δ ≤ 1 / 2)
    (hg : ∀ i ∈ e.factors, ‖g i 0‖ ≤ D i ∧ 2 ^ (-900 : ℤ) ≤ D i)
    (hT : ∀ i ∈ e.factors, Follows δ (δ * D i) (T i) (g i)) (p : Pt (Ieee f64) n) (hp : VecFinite p.coords)
    (hP : e.reach D + ‖place p.coords‖ ≤ 2 ^ (519 : ℤ)) :
    ‖place ((e.eval Rigid.times Rigid.inverse T).inverseApplyPoint
        ((e.eval Rigid.times Rigid.inverse T).applyPoint p)).coords - place p.coords‖ ≤
      8 * (e.turns + e.moves + 1 : ℕ) * δ * (e.reach D + ‖place p.coords‖) := by
  have d0 : 0 ≤ δ := le_trans (by positivity) hδ
  have mono : ∀ {j k : ℕ}, j ≤ k → k * δ ≤ 1 / 2 → j * δ ≤ 1 / 2 := fun {j k} h h' =>
    le_trans (mul_le_mul_of_nonneg_right (by exact_mod_cast h) d0) h'
  have m1 : (e.moves + 1 : ℕ) * δ ≤ 1 / 2 := mono (by omega) hm
  have R0 : 0 ≤ e.reach D := List.sum_nonneg fun x hx => by
    obtain ⟨i, hi, rfl⟩ := List.mem_map.mp hx
    exact le_trans (by positivity) (hg i hi).2
  have P0 := _root_.norm_nonneg (place p.coords)
  have up : (2 : ℝ) * 2 ^ (519 : ℤ) = 2 ^ (520 : ℤ) := by
    rw [← zpow_one_add₀ two_ne_zero]; norm_num
  have up' : (2 : ℝ) ^ (519 : ℤ) ≤ 2 ^ (520 : ℤ) := two_zpow_le_self_of_le (by norm_num)
  have hD : e.reach D ≤ 2 ^ (520 : ℤ) := le_trans (by linarith) (hP.trans up')
  obtain ⟨f, b, -, -⟩ := C89_points e T g D hn hδ hm hD hg hT p hp (le_trans (by linarith) (hP.trans up'))
  set G := e.eval (· * ·) (·⁻¹) g with hG
  set q := (e.eval Rigid.times Rigid.inverse T).applyPoint p with hq
  have k := kept_motion e T g D hn hδ (mono (by omega) hm) hD hg hT
  set R := e.reach D + ‖place p.coords‖ with hR
  have b1 : 2 * ((e.moves + 1 : ℕ) : ℝ) * δ * R ≤ R := by nlinarith
  have hGp : ‖G (place p.coords)‖ ≤ R := by
    rw [motion_apply]
    refine (norm_add_le _ _).trans ?_
    rw [spin_norm]
    linarith [k.reach]
  have hq2 : ‖place q.coords‖ ≤ 2 * R := by
    have := norm_le_norm_add_norm_sub' (place q.coords) (G (place p.coords))
    linarith
  obtain ⟨-, -, -, b'⟩ := C89_points e T g D hn hδ hm hD hg hT q f (hq2.trans (by rw [← up]; linarith))
  have iso : ‖G⁻¹ (place q.coords) - place p.coords‖ = ‖place q.coords - G (place p.coords)‖ := by
    have e1 : G⁻¹ (G (place p.coords)) = place p.coords := by
      rw [AffineIsometryEquiv.coe_inv]; exact G.symm_apply_apply _
    conv_lhs => rw [← e1]
    rw [← dist_eq_norm, ← dist_eq_norm]
    exact G⁻¹.dist_map _ _
  have e2 : ∀ x : EuclideanSpace ℝ (Fin n), x - place p.coords = (x - G⁻¹ (place q.coords)) + (G⁻¹ (place q.coords) - place p.coords) :=
    fun x => by abel
  rw [e2]
  refine (norm_add_le _ _).trans ?_
  rw [iso]
  have c1 : 2 * ((e.turns + e.moves + 1 : ℕ) : ℝ) * δ * (e.reach D + ‖place q.coords‖) ≤
      2 * ((e.turns + e.moves + 1 : ℕ) : ℝ) * δ * (3 * R) := mul_le_mul_of_nonneg_left (by linarith) (by positivity)
  have c2 : 2 * ((e.moves + 1 : ℕ) : ℝ) * δ * R ≤ 2 * ((e.turns + e.moves + 1 : ℕ) : ℝ) * δ * R := by
    have : ((e.moves + 1 : ℕ) : ℝ) ≤ ((e.turns + e.moves + 1 : ℕ) : ℝ) := by exact_mod_cast (by omega)
    gcongr
  linarith

/-- Up to a million factors without inversions, each accurate to `2 ^ -49`. -/
theorem C89_million (e : Combination ι) (T : ι → Rigid n)
    (g : ι → EuclideanSpace ℝ (Fin n) ≃ᵃⁱ[ℝ] EuclideanSpace ℝ (Fin n)) (D : ι → ℝ) (hn : n ≤ 3)
    (hm : e.factors.length ≤ 1000000) (hi : e.inversions = 0) (hD : e.reach D ≤ 2 ^ (520 : ℤ))
    (hg : ∀ i ∈ e.factors, ‖g i 0‖ ≤ D i ∧ 2 ^ (-900 : ℤ) ≤ D i)
    (hT : ∀ i ∈ e.factors, Follows (2 ^ (-49 : ℤ)) (2 ^ (-49 : ℤ) * D i) (T i) (g i)) :
    Follows (8 / 10 ^ 9) (8 / 10 ^ 9 * e.reach D) (e.eval Rigid.times Rigid.inverse T) (e.eval (· * ·) (·⁻¹) g) := by
  have h1 := C89_moves e
  rw [hi] at h1
  have h2 : e.moves ≤ 2000000 := by omega
  have h2' : (e.moves : ℝ) ≤ 2000000 := by exact_mod_cast h2
  have h3 : (e.turns : ℝ) ≤ 2000000 := by exact_mod_cast (turns_le_moves e).trans h2
  have h := C89_motion e T g D hn (by norm_num) (le_trans (mul_le_mul_of_nonneg_right h2' (by positivity)) (by norm_num))
    hD hg hT
  have R0 : 0 ≤ e.reach D := List.sum_nonneg fun x hx => by
    obtain ⟨i, hi, rfl⟩ := List.mem_map.mp hx
    exact le_trans (by positivity) (hg i hi).2
  refine ⟨h.finite_matrix, h.finite_vector, fun v => (h.rotation v).trans ?_, h.translation.trans ?_⟩
  · refine mul_le_mul_of_nonneg_right ?_ (_root_.norm_nonneg _)
    calc 2 * (e.turns : ℝ) * 2 ^ (-49 : ℤ) ≤ 2 * 2000000 * 2 ^ (-49 : ℤ) := by gcongr
      _ ≤ _ := by norm_num
  · refine mul_le_mul_of_nonneg_right ?_ R0
    calc 2 * (e.moves : ℝ) * 2 ^ (-49 : ℤ) ≤ 2 * 2000000 * 2 ^ (-49 : ℤ) := by gcongr
      _ ≤ _ := by norm_num

/-! ### the hypotheses hold for concrete inputs -/

/-- the rigid motion with the rotation `A` and the displacement `d` -/
noncomputable def rigid (A : Mat ℝ n n) (hA : ∀ v : Vec ℝ n, (A * v).norm = v.norm) (d : EuclideanSpace ℝ (Fin n)) :
    EuclideanSpace ℝ (Fin n) ≃ᵃⁱ[ℝ] EuclideanSpace ℝ (Fin n) :=
  AffineIsometryEquiv.constVAdd ℝ (EuclideanSpace ℝ (Fin n)) d *
  (LinearIsometry.toLinearIsometryEquiv (li := { (Spec.linear A).toLinearMap with
    norm_map' := fun x => by
      have := hA ⟨x.ofLp⟩
      rw [← norm_toLp, ← norm_toLp, ← linear_apply] at this
      exact this }) rfl).toAffineIsometryEquiv

theorem rigid_zero (A : Mat ℝ n n) (hA : ∀ v : Vec ℝ n, (A * v).norm = v.norm) (d : EuclideanSpace ℝ (Fin n)) :
    rigid A hA d 0 = d := by
  change d +ᵥ Spec.linear A 0 = d
  rw [map_zero, vadd_eq_add, add_zero]

theorem rigid_turn (A : Mat ℝ n n) (hA : ∀ v : Vec ℝ n, (A * v).norm = v.norm) (d v : EuclideanSpace ℝ (Fin n)) :
    (rigid A hA d).linearIsometryEquiv v = Spec.linear A v := rfl

/-- the quarter turn about the vertical axis followed by the displacement (1, 1, 0), and the exact motion -/
theorem quarter_norm (v : Vec ℝ 3) : ((Mat.new3x3 0 1 0 (-1) 0 0 0 0 1 : Mat ℝ 3 3) * v).norm = v.norm := by
  rw [Vec.norm_def, Vec.norm_def]
  congr 1
  simp [Vec.normSquared, Vec.dot_eq_sum, Fin.sum_univ_three, Mat.mulVec_data, Mat.new3x3]
  ring

noncomputable def quarter : Isometry (Ieee f64) 3 :=
  Isometry.fromParts ⟨Vec.new3 1 1 0⟩ ⟨Mat.new3x3 0 1 0 (-1) 0 0 0 0 1⟩
noncomputable def exactQuarter : EuclideanSpace ℝ (Fin 3) ≃ᵃⁱ[ℝ] EuclideanSpace ℝ (Fin 3) :=
  rigid (Mat.new3x3 0 1 0 (-1) 0 0 0 0 1) quarter_norm (WithLp.toLp 2 ![1, 1, 0])

theorem quarter_near {δ η : ℝ} (hδ : 0 ≤ δ) (hη : 0 ≤ η) : Follows δ η (.iso quarter) exactQuarter := by
  have f1 : (1 : Ieee f64).Finite := finite_one
  have fm : (-1 : Ieee f64).Finite := Bd.one.neg.1
  have f0 : (0 : Ieee f64).Finite := finite_zero
  have v1 : (1 : Ieee f64).val = 1 := rfl
  have v0 : (0 : Ieee f64).val = 0 := rfl
  have vm : (-1 : Ieee f64).val = -1 := val_neg _
  refine ⟨fun c r => ?_, fun i => ?_, fun v => ?_, ?_⟩
  · fin_cases c <;> fin_cases r <;> first | exact f0 | exact f1 | exact fm
  · fin_cases i <;> first | exact f0 | exact f1
  · have e : Spec.realMat (Rigid.iso quarter).matrix = Mat.new3x3 0 1 0 (-1) 0 0 0 0 1 := by
      ext c r
      rw [Spec.realMat, map_data]
      fin_cases c <;> fin_cases r <;> first | exact v0 | exact v1 | exact vm
    rw [exactQuarter, rigid_turn, turn, e, sub_self, norm_zero]
    positivity
  · rw [exactQuarter, rigid_zero, show place (Rigid.iso quarter).vector = WithLp.toLp 2 ![1, 1, 0] by
      ext i
      fin_cases i <;> first | exact v0 | exact v1]
    rw [sub_self, norm_zero]
    exact hη

theorem exactQuarter_zero : ‖exactQuarter 0‖ ≤ 2 := by
  rw [exactQuarter, rigid_zero, EuclideanSpace.norm_eq, Fin.sum_univ_three]
  change Real.sqrt (‖(1 : ℝ)‖ ^ 2 + ‖(1 : ℝ)‖ ^ 2 + ‖(0 : ℝ)‖ ^ 2) ≤ 2
  rw [norm_one, norm_zero]
  exact Real.sqrt_le_iff.mpr (by norm_num)

/-- five such motions, two of them undone: `(q * q * (q * q)⁻¹) * q` -/
example : Follows (18 * 2 ^ (-49 : ℤ)) (240 * 2 ^ (-49 : ℤ))
    ((((Rigid.iso quarter).times (.iso quarter)).times ((Rigid.iso quarter).times (.iso quarter)).inverse).times (.iso quarter))
    (exactQuarter * exactQuarter * (exactQuarter * exactQuarter)⁻¹ * exactQuarter) := by
  have h := C89_motion (δ := 2 ^ (-49 : ℤ)) (ι := Unit)
    (.times (.times (.times (.given ()) (.given ())) (.inverse (.times (.given ()) (.given ())))) (.given ()))
    (fun _ => .iso quarter) (fun _ => exactQuarter) (fun _ => 2) le_rfl (by norm_num)
    (by simp only [Combination.moves, Combination.turns]; norm_num)
    (by
      simp only [Combination.reach, Combination.factors]
      have : (2 : ℝ) ^ (4 : ℤ) ≤ 2 ^ (520 : ℤ) := two_zpow_le_self_of_le (by norm_num)
      refine le_trans ?_ this
      norm_num)
    (fun _ _ => ⟨exactQuarter_zero, le_trans (two_zpow_le_self_of_le (j := -900) (k := 1) (by norm_num)) (by norm_num)⟩)
    (fun _ _ => quarter_near (by positivity) (by positivity))
  simp only [Combination.moves, Combination.turns, Combination.reach, Combination.factors] at h
  norm_num at h
  rw [show (18 : ℝ) * 2 ^ (-49 : ℤ) = 9 / 281474976710656 by norm_num,
    show (240 : ℝ) * 2 ^ (-49 : ℤ) = 15 / 35184372088832 by norm_num]
  exact h


end Cgl
