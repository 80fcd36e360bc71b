import Verif.Props.C86_Histories
import Verif.Props.C28_LookAt
import Verif.Props.C07_Cross
import Mathlib.Geometry.Euclidean.Angle.Unoriented.Basic

/-! # C87 - view rotations in `f64`

The look-to and look-at matrices of C28 computed in IEEE `f64`: the entries are finite and within a multiple of
`2 ^ -53 / sin θ` of those of the exact view rotation, where `θ` is the angle between the direction and the up vector. -/

namespace Cgl
open Ieee FloatFns Mat

namespace Spec

/-- the real vector with the components of `v` -/
noncomputable def realVec {n : ℕ} (v : Vec (Ieee f64) n) : Vec ℝ n := v.map Ieee.val

/-- every component is a finite number -/
def FiniteVec {n : ℕ} (v : Vec (Ieee f64) n) : Prop := ∀ i, (v.data i).Finite

end Spec

open Spec

/-! ### vectors as points of Euclidean space -/

variable {n : ℕ}

/-- a vector as a point of Euclidean space -/
noncomputable def toE (v : Vec ℝ n) : EuclideanSpace ℝ (Fin n) := WithLp.toLp 2 v.data

theorem toE_norm (v : Vec ℝ n) : ‖toE v‖ = v.norm := (Vec.norm_eq_euclidean v).symm
theorem toE_sub (v w : Vec ℝ n) : toE (v - w) = toE v - toE w := by ext i; simp [toE]
theorem toE_add (v w : Vec ℝ n) : toE (v + w) = toE v + toE w := by ext i; simp [toE]
theorem toE_neg (v : Vec ℝ n) : toE (-v) = -toE v := by ext i; simp [toE]
theorem toE_mulS (v : Vec ℝ n) (k : ℝ) : toE (v * k) = k • toE v := by ext i; simp [toE, mul_comm]
theorem toE_apply (v : Vec ℝ n) (i : Fin n) : toE v i = v.data i := rfl
theorem toE_injective : Function.Injective (toE (n := n)) := fun v w h => by
  ext i
  exact congrArg (fun x : EuclideanSpace ℝ (Fin n) => x i) h

theorem toE_normalize (v : Vec ℝ n) : toE v.normalize = dir (toE v) := by
  rw [Vec.normalize_def, toE_mulS, dir, toE_norm, one_div]

theorem length_eq (v : Vec (Ieee f64) n) : Spec.length v = ‖toE (realVec v)‖ := by
  rw [EuclideanSpace.norm_eq, Spec.length]
  congr 1
  exact Finset.sum_congr rfl fun i _ => (sq_abs _).symm

theorem comp_le (v : Vec ℝ n) (i : Fin n) : |v.data i| ≤ ‖toE v‖ := by
  have := PiLp.norm_apply_le (toE v) i
  rwa [Real.norm_eq_abs] at this

/-- a vector whose parts are bounded by multiples of those of another, up to a constant -/
theorem norm_le_of_parts {x y : EuclideanSpace ℝ (Fin n)} {a b : ℝ} (ha : 0 ≤ a) (hb : 0 ≤ b)
    (h : ∀ i, |x i| ≤ a * |y i| + b) : ‖x‖ ≤ a * ‖y‖ + n * b := by
  let z : EuclideanSpace ℝ (Fin n) := WithLp.toLp 2 fun i => a * |y i|
  let w : EuclideanSpace ℝ (Fin n) := WithLp.toLp 2 fun _ => b
  have h1 : ‖x‖ ≤ ‖z + w‖ := by
    rw [EuclideanSpace.norm_eq, EuclideanSpace.norm_eq]
    refine Real.sqrt_le_sqrt (Finset.sum_le_sum fun i _ => ?_)
    rw [Real.norm_eq_abs, Real.norm_eq_abs]
    exact pow_le_pow_left₀ (abs_nonneg _) ((h i).trans (le_abs_self ((z + w) i))) 2
  have h2 : ‖z‖ = a * ‖y‖ := by
    rw [EuclideanSpace.norm_eq, EuclideanSpace.norm_eq, ← Real.sqrt_sq ha, ← Real.sqrt_mul (sq_nonneg _), Finset.mul_sum]
    congr 1
    exact Finset.sum_congr rfl fun i _ => by
      simp only [z, Real.norm_eq_abs]
      rw [abs_mul, abs_abs, mul_pow, sq_abs a]
  have h3 : ‖w‖ ≤ n * b := by
    rw [EuclideanSpace.norm_eq]
    refine Real.sqrt_le_iff.mpr ⟨by positivity, ?_⟩
    simp only [w, Real.norm_eq_abs, sq_abs, Finset.sum_const, Finset.card_univ, Fintype.card_fin, nsmul_eq_mul]
    rcases Nat.eq_zero_or_pos n with h0 | h0
    · subst h0; simp
    · have : (1 : ℝ) ≤ n := by exact_mod_cast h0
      rw [mul_pow]
      nlinarith [sq_nonneg b, mul_nonneg (sub_nonneg.mpr this) (mul_nonneg (by linarith : (0 : ℝ) ≤ n) (sq_nonneg b))]
  exact h1.trans ((norm_add_le _ _).trans (by rw [h2]; linarith))

/-! ### one normalization and one cross product -/

theorem normalize_near [Lib f64] (v : Vec (Ieee f64) 3) (hv : FiniteVec v)
    (hlo : (2 : ℝ) ^ (-499 : ℤ) ≤ Spec.length v) (hhi : Spec.length v ≤ 2 ^ (510 : ℤ)) :
    FiniteVec v.normalize ∧ ‖toE (realVec v.normalize) - dir (toE (realVec v))‖ ≤ 10 * 2 ^ (-53 : ℤ) := by
  obtain ⟨-, -, hc, -⟩ := C84_vector_f64 (by norm_num) v hv hlo hhi
  refine ⟨fun i => (hc i).1, ?_⟩
  have hL : 0 < Spec.length v := lt_of_lt_of_le (by positivity) hlo
  have hx : toE (realVec v) ≠ 0 := by rw [← norm_pos_iff, ← length_eq]; exact hL
  have ht : f64.tiny ≤ 2 ^ (-60 : ℤ) := by
    rw [show f64.tiny = 2 ^ (-1075 : ℤ) from rfl]; exact two_zpow_le_self_of_le (by norm_num)
  have h := norm_le_of_parts (x := toE (realVec v.normalize) - dir (toE (realVec v))) (y := dir (toE (realVec v)))
    (a := 9 * 2 ^ (-53 : ℤ)) (b := 2 ^ (-60 : ℤ)) (by positivity) (by positivity) (fun i => by
      have e : (dir (toE (realVec v))) i = (v.data i).val / Spec.length v := by
        rw [length_eq, div_eq_inv_mul]; rfl
      have h := (hc i).2
      rw [PiLp.sub_apply, e]
      refine h.trans (add_le_add (le_of_eq ?_) ht)
      rw [show f64.u = 2 ^ (-53 : ℤ) from rfl]; norm_num)
  rw [dir_norm hx] at h
  refine h.trans ?_
  norm_num

theorem cross_le (v w : Vec ℝ 3) : ‖toE (v.cross w)‖ ≤ ‖toE v‖ * ‖toE w‖ := by
  refine abs_le_of_sq_le_sq' ?_ (by positivity) |>.2
  rw [mul_pow, toE_norm, toE_norm, toE_norm, Vec.norm_sq, Vec.norm_sq, Vec.norm_sq, C07_cross_norm_squared]
  nlinarith [mul_self_nonneg (v.dot w)]

theorem cross_sub_left (a b c : Vec ℝ 3) : toE (a.cross c) - toE (b.cross c) = toE ((a - b).cross c) := by
  rw [← toE_sub]; congr 1
  apply Vec.ext3 <;> simp [Vec.cross] <;> ring

theorem cross_sub_right (a b c : Vec ℝ 3) : toE (a.cross b) - toE (a.cross c) = toE (a.cross (b - c)) := by
  rw [← toE_sub]; congr 1
  apply Vec.ext3 <;> simp [Vec.cross] <;> ring

/-- two products of the components of two vectors -/
theorem two_products_le (v w : Vec ℝ 3) {i j : Fin 3} (hij : i ≠ j) :
    |v.data i| * |w.data j| + |v.data j| * |w.data i| ≤ ‖toE v‖ * ‖toE w‖ := by
  have sq : ∀ v : Vec ℝ 3, |v.data i| ^ 2 + |v.data j| ^ 2 ≤ ‖toE v‖ ^ 2 := fun v => by
    rw [toE_norm, Vec.norm_sq, Vec.normSquared, Vec.dot3, sq_abs, sq_abs]
    have h0 := mul_self_nonneg (v.data 0)
    have h1 := mul_self_nonneg (v.data 1)
    have h2 := mul_self_nonneg (v.data 2)
    fin_cases i <;> fin_cases j <;> first | exact absurd rfl hij | (simp; nlinarith)
  refine abs_le_of_sq_le_sq' ?_ (by positivity) |>.2
  rw [mul_pow]
  refine le_trans ?_ (mul_le_mul (sq v) (sq w) (by positivity) (by positivity))
  nlinarith [sq_nonneg (|v.data i| * |w.data i| - |v.data j| * |w.data j|)]

theorem cross_near (v w : Vec (Ieee f64) 3) {j k : ℤ} (hv : FiniteVec v) (hw : FiniteVec w)
    (h1 : ‖toE (realVec v)‖ ≤ 2 ^ j) (h2 : ‖toE (realVec w)‖ ≤ 2 ^ k) (hj : -1074 ≤ j + k) (hk : j + k ≤ 1022)
    (hlo : (2 : ℝ) ^ (-1000 : ℤ) ≤ ‖toE (realVec v)‖ * ‖toE (realVec w)‖) :
    FiniteVec (v.cross w) ∧ ‖toE (realVec (v.cross w)) - toE ((realVec v).cross (realVec w))‖ ≤
      7 * 2 ^ (-53 : ℤ) * (‖toE (realVec v)‖ * ‖toE (realVec w)‖) := by
  have a : ∀ i, Bd j (v.data i) := fun i => ⟨hv i, (comp_le (realVec v) i).trans h1⟩
  have b : ∀ i, Bd k (w.data i) := fun i => ⟨hw i, (comp_le (realVec w) i).trans h2⟩
  have m : ∀ i l, Bd (j + k) (v.data i * w.data l) := fun i l => (a i).mul (b l) hj (by omega)
  have fin : ∀ i l, (v.data i * w.data l - v.data l * w.data i).Finite := fun i l =>
    ((m i l).sub (m l i) (by omega) hk).1
  set N := ‖toE (realVec v)‖ * ‖toE (realVec w)‖ with hN
  have err : ∀ i l, i ≠ l → |(v.data i * w.data l - v.data l * w.data i).val -
      ((v.data i).val * (w.data l).val - (v.data l).val * (w.data i).val)| ≤ 7 / 3 * 2 ^ (-53 : ℤ) * N := by
    intro i l hil
    have hf := fin i l
    obtain ⟨f1, f2⟩ := finite_sub hf
    rw [val_sub hf, val_mul f1, val_mul f2]
    have h := ((NearT.prod (ρ := f64.toRounding) (v.data i).val (w.data l).val).sub
      (NearT.prod (v.data l).val (w.data i).val)).2
    refine h.trans ?_
    have hA := two_products_le (realVec v) (realVec w) hil
    change |(v.data i).val| * |(w.data l).val| + |(v.data l).val| * |(w.data i).val| ≤ N at hA
    rw [show f64.u = 2 ^ (-53 : ℤ) from rfl, show f64.tiny = 2 ^ (-1075 : ℤ) from rfl]
    have ht : (2 : ℝ) ^ (-1075 : ℤ) ≤ 2 ^ (-75 : ℤ) * N := by
      refine le_trans ?_ (mul_le_mul_of_nonneg_left hlo (by positivity))
      rw [← zpow_add₀ two_ne_zero]; norm_num
    have hN0 : 0 ≤ N := by positivity
    have c1 : ((1 : ℝ) + 2 ^ (-53 : ℤ)) ^ (max 1 1 + 1) - 1 ≤ 2.1 * 2 ^ (-53 : ℤ) := by norm_num
    have c2 : ((1 + 1 + 1 : ℕ) : ℝ) * (1 + 2 ^ (-53 : ℤ)) ^ (max 1 1 + 1) ≤ 4 := by norm_num
    have s1 := mul_le_mul c1 hA (by positivity) (by positivity)
    have s2 := mul_le_mul c2 ht (by positivity) (by norm_num)
    have s3 : (2.1 : ℝ) * 2 ^ (-53 : ℤ) * N + 4 * (2 ^ (-75 : ℤ) * N) ≤ 7 / 3 * 2 ^ (-53 : ℤ) * N := by
      rw [← mul_assoc 4, ← add_mul]
      exact mul_le_mul_of_nonneg_right (by norm_num) hN0
    exact (add_le_add s1 s2).trans s3
  have parts : ∀ i, |(toE (realVec (v.cross w)) - toE ((realVec v).cross (realVec w))) i| ≤
      7 / 3 * 2 ^ (-53 : ℤ) * N := by
    intro i
    fin_cases i
    · exact err 1 2 (by decide)
    · exact err 2 0 (by decide)
    · exact err 0 1 (by decide)
  refine ⟨fun i => by fin_cases i <;> [exact fin 1 2; exact fin 2 0; exact fin 0 1], ?_⟩
  have h := norm_le_of_parts (y := (0 : EuclideanSpace ℝ (Fin 3))) (a := 0) (b := 7 / 3 * 2 ^ (-53 : ℤ) * N) le_rfl
    (by positivity) (fun i => by rw [zero_mul, zero_add]; exact parts i)
  refine h.trans (le_of_eq ?_)
  rw [norm_zero]; push_cast; ring

/-! ### the frame of a view -/

theorem realVec_neg (v : Vec (Ieee f64) n) : realVec (-v) = -realVec v := by
  ext i
  simp only [realVec, Vec.map_data, Vec.neg_data, Ieee.val_neg]

theorem finite_neg_of {x : Ieee f64} (h : x.Finite) : (-x).Finite := by
  obtain ⟨s, m, hm, rfl⟩ := h
  exact finite_fin _ _ _

theorem norm_between {x y : EuclideanSpace ℝ (Fin n)} {e : ℝ} (h : ‖x - y‖ ≤ e) : ‖y‖ - e ≤ ‖x‖ ∧ ‖x‖ ≤ ‖y‖ + e := by
  have := abs_le.mp ((abs_norm_sub_norm_le x y).trans h)
  exact ⟨by linarith [this.1], by linarith [this.2]⟩

/-- The computed axes of a view whose third axis `z` is within `13 u` of the unit vector `w`; `s` is a lower bound of the
sine of the angle between `w` and the up vector. -/
theorem frame_near [Lib f64] {z up : Vec (Ieee f64) 3} {w : Vec ℝ 3} {s : ℝ} (hz : FiniteVec z) (hw : ‖toE w‖ = 1)
    (hzw : ‖toE (realVec z) - toE w‖ ≤ 13 * 2 ^ (-53 : ℤ)) (hu : FiniteVec up)
    (hlo : (2 : ℝ) ^ (-240 : ℤ) ≤ ‖toE (realVec up)‖) (hhi : ‖toE (realVec up)‖ ≤ 2 ^ (240 : ℤ))
    (hs : (2 : ℝ) ^ (-40 : ℤ) ≤ s) (hsin : s * ‖toE (realVec up)‖ ≤ ‖toE ((realVec up).cross w)‖) :
    FiniteVec (up.cross z).normalize ∧ FiniteVec (z.cross (up.cross z).normalize).normalize ∧
    ‖toE (realVec (up.cross z).normalize) - toE ((realVec up).cross w).normalize‖ ≤ 52 * (2 ^ (-53 : ℤ) / s) ∧
    ‖toE (realVec (z.cross (up.cross z).normalize).normalize) -
      toE (w.cross ((realVec up).cross w).normalize).normalize‖ ≤ 156 * (2 ^ (-53 : ℤ) / s) ∧
    s ≤ 1 := by
  have hs0 : 0 < s := lt_of_lt_of_le (by positivity) hs
  set U := ‖toE (realVec up)‖ with hU
  have hU0 : 0 < U := lt_of_lt_of_le (by positivity) hlo
  have hs1 : s ≤ 1 := by
    have := hsin.trans (cross_le _ _)
    rw [hw, mul_one, ← hU] at this
    exact le_of_mul_le_mul_right (by linarith) hU0
  set u : ℝ := 2 ^ (-53 : ℤ) with hud
  have hu0 : 0 < u := by positivity
  have hu1 : u ≤ 1 / 2 ^ 53 := by rw [hud]; norm_num
  set e := u / s with he
  have hue : u ≤ e := by rw [he, le_div_iff₀ hs0]; nlinarith
  have he1 : e ≤ 1 / 2 ^ 13 := by
    rw [he, div_le_iff₀ hs0]
    have : (1 : ℝ) / 2 ^ 13 * 2 ^ (-40 : ℤ) ≤ 1 / 2 ^ 13 * s := mul_le_mul_of_nonneg_left hs (by positivity)
    refine le_trans ?_ this
    rw [hud]; norm_num
  have hes : e * s = u := by rw [he]; field_simp
  have he0 : 0 < e := by positivity
  clear_value e u
  obtain ⟨zl, zh⟩ := norm_between hzw
  rw [hw] at zl zh
  set Z := ‖toE (realVec z)‖ with hZ
  have hZ2 : Z ≤ 2 := by linarith
  have hZ1 : 1 / 2 ≤ Z := by linarith
  have p1 : (2 : ℝ) ^ (1 : ℤ) = 2 := by norm_num
  -- the cross product of the up vector and the third axis
  have low : (2 : ℝ) ^ (-1000 : ℤ) ≤ U * Z := by
    calc (2 : ℝ) ^ (-1000 : ℤ) ≤ 2 ^ (-240 : ℤ) * 2 ^ (-1 : ℤ) := by
          rw [← zpow_add₀ two_ne_zero]; exact two_zpow_le_self_of_le (by norm_num)
      _ ≤ U * Z := mul_le_mul hlo (by rw [zpow_neg_one]; linarith) (by positivity) hU0.le
  obtain ⟨fc, ec⟩ := cross_near up z (j := 240) (k := 1) hu hz hhi (by rw [p1]; exact hZ2) (by norm_num) (by norm_num) low
  rw [← hU, ← hZ, ← hud] at ec
  set c := toE (realVec (up.cross z)) with hc
  set C := toE ((realVec up).cross w) with hC
  have hCpos : 0 < ‖C‖ := lt_of_lt_of_le (by positivity) hsin
  have hC0 : C ≠ 0 := norm_pos_iff.mp hCpos
  have hCU : ‖C‖ ≤ U := by have := cross_le (realVec up) w; rwa [hw, mul_one] at this
  have ec' : ‖c - C‖ ≤ 21 * e * ‖C‖ := by
    have h1 : ‖toE ((realVec up).cross (realVec z)) - C‖ ≤ U * (13 * u) := by
      rw [hC, cross_sub_right]
      refine (cross_le _ _).trans ?_
      rw [toE_sub]
      exact mul_le_mul_of_nonneg_left hzw hU0.le
    have h2 : U * u ≤ e * ‖C‖ := by
      calc U * u = e * (s * U) := by rw [← hes]; ring
        _ ≤ _ := mul_le_mul_of_nonneg_left hsin he0.le
    have h3 := (norm_sub_le_norm_sub_add_norm_sub c (toE ((realVec up).cross (realVec z))) C).trans (add_le_add ec h1)
    refine h3.trans ?_
    have h4 : 7 * u * (U * Z) + U * (13 * u) = (7 * Z + 13) * (U * u) := by ring
    rw [h4]
    have h5 : 7 * Z + 13 ≤ 21 := by linarith
    calc (7 * Z + 13) * (U * u) ≤ 21 * (U * u) := mul_le_mul_of_nonneg_right h5 (by positivity)
      _ ≤ 21 * (e * ‖C‖) := by linarith
      _ = _ := by ring
  obtain ⟨cl, ch⟩ := norm_between ec'
  have c21 : 21 * e * ‖C‖ ≤ 1 / 2 * ‖C‖ := mul_le_mul_of_nonneg_right (by linarith) hCpos.le
  have lc : Spec.length (up.cross z) = ‖c‖ := length_eq _
  have clo : (2 : ℝ) ^ (-499 : ℤ) ≤ ‖c‖ := by
    have h1 : (2 : ℝ) ^ (-280 : ℤ) ≤ ‖C‖ := by
      refine le_trans ?_ hsin
      calc (2 : ℝ) ^ (-280 : ℤ) = 2 ^ (-40 : ℤ) * 2 ^ (-240 : ℤ) := by rw [← zpow_add₀ two_ne_zero]; norm_num
        _ ≤ _ := mul_le_mul hs hlo (by positivity) hs0.le
    have h2 : (2 : ℝ) ^ (-499 : ℤ) ≤ 1 / 2 * 2 ^ (-280 : ℤ) := by
      rw [show (1 / 2 : ℝ) = 2 ^ (-1 : ℤ) by norm_num, ← zpow_add₀ two_ne_zero]
      exact two_zpow_le_self_of_le (by norm_num)
    exact below_of (by linarith) c21 h2 h1
  have chi : ‖c‖ ≤ (2 : ℝ) ^ (510 : ℤ) := by
    have h2 : (2 : ℝ) * 2 ^ (240 : ℤ) ≤ 2 ^ (510 : ℤ) := by
      rw [show (2 : ℝ) * 2 ^ (240 : ℤ) = 2 ^ (241 : ℤ) by rw [mul_comm, ← zpow_add_one₀ two_ne_zero]; norm_num]
      exact two_zpow_le_self_of_le (by norm_num)
    exact above_of (by linarith) c21 (hCU.trans hhi) h2 hCpos.le
  obtain ⟨fx, ex⟩ := normalize_near (up.cross z) fc (by rw [lc]; exact clo) (by rw [lc]; exact chi)
  rw [← hc, ← hud] at ex
  have dx := dir_close hC0 ec'
  set x := (up.cross z).normalize with hx
  set X := ((realVec up).cross w).normalize with hX
  have eX : toE X = dir C := toE_normalize _
  have ex' : ‖toE (realVec x) - toE X‖ ≤ 52 * e := by
    rw [eX]
    refine (norm_sub_le_norm_sub_add_norm_sub _ (dir c) _).trans ((add_le_add ex dx).trans ?_)
    linarith
  -- the second axis
  have hX1 : ‖toE X‖ = 1 := by rw [eX]; exact dir_norm hC0
  obtain ⟨xl, xh⟩ := norm_between ex'
  rw [hX1] at xl xh
  set N := ‖toE (realVec x)‖ with hN
  have hN2 : N ≤ 2 := by linarith
  have hN1 : 1 / 2 ≤ N := by linarith
  have low' : (2 : ℝ) ^ (-1000 : ℤ) ≤ Z * N := by
    calc (2 : ℝ) ^ (-1000 : ℤ) ≤ 2 ^ (-2 : ℤ) := two_zpow_le_self_of_le (by norm_num)
      _ = 1 / 2 * (1 / 2) := by norm_num
      _ ≤ _ := mul_le_mul hZ1 hN1 (by norm_num) (by linarith)
  obtain ⟨fd, ed⟩ := cross_near z x (j := 1) (k := 1) hz fx (by rw [p1]; exact hZ2) (by rw [p1]; exact hN2) (by norm_num)
    (by norm_num) low'
  rw [← hZ, ← hN, ← hud] at ed
  set d := toE (realVec (z.cross x)) with hd
  set D := toE (w.cross X) with hD
  have hD1 : ‖D‖ = 1 := by
    have h0 : w.dot X = 0 := by
      have h := (C07_cross_orthogonal (realVec up) w).2
      rw [hX, Vec.normalize_def]
      simp only [Vec.dot3] at h ⊢
      simp only [Vec.mulS_data]
      linear_combination (1 / ((realVec up).cross w).norm) * h
    have h := C07_cross_norm_squared w X
    rw [h0, mul_zero, sub_zero] at h
    have hw2 : w.normSquared = 1 := by rw [← Vec.norm_sq, ← toE_norm, hw, one_pow]
    have hX2 : X.normSquared = 1 := by rw [← Vec.norm_sq, ← toE_norm, hX1, one_pow]
    rw [hD, toE_norm, Vec.norm_def, h, hw2, hX2, one_mul, Real.sqrt_one]
  have hD0 : D ≠ 0 := by rw [← norm_pos_iff, hD1]; exact one_pos
  have ed' : ‖d - D‖ ≤ 73 * e * ‖D‖ := by
    have h1 : ‖toE ((realVec z).cross (realVec x)) - toE (w.cross (realVec x))‖ ≤ 13 * u * N := by
      rw [cross_sub_left]
      refine (cross_le _ _).trans ?_
      rw [toE_sub]
      exact mul_le_mul_of_nonneg_right hzw (by linarith)
    have h2 : ‖toE (w.cross (realVec x)) - D‖ ≤ 52 * e := by
      rw [hD, cross_sub_right]
      refine (cross_le _ _).trans ?_
      rw [toE_sub, hw, one_mul]
      exact ex'
    have h3 := norm_sub_le_norm_sub_add_norm_sub d (toE ((realVec z).cross (realVec x))) D
    have h4 := norm_sub_le_norm_sub_add_norm_sub (toE ((realVec z).cross (realVec x))) (toE (w.cross (realVec x))) D
    rw [hD1, mul_one]
    have hN3 : N ≤ 1.01 := by linarith
    have hZ3 : Z ≤ 1.01 := by linarith
    have h5 : 7 * u * (Z * N) ≤ 7.2 * e := by
      have : Z * N ≤ 1.01 * 1.01 := mul_le_mul hZ3 hN3 (by linarith) (by norm_num)
      calc 7 * u * (Z * N) ≤ 7 * u * (1.01 * 1.01) := mul_le_mul_of_nonneg_left this (by positivity)
        _ = 7.1407 * u := by ring
        _ ≤ 7.2 * e := by linarith only [hue, he0, hu0]
    have h6 : 13 * u * N ≤ 13.2 * e := by
      calc 13 * u * N ≤ 13 * u * 1.01 := mul_le_mul_of_nonneg_left hN3 (by positivity)
        _ ≤ 13.2 * e := by linarith
    linarith
  obtain ⟨dl, dh⟩ := norm_between ed'
  rw [hD1, mul_one] at dl dh
  have ld : Spec.length (z.cross x) = ‖d‖ := length_eq _
  obtain ⟨fy, ey⟩ := normalize_near (z.cross x) fd (by
      rw [ld]
      calc (2 : ℝ) ^ (-499 : ℤ) ≤ 2 ^ (-1 : ℤ) := two_zpow_le_self_of_le (by norm_num)
        _ ≤ ‖d‖ := by rw [zpow_neg_one]; linarith) (by
      rw [ld]
      calc ‖d‖ ≤ 2 ^ (1 : ℤ) := by rw [p1]; linarith
        _ ≤ _ := two_zpow_le_self_of_le (by norm_num))
  rw [← hd, ← hud] at ey
  have dy := dir_close hD0 ed'
  refine ⟨fx, fy, ex', ?_, hs1⟩
  rw [toE_normalize, ← hD]
  refine (norm_sub_le_norm_sub_add_norm_sub _ (dir d) _).trans ((add_le_add ey dy).trans ?_)
  linarith

/-! ### the directions a view can be computed from -/

namespace Spec

/-- A direction and an up vector whose lengths are neither tiny nor huge and whose angle has a sine of at least `s`. -/
structure Sight (direction up : Vec ℝ 3) (s : ℝ) : Prop where
  direction_ge : (2 : ℝ) ^ (-240 : ℤ) ≤ ‖toE direction‖
  direction_le : ‖toE direction‖ ≤ 2 ^ (240 : ℤ)
  up_ge : (2 : ℝ) ^ (-240 : ℤ) ≤ ‖toE up‖
  up_le : ‖toE up‖ ≤ 2 ^ (240 : ℤ)
  sine_ge : s ≤ Real.sin (InnerProductGeometry.angle (toE up) (toE direction))
  ge : (2 : ℝ) ^ (-40 : ℤ) ≤ s

/-- the real point with the coordinates of `p` -/
noncomputable def realPt {n : ℕ} (p : Pt (Ieee f64) n) : Pt ℝ n := ⟨realVec p.coords⟩

/-- every entry of the computed matrix is a finite number within `ε` of the entry of the exact one -/
def Near {R C : ℕ} (M : Mat (Ieee f64) R C) (X : Mat ℝ R C) (ε : ℝ) : Prop :=
  ∀ c r, (M.data c r).Finite ∧ |(M.data c r).val - X.data c r| ≤ ε

/-- the same with an error for every column -/
def NearCols {R C : ℕ} (M : Mat (Ieee f64) R C) (X : Mat ℝ R C) (ε : Fin C → ℝ) : Prop :=
  ∀ c r, (M.data c r).Finite ∧ |(M.data c r).val - X.data c r| ≤ ε c

/-- The errors of the columns of a view matrix in four dimensions: the last column holds the offsets of an eye that is
`distance` from the origin. -/
noncomputable def viewError (s distance : ℝ) : Fin 4 → ℝ :=
  ![156 * 2 ^ (-53 : ℤ) / s, 156 * 2 ^ (-53 : ℤ) / s, 156 * 2 ^ (-53 : ℤ) / s,
    161 * 2 ^ (-53 : ℤ) / s * distance + 2 ^ (-1000 : ℤ)]

end Spec

theorem inner_toE (v w : Vec ℝ n) : inner ℝ (toE v) (toE w) = v.dot w := by
  rw [Vec.dot_eq_sum, PiLp.inner_apply]
  exact Finset.sum_congr rfl fun i _ => mul_comm _ _

theorem Spec.Sight.cross {d up : Vec ℝ 3} {s : ℝ} (h : Sight d up s) : s * (‖toE up‖ * ‖toE d‖) ≤ ‖toE (up.cross d)‖ := by
  have e : ‖toE (up.cross d)‖ = Real.sin (InnerProductGeometry.angle (toE up) (toE d)) * (‖toE up‖ * ‖toE d‖) := by
    rw [InnerProductGeometry.sin_angle_mul_norm_mul_norm, real_inner_self_eq_norm_sq, real_inner_self_eq_norm_sq, toE_norm,
      toE_norm, toE_norm, Vec.norm_def, C07_cross_norm_squared, Vec.norm_sq, Vec.norm_sq]
    congr 2
    rw [inner_toE]
  rw [e]
  exact mul_le_mul_of_nonneg_right h.sine_ge (by positivity)

theorem Spec.Sight.neg {d up : Vec ℝ 3} {s : ℝ} (h : Sight d up s) : Sight (-d) up s where
  direction_ge := by rw [toE_neg, norm_neg]; exact h.direction_ge
  direction_le := by rw [toE_neg, norm_neg]; exact h.direction_le
  up_ge := h.up_ge
  up_le := h.up_le
  sine_ge := by rw [toE_neg, InnerProductGeometry.angle_neg_right, Real.sin_pi_sub]; exact h.sine_ge
  ge := h.ge

/-- the normalized direction, the direction being known up to a rounding -/
theorem third_axis [Lib f64] {d : Vec (Ieee f64) 3} {D up : Vec ℝ 3} {s : ℝ} (h : Sight D up s) (hd : FiniteVec d)
    (he : ‖toE (realVec d) - toE D‖ ≤ 3 / 2 * 2 ^ (-53 : ℤ) * ‖toE D‖) :
    FiniteVec d.normalize ∧ ‖toE (realVec d.normalize) - toE D.normalize‖ ≤ 13 * 2 ^ (-53 : ℤ) := by
  have hD := lt_of_lt_of_le (show (0 : ℝ) < 2 ^ (-240 : ℤ) by positivity) h.direction_ge
  obtain ⟨l, u⟩ := norm_between he
  have c2 : 3 / 2 * (2 : ℝ) ^ (-53 : ℤ) * ‖toE D‖ ≤ 1 / 2 * ‖toE D‖ := mul_le_mul_of_nonneg_right (by norm_num) hD.le
  obtain ⟨f, e⟩ := normalize_near d hd (by
      rw [length_eq]
      refine below_of (by linarith) c2 ?_ h.direction_ge
      rw [show (1 / 2 : ℝ) = 2 ^ (-1 : ℤ) by norm_num, ← zpow_add₀ two_ne_zero]
      exact two_zpow_le_self_of_le (by norm_num)) (by
      rw [length_eq]
      refine above_of (by linarith) c2 h.direction_le ?_ hD.le
      rw [show (2 : ℝ) * 2 ^ (240 : ℤ) = 2 ^ (241 : ℤ) by rw [mul_comm, ← zpow_add_one₀ two_ne_zero]; norm_num]
      exact two_zpow_le_self_of_le (by norm_num))
  refine ⟨f, ?_⟩
  rw [toE_normalize]
  refine (norm_sub_le_norm_sub_add_norm_sub _ _ _).trans ((add_le_add e (dir_close (norm_pos_iff.mp hD) he)).trans ?_)
  norm_num

/-- computed and exact axes -/
structure Axes (z x y : Vec (Ieee f64) 3) (Z X Y : Vec ℝ 3) (ε : ℝ) : Prop where
  fz : FiniteVec z
  fx : FiniteVec x
  fy : FiniteVec y
  ez : ‖toE (realVec z) - toE Z‖ ≤ ε
  ex : ‖toE (realVec x) - toE X‖ ≤ ε
  ey : ‖toE (realVec y) - toE Y‖ ≤ ε
  nz : ‖toE Z‖ ≤ 1
  nx : ‖toE X‖ ≤ 1
  ny : ‖toE Y‖ ≤ 1
  small : ε ≤ 1 / 16
  large : 156 * 2 ^ (-53 : ℤ) ≤ ε

theorem axes_of [Lib f64] {z up : Vec (Ieee f64) 3} {w D : Vec ℝ 3} {s : ℝ} (h : Sight D (realVec up) s) (hu : FiniteVec up)
    (hz : FiniteVec z) (hzw : ‖toE (realVec z) - toE w‖ ≤ 13 * 2 ^ (-53 : ℤ)) (hw : w = D.normalize ∨ w = -D.normalize) :
    Axes z (up.cross z).normalize (z.cross (up.cross z).normalize).normalize
      w ((realVec up).cross w).normalize (w.cross ((realVec up).cross w).normalize).normalize (156 * 2 ^ (-53 : ℤ) / s) := by
  have hD := lt_of_lt_of_le (show (0 : ℝ) < 2 ^ (-240 : ℤ) by positivity) h.direction_ge
  have hs0 : 0 < s := lt_of_lt_of_le (by positivity) h.ge
  have n1 : ‖toE D.normalize‖ = 1 := by rw [toE_normalize]; exact dir_norm (norm_pos_iff.mp hD)
  have hw1 : ‖toE w‖ = 1 := by
    rcases hw with rfl | rfl
    · exact n1
    · rw [toE_neg, norm_neg]; exact n1
  have hc : ‖toE ((realVec up).cross D.normalize)‖ = ‖toE ((realVec up).cross D)‖ / ‖toE D‖ := by
    have : (realVec up).cross D.normalize = (realVec up).cross D * (1 / D.norm) := by
      rw [Vec.normalize_def]
      ext i; fin_cases i <;> simp [Vec.cross] <;> ring
    rw [this, toE_mulS, norm_smul, toE_norm D, Real.norm_eq_abs, abs_of_nonneg (by rw [← toE_norm]; positivity)]
    ring
  have hsin : s * ‖toE (realVec up)‖ ≤ ‖toE ((realVec up).cross w)‖ := by
    have h1 : s * ‖toE (realVec up)‖ ≤ ‖toE ((realVec up).cross D.normalize)‖ := by
      rw [hc, le_div_iff₀ hD, mul_assoc]
      exact h.cross
    rcases hw with rfl | rfl
    · exact h1
    · have : (realVec up).cross (-D.normalize) = -(realVec up).cross D.normalize := by
        ext i; fin_cases i <;> simp [Vec.cross] <;> ring
      rw [this, toE_neg, norm_neg]; exact h1
  obtain ⟨fx, fy, ex, ey, hs1⟩ := frame_near hz hw1 hzw hu h.up_ge h.up_le h.ge hsin
  have hue : (2 : ℝ) ^ (-53 : ℤ) ≤ 2 ^ (-53 : ℤ) / s := by
    rw [le_div_iff₀ hs0]
    exact mul_le_of_le_one_right (by positivity) hs1
  have hpos : (0 : ℝ) < 2 ^ (-53 : ℤ) / s := by positivity
  have he : 2 ^ (-53 : ℤ) / s ≤ 1 / 2 ^ 13 := by
    rw [div_le_iff₀ hs0]
    calc (2 : ℝ) ^ (-53 : ℤ) = 1 / 2 ^ 13 * 2 ^ (-40 : ℤ) := by norm_num
      _ ≤ _ := mul_le_mul_of_nonneg_left h.ge (by positivity)
  rw [mul_div_assoc]
  have hlarge : 156 * (2 : ℝ) ^ (-53 : ℤ) ≤ 156 * (2 ^ (-53 : ℤ) / s) := mul_le_mul_of_nonneg_left hue (by norm_num)
  have hz' : ‖toE (realVec z) - toE w‖ ≤ 156 * (2 ^ (-53 : ℤ) / s) :=
    hzw.trans ((mul_le_mul_of_nonneg_right (by norm_num) (by positivity)).trans hlarge)
  generalize (2 : ℝ) ^ (-53 : ℤ) / s = e at *
  exact ⟨hz, fx, fy, hz', by linarith, ey, hw1.le, by rw [toE_normalize]; exact dir_norm_le _,
    by rw [toE_normalize]; exact dir_norm_le _, by linarith, hlarge⟩

theorem part_near {v : Vec (Ieee f64) n} {V : Vec ℝ n} {ε : ℝ} (hf : FiniteVec v) (h : ‖toE (realVec v) - toE V‖ ≤ ε) (i : Fin n) :
    (v.data i).Finite ∧ |(v.data i).val - V.data i| ≤ ε := by
  refine ⟨hf i, le_trans ?_ h⟩
  have := comp_le (realVec v - V) i
  rwa [toE_sub, Vec.sub_data] at this

/-- the offset of the eye along a computed axis -/
theorem offset_near {x : Vec (Ieee f64) 3} {X : Vec ℝ 3} {ε : ℝ} (eye : Pt (Ieee f64) 3) (he : FiniteVec eye.coords)
    (hle : ‖toE (realVec eye.coords)‖ ≤ 2 ^ (500 : ℤ)) (hf : FiniteVec x) (h : ‖toE (realVec x) - toE X‖ ≤ ε)
    (hX : ‖toE X‖ ≤ 1) (h1 : ε ≤ 1 / 16) (h2 : 156 * 2 ^ (-53 : ℤ) ≤ ε) :
    ((eye - (Pt.origin : Pt (Ieee f64) 3)).dot x).Finite ∧
    |((eye - (Pt.origin : Pt (Ieee f64) 3)).dot x).val - (realVec eye.coords).dot X| ≤
      33 / 32 * ε * ‖toE (realVec eye.coords)‖ + 2 ^ (-1000 : ℤ) := by
  have e0 : ∀ i, ((eye - (Pt.origin : Pt (Ieee f64) 3)).data i).Finite ∧
      ((eye - (Pt.origin : Pt (Ieee f64) 3)).data i).val = (eye.coords.data i).val := fun i => by
    have hs : (eye - (Pt.origin : Pt (Ieee f64) 3)).data i = eye.coords.data i - 0 := by simp
    have hv : f64.fl ((eye.coords.data i).val - (0 : Ieee f64).val) = (eye.coords.data i).val := by
      rw [show (0 : Ieee f64).val = 0 from rfl, sub_zero]; exact val_rep _
    have hF : (eye.coords.data i - (0 : Ieee f64)).Finite := by
      have hb : Bd 500 (eye.coords.data i) := ⟨he i, (comp_le (realVec eye.coords) i).trans hle⟩
      exact (hb.sub Bd.zero).1
    rw [hs]
    exact ⟨hF, by rw [val_sub hF]; exact hv⟩
  set v := eye - (Pt.origin : Pt (Ieee f64) 3) with hvd
  have hreal : realVec v = realVec eye.coords := by
    ext i
    exact (e0 i).2
  have hv500 : ∀ i, Bd 500 (v.data i) := fun i =>
    ⟨(e0 i).1, by rw [(e0 i).2]; exact (comp_le (realVec eye.coords) i).trans hle⟩
  obtain ⟨xl, xh⟩ := norm_between h
  have hN : ‖toE (realVec x)‖ ≤ 17 / 16 := by linarith
  have hx1 : ∀ i, Bd 1 (x.data i) := fun i => ⟨hf i, (comp_le (realVec x) i).trans (by rw [zpow_one]; linarith)⟩
  have hF : (v.dot x).Finite := by
    have hp : ∀ i, Bd 501 (v.data i * x.data i) := fun i => (hv500 i).mul (hx1 i)
    exact (((Bd.zero.add (hp 0)).add ((hp 1).mono (by norm_num))).add ((hp 2).mono (by norm_num))).1
  refine ⟨hF, ?_⟩
  have hE := C67_ieee_dot_error v x hF
  have hsum : ∑ i, (v.data i).val * (x.data i).val = (realVec eye.coords).dot (realVec x) := by
    rw [← hreal, Vec.dot_eq_sum]; rfl
  have habs : ∑ i, |(v.data i).val| * |(x.data i).val| ≤ ‖toE (realVec eye.coords)‖ * ‖toE (realVec x)‖ := by
    rw [← hreal, EuclideanSpace.norm_eq, EuclideanSpace.norm_eq]
    exact Real.sum_mul_le_sqrt_mul_sqrt _ _ _
  have hdot : |(realVec eye.coords).dot (realVec x) - (realVec eye.coords).dot X| ≤ ‖toE (realVec eye.coords)‖ * ε := by
    have : (realVec eye.coords).dot (realVec x) - (realVec eye.coords).dot X =
        inner ℝ (toE (realVec eye.coords)) (toE (realVec x) - toE X) := by
      rw [inner_sub_right, inner_toE, inner_toE]
    rw [this]
    exact (abs_real_inner_le_norm _ _).trans (mul_le_mul_of_nonneg_left h (norm_nonneg _))
  rw [hsum] at hE
  set E := ‖toE (realVec eye.coords)‖ with hEd
  have hE0 : 0 ≤ E := norm_nonneg _
  have hu : f64.u = 2 ^ (-53 : ℤ) := rfl
  have k1 : (1 + f64.u) ^ 3 - 1 ≤ 3.1 * 2 ^ (-53 : ℤ) := by rw [hu]; norm_num
  have k2 : 2 * ((3 : ℕ) : ℝ) * (1 + f64.u) ^ 3 * f64.tiny ≤ 2 ^ (-1000 : ℤ) := by
    rw [hu, show f64.tiny = 2 ^ (-75 : ℤ) * 2 ^ (-1000 : ℤ) by
      rw [← zpow_add₀ two_ne_zero]; rfl, ← mul_assoc]
    exact mul_le_of_le_one_left (by positivity) (by norm_num)
  have k3 : ((1 + f64.u) ^ 3 - 1) * (∑ i, |(v.data i).val| * |(x.data i).val|) ≤ 1 / 32 * ε * E := by
    calc _ ≤ 3.1 * 2 ^ (-53 : ℤ) * (E * ‖toE (realVec x)‖) :=
          mul_le_mul k1 habs (Finset.sum_nonneg fun i _ => by positivity) (by positivity)
      _ ≤ 3.1 * 2 ^ (-53 : ℤ) * (E * (17 / 16)) := by gcongr
      _ = 3.29375 / 156 * (156 * 2 ^ (-53 : ℤ)) * E := by ring
      _ ≤ 3.29375 / 156 * ε * E := by gcongr
      _ ≤ _ := by
        have : 0 ≤ ε := le_trans (by positivity) h2
        exact mul_le_mul_of_nonneg_right (mul_le_mul_of_nonneg_right (by norm_num) this) hE0
  have tri := abs_sub_le (v.dot x).val ((realVec eye.coords).dot (realVec x)) ((realVec eye.coords).dot X)
  have := hE.trans (add_le_add k3 k2)
  linarith

/-! ### the matrices -/

theorem lookToLh3_near [Lib f64] {d up : Vec (Ieee f64) 3} {D : Vec ℝ 3} {s : ℝ} (h : Sight D (realVec up) s)
    (hd : FiniteVec d) (hu : FiniteVec up) (he : ‖toE (realVec d) - toE D‖ ≤ 3 / 2 * 2 ^ (-53 : ℤ) * ‖toE D‖) :
    Near (lookToLh3 d up) (lookToLh3 D (realVec up)) (156 * 2 ^ (-53 : ℤ) / s) := by
  obtain ⟨fz, ez⟩ := third_axis h hd he
  have a := axes_of h hu fz ez (.inl rfl)
  have hx := part_near a.fx a.ex
  have hy := part_near a.fy a.ey
  have hz := part_near a.fz a.ez
  intro c r
  fin_cases c <;> fin_cases r
  exacts [hx 0, hy 0, hz 0, hx 1, hy 1, hz 1, hx 2, hy 2, hz 2]

theorem lookToRh3_near [Lib f64] {d up : Vec (Ieee f64) 3} {D : Vec ℝ 3} {s : ℝ} (h : Sight D (realVec up) s)
    (hd : FiniteVec d) (hu : FiniteVec up) (he : ‖toE (realVec d) - toE D‖ ≤ 3 / 2 * 2 ^ (-53 : ℤ) * ‖toE D‖) :
    Near (lookToRh3 d up) (lookToRh3 D (realVec up)) (156 * 2 ^ (-53 : ℤ) / s) := by
  obtain ⟨fz, ez⟩ := third_axis h hd he
  have a := axes_of (z := -d.normalize) (w := -D.normalize) h hu (fun i => by rw [Vec.neg_data]; exact finite_neg_of (fz i))
    (by rw [realVec_neg, toE_neg, toE_neg, neg_sub_neg, norm_sub_rev]; exact ez) (.inr rfl)
  have hx := part_near a.fx a.ex
  have hy := part_near a.fy a.ey
  have hz := part_near a.fz a.ez
  intro c r
  fin_cases c <;> fin_cases r
  exacts [hx 0, hy 0, hz 0, hx 1, hy 1, hz 1, hx 2, hy 2, hz 2]

theorem Spec.Near.transpose {M : Mat (Ieee f64) n n} {X : Mat ℝ n n} {ε : ℝ} (h : Near M X ε) : Near M.transpose X.transpose ε :=
  fun c r => by rw [Mat.transpose_data, Mat.transpose_data]; exact h r c

theorem exact_direction (d : Vec (Ieee f64) 3) : ‖toE (realVec d) - toE (realVec d)‖ ≤ 3 / 2 * 2 ^ (-53 : ℤ) * ‖toE (realVec d)‖ := by
  rw [sub_self, norm_zero]; positivity

theorem neg_direction {d : Vec (Ieee f64) 3} {D : Vec ℝ 3} (he : ‖toE (realVec d) - toE D‖ ≤ 3 / 2 * 2 ^ (-53 : ℤ) * ‖toE D‖) :
    ‖toE (realVec (-d)) - toE (-D)‖ ≤ 3 / 2 * 2 ^ (-53 : ℤ) * ‖toE (-D)‖ := by
  rw [realVec_neg, toE_neg, toE_neg, neg_sub_neg, norm_sub_rev, norm_neg]; exact he

theorem finiteVec_neg {d : Vec (Ieee f64) n} (hd : FiniteVec d) : FiniteVec (-d) :=
  fun i => by rw [Vec.neg_data]; exact finite_neg_of (hd i)

/-- the direction from the eye to the target -/
theorem difference_near {eye target : Pt (Ieee f64) 3} {up : Vec ℝ 3} {s : ℝ} (he : FiniteVec eye.coords) (ht : FiniteVec target.coords)
    (h : Sight (realVec target.coords - realVec eye.coords) up s) :
    FiniteVec (target - eye) ∧ ‖toE (realVec (target - eye)) - toE (realVec target.coords - realVec eye.coords)‖ ≤
      3 / 2 * 2 ^ (-53 : ℤ) * ‖toE (realVec target.coords - realVec eye.coords)‖ := by
  set D := realVec target.coords - realVec eye.coords with hD
  have e : ∀ i, D.data i = (target.coords.data i).val - (eye.coords.data i).val := fun i => by rw [hD, Vec.sub_data]; rfl
  have hf : FiniteVec (target - eye) := fun i => by
    rw [Pt.sub_eq, Vec.sub_data]
    change (target.coords.data i + -eye.coords.data i).Finite
    refine finite_add_of (ht i) (finite_neg_of (he i)) ?_
    rw [Ieee.val_neg, ← sub_eq_add_neg, ← e]
    exact (fl_le_pow (k := 240) (by norm_num) ((comp_le D i).trans h.direction_le)).trans (two_zpow_le_big (by norm_num))
  refine ⟨hf, ?_⟩
  have h1 := norm_le_of_parts (x := toE (realVec (target - eye)) - toE D) (y := toE D) (a := 2 ^ (-53 : ℤ)) (b := 2 ^ (-1075 : ℤ))
    (by positivity) (by positivity) fun i => by
      have hi := hf i
      have hv : ((target - eye : Vec (Ieee f64) 3).data i).val = f64.fl (D.data i) := by
        rw [Pt.sub_eq, Vec.sub_data] at hi ⊢
        rw [val_sub hi, e]
      have := f64.err (D.data i)
      rw [← hv] at this
      exact this
  refine h1.trans ?_
  have : ((3 : ℕ) : ℝ) * 2 ^ (-1075 : ℤ) ≤ 1 / 2 * 2 ^ (-53 : ℤ) * ‖toE D‖ := by
    calc ((3 : ℕ) : ℝ) * 2 ^ (-1075 : ℤ) ≤ 2 ^ (2 : ℤ) * 2 ^ (-1075 : ℤ) := by gcongr; norm_num
      _ ≤ 2 ^ (-294 : ℤ) := by rw [← zpow_add₀ two_ne_zero]; exact two_zpow_le_self_of_le (by norm_num)
      _ = 2 ^ (-1 : ℤ) * 2 ^ (-53 : ℤ) * 2 ^ (-240 : ℤ) := by rw [← zpow_add₀ two_ne_zero, ← zpow_add₀ two_ne_zero]; norm_num
      _ ≤ 2 ^ (-1 : ℤ) * 2 ^ (-53 : ℤ) * ‖toE D‖ := mul_le_mul_of_nonneg_left h.direction_ge (by positivity)
      _ = _ := by norm_num
  calc _ ≤ 2 ^ (-53 : ℤ) * ‖toE D‖ + 1 / 2 * 2 ^ (-53 : ℤ) * ‖toE D‖ := by gcongr
    _ = _ := by ring

theorem eye_real (eye : Pt (Ieee f64) 3) : (realPt eye - (Pt.origin : Pt ℝ 3)) = realVec eye.coords := by
  ext i; simp [realPt]

/-- the columns of a computed view matrix in four dimensions -/
theorem view4_near {z x y : Vec (Ieee f64) 3} {Z X Y : Vec ℝ 3} {s : ℝ} (a : Axes z x y Z X Y (156 * 2 ^ (-53 : ℤ) / s))
    (eye : Pt (Ieee f64) 3) (he : FiniteVec eye.coords) (hle : ‖toE (realVec eye.coords)‖ ≤ 2 ^ (500 : ℤ)) :
    NearCols
      (let eyeVec := eye - (Pt.origin : Pt (Ieee f64) 3)
       new4x4
        (x.data 0) (y.data 0) (z.data 0) 0
        (x.data 1) (y.data 1) (z.data 1) 0
        (x.data 2) (y.data 2) (z.data 2) 0
        (-eyeVec.dot x) (-eyeVec.dot y) (-eyeVec.dot z) 1)
      (let eyeVec := realPt eye - (Pt.origin : Pt ℝ 3)
       new4x4
        (X.data 0) (Y.data 0) (Z.data 0) 0
        (X.data 1) (Y.data 1) (Z.data 1) 0
        (X.data 2) (Y.data 2) (Z.data 2) 0
        (-eyeVec.dot X) (-eyeVec.dot Y) (-eyeVec.dot Z) 1)
      (viewError s ‖toE (realVec eye.coords)‖) ∧
    NearCols
      (let eyeVec := eye - (Pt.origin : Pt (Ieee f64) 3)
       new4x4
        (x.data 0) (x.data 1) (x.data 2) 0
        (y.data 0) (y.data 1) (y.data 2) 0
        (z.data 0) (z.data 1) (z.data 2) 0
        (eyeVec.dot x) (eyeVec.dot y) (eyeVec.dot z) 1)
      (let eyeVec := realPt eye - (Pt.origin : Pt ℝ 3)
       new4x4
        (X.data 0) (X.data 1) (X.data 2) 0
        (Y.data 0) (Y.data 1) (Y.data 2) 0
        (Z.data 0) (Z.data 1) (Z.data 2) 0
        (eyeVec.dot X) (eyeVec.dot Y) (eyeVec.dot Z) 1)
      (viewError s ‖toE (realVec eye.coords)‖) := by
  have hx := part_near a.fx a.ex
  have hy := part_near a.fy a.ey
  have hz := part_near a.fz a.ez
  have ox := offset_near eye he hle a.fx a.ex a.nx a.small a.large
  have oy := offset_near eye he hle a.fy a.ey a.ny a.small a.large
  have oz := offset_near eye he hle a.fz a.ez a.nz a.small a.large
  have hε : 0 ≤ 156 * (2 : ℝ) ^ (-53 : ℤ) / s := le_trans (by positivity) a.large
  have z0 : (0 : Ieee f64).Finite ∧ |(0 : Ieee f64).val - 0| ≤ 156 * (2 : ℝ) ^ (-53 : ℤ) / s :=
    ⟨finite_zero, by rw [show (0 : Ieee f64).val = 0 from rfl, sub_zero, abs_zero]; exact hε⟩
  have fold : ∀ {v : Ieee f64} {V : ℝ}, v.Finite ∧ |v.val - V| ≤
      33 / 32 * (156 * 2 ^ (-53 : ℤ) / s) * ‖toE (realVec eye.coords)‖ + 2 ^ (-1000 : ℤ) →
      v.Finite ∧ |v.val - V| ≤ 161 * 2 ^ (-53 : ℤ) / s * ‖toE (realVec eye.coords)‖ + 2 ^ (-1000 : ℤ) := fun h => by
    refine ⟨h.1, h.2.trans (add_le_add_left (mul_le_mul_of_nonneg_right ?_ (norm_nonneg _)) _)⟩
    rw [mul_div_assoc, mul_div_assoc] at *
    generalize (2 : ℝ) ^ (-53 : ℤ) / s = e at *
    linarith
  have z1 : (1 : Ieee f64).Finite ∧ |(1 : Ieee f64).val - 1| ≤
      161 * 2 ^ (-53 : ℤ) / s * ‖toE (realVec eye.coords)‖ + 2 ^ (-1000 : ℤ) := by
    refine ⟨finite_one, ?_⟩
    rw [show (1 : Ieee f64).val = 1 from rfl, sub_self, abs_zero]
    have : (0 : ℝ) ≤ 161 * 2 ^ (-53 : ℤ) / s := by
      rw [mul_div_assoc] at *
      generalize (2 : ℝ) ^ (-53 : ℤ) / s = e at *
      linarith
    positivity
  have neg : ∀ {v : Ieee f64} {V ε : ℝ}, v.Finite ∧ |v.val - V| ≤ ε → (-v).Finite ∧ |(-v).val - -V| ≤ ε := fun h =>
    ⟨finite_neg_of h.1, by rw [Ieee.val_neg, neg_sub_neg, abs_sub_comm]; exact h.2⟩
  rw [eye_real]
  constructor
  all_goals intro c r; fin_cases c <;> fin_cases r
  exacts [hx 0, hy 0, hz 0, z0, hx 1, hy 1, hz 1, z0, hx 2, hy 2, hz 2, z0, neg (fold ox), neg (fold oy), neg (fold oz), z1,
    hx 0, hx 1, hx 2, z0, hy 0, hy 1, hy 2, z0, hz 0, hz 1, hz 2, z0, fold ox, fold oy, fold oz, z1]

/-! ### C87 -/

variable [Lib f64]

/-- `Matrix3x3::look_to_lh`, `look_to_rh` and their inverses: for a finite direction and a finite up vector, of lengths
between `2 ^ -240` and `2 ^ 240` and with an angle of sine at least `s`, every entry is a finite number and within
`156 * 2 ^ -53 / s` of the entry of the exact view rotation. -/
theorem C87_look_to3 (direction up : Vec (Ieee f64) 3) (s : ℝ) (hd : FiniteVec direction) (hu : FiniteVec up)
    (h : Sight (realVec direction) (realVec up) s) :
    Near (lookToLh3 direction up) (lookToLh3 (realVec direction) (realVec up)) (156 * 2 ^ (-53 : ℤ) / s) ∧
    Near (lookToRh3 direction up) (lookToRh3 (realVec direction) (realVec up)) (156 * 2 ^ (-53 : ℤ) / s) ∧
    Near (lookToLhInv3 direction up) (lookToLhInv3 (realVec direction) (realVec up)) (156 * 2 ^ (-53 : ℤ) / s) ∧
    Near (lookToRhInv3 direction up) (lookToRhInv3 (realVec direction) (realVec up)) (156 * 2 ^ (-53 : ℤ) / s) :=
  have l := lookToLh3_near h hd hu (exact_direction _)
  have r := lookToRh3_near h hd hu (exact_direction _)
  ⟨l, r, l.transpose, r.transpose⟩

/-- The same for the look-at functions, which compute the direction `target - eye` with a rounding. -/
theorem C87_look_at3 (eye target : Pt (Ieee f64) 3) (up : Vec (Ieee f64) 3) (s : ℝ) (he : FiniteVec eye.coords)
    (ht : FiniteVec target.coords) (hu : FiniteVec up) (h : Sight (realPt target - realPt eye) (realVec up) s) :
    Near (lookAtLh3 eye target up) (lookAtLh3 (realPt eye) (realPt target) (realVec up)) (156 * 2 ^ (-53 : ℤ) / s) ∧
    Near (lookAtRh3 eye target up) (lookAtRh3 (realPt eye) (realPt target) (realVec up)) (156 * 2 ^ (-53 : ℤ) / s) ∧
    Near (lookAtLhInv3 eye target up) (lookAtLhInv3 (realPt eye) (realPt target) (realVec up)) (156 * 2 ^ (-53 : ℤ) / s) ∧
    Near (lookAtRhInv3 eye target up) (lookAtRhInv3 (realPt eye) (realPt target) (realVec up)) (156 * 2 ^ (-53 : ℤ) / s) :=
  have ⟨hd, e⟩ := difference_near he ht h
  have l := lookToLh3_near h hd hu e
  have r := lookToRh3_near h hd hu e
  ⟨l, r, l.transpose, r.transpose⟩

/-- `Matrix4x4::look_to_lh`, `look_to_rh` and their inverses, for an eye at most `2 ^ 500` from the origin: every entry is
finite; the rotation columns are as close as in three dimensions, and the last column is within
`161 * 2 ^ -53 / s * |eye| + 2 ^ -1000`. -/
theorem C87_look_to4 (eye : Pt (Ieee f64) 3) (direction up : Vec (Ieee f64) 3) (s : ℝ) (he : FiniteVec eye.coords)
    (hle : ‖toE (realPt eye).coords‖ ≤ 2 ^ (500 : ℤ)) (hd : FiniteVec direction) (hu : FiniteVec up)
    (h : Sight (realVec direction) (realVec up) s) :
    NearCols (lookToLh4 eye direction up) (lookToLh4 (realPt eye) (realVec direction) (realVec up))
      (viewError s ‖toE (realPt eye).coords‖) ∧
    NearCols (lookToRh4 eye direction up) (lookToRh4 (realPt eye) (realVec direction) (realVec up))
      (viewError s ‖toE (realPt eye).coords‖) ∧
    NearCols (lookToLhInv4 eye direction up) (lookToLhInv4 (realPt eye) (realVec direction) (realVec up))
      (viewError s ‖toE (realPt eye).coords‖) ∧
    NearCols (lookToRhInv4 eye direction up) (lookToRhInv4 (realPt eye) (realVec direction) (realVec up))
      (viewError s ‖toE (realPt eye).coords‖) := by
  obtain ⟨fz, ez⟩ := third_axis h hd (exact_direction _)
  obtain ⟨fn, en⟩ := third_axis h.neg (finiteVec_neg hd) (neg_direction (exact_direction _))
  have l := view4_near (axes_of h hu fz ez (.inl rfl)) eye he hle
  have r := view4_near (axes_of h.neg hu fn en (.inl rfl)) eye he hle
  exact ⟨l.1, r.1, l.2, r.2⟩

theorem C87_look_at4 (eye target : Pt (Ieee f64) 3) (up : Vec (Ieee f64) 3) (s : ℝ) (he : FiniteVec eye.coords)
    (hle : ‖toE (realPt eye).coords‖ ≤ 2 ^ (500 : ℤ)) (ht : FiniteVec target.coords) (hu : FiniteVec up)
    (h : Sight (realPt target - realPt eye) (realVec up) s) :
    NearCols (lookAtLh4 eye target up) (lookAtLh4 (realPt eye) (realPt target) (realVec up))
      (viewError s ‖toE (realPt eye).coords‖) ∧
    NearCols (lookAtRh4 eye target up) (lookAtRh4 (realPt eye) (realPt target) (realVec up))
      (viewError s ‖toE (realPt eye).coords‖) ∧
    NearCols (lookAtLhInv4 eye target up) (lookAtLhInv4 (realPt eye) (realPt target) (realVec up))
      (viewError s ‖toE (realPt eye).coords‖) ∧
    NearCols (lookAtRhInv4 eye target up) (lookAtRhInv4 (realPt eye) (realPt target) (realVec up))
      (viewError s ‖toE (realPt eye).coords‖) := by
  obtain ⟨hd, e⟩ := difference_near he ht h
  obtain ⟨fz, ez⟩ := third_axis h hd e
  obtain ⟨fn, en⟩ := third_axis h.neg (finiteVec_neg hd) (neg_direction e)
  have l := view4_near (axes_of h hu fz ez (.inl rfl)) eye he hle
  have r := view4_near (axes_of h.neg hu fn en (.inl rfl)) eye he hle
  exact ⟨l.1, r.1, l.2, r.2⟩

/-! ### a direction along the up vector -/

theorem normalize_zero_nan (v : Vec (Ieee f64) 3) (h : ∀ i, Is (v.data i) 0) (i : Fin 3) : v.normalize.data i = nan := by
  have b : |(0 : ℝ)| ≤ 2 ^ (100 : ℤ) := by rw [abs_zero]; positivity
  have p : ∀ i, Is (v.data i * v.data i) 0 := fun i => (h i).mul (h i) (by rw [mul_zero, f64.zero]) b
  have hd : Is (v.dot v) 0 := ((Is.zero.zero_add (p 0) b).zero_add (p 1) b).zero_add (p 2) b
  have hn : Is v.norm 0 := hd.sqrt le_rfl (by rw [Real.sqrt_zero, f64.zero]) b
  obtain ⟨⟨s, m, hm, e⟩, hv⟩ := hn
  have m0 : m = 0 := by
    rw [e] at hv
    cases s <;> simpa [val, signed] using hv
  subst m0
  have hr : (1 : Ieee f64) / v.norm = inf (false ^^ s) := by
    rw [e]
    change (if (0 : ℝ) = 0 then (if (1 : ℝ) = 0 then nan else inf (false ^^ s)) else _ : Ieee f64) = _
    simp
  obtain ⟨⟨t, k, hk, ei⟩, hi⟩ := h i
  have k0 : k = 0 := by
    rw [ei] at hi
    cases t <;> simpa [val, signed] using hi
  subst k0
  rw [Vec.normalize, Vec.mulS_data, hr, ei]
  change (if (0 : ℝ) = 0 then nan else _ : Ieee f64) = nan
  rw [if_pos rfl]

/-- When the direction and the up vector point along the same coordinate axis, in the same sense or not, the first two
axes of the computed frame are NaN. -/
theorem C87_along_axis_nan (direction up : Vec (Ieee f64) 3) (k : Fin 3) (hd : FiniteVec direction) (hu : FiniteVec up)
    (hlo : (2 : ℝ) ^ (-499 : ℤ) ≤ Spec.length direction) (hhi : Spec.length direction ≤ 2 ^ (510 : ℤ))
    (h : ∀ i, i ≠ k → (direction.data i).val = 0 ∧ (up.data i).val = 0) (c : Fin 3) :
    ((lookToLh3 direction up).data c 0).IsNan ∧ ((lookToLh3 direction up).data c 1).IsNan ∧
    ((lookToRh3 direction up).data c 0).IsNan ∧ ((lookToRh3 direction up).data c 1).IsNan := by
  have b : |(0 : ℝ)| ≤ 2 ^ (100 : ℤ) := by rw [abs_zero]; positivity
  obtain ⟨fz, -⟩ := normalize_near direction hd hlo hhi
  have z0 : ∀ i, i ≠ k → (direction.normalize.data i).val = 0 := fun i hi => by
    have := fz i
    rw [Vec.normalize, Vec.mulS_data] at this ⊢
    rw [val_mul this, (h i hi).1, zero_mul, f64.zero]
  have key : ∀ z : Vec (Ieee f64) 3, FiniteVec z → (∀ i, i ≠ k → (z.data i).val = 0) →
      (∀ i, ((up.cross z).normalize.data i).IsNan) ∧
      (∀ i, ((z.cross (up.cross z).normalize).normalize.data i).IsNan) := by
    intro z hz hz0
    have pr : ∀ i j, i ≠ j → Is (up.data i * z.data j) 0 := fun i j hij => by
      by_cases hi : i = k
      · exact (show Is (up.data i) (up.data i).val from ⟨hu i, rfl⟩).mul ⟨hz j, hz0 j (by rintro rfl; exact hij hi)⟩
          (by rw [mul_zero, f64.zero]) b
      · exact (show Is (up.data i) 0 from ⟨hu i, (h i hi).2⟩).mul ⟨hz j, rfl⟩ (by rw [zero_mul, f64.zero]) b
    have c0 : ∀ i, Is ((up.cross z).data i) 0 := fun i => by
      fin_cases i
      · exact (pr 1 2 (by decide)).sub_zero (pr 2 1 (by decide)) b
      · exact (pr 2 0 (by decide)).sub_zero (pr 0 2 (by decide)) b
      · exact (pr 0 1 (by decide)).sub_zero (pr 1 0 (by decide)) b
    have nx := normalize_zero_nan _ c0
    refine ⟨nx, fun i => ?_⟩
    have c1 : ∀ i, (z.cross (up.cross z).normalize).data i = nan := fun i => by
      fin_cases i
      · change z.data 1 * (up.cross z).normalize.data 2 - z.data 2 * (up.cross z).normalize.data 1 = nan
        rw [nx, mul_nan, nan_sub]
      · change z.data 2 * (up.cross z).normalize.data 0 - z.data 0 * (up.cross z).normalize.data 2 = nan
        rw [nx, mul_nan, nan_sub]
      · change z.data 0 * (up.cross z).normalize.data 1 - z.data 1 * (up.cross z).normalize.data 0 = nan
        rw [nx, mul_nan, nan_sub]
    rw [Vec.normalize, Vec.mulS_data, c1, nan_mul]
    rfl
  have l := key _ fz z0
  have r := key (-direction.normalize) (finiteVec_neg fz) fun i hi => by rw [Vec.neg_data, Ieee.val_neg, z0 i hi, neg_zero]
  fin_cases c
  exacts [⟨l.1 0, l.2 0, r.1 0, r.2 0⟩, ⟨l.1 1, l.2 1, r.1 1, r.2 1⟩, ⟨l.1 2, l.2 2, r.1 2, r.2 2⟩]

omit [Lib f64] in
theorem two3 {α : Type*} (a b c : α) : ![a, b, c] 2 = c := rfl

omit [Lib f64] in
theorem sight_example : ∃ d up : Vec (Ieee f64) 3, FiniteVec d ∧ FiniteVec up ∧ (d.data 0).val = 1 ∧ (d.data 1).val = 1 ∧
    (up.data 1).val = 1 ∧ Sight (realVec d) (realVec up) (1 / 2) := by
  refine ⟨Vec.new3 1 1 0, Vec.new3 0 1 0, ?_, ?_, rfl, rfl, rfl, ?_⟩
  · intro i; fin_cases i <;> first | exact finite_one | exact finite_zero
  · intro i; fin_cases i <;> first | exact finite_one | exact finite_zero
  have e1 : realVec (Vec.new3 1 1 0 : Vec (Ieee f64) 3) = Vec.new3 1 1 0 := by ext i; fin_cases i <;> rfl
  have e2 : realVec (Vec.new3 0 1 0 : Vec (Ieee f64) 3) = Vec.new3 0 1 0 := by ext i; fin_cases i <;> rfl
  rw [e1, e2]
  have n1 : ‖toE (Vec.new3 1 1 0 : Vec ℝ 3)‖ = Real.sqrt 2 := by
    rw [toE_norm, Vec.norm_def, Vec.normSquared, Vec.dot3]; congr 1; norm_num [Vec.new3, two3]
  have n2 : ‖toE (Vec.new3 0 1 0 : Vec ℝ 3)‖ = 1 := by
    rw [toE_norm, Vec.norm_def, Vec.normSquared, Vec.dot3, Real.sqrt_eq_one]; norm_num [Vec.new3, two3]
  have s1 : 1 ≤ Real.sqrt 2 := Real.one_le_sqrt.mpr (by norm_num)
  have s2 : Real.sqrt 2 ≤ 2 := Real.sqrt_le_iff.mpr (by norm_num)
  have i1 : inner ℝ (toE (Vec.new3 0 1 0 : Vec ℝ 3)) (toE (Vec.new3 1 1 0)) = 1 := by
    rw [inner_toE, Vec.dot3]; norm_num [Vec.new3, two3]
  refine ⟨?_, ?_, ?_, ?_, ?_, ?_⟩
  · rw [n1]; exact le_trans (by norm_num) s1
  · rw [n1]; exact s2.trans (by norm_num)
  · rw [n2]; norm_num
  · rw [n2]; norm_num
  · rw [InnerProductGeometry.angle, Real.sin_arccos, n1, n2, i1]
    refine Real.le_sqrt_of_sq_le ?_
    rw [one_mul, div_pow, div_pow (1 : ℝ) (Real.sqrt 2), Real.sq_sqrt (by norm_num)]
    norm_num
  · norm_num

/-- the hypotheses are met: a direction at 45 degrees to the up vector, and an eye and a target apart by it -/
example : ∃ (eye target : Pt (Ieee f64) 3) (up : Vec (Ieee f64) 3), FiniteVec eye.coords ∧ FiniteVec target.coords ∧
    FiniteVec up ∧ ‖toE (realPt eye).coords‖ ≤ 2 ^ (500 : ℤ) ∧ Sight (realPt target - realPt eye) (realVec up) (1 / 2) := by
  obtain ⟨d, up, hd, hu, -, -, -, h⟩ := sight_example
  refine ⟨Pt.origin, ⟨d⟩, up, fun _ => finite_zero, hd, hu, ?_, ?_⟩
  · have : toE (realPt (Pt.origin : Pt (Ieee f64) 3)).coords = 0 := by ext i; rfl
    rw [this, norm_zero]; positivity
  · have : realPt (⟨d⟩ : Pt (Ieee f64) 3) - realPt (Pt.origin : Pt (Ieee f64) 3) = realVec d := by
      ext i
      rw [Pt.sub_eq, Vec.sub_data]
      change (d.data i).val - (0 : ℝ) = (d.data i).val
      rw [sub_zero]
    rw [this]; exact h

/-- the hypotheses of `C87_along_axis_nan` are met: looking up along the third axis -/
example : ∃ d up : Vec (Ieee f64) 3, FiniteVec d ∧ FiniteVec up ∧ (2 : ℝ) ^ (-499 : ℤ) ≤ Spec.length d ∧
    Spec.length d ≤ 2 ^ (510 : ℤ) ∧ (∀ i, i ≠ 2 → (d.data i).val = 0 ∧ (up.data i).val = 0) ∧ (up.data 2).val = -1 := by
  have L : Spec.length (Vec.new3 0 0 1 : Vec (Ieee f64) 3) = 1 := by
    rw [Spec.length, Fin.sum_univ_three]
    norm_num [Vec.new3, two3, show (0 : Ieee f64).val = 0 from rfl, show (1 : Ieee f64).val = 1 from rfl]
  refine ⟨Vec.new3 0 0 1, Vec.new3 0 0 (-1), ?_, ?_, ?_, ?_, ?_, val_neg _⟩
  · intro i; fin_cases i <;> first | exact finite_one | exact finite_zero
  · intro i; fin_cases i <;> first | exact finite_neg_of finite_one | exact finite_zero
  · rw [L]; exact zpow_le_one_of_nonpos₀ one_le_two (by norm_num)
  · rw [L]; exact one_le_zpow₀ one_le_two (by norm_num)
  · intro i hi
    fin_cases i
    exacts [⟨rfl, rfl⟩, ⟨rfl, rfl⟩, absurd rfl hi]

end Cgl
