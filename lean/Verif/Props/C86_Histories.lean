import Verif.Props.C79_Chains
import Verif.Props.C67_Ieee
import Verif.Props.C85_Finite

/-! # C86 - histories of rotations in `f64`

C79 bounds the errors of products of any number of rotations for a rounding without overflow; here the arithmetic is IEEE
`f64` with its overflow, underflow, infinities and NaN.  The product is bracketed in any way and, for quaternions and
complex numbers, normalized after every multiplication: however long the history, the state is finite and its length is
that of a freshly normalized value, and it drifts from the exact rotation by at most a fixed amount per multiplication. -/

namespace Cgl
open Ieee FloatFns Mat Spec

variable {ι : Type*}

namespace Spec

/-- the real quaternion with the parts of `q` -/
noncomputable def realQuat (q : Quat (Ieee f64)) : Quat ℝ := Quat.new (q.coords.data 0).val (q.coords.data 1).val
  (q.coords.data 2).val (q.coords.data 3).val

/-- every part is a finite number -/
def FiniteQuat (q : Quat (Ieee f64)) : Prop := ∀ i, (q.coords.data i).Finite

/-- the real complex number with the parts of `z` -/
noncomputable def realCx (z : Cx (Ieee f64)) : Cx ℝ := ⟨z.re.val, z.im.val⟩

/-- both parts are finite numbers -/
def FiniteCx (z : Cx (Ieee f64)) : Prop := z.re.Finite ∧ z.im.Finite

end Spec

/-! ### directions in a normed space -/

section Direction
variable {A : Type*} [NormedAddCommGroup A] [NormedSpace ℝ A]

/-- the unit vector along `x` -/
noncomputable def dir (x : A) : A := ‖x‖⁻¹ • x

theorem dir_norm_le (x : A) : ‖dir x‖ ≤ 1 := by
  rw [dir, norm_smul, norm_inv, norm_norm]
  rcases eq_or_ne ‖x‖ 0 with h | h
  · rw [h]; simp
  · rw [inv_mul_cancel₀ h]

theorem dir_norm {x : A} (h : x ≠ 0) : ‖dir x‖ = 1 := by
  rw [dir, norm_smul, norm_inv, norm_norm, inv_mul_cancel₀ (norm_ne_zero_iff.mpr h)]

theorem dir_smul (x : A) : ‖x‖ • dir x = x := by
  rcases eq_or_ne x 0 with h | h
  · rw [h]; simp
  · rw [dir, smul_smul, mul_inv_cancel₀ (norm_ne_zero_iff.mpr h), one_smul]

theorem dir_close {x y : A} {ε : ℝ} (hx : x ≠ 0) (h : ‖y - x‖ ≤ ε * ‖x‖) : ‖dir y - dir x‖ ≤ 2 * ε := by
  have hp : 0 < ‖x‖ := norm_pos_iff.mpr hx
  have e : ‖x‖ • (dir y - dir x) = (‖x‖ - ‖y‖) • dir y + (y - x) := by
    rw [smul_sub, dir_smul, sub_smul, dir_smul]; abel
  have h1 : ‖x‖ * ‖dir y - dir x‖ ≤ ε * ‖x‖ + ε * ‖x‖ := by
    calc ‖x‖ * ‖dir y - dir x‖ = ‖‖x‖ • (dir y - dir x)‖ := by rw [norm_smul, norm_norm]
      _ ≤ ‖(‖x‖ - ‖y‖) • dir y‖ + ‖y - x‖ := by rw [e]; exact norm_add_le _ _
      _ ≤ _ := by
        refine add_le_add ?_ h
        rw [norm_smul, Real.norm_eq_abs]
        calc |‖x‖ - ‖y‖| * ‖dir y‖ ≤ |‖x‖ - ‖y‖| * 1 := mul_le_mul_of_nonneg_left (dir_norm_le y) (abs_nonneg _)
          _ ≤ ε * ‖x‖ := by rw [mul_one, abs_sub_comm]; exact (abs_norm_sub_norm_le _ _).trans h
  nlinarith

theorem dir_sub {x : A} (hx : x ≠ 0) {η : ℝ} (h : |‖x‖ - 1| ≤ η) : ‖x - dir x‖ ≤ η := by
  have e : x - dir x = (‖x‖ - 1) • dir x := by rw [sub_smul, dir_smul, one_smul]
  rw [e, norm_smul, dir_norm hx, mul_one, Real.norm_eq_abs]
  exact h

theorem unit_error {x y : A} {S η c : ℝ} {n : ℕ} (hη : η < 1) (hc : η ≤ c) (hx : |‖x‖ - 1| ≤ η)
    (h : ‖dir x - y‖ ≤ S + (n - 1) * c) : ‖x - y‖ ≤ S + n * c := by
  have hx0 : x ≠ 0 := by
    rintro rfl
    rw [norm_zero, zero_sub, abs_neg, abs_one] at hx
    linarith
  have h1 := dir_sub hx0 hx
  refine (norm_sub_le_norm_sub_add_norm_sub _ (dir x) _).trans ((add_le_add h1 h).trans ?_)
  linarith

theorem dir_dir {x : A} (h : x ≠ 0) : dir (dir x) = dir x := by
  conv_lhs => rw [dir, dir_norm h, inv_one, one_smul]

/-- a product with relative error `κ`, normalized with error `η` -/
theorem dir_step {x p n : A} {κ η : ℝ} (hx : x ≠ 0) (hp : p ≠ 0) (h : ‖p - x‖ ≤ κ * ‖x‖) (h' : ‖n - dir p‖ ≤ η) :
    ‖dir n - dir x‖ ≤ 2 * η + 2 * κ := by
  have d0 : dir p ≠ 0 := by
    rw [← norm_pos_iff, dir_norm hp]; exact one_pos
  have d2 := dir_close d0 (h'.trans (le_of_eq (by rw [dir_norm hp, mul_one])))
  rw [dir_dir hp] at d2
  exact (norm_sub_le_norm_sub_add_norm_sub _ (dir p) _).trans (add_le_add d2 (dir_close hx h))

section Algebra
variable {A : Type*} [NormedDivisionRing A] [NormedAlgebra ℝ A]

theorem dir_mul (x y : A) : dir (x * y) = dir x * dir y := by
  rw [dir, dir, dir, norm_mul, mul_inv, smul_mul_smul_comm]

/-- the error of a tree of operations each of which multiplies directions up to `c` -/
theorem tree_error {X : Type*} (op : X → X → X) (f : X → A) (P U : X → Prop) {c : ℝ} (hU : ∀ x, U x → P x)
    (hop : ∀ x y, P x → P y → U (op x y) ∧ ‖dir (f (op x y)) - dir (f x) * dir (f y)‖ ≤ c)
    (t : Bracketing ι) (x : ι → X) (a : ι → A) (δ : ι → ℝ) (hP : ∀ i ∈ t.factors, P (x i))
    (ha : ∀ i ∈ t.factors, ‖a i‖ = 1) (hδ : ∀ i ∈ t.factors, ‖dir (f (x i)) - a i‖ ≤ δ i) :
    P (t.eval op x) ∧ (2 ≤ t.size → U (t.eval op x)) ∧ ‖t.eval (· * ·) a‖ = 1 ∧
    ‖dir (f (t.eval op x)) - t.eval (· * ·) a‖ ≤ (t.factors.map δ).sum + (t.size - 1) * c := by
  induction t with
  | factor i =>
    refine ⟨hP i (by simp [Bracketing.factors]), fun h => by rw [Bracketing.size_factor] at h; omega, ha i (by simp [Bracketing.factors]), ?_⟩
    have := hδ i (by simp [Bracketing.factors])
    simpa [Bracketing.eval, Bracketing.factors, Bracketing.size] using this
  | times l r hl hr =>
    simp only [Bracketing.factors, List.mem_append, or_imp, forall_and] at hP ha hδ
    obtain ⟨p1, -, n1, e1⟩ := hl hP.1 ha.1 hδ.1
    obtain ⟨p2, -, n2, e2⟩ := hr hP.2 ha.2 hδ.2
    obtain ⟨p, e⟩ := hop _ _ p1 p2
    refine ⟨hU _ p, fun _ => p, by rw [Bracketing.eval, norm_mul, n1, n2, one_mul], ?_⟩
    clear hU
    set X := l.eval op x
    set Y := r.eval op x
    set W := l.eval (· * ·) a
    set V := r.eval (· * ·) a
    have hs : dir (f (op X Y)) - W * V = (dir (f (op X Y)) - dir (f X) * dir (f Y)) +
        (dir (f X) - W) * dir (f Y) + W * (dir (f Y) - V) := by noncomm_ring
    have h1 : ‖(dir (f X) - W) * dir (f Y)‖ ≤ ‖dir (f X) - W‖ := by
      rw [norm_mul]; exact mul_le_of_le_one_right (norm_nonneg _) (dir_norm_le _)
    have h2 : ‖W * (dir (f Y) - V)‖ = ‖dir (f Y) - V‖ := by rw [norm_mul, n1, one_mul]
    have h3 := norm_add_le (dir (f (op X Y)) - dir (f X) * dir (f Y) + (dir (f X) - W) * dir (f Y)) (W * (dir (f Y) - V))
    have h4 := norm_add_le (dir (f (op X Y)) - dir (f X) * dir (f Y)) ((dir (f X) - W) * dir (f Y))
    change ‖dir (f (op X Y)) - W * V‖ ≤ _
    rw [Bracketing.factors, List.map_append, List.sum_append, Bracketing.size_times, hs]
    push_cast
    linarith

end Algebra

end Direction

/-! ### quaternions -/

theorem realQuat_norm (q : Quat (Ieee f64)) : (Spec.realQuat q).norm = Spec.length q.coords := by
  rw [Quat.norm_def, Quat.normSquared_eq, Spec.length, Fin.sum_univ_four]
  simp only [pow_two]; rfl

theorem realQuat_eq (q : Quat (Ieee f64)) : Spec.realQuat q = Spec.exactQuat (q.map toFl) := by
  apply Quat.ext4 <;> rfl

/-- the quaternions a product is computed for without overflow or loss from underflow -/
def Moderate (q : Quat (Ieee f64)) : Prop :=
  Spec.FiniteQuat q ∧ (2 : ℝ) ^ (-240 : ℤ) ≤ Spec.length q.coords ∧ Spec.length q.coords ≤ 2 ^ (240 : ℤ)

theorem quat_product_finite {q r : Quat (Ieee f64)} (hq : Moderate q) (hr : Moderate r) : Spec.FiniteQuat (q * r) := by
  have a : ∀ i, Bd 240 (q.coords.data i) := fun i => ⟨hq.1 i, (comp_le_length _ i).trans hq.2.2⟩
  have b : ∀ i, Bd 240 (r.coords.data i) := fun i => ⟨hr.1 i, (comp_le_length _ i).trans hr.2.2⟩
  have m : ∀ i j, Bd 480 (q.coords.data i * r.coords.data j) := fun i j => (a i).mul (b j)
  have m' : ∀ i j, Bd 480 (r.coords.data i * q.coords.data j) := fun i j => (b i).mul (a j)
  intro i
  fin_cases i
  · exact ((m 0 0).mono (by norm_num : (480 : ℤ) ≤ 483) |>.sub
      ((((Bd.zero.add (m 1 1)).add ((m 2 2).mono (by norm_num))).add ((m 3 3).mono (by norm_num)))) : Bd 484 _).1
  · exact (((m' 1 0).add (m 1 0)).add ((m 2 3).sub (m 3 2)) : Bd 482 _).1
  · exact (((m' 2 0).add (m 2 0)).add ((m 3 1).sub (m 1 3)) : Bd 482 _).1
  · exact (((m' 3 0).add (m 3 0)).add ((m 1 2).sub (m 2 1)) : Bd 482 _).1

theorem hamilton_real (q : Quat (Ieee f64)) : ‖Spec.hamilton (Spec.realQuat q)‖ = Spec.length q.coords := by
  rw [hamilton_norm, realQuat_norm]

theorem binary64_step : Spec.quatStep f64.toRounding ≤ 17 / 2 * 2 ^ (-53 : ℤ) := by
  unfold Spec.quatStep
  rw [show f64.u = 2 ^ (-53 : ℤ) from rfl]; norm_num

theorem binary64_small : Spec.quatTiny f64.toRounding ≤ 2 ^ (-1000 : ℤ) := by
  unfold Spec.quatTiny
  rw [show f64.u = 2 ^ (-53 : ℤ) from rfl, show f64.tiny = 2 ^ (-1075 : ℤ) from rfl]
  calc (16 : ℝ) * (1 + 2 ^ (-53 : ℤ)) ^ 4 * 2 ^ (-1075 : ℤ) ≤ 2 ^ (5 : ℤ) * 2 ^ (-1075 : ℤ) := by
        refine mul_le_mul_of_nonneg_right ?_ (by positivity)
        norm_num
    _ = 2 ^ (-1070 : ℤ) := by rw [← zpow_add₀ two_ne_zero]; norm_num
    _ ≤ _ := two_zpow_le_self_of_le (by norm_num)

/-- One product: relative error `9 u`. -/
theorem quat_product_error {q r : Quat (Ieee f64)} (hq : Moderate q) (hr : Moderate r) :
    ‖Spec.hamilton (Spec.realQuat (q * r)) - Spec.hamilton (Spec.realQuat q) * Spec.hamilton (Spec.realQuat r)‖ ≤
      9 * 2 ^ (-53 : ℤ) * ‖Spec.hamilton (Spec.realQuat q) * Spec.hamilton (Spec.realQuat r)‖ := by
  have hf := quat_product_finite hq hr
  have h := C79_quaternion_step (q.map toFl) (r.map toFl)
  have e : Spec.realQuat (q * r) = Spec.exactQuat (q.map toFl * r.map toFl) := by
    have a := (C67_ieee_products (0 : Cx (Ieee f64)) 0 q r).2.2
    have : ∀ i, ((q * r).coords.data i).val = ((q.map toFl * r.map toFl).coords.data i).val := fun i => a i (hf i)
    apply Quat.ext4
    · exact this 0
    · exact this 1
    · exact this 2
    · exact this 3
  rw [← e, ← realQuat_eq, ← realQuat_eq, realQuat_norm, realQuat_norm] at h
  rw [← C39_hamilton_mul, ← C39_hamilton_sub, hamilton_norm, hamilton_norm, Quat.norm_mul, realQuat_norm, realQuat_norm]
  refine h.trans ?_
  have hs := binary64_step
  have ht := binary64_small
  have hL : (2 : ℝ) ^ (-480 : ℤ) ≤ Spec.length q.coords * Spec.length r.coords := by
    calc (2 : ℝ) ^ (-480 : ℤ) = 2 ^ (-240 : ℤ) * 2 ^ (-240 : ℤ) := by rw [← zpow_add₀ two_ne_zero]; norm_num
      _ ≤ _ := mul_le_mul hq.2.1 hr.2.1 (by positivity) (by unfold Spec.length; positivity)
  set N := Spec.length q.coords * Spec.length r.coords
  have hN : 0 < N := lt_of_lt_of_le (by positivity) hL
  have h1 : (2 : ℝ) ^ (-1000 : ℤ) ≤ 2 ^ (-54 : ℤ) * N := by
    refine le_trans ?_ (mul_le_mul_of_nonneg_left hL (by positivity))
    rw [← zpow_add₀ two_ne_zero]
    exact two_zpow_le_self_of_le (by norm_num)
  have h2 := mul_le_mul_of_nonneg_right hs hN.le
  have h3 : (2 : ℝ) ^ (-54 : ℤ) * N = 1 / 2 * 2 ^ (-53 : ℤ) * N := by norm_num
  rw [h3] at h1
  generalize (2 : ℝ) ^ (-53 : ℤ) = u at *
  generalize (2 : ℝ) ^ (-1000 : ℤ) = w at *
  linarith

/-- Normalizing: the parts move by at most `11 u` from those of the direction. -/
theorem quat_normalize_error [Lib f64] {p : Quat (Ieee f64)} (hp : Spec.FiniteQuat p)
    (hlo : (2 : ℝ) ^ (-499 : ℤ) ≤ Spec.length p.coords) (hhi : Spec.length p.coords ≤ 2 ^ (510 : ℤ)) :
    Spec.FiniteQuat p.normalize ∧ |Spec.length p.normalize.coords - 1| ≤ 11 * 2 ^ (-53 : ℤ) ∧
    ‖Spec.hamilton (Spec.realQuat p.normalize) - dir (Spec.hamilton (Spec.realQuat p))‖ ≤ 11 * 2 ^ (-53 : ℤ) := by
  obtain ⟨-, -, hc, -⟩ := C84_vector_f64 (by norm_num) p.coords hp hlo hhi
  obtain ⟨-, -, hf, hl⟩ := C84_quaternion_f64 p hp hlo hhi
  refine ⟨hf, hl, ?_⟩
  set L := Spec.length p.coords with hL
  have hL0 : 0 < L := lt_of_lt_of_le (by positivity) hlo
  set d : Quat ℝ := Spec.realQuat p * (1 / L) with hd
  have ed : dir (Spec.hamilton (Spec.realQuat p)) = Spec.hamilton d := by
    rw [dir, hamilton_real, hd, C39_hamilton_smul, one_div]
  have dn : d.norm = 1 := by
    rw [hd, Quat.norm_mulS, realQuat_norm, ← hL, abs_of_pos (by positivity)]; field_simp
  rw [ed, ← C39_hamilton_sub, hamilton_norm]
  have hu : f64.u = 2 ^ (-53 : ℤ) := rfl
  have ht : f64.tiny ≤ 2 ^ (-60 : ℤ) := by
    rw [show f64.tiny = 2 ^ (-1075 : ℤ) from rfl]; exact two_zpow_le_self_of_le (by norm_num)
  have hcomp : ∀ i, |(p.normalize.coords.data i).val - d.coords.data i| ≤ 10 * 2 ^ (-53 : ℤ) * |d.coords.data i| + 2 ^ (-60 : ℤ) := by
    intro i
    have e : d.coords.data i = (p.coords.data i).val / L := by
      rw [div_eq_mul_one_div]
      fin_cases i <;> rfl
    have h := (hc i).2
    rw [hu, ← e] at h
    refine h.trans (add_le_add (le_of_eq ?_) ht)
    norm_num
  -- the difference is the sum of a vector of length `10 u` and one with parts `2 ^ -60`
  have hsq : ∀ i, ((p.normalize.coords.data i).val - d.coords.data i) ^ 2 ≤
      (10 * 2 ^ (-53 : ℤ)) ^ 2 * d.coords.data i ^ 2 + 5 * (2 ^ (-53 : ℤ)) ^ 2 := by
    intro i
    have h1 : |d.coords.data i| ≤ 1 := by
      rw [← dn, Quat.norm_def, Quat.normSquared_eq, ← Real.sqrt_sq_eq_abs]
      refine Real.sqrt_le_sqrt ?_
      have e0 : d.coords.data 0 = d.s := rfl
      have e1 : d.coords.data 1 = d.x := rfl
      have e2 : d.coords.data 2 = d.y := rfl
      have e3 : d.coords.data 3 = d.z := rfl
      have := mul_self_nonneg d.s
      have := mul_self_nonneg d.x
      have := mul_self_nonneg d.y
      have := mul_self_nonneg d.z
      fin_cases i <;> simp only [Fin.zero_eta, Fin.mk_one, Fin.reduceFinMk, e0, e1, e2, e3] <;> nlinarith
    have h2 := hcomp i
    set a := |d.coords.data i|
    have a0 : 0 ≤ a := abs_nonneg _
    calc ((p.normalize.coords.data i).val - d.coords.data i) ^ 2
        = |(p.normalize.coords.data i).val - d.coords.data i| ^ 2 := (sq_abs _).symm
      _ ≤ (10 * 2 ^ (-53 : ℤ) * a + 2 ^ (-60 : ℤ)) ^ 2 := pow_le_pow_left₀ (abs_nonneg _) h2 2
      _ = (10 * 2 ^ (-53 : ℤ)) ^ 2 * a ^ 2 + (20 * 2 ^ (-53 : ℤ) * 2 ^ (-60 : ℤ)) * a + (2 ^ (-60 : ℤ)) ^ 2 := by ring
      _ ≤ (10 * 2 ^ (-53 : ℤ)) ^ 2 * a ^ 2 + (20 * 2 ^ (-53 : ℤ) * 2 ^ (-60 : ℤ)) * 1 + (2 ^ (-60 : ℤ)) ^ 2 := by gcongr
      _ ≤ (10 * 2 ^ (-53 : ℤ)) ^ 2 * a ^ 2 + 5 * (2 ^ (-53 : ℤ)) ^ 2 := by
        rw [add_assoc]
        refine add_le_add le_rfl ?_
        norm_num
      _ = _ := by rw [sq_abs]
  refine abs_le_of_sq_le_sq' ?_ (by positivity) |>.2
  rw [Quat.norm_sq, Quat.normSquared_eq, Quat.sub_s, Quat.sub_x, Quat.sub_y, Quat.sub_z]
  have g0 := hsq 0
  have g1 := hsq 1
  have g2 := hsq 2
  have g3 := hsq 3
  have hn : d.coords.data 0 ^ 2 + d.coords.data 1 ^ 2 + d.coords.data 2 ^ 2 + d.coords.data 3 ^ 2 = 1 := by
    have := Quat.norm_sq d
    rw [dn, Quat.normSquared_eq] at this
    have e : d.coords.data 0 ^ 2 + d.coords.data 1 ^ 2 + d.coords.data 2 ^ 2 + d.coords.data 3 ^ 2 =
      d.s * d.s + d.x * d.x + d.y * d.y + d.z * d.z := by
      simp only [pow_two]; rfl
    rw [e, ← this]; norm_num
  have hsum := add_le_add (add_le_add (add_le_add g0 g1) g2) g3
  refine le_trans (le_of_eq ?_) (hsum.trans ?_)
  · simp only [pow_two]; rfl
  · rw [show ∀ a x y z w b : ℝ, a * x + b + (a * y + b) + (a * z + b) + (a * w + b) = a * (x + y + z + w) + 4 * b by
      intros; ring, hn]
    norm_num

theorem below_of {l x e p q : ℝ} (h : -e ≤ l - x) (he : e ≤ 1 / 2 * x) (hp : p ≤ 1 / 2 * q) (hq : q ≤ x) : p ≤ l := by
  linarith
theorem above_of {l x e p q : ℝ} (h : l - x ≤ e) (he : e ≤ 1 / 2 * x) (hq : x ≤ q) (hp : 2 * q ≤ p) (hx : 0 ≤ x) :
    l ≤ p := by linarith

/-- One multiplication and normalization. -/
theorem quat_step [Lib f64] {q r : Quat (Ieee f64)} (hq : Moderate q) (hr : Moderate r) :
    Spec.FiniteQuat (q * r).normalize ∧ |Spec.length (q * r).normalize.coords - 1| ≤ 11 * 2 ^ (-53 : ℤ) ∧
    ‖dir (Spec.hamilton (Spec.realQuat (q * r).normalize)) -
      dir (Spec.hamilton (Spec.realQuat q)) * dir (Spec.hamilton (Spec.realQuat r))‖ ≤ 40 * 2 ^ (-53 : ℤ) := by
  have hf := quat_product_finite hq hr
  have he := quat_product_error hq hr
  have hL : (2 : ℝ) ^ (-480 : ℤ) ≤ ‖Spec.hamilton (Spec.realQuat q) * Spec.hamilton (Spec.realQuat r)‖ := by
    rw [norm_mul, hamilton_real, hamilton_real]
    calc (2 : ℝ) ^ (-480 : ℤ) = 2 ^ (-240 : ℤ) * 2 ^ (-240 : ℤ) := by rw [← zpow_add₀ two_ne_zero]; norm_num
      _ ≤ _ := mul_le_mul hq.2.1 hr.2.1 (by positivity) (by unfold Spec.length; positivity)
  have hU : ‖Spec.hamilton (Spec.realQuat q) * Spec.hamilton (Spec.realQuat r)‖ ≤ (2 : ℝ) ^ (480 : ℤ) := by
    rw [norm_mul, hamilton_real, hamilton_real]
    calc _ ≤ (2 : ℝ) ^ (240 : ℤ) * 2 ^ (240 : ℤ) :=
          mul_le_mul hq.2.2 hr.2.2 (by unfold Spec.length; positivity) (by positivity)
      _ = _ := by rw [← zpow_add₀ two_ne_zero]; norm_num
  set x := Spec.hamilton (Spec.realQuat q) * Spec.hamilton (Spec.realQuat r) with hx
  have hx0 : x ≠ 0 := norm_pos_iff.mp (lt_of_lt_of_le (by positivity) hL)
  have hn : |‖Spec.hamilton (Spec.realQuat (q * r))‖ - ‖x‖| ≤ 9 * 2 ^ (-53 : ℤ) * ‖x‖ := (abs_norm_sub_norm_le _ _).trans he
  rw [hamilton_real, abs_le] at hn
  have hk : (9 : ℝ) * 2 ^ (-53 : ℤ) * ‖x‖ ≤ 1 / 2 * ‖x‖ := mul_le_mul_of_nonneg_right (by norm_num) (norm_nonneg _)
  have hlo : (2 : ℝ) ^ (-499 : ℤ) ≤ Spec.length (q * r).coords := by
    have : (2 : ℝ) ^ (-499 : ℤ) ≤ 1 / 2 * 2 ^ (-480 : ℤ) := by
      rw [show (1 / 2 : ℝ) = 2 ^ (-1 : ℤ) by norm_num, ← zpow_add₀ two_ne_zero]
      exact two_zpow_le_self_of_le (by norm_num)
    exact below_of hn.1 hk this hL
  have hhi : Spec.length (q * r).coords ≤ (2 : ℝ) ^ (510 : ℤ) := by
    have : (2 : ℝ) * 2 ^ (480 : ℤ) ≤ 2 ^ (510 : ℤ) := by
      rw [show (2 : ℝ) * 2 ^ (480 : ℤ) = 2 ^ (481 : ℤ) by rw [mul_comm, ← zpow_add_one₀ two_ne_zero]; norm_num]
      exact two_zpow_le_self_of_le (by norm_num)
    exact above_of hn.2 hk hU this (norm_nonneg x)
  obtain ⟨h1, h2, h3⟩ := quat_normalize_error hf hlo hhi
  refine ⟨h1, h2, ?_⟩
  have hp0 : Spec.hamilton (Spec.realQuat (q * r)) ≠ 0 := by
    rw [← norm_pos_iff, hamilton_real]; exact lt_of_lt_of_le (by positivity) hlo
  rw [← dir_mul, ← hx]
  exact (dir_step hx0 hp0 he h3).trans (le_of_eq (by norm_num))

theorem moderate_of_unit {q : Quat (Ieee f64)} (hf : Spec.FiniteQuat q) (h : |Spec.length q.coords - 1| ≤ 11 * 2 ^ (-53 : ℤ)) :
    Moderate q := by
  rw [abs_le] at h
  have h1 : (11 : ℝ) * 2 ^ (-53 : ℤ) ≤ 1 / 2 := by norm_num
  have h2 : (2 : ℝ) ^ (-240 : ℤ) ≤ 2 ^ (-1 : ℤ) := two_zpow_le_self_of_le (by norm_num)
  have h3 : (2 : ℝ) ^ (1 : ℤ) ≤ 2 ^ (240 : ℤ) := two_zpow_le_self_of_le (by norm_num)
  rw [zpow_neg_one] at h2
  rw [zpow_one] at h3
  refine ⟨hf, ?_, ?_⟩
  · exact below_of h.1 (by linarith) (by linarith : (2 : ℝ) ^ (-240 : ℤ) ≤ 1 / 2 * 1) le_rfl
  · exact above_of h.2 (by linarith) (le_refl (1 : ℝ)) (by linarith) zero_le_one

/-- Any number of rotation quaternions multiplied in any bracketing with every product normalized.  The factors `q i`, of
any lengths between `2 ^ -240` and `2 ^ 240`, point along the rotations `a i` up to `δ i`. -/
theorem C86_quaternion_history [Lib f64] (t : Bracketing ι) (q : ι → Quat (Ieee f64)) (a : ι → Quat ℝ) (δ : ι → ℝ)
    (hq : ∀ i ∈ t.factors, Spec.FiniteQuat (q i) ∧ (2 : ℝ) ^ (-240 : ℤ) ≤ Spec.length (q i).coords ∧
      Spec.length (q i).coords ≤ 2 ^ (240 : ℤ))
    (ha : ∀ i ∈ t.factors, (a i).norm = 1)
    (hδ : ∀ i ∈ t.factors, (Spec.realQuat (q i) * (1 / Spec.length (q i).coords) - a i).norm ≤ δ i) (h2 : 2 ≤ t.size) :
    Spec.FiniteQuat (t.eval (fun s r => (s * r).normalize) q) ∧
    |Spec.length (t.eval (fun s r => (s * r).normalize) q).coords - 1| ≤ 11 * 2 ^ (-53 : ℤ) ∧
    (Spec.realQuat (t.eval (fun s r => (s * r).normalize) q) - t.eval (· * ·) a).norm ≤
      (t.factors.map δ).sum + t.size * (40 * 2 ^ (-53 : ℤ)) := by
  have dirq : ∀ q : Quat (Ieee f64), dir (Spec.hamilton (Spec.realQuat q)) =
      Spec.hamilton (Spec.realQuat q * (1 / Spec.length q.coords)) := fun q => by
    rw [dir, hamilton_real, C39_hamilton_smul, one_div]
  obtain ⟨-, hu, -, e⟩ := tree_error (A := Quaternion ℝ) (fun s r : Quat (Ieee f64) => (s * r).normalize)
    (fun q => Spec.hamilton (Spec.realQuat q)) Moderate
    (fun q => Spec.FiniteQuat q ∧ |Spec.length q.coords - 1| ≤ 11 * 2 ^ (-53 : ℤ)) (fun q h => moderate_of_unit h.1 h.2)
    (fun x y hx hy => ⟨⟨(quat_step hx hy).1, (quat_step hx hy).2.1⟩, (quat_step hx hy).2.2⟩)
    t q (fun i => Spec.hamilton (a i)) δ hq
    (fun i hi => by rw [hamilton_norm]; exact ha i hi)
    (fun i hi => by rw [dirq, ← C39_hamilton_sub, hamilton_norm]; exact hδ i hi)
  obtain ⟨s1, s2⟩ := hu h2
  refine ⟨s1, s2, ?_⟩
  have ex : Spec.hamilton (t.eval (· * ·) a) = t.eval (· * ·) (fun i => Spec.hamilton (a i)) :=
    Bracketing.eval_hom _ _ Spec.hamilton (fun x y => C39_hamilton_mul x y) a t
  rw [← hamilton_norm, C39_hamilton_sub, ex]
  exact unit_error (η := 11 * 2 ^ (-53 : ℤ)) (by norm_num) (by norm_num) (by rw [hamilton_real]; exact s2) e

/-- Frame after frame: whatever the history, the state stays finite and of length one up to `11 u`.  The rotation of a
frame may be multiplied from either side and have any length between `2 ^ -240` and `2 ^ 240`. -/
theorem C86_quaternion_frames [Lib f64] (frames : List (Bool × Quat (Ieee f64))) (s : Quat (Ieee f64))
    (hf : ∀ f ∈ frames, Spec.FiniteQuat f.2 ∧ (2 : ℝ) ^ (-240 : ℤ) ≤ Spec.length f.2.coords ∧
      Spec.length f.2.coords ≤ 2 ^ (240 : ℤ))
    (hs : Spec.FiniteQuat s) (hs1 : |Spec.length s.coords - 1| ≤ 11 * 2 ^ (-53 : ℤ)) :
    Spec.FiniteQuat (frames.foldl (fun s f => (if f.1 then f.2 * s else s * f.2).normalize) s) ∧
    |Spec.length (frames.foldl (fun s f => (if f.1 then f.2 * s else s * f.2).normalize) s).coords - 1| ≤
      11 * 2 ^ (-53 : ℤ) := by
  induction frames generalizing s with
  | nil => exact ⟨hs, hs1⟩
  | cons f l ih =>
    have m : Moderate f.2 := hf f (by simp)
    have ms := moderate_of_unit hs hs1
    rw [List.foldl_cons]
    have hl := ih (s := (if f.1 then f.2 * s else s * f.2).normalize) (fun g hg => hf g (by simp [hg]))
    refine hl ?_ ?_
    · split
      · exact (quat_step m ms).1
      · exact (quat_step ms m).1
    · split
      · exact (quat_step m ms).2.1
      · exact (quat_step ms m).2.1

/-! ### complex numbers -/

theorem realCx_norm (z : Cx (Ieee f64)) : ‖(Spec.realCx z).toC‖ = Real.sqrt (z.re.val ^ 2 + z.im.val ^ 2) := by
  rw [Complex.norm_def, Complex.normSq_apply, pow_two, pow_two]; rfl

theorem realCx_norm' (z : Cx (Ieee f64)) : (Spec.realCx z).norm = Real.sqrt (z.re.val ^ 2 + z.im.val ^ 2) := by
  rw [Cx.norm_eq, realCx_norm]

def ModerateCx (z : Cx (Ieee f64)) : Prop :=
  Spec.FiniteCx z ∧ (2 : ℝ) ^ (-240 : ℤ) ≤ (Spec.realCx z).norm ∧ (Spec.realCx z).norm ≤ 2 ^ (240 : ℤ)

theorem cx_product_finite {z w : Cx (Ieee f64)} (hz : ModerateCx z) (hw : ModerateCx w) : Spec.FiniteCx (z * w) := by
  have c : ∀ {z : Cx (Ieee f64)}, ModerateCx z → Bd 240 z.re ∧ Bd 240 z.im := fun {z} h => by
    have h1 := h.2.2
    rw [realCx_norm'] at h1
    exact ⟨⟨h.1.1, (Real.abs_le_sqrt (by nlinarith [sq_nonneg z.im.val])).trans h1⟩,
      ⟨h.1.2, (Real.abs_le_sqrt (by nlinarith [sq_nonneg z.re.val])).trans h1⟩⟩
  obtain ⟨a, b⟩ := c hz
  obtain ⟨a', b'⟩ := c hw
  exact ⟨((a.mul a').sub (b.mul b') : Bd 481 _).1, ((a.mul b').add (b.mul a') : Bd 481 _).1⟩

theorem cx_product_error {z w : Cx (Ieee f64)} (hz : ModerateCx z) (hw : ModerateCx w) :
    ‖(Spec.realCx (z * w)).toC - (Spec.realCx z).toC * (Spec.realCx w).toC‖ ≤
      5 * 2 ^ (-53 : ℤ) * ‖(Spec.realCx z).toC * (Spec.realCx w).toC‖ := by
  have hf := cx_product_finite hz hw
  have h := C79_complex_step (z.map toFl) (w.map toFl)
  have e : Spec.realCx (z * w) = Spec.exactCx (z.map toFl * w.map toFl) := by
    obtain ⟨a, b, -⟩ := C67_ieee_products z w (0 : Quat (Ieee f64)) 0
    exact Cx.ext (a hf.1) (b hf.2)
  have ez : ∀ z : Cx (Ieee f64), Spec.exactCx (z.map toFl) = Spec.realCx z := fun z => rfl
  rw [← e, ez, ez] at h
  rw [← Cx.toC_mul, ← Cx.toC_sub, ← Cx.norm_eq]
  rw [Cx.toC_mul, norm_mul, ← Cx.norm_eq, ← Cx.norm_eq]
  refine h.trans ?_
  have hs : Spec.cxStep f64.toRounding ≤ 9 / 2 * 2 ^ (-53 : ℤ) := by
    unfold Spec.cxStep
    rw [show f64.u = 2 ^ (-53 : ℤ) from rfl]; norm_num
  have ht : Spec.cxTiny f64.toRounding ≤ 2 ^ (-1000 : ℤ) := by
    unfold Spec.cxTiny
    rw [show f64.u = 2 ^ (-53 : ℤ) from rfl, show f64.tiny = 2 ^ (-1075 : ℤ) from rfl]
    calc (6 : ℝ) * (1 + 2 ^ (-53 : ℤ)) ^ 2 * 2 ^ (-1075 : ℤ) ≤ 2 ^ (5 : ℤ) * 2 ^ (-1075 : ℤ) := by
          refine mul_le_mul_of_nonneg_right ?_ (by positivity)
          norm_num
      _ = 2 ^ (-1070 : ℤ) := by rw [← zpow_add₀ two_ne_zero]; norm_num
      _ ≤ _ := two_zpow_le_self_of_le (by norm_num)
  have hL : (2 : ℝ) ^ (-480 : ℤ) ≤ (Spec.realCx z).norm * (Spec.realCx w).norm := by
    calc (2 : ℝ) ^ (-480 : ℤ) = 2 ^ (-240 : ℤ) * 2 ^ (-240 : ℤ) := by rw [← zpow_add₀ two_ne_zero]; norm_num
      _ ≤ _ := mul_le_mul hz.2.1 hw.2.1 (by positivity) (Cx.norm_nonneg _)
  set N := (Spec.realCx z).norm * (Spec.realCx w).norm
  have hN : 0 < N := lt_of_lt_of_le (by positivity) hL
  have h1 : (2 : ℝ) ^ (-1000 : ℤ) ≤ 2 ^ (-54 : ℤ) * N := by
    refine le_trans ?_ (mul_le_mul_of_nonneg_left hL (by positivity))
    rw [← zpow_add₀ two_ne_zero]
    exact two_zpow_le_self_of_le (by norm_num)
  have h2 := mul_le_mul_of_nonneg_right hs hN.le
  have h3 : (2 : ℝ) ^ (-54 : ℤ) * N = 1 / 2 * 2 ^ (-53 : ℤ) * N := by norm_num
  rw [h3] at h1
  generalize (2 : ℝ) ^ (-53 : ℤ) = u at *
  generalize (2 : ℝ) ^ (-1000 : ℤ) = w at *
  linarith

theorem cx_normalize_error [Lib f64] {p : Cx (Ieee f64)} (hp : Spec.FiniteCx p)
    (hlo : (2 : ℝ) ^ (-499 : ℤ) ≤ (Spec.realCx p).norm) (hhi : (Spec.realCx p).norm ≤ 2 ^ (510 : ℤ)) :
    Spec.FiniteCx p.normalize ∧ |(Spec.realCx p.normalize).norm - 1| ≤ 9 * 2 ^ (-53 : ℤ) ∧
    ‖(Spec.realCx p.normalize).toC - dir (Spec.realCx p).toC‖ ≤ 9 * 2 ^ (-53 : ℤ) := by
  have hlo' := hlo
  have hhi' := hhi
  rw [realCx_norm'] at hlo' hhi'
  obtain ⟨-, -, f0, f1, hl⟩ := C84_complex_f64 p hp.1 hp.2 hlo' hhi'
  rw [← realCx_norm'] at hl
  refine ⟨⟨f0, f1⟩, hl, ?_⟩
  set L := (Spec.realCx p).norm with hL
  have hL0 : 0 < L := lt_of_lt_of_le (by positivity) hlo
  -- the components, from the vector with the same components
  let v : Vec (Ieee f64) 2 := Vec.new2 p.re p.im
  have hvl : Spec.length v = L := by
    rw [hL, realCx_norm', Spec.length, Fin.sum_univ_two]; rfl
  have hnorm : v.norm = p.norm := by
    change fsqrt ((0 + p.re * p.re) + p.im * p.im) = fsqrt (p.re * p.re + p.im * p.im)
    rw [zero_add_sq]
  have hz : v.normalize = Vec.new2 p.normalize.re p.normalize.im := by
    ext i : 2
    simp only [Vec.normalize, Vec.mulS_data, hnorm]
    fin_cases i <;> rfl
  obtain ⟨-, -, hc, -⟩ := C84_vector_f64 (by norm_num) v (fun i => by fin_cases i <;> [exact hp.1; exact hp.2])
    (by rw [hvl]; exact hlo) (by rw [hvl]; exact hhi)
  have hu : f64.u = 2 ^ (-53 : ℤ) := rfl
  have ht : f64.tiny ≤ 2 ^ (-60 : ℤ) := by
    rw [show f64.tiny = 2 ^ (-1075 : ℤ) from rfl]; exact two_zpow_le_self_of_le (by norm_num)
  have h0 := (hc 0).2
  have h1 := (hc 1).2
  rw [hz, hvl, hu] at h0 h1
  change |p.normalize.re.val - p.re.val / L| ≤ _ * _ * |p.re.val / L| + _ at h0
  change |p.normalize.im.val - p.im.val / L| ≤ _ * _ * |p.im.val / L| + _ at h1
  have hn : (p.re.val / L) ^ 2 + (p.im.val / L) ^ 2 = 1 := by
    have : L ^ 2 = p.re.val ^ 2 + p.im.val ^ 2 := by
      rw [hL, realCx_norm', Real.sq_sqrt (by positivity)]
    rw [div_pow, div_pow, ← add_div, ← this, div_self (by positivity)]
  have ed : dir (Spec.realCx p).toC = ⟨p.re.val / L, p.im.val / L⟩ := by
    rw [dir, ← Cx.norm_eq, ← hL]
    apply Complex.ext
    · rw [Complex.smul_re]; exact inv_mul_eq_div _ _
    · rw [Complex.smul_im]; exact inv_mul_eq_div _ _
  set a := p.re.val / L
  set b := p.im.val / L
  have sq1 : ∀ {x y : ℝ}, y ^ 2 ≤ 1 → |x - y| ≤ ((2 + 3 : ℕ) + 3) * 2 ^ (-53 : ℤ) * |y| + f64.tiny →
      (x - y) ^ 2 ≤ (8 * 2 ^ (-53 : ℤ)) ^ 2 * y ^ 2 + 5 * (2 ^ (-53 : ℤ)) ^ 2 := by
    intro x y hy h
    have hy1 : |y| ≤ 1 := abs_le_one_iff_mul_self_le_one.mpr (by nlinarith)
    have h2 : |x - y| ≤ 8 * 2 ^ (-53 : ℤ) * |y| + 2 ^ (-60 : ℤ) :=
      h.trans (add_le_add (le_of_eq (by norm_num)) ht)
    calc (x - y) ^ 2 = |x - y| ^ 2 := (sq_abs _).symm
      _ ≤ (8 * 2 ^ (-53 : ℤ) * |y| + 2 ^ (-60 : ℤ)) ^ 2 := pow_le_pow_left₀ (abs_nonneg _) h2 2
      _ = (8 * 2 ^ (-53 : ℤ)) ^ 2 * |y| ^ 2 + (16 * 2 ^ (-53 : ℤ) * 2 ^ (-60 : ℤ)) * |y| + (2 ^ (-60 : ℤ)) ^ 2 := by ring
      _ ≤ (8 * 2 ^ (-53 : ℤ)) ^ 2 * |y| ^ 2 + (16 * 2 ^ (-53 : ℤ) * 2 ^ (-60 : ℤ)) * 1 + (2 ^ (-60 : ℤ)) ^ 2 := by gcongr
      _ ≤ (8 * 2 ^ (-53 : ℤ)) ^ 2 * |y| ^ 2 + 5 * (2 ^ (-53 : ℤ)) ^ 2 := by
        rw [add_assoc]
        refine add_le_add le_rfl ?_
        norm_num
      _ = _ := by rw [sq_abs]
  have g0 := sq1 (by nlinarith [sq_nonneg b]) h0
  have g1 := sq1 (by nlinarith [sq_nonneg a]) h1
  rw [ed]
  refine abs_le_of_sq_le_sq' ?_ (by positivity) |>.2
  rw [Complex.sq_norm, Complex.normSq_apply, ← pow_two, ← pow_two]
  refine (add_le_add g0 g1).trans ?_
  rw [show ∀ k x y c : ℝ, k * x + c + (k * y + c) = k * (x + y) + 2 * c by intros; ring, hn]
  norm_num

theorem cx_step [Lib f64] {z w : Cx (Ieee f64)} (hz : ModerateCx z) (hw : ModerateCx w) :
    Spec.FiniteCx (z * w).normalize ∧ |(Spec.realCx (z * w).normalize).norm - 1| ≤ 9 * 2 ^ (-53 : ℤ) ∧
    ‖dir (Spec.realCx (z * w).normalize).toC - dir (Spec.realCx z).toC * dir (Spec.realCx w).toC‖ ≤ 28 * 2 ^ (-53 : ℤ) := by
  have hf := cx_product_finite hz hw
  have he := cx_product_error hz hw
  have hL : (2 : ℝ) ^ (-480 : ℤ) ≤ ‖(Spec.realCx z).toC * (Spec.realCx w).toC‖ := by
    rw [norm_mul, ← Cx.norm_eq, ← Cx.norm_eq]
    calc (2 : ℝ) ^ (-480 : ℤ) = 2 ^ (-240 : ℤ) * 2 ^ (-240 : ℤ) := by rw [← zpow_add₀ two_ne_zero]; norm_num
      _ ≤ _ := mul_le_mul hz.2.1 hw.2.1 (by positivity) (Cx.norm_nonneg _)
  have hU : ‖(Spec.realCx z).toC * (Spec.realCx w).toC‖ ≤ (2 : ℝ) ^ (480 : ℤ) := by
    rw [norm_mul, ← Cx.norm_eq, ← Cx.norm_eq]
    calc _ ≤ (2 : ℝ) ^ (240 : ℤ) * 2 ^ (240 : ℤ) := mul_le_mul hz.2.2 hw.2.2 (Cx.norm_nonneg _) (by positivity)
      _ = _ := by rw [← zpow_add₀ two_ne_zero]; norm_num
  set x := (Spec.realCx z).toC * (Spec.realCx w).toC with hx
  have hx0 : x ≠ 0 := norm_pos_iff.mp (lt_of_lt_of_le (by positivity) hL)
  have hn : |‖(Spec.realCx (z * w)).toC‖ - ‖x‖| ≤ 5 * 2 ^ (-53 : ℤ) * ‖x‖ := (abs_norm_sub_norm_le _ _).trans he
  rw [← Cx.norm_eq, abs_le] at hn
  have hk : (5 : ℝ) * 2 ^ (-53 : ℤ) * ‖x‖ ≤ 1 / 2 * ‖x‖ := mul_le_mul_of_nonneg_right (by norm_num) (norm_nonneg _)
  have hlo : (2 : ℝ) ^ (-499 : ℤ) ≤ (Spec.realCx (z * w)).norm := by
    have : (2 : ℝ) ^ (-499 : ℤ) ≤ 1 / 2 * 2 ^ (-480 : ℤ) := by
      rw [show (1 / 2 : ℝ) = 2 ^ (-1 : ℤ) by norm_num, ← zpow_add₀ two_ne_zero]
      exact two_zpow_le_self_of_le (by norm_num)
    exact below_of hn.1 hk this hL
  have hhi : (Spec.realCx (z * w)).norm ≤ (2 : ℝ) ^ (510 : ℤ) := by
    have : (2 : ℝ) * 2 ^ (480 : ℤ) ≤ 2 ^ (510 : ℤ) := by
      rw [show (2 : ℝ) * 2 ^ (480 : ℤ) = 2 ^ (481 : ℤ) by rw [mul_comm, ← zpow_add_one₀ two_ne_zero]; norm_num]
      exact two_zpow_le_self_of_le (by norm_num)
    exact above_of hn.2 hk hU this (norm_nonneg x)
  obtain ⟨h1, h2, h3⟩ := cx_normalize_error hf hlo hhi
  refine ⟨h1, h2, ?_⟩
  have hp0 : (Spec.realCx (z * w)).toC ≠ 0 := by
    rw [← norm_pos_iff, ← Cx.norm_eq]; exact lt_of_lt_of_le (by positivity) hlo
  rw [← dir_mul, ← hx]
  exact (dir_step hx0 hp0 he h3).trans (le_of_eq (by norm_num))

theorem moderateCx_of_unit {z : Cx (Ieee f64)} (hf : Spec.FiniteCx z) (h : |(Spec.realCx z).norm - 1| ≤ 9 * 2 ^ (-53 : ℤ)) :
    ModerateCx z := by
  rw [abs_le] at h
  have h1 : (9 : ℝ) * 2 ^ (-53 : ℤ) ≤ 1 / 2 := by norm_num
  have h2 : (2 : ℝ) ^ (-240 : ℤ) ≤ 2 ^ (-1 : ℤ) := two_zpow_le_self_of_le (by norm_num)
  have h3 : (2 : ℝ) ^ (1 : ℤ) ≤ 2 ^ (240 : ℤ) := two_zpow_le_self_of_le (by norm_num)
  rw [zpow_neg_one] at h2
  rw [zpow_one] at h3
  refine ⟨hf, ?_, ?_⟩
  · exact below_of h.1 (by linarith) (by linarith : (2 : ℝ) ^ (-240 : ℤ) ≤ 1 / 2 * 1) le_rfl
  · exact above_of h.2 (by linarith) (le_refl (1 : ℝ)) (by linarith) zero_le_one

/-- The same for rotations of the plane as complex numbers. -/
theorem C86_complex_history [Lib f64] (t : Bracketing ι) (z : ι → Cx (Ieee f64)) (a : ι → Cx ℝ) (δ : ι → ℝ)
    (hz : ∀ i ∈ t.factors, Spec.FiniteCx (z i) ∧ (2 : ℝ) ^ (-240 : ℤ) ≤ (Spec.realCx (z i)).norm ∧
      (Spec.realCx (z i)).norm ≤ 2 ^ (240 : ℤ))
    (ha : ∀ i ∈ t.factors, (a i).norm = 1)
    (hδ : ∀ i ∈ t.factors, (Spec.realCx (z i) * (1 / (Spec.realCx (z i)).norm) - a i).norm ≤ δ i) (h2 : 2 ≤ t.size) :
    Spec.FiniteCx (t.eval (fun s r => (s * r).normalize) z) ∧
    |(Spec.realCx (t.eval (fun s r => (s * r).normalize) z)).norm - 1| ≤ 9 * 2 ^ (-53 : ℤ) ∧
    (Spec.realCx (t.eval (fun s r => (s * r).normalize) z) - t.eval (· * ·) a).norm ≤
      (t.factors.map δ).sum + t.size * (28 * 2 ^ (-53 : ℤ)) := by
  have dirz : ∀ z : Cx (Ieee f64), dir (Spec.realCx z).toC = (Spec.realCx z * (1 / (Spec.realCx z).norm)).toC := fun z => by
    rw [dir, ← Cx.norm_eq, Cx.toC_mulS, Complex.real_smul, one_div, mul_comm]
  obtain ⟨-, hu, -, e⟩ := tree_error (A := ℂ) (fun s r : Cx (Ieee f64) => (s * r).normalize)
    (fun z => (Spec.realCx z).toC) ModerateCx
    (fun z => Spec.FiniteCx z ∧ |(Spec.realCx z).norm - 1| ≤ 9 * 2 ^ (-53 : ℤ)) (fun z h => moderateCx_of_unit h.1 h.2)
    (fun x y hx hy => ⟨⟨(cx_step hx hy).1, (cx_step hx hy).2.1⟩, (cx_step hx hy).2.2⟩)
    t z (fun i => (a i).toC) δ hz
    (fun i hi => by rw [← Cx.norm_eq]; exact ha i hi)
    (fun i hi => by rw [dirz, ← Cx.toC_sub, ← Cx.norm_eq]; exact hδ i hi)
  obtain ⟨s1, s2⟩ := hu h2
  refine ⟨s1, s2, ?_⟩
  have ex : (t.eval (· * ·) a).toC = t.eval (· * ·) (fun i => (a i).toC) :=
    Bracketing.eval_hom _ _ Cx.toC (fun x y => Cx.toC_mul x y) a t
  rw [Cx.norm_eq, Cx.toC_sub, ex]
  exact unit_error (η := 9 * 2 ^ (-53 : ℤ)) (by norm_num) (by norm_num) (by rw [← Cx.norm_eq]; exact s2) e

/-! ### without normalization -/

theorem Bracketing.all_times {l r : Bracketing ι} {P : ι → Prop} (h : ∀ i ∈ (Bracketing.times l r).factors, P i) :
    (∀ i ∈ l.factors, P i) ∧ ∀ i ∈ r.factors, P i :=
  ⟨fun i hi => h i (by simp [Bracketing.factors, hi]), fun i hi => h i (by simp [Bracketing.factors, hi])⟩

/-- C79 for the rounding of `f64` -/
theorem quaternion_million_f64 (t : Bracketing ι) (q : ι → Quat (Fl f64.toRounding)) (a : ι → Quat ℝ)
    (hm : t.size ≤ 1000000) (ha : ∀ i ∈ t.factors, (a i).norm = 1)
    (hq : ∀ i ∈ t.factors, (Spec.exactQuat (q i) - a i).norm ≤ 2 ^ (-51 : ℤ)) :
    (Spec.exactQuat (t.eval (· * ·) q) - t.eval (· * ·) a).norm ≤ 2 / 10 ^ 9 ∧
    |(Spec.exactQuat (t.eval (· * ·) q)).norm - 1| ≤ 2 / 10 ^ 9 := C79_quaternion_million t q a hm ha hq

theorem rotation_million_f64 (t : Bracketing ι) (A : ι → Mat (Fl f64.toRounding) 3 3) (a : ι → Mat ℝ 3 3)
    (hm : t.size ≤ 1000000) (ha : ∀ i ∈ t.factors, ∀ v : Vec ℝ 3, (a i * v).norm = v.norm)
    (hA : ∀ i ∈ t.factors, ∀ v : Vec ℝ 3, ((Spec.exactMat (A i) - a i) * v).norm ≤ 2 ^ (-51 : ℤ) * v.norm) (v : Vec ℝ 3) :
    ((Spec.exactMat (t.eval (· * ·) A) - t.eval (· * ·) a) * v).norm ≤ 2 / 10 ^ 9 * v.norm ∧
    |(Spec.exactMat (t.eval (· * ·) A) * v).norm - v.norm| ≤ 2 / 10 ^ 9 * v.norm := C79_rotation_million t A a hm ha hA v

/-- Up to a million rotation quaternions multiplied without normalizing: nothing overflows, and the product is within
`2e-9` of the product of the rotations meant. -/
theorem C86_quaternion_million (t : Bracketing ι) (q : ι → Quat (Ieee f64)) (a : ι → Quat ℝ) (hm : t.size ≤ 1000000)
    (hq : ∀ i ∈ t.factors, Spec.FiniteQuat (q i)) (ha : ∀ i ∈ t.factors, (a i).norm = 1)
    (hδ : ∀ i ∈ t.factors, (Spec.realQuat (q i) - a i).norm ≤ 2 ^ (-51 : ℤ)) :
    Spec.FiniteQuat (t.eval (· * ·) q) ∧
    (Spec.realQuat (t.eval (· * ·) q) - t.eval (· * ·) a).norm ≤ 2 / 10 ^ 9 ∧
    |Spec.length (t.eval (· * ·) q).coords - 1| ≤ 2 / 10 ^ 9 := by
  have key : ∀ t : Bracketing ι, t.size ≤ 1000000 → (∀ i ∈ t.factors, Spec.FiniteQuat (q i)) →
      (∀ i ∈ t.factors, (a i).norm = 1) → (∀ i ∈ t.factors, (Spec.realQuat (q i) - a i).norm ≤ 2 ^ (-51 : ℤ)) →
      Spec.FiniteQuat (t.eval (· * ·) q) ∧
      Spec.realQuat (t.eval (· * ·) q) = Spec.exactQuat (t.eval (· * ·) fun i => (q i).map toFl) := by
    intro t
    induction t with
    | factor i => exact fun _ h _ _ => ⟨h i (by simp [Bracketing.factors]), realQuat_eq _⟩
    | times l r hl hr =>
      intro hm hq ha hδ
      rw [Bracketing.size_times] at hm
      obtain ⟨q1, q2⟩ := Bracketing.all_times hq
      obtain ⟨a1, a2⟩ := Bracketing.all_times ha
      obtain ⟨d1, d2⟩ := Bracketing.all_times hδ
      have ml : l.size ≤ 1000000 := by omega
      have mr : r.size ≤ 1000000 := by omega
      obtain ⟨fl, el⟩ := hl ml q1 a1 d1
      obtain ⟨fr, er⟩ := hr mr q2 a2 d2
      have nl := (quaternion_million_f64 l (fun i => (q i).map toFl) a ml a1 (fun i hi => by rw [← realQuat_eq]; exact d1 i hi)).2
      have nr := (quaternion_million_f64 r (fun i => (q i).map toFl) a mr a2 (fun i hi => by rw [← realQuat_eq]; exact d2 i hi)).2
      have half : (2 : ℝ) / 10 ^ 9 ≤ 1 / 2 := by norm_num
      have mod : ∀ {x : Quat (Ieee f64)}, Spec.FiniteQuat x → |(Spec.realQuat x).norm - 1| ≤ 2 / 10 ^ 9 → Moderate x := by
        intro x hx h
        rw [realQuat_norm, abs_le] at h
        have h2 : (2 : ℝ) ^ (-240 : ℤ) ≤ 2 ^ (-1 : ℤ) := two_zpow_le_self_of_le (by norm_num)
        have h3 : (2 : ℝ) ^ (1 : ℤ) ≤ 2 ^ (240 : ℤ) := two_zpow_le_self_of_le (by norm_num)
        rw [zpow_neg_one] at h2
        rw [zpow_one] at h3
        refine ⟨hx, ?_, ?_⟩
        · exact below_of h.1 (by linarith) (by linarith : (2 : ℝ) ^ (-240 : ℤ) ≤ 1 / 2 * 1) le_rfl
        · exact above_of h.2 (by linarith) (le_refl (1 : ℝ)) (by linarith) zero_le_one
      have hf := quat_product_finite (mod fl (by rw [el]; exact nl)) (mod fr (by rw [er]; exact nr))
      refine ⟨hf, ?_⟩
      have e : ∀ x y : Quat (Ieee f64), Spec.FiniteQuat (x * y) →
          Spec.realQuat (x * y) = Spec.exactQuat (x.map toFl * y.map toFl) := by
        intro x y hxy
        have a := (C67_ieee_products (0 : Cx (Ieee f64)) 0 x y).2.2
        have : ∀ i, ((x * y).coords.data i).val = ((x.map toFl * y.map toFl).coords.data i).val := fun i => a i (hxy i)
        apply Quat.ext4
        · exact this 0
        · exact this 1
        · exact this 2
        · exact this 3
      have inj : ∀ {x : Quat (Ieee f64)} {y : Quat (Fl f64.toRounding)}, Spec.realQuat x = Spec.exactQuat y → x.map toFl = y := by
        intro x y h
        rw [realQuat_eq] at h
        have h' : ∀ i, ((x.map toFl).coords.data i).val = (y.coords.data i).val := fun i =>
          congrArg (fun q : Quat ℝ => q.coords.data i) h
        have : (x.map toFl).coords = y.coords := by
          ext i : 2
          exact Fl.ext (h' i)
        exact Quat.ext this
      have := e _ _ hf
      rw [inj el, inj er] at this
      exact this
  obtain ⟨f, e⟩ := key t hm hq ha hδ
  have h := quaternion_million_f64 t (fun i => (q i).map toFl) a hm ha (fun i hi => by rw [← realQuat_eq]; exact hδ i hi)
  refine ⟨f, ?_, ?_⟩
  · rw [e]; exact h.1
  · rw [← realQuat_norm, e]; exact h.2

/-- the real matrix with the entries of `A` -/
noncomputable def Spec.realMat {n : ℕ} (A : Mat (Ieee f64) n n) : Mat ℝ n n := A.map 0 Ieee.val

/-- Up to a million rotation matrices of space: nothing overflows, and the product acts on every vector within `2e-9` of
the product of the rotations meant. -/
theorem C86_rotation_million (t : Bracketing ι) (A : ι → Mat (Ieee f64) 3 3) (a : ι → Mat ℝ 3 3) (hm : t.size ≤ 1000000)
    (hA : ∀ i ∈ t.factors, ∀ c r, ((A i).data c r).Finite)
    (ha : ∀ i ∈ t.factors, ∀ v : Vec ℝ 3, (a i * v).norm = v.norm)
    (hδ : ∀ i ∈ t.factors, ∀ v : Vec ℝ 3, ((Spec.realMat (A i) - a i) * v).norm ≤ 2 ^ (-51 : ℤ) * v.norm) :
    (∀ c r, ((t.eval (· * ·) A).data c r).Finite) ∧
    ∀ v : Vec ℝ 3, ((Spec.realMat (t.eval (· * ·) A) - t.eval (· * ·) a) * v).norm ≤ 2 / 10 ^ 9 * v.norm ∧
      |(Spec.realMat (t.eval (· * ·) A) * v).norm - v.norm| ≤ 2 / 10 ^ 9 * v.norm := by
  have er : ∀ A : Mat (Ieee f64) 3 3, Spec.realMat A = Spec.exactMat (A.map 0 toFl) := fun A => by
    ext c r; simp [Spec.realMat, Spec.exactMat, toFl]
  have key : ∀ t : Bracketing ι, t.size ≤ 1000000 → (∀ i ∈ t.factors, ∀ c r, ((A i).data c r).Finite) →
      (∀ i ∈ t.factors, ∀ v : Vec ℝ 3, (a i * v).norm = v.norm) →
      (∀ i ∈ t.factors, ∀ v : Vec ℝ 3, ((Spec.realMat (A i) - a i) * v).norm ≤ 2 ^ (-51 : ℤ) * v.norm) →
      (∀ c r, ((t.eval (· * ·) A).data c r).Finite) ∧
      (t.eval (· * ·) A).map 0 toFl = t.eval (· * ·) fun i => (A i).map 0 toFl := by
    intro t
    induction t with
    | factor i => exact fun _ h _ _ => ⟨h i (by simp [Bracketing.factors]), rfl⟩
    | times l r hl hr =>
      intro hm hq ha hδ
      rw [Bracketing.size_times] at hm
      obtain ⟨q1, q2⟩ := Bracketing.all_times hq
      obtain ⟨a1, a2⟩ := Bracketing.all_times ha
      obtain ⟨d1, d2⟩ := Bracketing.all_times hδ
      have ml : l.size ≤ 1000000 := by omega
      have mr : r.size ≤ 1000000 := by omega
      obtain ⟨fl, el⟩ := hl ml q1 a1 d1
      obtain ⟨fr, er'⟩ := hr mr q2 a2 d2
      have nl := fun v => (rotation_million_f64 l (fun i => (A i).map 0 toFl) a ml a1
        (fun i hi => by rw [← er]; exact d1 i hi) v).2
      have nr := fun v => (rotation_million_f64 r (fun i => (A i).map 0 toFl) a mr a2
        (fun i hi => by rw [← er]; exact d2 i hi) v).2
      rw [← el] at nl
      rw [← er'] at nr
      -- entries are at most two
      have ent : ∀ {B : Mat (Ieee f64) 3 3}, (∀ c r, (B.data c r).Finite) →
          (∀ v : Vec ℝ 3, |(Spec.exactMat (B.map 0 toFl) * v).norm - v.norm| ≤ 2 / 10 ^ 9 * v.norm) →
          ∀ c r, Bd 1 (B.data c r) := by
        intro B hB h c r
        refine ⟨hB c r, ?_⟩
        have h1 := h ⟨Pi.single c 1⟩
        have e : (⟨Pi.single c 1⟩ : Vec ℝ 3).norm = 1 := by rw [← norm_toLp]; simp
        have e' : (Spec.exactMat (B.map 0 toFl) * (⟨Pi.single c 1⟩ : Vec ℝ 3)).norm =
            Real.sqrt (∑ r, (Spec.exactMat (B.map 0 toFl)).data c r ^ 2) := by
          rw [← norm_toLp, EuclideanSpace.norm_eq]
          simp [Mat.mulVec_data, Pi.single_apply]
        rw [e, e', mul_one, abs_le] at h1
        have h2 : |(Spec.exactMat (B.map 0 toFl)).data c r| ≤ Real.sqrt (∑ r, (Spec.exactMat (B.map 0 toFl)).data c r ^ 2) := by
          rw [← Real.sqrt_sq_eq_abs]
          exact Real.sqrt_le_sqrt (Finset.single_le_sum (f := fun r => (Spec.exactMat (B.map 0 toFl)).data c r ^ 2)
            (fun _ _ => sq_nonneg _) (Finset.mem_univ r))
        have h3 : (Spec.exactMat (B.map 0 toFl)).data c r = (B.data c r).val := by simp [Spec.exactMat, toFl]
        rw [h3] at h2
        rw [zpow_one]
        have : (2 : ℝ) / 10 ^ 9 ≤ 1 := by norm_num
        linarith [h1.2]
      have bl := ent fl nl
      have br := ent fr nr
      have hf : ∀ c s, ((l.eval (· * ·) A * r.eval (· * ·) A).data c s).Finite := by
        intro c s
        have m : ∀ i, Bd 2 ((l.eval (· * ·) A).data i s * (r.eval (· * ·) A).data c i) := fun i => (bl i s).mul (br c i)
        have : Bd 5 (((0 + (l.eval (· * ·) A).data 0 s * (r.eval (· * ·) A).data c 0) +
          (l.eval (· * ·) A).data 1 s * (r.eval (· * ·) A).data c 1) + (l.eval (· * ·) A).data 2 s * (r.eval (· * ·) A).data c 2) :=
          ((Bd.zero.add (m 0)).add ((m 1).mono (by norm_num))).add ((m 2).mono (by norm_num))
        rw [mul_entry]
        exact this.1
      refine ⟨hf, ?_⟩
      rw [Bracketing.eval, Bracketing.eval, ← el, ← er']
      ext c s
      rw [← (C67_ieee_matrix (l.eval (· * ·) A) (r.eval (· * ·) A) (0 : Vec (Ieee f64) 3)).1 c s (hf c s)]
      simp [toFl]
  obtain ⟨f, e⟩ := key t hm hA ha hδ
  refine ⟨f, fun v => ?_⟩
  rw [er, e]
  exact rotation_million_f64 t (fun i => (A i).map 0 toFl) a hm ha (fun i hi => by rw [← er]; exact hδ i hi) v

/-! ### the hypotheses hold for concrete inputs -/

theorem is_three : Is (num 3) 3 := is_num' (fl64 1 6755399441055744) (by norm_num)
theorem is_four : Is (num 4) 4 := is_num' (fl64 2 4503599627370496) (by norm_num)
theorem is_half : Is (num (1 / 2)) (1 / 2) := is_num' (fl64 (-1) 4503599627370496) (by norm_num)

theorem length_345 : Spec.length (Quat.new (num 3) (num 4) 0 0).coords = 5 := by
  rw [Spec.length, Fin.sum_univ_four]
  change Real.sqrt ((num 3).val ^ 2 + (num 4).val ^ 2 + (0 : ℝ) ^ 2 + (0 : ℝ) ^ 2) = 5
  rw [is_three.2, is_four.2, show (3 : ℝ) ^ 2 + 4 ^ 2 + 0 ^ 2 + 0 ^ 2 = 5 ^ 2 by norm_num, Real.sqrt_sq (by norm_num)]

theorem finite_345 : Spec.FiniteQuat (Quat.new (num 3) (num 4) 0 0) := fun i => by
  fin_cases i
  · exact is_three.1
  · exact is_four.1
  · exact finite_zero
  · exact finite_zero

/-- the quaternion `3 + 4 i`, which points exactly along a rotation without being of length one -/
example : Spec.FiniteQuat (Quat.new (num 3) (num 4) 0 0) ∧
    (2 : ℝ) ^ (-240 : ℤ) ≤ Spec.length (Quat.new (num 3) (num 4) 0 0).coords ∧
    Spec.length (Quat.new (num 3) (num 4) 0 0).coords ≤ 2 ^ (240 : ℤ) ∧
    (Quat.new (3 / 5) (4 / 5) 0 0 : Quat ℝ).norm = 1 ∧
    (Spec.realQuat (Quat.new (num 3) (num 4) 0 0) * (1 / Spec.length (Quat.new (num 3) (num 4) 0 0).coords) -
      Quat.new (3 / 5) (4 / 5) 0 0).norm ≤ 0 := by
  refine ⟨finite_345, ?_, ?_, ?_, ?_⟩
  · rw [length_345]
    calc (2 : ℝ) ^ (-240 : ℤ) ≤ 2 ^ (0 : ℤ) := two_zpow_le_self_of_le (by norm_num)
      _ ≤ 5 := by norm_num
  · rw [length_345]
    calc (5 : ℝ) ≤ 2 ^ (3 : ℤ) := by norm_num
      _ ≤ 2 ^ (240 : ℤ) := two_zpow_le_self_of_le (by norm_num)
  · rw [Quat.norm_eq_one_iff, Quat.normSquared_eq]; simp [Quat.new, Quat.s, Quat.x, Quat.y, Quat.z]; norm_num
  · rw [length_345, show Spec.realQuat (Quat.new (num 3) (num 4) 0 0) * (1 / 5 : ℝ) - Quat.new (3 / 5) (4 / 5) 0 0 = 0 by
      apply Quat.ext4
      · change (num 3).val * (1 / 5) - 3 / 5 = 0
        rw [is_three.2]; norm_num
      · change (num 4).val * (1 / 5) - 4 / 5 = 0
        rw [is_four.2]; norm_num
      · change (0 : ℝ) * (1 / 5) - 0 = 0
        norm_num
      · change (0 : ℝ) * (1 / 5) - 0 = 0
        norm_num]
    exact (Quat.norm_eq_zero.mpr rfl).le

/-- a thousand frames that each turn by the angle of `3 + 4 i`, from either side, starting at the identity -/
example [Lib f64] (side : ℕ → Bool) : Spec.FiniteQuat (((List.range 1000).map fun k => (side k, Quat.new (num 3) (num 4) 0 0)).foldl
    (fun s f => (if f.1 then f.2 * s else s * f.2).normalize) Quat.identity) := by
  refine (C86_quaternion_frames _ _ (fun f hf => ?_) ?_ ?_).1
  · obtain ⟨k, -, rfl⟩ := List.mem_map.mp hf
    refine ⟨finite_345, ?_, ?_⟩
    · change _ ≤ Spec.length (Quat.new (num 3) (num 4) 0 0).coords
      rw [length_345]
      calc (2 : ℝ) ^ (-240 : ℤ) ≤ 2 ^ (0 : ℤ) := two_zpow_le_self_of_le (by norm_num)
        _ ≤ 5 := by norm_num
    · change Spec.length (Quat.new (num 3) (num 4) 0 0).coords ≤ _
      rw [length_345]
      calc (5 : ℝ) ≤ 2 ^ (3 : ℤ) := by norm_num
        _ ≤ 2 ^ (240 : ℤ) := two_zpow_le_self_of_le (by norm_num)
  · intro i
    fin_cases i
    · exact finite_one
    · exact finite_zero
    · exact finite_zero
    · exact finite_zero
  · rw [show Spec.length (Quat.identity : Quat (Ieee f64)).coords = 1 by
      unfold Spec.length
      rw [Fin.sum_univ_four]
      change Real.sqrt ((1 : ℝ) ^ 2 + 0 ^ 2 + 0 ^ 2 + 0 ^ 2) = 1
      norm_num]
    norm_num

/-- the third of a turn about the diagonal, whose parts are `f64` numbers -/
example : Spec.FiniteQuat (Quat.new (num (1 / 2)) (num (1 / 2)) (num (1 / 2)) (num (1 / 2))) ∧
    (Quat.new (1 / 2) (1 / 2) (1 / 2) (1 / 2) : Quat ℝ).norm = 1 ∧
    (Spec.realQuat (Quat.new (num (1 / 2)) (num (1 / 2)) (num (1 / 2)) (num (1 / 2))) -
      Quat.new (1 / 2) (1 / 2) (1 / 2) (1 / 2)).norm ≤ 2 ^ (-51 : ℤ) := by
  have e : Spec.realQuat (Quat.new (num (1 / 2)) (num (1 / 2)) (num (1 / 2)) (num (1 / 2))) =
      Quat.new (1 / 2) (1 / 2) (1 / 2) (1 / 2) := by
    apply Quat.ext4 <;> exact is_half.2
  refine ⟨fun i => by fin_cases i <;> exact is_half.1, ?_, ?_⟩
  · rw [Quat.norm_eq_one_iff, Quat.normSquared_eq]; simp [Quat.new, Quat.s, Quat.x, Quat.y, Quat.z]; norm_num
  · rw [e, show ∀ q : Quat ℝ, (q - q).norm = 0 from fun q => by
      rw [← hamilton_norm, C39_hamilton_sub, sub_self, norm_zero]]
    positivity

/-- the complex number `3 + 4 i` -/
example : Spec.FiniteCx ⟨num 3, num 4⟩ ∧ (Spec.realCx ⟨num 3, num 4⟩).norm = 5 := by
  refine ⟨⟨is_three.1, is_four.1⟩, ?_⟩
  rw [realCx_norm']
  change Real.sqrt ((num 3).val ^ 2 + (num 4).val ^ 2) = 5
  rw [is_three.2, is_four.2, show (3 : ℝ) ^ 2 + 4 ^ 2 = 5 ^ 2 by norm_num, Real.sqrt_sq (by norm_num)]

/-- the quarter turn about the vertical axis -/
example : let A : Mat (Ieee f64) 3 3 := Mat.new3x3 0 1 0 (-1) 0 0 0 0 1
    let a : Mat ℝ 3 3 := Mat.new3x3 0 1 0 (-1) 0 0 0 0 1
    (∀ c r, (A.data c r).Finite) ∧ (∀ v : Vec ℝ 3, (a * v).norm = v.norm) ∧
    ∀ v : Vec ℝ 3, ((Spec.realMat A - a) * v).norm ≤ 2 ^ (-51 : ℤ) * v.norm := by
  intro A a
  have f1 : (1 : Ieee f64).Finite := finite_one
  have fm : (-1 : Ieee f64).Finite := Bd.one.neg.1
  have f0 : (0 : Ieee f64).Finite := finite_zero
  have e : Spec.realMat A = a := by
    have v1 : (1 : Ieee f64).val = 1 := rfl
    have v0 : (0 : Ieee f64).val = 0 := rfl
    have vm : (-1 : Ieee f64).val = -1 := val_neg _
    ext c r
    rw [Spec.realMat, map_data]
    fin_cases c <;> fin_cases r <;> first | exact v0 | exact v1 | exact vm
  refine ⟨fun c r => ?_, fun v => ?_, fun v => ?_⟩
  · fin_cases c <;> fin_cases r <;> first | exact f0 | exact f1 | exact fm
  · rw [Vec.norm_def, Vec.norm_def]
    congr 1
    simp [a, Vec.normSquared, Vec.dot_eq_sum, Fin.sum_univ_three, Mat.mulVec_data, Mat.new3x3]
    ring
  · rw [e, show (a - a) * v = 0 by ext i : 2; simp [Mat.mulVec_data], show (0 : Vec ℝ 3).norm = 0 by
      rw [← norm_toLp]; exact norm_zero]
    have := v.norm_nonneg
    positivity

end Cgl
