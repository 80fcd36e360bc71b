import Verif.Lemmas.Bound64
import Verif.Props.C85_Library
import Verif.Model.Transform
import Verif.Spec.FloatAngle

/-! # C85 - functions whose guards keep the arguments inside the domains -/

namespace Cgl
open Ieee FloatFns

section
variable [Library64]

theorem sin_bd {x : Ieee f64} (h : x.Finite) : Bd 0 (fsin x) := by
  obtain ⟨s, m, hm, rfl⟩ := h
  exact ⟨Libm.sin_fin s m hm, by simpa using Library64.sin_bound (fin s m hm) ⟨s, m, hm, rfl⟩⟩
theorem cos_bd {x : Ieee f64} (h : x.Finite) : Bd 0 (fcos x) := by
  obtain ⟨s, m, hm, rfl⟩ := h
  exact ⟨Libm.cos_fin s m hm, by simpa using Library64.cos_bound (fin s m hm) ⟨s, m, hm, rfl⟩⟩
theorem acos_bd {x : Ieee f64} (h : x.Finite) (h1 : |x.val| ≤ 1) : Bd 2 (facos x) := by
  obtain ⟨hf, h0, h4⟩ := Library64.acos_in x h h1
  exact ⟨hf, by rw [abs_of_nonneg h0]; norm_num; exact h4⟩

end

theorem sqrt_facts [Lib f64] {x : Ieee f64} (hx : x.Finite) (h0 : 0 ≤ x.val) :
    (fsqrt x).Finite ∧ (fsqrt x).val = f64.fl (Real.sqrt x.val) := by
  have hb : x.val ≤ 2 ^ (1024 : ℤ) := by
    obtain ⟨s, m, h, rfl⟩ := hx
    have hbig : f64.big ≤ 2 ^ (1024 : ℤ) := by
      have : f64.big = (2 ^ 53 - 1) * 2 ^ 971 := rfl
      rw [this, show (1024 : ℤ) = ((53 + 971 : ℕ) : ℤ) by norm_num, zpow_natCast, pow_add]
      exact mul_le_mul_of_nonneg_right (by norm_num) (by positivity)
    refine le_trans ?_ hbig
    cases s with
    | false => exact h.2.1
    | true => exact (neg_nonpos.mpr h.1).trans (h.1.trans h.2.1)
  have hs : Real.sqrt x.val ≤ 2 ^ (512 : ℤ) := by
    rw [Real.sqrt_le_left (by positivity), ← zpow_natCast, ← zpow_mul]
    exact hb
  have hfl : |f64.fl (Real.sqrt x.val)| ≤ 2 ^ (512 : ℤ) :=
    fl_le_pow (by norm_num) (by rw [abs_of_nonneg (Real.sqrt_nonneg _)]; exact hs)
  rw [Lib.sqrt_eq]
  have hf := finite_sqrt_of hx h0 (hfl.trans (two_zpow_le_big (by norm_num)))
  exact ⟨hf, (val_sqrt hf).1⟩

theorem eps64 : Is (num (1 / 2 ^ 52) * num (1 / 2 ^ 52)) (2 ^ (-104 : ℤ)) := by
  have h : Is (num (1 / 2 ^ 52)) (1 / 2 ^ 52) := is_num' (fl64 (-52) 4503599627370496) (by norm_num)
  have := h.mul h (c := 1 / 2 ^ 104) (fl64 (-104) 4503599627370496) (by norm_num)
  convert this using 1
  norm_num

theorem comp_le_length {n : ℕ} (v : Vec (Ieee f64) n) (i : Fin n) : |(v.data i).val| ≤ Spec.length v := by
  unfold Spec.length
  rw [← Real.sqrt_sq_eq_abs]
  exact Real.sqrt_le_sqrt (Finset.single_le_sum (f := fun i => (v.data i).val ^ 2) (fun _ _ => sq_nonneg _) (Finset.mem_univ i))

/-- `Quaternion::ln` is finite for finite quaternions of lengths between `2 ^ -50` and `2 ^ 510`. -/
theorem C85_quaternion_ln [Library64] (q : Quat (Ieee f64)) (hq : ∀ i, (q.coords.data i).Finite)
    (hlo : (2 : ℝ) ^ (-50 : ℤ) ≤ Spec.length q.coords) (hhi : Spec.length q.coords ≤ 2 ^ (510 : ℤ)) (i : Fin 4) :
    ((q.ln (num (1 / 2 ^ 52))).coords.data i).Finite := by
  have hb : ∀ i, Bd 510 (q.coords.data i) := fun i => ⟨hq i, (comp_le_length _ i).trans hhi⟩
  set a := q.coords.data 0 with ha
  set b := q.coords.data 1 with hb1
  set c := q.coords.data 2 with hc1
  set d := q.coords.data 3 with hd1
  have haa : Bd 1020 (a * a) := (hb 0).mul (hb 0)
  have hbb : Bd 1020 (b * b) := (hb 1).mul (hb 1)
  have hcc : Bd 1020 (c * c) := (hb 2).mul (hb 2)
  have hdd : Bd 1020 (d * d) := (hb 3).mul (hb 3)
  have z0 : (0 : ℝ) ≤ (0 : Ieee f64).val := le_rfl
  -- the squared norm of the vector part
  have ev : q.vector.normSquared = ((0 + b * b) + c * c) + d * d := rfl
  have v1 : Bd 1021 (0 + b * b) := Bd.zero.add hbb
  have v2 : Bd 1022 ((0 + b * b) + c * c) := v1.add (hcc.mono (by norm_num))
  have v3 : Bd 1023 (((0 + b * b) + c * c) + d * d) := v2.add (hdd.mono (by norm_num))
  have w1 := le_add_val v1.1 z0 (sq_val_nonneg hbb.1)
  have w2 := le_add_val v2.1 (z0.trans w1.1) (sq_val_nonneg hcc.1)
  have w3 := le_add_val v3.1 (z0.trans (w1.1.trans w2.1)) (sq_val_nonneg hdd.1)
  set V := ((0 + b * b) + c * c) + d * d with hV
  have hV0 : 0 ≤ V.val := z0.trans (w1.1.trans (w2.1.trans w3.1))
  -- the norm
  have en : q.norm = fsqrt ((((0 + a * a) + b * b) + c * c) + d * d) := rfl
  have hnf := C84_quaternion_f64 q hq ((two_zpow_le_self_of_le (by norm_num)).trans hlo) hhi
  have hn2 : ((((0 + a * a) + b * b) + c * c) + d * d).Finite :=
    (safe_norm_squared q.coords hq (safe64 (by norm_num) ((two_zpow_le_self_of_le (by norm_num)).trans hlo) hhi)).1
  have f3 := (finite_add hn2).1
  have f2 := (finite_add f3).1
  have f1 := (finite_add f2).1
  have u1 := le_add_val f1 z0 (sq_val_nonneg haa.1)
  have u2 := le_add_val f2 (z0.trans u1.1) (sq_val_nonneg hbb.1)
  have u3 := le_add_val f3 (z0.trans (u1.1.trans u2.1)) (sq_val_nonneg hcc.1)
  have u4 := le_add_val hn2 (z0.trans (u1.1.trans (u2.1.trans u3.1))) (sq_val_nonneg hdd.1)
  set M := (((0 + a * a) + b * b) + c * c) + d * d with hM
  have hM0 : 0 ≤ M.val := z0.trans (u1.1.trans (u2.1.trans (u3.1.trans u4.1)))
  have haM : (a * a).val ≤ M.val := u1.2.trans (u2.1.trans (u3.1.trans u4.1))
  have hN := sqrt_facts hn2 hM0
  have hNlo : (2 : ℝ) ^ (-51 : ℤ) ≤ q.norm.val := by
    have h7 : (7 : ℝ) * 2 ^ (-53 : ℤ) ≤ 1 / 2 := by norm_num
    have hL : 0 < Spec.length q.coords := lt_of_lt_of_le (by positivity) hlo
    have := (abs_le.mp hnf.2.1).1
    have h5 : (2 : ℝ) ^ (-50 : ℤ) = 2 * 2 ^ (-51 : ℤ) := by norm_num
    rw [h5] at hlo
    have h8 := mul_le_mul_of_nonneg_right h7 hL.le
    generalize (2 : ℝ) ^ (-51 : ℤ) = t at hlo ⊢
    generalize (7 : ℝ) * 2 ^ (-53 : ℤ) * Spec.length q.coords = z at this h8
    linarith
  have habs : |a.val| ≤ q.norm.val := by
    rcases le_total ((2 : ℝ) ^ (-511 : ℤ)) |a.val| with h | h
    · have k := le_fl_sqrt_fl_sq (x := |a.val|) (by rw [fl_abs, val_rep]) h
      rw [en, hN.2]
      refine k.trans (f64.mono _ _ (Real.sqrt_le_sqrt ?_))
      rw [abs_mul_abs_self, ← val_mul haa.1]
      exact haM
    · exact h.trans ((two_zpow_le_self_of_le (by norm_num)).trans hNlo)
  have hNpos : 0 < q.norm.val := lt_of_lt_of_le (by positivity) hNlo
  simp only [Quat.ln]
  rw [ev]
  split_ifs with hle
  · -- the vector part is negligible
    rw [le_iff_val v3.1 eps64.1, eps64.2] at hle
    have small : ∀ x : Ieee f64, (x * x).Finite → (x * x).val ≤ 2 ^ (-104 : ℤ) → x.val ^ 2 ≤ 2 ^ (-103 : ℤ) := fun x hf h => by
      by_contra hc
      have := pow_le_fl (by norm_num) (not_le.mp hc).le
      rw [pow_two, ← val_mul hf] at this
      exact absurd (this.trans h) (not_le.mpr (zpow_lt_zpow_right₀ one_lt_two (by norm_num)))
    have sb := small b hbb.1 (w1.2.trans (w2.1.trans (w3.1.trans hle)))
    have sc := small c hcc.1 (w2.2.trans (w3.1.trans hle))
    have sd := small d hdd.1 (w3.2.trans hle)
    have hL2 : (2 : ℝ) ^ (-100 : ℤ) ≤ a.val ^ 2 + b.val ^ 2 + c.val ^ 2 + d.val ^ 2 := by
      have : Spec.length q.coords ^ 2 = a.val ^ 2 + b.val ^ 2 + c.val ^ 2 + d.val ^ 2 := by
        unfold Spec.length
        rw [Real.sq_sqrt (Finset.sum_nonneg fun _ _ => sq_nonneg _), Fin.sum_univ_four]
      rw [← this, show (2 : ℝ) ^ (-100 : ℤ) = (2 ^ (-50 : ℤ)) ^ 2 by rw [← zpow_natCast, ← zpow_mul]; norm_num]
      exact pow_le_pow_left₀ (by positivity) hlo 2
    have sa : (2 : ℝ) ^ (-51 : ℤ) ≤ |a.val| := by
      refine le_of_sq_le_sq ?_ (abs_nonneg _)
      rw [sq_abs, ← zpow_natCast, ← zpow_mul]
      norm_num at hL2 sb sc sd ⊢
      linarith
    have e : (sabs q.scalar).Finite ∧ (sabs q.scalar).val = |a.val| := by
      change (sabs a).Finite ∧ (sabs a).val = _
      obtain ⟨s, m, hm, e⟩ := hq 0
      rw [ha, e]
      refine ⟨finite_fin _ _ _, ?_⟩
      change m = _
      cases s <;> simp [Ieee.val, signed, abs_of_nonneg hm.1]
    have hl := Library64.ln_fin _ e.1 (by rw [e.2]; exact (two_zpow_le_self_of_le (by norm_num)).trans sa)
    fin_cases i
    · exact hl
    · exact finite_zero
    · exact finite_zero
    · exact finite_zero
  · rw [le_iff_val v3.1 eps64.1, eps64.2] at hle
    have hs := sqrt_facts v3.1 hV0
    have hslo : (2 : ℝ) ^ (-52 : ℤ) ≤ |(fsqrt V).val| := by
      rw [hs.2]
      refine le_trans (pow_le_fl (by norm_num) ?_) (le_abs_self _)
      refine Real.le_sqrt_of_sq_le ?_
      rw [← zpow_natCast, ← zpow_mul]
      exact (not_le.mp hle).le
    have hratio : Bd 0 (q.scalar / q.norm) := by
      have h0 : |f64.fl (q.scalar.val / q.norm.val)| ≤ 2 ^ (0 : ℤ) := by
        refine fl_le_pow (by norm_num) ?_
        rw [abs_div, abs_of_pos hNpos, zpow_zero, div_le_one hNpos]
        exact habs
      have hf : (q.scalar / q.norm).Finite := finite_div_of (hq 0) hnf.1 hNpos.ne' (h0.trans (two_zpow_le_big (by norm_num)))
      exact ⟨hf, by rw [(val_div hf hnf.1).1]; exact h0⟩
    have hac := acos_bd hratio.1 (by simpa using hratio.2)
    have hk : Bd 54 (facos (q.scalar / q.norm) / fsqrt V) := hac.div hs.1 hslo
    have hl := Library64.ln_fin _ hnf.1 ((two_zpow_le_self_of_le (by norm_num)).trans hNlo)
    fin_cases i
    · exact hl
    · exact ((hb 1).mul hk).1
    · exact ((hb 2).mul hk).1
    · exact ((hb 3).mul hk).1

/-! ### rotations between vectors -/

theorem u64 : f64.u = 1 / 2 ^ 53 := by
  have : f64.u = 2 ^ (-53 : ℤ) := rfl
  rw [this]; norm_num
theorem tiny64 : f64.tiny ≤ 1 / 2 ^ 200 := by
  have : f64.tiny = 2 ^ (-1075 : ℤ) := rfl
  rw [this]
  calc (2 : ℝ) ^ (-1075 : ℤ) ≤ 2 ^ (-200 : ℤ) := two_zpow_le_self_of_le (by norm_num)
    _ = _ := by norm_num

/-- a normalized vector -/
theorem normalize_bd [Lib f64] {n : ℕ} (hn : n ≤ 4) (v : Vec (Ieee f64) n) (hv : ∀ i, (v.data i).Finite)
    (hlo : (2 : ℝ) ^ (-499 : ℤ) ≤ Spec.length v) (hhi : Spec.length v ≤ 2 ^ (510 : ℤ)) (i : Fin n) :
    Bd 1 (v.normalize.data i) := by
  obtain ⟨-, -, h, -⟩ := C84_vector_f64 (by omega) v hv hlo hhi
  obtain ⟨hf, he⟩ := h i
  refine ⟨hf, ?_⟩
  have hL : 0 < Spec.length v := lt_of_lt_of_le (by positivity) hlo
  have h1 : |(v.data i).val / Spec.length v| ≤ 1 := by
    rw [abs_div, abs_of_pos hL, div_le_one hL]; exact comp_le_length v i
  have hn' : (n : ℝ) ≤ 4 := by exact_mod_cast hn
  have ht := tiny64
  rw [u64] at he
  have hk : ((n + 3 : ℕ) + 3 : ℝ) * (1 / 2 ^ 53) * |(v.data i).val / Spec.length v| ≤ 10 * (1 / 2 ^ 53) * 1 := by
    refine mul_le_mul (mul_le_mul_of_nonneg_right ?_ (by positivity)) h1 (abs_nonneg _) (by positivity)
    push_cast; linarith
  have h2 := abs_sub_abs_le_abs_sub (v.normalize.data i).val ((v.data i).val / Spec.length v)
  have h3 := h2.trans (he.trans (add_le_add hk ht))
  norm_num at h3 ⊢
  linarith

theorem tryFromValue_some [Lib f64] {n : ℕ} {v : Vec (Ieee f64) n} {t : Ieee f64} {w : Unit' (Vec (Ieee f64) n)}
    (h : Unit'.tryFromValue v t = some w) : w.value = v.normalize ∧ t * t < v.normSquared := by
  simp only [Unit'.tryFromValue, Unit'.tryFromValueWithNorm, Option.map_eq_some_iff] at h
  obtain ⟨p, hp, rfl⟩ := h
  split_ifs at hp with hc
  · rw [← Option.some.inj hp]; exact ⟨rfl, hc⟩

/-- a vector of moderate components that is longer than the threshold -/
theorem axis_bd [Lib f64] (v : Vec (Ieee f64) 3) (hv : ∀ i, Bd 3 (v.data i))
    (h : num (1 / 2 ^ 52) * num (1 / 2 ^ 52) < v.normSquared) (i : Fin 3) : Bd 1 (v.normalize.data i) := by
  have hf : (v.dot v).Finite := by
    change (((0 + v.data 0 * v.data 0) + v.data 1 * v.data 1) + v.data 2 * v.data 2).Finite
    have p : ∀ i, Bd 6 (v.data i * v.data i) := fun i => (hv i).mul (hv i)
    exact (((Bd.zero.add (p 0)).add ((p 1).mono (by norm_num))).add ((p 2).mono (by norm_num))).1
  have hs : (2 : ℝ) ^ (-104 : ℤ) < (v.dot v).val := by
    have := (lt_iff_val eps64.1 hf).mp h
    rwa [eps64.2] at this
  have he := C67_ieee_dot_error v v hf
  have e1 : (∑ i, |(v.data i).val| * |(v.data i).val|) = ∑ i, (v.data i).val * (v.data i).val :=
    Finset.sum_congr rfl fun i _ => abs_mul_abs_self _
  rw [e1, u64] at he
  set S := ∑ i, (v.data i).val * (v.data i).val with hS
  have hS0 : 0 ≤ S := Finset.sum_nonneg fun i _ => mul_self_nonneg _
  have hlen : Spec.length v = Real.sqrt S := by
    unfold Spec.length; congr 1; exact Finset.sum_congr rfl fun i _ => pow_two _
  have ht := tiny64
  have ht0 := f64.tiny_nonneg
  have hlo : (2 : ℝ) ^ (-106 : ℤ) ≤ S := by
    have := (abs_le.mp he).2
    have hk : ((1 + 1 / 2 ^ 53 : ℝ) ^ 3 - 1) * S ≤ 1 * S := mul_le_mul_of_nonneg_right (by norm_num) hS0
    have hk2 : 2 * ((3 : ℕ) : ℝ) * (1 + 1 / 2 ^ 53 : ℝ) ^ 3 * f64.tiny ≤ 12 * (1 / 2 ^ 200) :=
      mul_le_mul (by norm_num) ht ht0 (by norm_num)
    have h3 := this.trans (add_le_add hk hk2)
    norm_num at h3 hs ⊢
    linarith
  have hhi : S ≤ 2 ^ (8 : ℤ) := by
    have : ∀ i, (v.data i).val * (v.data i).val ≤ 64 := fun i => by
      rw [← abs_mul_abs_self]
      have := (hv i).2
      norm_num at this
      nlinarith [abs_nonneg (v.data i).val]
    rw [hS, Fin.sum_univ_three]
    norm_num
    linarith [this 0, this 1, this 2]
  refine normalize_bd (by norm_num) v (fun i => (hv i).1) ?_ ?_ i <;> rw [hlen]
  · refine le_trans ?_ (Real.sqrt_le_sqrt hlo)
    refine Real.le_sqrt_of_sq_le ?_
    rw [← zpow_natCast, ← zpow_mul]
    exact two_zpow_le_self_of_le (by norm_num)
  · refine (Real.sqrt_le_sqrt hhi).trans ?_
    rw [Real.sqrt_le_left (by positivity), ← zpow_natCast, ← zpow_mul]
    exact two_zpow_le_self_of_le (by norm_num)

/-- `Quaternion::rotation_between` returns a finite quaternion, or nothing, for finite vectors of lengths in the safe
range, parallel or not. -/
theorem C85_quaternion_rotation_between [Library64] (v w : Vec (Ieee f64) 3)
    (hv : ∀ i, (v.data i).Finite) (hw : ∀ i, (w.data i).Finite)
    (hv1 : (2 : ℝ) ^ (-499 : ℤ) ≤ Spec.length v) (hv2 : Spec.length v ≤ 2 ^ (510 : ℤ))
    (hw1 : (2 : ℝ) ^ (-499 : ℤ) ≤ Spec.length w) (hw2 : Spec.length w ≤ 2 ^ (510 : ℤ))
    (q : Quat (Ieee f64)) (h : Quat.rotationBetween (num (1 / 2 ^ 52)) v w = some q) (i : Fin 4) :
    (q.coords.data i).Finite := by
  have hid : ((Quat.identity : Quat (Ieee f64)).coords.data i).Finite := by
    fin_cases i
    · exact finite_one
    · exact finite_zero
    · exact finite_zero
    · exact finite_zero
  simp only [Quat.rotationBetween] at h
  split at h
  · rename_i a b ha hb
    have ua : ∀ i, Bd 1 (a.value.data i) := fun i => by
      rw [(tryFromValue_some ha).1]; exact normalize_bd (by norm_num) v hv hv1 hv2 i
    have ub : ∀ i, Bd 1 (b.value.data i) := fun i => by
      rw [(tryFromValue_some hb).1]; exact normalize_bd (by norm_num) w hw hw1 hw2 i
    have p : ∀ i j, Bd 2 (a.value.data i * b.value.data j) := fun i j => (ua i).mul (ub j)
    have hd : (a.value.dot b.value).Finite := by
      change (((0 + a.value.data 0 * b.value.data 0) + a.value.data 1 * b.value.data 1) +
        a.value.data 2 * b.value.data 2).Finite
      exact (((Bd.zero.add (p 0 0)).add ((p 1 1).mono (by norm_num))).add ((p 2 2).mono (by norm_num))).1
    have hcr : ∀ i, Bd 3 ((a.value.cross b.value).data i) := fun i => by
      fin_cases i
      · exact (p 1 2).sub ((ua 2).mul (ub 1))
      · exact (p 2 0).sub ((ua 0).mul (ub 2))
      · exact (p 0 1).sub ((ua 1).mul (ub 0))
    simp only [Quat.rotationBetweenAxis] at h
    split at h
    · rename_i axis hax
      have hx := tryFromValue_some hax
      split_ifs at h with h1 h2
      · exact Option.some.inj h ▸ hid
      · rw [le_iff_val hd Is.one.neg.1, Is.one.neg.2] at h1
        rw [ge_iff_le, le_iff_val Is.one.1 hd, Is.one.2] at h2
        have hac := acos_bd hd (abs_le.mpr ⟨(not_le.mp h1).le, (not_le.mp h2).le⟩)
        have hhalf : (facos (a.value.dot b.value) * (1 / (1 + 1))).Finite := by
          have h2 : Is ((1 : Ieee f64) + 1) 2 := Is.one.add Is.one (fl64 1 4503599627370496) (by norm_num)
          have hh : Is ((1 : Ieee f64) / (1 + 1)) (1 / 2) :=
            Is.one.div h2 (by norm_num) (fl64 (-1) 4503599627370496) (by norm_num)
          exact (hac.mul (k := -1) ⟨hh.1, by rw [hh.2]; norm_num⟩).1
        have ax : ∀ j, Bd 1 (axis.value.data j) := fun j => by rw [hx.1]; exact axis_bd _ hcr hx.2 j
        rw [← Option.some.inj h]
        fin_cases i
        · exact (cos_bd hhalf).1
        · exact ((ax 0).mul (sin_bd hhalf)).1
        · exact ((ax 1).mul (sin_bd hhalf)).1
        · exact ((ax 2).mul (sin_bd hhalf)).1
    · split_ifs at h
      exact Option.some.inj h ▸ hid
  · exact Option.some.inj h ▸ hid

/-- `Rotation2::rotation_between`, which takes the sine from the cross product, returns a finite matrix. -/
theorem C85_rotation2_rotation_between [Library64] (v w : Vec (Ieee f64) 2)
    (hv : ∀ i, (v.data i).Finite) (hw : ∀ i, (w.data i).Finite)
    (hv1 : (2 : ℝ) ^ (-499 : ℤ) ≤ Spec.length v) (hv2 : Spec.length v ≤ 2 ^ (510 : ℤ))
    (hw1 : (2 : ℝ) ^ (-499 : ℤ) ≤ Spec.length w) (hw2 : Spec.length w ≤ 2 ^ (510 : ℤ)) (c r : Fin 2) :
    ((Rotation.rotationBetween2 v w).matrix.data c r).Finite := by
  simp only [Rotation.rotationBetween2]
  split
  · rename_i a b ha hb
    have ua : ∀ i, Bd 1 (a.value.data i) := fun i => by
      rw [(tryFromValue_some ha).1]; exact normalize_bd (by norm_num) v hv hv1 hv2 i
    have ub : ∀ i, Bd 1 (b.value.data i) := fun i => by
      rw [(tryFromValue_some hb).1]; exact normalize_bd (by norm_num) w hw hw1 hw2 i
    have p : ∀ i j, Bd 2 (a.value.data i * b.value.data j) := fun i j => (ua i).mul (ub j)
    have hd : (a.value.dot b.value).Finite := by
      change ((0 + a.value.data 0 * b.value.data 0) + a.value.data 1 * b.value.data 1).Finite
      exact ((Bd.zero.add (p 0 0)).add ((p 1 1).mono (by norm_num))).1
    have hs : (a.value.data 0 * b.value.data 1 - a.value.data 1 * b.value.data 0).Finite :=
      ((p 0 1).sub ((ua 1).mul (ub 0))).1
    have ht := Library64.atan2_fin _ _ hs hd
    have h1 := (sin_bd ht)
    have h2 := (cos_bd ht)
    fin_cases c <;> fin_cases r
    · exact h2.1
    · exact h1.1
    · exact h1.neg.1
    · exact h2.1
  · fin_cases c <;> fin_cases r
    · exact finite_one
    · exact finite_zero
    · exact finite_zero
    · exact finite_one

/-! ### spherical interpolation -/

theorem fl_err64 {a : ℝ} {k : ℤ} (hk : -100 ≤ k) (h : |a| ≤ 2 ^ k) : |f64.fl a - a| ≤ 2 ^ (k - 52) := by
  refine (f64.err a).trans ?_
  have h1 : f64.u * |a| ≤ 2 ^ (-53 : ℤ) * 2 ^ k := mul_le_mul_of_nonneg_left h f64.u_nonneg
  rw [← zpow_add₀ two_ne_zero] at h1
  have h2 : f64.tiny ≤ 2 ^ (-53 + k) := two_zpow_le_self_of_le (j := -1075) (by omega)
  have h3 : (2 : ℝ) ^ (k - 52) = 2 ^ (-53 + k) + 2 ^ (-53 + k) := by
    rw [← mul_two, ← zpow_add_one₀ two_ne_zero]; congr 1; ring
  rw [h3]
  exact add_le_add h1 h2

section
variable {p r : Quat (Ieee f64)} (hp : ∀ i, Bd 1 (p.coords.data i)) (hr : ∀ i, Bd 1 (r.coords.data i))
include hp hr

/-- the computed and the exact inner product -/
theorem dot_near : (p.dot r).Finite ∧
    |(p.dot r).val - ∑ i, (p.coords.data i).val * (r.coords.data i).val| ≤ 1 / 100 := by
  have pr : ∀ i, Bd 2 (p.coords.data i * r.coords.data i) := fun i => (hp i).mul (hr i)
  have hf : (p.coords.dot r.coords).Finite := by
    change ((((0 + p.coords.data 0 * r.coords.data 0) + p.coords.data 1 * r.coords.data 1) +
      p.coords.data 2 * r.coords.data 2) + p.coords.data 3 * r.coords.data 3).Finite
    exact ((((Bd.zero.add (pr 0)).add ((pr 1).mono (by norm_num))).add ((pr 2).mono (by norm_num))).add
      ((pr 3).mono (by norm_num))).1
  refine ⟨hf, (C67_ieee_dot_error p.coords r.coords hf).trans ?_⟩
  have hS : (∑ i, |(p.coords.data i).val| * |(r.coords.data i).val|) ≤ 16 := by
    have : ∀ i, |(p.coords.data i).val| * |(r.coords.data i).val| ≤ 4 := fun i => by
      have h1 := (hp i).2
      have h2 := (hr i).2
      norm_num at h1 h2
      calc _ ≤ (2 : ℝ) * 2 := mul_le_mul h1 h2 (abs_nonneg _) (by norm_num)
        _ = 4 := by norm_num
    rw [Fin.sum_univ_four]
    linarith [this 0, this 1, this 2, this 3]
  have hS0 : 0 ≤ (∑ i, |(p.coords.data i).val| * |(r.coords.data i).val|) :=
    Finset.sum_nonneg fun i _ => mul_nonneg (abs_nonneg _) (abs_nonneg _)
  have ht := tiny64
  have ht0 := f64.tiny_nonneg
  have k1 : ((1 + f64.u) ^ 4 - 1) * (∑ i, |(p.coords.data i).val| * |(r.coords.data i).val|) ≤ 1 / 10000 * 16 :=
    mul_le_mul (by rw [u64]; norm_num) hS hS0 (by norm_num)
  have k2 : 2 * ((4 : ℕ) : ℝ) * (1 + f64.u) ^ 4 * f64.tiny ≤ 100 * (1 / 2 ^ 200) :=
    mul_le_mul (by rw [u64]; norm_num) ht ht0 (by norm_num)
  refine (add_le_add k1 k2).trans (by norm_num)

/-- A linear interpolation between quaternions that are not nearly opposite is not short. -/
theorem nlerp_finite [Lib f64] {t : Ieee f64} (ht : t.Finite) (ht0 : 0 ≤ t.val) (ht1 : t.val ≤ 1)
    (hP : 3 / 4 ≤ ∑ i, (p.coords.data i).val * (p.coords.data i).val)
    (hR : 3 / 4 ≤ ∑ i, (r.coords.data i).val * (r.coords.data i).val)
    (hS : 1 / 2 ≤ ∑ i, (p.coords.data i).val * (r.coords.data i).val) (i : Fin 4) :
    ((p.nlerp r t).coords.data i).Finite := by
  have htb : Bd 0 t := ⟨ht, by rw [abs_of_nonneg ht0]; simpa using ht1⟩
  have hwf : (1 - t).Finite := (Bd.one.sub htb).1
  have hwv : (1 - t).val = f64.fl (1 - t.val) := val_sub hwf
  have hw0 : 0 ≤ (1 - t).val := by rw [hwv]; exact f64.nonneg (by linarith)
  have hw1 : (1 - t).val ≤ 1 := by
    rw [hwv]
    have := f64.mono (1 - t.val) 1 (by linarith)
    rwa [f64.one] at this
  have hwe : |(1 - t).val - (1 - t.val)| ≤ 2 ^ (-52 : ℤ) := by
    rw [hwv]
    exact fl_err64 (k := 0) (by norm_num) (by rw [abs_of_nonneg (by linarith)]; norm_num; exact ht0)
  have hwb : Bd 0 (1 - t) := ⟨hwf, by rw [abs_of_nonneg hw0]; simpa using hw1⟩
  set w := 1 - t with hw
  set x := p * w + r * t with hx
  have ex : ∀ i, x.coords.data i = p.coords.data i * w + r.coords.data i * t := fun i => by fin_cases i <;> rfl
  have a1 : ∀ i, Bd 1 (p.coords.data i * w) := fun i => (hp i).mul hwb
  have b1 : ∀ i, Bd 1 (r.coords.data i * t) := fun i => (hr i).mul htb
  have x1 : ∀ i, Bd 2 (x.coords.data i) := fun i => by rw [ex]; exact (a1 i).add (b1 i)
  have near : ∀ i, |(x.coords.data i).val - ((p.coords.data i).val * w.val + (r.coords.data i).val * t.val)| ≤ 1 / 1000 := by
    intro i
    have e1 : |(p.coords.data i * w).val - (p.coords.data i).val * w.val| ≤ 2 ^ ((1 : ℤ) - 52) := by
      rw [val_mul (a1 i).1]
      refine fl_err64 (by norm_num) ?_
      rw [abs_mul]
      calc _ ≤ (2 : ℝ) ^ (1 : ℤ) * 2 ^ (0 : ℤ) := mul_le_mul (hp i).2 hwb.2 (abs_nonneg _) (by positivity)
        _ = _ := by norm_num
    have e2 : |(r.coords.data i * t).val - (r.coords.data i).val * t.val| ≤ 2 ^ ((1 : ℤ) - 52) := by
      rw [val_mul (b1 i).1]
      refine fl_err64 (by norm_num) ?_
      rw [abs_mul]
      calc _ ≤ (2 : ℝ) ^ (1 : ℤ) * 2 ^ (0 : ℤ) := mul_le_mul (hr i).2 htb.2 (abs_nonneg _) (by positivity)
        _ = _ := by norm_num
    have e3 : |(x.coords.data i).val - ((p.coords.data i * w).val + (r.coords.data i * t).val)| ≤ 2 ^ ((2 : ℤ) - 52) := by
      have := (x1 i).1
      rw [ex] at this ⊢
      rw [val_add this]
      refine fl_err64 (by norm_num) ((abs_add_le _ _).trans ?_)
      have h1 := (a1 i).2
      have h2 := (b1 i).2
      norm_num at h1 h2 ⊢
      linarith
    have := abs_le.mp e1
    have := abs_le.mp e2
    have := abs_le.mp e3
    rw [abs_le]
    norm_num at *
    constructor <;> linarith
  have mb : ∀ i, |(p.coords.data i).val * w.val + (r.coords.data i).val * t.val| ≤ 4 := fun i => by
    have h1 := (x1 i).2
    have h2 := abs_le.mp (near i)
    have hp1 := (hp i).2
    have hr1 := (hr i).2
    norm_num at hp1 hr1
    refine (abs_add_le _ _).trans ?_
    rw [abs_mul, abs_mul, abs_of_nonneg hw0, abs_of_nonneg ht0]
    have k1 := mul_le_mul hp1 hw1 hw0 (by norm_num)
    have k2 := mul_le_mul hr1 ht1 ht0 (by norm_num)
    linarith
  have sq : ∀ i, ((p.coords.data i).val * w.val + (r.coords.data i).val * t.val) ^ 2 - 1 / 100 ≤
      (x.coords.data i).val ^ 2 := fun i => by
    have h1 := abs_le.mp (near i)
    have h2 := abs_le.mp (mb i)
    generalize (p.coords.data i).val * w.val + (r.coords.data i).val * t.val = m at h1 h2 ⊢
    nlinarith
  have hm : 1 / 8 ≤ ∑ i, ((p.coords.data i).val * w.val + (r.coords.data i).val * t.val) ^ 2 := by
    have e : ∑ i, ((p.coords.data i).val * w.val + (r.coords.data i).val * t.val) ^ 2 =
        w.val ^ 2 * (∑ i, (p.coords.data i).val * (p.coords.data i).val) +
        t.val ^ 2 * (∑ i, (r.coords.data i).val * (r.coords.data i).val) +
        2 * (w.val * t.val) * ∑ i, (p.coords.data i).val * (r.coords.data i).val := by
      simp only [Fin.sum_univ_four]; ring
    rw [e]
    have k1 := mul_le_mul_of_nonneg_left hP (sq_nonneg w.val)
    have k2 := mul_le_mul_of_nonneg_left hR (sq_nonneg t.val)
    have k3 := mul_le_mul_of_nonneg_left hS (mul_nonneg zero_le_two (mul_nonneg hw0 ht0))
    have h := (abs_le.mp hwe).1
    norm_num at h
    have hs : 1 / 2 ≤ w.val + t.val := by linarith
    nlinarith [mul_self_nonneg (w.val + t.val - 1 / 2)]
  have hX : 1 / 16 ≤ ∑ i, (x.coords.data i).val ^ 2 := by
    rw [Fin.sum_univ_four] at hm ⊢
    linarith [sq 0, sq 1, sq 2, sq 3]
  have hX' : ∑ i, (x.coords.data i).val ^ 2 ≤ 64 := by
    have : ∀ i, (x.coords.data i).val ^ 2 ≤ 16 := fun i => by
      have := (x1 i).2
      norm_num at this
      rw [← sq_abs]
      nlinarith [abs_nonneg (x.coords.data i).val]
    rw [Fin.sum_univ_four]
    linarith [this 0, this 1, this 2, this 3]
  refine (C84_quaternion_f64 x (fun i => (x1 i).1) ?_ ?_).2.2.1 i
  · refine le_trans ?_ (Real.sqrt_le_sqrt hX)
    refine le_trans (two_zpow_le_self_of_le (k := -2) (by norm_num)) (Real.le_sqrt_of_sq_le (by norm_num))
  · refine (Real.sqrt_le_sqrt hX').trans ?_
    refine le_trans ?_ (two_zpow_le_self_of_le (j := 3) (by norm_num))
    rw [Real.sqrt_le_left (by positivity)]; norm_num

end

/-- `Quaternion::slerp` returns a finite quaternion for finite quaternions of lengths between 7/8 and 9/8, identical,
opposite or anything between, an amount between zero and one, and a threshold like the `0.0005` of the code. -/
theorem C85_slerp [Library64] (q r : Quat (Ieee f64)) (hq : ∀ i, (q.coords.data i).Finite)
    (hr : ∀ i, (r.coords.data i).Finite) (hq1 : |Spec.length q.coords - 1| ≤ 1 / 8)
    (hr1 : |Spec.length r.coords - 1| ≤ 1 / 8) (amount : Ieee f64) (ht : amount.Finite) (ht0 : 0 ≤ amount.val)
    (ht1 : amount.val ≤ 1) (threshold : Ieee f64) (hth : threshold.Finite)
    (hth1 : (2 : ℝ) ^ (-20 : ℤ) ≤ threshold.val) (hth2 : threshold.val ≤ 1 / 2) (i : Fin 4) :
    ((q.slerp threshold r amount).coords.data i).Finite := by
  have hqb : ∀ i, Bd 1 (q.coords.data i) := fun i =>
    ⟨hq i, (comp_le_length _ i).trans (by have := (abs_le.mp hq1).2; norm_num; linarith)⟩
  have hrb : ∀ i, Bd 1 (r.coords.data i) := fun i =>
    ⟨hr i, (comp_le_length _ i).trans (by have := (abs_le.mp hr1).2; norm_num; linarith)⟩
  have len : ∀ x : Quat (Ieee f64), |Spec.length x.coords - 1| ≤ 1 / 8 →
      3 / 4 ≤ ∑ i, (x.coords.data i).val * (x.coords.data i).val := fun x hx => by
    have e : Spec.length x.coords ^ 2 = ∑ i, (x.coords.data i).val * (x.coords.data i).val := by
      unfold Spec.length
      rw [Real.sq_sqrt (Finset.sum_nonneg fun _ _ => sq_nonneg _)]
      exact Finset.sum_congr rfl fun i _ => pow_two _
    rw [← e]
    have := (abs_le.mp hx).1
    nlinarith
  have ecore : ∀ p : Quat (Ieee f64), (∀ i, Bd 1 (p.coords.data i)) →
      3 / 4 ≤ ∑ i, (p.coords.data i).val * (p.coords.data i).val →
      -(1 / 100) ≤ ∑ i, (p.coords.data i).val * (r.coords.data i).val →
      ((if sabs (p.dot r) ≥ 1 then p else
        if sabs (fsqrt (1 - p.dot r * p.dot r)) < threshold then p.nlerp r amount else
        Quat.fromParts
          (p.scalar * (fsin ((1 - amount) * facos (p.dot r)) / fsqrt (1 - p.dot r * p.dot r)) +
            r.scalar * (fsin (amount * facos (p.dot r)) / fsqrt (1 - p.dot r * p.dot r)))
          (p.vector * (fsin ((1 - amount) * facos (p.dot r)) / fsqrt (1 - p.dot r * p.dot r)) +
            r.vector * (fsin (amount * facos (p.dot r)) / fsqrt (1 - p.dot r * p.dot r)))).coords.data i).Finite := by
    intro p hp hP hS
    obtain ⟨hcf, hce⟩ := dot_near hp hrb
    set c := p.dot r with hc
    have habs : ∀ y : Ieee f64, y.Finite → (sabs y).Finite ∧ (sabs y).val = |y.val| := by
      rintro _ ⟨s, m, hm, rfl⟩
      refine ⟨finite_fin _ _ _, ?_⟩
      change m = _
      cases s <;> simp [Ieee.val, signed, abs_of_nonneg hm.1]
    split_ifs with h1 h2
    · exact (hp i).1
    · rw [ge_iff_le, le_iff_val Is.one.1 (habs c hcf).1, Is.one.2, (habs c hcf).2, not_le] at h1
      have hcb : Bd 0 c := ⟨hcf, by simpa using h1.le⟩
      have hccb : Bd 0 (c * c) := hcb.mul hcb
      have hcc := val_mul hccb.1
      have hsf : (1 - c * c).Finite := (Bd.one.sub hccb).1
      have hsv : (1 - c * c).val = f64.fl (1 - f64.fl (c.val * c.val)) := by rw [val_sub hsf, hcc]; rfl
      have hcc1 : f64.fl (c.val * c.val) ≤ 1 := by
        have := hccb.2; rw [hcc] at this; simpa using (le_abs_self _).trans this
      have hs0 : 0 ≤ (1 - c * c).val := by rw [hsv]; exact f64.nonneg (by linarith)
      obtain ⟨hsq, hsqv⟩ := sqrt_facts hsf hs0
      rw [lt_iff_val (habs _ hsq).1 hth, (habs _ hsq).2] at h2
      have hc2 : 1 / 2 ≤ c.val * c.val := by
        by_contra hcon
        have k1 : f64.fl (c.val * c.val) ≤ 2 ^ (-1 : ℤ) :=
          (le_abs_self _).trans (fl_le_pow (by norm_num) (by
            rw [abs_of_nonneg (mul_self_nonneg _)]; norm_num at hcon ⊢; exact hcon.le))
        have k2 : (2 : ℝ) ^ (-1 : ℤ) ≤ (1 - c * c).val := by
          rw [hsv]; exact pow_le_fl (by norm_num) (by norm_num at k1 ⊢; linarith)
        have k3 : (2 : ℝ) ^ (-1 : ℤ) ≤ (fsqrt (1 - c * c)).val := by
          rw [hsqv]
          refine pow_le_fl (by norm_num) (Real.le_sqrt_of_sq_le ?_)
          norm_num at k2 ⊢; linarith
        have := k3.trans (le_abs_self _)
        norm_num at this
        linarith
      refine nlerp_finite hp hrb ht ht0 ht1 hP (len r hr1) ?_ i
      have := abs_le.mp hce
      rcases le_total 0 c.val with h0 | h0
      · have : 7 / 10 ≤ c.val := by nlinarith
        linarith
      · have : c.val ≤ -(7 / 10) := by nlinarith
        linarith
    · rw [ge_iff_le, le_iff_val Is.one.1 (habs c hcf).1, Is.one.2, (habs c hcf).2, not_le] at h1
      have hcb : Bd 0 c := ⟨hcf, by simpa using h1.le⟩
      have hccb : Bd 0 (c * c) := hcb.mul hcb
      have hcc := val_mul hccb.1
      have hsf : (1 - c * c).Finite := (Bd.one.sub hccb).1
      have hsv : (1 - c * c).val = f64.fl (1 - f64.fl (c.val * c.val)) := by rw [val_sub hsf, hcc]; rfl
      have hcc1 : f64.fl (c.val * c.val) ≤ 1 := by
        have := hccb.2; rw [hcc] at this; simpa using (le_abs_self _).trans this
      have hs0 : 0 ≤ (1 - c * c).val := by rw [hsv]; exact f64.nonneg (by linarith)
      obtain ⟨hsq, hsqv⟩ := sqrt_facts hsf hs0
      rw [lt_iff_val (habs _ hsq).1 hth, (habs _ hsq).2, not_lt] at h2
      have hslo := hth1.trans h2
      have hac := acos_bd hcf h1.le
      have htb : Bd 0 amount := ⟨ht, by rw [abs_of_nonneg ht0]; simpa using ht1⟩
      have ha : Bd 20 (fsin ((1 - amount) * facos c) / fsqrt (1 - c * c)) :=
        (sin_bd ((Bd.one.sub htb).mul hac).1).div hsq hslo
      have hb : Bd 20 (fsin (amount * facos c) / fsqrt (1 - c * c)) := (sin_bd (htb.mul hac).1).div hsq hslo
      fin_cases i
      · exact (((hp 0).mul ha).add ((hrb 0).mul hb)).1
      · exact (((hp 1).mul ha).add ((hrb 1).mul hb)).1
      · exact (((hp 2).mul ha).add ((hrb 2).mul hb)).1
      · exact (((hp 3).mul ha).add ((hrb 3).mul hb)).1
  have hd := dot_near hqb hrb
  have hde := abs_le.mp hd.2
  by_cases hneg : q.dot r < 0
  · have en : ∀ i, (-q).coords.data i = -q.coords.data i := fun i => by fin_cases i <;> rfl
    have hv : (q.dot r).val < 0 := by rw [lt_iff_val hd.1 finite_zero] at hneg; exact hneg
    have key := ecore (-q) (fun i => by rw [en]; exact (hqb i).neg)
      (by simp only [en, val_neg, neg_mul_neg]; exact len q hq1)
      (by simp only [en, val_neg, neg_mul, Finset.sum_neg_distrib]; linarith)
    simp only [Quat.slerp, if_pos hneg]
    exact key
  · have hv : 0 ≤ (q.dot r).val := by rw [lt_iff_val hd.1 finite_zero] at hneg; exact not_lt.mp hneg
    have key := ecore q hqb (len q hq1) (by linarith)
    simp only [Quat.slerp, if_neg hneg]
    exact key

/-! ### quaternions of matrices -/

theorem half_bd : Bd (-1) ((1 : Ieee f64) / (1 + 1)) := by
  have h2 : Is ((1 : Ieee f64) + 1) 2 := Is.one.add Is.one (fl64 1 4503599627370496) (by norm_num)
  have hh : Is ((1 : Ieee f64) / (1 + 1)) (1 / 2) := Is.one.div h2 (by norm_num) (fl64 (-1) 4503599627370496) (by norm_num)
  exact ⟨hh.1, by rw [hh.2]; norm_num⟩

/-- the pivot and the quotient by it -/
theorem pivot [Lib f64] {x : Ieee f64} (hx : x.Finite) (h1 : 1 ≤ x.val) :
    ((1 / (1 + 1)) * fsqrt x).Finite ∧ ∀ y, Bd 1001 y → (y * ((1 / (1 + 1)) / fsqrt x)).Finite := by
  obtain ⟨hf, hv⟩ := sqrt_facts hx (zero_le_one.trans h1)
  have hge : (2 : ℝ) ^ (0 : ℤ) ≤ |(fsqrt x).val| := by
    rw [hv]
    refine le_trans (pow_le_fl (by norm_num) ?_) (le_abs_self _)
    exact Real.le_sqrt_of_sq_le (by simpa using h1)
  have hle : |(fsqrt x).val| ≤ f64.big := by
    obtain ⟨s, m, hm, e⟩ := hf
    rw [e]
    cases s <;> simp [Ieee.val, signed, abs_of_nonneg hm.1, hm.2.1]
  constructor
  · have h2 : Is ((1 : Ieee f64) + 1) 2 := Is.one.add Is.one (fl64 1 4503599627370496) (by norm_num)
    have hh : Is ((1 : Ieee f64) / (1 + 1)) (1 / 2) :=
      Is.one.div h2 (by norm_num) (fl64 (-1) 4503599627370496) (by norm_num)
    refine finite_mul_of hh.1 hf ?_
    rw [← fl_abs]
    refine le_trans (f64.mono _ |(fsqrt x).val| ?_) ?_
    · rw [abs_mul, hh.2]; norm_num; linarith [abs_nonneg (fsqrt x).val]
    · rw [fl_abs, val_rep]; exact hle
  · intro y hy
    exact (hy.mul (half_bd.div hf hge)).1

/-- the argument of the square root is at least one when the largest entry of the diagonal is the pivot -/
theorem pivot_arg {a b c : Ieee f64} (ha : Bd 1000 a) (hb : Bd 1000 b) (hc : Bd 1000 c) (hba : b.val ≤ a.val)
    (hca : c.val ≤ a.val) (hneg : ¬(0 ≤ a.val ∧ 0 ≤ b.val ∧ 0 ≤ c.val)) :
    (a - b - c + 1).Finite ∧ 1 ≤ (a - b - c + 1).val := by
  have h1 : Bd 1001 (a - b) := ha.sub hb
  have h2 : Bd 1002 (a - b - c) := h1.sub (hc.mono (by norm_num))
  have h3 : Bd 1003 (a - b - c + 1) := h2.add (Bd.one.mono (by norm_num))
  refine ⟨h3.1, ?_⟩
  have e : c.val ≤ a.val - b.val := by
    by_contra h
    rw [not_le] at h
    exact hneg ⟨by linarith, by linarith, by linarith⟩
  have k1 : c.val ≤ (a - b).val := by
    rw [val_sub h1.1]
    conv_lhs => rw [← val_rep c]
    exact f64.mono _ _ e
  have k2 : 0 ≤ (a - b - c).val := by rw [val_sub h2.1]; exact f64.nonneg (by linarith)
  have k3 := (le_add_val h3.1 k2 (by rw [Is.one.2]; norm_num)).2
  rwa [Is.one.2] at k3

/-- `Quaternion::from_matrix` returns a finite quaternion for every matrix with finite entries of at most `2 ^ 1000`,
a rotation or not: the pivot it divides by is at least one. -/
theorem C85_from_matrix [Lib f64] (A : Mat (Ieee f64) 3 3) (hA : ∀ c r, (A.data c r).Finite)
    (hb : ∀ c r, |(A.data c r).val| ≤ 2 ^ (1000 : ℤ)) (i : Fin 4) : ((Quat.fromMatrix A).coords.data i).Finite := by
  have hB : ∀ c r, Bd 1000 (A.data c r) := fun c r => ⟨hA c r, hb c r⟩
  have hs : ∀ c r c' r', Bd 1001 (A.data c r - A.data c' r') := fun c r c' r' => (hB c r).sub (hB c' r')
  have ha : ∀ c r c' r', Bd 1001 (A.data c r + A.data c' r') := fun c r c' r' => (hB c r).add (hB c' r')
  have et : A.trace = ((0 + A.data 0 0) + A.data 1 1) + A.data 2 2 := rfl
  have t1 : Bd 1001 (0 + A.data 0 0) := Bd.zero.add (hB 0 0)
  have t2 : Bd 1002 ((0 + A.data 0 0) + A.data 1 1) := t1.add ((hB 1 1).mono (by norm_num))
  have t3 : Bd 1003 (((0 + A.data 0 0) + A.data 1 1) + A.data 2 2) := t2.add ((hB 2 2).mono (by norm_num))
  simp only [Quat.fromMatrix]
  rw [et]
  by_cases h0 : ((0 + A.data 0 0) + A.data 1 1) + A.data 2 2 ≥ 0
  · rw [if_pos h0]
    rw [ge_iff_le, le_iff_val finite_zero t3.1] at h0
    have hx : Bd 1004 (1 + (((0 + A.data 0 0) + A.data 1 1) + A.data 2 2)) := (Bd.one.mono (by norm_num)).add t3
    have h1 : 1 ≤ (1 + (((0 + A.data 0 0) + A.data 1 1) + A.data 2 2)).val := by
      have := (le_add_val hx.1 (by rw [Is.one.2]; norm_num) h0).1
      rwa [Is.one.2] at this
    obtain ⟨p1, p2⟩ := pivot hx.1 h1
    fin_cases i
    · exact p1
    · exact p2 _ (hs 1 2 2 1)
    · exact p2 _ (hs 2 0 0 2)
    · exact p2 _ (hs 0 1 1 0)
  rw [if_neg h0]
  rw [ge_iff_le, le_iff_val finite_zero t3.1] at h0
  have hneg : ¬(0 ≤ (A.data 0 0).val ∧ 0 ≤ (A.data 1 1).val ∧ 0 ≤ (A.data 2 2).val) := by
    rintro ⟨n0, n1, n2⟩
    refine h0 ?_
    change 0 ≤ _
    have w1 := le_add_val t1.1 (x := 0) le_rfl n0
    have w2 := le_add_val t2.1 (n0.trans w1.2) n1
    exact n2.trans (le_add_val t3.1 (n1.trans w2.2) n2).2
  split_ifs with h1 h2
  · obtain ⟨g1, g2⟩ := h1
    rw [gt_iff_lt, lt_iff_val (hA _ _) (hA _ _)] at g1 g2
    obtain ⟨hx, hx1⟩ := pivot_arg (hB 0 0) (hB 1 1) (hB 2 2) g1.le g2.le hneg
    obtain ⟨p1, p2⟩ := pivot hx hx1
    fin_cases i
    · exact p2 _ (hs 1 2 2 1)
    · exact p1
    · exact p2 _ (ha 1 0 0 1)
    · exact p2 _ (ha 0 2 2 0)
  · rw [gt_iff_lt, gt_iff_lt, lt_iff_val (hA _ _) (hA _ _), lt_iff_val (hA _ _) (hA _ _)] at h1
    rw [gt_iff_lt, lt_iff_val (hA _ _) (hA _ _)] at h2
    have g : (A.data 0 0).val ≤ (A.data 1 1).val := by
      by_contra hc
      exact h1 ⟨not_le.mp hc, h2.trans (not_le.mp hc)⟩
    obtain ⟨hx, hx1⟩ := pivot_arg (hB 1 1) (hB 0 0) (hB 2 2) g h2.le (fun ⟨x, y, z⟩ => hneg ⟨y, x, z⟩)
    obtain ⟨p1, p2⟩ := pivot hx hx1
    fin_cases i
    · exact p2 _ (hs 2 0 0 2)
    · exact p2 _ (ha 1 0 0 1)
    · exact p1
    · exact p2 _ (ha 2 1 1 2)
  · rw [gt_iff_lt, gt_iff_lt, lt_iff_val (hA _ _) (hA _ _), lt_iff_val (hA _ _) (hA _ _)] at h1
    rw [gt_iff_lt, lt_iff_val (hA _ _) (hA _ _), not_lt] at h2
    have g : (A.data 0 0).val ≤ (A.data 2 2).val := by
      by_contra hc
      exact h1 ⟨h2.trans_lt (not_le.mp hc), not_le.mp hc⟩
    obtain ⟨hx, hx1⟩ := pivot_arg (hB 2 2) (hB 0 0) (hB 1 1) g h2 (fun ⟨x, y, z⟩ => hneg ⟨y, z, x⟩)
    obtain ⟨p1, p2⟩ := pivot hx hx1
    fin_cases i
    · exact p2 _ (hs 0 1 1 0)
    · exact p2 _ (ha 0 2 2 0)
    · exact p2 _ (ha 2 1 1 2)
    · exact p1

/-! ### the hypotheses are met -/

noncomputable section
attribute [local instance] Library64.correctlyRounded

private theorem len_one : Spec.length (Quat.identity : Quat (Ieee f64)).coords = 1 := by
  unfold Spec.length
  rw [Fin.sum_univ_four]
  change Real.sqrt ((1 : ℝ) ^ 2 + 0 ^ 2 + 0 ^ 2 + 0 ^ 2) = 1
  norm_num

/-- Interpolating half-way between the identity and itself. -/
example (i : Fin 4) :
    (((Quat.identity : Quat (Ieee f64)).slerp (num (1 / 2 ^ 11)) Quat.identity (num (1 / 2))).coords.data i).Finite := by
  have h1 : Is (num (1 / 2)) (1 / 2) := is_num' (fl64 (-1) 4503599627370496) (by norm_num)
  have h2 : Is (num (1 / 2 ^ 11)) (1 / 2 ^ 11) := is_num' (fl64 (-11) 4503599627370496) (by norm_num)
  have hf : ∀ i, ((Quat.identity : Quat (Ieee f64)).coords.data i).Finite := fun i => by
    fin_cases i
    · exact finite_one
    · exact finite_zero
    · exact finite_zero
    · exact finite_zero
  exact C85_slerp _ _ hf hf (by rw [len_one]; norm_num) (by rw [len_one]; norm_num) _ h1.1 (by rw [h1.2]; norm_num)
    (by rw [h1.2]; norm_num) _ h2.1 (by rw [h2.2]; norm_num) (by rw [h2.2]; norm_num) i

/-- The vectors for which the matrix constructor fails (`C85_rotation_between_3d_fails`) are in the range of
`C85_quaternion_rotation_between`. -/
example (q : Quat (Ieee f64)) (h : Quat.rotationBetween (num (1 / 2 ^ 52)) (Vec.new3 (num 3) (num 4) 0)
    (Vec.new3 (num 3) (num 4) (num (1 / 2 ^ 26))) = some q) (i : Fin 4) : (q.coords.data i).Finite := by
  have i3 : Is (num 3) 3 := is_num' (fl64 1 6755399441055744) (by norm_num)
  have i4 : Is (num 4) 4 := is_num' (fl64 2 4503599627370496) (by norm_num)
  have is : Is (num (1 / 2 ^ 26)) (1 / 2 ^ 26) := is_num' (fl64 (-26) 4503599627370496) (by norm_num)
  have l : ∀ z : Ieee f64, |z.val| ≤ 1 → 5 ≤ Spec.length (Vec.new3 (num 3) (num 4) z) ∧
      Spec.length (Vec.new3 (num 3) (num 4) z) ≤ 2 ^ 3 := fun z hz => by
    have e : Spec.length (Vec.new3 (num 3) (num 4) z) = Real.sqrt (25 + z.val ^ 2) := by
      unfold Spec.length
      rw [Fin.sum_univ_three]
      change Real.sqrt ((num 3).val ^ 2 + (num 4).val ^ 2 + z.val ^ 2) = _
      rw [i3.2, i4.2]; norm_num
    rw [e]
    have hz2 : z.val ^ 2 ≤ 1 := by rw [← sq_abs]; nlinarith [abs_nonneg z.val]
    constructor
    · exact Real.le_sqrt_of_sq_le (by nlinarith [sq_nonneg z.val])
    · rw [Real.sqrt_le_left (by norm_num)]; nlinarith
  have lo : (2 : ℝ) ^ (-499 : ℤ) ≤ 5 :=
    (two_zpow_le_self_of_le (k := 0) (by norm_num)).trans (by norm_num)
  have hi : (2 : ℝ) ^ 3 ≤ 2 ^ (510 : ℤ) := by
    have := two_zpow_le_self_of_le (j := 3) (k := 510) (by norm_num)
    exact_mod_cast this
  have h0 : |(0 : Ieee f64).val| ≤ 1 := by change |(0 : ℝ)| ≤ 1; simp
  have hs : |(num (1 / 2 ^ 26)).val| ≤ 1 := by rw [is.2]; norm_num
  refine C85_quaternion_rotation_between _ _ (fun j => ?_) (fun j => ?_) (lo.trans (l _ h0).1) ((l _ h0).2.trans hi)
    (lo.trans (l _ hs).1) ((l _ hs).2.trans hi) q h i
  · fin_cases j
    · exact i3.1
    · exact i4.1
    · exact finite_zero
  · fin_cases j
    · exact i3.1
    · exact i4.1
    · exact is.1

/-- The zero matrix, which is no rotation. -/
example (i : Fin 4) : ((Quat.fromMatrix (0 : Mat (Ieee f64) 3 3)).coords.data i).Finite :=
  C85_from_matrix 0 (fun _ _ => finite_zero) (fun _ _ => Bd.zero.2) i

/-- The logarithm of the identity. -/
example (i : Fin 4) : (((Quat.identity : Quat (Ieee f64)).ln (num (1 / 2 ^ 52))).coords.data i).Finite := by
  refine C85_quaternion_ln _ (fun j => ?_) ?_ ?_ i
  · fin_cases j
    · exact finite_one
    · exact finite_zero
    · exact finite_zero
    · exact finite_zero
  · rw [len_one]; exact zpow_le_one_of_nonpos₀ (by norm_num) (by norm_num)
  · rw [len_one]; exact one_le_zpow₀ (by norm_num) (by norm_num)

end

end Cgl
