import Verif.Lemmas.Num64
import Verif.Spec.Library64
import Verif.Spec.FloatAngle
import Verif.Model.Transform
import Verif.Model.Euler

/-! # C85 - rounding carries arguments out of the domain of `acos`, `asin` and `sqrt` -/

namespace Cgl
open Ieee Mat FloatFns

/-! ### functions that return NaN for ordinary arguments -/

theorem is3 : Is (num 3) 3 := is_num' (fl64 1 6755399441055744) (by norm_num)
theorem is4 : Is (num 4) 4 := is_num' (fl64 2 4503599627370496) (by norm_num)
theorem isSmall : Is (num (1 / 2 ^ 26)) (1 / 2 ^ 26) := is_num' (fl64 (-26) 4503599627370496) (by norm_num)
theorem isEps : Is (num (1 / 2 ^ 52)) (1 / 2 ^ 52) := is_num' (fl64 (-52) 4503599627370496) (by norm_num)
theorem isTiny : Is (num (1 / 2 ^ 30)) (1 / 2 ^ 30) := is_num' (fl64 (-30) 4503599627370496) (by norm_num)
theorem is9 : Is (num 3 * num 3) 9 := is3.mul is3 (fl64 3 5066549580791808) (by norm_num)
theorem is16 : Is (num 4 * num 4) 16 := is4.mul is4 (fl64 4 4503599627370496) (by norm_num)

section
variable {x r : Ieee f64}
/-- three times, four times the reciprocal of five -/
theorem three_fifths (hr : Is r (7205759403792794 / 2 ^ 55)) : Is (num 3 * r) (5404319552844596 / 2 ^ 53) :=
  is3.mul hr (fl64 (-1) 5404319552844596) (by norm_num)
theorem four_fifths (hr : Is r (7205759403792794 / 2 ^ 55)) : Is (num 4 * r) (7205759403792794 / 2 ^ 53) :=
  is4.mul hr (fl64 (-1) 7205759403792794) (by norm_num)
theorem recip_five [Lib f64] (h : Is x 25) : Is (fsqrt x) 5 ∧ Is (1 / fsqrt x) (7205759403792794 / 2 ^ 55) := by
  have hn : Is (fsqrt x) 5 := h.sqrt (by norm_num) (by
    rw [show (25 : ℝ) = 5 * 5 by norm_num, Real.sqrt_mul_self (by norm_num)]; exact fl64 2 5629499534213120) (by norm_num)
  exact ⟨hn, Is.one.div hn (by norm_num) (fl64 (-3) 7205759403792794) (by norm_num)⟩
/-- the square of `0.6000000000000001` plus the square of `0.8` is `1.0000000000000002` -/
theorem dot34 {x y : Ieee f64} (hx : Is x (5404319552844596 / 2 ^ 53)) (hy : Is y (7205759403792794 / 2 ^ 53)) :
    Is ((0 + x * x) + y * y) (4503599627370497 / 2 ^ 52) := by
  have h1 : Is (x * x) (6485183463413516 / 2 ^ 54) := hx.mul hx (fl64 (-2) 6485183463413516) (by norm_num)
  have h2 : Is (y * y) (5764607523034236 / 2 ^ 53) := hy.mul hy (fl64 (-1) 5764607523034236) (by norm_num)
  exact (Is.zero.zero_add h1 (by norm_num)).add h2 (fl64 0 4503599627370497) (by norm_num)
end

/-- `Matrix2x2::rotation_between` of `(3, 4)` and itself is a matrix of NaNs. -/
theorem C85_rotation_between_2d_fails [Libm f64] (c r : Fin 2) :
    ((rotationBetween2 (Vec.new2 (num 3) (num 4)) (Vec.new2 (num 3) (num 4))).data c r).IsNan := by
  have h25 : Is ((Vec.new2 (num 3) (num 4)).normSquared) 25 := by
    change Is ((0 + num 3 * num 3) + num 4 * num 4) 25
    exact (Is.zero.zero_add is9 (by norm_num)).add is16 (fl64 4 7036874417766400) (by norm_num)
  have hu : Unit'.tryFromValue (Vec.new2 (num 3) (num 4)) (0 : Ieee f64) =
      some ⟨(Vec.new2 (num 3) (num 4)).normalize⟩ := by
    simp only [Unit'.tryFromValue, Unit'.tryFromValueWithNorm]
    rw [if_pos]
    · rfl
    · exact (Is.lt_iff Is.zero.zero_mul h25).mpr (by norm_num)
  have hr := (recip_five h25).2
  have h0 : Is ((Vec.new2 (num 3) (num 4)).normalize.data 0) (5404319552844596 / 2 ^ 53) := by
    simp only [Vec.normalize, Vec.mulS_data]; exact three_fifths hr
  have h1 : Is ((Vec.new2 (num 3) (num 4)).normalize.data 1) (7205759403792794 / 2 ^ 53) := by
    simp only [Vec.normalize, Vec.mulS_data]; exact four_fifths hr
  set v := (Vec.new2 (num 3) (num 4)).normalize
  have hd : Is (v.dot v) (4503599627370497 / 2 ^ 52) := dot34 h0 h1
  have hdd : Is (v.dot v * v.dot v) (4503599627370498 / 2 ^ 52) := hd.mul hd (fl64 0 4503599627370498) (by norm_num)
  have hs : Is (1 - v.dot v * v.dot v) (-(1 / 2 ^ 51)) :=
    Is.one.sub hdd (fl64n (-51) 4503599627370496) (by norm_num)
  have hn := hs.sqrt_neg (by norm_num)
  simp only [rotationBetween2, hu, rotationBetweenAxis2, hn]
  have ha : (fatan2 nan (v.dot v) : Ieee f64) = nan := (Libm.atan2_nan _).1
  have e : (Angle.atan2 nan (v.dot v) : Radians (Ieee f64)) = ⟨nan⟩ := by
    change (⟨fatan2 nan (v.dot v)⟩ : Radians (Ieee f64)) = _; rw [ha]
  rw [e]
  have hsc : (Angle.sinCos (⟨nan⟩ : Radians (Ieee f64))) = (nan, nan) := by
    change (fsin (nan : Ieee f64), fcos (nan : Ieee f64)) = _
    rw [Libm.sin_nan, Libm.cos_nan]
  simp only [fromAngle2, hsc]
  fin_cases c <;> fin_cases r <;> rfl

/-- a rotation by an angle that is NaN is a matrix of NaNs -/
theorem fromAxisAngle_nan [Libm f64] (axis : Unit' (Vec (Ieee f64) 3)) (c r : Fin 3) :
    ((fromAxisAngle3 axis ⟨nan⟩).data c r).IsNan := by
  have hsc : (Angle.sinCos (⟨nan⟩ : Radians (Ieee f64))) = (nan, nan) := by
    change (fsin (nan : Ieee f64), fcos (nan : Ieee f64)) = _
    rw [Libm.sin_nan, Libm.cos_nan]
  simp only [fromAxisAngle3, hsc, sub_nan, nan_mul, nan_add, nan_sub]
  fin_cases c <;> fin_cases r <;> rfl

/-- `Matrix3x3::rotation_between` of `(3, 4, 0)` and `(3, 4, 2 ^ -26)` is a matrix of NaNs; `2 ^ -52` is
`f64::EPSILON`, the threshold of the public function. -/
theorem C85_rotation_between_3d_fails [Library64] : ∃ A,
    rotationBetween3 (num (1 / 2 ^ 52)) (Vec.new3 (num 3) (num 4) 0) (Vec.new3 (num 3) (num 4) (num (1 / 2 ^ 26))) = some A ∧
    ∀ c r, (A.data c r).IsNan := by
  set v1 := Vec.new3 (num 3) (num 4) 0 with hv1
  set v2 := Vec.new3 (num 3) (num 4) (num (1 / 2 ^ 26)) with hv2
  have hs : Is ((0 + num 3 * num 3) + num 4 * num 4) 25 :=
    (Is.zero.zero_add is9 (by norm_num)).add is16 (fl64 4 7036874417766400) (by norm_num)
  have h1 : Is v1.normSquared 25 := by
    change Is (((0 + num 3 * num 3) + num 4 * num 4) + 0 * 0) 25
    exact hs.add_zero Is.zero.zero_mul (by norm_num)
  have h2 : Is v2.normSquared 25 := by
    change Is (((0 + num 3 * num 3) + num 4 * num 4) + num (1 / 2 ^ 26) * num (1 / 2 ^ 26)) 25
    have : Is (num (1 / 2 ^ 26) * num (1 / 2 ^ 26)) (1 / 2 ^ 52) :=
      isSmall.mul isSmall (fl64 (-52) 4503599627370496) (by norm_num)
    exact hs.add this (fl64 4 7036874417766400) (by norm_num)
  have hn1 : v1.tryNormalize 0 = some v1.normalize := by
    rw [Vec.tryNormalize, if_neg]
    rw [show v1.norm = fsqrt v1.normSquared from rfl, (recip_five h1).1.le_iff Is.zero]; norm_num
  have hn2 : v2.tryNormalize 0 = some v2.normalize := by
    rw [Vec.tryNormalize, if_neg]
    rw [show v2.norm = fsqrt v2.normSquared from rfl, (recip_five h2).1.le_iff Is.zero]; norm_num
  have a0 : Is (v1.normalize.data 0) (5404319552844596 / 2 ^ 53) := by
    simp only [Vec.normalize, Vec.mulS_data]; exact three_fifths (recip_five h1).2
  have a1 : Is (v1.normalize.data 1) (7205759403792794 / 2 ^ 53) := by
    simp only [Vec.normalize, Vec.mulS_data]; exact four_fifths (recip_five h1).2
  have a2 : Is (v1.normalize.data 2) 0 := by
    simp only [Vec.normalize, Vec.mulS_data]; exact (recip_five h1).2.zero_mul
  have b0 : Is (v2.normalize.data 0) (5404319552844596 / 2 ^ 53) := by
    simp only [Vec.normalize, Vec.mulS_data]; exact three_fifths (recip_five h2).2
  have b1 : Is (v2.normalize.data 1) (7205759403792794 / 2 ^ 53) := by
    simp only [Vec.normalize, Vec.mulS_data]; exact four_fifths (recip_five h2).2
  have b2 : Is (v2.normalize.data 2) (7205759403792794 / 2 ^ 81) := by
    simp only [Vec.normalize, Vec.mulS_data]
    exact isSmall.mul (recip_five h2).2 (fl64 (-29) 7205759403792794) (by norm_num)
  set u1 := v1.normalize
  set u2 := v2.normalize
  have zero : ∀ {x y : Ieee f64} {b : ℝ}, Is x 0 → Is y b → Is (x * y) 0 := fun hx hy =>
    hx.mul hy (by rw [zero_mul, f64.zero]) (by norm_num)
  have hd : Is (u1.dot u2) (4503599627370497 / 2 ^ 52) := by
    change Is (((0 + u1.data 0 * u2.data 0) + u1.data 1 * u2.data 1) + u1.data 2 * u2.data 2) _
    have p0 : Is (u1.data 0 * u2.data 0) (6485183463413516 / 2 ^ 54) := a0.mul b0 (fl64 (-2) 6485183463413516) (by norm_num)
    have p1 : Is (u1.data 1 * u2.data 1) (5764607523034236 / 2 ^ 53) := a1.mul b1 (fl64 (-1) 5764607523034236) (by norm_num)
    exact ((Is.zero.zero_add p0 (by norm_num)).add p1 (fl64 0 4503599627370497) (by norm_num)).add_zero (zero a2 b2)
      (by norm_num)
  have c0 : Is ((u1.cross u2).data 0) (5764607523034236 / 2 ^ 81) := by
    change Is (u1.data 1 * u2.data 2 - u1.data 2 * u2.data 1) _
    exact (a1.mul b2 (fl64 (-29) 5764607523034236) (by norm_num)).sub_zero (zero a2 b1) (by norm_num)
  have c1 : Is ((u1.cross u2).data 1) (-(8646911284551354 / 2 ^ 82)) := by
    change Is (u1.data 2 * u2.data 0 - u1.data 0 * u2.data 2) _
    have p : Is (u1.data 0 * u2.data 2) (8646911284551354 / 2 ^ 82) := a0.mul b2 (fl64 (-30) 8646911284551354) (by norm_num)
    exact (zero a2 b0).sub p (fl64n (-30) 8646911284551354) (by norm_num)
  have c2 : Is ((u1.cross u2).data 2) 0 := by
    change Is (u1.data 0 * u2.data 1 - u1.data 1 * u2.data 0) _
    have p : Is (u1.data 0 * u2.data 1) (8646911284551354 / 2 ^ 54) := a0.mul b1 (fl64 (-2) 8646911284551354) (by norm_num)
    have p' : Is (u1.data 1 * u2.data 0) (8646911284551354 / 2 ^ 54) := a1.mul b0 (fl64 (-2) 8646911284551354) (by norm_num)
    exact p.sub p' (by rw [sub_self, f64.zero]) (by norm_num)
  have hc : Is (u1.cross u2).normSquared (5764607523034237 / 2 ^ 109) := by
    set w := u1.cross u2
    change Is (((0 + w.data 0 * w.data 0) + w.data 1 * w.data 1) + w.data 2 * w.data 2) _
    have p0 : Is (w.data 0 * w.data 0) (7378697629483824 / 2 ^ 110) := c0.mul c0 (fl64 (-58) 7378697629483824) (by norm_num)
    have p1 : Is (w.data 1 * w.data 1) (8301034833169301 / 2 ^ 111) := c1.mul c1 (fl64 (-59) 8301034833169301) (by norm_num)
    exact ((Is.zero.zero_add p0 (by norm_num)).add p1 (fl64 (-57) 5764607523034237) (by norm_num)).add_zero (zero c2 c2)
      (by norm_num)
  have hax : Unit'.tryFromValue (u1.cross u2) (num (1 / 2 ^ 52)) = some ⟨(u1.cross u2).normalize⟩ := by
    simp only [Unit'.tryFromValue, Unit'.tryFromValueWithNorm]
    rw [if_pos]
    · rfl
    · have he : Is (num (1 / 2 ^ 52) * num (1 / 2 ^ 52)) (1 / 2 ^ 104) :=
        isEps.mul isEps (fl64 (-104) 4503599627370496) (by norm_num)
      exact (Is.lt_iff he hc).mpr (by norm_num)
  refine ⟨_, ?_, fromAxisAngle_nan ⟨(u1.cross u2).normalize⟩⟩
  simp only [rotationBetween3, hn1, hn2, hax]
  have ha : facos (u1.dot u2) = nan := Library64.acos_out _ hd.1 (by rw [hd.2]; norm_num)
  change some (fromAxisAngle3 _ (⟨facos (u1.dot u2)⟩ : Radians (Ieee f64))) = _
  rw [ha]

/-- The angle of the half turn about the diagonal `(1, 1, 0)` is NaN. -/
theorem C85_rotation_angle_fails [Library64] :
    (Rotation.fromAxisAngle (Unit'.fromValue (Vec.new3 1 1 0)) (⟨fpi⟩ : Radians (Ieee f64))).angle3.val.IsNan := by
  have h2 : Is ((1 : Ieee f64) + 1) 2 := Is.one.add Is.one (fl64 1 4503599627370496) (by norm_num)
  have h11 : Is ((1 : Ieee f64) * 1) 1 := Is.one.mul_one (by norm_num)
  have hs : Is ((Vec.new3 1 1 0 : Vec (Ieee f64) 3).normSquared) 2 := by
    change Is (((0 + (1 : Ieee f64) * 1) + 1 * 1) + 0 * 0) 2
    exact ((Is.zero.zero_add h11 (by norm_num)).add h11 (fl64 1 4503599627370496) (by norm_num)).add_zero
      Is.zero.zero_mul (by norm_num)
  have hn : Is ((Vec.new3 1 1 0 : Vec (Ieee f64) 3).norm) (6369051672525773 / 2 ^ 52) :=
    hs.sqrt (by norm_num) ((fl64_sqrt_eval 0 6369051672525773 (by norm_num) (by norm_num) (by norm_num) (by norm_num)
      (by norm_num) (by norm_num) (by norm_num)).trans (by norm_num)) (by norm_num)
  have hr : Is (1 / (Vec.new3 1 1 0 : Vec (Ieee f64) 3).norm) (6369051672525772 / 2 ^ 53) :=
    Is.one.div hn (by norm_num) (fl64 (-1) 6369051672525772) (by norm_num)
  set u := (Unit'.fromValue (Vec.new3 1 1 0) : Unit' (Vec (Ieee f64) 3)) with hu
  have huv : u.value = (Vec.new3 1 1 0 : Vec (Ieee f64) 3).normalize := rfl
  have u0 : Is (u.value.data 0) (6369051672525772 / 2 ^ 53) := by
    rw [huv]; simp only [Vec.normalize, Vec.mulS_data]; exact hr.one_mul (by norm_num)
  have u1 : Is (u.value.data 1) (6369051672525772 / 2 ^ 53) := by
    rw [huv]; simp only [Vec.normalize, Vec.mulS_data]; exact hr.one_mul (by norm_num)
  have u2 : Is (u.value.data 2) 0 := by
    rw [huv]; simp only [Vec.normalize, Vec.mulS_data]; exact hr.zero_mul
  have hm : Is (-1 : Ieee f64) (-1) := Is.one.neg
  have homc : Is (1 - (-1 : Ieee f64)) 2 := Is.one.sub hm (fl64 1 4503599627370496) (by norm_num)
  have d : ∀ {x : Ieee f64}, Is x (6369051672525772 / 2 ^ 53) → Is ((1 - (-1 : Ieee f64)) * x * x + -1) (-(1 / 2 ^ 52)) :=
    fun hx => by
      have p1 : Is ((1 - (-1 : Ieee f64)) * _) _ := homc.mul hx (c := 6369051672525772 / 2 ^ 52) (fl64 0 6369051672525772) (by norm_num)
      have p2 := p1.mul hx (c := 9007199254740990 / 2 ^ 53) (fl64 (-1) 9007199254740990) (by norm_num)
      exact p2.add hm (fl64n (-52) 4503599627370496) (by norm_num)
  have d2 : Is ((1 - (-1 : Ieee f64)) * u.value.data 2 * u.value.data 2 + -1) (-1) := by
    have p1 : Is ((1 - (-1 : Ieee f64)) * u.value.data 2) 0 := homc.mul u2 (by rw [mul_zero, f64.zero]) (by norm_num)
    have p2 : Is ((1 - (-1 : Ieee f64)) * u.value.data 2 * u.value.data 2) 0 :=
      p1.mul u2 (by rw [mul_zero, f64.zero]) (by norm_num)
    exact p2.zero_add hm (by norm_num)
  have ht := ((d u0).add (d u1) (c := -(2 / 2 ^ 52)) (fl64n (-51) 4503599627370496) (by norm_num)).add d2
    (c := -(4503599627370498 / 2 ^ 52)) (fl64n 0 4503599627370498) (by norm_num)
  have ht1 := ht.sub Is.one (c := -(4503599627370497 / 2 ^ 51)) (fl64n 1 4503599627370497) (by norm_num)
  have htwo : Is (((2 : ℕ) : Ieee f64)) 2 := by
    have : Is (num 2) 2 := is_num' (fl64 1 4503599627370496) (by norm_num)
    have e : ((2 : ℕ) : Ieee f64) = num 2 := by
      change Ieee.round false ((2 : ℕ) : ℝ) = Ieee.round false 2
      norm_num
    rwa [e]
  have hh := ht1.div htwo (by norm_num) (c := -(4503599627370497 / 2 ^ 52)) (fl64n 0 4503599627370497) (by norm_num)
  have hc : (fcos (fpi : Ieee f64)) = -1 := Library64.cos_pi
  have e : (Rotation.fromAxisAngle u (⟨fpi⟩ : Radians (Ieee f64))).angle3.val =
      facos ((((1 - (-1 : Ieee f64)) * u.value.data 0 * u.value.data 0 + -1) +
        ((1 - (-1 : Ieee f64)) * u.value.data 1 * u.value.data 1 + -1) +
        ((1 - (-1 : Ieee f64)) * u.value.data 2 * u.value.data 2 + -1) - 1) / ((2 : ℕ) : Ieee f64)) := by
    rw [← hc]; rfl
  rw [e]
  exact Library64.acos_out _ hh.1 (by rw [hh.2]; norm_num)

/-- The second Euler angle of the quaternion `3 + i + 3j + k` is NaN. -/
theorem C85_euler_from_quaternion_fails [Library64] :
    (Euler.fromQuaternion (Quat.new (num 3) 1 (num 3) 1 : Quat (Ieee f64))).y.val.IsNan := by
  set q : Quat (Ieee f64) := Quat.new (num 3) 1 (num 3) 1 with hq
  have h11 : Is ((1 : Ieee f64) * 1) 1 := Is.one.mul_one (by norm_num)
  have hs : Is q.normSquared 20 := by
    change Is ((((0 + num 3 * num 3) + 1 * 1) + num 3 * num 3) + 1 * 1) 20
    have s1 := (Is.zero.zero_add is9 (by norm_num)).add h11 (c := 10) (fl64 3 5629499534213120) (by norm_num)
    have s2 := s1.add is9 (c := 19) (fl64 4 5348024557502464) (by norm_num)
    exact s2.add h11 (fl64 4 5629499534213120) (by norm_num)
  have h2 : Is ((1 : Ieee f64) + 1) 2 := Is.one.add Is.one (fl64 1 4503599627370496) (by norm_num)
  have hr : Is ((1 + 1) / q.normSquared) (7205759403792794 / 2 ^ 56) :=
    h2.div hs (by norm_num) (fl64 (-4) 7205759403792794) (by norm_num)
  set s := (1 + 1) / q.normSquared with hsd
  have p1 : Is (s * 1 * 1) (7205759403792794 / 2 ^ 56) := (hr.mul_one (by norm_num)).mul_one (by norm_num)
  have p2 : Is (s * num 3 * num 3) (8106479329266894 / 2 ^ 53) :=
    (hr.mul is3 (c := 5404319552844596 / 2 ^ 54) (fl64 (-2) 5404319552844596) (by norm_num)).mul is3
      (fl64 (-1) 8106479329266894) (by norm_num)
  have p : Is (s * 1 * 1 + s * num 3 * num 3) (4503599627370497 / 2 ^ 52) :=
    p1.add p2 (fl64 0 4503599627370497) (by norm_num)
  change fasin (s * 1 * 1 + s * num 3 * num 3) = nan
  exact Library64.asin_out _ p.1 (by rw [p.2]; norm_num)

/-- The square root of the quaternion `-1 + 2^-30 i` has a NaN scalar part and an infinite vector part. -/
theorem C85_quaternion_sqrt_fails [Lib f64] :
    ((Quat.new (-1) (num (1 / 2 ^ 30)) 0 0 : Quat (Ieee f64)).sqrt (num (1 / 2 ^ 52))).scalar.IsNan ∧
    ((Quat.new (-1) (num (1 / 2 ^ 30)) 0 0 : Quat (Ieee f64)).sqrt (num (1 / 2 ^ 52))).vector.data 0 = inf false := by
  set q : Quat (Ieee f64) := Quat.new (-1) (num (1 / 2 ^ 30)) 0 0 with hq
  have hm : Is (-1 : Ieee f64) (-1) := Is.one.neg
  have ht : Is (num (1 / 2 ^ 30) * num (1 / 2 ^ 30)) (1 / 2 ^ 60) :=
    isTiny.mul isTiny (fl64 (-60) 4503599627370496) (by norm_num)
  have hmm : Is ((-1 : Ieee f64) * -1) 1 := hm.mul hm (fl64 0 4503599627370496) (by norm_num)
  have h0 : Is ((0 : Ieee f64) * 0) 0 := Is.zero.zero_mul
  have hs : Is q.normSquared 1 := by
    change Is ((((0 + (-1 : Ieee f64) * -1) + num (1 / 2 ^ 30) * num (1 / 2 ^ 30)) + 0 * 0) + 0 * 0) 1
    exact (((Is.zero.zero_add hmm (by norm_num)).add ht (fl64 0 4503599627370496) (by norm_num)).add_zero h0
      (by norm_num)).add_zero h0 (by norm_num)
  have hv : Is q.vector.normSquared (1 / 2 ^ 60) := by
    change Is (((0 + num (1 / 2 ^ 30) * num (1 / 2 ^ 30)) + 0 * 0) + 0 * 0) _
    exact ((Is.zero.zero_add ht (by norm_num)).add_zero h0 (by norm_num)).add_zero h0 (by norm_num)
  have he : Is (num (1 / 2 ^ 52) * num (1 / 2 ^ 52)) (1 / 2 ^ 104) :=
    isEps.mul isEps (fl64 (-104) 4503599627370496) (by norm_num)
  have hn : Is (fsqrt q.normSquared) 1 :=
    hs.sqrt (by norm_num) (by rw [Real.sqrt_one]; exact f64.one) (by norm_num)
  have hn1 : fsqrt q.normSquared = 1 := hn.eq_pos Is.one one_pos
  have hsum : fsqrt q.normSquared + q.scalar = 0 := by
    rw [hn1]; change Ieee.round (false && true) (signed false 1 + signed true 1) = 0
    rw [show signed false 1 + signed true 1 = 0 by simp [signed], Bool.false_and, round_zero]
  have h2 : Is ((1 : Ieee f64) + 1) 2 := Is.one.add Is.one (fl64 1 4503599627370496) (by norm_num)
  have hh : Is ((1 : Ieee f64) / (1 + 1)) (1 / 2) := Is.one.div h2 (by norm_num) (fl64 (-1) 4503599627370496) (by norm_num)
  have hc : fsqrt ((1 : Ieee f64) / (1 + 1) / 0) = inf false := by
    rw [hh.div_zero (by norm_num), Lib.sqrt_eq]; rfl
  have e : q.sqrt (num (1 / 2 ^ 52)) = Quat.fromParts (0 * inf false) (q.vector * (inf false : Ieee f64)) := by
    simp only [Quat.sqrt]
    rw [if_neg, if_neg, hsum, hc]
    · rw [hv.le_iff he]; norm_num
    · rw [hs.le_iff he]; norm_num
  rw [e]
  refine ⟨?_, ?_⟩
  · change (0 * inf false : Ieee f64) = nan
    exact if_pos rfl
  · change num (1 / 2 ^ 30) * inf false = inf false
    exact isTiny.mul_inf (by norm_num)

end Cgl
