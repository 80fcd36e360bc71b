import Verif.Model.Numeric
import Mathlib.Data.Int.Order.Basic
import Mathlib.Algebra.Order.Group.Unbundled.Int
import Mathlib.Tactic.Linarith
import Mathlib.Tactic.NormNum

/-! # C62 - scalar helper functions -/

namespace Cgl

/-- `cast` panics exactly when `try_cast` is `None`, and otherwise they agree -/
theorem C62_cast {α β : Type*} (conv : α → Option β) (x : α) :
    (∀ y, cast conv x = .ok y ↔ tryCast conv x = some y) ∧ ((∃ e, cast conv x = .error e) ↔ tryCast conv x = none) := by
  unfold cast tryCast
  cases conv x <;> simp [unwrap]

/-! ### integers of any width -/

namespace MInt
variable {w : ℕ} (x y s : MInt w)

private theorem slt_iff (a b : MInt w) : a.slt b = true ↔ a.toInt < b.toInt := by
  rw [BitVec.slt_eq_decide]; simp
private theorem sle_iff (a b : MInt w) : a.sle b = true ↔ a.toInt ≤ b.toInt := by
  rw [BitVec.sle_eq_decide]; simp
private theorem zero_toInt : (0 : MInt w).toInt = 0 := BitVec.toInt_zero

theorem _root_.Cgl.C62_int_sign : (isSignPositive x = true ↔ 0 < x.toInt) ∧ (isSignNegative x = true ↔ x.toInt < 0) := by
  unfold isSignPositive isSignNegative
  rw [slt_iff, slt_iff, zero_toInt]; exact ⟨Iff.rfl, Iff.rfl⟩

/-- zero is neither positive nor negative as an integer, although it has a positive sign as a float -/
theorem _root_.Cgl.C62_int_sign_zero : isSignPositive (0 : MInt w) = false ∧ isSignNegative (0 : MInt w) = false := by
  constructor <;> rw [Bool.eq_false_iff, Ne]
  · rw [(C62_int_sign 0).1, zero_toInt]; exact lt_irrefl _
  · rw [(C62_int_sign 0).2, zero_toInt]; exact lt_irrefl _

/-- Absolute value: exact unless the operand is the least value, where it overflows (a panic with overflow checks, the
operand itself without). -/
theorem _root_.Cgl.C62_int_abs (checked : Bool) :
    (x ≠ BitVec.intMin w → ∃ r, abs checked x = .ok r ∧ r.toInt = |x.toInt|) ∧
    (0 < w → abs checked (BitVec.intMin w) =
      if checked then .error .arithmeticOverflow else .ok (BitVec.intMin w)) := by
  constructor
  · intro h
    unfold abs
    split
    · rename_i hx
      rw [slt_iff, zero_toInt] at hx
      refine ⟨-x, by simp [neg, h], ?_⟩
      rw [BitVec.toInt_neg_of_ne_intMin h, abs_of_neg hx]
    · rename_i hx
      rw [slt_iff, zero_toInt, not_lt] at hx
      exact ⟨x, rfl, (abs_of_nonneg hx).symm⟩
  · intro hw
    have hneg : (BitVec.intMin w).toInt < 0 := by
      rw [BitVec.toInt_intMin_of_pos hw]; simp
    unfold abs
    rw [if_pos ((slt_iff _ _).mpr (by rw [zero_toInt]; exact hneg))]
    cases checked <;> simp [neg, BitVec.neg_intMin]

/-- `signum` is the sign -/
theorem _root_.Cgl.C62_int_signum (hw : 2 ≤ w) : (signum x).toInt = x.toInt.sign := by
  have one : (1 : MInt w).toInt = 1 := by
    rw [show (1 : MInt w) = 1#w from rfl, BitVec.toInt_one (by omega)]
  unfold signum
  split
  · rename_i h; rw [slt_iff, zero_toInt] at h
    rw [one, Int.sign_eq_one_of_pos h]
  · rename_i h; rw [slt_iff, zero_toInt, not_lt] at h
    split
    · rename_i h0; rw [h0, zero_toInt]; rfl
    · rename_i h0
      have h1 : x.toInt ≠ 0 := fun hx => h0 (BitVec.toInt_inj.mp (hx.trans zero_toInt.symm))
      rw [Int.sign_eq_neg_one_of_neg (by omega), BitVec.toInt_neg_of_ne_intMin, one]
      intro h2
      have := congrArg BitVec.toInt h2
      rw [one, BitVec.toInt_intMin_of_pos (by omega)] at this
      have : (0 : ℤ) < 2 ^ (w - 1) := by positivity
      omega

/-- the documented identities `signum(x) * abs(x) == x` and `abs(x) == signum(x) * x` hold with wrapping arithmetic for
every value, the least one included -/
theorem _root_.Cgl.C62_int_signum_abs : ∃ a, abs false x = .ok a ∧ signum x * a = x ∧ signum x * x = a := by
  have one_mul' : ∀ z : MInt w, (1 : MInt w) * z = z := fun z => BitVec.one_mul z
  unfold abs signum
  by_cases h : x.slt 0 = true
  · have h' : ¬ (0 : MInt w).slt x = true := by
      rw [slt_iff]; rw [slt_iff] at h; omega
    have h0 : x ≠ 0 := by rintro rfl; rw [slt_iff] at h; omega
    refine ⟨-x, by rw [if_pos h]; rfl, ?_, ?_⟩
    · rw [if_neg h', if_neg h0, BitVec.neg_mul, one_mul', BitVec.neg_neg]
    · rw [if_neg h', if_neg h0, BitVec.neg_mul, one_mul']
  · refine ⟨x, by rw [if_neg h], ?_, ?_⟩
    all_goals
      by_cases hp : (0 : MInt w).slt x = true
      · rw [if_pos hp, one_mul']
      · have h0 : x = 0 := by
          apply BitVec.toInt_inj.mp
          rw [slt_iff] at h hp; rw [zero_toInt] at *; omega
        subst h0; rw [if_neg hp, if_pos rfl]; exact BitVec.zero_mul

/-- `copysign`: the magnitude of the first operand with the sign of the second (zero counting as positive), unless the
first operand is the least value -/
theorem _root_.Cgl.C62_int_copysign (checked : Bool) (h : x ≠ BitVec.intMin w) :
    ∃ r, copysign checked x s = .ok r ∧ r.toInt = if 0 ≤ s.toInt then |x.toInt| else -|x.toInt| := by
  obtain ⟨a, ha, ha'⟩ := (C62_int_abs x checked).1 h
  have hs := sle_iff (0 : MInt w) s
  rw [zero_toInt] at hs
  unfold copysign
  by_cases h0 : (0 : MInt w).sle s = true
  · rw [if_pos h0, if_pos (hs.mp h0)]; exact ⟨a, ha, ha'⟩
  · rw [if_neg h0, if_neg (fun h => h0 (hs.mpr h)), ha]
    have hne : a ≠ BitVec.intMin w := by
      rintro rfl
      by_cases hw : w = 0
      · subst hw; exact h (BitVec.eq_of_zero_length rfl)
      have := BitVec.toInt_intMin_of_pos (Nat.pos_of_ne_zero hw)
      have hp : (0 : ℤ) < 2 ^ (w - 1) := by positivity
      have := abs_nonneg x.toInt
      omega
    refine ⟨-a, by simp [Except.bind, neg, hne], ?_⟩
    rw [BitVec.toInt_neg_of_ne_intMin hne, ha']

/-- The least value cannot be given a positive sign: the call panics with overflow checks and returns the (negative)
least value without. -/
theorem _root_.Cgl.C62_int_copysign_min (hw : 0 < w) (hs : 0 ≤ s.toInt) :
    copysign true (BitVec.intMin w) s = .error .arithmeticOverflow ∧
    copysign false (BitVec.intMin w) s = .ok (BitVec.intMin w) := by
  have h0 : (0 : MInt w).sle s = true := (sle_iff _ _).mpr (by rw [zero_toInt]; exact hs)
  unfold copysign
  rw [if_pos h0, if_pos h0]
  exact ⟨by simpa using (C62_int_abs 0 true).2 hw, by simpa using (C62_int_abs 0 false).2 hw⟩

/-- The documented identity `copysign(x, sign) == signum(sign) * abs(x)` fails at `sign == 0`. -/
theorem _root_.Cgl.C62_int_copysign_doc_fails : ∃ x : MInt 32, copysign false x 0 = .ok 3 ∧
    (abs false x).map (fun a => signum 0 * a) = .ok 0 := ⟨3, rfl, rfl⟩

theorem _root_.Cgl.C62_int_min_max : (max x y).toInt = Max.max x.toInt y.toInt ∧ (min x y).toInt = Min.min x.toInt y.toInt ∧
    min x y + max x y = x + y := by
  unfold max min
  by_cases h : y.slt x = true
  · have h' := (slt_iff _ _).mp h
    simp only [h, if_true]
    exact ⟨(max_eq_left h'.le).symm, (min_eq_right h'.le).symm, BitVec.add_comm _ _⟩
  · have h' := h; rw [slt_iff, not_lt] at h'
    rw [if_neg h, if_neg h]
    exact ⟨(max_eq_right h').symm, (min_eq_left h').symm, rfl⟩

/-- `clamp` panics exactly when the bounds are out of order; otherwise it is the nearest value in the interval -/
theorem _root_.Cgl.C62_int_clamp (lo hi : MInt w) :
    (lo.toInt ≤ hi.toInt → ∃ r, clamp x lo hi = .ok r ∧ r.toInt = Max.max lo.toInt (Min.min x.toInt hi.toInt) ∧
      lo.toInt ≤ r.toInt ∧ r.toInt ≤ hi.toInt ∧
      ∀ z : ℤ, lo.toInt ≤ z → z ≤ hi.toInt → |x.toInt - r.toInt| ≤ |x.toInt - z|) ∧
    (hi.toInt < lo.toInt → clamp x lo hi = .error .assertFailed) := by
  unfold clamp
  constructor
  · intro h
    rw [if_pos ((sle_iff _ _).mpr h)]
    refine ⟨_, rfl, ?_⟩
    split
    · rename_i h1; rw [slt_iff] at h1
      refine ⟨by omega, by omega, by omega, fun z a b => ?_⟩
      rw [abs_of_neg (by omega), abs_of_neg (by omega)]; omega
    · rename_i h1; rw [slt_iff] at h1
      split
      · rename_i h2; rw [slt_iff] at h2
        refine ⟨by omega, by omega, by omega, fun z a b => ?_⟩
        rw [abs_of_pos (by omega), abs_of_pos (by omega)]; omega
      · rename_i h2; rw [slt_iff] at h2
        refine ⟨by omega, by omega, by omega, fun z a b => ?_⟩
        simp
  · intro h
    rw [if_neg]; rw [sle_iff]; omega

/-- the bounds of the type -/
theorem _root_.Cgl.C62_int_bounds : (minValue : MInt w).toInt ≤ x.toInt ∧ x.toInt ≤ (maxValue : MInt w).toInt := by
  constructor
  · exact (sle_iff _ _).mp (BitVec.intMin_sle x)
  · rcases Nat.eq_zero_or_pos w with rfl | hw
    · rw [BitVec.eq_of_zero_length (x := x) (y := maxValue) rfl]
    have h1 := @BitVec.toInt_lt w x
    have : (maxValue : MInt w).toInt = 2 ^ (w - 1) - 1 := by
      unfold maxValue; rw [BitVec.toInt_intMax]
    rw [this]; omega

example : abs true (-7 : MInt 32) = .ok 7 ∧ copysign true (3 : MInt 32) (-7) = .ok (-3) ∧ clamp (9 : MInt 8) (-1) 5 = .ok 5 :=
  ⟨rfl, rfl, rfl⟩
end MInt

/-! ### floats -/

/-- on totally ordered values: the nearest point of the interval -/
theorem C62_clamp {K : Type*} [LinearOrder K] (x lo hi : K) (h : lo ≤ hi) :
    lo ≤ clamp x lo hi ∧ clamp x lo hi ≤ hi ∧ clamp x lo hi = max lo (min x hi) ∧
    (lo ≤ x → x ≤ hi → clamp x lo hi = x) ∧ (x < lo → clamp x lo hi = lo) ∧ (hi < x → clamp x lo hi = hi) := by
  unfold clamp
  by_cases h1 : x < lo
  · rw [if_pos h1]
    exact ⟨le_rfl, h, (max_eq_left ((min_le_left _ _).trans h1.le)).symm, fun a => absurd h1 (not_lt.mpr a),
      fun _ => rfl, fun a => absurd (h1.trans_le h) (not_lt.mpr a.le)⟩
  · by_cases h2 : hi < x
    · rw [if_neg h1, if_pos h2]
      refine ⟨h, le_rfl, ?_, fun _ b => absurd h2 (not_lt.mpr b), fun a => absurd a h1, fun _ => rfl⟩
      rw [min_eq_right h2.le, max_eq_right h]
    · rw [if_neg h1, if_neg h2]
      push Not at h1 h2
      refine ⟨h1, h2, ?_, fun _ _ => rfl, fun a => absurd a (not_lt.mpr h1), fun a => absurd a (not_lt.mpr h2)⟩
      rw [min_eq_left h2, max_eq_right h1]

namespace XFloat
variable (x y s lo hi : XFloat)

theorem val?_eq_none_iff : x.val? = none ↔ x.isNan = true := by
  obtain ⟨n, m⟩ := x; cases m <;> simp [val?, isNan]
theorem not_lt_of_nan (h : x.isNan = true) : ¬ x < y ∧ ¬ y < x := by
  rw [← val?_eq_none_iff] at h
  constructor
  · rintro ⟨a, b, ha, -, -⟩; rw [h] at ha; cases ha
  · rintro ⟨a, b, -, hb, -⟩; rw [h] at hb; cases hb

/-- with IEEE comparisons: a NaN is passed through; any other value, infinities included, ends in the interval -/
theorem _root_.Cgl.C62_float_clamp (h : lo ≤ hi) :
    (x.isNan = true → clamp x lo hi = x) ∧ (x.isNan = false → lo ≤ clamp x lo hi ∧ clamp x lo hi ≤ hi) ∧
    (lo ≤ x → x ≤ hi → clamp x lo hi = x) ∧ (x < lo → clamp x lo hi = lo) ∧ (hi < x → clamp x lo hi = hi) := by
  obtain ⟨l, u, hl, hu, hlu⟩ := h
  have ltiff : ∀ {p q : XFloat} {a b : EReal}, p.val? = some a → q.val? = some b → (p < q ↔ a < b) := by
    intro p q a b ha hb
    constructor
    · rintro ⟨a', b', h1, h2, h3⟩; rw [ha] at h1; rw [hb] at h2; cases h1; cases h2; exact h3
    · intro h; exact ⟨a, b, ha, hb, h⟩
  have leiff : ∀ {p q : XFloat} {a b : EReal}, p.val? = some a → q.val? = some b → (p ≤ q ↔ a ≤ b) := by
    intro p q a b ha hb
    constructor
    · rintro ⟨a', b', h1, h2, h3⟩; rw [ha] at h1; rw [hb] at h2; cases h1; cases h2; exact h3
    · intro h; exact ⟨a, b, ha, hb, h⟩
  by_cases hx : x.isNan = true
  · have e : clamp x lo hi = x := by
      unfold clamp; rw [if_neg (not_lt_of_nan x lo hx).1, if_neg (not_lt_of_nan x hi hx).2]
    exact ⟨fun _ => e, fun h => absurd (hx.symm.trans h) (by decide), fun _ _ => e, fun h => absurd h (not_lt_of_nan x lo hx).1,
      fun h => absurd h (not_lt_of_nan x hi hx).2⟩
  · obtain ⟨a, ha⟩ := Option.ne_none_iff_exists'.mp (fun h => hx ((val?_eq_none_iff x).mp h))
    unfold clamp
    simp only [gt_iff_lt, ltiff ha hl, ltiff hu ha, leiff hl ha, leiff ha hu]
    refine ⟨fun h => absurd h hx, fun _ => ?_, ?_, ?_, ?_⟩
    · split
      · exact ⟨⟨l, l, hl, hl, le_rfl⟩, ⟨l, u, hl, hu, hlu⟩⟩
      · split
        · exact ⟨⟨l, u, hl, hu, hlu⟩, ⟨u, u, hu, hu, le_rfl⟩⟩
        · rename_i h1 h2
          exact ⟨⟨l, a, hl, ha, not_lt.mp h1⟩, ⟨a, u, ha, hu, not_lt.mp h2⟩⟩
    · intro h1 h2; rw [if_neg (not_lt.mpr h1), if_neg (not_lt.mpr h2)]
    · intro h1; rw [if_pos h1]
    · intro h1; rw [if_neg (not_lt.mpr (hlu.trans h1.le)), if_pos h1]

/-- a NaN bound never clamps: the comparison with it is false -/
theorem _root_.Cgl.C62_float_clamp_nan_bound (h : lo.isNan = true) (h' : hi.isNan = true) : clamp x lo hi = x := by
  unfold clamp; rw [if_neg (not_lt_of_nan lo x h).2, if_neg (not_lt_of_nan hi x h').1]

/-- `copysign`: the magnitude of the first operand and the sign bit of the second, NaN and signed zeros included -/
theorem _root_.Cgl.C62_float_copysign : (copysign x s).abs = x.abs ∧ (copysign x s).isSignNegative = s.isSignNegative ∧
    (copysign x s).isSignPositive = s.isSignPositive ∧ ((copysign x s).isNan ↔ x.isNan) := ⟨rfl, rfl, rfl, Iff.rfl⟩

/-- every float is positive or negative, never both -/
theorem _root_.Cgl.C62_float_sign : (x.isSignPositive = true ↔ ¬ x.isSignNegative = true) ∧
    (∀ v, x.val? = some v → (0 < v → x.isSignPositive = true) ∧ (v < 0 → x.isSignNegative = true)) := by
  obtain ⟨n, m⟩ := x
  refine ⟨by cases n <;> simp [isSignPositive, isSignNegative], fun v hv => ?_⟩
  cases m with
  | nan => simp [val?] at hv
  | inf =>
    cases n <;> simp only [val?, Option.some.injEq, Bool.false_eq_true, if_false, if_true] at hv <;> subst hv <;>
      simp [isSignPositive, isSignNegative]
  | fin m =>
    have hm : (0 : EReal) ≤ ((m : ℝ) : EReal) := by exact_mod_cast m.2
    cases n <;> simp only [val?, Option.some.injEq, Bool.false_eq_true, if_false, if_true] at hv <;> subst hv
    · simp only [isSignPositive, isSignNegative]
      exact ⟨fun _ => rfl, fun h => absurd hm (not_le.mpr h)⟩
    · refine ⟨fun h => ?_, fun _ => rfl⟩
      rw [EReal.neg_pos] at h
      exact absurd hm (not_le.mpr h)

/-- `signum(x) * abs(x)` is `x` and `signum(x) * x` is `abs(x)`, up to the sign bit of a NaN -/
theorem _root_.Cgl.C62_float_signum : signum x * x.abs = x ∧ (x.isNan = false → signum x * x = x.abs) ∧
    (x.isNan = true → (signum x * x).isNan = true) := by
  obtain ⟨n, m⟩ := x
  have h : ∀ x y : XFloat, x * y = ⟨x.neg ^^ y.neg, x.mag.mul y.mag⟩ := fun _ _ => rfl
  cases m <;> cases n <;> simp [signum, abs, isNan, h, Mag.mul]

/-- products with an infinity: NaN with a zero or a NaN, otherwise infinite; the signs multiply, and the order does not
matter -/
theorem _root_.Cgl.C62_float_infinity_mul (x y : XFloat) (hx : x.mag = .inf) :
    (x * y).mag = (match y.mag with | .nan => .nan | .inf => .inf | .fin m => if m = 0 then .nan else .inf) ∧
    (x * y).neg = (x.neg != y.neg) ∧ x * y = y * x := by
  obtain ⟨n, m⟩ := x
  obtain ⟨k, l⟩ := y
  have h : ∀ x y : XFloat, x * y = ⟨x.neg ^^ y.neg, x.mag.mul y.mag⟩ := fun _ _ => rfl
  simp only at hx
  subst hx
  cases l <;> cases k <;> cases n <;> simp [h, Mag.mul]

/-- `max` and `min`: the only non-NaN operand, or the larger / smaller of the two -/
theorem _root_.Cgl.C62_float_max_min :
    (x.isNan = true → max x y = y ∧ min x y = y) ∧ (y.isNan = true → (max x y).mag = (if x.isNan then y else x).mag ∧
      (min x y).mag = (if x.isNan then y else x).mag) ∧
    (∀ a b, x.val? = some a → y.val? = some b →
      (max x y).val? = some (Max.max a b) ∧ (min x y).val? = some (Min.min a b)) := by
  refine ⟨fun h => by simp [max, min, h], fun h => ?_, fun a b ha hb => ?_⟩
  · by_cases hx : x.isNan = true
    · simp [max, min, hx]
    · simp [max, min, hx, h]
  · have hx : x.isNan = false := by
      rw [Bool.eq_false_iff, Ne, ← val?_eq_none_iff, ha]; simp
    have hy : y.isNan = false := by
      rw [Bool.eq_false_iff, Ne, ← val?_eq_none_iff, hb]; simp
    have e1 : x < y ↔ a < b := by
      constructor
      · rintro ⟨a', b', h1, h2, h3⟩; rw [ha] at h1; rw [hb] at h2; cases h1; cases h2; exact h3
      · intro h; exact ⟨a, b, ha, hb, h⟩
    have e2 : y < x ↔ b < a := by
      constructor
      · rintro ⟨a', b', h1, h2, h3⟩; rw [hb] at h1; rw [ha] at h2; cases h1; cases h2; exact h3
      · intro h; exact ⟨b, a, hb, ha, h⟩
    simp only [max, min, hx, hy, e1, e2, Bool.false_eq_true, if_false]
    rcases lt_trichotomy a b with h | h | h
    · simp [h, ha, hb, h.le]
    · subst h; simp [ha, hb]
    · simp [h, h.not_gt, ha, hb, h.le]

/-- signed zero and infinity behave as documented -/
example : signum ⟨false, .fin 0⟩ = ⟨false, .fin 1⟩ ∧ signum ⟨true, .fin 0⟩ = ⟨true, .fin 1⟩ ∧
    signum ⟨true, .inf⟩ = ⟨true, .fin 1⟩ := ⟨rfl, rfl, rfl⟩
end XFloat

/-- `min + max` is the sum, on ordered groups -/
theorem C62_min_add_max {K : Type*} [LinearOrder K] [AddCommGroup K] (x y : K) : min x y + max x y = x + y :=
  min_add_max x y

end Cgl
