import Mathlib.Analysis.SpecialFunctions.Complex.Arg
import Mathlib.Analysis.SpecialFunctions.Trigonometric.Arctan
import Mathlib.Analysis.SpecialFunctions.Pow.Real
import Mathlib.Analysis.SpecialFunctions.Log.Base
import Mathlib.Analysis.SpecialFunctions.Arsinh

/-!
# Floating point functions

`SimdScalarFloat` (cglinalg_numeric/src/lib.rs 560-1500, impls 1570-1700) exposes the functions of
`f32`/`f64`. The model takes them from the class `FloatFns`; the instance for `ℝ` reads a float as an
exact real number.
-/

namespace Cgl

/-- The transcendental functions of `SimdScalarFloat` used by the library. -/
class FloatFns (S : Type*) where
  fsqrt : S → S
  fcbrt : S → S
  fsin : S → S
  fcos : S → S
  ftan : S → S
  fasin : S → S
  facos : S → S
  fatan : S → S
  /-- `y.atan2(x)` is `fatan2 y x`. -/
  fatan2 : S → S → S
  fexp : S → S
  fln : S → S
  fsinh : S → S
  fcosh : S → S
  /-- `x.powf(y)` is `fpowf x y`. -/
  fpowf : S → S → S
  /-- truncation towards zero -/
  ftrunc : S → S
  fpi : S
  fexp2 : S → S
  /-- `x.log(base)` is `flog x base`. -/
  flog : S → S → S
  fln2 : S
  fln10 : S
  ftanh : S → S
  ffracPi2 : S
  ffracPi4 : S

export FloatFns (fsqrt fcbrt fsin fcos ftan fasin facos fatan fatan2 fexp fln fsinh fcosh fpowf ftrunc fpi
  fexp2 flog fln2 fln10 ftanh ffracPi2 ffracPi4)

/-- The special values of a float type and the predicates that recognise them. -/
class FloatSpecial (S : Type*) where
  isNan : S → Bool
  isInfinite : S → Bool
  isFinite : S → Bool
  fnan : S
  finf : S
  fneginf : S
  /-- `x.copysign(y)` is `fcopysign x y`. -/
  fcopysign : S → S → S

export FloatSpecial (isNan isInfinite isFinite fnan finf fneginf fcopysign)

/-- Exact-real reading of the float functions. `f64::cbrt` is the odd real cube root; `f64::atan2(y, x)`
is the argument of `x + i y` in `(-π, π]`; `trunc` rounds towards zero. -/
noncomputable instance : FloatFns ℝ where
  fsqrt := Real.sqrt
  fcbrt x := if 0 ≤ x then x ^ (1 / 3 : ℝ) else -((-x) ^ (1 / 3 : ℝ))
  fsin := Real.sin
  fcos := Real.cos
  ftan := Real.tan
  fasin := Real.arcsin
  facos := Real.arccos
  fatan := Real.arctan
  fatan2 y x := Complex.arg ⟨x, y⟩
  fexp := Real.exp
  fln := Real.log
  fsinh := Real.sinh
  fcosh := Real.cosh
  fpowf x y := x ^ y
  ftrunc x := if 0 ≤ x then (⌊x⌋ : ℝ) else (⌈x⌉ : ℝ)
  fpi := Real.pi
  fexp2 x := 2 ^ x
  flog x base := Real.logb base x
  fln2 := Real.log 2
  fln10 := Real.log 10
  ftanh := Real.tanh
  ffracPi2 := Real.pi / 2
  ffracPi4 := Real.pi / 4

/-- Every real number is finite.  There is no real NaN or infinity: the values given here for `fnan`, `finf`
and `fneginf` are placeholders, and no theorem over `ℝ` covers a call that produces one of them. -/
noncomputable instance : FloatSpecial ℝ where
  isNan _ := false
  isInfinite _ := false
  isFinite _ := true
  fnan := 0
  finf := 0
  fneginf := 0
  fcopysign x y := if 0 ≤ y then |x| else -|x|

@[simp] theorem isNan_real (x : ℝ) : isNan x = false := rfl
@[simp] theorem isInfinite_real (x : ℝ) : isInfinite x = false := rfl
@[simp] theorem isFinite_real (x : ℝ) : isFinite x = true := rfl
@[simp] theorem fexp2_real (x : ℝ) : fexp2 x = 2 ^ x := rfl
@[simp] theorem flog_real (x b : ℝ) : flog x b = Real.logb b x := rfl
@[simp] theorem fln2_real : (fln2 : ℝ) = Real.log 2 := rfl
@[simp] theorem ftanh_real (x : ℝ) : ftanh x = Real.tanh x := rfl
@[simp] theorem fln10_real : (fln10 : ℝ) = Real.log 10 := rfl
@[simp] theorem fsqrt_real (x : ℝ) : fsqrt x = Real.sqrt x := rfl
@[simp] theorem fsin_real (x : ℝ) : fsin x = Real.sin x := rfl
@[simp] theorem fcos_real (x : ℝ) : fcos x = Real.cos x := rfl
@[simp] theorem ftan_real (x : ℝ) : ftan x = Real.tan x := rfl
@[simp] theorem fasin_real (x : ℝ) : fasin x = Real.arcsin x := rfl
@[simp] theorem facos_real (x : ℝ) : facos x = Real.arccos x := rfl
@[simp] theorem fatan_real (x : ℝ) : fatan x = Real.arctan x := rfl
@[simp] theorem fatan2_real (y x : ℝ) : fatan2 y x = Complex.arg ⟨x, y⟩ := rfl
@[simp] theorem fexp_real (x : ℝ) : fexp x = Real.exp x := rfl
@[simp] theorem fln_real (x : ℝ) : fln x = Real.log x := rfl
@[simp] theorem fsinh_real (x : ℝ) : fsinh x = Real.sinh x := rfl
@[simp] theorem fcosh_real (x : ℝ) : fcosh x = Real.cosh x := rfl
@[simp] theorem fpowf_real (x y : ℝ) : fpowf x y = x ^ y := rfl
@[simp] theorem ffracPi2_real : (ffracPi2 : ℝ) = Real.pi / 2 := rfl
@[simp] theorem ffracPi4_real : (ffracPi4 : ℝ) = Real.pi / 4 := rfl
@[simp] theorem fpi_real : (fpi : ℝ) = Real.pi := rfl

end Cgl
