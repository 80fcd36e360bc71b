import Verif.Model.Vector
import Verif.Model.Angle

/-!
# `Complex<S>`

Model of cglinalg_core/src/complex.rs. The by-reference operator impls repeat the by-value expressions and
are not repeated here; slices, pointers and `Display` are not modelled. `shape`, `len`, `is_empty` are
constants.
-/

namespace Cgl

/-- `Complex<S>`, complex.rs 20-26 -/
@[ext] structure Cx (S : Type*) where
  re : S
  im : S

namespace Cx

variable {S T : Type*}

/-- `Complex::new`, complex.rs 31-33 -/
def new (re im : S) : Cx S := ⟨re, im⟩

/-- `Complex::try_cast`, complex.rs 95-109 -/
def tryCast (conv : S → Option T) (z : Cx S) : Option (Cx T) :=
  match conv z.re with
  | none => none
  | some re =>
    match conv z.im with
    | none => none
    | some im => some (new re im)

/-- `Complex::real`, complex.rs 128-130 -/
def real (z : Cx S) : S := z.re
/-- `Complex::imaginary`, complex.rs 144-146 -/
def imaginary (z : Cx S) : S := z.im
/-- `Complex::map`, complex.rs 163-168 (pure `op`) -/
def map (z : Cx S) (op : S → T) : Cx T := new (op z.re) (op z.im)

/-- `Complex::from_real`, complex.rs 190-192; also `From<S>`, 2072-2090 -/
def fromReal [Zero S] (value : S) : Cx S := new value 0
/-- `Complex::from_imaginary`, complex.rs 209-211 -/
def fromImaginary [Zero S] (value : S) : Cx S := new 0 value
/-- `Complex::zero`, complex.rs 229-231; also `Default`, 2063-2070 -/
instance [Zero S] : Zero (Cx S) := ⟨new 0 0⟩
/-- `Complex::is_zero`, complex.rs 247-249 -/
def isZero [Zero S] [BEq S] (z : Cx S) : Bool := z.re == 0 && z.im == 0
/-- `Complex::identity`, complex.rs 268-270; also `one`, 289-291, and `unit_re`, 350-352 -/
def identity [Zero S] [One S] : Cx S := new 1 0
instance [Zero S] [One S] : One (Cx S) := ⟨identity⟩
/-- `Complex::is_identity`, complex.rs 309-311; also `is_one`, 331-333 -/
def isIdentity [Zero S] [One S] [BEq S] (z : Cx S) : Bool := z.re == 1 && z.im == 0
/-- `Complex::unit_im`, complex.rs 367-369 -/
def unitIm [Zero S] [One S] : Cx S := new 0 1
/-- `Complex::is_real`, complex.rs 387-389 -/
def isReal [Zero S] [BEq S] (z : Cx S) : Bool := z.im == 0
/-- `Complex::is_imaginary`, complex.rs 407-409 -/
def isImaginary [Zero S] [BEq S] (z : Cx S) : Bool := z.re == 0

/-- `Complex::modulus_squared`, complex.rs 437-439; also `norm_squared`, 455-457, `magnitude_squared`,
473-475, and `Normed::norm_squared`, 3281-3283 -/
def normSquared [Add S] [Mul S] (z : Cx S) : S := z.re * z.re + z.im * z.im

/-! ### operators -/

/-- `-Complex`, complex.rs 2161-2183 -/
instance [Neg S] : Neg (Cx S) := ⟨fun z => new (-z.re) (-z.im)⟩
/-- `Complex + Complex`, complex.rs 2185-2231 -/
instance [Add S] : Add (Cx S) := ⟨fun z w => new (z.re + w.re) (z.im + w.im)⟩
/-- `Complex + S`, complex.rs 2233-2279 -/
instance instAddS [Add S] : HAdd (Cx S) S (Cx S) := ⟨fun z s => new (z.re + s) z.im⟩
/-- `Complex - Complex`, complex.rs 2281-2327 -/
instance [Sub S] : Sub (Cx S) := ⟨fun z w => new (z.re - w.re) (z.im - w.im)⟩
/-- `Complex - S`, complex.rs 2329-2375 -/
instance instSubS [Sub S] : HSub (Cx S) S (Cx S) := ⟨fun z s => new (z.re - s) z.im⟩
/-- `Complex * Complex`, complex.rs 2377-2435 -/
instance [Add S] [Sub S] [Mul S] : Mul (Cx S) := ⟨fun z w =>
  let realPart := z.re * w.re - z.im * w.im
  let imaginaryPart := z.re * w.im + z.im * w.re
  new realPart imaginaryPart⟩
/-- `Complex * S`, complex.rs 2437-2483 -/
instance instMulS [Mul S] : HMul (Cx S) S (Cx S) := ⟨fun z s => new (z.re * s) (z.im * s)⟩
/-- `Complex / Complex`, complex.rs 2485-2547 -/
instance [Add S] [Sub S] [Mul S] [Div S] : Div (Cx S) := ⟨fun z w =>
  let denominator := w.re * w.re + w.im * w.im
  let re := (z.re * w.re + z.im * w.im) / denominator
  let im := (z.im * w.re - z.re * w.im) / denominator
  new re im⟩
/-- `Complex / S`, complex.rs 2549-2595 -/
instance instDivS [Div S] : HDiv (Cx S) S (Cx S) := ⟨fun z s => new (z.re / s) (z.im / s)⟩
/-- `Complex % S`, complex.rs 2597-2643 -/
instance instModS [Mod S] : HMod (Cx S) S (Cx S) := ⟨fun z s => new (z.re % s) (z.im % s)⟩
/-- `S + Complex`, complex.rs 2847-2887 (the scalar types of the macro invocation) -/
instance instSAdd [Add S] : HAdd S (Cx S) (Cx S) := ⟨fun s z => new (s + z.re) z.im⟩
/-- `S - Complex`, complex.rs 2890-2930 -/
instance instSSub [Sub S] : HSub S (Cx S) (Cx S) := ⟨fun s z => new (s - z.re) z.im⟩
/-- `S * Complex`, complex.rs 2933-2973 -/
instance instSMul [Mul S] : HMul S (Cx S) (Cx S) := ⟨fun s z => new (s * z.re) (s * z.im)⟩
/-- `S / Complex`, complex.rs 2976-3032 -/
instance instSDiv [Add S] [Mul S] [Div S] [Neg S] : HDiv S (Cx S) (Cx S) := ⟨fun s z =>
  let denominator := z.re * z.re + z.im * z.im
  let re := (s * z.re) / denominator
  let im := -(s * z.im) / denominator
  new re im⟩

/-- `Complex += Complex`, complex.rs 2645-2663 -/
def addAssign [Add S] (z w : Cx S) : Cx S := { re := z.re + w.re, im := z.im + w.im }
/-- `Complex += S`, complex.rs 2665-2681 -/
def addAssignS [Add S] (z : Cx S) (s : S) : Cx S := { z with re := z.re + s }
/-- `Complex -= Complex`, complex.rs 2683-2701 -/
def subAssign [Sub S] (z w : Cx S) : Cx S := { re := z.re - w.re, im := z.im - w.im }
/-- `Complex -= S`, complex.rs 2703-2719 -/
def subAssignS [Sub S] (z : Cx S) (s : S) : Cx S := { z with re := z.re - s }
/-- `Complex *= Complex`, complex.rs 2721-2749: the fields are updated one after the other -/
def mulAssign [Add S] [Sub S] [Mul S] (self other : Cx S) : Cx S :=
  let a := self.re
  let self := { self with re := self.re * other.re }
  let self := { self with re := self.re - self.im * other.im }
  let self := { self with im := self.im * other.re }
  let self := { self with im := self.im + a * other.im }
  self
/-- `Complex *= S`, complex.rs 2751-2769 -/
def mulAssignS [Mul S] (z : Cx S) (s : S) : Cx S := { re := z.re * s, im := z.im * s }
/-- `Complex /= Complex`, complex.rs 2771-2805 -/
def divAssign [Add S] [Sub S] [Mul S] [Div S] (self other : Cx S) : Cx S :=
  let a := self.re
  let normSquared := other.normSquared
  let self := { self with re := self.re * other.re }
  let self := { self with re := self.re + self.im * other.im }
  let self := { self with re := self.re / normSquared }
  let self := { self with im := self.im * other.re }
  let self := { self with im := self.im - a * other.im }
  let self := { self with im := self.im / normSquared }
  self
/-- `Complex /= S`, complex.rs 2807-2825 -/
def divAssignS [Div S] (z : Cx S) (s : S) : Cx S := { re := z.re / s, im := z.im / s }
/-- `Complex %= S`, complex.rs 2827-2845 -/
def remAssignS [Mod S] (z : Cx S) (s : S) : Cx S := { re := z.re % s, im := z.im % s }

/-! ### algebra -/

/-- `Complex::scale` (inherent), complex.rs 491-493 -/
def scale [Mul S] (z : Cx S) (scale : S) : Cx S := new (z.re * scale) (z.im * scale)
/-- `Complex::unscale` (inherent), complex.rs 509-511 -/
def unscale [Div S] (z : Cx S) (scale : S) : Cx S := new (z.re / scale) (z.im / scale)
/-- `Complex::squared`, complex.rs 532-534 -/
def squared [Add S] [Sub S] [Mul S] (z : Cx S) : Cx S := z * z
/-- `Complex::cubed`, complex.rs 555-557 -/
def cubed [Add S] [Sub S] [Mul S] (z : Cx S) : Cx S := z * z * z
/-- `Complex::conjugate`, complex.rs 585-587 -/
def conjugate [Neg S] (z : Cx S) : Cx S := new z.re (-z.im)
/-- `Complex::l1_norm`, complex.rs 616-618 -/
def l1Norm [Add S] [SAbs S] (z : Cx S) : S := sabs z.re + sabs z.im

/-- `Complex::try_inverse`, complex.rs 1185-1192 -/
def tryInverse [Zero S] [Add S] [Mul S] [Div S] [Neg S] [BEq S] (z : Cx S) : Option (Cx S) :=
  let normSquared := z.normSquared
  if normSquared == 0 then none
  else some (new (z.re / normSquared) (-z.im / normSquared))
/-- `Complex::is_invertible_eps`, complex.rs 1214-1216; the public function (1209-1211) passes
`S::default_epsilon()` -/
def isInvertible [Add S] [Mul S] [LE S] [DecidableLE S] (threshold : S) (z : Cx S) : Bool :=
  decide (z.normSquared ≥ threshold * threshold)
/-- `Complex::inverse`, complex.rs 1236-1238 -/
def inverse [Zero S] [Add S] [Mul S] [Div S] [Neg S] [BEq S] (z : Cx S) : Res (Cx S) :=
  unwrap z.tryInverse

/-- the loop state of `powu` and `powi` -/
structure PowState (S E : Type*) where
  exponent : E
  base : Cx S
  result : Cx S

section Pow
variable [Zero S] [One S] [Add S] [Sub S] [Mul S]

/-- `Complex::powu`, complex.rs 1257-1285. `exponent` is a `u32` in the source; the operations on it (`% 2`,
`>>= 1`) do not overflow, so it is a natural number here. `none` stands for non-termination. -/
def powu (z : Cx S) (exponent : ℕ) : Option (Cx S) :=
  if exponent = 0 then some 1
  else
    (whileLoop (fun s : ℕ × Cx S => s.1 % 2 = 0) (fun s => (s.1 >>> 1, s.2 * s.2)) (exponent, z)).bind
      fun s =>
        let exponent := s.1
        let base := s.2
        if exponent = 1 then some base
        else
          (whileLoop (fun s : PowState S ℕ => s.exponent > 1) (fun s =>
            let exponent := s.exponent >>> 1
            let base := s.base * s.base
            if exponent % 2 = 1 then ⟨exponent, base, s.result.mulAssign base⟩
            else ⟨exponent, base, s.result⟩) ⟨exponent, base, base⟩).map PowState.result

/-- `Complex::powi`, complex.rs 1304-1345. `exponent` is an `i32` in the source; `%` truncates towards zero
(`Int.tmod`) and `>>= 1` is the arithmetic shift (floor division by two). -/
def powi [Div S] [Neg S] [BEq S] [FloatSpecial S] (z : Cx S) (exponent : ℤ) : Option (Cx S) :=
  if exponent = 0 then some 1
  else
    let base :=
      if exponent > 0 then z
      else
        let normSquared := z.normSquared
        if normSquared == 0 then new fnan fnan
        else new (z.re / normSquared) (-z.im / normSquared)
    if isNan base.re || isNan base.im then some base
    else
      (whileLoop (fun s : ℤ × Cx S => s.1.tmod 2 = 0) (fun s => (s.1 >>> 1, s.2 * s.2)) (exponent, base)).bind
        fun s =>
          let exponent := s.1
          let base := s.2
          if exponent = 1 then some base
          else
            (whileLoop (fun s : PowState S ℤ => s.exponent > 1) (fun s =>
              let exponent := s.exponent >>> 1
              let base := s.base * s.base
              if exponent.tmod 2 = 1 then ⟨exponent, base, s.result.mulAssign base⟩
              else ⟨exponent, base, s.result⟩) ⟨exponent, base, base⟩).map PowState.result

end Pow

/-! ### norms and polar form -/

section Float
variable [Zero S] [One S] [Add S] [Sub S] [Mul S] [Div S] [Neg S] [FloatFns S]

/-- `Complex::norm`, complex.rs 729-731; also `modulus`, 711-713, `magnitude`, 747-749, `l2_norm`, 765-767 -/
def norm (z : Cx S) : S := fsqrt z.normSquared
/-- `Complex::arg`, complex.rs 824-826 -/
def arg (z : Cx S) : S := fatan2 z.im z.re
/-- `Complex::from_polar_decomposition`, complex.rs 845-851; the angle is already converted to radians, and
`Radians::cos` / `Radians::sin` apply the scalar function to the wrapped value -/
def fromPolarDecomposition (scale : S) (angle : Radians S) : Cx S :=
  new (scale * fcos angle.val) (scale * fsin angle.val)
/-- `Complex::from_angle`, complex.rs 870-875 -/
def fromAngle (angle : Radians S) : Cx S := fromPolarDecomposition 1 angle
/-- `Complex::polar_decomposition`, complex.rs 892-894 -/
def polarDecomposition (z : Cx S) : S × Radians S := (z.norm, ⟨z.arg⟩)

/-- `Normed::normalize`, complex.rs 3308-3310 -/
def normalize (z : Cx S) : Cx S := z * (1 / z.norm)
/-- `Normed::scale`, complex.rs 3289-3291; also `scale_mut`, 3294-3296 -/
def scaleN (z : Cx S) (scale : S) : Cx S := z * scale
/-- `Normed::unscale`, complex.rs 3299-3301; also `unscale_mut`, 3304-3306 -/
def unscaleN (z : Cx S) (scale : S) : Cx S := z * (1 / scale)
/-- `Normed::normalize_mut`, complex.rs 3312-3317: the new value and the returned norm -/
def normalizeMut (z : Cx S) : Cx S × S :=
  let norm := z.norm
  (z.normalize, norm)
/-- `Normed::try_normalize`, complex.rs 3319-3326 -/
def tryNormalize [LE S] [DecidableLE S] (z : Cx S) (threshold : S) : Option (Cx S) :=
  let norm := z.norm
  if norm ≤ threshold then none else some z.normalize
/-- `Normed::try_normalize_mut`, complex.rs 3328-3335 -/
def tryNormalizeMut [LE S] [DecidableLE S] (z : Cx S) (threshold : S) : Cx S × Option S :=
  let norm := z.norm
  if norm ≤ threshold then (z, none) else
    let r := z.normalizeMut
    (r.1, some r.2)
/-- `Normed::distance_squared`, complex.rs 3337-3339 -/
def distanceSquared (z w : Cx S) : S := (z - w).normSquared
/-- `Normed::distance`, complex.rs 3341-3343 -/
def distance (z w : Cx S) : S := (z - w).norm

/-- `Normed for Complex`, complex.rs 3275-3344 -/
instance instNormed : Normed (Cx S) S where
  normSquared := normSquared
  norm := norm
  normalize := normalize

/-! ### exponential and logarithm -/

/-- `Complex::exp`, complex.rs 919-924 -/
def exp (z : Cx S) : Cx S :=
  let expRe := fexp z.re
  new (expRe * fcos z.im) (expRe * fsin z.im)
/-- `Complex::ln`, complex.rs 961-966 -/
def ln (z : Cx S) : Cx S :=
  let normSelf := z.norm
  let argSelf := z.arg
  new (fln normSelf) argSelf
/-- `Complex::exp2`, complex.rs 989-991 -/
def exp2 (z : Cx S) : Cx S := fromPolarDecomposition (fexp2 z.re) ⟨z.im * fln2⟩
/-- `Complex::log`, complex.rs 1013-1017 -/
def log (z : Cx S) (base : S) : Cx S :=
  let p := z.polarDecomposition
  new (flog p.1 base) (p.2.val / fln base)
/-- `Complex::log2`, complex.rs 1038-1040 -/
def log2 (z : Cx S) : Cx S := z.ln / (fln2 : S)
/-- `Complex::log10`, complex.rs 1061-1063 -/
def log10 (z : Cx S) : Cx S := z.ln / (fln10 : S)
/-- `Complex::sqrt`, complex.rs 1128-1135 -/
def sqrt (z : Cx S) : Cx S :=
  let two : S := 1 + 1
  let sqrtNorm := fsqrt z.norm
  let angle := z.arg
  new (sqrtNorm * fcos (angle / two)) (sqrtNorm * fsin (angle / two))
/-- `Complex::cbrt`, complex.rs 1160-1166 -/
def cbrt (z : Cx S) : Cx S :=
  let three : S := 1 + 1 + 1
  let p := z.polarDecomposition
  fromPolarDecomposition (fcbrt p.1) (p.2 / three)
/-- `Complex::powf`, complex.rs 1367-1369 -/
def powf (z : Cx S) (exponent : S) : Cx S := (z.ln * exponent).exp
/-- `Complex::powc`, complex.rs 1416-1422 -/
def powc [BEq S] (z exponent : Cx S) : Cx S :=
  if exponent.isZero then identity else (exponent * z.ln).exp
/-- `Complex::cis`, complex.rs 1908-1912 -/
def cis (phase : S) : Cx S := new (fcos phase) (fsin phase)

/-! ### trigonometric and hyperbolic functions -/

variable [FloatSpecial S] [BEq S] [LT S] [DecidableLT S] [SAbs S]

/-- `Complex::cosh`, complex.rs 1632-1653 -/
def cosh (z : Cx S) : Cx S :=
  if isInfinite z.re && !isFinite z.im then new (sabs z.re) fnan
  else if z.re == 0 && !isFinite z.im then new fnan z.re
  else if z.re == 0 && z.im == 0 then new 1 z.im
  else if z.im == 0 && !isFinite z.re then new (sabs z.re) z.im
  else
    let coshRe := fcosh z.re * fcos z.im
    let coshIm := fsinh z.re * fsin z.im
    new coshRe coshIm
/-- `Complex::sinh`, complex.rs 1726-1743 -/
def sinh (z : Cx S) : Cx S :=
  if isInfinite z.re && !isFinite z.im then new z.re fnan
  else if z.re == 0 && !isFinite z.im then new z.re fnan
  else if z.im == 0 && !isFinite z.re then z
  else
    let sinhRe := fsinh z.re * fcos z.im
    let sinhIm := fcosh z.re * fsin z.im
    new sinhRe sinhIm
/-- `Complex::tanh`, complex.rs 1810-1832 -/
def tanh (z : Cx S) : Cx S :=
  if isInfinite z.re then
    if !isFinite z.im then new (fcopysign 1 z.re) 0
    else
      let two : S := 1 + 1
      new (fcopysign 1 z.re) (fcopysign 0 (fsin (two * z.im)))
  else if isNan z.re && z.im == 0 then z
  else
    let twoTimesRe := z.re + z.re
    let twoTimesIm := z.im + z.im
    let denominator := fcosh twoTimesRe + fcos twoTimesIm
    let tanhRe := fsinh twoTimesRe / denominator
    let tanhIm := fsin twoTimesIm / denominator
    new tanhRe tanhIm
/-- `Complex::asinh`, complex.rs 1764-1793 -/
def asinh (z : Cx S) : Cx S :=
  if isInfinite z.re then
    if isNan z.im then z
    else if isInfinite z.im then new z.re (fcopysign ffracPi4 z.im)
    else new z.re (fcopysign 0 z.im)
  else if isNan z.re then
    if isInfinite z.im then new z.im z.re
    else if z.im == 0 then z
    else new z.re z.re
  else if isInfinite z.im then new (fcopysign z.im z.re) (fcopysign ffracPi2 z.im)
  else (z + ((1 : Cx S) + z * z).sqrt).ln
/-- `Complex::acosh`, complex.rs 1674-1709 -/
def acosh (z : Cx S) : Cx S :=
  let three : S := 1 + 1 + 1
  if isInfinite z.re then
    if isNan z.im then new (sabs z.re) z.im
    else if isInfinite z.im then
      if z.re > 0 then new z.re (fcopysign ffracPi4 z.im)
      else new (-z.re) (fcopysign (three * ffracPi4) z.im)
    else if z.re < 0 then new (-z.re) (fcopysign fpi z.im)
    else new z.re (fcopysign 0 z.im)
  else if isNan z.re then
    if isInfinite z.im then new (sabs z.im) z.re
    else new z.re z.re
  else if isInfinite z.im then new (sabs z.im) (fcopysign ffracPi2 z.im)
  else
    let one : Cx S := 1
    let two := one + one
    let w := ((z + one) / two).sqrt + ((z - one) / two).sqrt
    two * w.ln
/-- `Complex::atanh`, complex.rs 1853-1884 -/
def atanh (z : Cx S) : Cx S :=
  let one : Cx S := 1
  let two := one + one
  if isInfinite z.im then new (fcopysign 0 z.re) (fcopysign ffracPi2 z.im)
  else if isNan z.im then
    if isInfinite z.re || z.re == 0 then new (fcopysign 0 z.re) z.im
    else new z.im z.im
  else if isNan z.re then new z.re z.re
  else if isInfinite z.re then new (fcopysign 0 z.re) (fcopysign ffracPi2 z.im)
  else if z.re == one.re && z.im == one.im then new finf 0
  else if z.re == (-one).re && z.im == (-one).im then new fneginf 0
  else ((one + z).ln - (one - z).ln) / two
/-- `Complex::cos`, complex.rs 1439-1444 -/
def cos (z : Cx S) : Cx S := (new (-z.im) z.re).cosh
/-- `Complex::sin`, complex.rs 1528-1535 -/
def sin (z : Cx S) : Cx S :=
  let z1 := new (-z.im) z.re
  let z2 := z1.sinh
  new z2.im (-z2.re)
/-- `Complex::tan`, complex.rs 1580-1587 -/
def tan (z : Cx S) : Cx S :=
  let z1 := new (-z.im) z.re
  let z2 := z1.tanh
  new z2.im (-z2.re)
/-- `Complex::acos`, complex.rs 1465-1511 -/
def acos (z : Cx S) : Cx S :=
  let three : S := 1 + 1 + 1
  if isInfinite z.re then
    if isNan z.im then new z.im z.re
    else if isInfinite z.im then
      if z.re < 0 then new (three * ffracPi4) (-z.im)
      else new ffracPi4 (-z.im)
    else if z.re < 0 then new fpi (if z.im < 0 then -z.re else z.re)
    else new 0 (if z.im < 0 then z.re else -z.re)
  else if isNan z.re then
    if isInfinite z.im then new z.re (-z.im)
    else new z.re z.re
  else if isInfinite z.im then new ffracPi2 (-z.im)
  else if z.re == 0 && (z.im == 0 || isNan z.im) then new ffracPi2 (-z.im)
  else
    let w := ((unitIm * ((1 : Cx S) - z * z).sqrt) + z).ln
    (-unitIm) * w
/-- `Complex::asin`, complex.rs 1556-1563 -/
def asin (z : Cx S) : Cx S :=
  let z1 := new (-z.im) z.re
  let z2 := z1.asinh
  new z2.im (-z2.re)
/-- `Complex::atan`, complex.rs 1608-1615 -/
def atan (z : Cx S) : Cx S :=
  let z1 := new (-z.im) z.re
  let z2 := z1.atanh
  new z2.im (-z2.re)

end Float

end Cx
end Cgl
