import Verif.Spec.Libm

/-! # What the `f64` functions return inside and outside their domains

C standard, annex F.10, for `acos`, `asin`, `log` and `atan2`: a NaN for a finite argument outside the domain, a finite
number inside.  The accuracy required is next to nothing: the sine and the cosine are at most one, the inverse cosine
is between zero and four. -/

namespace Cgl
open Ieee FloatFns

class Library64 extends Libm f64 where
  acos_in : ∀ x : Ieee f64, x.Finite → |x.val| ≤ 1 → (facos x).Finite ∧ 0 ≤ (facos x).val ∧ (facos x).val ≤ 4
  acos_out : ∀ x : Ieee f64, x.Finite → 1 < |x.val| → facos x = nan
  asin_in : ∀ x : Ieee f64, x.Finite → |x.val| ≤ 1 → (fasin x).Finite
  asin_out : ∀ x : Ieee f64, x.Finite → 1 < |x.val| → fasin x = nan
  sin_bound : ∀ x : Ieee f64, x.Finite → |(fsin x).val| ≤ 1
  cos_bound : ∀ x : Ieee f64, x.Finite → |(fcos x).val| ≤ 1
  ln_fin : ∀ x : Ieee f64, x.Finite → 2 ^ (-1000 : ℤ) ≤ x.val → (fln x).Finite
  atan2_fin : ∀ y x : Ieee f64, y.Finite → x.Finite → (fatan2 y x).Finite
  cos_pi : fcos (fpi : Ieee f64) = -1

end Cgl
