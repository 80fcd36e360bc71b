import Verif.Model.Angle
import Verif.Spec.Ieee

/-! # The operations angles need beyond the arithmetic of `Fl` and `Ieee`

Integer constants (`S::cast_from`) and the remainder `%`. -/

namespace Cgl

/-- the conversion of an integer constant rounds it -/
instance {ρ : Rounding} : NatCast (Fl ρ) := ⟨fun n => Fl.round n⟩

/-- `%` on floats, the remainder of truncated division, rounded.  `C80_remainder_exact`: nothing is rounded away. -/
noncomputable instance {ρ : Rounding} : FRem (Fl ρ) := ⟨fun x y => Fl.round (frem x.val y.val)⟩

@[simp] theorem Fl.natCast_val {ρ : Rounding} (n : ℕ) : ((n : ℕ) : Fl ρ).val = ρ.fl n := rfl
@[simp] theorem Fl.frem_val {ρ : Rounding} (x y : Fl ρ) : (frem x y).val = ρ.fl (frem x.val y.val) := rfl
@[simp] theorem Fl.pi_val {ρ : Rounding} : (fpi : Fl ρ).val = ρ.fl Real.pi := rfl

/-- the conversion of an integer constant -/
noncomputable instance {φ : Format} : NatCast (Ieee φ) := ⟨fun n => Ieee.round false n⟩

/-- `%` on IEEE data (C, annex F.10.7.1): NaN for an infinite dividend or a zero divisor, the dividend for an infinite
divisor, and a zero result has the sign of the dividend. -/
noncomputable instance {φ : Format} : FRem (Ieee φ) := ⟨fun
  | .nan, _ => .nan
  | _, .nan => .nan
  | .inf _, _ => .nan
  | .fin s m h, .inf _ => .fin s m h
  | .fin s m _, .fin t k _ => if k = 0 then .nan else Ieee.round s (frem (Ieee.signed s m) (Ieee.signed t k))⟩

end Cgl
