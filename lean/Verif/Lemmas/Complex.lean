import Verif.Model.Complex
import Verif.Lemmas.Loop
import Mathlib.Analysis.SpecialFunctions.Complex.Log
import Mathlib.Analysis.SpecialFunctions.Pow.Complex
import Mathlib.Tactic.FieldSimp
import Mathlib.Tactic.LinearCombination
import Mathlib.Tactic.Positivity
import Mathlib.Tactic.Ring

/-!
# Facts about the complex number model
-/

namespace Cgl
namespace Cx

section Proj
variable {S : Type*}

@[simp] theorem new_re (a b : S) : (new a b).re = a := rfl
@[simp] theorem new_im (a b : S) : (new a b).im = b := rfl
@[simp] theorem zero_re [Zero S] : (0 : Cx S).re = 0 := rfl
@[simp] theorem zero_im [Zero S] : (0 : Cx S).im = 0 := rfl
@[simp] theorem one_re [Zero S] [One S] : (1 : Cx S).re = 1 := rfl
@[simp] theorem one_im [Zero S] [One S] : (1 : Cx S).im = 0 := rfl
@[simp] theorem identity_re [Zero S] [One S] : (identity : Cx S).re = 1 := rfl
@[simp] theorem identity_im [Zero S] [One S] : (identity : Cx S).im = 0 := rfl
@[simp] theorem unitIm_re [Zero S] [One S] : (unitIm : Cx S).re = 0 := rfl
@[simp] theorem unitIm_im [Zero S] [One S] : (unitIm : Cx S).im = 1 := rfl
@[simp] theorem neg_re [Neg S] (z : Cx S) : (-z).re = -z.re := rfl
@[simp] theorem neg_im [Neg S] (z : Cx S) : (-z).im = -z.im := rfl
@[simp] theorem add_re [Add S] (z w : Cx S) : (z + w).re = z.re + w.re := rfl
@[simp] theorem add_im [Add S] (z w : Cx S) : (z + w).im = z.im + w.im := rfl
@[simp] theorem sub_re [Sub S] (z w : Cx S) : (z - w).re = z.re - w.re := rfl
@[simp] theorem sub_im [Sub S] (z w : Cx S) : (z - w).im = z.im - w.im := rfl
@[simp] theorem mul_re [Add S] [Sub S] [Mul S] (z w : Cx S) :
    (z * w).re = z.re * w.re - z.im * w.im := rfl
@[simp] theorem mul_im [Add S] [Sub S] [Mul S] (z w : Cx S) :
    (z * w).im = z.re * w.im + z.im * w.re := rfl
@[simp] theorem div_re [Add S] [Sub S] [Mul S] [Div S] (z w : Cx S) :
    (z / w).re = (z.re * w.re + z.im * w.im) / (w.re * w.re + w.im * w.im) := rfl
@[simp] theorem div_im [Add S] [Sub S] [Mul S] [Div S] (z w : Cx S) :
    (z / w).im = (z.im * w.re - z.re * w.im) / (w.re * w.re + w.im * w.im) := rfl
@[simp] theorem addS_re [Add S] (z : Cx S) (s : S) : (z + s).re = z.re + s := rfl
@[simp] theorem addS_im [Add S] (z : Cx S) (s : S) : (z + s).im = z.im := rfl
@[simp] theorem subS_re [Sub S] (z : Cx S) (s : S) : (z - s).re = z.re - s := rfl
@[simp] theorem subS_im [Sub S] (z : Cx S) (s : S) : (z - s).im = z.im := rfl
@[simp] theorem mulS_re [Mul S] (z : Cx S) (s : S) : (z * s).re = z.re * s := rfl
@[simp] theorem mulS_im [Mul S] (z : Cx S) (s : S) : (z * s).im = z.im * s := rfl
@[simp] theorem divS_re [Div S] (z : Cx S) (s : S) : (z / s).re = z.re / s := rfl
@[simp] theorem divS_im [Div S] (z : Cx S) (s : S) : (z / s).im = z.im / s := rfl
@[simp] theorem sAdd_re [Add S] (z : Cx S) (s : S) : (s + z).re = s + z.re := rfl
@[simp] theorem sAdd_im [Add S] (z : Cx S) (s : S) : (s + z).im = z.im := rfl
@[simp] theorem sSub_re [Sub S] (z : Cx S) (s : S) : (s - z).re = s - z.re := rfl
@[simp] theorem sSub_im [Sub S] (z : Cx S) (s : S) : (s - z).im = z.im := rfl
@[simp] theorem sMul_re [Mul S] (z : Cx S) (s : S) : (s * z).re = s * z.re := rfl
@[simp] theorem sMul_im [Mul S] (z : Cx S) (s : S) : (s * z).im = s * z.im := rfl
@[simp] theorem sDiv_re [Add S] [Mul S] [Div S] [Neg S] (z : Cx S) (s : S) :
    (s / z).re = s * z.re / (z.re * z.re + z.im * z.im) := rfl
@[simp] theorem sDiv_im [Add S] [Mul S] [Div S] [Neg S] (z : Cx S) (s : S) :
    (s / z).im = -(s * z.im) / (z.re * z.re + z.im * z.im) := rfl
@[simp] theorem conjugate_re [Neg S] (z : Cx S) : z.conjugate.re = z.re := rfl
@[simp] theorem conjugate_im [Neg S] (z : Cx S) : z.conjugate.im = -z.im := rfl
@[simp] theorem fromReal_re [Zero S] (s : S) : (fromReal s).re = s := rfl
@[simp] theorem fromReal_im [Zero S] (s : S) : (fromReal s).im = 0 := rfl

end Proj

theorem ne_zero_iff {S : Type*} [Zero S] {z : Cx S} : z ≠ 0 ↔ z.re ≠ 0 ∨ z.im ≠ 0 := by
  rw [Ne, Cx.ext_iff]; simp only [zero_re, zero_im]; tauto

theorem normSquared_eq_zero {K : Type*} [Field K] [LinearOrder K] [IsStrictOrderedRing K] {z : Cx K} :
    z.normSquared = 0 ↔ z = 0 := by
  constructor
  · intro h
    simp only [normSquared] at h
    have h1 := mul_self_nonneg z.re
    have h2 := mul_self_nonneg z.im
    apply Cx.ext
    · exact mul_self_eq_zero.mp (by linarith)
    · exact mul_self_eq_zero.mp (by linarith)
  · rintro rfl; simp [normSquared]

/-! ### the complex numbers of Mathlib -/

/-- The complex number `re + i im`. -/
def toC (z : Cx ℝ) : ℂ := ⟨z.re, z.im⟩

@[simp] theorem toC_re (z : Cx ℝ) : z.toC.re = z.re := rfl
@[simp] theorem toC_im (z : Cx ℝ) : z.toC.im = z.im := rfl

theorem toC_inj {z w : Cx ℝ} : z.toC = w.toC ↔ z = w := by
  rw [Complex.ext_iff, Cx.ext_iff]; rfl

theorem toC_injective : Function.Injective toC := fun _ _ => toC_inj.mp

theorem toC_new (a b : ℝ) : (new a b).toC = ⟨a, b⟩ := rfl
@[simp] theorem toC_zero : (0 : Cx ℝ).toC = 0 := rfl
@[simp] theorem toC_one : (1 : Cx ℝ).toC = 1 := rfl
@[simp] theorem toC_unitIm : (unitIm : Cx ℝ).toC = Complex.I := rfl
@[simp] theorem toC_fromReal (s : ℝ) : (fromReal s).toC = (s : ℂ) := rfl
@[simp] theorem toC_neg (z : Cx ℝ) : (-z).toC = -z.toC := rfl
@[simp] theorem toC_add (z w : Cx ℝ) : (z + w).toC = z.toC + w.toC := rfl
@[simp] theorem toC_sub (z w : Cx ℝ) : (z - w).toC = z.toC - w.toC := rfl
@[simp] theorem toC_mul (z w : Cx ℝ) : (z * w).toC = z.toC * w.toC := rfl
@[simp] theorem toC_conjugate (z : Cx ℝ) : z.conjugate.toC = (starRingEnd ℂ) z.toC := rfl
@[simp] theorem toC_mulS (z : Cx ℝ) (s : ℝ) : (z * s).toC = z.toC * (s : ℂ) := by
  apply Complex.ext <;> simp
@[simp] theorem toC_divS (z : Cx ℝ) (s : ℝ) : (z / s).toC = z.toC / (s : ℂ) := by
  apply Complex.ext <;> simp

theorem normSq_toC (z : Cx ℝ) : Complex.normSq z.toC = z.normSquared := by
  simp [Complex.normSq_apply, normSquared]

theorem toC_eq_zero {z : Cx ℝ} : z.toC = 0 ↔ z = 0 := by rw [← toC_zero, toC_inj]
theorem toC_ne_zero {z : Cx ℝ} : z.toC ≠ 0 ↔ z ≠ 0 := toC_eq_zero.not

@[simp] theorem toC_div (z w : Cx ℝ) : (z / w).toC = z.toC / w.toC := by
  apply Complex.ext
  · rw [Complex.div_re]
    simp only [toC_re, toC_im, div_re, Complex.normSq_apply]
    rw [← add_div]
  · rw [Complex.div_im]
    simp only [toC_re, toC_im, div_im, Complex.normSq_apply]
    rw [← sub_div]

theorem norm_def (z : Cx ℝ) : z.norm = Real.sqrt z.normSquared := rfl

theorem norm_eq (z : Cx ℝ) : z.norm = ‖z.toC‖ := by
  rw [norm_def, ← normSq_toC, Complex.norm_def]

theorem norm_nonneg (z : Cx ℝ) : 0 ≤ z.norm := Real.sqrt_nonneg _

theorem norm_eq_zero {z : Cx ℝ} : z.norm = 0 ↔ z = 0 := by
  rw [norm_eq, _root_.norm_eq_zero, toC_eq_zero]

theorem norm_pos {z : Cx ℝ} (h : z ≠ 0) : 0 < z.norm :=
  lt_of_le_of_ne (norm_nonneg z) (Ne.symm (norm_eq_zero.not.mpr h))

theorem arg_eq (z : Cx ℝ) : z.arg = Complex.arg z.toC := rfl

theorem toC_exp (z : Cx ℝ) : z.exp.toC = Complex.exp z.toC := by
  apply Complex.ext
  · simp [exp, toC, Complex.exp_re]
  · simp [exp, toC, Complex.exp_im]

theorem toC_ln (z : Cx ℝ) : z.ln.toC = Complex.log z.toC := by
  apply Complex.ext
  · rw [Complex.log_re]; simp [ln, norm_eq, toC_new]
  · rw [Complex.log_im]; simp [ln, arg_eq, toC_new]

theorem toC_fromPolar (r : ℝ) (t : Radians ℝ) :
    (fromPolarDecomposition r t).toC = r * Complex.exp (t.val * Complex.I) := by
  rw [Complex.exp_mul_I]
  apply Complex.ext <;> simp [fromPolarDecomposition, toC_new, ← Complex.ofReal_cos, ← Complex.ofReal_sin]

end Cx
end Cgl
