import Mathlib.Logic.Function.Basic
import Mathlib.Algebra.Order.Group.Unbundled.Abs
import Mathlib.Data.Fin.VecNotation

/-!
# Prelude of the model

Control flow of the Rust source (counted loops, panics) and the scalar operations that are not
already Lean notation classes.
-/

namespace Cgl

/-- Abnormal termination of a Rust function. -/
inductive Panic where
  /-- `Option::unwrap` (or `expect`) on `None`. -/
  | unwrapNone
  /-- slice / array index out of range. -/
  | indexOutOfBounds
  /-- `assert!` failed inside a callee (for example `Ord::clamp` with `min > max`). -/
  | assertFailed
  /-- integer overflow in a build with overflow checks. -/
  | arithmeticOverflow
deriving DecidableEq, Repr

/-- The value of a Rust expression that may panic. -/
abbrev Res (α : Type*) := Except Panic α

/-- `Option::unwrap`. -/
def unwrap {α : Type*} : Option α → Res α
  | some a => .ok a
  | none => .error .unwrapNone

/-- `for i in 0..n { state = body(i, state) }`, starting from `init`. -/
def forRange {σ : Type*} (n : ℕ) (init : σ) (body : Fin n → σ → σ) : σ :=
  Fin.foldl n (fun s i => body i s) init

/-- `for i in 0..n { ... return None ... }`: a counted loop whose body may leave the function early
with `None`. -/
def forRange? {σ : Type*} (n : ℕ) (init : σ) (body : Fin n → σ → Option σ) : Option σ :=
  forRange n (some init) (fun i s => s.bind (body i))

/-- A counted loop whose body may panic. -/
def forRangeE {σ : Type*} (n : ℕ) (init : σ) (body : Fin n → σ → Res σ) : Res σ :=
  forRange n (.ok init) (fun i s => s.bind (body i))

/-- `while cond(state) { state = body(state) }`; `none` when the loop does not terminate. -/
def whileLoop {σ : Type*} (cond : σ → Bool) (body : σ → σ) (s : σ) : Option σ :=
  if cond s then whileLoop cond body (body s) else some s
partial_fixpoint

/-- Reading an array at a run-time index (bounds checked, panics when out of range). -/
def readAt {α : Type*} {n : ℕ} (a : Fin n → α) (i : ℕ) : Res α :=
  if h : i < n then .ok (a ⟨i, h⟩) else .error .indexOutOfBounds

/-- Writing an array at a run-time index (bounds checked, panics when out of range). -/
def writeAt {α : Type*} {n : ℕ} (a : Fin n → α) (i : ℕ) (x : α) : Res (Fin n → α) :=
  if h : i < n then .ok (Function.update a ⟨i, h⟩ x) else .error .indexOutOfBounds

/-- `slice::swap(i, j)`: exchanges two elements, panics when an index is out of range. -/
def sliceSwap {α : Type*} {n : ℕ} (a : Fin n → α) (i j : ℕ) : Res (Fin n → α) :=
  (readAt a i).bind fun ai => (readAt a j).bind fun aj =>
    (writeAt a i aj).bind fun a' => writeAt a' j ai

/-- Absolute value, `SimdScalarSigned::abs` (cglinalg_numeric/src/lib.rs 1513-1565 for integers, the
float impl for floats). -/
class SAbs (S : Type*) where
  sabs : S → S

export SAbs (sabs)

instance instSAbs {S : Type*} [Lattice S] [AddGroup S] : SAbs S := ⟨fun x => |x|⟩

theorem sabs_eq {S : Type*} [Lattice S] [AddGroup S] (x : S) : sabs x = |x| := rfl

end Cgl
