import Verif.Model.Transform
import Verif.Model.Projection
import Verif.Model.Complex

/-!
# `Display`

Model of the `fmt::Display` implementations. The formatter is the text written so far; `write!` appends.
`d` is the `Display` of the scalar; writing to the formatter itself is taken never to fail (the vector and
matrix implementations call `unwrap` on each write).
-/

namespace Cgl

/-- `a - b` on `usize`. `checked` is whether the build has overflow checks: with them an underflow panics,
without them it wraps modulo `2 ^ 64` (64-bit targets). -/
def usizeSub (checked : Bool) (a b : ℕ) : Res ℕ :=
  if b ≤ a then .ok (a - b)
  else if checked then .error .arithmeticOverflow else .ok (2 ^ 64 + a - b)

section
variable {S : Type*} (d : S → String)

/-- the loop `for i in 0..last { write!(formatter, "{}, ", a[i]) }` then `write!(formatter, "{}]", a[last])`,
starting from the text `s`; every read is bounds-checked -/
def displayRow {n : ℕ} (a : Fin n → S) (last : ℕ) (s : String) : Res String :=
  (forRangeE last s fun i s => (readAt a i).map fun x => s ++ d x ++ ", ").bind fun s =>
    (readAt a last).map fun x => s ++ d x ++ "]"

/-- `Display for Vector`, vector.rs 1190-1201 -/
def Vec.display {n : ℕ} (checked : Bool) (v : Vec S n) : Res String :=
  (usizeSub checked n 1).bind fun last => displayRow d v.data last ("Vector" ++ toString n ++ " [")

/-- `Display for Point`, point.rs 545-556 -/
def Pt.display {n : ℕ} (checked : Bool) (p : Pt S n) : Res String :=
  (usizeSub checked n 1).bind fun last => displayRow d p.coords.data last ("Point" ++ toString n ++ " [")

/-- one column of `Display for Matrix`: `write!("[")`, the entries, `"]"` -/
def displayColumn {R C : ℕ} (checked : Bool) (m : Mat S R C) (c : ℕ) (s : String) : Res String :=
  (usizeSub checked R 1).bind fun last =>
    (readAt m.data c).bind fun col => displayRow d col last (s ++ "[")

/-- `Display for Matrix`, matrix.rs 1534-1557. Simplification: the column is looked up before the loop over
its entries rather than inside it; both panic on the same inputs except that with `R = 1` the source looks the
column up once. -/
def Mat.display {R C : ℕ} (checked : Bool) (m : Mat S R C) : Res String :=
  (usizeSub checked C 1).bind fun lastCol =>
    (forRangeE lastCol ("Matrix" ++ toString R ++ "x" ++ toString C ++ " [") fun c s =>
      (displayColumn d checked m c s).map fun s => s ++ ", ").bind fun s =>
    (displayColumn d checked m lastCol s).map fun s => s ++ "]"

/-- `Display for Complex`, complex.rs 2152-2159 -/
def Cx.display (z : Cx S) : String := d z.re ++ " + i" ++ d z.im

/-- `Display for Quaternion`, quaternion.rs 3950-3961 (`writeln!`: the text ends with a newline) -/
def Quat.display (q : Quat S) : String :=
  d (q.coords.data 0) ++ " + [" ++ d (q.coords.data 1) ++ ", " ++ d (q.coords.data 2) ++ ", "
    ++ d (q.coords.data 3) ++ "]" ++ "\n"

/-- `Display for Radians`, cglinalg_trigonometry/src/lib.rs 781-788 -/
def Radians.display (a : Radians S) : String := d a.val ++ " radians"
/-- `Display for Degrees`, cglinalg_trigonometry/src/lib.rs 772-779 -/
def Degrees.display (a : Degrees S) : String := d a.val ++ " degrees"
/-- `Display for Euler`, euler.rs 513-520; `d` is the `Display` of the angle type -/
def Euler.display {A : Type*} (d : A → String) (e : Euler A) : String :=
  "Euler [roll=" ++ d e.x ++ ", yaw=" ++ d e.y ++ ", pitch=" ++ d e.z ++ "]"

variable {n : ℕ} (checked : Bool)

/-- `Display for Translation`, translation.rs 620-627 -/
def Translation.display (t : Translation S n) : Res String :=
  (t.vector.display d checked).map fun v => "Translation" ++ toString n ++ " " ++ v
/-- `Display for Scale`, scale.rs 621-628 -/
def Scale.display (t : Scale S n) : Res String :=
  (t.vector.display d checked).map fun v => "Scale" ++ toString n ++ " [" ++ v ++ "]"
/-- `Display for Rotation`, rotation.rs 637-644 -/
def Rotation.display (t : Rotation S n) : Res String :=
  (t.matrix.display d checked).map fun m => "Rotation" ++ toString n ++ " [" ++ m ++ "]"
/-- `Display for Transform`, transform.rs 377-386 -/
def Transform.display (t : Transform S n) : Res String :=
  (t.matrix.display d checked).map fun m => "Transform" ++ toString n ++ " [" ++ m ++ "]"
/-- `Display for Isometry`, isometry.rs 828-839 -/
def Isometry.display (t : Isometry S n) : Res String :=
  (t.rotation.display d checked).bind fun r => (t.translation.display d checked).map fun u =>
    "Isometry" ++ toString n ++ " [rotation=" ++ r ++ ", translation=" ++ u ++ "]"
/-- `Display for Similarity`, similarity.rs 1101-1112 -/
def Similarity.display (t : Similarity S n) : Res String :=
  (t.isometry.rotation.display d checked).bind fun r =>
    (t.isometry.translation.vector.display d checked).map fun u =>
      "Similarity" ++ toString n ++ " [scale=" ++ d t.scale ++ ", rotation=" ++ r ++ ", translation=" ++ u
        ++ "]"
/-- `Display for Reflection`, reflection.rs 608-615 -/
def Reflection.display (t : Reflection S n) : Res String :=
  (t.normal.display d checked).bind fun a => (t.bias.display d checked).map fun b =>
    "Reflection" ++ toString n ++ " [normal = " ++ a ++ ", bias = " ++ b ++ "]"
/-- `Display for Shear`, shear.rs 1115-1126 -/
def Shear.display (t : Shear S n) : Res String :=
  (t.origin.display d checked).bind fun o => (t.direction.display d checked).bind fun u =>
    (t.normal.display d checked).map fun w =>
      "Shear" ++ toString n ++ " [shear_factor=" ++ d t.shearFactor ++ ", origin=" ++ o ++ ", direction=" ++ u
        ++ ", normal=" ++ w ++ "]"
/-- `Display for Perspective3`, projection.rs 2318-2325 -/
def Perspective3.display (t : Perspective3 S) : Res String :=
  (t.matrix.display d checked).map fun m => "Perspective3 [" ++ m ++ "]"
/-- `Display for Orthographic3`, projection.rs 4130-4137 -/
def Orthographic3.display (t : Orthographic3 S) : Res String :=
  (t.matrix.display d checked).map fun m => "Orthographic3 [" ++ m ++ "]"

end

end Cgl
