import Verif.Model.Point

/-!
# Swizzles

Model of the `impl_swizzle!` macro (vector.rs 2546-2558, point.rs 1504-1516) and of the list of its
invocations. The two tables are transcribed mechanically from the source, one row per invocation.
-/

namespace Cgl

/-- one invocation `impl_swizzle!(name() => TypeN => TypeM { indices })` -/
structure Swizzle where
  /-- the name of the method -/
  name : String
  /-- dimension of the receiver -/
  source : ℕ
  /-- dimension of the result -/
  target : ℕ
  /-- the literal indices -/
  indices : List ℕ
deriving DecidableEq

/-- a list of exactly `m` scalars as the array passed to `$Output::new`; `none` when the number of
arguments is wrong (the Rust program does not compile) -/
def arrayOfList {S : Type*} (m : ℕ) (l : List S) : Option (Fin m → S) :=
  if h : l.length = m then some fun i => l[i] else none

/-- the body of the method, vector.rs 2551-2555: `$Output::new($(self.data[$i]),*)`, with the
bounds-checked reads in order -/
def Swizzle.apply {S : Type*} {n m : ℕ} (s : Swizzle) (v : Vec S n) : Res (Option (Vec S m)) :=
  (s.indices.mapM fun i => readAt v.data i).map fun l => (arrayOfList m l).map Vec.mk

/-- the body of the method on points, point.rs 1509-1513: `$Output::new($(self.coords[$i]),*)` -/
def Swizzle.applyPoint {S : Type*} {n m : ℕ} (s : Swizzle) (p : Pt S n) : Res (Option (Pt S m)) :=
  (s.indices.mapM fun i => p.index i).map fun l => (arrayOfList m l).map fun a => ⟨⟨a⟩⟩

/-- cglinalg_core/src/vector.rs, lines 2560-2954: one row per `impl_swizzle!` invocation -/
def vectorSwizzles : List Swizzle := [
  ⟨"x", 1, 1, [0]⟩,
  ⟨"x", 2, 1, [0]⟩,
  ⟨"y", 2, 1, [1]⟩,
  ⟨"xx", 2, 2, [0, 0]⟩,
  ⟨"xy", 2, 2, [0, 1]⟩,
  ⟨"yx", 2, 2, [1, 0]⟩,
  ⟨"yy", 2, 2, [1, 1]⟩,
  ⟨"x", 3, 1, [0]⟩,
  ⟨"y", 3, 1, [1]⟩,
  ⟨"z", 3, 1, [2]⟩,
  ⟨"xx", 3, 2, [0, 0]⟩,
  ⟨"xy", 3, 2, [0, 1]⟩,
  ⟨"xz", 3, 2, [0, 2]⟩,
  ⟨"yx", 3, 2, [1, 0]⟩,
  ⟨"yy", 3, 2, [1, 1]⟩,
  ⟨"yz", 3, 2, [1, 2]⟩,
  ⟨"zx", 3, 2, [2, 0]⟩,
  ⟨"zy", 3, 2, [2, 1]⟩,
  ⟨"zz", 3, 2, [2, 2]⟩,
  ⟨"xxx", 3, 3, [0, 0, 0]⟩,
  ⟨"xxy", 3, 3, [0, 0, 1]⟩,
  ⟨"xxz", 3, 3, [0, 0, 2]⟩,
  ⟨"xyx", 3, 3, [0, 1, 0]⟩,
  ⟨"xyy", 3, 3, [0, 1, 1]⟩,
  ⟨"xyz", 3, 3, [0, 1, 2]⟩,
  ⟨"xzx", 3, 3, [0, 2, 0]⟩,
  ⟨"xzy", 3, 3, [0, 2, 1]⟩,
  ⟨"xzz", 3, 3, [0, 2, 2]⟩,
  ⟨"yxx", 3, 3, [1, 0, 0]⟩,
  ⟨"yxy", 3, 3, [1, 0, 1]⟩,
  ⟨"yxz", 3, 3, [1, 0, 2]⟩,
  ⟨"yyx", 3, 3, [1, 1, 0]⟩,
  ⟨"yyy", 3, 3, [1, 1, 1]⟩,
  ⟨"yyz", 3, 3, [1, 1, 2]⟩,
  ⟨"yzx", 3, 3, [1, 2, 0]⟩,
  ⟨"yzy", 3, 3, [1, 2, 1]⟩,
  ⟨"yzz", 3, 3, [1, 2, 2]⟩,
  ⟨"zxx", 3, 3, [2, 0, 0]⟩,
  ⟨"zxy", 3, 3, [2, 0, 1]⟩,
  ⟨"zxz", 3, 3, [2, 0, 2]⟩,
  ⟨"zyx", 3, 3, [2, 1, 0]⟩,
  ⟨"zyy", 3, 3, [2, 1, 1]⟩,
  ⟨"zyz", 3, 3, [2, 1, 2]⟩,
  ⟨"zzx", 3, 3, [2, 2, 0]⟩,
  ⟨"zzy", 3, 3, [2, 2, 1]⟩,
  ⟨"zzz", 3, 3, [2, 2, 2]⟩,
  ⟨"x", 4, 1, [0]⟩,
  ⟨"y", 4, 1, [1]⟩,
  ⟨"z", 4, 1, [2]⟩,
  ⟨"w", 4, 1, [3]⟩,
  ⟨"xx", 4, 2, [0, 0]⟩,
  ⟨"xy", 4, 2, [0, 1]⟩,
  ⟨"xz", 4, 2, [0, 2]⟩,
  ⟨"xw", 4, 2, [0, 3]⟩,
  ⟨"yx", 4, 2, [1, 0]⟩,
  ⟨"yy", 4, 2, [1, 1]⟩,
  ⟨"yz", 4, 2, [1, 2]⟩,
  ⟨"yw", 4, 2, [1, 3]⟩,
  ⟨"zx", 4, 2, [2, 0]⟩,
  ⟨"zy", 4, 2, [2, 1]⟩,
  ⟨"zz", 4, 2, [2, 2]⟩,
  ⟨"zw", 4, 2, [2, 3]⟩,
  ⟨"wx", 4, 2, [3, 0]⟩,
  ⟨"wy", 4, 2, [3, 1]⟩,
  ⟨"wz", 4, 2, [3, 2]⟩,
  ⟨"ww", 4, 2, [3, 3]⟩,
  ⟨"xxx", 4, 3, [0, 0, 0]⟩,
  ⟨"xxy", 4, 3, [0, 0, 1]⟩,
  ⟨"xxz", 4, 3, [0, 0, 2]⟩,
  ⟨"xxw", 4, 3, [0, 0, 3]⟩,
  ⟨"xyx", 4, 3, [0, 1, 0]⟩,
  ⟨"xyy", 4, 3, [0, 1, 1]⟩,
  ⟨"xyz", 4, 3, [0, 1, 2]⟩,
  ⟨"xyw", 4, 3, [0, 1, 3]⟩,
  ⟨"xzx", 4, 3, [0, 2, 0]⟩,
  ⟨"xzy", 4, 3, [0, 2, 1]⟩,
  ⟨"xzz", 4, 3, [0, 2, 2]⟩,
  ⟨"xzw", 4, 3, [0, 2, 3]⟩,
  ⟨"xwx", 4, 3, [0, 3, 0]⟩,
  ⟨"xwy", 4, 3, [0, 3, 1]⟩,
  ⟨"xwz", 4, 3, [0, 3, 2]⟩,
  ⟨"xww", 4, 3, [0, 3, 3]⟩,
  ⟨"yxx", 4, 3, [1, 0, 0]⟩,
  ⟨"yxy", 4, 3, [1, 0, 1]⟩,
  ⟨"yxz", 4, 3, [1, 0, 2]⟩,
  ⟨"yxw", 4, 3, [1, 0, 3]⟩,
  ⟨"yyx", 4, 3, [1, 1, 0]⟩,
  ⟨"yyy", 4, 3, [1, 1, 1]⟩,
  ⟨"yyz", 4, 3, [1, 1, 2]⟩,
  ⟨"yyw", 4, 3, [1, 1, 3]⟩,
  ⟨"yzx", 4, 3, [1, 2, 0]⟩,
  ⟨"yzy", 4, 3, [1, 2, 1]⟩,
  ⟨"yzz", 4, 3, [1, 2, 2]⟩,
  ⟨"yzw", 4, 3, [1, 2, 3]⟩,
  ⟨"ywx", 4, 3, [1, 3, 0]⟩,
  ⟨"ywy", 4, 3, [1, 3, 1]⟩,
  ⟨"ywz", 4, 3, [1, 3, 2]⟩,
  ⟨"yww", 4, 3, [1, 3, 3]⟩,
  ⟨"zxx", 4, 3, [2, 0, 0]⟩,
  ⟨"zxy", 4, 3, [2, 0, 1]⟩,
  ⟨"zxz", 4, 3, [2, 0, 2]⟩,
  ⟨"zxw", 4, 3, [2, 0, 3]⟩,
  ⟨"zyx", 4, 3, [2, 1, 0]⟩,
  ⟨"zyy", 4, 3, [2, 1, 1]⟩,
  ⟨"zyz", 4, 3, [2, 1, 2]⟩,
  ⟨"zyw", 4, 3, [2, 1, 3]⟩,
  ⟨"zzx", 4, 3, [2, 2, 0]⟩,
  ⟨"zzy", 4, 3, [2, 2, 1]⟩,
  ⟨"zzz", 4, 3, [2, 2, 2]⟩,
  ⟨"zzw", 4, 3, [2, 2, 3]⟩,
  ⟨"zwx", 4, 3, [2, 3, 0]⟩,
  ⟨"zwy", 4, 3, [2, 3, 1]⟩,
  ⟨"zwz", 4, 3, [2, 3, 2]⟩,
  ⟨"zww", 4, 3, [2, 3, 3]⟩,
  ⟨"wxx", 4, 3, [3, 0, 0]⟩,
  ⟨"wxy", 4, 3, [3, 0, 1]⟩,
  ⟨"wxz", 4, 3, [3, 0, 2]⟩,
  ⟨"wxw", 4, 3, [3, 0, 3]⟩,
  ⟨"wyx", 4, 3, [3, 1, 0]⟩,
  ⟨"wyy", 4, 3, [3, 1, 1]⟩,
  ⟨"wyz", 4, 3, [3, 1, 2]⟩,
  ⟨"wyw", 4, 3, [3, 1, 3]⟩,
  ⟨"wzx", 4, 3, [3, 2, 0]⟩,
  ⟨"wzy", 4, 3, [3, 2, 1]⟩,
  ⟨"wzz", 4, 3, [3, 2, 2]⟩,
  ⟨"wzw", 4, 3, [3, 2, 3]⟩,
  ⟨"wwx", 4, 3, [3, 3, 0]⟩,
  ⟨"wwy", 4, 3, [3, 3, 1]⟩,
  ⟨"wwz", 4, 3, [3, 3, 2]⟩,
  ⟨"www", 4, 3, [3, 3, 3]⟩,
  ⟨"xxxx", 4, 4, [0, 0, 0, 0]⟩,
  ⟨"xxxy", 4, 4, [0, 0, 0, 1]⟩,
  ⟨"xxxz", 4, 4, [0, 0, 0, 2]⟩,
  ⟨"xxxw", 4, 4, [0, 0, 0, 3]⟩,
  ⟨"xxyx", 4, 4, [0, 0, 1, 0]⟩,
  ⟨"xxyy", 4, 4, [0, 0, 1, 1]⟩,
  ⟨"xxyz", 4, 4, [0, 0, 1, 2]⟩,
  ⟨"xxyw", 4, 4, [0, 0, 1, 3]⟩,
  ⟨"xxzx", 4, 4, [0, 0, 2, 0]⟩,
  ⟨"xxzy", 4, 4, [0, 0, 2, 1]⟩,
  ⟨"xxzz", 4, 4, [0, 0, 2, 2]⟩,
  ⟨"xxzw", 4, 4, [0, 0, 2, 3]⟩,
  ⟨"xxwx", 4, 4, [0, 0, 3, 0]⟩,
  ⟨"xxwy", 4, 4, [0, 0, 3, 1]⟩,
  ⟨"xxwz", 4, 4, [0, 0, 3, 2]⟩,
  ⟨"xxww", 4, 4, [0, 0, 3, 3]⟩,
  ⟨"xyxx", 4, 4, [0, 1, 0, 0]⟩,
  ⟨"xyxy", 4, 4, [0, 1, 0, 1]⟩,
  ⟨"xyxz", 4, 4, [0, 1, 0, 2]⟩,
  ⟨"xyxw", 4, 4, [0, 1, 0, 3]⟩,
  ⟨"xyyx", 4, 4, [0, 1, 1, 0]⟩,
  ⟨"xyyy", 4, 4, [0, 1, 1, 1]⟩,
  ⟨"xyyz", 4, 4, [0, 1, 1, 2]⟩,
  ⟨"xyyw", 4, 4, [0, 1, 1, 3]⟩,
  ⟨"xyzx", 4, 4, [0, 1, 2, 0]⟩,
  ⟨"xyzy", 4, 4, [0, 1, 2, 1]⟩,
  ⟨"xyzz", 4, 4, [0, 1, 2, 2]⟩,
  ⟨"xyzw", 4, 4, [0, 1, 2, 3]⟩,
  ⟨"xywx", 4, 4, [0, 1, 3, 0]⟩,
  ⟨"xywy", 4, 4, [0, 1, 3, 1]⟩,
  ⟨"xywz", 4, 4, [0, 1, 3, 2]⟩,
  ⟨"xyww", 4, 4, [0, 1, 3, 3]⟩,
  ⟨"xzxx", 4, 4, [0, 2, 0, 0]⟩,
  ⟨"xzxy", 4, 4, [0, 2, 0, 1]⟩,
  ⟨"xzxz", 4, 4, [0, 2, 0, 2]⟩,
  ⟨"xzxw", 4, 4, [0, 2, 0, 3]⟩,
  ⟨"xzyx", 4, 4, [0, 2, 1, 0]⟩,
  ⟨"xzyy", 4, 4, [0, 2, 1, 1]⟩,
  ⟨"xzyz", 4, 4, [0, 2, 1, 2]⟩,
  ⟨"xzyw", 4, 4, [0, 2, 1, 3]⟩,
  ⟨"xzzx", 4, 4, [0, 2, 2, 0]⟩,
  ⟨"xzzy", 4, 4, [0, 2, 2, 1]⟩,
  ⟨"xzzz", 4, 4, [0, 2, 2, 2]⟩,
  ⟨"xzzw", 4, 4, [0, 2, 2, 3]⟩,
  ⟨"xzwx", 4, 4, [0, 2, 3, 0]⟩,
  ⟨"xzwy", 4, 4, [0, 2, 3, 1]⟩,
  ⟨"xzwz", 4, 4, [0, 2, 3, 2]⟩,
  ⟨"xzww", 4, 4, [0, 2, 3, 3]⟩,
  ⟨"xwxx", 4, 4, [0, 3, 0, 0]⟩,
  ⟨"xwxy", 4, 4, [0, 3, 0, 1]⟩,
  ⟨"xwxz", 4, 4, [0, 3, 0, 2]⟩,
  ⟨"xwxw", 4, 4, [0, 3, 0, 3]⟩,
  ⟨"xwyx", 4, 4, [0, 3, 1, 0]⟩,
  ⟨"xwyy", 4, 4, [0, 3, 1, 1]⟩,
  ⟨"xwyz", 4, 4, [0, 3, 1, 2]⟩,
  ⟨"xwyw", 4, 4, [0, 3, 1, 3]⟩,
  ⟨"xwzx", 4, 4, [0, 3, 2, 0]⟩,
  ⟨"xwzy", 4, 4, [0, 3, 2, 1]⟩,
  ⟨"xwzz", 4, 4, [0, 3, 2, 2]⟩,
  ⟨"xwzw", 4, 4, [0, 3, 2, 3]⟩,
  ⟨"xwwx", 4, 4, [0, 3, 3, 0]⟩,
  ⟨"xwwy", 4, 4, [0, 3, 3, 1]⟩,
  ⟨"xwwz", 4, 4, [0, 3, 3, 2]⟩,
  ⟨"xwww", 4, 4, [0, 3, 3, 3]⟩,
  ⟨"yxxx", 4, 4, [1, 0, 0, 0]⟩,
  ⟨"yxxy", 4, 4, [1, 0, 0, 1]⟩,
  ⟨"yxxz", 4, 4, [1, 0, 0, 2]⟩,
  ⟨"yxxw", 4, 4, [1, 0, 0, 3]⟩,
  ⟨"yxyx", 4, 4, [1, 0, 1, 0]⟩,
  ⟨"yxyy", 4, 4, [1, 0, 1, 1]⟩,
  ⟨"yxyz", 4, 4, [1, 0, 1, 2]⟩,
  ⟨"yxyw", 4, 4, [1, 0, 1, 3]⟩,
  ⟨"yxzx", 4, 4, [1, 0, 2, 0]⟩,
  ⟨"yxzy", 4, 4, [1, 0, 2, 1]⟩,
  ⟨"yxzz", 4, 4, [1, 0, 2, 2]⟩,
  ⟨"yxzw", 4, 4, [1, 0, 2, 3]⟩,
  ⟨"yxwx", 4, 4, [1, 0, 3, 0]⟩,
  ⟨"yxwy", 4, 4, [1, 0, 3, 1]⟩,
  ⟨"yxwz", 4, 4, [1, 0, 3, 2]⟩,
  ⟨"yxww", 4, 4, [1, 0, 3, 3]⟩,
  ⟨"yyxx", 4, 4, [1, 1, 0, 0]⟩,
  ⟨"yyxy", 4, 4, [1, 1, 0, 1]⟩,
  ⟨"yyxz", 4, 4, [1, 1, 0, 2]⟩,
  ⟨"yyxw", 4, 4, [1, 1, 0, 3]⟩,
  ⟨"yyyx", 4, 4, [1, 1, 1, 0]⟩,
  ⟨"yyyy", 4, 4, [1, 1, 1, 1]⟩,
  ⟨"yyyz", 4, 4, [1, 1, 1, 2]⟩,
  ⟨"yyyw", 4, 4, [1, 1, 1, 3]⟩,
  ⟨"yyzx", 4, 4, [1, 1, 2, 0]⟩,
  ⟨"yyzy", 4, 4, [1, 1, 2, 1]⟩,
  ⟨"yyzz", 4, 4, [1, 1, 2, 2]⟩,
  ⟨"yyzw", 4, 4, [1, 1, 2, 3]⟩,
  ⟨"yywx", 4, 4, [1, 1, 3, 0]⟩,
  ⟨"yywy", 4, 4, [1, 1, 3, 1]⟩,
  ⟨"yywz", 4, 4, [1, 1, 3, 2]⟩,
  ⟨"yyww", 4, 4, [1, 1, 3, 3]⟩,
  ⟨"yzxx", 4, 4, [1, 2, 0, 0]⟩,
  ⟨"yzxy", 4, 4, [1, 2, 0, 1]⟩,
  ⟨"yzxz", 4, 4, [1, 2, 0, 2]⟩,
  ⟨"yzxw", 4, 4, [1, 2, 0, 3]⟩,
  ⟨"yzyx", 4, 4, [1, 2, 1, 0]⟩,
  ⟨"yzyy", 4, 4, [1, 2, 1, 1]⟩,
  ⟨"yzyz", 4, 4, [1, 2, 1, 2]⟩,
  ⟨"yzyw", 4, 4, [1, 2, 1, 3]⟩,
  ⟨"yzzx", 4, 4, [1, 2, 2, 0]⟩,
  ⟨"yzzy", 4, 4, [1, 2, 2, 1]⟩,
  ⟨"yzzz", 4, 4, [1, 2, 2, 2]⟩,
  ⟨"yzzw", 4, 4, [1, 2, 2, 3]⟩,
  ⟨"yzwx", 4, 4, [1, 2, 3, 0]⟩,
  ⟨"yzwy", 4, 4, [1, 2, 3, 1]⟩,
  ⟨"yzwz", 4, 4, [1, 2, 3, 2]⟩,
  ⟨"yzww", 4, 4, [1, 2, 3, 3]⟩,
  ⟨"ywxx", 4, 4, [1, 3, 0, 0]⟩,
  ⟨"ywxy", 4, 4, [1, 3, 0, 1]⟩,
  ⟨"ywxz", 4, 4, [1, 3, 0, 2]⟩,
  ⟨"ywxw", 4, 4, [1, 3, 0, 3]⟩,
  ⟨"ywyx", 4, 4, [1, 3, 1, 0]⟩,
  ⟨"ywyy", 4, 4, [1, 3, 1, 1]⟩,
  ⟨"ywyz", 4, 4, [1, 3, 1, 2]⟩,
  ⟨"ywyw", 4, 4, [1, 3, 1, 3]⟩,
  ⟨"ywzx", 4, 4, [1, 3, 2, 0]⟩,
  ⟨"ywzy", 4, 4, [1, 3, 2, 1]⟩,
  ⟨"ywzz", 4, 4, [1, 3, 2, 2]⟩,
  ⟨"ywzw", 4, 4, [1, 3, 2, 3]⟩,
  ⟨"ywwx", 4, 4, [1, 3, 3, 0]⟩,
  ⟨"ywwy", 4, 4, [1, 3, 3, 1]⟩,
  ⟨"ywwz", 4, 4, [1, 3, 3, 2]⟩,
  ⟨"ywww", 4, 4, [1, 3, 3, 3]⟩,
  ⟨"zxxx", 4, 4, [2, 0, 0, 0]⟩,
  ⟨"zxxy", 4, 4, [2, 0, 0, 1]⟩,
  ⟨"zxxz", 4, 4, [2, 0, 0, 2]⟩,
  ⟨"zxxw", 4, 4, [2, 0, 0, 3]⟩,
  ⟨"zxyx", 4, 4, [2, 0, 1, 0]⟩,
  ⟨"zxyy", 4, 4, [2, 0, 1, 1]⟩,
  ⟨"zxyz", 4, 4, [2, 0, 1, 2]⟩,
  ⟨"zxyw", 4, 4, [2, 0, 1, 3]⟩,
  ⟨"zxzx", 4, 4, [2, 0, 2, 0]⟩,
  ⟨"zxzy", 4, 4, [2, 0, 2, 1]⟩,
  ⟨"zxzz", 4, 4, [2, 0, 2, 2]⟩,
  ⟨"zxzw", 4, 4, [2, 0, 2, 3]⟩,
  ⟨"zxwx", 4, 4, [2, 0, 3, 0]⟩,
  ⟨"zxwy", 4, 4, [2, 0, 3, 1]⟩,
  ⟨"zxwz", 4, 4, [2, 0, 3, 2]⟩,
  ⟨"zxww", 4, 4, [2, 0, 3, 3]⟩,
  ⟨"zyxx", 4, 4, [2, 1, 0, 0]⟩,
  ⟨"zyxy", 4, 4, [2, 1, 0, 1]⟩,
  ⟨"zyxz", 4, 4, [2, 1, 0, 2]⟩,
  ⟨"zyxw", 4, 4, [2, 1, 0, 3]⟩,
  ⟨"zyyx", 4, 4, [2, 1, 1, 0]⟩,
  ⟨"zyyy", 4, 4, [2, 1, 1, 1]⟩,
  ⟨"zyyz", 4, 4, [2, 1, 1, 2]⟩,
  ⟨"zyyw", 4, 4, [2, 1, 1, 3]⟩,
  ⟨"zyzx", 4, 4, [2, 1, 2, 0]⟩,
  ⟨"zyzy", 4, 4, [2, 1, 2, 1]⟩,
  ⟨"zyzz", 4, 4, [2, 1, 2, 2]⟩,
  ⟨"zyzw", 4, 4, [2, 1, 2, 3]⟩,
  ⟨"zywx", 4, 4, [2, 1, 3, 0]⟩,
  ⟨"zywy", 4, 4, [2, 1, 3, 1]⟩,
  ⟨"zywz", 4, 4, [2, 1, 3, 2]⟩,
  ⟨"zyww", 4, 4, [2, 1, 3, 3]⟩,
  ⟨"zzxx", 4, 4, [2, 2, 0, 0]⟩,
  ⟨"zzxy", 4, 4, [2, 2, 0, 1]⟩,
  ⟨"zzxz", 4, 4, [2, 2, 0, 2]⟩,
  ⟨"zzxw", 4, 4, [2, 2, 0, 3]⟩,
  ⟨"zzyx", 4, 4, [2, 2, 1, 0]⟩,
  ⟨"zzyy", 4, 4, [2, 2, 1, 1]⟩,
  ⟨"zzyz", 4, 4, [2, 2, 1, 2]⟩,
  ⟨"zzyw", 4, 4, [2, 2, 1, 3]⟩,
  ⟨"zzzx", 4, 4, [2, 2, 2, 0]⟩,
  ⟨"zzzy", 4, 4, [2, 2, 2, 1]⟩,
  ⟨"zzzz", 4, 4, [2, 2, 2, 2]⟩,
  ⟨"zzzw", 4, 4, [2, 2, 2, 3]⟩,
  ⟨"zzwx", 4, 4, [2, 2, 3, 0]⟩,
  ⟨"zzwy", 4, 4, [2, 2, 3, 1]⟩,
  ⟨"zzwz", 4, 4, [2, 2, 3, 2]⟩,
  ⟨"zzww", 4, 4, [2, 2, 3, 3]⟩,
  ⟨"zwxx", 4, 4, [2, 3, 0, 0]⟩,
  ⟨"zwxy", 4, 4, [2, 3, 0, 1]⟩,
  ⟨"zwxz", 4, 4, [2, 3, 0, 2]⟩,
  ⟨"zwxw", 4, 4, [2, 3, 0, 3]⟩,
  ⟨"zwyx", 4, 4, [2, 3, 1, 0]⟩,
  ⟨"zwyy", 4, 4, [2, 3, 1, 1]⟩,
  ⟨"zwyz", 4, 4, [2, 3, 1, 2]⟩,
  ⟨"zwyw", 4, 4, [2, 3, 1, 3]⟩,
  ⟨"zwzx", 4, 4, [2, 3, 2, 0]⟩,
  ⟨"zwzy", 4, 4, [2, 3, 2, 1]⟩,
  ⟨"zwzz", 4, 4, [2, 3, 2, 2]⟩,
  ⟨"zwzw", 4, 4, [2, 3, 2, 3]⟩,
  ⟨"zwwx", 4, 4, [2, 3, 3, 0]⟩,
  ⟨"zwwy", 4, 4, [2, 3, 3, 1]⟩,
  ⟨"zwwz", 4, 4, [2, 3, 3, 2]⟩,
  ⟨"zwww", 4, 4, [2, 3, 3, 3]⟩,
  ⟨"wxxx", 4, 4, [3, 0, 0, 0]⟩,
  ⟨"wxxy", 4, 4, [3, 0, 0, 1]⟩,
  ⟨"wxxz", 4, 4, [3, 0, 0, 2]⟩,
  ⟨"wxxw", 4, 4, [3, 0, 0, 3]⟩,
  ⟨"wxyx", 4, 4, [3, 0, 1, 0]⟩,
  ⟨"wxyy", 4, 4, [3, 0, 1, 1]⟩,
  ⟨"wxyz", 4, 4, [3, 0, 1, 2]⟩,
  ⟨"wxyw", 4, 4, [3, 0, 1, 3]⟩,
  ⟨"wxzx", 4, 4, [3, 0, 2, 0]⟩,
  ⟨"wxzy", 4, 4, [3, 0, 2, 1]⟩,
  ⟨"wxzz", 4, 4, [3, 0, 2, 2]⟩,
  ⟨"wxzw", 4, 4, [3, 0, 2, 3]⟩,
  ⟨"wxwx", 4, 4, [3, 0, 3, 0]⟩,
  ⟨"wxwy", 4, 4, [3, 0, 3, 1]⟩,
  ⟨"wxwz", 4, 4, [3, 0, 3, 2]⟩,
  ⟨"wxww", 4, 4, [3, 0, 3, 3]⟩,
  ⟨"wyxx", 4, 4, [3, 1, 0, 0]⟩,
  ⟨"wyxy", 4, 4, [3, 1, 0, 1]⟩,
  ⟨"wyxz", 4, 4, [3, 1, 0, 2]⟩,
  ⟨"wyxw", 4, 4, [3, 1, 0, 3]⟩,
  ⟨"wyyx", 4, 4, [3, 1, 1, 0]⟩,
  ⟨"wyyy", 4, 4, [3, 1, 1, 1]⟩,
  ⟨"wyyz", 4, 4, [3, 1, 1, 2]⟩,
  ⟨"wyyw", 4, 4, [3, 1, 1, 3]⟩,
  ⟨"wyzx", 4, 4, [3, 1, 2, 0]⟩,
  ⟨"wyzy", 4, 4, [3, 1, 2, 1]⟩,
  ⟨"wyzz", 4, 4, [3, 1, 2, 2]⟩,
  ⟨"wyzw", 4, 4, [3, 1, 2, 3]⟩,
  ⟨"wywx", 4, 4, [3, 1, 3, 0]⟩,
  ⟨"wywy", 4, 4, [3, 1, 3, 1]⟩,
  ⟨"wywz", 4, 4, [3, 1, 3, 2]⟩,
  ⟨"wyww", 4, 4, [3, 1, 3, 3]⟩,
  ⟨"wzxx", 4, 4, [3, 2, 0, 0]⟩,
  ⟨"wzxy", 4, 4, [3, 2, 0, 1]⟩,
  ⟨"wzxz", 4, 4, [3, 2, 0, 2]⟩,
  ⟨"wzxw", 4, 4, [3, 2, 0, 3]⟩,
  ⟨"wzyx", 4, 4, [3, 2, 1, 0]⟩,
  ⟨"wzyy", 4, 4, [3, 2, 1, 1]⟩,
  ⟨"wzyz", 4, 4, [3, 2, 1, 2]⟩,
  ⟨"wzyw", 4, 4, [3, 2, 1, 3]⟩,
  ⟨"wzzx", 4, 4, [3, 2, 2, 0]⟩,
  ⟨"wzzy", 4, 4, [3, 2, 2, 1]⟩,
  ⟨"wzzz", 4, 4, [3, 2, 2, 2]⟩,
  ⟨"wzzw", 4, 4, [3, 2, 2, 3]⟩,
  ⟨"wzwx", 4, 4, [3, 2, 3, 0]⟩,
  ⟨"wzwy", 4, 4, [3, 2, 3, 1]⟩,
  ⟨"wzwz", 4, 4, [3, 2, 3, 2]⟩,
  ⟨"wzww", 4, 4, [3, 2, 3, 3]⟩,
  ⟨"wwxx", 4, 4, [3, 3, 0, 0]⟩,
  ⟨"wwxy", 4, 4, [3, 3, 0, 1]⟩,
  ⟨"wwxz", 4, 4, [3, 3, 0, 2]⟩,
  ⟨"wwxw", 4, 4, [3, 3, 0, 3]⟩,
  ⟨"wwyx", 4, 4, [3, 3, 1, 0]⟩,
  ⟨"wwyy", 4, 4, [3, 3, 1, 1]⟩,
  ⟨"wwyz", 4, 4, [3, 3, 1, 2]⟩,
  ⟨"wwyw", 4, 4, [3, 3, 1, 3]⟩,
  ⟨"wwzx", 4, 4, [3, 3, 2, 0]⟩,
  ⟨"wwzy", 4, 4, [3, 3, 2, 1]⟩,
  ⟨"wwzz", 4, 4, [3, 3, 2, 2]⟩,
  ⟨"wwzw", 4, 4, [3, 3, 2, 3]⟩,
  ⟨"wwwx", 4, 4, [3, 3, 3, 0]⟩,
  ⟨"wwwy", 4, 4, [3, 3, 3, 1]⟩,
  ⟨"wwwz", 4, 4, [3, 3, 3, 2]⟩,
  ⟨"wwww", 4, 4, [3, 3, 3, 3]⟩]
/-- cglinalg_core/src/point.rs, lines 1518-1568: one row per `impl_swizzle!` invocation -/
def pointSwizzles : List Swizzle := [
  ⟨"x", 1, 1, [0]⟩,
  ⟨"x", 2, 1, [0]⟩,
  ⟨"y", 2, 1, [1]⟩,
  ⟨"xx", 2, 2, [0, 0]⟩,
  ⟨"xy", 2, 2, [0, 1]⟩,
  ⟨"yx", 2, 2, [1, 0]⟩,
  ⟨"yy", 2, 2, [1, 1]⟩,
  ⟨"x", 3, 1, [0]⟩,
  ⟨"y", 3, 1, [1]⟩,
  ⟨"z", 3, 1, [2]⟩,
  ⟨"xx", 3, 2, [0, 0]⟩,
  ⟨"xy", 3, 2, [0, 1]⟩,
  ⟨"xz", 3, 2, [0, 2]⟩,
  ⟨"yx", 3, 2, [1, 0]⟩,
  ⟨"yy", 3, 2, [1, 1]⟩,
  ⟨"yz", 3, 2, [1, 2]⟩,
  ⟨"zx", 3, 2, [2, 0]⟩,
  ⟨"zy", 3, 2, [2, 1]⟩,
  ⟨"zz", 3, 2, [2, 2]⟩,
  ⟨"xxx", 3, 3, [0, 0, 0]⟩,
  ⟨"xxy", 3, 3, [0, 0, 1]⟩,
  ⟨"xxz", 3, 3, [0, 0, 2]⟩,
  ⟨"xyx", 3, 3, [0, 1, 0]⟩,
  ⟨"xyy", 3, 3, [0, 1, 1]⟩,
  ⟨"xyz", 3, 3, [0, 1, 2]⟩,
  ⟨"xzx", 3, 3, [0, 2, 0]⟩,
  ⟨"xzy", 3, 3, [0, 2, 1]⟩,
  ⟨"xzz", 3, 3, [0, 2, 2]⟩,
  ⟨"yxx", 3, 3, [1, 0, 0]⟩,
  ⟨"yxy", 3, 3, [1, 0, 1]⟩,
  ⟨"yxz", 3, 3, [1, 0, 2]⟩,
  ⟨"yyx", 3, 3, [1, 1, 0]⟩,
  ⟨"yyy", 3, 3, [1, 1, 1]⟩,
  ⟨"yyz", 3, 3, [1, 1, 2]⟩,
  ⟨"yzx", 3, 3, [1, 2, 0]⟩,
  ⟨"yzy", 3, 3, [1, 2, 1]⟩,
  ⟨"yzz", 3, 3, [1, 2, 2]⟩,
  ⟨"zxx", 3, 3, [2, 0, 0]⟩,
  ⟨"zxy", 3, 3, [2, 0, 1]⟩,
  ⟨"zxz", 3, 3, [2, 0, 2]⟩,
  ⟨"zyx", 3, 3, [2, 1, 0]⟩,
  ⟨"zyy", 3, 3, [2, 1, 1]⟩,
  ⟨"zyz", 3, 3, [2, 1, 2]⟩,
  ⟨"zzx", 3, 3, [2, 2, 0]⟩,
  ⟨"zzy", 3, 3, [2, 2, 1]⟩,
  ⟨"zzz", 3, 3, [2, 2, 2]⟩]

end Cgl
