import Verif.Model.Transform
import Verif.Model.Projection

/-!
# `transformation * point` and `transformation * vector`

Every transformation implements `Mul<Point>` and `Mul<Vector>`, four impls each (by value and by reference); the four
bodies are the same call.  `Transform * Point` panics where `apply_point` does.
-/

namespace Cgl

variable {S : Type*} {n : ℕ}

/-- `Translation * Point`, translation.rs 701-747 -/
instance [Zero S] [Add S] : HMul (Translation S n) (Pt S n) (Pt S n) := ⟨fun t p => t.applyPoint p⟩
/-- `Translation * Vector`, translation.rs 653-699 -/
instance : HMul (Translation S n) (Vec S n) (Vec S n) := ⟨fun t v => t.applyVector v⟩
/-- `Scale * Point`, scale.rs 656-702 -/
instance [Zero S] [Mul S] : HMul (Scale S n) (Pt S n) (Pt S n) := ⟨fun t p => t.applyPoint p⟩
/-- `Scale * Vector`, scale.rs 704-750 -/
instance [Zero S] [Mul S] : HMul (Scale S n) (Vec S n) (Vec S n) := ⟨fun t v => t.applyVector v⟩
/-- `Rotation * Point`, rotation.rs 727-773 -/
instance [Zero S] [Add S] [Mul S] : HMul (Rotation S n) (Pt S n) (Pt S n) := ⟨fun t p => t.applyPoint p⟩
/-- `Rotation * Vector`, rotation.rs 679-725 -/
instance [Zero S] [Add S] [Mul S] : HMul (Rotation S n) (Vec S n) (Vec S n) := ⟨fun t v => t.applyVector v⟩
/-- `Isometry * Point`, isometry.rs 867-913 -/
instance [Zero S] [Add S] [Mul S] : HMul (Isometry S n) (Pt S n) (Pt S n) := ⟨fun t p => t.applyPoint p⟩
/-- `Isometry * Vector`, isometry.rs 915-961 -/
instance [Zero S] [Add S] [Mul S] : HMul (Isometry S n) (Vec S n) (Vec S n) := ⟨fun t v => t.applyVector v⟩
/-- `Similarity * Point`, similarity.rs 1140-1186 -/
instance [Zero S] [One S] [Add S] [Mul S] : HMul (Similarity S n) (Pt S n) (Pt S n) := ⟨fun t p => t.applyPoint p⟩
/-- `Similarity * Vector`, similarity.rs 1188-1234 -/
instance [Zero S] [One S] [Add S] [Mul S] : HMul (Similarity S n) (Vec S n) (Vec S n) := ⟨fun t v => t.applyVector v⟩
/-- `Reflection * Point`, reflection.rs 617-663 -/
instance [Zero S] [One S] [Add S] [Sub S] [Mul S] : HMul (Reflection S n) (Pt S n) (Pt S n) := ⟨fun t p => t.applyPoint p⟩
/-- `Reflection * Vector`, reflection.rs 665-711 -/
instance [Zero S] [One S] [Add S] [Sub S] [Mul S] : HMul (Reflection S n) (Vec S n) (Vec S n) :=
  ⟨fun t v => t.applyVector v⟩
/-- `Shear * Point`, shear.rs 1128-1174 -/
instance [Zero S] [Add S] [Sub S] [Mul S] : HMul (Shear S n) (Pt S n) (Pt S n) := ⟨fun t p => t.applyPoint p⟩
/-- `Shear * Vector`, shear.rs 1176-1222 -/
instance [Zero S] [Add S] [Sub S] [Mul S] : HMul (Shear S n) (Vec S n) (Vec S n) := ⟨fun t v => t.applyVector v⟩
/-- `Transform * Point`, transform.rs 412-474 -/
instance [Zero S] [One S] [Add S] [Mul S] [Div S] [BEq S] : HMul (Transform S n) (Pt S n) (Res (Pt S n)) :=
  ⟨fun t p => t.applyPoint p⟩
/-- `Transform * Vector`, transform.rs 476-538 -/
instance [Zero S] [One S] [Add S] [Mul S] [Div S] [BEq S] : HMul (Transform S n) (Vec S n) (Vec S n) :=
  ⟨fun t v => t.applyVector v⟩
/-- `Perspective3 * Point3`, projection.rs 2337-2383 -/
instance [Zero S] [One S] [Add S] [Sub S] [Mul S] [Div S] [Neg S] : HMul (Perspective3 S) (Pt S 3) (Pt S 3) := ⟨fun t p => t.projectPoint p⟩
/-- `Perspective3 * Vector3`, projection.rs 2385-2431 -/
instance [Zero S] [One S] [Add S] [Sub S] [Mul S] [Div S] [Neg S] : HMul (Perspective3 S) (Vec S 3) (Vec S 3) := ⟨fun t v => t.projectVector v⟩
/-- `Orthographic3 * Point3`, projection.rs 4149-4195 -/
instance [Zero S] [One S] [Add S] [Sub S] [Mul S] [Div S] [Neg S] : HMul (Orthographic3 S) (Pt S 3) (Pt S 3) := ⟨fun t p => t.projectPoint p⟩
/-- `Orthographic3 * Vector3`, projection.rs 4197-4243 -/
instance [Zero S] [One S] [Add S] [Sub S] [Mul S] [Div S] [Neg S] : HMul (Orthographic3 S) (Vec S 3) (Vec S 3) := ⟨fun t v => t.projectVector v⟩
/-- `Shear2 * Shear2`, shear.rs 1436-1494 -/
instance instMulShear2 [Zero S] [One S] [Add S] [Sub S] [Mul S] [Div S] [Neg S] [FloatFns S] :
    HMul (Shear S 2) (Shear S 2) (Transform S 2) := ⟨Shear.mul2⟩
/-- `Shear3 * Shear3`, shear.rs 1952-2010 -/
instance instMulShear3 [Zero S] [One S] [Add S] [Sub S] [Mul S] [Div S] [Neg S] [FloatFns S] :
    HMul (Shear S 3) (Shear S 3) (Transform S 3) := ⟨Shear.mul3⟩

end Cgl
