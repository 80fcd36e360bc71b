import Verif.Props.C31_Orthographic
import Verif.Props.C32_Perspective
import Verif.Lemmas.Vector

/-! # C31, C32 - the axes of view space and clip space -/

namespace Cgl
open Mat
variable {l r b t n f : ℝ}

/-- The axes of view space form a right-handed frame and the gaze looks against the depth axis; those of clip space form
a right-handed frame and the gaze looks along the depth axis.  All of them have length one. -/
theorem C31_frames (P : Orthographic3 ℝ) :
    (P.viewUnitRight.value.cross P.viewUnitUp.value = P.viewUnitDepth.value ∧
      P.viewUnitGaze.value = -P.viewUnitDepth.value) ∧
    (P.clipUnitRight.value.cross P.clipUnitUp.value = P.clipUnitDepth.value ∧
      P.clipUnitGaze.value = P.clipUnitDepth.value) ∧
    ∀ v ∈ [P.viewUnitRight, P.viewUnitUp, P.viewUnitDepth, P.viewUnitGaze, P.clipUnitRight, P.clipUnitUp,
      P.clipUnitDepth, P.clipUnitGaze], v.value.dot v.value = 1 := by
  refine ⟨⟨?_, rfl⟩, ⟨?_, rfl⟩, ?_⟩
  · apply Vec.ext3 <;> simp [Orthographic3.viewUnitRight, Orthographic3.viewUnitUp, Orthographic3.viewUnitDepth,
      Vec.cross, Vec.unitX3, Vec.unitY3, Vec.unitZ3]
  · apply Vec.ext3 <;> simp [Orthographic3.clipUnitRight, Orthographic3.clipUnitUp, Orthographic3.clipUnitDepth,
      Vec.cross, Vec.unitX3, Vec.unitY3, Vec.unitZ3]
  · simp [Orthographic3.viewUnitRight, Orthographic3.viewUnitUp, Orthographic3.viewUnitDepth,
      Orthographic3.viewUnitGaze, Orthographic3.clipUnitRight, Orthographic3.clipUnitUp, Orthographic3.clipUnitDepth,
      Orthographic3.clipUnitGaze, Vec.dot3, Vec.unitX3, Vec.unitY3, Vec.unitZ3]

/-- Moving a point along an axis of view space moves its orthographic image along the axis of clip space of the same
name, for `right`, `up` and `gaze`, by a positive multiple that does not depend on the point. -/
theorem C31_axes (hx : 0 < l + r) (hy : 0 < b + t) (hz : n < f) :
    let P := Orthographic3.new l r b t n f
    ∃ kx ky kz : ℝ, 0 < kx ∧ 0 < ky ∧ 0 < kz ∧ ∀ (p : Pt ℝ 3) (s : ℝ),
      (P.projectPoint (p + P.viewUnitRight.value * s) - P.projectPoint p : Vec ℝ 3) = P.clipUnitRight.value * (kx * s) ∧
      (P.projectPoint (p + P.viewUnitUp.value * s) - P.projectPoint p : Vec ℝ 3) = P.clipUnitUp.value * (ky * s) ∧
      (P.projectPoint (p + P.viewUnitGaze.value * s) - P.projectPoint p : Vec ℝ 3) = P.clipUnitGaze.value * (kz * s) := by
  intro P
  refine ⟨2 / (r + l), 2 / (t + b), 2 / (f - n), div_pos two_pos (by linarith), div_pos two_pos (by linarith),
    div_pos two_pos (by linarith), fun p s => ⟨?_, ?_, ?_⟩⟩ <;>
  apply Vec.ext3 <;>
  simp [P, Orthographic3.new, Orthographic3.projectPoint, Orthographic3.viewUnitRight, Orthographic3.viewUnitUp,
    Orthographic3.viewUnitGaze, Orthographic3.clipUnitRight, Orthographic3.clipUnitUp, Orthographic3.clipUnitGaze,
    fromOrthographic, Pt.new3, Vec.unitX3, Vec.unitY3, Vec.unitZ3] <;> ring

/-- `clip_ndc_bounds` of an orthographic projection are the bounds of the cube onto which the box is mapped. -/
theorem C31_bounds (P : Orthographic3 ℝ) (q : Pt ℝ 3) :
    Spec.inCube q ↔ (P.clipNdcBounds.1.1 ≤ q.coords.data 0 ∧ q.coords.data 0 ≤ P.clipNdcBounds.1.2) ∧
      (P.clipNdcBounds.2.1.1 ≤ q.coords.data 1 ∧ q.coords.data 1 ≤ P.clipNdcBounds.2.1.2) ∧
      (P.clipNdcBounds.2.2.1 ≤ q.coords.data 2 ∧ q.coords.data 2 ≤ P.clipNdcBounds.2.2.2) := by
  simp only [Orthographic3.clipNdcBounds, Spec.inCube]
  constructor
  · intro h; exact ⟨⟨(h 0).1, (h 0).2⟩, ⟨(h 1).1, (h 1).2⟩, (h 2).1, (h 2).2⟩
  · intro h i; fin_cases i
    · exact ⟨h.1.1, h.1.2⟩
    · exact ⟨h.2.1.1, h.2.1.2⟩
    · exact ⟨h.2.2.1, h.2.2.2⟩

/-- The axes of a perspective projection are those of an orthographic one. -/
theorem C32_frames (P : Perspective3 ℝ) :
    (P.viewUnitRight.value.cross P.viewUnitUp.value = P.viewUnitDepth.value ∧
      P.viewUnitGaze.value = -P.viewUnitDepth.value) ∧
    (P.clipUnitRight.value.cross P.clipUnitUp.value = P.clipUnitDepth.value ∧
      P.clipUnitGaze.value = P.clipUnitDepth.value) ∧
    ∀ v ∈ [P.viewUnitRight, P.viewUnitUp, P.viewUnitDepth, P.viewUnitGaze, P.clipUnitRight, P.clipUnitUp,
      P.clipUnitDepth, P.clipUnitGaze], v.value.dot v.value = 1 :=
  C31_frames ⟨P.matrix⟩

/-- Moving a point in front of the viewer along the `right` or `up` axis of view space moves its perspective image along
the axis of clip space of the same name, by a positive multiple that falls off with the distance from the viewer.  For
the gaze see `C32_gaze`. -/
theorem C32_axes (hx : 0 < l + r) (hy : 0 < b + t) (hn : 0 < n) :
    let P := Perspective3.new l r b t n f
    ∃ kx ky : ℝ, 0 < kx ∧ 0 < ky ∧ ∀ (p q qx qy : Pt ℝ 3) (s : ℝ), p.coords.data 2 < 0 →
      Spec.ndc P.toProjectiveMatrix p = some q →
      Spec.ndc P.toProjectiveMatrix (p + P.viewUnitRight.value * s) = some qx →
      Spec.ndc P.toProjectiveMatrix (p + P.viewUnitUp.value * s) = some qy →
      (qx - q : Vec ℝ 3) = P.clipUnitRight.value * (kx / -p.coords.data 2 * s) ∧
      (qy - q : Vec ℝ 3) = P.clipUnitUp.value * (ky / -p.coords.data 2 * s) := by
  intro P
  refine ⟨2 * n / (r + l), 2 * n / (t + b), div_pos (by linarith) (by linarith), div_pos (by linarith) (by linarith),
    fun p q qx qy s hz hq hqx hqy => ?_⟩
  have hz' : p.coords.data 2 ≠ 0 := hz.ne
  have zx : (p + P.viewUnitRight.value * s).coords.data 2 = p.coords.data 2 := by
    simp [Perspective3.viewUnitRight, Vec.unitX3]
  have zy : (p + P.viewUnitUp.value * s).coords.data 2 = p.coords.data 2 := by
    simp [Perspective3.viewUnitUp, Vec.unitY3]
  have e : P.toProjectiveMatrix = fromPerspective l r b t n f := rfl
  rw [e, ndc_eq _ hz', Option.some.injEq] at hq
  rw [e, ndc_eq _ (by rw [zx]; exact hz'), Option.some.injEq, zx] at hqx
  rw [e, ndc_eq _ (by rw [zy]; exact hz'), Option.some.injEq, zy] at hqy
  subst hq hqx hqy
  constructor <;> apply Vec.ext3 <;>
    simp [Perspective3.viewUnitRight, Perspective3.viewUnitUp, Perspective3.clipUnitRight, Perspective3.clipUnitUp,
      Pt.new3, Vec.unitX3, Vec.unitY3] <;> ring

/-- a frustum and a point in front of the viewer that satisfy the hypotheses -/
example : ∃ q, Spec.ndc (Perspective3.new (1 : ℝ) 1 1 1 1 10).toProjectiveMatrix (Pt.new3 0 0 (-2)) = some q :=
  ⟨_, ndc_eq (Pt.new3 0 0 (-2)) (by simp [Pt.new3, Vec.new3])⟩

end Cgl
