import Verif.Spec.Step
import Verif.Spec.Vec3
import Verif.Props.Conics
import Verif.Props.Rational
import Verif.Props.Utils
import Verif.Props.Knots
import Verif.Lemmas.MapM
import Mathlib.Tactic.IntervalCases

/-! # C63, C85–C89: reading STEP files -/

set_option linter.unusedSectionVars false

namespace Geom3d
open Spec

section
variable {F : Type} [Add F] [Sub F] [Mul F] [Div F] [Neg F] [Zero F] [One F] [NatCast F] [LT F] [DecidableLT F]
  [LE F] [DecidableLE F] [Env F]

theorem vec3_three (p : V3 F) : vec3 [p.x, p.y, p.z] = .ok p := rfl

theorem point_of_says {file : StepFile F} {r : Ref} {p : V3 F} (h : SaysPoint file r p) : file.point r = .ok p := by
  unfold StepFile.point
  rw [h]
  rfl

theorem vertex_of_says {file : StepFile F} {r : Ref} {p : V3 F} (h : SaysVertex file r p) :
    file.vertexPoint r = .ok p := by
  obtain ⟨q, h1, h2⟩ := h
  unfold StepFile.vertexPoint
  rw [h1, Option.bind_some, h2]
  rfl

theorem axis2_of_says {file : StepFile F} {r : Ref} {o a x : V3 F} (h : SaysPlacement file r o a x) :
    file.axis2 r = .ok (o, some a, some x) := by
  obtain ⟨loc, ax, rf, h1, h2, h3, h4⟩ := h
  unfold StepFile.axis2
  rw [h1]
  simp only [unwrapR, ok_bind]
  rw [point_of_says h2]
  simp only [StepFile.directionOf, unwrapR, ok_bind]
  rw [h3, h4]
  rfl

variable [Trig F]

theorem extractCurve_line {file : StepFile F} {r : Ref} {o d : V3 F} (h : SaysLine file r o d) :
    file.extractCurve r = .ok (some (.line ⟨o, d⟩)) := by
  obtain ⟨pnt, dir, q, h1, h2, h3, h4⟩ := h
  unfold StepFile.extractCurve
  rw [h1]
  simp only []
  rw [point_of_says h2, h3, Option.bind_some, h4]
  rfl

theorem extractCurve_circle {file : StepFile F} {r : Ref} {o a x : V3 F} {rad : F} (h : SaysCircle file r o a x rad) :
    file.extractCurve r = .ok (some (.other (Circle.obj ⟨o, rad, a, x.normalize⟩))) := by
  obtain ⟨h0, pos, h1, h2⟩ := h
  unfold StepFile.extractCurve
  rw [h0]
  simp only []
  rw [h1]
  simp only []
  rw [axis2_of_says h2]
  rfl

/-- The segment read for an edge, for any curve. -/
theorem extractEdge {file : StepFile F} {r g : Ref} {s e : V3 F} {sense : Bool} {c : DynCurve F} {u0 u1 : F}
    (h : SaysEdge file r s e g sense) (hc : file.extractCurve g = .ok (some c)) (h0 : c.obj.project s = .ok u0)
    (h1 : c.obj.project e = .ok u1) :
    file.extractEdgeCurve r = .ok (some ⟨c, c.obj.refine (u0, u1) sense, Env.hundredth, 16⟩) := by
  obtain ⟨vs, ve, h2, h3, h4⟩ := h
  unfold StepFile.extractEdgeCurve
  rw [h2]
  simp only []
  rw [hc]
  simp only [ok_bind]
  rw [vertex_of_says h3, vertex_of_says h4]
  simp only [ok_bind]
  rw [h0, h1]
  rfl

end

/-! ### Lines -/

section
variable {K : Type} [Field K] [LinearOrder K] [IsStrictOrderedRing K] [Env K] [Trig K]

/-- Where the code puts the end of a line edge. -/
theorem line_end {o d s : V3 K} {t : K} (h : s = o + t • d) :
    (⟨o, d⟩ : Line K).getPoint ((⟨o, d⟩ : Line K).project s) = o + (d.dot d) • (s - o) := by
  subst h
  simp only [Line.getPoint, Line.project, V3.rmul_eq, add_sub_cancel_left, V3.smul_dot]
  module

theorem line_end_iff {o d s : V3 K} {t : K} (h : s = o + t • d) :
    (⟨o, d⟩ : Line K).getPoint ((⟨o, d⟩ : Line K).project s) = s ↔ d.dot d = 1 ∨ s = o := by
  rw [line_end h]
  constructor
  · intro h1
    by_cases hs : s = o
    · exact Or.inr hs
    · left
      have h2 : (d.dot d - 1) • (s - o) = 0 := by
        rw [sub_smul, one_smul, sub_eq_zero]
        rw [← sub_eq_iff_eq_add'.2 h1.symm]
      rcases smul_eq_zero.1 h2 with h3 | h3
      · exact sub_eq_zero.1 h3
      · exact absurd (sub_eq_zero.1 h3) hs
  · rintro (h1 | h1)
    · rw [h1, one_smul]; abel
    · rw [h1, sub_self, smul_zero, add_zero]

/-- **C85** Line edges: the segment read runs from `o + |d|²(s - o)` to `o + |d|²(e - o)`, so it starts at the start vertex
if and only if the direction ratios are of unit length or the vertex is the origin of the line, and likewise at the end. -/
theorem C85_line {file : StepFile K} {r g : Ref} {s e o d : V3 K} {sense : Bool} {a b : K}
    (h : SaysEdge file r s e g sense) (hl : SaysLine file g o d) (hs : s = o + a • d) (he : e = o + b • d) :
    ∃ seg, file.extractEdgeCurve r = .ok (some seg) ∧
      RunsFrom seg (o + (d.dot d) • (s - o)) (o + (d.dot d) • (e - o)) ∧
      (RunsFrom seg s e ↔ d.dot d = 1 ∨ (s = o ∧ e = o)) := by
  refine ⟨_, extractEdge h (extractCurve_line hl) rfl rfl, ⟨?_, ?_⟩, ⟨fun ⟨h1, h2⟩ => ?_, fun h1 => ⟨?_, ?_⟩⟩⟩
  · exact congrArg Except.ok (line_end hs)
  · exact congrArg Except.ok (line_end he)
  · rcases (line_end_iff hs).1 (Except.ok.inj h1) with h3 | h3
    · exact Or.inl h3
    · rcases (line_end_iff he).1 (Except.ok.inj h2) with h4 | h4
      · exact Or.inl h4
      · exact Or.inr ⟨h3, h4⟩
  · exact congrArg Except.ok ((line_end_iff hs).2 (h1.imp id And.left))
  · exact congrArg Except.ok ((line_end_iff he).2 (h1.imp id And.right))

/-- **C63** for lines with unit direction ratios.  Missing: other direction ratios, for which the claim is false
(`C63_false`); `C85` has the exact condition. -/
theorem C63_line_partial {file : StepFile K} {r g : Ref} {s e o d : V3 K} {sense : Bool} {a b : K}
    (h : SaysEdge file r s e g sense) (hl : SaysLine file g o d) (hs : s = o + a • d) (he : e = o + b • d)
    (hd : d.dot d = 1) : ∃ seg, file.extractEdgeCurve r = .ok (some seg) ∧ RunsFrom seg s e := by
  obtain ⟨seg, h1, -, h2⟩ := C85_line h hl hs he
  exact ⟨seg, h1, h2.2 (Or.inl hd)⟩

end

/-! ### Circles -/

/-- Quaternion rotation of a vector perpendicular to an axis of any length. -/
theorem rotate_scaled {axis v : V3 ℝ} (h : axis.dot v = 0) (a : ℝ) :
    (Quat.fromAxisAngle axis a).mulVec v = (Real.cos (a / 2) ^ 2 - axis.dot axis * Real.sin (a / 2) ^ 2) • v
      + (2 * Real.sin (a / 2) * Real.cos (a / 2)) • axis.cross v := by
  have e : a * (1 / ((2 : ℕ) : ℝ)) = a / 2 := by push_cast; ring
  unfold Quat.fromAxisAngle Quat.mulVec
  simp only [Trig.sin, Trig.cos, e]
  have hv : v.dot (axis * Real.sin (a / 2)) = 0 := by rw [V3.rmul_eq, V3.dot_smul, V3.dot_comm, h, mul_zero]
  rw [hv]
  simp only [V3.rmul_eq]
  have hc : (Real.sin (a / 2) • axis).cross v = Real.sin (a / 2) • axis.cross v := by
    ext <;> simp [V3.cross] <;> ring
  rw [hc, V3.smul_dot, V3.dot_smul]
  push_cast
  module

/-- The circle with its axis scaled to unit length. -/
noncomputable def unitAxis (c : Circle ℝ) : Circle ℝ := { c with axis := (1 / c.axis.length) • c.axis }

theorem cross_smul_left (t : ℝ) (a b : V3 ℝ) : (t • a).cross b = t • a.cross b := by
  ext <;> simp [V3.cross] <;> ring

theorem normalize_smul {t : ℝ} (ht : 0 < t) (v : V3 ℝ) : (t • v).normalize = v.normalize := by
  unfold V3.normalize
  rw [V3.length_smul, abs_of_pos ht, V3.rmul_eq, V3.rmul_eq, smul_smul]
  congr 1
  by_cases hv : v.length = 0
  · rw [hv]; simp
  · field_simp

theorem project_unitAxis {c : Circle ℝ} (ha : c.axis ≠ 0) (p : V3 ℝ) : (unitAxis c).project p = c.project p := by
  have hpos : 0 < 1 / c.axis.length := by have := V3.length_pos ha; positivity
  unfold Circle.project unitAxis
  simp only [cross_smul_left, normalize_smul hpos]

/-- A circle as read from a file: an axis and a unit reference direction perpendicular to it. -/
theorem framed_unitAxis {c : Circle ℝ} (ha : c.axis ≠ 0) (hr : c.refDir.dot c.refDir = 1) (hp : c.axis.dot c.refDir = 0) :
    Framed (unitAxis c) := by
  have hpos := V3.length_pos ha
  refine ⟨?_, hr, ?_⟩
  · simp only [unitAxis]
    rw [V3.smul_dot, V3.dot_smul, ← V3.length_mul_self]
    field_simp
  · simp only [unitAxis]
    rw [V3.smul_dot, hp, mul_zero]

/-- A point of a framed circle is recovered from its parameter. -/
theorem circle_getPoint_project {c : Circle ℝ} (h : Framed c) (hr : 0 ≤ c.radius) {p : V3 ℝ} (hp : OnCircle c p) :
    c.getPoint (c.project p) = p := by
  have h1 := C21_nearest h hr p p hp
  have h2 : V3.distance p (c.getPoint (c.project p)) ≤ 0 := by
    have e : dist3 p p = 0 := by rw [dist3_eq]; exact V3.distance_self p
    rw [e, dist3_eq] at h1
    exact h1
  have h3 : (p - c.getPoint (c.project p)).length = 0 := le_antisymm h2 (V3.length_nonneg _)
  exact (sub_eq_zero.1 (V3.length_eq_zero h3)).symm


theorem circle_getPoint_scaled {c : Circle ℝ} (hp : c.axis.dot c.refDir = 0) (a : ℝ) :
    c.getPoint a = c.center + (c.radius * (Real.cos (a / 2) ^ 2 - c.axis.dot c.axis * Real.sin (a / 2) ^ 2)) • c.refDir
      + (c.radius * (2 * Real.sin (a / 2) * Real.cos (a / 2))) • c.axis.cross c.refDir := by
  unfold Circle.getPoint
  rw [rotate_scaled hp, V3.rmul_eq]
  module

theorem circle_periodic {c : Circle ℝ} (hp : c.axis.dot c.refDir = 0) (a : ℝ) :
    c.getPoint (a + 2 * Real.pi) = c.getPoint a := by
  have e : (a + 2 * Real.pi) / 2 = a / 2 + Real.pi := by ring
  rw [circle_getPoint_scaled hp, circle_getPoint_scaled hp, e, Real.cos_add_pi, Real.sin_add_pi, neg_sq, neg_sq]
  congr 3
  ring

theorem circle_refine {c : Circle ℝ} (hp : c.axis.dot c.refDir = 0) (range : ℝ × ℝ) (sense : Bool) :
    c.getPoint (Circle.refineParameterRange range sense).1 = c.getPoint range.1 ∧
      c.getPoint (Circle.refineParameterRange range sense).2 = c.getPoint range.2 := by
  unfold Circle.refineParameterRange
  simp only [Trig.tau]
  split
  · exact ⟨rfl, circle_periodic hp _⟩
  · split
    · exact ⟨circle_periodic hp _, rfl⟩
    · exact ⟨rfl, rfl⟩

theorem onCircle_unitAxis {c : Circle ℝ} {p : V3 ℝ} (h : OnCircle c p) : OnCircle (unitAxis c) p :=
  ⟨by rw [show (unitAxis c).axis = (1 / c.axis.length) • c.axis from rfl, V3.dot_smul]
      rw [show (unitAxis c).center = c.center from rfl, h.1, mul_zero], h.2⟩

theorem unitAxis_of_unit {c : Circle ℝ} (h : c.axis.dot c.axis = 1) : unitAxis c = c := by
  unfold unitAxis
  rw [V3.length_eq, h, Real.sqrt_one, div_one, one_smul]

/-- Where the code puts the end of a circle edge: at the vertex if and only if the axis is of unit length or the vertex
is at angle 0. -/
theorem circle_end_iff {c : Circle ℝ} (ha : c.axis ≠ 0) (hr : c.refDir.dot c.refDir = 1) (hp : c.axis.dot c.refDir = 0)
    (hR : 0 < c.radius) {p : V3 ℝ} (h : OnCircle c p) :
    c.getPoint (c.project p) = p ↔ c.axis.dot c.axis = 1 ∨ p = c.center + c.radius • c.refDir := by
  have hf := framed_unitAxis ha hr hp
  have hback := circle_getPoint_project hf hR.le (onCircle_unitAxis h)
  rw [project_unitAxis ha, circle_getPoint hf] at hback
  have hperp : ∀ a : V3 ℝ, (a.cross c.refDir).dot c.refDir = 0 := fun a => by
    rw [V3.dot_comm]; exact V3.dot_cross_right _ _
  -- coordinates along the reference direction
  have e1 : (p - c.center).dot c.refDir = c.radius * Real.cos (c.project p) := by
    conv_lhs => rw [← hback]
    rw [show (unitAxis c).center = c.center from rfl, add_assoc, add_sub_cancel_left, V3.add_dot, V3.smul_dot,
      V3.smul_dot, show (unitAxis c).refDir = c.refDir from rfl, hperp, hr]
    simp [unitAxis]
  have hcos : Real.cos (c.project p) = Real.cos (c.project p / 2) ^ 2 - Real.sin (c.project p / 2) ^ 2 := by
    conv_lhs => rw [show c.project p = 2 * (c.project p / 2) by ring, Real.cos_two_mul]
    linarith [Real.cos_sq_add_sin_sq (c.project p / 2)]
  constructor
  · intro h1
    have e2 : (p - c.center).dot c.refDir
        = c.radius * (Real.cos (c.project p / 2) ^ 2 - c.axis.dot c.axis * Real.sin (c.project p / 2) ^ 2) := by
      conv_lhs => rw [← h1]
      rw [circle_getPoint_scaled hp, add_assoc, add_sub_cancel_left, V3.add_dot, V3.smul_dot, V3.smul_dot, hperp, hr]
      ring
    rw [e1, hcos] at e2
    have e3 := mul_left_cancel₀ hR.ne' e2
    have e4 : (c.axis.dot c.axis - 1) * Real.sin (c.project p / 2) ^ 2 = 0 := by linarith
    rcases mul_eq_zero.1 e4 with h2 | h2
    · exact Or.inl (by linarith)
    · right
      have hs : Real.sin (c.project p / 2) = 0 := by simpa using h2
      have hc : Real.cos (c.project p / 2) ^ 2 = 1 := by
        have := Real.cos_sq_add_sin_sq (c.project p / 2); rw [hs] at this; linarith
      rw [← h1, circle_getPoint_scaled hp, hs, hc]
      simp
  · rintro (h1 | h1)
    · have := circle_getPoint_project hf hR.le (onCircle_unitAxis h)
      rwa [unitAxis_of_unit h1] at this
    · have e5 : (p - c.center).dot c.refDir = c.radius := by
        rw [h1, add_sub_cancel_left, V3.smul_dot, hr, mul_one]
      have hc1 : Real.cos (c.project p) = 1 := by
        rw [e5] at e1
        exact (mul_left_cancel₀ hR.ne' (by linarith : c.radius * 1 = c.radius * Real.cos (c.project p))).symm
      have hs : Real.sin (c.project p / 2) = 0 := by
        have := Real.cos_sq_add_sin_sq (c.project p / 2)
        rw [hc1] at hcos
        have : Real.sin (c.project p / 2) ^ 2 = 0 := by linarith
        simpa using this
      have hc : Real.cos (c.project p / 2) ^ 2 = 1 := by
        have := Real.cos_sq_add_sin_sq (c.project p / 2); rw [hs] at this; linarith
      rw [circle_getPoint_scaled hp, hs, hc]
      conv_rhs => rw [h1]
      simp

theorem normalize_unit {x : V3 ℝ} (h : x ≠ 0) : x.normalize.dot x.normalize = 1 := by
  have := V3.length_pos h
  unfold V3.normalize
  rw [V3.rmul_eq, V3.smul_dot, V3.dot_smul, ← V3.length_mul_self]
  field_simp

theorem dot_normalize {a x : V3 ℝ} (h : a.dot x = 0) : a.dot x.normalize = 0 := by
  unfold V3.normalize
  rw [V3.rmul_eq, V3.dot_smul, h, mul_zero]

/-- The circle a placement describes, with the axis as written in the file. -/
noncomputable def Spec.fileCircle (o a x : V3 ℝ) (rad : ℝ) : Circle ℝ := ⟨o, rad, a, x.normalize⟩

/-- **C85** Circle edges: the segment read starts and ends at the vertices if and only if the axis is written with unit
length or both vertices are at angle 0. -/
theorem C85_circle {file : StepFile ℝ} {r g : Ref} {s e o a x : V3 ℝ} {rad : ℝ} {sense : Bool}
    (h : SaysEdge file r s e g sense) (hc : SaysCircle file g o a x rad) (ha : a ≠ 0) (hx : x ≠ 0) (hax : a.dot x = 0)
    (hR : 0 < rad) (hs : OnCircle (fileCircle o a x rad) s) (he : OnCircle (fileCircle o a x rad) e) :
    ∃ seg, file.extractEdgeCurve r = .ok (some seg) ∧
      (RunsFrom seg s e ↔ a.dot a = 1 ∨ (s = o + rad • x.normalize ∧ e = o + rad • x.normalize)) := by
  have hp : (fileCircle o a x rad).axis.dot (fileCircle o a x rad).refDir = 0 := dot_normalize hax
  have hrr : (fileCircle o a x rad).refDir.dot (fileCircle o a x rad).refDir = 1 := normalize_unit hx
  have href := circle_refine hp ((fileCircle o a x rad).project s, (fileCircle o a x rad).project e) sense
  have is := circle_end_iff (c := fileCircle o a x rad) ha hrr hp hR hs
  have ie := circle_end_iff (c := fileCircle o a x rad) ha hrr hp hR he
  refine ⟨_, extractEdge h (extractCurve_circle hc) rfl rfl, ⟨fun ⟨h1, h2⟩ => ?_, fun h1 => ⟨?_, ?_⟩⟩⟩
  · rcases is.1 (href.1.symm.trans (Except.ok.inj h1)) with h3 | h3
    · exact Or.inl h3
    · rcases ie.1 (href.2.symm.trans (Except.ok.inj h2)) with h4 | h4
      · exact Or.inl h4
      · exact Or.inr ⟨h3, h4⟩
  · exact congrArg Except.ok (href.1.trans (is.2 (h1.imp id And.left)))
  · exact congrArg Except.ok (href.2.trans (ie.2 (h1.imp id And.right)))

/-- **C63** for circles with a unit axis.  Missing: other axes, for which the claim is false by `C85_circle`. -/
theorem C63_circle_partial {file : StepFile ℝ} {r g : Ref} {s e o a x : V3 ℝ} {rad : ℝ} {sense : Bool}
    (h : SaysEdge file r s e g sense) (hc : SaysCircle file g o a x rad) (ha : a.dot a = 1) (hx : x ≠ 0) (hax : a.dot x = 0)
    (hR : 0 < rad) (hs : OnCircle (fileCircle o a x rad) s) (he : OnCircle (fileCircle o a x rad) e) :
    ∃ seg, file.extractEdgeCurve r = .ok (some seg) ∧ RunsFrom seg s e := by
  have ha0 : a ≠ 0 := by
    rintro rfl
    simp [V3.dot] at ha
  obtain ⟨seg, h1, h2⟩ := C85_circle h hc ha0 hx hax hR hs he
  exact ⟨seg, h1, h2.2 (Or.inl ha)⟩

/-- **C89** A closed circular edge, whose start and end are the same vertex, is read with an empty parameter range: every
sampling of the segment is the start vertex repeated (unit axis). -/
theorem C89_closed_edge {file : StepFile ℝ} {r g : Ref} {s o a x : V3 ℝ} {rad : ℝ} {sense : Bool}
    (h : SaysEdge file r s s g sense) (hc : SaysCircle file g o a x rad) (ha : a.dot a = 1) (hx : x ≠ 0) (hax : a.dot x = 0)
    (hR : 0 < rad) (hs : OnCircle (fileCircle o a x rad) s) :
    ∃ seg, file.extractEdgeCurve r = .ok (some seg) ∧ seg.parameterRange.1 = seg.parameterRange.2 ∧
      ∀ (rnd : List Bool → ℝ) (tol : ℝ) (fuel : Nat) (l : List ℝ),
        parameterDivision seg.curve.obj.getPoint rnd tol fuel [] seg.parameterRange = .ok l →
          ∀ u ∈ l, seg.curve.obj.getPoint u = .ok s := by
  obtain ⟨seg', h1', h2'⟩ := C63_circle_partial h hc ha hx hax hR hs hs
  have h1 := extractEdge h (extractCurve_circle hc) (u0 := (fileCircle o a x rad).project s)
    (u1 := (fileCircle o a x rad).project s) rfl rfl
  rw [h1'] at h1
  have e := Option.some.inj (Except.ok.inj h1)
  refine ⟨seg', h1', ?_, ?_⟩
  · rw [e]
    exact congrArg (fun p : ℝ × ℝ => p.1) (C67_closed_edge_unchanged _ (lt_irrefl _) sense) |>.trans
      (congrArg (fun p : ℝ × ℝ => p.2) (C67_closed_edge_unchanged _ (lt_irrefl _) sense)).symm
  · intro rnd tol fuel l hl u hu
    have hrange : seg'.parameterRange.1 = seg'.parameterRange.2 := by
      rw [e]
      exact congrArg (fun p : ℝ × ℝ => p.1) (C67_closed_edge_unchanged _ (lt_irrefl _) sense) |>.trans
        (congrArg (fun p : ℝ × ℝ => p.2) (C67_closed_edge_unchanged _ (lt_irrefl _) sense)).symm
    rw [(C29_monotone hl).2.2 hrange u hu]
    exact h2'.1


/-! ### A sample file -/

/-- A file with a line through the origin in direction `(k, 0, 0)`, an edge on it from the origin to `(1, 0, 0)`, and the
same edge used backwards in a loop. -/
def sampleFile (k : ℝ) : StepFile ℝ :=
  { emptyFile with
    cartesianPoint := fun r => if r = 1 then some [0, 0, 0] else if r = 2 then some [1, 0, 0] else none
    direction := fun r => if r = 3 then some [k, 0, 0] else none
    vectorOrientation := fun r => if r = 4 then some 3 else none
    line := fun r => if r = 5 then some (1, 4) else none
    vertexGeometry := fun r => if r = 6 then some 1 else if r = 7 then some 2 else none
    edgeCurve := fun r => if r = 8 then some ⟨6, 7, 5, true⟩ else none
    orientedEdge := fun r => if r = 9 then some ⟨8, false⟩ else none
    edgeLoop := fun r => if r = 10 then some [9] else none }

theorem sample_edge (k : ℝ) : SaysEdge (sampleFile k) 8 0 ⟨1, 0, 0⟩ 5 true :=
  ⟨6, 7, rfl, ⟨1, rfl, rfl⟩, ⟨2, rfl, rfl⟩⟩

theorem sample_line (k : ℝ) : SaysLine (sampleFile k) 5 0 ⟨k, 0, 0⟩ := ⟨1, 4, 3, rfl, rfl, rfl, rfl⟩

theorem sample_on {k : ℝ} (hk : k ≠ 0) : (⟨1, 0, 0⟩ : V3 ℝ) = 0 + (1 / k) • ⟨k, 0, 0⟩ := by
  ext <;> simp [hk]

/-- **C63 is false of the code**, first half: with direction ratios `(2, 0, 0)` the edge from `(0,0,0)` to `(1,0,0)` is read
as a segment that ends at `(4, 0, 0)`. -/
theorem C63_false : ∃ seg, (sampleFile 2).extractEdgeCurve 8 = .ok (some seg) ∧ RunsFrom seg 0 ⟨4, 0, 0⟩ ∧
    ¬ RunsFrom seg 0 ⟨1, 0, 0⟩ := by
  obtain ⟨seg, h1, h2, h3⟩ := C85_line (sample_edge 2) (sample_line 2) (a := 0) (b := 1 / 2) (by simp)
    (sample_on two_ne_zero)
  refine ⟨seg, h1, ?_, ?_⟩
  · have e1 : (0 : V3 ℝ) + ((⟨2, 0, 0⟩ : V3 ℝ).dot ⟨2, 0, 0⟩) • (0 - 0) = 0 := by simp
    have e2 : (0 : V3 ℝ) + ((⟨2, 0, 0⟩ : V3 ℝ).dot ⟨2, 0, 0⟩) • (⟨1, 0, 0⟩ - 0) = ⟨4, 0, 0⟩ := by
      ext <;> norm_num [V3.dot]
    rw [e1, e2] at h2
    exact h2
  · rw [h3]
    rintro (h | ⟨-, h⟩)
    · norm_num [V3.dot] at h
    · have := congrArg V3.x h
      simp at this

/-- **C63 is false of the code**, second half: a loop that uses the edge from `(0,0,0)` to `(1,0,0)` backwards is read as a
loop that runs it forwards. -/
theorem C63_orientation_false : ∃ seg, (sampleFile 1).orientedEdge 9 = some ⟨8, false⟩ ∧
    (sampleFile 1).loopEdges [9] = .ok [seg.segment] ∧ RunsFrom seg 0 ⟨1, 0, 0⟩ ∧ ¬ RunsFrom seg ⟨1, 0, 0⟩ 0 := by
  obtain ⟨seg, h1, h2⟩ := C63_line_partial (sample_edge 1) (sample_line 1) (a := 0) (b := 1 / 1) (by simp)
    (sample_on one_ne_zero) (by norm_num [V3.dot])
  refine ⟨seg, rfl, ?_, h2, ?_⟩
  · unfold StepFile.loopEdges
    rw [mapM_cons]
    rw [show (sampleFile 1).orientedEdge 9 = some ⟨8, false⟩ from rfl]
    simp only []
    rw [h1]
    rfl
  · rintro ⟨h3, -⟩
    have := congrArg V3.x (Except.ok.inj (h2.1.symm.trans h3))
    simp at this

/-- A file with a unit circle whose axis is written `(0, 0, k)`, and a quarter-circle edge on it from `(0,1,0)` to
`(-1,0,0)`. -/
def circleFile (k : ℝ) : StepFile ℝ :=
  { emptyFile with
    cartesianPoint := fun r => if r = 0 then some [0, 0, 0] else if r = 1 then some [0, 1, 0] else
      if r = 2 then some [-1, 0, 0] else none
    direction := fun r => if r = 3 then some [0, 0, k] else if r = 4 then some [3, 0, 0] else none
    axis2Placement3d := fun r => if r = 5 then some (0, some 3, some 4) else none
    circle := fun r => if r = 6 then some (5, 1) else none
    vertexGeometry := fun r => if r = 7 then some 1 else if r = 8 then some 2 else none
    edgeCurve := fun r => if r = 9 then some ⟨7, 8, 6, true⟩ else none }

/-- Non-vacuity of `C85_circle`: the edge is read correctly exactly when the axis is `(0, 0, 1)` or `(0, 0, -1)`. -/
theorem C85_example {k : ℝ} (hk : k ≠ 0) : ∃ seg, (circleFile k).extractEdgeCurve 9 = .ok (some seg) ∧
    (RunsFrom seg ⟨0, 1, 0⟩ ⟨-1, 0, 0⟩ ↔ k = 1 ∨ k = -1) := by
  have hd : ∀ q : V3 ℝ, q.z = 0 → q.x * q.x + q.y * q.y = 1 → OnCircle (fileCircle 0 ⟨0, 0, k⟩ ⟨3, 0, 0⟩ 1) q := by
    intro q hz hq
    refine ⟨by simp [fileCircle, V3.dot, hz], ?_⟩
    rw [dist3_eq]
    unfold V3.distance
    rw [V3.length_eq]
    simp only [fileCircle, sub_zero, V3.dot]
    rw [hz, hq]
    simp
  obtain ⟨seg, h1, h2⟩ := C85_circle (file := circleFile k) (r := 9) (g := 6) (s := ⟨0, 1, 0⟩) (e := ⟨-1, 0, 0⟩) (o := 0)
    (a := ⟨0, 0, k⟩) (x := ⟨3, 0, 0⟩) (rad := 1) (sense := true) ⟨7, 8, rfl, ⟨1, rfl, rfl⟩, ⟨2, rfl, rfl⟩⟩
    ⟨rfl, 5, rfl, 0, 3, 4, rfl, rfl, rfl, rfl⟩ (fun h => hk (by simpa using congrArg V3.z h))
    (fun h => by have := congrArg V3.x h; simp at this) (by simp [V3.dot]) one_pos (hd _ rfl (by norm_num))
    (hd _ rfl (by norm_num))
  refine ⟨seg, h1, h2.trans ⟨?_, ?_⟩⟩
  · rintro (h | ⟨h, -⟩)
    · have : (k - 1) * (k + 1) = 0 := by simp [V3.dot] at h; linarith
      rcases mul_eq_zero.1 this with h | h
      · exact Or.inl (by linarith)
      · exact Or.inr (by linarith)
    · have := congrArg V3.y h
      simp [V3.normalize, V3.rmul_eq] at this
  · rintro (h | h) <;> left <;> simp [V3.dot, h]

/-! ### Ignored flags and entities -/

section
variable {F : Type} [Add F] [Sub F] [Mul F] [Div F] [Neg F] [Zero F] [One F] [NatCast F] [LT F] [DecidableLT F]
  [LE F] [DecidableLE F] [Env F] [Trig F]

/-- **C86** What is read does not depend on the orientation flags of oriented edges and face bounds, nor on the sense flags
of composite curve segments. -/
theorem C86_flags_ignored (file : StepFile F) (edge bound segment : Ref → Bool) :
    (withFlags file edge bound segment).readModel = file.readModel := by
  have hs : (withFlags file edge bound segment).extractCurveSegment = file.extractCurveSegment := by
    funext r
    unfold StepFile.extractCurveSegment
    have e : (((withFlags file edge bound segment).compositeSegment r).bind fun s =>
        (withFlags file edge bound segment).trimmedCurve s.parentCurve)
        = ((file.compositeSegment r).bind fun s => file.trimmedCurve s.parentCurve) := by
      simp only [withFlags]
      cases file.compositeSegment r <;> rfl
    rw [e]
    rfl
  have hl : (withFlags file edge bound segment).loopEdges = file.loopEdges := by
    funext l
    unfold StepFile.loopEdges
    congr 2
    funext r
    simp only [withFlags]
    cases file.orientedEdge r <;> rfl
  have hb : (withFlags file edge bound segment).faceBounds = file.faceBounds := by
    funext l
    unfold StepFile.faceBounds
    congr 2
    funext r
    rw [hl]
    simp only [withFlags]
    cases file.faceBound r <;> rfl
  have hf : (withFlags file edge bound segment).readFace = file.readFace := by
    funext f
    unfold StepFile.readFace
    rw [hb]
    rfl
  unfold StepFile.readModel
  rw [hs, hf]
  rfl

theorem mapM_filterMap_skip {α β : Type} {f : α → Res (Option β)} {a : α} (h : f a = .ok none) (l₁ l₂ : List α) :
    ((l₁ ++ a :: l₂).mapM f >>= fun r => (pure (r.filterMap id) : Res (List β)))
      = ((l₁ ++ l₂).mapM f >>= fun r => pure (r.filterMap id)) := by
  induction l₁ with
  | nil =>
    rw [List.nil_append, List.nil_append, mapM_cons, h]
    simp only [ok_bind]
    cases l₂.mapM f with
    | error e => rfl
    | ok r => rfl
  | cons b l₁ ih =>
    rw [List.cons_append, List.cons_append, mapM_cons, mapM_cons]
    cases f b with
    | error e => rfl
    | ok y =>
      simp only [ok_bind]
      cases h1 : (l₁ ++ a :: l₂).mapM f with
      | error e =>
        cases h2 : (l₁ ++ l₂).mapM f with
        | error e' =>
          rw [h1, h2] at ih
          exact ih
        | ok r' =>
          rw [h1, h2] at ih
          cases ih
      | ok r =>
        cases h2 : (l₁ ++ l₂).mapM f with
        | error e' =>
          rw [h1, h2] at ih
          cases ih
        | ok r' =>
          rw [h1, h2] at ih
          have ih : r.filterMap id = r'.filterMap id := Except.ok.inj ih
          simp only [ok_bind, pure_eq_ok]
          cases y
          · exact congrArg Except.ok ih
          · exact congrArg Except.ok (congrArg (List.cons _) ih)

/-- **C86** An edge whose curve is of an unsupported type disappears from its loop without an error: the loop read is that
of the remaining edges. -/
theorem C86_edge_dropped {file : StepFile F} {r g : Ref} {o : Bool} {vs ve : Ref} {sense : Bool}
    (h1 : file.orientedEdge r = some ⟨g, o⟩) (c : Ref) (h2 : file.edgeCurve g = some ⟨vs, ve, c, sense⟩)
    (hl : file.line c = none) (hc : file.circle c = none) (hp : file.polyline c = none) (hb : file.bsplineCurve c = none)
    (l₁ l₂ : List Ref) : file.loopEdges (l₁ ++ r :: l₂) = file.loopEdges (l₁ ++ l₂) := by
  have hx : file.extractEdgeCurve g = .ok none := by
    unfold StepFile.extractEdgeCurve
    rw [h2]
    simp only []
    unfold StepFile.extractCurve
    rw [hl]
    simp only []
    rw [hc]
    simp only []
    rw [hp]
    simp only []
    rw [hb]
    rfl
  have := mapM_filterMap_skip (f := fun edge =>
    (match file.orientedEdge edge with
    | some oriented => file.extractEdgeCurve oriented.edgeElement
    | none => pure none : Res (Option (DynSegment F)))) (a := r) (by rw [h1]; exact hx) l₁ l₂
  have e := congrArg (fun x : Res (List (DynSegment F)) => x >>= fun l => (pure (l.map DynSegment.segment) : Res _)) this
  simp only [bind_assoc, pure_bind] at e
  exact e

/-- **C86** A complex surface entity without a rational part is read as no surface at all: its face disappears. -/
theorem C86_face_dropped {file : StepFile F} {face : StepAdvancedFace} {b : StepBSplineSurface} {k : StepKnotSurface F}
    (h1 : file.plane face.faceGeometry = none) (h2 : file.cylindricalSurface face.faceGeometry = none)
    (h3 : file.bezierSurface face.faceGeometry = none) (h4 : file.bsplineSurface face.faceGeometry = none)
    (h5 : file.rationalSurface face.faceGeometry = none) (h6 : file.knotSurface face.faceGeometry = none)
    (h7 : file.revolution face.faceGeometry = none)
    (h : file.complex face.faceGeometry = some [.bspline b, .knots k]) : file.readFace face = .ok none := by
  unfold StepFile.readFace StepFile.extractSurface
  rw [h1, h2, h3, h4, h5, h6, h, h7]
  rfl

/-- **C86** A complex surface entity whose rational part comes before its B-spline part makes the reader panic. -/
theorem C86_part_order {file : StepFile F} {face : StepAdvancedFace} {q : StepRationalSurface F} {rest : List (StepPart F)}
    (h1 : file.plane face.faceGeometry = none) (h2 : file.cylindricalSurface face.faceGeometry = none)
    (h3 : file.bezierSurface face.faceGeometry = none) (h4 : file.bsplineSurface face.faceGeometry = none)
    (h5 : file.rationalSurface face.faceGeometry = none) (h6 : file.knotSurface face.faceGeometry = none)
    (h : file.complex face.faceGeometry = some (.rational q :: rest)) : file.readFace face = .error .unwrap := by
  unfold StepFile.readFace StepFile.extractSurface
  rw [h1, h2, h3, h4, h5, h6, h]
  rfl

/-- Non-vacuity: an unsupported curve in the loop of the sample file. -/
example (rest : List Ref) :
    ({ sampleFile 1 with line := fun _ => none } : StepFile ℝ).loopEdges ([] ++ 9 :: rest)
      = ({ sampleFile 1 with line := fun _ => none } : StepFile ℝ).loopEdges ([] ++ rest) :=
  C86_edge_dropped (g := 8) (o := false) (vs := 6) (ve := 7) (sense := true) rfl 5 rfl rfl rfl rfl rfl [] rest

end

/-! ### Planes -/

section
variable {K : Type} [Field K] [LinearOrder K] [IsStrictOrderedRing K] [Env K] [Trig K]

theorem cross_eq_cross3 (a b : V3 K) : a.cross b = Spec.cross3 a b := by
  ext <;> simp [V3.cross, Spec.cross3] <;> ring

/-- **C87** Plane faces: with `n` the z axis of the placement, reversed when the face has the opposite sense, the surface
read is `o + u x + v (n × x)`. -/
theorem C87_plane {file : StepFile K} {face : StepAdvancedFace} {pos : Ref} {o z x : V3 K}
    (h : file.plane face.faceGeometry = some pos) (hp : SaysPlacement file pos o z x) :
    ∃ surf, file.extractSurface face = .ok (some surf) ∧
      (∀ u v, surf.getPoint u v = .ok (o + u • x + (if face.sameSense then v else -v) • Spec.cross3 z x)) := by
  refine ⟨(Plane.surface ⟨o, if face.sameSense then z else -z, x, (if face.sameSense then z else -z).cross x⟩).boxed,
    ?_, ?_⟩
  · unfold StepFile.extractSurface
    rw [h]
    simp only []
    rw [axis2_of_says hp]
    rfl
  · intro u v
    rw [← cross_eq_cross3]
    refine congrArg Except.ok ?_
    unfold Plane.getPoint
    simp only [V3.rmul_eq]
    cases face.sameSense
    · have e : (-z).cross x = -(z.cross x) := by ext <;> simp [V3.cross] <;> ring
      simp [e]
    · simp

/-- **C87** The exact distances: the parametrisation read keeps distances (`|Δ|² = Δu² + Δv²` for all parameter pairs) if and
only if the x axis is written with unit length, and the part of the z axis perpendicular to it as well. -/
theorem C87_isometric {file : StepFile K} {face : StepAdvancedFace} {pos : Ref} {o z x : V3 K}
    (h : file.plane face.faceGeometry = some pos) (hp : SaysPlacement file pos o z x) (hzx : z.dot x = 0) :
    ∃ surf, file.extractSurface face = .ok (some surf) ∧
      ((∀ u v u' v', ∃ p q, surf.getPoint u v = .ok p ∧ surf.getPoint u' v' = .ok q ∧
          (p - q).dot (p - q) = (u - u') ^ 2 + (v - v') ^ 2) ↔ x.dot x = 1 ∧ z.dot z = 1) := by
  obtain ⟨surf, h1, h2⟩ := C87_plane h hp
  simp only [← cross_eq_cross3] at h2
  refine ⟨surf, h1, ?_⟩
  have hcc : (z.cross x).dot (z.cross x) = z.dot z * x.dot x := by rw [V3.lagrange, hzx]; ring
  have hxc : x.dot (z.cross x) = 0 := V3.dot_cross_right _ _
  have key : ∀ (s : Bool) (u v u' v' : K),
      (o + u • x + (if s then v else -v) • z.cross x - (o + u' • x + (if s then v' else -v') • z.cross x)).dot
        (o + u • x + (if s then v else -v) • z.cross x - (o + u' • x + (if s then v' else -v') • z.cross x))
        = (u - u') ^ 2 * x.dot x + (v - v') ^ 2 * (z.dot z * x.dot x) := by
    intro s u v u' v'
    have e : o + u • x + (if s then v else -v) • z.cross x - (o + u' • x + (if s then v' else -v') • z.cross x)
        = (u - u') • x + (if s then v - v' else -(v - v')) • z.cross x := by
      cases s <;> simp <;> module
    rw [e]
    simp only [V3.add_dot, V3.dot_add, V3.smul_dot, V3.dot_smul, hcc, hxc, V3.dot_comm (z.cross x) x]
    cases s <;> simp <;> ring
  constructor
  · intro hall
    obtain ⟨p, q, e1, e2, e3⟩ := hall 1 0 0 0
    rw [h2] at e1 e2
    rw [← Except.ok.inj e1, ← Except.ok.inj e2, key] at e3
    obtain ⟨p', q', e1', e2', e3'⟩ := hall 0 1 0 0
    rw [h2] at e1' e2'
    rw [← Except.ok.inj e1', ← Except.ok.inj e2', key] at e3'
    have hx : x.dot x = 1 := by simpa using e3
    rw [hx] at e3'
    exact ⟨hx, by simpa using e3'⟩
  · rintro ⟨hx, hz⟩ u v u' v'
    refine ⟨_, _, h2 u v, h2 u' v', ?_⟩
    rw [key, hx, hz]
    ring

/-- **C87** The parametric normal `x × v_axis` is a positive multiple of the face normal: of `z`, or of `-z` for a face of
opposite sense. -/
theorem C87_normal {file : StepFile K} {face : StepAdvancedFace} {pos : Ref} {o z x : V3 K}
    (h : file.plane face.faceGeometry = some pos) (hp : SaysPlacement file pos o z x) (hzx : z.dot x = 0) :
    ∃ surf o' pu pv, file.extractSurface face = .ok (some surf) ∧ surf.getPoint 0 0 = .ok o' ∧ surf.getPoint 1 0 = .ok pu ∧
      surf.getPoint 0 1 = .ok pv ∧ Spec.cross3 (pu - o') (pv - o') = (if face.sameSense then x.dot x else -(x.dot x)) • z := by
  obtain ⟨surf, h1, h2⟩ := C87_plane h hp
  simp only [← cross_eq_cross3] at h2 ⊢
  refine ⟨surf, _, _, _, h1, h2 0 0, h2 1 0, h2 0 1, ?_⟩
  have e : x.cross (z.cross x) = (x.dot x) • z := by
    have hh := hzx
    simp only [V3.dot] at hh
    ext
    · simp only [V3.cross, V3.dot, V3.smul_x]; linear_combination (-x.x) * hh
    · simp only [V3.cross, V3.dot, V3.smul_y]; linear_combination (-x.y) * hh
    · simp only [V3.cross, V3.dot, V3.smul_z]; linear_combination (-x.z) * hh
  cases face.sameSense
  · have e' : x.cross (-(z.cross x)) = -(x.cross (z.cross x)) := by ext <;> simp [V3.cross] <;> ring
    simp [e', e]
  · simp [e]

end


/-! ### Rational surfaces -/

section
variable {K : Type} [Field K] [LinearOrder K] [IsStrictOrderedRing K] [Env K] [Trig K]

/-- A rectangular net of entries. -/
def Spec.rect {α : Type} (m n : Nat) (f : Nat → Nat → α) : List (List α) :=
  (List.range m).map fun i => (List.range n).map (f i)

/-- The homogeneous point of `p` with weight `w`. -/
def Spec.homog (p : V3 K) (w : K) : V4 K := ⟨p.x * w, p.y * w, p.z * w, w⟩

theorem zip_map_same {α β γ : Type} (l : List α) (f : α → β) (g : α → γ) :
    (l.map f).zip (l.map g) = l.map fun a => (f a, g a) := by
  induction l with
  | nil => rfl
  | cons a l ih => simp [ih]

theorem mapM_map {α β γ : Type} (l : List α) (f : α → β) (g : β → Res γ) : (l.map f).mapM g = l.mapM fun a => g (f a) := by
  induction l with
  | nil => rfl
  | cons a l ih => rw [List.map_cons, mapM_cons, mapM_cons, ih]

theorem extractWeighted {file : StepFile K} {m n : Nat} {ref : Nat → Nat → Ref} {P : Nat → Nat → V3 K} {w : Nat → Nat → K}
    (h : ∀ i < m, ∀ j < n, SaysPoint file (ref i j) (P i j)) :
    file.extractWeightedControlPoints (rect m n ref) (rect m n w) = .ok (netTab m n fun i j => homog (P i j) (w i j)) := by
  unfold StepFile.extractWeightedControlPoints rect
  rw [zip_map_same, mapM_map,
    mapM_pure (g := fun i => (List.range n).map fun j => homog (P i j) (w i j)) (fun i hi => ?_)]
  · simp only [ok_bind, pure_eq_ok, netTab, List.flatMap_def]
  · rw [zip_map_same, mapM_map]
    apply mapM_pure
    intro j hj
    have := h i (List.mem_range.1 hi) j (List.mem_range.1 hj)
    unfold SaysPoint at this
    simp only []
    rw [this]
    rfl

theorem euclid_homog (p : V3 K) {w : K} (hw : w ≠ 0) : euclid (homog p w) = p := by
  unfold euclid homog
  ext <;> simp [hw]

theorem extractPlain {file : StepFile K} {m n : Nat} {ref : Nat → Nat → Ref} {P : Nat → Nat → V3 K}
    (h : ∀ i < m, ∀ j < n, SaysPoint file (ref i j) (P i j)) :
    file.extractControlPoints (rect m n ref) = .ok (netTab m n P) := by
  unfold StepFile.extractControlPoints rect
  rw [mapM_map, mapM_pure (g := fun i => (List.range n).map fun j => P i j) (fun i hi => ?_)]
  · simp only [ok_bind, pure_eq_ok, netTab, List.flatMap_def]
  · rw [mapM_map]
    apply mapM_pure
    intro j hj
    exact point_of_says (h i (List.mem_range.1 hi) j (List.mem_range.1 hj))

/-- What the file says about a B-spline surface: degrees, knots and multiplicities, and a rectangular net of points. -/
structure Spec.SaysNet (file : StepFile K) (m n : Nat) (ref : Nat → Nat → Ref) (P : Nat → Nat → V3 K) (p q : Nat)
    (U V : List K) : Prop where
  points : ∀ i < m, ∀ j < n, SaysPoint file (ref i j) (P i j)
  rows : 0 < m
  cols : 0 < n
  degU : p < 256
  degV : q < 256
  lenU : U.length = m + p + 1
  lenV : V.length = n + q + 1
  sortedU : Sorted U
  sortedV : Sorted V
  resolvedU : Resolved U
  resolvedV : Resolved V
  nonconstU : knot U 0 < knot U (m + p)
  nonconstV : knot V 0 < knot V (n + q)

theorem i64_nat {p : Nat} (h : p < 256) : i64AsUsize (p : Int) = p := by
  unfold i64AsUsize
  omega

theorem firstRow_rect {m n : Nat} (hm : 0 < m) (ref : Nat → Nat → Ref) : StepFile.firstRow (rect m n ref) = .ok n := by
  unfold StepFile.firstRow rect
  rw [idx_ok (by simpa using hm)]
  simp

theorem new_netTab {α : Type} {m n p q : Nat} {U V : List K} (f : Nat → Nat → α) (hp : p < 256) (hq : q < 256)
    (hu : U.length = m + p + 1) (hv : V.length = n + q + 1) :
    BSplineSurface.new (⟨netTab m n f, m, n⟩ : Grid α) (U, V) (p, q) = .ok ⟨⟨netTab m n f, m, n⟩, (U, V), (p, q)⟩ := by
  unfold BSplineSurface.new
  simp only [hu, hv, decide_true, assertR, asU8, Nat.mod_eq_of_lt hp, Nat.mod_eq_of_lt hq]
  rfl

/-- **C88** A complex surface entity with B-spline, knot and rational parts, in this order, is read as the NURBS surface of the
file: for positive weights its points are `∑ Nᵢ(u) Mⱼ(v) wᵢⱼ Pᵢⱼ / ∑ Nᵢ(u) Mⱼ(v) wᵢⱼ` with the file's points, weights and
knots, `N`, `M` the B-spline basis of the file's degrees, and the denominator is positive. -/
theorem C88_rational {file : StepFile K} {face : StepAdvancedFace} {m n p q : Nat} {ref : Nat → Nat → Ref}
    {P : Nat → Nat → V3 K} {w : Nat → Nat → K} {k : StepKnotSurface K} {r : StepRationalSurface K}
    (h1 : file.plane face.faceGeometry = none) (h2 : file.cylindricalSurface face.faceGeometry = none)
    (h3 : file.bezierSurface face.faceGeometry = none) (h4 : file.bsplineSurface face.faceGeometry = none)
    (h5 : file.rationalSurface face.faceGeometry = none) (h6 : file.knotSurface face.faceGeometry = none)
    (h : file.complex face.faceGeometry = some [.bspline ⟨p, q, rect m n ref⟩, .knots k, .rational r])
    (hr : r.weights = rect m n w) (hw : ∀ i < m, ∀ j < n, 0 < w i j)
    (hn : SaysNet file m n ref P p q (StepFile.extractKnotVector k.uKnots k.uMultiplicities)
      (StepFile.extractKnotVector k.vKnots k.vMultiplicities)) :
    ∃ surf, file.extractSurface face = .ok (some surf) ∧
      ∀ (u v : K) (a b : Nat), InSpan (StepFile.extractKnotVector k.uKnots k.uMultiplicities) m p a u →
        InSpan (StepFile.extractKnotVector k.vKnots k.vMultiplicities) n q b v →
        let N := fun i => piece (knot (StepFile.extractKnotVector k.uKnots k.uMultiplicities)) a p i u
        let M := fun j => piece (knot (StepFile.extractKnotVector k.vKnots k.vMultiplicities)) b q j v
        let W := ∑ i ∈ Finset.range m, ∑ j ∈ Finset.range n, N i * M j * w i j
        0 < W ∧ surf.getPoint u v = .ok ((1 / W) • ∑ i ∈ Finset.range m, ∑ j ∈ Finset.range n,
          (N i * M j * w i j) • P i j) := by
  have hx : file.extractSurface face = .ok (some (BSplineSurface.surfaceRational
      ⟨⟨netTab m n fun i j => homog (P i j) (w i j), m, n⟩, (StepFile.extractKnotVector k.uKnots k.uMultiplicities,
        StepFile.extractKnotVector k.vKnots k.vMultiplicities), (p, q)⟩).boxed) := by
    unfold StepFile.extractSurface
    rw [h1, h2, h3, h4, h5, h6, h]
    simp only []
    unfold StepFile.complexSurface
    simp only [List.foldlM_cons, List.foldlM_nil, StepFile.partStep, pure_eq_ok, ok_bind, unwrapR, hr]
    rw [extractWeighted hn.points]
    simp only [ok_bind]
    rw [firstRow_rect hn.rows]
    simp only [ok_bind]
    rw [fromVec_netTab hn.rows hn.cols]
    simp only [ok_bind]
    rw [i64_nat hn.degU, i64_nat hn.degV, new_netTab _ hn.degU hn.degV hn.lenU hn.lenV]
    rfl
  refine ⟨_, hx, ?_⟩
  intro u v a b ha hb N M W
  have hs : (BSplineSurface.mk (⟨netTab m n fun i j => homog (P i j) (w i j), m, n⟩ : Grid (V4 K))
      (StepFile.extractKnotVector k.uKnots k.uMultiplicities, StepFile.extractKnotVector k.vKnots k.vMultiplicities)
      (p, q)).Valid :=
    ⟨netTab_ok _ _ _, hn.lenU, hn.lenV, hn.sortedU, hn.sortedV, hn.resolvedU, hn.resolvedV, hn.nonconstU, hn.nonconstV,
      hn.rows, hn.cols⟩
  have hsum := bsplineSurface_pieces hs ha.contains hb.contains
  obtain ⟨x, e1, hpos, e2, -⟩ := C19_bspline_surface hs (fun y hy => by
    simp only [netTab, List.mem_flatMap, List.mem_range, List.mem_map] at hy
    obtain ⟨i, hi, j, hj, rfl⟩ := hy
    exact hw i hi j hj) ha hb
  rw [hsum] at e1
  have e3 : x = ∑ i ∈ Finset.range m, ∑ j ∈ Finset.range n, (N i * M j) • homog (P i j) (w i j) := by
    rw [← Except.ok.inj e1]
    refine Finset.sum_congr rfl fun i hi => Finset.sum_congr rfl fun j hj => ?_
    exact congrArg _ (entry_netTab _ (Finset.mem_range.1 hi) (Finset.mem_range.1 hj))
  have ew : x.w = W := by
    rw [e3]
    refine (map_sum (V4.wL (K := K)) _ _).trans (Finset.sum_congr rfl fun i _ => ?_)
    exact map_sum (V4.wL (K := K)) _ _
  have et : V4.truncL x = ∑ i ∈ Finset.range m, ∑ j ∈ Finset.range n, (N i * M j * w i j) • P i j := by
    rw [e3, map_sum]
    refine Finset.sum_congr rfl fun i _ => ?_
    rw [map_sum]
    refine Finset.sum_congr rfl fun j _ => ?_
    rw [map_smul, mul_smul (N i * M j)]
    exact congrArg _ (V3.ext (mul_comm _ _) (mul_comm _ _) (mul_comm _ _))
  refine ⟨ew ▸ hpos, ?_⟩
  have e4 : _ = Except.ok (euclid x) := e2
  refine e4.trans ?_
  rw [euclid_eq, et, ew]

/-- **C90** Faces on Bézier surfaces are read, but their mesh is empty whatever their bounds. -/
theorem C90_bezier_face {file : StepFile K} {face : StepAdvancedFace} {net : List (List Ref)} {surf : Surface K}
    (h1 : file.plane face.faceGeometry = none) (h2 : file.cylindricalSurface face.faceGeometry = none)
    (h3 : file.bezierSurface face.faceGeometry = some net) (h : file.extractSurface face = .ok (some surf))
    (orc : TrimOracle K) (loops : List (EdgeLoop K)) : surf.trim orc loops = .ok TriangleMesh.new := by
  unfold StepFile.extractSurface at h
  rw [h1, h2, h3] at h
  simp only [bind_eq_ok, pure_eq_ok] at h
  obtain ⟨_, _, _, _, _, _, _, _, h⟩ := h
  rw [← Option.some.inj (Except.ok.inj h)]
  rfl

/-- **C90** Likewise faces on rational B-spline surfaces (simple entities). -/
theorem C90_rational_face {file : StepFile K} {face : StepAdvancedFace} {r : StepRationalSurface K} {surf : Surface K}
    (h1 : file.plane face.faceGeometry = none) (h2 : file.cylindricalSurface face.faceGeometry = none)
    (h3 : file.bezierSurface face.faceGeometry = none) (h4 : file.bsplineSurface face.faceGeometry = none)
    (h5 : file.rationalSurface face.faceGeometry = some r) (h : file.extractSurface face = .ok (some surf))
    (orc : TrimOracle K) (loops : List (EdgeLoop K)) : surf.trim orc loops = .ok TriangleMesh.new := by
  unfold StepFile.extractSurface at h
  rw [h1, h2, h3, h4, h5] at h
  simp only [bind_eq_ok, pure_eq_ok] at h
  obtain ⟨_, _, _, _, _, _, _, _, h⟩ := h
  rw [← Option.some.inj (Except.ok.inj h)]
  rfl

/-- **C90** Likewise every face on a complex surface entity or a surface of revolution. -/
theorem C90_complex_face {file : StepFile K} {face : StepAdvancedFace} {surf : Surface K}
    (h1 : file.plane face.faceGeometry = none) (h2 : file.cylindricalSurface face.faceGeometry = none)
    (h3 : file.bezierSurface face.faceGeometry = none) (h4 : file.bsplineSurface face.faceGeometry = none)
    (h5 : file.rationalSurface face.faceGeometry = none) (h6 : file.knotSurface face.faceGeometry = none)
    (h : file.extractSurface face = .ok (some surf))
    (orc : TrimOracle K) (loops : List (EdgeLoop K)) : surf.trim orc loops = .ok TriangleMesh.new := by
  unfold StepFile.extractSurface at h
  rw [h1, h2, h3, h4, h5, h6] at h
  simp only [bind_eq_ok, pure_eq_ok] at h
  obtain ⟨s, hs, h⟩ := h
  cases s with
  | some s =>
    simp only [] at h
    rw [← Option.some.inj (Except.ok.inj h)]
    cases hc : file.complex face.faceGeometry with
    | none => rw [hc] at hs; cases hs
    | some parts =>
      rw [hc] at hs
      simp only [StepFile.complexSurface, bind_eq_ok, pure_eq_ok] at hs
      obtain ⟨st, -, hs⟩ := hs
      cases hw : st.weighted with
      | none => rw [hw] at hs; cases hs
      | some weighted =>
        cases hk : st.knots with
        | none => rw [hw, hk] at hs; cases hs
        | some knots =>
          rw [hw, hk] at hs
          simp only [bind_eq_ok] at hs
          obtain ⟨_, _, _, _, _, _, _, _, _, _, hs⟩ := hs
          rw [← Option.some.inj (Except.ok.inj hs)]
          rfl
  | none =>
    simp only [] at h
    cases hr : file.revolution face.faceGeometry with
    | none => rw [hr] at h; cases h
    | some rv =>
      rw [hr] at h
      obtain ⟨c, ax⟩ := rv
      simp only [bind_eq_ok] at h
      obtain ⟨curve, -, h⟩ := h
      cases curve with
      | none => cases h
      | some curve =>
        simp only [bind_eq_ok] at h
        obtain ⟨_, _, _, _, h⟩ := h
        rw [← Option.some.inj (Except.ok.inj h)]
        rfl

/-- A file with a bilinear rational face. -/
def rationalFile : StepFile ℚ :=
  { emptyFile with
    cartesianPoint := fun r => if r = 0 then some [0, 0, 0] else if r = 1 then some [0, 1, 0] else
      if r = 2 then some [1, 0, 0] else if r = 3 then some [1, 1, 5] else none
    complex := fun r => if r = 9 then some [.bspline ⟨1, 1, rect 2 2 fun i j => 2 * i + j⟩,
      .knots ⟨⟨1, 1, []⟩, [0, 1], [0, 1], [2, 2], [2, 2]⟩,
      .rational ⟨⟨1, 1, []⟩, rect 2 2 fun i j => (i : ℚ) + j + 1⟩] else none }

/-- Non-vacuity of `C88`: hypotheses met, and the reader's surface at `(1/2, 1/2)`: weights 1, 2, 2, 3. -/
example [Trig ℚ] : ∃ surf, rationalFile.extractSurface ⟨[], 9, true⟩ = .ok (some surf) ∧
    surf.getPoint (1 / 2) (1 / 2) = .ok ⟨5 / 8, 5 / 8, 15 / 8⟩ := by
  obtain ⟨surf, h1, h2⟩ := C88_rational (file := rationalFile) (face := ⟨[], 9, true⟩) (m := 2) (n := 2) (p := 1) (q := 1)
    (ref := fun i j => 2 * i + j) (P := fun i j => ⟨i, j, 5 * (i * j)⟩) (w := fun i j => (i : ℚ) + j + 1)
    rfl rfl rfl rfl rfl rfl rfl rfl (fun i _ j _ => by positivity)
    ⟨fun i hi j hj => by
        unfold SaysPoint rationalFile
        interval_cases i <;> interval_cases j <;> decide +kernel,
      by decide, by decide, by decide, by decide, by decide +kernel, by decide +kernel,
      by unfold Sorted; decide +kernel, by unfold Sorted; decide +kernel, resolved_rat _, resolved_rat _,
      by decide +kernel, by decide +kernel⟩
  have hi : InSpan (StepFile.extractKnotVector [0, (1 : ℚ)] [2, 2]) 2 1 1 (1 / 2) :=
    ⟨by decide, by decide, by decide +kernel, by decide +kernel, Or.inl (by decide +kernel)⟩
  refine ⟨surf, h1, ?_⟩
  rw [(h2 (1 / 2) (1 / 2) 1 1 hi hi).2]
  decide +kernel

end

end Geom3d
