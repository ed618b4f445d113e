import Verif.Props.Step
import Verif.Props.UniformClamped
import Verif.Props.Surfaces

/-! # C103: what is read from a STEP file

The meaning of a file is a set of relations between its entities and geometric objects, `Spec.SaysCurve` …
`Spec.SaysFace`; nothing in them refers to the functions of the reader.  The reader returns exactly the objects related to
the entities of the file, in the order of the file. -/

set_option linter.unusedSectionVars false

namespace Geom3d
open Spec

section
variable {F : Type} [Add F] [Sub F] [Mul F] [Div F] [Neg F] [Zero F] [One F] [NatCast F] [LT F] [DecidableLT F]
  [LE F] [DecidableLE F] [Env F]

/-- Values repeated according to their multiplicities. -/
def Spec.repeated (values : List F) (mults : List Nat) : List F :=
  (values.zip mults).flatMap fun vm => List.replicate vm.2 vm.1

/-- Multiplicities as written in the file: numbers below `2^63`. -/
def Spec.SaysMults (written : List Int) (mults : List Nat) : Prop :=
  written = mults.map Int.ofNat ∧ ∀ k ∈ mults, k < 2 ^ 63

/-- Entity `r` is the axis through `o` in direction `a`. -/
def Spec.SaysAxis (file : StepFile F) (r : Ref) (o a : V3 F) : Prop :=
  ∃ loc ax, file.axis1Placement r = some (loc, some ax) ∧ SaysPoint file loc o ∧ SaysDirection file ax a

/-- Entity `r` is the curve `c`. -/
inductive Spec.SaysCurve [Trig F] (file : StepFile F) (r : Ref) : DynCurve F → Prop where
  | line {o d : V3 F} (h : SaysLine file r o d) : SaysCurve file r (.line ⟨o, d⟩)
  | circle {o a x : V3 F} {rad : F} (h : SaysCircle file r o a x rad) :
      SaysCurve file r (.other (Circle.obj ⟨o, rad, a, x.normalize⟩))
  | polyline {refs : List Ref} {pts : List (V3 F)} {c : Polyline F} (hl : file.line r = none) (hc : file.circle r = none)
      (h : file.polyline r = some refs) (hp : List.Forall₂ (SaysPoint file) refs pts) (hn : Polyline.new pts = .ok c) :
      SaysCurve file r (.polyline c)
  | bspline {refs : List Ref} {pts : List (V3 F)} {values : List F} {written : List Int} {mults : List Nat} {p : Nat}
      (hl : file.line r = none) (hc : file.circle r = none) (hq : file.polyline r = none)
      (h : file.bsplineCurve r = some ⟨p, refs, values, written⟩) (hp : List.Forall₂ (SaysPoint file) refs pts)
      (hm : SaysMults written mults) (hd : p < 256) : SaysCurve file r (.bspline ⟨pts, repeated values mults, p⟩)

/-- Oriented edge `r` is the piece of a curve between the parameters of its vertices; for circles the range is first
ordered by the sense of the edge (C66).  The orientation flag is left open: the reader ignores it (C86). -/
def Spec.SaysOriented [Trig F] (file : StepFile F) (r : Ref) (seg : CurveSegment F) : Prop :=
  ∃ g o s e c sense curve u v, file.orientedEdge r = some ⟨g, o⟩ ∧ SaysEdge file g s e c sense ∧
    SaysCurve file c curve ∧ curve.obj.project s = .ok u ∧ curve.obj.project e = .ok v ∧
    seg = ⟨curve.obj, curve.obj.refine (u, v) sense, Env.hundredth, 16⟩

/-- Face bound `r` is the edge loop `loop`. -/
def Spec.SaysBound [Trig F] (file : StepFile F) (r : Ref) (loop : EdgeLoop F) : Prop :=
  ∃ b o edges, file.faceBound r = some ⟨b, o⟩ ∧ file.edgeLoop b = some edges ∧
    List.Forall₂ (SaysOriented file) edges loop.edges

/-- Composite curve segment `r` is a trimmed curve. -/
def Spec.SaysTrimmed [Trig F] (file : StepFile F) (r : Ref) (seg : DynSegment F) : Prop :=
  ∃ t b o c u v us vs sense, file.compositeSegment r = some ⟨t, o⟩ ∧
    file.trimmedCurve t = some ⟨b, some u :: us, some v :: vs, sense⟩ ∧ SaysCurve file b c ∧
    seg = ⟨c, c.obj.refine (u, v) sense, Env.hundredth, 16⟩

/-- No simple surface entity of the first `n` kinds (in the order of the reader). -/
def Spec.NotEarlier (file : StepFile F) (r : Ref) : Nat → Prop
  | 0 => True
  | 1 => file.plane r = none
  | 2 => file.plane r = none ∧ file.cylindricalSurface r = none
  | 3 => file.plane r = none ∧ file.cylindricalSurface r = none ∧ file.bezierSurface r = none
  | 4 => file.plane r = none ∧ file.cylindricalSurface r = none ∧ file.bezierSurface r = none ∧ file.bsplineSurface r = none
  | 5 => file.plane r = none ∧ file.cylindricalSurface r = none ∧ file.bezierSurface r = none ∧
      file.bsplineSurface r = none ∧ file.rationalSurface r = none
  | _ => file.plane r = none ∧ file.cylindricalSurface r = none ∧ file.bezierSurface r = none ∧
      file.bsplineSurface r = none ∧ file.rationalSurface r = none ∧ file.knotSurface r = none

/-- Homogeneous point with weight `w`, over any numbers. -/
def Spec.weighted (p : V3 F) (w : F) : V4 F := ⟨p.x * w, p.y * w, p.z * w, w⟩

/-- The grid with entries `f i j`. -/
def Spec.gridOf {α : Type} (m n : Nat) (f : Nat → Nat → α) : Grid α := ⟨netTab m n f, m, n⟩

/-- The face geometry of `face` is the surface `s`. -/
inductive Spec.SaysSurface [Trig F] (file : StepFile F) (face : StepAdvancedFace) : Surface F → Prop where
  | plane {pos : Ref} {o z x : V3 F} (h : file.plane face.faceGeometry = some pos) (hp : SaysPlacement file pos o z x) :
      SaysSurface file face
        (Plane.surface ⟨o, if face.sameSense then z else -z, x, (if face.sameSense then z else -z).cross x⟩).boxed
  | cylinder {pos : Ref} {o z x : V3 F} {rad : F} (h0 : NotEarlier file face.faceGeometry 1)
      (h : file.cylindricalSurface face.faceGeometry = some (pos, rad)) (hp : SaysPlacement file pos o z x) :
      SaysSurface file face (Cylinder.surface ⟨o, z, x.normalize, rad⟩).boxed
  | bezier {m n : Nat} {ref : Nat → Nat → Ref} {P : Nat → Nat → V3 F} (h0 : NotEarlier file face.faceGeometry 2)
      (h : file.bezierSurface face.faceGeometry = some (rect m n ref)) (hm : 2 ≤ m) (hn : 2 ≤ n)
      (hp : ∀ i < m, ∀ j < n, SaysPoint file (ref i j) (P i j)) :
      SaysSurface file face (BezierSurface.surface ⟨gridOf m n P⟩).boxed
  | uniform {m n p q : Nat} {ref : Nat → Nat → Ref} {P : Nat → Nat → V3 F} (h0 : NotEarlier file face.faceGeometry 3)
      (h : file.bsplineSurface face.faceGeometry = some ⟨p, q, rect m n ref⟩) (hm : p < m) (hn : q < n) (hp8 : p < 256)
      (hq8 : q < 256) (hp : ∀ i < m, ∀ j < n, SaysPoint file (ref i j) (P i j)) :
      SaysSurface file face (BSplineSurface.surface
        ⟨gridOf m n P, (KnotVector.uniformKnot p (m - p), KnotVector.uniformKnot q (n - q)), (p, q)⟩).boxed
  | uniformRational {m n p q : Nat} {ref : Nat → Nat → Ref} {P : Nat → Nat → V3 F} {w : Nat → Nat → F}
      (h0 : NotEarlier file face.faceGeometry 4)
      (h : file.rationalSurface face.faceGeometry = some ⟨⟨p, q, rect m n ref⟩, rect m n w⟩) (hm : p < m) (hn : q < n)
      (hp8 : p < 256) (hq8 : q < 256) (hp : ∀ i < m, ∀ j < n, SaysPoint file (ref i j) (P i j)) :
      SaysSurface file face (BSplineSurface.surfaceRational
        ⟨gridOf m n fun i j => weighted (P i j) (w i j),
          (KnotVector.uniformKnot p (m - p), KnotVector.uniformKnot q (n - q)), (p, q)⟩).boxed
  | knots {m n p q : Nat} {ref : Nat → Nat → Ref} {P : Nat → Nat → V3 F} {us vs : List F} {mu mv : List Int}
      {ku kv : List Nat} (h0 : NotEarlier file face.faceGeometry 5)
      (h : file.knotSurface face.faceGeometry = some ⟨⟨p, q, rect m n ref⟩, us, vs, mu, mv⟩) (hu : SaysMults mu ku)
      (hv : SaysMults mv kv) (hm : 0 < m) (hn : 0 < n) (hp8 : p < 256) (hq8 : q < 256)
      (hlu : (repeated us ku).length = m + p + 1) (hlv : (repeated vs kv).length = n + q + 1)
      (hp : ∀ i < m, ∀ j < n, SaysPoint file (ref i j) (P i j)) :
      SaysSurface file face (BSplineSurface.surface ⟨gridOf m n P, (repeated us ku, repeated vs kv), (p, q)⟩).boxed
  | rational {m n p q : Nat} {ref : Nat → Nat → Ref} {P : Nat → Nat → V3 F} {w : Nat → Nat → F} {us vs : List F}
      {mu mv : List Int} {ku kv : List Nat} {b c : StepBSplineSurface} (h0 : NotEarlier file face.faceGeometry 6)
      (h : file.complex face.faceGeometry = some [.bspline ⟨p, q, rect m n ref⟩, .knots ⟨b, us, vs, mu, mv⟩,
        .rational ⟨c, rect m n w⟩]) (hu : SaysMults mu ku) (hv : SaysMults mv kv) (hm : 0 < m) (hn : 0 < n) (hp8 : p < 256)
      (hq8 : q < 256) (hlu : (repeated us ku).length = m + p + 1) (hlv : (repeated vs kv).length = n + q + 1)
      (hp : ∀ i < m, ∀ j < n, SaysPoint file (ref i j) (P i j)) :
      SaysSurface file face (BSplineSurface.surfaceRational
        ⟨gridOf m n fun i j => weighted (P i j) (w i j), (repeated us ku, repeated vs kv), (p, q)⟩).boxed
  | revolution {c ax : Ref} {curve : DynCurve F} {o a : V3 F} (h0 : NotEarlier file face.faceGeometry 6)
      (hc : file.complex face.faceGeometry = none) (h : file.revolution face.faceGeometry = some (c, ax))
      (hs : SaysCurve file c curve) (ha : SaysAxis file ax o a) :
      SaysSurface file face (SpinSurface.surface ⟨o, a, curve.obj⟩).boxed

/-- The face: its surface and one loop per bound. -/
def Spec.SaysFace [Trig F] (file : StepFile F) (face : StepAdvancedFace) (t : TrimmedSurface F) : Prop :=
  SaysSurface file face t.surface ∧ List.Forall₂ (SaysBound file) face.bounds t.bounds

theorem mapM_of_forall2 {α β : Type} {f : α → Res β} {l : List α} {l' : List β}
    (h : List.Forall₂ (fun a b => f a = .ok b) l l') : l.mapM f = .ok l' := by
  induction h with
  | nil => rfl
  | cons h1 _ ih =>
    rw [mapM_cons, h1, ih]
    rfl

theorem mapM_some {α β : Type} {f : α → Res (Option β)} {l : List α} {l' : List β}
    (h : List.Forall₂ (fun a b => f a = .ok (some b)) l l') : l.mapM f = .ok (l'.map some) := by
  apply mapM_of_forall2
  induction h with
  | nil => exact .nil
  | cons h1 _ ih => exact .cons h1 ih

theorem extractPoints_says {file : StepFile F} {refs : List Ref} {pts : List (V3 F)}
    (h : List.Forall₂ (SaysPoint file) refs pts) : file.extractPoints refs = .ok pts :=
  mapM_of_forall2 (h.imp fun _ _ => point_of_says)

theorem extractKnotVector_says {values : List F} {written : List Int} {mults : List Nat} (h : SaysMults written mults) :
    StepFile.extractKnotVector values written = repeated values mults := by
  unfold StepFile.extractKnotVector
  rw [C07_values_multiplicities, h.1, List.map_map]
  have e : mults.map (i64AsUsize ∘ Int.ofNat) = mults := by
    conv_rhs => rw [← List.map_id mults]
    apply List.map_congr_left
    intro k hk
    have := h.2 k hk
    simp only [Function.comp, i64AsUsize, id]
    rw [Int.emod_eq_of_lt (by simp) (by simp; omega)]
    rfl
  rw [e]
  rfl

theorem extractNet_says {file : StepFile F} {m n : Nat} {ref : Nat → Nat → Ref} {P : Nat → Nat → V3 F}
    (h : ∀ i < m, ∀ j < n, SaysPoint file (ref i j) (P i j)) :
    file.extractControlPoints (rect m n ref) = .ok (netTab m n P) := by
  unfold StepFile.extractControlPoints rect
  rw [mapM_map, mapM_pure (g := fun i => (List.range n).map fun j => P i j) (fun i hi => ?_)]
  · simp only [ok_bind, pure_eq_ok, netTab, List.flatMap_def]
  · rw [mapM_map]
    apply mapM_pure
    intro j hj
    exact point_of_says (h i (List.mem_range.1 hi) j (List.mem_range.1 hj))

theorem extractWeighted_says {file : StepFile F} {m n : Nat} {ref : Nat → Nat → Ref} {P : Nat → Nat → V3 F}
    {w : Nat → Nat → F} (h : ∀ i < m, ∀ j < n, SaysPoint file (ref i j) (P i j)) :
    file.extractWeightedControlPoints (rect m n ref) (rect m n w) = .ok (netTab m n fun i j => weighted (P i j) (w i j)) := by
  unfold StepFile.extractWeightedControlPoints rect
  rw [zip_map_same, mapM_map,
    mapM_pure (g := fun i => (List.range n).map fun j => weighted (P i j) (w i j)) (fun i hi => ?_)]
  · simp only [ok_bind, pure_eq_ok, netTab, List.flatMap_def]
  · rw [zip_map_same, mapM_map]
    apply mapM_pure
    intro j hj
    have := h i (List.mem_range.1 hi) j (List.mem_range.1 hj)
    unfold SaysPoint at this
    simp only []
    rw [this]
    rfl

theorem new_says {α : Type} {m n p q : Nat} {U V : List F} (f : Nat → Nat → α) (hp : p < 256) (hq : q < 256)
    (hu : U.length = m + p + 1) (hv : V.length = n + q + 1) :
    BSplineSurface.new (⟨netTab m n f, m, n⟩ : Grid α) (U, V) (p, q) = .ok ⟨gridOf m n f, (U, V), (p, q)⟩ := by
  unfold BSplineSurface.new gridOf
  simp only [hu, hv, decide_true, assertR, asU8, Nat.mod_eq_of_lt hp, Nat.mod_eq_of_lt hq]
  rfl

theorem i64AsU8_nat {p : Nat} (h : p < 256) : i64AsU8 (p : Int) = p := by
  unfold i64AsU8
  omega

variable [Trig F]

/-- **C103** Every supported curve entity is read as the curve it denotes. -/
theorem C103_curve {file : StepFile F} {r : Ref} {c : DynCurve F} (h : SaysCurve file r c) :
    file.extractCurve r = .ok (some c) := by
  cases h with
  | line h => exact extractCurve_line h
  | circle h => exact extractCurve_circle h
  | polyline hl hc h hp hn =>
    unfold StepFile.extractCurve
    rw [hl]
    simp only []
    rw [hc]
    simp only []
    rw [h]
    simp only []
    rw [extractPoints_says hp]
    simp only [ok_bind]
    rw [hn]
    rfl
  | bspline hl hc hq h hp hm hd =>
    unfold StepFile.extractCurve
    rw [hl]
    simp only []
    rw [hc]
    simp only []
    rw [hq]
    simp only []
    rw [h]
    simp only []
    rw [extractPoints_says hp]
    simp only [ok_bind, pure_eq_ok]
    rw [extractKnotVector_says hm]
    rw [i64AsU8_nat hd]

/-- **C103** Every supported surface entity is read as the surface it denotes. -/
theorem C103_surface {file : StepFile F} {face : StepAdvancedFace} {s : Surface F} (h : SaysSurface file face s) :
    file.extractSurface face = .ok (some s) := by
  unfold StepFile.extractSurface
  cases h with
  | plane h hp =>
    rw [h]
    simp only []
    rw [axis2_of_says hp]
    rfl
  | cylinder h0 h hp =>
    have h0' : file.plane face.faceGeometry = none := h0
    rw [h0', h]
    simp only []
    rw [axis2_of_says hp]
    rfl
  | bezier h0 h hm hn hp =>
    obtain ⟨h1, h2⟩ := h0
    rw [h1, h2, h]
    simp only []
    rw [extractNet_says hp, ok_bind, firstRow_rect (by omega), ok_bind, fromVec_netTab (by omega) (by omega)]
    simp only [ok_bind, BezierSurface.new, assertR]
    rw [decide_eq_true (by omega)]
    rfl
  | uniform h0 h hm hn hp8 hq8 hp =>
    obtain ⟨h1, h2, h3⟩ := h0
    rw [h1, h2, h3, h]
    simp only []
    rw [extractNet_says hp, ok_bind, firstRow_rect (by omega), ok_bind, fromVec_netTab (by omega) (by omega), ok_bind,
      i64_nat hp8, i64_nat hq8, uniformClamped_eq hm hn]
    simp only [Nat.mod_eq_of_lt hp8, Nat.mod_eq_of_lt hq8]
    rfl
  | uniformRational h0 h hm hn hp8 hq8 hp =>
    obtain ⟨h1, h2, h3, h4⟩ := h0
    rw [h1, h2, h3, h4, h]
    simp only []
    rw [extractWeighted_says hp, ok_bind, firstRow_rect (by omega), ok_bind, fromVec_netTab (by omega) (by omega), ok_bind,
      i64_nat hp8, i64_nat hq8, uniformClamped_eq hm hn]
    simp only [Nat.mod_eq_of_lt hp8, Nat.mod_eq_of_lt hq8]
    rfl
  | knots h0 h hu hv hm hn hp8 hq8 hlu hlv hp =>
    obtain ⟨h1, h2, h3, h4, h5⟩ := h0
    rw [h1, h2, h3, h4, h5, h]
    simp only []
    rw [extractNet_says hp, ok_bind, firstRow_rect (by omega), ok_bind, fromVec_netTab (by omega) (by omega), ok_bind,
      i64_nat hp8, i64_nat hq8, extractKnotVector_says hu, extractKnotVector_says hv]
    rw [new_says _ hp8 hq8 hlu hlv]
    rfl
  | rational h0 h hu hv hm hn hp8 hq8 hlu hlv hp =>
    obtain ⟨h1, h2, h3, h4, h5, h6⟩ := h0
    rw [h1, h2, h3, h4, h5, h6, h]
    simp only []
    unfold StepFile.complexSurface
    simp only [List.foldlM_cons, List.foldlM_nil, StepFile.partStep, pure_eq_ok, ok_bind, unwrapR]
    rw [extractWeighted_says hp]
    simp only [ok_bind]
    rw [firstRow_rect hm]
    simp only [ok_bind]
    rw [fromVec_netTab hm hn]
    simp only [ok_bind]
    rw [i64_nat hp8, i64_nat hq8, extractKnotVector_says hu, extractKnotVector_says hv]
    rw [new_says _ hp8 hq8 hlu hlv]
    rfl
  | revolution h0 hc h hs ha =>
    obtain ⟨h1, h2, h3, h4, h5, h6⟩ := h0
    obtain ⟨loc, ax, g1, g2, g3⟩ := ha
    rw [h1, h2, h3, h4, h5, h6, hc, h]
    simp only [pure_eq_ok, ok_bind]
    rw [C103_curve hs]
    simp only [ok_bind, StepFile.axis1]
    rw [g1]
    simp only [unwrapR, ok_bind]
    rw [point_of_says g2]
    simp only [ok_bind, StepFile.directionOf, unwrapR]
    rw [g3]
    rfl

/-- **C103** Edge loops: one segment per oriented edge, in the order of the file. -/
theorem C103_loop {file : StepFile F} {edges : List Ref} {segs : List (CurveSegment F)}
    (h : List.Forall₂ (SaysOriented file) edges segs) : file.loopEdges edges = .ok segs := by
  have key : ∃ ds : List (DynSegment F), ds.map DynSegment.segment = segs ∧ List.Forall₂ (fun r d =>
      ∃ o, file.orientedEdge r = some o ∧ file.extractEdgeCurve o.edgeElement = .ok (some d)) edges ds := by
    induction h with
    | nil => exact ⟨[], rfl, .nil⟩
    | cons h _ ih =>
      obtain ⟨ds, e, hd⟩ := ih
      obtain ⟨g, o, s, e', c, sense, curve, u, v, h1, h2, h3, h4, h5, rfl⟩ := h
      refine ⟨⟨curve, curve.obj.refine (u, v) sense, Env.hundredth, 16⟩ :: ds, ?_, .cons ?_ hd⟩
      · rw [List.map_cons, e]
        rfl
      · exact ⟨_, h1, extractEdge h2 (C103_curve h3) h4 h5⟩
  obtain ⟨ds, e, hd⟩ := key
  unfold StepFile.loopEdges
  rw [mapM_some (l' := ds) (hd.imp ?_), ok_bind, ← e]
  · simp [pure_eq_ok, List.filterMap_map]
  · rintro r d ⟨o, h1, h2⟩
    rw [h1]
    exact h2

/-- **C103** Faces: the denoted surface, with one loop per bound in the order of the file. -/
theorem C103_face {file : StepFile F} {face : StepAdvancedFace} {t : TrimmedSurface F} (h : SaysFace file face t) :
    file.readFace face = .ok (some t) := by
  unfold StepFile.readFace
  rw [C103_surface h.1]
  simp only [ok_bind]
  have hb : file.faceBounds face.bounds = .ok t.bounds := by
    unfold StepFile.faceBounds
    rw [mapM_some (l' := t.bounds) (h.2.imp ?_)]
    · simp [ok_bind, pure_eq_ok, List.filterMap_map]
    · rintro r loop ⟨b, o, edges, h1, h2, h3⟩
      rw [h1]
      simp only [Option.bind_some]
      rw [h2]
      simp only []
      rw [C103_loop h3]
      rfl
  rw [hb]
  rfl

/-- **C103** Composite curve segments. -/
theorem C103_trimmed {file : StepFile F} {r : Ref} {seg : DynSegment F} (h : SaysTrimmed file r seg) :
    file.extractCurveSegment r = .ok (some seg) := by
  obtain ⟨t, b, o, c, u, v, us, vs, sense, h1, h2, h3, rfl⟩ := h
  unfold StepFile.extractCurveSegment
  rw [h1]
  simp only [Option.bind_some]
  rw [h2]
  simp only []
  rw [C103_curve h3]
  rfl

/-- **C103** The model read: one polycurve per composite curve and one face per advanced face, each the denoted one, in the
order of the file. -/
theorem C103_model {file : StepFile F} {curves : List (List (DynSegment F))} {faces : List (TrimmedSurface F)}
    (hc : List.Forall₂ (List.Forall₂ (SaysTrimmed file)) file.compositeCurves curves)
    (hf : List.Forall₂ (SaysFace file) file.advancedFaces faces) : file.readModel = .ok (curves, faces) := by
  unfold StepFile.readModel
  rw [mapM_of_forall2 (l' := curves) (hc.imp ?_), ok_bind, mapM_some (l' := faces) (hf.imp fun _ _ => C103_face)]
  · simp [ok_bind, pure_eq_ok, List.filterMap_map]
  · intro refs segs h
    rw [mapM_some (l' := segs) (h.imp fun _ _ => C103_trimmed)]
    simp [ok_bind, pure_eq_ok, List.filterMap_map]

end

/-! ### Points of the B-spline surfaces read -/

section
variable {K : Type} [Field K] [LinearOrder K] [IsStrictOrderedRing K] [Env K] [Trig K]

/-- **C103** The points of a B-spline surface with knots: `∑ Nᵢ(u) Mⱼ(v) Pᵢⱼ` with the points, knots and degrees of the
file. -/
theorem C103_knot_surface {file : StepFile K} {face : StepAdvancedFace} {m n p q : Nat} {ref : Nat → Nat → Ref}
    {P : Nat → Nat → V3 K} {us vs : List K} {mu mv : List Int} {ku kv : List Nat} (h0 : NotEarlier file face.faceGeometry 5)
    (h : file.knotSurface face.faceGeometry = some ⟨⟨p, q, rect m n ref⟩, us, vs, mu, mv⟩) (hu : SaysMults mu ku)
    (hv : SaysMults mv kv) (hn : SaysNet file m n ref P p q (repeated us ku) (repeated vs kv)) :
    ∃ surf, file.extractSurface face = .ok (some surf) ∧
      ∀ (u v : K) (a b : Nat), InSpan (repeated us ku) m p a u → InSpan (repeated vs kv) n q b v →
        surf.getPoint u v = .ok (∑ i ∈ Finset.range m, ∑ j ∈ Finset.range n,
          (piece (knot (repeated us ku)) a p i u * piece (knot (repeated vs kv)) b q j v) • P i j) := by
  refine ⟨_, C103_surface (.knots h0 h hu hv hn.rows hn.cols hn.degU hn.degV hn.lenU hn.lenV hn.points), ?_⟩
  intro u v a b ha hb
  have hs : (BSplineSurface.mk (gridOf m n P) (repeated us ku, repeated vs kv) (p, q)).Valid :=
    ⟨netTab_ok _ _ _, hn.lenU, hn.lenV, hn.sortedU, hn.sortedV, hn.resolvedU, hn.resolvedV, hn.nonconstU, hn.nonconstV,
      hn.rows, hn.cols⟩
  refine (bsplineSurface_pieces hs ha.contains hb.contains).trans (congrArg Except.ok ?_)
  refine Finset.sum_congr rfl fun i hi => Finset.sum_congr rfl fun j hj => ?_
  exact congrArg _ (entry_netTab _ (Finset.mem_range.1 hi) (Finset.mem_range.1 hj))

end

/-! ### Examples -/

/-- The edge of `sampleFile` bounds a plane face, and a composite curve has a trimmed B-spline segment. -/
noncomputable def modelFile : StepFile ℝ :=
  { sampleFile 1 with
    direction := fun r => if r = 3 then some [1, 0, 0] else if r = 13 then some [0, 0, 1] else none
    plane := fun r => if r = 12 then some 14 else none
    axis2Placement3d := fun r => if r = 14 then some (1, some 13, some 3) else none
    faceBound := fun r => if r = 11 then some ⟨10, true⟩ else none
    bsplineCurve := fun r => if r = 15 then some ⟨1, [1, 2], [0, 1], [2, 2]⟩ else none
    trimmedCurve := fun r => if r = 16 then some ⟨15, [some 0], [some 1, none], true⟩ else none
    compositeSegment := fun r => if r = 17 then some ⟨16, true⟩ else none
    compositeCurves := [[17]]
    advancedFaces := [⟨[11], 12, false⟩] }

/-- Non-vacuity of `C103_model`: one polycurve with one segment, one face with one bound of one edge. -/
example : modelFile.readModel = .ok
    ([[⟨.bspline ⟨[0, ⟨1, 0, 0⟩], [0, 0, 1, 1], 1⟩, (0, 1), Env.hundredth, 16⟩]],
     [⟨(Plane.surface ⟨0, -⟨0, 0, 1⟩, ⟨1, 0, 0⟩, (-⟨0, 0, 1⟩ : V3 ℝ).cross ⟨1, 0, 0⟩⟩).boxed,
       [⟨[⟨(DynCurve.line ⟨0, ⟨1, 0, 0⟩⟩).obj,
         ((⟨0, ⟨1, 0, 0⟩⟩ : Line ℝ).project 0, (⟨0, ⟨1, 0, 0⟩⟩ : Line ℝ).project ⟨1, 0, 0⟩), Env.hundredth, 16⟩]⟩]⟩]) := by
  apply C103_model
  · refine .cons (.cons ⟨16, 15, true, _, 0, 1, [], [none], true, rfl, rfl, ?_, rfl⟩ .nil) .nil
    exact .bspline (refs := [1, 2]) (pts := [0, ⟨1, 0, 0⟩]) (values := [0, 1]) (written := [2, 2]) (mults := [2, 2]) (p := 1)
      rfl rfl rfl rfl (.cons rfl (.cons rfl .nil)) ⟨rfl, by decide⟩ (by decide)
  · refine .cons ⟨.plane (pos := 14) (o := 0) (z := ⟨0, 0, 1⟩) (x := ⟨1, 0, 0⟩) rfl ⟨1, 13, 3, rfl, rfl, rfl, rfl⟩, ?_⟩ .nil
    refine .cons ⟨10, true, [9], rfl, rfl, .cons ⟨8, false, 0, ⟨1, 0, 0⟩, 5, true, .line ⟨0, ⟨1, 0, 0⟩⟩, _, _, rfl,
      ⟨6, 7, rfl, ⟨1, rfl, rfl⟩, ⟨2, rfl, rfl⟩⟩, .line ⟨1, 4, 3, rfl, rfl, rfl, rfl⟩, rfl, rfl, rfl⟩ .nil⟩ .nil

/-- A file with a bilinear B-spline face. -/
def knotFile : StepFile ℚ :=
  { emptyFile with
    cartesianPoint := fun r => if r = 0 then some [0, 0, 0] else if r = 1 then some [0, 1, 0] else
      if r = 2 then some [1, 0, 0] else if r = 3 then some [1, 1, 5] else none
    knotSurface := fun r => if r = 9 then some ⟨⟨1, 1, rect 2 2 fun i j => 2 * i + j⟩, [0, 1], [0, 1], [2, 2], [2, 2]⟩
      else none }

/-- Non-vacuity of `C103_knot_surface`. -/
example [Trig ℚ] : ∃ surf, knotFile.extractSurface ⟨[], 9, true⟩ = .ok (some surf) ∧
    surf.getPoint (1 / 2) (1 / 2) = .ok ⟨1 / 2, 1 / 2, 5 / 4⟩ := by
  obtain ⟨surf, h1, h2⟩ := C103_knot_surface (file := knotFile) (face := ⟨[], 9, true⟩) (m := 2) (n := 2) (p := 1) (q := 1)
    (ref := fun i j => 2 * i + j) (P := fun i j => ⟨i, j, 5 * (i * j)⟩) (us := [0, 1]) (vs := [0, 1]) (mu := [2, 2])
    (mv := [2, 2]) (ku := [2, 2]) (kv := [2, 2]) ⟨rfl, rfl, rfl, rfl, rfl⟩ rfl ⟨rfl, by decide⟩ ⟨rfl, by decide⟩
    ⟨fun i hi j hj => by
        unfold SaysPoint knotFile
        interval_cases i <;> interval_cases j <;> decide +kernel,
      by decide, by decide, by decide, by decide, by decide +kernel, by decide +kernel,
      by unfold Sorted; decide +kernel, by unfold Sorted; decide +kernel, resolved_rat _, resolved_rat _,
      by decide +kernel, by decide +kernel⟩
  have hi : InSpan (repeated [0, (1 : ℚ)] [2, 2]) 2 1 1 (1 / 2) :=
    ⟨by decide, by decide, by decide +kernel, by decide +kernel, Or.inl (by decide +kernel)⟩
  refine ⟨surf, h1, ?_⟩
  rw [h2 (1 / 2) (1 / 2) 1 1 hi hi]
  decide +kernel

end Geom3d
