import Verif.Props.ClosedEdges
import Verif.Props.FrontFace
import Verif.Props.FloatOrient

/-!
# Faces with a seam (C137)

The side of a cylinder is usually written with one loop of four edges: a circle, the seam, the other circle, and the seam
again. Circles that start and end at one vertex collapse (C136), and the orientation of edges is not looked at (C86), so that
the polygon of the face runs twice from one end of the seam to the other. On such a polygon the inner loop of
`generate_triangular_mesh` (src/utils/meshgen.rs) goes back and forth between two nodes for ever: however much fuel the model
is given, it runs out.

* `C137_cylinder` states this of any arithmetic that satisfies `Spec.SeamFacts`, whatever is drawn.
* `C137_bspline`, `C137_float` show these facts for exact arithmetic and for binary64.
* `C137_tube` follows it back to the file.
-/

namespace Geom3d
open Spec

set_option linter.unusedSectionVars false

section
variable {F : Type} [Add F] [Sub F] [Mul F] [Div F] [Neg F] [Zero F] [One F] [NatCast F] [LT F] [DecidableLT F]
  [LE F] [DecidableLE F] [Env F]

/-- What is needed of the arithmetic. -/
structure Spec.SeamFacts (A B : V2 F) : Prop where
  apex : isSegmentsIntersect B (pointOnNormalBisector B A 1) A B = true
  back : isSegmentsIntersect B A A B = true
  corner : isInsideTriangleTol A B A B = true

theorem seam_node {sel : Option Nat} {A B N : V2 F} {e : Nat × Nat}
    (he : e ∈ [((0 : Nat), (1 : Nat)), (1, 2), (2, 3)]) :
    ∃ r, frontCandidate 3 0 sel [A, B, A, B] B A N e = .ok r ∧ ∀ x ∈ r, x.1 = 1 ∨ x.1 = 2 := by
  simp only [List.mem_cons, List.not_mem_nil, or_false] at he
  rcases he with rfl | rfl | rfl <;> unfold frontCandidate <;> simp [idx, ok_bind, pure_eq_ok] <;>
    split_ifs <;> simp

theorem seam_find {pick : List (Nat × F) → Option Nat} (hp : PickOk pick) {A B : V2 F} (h : SeamFacts A B)
    {sel : Option Nat} (hs : sel = none ∨ sel = some 1 ∨ sel = some 2) :
    ∃ n, findIntersectionWithFront pick 3 0 sel [(0, 1), (1, 2), (2, 3)] [A, B, A, B] = .ok (some n) ∧ (n = 1 ∨ n = 2) := by
  have core : ∀ N : V2 F, (∃ e ∈ [((0 : Nat), (1 : Nat)), (1, 2), (2, 3)], ∃ x,
      frontCandidate 3 0 sel [A, B, A, B] B A N e = .ok (some x)) →
      ∃ n, (do let nearby ← [((0 : Nat), (1 : Nat)), (1, 2), (2, 3)].mapM (frontCandidate 3 0 sel [A, B, A, B] B A N)
               pure (pick (nearby.filterMap id)) : Res (Option Nat)) = .ok (some n) ∧ (n = 1 ∨ n = 2) := by
    rintro N ⟨e, he, x, hx⟩
    obtain ⟨r0, c0, n0⟩ := seam_node (sel := sel) (A := A) (B := B) (N := N) (e := (0, 1)) (by simp)
    obtain ⟨r1, c1, n1⟩ := seam_node (sel := sel) (A := A) (B := B) (N := N) (e := (1, 2)) (by simp)
    obtain ⟨r2, c2, n2⟩ := seam_node (sel := sel) (A := A) (B := B) (N := N) (e := (2, 3)) (by simp)
    have hm : [((0 : Nat), (1 : Nat)), (1, 2), (2, 3)].mapM (frontCandidate 3 0 sel [A, B, A, B] B A N) = .ok [r0, r1, r2] := by
      simp [List.mapM_cons, c0, c1, c2, ok_bind, pure_eq_ok]
    rw [hm]
    simp only [ok_bind, pure_eq_ok]
    have hall : ∀ x ∈ [r0, r1, r2].filterMap id, x.1 = 1 ∨ x.1 = 2 := by
      intro x hx
      rw [List.mem_filterMap] at hx
      obtain ⟨r, hr, hx⟩ := hx
      simp only [List.mem_cons, List.not_mem_nil, or_false] at hr
      rcases hr with rfl | rfl | rfl
      · exact n0 x hx
      · exact n1 x hx
      · exact n2 x hx
    have hx' : x ∈ [r0, r1, r2].filterMap id := by
      rw [List.mem_filterMap]
      simp only [List.mem_cons, List.not_mem_nil, or_false] at he
      rcases he with rfl | rfl | rfl
      · rw [c0] at hx; cases hx; exact ⟨_, by simp, rfl⟩
      · rw [c1] at hx; cases hx; exact ⟨_, by simp, rfl⟩
      · rw [c2] at hx; cases hx; exact ⟨_, by simp, rfl⟩
    cases hpk : pick ([r0, r1, r2].filterMap id) with
    | none => rw [hp.none _ hpk] at hx'; cases hx'
    | some n =>
      refine ⟨n, rfl, ?_⟩
      obtain ⟨f, hf⟩ := hp.mem _ _ hpk
      exact hall _ hf
  rcases hs with rfl | rfl | rfl
  · obtain ⟨n, e, hn⟩ := core (pointOnNormalBisector B A 1) ⟨(0, 1), by simp, (1, shapeFactor B A B), by
      unfold frontCandidate
      simp [idx, ok_bind, pure_eq_ok, h.apex]⟩
    exact ⟨n, e, hn⟩
  · obtain ⟨n, e, hn⟩ := core B ⟨(2, 3), by simp, (2, 1 + shapeFactor B A A), by
      unfold frontCandidate
      simp [idx, ok_bind, pure_eq_ok, h.corner]⟩
    exact ⟨n, e, hn⟩
  · obtain ⟨n, e, hn⟩ := core A ⟨(0, 1), by simp, (1, shapeFactor B A B), by
      unfold frontCandidate
      simp [idx, ok_bind, pure_eq_ok, h.back]⟩
    exact ⟨n, e, hn⟩

/-- The inner loop goes from node to node for ever. -/
theorem seam_select {pick : List (Nat × F) → Option Nat} (hp : PickOk pick) {A B : V2 F} (h : SeamFacts A B) (fuel : Nat)
    {sel : Option Nat} (hs : sel = none ∨ sel = some 1 ∨ sel = some 2) :
    selectNode pick 3 0 [(0, 1), (1, 2), (2, 3)] [A, B, A, B] fuel sel = .error .fuel := by
  induction fuel generalizing sel with
  | zero => rfl
  | succ fuel ih =>
    obtain ⟨n, e, hn⟩ := seam_find hp h hs
    unfold selectNode
    rw [e]
    exact ih (hn.imp (congrArg some) (congrArg some) |> .inr)

/-- The advancing front never returns on a loop that runs twice between two points. -/
theorem seam_mesh {pick : List (Nat × F) → Option Nat} (hp : PickOk pick) {A B : V2 F} (h : SeamFacts A B)
    (innerFuel fuel : Nat) : generateTriangularMesh pick innerFuel fuel [A, B, A, B] [0, 4] = .error .fuel := by
  unfold generateTriangularMesh
  have : initialFront [0, 4] = .ok [(0, 1), (1, 2), (2, 3), (3, 0)] := rfl
  rw [this]
  simp only [ok_bind]
  cases fuel with
  | zero => rfl
  | succ fuel =>
    have hs : frontStep pick innerFuel ⟨[(0, 1), (1, 2), (2, 3)], [A, B, A, B], []⟩ (3, 0) = .error .fuel := by
      unfold frontStep
      simp only [seam_select hp h innerFuel (.inl rfl)]
      rfl
    unfold frontLoop
    show ((frontStep pick innerFuel ⟨[(0, 1), (1, 2), (2, 3)], [A, B, A, B], []⟩ (3, 0) >>= _ : Res _) >>= _ : Res _) = _
    rw [hs]
    rfl

/-! ### Trimming -/

theorem seam_ccw (A B : V2 F) : ∃ b, isPolygonCcw [A, B, A, B] = .ok b := by
  unfold isPolygonCcw
  simp [usub, forRange, idx, ok_bind, pure_eq_ok, List.range', List.foldlM]

theorem seam_frontTrim {o : TrimOracle F} (hp : PickOk o.pick) {p q : V3 F} {A B : V2 F} (h : SeamFacts A B)
    (h' : SeamFacts B A) (lift liftHoles : V2 F → Res (V3 F)) :
    frontTrim o [p, q, p, q] [A, B, A, B] [0, 4] lift liftHoles = .error .fuel := by
  obtain ⟨b, hb⟩ := seam_ccw A B
  unfold frontTrim
  simp only [List.length_cons, List.length_nil, Nat.zero_add, if_true, hb, ok_bind]
  cases b with
  | true =>
    simp only [if_true]
    rw [seam_mesh hp h]
    rfl
  | false =>
    simp only [Bool.false_eq_true, if_false, List.reverse_cons, List.reverse_nil, List.nil_append, List.cons_append]
    rw [seam_mesh hp h']
    rfl

/-- **C137** Trimming a cylinder to a loop that runs twice from one point to another never returns. -/
theorem C137_cylinder [Trig F] {c : Cylinder F} {o : TrimOracle F} (hp : PickOk o.pick) {bounds : List (EdgeLoop F)}
    {p q : V3 F} (h : collectLoops o bounds = .ok ([p, q, p, q], [0, 4]))
    (hs : ∀ d, SeamFacts (c.projectToRing p d) (c.projectToRing q d) ∧ SeamFacts (c.projectToRing q d) (c.projectToRing p d)) :
    c.trim o bounds = .error .fuel := by
  unfold Cylinder.trim
  rw [h]
  generalize hd : c.ringDistance [p, q, p, q] = d
  simp only [ok_bind, List.map_cons, List.map_nil, hd]
  exact seam_frontTrim hp (hs d).1 (hs d).2 _ _

end

/-! ### Exact arithmetic -/

section
variable {K : Type} [Field K] [LinearOrder K] [IsStrictOrderedRing K] [Env K]

theorem onSegment_start (a b : V2 K) : OnSegment a b a := ⟨0, le_rfl, zero_le_one, by ring, by ring⟩
theorem onSegment_stop (a b : V2 K) : OnSegment a b b := ⟨1, zero_le_one, le_rfl, by ring, by ring⟩

theorem seamFacts_exact (A B : V2 K) : SeamFacts A B := by
  refine ⟨(C34_exact _ _ _ _).2 ⟨B, onSegment_start _ _, onSegment_stop _ _⟩,
    (C34_exact _ _ _ _).2 ⟨B, onSegment_start _ _, onSegment_stop _ _⟩, ?_⟩
  simp [isInsideTriangleTol, V2.perpDot, mul_comm]

theorem mapM_twice {α β : Type} {f : α → Res β} {p q : α} {l : List β} (h : [p, q, p, q].mapM f = .ok l) :
    ∃ A B, l = [A, B, A, B] := by
  simp only [List.mapM_cons, List.mapM_nil] at h
  cases hA : f p with
  | error e => rw [hA] at h; cases h
  | ok A =>
    cases hB : f q with
    | error e => rw [hA, hB] at h; cases h
    | ok B =>
      rw [hA, hB] at h
      cases h
      exact ⟨A, B, rfl⟩

/-- **C137** for B-spline surfaces, in exact arithmetic: no run returns. -/
theorem C137_bspline {s : BSplineSurface K (V3 K)} {o : TrimOracle K} (hp : PickOk o.pick) {bounds : List (EdgeLoop K)}
    {p q : V3 K} (h : collectLoops o bounds = .ok ([p, q, p, q], [0, 4])) (mesh : TriangleMesh K) :
    s.trim o bounds ≠ .ok mesh := by
  intro hm
  unfold BSplineSurface.trim at hm
  rw [h] at hm
  simp only [ok_bind] at hm
  obtain ⟨-, -, hm⟩ := bind_eq_ok.1 hm
  obtain ⟨pts, hpts, hm⟩ := bind_eq_ok.1 hm
  have : ∃ A B : V2 K, pts = [A, B, A, B] := by
    unfold BSplineSurface.projectPoints at hpts
    simp only [bind_eq_ok] at hpts
    obtain ⟨_, _, _, _, _, _, _, _, _, _, _, _, _, _, _, _, _, _, _, _, _, _, _, _, hpts⟩ := hpts
    exact mapM_twice hpts
  obtain ⟨A, B, rfl⟩ := this
  rw [seam_frontTrim hp (seamFacts_exact A B) (seamFacts_exact B A)] at hm
  cases hm

end

/-! ### Binary64 -/

section
open F64

theorem rnd_zero : rnd 0 = 0 := rounds_zero.eq.symm

theorem perp_same_right {a b c : V2 Float} (ha : Bounded2 (2 ^ (254 : Int)) a) (hb : Bounded2 (2 ^ (254 : Int)) b)
    (hc : Bounded2 (2 ^ (254 : Int)) c) : val ((b - a).perpDot (c - c)) = 0 := by
  rw [(perp_scaled (by norm_num) (by norm_num) ha hb hc hc).2.2.2]
  simp [rnd_zero]

theorem perp_same_left {a c d : V2 Float} (ha : Bounded2 (2 ^ (254 : Int)) a) (hc : Bounded2 (2 ^ (254 : Int)) c)
    (hd : Bounded2 (2 ^ (254 : Int)) d) : val ((a - a).perpDot (d - c)) = 0 := by
  rw [(perp_scaled (by norm_num) (by norm_num) ha ha hc hd).2.2.2]
  simp [rnd_zero]

theorem perp_same {a b : V2 Float} (ha : Bounded2 (2 ^ (254 : Int)) a) (hb : Bounded2 (2 ^ (254 : Int)) b) :
    val ((b - a).perpDot (b - a)) = 0 := by
  rw [(perp_scaled (by norm_num) (by norm_num) ha hb ha hb).2.2.2, mul_comm (rnd (val b.y - val a.y)), sub_self, rnd_zero]

theorem segments_touch {A B N : V2 Float} (hA : Bounded2 (2 ^ (254 : Int)) A) (hB : Bounded2 (2 ^ (254 : Int)) B)
    (hN : Bounded2 (2 ^ (254 : Int)) N) : isSegmentsIntersect B N A B = true := by
  have h0 : (0 : Int) ≤ 254 := by norm_num
  have h1 : (254 : Int) ≤ 509 := by norm_num
  have p1 := perp_scaled h0 h1 hB hA hB hB
  have p2 := perp_scaled h0 h1 hN hB hN hA
  have p3 := perp_scaled h0 h1 hB hA hN hA
  have p4 := perp_scaled h0 h1 hN hB hB hB
  rw [isSegmentsIntersect_float hB hN hA hB, (product_sign p1.1 p2.1 p1.2.1 p2.2.1).2.2.2,
    (product_sign p3.1 p4.1 p3.2.1 p4.2.1).2.2.2, perp_same_right hB hA hB, perp_same_right hN hB hB, zero_mul, mul_zero, rnd_zero]
  refine ⟨?_, lt_irrefl _, lt_irrefl _⟩
  unfold BoxesApart
  simp

theorem seamFacts_float {A B : V2 Float} (hA : Bounded2 (2 ^ (254 : Int)) A) (hB : Bounded2 (2 ^ (254 : Int)) B)
    (hN : Bounded2 (2 ^ (254 : Int)) (pointOnNormalBisector B A 1)) : SeamFacts A B := by
  have up : ∀ {p : V2 Float}, Bounded2 (2 ^ (254 : Int)) p → Bounded2 (2 ^ (509 : Int)) p :=
    fun h => h.mono (two_zpow_le (by norm_num))
  refine ⟨segments_touch hA hB hN, segments_touch hA hB hA, ?_⟩
  have ht := tol_pos
  rw [isInsideTriangleTol_float (up hB) (up hA) (up hB) (up hA), perp_same_right hA hB hA, perp_same_left hA hA hB,
    perp_same hA hB]
  exact ⟨by linarith, by linarith, by linarith⟩

/-- **C137** in binary64: the advancing front never returns on a loop that runs twice between two points of moderate size
with a point of moderate size on their bisector. -/
theorem C137_float {pick : List (Nat × Float) → Option Nat} (hp : PickOk pick) {A B : V2 Float}
    (hA : Bounded2 (2 ^ (254 : Int)) A) (hB : Bounded2 (2 ^ (254 : Int)) B)
    (hN : Bounded2 (2 ^ (254 : Int)) (pointOnNormalBisector B A 1)) (innerFuel fuel : Nat) :
    generateTriangularMesh pick innerFuel fuel [A, B, A, B] [0, 4] = .error .fuel :=
  seam_mesh hp (seamFacts_float hA hB hN) innerFuel fuel

/-- Non-vacuity of `C137_float`. -/
example {pick : List (Nat × Float) → Option Nat} (hp : PickOk pick) (innerFuel fuel : Nat) :
    generateTriangularMesh pick innerFuel fuel [F64.natPt 4 0, F64.natPt 0 0, F64.natPt 4 0, F64.natPt 0 0] [0, 4] =
      .error .fuel := by
  have apex : pointOnNormalBisector (F64.natPt 0 0) (F64.natPt 4 0) 1 = F64.natPt 2 4 := by decide +kernel
  refine C137_float hp (F64.natPt_bounded (by norm_num) (by norm_num) (by norm_num))
    (F64.natPt_bounded (by norm_num) (by norm_num) (by norm_num)) ?_ innerFuel fuel
  rw [apex]
  exact F64.natPt_bounded (by norm_num) (by norm_num) (by norm_num)

end

/-! ### Files -/

/-- Oriented edge `r` is a full circle with a unit axis from `p` to `p`. -/
def Spec.SaysFullCircle (file : StepFile ℝ) (r : Ref) (p : V3 ℝ) : Prop :=
  ∃ g flag c sense o a x rad, file.orientedEdge r = some ⟨g, flag⟩ ∧ SaysEdge file g p p c sense ∧
    SaysCircle file c o a x rad ∧ a.dot a = 1 ∧ x ≠ 0 ∧ a.dot x = 0 ∧ 0 < rad ∧ OnCircle (fileCircle o a x rad) p

/-- Oriented edge `r` is a straight edge between `p` and `q`, `p` being the start of its edge curve: `flag` says whether it
is used from `p` to `q`. -/
def Spec.SaysSeam (file : StepFile ℝ) (r : Ref) (p q : V3 ℝ) (flag : Bool) : Prop :=
  ∃ (g c : Ref) (sense : Bool) (o d : V3 ℝ) (a b : ℝ), file.orientedEdge r = some ⟨g, flag⟩ ∧
    SaysEdge file g p q c sense ∧ SaysLine file c o d ∧
    d.dot d = 1 ∧ p = o + a • d ∧ q = o + b • d

/-- Face bound `r` goes around a full circle at `p`, along a seam to `q`, around a full circle at `q` and back along the
seam, starting with any of these edges. -/
def Spec.SaysTube (file : StepFile ℝ) (r : Ref) (p q : V3 ℝ) : Prop :=
  ∃ b flag e1 e2 e3 e4, file.faceBound r = some ⟨b, flag⟩ ∧ SaysFullCircle file e1 p ∧ SaysSeam file e2 p q true ∧
    SaysFullCircle file e3 q ∧ SaysSeam file e4 p q false ∧
    (file.edgeLoop b = some [e1, e2, e3, e4] ∨ file.edgeLoop b = some [e2, e3, e4, e1] ∨
      file.edgeLoop b = some [e3, e4, e1, e2] ∨ file.edgeLoop b = some [e4, e1, e2, e3])

theorem line_points (l : Line ℝ) (a b : ℝ) {fuel : Nat} (hf : 0 < fuel) (rnd : List Bool → ℝ) (n : Nat) :
    (CurveSegment.mk (DynCurve.line l).obj (a, b) Env.hundredth n).getPoints fuel rnd
      = .ok [l.getPoint a, l.getPoint b] := by
  obtain ⟨fuel, rfl⟩ : ∃ k, fuel = k + 1 := ⟨fuel - 1, by omega⟩
  have hp : ∀ u, (DynCurve.line l).obj.getPoint u = .ok (l.getPoint u) := fun u => rfl
  unfold CurveSegment.getPoints parameterDivision
  simp only [hp, ok_bind]
  have e : l.getPoint (rangeAt (a, b) (drawRatio (rnd [])))
      = l.getPoint a + (l.getPoint b - l.getPoint a) * drawRatio (rnd []) := by
    ext <;> simp [Line.getPoint, rangeAt] <;> ring
  rw [e, V3.distance_self, if_pos (by norm_num [Env.hundredth])]
  simp [pure_eq_ok, ok_bind, List.mapM_cons, List.mapM_nil, hp]

theorem fullCircle_segment {file : StepFile ℝ} {r : Ref} {p : V3 ℝ} (h : SaysFullCircle file r p) :
    ∃ seg, SaysOriented file r seg ∧ ∀ fuel, 0 < fuel → ∀ rnd, seg.getPoints fuel rnd = .ok [p, p] := by
  obtain ⟨g, flag, c, sense, o, a, x, rad, h1, h2, h3, ha, hx, hax, hR, hs⟩ := h
  have ha0 : a ≠ 0 := by
    rintro rfl
    simp [V3.dot] at ha
  have hp := (circle_end_iff (c := fileCircle o a x rad) ha0 (normalize_unit hx) (dot_normalize hax) hR hs).2 (.inl ha)
  refine ⟨_, ⟨g, flag, p, p, c, sense, _, _, _, h1, h2, .circle h3, rfl, rfl, rfl⟩, fun fuel hf rnd => ?_⟩
  refine rests_points (t := (fileCircle o a x rad).project p) (v := p) (rests_real (congrArg Except.ok hp) _) ?_ rfl hf
  exact C67_closed_edge_unchanged _ (lt_irrefl _) sense

theorem seam_segment {file : StepFile ℝ} {r : Ref} {p q : V3 ℝ} {flag : Bool} (h : SaysSeam file r p q flag) :
    ∃ seg, SaysOriented file r seg ∧ ∀ fuel, 0 < fuel → ∀ rnd, seg.getPoints fuel rnd = .ok [p, q] := by
  obtain ⟨g, c, sense, o, d, a, b, h1, h2, h3, hd, hp, hq⟩ := h
  refine ⟨_, ⟨g, flag, p, q, c, sense, _, _, _, h1, h2, .line h3, rfl, rfl, rfl⟩, fun fuel hf rnd => ?_⟩
  refine (line_points ⟨o, d⟩ _ _ hf rnd 16).trans ?_
  rw [(line_end_iff hp).2 (.inl hd), (line_end_iff hq).2 (.inl hd)]

theorem tube_polygon {p q : V3 ℝ} (hpq : Env.tol < (p.distanceSq q : ℝ)) :
    closePolygon [p, p, p, q, q, q, p, q] = .ok [p, q, p, q] ∧ closePolygon [p, q, q, q, p, q, p, p] = .ok [p, q, p, q] ∧
    closePolygon [q, q, p, q, p, p, p, q] = .ok [q, p, q, p] ∧ closePolygon [p, q, p, p, p, q, q, q] = .ok [p, q, p, q] := by
  have h0 : ∀ v : V3 ℝ, near (v.distanceSq v) 0 = true := fun v => (rests_real (getPoint := fun _ => .ok v) (u := 0) rfl 0).same
  have h1 : near (p.distanceSq q) 0 = false := by
    rw [← Bool.not_eq_true, near_zero]
    exact fun h => absurd ((le_abs_self _).trans h) (not_le.2 hpq)
  have h2 : near (q.distanceSq p) 0 = false := by
    rw [← h1]
    congr 1
    simp only [V3.distanceSq, V3.lengthSq, V3.dot, V3.sub_x, V3.sub_y, V3.sub_z]
    ring
  unfold closePolygon
  refine ⟨?_, ?_, ?_, ?_⟩ <;> simp [dedupBy, dedupAux, h0, h1, h2, idx, usub, ok_bind, pure_eq_ok]

/-- **C137** The side of a cylinder written the usual way, with a seam used in both directions: the file is read, but
meshing the face never returns, whatever the random numbers and the order of equal candidates. -/
theorem C137_tube {file : StepFile ℝ} {face : StepAdvancedFace} {r : Ref} {p q : V3 ℝ} (hb : face.bounds = [r])
    (ht : SaysTube file r p q) (hpq : Env.tol < (p.distanceSq q : ℝ)) {pos : Ref} {o z x : V3 ℝ} {rad : ℝ}
    (h0 : file.plane face.faceGeometry = none) (hc : file.cylindricalSurface face.faceGeometry = some (pos, rad))
    (hpos : SaysPlacement file pos o z x) :
    ∃ t, file.readFace face = .ok (some t) ∧
      ∀ o : TrimOracle ℝ, PickOk o.pick → 0 < o.divFuel → t.getTriangleMesh o = .error .fuel := by
  obtain ⟨b, flag, e1, e2, e3, e4, k1, c1, c2, c3, c4, k2⟩ := ht
  obtain ⟨s1, o1, g1⟩ := fullCircle_segment c1
  obtain ⟨s2, o2, g2⟩ := seam_segment c2
  obtain ⟨s3, o3, g3⟩ := fullCircle_segment c3
  obtain ⟨s4, o4, g4⟩ := seam_segment c4
  obtain ⟨t1, t2, t3, t4⟩ := tube_polygon hpq
  suffices ∃ loop, SaysBound file r loop ∧ ∀ o : TrimOracle ℝ, 0 < o.divFuel →
      (loop.toPolygon o.divFuel (o.rnd 0) = .ok [p, q, p, q] ∨ loop.toPolygon o.divFuel (o.rnd 0) = .ok [q, p, q, p]) by
    obtain ⟨loop, hbound, hpoly⟩ := this
    have hS : SaysFace file face ⟨_, [loop]⟩ :=
      ⟨.cylinder (show NotEarlier file _ 1 from h0) hc hpos, by rw [hb]; exact .cons hbound .nil⟩
    refine ⟨_, C103_face hS, fun o hp hf => ?_⟩
    rcases hpoly o hf with hpoly | hpoly
    · refine C137_cylinder (p := p) (q := q) hp ?_ fun d => ⟨seamFacts_exact _ _, seamFacts_exact _ _⟩
      unfold collectLoops
      simp only [List.zipIdx_cons, List.zipIdx_nil, List.foldlM_cons, List.foldlM_nil, hpoly, ok_bind, pure_eq_ok]
      rfl
    · refine C137_cylinder (p := q) (q := p) hp ?_ fun d => ⟨seamFacts_exact _ _, seamFacts_exact _ _⟩
      unfold collectLoops
      simp only [List.zipIdx_cons, List.zipIdx_nil, List.foldlM_cons, List.foldlM_nil, hpoly, ok_bind, pure_eq_ok]
      rfl
  have points : ∀ {a1 a2 a3 a4 : CurveSegment ℝ} {l1 l2 l3 l4 : List (V3 ℝ)},
      (∀ fuel, 0 < fuel → ∀ rnd, a1.getPoints fuel rnd = .ok l1) → (∀ fuel, 0 < fuel → ∀ rnd, a2.getPoints fuel rnd = .ok l2) →
      (∀ fuel, 0 < fuel → ∀ rnd, a3.getPoints fuel rnd = .ok l3) → (∀ fuel, 0 < fuel → ∀ rnd, a4.getPoints fuel rnd = .ok l4) →
      ∀ o : TrimOracle ℝ, 0 < o.divFuel →
        (EdgeLoop.mk [a1, a2, a3, a4]).toPolygon o.divFuel (o.rnd 0) = closePolygon (l1 ++ (l2 ++ (l3 ++ (l4 ++ [])))) := by
    intro a1 a2 a3 a4 l1 l2 l3 l4 g1 g2 g3 g4 o hf
    unfold EdgeLoop.toPolygon
    simp only [List.zipIdx_cons, List.zipIdx_nil, List.mapM_cons, List.mapM_nil, g1 _ hf, g2 _ hf, g3 _ hf, g4 _ hf, ok_bind,
      pure_eq_ok]
    rfl
  rcases k2 with k2 | k2 | k2 | k2
  · exact ⟨_, ⟨b, flag, _, k1, k2, .cons o1 (.cons o2 (.cons o3 (.cons o4 .nil)))⟩,
      fun o hf => .inl ((points g1 g2 g3 g4 o hf).trans t1)⟩
  · exact ⟨_, ⟨b, flag, _, k1, k2, .cons o2 (.cons o3 (.cons o4 (.cons o1 .nil)))⟩,
      fun o hf => .inl ((points g2 g3 g4 g1 o hf).trans t2)⟩
  · exact ⟨_, ⟨b, flag, _, k1, k2, .cons o3 (.cons o4 (.cons o1 (.cons o2 .nil)))⟩,
      fun o hf => .inr ((points g3 g4 g1 g2 o hf).trans t3)⟩
  · exact ⟨_, ⟨b, flag, _, k1, k2, .cons o4 (.cons o1 (.cons o2 (.cons o3 .nil)))⟩,
      fun o hf => .inl ((points g4 g1 g2 g3 o hf).trans t4)⟩

/-! ### A sample file: the side of a cylinder -/

/-- The side of the cylinder of radius 1 between `z = 0` and `z = 1`, with its seam at `(1, 0, z)`. -/
def tubeFile : StepFile ℝ :=
  { (emptyFile : StepFile ℝ) with
    cartesianPoint := fun r => if r = 1 then some [0, 0, 0] else if r = 2 then some [1, 0, 0] else
      if r = 21 then some [0, 0, 1] else if r = 22 then some [1, 0, 1] else none
    direction := fun r => if r = 3 then some [0, 0, 1] else if r = 4 then some [1, 0, 0] else none
    axis2Placement3d := fun r => if r = 5 then some (1, some 3, some 4) else if r = 25 then some (21, some 3, some 4) else none
    circle := fun r => if r = 6 then some (5, 1) else if r = 26 then some (25, 1) else none
    vectorOrientation := fun r => if r = 31 then some 3 else none
    line := fun r => if r = 32 then some (2, 31) else none
    vertexGeometry := fun r => if r = 7 then some 2 else if r = 27 then some 22 else none
    edgeCurve := fun r => if r = 8 then some ⟨7, 7, 6, true⟩ else if r = 28 then some ⟨27, 27, 26, true⟩ else
      if r = 33 then some ⟨7, 27, 32, true⟩ else none
    orientedEdge := fun r => if r = 9 then some ⟨8, true⟩ else if r = 29 then some ⟨28, false⟩ else
      if r = 34 then some ⟨33, true⟩ else if r = 35 then some ⟨33, false⟩ else none
    edgeLoop := fun r => if r = 10 then some [9, 34, 29, 35] else none
    faceBound := fun r => if r = 11 then some ⟨10, true⟩ else none
    cylindricalSurface := fun r => if r = 12 then some (5, 1) else none
    advancedFaces := [⟨[11], 12, true⟩] }

theorem tube_normalize : (⟨1, 0, 0⟩ : V3 ℝ).normalize = ⟨1, 0, 0⟩ := by
  have : (⟨1, 0, 0⟩ : V3 ℝ).length = 1 := by simp [V3.length, V3.dot, Env.sqrt]
  unfold V3.normalize
  rw [this]
  ext <;> simp

theorem tube_says : SaysTube tubeFile 11 ⟨1, 0, 0⟩ ⟨1, 0, 1⟩ := by
  have hx : (⟨1, 0, 0⟩ : V3 ℝ) ≠ 0 := fun h => one_ne_zero (congrArg V3.x h)
  refine ⟨10, true, 9, 34, 29, 35, rfl, ?_, ?_, ?_, ?_, .inl rfl⟩
  · refine ⟨8, true, 6, true, ⟨0, 0, 0⟩, ⟨0, 0, 1⟩, ⟨1, 0, 0⟩, 1, rfl, ⟨7, 7, rfl, ⟨2, rfl, rfl⟩, ⟨2, rfl, rfl⟩⟩,
      ⟨rfl, 5, rfl, 1, 3, 4, rfl, rfl, rfl, rfl⟩, ?_, hx, ?_, one_pos, ?_⟩
    · norm_num [V3.dot]
    · norm_num [V3.dot]
    · refine ⟨by norm_num [V3.dot, fileCircle], ?_⟩
      norm_num [fileCircle, Spec.dist3]
  · exact ⟨33, 32, true, ⟨1, 0, 0⟩, ⟨0, 0, 1⟩, 0, 1, rfl, ⟨7, 27, rfl, ⟨2, rfl, rfl⟩, ⟨22, rfl, rfl⟩⟩,
      ⟨2, 31, 3, rfl, rfl, rfl, rfl⟩, by norm_num [V3.dot], by ext <;> simp, by ext <;> simp⟩
  · refine ⟨28, false, 26, true, ⟨0, 0, 1⟩, ⟨0, 0, 1⟩, ⟨1, 0, 0⟩, 1, rfl, ⟨27, 27, rfl, ⟨22, rfl, rfl⟩, ⟨22, rfl, rfl⟩⟩,
      ⟨rfl, 25, rfl, 21, 3, 4, rfl, rfl, rfl, rfl⟩, ?_, hx, ?_, one_pos, ?_⟩
    · norm_num [V3.dot]
    · norm_num [V3.dot]
    · refine ⟨by norm_num [V3.dot, fileCircle], ?_⟩
      norm_num [fileCircle, Spec.dist3]
  · exact ⟨33, 32, true, ⟨1, 0, 0⟩, ⟨0, 0, 1⟩, 0, 1, rfl, ⟨7, 27, rfl, ⟨2, rfl, rfl⟩, ⟨22, rfl, rfl⟩⟩,
      ⟨2, 31, 3, rfl, rfl, rfl, rfl⟩, by norm_num [V3.dot], by ext <;> simp, by ext <;> simp⟩

/-- The file is read, and its face cannot be meshed. -/
theorem C137_example : ∃ t, tubeFile.readFace ⟨[11], 12, true⟩ = .ok (some t) ∧
    ∀ o : TrimOracle ℝ, PickOk o.pick → 0 < o.divFuel → t.getTriangleMesh o = .error .fuel :=
  C137_tube rfl tube_says (by norm_num [V3.distanceSq, V3.lengthSq, V3.dot, Env.tol]) rfl rfl
    ⟨1, 3, 4, rfl, rfl, rfl, rfl⟩ (o := ⟨0, 0, 0⟩) (z := ⟨0, 0, 1⟩) (x := ⟨1, 0, 0⟩) (rad := 1)

end Geom3d
