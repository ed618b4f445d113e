import Verif.Props.ClosedEdges
import Verif.Props.ConvexFaces
import Verif.Props.Covering
import Verif.Props.CurvedFaces

/-!
# Small curved faces and holes vanish (C148)

An edge is divided only if the point drawn in its middle fifth is off the chord by the tolerance of the edge, which is an
absolute length (0.01 for every edge of a STEP file).  An edge smaller than that is replaced by its chord.  A loop of two
such edges becomes a polygon on two points: a face bounded by it is empty, and a hole bounded by it is filled.
-/

namespace Geom3d
open Spec ConvexFaces

set_option linter.unusedSectionVars false

/-! ### Spec -/

/-- The edge runs from `a` to `b`, and its middle fifth is off the chord by less than the tolerance. -/
def Spec.Slack (s : CurveSegment ℝ) (a b : V3 ℝ) : Prop :=
  s.curve.getPoint s.parameterRange.1 = .ok a ∧ s.curve.getPoint s.parameterRange.2 = .ok b ∧
    ∀ p, 2 / 5 ≤ p → p < 3 / 5 → ∃ q, s.curve.getPoint ((1 - p) * s.parameterRange.1 + p * s.parameterRange.2) = .ok q ∧
      Real.sqrt ((q - ((1 - p) • a + p • b)).dot (q - ((1 - p) • a + p • b))) < s.tolerance

/-- The edge runs from `a` to `b`, and no two of its points are as far apart as the tolerance. -/
def Spec.Small (s : CurveSegment ℝ) (a b : V3 ℝ) : Prop :=
  s.curve.getPoint s.parameterRange.1 = .ok a ∧ s.curve.getPoint s.parameterRange.2 = .ok b ∧
    ∀ p, 0 ≤ p → p ≤ 1 → ∃ q, s.curve.getPoint ((1 - p) * s.parameterRange.1 + p * s.parameterRange.2) = .ok q ∧
      Real.sqrt ((q - a).dot (q - a)) < s.tolerance ∧ Real.sqrt ((q - b).dot (q - b)) < s.tolerance

/-! ### Edges -/

theorem drawRatio_fifth {r : ℝ} (h0 : 0 ≤ r) (h1 : r < 1) : 2 / 5 ≤ drawRatio r ∧ drawRatio r < 3 / 5 := by
  unfold drawRatio
  push_cast
  constructor <;> linarith

/-- **C148** Such an edge is sampled at its ends only, whatever random number is drawn. -/
theorem C148_chord {s : CurveSegment ℝ} {a b : V3 ℝ} (h : Slack s a b) {fuel : Nat} (hf : 0 < fuel) {rnd : List Bool → ℝ}
    (hr : 0 ≤ rnd [] ∧ rnd [] < 1) : s.getPoints fuel rnd = .ok [a, b] := by
  obtain ⟨fuel, rfl⟩ : ∃ k, fuel = k + 1 := ⟨fuel - 1, by omega⟩
  obtain ⟨ha, hb, h⟩ := h
  obtain ⟨d0, d1⟩ := drawRatio_fifth hr.1 hr.2
  obtain ⟨q, hq, hd⟩ := h _ d0 d1
  generalize hp : drawRatio (rnd []) = p at *
  unfold CurveSegment.getPoints parameterDivision
  have e1 : rangeAt s.parameterRange p = (1 - p) * s.parameterRange.1 + p * s.parameterRange.2 := by
    unfold rangeAt; ring
  have e2 : a + (b - a) * p = (1 - p) • a + p • b := by
    rw [V3.rmul_eq]
    ext <;> simp <;> ring
  simp only [hp, e1, ha, hb, hq, ok_bind, e2]
  rw [if_pos (show V3.distance q ((1 - p) • a + p • b) < s.tolerance from hd)]
  simp [pure_eq_ok, ok_bind, ha, hb, List.mapM_cons, List.mapM_nil]

/-- **C148** Edges smaller than the tolerance are of this kind. -/
theorem C148_small {s : CurveSegment ℝ} {a b : V3 ℝ} (h : Small s a b) : Slack s a b := by
  obtain ⟨ha, hb, h⟩ := h
  refine ⟨ha, hb, fun p p0 p1 => ?_⟩
  obtain ⟨q, hq, h1, h2⟩ := h p (by linarith) (by linarith)
  refine ⟨q, hq, ?_⟩
  have e : q - ((1 - p) • a + p • b) = (1 - p) • (q - a) + p • (q - b) := by
    ext <;> simp <;> ring
  have t := V3.length_add_le ((1 - p) • (q - a)) (p • (q - b))
  rw [V3.length_smul, V3.length_smul, abs_of_nonneg (by linarith : 0 ≤ 1 - p), abs_of_nonneg (by linarith : 0 ≤ p)] at t
  rw [e]
  have h1' : (q - a).length < s.tolerance := h1
  have h2' : (q - b).length < s.tolerance := h2
  refine lt_of_le_of_lt t ?_
  nlinarith

/-- **C148** Every piece of a circle smaller than the tolerance, both ends included. -/
theorem C148_circle {c : Circle ℝ} (hc : Framed c) (h0 : 0 ≤ c.radius) {tol : ℝ} (hr : 2 * c.radius < tol) (u v : ℝ) (n : Nat) :
    Small ⟨c.obj, (u, v), tol, n⟩ (c.getPoint u) (c.getPoint v) := by
  refine ⟨rfl, rfl, fun p _ _ => ⟨_, rfl, ?_⟩⟩
  have key : ∀ w, (c.getPoint ((1 - p) * u + p * v) - c.getPoint w).length < tol := by
    intro w
    have r : ∀ w, (c.getPoint w - c.center).length = c.radius := by
      intro w
      have := (C21_on_circle hc h0 w).2
      rw [dist3_eq] at this
      exact this
    have e : c.getPoint ((1 - p) * u + p * v) - c.getPoint w
        = (c.getPoint ((1 - p) * u + p * v) - c.center) + -(c.getPoint w - c.center) := by abel
    rw [e]
    refine (V3.length_add_le _ _).trans_lt ?_
    rw [V3.length_neg, r, r]
    linarith
  exact ⟨key u, key v⟩

/-! ### Loops on two points -/

theorem mapM_ends : ∀ (es : List (CurveSegment ℝ)) (ends : List (V3 ℝ × V3 ℝ)) (k : Nat) {fuel : Nat} {rnd : Nat → List Bool → ℝ},
    0 < fuel → (∀ i path, 0 ≤ rnd i path ∧ rnd i path < 1) → List.Forall₂ (fun s e => Slack s e.1 e.2) es ends →
    (es.zipIdx k).mapM (fun (edge, i) => edge.getPoints fuel (rnd i)) = .ok (ends.map fun e => [e.1, e.2])
  | [], _, k, _, _, _, _, h => by cases h; rfl
  | s :: es, _, k, fuel, rnd, hf, hr, h => by
    rcases h with _ | ⟨h1, h2⟩
    have ih := mapM_ends es _ (k + 1) hf hr h2
    simp only [List.zipIdx_cons, List.mapM_cons, C148_chord h1 hf (hr k []), ok_bind, ih, List.map_cons]
    rfl

/-- **C148** A loop of such edges is the polygon of their ends. -/
theorem C148_loop {l : EdgeLoop ℝ} {ends : List (V3 ℝ × V3 ℝ)} (h : List.Forall₂ (fun s e => Slack s e.1 e.2) l.edges ends)
    {fuel : Nat} (hf : 0 < fuel) {rnd : Nat → List Bool → ℝ} (hr : ∀ i path, 0 ≤ rnd i path ∧ rnd i path < 1) :
    l.toPolygon fuel rnd = closePolygon (ends.flatMap fun e => [e.1, e.2]) := by
  unfold EdgeLoop.toPolygon
  rw [mapM_ends _ _ 0 hf hr h, ok_bind, List.flatMap_def]

theorem closePolygon_subset {vs P : List (V3 ℝ)} (h : closePolygon vs = .ok P) : ∀ v ∈ P, v ∈ vs := by
  unfold closePolygon at h
  rw [bind_eq_ok] at h
  obtain ⟨f, -, h⟩ := h
  rw [bind_eq_ok] at h
  obtain ⟨k, -, h⟩ := h
  rw [bind_eq_ok] at h
  obtain ⟨l, -, h⟩ := h
  have hs := (dedupBy_thinned (fun a b : V3 ℝ => near (a.distanceSq b) 0) vs).1
  cases h
  split
  · exact fun v hv => hs.subset (List.mem_of_mem_dropLast hv)
  · exact fun v hv => hs.subset hv

/-! ### Faces without a convex corner -/

section
variable {K : Type} [Field K] [LinearOrder K] [IsStrictOrderedRing K] [Env K]

theorem collectLoops_one {o : TrimOracle K} {l : EdgeLoop K} {P : List (V3 K)} (h : l.toPolygon o.divFuel (o.rnd 0) = .ok P) :
    collectLoops o [l] = .ok (P, if P = [] then [0] else [0, P.length]) := by
  unfold collectLoops
  simp only [List.zipIdx_cons, List.zipIdx_nil, List.foldlM_cons, List.foldlM_nil, h, ok_bind, List.nil_append, Nat.zero_add]
  by_cases hP : P = []
  · subst hP; rfl
  · have : 0 < P.length := List.length_pos_iff.2 hP
    simp only [this, if_true, if_neg hP]
    rfl

/-- **C148** A planar face with one loop has no mesh at all if and only if no corner of the sampled loop turns left by more
than the tolerance. -/
theorem C148_empty_iff (htol : (0 : K) ≤ Env.tol) {p : Plane K} {o : TrimOracle K} {l : EdgeLoop K} {P : List (V3 K)}
    (h : l.toPolygon o.divFuel (o.rnd 0) = .ok P) :
    p.trim o [l] = .ok TriangleMesh.new ↔ ∀ i < P.length, turn (P.map p.project) i ≤ Env.tol := by
  have hc := collectLoops_one h
  by_cases hP : P = []
  · subst hP
    refine iff_of_true ?_ (by simp)
    unfold Plane.trim
    rw [hc]
    rfl
  · rw [if_neg hP] at hc
    have hv := C37_compute htol (P.map p.project)
    rw [List.length_map] at hv
    have hlen : ((List.range P.length).filter fun i => decide (Env.tol < |turn (P.map p.project) i|)).length
        = ((List.range P.length).filter fun i => decide (turn (P.map p.project) i < -Env.tol)).length
        ↔ ∀ i < P.length, turn (P.map p.project) i ≤ Env.tol := by
      have hs : List.Sublist ((List.range P.length).filter fun i => decide (turn (P.map p.project) i < -Env.tol))
          ((List.range P.length).filter fun i => decide (Env.tol < |turn (P.map p.project) i|)) := by
        apply List.monotone_filter_right
        intro i hi
        rw [decide_eq_true_iff] at hi ⊢
        exact lt_abs.2 (.inr (by linarith))
      constructor
      · intro e i hi
        have e' := hs.eq_of_length e.symm
        by_contra hlt
        rw [not_le] at hlt
        have hm : i ∈ (List.range P.length).filter fun i => decide (Env.tol < |turn (P.map p.project) i|) :=
          List.mem_filter.2 ⟨List.mem_range.2 hi, decide_eq_true (lt_abs.2 (.inl hlt))⟩
        rw [← e'] at hm
        have := of_decide_eq_true (List.mem_filter.1 hm).2
        linarith
      · intro hle
        congr 1
        apply List.filter_congr
        intro i hi
        have := hle i (List.mem_range.1 hi)
        rw [decide_eq_decide]
        constructor
        · intro h1
          rcases lt_abs.1 h1 with h2 | h2 <;> linarith
        · intro h1
          exact lt_abs.2 (.inr (by linarith))
    rw [← hlen]
    constructor
    · intro ht
      rcases trim_cases hc hv ht with ⟨h1, -⟩ | ⟨-, -, T, -, h1⟩ | ⟨-, -, T, -, h1⟩
      · exact h1
      · simp [TriangleMesh.new] at h1
      · simp [TriangleMesh.new] at h1
        exact absurd h1.1 hP
    · intro e
      unfold Plane.trim
      rw [hc, ok_bind]
      simp only [List.length_cons, List.length_nil, Nat.zero_add, if_true]
      rw [hv, ok_bind]
      simp only [e, if_true]
      rfl

/-- **C148** Loops whose sampled vertices are on a line. -/
theorem C148_collinear (htol : (0 : K) ≤ Env.tol) {p : Plane K} {o : TrimOracle K} {l : EdgeLoop K} {P : List (V3 K)}
    (h : l.toPolygon o.divFuel (o.rnd 0) = .ok P)
    (hl : ∀ a ∈ P, ∀ b ∈ P, ∀ c ∈ P, triArea2 (p.project a) (p.project b) (p.project c) = 0) :
    p.trim o [l] = .ok TriangleMesh.new := by
  rw [C148_empty_iff htol h]
  intro i hi
  have hpos : 0 < P.length := by omega
  have hm : ∀ j, j < P.length → ∃ a ∈ P, (P.map p.project).getD j 0 = p.project a := fun j hj =>
    ⟨P[j], List.getElem_mem hj, by rw [getD_of_lt _ (by simpa using hj), List.getElem_map]⟩
  obtain ⟨a, ha, ea⟩ := hm ((P.length + i - 1) % P.length) (Nat.mod_lt _ hpos)
  obtain ⟨b, hb, eb⟩ := hm i hi
  obtain ⟨c, hc, ec⟩ := hm ((i + 1) % P.length) (Nat.mod_lt _ hpos)
  have : turn (P.map p.project) i = 0 := by
    have e := hl a ha b hb c hc
    unfold turn
    simp only [List.length_map, Nat.add_comm i P.length]
    rw [ea, eb, ec]
    unfold triArea2 at e
    linear_combination e
  rw [this]
  exact htol

/-- A closed walk between two points winds around no point. -/
theorem winding_two {a b : V2 K} {vs : List (V2 K)} (h : ∀ v ∈ vs, v = a ∨ v = b) (x : V2 K) : winding vs x = 0 := by
  classical
  have hsk := crossing_skew x
  -- on two points the crossing number is the difference of a potential
  obtain ⟨φ, hφ⟩ : ∃ φ : V2 K → ℤ, ∀ u v, (u = a ∨ u = b) → (v = a ∨ v = b) → crossing x u v = φ v - φ u := by
    refine ⟨fun v => if v = a then 0 else crossing x a b, ?_⟩
    by_cases hab : b = a
    · subst hab
      rintro u v (rfl | rfl) (rfl | rfl) <;> simp [hsk.self]
    · rintro u v (rfl | rfl) (rfl | rfl) <;> simp [hab, hsk.self]
      exact hsk.anti _ _
  have path : ∀ (l : List (V2 K)) (u : V2 K), (∀ v ∈ u :: l, v = a ∨ v = b) →
      ((pathEdges (u :: l)).map fun e => crossing x e.1 e.2).sum = φ ((u :: l).getLast (by simp)) - φ u := by
    intro l
    induction l with
    | nil => intro u _; simp [pathEdges]
    | cons w l ih =>
      intro u hu
      have e : pathEdges (u :: w :: l) = (u, w) :: pathEdges (w :: l) := rfl
      rw [e, List.map_cons, List.sum_cons, ih w (fun v hv => hu v (List.mem_cons_of_mem _ hv)),
        hφ u w (hu u (by simp)) (hu w (by simp)), List.getLast_cons_cons]
      ring
  unfold winding
  cases vs with
  | nil => rfl
  | cons u t =>
    show ((pathEdges (u :: (t ++ [u]))).map fun e => crossing x e.1 e.2).sum = 0
    rw [path (t ++ [u]) u (by
      intro v hv
      apply h
      simp only [List.mem_cons, List.mem_append, List.not_mem_nil, or_false] at hv ⊢
      tauto)]
    simp

/-- **C148** A loop on two points does not count when the loops of a face are merged: the polygon that is triangulated
winds around each point as often as the other loops do.  A hole is filled. -/
theorem C148_hole {points : List (V2 K)} {polygons : List Nat} (hok : LoopsOk points polygons) (h2 : 2 ≤ polygons.length)
    {before after : List (Nat × Nat)} {hole : Nat × Nat} (hp : pairs polygons = before ++ hole :: after) {a b : V2 K}
    (h : ∀ v ∈ loopPoints points (loopRange hole), v = a ∨ v = b) :
    ∃ V, mergePolygons points polygons = .ok V ∧ ∀ x, winding (loopPoints points V) x
      = ((before ++ after).map fun p => winding (loopPoints points (loopRange p)) x).sum := by
  obtain ⟨V, h1, h3⟩ := C123_merge hok h2
  refine ⟨V, h1, fun x => ?_⟩
  rw [h3, hp, List.map_append, List.map_cons, List.sum_append, List.sum_cons, winding_two h, zero_add, List.map_append,
    List.sum_append]

end

/-- Non-vacuity: a quadrilateral with a hole on two points is meshed as if it had one vertex more, and all its area is
covered. -/
theorem C148_hole_example :
    LoopsOk ([⟨0, 0⟩, ⟨10, 1⟩, ⟨9, 10⟩, ⟨1, 9⟩, ⟨4, 7⟩, ⟨6, 4⟩] : List (V2 ℚ)) [0, 4, 6] ∧
    pairs [0, 4, 6] = [(0, 4)] ++ (4, 6) :: [] ∧
    xyPlane.trim oracle ([[⟨0, 0, 0⟩, ⟨10, 1, 0⟩, ⟨9, 10, 0⟩, ⟨1, 9, 0⟩], [⟨4, 7, 0⟩, ⟨6, 4, 0⟩]].map edgeLoop)
      = .ok ⟨[⟨0, 0, 0⟩, ⟨10, 1, 0⟩, ⟨9, 10, 0⟩, ⟨1, 9, 0⟩, ⟨4, 7, 0⟩, ⟨6, 4, 0⟩], [], [3, 0, 5, 5, 0, 1, 1, 2, 3, 5, 1, 3]⟩ ∧
    trianglesArea2 ([⟨0, 0⟩, ⟨10, 1⟩, ⟨9, 10⟩, ⟨1, 9⟩, ⟨4, 7⟩, ⟨6, 4⟩] : List (V2 ℚ)) [3, 0, 5, 5, 0, 1, 1, 2, 3, 5, 1, 3]
      = area2 ([⟨0, 0⟩, ⟨10, 1⟩, ⟨9, 10⟩, ⟨1, 9⟩] : List (V2 ℚ)) := by
  refine ⟨?_, by decide, by decide +kernel, by decide +kernel⟩
  intro p hp
  have : p = (0, 4) ∨ p = (4, 6) := by simpa [pairs] using hp
  rcases this with rfl | rfl
  · exact ⟨by decide, 0, by decide, by decide, by decide, by decide +kernel⟩
  · exact ⟨by decide, 4, by decide, by decide, by decide, by decide +kernel⟩

/-! ### Faces and holes with two edges -/

theorem ends_two {l : EdgeLoop ℝ} {ends : List (V3 ℝ × V3 ℝ)} (h : List.Forall₂ (fun s e => Slack s e.1 e.2) l.edges ends)
    {a b : V3 ℝ} (he : ∀ e ∈ ends, (e.1 = a ∨ e.1 = b) ∧ (e.2 = a ∨ e.2 = b)) {fuel : Nat} (hf : 0 < fuel)
    {rnd : Nat → List Bool → ℝ} (hr : ∀ i path, 0 ≤ rnd i path ∧ rnd i path < 1) {P : List (V3 ℝ)}
    (hP : l.toPolygon fuel rnd = .ok P) : ∀ v ∈ P, v = a ∨ v = b := by
  rw [C148_loop h hf hr] at hP
  intro v hv
  obtain ⟨e, h1, h2⟩ := List.mem_flatMap.1 (closePolygon_subset hP v hv)
  obtain ⟨h3, h4⟩ := he e h1
  simp only [List.mem_cons, List.not_mem_nil, or_false] at h2
  rcases h2 with rfl | rfl <;> assumption

theorem closePolygon_total {vs : List (V3 ℝ)} (h : vs ≠ []) : ∃ P, closePolygon vs = .ok P := by
  obtain ⟨v, t, rfl⟩ := List.exists_cons_of_ne_nil h
  unfold closePolygon
  have e : dedupBy (fun a b : V3 ℝ => near (a.distanceSq b) 0) (v :: t)
    = v :: dedupAux (fun a b : V3 ℝ => near (a.distanceSq b) 0) v t := rfl
  rw [e]
  generalize dedupAux _ _ _ = m
  dsimp only
  rw [idx_ok (by simp), ok_bind, usub_ok (by simp), ok_bind, idx_ok (by simp), ok_bind]
  exact ⟨_, rfl⟩

/-- **C148** A planar face whose only loop consists of such edges between the same two points is empty. -/
theorem C148_lens {p : Plane ℝ} {o : TrimOracle ℝ} (hf : 0 < o.divFuel) (hr : ∀ i path, 0 ≤ o.rnd 0 i path ∧ o.rnd 0 i path < 1)
    {l : EdgeLoop ℝ} {ends : List (V3 ℝ × V3 ℝ)} (hne : ends ≠ [])
    (h : List.Forall₂ (fun s e => Slack s e.1 e.2) l.edges ends) {a b : V3 ℝ}
    (he : ∀ e ∈ ends, (e.1 = a ∨ e.1 = b) ∧ (e.2 = a ∨ e.2 = b)) : p.trim o [l] = .ok TriangleMesh.new := by
  obtain ⟨P, hP⟩ : ∃ P, l.toPolygon o.divFuel (o.rnd 0) = .ok P := by
    rw [C148_loop h hf hr]
    obtain ⟨e, t, rfl⟩ := List.exists_cons_of_ne_nil hne
    exact closePolygon_total (by simp)
  refine C148_collinear tol_nonneg hP fun u hu v hv w hw => ?_
  have k := ends_two h he hf hr hP
  rcases k u hu with rfl | rfl <;> rcases k v hv with rfl | rfl <;> rcases k w hw with rfl | rfl <;>
    (unfold triArea2; ring)

/-! ### STEP files -/

/-- Oriented edge `r` is an arc between the points `A` and `B` on a circle with a diameter below the tolerance 0.01. -/
def Spec.SaysSmallArc (file : StepFile ℝ) (r : Ref) (A B : V3 ℝ) : Prop :=
  ∃ g o' s e c sense o a x rad, file.orientedEdge r = some ⟨g, o'⟩ ∧ SaysEdge file g s e c sense ∧
    SaysCircle file c o a x rad ∧ a.dot a = 1 ∧ x ≠ 0 ∧ a.dot x = 0 ∧ 0 < rad ∧ 2 * rad < 1 / 100 ∧
    OnCircle (fileCircle o a x rad) s ∧ OnCircle (fileCircle o a x rad) e ∧ (s = A ∨ s = B) ∧ (e = A ∨ e = B)

theorem smallArc_slack {file : StepFile ℝ} {r : Ref} {A B : V3 ℝ} (h : SaysSmallArc file r A B) {seg : CurveSegment ℝ}
    (hs : SaysOriented file r seg) : ∃ s e, Slack seg s e ∧ (s = A ∨ s = B) ∧ (e = A ∨ e = B) := by
  obtain ⟨g, o', s, e, c, sense, o, a, x, rad, h1, h2, h3, ha, hx, hax, hR, hR2, hs1, hs2, hA, hB⟩ := h
  obtain ⟨g', q, s', t', c', sense', curve', u', v', m1, m2, m3, m4, m5, rfl⟩ := hs
  rw [h1] at m1; cases m1
  -- the two descriptions of the edge are read the same way
  have e1 := extractEdge h2 (extractCurve_circle h3) (u0 := (fileCircle o a x rad).project s)
    (u1 := (fileCircle o a x rad).project e) rfl rfl
  have e2 := extractEdge m2 (C103_curve m3) m4 m5
  obtain ⟨seg, k1, k2⟩ := C63_circle_partial h2 h3 ha hx hax hR hs1 hs2
  rw [e1] at e2 k1
  have e3 := Option.some.inj (Except.ok.inj e2)
  have e4 := Option.some.inj (Except.ok.inj k1)
  have ec : DynCurve.other (fileCircle o a x rad).obj = curve' := congrArg DynSegment.curve e3
  subst ec
  have er := congrArg DynSegment.parameterRange e3
  subst e4
  refine ⟨s, e, ?_, hA, hB⟩
  have er' : (DynCurve.other (fileCircle o a x rad).obj).obj.refine (u', v') sense'
    = (DynCurve.other (fileCircle o a x rad).obj).obj.refine ((fileCircle o a x rad).project s, (fileCircle o a x rad).project e) sense := er.symm
  rw [er']
  obtain ⟨k3, k4⟩ := k2
  have hf : Framed (fileCircle o a x rad) := ⟨ha, normalize_unit hx, dot_normalize hax⟩
  have hsm := C148_circle hf hR.le (tol := Env.hundredth) (by
    show 2 * rad < (Env.hundredth : ℝ)
    norm_num [Env.hundredth] at hR2 ⊢
    exact hR2)
    (((DynCurve.other (fileCircle o a x rad).obj).obj.refine ((fileCircle o a x rad).project s, (fileCircle o a x rad).project e) sense).1)
    (((DynCurve.other (fileCircle o a x rad).obj).obj.refine ((fileCircle o a x rad).project s, (fileCircle o a x rad).project e) sense).2) 16
  have k3' := Except.ok.inj k3
  have k4' := Except.ok.inj k4
  have hsl := C148_small hsm
  have g1 : (fileCircle o a x rad).getPoint (((DynCurve.other (fileCircle o a x rad).obj).obj.refine ((fileCircle o a x rad).project s, (fileCircle o a x rad).project e) sense).1) = s := k3'
  have g2 : (fileCircle o a x rad).getPoint (((DynCurve.other (fileCircle o a x rad).obj).obj.refine ((fileCircle o a x rad).project s, (fileCircle o a x rad).project e) sense).2) = e := k4'
  rw [g1, g2] at hsl
  exact hsl

/-- **C148** A planar face of a STEP file whose only bound consists of arcs between the same two points, on circles with a
diameter below 0.01, is read and has no triangles and no vertices. -/
theorem C148_step {file : StepFile ℝ} {face : StepAdvancedFace} {t : TrimmedSurface ℝ} (h : SaysFace file face t)
    {pos : Ref} (hp : file.plane face.faceGeometry = some pos) {r b : Ref} {b' : Bool} {edges : List Ref}
    (hb : face.bounds = [r]) (hl : file.faceBound r = some ⟨b, b'⟩) (hle : file.edgeLoop b = some edges) (hne : edges ≠ [])
    {A B : V3 ℝ} (he : ∀ e ∈ edges, SaysSmallArc file e A B) {o : TrimOracle ℝ} (hf : 0 < o.divFuel)
    (hr : ∀ i path, 0 ≤ o.rnd 0 i path ∧ o.rnd 0 i path < 1) :
    file.readFace face = .ok (some t) ∧ t.getTriangleMesh o = .ok TriangleMesh.new := by
  refine ⟨C103_face h, ?_⟩
  obtain ⟨h1, h2⟩ := h
  rw [hb] at h2
  obtain ⟨S, bounds⟩ := t
  rcases h2 with _ | ⟨h3, h4⟩
  cases h4
  rename_i l
  obtain ⟨c, c', edges', k1, k2, k3⟩ := h3
  rw [hl] at k1; cases k1
  rw [hle] at k2; cases k2
  obtain ⟨ends, hends, htwo⟩ : ∃ ends : List (V3 ℝ × V3 ℝ), List.Forall₂ (fun s e => Slack s e.1 e.2) l.edges ends ∧
      ∀ e ∈ ends, (e.1 = A ∨ e.1 = B) ∧ (e.2 = A ∨ e.2 = B) := by
    clear hle hne
    generalize l.edges = L at k3
    induction k3 with
    | nil => exact ⟨[], .nil, by simp⟩
    | cons m1 m2 ih =>
      obtain ⟨s, e, g1, g2, g3⟩ := smallArc_slack (he _ (List.mem_cons_self ..)) m1
      obtain ⟨ends, g4, g5⟩ := ih (fun e h => he e (List.mem_cons_of_mem _ h))
      exact ⟨(s, e) :: ends, .cons g1 g4, by
        intro x hx
        rcases List.mem_cons.1 hx with rfl | hx
        · exact ⟨g2, g3⟩
        · exact g5 x hx⟩
  have hne' : ends ≠ [] := by
    rintro rfl
    have e1 := hends.length_eq
    have e2 := k3.length_eq
    rw [e1] at e2
    exact hne (List.length_eq_zero_iff.1 e2)
  unfold TrimmedSurface.getTriangleMesh
  cases h1 with
  | plane => exact C148_lens hf hr hne' hends htwo
  | cylinder a => exact absurd hp (by simp [show file.plane face.faceGeometry = none from a])
  | bezier a => exact absurd a.1 (by simp [hp])
  | uniform a => exact absurd a.1 (by simp [hp])
  | uniformRational a => exact absurd a.1 (by simp [hp])
  | knots a => exact absurd a.1 (by simp [hp])
  | rational a => exact absurd a.1 (by simp [hp])
  | revolution a => exact absurd a.1 (by simp [hp])

/-! ### A sample file: a disc of radius 0.004 -/

/-- A file with one face: the plane `z = 0` bounded by the two halves of the circle of radius 0.004 around the origin. -/
noncomputable def smallDiscFile : StepFile ℝ :=
  { (emptyFile : StepFile ℝ) with
    cartesianPoint := fun r => if r = 1 then some [0, 0, 0] else if r = 2 then some [1 / 250, 0, 0] else
      if r = 13 then some [-1 / 250, 0, 0] else none
    direction := fun r => if r = 3 then some [0, 0, 1] else if r = 4 then some [1, 0, 0] else none
    axis2Placement3d := fun r => if r = 5 then some (1, some 3, some 4) else none
    circle := fun r => if r = 6 then some (5, 1 / 250) else none
    vertexGeometry := fun r => if r = 7 then some 2 else if r = 14 then some 13 else none
    edgeCurve := fun r => if r = 8 then some ⟨7, 14, 6, true⟩ else if r = 15 then some ⟨14, 7, 6, true⟩ else none
    orientedEdge := fun r => if r = 9 then some ⟨8, true⟩ else if r = 16 then some ⟨15, true⟩ else none
    edgeLoop := fun r => if r = 10 then some [9, 16] else none
    faceBound := fun r => if r = 11 then some ⟨10, true⟩ else none
    plane := fun r => if r = 12 then some 5 else none
    advancedFaces := [⟨[11], 12, true⟩] }

theorem smallDisc_placement : SaysPlacement smallDiscFile 5 0 ⟨0, 0, 1⟩ ⟨1, 0, 0⟩ := ⟨1, 3, 4, rfl, rfl, rfl, rfl⟩

theorem smallDisc_edge1 : SaysEdge smallDiscFile 8 ⟨1 / 250, 0, 0⟩ ⟨-1 / 250, 0, 0⟩ 6 true :=
  ⟨7, 14, rfl, ⟨2, rfl, rfl⟩, ⟨13, rfl, rfl⟩⟩

theorem smallDisc_edge2 : SaysEdge smallDiscFile 15 ⟨-1 / 250, 0, 0⟩ ⟨1 / 250, 0, 0⟩ 6 true :=
  ⟨14, 7, rfl, ⟨13, rfl, rfl⟩, ⟨2, rfl, rfl⟩⟩

theorem smallDisc_circle : SaysCircle smallDiscFile 6 0 ⟨0, 0, 1⟩ ⟨1, 0, 0⟩ (1 / 250) := ⟨rfl, 5, rfl, smallDisc_placement⟩

theorem smallDisc_on {k : ℝ} (hk : k = 1 / 250 ∨ k = -1 / 250) :
    OnCircle (fileCircle 0 ⟨0, 0, 1⟩ ⟨1, 0, 0⟩ (1 / 250)) ⟨k, 0, 0⟩ := by
  refine ⟨by simp [fileCircle, V3.dot], ?_⟩
  rw [dist3_eq]
  show Real.sqrt _ = 1 / 250
  rw [show (V3.mk k 0 0 - (fileCircle 0 ⟨0, 0, 1⟩ ⟨1, 0, 0⟩ (1 / 250)).center).dot
    (V3.mk k 0 0 - (fileCircle 0 ⟨0, 0, 1⟩ ⟨1, 0, 0⟩ (1 / 250)).center) = (1 / 250) * (1 / 250) by
      rcases hk with rfl | rfl <;> (simp [fileCircle, V3.dot]; try norm_num)]
  exact Real.sqrt_mul_self (by norm_num)

/-- The file is read as one face, whose mesh is empty. -/
theorem C148_example : ∃ t, smallDiscFile.readModel = .ok ([], [t]) ∧
    ∀ o : TrimOracle ℝ, 0 < o.divFuel → (∀ i path, 0 ≤ o.rnd 0 i path ∧ o.rnd 0 i path < 1) →
      t.getTriangleMesh o = .ok TriangleMesh.new := by
  let c : Circle ℝ := ⟨0, 1 / 250, ⟨0, 0, 1⟩, (⟨1, 0, 0⟩ : V3 ℝ).normalize⟩
  have hb : SaysBound smallDiscFile 11 ⟨[
      ⟨c.obj, Circle.refineParameterRange (c.project ⟨1 / 250, 0, 0⟩, c.project ⟨-1 / 250, 0, 0⟩) true, Env.hundredth, 16⟩,
      ⟨c.obj, Circle.refineParameterRange (c.project ⟨-1 / 250, 0, 0⟩, c.project ⟨1 / 250, 0, 0⟩) true, Env.hundredth, 16⟩]⟩ :=
    ⟨10, true, [9, 16], rfl, rfl,
      .cons ⟨8, true, ⟨1 / 250, 0, 0⟩, ⟨-1 / 250, 0, 0⟩, 6, true, .other c.obj, _, _, rfl, smallDisc_edge1, .circle smallDisc_circle, rfl, rfl, rfl⟩
      (.cons ⟨15, true, ⟨-1 / 250, 0, 0⟩, ⟨1 / 250, 0, 0⟩, 6, true, .other c.obj, _, _, rfl, smallDisc_edge2, .circle smallDisc_circle, rfl, rfl, rfl⟩ .nil)⟩
  have hs : SaysFace smallDiscFile ⟨[11], 12, true⟩ ⟨_, [_]⟩ := ⟨.plane (pos := 5) rfl smallDisc_placement, .cons hb .nil⟩
  refine ⟨_, C103_model .nil (.cons hs .nil), fun o hf hr =>
    (C148_step (A := ⟨1 / 250, 0, 0⟩) (B := ⟨-1 / 250, 0, 0⟩) hs (pos := 5) rfl rfl rfl rfl (by simp) (fun e he => ?_) hf hr).2⟩
  have u : (⟨0, 0, 1⟩ : V3 ℝ).dot ⟨0, 0, 1⟩ = 1 := by simp [V3.dot]
  have v : (⟨1, 0, 0⟩ : V3 ℝ) ≠ 0 := fun h => one_ne_zero (congrArg V3.x h)
  have w : (⟨0, 0, 1⟩ : V3 ℝ).dot ⟨1, 0, 0⟩ = 0 := by simp [V3.dot]
  simp only [List.mem_cons, List.not_mem_nil, or_false] at he
  rcases he with rfl | rfl
  · exact ⟨8, true, _, _, 6, true, _, _, _, _, rfl, smallDisc_edge1, smallDisc_circle, u, v, w, by norm_num, by norm_num,
      smallDisc_on (.inl rfl), smallDisc_on (.inr rfl), .inl rfl, .inr rfl⟩
  · exact ⟨15, true, _, _, 6, true, _, _, _, _, rfl, smallDisc_edge2, smallDisc_circle, u, v, w, by norm_num, by norm_num,
      smallDisc_on (.inr rfl), smallDisc_on (.inl rfl), .inr rfl, .inl rfl⟩

end Geom3d
