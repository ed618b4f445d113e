import Verif.Lemmas.Covering
import Verif.Lemmas.FrontPos
import Verif.Spec.ExactEnv

/-!
# The advancing front covers the region without gaps, and without overlaps (C122)

`generate_triangular_mesh` (`src/utils/meshgen.rs:6-59`) in exact arithmetic.  Whatever nodes it selects, the
counter-clockwise triangles around a point outnumber the clockwise ones by the number of times the loops wind around the
point.  If the vertices it returns are clear of the tolerance and no vertex is on an edge of the mesh, all triangles are
counter-clockwise, so that each point is covered exactly as often as the loops wind around it.
-/

namespace Geom3d

set_option linter.unusedSectionVars false

/-- All edges of the loops `polygons`, by vertex number. -/
def Spec.allLoopEdges (polygons : List Nat) : List (Nat × Nat) :=
  (pairs polygons).flatMap fun p => Spec.loopEdges (Spec.loopRange p)

variable {K : Type} [Field K] [LinearOrder K] [IsStrictOrderedRing K]

/-- Vertices `V` that are clear of the tolerance, and on no edge of the mesh: three vertices are on a line or span twice
the tolerance, different vertices are the square root of the tolerance apart, and no vertex is on an edge of a loop or of
a triangle other than its own. -/
structure Spec.Conforming [Env K] (V : List (V2 K)) (polygons T : List Nat) : Prop where
  clear : ∀ i j k, i < V.length → j < V.length → k < V.length →
    Spec.triArea2 (V.getD i 0) (V.getD j 0) (V.getD k 0) = 0 ∨
      Env.tol < |Spec.triArea2 (V.getD i 0) (V.getD j 0) (V.getD k 0)|
  apart : ∀ i j, i < V.length → j < V.length → i ≠ j →
    Env.tol < ((V.getD i 0).x - (V.getD j 0).x) ^ 2 + ((V.getD i 0).y - (V.getD j 0).y) ^ 2
  off : ∀ e ∈ Spec.allLoopEdges polygons ++ Spec.triEdges T, ∀ k, k < V.length → k ≠ e.1 → k ≠ e.2 →
    ¬ Spec.OnSegment (V.getD e.1 0) (V.getD e.2 0) (V.getD k 0)

theorem onSegment_symm {a b p : V2 K} (h : Spec.OnSegment a b p) : Spec.OnSegment b a p := by
  obtain ⟨t, t0, t1, tx, ty⟩ := h
  exact ⟨1 - t, by linarith, by linarith, by rw [tx]; ring, by rw [ty]; ring⟩

section
variable [Env K]

/-- **C122**, every run that returns: off the lines through two vertices, the number of counter-clockwise triangles around
`x` minus that of clockwise ones is the number of times the loops wind around `x`. -/
theorem C122_signed {pick : List (Nat × K) → Option Nat} (hp : PickOk pick) {innerFuel fuel : Nat}
    {points : List (V2 K)} {polygons : List Nat} {V : List (V2 K)} {T : List Nat}
    (h : generateTriangularMesh pick innerFuel fuel points polygons = .ok (V, T))
    (hpoly : ∀ p ∈ pairs polygons, p.1 < p.2) {x : V2 K} (hx : Spec.OffChords V x) :
    (Spec.covering V (Spec.ccw V T) x : ℤ) - Spec.covering V (Spec.cw V T) x
      = ((pairs polygons).map fun p => Spec.winding (Spec.loopPoints V (Spec.loopRange p)) x).sum := by
  have hw := C42_weight hp h hpoly (fun u v => Spec.crossing x (V.getD u 0) (V.getD v 0))
    (fun u v => crossing_swap x _ _)
  obtain ⟨-, -, hT⟩ := C41_valid hp h
  rw [← weight_crossing hx T hT]
  refine hw.trans ?_
  generalize pairs polygons = L
  induction L with
  | nil => rfl
  | cons p L ih =>
    rw [List.flatMap_cons, List.map_append, List.sum_append, List.map_cons, List.sum_cons, ih]
    congr 1
    unfold Spec.winding Spec.loopPoints
    rw [Spec.loopEdges_map, List.map_map]; rfl

/-- **C122**, every run that returns: a point around which the loops wind, in total, is in a triangle. -/
theorem C122_no_gaps {pick : List (Nat × K) → Option Nat} (hp : PickOk pick) {innerFuel fuel : Nat}
    {points : List (V2 K)} {polygons : List Nat} {V : List (V2 K)} {T : List Nat}
    (h : generateTriangularMesh pick innerFuel fuel points polygons = .ok (V, T))
    (hpoly : ∀ p ∈ pairs polygons, p.1 < p.2) {x : V2 K} (hx : Spec.OffChords V x)
    (hin : ((pairs polygons).map fun p => Spec.winding (Spec.loopPoints V (Spec.loopRange p)) x).sum ≠ 0) :
    ∃ t ∈ Spec.triples T, Spec.InTriangle (V.getD t.1 0) (V.getD t.2.1 0) (V.getD t.2.2 0) x := by
  classical
  rw [← C122_signed hp h hpoly hx] at hin
  have : ∀ S : List (Nat × Nat × Nat), (∀ t ∈ S, t ∈ Spec.triples T) → Spec.covering V S x ≠ 0 →
      ∃ t ∈ Spec.triples T, Spec.InTriangle (V.getD t.1 0) (V.getD t.2.1 0) (V.getD t.2.2 0) x := by
    intro S hS h0
    unfold Spec.covering at h0
    obtain ⟨t, ht⟩ := List.exists_mem_of_length_pos (Nat.pos_of_ne_zero h0)
    rw [List.mem_filter] at ht
    exact ⟨t, hS t ht.1, by simpa using ht.2⟩
  by_cases h1 : Spec.covering V (Spec.ccw V T) x = 0
  · refine this _ (fun t ht => ?_) (fun h2 : Spec.covering V (Spec.cw V T) x = 0 => hin (by rw [h1, h2]; rfl))
    exact (List.mem_filter.1 ht).1
  · exact this _ (fun t ht => (List.mem_filter.1 ht).1) h1

/-! ### Whole runs with conforming vertices -/

theorem getD_of_prefix {α : Type} [Zero α] {l V : List α} (h : l <+: V) {i : Nat} {v : α} (hv : idx l i = .ok v) :
    V.getD i 0 = v ∧ i < V.length := by
  obtain ⟨t, rfl⟩ := h
  have := idx_getElem? hv
  have hlt := (List.getElem?_eq_some_iff.1 this).1
  refine ⟨?_, by rw [List.length_append]; omega⟩
  rw [List.getD_eq_getElem?_getD, List.getElem?_append_left hlt, this]; rfl

theorem triEdges_prefix {T T' : List Nat} {k : Nat} (hk : T.length = 3 * k) (h : T <+: T') {e : Nat × Nat}
    (he : e ∈ Spec.triEdges T) : e ∈ Spec.triEdges T' := by
  obtain ⟨t, rfl⟩ := h
  rw [triEdges_append T k hk]
  exact List.mem_append_left _ he

/-- The edge `e` is an edge of a loop or, in the other direction, of a triangle, and has two different ends. -/
def EdgeOk (polygons T : List Nat) (e : Nat × Nat) : Prop :=
  e.1 ≠ e.2 ∧ (e ∈ Spec.allLoopEdges polygons ∨ (e.2, e.1) ∈ Spec.triEdges T)

theorem EdgeOk.off {V : List (V2 K)} {polygons T : List Nat} (hc : Spec.Conforming V polygons T) {e : Nat × Nat}
    (he : EdgeOk polygons T e) {k : Nat} (hk : k < V.length) (h1 : k ≠ e.1) (h2 : k ≠ e.2) :
    ¬ Spec.OnSegment (V.getD e.1 0) (V.getD e.2 0) (V.getD k 0) := by
  rcases he.2 with h | h
  · exact hc.off e (List.mem_append_left _ h) k hk h1 h2
  · exact fun h' => hc.off _ (List.mem_append_right _ h) k hk h2 h1 (onSegment_symm h')

theorem EdgeOk.mono {polygons T T' : List Nat} {k : Nat} (hk : T.length = 3 * k) (h : T <+: T') {e : Nat × Nat}
    (he : EdgeOk polygons T e) : EdgeOk polygons T' e :=
  ⟨he.1, he.2.imp id (triEdges_prefix hk h)⟩

theorem Spec.Conforming.ne {V : List (V2 K)} {polygons T : List Nat} (hE : FrontEnv K) (hc : Spec.Conforming V polygons T) {i j : Nat}
    (hi : i < V.length) (hj : j < V.length) (hij : i ≠ j) : V.getD i 0 ≠ V.getD j 0 := by
  intro h
  have := hc.apart i j hi hj hij
  rw [h] at this
  have h0 := hE.tol
  simp only [sub_self] at this
  norm_num at this
  linarith

/-- The selected node is strictly to the left of the edge. -/
theorem selectNode_pos (hE : FrontEnv K) {pick : List (Nat × K) → Option Nat} (hp : PickOk pick) {V : List (V2 K)}
    {polygons T : List Nat} (hc : Spec.Conforming V polygons T) {edge : Nat × Nat} (hedge : EdgeOk polygons T edge)
    {front : List (Nat × Nat)} (hfront : ∀ e ∈ front, EdgeOk polygons T e) {vertices : List (V2 K)} (hV : vertices <+: V)
    (fuel : Nat) {selected : Option Nat} {n : Nat}
    (h0 : ∀ m, selected = some m → m < vertices.length ∧
      0 < Spec.triArea2 (V.getD edge.1 0) (V.getD edge.2 0) (V.getD m 0))
    (h : selectNode pick edge.1 edge.2 front vertices fuel selected = .ok (some n)) :
    n < vertices.length ∧ 0 < Spec.triArea2 (V.getD edge.1 0) (V.getD edge.2 0) (V.getD n 0) := by
  induction fuel generalizing selected with
  | zero => cases h
  | succ fuel ih =>
    unfold selectNode at h
    rw [bind_eq_ok] at h
    obtain ⟨o, ho, h⟩ := h
    cases o with
    | none =>
      simp only [pure_eq_ok, Except.ok.injEq] at h
      exact h0 n h
    | some node =>
      refine ih ?_ h
      rintro m ⟨⟩
      obtain ⟨a, b, q, ha, hb, hq, e, he, f, hf⟩ := findIntersection_candidate hp ho
      obtain ⟨ga, la⟩ := getD_of_prefix hV ha
      obtain ⟨gb, lb⟩ := getD_of_prefix hV hb
      have hab : a ≠ b := by rw [← ga, ← gb]; exact hc.ne hE la lb hedge.1
      have hq' : 0 < Spec.triArea2 a b q ∧ ∀ k, k < V.length → k ≠ edge.1 → k ≠ edge.2 →
          Spec.triArea2 a b (V.getD k 0) = 0 →
          (Spec.triArea2 (V.getD k 0) b q < 0 → Spec.triArea2 (V.getD k 0) b q < -Env.tol) ∧
          (Spec.triArea2 (V.getD k 0) q a < 0 → Spec.triArea2 (V.getD k 0) q a < -Env.tol) := by
        cases selected with
        | none =>
          simp only [pure_eq_ok, Except.ok.injEq] at hq
          subst hq
          constructor
          · obtain ⟨r, hr, e⟩ := bisector_area hE hab (1 : K)
            rw [e, mul_one]
            exact mul_pos (by linarith) (distSq_pos hab)
          · intro k hk k1 k2 hk0
            refine trial_far hE hab ?_ ?_ ?_ hk0
            · have := hc.apart _ _ lb la hedge.1.symm; rwa [ga, gb] at this
            · have := hc.apart _ _ hk la k1; rwa [ga] at this
            · have := hc.apart _ _ hk lb k2; rwa [gb] at this
        | some m =>
          obtain ⟨gq, lq⟩ := getD_of_prefix hV hq
          have := (h0 m rfl).2
          rw [ga, gb, gq] at this
          refine ⟨this, fun k hk _ _ _ => ⟨fun hn => ?_, fun hn => ?_⟩⟩
          · have := hc.clear k edge.2 m hk lb lq
            rw [gb, gq] at this
            rcases this with h | h
            · linarith
            · rw [abs_of_neg hn] at h; linarith
          · have := hc.clear k m edge.1 hk lq la
            rw [ga, gq] at this
            rcases this with h | h
            · linarith
            · rw [abs_of_neg hn] at h; linarith
      have heo := hfront e he
      obtain ⟨v, hv, hpos⟩ := candidate_pos ha hb hq'.1 (e := e)
        (by
          intro v e1 e2 hv hin
          obtain ⟨gv, lv⟩ := getD_of_prefix hV hv
          refine inner_pos hE.tol hab hq'.1 ?_ ?_ ?_ ?_ hin
          · have := hc.clear edge.1 edge.2 e.1 la lb lv
            rwa [ga, gb, gv] at this
          · have := hedge.off hc lv e1 e2
            rwa [ga, gb, gv] at this
          · have := fun h => (hq'.2 e.1 lv e1 e2 h).1
            rwa [gv] at this
          · have := fun h => (hq'.2 e.1 lv e1 e2 h).2
            rwa [gv] at this)
        (by
          intro e1 e2 c d hc' hd
          obtain ⟨gc, lc⟩ := getD_of_prefix hV hc'
          obtain ⟨gd, ld⟩ := getD_of_prefix hV hd
          have := heo.off hc la e1.symm e2.symm
          rwa [gc, gd, ga] at this)
        (by
          intro e1 e2 c d hc' hd
          obtain ⟨gc, lc⟩ := getD_of_prefix hV hc'
          obtain ⟨gd, ld⟩ := getD_of_prefix hV hd
          have := heo.off hc lb e1.symm e2.symm
          rwa [gc, gd, gb] at this) hf
      obtain ⟨gv, lv⟩ := getD_of_prefix hV hv
      rw [ga, gb, gv]
      exact ⟨idx_lt hv, hpos⟩

/-- What holds after each step: the front consists of edges of the mesh, and all triangles so far are
counter-clockwise. -/
structure FrontInv (V : List (V2 K)) (polygons : List Nat) (s : FrontState K) : Prop where
  three : ∃ k, s.triangles.length = 3 * k
  edges : ∀ e ∈ s.front, EdgeOk polygons s.triangles e
  pos : ∀ t ∈ Spec.triples s.triangles, 0 < Spec.triArea2 (V.getD t.1 0) (V.getD t.2.1 0) (V.getD t.2.2 0)

theorem frontStep_pos (hE : FrontEnv K) {pick : List (Nat × K) → Option Nat} (hp : PickOk pick) {fuel : Nat}
    {V : List (V2 K)} {polygons T : List Nat} (hc : Spec.Conforming V polygons T) {s s' : FrontState K} {edge : Nat × Nat}
    (h : frontStep pick fuel s edge = .ok s') (hV : s'.vertices <+: V) (hT : s'.triangles <+: T)
    (hI : FrontInv V polygons s) (hedge : EdgeOk polygons s.triangles edge) : FrontInv V polygons s' := by
  have hpre := frontStep_prefix h
  have hTs := hpre.2.trans hT
  have hVs := hpre.1.trans hV
  obtain ⟨k, hk⟩ := hI.three
  have hedgeT := hedge.mono hk hTs
  unfold frontStep at h
  simp only [bind_eq_ok] at h
  obtain ⟨a, ha, b, hb, o, ho, h⟩ := h
  obtain ⟨ga, la⟩ := getD_of_prefix hVs ha
  obtain ⟨gb, lb⟩ := getD_of_prefix hVs hb
  -- a triangle to the left has a third corner
  have third : ∀ n, 0 < Spec.triArea2 (V.getD edge.1 0) (V.getD edge.2 0) (V.getD n 0) → n ≠ edge.1 ∧ n ≠ edge.2 := by
    intro n hn
    constructor <;> rintro rfl
    · rw [show Spec.triArea2 (V.getD edge.1 0) (V.getD edge.2 0) (V.getD edge.1 0) = 0 by unfold Spec.triArea2; ring] at hn
      exact lt_irrefl _ hn
    · rw [show Spec.triArea2 (V.getD edge.1 0) (V.getD edge.2 0) (V.getD edge.2 0) = 0 by unfold Spec.triArea2; ring] at hn
      exact lt_irrefl _ hn
  have add : ∀ n, 0 < Spec.triArea2 (V.getD edge.1 0) (V.getD edge.2 0) (V.getD n 0) → ∀ front' vs',
      (∀ e ∈ front', e ∈ s.front ∨ e = (edge.1, n) ∨ e = (n, edge.2)) →
      FrontInv V polygons ⟨front', vs', s.triangles ++ [edge.1, edge.2, n]⟩ := by
    intro n hn front' vs' hf
    refine ⟨⟨k + 1, by simp only [List.length_append] at *; simp; omega⟩, ?_, ?_⟩
    · intro e he
      rcases hf e he with he | rfl | rfl
      · exact (hI.edges e he).mono hk (List.prefix_append _ _)
      · refine ⟨(third n hn).1.symm, .inr ?_⟩
        simp only
        rw [triEdges_append _ k hk]
        exact List.mem_append_right _ (by simp [Spec.triEdges])
      · refine ⟨(third n hn).2, .inr ?_⟩
        simp only
        rw [triEdges_append _ k hk]
        exact List.mem_append_right _ (by simp [Spec.triEdges])
    · intro t ht
      simp only at ht
      rw [triples_append hk] at ht
      rcases List.mem_append.1 ht with ht | ht
      · exact hI.pos t ht
      · simp only [Spec.triples, List.mem_singleton] at ht
        subst ht; exact hn
  cases o with
  | some n =>
    cases h
    have := selectNode_pos hE hp hc hedgeT (fun e he => (hI.edges e he).mono hk hTs) hVs fuel (selected := none) (by simp) ho
    refine add n this.2 _ _ fun e he => ?_
    rcases mem_frontAdd he with he | he
    · rcases mem_frontAdd he with he | he
      · exact .inl he
      · exact .inr (.inl he)
    · exact .inr (.inr he)
  | none =>
    cases h
    have hab : a ≠ b := by rw [← ga, ← gb]; exact hc.ne hE la lb hedge.1
    refine add s.vertices.length ?_ _ _ fun e he => ?_
    · have : V.getD s.vertices.length 0 = pointOnNormalBisector a b Env.halfSqrt3 := by
        obtain ⟨t, rfl⟩ := hV
        rw [List.getD_eq_getElem?_getD, List.getElem?_append_left (by simp), List.getElem?_concat_length]; rfl
      rw [ga, gb, this]
      obtain ⟨r, hr, e⟩ := bisector_area hE hab Env.halfSqrt3
      rw [e]
      exact mul_pos (mul_pos (by linarith) hE.half) (distSq_pos hab)
    · simp only [List.mem_cons] at he
      tauto

theorem frontLoop_pos (hE : FrontEnv K) {pick : List (Nat × K) → Option Nat} (hp : PickOk pick) {innerFuel : Nat}
    {polygons : List Nat} (fuel : Nat) {s s' : FrontState K} (hc : Spec.Conforming s'.vertices polygons s'.triangles)
    (h : frontLoop pick innerFuel fuel s = .ok s') (hI : FrontInv s'.vertices polygons s) :
    FrontInv s'.vertices polygons s' := by
  induction fuel generalizing s with
  | zero => cases h
  | succ fuel ih =>
    unfold frontLoop at h
    split at h
    · cases h; exact hI
    · rename_i e hl
      rw [bind_eq_ok] at h
      obtain ⟨s1, h1, h2⟩ := h
      have hpre := frontLoop_prefix fuel h2
      refine ih h2 (frontStep_pos hE hp hc h1 hpre.1 hpre.2 ⟨hI.three, ?_, hI.pos⟩ ?_)
      · exact fun e he => hI.edges e (List.dropLast_subset _ he)
      · exact hI.edges e (List.mem_of_getLast? hl)

theorem loopEdges_range'_ne {a b x y : Nat} (hab : a + 1 < b) (h : (x, y) ∈ Spec.loopEdges (Spec.loopRange (a, b))) : x ≠ y := by
  have hf : initialFront [a, b] = .ok ((List.range' a (b - 1 - a)).map (fun i => (i, i + 1)) ++ [(b - 1, a)]) := by
    unfold initialFront
    simp only [pairs, List.tail_cons, List.zip_cons_cons, List.zip_nil_right, List.foldlM_cons, List.foldlM_nil]
    rw [usub_ok (by omega), ok_bind]; rfl
  have := initialFront_eq hf (by intro p hp; simp [pairs] at hp; subst hp; simp; omega)
  simp only [pairs, List.tail_cons, List.zip_cons_cons, List.zip_nil_right, List.flatMap_cons, List.flatMap_nil,
    List.append_nil] at this
  rw [← this] at h
  simp only [List.mem_append, List.mem_map, List.mem_range', Prod.mk.injEq, List.mem_singleton] at h
  rcases h with ⟨i, -, rfl, rfl⟩ | ⟨rfl, rfl⟩ <;> omega

/-- **C122**: let the mesh generator return vertices that are clear of the tolerance and on no edge of the mesh but their
own.  Then all triangles are counter-clockwise, and every point off the lines through two vertices is in exactly as many
triangles as the loops wind around it. -/
theorem C122_tiling (hE : FrontEnv K) {pick : List (Nat × K) → Option Nat} (hp : PickOk pick) {innerFuel fuel : Nat}
    {points : List (V2 K)} {polygons : List Nat} {V : List (V2 K)} {T : List Nat}
    (h : generateTriangularMesh pick innerFuel fuel points polygons = .ok (V, T))
    (hpoly : ∀ p ∈ pairs polygons, p.1 + 1 < p.2) (hc : Spec.Conforming V polygons T) :
    (∀ t ∈ Spec.triples T, 0 < Spec.triArea2 (V.getD t.1 0) (V.getD t.2.1 0) (V.getD t.2.2 0)) ∧
    ∀ x, Spec.OffChords V x → (Spec.covering V (Spec.triples T) x : ℤ)
      = ((pairs polygons).map fun p => Spec.winding (Spec.loopPoints V (Spec.loopRange p)) x).sum := by
  classical
  have hpoly' : ∀ p ∈ pairs polygons, p.1 < p.2 := fun p hp => by have := hpoly p hp; omega
  have hpos : ∀ t ∈ Spec.triples T, 0 < Spec.triArea2 (V.getD t.1 0) (V.getD t.2.1 0) (V.getD t.2.2 0) := by
    have h' := h
    unfold generateTriangularMesh at h'
    simp only [bind_eq_ok] at h'
    obtain ⟨front, hf, s, hs, h'⟩ := h'
    cases h'
    refine (frontLoop_pos hE hp (polygons := polygons) fuel hc hs ⟨⟨0, rfl⟩, ?_, by simp [Spec.triples]⟩).pos
    intro e he
    have hfe := initialFront_eq hf hpoly'
    simp only at he
    rw [hfe] at he
    refine ⟨?_, .inl he⟩
    rw [List.mem_flatMap] at he
    obtain ⟨⟨a, b⟩, hab, he⟩ := he
    exact loopEdges_range'_ne (hpoly _ hab) he
  refine ⟨hpos, fun x hx => ?_⟩
  rw [← C122_signed hp h hpoly' hx]
  have e1 : Spec.ccw V T = Spec.triples T := List.filter_eq_self.2 fun t ht => by simpa using hpos t ht
  have e2 : Spec.cw V T = [] := List.filter_eq_nil_iff.2 fun t ht => by simpa using (hpos t ht).le
  rw [e1, e2]
  simp [Spec.covering]

/-- **C122**: for loops that enclose a negative area in total, such as a single clockwise loop, no run returns a conforming
mesh, however many steps it is given. -/
theorem C122_clockwise (hE : FrontEnv K) {pick : List (Nat × K) → Option Nat} (hp : PickOk pick) {innerFuel fuel : Nat}
    {points : List (V2 K)} {polygons : List Nat} {V : List (V2 K)} {T : List Nat}
    (h : generateTriangularMesh pick innerFuel fuel points polygons = .ok (V, T))
    (hpoly : ∀ p ∈ pairs polygons, p.1 + 1 < p.2)
    (hneg : ((pairs polygons).map fun p => Spec.area2 (Spec.loopPoints V (Spec.loopRange p))).sum < 0) :
    ¬ Spec.Conforming V polygons T := by
  intro hc
  have hpos := (C122_tiling hE hp h hpoly hc).1
  rw [← C42_area hp h fun p hp => by have := hpoly p hp; omega] at hneg
  have : ∀ T : List Nat, (∀ t ∈ Spec.triples T, 0 < Spec.triArea2 (V.getD t.1 0) (V.getD t.2.1 0) (V.getD t.2.2 0)) →
      0 ≤ Spec.trianglesArea2 V T := by
    intro T
    induction T using Spec.triples.induct with
    | case1 a b c rest ih =>
      intro h
      unfold Spec.trianglesArea2
      have h1 := h (a, b, c) (by simp [Spec.triples])
      have h2 := ih fun t ht => h t (by simp [Spec.triples, ht])
      simp only at h1
      linarith
    | case2 T hT =>
      intro _
      rw [Spec.trianglesArea2]
      exact fun a b c rest hh => hT a b c rest hh
  exact absurd hneg (not_lt.2 (this T hpos))

end

/-! ### Concrete cases -/

/-- The constants of the code over the reals are good enough. -/
theorem frontEnv_real : FrontEnv ℝ where
  tol := by norm_num [Env.tol]
  grid := by norm_num [Env.minGrid, Env.hundredth]
  half := by norm_num [Env.halfSqrt3]
  sqrt x hx := Real.sqrt_pos.2 hx

/-- **C122** over the reals, with the constants of the code. -/
theorem C122_real {pick : List (Nat × ℝ) → Option Nat} (hp : PickOk pick) {innerFuel fuel : Nat}
    {points : List (V2 ℝ)} {polygons : List Nat} {V : List (V2 ℝ)} {T : List Nat}
    (h : generateTriangularMesh pick innerFuel fuel points polygons = .ok (V, T))
    (hpoly : ∀ p ∈ pairs polygons, p.1 + 1 < p.2) (hc : Spec.Conforming V polygons T) :
    (∀ t ∈ Spec.triples T, 0 < Spec.triArea2 (V.getD t.1 0) (V.getD t.2.1 0) (V.getD t.2.2 0)) ∧
    ∀ x, Spec.OffChords V x → (Spec.covering V (Spec.triples T) x : ℤ)
      = ((pairs polygons).map fun p => Spec.winding (Spec.loopPoints V (Spec.loopRange p)) x).sum :=
  C122_tiling frontEnv_real hp h hpoly hc

/-- Rational arithmetic with a square root that tells whether an edge is shorter than `MIN_GRID_SIZE`; longer edges are
all that matters here. -/
@[reducible] def Spec.frontEnvQ : Env ℚ := { (inferInstance : Env ℚ) with sqrt := fun x => if x < 1 / 1000000 then 1 / 2000 else 1 }

theorem frontEnv_rat : @FrontEnv ℚ _ _ _ Spec.frontEnvQ :=
  @FrontEnv.mk ℚ _ _ _ Spec.frontEnvQ (by decide +kernel) (by decide +kernel) (by decide +kernel) (by
    intro x _
    show 0 < (if x < 1 / 1000000 then (1 / 2000 : ℚ) else 1)
    split <;> norm_num)

theorem off_of_check {a b p : V2 K} [Env K] (h : isSegmentsIntersect a b p p = false) : ¬ Spec.OnSegment a b p := by
  intro hp
  have := (C34_exact a b p p).2 ⟨p, hp, 0, le_refl _, zero_le_one, by ring, by ring⟩
  rw [h] at this
  cases this

/-- A rectangle with a vertex in the middle of each of its long sides, given by the code's tests. -/
def Spec.frontRect : List (V2 ℚ) := [⟨0, 0⟩, ⟨1, 0⟩, ⟨2, 0⟩, ⟨2, 1⟩, ⟨1, 1⟩, ⟨0, 1⟩]

def Spec.frontRectV : List (V2 ℚ) := Spec.frontRect ++ [⟨17320508075689 / 20000000000000, 1 / 2⟩]

def Spec.frontRectT : List Nat := [5, 0, 6, 4, 5, 6, 3, 4, 2, 6, 0, 1, 1, 2, 4, 6, 1, 4]

theorem frontRect_run : @generateTriangularMesh ℚ _ _ _ _ _ _ _ _ _ _ _ _ Spec.frontEnvQ (fun l => (pickMax l).map Prod.fst) 20 50
    Spec.frontRect [0, 6] = .ok (Spec.frontRectV, Spec.frontRectT) := by decide +kernel

theorem frontRect_conforming : @Spec.Conforming ℚ _ _ Spec.frontEnvQ Spec.frontRectV [0, 6] Spec.frontRectT := by
  apply @Spec.Conforming.mk ℚ _ _ Spec.frontEnvQ
  · have : ∀ i < 7, ∀ j < 7, ∀ k < 7,
      Spec.triArea2 (Spec.frontRectV.getD i 0) (Spec.frontRectV.getD j 0) (Spec.frontRectV.getD k 0) = 0 ∨
      (1 / 10000000 : ℚ) < |Spec.triArea2 (Spec.frontRectV.getD i 0) (Spec.frontRectV.getD j 0) (Spec.frontRectV.getD k 0)| := by
      decide +kernel
    exact fun i j k hi hj hk => this i hi j hj k hk
  · have : ∀ i < 7, ∀ j < 7, i ≠ j → (1 / 10000000 : ℚ) < ((Spec.frontRectV.getD i 0).x - (Spec.frontRectV.getD j 0).x) ^ 2
        + ((Spec.frontRectV.getD i 0).y - (Spec.frontRectV.getD j 0).y) ^ 2 := by decide +kernel
    exact fun i j hi hj hij => this i hi j hj hij
  · have : ∀ e ∈ Spec.allLoopEdges [0, 6] ++ Spec.triEdges Spec.frontRectT, ∀ k < 7, k ≠ e.1 → k ≠ e.2 →
      isSegmentsIntersect (Spec.frontRectV.getD e.1 0) (Spec.frontRectV.getD e.2 0)
        (Spec.frontRectV.getD k 0) (Spec.frontRectV.getD k 0) = false := by decide +kernel
    exact fun e he k hk h1 h2 => off_of_check (this e he k hk h1 h2)

/-- Non-vacuity of **C122**: the rectangle is meshed with a new vertex, and the mesh covers it. -/
theorem C122_example : ∀ x, Spec.OffChords Spec.frontRectV x →
    (Spec.covering Spec.frontRectV (Spec.triples Spec.frontRectT) x : ℤ) = Spec.winding Spec.frontRect x := by
  intro x hx
  have hpoly : ∀ p ∈ pairs [0, 6], p.1 + 1 < p.2 := by decide
  have := (@C122_tiling ℚ _ _ _ Spec.frontEnvQ frontEnv_rat _ pickMax_ok _ _ _ _ _ _ frontRect_run hpoly frontRect_conforming).2 x hx
  rw [this]
  show _ + 0 = _
  rw [add_zero]
  rfl

end Geom3d
