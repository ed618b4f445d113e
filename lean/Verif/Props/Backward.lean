import Verif.Props.Polyhedra

/-!
# Edges used against their direction (C139)

`LineSegment`s and their order of points do not depend on the orientation flag of an `ORIENTED_EDGE` (C86), so a loop that uses
an edge against its direction gets the ends of this edge in the wrong order. What becomes of triangular faces: if one edge is
used so, the face is covered by a fan of five triangles, which overlap; if two or three are, it is left out. In the boundary
of a solid half of all uses are against the direction, hence no solid of triangles is converted without losing a face.
-/

namespace Geom3d
open Spec

set_option linter.unusedSectionVars false
set_option linter.unusedSimpArgs false

section
variable {F : Type} [Add F] [Sub F] [Mul F] [Div F] [Neg F] [Zero F] [One F] [NatCast F] [LT F] [DecidableLT F]
  [LE F] [DecidableLE F] [Env F]

/-- What the numbers make of the corners of a counter-clockwise triangle, and of paths that turn back at one of them. -/
structure Spec.CornerFacts (A B C : V2 F) : Prop where
  abc : computeConvexity A B C = .convex
  bca : computeConvexity B C A = .convex
  cab : computeConvexity C A B = .convex
  cba : computeConvexity C B A = .concave
  acb : computeConvexity A C B = .concave
  bac : computeConvexity B A C = .concave
  back : ∀ P ∈ [A, B, C], ∀ Q ∈ [A, B, C], computeConvexity P Q P = .colinear ∧ isInsideTriangle P P Q Q = true ∧
    isInsideTriangle P Q Q P = true

theorem Spec.CornerFacts.rotate {A B C : V2 F} (h : CornerFacts A B C) : CornerFacts B C A :=
  ⟨h.bca, h.cab, h.abc, h.acb, h.bac, h.cba, fun P hP Q hQ => h.back P (by simp at hP ⊢; tauto) Q (by simp at hQ ⊢; tauto)⟩

theorem search_none {bs : List Nat → Nat → Option Nat} (hbs : BinarySearch bs) {l : List Nat} {x : Nat} (h : x ∉ l) :
    bs l x = none := by
  rcases hb : bs l x with _ | j
  · rfl
  · exact absurd (List.mem_of_getElem? (hbs.found l x j hb)) h

theorem search_some {bs : List Nat → Nat → Option Nat} (hbs : BinarySearch bs) {l : List Nat} {x : Nat} (h : x ∈ l)
    (hs : l.Pairwise (· ≤ ·)) : ∃ j, bs l x = some j := by
  rcases hb : bs l x with _ | j
  · exact absurd h (hbs.absent l x hs hb)
  · exact ⟨j, rfl⟩

theorem twice_first {bs : List Nat → Nat → Option Nat} (hbs : BinarySearch bs) {A B C : V2 F} (h : CornerFacts A B C)
    (fuel : Nat) : computeVertexConvexity [A, B, C, B, A, C] = .ok ([0, 1, 3, 4], [3, 4]) ∧
      triangulatePolygon bs (fuel + 2) [A, B, C, B, A, C] [0, 1, 3, 4] [3, 4] = .ok [] := by
  have h1 := (h.back B (by simp) C (by simp)).1
  have h2 := (h.back A (by simp) C (by simp)).1
  have h3 := (h.back A (by simp) B (by simp)).2
  obtain ⟨j3, b3⟩ := search_some hbs (l := [3, 4]) (x := 3) (by simp) (by simp)
  obtain ⟨j4, b4⟩ := search_some hbs (l := [3, 4]) (x := 4) (by simp) (by simp)
  have b0 := search_none hbs (l := [3, 4]) (x := 0) (by simp)
  have b1 := search_none hbs (l := [3, 4]) (x := 1) (by simp)
  constructor
  · simp [computeVertexConvexity, forRange, List.range', h.abc, h.cab, h.cba, h.bac, h1, h2, idx, ok_bind, pure_eq_ok]
  · simp [triangulatePolygon, triangulateState, earLoop, earPass, earStep, isEar, stalled, usub, idx, ok_bind, pure_eq_ok,
      b0, b1, b3, b4, h3.1, h3.2]

theorem twice_second {bs : List Nat → Nat → Option Nat} (hbs : BinarySearch bs) {A B C : V2 F} (h : CornerFacts A B C)
    (fuel : Nat) : computeVertexConvexity [C, B, A, C, A, B] = .ok ([1, 2, 4, 5], [1, 2]) ∧
      triangulatePolygon bs (fuel + 2) [C, B, A, C, A, B] [1, 2, 4, 5] [1, 2] = .ok [] := by
  have h1 := (h.back B (by simp) C (by simp)).1
  have h2 := (h.back A (by simp) C (by simp)).1
  have h3 := (h.back A (by simp) B (by simp)).2
  obtain ⟨j3, b3⟩ := search_some hbs (l := [1, 2]) (x := 1) (by simp) (by simp)
  obtain ⟨j4, b4⟩ := search_some hbs (l := [1, 2]) (x := 2) (by simp) (by simp)
  have b0 := search_none hbs (l := [1, 2]) (x := 4) (by simp)
  have b1 := search_none hbs (l := [1, 2]) (x := 5) (by simp)
  constructor
  · simp [computeVertexConvexity, forRange, List.range', h.abc, h.cab, h.cba, h.bac, h1, h2, idx, ok_bind, pure_eq_ok]
  · simp [triangulatePolygon, triangulateState, earLoop, earPass, earStep, isEar, stalled, usub, idx, ok_bind, pure_eq_ok,
      b0, b1, b3, b4, h3.1, h3.2]

theorem twice_third {bs : List Nat → Nat → Option Nat} (hbs : BinarySearch bs) {A B C : V2 F} (h : CornerFacts A B C)
    (fuel : Nat) : computeVertexConvexity [A, C, A, B, C, B] = .ok ([0, 2, 3, 5], [0, 5]) ∧
      triangulatePolygon bs (fuel + 2) [A, C, A, B, C, B] [0, 2, 3, 5] [0, 5] = .ok [] := by
  have h1 := (h.back B (by simp) C (by simp)).1
  have h2 := (h.back A (by simp) C (by simp)).1
  have h3 := (h.back A (by simp) B (by simp)).2
  obtain ⟨j3, b3⟩ := search_some hbs (l := [0, 5]) (x := 0) (by simp) (by simp)
  obtain ⟨j4, b4⟩ := search_some hbs (l := [0, 5]) (x := 5) (by simp) (by simp)
  have b0 := search_none hbs (l := [0, 5]) (x := 2) (by simp)
  have b1 := search_none hbs (l := [0, 5]) (x := 3) (by simp)
  constructor
  · simp [computeVertexConvexity, forRange, List.range', h.abc, h.cab, h.cba, h.bac, h1, h2, idx, ok_bind, pure_eq_ok]
  · simp [triangulatePolygon, triangulateState, earLoop, earPass, earStep, isEar, stalled, usub, idx, ok_bind, pure_eq_ok,
      b0, b1, b3, b4, h3.1, h3.2]

/-- The polygon of a triangular face as the reader sees it. -/
def Spec.trianglePath (f g h : Bool) (a b c : V3 F) : List (V3 F) := asWritten f a b ++ asWritten g b c ++ asWritten h c a

/-- Distances of the corners are told from zero. -/
structure Spec.Apart3 (a b c : V3 F) : Prop where
  same : ∀ p ∈ [a, b, c], near (p.distanceSq p) 0 = true
  ab : near (a.distanceSq b) 0 = false
  ba : near (b.distanceSq a) 0 = false
  bc : near (b.distanceSq c) 0 = false
  cb : near (c.distanceSq b) 0 = false
  ca : near (c.distanceSq a) 0 = false
  ac : near (a.distanceSq c) 0 = false

/-- The polygons read for each choice of directions. -/
theorem triangle_polygon {a b c : V3 F} (h : Apart3 a b c) :
    closePolygon (trianglePath true true true a b c) = .ok [a, b, c] ∧
    closePolygon (trianglePath false true true a b c) = .ok [b, a, b, c, a] ∧
    closePolygon (trianglePath true false true a b c) = .ok [a, b, c, b, c] ∧
    closePolygon (trianglePath true true false a b c) = .ok [a, b, c, a, c] ∧
    closePolygon (trianglePath true false false a b c) = .ok [a, b, c, b, a, c] ∧
    closePolygon (trianglePath false true false a b c) = .ok [b, a, b, c, a, c] ∧
    closePolygon (trianglePath false false true a b c) = .ok [b, a, c, b, c, a] ∧
    closePolygon (trianglePath false false false a b c) = .ok [b, a, c, b, a, c] := by
  have ha := h.same a (by simp)
  have hb := h.same b (by simp)
  have hc := h.same c (by simp)
  unfold closePolygon
  refine ⟨?_, ?_, ?_, ?_, ?_, ?_, ?_, ?_⟩ <;>
    simp [trianglePath, asWritten, dedupBy, dedupAux, ha, hb, hc, h.ab, h.ba, h.bc, h.cb, h.ca, h.ac, idx, usub, ok_bind, pure_eq_ok]

theorem trim_fan {p : Plane F} {o : TrimOracle F} {bounds : List (EdgeLoop F)} {l : List (V3 F)} {k : Nat}
    (hc : collectLoops o bounds = .ok (l, [0, k])) {V : List Nat} (hv : computeVertexConvexity (l.map p.project) = .ok (V, []))
    (hV : V ≠ []) : p.trim o bounds = (do
      let T ← fanTriangles l.length
      pure ⟨l ++ [sumV3 l / (Nat.cast l.length : F)], [], T⟩) := by
  unfold Plane.trim
  rw [hc]
  have : V.length ≠ 0 := fun h => hV (List.length_eq_zero_iff.1 h)
  simp [ok_bind, hv, this]

theorem trim_ears {p : Plane F} {o : TrimOracle F} {bounds : List (EdgeLoop F)} {l : List (V3 F)} {k : Nat}
    (hc : collectLoops o bounds = .ok (l, [0, k])) {V C T : List Nat} (hv : computeVertexConvexity (l.map p.project) = .ok (V, C))
    (hV : V.length ≠ C.length) (hC : C ≠ []) (hT : triangulatePolygon o.bs o.earFuel (l.map p.project) V C = .ok T) :
    p.trim o bounds = .ok ⟨l, [], T⟩ := by
  unfold Plane.trim
  rw [hc]
  simp [ok_bind, pure_eq_ok, hv, hV, hC, hT]

/-- **C139** A triangular face by the number of its edges that are used against their direction: none gives three triangles
around the centre, one gives five, two or three give none. -/
theorem C139_triangle {p : Plane F} {o : TrimOracle F} (hbs : BinarySearch o.bs) (hf : 2 ≤ o.earFuel) {bounds : List (EdgeLoop F)}
    {a b c : V3 F} (hd : Apart3 a b c) (h : CornerFacts (p.project a) (p.project b) (p.project c)) {l : List (V3 F)} {f g k : Bool}
    (hl : closePolygon (trianglePath f g k a b c) = .ok l) (hc : collectLoops o bounds = .ok (l, [0, l.length])) :
    ∃ mesh, p.trim o bounds = .ok mesh ∧
      ([f, g, k].count false = 0 → mesh = ⟨[a, b, c, sumV3 [a, b, c] / (Nat.cast 3 : F)], [], [3, 0, 1, 3, 1, 2, 3, 2, 0]⟩) ∧
      ([f, g, k].count false = 1 → mesh = ⟨l ++ [sumV3 l / (Nat.cast 5 : F)], [],
        [5, 0, 1, 5, 1, 2, 5, 2, 3, 5, 3, 4, 5, 4, 0]⟩ ∧ (l = [b, a, b, c, a] ∨ l = [a, b, c, b, c] ∨ l = [a, b, c, a, c])) ∧
      (2 ≤ [f, g, k].count false → mesh.triangles = [] ∧ (mesh.vertices = l ∨ mesh.vertices = [])) := by
  obtain ⟨t0, t1, t2, t3, t4, t5, t6, t7⟩ := triangle_polygon hd
  obtain ⟨n, hn⟩ : ∃ n, o.earFuel = n + 2 := ⟨o.earFuel - 2, by omega⟩
  have hback := fun P hP Q hQ => (h.back P hP Q hQ).1
  have hab := hback (p.project a) (by simp) (p.project b) (by simp)
  have hba := hback (p.project b) (by simp) (p.project a) (by simp)
  have hbc := hback (p.project b) (by simp) (p.project c) (by simp)
  have hcb := hback (p.project c) (by simp) (p.project b) (by simp)
  have hca := hback (p.project c) (by simp) (p.project a) (by simp)
  have hac := hback (p.project a) (by simp) (p.project c) (by simp)
  have fan3 : fanTriangles 3 = .ok [3, 0, 1, 3, 1, 2, 3, 2, 0] := rfl
  have fan5 : fanTriangles 5 = .ok [5, 0, 1, 5, 1, 2, 5, 2, 3, 5, 3, 4, 5, 4, 0] := rfl
  cases f <;> cases g <;> cases k
  · cases hl.symm.trans t7
    refine ⟨TriangleMesh.new, ?_, by simp, by simp, fun _ => ⟨rfl, .inr rfl⟩⟩
    have : computeVertexConvexity ([b, a, c, b, a, c].map p.project) = .ok ([0, 1, 2, 3, 4, 5], [0, 1, 2, 3, 4, 5]) := by
      simp [computeVertexConvexity, forRange, List.range', h.acb, h.cba, h.bac, idx, ok_bind, pure_eq_ok]
    unfold Plane.trim
    rw [hc]
    simp only [ok_bind, this, pure_eq_ok]
    rfl
  · cases hl.symm.trans t6
    obtain ⟨v, t⟩ := twice_second hbs h.rotate.rotate n
    exact ⟨_, trim_ears hc v (by simp) (by simp) (by rw [hn]; exact t), by simp, by simp, fun _ => ⟨rfl, .inl rfl⟩⟩
  · cases hl.symm.trans t5
    obtain ⟨v, t⟩ := twice_third hbs h.rotate n
    exact ⟨_, trim_ears hc v (by simp) (by simp) (by rw [hn]; exact t), by simp, by simp, fun _ => ⟨rfl, .inl rfl⟩⟩
  · cases hl.symm.trans t1
    refine ⟨_, ?_, by simp, fun _ => ⟨rfl, .inl rfl⟩, by simp⟩
    rw [trim_fan (V := [2, 3, 4]) hc (by
      simp [computeVertexConvexity, forRange, List.range', h.abc, h.bca, h.cab, hab, hba, hca, hac, idx, ok_bind, pure_eq_ok]) (by simp)]
    rfl
  · cases hl.symm.trans t4
    obtain ⟨v, t⟩ := twice_first hbs h n
    exact ⟨_, trim_ears hc v (by simp) (by simp) (by rw [hn]; exact t), by simp, by simp, fun _ => ⟨rfl, .inl rfl⟩⟩
  · cases hl.symm.trans t2
    refine ⟨_, ?_, by simp, fun _ => ⟨rfl, .inr (.inl rfl)⟩, by simp⟩
    rw [trim_fan (V := [0, 1, 4]) hc (by
      simp [computeVertexConvexity, forRange, List.range', h.abc, h.bca, h.cab, hbc, hcb, hca, hac, idx, ok_bind, pure_eq_ok]) (by simp)]
    rfl
  · cases hl.symm.trans t3
    refine ⟨_, ?_, by simp, fun _ => ⟨rfl, .inr (.inr rfl)⟩, by simp⟩
    rw [trim_fan (V := [0, 1, 2]) hc (by
      simp [computeVertexConvexity, forRange, List.range', h.abc, h.bca, h.cab, hbc, hcb, hca, hac, idx, ok_bind, pure_eq_ok]) (by simp)]
    rfl
  · cases hl.symm.trans t0
    refine ⟨_, ?_, fun _ => rfl, by simp, by simp⟩
    rw [trim_fan (V := [0, 1, 2]) hc (by
      simp [computeVertexConvexity, forRange, List.range', h.abc, h.bca, h.cab, hbc, hcb, hca, hac, idx, ok_bind, pure_eq_ok]) (by simp)]
    rfl

end

/-! ### Exact arithmetic -/

theorem near_same_false {a b c : V3 ℝ} (h : StepsApart [a, b, c]) : Apart3 a b c := by
  have sym : ∀ p q : V3 ℝ, (p.distanceSq q : ℝ) = q.distanceSq p := fun p q => by
    simp only [V3.distanceSq, V3.lengthSq, V3.dot, V3.sub_x, V3.sub_y, V3.sub_z]
    ring
  have h1 := near_apart (h (a, b) (by simp [loopEdges, pathEdges]))
  have h2 := near_apart (h (b, c) (by simp [loopEdges, pathEdges]))
  have h3 := near_apart (h (c, a) (by simp [loopEdges, pathEdges]))
  exact ⟨fun p _ => near_self_real p, by rw [sym]; exact h1, h1, by rw [sym]; exact h2, h2, by rw [sym]; exact h3, h3⟩

section
variable {K : Type} [Field K] [LinearOrder K] [IsStrictOrderedRing K] [Env K]

theorem cornerFacts_exact (htol : (0 : K) ≤ Env.tol) {A B C : V2 K} (h : Env.tol < triArea2 A B C) : CornerFacts A B C := by
  have conv : ∀ {P Q R : V2 K}, triArea2 P Q R = triArea2 A B C → computeConvexity P Q R = .convex := by
    intro P Q R e
    have e' : (Q - P).perpDot (R - Q) = triArea2 A B C := by
      rw [← e]; simp only [triArea2, V2.perpDot, V2.sub_x, V2.sub_y]; ring
    unfold computeConvexity
    simp only []
    rw [e', if_neg, if_pos (htol.trans_lt h)]
    rw [near_zero]
    exact fun h' => absurd ((le_abs_self _).trans h') (not_le.2 h)
  have conc : ∀ {P Q R : V2 K}, triArea2 P Q R = -triArea2 A B C → computeConvexity P Q R = .concave := by
    intro P Q R e
    have e' : (Q - P).perpDot (R - Q) = -triArea2 A B C := by
      rw [← e]; simp only [triArea2, V2.perpDot, V2.sub_x, V2.sub_y]; ring
    unfold computeConvexity
    simp only []
    rw [e', if_neg, if_neg]
    · have := htol.trans_lt h
      linarith
    · rw [near_zero, abs_neg]
      exact fun h' => absurd ((le_abs_self _).trans h') (not_le.2 h)
  refine ⟨conv rfl, conv ?_, conv ?_, conc ?_, conc ?_, conc ?_, fun P _ Q _ => ⟨?_, ?_, ?_⟩⟩
  any_goals (simp only [triArea2]; ring)
  · have e : (Q - P).perpDot (P - Q) = 0 := by
      simp only [V2.perpDot, V2.sub_x, V2.sub_y]; ring
    unfold computeConvexity
    simp only []
    rw [e, if_pos]
    rw [near_zero, abs_zero]
    exact htol
  · simp [isInsideTriangle, V2.perpDot, mul_comm]
  · simp [isInsideTriangle, V2.perpDot, mul_comm]

end

/-! ### Binary64 -/

section
open F64

theorem cornerFacts_float {A B C : V2 Float} (hA : Bounded2 (2 ^ (254 : Int)) A) (hB : Bounded2 (2 ^ (254 : Int)) B)
    (hC : Bounded2 (2 ^ (254 : Int)) C) (h1 : computeConvexity A B C = .convex) (h2 : computeConvexity B C A = .convex)
    (h3 : computeConvexity C A B = .convex) : CornerFacts A B C := by
  have up : ∀ {p : V2 Float}, Bounded2 (2 ^ (254 : Int)) p → Bounded2 (2 ^ (509 : Int)) p :=
    fun h => h.mono (two_zpow_le (by norm_num))
  have ht := tol_pos
  have key : ∀ {P Q : V2 Float}, Bounded2 (2 ^ (254 : Int)) P → Bounded2 (2 ^ (254 : Int)) Q →
      computeConvexity P Q P = .colinear ∧ isInsideTriangle P P Q Q = true ∧ isInsideTriangle P Q Q P = true := by
    intro P Q hP hQ
    refine ⟨?_, ?_, ?_⟩
    · rw [computeConvexity_float (up hP) (up hQ) (up hP), perp_neg_right (by norm_num) le_rfl (up hP) (up hQ) (up hP) (up hQ),
        perp_same hP hQ, neg_zero, abs_zero, if_pos ht.le]
    · rw [isInsideTriangle_float (up hP) (up hP) (up hQ) (up hQ), perp_same hQ hP, perp_same_right hQ hP hQ, perp_same_left hQ hQ hP]
      exact ⟨le_rfl, le_rfl, le_rfl⟩
    · rw [isInsideTriangle_float (up hP) (up hQ) (up hQ) (up hP), perp_same_left hP hP hQ, perp_same hP hQ, perp_same_right hP hQ hP]
      exact ⟨le_rfl, le_rfl, le_rfl⟩
  have hb : ∀ P ∈ [A, B, C], Bounded2 (2 ^ (254 : Int)) P := by
    intro P hP
    rw [List.mem_cons, List.mem_cons, List.mem_singleton] at hP
    rcases hP with rfl | rfl | rfl
    · exact hA
    · exact hB
    · exact hC
  refine ⟨h1, h2, h3, ?_, ?_, ?_, fun P hP Q hQ => key (hb P hP) (hb Q hQ)⟩
  · rw [C113_convexity_reverse (up hA) (up hB) (up hC), h1]
  · rw [C113_convexity_reverse (up hB) (up hC) (up hA), h2]
  · rw [C113_convexity_reverse (up hC) (up hA) (up hB), h3]

/-- **C139** in binary64: a triangular face whose corners are classified as convex and whose vertices are told apart. -/
theorem C139_float {p : Plane Float} {o : TrimOracle Float} (hbs : BinarySearch o.bs) (hf : 2 ≤ o.earFuel)
    {bounds : List (EdgeLoop Float)} {a b c : V3 Float} (hd : Apart3 a b c) (hA : Bounded2 (2 ^ (254 : Int)) (p.project a))
    (hB : Bounded2 (2 ^ (254 : Int)) (p.project b)) (hC : Bounded2 (2 ^ (254 : Int)) (p.project c))
    (h1 : computeConvexity (p.project a) (p.project b) (p.project c) = .convex)
    (h2 : computeConvexity (p.project b) (p.project c) (p.project a) = .convex)
    (h3 : computeConvexity (p.project c) (p.project a) (p.project b) = .convex) {l : List (V3 Float)} {f g k : Bool}
    (hl : closePolygon (trianglePath f g k a b c) = .ok l) (hc : collectLoops o bounds = .ok (l, [0, l.length]))
    (hk : 2 ≤ [f, g, k].count false) : ∃ mesh, p.trim o bounds = .ok mesh ∧ mesh.triangles = [] := by
  obtain ⟨mesh, m1, -, -, m2⟩ := C139_triangle hbs hf hd (cornerFacts_float hA hB hC h1 h2 h3) hl hc
  exact ⟨mesh, m1, (m2 hk).1⟩

end

/-! ### Files -/

/-- How many triangles a triangular face gets if it uses `k` edges against their direction. -/
def Spec.countFor (k : Nat) : Nat := if k = 0 then 3 else if k = 1 then 5 else 0

/-- Corners of a triangular face, counter-clockwise as seen from the side of the normal. -/
def Spec.TriangleSide (s : FaceSide) : Prop :=
  ∃ a b c, s.corners = [a, b, c] ∧ StepsApart [a, b, c] ∧
    Env.tol < triArea2 (s.plane.project a) (s.plane.project b) (s.plane.project c)

/-- The number of edges used against their direction. -/
def Spec.FaceSide.backward (s : FaceSide) : Nat := (s.uses.map Prod.snd).count false

/-- **C139** A triangular face of a file. -/
theorem C139_face {file : StepFile ℝ} {face : StepAdvancedFace} {s : FaceSide} (h : SaysPolygon file face s.plane s.uses s.corners)
    (hs : TriangleSide s) : ∃ t, SaysFace file face t ∧ ∀ o : TrimOracle ℝ, BinarySearch o.bs → 0 < o.divFuel → 2 ≤ o.earFuel →
      ∃ mesh, t.getTriangleMesh o = .ok mesh ∧ ValidMesh mesh ∧ mesh.triangleCount = countFor s.backward ∧
        mesh.vertices.length ≤ 6 ∧ (s.backward = 1 → ¬ (meshFaces mesh).Nodup) := by
  obtain ⟨a, b, c, hv, hd, harea⟩ := hs
  obtain ⟨t, ht, hr⟩ := polygon_read h
  have hlen := h.2.1
  rw [hv] at hlen hr
  obtain ⟨⟨g1, f⟩, ⟨g2, g⟩, ⟨g3, k⟩, hu⟩ : ∃ u1 u2 u3, s.uses = [u1, u2, u3] := List.length_eq_three.1 hlen
  refine ⟨t, ht, fun o hbs hdiv hear => ?_⟩
  obtain ⟨e, hc⟩ := hr o hdiv
  have hpath : writtenPath (s.uses.map Prod.snd) [a, b, c] = trianglePath f g k a b c := by
    rw [hu]
    simp [writtenPath, trianglePath, loopEdges, pathEdges]
  rw [hpath] at hc
  have hb : s.backward = [f, g, k].count false := by rw [FaceSide.backward, hu]; rfl
  have hap := near_same_false hd
  obtain ⟨l, hl, hne, h6⟩ : ∃ l, closePolygon (trianglePath f g k a b c) = .ok l ∧ l ≠ [] ∧ l.length ≤ 6 := by
    obtain ⟨t0, t1, t2, t3, t4, t5, t6, t7⟩ := triangle_polygon hap
    cases f <;> cases g <;> cases k
    · exact ⟨_, t7, by simp, by simp⟩
    · exact ⟨_, t6, by simp, by simp⟩
    · exact ⟨_, t5, by simp, by simp⟩
    · exact ⟨_, t1, by simp, by simp⟩
    · exact ⟨_, t4, by simp, by simp⟩
    · exact ⟨_, t2, by simp, by simp⟩
    · exact ⟨_, t3, by simp, by simp⟩
    · exact ⟨_, t0, by simp, by simp⟩
  obtain ⟨mesh, h1, h2, h3, h4⟩ := C139_triangle hbs hear hap (cornerFacts_exact (by norm_num [Env.tol]) harea) hl (hc l hl hne)
  obtain ⟨⟨n, v1⟩, v2, v3⟩ := C53_valid h1
  refine ⟨mesh, e.trans h1, ⟨by omega, v2, .inl v3⟩, ?_, ?_, fun hb1 => ?_⟩
  · rw [hb]
    rcases Nat.lt_trichotomy ([f, g, k].count false) 1 with h0 | h0 | h0
    · rw [h2 (by omega), show [f, g, k].count false = 0 by omega]
      simp [TriangleMesh.triangleCount, countFor]
    · rw [(h3 h0).1, h0]
      simp [TriangleMesh.triangleCount, countFor]
    · unfold TriangleMesh.triangleCount countFor
      rw [(h4 h0).1, if_neg (by omega), if_neg (by omega)]; rfl
  · rcases Nat.lt_trichotomy ([f, g, k].count false) 1 with h0 | h0 | h0
    · rw [h2 (by omega)]; simp
    · obtain ⟨e1, e2⟩ := h3 h0
      rw [e1]
      rcases e2 with rfl | rfl | rfl <;> simp
    · rcases (h4 h0).2 with e1 | e1
      · rw [e1]; exact h6
      · rw [e1]; simp
  · obtain ⟨e1, e2⟩ := h3 (hb ▸ hb1)
    rw [e1]
    rcases e2 with rfl | rfl | rfl <;> simp [meshFaces, triples]

/-- Every edge is used as often in its direction as against it, as in the boundary of a solid. -/
def Spec.Closed (sides : List FaceSide) : Prop :=
  ∀ g, (sides.flatMap (·.uses)).count (g, true) = (sides.flatMap (·.uses)).count (g, false)

theorem closed_flags {sides : List FaceSide} (h : Closed sides) :
    (sides.map fun s => (s.uses.map Prod.snd).count true).sum = (sides.map fun s => s.backward).sum := by
  have key : ∀ L : List (Ref × Bool), (∀ g, L.count (g, true) = L.count (g, false)) →
      (L.map Prod.snd).count true = (L.map Prod.snd).count false := by
    intro L hL
    have part : ∀ b, ((L.filter fun u => u.2 == b).map Prod.fst).length = (L.map Prod.snd).count b := by
      intro b
      rw [List.length_map, List.count, List.countP_map, List.countP_eq_length_filter]
      rfl
    have cnt : ∀ b g, ((L.filter fun u => u.2 == b).map Prod.fst).count g = L.count (g, b) := by
      intro b g
      rw [List.count, List.countP_map, List.countP_filter, List.count]
      refine List.countP_congr fun u _ => ?_
      rcases u with ⟨x, y⟩
      simp
    have hp : ((L.filter fun u => u.2 == true).map Prod.fst).Perm ((L.filter fun u => u.2 == false).map Prod.fst) :=
      List.perm_iff_count.2 fun g => by rw [cnt, cnt]; exact hL g
    rw [← part, ← part]
    exact hp.length_eq
  have h1 := key _ h
  rw [List.map_flatMap, List.count_flatMap, List.count_flatMap] at h1
  exact h1

theorem count_flags : ∀ l : List Bool, l.count true + l.count false = l.length
  | [] => rfl
  | b :: l => by
    have := count_flags l
    cases b <;> simp <;> omega

theorem sum_le_of_le {α : Type} {l : List α} {f g : α → Nat} (h : ∀ a ∈ l, f a ≤ g a) : (l.map f).sum ≤ (l.map g).sum := by
  induction l with
  | nil => exact le_refl _
  | cons a l ih =>
    rw [List.map_cons, List.map_cons, List.sum_cons, List.sum_cons]
    have := h a (by simp)
    have := ih fun a ha => h a (by simp [ha])
    omega

/-- In the boundary of a solid made of triangles some triangle uses two of its edges against their direction. -/
theorem closed_backward {sides : List FaceSide} (h : Closed sides) (hne : sides ≠ []) (h3 : ∀ s ∈ sides, s.uses.length = 3) :
    ∃ s ∈ sides, 2 ≤ s.backward := by
  by_contra hc
  push Not at hc
  have h1 := closed_flags h
  have h2 : (sides.map fun s => s.backward).sum ≤ (sides.map fun _ => 1).sum :=
    sum_le_of_le fun s hs => Nat.le_of_lt_succ (hc s hs)
  have h4 : (sides.map fun _ => 2).sum ≤ (sides.map fun s => (s.uses.map Prod.snd).count true).sum :=
    sum_le_of_le fun s hs => by
      have a1 := hc s hs
      have a2 : (s.uses.map Prod.snd).count true + (s.uses.map Prod.snd).count false = (s.uses.map Prod.snd).length :=
        count_flags _
      rw [List.length_map, h3 s hs] at a2
      unfold FaceSide.backward at a1
      omega
  have hl : 0 < sides.length := List.length_pos_iff.2 hne
  simp only [List.map_const', List.sum_replicate, smul_eq_mul] at h2 h4
  omega

theorem triangles_read {file : StepFile ℝ} {faces : List StepAdvancedFace} {sides : List FaceSide}
    (h : List.Forall₂ (fun face s => SaysPolygon file face s.plane s.uses s.corners) faces sides)
    (hs : ∀ s ∈ sides, TriangleSide s) (o : Nat → TrimOracle ℝ)
    (hbs : ∀ i, BinarySearch (o i).bs) (hdiv : ∀ i, 0 < (o i).divFuel) (hear : ∀ i, 2 ≤ (o i).earFuel) (k : Nat) :
    ∃ ts meshes, List.Forall₂ (SaysFace file) faces ts ∧
      List.Forall₂ (fun (f : TrimmedSurface ℝ × Nat) m => f.1.getTriangleMesh (o f.2) = .ok m ∧ ValidMesh m) (ts.zipIdx k) meshes ∧
      List.Forall₂ (fun (s : FaceSide) m => m.triangleCount = countFor s.backward ∧ m.vertices.length ≤ 6 ∧
        (s.backward = 1 → ¬ (meshFaces m).Nodup) ∧ (2 ≤ s.backward → meshFaces m = [])) sides meshes := by
  induction h generalizing k with
  | nil => exact ⟨[], [], .nil, .nil, .nil⟩
  | @cons face s _ _ h1 _ ih =>
    obtain ⟨ts, ms, a1, a2, a3⟩ := ih (fun s h => hs s (by simp [h])) (k + 1)
    obtain ⟨t, b1, b2⟩ := C139_face h1 (hs s (by simp))
    obtain ⟨m, c1, c2, c3, c4, c5⟩ := b2 (o k) (hbs k) (hdiv k) (hear k)
    refine ⟨t :: ts, m :: ms, .cons b1 a1, by rw [List.zipIdx_cons]; exact .cons ⟨c1, c2⟩ a2,
      .cons ⟨c3, c4, c5, fun hb => ?_⟩ a3⟩
    unfold countFor TriangleMesh.triangleCount at c3
    rw [if_neg (by omega), if_neg (by omega)] at c3
    have hv : m.triangles.length % 3 = 0 := by simpa using c2.triples
    have : m.triangles = [] := List.length_eq_zero_iff.1 (by omega)
    unfold meshFaces
    rw [this]
    rfl

/-- **C139** `convert_stp` on a file with triangular faces: each has three, five or no triangles in the OBJ file, by the number
of edges it uses against their direction, two of the five being the same; if the faces bound a solid, some face has none. -/
theorem C139_convert {file : StepFile ℝ} {sides : List FaceSide} (hc : file.compositeCurves = []) (hne : sides ≠ [])
    (h : List.Forall₂ (fun face s => SaysPolygon file face s.plane s.uses s.corners) file.advancedFaces sides)
    (hs : ∀ s ∈ sides, TriangleSide s) {o : Nat → TrimOracle ℝ} (hbs : ∀ i, BinarySearch (o i).bs)
    (hdiv : ∀ i, 0 < (o i).divFuel) (hear : ∀ i, 2 ≤ (o i).earFuel) (hsz : 6 * sides.length + 1 < 2 ^ 32)
    (fmt : ℝ → List Char) (fuel : Nat) (rnd : Nat → Nat → List Bool → ℝ) :
    ∃ lines meshes, convertStp o fmt fuel rnd file = .ok (some lines, none) ∧ (objRead lines).faces = meshes.flatMap meshFaces ∧
      List.Forall₂ (fun (s : FaceSide) m => m.triangleCount = countFor s.backward ∧ (s.backward = 1 → ¬ (meshFaces m).Nodup) ∧
        (2 ≤ s.backward → meshFaces m = [])) sides meshes ∧
      (Closed sides → ∃ (i : Nat) (s : FaceSide) (m : TriangleMesh ℝ), sides[i]? = some s ∧ meshes[i]? = some m ∧ 2 ≤ s.backward ∧ meshFaces m = []) := by
  obtain ⟨ts, ms, a1, a2, a3⟩ := triangles_read h hs o hbs hdiv hear 0
  have hsz' : (ms.map fun m => m.vertices.length).sum + 1 < 2 ^ 32 := by
    have : (ms.map fun m => m.vertices.length).sum ≤ 6 * sides.length := by
      clear hsz hne h hs a2 a1
      induction a3 with
      | nil => simp
      | cons h1 _ ih =>
        rw [List.map_cons, List.sum_cons, List.length_cons]
        have := h1.2.1
        omega
    omega
  obtain ⟨obj, svg, h1, h2, h3, h4, -⟩ := C115_convert (curves := []) (paths := []) (by rw [hc]; exact .nil) a1 (o := o)
    (fmt := fmt) (fuel := fuel) (rnd := rnd) a2 hsz' .nil
  have hts : ts ≠ [] := by
    rintro rfl
    have e1 := a1.length_eq
    have e2 := h.length_eq
    rw [e1] at e2
    exact hne (List.length_eq_zero_iff.1 e2.symm)
  obtain ⟨lines, rfl⟩ := Option.isSome_iff_exists.1 (h2.2 hts)
  have hsvg : svg = none := by
    rcases svg with _ | d
    · rfl
    · exact absurd rfl (h3.1 rfl)
  subst hsvg
  refine ⟨lines, ms, h1, h4 lines rfl, a3.imp fun _ _ h => ⟨h.1, h.2.2⟩, fun hcl => ?_⟩
  obtain ⟨s, hs', hb⟩ := closed_backward hcl hne fun s hs' => by
    obtain ⟨i, hi, rfl⟩ := List.getElem_of_mem hs'
    have := (List.forall₂_iff_get.1 h).2 i (by rw [h.length_eq]; exact hi) hi
    obtain ⟨a, b, c, e, -⟩ := hs _ hs'
    have e2 := this.2.1
    simp only [List.get_eq_getElem] at e2
    rw [e2, e]
    rfl
  obtain ⟨i, hi, rfl⟩ := List.getElem_of_mem hs'
  have hi' : i < ms.length := by rw [← a3.length_eq]; exact hi
  have hm := ((List.forall₂_iff_get.1 a3).2 i hi hi').2.2.2
  exact ⟨i, _, _, List.getElem?_eq_getElem hi, List.getElem?_eq_getElem hi', hb, hm hb⟩

/-! ### A sample file -/

/-- The four loops of the tetrahedron, counter-clockwise as seen from outside. -/
def tetraLoops (f : Nat) : List Ref :=
  match f with
  | 0 => [101, 203, 200]
  | 1 => [100, 104, 202]
  | 2 => [102, 205, 201]
  | _ => [103, 105, 204]

/-- A solid tetrahedron. -/
noncomputable def solidFile : StepFile ℝ := tetraFile tetraLoops [0, 1, 2, 3]

noncomputable def solidSides : List FaceSide :=
  [tetraSide 0 [(21, true), (23, false), (20, false)] 0 2 1, tetraSide 1 [(20, true), (24, true), (22, false)] 0 1 3,
    tetraSide 2 [(22, true), (25, false), (21, false)] 0 3 2, tetraSide 3 [(23, true), (25, true), (24, false)] 1 2 3]

theorem solid_says : List.Forall₂ (fun face s => SaysPolygon solidFile face s.plane s.uses s.corners) solidFile.advancedFaces
    solidSides := by
  refine .cons ?_ (.cons ?_ (.cons ?_ (.cons ?_ .nil)))
  · exact tetra_polygon (f := 0) (i := 0) (j := 2) (k := 1) _ (by norm_num) rfl (tetra_forward _ _ (e := 1) (by norm_num))
      (tetra_backward _ _ (e := 3) (by norm_num)) (tetra_backward _ _ (e := 0) (by norm_num))
  · exact tetra_polygon (f := 1) (i := 0) (j := 1) (k := 3) _ (by norm_num) rfl (tetra_forward _ _ (e := 0) (by norm_num))
      (tetra_forward _ _ (e := 4) (by norm_num)) (tetra_backward _ _ (e := 2) (by norm_num))
  · exact tetra_polygon (f := 2) (i := 0) (j := 3) (k := 2) _ (by norm_num) rfl (tetra_forward _ _ (e := 2) (by norm_num))
      (tetra_backward _ _ (e := 5) (by norm_num)) (tetra_backward _ _ (e := 1) (by norm_num))
  · exact tetra_polygon (f := 3) (i := 1) (j := 2) (k := 3) _ (by norm_num) rfl (tetra_forward _ _ (e := 3) (by norm_num))
      (tetra_forward _ _ (e := 5) (by norm_num)) (tetra_backward _ _ (e := 4) (by norm_num))

theorem solid_triangles : ∀ s ∈ solidSides, TriangleSide s := by
  have side : ∀ f u i j k, i < 4 → j < 4 → k < 4 → i ≠ j → j ≠ k → k ≠ i →
      Env.tol < triArea2 ((tetraPlane f).project (tetraPoint i)) ((tetraPlane f).project (tetraPoint j)) ((tetraPlane f).project (tetraPoint k)) →
      TriangleSide (tetraSide f u i j k) := by
    intro f u i j k hi hj hk h1 h2 h3 ha
    refine ⟨_, _, _, rfl, ?_, ha⟩
    have hd : ∀ i < 4, ∀ j < 4, i ≠ j → Env.tol < (tetraPoint i).distanceSq (tetraPoint j) := by
      intro i hi j hj hij
      interval_cases i <;> interval_cases j <;> first | exact absurd rfl hij | norm_num [tetraPoint, V3.distanceSq, V3.lengthSq, V3.dot, Env.tol]
    intro e he
    replace he : e ∈ [(tetraPoint i, tetraPoint j), (tetraPoint j, tetraPoint k), (tetraPoint k, tetraPoint i)] := he
    simp only [List.mem_cons, List.not_mem_nil, or_false] at he
    rcases he with rfl | rfl | rfl
    · exact hd _ hj _ hi h1.symm
    · exact hd _ hk _ hj h2.symm
    · exact hd _ hi _ hk h3.symm
  intro s hs
  simp only [solidSides, List.mem_cons, List.not_mem_nil, or_false] at hs
  rcases hs with rfl | rfl | rfl | rfl <;> refine side _ _ _ _ _ (by norm_num) (by norm_num) (by norm_num) (by norm_num) (by norm_num) (by norm_num) ?_ <;>
    norm_num [triArea2, tetraPlane, tetraPoint, tetraAxes, Plane.project, V3.dot, V3.cross, Env.tol]

theorem solid_closed : Closed solidSides := by
  intro g
  have e : solidSides.flatMap (·.uses) = [(21, true), (23, false), (20, false), (20, true), (24, true), (22, false), (22, true),
    (25, false), (21, false), (23, true), (25, true), (24, false)] := rfl
  rw [e]
  simp only [List.count_cons, List.count_nil, beq_iff_eq, Prod.mk.injEq, and_true, and_false, reduceCtorEq, Bool.true_eq_false, Bool.false_eq_true, if_false, Nat.add_zero, Nat.zero_add]
  omega

/-- The tetrahedron is converted, but two of its four faces are missing, and the other two get five triangles each. -/
theorem C139_example {o : Nat → TrimOracle ℝ} (hbs : ∀ i, BinarySearch (o i).bs) (hdiv : ∀ i, 0 < (o i).divFuel)
    (hear : ∀ i, 2 ≤ (o i).earFuel) (fmt : ℝ → List Char) (fuel : Nat) (rnd : Nat → Nat → List Bool → ℝ) :
    ∃ lines m1 m2, convertStp o fmt fuel rnd solidFile = .ok (some lines, none) ∧
      (objRead lines).faces = meshFaces m1 ++ meshFaces m2 ∧ m1.triangleCount = 5 ∧ m2.triangleCount = 5 := by
  obtain ⟨lines, meshes, h1, h2, h3, -⟩ := C139_convert (file := solidFile) rfl (by simp [solidSides]) solid_says solid_triangles
    hbs hdiv hear (by simp [solidSides]) fmt fuel rnd
  have b0 : (tetraSide 0 [(21, true), (23, false), (20, false)] 0 2 1).backward = 2 := rfl
  have b1 : (tetraSide 1 [(20, true), (24, true), (22, false)] 0 1 3).backward = 1 := rfl
  have b2 : (tetraSide 2 [(22, true), (25, false), (21, false)] 0 3 2).backward = 2 := rfl
  have b3 : (tetraSide 3 [(23, true), (25, true), (24, false)] 1 2 3).backward = 1 := rfl
  unfold solidSides at h3
  rcases h3 with _ | ⟨c0, _ | ⟨c1, _ | ⟨c2, _ | ⟨c3, _ | _⟩⟩⟩⟩
  rw [b0] at c0
  rw [b1] at c1
  rw [b2] at c2
  rw [b3] at c3
  refine ⟨lines, _, _, h1, ?_, c1.1, c3.1⟩
  rw [h2]
  simp [c0.2.2 (le_refl _), c2.2.2 (le_refl _)]

end Geom3d
