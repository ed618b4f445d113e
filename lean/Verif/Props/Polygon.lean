import Verif.Props.Planar
import Verif.Lemmas.Loops
import Mathlib.Data.List.Sort

/-! # C36, C37: polygon orientation and vertex convexity -/

set_option linter.unusedSectionVars false

namespace Geom3d

section
variable {K : Type} [Field K] [LinearOrder K] [IsStrictOrderedRing K] [Env K]

/-! ### C36 -/

theorem getLast?_cons_eq {α : Type} (a : α) (t : List α) : (a :: t)[t.length]? = some ((a :: t).getLast (by simp)) := by
  rw [List.getLast_eq_getElem]; simp

/-- Summing over consecutive indices is summing over the edges of the open path. -/
theorem edgeLoop_eq (g : V2 K → V2 K → K) (a : V2 K) (t : List (V2 K)) :
    (forRange 0 t.length (0 : K) fun sum i => do
      let p1 ← idx (a :: t) (i + 1)
      let p0 ← idx (a :: t) i
      pure (sum + g p0 p1)) = .ok ((Spec.pathEdges (a :: t)).map fun e => g e.1 e.2).sum := by
  obtain ⟨s, h1, h2⟩ := forRange_inv (a := 0) (b := t.length) (s := (0 : K))
    (body := fun sum i => do
      let p1 ← idx (a :: t) (i + 1)
      let p0 ← idx (a :: t) i
      pure (sum + g p0 p1))
    (fun i s => s = (((Spec.pathEdges (a :: t)).take i).map fun e => g e.1 e.2).sum)
    (Nat.zero_le _) (by simp) (by
      intro i s _ hi hs
      obtain ⟨q1, e1⟩ : ∃ q, (a :: t)[i + 1]? = some q := ⟨_, List.getElem?_eq_getElem (by simpa using hi)⟩
      obtain ⟨q0, e0⟩ : ∃ q, (a :: t)[i]? = some q := ⟨_, List.getElem?_eq_getElem (by simp; omega)⟩
      refine ⟨_, by rw [idx_of_getElem? e1, idx_of_getElem? e0]; rfl, ?_⟩
      rw [List.take_add_one, List.map_append, List.sum_append, ← hs,
        Spec.getElem?_pathEdges _ _ _ _ e0 e1]
      simp)
  rw [h1, h2]
  have : (Spec.pathEdges (a :: t)).take t.length = Spec.pathEdges (a :: t) := by
    apply List.take_of_length_le
    rw [Spec.length_pathEdges]; simp
  rw [this]

/-- **C36**: on a non-empty polygon the result is the sign of the shoelace area. -/
theorem C36_sign {points : List (V2 K)} (h : points ≠ []) :
    isPolygonCcw points = .ok (decide (0 < Spec.area2 points)) := by
  obtain ⟨a, t, rfl⟩ := List.exists_cons_of_ne_nil h
  unfold isPolygonCcw
  have hl : usub (a :: t).length 1 = .ok t.length := by rw [usub_ok (by simp)]; simp
  rw [hl]
  simp only [ok_bind]
  have hloop := edgeLoop_eq (fun p q : V2 K => (q.x - p.x) * (p.y + q.y)) a t
  rw [hloop]
  simp only [ok_bind]
  rw [idx_of_getElem? (show (a :: t)[0]? = some a from rfl), idx_of_getElem? (getLast?_cons_eq a t)]
  simp only [ok_bind, pure_eq_ok]
  have key : ∀ l : List (V2 K), ((Spec.loopEdges l).map fun e => (e.2.x - e.1.x) * (e.1.y + e.2.y)).sum
      = -Spec.area2 l := by
    intro l
    have : ((Spec.loopEdges l).map fun e => (e.2.x - e.1.x) * (e.1.y + e.2.y)).sum + Spec.area2 l
        = ((Spec.loopEdges l).map fun e => e.2.x * e.2.y - e.1.x * e.1.y).sum := by
      unfold Spec.area2
      rw [← List.sum_map_add]
      apply congrArg
      apply List.map_congr_left
      intro e _
      simp only [Spec.cross2]; ring
    rw [Spec.sum_loopEdges_sub (fun p : V2 K => p.x * p.y)] at this
    linarith
  have hsum : ((Spec.pathEdges (a :: t)).map fun e => (e.2.x - e.1.x) * (e.1.y + e.2.y)).sum
      + (a.x - ((a :: t).getLast (by simp)).x) * (((a :: t).getLast (by simp)).y + a.y)
      = -Spec.area2 (a :: t) := by
    rw [← key, Spec.loopEdges_cons]
    obtain ⟨l, z, hz⟩ : ∃ l z, a :: t = l ++ [z] := ⟨_, _, (List.dropLast_append_getLast (l := a :: t) (by simp)).symm⟩
    have hz' : (a :: t).getLast (by simp) = z := by simp [hz]
    rw [hz', ← List.cons_append, hz, List.append_assoc]
    show _ = ((Spec.pathEdges (l ++ z :: [a])).map _).sum
    rw [Spec.pathEdges_append l z [a], List.map_append, List.sum_append]
    simp
  rw [hsum]
  congr 1
  rw [decide_eq_decide]
  constructor <;> intro h <;> linarith

/-- **C36**: an empty polygon panics (`points.len() - 1` underflows). -/
theorem C36_empty_panics : isPolygonCcw ([] : List (V2 K)) = .error .overflow := rfl

/-- **C36**: the answer does not depend on the starting vertex. -/
theorem C36_rotate (points : List (V2 K)) (k : Nat) : isPolygonCcw (points.rotate k) = isPolygonCcw points := by
  by_cases h : points = []
  · subst h; simp
  · rw [C36_sign h, C36_sign (by simpa using h), Spec.area2_rotate]

/-- **C36**: the answer does not depend on a translation. -/
theorem C36_translate (points : List (V2 K)) (t : V2 K) :
    isPolygonCcw (points.map (· + t)) = isPolygonCcw points := by
  by_cases h : points = []
  · subst h; rfl
  · rw [C36_sign h, C36_sign (by simpa using h), Spec.area2_translate]

/-- **C36**: reversing the vertex order turns the question into "is the area negative". -/
theorem C36_reverse {points : List (V2 K)} (h : points ≠ []) :
    isPolygonCcw points.reverse = .ok (decide (Spec.area2 points < 0)) := by
  rw [C36_sign (by simpa using h), Spec.area2_reverse]
  congr 1
  rw [decide_eq_decide]
  constructor <;> intro h <;> linarith

/-- The shoelace area agrees with the area of a triangle and of an axis-parallel rectangle. -/
theorem area2_triangle (a b c : V2 K) : Spec.area2 [a, b, c] = Spec.triArea2 a b c := by
  simp [Spec.area2, Spec.loopEdges, Spec.pathEdges, Spec.cross2, Spec.triArea2]; ring

theorem area2_rectangle (x y w h : K) :
    Spec.area2 [⟨x, y⟩, ⟨x + w, y⟩, ⟨x + w, y + h⟩, ⟨x, y + h⟩] = 2 * (w * h) := by
  simp [Spec.area2, Spec.loopEdges, Spec.pathEdges, Spec.cross2]; ring

/-- Non-vacuity of C36 (an L-shaped polygon, both orientations). -/
example : isPolygonCcw ([⟨0, 0⟩, ⟨4, 0⟩, ⟨4, 1⟩, ⟨1, 1⟩, ⟨1, 4⟩, ⟨0, 4⟩] : List (V2 ℚ)) = .ok true ∧
    isPolygonCcw ([⟨0, 4⟩, ⟨1, 4⟩, ⟨1, 1⟩, ⟨4, 1⟩, ⟨4, 0⟩, ⟨0, 0⟩] : List (V2 ℚ)) = .ok false := by decide +kernel

/-! ### C37 -/

theorem getD_of_lt {α : Type} {l : List α} {i : Nat} (d : α) (h : i < l.length) : l.getD i d = l[i] := by
  simp [List.getD, h]

/-- Turn at vertex `i` of a closed polygon: cross product of the incoming and outgoing edge, positive for a
left turn. -/
def Spec.turn (pts : List (V2 K)) (i : Nat) : K :=
  let n := pts.length
  let a := pts.getD ((i + n - 1) % n) 0
  let b := pts.getD i 0
  let c := pts.getD ((i + 1) % n) 0
  (b.x - a.x) * (c.y - b.y) - (b.y - a.y) * (c.x - b.x)

theorem computeConvexity_eq (a b c : V2 K) (htol : (0 : K) ≤ Env.tol) :
    computeConvexity a b c =
      (let t := (b.x - a.x) * (c.y - b.y) - (b.y - a.y) * (c.x - b.x)
       if |t| ≤ Env.tol then .colinear else if Env.tol < t then .convex else .concave) := by
  unfold computeConvexity
  simp only [V2.perpDot, V2.sub_x, V2.sub_y, near_zero]
  have key : ∀ t : K, (if |t| ≤ Env.tol then Convexity.colinear else if 0 < t then .convex else .concave) =
      if |t| ≤ Env.tol then .colinear else if Env.tol < t then .convex else .concave := ?_
  · exact key _
  intro t
  split
  · rfl
  · rename_i h
    rw [abs_le, not_and_or, not_le, not_le] at h
    by_cases h1 : 0 < t
    · rw [if_pos h1, if_pos]
      rcases h with h | h
      · linarith
      · exact h
    · rw [if_neg h1, if_neg]
      push Not at h1 ⊢; linarith

theorem filter_range_succ (p : Nat → Bool) (n : Nat) :
    (List.range (n + 1)).filter p = (List.range n).filter p ++ (if p n then [n] else []) := by
  rw [List.range_succ, List.filter_append, List.filter_singleton]
  cases p n <;> rfl

/-- **C37**: `compute_vertex_convexity` returns, in increasing order, the indices whose turn is not within
`tol` of straight, and those that turn right by more than `tol`. -/
theorem C37_compute (htol : (0 : K) ≤ Env.tol) (points : List (V2 K)) :
    computeVertexConvexity points = .ok
      ((List.range points.length).filter fun i => decide (Env.tol < |Spec.turn points i|),
       (List.range points.length).filter fun i => decide (Spec.turn points i < -Env.tol)) := by
  unfold computeVertexConvexity
  obtain ⟨s, h1, h2⟩ := forRange_inv (a := 0) (b := points.length) (s := (([], []) : List Nat × List Nat))
    (body := fun (vertices, concave) i => do
      let a ← idx points ((points.length + i - 1) % points.length)
      let b ← idx points i
      let c ← idx points ((i + 1) % points.length)
      match computeConvexity a b c with
      | .convex => pure (vertices ++ [i], concave)
      | .concave => pure (vertices ++ [i], concave ++ [i])
      | .colinear => pure (vertices, concave))
    (fun i s => s = ((List.range i).filter fun i => decide (Env.tol < |Spec.turn points i|),
       (List.range i).filter fun i => decide (Spec.turn points i < -Env.tol)))
    (Nat.zero_le _) rfl (by
      intro i s _ hi hs
      subst hs
      have hn : 0 < points.length := by omega
      have ea := Nat.mod_lt (points.length + i - 1) hn
      have ec := Nat.mod_lt (i + 1) hn
      simp only [idx_ok ea, idx_ok hi, idx_ok ec, ok_bind, computeConvexity_eq _ _ _ htol]
      have ht : (points[i].x - points[(points.length + i - 1) % points.length].x)
          * (points[(i + 1) % points.length].y - points[i].y)
          - (points[i].y - points[(points.length + i - 1) % points.length].y)
          * (points[(i + 1) % points.length].x - points[i].x) = Spec.turn points i := by
        unfold Spec.turn
        simp only [Nat.add_comm i points.length, getD_of_lt _ ea, getD_of_lt _ hi,
          getD_of_lt _ ec]
      rw [ht, filter_range_succ, filter_range_succ]
      by_cases c1 : |Spec.turn points i| ≤ Env.tol
      · rw [if_pos c1]
        have := (abs_le.1 c1).1
        refine ⟨_, rfl, ?_⟩
        simp [not_lt.2 c1, not_lt.2 this]
      · rw [if_neg c1]
        by_cases c2 : Env.tol < Spec.turn points i
        · rw [if_pos c2]
          refine ⟨_, rfl, ?_⟩
          have : ¬ Spec.turn points i < -Env.tol := by linarith
          simp [not_le.1 c1, this]
        · rw [if_neg c2]
          refine ⟨_, rfl, ?_⟩
          have : Spec.turn points i < -Env.tol := by
            rw [abs_le, not_and_or, not_le, not_le] at c1
            rcases c1 with h | h
            · exact h
            · exact absurd h c2
          simp [not_le.1 c1, this])
  rw [h2] at h1
  exact h1

theorem insNat_perm (a : Nat) (l : List Nat) : (insNat a l).Perm (a :: l) := by
  induction l with
  | nil => exact List.Perm.refl _
  | cons b l ih =>
    unfold insNat; split
    · exact List.Perm.refl _
    · exact (List.Perm.cons b ih).trans (List.Perm.swap a b l)

theorem sortNat_perm (l : List Nat) : (sortNat l).Perm l := by
  induction l with
  | nil => exact List.Perm.refl _
  | cons a l ih => exact (insNat_perm a _).trans (List.Perm.cons a ih)

theorem insNat_sorted {a : Nat} {l : List Nat} (h : l.Pairwise (· ≤ ·)) : (insNat a l).Pairwise (· ≤ ·) := by
  induction l with
  | nil => simp [insNat]
  | cons b l ih =>
    rw [List.pairwise_cons] at h
    unfold insNat; split
    · rename_i hab
      rw [List.pairwise_cons]
      refine ⟨?_, List.pairwise_cons.2 h⟩
      intro c hc
      rcases List.mem_cons.1 hc with rfl | hc
      · exact hab
      · exact hab.trans (h.1 c hc)
    · rename_i hab
      rw [List.pairwise_cons]
      refine ⟨?_, ih h.2⟩
      intro c hc
      rcases List.mem_cons.1 ((insNat_perm a l).subset hc) with rfl | hc
      · omega
      · exact h.1 c hc

theorem sortNat_sorted (l : List Nat) : (sortNat l).Pairwise (· ≤ ·) := by
  induction l with
  | nil => exact List.Pairwise.nil
  | cons a l ih => exact insNat_sorted ih

/-- Erasing a set of positions from the largest to the smallest keeps exactly the other positions. -/
theorem foldr_eraseIdx_filter {α : Type} (p : Nat → Bool) (d : α) (k : Nat) (l : List α) (hk : k ≤ l.length) :
    ((List.range k).filter p).foldr (fun j vs => vs.eraseIdx j) l
      = ((List.range k).filter fun i => !p i).map (fun i => l.getD i d) ++ l.drop k := by
  induction k generalizing l with
  | zero => simp
  | succ k ih =>
    rw [filter_range_succ, filter_range_succ, List.foldr_append]
    have hk' : k < l.length := by omega
    by_cases hp : p k
    · simp only [hp, if_true, List.foldr_cons, List.foldr_nil, Bool.not_true, Bool.false_eq_true, if_false,
        List.append_nil]
      rw [ih _ (by rw [List.length_eraseIdx_of_lt hk']; omega)]
      congr 1
      · apply List.map_congr_left
        intro i hi
        have hik : i < k := by simpa using (List.mem_filter.1 hi).1
        simp [List.getD, List.getElem?_eraseIdx_of_lt hik]
      · rw [List.eraseIdx_eq_take_drop_succ, List.drop_append]
        simp [Nat.min_eq_left hk'.le]
    · simp only [Bool.not_eq_true] at hp
      simp only [hp, Bool.false_eq_true, if_false, List.foldr_nil, Bool.not_false, if_true, List.map_append,
        List.append_assoc]
      rw [ih _ (by omega)]
      congr 1
      rw [List.drop_eq_getElem_cons hk']
      simp [List.getD, hk']

theorem foldl_reverse_eraseIdx {α : Type} (ds : List Nat) (l : List α) :
    ds.reverse.foldl (fun vs j => vs.eraseIdx j) l = ds.foldr (fun j vs => vs.eraseIdx j) l := by
  rw [List.foldl_reverse]

/-- **C37**: `find_concave_vertices` keeps exactly the entries whose turn is not within `tol` of straight, in
order, and returns the sorted list of the entries turning right by more than `tol`. -/
theorem C37_find_concave (htol : (0 : K) ≤ Env.tol) (points : List (V2 K)) (vertices : List Nat)
    (hv : ∀ v ∈ vertices, v < points.length) :
    ∃ concave kept, findConcaveVertices points vertices = .ok (concave, kept) ∧
      (let loop := vertices.map fun v => points.getD v 0
       kept = ((List.range vertices.length).filter fun i => decide (Env.tol < |Spec.turn loop i|)).map
         (fun i => vertices.getD i 0) ∧
       concave.Pairwise (· ≤ ·) ∧
       concave.Perm (((List.range vertices.length).filter fun i => decide (Spec.turn loop i < -Env.tol)).map
         (fun i => vertices.getD i 0))) := by
  set loop := vertices.map fun v => points.getD v 0 with hloop
  have hlen : loop.length = vertices.length := by simp [hloop]
  have hat : ∀ i, i < vertices.length → pointAt points vertices i = .ok (loop.getD i 0) := by
    intro i hi
    unfold pointAt
    rw [idx_ok hi]
    simp only [ok_bind]
    have : vertices[i] < points.length := hv _ (List.getElem_mem hi)
    rw [idx_ok this]
    simp [hloop, List.getD, hi, this]
  obtain ⟨s, h1, h2⟩ := forRange_inv (a := 0) (b := vertices.length) (s := (([], []) : List Nat × List Nat))
    (body := fun (toDelete, concave) i => do
      let a ← pointAt points vertices ((vertices.length + i - 1) % vertices.length)
      let b ← pointAt points vertices i
      let c ← pointAt points vertices ((i + 1) % vertices.length)
      match computeConvexity a b c with
      | .convex => pure (toDelete, concave)
      | .concave => do
        let v ← idx vertices i
        pure (toDelete, concave ++ [v])
      | .colinear => pure (toDelete ++ [i], concave))
    (fun i s => s = ((List.range i).filter fun i => decide (|Spec.turn loop i| ≤ Env.tol),
       ((List.range i).filter fun i => decide (Spec.turn loop i < -Env.tol)).map (fun i => vertices.getD i 0)))
    (Nat.zero_le _) rfl (by
      intro i s _ hi hs
      subst hs
      have hn : 0 < vertices.length := by omega
      have ea := Nat.mod_lt (vertices.length + i - 1) hn
      have ec := Nat.mod_lt (i + 1) hn
      simp only [hat _ ea, hat _ hi, hat _ ec, ok_bind, computeConvexity_eq _ _ _ htol]
      have ht : ((loop.getD i 0).x - (loop.getD ((vertices.length + i - 1) % vertices.length) 0).x)
          * ((loop.getD ((i + 1) % vertices.length) 0).y - (loop.getD i 0).y)
          - ((loop.getD i 0).y - (loop.getD ((vertices.length + i - 1) % vertices.length) 0).y)
          * ((loop.getD ((i + 1) % vertices.length) 0).x - (loop.getD i 0).x) = Spec.turn loop i := by
        unfold Spec.turn
        simp only [hlen, Nat.add_comm i vertices.length]
      rw [ht, filter_range_succ, filter_range_succ]
      by_cases c1 : |Spec.turn loop i| ≤ Env.tol
      · rw [if_pos c1]
        have := (abs_le.1 c1).1
        refine ⟨_, rfl, ?_⟩
        simp [c1, not_lt.2 this]
      · rw [if_neg c1]
        by_cases c2 : Env.tol < Spec.turn loop i
        · rw [if_pos c2]
          refine ⟨_, rfl, ?_⟩
          have : ¬ Spec.turn loop i < -Env.tol := by linarith
          simp [c1, this]
        · rw [if_neg c2]
          have : Spec.turn loop i < -Env.tol := by
            rw [abs_le, not_and_or, not_le, not_le] at c1
            rcases c1 with h | h
            · exact h
            · exact absurd h c2
          rw [idx_ok hi]
          refine ⟨_, rfl, ?_⟩
          simp [c1, this, List.getD, hi])
  rw [h2] at h1
  have hm := congrArg (fun r : Res (List Nat × List Nat) => r >>= fun s =>
    (pure (sortNat s.2, s.1.reverse.foldl (fun vs j => vs.eraseIdx j) vertices) : Res (List Nat × List Nat))) h1
  refine ⟨_, _, hm, ?_, sortNat_sorted _, sortNat_perm _⟩
  rw [foldl_reverse_eraseIdx, foldr_eraseIdx_filter _ 0 _ _ (le_refl _), List.drop_length, List.append_nil]
  congr 1
  apply List.filter_congr
  intro i _
  rw [← decide_not]
  simp [not_le]

/-- Non-vacuity of C37: an L-shaped polygon with an extra point on one side (index 1 straight, index 4 concave). -/
example : computeVertexConvexity ([⟨0, 0⟩, ⟨2, 0⟩, ⟨4, 0⟩, ⟨4, 1⟩, ⟨1, 1⟩, ⟨1, 4⟩, ⟨0, 4⟩] : List (V2 ℚ))
      = .ok ([0, 2, 3, 4, 5, 6], [4]) ∧
    findConcaveVertices ([⟨0, 0⟩, ⟨2, 0⟩, ⟨4, 0⟩, ⟨4, 1⟩, ⟨1, 1⟩, ⟨1, 4⟩, ⟨0, 4⟩] : List (V2 ℚ)) [4, 5, 6, 0, 1, 2, 3]
      = .ok ([4], [4, 5, 6, 0, 2, 3]) := by decide +kernel

end

end Geom3d
