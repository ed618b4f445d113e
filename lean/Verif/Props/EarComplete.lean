import Verif.Lemmas.EarRun
import Verif.Props.Plane
import Verif.Spec.Winding

/-!
# Ear clipping is complete on simple polygons in general position (C119)

`trianglate_polygon` (`src/utils/polygon.rs:66-142`) gives up silently when a pass over the polygon clips nothing.
C39 shows polygons with nearly straight vertices for which it does.  Here: it never does when no three vertices are
within tolerance of a line.  This needs the theorem that every simple polygon has an ear, which is proved from
winding numbers in `Verif/Lemmas/Winding.lean` to `Verif/Lemmas/Clips.lean`.
-/

namespace Geom3d

set_option linter.unusedSectionVars false

variable {K : Type} [Field K] [LinearOrder K] [IsStrictOrderedRing K]

/-- No three vertices are within tolerance of a line. -/
def Spec.General [Env K] (points : List (V2 K)) : Prop :=
  ∀ i j k, i < points.length → j < points.length → k < points.length → i ≠ j → i ≠ k → j ≠ k →
    Env.tol < |Spec.triArea2 (points.getD i 0) (points.getD j 0) (points.getD k 0)|

/-- `x` is on no line through two of the points. -/
def Spec.OffLines (points : List (V2 K)) (x : V2 K) : Prop :=
  ∀ i j, i < points.length → j < points.length → i ≠ j → Spec.triArea2 (points.getD i 0) (points.getD j 0) x ≠ 0

theorem mem_loopEdges_range {n x y : Nat} (hn : 0 < n) :
    (x, y) ∈ Spec.loopEdges (List.range n) ↔ x < n ∧ y = (x + 1) % n := by
  obtain ⟨m, rfl⟩ : ∃ m, n = m + 1 := ⟨n - 1, by omega⟩
  rw [loopEdges_range]
  simp only [List.mem_append, List.mem_map, List.mem_range, Prod.mk.injEq, List.mem_singleton]
  constructor
  · rintro (⟨i, hi, rfl, rfl⟩ | ⟨rfl, rfl⟩)
    · exact ⟨by omega, (Nat.mod_eq_of_lt (by omega)).symm⟩
    · exact ⟨by omega, by simp⟩
  · rintro ⟨h1, rfl⟩
    rcases Nat.lt_or_ge x m with h | h
    · exact .inl ⟨x, h, rfl, (Nat.mod_eq_of_lt (by omega)).symm⟩
    · obtain rfl : x = m := by omega
      exact .inr ⟨rfl, by simp⟩

/-- Segments that separate each other's ends have a common point. -/
theorem cross_common {a b c d : V2 K} (h : Winding.Cross a b c d) : ∃ p, Spec.OnSegment a b p ∧ Spec.OnSegment c d p := by
  obtain ⟨h1, h2⟩ := h
  have key : Spec.triArea2 c d a - Spec.triArea2 c d b = -(Spec.triArea2 a b c - Spec.triArea2 a b d) := by
    unfold Spec.triArea2; ring
  have e1 : ∀ u w : K, u * w < 0 → u - w ≠ 0 ∧ 0 ≤ u / (u - w) ∧ u / (u - w) ≤ 1 := by
    intro u w huw
    rcases mul_neg_iff.1 huw with ⟨h1, h2⟩ | ⟨h1, h2⟩
    · exact ⟨(sub_pos.2 (h2.trans h1)).ne', div_nonneg h1.le (by linarith),
        (div_le_one (by linarith)).2 (by linarith)⟩
    · exact ⟨(sub_neg.2 (h1.trans h2)).ne, div_nonneg_of_nonpos h1.le (by linarith),
        (div_le_one_of_neg (by linarith)).2 (by linarith)⟩
  obtain ⟨n1, p1, p2⟩ := e1 _ _ h1
  obtain ⟨n2, q1, q2⟩ := e1 _ _ h2
  refine ⟨⟨c.x + Spec.triArea2 a b c / (Spec.triArea2 a b c - Spec.triArea2 a b d) * (d.x - c.x),
    c.y + Spec.triArea2 a b c / (Spec.triArea2 a b c - Spec.triArea2 a b d) * (d.y - c.y)⟩,
    ⟨_, q1, q2, ?_, ?_⟩, ⟨_, p1, p2, rfl, rfl⟩⟩
  · simp only
    rw [key] at n2 ⊢
    rw [div_neg]
    field_simp
    unfold Spec.triArea2; ring
  · simp only
    rw [key] at n2 ⊢
    rw [div_neg]
    field_simp
    unfold Spec.triArea2; ring

theorem winding_eq (l : List (V2 K)) (x : V2 K) : Spec.winding l x = Winding.wind l x := rfl

section
variable [Env K]

theorem map_range_pt (points : List (V2 K)) : (List.range points.length).map (Winding.pt points) = points := by
  have := eq_tab_getD points 0
  conv_rhs => rw [this]
  rfl

theorem simple_of_nz {points : List (V2 K)} (hn : 3 ≤ points.length) (hs : Spec.Simple points)
    (nz : ∀ {i j k}, i < points.length → j < points.length → k < points.length → i ≠ j → i ≠ k → j ≠ k →
      Spec.triArea2 (points.getD i 0) (points.getD j 0) (points.getD k 0) ≠ 0) : Winding.Simple points := by
  have get : ∀ {p}, p ∈ points → ∃ i, i < points.length ∧ points.getD i 0 = p := by
    intro p hp
    obtain ⟨i, hi, rfl⟩ := List.getElem_of_mem hp
    exact ⟨i, hi, getD_of_lt 0 hi⟩
  refine ⟨?_, ?_, ?_⟩
  · rw [List.nodup_iff_injective_get]
    intro ⟨i, hi⟩ ⟨j, hj⟩ hij
    by_contra hne
    have hne : i ≠ j := fun h => hne (by simp [h])
    obtain ⟨k, hk, h1, h2⟩ : ∃ k, k < points.length ∧ i ≠ k ∧ j ≠ k := by
      by_cases h0 : i ≠ 0 ∧ j ≠ 0
      · exact ⟨0, by omega, h0.1, h0.2⟩
      · by_cases h1 : i ≠ 1 ∧ j ≠ 1
        · exact ⟨1, by omega, h1.1, h1.2⟩
        · exact ⟨2, by omega, by omega, by omega⟩
    refine nz hi hj hk hne h1 h2 ?_
    rw [getD_of_lt 0 hi, getD_of_lt 0 hj, show points[i] = points[j] from hij]
    unfold Spec.triArea2; ring
  · intro a ha b hb c hc h1 h2 h3
    obtain ⟨i, hi, rfl⟩ := get ha
    obtain ⟨j, hj, rfl⟩ := get hb
    obtain ⟨k, hk, rfl⟩ := get hc
    exact nz hi hj hk (fun h => h1 (by rw [h])) (fun h => h2 (by rw [h])) (fun h => h3 (by rw [h]))
  · have edge : ∀ e ∈ Spec.loopEdges points, ∃ i, i < points.length ∧
        e = (points.getD i 0, points.getD ((i + 1) % points.length) 0) := by
      intro e he
      rw [← map_range_pt points, Spec.loopEdges_map, List.mem_map] at he
      obtain ⟨⟨x, y⟩, h1, rfl⟩ := he
      rw [mem_loopEdges_range (by omega)] at h1
      obtain ⟨h1, rfl⟩ := h1
      exact ⟨x, h1, rfl⟩
    intro e he f hf hc
    obtain ⟨i, hi, rfl⟩ := edge e he
    obtain ⟨j, hj, rfl⟩ := edge f hf
    simp only at hc
    by_cases h1 : i = j
    · subst h1
      exact Winding.cross_irrefl _ _ hc
    by_cases h2 : (i + 1) % points.length = j
    · subst h2
      have := hc.1
      rw [show Spec.triArea2 (points.getD i 0) (points.getD ((i + 1) % points.length) 0)
        (points.getD ((i + 1) % points.length) 0) = 0 by unfold Spec.triArea2; ring, zero_mul] at this
      exact lt_irrefl _ this
    by_cases h3 : (j + 1) % points.length = i
    · subst h3
      have := hc.2
      rw [show Spec.triArea2 (points.getD j 0) (points.getD ((j + 1) % points.length) 0)
        (points.getD ((j + 1) % points.length) 0) = 0 by unfold Spec.triArea2; ring, zero_mul] at this
      exact lt_irrefl _ this
    exact hs i j hi hj h1 h2 h3 (cross_common hc)

theorem general_nz (htol : (0 : K) ≤ Env.tol) {points : List (V2 K)} (hg : Spec.General points) {i j k : Nat}
    (hi : i < points.length) (hj : j < points.length) (hk : k < points.length) (h1 : i ≠ j) (h2 : i ≠ k) (h3 : j ≠ k) :
    Spec.triArea2 (points.getD i 0) (points.getD j 0) (points.getD k 0) ≠ 0 := by
  intro h0
  have := hg i j k hi hj hk h1 h2 h3
  rw [h0, abs_zero] at this
  exact absurd this (not_lt.2 htol)

theorem simple_of_spec (htol : (0 : K) ≤ Env.tol) {points : List (V2 K)} (hn : 3 ≤ points.length) (hs : Spec.Simple points)
    (hg : Spec.General points) : Winding.Simple points :=
  simple_of_nz hn hs fun hi hj hk h1 h2 h3 => general_nz htol hg hi hj hk h1 h2 h3

/-- In general position the tests of the code are exact. -/
theorem decides_of_general (htol : (0 : K) ≤ Env.tol) {points : List (V2 K)} (hg : Spec.General points) :
    Winding.Decides points (Winding.pt points) where
  nz _ _ _ hi hj hk h1 h2 h3 := general_nz htol hg hi hj hk h1 h2 h3
  conv i j k hi hj hk h1 h2 h3 := Winding.convexity_tri htol (hg i j k hi hj hk h1 h2 h3)
  inside _ _ _ _ _ _ _ _ _ _ _ _ _ _ := Winding.isInside_iff _ _ _ _

theorem triples_length {α : Type} : ∀ {k : Nat} {T : List α} (_ : T.length = 3 * k), (Spec.triples T).length = k
  | 0, T, h => by
    have : T = [] := List.length_eq_zero_iff.1 (by omega)
    subst this; rfl
  | k + 1, a :: b :: c :: T, h => by
    simp only [Spec.triples, List.length_cons]
    rw [triples_length (k := k) (by simp at h; omega)]

theorem trianglesArea2_corners (points : List (V2 K)) : ∀ T : List Nat,
    Spec.trianglesArea2 points T = ((Winding.corners (Winding.pt points) T).map fun t => Spec.triArea2 t.1 t.2.1 t.2.2).sum
  | a :: b :: c :: T => by
    rw [Spec.trianglesArea2, trianglesArea2_corners points T]
    rfl
  | [] => rfl
  | [_] => rfl
  | [_, _] => rfl

theorem neighbours {α : Type} {points : List α} (hn : 3 ≤ points.length) {i : Nat} (hi : i < points.length) :
    (points.length + i - 1) % points.length < points.length ∧ (i + 1) % points.length < points.length ∧
      (points.length + i - 1) % points.length ≠ i ∧ (points.length + i - 1) % points.length ≠ (i + 1) % points.length ∧
      i ≠ (i + 1) % points.length ∧ ((points.length + i - 1) % points.length + 1) % points.length = i := by
  have hpos : 0 < points.length := by omega
  have e1 : (points.length + i - 1) % points.length = if i = 0 then points.length - 1 else i - 1 := by
    split
    · rename_i h; subst h; exact Nat.mod_eq_of_lt (by omega)
    · rw [show points.length + i - 1 = (i - 1) + points.length by omega, Nat.add_mod_right]
      exact Nat.mod_eq_of_lt (by omega)
  have e2 : (i + 1) % points.length = if i + 1 = points.length then 0 else i + 1 := by
    split
    · rename_i h; rw [h, Nat.mod_self]
    · exact Nat.mod_eq_of_lt (by omega)
  have e3 : ((points.length + i - 1) % points.length + 1) % points.length = i := by
    rw [e1]
    split
    · rename_i h; subst h; rw [Nat.sub_add_cancel (by omega), Nat.mod_self]
    · rw [Nat.sub_add_cancel (by omega)]; exact Nat.mod_eq_of_lt hi
  refine ⟨Nat.mod_lt _ hpos, Nat.mod_lt _ hpos, ?_, ?_, ?_, e3⟩
  · rw [e1]; split <;> omega
  · rw [e1, e2]; split <;> split <;> omega
  · rw [e2]; split <;> omega

section
variable {F : Type} [Add F] [Sub F] [Mul F] [Div F] [Neg F] [Zero F] [One F] [NatCast F] [LT F] [DecidableLT F]
  [LE F] [DecidableLE F] [Env F]

/-- `compute_vertex_convexity` when the tests of the code are exact: all vertices, and the reflex ones. -/
theorem computeVertexConvexity_decides {points : List (V2 F)} {g : Nat → V2 K} (hn : 3 ≤ points.length)
    (hd : Winding.Decides points g) :
    computeVertexConvexity points = .ok (List.range points.length, (List.range points.length).filter fun i =>
      decide (¬ 0 < Spec.triArea2 (g ((points.length + i - 1) % points.length)) (g i) (g ((i + 1) % points.length)))) := by
  unfold computeVertexConvexity
  obtain ⟨s, h1, h2⟩ := forRange_inv (a := 0) (b := points.length) (s := (([], []) : List Nat × List Nat))
    (body := fun (vertices, concave) i => do
      let a ← idx points ((points.length + i - 1) % points.length)
      let b ← idx points i
      let c ← idx points ((i + 1) % points.length)
      match computeConvexity a b c with
      | .convex => pure (vertices ++ [i], concave)
      | .concave => pure (vertices ++ [i], concave ++ [i])
      | .colinear => pure (vertices, concave))
    (fun i s => s = (List.range i, (List.range i).filter fun i =>
      decide (¬ 0 < Spec.triArea2 (g ((points.length + i - 1) % points.length)) (g i) (g ((i + 1) % points.length)))))
    (Nat.zero_le _) rfl (by
      intro i s _ hi hs
      subst hs
      obtain ⟨ea, ec, n1, n2, n3, _⟩ := neighbours hn hi
      have hcv := hd.conv _ _ _ ea hi ec n1 n2 n3
      unfold Winding.pt at hcv
      rw [getD_of_lt _ ea, getD_of_lt _ hi, getD_of_lt _ ec] at hcv
      simp only [idx_ok ea, idx_ok hi, idx_ok ec, ok_bind, hcv]
      rw [filter_range_succ, List.range_succ]
      by_cases c1 : 0 < Spec.triArea2 (g ((points.length + i - 1) % points.length)) (g i) (g ((i + 1) % points.length))
      · rw [if_pos c1]
        exact ⟨_, rfl, by simp [c1]⟩
      · rw [if_neg c1]
        exact ⟨_, rfl, by simp [not_lt.1 c1]⟩)
  rw [h2] at h1
  exact h1

/-- What the clipping delivers when the tests of the code are exact on the polygon `Q`: a complete dissection by ears. -/
theorem clips_of_decides {bs : List Nat → Nat → Option Nat} (hbs : BinarySearch bs) {points : List (V2 F)} {Q : List (V2 K)}
    (hlen : Q.length = points.length) (hd : Winding.Decides points (Winding.pt Q)) (hn : 3 ≤ points.length)
    (hS : Winding.Simple Q) (ha : 0 < Spec.area2 Q) {fuel : Nat} (hf : points.length < fuel) :
    ∃ V C T, computeVertexConvexity points = .ok (V, C) ∧
      triangulatePolygon bs fuel points V C = .ok T ∧ (∃ k, T.length = 3 * k) ∧
      Winding.Clips Q (Winding.corners (Winding.pt Q) T) := by
  have hpos : 0 < points.length := by omega
  have hmap : (List.range points.length).map (Winding.pt Q) = Q := by rw [← hlen, map_range_pt]
  have good : Winding.Good (· < points.length) points (Winding.pt Q) Q ⟨List.range points.length,
      (List.range points.length).filter fun i => decide (¬ 0 < Spec.triArea2
        (Winding.pt Q ((points.length + i - 1) % points.length)) (Winding.pt Q i) (Winding.pt Q ((i + 1) % points.length))),
      [], (List.range points.length).length⟩ := by
    refine ⟨rfl, by simpa using hn, fun x hx => by simpa using hx, fun x hx => by simpa using hx, ?_, ?_, ⟨?_, fun x => ?_⟩, ⟨0, rfl⟩, fun ts h => ?_⟩
    · simp only
      rw [hmap]; exact hS
    · simp only
      rw [hmap]; exact Winding.level_of_area hS (by omega) ha
    · exact List.Pairwise.sublist List.filter_sublist List.pairwise_lt_range
    · simp only [List.mem_filter, List.mem_range, decide_eq_true_eq]
      constructor
      · rintro ⟨hx, ht⟩
        obtain ⟨h1, h2, h3, h4, h5, h6⟩ := neighbours hn hx
        exact ⟨_, _, (mem_loopEdges_range hpos).2 ⟨h1, h6.symm⟩, (mem_loopEdges_range hpos).2 ⟨hx, rfl⟩,
          lt_of_le_of_ne (not_lt.1 ht) (hd.nz _ _ _ h1 hx h2 h3 h4 h5)⟩
      · rintro ⟨p, n, hp, hn', ht⟩
        rw [mem_loopEdges_range hpos] at hp hn'
        obtain ⟨hx, rfl⟩ := hn'
        obtain ⟨hp1, hp2⟩ := hp
        refine ⟨hx, ?_⟩
        have : p = (points.length + x - 1) % points.length := by
          rw [hp2]
          rcases Nat.lt_or_ge (p + 1) points.length with h | h
          · rw [Nat.mod_eq_of_lt h, show points.length + (p + 1) - 1 = p + points.length by omega, Nat.add_mod_right]
            exact (Nat.mod_eq_of_lt hp1).symm
          · rw [show p + 1 = points.length by omega, Nat.mod_self]
            rw [Nat.mod_eq_of_lt (by omega)]; omega
        rw [this] at ht
        exact ht.not_gt
    · simp only at h
      rw [hmap] at h
      exact h
  obtain ⟨s', h1, h2, h3⟩ := good.loop hbs hd fuel (prevM := none) (by simpa using hf) rfl
  refine ⟨_, _, s'.triangles, computeVertexConvexity_decides hn hd, ?_, h2, h3⟩
  unfold triangulatePolygon triangulateState
  rw [usub_ok (by simp; omega), ok_bind, h1, ok_bind]
  rfl

/-- The dissection in terms of the specification. -/
theorem complete_of_decides {bs : List Nat → Nat → Option Nat} (hbs : BinarySearch bs) {points : List (V2 F)} {Q : List (V2 K)}
    (hlen : Q.length = points.length) (hd : Winding.Decides points (Winding.pt Q)) (hn : 3 ≤ points.length)
    (hs : Spec.Simple Q) (ha : 0 < Spec.area2 Q) {fuel : Nat} (hf : points.length < fuel) :
    ∃ V C T, computeVertexConvexity points = .ok (V, C) ∧
      triangulatePolygon bs fuel points V C = .ok T ∧ T.length = 3 * (points.length - 2) ∧
      (∀ t ∈ Spec.triples T, 0 < Spec.triArea2 (Q.getD t.1 0) (Q.getD t.2.1 0) (Q.getD t.2.2 0)) ∧
      Spec.trianglesArea2 Q T = Spec.area2 Q ∧
      ∀ x, Spec.OffLines Q x → (Spec.winding Q x = 0 ∨ Spec.winding Q x = 1) ∧
        (Spec.covering Q (Spec.triples T) x : ℤ) = Spec.winding Q x := by
  have hS : Winding.Simple Q := simple_of_nz (by omega) hs fun hi hj hk h1 h2 h3 =>
    hd.nz _ _ _ (hlen ▸ hi) (hlen ▸ hj) (hlen ▸ hk) h1 h2 h3
  obtain ⟨V, C, T, h1, h2, ⟨k, hk⟩, h4⟩ := clips_of_decides hbs hlen hd hn hS ha hf
  have hpos : ∀ t ∈ Spec.triples T, 0 < Spec.triArea2 (Q.getD t.1 0) (Q.getD t.2.1 0) (Q.getD t.2.2 0) :=
    fun t ht => h4.pos _ (List.mem_map_of_mem (f := fun t => (Winding.pt Q t.1, Winding.pt Q t.2.1, Winding.pt Q t.2.2)) ht)
  refine ⟨V, C, T, h1, h2, ?_, hpos, ?_, fun x hx => ?_⟩
  · have := h4.length
    unfold Winding.corners at this
    rw [List.length_map, triples_length hk] at this
    omega
  · rw [trianglesArea2_corners, h4.area]
  · have hgen : Winding.Generic Q x := by
      intro a ha b hb hab
      obtain ⟨i, hi, rfl⟩ := List.getElem_of_mem ha
      obtain ⟨j, hj, rfl⟩ := List.getElem_of_mem hb
      have := hx i j hi hj (fun h => hab (by subst h; rfl))
      rwa [getD_of_lt 0 hi, getD_of_lt 0 hj] at this
    have := h4.tiling hS (Winding.level_of_area hS (by omega) ha) (by omega) hgen
    rw [winding_eq]
    refine ⟨this.1, ?_⟩
    rw [← this.2]
    unfold Spec.covering Winding.corners
    rw [List.filter_map, List.length_map]
    congr 2
    apply List.filter_congr
    intro t ht
    simp only [Function.comp, decide_eq_decide]
    rw [← Winding.isInside_iff, ← C33_exact (hpos t ht)]
    rfl

end

/-- **C119** Let a simple polygon be given in counter-clockwise order, no three of its vertices within tolerance of a line.
Then `compute_vertex_convexity` followed by `trianglate_polygon` succeeds and returns a complete triangulation:

* exactly `n - 2` triangles, all of them counter-clockwise;
* their areas add up to that of the polygon;
* off the lines through two vertices, the winding number of the polygon is `0` or `1`, points where it is `0` are in no
  triangle and points where it is `1` are in exactly one. -/
theorem C119_complete (htol : (0 : K) ≤ Env.tol) {bs : List Nat → Nat → Option Nat} (hbs : BinarySearch bs)
    {points : List (V2 K)} (hn : 3 ≤ points.length) (hs : Spec.Simple points) (hg : Spec.General points)
    (ha : 0 < Spec.area2 points) :
    ∃ V C T, computeVertexConvexity points = .ok (V, C) ∧
      triangulatePolygon bs (points.length + 1) points V C = .ok T ∧ T.length = 3 * (points.length - 2) ∧
      (∀ t ∈ Spec.triples T, 0 < Spec.triArea2 (points.getD t.1 0) (points.getD t.2.1 0) (points.getD t.2.2 0)) ∧
      Spec.trianglesArea2 points T = Spec.area2 points ∧
      ∀ x, Spec.OffLines points x → (Spec.winding points x = 0 ∨ Spec.winding points x = 1) ∧
        (Spec.covering points (Spec.triples T) x : ℤ) = Spec.winding points x :=
  complete_of_decides hbs rfl (decides_of_general htol hg) hn hs ha (Nat.lt_succ_self _)

/-- **C119** The orientation test of the code decides which order is meant: the theorem holds for the polygons
`is_polygon_ccw` accepts. -/
theorem C119_ccw (htol : (0 : K) ≤ Env.tol) {bs : List Nat → Nat → Option Nat} (hbs : BinarySearch bs)
    {points : List (V2 K)} (hn : 3 ≤ points.length) (hs : Spec.Simple points) (hg : Spec.General points)
    (ha : isPolygonCcw points = .ok true) :
    ∃ V C T, computeVertexConvexity points = .ok (V, C) ∧
      triangulatePolygon bs (points.length + 1) points V C = .ok T ∧ T.length = 3 * (points.length - 2) ∧
      Spec.trianglesArea2 points T = Spec.area2 points := by
  have h0 : points ≠ [] := by rintro rfl; simp at hn
  rw [C36_sign h0] at ha
  have ha : 0 < Spec.area2 points := by simpa using ha
  obtain ⟨V, C, T, h1, h2, h3, _, h4, _⟩ := C119_complete htol hbs hn hs hg ha
  exact ⟨V, C, T, h1, h2, h3, h4⟩

/-- **C119** No two of the triangles overlap: a point off the lines through two vertices is in at most one of them. -/
theorem C119_disjoint (htol : (0 : K) ≤ Env.tol) {bs : List Nat → Nat → Option Nat} (hbs : BinarySearch bs)
    {points : List (V2 K)} (hn : 3 ≤ points.length) (hs : Spec.Simple points) (hg : Spec.General points)
    (ha : 0 < Spec.area2 points) {V C T : List Nat} (hV : computeVertexConvexity points = .ok (V, C))
    (hT : triangulatePolygon bs (points.length + 1) points V C = .ok T) {x : V2 K} (hx : Spec.OffLines points x) :
    Spec.covering points (Spec.triples T) x ≤ 1 := by
  obtain ⟨V', C', T', h1, h2, _, _, _, h3⟩ := C119_complete htol hbs hn hs hg ha
  rw [hV] at h1
  cases h1
  rw [hT] at h2
  cases h2
  obtain ⟨h4, h5⟩ := h3 x hx
  omega

/-- **C119** Every simple polygon in general position has an ear away from any given edge: a vertex that is no end of the
edge, where the polygon turns left, and whose triangle with its two neighbours contains no further vertex.  This is the
fact that keeps the clipping loop going. -/
theorem C119_ear (htol : (0 : K) ≤ Env.tol) {points : List (V2 K)} (hn : 3 ≤ points.length) (hs : Spec.Simple points)
    (hg : Spec.General points) (ha : 0 < Spec.area2 points) {i : Nat} (hi : i < points.length) :
    ∃ p v n, p < points.length ∧ v < points.length ∧ v = (p + 1) % points.length ∧ n = (v + 1) % points.length ∧
      v ≠ i ∧ v ≠ (i + 1) % points.length ∧
      0 < Spec.triArea2 (points.getD p 0) (points.getD v 0) (points.getD n 0) ∧
      ∀ z, z < points.length → z ≠ p → z ≠ v → z ≠ n →
        ¬ Spec.InTriangle (points.getD p 0) (points.getD v 0) (points.getD n 0) (points.getD z 0) := by
  have hS := simple_of_spec htol hn hs hg
  have hpos : 0 < points.length := by omega
  have edge : ∀ {a b}, (a, b) ∈ Spec.loopEdges points → ∃ j, j < points.length ∧ points.getD j 0 = a ∧
      points.getD ((j + 1) % points.length) 0 = b := by
    intro a b he
    rw [← map_range_pt points, Spec.loopEdges_map, List.mem_map] at he
    obtain ⟨⟨x, y⟩, h1, h2⟩ := he
    rw [mem_loopEdges_range hpos] at h1
    obtain ⟨h1, rfl⟩ := h1
    cases h2
    exact ⟨x, h1, rfl, rfl⟩
  have inj : ∀ {a b}, a < points.length → b < points.length → points.getD a 0 = points.getD b 0 → a = b := by
    intro a b h1 h2 h
    rw [getD_of_lt 0 h1, getD_of_lt 0 h2] at h
    exact (List.Nodup.getElem_inj_iff hS.nodup).1 h
  have he : (points.getD i 0, points.getD ((i + 1) % points.length) 0) ∈ Spec.loopEdges points := by
    have e : Spec.loopEdges points = (Spec.loopEdges (List.range points.length)).map (Prod.map (Winding.pt points) (Winding.pt points)) := by
      rw [← Spec.loopEdges_map, map_range_pt]
    rw [e, List.mem_map]
    exact ⟨(i, (i + 1) % points.length), (mem_loopEdges_range hpos).2 ⟨hi, rfl⟩, rfl⟩
  obtain ⟨a, v, c, hear, h1, h2⟩ := Winding.exists_ear hS hn (Winding.level_of_area hS hn ha) he
  obtain ⟨p, hp, rfl, rfl⟩ := edge hear.into
  obtain ⟨w, hw, e1, rfl⟩ := edge hear.out
  have hm := Nat.mod_lt (p + 1) hpos
  obtain rfl := inj hw hm e1
  have hP : 0 < Spec.triArea2 (points.getD p 0) (points.getD ((p + 1) % points.length) 0)
      (points.getD (((p + 1) % points.length + 1) % points.length) 0) := by
    rw [← Winding.tri_rot]; exact hear.pos
  refine ⟨p, _, _, hp, hm, rfl, rfl, fun h => h1 (by rw [h]), fun h => h2 (by rw [h]), hP, fun z hz z1 z2 z3 hin => ?_⟩
  rw [← C33_exact hP, Winding.isInside_iff] at hin
  refine hear.free _ ?_ (fun h => z1 (inj hz hp h)) (fun h => z2 (inj hz hm h))
    (fun h => z3 (inj hz (Nat.mod_lt _ hpos) h)) hin
  rw [getD_of_lt 0 hz]
  exact List.getElem_mem hz

theorem general_of_check {points : List (V2 K)}
    (h : (List.range points.length).all (fun i => (List.range points.length).all fun j => (List.range points.length).all fun k =>
      decide (i = j) || decide (i = k) || decide (j = k) ||
      decide (Env.tol < Spec.triArea2 (points.getD i 0) (points.getD j 0) (points.getD k 0)) ||
      decide (Env.tol < -Spec.triArea2 (points.getD i 0) (points.getD j 0) (points.getD k 0))) = true) : Spec.General points := by
  intro i j k hi hj hk h1 h2 h3
  simp only [List.all_eq_true, List.mem_range] at h
  have := h i hi j hj k hk
  simp only [h1, h2, h3, decide_false, Bool.false_or, Bool.or_eq_true, decide_eq_true_eq] at this
  exact lt_abs.2 this

end

/-- A polygon with three reflex vertices. -/
def zigzag : List (V2 ℚ) := [⟨0, 0⟩, ⟨5, 1⟩, ⟨9, -2⟩, ⟨7, 6⟩, ⟨5, 2⟩, ⟨3, 8⟩, ⟨2, 3⟩, ⟨-1, 6⟩]

/-- Non-vacuity of C119: the polygon meets the hypotheses; it has three reflex vertices and is cut into six triangles. -/
example : 3 ≤ zigzag.length ∧ Spec.Simple zigzag ∧ Spec.General zigzag ∧ 0 < Spec.area2 zigzag ∧
    computeVertexConvexity zigzag = .ok ([0, 1, 2, 3, 4, 5, 6, 7], [1, 4, 6]) ∧
    (∃ T, triangulatePolygon linSearch 9 zigzag [0, 1, 2, 3, 4, 5, 6, 7] [1, 4, 6] = .ok T ∧ T.length = 18 ∧
      Spec.trianglesArea2 zigzag T = Spec.area2 zigzag) :=
  ⟨by decide, simple_of_check (by decide +kernel), general_of_check (by decide +kernel), by decide +kernel, by decide +kernel,
    by
      obtain ⟨V, C, T, h1, h2, h3, _, h4, _⟩ := C119_complete (points := zigzag) (by decide +kernel) linSearch_ok (by decide)
        (simple_of_check (by decide +kernel)) (general_of_check (by decide +kernel)) (by decide +kernel)
      have e : computeVertexConvexity zigzag = .ok ([0, 1, 2, 3, 4, 5, 6, 7], [1, 4, 6]) := by decide +kernel
      rw [e] at h1
      cases h1
      exact ⟨T, h2, h3, h4⟩⟩

/-- Points inside and outside of it, off all lines. -/
example : Spec.winding zigzag ⟨25 / 8, 7 / 4⟩ = 1 ∧ Spec.winding zigzag ⟨17 / 4, 19 / 4⟩ = 0 ∧
    (∀ i < 8, ∀ j < 8, i ≠ j → Spec.triArea2 (zigzag.getD i 0) (zigzag.getD j 0) ⟨25 / 8, 7 / 4⟩ ≠ 0) ∧
    (∀ i < 8, ∀ j < 8, i ≠ j → Spec.triArea2 (zigzag.getD i 0) (zigzag.getD j 0) ⟨17 / 4, 19 / 4⟩ ≠ 0) := by decide +kernel

end Geom3d
