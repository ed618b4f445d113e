import Verif.Lemmas.Spikes

/-!
# `trim` on a loop some vertices of which are on a line with their neighbours

`compute_vertex_convexity` (`src/utils/polygon.rs:15-36`) drops those. If what remains is a polygon `Q` in general position
and the turns at the remaining vertices are those of `Q`, the ears of `Q` are clipped.
-/

namespace Geom3d.Bent
open Spec List Winding ConvexFaces

set_option linter.unusedSectionVars false

theorem corner_ne {α : Type} {Q : List α} (hn : Q.Nodup) (hl : 3 ≤ Q.length) {a b c : α} (h1 : (a, b) ∈ loopEdges Q)
    (h2 : (b, c) ∈ loopEdges Q) : a ≠ b ∧ a ≠ c ∧ b ≠ c := by
  obtain ⟨m, hm⟩ := corner_form hn hl h1 h2
  have := hm.nodup_iff.1 hn
  refine ⟨?_, ?_, ?_⟩ <;> rintro rfl <;> simp at this

theorem corner_unique {α : Type} {Q : List α} (hn : Q.Nodup) (hl : 3 ≤ Q.length) {a b c a' c' : α} (h1 : (a, b) ∈ loopEdges Q)
    (h2 : (b, c) ∈ loopEdges Q) (h3 : (a', b) ∈ loopEdges Q) (h4 : (b, c') ∈ loopEdges Q) : a' = a ∧ c' = c := by
  obtain ⟨m, hm⟩ := corner_form hn hl h1 h2
  exact ⟨(corner_edges (hm.nodup_iff.1 hn)).1 ((loopEdges_rot hm).mem_iff.1 h3),
    (corner_edges (hm.nodup_iff.1 hn)).2 ((loopEdges_rot hm).mem_iff.1 h4)⟩

variable {K : Type} [Field K] [LinearOrder K] [IsStrictOrderedRing K] [Env K]

theorem general_points {Q : List (V2 K)} (hg : Spec.General Q) {a b c : V2 K} (ha : a ∈ Q) (hb : b ∈ Q) (hc : c ∈ Q) (h1 : a ≠ b)
    (h2 : a ≠ c) (h3 : b ≠ c) : Env.tol < |triArea2 a b c| := by
  obtain ⟨i, hi, rfl⟩ := List.getElem_of_mem ha
  obtain ⟨j, hj, rfl⟩ := List.getElem_of_mem hb
  obtain ⟨k, hk, rfl⟩ := List.getElem_of_mem hc
  have := hg i j k hi hj hk (fun h => h1 (by subst h; rfl)) (fun h => h2 (by subst h; rfl)) (fun h => h3 (by subst h; rfl))
  rwa [getD_of_lt 0 hi, getD_of_lt 0 hj, getD_of_lt 0 hk] at this

/-- The vertices of a polygon that are not on a line with their neighbours. -/
abbrev bent (R : List (V2 K)) : List Nat := (List.range R.length).filter fun i => decide (turnAt R i ≠ .colinear)

/-- The reflex ones among them. -/
abbrev inward (R : List (V2 K)) : List Nat := (List.range R.length).filter fun i => decide (turnAt R i = .concave)

def bends (t : V2 K × V2 K × V2 K) : Bool := decide (computeConvexity t.1 t.2.1 t.2.2 ≠ .colinear)

theorem bent_around (R : List (V2 K)) : (bent R).map (pt R) = ((Written.around 0 R).filter bends).map fun t => t.2.1 := by
  unfold Written.around
  rw [List.filter_map, List.map_map]
  rfl

/-- The ears of the polygon that remains are clipped. -/
theorem trim_bent (htol : (0 : K) ≤ Env.tol) {p : Plane K} {o : TrimOracle K} (hbs : BinarySearch o.bs) {bounds : List (EdgeLoop K)}
    {l : List (V3 K)} (hc : collectLoops o bounds = .ok (l, [0, l.length])) {Q : List (V2 K)} (hQ : Winding.Simple Q)
    (hgen : Spec.General Q) (h3 : 3 ≤ Q.length) (hccw : 0 < area2 Q)
    (hreflex : ∃ a b c, (a, b) ∈ loopEdges Q ∧ (b, c) ∈ loopEdges Q ∧ triArea2 a b c < 0) (hfuel : Q.length < o.earFuel)
    (hrot : (bent (l.map p.project)).map (pt (l.map p.project)) ~r Q)
    (hturn : ∀ {x y z : Nat}, (y, x) ∈ loopEdges (bent (l.map p.project)) → (x, z) ∈ loopEdges (bent (l.map p.project)) →
      turnAt (l.map p.project) x = if 0 < triArea2 (pt (l.map p.project) y) (pt (l.map p.project) x) (pt (l.map p.project) z)
        then .convex else .concave) :
    ∃ T, p.trim o bounds = .ok ⟨l, [], T⟩ ∧ T.length = 3 * (Q.length - 2) ∧
      (∀ t ∈ triples T, 0 < triArea2 ((l.map p.project).getD t.1 0) ((l.map p.project).getD t.2.1 0) ((l.map p.project).getD t.2.2 0)) ∧
      trianglesArea2 (l.map p.project) T = area2 Q ∧
      ∀ x, OffLines Q x → (winding Q x = 0 ∨ winding Q x = 1) ∧ (covering (l.map p.project) (triples T) x : ℤ) = winding Q x := by
  have hcv := convexity_lists (l.map p.project)
  set R := l.map p.project with hR
  have hVl : (bent R).length = Q.length := by
    have := hrot.perm.length_eq
    rwa [List.length_map] at this
  have hV3 : 3 ≤ (bent R).length := by omega
  have hS : Winding.Simple ((bent R).map (pt R)) := hQ.rot hrot.symm
  have memQ : ∀ {x}, x ∈ bent R → pt R x ∈ Q := fun hx => hrot.perm.mem_iff.1 (List.mem_map_of_mem hx)
  have inj : ∀ {x y}, x ∈ bent R → y ∈ bent R → x ≠ y → pt R x ≠ pt R y := fun hx hy hne h0 =>
    hne (List.inj_on_of_nodup_map hS.nodup hx hy h0)
  have gen : ∀ {x y z}, x ∈ bent R → y ∈ bent R → z ∈ bent R → x ≠ y → x ≠ z → y ≠ z → Env.tol < |triArea2 (pt R x) (pt R y) (pt R z)| :=
    fun hx hy hz n1 n2 n3 => general_points hgen (memQ hx) (memQ hy) (memQ hz) (inj hx hy n1) (inj hx hz n2) (inj hy hz n3)
  have nz : ∀ {x y z}, x ∈ bent R → y ∈ bent R → z ∈ bent R → x ≠ y → x ≠ z → y ≠ z → triArea2 (pt R x) (pt R y) (pt R z) ≠ 0 := by
    intro x y z hx hy hz n1 n2 n3 h0
    have := gen hx hy hz n1 n2 n3
    rw [h0, abs_zero] at this
    exact absurd this (not_lt.2 htol)
  have hd : DecidesOn (· ∈ bent R) R (pt R) :=
    ⟨fun _ _ _ => nz, fun i j k hi hj hk n1 n2 n3 => convexity_tri htol (gen hi hj hk n1 n2 n3),
      fun _ _ _ _ _ _ _ _ _ _ _ _ _ _ => isInside_iff _ _ _ _⟩
  have hVn : (bent R).Nodup := hS.nodup.of_map
  have hCV : inward R = (bent R).filter fun i => decide (turnAt R i = .concave) := by
    rw [List.filter_filter]
    refine List.filter_congr fun x _ => ?_
    cases turnAt R x <;> rfl
  have hre : Reflex (pt R) (bent R) (inward R) := by
    refine ⟨List.Pairwise.sublist List.filter_sublist List.pairwise_lt_range, fun x => ?_⟩
    constructor
    · intro hx
      rw [hCV, List.mem_filter] at hx
      obtain ⟨⟨z, hz⟩, ⟨y, hy⟩⟩ := exists_edge_from hV3 hx.1
      refine ⟨y, z, hy, hz, ?_⟩
      obtain ⟨n1, n2, n3⟩ := corner_ne hVn hV3 hy hz
      have ht := hturn hy hz
      have hx2 : turnAt R x = .concave := by simpa using hx.2
      rw [hx2] at ht
      split at ht
      · cases ht
      · rename_i h0
        exact lt_of_le_of_ne (not_lt.1 h0) (nz (mem_of_loopEdges hy).1 hx.1 (mem_of_loopEdges hz).2 n1 n2 n3)
    · rintro ⟨y, z, hy, hz, hneg⟩
      rw [hCV, List.mem_filter]
      refine ⟨(mem_of_loopEdges hz).1, ?_⟩
      rw [hturn hy hz, if_neg (not_lt.2 hneg.le)]
      rfl
  have hlift : ∀ {a b c}, (a, b) ∈ loopEdges ((bent R).map (pt R)) → (b, c) ∈ loopEdges ((bent R).map (pt R)) →
      ∃ y x z, (y, x) ∈ loopEdges (bent R) ∧ (x, z) ∈ loopEdges (bent R) ∧ a = pt R y ∧ b = pt R x ∧ c = pt R z := by
    intro a b c h1 h2
    rw [loopEdges_map, List.mem_map] at h1 h2
    obtain ⟨⟨y, x⟩, m1, e1⟩ := h1
    obtain ⟨⟨x', z⟩, m2, e2⟩ := h2
    simp only [Prod.map_apply, Prod.mk.injEq] at e1 e2
    obtain ⟨rfl, rfl⟩ := e1
    obtain ⟨e2, rfl⟩ := e2
    have : x' = x := List.inj_on_of_nodup_map hS.nodup (mem_of_loopEdges m2).1 (mem_of_loopEdges m1).2 e2
    subst this
    exact ⟨y, x', z, m1, m2, rfl, rfl, rfl⟩
  have hC0 : inward R ≠ [] := by
    obtain ⟨a, b, c, h1, h2, h3⟩ := hreflex
    rw [← (loopEdges_rot hrot).mem_iff] at h1 h2
    obtain ⟨y, x, z, m1, m2, rfl, rfl, rfl⟩ := hlift h1 h2
    have := (hre.mem x).2 ⟨y, z, m1, m2, h3⟩
    intro e
    rw [e] at this
    cases this
  have harea : 0 < area2 ((bent R).map (pt R)) := by rw [area2_rot hrot]; exact hccw
  have hlM : 3 ≤ ((bent R).map (pt R)).length := by simpa using hV3
  have hlev := level_of_area hS hlM harea
  have hne : (bent R).length ≠ (inward R).length := by
    intro he
    rw [hCV] at he
    have hall := List.length_filter_eq_length_iff.1 he.symm
    have hm : ∃ v, v ∈ (bent R).map (pt R) := List.exists_mem_of_length_pos (by omega)
    obtain ⟨v, hv⟩ := hm
    obtain ⟨⟨c, hc'⟩, -⟩ := exists_edge_from hlM hv
    obtain ⟨a, v, c, hear, -⟩ := exists_ear hS hlM hlev hc'
    obtain ⟨y, x, z, m1, m2, rfl, rfl, rfl⟩ := hlift hear.into hear.out
    have hp := hear.pos
    rw [tri_rot] at hp
    have := hall x (mem_of_loopEdges m2).1
    rw [hturn m1 m2, if_pos hp] at this
    cases this
  obtain ⟨T, t1, ⟨k, t2⟩, t3⟩ := clips_on hbs hd (fun x hx => List.mem_range.1 (List.mem_filter.1 hx).1) hV3 hS harea hre
    (fuel := o.earFuel) (by omega)
  have hpos : ∀ t ∈ triples T, 0 < triArea2 (R.getD t.1 0) (R.getD t.2.1 0) (R.getD t.2.2 0) :=
    fun t ht => t3.pos _ (List.mem_map_of_mem (f := fun t => (pt R t.1, pt R t.2.1, pt R t.2.2)) ht)
  refine ⟨T, ?_, ?_, hpos, ?_, fun x hx => ?_⟩
  · unfold Plane.trim
    rw [hc, ok_bind]
    simp only [List.length_cons, List.length_nil, Nat.zero_add, if_true]
    rw [← hR, hcv, ok_bind]
    simp only
    rw [if_neg hne, if_neg hC0, t1, ok_bind]
    rfl
  · have := t3.length
    unfold Winding.corners at this
    rw [List.length_map, triples_length t2, List.length_map] at this
    omega
  · rw [trianglesArea2_corners, t3.area, area2_rot hrot]
  · have hgx : Generic Q x := generic_of_offLines hx
    have hgen' : Generic ((bent R).map (pt R)) x := hgx.sub fun z hz => hrot.perm.mem_iff.1 hz
    have := t3.tiling hS hlev hlM hgen'
    have hw : wind ((bent R).map (pt R)) x = wind Q x := wind_perm (loopEdges_rot hrot) x
    rw [hw] at this
    rw [winding_eq]
    refine ⟨this.1, ?_⟩
    rw [← this.2]
    unfold covering Winding.corners
    rw [List.filter_map, List.length_map]
    congr 2
    apply List.filter_congr
    intro t ht
    simp only [Function.comp, decide_eq_decide]
    rw [← isInside_iff, ← C33_exact (hpos t ht)]
    rfl

end Geom3d.Bent
