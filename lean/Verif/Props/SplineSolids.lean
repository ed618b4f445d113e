import Verif.Props.AnySolids
import Verif.Props.SplineTangents
import Verif.Props.Symmetry

/-!
# Solids bounded by B-spline surfaces (C170)

The sides of a clamped B-spline surface are the B-spline curves of the control points there.  So sets of such surfaces whose sides have the
same control points and knots, in either direction, have watertight meshes, and the volume of these tends to that of the solid.
-/

set_option linter.unusedSectionVars false

namespace Geom3d
open Spec Deviation Area

/-- The whole of a B-spline surface as a patch. -/
noncomputable def Spec.splinePiece (s : BSplineSurface ℝ (V3 ℝ)) (a b : Nat) : Piece :=
  ⟨s.surface, fun u v => valOf (s.getPoint u v), splineU s, splineV s, (knot s.knots.1 0, knot s.knots.1 (s.controlPoints.rows + s.degree.1)),
    (knot s.knots.2 0, knot s.knots.2 (s.controlPoints.cols + s.degree.2)), a, b⟩

/-- A B-spline curve with a number of divisions. -/
abbrev Spec.Strand := Nat × BSplineCurve ℝ (V3 ℝ)

/-- The same curve in the other direction: control points and knots in reverse order. -/
noncomputable def Spec.Strand.flip (c : Strand) : Strand :=
  (c.1, ⟨c.2.controlPoints.reverse, c.2.knots.reverse.map fun x =>
    knot c.2.knots 0 + knot c.2.knots (c.2.controlPoints.length + c.2.degree) - x, c.2.degree⟩)

/-- The sides of a B-spline surface, the way around. -/
noncomputable def Spec.strands (s : BSplineSurface ℝ (V3 ℝ)) (a b : Nat) : List Strand :=
  [(a, ⟨Side.vStart.points s.controlPoints, s.knots.1, s.degree.1⟩), (b, ⟨Side.uEnd.points s.controlPoints, s.knots.2, s.degree.2⟩),
   Strand.flip (a, ⟨Side.vEnd.points s.controlPoints, s.knots.1, s.degree.1⟩), Strand.flip (b, ⟨Side.uStart.points s.controlPoints, s.knots.2, s.degree.2⟩)]

/-- The sides match in pairs of opposite direction, or collapse to points. -/
def Spec.Spliced (l : List Strand) : Prop :=
  ∃ A C : List Strand, l.Perm (A ++ A.map Strand.flip ++ C) ∧ ∀ c ∈ C, ∀ x ∈ c.2.controlPoints, ∀ y ∈ c.2.controlPoints, x = y

/-- A B-spline surface whose sides are those of its net and whose tangents are Lipschitz, near `o`. -/
structure Spec.SmoothSpline (s : BSplineSurface ℝ (V3 ℝ)) (L M R : ℝ) (o : V3 ℝ) : Prop where
  valid : s.Valid
  smoothU : SmoothKnots s.knots.1 s.controlPoints.rows s.degree.1
  smoothV : SmoothKnots s.knots.2 s.controlPoints.cols s.degree.2
  clampedU : Clamped s.knots.1 s.controlPoints.rows s.degree.1
  clampedV : Clamped s.knots.2 s.controlPoints.cols s.degree.2
  first : FirstBounds s L
  second : SecondBounds s M M M
  bound : 0 ≤ M
  near : ∀ i j, i < s.controlPoints.rows → j < s.controlPoints.cols → (entry s.controlPoints i j - o).length ≤ R

namespace SplineSolid

/-- Points of a B-spline surface are as near to a point as its control points. -/
theorem near_of {s : BSplineSurface ℝ (V3 ℝ)} (hs : s.Valid) (hU : Joined s.knots.1 s.controlPoints.rows s.degree.1)
    (hV : Joined s.knots.2 s.controlPoints.cols s.degree.2) {R : ℝ} {o : V3 ℝ}
    (h : ∀ i j, i < s.controlPoints.rows → j < s.controlPoints.cols → (entry s.controlPoints i j - o).length ≤ R) {u v : ℝ}
    (hu : u ∈ Set.Icc (knot s.knots.1 0) (knot s.knots.1 (s.controlPoints.rows + s.degree.1)))
    (hv : v ∈ Set.Icc (knot s.knots.2 0) (knot s.knots.2 (s.controlPoints.cols + s.degree.2))) :
    (valOf (s.getPoint u v) - o).length ≤ R := by
  have hR : 0 ≤ R := (V3.length_nonneg _).trans (h 0 0 hs.rows hs.cols)
  obtain ⟨a, ha⟩ := joined_span hs.lenU hs.sortedU hs.nonconstU hU hu
  obtain ⟨b, hb⟩ := joined_span hs.lenV hs.sortedV hs.nonconstV hV hv
  obtain ⟨x, hx, hcc⟩ := C59_hull hs ha hb
  rw [hx, vo]
  have key := hcc.le (V3.dotL (x - o)) (b := (x - o).dot o + (x - o).length * R) (fun p hp => by
    simp only [block, List.mem_flatMap, List.mem_range, List.mem_map] at hp
    obtain ⟨i, hi, j, hj, rfl⟩ := hp
    have := ha.hi
    have := hb.hi
    have := ha.lo
    have := hb.lo
    have k := abs_dot_le (w := x - o) (h (a - s.degree.1 + i) (b - s.degree.2 + j) (by omega) (by omega))
    have k := (le_abs_self _).trans k
    change (x - o).dot _ ≤ _
    change (x - o).dot _ ≤ _ at k
    rw [V3.dot_sub] at k
    linarith)
  change (x - o).dot x ≤ _ at key
  apply length_le_of_dot hR
  rw [V3.dot_sub]
  linarith

end SplineSolid

open SplineSolid

/-- **C170** B-spline surfaces are patches in the sense of C168. -/
theorem C170_sound {s : BSplineSurface ℝ (V3 ℝ)} {L M R : ℝ} {o : V3 ℝ} (h : SmoothSpline s L M R o) {a b : Nat} (ha : 1 ≤ a) (hb : 1 ≤ b) :
    (splinePiece s a b).Sound L M R o := by
  have hs := h.valid
  exact ⟨fun u v h1 h2 => spline_point hs h1.1 h2.1,
    fun us vs h1 h2 => ⟨_, spline_normals_eq hs h.smoothU h.smoothV (params_from h1 h2), Or.inr (by simp)⟩,
    C161_tangents hs h.smoothU h.smoothV h.first h.bound h.second,
    fun u hu v hv => near_of hs (joined_smooth h.smoothU) (joined_smooth h.smoothV) h.near hu hv,
    ⟨hs.nonconstU, hs.nonconstV⟩, ha, hb⟩

namespace SplineSolid

/-- The points of a strand over the unit interval. -/
noncomputable def border (c : Strand) : Border :=
  (c.1, fun t => valOf (c.2.getPoint (knot c.2.knots 0 + t * (knot c.2.knots (c.2.controlPoints.length + c.2.degree) - knot c.2.knots 0))))

/-- What is needed of a strand to turn it round. -/
structure Good (c : Strand) : Prop where
  valid : c.2.Valid
  joined : Joined c.2.knots c.2.controlPoints.length c.2.degree

theorem flip_backwards (c : Strand) : (Strand.flip c).2 = backwards (knot c.2.knots 0 + knot c.2.knots (c.2.controlPoints.length + c.2.degree)) c.2 := rfl

theorem flip_ends {c : Strand} (h : c.2.Valid) : knot (Strand.flip c).2.knots 0 = knot c.2.knots 0 ∧
    knot (Strand.flip c).2.knots ((Strand.flip c).2.controlPoints.length + (Strand.flip c).2.degree) =
      knot c.2.knots (c.2.controlPoints.length + c.2.degree) := by
  have e1 := knot_mirror h.len (knot c.2.knots 0 + knot c.2.knots (c.2.controlPoints.length + c.2.degree))
    (j := c.2.controlPoints.length + c.2.degree) (le_refl _)
  have e2 := knot_mirror h.len (knot c.2.knots 0 + knot c.2.knots (c.2.controlPoints.length + c.2.degree)) (j := 0) (by omega)
  rw [Nat.sub_self, add_sub_cancel_right] at e1
  rw [Nat.sub_zero, add_sub_cancel_left] at e2
  refine ⟨e1, ?_⟩
  change knot (Strand.flip c).2.knots (c.2.controlPoints.reverse.length + c.2.degree) = _
  rw [List.length_reverse]
  exact e2

theorem flip_good {c : Strand} (h : Good c) : Good (Strand.flip c) := by
  refine ⟨backwards_valid h.valid _ (resolved_real _), ?_⟩
  obtain ⟨e1, e2⟩ := flip_ends h.valid
  have hl : (Strand.flip c).2.controlPoints.length = c.2.controlPoints.length := List.length_reverse
  have hd : (Strand.flip c).2.degree = c.2.degree := rfl
  rw [hl, hd] at e2 ⊢
  have m1 := knot_mirror h.valid.len (knot c.2.knots 0 + knot c.2.knots (c.2.controlPoints.length + c.2.degree))
    (j := c.2.controlPoints.length) (by omega)
  have m2 := knot_mirror h.valid.len (knot c.2.knots 0 + knot c.2.knots (c.2.controlPoints.length + c.2.degree))
    (j := c.2.degree) (by omega)
  rw [Nat.add_sub_cancel_left, h.joined.last, add_sub_cancel_right] at m1
  rw [Nat.add_sub_cancel, ← h.joined.first, add_sub_cancel_left] at m2
  refine ⟨h.joined.degree, e1.trans m1.symm, m2.trans e2.symm, ?_⟩
  rw [e1, e2]
  intro x h0 h1
  set σ := knot c.2.knots 0 + knot c.2.knots (c.2.controlPoints.length + c.2.degree) with hσ
  have e : (Strand.flip c).2.knots.count x = c.2.knots.count (σ - x) := by
    change (c.2.knots.reverse.map fun y => σ - y).count x = _
    have := List.count_map_of_injective c.2.knots.reverse (fun y => σ - y) (fun a b hab => by simpa using hab) (σ - x)
    rw [sub_sub_cancel, List.count_reverse] at this
    exact this
  rw [e]
  exact h.joined.mult _ (by rw [hσ]; linarith) (by rw [hσ]; linarith)

theorem border_flip {c : Strand} (h : Good c) : border (Strand.flip c) = Border.back (border c) := by
  obtain ⟨e1, e2⟩ := flip_ends h.valid
  unfold border
  rw [e1, e2]
  refine Prod.ext rfl ?_
  funext t
  have hd := h.valid.nonconst
  have t0 := t.2.1
  have t1 := t.2.2
  change valOf ((Strand.flip c).2.getPoint _) = valOf (c.2.getPoint (knot c.2.knots 0 + ((unitInterval.symm t : unitInterval) : ℝ) * _))
  rw [flip_backwards, unitInterval.coe_symm_eq]
  set k0 := knot c.2.knots 0 with hk0
  set k1 := knot c.2.knots (c.2.controlPoints.length + c.2.degree) with hk1
  have := (C116_bspline h.valid h.joined.mult (k0 + k1) (resolved_real _) (u := k0 + (1 - (t : ℝ)) * (k1 - k0)) (by rw [← hk0]; nlinarith)
    (by rw [← hk1]; nlinarith)).1
  rw [← this]
  congr 2
  ring

theorem border_const {c : Strand} (h : Good c) (hc : ∀ x ∈ c.2.controlPoints, ∀ y ∈ c.2.controlPoints, x = y) (s t : unitInterval) :
    (border c).2 s = (border c).2 t := by
  have hv := h.valid
  have hN := hv.pts
  have key : ∀ t : unitInterval, (border c).2 t = cp c.2.controlPoints 0 := by
    intro t
    have hd := hv.nonconst
    have t0 := t.2.1
    have t1 := t.2.2
    obtain ⟨a, ha⟩ := joined_span hv.len hv.sorted hv.nonconst h.joined
      (u := knot c.2.knots 0 + t * (knot c.2.knots (c.2.controlPoints.length + c.2.degree) - knot c.2.knots 0)) ⟨by nlinarith, by nlinarith⟩
    obtain ⟨x, hx, hcc⟩ := C13_hull hv ha.lo ha.hi ha.nonempty ha.left ha.right
    change valOf (c.2.getPoint _) = _
    rw [hx, hcc.const (c := cp c.2.controlPoints 0), vo]
    intro p hp
    refine hc _ (List.mem_of_mem_drop (List.mem_of_mem_take hp)) _ ?_
    rw [← cp_getElem hN]
    exact List.getElem_mem hN
  rw [key s, key t]

/-- A side of a B-spline surface across the second parameter, given the weights at the end. -/
theorem side_v {s : BSplineSurface ℝ (V3 ℝ)} (hs : s.Valid) {v : ℝ} {w : List ℝ} {l : Nat} (hl : l < s.controlPoints.cols)
    (hw : KnotVector.bsplineBasis s.knots.2 s.degree.2 v = .ok w) (hw' : ∀ j, j < s.controlPoints.cols → w.getD j 0 = if j = l then 1 else 0) {u : ℝ}
    (hu : u ∈ Set.Icc (knot s.knots.1 0) (knot s.knots.1 (s.controlPoints.rows + s.degree.1))) :
    s.getPoint u v = (BSplineCurve.mk ((List.range s.controlPoints.rows).map (entry s.controlPoints · l)) s.knots.1 s.degree.1).getPoint u := by
  obtain ⟨wu, eu, -, -⟩ := weights hs.lenU hs.rows hs.sortedU hs.nonconstU hu
  rw [bsplineSurface_netSum hs.net hs.lenU hs.lenV eu hw, bspline_linComb eu,
    show s.knots.1.length - 1 - s.degree.1 = s.controlPoints.rows by have := hs.lenU; omega]
  congr 1
  refine Finset.sum_congr rfl fun i hi => ?_
  rw [Finset.sum_eq_single_of_mem l (Finset.mem_range.2 hl) (fun j hj hne => by
    rw [hw' j (Finset.mem_range.1 hj), if_neg hne, mul_zero, zero_smul]), hw' l hl, if_pos rfl, mul_one]
  congr 1
  exact (cp_column (Finset.mem_range.1 hi)).symm

/-- A side of a B-spline surface across the first parameter, given the weights at the end. -/
theorem side_u {s : BSplineSurface ℝ (V3 ℝ)} (hs : s.Valid) {u : ℝ} {w : List ℝ} {k : Nat} (hk : k < s.controlPoints.rows)
    (hw : KnotVector.bsplineBasis s.knots.1 s.degree.1 u = .ok w) (hw' : ∀ i, i < s.controlPoints.rows → w.getD i 0 = if i = k then 1 else 0) {v : ℝ}
    (hv : v ∈ Set.Icc (knot s.knots.2 0) (knot s.knots.2 (s.controlPoints.cols + s.degree.2))) :
    s.getPoint u v = (BSplineCurve.mk ((List.range s.controlPoints.cols).map (entry s.controlPoints k)) s.knots.2 s.degree.2).getPoint v := by
  obtain ⟨wv, ev, -, -⟩ := weights hs.lenV hs.cols hs.sortedV hs.nonconstV hv
  rw [bsplineSurface_netSum hs.net hs.lenU hs.lenV hw ev, bspline_linComb ev,
    show s.knots.2.length - 1 - s.degree.2 = s.controlPoints.cols by have := hs.lenV; omega]
  congr 1
  rw [Finset.sum_eq_single_of_mem k (Finset.mem_range.2 hk) (fun i hi hne => by
    refine Finset.sum_eq_zero fun j _ => ?_
    rw [hw' i (Finset.mem_range.1 hi), if_neg hne, zero_mul, zero_smul])]
  refine Finset.sum_congr rfl fun j hj => ?_
  rw [hw' k hk, if_pos rfl, one_mul]
  congr 1
  exact (cp_row (Finset.mem_range.1 hj)).symm

/-- The four sides of a B-spline surface are the B-spline curves of the control points there. -/
theorem borders_eq {s : BSplineSurface ℝ (V3 ℝ)} {L M R : ℝ} {o : V3 ℝ} (h : SmoothSpline s L M R o) (a b : Nat) :
    (splinePiece s a b).borders = (strands s a b).map border ∧ ∀ c ∈ strands s a b, Good c := by
  have hs := h.valid
  have r := hs.rows
  have c := hs.cols
  have goodU : ∀ l, Good (a, ⟨(List.range s.controlPoints.rows).map (entry s.controlPoints · l), s.knots.1, s.degree.1⟩) := fun l =>
    ⟨hs.curveU (by simp), by simpa using joined_smooth h.smoothU⟩
  have goodV : ∀ k, Good (b, ⟨(List.range s.controlPoints.cols).map (entry s.controlPoints k), s.knots.2, s.degree.2⟩) := fun k =>
    ⟨hs.curveV (by simp), by simpa using joined_smooth h.smoothV⟩
  refine ⟨?_, ?_⟩
  · obtain ⟨wu0, eu0, fu0⟩ := basis_first hs.lenU hs.sortedU hs.resolvedU hs.nonconstU r h.clampedU.first h.clampedU.first'
    obtain ⟨wv0, ev0, fv0⟩ := basis_first hs.lenV hs.sortedV hs.resolvedV hs.nonconstV c h.clampedV.first h.clampedV.first'
    obtain ⟨wu1, eu1, fu1⟩ := basis_last hs.lenU hs.sortedU hs.resolvedU hs.nonconstU r h.clampedU.last h.clampedU.last'
    obtain ⟨wv1, ev1, fv1⟩ := basis_last hs.lenV hs.sortedV hs.resolvedV hs.nonconstV c h.clampedV.last h.clampedV.last'
    have inside : ∀ {x y : ℝ} (t : unitInterval), x < y → x + (t : ℝ) * (y - x) ∈ Set.Icc x y := fun t hxy => by
      have t0 := t.2.1
      have t1 := t.2.2
      exact ⟨by nlinarith, by nlinarith⟩
    have bV : ∀ (v : ℝ) (l : Nat), (∀ u ∈ Set.Icc (knot s.knots.1 0) (knot s.knots.1 (s.controlPoints.rows + s.degree.1)), s.getPoint u v =
        (BSplineCurve.mk ((List.range s.controlPoints.rows).map (entry s.controlPoints · l)) s.knots.1 s.degree.1).getPoint u) →
        ((a, fun t => valOf (s.getPoint (knot s.knots.1 0 + t * (knot s.knots.1 (s.controlPoints.rows + s.degree.1) - knot s.knots.1 0)) v)) : Border) =
        border (a, ⟨(List.range s.controlPoints.rows).map (entry s.controlPoints · l), s.knots.1, s.degree.1⟩) := by
      intro v l hvl
      refine Prod.ext rfl ?_
      funext t
      simp only [border, List.length_map, List.length_range]
      rw [hvl _ (inside t hs.nonconstU)]
    have bU : ∀ (u : ℝ) (k : Nat), (∀ v ∈ Set.Icc (knot s.knots.2 0) (knot s.knots.2 (s.controlPoints.cols + s.degree.2)), s.getPoint u v =
        (BSplineCurve.mk ((List.range s.controlPoints.cols).map (entry s.controlPoints k)) s.knots.2 s.degree.2).getPoint v) →
        ((b, fun t => valOf (s.getPoint u (knot s.knots.2 0 + t * (knot s.knots.2 (s.controlPoints.cols + s.degree.2) - knot s.knots.2 0)))) : Border) =
        border (b, ⟨(List.range s.controlPoints.cols).map (entry s.controlPoints k), s.knots.2, s.degree.2⟩) := by
      intro u k huk
      refine Prod.ext rfl ?_
      funext t
      simp only [border, List.length_map, List.length_range]
      rw [huk _ (inside t hs.nonconstV)]
    unfold strands
    rw [List.map_cons, List.map_cons, List.map_cons, List.map_cons, List.map_nil]
    unfold Side.points
    rw [border_flip (goodU _), border_flip (goodV _)]
    unfold Piece.borders splinePiece
    simp only
    rw [bV _ 0 fun u hu => side_v hs c ev0 fv0 hu, bV _ (s.controlPoints.cols - 1) fun u hu => side_v hs (by omega) ev1 fv1 hu,
      bU _ 0 fun v hv => side_u hs r eu0 fu0 hv, bU _ (s.controlPoints.rows - 1) fun v hv => side_u hs (by omega) eu1 fu1 hv]
  · intro x hx
    simp only [strands, List.mem_cons, List.not_mem_nil, or_false] at hx
    rcases hx with rfl | rfl | rfl | rfl
    · exact goodU _
    · exact goodV _
    · exact flip_good (goodU _)
    · exact flip_good (goodV _)

end SplineSolid

/-- **C170** Surfaces whose sides match, as curves with control points and knots, in either direction: together they are closed. -/
theorem C170_sealed {l : List (BSplineSurface ℝ (V3 ℝ) × Nat × Nat)} {L M R : ℝ} {o : V3 ℝ} (h : ∀ s ∈ l, SmoothSpline s.1 L M R o)
    (hm : Spliced (l.flatMap fun s => strands s.1 s.2.1 s.2.2)) :
    Sealed ((l.map fun s => splinePiece s.1 s.2.1 s.2.2).flatMap Piece.borders) := by
  have e : (l.map fun s => splinePiece s.1 s.2.1 s.2.2).flatMap Piece.borders = (l.flatMap fun s => strands s.1 s.2.1 s.2.2).map border ∧
      ∀ c ∈ l.flatMap fun s => strands s.1 s.2.1 s.2.2, Good c := by
    clear hm
    induction l with
    | nil => exact ⟨rfl, by simp⟩
    | cons s l ih =>
      obtain ⟨k1, k2⟩ := ih fun s' hs' => h s' (by simp [hs'])
      obtain ⟨m1, m2⟩ := borders_eq (h s (by simp)) s.2.1 s.2.2
      refine ⟨?_, fun c hc => ?_⟩
      · rw [List.map_cons, List.flatMap_cons, k1, m1, List.flatMap_cons, List.map_append]
      · rw [List.flatMap_cons, List.mem_append] at hc
        exact hc.elim (m2 c) (k2 c)
  obtain ⟨e1, e2⟩ := e
  obtain ⟨A, C, hp, hC⟩ := hm
  have gA : ∀ c ∈ A, Good c := fun c hc => e2 c (hp.mem_iff.2 (by simp [hc]))
  have gC : ∀ c ∈ C, Good c := fun c hc => e2 c (hp.mem_iff.2 (by simp [hc]))
  refine ⟨A.map border, C.map border, ?_, ?_⟩
  · rw [e1]
    refine (hp.map border).trans (List.Perm.of_eq ?_)
    rw [List.map_append, List.map_append, List.map_map, List.map_map]
    congr 2
    exact List.map_congr_left fun c hc => border_flip (gA c hc)
  · intro c hc
    obtain ⟨c', hc', rfl⟩ := List.mem_map.1 hc
    exact border_const (gC c' hc') (hC c' hc')

/-- **C170** The meshes of B-spline surfaces whose sides match are watertight, and the volume they enclose is near that enclosed by the
surfaces; neither depends on the point from which it is measured. -/
theorem C170_solid {l : List (BSplineSurface ℝ (V3 ℝ) × Nat × Nat)} {L M R : ℝ} {o : V3 ℝ} (h : ∀ s ∈ l, SmoothSpline s.1 L M R o)
    (hd : ∀ s ∈ l, 1 ≤ s.2.1 ∧ 1 ≤ s.2.2 ∧ (s.2.1 + 1) * (s.2.2 + 1) ≤ 2 ^ 32)
    (hm : Spliced (l.flatMap fun s => strands s.1 s.2.1 s.2.2)) :
    ∃ tss, List.Forall₂ (fun s ts => ∃ mesh, (SurfacePatch.mk s.1.surface ((knot s.1.knots.1 0, knot s.1.knots.1 (s.1.controlPoints.rows + s.1.degree.1)),
        (knot s.1.knots.2 0, knot s.1.knots.2 (s.1.controlPoints.cols + s.1.degree.2))) s.2).getTriangleMesh = .ok mesh ∧ corners mesh = some ts) l tss ∧
      Watertight tss.flatten ∧
      ∀ o1 o2, |volumeFrom o1 tss.flatten - (l.map fun s => (splinePiece s.1 s.2.1 s.2.2).volume o2).sum| ≤
        (l.map fun s => (splinePiece s.1 s.2.1 s.2.2).error L M R).sum := by
  obtain ⟨tss, h1, h2, h3⟩ := C168_solid (ps := l.map fun s => splinePiece s.1 s.2.1 s.2.2) (fun p hp => by
    obtain ⟨s, hs, rfl⟩ := List.mem_map.1 hp
    exact C170_sound (h s hs) (hd s hs).1 (hd s hs).2.1) (C170_sealed h hm) (fun p hp => by
    obtain ⟨s, hs, rfl⟩ := List.mem_map.1 hp
    exact (hd s hs).2.2)
  refine ⟨tss, ?_, h2, fun o1 o2 => ?_⟩
  · rw [List.forall₂_map_left_iff] at h1
    exact h1
  · have := h3 o1 o2
    rw [List.map_map, List.map_map] at this
    exact this

/-! ### Example -/

/-- The heights of the example over its net. -/
def Spec.bump (i : Nat) : ℝ := if i = 1 ∨ i = 2 then 1 else 0

/-- A quadratic B-spline surface with 4 by 4 control points over the unit square. -/
noncomputable def Spec.quadric (f : Nat → Nat → V3 ℝ) : BSplineSurface ℝ (V3 ℝ) :=
  ⟨⟨netTab 4 4 f, 4, 4⟩, ([0, 0, 0, 1 / 2, 1, 1, 1], [0, 0, 0, 1 / 2, 1, 1, 1]), (2, 2)⟩

/-- A pillow: two B-spline surfaces over the unit square with the same sides, the second with its parameters exchanged. -/
noncomputable def Spec.pillow : List (BSplineSurface ℝ (V3 ℝ)) :=
  [quadric fun i j => ⟨greville i, greville j, bump i * bump j⟩, quadric fun i j => ⟨greville j, greville i, -(bump i * bump j)⟩]

namespace SplineSolid

theorem quadric_entry (f : Nat → Nat → V3 ℝ) {i j : Nat} (hi : i < 4) (hj : j < 4) : entry (quadric f).controlPoints i j = f i j :=
  entry_netTab _ hi hj

theorem quadric_valid (f : Nat → Nat → V3 ℝ) : (quadric f).Valid := by
  have hk : Sorted [0, 0, 0, 1 / 2, 1, 1, (1 : ℝ)] := by
    unfold Sorted
    norm_num
  exact ⟨netTab_ok _ _ _, rfl, rfl, hk, hk, resolved_real _, resolved_real _, by norm_num [quadric, knot], by norm_num [quadric, knot],
    by norm_num [quadric], by norm_num [quadric]⟩

theorem quadric_clamped : Clamped [0, 0, 0, 1 / 2, 1, 1, (1 : ℝ)] 4 2 :=
  ⟨by norm_num [knot], by norm_num [knot], by norm_num [knot], by norm_num [knot]⟩

theorem quadric_slopeU (f : Nat → Nat → V3 ℝ) {i j : Nat} (hi : i < 3) (hj : j < 4) :
    slopeU (quadric f) i j = (if i = 1 then (2 : ℝ) else 4) • (f (i + 1) j - f i j) := by
  unfold slopeU
  rw [quadric_entry f (by omega) hj, quadric_entry f (by omega) hj, show (quadric f).degree.1 = 2 from rfl,
    show (quadric f).knots.1 = [0, 0, 0, 1 / 2, 1, 1, 1] from rfl]
  congr 1
  interval_cases i <;> norm_num [knot]

theorem quadric_slopeV (f : Nat → Nat → V3 ℝ) {i j : Nat} (hi : i < 4) (hj : j < 3) :
    slopeV (quadric f) i j = (if j = 1 then (2 : ℝ) else 4) • (f i (j + 1) - f i j) := by
  unfold slopeV
  rw [quadric_entry f hi (by omega), quadric_entry f hi (by omega), show (quadric f).degree.2 = 2 from rfl,
    show (quadric f).knots.2 = [0, 0, 0, 1 / 2, 1, 1, 1] from rfl]
  congr 1
  interval_cases j <;> norm_num [knot]

theorem quadric_smooth {f : Nat → Nat → V3 ℝ} {L M R : ℝ} {o : V3 ℝ} (hL : 0 ≤ L) (hM : 0 ≤ M)
    (h1 : ∀ i j, i < 3 → j < 4 → ((if i = 1 then (2 : ℝ) else 4) • (f (i + 1) j - f i j)).length ≤ L)
    (h2 : ∀ i j, i < 4 → j < 3 → ((if j = 1 then (2 : ℝ) else 4) • (f i (j + 1) - f i j)).length ≤ L)
    (h3 : ∀ i j, i < 2 → j < 4 →
      2 * (((if i + 1 = 1 then (2 : ℝ) else 4) • (f (i + 1 + 1) j - f (i + 1) j)) - ((if i = 1 then (2 : ℝ) else 4) • (f (i + 1) j - f i j))).length ≤ M)
    (h4 : ∀ i j, i < 3 → j < 3 →
      4 * (((if i = 1 then (2 : ℝ) else 4) • (f (i + 1) (j + 1) - f i (j + 1))) - ((if i = 1 then (2 : ℝ) else 4) • (f (i + 1) j - f i j))).length ≤ M)
    (h5 : ∀ i j, i < 4 → j < 2 →
      2 * (((if j + 1 = 1 then (2 : ℝ) else 4) • (f i (j + 1 + 1) - f i (j + 1))) - ((if j = 1 then (2 : ℝ) else 4) • (f i (j + 1) - f i j))).length ≤ M)
    (h6 : ∀ i j, i < 4 → j < 4 → (f i j - o).length ≤ R) : SmoothSpline (quadric f) L M R o := by
  have hd1 : (quadric f).degree.1 = 2 := rfl
  have hd2 : (quadric f).degree.2 = 2 := rfl
  have hk1 : (quadric f).knots.1 = [0, 0, 0, 1 / 2, 1, 1, 1] := rfl
  have hk2 : (quadric f).knots.2 = [0, 0, 0, 1 / 2, 1, 1, 1] := rfl
  refine ⟨quadric_valid f, rise_knots, rise_knots, quadric_clamped, quadric_clamped, ⟨fun i j hi hj => ?_, fun i j hi hj => ?_, hL⟩,
    ⟨fun i j hi hj => ?_, fun i j hi hj => ?_, fun i j hi hj => ?_⟩, hM, fun i j hi hj => ?_⟩
  · change i + 1 < 4 at hi
    rw [quadric_slopeU f (by omega) hj]
    exact h1 i j (by omega) hj
  · change j + 1 < 4 at hj
    rw [quadric_slopeV f hi (by omega)]
    exact h2 i j hi (by omega)
  · change i + 2 < 4 at hi
    rw [quadric_slopeU f (by omega) hj, quadric_slopeU f (by omega) hj, hd1, hk1]
    refine le_trans (le_of_eq ?_) (h3 i j (by omega) hj)
    have hi : i < 2 := by omega
    generalize (V3.length _ : ℝ) = x
    interval_cases i <;> norm_num [knot] <;> ring
  · change i + 1 < 4 at hi
    change j + 1 < 4 at hj
    rw [quadric_slopeU f (by omega) (by omega), quadric_slopeU f (by omega) (by omega), hd2, hk2]
    refine le_trans ?_ (h4 i j (by omega) (by omega))
    have hj : j < 3 := by omega
    generalize hx : (V3.length _ : ℝ) = x
    have x0 : 0 ≤ x := hx ▸ V3.length_nonneg _
    interval_cases j <;> norm_num [knot] <;> linarith
  · change j + 2 < 4 at hj
    rw [quadric_slopeV f hi (by omega), quadric_slopeV f hi (by omega), hd2, hk2]
    refine le_trans (le_of_eq ?_) (h5 i j hi (by omega))
    have hj : j < 2 := by omega
    generalize (V3.length _ : ℝ) = x
    interval_cases j <;> norm_num [knot] <;> ring
  · rw [quadric_entry f hi hj]
    exact h6 i j hi hj

theorem pillow_smooth : ∀ s ∈ pillow, SmoothSpline s 5 16 2 ⟨1 / 2, 1 / 2, 0⟩ := by
  intro s hs
  simp only [pillow, List.mem_cons, List.not_mem_nil, or_false] at hs
  rcases hs with rfl | rfl <;> refine quadric_smooth (by norm_num) (by norm_num) ?_ ?_ ?_ ?_ ?_ ?_ <;> intro i j hi hj <;>
    (try rw [← le_div_iff₀' (by norm_num)]) <;> refine (V3.length_le_sum _).trans ?_ <;> interval_cases i <;> interval_cases j <;>
    norm_num [greville, bump]

/-- The side of the example with the given control points. -/
noncomputable def seam (n : Nat) (f : Nat → V3 ℝ) : Strand := (n, ⟨(List.range 4).map f, [0, 0, 0, 1 / 2, 1, 1, 1], 2⟩)

theorem quadric_strands (f : Nat → Nat → V3 ℝ) (n : Nat) : strands (quadric f) n n =
    [seam n (f · 0), seam n (f 3), Strand.flip (seam n (f · 3)), Strand.flip (seam n (f 0))] := by
  have pt : ∀ g h : Nat → V3 ℝ, (∀ i, i < 4 → g i = h i) → (List.range 4).map g = (List.range 4).map h := fun g h e =>
    List.map_congr_left fun i hi => e i (List.mem_range.1 hi)
  have e1 : Side.vStart.points (quadric f).controlPoints = (List.range 4).map (f · 0) := pt _ _ fun i hi => quadric_entry f hi (by omega)
  have e2 : Side.uEnd.points (quadric f).controlPoints = (List.range 4).map (f 3) := pt _ _ fun i hi => quadric_entry f (i := 3) (by norm_num) hi
  have e3 : Side.vEnd.points (quadric f).controlPoints = (List.range 4).map (f · 3) := pt _ _ fun i hi => quadric_entry f (j := 3) hi (by norm_num)
  have e4 : Side.uStart.points (quadric f).controlPoints = (List.range 4).map (f 0) := pt _ _ fun i hi => quadric_entry f (by omega) hi
  unfold strands
  rw [e1, e2, e3, e4]
  rfl

theorem pillow_spliced (n : Nat) : Spliced ((pillow.map fun s => (s, n, n)).flatMap fun s => strands s.1 s.2.1 s.2.2) := by
  have z : ∀ i, bump i * bump 0 = 0 ∧ bump 0 * bump i = 0 ∧ bump i * bump 3 = 0 ∧ bump 3 * bump i = 0 := fun i => by simp [bump]
  have g : greville 0 = 0 ∧ greville 3 = 1 := by norm_num [greville]
  refine ⟨[seam n fun i => ⟨greville i, 0, 0⟩, seam n fun i => ⟨1, greville i, 0⟩, seam n fun i => ⟨0, greville i, 0⟩,
    seam n fun i => ⟨greville i, 1, 0⟩], [], ?_, by simp⟩
  simp only [pillow, List.map_cons, List.map_nil, List.flatMap_cons, List.flatMap_nil, quadric_strands, List.append_nil, List.cons_append,
    List.nil_append, (z _).1, (z _).2.1, (z _).2.2.1, (z _).2.2.2, g.1, g.2, neg_zero]
  generalize (seam n fun i => ⟨greville i, 0, 0⟩) = A
  generalize (seam n fun i => ⟨1, greville i, 0⟩) = B
  generalize (seam n fun i => ⟨0, greville i, 0⟩) = C
  generalize (seam n fun i => ⟨greville i, 1, 0⟩) = D
  refine .cons _ (.cons _ ?_)
  refine (List.perm_append_comm (l₁ := [_, _]) (l₂ := [_, _, _, _])).trans (.cons _ (.cons _ ?_))
  exact List.Perm.append (l₁ := [_, _]) (l₂ := [_, _]) (List.reverse_perm [_, _]).symm (List.reverse_perm [_, _]).symm

end SplineSolid

/-- **C170**, an example: the meshes of the pillow are watertight, and the volume they enclose tends to a limit at the rate `600 / n`. -/
theorem C170_example : ∃ V : ℝ, ∀ n : Nat, 1 ≤ n → (n + 1) * (n + 1) ≤ 2 ^ 32 →
    ∃ tss, List.Forall₂ (fun s ts => ∃ mesh, (SurfacePatch.mk s.surface ((0, 1), (0, 1)) (n, n)).getTriangleMesh = .ok mesh ∧
      corners mesh = some ts) pillow tss ∧ Watertight tss.flatten ∧ ∀ o, |volumeFrom o tss.flatten - V| ≤ 600 / n := by
  refine ⟨(pillow.map fun s => (splinePiece s 1 1).volume 0).sum, fun n hn hsz => ?_⟩
  obtain ⟨tss, h1, h2, h3⟩ := C170_solid (l := pillow.map fun s => (s, n, n)) (L := 5) (M := 16) (R := 2) (o := ⟨1 / 2, 1 / 2, 0⟩)
    (fun s hs => by
      obtain ⟨s', hs', rfl⟩ := List.mem_map.1 hs
      exact pillow_smooth s' hs')
    (fun s hs => by
      obtain ⟨s', hs', rfl⟩ := List.mem_map.1 hs
      exact ⟨hn, hn, hsz⟩) (pillow_spliced n)
  have ends : ∀ f, knot (quadric f).knots.1 0 = 0 ∧ knot (quadric f).knots.1 ((quadric f).controlPoints.rows + (quadric f).degree.1) = 1 ∧
      knot (quadric f).knots.2 0 = 0 ∧ knot (quadric f).knots.2 ((quadric f).controlPoints.cols + (quadric f).degree.2) = 1 := fun f => by
    norm_num [quadric, knot]
  refine ⟨tss, ?_, h2, fun o => ?_⟩
  · rw [List.forall₂_map_left_iff] at h1
    unfold pillow at h1 ⊢
    simp only [List.forall₂_cons_left_iff, List.forall₂_nil_left_iff, ends] at h1 ⊢
    exact h1
  · have := h3 o 0
    rw [List.map_map, List.map_map] at this
    refine this.trans ?_
    have n0 : (0 : ℝ) < n := by exact_mod_cast hn
    simp only [pillow, List.map_cons, List.map_nil, List.sum_cons, List.sum_nil, Function.comp_apply, Piece.error, splinePiece, ends]
    rw [le_div_iff₀ n0]
    have e : ((1 : ℝ) - 0) / n * n = 1 := by field_simp; ring
    nlinarith [e]

end Geom3d
