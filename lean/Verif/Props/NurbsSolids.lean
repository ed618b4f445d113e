import Verif.Props.SplineSolids
import Verif.Props.RationalSolids

/-!
# Solids bounded by rational B-spline surfaces (C174)

A rational B-spline surface is the quotient of two B-spline surfaces, one of the control points times their weights and one of the weights.
Its tangents are bounded and Lipschitz when those of both are, so C160 and C168 apply: the areas of its meshes converge, and sets of such
surfaces whose sides match have watertight meshes whose volume tends to that of the solid.
-/

set_option linter.unusedSectionVars false

namespace Geom3d
open Spec Deviation Area Projection

/-- The B-spline surface of the images of the control points. -/
def Spec.imageSpline (f : V4 ℝ → V3 ℝ) (s : BSplineSurface ℝ (V4 ℝ)) : BSplineSurface ℝ (V3 ℝ) :=
  ⟨⟨s.controlPoints.data.map f, s.controlPoints.rows, s.controlPoints.cols⟩, s.knots, s.degree⟩

/-- The B-spline surface of the control points times their weights. -/
def Spec.numerator (s : BSplineSurface ℝ (V4 ℝ)) : BSplineSurface ℝ (V3 ℝ) := imageSpline V4.truncate s

/-- The B-spline surface of the weights, as first coordinates. -/
def Spec.denominator (s : BSplineSurface ℝ (V4 ℝ)) : BSplineSurface ℝ (V3 ℝ) := imageSpline (fun p => ⟨p.w, 0, 0⟩) s

/-- The points of a B-spline surface. -/
noncomputable def Spec.splineS (s : BSplineSurface ℝ (V3 ℝ)) (u v : ℝ) : V3 ℝ := valOf (s.getPoint u v)

/-- The whole of a rational B-spline surface as a patch. -/
noncomputable def Spec.nurbsPiece (s : BSplineSurface ℝ (V4 ℝ)) (a b : Nat) : Piece :=
  ⟨s.surfaceRational, projected (splineS (numerator s)) (splineS (denominator s)),
    projectedD (splineS (numerator s)) (splineS (denominator s)) (splineU (numerator s)) (splineU (denominator s)),
    projectedD (splineS (numerator s)) (splineS (denominator s)) (splineV (numerator s)) (splineV (denominator s)),
    (knot s.knots.1 0, knot s.knots.1 (s.controlPoints.rows + s.degree.1)), (knot s.knots.2 0, knot s.knots.2 (s.controlPoints.cols + s.degree.2)), a, b⟩

/-- A rational B-spline surface with weights of at least `ω` and smooth numerator and denominator. -/
structure Spec.SmoothNurbs (s : BSplineSurface ℝ (V4 ℝ)) (Ln Mn Rn Lw Mw Rw ω : ℝ) : Prop where
  net : NetOk s.controlPoints
  num : SmoothSpline (numerator s) Ln Mn Rn 0
  den : SmoothSpline (denominator s) Lw Mw Rw 0
  weights : ∀ i j, i < s.controlPoints.rows → j < s.controlPoints.cols → ω ≤ (entry s.controlPoints i j).w

namespace Nurbs

theorem image_entry {f : V4 ℝ → V3 ℝ} (h0 : f 0 = 0) (s : BSplineSurface ℝ (V4 ℝ)) (i j : Nat) :
    entry (imageSpline f s).controlPoints i j = f (entry s.controlPoints i j) := by
  unfold entry imageSpline
  simp only [List.getD_eq_getElem?_getD, List.getElem?_map]
  generalize s.controlPoints.data[(_ : Nat)]? = x
  cases x with
  | none => exact h0.symm
  | some x => rfl

/-- The homogeneous point, from numerator and denominator. -/
theorem homogeneous {s : BSplineSurface ℝ (V4 ℝ)} (hn : NetOk s.controlPoints) (hs : (numerator s).Valid) {u v : ℝ}
    (hu : u ∈ Set.Icc (knot s.knots.1 0) (knot s.knots.1 (s.controlPoints.rows + s.degree.1)))
    (hv : v ∈ Set.Icc (knot s.knots.2 0) (knot s.knots.2 (s.controlPoints.cols + s.degree.2))) :
    ∃ h, s.getPoint u v = .ok h ∧ h.truncate = splineS (numerator s) u v ∧ h.w = (splineS (denominator s) u v).x := by
  obtain ⟨wu, eu, -, -⟩ := weights hs.lenU hs.rows hs.sortedU hs.nonconstU hu
  obtain ⟨wv, ev, -, -⟩ := weights hs.lenV hs.cols hs.sortedV hs.nonconstV hv
  have ok : ∀ f : V4 ℝ → V3 ℝ, NetOk (imageSpline f s).controlPoints := fun f => by
    have := hn
    unfold NetOk at this ⊢
    simpa [imageSpline] using this
  have e0 := bsplineSurface_netSum (s := s) hn hs.lenU hs.lenV eu ev
  have e1 := bsplineSurface_netSum (s := numerator s) (ok _) hs.lenU hs.lenV eu ev
  have e2 := bsplineSurface_netSum (s := denominator s) (ok _) hs.lenU hs.lenV eu ev
  refine ⟨_, e0, ?_, ?_⟩
  · unfold splineS
    rw [e1]
    change V4.truncL (K := ℝ) _ = ∑ i ∈ Finset.range s.controlPoints.rows, ∑ j ∈ Finset.range s.controlPoints.cols, _
    rw [map_sum]
    refine Finset.sum_congr rfl fun i _ => ?_
    rw [map_sum]
    refine Finset.sum_congr rfl fun j _ => ?_
    rw [map_smul]
    exact congrArg _ (image_entry rfl s i j).symm
  · unfold splineS
    rw [e2]
    change V4.wL (K := ℝ) _ = (∑ i ∈ Finset.range s.controlPoints.rows, ∑ j ∈ Finset.range s.controlPoints.cols, _ : V3 ℝ).x
    rw [map_sum, sum_x]
    refine Finset.sum_congr rfl fun i _ => ?_
    rw [map_sum, sum_x]
    refine Finset.sum_congr rfl fun j _ => ?_
    rw [map_smul]
    have := image_entry (f := fun p => ⟨p.w, 0, 0⟩) rfl s i j
    unfold denominator
    rw [this]
    rfl

variable {s : BSplineSurface ℝ (V4 ℝ)} {Ln Mn Rn Lw Mw Rw ω : ℝ}

theorem point (h : SmoothNurbs s Ln Mn Rn Lw Mw Rw ω) {u v : ℝ}
    (hu : u ∈ Set.Icc (knot s.knots.1 0) (knot s.knots.1 (s.controlPoints.rows + s.degree.1)))
    (hv : v ∈ Set.Icc (knot s.knots.2 0) (knot s.knots.2 (s.controlPoints.cols + s.degree.2))) :
    s.getPointRational u v = .ok (projected (splineS (numerator s)) (splineS (denominator s)) u v) := by
  obtain ⟨p, e1, e2, e3⟩ := homogeneous h.net h.num.valid hu hv
  unfold BSplineSurface.getPointRational
  rw [e1]
  simp only [ok_bind, pure_eq_ok]
  rw [rational_eq, euclid_eq]
  unfold projected
  rw [← e2, ← e3]
  rfl

theorem weight_ge (h : SmoothNurbs s Ln Mn Rn Lw Mw Rw ω) {u v : ℝ}
    (hu : u ∈ Set.Icc (knot s.knots.1 0) (knot s.knots.1 (s.controlPoints.rows + s.degree.1)))
    (hv : v ∈ Set.Icc (knot s.knots.2 0) (knot s.knots.2 (s.controlPoints.cols + s.degree.2))) :
    ω ≤ (splineS (denominator s) u v).x := by
  have hs := h.den.valid
  obtain ⟨a, ha⟩ := joined_span hs.lenU hs.sortedU hs.nonconstU (joined_smooth h.den.smoothU) hu
  obtain ⟨b, hb⟩ := joined_span hs.lenV hs.sortedV hs.nonconstV (joined_smooth h.den.smoothV) hv
  obtain ⟨x, hx, hcc⟩ := C59_hull hs ha hb
  unfold splineS
  rw [hx, vo]
  have key := hcc.le (V3.dotL ⟨-1, 0, 0⟩) (b := -ω) (fun p hp => by
    simp only [block, List.mem_flatMap, List.mem_range, List.mem_map] at hp
    obtain ⟨i, hi, j, hj, rfl⟩ := hp
    have a1 : a < s.controlPoints.rows := ha.hi
    have b1 : b < s.controlPoints.cols := hb.hi
    have a0 := ha.lo
    have b0 := hb.lo
    have k := h.weights (a - (denominator s).degree.1 + i) (b - (denominator s).degree.2 + j) (by omega) (by omega)
    unfold denominator
    rw [image_entry rfl]
    change (⟨-1, 0, 0⟩ : V3 ℝ).dot ⟨_, 0, 0⟩ ≤ _
    simp only [V3.dot]
    unfold denominator at k
    linarith)
  change (⟨-1, 0, 0⟩ : V3 ℝ).dot x ≤ _ at key
  simp only [V3.dot] at key
  linarith

theorem point_near (h : SmoothNurbs s Ln Mn Rn Lw Mw Rw ω) (hω : 0 < ω) {u v : ℝ}
    (hu : u ∈ Set.Icc (knot s.knots.1 0) (knot s.knots.1 (s.controlPoints.rows + s.degree.1)))
    (hv : v ∈ Set.Icc (knot s.knots.2 0) (knot s.knots.2 (s.controlPoints.cols + s.degree.2))) :
    (projected (splineS (numerator s)) (splineS (denominator s)) u v).length ≤ Rn / ω := by
  have hn := h.num
  have hR : 0 ≤ Rn := (V3.length_nonneg _).trans (hn.near 0 0 hn.valid.rows hn.valid.cols)
  have k := SplineSolid.near_of hn.valid (joined_smooth hn.smoothU) (joined_smooth hn.smoothV) hn.near hu hv
  rw [sub_zero] at k
  have hw := weight_ge h hu hv
  apply le_of_smul hω hw (by positivity)
  rw [unproject hω hw, mul_div_cancel₀ _ hω.ne']
  exact k

end Nurbs

open Nurbs

/-- **C174** Rational B-spline surfaces are patches in the sense of C168. -/
theorem C174_sound {s : BSplineSurface ℝ (V4 ℝ)} {Ln Mn Rn Lw Mw Rw ω L M : ℝ} (hω : 0 < ω) (h : SmoothNurbs s Ln Mn Rn Lw Mw Rw ω)
    (hL : Ln + Rn / ω * Lw ≤ ω * L) (hM : Mn + Rn / ω * Mw + 2 * (Lw * L) ≤ ω * M) {a b : Nat} (ha : 1 ≤ a) (hb : 1 ≤ b) :
    (nurbsPiece s a b).Sound L M (Rn / ω) 0 := by
  have hn := h.num
  have hd := h.den
  have hR : 0 ≤ Rn := (V3.length_nonneg _).trans (hn.near 0 0 hn.valid.rows hn.valid.cols)
  have hR' : 0 ≤ Rn / ω := by positivity
  have n1 := hn.first.nonneg
  have n2 := hd.first.nonneg
  have n3 := hn.bound
  have n4 := hd.bound
  have hL0 : 0 ≤ L := nonneg_of_mul_nonneg_right ((by positivity : 0 ≤ Ln + Rn / ω * Lw).trans hL) hω
  have hM0 : 0 ≤ M := nonneg_of_mul_nonneg_right ((by positivity : 0 ≤ Mn + Rn / ω * Mw + 2 * (Lw * L)).trans hM) hω
  refine ⟨fun u v hu hv => point h hu hv, fun us vs _ _ => ⟨[], rfl, Or.inl rfl⟩, ?_,
    fun u hu v hv => by rw [sub_zero]; exact point_near h hω hu hv, ⟨hn.valid.nonconstU, hn.valid.nonconstV⟩, ha, hb⟩
  exact C172_tangents (C161_tangents hn.valid hn.smoothU hn.smoothV hn.first hn.bound hn.second)
    (C161_tangents hd.valid hd.smoothU hd.smoothV hd.first hd.bound hd.second) hω
    (fun u hu v hv => weight_ge h hu hv) (fun u hu v hv => point_near h hω hu hv) hL0 hM0 hL hM

/-- **C174** The area of the mesh of a rational B-spline surface is near that of the surface. -/
theorem C174_area {s : BSplineSurface ℝ (V4 ℝ)} {Ln Mn Rn Lw Mw Rw ω L M : ℝ} (hω : 0 < ω) (h : SmoothNurbs s Ln Mn Rn Lw Mw Rw ω)
    (hL : Ln + Rn / ω * Lw ≤ ω * L) (hM : Mn + Rn / ω * Mw + 2 * (Lw * L) ≤ ω * M) {a b : Nat} (ha : 1 ≤ a) (hb : 1 ≤ b)
    (hsz : (a + 1) * (b + 1) ≤ 2 ^ 32) {U V : ℝ × ℝ} (hU : U = (knot s.knots.1 0, knot s.knots.1 (s.controlPoints.rows + s.degree.1)))
    (hV : V = (knot s.knots.2 0, knot s.knots.2 (s.controlPoints.cols + s.degree.2))) :
    ∃ mesh ts, (SurfacePatch.mk s.surfaceRational (U, V) (a, b)).getTriangleMesh = .ok mesh ∧ corners mesh = some ts ∧
      |totalArea ts - surfaceArea (nurbsPiece s a b).su (nurbsPiece s a b).sv U V| ≤
        (U.2 - U.1) * (V.2 - V.1) * (2 * (L * M) * ((U.2 - U.1) / a + (V.2 - V.1) / b)) := by
  subst hU hV
  have hs := C174_sound hω h hL hM ha hb
  exact C160_mesh hs.points hs.normals hs.tangents hs.ranges.1 hs.ranges.2 ha hb hsz

/-- The sides of numerator and denominator, the way around. -/
noncomputable def Spec.cords (s : BSplineSurface ℝ (V4 ℝ)) (a b : Nat) : List (Strand × Strand) :=
  (strands (numerator s) a b).zip (strands (denominator s) a b)

/-- The sides match in pairs of opposite direction, weights included, or collapse to points. -/
def Spec.Corded (l : List (Strand × Strand)) : Prop :=
  ∃ A C : List (Strand × Strand), l.Perm (A ++ A.map (Prod.map Strand.flip Strand.flip) ++ C) ∧
    ∀ c ∈ C, (∀ x ∈ c.1.2.controlPoints, ∀ y ∈ c.1.2.controlPoints, x = y) ∧ ∀ x ∈ c.2.2.controlPoints, ∀ y ∈ c.2.2.controlPoints, x = y

namespace Nurbs

/-- The side with the points of one divided by the weights of the other. -/
noncomputable def blend (n d : Border) : Border := (n.1, fun t => (1 / (d.2 t).x) • n.2 t)

noncomputable def border (c : Strand × Strand) : Border := blend (SplineSolid.border c.1) (SplineSolid.border c.2)

def Good (c : Strand × Strand) : Prop := SplineSolid.Good c.1 ∧ SplineSolid.Good c.2

theorem border_flip {c : Strand × Strand} (h : Good c) : border (Prod.map Strand.flip Strand.flip c) = Border.back (border c) := by
  unfold border
  rw [Prod.map_fst, Prod.map_snd, SplineSolid.border_flip h.1, SplineSolid.border_flip h.2]
  rfl

theorem borders_eq {s : BSplineSurface ℝ (V4 ℝ)} {Ln Mn Rn Lw Mw Rw ω : ℝ} (h : SmoothNurbs s Ln Mn Rn Lw Mw Rw ω) (a b : Nat) :
    (nurbsPiece s a b).borders = (cords s a b).map border ∧ ∀ c ∈ cords s a b, Good c := by
  obtain ⟨e1, g1⟩ := SplineSolid.borders_eq h.num a b
  obtain ⟨e2, g2⟩ := SplineSolid.borders_eq h.den a b
  refine ⟨?_, fun c hc => ?_⟩
  · have e : (nurbsPiece s a b).borders = List.zipWith blend (splinePiece (numerator s) a b).borders (splinePiece (denominator s) a b).borders := rfl
    rw [e, e1, e2, List.zipWith_map]
    unfold cords
    rw [List.zip, List.map_zipWith]
    rfl
  · obtain ⟨x, y⟩ := c
    obtain ⟨h1, h2⟩ := List.of_mem_zip hc
    exact ⟨g1 _ h1, g2 _ h2⟩

end Nurbs

/-- **C174** Rational B-spline surfaces whose sides match, in either direction, or collapse: together they are closed. -/
theorem C174_sealed {l : List (BSplineSurface ℝ (V4 ℝ) × Nat × Nat)} {Ln Mn Rn Lw Mw Rw ω : ℝ}
    (h : ∀ s ∈ l, SmoothNurbs s.1 Ln Mn Rn Lw Mw Rw ω) (hm : Corded (l.flatMap fun s => cords s.1 s.2.1 s.2.2)) :
    Sealed ((l.map fun s => nurbsPiece s.1 s.2.1 s.2.2).flatMap Piece.borders) := by
  have e : (l.map fun s => nurbsPiece s.1 s.2.1 s.2.2).flatMap Piece.borders = (l.flatMap fun s => cords s.1 s.2.1 s.2.2).map Nurbs.border ∧
      ∀ c ∈ l.flatMap fun s => cords s.1 s.2.1 s.2.2, Nurbs.Good c := by
    clear hm
    induction l with
    | nil => exact ⟨rfl, by simp⟩
    | cons s l ih =>
      obtain ⟨k1, k2⟩ := ih fun s' hs' => h s' (by simp [hs'])
      obtain ⟨m1, m2⟩ := Nurbs.borders_eq (h s (by simp)) s.2.1 s.2.2
      refine ⟨?_, fun c hc => ?_⟩
      · rw [List.map_cons, List.flatMap_cons, k1, m1, List.flatMap_cons, List.map_append]
      · rw [List.flatMap_cons, List.mem_append] at hc
        exact hc.elim (m2 c) (k2 c)
  obtain ⟨e1, e2⟩ := e
  obtain ⟨A, C, hp, hC⟩ := hm
  have gA : ∀ c ∈ A, Nurbs.Good c := fun c hc => e2 c (hp.mem_iff.2 (by simp [hc]))
  have gC : ∀ c ∈ C, Nurbs.Good c := fun c hc => e2 c (hp.mem_iff.2 (by simp [hc]))
  refine ⟨A.map Nurbs.border, C.map Nurbs.border, ?_, ?_⟩
  · rw [e1]
    refine (hp.map Nurbs.border).trans (List.Perm.of_eq ?_)
    rw [List.map_append, List.map_append, List.map_map, List.map_map]
    congr 2
    exact List.map_congr_left fun c hc => Nurbs.border_flip (gA c hc)
  · intro c hc
    obtain ⟨c', hc', rfl⟩ := List.mem_map.1 hc
    obtain ⟨h1, h2⟩ := hC c' hc'
    intro t t'
    change (1 / ((SplineSolid.border c'.2).2 t).x) • (SplineSolid.border c'.1).2 t =
      (1 / ((SplineSolid.border c'.2).2 t').x) • (SplineSolid.border c'.1).2 t'
    rw [SplineSolid.border_const (gC c' hc').1 h1 t t', SplineSolid.border_const (gC c' hc').2 h2 t t']

/-- **C174** The meshes of rational B-spline surfaces whose sides match are watertight, and the volume they enclose is near that enclosed by
the surfaces; neither depends on the point from which it is measured. -/
theorem C174_solid {l : List (BSplineSurface ℝ (V4 ℝ) × Nat × Nat)} {Ln Mn Rn Lw Mw Rw ω L M : ℝ} (hω : 0 < ω)
    (h : ∀ s ∈ l, SmoothNurbs s.1 Ln Mn Rn Lw Mw Rw ω) (hL : Ln + Rn / ω * Lw ≤ ω * L) (hM : Mn + Rn / ω * Mw + 2 * (Lw * L) ≤ ω * M)
    (hd : ∀ s ∈ l, 1 ≤ s.2.1 ∧ 1 ≤ s.2.2 ∧ (s.2.1 + 1) * (s.2.2 + 1) ≤ 2 ^ 32) (hm : Corded (l.flatMap fun s => cords s.1 s.2.1 s.2.2)) :
    ∃ tss, List.Forall₂ (fun s ts => ∃ mesh, (SurfacePatch.mk s.1.surfaceRational
        ((knot s.1.knots.1 0, knot s.1.knots.1 (s.1.controlPoints.rows + s.1.degree.1)),
        (knot s.1.knots.2 0, knot s.1.knots.2 (s.1.controlPoints.cols + s.1.degree.2))) s.2).getTriangleMesh = .ok mesh ∧ corners mesh = some ts) l tss ∧
      Watertight tss.flatten ∧
      ∀ o1 o2, |volumeFrom o1 tss.flatten - (l.map fun s => (nurbsPiece s.1 s.2.1 s.2.2).volume o2).sum| ≤
        (l.map fun s => (nurbsPiece s.1 s.2.1 s.2.2).error L M (Rn / ω)).sum := by
  have hs : ∀ p ∈ l.map fun s => nurbsPiece s.1 s.2.1 s.2.2, p.Sound L M (Rn / ω) 0 := fun p hp => by
    obtain ⟨s, hs, rfl⟩ := List.mem_map.1 hp
    exact C174_sound hω (h s hs) hL hM (hd s hs).1 (hd s hs).2.1
  have hz : ∀ p ∈ l.map fun s => nurbsPiece s.1 s.2.1 s.2.2, (p.a + 1) * (p.b + 1) ≤ 2 ^ 32 := fun p hp => by
    obtain ⟨s, hs, rfl⟩ := List.mem_map.1 hp
    exact (hd s hs).2.2
  have hc := C174_sealed h hm
  obtain ⟨tss, h1, h2, h3⟩ := C168_solid hs hc hz
  refine ⟨tss, ?_, h2, fun o1 o2 => ?_⟩
  · rw [List.forall₂_map_left_iff] at h1
    exact h1
  · have := h3 o1 o2
    rw [List.map_map, List.map_map] at this
    exact this

/-! ### Example -/

/-- A quadratic rational B-spline surface with 4 by 4 control points over the unit square. -/
noncomputable def Spec.quadric4 (f : Nat → Nat → V4 ℝ) : BSplineSurface ℝ (V4 ℝ) :=
  ⟨⟨netTab 4 4 f, 4, 4⟩, ([0, 0, 0, 1 / 2, 1, 1, 1], [0, 0, 0, 1 / 2, 1, 1, 1]), (2, 2)⟩

/-- The weights of the example along its parameters: 1, 2, 2, 1. -/
noncomputable def Spec.heavy (i : Nat) : ℝ := 1 + bump i

/-- A cushion: two rational B-spline surfaces over the unit square, the second with its parameters exchanged. -/
noncomputable def Spec.bolster : List (BSplineSurface ℝ (V4 ℝ)) :=
  [quadric4 fun i j => ⟨heavy i * heavy j * greville i, heavy i * heavy j * greville j, heavy i * heavy j * (bump i * bump j), heavy i * heavy j⟩,
   quadric4 fun i j => ⟨heavy i * heavy j * greville j, heavy i * heavy j * greville i, -(heavy i * heavy j * (bump i * bump j)), heavy i * heavy j⟩]

namespace Nurbs

theorem quadric4_image (g : V4 ℝ → V3 ℝ) (f : Nat → Nat → V4 ℝ) : imageSpline g (quadric4 f) = quadric fun i j => g (f i j) := by
  simp [imageSpline, quadric4, quadric, netTab, List.map_flatMap, Function.comp_def]

theorem bolster_smooth : ∀ s ∈ bolster, SmoothNurbs s 48 384 12 16 128 4 1 := by
  intro s hs
  simp only [bolster, List.mem_cons, List.not_mem_nil, or_false] at hs
  rcases hs with rfl | rfl
  all_goals
    refine ⟨netTab_ok _ _ _, ?_, ?_, fun i j hi hj => ?_⟩
    · unfold numerator
      rw [quadric4_image]
      refine SplineSolid.quadric_smooth (by norm_num) (by norm_num) ?_ ?_ ?_ ?_ ?_ ?_ <;> intro i j hi hj <;>
        (try rw [← le_div_iff₀' (by norm_num)]) <;> refine (V3.length_le_sum _).trans ?_ <;> interval_cases i <;> interval_cases j <;>
        norm_num [greville, bump, heavy, V4.truncate]
    · unfold denominator
      rw [quadric4_image]
      refine SplineSolid.quadric_smooth (by norm_num) (by norm_num) ?_ ?_ ?_ ?_ ?_ ?_ <;> intro i j hi hj <;>
        (try rw [← le_div_iff₀' (by norm_num)]) <;> refine (V3.length_le_sum _).trans ?_ <;> interval_cases i <;> interval_cases j <;>
        norm_num [bump, heavy]
    · change i < 4 at hi
      change j < 4 at hj
      change 1 ≤ V4.w (entry ⟨netTab 4 4 _, 4, 4⟩ i j)
      rw [entry_netTab _ hi hj]
      interval_cases i <;> interval_cases j <;> norm_num [bump, heavy]

theorem bolster_corded (n : Nat) : Corded ((bolster.map fun s => (s, n, n)).flatMap fun s => cords s.1 s.2.1 s.2.2) := by
  have z : ∀ i, bump i * bump 0 = 0 ∧ bump 0 * bump i = 0 ∧ bump i * bump 3 = 0 ∧ bump 3 * bump i = 0 := fun i => by simp [bump]
  have g : greville 0 = 0 ∧ greville 3 = 1 := by norm_num [greville]
  have w : heavy 0 = 1 ∧ heavy 3 = 1 := by norm_num [heavy, bump]
  refine ⟨[(SplineSolid.seam n fun i => ⟨heavy i * greville i, 0, 0⟩, SplineSolid.seam n fun i => ⟨heavy i, 0, 0⟩),
    (SplineSolid.seam n fun i => ⟨heavy i, heavy i * greville i, 0⟩, SplineSolid.seam n fun i => ⟨heavy i, 0, 0⟩),
    (SplineSolid.seam n fun i => ⟨0, heavy i * greville i, 0⟩, SplineSolid.seam n fun i => ⟨heavy i, 0, 0⟩),
    (SplineSolid.seam n fun i => ⟨heavy i * greville i, heavy i, 0⟩, SplineSolid.seam n fun i => ⟨heavy i, 0, 0⟩)], [], ?_, by simp⟩
  unfold cords numerator denominator
  simp only [bolster, List.map_cons, List.map_nil, List.flatMap_cons, List.flatMap_nil, quadric4_image, V4.truncate, SplineSolid.quadric_strands,
    List.zip_cons_cons, List.zip_nil_left, List.append_nil, List.cons_append, List.nil_append, (z _).1, (z _).2.1, (z _).2.2.1, (z _).2.2.2, g.1, g.2,
    w.1, w.2, neg_zero, mul_zero, mul_one, one_mul, Prod.map_apply]
  generalize (SplineSolid.seam n fun i => ⟨heavy i * greville i, 0, 0⟩) = A
  generalize (SplineSolid.seam n fun i => ⟨heavy i, heavy i * greville i, 0⟩) = B
  generalize (SplineSolid.seam n fun i => ⟨0, heavy i * greville i, 0⟩) = C
  generalize (SplineSolid.seam n fun i => ⟨heavy i * greville i, heavy i, 0⟩) = D
  generalize (SplineSolid.seam n fun i => ⟨heavy i, 0, 0⟩) = W
  refine .cons _ (.cons _ ?_)
  refine (List.perm_append_comm (l₁ := [_, _]) (l₂ := [_, _, _, _])).trans (.cons _ (.cons _ ?_))
  exact List.Perm.append (l₁ := [_, _]) (l₂ := [_, _]) (List.reverse_perm [_, _]).symm (List.reverse_perm [_, _]).symm

end Nurbs

/-- **C174**, an example: the meshes of the cushion are watertight, and the volume they enclose tends to a limit. -/
theorem C174_example : ∃ V : ℝ, ∀ n : Nat, 1 ≤ n → (n + 1) * (n + 1) ≤ 2 ^ 32 →
    ∃ tss, List.Forall₂ (fun s ts => ∃ mesh, (SurfacePatch.mk s.surfaceRational ((0, 1), (0, 1)) (n, n)).getTriangleMesh = .ok mesh ∧
      corners mesh = some ts) bolster tss ∧ Watertight tss.flatten ∧ ∀ o, |volumeFrom o tss.flatten - V| ≤ 92160000 / n := by
  refine ⟨(bolster.map fun s => (nurbsPiece s 1 1).volume 0).sum, fun n hn hsz => ?_⟩
  have k0 : knot [0, 0, 0, 1 / 2, 1, 1, (1 : ℝ)] 0 = 0 := by norm_num [knot]
  have k1 : knot [0, 0, 0, 1 / 2, 1, 1, (1 : ℝ)] (4 + 2) = 1 := by norm_num [knot]
  have hU : ∀ s ∈ bolster, (knot s.knots.1 0, knot s.knots.1 (s.controlPoints.rows + s.degree.1)) = ((0, 1) : ℝ × ℝ) ∧
      (knot s.knots.2 0, knot s.knots.2 (s.controlPoints.cols + s.degree.2)) = ((0, 1) : ℝ × ℝ) := fun s hs => by
    simp only [bolster, List.mem_cons, List.not_mem_nil, or_false] at hs
    rcases hs with rfl | rfl <;> exact ⟨Prod.ext k0 k1, Prod.ext k0 k1⟩
  obtain ⟨tss, h1, h2, h3⟩ := C174_solid (l := bolster.map fun s => (s, n, n)) (L := 240) (M := 9600) one_pos (fun s hs => by
    obtain ⟨s', hs', rfl⟩ := List.mem_map.1 hs
    exact bolster_smooth s' hs') (by norm_num) (by norm_num) (fun s hs => by
    obtain ⟨s', hs', rfl⟩ := List.mem_map.1 hs
    exact ⟨hn, hn, hsz⟩) (bolster_corded n)
  refine ⟨tss, ?_, h2, fun o => ?_⟩
  · rw [List.forall₂_map_left_iff] at h1
    unfold bolster at h1 ⊢
    cases h1 with
    | cons a h1 =>
      cases h1 with
      | cons b h1 =>
        cases h1
        have e1 := hU _ (show _ ∈ bolster from List.mem_cons_self)
        have e2 := hU _ (show _ ∈ bolster from List.mem_cons_of_mem _ List.mem_cons_self)
        rw [e1.1, e1.2] at a
        rw [e2.1, e2.2] at b
        exact .cons a (.cons b .nil)
  · have := h3 o 0
    rw [List.map_map, List.map_map] at this
    refine this.trans (le_of_eq ?_)
    have e : ∀ s ∈ bolster, (nurbsPiece s n n).error 240 9600 (12 / 1) = (2 * 240 * 9600 * 12 + 240 ^ 3) / 3 * (1 / n + 1 / n) := fun s hs => by
      obtain ⟨e1, e2⟩ := hU s hs
      unfold Piece.error nurbsPiece
      rw [e1, e2]
      norm_num
    have hn0 : (0 : ℝ) < n := by exact_mod_cast hn
    change (bolster.map fun s => (nurbsPiece s n n).error 240 9600 (12 / 1)).sum = _
    rw [List.map_congr_left (g := fun _ => (2 * 240 * 9600 * 12 + 240 ^ 3) / 3 * (1 / (n : ℝ) + 1 / n)) e]
    simp only [bolster, List.map_cons, List.map_nil, List.sum_cons, List.sum_nil]
    field_simp
    norm_num

end Geom3d
