import Verif.Lemmas.Smooth
import Verif.Props.Examples
import Verif.Props.Surfaces
import Verif.Props.Rational

/-! # C116: reversed curves and transposed surfaces -/

set_option linter.unusedSectionVars false

namespace Geom3d
open Spec

/-- A B-spline curve run through backwards: the control points in the reverse order, the knots mirrored at `σ / 2`. -/
def Spec.backwards {K P : Type} [Sub K] (σ : K) (c : BSplineCurve K P) : BSplineCurve K P :=
  ⟨c.controlPoints.reverse, c.knots.reverse.map (fun x => σ - x), c.degree⟩

/-! ### Curves -/

section
variable {K P : Type} [Field K] [LinearOrder K] [IsStrictOrderedRing K] [Env K]
  [AddCommGroup P] [Module K P] [HMul K P P] [HMul P K P] [LawfulPoint K P]

theorem cp_reverse (l : List P) {i : Nat} (hi : i < l.length) : cp l.reverse (l.length - 1 - i) = cp l i := by
  have h1 : l.length - 1 - i < l.reverse.length := by rw [List.length_reverse]; omega
  rw [← cp_getElem h1, ← cp_getElem hi, List.getElem_reverse]
  congr 1
  omega

theorem bernsteinPoly_reverse {d i : Nat} (hi : i ≤ d) (u : K) :
    bernsteinPoly d (d - i) (1 - u) = bernsteinPoly d i u := by
  unfold bernsteinPoly
  rw [Nat.choose_symm hi, sub_sub_cancel, Nat.sub_sub_self hi]
  ring

/-- **C116** A Bézier curve with its control points in the reverse order is the same curve, run through backwards. -/
theorem C116_bezier (l : List P) (hl : 1 ≤ l.length) (u : K) :
    (BezierCurve.mk l.reverse).getPoint (1 - u) = (BezierCurve.mk l).getPoint u := by
  rw [bezier_sum _ (by rw [List.length_reverse]; exact hl), bezier_sum _ hl, List.length_reverse]
  congr 1
  rw [← Finset.sum_range_reflect]
  apply Finset.sum_congr rfl
  intro i hi
  rw [Finset.mem_range] at hi
  rw [cp_reverse l hi, bernsteinPoly_reverse (by omega)]

/-- Pieces of the basis functions on mirrored knots. -/
theorem piece_mirror {t t' : Nat → K} {n : Nat} {σ : K} (ht : ∀ j, j ≤ n → t' (n - j) = σ - t j) {s : Nat} (hs : s < n)
    (u : K) : ∀ (p i : Nat), i + p + 1 ≤ n → piece t' (n - 1 - s) p (n - p - 1 - i) (σ - u) = piece t s p i u
  | 0, i, h => by
    unfold piece
    by_cases e : i = s
    · rw [if_pos e, if_pos (by omega)]
    · rw [if_neg e, if_neg (by omega)]
  | k + 1, i, h => by
    have e1 := piece_mirror ht hs u k (i + 1) (by omega)
    have e2 := piece_mirror ht hs u k i (by omega)
    rw [show n - k - 1 - (i + 1) = n - (k + 1) - 1 - i by omega] at e1
    rw [show n - k - 1 - i = n - (k + 1) - 1 - i + 1 by omega] at e2
    have t0 := ht (i + k + 2) (by omega)
    have t1 := ht (i + 1) (by omega)
    have t2 := ht i (by omega)
    have t3 := ht (i + k + 1) (by omega)
    rw [show n - (i + k + 2) = n - (k + 1) - 1 - i by omega] at t0
    rw [show n - (i + 1) = n - (k + 1) - 1 - i + k + 1 by omega] at t1
    rw [show n - i = n - (k + 1) - 1 - i + k + 2 by omega] at t2
    rw [show n - (i + k + 1) = n - (k + 1) - 1 - i + 1 by omega] at t3
    simp only [piece]
    rw [e1, e2, t0, t1, t2, t3]
    rw [show σ - u - (σ - t (i + k + 2)) = t (i + k + 2) - u by ring,
      show σ - t (i + 1) - (σ - t (i + k + 2)) = t (i + k + 2) - t (i + 1) by ring,
      show σ - t i - (σ - u) = u - t i by ring, show σ - t i - (σ - t (i + k + 1)) = t (i + k + 1) - t i by ring]
    ring

theorem knot_mirror {l : List K} {n : Nat} (hl : l.length = n + 1) (σ : K) {j : Nat} (hj : j ≤ n) :
    knot (l.reverse.map fun x => σ - x) (n - j) = σ - knot l j := by
  have h1 : n - j < (l.reverse.map fun x => σ - x).length := by simp; omega
  have h2 : j < l.length := by omega
  rw [← knot_getElem h1, ← knot_getElem h2, List.getElem_map, List.getElem_reverse]
  congr 2
  omega

theorem backwards_valid {c : BSplineCurve K P} (hv : c.Valid) (σ : K)
    (hr : Resolved (c.knots.reverse.map fun x => σ - x)) : (backwards σ c).Valid := by
  have hl := hv.len
  refine ⟨?_, ?_, hr, ?_, ?_⟩
  · simp [backwards, hl]
  · unfold backwards Sorted
    simp only []
    rw [List.pairwise_map, List.pairwise_reverse]
    exact hv.sorted.imp fun h => by linarith
  · show knot (c.knots.reverse.map fun x => σ - x) 0
      < knot (c.knots.reverse.map fun x => σ - x) (c.controlPoints.reverse.length + c.degree)
    have e1 := knot_mirror hl σ (j := c.controlPoints.length + c.degree) (le_refl _)
    have e2 := knot_mirror hl σ (j := 0) (by omega)
    rw [Nat.sub_self] at e1
    rw [Nat.sub_zero] at e2
    rw [List.length_reverse, e1, e2]
    linarith [hv.nonconst]
  · simpa [backwards] using hv.pts

theorem pieceSum_backwards {c : BSplineCurve K P} (hv : c.Valid) (σ : K) {s : Nat}
    (hs : s < c.controlPoints.length + c.degree) (u : K) :
    (backwards σ c).pieceSum (c.controlPoints.length + c.degree - 1 - s) (σ - u) = c.pieceSum s u := by
  unfold BSplineCurve.pieceSum backwards
  simp only [List.length_reverse]
  rw [← Finset.sum_range_reflect]
  apply Finset.sum_congr rfl
  intro i hi
  rw [Finset.mem_range] at hi
  rw [cp_reverse _ hi]
  congr 1
  have := piece_mirror (t := knot c.knots) (t' := knot (c.knots.reverse.map fun x => σ - x))
    (n := c.controlPoints.length + c.degree) (fun j hj => knot_mirror hv.len σ hj) hs u c.degree i (by omega)
  rw [show c.controlPoints.length + c.degree - c.degree - 1 - i = c.controlPoints.length - 1 - i by omega] at this
  exact this

/-- **C116** A B-spline curve whose interior knots have a multiplicity of at most the degree, with the control points and
the knots in the reverse order, is the same curve run through backwards: at every parameter of the range of the knots, ends
and knots included. -/
theorem C116_bspline {c : BSplineCurve K P} (hv : c.Valid) (hmult : ∀ x, knot c.knots 0 < x →
      x < knot c.knots (c.controlPoints.length + c.degree) → c.knots.count x ≤ c.degree) (σ : K)
    (hr : Resolved (c.knots.reverse.map fun x => σ - x)) {u : K} (h0 : knot c.knots 0 ≤ u)
    (h1 : u ≤ knot c.knots (c.controlPoints.length + c.degree)) :
    (backwards σ c).getPoint (σ - u) = c.getPoint u ∧ ∃ x, c.getPoint u = .ok x := by
  have hb := backwards_valid hv σ hr
  have hk : ∀ j, j ≤ c.controlPoints.length + c.degree →
      knot (backwards σ c).knots (c.controlPoints.length + c.degree - j) = σ - knot c.knots j :=
    fun j hj => knot_mirror hv.len σ hj
  have hlen : (backwards σ c).controlPoints.length + (backwards σ c).degree = c.controlPoints.length + c.degree := by
    simp [backwards]
  rcases eq_or_lt_of_le h0 with h | h
  · obtain ⟨s, hs, hg⟩ := getPoint_eq hv h0
    refine ⟨?_, _, hg⟩
    have hlt := hs.lt
    have e1 := hk s (by omega)
    have e2 := hk (s + 1) (by omega)
    have e3 := hk 0 (by omega)
    rw [Nat.sub_zero] at e3
    rw [show c.controlPoints.length + c.degree - s = c.controlPoints.length + c.degree - 1 - s + 1 by omega] at e1
    rw [show c.controlPoints.length + c.degree - (s + 1) = c.controlPoints.length + c.degree - 1 - s by omega] at e2
    have hs0 : knot c.knots s = knot c.knots 0 := le_antisymm (hs.left.trans h.ge) (hv.mono 0 s (by omega) (by omega))
    have hne := hs.nonempty
    rw [getPoint_of_contains hb (s := c.controlPoints.length + c.degree - 1 - s), hg, pieceSum_backwards hv σ hlt]
    rw [hlen]
    refine ⟨by omega, by rw [e1, e2]; linarith, by rw [e2, ← h]; linarith [hs0], Or.inr ⟨by rw [e3, h], by rw [e1, e3, hs0]⟩⟩
  · obtain ⟨s, hs, a, b⟩ := exists_left h h1
    have hg := getPoint_left hv hmult hs a b
    refine ⟨?_, _, hg⟩
    have e1 := hk s (by omega)
    have e2 := hk (s + 1) (by omega)
    rw [show c.controlPoints.length + c.degree - s = c.controlPoints.length + c.degree - 1 - s + 1 by omega] at e1
    rw [show c.controlPoints.length + c.degree - (s + 1) = c.controlPoints.length + c.degree - 1 - s by omega] at e2
    rw [getPoint_of_contains hb (s := c.controlPoints.length + c.degree - 1 - s), hg, pieceSum_backwards hv σ hs]
    rw [hlen]
    exact ⟨by omega, by rw [e1, e2]; linarith, by rw [e2]; linarith, Or.inl (by rw [e1]; linarith)⟩

end

/-! ### Surfaces -/

section
variable {K P : Type} [Field K] [LinearOrder K] [IsStrictOrderedRing K] [Env K]
  [AddCommGroup P] [Module K P] [HMul K P P] [HMul P K P] [LawfulPoint K P]

theorem grid_eq {g : Grid P} (hg : NetOk g) : g = gridOf g.rows g.cols (entry g) := by
  obtain ⟨data, r, c⟩ := g
  unfold gridOf
  congr 1
  have hl : data.length = r * c := hg
  apply List.ext_getElem
  · rw [hl, netTab_length]
  · intro k h1 h2
    have hc : 0 < c := by
      rcases Nat.eq_zero_or_pos c with rfl | h
      · rw [Nat.mul_zero] at hl; omega
      · exact h
    have hk : k / c < r := by rw [Nat.div_lt_iff_lt_mul hc]; omega
    have := netTab_getElem? r c (entry (⟨data, r, c⟩ : Grid P)) hk (Nat.mod_lt k hc)
    rw [Nat.div_add_mod', List.getElem?_eq_getElem h2, Option.some.injEq] at this
    rw [this]
    unfold entry
    simp only []
    rw [Nat.div_add_mod', List.getD_eq_getElem?_getD, List.getElem?_eq_getElem h1]
    rfl

theorem transpose_net {g : Grid P} (hg : NetOk g) : ∃ g', g.transpose = .ok g' ∧ NetOk g' ∧ g'.rows = g.cols ∧
    g'.cols = g.rows ∧ ∀ i j, i < g.rows → j < g.cols → entry g' j i = entry g i j := by
  refine ⟨gridOf g.cols g.rows fun i j => entry g j i, ?_, netTab_ok _ _ _, rfl, rfl, ?_⟩
  · conv_lhs => rw [grid_eq hg]
    exact transpose_tab _ _ _
  · intro i j hi hj
    exact entry_netTab _ hj hi

/-- **C116** The Bézier surface of the transposed net is the same surface with the parameters exchanged. -/
theorem C116_bezier_surface {g g' : Grid P} (hg : NetOk g) (hr : 1 ≤ g.rows) (hc : 1 ≤ g.cols) (h : g.transpose = .ok g')
    (u v : K) : (BezierSurface.mk g').getPoint v u = (BezierSurface.mk g).getPoint u v := by
  obtain ⟨g'', e1, e2, e3, e4, e5⟩ := transpose_net hg
  rw [h] at e1
  cases e1
  rw [bezierSurface_getPoint (s := ⟨g'⟩) e2 (by rw [e3]; exact hc) (by rw [e4]; exact hr),
    bezierSurface_getPoint (s := ⟨g⟩) hg hr hc]
  simp only []
  rw [e3, e4, Finset.sum_comm]
  congr 1
  apply Finset.sum_congr rfl
  intro i hi
  apply Finset.sum_congr rfl
  intro j hj
  rw [e5 i j (Finset.mem_range.1 hi) (Finset.mem_range.1 hj), mul_comm]

theorem transposed_valid {s s' : BSplineSurface K P} (hs : s.Valid) (h : s.controlPoints.transpose = .ok s'.controlPoints)
    (hk : s'.knots = s.knots.swap) (hd : s'.degree = s.degree.swap) : s'.Valid := by
  obtain ⟨g', e1, e2, e3, e4, -⟩ := transpose_net hs.net
  rw [h] at e1
  cases e1
  refine ⟨e2, ?_, ?_, ?_, ?_, ?_, ?_, ?_, ?_, ?_, ?_⟩ <;> (try rw [hk]) <;> (try rw [hd]) <;> (try rw [e3]) <;>
    (try rw [e4])
  · exact hs.lenV
  · exact hs.lenU
  · exact hs.sortedV
  · exact hs.sortedU
  · exact hs.resolvedV
  · exact hs.resolvedU
  · exact hs.nonconstV
  · exact hs.nonconstU
  · exact hs.cols
  · exact hs.rows

/-- **C116** Likewise for B-spline surfaces, with the knot vectors and degrees exchanged. -/
theorem C116_bspline_surface {s s' : BSplineSurface K P} (hs : s.Valid)
    (h : s.controlPoints.transpose = .ok s'.controlPoints) (hk : s'.knots = s.knots.swap) (hd : s'.degree = s.degree.swap)
    {u v : K} (hu : knot s.knots.1 0 ≤ u) (hv : knot s.knots.2 0 ≤ v) :
    s'.getPoint v u = s.getPoint u v ∧ ∃ x, s.getPoint u v = .ok x := by
  have hs' := transposed_valid hs h hk hd
  obtain ⟨g', e1, e2, e3, e4, e5⟩ := transpose_net hs.net
  rw [h] at e1
  cases e1
  obtain ⟨a, -, -, ha⟩ := exists_contains hs.lenU hs.sortedU hs.resolvedU hs.nonconstU hu
  obtain ⟨b, -, -, hb⟩ := exists_contains hs.lenV hs.sortedV hs.resolvedV hs.nonconstV hv
  refine ⟨?_, _, bsplineSurface_pieces hs ha hb⟩
  rw [bsplineSurface_pieces hs ha hb, bsplineSurface_pieces hs' (a := b) (b := a) (u := v) (v := u)]
  · rw [e3, e4, hk, hd, Finset.sum_comm]
    congr 1
    apply Finset.sum_congr rfl
    intro i hi
    apply Finset.sum_congr rfl
    intro j hj
    rw [e5 i j (Finset.mem_range.1 hi) (Finset.mem_range.1 hj), mul_comm]
    rfl
  · rw [e3, hk, hd]; exact hb
  · rw [e4, hk, hd]; exact ha

/-- The surface with the parameters exchanged: the transposed net, knot vectors and degrees swapped. -/
structure Spec.Transposed (s s' : BSplineSurface K P) : Prop where
  net : s.controlPoints.transpose = .ok s'.controlPoints
  knots : s'.knots = s.knots.swap
  degree : s'.degree = s.degree.swap

/-- **C116** Where the surface can be evaluated at all, so can the transposed one, at any parameters and for any knot
values. -/
theorem C116_bspline_any {s s' : BSplineSurface K P} (hg : NetOk s.controlPoints)
    (hlu : s.controlPoints.rows + s.degree.1 + 1 ≤ s.knots.1.length)
    (hlv : s.controlPoints.cols + s.degree.2 + 1 ≤ s.knots.2.length) (h : Transposed s s') {u v : K} {x : P}
    (hx : s.getPoint u v = .ok x) : s'.getPoint v u = .ok x := by
  obtain ⟨g', e1, e2, e3, e4, e5⟩ := transpose_net hg
  rw [h.net] at e1
  cases e1
  have hx' := hx
  unfold BSplineSurface.getPoint at hx'
  obtain ⟨bu, hbu, hx'⟩ := bind_eq_ok.1 hx'
  obtain ⟨bv, hbv, -⟩ := bind_eq_ok.1 hx'
  rw [bsplineSurface_netSum' hg hlu hlv hbu hbv] at hx
  rw [bsplineSurface_netSum' (bu := bv) (bv := bu) e2 (by rw [e3, h.knots, h.degree]; exact hlv)
    (by rw [e4, h.knots, h.degree]; exact hlu) (by rw [h.knots, h.degree]; exact hbv)
    (by rw [h.knots, h.degree]; exact hbu), ← hx, e3, e4, Finset.sum_comm]
  congr 1
  apply Finset.sum_congr rfl
  intro i hi
  apply Finset.sum_congr rfl
  intro j hj
  rw [e5 i j (Finset.mem_range.1 hi) (Finset.mem_range.1 hj), mul_comm]

end

/-! ### Rational curves and surfaces -/

section
variable {K : Type} [Field K] [LinearOrder K] [IsStrictOrderedRing K] [Env K]

/-- **C116** The same for the rational curves and surfaces. -/
theorem C116_rational_bezier (l : List (V4 K)) (hl : 1 ≤ l.length) (u : K) :
    (BezierCurve.mk l.reverse).getPointRational (1 - u) = (BezierCurve.mk l).getPointRational u := by
  unfold BezierCurve.getPointRational
  rw [C116_bezier l hl]

theorem C116_rational_bspline {c : BSplineCurve K (V4 K)} (hv : c.Valid) (hmult : ∀ x, knot c.knots 0 < x →
      x < knot c.knots (c.controlPoints.length + c.degree) → c.knots.count x ≤ c.degree) (σ : K)
    (hr : Resolved (c.knots.reverse.map fun x => σ - x)) {u : K} (h0 : knot c.knots 0 ≤ u)
    (h1 : u ≤ knot c.knots (c.controlPoints.length + c.degree)) :
    (backwards σ c).getPointRational (σ - u) = c.getPointRational u := by
  unfold BSplineCurve.getPointRational
  rw [(C116_bspline hv hmult σ hr h0 h1).1]

theorem C116_rational_bezier_surface {g g' : Grid (V4 K)} (hg : NetOk g) (hr : 1 ≤ g.rows) (hc : 1 ≤ g.cols)
    (h : g.transpose = .ok g') (u v : K) :
    (BezierSurface.mk g').getPointRational v u = (BezierSurface.mk g).getPointRational u v := by
  unfold BezierSurface.getPointRational
  rw [C116_bezier_surface hg hr hc h]

theorem C116_rational_bspline_surface {s s' : BSplineSurface K (V4 K)} (hs : s.Valid) (h : Transposed s s') {u v : K}
    (hu : knot s.knots.1 0 ≤ u) (hv : knot s.knots.2 0 ≤ v) : s'.getPointRational v u = s.getPointRational u v := by
  unfold BSplineSurface.getPointRational
  rw [(C116_bspline_surface hs h.net h.knots h.degree hu hv).1]

end

/-! ### Derivatives and normals -/

section
variable {P : Type} [AddCommGroup P] [Module ℝ P] [HMul ℝ P P] [HMul P ℝ P] [LawfulPoint ℝ P]

theorem netTab_congr {α : Type} {R C : Nat} {f g : Nat → Nat → α} (h : ∀ i j, i < R → j < C → f i j = g i j) :
    netTab R C f = netTab R C g := by
  unfold netTab
  rw [List.flatMap_def, List.flatMap_def]
  congr 1
  apply List.map_congr_left
  intro i hi
  apply List.map_congr_left
  intro j hj
  exact h i j (List.mem_range.1 hi) (List.mem_range.1 hj)

/-- **C116** The derivative in `u` of the transposed surface is the transposed derivative in `v`. -/
theorem C116_derivative {s s' : BSplineSurface ℝ P} (hs : s.Valid) (h : Transposed s s') (hq : 1 ≤ s.degree.2)
    (hc : 2 ≤ s.controlPoints.cols) :
    ∃ d d', s.derivativeV = .ok d ∧ s'.derivativeU = .ok d' ∧ Transposed d d' := by
  have hs' := transposed_valid hs h.net h.knots h.degree
  obtain ⟨g', e1, e2, e3, e4, e5⟩ := transpose_net hs.net
  rw [h.net] at e1
  cases e1
  have k1 : s'.knots.1 = s.knots.2 := by rw [h.knots]; rfl
  have k2 : s'.knots.2 = s.knots.1 := by rw [h.knots]; rfl
  have d1 : s'.degree.1 = s.degree.2 := by rw [h.degree]; rfl
  have d2 : s'.degree.2 = s.degree.1 := by rw [h.degree]; rfl
  refine ⟨_, _, derivativeV_eq hs.net hs.lenV hq hc hs.rows hs.resolvedV,
    derivativeU_eq hs'.net hs'.lenU (by rw [d1]; exact hq) (by rw [e3]; exact hc) hs'.cols hs'.resolvedU, ?_, ?_, ?_⟩
  · refine (transpose_tab _ _ _).trans ?_
    simp only [gridOf, e3, e4, k1, d1]
    congr 2
    refine netTab_congr fun i j hi hj => ?_
    rw [e5 j (i + 1) hj (by omega), e5 j i hj (by omega)]
  · simp only [k1, k2, Prod.swap_prod_mk]
  · simp only [d1, d2, Prod.swap_prod_mk]

end

theorem transposed_back {P : Type} [AddCommGroup P] [Module ℝ P] [HMul ℝ P P] [HMul P ℝ P] [LawfulPoint ℝ P]
    {s s' : BSplineSurface ℝ P} (hg : NetOk s.controlPoints) (h : Transposed s s') : Transposed s' s := by
  have e : s.controlPoints = gridOf s.controlPoints.rows s.controlPoints.cols (entry s.controlPoints) := grid_eq hg
  refine ⟨?_, by rw [h.knots, Prod.swap_swap], by rw [h.degree, Prod.swap_swap]⟩
  have ht := h.net
  rw [e, transpose_tab] at ht
  cases ht' : s'.controlPoints with
  | mk d r c =>
    rw [ht'] at ht
    injection ht with ht
    rw [← ht, transpose_tab, ← e]

theorem normalize_swap (a b : V3 ℝ) : (b.cross a).normalize = -(a.cross b).normalize := by
  have e : b.cross a = -(a.cross b) := by
    ext <;> simp [V3.cross]
  have hl : (-(a.cross b)).length = (a.cross b).length := by
    unfold V3.length V3.dot
    simp
  rw [e]
  unfold V3.normalize
  rw [hl]
  ext <;> simp

theorem mapM_neg {α β : Type} {f : α → Res (V3 ℝ)} {g : β → Res (V3 ℝ)} {σ : α → β}
    (h : ∀ a x, f a = .ok x → g (σ a) = .ok (-x)) :
    ∀ (l : List α) (N : List (V3 ℝ)), l.mapM f = .ok N → (l.map σ).mapM g = .ok (N.map fun x => -x)
  | [], N, hN => by
    cases hN
    rfl
  | a :: l, N, hN => by
    rw [List.mapM_cons] at hN
    obtain ⟨x, hx, hN⟩ := bind_eq_ok.1 hN
    obtain ⟨M, hM, hN⟩ := bind_eq_ok.1 hN
    cases hN
    rw [List.map_cons, List.mapM_cons, h a x hx, ok_bind, mapM_neg h l M hM]
    rfl

/-- **C116** The normals of the transposed surface point the other way. -/
theorem C116_normals {s s' : BSplineSurface ℝ (V3 ℝ)} (hs : s.Valid) (h : Transposed s s') (hp : 1 ≤ s.degree.1)
    (hq : 1 ≤ s.degree.2) (hr : 2 ≤ s.controlPoints.rows) (hc : 2 ≤ s.controlPoints.cols) {l : List (V2 ℝ)}
    {N : List (V3 ℝ)} (hN : s.getNormals l = .ok N) :
    s'.getNormals (l.map fun p => ⟨p.y, p.x⟩) = .ok (N.map fun x => -x) := by
  have hs' := transposed_valid hs h.net h.knots h.degree
  have hb := transposed_back hs.net h
  obtain ⟨dV, dU', a1, a2, a3⟩ := C116_derivative hs h hq hc
  obtain ⟨dV', dU, b1, b2, b3⟩ := C116_derivative hs' hb (by rw [h.degree]; exact hp) (by
    obtain ⟨g', e1, -, -, e4, -⟩ := transpose_net hs.net
    rw [h.net] at e1
    cases e1
    rw [e4]; exact hr)
  have nV := derivativeV_eq hs.net hs.lenV hq hc hs.rows hs.resolvedV
  have nU := derivativeU_eq hs.net hs.lenU hp hr hs.cols hs.resolvedU
  rw [a1] at nV
  rw [b2] at nU
  injection nV with nV
  injection nU with nU
  have lV := hs.lenV
  have lU := hs.lenU
  unfold BSplineSurface.getNormals at hN ⊢
  rw [b2, a1] at hN
  rw [a2, b1]
  simp only [ok_bind] at hN ⊢
  refine mapM_neg (fun p x hx => ?_) l N hN
  obtain ⟨a, ha, hx⟩ := bind_eq_ok.1 hx
  obtain ⟨b, hb', hx⟩ := bind_eq_ok.1 hx
  cases hx
  have tU := transposed_back (s := dV') (s' := dU) ?_ b3
  · rw [C116_bspline_any (s := dV) ?_ ?_ ?_ a3 hb', ok_bind, C116_bspline_any (s := dU) ?_ ?_ ?_ tU ha, ok_bind,
      normalize_swap]
    · rfl
    all_goals first
      | (rw [nU]; exact netTab_ok _ _ _)
      | (rw [nV]; exact netTab_ok _ _ _)
      | (rw [nU]; simp; omega)
      | (rw [nV]; simp; omega)
  · have nV' := derivativeV_eq hs'.net hs'.lenV (by rw [h.degree]; exact hp) (by
      obtain ⟨g', e1, -, -, e4, -⟩ := transpose_net hs.net
      rw [h.net] at e1
      cases e1
      rw [e4]; exact hr) hs'.rows hs'.resolvedV
    rw [b1] at nV'
    injection nV' with nV'
    rw [nV']
    exact netTab_ok _ _ _

/-! ### Meshes -/

/-- Two triangles with the same corners, run through in opposite directions. -/
def Spec.Turned {F : Type} (s t : Tri F) : Prop :=
  t = (s.1, s.2.2, s.2.1) ∨ t = (s.2.1, s.1, s.2.2) ∨ t = (s.2.2, s.2.1, s.1)

theorem forall₂_flatMap {α β γ : Type} {R : β → γ → Prop} {f : α → List β} {g : α → List γ} :
    ∀ l : List α, (∀ a ∈ l, List.Forall₂ R (f a) (g a)) → List.Forall₂ R (l.flatMap f) (l.flatMap g)
  | [], _ => List.Forall₂.nil
  | a :: l, h => by
    rw [List.flatMap_cons, List.flatMap_cons]
    exact List.rel_append (h a (by simp)) (forall₂_flatMap l fun x hx => h x (by simp [hx]))

theorem flatMap_swap {α β γ : Type} (f : α → β → List γ) (m : List β) :
    ∀ l : List α, (l.flatMap fun a => m.flatMap fun b => f a b).Perm (m.flatMap fun b => l.flatMap fun a => f a b)
  | [] => by simp
  | a :: l => by
    rw [List.flatMap_cons]
    refine ((flatMap_swap f m l).append_left _).trans ?_
    have : ∀ m : List β, ((m.flatMap fun b => f a b) ++ m.flatMap fun b => l.flatMap fun a => f a b).Perm
        (m.flatMap fun b => (a :: l).flatMap fun a => f a b) := by
      intro m
      induction m with
      | nil => simp
      | cons b m ih =>
        simp only [List.flatMap_cons] at ih ⊢
        refine List.Perm.trans ?_ (ih.append_left _)
        simp only [List.append_assoc]
        refine List.Perm.append_left _ ?_
        rw [← List.append_assoc, ← List.append_assoc]
        exact List.perm_append_comm.append_right _
    exact this m

/-- **C116** Exchanging the parameters of a patch keeps the triangles of the mesh and turns each of them over: the list of
the triangles of the one, in another order, is the list of the triangles of the other, each run through backwards. -/
theorem C116_mesh {F : Type} (q : Nat → Nat → V3 F) (a b : Nat) :
    ∃ l, l.Perm (gridTriangles (fun i j => q j i) b a) ∧ List.Forall₂ Turned (gridTriangles q a b) l := by
  refine ⟨(List.range a).flatMap fun i => (List.range b).flatMap fun j =>
    [(q i j, q i (j + 1), q (i + 1) j), (q (i + 1) j, q i (j + 1), q (i + 1) (j + 1))], ?_, ?_⟩
  · exact flatMap_swap (fun i j =>
      [(q i j, q i (j + 1), q (i + 1) j), (q (i + 1) j, q i (j + 1), q (i + 1) (j + 1))]) _ _
  · refine forall₂_flatMap _ fun i _ => forall₂_flatMap _ fun j _ => ?_
    exact .cons (Or.inl rfl) (.cons (Or.inr (Or.inl rfl)) .nil)

/-- **C116** For patches: when the second is the first with the parameters, their ranges and the divisions exchanged, the
triangles of its mesh are those of the first, turned over. -/
theorem C116_patch {F : Type} [Add F] [Sub F] [Mul F] [Div F] [Neg F] [Zero F] [One F] [NatCast F] [LT F] [DecidableLT F]
    [LE F] [DecidableLE F] [Env F] {p p' : SurfacePatch F} {a b : Nat} (hd : p.parameterDivision = (a, b))
    (hd' : p'.parameterDivision = (b, a)) (hr : p'.parameterRange = p.parameterRange.swap) (ha : 1 ≤ a) (hb : 1 ≤ b)
    (hsz : (a + 1) * (b + 1) ≤ 2 ^ 32) {q : Nat → Nat → V3 F} (hq : Evaluates p q)
    (hp : ∀ u v, p'.surface.getPoint v u = p.surface.getPoint u v)
    (hn : ∀ us vs, uniformDivide p'.parameterRange.1 p'.parameterDivision.1 = .ok us →
      uniformDivide p'.parameterRange.2 p'.parameterDivision.2 = .ok vs →
      ∃ N, p'.surface.getNormals (gridParams us vs) = .ok N ∧ (N = [] ∨ N.length = (gridParams us vs).length)) :
    ∃ mesh mesh' T T' l, p.getTriangleMesh = .ok mesh ∧ p'.getTriangleMesh = .ok mesh' ∧ corners mesh = some T ∧
      corners mesh' = some T' ∧ l.Perm T' ∧ List.Forall₂ Turned T l := by
  have hq' : Evaluates p' fun i j => q j i := by
    refine ⟨fun us vs h1 h2 i j u v hu hv => ?_, hn⟩
    rw [hp]
    refine hq.points vs us ?_ ?_ j i v u hv hu
    · rw [← h2, hr, hd, hd']; rfl
    · rw [← h1, hr, hd, hd']; rfl
  obtain ⟨mesh, m1, -, -, m2, -⟩ := patch_mesh hd ha hb hsz hq
  obtain ⟨mesh', m3, -, -, m4, -⟩ := patch_mesh hd' hb ha (by rw [Nat.mul_comm]; exact hsz) hq'
  obtain ⟨l, l1, l2⟩ := C116_mesh q a b
  exact ⟨mesh, mesh', _, _, l, m1, m3, m2, m4, l1, l2⟩

/-! ### A case -/

/-- A clamped quadratic with one interior knot. -/
def Spec.bent : BSplineCurve ℚ (V2 ℚ) := ⟨[⟨0, 0⟩, ⟨1, 2⟩, ⟨3, 1⟩, ⟨4, 4⟩], [0, 0, 0, 1, 3, 3, 3], 2⟩

/-- It meets the premises of `C116_bspline`, with the knots mirrored at `3 / 2`. -/
theorem bent_premises : bent.Valid ∧ Resolved (bent.knots.reverse.map fun x => 3 - x) ∧
    ∀ x, knot bent.knots 0 < x → x < knot bent.knots (bent.controlPoints.length + bent.degree) →
      bent.knots.count x ≤ bent.degree := by
  refine ⟨⟨rfl, by unfold Sorted; decide +kernel, ⟨by decide +kernel, by decide +kernel⟩, by decide +kernel, by decide⟩,
    ⟨by decide +kernel, by decide +kernel⟩, fun x h0 h1 => ?_⟩
  have a : (0 : ℚ) < x := h0
  have b : x < 3 := h1
  have e0 : ¬ (0 : ℚ) = x := ne_of_lt a
  have e3 : ¬ (3 : ℚ) = x := fun h => absurd b (by rw [h]; exact lt_irrefl _)
  show List.count x [0, 0, 0, 1, 3, 3, 3] ≤ 2
  simp only [List.count_cons, List.count_nil, beq_iff_eq, e0, e3, if_false]
  split <;> omega

theorem C116_example : (backwards 3 bent).knots = [0, 0, 0, 2, 3, 3, 3] ∧
    bent.getPoint 1 = .ok ⟨5 / 3, 5 / 3⟩ ∧ (backwards 3 bent).getPoint 2 = .ok ⟨5 / 3, 5 / 3⟩ ∧
    bent.getPoint 2 = .ok ⟨35 / 12, 23 / 12⟩ ∧ (backwards 3 bent).getPoint 1 = .ok ⟨35 / 12, 23 / 12⟩ := by
  decide +kernel

end Geom3d
