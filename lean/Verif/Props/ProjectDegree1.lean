import Verif.Props.Polyline
import Verif.Lemmas.BSpline

/-! # C27: projection onto degree-1 B-spline curves -/

set_option linter.unusedSectionVars false

namespace Geom3d

open Spec

/-- **C27 is false of the code** (binary64): on the curve through `0, 1, 3` with uniform knots, projecting the control
point `(1,0,0)` gives a point at squared distance above 0.1, although the curve passes through it at parameter 1. -/
theorem C27_false_f64 : (do
    let c : BSplineCurve Float (V3 Float) := ⟨[⟨0, 0, 0⟩, ⟨1, 0, 0⟩, ⟨3, 0, 0⟩], [0, 0, 1, 2, 2], 1⟩
    let u ← c.project ⟨1, 0, 0⟩
    let x ← c.getPoint u
    let y ← c.getPoint 1
    pure (decide ((0.1 : Float) < (x - (⟨1, 0, 0⟩ : V3 Float)).lengthSq), y))
      = .ok (true, (⟨1, 0, 0⟩ : V3 Float)) := by decide +kernel

/-- A degree-1 curve whose knots are proportional to arc length: end knots doubled, inner knot `i` at `σ` times the arc
length of control point `i`. -/
structure Spec.ArcKnots (c : BSplineCurve ℝ (V3 ℝ)) (σ : ℝ) : Prop where
  degree : c.degree = 1
  speed : 0 < σ
  first : knot c.knots 0 = knot c.knots 1
  last : knot c.knots c.controlPoints.length = knot c.knots (c.controlPoints.length + 1)
  inner : ∀ i, i < c.controlPoints.length →
    knot c.knots (i + 1) = knot c.knots 0 + σ * ((segLens c.controlPoints).take i).sum

theorem segLens_length (l : List (V3 ℝ)) : (segLens l).length = l.length - 1 := by
  unfold segLens pairs
  simp

theorem segLens_getElem? {vs : List (V3 ℝ)} {k : Nat} {a b : V3 ℝ} (ha : vs[k]? = some a) (hb : vs[k + 1]? = some b) :
    (segLens vs)[k]? = some (Spec.dist3 a b) := by
  unfold segLens
  rw [List.getElem?_map, pairs_get_of ha hb, Option.map_some, dist3_eq, V3.distance_comm]

theorem take_succ_sum {l : List ℝ} {k : Nat} {d : ℝ} (h : l[k]? = some d) : (l.take (k + 1)).sum = (l.take k).sum + d := by
  rw [List.take_add_one, h]
  simp

/-- A degree-1 piece interpolates linearly between two neighbouring control points. -/
theorem degree1_pieceSum {c : BSplineCurve ℝ (V3 ℝ)} (hd : c.degree = 1) {k : Nat} (hk : k + 1 < c.controlPoints.length)
    (hne : knot c.knots (k + 1) < knot c.knots (k + 2)) (u : ℝ) :
    c.pieceSum (k + 1) u = Spec.segPoint3 (cp c.controlPoints k) (cp c.controlPoints (k + 1))
      ((u - knot c.knots (k + 1)) / (knot c.knots (k + 2) - knot c.knots (k + 1))) := by
  unfold BSplineCurve.pieceSum
  rw [hd]
  have hD : knot c.knots (k + 2) - knot c.knots (k + 1) ≠ 0 := ne_of_gt (sub_pos.2 hne)
  have e : ∀ i, piece (knot c.knots) (k + 1) 1 i u
      = (if i = k + 1 then (u - knot c.knots (k + 1)) / (knot c.knots (k + 2) - knot c.knots (k + 1)) else 0)
        + (if i = k then 1 - (u - knot c.knots (k + 1)) / (knot c.knots (k + 2) - knot c.knots (k + 1)) else 0) := by
    intro i
    simp only [piece]
    by_cases h1 : i = k + 1
    · subst h1; simp
    · by_cases h2 : i = k
      · subst h2; simp; field_simp; ring
      · simp [h1, h2]
  simp only [e, add_smul, ite_smul, zero_smul, Finset.sum_add_distrib, Finset.sum_ite_eq', Finset.mem_range]
  rw [if_pos hk, if_pos (by omega), segPoint3_eq]
  module

theorem cp_of_getElem? {l : List (V3 ℝ)} {k : Nat} {a : V3 ℝ} (h : l[k]? = some a) : cp l k = a := by
  obtain ⟨hk, e⟩ := List.getElem?_eq_some_iff.1 h
  rw [← e, cp_getElem]

/-- Along an arc-length parametrised degree-1 curve, parameter `t₀ + σ s` is the point at arc length `s`. -/
theorem arcKnots_getPoint {c : BSplineCurve ℝ (V3 ℝ)} (hv : c.Valid) {σ : ℝ} (h : Spec.ArcKnots c σ) {s : ℝ}
    (h0 : 0 ≤ s) (h1 : s ≤ polyLength c.controlPoints) :
    ∃ x, c.getPoint (knot c.knots 0 + σ * s) = .ok x ∧ AtArc c.controlPoints s x := by
  have hσ := h.speed
  have hdeg := h.degree
  have hlen := hv.len
  obtain ⟨sp, hc, hg⟩ := getPoint_eq hv (u := knot c.knots 0 + σ * s) (by nlinarith)
  rw [hdeg] at hc
  refine ⟨_, hg, ?_⟩
  have hlt := hc.lt
  have hne := hc.nonempty
  have hl := hc.left
  have hr := hc.right
  -- the span is a real one
  have hs0 : sp ≠ 0 := by rintro rfl; rw [h.first] at hne; exact lt_irrefl _ hne
  have hsN : sp ≠ c.controlPoints.length := by rintro rfl; rw [h.last] at hne; exact lt_irrefl _ hne
  obtain ⟨k, rfl⟩ : ∃ k, sp = k + 1 := ⟨sp - 1, by omega⟩
  have hk : k + 1 < c.controlPoints.length := by omega
  rw [degree1_pieceSum hdeg hk hne]
  have ha : c.controlPoints[k]? = some (cp c.controlPoints k) := by
    rw [← cp_getElem (show k < c.controlPoints.length by omega)]; exact List.getElem?_eq_getElem _
  have hb : c.controlPoints[k + 1]? = some (cp c.controlPoints (k + 1)) := by
    rw [← cp_getElem hk]; exact List.getElem?_eq_getElem _
  have hsum := take_succ_sum (segLens_getElem? ha hb)
  have e1 := h.inner k (by omega)
  have e2 := h.inner (k + 1) hk
  rw [hsum] at e2
  set d := Spec.dist3 (cp c.controlPoints k) (cp c.controlPoints (k + 1)) with hd
  set S := ((segLens c.controlPoints).take k).sum with hS
  change knot c.knots (k + 1) < knot c.knots (k + 2) at hne
  have e2' : knot c.knots (k + 2) = knot c.knots 0 + σ * (S + d) := e2
  have hdiff : knot c.knots (k + 2) - knot c.knots (k + 1) = σ * d := by rw [e1, e2']; ring
  have hdpos : 0 < d := by
    have : 0 < σ * d := by rw [← hdiff]; linarith
    exact (pos_iff_pos_of_mul_pos this).1 hσ
  have hsS : S ≤ s := by
    rw [e1] at hl
    nlinarith
  have hsd : s ≤ S + d := by
    rcases hr with hr | ⟨hr1, hr2⟩
    · change _ < knot c.knots (k + 2) at hr
      rw [e2'] at hr
      nlinarith
    · change knot c.knots (k + 2) = _ at hr2
      have hlast : knot c.knots (c.controlPoints.length + 1) = knot c.knots 0 + σ * polyLength c.controlPoints := by
        rw [← h.last]
        have := h.inner (c.controlPoints.length - 1) (by omega)
        rw [List.take_of_length_le (by rw [segLens_length]), segLens_sum,
          show c.controlPoints.length - 1 + 1 = c.controlPoints.length by omega] at this
        exact this
      rw [hlast, e2'] at hr2
      nlinarith
  have hlam : (knot c.knots 0 + σ * s - knot c.knots (k + 1)) / (knot c.knots (k + 1 + 1) - knot c.knots (k + 1))
      = (s - S) / d := by
    change _ / (knot c.knots (k + 2) - knot c.knots (k + 1)) = _
    rw [hdiff, e1]
    field_simp
    ring
  have := atArc_index ha hb (lam := (s - S) / d) (div_nonneg (by linarith) hdpos.le) ((div_le_one hdpos).2 (by linarith))
  rw [← hd, ← hS, div_mul_cancel₀ _ (ne_of_gt hdpos), add_sub_cancel] at this
  rw [show (knot c.knots (k + 2) - knot c.knots (k + 1)) = (knot c.knots (k + 1 + 1) - knot c.knots (k + 1)) from rfl, hlam]
  exact this

/-- The polyline parameter lies in `[0, 1]`. -/
theorem polyline_project_range {c : Polyline ℝ} {p : V3 ℝ} {t : ℝ} (h : c.project p = .ok t) : 0 ≤ t ∧ t ≤ 1 := by
  unfold Polyline.project at h
  obtain ⟨a, _, h⟩ := bind_eq_ok.1 h
  obtain ⟨b, _, h⟩ := bind_eq_ok.1 h
  rw [clampF_ok zero_le_one] at h
  cases h
  exact ⟨le_max_left _ _, max_le zero_le_one (min_le_right _ _)⟩

/-- **C27**, the part that holds: on a degree-1 curve with knots proportional to arc length, under the conditions of
`C25_nearest_partial`, `get_point(project(p))` is a nearest point of the control polyline.  What is missing for the full
claim: other knot spacings (false, see `C27_false_f64`) and the failures inherited from `Polyline::project`. -/
theorem C27_nearest_partial {c : BSplineCurve ℝ (V3 ℝ)} (hv : c.Valid) {σ : ℝ} (h : Spec.ArcKnots c σ)
    {p : V3 ℝ} {k : Nat} {a b : V3 ℝ} (hn : FirstNearestSegment c.controlPoints p k a b) (hab : a ≠ b)
    (hmax : distanceToLineSegment a b p < Env.maxV) (hlo : 0 ≤ (p - a).dot (b - a) ∨ k = 0)
    (hhi : (p - a).dot (b - a) ≤ (b - a).dot (b - a) ∨ k + 2 = c.controlPoints.length) :
    ∃ u x, c.project p = .ok u ∧ c.getPoint u = .ok x ∧ OnPolyline c.controlPoints x ∧
      ∀ y, OnPolyline c.controlPoints y → dist3 p x ≤ dist3 p y := by
  obtain ⟨pl, t, x, e1, e2, e3, e4, e5⟩ := C25_nearest_partial hn hab hmax hlo hhi
  obtain ⟨t0, t1⟩ := polyline_project_range e2
  have hk1 : k + 1 < c.controlPoints.length := (List.getElem?_eq_some_iff.1 hn.stop).1
  have hlen2 : 2 ≤ c.controlPoints.length := by omega
  have hL : 0 < polyLength c.controlPoints := by
    have hA := (atArc_index hn.start hn.stop zero_le_one (le_refl _)).le
    have hS := (atArc_index hn.start hn.stop (le_refl 0) zero_le_one).nonneg
    have hd : 0 < dist3 a b := lt_of_le_of_ne (dist3_nonneg a b) (fun e => hab (eq_of_dist3 (le_of_eq e.symm)))
    linarith
  obtain ⟨pl', x', f1, f2, f3⟩ := C23_arc_length hlen2 hL t
  rw [e1] at f1; cases f1
  rw [e3] at f2; cases f2
  rw [min_eq_left t1, max_eq_right t0] at f3
  obtain ⟨y, g1, g2⟩ := arcKnots_getPoint hv h (s := t * polyLength c.controlPoints) (mul_nonneg t0 hL.le) (by nlinarith)
  have hxy := atArc_unique f3 g2
  subst hxy
  refine ⟨knot c.knots 0 + σ * (t * polyLength c.controlPoints), x, ?_, g1, e4, e5⟩
  unfold BSplineCurve.project
  rw [if_pos h.degree, e1, ok_bind, e2, ok_bind]
  unfold KnotVector.range
  have hlen := hv.len
  rw [h.degree] at hlen
  rw [idx_knot (by omega), usub_ok (by omega)]
  simp only [ok_bind, pure_eq_ok]
  rw [idx_knot (by omega)]
  simp only [ok_bind, rangeAt]
  have hlast : knot c.knots (c.knots.length - 1) = knot c.knots 0 + σ * polyLength c.controlPoints := by
    rw [show c.knots.length - 1 = c.controlPoints.length + 1 by omega, ← h.last]
    have := h.inner (c.controlPoints.length - 1) (by omega)
    rw [List.take_of_length_le (by rw [segLens_length]), segLens_sum,
      show c.controlPoints.length - 1 + 1 = c.controlPoints.length by omega] at this
    exact this
  rw [hlast]
  congr 1
  ring

/-- **C27** for two distinct control points (knots `lo, lo, hi, hi`): always correct. -/
theorem C27_segment_partial {a b p : V3 ℝ} (hab : a ≠ b) {lo hi : ℝ} (hlh : lo < hi)
    (hmax : distanceToLineSegment a b p < Env.maxV) :
    ∃ u x, (⟨[a, b], [lo, lo, hi, hi], 1⟩ : BSplineCurve ℝ (V3 ℝ)).project p = .ok u ∧
      (⟨[a, b], [lo, lo, hi, hi], 1⟩ : BSplineCurve ℝ (V3 ℝ)).getPoint u = .ok x ∧ OnPolyline [a, b] x ∧
      ∀ y, OnPolyline [a, b] y → dist3 p x ≤ dist3 p y := by
  have hd : 0 < dist3 a b := lt_of_le_of_ne (dist3_nonneg a b) (fun e => hab (eq_of_dist3 (le_of_eq e.symm)))
  have hv : (⟨[a, b], [lo, lo, hi, hi], 1⟩ : BSplineCurve ℝ (V3 ℝ)).Valid := by
    refine ⟨rfl, ?_, ?_, ?_, by simp⟩
    · simp [Sorted, hlh.le]
    · constructor
      · intro x _ y _; simp [Env.ulpsEq]
      · intro x _ y _; simp [Env.ulpsEq, sub_eq_zero]
    · simpa [knot] using hlh
  have hak : Spec.ArcKnots (⟨[a, b], [lo, lo, hi, hi], 1⟩ : BSplineCurve ℝ (V3 ℝ)) ((hi - lo) / dist3 a b) := by
    refine ⟨rfl, div_pos (by linarith) hd, rfl, rfl, ?_⟩
    intro i hi'
    have hi'' : i < 2 := hi'
    obtain rfl | rfl : i = 0 ∨ i = 1 := by omega
    · simp [knot]
    · change hi = lo + _ * ((segLens [a, b]).take 1).sum
      rw [segLens_cons]
      simp only [List.take_succ_cons, List.take_zero, List.sum_cons, List.sum_nil, add_zero]
      rw [div_mul_cancel₀ _ (ne_of_gt hd)]; ring
  apply C27_nearest_partial (k := 0) (a := a) (b := b) hv hak ⟨rfl, rfl, ?_, by omega⟩ hab hmax (Or.inr rfl) (Or.inr rfl)
  intro j c d h1 h2
  have hj : j = 0 := by
    have := (List.getElem?_eq_some_iff.1 h2).1
    simp at this
    omega
  subst hj
  cases h1; cases h2
  exact le_refl _

end Geom3d
