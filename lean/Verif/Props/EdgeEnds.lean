import Verif.Props.Metric
import Verif.Props.Polyline
import Verif.Props.StepRead
import Verif.Props.ClosedEdges

/-!
# Edges on B-spline curves and polylines (C140)

The reader finds the parameter range of an edge by projecting its vertices onto the curve. At an end of the curve the first
sample of `find_nearest_parameter` is the end itself, and the Newton iteration stops before its first step.
-/

namespace Geom3d
open Spec

set_option linter.unusedSectionVars false

section
variable {F : Type} [Add F] [Sub F] [Mul F] [Div F] [Neg F] [Zero F] [One F] [NatCast F] [LT F] [DecidableLT F]
  [LE F] [DecidableLE F] [Env F]

theorem nearestLoop_stay (p : V3 F) (pts : List (V3 F)) (i : Nat) (st : F × Nat) (h : ∀ w ∈ pts, ¬ (p - w).lengthSq < st.1) :
    nearestLoop p pts i st = st := by
  induction pts generalizing i with
  | nil => rfl
  | cons w pts ih =>
    rw [nearestLoop, if_neg (h w (by simp))]
    exact ih _ fun w hw => h w (by simp [hw])

theorem nearestLoop_at (p : V3 F) {v : V3 F} (pts : List (V3 F)) (i k : Nat) (st : F × Nat) (hk : pts[k]? = some v)
    (h0 : (p - v).lengthSq < st.1) (h1 : ∀ j w, j < k → pts[j]? = some w → (p - v).lengthSq < (p - w).lengthSq)
    (h2 : ∀ j w, k < j → pts[j]? = some w → ¬ (p - w).lengthSq < (p - v).lengthSq) :
    nearestLoop p pts i st = ((p - v).lengthSq, i + k) := by
  induction pts generalizing i k st with
  | nil => simp at hk
  | cons w pts ih =>
    rw [nearestLoop]
    cases k with
    | zero =>
      simp only [List.getElem?_cons_zero, Option.some.injEq] at hk
      subst hk
      rw [if_pos h0]
      exact nearestLoop_stay _ _ _ _ fun x hx => by
        obtain ⟨j, hj⟩ := List.mem_iff_getElem?.1 hx
        exact h2 (j + 1) x (by omega) (by simpa using hj)
    | succ k =>
      rw [ih (i + 1) k _ (by simpa using hk) ?_ (fun j x hj hx => h1 (j + 1) x (by omega) (by simpa using hx))
        fun j x hj hx => h2 (j + 1) x (by omega) (by simpa using hx)]
      · congr 1; omega
      · split
        · exact h1 0 w (by omega) rfl
        · exact h0

/-- **C140**, law-free: if sample `k` is nearer to the point than those before it, none behind it is nearer, and it is within
tolerance, its parameter is the result. -/
theorem C140_sample {get d1 d2 : F → Res (V3 F)} {p v : V3 F} {range : F × F} {division trials : Nat} {us : List F} {pts : List (V3 F)}
    {k : Nat} {u : F} (hu : uniformDivide range division = .ok us) (hp : us.mapM get = .ok pts) (hk : us[k]? = some u)
    (hv : pts[k]? = some v) (h0 : (p - v).lengthSq < Env.maxV)
    (h1 : ∀ j w, j < k → pts[j]? = some w → (p - v).lengthSq < (p - w).lengthSq)
    (h2 : ∀ j w, k < j → pts[j]? = some w → ¬ (p - w).lengthSq < (p - v).lengthSq)
    (hg : get u = .ok v) (hn : near (v - p).lengthSq 0 = true) (ht : 0 < trials) :
    findNearestParameter get d1 d2 p range division trials = .ok u := by
  obtain ⟨t, rfl⟩ : ∃ t, trials = t + 1 := ⟨trials - 1, by omega⟩
  have hi : findNearestPoint pts p = k := by
    unfold findNearestPoint
    rw [nearestLoop_at p pts 0 k _ hv h0 h1 h2, Nat.zero_add]
  unfold findNearestParameter
  rw [hu, ok_bind, hp, ok_bind, hi]
  unfold idx
  rw [hk]
  simp only [ok_bind]
  rw [newtonLoop, hg, ok_bind]
  simp only [hn, if_true, pure_eq_ok]

end

/-! ### Exact numbers -/

theorem lengthSq_eq_zero {p q : V3 ℝ} : (p - q).lengthSq = 0 ↔ p = q := by
  constructor
  · intro h
    have h' : (p.x - q.x) * (p.x - q.x) + (p.y - q.y) * (p.y - q.y) + (p.z - q.z) * (p.z - q.z) = 0 := h
    have hx := mul_self_nonneg (p.x - q.x)
    have hy := mul_self_nonneg (p.y - q.y)
    have hz := mul_self_nonneg (p.z - q.z)
    apply V3.ext
    · exact sub_eq_zero.1 (mul_self_eq_zero.1 (by linarith))
    · exact sub_eq_zero.1 (mul_self_eq_zero.1 (by linarith))
    · exact sub_eq_zero.1 (mul_self_eq_zero.1 (by linarith))
  · rintro rfl
    show (p.x - p.x) * (p.x - p.x) + (p.y - p.y) * (p.y - p.y) + (p.z - p.z) * (p.z - p.z) = 0
    ring

theorem lengthSq_nonneg_real (p : V3 ℝ) : 0 ≤ p.lengthSq := V3.dot_self_nonneg p

/-- A sample that is the point itself, if no earlier one is. -/
theorem C140_first {get d1 d2 : ℝ → Res (V3 ℝ)} {p : V3 ℝ} {range : ℝ × ℝ} (hr : range.1 ≤ range.2) {division trials : Nat}
    (hd : 1 ≤ division) (ht : 0 < trials) (htotal : ∀ u, range.1 ≤ u → u ≤ range.2 → ∃ q, get u = .ok q) {i : Nat}
    (hi : i ≤ division) (hg : get (range.1 + (i : ℝ) * ((range.2 - range.1) / (division : ℝ))) = .ok p)
    (hf : ∀ j, j < i → get (range.1 + (j : ℝ) * ((range.2 - range.1) / (division : ℝ))) ≠ .ok p) :
    findNearestParameter get d1 d2 p range division trials
      = .ok (range.1 + (i : ℝ) * ((range.2 - range.1) / (division : ℝ))) := by
  obtain ⟨us, e1, e2, e3⟩ := C28_entries range hd
  obtain ⟨us', e1', e4⟩ := C28_in_range range hd
  rw [e1] at e1'; cases e1'
  rw [min_eq_left hr, max_eq_right hr] at e4
  obtain ⟨pts, hp, hall⟩ : ∃ pts, us.mapM get = .ok pts ∧ List.Forall₂ (fun u q => get u = .ok q) us pts := by
    clear e1 e2 e3
    induction us with
    | nil => exact ⟨[], rfl, .nil⟩
    | cons u us ih =>
      obtain ⟨pts, h1, h2⟩ := ih fun u hu => e4 u (by simp [hu])
      obtain ⟨q, hq⟩ := htotal u (e4 u (by simp)).1 (e4 u (by simp)).2
      exact ⟨q :: pts, by rw [List.mapM_cons, hq, h1]; rfl, .cons hq h2⟩
  have at' : ∀ (j : Nat) (w : V3 ℝ), pts[j]? = some w → get (range.1 + (j : ℝ) * ((range.2 - range.1) / (division : ℝ))) = .ok w := by
    intro j w hw
    obtain ⟨hj, rfl⟩ := List.getElem?_eq_some_iff.1 hw
    have hj' : j < us.length := by rw [hall.length_eq]; exact hj
    have h1 := (List.forall₂_iff_get.1 hall).2 j hj' hj
    have h2 := e3 j (by omega)
    rw [List.getElem?_eq_getElem hj', Option.some.injEq] at h2
    rw [← h2]
    exact h1
  have hi' : i < pts.length := by rw [← hall.length_eq, e2]; omega
  have hv : pts[i]? = some p := by
    rw [List.getElem?_eq_getElem hi']
    have := at' i _ (List.getElem?_eq_getElem hi')
    rw [hg] at this
    rw [Except.ok.inj this]
  have hz : (p - p).lengthSq = 0 := lengthSq_eq_zero.2 rfl
  refine C140_sample e1 hp (e3 i hi) hv (by rw [hz]; norm_num [Env.maxV]) (fun j w hj hw => ?_) (fun j w _ _ => ?_) hg ?_ ht
  · rw [hz]
    refine lt_of_le_of_ne (lengthSq_nonneg_real _) fun h => hf j hj ?_
    rw [at' j w hw, lengthSq_eq_zero.1 h.symm]
  · rw [hz]; exact not_lt.2 (lengthSq_nonneg_real _)
  · rw [near_zero, hz, abs_zero]; norm_num [Env.tol]

/-- First and last knots repeated so often that the curve starts and ends at its first and last control points. -/
structure Spec.ClampedEnds (c : BSplineCurve ℝ (V3 ℝ)) : Prop where
  valid : c.Valid
  start : knot c.knots 0 = knot c.knots c.degree
  start' : knot c.knots c.degree < knot c.knots (c.degree + 1)
  stop : knot c.knots c.controlPoints.length = knot c.knots (c.controlPoints.length + c.degree)
  stop' : knot c.knots (c.controlPoints.length - 1) < knot c.knots c.controlPoints.length

/-- Parameters at which `project` samples the curve. -/
noncomputable def Spec.sampleAt (c : BSplineCurve ℝ (V3 ℝ)) (j : Nat) : ℝ :=
  knot c.knots 0 + j * ((knot c.knots (c.controlPoints.length + c.degree) - knot c.knots 0) / (c.controlPoints.length * 4 : Nat))

theorem range_knots {c : BSplineCurve ℝ (V3 ℝ)} (hv : c.Valid) :
    KnotVector.range c.knots = .ok (knot c.knots 0, knot c.knots (c.controlPoints.length + c.degree)) := by
  have hl := hv.len
  unfold KnotVector.range
  rw [idx_ok (i := 0) (by omega), ok_bind, usub_ok (by omega), ok_bind, idx_ok (by omega)]
  simp only [ok_bind, pure_eq_ok, knot, List.getD_eq_getElem?_getD]
  rw [List.getElem?_eq_getElem (by omega), List.getElem?_eq_getElem (by omega)]
  simp only [Option.getD_some]
  congr 3
  omega

/-- Derivatives exist whatever the numbers are. -/
theorem derivative_exists (c : BSplineCurve ℝ (V3 ℝ)) (hp : 1 ≤ c.degree) (hk : 2 ≤ c.knots.length) :
    ∃ d, c.derivative = .ok d ∧ d.degree + 1 = c.degree ∧ d.knots.length + 2 = c.knots.length := by
  unfold BSplineCurve.derivative KnotVector.shrink
  rw [usub_ok (by omega), ok_bind, if_pos (by omega), pure_eq_ok, ok_bind, C10_spans, ok_bind, usub_ok hp, ok_bind]
  exact ⟨_, rfl, by simp only []; omega, by simp; omega⟩

/-- **C140** for curves of degree two and more: a point that the curve passes through at a sample is projected to the first
such sample. -/
theorem C140_bspline {c : BSplineCurve ℝ (V3 ℝ)} (hv : c.Valid) (hp : 2 ≤ c.degree) {p : V3 ℝ} {i : Nat}
    (hi : i ≤ c.controlPoints.length * 4) (hg : c.getPoint (sampleAt c i) = .ok p)
    (hf : ∀ j, j < i → c.getPoint (sampleAt c j) ≠ .ok p) : c.project p = .ok (sampleAt c i) := by
  have hl := hv.len
  have hN := hv.pts
  obtain ⟨d1, e1, e2, e3⟩ := derivative_exists c (by omega) (by omega)
  obtain ⟨d2, e4, -, -⟩ := derivative_exists d1 (by omega) (by omega)
  unfold BSplineCurve.project
  rw [if_neg (by omega), e1, ok_bind, e4, ok_bind, range_knots hv, ok_bind]
  exact C140_first (range := (knot c.knots 0, knot c.knots (c.controlPoints.length + c.degree))) hv.nonconst.le (by have := hv.pts; omega)
    (by norm_num) (fun u hu _ => by obtain ⟨s, -, h⟩ := getPoint_eq hv hu; exact ⟨_, h⟩) hi hg hf

/-! ### Polylines -/

/-- The first vertex has parameter zero. -/
theorem C140_polyline_first {vs : List (V3 ℝ)} {a : V3 ℝ} (h2 : 2 ≤ vs.length) (ha : vs[0]? = some a) {c : Polyline ℝ}
    (hc : Polyline.new vs = .ok c) : c.project a = .ok 0 := by
  obtain ⟨b, hb⟩ : ∃ b, vs[1]? = some b := ⟨_, List.getElem?_eq_getElem (by omega)⟩
  rw [polyline_new h2] at hc
  cases hc
  have hz : distanceToLineSegment a b a = 0 := by
    have h1 := (C32_distance3 a b a).2 0 (le_refl _) zero_le_one
    obtain ⟨s, -, -, h2⟩ := (C32_distance3 a b a).1
    have : Spec.dist3 a (Spec.segPoint3 a b 0) = 0 := by
      rw [dist3_seg]; simp [V3.dot]
    rw [this] at h1
    rw [h2] at h1 ⊢
    exact le_antisymm h1 (dist3_nonneg _ _)
  have hidx : (nearestSegment a (pairs vs) 0 ((Env.maxV : ℝ), 0)).2 = 0 := by
    rcases nearestSegment_spec a (pairs vs) 0 ((Env.maxV : ℝ), 0) with ⟨h, -⟩ | ⟨j, pr, e1, e2, e3, e4, e5⟩
    · rw [h]
    · rw [e2, Nat.zero_add]
      by_contra hj
      have := e5 0 (a, b) (by omega) (pairs_get_of ha hb)
      rw [hz] at this
      obtain ⟨s, -, -, h⟩ := (C32_distance3 pr.1 pr.2 a).1
      rw [h] at this
      exact absurd (dist3_nonneg _ _) (not_le.2 this)
  unfold Polyline.project
  simp only [hidx]
  rw [idx_of_getElem? ha, ok_bind, idx_of_getElem? hb, ok_bind, clampF_ok zero_le_one]
  simp [sumF, V3.dot]

/-- The last vertex has parameter one, if the polyline does not pass through it before its last segment. -/
theorem C140_polyline_last {vs : List (V3 ℝ)} {k : Nat} {a b : V3 ℝ} (hk : k + 2 = vs.length) (ha : vs[k]? = some a)
    (hb : vs[k + 1]? = some b) (hab : a ≠ b)
    (hf : ∀ (j : Nat) (p q : V3 ℝ), j < k → vs[j]? = some p → vs[j + 1]? = some q → ∀ s, 0 ≤ s → s ≤ 1 → Spec.segPoint3 p q s ≠ b)
    {c : Polyline ℝ} (hc : Polyline.new vs = .ok c) : c.project b = .ok 1 := by
  have h2 : 2 ≤ vs.length := by omega
  rw [polyline_new h2] at hc
  cases hc
  have hz : distanceToLineSegment a b b = 0 := by
    have h1 := (C32_distance3 a b b).2 1 zero_le_one (le_refl _)
    obtain ⟨s, -, -, h2⟩ := (C32_distance3 a b b).1
    have : Spec.dist3 b (Spec.segPoint3 a b 1) = 0 := by
      have e : Spec.segPoint3 a b 1 = b := by apply V3.ext <;> simp [Spec.segPoint3]
      rw [e]; simp [Spec.dist3]
    rw [this] at h1
    rw [h2] at h1 ⊢
    exact le_antisymm h1 (dist3_nonneg _ _)
  have hfirst : ∀ (j : Nat) (p q : V3 ℝ), j < k → vs[j]? = some p → vs[j + 1]? = some q → 0 < distanceToLineSegment p q b := by
    intro j p q hj hp hq
    obtain ⟨s, s0, s1, h⟩ := (C32_distance3 p q b).1
    rw [h]
    refine lt_of_le_of_ne (dist3_nonneg _ _) fun e => hf j p q hj hp hq s s0 s1 ?_
    exact (eq_of_dist3 e.symm.le).symm
  have hidx : (nearestSegment b (pairs vs) 0 ((Env.maxV : ℝ), 0)).2 = k := by
    rcases nearestSegment_spec b (pairs vs) 0 ((Env.maxV : ℝ), 0) with ⟨-, h⟩ | ⟨j, pr, e1, e2, e3, e4, e5⟩
    · have := h (a, b) (List.mem_of_getElem? (pairs_get_of ha hb))
      rw [hz] at this
      exact absurd this (not_le.2 (by norm_num [Env.maxV]))
    · rw [e2, Nat.zero_add]
      obtain ⟨f1, f2⟩ := of_pairs_getElem? e1
      have hjl : j + 1 < vs.length := (List.getElem?_eq_some_iff.1 f2).1
      by_contra hj
      have h3 := hfirst j pr.1 pr.2 (by omega) f1 f2
      have h4 := e4 (a, b) (List.mem_of_getElem? (pairs_get_of ha hb))
      rw [hz] at h4
      linarith
  have hd : 0 < Spec.dist3 a b := lt_of_le_of_ne (dist3_nonneg a b) (fun e => hab (eq_of_dist3 (le_of_eq e.symm)))
  have hlast := arc_last ha hb hk
  have hS : 0 ≤ ((segLens vs).take k).sum := by
    have := (atArc_index ha hb (le_refl 0) zero_le_one).nonneg
    rwa [zero_mul, add_zero] at this
  have hdN : Spec.dist3 a b = (b - a).length := by rw [dist3_comm, dist3_eq]; rfl
  have hn : (b - a).dot (b - a).normalize = Spec.dist3 a b := by
    unfold V3.normalize
    rw [V3.rmul_eq, V3.dot_smul, ← V3.length_mul_self, ← hdN]
    field_simp
  unfold Polyline.project
  simp only [hidx]
  rw [idx_of_getElem? ha, ok_bind, idx_of_getElem? hb, ok_bind, clampF_ok zero_le_one, sumF_eq, hn, hlast,
    div_self (by rw [← hlast]; linarith)]
  simp

/-! ### Edges -/

/-- The last vertex `b` of the polyline `vs`, behind `a`, which it does not touch before. -/
structure Spec.FreeEnd (vs : List (V3 ℝ)) (b : V3 ℝ) : Prop where
  last : ∃ k a, k + 2 = vs.length ∧ vs[k]? = some a ∧ vs[k + 1]? = some b ∧ a ≠ b ∧
    ∀ (j : Nat) (p q : V3 ℝ), j < k → vs[j]? = some p → vs[j + 1]? = some q → ∀ s, 0 ≤ s → s ≤ 1 → Spec.segPoint3 p q s ≠ b

/-- `curve` runs from `p` at the parameter `lo` to `q` at the parameter `hi`, and does not come to `q` before: between vertices
if it is a polyline or of degree one, at no sample of `project` otherwise. -/
inductive Spec.Whole : DynCurve ℝ → V3 ℝ → V3 ℝ → ℝ → ℝ → Prop where
  | polyline {vs : List (V3 ℝ)} {c : Polyline ℝ} {p q : V3 ℝ} (hc : Polyline.new vs = .ok c) (hp : vs[0]? = some p)
      (hq : FreeEnd vs q) : Whole (.polyline c) p q 0 1
  | straight {c : BSplineCurve ℝ (V3 ℝ)} {p q : V3 ℝ} (hc : ClampedEnds c) (hd : c.degree = 1) (hp : c.controlPoints[0]? = some p)
      (hq : FreeEnd c.controlPoints q) :
      Whole (.bspline c) p q (knot c.knots 0) (knot c.knots (c.controlPoints.length + c.degree))
  | bspline {c : BSplineCurve ℝ (V3 ℝ)} {p q : V3 ℝ} (hc : ClampedEnds c) (hd : 2 ≤ c.degree) (hp : c.controlPoints[0]? = some p)
      (hq : c.controlPoints.getLast? = some q) (hf : ∀ j, j < c.controlPoints.length * 4 → c.getPoint (sampleAt c j) ≠ .ok q) :
      Whole (.bspline c) p q (knot c.knots 0) (knot c.knots (c.controlPoints.length + c.degree))

theorem clamped_points {c : BSplineCurve ℝ (V3 ℝ)} (hc : ClampedEnds c) {p q : V3 ℝ} (hp : c.controlPoints[0]? = some p)
    (hq : c.controlPoints.getLast? = some q) : c.getPoint (knot c.knots 0) = .ok p ∧
      c.getPoint (knot c.knots (c.controlPoints.length + c.degree)) = .ok q := by
  obtain ⟨p', r, e1, e2⟩ := C13_start hc.valid hc.start hc.start'
  obtain ⟨q', r', e3, e4⟩ := C13_end hc.valid hc.stop hc.stop'
  have hp' : p' = p := by rw [e1] at hp; simpa using hp
  have hq' : q' = q := by rw [e3] at hq; simpa using hq
  rw [← hp', ← hq']
  exact ⟨e2, e4⟩

theorem Spec.FreeEnd.getLast {vs : List (V3 ℝ)} {b : V3 ℝ} (h : FreeEnd vs b) : 2 ≤ vs.length ∧ vs.getLast? = some b := by
  obtain ⟨k, a, h1, -, h2, -⟩ := h.last
  refine ⟨by omega, ?_⟩
  rw [List.getLast?_eq_getElem?, ← h2]
  congr 1
  omega

/-- **C140** The ends of a curve are projected to the ends of its parameter range. -/
theorem C140_ends {curve : DynCurve ℝ} {p q : V3 ℝ} {lo hi : ℝ} (h : Whole curve p q lo hi) :
    curve.obj.project p = .ok lo ∧ curve.obj.project q = .ok hi ∧ curve.obj.getPoint lo = .ok p ∧ curve.obj.getPoint hi = .ok q := by
  cases h with
  | @polyline vs c _ _ hc hp hq =>
    obtain ⟨h2, hl⟩ := hq.getLast
    obtain ⟨k, a, k1, k2, k3, k4, k5⟩ := hq.last
    have hn := hc
    rw [polyline_new h2] at hn
    cases hn
    refine ⟨C140_polyline_first h2 hp hc, C140_polyline_last k1 k2 k3 k4 k5 hc, ?_, ?_⟩
    · show Polyline.getPoint _ 0 = _
      unfold Polyline.getPoint Polyline.start
      rw [if_pos (le_refl _), idx_of_getElem? hp]
    · show Polyline.getPoint _ 1 = _
      unfold Polyline.getPoint Polyline.stop
      rw [if_neg (by norm_num), if_pos (le_refl _)]
      simp only []
      rw [usub_ok (by omega), ok_bind, idx_of_getElem? (a := q)]
      rw [← k3]
      congr 1
      omega
  | @straight c _ _ hc hd hp hq =>
    obtain ⟨h2, hl⟩ := hq.getLast
    obtain ⟨k, a, k1, k2, k3, k4, k5⟩ := hq.last
    obtain ⟨e1, e2⟩ := clamped_points hc hp hl
    refine ⟨?_, ?_, e1, e2⟩
    · show c.project p = _
      unfold BSplineCurve.project
      rw [if_pos hd, polyline_new h2, ok_bind, C140_polyline_first h2 hp (polyline_new h2), ok_bind, range_knots hc.valid, ok_bind]
      simp [rangeAt, pure_eq_ok]
    · show c.project q = _
      unfold BSplineCurve.project
      rw [if_pos hd, polyline_new h2, ok_bind, C140_polyline_last k1 k2 k3 k4 k5 (polyline_new h2), ok_bind, range_knots hc.valid, ok_bind]
      simp [rangeAt, pure_eq_ok]
  | @bspline c _ _ hc hd hp hq hf =>
    obtain ⟨e1, e2⟩ := clamped_points hc hp hq
    have hN : 0 < c.controlPoints.length := hc.valid.pts
    have s0 : sampleAt c 0 = knot c.knots 0 := by simp [sampleAt]
    have s1 : sampleAt c (c.controlPoints.length * 4) = knot c.knots (c.controlPoints.length + c.degree) := by
      unfold sampleAt
      rw [mul_div_cancel₀ _ (Nat.cast_ne_zero.2 (by omega))]
      ring
    refine ⟨?_, ?_, e1, e2⟩
    · have := C140_bspline hc.valid hd (p := p) (i := 0) (by omega) (by rw [s0]; exact e1) (by omega)
      rw [s0] at this
      exact this
    · have := C140_bspline hc.valid hd (p := q) (i := c.controlPoints.length * 4) (by omega) (by rw [s1]; exact e2) hf
      rw [s1] at this
      exact this

theorem getPoints_ends {seg : CurveSegment ℝ} {fuel : Nat} {rnd : List Bool → ℝ} {pts : List (V3 ℝ)}
    (h : seg.getPoints fuel rnd = .ok pts) {p q : V3 ℝ} (hp : seg.curve.getPoint seg.parameterRange.1 = .ok p)
    (hq : seg.curve.getPoint seg.parameterRange.2 = .ok q) : pts.head? = some p ∧ pts.getLast? = some q := by
  unfold CurveSegment.getPoints at h
  obtain ⟨us, h1, h2⟩ := bind_eq_ok.1 h
  obtain ⟨e1, e2, e3⟩ := C29_ends h1
  have hall : List.Forall₂ (fun u x => seg.curve.getPoint u = .ok x) us pts := by
    clear e1 e2 e3 h1 h
    induction us generalizing pts with
    | nil => rw [mapM_nil] at h2; cases h2; exact .nil
    | cons u us ih =>
      rw [List.mapM_cons] at h2
      obtain ⟨x, h3, h4⟩ := bind_eq_ok.1 h2
      obtain ⟨xs, h5, h6⟩ := bind_eq_ok.1 h4
      cases h6
      exact .cons h3 (ih h5)
  have at' : ∀ (i : Nat) (u : ℝ) (x : V3 ℝ), us[i]? = some u → seg.curve.getPoint u = .ok x → pts[i]? = some x := by
    intro i u x hu hx
    obtain ⟨hi, rfl⟩ := List.getElem?_eq_some_iff.1 hu
    have hi' : i < pts.length := by rw [← hall.length_eq]; exact hi
    have := (List.forall₂_iff_get.1 hall).2 i hi hi'
    simp only [List.get_eq_getElem] at this
    rw [hx] at this
    rw [List.getElem?_eq_getElem hi', Except.ok.inj this]
  rw [List.head?_eq_getElem?] at e1 ⊢
  rw [List.getLast?_eq_getElem?] at e2 ⊢
  rw [← hall.length_eq]
  exact ⟨at' _ _ _ e1 hp, at' _ _ _ e2 hq⟩

/-- **C140** An edge between the ends of its curve, in either direction, is read as the whole curve, and its sample starts and
ends at the vertices. -/
theorem C140_edge {file : StepFile ℝ} {r g : Ref} {s e : V3 ℝ} {sense : Bool} (he : SaysEdge file r s e g sense) {curve : DynCurve ℝ}
    (hc : SaysCurve file g curve) {p q : V3 ℝ} {lo hi : ℝ} (h : Whole curve p q lo hi) {range : ℝ × ℝ}
    (hs : s = p ∧ e = q ∧ range = (lo, hi) ∨ s = q ∧ e = p ∧ range = (hi, lo)) :
    file.extractEdgeCurve r = .ok (some ⟨curve, range, Env.hundredth, 16⟩) ∧
      ∀ fuel rnd pts, (CurveSegment.mk curve.obj range Env.hundredth 16).getPoints fuel rnd = .ok pts →
        pts.head? = some s ∧ pts.getLast? = some e := by
  obtain ⟨h1, h2, h3, h4⟩ := C140_ends h
  have hr : ∀ x, curve.obj.refine x sense = x := by cases h <;> exact fun _ => rfl
  rcases hs with ⟨rfl, rfl, rfl⟩ | ⟨rfl, rfl, rfl⟩
  · refine ⟨?_, fun fuel rnd pts h => getPoints_ends h h3 h4⟩
    have := extractEdge he (C103_curve hc) h1 h2
    rwa [hr] at this
  · refine ⟨?_, fun fuel rnd pts h => getPoints_ends h h4 h3⟩
    have := extractEdge he (C103_curve hc) h2 h1
    rwa [hr] at this

/-- The condition on `q` is needed: this cubic comes to its end point `(0, 0, 0)` half way, and the end is projected there. -/
theorem C140_loop_lost :
    (BSplineCurve.mk [(⟨-3, -3, 0⟩ : V3 ℚ), ⟨1, 0, 0⟩, ⟨0, 1, 0⟩, ⟨0, 0, 0⟩] [0, 0, 0, 0, 1, 1, 1, 1] 3).project ⟨0, 0, 0⟩
      = .ok (1 / 2) := by
  decide +kernel

/-- A parabola from `(0, 0, 0)` to `(2, 0, 0)`. -/
noncomputable def archCurve : BSplineCurve ℝ (V3 ℝ) := ⟨[⟨0, 0, 0⟩, ⟨1, 1, 0⟩, ⟨2, 0, 0⟩], [0, 0, 0, 1, 1, 1], 2⟩

theorem arch_ends : ClampedEnds archCurve := by
  unfold archCurve
  refine ⟨?_, by simp [knot], by simp [knot], by simp [knot], by simp [knot]⟩
  constructor <;> first
    | exact resolved_real _
    | simp [Sorted, knot]

theorem arch_point {u : ℝ} (hu : 0 ≤ u) : archCurve.getPoint u = .ok ⟨2 * u, 2 * u * (1 - u), 0⟩ := by
  obtain ⟨-, h⟩ := bezier_of_two_knots arch_ends.valid (a := 0) (b := 1) zero_lt_one rfl hu
  rw [← h, bezier_getPoint _ (by simp [archCurve])]
  simp only [archCurve, List.length_cons, List.length_nil, sub_zero, div_one]
  simp only [Finset.sum_range_succ, Finset.sum_range_zero, bernsteinPoly, cp]
  congr 1
  apply V3.ext <;> simp
  ring

theorem arch_whole : Whole (.bspline archCurve) ⟨0, 0, 0⟩ ⟨2, 0, 0⟩ 0 1 := by
  have h := Whole.bspline (p := ⟨0, 0, 0⟩) (q := ⟨2, 0, 0⟩) arch_ends (le_refl 2) rfl rfl fun j hj => by
    have e : sampleAt archCurve j = j / 12 := by
      simp [sampleAt, archCurve, knot]; ring
    have hj' : (j : ℝ) < 12 := by exact_mod_cast hj
    rw [e, arch_point (by positivity)]
    intro h
    have := congrArg V3.x (Except.ok.inj h)
    simp only [] at this
    linarith
  simpa [archCurve, knot] using h

/-- The parabola and one edge on it, used against the direction of the curve. -/
noncomputable def archFile : StepFile ℝ :=
  { emptyFile with
    cartesianPoint := fun r => if r = 0 then some [0, 0, 0] else if r = 1 then some [1, 1, 0] else
      if r = 2 then some [2, 0, 0] else none
    bsplineCurve := fun r => if r = 3 then some ⟨2, [0, 1, 2], [0, 1], [3, 3]⟩ else none
    vertexGeometry := fun r => if r = 4 then some 0 else if r = 5 then some 2 else none
    edgeCurve := fun r => if r = 6 then some ⟨5, 4, 3, false⟩ else none }

/-- Non-vacuity of `C140_edge`: the edge from `(2, 0, 0)` to `(0, 0, 0)` is the parabola from 1 to 0. -/
theorem C140_example : archFile.extractEdgeCurve 6 = .ok (some ⟨.bspline archCurve, (1, 0), Env.hundredth, 16⟩) :=
  (C140_edge (file := archFile) (r := 6) (g := 3) (sense := false) (s := ⟨2, 0, 0⟩) (e := ⟨0, 0, 0⟩)
    ⟨5, 4, rfl, ⟨2, rfl, rfl⟩, ⟨0, rfl, rfl⟩⟩
    (.bspline (file := archFile) (refs := [0, 1, 2]) (pts := [⟨0, 0, 0⟩, ⟨1, 1, 0⟩, ⟨2, 0, 0⟩]) (values := [0, 1]) (written := [3, 3]) (mults := [3, 3]) rfl rfl rfl rfl
      (.cons rfl (.cons rfl (.cons rfl .nil))) ⟨rfl, by decide⟩ (by decide)) arch_whole (.inr ⟨rfl, rfl, rfl⟩)).1

/-- Non-vacuity of `C140_ends` for polylines. -/
example : ∃ c, Polyline.new [(⟨0, 0, 0⟩ : V3 ℝ), ⟨1, 0, 0⟩, ⟨1, 2, 0⟩] = .ok c ∧
    Whole (.polyline c) ⟨0, 0, 0⟩ ⟨1, 2, 0⟩ 0 1 := by
  refine ⟨_, polyline_new (by simp), .polyline (polyline_new (by simp)) rfl ⟨1, ⟨1, 0, 0⟩, rfl, rfl, rfl, by simp, ?_⟩⟩
  intro j p q hj hp hq s _ _ h
  obtain rfl : j = 0 := by omega
  cases hp; cases hq
  have := congrArg V3.y h
  simp [Spec.segPoint3] at this

end Geom3d
