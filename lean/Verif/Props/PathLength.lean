import Verif.Props.Variation
import Verif.Props.Polyline

/-! # C117: sampled curves are not longer than their control polygons -/

set_option linter.unusedSectionVars false

namespace Geom3d
open Spec

/-- The length of a path through the points of a list, `ρ` being the length of a step. -/
def Spec.pathLength {K P : Type} [Add K] [Zero K] [Sub P] (ρ : P → K) : List P → K
  | x :: y :: l => ρ (y - x) + pathLength ρ (y :: l)
  | _ => 0

/-- A way to measure steps: the triangle inequality and proportionality. -/
structure Spec.Measures {K P : Type} [Field K] [LinearOrder K] [AddCommGroup P] [Module K P] (ρ : P → K) : Prop where
  nonneg : ∀ x, 0 ≤ ρ x
  add : ∀ x y, ρ (x + y) ≤ ρ x + ρ y
  smul : ∀ (k : K) (x : P), 0 ≤ k → ρ (k • x) = k * ρ x

section
variable {K P : Type} [Field K] [LinearOrder K] [IsStrictOrderedRing K]
  [AddCommGroup P] [Module K P]

theorem Spec.Measures.sum {ρ : P → K} (h : Measures ρ) (w : Nat → K) (x : Nat → P) (n : Nat) (hw : ∀ i, i < n → 0 ≤ w i) :
    ρ (∑ i ∈ Finset.range n, w i • x i) ≤ ∑ i ∈ Finset.range n, w i * ρ (x i) := by
  induction n with
  | zero =>
    have := h.smul 0 (0 : P) le_rfl
    rw [zero_smul, zero_mul] at this
    simp [this]
  | succ n ih =>
    rw [Finset.sum_range_succ, Finset.sum_range_succ, ← h.smul _ _ (hw n (by omega))]
    exact (h.add _ _).trans (by linarith [ih fun i hi => hw i (by omega)])

theorem pathLength_sum (ρ : P → K) : ∀ l : List P,
    pathLength ρ l = ∑ i ∈ Finset.range (l.length - 1), ρ (cp l (i + 1) - cp l i)
  | [] => rfl
  | [_] => rfl
  | x :: y :: l => by
    rw [pathLength, pathLength_sum ρ (y :: l), List.length_cons (a := x), Nat.add_sub_cancel, List.length_cons,
      Finset.sum_range_succ', add_comm, Nat.add_sub_cancel]
    rfl

/-- The straight way is not longer. -/
theorem pathLength_chord {ρ : P → K} (h : Measures ρ) : ∀ (l : List P) (x y : P), l.head? = some x → l.getLast? = some y →
    ρ (y - x) ≤ pathLength ρ l
  | [], _, _, h0, _ => by cases h0
  | [a], x, y, h0, h1 => by
    cases h0
    cases h1
    have := h.smul 0 (0 : P) le_rfl
    rw [zero_smul, zero_mul] at this
    show ρ (a - a) ≤ 0
    rw [sub_self, this]
  | a :: b :: l, x, y, h0, h1 => by
    cases h0
    rw [List.getLast?_cons_cons] at h1
    have := pathLength_chord h (b :: l) b y rfl h1
    rw [pathLength, show y - a = (b - a) + (y - b) by abel]
    exact (h.add _ _).trans (by linarith)

end

section
variable {K P : Type} [Field K] [LinearOrder K] [IsStrictOrderedRing K] [Env K]
  [AddCommGroup P] [Module K P] [HMul K P P] [HMul P K P] [LawfulPoint K P]

/-- The curve of numbers with the knots of `c` that goes from `0` to `1` after control point `i`. -/
def stepCurve (c : BSplineCurve K P) (i : Nat) : BSplineCurve K K :=
  ⟨(List.range c.controlPoints.length).map fun j => if i < j then 1 else 0, c.knots, c.degree⟩

theorem stepCurve_valid {c : BSplineCurve K P} (hv : c.Valid) (i : Nat) : (stepCurve c i).Valid := by
  refine ⟨?_, hv.sorted, hv.resolved, ?_, ?_⟩
  · simpa [stepCurve] using hv.len
  · simpa [stepCurve] using hv.nonconst
  · simpa [stepCurve] using hv.pts

theorem domain_span {c : BSplineCurve K P} (hp : c.degree < c.controlPoints.length) {u : K}
    (hu : InDomain c.knots c.controlPoints.length c.degree u) :
    ∃ s, Contains (knot c.knots) (c.controlPoints.length + c.degree) s u ∧ c.degree ≤ s ∧ s < c.controlPoints.length ∧
      u ≤ knot c.knots (s + 1) := by
  rcases hu with ⟨h0, h1 | ⟨h1, h2, h3⟩⟩
  · obtain ⟨s, a1, a2, a3, a4⟩ := exists_span_step hp.le h0 h1
    exact ⟨s, ⟨by omega, lt_of_le_of_lt a3 a4, a3, Or.inl a4⟩, a1, a2, a4.le⟩
  · have e : c.controlPoints.length - 1 + 1 = c.controlPoints.length := by omega
    exact ⟨c.controlPoints.length - 1, ⟨by omega, by rw [e]; exact h3, by rw [h1]; exact h3.le,
      Or.inr ⟨by rw [h1, h2], by rw [e, h2]⟩⟩, by omega, by omega, by rw [e, h1]⟩

/-- A point of the curve from the steps of the control polygon. -/
theorem point_steps {c : BSplineCurve K P} (hv : c.Valid) (hp : c.degree < c.controlPoints.length) {u : K}
    (hu : InDomain c.knots c.controlPoints.length c.degree u) {x : P} (hx : c.getPoint u = .ok x) :
    ∃ w : Nat → K, (∀ i, (stepCurve c i).getPoint u = .ok (w i)) ∧ (∀ i, 0 ≤ w i ∧ w i ≤ 1) ∧
      x = cp c.controlPoints 0
        + ∑ i ∈ Finset.range (c.controlPoints.length - 1), w i • (cp c.controlPoints (i + 1) - cp c.controlPoints i) := by
  obtain ⟨s, hs, h1, h2, h3⟩ := domain_span hp hu
  have hsp : SpanAt (knot c.knots) (c.controlPoints.length + c.degree) s := ⟨hv.mono, hs.lt, hs.nonempty⟩
  have hsum := piece_sum hsp u c.degree c.controlPoints.length h1 h2 (by omega)
  have hnn : ∀ j, j < c.controlPoints.length → 0 ≤ piece (knot c.knots) s c.degree j u :=
    fun j hj => piece_nonneg hsp hs.left h3 _ _ (by omega)
  have hx' := getPoint_of_contains hv hs
  rw [hx] at hx'
  injection hx' with hx'
  refine ⟨fun i => ∑ j ∈ Finset.range c.controlPoints.length, if i < j then piece (knot c.knots) s c.degree j u else 0,
    fun i => ?_, fun i => ⟨?_, ?_⟩, ?_⟩
  · rw [getPoint_of_contains (stepCurve_valid hv i) (s := s) (by simpa [stepCurve] using hs)]
    congr 1
    unfold BSplineCurve.pieceSum
    simp only [stepCurve, List.length_map, List.length_range]
    refine Finset.sum_congr rfl fun j hj => ?_
    rw [Finset.mem_range] at hj
    rw [← cp_getElem (by simpa using hj), List.getElem_map, List.getElem_range, smul_eq_mul]
    split <;> simp
  · refine Finset.sum_nonneg fun j hj => ?_
    split
    · exact hnn j (Finset.mem_range.1 hj)
    · exact le_rfl
  · rw [← hsum]
    refine Finset.sum_le_sum fun j hj => ?_
    split
    · exact le_rfl
    · exact hnn j (Finset.mem_range.1 hj)
  · rw [hx']
    unfold BSplineCurve.pieceSum
    have tele : ∀ j, j < c.controlPoints.length → cp c.controlPoints j = cp c.controlPoints 0
        + ∑ i ∈ Finset.range (c.controlPoints.length - 1),
          if i < j then cp c.controlPoints (i + 1) - cp c.controlPoints i else 0 := by
      intro j hj
      rw [← Finset.sum_filter, show (Finset.range (c.controlPoints.length - 1)).filter (fun i => i < j) = Finset.range j by
        ext i; simp only [Finset.mem_filter, Finset.mem_range]; omega, Finset.sum_range_sub]
      abel
    calc ∑ j ∈ Finset.range c.controlPoints.length, piece (knot c.knots) s c.degree j u • cp c.controlPoints j
        = ∑ j ∈ Finset.range c.controlPoints.length, (piece (knot c.knots) s c.degree j u • cp c.controlPoints 0
          + ∑ i ∈ Finset.range (c.controlPoints.length - 1), (if i < j then piece (knot c.knots) s c.degree j u else 0)
            • (cp c.controlPoints (i + 1) - cp c.controlPoints i)) := by
          refine Finset.sum_congr rfl fun j hj => ?_
          rw [tele j (Finset.mem_range.1 hj), smul_add, Finset.smul_sum]
          congr 1
          refine Finset.sum_congr rfl fun i _ => ?_
          split <;> simp
      _ = _ := by
          rw [Finset.sum_add_distrib, ← Finset.sum_smul, hsum, one_smul, Finset.sum_comm]
          congr 1
          refine Finset.sum_congr rfl fun i _ => ?_
          rw [Finset.sum_smul]

theorem path_bound {c : BSplineCurve K P} (hv : c.Valid) (hp : c.degree < c.controlPoints.length) {ρ : P → K}
    (hρ : Measures ρ) : ∀ (us : List K) (xs : List P) (u : K) (x : P) (w : Nat → K), (u :: us).Pairwise (· ≤ ·) →
    (∀ v ∈ u :: us, InDomain c.knots c.controlPoints.length c.degree v) →
    List.Forall₂ (fun u x => c.getPoint u = .ok x) (u :: us) (x :: xs) →
    (∀ i, (stepCurve c i).getPoint u = .ok (w i)) →
    pathLength ρ (x :: xs) ≤ ∑ i ∈ Finset.range (c.controlPoints.length - 1),
      (1 - w i) * ρ (cp c.controlPoints (i + 1) - cp c.controlPoints i)
  | [], xs, u, x, w, _, hd, hx, hw => by
    cases hx with
    | cons h1 h2 =>
      cases h2
      obtain ⟨w', a1, a2, -⟩ := point_steps hv hp (hd u (by simp)) h1
      refine Finset.sum_nonneg fun i _ => mul_nonneg ?_ (hρ.nonneg _)
      have := (a1 i).symm.trans (hw i)
      injection this with this
      rw [← this]
      linarith [(a2 i).2]
  | v :: us, xs, u, x, w, hs, hd, hx, hw => by
    cases hx with
    | cons h1 h2 =>
      cases h2 with
      | @cons _ y _ ys h2 h3 =>
        obtain ⟨w1, a1, -, a3⟩ := point_steps hv hp (hd u (by simp)) h1
        obtain ⟨w2, b1, -, b3⟩ := point_steps hv hp (hd v (by simp)) h2
        have ew : ∀ i, w1 i = w i := fun i => by
          have := (a1 i).symm.trans (hw i)
          injection this
        have huv : u ≤ v := (List.pairwise_cons.1 hs).1 v (by simp)
        have hmono : ∀ i, w i ≤ w2 i := by
          intro i
          have hl : (stepCurve c i).controlPoints.length = c.controlPoints.length := by simp [stepCurve]
          have := C112_monotone (stepCurve_valid hv i) (LinearMap.id : K →ₗ[K] K) ?_ huv
            (by rw [hl]; exact hd u (by simp)) (by rw [hl]; exact hd v (by simp)) (hw i) (b1 i)
          · exact this
          · simp only [stepCurve, List.pairwise_map, LinearMap.id_coe, id_eq]
            refine List.pairwise_lt_range.imp fun {a b} hab => ?_
            split
            · rw [if_pos (by omega)]
            · split <;> norm_num
        have ih := path_bound hv hp hρ us ys v y w2 (List.pairwise_cons.1 hs).2 (fun z hz => hd z (by simp [hz]))
          (List.Forall₂.cons h2 h3) b1
        rw [pathLength]
        have hstep : ρ (y - x) ≤ ∑ i ∈ Finset.range (c.controlPoints.length - 1),
            (w2 i - w i) * ρ (cp c.controlPoints (i + 1) - cp c.controlPoints i) := by
          have : y - x = ∑ i ∈ Finset.range (c.controlPoints.length - 1),
              (w2 i - w i) • (cp c.controlPoints (i + 1) - cp c.controlPoints i) := by
            rw [a3, b3, add_sub_add_left_eq_sub, ← Finset.sum_sub_distrib]
            refine Finset.sum_congr rfl fun i _ => ?_
            rw [ew, sub_smul]
          rw [this]
          exact hρ.sum _ _ _ fun i _ => sub_nonneg.2 (hmono i)
        refine (add_le_add hstep ih).trans (le_of_eq ?_)
        rw [← Finset.sum_add_distrib]
        refine Finset.sum_congr rfl fun i _ => ?_
        ring

/-- **C117** The path through points of a B-spline curve at increasing parameters of its domain is not longer than the
control polygon, in whatever way lengths are measured. -/
theorem C117_bspline {c : BSplineCurve K P} (hv : c.Valid) (hp : c.degree < c.controlPoints.length) {ρ : P → K}
    (hρ : Measures ρ) {us : List K} {xs : List P} (hus : us.Pairwise (· ≤ ·))
    (hd : ∀ u ∈ us, InDomain c.knots c.controlPoints.length c.degree u)
    (hx : List.Forall₂ (fun u x => c.getPoint u = .ok x) us xs) :
    pathLength ρ xs ≤ pathLength ρ c.controlPoints := by
  have h0 : 0 ≤ pathLength ρ c.controlPoints := by
    rw [pathLength_sum]
    exact Finset.sum_nonneg fun i _ => hρ.nonneg _
  cases hx with
  | nil => exact h0
  | @cons u x us xs h1 h2 =>
    obtain ⟨w, a1, a2, -⟩ := point_steps hv hp (hd u (by simp)) h1
    refine (path_bound hv hp hρ us xs u x w hus hd (.cons h1 h2) a1).trans ?_
    rw [pathLength_sum]
    refine Finset.sum_le_sum fun i _ => ?_
    nlinarith [(a2 i).1, hρ.nonneg (cp c.controlPoints (i + 1) - cp c.controlPoints i)]

end

section
variable {K P : Type} [Field K] [LinearOrder K] [IsStrictOrderedRing K]
  [AddCommGroup P] [Module K P] [HMul K P P] [HMul P K P] [LawfulPoint K P]

/-- **C117** The same for Bézier curves on `[0, 1]`. -/
theorem C117_bezier (c : BezierCurve P) {ρ : P → K} (hρ : Measures ρ) {us : List K} {xs : List P}
    (hus : us.Pairwise (· ≤ ·)) (hd : ∀ u ∈ us, 0 ≤ u ∧ u ≤ 1)
    (hx : List.Forall₂ (fun u x => c.getPoint u = .ok x) us xs) :
    pathLength ρ xs ≤ pathLength ρ c.controlPoints := by
  rcases Nat.eq_zero_or_pos c.controlPoints.length with h0 | h0
  · cases hx with
    | nil =>
      rw [List.length_eq_zero_iff.1 h0]
    | cons h _ =>
      unfold BezierCurve.getPoint at h
      rw [h0] at h
      cases h
  let _ : Env K := exactCompare
  obtain ⟨p, hp⟩ : ∃ p, c.controlPoints.length = p + 1 := ⟨c.controlPoints.length - 1, by omega⟩
  have hres : Resolved (KnotVector.bezierKnot p : List K) :=
    ⟨fun a _ b _ => decide_eq_true_iff, fun a _ b _ => decide_eq_true_iff.trans sub_eq_zero⟩
  have hk : ∀ i, i ≤ 2 * p + 1 → knot (KnotVector.bezierKnot p : List K) i = if i ≤ p then 0 else 1 := knot_bezier p
  have hv : (BSplineCurve.mk c.controlPoints (KnotVector.bezierKnot p : List K) p).Valid :=
    ⟨by rw [bezierKnot_length]; show 2 * p + 2 = c.controlPoints.length + p + 1; omega, bezierKnot_sorted p, hres, by
      show knot _ 0 < knot _ (c.controlPoints.length + p)
      rw [hk _ (by omega), hk _ (by omega), if_pos (by omega), if_neg (by omega)]; exact zero_lt_one, h0⟩
  refine C117_bspline hv (by show p < c.controlPoints.length; omega) hρ hus (fun u hu => ?_) ?_
  · obtain ⟨h1, h2⟩ := hd u hu
    show knot _ p ≤ u ∧ (u < knot _ c.controlPoints.length ∨ u = knot _ c.controlPoints.length ∧
      knot _ c.controlPoints.length = knot _ (c.controlPoints.length + p) ∧
        knot _ (c.controlPoints.length - 1) < knot _ c.controlPoints.length)
    rw [hk _ (by omega), hk _ (by omega), hk _ (by omega), hk _ (by omega), if_pos (by omega), if_neg (by omega),
      if_neg (by omega), if_pos (by omega)]
    refine ⟨h1, ?_⟩
    rcases lt_or_eq_of_le h2 with h | h
    · exact Or.inl h
    · exact Or.inr ⟨h, rfl, zero_lt_one⟩
  · have key : ∀ u ∈ us, (BSplineCurve.mk c.controlPoints (KnotVector.bezierKnot p : List K) p).getPoint u = c.getPoint u := by
      intro u hu
      unfold BSplineCurve.getPoint BezierCurve.getPoint
      show (KnotVector.bsplineBasis (KnotVector.bezierKnot p) p u >>= _) = _
      rw [C06_bezierKnot_bernstein p hres (hd u hu).1, hp]
    rw [List.forall₂_iff_get] at hx ⊢
    refine ⟨hx.1, fun i h1 h2 => ?_⟩
    rw [key _ (List.get_mem _ _)]
    exact hx.2 i h1 h2

end

/-! ### The lengths computed by `Polyline::new` -/

theorem length_measures : Measures (K := ℝ) (P := V3 ℝ) V3.length where
  nonneg := V3.length_nonneg
  add := V3.length_add_le
  smul k x hk := by rw [V3.length_smul, abs_of_nonneg hk]

theorem polyline_pathLength {l : List (V3 ℝ)} {p : Polyline ℝ} (h : Polyline.new l = .ok p) :
    p.length = pathLength V3.length l := by
  unfold Polyline.new at h
  obtain ⟨-, -, h⟩ := bind_eq_ok.1 h
  cases h
  show sumF _ = _
  rw [sumF_eq]
  clear * -
  induction l with
  | nil => rfl
  | cons a l ih =>
    cases l with
    | nil => rfl
    | cons b l =>
      rw [pathLength, ← ih]
      simp [pairs, V3.distance]

/-- **C117** The `length` of the polyline through points of a curve lies between the distance of its ends and the `length`
of the polyline of the control points. -/
theorem C117_polyline {c : BSplineCurve ℝ (V3 ℝ)} (hv : c.Valid) (hp : c.degree < c.controlPoints.length) {us : List ℝ}
    {xs : List (V3 ℝ)} (hus : us.Pairwise (· ≤ ·)) (hd : ∀ u ∈ us, InDomain c.knots c.controlPoints.length c.degree u)
    (hx : us.mapM c.getPoint = .ok xs) {a b : Polyline ℝ} (ha : Polyline.new xs = .ok a)
    (hb : Polyline.new c.controlPoints = .ok b) {x y : V3 ℝ} (h0 : xs.head? = some x) (h1 : xs.getLast? = some y) :
    (y - x).length ≤ a.length ∧ a.length ≤ b.length := by
  rw [polyline_pathLength ha, polyline_pathLength hb]
  exact ⟨pathLength_chord length_measures xs x y h0 h1,
    C117_bspline hv hp length_measures hus hd (of_mapM_ok hx)⟩

theorem max_measures : Measures (K := ℚ) (P := V3 ℚ) fun v => max |v.x| |v.y| where
  nonneg v := le_max_of_le_left (abs_nonneg _)
  add v w := by
    refine max_le ?_ ?_
    · exact (abs_add_le _ _).trans (add_le_add (le_max_left _ _) (le_max_left _ _))
    · exact (abs_add_le _ _).trans (add_le_add (le_max_right _ _) (le_max_right _ _))
  smul k v hk := by
    rw [V3.smul_x, V3.smul_y, abs_mul, abs_mul, abs_of_nonneg hk, mul_max_of_nonneg _ _ hk]

/-- The path over an arch of four points, at three parameters, in the metric of the larger coordinate difference: `3 / 2`
against `3`. -/
theorem C117_example :
    [(0 : ℚ), 1 / 2, 1].mapM (BezierCurve.mk [(⟨0, 0, 0⟩ : V3 ℚ), ⟨0, 1, 0⟩, ⟨1, 1, 0⟩, ⟨1, 0, 0⟩]).getPoint
      = .ok [⟨0, 0, 0⟩, ⟨1 / 2, 3 / 4, 0⟩, ⟨1, 0, 0⟩] ∧
    pathLength (fun v : V3 ℚ => max |v.x| |v.y|) [⟨0, 0, 0⟩, ⟨1 / 2, 3 / 4, 0⟩, ⟨1, 0, 0⟩] = 3 / 2 ∧
    pathLength (fun v : V3 ℚ => max |v.x| |v.y|) [⟨0, 0, 0⟩, ⟨0, 1, 0⟩, ⟨1, 1, 0⟩, ⟨1, 0, 0⟩] = 3 := by
  decide +kernel

end Geom3d
