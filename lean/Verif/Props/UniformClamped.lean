import Verif.Props.Surfaces

/-! # C61: constructors of B-spline surfaces -/

set_option linter.unusedSectionVars false

namespace Geom3d
open Spec

section lawfree
variable {F P : Type} [Add F] [Sub F] [Mul F] [Div F] [Neg F] [Zero F] [One F] [NatCast F] [LT F] [DecidableLT F]
  [LE F] [DecidableLE F] [Env F]

theorem uniformClamped_eq {g : Grid P} {degree : Nat × Nat} (h1 : degree.1 < g.rows) (h2 : degree.2 < g.cols) :
    BSplineSurface.uniformClamped (F := F) g degree
      = .ok ⟨g, (KnotVector.uniformKnot degree.1 (g.rows - degree.1), KnotVector.uniformKnot degree.2 (g.cols - degree.2)),
          (degree.1 % 256, degree.2 % 256)⟩ := by
  unfold BSplineSurface.uniformClamped assertR
  simp [h1, h2, ok_bind, asU8, pure_eq_ok]

/-- **C61**, `uniform_clamped` accepts exactly the nets larger than the degrees, and its knot vectors pass the
assertions of `new`, which builds the same surface from them (any number type). -/
theorem C61_new (g : Grid P) (degree : Nat × Nat) :
    ((∃ s, BSplineSurface.uniformClamped (F := F) g degree = .ok s) ↔ degree.1 < g.rows ∧ degree.2 < g.cols) ∧
    ∀ s, BSplineSurface.uniformClamped (F := F) g degree = .ok s →
      s.controlPoints = g ∧ s.knots.1.length = g.rows + degree.1 + 1 ∧ s.knots.2.length = g.cols + degree.2 + 1 ∧
      BSplineSurface.new g s.knots degree = .ok s := by
  by_cases h : degree.1 < g.rows ∧ degree.2 < g.cols
  · rw [uniformClamped_eq h.1 h.2]
    have l1 := (C07_uniformKnot_layout (F := F) degree.1 (g.rows - degree.1) (by omega)).1
    have l2 := (C07_uniformKnot_layout (F := F) degree.2 (g.cols - degree.2) (by omega)).1
    refine ⟨⟨fun _ => h, fun _ => ⟨_, rfl⟩⟩, ?_⟩
    intro s hs
    cases hs
    refine ⟨rfl, by simp only []; omega, by simp only []; omega, ?_⟩
    unfold BSplineSurface.new assertR
    simp only []
    rw [l1, l2]
    have e1 : g.rows + degree.1 + 1 = 2 * degree.1 + 1 + (g.rows - degree.1) := by omega
    have e2 : g.cols + degree.2 + 1 = 2 * degree.2 + 1 + (g.cols - degree.2) := by omega
    rw [← e1, ← e2]
    simp [ok_bind, asU8, pure_eq_ok]
  · have e : BSplineSurface.uniformClamped (F := F) g degree = .error .assertion := by
      unfold BSplineSurface.uniformClamped assertR
      rw [decide_eq_false h]
      rfl
    rw [e]
    exact ⟨⟨fun ⟨s, hs⟩ => (by cases hs), fun h' => absurd h' h⟩, fun s hs => (by cases hs)⟩

/-- **C61**, degrees are reduced modulo 256 without any check: the surface returned satisfies the length equation
asserted by `new` for its own degree only if the degree is less than 256 (any number type). -/
theorem C61_truncation {g : Grid P} {knots : List F × List F} {degree : Nat × Nat} {s : BSplineSurface F P}
    (h : BSplineSurface.new g knots degree = .ok s ∨ BSplineSurface.uniformClamped g degree = .ok s) :
    s.degree = (degree.1 % 256, degree.2 % 256) ∧
    (s.knots.1.length = s.controlPoints.rows + s.degree.1 + 1 ↔ degree.1 < 256) ∧
    (s.knots.2.length = s.controlPoints.cols + s.degree.2 + 1 ↔ degree.2 < 256) := by
  have key : ∀ ks, BSplineSurface.new g ks degree = .ok s → s.degree = (degree.1 % 256, degree.2 % 256) ∧
      (s.knots.1.length = s.controlPoints.rows + s.degree.1 + 1 ↔ degree.1 < 256) ∧
      (s.knots.2.length = s.controlPoints.cols + s.degree.2 + 1 ↔ degree.2 < 256) := by
    intro ks h
    unfold BSplineSurface.new at h
    rw [bind_eq_ok] at h
    obtain ⟨_, h1, h⟩ := h
    rw [bind_eq_ok] at h
    obtain ⟨_, h2, h⟩ := h
    have h1 := assertR_eq_ok.1 h1
    have h2 := assertR_eq_ok.1 h2
    simp only [decide_eq_true_eq] at h1 h2
    cases h
    refine ⟨rfl, ?_, ?_⟩ <;> simp only [asU8] <;> omega
  rcases h with h | h
  · exact key _ h
  · exact key _ ((C61_new g degree).2 s h).2.2.2

end lawfree

section exact
variable {K P : Type} [Field K] [LinearOrder K] [IsStrictOrderedRing K] [Env K]
  [AddCommGroup P] [Module K P] [HMul K P P] [HMul P K P] [LawfulPoint K P]

theorem knot_of_getElem? {l : List K} {i : Nat} {x : K} (h : l[i]? = some x) : knot l i = x := by
  simp [knot, List.getD, h]

theorem uniform_clamped (p d : Nat) (hd : 1 ≤ d) : Clamped (KnotVector.uniformKnot p d : List K) (p + d) p := by
  obtain ⟨l, h0, h1, h2⟩ := C07_uniformKnot_layout (F := K) p d hd
  have hd0 : (0 : K) < d := by exact_mod_cast hd
  refine ⟨?_, ?_, ?_, ?_⟩
  · rw [knot_of_getElem? (h0 0 (by omega)), knot_of_getElem? (h0 p (by omega))]
  · rw [knot_of_getElem? (h0 p (by omega))]
    rcases Nat.lt_or_ge 1 d with h | h
    · rw [knot_of_getElem? (h1 1 (by omega) h)]
      positivity
    · rw [knot_of_getElem? (h2 (p + 1) (by omega) (by omega))]
      exact one_pos
  · rw [knot_of_getElem? (h2 (p + d) (by omega) (by omega)), knot_of_getElem? (h2 (p + d + p) (by omega) (by omega))]
  · rw [knot_of_getElem? (h2 (p + d) (by omega) (by omega))]
    rcases Nat.lt_or_ge 1 d with h | h
    · rw [show p + d - 1 = p + (d - 1) by omega, knot_of_getElem? (h1 (d - 1) (by omega) (by omega)), mul_one_div,
        div_lt_one hd0]
      exact_mod_cast (by omega : d - 1 < d)
    · rw [knot_of_getElem? (h0 (p + d - 1) (by omega))]
      exact one_pos

theorem uniform_ends (p d : Nat) (hd : 1 ≤ d) : knot (KnotVector.uniformKnot p d : List K) 0 = 0 ∧
    knot (KnotVector.uniformKnot p d : List K) (p + d + p) = 1 := by
  obtain ⟨l, h0, h1, h2⟩ := C07_uniformKnot_layout (F := K) p d hd
  exact ⟨knot_of_getElem? (h0 0 (by omega)), knot_of_getElem? (h2 _ (by omega) (by omega))⟩

/-- The surface built by `uniform_clamped` with degrees below 256 is valid. -/
theorem uniformClamped_valid {g : Grid P} (hg : NetOk g) {degree : Nat × Nat} {s : BSplineSurface K P}
    (h : BSplineSurface.uniformClamped g degree = .ok s) (hd1 : degree.1 < 256) (hd2 : degree.2 < 256)
    (hr1 : Resolved (KnotVector.uniformKnot degree.1 (g.rows - degree.1) : List K))
    (hr2 : Resolved (KnotVector.uniformKnot degree.2 (g.cols - degree.2) : List K)) :
    s.Valid ∧ s.controlPoints = g ∧ s.degree = degree ∧
      knot s.knots.1 0 = 0 ∧ knot s.knots.2 0 = 0 ∧
      knot s.knots.1 (g.rows + degree.1) = 1 ∧ knot s.knots.2 (g.cols + degree.2) = 1 ∧
      Clamped s.knots.1 g.rows degree.1 ∧ Clamped s.knots.2 g.cols degree.2 := by
  have hlt := (C61_new (F := K) g degree).1.1 ⟨s, h⟩
  obtain ⟨a1, b1⟩ := uniform_ends (K := K) degree.1 (g.rows - degree.1) (by omega)
  obtain ⟨a2, b2⟩ := uniform_ends (K := K) degree.2 (g.cols - degree.2) (by omega)
  have c1 := uniform_clamped (K := K) degree.1 (g.rows - degree.1) (by omega)
  have c2 := uniform_clamped (K := K) degree.2 (g.cols - degree.2) (by omega)
  have l1 := (C07_uniformKnot_layout (F := K) degree.1 (g.rows - degree.1) (by omega)).1
  have l2 := (C07_uniformKnot_layout (F := K) degree.2 (g.cols - degree.2) (by omega)).1
  rw [show degree.1 + (g.rows - degree.1) = g.rows by omega] at b1 c1
  rw [show degree.2 + (g.cols - degree.2) = g.cols by omega] at b2 c2
  rw [uniformClamped_eq hlt.1 hlt.2, Nat.mod_eq_of_lt hd1, Nat.mod_eq_of_lt hd2] at h
  cases h
  refine ⟨⟨hg, ?_, ?_, (C07_uniformKnot_sorted _ _).1, (C07_uniformKnot_sorted _ _).1, hr1, hr2, ?_, ?_, ?_, ?_⟩,
    rfl, rfl, a1, a2, b1, b2, c1, c2⟩
  · simp only []; omega
  · simp only []; omega
  · simp only [a1, b1]; exact one_pos
  · simp only [a2, b2]; exact one_pos
  · simp only []; omega
  · simp only []; omega

/-- **C61**, evaluation over the unit square (indeed for all non-negative parameters) never panics. -/
theorem C61_evaluates {g : Grid P} (hg : NetOk g) {degree : Nat × Nat} {s : BSplineSurface K P}
    (h : BSplineSurface.uniformClamped g degree = .ok s) (hd1 : degree.1 < 256) (hd2 : degree.2 < 256)
    (hr1 : Resolved (KnotVector.uniformKnot degree.1 (g.rows - degree.1) : List K))
    (hr2 : Resolved (KnotVector.uniformKnot degree.2 (g.cols - degree.2) : List K)) {u v : K} (hu : 0 ≤ u) (hv : 0 ≤ v) :
    ∃ x, s.getPoint u v = .ok x := by
  obtain ⟨hs, -, -, e1, e2, -⟩ := uniformClamped_valid hg h hd1 hd2 hr1 hr2
  exact C59_total hs (by rw [e1]; exact hu) (by rw [e2]; exact hv)

/-- **C61**, and the corners of the unit square are the corners of the net. -/
theorem C61_corners {g : Grid P} (hg : NetOk g) {degree : Nat × Nat} {s : BSplineSurface K P}
    (h : BSplineSurface.uniformClamped g degree = .ok s) (hd1 : degree.1 < 256) (hd2 : degree.2 < 256)
    (hr1 : Resolved (KnotVector.uniformKnot degree.1 (g.rows - degree.1) : List K))
    (hr2 : Resolved (KnotVector.uniformKnot degree.2 (g.cols - degree.2) : List K)) :
    s.getPoint 0 0 = .ok (entry g 0 0) ∧ s.getPoint 0 1 = .ok (entry g 0 (g.cols - 1)) ∧
    s.getPoint 1 0 = .ok (entry g (g.rows - 1) 0) ∧ s.getPoint 1 1 = .ok (entry g (g.rows - 1) (g.cols - 1)) := by
  obtain ⟨hs, e0, ed, e1, e2, e3, e4, c1, c2⟩ := uniformClamped_valid hg h hd1 hd2 hr1 hr2
  have := C59_corners hs (by rw [e0, ed]; exact c1) (by rw [e0, ed]; exact c2)
  simp only [e0, ed, e1, e2, e3, e4] at this
  exact this

/-- **C61**, what truncation does: the degree-256 surface on a net of 257 rows (a single polynomial patch, which starts
at the first row of the net) starts at the *last* row. -/
theorem C61_truncation_wrong {g : Grid P} (hg : NetOk g) (hrows : g.rows = 257) {q : Nat} (hq : q < g.cols)
    (hr : Resolved (KnotVector.uniformKnot 256 1 : List K)) {s : BSplineSurface K P}
    (h : BSplineSurface.uniformClamped g (256, q) = .ok s) (hq' : q < 256) (v : K) :
    s.getPoint 0 v = (BSplineCurve.mk (row g 256) s.knots.2 s.degree.2).getPoint v := by
  rw [uniformClamped_eq (by simp [hrows]) hq] at h
  simp only [hrows] at h
  cases h
  simp only [Nat.mod_eq_of_lt hq', Nat.mod_self]
  have e : 257 - 256 = 1 := rfl
  rw [e]
  obtain ⟨l, h0, h1, h2⟩ := C07_uniformKnot_layout (F := K) 256 1 (by omega)
  have l2 := (C07_uniformKnot_layout (F := K) q (g.cols - q) (by omega)).1
  have hne : knot (KnotVector.uniformKnot 256 1 : List K) 0 < knot (KnotVector.uniformKnot 256 1 : List K) 513 := by
    rw [knot_of_getElem? (h0 0 (by omega)), knot_of_getElem? (h2 513 (by omega) (by omega))]
    exact one_pos
  have hc : Contains (knot (KnotVector.uniformKnot 256 1 : List K)) 513 256 0 := by
    refine ⟨by omega, ?_, ?_, ?_⟩
    · rw [knot_of_getElem? (h0 256 (by omega)), knot_of_getElem? (h2 257 (by omega) (by omega))]; exact one_pos
    · rw [knot_of_getElem? (h0 256 (by omega))]
    · left; rw [knot_of_getElem? (h2 257 (by omega) (by omega))]; exact one_pos
  have hb := basis_of_contains (p := 0) (n := 513) (by omega) (C07_uniformKnot_sorted (K := K) 256 1).1 hr (by omega) hne hc
  cases hbv : KnotVector.bsplineBasis (KnotVector.uniformKnot q (g.cols - q) : List K) q v with
  | error e =>
    unfold BSplineSurface.getPoint BSplineCurve.getPoint
    simp only []
    rw [hb, hbv]; rfl
  | ok bv =>
    rw [bsplineSurface_netSum' (s := ⟨g, (KnotVector.uniformKnot 256 1, KnotVector.uniformKnot q (g.cols - q)), (0, q)⟩) hg
      (by simp only []; omega) (by simp only []; omega) hb hbv, bspline_linComb hbv, tensor_rows]
    show Except.ok _ = Except.ok _
    refine congrArg Except.ok ?_
    simp only []
    have ha : ∀ i, i < 257 → (tab (513 - 0) fun i => piece (knot (KnotVector.uniformKnot 256 1 : List K)) 256 0 i 0).getD i 0
        = if i = 256 then (1 : K) else 0 := by
      intro i hi
      rw [List.getD_eq_getElem?_getD, tab_getElem?, if_pos (by omega)]
      rfl
    rw [hrows]
    rw [Finset.sum_congr rfl (g := fun i => (if i = 256 then (1 : K) else 0) •
      ∑ j ∈ Finset.range g.cols, bv.getD j 0 • entry g i j)]
    · rw [sum_ite_smul 257 256 (by omega) (fun i => ∑ j ∈ Finset.range g.cols, bv.getD j 0 • entry g i j),
        show (KnotVector.uniformKnot q (g.cols - q) : List K).length - 1 - q = g.cols by omega]
      apply Finset.sum_congr rfl
      intro j hj
      rw [cp_row (Finset.mem_range.1 hj)]
    · intro i hi
      rw [ha i (Finset.mem_range.1 hi)]

end exact

/-- Non-vacuity. -/
theorem C61_example : BSplineSurface.uniformClamped (F := ℚ) (⟨[0, 1, 2, 3, 4, 5, 6, 7, 8], 3, 3⟩ : Grid ℚ) (1, 2)
    = .ok ⟨⟨[0, 1, 2, 3, 4, 5, 6, 7, 8], 3, 3⟩, ([0, 0, 1 / 2, 1, 1], [0, 0, 0, 1, 1, 1]), (1, 2)⟩ ∧
    (⟨⟨[0, 1, 2, 3, 4, 5, 6, 7, 8], 3, 3⟩, ([0, 0, 1 / 2, 1, 1], [0, 0, 0, 1, 1, 1]), (1, 2)⟩ : BSplineSurface ℚ ℚ).getPoint
      (1 / 4) (1 / 2) = .ok (5 / 2) := by
  decide +kernel

end Geom3d
