import Verif.Lemmas.CoxDeBoor
import Verif.Lemmas.Points
import Mathlib.Data.List.InsertIdx

/-! B-spline curves: evaluation as a sum of pieces, and knot insertion. -/

set_option linter.unusedSectionVars false

namespace Geom3d
open Spec

section
variable {K : Type} [Field K] [LinearOrder K] [IsStrictOrderedRing K] [Env K]

/-- Span `s` of `t 0 ≤ … ≤ t n` contains `u`, the last non-empty span being unbounded on the right. -/
structure Contains (t : Nat → K) (n s : Nat) (u : K) : Prop where
  lt : s < n
  nonempty : t s < t (s + 1)
  left : t s ≤ u
  right : u < t (s + 1) ∨ (t n ≤ u ∧ t (s + 1) = t n)

theorem Contains.unique {t : Nat → K} {n s s' : Nat} {u : K}
    (hm : ∀ i j, i ≤ j → j ≤ n → t i ≤ t j) (h : Contains t n s u) (h' : Contains t n s' u) : s = s' := by
  have key : ∀ a b, Contains t n a u → Contains t n b u → ¬ a < b := by
    intro a b ha hb hab
    have m1 := hm (a + 1) b (by omega) (by have := hb.lt; omega)
    have m2 := hm b n (by have := hb.lt; omega) (le_refl _)
    have m3 := hm (b + 1) n (by have := hb.lt; omega) (le_refl _)
    have h1 := hb.left
    have h2 := hb.nonempty
    rcases ha.right with h3 | ⟨_, h3⟩
    · exact absurd (lt_of_lt_of_le h3 (le_trans m1 h1)) (lt_irrefl _)
    · rw [h3] at m1
      exact absurd (lt_of_le_of_lt m1 (lt_of_lt_of_le h2 m3)) (lt_irrefl _)
  rcases Nat.lt_trichotomy s s' with hlt | heq | hgt
  · exact absurd hlt (key _ _ h h')
  · exact heq
  · exact absurd hgt (key _ _ h' h)

theorem exists_contains {knots : List K} {n : Nat} (hlen : knots.length = n + 1) (hs : Sorted knots)
    (hr : Resolved knots) (hne : knot knots 0 < knot knots n) {u : K} (hu : knot knots 0 ≤ u) :
    ∃ s, KnotVector.spanIndex knots u = .ok s ∧ SpanOk knots n s ∧ Contains (knot knots) n s u := by
  obtain ⟨s, h1, h2, h3, h4⟩ := spanOk_of_range hlen hs hr hne hu
  exact ⟨s, h1, h2, h2.lt, h2.nonempty, h3, h4⟩

/-- Refining the knots: a span of the refined vector containing `u` lies in the corresponding old one. -/
theorem Contains.refine {t : Nat → K} {n r s' : Nat} {x u : K}
    (hm : ∀ i j, i ≤ j → j ≤ n → t i ≤ t j) (hr : r ≤ n) (h1 : t r ≤ x)
    (h2 : r < n → x ≤ t (r + 1)) (h3 : x ≤ t n)
    (h : Contains (insertFn t r x) (n + 1) s' u) : Contains t n (oldSpan r s') u := by
  have hlt := h.lt
  have hne := h.nonempty
  have hl := h.left
  have hlast : insertFn t r x (n + 1) = t n := by
    rcases Nat.lt_or_eq_of_le hr with hrn | hrn
    · exact insertFn_gt (by omega)
    · subst hrn; rw [insertFn_eq]; exact le_antisymm h3 h1
  have hrt := h.right
  rw [hlast] at hrt
  unfold oldSpan
  rcases Nat.lt_trichotomy s' r with hs | hs | hs
  · rw [if_pos (by omega)]
    rw [insertFn_le (by omega), insertFn_le (by omega)] at hne
    rw [insertFn_le (by omega)] at hl hrt
    exact ⟨by omega, hne, hl, hrt⟩
  · subst hs
    rw [if_pos (le_refl _)]
    rw [insertFn_le (le_refl _), insertFn_eq] at hne
    rw [insertFn_le (le_refl _)] at hl
    rw [insertFn_eq] at hrt
    have hrn : s' < n := by
      by_contra hc
      obtain rfl : s' = n := by omega
      exact absurd (lt_of_lt_of_le hne h3) (lt_irrefl _)
    have h2' := h2 hrn
    refine ⟨hrn, lt_of_lt_of_le hne h2', hl, ?_⟩
    rcases hrt with h | ⟨h, h4⟩
    · exact Or.inl (lt_of_lt_of_le h h2')
    · exact Or.inr ⟨h, le_antisymm (hm _ _ (by omega) (le_refl _)) (h4 ▸ h2')⟩
  · rw [if_neg (by omega)]
    obtain ⟨q, rfl⟩ : ∃ q, s' = q + 1 := ⟨s' - 1, by omega⟩
    rw [Nat.add_sub_cancel]
    rw [insertFn_gt (j := q + 1) (by omega)] at hne hrt
    rcases Nat.lt_or_eq_of_le (Nat.lt_succ_iff.1 hs) with hq | hq
    · rw [insertFn_gt hq] at hne hl
      exact ⟨by omega, hne, hl, hrt⟩
    · subst hq
      rw [insertFn_eq] at hne hl
      exact ⟨by omega, lt_of_le_of_lt h1 hne, le_trans h1 hl, hrt⟩

end

section curve
variable {K P : Type} [Field K] [LinearOrder K] [IsStrictOrderedRing K] [Env K]
  [AddCommGroup P] [Module K P] [HMul K P P] [HMul P K P] [LawfulPoint K P]

/-- A well-formed B-spline curve: `len(knots) = len(points) + degree + 1`, sorted, non-constant knots that the
comparison can tell apart. -/
structure BSplineCurve.Valid (c : BSplineCurve K P) : Prop where
  len : c.knots.length = c.controlPoints.length + c.degree + 1
  sorted : Sorted c.knots
  resolved : Resolved c.knots
  nonconst : knot c.knots 0 < knot c.knots (c.controlPoints.length + c.degree)
  pts : 0 < c.controlPoints.length

/-- Index of the last knot. -/
def BSplineCurve.top (c : BSplineCurve K P) : Nat := c.controlPoints.length + c.degree

/-- The point of the polynomial piece of the curve on span `s`. -/
def BSplineCurve.pieceSum (c : BSplineCurve K P) (s : Nat) (u : K) : P :=
  ∑ i ∈ Finset.range c.controlPoints.length, piece (knot c.knots) s c.degree i u • cp c.controlPoints i

theorem getPoint_of_span {c : BSplineCurve K P} (hv : c.Valid) {u : K} {s : Nat}
    (hsp : KnotVector.spanIndex c.knots u = .ok s)
    (hok : SpanOk c.knots (c.controlPoints.length + c.degree) s) :
    c.getPoint u = .ok (c.pieceSum s u) := by
  unfold BSplineCurve.getPoint
  rw [bsplineBasis_of_span hok (by have := hv.pts; omega) hsp]
  simp only [ok_bind, pure_eq_ok]
  rw [linComb_tab, Nat.add_sub_cancel]
  rfl

theorem BSplineCurve.Valid.mono {c : BSplineCurve K P} (hv : c.Valid) :
    ∀ i j, i ≤ j → j ≤ c.controlPoints.length + c.degree → knot c.knots i ≤ knot c.knots j :=
  fun _ _ hij hj => hv.sorted.knot_le hij (by rw [hv.len]; omega)

/-- Evaluation at or above the first knot never panics and is the sum over the span containing `u`. -/
theorem getPoint_eq {c : BSplineCurve K P} (hv : c.Valid) {u : K} (hu : knot c.knots 0 ≤ u) :
    ∃ s, Contains (knot c.knots) (c.controlPoints.length + c.degree) s u ∧
      c.getPoint u = .ok (c.pieceSum s u) := by
  obtain ⟨s, h1, h2, h3⟩ := exists_contains hv.len hv.sorted hv.resolved hv.nonconst hu
  exact ⟨s, h3, getPoint_of_span hv h1 h2⟩

theorem getPoint_of_contains {c : BSplineCurve K P} (hv : c.Valid) {u : K} {s : Nat}
    (hc : Contains (knot c.knots) (c.controlPoints.length + c.degree) s u) :
    c.getPoint u = .ok (c.pieceSum s u) := by
  have h0 : knot c.knots 0 ≤ u :=
    le_trans (hv.mono 0 s (by omega) (by have := hc.lt; omega)) hc.left
  obtain ⟨s', h1, h2⟩ := getPoint_eq hv h0
  rw [Contains.unique hv.mono hc h1]
  exact h2

/-! ### Knot insertion -/

/-- The new control points are Boehm's combinations of the old (zero-extended) ones. -/
structure Inserted (c c' : BSplineCurve K P) (r : Nat) (x : K) : Prop where
  degree : c'.degree = c.degree
  knots : c'.knots = c.knots.insertIdx (r + 1) x
  len : c'.controlPoints.length = c.controlPoints.length + 1
  pts : ∀ i, i ≤ c.controlPoints.length →
    cp c'.controlPoints i = boehm (knot c.knots) r c.degree x i • cp c.controlPoints i
      + (1 - boehm (knot c.knots) r c.degree x i) • cp c.controlPoints (i - 1)

theorem knot_insertIdx {knots : List K} {r : Nat} {x : K} (hr : r < knots.length) {j : Nat} :
    knot (knots.insertIdx (r + 1) x) j = insertFn (knot knots) r x j := by
  unfold knot insertFn
  simp only [List.getD_eq_getElem?_getD]
  rcases Nat.lt_trichotomy j (r + 1) with h | h | h
  · rw [List.getElem?_insertIdx_of_lt h, if_pos (by omega)]
  · subst h
    rw [List.getElem?_insertIdx_self, if_pos (by omega), if_neg (by omega), if_pos rfl]; rfl
  · rw [List.getElem?_insertIdx_of_gt h, if_neg (by omega), if_neg (by omega)]

theorem addKnotBody_eq {knots : List K} {p N : Nat} {x : K} {f : Nat → P} {i : Nat}
    (h1 : 1 ≤ i) (h2 : i < N) (h3 : i + p + 1 < knots.length) :
    addKnotBody knots p x (tab N f) i = .ok (tab N (Function.update f i
      ((1 - (x - knot knots i) * invOrZero (knot knots (i + p + 1) - knot knots i)) • f (i - 1)
        + ((x - knot knots i) * invOrZero (knot knots (i + p + 1) - knot knots i)) • f i))) := by
  unfold addKnotBody
  rw [idx_knot h3, idx_knot (by omega), usub_ok h1]
  simp only [ok_bind]
  rw [idx_tab (by omega), idx_tab h2]
  simp only [ok_bind]
  rw [upd_tab h2, LawfulPoint.right (K := K) (f (i - 1)), LawfulPoint.right (K := K) (f i)]

/-- The code of `add_knot` when the insertion index `r + 1` exceeds the degree. -/
theorem addKnot_spec {c : BSplineCurve K P} (hlen : c.knots.length = c.controlPoints.length + c.degree + 1)
    {x : K} {r : Nat} (hres : Resolved c.knots)
    (hadd : KnotVector.addKnot c.knots x = (c.knots.insertIdx (r + 1) x, r + 1))
    (hrl : r < c.knots.length) (hp : c.degree ≤ r) :
    ∃ c', c.addKnot x = .ok c' ∧ Inserted c c' r x := by
  set N := c.controlPoints.length with hN
  set p := c.degree with hpdef
  set t := knot c.knots with ht
  obtain ⟨stop, hstop⟩ : ∃ stop, stop = if N < r + 1 then N + 1 else r + 1 := ⟨_, rfl⟩
  obtain ⟨start, hstart⟩ : ∃ start, start = r + 1 - p := ⟨_, rfl⟩
  have hstop1 : stop ≤ r + 1 := by rw [hstop]; split <;> omega
  have hstop2 : stop ≤ N + 1 := by rw [hstop]; split <;> omega
  have hstop3 : N < stop ∨ stop = r + 1 := by rw [hstop]; split <;> omega
  -- control points after the insertion step
  obtain ⟨g, hg⟩ : ∃ g : Nat → P, g = fun j => if j < stop then cp c.controlPoints j
      else cp c.controlPoints (j - 1) := ⟨_, rfl⟩
  have hmid : (if N < r + 1 then (pure (c.controlPoints ++ [0], N + 1) : Res (List P × Nat))
      else do
        let x ← idx c.controlPoints (r + 1 - 1)
        let cps ← insertAt c.controlPoints (r + 1 - 1) x
        pure (cps, r + 1)) = .ok (tab (N + 1) g, stop) := by
    by_cases hc : N < r + 1
    · rw [if_pos hc] at hstop ⊢
      simp only [pure_eq_ok, Except.ok.injEq, Prod.mk.injEq]
      refine ⟨?_, hstop.symm⟩
      apply List.ext_getElem?
      intro j
      rw [tab_getElem?, List.getElem?_append]
      by_cases hj : j < N
      · rw [if_pos (by omega), if_pos (by omega), hg, List.getElem?_eq_getElem (by omega),
          cp_getElem (by omega)]
        simp only []
        rw [if_pos (by omega)]
      · rw [if_neg (by omega)]
        by_cases hj' : j = N
        · subst hj'
          rw [if_pos (by omega), hg]
          simp only []
          rw [if_pos (by omega), cp_of_le (by omega)]
          simp [← hN]
        · rw [if_neg (by omega), List.getElem?_eq_none (by simp; omega)]
    · rw [if_neg hc] at hstop ⊢
      rw [Nat.add_sub_cancel, idx_ok (by omega)]
      simp only [ok_bind, insertAt]
      rw [if_pos (by omega)]
      simp only [ok_bind, pure_eq_ok, Except.ok.injEq, Prod.mk.injEq]
      refine ⟨?_, hstop.symm⟩
      apply List.ext_getElem?
      intro j
      rw [tab_getElem?]
      rcases Nat.lt_trichotomy j r with hj | hj | hj
      · rw [List.getElem?_insertIdx_of_lt hj, if_pos (by omega), hg,
          List.getElem?_eq_getElem (by omega), cp_getElem (by omega)]
        simp only []
        rw [if_pos (by omega)]
      · subst hj
        rw [List.getElem?_insertIdx_self, if_pos (by omega), if_pos (by omega), hg, cp_getElem (by omega)]
        simp only []
        rw [if_pos (by omega)]
      · rw [List.getElem?_insertIdx_of_gt hj]
        by_cases hj' : j < N + 1
        · rw [if_pos hj', hg, List.getElem?_eq_getElem (by omega), cp_getElem (by omega)]
          simp only []
          rw [if_neg (by omega)]
        · rw [if_neg hj', List.getElem?_eq_none (by omega)]
  have hstart2 : start ≤ stop ∨ stop < start := by omega
  -- the loop
  obtain ⟨fin, hfin⟩ : ∃ fin : Nat → P, fin = fun i => boehm t r p x i • cp c.controlPoints i
      + (1 - boehm t r p x i) • cp c.controlPoints (i - 1) := ⟨_, rfl⟩
  have hknl : (c.knots.insertIdx (r + 1) x).length = c.knots.length + 1 :=
    List.length_insertIdx_of_le_length (by omega) _
  have hloop : ∃ f : Nat → P, forRangeRev start stop (tab (N + 1) g)
      (addKnotBody (c.knots.insertIdx (r + 1) x) p x) = .ok (tab (N + 1) f) ∧
      ∀ i, f i = if start ≤ i ∧ i < stop then fin i else g i := by
    rcases hstart2 with hss | hss
    · obtain ⟨s', h1, f, rfl, h2⟩ := forRangeRev_inv (a := start) (b := stop)
        (s := tab (N + 1) g) (body := addKnotBody (c.knots.insertIdx (r + 1) x) p x)
        (fun j s => ∃ f : Nat → P, s = tab (N + 1) f ∧ ∀ i, f i = if j ≤ i ∧ i < stop then fin i else g i)
        hss ⟨g, rfl, fun i => by rw [if_neg (by omega)]⟩
        (by
          rintro i s hi1 hi2 ⟨f, rfl, hf⟩
          refine ⟨_, addKnotBody_eq (by omega) (by omega) (by omega), _, rfl, ?_⟩
          intro j
          by_cases hji : j = i
          · subst hji
            rw [Function.update_self, if_pos ⟨le_refl _, hi2⟩, hf, hf, if_neg (by omega), if_neg (by omega),
              hg, hfin]
            simp only []
            rw [if_pos (by omega), if_pos hi2, knot_insertIdx hrl, knot_insertIdx hrl,
              insertFn_le (by omega), insertFn_gt (by omega)]
            have hinv : invOrZero (knot c.knots (j + p) - knot c.knots j)
                = 1 / (knot c.knots (j + p) - knot c.knots j) :=
              invOrZero_knots hres (by omega) (by omega)
            have hb : boehm t r p x j = (x - knot c.knots j) * (1 / (knot c.knots (j + p) - knot c.knots j)) := by
              unfold boehm
              rw [if_neg (by omega), if_pos (by omega), ht]
              ring
            rw [hinv, hb, add_comm]
          · rw [Function.update_of_ne hji, hf]
            have : (i + 1 ≤ j ∧ j < stop) ↔ (i ≤ j ∧ j < stop) := by omega
            simp only [this])
      exact ⟨f, h1, h2⟩
    · refine ⟨g, forRangeRev_nil (by omega) _ _, fun i => by rw [if_neg (by omega)]⟩
  obtain ⟨f, hf1, hf2⟩ := hloop
  refine ⟨⟨tab (N + 1) f, c.knots.insertIdx (r + 1) x, p⟩, ?_, rfl, rfl, by simp [hN], ?_⟩
  · unfold BSplineCurve.addKnot
    simp only [hadd]
    rw [if_neg (by omega)]
    have hst : (if c.degree < r + 1 then r + 1 - c.degree else 0) = start := by
      rw [if_pos (by omega), hstart]
    simp only [hst]
    have : ∀ (k : List P × Nat → Res (BSplineCurve K P)),
        (if N < r + 1 then (do let y ← (pure (c.controlPoints ++ [0], N + 1) : Res (List P × Nat)); k y)
          else do
            let x ← idx c.controlPoints (r + 1 - 1)
            let cps ← insertAt c.controlPoints (r + 1 - 1) x
            let y ← (pure (cps, r + 1) : Res (List P × Nat))
            k y) = k (tab (N + 1) g, stop) := by
      intro k
      by_cases hc : N < r + 1
      · rw [if_pos hc] at hmid ⊢
        rw [hmid]; rfl
      · rw [if_neg hc] at hmid ⊢
        have := congrArg (fun z => z >>= k) hmid
        simp only [bind_assoc, ok_bind] at this
        exact this
    refine (this _).trans ?_
    simp only []
    rw [← hpdef, hf1]
    rfl
  · intro i hi
    have hcp : cp (tab (N + 1) f) i = f i := by
      rw [← cp_getElem (by simp; omega), tab_getElem]
    simp only [hcp, hf2]
    by_cases hc : start ≤ i ∧ i < stop
    · rw [if_pos hc, hfin]
    · rw [if_neg hc, hg]
      simp only []
      by_cases hi' : i < stop
      · rw [if_pos hi']
        have : boehm t r p x i = 1 := by unfold boehm; rw [if_pos (by omega)]
        rw [this]; simp
      · rw [if_neg hi']
        have : boehm t r p x i = 0 := by unfold boehm; rw [if_neg (by omega), if_neg (by omega)]
        rw [this]; simp

/-- Boehm's combinations leave every polynomial piece unchanged. -/
theorem Inserted.pieceSum {c c' : BSplineCurve K P} {r s' : Nat} {x : K} (h : Inserted c c' r x)
    (hlen : c.knots.length = c.controlPoints.length + c.degree + 1) (hp : c.degree ≤ r)
    (hrl : r < c.knots.length)
    (hs' : SpanAt (insertFn (knot c.knots) r x) (c.controlPoints.length + c.degree + 1) s') (u : K) :
    c'.pieceSum s' u = c.pieceSum (oldSpan r s') u := by
  unfold BSplineCurve.pieceSum
  rw [h.len, h.knots, h.degree]
  have e1 : ∀ i, piece (knot (c.knots.insertIdx (r + 1) x)) s' c.degree i u
      = piece (insertFn (knot c.knots) r x) s' c.degree i u := by
    intro i
    apply piece_congr
    intro j _ _
    exact knot_insertIdx hrl
  simp only [e1]
  set N := c.controlPoints.length
  set t' := insertFn (knot c.knots) r x
  set b := boehm (knot c.knots) r c.degree x with hb
  have e2 : ∀ i ∈ Finset.range (N + 1), piece t' s' c.degree i u • cp c'.controlPoints i
      = (b i * piece t' s' c.degree i u) • cp c.controlPoints i
        + ((1 - b i) * piece t' s' c.degree i u) • cp c.controlPoints (i - 1) := by
    intro i hi
    rw [Finset.mem_range] at hi
    rw [h.pts i (by omega), smul_add, smul_smul, smul_smul, mul_comm, mul_comm (piece _ _ _ _ _)]
  rw [Finset.sum_congr rfl e2, Finset.sum_add_distrib, Finset.sum_range_succ,
    cp_of_le (le_refl _), smul_zero, add_zero,
    Finset.sum_range_succ' (fun i => ((1 - b i) * piece t' s' c.degree i u) • cp c.controlPoints (i - 1))]
  have b0 : b 0 = 1 := by rw [hb]; unfold boehm; rw [if_pos (by omega)]
  rw [b0, sub_self, zero_mul, zero_smul, add_zero, ← Finset.sum_add_distrib]
  apply Finset.sum_congr rfl
  intro i hi
  rw [Finset.mem_range] at hi
  rw [Nat.add_sub_cancel, ← add_smul]
  congr 1
  exact (boehm_piece hs' u c.degree i (by omega)).symm

end curve

end Geom3d
