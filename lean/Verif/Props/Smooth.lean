import Verif.Lemmas.Smooth
import Verif.Props.Metric
import Mathlib.Analysis.Calculus.MeanValue

/-! # C108, C109: B-spline curves across their knots; subdivision of B-spline curves ends -/

set_option linter.unusedSectionVars false

namespace Geom3d
open Spec

section
variable {P : Type} [AddCommGroup P] [Module ℝ P] [HMul ℝ P P] [HMul P ℝ P] [LawfulPoint ℝ P]

/-! ### C108: continuity and differentiability -/

theorem valOf_left {c : BSplineCurve ℝ P} (hv : c.Valid) (hmult : InnerMult c c.degree) {u : ℝ}
    (h0 : knot c.knots 0 < u) (h1 : u ≤ knot c.knots (c.controlPoints.length + c.degree)) :
    ∃ s, s < c.controlPoints.length + c.degree ∧ knot c.knots s < u ∧ u ≤ knot c.knots (s + 1) ∧
      ∀ v, knot c.knots s < v → v ≤ u → valOf (c.getPoint v) = c.pieceSum s v := by
  obtain ⟨s, hs, a, b⟩ := exists_left h0 h1
  exact ⟨s, hs, a, b, fun v h2 h3 => by rw [getPoint_left hv hmult hs h2 (le_trans h3 b)]; rfl⟩

theorem valOf_right {c : BSplineCurve ℝ P} (hv : c.Valid) {u : ℝ}
    (h0 : knot c.knots 0 ≤ u) (h1 : u < knot c.knots (c.controlPoints.length + c.degree)) :
    ∃ s, s < c.controlPoints.length + c.degree ∧ knot c.knots s ≤ u ∧ u < knot c.knots (s + 1) ∧
      ∀ v, u ≤ v → v < knot c.knots (s + 1) → valOf (c.getPoint v) = c.pieceSum s v := by
  obtain ⟨s, hs, -⟩ := getPoint_eq hv h0
  have h2 : u < knot c.knots (s + 1) := by
    rcases hs.right with h | ⟨h, -⟩
    · exact h
    · exact absurd h (not_le.2 h1)
  exact ⟨s, hs.lt, hs.left, h2, fun v a b => by
    rw [getPoint_of_contains hv ⟨hs.lt, hs.nonempty, le_trans hs.left a, Or.inl b⟩]; rfl⟩

/-- **C108**: where no knot strictly inside the range has a multiplicity above the degree, the evaluated curve is
continuous on the whole closed range (every coordinate `f`), knots included. -/
theorem C108_continuous {c : BSplineCurve ℝ P} (hv : c.Valid)
    (hmult : ∀ x, knot c.knots 0 < x → x < knot c.knots (c.controlPoints.length + c.degree) →
      c.knots.count x ≤ c.degree) (f : P →ₗ[ℝ] ℝ) :
    ContinuousOn (fun u => f (valOf (c.getPoint u)))
      (Set.Icc (knot c.knots 0) (knot c.knots (c.controlPoints.length + c.degree))) := by
  intro u hu
  have hl : ContinuousWithinAt (fun u => f (valOf (c.getPoint u))) (Set.Icc (knot c.knots 0) u) u := by
    rcases eq_or_lt_of_le hu.1 with h | h
    · rw [h, Set.Icc_self]; exact continuousWithinAt_singleton
    obtain ⟨s, -, a, -, e⟩ := valOf_left hv hmult h hu.2
    refine ((pieceSum_continuous c s f).continuousWithinAt).congr_of_eventuallyEq ?_ (by rw [e u a (le_refl _)])
    filter_upwards [mem_nhdsWithin_of_mem_nhds (Ioi_mem_nhds a), self_mem_nhdsWithin] with v h1 h2
    rw [e v h1 h2.2]
  have hr : ContinuousWithinAt (fun u => f (valOf (c.getPoint u)))
      (Set.Icc u (knot c.knots (c.controlPoints.length + c.degree))) u := by
    rcases eq_or_lt_of_le hu.2 with h | h
    · rw [← h, Set.Icc_self]; exact continuousWithinAt_singleton
    obtain ⟨s, -, -, b, e⟩ := valOf_right hv hu.1 h
    refine ((pieceSum_continuous c s f).continuousWithinAt).congr_of_eventuallyEq ?_ (by rw [e u (le_refl _) b])
    filter_upwards [mem_nhdsWithin_of_mem_nhds (Iio_mem_nhds b), self_mem_nhdsWithin] with v h1 h2
    rw [e v h2.1 h1]
  refine (hl.union hr).mono fun v hv => ?_
  rcases le_total v u with h | h
  · exact Or.inl ⟨hv.1, h⟩
  · exact Or.inr ⟨h, hv.2⟩

/-- Clamped ends make the derivative curve valid. -/
theorem clamped_inner {c : BSplineCurve ℝ P} (hv : c.Valid) (hp : 1 ≤ c.degree)
    (h0 : knot c.knots 0 = knot c.knots c.degree)
    (h1 : knot c.knots c.controlPoints.length = knot c.knots (c.controlPoints.length + c.degree)) :
    2 ≤ c.controlPoints.length ∧ knot c.knots 1 = knot c.knots 0 ∧
      knot c.knots (c.controlPoints.length + c.degree - 1) = knot c.knots (c.controlPoints.length + c.degree) := by
  have hne := hv.nonconst
  refine ⟨?_, ?_, ?_⟩
  · by_contra hc
    have := hv.mono c.controlPoints.length c.degree (by omega) (by omega)
    rw [h1, ← h0] at this
    exact absurd hne (not_lt.2 this)
  · apply le_antisymm
    · rw [h0]; exact hv.mono _ _ hp (by omega)
    · exact hv.mono _ _ (by omega) (by have := hv.pts; omega)
  · apply le_antisymm
    · exact hv.mono _ _ (by omega) (le_refl _)
    · rw [← h1]; exact hv.mono _ _ (by omega) (by omega)

theorem clamped_span {c : BSplineCurve ℝ P} (hv : c.Valid)
    (h0 : knot c.knots 0 = knot c.knots c.degree)
    (h1 : knot c.knots c.controlPoints.length = knot c.knots (c.controlPoints.length + c.degree)) {s : Nat}
    (hs : s < c.controlPoints.length + c.degree) (h : knot c.knots s < knot c.knots (s + 1)) :
    c.degree ≤ s ∧ s < c.controlPoints.length := by
  constructor
  · by_contra hc
    have := hv.mono (s + 1) c.degree (by omega) (by omega)
    have := hv.mono 0 s (by omega) (by omega)
    linarith
  · by_contra hc
    have := hv.mono c.controlPoints.length s (by omega) (by omega)
    have := hv.mono (s + 1) _ (by omega) (le_refl _)
    linarith

/-- What the derivative curve says from the right and from the left of a parameter. -/
theorem derivative_sides {c : BSplineCurve ℝ P} (hv : c.Valid) (hp : 1 ≤ c.degree)
    (h0 : knot c.knots 0 = knot c.knots c.degree)
    (h1 : knot c.knots c.controlPoints.length = knot c.knots (c.controlPoints.length + c.degree)) :
    ∃ c', c.derivative = .ok c' ∧ c'.Valid ∧ c'.degree + 1 = c.degree ∧
      c'.controlPoints.length + 1 = c.controlPoints.length ∧
      (∀ j, j < c.controlPoints.length + c.degree - 1 → knot c'.knots j = knot c.knots (j + 1)) ∧
      knot c'.knots 0 = knot c.knots 0 ∧
      knot c'.knots (c'.controlPoints.length + c'.degree) = knot c.knots (c.controlPoints.length + c.degree) ∧
      c'.knots.Sublist c.knots ∧
      (∀ u, knot c.knots 0 ≤ u → u < knot c.knots (c.controlPoints.length + c.degree) → ∀ f : P →ₗ[ℝ] ℝ,
        HasDerivWithinAt (fun v => f (valOf (c.getPoint v))) (f (valOf (c'.getPoint u))) (Set.Ici u) u) ∧
      (InnerMult c (c.degree - 1) → ∀ u, knot c.knots 0 < u →
        u ≤ knot c.knots (c.controlPoints.length + c.degree) → ∀ f : P →ₗ[ℝ] ℝ,
          HasDerivWithinAt (fun v => f (valOf (c.getPoint v))) (f (valOf (c'.getPoint u))) (Set.Iic u) u) := by
  obtain ⟨hN, e0, e1⟩ := clamped_inner hv hp h0 h1
  obtain ⟨c', hd, hv', d1, d2, d3, d4, d5⟩ := derivative_pieces hv hp hN (by rw [e0, e1]; exact hv.nonconst)
  have k0 : knot c'.knots 0 = knot c.knots 0 := by rw [d3 _ (by omega), e0]
  have k1 : knot c'.knots (c'.controlPoints.length + c'.degree) = knot c.knots (c.controlPoints.length + c.degree) := by
    rw [d3 _ (by omega), ← e1]
    congr 1
    omega
  refine ⟨c', hd, hv', d1, d2, d3, k0, k1, d4, ?_, ?_⟩
  · intro u hu0 hu1 f
    obtain ⟨s, hs, a, b, e⟩ := valOf_right hv hu0 hu1
    obtain ⟨s1, s2⟩ := clamped_span hv h0 h1 hs (lt_of_le_of_lt a b)
    have e' : valOf (c'.getPoint u) = c'.pieceSum (s - 1) u := by
      rw [getPoint_of_contains hv' (s := s - 1)]
      · rfl
      · refine ⟨by omega, ?_, ?_, Or.inl ?_⟩
        · rw [d3 _ (by omega), d3 _ (by omega), Nat.sub_add_cancel (by omega)]; exact lt_of_le_of_lt a b
        · rw [d3 _ (by omega), Nat.sub_add_cancel (by omega)]; exact a
        · rw [d3 _ (by omega), Nat.sub_add_cancel (by omega)]; exact b
    rw [e']
    refine ((d5 s u s1 s2 f).hasDerivWithinAt).congr_of_eventuallyEq ?_ (by rw [e u (le_refl _) b])
    filter_upwards [mem_nhdsWithin_of_mem_nhds (Iio_mem_nhds b), self_mem_nhdsWithin] with v g1 g2
    rw [e v g2 g1]
  · intro hmult u hu0 hu1 f
    obtain ⟨s, hs, a, b, e⟩ := valOf_left hv (fun x g1 g2 => le_trans (hmult x g1 g2) (by omega)) hu0 hu1
    obtain ⟨s1, s2⟩ := clamped_span hv h0 h1 hs (lt_of_lt_of_le a b)
    have hm' : InnerMult c' c'.degree := fun x g1 g2 => by
      rw [k0] at g1
      rw [k1] at g2
      exact le_trans (d4.count_le x) (le_trans (hmult x g1 g2) (by omega))
    have e' : valOf (c'.getPoint u) = c'.pieceSum (s - 1) u := by
      rw [getPoint_left hv' hm' (s := s - 1) (by omega)]
      · rfl
      · rw [d3 _ (by omega), Nat.sub_add_cancel (by omega)]; exact a
      · rw [d3 _ (by omega), Nat.sub_add_cancel (by omega)]; exact b
    rw [e']
    refine ((d5 s u s1 s2 f).hasDerivWithinAt).congr_of_eventuallyEq ?_ (by rw [e u a (le_refl _)])
    filter_upwards [mem_nhdsWithin_of_mem_nhds (Ioi_mem_nhds a), self_mem_nhdsWithin] with v g1 g2
    rw [e v g1 g2]

/-- **C108**: where no knot strictly inside the range of a clamped curve has a multiplicity above `degree - 1`, the curve
is differentiable on the whole closed range, knots included, `derivative` evaluates to its derivative there, and this is
continuous. -/
theorem C108_differentiable {c : BSplineCurve ℝ P} (hv : c.Valid) (hp : 1 ≤ c.degree)
    (h0 : knot c.knots 0 = knot c.knots c.degree)
    (h1 : knot c.knots c.controlPoints.length = knot c.knots (c.controlPoints.length + c.degree))
    (hmult : ∀ x, knot c.knots 0 < x → x < knot c.knots (c.controlPoints.length + c.degree) →
      c.knots.count x ≤ c.degree - 1) :
    ∃ c', c.derivative = .ok c' ∧ ∀ f : P →ₗ[ℝ] ℝ,
      (∀ u ∈ Set.Icc (knot c.knots 0) (knot c.knots (c.controlPoints.length + c.degree)),
        ∃ d, c'.getPoint u = .ok d ∧ HasDerivWithinAt (fun v => f (valOf (c.getPoint v))) (f d)
          (Set.Icc (knot c.knots 0) (knot c.knots (c.controlPoints.length + c.degree))) u) ∧
      ContinuousOn (fun u => f (valOf (c'.getPoint u)))
        (Set.Icc (knot c.knots 0) (knot c.knots (c.controlPoints.length + c.degree))) := by
  obtain ⟨c', hd, hv', d1, d2, d3, k0, k1, d4, hR, hL⟩ := derivative_sides hv hp h0 h1
  refine ⟨c', hd, fun f => ⟨fun u hu => ?_, ?_⟩⟩
  · obtain ⟨s, -, hg⟩ := getPoint_eq hv' (u := u) (by rw [k0]; exact hu.1)
    refine ⟨_, hg, ?_⟩
    have ev : valOf (c'.getPoint u) = c'.pieceSum s u := by rw [hg]; rfl
    have hl : HasDerivWithinAt (fun v => f (valOf (c.getPoint v))) (f (c'.pieceSum s u)) (Set.Icc (knot c.knots 0) u) u := by
      rcases eq_or_lt_of_le hu.1 with h | h
      · rw [h, Set.Icc_self]; exact HasFDerivWithinAt.of_subsingleton Set.subsingleton_singleton
      · rw [← ev]; exact (hL hmult u h hu.2 f).mono fun v hv => hv.2
    have hr : HasDerivWithinAt (fun v => f (valOf (c.getPoint v))) (f (c'.pieceSum s u))
        (Set.Icc u (knot c.knots (c.controlPoints.length + c.degree))) u := by
      rcases eq_or_lt_of_le hu.2 with h | h
      · rw [← h, Set.Icc_self]; exact HasFDerivWithinAt.of_subsingleton Set.subsingleton_singleton
      · rw [← ev]; exact (hR u hu.1 h f).mono fun v hv => hv.1
    refine (hl.union hr).mono fun v hv => ?_
    rcases le_total v u with h | h
    · exact Or.inl ⟨hv.1, h⟩
    · exact Or.inr ⟨h, hv.2⟩
  · rw [← k0, ← k1]
    refine C108_continuous hv' (fun x g1 g2 => ?_) f
    rw [k0] at g1
    rw [k1] at g2
    exact le_trans (d4.count_le x) (le_trans (hmult x g1 g2) (by omega))

end

end Geom3d
