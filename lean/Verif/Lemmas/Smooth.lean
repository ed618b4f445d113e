import Verif.Props.Join
import Mathlib.Topology.Algebra.Polynomial

/-! # B-spline curves near their knots: the value from the left, the derivative of a piece -/

set_option linter.unusedSectionVars false

namespace Geom3d
open Spec

section
variable {K P : Type} [Field K] [LinearOrder K] [IsStrictOrderedRing K] [Env K]
  [AddCommGroup P] [Module K P] [HMul K P P] [HMul P K P] [LawfulPoint K P]

/-- A run of `m` equal entries bounds the multiplicity from below. -/
theorem run_le_count {l : List K} {s m : Nat} {x : K} (hlen : s + m < l.length) (h : ∀ j, s < j → j ≤ s + m → knot l j = x) :
    m ≤ l.count x := by
  rw [← List.replicate_sublist_iff]
  have e : List.replicate m x = (l.drop (s + 1)).take m := by
    apply List.ext_getElem
    · simp; omega
    · intro i h1 h2
      simp only [List.length_replicate] at h1
      rw [List.getElem_replicate, List.getElem_take, List.getElem_drop, ← h (s + 1 + i) (by omega) (by omega),
        knot_getElem]
  rw [e]
  exact (List.take_sublist _ _).trans (List.drop_sublist _ _)

/-- Interior knots have multiplicity at most `d`. -/
def InnerMult (c : BSplineCurve K P) (d : Nat) : Prop :=
  ∀ x, knot c.knots 0 < x → x < knot c.knots (c.controlPoints.length + c.degree) → c.knots.count x ≤ d

/-- Below the degree, the polynomial of a span gives the value at the right end of the span too. -/
theorem getPoint_left {c : BSplineCurve K P} (hv : c.Valid) (hmult : InnerMult c c.degree) {s : Nat} {v : K}
    (hs : s < c.controlPoints.length + c.degree) (h1 : knot c.knots s < v) (h2 : v ≤ knot c.knots (s + 1)) :
    c.getPoint v = .ok (c.pieceSum s v) := by
  have hlen := hv.len
  rcases lt_or_eq_of_le h2 with h3 | h3
  · exact getPoint_of_contains hv ⟨hs, lt_trans h1 h3, le_of_lt h1, Or.inl h3⟩
  rcases lt_or_eq_of_le (hv.mono (s + 1) _ (by omega) (le_refl _)) with h4 | h4
  · obtain ⟨r, hr, hg⟩ := getPoint_eq hv (le_trans (hv.mono 0 s (by omega) (by omega)) (le_of_lt h1))
    have hr1 : v < knot c.knots (r + 1) := by
      rcases hr.right with h | ⟨h, -⟩
      · exact h
      · rw [h3] at h; exact absurd h (not_le.2 h4)
    have hsr : s < r := by
      by_contra hc
      have := hv.mono (r + 1) (s + 1) (by omega) (by omega)
      rw [← h3] at this
      exact absurd hr1 (not_lt.2 this)
    obtain ⟨m, rfl⟩ : ∃ m, r = s + m := ⟨r - s, by omega⟩
    have hrl := hr.lt
    have heq : ∀ j, s < j → j ≤ s + m → knot c.knots j = knot c.knots (s + 1) := by
      intro j hj1 hj2
      apply le_antisymm
      · rw [← h3]; exact le_trans (hv.mono j _ hj2 (by omega)) hr.left
      · exact hv.mono _ _ (by omega) (by omega)
    have hm : m ≤ c.degree := by
      refine le_trans (run_le_count (s := s) (x := v) (by omega) fun j a b => ?_) (hmult v ?_ ?_)
      · rw [heq j a b, h3]
      · exact lt_of_le_of_lt (hv.mono 0 s (by omega) (by omega)) h1
      · rw [h3]; exact h4
    rw [hg]
    congr 1
    unfold BSplineCurve.pieceSum
    refine Finset.sum_congr rfl fun i _ => ?_
    rw [h3, piece_join (by omega) (by rw [← h3]; exact h1) hr.nonempty heq c.degree hm]
  · exact getPoint_of_contains hv ⟨hs, by rw [← h3]; exact h1, le_of_lt h1, Or.inr ⟨by rw [h3, h4], h4⟩⟩

/-- Above the first knot there is a span ending at or after the parameter and starting strictly before it. -/
theorem exists_left {t : Nat → K} {n : Nat} {v : K} (h0 : t 0 < v) (hn : v ≤ t n) :
    ∃ s, s < n ∧ t s < v ∧ v ≤ t (s + 1) := by
  classical
  have hex : ∃ j, v ≤ t j := ⟨n, hn⟩
  have hpos : Nat.find hex ≠ 0 := fun e => by
    have := Nat.find_spec hex
    rw [e] at this
    exact absurd h0 (not_lt.2 this)
  obtain ⟨s, hs⟩ := Nat.exists_eq_succ_of_ne_zero hpos
  refine ⟨s, ?_, ?_, ?_⟩
  · have := Nat.find_min' hex hn
    omega
  · exact not_le.1 (Nat.find_min hex (by omega : s < Nat.find hex))
  · have := Nat.find_spec hex
    rw [hs] at this
    exact this

end

section
variable {P : Type} [AddCommGroup P] [Module ℝ P] [HMul ℝ P P] [HMul P ℝ P] [LawfulPoint ℝ P]

/-- The derivative curve, with the derivative of every polynomial piece of the domain. -/
theorem derivative_pieces {c : BSplineCurve ℝ P} (hv : c.Valid) (hp : 1 ≤ c.degree) (hN : 2 ≤ c.controlPoints.length)
    (hne : knot c.knots 1 < knot c.knots (c.controlPoints.length + c.degree - 1)) :
    ∃ c', c.derivative = .ok c' ∧ c'.Valid ∧ c'.degree + 1 = c.degree ∧
      c'.controlPoints.length + 1 = c.controlPoints.length ∧
      (∀ j, j < c.controlPoints.length + c.degree - 1 → knot c'.knots j = knot c.knots (j + 1)) ∧
      c'.knots.Sublist c.knots ∧
      ∀ s u, c.degree ≤ s → s < c.controlPoints.length → ∀ f : P →ₗ[ℝ] ℝ,
        HasDerivAt (fun v => f (c.pieceSum s v)) (f (c'.pieceSum (s - 1) u)) u := by
  have hl := hv.len
  set c' : BSplineCurve ℝ P := ⟨tab (c.controlPoints.length - 1) (fun i =>
        ((c.degree : ℝ) / (knot c.knots (i + c.degree + 1) - knot c.knots (i + 1)))
          • (cp c.controlPoints (i + 1) - cp c.controlPoints i)),
      (c.knots.take (c.knots.length - 1)).drop 1, c.degree - 1⟩ with hc'
  have hk' : ∀ j, j < c.controlPoints.length + c.degree - 1 → knot c'.knots j = knot c.knots (j + 1) := by
    intro j hj
    rw [hc']
    unfold knot
    simp only [List.getD_eq_getElem?_getD]
    rw [List.getElem?_drop, List.getElem?_take, if_pos (by omega), Nat.add_comm]
  have hc'l : c'.controlPoints.length = c.controlPoints.length - 1 := by rw [hc']; simp
  have hc'd : c'.degree = c.degree - 1 := rfl
  have hv' : c'.Valid := by
    refine ⟨?_, ?_, ?_, ?_, by omega⟩
    · rw [hc'l, hc'd, hc']; simp; omega
    · exact sorted_drop (sorted_take hv.sorted _) _
    · exact hv.resolved.mono (fun x hx => List.mem_of_mem_take (List.mem_of_mem_drop hx))
    · rw [hk' _ (by omega), hk' _ (by omega), hc'l, hc'd]
      rw [show c.controlPoints.length - 1 + (c.degree - 1) + 1 = c.controlPoints.length + c.degree - 1 by omega]
      exact hne
  refine ⟨c', derivative_eq hl hp (by omega) hv.resolved, hv', by omega, by omega, hk', ?_, ?_⟩
  · rw [hc']; exact (List.drop_sublist _ _).trans (List.take_sublist _ _)
  intro s u hs1 hs2 f
  obtain ⟨k, hk⟩ : ∃ k, c.degree = k + 1 := ⟨c.degree - 1, by omega⟩
  have hmono := hv.mono
  have hD := pieceSum_hasDerivAt (t := knot c.knots) (N := c.controlPoints.length) (k := k)
    (fun i j h1 h2 => hmono i j h1 (by omega)) s (by omega) hs2 (fun i => f (cp c.controlPoints i)) u
  have e1 : f (c'.pieceSum (s - 1) u) = ∑ i ∈ Finset.range (c.controlPoints.length - 1),
      piece (knot c.knots) s k (i + 1) u * (((k + 1 : Nat) : ℝ)
        / (knot c.knots (i + k + 2) - knot c.knots (i + 1))
          * (f (cp c.controlPoints (i + 1)) - f (cp c.controlPoints i))) := by
    unfold BSplineCurve.pieceSum
    rw [map_sum, hc'l, hc'd]
    apply Finset.sum_congr rfl
    intro i hi
    rw [Finset.mem_range] at hi
    rw [map_smul, smul_eq_mul, hk, Nat.add_sub_cancel]
    congr 1
    · have : piece (knot c'.knots) (s - 1) k i u = piece (fun j => knot c.knots (j + 1)) (s - 1) k i u := by
        apply piece_congr
        intro j _ hj
        exact hk' j (by omega)
      rw [this, piece_shift, Nat.sub_add_cancel (by omega)]
    · have : cp c'.controlPoints i = ((c.degree : ℝ) / (knot c.knots (i + c.degree + 1) - knot c.knots (i + 1)))
          • (cp c.controlPoints (i + 1) - cp c.controlPoints i) := by
        rw [← cp_getElem (by omega)]
        simp [hc']
      rw [this, map_smul, map_sub, smul_eq_mul, hk]
      rfl
  rw [e1]
  convert hD using 2 with v
  unfold BSplineCurve.pieceSum
  rw [map_sum, hk]
  exact Finset.sum_congr rfl fun i _ => by rw [map_smul, smul_eq_mul]

/-- Every polynomial piece is continuous. -/
theorem pieceSum_continuous (c : BSplineCurve ℝ P) (s : Nat) (f : P →ₗ[ℝ] ℝ) : Continuous fun v => f (c.pieceSum s v) := by
  unfold BSplineCurve.pieceSum
  simp only [map_sum, map_smul, smul_eq_mul]
  refine continuous_finsetSum _ fun i _ => Continuous.mul ?_ continuous_const
  have : piece (knot c.knots) s c.degree i = fun u => (pieceP (knot c.knots) s c.degree i).eval u :=
    funext fun u => (pieceP_eval _ _ _ _ u).symm
  rw [this]
  exact Polynomial.continuous _

end

end Geom3d
