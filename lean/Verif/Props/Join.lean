import Verif.Props.Surfaces
import Mathlib.Algebra.Polynomial.Roots
import Mathlib.Algebra.Polynomial.Eval.Defs
import Mathlib.LinearAlgebra.Dual.Lemmas
import Mathlib.Order.Interval.Set.Infinite

/-! # C82: the pieces of a B-spline curve join -/

set_option linter.unusedSectionVars false

namespace Geom3d
open Spec Polynomial

section
variable {K P : Type} [Field K] [LinearOrder K] [IsStrictOrderedRing K] [Env K]
  [AddCommGroup P] [Module K P] [HMul K P P] [HMul P K P] [LawfulPoint K P]

/-- At a knot of multiplicity `m ≤ k` the degree `k` basis functions of the spans to the left and to the right agree. -/
theorem piece_join {t : Nat → K} {s m : Nat} (hm : 1 ≤ m) (hl : t s < t (s + 1)) (hr : t (s + m) < t (s + m + 1))
    (heq : ∀ j, s < j → j ≤ s + m → t j = t (s + 1)) (k : Nat) (hk : m ≤ k) (i : Nat) :
    piece t s k i (t (s + 1)) = piece t (s + m) k i (t (s + 1)) := by
  induction k generalizing i with
  | zero => omega
  | succ k ih =>
    rcases Nat.lt_or_ge k m with h | h
    · obtain rfl : m = k + 1 := by omega
      have h1 := fun i => piece_at_end hl k i (fun j h1 h2 => heq j h1 (by omega))
      have e : t (s + (k + 1)) = t (s + 1) := heq _ (by omega) (le_refl _)
      have h2 := fun i => piece_at_start hr k i (by omega) (fun j h3 h4 => by
        rw [e]; exact heq j (by omega) h4)
      rw [e] at h2
      simp only [piece]
      rw [h1, h1, h2, h2]
      by_cases h5 : i = s
      · subst h5
        rw [if_pos rfl, if_neg (by omega), if_neg (by omega), if_pos (by omega)]
        have e1 : t (i + k + 1) = t (i + 1) := heq _ (by omega) (by omega)
        have e2 : t (i + 1) < t (i + k + 2) := by rw [← e]; exact hr
        rw [e1, div_self (by intro h0; linarith), div_self (by intro h0; linarith)]
        ring
      · rw [if_neg h5, if_neg (show ¬ (i + 1 + k = s + (k + 1)) by omega)]
        by_cases h6 : i + 1 = s
        · subst h6
          rw [if_pos rfl, if_neg (by omega)]
          have e1 : t (i + k + 2) = t (i + 1 + 1) := heq _ (by omega) (by omega)
          rw [e1, sub_self]
          ring
        · rw [if_neg h6]
          by_cases h7 : i + k = s + (k + 1)
          · obtain rfl : i = s + 1 := by omega
            rw [if_pos h7, sub_self]
            ring
          · rw [if_neg h7]
    · simp only [piece]
      rw [ih h, ih h]

/-! ### Pieces as polynomials -/

/-- The polynomial of `piece`. -/
noncomputable def pieceP (t : Nat → K) (s : Nat) : Nat → Nat → K[X]
  | 0, i => if i = s then 1 else 0
  | k + 1, i =>
      C (1 / (t (i + k + 1) - t i)) * (X - C (t i)) * pieceP t s k i
      + C (1 / (t (i + k + 2) - t (i + 1))) * (C (t (i + k + 2)) - X) * pieceP t s k (i + 1)

theorem pieceP_eval (t : Nat → K) (s k i : Nat) (u : K) : (pieceP t s k i).eval u = piece t s k i u := by
  induction k generalizing i with
  | zero => unfold pieceP piece; split <;> simp
  | succ k ih =>
    simp only [pieceP, piece, eval_add, eval_mul, eval_sub, eval_X, eval_C, ih]
    ring

/-- The polynomial of a Bernstein weight after the substitution `(u - a) / d`. -/
theorem bern_poly (n i : Nat) (a d : K) : ∃ q : K[X], ∀ u, q.eval u = bernsteinPoly n i ((u - a) / d) := by
  refine ⟨C (n.choose i : K) * (C (1 / d) * (X - C a)) ^ i * (1 - C (1 / d) * (X - C a)) ^ (n - i), fun u => ?_⟩
  simp only [eval_mul, eval_pow, eval_sub, eval_X, eval_C, eval_one, bernsteinPoly]
  rw [show 1 / d * (u - a) = (u - a) / d by ring]

/-- Two families of polynomial weights whose sums of vectors agree on an interval agree everywhere. -/
theorem sums_agree {ι κ : Type} (S : Finset ι) (T : Finset κ) (f : ι → K → K) (g : κ → K → K)
    (hf : ∀ i, ∃ q : K[X], ∀ u, q.eval u = f i u) (hg : ∀ i, ∃ q : K[X], ∀ u, q.eval u = g i u) (v : ι → P)
    (w : κ → P) {a b : K} (hab : a < b)
    (h : ∀ u, a ≤ u → u < b → ∑ i ∈ S, f i u • v i = ∑ j ∈ T, g j u • w j) (u : K) :
    ∑ i ∈ S, f i u • v i = ∑ j ∈ T, g j u • w j := by
  rw [← sub_eq_zero]
  refine (Module.forall_dual_apply_eq_zero_iff K _).1 fun φ => ?_
  choose F hF using hf
  choose G hG using hg
  have hpoly : ∀ x, (∑ i ∈ S, F i * C (φ (v i)) - ∑ j ∈ T, G j * C (φ (w j))).eval x
      = φ (∑ i ∈ S, f i x • v i - ∑ j ∈ T, g j x • w j) := by
    intro x
    rw [eval_sub, eval_finsetSum, eval_finsetSum, map_sub, map_sum, map_sum]
    simp [hF, hG]
  have hzero : (∑ i ∈ S, F i * C (φ (v i)) - ∑ j ∈ T, G j * C (φ (w j))) = 0 := by
    apply Polynomial.eq_zero_of_infinite_isRoot
    apply Set.Infinite.mono (s := Set.Ico a b) _ (Set.Ico_infinite hab)
    intro x hx
    change Polynomial.IsRoot _ x
    rw [IsRoot.def, hpoly, h x hx.1 hx.2, sub_self, map_zero]
  rw [← hpoly, hzero, eval_zero]

/-! ### Spans and distinct knots -/

/-- The span whose ends are two consecutive distinct knots. -/
theorem span_of_distinct {c : BSplineCurve K P} (hv : c.Valid) {ds : List K} (hds : ds.Pairwise (· < ·))
    (hmem : ∀ x, x ∈ ds ↔ x ∈ c.knots) {k : Nat} (hk : k + 1 < ds.length) :
    ∃ s, s < c.controlPoints.length + c.degree ∧ knot c.knots s = knot ds k ∧ knot c.knots (s + 1) = knot ds (k + 1) := by
  have hlen := hv.len
  have hkm : ∀ j, j < ds.length → ∃ i, i ≤ c.controlPoints.length + c.degree ∧ knot c.knots i = knot ds j := by
    intro j hj
    obtain ⟨i, hi, ei⟩ := List.getElem_of_mem ((hmem _).1 (knot_mem hj))
    exact ⟨i, by omega, by rw [← ei, knot_getElem hi]⟩
  have hlt := strict_lt hds (Nat.lt_succ_self k) hk
  obtain ⟨i, hi, ei⟩ := hkm k (by omega)
  obtain ⟨j, hj, ej⟩ := hkm (k + 1) hk
  have h0 : knot c.knots 0 ≤ knot ds k := by rw [← ei]; exact hv.mono 0 i (by omega) hi
  obtain ⟨s, -, -, hs⟩ := exists_contains hv.len hv.sorted hv.resolved hv.nonconst h0
  have hslt := hs.lt
  have hright : knot ds k < knot c.knots (s + 1) := by
    rcases hs.right with h | ⟨h, -⟩
    · exact h
    · have := hv.mono j _ hj (le_refl _)
      rw [ej] at this
      exact absurd (lt_of_lt_of_le hlt this) (not_lt.2 h)
  refine ⟨s, hslt, ?_, ?_⟩
  · apply le_antisymm hs.left
    rw [← ei]
    apply hv.mono i s _ (by omega)
    by_contra hc
    have := hv.mono (s + 1) i (by omega) hi
    rw [ei] at this
    exact absurd hright (not_lt.2 this)
  · apply le_antisymm
    · rw [← ej]
      apply hv.mono (s + 1) j _ hj
      by_contra hc
      have := hv.mono j s (by omega) (by omega)
      rw [ej] at this
      exact absurd (lt_of_lt_of_le hlt (le_trans this hs.left)) (lt_irrefl _)
    · by_contra hc
      have := no_between hds hmem hk (knot_mem (by omega : s + 1 < c.knots.length)) (not_le.1 hc)
      exact absurd hright (not_lt.2 this)

theorem getPoint_zero {b : BezierCurve P} {n : Nat} (h : b.controlPoints.length = n + 1) :
    b.getPoint (0 : K) = .ok (cp b.controlPoints 0) := by
  obtain ⟨l⟩ := b
  match l, h with
  | p :: l, _ => exact C11_start p l

theorem getPoint_one {b : BezierCurve P} {n : Nat} (h : b.controlPoints.length = n + 1) :
    b.getPoint (1 : K) = .ok (cp b.controlPoints n) := by
  obtain ⟨l⟩ := b
  simp only [] at h
  have hne : l ≠ [] := by intro e; rw [e] at h; cases h
  have e : l = l.dropLast ++ [l.getLast hne] := (List.dropLast_append_getLast hne).symm
  have hg : cp l n = l.getLast hne := by
    rw [← cp_getElem (by omega), List.getLast_eq_getElem]
    congr 1
    omega
  simp only []
  rw [hg]
  conv_lhs => rw [e]
  exact C11_end _ _

/-- A piece is the polynomial of its span, for all parameters. -/
theorem goodPiece_polynomial {c : BSplineCurve K P} (hv : c.Valid) {ds : List K} {k s : Nat} {b : BezierCurve P}
    (hb : GoodPiece c ds k b) (hs : s < c.controlPoints.length + c.degree) (h0 : knot c.knots s = knot ds k)
    (h1 : knot c.knots (s + 1) = knot ds (k + 1)) (hlt : knot ds k < knot ds (k + 1)) (u : K) :
    b.getPoint ((u - knot ds k) / (knot ds (k + 1) - knot ds k)) = .ok (c.pieceSum s u) := by
  have hlen : 1 ≤ b.controlPoints.length := by rw [hb.1]; omega
  rw [bezier_getPoint b hlen]
  congr 1
  unfold BSplineCurve.pieceSum
  refine sums_agree _ _ (fun i u => bernsteinPoly (b.controlPoints.length - 1) i
    ((u - knot ds k) / (knot ds (k + 1) - knot ds k))) (fun i u => piece (knot c.knots) s c.degree i u)
    (fun i => bern_poly _ _ _ _) (fun i => ⟨pieceP (knot c.knots) s c.degree i, pieceP_eval _ _ _ _⟩) _ _ hlt ?_ u
  intro x hx0 hx1
  have h2 := hb.2 x hx0 (Or.inl hx1)
  rw [bezier_getPoint b hlen, getPoint_of_contains hv (s := s) ⟨hs, by rw [h0, h1]; exact hlt, by rw [h0]; exact hx0,
    Or.inl (by rw [h1]; exact hx1)⟩] at h2
  exact Except.ok.inj h2

/-- **C82** The pieces returned by `to_piecewise_bezier` join: at a knot whose multiplicity is at most the degree, the
last control point of the piece before it is the first control point of the piece behind it, and both are the point of
the curve at that knot. -/
theorem C82_join {c : BSplineCurve K P} (hv : c.Valid) (htol : (0 : K) ≤ Env.tol)
    (hsep : ∀ a ∈ c.knots, ∀ b ∈ c.knots, a < b → Env.tol < b - a) {ds : List K} (hds : ds.Pairwise (· < ·))
    (hmem : ∀ x, x ∈ ds ↔ x ∈ c.knots) (hmult : ∀ x ∈ c.knots, c.knots.count x ≤ c.degree + 1)
    (h0 : c.knots.count (knot ds 0) = c.degree + 1)
    (h1 : c.knots.count (knot ds (ds.length - 1)) = c.degree + 1) :
    ∃ bs, c.toPiecewiseBezier = .ok bs ∧ bs.length = ds.length - 1 ∧
      ∀ k b b', bs[k]? = some b → bs[k + 1]? = some b' → c.knots.count (knot ds (k + 1)) ≤ c.degree →
        cp b.controlPoints c.degree = cp b'.controlPoints 0 ∧
        c.getPoint (knot ds (k + 1)) = .ok (cp b'.controlPoints 0) := by
  obtain ⟨bs, e1, e2, e3⟩ := C18_toPiecewiseBezier hv htol hsep hds hmem hmult h0 h1
  refine ⟨bs, e1, e2, fun k b b' hb hb' hmul => ?_⟩
  have hk : k + 1 < bs.length := by
    by_contra hc
    rw [List.getElem?_eq_none (by omega)] at hb'
    cases hb'
  obtain ⟨s, hs, hs0, hs1⟩ := span_of_distinct hv hds hmem (k := k) (by omega)
  obtain ⟨s', hs', hs0', hs1'⟩ := span_of_distinct hv hds hmem (k := k + 1) (by omega)
  have hlt := strict_lt hds (Nat.lt_succ_self k) (by omega)
  have hlt' := strict_lt hds (Nat.lt_succ_self (k + 1)) (by omega)
  have g := e3 k b hb
  have g' := e3 (k + 1) b' hb'
  have hss : s < s' := by
    by_contra hc
    have := hv.mono s' s (by omega) (by omega)
    rw [hs0, hs0'] at this
    exact absurd hlt (not_lt.2 this)
  have heq : ∀ j, s < j → j ≤ s' → knot c.knots j = knot c.knots (s + 1) := by
    intro j h2 h3
    apply le_antisymm
    · have := hv.mono j s' h3 (by omega)
      rw [hs0', ← hs1] at this
      exact this
    · exact hv.mono (s + 1) j h2 (by omega)
  -- the multiplicity
  have hm : s' - s ≤ c.degree := by
    refine le_trans ?_ hmul
    have hsub : (List.replicate (s' - s) (knot ds (k + 1))).Sublist c.knots := by
      have : List.replicate (s' - s) (knot ds (k + 1)) = (c.knots.drop (s + 1)).take (s' - s) := by
        symm
        apply List.eq_replicate_iff.2
        constructor
        · rw [List.length_take, List.length_drop, hv.len]; omega
        · intro x hx
          obtain ⟨i, hi, rfl⟩ := List.getElem_of_mem hx
          have hi' : i < s' - s := by rw [List.length_take] at hi; omega
          have hl := hv.len
          rw [List.getElem_take, List.getElem_drop, knot_getElem (by omega), heq _ (by omega) (by omega), hs1]
      rw [this]
      exact (List.take_sublist _ _).trans (List.drop_sublist _ _)
    have := hsub.count_le (knot ds (k + 1))
    rwa [List.count_replicate_self] at this
  -- both sides
  have hend := goodPiece_polynomial hv g hs hs0 hs1 hlt (knot ds (k + 1))
  rw [div_self (by intro h; linarith), getPoint_one g.1] at hend
  have hstart := goodPiece_polynomial hv g' hs' hs0' hs1' hlt' (knot ds (k + 1))
  rw [sub_self, zero_div, getPoint_zero g'.1] at hstart
  have hcont : Contains (knot c.knots) (c.controlPoints.length + c.degree) s' (knot ds (k + 1)) :=
    ⟨hs', by rw [hs0', hs1']; exact hlt', le_of_eq hs0', Or.inl (by rw [hs1']; exact hlt')⟩
  have hjoin : c.pieceSum s (knot ds (k + 1)) = c.pieceSum s' (knot ds (k + 1)) := by
    unfold BSplineCurve.pieceSum
    apply Finset.sum_congr rfl
    intro i _
    have h3 := piece_join (t := knot c.knots) (s := s) (m := s' - s) (by omega) (by rw [hs0, hs1]; exact hlt)
      (by rw [show s + (s' - s) = s' by omega, hs0', hs1']; exact hlt')
      (fun j h4 h5 => heq j h4 (by omega)) c.degree hm i
    rw [hs1, show s + (s' - s) = s' by omega] at h3
    rw [h3]
  constructor
  · rw [Except.ok.inj hend, Except.ok.inj hstart, hjoin]
  · rw [getPoint_of_contains hv hcont, Except.ok.inj hstart]

end

/-- **C82**, the bound is sharp: a quadratic with an inner knot of multiplicity 3 is cut into pieces that do not join. -/
theorem C82_jump : (⟨[⟨0, 0, 0⟩, ⟨1, 1, 0⟩, ⟨2, 0, 0⟩, ⟨5, 0, 0⟩, ⟨6, 1, 0⟩, ⟨7, 0, 0⟩], [0, 0, 0, 1, 1, 1, 2, 2, 2], 2⟩ :
      BSplineCurve ℚ (V3 ℚ)).toPiecewiseBezier
    = .ok [⟨[⟨0, 0, 0⟩, ⟨1, 1, 0⟩, ⟨2, 0, 0⟩]⟩, ⟨[⟨5, 0, 0⟩, ⟨6, 1, 0⟩, ⟨7, 0, 0⟩]⟩] := by decide +kernel

/-- Non-vacuity: a cubic with an inner double knot. -/
theorem C82_example : (⟨[⟨0, 0, 0⟩, ⟨0, 4, 0⟩, ⟨4, 4, 0⟩, ⟨8, 4, 0⟩, ⟨8, 0, 0⟩, ⟨8, 8, 8⟩],
        [0, 0, 0, 0, 1, 1, 2, 2, 2, 2], 3⟩ : BSplineCurve ℚ (V3 ℚ)).toPiecewiseBezier
    = .ok [⟨[⟨0, 0, 0⟩, ⟨0, 4, 0⟩, ⟨4, 4, 0⟩, ⟨6, 4, 0⟩]⟩, ⟨[⟨6, 4, 0⟩, ⟨8, 4, 0⟩, ⟨8, 0, 0⟩, ⟨8, 8, 8⟩]⟩] := by
  decide +kernel

end Geom3d
