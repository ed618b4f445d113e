import Verif.Lemmas.Deriv
import Verif.Spec.Convex

/-! # C11–C18, C65: Bézier and B-spline curves -/

set_option linter.unusedSectionVars false

namespace Geom3d
open Spec

/-! ### C11: Bézier end points, convex hull, affine invariance -/

section bezier
variable {K P : Type} [Field K] [LinearOrder K] [IsStrictOrderedRing K] [Env K]
  [AddCommGroup P] [Module K P] [HMul K P P] [HMul P K P] [LawfulPoint K P]

/-- **C11**, the curve starts at the first control point. -/
theorem C11_start (p : P) (rest : List P) : (BezierCurve.mk (p :: rest)).getPoint (0 : K) = .ok p := by
  unfold BezierCurve.getPoint
  rw [(C02_ends _ (by simp)).1]
  simp only [ok_bind, pure_eq_ok]
  rw [linComb_tab]
  congr 1
  rw [Finset.sum_eq_single 0]
  · simp [cp]
  · intro i _ hi; simp [hi]
  · simp

/-- **C11**, the curve ends at the last control point. -/
theorem C11_end (p : P) (rest : List P) : (BezierCurve.mk (rest ++ [p])).getPoint (1 : K) = .ok p := by
  unfold BezierCurve.getPoint
  rw [(C02_ends _ (by simp)).2]
  simp only [ok_bind, pure_eq_ok]
  rw [linComb_tab]
  congr 1
  rw [Finset.sum_eq_single rest.length]
  · simp [cp]
  · intro i _ hi
    rw [if_neg (by simpa using hi)]; simp
  · simp

/-- **C11**, on `[0,1]` every point is a convex combination of the control points. -/
theorem C11_convex (c : BezierCurve P) (hc : 1 ≤ c.controlPoints.length) (u : K) (h0 : 0 ≤ u) (h1 : u ≤ 1) :
    ∃ x, c.getPoint u = .ok x ∧ ConvexComb (K := K) c.controlPoints x := by
  refine ⟨_, bezier_getPoint c hc u, fun i => bernsteinPoly (c.controlPoints.length - 1) i u, ?_, ?_, rfl⟩
  · intro i _
    have : 0 ≤ 1 - u := by linarith
    unfold bernsteinPoly
    exact mul_nonneg (mul_nonneg (Nat.cast_nonneg _) (pow_nonneg h0 _)) (pow_nonneg this _)
  · have := C02_sum_eq_one c.controlPoints.length hc u _ (bernstein_eq _ hc u)
    rw [sum_tab] at this
    exact this

/-- **C11**, coordinates (indeed all linear functionals) stay between those of the control points. -/
theorem C11_bounds (c : BezierCurve P) (hc : 1 ≤ c.controlPoints.length) (u : K) (h0 : 0 ≤ u) (h1 : u ≤ 1)
    (f : P →ₗ[K] K) (lo hi : K) (hb : ∀ p ∈ c.controlPoints, lo ≤ f p ∧ f p ≤ hi) :
    ∃ x, c.getPoint u = .ok x ∧ lo ≤ f x ∧ f x ≤ hi := by
  obtain ⟨x, hx, hcc⟩ := C11_convex c hc u h0 h1
  refine ⟨x, hx, ?_, hcc.le f (fun p hp => (hb p hp).2)⟩
  have := hcc.le (-f) (b := -lo) (fun p hp => by simpa using (hb p hp).1)
  simpa using this

/-- **C11**, affine invariance: evaluation commutes with every affine map, for every parameter. -/
theorem C11_affine {Q : Type} [AddCommGroup Q] [Module K Q] [HMul K Q Q] [HMul Q K Q] [LawfulPoint K Q]
    (c : BezierCurve P) (hc : 1 ≤ c.controlPoints.length) (u : K) (L : P →ₗ[K] Q) (b : Q) :
    ∃ x, c.getPoint u = .ok x ∧
      (BezierCurve.mk (c.controlPoints.map fun p => L p + b)).getPoint u = .ok (L x + b) := by
  refine ⟨_, bezier_getPoint c hc u, ?_⟩
  rw [bezier_getPoint _ (by simpa using hc)]
  congr 1
  simp only [List.length_map]
  have hsum := C02_sum_eq_one c.controlPoints.length hc u _ (bernstein_eq _ hc u)
  rw [sum_tab] at hsum
  conv_rhs => rw [← one_smul K b, ← hsum, Finset.sum_smul, map_sum, ← Finset.sum_add_distrib]
  apply Finset.sum_congr rfl
  intro i hi
  rw [Finset.mem_range] at hi
  rw [← cp_getElem (by simpa using hi), List.getElem_map, cp_getElem hi, smul_add, map_smul]

end bezier

/-- Non-vacuity: a cubic in space. -/
example : (BezierCurve.mk [⟨0, 0, 0⟩, ⟨1, 2, 0⟩, ⟨3, 2, 1⟩, (⟨4, 0, 4⟩ : V3 ℚ)]).getPoint (1 / 2 : ℚ)
    = .ok ⟨2, 3 / 2, 7 / 8⟩ := by decide +kernel
example : (BezierCurve.mk [⟨0, 0, 0⟩, ⟨1, 2, 0⟩, (⟨4, 0, 4⟩ : V3 ℚ)]).getPoint (1 : ℚ)
    = .ok ⟨4, 0, 4⟩ := C11_end _ [_, _]
example : ∃ x, (BezierCurve.mk [⟨0, 0, 0⟩, ⟨1, 2, 0⟩, (⟨4, 0, 4⟩ : V3 ℚ)]).getPoint (1 / 3 : ℚ) = .ok x ∧
    0 ≤ V3.xL x ∧ V3.xL x ≤ 4 :=
  C11_bounds _ (by decide) _ (by norm_num) (by norm_num) V3.xL 0 4 (by
    intro p hp; simp at hp; rcases hp with rfl | rfl | rfl <;> simp [V3.xL])

/-! ### C12, C14: derivatives -/

section derivative
variable {P : Type} [AddCommGroup P] [Module ℝ P] [HMul ℝ P P] [HMul P ℝ P] [LawfulPoint ℝ P]

/-- **C12.** For at least two control points `derivative()` succeeds, and at every real `u` its value is the
derivative of `get_point` at `u`, stated for every linear functional (in particular every coordinate). -/
theorem C12_derivative (b : BezierCurve P) (h : 2 ≤ b.controlPoints.length) :
    ∃ b', b.derivative (F := ℝ) = .ok b' ∧ b'.controlPoints.length + 1 = b.controlPoints.length ∧
      ∀ u : ℝ, (∃ x, b.getPoint u = .ok x) ∧ ∃ d, b'.getPoint u = .ok d ∧ ∀ f : P →ₗ[ℝ] ℝ,
        HasDerivAt (fun v => f (valOf (b.getPoint v))) (f d) u := by
  obtain ⟨b', h1, h2, h3⟩ := bezier_derivative_spec b h
  exact ⟨b', h1, h2, fun u => ⟨⟨_, bezier_getPoint b (by omega) u⟩, h3 u⟩⟩

/-- **C12**, the coordinates of a curve in space. -/
theorem C12_derivative_xyz (b : BezierCurve (V3 ℝ)) (h : 2 ≤ b.controlPoints.length) :
    ∃ b', b.derivative (F := ℝ) = .ok b' ∧ ∀ u : ℝ, ∃ d, b'.getPoint u = .ok d ∧
      HasDerivAt (fun v => (valOf (b.getPoint v)).x) d.x u ∧
      HasDerivAt (fun v => (valOf (b.getPoint v)).y) d.y u ∧
      HasDerivAt (fun v => (valOf (b.getPoint v)).z) d.z u := by
  obtain ⟨b', h1, _, h3⟩ := C12_derivative b h
  refine ⟨b', h1, fun u => ?_⟩
  obtain ⟨_, d, hd, hf⟩ := h3 u
  exact ⟨d, hd, hf V3.xL, hf V3.yL, hf V3.zL⟩

example : (BezierCurve.mk [⟨0, 0, 0⟩, ⟨1, 2, 0⟩, (⟨4, 0, 4⟩ : V3 ℚ)]).derivative (F := ℚ)
    = .ok ⟨[⟨2, 4, 0⟩, ⟨6, -4, 8⟩]⟩ := by decide +kernel
example : ∃ b', (BezierCurve.mk [⟨0, 0, 0⟩, ⟨1, 2, 0⟩, (⟨4, 0, 4⟩ : V3 ℝ)]).derivative (F := ℝ) = .ok b' :=
  let ⟨b', h, _⟩ := C12_derivative _ (by decide); ⟨b', h⟩

/-- **C65** (and the part of C14 that holds).  For degree at least 1, `derivative()` returns a curve of one degree
less, and at every parameter strictly inside a span of the valid domain `[t_p, t_N]` its value is the
derivative of `get_point`. -/
theorem C65_derivative {c : BSplineCurve ℝ P} (hv : c.Valid) (hp : 1 ≤ c.degree) :
    ∃ c', c.derivative = .ok c' ∧ c'.degree + 1 = c.degree ∧
      c'.controlPoints.length + 1 = c.controlPoints.length ∧ c'.knots.length + 2 = c.knots.length ∧
      ∀ s u, c.degree ≤ s → s < c.controlPoints.length → knot c.knots s < u → u < knot c.knots (s + 1) →
        ∃ d, c'.getPoint u = .ok d ∧ ∀ f : P →ₗ[ℝ] ℝ,
          HasDerivAt (fun v => f (valOf (c.getPoint v))) (f d) u :=
  derivative_spec hv hp

/-- **C65** for clamped curves: every parameter strictly between the first and last knot that is not a knot. -/
theorem C65_derivative_clamped {c : BSplineCurve ℝ P} (hv : c.Valid) (hp : 1 ≤ c.degree)
    (h0 : knot c.knots 0 = knot c.knots c.degree)
    (h1 : knot c.knots c.controlPoints.length = knot c.knots (c.controlPoints.length + c.degree)) :
    ∃ c', c.derivative = .ok c' ∧ ∀ u, knot c.knots 0 < u →
      u < knot c.knots (c.controlPoints.length + c.degree) → u ∉ c.knots →
        ∃ d, c'.getPoint u = .ok d ∧ ∀ f : P →ₗ[ℝ] ℝ,
          HasDerivAt (fun v => f (valOf (c.getPoint v))) (f d) u := by
  obtain ⟨c', e1, _, _, _, e2⟩ := derivative_spec hv hp
  refine ⟨c', e1, fun u hu0 hu1 hmem => ?_⟩
  have hlen := hv.len
  obtain ⟨s, _, hs, hs1, hs2⟩ := spanIndex_inner hlen (le_of_lt hu0) hu1
  have hne : knot c.knots s ≠ u := fun h => hmem (h ▸ knot_mem (by omega))
  apply e2 s u _ _ (lt_of_le_of_ne hs1 hne) hs2
  · by_contra hc
    have := hv.mono (s + 1) c.degree (by omega) (by omega)
    rw [← h0] at this
    linarith
  · by_contra hc
    have := hv.mono c.controlPoints.length s (by omega) (by omega)
    rw [h1] at this
    linarith

/-- **C14**, the part that is true: see `C65_derivative`.  Missing: spans outside the valid domain
`[t_p, t_N]` of an unclamped curve, where the claim is false (`C14_outside_domain_false`). -/
theorem C14_derivative_partial {c : BSplineCurve ℝ P} (hv : c.Valid) (hp : 1 ≤ c.degree) :
    ∃ c', c.derivative = .ok c' ∧ c'.degree + 1 = c.degree ∧
      ∀ s u, c.degree ≤ s → s < c.controlPoints.length → knot c.knots s < u → u < knot c.knots (s + 1) →
        ∃ d, c'.getPoint u = .ok d ∧ ∀ f : P →ₗ[ℝ] ℝ,
          HasDerivAt (fun v => f (valOf (c.getPoint v))) (f d) u := by
  obtain ⟨c', e1, e2, _, _, e3⟩ := derivative_spec hv hp
  exact ⟨c', e1, e2, e3⟩

/-- **C14**, degree 0: `u8` underflow, for every number type (law-free), whenever there are at least two knots. -/
theorem C14_degree_zero_panics {F P : Type} [Add F] [Sub F] [Mul F] [Div F] [Neg F] [Zero F] [One F] [NatCast F]
    [LT F] [DecidableLT F] [LE F] [DecidableLE F] [Env F] [Sub P] [HMul P F P] (c : BSplineCurve F P)
    (h : c.degree = 0) (hk : 2 ≤ c.knots.length) : c.derivative = .error .overflow := by
  unfold BSplineCurve.derivative
  have e1 : KnotVector.shrink c.knots = .ok ((c.knots.take (c.knots.length - 1)).drop 1) := by
    unfold KnotVector.shrink
    rw [usub_ok (by omega)]
    simp only [ok_bind]
    rw [if_pos (by omega)]
    rfl
  rw [e1]
  simp only [ok_bind]
  rw [C10_spans]
  simp only [ok_bind, h]
  rfl

/-- **C14** is false as stated outside the valid domain: on the unclamped degree-1 curve with knots `0,1,2,3` and
parameter `1/2` (strictly inside the span `[0,1]`, where `get_point` succeeds) evaluating the derivative curve
panics. -/
theorem C14_outside_domain_false :
    let c : BSplineCurve ℚ ℚ := ⟨[5, 7], [0, 1, 2, 3], 1⟩
    c.getPoint (1 / 2) = .ok (5 / 2) ∧
      (do (← c.derivative).getPoint (1 / 2)) = (.error .index : Res ℚ) := by
  decide +kernel

end derivative

example : (⟨[0, 1, 3], [0, 0, 1, 2, 2], 1⟩ : BSplineCurve ℚ ℚ).derivative = .ok ⟨[1, 2], [0, 1, 2], 0⟩ := by
  decide +kernel

/-! ### C13: end interpolation and local convex hull -/

section bspline
variable {K P : Type} [Field K] [LinearOrder K] [IsStrictOrderedRing K] [Env K]
  [AddCommGroup P] [Module K P] [HMul K P P] [HMul P K P] [LawfulPoint K P]

theorem piece_at_start {t : Nat → K} {s : Nat} (hne : t s < t (s + 1)) (k i : Nat) (hk : k ≤ s)
    (heq : ∀ j, s ≤ j + k → j ≤ s → t j = t s) : piece t s k i (t s) = if i + k = s then 1 else 0 := by
  induction k generalizing i with
  | zero => simp [piece]
  | succ k ih =>
    simp only [piece]
    have ih' := fun i => ih i (by omega) (fun j h1 h2 => heq j (by omega) h2)
    rw [ih', ih']
    by_cases h1 : i + k = s
    · rw [if_pos h1, if_neg (by omega), if_neg (by omega), heq i (by omega) (by omega), sub_self]
      simp
    · rw [if_neg h1]
      by_cases h2 : i + 1 + k = s
      · rw [if_pos h2, if_pos (by omega), heq (i + 1) (by omega) (by omega),
          show i + k + 2 = s + 1 by omega, div_self (by intro h0; linarith)]
        simp
      · rw [if_neg h2, if_neg (by omega)]; simp

theorem piece_at_end {t : Nat → K} {s : Nat} (hne : t s < t (s + 1)) (k i : Nat)
    (heq : ∀ j, s < j → j ≤ s + k → t j = t (s + 1)) :
    piece t s k i (t (s + 1)) = if i = s then 1 else 0 := by
  induction k generalizing i with
  | zero => simp [piece]
  | succ k ih =>
    simp only [piece]
    have ih' := fun i => ih i (fun j h1 h2 => heq j h1 (by omega))
    rw [ih', ih']
    by_cases h1 : i = s
    · subst h1
      rw [if_pos rfl, if_neg (by omega), heq (i + k + 1) (by omega) (by omega),
        div_self (by intro h0; linarith)]
      simp
    · rw [if_neg h1]
      by_cases h2 : i + 1 = s
      · rw [if_pos h2, show i + k + 2 = s + k + 1 by omega, heq (s + k + 1) (by omega) (by omega)]
        simp
      · rw [if_neg h2]; simp

/-- **C13**, a curve whose first knot has multiplicity exactly `degree + 1` starts at its first control point. -/
theorem C13_start {c : BSplineCurve K P} (hv : c.Valid)
    (h0 : knot c.knots 0 = knot c.knots c.degree) (h0' : knot c.knots c.degree < knot c.knots (c.degree + 1)) :
    ∃ p rest, c.controlPoints = p :: rest ∧ c.getPoint (knot c.knots 0) = .ok p := by
  have hl := hv.len
  have hN := hv.pts
  obtain ⟨p, rest, hpr⟩ := List.exists_cons_of_length_pos hN
  refine ⟨p, rest, hpr, ?_⟩
  have hc : Contains (knot c.knots) (c.controlPoints.length + c.degree) c.degree (knot c.knots 0) :=
    ⟨by omega, h0', le_of_eq h0.symm, Or.inl (by rw [h0]; exact h0')⟩
  rw [getPoint_of_contains hv hc]
  congr 1
  unfold BSplineCurve.pieceSum
  rw [Finset.sum_eq_single 0]
  · rw [h0, piece_at_start h0' _ _ (le_refl _) (fun j _ h2 => le_antisymm (hv.mono _ _ h2 (by omega))
      (h0 ▸ hv.mono 0 j (by omega) (by omega))), if_pos (by omega), one_smul, hpr]
    rfl
  · intro i _ hi
    rw [h0, piece_at_start h0' _ _ (le_refl _) (fun j _ h2 => le_antisymm (hv.mono _ _ h2 (by omega))
      (h0 ▸ hv.mono 0 j (by omega) (by omega))), if_neg (by omega), zero_smul]
  · intro h; exact absurd (Finset.mem_range.2 hN) h

/-- **C13**, a curve whose last knot has multiplicity exactly `degree + 1` ends at its last control point. -/
theorem C13_end {c : BSplineCurve K P} (hv : c.Valid)
    (h1 : knot c.knots c.controlPoints.length = knot c.knots (c.controlPoints.length + c.degree))
    (h1' : knot c.knots (c.controlPoints.length - 1) < knot c.knots c.controlPoints.length) :
    ∃ p rest, c.controlPoints = rest ++ [p] ∧
      c.getPoint (knot c.knots (c.controlPoints.length + c.degree)) = .ok p := by
  have hl := hv.len
  have hN := hv.pts
  have hne : c.controlPoints ≠ [] := List.length_pos_iff.1 hN
  refine ⟨c.controlPoints.getLast hne, c.controlPoints.dropLast, (List.dropLast_concat_getLast hne).symm, ?_⟩
  obtain ⟨s, hs⟩ : ∃ s, c.controlPoints.length = s + 1 := ⟨c.controlPoints.length - 1, by omega⟩
  rw [hs, Nat.add_sub_cancel] at h1'
  rw [hs] at h1
  have hc : Contains (knot c.knots) (c.controlPoints.length + c.degree) s
      (knot c.knots (s + 1 + c.degree)) :=
    ⟨by omega, h1', le_trans (le_of_lt h1') (le_of_eq h1), Or.inr ⟨by rw [hs], by rw [hs, h1]⟩⟩
  rw [hs, getPoint_of_contains hv hc]
  congr 1
  unfold BSplineCurve.pieceSum
  have e : ∀ i, piece (knot c.knots) s c.degree i (knot c.knots (s + 1 + c.degree)) = if i = s then 1 else 0 := by
    intro i
    rw [← h1]
    apply piece_at_end h1'
    intro j h2 h3
    exact le_antisymm (h1 ▸ hv.mono j (s + 1 + c.degree) (by omega) (by omega))
      (hv.mono (s + 1) j (by omega) (by omega))
  rw [Finset.sum_eq_single s]
  · rw [e, if_pos rfl, one_smul, List.getLast_eq_getElem, cp_getElem]
    congr 1; omega
  · intro i _ hi
    rw [e, if_neg hi, zero_smul]
  · intro h; simp at h; omega

/-- **C13**, local convex hull: for a parameter in span `s` of the valid domain the point is a convex combination of
the `degree + 1` control points `s-degree … s`. -/
theorem C13_hull {c : BSplineCurve K P} (hv : c.Valid) {s : Nat} (hs : c.degree ≤ s)
    (hs' : s < c.controlPoints.length) {u : K} (hne : knot c.knots s < knot c.knots (s + 1))
    (h1 : knot c.knots s ≤ u)
    (h2 : u < knot c.knots (s + 1) ∨ (u = knot c.knots (s + 1) ∧
      knot c.knots (s + 1) = knot c.knots (c.controlPoints.length + c.degree))) :
    ∃ x, c.getPoint u = .ok x ∧
      ConvexComb (K := K) ((c.controlPoints.drop (s - c.degree)).take (c.degree + 1)) x := by
  have hl := hv.len
  have hc : Contains (knot c.knots) (c.controlPoints.length + c.degree) s u := by
    refine ⟨by omega, hne, h1, ?_⟩
    rcases h2 with h | ⟨h, h'⟩
    · exact Or.inl h
    · exact Or.inr ⟨le_of_eq (h'.symm.trans h.symm), h'⟩
  have h2' : u ≤ knot c.knots (s + 1) := by
    rcases h2 with h | ⟨h, _⟩
    · exact le_of_lt h
    · exact le_of_eq h
  have hsp := hc.spanAt hv.mono
  refine ⟨_, getPoint_of_contains hv hc, fun i => piece (knot c.knots) s c.degree (i + (s - c.degree)) u, ?_, ?_, ?_⟩
  · intro i hi
    simp only [List.length_take, List.length_drop] at hi
    exact piece_nonneg hsp h1 h2' _ _ (by omega)
  · have := piece_sum hsp u c.degree c.controlPoints.length hs hs' (by omega)
    rw [show c.controlPoints.length = (s - c.degree) + ((c.degree + 1) + (c.controlPoints.length - s - 1)) by omega,
      Finset.sum_range_add, Finset.sum_range_add, Finset.sum_eq_zero (s := Finset.range (s - c.degree)),
      Finset.sum_eq_zero (s := Finset.range (c.controlPoints.length - s - 1)), add_zero, zero_add] at this
    · rw [← this]
      simp only [List.length_take, List.length_drop]
      rw [show min (c.degree + 1) (c.controlPoints.length - (s - c.degree)) = c.degree + 1 by omega]
      apply Finset.sum_congr rfl
      intro i _; rw [Nat.add_comm]
    · intro i _; exact piece_eq_zero _ _ _ _ _ (Or.inl (by omega))
    · intro i hi; rw [Finset.mem_range] at hi; exact piece_eq_zero _ _ _ _ _ (Or.inr (by omega))
  · unfold BSplineCurve.pieceSum
    rw [show c.controlPoints.length = (s - c.degree) + ((c.degree + 1) + (c.controlPoints.length - s - 1)) by omega,
      Finset.sum_range_add, Finset.sum_range_add, Finset.sum_eq_zero (s := Finset.range (s - c.degree)),
      Finset.sum_eq_zero (s := Finset.range (c.controlPoints.length - s - 1)), add_zero, zero_add]
    · simp only [List.length_take, List.length_drop]
      rw [show min (c.degree + 1) (c.controlPoints.length - (s - c.degree)) = c.degree + 1 by omega]
      apply Finset.sum_congr rfl
      intro i hi
      rw [Finset.mem_range] at hi
      rw [Nat.add_comm (s - c.degree) i]
      congr 1
      unfold cp
      simp only [List.getD_eq_getElem?_getD]
      rw [List.getElem?_take, if_pos hi, List.getElem?_drop, Nat.add_comm]
    · intro i _; rw [piece_eq_zero _ _ _ _ _ (Or.inl (by omega)), zero_smul]
    · intro i hi; rw [Finset.mem_range] at hi; rw [piece_eq_zero _ _ _ _ _ (Or.inr (by omega)), zero_smul]

/-! ### C16: panics of knot insertion -/

end bspline

section lawfree
variable {F P : Type} [Add F] [Sub F] [Mul F] [Div F] [Neg F] [Zero F] [One F] [NatCast F]
  [LT F] [DecidableLT F] [LE F] [DecidableLE F] [Env F] [Add P] [Zero P] [HMul P F P]

theorem forRangeRev_zero_err {σ : Type} {body : σ → Nat → Res σ} (h : ∀ s, ∃ e, body s 0 = .error e) (b : Nat)
    (hb : 0 < b) (s : σ) : ∃ e, forRangeRev 0 b s body = .error e := by
  induction b generalizing s with
  | zero => omega
  | succ b ih =>
    rw [forRangeRev_succ (Nat.zero_le _)]
    cases hx : body s b with
    | error e => exact ⟨e, rfl⟩
    | ok s' =>
      simp only [ok_bind]
      rcases Nat.eq_zero_or_pos b with h0 | h0
      · subst h0
        obtain ⟨e, he⟩ := h s
        rw [he] at hx; cases hx
      · exact ih h0 s'

theorem addKnotBody_zero_err (knots : List F) (p : Nat) (x : F) (cps : List P) :
    ∃ e, addKnotBody knots p x cps 0 = .error e := by
  unfold addKnotBody
  cases idx knots (0 + p + 1) with
  | error e => exact ⟨e, rfl⟩
  | ok hi =>
    simp only [ok_bind]
    cases idx knots 0 with
    | error e => exact ⟨e, rfl⟩
    | ok lo => exact ⟨_, rfl⟩

theorem addKnotBody_ok {knots : List F} {p : Nat} {x : F} {cps : List P} {i : Nat} (h0 : 1 ≤ i)
    (h1 : i < cps.length) (h2 : i + p + 1 < knots.length) :
    ∃ cps', addKnotBody knots p x cps i = .ok cps' ∧ cps'.length = cps.length := by
  unfold addKnotBody
  rw [idx_ok h2, idx_ok (by omega), usub_ok h0]
  simp only [ok_bind]
  rw [idx_ok (by omega), idx_ok h1]
  simp only [ok_bind]
  rw [upd_ok h1]
  exact ⟨_, rfl, by simp⟩

/-- Index at which the knot vector receives the new knot. -/
theorem addKnot_len (knots : List F) (x : F) : (KnotVector.addKnot knots x).1.length = knots.length + 1 ∧
    (KnotVector.addKnot knots x).2 ≤ knots.length := by
  unfold KnotVector.addKnot
  cases hp : rposition (fun t => decide (t ≤ x)) knots with
  | none => exact ⟨by simp, by simp⟩
  | some r =>
    obtain ⟨h1, _⟩ := rposition_some hp
    exact ⟨List.length_insertIdx_of_le_length (by omega) _, by simp only []; omega⟩

/-- **C16**, exact panic condition of `add_knot`, for every number type: on a curve with consistent lengths it panics
if and only if the new knot's index lies between 1 and the degree. -/
theorem C16_addKnot_panics_iff (c : BSplineCurve F P) (x : F)
    (hl : c.knots.length = c.controlPoints.length + c.degree + 1) :
    (∃ e, c.addKnot x = .error e) ↔
      1 ≤ (KnotVector.addKnot c.knots x).2 ∧ (KnotVector.addKnot c.knots x).2 ≤ c.degree := by
  obtain ⟨e1, e2⟩ := addKnot_len c.knots x
  unfold BSplineCurve.addKnot
  simp only []
  generalize KnotVector.addKnot c.knots x = ki at *
  obtain ⟨knots, index⟩ := ki
  simp only at e1 e2 ⊢
  by_cases h0 : index = 0
  · rw [if_pos h0]
    unfold insertAt
    rw [if_pos (Nat.zero_le _)]
    simp only [ok_bind, pure_eq_ok, reduceCtorEq, exists_false, false_iff]
    omega
  · rw [if_neg h0]
    by_cases hp : index ≤ c.degree
    · have : (1 ≤ index ∧ index ≤ c.degree) := ⟨by omega, hp⟩
      simp only [this, and_self, iff_true]
      rw [if_neg (show ¬ c.degree < index by omega)]
      have key : ∀ (cps : List P) (stop : Nat), 0 < stop → ∃ e, (do
          let cps ← forRangeRev 0 stop cps (addKnotBody knots c.degree x)
          (pure { c with controlPoints := cps, knots := knots } : Res (BSplineCurve F P))) = .error e := by
        intro cps stop hs
        obtain ⟨e, he⟩ := forRangeRev_zero_err (body := addKnotBody knots c.degree x)
          (fun s => addKnotBody_zero_err knots c.degree x s) stop hs cps
        rw [he]; exact ⟨e, rfl⟩
      split
      · exact key _ _ (by omega)
      · cases hx : idx c.controlPoints (index - 1) with
        | error e => exact ⟨e, rfl⟩
        | ok y =>
          simp only [ok_bind]
          cases hy : insertAt c.controlPoints (index - 1) y with
          | error e => exact ⟨e, rfl⟩
          | ok cps => exact key _ _ (by omega)
    · have hf : ¬ (1 ≤ index ∧ index ≤ c.degree) := by omega
      simp only [hf, iff_false, not_exists]
      rw [if_pos (show c.degree < index by omega)]
      have key : ∀ (cps : List P) (stop : Nat), cps.length = c.controlPoints.length + 1 → stop ≤ cps.length →
          ∀ e, (do
          let cps ← forRangeRev (index - c.degree) stop cps (addKnotBody knots c.degree x)
          (pure { c with controlPoints := cps, knots := knots } : Res (BSplineCurve F P))) ≠ .error e := by
        intro cps stop hc hs e
        rcases Nat.lt_or_ge stop (index - c.degree) with h | h
        · rw [forRangeRev_nil (by omega)]; simp
        · obtain ⟨s', h1, _⟩ := forRangeRev_inv (a := index - c.degree) (b := stop) (s := cps)
            (body := addKnotBody knots c.degree x) (fun _ s => s.length = c.controlPoints.length + 1) h hc
            (by
              intro i s h1 h2 h3
              obtain ⟨s', h4, h5⟩ := addKnotBody_ok (knots := knots) (p := c.degree) (x := x) (cps := s) (i := i)
                (by omega) (by omega) (by omega)
              exact ⟨s', h4, by omega⟩)
          rw [h1]; simp
      split
      · exact key _ _ (by simp) (by simp)
      · rw [idx_ok (by omega)]
        simp only [ok_bind, insertAt]
        rw [if_pos (by omega)]
        simp only [ok_bind]
        have hli : (c.controlPoints.insertIdx (index - 1) (c.controlPoints[index - 1]'(by omega))).length
            = c.controlPoints.length + 1 := List.length_insertIdx_of_le_length (by omega) _
        exact key _ _ hli (by simp only []; omega)

end lawfree

section bspline
variable {K P : Type} [Field K] [LinearOrder K] [IsStrictOrderedRing K] [Env K]
  [AddCommGroup P] [Module K P] [HMul K P P] [HMul P K P] [LawfulPoint K P]

/-- **C16** is false: `clamp` panics on every valid curve whose first knot has multiplicity at most the degree. -/
theorem C16_clamp_panics {c : BSplineCurve K P} (hv : c.Valid)
    (h : c.knots.count (knot c.knots 0) ≤ c.degree) : ∃ e, c.clamp = .error e := by
  have hl := hv.len
  have hcut := hv.sorted.cutAt (knot c.knots 0)
  have hA : c.knots.filter (fun x => decide (x < knot c.knots 0)) = [] := by
    rw [List.filter_eq_nil_iff]
    intro x hx
    obtain ⟨j, hj, rfl⟩ := List.getElem_of_mem hx
    rw [knot_getElem hj]
    simp only [decide_eq_true_eq, not_lt]
    exact hv.mono _ _ (by omega) (by omega)
  have e0 := hcut.multiplicity hv.resolved (j := 0) (by omega) rfl
  rw [← hcut.count] at e0
  have hcpos : 1 ≤ c.knots.count (knot c.knots 0) := List.one_le_count_iff.2 (knot_mem (by omega))
  unfold BSplineCurve.clamp
  rw [e0]
  simp only [ok_bind]
  rw [forRange_succ_left (by omega), idx_knot (by omega)]
  simp only [ok_bind]
  have hidx : (KnotVector.addKnot c.knots (knot c.knots 0)).2 = c.knots.count (knot c.knots 0) := by
    unfold KnotVector.addKnot
    have := hcut.rposition (by rw [← hcut.count]; omega)
    rw [this]
    simp only []
    rw [hA, ← hcut.count]
    simp; omega
  obtain ⟨e, he⟩ := (C16_addKnot_panics_iff c (knot c.knots 0) hl).2 ⟨by omega, by omega⟩
  rw [he]
  exact ⟨e, rfl⟩

/-- **C16** witnesses: an unclamped degree-1 curve on which inserting the knot `0` of its range and `clamp` panic. -/
theorem C16_false :
    let c : BSplineCurve ℚ (V3 ℚ) := ⟨[⟨1, 2, 3⟩, ⟨4, 5, 6⟩], [0, 1, 2, 3], 1⟩
    (∃ e, c.addKnot (1 / 2) = .error e) ∧ (∃ e, c.clamp = .error e) := by
  refine ⟨⟨.overflow, by decide +kernel⟩, ⟨.overflow, by decide +kernel⟩⟩

/-- **C16**, what does hold: inserting any knot of the valid domain (at or after the knot number `degree`) succeeds.
Missing: knots between the first knot and knot number `degree` of an unclamped curve, where it panics. -/
theorem C16_addKnot_partial {c : BSplineCurve K P} (hv : c.Valid) {x : K} (hx : knot c.knots c.degree ≤ x) :
    ∃ c', c.addKnot x = .ok c' := by
  have hl := hv.len
  cases h : c.addKnot x with
  | ok c' => exact ⟨c', rfl⟩
  | error e =>
    exfalso
    obtain ⟨h1, h2⟩ := (C16_addKnot_panics_iff c x hl).1 ⟨e, h⟩
    obtain ⟨r, hr1, hr2, hr3, hr4⟩ := addKnot_index (by omega)
      (le_trans (hv.mono 0 c.degree (by omega) (by omega)) hx)
    rw [hr2] at h2
    simp only at h2
    exact absurd (lt_of_lt_of_le (hr4 c.degree (by omega) (by omega)) hx) (lt_irrefl _)

/-- **C16**, what does hold: if the first knot has multiplicity at least `degree + 1`, `clamp` succeeds, the last knot
then has multiplicity at least `degree + 1`, and the curve is unchanged.  Missing: curves not clamped at the start,
where it panics (`C16_clamp_panics`). -/
theorem C16_clamp_partial {c : BSplineCurve K P} (hv : c.Valid)
    (h : c.degree + 1 ≤ c.knots.count (knot c.knots 0)) :
    ∃ c', c.clamp = .ok c' ∧ c'.Valid ∧ c'.degree = c.degree ∧
      c.degree + 1 ≤ c'.knots.count (knot c.knots (c.controlPoints.length + c.degree)) ∧
      ∀ u, knot c.knots 0 ≤ u → c'.getPoint u = c.getPoint u := by
  have hl := hv.len
  obtain ⟨tn, htn⟩ : ∃ tn, tn = knot c.knots (c.controlPoints.length + c.degree) := ⟨_, rfl⟩
  rw [← htn]
  have e0 := (hv.sorted.cutAt (knot c.knots 0)).multiplicity hv.resolved (j := 0) (by omega) rfl
  have hcut := hv.sorted.cutAt tn
  have e1 := hcut.multiplicity hv.resolved (j := c.controlPoints.length + c.degree) (by omega) htn.symm
  rw [← (hv.sorted.cutAt _).count] at e0
  obtain ⟨i, hi⟩ : ∃ i, i = (c.knots.filter (fun x => decide (x = tn))).length := ⟨_, rfl⟩
  rw [← hi] at hcut e1
  have hB : c.knots.filter (fun x => decide (tn < x)) = [] := by
    rw [List.filter_eq_nil_iff]
    intro x hx
    obtain ⟨j, hj, rfl⟩ := List.getElem_of_mem hx
    rw [knot_getElem hj]
    simp only [decide_eq_true_eq, not_lt]
    rw [htn]; exact hv.mono _ _ (by omega) (by omega)
  rw [hB] at hcut
  have hmono : knot c.knots c.degree ≤ tn := by rw [htn]; exact hv.mono _ _ (by omega) (by omega)
  have hres : Resolved (tn :: c.knots) := hv.resolved.mono (by
    intro x hx
    rcases List.mem_cons.1 hx with rfl | hx
    · rw [htn]; exact knot_mem (by omega)
    · exact hx)
  have hprefix : c.clamp = forRange i (c.degree + 1) c (fun c' _ => do
      c'.addKnot (← idx c'.knots (c.controlPoints.length + c.degree))) := by
    unfold BSplineCurve.clamp
    rw [e0]
    simp only [ok_bind]
    rw [forRange_nil (by omega)]
    simp only [ok_bind]
    rw [usub_ok (by omega), show c.knots.length - 1 = c.controlPoints.length + c.degree by omega]
    simp only [ok_bind]
    rw [e1]
    rfl
  rcases Nat.lt_or_ge (c.degree + 1) i with hlt | hge
  · refine ⟨c, ?_, hv, rfl, ?_, fun _ _ => rfl⟩
    · rw [hprefix, forRange_nil (by omega)]
    · rw [hcut.count]; omega
  · -- the loop reads the same knot every time
    obtain ⟨c', h1, h2, h3, h4, h5, h6, h7, h8⟩ := addKnots_loop hv hge hcut hmono (le_of_eq htn) hres
    refine ⟨c', ?_, h2, h3, by rw [h4.count], h8⟩
    rw [hprefix, ← h1]
    have hcl := hcut.length
    -- compare the two loops
    have : ∀ m, i ≤ m → m ≤ c.degree + 1 → forRange i m c (fun c' _ => do
        c'.addKnot (← idx c'.knots (c.controlPoints.length + c.degree)))
        = forRange i m c (fun c' _ => c'.addKnot tn) := by
      intro m him hm
      induction m, him using Nat.le_induction with
      | base => rw [forRange_nil (le_refl _), forRange_nil (le_refl _)]
      | succ m hm' ih =>
        rw [forRange_succ_right hm', forRange_succ_right hm', ih (by omega)]
        obtain ⟨c₁, g1, g2, g3, g4, g5, g6, g7, g8⟩ := addKnots_loop hv hm' hcut hmono (le_of_eq htn) hres
        rw [g1]
        simp only [ok_bind]
        have gl := g4.length
        have hipos : 1 ≤ i := by
          have : i ≠ 0 := by
            intro h0
            rw [hi, List.length_eq_zero_iff, List.filter_eq_nil_iff] at h0
            exact h0 tn (by rw [htn]; exact knot_mem (by omega)) (by simp)
          omega
        rw [idx_knot (by simp at gl hcl; omega), g4.knot_eq (by simp at hcl; omega) (by simp at hcl; omega)]
        rfl
    exact this _ hge (le_refl _)

/-- **C66**, first part (law-free): exact panic condition of `add_knot`. -/
theorem C66_addKnot {F P : Type} [Add F] [Sub F] [Mul F] [Div F] [Neg F] [Zero F] [One F] [NatCast F]
    [LT F] [DecidableLT F] [LE F] [DecidableLE F] [Env F] [Add P] [Zero P] [HMul P F P]
    (c : BSplineCurve F P) (x : F) (hl : c.knots.length = c.controlPoints.length + c.degree + 1) :
    (∃ e, c.addKnot x = .error e) ↔
      1 ≤ (KnotVector.addKnot c.knots x).2 ∧ (KnotVector.addKnot c.knots x).2 ≤ c.degree :=
  C16_addKnot_panics_iff c x hl

/-- **C66**, second part: when `clamp` succeeds, and what it then does. -/
theorem C66_clamp {c : BSplineCurve K P} (hv : c.Valid) :
    ((∃ c', c.clamp = .ok c') ↔ c.degree + 1 ≤ c.knots.count (knot c.knots 0)) ∧
      ∀ c', c.clamp = .ok c' → c'.Valid ∧ c'.degree = c.degree ∧
        c.degree + 1 ≤ c'.knots.count (knot c.knots (c.controlPoints.length + c.degree)) ∧
        ∀ u, knot c.knots 0 ≤ u → c'.getPoint u = c.getPoint u := by
  have key : ∀ c', c.clamp = .ok c' → c.degree + 1 ≤ c.knots.count (knot c.knots 0) := by
    intro c' h
    by_contra hc
    obtain ⟨e, he⟩ := C16_clamp_panics hv (by omega)
    rw [he] at h; cases h
  refine ⟨⟨fun ⟨c', h⟩ => key c' h, fun h => ?_⟩, fun c' h => ?_⟩
  · obtain ⟨c', h1, _⟩ := C16_clamp_partial hv h
    exact ⟨c', h1⟩
  · obtain ⟨c'', h1, h2⟩ := C16_clamp_partial hv (key c' h)
    rw [h] at h1; cases h1
    exact h2

example : (⟨[⟨0, 0, 0⟩, ⟨1, 2, 0⟩, ⟨3, 3, 3⟩], [0, 0, 1, 2, 3], 1⟩ : BSplineCurve ℚ (V3 ℚ)).clamp
    = .ok ⟨[⟨0, 0, 0⟩, ⟨1, 2, 0⟩, ⟨3, 3, 3⟩, ⟨0, 0, 0⟩], [0, 0, 1, 2, 3, 3], 1⟩ := by decide +kernel

/-! ### C15: knot insertion preserves the curve -/

/-- **C15.** Whenever inserting a knot of the range does not panic, there is exactly one more knot and one more control
point, and every point at or above the first knot is unchanged. -/
theorem C15_addKnot {c c' : BSplineCurve K P} (hv : c.Valid) {x : K} (hx : knot c.knots 0 ≤ x)
    (hx' : x ≤ knot c.knots (c.controlPoints.length + c.degree)) (hres : Resolved (x :: c.knots))
    (h : c.addKnot x = .ok c') :
    c'.Valid ∧ c'.degree = c.degree ∧ c'.knots.Perm (x :: c.knots) ∧
      c'.controlPoints.length = c.controlPoints.length + 1 ∧
      ∀ u, knot c.knots 0 ≤ u → c'.getPoint u = c.getPoint u := by
  have hl := hv.len
  have hdom : knot c.knots c.degree ≤ x := by
    by_contra hc
    obtain ⟨r, hr1, hr2, hr3, hr4⟩ := addKnot_index (by omega) hx
    have hr : r < c.degree := by
      by_contra hcr
      exact hc (le_trans (hv.mono c.degree r (by omega) (by omega)) hr3)
    obtain ⟨e, he⟩ := (C16_addKnot_panics_iff c x hl).2 ⟨by rw [hr2]; simp only []; omega,
      by rw [hr2]; simp only []; omega⟩
    rw [he] at h; cases h
  obtain ⟨c'', e1, e2, e3, e4, e5, e6, e7⟩ := addKnot_valid hv hdom hx' hres
  rw [h] at e1
  cases e1
  exact ⟨e2, e3, by rw [e4]; exact addKnot_perm _ _, e5, e7⟩

/-- **C15**, sequences of insertions. -/
theorem C15_addKnots {c c' : BSplineCurve K P} (hv : c.Valid) (xs : List K)
    (hx : ∀ x ∈ xs, knot c.knots 0 ≤ x ∧ x ≤ knot c.knots (c.controlPoints.length + c.degree))
    (hres : Resolved (xs ++ c.knots)) (h : xs.foldlM (fun c x => c.addKnot x) c = .ok c') :
    c'.Valid ∧ c'.degree = c.degree ∧ c'.knots.Perm (xs ++ c.knots) ∧
      c'.controlPoints.length = c.controlPoints.length + xs.length ∧
      ∀ u, knot c.knots 0 ≤ u → c'.getPoint u = c.getPoint u := by
  induction xs generalizing c with
  | nil =>
    simp only [List.foldlM_nil, pure_eq_ok, Except.ok.injEq] at h
    subst h
    exact ⟨hv, rfl, List.Perm.refl _, rfl, fun _ _ => rfl⟩
  | cons x xs ih =>
    rw [List.foldlM_cons, bind_eq_ok] at h
    obtain ⟨c₁, h1, h2⟩ := h
    have hxx := hx x (by simp)
    obtain ⟨a1, a2, a3, a4, a5⟩ := C15_addKnot hv hxx.1 hxx.2 (hres.mono (by
      intro y hy
      rcases List.mem_cons.1 hy with rfl | hy
      · simp
      · simp [hy])) h1
    -- the first and last knots are unchanged
    have hl := hv.len
    have hl1 := a1.len
    have hbound : ∀ y ∈ x :: c.knots, knot c.knots 0 ≤ y ∧ y ≤ knot c.knots (c.controlPoints.length + c.degree) := by
      intro y hy
      rcases List.mem_cons.1 hy with rfl | hy
      · exact hxx
      · obtain ⟨j, hj, rfl⟩ := List.getElem_of_mem hy
        rw [knot_getElem hj]
        exact ⟨hv.mono _ _ (by omega) (by omega), hv.mono _ _ (by omega) (by omega)⟩
    have hk0 : knot c₁.knots 0 = knot c.knots 0 := by
      apply le_antisymm
      · have : knot c.knots 0 ∈ c₁.knots := a3.symm.subset (List.mem_cons_of_mem _ (knot_mem (by omega)))
        obtain ⟨j, hj, ej⟩ := List.getElem_of_mem this
        rw [← ej, knot_getElem hj]; exact a1.mono _ _ (by omega) (by omega)
      · exact (hbound _ (a3.subset (knot_mem (by omega)))).1
    have hkn : knot c₁.knots (c₁.controlPoints.length + c₁.degree)
        = knot c.knots (c.controlPoints.length + c.degree) := by
      apply le_antisymm
      · exact (hbound _ (a3.subset (knot_mem (by omega)))).2
      · have : knot c.knots (c.controlPoints.length + c.degree) ∈ c₁.knots :=
          a3.symm.subset (List.mem_cons_of_mem _ (knot_mem (by omega)))
        obtain ⟨j, hj, ej⟩ := List.getElem_of_mem this
        rw [← ej, knot_getElem hj]; exact a1.mono _ _ (by omega) (by omega)
    obtain ⟨b1, b2, b3, b4, b5⟩ := ih a1 (by
      intro y hy; rw [hk0, hkn]; exact hx y (by simp [hy])) (hres.mono (by
      intro y hy
      rcases List.mem_append.1 hy with hy | hy
      · simp [hy]
      · have := a3.subset hy
        rcases List.mem_cons.1 this with rfl | hy
        · simp
        · simp [hy])) h2
    refine ⟨b1, by rw [b2, a2], ?_, by rw [b4, a4]; simp; omega, ?_⟩
    · refine b3.trans ((a3.append_left xs).trans ?_)
      rw [List.cons_append]
      exact List.perm_middle
    · intro u hu
      rw [b5 u (by rw [hk0]; exact hu), a5 u hu]

/-- **C15**, knots below the range are inserted with a zero control point in front and leave the curve on the old range
unchanged as well. -/
theorem C15_addKnot_below {c : BSplineCurve K P} (hv : c.Valid) {x : K} (hx : x < knot c.knots 0)
    (hres : Resolved (x :: c.knots)) :
    ∃ c', c.addKnot x = .ok c' ∧ c'.Valid ∧ c'.knots = x :: c.knots ∧ c'.controlPoints = 0 :: c.controlPoints ∧
      ∀ u, knot c.knots 0 ≤ u → c'.getPoint u = c.getPoint u := by
  have hl := hv.len
  have hnone : rposition (fun t => decide (t ≤ x)) c.knots = none := by
    apply rposition_eq_none
    intro j hj
    rw [knot_getElem hj, decide_eq_false_iff_not, not_le]
    exact lt_of_lt_of_le hx (hv.mono _ _ (by omega) (by omega))
  have e : c.addKnot x = .ok ⟨0 :: c.controlPoints, x :: c.knots, c.degree⟩ := by
    unfold BSplineCurve.addKnot KnotVector.addKnot
    rw [hnone]
    simp [insertAt]
  have hks : ∀ j, knot (x :: c.knots) (j + 1) = knot c.knots j := fun j => by simp [knot]
  have hv' : (⟨0 :: c.controlPoints, x :: c.knots, c.degree⟩ : BSplineCurve K P).Valid := by
    refine ⟨by simp; omega, ?_, hres, ?_, by simp⟩
    · apply List.pairwise_cons.2
      refine ⟨?_, hv.sorted⟩
      intro y hy
      obtain ⟨j, hj, rfl⟩ := List.getElem_of_mem hy
      rw [knot_getElem hj]
      exact le_of_lt (lt_of_lt_of_le hx (hv.mono _ _ (by omega) (by omega)))
    · simp only [List.length_cons]
      rw [show c.controlPoints.length + 1 + c.degree = c.controlPoints.length + c.degree + 1 by omega, hks]
      exact lt_trans (by simpa [knot] using hx) hv.nonconst
  refine ⟨_, e, hv', rfl, rfl, ?_⟩
  intro u hu
  obtain ⟨s, hs1, hs2⟩ := getPoint_eq hv hu
  have hc : Contains (knot (x :: c.knots)) ((0 :: c.controlPoints).length + c.degree) (s + 1) u := by
    have hlt := hs1.lt
    refine ⟨by simp; omega, ?_, ?_, ?_⟩
    · rw [hks, hks]; exact hs1.nonempty
    · rw [hks]; exact hs1.left
    · simp only [List.length_cons]
      rw [show c.controlPoints.length + 1 + c.degree = c.controlPoints.length + c.degree + 1 by omega, hks, hks]
      exact hs1.right
  rw [getPoint_of_contains hv' hc, hs2]
  congr 1
  unfold BSplineCurve.pieceSum
  simp only [List.length_cons]
  rw [Finset.sum_range_succ']
  have e0 : cp ((0 : P) :: c.controlPoints) 0 = 0 := rfl
  rw [e0, smul_zero, add_zero]
  apply Finset.sum_congr rfl
  intro i _
  rw [← piece_shift (knot (x :: c.knots)) s 1]
  congr 1

example : (⟨[⟨0, 0, 0⟩, ⟨1, 2, 0⟩, ⟨3, 3, 3⟩], [0, 0, 0, 2, 2, 2], 2⟩ : BSplineCurve ℚ (V3 ℚ)).addKnot 1
    = .ok ⟨[⟨0, 0, 0⟩, ⟨1 / 2, 1, 0⟩, ⟨2, 5 / 2, 3 / 2⟩, ⟨3, 3, 3⟩], [0, 0, 0, 1, 2, 2, 2], 2⟩ := by decide +kernel

theorem valid_rat {P : Type} {cps : List P} {knots : List ℚ} {p : Nat} (h1 : knots.length = cps.length + p + 1)
    (h2 : Sorted knots) (h3 : knot knots 0 < knot knots (cps.length + p)) (h4 : 0 < cps.length) :
    (⟨cps, knots, p⟩ : BSplineCurve ℚ P).Valid := ⟨h1, h2, resolved_rat _, h3, h4⟩

/-- Non-vacuity of the validity hypothesis used throughout. -/
example : (⟨[⟨0, 0, 0⟩, ⟨1, 2, 0⟩, ⟨3, 3, 3⟩, ⟨4, 0, 0⟩], [0, 0, 0, 1, 2, 2, 2], 2⟩ :
    BSplineCurve ℚ (V3 ℚ)).Valid :=
  valid_rat rfl (by unfold Sorted; decide +kernel) (by decide +kernel) (by decide)

/-! ### C17: split -/

/-- **C17.** For a parameter of the valid domain below the last knot, `split` cuts at `t'`, which is `t` itself or, if
the nearest knot to the left is within the tolerance, that knot.  The right piece is a valid curve starting with
`degree + 1` copies of `t'` and agreeing with the curve from `t'` on; if `t'` is above the first knot, the left piece is
a valid curve ending with at least `degree + 1` copies of `t'` that agrees with the curve below `t'`.  The knots of the
pieces are exactly the original knots below resp. above `t'`. -/
theorem C17_split {c : BSplineCurve K P} (hv : c.Valid) (htol : (0 : K) ≤ Env.tol) {t : K}
    (ht : knot c.knots c.degree ≤ t) (ht' : t < knot c.knots (c.controlPoints.length + c.degree))
    (hres : Resolved (t :: c.knots)) :
    ∃ (t' : K) (L R : BSplineCurve K P) (m : Nat), c.split t = .ok (L, R) ∧
      ((t' = t ∧ ∀ x ∈ c.knots, x ≤ t → Env.tol < t - x) ∨
        (t' ∈ c.knots ∧ t' ≤ t ∧ t - t' ≤ Env.tol ∧ ∀ x ∈ c.knots, x ≤ t → x ≤ t')) ∧
      L.degree = c.degree ∧ R.degree = c.degree ∧ c.degree + 1 ≤ m ∧
      L.knots = c.knots.filter (fun x => decide (x < t')) ++ List.replicate m t' ∧
      R.knots = List.replicate (c.degree + 1) t' ++ c.knots.filter (fun x => decide (t' < x)) ∧
      R.Valid ∧ (∀ u, t' ≤ u → R.getPoint u = c.getPoint u) ∧
      (knot c.knots 0 < t' → L.Valid ∧ ∀ u, knot c.knots 0 ≤ u → u < t' → L.getPoint u = c.getPoint u) := by
  obtain ⟨t', A, B, i, L, R, g1, g2, g3, g4, g5, g6, g7, g8, g9, g10, g11, g12⟩ := split_spec hv htol ht ht' hres
  obtain ⟨rfl, _, rfl⟩ := g3.unique (hv.sorted.cutAt t')
  refine ⟨t', L, R, _, g1, g2, g5, g6, le_max_right i _, g7, g8, g10, g11, ?_⟩
  intro h0
  apply g12
  apply List.ne_nil_of_mem (a := knot c.knots 0)
  rw [List.mem_filter]
  exact ⟨knot_mem (by have := hv.len; omega), by simpa using h0⟩

/-- **C17**, knot counts of both pieces match their control points. -/
theorem C17_split_counts {c : BSplineCurve K P} (hv : c.Valid) (htol : (0 : K) ≤ Env.tol) {t : K}
    (ht : knot c.knots c.degree ≤ t) (ht' : t < knot c.knots (c.controlPoints.length + c.degree))
    (hres : Resolved (t :: c.knots)) :
    ∃ L R, c.split t = .ok (L, R) ∧ L.knots.length = L.controlPoints.length + L.degree + 1 ∧
      R.knots.length = R.controlPoints.length + R.degree + 1 := by
  obtain ⟨t', A, B, i, L, R, g1, g2, g3, g4, g5, g6, g7, g8, g9, g10, g11, g12⟩ := split_spec hv htol ht ht' hres
  exact ⟨L, R, g1, by rw [g9, g5], g10.len⟩

example : (⟨[⟨0, 0, 0⟩, ⟨1, 2, 0⟩, ⟨3, 3, 3⟩], [0, 0, 0, 2, 2, 2], 2⟩ : BSplineCurve ℚ (V3 ℚ)).split 1
    = .ok (⟨[⟨0, 0, 0⟩, ⟨1 / 2, 1, 0⟩, ⟨5 / 4, 7 / 4, 3 / 4⟩], [0, 0, 0, 1, 1, 1], 2⟩,
        ⟨[⟨5 / 4, 7 / 4, 3 / 4⟩, ⟨2, 5 / 2, 3 / 2⟩, ⟨3, 3, 3⟩], [1, 1, 1, 2, 2, 2], 2⟩) := by decide +kernel

/-- **C17**, the last knot is not an interior parameter, and there `split` goes wrong: the left piece has no
control points at all, the right piece is the whole curve padded with zero control points. -/
theorem C17_split_at_last_knot :
    (⟨[⟨1, 0, 0⟩, ⟨1, 2, 0⟩, ⟨3, 3, 3⟩], [0, 0, 0, 2, 2, 2], 2⟩ : BSplineCurve ℚ (V3 ℚ)).split 2
    = .ok (⟨[], [0, 0, 0], 2⟩, ⟨[⟨1, 0, 0⟩, ⟨1, 2, 0⟩, ⟨3, 3, 3⟩, ⟨0, 0, 0⟩, ⟨0, 0, 0⟩, ⟨0, 0, 0⟩],
        [0, 0, 0, 2, 2, 2, 2, 2, 2], 2⟩) := by decide +kernel

/-! ### C18: to_piecewise_bezier -/

/-- **C18.** For a valid curve whose distinct knots are `ds` (in increasing order, further apart than the tolerance),
with the end knots of multiplicity `degree + 1` and inner ones of at most `degree + 1`, `to_piecewise_bezier` returns
`len(ds) - 1` Bézier curves of `degree + 1` control points, the `k`-th of which reproduces the curve on
`[ds[k], ds[k+1])` (the last one also at and beyond the last knot). -/
theorem C18_toPiecewiseBezier {c : BSplineCurve K P} (hv : c.Valid) (htol : (0 : K) ≤ Env.tol)
    (hsep : ∀ a ∈ c.knots, ∀ b ∈ c.knots, a < b → Env.tol < b - a) {ds : List K} (hds : ds.Pairwise (· < ·))
    (hmem : ∀ x, x ∈ ds ↔ x ∈ c.knots) (hmult : ∀ x ∈ c.knots, c.knots.count x ≤ c.degree + 1)
    (h0 : c.knots.count (knot ds 0) = c.degree + 1)
    (h1 : c.knots.count (knot ds (ds.length - 1)) = c.degree + 1) :
    ∃ bs, c.toPiecewiseBezier = .ok bs ∧ bs.length = ds.length - 1 ∧
      ∀ k b, bs[k]? = some b → b.controlPoints.length = c.degree + 1 ∧
        ∀ u, knot ds k ≤ u → (u < knot ds (k + 1) ∨ k + 2 = ds.length) →
          b.getPoint ((u - knot ds k) / (knot ds (k + 1) - knot ds k)) = c.getPoint u := by
  obtain ⟨bs, b1, b2, b3, -⟩ := toPiecewiseBezier_spec hv htol hsep hds hmem hmult h0 h1
  exact ⟨bs, b1, b2, b3⟩

end bspline

/-- Non-vacuity: a quadratic with an inner knot splits into two Bézier pieces. -/
example : (⟨[⟨0, 0, 0⟩, ⟨1, 2, 0⟩, ⟨3, 3, 3⟩, ⟨4, 0, 0⟩], [0, 0, 0, 1, 2, 2, 2], 2⟩ :
      BSplineCurve ℚ (V3 ℚ)).toPiecewiseBezier
    = .ok [⟨[⟨0, 0, 0⟩, ⟨1, 2, 0⟩, ⟨2, 5 / 2, 3 / 2⟩]⟩, ⟨[⟨2, 5 / 2, 3 / 2⟩, ⟨3, 3, 3⟩, ⟨4, 0, 0⟩]⟩] := by
  decide +kernel

example : ∃ bs, (⟨[⟨0, 0, 0⟩, ⟨1, 2, 0⟩, ⟨3, 3, 3⟩, ⟨4, 0, 0⟩], [0, 0, 0, 1, 2, 2, 2], 2⟩ :
      BSplineCurve ℚ (V3 ℚ)).toPiecewiseBezier = .ok bs ∧ bs.length = 2 := by
  obtain ⟨bs, h1, h2, _⟩ := C18_toPiecewiseBezier (K := ℚ) (P := V3 ℚ)
    (c := ⟨[⟨0, 0, 0⟩, ⟨1, 2, 0⟩, ⟨3, 3, 3⟩, ⟨4, 0, 0⟩], [0, 0, 0, 1, 2, 2, 2], 2⟩)
    (valid_rat rfl (by unfold Sorted; decide +kernel) (by decide +kernel) (by decide)) (by decide +kernel)
    (by decide +kernel) (ds := [0, 1, 2]) (by decide +kernel) (by intro x; simp) (by decide +kernel)
    (by decide +kernel) (by decide +kernel)
  exact ⟨bs, h1, h2⟩

end Geom3d
