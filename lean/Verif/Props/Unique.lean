import Verif.Props.Curves
import Verif.Props.SurfaceDeriv
import Verif.Props.UniformClamped
import Mathlib.Algebra.Polynomial.Roots
import Mathlib.LinearAlgebra.Dual.Lemmas

/-! # C156: the points of a curve or surface determine its control points -/

set_option linter.unusedSectionVars false

namespace Geom3d
open Spec

namespace Unique

/-- The polynomials of one span are linearly independent. -/
theorem pieces_indep {t : Nat → ℝ} (k : Nat) {N s : Nat} (hm : ∀ i j, i ≤ j → j ≤ N + k → t i ≤ t j) (hs1 : k ≤ s) (hs2 : s < N)
    (hne : t s < t (s + 1)) {g : Nat → ℝ}
    (h : ∀ u, t s < u → u < t (s + 1) → ∑ i ∈ Finset.range N, piece t s k i u * g i = 0) :
    ∀ i, i ≤ s → s ≤ i + k → g i = 0 := by
  induction k generalizing g with
  | zero =>
    intro i h1 h2
    obtain rfl : i = s := by omega
    have := h ((t i + t (i + 1)) / 2) (by linarith) (by linarith)
    simpa [piece, hs2] using this
  | succ k ih =>
    -- the derivative vanishes
    have hd : ∀ u, t s < u → u < t (s + 1) → ∑ i ∈ Finset.range (N - 1), piece t s k (i + 1) u
        * (((k + 1 : Nat) : ℝ) / (t (i + k + 2) - t (i + 1)) * (g (i + 1) - g i)) = 0 := by
      intro u h1 h2
      have d1 := pieceSum_hasDerivAt (N := N) (k := k) hm s hs1 hs2 g u
      have d2 : HasDerivAt (fun u => ∑ i ∈ Finset.range N, piece t s (k + 1) i u * g i) 0 u := by
        refine (hasDerivAt_const u (0 : ℝ)).congr_of_eventuallyEq ?_
        filter_upwards [Ioo_mem_nhds h1 h2] with x hx
        exact h x hx.1 hx.2
      exact d1.unique d2
    have hdiff := ih (g := fun j => if j = 0 then 0 else ((k + 1 : Nat) : ℝ) / (t (j + k + 1) - t j) * (g j - g (j - 1)))
      (fun i j hij hj => hm i j hij (by omega)) (by omega) (by
        intro u h1 h2
        obtain ⟨M, rfl⟩ : ∃ M, N = M + 1 := ⟨N - 1, by omega⟩
        rw [Finset.sum_range_succ']
        simp only [if_true, mul_zero, add_zero, Nat.succ_ne_zero, if_false, Nat.add_sub_cancel]
        have := hd u h1 h2
        rw [Nat.add_sub_cancel] at this
        rw [← this]
        apply Finset.sum_congr rfl
        intro i _
        rw [show i + 1 + k + 1 = i + k + 2 by omega])
    have hstep : ∀ j, 1 ≤ j → j ≤ s → s ≤ j + k → g j = g (j - 1) := by
      intro j h0 h1 h2
      have := hdiff j h1 h2
      rw [if_neg (by omega)] at this
      have hpos : t j < t (j + k + 1) := by
        have a := hm j s h1 (by omega)
        have b := hm (s + 1) (j + k + 1) (by omega) (by omega)
        linarith
      have hk : ((k + 1 : Nat) : ℝ) / (t (j + k + 1) - t j) ≠ 0 :=
        div_ne_zero (by exact_mod_cast Nat.succ_ne_zero k) (sub_ne_zero.2 hpos.ne')
      rcases mul_eq_zero.1 this with h | h
      · exact absurd h hk
      · linarith
    have hconst : ∀ m, m ≤ k + 1 → g (s - m) = g s := by
      intro m
      induction m with
      | zero => intro _; rfl
      | succ m ihm =>
        intro hmk
        rw [← ihm (by omega), hstep (s - m) (by omega) (by omega) (by omega)]
        congr 1
    have hz : g s = 0 := by
      have hsp : SpanAt t (N + (k + 1)) s := ⟨hm, by omega, hne⟩
      have e1 := piece_sum hsp ((t s + t (s + 1)) / 2) (k + 1) N hs1 hs2 (by omega)
      have e2 := h ((t s + t (s + 1)) / 2) (by linarith) (by linarith)
      have e3 : ∑ i ∈ Finset.range N, piece t s (k + 1) i ((t s + t (s + 1)) / 2) * g i =
          ∑ i ∈ Finset.range N, piece t s (k + 1) i ((t s + t (s + 1)) / 2) * g s := by
        apply Finset.sum_congr rfl
        intro i _
        by_cases hi : s < i ∨ i + (k + 1) < s
        · rw [piece_eq_zero _ _ _ _ _ hi, zero_mul, zero_mul]
        · have := hconst (s - i) (by omega)
          rw [show s - (s - i) = i by omega] at this
          rw [this]
      rw [e3, ← Finset.sum_mul, e1, one_mul] at e2
      exact e2
    intro i h1 h2
    have := hconst (s - i) (by omega)
    rw [show s - (s - i) = i by omega] at this
    rw [this, hz]

/-- So are the Bernstein polynomials. -/
theorem bern_indep {K : Type} [Field K] (n : Nat) {a : Nat → K}
    (h : ∑ i ∈ Finset.range (n + 1), Polynomial.C (a i) * Polynomial.X ^ i * (1 - Polynomial.X) ^ (n - i) = 0) :
    ∀ i, i ≤ n → a i = 0 := by
  induction n generalizing a with
  | zero =>
    intro i hi
    obtain rfl : i = 0 := by omega
    simpa using h
  | succ n ih =>
    have e0 : a 0 = 0 := by
      have := congrArg (Polynomial.eval 0) h
      rw [Polynomial.eval_finsetSum, Finset.sum_range_succ'] at this
      simpa using this
    rw [Finset.sum_range_succ', e0] at h
    have hx : (Polynomial.X : Polynomial K) * ∑ i ∈ Finset.range (n + 1), Polynomial.C (a (i + 1)) * Polynomial.X ^ i *
        (1 - Polynomial.X) ^ (n - i) = 0 := by
      rw [Finset.mul_sum, ← h]
      simp only [map_zero, zero_mul, add_zero]
      apply Finset.sum_congr rfl
      intro i _
      rw [show n + 1 - (i + 1) = n - i by omega]
      ring
    have := ih ((mul_eq_zero.1 hx).resolve_left Polynomial.X_ne_zero)
    intro i hi
    cases i with
    | zero => exact e0
    | succ i => exact this i (by omega)

end Unique

/-- Every control point counts somewhere on the domain between the knots `p` and `N`. -/
def Spec.Counts (knots : List ℝ) (N p : Nat) : Prop :=
  ∀ i, i < N → ∃ s, p ≤ s ∧ s < N ∧ i ≤ s ∧ s ≤ i + p ∧ knot knots s < knot knots (s + 1)

section
variable {P : Type} [AddCommGroup P] [Module ℝ P] [HMul ℝ P P] [HMul P ℝ P] [LawfulPoint ℝ P]

/-- Between two neighbouring knots there is no knot. -/
theorem Unique.not_knot {knots : List ℝ} (hs : Sorted knots) {s : Nat} {u : ℝ} (h1 : knot knots s < u)
    (h2 : u < knot knots (s + 1)) (hl : s + 1 < knots.length) : u ∉ knots := by
  intro hu
  obtain ⟨j, hj, e⟩ := List.getElem_of_mem hu
  rw [knot_getElem] at e
  rcases Nat.lt_or_ge s j with h | h
  · have := hs.knot_le (i := s + 1) (j := j) (by omega) hj
    rw [e] at this
    linarith
  · have := hs.knot_le (i := j) (j := s) h (by omega)
    rw [e] at this
    linarith

/-- **C156** Two B-spline curves with the same degree and knots that agree on the domain, except perhaps at the knots, have the
same control points. -/
theorem C156_off_knots {c c' : BSplineCurve ℝ P} (hv : c.Valid) (hv' : c'.Valid) (hd : c'.degree = c.degree)
    (hk : c'.knots = c.knots) (hc : Counts c.knots c.controlPoints.length c.degree)
    (h : ∀ u, knot c.knots c.degree ≤ u → u < knot c.knots c.controlPoints.length → u ∉ c.knots →
      c'.getPoint u = c.getPoint u) : c' = c := by
  have hN : c'.controlPoints.length = c.controlPoints.length := by
    have h1 := hv.len
    have h2 := hv'.len
    rw [hk, hd] at h2
    omega
  have hpts : c'.controlPoints = c.controlPoints := by
    refine List.ext_getElem hN fun i hi hi' => ?_
    rw [cp_getElem, cp_getElem, ← sub_eq_zero, ← Module.forall_dual_apply_eq_zero_iff ℝ]
    intro f
    rw [map_sub]
    obtain ⟨s, s1, s2, s3, s4, s5⟩ := hc i hi'
    refine Unique.pieces_indep c.degree (N := c.controlPoints.length) hv.mono s1 s2 s5
      (g := fun i => f (cp c'.controlPoints i) - f (cp c.controlPoints i)) ?_ i s3 s4
    intro u h1 h2
    have hcon : Contains (knot c.knots) (c.controlPoints.length + c.degree) s u :=
      ⟨by omega, s5, h1.le, Or.inl h2⟩
    have e1 := getPoint_of_contains hv hcon
    have e2 := getPoint_of_contains hv' (s := s) (u := u) (by rw [hk, hN, hd]; exact hcon)
    have e3 := h u ((hv.mono _ _ s1 (by omega)).trans h1.le)
      (h2.trans_le (hv.mono _ _ (by omega) (by omega))) (Unique.not_knot hv.sorted h1 h2 (by have := hv.len; omega))
    rw [e1, e2, Except.ok.injEq] at e3
    have e4 := congrArg f e3
    unfold BSplineCurve.pieceSum at e4
    rw [map_sum, map_sum, hN, ← sub_eq_zero, ← Finset.sum_sub_distrib] at e4
    rw [← e4]
    apply Finset.sum_congr rfl
    intro j _
    rw [map_smul, map_smul, hk, hd, smul_eq_mul, smul_eq_mul]
    ring
  cases c; cases c'
  simp only at hpts hk hd
  subst hpts hk hd
  rfl

/-- **C156** Two B-spline curves with the same degree and knots that agree on the domain have the same control points. -/
theorem C156_bspline {c c' : BSplineCurve ℝ P} (hv : c.Valid) (hv' : c'.Valid) (hd : c'.degree = c.degree)
    (hk : c'.knots = c.knots) (hc : Counts c.knots c.controlPoints.length c.degree)
    (h : ∀ u, knot c.knots c.degree ≤ u → u < knot c.knots c.controlPoints.length → c'.getPoint u = c.getPoint u) : c' = c :=
  C156_off_knots hv hv' hd hk hc fun u h1 h2 _ => h u h1 h2

/-- Clamped knots no value of which occurs more than `p + 1` times. -/
theorem counts_of_clamped {knots : List ℝ} {N p : Nat} (hlen : knots.length = N + p + 1) (hs : Sorted knots)
    (h0 : knot knots 0 = knot knots p) (h1 : knot knots N = knot knots (N + p))
    (hmult : ∀ x, knots.count x ≤ p + 1) : Counts knots N p := by
  have hm : ∀ i j, i ≤ j → j ≤ N + p → knot knots i ≤ knot knots j := fun i j hij hj => hs.knot_le hij (by omega)
  intro i hi
  have hlt : knot knots i < knot knots (i + p + 1) := by
    refine lt_of_le_of_ne (hm _ _ (by omega) (by omega)) fun e => ?_
    have hsub : ((knots.drop i).take (p + 2)).Sublist knots := (List.take_sublist _ _).trans (List.drop_sublist _ _)
    have hall : (knots.drop i).take (p + 2) = List.replicate (p + 2) (knot knots i) := by
      rw [List.eq_replicate_iff]
      refine ⟨by simp; omega, fun x hx => ?_⟩
      obtain ⟨j, hj, rfl⟩ := List.getElem_of_mem hx
      simp only [List.length_take, List.length_drop] at hj
      rw [List.getElem_take, List.getElem_drop, knot_getElem]
      refine le_antisymm ?_ (hm _ _ (by omega) (by omega))
      rw [e]
      exact hm _ _ (by omega) (by omega)
    have c1 := hsub.count_le (knot knots i)
    rw [hall, List.count_replicate_self] at c1
    have := hmult (knot knots i)
    omega
  -- a rise between the two
  have : ∃ s, i ≤ s ∧ s ≤ i + p ∧ knot knots s < knot knots (s + 1) := by
    by_contra hcon
    push Not at hcon
    have : ∀ m, m ≤ p + 1 → knot knots (i + m) ≤ knot knots i := by
      intro m
      induction m with
      | zero => intro _; exact le_refl _
      | succ m ih => intro hmp; exact (hcon (i + m) (by omega) (by omega)).trans (ih (by omega))
    have := this (p + 1) (le_refl _)
    rw [show i + (p + 1) = i + p + 1 by omega] at this
    linarith
  obtain ⟨s, s1, s2, s3⟩ := this
  refine ⟨s, ?_, ?_, s1, s2, s3⟩
  · by_contra hps
    have := hm (s + 1) p (by omega) (by omega)
    have := hm 0 s (by omega) (by omega)
    linarith
  · by_contra hsN
    have := hm N s (by omega) (by omega)
    have := hm (s + 1) (N + p) (by omega) (by omega)
    linarith

/-- Knots inserted between the ends of a clamped knot vector leave the ends as they are. -/
theorem Unique.ends_stay {l l' xs : List ℝ} {N M p : Nat} (hl : l.length = N + p + 1) (hl' : l'.length = M + p + 1)
    (hs : Sorted l) (hs' : Sorted l') (hp : l'.Perm (xs ++ l)) (hx : ∀ x ∈ xs, knot l 0 ≤ x ∧ x ≤ knot l (N + p))
    (h0 : knot l 0 = knot l p) (h1 : knot l N = knot l (N + p)) :
    knot l' 0 = knot l 0 ∧ knot l' p = knot l 0 ∧ knot l' M = knot l (N + p) ∧ knot l' (M + p) = knot l (N + p) := by
  have hm : ∀ i j, i ≤ j → j ≤ N + p → knot l i ≤ knot l j := fun i j hij hj => hs.knot_le hij (by omega)
  have hm' : ∀ i j, i ≤ j → j ≤ M + p → knot l' i ≤ knot l' j := fun i j hij hj => hs'.knot_le hij (by omega)
  have hmem : ∀ j, j ≤ M + p → knot l 0 ≤ knot l' j ∧ knot l' j ≤ knot l (N + p) := by
    intro j hj
    have hy : knot l' j ∈ l' := by rw [← knot_getElem (knots := l') (by omega)]; exact List.getElem_mem _
    rcases List.mem_append.1 (hp.mem_iff.1 hy) with h | h
    · exact hx _ h
    · obtain ⟨i, hi, he⟩ := List.getElem_of_mem h
      rw [← he, knot_getElem]
      exact ⟨hm _ _ (by omega) (by omega), hm _ _ (by omega) (by omega)⟩
  have cnt : ∀ y, l.count y ≤ l'.count y := by
    intro y
    rw [hp.count_eq, List.count_append]
    omega
  have c0 : p + 1 ≤ l.count (knot l 0) := by
    have hall : l.take (p + 1) = List.replicate (p + 1) (knot l 0) := by
      rw [List.eq_replicate_iff]
      refine ⟨by simp; omega, fun x hx => ?_⟩
      obtain ⟨j, hj, rfl⟩ := List.getElem_of_mem hx
      simp only [List.length_take] at hj
      rw [List.getElem_take, knot_getElem]
      refine le_antisymm ?_ (hm _ _ (by omega) (by omega))
      rw [h0]
      exact hm _ _ (by omega) (by omega)
    have := (List.take_sublist (p + 1) l).count_le (knot l 0)
    rw [hall, List.count_replicate_self] at this
    exact this
  have c1 : p + 1 ≤ l.count (knot l (N + p)) := by
    have hall : l.drop N = List.replicate (p + 1) (knot l (N + p)) := by
      rw [List.eq_replicate_iff]
      refine ⟨by simp; omega, fun x hx => ?_⟩
      obtain ⟨j, hj, rfl⟩ := List.getElem_of_mem hx
      simp only [List.length_drop] at hj
      rw [List.getElem_drop, knot_getElem]
      refine le_antisymm (hm _ _ (by omega) (by omega)) ?_
      rw [← h1]
      exact hm _ _ (by omega) (by omega)
    have := (List.drop_sublist N l).count_le (knot l (N + p))
    rw [hall, List.count_replicate_self] at this
    exact this
  have e1 : knot l' p ≤ knot l 0 := by
    by_contra hlt
    rw [not_le] at hlt
    have hz : l'.count (knot l 0) ≤ p := by
      rw [← List.take_append_drop p l', List.count_append]
      have z : (l'.drop p).count (knot l 0) = 0 := by
        rw [List.count_eq_zero]
        intro hmem'
        obtain ⟨j, hj, he⟩ := List.getElem_of_mem hmem'
        simp only [List.length_drop] at hj
        rw [List.getElem_drop, knot_getElem] at he
        have a := hm' p (p + j) (by omega) (by omega)
        rw [he] at a
        linarith
      rw [z, add_zero]
      exact (List.count_le_length).trans (by simp)
    have := cnt (knot l 0)
    omega
  have e2 : knot l (N + p) ≤ knot l' M := by
    by_contra hlt
    rw [not_le] at hlt
    have hz : l'.count (knot l (N + p)) ≤ p := by
      rw [← List.take_append_drop (M + 1) l', List.count_append]
      have z : (l'.take (M + 1)).count (knot l (N + p)) = 0 := by
        rw [List.count_eq_zero]
        intro hmem'
        obtain ⟨j, hj, he⟩ := List.getElem_of_mem hmem'
        simp only [List.length_take] at hj
        rw [List.getElem_take, knot_getElem] at he
        have a := hm' j M (by omega) (by omega)
        rw [he] at a
        linarith
      rw [z, zero_add]
      refine (List.count_le_length).trans ?_
      simp only [List.length_drop]
      omega
    have := cnt (knot l (N + p))
    omega
  have a0 := hmem 0 (by omega)
  have a1 := hmem p (by omega)
  have a2 := hmem M (by omega)
  have a3 := hmem (M + p) (by omega)
  have b0 := hm' 0 p (by omega) (by omega)
  have b1 := hm' M (M + p) (by omega) (by omega)
  exact ⟨by linarith, by linarith, by linarith, by linarith⟩

/-- Knots between the ends can be inserted one after the other. -/
theorem Unique.insertions_total {c : BSplineCurve ℝ P} (hv : c.Valid) (h0 : knot c.knots 0 = knot c.knots c.degree)
    (h1 : knot c.knots c.controlPoints.length = knot c.knots (c.controlPoints.length + c.degree)) (xs : List ℝ)
    (hx : ∀ x ∈ xs, knot c.knots 0 ≤ x ∧ x ≤ knot c.knots (c.controlPoints.length + c.degree)) :
    ∃ c', xs.foldlM (fun c x => c.addKnot x) c = .ok c' := by
  induction xs generalizing c with
  | nil => exact ⟨c, rfl⟩
  | cons x xs ih =>
    obtain ⟨g1, g2⟩ := hx x (by simp)
    obtain ⟨d, hd⟩ := C16_addKnot_partial hv (x := x) (by rw [← h0]; exact g1)
    obtain ⟨v, e1, e2, e3, -⟩ := C15_addKnot hv g1 g2 (resolved_real _) hd
    obtain ⟨k1, k2, k3, k4⟩ := Unique.ends_stay (xs := [x]) (M := d.controlPoints.length) hv.len (by rw [v.len, e1]) hv.sorted
      v.sorted e2 (by simpa using ⟨g1, g2⟩) h0 h1
    rw [List.foldlM_cons, hd, ok_bind]
    refine ih v (by rw [k1, e1, k2]) (by rw [k3, e1, k4]) fun y hy => ?_
    rw [k1, e1, k4]
    exact hx y (by simp [hy])

/-- **C156** Knots inserted in another order give the same curve, control point by control point. -/
theorem C156_insertions {c : BSplineCurve ℝ P} (hv : c.Valid) (h0 : knot c.knots 0 = knot c.knots c.degree)
    (h1 : knot c.knots c.controlPoints.length = knot c.knots (c.controlPoints.length + c.degree)) {xs ys : List ℝ}
    (hp : xs.Perm ys)
    (hx : ∀ x ∈ xs, knot c.knots 0 ≤ x ∧ x ≤ knot c.knots (c.controlPoints.length + c.degree))
    (hmult : ∀ x, (xs ++ c.knots).count x ≤ c.degree + 1) :
    ∃ c', xs.foldlM (fun c x => c.addKnot x) c = .ok c' ∧ ys.foldlM (fun c x => c.addKnot x) c = .ok c' := by
  have hy : ∀ y ∈ ys, knot c.knots 0 ≤ y ∧ y ≤ knot c.knots (c.controlPoints.length + c.degree) :=
    fun y hy => hx y (hp.mem_iff.2 hy)
  obtain ⟨c1, e1⟩ := Unique.insertions_total hv h0 h1 xs hx
  obtain ⟨c2, e2⟩ := Unique.insertions_total hv h0 h1 ys hy
  obtain ⟨v1, d1, k1, l1, g1⟩ := C15_addKnots hv xs hx (resolved_real _) e1
  obtain ⟨v2, d2, k2, l2, g2⟩ := C15_addKnots hv ys hy (resolved_real _) e2
  have hkk : c1.knots = c2.knots :=
    List.Perm.eq_of_pairwise (le := (· ≤ ·)) (fun a b _ _ h1 h2 => le_antisymm h1 h2) v1.sorted v2.sorted
      (k1.trans ((hp.append_right _).trans k2.symm))
  obtain ⟨b1, b2, b3, b4⟩ := Unique.ends_stay (M := c2.controlPoints.length) hv.len (by rw [v2.len, d2]) hv.sorted v2.sorted k2 hy
    h0 h1
  have : c1 = c2 := by
    refine C156_bspline v2 v1 (by rw [d1, d2]) hkk (counts_of_clamped v2.len v2.sorted (by rw [b1, d2, b2]) (by rw [b3, d2, b4])
      fun x => ?_) ?_
    · rw [d2, k2.count_eq, List.count_append]
      have := hmult x
      rw [List.count_append, hp.count_eq] at this
      exact this
    · intro u hu _
      rw [d2, b2] at hu
      rw [g1 u hu, g2 u hu]
  exact ⟨c1, e1, this ▸ e2⟩

/-- **C156** Two Bézier curves of degree `n` that agree at `n + 1` parameters have the same control points. -/
theorem C156_bezier {b b' : BezierCurve P} (hl : b'.controlPoints.length = b.controlPoints.length)
    (hn : 1 ≤ b.controlPoints.length) {us : Finset ℝ} (hus : b.controlPoints.length ≤ us.card)
    (h : ∀ u ∈ us, b'.getPoint u = b.getPoint u) : b' = b := by
  have hpts : b'.controlPoints = b.controlPoints := by
    refine List.ext_getElem hl fun i hi hi' => ?_
    rw [cp_getElem, cp_getElem, ← sub_eq_zero, ← Module.forall_dual_apply_eq_zero_iff ℝ]
    intro f
    obtain ⟨n, hn⟩ : ∃ n, b.controlPoints.length = n + 1 := ⟨b.controlPoints.length - 1, by omega⟩
    have key := Unique.bern_indep n (a := fun i => (n.choose i : ℝ) * f (cp b'.controlPoints i - cp b.controlPoints i)) (by
      refine Polynomial.eq_zero_of_natDegree_lt_card_of_eval_eq_zero' _ us ?_ ?_
      · intro u hu
        have e := h u hu
        rw [bezier_getPoint b' (by omega), bezier_getPoint b (by omega), hl, hn, Except.ok.injEq, ← sub_eq_zero,
          ← Finset.sum_sub_distrib] at e
        have e' := congrArg f e
        rw [map_sum, map_zero] at e'
        rw [← e', Polynomial.eval_finsetSum]
        apply Finset.sum_congr rfl
        intro j _
        rw [← smul_sub, map_smul, Nat.add_sub_cancel]
        simp [bernsteinPoly]
        ring
      · refine lt_of_lt_of_le (Nat.lt_succ_of_le ?_) (by rw [hn] at hus; exact hus)
        refine Polynomial.natDegree_sum_le_of_forall_le _ _ fun j hj => ?_
        have hj := Finset.mem_range.1 hj
        refine (Polynomial.natDegree_mul_le).trans ?_
        have d1 : (Polynomial.C ((n.choose j : ℝ) * f (cp b'.controlPoints j - cp b.controlPoints j)) *
            Polynomial.X ^ j : Polynomial ℝ).natDegree ≤ j := Polynomial.natDegree_C_mul_X_pow_le _ _
        have d2 : ((1 - Polynomial.X : Polynomial ℝ) ^ (n - j)).natDegree ≤ n - j := by
          refine (Polynomial.natDegree_pow_le).trans ?_
          have : (1 - Polynomial.X : Polynomial ℝ).natDegree ≤ 1 := by
            refine (Polynomial.natDegree_sub_le _ _).trans ?_
            simp
          calc _ ≤ (n - j) * 1 := Nat.mul_le_mul_left _ this
            _ = _ := by omega
        omega) i (by omega)
    have hc : (n.choose i : ℝ) ≠ 0 := by
      have := Nat.choose_pos (show i ≤ n by omega)
      exact_mod_cast this.ne'
    exact (mul_eq_zero.1 key).resolve_left hc
  cases b; cases b'
  simp only at hpts
  rw [hpts]

/-- **C156** Two B-spline surfaces with the same degrees and knots that agree on the domain have the same net. -/
theorem C156_surface {s s' : BSplineSurface ℝ P} (hs : s.Valid) (hs' : s'.Valid) (hd : s'.degree = s.degree)
    (hk : s'.knots = s.knots) (hcu : Counts s.knots.1 s.controlPoints.rows s.degree.1)
    (hcv : Counts s.knots.2 s.controlPoints.cols s.degree.2)
    (h : ∀ u v, knot s.knots.1 s.degree.1 ≤ u → u < knot s.knots.1 s.controlPoints.rows →
      knot s.knots.2 s.degree.2 ≤ v → v < knot s.knots.2 s.controlPoints.cols → s'.getPoint u v = s.getPoint u v) :
    s' = s := by
  have hR : s'.controlPoints.rows = s.controlPoints.rows := by
    have h1 := hs.lenU
    have h2 := hs'.lenU
    rw [hk, hd] at h2
    omega
  have hC : s'.controlPoints.cols = s.controlPoints.cols := by
    have h1 := hs.lenV
    have h2 := hs'.lenV
    rw [hk, hd] at h2
    omega
  have hr0 := hs.rows
  have hc0 := hs.cols
  -- the rows are the same curves
  have hrow : ∀ v, knot s.knots.2 s.degree.2 ≤ v → v < knot s.knots.2 s.controlPoints.cols → ∀ i, i < s.controlPoints.rows →
      valOf ((BSplineCurve.mk (row s'.controlPoints i) s.knots.2 s.degree.2).getPoint v) =
      valOf ((BSplineCurve.mk (row s.controlPoints i) s.knots.2 s.degree.2).getPoint v) := by
    intro v hv1 hv2 i hi
    have ok : ∀ l : List P, l.length = s.controlPoints.cols → ∃ x, (BSplineCurve.mk l s.knots.2 s.degree.2).getPoint v = .ok x := by
      intro l hl
      obtain ⟨a, -, e⟩ := getPoint_eq (hs.curveV hl) (u := v) ((hs.monoV _ _ (by omega) (by omega)).trans hv1)
      exact ⟨_, e⟩
    have basis : ∃ w, KnotVector.bsplineBasis s.knots.2 s.degree.2 v = .ok w := by
      obtain ⟨x, hx⟩ := ok (row s.controlPoints 0) (row_length _ _)
      unfold BSplineCurve.getPoint at hx
      obtain ⟨w, hw, -⟩ := bind_eq_ok.1 hx
      exact ⟨w, hw⟩
    obtain ⟨w, hw⟩ := basis
    set Q : List P := tab s.controlPoints.rows fun i => valOf ((BSplineCurve.mk (row s.controlPoints i) s.knots.2 s.degree.2).getPoint v) with hQ
    set Q' : List P := tab s.controlPoints.rows fun i => valOf ((BSplineCurve.mk (row s'.controlPoints i) s.knots.2 s.degree.2).getPoint v) with hQ'
    have cpt : ∀ (f : Nat → P) j, j < s.controlPoints.rows → cp (tab s.controlPoints.rows f) j = f j := by
      intro f j hj
      rw [← cp_getElem (by rw [tab_length]; exact hj)]
      simp
    have key := C156_bspline (c := ⟨Q, s.knots.1, s.degree.1⟩) (c' := ⟨Q', s.knots.1, s.degree.1⟩) (hs.curveU (tab_length _ _))
      (hs.curveU (tab_length _ _)) rfl rfl (by simp only [hQ, tab_length]; exact hcu) (by
        intro u hu1 hu2
        simp only [hQ, tab_length] at hu1 hu2
        have basisU : ∃ w, KnotVector.bsplineBasis s.knots.1 s.degree.1 u = .ok w := by
          obtain ⟨a, -, e⟩ := getPoint_eq (hs.curveU (tab_length s.controlPoints.rows fun _ => (0 : P))) (u := u)
            ((hs.monoU _ _ (by omega) (by omega)).trans hu1)
          unfold BSplineCurve.getPoint at e
          obtain ⟨w, hw, -⟩ := bind_eq_ok.1 e
          exact ⟨w, hw⟩
        obtain ⟨wu, hwu⟩ := basisU
        have e := h u v hu1 hu2 hv1 hv2
        rw [valOf_rows hs.net hs.lenU hs.lenV hw hwu, valOf_rows hs'.net hs'.lenU hs'.lenV (by rw [hk, hd]; exact hw)
          (by rw [hk, hd]; exact hwu), hR, hk, hd] at e
        rw [bspline_linComb hwu, bspline_linComb hwu,
          show s.knots.1.length - 1 - s.degree.1 = s.controlPoints.rows by have := hs.lenU; omega]
        refine Eq.trans ?_ (e.trans ?_)
        · congr 1
          apply Finset.sum_congr rfl
          intro j hj
          rw [hQ', cpt _ _ (Finset.mem_range.1 hj)]
        · congr 1
          apply Finset.sum_congr rfl
          intro j hj
          rw [hQ, cpt _ _ (Finset.mem_range.1 hj)])
    have key' : Q' = Q := congrArg BSplineCurve.controlPoints key
    have := congrArg (fun l => cp l i) key'
    simp only [hQ, hQ'] at this
    rwa [cpt _ _ hi, cpt _ _ hi] at this
  have hrows : ∀ i, i < s.controlPoints.rows → row s'.controlPoints i = row s.controlPoints i := by
    intro i hi
    have key := C156_bspline (c := ⟨row s.controlPoints i, s.knots.2, s.degree.2⟩)
      (c' := ⟨row s'.controlPoints i, s.knots.2, s.degree.2⟩) (hs.curveV (row_length _ _))
      (hs.curveV (by rw [row_length, hC])) rfl rfl (by simp only [row_length]; exact hcv) (by
        intro v hv1 hv2
        simp only [row_length] at hv1 hv2
        have e := hrow v hv1 hv2 i hi
        have hv0 : knot s.knots.2 0 ≤ v := (hs.monoV _ _ (by omega) (by omega)).trans hv1
        obtain ⟨a, -, ea⟩ := getPoint_eq (hs.curveV (row_length s.controlPoints i)) hv0
        obtain ⟨b, -, eb⟩ := getPoint_eq (hs.curveV (l := row s'.controlPoints i) (by rw [row_length, hC])) hv0
        rw [ea, eb] at e ⊢
        rw [Except.ok.injEq]
        exact e)
    exact congrArg BSplineCurve.controlPoints key
  have hdata : s'.controlPoints.data = s.controlPoints.data := by
    have n1 := hs.net
    have n2 := hs'.net
    unfold NetOk at n1 n2
    refine List.ext_getElem (by rw [n1, n2, hR, hC]) fun k hk1 hk2 => ?_
    have hi : k / s.controlPoints.cols < s.controlPoints.rows := by
      rw [Nat.div_lt_iff_lt_mul hc0]; omega
    have hj : k % s.controlPoints.cols < s.controlPoints.cols := Nat.mod_lt _ hc0
    have e := congrArg (fun l => cp l (k % s.controlPoints.cols)) (hrows _ hi)
    rw [cp_row (by rw [hC]; exact hj), cp_row hj] at e
    unfold entry at e
    rw [hC] at e
    rw [show k / s.controlPoints.cols * s.controlPoints.cols + k % s.controlPoints.cols = k by
      rw [mul_comm]; exact Nat.div_add_mod _ _] at e
    rw [List.getD_eq_getElem?_getD, List.getD_eq_getElem?_getD, List.getElem?_eq_getElem hk1, List.getElem?_eq_getElem hk2] at e
    exact e
  cases s with | mk g k d => cases s' with | mk g' k' d' =>
    cases g; cases g'
    simp only at hdata hR hC hk hd
    subst hdata hR hC hk hd
    rfl

end

/-- **C156**, an example: a cubic with two knots to insert. -/
theorem C156_example (a b c d : V3 ℝ) :
    ∃ r, [1 / 4, 1 / 2, 1 / 2].foldlM (fun (c : BSplineCurve ℝ (V3 ℝ)) x => c.addKnot x) ⟨[a, b, c, d], [0, 0, 0, 0, 1, 1, 1, 1], 3⟩ = .ok r ∧
      [1 / 2, 1 / 4, 1 / 2].foldlM (fun (c : BSplineCurve ℝ (V3 ℝ)) x => c.addKnot x) ⟨[a, b, c, d], [0, 0, 0, 0, 1, 1, 1, 1], 3⟩ = .ok r := by
  have hv : (⟨[a, b, c, d], [0, 0, 0, 0, 1, 1, 1, 1], 3⟩ : BSplineCurve ℝ (V3 ℝ)).Valid :=
    ⟨rfl, by unfold Sorted; norm_num, resolved_real _, by norm_num [knot], by norm_num⟩
  refine C156_insertions hv (by norm_num [knot]) (by norm_num [knot]) (List.Perm.swap _ _ _) ?_ ?_
  · intro x hx
    simp only [List.mem_cons, List.not_mem_nil, or_false] at hx
    rcases hx with rfl | rfl | rfl <;> norm_num [knot]
  · intro x
    by_cases h0 : x = 0
    · subst h0; norm_num [List.count_cons]
    · by_cases h1 : x = 1
      · subst h1; norm_num [List.count_cons]
      · simp only [List.cons_append, List.nil_append, List.count_cons, List.count_nil]
        have e0 : ((0 : ℝ) == x) = false := by simpa using fun h => h0 h.symm
        have e1 : ((1 : ℝ) == x) = false := by simpa using fun h => h1 h.symm
        rw [e0, e1]
        simp only [Bool.false_eq_true, if_false]
        split <;> split <;> norm_num

end Geom3d
