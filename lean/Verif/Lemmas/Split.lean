import Verif.Lemmas.Insert

/-! Splitting valid B-spline curves. -/

set_option linter.unusedSectionVars false

namespace Geom3d
open Spec

section curve
variable {K P : Type} [Field K] [LinearOrder K] [IsStrictOrderedRing K] [Env K]
  [AddCommGroup P] [Module K P] [HMul K P P] [HMul P K P] [LawfulPoint K P]

theorem piece_shift (t : Nat → K) (s d k i : Nat) (u : K) :
    piece (fun j => t (j + d)) s k i u = piece t (s + d) k (i + d) u := by
  induction k generalizing i with
  | zero => simp only [piece]; congr 1; simp
  | succ k ih =>
    simp only [piece]
    rw [ih, ih]
    rw [show i + k + 1 + d = i + d + k + 1 by omega, show i + k + 2 + d = i + d + k + 2 by omega,
      show i + 1 + d = i + d + 1 by omega]

/-- The curve on the first `q` control points. -/
theorem take_getPoint {c L : BSplineCurve K P} (hv : c.Valid) {q : Nat} (hq : q ≤ c.controlPoints.length)
    (hL : L.Valid) (hd : L.degree = c.degree) (hk : L.knots = c.knots.take (q + c.degree + 1))
    (hp : L.controlPoints = c.controlPoints.take q) {u : K} (hu : knot c.knots 0 ≤ u)
    (hu' : u < knot c.knots q) : L.getPoint u = c.getPoint u := by
  have hlen := hv.len
  have hkn : ∀ j, j ≤ q + c.degree → knot L.knots j = knot c.knots j := by
    intro j hj
    rw [hk]; unfold knot
    simp only [List.getD_eq_getElem?_getD]
    rw [List.getElem?_take, if_pos (by omega)]
  have hLl : L.controlPoints.length = q := by rw [hp]; simp; omega
  obtain ⟨s, h1, h2⟩ := getPoint_eq hL (u := u) (by rw [hkn 0 (by omega)]; exact hu)
  rw [hLl, hd] at h1
  have hs := h1.lt
  have hc : Contains (knot c.knots) (c.controlPoints.length + c.degree) s u := by
    refine ⟨by omega, ?_, ?_, ?_⟩
    · rw [← hkn s (by omega), ← hkn (s + 1) (by omega)]; exact h1.nonempty
    · rw [← hkn s (by omega)]; exact h1.left
    · rcases h1.right with h | ⟨h, _⟩
      · rw [hkn (s + 1) (by omega)] at h; exact Or.inl h
      · rw [hkn _ (le_refl _)] at h
        exact absurd (lt_of_lt_of_le hu' (le_trans (hv.mono q (q + c.degree) (by omega) (by omega)) h))
          (lt_irrefl _)
  have hsq : s < q := by
    by_contra h
    exact absurd (lt_of_lt_of_le hu' (le_trans (hv.mono q s (by omega) (by omega)) hc.left)) (lt_irrefl _)
  rw [h2, getPoint_of_contains hv hc]
  congr 1
  unfold BSplineCurve.pieceSum
  rw [hLl, hd]
  have hsub : Finset.range q ⊆ Finset.range c.controlPoints.length := by
    intro i; simp only [Finset.mem_range]; omega
  rw [← Finset.sum_subset hsub]
  · apply Finset.sum_congr rfl
    intro i hi
    rw [Finset.mem_range] at hi
    congr 1
    · apply piece_congr
      intro j _ hj
      exact hkn j (by omega)
    · rw [hp]; unfold cp
      simp only [List.getD_eq_getElem?_getD]
      rw [List.getElem?_take, if_pos hi]
  · intro i _ hi
    rw [Finset.mem_range] at hi
    rw [piece_eq_zero _ _ _ _ _ (Or.inl (by omega)), zero_smul]

/-- The curve on all but the first `q` control points. -/
theorem drop_getPoint {c R : BSplineCurve K P} (hv : c.Valid) {q : Nat} (hq : q < c.controlPoints.length)
    (hR : R.Valid) (hd : R.degree = c.degree) (hk : R.knots = c.knots.drop q)
    (hp : R.controlPoints = c.controlPoints.drop q) {u : K} (hu : knot c.knots (q + c.degree) ≤ u)
    (hlt : knot c.knots (q + c.degree) < knot c.knots (c.controlPoints.length + c.degree)) :
    R.getPoint u = c.getPoint u := by
  have hlen := hv.len
  have hkn : ∀ j, knot R.knots j = knot c.knots (j + q) := by
    intro j
    rw [hk]; unfold knot
    simp only [List.getD_eq_getElem?_getD]
    rw [List.getElem?_drop, Nat.add_comm]
  have hRl : R.controlPoints.length = c.controlPoints.length - q := by rw [hp]; simp
  obtain ⟨s, h1, h2⟩ := getPoint_eq hR (u := u) (by
    rw [hkn]; exact le_trans (hv.mono _ _ (by omega) (by omega)) hu)
  rw [hRl, hd] at h1
  have hs := h1.lt
  have hc : Contains (knot c.knots) (c.controlPoints.length + c.degree) (s + q) u := by
    refine ⟨by omega, ?_, ?_, ?_⟩
    · have := h1.nonempty; rw [hkn, hkn] at this
      rw [show s + q + 1 = s + 1 + q by omega]; exact this
    · rw [← hkn]; exact h1.left
    · have := h1.right
      rw [hkn, hkn, show c.controlPoints.length - q + c.degree + q = c.controlPoints.length + c.degree by omega,
        show s + 1 + q = s + q + 1 by omega] at this
      exact this
  have hsq : c.degree ≤ s := by
    by_contra h
    have m1 := hv.mono (s + q + 1) (q + c.degree) (by omega) (by omega)
    rcases hc.right with h' | ⟨_, h'⟩
    · exact absurd (lt_of_lt_of_le h' (le_trans m1 hu)) (lt_irrefl _)
    · rw [h'] at m1
      exact absurd (lt_of_le_of_lt m1 hlt) (lt_irrefl _)
  rw [h2, getPoint_of_contains hv hc]
  congr 1
  unfold BSplineCurve.pieceSum
  rw [hRl, hd]
  have e : c.controlPoints.length = q + (c.controlPoints.length - q) := by omega
  rw [show Finset.range c.controlPoints.length = Finset.range (q + (c.controlPoints.length - q)) by rw [← e],
    Finset.sum_range_add]
  rw [Finset.sum_eq_zero (s := Finset.range q), zero_add]
  · apply Finset.sum_congr rfl
    intro i hi
    rw [show knot R.knots = fun j => knot c.knots (j + q) from funext hkn, piece_shift, Nat.add_comm i q]
    congr 1
    rw [hp]; unfold cp
    simp only [List.getD_eq_getElem?_getD]
    rw [List.getElem?_drop]
  · intro i hi
    rw [Finset.mem_range] at hi
    rw [piece_eq_zero _ _ _ _ _ (Or.inr (by omega)), zero_smul]

theorem cut_knot_first {l A B : List K} {i : Nat} {t : K} (h : CutAt l A B i t) (hA : A ≠ []) :
    knot l 0 < t := by
  have : 0 < A.length := List.length_pos_iff.2 hA
  exact (h.lt_iff (by have := h.length; omega)).2 this

theorem cut_knot_last {l A B : List K} {i : Nat} {t : K} (h : CutAt l A B i t) (hB : B ≠ []) {n : Nat}
    (hn : l.length = n + 1) : t < knot l n := by
  have : 0 < B.length := List.length_pos_iff.2 hB
  have hl := h.length
  have := mt (h.le_iff (j := n) (by omega)).1 (by omega)
  exact not_le.1 this

theorem sorted_take {l : List K} (h : Sorted l) (n : Nat) : Sorted (l.take n) :=
  h.sublist (List.take_sublist _ _)
theorem sorted_drop {l : List K} (h : Sorted l) (n : Nat) : Sorted (l.drop n) :=
  h.sublist (List.drop_sublist _ _)

/-- `split` at a cut value `t'` (the argument itself, or the left neighbouring knot it is snapped to). -/
theorem split_spec {c : BSplineCurve K P} (hv : c.Valid) (htol : (0 : K) ≤ Env.tol) {t : K}
    (ht : knot c.knots c.degree ≤ t) (ht' : t < knot c.knots (c.controlPoints.length + c.degree))
    (hres : Resolved (t :: c.knots)) :
    ∃ (t' : K) (A B : List K) (i : Nat) (L R : BSplineCurve K P),
      c.split t = .ok (L, R) ∧
      ((t' = t ∧ ∀ x ∈ c.knots, x ≤ t → Env.tol < t - x) ∨
        (t' ∈ c.knots ∧ t' ≤ t ∧ t - t' ≤ Env.tol ∧ ∀ x ∈ c.knots, x ≤ t → x ≤ t')) ∧
      CutAt c.knots A B i t' ∧ B ≠ [] ∧
      L.degree = c.degree ∧ R.degree = c.degree ∧
      L.knots = A ++ List.replicate (max i (c.degree + 1)) t' ∧
      R.knots = List.replicate (c.degree + 1) t' ++ B ∧
      L.knots.length = L.controlPoints.length + c.degree + 1 ∧
      R.Valid ∧ (∀ u, t' ≤ u → R.getPoint u = c.getPoint u) ∧
      (A ≠ [] → L.Valid ∧ ∀ u, knot c.knots 0 ≤ u → u < t' → L.getPoint u = c.getPoint u) := by
  set p := c.degree with hpdef
  have hlen := hv.len
  have h0t : knot c.knots 0 ≤ t := le_trans (hv.mono 0 _ (by omega) (by omega)) ht
  obtain ⟨s, hsp, hsn, hs1, hs2⟩ := spanIndex_inner hlen h0t ht'
  -- the cut value
  obtain ⟨t', i, ht'eq, hpre, hcut, hle⟩ : ∃ (t' : K) (i : Nat),
      (if near t (knot c.knots s) then (knot c.knots s, i) else (t, 0)) = (t', i) ∧
      ((t' = t ∧ ∀ x ∈ c.knots, x ≤ t → Env.tol < t - x) ∨
        (t' ∈ c.knots ∧ t' ≤ t ∧ t - t' ≤ Env.tol ∧ ∀ x ∈ c.knots, x ≤ t → x ≤ t')) ∧
      CutAt c.knots (c.knots.filter (fun x => decide (x < t'))) (c.knots.filter (fun x => decide (t' < x))) i t' ∧
      (knot c.knots p ≤ t' ∧ t' ≤ t) := by
    have hxs : ∀ x ∈ c.knots, x ≤ t → x ≤ knot c.knots s := by
      intro x hx hxt
      obtain ⟨j, hj, rfl⟩ := List.getElem_of_mem hx
      rw [knot_getElem hj] at hxt ⊢
      apply hv.mono _ _ _ (by omega)
      by_contra hc
      exact absurd (lt_of_lt_of_le hs2 (le_trans (hv.mono (s + 1) j (by omega) (by omega)) hxt)) (lt_irrefl _)
    by_cases hn : near t (knot c.knots s) = true
    · refine ⟨knot c.knots s, _, by rw [if_pos hn], ?_, hv.sorted.cutAt _, ?_⟩
      · right
        refine ⟨knot_mem (by omega), hs1, ?_, hxs⟩
        have : 0 ≤ t - knot c.knots s := by linarith
        unfold near fabs at hn
        rw [decide_eq_true_eq, if_neg (not_lt.2 this)] at hn
        exact hn
      · exact ⟨hxs _ (knot_mem (by omega)) ht, hs1⟩
    · refine ⟨t, 0, by rw [if_neg hn], ?_, ?_, ht, le_refl _⟩
      · left
        refine ⟨rfl, fun x hx hxt => ?_⟩
        have h1 := hxs x hx hxt
        have : 0 ≤ t - knot c.knots s := by linarith
        unfold near fabs at hn
        rw [decide_eq_true_eq, if_neg (not_lt.2 this), not_le] at hn
        linarith
      · have := hv.sorted.cutAt t
        have e : (c.knots.filter (fun x => decide (x = t))) = [] := by
          rw [List.filter_eq_nil_iff]
          intro x hx
          simp only [decide_eq_true_eq]
          rintro rfl
          apply hn
          have h1 := hxs x hx (le_refl _)
          have : x = knot c.knots s := le_antisymm h1 hs1
          unfold near fabs
          rw [← this]
          simpa using htol
        rw [e] at this
        exact this
  set A := c.knots.filter (fun x => decide (x < t'))
  set B := c.knots.filter (fun x => decide (t' < x))
  have hcl := hcut.length
  have hB : B ≠ [] := by
    have : knot c.knots (c.controlPoints.length + p) ∈ B := by
      simp only [B, List.mem_filter, decide_eq_true_eq]
      exact ⟨knot_mem (by omega), lt_of_le_of_lt hle.2 ht'⟩
    exact List.ne_nil_of_mem this
  have hAi : p < A.length + i := (hcut.le_iff (by omega)).1 hle.1
  have hres' : Resolved (t' :: c.knots) := by
    rcases hpre with ⟨h, _⟩ | ⟨h, _⟩
    · rw [h]; exact hres
    · apply hres.mono
      intro x hx
      rcases List.mem_cons.1 hx with rfl | hx
      · exact List.mem_cons_of_mem _ h
      · exact List.mem_cons_of_mem _ hx
  -- the insertions
  obtain ⟨M, hM⟩ : ∃ M, M = max i (p + 1) := ⟨_, rfl⟩
  have hiM : i ≤ M := by omega
  obtain ⟨c', hc1, hc2, hc3, hc4, hc5, hc6, hc7, hc8⟩ :=
    addKnots_loop hv hiM hcut hle.1 (le_of_lt (lt_of_le_of_lt hle.2 ht')) hres'
  have hloop : forRange i (p + 1) c (fun c _ => c.addKnot t') = .ok c' := by
    rcases Nat.lt_or_ge (p + 1) i with h | h
    · have : M = i := by omega
      rw [this, forRange_nil (le_refl _)] at hc1
      rw [forRange_nil (by omega)]; exact hc1
    · have : M = p + 1 := by omega
      rw [this] at hc1; exact hc1
  have hcl' := hc4.length
  have hlen' := hc2.len
  have hBl : 0 < B.length := List.length_pos_iff.2 hB
  obtain ⟨q, hq⟩ : ∃ q, q = A.length + M - 1 - p := ⟨_, rfl⟩
  have hqn : q < c'.controlPoints.length := by omega
  have hRv : (⟨c'.controlPoints.drop q, c'.knots.drop q, p⟩ : BSplineCurve K P).Valid := by
    refine ⟨?_, sorted_drop hc2.sorted _, hc2.resolved.mono (fun x hx => List.mem_of_mem_drop hx), ?_, ?_⟩
    · simp; omega
    · have e : ∀ j, knot (c'.knots.drop q) j = knot c'.knots (j + q) := by
        intro j; unfold knot
        simp only [List.getD_eq_getElem?_getD]
        rw [List.getElem?_drop, Nat.add_comm]
      simp only [List.length_drop, e]
      rw [hc4.knot_eq (j := 0 + q) (by omega) (by omega)]
      exact cut_knot_last hc4 hB (by omega)
    · simp; omega
  refine ⟨t', A, B, i, ⟨c'.controlPoints.take q, c'.knots.take (A.length + M), p⟩,
    ⟨c'.controlPoints.drop q, c'.knots.drop q, p⟩, ?_, hpre, hcut, hB, rfl, rfl, ?_, ?_, ?_, ?_, ?_, ?_⟩
  · -- the code
    have hk : KnotVector.spanIndex c'.knots t' = .ok (A.length + M - 1) := hc4.spanIndex (by omega) hB
    have htail : ∀ (x : K × Nat), x = (t', i) → (do
        let c ← forRange x.2 (p + 1) c (fun c _ => c.addKnot x.1)
        let k ← KnotVector.spanIndex c.knots x.1
        let m := c.knots.length
        let n := c.controlPoints.length
        let knots0 ← KnotVector.subVec c.knots 0 (k + 1)
        let kp ← usub k p
        let knots1 ← KnotVector.subVec c.knots kp m
        let cps0 ← slice c.controlPoints 0 kp
        let cps1 ← slice c.controlPoints kp n
        (pure (⟨cps0, knots0, c.degree⟩, ⟨cps1, knots1, c.degree⟩) : Res (BSplineCurve K P × BSplineCurve K P)))
        = .ok (⟨c'.controlPoints.take q, c'.knots.take (A.length + M), p⟩,
            ⟨c'.controlPoints.drop q, c'.knots.drop q, p⟩) := by
      rintro x rfl
      simp only []
      rw [hloop]
      simp only [ok_bind]
      rw [hk]
      simp only [ok_bind]
      unfold KnotVector.subVec slice
      rw [usub_ok (by omega), if_pos ⟨by omega, by omega⟩]
      simp only [ok_bind]
      rw [if_pos ⟨by omega, by omega⟩]
      simp only [ok_bind]
      rw [if_pos ⟨by omega, by omega⟩]
      simp only [ok_bind]
      rw [if_pos ⟨by omega, by omega⟩]
      simp only [ok_bind, pure_eq_ok, ← hq, List.drop_zero, hc3, List.take_length,
        Nat.sub_add_cancel (show 1 ≤ A.length + M by omega)]
      rfl
    unfold BSplineCurve.split
    rw [hsp]
    simp only [ok_bind]
    rw [idx_knot (by omega)]
    simp only [ok_bind]
    split
    · rename_i hn
      rw [if_pos hn] at ht'eq
      have e1 : knot c.knots s = t' := (Prod.mk.inj ht'eq).1
      have := hcut.multiplicity hv.resolved (j := s) (by omega) e1
      rw [this]
      simp only [ok_bind, pure_eq_ok, e1]
      exact htail (t', i) rfl
    · rename_i hn
      rw [if_neg hn] at ht'eq
      have e1 : t = t' := (Prod.mk.inj ht'eq).1
      have e2 : 0 = i := (Prod.mk.inj ht'eq).2
      simp only [ok_bind, pure_eq_ok, e1]
      exact htail (t', 0) (by rw [← e2])
  · simp only []
    rw [hc4.eq, ← List.append_assoc, List.take_append, List.take_of_length_le (by simp),
      show A.length + M - (A ++ List.replicate M t').length = 0 by simp, List.take_zero, List.append_nil, hM]
  · simp only []
    rw [hc4.eq, List.drop_append, List.drop_eq_nil_of_le (by omega), List.nil_append, List.drop_append,
      List.drop_replicate, List.length_replicate]
    rw [show M - (q - A.length) = p + 1 by omega, show q - A.length - M = 0 by omega, List.drop_zero]
  · simp; omega
  · exact hRv
  · intro u hu
    have hkq : knot c'.knots (q + c'.degree) = t' := hc4.knot_eq (by omega) (by omega)
    rw [drop_getPoint (c := c') hc2 hqn hRv (by rw [hc3]) rfl rfl (by rw [hkq]; exact hu)
      (by rw [hkq]; exact cut_knot_last hc4 hB (by omega))]
    refine hc8 u (le_trans ?_ hu)
    exact le_trans (hv.mono 0 _ (by omega) (by omega)) hle.1
  · intro hA
    have hAl : 0 < A.length := List.length_pos_iff.2 hA
    have hLv : (⟨c'.controlPoints.take q, c'.knots.take (A.length + M), p⟩ : BSplineCurve K P).Valid := by
      refine ⟨?_, sorted_take hc2.sorted _, hc2.resolved.mono (fun x hx => List.mem_of_mem_take hx), ?_, ?_⟩
      · simp; omega
      · have e : ∀ j, j < A.length + M → knot (c'.knots.take (A.length + M)) j = knot c'.knots j := by
          intro j hj; unfold knot
          simp only [List.getD_eq_getElem?_getD]
          rw [List.getElem?_take, if_pos hj]
        simp only [List.length_take]
        rw [e 0 (by omega), e _ (by omega), hc4.knot_eq (j := min q c'.controlPoints.length + p) (by omega) (by omega)]
        exact cut_knot_first hc4 hA
      · simp; omega
    refine ⟨hLv, ?_⟩
    intro u hu hut
    have hkq : knot c'.knots q = t' := hc4.knot_eq (by omega) (by omega)
    rw [take_getPoint (c := c') hc2 (q := q) (by omega) hLv (by rw [hc3]) (by simp only []; congr 1; omega) rfl
      (by rw [hc7]; exact hu) (by rw [hkq]; exact hut)]
    exact hc8 u hu

end curve

end Geom3d
