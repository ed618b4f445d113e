import Verif.Lemmas.F64BSpline
import Verif.Lemmas.BSpline
import Verif.Props.SurfaceDeriv
import Verif.Props.Float

/-!
# C99, C100: B-spline weights and curves in binary64

All theorems are about the operations of IEEE binary64 with all their rounding, for every input.
-/

namespace Geom3d
open Spec F64

/-- Finite sorted knots; neighbours are equal or at least `2 ^ -51` apart (`inv_or_zero` takes differences up to
`2 ^ -52` for zero). -/
structure KnotsF (knots : List Float) : Prop where
  fin : ∀ x ∈ knots, IsFin x ∧ |val x| ≤ 2 ^ (900 : Int)
  sorted : (knots.map val).Pairwise (· ≤ ·)
  gap : ∀ i, i + 1 < knots.length → val (knot knots i) < val (knot knots (i + 1)) →
    (2 : ℝ) ^ (-51 : Int) ≤ val (knot knots (i + 1)) - val (knot knots i)

theorem tval_eq (knots : List Float) : tval knots = knot (knots.map val) := by
  funext i
  unfold tval knot
  simp only [List.getD, List.getElem?_map]
  cases knots[i]? with
  | none => exact zero_val.2
  | some x => rfl

theorem KnotsF.at {knots : List Float} (h : KnotsF knots) (i : Nat) (hi : i < knots.length) :
    IsFin (knot knots i) ∧ |tval knots i| ≤ 2 ^ (900 : Int) :=
  h.fin _ (by
    have : knot knots i = knots[i] := by simp [knot, List.getD, hi]
    rw [this]
    exact List.getElem_mem _)

theorem KnotsF.mono {knots : List Float} (h : KnotsF knots) (i j : Nat) (hij : i ≤ j) (hj : j < knots.length) :
    tval knots i ≤ tval knots j := by
  rw [tval_eq]
  exact Spec.Sorted.knot_le h.sorted hij (by rw [List.length_map]; exact hj)

/-- `span_index` inside the knot range. -/
theorem KnotsF.spanIndex {knots : List Float} {n a b : Nat} (h : KnotsF knots) (hlen : knots.length = n + 1)
    {u : Float} (fu : IsFin u) (hb : b ≤ n) (hab : a ≤ n) (h1 : tval knots a ≤ val u) (h2 : val u < tval knots b) :
    ∃ s, KnotVector.spanIndex knots u = .ok s ∧ a ≤ s ∧ s < b ∧ tval knots s ≤ val u ∧ val u < tval knots (s + 1) := by
  have hle : ∀ i, i < knots.length → (knot knots i ≤ u ↔ tval knots i ≤ val u) := fun i hi => le_iff (h.at i hi).1 fu
  have hget : ∀ i (hi : i < knots.length), knots[i] = knot knots i := by
    intro i hi; simp [knot, List.getD, hi]
  have hex : ∃ s, rposition (fun t => decide (t ≤ u)) knots = some s := by
    cases hr : rposition (fun t => decide (t ≤ u)) knots with
    | some s => exact ⟨s, rfl⟩
    | none =>
      have := rposition_none hr a (by omega)
      rw [hget a (by omega), decide_eq_false_iff_not, hle a (by omega)] at this
      exact absurd h1 this
  obtain ⟨s, hs⟩ := hex
  obtain ⟨hs1, hs2, hs3⟩ := rposition_some hs
  rw [hget s hs1, decide_eq_true_iff, hle s hs1] at hs2
  have hsb : s < b := by
    by_contra hc
    have := h.mono b s (by omega) hs1
    linarith
  have hs4 : ∀ j, s < j → j ≤ n → val u < tval knots j := by
    intro j h1 h2
    have := hs3 j (by omega) h1
    rw [hget j (by omega), decide_eq_false_iff_not, hle j (by omega)] at this
    exact not_le.mp this
  have has : a ≤ s := by
    by_contra hc
    have := hs4 a (by omega) hab
    linarith
  refine ⟨s, ?_, has, hsb, hs2, hs4 (s + 1) (by omega) (by omega)⟩
  unfold KnotVector.spanIndex
  rw [hs]
  simp only []
  rw [usub_ok (by omega)]
  simp only [ok_bind]
  rw [if_neg (by omega)]
  rfl

theorem KnotsF.spanF {knots : List Float} {n s : Nat} (h : KnotsF knots) (hlen : knots.length = n + 1) {u : Float}
    (fu : IsFin u) (hs : s < n) (hne : tval knots s < tval knots (s + 1)) (h1 : tval knots s ≤ val u)
    (h2 : val u ≤ tval knots (s + 1)) : SpanF knots n s u :=
  ⟨hlen, h.fin, h.sorted, hs, fu, h1, h2, h.gap s (by omega) hne⟩

theorem F64.SpanF.spanOk {knots : List Float} {n s : Nat} {u : Float} (h : SpanF knots n s u) :
    SpanOk (knots.map val) n s := by
  refine ⟨by rw [List.length_map, h.len], h.sorted, resolved_real _, h.lt, ?_⟩
  have := h.spanAt.nonempty
  rwa [tval_eq] at this

open Finset in
/-- The table of weights against the pieces of the basis functions. -/
theorem F64.SpanF.total {knots : List Float} {n s p : Nat} {u : Float} (h : SpanF knots n s u) (hp : p ≤ s) (hn : s + p < n)
    (hs : s ≤ 2 ^ 40) : ∑ i ∈ range (n - p),
      |val (basisTri (knot knots) u s p i) - piece (tval knots) s p i (val u)| ≤ p * 2 ^ (-49 : Int) := by
  have e : (2 : ℝ) ^ (-49 : Int) = 16 * eps := by rw [eps_eq]; norm_num
  have hr := (h.row hp hn hs (le_refl p)).2
  have hz : ∀ i, s < i → |val (basisTri (knot knots) u s p i) - piece (tval knots) s p i (val u)| = 0 := by
    intro i hi
    rw [basisTri_of_not _ _ (Or.inr hi), piece_eq_zero _ _ _ _ _ (Or.inl hi), zero_val.2, sub_self, abs_zero]
  have hsub : ∑ i ∈ range (n - p), |val (basisTri (knot knots) u s p i) - piece (tval knots) s p i (val u)|
      = ∑ i ∈ range (s + 1), |val (basisTri (knot knots) u s p i) - piece (tval knots) s p i (val u)| := by
    symm
    refine sum_subset (by intro i hi; rw [mem_range] at *; omega) ?_
    intro i _ hi
    exact hz i (by rw [mem_range] at hi; omega)
  rw [hsub, e]
  rw [sum_range_succ, hz (s + 1) (by omega), add_zero] at hr
  linarith

/-- **C99.** For every binary64 parameter of the domain of a B-spline of degree `p` all weights returned by
`bspline_basis` are finite and not negative, and their errors against the Cox–de Boor basis functions of the real knots
add up to at most `p * 2 ^ -49`. -/
theorem C99_basis {knots : List Float} {n p : Nat} (hk : KnotsF knots) (hlen : knots.length = n + 1) (hp : p < n)
    (hn : n ≤ 2 ^ 40) {u : Float} (fu : IsFin u) (h1 : val (knot knots p) ≤ val u)
    (h2 : val u < val (knot knots (n - p))) :
    ∃ w, KnotVector.bsplineBasis knots p u = .ok w ∧ w.length = n - p ∧
      (∀ x ∈ w, IsFin x ∧ 0 ≤ val x) ∧
      ∑ i ∈ Finset.range (n - p), |val (w.getD i 0) - coxDeBoor (knot (knots.map val)) (knot (knots.map val) n) p i (val u)|
        ≤ p * 2 ^ (-49 : Int) := by
  obtain ⟨s, hs, hps, hsn, hlo, hhi⟩ := hk.spanIndex hlen fu (a := p) (b := n - p) (by omega) (by omega) h1 h2
  have hF := hk.spanF hlen fu (by omega) (by linarith) hlo hhi.le
  refine ⟨_, bsplineBasis_tri hlen hs hps (by omega), tab_length _ _, ?_, ?_⟩
  · intro x hx
    simp only [tab, List.mem_map, List.mem_range] at hx
    obtain ⟨i, -, rfl⟩ := hx
    exact (hF.row hps (by omega) (by omega) (le_refl p)).1 i
  · refine le_trans (le_of_eq ?_) (hF.total hps (by omega) (by omega))
    refine Finset.sum_congr rfl fun i hi => ?_
    rw [Finset.mem_range] at hi
    rw [← piece_eq_coxDeBoor hF.spanOk (by rw [← tval_eq]; exact hlo) (Or.inl (by rw [← tval_eq]; exact hhi)) p i (by omega)]
    rw [tval_eq]
    simp [List.getD, hi]

/-- **C99.** The weights add up to one up to `p * 2 ^ -49`. -/
theorem C99_sum {knots : List Float} {n p : Nat} (hk : KnotsF knots) (hlen : knots.length = n + 1) (hp : p < n)
    (hn : n ≤ 2 ^ 40) {u : Float} (fu : IsFin u) (h1 : val (knot knots p) ≤ val u)
    (h2 : val u < val (knot knots (n - p))) {w : List Float} (hw : KnotVector.bsplineBasis knots p u = .ok w) :
    |(w.map val).sum - 1| ≤ p * 2 ^ (-49 : Int) := by
  obtain ⟨s, hs, hps, hsn, hlo, hhi⟩ := hk.spanIndex hlen fu (a := p) (b := n - p) (by omega) (by omega) h1 h2
  have hF := hk.spanF hlen fu (by omega) (by linarith) hlo hhi.le
  rw [bsplineBasis_tri hlen hs hps (by omega)] at hw
  obtain rfl := Except.ok.inj hw
  have e1 : ((tab (n - p) (basisTri (knot knots) u s p)).map val).sum
      = ∑ i ∈ Finset.range (n - p), val (basisTri (knot knots) u s p i) := by
    rw [map_tab]
    exact sum_tab _ _
  rw [e1, ← piece_sum hF.spanAt (val u) p (n - p) hps (by omega) (by omega), ← Finset.sum_sub_distrib]
  exact (Finset.abs_sum_le_sum_abs _ _).trans (hF.total hps (by omega) (by omega))

/-! ### The end of a clamped knot vector -/

theorem ulpsEq_of_val {a b : Float} (ha : IsFin a) (hb : IsFin b) (h : val a = val b) : ulpsEqF64 a b = true := by
  have e : val a - val b = 0 := sub_eq_zero.mpr h
  obtain ⟨f, r⟩ := sub_rounds ha hb (le_max_of_le_four (by rw [e, abs_zero]; norm_num))
  rw [e] at r
  have hv := r.of_rep rep_zero
  obtain ⟨f2, v2⟩ := fabs_val f
  rw [hv, abs_zero] at v2
  unfold ulpsEqF64
  rw [if_pos]
  rw [le_iff f2 epsilon_val.1, v2, epsilon_val.2]
  exact (two_zpow_pos _).le

/-- `span_index` at the last knot. -/
theorem KnotsF.spanIndex_end {knots : List Float} {n m : Nat} (h : KnotsF knots) (hlen : knots.length = n + 1)
    {u : Float} (fu : IsFin u) (hu : tval knots n ≤ val u) (hm : m < n)
    (heq : ∀ j, m < j → j ≤ n → tval knots j = tval knots n)
    (hne : ∀ j, j ≤ m → ulpsEqF64 (knot knots n) (knot knots j) = false) : KnotVector.spanIndex knots u = .ok m := by
  have hget : ∀ i (hi : i < knots.length), knots[i] = knot knots i := by
    intro i hi; simp [knot, List.getD, hi]
  have hpos : rposition (fun t => decide (t ≤ u)) knots = some n := by
    apply rposition_eq (by omega)
    · rw [hget n (by omega), decide_eq_true_iff, le_iff (h.at n (by omega)).1 fu]; exact hu
    · intro j hj hnj; omega
  have hmul : KnotVector.multiplicity knots n = .ok (n - m) := by
    unfold KnotVector.multiplicity
    rw [idx_ok (by omega), hget n (by omega)]
    simp only [ok_bind, pure_eq_ok, Except.ok.injEq]
    have hx : ∀ j, j < n + 1 → (ulpsEqF64 (knot knots n) (knot knots j) = true ↔ m + 1 ≤ j ∧ j < n + 1) := by
      intro j hj
      constructor
      · intro hc
        refine ⟨?_, hj⟩
        by_contra hlt
        rw [hne j (by omega)] at hc
        cases hc
      · rintro ⟨h1, _⟩
        exact ulpsEq_of_val (h.at n (by omega)).1 (h.at j (by omega)).1 (heq j (by omega) (by omega)).symm
    generalize knot knots n = x at hx
    have htab : knots = tab (n + 1) (knot knots) := by
      have := eq_tab_getD knots 0
      rw [hlen] at this
      exact this
    conv_lhs => rw [htab]
    rw [tab, List.filter_map, List.length_map]
    have := filter_range_interval (n + 1) (m + 1) (n + 1) (le_refl _)
      ((fun u => Env.ulpsEq x u) ∘ knot knots) (fun j hj => hx j hj)
    rw [this]
    omega
  unfold KnotVector.spanIndex
  rw [hpos]
  simp only []
  rw [usub_ok (by omega)]
  simp only [ok_bind, hlen, Nat.add_sub_cancel, if_true]
  rw [hmul]
  simp only [ok_bind]
  rw [usub_ok (by omega)]
  congr 1
  omega

/-- At the upper end of the span, if the following knots coincide, all rows are exact. -/
theorem F64.SpanF.row_end {knots : List Float} {n s p : Nat} {u : Float} (h : SpanF knots n s u) (hp : p ≤ s)
    (hn : s + p < n) (hs : s ≤ 2 ^ 40) (hu : ∀ j, s < j → j ≤ s + p + 1 → tval knots j = val u) {k : Nat} (hk : k ≤ p) (i : Nat) :
    val (basisTri (knot knots) u s k i) = if i = s then 1 else 0 := by
  induction k generalizing i with
  | zero =>
    rw [basisTri]
    split
    · exact one_val.2
    · exact zero_val.2
  | succ k ih =>
    have hrow := fun j => (h.row hp hn hs (k := k) (by omega)).1 j
    by_cases hi : s ≤ i + (k + 1) ∧ i ≤ s
    swap
    · rw [basisTri_of_not _ _ (by omega), if_neg (by omega)]; exact zero_val.2
    have prod0 : ∀ {a b : Float}, IsFin a → IsFin b → val a * val b = 0 → IsFin (a * b) ∧ val (a * b) = 0 := by
      intro a b fa fb e
      obtain ⟨f, r⟩ := mul_rounds fa fb (le_max_of_le_four (by rw [e, abs_zero]; norm_num))
      rw [e] at r
      exact ⟨f, r.of_rep rep_zero⟩
    -- the factor `b` below the span vanishes
    have hB : ∀ j, j + 1 = s → IsFin (basisB (knot knots) u k j) ∧ val (basisB (knot knots) u k j) = 0 := by
      intro j hj
      have e : val (knot knots (j + k + 2)) - val u = 0 := by
        have := hu (j + k + 2) (by omega) (by omega)
        unfold tval at this
        rw [this, sub_self]
      obtain ⟨f, r⟩ := sub_rounds (h.at (j + k + 2) (by omega)).1 h.fu (le_max_of_le_four (by rw [e, abs_zero]; norm_num))
      rw [e] at r
      have e2 := r.of_rep rep_zero
      have hd : IsFin (knot knots (j + k + 2) - knot knots (j + 1)) := by
        have a := h.at (j + k + 2) (by omega)
        have b := h.at (j + 1) (by omega)
        refine (sub_rounds a.1 b.1 (small_le_max ?_)).1
        refine (abs_sub _ _).trans (le_trans (add_le_add a.2 b.2) ?_)
        rw [← two_mul, two_mul_zpow]
        exact two_zpow_le (by norm_num)
      exact prod0 (invOrZero_fin hd).1 f (by rw [e2, mul_zero])
    have fA : IsFin (basisA (knot knots) u s k i) ∧ (i = s → val (basisA (knot knots) u s k i) = 1) := by
      by_cases hc : i + (k + 1) = s
      · rw [basisA, if_pos hc]
        exact ⟨h.weight (h.at _ (by omega)) (h.at _ (by omega)) ⟨h.fu, h.u_bound⟩ (h.at _ (by omega)), fun hcs => by omega⟩
      · rw [basisA, if_neg hc]
        obtain ⟨j, rfl⟩ : ∃ j, i = j + 1 := ⟨i - 1, by omega⟩
        rw [Nat.add_sub_cancel]
        obtain ⟨fb, b0, b1, -⟩ := h.basisB_inside (k := k) (i := j) (by omega) (by omega) (by omega)
        obtain ⟨fa, ra⟩ := sub_rounds one_val.1 fb
          (le_max_of_le_four (by rw [one_val.2, abs_of_nonneg (by linarith)]; linarith))
        refine ⟨fa, fun hjs => ?_⟩
        rw [(hB j hjs).2, one_val.2, sub_zero] at ra
        exact ra.of_rep rep_one
    have fB : IsFin (basisB (knot knots) u k i) :=
      h.weight (h.at _ (by omega)) (h.at _ (by omega)) (h.at _ (by omega)) ⟨h.fu, h.u_bound⟩
    rw [basisTri, if_pos hi]
    -- the right product is zero
    obtain ⟨fQ, vQ⟩ : IsFin (basisB (knot knots) u k i * basisTri (knot knots) u s k (i + 1)) ∧
        val (basisB (knot knots) u k i * basisTri (knot knots) u s k (i + 1)) = 0 := by
      refine prod0 fB (hrow (i + 1)).1 ?_
      rw [ih (by omega)]
      split
      · rename_i hc
        rw [(hB i hc).2, zero_mul]
      · rw [mul_zero]
    -- the left product
    have eP : val (basisA (knot knots) u s k i) * val (basisTri (knot knots) u s k i) = if i = s then 1 else 0 := by
      rw [ih (by omega)]
      split
      · rename_i hc
        rw [fA.2 hc, mul_one]
      · rw [mul_zero]
    have rep01 : Rep (if i = s then (1 : ℝ) else 0) := by
      split
      · exact rep_one
      · exact rep_zero
    have abs01 : |if i = s then (1 : ℝ) else 0| ≤ maxFinite := by
      refine le_max_of_le_four ?_
      split <;> norm_num
    obtain ⟨fP, rP⟩ := mul_rounds fA.1 (hrow i).1 (by rw [eP]; exact abs01)
    rw [eP] at rP
    have vP := rP.of_rep rep01
    obtain ⟨-, rS⟩ := add_rounds fP fQ (by rw [vP, vQ, add_zero]; exact abs01)
    rw [vP, vQ, add_zero] at rS
    exact rS.of_rep rep01

/-- **C99.** At the end of a clamped knot vector the weights are exact: the last one is 1, all others are 0. -/
theorem C99_end {knots : List Float} {n p : Nat} (hk : KnotsF knots) (hlen : knots.length = n + 1) (hp : 2 * p < n)
    (hn : n ≤ 2 ^ 40) (heq : ∀ j, n - p ≤ j → j ≤ n → val (knot knots j) = val (knot knots n))
    (hne : ∀ j, j < n - p → val (knot knots j) < val (knot knots n) ∧ ulpsEqF64 (knot knots n) (knot knots j) = false)
    {u : Float} (fu : IsFin u) (hu : val u = val (knot knots n)) :
    ∃ w, KnotVector.bsplineBasis knots p u = .ok w ∧ w.length = n - p ∧ (∀ x ∈ w, IsFin x) ∧
      w.map val = tab (n - p) (fun i => if i + 1 = n - p then 1 else 0) := by
  obtain ⟨s, hs⟩ : ∃ s, s + 1 = n - p := ⟨n - p - 1, by omega⟩
  have hsp := hk.spanIndex_end hlen fu hu.ge (m := s) (by omega) (fun j h1 h2 => heq j (by omega) h2)
    (fun j hj => (hne j (by omega)).2)
  have e1 : tval knots (s + 1) = tval knots n := heq _ (by omega) (by omega)
  have hF := hk.spanF hlen fu (s := s) (by omega) (by rw [e1]; exact (hne s (by omega)).1)
    (by rw [hu]; exact (hne s (by omega)).1.le) (by rw [e1, hu]; exact le_rfl)
  refine ⟨_, bsplineBasis_tri hlen hsp (by omega) (by omega), tab_length _ _, ?_, ?_⟩
  · intro x hx
    simp only [tab, List.mem_map, List.mem_range] at hx
    obtain ⟨i, -, rfl⟩ := hx
    exact ((hF.row (p := p) (by omega) (by omega) (by omega) (le_refl p)).1 i).1
  · rw [map_tab]
    apply tab_congr
    intro i hi
    rw [hF.row_end (p := p) (by omega) (by omega) (by omega)
      (fun j h1 h2 => (heq j (by omega) (by omega)).trans hu.symm) (le_refl p)]
    have : i = s ↔ i + 1 = n - p := by omega
    simp only [this]

/-- At the start they need not be: for the clamped knots `0, 0, 49, 49` the first weight at `0` is `1 - 2 ^ -53`,
because `1 / 49 * 49` is rounded to that. -/
theorem C99_start_not_exact :
    (KnotVector.bsplineBasis [0, 0, 49, (49 : Float)] 1 0).toOption.map (·.map Float.toBits)
      = some [0x3FEFFFFFFFFFFFFF, 0x3CA0000000000000] := by decide +kernel

/-- The separation of the knots is needed: `inv_or_zero` takes the span `2 ^ -52` for empty, and then the weights at the
*start* of the clamped vector are those of its end. -/
theorem C99_tiny_span (e : Float) (he : e.toBits = 0x3CB0000000000000) :
    (KnotVector.bsplineBasis [0, 0, e, e] 1 0).toOption.map (·.map Float.toBits) = some [0, 0x3FF0000000000000] := by
  obtain rfl : e = Float.ofBits 0x3CB0000000000000 := toBits_ext (he.trans (by decide +kernel))
  decide +kernel

example : KnotsF [0, 0, 1, (3 : Float), 3] ∧ val (knot [0, 0, 1, (3 : Float), 3] 1) ≤ val (2 : Float) ∧
    val (2 : Float) < val (knot [0, 0, 1, (3 : Float), 3] 3) := by
  have v1 := one_val
  have v0 := zero_val
  have v2 : IsFin (2 : Float) ∧ val (2 : Float) = 2 := by
    obtain ⟨a, b⟩ := ofNat_val (n := 2) (by norm_num)
    exact ⟨a, b.trans (by norm_num)⟩
  have v3 : IsFin (3 : Float) ∧ val (3 : Float) = 3 := by
    obtain ⟨a, b⟩ := ofNat_val (n := 3) (by norm_num)
    exact ⟨a, b.trans (by norm_num)⟩
  have hb : (3 : ℝ) ≤ 2 ^ (900 : Int) :=
    le_trans (by norm_num : (3 : ℝ) ≤ 2 ^ (2 : Int)) (two_zpow_le (by norm_num))
  have e51 : (2 : ℝ) ^ (-51 : Int) ≤ 1 := by norm_num
  refine ⟨⟨?_, ?_, ?_⟩, ?_, ?_⟩
  · intro x hx
    simp only [List.mem_cons, List.not_mem_nil, or_false] at hx
    rcases hx with rfl | rfl | rfl | rfl | rfl
    · exact ⟨v0.1, by rw [v0.2, abs_zero]; exact (two_zpow_pos _).le⟩
    · exact ⟨v0.1, by rw [v0.2, abs_zero]; exact (two_zpow_pos _).le⟩
    · exact ⟨v1.1, by rw [v1.2, abs_one]; exact le_trans (by norm_num) hb⟩
    · exact ⟨v3.1, by rw [v3.2, abs_of_pos (by norm_num)]; exact hb⟩
    · exact ⟨v3.1, by rw [v3.2, abs_of_pos (by norm_num)]; exact hb⟩
  · simp [v0.2, v1.2, v3.2]
  · intro i hi
    simp only [List.length_cons, List.length_nil] at hi
    obtain rfl | rfl | rfl | rfl : i = 0 ∨ i = 1 ∨ i = 2 ∨ i = 3 := by omega
    · simp [knot]
    · intro _; simp only [knot, List.getD, List.getElem?_cons_succ, List.getElem?_cons_zero, Option.getD_some, v0.2, v1.2]; linarith
    · intro _; simp only [knot, List.getD, List.getElem?_cons_succ, List.getElem?_cons_zero, Option.getD_some, v3.2, v1.2]; linarith
    · simp [knot]
  · simp [knot, v0.2, v2.2]
  · simp only [knot, List.getD, List.getElem?_cons_succ, List.getElem?_cons_zero, Option.getD_some, v3.2, v2.2]; norm_num

/-! ### C100 -/

/-- One coordinate of a B-spline curve. -/
theorem bspline_coord {knots : List Float} {n s p : Nat} {u : Float} (h : SpanF knots n s u) (hp : p ≤ s)
    (hn : s + p < n) (hs : s ≤ 2 ^ 40) {x : Nat → Float} {M : ℝ} (hM0 : 0 ≤ M) (hM : M ≤ 2 ^ (1022 : Int))
    (hx : ∀ i, i < n - p → IsFin (x i) ∧ |val (x i)| ≤ M) :
    IsFin (accum (basisTri (knot knots) u s p) x (n - p)) ∧
      |val (accum (basisTri (knot knots) u s p) x (n - p))
          - ∑ i ∈ Finset.range (n - p), piece (tval knots) s p i (val u) * val (x i)|
        ≤ (p + 1) * 2 ^ (-48 : Int) * M + (p + 1) * 2 ^ (-1073 : Int) := by
  have hε := eps_pos
  have hη := eta_pos
  have hrow := (h.row hp hn hs (le_refl p)).1
  have htot := h.total hp hn hs
  have e49 : (2 : ℝ) ^ (-49 : Int) = 16 * eps := by rw [eps_eq]; norm_num
  have e48 : (2 : ℝ) ^ (-48 : Int) = 32 * eps := by rw [eps_eq]; norm_num
  have e73 : (2 : ℝ) ^ (-1073 : Int) = 4 * eta := by
    rw [eta, show (-1073 : Int) = 2 + -1075 by norm_num, zpow_add₀ (by norm_num)]
    norm_num
  rw [e49] at htot
  have hp0 : (0 : ℝ) ≤ p := Nat.cast_nonneg _
  have hpR : (p : ℝ) ≤ 2 ^ 40 := by exact_mod_cast (by omega : p ≤ 2 ^ 40)
  have hpe : (p : ℝ) * eps ≤ 1 / 1000 := by
    calc (p : ℝ) * eps ≤ 2 ^ 40 * eps := mul_le_mul_of_nonneg_right hpR hε.le
      _ ≤ 1 / 1000 := by rw [eps_eq]; norm_num
  have hS : ∑ i ∈ Finset.range (n - p), val (basisTri (knot knots) u s p i) ≤ 9 / 8 := by
    have h2 : ∑ i ∈ Finset.range (n - p), val (basisTri (knot knots) u s p i)
        = 1 + ∑ i ∈ Finset.range (n - p), (val (basisTri (knot knots) u s p i) - piece (tval knots) s p i (val u)) := by
      rw [Finset.sum_sub_distrib, piece_sum h.spanAt (val u) p (n - p) hp (by omega) (by omega)]
      ring
    have h3 := (le_abs_self _).trans (Finset.abs_sum_le_sum_abs
      (fun i => val (basisTri (knot knots) u s p i) - piece (tval knots) s p i (val u)) (Finset.range (n - p)))
    linarith
  obtain ⟨ff, ef⟩ := accum_apx_count (κ := fun i => min (i - (s - p)) (p + 1)) hM0 hM
    (show min (n - p - (s - p)) (p + 1) ≤ 2 ^ 41 by omega)
    (fun i _ => ⟨by show min (i - (s - p)) (p + 1) ≤ min (i + 1 - (s - p)) (p + 1); omega, by
      by_cases hc : i + p < s ∨ s < i
      · left
        rw [basisTri_of_not _ _ hc]; exact zero_val.2
      · right
        show min (i - (s - p)) (p + 1) + 1 ≤ min (i + 1 - (s - p)) (p + 1)
        omega⟩)
    (fun i _ => hrow i) hx hS
  refine ⟨ff, ?_⟩
  have hκ : ((min (n - p - (s - p)) (p + 1) : Nat) : ℝ) ≤ p + 1 := by exact_mod_cast Nat.min_le_right _ _
  have h1 : 0 ≤ eps * M := mul_nonneg hε.le hM0
  have ef' := ef.trans (mul_le_mul_of_nonneg_right hκ (by linarith : 0 ≤ 3 * eps * M + 3 * eta))
  have hw : |∑ i ∈ Finset.range (n - p), val (basisTri (knot knots) u s p i) * val (x i)
      - ∑ i ∈ Finset.range (n - p), piece (tval knots) s p i (val u) * val (x i)| ≤ p * (16 * eps) * M := by
    rw [← Finset.sum_sub_distrib]
    refine (Finset.abs_sum_le_sum_abs _ _).trans ?_
    calc _ ≤ ∑ i ∈ Finset.range (n - p), |val (basisTri (knot knots) u s p i) - piece (tval knots) s p i (val u)| * M := by
          refine Finset.sum_le_sum fun i hi => ?_
          rw [Finset.mem_range] at hi
          rw [← sub_mul, abs_mul]
          exact mul_le_mul_of_nonneg_left (hx i hi).2 (abs_nonneg _)
      _ ≤ p * (16 * eps) * M := by
          rw [← Finset.sum_mul]
          exact mul_le_mul_of_nonneg_right htot hM0
  rw [e48, e73]
  refine (abs_sub_le _ (∑ i ∈ Finset.range (n - p), val (basisTri (knot knots) u s p i) * val (x i)) _).trans ?_
  refine (add_le_add ef' hw).trans ?_
  nlinarith [mul_nonneg hp0 h1, mul_nonneg hp0 hη.le]

/-- The curve through the real control points over the real knots. -/
noncomputable def realCurve (c : BSplineCurve Float (V3 Float)) : BSplineCurve ℝ (V3 ℝ) :=
  ⟨c.controlPoints.map toReal, c.knots.map val, c.degree⟩

/-- Evaluation on a span, against the exact curve. -/
theorem bspline_span {c : BSplineCurve Float (V3 Float)} {n s : Nat} {u : Float} (h : SpanF c.knots n s u)
    (hp : c.degree ≤ s) (hn : s + c.degree < n) (hs : s ≤ 2 ^ 40) (hcp : c.controlPoints.length + c.degree = n)
    (hsp : KnotVector.spanIndex c.knots u = .ok s)
    (hend : val u < tval c.knots (s + 1) ∨ (val u = tval c.knots n ∧ tval c.knots (s + 1) = tval c.knots n))
    {M : ℝ} (hM : M ≤ 2 ^ (1022 : Int)) (hb : ∀ p ∈ c.controlPoints, Bounded M p) :
    ∃ x q, c.getPoint u = .ok x ∧ (realCurve c).getPoint (val u) = .ok q ∧
      Near ((c.degree + 1) * 2 ^ (-48 : Int) * M + (c.degree + 1) * 2 ^ (-1073 : Int)) x q := by
  have hlen : n - c.degree = c.controlPoints.length := by omega
  have hM0 : 0 ≤ M := (abs_nonneg _).trans (hb _ (getD_mem_of_lt (i := 0) (by omega) 0)).1.2
  have hget : c.getPoint u
      = .ok (linComb (tab c.controlPoints.length (basisTri (knot c.knots) u s c.degree)) c.controlPoints) := by
    unfold BSplineCurve.getPoint
    rw [bsplineBasis_tri h.len hsp hp hn, hlen]
    rfl
  have hlo : tval c.knots s ≤ val u := h.lo
  have hv : (realCurve c).Valid := by
    refine ⟨?_, h.sorted, resolved_real _, ?_, ?_⟩
    · simp only [realCurve, List.length_map]
      rw [h.len]; omega
    · have a := h.mono 0 s (by omega) h.lt.le
      have b := h.mono (s + 1) n h.lt le_rfl
      have d := h.spanAt.nonempty
      simp only [realCurve, List.length_map, hcp]
      rw [← tval_eq]
      linarith
    · simp only [realCurve, List.length_map]; omega
  have hq : (realCurve c).getPoint (val u) = .ok ((realCurve c).pieceSum s (val u)) := by
    refine getPoint_of_contains hv ?_
    simp only [realCurve, List.length_map, hcp]
    rw [← tval_eq]
    refine ⟨h.lt, h.spanAt.nonempty, hlo, ?_⟩
    rcases hend with h1 | ⟨h1, h2⟩
    · exact Or.inl h1
    · exact Or.inr ⟨h1.ge, h2⟩
  refine ⟨_, _, hget, hq, ?_⟩
  have hcoord := fun (π : V3 Float → Float) (hπ : ∀ p ∈ c.controlPoints, IsFin (π p) ∧ |val (π p)| ≤ M) =>
    bspline_coord h hp hn hs hM0 hM (x := fun i => π (c.controlPoints.getD i 0))
      (fun i hi => hπ _ (getD_mem_of_lt (by omega) 0))
  rw [hlen] at hcoord
  have hsum : (realCurve c).pieceSum s (val u) = ∑ i ∈ Finset.range c.controlPoints.length,
      piece (tval c.knots) s c.degree i (val u) • toReal (c.controlPoints.getD i 0) := by
    unfold BSplineCurve.pieceSum
    simp only [realCurve, List.length_map]
    rw [← tval_eq]
    refine Finset.sum_congr rfl fun i hi => ?_
    rw [Finset.mem_range] at hi
    congr 1
    simp [cp, List.getD, hi]
  have hx : ∀ (s : Finset Nat) (f : Nat → V3 ℝ), (∑ i ∈ s, f i).x = ∑ i ∈ s, (f i).x :=
    fun s f => map_sum (⟨⟨V3.x, rfl⟩, fun _ _ => rfl⟩ : V3 ℝ →+ ℝ) f s
  have hy : ∀ (s : Finset Nat) (f : Nat → V3 ℝ), (∑ i ∈ s, f i).y = ∑ i ∈ s, (f i).y :=
    fun s f => map_sum (⟨⟨V3.y, rfl⟩, fun _ _ => rfl⟩ : V3 ℝ →+ ℝ) f s
  have hz : ∀ (s : Finset Nat) (f : Nat → V3 ℝ), (∑ i ∈ s, f i).z = ∑ i ∈ s, (f i).z :=
    fun s f => map_sum (⟨⟨V3.z, rfl⟩, fun _ _ => rfl⟩ : V3 ℝ →+ ℝ) f s
  rw [hsum]
  refine ⟨?_, ?_, ?_⟩
  · rw [v3_accum_x, hx]
    exact hcoord (fun p => p.x) (fun p h => (hb p h).1)
  · rw [v3_accum_y, hy]
    exact hcoord (fun p => p.y) (fun p h => (hb p h).2.1)
  · rw [v3_accum_z, hz]
    exact hcoord (fun p => p.z) (fun p h => (hb p h).2.2)

/-- **C100.** For every binary64 parameter of the domain, evaluation of a B-spline curve of degree `p` gives a point
with finite coordinates that differ from those of the exact curve by at most `(p + 1) * 2 ^ -48 * M` (next to the
underflow), where `M` bounds the coordinates of the control points; the number of control points does not matter. -/
theorem C100_error (c : BSplineCurve Float (V3 Float)) {n : Nat} (hk : KnotsF c.knots) (hlen : c.knots.length = n + 1)
    (hcp : c.controlPoints.length + c.degree = n) (hpts : 0 < c.controlPoints.length) (hn : n ≤ 2 ^ 40)
    (u : Float) (fu : IsFin u) (h1 : val (knot c.knots c.degree) ≤ val u)
    (h2 : val u < val (knot c.knots c.controlPoints.length)) (M : ℝ) (hM : M ≤ 2 ^ (1022 : Int))
    (hb : ∀ p ∈ c.controlPoints, Bounded M p) :
    ∃ x q, c.getPoint u = .ok x ∧ (realCurve c).getPoint (val u) = .ok q ∧
      Near ((c.degree + 1) * 2 ^ (-48 : Int) * M + (c.degree + 1) * 2 ^ (-1073 : Int)) x q := by
  obtain ⟨s, hs, hps, hsn, hlo, hhi⟩ := hk.spanIndex hlen fu (a := c.degree) (b := c.controlPoints.length) (by omega)
    (by omega) h1 h2
  have hF := hk.spanF hlen fu (by omega) (by linarith) hlo hhi.le
  exact bspline_span hF hps (by omega) (by omega) hcp hs (Or.inl hhi) hM hb

/-- **C100.** At the end of a clamped knot vector the curve gives exactly its last control point. -/
theorem C100_end (c : BSplineCurve Float (V3 Float)) {n : Nat} (hk : KnotsF c.knots) (hlen : c.knots.length = n + 1)
    (hcp : c.controlPoints.length + c.degree = n) (hp : 2 * c.degree < n) (hn : n ≤ 2 ^ 40)
    (heq : ∀ j, n - c.degree ≤ j → j ≤ n → val (knot c.knots j) = val (knot c.knots n))
    (hne : ∀ j, j < n - c.degree → val (knot c.knots j) < val (knot c.knots n) ∧
      ulpsEqF64 (knot c.knots n) (knot c.knots j) = false)
    (u : Float) (fu : IsFin u) (hu : val u = val (knot c.knots n))
    (hb : ∀ p ∈ c.controlPoints, IsFin p.x ∧ IsFin p.y ∧ IsFin p.z) :
    ∃ x, c.getPoint u = .ok x ∧ IsFin x.x ∧ IsFin x.y ∧ IsFin x.z ∧
      toReal x = toReal (c.controlPoints.getD (c.controlPoints.length - 1) 0) := by
  obtain ⟨s, hs⟩ : ∃ s, s + 1 = n - c.degree := ⟨n - c.degree - 1, by omega⟩
  have hsp := hk.spanIndex_end hlen fu hu.ge (m := s) (by omega) (fun j h1 h2 => heq j (by omega) h2)
    (fun j hj => (hne j (by omega)).2)
  have e1 : tval c.knots (s + 1) = tval c.knots n := heq _ (by omega) (by omega)
  have hF := hk.spanF hlen fu (s := s) (by omega) (by rw [e1]; exact (hne s (by omega)).1)
    (by rw [hu]; exact (hne s (by omega)).1.le) (by rw [e1, hu]; exact le_rfl)
  have hl : n - c.degree = c.controlPoints.length := by omega
  have hget : c.getPoint u
      = .ok (linComb (tab c.controlPoints.length (basisTri (knot c.knots) u s c.degree)) c.controlPoints) := by
    unfold BSplineCurve.getPoint
    rw [bsplineBasis_tri hlen hsp (by omega) (by omega), hl]
    rfl
  refine ⟨_, hget, ?_⟩
  have hw : ∀ i, i < c.controlPoints.length → IsFin (basisTri (knot c.knots) u s c.degree i) ∧
      val (basisTri (knot c.knots) u s c.degree i) = if i = c.controlPoints.length - 1 then 1 else 0 := by
    intro i hi
    refine ⟨((hF.row (p := c.degree) (by omega) (by omega) (by omega) (le_refl _)).1 i).1, ?_⟩
    rw [hF.row_end (p := c.degree) (by omega) (by omega) (by omega)
      (fun j h1 h2 => (heq j (by omega) (by omega)).trans hu.symm) (le_refl _)]
    have : i = s ↔ i = c.controlPoints.length - 1 := by omega
    simp only [this]
  have key : ∀ π : V3 Float → Float, (∀ p ∈ c.controlPoints, IsFin (π p)) → _ :=
    fun π hπ => accum_select (p := fun i => π (c.controlPoints.getD i 0)) hw (fun i hi => hπ _ (getD_mem_of_lt hi 0))
  have kx := key (fun p => p.x) (fun p h => (hb p h).1)
  have ky := key (fun p => p.y) (fun p h => (hb p h).2.1)
  have kz := key (fun p => p.z) (fun p h => (hb p h).2.2)
  rw [if_pos (by omega)] at kx ky kz
  unfold toReal
  rw [v3_accum_x, v3_accum_y, v3_accum_z]
  exact ⟨kx.1, ky.1, kz.1, by rw [kx.2, ky.2, kz.2]⟩

/-- At the start a clamped curve need not pass exactly through its first control point. -/
theorem C100_start_not_exact :
    ((BSplineCurve.mk [(⟨1, 0, 0⟩ : V3 Float), ⟨0, 1, 0⟩] [0, 0, 49, (49 : Float)] 1).getPoint 0).toOption.map
      (fun p => (p.x.toBits, p.y.toBits, p.z.toBits)) = some (0x3FEFFFFFFFFFFFFF, 0x3CA0000000000000, 0) := by
  decide +kernel

example : ((BSplineCurve.mk [(⟨1, 0, 0⟩ : V3 Float), ⟨0, 1, 0⟩, ⟨0, 0, 7⟩] [0, 0, 1, (3 : Float), 3] 1).getPoint 3).toOption.map
      (fun p => (p.x.toBits, p.y.toBits, p.z)) = some (0, 0, 7) := by
  decide +kernel

end Geom3d
