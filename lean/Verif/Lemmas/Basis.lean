import Verif.Lemmas.Span
import Mathlib.Algebra.Order.Field.Basic
import Mathlib.Tactic.Ring
import Mathlib.Tactic.FieldSimp
import Mathlib.Tactic.Linarith

/-! The in-place loop of `bspline_basis` computes the Cox–de Boor recursion seeded at the span. -/

set_option linter.unusedSectionVars false

namespace Geom3d
open Spec

section piece
variable {K : Type} [Field K]

/-- Local support: the piece of `N_{i,k}` on span `s` vanishes unless `i ≤ s ≤ i + k`. -/
theorem piece_eq_zero (t : Nat → K) (s k i : Nat) (u : K) (h : s < i ∨ i + k < s) :
    piece t s k i u = 0 := by
  induction k generalizing i with
  | zero => simp only [piece]; rw [if_neg]; omega
  | succ k ih =>
    simp only [piece]
    rw [ih i (by omega), ih (i + 1) (by omega)]
    ring

theorem piece_congr {t t' : Nat → K} {s k i : Nat} {u : K}
    (h : ∀ j, i ≤ j → j ≤ i + k + 1 → t j = t' j) : piece t s k i u = piece t' s k i u := by
  induction k generalizing i with
  | zero => rfl
  | succ k ih =>
    simp only [piece]
    rw [ih (i := i) (fun j h1 h2 => h j h1 (by omega)),
      ih (i := i + 1) (fun j h1 h2 => h j (by omega) (by omega)),
      h i (by omega) (by omega), h (i + k + 1) (by omega) (by omega),
      h (i + k + 2) (by omega) (by omega), h (i + 1) (by omega) (by omega)]

end piece

section
variable {K : Type} [Field K] [LinearOrder K] [IsStrictOrderedRing K] [Env K]

/-- A knot vector with `n + 1` knots and a non-empty span `s`. -/
structure SpanOk (knots : List K) (n s : Nat) : Prop where
  len : knots.length = n + 1
  sorted : Sorted knots
  resolved : Resolved knots
  lt : s < n
  nonempty : knot knots s < knot knots (s + 1)

theorem invOrZero_knots {knots : List K} (hr : Resolved knots) {i j : Nat} (hi : i < knots.length)
    (hj : j < knots.length) :
    invOrZero (knot knots i - knot knots j) = 1 / (knot knots i - knot knots j) := by
  unfold invOrZero
  have := hr.sub _ (knot_mem hi) _ (knot_mem hj)
  split
  · rename_i h
    rw [this.1 h]; simp
  · rfl

/-- Where the piece is non-zero the left denominator is positive. -/
theorem SpanOk.denom_pos {knots : List K} {n s : Nat} (h : SpanOk knots n s) {i k : Nat}
    (h1 : i ≤ s) (h2 : s ≤ i + k) (h3 : i + k + 1 ≤ n) : knot knots i < knot knots (i + k + 1) := by
  have hl := h.len
  calc knot knots i ≤ knot knots s := h.sorted.knot_le h1 (by omega)
    _ < knot knots (s + 1) := h.nonempty
    _ ≤ _ := h.sorted.knot_le (by omega) (by omega)

/-- The weight `1 - b` carried by the inner loop equals the textbook left weight wherever it matters. -/
theorem carried_weight {knots : List K} {n s : Nat} (h : SpanOk knots n s) {i k : Nat} (u : K)
    (hik : i + k + 1 ≤ n) :
    (1 - 1 / (knot knots (i + k + 1) - knot knots i) * (knot knots (i + k + 1) - u))
        * piece (knot knots) s k i u
      = (u - knot knots i) / (knot knots (i + k + 1) - knot knots i) * piece (knot knots) s k i u := by
  by_cases hsup : s < i ∨ i + k < s
  · rw [piece_eq_zero _ _ _ _ _ hsup]; ring
  · have := h.denom_pos (i := i) (k := k) (by omega) (by omega) hik
    have hne : knot knots (i + k + 1) - knot knots i ≠ 0 := by
      intro h0; rw [sub_eq_zero] at h0; rw [h0] at this; exact lt_irrefl _ this
    congr 1
    field_simp
    ring

theorem basisOuter_spec {knots : List K} {n s : Nat} (h : SpanOk knots n s) (u : K) {k : Nat}
    (hk : k + 1 < n) (f : Nat → K) (hf : ∀ i, i + k < n → f i = piece (knot knots) s k i u) :
    ∃ g : Nat → K, basisOuter knots u n s (tab n f) (k + 1) = .ok (tab n g) ∧
      ∀ i, i + (k + 1) < n → g i = piece (knot knots) s (k + 1) i u := by
  have hl := h.len
  have hsn := h.lt
  set t := knot knots with ht
  -- base and max
  obtain ⟨base, hbase⟩ : ∃ base, base = if s < k + 1 then 0 else s - (k + 1) := ⟨_, rfl⟩
  obtain ⟨mx, hmx⟩ : ∃ mx, mx = if s + (k + 1) < n then s else n - (k + 1) - 1 := ⟨_, rfl⟩
  have hb1 : base ≤ mx := by rw [hbase, hmx]; split <;> split <;> omega
  have hm1 : mx + (k + 1) < n := by rw [hmx]; split <;> omega
  have hb2 : ∀ i, i < base → i + (k + 1) < s := by
    intro i hi; rw [hbase] at hi; split at hi <;> omega
  have hm2 : ∀ i, mx < i → i + (k + 1) < n → s < i := by
    intro i hi hi2; rw [hmx] at hi; split at hi <;> omega
  obtain ⟨s', h1, h2⟩ := forRange_inv (a := base) (b := mx + 1)
    (s := (tab n f, 1 / (t (base + (k + 1)) - t base) * (u - t base)))
    (body := basisInner knots u (k + 1))
    (fun i st => ∃ (g : Nat → K) (a : K), st = (tab n g, a) ∧
      (∀ j, j < i → j + (k + 1) < n → g j = piece t s (k + 1) j u) ∧
      (∀ j, i ≤ j → g j = f j) ∧
      a * piece t s k i u = (u - t i) / (t (i + k + 1) - t i) * piece t s k i u)
    (by omega)
    (by
      refine ⟨f, _, rfl, ?_, fun _ _ => rfl, ?_⟩
      · intro j hj _
        rw [hf j (by omega), piece_eq_zero _ _ _ _ _ (Or.inr (by have := hb2 j hj; omega)),
          piece_eq_zero _ _ _ _ _ (Or.inr (hb2 j hj))]
      · rw [show base + (k + 1) = base + k + 1 by omega]
        congr 1; ring)
    (by
      rintro i st hi1 hi2 ⟨g, a, rfl, hg1, hg2, ha⟩
      have e1 : i + (k + 1) + 1 = i + k + 2 := by omega
      refine ⟨(tab n (Function.update g i (a * g i
          + 1 / (t (i + k + 2) - t (i + 1)) * (t (i + k + 2) - u) * g (i + 1))),
          1 - 1 / (t (i + k + 2) - t (i + 1)) * (t (i + k + 2) - u)), ?_, _, _, rfl, ?_, ?_, ?_⟩
      · simp only [basisInner]
        rw [idx_knot (by omega), idx_knot (by omega)]
        simp only [ok_bind]
        rw [idx_tab (by omega), idx_tab (by omega)]
        simp only [ok_bind]
        rw [upd_tab (by omega)]
        simp only [ok_bind, pure_eq_ok]
        rw [invOrZero_knots h.resolved (by omega) (by omega), e1]
      · intro j hj hjn
        by_cases hji : j = i
        · subst hji
          rw [Function.update_self, hg2 j (le_refl _), hg2 (j + 1) (by omega), hf j (by omega),
            hf (j + 1) (by omega), ha]
          simp only [piece]
          congr 2; ring
        · rw [Function.update_of_ne hji]
          exact hg1 j (by omega) hjn
      · intro j hj
        rw [Function.update_of_ne (by omega)]
        exact hg2 j (by omega)
      · have := carried_weight h (i := i + 1) (k := k) u (by omega)
        rw [show i + 1 + k + 1 = i + k + 2 by omega] at this
        rw [show i + 1 + k + 1 = i + k + 2 by omega]
        exact this)
  obtain ⟨g, a, rfl, hg1, hg2, -⟩ := h2
  refine ⟨g, ?_, ?_⟩
  · simp only [basisOuter]
    rw [← hbase, idx_knot (by omega), idx_knot (by omega)]
    simp only [ok_bind]
    have hfin : (forRange base (mx + 1) (tab n f,
        invOrZero (knot knots (base + (k + 1)) - knot knots base) * (u - knot knots base))
        (basisInner knots u (k + 1)) >>= fun st => pure st.1) = .ok (tab n g) := by
      rw [invOrZero_knots h.resolved (by omega) (by omega), ← ht, h1]
      rfl
    split
    · rename_i hc
      rw [if_pos hc] at hmx
      rw [hmx] at hfin
      exact hfin
    · rename_i hc
      rw [if_neg hc] at hmx
      rw [usub_ok (by omega)]; simp only [ok_bind]; rw [usub_ok (by omega), ← hmx]
      exact hfin
  · intro i hi
    rcases Nat.lt_or_ge mx i with hmi | hmi
    · rw [hg2 i (by omega), hf i (by omega), piece_eq_zero _ _ _ _ _ (Or.inl (hm2 i hmi hi)),
        piece_eq_zero _ _ _ _ _ (Or.inl (hm2 i hmi hi))]
    · exact hg1 i (by omega) hi

/-- The double loop of `bspline_basis`, started on any non-empty span, computes that span's pieces. -/
theorem basis_loop {knots : List K} {n s : Nat} (h : SpanOk knots n s) (u : K) {p : Nat} (hp : p < n) :
    ∃ g : Nat → K,
      forRange 1 (p + 1) (tab n (Function.update (fun _ => 0) s 1)) (basisOuter knots u n s)
        = .ok (tab n g) ∧ ∀ i, i + p < n → g i = piece (knot knots) s p i u := by
  obtain ⟨s', h1, h2⟩ := forRange_inv (a := 1) (b := p + 1)
    (s := tab n (Function.update (fun _ => (0 : K)) s 1)) (body := basisOuter knots u n s)
    (fun k st => ∃ g : Nat → K, st = tab n g ∧
      ∀ i, i + (k - 1) < n → g i = piece (knot knots) s (k - 1) i u)
    (by omega)
    (by
      refine ⟨_, rfl, ?_⟩
      intro i _
      simp only [Nat.sub_self, piece, Function.update_apply])
    (by
      rintro k st hk1 hk2 ⟨g, rfl, hg⟩
      obtain ⟨k, rfl⟩ : ∃ m, k = m + 1 := ⟨k - 1, by omega⟩
      simp only [Nat.add_sub_cancel] at hg ⊢
      obtain ⟨g', hg1, hg2⟩ := basisOuter_spec h u (k := k) (by omega) g hg
      exact ⟨_, hg1, g', rfl, hg2⟩)
  obtain ⟨g, rfl, hg⟩ := h2
  exact ⟨g, h1, by simpa using hg⟩

/-- `bspline_basis` in terms of `span_index`: the pieces of the span found. -/
theorem bsplineBasis_of_span {knots : List K} {n s : Nat} (h : SpanOk knots n s) {u : K} {p : Nat}
    (hp : p < n) (hs : KnotVector.spanIndex knots u = .ok s) :
    KnotVector.bsplineBasis knots p u
      = .ok (tab (n - p) (fun i => piece (knot knots) s p i u)) := by
  obtain ⟨g, hg1, hg2⟩ := basis_loop h u hp
  unfold KnotVector.bsplineBasis
  rw [usub_ok (by have := h.len; omega)]
  simp only [ok_bind, hs, h.len, Nat.add_sub_cancel]
  rw [replicate_eq_tab, upd_tab h.lt]
  simp only [ok_bind]
  rw [hg1]
  simp only [ok_bind]
  rw [usub_ok (by omega)]
  simp only [ok_bind, pure_eq_ok]
  rw [take_tab _ _ _ (by omega)]
  congr 1
  apply tab_congr
  intro i hi
  exact hg2 i (by omega)

/-- For `u` in the knot range or above it, `span_index` finds a non-empty span. -/
theorem spanOk_of_range {knots : List K} {n : Nat} (hlen : knots.length = n + 1) (hs : Sorted knots)
    (hr : Resolved knots) (hne : knot knots 0 < knot knots n) {u : K} (hu : knot knots 0 ≤ u) :
    ∃ s, KnotVector.spanIndex knots u = .ok s ∧ SpanOk knots n s ∧ knot knots s ≤ u ∧
      (u < knot knots (s + 1) ∨ (knot knots n ≤ u ∧ knot knots (s + 1) = knot knots n)) := by
  rcases lt_or_ge u (knot knots n) with h | h
  · obtain ⟨s, h1, h2, h3, h4⟩ := spanIndex_inner hlen hu h
    exact ⟨s, h1, ⟨hlen, hs, hr, h2, lt_of_le_of_lt h3 h4⟩, h3, Or.inl h4⟩
  · obtain ⟨s, h1, h2, h3, h4⟩ := spanIndex_last hs hr hlen hne h
    exact ⟨s, h1, ⟨hlen, hs, hr, h2, h3⟩, le_trans (le_of_lt h3) (h4 ▸ h), Or.inr ⟨h, h4⟩⟩

open Classical in
/-- On the span containing `u` the pieces are the textbook basis functions. -/
theorem piece_eq_coxDeBoor {knots : List K} {n s : Nat} (h : SpanOk knots n s) {u : K}
    (h1 : knot knots s ≤ u)
    (h2 : u < knot knots (s + 1) ∨ (u = knot knots n ∧ knot knots (s + 1) = knot knots n))
    (k i : Nat) (hik : i + k < n) :
    piece (knot knots) s k i u = coxDeBoor (knot knots) (knot knots n) k i u := by
  induction k generalizing i with
  | zero =>
    simp only [piece, coxDeBoor]
    have hlen := h.len
    have hsn := h.lt
    congr 1
    apply propext
    constructor
    · rintro rfl
      rcases h2 with h2 | ⟨h2, h3⟩
      · exact Or.inl ⟨h1, h2⟩
      · refine Or.inr ⟨h2, ?_, h3⟩
        rw [← h3]; exact h.nonempty
    · rintro (⟨h3, h4⟩ | ⟨h3, h4, h5⟩)
      · rcases Nat.lt_trichotomy i s with hlt | heq | hgt
        · have := h.sorted.knot_le (i := i + 1) (j := s) (by omega) (by omega)
          exact absurd (lt_of_lt_of_le h4 (le_trans this h1)) (lt_irrefl _)
        · exact heq
        · have := h.sorted.knot_le (i := s + 1) (j := i) (by omega) (by omega)
          rcases h2 with h2 | ⟨h2, h6⟩
          · exact absurd (lt_of_lt_of_le h2 (le_trans this h3)) (lt_irrefl _)
          · have h7 := h.sorted.knot_le (i := i + 1) (j := n) (by omega) (by omega)
            rw [h2] at h4
            exact absurd (lt_of_lt_of_le h4 h7) (lt_irrefl _)
      · rcases h2 with h2 | ⟨h2, h6⟩
        · have := h.sorted.knot_le (i := s + 1) (j := n) (by omega) (by omega)
          rw [h3] at h2
          exact absurd (lt_of_lt_of_le h2 this) (lt_irrefl _)
        · rcases Nat.lt_trichotomy i s with hlt | heq | hgt
          · have := h.sorted.knot_le (i := i + 1) (j := s) (by omega) (by omega)
            rw [h5] at this
            have h8 := h.nonempty
            rw [h6] at h8
            exact absurd (lt_of_le_of_lt this h8) (lt_irrefl _)
          · exact heq
          · have := h.sorted.knot_le (i := s + 1) (j := i) (by omega) (by omega)
            rw [h6] at this
            exact absurd (lt_of_lt_of_le h4 this) (lt_irrefl _)
  | succ k ih =>
    simp only [piece, coxDeBoor]
    rw [ih i (by omega), ih (i + 1) (by omega)]

end

end Geom3d
