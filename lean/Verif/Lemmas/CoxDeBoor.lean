import Verif.Lemmas.Basis
import Mathlib.Algebra.BigOperators.Group.Finset.Basic
import Mathlib.Algebra.Order.BigOperators.Group.Finset
import Mathlib.Algebra.BigOperators.Intervals
import Mathlib.Tactic.LinearCombination

/-! Function-level facts about the Cox–de Boor pieces: positivity, partition of unity, knot insertion. -/

set_option linter.unusedSectionVars false

namespace Geom3d
open Spec

variable {K : Type} [Field K] [LinearOrder K] [IsStrictOrderedRing K]

/-- `t 0 ≤ … ≤ t n` with a non-empty span `s`. -/
structure SpanAt (t : Nat → K) (n s : Nat) : Prop where
  mono : ∀ i j, i ≤ j → j ≤ n → t i ≤ t j
  lt : s < n
  nonempty : t s < t (s + 1)

theorem SpanOk.spanAt [Env K] {knots : List K} {n s : Nat} (h : SpanOk knots n s) :
    SpanAt (knot knots) n s :=
  ⟨fun _ _ hij hj => h.sorted.knot_le hij (by rw [h.len]; omega), h.lt, h.nonempty⟩

theorem SpanAt.pos {t : Nat → K} {n s : Nat} (h : SpanAt t n s) {i j : Nat}
    (h1 : i ≤ s) (h2 : s + 1 ≤ j) (h3 : j ≤ n) : 0 < t j - t i := by
  have a := h.mono i s h1 (by have := h.lt; omega)
  have b := h.mono (s + 1) j h2 h3
  have c := h.nonempty
  linarith

theorem SpanAt.mono_n {t : Nat → K} {n n' s : Nat} (h : SpanAt t n s) (h1 : n' ≤ n) (h2 : s < n') :
    SpanAt t n' s := ⟨fun i j hij hj => h.mono i j hij (by omega), h2, h.nonempty⟩

/-- Non-negativity of the pieces on the closed span. -/
theorem piece_nonneg {t : Nat → K} {n s : Nat} (h : SpanAt t n s) {u : K} (h1 : t s ≤ u)
    (h2 : u ≤ t (s + 1)) (k i : Nat) (hik : i + k < n) : 0 ≤ piece t s k i u := by
  induction k generalizing i with
  | zero => simp only [piece]; split <;> simp
  | succ k ih =>
    simp only [piece]
    have hs := h.lt
    apply add_nonneg
    · by_cases hc : s < i ∨ i + k < s
      · rw [piece_eq_zero _ _ _ _ _ hc, mul_zero]
      · apply mul_nonneg _ (ih i (by omega))
        apply div_nonneg
        · have := h.mono i s (by omega) (by omega); linarith
        · exact le_of_lt (h.pos (by omega) (by omega) (by omega))
    · by_cases hc : s < i + 1 ∨ i + 1 + k < s
      · rw [piece_eq_zero _ _ _ _ _ hc, mul_zero]
      · apply mul_nonneg _ (ih (i + 1) (by omega))
        apply div_nonneg
        · have := h.mono (s + 1) (i + k + 2) (by omega) (by omega); linarith
        · exact le_of_lt (h.pos (by omega) (by omega) (by omega))

/-- Left and right weights add up to one wherever the piece is non-zero. -/
theorem weights_add {t : Nat → K} {n s : Nat} (h : SpanAt t n s) (u : K) (k i : Nat)
    (hik : i + k < n) :
    (u - t i) / (t (i + k + 1) - t i) * piece t s k i u
      + (t (i + k + 1) - u) / (t (i + k + 1) - t i) * piece t s k i u = piece t s k i u := by
  by_cases hc : s < i ∨ i + k < s
  · rw [piece_eq_zero _ _ _ _ _ hc]; ring
  · have := h.pos (i := i) (j := i + k + 1) (by omega) (by omega) (by omega)
    rw [← add_mul, ← add_div, show u - t i + (t (i + k + 1) - u) = t (i + k + 1) - t i by ring,
      div_self (ne_of_gt this), one_mul]

open Finset in
/-- Partition of unity: if all pieces living on span `s` are summed, the sum is one (for every `u`). -/
theorem piece_sum {t : Nat → K} {n s : Nat} (h : SpanAt t n s) (u : K) (k N : Nat)
    (hks : k ≤ s) (hN : s < N) (hn : s + k < n) : ∑ i ∈ range N, piece t s k i u = 1 := by
  induction k with
  | zero =>
    simp only [piece]
    rw [Finset.sum_ite_eq']
    simp [hN]
  | succ k ih =>
    have e : ∀ i ∈ range (N + 1), (u - t i) / (t (i + k + 1) - t i) * piece t s k i u
      + (t (i + k + 1) - u) / (t (i + k + 1) - t i) * piece t s k i u = piece t s k i u := by
      intro i hi
      by_cases hc : s < i
      · rw [piece_eq_zero _ _ _ _ _ (Or.inl hc)]; ring
      · exact weights_add h u k i (by omega)
    have e0 : piece t s k 0 u = 0 := piece_eq_zero _ _ _ _ _ (Or.inr (by omega))
    have eN : piece t s k N u = 0 := piece_eq_zero _ _ _ _ _ (Or.inl (by omega))
    simp only [piece]
    rw [sum_add_distrib]
    have s1 : ∑ i ∈ range N, (u - t i) / (t (i + k + 1) - t i) * piece t s k i u
        = ∑ i ∈ range (N + 1), (u - t i) / (t (i + k + 1) - t i) * piece t s k i u := by
      rw [sum_range_succ, eN]; ring
    have s2 : ∑ i ∈ range N, (t (i + k + 2) - u) / (t (i + k + 2) - t (i + 1)) * piece t s k (i + 1) u
        = ∑ i ∈ range (N + 1), (t (i + k + 1) - u) / (t (i + k + 1) - t i) * piece t s k i u := by
      rw [sum_range_succ', e0]
      simp only [mul_zero, add_zero]
      apply sum_congr rfl
      intro i _
      rw [show i + 1 + k + 1 = i + k + 2 by omega]
    rw [s1, s2, ← sum_add_distrib, sum_congr rfl e, sum_range_succ, eN, add_zero]
    exact ih (by omega) (by omega)

open Finset in
/-- On the whole knot range the sum of the existing pieces is at most one. -/
theorem piece_sum_le {t : Nat → K} {n s : Nat} (h : SpanAt t n s) {u : K} (h1 : t s ≤ u)
    (h2 : u ≤ t (s + 1)) (k : Nat) (hk : k < n) : ∑ i ∈ range (n - k), piece t s k i u ≤ 1 := by
  induction k with
  | zero =>
    simp only [piece]
    rw [Finset.sum_ite_eq']
    split <;> simp
  | succ k ih =>
    refine le_trans ?_ (ih (by omega))
    obtain ⟨N, hN⟩ : ∃ N, n - k = N + 1 := ⟨n - k - 1, by omega⟩
    rw [show n - (k + 1) = N by omega, hN]
    have e : ∀ i ∈ range (N + 1), piece t s k i u
        = (u - t i) / (t (i + k + 1) - t i) * piece t s k i u
          + (t (i + k + 1) - u) / (t (i + k + 1) - t i) * piece t s k i u := by
      intro i hi
      rw [mem_range] at hi
      exact (weights_add h u k i (by omega)).symm
    rw [sum_congr rfl e, sum_add_distrib]
    simp only [piece]
    rw [sum_add_distrib]
    have hs := h.lt
    have p1 : ∀ i, i + k < n → 0 ≤ (u - t i) / (t (i + k + 1) - t i) * piece t s k i u := by
      intro i hi
      by_cases hc : s < i ∨ i + k < s
      · rw [piece_eq_zero _ _ _ _ _ hc, mul_zero]
      · apply mul_nonneg _ (piece_nonneg h h1 h2 k i (by omega))
        apply div_nonneg
        · have := h.mono i s (by omega) (by omega); linarith
        · exact le_of_lt (h.pos (by omega) (by omega) (by omega))
    have p2 : ∀ i, i + k < n → 0 ≤ (t (i + k + 1) - u) / (t (i + k + 1) - t i) * piece t s k i u := by
      intro i hi
      by_cases hc : s < i ∨ i + k < s
      · rw [piece_eq_zero _ _ _ _ _ hc, mul_zero]
      · apply mul_nonneg _ (piece_nonneg h h1 h2 k i (by omega))
        apply div_nonneg
        · have := h.mono (s + 1) (i + k + 1) (by omega) (by omega); linarith
        · exact le_of_lt (h.pos (by omega) (by omega) (by omega))
    apply add_le_add
    · rw [sum_range_succ]
      have := p1 N (by omega)
      linarith
    · rw [sum_range_succ']
      have := p2 0 (by omega)
      have e2 : ∑ i ∈ range N, (t (i + k + 2) - u) / (t (i + k + 2) - t (i + 1)) * piece t s k (i + 1) u
          = ∑ i ∈ range N, (t (i + 1 + k + 1) - u) / (t (i + 1 + k + 1) - t (i + 1))
            * piece t s k (i + 1) u := by
        apply sum_congr rfl; intro i _
        rw [show i + 1 + k + 1 = i + k + 2 by omega]
      rw [e2]
      linarith

/-! ### Knot insertion (Boehm) -/

/-- `t` with `x` inserted at position `r + 1`. -/
def insertFn (t : Nat → K) (r : Nat) (x : K) (j : Nat) : K :=
  if j ≤ r then t j else if j = r + 1 then x else t (j - 1)

/-- Boehm's ratio for degree `k` when `x` is inserted at position `r + 1`. -/
def boehm (t : Nat → K) (r k : Nat) (x : K) (i : Nat) : K :=
  if i + k ≤ r then 1 else if i ≤ r then (x - t i) / (t (i + k) - t i) else 0

/-- Index in the old knot vector of the span containing span `s'` of the refined one. -/
def oldSpan (r s' : Nat) : Nat := if s' ≤ r then s' else s' - 1

theorem insertFn_le {t : Nat → K} {r j : Nat} {x : K} (h : j ≤ r) : insertFn t r x j = t j := by
  simp [insertFn, h]
theorem insertFn_eq {t : Nat → K} {r : Nat} {x : K} : insertFn t r x (r + 1) = x := by
  simp [insertFn]
theorem insertFn_gt {t : Nat → K} {r j : Nat} {x : K} (h : r < j) :
    insertFn t r x (j + 1) = t j := by
  simp only [insertFn]
  rw [if_neg (by omega), if_neg (by omega)]; simp

theorem insertFn_mono {t : Nat → K} {n r : Nat} {x : K}
    (hm : ∀ i j, i ≤ j → j ≤ n → t i ≤ t j) (hr : r ≤ n) (h1 : t r ≤ x) (h2 : r < n → x ≤ t (r + 1)) :
    ∀ i j, i ≤ j → j ≤ n + 1 → insertFn t r x i ≤ insertFn t r x j := by
  intro i j hij hj
  rcases Nat.lt_trichotomy j (r + 1) with h | h | h
  · rw [insertFn_le (by omega), insertFn_le (by omega)]; exact hm _ _ hij (by omega)
  · subst h
    rw [insertFn_eq]
    rcases Nat.lt_or_eq_of_le hij with h | h
    · rw [insertFn_le (by omega)]; exact le_trans (hm i r (by omega) (by omega)) h1
    · rw [h, insertFn_eq]
  · obtain ⟨j, rfl⟩ : ∃ m, j = m + 1 := ⟨j - 1, by omega⟩
    rw [insertFn_gt (by omega)]
    rcases Nat.lt_trichotomy i (r + 1) with h' | h' | h'
    · rw [insertFn_le (by omega)]; exact hm _ _ (by omega) (by omega)
    · subst h'; rw [insertFn_eq]; exact le_trans (h2 (by omega)) (hm _ _ (by omega) (by omega))
    · obtain ⟨i, rfl⟩ : ∃ m, i = m + 1 := ⟨i - 1, by omega⟩
      rw [insertFn_gt (by omega)]; exact hm _ _ (by omega) (by omega)

/-- Boehm's identity: each old basis piece is a combination of two refined ones. -/
theorem boehm_piece {t : Nat → K} {n r s' : Nat} {x : K} (h : SpanAt (insertFn t r x) n s') (u : K)
    (k i : Nat) (hik : i + k + 2 ≤ n) :
    piece t (oldSpan r s') k i u
      = boehm t r k x i * piece (insertFn t r x) s' k i u
        + (1 - boehm t r k x (i + 1)) * piece (insertFn t r x) s' k (i + 1) u := by
  induction k generalizing i with
  | zero =>
    simp only [piece, boehm, oldSpan, Nat.add_zero]
    split_ifs <;> first | omega | simp
  | succ k ih =>
    set t' := insertFn t r x with ht'
    have key : ∀ (c d : K) (j : Nat), (j + k + 1 ≤ n → t' (j + k + 1) - t' j ≠ 0 → c = d) →
        j + k + 1 ≤ n → c * piece t' s' k j u = d * piece t' s' k j u := by
      intro c d j hcd hj
      by_cases hc : s' < j ∨ j + k < s'
      · rw [piece_eq_zero _ _ _ _ _ hc]; ring
      · rw [hcd hj (ne_of_gt (h.pos (by omega) (by omega) (by omega)))]
    -- coefficient identities
    have c1 : (u - t i) / (t (i + k + 1) - t i) * boehm t r k x i * piece t' s' k i u
        = boehm t r (k + 1) x i * ((u - t' i) / (t' (i + k + 1) - t' i)) * piece t' s' k i u := by
      apply key _ _ i _ (by omega)
      intro _ hne
      simp only [boehm]
      rcases Nat.lt_or_ge r i with hi | hi
      · rw [if_neg (by omega), if_neg (by omega), if_neg (by omega), if_neg (by omega)]; ring
      · rcases Nat.lt_trichotomy (i + k) r with hk | hk | hk
        · rw [if_pos (by omega), if_pos (by omega), ht', insertFn_le hi, insertFn_le (by omega)]; ring
        · have e : t' (i + k + 1) = x := by rw [ht', hk, insertFn_eq]
          have e2 : t' i = t i := by rw [ht', insertFn_le hi]
          rw [e, e2] at hne
          rw [if_pos (by omega), if_neg (by omega), if_pos hi, e, e2, ← add_assoc]
          field_simp
        · have e : t' (i + k + 1) = t (i + k) := by rw [ht', insertFn_gt (by omega)]
          have e2 : t' i = t i := by rw [ht', insertFn_le hi]
          rw [if_neg (by omega), if_pos hi, if_neg (by omega), if_pos hi, e, e2, ← add_assoc]
          ring
    have c2 : (t (i + k + 2) - u) / (t (i + k + 2) - t (i + 1)) * (1 - boehm t r k x (i + 2))
          * piece t' s' k (i + 2) u
        = (1 - boehm t r (k + 1) x (i + 1)) * ((t' (i + k + 3) - u) / (t' (i + k + 3) - t' (i + 2)))
          * piece t' s' k (i + 2) u := by
      apply key _ _ (i + 2) _ (by omega)
      rw [show i + 2 + k + 1 = i + k + 3 by omega]
      intro _ hne
      simp only [boehm]
      rw [show i + 1 + (k + 1) = i + k + 2 by omega, show i + 2 + k = i + k + 2 by omega]
      rcases Nat.lt_or_ge r (i + k + 2) with hk | hk
      · have e : t' (i + k + 3) = t (i + k + 2) := by rw [ht', insertFn_gt (by omega)]
        rw [e] at hne ⊢
        simp only [if_neg (show ¬ i + k + 2 ≤ r by omega)]
        rcases Nat.lt_trichotomy (i + 1) r with hi | hi | hi
        · have e2 : t' (i + 2) = t (i + 2) := by rw [ht', insertFn_le (by omega)]
          rw [e2] at hne ⊢
          rw [if_pos (by omega), if_pos (by omega)]
          have m1 := h.mono (i + 1) (i + 2) (by omega) (by omega)
          have m2 := h.mono (i + 2) (i + k + 3) (by omega) (by omega)
          rw [e, e2] at m2
          rw [e2] at m1
          have e3 : t' (i + 1) = t (i + 1) := by rw [ht', insertFn_le (by omega)]
          rw [e3] at m1
          have p1 : 0 < t (i + k + 2) - t (i + 2) := lt_of_le_of_ne (by linarith) (Ne.symm hne)
          have p2 : 0 < t (i + k + 2) - t (i + 1) := by linarith
          have n1 := ne_of_gt p1
          have n2 := ne_of_gt p2
          field_simp
          ring
        · have e2 : t' (i + 2) = x := by rw [ht', show i + 2 = r + 1 by omega, insertFn_eq]
          rw [e2] at hne ⊢
          rw [if_neg (by omega), if_pos (by omega)]
          have m1 := h.mono (i + 1) (i + 2) (by omega) (by omega)
          have m2 := h.mono (i + 2) (i + k + 3) (by omega) (by omega)
          rw [e, e2] at m2
          rw [e2] at m1
          have e3 : t' (i + 1) = t (i + 1) := by rw [ht', insertFn_le (by omega)]
          rw [e3] at m1
          have p1 : 0 < t (i + k + 2) - x := lt_of_le_of_ne (by linarith) (Ne.symm hne)
          have p2 : 0 < t (i + k + 2) - t (i + 1) := by linarith
          have n1 := ne_of_gt p1
          have n2 := ne_of_gt p2
          field_simp
          ring
        · have e2 : t' (i + 2) = t (i + 1) := by rw [ht', insertFn_gt (by omega)]
          rw [e2] at hne ⊢
          rw [if_neg (by omega), if_neg (by omega)]; ring
      · rw [if_pos hk, if_pos hk]; ring
    have c3 : ((u - t i) / (t (i + k + 1) - t i) * (1 - boehm t r k x (i + 1))
          + (t (i + k + 2) - u) / (t (i + k + 2) - t (i + 1)) * boehm t r k x (i + 1))
          * piece t' s' k (i + 1) u
        = (boehm t r (k + 1) x i * ((t' (i + k + 2) - u) / (t' (i + k + 2) - t' (i + 1)))
          + (1 - boehm t r (k + 1) x (i + 1)) * ((u - t' (i + 1)) / (t' (i + k + 2) - t' (i + 1))))
          * piece t' s' k (i + 1) u := by
      apply key _ _ (i + 1) _ (by omega)
      rw [show i + 1 + k + 1 = i + k + 2 by omega]
      intro _ hne
      simp only [boehm]
      rw [show i + 1 + (k + 1) = i + k + 2 by omega, show i + 1 + k = i + k + 1 by omega,
        show i + (k + 1) = i + k + 1 by omega]
      rcases Nat.lt_or_ge r (i + 1) with hi | hi
      · -- i ≥ r
        have e : t' (i + k + 2) = t (i + k + 1) := by rw [ht', insertFn_gt (by omega)]
        rcases Nat.lt_or_ge r i with hi' | hi'
        · have e2 : t' (i + 1) = t i := by rw [ht', insertFn_gt (by omega)]
          rw [e, e2]
          simp only [if_neg (show ¬ i + k + 1 ≤ r by omega), if_neg (show ¬ i ≤ r by omega),
            if_neg (show ¬ i + 1 ≤ r by omega), if_neg (show ¬ i + k + 2 ≤ r by omega)]
          ring
        · obtain rfl : i = r := by omega
          have e2 : t' (i + 1) = x := by rw [ht', insertFn_eq]
          have m1 := h.mono i (i + 1) (by omega) (by omega)
          have m2 := h.mono (i + 1) (i + k + 2) (by omega) (by omega)
          have e3 : t' i = t i := by rw [ht', insertFn_le (by omega)]
          rw [e, e2] at hne m2
          rw [e2, e3] at m1
          rw [e, e2]
          simp only [if_neg (show ¬ i + k + 1 ≤ i by omega), if_pos (le_refl i),
            if_neg (show ¬ i + 1 ≤ i by omega), if_neg (show ¬ i + k + 2 ≤ i by omega)]
          have p1 : 0 < t (i + k + 1) - x := lt_of_le_of_ne (by linarith) (Ne.symm hne)
          have p2 : 0 < t (i + k + 1) - t i := by linarith
          have n1 := ne_of_gt p1
          have n2 := ne_of_gt p2
          field_simp
          ring
      · have e2 : t' (i + 1) = t (i + 1) := by rw [ht', insertFn_le (by omega)]
        have e0 : t' i = t i := by rw [ht', insertFn_le (by omega)]
        rcases Nat.lt_trichotomy (i + k + 1) r with hk | hk | hk
        · have e : t' (i + k + 2) = t (i + k + 2) := by rw [ht', insertFn_le (by omega)]
          rw [e, e2]
          simp only [if_pos (show i + k + 1 ≤ r by omega), if_pos (show i + k + 2 ≤ r by omega)]
          ring
        · have e : t' (i + k + 2) = x := by
            rw [ht', show i + k + 2 = r + 1 by omega, insertFn_eq]
          have e4 : t' (i + k + 3) = t (i + k + 2) := by rw [ht', insertFn_gt (by omega)]
          have m1 := h.mono (i + 1) (i + k + 2) (by omega) (by omega)
          have m2 := h.mono (i + k + 2) (i + k + 3) (by omega) (by omega)
          rw [e, e2] at hne m1
          rw [e, e4] at m2
          rw [e, e2]
          simp only [if_pos (show i + k + 1 ≤ r by omega), if_neg (show ¬ i + k + 2 ≤ r by omega),
            if_pos hi]
          have p1 : 0 < x - t (i + 1) := lt_of_le_of_ne (by linarith) (Ne.symm hne)
          have p2 : 0 < t (i + k + 2) - t (i + 1) := by linarith
          have n1 := ne_of_gt p1
          have n2 := ne_of_gt p2
          field_simp
          ring
        · have e : t' (i + k + 2) = t (i + k + 1) := by rw [ht', insertFn_gt (by omega)]
          have e4 : t' (i + k + 3) = t (i + k + 2) := by rw [ht', insertFn_gt (by omega)]
          have m0 := h.mono i (i + 1) (by omega) (by omega)
          have m1 := h.mono (i + 1) (i + k + 2) (by omega) (by omega)
          have m2 := h.mono (i + k + 2) (i + k + 3) (by omega) (by omega)
          rw [e, e2] at hne m1
          rw [e, e4] at m2
          rw [e0, e2] at m0
          rw [e, e2]
          simp only [if_neg (show ¬ i + k + 1 ≤ r by omega), if_neg (show ¬ i + k + 2 ≤ r by omega),
            if_pos hi, if_pos (show i ≤ r by omega)]
          have p1 : 0 < t (i + k + 1) - t (i + 1) := lt_of_le_of_ne (by linarith) (Ne.symm hne)
          have p2 : 0 < t (i + k + 2) - t (i + 1) := by linarith
          have p3 : 0 < t (i + k + 1) - t i := by linarith
          have n1 := ne_of_gt p1
          have n2 := ne_of_gt p2
          have n3 := ne_of_gt p3
          field_simp
          ring
    have hi0 := ih i (by omega)
    have hi1 := ih (i + 1) (by omega)
    rw [show i + 1 + 1 = i + 2 by omega] at hi1
    have lhs : piece t (oldSpan r s') (k + 1) i u
        = (u - t i) / (t (i + k + 1) - t i) * piece t (oldSpan r s') k i u
          + (t (i + k + 2) - u) / (t (i + k + 2) - t (i + 1)) * piece t (oldSpan r s') k (i + 1) u := rfl
    have r1 : piece t' s' (k + 1) i u = (u - t' i) / (t' (i + k + 1) - t' i) * piece t' s' k i u
          + (t' (i + k + 2) - u) / (t' (i + k + 2) - t' (i + 1)) * piece t' s' k (i + 1) u := rfl
    have r2 : piece t' s' (k + 1) (i + 1) u
        = (u - t' (i + 1)) / (t' (i + k + 2) - t' (i + 1)) * piece t' s' k (i + 1) u
          + (t' (i + k + 3) - u) / (t' (i + k + 3) - t' (i + 2)) * piece t' s' k (i + 2) u := by
      simp only [piece]
      rw [show i + 1 + k + 1 = i + k + 2 by omega, show i + 1 + k + 2 = i + k + 3 by omega]
    rw [lhs, r1, r2, hi0, hi1]
    linear_combination c1 + c2 + c3

end Geom3d
