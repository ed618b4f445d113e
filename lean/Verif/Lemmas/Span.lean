import Verif.Lemmas.Tab
import Verif.Model.Knot
import Verif.Spec.CoxDeBoor
import Mathlib.Order.Basic
import Mathlib.Data.Nat.Find
import Mathlib.Tactic.Push

/-! `rposition`, `multiplicity` and `span_index` on sorted knot vectors. -/

set_option linter.unusedSectionVars false

namespace Geom3d
open Spec

section rpos
variable {α : Type} {p : α → Bool} {l : List α}

theorem rposition_some {i : Nat} (h : rposition p l = some i) :
    ∃ hi : i < l.length, p l[i] = true ∧ ∀ j (hj : j < l.length), i < j → p l[j] = false := by
  unfold rposition at h
  split at h
  · rename_i k hk
    rw [List.findIdx?_eq_some_iff_getElem] at hk
    obtain ⟨hk1, hk2, hk3⟩ := hk
    simp only [List.length_reverse] at hk1
    injection h with h
    have hi : i < l.length := by omega
    refine ⟨hi, ?_, ?_⟩
    · rw [List.getElem_reverse] at hk2
      subst h; exact hk2
    · intro j hj hij
      have := hk3 (l.length - 1 - j) (by omega)
      rw [List.getElem_reverse] at this
      have e : l.length - 1 - (l.length - 1 - j) = j := by omega
      simp only [e] at this
      simpa using this
  · cases h

theorem rposition_none (h : rposition p l = none) : ∀ j (hj : j < l.length), p l[j] = false := by
  unfold rposition at h
  split at h
  · cases h
  · rename_i hk
    rw [List.findIdx?_eq_none_iff] at hk
    intro j hj
    have := hk l[j] (by simp)
    simpa using this

theorem rposition_eq {i : Nat} (hi : i < l.length) (h1 : p l[i] = true)
    (h2 : ∀ j (hj : j < l.length), i < j → p l[j] = false) : rposition p l = some i := by
  cases h : rposition p l with
  | none => rw [rposition_none h i hi] at h1; cases h1
  | some k =>
    obtain ⟨hk, hk1, hk2⟩ := rposition_some h
    rcases Nat.lt_trichotomy i k with hik | hik | hik
    · rw [h2 k hk hik] at hk1; cases hk1
    · rw [hik]
    · rw [hk2 i hi hik] at h1; cases h1

theorem rposition_eq_none (h : ∀ j (hj : j < l.length), p l[j] = false) : rposition p l = none := by
  cases hk : rposition p l with
  | none => rfl
  | some k =>
    obtain ⟨hk, hk1, _⟩ := rposition_some hk
    rw [h k hk] at hk1; cases hk1

end rpos

theorem filter_range_interval (m a b : Nat) (hb : b ≤ m) (p : Nat → Bool)
    (hp : ∀ j, j < m → (p j = true ↔ a ≤ j ∧ j < b)) : ((List.range m).filter p).length = b - a := by
  induction m generalizing b with
  | zero => simp; omega
  | succ m ih =>
    rw [List.range_succ, List.filter_append, List.length_append]
    rcases Nat.lt_or_ge m b with h | h
    · obtain rfl : b = m + 1 := by omega
      rw [ih m (by omega) (fun j hj => by rw [hp j (by omega)]; omega)]
      by_cases ham : a ≤ m
      · have : p m = true := (hp m (by omega)).2 ⟨ham, by omega⟩
        simp [this]; omega
      · have : p m = false := by
          cases hpm : p m with
          | false => rfl
          | true => exact absurd ((hp m (by omega)).1 hpm).1 ham
        simp [this]; omega
    · rw [ih b h (fun j hj => hp j (by omega))]
      have : p m = false := by
        cases hpm : p m with
        | false => rfl
        | true => have := ((hp m (by omega)).1 hpm).2; omega
      simp [this]

section order
variable {K : Type} [LinearOrder K] [Zero K]

theorem Spec.Sorted.knot_le {knots : List K} (hs : Sorted knots) {i j : Nat} (hij : i ≤ j)
    (hj : j < knots.length) : knot knots i ≤ knot knots j := by
  rcases Nat.lt_or_eq_of_le hij with h | h
  · have := List.pairwise_iff_getElem.1 hs i j (by omega) hj h
    simpa [knot, List.getD, show i < knots.length by omega, hj] using this
  · rw [h]

theorem knot_getElem {knots : List K} {i : Nat} (h : i < knots.length) : knots[i] = knot knots i := by
  simp [knot, List.getD, h]

theorem knot_mem {knots : List K} {i : Nat} (h : i < knots.length) : knot knots i ∈ knots := by
  rw [← knot_getElem h]; exact List.getElem_mem h

theorem knots_eq_tab (knots : List K) : knots = tab knots.length (knot knots) :=
  eq_tab_getD knots 0

theorem idx_knot {knots : List K} {i : Nat} (h : i < knots.length) :
    idx knots i = .ok (knot knots i) := by
  rw [idx_ok h, knot_getElem h]

/-- In a sorted vector the knots equal to a given one form an index interval `[a, b)`. -/
theorem equal_knots_interval {knots : List K} (hs : Sorted knots) {i : Nat} (hi : i < knots.length) :
    ∃ a b, a ≤ i ∧ i < b ∧ b ≤ knots.length ∧
      ∀ j, j < knots.length → (knot knots j = knot knots i ↔ a ≤ j ∧ j < b) := by
  have hP : ∃ j, j < knots.length ∧ knot knots j = knot knots i := ⟨i, hi, rfl⟩
  have hQ : ∃ j, i < j ∧ (knots.length ≤ j ∨ knot knots i < knot knots j) :=
    ⟨knots.length, hi, Or.inl (Nat.le_refl _)⟩
  classical
  refine ⟨Nat.find hP, Nat.find hQ, Nat.find_min' hP ⟨hi, rfl⟩, (Nat.find_spec hQ).1,
    Nat.find_min' hQ ⟨hi, Or.inl (Nat.le_refl _)⟩, ?_⟩
  intro j hj
  constructor
  · intro h
    refine ⟨Nat.find_min' hP ⟨hj, h⟩, ?_⟩
    by_contra hc
    rcases (Nat.find_spec hQ).2 with h1 | h1
    · omega
    · have := Sorted.knot_le hs (Nat.not_lt.1 hc) hj
      rw [h] at this
      exact absurd (lt_of_lt_of_le h1 this) (lt_irrefl _)
  · rintro ⟨h1, h2⟩
    rcases Nat.lt_or_ge i j with hij | hij
    · have := Nat.find_min hQ h2
      push Not at this
      exact le_antisymm (this hij).2 (Sorted.knot_le hs (Nat.le_of_lt hij) hj)
    · apply le_antisymm (Sorted.knot_le hs hij hi)
      rw [← (Nat.find_spec hP).2]
      exact Sorted.knot_le hs h1 hj

end order

section span
variable {K : Type} [LinearOrder K] [Zero K] [Sub K] [Env K]

/-- `multiplicity` counts an index interval of equal knots. -/
theorem multiplicity_eq {knots : List K} (hr : Resolved knots) {i a b : Nat}
    (hi : i < knots.length) (hb : b ≤ knots.length)
    (hab : ∀ j, j < knots.length → (knot knots j = knot knots i ↔ a ≤ j ∧ j < b)) :
    KnotVector.multiplicity knots i = .ok (b - a) := by
  unfold KnotVector.multiplicity
  rw [idx_knot hi]
  simp only [ok_bind, pure_eq_ok, Except.ok.injEq]
  have hm : knot knots i ∈ knots := knot_mem hi
  generalize knot knots i = x at hm hab ⊢
  conv_lhs => rw [knots_eq_tab knots]
  rw [tab, List.filter_map, List.length_map]
  apply filter_range_interval _ _ _ hb
  intro j hj
  rw [← hab j hj]
  simp only [Function.comp]
  rw [hr.eq _ hm _ (knot_mem hj)]
  exact eq_comm

/-- For `u` at or above the first knot and below the last knot. -/
theorem spanIndex_inner {knots : List K} {u : K} {n : Nat}
    (hlen : knots.length = n + 1) (h0 : knot knots 0 ≤ u) (h1 : u < knot knots n) :
    ∃ s, KnotVector.spanIndex knots u = .ok s ∧ s < n ∧ knot knots s ≤ u ∧ u < knot knots (s + 1) := by
  unfold KnotVector.spanIndex
  split
  · rename_i index hi
    obtain ⟨hi1, hi2, hi3⟩ := rposition_some hi
    rw [knot_getElem hi1] at hi2
    simp only [decide_eq_true_eq] at hi2
    have hne : index ≠ n := by
      rintro rfl; exact absurd (lt_of_lt_of_le h1 hi2) (lt_irrefl _)
    refine ⟨index, ?_, by omega, hi2, ?_⟩
    · rw [usub_ok (by omega)]
      simp [hlen, hne]
    · have := hi3 (index + 1) (by omega) (by omega)
      rw [knot_getElem (by omega)] at this
      simpa using this
  · rename_i hi
    have := rposition_none hi 0 (by omega)
    rw [knot_getElem (by omega)] at this
    simp only [decide_eq_false_iff_not] at this
    exact absurd h0 this

/-- For `u` at or above the last knot of a non-constant vector: the last non-empty span. -/
theorem spanIndex_last {knots : List K} {u : K} (hs : Sorted knots) (hr : Resolved knots) {n : Nat}
    (hlen : knots.length = n + 1) (h0 : knot knots 0 < knot knots n) (h1 : knot knots n ≤ u) :
    ∃ s, KnotVector.spanIndex knots u = .ok s ∧ s < n ∧ knot knots s < knot knots (s + 1) ∧
      knot knots (s + 1) = knot knots n := by
  have hpos : rposition (fun t => decide (t ≤ u)) knots = some n := by
    apply rposition_eq (by omega)
    · rw [knot_getElem (by omega)]; simpa
    · intro j hj hnj; omega
  unfold KnotVector.spanIndex
  rw [hpos]
  obtain ⟨a, b, ha, hb, hbl, hab⟩ := equal_knots_interval hs (i := n) (by omega)
  obtain rfl : b = n + 1 := by omega
  simp only []
  rw [usub_ok (by omega)]
  simp only [ok_bind, hlen, Nat.add_sub_cancel, if_true]
  rw [multiplicity_eq hr (by omega) (by omega) hab]
  have ha0 : a ≠ 0 := by
    rintro rfl
    have := (hab 0 (by omega)).2 ⟨by omega, by omega⟩
    rw [this] at h0; exact lt_irrefl _ h0
  have e1 : a - 1 + 1 = a := by omega
  have hA : knot knots a = knot knots n := (hab a (by omega)).2 ⟨le_refl _, by omega⟩
  refine ⟨a - 1, ?_, by omega, ?_, ?_⟩
  · simp only [ok_bind]
    rw [usub_ok (by omega)]; congr 1; omega
  · rw [e1, hA]
    apply lt_of_le_of_ne (Sorted.knot_le hs (by omega) (by omega))
    intro h
    have := (hab (a - 1) (by omega)).1 h
    omega
  · rw [e1, hA]

/-- For `u` below the first knot, `span_index` is the multiplicity of the first knot. -/
theorem spanIndex_below {knots : List K} {u : K} (hs : Sorted knots)
    (h0 : u < knot knots 0) :
    KnotVector.spanIndex knots u = KnotVector.multiplicity knots 0 := by
  have hpos : rposition (fun t => decide (t ≤ u)) knots = none := by
    apply rposition_eq_none
    intro j hj
    rw [knot_getElem hj]
    simpa using lt_of_lt_of_le h0 (Sorted.knot_le hs (Nat.zero_le j) hj)
  unfold KnotVector.spanIndex
  rw [hpos]

/-- On a constant vector with `u` at or above it, the subtraction underflows. -/
theorem spanIndex_constant {knots : List K} {u : K} (hs : Sorted knots) (hr : Resolved knots) {n : Nat}
    (hlen : knots.length = n + 1) (h0 : knot knots 0 = knot knots n) (h1 : knot knots n ≤ u) :
    KnotVector.spanIndex knots u = .error .overflow := by
  have hpos : rposition (fun t => decide (t ≤ u)) knots = some n := by
    apply rposition_eq (by omega)
    · rw [knot_getElem (by omega)]; simpa
    · intro j hj hnj; omega
  unfold KnotVector.spanIndex
  rw [hpos]
  obtain ⟨a, b, ha, hb, hbl, hab⟩ := equal_knots_interval hs (i := n) (by omega)
  have ha0 := ((hab 0 (by omega)).1 h0).1
  obtain rfl : a = 0 := by omega
  obtain rfl : b = n + 1 := by omega
  simp only []
  rw [usub_ok (by omega)]
  simp only [ok_bind, hlen, Nat.add_sub_cancel, if_true]
  rw [multiplicity_eq hr (by omega) (by omega) hab]
  simp only [ok_bind]
  rw [usub_err (by omega)]

end span

end Geom3d
