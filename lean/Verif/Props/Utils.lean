import Verif.Lemmas.Res
import Verif.Lemmas.Points
import Verif.Model.Utils
import Verif.Spec.ExactEnv
import Mathlib.Tactic.Linarith
import Mathlib.Tactic.FieldSimp
import Mathlib.Tactic.NormNum
import Mathlib.Tactic.Positivity
import Mathlib.Tactic.GCongr
import Mathlib.Algebra.Order.Field.Basic
import Mathlib.Data.List.Chain
import Mathlib.Data.List.Lex
import Mathlib.Logic.Function.Iterate

/-! # C26, C28–C31, C35: the helpers of `src/utils.rs` -/

set_option linter.unusedSectionVars false

namespace Geom3d

/-! ### C28: uniform_divide -/

section
variable {F : Type} [Add F] [Sub F] [Mul F] [Div F] [NatCast F]

theorem uniformLoop_length (step : F) (n : Nat) (u : F) : (uniformLoop step n u).length = n := by
  induction n generalizing u with
  | zero => rfl
  | succ n ih => simp [uniformLoop, ih]

/-- **C28**, law-free (so also in f64): `d + 1` entries, exact first and last entries. -/
theorem C28_ends (range : F × F) {d : Nat} (hd : 1 ≤ d) :
    ∃ l, uniformDivide range d = .ok l ∧ l.length = d + 1 ∧ l.head? = some range.1 ∧
      l.getLast? = some range.2 := by
  unfold uniformDivide
  rw [usub_ok hd]
  simp only [ok_bind, pure_eq_ok]
  refine ⟨_, rfl, ?_, by simp, by rw [List.getLast?_append]; rfl⟩
  simp [uniformLoop_length]; omega

/-- **C28**, a division of zero panics (`division - 1` underflows). -/
theorem C28_zero_panics (range : F × F) : uniformDivide range 0 = .error .overflow := by
  unfold uniformDivide
  rw [usub_err (by omega)]
  rfl

end

section
variable {K : Type} [Field K] [LinearOrder K] [IsStrictOrderedRing K]

theorem uniformLoop_getElem? (step : K) (n : Nat) (u : K) (i : Nat) (hi : i < n) :
    (uniformLoop step n u)[i]? = some (u + ((i : K) + 1) * step) := by
  induction n generalizing u i with
  | zero => omega
  | succ n ih =>
    cases i with
    | zero => simp [uniformLoop]
    | succ i =>
      simp only [uniformLoop, List.getElem?_cons_succ]
      rw [ih _ _ (by omega)]
      push_cast
      congr 1; ring

/-- **C28**, exact arithmetic: the `i`-th entry. -/
theorem C28_entries (range : K × K) {d : Nat} (hd : 1 ≤ d) :
    ∃ l, uniformDivide range d = .ok l ∧ l.length = d + 1 ∧
      ∀ i, i ≤ d → l[i]? = some (range.1 + (i : K) * ((range.2 - range.1) / (d : K))) := by
  unfold uniformDivide
  rw [usub_ok hd]
  simp only [ok_bind, pure_eq_ok]
  refine ⟨_, rfl, ?_, ?_⟩
  · simp [uniformLoop_length]; omega
  · intro i hi
    cases i with
    | zero => simp
    | succ i =>
      rw [List.cons_append, List.getElem?_cons_succ]
      rcases Nat.lt_or_ge i (d - 1) with h | h
      · rw [List.getElem?_append_left (by rw [uniformLoop_length]; exact h), uniformLoop_getElem? _ _ _ _ h]
        push_cast; rfl
      · have : i = d - 1 := by omega
        subst this
        rw [List.getElem?_append_right (by rw [uniformLoop_length])]
        simp only [uniformLoop_length, Nat.sub_self, List.getElem?_cons_zero]
        have hd0 : (d : K) ≠ 0 := by exact_mod_cast (by omega : d ≠ 0)
        have e : ((d - 1 + 1 : Nat) : K) = (d : K) := by congr 1; omega
        rw [e]
        congr 1
        field_simp
        ring

/-- **C28**, strictly increasing (or decreasing) between distinct ends. -/
theorem C28_monotone (range : K × K) {d : Nat} (hd : 1 ≤ d) :
    ∃ l, uniformDivide range d = .ok l ∧ (range.1 < range.2 → l.Pairwise (· < ·)) ∧
      (range.2 < range.1 → l.Pairwise (· > ·)) := by
  obtain ⟨l, h1, h2, h3⟩ := C28_entries range hd
  have hdpos : (0 : K) < d := by exact_mod_cast hd
  refine ⟨l, h1, ?_, ?_⟩
  all_goals
    intro hlt
    rw [List.pairwise_iff_getElem]
    intro i j hi hj hij
    have ei := h3 i (by omega)
    have ej := h3 j (by omega)
    rw [List.getElem?_eq_getElem hi, Option.some.injEq] at ei
    rw [List.getElem?_eq_getElem hj, Option.some.injEq] at ej
    rw [ei, ej]
    have hij' : (i : K) < j := by exact_mod_cast hij
  · have : 0 < (range.2 - range.1) / d := div_pos (by linarith) hdpos
    have := mul_lt_mul_of_pos_right hij' this
    linarith
  · have : 0 < (range.1 - range.2) / d := div_pos (by linarith) hdpos
    have := mul_lt_mul_of_pos_right hij' this
    have e : (range.2 - range.1) / (d : K) = -((range.1 - range.2) / d) := by ring
    rw [e]
    show _ < _
    linarith

/-- **C28**, consequence: all entries lie in the closed range. -/
theorem C28_in_range (range : K × K) {d : Nat} (hd : 1 ≤ d) :
    ∃ l, uniformDivide range d = .ok l ∧
      ∀ u ∈ l, min range.1 range.2 ≤ u ∧ u ≤ max range.1 range.2 := by
  obtain ⟨l, h1, h2, h3⟩ := C28_entries range hd
  have hdpos : (0 : K) < d := by exact_mod_cast hd
  refine ⟨l, h1, ?_⟩
  intro u hu
  obtain ⟨i, hi, rfl⟩ := List.getElem_of_mem hu
  have ei := h3 i (by omega)
  rw [List.getElem?_eq_getElem hi, Option.some.injEq] at ei
  rw [ei]
  have hi0 : (0 : K) ≤ i := Nat.cast_nonneg _
  have hid : (i : K) ≤ d := by exact_mod_cast (by omega : i ≤ d)
  have e : (i : K) * ((range.2 - range.1) / d) = (i / d) * (range.2 - range.1) := by ring
  rw [e]
  have hs0 : (0 : K) ≤ i / d := div_nonneg hi0 hdpos.le
  have hs1 : (i : K) / d ≤ 1 := (div_le_one hdpos).2 hid
  generalize (i : K) / d = s at hs0 hs1
  rcases le_total range.1 range.2 with h | h
  · rw [min_eq_left h, max_eq_right h]
    have := mul_le_mul_of_nonneg_right hs1 (sub_nonneg.2 h)
    have := mul_nonneg hs0 (sub_nonneg.2 h)
    exact ⟨by linarith, by linarith⟩
  · rw [min_eq_right h, max_eq_left h]
    have := mul_le_mul_of_nonneg_right hs1 (sub_nonneg.2 h)
    have := mul_nonneg hs0 (sub_nonneg.2 h)
    exact ⟨by linarith, by linarith⟩

end

example : uniformDivide ((1 : ℚ), 3) 4 = .ok [1, 3 / 2, 2, 5 / 2, 3] := by decide +kernel
example : uniformDivide ((1 : ℚ), 0) 4 = .ok [1, 3 / 4, 1 / 2, 1 / 4, 0] := by decide +kernel

/-! ### C35: clamp_in_range, get_min_max_by_key -/

section
variable {F : Type} [LinearOrder F]

theorem clampF_ok {v lo hi : F} (h : lo ≤ hi) : clampF v lo hi = .ok (max lo (min v hi)) := by
  unfold clampF assertR
  simp only [h, decide_true, if_true, ok_bind, pure_eq_ok]
  congr 1
  rcases lt_or_ge v lo with h1 | h1
  · rw [if_pos h1, if_neg (not_lt.2 h), min_eq_left (by order), max_eq_left (by order)]
  · rw [if_neg (not_lt.2 h1)]
    split
    · rw [min_eq_right (by order), max_eq_right h]
    · rw [min_eq_left (by order), max_eq_right h1]

theorem clampInRange_eq (v : F) (r : F × F) :
    clampInRange v r = .ok (max (min r.1 r.2) (min v (max r.1 r.2))) := by
  unfold clampInRange
  split
  · rename_i h
    rw [clampF_ok h.le, min_eq_left h.le, max_eq_right h.le]
  · rename_i h
    rw [clampF_ok (not_lt.1 h), min_eq_right (not_lt.1 h), max_eq_left (not_lt.1 h)]

/-- **C35**: `clamp_in_range` never panics on ordered numbers and returns a value between the two ends, in either
order of the ends. -/
theorem C35_clamp_between (v : F) (r : F × F) :
    ∃ w, clampInRange v r = .ok w ∧ min r.1 r.2 ≤ w ∧ w ≤ max r.1 r.2 :=
  ⟨_, clampInRange_eq v r, le_max_left _ _, max_le (min_le_max) (min_le_right _ _)⟩

/-- **C35**: identity inside the range. -/
theorem C35_clamp_id (v : F) (r : F × F) (h0 : min r.1 r.2 ≤ v) (h1 : v ≤ max r.1 r.2) :
    clampInRange v r = .ok v := by
  rw [clampInRange_eq, min_eq_left h1, max_eq_right h0]

/-- **C35**: the nearest end outside. -/
theorem C35_clamp_outside (v : F) (r : F × F) :
    (v ≤ min r.1 r.2 → clampInRange v r = .ok (min r.1 r.2)) ∧
    (max r.1 r.2 ≤ v → clampInRange v r = .ok (max r.1 r.2)) := by
  rw [clampInRange_eq]
  constructor
  · intro h
    rw [min_eq_left (le_trans h min_le_max), max_eq_left h]
  · intro h
    rw [min_eq_right h, max_eq_right min_le_max]

/-- **C35**: idempotent. -/
theorem C35_clamp_idem (v : F) (r : F × F) :
    (do clampInRange (← clampInRange v r) r) = clampInRange v r := by
  obtain ⟨w, h1, h2, h3⟩ := C35_clamp_between v r
  rw [h1, ok_bind, C35_clamp_id w r h2 h3]

/-- A NaN range end makes `f64::clamp` panic: law-free, for any comparison in which neither end is below or equal to
the other. -/
theorem C35_clamp_unordered_panics {F : Type} [LT F] [DecidableLT F] [LE F] [DecidableLE F] (v : F) (r : F × F)
    (h1 : ¬ r.1 < r.2) (h2 : ¬ r.2 ≤ r.1) : clampInRange v r = .error .assertion := by
  unfold clampInRange clampF assertR
  rw [if_neg h1]
  simp [h2]

example : clampInRange (5 : ℚ) (3, 1) = .ok 3 ∧ clampInRange (0 : ℚ) (3, 1) = .ok 1 ∧
    clampInRange (2 : ℚ) (3, 1) = .ok 2 := by decide +kernel

variable [Add F] [Sub F] [Mul F] [Div F] [Zero F] [One F] [NatCast F] [Env F]

theorem minmax_fold {α : Type} (key : α → F) (items : List α) (a b : F) :
    items.foldl (fun (st : F × F) item =>
      (if st.1 < key item then key item else st.1, if key item < st.2 then key item else st.2)) (a, b)
      = (items.foldl (fun m i => max m (key i)) a, items.foldl (fun m i => min m (key i)) b) := by
  induction items generalizing a b with
  | nil => rfl
  | cons i is ih =>
    simp only [List.foldl_cons]
    rw [ih]
    congr 2
    · split
      · rw [max_eq_right (by order)]
      · rw [max_eq_left (by order)]
    · split
      · rw [min_eq_right (by order)]
      · rw [min_eq_left (by order)]

theorem foldl_max_spec {α : Type} (key : α → F) (items : List α) (a : F) :
    a ≤ items.foldl (fun m i => max m (key i)) a ∧
      (∀ i ∈ items, key i ≤ items.foldl (fun m i => max m (key i)) a) ∧
      (items.foldl (fun m i => max m (key i)) a = a ∨ ∃ i ∈ items, items.foldl (fun m i => max m (key i)) a = key i) := by
  induction items generalizing a with
  | nil => simp
  | cons x xs ih =>
    simp only [List.foldl_cons]
    obtain ⟨h1, h2, h3⟩ := ih (max a (key x))
    refine ⟨le_trans (le_max_left _ _) h1, ?_, ?_⟩
    · intro i hi
      rcases List.mem_cons.1 hi with rfl | hi
      · exact le_trans (le_max_right _ _) h1
      · exact h2 i hi
    · rcases h3 with h3 | ⟨i, hi, h3⟩
      · rcases max_choice a (key x) with h | h
        · left; rw [h3, h]
        · right; exact ⟨x, by simp, by rw [h3, h]⟩
      · right; exact ⟨i, by simp [hi], h3⟩

theorem foldl_min_spec {α : Type} (key : α → F) (items : List α) (a : F) :
    items.foldl (fun m i => min m (key i)) a ≤ a ∧
      (∀ i ∈ items, items.foldl (fun m i => min m (key i)) a ≤ key i) ∧
      (items.foldl (fun m i => min m (key i)) a = a ∨ ∃ i ∈ items, items.foldl (fun m i => min m (key i)) a = key i) := by
  induction items generalizing a with
  | nil => simp
  | cons x xs ih =>
    simp only [List.foldl_cons]
    obtain ⟨h1, h2, h3⟩ := ih (min a (key x))
    refine ⟨le_trans h1 (min_le_left _ _), ?_, ?_⟩
    · intro i hi
      rcases List.mem_cons.1 hi with rfl | hi
      · exact le_trans h1 (min_le_right _ _)
      · exact h2 i hi
    · rcases h3 with h3 | ⟨i, hi, h3⟩
      · rcases min_choice a (key x) with h | h
        · left; rw [h3, h]
        · right; exact ⟨x, by simp, by rw [h3, h]⟩
      · right; exact ⟨i, by simp [hi], h3⟩

/-- **C35**: on a non-empty list of keys within `[Float::MIN, Float::MAX]` the least and the greatest key, both
attained. -/
theorem C35_minmax {α : Type} (items : List α) (key : α → F) (hne : items ≠ [])
    (hfin : ∀ i ∈ items, Env.minV ≤ key i ∧ key i ≤ Env.maxV) :
    (∃ i ∈ items, (getMinMaxByKey items key).1 = key i) ∧ (∃ i ∈ items, (getMinMaxByKey items key).2 = key i) ∧
      ∀ i ∈ items, (getMinMaxByKey items key).1 ≤ key i ∧ key i ≤ (getMinMaxByKey items key).2 := by
  unfold getMinMaxByKey
  rw [minmax_fold]
  simp only
  obtain ⟨a1, a2, a3⟩ := foldl_max_spec key items (Env.minV : F)
  obtain ⟨b1, b2, b3⟩ := foldl_min_spec key items (Env.maxV : F)
  obtain ⟨x, hx⟩ := List.exists_mem_of_ne_nil items hne
  refine ⟨?_, ?_, fun i hi => ⟨b2 i hi, a2 i hi⟩⟩
  · rcases b3 with h | h
    · exact ⟨x, hx, le_antisymm (b2 x hx) (by rw [h]; exact (hfin x hx).2)⟩
    · exact h
  · rcases a3 with h | h
    · exact ⟨x, hx, le_antisymm (by rw [h]; exact (hfin x hx).1) (a2 x hx)⟩
    · exact h

/-- **C35**: an empty list gives `(Float::MAX, Float::MIN)` (law-free). -/
theorem C35_minmax_empty {α F : Type} [Add F] [Sub F] [Mul F] [Div F] [Zero F] [One F] [NatCast F]
    [LT F] [DecidableLT F] [LE F] [DecidableLE F] [Env F] (key : α → F) :
    getMinMaxByKey [] key = (Env.maxV, Env.minV) := rfl

end

example : getMinMaxByKey [3, 1, 2] (fun x : ℚ => -x) = (-3, -1) := by decide +kernel

/-! ### C31: nearest points -/

section
variable {F : Type} [LinearOrder F] [Add F] [Sub F] [Mul F] [Div F] [Zero F] [One F] [NatCast F] [Env F]

/-- First-minimiser invariant over an indexed enumeration: `st` is the best `(distance, index)` so far. -/
theorem nearestLoop_spec (point : V3 F) (vs : List (V3 F)) (i : Nat) (st : F × Nat) :
    let r := nearestLoop point vs i st
    (r = st ∧ ∀ (j : Nat) v, vs[j]? = some v → st.1 ≤ (point - v).lengthSq) ∨
    (∃ (j : Nat) (v : V3 F), vs[j]? = some v ∧ r = ((point - v).lengthSq, i + j) ∧ (point - v).lengthSq < st.1 ∧
      (∀ (k : Nat) w, vs[k]? = some w → (point - v).lengthSq ≤ (point - w).lengthSq) ∧
      (∀ (k : Nat) w, k < j → vs[k]? = some w → (point - v).lengthSq < (point - w).lengthSq)) := by
  induction vs generalizing i st with
  | nil => left; exact ⟨rfl, by simp⟩
  | cons v vs ih =>
    simp only [nearestLoop]
    by_cases h : (point - v).lengthSq < st.1
    · rw [if_pos h]
      rcases ih (i + 1) ((point - v).lengthSq, i) with ⟨h1, h2⟩ | ⟨j, w, h1, h2, h3, h4, h5⟩
      · right
        refine ⟨0, v, rfl, by rw [h1]; rfl, h, ?_, by omega⟩
        intro k w hk
        cases k with
        | zero => simp only [List.getElem?_cons_zero, Option.some.injEq] at hk; rw [hk]
        | succ k => exact h2 k w hk
      · right
        refine ⟨j + 1, w, h1, by rw [h2]; congr 1; omega, lt_trans h3 h, ?_, ?_⟩
        · intro k x hk
          cases k with
          | zero => simp only [List.getElem?_cons_zero, Option.some.injEq] at hk; rw [← hk]; exact h3.le
          | succ k => exact h4 k x hk
        · intro k x hk hx
          cases k with
          | zero => simp only [List.getElem?_cons_zero, Option.some.injEq] at hx; rw [← hx]; exact h3
          | succ k => exact h5 k x (by omega) hx
    · rw [if_neg h]
      rcases ih (i + 1) st with ⟨h1, h2⟩ | ⟨j, w, h1, h2, h3, h4, h5⟩
      · left
        refine ⟨h1, ?_⟩
        intro j w hj
        cases j with
        | zero => simp only [List.getElem?_cons_zero, Option.some.injEq] at hj; rw [← hj]; exact not_lt.1 h
        | succ j => exact h2 j w hj
      · right
        refine ⟨j + 1, w, h1, by rw [h2]; congr 1; omega, h3, ?_, ?_⟩
        · intro k x hk
          cases k with
          | zero =>
            simp only [List.getElem?_cons_zero, Option.some.injEq] at hk; rw [← hk]
            exact (lt_of_lt_of_le h3 (not_lt.1 h)).le
          | succ k => exact h4 k x hk
        · intro k x hk hx
          cases k with
          | zero =>
            simp only [List.getElem?_cons_zero, Option.some.injEq] at hx; rw [← hx]
            exact lt_of_lt_of_le h3 (not_lt.1 h)
          | succ k => exact h5 k x (by omega) hx

/-- **C31**: if some point is closer than `Float::MAX`, the result is the smallest index of a nearest point. -/
theorem C31_nearest (points : List (V3 F)) (point : V3 F)
    (h : ∃ v ∈ points, (point - v).lengthSq < Env.maxV) :
    ∃ v, points[findNearestPoint points point]? = some v ∧
      (∀ w ∈ points, (point - v).lengthSq ≤ (point - w).lengthSq) ∧
      ∀ k w, k < findNearestPoint points point → points[k]? = some w → (point - v).lengthSq < (point - w).lengthSq := by
  unfold findNearestPoint
  rcases nearestLoop_spec point points 0 ((Env.maxV : F), 0) with ⟨h1, h2⟩ | ⟨j, v, h1, h2, h3, h4, h5⟩
  · obtain ⟨v, hv, hlt⟩ := h
    obtain ⟨j, hj⟩ := List.mem_iff_getElem?.1 hv
    exact absurd hlt (not_lt.2 (h2 j v hj))
  · rw [h2]
    simp only [Nat.zero_add]
    refine ⟨v, h1, ?_, h5⟩
    intro w hw
    obtain ⟨k, hk⟩ := List.mem_iff_getElem?.1 hw
    exact h4 k w hk

/-- **C31**: index 0 if nothing is closer than `Float::MAX`. -/
theorem C31_nothing_close (points : List (V3 F)) (point : V3 F)
    (h : ∀ v ∈ points, Env.maxV ≤ (point - v).lengthSq) : findNearestPoint points point = 0 := by
  unfold findNearestPoint
  rcases nearestLoop_spec point points 0 ((Env.maxV : F), 0) with ⟨h1, h2⟩ | ⟨j, v, h1, h2, h3, h4, h5⟩
  · rw [h1]
  · exact absurd h3 (not_lt.2 (h v (List.mem_iff_getElem?.2 ⟨j, h1⟩)))

/-- **C31**, law-free (NaN included): the index is always in bounds for a non-empty list. -/
theorem C31_in_bounds {F : Type} [LT F] [DecidableLT F] [LE F] [DecidableLE F] [Add F] [Sub F] [Mul F] [Div F] [Zero F]
    [One F] [NatCast F] [Env F] (points : List (V3 F)) (point : V3 F) (hne : points ≠ []) :
    findNearestPoint points point < points.length := by
  have key : ∀ (vs : List (V3 F)) (i : Nat) (st : F × Nat) (n : Nat), i + vs.length = n → st.2 < n →
      (nearestLoop point vs i st).2 < n := by
    intro vs
    induction vs with
    | nil => intro i st n _ h; exact h
    | cons v vs ih =>
      intro i st n hn h
      simp only [nearestLoop]
      apply ih
      · simp at hn; omega
      · split
        · simp at hn ⊢; omega
        · exact h
  exact key points 0 _ _ (by simp) (List.length_pos_iff.2 hne)

theorem nearestRowLoop_eq (point : V3 F) (i : Nat) (vs : List (V3 F)) (j : Nat) (st : F × (Nat × Nat)) :
    let r := nearestRowLoop point i vs j st
    (r = st ∧ ∀ (k : Nat) v, vs[k]? = some v → st.1 ≤ (point - v).lengthSq) ∨
    (∃ (k : Nat) (v : V3 F), vs[k]? = some v ∧ r = ((point - v).lengthSq, (i, j + k)) ∧ (point - v).lengthSq < st.1 ∧
      (∀ (m : Nat) w, vs[m]? = some w → (point - v).lengthSq ≤ (point - w).lengthSq) ∧
      (∀ (m : Nat) w, m < k → vs[m]? = some w → (point - v).lengthSq < (point - w).lengthSq)) := by
  have key : ∀ (vs : List (V3 F)) (j : Nat) (st : F × (Nat × Nat)) (st' : F × Nat), st.1 = st'.1 →
      let r := nearestRowLoop point i vs j st
      let r' := nearestLoop point vs j st'
      (r = st ∧ r' = st') ∨ (r = (r'.1, (i, r'.2))) := by
    intro vs
    induction vs with
    | nil => intro j st st' h; left; exact ⟨rfl, rfl⟩
    | cons v vs ih =>
      intro j st st' h
      simp only [nearestRowLoop, nearestLoop]
      rw [h]
      by_cases hc : (point - v).lengthSq < st'.1
      · rw [if_pos hc, if_pos hc]
        rcases ih (j + 1) ((point - v).lengthSq, (i, j)) ((point - v).lengthSq, j) rfl with ⟨a, b⟩ | a
        · right; rw [a, b]
        · right; exact a
      · rw [if_neg hc, if_neg hc]
        exact ih (j + 1) st st' h
  intro r
  rcases key vs j st (st.1, j + vs.length) rfl with ⟨a, b⟩ | a
  · left
    refine ⟨a, ?_⟩
    rcases nearestLoop_spec point vs j (st.1, j + vs.length) with ⟨h1, h2⟩ | ⟨k, v, h1, h2, h3, _⟩
    · exact h2
    · rw [b] at h2
      have := congrArg Prod.fst h2
      simp only at this
      exact absurd h3 (by rw [← this]; exact lt_irrefl _)
  · rcases nearestLoop_spec point vs j (st.1, j + vs.length) with ⟨h1, h2⟩ | ⟨k, v, h1, h2, h3, h4, h5⟩
    · -- the loop never improved: then the row loop did not either
      left
      have hn : ∀ (vs : List (V3 F)) (j : Nat), (∀ (k : Nat) v, vs[k]? = some v → st.1 ≤ (point - v).lengthSq) →
          nearestRowLoop point i vs j st = st := by
        intro vs
        induction vs with
        | nil => intro j _; rfl
        | cons v vs ih =>
          intro j h
          simp only [nearestRowLoop]
          rw [if_neg (not_lt.2 (h 0 v rfl))]
          exact ih (j + 1) (fun k w hk => h (k + 1) w hk)
      exact ⟨hn vs j h2, h2⟩
    · right
      refine ⟨k, v, h1, ?_, h3, h4, h5⟩
      show r = _
      rw [show r = _ from a, h2]

/-- Entry of a grid given by its rows. -/
def gridAt (grid : List (List (V3 F))) (i j : Nat) : Option (V3 F) := (grid[i]?).bind (·[j]?)

theorem nearestGridLoop_spec (point : V3 F) (rows : List (List (V3 F))) (i : Nat) (st : F × (Nat × Nat)) :
    let r := nearestGridLoop point rows i st
    (r = st ∧ ∀ a b v, gridAt rows a b = some v → st.1 ≤ (point - v).lengthSq) ∨
    (∃ a b v, gridAt rows a b = some v ∧ r = ((point - v).lengthSq, (i + a, b)) ∧ (point - v).lengthSq < st.1 ∧
      (∀ c d w, gridAt rows c d = some w → (point - v).lengthSq ≤ (point - w).lengthSq) ∧
      (∀ c d w, (c < a ∨ (c = a ∧ d < b)) → gridAt rows c d = some w →
        (point - v).lengthSq < (point - w).lengthSq)) := by
  induction rows generalizing i st with
  | nil => left; exact ⟨rfl, by simp [gridAt]⟩
  | cons row rows ih =>
    simp only [nearestGridLoop]
    have g0 : ∀ b, gridAt (row :: rows) 0 b = row[b]? := fun b => rfl
    have gs : ∀ a b, gridAt (row :: rows) (a + 1) b = gridAt rows a b := fun a b => rfl
    rcases nearestRowLoop_eq point i row 0 st with ⟨h1, h2⟩ | ⟨k, v, h1, h2, h3, h4, h5⟩
    · rw [h1]
      rcases ih (i + 1) st with ⟨e1, e2⟩ | ⟨a, b, v, e1, e2, e3, e4, e5⟩
      · left
        refine ⟨e1, ?_⟩
        intro a b v hv
        cases a with
        | zero => exact h2 b v hv
        | succ a => exact e2 a b v hv
      · right
        refine ⟨a + 1, b, v, e1, by rw [e2]; congr 2; omega, e3, ?_, ?_⟩
        · intro c d w hw
          cases c with
          | zero => exact (lt_of_lt_of_le e3 (h2 d w hw)).le
          | succ c => exact e4 c d w hw
        · intro c d w hc hw
          cases c with
          | zero => exact lt_of_lt_of_le e3 (h2 d w hw)
          | succ c => exact e5 c d w (by omega) hw
    · rw [h2]
      rcases ih (i + 1) ((point - v).lengthSq, (i, 0 + k)) with ⟨e1, e2⟩ | ⟨a, b, v', e1, e2, e3, e4, e5⟩
      · right
        refine ⟨0, k, v, h1, by rw [e1]; simp, h3, ?_, ?_⟩
        · intro c d w hw
          cases c with
          | zero => exact h4 d w hw
          | succ c => exact e2 c d w hw
        · intro c d w hc hw
          cases c with
          | zero => exact h5 d w (by omega) hw
          | succ c => omega
      · right
        refine ⟨a + 1, b, v', e1, by rw [e2]; congr 2; omega, lt_trans e3 h3, ?_, ?_⟩
        · intro c d w hw
          cases c with
          | zero => exact (lt_of_lt_of_le e3 (h4 d w hw)).le
          | succ c => exact e4 c d w hw
        · intro c d w hc hw
          cases c with
          | zero => exact lt_of_lt_of_le e3 (h4 d w hw)
          | succ c => exact e5 c d w (by omega) hw

/-- **C31**, grids: the first nearest entry in row-major order. -/
theorem C31_nearest_in_grid (grid : List (List (V3 F))) (point : V3 F)
    (h : ∃ row ∈ grid, ∃ v ∈ row, (point - v).lengthSq < Env.maxV) :
    ∃ a b v, findNearestPointInGrid grid point = (a, b) ∧ gridAt grid a b = some v ∧
      (∀ c d w, gridAt grid c d = some w → (point - v).lengthSq ≤ (point - w).lengthSq) ∧
      (∀ c d w, (c < a ∨ (c = a ∧ d < b)) → gridAt grid c d = some w →
        (point - v).lengthSq < (point - w).lengthSq) := by
  unfold findNearestPointInGrid
  rcases nearestGridLoop_spec point grid 0 ((Env.maxV : F), (0, 0)) with ⟨h1, h2⟩ | ⟨a, b, v, h1, h2, h3, h4, h5⟩
  · obtain ⟨row, hr, v, hv, hlt⟩ := h
    obtain ⟨i, hi⟩ := List.mem_iff_getElem?.1 hr
    obtain ⟨j, hj⟩ := List.mem_iff_getElem?.1 hv
    exact absurd hlt (not_lt.2 (h2 i j v (by simp [gridAt, hi, hj])))
  · rw [h2]
    exact ⟨a, b, v, by simp, h1, h4, h5⟩

/-- **C31**, grids: `(0,0)` if nothing is closer than `Float::MAX`. -/
theorem C31_nothing_close_in_grid (grid : List (List (V3 F))) (point : V3 F)
    (h : ∀ row ∈ grid, ∀ v ∈ row, Env.maxV ≤ (point - v).lengthSq) : findNearestPointInGrid grid point = (0, 0) := by
  unfold findNearestPointInGrid
  rcases nearestGridLoop_spec point grid 0 ((Env.maxV : F), (0, 0)) with ⟨h1, h2⟩ | ⟨a, b, v, h1, h2, h3, h4, h5⟩
  · rw [h1]
  · unfold gridAt at h1
    rw [Option.bind_eq_some_iff] at h1
    obtain ⟨row, hr, hv⟩ := h1
    exact absurd h3 (not_lt.2 (h row (List.mem_iff_getElem?.2 ⟨_, hr⟩) v (List.mem_iff_getElem?.2 ⟨_, hv⟩)))

end

example : findNearestPoint [⟨0, 0, 0⟩, ⟨1, 1, 0⟩, ⟨1, 1, 0⟩, (⟨4, 0, 0⟩ : V3 ℚ)] ⟨1, 2, 0⟩ = 1 := by decide +kernel
example : findNearestPointInGrid [[⟨0, 0, 0⟩, ⟨1, 1, 0⟩], [⟨1, 1, 0⟩, (⟨4, 0, 0⟩ : V3 ℚ)]] ⟨1, 2, 0⟩ = (0, 1) := by
  decide +kernel

/-! ### C29: parameter_division -/

theorem join_chain {α : Type} {R : α → α → Prop} {l r : List α} {m : α} (hl : l.getLast? = some m)
    (hr : r.head? = some m) (h1 : l.IsChain R) (h2 : r.IsChain R) : (l.dropLast ++ r).IsChain R := by
  obtain ⟨r', rfl⟩ : ∃ r', r = m :: r' := by
    cases r with
    | nil => simp at hr
    | cons a r' => simp only [List.head?_cons, Option.some.injEq] at hr; exact ⟨r', by rw [hr]⟩
  rw [List.isChain_split]
  refine ⟨?_, h2⟩
  rw [List.dropLast_append_getLast? m (by rw [hl]; exact rfl)]
  exact h1

section
variable {F : Type} [Add F] [Sub F] [Mul F] [Div F] [Zero F] [One F] [NatCast F] [LT F] [DecidableLT F]
  [LE F] [DecidableLE F] [Env F]

/-- The chord test on the parameter pair `(a, b)` with ratio `p`. -/
def Spec.ChordTest (getPoint : F → Res (V3 F)) (tol : F) (p a b : F) : Prop :=
  ∃ pa pb pt, getPoint a = .ok pa ∧ getPoint b = .ok pb ∧ getPoint (a + (b - a) * p) = .ok pt ∧
    pt.distance (pa + (pb - pa) * p) < tol

theorem parameterDivision_cases {getPoint : F → Res (V3 F)} {rnd : List Bool → F} {tol : F} {fuel : Nat}
    {path : List Bool} {range : F × F} {l : List F}
    (h : parameterDivision getPoint rnd tol (fuel + 1) path range = .ok l) :
    (l = [range.1, range.2] ∧ Spec.ChordTest getPoint tol (drawRatio (rnd path)) range.1 range.2) ∨
    ∃ r₁ r₂, parameterDivision getPoint rnd tol fuel (path ++ [false])
          (range.1, (range.1 + range.2) / (Nat.cast 2 : F)) = .ok r₁ ∧
        parameterDivision getPoint rnd tol fuel (path ++ [true])
          ((range.1 + range.2) / (Nat.cast 2 : F), range.2) = .ok r₂ ∧ l = r₁.dropLast ++ r₂ := by
  rw [parameterDivision] at h
  simp only [bind_eq_ok] at h
  obtain ⟨p0, h0, p1, h1, pt, ht, h⟩ := h
  split at h
  · rename_i hd
    left
    simp only [pure_eq_ok, Except.ok.injEq] at h
    exact ⟨h.symm, p0, p1, pt, h0, h1, ht, hd⟩
  · right
    simp only [bind_eq_ok] at h
    obtain ⟨r₁, hr1, r₂, hr2, h⟩ := h
    simp only [pure_eq_ok, Except.ok.injEq] at h
    exact ⟨r₁, r₂, hr1, hr2, h.symm⟩

/-- **C29**, law-free: exact end points and at least two parameters. -/
theorem C29_ends {getPoint : F → Res (V3 F)} {rnd : List Bool → F} {tol : F} {fuel : Nat}
    {path : List Bool} {range : F × F} {l : List F}
    (h : parameterDivision getPoint rnd tol fuel path range = .ok l) :
    l.head? = some range.1 ∧ l.getLast? = some range.2 ∧ 2 ≤ l.length := by
  induction fuel generalizing path range l with
  | zero => cases h
  | succ fuel ih =>
    rcases parameterDivision_cases h with ⟨rfl, _⟩ | ⟨r₁, r₂, h1, h2, rfl⟩
    · simp
    · obtain ⟨a1, a2, a3⟩ := ih h1
      obtain ⟨b1, b2, b3⟩ := ih h2
      refine ⟨?_, ?_, by simp; omega⟩
      · cases r₁ with
        | nil => simp at a3
        | cons x r₁ =>
          cases r₁ with
          | nil => simp at a3
          | cons y r₁ => simpa using a1
      · rw [List.getLast?_append, b2]; rfl

/-- **C29**, law-free: every consecutive pair passed the chord test for a ratio that was drawn. -/
theorem C29_chords {getPoint : F → Res (V3 F)} {rnd : List Bool → F} {tol : F} {fuel : Nat}
    {path : List Bool} {range : F × F} {l : List F}
    (h : parameterDivision getPoint rnd tol fuel path range = .ok l) :
    l.IsChain (fun a b => ∃ addr, Spec.ChordTest getPoint tol (drawRatio (rnd addr)) a b) := by
  induction fuel generalizing path range l with
  | zero => cases h
  | succ fuel ih =>
    rcases parameterDivision_cases h with ⟨rfl, ht⟩ | ⟨r₁, r₂, h1, h2, rfl⟩
    · rw [List.isChain_pair]; exact ⟨path, ht⟩
    · exact join_chain (C29_ends h1).2.1 (C29_ends h2).1 (ih h1) (ih h2)

/-- **C29**, monotone: for any transitive relation preserved by taking midpoints (in particular `≤`, `<`, `≥`, `>` on
exact numbers), a range in that relation is subdivided in that relation. -/
theorem C29_monotone_of (R : F → F → Prop) (hmid : ∀ a b, R a b → R a ((a + b) / (Nat.cast 2 : F)) ∧
      R ((a + b) / (Nat.cast 2 : F)) b) {getPoint : F → Res (V3 F)} {rnd : List Bool → F} {tol : F} {fuel : Nat}
    {path : List Bool} {range : F × F} {l : List F}
    (h : parameterDivision getPoint rnd tol fuel path range = .ok l) (hr : R range.1 range.2) : l.IsChain R := by
  induction fuel generalizing path range l with
  | zero => cases h
  | succ fuel ih =>
    rcases parameterDivision_cases h with ⟨rfl, ht⟩ | ⟨r₁, r₂, h1, h2, rfl⟩
    · rw [List.isChain_pair]; exact hr
    · exact join_chain (C29_ends h1).2.1 (C29_ends h2).1 (ih h1 (hmid _ _ hr).1) (ih h2 (hmid _ _ hr).2)

/-- **C29/C30**: more fuel does not change a result, so the fuel is only a recursion bound. -/
theorem C29_fuel_mono {getPoint : F → Res (V3 F)} {rnd : List Bool → F} {tol : F} {fuel : Nat} (more : Nat)
    {path : List Bool} {range : F × F} {l : List F}
    (h : parameterDivision getPoint rnd tol fuel path range = .ok l) :
    parameterDivision getPoint rnd tol (fuel + more) path range = .ok l := by
  induction fuel generalizing path range l with
  | zero => cases h
  | succ fuel ih =>
    rw [show fuel + 1 + more = (fuel + more) + 1 by omega]
    rw [parameterDivision] at h ⊢
    simp only [bind_eq_ok] at h ⊢
    obtain ⟨p0, h0, p1, h1, pt, ht, h⟩ := h
    refine ⟨p0, h0, p1, h1, pt, ht, ?_⟩
    split at h
    · rename_i hd; rw [if_pos hd]; exact h
    · rename_i hd
      rw [if_neg hd]
      simp only [bind_eq_ok] at h ⊢
      obtain ⟨r₁, hr1, r₂, hr2, h⟩ := h
      exact ⟨r₁, ih hr1, r₂, ih hr2, h⟩

/-- **C30**, law-free divergence: if the chord test can never succeed (for example `tol ≤ 0`, or NaN points), every
fuel runs out, i.e. the recursion does not terminate. -/
theorem C30_diverges_of {getPoint : F → Res (V3 F)} {rnd : List Bool → F} {tol : F}
    (htot : ∀ u, ∃ x, getPoint u = .ok x) (hno : ∀ a b : V3 F, ¬ a.distance b < tol) (fuel : Nat)
    (path : List Bool) (range : F × F) :
    parameterDivision getPoint rnd tol fuel path range = .error .fuel := by
  induction fuel generalizing path range with
  | zero => rfl
  | succ fuel ih =>
    rw [parameterDivision]
    obtain ⟨p0, h0⟩ := htot range.1
    obtain ⟨p1, h1⟩ := htot range.2
    obtain ⟨pt, ht⟩ := htot (rangeAt range (drawRatio (rnd path)))
    rw [h0, h1, ht]
    simp only [ok_bind]
    rw [if_neg (hno _ _), ih]
    rfl

end

section
variable {K : Type} [Field K] [LinearOrder K] [IsStrictOrderedRing K] [Env K]

/-- **C29**, exact arithmetic: strictly monotone in the direction of the range. -/
theorem C29_monotone {getPoint : K → Res (V3 K)} {rnd : List Bool → K} {tol : K} {fuel : Nat}
    {path : List Bool} {range : K × K} {l : List K}
    (h : parameterDivision getPoint rnd tol fuel path range = .ok l) :
    (range.1 < range.2 → l.Pairwise (· < ·)) ∧ (range.2 < range.1 → l.Pairwise (· > ·)) ∧
      (range.1 = range.2 → ∀ u ∈ l, u = range.1) := by
  refine ⟨fun hr => ?_, fun hr => ?_, fun hr => ?_⟩
  · apply List.isChain_iff_pairwise.1
    exact C29_monotone_of (· < ·) (fun a b h => by
      simp only [Nat.cast_ofNat]; constructor <;> linarith) h hr
  · apply List.isChain_iff_pairwise.1
    exact C29_monotone_of (· > ·) (fun a b h => by
      simp only [Nat.cast_ofNat, gt_iff_lt] at h ⊢; constructor <;> linarith) h hr
  · have hc : l.IsChain (fun a b => a = b) := C29_monotone_of (· = ·) (fun a b h => by
      simp only [Nat.cast_ofNat]; subst h; constructor <;> ring) h hr
    obtain ⟨h1, _, h3⟩ := C29_ends h
    cases l with
    | nil => simp at h3
    | cons x l =>
      simp only [List.head?_cons, Option.some.injEq] at h1
      subst h1
      have := List.isChain_iff_pairwise.1 hc
      intro u hu
      rcases List.mem_cons.1 hu with rfl | hu
      · rfl
      · exact ((List.pairwise_cons.1 this).1 u hu).symm

/-- **C29**, the ratios of the chord tests lie in `[0.4, 0.6)`. -/
theorem C29_ratio {r : K} (h0 : 0 ≤ r) (h1 : r < 1) : 2 / 5 ≤ drawRatio r ∧ drawRatio r < 3 / 5 := by
  unfold drawRatio
  constructor <;> norm_num <;> linarith

end

end Geom3d
