import Verif.Props.Meshgen
import Verif.Props.Planar

/-! # C41: the node offered for a front edge is neither of its ends -/

set_option linter.unusedSectionVars false

namespace Geom3d

section
variable {K : Type} [Field K] [LinearOrder K] [IsStrictOrderedRing K] [Env K]

theorem shapeFactor_sign {a b c : V2 K} (hab : a ≠ b) :
    (0 < shapeFactor a b c ↔ 0 < Spec.triArea2 a b c) ∧ (shapeFactor a b c < 0 ↔ Spec.triArea2 a b c < 0) := by
  have e : (b - a).perpDot (c - a) = Spec.triArea2 a b c := by
    simp only [V2.perpDot, Spec.triArea2, V2.sub_x, V2.sub_y]; ring
  have hpos : 0 < (b - a).lengthSq + (c - a).lengthSq + (c - b).lengthSq := by
    have h0 : 0 < (b.x - a.x) * (b.x - a.x) + (b.y - a.y) * (b.y - a.y) := by
      by_contra hn
      have h1 := mul_self_nonneg (b.x - a.x)
      have h2 := mul_self_nonneg (b.y - a.y)
      have e1 : (b.x - a.x) * (b.x - a.x) = 0 := by linarith
      have e2 : (b.y - a.y) * (b.y - a.y) = 0 := by linarith
      apply hab
      ext
      · exact (sub_eq_zero.1 (mul_self_eq_zero.1 e1)).symm
      · exact (sub_eq_zero.1 (mul_self_eq_zero.1 e2)).symm
    have := mul_self_nonneg (c.x - a.x)
    have := mul_self_nonneg (c.y - a.y)
    have := mul_self_nonneg (c.x - b.x)
    have := mul_self_nonneg (c.y - b.y)
    simp only [V2.lengthSq, V2.dot, V2.sub_x, V2.sub_y]
    linarith
  unfold shapeFactor
  simp only [e]
  refine ⟨⟨fun h => ?_, fun h => div_pos h hpos⟩, ⟨fun h => ?_, fun h => div_neg_of_neg_of_pos h hpos⟩⟩
  · by_contra hn
    exact absurd h (not_lt.2 (div_nonpos_of_nonpos_of_nonneg (not_lt.1 hn) hpos.le))
  · by_contra hn
    exact absurd h (not_lt.2 (div_nonneg (not_lt.1 hn) hpos.le))

theorem shapeFactor_ends (a b : V2 K) : shapeFactor a b a = 0 ∧ shapeFactor a b b = 0 := by
  constructor
  · unfold shapeFactor
    simp [V2.perpDot]
  · unfold shapeFactor
    have e : (b - a).perpDot (b - a) = 0 := by simp only [V2.perpDot]; ring
    simp only [e, zero_div]

/-- **C41**: the candidate offered by a front edge `c → d` for the triangle over `a → b` is neither `a` nor `b`, so the
triangle has three different corners, when the trial point is strictly to the left of `a → b` and the front edge does
not pass through the end of `a → b` it does not share.  (A front edge into `b` through `a`, or out of `a` through `b`,
can make the algorithm offer an end of the edge itself: `C41_degenerate`.) -/
theorem C41_candidate_distinct {start stop : Nat} {selected : Option Nat} {vertices : List (V2 K)} {a b q : V2 K}
    (ha : idx vertices start = .ok a) (hb : idx vertices stop = .ok b) (hst : start ≠ stop)
    (hq : 0 < Spec.triArea2 a b q) {e : Nat × Nat} (he : e.1 ≠ e.2)
    (h1 : e.2 = stop → ∀ c, idx vertices e.1 = .ok c → ¬ Spec.OnSegment c b a)
    (h2 : e.1 = start → ∀ d, idx vertices e.2 = .ok d → ¬ Spec.OnSegment a d b) {n : Nat} {f : K}
    (h : frontCandidate start stop selected vertices a b q e = .ok (some (n, f))) : n ≠ start ∧ n ≠ stop := by
  have hab : a ≠ b := by
    rintro rfl
    simp [Spec.triArea2] at hq
  unfold frontCandidate at h
  split at h
  swap
  · simp at h
  rw [bind_eq_ok] at h
  obtain ⟨inner, hi, h⟩ := h
  split at h
  · rename_i hin
    rw [bind_eq_ok] at h
    obtain ⟨v, -, h⟩ := h
    simp only [pure_eq_ok, Except.ok.injEq, Option.some.injEq, Prod.mk.injEq] at h
    split at hi
    · rename_i hne
      rw [← h.1]; exact hne
    · simp only [pure_eq_ok, Except.ok.injEq] at hi
      rw [← hi] at hin
      simp at hin
  split at h
  swap
  · simp at h
  simp only [bind_eq_ok] at h
  obtain ⟨c, hc, d, hd, h⟩ := h
  split at h
  · rename_i hcond
    obtain ⟨n1, n2, hx⟩ := hcond
    split at h
    · rename_i hs
      simp only [pure_eq_ok, Except.ok.injEq, Option.some.injEq, Prod.mk.injEq] at h
      rw [← h.1]
      exact ⟨n2, fun h' => he (hs.trans h'.symm)⟩
    · rename_i hs
      split at h
      · simp only [pure_eq_ok, Except.ok.injEq, Option.some.injEq, Prod.mk.injEq] at h
        rw [← h.1]
        exact ⟨n1, hs⟩
      · rename_i hle
        simp only [pure_eq_ok, Except.ok.injEq, Option.some.injEq, Prod.mk.injEq] at h
        rw [← h.1]
        refine ⟨n2, fun h' => ?_⟩
        have hdb : d = b := by
          rw [h', hb] at hd; exact (Except.ok.inj hd).symm
        subst hdb
        rw [(shapeFactor_ends a d).2, (shapeFactor_sign hab).1, not_lt] at hle
        obtain ⟨p, ⟨s, s0, s1, sx, sy⟩, ⟨t, t0, t1, tx, ty⟩⟩ := (C34_exact _ _ _ _).1 hx
        have e1 : Spec.triArea2 a d p = s * Spec.triArea2 a d q := by
          simp only [Spec.triArea2, sx, sy]; ring
        have e2 : Spec.triArea2 a d p = (1 - t) * Spec.triArea2 a d c := by
          simp only [Spec.triArea2, tx, ty]; ring
        have hs0 : s = 0 := by
          have h3 : (1 - t) * Spec.triArea2 a d c ≤ 0 := mul_nonpos_of_nonneg_of_nonpos (by linarith) hle
          have h4 : s * Spec.triArea2 a d q ≤ 0 := by rw [← e1, e2]; exact h3
          by_contra hne
          have : 0 < s * Spec.triArea2 a d q := mul_pos (lt_of_le_of_ne s0 (Ne.symm hne)) hq
          linarith
        subst hs0
        refine h1 h' c hc ⟨t, t0, t1, ?_, ?_⟩
        · rw [← tx, sx]; ring
        · rw [← ty, sy]; ring
  · split at h
    swap
    · simp at h
    rename_i hcond
    obtain ⟨n1, n2, hx⟩ := hcond
    split at h
    · rename_i hs
      simp only [pure_eq_ok, Except.ok.injEq, Option.some.injEq, Prod.mk.injEq] at h
      rw [← h.1]
      exact ⟨fun h' => he (h'.trans hs.symm), n1⟩
    · rename_i hs
      split at h
      · rename_i hlt
        simp only [pure_eq_ok, Except.ok.injEq, Option.some.injEq, Prod.mk.injEq] at h
        rw [← h.1]
        refine ⟨fun h' => ?_, n1⟩
        have hca : c = a := by
          rw [h', ha] at hc; exact (Except.ok.inj hc).symm
        subst hca
        rw [(shapeFactor_ends c b).1, (shapeFactor_sign hab).2] at hlt
        obtain ⟨p, ⟨s, s0, s1, sx, sy⟩, ⟨t, t0, t1, tx, ty⟩⟩ := (C34_exact _ _ _ _).1 hx
        have e1 : Spec.triArea2 c b p = s * Spec.triArea2 c b q := by
          simp only [Spec.triArea2, sx, sy]; ring
        have e2 : Spec.triArea2 c b p = t * Spec.triArea2 c b d := by
          simp only [Spec.triArea2, tx, ty]; ring
        have hs0 : s = 0 := by
          have h3 : t * Spec.triArea2 c b d ≤ 0 := mul_nonpos_of_nonneg_of_nonpos t0 hlt.le
          have h4 : s * Spec.triArea2 c b q ≤ 0 := by rw [← e1, e2]; exact h3
          by_contra hne
          have : 0 < s * Spec.triArea2 c b q := mul_pos (lt_of_le_of_ne s0 (Ne.symm hne)) hq
          linarith
        subst hs0
        refine h2 h' d hd ⟨t, t0, t1, ?_, ?_⟩
        · rw [← tx, sx]; ring
        · rw [← ty, sy]; ring
      · simp only [pure_eq_ok, Except.ok.injEq, Option.some.injEq, Prod.mk.injEq] at h
        rw [← h.1]
        exact ⟨hs, n2⟩

end

/-- Non-vacuity: a front edge crossing the trial triangle offers its better end. -/
example : frontCandidate (F := ℚ) 0 1 none [⟨0, 0⟩, ⟨2, 0⟩, ⟨1, 1⟩, ⟨0, 3⟩] ⟨0, 0⟩ ⟨2, 0⟩ ⟨1, 2⟩ (3, 2)
    = .ok (some (2, 1 / 4)) := by decide +kernel

/-- The exceptional case: the front edge `2 → 1` ends in `b = (2,0)` and passes through `a = (0,0)`; the end `1` of the
edge `0 → 1` itself is offered. -/
theorem C41_degenerate : frontCandidate (F := ℚ) 0 1 none [⟨0, 0⟩, ⟨2, 0⟩, ⟨-1, 0⟩] ⟨0, 0⟩ ⟨2, 0⟩ ⟨1, 2⟩ (2, 1)
    = .ok (some (1, 0)) := by decide +kernel

end Geom3d
