import Verif.Spec.Polygon
import Mathlib.Tactic.Linarith
import Mathlib.Tactic.LinearCombination
import Mathlib.Tactic.Ring

/-!
# Winding numbers of polygons by counting crossings with a horizontal ray
-/

set_option linter.unusedSimpArgs false

namespace Geom3d.Winding
open Spec

variable {K : Type} [Field K] [LinearOrder K] [IsStrictOrderedRing K]

/-! ### Crossing numbers as functions of heights and sides -/

/-- Crossing number of the ray to the right from height `hx` with an edge from height `ha` to height `hb`; `c` is the
side of the edge on which the start of the ray lies. -/
def upf (hx ha hb c : K) : ℤ :=
  if ha ≤ hx ∧ hx < hb ∧ 0 < c then 1 else if hb ≤ hx ∧ hx < ha ∧ c < 0 then -1 else 0

/-- Whether a point at height `hp` lies in the strip to the right of the segment from height `hx` to height `hy`, with
sign; `o` is the side of the segment. -/
def strip (hx hy hp o : K) : ℤ :=
  if hx ≤ hy then (if hx < hp ∧ hp ≤ hy ∧ o < 0 then -1 else 0) else (if hy < hp ∧ hp ≤ hx ∧ 0 < o then 1 else 0)

theorem upf_swap (hx ha hb c : K) : upf hx hb ha (-c) = - upf hx ha hb c := by
  unfold upf
  simp only [← not_le, Left.nonneg_neg_iff, Left.neg_nonpos_iff]
  by_cases h1 : ha ≤ hx <;> by_cases h2 : hb ≤ hx <;> by_cases h3 : c ≤ 0 <;> by_cases h4 : 0 ≤ c <;>
    simp [h1, h2, h3, h4]

theorem strip_swap (hx hy hp o : K) : strip hy hx hp (-o) = - strip hx hy hp o := by
  unfold strip
  rcases lt_trichotomy hx hy with h | h | h
  · rw [if_neg (not_le.2 h), if_pos h.le]
    simp only [Left.neg_pos_iff]
    split_ifs <;> rfl
  · subst h
    rw [if_pos le_rfl, if_pos le_rfl, if_neg (fun hh => absurd (hh.1.trans_le hh.2.1) (lt_irrefl _)),
      if_neg (fun hh => absurd (hh.1.trans_le hh.2.1) (lt_irrefl _))]
    rfl
  · rw [if_pos h.le, if_neg (not_le.2 h)]
    simp only [Left.neg_neg_iff]
    split_ifs <;> rfl

set_option maxHeartbeats 4000000 in
theorem no_cross_core {A B C D ha hb hx hy : K} (h1 : B - A + D - C = 0)
    (h2 : B * ha - A * hb + D * hx - C * hy = 0) (nA : A ≠ 0) (nB : B ≠ 0) (nC : C ≠ 0) (nD : D ≠ 0)
    (hn : 0 < A * B ∨ 0 < C * D) (hxy : hx ≤ hy) :
    upf hy ha hb D - upf hx ha hb C = strip hx hy hb B - strip hx hy ha A := by
  have e1 : B * (ha - hy) - A * (hb - hy) + D * (hx - hy) = 0 := by linear_combination h2 - hy * h1
  have e2 : B * (ha - hx) - A * (hb - hx) - C * (hy - hx) = 0 := by linear_combination h2 - hx * h1
  have e3 : B * (ha - hb) + D * (hx - hb) - C * (hy - hb) = 0 := by linear_combination h2 - hb * h1
  have e4 : - A * (hb - ha) + D * (hx - ha) - C * (hy - ha) = 0 := by linear_combination h2 - ha * h1
  unfold upf strip
  rcases lt_or_gt_of_ne nA with a | a <;> rcases lt_or_gt_of_ne nB with b | b <;>
    rcases lt_or_gt_of_ne nC with c | c <;> rcases lt_or_gt_of_ne nD with d | d <;>
    first
    | (exfalso; rcases hn with hn | hn <;> nlinarith)
    | (by_cases p1 : ha ≤ hx <;> by_cases p2 : ha ≤ hy <;> by_cases p3 : hb ≤ hx <;> by_cases p4 : hb ≤ hy <;>
        first
        | (exfalso; linarith)
        | (simp only [← not_le, hxy, p1, p2, p3, p4, a.le, b.le, c.le, d.le, not_le.2 a, not_le.2 b, not_le.2 c, not_le.2 d,
            and_true, true_and, and_false, false_and, if_true, if_false, not_false_eq_true, not_true_eq_false, sub_self,
            and_self]; done)
        | (simp only [← not_le, hxy, p1, p2, p3, p4, a.le, b.le, c.le, d.le, not_le.2 a, not_le.2 b, not_le.2 c, not_le.2 d,
            and_true, true_and, and_false, false_and, if_true, if_false, not_false_eq_true, not_true_eq_false, and_self]
           decide)
        | (exfalso; rw [not_le] at *; nlinarith)
        | (exfalso; nlinarith))

end Geom3d.Winding
