import Verif.Model.Pick
import Verif.Props.MeshgenDistinct
import Verif.Props.FrontTiling
import Mathlib.Algebra.Order.Field.Power

/-!
# Which node the advancing front selects (C124)

`find_intersection_with_front` (`src/utils/meshgen.rs:61-121`) and the loop around it (`src/utils/meshgen.rs:27-35`).
-/

namespace Geom3d

set_option linter.unusedSectionVars false

/-! ### The sort -/

theorem stableInsert_perm {α : Type} (le : α → α → Bool) (a : α) (l : List α) : (stableInsert le a l).Perm (a :: l) := by
  induction l with
  | nil => exact .refl _
  | cons b l ih =>
    unfold stableInsert
    split
    · exact .refl _
    · exact (ih.cons b).trans (.swap ..)

theorem stableSort_perm {α : Type} (le : α → α → Bool) (l : List α) : (stableSort le l).Perm l := by
  induction l with
  | nil => exact .refl _
  | cons a l ih => exact (stableInsert_perm le a _).trans (ih.cons a)

/-- What `sort_by` does for a total preorder: the result is sorted, and equal elements keep their order.  `before` is
any relation between the elements in the given order. -/
theorem stableSort_pairwise {α : Type} {le : α → α → Bool} {before R : α → α → Prop}
    (h1 : ∀ a b, le a b = true → before a b → R a b) (h2 : ∀ a b, le a b = false → R b a)
    (htrans : ∀ a b c, le a b = true → R b c → le a c = true) {l : List α} (h : l.Pairwise before) :
    (stableSort le l).Pairwise R := by
  induction l with
  | nil => exact .nil
  | cons a l ih =>
    have ha := (List.pairwise_cons.1 h).1
    have ih := ih (List.pairwise_cons.1 h).2
    unfold stableSort
    have hsub : ∀ b ∈ stableSort le l, before a b := fun b hb => ha b ((stableSort_perm le l).subset hb)
    revert hsub ih
    generalize stableSort le l = S
    intro ih hsub
    induction S with
    | nil => exact List.pairwise_singleton ..
    | cons b S ihS =>
      unfold stableInsert
      have hb := List.pairwise_cons.1 ih
      split
      · rename_i hle
        refine List.pairwise_cons.2 ⟨fun c hc => ?_, ih⟩
        rcases List.mem_cons.1 hc with rfl | hc'
        · exact h1 _ _ hle (hsub _ hc)
        · exact h1 _ _ (htrans _ _ _ hle (hb.1 c hc')) (hsub _ hc)
      · rename_i hle
        refine List.pairwise_cons.2 ⟨fun c hc => ?_, ihS hb.2 fun c hc => hsub c (List.mem_cons_of_mem _ hc)⟩
        rcases List.mem_cons.1 ((stableInsert_perm le a S).subset hc) with rfl | hc
        · exact h2 _ _ (by simpa using hle)
        · exact hb.1 c hc

/-! ### Any arithmetic -/

section
variable {F : Type} [LT F] [DecidableLT F]

theorem dedupFrom_sublist (n : Nat) (l : List (Nat × F)) : (dedupFrom n l).Sublist l := by
  induction l generalizing n with
  | nil => exact .refl _
  | cons b l ih =>
    unfold dedupFrom
    split
    · exact (ih n).cons _
    · exact (ih _).cons_cons _

theorem dedupNode_sublist (l : List (Nat × F)) : (dedupNode l).Sublist l := by
  cases l with
  | nil => exact .refl _
  | cons a l => exact (dedupFrom_sublist a.1 l).cons_cons _

/-- **C124**, any arithmetic: the selection of the code meets the contract used for the properties of the mesh. -/
theorem C124_pick_ok : PickOk (pickNode (F := F)) where
  mem l n h := by
    unfold pickNode at h
    simp only [Option.map_eq_some_iff] at h
    obtain ⟨⟨m, f⟩, h, rfl⟩ := h
    refine ⟨f, ?_⟩
    have h := List.mem_of_getLast? h
    have : ∀ x, x ∈ dedupNode (stableSort nodeLe l) → x ∈ l := fun x hx =>
      (stableSort_perm _ _).subset ((dedupNode_sublist _).subset hx)
    split at h
    · exact this _ ((stableSort_perm _ _).subset h)
    · exact this _ h
  none l h := by
    unfold pickNode at h
    simp only [Option.map_eq_none_iff, List.getLast?_eq_none_iff] at h
    have key : dedupNode (stableSort nodeLe l) = [] := by
      split at h
      · have := (stableSort_perm factorLe (dedupNode (stableSort nodeLe l))).length_eq
        rw [h] at this
        exact List.length_eq_zero_iff.1 this.symm
      · exact h
    have : stableSort nodeLe l = [] := by
      cases hs : stableSort nodeLe l with
      | nil => rfl
      | cons a t => rw [hs] at key; simp [dedupNode] at key
    have h2 := (stableSort_perm nodeLe l).length_eq
    rw [this] at h2
    exact List.length_eq_zero_iff.1 h2.symm

end

/-! ### Linear orders -/

section
variable {F : Type} [LinearOrder F]

theorem dedupFrom_spec {n : Nat} {l : List (Nat × F)} (hn : ∀ b ∈ l, n ≤ b.1)
    (h : l.Pairwise fun a b => a.1 < b.1 ∨ a.1 = b.1 ∧ b.2 ≤ a.2) :
    (∀ b ∈ dedupFrom n l, n < b.1) ∧ (dedupFrom n l).Pairwise (fun a b => a.1 < b.1) ∧
      ∀ b ∈ l, b.1 = n ∨ ∃ g, (b.1, g) ∈ dedupFrom n l ∧ b.2 ≤ g := by
  induction l generalizing n with
  | nil => exact ⟨by simp [dedupFrom], .nil, by simp⟩
  | cons c l ih =>
    have hc := List.pairwise_cons.1 h
    have hcn := hn c (List.mem_cons_self ..)
    unfold dedupFrom
    split
    · rename_i he
      obtain ⟨i1, i2, i3⟩ := ih (n := n) (fun b hb => hn b (List.mem_cons_of_mem _ hb)) hc.2
      refine ⟨i1, i2, fun b hb => ?_⟩
      rcases List.mem_cons.1 hb with rfl | hb
      · exact .inl he
      · exact i3 b hb
    · rename_i he
      have hle : ∀ b ∈ l, c.1 ≤ b.1 := fun b hb => by rcases hc.1 b hb with h | h <;> omega
      obtain ⟨i1, i2, i3⟩ := ih (n := c.1) hle hc.2
      refine ⟨?_, List.pairwise_cons.2 ⟨i1, i2⟩, ?_⟩
      · intro b hb
        rcases List.mem_cons.1 hb with rfl | hb
        · omega
        · have := i1 b hb; omega
      · intro b hb
        right
        rcases List.mem_cons.1 hb with rfl | hb'
        · exact ⟨b.2, List.mem_cons_self .., le_refl _⟩
        · rcases i3 b hb' with h | ⟨g, h1, h2⟩
          · refine ⟨c.2, by rw [h]; exact List.mem_cons_self .., ?_⟩
            rcases hc.1 b hb' with h' | h'
            · omega
            · exact h'.2
          · exact ⟨g, List.mem_cons_of_mem _ h1, h2⟩

theorem dedupNode_spec {l : List (Nat × F)} (h : l.Pairwise fun a b => a.1 < b.1 ∨ a.1 = b.1 ∧ b.2 ≤ a.2) :
    (dedupNode l).Pairwise (fun a b => a.1 < b.1) ∧ ∀ b ∈ l, ∃ g, (b.1, g) ∈ dedupNode l ∧ b.2 ≤ g := by
  cases l with
  | nil => exact ⟨.nil, by simp⟩
  | cons c l =>
    have hc := List.pairwise_cons.1 h
    have hle : ∀ b ∈ l, c.1 ≤ b.1 := fun b hb => by rcases hc.1 b hb with h | h <;> omega
    obtain ⟨i1, i2, i3⟩ := dedupFrom_spec hle hc.2
    unfold dedupNode
    refine ⟨List.pairwise_cons.2 ⟨i1, i2⟩, fun b hb => ?_⟩
    rcases List.mem_cons.1 hb with rfl | hb'
    · exact ⟨b.2, List.mem_cons_self .., le_refl _⟩
    · rcases i3 b hb' with h | ⟨g, h1, h2⟩
      · refine ⟨c.2, by rw [h]; exact List.mem_cons_self .., ?_⟩
        rcases hc.1 b hb' with h' | h'
        · omega
        · exact h'.2
      · exact ⟨g, List.mem_cons_of_mem _ h1, h2⟩

/-- **C124**: the selected node is one with the greatest factor of all candidates, and among these the one with the
greatest number. -/
theorem C124_best {l : List (Nat × F)} {n : Nat} (h : pickNode l = some n) :
    ∃ f, (n, f) ∈ l ∧ ∀ c ∈ l, c.2 < f ∨ c.2 = f ∧ c.1 ≤ n := by
  have hsort : (stableSort nodeLe l).Pairwise fun a b : Nat × F => a.1 < b.1 ∨ a.1 = b.1 ∧ b.2 ≤ a.2 := by
    refine stableSort_pairwise (before := fun _ _ => True) ?_ ?_ ?_ (List.pairwise_of_forall fun _ _ => trivial)
    · intro a b hab _
      simpa [nodeLe] using hab
    · intro a b hab
      simp only [nodeLe, decide_eq_false_iff_not, not_or, not_and, not_not] at hab
      rcases Nat.lt_or_ge b.1 a.1 with h | h
      · exact .inl h
      · exact .inr ⟨by omega, (hab.2 (by omega)).le⟩
    · intro a b c hab hbc
      simp only [nodeLe, decide_eq_true_eq, not_lt] at *
      rcases hab with h | ⟨h, h'⟩ <;> rcases hbc with k | ⟨k, k'⟩
      · exact .inl (by omega)
      · exact .inl (by omega)
      · exact .inl (by omega)
      · exact .inr ⟨by omega, k'.trans h'⟩
  obtain ⟨d1, d2⟩ := dedupNode_spec hsort
  have hd : ∀ c ∈ l, ∃ g, (c.1, g) ∈ dedupNode (stableSort nodeLe l) ∧ c.2 ≤ g :=
    fun c hc => d2 c ((stableSort_perm _ _).symm.subset hc)
  have hback : ∀ c ∈ dedupNode (stableSort nodeLe l), c ∈ l := fun c hc =>
    (stableSort_perm _ _).subset ((dedupNode_sublist _).subset hc)
  unfold pickNode at h
  simp only [Option.map_eq_some_iff] at h
  revert d1 hd hback h
  generalize dedupNode (stableSort nodeLe l) = D
  intro d1 hd hback h
  obtain ⟨⟨m, f⟩, hlast, rfl⟩ := h
  have hfin : ∀ c ∈ D, c.2 < f ∨ c.2 = f ∧ c.1 ≤ m := by
    split at hlast
    · have hs : (stableSort factorLe D).Pairwise fun a b : Nat × F => a.2 < b.2 ∨ a.2 = b.2 ∧ a.1 < b.1 := by
        refine stableSort_pairwise (before := fun a b => a.1 < b.1) ?_ ?_ ?_ d1
        · intro a b hab hbef
          simp only [factorLe, decide_eq_true_eq, not_lt] at hab
          rcases hab.lt_or_eq with h | h
          · exact .inl h
          · exact .inr ⟨h, hbef⟩
        · intro a b hab
          simp only [factorLe, decide_eq_false_iff_not, not_not] at hab
          exact .inl hab
        · intro a b c hab hbc
          simp only [factorLe, decide_eq_true_eq, not_lt] at *
          rcases hbc with h | h
          · exact hab.trans h.le
          · exact hab.trans h.1.le
      obtain ⟨t, ht⟩ := List.getLast?_eq_some_iff.1 hlast
      rw [ht] at hs
      intro c hc
      have hc : c ∈ t ++ [(m, f)] := by rw [← ht]; exact (stableSort_perm _ _).symm.subset hc
      rcases List.mem_append.1 hc with hc | hc
      · rcases (List.pairwise_append.1 hs).2.2 c hc (m, f) (List.mem_singleton.2 rfl) with h | h
        · exact .inl h
        · exact .inr ⟨h.1, h.2.le⟩
      · rw [List.mem_singleton] at hc
        subst hc; exact .inr ⟨rfl, le_refl _⟩
    · rename_i hlen
      intro c hc
      match D, hlen, hlast, hc with
      | [d], _, hlast, hc =>
        simp only [List.getLast?_singleton, Option.some.injEq] at hlast
        rw [List.mem_singleton] at hc
        subst hc hlast
        exact .inr ⟨rfl, le_refl _⟩
      | [], _, hlast, _ => simp at hlast
      | _ :: _ :: _, hlen, _, _ => simp at hlen
  have hmemD : (m, f) ∈ D := by
    have := List.mem_of_getLast? hlast
    split at this
    · exact (stableSort_perm _ _).subset this
    · exact this
  refine ⟨f, hback _ hmemD, fun c hc => ?_⟩
  obtain ⟨g, h1, h2⟩ := hd c hc
  rcases hfin _ h1 with h | h
  · exact .inl (h2.trans_lt h)
  · rcases h2.lt_or_eq with k | k
    · exact .inl (by rw [← h.1]; exact k)
    · exact .inr ⟨k.trans h.1, h.2⟩

end

/-! ### The factors -/

section
variable {K : Type} [Field K] [LinearOrder K] [IsStrictOrderedRing K] [Env K]

/-- The squared shape factor is at most `1 / 12`, that of an equilateral triangle. -/
theorem C124_factor_le (a b c : V2 K) : 12 * shapeFactor a b c ^ 2 ≤ 1 := by
  unfold shapeFactor
  simp only
  set s := (b - a).lengthSq + (c - a).lengthSq + (c - b).lengthSq with hs
  set w := (b - a).perpDot (c - a) with hw
  have key : 12 * w ^ 2 ≤ s ^ 2 := by
    rw [hs, hw]
    simp only [V2.lengthSq, V2.dot, V2.perpDot, V2.sub_x, V2.sub_y]
    -- with `u = b - a`, `v = c - a`: `s / 2 = |u|² + |v|² - u·v`
    generalize hux : b.x - a.x = ux
    generalize huy : b.y - a.y = uy
    generalize hvx : c.x - a.x = vx
    generalize hvy : c.y - a.y = vy
    rw [show c.x - b.x = vx - ux by rw [← hux, ← hvx]; ring, show c.y - b.y = vy - uy by rw [← huy, ← hvy]; ring]
    set P := ux * ux + uy * uy
    set Q := vx * vx + vy * vy
    set R := ux * vx + uy * vy
    have e1 : (ux * vy - uy * vx) ^ 2 = P * Q - R ^ 2 := by ring
    have e2 : ux * ux + uy * uy + (vx * vx + vy * vy) + ((vx - ux) * (vx - ux) + (vy - uy) * (vy - uy))
        = 2 * (P + Q - R) := by ring
    rw [e1, e2]
    nlinarith [sq_nonneg (P - Q), sq_nonneg (P + Q - 4 * R)]
  by_cases h0 : s = 0
  · rw [h0]; simp
  · rw [div_pow, ← mul_div_assoc, div_le_one (by positivity)]
    exact key

/-- The shape factor of an equilateral triangle: with `√3 / 2` for the height it is `1 / (2 √3)`. -/
theorem shapeFactor_equilateral {r : K} (hr : r ^ 2 = 3) :
    shapeFactor (⟨0, 0⟩ : V2 K) ⟨2, 0⟩ ⟨1, r⟩ * (2 * r) = 1 := by
  have : r * r = 3 := by rw [← sq]; exact hr
  simp only [shapeFactor, V2.lengthSq, V2.dot, V2.perpDot, V2.sub_x, V2.sub_y]
  have e : (2 - 0) * (2 - 0) + ((0 : K) - 0) * (0 - 0) + ((1 - 0) * (1 - 0) + (r - 0) * (r - 0))
      + ((1 - 2) * (1 - 2) + (r - 0) * (r - 0)) = 12 := by linear_combination 2 * this
  rw [e]
  linear_combination (1 / 3 : K) * this

/-- A candidate that is a node in the trial triangle has a greater factor than one that is not. -/
theorem C124_inner_first (a b c d : V2 K) : shapeFactor a b c < 1 + shapeFactor a b d := by
  have h1 := C124_factor_le a b c
  have h2 := C124_factor_le a b d
  nlinarith [sq_nonneg (shapeFactor a b c - 1 / 2), sq_nonneg (shapeFactor a b d + 1 / 2)]

end

/-! ### The node returned -/

section
variable {F : Type} [Add F] [Sub F] [Mul F] [Div F] [Neg F] [Zero F] [One F] [NatCast F] [LT F] [DecidableLT F]
  [LE F] [DecidableLE F] [Env F]

/-- The candidates of a run are those of the front edges. -/
theorem mem_nearby {front : List (Nat × Nat)} {g : Nat × Nat → Res (Option (Nat × F))} {nearby : List (Option (Nat × F))}
    (h : front.mapM g = .ok nearby) : (∀ e ∈ front, ∃ o, g e = .ok o) ∧
      ∀ x, x ∈ nearby.filterMap id ↔ ∃ e ∈ front, g e = .ok (some x) := by
  have h2 := of_mapM_ok h
  clear h
  induction h2 with
  | nil => simp
  | @cons e o _ _ hc _ ih =>
    refine ⟨fun e' he' => ?_, fun x => ?_⟩
    · rcases List.mem_cons.1 he' with rfl | he'
      · exact ⟨_, hc⟩
      · exact ih.1 e' he'
    · have hx := ih.2 x
      cases o with
      | none =>
        simp only [List.filterMap_cons, id_eq, List.mem_cons, exists_eq_or_imp, hc, Except.ok.injEq]
        refine Iff.trans hx ?_; simp
      | some y =>
        simp only [List.filterMap_cons, id_eq, List.mem_cons, exists_eq_or_imp, hc, Except.ok.injEq,
          Option.some.injEq]
        refine (or_congr_right hx).trans ?_
        constructor <;> rintro (h | h)
        · exact .inl h.symm
        · exact .inr h
        · exact .inl h.symm
        · exact .inr h

/-- A front edge that offers no node. -/
theorem frontCandidate_none {start stop : Nat} {selected : Option Nat} {vertices : List (V2 F)} {a b q : V2 F}
    {e : Nat × Nat} (h : frontCandidate start stop selected vertices a b q e = .ok none) (h1 : selected ≠ some e.1) :
    (e.1 ≠ start → e.1 ≠ stop → ∃ v, idx vertices e.1 = .ok v ∧ isInsideTriangleTol v a b q = false) ∧
    (selected ≠ some e.2 → ∃ c d, idx vertices e.1 = .ok c ∧ idx vertices e.2 = .ok d ∧
      (e.1 ≠ start → e.2 ≠ start → isSegmentsIntersect a q c d = false) ∧
      (e.1 ≠ stop → e.2 ≠ stop → isSegmentsIntersect b q c d = false)) := by
  unfold frontCandidate at h
  rw [if_pos h1, bind_eq_ok] at h
  obtain ⟨inner, hi, h⟩ := h
  cases inner with
  | true =>
    rw [if_pos rfl, bind_eq_ok] at h
    obtain ⟨v, -, h⟩ := h
    cases h
  | false =>
    rw [if_neg (by simp)] at h
    constructor
    · intro g1 g2
      rw [if_pos ⟨g1, g2⟩, bind_eq_ok] at hi
      obtain ⟨v, hv, hi⟩ := hi
      exact ⟨v, hv, by simpa [pure_eq_ok] using hi⟩
    · intro h2
      rw [if_pos h2, bind_eq_ok] at h
      obtain ⟨c, hc, h⟩ := h
      rw [bind_eq_ok] at h
      obtain ⟨d, hd, h⟩ := h
      refine ⟨c, d, hc, hd, ?_⟩
      split at h
      · dsimp only at h
        split at h
        · cases h
        · split at h <;> cases h
      · rename_i k1
        split at h
        · dsimp only at h
          split at h
          · cases h
          · split at h <;> cases h
        · rename_i k2
          refine ⟨fun g1 g2 => ?_, fun g1 g2 => ?_⟩
          · by_contra hh
            exact k1 ⟨g1, g2, by simpa using hh⟩
          · by_contra hh
            exact k2 ⟨g1, g2, by simpa using hh⟩

/-- The loop stops only when the triangle over the last node, or the trial triangle, meets nothing. -/
theorem selectNode_last {pick : List (Nat × F) → Option Nat} {start stop : Nat} {front : List (Nat × Nat)}
    {vertices : List (V2 F)} (fuel : Nat) {selected r : Option Nat}
    (h : selectNode pick start stop front vertices fuel selected = .ok r) :
    findIntersectionWithFront pick start stop r front vertices = .ok none := by
  induction fuel generalizing selected with
  | zero => cases h
  | succ fuel ih =>
    unfold selectNode at h
    rw [bind_eq_ok] at h
    obtain ⟨o, ho, h⟩ := h
    cases o with
    | none => cases h; exact ho
    | some node => exact ih h

/-- The apex for which the triangle over the edge `a b` is tested: the selected node, or the trial point. -/
def Spec.apex (vertices : List (V2 F)) (a b : V2 F) : Option Nat → Res (V2 F)
  | some node => idx vertices node
  | none => .ok (pointOnNormalBisector a b 1)

/-- **C124**, any arithmetic: when the loop over the nodes ends, no other node of the front passes the test of being
inside the triangle, and no front edge passes the test of meeting a side of it, except at a common node. -/
theorem C124_stops {pick : List (Nat × F) → Option Nat} (hp : PickOk pick) {start stop fuel : Nat}
    {front : List (Nat × Nat)} {vertices : List (V2 F)} {selected r : Option Nat}
    (h : selectNode pick start stop front vertices fuel selected = .ok r) :
    ∃ a b q, idx vertices start = .ok a ∧ idx vertices stop = .ok b ∧ Spec.apex vertices a b r = .ok q ∧
      ∀ e ∈ front, r ≠ some e.1 →
        (e.1 ≠ start → e.1 ≠ stop → ∃ v, idx vertices e.1 = .ok v ∧ isInsideTriangleTol v a b q = false) ∧
        (r ≠ some e.2 → ∃ c d, idx vertices e.1 = .ok c ∧ idx vertices e.2 = .ok d ∧
          (e.1 ≠ start → e.2 ≠ start → isSegmentsIntersect a q c d = false) ∧
          (e.1 ≠ stop → e.2 ≠ stop → isSegmentsIntersect b q c d = false)) := by
  have h := selectNode_last fuel h
  unfold findIntersectionWithFront at h
  simp only [bind_eq_ok] at h
  obtain ⟨a, ha, b, hb, q, hq, nearby, hn, h⟩ := h
  simp only [pure_eq_ok, Except.ok.injEq] at h
  have h0 := hp.none _ h
  refine ⟨a, b, q, ha, hb, ?_, fun e he h1 => ?_⟩
  · cases r <;> exact hq
  · obtain ⟨hall, hmem⟩ := mem_nearby hn
    obtain ⟨o, ho⟩ := hall e he
    cases o with
    | none => exact frontCandidate_none ho h1
    | some x =>
      have := (hmem x).2 ⟨e, he, ho⟩
      rw [h0] at this
      simp at this

end

section
variable {K : Type} [Field K] [LinearOrder K] [IsStrictOrderedRing K] [Env K]

/-- **C124**, exact: the triangle the loop settles on is free.  No other node of the front is in it, and no front edge
has a point in common with a side of it, unless they share a node. -/
theorem C124_free {pick : List (Nat × K) → Option Nat} (hp : PickOk pick) {start stop fuel : Nat}
    {front : List (Nat × Nat)} {vertices : List (V2 K)} {selected r : Option Nat}
    (h : selectNode pick start stop front vertices fuel selected = .ok r) :
    ∃ a b q, idx vertices start = .ok a ∧ idx vertices stop = .ok b ∧ Spec.apex vertices a b r = .ok q ∧
      ∀ e ∈ front, r ≠ some e.1 →
        (0 ≤ Spec.triArea2 a b q → e.1 ≠ start → e.1 ≠ stop →
          ∃ v, idx vertices e.1 = .ok v ∧ ¬ Spec.InTriangle a b q v) ∧
        (r ≠ some e.2 → ∃ c d, idx vertices e.1 = .ok c ∧ idx vertices e.2 = .ok d ∧
          (e.1 ≠ start → e.2 ≠ start → ∀ p, Spec.OnSegment c d p → ¬ Spec.OnSegment a q p) ∧
          (e.1 ≠ stop → e.2 ≠ stop → ∀ p, Spec.OnSegment c d p → ¬ Spec.OnSegment b q p)) := by
  obtain ⟨a, b, q, ha, hb, hq, hall⟩ := C124_stops hp h
  refine ⟨a, b, q, ha, hb, hq, fun e he h1 => ⟨fun hA g1 g2 => ?_, fun h2 => ?_⟩⟩
  · obtain ⟨v, hv, hv'⟩ := (hall e he h1).1 g1 g2
    refine ⟨v, hv, fun hin => ?_⟩
    rw [C33_tolerant_accepts hA hin] at hv'
    cases hv'
  · obtain ⟨c, d, hc, hd, k1, k2⟩ := (hall e he h1).2 h2
    refine ⟨c, d, hc, hd, fun g1 g2 p hp1 hp2 => ?_, fun g1 g2 p hp1 hp2 => ?_⟩
    · have := (C34_exact a q c d).2 ⟨p, hp2, hp1⟩
      rw [k1 g1 g2] at this
      cases this
    · have := (C34_exact b q c d).2 ⟨p, hp2, hp1⟩
      rw [k2 g1 g2] at this
      cases this

/-- The factor offered: that of an inner node is raised by one. -/
theorem frontCandidate_factor {start stop : Nat} {selected : Option Nat} {vertices : List (V2 K)} {a b q : V2 K}
    {e : Nat × Nat} {n : Nat} {f : K} (h : frontCandidate start stop selected vertices a b q e = .ok (some (n, f))) :
    ∃ v, idx vertices n = .ok v ∧
      ((f = 1 + shapeFactor a b v ∧ isInsideTriangleTol v a b q = true ∧ n ≠ start ∧ n ≠ stop) ∨ f = shapeFactor a b v) := by
  unfold frontCandidate at h
  split at h
  · rw [bind_eq_ok] at h
    obtain ⟨inner, hi, h⟩ := h
    cases inner with
    | true =>
      rw [if_pos rfl, bind_eq_ok] at h
      obtain ⟨v, hv, h⟩ := h
      cases h
      split at hi
      · rename_i g
        rw [bind_eq_ok] at hi
        obtain ⟨v', hv', hi⟩ := hi
        rw [hv] at hv'
        cases hv'
        exact ⟨v, hv, .inl ⟨rfl, by simpa [pure_eq_ok] using hi, g.1, g.2⟩⟩
      · cases hi
    | false =>
      rw [if_neg (by simp)] at h
      split at h
      · rw [bind_eq_ok] at h
        obtain ⟨c, hc, h⟩ := h
        rw [bind_eq_ok] at h
        obtain ⟨d, hd, h⟩ := h
        dsimp only at h
        repeat' split at h
        all_goals first | cases h; exact ⟨c, hc, .inr rfl⟩ | cases h; exact ⟨d, hd, .inr rfl⟩ | cases h
      · cases h
  · cases h

/-- **C124**, exact: if a node of the front is inside the tested triangle, the node taken next is inside too, and of
the nodes inside it is one of best shape. -/
theorem C124_inner {start stop : Nat} {selected : Option Nat} {front : List (Nat × Nat)} {vertices : List (V2 K)}
    {n : Nat} (h : findIntersectionWithFront pickNode start stop selected front vertices = .ok (some n)) :
    ∃ a b q w, idx vertices start = .ok a ∧ idx vertices stop = .ok b ∧ Spec.apex vertices a b selected = .ok q ∧
      idx vertices n = .ok w ∧
      ∀ e ∈ front, selected ≠ some e.1 → e.1 ≠ start → e.1 ≠ stop → ∀ v, idx vertices e.1 = .ok v →
        isInsideTriangleTol v a b q = true →
        isInsideTriangleTol w a b q = true ∧ n ≠ start ∧ n ≠ stop ∧ shapeFactor a b v ≤ shapeFactor a b w := by
  unfold findIntersectionWithFront at h
  simp only [bind_eq_ok] at h
  obtain ⟨a, ha, b, hb, q, hq, nearby, hn, h⟩ := h
  simp only [pure_eq_ok, Except.ok.injEq] at h
  obtain ⟨f, hf, hbest⟩ := C124_best h
  obtain ⟨-, hmem⟩ := mem_nearby hn
  obtain ⟨e0, -, he0⟩ := (hmem _).1 hf
  obtain ⟨w, hw, hcase⟩ := frontCandidate_factor he0
  refine ⟨a, b, q, w, ha, hb, by cases selected <;> exact hq, hw, fun e he g1 g2 g3 v hv hin => ?_⟩
  have hcand : frontCandidate start stop selected vertices a b q e = .ok (some (e.1, 1 + shapeFactor a b v)) := by
    unfold frontCandidate
    rw [if_pos g1, if_pos ⟨g2, g3⟩, hv]
    simp only [ok_bind, pure_eq_ok, hin, if_true]
  have hge : 1 + shapeFactor a b v ≤ f := by
    rcases hbest _ ((hmem _).2 ⟨e, he, hcand⟩) with k | k
    · exact k.le
    · exact k.1.le
  rcases hcase with ⟨k1, k2, k3, k4⟩ | k
  · exact ⟨k2, k3, k4, by rw [k1] at hge; linarith⟩
  · exact absurd hge (not_le.2 (k ▸ C124_inner_first a b w v))

end

/-! ### Equality with the selection used in the examples -/

theorem pickMax_best {F : Type} [LinearOrder F] {l : List (Nat × F)} {a : Nat × F} (h : pickMax l = some a) :
    ∀ c ∈ l, c.2 < a.2 ∨ c.2 = a.2 ∧ c.1 ≤ a.1 := by
  induction l generalizing a with
  | nil => simp
  | cons b l ih =>
    unfold pickMax at h
    cases hm : pickMax l with
    | none =>
      have hl : l = [] := pickMax_ok.none l (by simp only [hm, Option.map_none])
      rw [hm] at h
      cases h
      intro c hc
      rw [hl, List.mem_singleton] at hc
      subst hc; exact .inr ⟨rfl, le_refl _⟩
    | some m =>
      rw [hm] at h
      have im := ih hm
      simp only at h
      intro c hc
      rw [List.mem_cons] at hc
      split at h
      · rename_i k
        cases h
        rcases hc with rfl | hc
        · exact .inr ⟨rfl, le_refl _⟩
        · rcases im c hc with i | i
          · exact .inl (i.trans k)
          · exact .inl (i.1 ▸ k)
      · rename_i k
        split at h
        · rename_i k2
          cases h
          rcases hc with rfl | hc
          · exact .inl k2
          · exact im c hc
        · rename_i k2
          have e : b.2 = m.2 := le_antisymm (not_lt.1 k) (not_lt.1 k2)
          split at h
          · rename_i k3
            cases h
            rcases hc with rfl | hc
            · exact .inr ⟨rfl, le_refl _⟩
            · rcases im c hc with i | i
              · exact .inl (e ▸ i)
              · exact .inr ⟨i.1.trans e.symm, by omega⟩
          · rename_i k3
            cases h
            rcases hc with rfl | hc
            · exact .inr ⟨e, by omega⟩
            · exact im c hc

/-- **C124**: the sorts and the removal of duplicates come to taking the best candidate. -/
theorem C124_pickMax {F : Type} [LinearOrder F] (l : List (Nat × F)) : pickNode l = (pickMax l).map Prod.fst := by
  cases h1 : pickNode l with
  | none =>
    rw [C124_pick_ok.none l h1]; rfl
  | some n =>
    obtain ⟨f, hf, hb⟩ := C124_best h1
    cases h2 : pickMax l with
    | none =>
      have := pickMax_ok.none l (by simp only [h2, Option.map_none])
      rw [this] at hf; simp at hf
    | some a =>
      rw [Option.map_some, Option.some.injEq]
      have k1 := hb a (pickMax_mem h2)
      have k2 := pickMax_best h2 _ hf
      rcases k1 with k1 | k1 <;> rcases k2 with k2 | k2
      · exact absurd (k1.trans k2) (lt_irrefl _)
      · exact absurd (k2.1 ▸ k1) (lt_irrefl _)
      · exact absurd (k1.1 ▸ k2) (lt_irrefl _)
      · have := k1.2; have := k2.2; simp only at *; omega

/-! ### Cases -/

/-- The selection on candidates with repeated nodes and equal factors, in binary64. -/
example : pickNode [(4, (0.25 : Float)), (2, 0.125), (4, 1.25), (7, 0.25), (3, 1.25), (2, 0.5)] = some 4 := by
  decide +kernel

/-- The rectangle of C122 with the selection of the code. -/
theorem frontRect_pick : @generateTriangularMesh ℚ _ _ _ _ _ _ _ _ _ _ _ _ Spec.frontEnvQ pickNode 20 50
    Spec.frontRect [0, 6] = .ok (Spec.frontRectV, Spec.frontRectT) := by
  have : (pickNode : List (Nat × ℚ) → Option Nat) = fun l => (pickMax l).map Prod.fst := funext C124_pickMax
  rw [this]; exact frontRect_run

/-- Non-vacuity of `C124_free`: the edge from vertex 3 to vertex 4 of the rectangle gets vertex 2 as its apex. -/
example : @selectNode ℚ _ _ _ _ _ _ _ _ _ _ _ _ Spec.frontEnvQ pickNode 3 4 [(6, 0), (0, 1), (1, 2), (2, 3), (4, 6)] Spec.frontRectV 20 none
    = .ok (some 2) := by decide +kernel

end Geom3d
