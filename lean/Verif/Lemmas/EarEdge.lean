import Verif.Props.EarComplete

/-!
# Directed edges that ear clipping cannot produce

If the path given to `trianglate_polygon` (`src/utils/polygon.rs:66-142`) goes back over a side of the polygon together with
the side before it, no triangle has this side in its direction.
-/

namespace Geom3d.EarEdge
open Spec Winding List

set_option linter.unusedSectionVars false

/-! ### Neighbours in closed loops -/

section
variable {α : Type}

theorem fst_of_pathEdges {x : α} : ∀ {l : List α} {e : α × α}, e ∈ pathEdges (l ++ [x]) → e.1 ∈ l
  | [], e, h => by cases h
  | [a], e, h => by
    rw [List.singleton_append, pathEdges_cons_cons, pathEdges_singleton, List.mem_singleton] at h
    subst h; simp
  | a :: b :: l, e, h => by
    rw [List.cons_append, List.cons_append, pathEdges_cons_cons, List.mem_cons] at h
    rcases h with rfl | h
    · simp
    · exact List.mem_cons_of_mem _ (fst_of_pathEdges (l := b :: l) h)

theorem map_fst_pathEdges (x : α) : ∀ l : List α, (pathEdges (l ++ [x])).map Prod.fst = l
  | [] => rfl
  | [_] => rfl
  | a :: b :: l => by
    rw [List.cons_append, List.cons_append, pathEdges_cons_cons, List.map_cons]
    exact congrArg (a :: ·) (map_fst_pathEdges x (b :: l))

theorem map_fst_loopEdges (l : List α) : (loopEdges l).map Prod.fst = l := by
  cases l with
  | nil => rfl
  | cons a t => exact map_fst_pathEdges a (a :: t)

theorem map_snd_loopEdges (l : List α) : ((loopEdges l).map Prod.snd).Perm l := by
  cases l with
  | nil => exact .refl _
  | cons a t =>
    rw [Spec.loopEdges_cons, pathEdges, List.map_snd_zip (by simp)]
    exact List.perm_append_comm

theorem succ_unique {l : List α} (hn : l.Nodup) {x y z : α} (h1 : (x, y) ∈ loopEdges l) (h2 : (x, z) ∈ loopEdges l) : y = z := by
  have := List.inj_on_of_nodup_map (f := Prod.fst) (l := loopEdges l) (by rw [map_fst_loopEdges]; exact hn) h1 h2 rfl
  exact (Prod.mk.inj this).2

theorem pred_unique {l : List α} (hn : l.Nodup) {x y z : α} (h1 : (y, x) ∈ loopEdges l) (h2 : (z, x) ∈ loopEdges l) : y = z := by
  have := List.inj_on_of_nodup_map (f := Prod.snd) (l := loopEdges l) ((map_snd_loopEdges l).nodup_iff.2 hn) h1 h2 rfl
  exact (Prod.mk.inj this).1

theorem edge_form {l : List α} (hn : l.Nodup) {x y : α} (hxy : x ≠ y) (h : (x, y) ∈ loopEdges l) : ∃ t, l ~r x :: y :: t := by
  obtain ⟨t, ht⟩ := rot_of_mem (show x ∈ l from (mem_of_loopEdges h).1)
  have hn' := List.nodup_cons.1 (ht.perm.nodup_iff.1 hn)
  rw [(loopEdges_rot ht).mem_iff, Spec.loopEdges_cons] at h
  cases t with
  | nil =>
    rw [List.nil_append, pathEdges_cons_cons, pathEdges_singleton, List.mem_singleton] at h
    cases h; exact absurd rfl hxy
  | cons y' t =>
    rw [List.cons_append, pathEdges_cons_cons, List.mem_cons] at h
    rcases h with h | h
    · cases h; exact ⟨t, ht⟩
    · exact absurd (fst_of_pathEdges (l := y' :: t) h) hn'.1

theorem rot_sublist {l' l m : List α} (h : l' <+ l) (hr : l ~r m) : ∃ m', l' ~r m' ∧ m' <+ m := by
  obtain ⟨n, rfl⟩ := hr
  rw [List.rotate_eq_drop_append_take_mod]
  rw [← List.take_append_drop (n % l.length) l, List.sublist_append_iff] at h
  obtain ⟨a, b, rfl, h1, h2⟩ := h
  exact ⟨b ++ a, isRotated_append, h2.append h1⟩

theorem head_sublist {m' t : List α} {x : α} (hn : (x :: t).Nodup) (h : m' <+ x :: t) (hx : x ∈ m') :
    ∃ t', m' = x :: t' ∧ t' <+ t := by
  rcases List.sublist_cons_iff.1 h with h | ⟨r, rfl, h'⟩
  · exact absurd (h.subset hx) (List.nodup_cons.1 hn).1
  · exact ⟨r, rfl, h'⟩

theorem skip_sublist {m' t : List α} {x : α} (h : m' <+ x :: t) (hx : x ∉ m') : m' <+ t := by
  rcases List.sublist_cons_iff.1 h with h | ⟨r, rfl, h⟩
  · exact h
  · exact absurd (by simp) hx

/-- Neighbours stay neighbours when others are removed. -/
theorem edge_sublist {l' l : List α} (hs : l' <+ l) (hn : l.Nodup) {x y : α} (hxy : x ≠ y) (h : (x, y) ∈ loopEdges l)
    (hx : x ∈ l') (hy : y ∈ l') : (x, y) ∈ loopEdges l' := by
  obtain ⟨t, ht⟩ := edge_form hn hxy h
  obtain ⟨m', h1, h2⟩ := rot_sublist hs ht
  have hn' := ht.perm.nodup_iff.1 hn
  obtain ⟨t1, rfl, h3⟩ := head_sublist hn' h2 (h1.perm.mem_iff.1 hx)
  obtain ⟨t2, rfl, -⟩ := head_sublist (List.nodup_cons.1 hn').2 h3
    ((List.mem_cons.1 (h1.perm.mem_iff.1 hy)).resolve_left (Ne.symm hxy))
  rw [(loopEdges_rot h1).mem_iff, Spec.loopEdges_cons, List.cons_append, pathEdges_cons_cons]
  simp

/-- Two vertices become neighbours when the two between them are removed. -/
theorem edge_bridge {l' l : List α} (hs : l' <+ l) (hn : l.Nodup) {x u v y : α} (h1 : (x, u) ∈ loopEdges l) (h2 : (u, v) ∈ loopEdges l)
    (h3 : (v, y) ∈ loopEdges l) (hx : x ∈ l') (hy : y ∈ l') (hu : u ∉ l') (hv : v ∉ l') (hxy : x ≠ y) :
    (x, y) ∈ loopEdges l' := by
  have hxu : x ≠ u := fun h => hu (h ▸ hx)
  have hvx : v ≠ x := fun h => hv (h ▸ hx)
  obtain ⟨t, ht⟩ := edge_form hn hxu h1
  have hn' := ht.perm.nodup_iff.1 hn
  rw [(loopEdges_rot ht).mem_iff] at h2 h3
  have e : ∃ w, t = v :: w := by
    cases t with
    | nil =>
      have : (u, x) ∈ loopEdges [x, u] := by simp [Spec.loopEdges_cons]
      exact absurd (succ_unique hn' h2 this) hvx
    | cons v' w =>
      have : (u, v') ∈ loopEdges (x :: u :: v' :: w) := by simp [Spec.loopEdges_cons]
      exact ⟨w, by rw [succ_unique hn' h2 this]⟩
  obtain ⟨w, rfl⟩ := e
  have e : ∃ w', w = y :: w' := by
    cases w with
    | nil =>
      have : (v, x) ∈ loopEdges [x, u, v] := by simp [Spec.loopEdges_cons]
      exact absurd (succ_unique hn' this h3) hxy
    | cons v' w' =>
      have : (v, v') ∈ loopEdges (x :: u :: v :: v' :: w') := by simp [Spec.loopEdges_cons]
      exact ⟨w', by rw [succ_unique hn' h3 this]⟩
  obtain ⟨w', rfl⟩ := e
  obtain ⟨m', r1, r2⟩ := rot_sublist hs ht
  obtain ⟨t1, rfl, h4⟩ := head_sublist hn' r2 (r1.perm.mem_iff.1 hx)
  have h5 := skip_sublist h4 fun h => hu (r1.perm.mem_iff.2 (List.mem_cons_of_mem _ h))
  have h6 := skip_sublist h5 fun h => hv (r1.perm.mem_iff.2 (List.mem_cons_of_mem _ h))
  have hn2 := (List.nodup_cons.1 (List.nodup_cons.1 (List.nodup_cons.1 hn').2).2).2
  obtain ⟨t2, rfl, -⟩ := head_sublist hn2 h6 ((List.mem_cons.1 (r1.perm.mem_iff.1 hy)).resolve_left (Ne.symm hxy))
  rw [(loopEdges_rot r1).mem_iff, Spec.loopEdges_cons, List.cons_append, pathEdges_cons_cons]
  simp

end

theorem getD_edge {L : List Nat} {j : Nat} (hj : j < L.length) : (L.getD j 0, L.getD ((j + 1) % L.length) 0) ∈ loopEdges L := by
  have e : L = (List.range L.length).map fun j => L.getD j 0 := eq_tab_getD L 0
  have := (mem_loopEdges_range (x := j) (y := (j + 1) % L.length) (n := L.length) (by omega)).2 ⟨hj, rfl⟩
  rw [show loopEdges L = loopEdges ((List.range L.length).map fun j => L.getD j 0) from congrArg _ e, loopEdges_map, List.mem_map]
  exact ⟨_, this, rfl⟩

section
variable {F : Type} [Add F] [Sub F] [Mul F] [Div F] [Neg F] [Zero F] [One F] [NatCast F] [LT F] [DecidableLT F]
  [LE F] [DecidableLE F] [Env F]

/-! ### One step, with the concave vertices -/

theorem mem_eraseIdx_of_ne {C : List Nat} {j x v : Nat} (hj : C[j]? = some v) (hx : x ∈ C) (hne : x ≠ v) : x ∈ C.eraseIdx j := by
  rw [List.mem_eraseIdx_iff_getElem?]
  obtain ⟨k, hk⟩ := List.mem_iff_getElem?.1 hx
  refine ⟨k, ?_, hk⟩
  rintro rfl
  rw [hj] at hk
  exact hne (Option.some.inj hk).symm

theorem updatePrev_keeps {bs : List Nat → Nat → Option Nat} (hbs : BinarySearch bs) {points : List (V2 F)} {V C C' : List Nat}
    {m i prev next : Nat} {d : Bool} (h : updatePrev bs points V C m i prev next = .ok (C', d)) {x : Nat} (hx : x ∈ C)
    (hne : x ≠ prev) : x ∈ C' := by
  unfold updatePrev at h
  split at h
  · simp only [pure_eq_ok, Except.ok.injEq, Prod.mk.injEq] at h
    rw [← h.1]; exact hx
  · rename_i j hj
    simp only [bind_eq_ok] at h
    obtain ⟨k, -, pp, -, a, -, b, -, c, -, h⟩ := h
    split at h <;> simp only [pure_eq_ok, Except.ok.injEq, Prod.mk.injEq] at h <;> rw [← h.1]
    · exact mem_eraseIdx_of_ne (hbs.found _ _ _ hj) hx hne
    · exact hx
    · exact hx

theorem updateNext_keeps {bs : List Nat → Nat → Option Nat} (hbs : BinarySearch bs) {points : List (V2 F)} {V C C' : List Nat}
    {m i prev next : Nat} {d : Bool} (h : updateNext bs points V C m i prev next = .ok (C', d)) {x : Nat} (hx : x ∈ C) :
    x ∈ C' ∨ x = next ∧ ∃ nn a b c, V[(i + 2) % m]? = some nn ∧ points[prev]? = some a ∧
      points[next]? = some b ∧ points[nn]? = some c ∧ computeConvexity a b c = .convex := by
  unfold updateNext at h
  split at h
  · simp only [pure_eq_ok, Except.ok.injEq, Prod.mk.injEq] at h
    rw [← h.1]; exact .inl hx
  · rename_i j hj
    simp only [bind_eq_ok] at h
    obtain ⟨nn, hnn, a, ha, b, hb, c, hc, h⟩ := h
    rw [idx_eq_ok] at hnn ha hb hc
    split at h <;> simp only [pure_eq_ok, Except.ok.injEq, Prod.mk.injEq] at h <;> rw [← h.1]
    · rename_i hcv
      by_cases hne : x = next
      · exact .inr ⟨hne, nn, a, b, c, hnn, ha, hb, hc, hcv⟩
      · exact .inl (mem_eraseIdx_of_ne (hbs.found _ _ _ hj) hx hne)
    · exact .inl hx
    · exact .inl hx

/-- What a step does with the concave vertices: the clipped vertex is none of them, and only its neighbours leave the list. -/
structure Keeps (points : List (V2 F)) (s s' : EarState) (i : Nat) : Prop where
  curr : s.vertices.getD i 0 ∉ s.concave
  keep : ∀ x ∈ s.concave, x ∈ s'.concave ∨ x = s.vertices.getD ((s.m + i - 1) % s.m) 0 ∨
    x = s.vertices.getD ((i + 1) % s.m) 0 ∧ ∃ a b c, points[s.vertices.getD ((s.m + i - 1) % s.m) 0]? = some a ∧
      points[s.vertices.getD ((i + 1) % s.m) 0]? = some b ∧ points[s.vertices.getD ((i + 2) % s.m) 0]? = some c ∧
      computeConvexity a b c = .convex

theorem earStep_keeps {bs : List Nat → Nat → Option Nat} (hbs : BinarySearch bs) {points : List (V2 F)} {s s' : EarState} {i : Nat}
    (hC : s.concave.Pairwise (· ≤ ·)) (h : earStep bs points s i = .ok s') : s' = s ∨ Keeps points s s' i := by
  have hD : ∀ {j v : Nat}, s.vertices[j]? = some v → s.vertices.getD j 0 = v := by
    intro j v h; simp [List.getD, h]
  unfold earStep at h
  rw [bind_eq_ok] at h
  obtain ⟨curr, hc, h⟩ := h
  rw [idx_eq_ok] at hc
  split at h
  · cases h; exact .inl rfl
  · rename_i hb
    simp only [bind_eq_ok] at h
    obtain ⟨prev, hp, next, hn, ear, _, h⟩ := h
    rw [idx_eq_ok] at hp hn
    split at h
    · right
      simp only [bind_eq_ok, Prod.exists] at h
      obtain ⟨C1, dp, hu1, C2, dn, hu2, m', hm', h⟩ := h
      simp only [pure_eq_ok, Except.ok.injEq] at h
      refine ⟨by rw [hD hc]; exact hbs.absent _ _ hC hb, fun x hx => ?_⟩
      rw [hD hp, hD hn]
      by_cases hxp : x = prev
      · exact .inr (.inl hxp)
      rcases updateNext_keeps hbs hu2 (updatePrev_keeps hbs hu1 hx hxp) with h' | ⟨h', nn, a, b, c, e1, e2, e3, e4, e5⟩
      · exact .inl (by rw [← h]; exact h')
      · exact .inr (.inr ⟨h', a, b, c, e2, e3, by rw [hD e1]; exact e4, e5⟩)
    · cases h; exact .inl rfl

/-! ### The invariant -/

variable {α : Type}

/-- The situation: in the loop `W`, the vertex `b` comes directly after `c` and directly before `δ`, and `g` after `δ`.  `b` is at
`β`, `c` and `g` are at `κ`, and all vertices seen from the edge from `κ` to `β` are on the right. -/
structure Backed (points : List (V2 F)) (W V : List Nat) (lab : Nat → α) (β κ : α) (b c δ g : Nat) : Prop where
  nodup : W.Nodup
  sub : V <+ W
  ne : β ≠ κ
  labb : lab b = β
  labc : lab c = κ
  labg : lab g = κ
  labδ : lab δ ≠ β ∧ lab δ ≠ κ
  cg : c ≠ g
  e1 : (c, b) ∈ loopEdges W
  e2 : (b, δ) ∈ loopEdges W
  e3 : (δ, g) ∈ loopEdges W
  onlyb : ∀ x ∈ V, lab x = β → x = b
  onlyc : ∀ x ∈ V, lab x = κ → x = c ∨ x = g
  right : ∀ x ∈ V, ∀ p q r, points[x]? = some p → points[c]? = some q → points[b]? = some r →
    computeConvexity p q r ≠ .convex ∧ (computeConvexity p q r = .colinear → lab x = β ∨ lab x = κ)

/-- `t` has three corners at different places and the side from `β` to `κ`. -/
def HasSide (lab : Nat → α) (β κ : α) (t : Nat × Nat × Nat) : Prop :=
  lab t.1 ≠ lab t.2.1 ∧ lab t.2.1 ≠ lab t.2.2 ∧ lab t.1 ≠ lab t.2.2 ∧
    ((lab t.1 = β ∧ lab t.2.1 = κ) ∨ (lab t.2.1 = β ∧ lab t.2.2 = κ) ∨ (lab t.2.2 = β ∧ lab t.1 = κ))

structure Inv (V : List Nat) (lab : Nat → α) (β κ : α) (b c δ g : Nat) (s : EarState) : Prop where
  sub : s.vertices <+ V
  sorted : s.concave.Pairwise (· ≤ ·)
  m1 : b ∈ s.vertices → c ∈ s.vertices → c ∈ s.concave
  m2 : b ∈ s.vertices → g ∈ s.vertices → δ ∈ s.vertices ∧ δ ∈ s.concave
  m3 : b ∈ s.vertices → g ∈ s.vertices → c ∉ s.vertices → (g, b) ∈ loopEdges s.vertices
  len : ∃ k, s.triangles.length = 3 * k
  free : ∀ t ∈ triples s.triangles, ¬ HasSide lab β κ t

variable {points : List (V2 F)} {W V : List Nat} {lab : Nat → α} {β κ : α} {b c δ g : Nat}

theorem Backed.bc (h : Backed points W V lab β κ b c δ g) : c ≠ b := by
  rintro rfl; exact h.ne (h.labb.symm.trans h.labc)

theorem Backed.bδ (h : Backed points W V lab β κ b c δ g) : b ≠ δ := by
  rintro rfl; exact h.labδ.1 h.labb

theorem Backed.δg (h : Backed points W V lab β κ b c δ g) : δ ≠ g := by
  rintro rfl; exact h.labδ.2 h.labg

theorem Backed.gb (h : Backed points W V lab β κ b c δ g) : g ≠ b := by
  rintro rfl; exact h.ne (h.labb.symm.trans h.labg)

/-- Three consecutive vertices do not have the side. -/
theorem corner_free (H : Backed points W V lab β κ b c δ g) {s : EarState} (I : Inv V lab β κ b c δ g s) {p x q : Nat}
    (h1 : (p, x) ∈ loopEdges s.vertices) (h2 : (x, q) ∈ loopEdges s.vertices) : ¬ HasSide lab β κ (p, x, q) := by
  have hsub := I.sub.trans H.sub
  have hn := hsub.nodup H.nodup
  have mp := (mem_of_loopEdges h1).1
  have mx := (mem_of_loopEdges h1).2
  have mq := (mem_of_loopEdges h2).2
  rintro ⟨d1, d2, d3, h⟩
  simp only at d1 d2 d3 h
  rcases h with ⟨e1, e2⟩ | ⟨e1, e2⟩ | ⟨e1, e2⟩
  · obtain rfl := H.onlyb p (I.sub.subset mp) e1
    rcases H.onlyc x (I.sub.subset mx) e2 with rfl | rfl
    · have := succ_unique hn h2 (edge_sublist hsub H.nodup H.bc H.e1 mx mp)
      exact d3 (by rw [this])
    · obtain ⟨m, -⟩ := I.m2 mp mx
      exact H.δg (succ_unique hn (edge_sublist hsub H.nodup H.bδ H.e2 mp m) h1)
  · obtain rfl := H.onlyb x (I.sub.subset mx) e1
    rcases H.onlyc q (I.sub.subset mq) e2 with rfl | rfl
    · have := pred_unique hn h1 (edge_sublist hsub H.nodup H.bc H.e1 mq mx)
      exact d3 (by rw [this])
    · obtain ⟨m, -⟩ := I.m2 mx mq
      exact H.δg (succ_unique hn (edge_sublist hsub H.nodup H.bδ H.e2 mx m) h2)
  · obtain rfl := H.onlyb q (I.sub.subset mq) e1
    by_cases mc : c ∈ s.vertices
    · have := pred_unique hn h2 (edge_sublist hsub H.nodup H.bc H.e1 mc mq)
      exact d1 (by rw [this, e2, H.labc])
    · have : p = g := (H.onlyc p (I.sub.subset mp) e2).resolve_left fun h => mc (h ▸ mp)
      subst this
      have := pred_unique hn h2 (I.m3 mq mp mc)
      exact d1 (by rw [this])

theorem mem_of_clip {s s' : EarState} {i : Nat} {dp dn : Bool} (hl : s.vertices.length = s.m) (hc : IsClip points s s' i dp dn)
    {x : Nat} (hx : x ∈ s.vertices) (hx' : x ∉ s'.vertices) : x = s.vertices.getD i 0 ∨
      (dp = true ∧ x = s.vertices.getD ((s.m + i - 1) % s.m) 0) ∨ (dn = true ∧ x = s.vertices.getD ((i + 1) % s.m) 0) := by
  obtain ⟨j, hj, rfl⟩ := List.getElem_of_mem hx
  have hd : delPred s.m i dp dn j = true := by
    by_contra hd
    apply hx'
    rw [hc.vertices, List.mem_map]
    refine ⟨j, by simp [hd]; omega, getD_of_lt 0 hj⟩
  unfold delPred at hd
  simp only [Bool.or_eq_true, Bool.and_eq_true, decide_eq_true_eq] at hd
  rcases hd with (rfl | ⟨h1, rfl⟩) | ⟨h1, rfl⟩
  · exact .inl (getD_of_lt 0 hj).symm
  · exact .inr (.inl ⟨h1, (getD_of_lt 0 hj).symm⟩)
  · exact .inr (.inr ⟨h1, (getD_of_lt 0 hj).symm⟩)

theorem curr_gone {s s' : EarState} {i : Nat} {dp dn : Bool} (hl : s.vertices.length = s.m) (hi : i < s.m) (hn : s.vertices.Nodup)
    (hc : IsClip points s s' i dp dn) : s.vertices.getD i 0 ∉ s'.vertices := by
  rw [hc.vertices, List.mem_map]
  rintro ⟨j, hj, h⟩
  rw [List.mem_filter, List.mem_range] at hj
  rw [getD_of_lt 0 (by omega), getD_of_lt 0 (by omega)] at h
  have : j = i := hn.getElem_inj_iff.1 h
  subst this
  simp [delPred] at hj

theorem Inv.step (H : Backed points W V lab β κ b c δ g) {s s' : EarState} {i : Nat} {dp dn : Bool}
    (hl : s.vertices.length = s.m) (hi : i < s.m) (I : Inv V lab β κ b c δ g s) (hc : IsClip points s s' i dp dn)
    (hk : Keeps points s s' i) : Inv V lab β κ b c δ g s' := by
  have hsub := I.sub.trans H.sub
  have hn := hsub.nodup H.nodup
  have hs' := hc.sublist hl
  have hpos : 0 < s.m := by omega
  have E1 : (s.vertices.getD ((s.m + i - 1) % s.m) 0, s.vertices.getD i 0) ∈ loopEdges s.vertices := by
    have := getD_edge (L := s.vertices) (j := (s.m + i - 1) % s.m) (by rw [hl]; exact Nat.mod_lt _ hpos)
    rwa [hl, show ((s.m + i - 1) % s.m + 1) % s.m = i by
      rw [Nat.mod_add_mod, show s.m + i - 1 + 1 = i + s.m by omega, Nat.add_mod_right, Nat.mod_eq_of_lt hi]] at this
  have E2 : (s.vertices.getD i 0, s.vertices.getD ((i + 1) % s.m) 0) ∈ loopEdges s.vertices := by
    have := getD_edge (L := s.vertices) (j := i) (by omega)
    rwa [hl] at this
  have E3 : (s.vertices.getD ((i + 1) % s.m) 0, s.vertices.getD ((i + 2) % s.m) 0) ∈ loopEdges s.vertices := by
    have := getD_edge (L := s.vertices) (j := (i + 1) % s.m) (by rw [hl]; exact Nat.mod_lt _ hpos)
    rwa [hl, Nat.mod_add_mod] at this
  have gone := curr_gone hl hi hn hc
  have hcurr := hk.curr
  have hkeep := hk.keep
  have htri := hc.triangles
  have hnext := hc.next
  have hmem := fun {x : Nat} => mem_of_clip (x := x) hl hc
  generalize s.vertices.getD ((s.m + i - 1) % s.m) 0 = prev at *
  generalize s.vertices.getD i 0 = curr at *
  generalize s.vertices.getD ((i + 1) % s.m) 0 = next at *
  generalize s.vertices.getD ((i + 2) % s.m) 0 = nn at *
  refine ⟨hs'.trans I.sub, I.sorted.sublist hc.concave, ?_, ?_, ?_, ?_, ?_⟩
  · intro mb mc
    have mb0 := hs'.subset mb
    have mc0 := hs'.subset mc
    have Ecb := edge_sublist hsub H.nodup H.bc H.e1 mc0 mb0
    rcases hkeep c (I.m1 mb0 mc0) with h | rfl | ⟨rfl, p, q, r, h1, h2, h3, h4⟩
    · exact h
    · exact absurd (succ_unique hn E1 Ecb ▸ mb) gone
    · have : nn = b := succ_unique hn E3 Ecb
      subst this
      exact absurd h4 (H.right _ (I.sub.subset (mem_of_loopEdges E1).1) _ _ _ h1 h2 h3).1
  · intro mb mg
    have mb0 := hs'.subset mb
    have mg0 := hs'.subset mg
    obtain ⟨mδ, cδ⟩ := I.m2 mb0 mg0
    have Eb := edge_sublist hsub H.nodup H.bδ H.e2 mb0 mδ
    have Eg := edge_sublist hsub H.nodup H.δg H.e3 mδ mg0
    have np : δ ≠ prev := by
      rintro rfl; exact gone (succ_unique hn E1 Eg ▸ mg)
    have nx : δ ≠ next := by
      rintro rfl; exact gone (pred_unique hn E2 Eb ▸ mb)
    constructor
    · by_contra hδ
      rcases hmem mδ hδ with rfl | ⟨-, h⟩ | ⟨-, h⟩
      · exact hcurr cδ
      · exact np h
      · exact nx h
    · rcases hkeep δ cδ with h | h | ⟨h, -⟩
      · exact h
      · exact absurd h np
      · exact absurd h nx
  · intro mb mg nc
    have mb0 := hs'.subset mb
    have mg0 := hs'.subset mg
    by_cases mc0 : c ∈ s.vertices
    · have Ecb := edge_sublist hsub H.nodup H.bc H.e1 mc0 mb0
      have cc := I.m1 mb0 mc0
      rcases hmem mc0 nc with rfl | ⟨-, rfl⟩ | ⟨hd, rfl⟩
      · exact absurd cc hcurr
      · exact absurd (succ_unique hn E1 Ecb ▸ mb) gone
      · have e : nn = b := succ_unique hn E3 Ecb
        subst e
        obtain ⟨p, q, r, h1, h2, h3, h4⟩ := hnext hd
        have mprev := (mem_of_loopEdges E1).1
        have hpc : prev ≠ c := by
          rintro rfl
          have := succ_unique hn E1 Ecb
          exact gone (this ▸ mb)
        have hpb : prev ≠ nn := by
          rintro rfl
          obtain ⟨mδ, cδ⟩ := I.m2 mb0 mg0
          have := succ_unique hn E1 (edge_sublist hsub H.nodup H.bδ H.e2 mb0 mδ)
          exact hcurr (this ▸ cδ)
        rcases (H.right _ (I.sub.subset mprev) _ _ _ h1 h2 h3).2 h4 with h | h
        · exact absurd (H.onlyb _ (I.sub.subset mprev) h) hpb
        · obtain rfl := (H.onlyc _ (I.sub.subset mprev) h).resolve_left hpc
          exact edge_bridge hs' hn E1 E2 E3 mg mb gone nc hpb
    · exact edge_sublist hs' hn H.gb (I.m3 mb0 mg0 mc0) mg mb
  · obtain ⟨k, hk⟩ := I.len
    exact ⟨k + 1, by rw [htri]; simp [hk]; omega⟩
  · obtain ⟨k, hk⟩ := I.len
    intro t ht
    rw [htri, triples_append hk, List.mem_append] at ht
    rcases ht with ht | ht
    · exact I.free t ht
    · rw [show triples [prev, curr, next] = [(prev, curr, next)] from rfl, List.mem_singleton] at ht
      subst ht
      exact corner_free H I E1 E2

theorem Inv.pass {bs : List Nat → Nat → Option Nat} (hbs : BinarySearch bs) (H : Backed points W V lab β κ b c δ g) (k i : Nat)
    {s s' : EarState} (hl : s.vertices.length = s.m) (I : Inv V lab β κ b c δ g s) (h : earPass bs points k i s = .ok s') :
    Inv V lab β κ b c δ g s' := by
  induction k generalizing i s with
  | zero => cases h; exact I
  | succ k ih =>
    unfold earPass at h
    split at h
    · rename_i hi
      rw [bind_eq_ok] at h
      obtain ⟨s1, h1, h2⟩ := h
      rcases earStep_cases hl hi h1 with rfl | ⟨dp, dn, hc⟩
      · exact ih (i + 1) hl I h2
      · rcases earStep_keeps hbs I.sorted h1 with rfl | hk
        · exact ih (i + 1) hl I h2
        · exact ih (i + 1) hc.len (I.step H hl hi hc hk) h2
    · cases h; exact I

/-- **No triangle has the side.** -/
theorem side_free {bs : List Nat → Nat → Option Nat} (hbs : BinarySearch bs) (H : Backed points W V lab β κ b c δ g)
    {C : List Nat} (hC : C.Pairwise (· ≤ ·)) (hc : c ∈ C) (hδV : δ ∈ V) (hδ : δ ∈ C) (hcV : c ∈ V) {fuel : Nat} {s' : EarState}
    (h : triangulateState bs fuel points V C = .ok s') : ∀ t ∈ triples s'.triangles, ¬ HasSide lab β κ t := by
  obtain ⟨-, s1, I, he⟩ := triangulate_inv (J := Inv V lab β κ b c δ g)
    (fun s m I => ⟨I.sub, I.sorted, I.m1, I.m2, I.m3, I.len, I.free⟩)
    (fun s s' hl _ I h => I.pass hbs H _ _ hl h)
    ⟨.refl _, hC, fun _ _ => hc, fun _ _ => ⟨hδV, hδ⟩, fun _ _ h => absurd hcV h, ⟨0, rfl⟩, by simp [triples]⟩ h
  rcases he with ⟨-, e⟩ | ⟨x, y, z, e1, -, e⟩
  · rw [e]; exact I.free
  · obtain ⟨k, hk⟩ := I.len
    intro t ht
    rw [e, triples_append hk, List.mem_append] at ht
    rcases ht with ht | ht
    · exact I.free t ht
    · rw [show triples [x, y, z] = [(x, y, z)] from rfl, List.mem_singleton] at ht
      subst ht
      exact corner_free H I (by rw [e1]; simp [Spec.loopEdges_cons]) (by rw [e1]; simp [Spec.loopEdges_cons])

end

end Geom3d.EarEdge
