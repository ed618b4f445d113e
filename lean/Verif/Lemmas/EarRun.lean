import Verif.Lemmas.Clips
import Verif.Props.EarArea

/-!
# Ear clipping of a simple polygon in general position, step by step
-/

namespace Geom3d.Winding
open Spec List

variable {F : Type} [Add F] [Sub F] [Mul F] [Div F] [Neg F] [Zero F] [One F] [NatCast F] [LT F] [DecidableLT F]
  [LE F] [DecidableLE F] [Env F]
variable {K : Type} [Field K] [LinearOrder K] [IsStrictOrderedRing K]

set_option linter.unusedSectionVars false

/-! ### The tests of the code -/

theorem isInside_iff [Env K] (a v c z : V2 K) : isInsideTriangle a v c z = true ↔ Inside a v c z := by
  rw [isInsideTriangle_iff]
  unfold Inside
  rw [show triArea2 z v c = triArea2 v c z from (tri_rot z v c).symm,
    show triArea2 z a v = triArea2 v z a by unfold triArea2; ring,
    show triArea2 z c a = triArea2 c a z from (tri_rot z c a).symm, bary_sum a v c z]
  constructor
  · rintro ⟨h1, h2, h3⟩; exact ⟨h2, h1, by linarith⟩
  · rintro ⟨h1, h2, h3⟩; exact ⟨h2, h1, by linarith⟩

theorem convexity_tri [Env K] (htol : (0 : K) ≤ Env.tol) {a b c : V2 K} (h : Env.tol < |triArea2 a b c|) :
    computeConvexity a b c = if 0 < triArea2 a b c then .convex else .concave := by
  rw [computeConvexity_eq a b c htol]
  have e : (b.x - a.x) * (c.y - b.y) - (b.y - a.y) * (c.x - b.x) = triArea2 a b c := by unfold triArea2; ring
  simp only [e]
  rw [if_neg (not_le.2 h)]
  by_cases h0 : 0 < triArea2 a b c
  · rw [abs_of_pos h0] at h
    rw [if_pos h, if_pos h0]
  · rw [if_neg (fun hh => h0 (htol.trans_lt hh)), if_neg h0]

/-! ### Positions -/

theorem rotate_form {V : List Nat} {i : Nat} (hi : i < V.length) (h4 : 4 ≤ V.length) :
    ∃ v c a d b R, V.rotate i = v :: c :: (R ++ [a]) ∧ R ≠ [] ∧ V[i]? = some v ∧ V[(i + 1) % V.length]? = some c ∧
      V[(V.length + i - 1) % V.length]? = some a ∧ V[(i + 2) % V.length]? = some d ∧
      V[(V.length + i - 2) % V.length]? = some b ∧ R.head? = some d ∧ R.getLast? = some b := by
  obtain ⟨R, h1, h2, h3, _⟩ := range_rotate_split hi h4
  have hV : V = (List.range V.length).map fun j => V.getD j 0 := eq_tab_getD V 0
  have hr : V.rotate i = ((List.range V.length).rotate i).map fun j => V.getD j 0 := by
    conv_lhs => rw [hV]
    rw [List.map_rotate]
  have hpos : 0 < V.length := by omega
  have get : ∀ j, V[j % V.length]? = some (V.getD (j % V.length) 0) := by
    intro j
    have := Nat.mod_lt j hpos
    simp [List.getD, this]
  refine ⟨V.getD i 0, V.getD ((i + 1) % V.length) 0, V.getD ((V.length + i - 1) % V.length) 0,
    V.getD ((i + 2) % V.length) 0, V.getD ((V.length + i - 2) % V.length) 0, R.map fun j => V.getD j 0,
    ?_, ?_, ?_, get _, get _, get _, get _, ?_, ?_⟩
  · rw [hr, h1]; simp
  · intro h0
    rw [List.map_eq_nil_iff] at h0
    rw [h0] at h2; cases h2
  · simp [List.getD, hi]
  · rw [List.head?_map, h2]; rfl
  · rw [List.getLast?_map, h3]; rfl

theorem eraseIdx_rot {α : Type} {V : List α} {i : Nat} {v : α} {t : List α} (hi : i < V.length) (h : V.rotate i = v :: t) :
    V.eraseIdx i ~r t := by
  rw [List.rotate_eq_drop_append_take hi.le, List.drop_eq_getElem_cons hi, List.cons_append, List.cons.injEq] at h
  rw [List.eraseIdx_eq_take_drop_succ, ← h.2]
  exact isRotated_append

/-! ### The list of reflex vertices -/

/-- `C` lists, in increasing order, the vertices of the loop `V` at which it turns right. -/
structure Reflex (g : Nat → V2 K) (V C : List Nat) : Prop where
  sorted : C.Pairwise (· < ·)
  mem : ∀ x, x ∈ C ↔ ∃ p n, (p, x) ∈ loopEdges V ∧ (x, n) ∈ loopEdges V ∧ triArea2 (g p) (g x) (g n) < 0

theorem Reflex.rot {g : Nat → V2 K} {V V' C : List Nat} (h : Reflex g V C) (hr : V ~r V') : Reflex g V' C where
  sorted := h.sorted
  mem x := by
    rw [h.mem]
    simp only [(loopEdges_rot hr).mem_iff]

theorem mem_eraseIdx_sorted {C : List Nat} (hC : C.Pairwise (· < ·)) {j x : Nat} (hj : C[j]? = some x) (y : Nat) :
    y ∈ C.eraseIdx j ↔ y ∈ C ∧ y ≠ x := by
  have hn : C.Nodup := hC.imp (fun h => Nat.ne_of_lt h)
  obtain ⟨h, rfl⟩ := List.getElem?_eq_some_iff.1 hj
  rw [← hn.erase_getElem j h, hn.mem_erase_iff, and_comm]

theorem updatePrev_margin {bs : List Nat → Nat → Option Nat} (hbs : BinarySearch bs)
    {points : List (V2 F)} {V C : List Nat} {m i a b c : Nat} {f : Nat → V2 F} {g : Nat → V2 K} (hC : C.Pairwise (· < ·)) (h2 : 2 ≤ m + i)
    (hb : V[(m + i - 2) % m]? = some b) (pa : points[a]? = some (f a)) (pb : points[b]? = some (f b))
    (pc : points[c]? = some (f c)) 
    (hm : computeConvexity (f b) (f a) (f c) = if 0 < triArea2 (g b) (g a) (g c) then .convex else .concave) :
    ∃ C', updatePrev bs points V C m i a c = .ok (C', false) ∧ C'.Pairwise (· < ·) ∧
      ∀ x, x ∈ C' ↔ x ∈ C ∧ ¬ (x = a ∧ 0 < triArea2 (g b) (g a) (g c)) := by
  unfold updatePrev
  cases hs : bs C a with
  | none =>
    refine ⟨C, rfl, hC, fun x => ⟨fun hx => ⟨hx, ?_⟩, fun hx => hx.1⟩⟩
    rintro ⟨rfl, _⟩
    exact hbs.absent _ _ (hC.imp (fun h => Nat.le_of_lt h)) hs hx
  | some j =>
    have hj := hbs.found _ _ _ hs
    simp only
    rw [usub_ok h2, ok_bind, idx_eq_ok.2 hb, ok_bind, idx_eq_ok.2 pb, ok_bind, idx_eq_ok.2 pa, ok_bind, idx_eq_ok.2 pc, ok_bind,
      hm]
    by_cases h0 : 0 < triArea2 (g b) (g a) (g c)
    · rw [if_pos h0]
      refine ⟨_, rfl, hC.sublist (List.eraseIdx_sublist _ _), fun x => ?_⟩
      rw [mem_eraseIdx_sorted hC hj]
      tauto
    · rw [if_neg h0]
      refine ⟨_, rfl, hC, fun x => ?_⟩
      tauto

theorem updateNext_margin {bs : List Nat → Nat → Option Nat} (hbs : BinarySearch bs)
    {points : List (V2 F)} {V C : List Nat} {m i a c d : Nat} {f : Nat → V2 F} {g : Nat → V2 K} (hC : C.Pairwise (· < ·))
    (hd : V[(i + 2) % m]? = some d) (pa : points[a]? = some (f a)) (pc : points[c]? = some (f c))
    (pd : points[d]? = some (f d)) 
    (hm : computeConvexity (f a) (f c) (f d) = if 0 < triArea2 (g a) (g c) (g d) then .convex else .concave) :
    ∃ C', updateNext bs points V C m i a c = .ok (C', false) ∧ C'.Pairwise (· < ·) ∧
      ∀ x, x ∈ C' ↔ x ∈ C ∧ ¬ (x = c ∧ 0 < triArea2 (g a) (g c) (g d)) := by
  unfold updateNext
  cases hs : bs C c with
  | none =>
    refine ⟨C, rfl, hC, fun x => ⟨fun hx => ⟨hx, ?_⟩, fun hx => hx.1⟩⟩
    rintro ⟨rfl, _⟩
    exact hbs.absent _ _ (hC.imp (fun h => Nat.le_of_lt h)) hs hx
  | some j =>
    have hj := hbs.found _ _ _ hs
    simp only
    rw [idx_eq_ok.2 hd, ok_bind, idx_eq_ok.2 pa, ok_bind, idx_eq_ok.2 pc, ok_bind, idx_eq_ok.2 pd, ok_bind,
      hm]
    by_cases h0 : 0 < triArea2 (g a) (g c) (g d)
    · rw [if_pos h0]
      refine ⟨_, rfl, hC.sublist (List.eraseIdx_sublist _ _), fun x => ?_⟩
      rw [mem_eraseIdx_sorted hC hj]
      tauto
    · rw [if_neg h0]
      refine ⟨_, rfl, hC, fun x => ?_⟩
      tauto

theorem isEar_spec {points : List (V2 F)} {f : Nat → V2 F} {g : Nat → V2 K} {C : List Nat} {a v c : Nat}
    (hC : ∀ x ∈ C, points[x]? = some (f x)) (pa : points[a]? = some (f a)) (pv : points[v]? = some (f v))
    (pc : points[c]? = some (f c))
    (hin : ∀ x ∈ C, x ≠ a → x ≠ c → (isInsideTriangle (f a) (f v) (f c) (f x) = true ↔ Inside (g a) (g v) (g c) (g x))) :
    ∃ b, isEar points C a v c = .ok b ∧
      (b = true ↔ ∀ x ∈ C, x ≠ a → x ≠ c → ¬ Inside (g a) (g v) (g c) (g x)) := by
  induction C with
  | nil => exact ⟨true, rfl, by simp⟩
  | cons o C ih =>
    obtain ⟨b, h1, h2⟩ := ih (fun x hx => hC x (List.mem_cons_of_mem _ hx)) (fun x hx => hin x (List.mem_cons_of_mem _ hx))
    unfold isEar
    by_cases ho : o ≠ a ∧ o ≠ c
    · rw [if_pos ho, idx_eq_ok.2 pa, ok_bind, idx_eq_ok.2 pv, ok_bind, idx_eq_ok.2 pc, ok_bind,
        idx_eq_ok.2 (hC o (List.mem_cons_self ..)), ok_bind]
      have hio := hin o (List.mem_cons_self ..) ho.1 ho.2
      by_cases hi : isInsideTriangle (f a) (f v) (f c) (f o) = true
      · rw [if_pos hi]
        refine ⟨false, rfl, ?_⟩
        simp only [Bool.false_eq_true, false_iff, not_forall]
        exact ⟨o, List.mem_cons_self .., ho.1, ho.2, fun hn => hn (hio.1 hi)⟩
      · rw [if_neg hi]
        refine ⟨b, h1, h2.trans ⟨fun h x hx => ?_, fun h x hx => h x (List.mem_cons_of_mem _ hx)⟩⟩
        rcases List.mem_cons.1 hx with rfl | hx
        · exact fun _ _ hn => hi (hio.2 hn)
        · exact h x hx
    · rw [if_neg ho]
      refine ⟨b, h1, h2.trans ⟨fun h x hx => ?_, fun h x hx => h x (List.mem_cons_of_mem _ hx)⟩⟩
      rcases List.mem_cons.1 hx with rfl | hx
      · exact fun h1 h2 => absurd ⟨h1, h2⟩ ho
      · exact h x hx

/-! ### Edges of the clipped loop -/

theorem head_edge {α : Type} {c : α} {t : List α} (hn : (c :: t).Nodup) {p : α} : (p, c) ∉ pathEdges (c :: t) := by
  intro h
  have : c ∈ t := (List.of_mem_zip h).2
  exact (List.nodup_cons.1 hn).1 this

theorem last_edge {α : Type} {a : α} {t : List α} (hn : (t ++ [a]).Nodup) {p : α} : (a, p) ∉ pathEdges (t ++ [a]) := by
  induction t with
  | nil => intro h; cases h
  | cons b t ih =>
    intro h
    rw [List.cons_append, List.nodup_cons] at hn
    cases t with
    | nil =>
      rw [List.cons_append, List.nil_append, pathEdges_cons, List.mem_cons] at h
      rcases h with h | h
      · cases h; exact hn.1 (by simp)
      · cases h
    | cons b' t =>
      rw [List.cons_append, List.cons_append, pathEdges_cons, List.mem_cons] at h
      rcases h with h | h
      · cases h; exact hn.1 (by simp)
      · exact ih hn.2 h

theorem edge_fun {α : Type} {t : List α} (hn : t.Nodup) {x p q : α} (h1 : (x, p) ∈ pathEdges t) (h2 : (x, q) ∈ pathEdges t) :
    p = q := by
  induction t with
  | nil => cases h1
  | cons b t ih =>
    cases t with
    | nil => cases h1
    | cons b' t =>
      rw [pathEdges_cons, List.mem_cons] at h1 h2
      rw [List.nodup_cons] at hn
      rcases h1 with h1 | h1 <;> rcases h2 with h2 | h2
      · cases h1; cases h2; rfl
      · cases h1; exact absurd (mem_of_pathEdges h2).1 hn.1
      · cases h2; exact absurd (mem_of_pathEdges h1).1 hn.1
      · exact ih hn.2 h1 h2

theorem edge_fun' {α : Type} {t : List α} (hn : t.Nodup) {x p q : α} (h1 : (p, x) ∈ pathEdges t) (h2 : (q, x) ∈ pathEdges t) :
    p = q := by
  refine edge_fun (t := t.reverse) (List.nodup_reverse.2 hn) (x := x) ?_ ?_
  · rw [pathEdges_reverse, List.mem_reverse, List.mem_map]; exact ⟨_, h1, rfl⟩
  · rw [pathEdges_reverse, List.mem_reverse, List.mem_map]; exact ⟨_, h2, rfl⟩

set_option maxHeartbeats 1000000 in
/-- The reflex vertices after clipping an ear. -/
theorem Reflex.clip {g : Nat → V2 K} {v c a d b : Nat} {R C C' : List Nat} (hn : (v :: c :: (R ++ [a])).Nodup)
    (h : Reflex g (v :: c :: (R ++ [a])) C) (hd : R.head? = some d) (hb : R.getLast? = some b)
    (hv : ¬ triArea2 (g a) (g v) (g c) < 0) (hs : C'.Pairwise (· < ·))
    (hC : ∀ x, x ∈ C' ↔ (x ∈ C ∧ ¬ (x = a ∧ 0 < triArea2 (g b) (g a) (g c))) ∧ ¬ (x = c ∧ 0 < triArea2 (g a) (g c) (g d)))
    (h1 : 0 < triArea2 (g v) (g c) (g d) → 0 < triArea2 (g a) (g c) (g d))
    (h2 : 0 < triArea2 (g b) (g a) (g v) → 0 < triArea2 (g b) (g a) (g c))
    (n1 : triArea2 (g v) (g c) (g d) ≠ 0) (n2 : triArea2 (g a) (g c) (g d) ≠ 0) (n3 : triArea2 (g b) (g a) (g v) ≠ 0)
    (n4 : triArea2 (g b) (g a) (g c) ≠ 0) : Reflex g (c :: (R ++ [a])) C' where
  sorted := hs
  mem x := by
    have hnt := (List.nodup_cons.1 hn).2
    have hv' := (List.nodup_cons.1 hn).1
    obtain ⟨R1, rfl⟩ : ∃ R1, R = d :: R1 := by
      cases R with
      | nil => cases hd
      | cons x R1 => cases hd; exact ⟨R1, rfl⟩
    obtain ⟨R2, hR2⟩ : ∃ R2, d :: R1 = R2 ++ [b] := by
      rw [List.getLast?_eq_some_iff] at hb; exact hb
    have ecd : (c, d) ∈ pathEdges (c :: (d :: R1 ++ [a])) := by
      rw [List.cons_append, pathEdges_cons]; exact List.mem_cons_self ..
    have eba : (b, a) ∈ pathEdges (c :: (d :: R1 ++ [a])) := by
      have : c :: (d :: R1 ++ [a]) = (c :: R2) ++ [b, a] := by rw [hR2]; simp
      rw [this, pathEdges_concat]; simp
    have e1 := loopEdges_corner v c a (d :: R1)
    have e2 := loopEdges_close c a (d :: R1)
    have hca : c ≠ a := by rintro rfl; simp at hnt
    have hva : v ≠ a := by rintro rfl; simp at hv'
    have hvc : v ≠ c := by rintro rfl; simp at hv'
    have inA : ∀ p, (p, a) ∈ pathEdges (c :: (d :: R1 ++ [a])) → p = b := fun p hp => edge_fun' hnt hp eba
    have outC : ∀ p, (c, p) ∈ pathEdges (c :: (d :: R1 ++ [a])) → p = d := fun p hp => edge_fun hnt hp ecd
    have outA : ∀ p, (a, p) ∉ pathEdges (c :: (d :: R1 ++ [a])) := fun p hp => last_edge (t := c :: d :: R1) hnt hp
    have inC : ∀ p, (p, c) ∉ pathEdges (c :: (d :: R1 ++ [a])) := fun p hp => head_edge hnt hp
    have noV : ∀ p, (p, v) ∉ pathEdges (c :: (d :: R1 ++ [a])) ∧ (v, p) ∉ pathEdges (c :: (d :: R1 ++ [a])) :=
      fun p => ⟨fun hp => hv' (mem_of_pathEdges hp).2, fun hp => hv' (mem_of_pathEdges hp).1⟩
    rw [hC, h.mem, e1, e2]
    simp only [List.mem_cons, List.mem_append, List.mem_nil_iff, or_false, Prod.mk.injEq]
    generalize pathEdges (c :: (d :: R1 ++ [a])) = E at *
    by_cases xv : x = v
    · subst xv
      constructor
      · rintro ⟨⟨⟨p, n, hp, hn', ht⟩, _⟩, _⟩
        exfalso
        rcases hp with ⟨_, h0⟩ | hp | ⟨rfl, _⟩
        · exact hvc h0
        · exact (noV p).1 hp
        · rcases hn' with ⟨_, rfl⟩ | hn' | ⟨h0, _⟩
          · exact hv ht
          · exact (noV n).2 hn'
          · exact hva h0
      · rintro ⟨p, n, hp, hn', ht⟩
        exfalso
        rcases hp with hp | ⟨_, h0⟩
        · exact (noV p).1 hp
        · exact hvc h0
    by_cases xc : x = c
    · subst xc
      constructor
      · rintro ⟨⟨⟨p, n, hp, hn', ht⟩, _⟩, h0⟩
        refine ⟨a, d, .inr ⟨rfl, rfl⟩, .inl ecd, ?_⟩
        refine lt_of_le_of_ne (not_lt.1 fun hh => h0 ⟨rfl, hh⟩) n2
      · rintro ⟨p, n, hp, hn', ht⟩
        have hp' : p = a := by
          rcases hp with hp | ⟨rfl, _⟩
          · exact absurd hp (inC p)
          · rfl
        have hn'' : n = d := by
          rcases hn' with hn' | ⟨h0, _⟩
          · exact outC n hn'
          · exact absurd h0 hca
        subst hp' hn''
        refine ⟨⟨⟨v, n, .inl ⟨rfl, rfl⟩, .inr (.inl ecd), ?_⟩, fun h0 => hca h0.1⟩, fun h0 => absurd h0.2 (not_lt.2 ht.le)⟩
        refine lt_of_le_of_ne (not_lt.1 fun hh => ?_) n1
        exact absurd (h1 hh) (not_lt.2 ht.le)
    by_cases xa : x = a
    · subst xa
      constructor
      · rintro ⟨⟨⟨p, n, hp, hn', ht⟩, h0⟩, _⟩
        refine ⟨b, c, .inl eba, .inr ⟨rfl, rfl⟩, ?_⟩
        refine lt_of_le_of_ne (not_lt.1 fun hh => h0 ⟨rfl, hh⟩) n4
      · rintro ⟨p, n, hp, hn', ht⟩
        have hp' : p = b := by
          rcases hp with hp | ⟨_, h0⟩
          · exact inA p hp
          · exact absurd h0.symm hca
        have hn'' : n = c := by
          rcases hn' with hn' | ⟨_, rfl⟩
          · exact absurd hn' (outA n)
          · rfl
        subst hp' hn''
        refine ⟨⟨⟨p, v, .inr (.inl eba), .inr (.inr ⟨rfl, rfl⟩), ?_⟩, fun h0 => absurd h0.2 (not_lt.2 ht.le)⟩, fun h0 => hca h0.1.symm⟩
        refine lt_of_le_of_ne (not_lt.1 fun hh => ?_) n3
        exact absurd (h2 hh) (not_lt.2 ht.le)
    · constructor
      · rintro ⟨⟨⟨p, n, hp, hn', ht⟩, _⟩, _⟩
        refine ⟨p, n, .inl ?_, .inl ?_, ht⟩
        · rcases hp with ⟨_, h0⟩ | hp | ⟨_, h0⟩
          · exact absurd h0 xc
          · exact hp
          · exact absurd h0 xv
        · rcases hn' with ⟨h0, _⟩ | hn' | ⟨h0, _⟩
          · exact absurd h0 xv
          · exact hn'
          · exact absurd h0 xa
      · rintro ⟨p, n, hp, hn', ht⟩
        refine ⟨⟨⟨p, n, .inr (.inl ?_), .inr (.inl ?_), ht⟩, fun h0 => xa h0.1⟩, fun h0 => xc h0.1⟩
        · rcases hp with hp | ⟨_, h0⟩
          · exact hp
          · exact absurd h0 xc
        · rcases hn' with hn' | ⟨h0, _⟩
          · exact hn'
          · exact absurd h0 xa

theorem corner_edges {α : Type} {v c a : α} {m : List α} (hn : (v :: c :: (m ++ [a])).Nodup) {x : α} :
    ((x, v) ∈ loopEdges (v :: c :: (m ++ [a])) → x = a) ∧ ((v, x) ∈ loopEdges (v :: c :: (m ++ [a])) → x = c) := by
  have hv := (List.nodup_cons.1 hn).1
  have hvc : v ≠ c := by rintro rfl; simp at hv
  have hva : v ≠ a := by rintro rfl; simp at hv
  rw [loopEdges_corner]
  simp only [List.mem_cons, List.mem_append, List.mem_nil_iff, or_false, Prod.mk.injEq]
  constructor
  · rintro (⟨_, h⟩ | h | ⟨h, _⟩)
    · exact absurd h hvc
    · exact absurd (mem_of_pathEdges h).2 hv
    · exact h
  · rintro (⟨_, h⟩ | h | ⟨h, _⟩)
    · exact h
    · exact absurd (mem_of_pathEdges h).1 hv
    · exact absurd h hva

/-! ### One step of the clipping loop -/

/-- The point of a vertex number. -/
def pt {α : Type} [Zero α] (points : List (V2 α)) (v : Nat) : V2 α := points.getD v 0

/-- The corner points of the triangles listed in `T`. -/
def corners (g : Nat → V2 K) (T : List Nat) : List (V2 K × V2 K × V2 K) :=
  (triples T).map fun t => (g t.1, g t.2.1, g t.2.2)

/-- The tests of the code on those `points` whose numbers satisfy `W` decide as exact arithmetic does on the points `g`, no
three of which are on a line. -/
structure DecidesOn (W : Nat → Prop) (points : List (V2 F)) (g : Nat → V2 K) : Prop where
  nz : ∀ i j k, W i → W j → W k → i ≠ j → i ≠ k → j ≠ k → triArea2 (g i) (g j) (g k) ≠ 0
  conv : ∀ i j k, W i → W j → W k → i ≠ j → i ≠ k → j ≠ k →
    computeConvexity (pt points i) (pt points j) (pt points k) = if 0 < triArea2 (g i) (g j) (g k) then .convex else .concave
  inside : ∀ i j k l, W i → W j → W k → W l → i ≠ j → i ≠ k → j ≠ k → l ≠ i → l ≠ j → l ≠ k →
      (isInsideTriangle (pt points i) (pt points j) (pt points k) (pt points l) = true ↔ Inside (g i) (g j) (g k) (g l))

/-- The same for all points. -/
abbrev Decides (points : List (V2 F)) (g : Nat → V2 K) : Prop := DecidesOn (· < points.length) points g

/-- What holds of the remaining polygon throughout the clipping of `P`. -/
structure Good (W : Nat → Prop) (points : List (V2 F)) (g : Nat → V2 K) (P : List (V2 K)) (s : EarState) : Prop where
  len : s.vertices.length = s.m
  three : 3 ≤ s.m
  range : ∀ x ∈ s.vertices, x < points.length
  on : ∀ x ∈ s.vertices, W x
  simple : Simple (s.vertices.map g)
  level : level (s.vertices.map g) = 1
  reflex : Reflex g s.vertices s.concave
  count : ∃ k, s.triangles.length = 3 * k
  clips : ∀ ts, Clips (s.vertices.map g) ts → Clips P (corners g s.triangles ++ ts)

theorem pt_get {points : List (V2 F)} {x : Nat} (h : x < points.length) : points[x]? = some (pt points x) := by
  unfold pt
  simp [List.getD, h]

theorem corners_append {g : Nat → V2 K} {T : List Nat} (h : ∃ k, T.length = 3 * k) (a v c : Nat) :
    corners g (T ++ [a, v, c]) = corners g T ++ [(g a, g v, g c)] := by
  obtain ⟨k, h⟩ := h
  unfold corners
  rw [triples_append h]
  simp [triples]

set_option maxHeartbeats 1000000 in
theorem Good.step {W : Nat → Prop} {points : List (V2 F)} {g : Nat → V2 K} {P : List (V2 K)} {s : EarState} {i : Nat} (h : Good W points g P s)
    {bs : List Nat → Nat → Option Nat} (hbs : BinarySearch bs) (hm : DecidesOn W points g) (h4 : 4 ≤ s.m) (hi : i < s.m) :
    ∃ s', earStep bs points s i = .ok s' ∧
      ((s' = s ∧ ∀ a c, ¬ Ear (s.vertices.map g) a (g (s.vertices.getD i 0)) c) ∨
        (Good W points g P s' ∧ s'.m + 1 = s.m)) := by
  obtain ⟨V, C, T, m⟩ := s
  obtain ⟨hlen, h3, hrange, hon, hs, hl1, hre, hcount, hcl⟩ := h
  simp only at hlen h3 hrange hon hs hl1 hre hcount hcl h4 hi ⊢
  subst hlen
  obtain ⟨v, c, a, d, b, R, hrot, hR, gv, gc, ga, gd, gb, hd, hb⟩ := rotate_form hi h4
  have hr : V ~r v :: c :: (R ++ [a]) := ⟨i, hrot⟩
  have hvi : V.getD i 0 = v := by simp [List.getD, gv]
  have hnV : V.Nodup := hs.nodup.of_map
  have hn : (v :: c :: (R ++ [a])).Nodup := hr.perm.nodup_iff.1 hnV
  have hmem : ∀ x, x ∈ v :: c :: (R ++ [a]) → x ∈ V := fun x hx => hr.perm.mem_iff.2 hx
  have mv := hmem v (by simp)
  have mc := hmem c (by simp)
  have ma := hmem a (by simp)
  have md' : d ∈ R := List.mem_of_mem_head? hd
  have mb' : b ∈ R := List.mem_of_mem_getLast? hb
  have md := hmem d (by simp [md'])
  have mb := hmem b (by simp [mb'])
  have inj : ∀ {x y}, x ∈ V → y ∈ V → g x = g y → x = y := fun hx hy h => List.inj_on_of_nodup_map hs.nodup hx hy h
  have hvc : v ≠ c := by rintro rfl; simp at hn
  have hva : v ≠ a := by rintro rfl; simp at hn
  have hca : c ≠ a := by rintro rfl; simp at hn
  have hdd : d ≠ v ∧ d ≠ c ∧ d ≠ a := by
    refine ⟨?_, ?_, ?_⟩ <;> rintro rfl <;> simp [List.nodup_append, md'] at hn
    exact absurd rfl (hn.2.2.2 _ md')
  have hbb : b ≠ v ∧ b ≠ c ∧ b ≠ a := by
    refine ⟨?_, ?_, ?_⟩ <;> rintro rfl <;> simp [List.nodup_append, mb'] at hn
    exact absurd rfl (hn.2.2.2 _ mb')
  have pv := pt_get (hrange v mv)
  have pc := pt_get (hrange c mc)
  have pa := pt_get (hrange a ma)
  have pd := pt_get (hrange d md)
  have pb := pt_get (hrange b mb)
  have nz : ∀ {x y z}, x ∈ V → y ∈ V → z ∈ V → x ≠ y → x ≠ z → y ≠ z → triArea2 (g x) (g y) (g z) ≠ 0 :=
    fun hx hy hz => hm.nz _ _ _ (hon _ hx) (hon _ hy) (hon _ hz)
  have mar : ∀ {x y z}, x ∈ V → y ∈ V → z ∈ V → x ≠ y → x ≠ z → y ≠ z →
      computeConvexity (pt points x) (pt points y) (pt points z) = if 0 < triArea2 (g x) (g y) (g z) then .convex else .concave :=
    fun hx hy hz => hm.conv _ _ _ (hon _ hx) (hon _ hy) (hon _ hz)
  have hrP : V.map g ~r g v :: g c :: (R.map g ++ [g a]) := by
    have := hr.map g
    simpa using this
  have hnP : (g v :: g c :: (R.map g ++ [g a])).Nodup := hrP.perm.nodup_iff.1 hs.nodup
  have edge : ∀ {x y}, (x, y) ∈ loopEdges V → (g x, g y) ∈ loopEdges (V.map g) := by
    intro x y hxy
    rw [loopEdges_map]
    exact List.mem_map.2 ⟨_, hxy, rfl⟩
  have eav : (a, v) ∈ loopEdges V := (loopEdges_rot hr).mem_iff.2 (by rw [loopEdges_corner]; simp)
  have evc : (v, c) ∈ loopEdges V := (loopEdges_rot hr).mem_iff.2 (by rw [loopEdges_corner]; simp)
  have earA : ∀ {a' c'}, Ear (V.map g) a' (g v) c' → a' = g a ∧ c' = g c := by
    intro a' c' he
    have he' := he.rot hrP
    exact ⟨(corner_edges hnP).1 he'.into, (corner_edges hnP).2 he'.out⟩
  have memC : ∀ {x}, x ∈ C → x ∈ V := by
    intro x hx
    obtain ⟨p, n, h1, _, _⟩ := (hre.mem x).1 hx
    exact (mem_of_loopEdges h1).2
  unfold earStep
  simp only
  rw [hvi, idx_eq_ok.2 gv, ok_bind]
  cases hsch : bs C v with
  | some j =>
    refine ⟨_, rfl, .inl ⟨rfl, fun a' c' he => ?_⟩⟩
    have hvC : v ∈ C := List.mem_of_getElem? (hbs.found _ _ _ hsch)
    obtain ⟨p, n, h1, h2, h3⟩ := (hre.mem v).1 hvC
    obtain rfl := (corner_edges hn).1 ((loopEdges_rot hr).mem_iff.1 h1)
    obtain rfl := (corner_edges hn).2 ((loopEdges_rot hr).mem_iff.1 h2)
    obtain ⟨rfl, rfl⟩ := earA he
    have := he.pos
    rw [tri_rot] at this
    exact absurd this (not_lt.2 h3.le)
  | none =>
    have hvC : v ∉ C := hbs.absent _ _ (hre.sorted.imp (fun h => Nat.le_of_lt h)) hsch
    have hnv : ¬ triArea2 (g a) (g v) (g c) < 0 := fun h0 => hvC ((hre.mem v).2 ⟨a, c, eav, evc, h0⟩)
    have hpos : 0 < triArea2 (g v) (g c) (g a) := by
      rw [tri_rot]
      exact lt_of_le_of_ne (not_lt.1 hnv) (Ne.symm (nz ma mv mc hva.symm hca.symm hvc))
    simp only
    rw [idx_eq_ok.2 ga, ok_bind, idx_eq_ok.2 gc, ok_bind]
    obtain ⟨e, he1, he2⟩ := isEar_spec (points := points) (f := pt points) (g := g) (C := C) (a := a) (v := v) (c := c)
      (fun x hx => pt_get (hrange x (memC hx))) pa pv pc
      (fun x hx hxa hxc => hm.inside _ _ _ _ (hon a ma) (hon v mv) (hon c mc) (hon x (memC hx)) hva.symm hca.symm hvc
        hxa (fun h => hvC (h ▸ hx)) hxc)
    rw [he1, ok_bind]
    cases e with
    | false =>
      refine ⟨_, rfl, .inl ⟨rfl, fun a' c' he => ?_⟩⟩
      obtain ⟨rfl, rfl⟩ := earA he
      have : ¬ ∀ x ∈ C, x ≠ a → x ≠ c → ¬ Inside (g a) (g v) (g c) (g x) := by
        rw [← he2]; simp
      refine this fun x hx hxa hxc => ?_
      refine he.free _ (List.mem_map_of_mem (memC hx)) (fun h0 => hxa (inj (memC hx) ma h0)) (fun h0 => ?_)
        (fun h0 => hxc (inj (memC hx) mc h0))
      have := inj (memC hx) mv h0
      exact hvC (this ▸ hx)
    | true =>
      have hfree := he2.1 rfl
      have hear : Ear (V.map g) (g a) (g v) (g c) := by
        refine ⟨edge eav, edge evc, hpos, fun z hz hza hzv hzc hin => ?_⟩
        obtain ⟨p, q, r, h1, h2, h3, h4, h5, h6, h7⟩ := concave_inside hs (by rw [List.length_map]; omega) hl1 (edge eav) (edge evc)
          hpos hz hza hzv hzc hin
        rw [loopEdges_map, List.mem_map] at h1 h2
        obtain ⟨⟨p0, x⟩, h1, e1⟩ := h1
        obtain ⟨⟨x', r0⟩, h2, e2⟩ := h2
        simp only [Prod.map_apply, Prod.mk.injEq] at e1 e2
        obtain ⟨rfl, rfl⟩ := e1
        obtain ⟨e2, rfl⟩ := e2
        obtain rfl := inj (mem_of_loopEdges h2).1 (mem_of_loopEdges h1).2 e2
        exact hfree x' ((hre.mem x').2 ⟨p0, r0, h1, h2, h3⟩) (fun h0 => h4 (by rw [h0])) (fun h0 => h6 (by rw [h0])) h7
      have hcut := hear.cut hs (by rw [List.length_map]; omega) hl1 hrP
      obtain ⟨C1, u1, u2, u3⟩ := updatePrev_margin (f := pt points) hbs (V := V) (m := V.length) (i := i) hre.sorted (by omega) gb pa pb pc
        (mar mb ma mc hbb.2.2 hbb.2.1 hca.symm)
      obtain ⟨C2, w1, w2, w3⟩ := updateNext_margin (f := pt points) hbs (V := V) (m := V.length) (i := i) u2 gd pa pc pd
        (mar ma mc md hca.symm hdd.2.2.symm hdd.2.1.symm)
      rw [if_pos rfl, u1, ok_bind]
      dsimp only
      rw [w1, ok_bind]
      dsimp only
      have hdel : deletions V.length i false false = [i] := rfl
      rw [hdel, usub_ok (by simp; omega), ok_bind]
      refine ⟨_, rfl, .inr ⟨?_, by simp; omega⟩⟩
      have her : V.eraseIdx i ~r c :: (R ++ [a]) := eraseIdx_rot hi hrot
      have herP : (V.eraseIdx i).map g ~r g c :: (R.map g ++ [g a]) := by
        simpa using her.map g
      refine ⟨by simp [List.length_eraseIdx, hi], by simp; omega, fun x hx => hrange x (List.mem_of_mem_eraseIdx hx), fun x hx => hon x (List.mem_of_mem_eraseIdx hx), ?_, ?_, ?_, ?_, ?_⟩
      · exact hcut.simpleA.rot herP.symm
      · show Winding.level ((V.eraseIdx i).map g) = 1
        rw [← hcut.simpleA.level_rot ?_ herP.symm, hcut.lA]
        have := List.length_pos_iff.2 hR
        simp only [List.length_cons, List.length_append, List.length_map, List.length_nil]; omega
      · refine Reflex.rot ?_ her.symm
        refine (hre.rot hr).clip hn hd hb hnv w2 (fun x => by rw [w3, u3]) ?_ ?_ (nz mv mc md hvc hdd.1.symm hdd.2.1.symm)
          (nz ma mc md hca.symm hdd.2.2.symm hdd.2.1.symm) (nz mb ma mv hbb.2.2 hbb.1 hva.symm)
          (nz mb ma mc hbb.2.2 hbb.2.1 hca.symm)
        · exact hcut.next (by rw [List.head?_map, hd]; rfl)
        · exact hcut.prev (by rw [List.getLast?_map, hb]; rfl)
      · obtain ⟨k, hk⟩ := hcount
        exact ⟨k + 1, by simp [hk]; omega⟩
      · intro ts hts
        simp only
        rw [corners_append hcount, List.append_assoc]
        exact hcl _ (.ear hear hrP herP (by simpa using hR) hts)

/-- The clipping is finished: two vertices are left. -/
structure Done (g : Nat → V2 K) (P : List (V2 K)) (s : EarState) : Prop where
  len : s.vertices.length = 2
  m : s.m = 2
  count : ∃ k, s.triangles.length = 3 * k
  clips : Clips P (corners g s.triangles)

theorem three_pos {x y z : V2 K} (hs : Simple [x, y, z]) (hl : level [x, y, z] = 1) : 0 < triArea2 x y z := by
  have hn := hs.nodup
  have h0 : triArea2 x y z ≠ 0 := by
    refine hs.gp x (by simp) y (by simp) z (by simp) ?_ ?_ ?_ <;> rintro rfl <;> simp at hn
  rw [level_tri h0] at hl
  by_contra h
  rw [if_neg h] at hl
  cases hl

theorem Reflex.three {g : Nat → V2 K} {x y z : Nat} {C : List Nat} (h : Reflex g [x, y, z] C)
    (hn : [x, y, z].Nodup) (hp : 0 < triArea2 (g x) (g y) (g z)) : C = [] := by
  rw [List.eq_nil_iff_forall_not_mem]
  intro w hw
  obtain ⟨p, n, h1, h2, h3⟩ := (h.mem w).1 hw
  have e : loopEdges [x, y, z] = [(x, y), (y, z), (z, x)] := rfl
  simp only [List.nodup_cons, List.mem_cons, List.mem_nil_iff, or_false, not_or] at hn
  obtain ⟨⟨n1, n2⟩, n3, _⟩ := hn
  rw [e] at h1 h2
  simp only [List.mem_cons, List.mem_nil_iff, or_false, Prod.mk.injEq] at h1 h2
  have r1 := tri_rot (g x) (g y) (g z)
  have r2 := tri_rot' (g x) (g y) (g z)
  rcases h1 with ⟨rfl, rfl⟩ | ⟨rfl, rfl⟩ | ⟨rfl, rfl⟩ <;> rcases h2 with ⟨h2, rfl⟩ | ⟨h2, rfl⟩ | ⟨h2, rfl⟩ <;>
    first
    | (exact absurd h2 n1) | (exact absurd h2.symm n1) | (exact absurd h2 n2) | (exact absurd h2.symm n2)
    | (exact absurd h2 n3) | (exact absurd h2.symm n3) | linarith

theorem Good.last {W : Nat → Prop} {points : List (V2 F)} {g : Nat → V2 K} {P : List (V2 K)} {s : EarState} {i : Nat} (h : Good W points g P s)
    {bs : List Nat → Nat → Option Nat} (hbs : BinarySearch bs) (h3 : s.m = 3) (hi : i < s.m) :
    ∃ s', earStep bs points s i = .ok s' ∧ Done g P s' := by
  obtain ⟨V, C, T, m⟩ := s
  obtain ⟨hlen, _, hrange, _, hs, hl1, hre, hcount, hcl⟩ := h
  simp only at hlen hrange hs hl1 hre hcount hcl h3 hi ⊢
  rw [h3] at hlen hi
  subst h3
  match V, hlen with
  | [x, y, z], _ =>
    have hp := three_pos hs hl1
    have hC : C = [] := hre.three hs.nodup.of_map hp
    obtain ⟨s', h1, _, h3⟩ := earStep_convex hbs (points := points) (s := ⟨[x, y, z], C, T, 3⟩) (i := i) rfl hi hC
    have hm := h3.m
    simp only [Bool.toNat_false, add_zero] at hm
    have hmm : s'.m = 2 := by omega
    refine ⟨s', h1, by rw [h3.len, hmm], hmm, ?_, ?_⟩
    · obtain ⟨k, hk⟩ := hcount
      exact ⟨k + 1, by rw [h3.triangles]; simp [hk]; omega⟩
    · rw [h3.triangles, corners_append hcount]
      refine hcl _ ?_
      have r1 := tri_rot (g x) (g y) (g z)
      have r2 := tri_rot' (g x) (g y) (g z)
      obtain rfl | rfl | rfl : i = 0 ∨ i = 1 ∨ i = 2 := by omega
      · exact .last ⟨0, rfl⟩ hp
      · exact .last ⟨1, by simp⟩ (by simpa [r1] using hp)
      · exact .last ⟨2, by simp⟩ (by simpa [r2] using hp)

theorem Good.pass {W : Nat → Prop} {points : List (V2 F)} {g : Nat → V2 K} {P : List (V2 K)} {bs : List Nat → Nat → Option Nat}
    (hbs : BinarySearch bs) (hm : DecidesOn W points g) (k : Nat) : ∀ {i : Nat} {s : EarState}, Good W points g P s → (4 ≤ s.m ∨ 1 ≤ i) →
    ∃ s', earPass bs points k i s = .ok s' ∧
      ((Good W points g P s' ∧ s'.m ≤ s.m ∧ (s'.m = s.m → 4 ≤ s.m → ∀ j, i ≤ j → j < i + k → j < s.m →
        ∀ a c, ¬ Ear (s.vertices.map g) a (g (s.vertices.getD j 0)) c)) ∨ Done g P s') := by
  induction k with
  | zero => exact fun {i s} h _ => ⟨s, rfl, .inl ⟨h, le_refl _, fun _ _ j h1 h2 => by omega⟩⟩
  | succ k ih =>
    intro i s h hc
    unfold earPass
    by_cases hi : i < s.m
    · rw [if_pos hi]
      by_cases h4 : 4 ≤ s.m
      · obtain ⟨s1, e1, e2⟩ := h.step hbs hm h4 hi
        rw [e1, ok_bind]
        rcases e2 with ⟨rfl, e2⟩ | ⟨e2, e3⟩
        · obtain ⟨s', f1, f2⟩ := ih (i := i + 1) h (.inr (by omega))
          refine ⟨s', f1, f2.imp_left fun f => ⟨f.1, f.2.1, fun g1 g2 j j1 j2 j3 => ?_⟩⟩
          rcases Nat.eq_or_lt_of_le j1 with rfl | j1
          · exact e2
          · exact f.2.2 g1 g2 j j1 (by omega) j3
        · obtain ⟨s', f1, f2⟩ := ih (i := i + 1) e2 (.inr (by omega))
          exact ⟨s', f1, f2.imp_left fun f => ⟨f.1, by omega, fun g1 => by have := f.2.1; omega⟩⟩
      · have := h.three
        obtain ⟨s1, e1, e2⟩ := h.last hbs (by omega) hi
        rw [e1, ok_bind]
        refine ⟨s1, ?_, .inr e2⟩
        have := e2.m
        cases k with
        | zero => rfl
        | succ k =>
          unfold earPass
          rw [if_neg (by omega)]; rfl
    · rw [if_neg hi]
      exact ⟨s, rfl, .inl ⟨h, le_refl _, fun _ _ j h1 _ h2 => by omega⟩⟩

theorem Good.loop {W : Nat → Prop} {points : List (V2 F)} {g : Nat → V2 K} {P : List (V2 K)} {bs : List Nat → Nat → Option Nat}
    (hbs : BinarySearch bs) (hm : DecidesOn W points g) (fuel : Nat) : ∀ {prevM : Option Nat} {s : EarState}, Good W points g P s →
    s.m < fuel → stalled prevM s.vertices.length = false →
    ∃ s', earLoop bs points fuel prevM s = .ok s' ∧ (∃ k, s'.triangles.length = 3 * k) ∧
      Clips P (corners g s'.triangles) := by
  induction fuel with
  | zero => intro _ _ _ h; omega
  | succ fuel ih =>
    intro prevM s h hf hst
    unfold earLoop
    have hl := h.len
    have h3 := h.three
    rw [hst]
    simp only [Bool.false_eq_true, if_false]
    rw [if_neg (by omega)]
    by_cases hm3 : s.vertices.length = 3
    · rw [if_pos hm3]
      obtain ⟨V, C, T, m⟩ := s
      obtain ⟨_, _, _, _, hs, hl1, _, hcount, hcl⟩ := h
      simp only at hs hl1 hcount hcl hm3 ⊢
      match V, hm3 with
      | [x, y, z], _ =>
        refine ⟨_, rfl, ?_, ?_⟩
        · obtain ⟨k, hk⟩ := hcount
          exact ⟨k + 1, by simp [hk]; omega⟩
        · show Clips P (corners g (T ++ [x, y, z]))
          rw [corners_append hcount]
          refine hcl _ (.last ⟨1, rfl⟩ ?_)
          rw [tri_rot]
          exact three_pos hs hl1
    · rw [if_neg hm3]
      have hs : ({ s with m := s.vertices.length } : EarState) = s := by rw [hl]
      rw [hs]
      obtain ⟨s1, e1, e2⟩ := h.pass hbs hm s.vertices.length (i := 0) (.inl (by omega))
      rw [e1, ok_bind]
      rcases e2 with ⟨g1, g2, g3⟩ | hd
      · have hlt : s1.m < s.m := by
          refine lt_of_le_of_ne g2 fun he => ?_
          have hno := g3 he (by omega)
          have hl3 : 3 ≤ (s.vertices.map g).length := by rw [List.length_map]; omega
          obtain ⟨c, m, a, hform⟩ := exists_form (l := s.vertices.map g) (by omega)
          have he : (a, c) ∈ loopEdges (s.vertices.map g) := by rw [hform, loopEdges_close]; simp
          obtain ⟨a, v, c, hear, _⟩ := exists_ear h.simple hl3 h.level he
          obtain ⟨x, hx, rfl⟩ := List.mem_map.1 (mem_of_loopEdges hear.out).1
          obtain ⟨j, hj, rfl⟩ := List.getElem_of_mem hx
          refine hno j (by omega) (by omega) (by omega) a c ?_
          simpa [List.getD, hj] using hear
        exact ih g1 (by omega) (by have := g1.len; simp [stalled]; omega)
      · cases fuel with
        | zero => omega
        | succ fuel =>
          have := hd.len
          refine ⟨s1, ?_, hd.count, hd.clips⟩
          unfold earLoop
          have : stalled (some s.vertices.length) s1.vertices.length = false := by simp [stalled]; omega
          rw [this]
          simp only [Bool.false_eq_true, if_false]
          rw [if_pos (by omega)]; rfl

end Geom3d.Winding
