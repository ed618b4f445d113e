import Verif.Lemmas.Ears
import Verif.Lemmas.Loops
import Mathlib.Data.List.Rotate

/-!
# Simple polygons: level, cuts, ears
-/

namespace Geom3d.Winding
open Spec List

variable {K : Type} [Field K] [LinearOrder K] [IsStrictOrderedRing K]

set_option linter.unusedSectionVars false

/-! ### Lists -/

theorem mem_of_pathEdges {α : Type} {l : List α} {e : α × α} (h : e ∈ pathEdges l) : e.1 ∈ l ∧ e.2 ∈ l :=
  ⟨(List.of_mem_zip h).1, List.mem_of_mem_tail (List.of_mem_zip h).2⟩

theorem ne_of_pathEdges {α : Type} {l : List α} (hl : l.Nodup) {e : α × α} (h : e ∈ pathEdges l) : e.1 ≠ e.2 := by
  induction l with
  | nil => cases h
  | cons a l ih =>
    cases l with
    | nil => cases h
    | cons b l =>
      rw [pathEdges_cons, List.mem_cons] at h
      rw [List.nodup_cons] at hl
      rcases h with rfl | h
      · intro h
        exact hl.1 (by rw [show a = b from h]; exact List.mem_cons_self ..)
      · exact ih hl.2 h

theorem mem_of_loopEdges {α : Type} {l : List α} {e : α × α} (h : e ∈ loopEdges l) : e.1 ∈ l ∧ e.2 ∈ l := by
  cases l with
  | nil => cases h
  | cons a l =>
    have := mem_of_pathEdges (l := a :: l ++ [a]) h
    simp only [List.cons_append, List.mem_cons, List.mem_append, List.mem_nil_iff, or_false] at this
    simp only [List.mem_cons]
    tauto

theorem loopEdges_rot {α : Type} {l l' : List α} (h : l ~r l') : (loopEdges l).Perm (loopEdges l') := by
  obtain ⟨n, rfl⟩ := h
  exact (loopEdges_rotate l n).symm

theorem rot_of_mem {α : Type} {l : List α} {v : α} (h : v ∈ l) : ∃ t, l ~r v :: t := by
  obtain ⟨s, t, rfl⟩ := List.append_of_mem h
  exact ⟨t ++ s, isRotated_append⟩

theorem exists_form {α : Type} {l : List α} (h : 2 ≤ l.length) : ∃ c m a, l = c :: (m ++ [a]) := by
  match l, h with
  | c :: d :: l, _ =>
    rcases List.eq_nil_or_concat (d :: l) with h | ⟨m, a, h⟩
    · cases h
    · exact ⟨c, m, a, by rw [h]; simp⟩

theorem exists_min {α : Type} (r : α → α → Prop) (tot : ∀ x y, r x y ∨ r y x) (tr : ∀ x y z, r x y → r y z → r x z)
    (p : α → Prop) {l : List α} (h : ∃ z ∈ l, p z) : ∃ q ∈ l, p q ∧ ∀ z ∈ l, p z → r q z := by
  induction l with
  | nil => obtain ⟨z, hz, _⟩ := h; cases hz
  | cons a l ih =>
    by_cases hl : ∃ z ∈ l, p z
    · obtain ⟨q, hq, pq, hm⟩ := ih hl
      by_cases ha : p a ∧ r a q
      · refine ⟨a, List.mem_cons_self .., ha.1, fun z hz pz => ?_⟩
        rcases List.mem_cons.1 hz with rfl | hz
        · exact (tot z z).elim id id
        · exact tr _ _ _ ha.2 (hm z hz pz)
      · refine ⟨q, List.mem_cons_of_mem _ hq, pq, fun z hz pz => ?_⟩
        rcases List.mem_cons.1 hz with rfl | hz
        · exact (tot q z).resolve_right fun hr => ha ⟨pz, hr⟩
        · exact hm z hz pz
    · obtain ⟨z, hz, pz⟩ := h
      rcases List.mem_cons.1 hz with rfl | hz
      · refine ⟨z, List.mem_cons_self .., pz, fun y hy py => ?_⟩
        rcases List.mem_cons.1 hy with rfl | hy
        · exact (tot y y).elim id id
        · exact absurd ⟨y, hy, py⟩ hl
      · exact absurd ⟨z, hz, pz⟩ hl

/-! ### Simple polygons -/

/-- A polygon without repeated vertices, without three vertices in line, and without crossing edges. -/
structure Simple (l : List (V2 K)) : Prop where
  nodup : l.Nodup
  gp : ∀ a ∈ l, ∀ b ∈ l, ∀ c ∈ l, a ≠ b → a ≠ c → b ≠ c → triArea2 a b c ≠ 0
  nocross : ∀ e ∈ loopEdges l, ∀ f ∈ loopEdges l, ¬ Cross e.1 e.2 f.1 f.2

theorem Simple.rot {l l' : List (V2 K)} (h : Simple l) (hr : l ~r l') : Simple l' where
  nodup := hr.perm.nodup_iff.1 h.nodup
  gp a ha b hb c hc := h.gp a (hr.perm.mem_iff.2 ha) b (hr.perm.mem_iff.2 hb) c (hr.perm.mem_iff.2 hc)
  nocross e he f hf := h.nocross e ((loopEdges_rot hr).mem_iff.2 he) f ((loopEdges_rot hr).mem_iff.2 hf)

theorem Simple.clear {l : List (V2 K)} (h : Simple l) {x y : V2 K} {e : V2 K × V2 K} (hx : x ∈ l) (hy : y ∈ l) (h1 : e.1 ∈ l)
    (h2 : e.2 ∈ l) (hxy : x ≠ y) (h12 : e.1 ≠ e.2) (hx1 : x ≠ e.1) (hx2 : x ≠ e.2) (hy1 : y ≠ e.1) (hy2 : y ≠ e.2)
    (hc : ¬ Cross x y e.1 e.2) : Clear x y e.1 e.2 where
  xya := h.gp _ hx _ hy _ h1 hxy hx1 hy1
  xyb := h.gp _ hx _ hy _ h2 hxy hx2 hy2
  abx := h.gp _ h1 _ h2 _ hx h12 hx1.symm hx2.symm
  aby := h.gp _ h1 _ h2 _ hy h12 hy1.symm hy2.symm
  cross := hc

theorem Simple.level_one {v : V2 K} {l : List (V2 K)} (h : Simple (v :: l)) (hl : 2 ≤ l.length) :
    level (v :: l) = level (l ++ [v]) := by
  obtain ⟨c, m, a, rfl⟩ := exists_form hl
  obtain ⟨d, t, hm⟩ : ∃ d t, m ++ [a] = d :: t := by
    cases m with
    | nil => exact ⟨a, [], rfl⟩
    | cons d t => exact ⟨d, t ++ [a], rfl⟩
  have hn := h.nodup
  rw [List.nodup_cons, List.nodup_cons] at hn
  have hd : d ∈ m ++ [a] := by rw [hm]; exact List.mem_cons_self ..
  have ha : a ∈ m ++ [a] := by simp
  have hvc : v ≠ c := by rintro rfl; exact hn.1 (List.mem_cons_self ..)
  have hv : ∀ z ∈ m ++ [a], v ≠ z := by rintro z hz rfl; exact hn.1 (List.mem_cons_of_mem _ hz)
  have hc : ∀ z ∈ m ++ [a], c ≠ z := by rintro z hz rfl; exact hn.2.1 hz
  have mem : ∀ z ∈ m ++ [a], z ∈ v :: c :: (m ++ [a]) := fun z hz => List.mem_cons_of_mem _ (List.mem_cons_of_mem _ hz)
  have mv : v ∈ v :: c :: (m ++ [a]) := List.mem_cons_self ..
  have mc : c ∈ v :: c :: (m ++ [a]) := List.mem_cons_of_mem _ (List.mem_cons_self ..)
  refine level_rotate (l := m ++ [a]) (a := a) (d := d) (by rw [hm]; rfl) (by simp) (fun e he => ?_)
    (h.gp v mv c mc a (mem a ha) hvc (hv a ha) (hc a ha)) (h.gp v mv c mc d (mem d hd) hvc (hv d hd) (hc d hd))
  obtain ⟨h1, h2⟩ := mem_of_pathEdges he
  refine h.clear mv mc (mem _ h1) (mem _ h2) hvc (ne_of_pathEdges hn.2.2 he) (hv _ h1) (hv _ h2) (hc _ h1) (hc _ h2) ?_
  have hf : loopEdges (v :: c :: (m ++ [a])) = (v, c) :: (pathEdges (c :: (m ++ [a])) ++ [(a, v)]) :=
    loopEdges_form rfl (by rw [← List.cons_append, List.getLast?_append]; rfl)
  refine h.nocross (v, c) (by rw [hf]; exact List.mem_cons_self ..) e ?_
  rw [hf]
  refine List.mem_cons_of_mem _ (List.mem_append_left _ ?_)
  rw [hm, pathEdges_cons, ← hm]
  exact List.mem_cons_of_mem _ he

theorem Simple.level_rot {l l' : List (V2 K)} (h : Simple l) (hl : 3 ≤ l.length) (hr : l ~r l') : level l = level l' := by
  obtain ⟨n, rfl⟩ := hr
  induction n with
  | zero => rw [List.rotate_zero]
  | succ n ih =>
    rw [ih, ← List.rotate_rotate]
    have hs := h.rot ⟨n, rfl⟩
    have hl' : 3 ≤ (l.rotate n).length := by rw [List.length_rotate]; exact hl
    generalize l.rotate n = l'' at *
    cases l'' with
    | nil => rfl
    | cons v t =>
      rw [List.rotate_cons_succ, List.rotate_zero]
      exact hs.level_one (by simpa using hl')

theorem wind_perm {l l' : List (V2 K)} (h : (loopEdges l).Perm (loopEdges l')) (x : V2 K) : wind l x = wind l' x := by
  unfold wind
  exact (h.map _).sum_eq

/-! ### The lowest vertex -/

theorem Lower.trans {x y z : V2 K} (h1 : Lower x y) (h2 : Lower y z) : Lower x z := by
  unfold Lower at *
  rcases h1 with h1 | ⟨h1, h1'⟩ <;> rcases h2 with h2 | ⟨h2, h2'⟩
  · exact .inl (h1.trans h2)
  · exact .inl (h2 ▸ h1)
  · exact .inl (h1 ▸ h2)
  · exact .inr ⟨h1.trans h2, h2'.trans h1'⟩

theorem Lower.total {x y : V2 K} (h : x ≠ y) : Lower x y ∨ Lower y x := by
  unfold Lower
  rcases lt_trichotomy x.y y.y with h1 | h1 | h1
  · exact .inl (.inl h1)
  · rcases lt_trichotomy x.x y.x with h2 | h2 | h2
    · exact .inr (.inr ⟨h1.symm, h2⟩)
    · exact absurd (by cases x; cases y; simp_all) h
    · exact .inl (.inr ⟨h1, h2⟩)
  · exact .inr (.inl h1)

theorem up_bottom {v p q : V2 K} (hp : Lower v p) (hq : Lower v q) : up v p q = 0 := by
  unfold up upf
  have e : triArea2 p q v = (q.x - p.x) * (v.y - p.y) - (v.x - p.x) * (q.y - p.y) := rfl
  rw [if_neg, if_neg]
  · rintro ⟨h1, h2, h3⟩
    rcases hq with hq | hq
    · linarith
    · rw [e, show q.y = v.y from hq.1.symm] at h3
      nlinarith [mul_pos (sub_pos.2 hq.2) (sub_pos.2 h2)]
  · rintro ⟨h1, h2, h3⟩
    rcases hp with hp | hp
    · linarith
    · rw [e, hp.1] at h3
      nlinarith [mul_pos (sub_pos.2 hp.2) (sub_pos.2 h2)]

theorem level_bottom {v c a : V2 K} {m : List (V2 K)} (h : ∀ p ∈ c :: (m ++ [a]), Lower v p) :
    level (v :: c :: (m ++ [a])) = bef v c a := by
  rw [level_form (c := c) (a := a) rfl (by rw [← List.cons_append, List.getLast?_append]; rfl)]
  have : pathUp (c :: (m ++ [a])) v = 0 := by
    unfold pathUp
    apply List.sum_eq_zero
    intro x hx
    obtain ⟨e, he, rfl⟩ := List.mem_map.1 hx
    exact up_bottom (h _ (mem_of_pathEdges he).1) (h _ (mem_of_pathEdges he).2)
  rw [this, zero_add]

theorem bef_bottom {v c a : V2 K} (ha : Lower v a) (h : bef v c a = 1) : 0 < triArea2 v c a := by
  unfold bef at h
  have hb : Before v c a := by by_contra hn; rw [if_neg hn] at h; cases h
  rcases hb with ⟨h1, h2⟩ | ⟨_, h⟩
  · rcases ha with ha | ⟨ha, ha'⟩
    · linarith
    · unfold triArea2
      rw [← ha]
      nlinarith [mul_pos (sub_pos.2 h1) (sub_pos.2 ha')]
  · exact h

theorem exists_bottom {l : List (V2 K)} (hn : l.Nodup) (hl : 3 ≤ l.length) :
    ∃ v c m a, l ~r v :: c :: (m ++ [a]) ∧ ∀ p ∈ c :: (m ++ [a]), Lower v p := by
  obtain ⟨v, hv, _, hm⟩ := exists_min (fun x y : V2 K => x = y ∨ Lower x y)
    (fun x y => by
      by_cases h : x = y
      · exact .inl (.inl h)
      · exact (Lower.total h).imp .inr .inr)
    (fun x y z h1 h2 => by
      rcases h1 with rfl | h1
      · exact h2
      · rcases h2 with rfl | h2
        · exact .inr h1
        · exact .inr (h1.trans h2)) (fun _ => True) (l := l) (by
      cases l with
      | nil => simp at hl
      | cons a l => exact ⟨a, List.mem_cons_self .., trivial⟩)
  obtain ⟨t, ht⟩ := rot_of_mem hv
  have hlen := ht.perm.length_eq
  obtain ⟨c, m, a, rfl⟩ := exists_form (l := t) (by simp at hlen; omega)
  refine ⟨v, c, m, a, ht, fun p hp => ?_⟩
  have hn' := ht.perm.nodup_iff.1 hn
  rw [List.nodup_cons] at hn'
  refine (hm p (ht.perm.mem_iff.2 (List.mem_cons_of_mem _ hp)) trivial).resolve_left ?_
  rintro rfl
  exact hn'.1 hp

theorem Simple.level_cases {l : List (V2 K)} (h : Simple l) (hl : 3 ≤ l.length) : level l = 0 ∨ level l = 1 := by
  obtain ⟨v, c, m, a, hr, hb⟩ := exists_bottom h.nodup hl
  rw [h.level_rot hl hr, level_bottom hb]
  exact bef_cases _ _ _

theorem level_tri {v c a : V2 K} (h : triArea2 v c a ≠ 0) : level [v, c, a] = if 0 < triArea2 v c a then 1 else 0 := by
  rw [level_form (c := c) (a := a) rfl rfl]
  have e : pathUp [c, a] v = up v c a := by simp [pathUp, pathEdges]
  rw [e]
  unfold up upf bef Before
  rw [tri_rot v c a]
  generalize triArea2 v c a = o at *
  simp only [← not_le]
  rcases lt_or_gt_of_ne h with o1 | o1 <;> by_cases h2 : c.y ≤ v.y <;> by_cases h3 : a.y ≤ v.y <;>
    simp [h2, h3, o1.le, not_le.2 o1]

/-! ### Directions -/

theorem cyc3_rot (v c q a : V2 K) : cyc3 v c q a = cyc3 v q a c := by unfold cyc3; ring

theorem cyc3_cases {v c q a : V2 K} (h1 : triArea2 v c q ≠ 0) (h2 : triArea2 v q a ≠ 0) (h3 : triArea2 v a c ≠ 0) :
    cyc3 v c q a = 1 ∨ cyc3 v c q a = 2 := by
  rcases lt_or_gt_of_ne h1 with a1 | a1 <;> rcases lt_or_gt_of_ne h2 with a2 | a2 <;> rcases lt_or_gt_of_ne h3 with a3 | a3 <;>
    first
    | (left; exact cyc3_one h1 h2 h3 (by tauto))
    | (right; exact cyc3_two h1 h2 h3 (by tauto))

/-- If the directions to `c`, `q`, `a` are in this order and the angle from `a` on to `c` is more than half a turn, then
`q` is between `c` and `a`. -/
theorem between_of_cyc3 {v c q a : V2 K} (h1 : triArea2 v c q ≠ 0) (h2 : triArea2 v q a ≠ 0) (h3 : triArea2 v a c < 0)
    (h : cyc3 v c q a = 2) : 0 < triArea2 v c q ∧ 0 < triArea2 v q a := by
  constructor
  · by_contra hn
    have := cyc3_one h1 h2 h3.ne (.inr (.inl ⟨lt_of_le_of_ne (not_lt.1 hn) h1, h3⟩))
    omega
  · by_contra hn
    have := cyc3_one h1 h2 h3.ne (.inr (.inr ⟨lt_of_le_of_ne (not_lt.1 hn) h2, h3⟩))
    omega

end Geom3d.Winding
