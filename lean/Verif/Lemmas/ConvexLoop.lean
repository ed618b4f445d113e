import Verif.Lemmas.EarRun

/-!
# Simple polygons with left turns only are convex, and fans tile them
-/

namespace Geom3d.Winding
open Spec List

variable {K : Type} [Field K] [LinearOrder K] [IsStrictOrderedRing K]

set_option linter.unusedSectionVars false

/-- All corners turn left. -/
def LeftTurns (l : List (V2 K)) : Prop :=
  ∀ a v c, (a, v) ∈ loopEdges l → (v, c) ∈ loopEdges l → 0 < triArea2 a v c

theorem LeftTurns.rot {l l' : List (V2 K)} (h : LeftTurns l) (hr : l ~r l') : LeftTurns l' := fun a v c h1 h2 =>
  h a v c ((loopEdges_rot hr).mem_iff.2 h1) ((loopEdges_rot hr).mem_iff.2 h2)

theorem exists_edge_from {α : Type} {l : List α} (hl : 3 ≤ l.length) {v : α} (hv : v ∈ l) :
    (∃ c, (v, c) ∈ loopEdges l) ∧ ∃ a, (a, v) ∈ loopEdges l := by
  obtain ⟨t, ht⟩ := rot_of_mem hv
  have hlen := ht.perm.length_eq
  obtain ⟨c', m, a', rfl⟩ := exists_form (l := t) (by simp at hlen; omega)
  have e := loopEdges_corner v c' a' m
  exact ⟨⟨c', (loopEdges_rot ht).mem_iff.2 (by rw [e]; simp)⟩, ⟨a', (loopEdges_rot ht).mem_iff.2 (by rw [e]; simp)⟩⟩

/-- With left turns only, every vertex is an ear. -/
theorem LeftTurns.ear {l : List (V2 K)} {a v c : V2 K} (h : LeftTurns l) (hs : Simple l) (hl : 3 ≤ l.length)
    (h1 : level l = 1) (hinto : (a, v) ∈ loopEdges l) (hout : (v, c) ∈ loopEdges l) : Ear l a v c := by
  have hpos : 0 < triArea2 v c a := by rw [tri_rot]; exact h a v c hinto hout
  refine ⟨hinto, hout, hpos, fun z hz hza hzv hzc hin => ?_⟩
  obtain ⟨p, q, r, e1, e2, e3, _⟩ := concave_inside hs hl h1 hinto hout hpos hz hza hzv hzc hin
  exact absurd (h p q r e1 e2) (not_lt.2 e3.le)

/-- Clipping a vertex keeps the turns left. -/
theorem LeftTurns.clip {a v c : V2 K} {m : List (V2 K)} (h : LeftTurns (v :: c :: (m ++ [a])))
    (hs : Simple (v :: c :: (m ++ [a]))) (hm : m ≠ []) (hcut : Cut c a m [v]) : LeftTurns (c :: (m ++ [a])) := by
  obtain ⟨d, m', hd⟩ := List.exists_cons_of_ne_nil hm
  obtain ⟨m'', b, hb⟩ : ∃ m'' b, m = m'' ++ [b] := by
    rcases List.eq_nil_or_concat m with h0 | ⟨m, a, h0⟩
    · exact absurd h0 hm
    · exact ⟨m, a, by rw [h0, List.concat_eq_append]⟩
  have hd' : m.head? = some d := by rw [hd]; rfl
  have hb' : m.getLast? = some b := by rw [hb]; simp
  have hn := hs.nodup
  have hn2 := (List.nodup_cons.1 hn).2
  have ecd : (c, d) ∈ pathEdges (c :: (m ++ [a])) := by
    rw [hd, List.cons_append, pathEdges_cons]; simp
  have eba : (b, a) ∈ pathEdges (c :: (m ++ [a])) := by
    rw [hb, show c :: (m'' ++ [b] ++ [a]) = (c :: m'') ++ [b, a] by simp, pathEdges_concat]; simp
  have old : ∀ {e}, e ∈ pathEdges (c :: (m ++ [a])) → e ∈ loopEdges (v :: c :: (m ++ [a])) := by
    intro e he
    rw [loopEdges_corner]; simp [he]
  have evc : (v, c) ∈ loopEdges (v :: c :: (m ++ [a])) := by rw [loopEdges_corner]; simp
  have eav : (a, v) ∈ loopEdges (v :: c :: (m ++ [a])) := by rw [loopEdges_corner]; simp
  have nxt : 0 < triArea2 a c d := hcut.next hd' (h v c d evc (old ecd))
  have prv : 0 < triArea2 b a c := hcut.prev hb' (h b a v (old eba) eav)
  have hnca : c ≠ a := by rintro rfl; simp at hn2
  intro p q r h1 h2
  rw [loopEdges_close, List.mem_append, List.mem_singleton] at h1 h2
  rcases h1 with h1 | h1
  · rcases h2 with h2 | h2
    · exact h p q r (old h1) (old h2)
    · cases h2
      -- `(p, a)` is the last edge of the path
      have : p = b := by
        have hsplit : c :: (m ++ [a]) = (c :: m'') ++ [b, a] := by rw [hb]; simp
        rw [hsplit] at hn2
        rw [hsplit, pathEdges_concat, List.mem_append, List.mem_singleton] at h1
        rcases h1 with h1 | h1
        · have := (mem_of_pathEdges h1).2
          rw [show (c :: m'') ++ [b, a] = ((c :: m'') ++ [b]) ++ [a] by simp, List.nodup_append] at hn2
          exact absurd rfl (hn2.2.2 _ this _ (by simp))
        · cases h1; rfl
      rw [this]; exact prv
  · cases h1
    rcases h2 with h2 | h2
    · have : r = d := by
        rw [hd, List.cons_append] at hn2
        rw [hd, List.cons_append, pathEdges_cons, List.mem_cons] at h2
        rcases h2 with h2 | h2
        · cases h2; rfl
        · exact absurd (mem_of_pathEdges h2).1 (List.nodup_cons.1 hn2).1
      rw [this]; exact nxt
    · cases h2
      exact absurd rfl hnca

theorem convex_left_aux (n : Nat) : ∀ l : List (V2 K), l.length ≤ n → Simple l → 3 ≤ l.length → level l = 1 → LeftTurns l →
    ∀ a b z, (a, b) ∈ loopEdges l → z ∈ l → z ≠ a → z ≠ b → 0 < triArea2 a b z := by
  induction n with
  | zero => intro l h0 _ h3; omega
  | succ n ih =>
    intro l hn hs hl h1 ht a b z he hz hza hzb
    obtain ⟨⟨d, hd⟩, -⟩ := exists_edge_from hl (mem_of_loopEdges he).2
    by_cases hzd : z = d
    · subst hzd
      exact ht a b z he hd
    obtain ⟨m, hm⟩ := corner_form hs.nodup hl he hd
    have hzm : z ∈ m := by
      have := hm.perm.mem_iff.1 hz
      simp only [List.mem_cons, List.mem_append, List.mem_nil_iff, or_false] at this
      rcases this with h | h | h | h
      · exact absurd h hzb
      · exact absurd h hzd
      · exact h
      · exact absurd h hza
    obtain ⟨e, m', rfl⟩ := List.exists_cons_of_ne_nil (List.ne_nil_of_mem hzm)
    have hr : l ~r d :: e :: ((m' ++ [a]) ++ [b]) := by
      refine hm.trans ?_
      have := isRotated_append (l := [b]) (l' := d :: (e :: m' ++ [a]))
      simpa using this
    have hlen := hr.perm.length_eq
    simp only [List.length_cons, List.length_append, List.length_nil] at hlen
    have hs' := hs.rot hr
    have ht' := ht.rot hr
    have ein : (b, d) ∈ loopEdges l := (loopEdges_rot hr).mem_iff.2 (by rw [loopEdges_corner]; simp)
    have eout : (d, e) ∈ loopEdges l := (loopEdges_rot hr).mem_iff.2 (by rw [loopEdges_corner]; simp)
    have hcut := (ht.ear hs hl h1 ein eout).cut hs (by omega) h1 hr
    refine ih (e :: ((m' ++ [a]) ++ [b])) (by simp; omega) hcut.simpleA (by simp) hcut.lA (ht'.clip hs' (by simp) hcut) a b z
      ?_ ?_ hza hzb
    · rw [loopEdges_close, show e :: (m' ++ [a] ++ [b]) = (e :: m') ++ [a, b] by simp, pathEdges_concat]
      simp
    · simp only [List.mem_cons, List.mem_append] at hzm ⊢
      rcases hzm with h | h <;> simp [h]

/-- **Convexity.** In a simple polygon with left turns only every vertex is to the left of every edge. -/
theorem convex_left {l : List (V2 K)} (hs : Simple l) (hl : 3 ≤ l.length) (h1 : level l = 1) (ht : LeftTurns l)
    {a b z : V2 K} (he : (a, b) ∈ loopEdges l) (hz : z ∈ l) (hza : z ≠ a) (hzb : z ≠ b) : 0 < triArea2 a b z :=
  convex_left_aux l.length l le_rfl hs hl h1 ht a b z he hz hza hzb

/-! ### Fans -/

theorem telescope_loop {β : Type} (f : β → ℤ) (l : List β) : ((loopEdges l).map fun e => f e.1 - f e.2).sum = 0 := by
  have key : ∀ (l : List β) (a b : β), ((pathEdges (a :: l ++ [b])).map fun e => f e.1 - f e.2).sum = f a - f b := by
    intro l
    induction l with
    | nil => intro a b; simp [pathEdges]
    | cons c l ih =>
      intro a b
      rw [List.cons_append, List.cons_append, pathEdges_cons, List.map_cons, List.sum_cons, ← List.cons_append, ih]
      ring
  cases l with
  | nil => rfl
  | cons a l => rw [loopEdges_cons, key]; ring

theorem wind_three (g a b x : V2 K) : wind [g, a, b] x = up x g a + up x a b + up x b g := by
  have ed : loopEdges ([g, a, b] : List (V2 K)) = [(g, a), (a, b), (b, g)] := rfl
  unfold wind
  rw [ed]
  simp [add_assoc]

/-- The winding number is the sum of those of the triangles of a fan. -/
theorem wind_fan (g : V2 K) (l : List (V2 K)) (x : V2 K) :
    wind l x = ((loopEdges l).map fun e => wind [g, e.1, e.2] x).sum := by
  have h0 := telescope_loop (fun v => up x g v) l
  have : ((loopEdges l).map fun e => wind [g, e.1, e.2] x).sum
      = ((loopEdges l).map fun e => up x e.1 e.2).sum + ((loopEdges l).map fun e => up x g e.1 - up x g e.2).sum := by
    rw [← List.sum_map_add]
    congr 1
    apply List.map_congr_left
    intro e _
    rw [wind_three, up_swap x g e.2]
    ring
  rw [this, h0, add_zero]
  rfl

open Classical in
/-- **Fan tiling.** The positive triangles of a fan cover a point as often as the polygon winds around it. -/
theorem fan_tiling {g : V2 K} {l : List (V2 K)} (hpos : ∀ e ∈ loopEdges l, 0 < triArea2 g e.1 e.2) {x : V2 K}
    (hg : Generic (g :: l) x) :
    (((loopEdges l).filter fun e => Inside g e.1 e.2 x).length : ℤ) = wind l x := by
  rw [wind_fan g]
  have : ∀ E : List (V2 K × V2 K), (∀ e ∈ E, 0 < triArea2 g e.1 e.2) → (∀ e ∈ E, e.1 ∈ l ∧ e.2 ∈ l) →
      ((E.filter fun e => Inside g e.1 e.2 x).length : ℤ) = (E.map fun e => wind [g, e.1, e.2] x).sum := by
    intro E
    induction E with
    | nil => intros; rfl
    | cons e E ih =>
      intro h1 h2
      have := ih (fun e he => h1 e (List.mem_cons_of_mem _ he)) (fun e he => h2 e (List.mem_cons_of_mem _ he))
      rw [List.map_cons, List.sum_cons, ← this]
      have hp := h1 e (by simp)
      have hm := h2 e (by simp)
      rw [wind_tri (by rw [tri_rot]; exact hp) (hg.sub fun z hz => by
        simp only [List.mem_cons, List.mem_nil_iff, or_false] at hz ⊢
        rcases hz with rfl | rfl | rfl
        · exact .inr hm.1
        · exact .inr hm.2
        · exact .inl rfl)]
      by_cases hi : Inside g e.1 e.2 x
      · rw [List.filter_cons_of_pos (by simpa using hi), if_pos hi, List.length_cons]
        push_cast; ring
      · rw [List.filter_cons_of_neg (by simpa using hi), if_neg hi]
        ring
  exact this _ hpos fun e he => mem_of_loopEdges he

end Geom3d.Winding
