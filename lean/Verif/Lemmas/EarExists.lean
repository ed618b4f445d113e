import Verif.Lemmas.Cuts

/-!
# Every simple polygon has an ear away from any given edge
-/

namespace Geom3d.Winding
open Spec List

variable {K : Type} [Field K] [LinearOrder K] [IsStrictOrderedRing K]

set_option linter.unusedSectionVars false

/-- The corner at `v`, with neighbours `a` and `c`, turns left and no other vertex lies in its triangle. -/
structure Ear (l : List (V2 K)) (a v c : V2 K) : Prop where
  into : (a, v) ∈ loopEdges l
  out : (v, c) ∈ loopEdges l
  pos : 0 < triArea2 v c a
  free : ∀ z ∈ l, z ≠ a → z ≠ v → z ≠ c → ¬ Inside a v c z

theorem Ear.rot {l l' : List (V2 K)} {a v c : V2 K} (h : Ear l a v c) (hr : l ~r l') : Ear l' a v c where
  into := (loopEdges_rot hr).mem_iff.1 h.into
  out := (loopEdges_rot hr).mem_iff.1 h.out
  pos := h.pos
  free z hz := h.free z (hr.perm.mem_iff.2 hz)

theorem loopEdges_corner {α : Type} (v c a : α) (m : List α) :
    loopEdges (v :: c :: (m ++ [a])) = (v, c) :: (pathEdges (c :: (m ++ [a])) ++ [(a, v)]) :=
  loopEdges_form rfl (by rw [← List.cons_append, List.getLast?_append]; rfl)

/-- The polygon listed from a given corner. -/
theorem corner_form {α : Type} {l : List α} (hn : l.Nodup) (hl : 3 ≤ l.length) {a v c : α} (h1 : (a, v) ∈ loopEdges l)
    (h2 : (v, c) ∈ loopEdges l) : ∃ m, l ~r v :: c :: (m ++ [a]) := by
  obtain ⟨t, ht⟩ := rot_of_mem (show v ∈ l from (mem_of_loopEdges h2).1)
  have hlen := ht.perm.length_eq
  obtain ⟨c', m, a', rfl⟩ := exists_form (l := t) (by simp at hlen; omega)
  have hn' := ht.perm.nodup_iff.1 hn
  rw [List.nodup_cons] at hn'
  rw [(loopEdges_rot ht).mem_iff, loopEdges_corner, List.mem_cons, List.mem_append, List.mem_singleton] at h1 h2
  have e2 : c = c' := by
    rcases h2 with h2 | h2 | h2
    · cases h2; rfl
    · exact absurd (mem_of_pathEdges h2).1 hn'.1
    · cases h2; exact absurd (by simp) hn'.1
  have e1 : a = a' := by
    rcases h1 with h1 | h1 | h1
    · cases h1; exact absurd (by simp) hn'.1
    · exact absurd (mem_of_pathEdges h1).2 hn'.1
    · cases h1; rfl
  exact ⟨m, by rw [e1, e2]; exact ht⟩

/-- A point in general position with respect to a polygon. -/
def Generic (l : List (V2 K)) (x : V2 K) : Prop := ∀ a ∈ l, ∀ b ∈ l, a ≠ b → triArea2 a b x ≠ 0

/-- **Inside an ear** the winding number is one. -/
theorem Ear.wind_inside {l : List (V2 K)} {a v c z : V2 K} (h : Ear l a v c) (hs : Simple l) (hl : 3 ≤ l.length)
    (h1 : level l = 1) (hz : Inside a v c z) (hg : Generic l z) : wind l z = 1 := by
  obtain ⟨m, hm⟩ := corner_form hs.nodup hl h.into h.out
  have hlev := hs.level_rot hl hm
  have hs := hs.rot hm
  have h := h.rot hm
  have hg : Generic (v :: c :: (m ++ [a])) z := fun p hp q hq => hg p (hm.perm.mem_iff.2 hp) q (hm.perm.mem_iff.2 hq)
  rw [wind_perm (loopEdges_rot hm)]
  have hn := hs.nodup
  have mv : v ∈ v :: c :: (m ++ [a]) := by simp
  have mc : c ∈ v :: c :: (m ++ [a]) := by simp
  have ma : a ∈ v :: c :: (m ++ [a]) := by simp
  have nvc : v ≠ c := by rintro rfl; simp at hn
  have nva : v ≠ a := by rintro rfl; simp at hn
  have g1 := hg v mv c mc nvc
  have g2 := hg v mv a ma nva
  rw [tri_swap' v z a] at g2
  have g2' : triArea2 v z a ≠ 0 := fun h0 => g2 (by rw [h0, neg_zero])
  have S : 0 < triArea2 v c z := lt_of_le_of_ne hz.1 g1.symm
  have T : 0 < triArea2 v z a := lt_of_le_of_ne hz.2.1 g2'.symm
  have nac : triArea2 v a c < 0 := by rw [tri_swap' v c a]; exact neg_neg_of_pos h.pos
  have gen : ∀ p ∈ v :: c :: (m ++ [a]), v ≠ p → triArea2 z v p ≠ 0 := by
    intro p hp hvp
    rw [← tri_rot z v p]
    exact hg v mv p hp hvp
  rw [wind_corner (c := c) (a := a) rfl (by rw [← List.cons_append, List.getLast?_append]; rfl) (fun e he => ?_)
    (gen c mc nvc) (gen a ma nva) nac.ne, ← hlev, h1, cyc3_two S.ne' T.ne' nac.ne (.inl ⟨S, T⟩)]
  · rfl
  · have m12' := mem_of_pathEdges he
    have nv : ∀ p ∈ c :: (m ++ [a]), v ≠ p := by
      rintro p hp rfl
      rw [List.nodup_cons] at hn
      exact hn.1 hp
    have m1 : e.1 ∈ v :: c :: (m ++ [a]) := List.mem_cons_of_mem _ m12'.1
    have m2 : e.2 ∈ v :: c :: (m ++ [a]) := List.mem_cons_of_mem _ m12'.2
    have ne : e.1 ≠ e.2 := ne_of_pathEdges (List.nodup_cons.1 hn).2 he
    have eL : e ∈ loopEdges (v :: c :: (m ++ [a])) := by
      rw [loopEdges_corner]
      exact List.mem_cons_of_mem _ (List.mem_append_left _ he)
    have far : ∀ p ∈ v :: c :: (m ++ [a]), v ≠ p → 0 ≤ triArea2 v c p → 0 ≤ triArea2 v p a →
        depth a v c z ≤ depth a v c p := by
      intro p hp hvp s0 t0
      have hzD : depth a v c z ≤ triArea2 v c a := hz.2.2
      refine hzD.trans ?_
      by_cases hpa : p = a
      · subst hpa; unfold depth; rw [tri_self₃, add_zero]
      by_cases hpc : p = c
      · subst hpc; unfold depth; rw [tri_self₃, zero_add]
      by_contra hn
      exact h.free p hp hpa hvp.symm hpc ⟨s0, t0, (not_le.1 hn).le⟩
    refine ⟨gen _ m1 (nv _ m12'.1), gen _ m2 (nv _ m12'.2), hg _ m1 _ m2 ne,
      hs.gp _ m1 _ m2 _ mv ne (nv _ m12'.1).symm (nv _ m12'.2).symm, ?_⟩
    intro k
    refine no_block S T hz.2.2 (fun k' => ?_) (hs.nocross (v, c) h.out e eL) (far _ m1 (nv _ m12'.1))
      (far _ m2 (nv _ m12'.2)) k.swap
    exact hs.nocross (a, v) h.into e eL k'.swap

/-- **Clipping an ear** leaves a simple polygon of level one. -/
theorem Ear.cut {l m : List (V2 K)} {a v c : V2 K} (h : Ear l a v c) (hs : Simple l) (hl : 4 ≤ l.length)
    (h1 : level l = 1) (hm : l ~r v :: c :: (m ++ [a])) : Cut c a m [v] := by
  have hr : (v :: c :: (m ++ [a])) ~r (c :: (m ++ a :: [v])) := by
    have := isRotated_append (l := [v]) (l' := c :: (m ++ [a]))
    simpa using this
  have hr' := hm.trans hr
  have hs' := hs.rot hr'
  have h' := h.rot hr'
  have hlev := hs.level_rot (by omega) hr'
  have hlen := hm.perm.length_eq
  have hn := (hs.rot hm).nodup
  have hmne : m ≠ [] := by rintro rfl; simp at hlen; omega
  have mem : ∀ z, z = c ∨ z ∈ m ∨ z = a ∨ z = v → z ∈ c :: (m ++ a :: [v]) := by
    intro z; simp
  have hn' := hn
  simp only [List.nodup_cons, List.nodup_append, List.mem_append, List.mem_cons, List.mem_nil_iff, or_false, not_or] at hn'
  have nvc : v ≠ c := hn'.1.1
  have nvm : ∀ z ∈ m, v ≠ z := by rintro z hz rfl; exact hn'.1.2.1 hz
  have nva : v ≠ a := hn'.1.2.2
  have ncm : ∀ z ∈ m, c ≠ z := by rintro z hz rfl; exact hn'.2.1.1 hz
  have nca : c ≠ a := hn'.2.1.2
  have nma : ∀ z ∈ m, z ≠ a := fun z hz => hn'.2.2.2.2 z hz a rfl
  have sc : ∀ x y : V2 K, ¬ Cross x y x y := cross_irrefl
  have clear : ∀ e ∈ loopEdges (c :: (m ++ a :: [v])), ¬ Cross c a e.1 e.2 := by
    intro e he hx
    have shared : ∀ x y w : V2 K, ¬ Cross x y x w := by
      intro x y w k; have := k.1; rw [tri_self₂, zero_mul] at this; exact lt_irrefl _ this
    have e1c : e.1 ≠ c := by intro h0; rw [h0] at hx; exact shared _ _ _ hx
    have e2c : e.2 ≠ c := by intro h0; rw [h0] at hx; exact shared _ _ _ hx.swap'
    have e1a : e.1 ≠ a := by intro h0; rw [h0] at hx; exact shared _ _ _ hx.swap
    have e2a : e.2 ≠ a := by intro h0; rw [h0] at hx; exact shared _ _ _ hx.swap.swap'
    have m12 := mem_of_loopEdges he
    have he' := he
    rw [← (loopEdges_rot hr).mem_iff, loopEdges_corner, List.mem_cons, List.mem_append, List.mem_singleton] at he'
    have hpe : e ∈ pathEdges (c :: (m ++ [a])) := by
      rcases he' with rfl | he' | rfl
      · exact absurd rfl e2c
      · exact he'
      · exact absurd rfl e1a
    have m12' := mem_of_pathEdges hpe
    have nv : ∀ p ∈ c :: (m ++ [a]), p ≠ v := by
      rintro p hp rfl
      rw [List.nodup_cons] at hn
      exact hn.1 hp
    have e1v := nv _ m12'.1
    have e2v := nv _ m12'.2
    have ne : e.1 ≠ e.2 := ne_of_pathEdges (List.nodup_cons.1 hn).2 hpe
    refine pasch h.pos (fun k => hs'.nocross _ h'.into e he k.swap) (hs'.nocross _ h'.out e he)
      (h'.free _ m12.1 e1a e1v e1c) (h'.free _ m12.2 e2a e2v e2c) ?_ hx.swap
    exact hs'.gp _ m12.1 _ m12.2 _ (mem v (by tauto)) ne e1v e2v
  have hA : Simple (c :: (m ++ [a])) := simple_part hs' clear
  have lA01 := hA.level_cases (by simp at hlen ⊢; omega)
  have posr : 0 < triArea2 a v c := by rw [tri_rot' v c a]; exact h.pos
  have lB : level [a, v, c] = 1 := by rw [level_tri posr.ne', if_pos posr]
  refine ⟨hs', hmne, by simp, clear, ?_, lB⟩
  obtain ⟨d, m', hd⟩ := List.exists_cons_of_ne_nil hmne
  have md : d ∈ m := by rw [hd]; exact List.mem_cons_self ..
  have gp := hs'.gp
  have t1 : triArea2 c d a ≠ 0 := gp c (mem c (by tauto)) d (mem d (by tauto)) a (mem a (by tauto)) (ncm d md) nca (nma d md)
  have posc : 0 < triArea2 c a v := by rw [tri_rot v c a]; exact h.pos
  have t3 : triArea2 c v d ≠ 0 := gp c (mem c (by tauto)) v (mem v (by tauto)) d (mem d (by tauto)) nvc.symm (ncm d md) (nvm d md)
  have e := level_cut (v := c) (c := d) (q := a) (a := v) (l₁ := m) (l₂ := [v]) (by rw [hd]; rfl) rfl t3
  have lB' : level [c, a, v] = 1 := by rw [level_tri posc.ne', if_pos posc]
  rw [← hlev, h1, lB'] at e
  have : cyc3 c d a v ≠ 1 := by
    intro h1
    have k1 : triArea2 c d a < 0 := by
      by_contra hn
      have := cyc3_two t1 posc.ne' t3 (.inl ⟨lt_of_le_of_ne (not_lt.1 hn) t1.symm, posc⟩)
      omega
    have k2 : triArea2 c v d < 0 := by
      by_contra hn
      have := cyc3_two t1 posc.ne' t3 (.inr (.inr ⟨posc, lt_of_le_of_ne (not_lt.1 hn) t3.symm⟩))
      omega
    have s0 : 0 < triArea2 v c d := by rw [tri_swap c v d]; exact neg_pos.2 k2
    have u0 : 0 < triArea2 c a d := by rw [tri_swap' c d a]; exact neg_pos.2 k1
    have us := bary_sum a v c d
    have hT : triArea2 v d a < 0 := by
      by_contra hn
      exact h'.free d (mem d (by tauto)) (nma d md) (nvm d md).symm (ncm d md).symm ⟨s0.le, not_lt.1 hn, by linarith⟩
    have hcd : (c, d) ∈ loopEdges (c :: (m ++ a :: [v])) := by
      rw [hd]
      show (c, d) ∈ pathEdges (c :: d :: (m' ++ a :: [v] ++ [c]))
      rw [pathEdges_cons]; exact List.mem_cons_self ..
    refine hs'.nocross _ h'.into _ hcd ⟨?_, ?_⟩
    · show triArea2 a v c * triArea2 a v d < 0
      have : triArea2 a v d = triArea2 v d a := (tri_rot a v d).symm
      rw [this]; exact mul_neg_of_pos_of_neg posr hT
    · show triArea2 c d a * triArea2 c d v < 0
      have : triArea2 c d v = triArea2 v c d := tri_rot v c d
      rw [this]; exact mul_neg_of_neg_of_pos k1 s0
  omega

/-- The nearest vertex in the triangle of a corner gives a diagonal. -/
theorem nearest_cut {v c a : V2 K} {m : List (V2 K)} (hs : Simple (v :: c :: (m ++ [a])))
    (h1 : level (v :: c :: (m ++ [a])) = 1) (hpos : 0 < triArea2 v c a) (hin : ∃ z ∈ m, Inside a v c z) :
    ∃ xs q ys, m = xs ++ q :: ys ∧ Inside a v c q ∧ (∀ z ∈ m, Inside a v c z → depth a v c q ≤ depth a v c z) ∧
      0 < triArea2 v c q ∧ 0 < triArea2 v q a ∧ Cut v q (c :: xs) (ys ++ [a]) := by
  obtain ⟨q, hq, iq, hmin⟩ := exists_min (fun x y : V2 K => depth a v c x ≤ depth a v c y) (fun x y => le_total _ _)
    (fun x y z => le_trans) (Inside a v c) hin
  obtain ⟨xs, ys, rfl⟩ := List.append_of_mem hq
  have eP : v :: c :: ((xs ++ q :: ys) ++ [a]) = v :: ((c :: xs) ++ q :: (ys ++ [a])) := by simp
  rw [eP] at hs h1
  have hn := hs.nodup
  have hn' := hn
  simp only [List.nodup_cons, List.nodup_append, List.mem_append, List.mem_cons, List.mem_nil_iff, or_false, not_or,
    List.cons_append] at hn'
  have mem : ∀ z, z = v ∨ z = c ∨ z ∈ xs ∨ z = q ∨ z ∈ ys ∨ z = a → z ∈ v :: ((c :: xs) ++ q :: (ys ++ [a])) := by
    intro z; simp
  have nvc : v ≠ c := hn'.1.1
  have nva : v ≠ a := hn'.1.2.2.2.2
  have nvq : v ≠ q := hn'.1.2.2.1
  have ncq : c ≠ q := hn'.2.1.2.1
  have nca : c ≠ a := hn'.2.1.2.2.2
  have nqa : q ≠ a := hn'.2.2.2.1.1.2
  have S : 0 < triArea2 v c q := lt_of_le_of_ne iq.1 (hs.gp v (mem v (by tauto)) c (mem c (by tauto)) q (mem q (by tauto)) nvc nvq ncq).symm
  have T : 0 < triArea2 v q a := lt_of_le_of_ne iq.2.1 (hs.gp v (mem v (by tauto)) q (mem q (by tauto)) a (mem a (by tauto)) nvq nva nqa).symm
  have nac : triArea2 v a c < 0 := by rw [tri_swap' v c a]; exact neg_neg_of_pos hpos
  have hedges : loopEdges (v :: ((c :: xs) ++ q :: (ys ++ [a]))) =
      (v, c) :: (pathEdges (c :: ((xs ++ q :: ys) ++ [a])) ++ [(a, v)]) := by rw [← eP, loopEdges_corner]
  have hout : (v, c) ∈ loopEdges (v :: ((c :: xs) ++ q :: (ys ++ [a]))) := by rw [hedges]; exact List.mem_cons_self ..
  have hinto : (a, v) ∈ loopEdges (v :: ((c :: xs) ++ q :: (ys ++ [a]))) := by rw [hedges]; simp
  have far : ∀ p ∈ v :: ((c :: xs) ++ q :: (ys ++ [a])), p ≠ v → 0 ≤ triArea2 v c p → 0 ≤ triArea2 v p a →
      depth a v c q ≤ depth a v c p := by
    intro p hp hpv s0 t0
    by_cases hi : depth a v c p ≤ triArea2 v c a
    · have hp' : p = c ∨ p = a ∨ p ∈ xs ++ q :: ys := by
        simp only [List.mem_append, List.mem_cons, List.mem_nil_iff, or_false, List.cons_append] at hp ⊢; tauto
      rcases hp' with rfl | rfl | hp'
      · have := iq.2.2; unfold depth at *; rw [tri_self₃, zero_add]; exact this
      · have := iq.2.2; unfold depth at *; rw [tri_self₃, add_zero]; exact this
      · exact hmin p hp' ⟨s0, t0, hi⟩
    · exact (show depth a v c q ≤ _ from iq.2.2).trans (not_le.1 hi).le
  have clear : ∀ e ∈ loopEdges (v :: ((c :: xs) ++ q :: (ys ++ [a]))), ¬ Cross v q e.1 e.2 := by
    intro e he hx
    have shared : ∀ x y w : V2 K, ¬ Cross x y x w := by
      intro x y w k; have := k.1; rw [tri_self₂, zero_mul] at this; exact lt_irrefl _ this
    have e1v : e.1 ≠ v := by intro h0; rw [h0] at hx; exact shared _ _ _ hx
    have e2v : e.2 ≠ v := by intro h0; rw [h0] at hx; exact shared _ _ _ hx.swap'
    have m12 := mem_of_loopEdges he
    exact no_block S T iq.2.2 (fun k => hs.nocross _ hinto e he k.swap) (hs.nocross _ hout e he)
      (far _ m12.1 e1v) (far _ m12.2 e2v) hx
  have hA := simple_part hs clear
  have hsym := hs.rot (rot_cut v q (c :: xs) (ys ++ [a]))
  have clear' : ∀ e ∈ loopEdges (q :: ((ys ++ [a]) ++ v :: (c :: xs))), ¬ Cross q v e.1 e.2 := fun e he k =>
    clear e ((loopEdges_rot (rot_cut v q (c :: xs) (ys ++ [a]))).mem_iff.2 he) k.swap
  have hB := simple_part hsym clear'
  have lA := hA.level_cases (by simp only [List.length_cons, List.length_append]; omega)
  have lB := hB.level_cases (by simp only [List.length_cons, List.length_append]; omega)
  have e := level_cut (v := v) (c := c) (q := q) (a := a) (l₁ := c :: xs) (l₂ := ys ++ [a]) rfl
    (by rw [← List.cons_append, List.getLast?_append]; rfl) nac.ne
  rw [h1, cyc3_two S.ne' T.ne' nac.ne (.inl ⟨S, T⟩)] at e
  have rB : (v :: q :: (ys ++ [a])) ~r (q :: ((ys ++ [a]) ++ [v])) := isRotated_append (l := [v]) (l' := q :: (ys ++ [a]))
  have e' : level (v :: q :: (ys ++ [a])) = level (q :: ((ys ++ [a]) ++ [v])) :=
    (hB.level_rot (by simp only [List.length_cons, List.length_append]; omega) rB.symm).symm
  refine ⟨xs, q, ys, rfl, iq, hmin, S, T, hs, by simp, by simp, clear, ?_, ?_⟩
  · omega
  · omega

theorem exists_cut {l : List (V2 K)} (hs : Simple l) (hl : 4 ≤ l.length) (h1 : level l = 1) :
    ∃ s t X Y, l ~r s :: (X ++ t :: Y) ∧ Cut s t X Y := by
  obtain ⟨v, c, m, a, hr, hb⟩ := exists_bottom hs.nodup (by omega)
  have hlev := hs.level_rot (by omega) hr
  have hpos : 0 < triArea2 v c a := bef_bottom (hb a (by simp)) (by rw [← level_bottom hb, ← hlev, h1])
  by_cases hin : ∃ z ∈ m, Inside a v c z
  · obtain ⟨xs, q, ys, rfl, _, _, _, _, hc⟩ := nearest_cut (hs.rot hr) (hlev ▸ h1) hpos hin
    refine ⟨v, q, c :: xs, ys ++ [a], ?_, hc⟩
    simpa using hr
  · have hear : Ear (v :: c :: (m ++ [a])) a v c := by
      refine ⟨by rw [loopEdges_corner]; simp, by rw [loopEdges_corner]; simp, hpos, fun z hz h1 h2 h3 hi => hin ⟨z, ?_, hi⟩⟩
      simp only [List.mem_cons, List.mem_append, List.mem_nil_iff, or_false] at hz
      tauto
    refine ⟨c, a, m, [v], hr.trans ?_, (hear.rot hr.symm).cut hs hl h1 hr⟩
    have := isRotated_append (l := [v]) (l' := c :: (m ++ [a]))
    simpa using this

theorem Cut.ear {s t a v c : V2 K} {X Y : List (V2 K)} (h : Cut s t X Y) (he : Ear (s :: (X ++ [t])) a v c)
    (hvs : v ≠ s) (hvt : v ≠ t) : Ear (s :: (X ++ t :: Y)) a v c := by
  have sub : ∀ e ∈ loopEdges (s :: (X ++ [t])), e ≠ (t, s) → e ∈ loopEdges (s :: (X ++ t :: Y)) := by
    intro e he hne
    rw [loopEdges_close, List.mem_append, List.mem_singleton] at he
    rw [loopEdges_join, List.mem_append]
    exact .inl (he.resolve_right hne)
  refine ⟨sub _ he.into ?_, sub _ he.out ?_, he.pos, fun z hz h1 h2 h3 hi => ?_⟩
  · intro h0; cases h0; exact hvs rfl
  · intro h0; cases h0; exact hvt rfl
  · by_cases hzA : z ∈ s :: (X ++ [t])
    · exact he.free z hzA h1 h2 h3 hi
    · have hzY : z ∈ Y := by
        simp only [List.mem_cons, List.mem_append, List.mem_nil_iff, or_false, not_or] at hz hzA
        tauto
      have w0 := h.outside z hzY
      have lx : 1 ≤ X.length := List.length_pos_iff.2 h.nX
      have w1 := he.wind_inside h.simpleA (by simp; omega) h.lA hi (by
        intro p hp q hq hpq
        have mA : ∀ z ∈ s :: (X ++ [t]), z ∈ s :: (X ++ t :: Y) := by
          intro z hz
          simp only [List.mem_cons, List.mem_append, List.mem_nil_iff, or_false] at hz ⊢
          tauto
        exact h.simple.gp p (mA p hp) q (mA q hq) z hz hpq (fun h0 => hzA (h0 ▸ hp)) (fun h0 => hzA (h0 ▸ hq)))
      omega

theorem exists_ear_aux (n : Nat) : ∀ l : List (V2 K), l.length ≤ n → Simple l → 3 ≤ l.length → level l = 1 →
    ∀ e ∈ loopEdges l, ∃ a v c, Ear l a v c ∧ v ≠ e.1 ∧ v ≠ e.2 := by
  induction n with
  | zero => intro l h0 _ h3; omega
  | succ n ih =>
    intro l hn hs hl h1 e he
    by_cases h4 : 4 ≤ l.length
    · obtain ⟨s, t, X, Y, hr, hc⟩ := exists_cut hs h4 h1
      have hlen := hr.perm.length_eq
      have he' := (loopEdges_rot hr).mem_iff.1 he
      have key : ∀ s t X Y, l ~r s :: (X ++ t :: Y) → Cut s t X Y → e ∈ pathEdges (t :: (Y ++ [s])) →
          ∃ a v c, Ear l a v c ∧ v ≠ e.1 ∧ v ≠ e.2 := by
        intro s t X Y hr hc he
        have hlen := hr.perm.length_eq
        have lx : 1 ≤ X.length := List.length_pos_iff.2 hc.nX
        have ly : 1 ≤ Y.length := List.length_pos_iff.2 hc.nY
        simp only [List.length_cons, List.length_append] at hlen
        obtain ⟨a, v, c, hear, hv1, hv2⟩ := ih (s :: (X ++ [t])) (by simp; omega) hc.simpleA (by simp; omega) hc.lA (t, s)
          (by rw [loopEdges_close]; simp)
        refine ⟨a, v, c, (hc.ear hear hv2 hv1).rot hr.symm, ?_⟩
        have hvX : v ∈ X := by
          have := (mem_of_loopEdges hear.out).1
          simp only [List.mem_cons, List.mem_append, List.mem_nil_iff, or_false] at this
          rcases this with h0 | h0 | h0
          · exact absurd h0 hv2
          · exact h0
          · exact absurd h0 hv1
        have hvn : v ∉ t :: (Y ++ [s]) := by
          intro hm
          have hnd := hc.simple.nodup
          simp only [List.nodup_cons, List.nodup_append, List.mem_append, List.mem_cons, not_or] at hnd
          simp only [List.mem_cons, List.mem_append, List.mem_nil_iff, or_false] at hm
          rcases hm with h0 | h0 | h0
          · exact hv1 h0
          · exact hnd.2.2.2 v hvX v (.inr h0) rfl
          · exact hv2 h0
        have m12 := mem_of_pathEdges he
        exact ⟨fun h0 => hvn (h0 ▸ m12.1), fun h0 => hvn (h0 ▸ m12.2)⟩
      rw [loopEdges_join, List.mem_append] at he'
      rcases he' with he' | he'
      · exact key t s Y X (hr.trans (rot_cut s t X Y)) hc.symm he'
      · exact key s t X Y hr hc he'
    · obtain ⟨t, ht⟩ := rot_of_mem (mem_of_loopEdges he).1
      have hlen := ht.perm.length_eq
      obtain ⟨c, m, a, rfl⟩ := exists_form (l := t) (by simp at hlen; omega)
      have : m = [] := by
        apply List.length_eq_zero_iff.1; simp at hlen; omega
      subst this
      have hs' := hs.rot ht
      have he' := (loopEdges_rot ht).mem_iff.1 he
      have hlev := hs.level_rot hl ht
      obtain ⟨x, y⟩ := e
      have hnd := hs'.nodup
      simp at hnd
      have ed : loopEdges ([x, c, a] : List (V2 K)) = [(x, c), (c, a), (a, x)] := rfl
      have hy : y = c := by
        rw [show x :: c :: ([] ++ [a]) = [x, c, a] from rfl, ed] at he'
        simp at he'
        tauto
      subst hy
      have hpos : 0 < triArea2 x y a := by
        have h0 := hs'.gp x (by simp) y (by simp) a (by simp) hnd.1.1 hnd.1.2 hnd.2
        have := level_tri h0
        rw [show [x, y, a] = x :: y :: ([] ++ [a]) from rfl, ← hlev, h1] at this
        by_contra hn
        rw [if_neg hn] at this
        cases this
      refine ⟨y, a, x, Ear.rot ⟨?_, ?_, by rw [tri_rot' x y a]; exact hpos, ?_⟩ ht.symm, Ne.symm hnd.1.2, Ne.symm hnd.2⟩
      · rw [show x :: y :: ([] ++ [a]) = [x, y, a] from rfl, ed]; simp
      · rw [show x :: y :: ([] ++ [a]) = [x, y, a] from rfl, ed]; simp
      · intro z hz h1 h2 h3
        simp at hz
        tauto

/-- **Ears.** A simple polygon of level one has an ear whose apex is not on a given edge. -/
theorem exists_ear {l : List (V2 K)} (hs : Simple l) (hl : 3 ≤ l.length) (h1 : level l = 1) {e : V2 K × V2 K}
    (he : e ∈ loopEdges l) : ∃ a v c, Ear l a v c ∧ v ≠ e.1 ∧ v ≠ e.2 :=
  exists_ear_aux l.length l le_rfl hs hl h1 e he

end Geom3d.Winding
