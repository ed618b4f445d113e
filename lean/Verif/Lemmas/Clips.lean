import Verif.Lemmas.EarExists

/-!
# Orientation of simple polygons, reflex vertices in corners, and tilings by clipped ears
-/

namespace Geom3d.Winding
open Spec List

variable {K : Type} [Field K] [LinearOrder K] [IsStrictOrderedRing K]

set_option linter.unusedSectionVars false

/-! ### Reflex vertices -/

theorem depth_corner (a v c p q r : V2 K) : triArea2 q r p * (depth a v c v - depth a v c q) =
    triArea2 q v p * (depth a v c r - depth a v c q) + triArea2 q r v * (depth a v c p - depth a v c q) := by
  unfold depth triArea2; ring

set_option maxHeartbeats 2000000 in
/-- **Reflex.** If some vertex lies in the triangle of a left-turning corner, then a right-turning one does. -/
theorem concave_inside {l : List (V2 K)} {a v c z : V2 K} (hs : Simple l) (hl : 3 ≤ l.length) (h1 : level l = 1)
    (hinto : (a, v) ∈ loopEdges l) (hout : (v, c) ∈ loopEdges l) (hpos : 0 < triArea2 v c a) (hz : z ∈ l) (hza : z ≠ a)
    (hzv : z ≠ v) (hzc : z ≠ c) (hi : Inside a v c z) :
    ∃ p q r, (p, q) ∈ loopEdges l ∧ (q, r) ∈ loopEdges l ∧ triArea2 p q r < 0 ∧ q ≠ a ∧ q ≠ v ∧ q ≠ c ∧ Inside a v c q := by
  obtain ⟨m, hm⟩ := corner_form hs.nodup hl hinto hout
  have hlev := hs.level_rot hl hm
  have hs' := hs.rot hm
  have hzm : z ∈ m := by
    have := hm.perm.mem_iff.1 hz
    simp only [List.mem_cons, List.mem_append, List.mem_nil_iff, or_false] at this
    tauto
  obtain ⟨xs, q, ys, rfl, iq, hmin, S, T, hcut⟩ := nearest_cut hs' (by rw [← hlev]; exact h1) hpos ⟨z, hzm, hi⟩
  have hr : l ~r v :: ((c :: xs) ++ q :: (ys ++ [a])) := by simpa using hm
  have ep := loopEdges_rot hr
  obtain ⟨X', p, hX⟩ : ∃ X' p, c :: xs = X' ++ [p] := by
    rcases List.eq_nil_or_concat (c :: xs) with h0 | ⟨m, a, h0⟩
    · cases h0
    · exact ⟨m, a, by rw [h0, List.concat_eq_append]⟩
  obtain ⟨r, Y', hY⟩ : ∃ r Y', ys ++ [a] = r :: Y' := List.exists_cons_of_ne_nil (by simp)
  have hpq : (p, q) ∈ loopEdges (v :: ((c :: xs) ++ q :: (ys ++ [a]))) := by
    rw [loopEdges_join, hX]
    apply List.mem_append_left
    have : v :: (X' ++ [p] ++ [q]) = (v :: X') ++ [p, q] := by simp
    rw [this, pathEdges_concat]
    simp
  have hqr : (q, r) ∈ loopEdges (v :: ((c :: xs) ++ q :: (ys ++ [a]))) := by
    rw [loopEdges_join, hY]
    apply List.mem_append_right
    rw [List.cons_append, pathEdges_cons]
    exact List.mem_cons_self ..
  obtain ⟨hcyc, t1, t2, t3⟩ := hcut.cyc (y := r) (p := p) (by rw [hY]; rfl) (by rw [hX]; simp)
  have hP := hcut.simple
  have hn' := hP.nodup
  simp only [List.nodup_cons, List.nodup_append, List.mem_append, List.mem_cons, List.mem_nil_iff, or_false, not_or,
    List.cons_append] at hn'
  have mv : v ∈ v :: ((c :: xs) ++ q :: (ys ++ [a])) := List.mem_cons_self ..
  have hout' := ep.mem_iff.1 hout
  have hinto' := ep.mem_iff.1 hinto
  refine ⟨p, q, r, ep.mem_iff.2 hpq, ep.mem_iff.2 hqr, ?_, hn'.2.2.2.1.1.2, Ne.symm hn'.1.2.2.1, Ne.symm hn'.2.1.2.1, iq⟩
  by_contra hnn
  have hpr : triArea2 q p r < 0 := by
    rw [tri_swap p q r]
    refine lt_of_le_of_ne (neg_nonpos.2 (not_lt.1 hnn)) ?_
    rw [← tri_swap p q r]; exact t3
  obtain ⟨b1, b2⟩ := between_of_cyc3 t1 t2 hpr hcyc
  have near : ∀ w e, e ∈ loopEdges (v :: ((c :: xs) ++ q :: (ys ++ [a]))) → (e = (w, q) ∨ e = (q, w)) → w ≠ v → w ≠ q →
      depth a v c q ≤ depth a v c w := by
    intro w e he hew hwv hwq
    have mw : w ∈ v :: ((c :: xs) ++ q :: (ys ++ [a])) := by
      have := mem_of_loopEdges he
      rcases hew with rfl | rfl
      · exact this.1
      · exact this.2
    have mq : q ∈ v :: ((c :: xs) ++ q :: (ys ++ [a])) := by simp
    by_contra hlt
    rw [not_le] at hlt
    have hx : ∀ f ∈ loopEdges (v :: ((c :: xs) ++ q :: (ys ++ [a]))), ¬ Cross f.1 f.2 q w := by
      intro f hf k
      rcases hew with rfl | rfl
      · exact hP.nocross f hf _ he k.swap'
      · exact hP.nocross f hf _ he k
    have g := no_exit S T iq.2.2 (fun k => hx _ hinto' k.swap) (hx _ hout')
      (hP.gp q mq w mw v mv hwq.symm (Ne.symm hn'.1.2.2.1) hwv) hlt
    have iw : Inside a v c w := ⟨g.1, g.2, (hlt.le.trans iq.2.2 :)⟩
    have hw : w = c ∨ w = a ∨ w ∈ xs ++ q :: ys := by
      simp only [List.mem_append, List.mem_cons, List.mem_nil_iff, or_false, List.cons_append] at mw ⊢; tauto
    rcases hw with rfl | rfl | hw
    · have := iq.2.2; unfold depth at hlt; rw [tri_self₃, zero_add] at hlt; linarith
    · have := iq.2.2; unfold depth at hlt; rw [tri_self₃, add_zero] at hlt; linarith
    · exact absurd (hmin w hw iw) (not_le.2 hlt)
  have pX : p ∈ c :: xs := by rw [hX]; simp
  have rY : r ∈ ys ++ [a] := by rw [hY]; exact List.mem_cons_self ..
  have pv : p ≠ v := by
    rintro rfl; rcases List.mem_cons.1 pX with h0 | h0
    · exact hn'.1.1 h0
    · exact hn'.1.2.1 h0
  have rv : r ≠ v := by
    rintro rfl; rcases List.mem_append.1 rY with h0 | h0
    · exact hn'.1.2.2.2.1 h0
    · exact hn'.1.2.2.2.2 (List.mem_singleton.1 h0)
  have pq : p ≠ q := by
    rintro rfl; rw [tri_self₂] at b2; exact lt_irrefl _ b2
  have rq : r ≠ q := by
    rintro rfl; rw [tri_self₁] at b1; exact lt_irrefl _ b1
  have np := near p _ hpq (.inl rfl) pv pq
  have nr := near r _ hqr (.inr rfl) rv rq
  have id := depth_corner a v c p q r
  have d0 : depth a v c v = 0 := by unfold depth; rw [tri_self₂, tri_self₁, add_zero]
  have dq : 0 < depth a v c q := by unfold depth; linarith
  have qrp : 0 < triArea2 q r p := by rw [tri_swap' q p r]; exact neg_pos.2 hpr
  rw [d0] at id
  have k1 := mul_pos qrp dq
  have k2 := mul_nonneg b2.le (sub_nonneg.2 nr)
  have k3 := mul_nonneg b1.le (sub_nonneg.2 np)
  linarith

/-! ### Orientation -/

theorem area2_join (s t : V2 K) (X Y : List (V2 K)) :
    area2 (s :: (X ++ t :: Y)) = area2 (s :: (X ++ [t])) + area2 (t :: (Y ++ [s])) := by
  unfold area2
  rw [loopEdges_join, loopEdges_close, loopEdges_close]
  simp only [List.map_append, List.sum_append, List.map_cons, List.map_nil, List.sum_cons, List.sum_nil, cross2]
  ring

theorem area2_rot {l l' : List (V2 K)} (h : l ~r l') : area2 l = area2 l' := area2_perm (loopEdges_rot h)

theorem area2_tri (x y z : V2 K) : area2 [x, y, z] = triArea2 x y z := by
  have ed : loopEdges ([x, y, z] : List (V2 K)) = [(x, y), (y, z), (z, x)] := rfl
  unfold area2
  rw [ed]
  simp only [List.map_cons, List.map_nil, List.sum_cons, List.sum_nil, cross2, triArea2]
  ring

theorem area_pos_aux (n : Nat) : ∀ l : List (V2 K), l.length ≤ n → Simple l → 3 ≤ l.length → level l = 1 → 0 < area2 l := by
  induction n with
  | zero => intro l h0 _ h3; omega
  | succ n ih =>
    intro l hn hs hl h1
    by_cases h4 : 4 ≤ l.length
    · obtain ⟨s, t, X, Y, hr, hc⟩ := exists_cut hs h4 h1
      have hlen := hr.perm.length_eq
      have lx : 1 ≤ X.length := List.length_pos_iff.2 hc.nX
      have ly : 1 ≤ Y.length := List.length_pos_iff.2 hc.nY
      simp only [List.length_cons, List.length_append] at hlen
      rw [area2_rot hr, area2_join]
      have a1 := ih (s :: (X ++ [t])) (by simp; omega) hc.simpleA (by simp; omega) hc.lA
      have a2 := ih (t :: (Y ++ [s])) (by simp; omega) hc.symm.simpleA (by simp; omega) hc.lB
      linarith
    · match l, hl, h4 with
      | [x, y, z], _, _ =>
        have hnd := hs.nodup
        simp at hnd
        have h0 := hs.gp x (by simp) y (by simp) z (by simp) hnd.1.1 hnd.1.2 hnd.2
        rw [area2_tri]
        have := level_tri h0
        rw [h1] at this
        by_contra hn
        rw [if_neg hn] at this
        cases this
      | x :: y :: z :: w :: t, _, h4 => simp at h4

theorem Simple.reverse {l : List (V2 K)} (h : Simple l) : Simple l.reverse where
  nodup := List.nodup_reverse.2 h.nodup
  gp a ha b hb c hc := h.gp a (List.mem_reverse.1 ha) b (List.mem_reverse.1 hb) c (List.mem_reverse.1 hc)
  nocross e he f hf k := by
    rw [(loopEdges_reverse l).mem_iff, List.mem_map] at he hf
    obtain ⟨e', he', rfl⟩ := he
    obtain ⟨f', hf', rfl⟩ := hf
    exact h.nocross e' he' f' hf' k.swap.swap'

theorem level_reverse {l : List (V2 K)} (h : Simple l) (hl : 3 ≤ l.length) : level l.reverse = 1 - level l := by
  obtain ⟨v, c, m, a, hr, hb⟩ := exists_bottom h.nodup hl
  have hr2 : (v :: c :: (m ++ [a])).reverse ~r v :: a :: (m.reverse ++ [c]) := by
    have := isRotated_append (l := a :: (m.reverse ++ [c])) (l' := [v])
    simpa using this
  rw [h.level_rot hl hr, level_bottom hb, h.reverse.level_rot (by simpa using hl) (hr.reverse.trans hr2),
    level_bottom (fun p hp => hb p (by
      simp only [List.mem_cons, List.mem_append, List.mem_reverse, List.mem_nil_iff, or_false] at hp ⊢; tauto))]
  have hs := h.rot hr
  have hn := hs.nodup
  have nvc : v ≠ c := by rintro rfl; simp at hn
  have nva : v ≠ a := by rintro rfl; simp at hn
  have nca : c ≠ a := by rintro rfl; simp at hn
  have := bef_add (hs.gp v (by simp) c (by simp) a (by simp) nvc nva nca)
  omega

/-- **Orientation.** A simple polygon has level one exactly if its signed area is positive. -/
theorem level_of_area {l : List (V2 K)} (h : Simple l) (hl : 3 ≤ l.length) (ha : 0 < area2 l) : level l = 1 := by
  rcases h.level_cases hl with h0 | h0
  · have h1 := area_pos_aux l.reverse.length l.reverse le_rfl h.reverse (by simpa using hl)
      (by rw [level_reverse h hl, h0]; rfl)
    have e : area2 l.reverse = - area2 l := by
      unfold area2
      rw [((loopEdges_reverse l).map _).sum_eq, List.map_map]
      generalize loopEdges l = es
      induction es with
      | nil => simp
      | cons e es ih =>
        rw [List.map_cons, List.sum_cons, ih, List.map_cons, List.sum_cons]
        simp only [Function.comp, Prod.fst_swap, Prod.snd_swap, cross2]
        ring
    rw [e] at h1
    linarith
  · exact h0

/-! ### Convex neighbours of a clipped ear stay convex -/

theorem Cut.next {v c a d : V2 K} {m : List (V2 K)} (h : Cut c a m [v]) (hd : m.head? = some d)
    (ht : 0 < triArea2 v c d) : 0 < triArea2 a c d := by
  obtain ⟨hc, t1, t2, t3⟩ := h.symm.cyc (y := d) (p := v) hd rfl
  have := (between_of_cyc3 t1 t2 (by rw [tri_swap v c d]; exact neg_neg_of_pos ht) hc).1
  rw [← tri_rot a c d]; exact this

theorem Cut.prev {v c a b : V2 K} {m : List (V2 K)} (h : Cut c a m [v]) (hb : m.getLast? = some b)
    (ht : 0 < triArea2 b a v) : 0 < triArea2 b a c := by
  obtain ⟨hc, t1, t2, t3⟩ := h.cyc (y := v) (p := b) rfl hb
  have := (between_of_cyc3 t1 t2 (by rw [tri_swap b a v]; exact neg_neg_of_pos ht) hc).2
  rw [← tri_rot b a c]; exact this

/-! ### Tilings -/

theorem wind_join (s t : V2 K) (X Y : List (V2 K)) (x : V2 K) :
    wind (s :: (X ++ t :: Y)) x = wind (s :: (X ++ [t])) x + wind (t :: (Y ++ [s])) x := by
  unfold wind
  rw [loopEdges_join, loopEdges_close, loopEdges_close]
  simp only [List.map_append, List.sum_append, List.map_cons, List.map_nil, List.sum_cons, List.sum_nil]
  have := up_swap x s t
  omega

theorem inside_core {A B C hv hc ha hx : K} (e : C * (hv - hx) + B * (ha - hx) + A * (hc - hx) = 0)
    (hs : 0 < A + B + C) (nA : A ≠ 0) (nB : B ≠ 0) (nC : C ≠ 0) (h : ¬ (0 ≤ A ∧ 0 ≤ B ∧ 0 ≤ C)) :
    upf hx ha hv A + (upf hx hv hc B + (upf hx hc ha C + 0)) = 0 := by
  unfold upf
  simp only [← not_le]
  rcases lt_or_gt_of_ne nA with a | a <;> rcases lt_or_gt_of_ne nB with b | b <;> rcases lt_or_gt_of_ne nC with c | c <;>
    first
    | (exfalso; linarith)
    | (refine absurd ?_ h; refine ⟨?_, ?_, ?_⟩ <;> linarith)
    | (by_cases p1 : hv ≤ hx <;> by_cases p2 : hc ≤ hx <;> by_cases p3 : ha ≤ hx <;>
        first
        | (simp [p1, p2, p3, not_le.2 a, not_le.2 b, not_le.2 c, a.le, b.le, c.le]; done)
        | (exfalso; rw [not_le] at *; nlinarith)
        | (exfalso; nlinarith))

open Classical in
theorem wind_tri {a v c x : V2 K} (hpos : 0 < triArea2 v c a) (hg : Generic [v, c, a] x) :
    wind [a, v, c] x = if Inside a v c x then 1 else 0 := by
  have nvc : v ≠ c := by rintro rfl; rw [tri_self₁] at hpos; exact lt_irrefl _ hpos
  have nva : v ≠ a := by rintro rfl; rw [tri_self₂] at hpos; exact lt_irrefl _ hpos
  have nca : c ≠ a := by rintro rfl; rw [tri_self₃] at hpos; exact lt_irrefl _ hpos
  have g1 := hg a (by simp) v (by simp) nva.symm
  have g2 := hg v (by simp) c (by simp) nvc
  have g3 := hg c (by simp) a (by simp) nca
  have ed : loopEdges ([a, v, c] : List (V2 K)) = [(a, v), (v, c), (c, a)] := rfl
  have e1 : triArea2 v x a = triArea2 a v x := tri_rot a v x
  have us := bary_sum a v c x
  by_cases hi : Inside a v c x
  · rw [if_pos hi]
    have hr : [a, v, c] ~r [v, c, a] := isRotated_append (l := [a]) (l' := [v, c])
    rw [wind_perm (loopEdges_rot hr)]
    have hgp : ∀ p ∈ [v, c, a], ∀ q ∈ [v, c, a], ∀ r ∈ [v, c, a], p ≠ q → p ≠ r → q ≠ r → triArea2 p q r ≠ 0 := by
      have q1 : triArea2 c a v ≠ 0 := by rw [tri_rot v c a]; exact hpos.ne'
      have q2 : triArea2 a v c ≠ 0 := by rw [tri_rot' v c a]; exact hpos.ne'
      have q3 : triArea2 c v a ≠ 0 := by rw [tri_swap v c a]; exact neg_ne_zero.2 hpos.ne'
      have q4 : triArea2 v a c ≠ 0 := by rw [tri_swap' v c a]; exact neg_ne_zero.2 hpos.ne'
      have q5 : triArea2 a c v ≠ 0 := by rw [tri_swap'' v c a]; exact neg_ne_zero.2 hpos.ne'
      intro p hp q hq r hr h1 h2 h3
      simp only [List.mem_cons, List.mem_nil_iff, or_false] at hp hq hr
      rcases hp with rfl | rfl | rfl <;> rcases hq with rfl | rfl | rfl <;> rcases hr with rfl | rfl | rfl <;>
        first | exact absurd rfl h1 | exact absurd rfl h2 | exact absurd rfl h3 | exact hpos.ne' | assumption
    have hsimple : Simple [v, c, a] := by
      refine ⟨by simp [nvc, nva, nca], hgp, ?_⟩
      have sh1 : ∀ x y w : V2 K, ¬ Cross x y x w := by
        intro x y w k; have := k.1; rw [tri_self₂, zero_mul] at this; exact lt_irrefl _ this
      have ed' : loopEdges ([v, c, a] : List (V2 K)) = [(v, c), (c, a), (a, v)] := rfl
      intro e he f hf k
      rw [ed'] at he hf
      simp only [List.mem_cons, List.mem_nil_iff, or_false] at he hf
      rcases he with rfl | rfl | rfl <;> rcases hf with rfl | rfl | rfl <;>
        first
        | exact sh1 _ _ _ k
        | exact sh1 _ _ _ k.swap
        | exact sh1 _ _ _ k.swap'
    have hear : Ear [v, c, a] a v c := by
      refine ⟨by simp [loopEdges, pathEdges], by simp [loopEdges, pathEdges], hpos, ?_⟩
      intro z hz h1 h2 h3
      simp only [List.mem_cons, List.mem_nil_iff, or_false] at hz
      tauto
    exact hear.wind_inside hsimple (by simp) (by rw [level_tri hpos.ne', if_pos hpos]) hi hg
  · rw [if_neg hi]
    unfold wind
    rw [ed]
    simp only [List.map_cons, List.map_nil, List.sum_cons, List.sum_nil]
    refine inside_core (A := triArea2 a v x) (B := triArea2 v c x) (C := triArea2 c a x) ?_ ?_ g1 g2 g3 ?_
    · unfold triArea2; ring
    · linarith
    · rintro ⟨h1, h2, h3⟩
      exact hi ⟨h2, by rw [e1]; exact h1, by linarith⟩

/-- The triangles obtained by clipping ears one after the other. -/
inductive Clips : List (V2 K) → List (V2 K × V2 K × V2 K) → Prop
  | last {l : List (V2 K)} {a v c : V2 K} (hr : l ~r [v, c, a]) (hpos : 0 < triArea2 v c a) : Clips l [(a, v, c)]
  | ear {l l' m : List (V2 K)} {a v c : V2 K} {ts : List (V2 K × V2 K × V2 K)} (h : Ear l a v c)
      (hr : l ~r v :: c :: (m ++ [a])) (hr' : l' ~r c :: (m ++ [a])) (hm : m ≠ []) (ht : Clips l' ts) :
      Clips l ((a, v, c) :: ts)

theorem Clips.length {l : List (V2 K)} {ts : List (V2 K × V2 K × V2 K)} (h : Clips l ts) : ts.length + 2 = l.length := by
  induction h with
  | last hr => rw [hr.perm.length_eq]; rfl
  | ear _ hr hr' _ _ ih =>
    have h1 := hr.perm.length_eq
    have h2 := hr'.perm.length_eq
    simp only [List.length_cons, List.length_append] at *
    omega

theorem Clips.pos {l : List (V2 K)} {ts : List (V2 K × V2 K × V2 K)} (h : Clips l ts) :
    ∀ t ∈ ts, 0 < triArea2 t.1 t.2.1 t.2.2 := by
  induction h with
  | last hr hpos =>
    intro t ht
    rw [List.mem_singleton] at ht
    subst ht
    rw [tri_rot']; exact hpos
  | ear h hr hr' _ _ ih =>
    intro t ht
    rcases List.mem_cons.1 ht with rfl | ht
    · show 0 < triArea2 _ _ _
      rw [tri_rot']; exact h.pos
    · exact ih t ht

theorem Clips.area {l : List (V2 K)} {ts : List (V2 K × V2 K × V2 K)} (h : Clips l ts) :
    (ts.map fun t => triArea2 t.1 t.2.1 t.2.2).sum = area2 l := by
  induction h with
  | @last l a v c hr hpos =>
    rw [area2_rot hr, area2_tri]
    simp only [List.map_cons, List.map_nil, List.sum_cons, List.sum_nil, add_zero]
    exact tri_rot' v c a
  | @ear l l' m a v c ts h hr hr' _ _ ih =>
    have e : (v :: c :: (m ++ [a])) ~r (c :: (m ++ a :: [v])) := by
      have := isRotated_append (l := [v]) (l' := c :: (m ++ [a]))
      simpa using this
    rw [List.map_cons, List.sum_cons, ih, area2_rot hr, area2_rot e, area2_join, ← area2_rot hr']
    show triArea2 a v c + _ = _ + area2 [a, v, c]
    rw [area2_tri, add_comm]

theorem Generic.sub {l l' : List (V2 K)} {x : V2 K} (h : Generic l x) (hs : ∀ z ∈ l', z ∈ l) : Generic l' x :=
  fun a ha b hb => h a (hs a ha) b (hs b hb)

open Classical in
/-- **Tiling.** The clipped triangles cover exactly the inside of the polygon, each point once. -/
theorem Clips.tiling {l : List (V2 K)} {ts : List (V2 K × V2 K × V2 K)} (h : Clips l ts) (hs : Simple l) (h1 : level l = 1)
    (hl : 3 ≤ l.length) {x : V2 K} (hg : Generic l x) :
    (wind l x = 0 ∨ wind l x = 1) ∧ ((ts.filter fun t => Inside t.1 t.2.1 t.2.2 x).length : ℤ) = wind l x := by
  induction h with
  | @last l a v c hr hpos =>
    have hr2 : [v, c, a] ~r [a, v, c] := isRotated_append (l := [v, c]) (l' := [a])
    have := wind_tri hpos (hg.sub fun z hz => hr.perm.mem_iff.2 hz)
    rw [wind_perm (loopEdges_rot (hr.trans hr2)), this]
    by_cases hi : Inside a v c x
    · simp [hi]
    · simp [hi]
  | @ear l l' m a v c ts h hr hr' hm ht ih =>
    have hlen := hr.perm.length_eq
    have lm : 1 ≤ m.length := List.length_pos_iff.2 hm
    simp only [List.length_cons, List.length_append] at hlen
    have hcut := h.cut hs (by simp at hlen; omega) h1 hr
    have hs' : Simple l' := hcut.simpleA.rot hr'.symm
    have hlen' := hr'.perm.length_eq
    have h1' : level l' = 1 := by
      rw [← hcut.lA]; exact (hcut.simpleA.level_rot (by simp; omega) hr'.symm).symm
    have hg' : Generic l' x := hg.sub fun z hz => by
      have := hr'.perm.mem_iff.1 hz
      exact hr.perm.mem_iff.2 (List.mem_cons_of_mem _ this)
    obtain ⟨i1, i2⟩ := ih hs' h1' (by simp at hlen'; omega) hg'
    have e : (v :: c :: (m ++ [a])) ~r (c :: (m ++ a :: [v])) := by
      have := isRotated_append (l := [v]) (l' := c :: (m ++ [a]))
      simpa using this
    have ew : wind l x = wind l' x + wind [a, v, c] x := by
      rw [wind_perm (loopEdges_rot (hr.trans e)), wind_join, ← wind_perm (loopEdges_rot hr')]; rfl
    have hgt : Generic [v, c, a] x := hg.sub fun z hz => by
      apply hr.perm.mem_iff.2
      simp only [List.mem_cons, List.mem_append, List.mem_nil_iff, or_false] at hz ⊢
      tauto
    rw [wind_tri h.pos hgt] at ew
    by_cases hi : Inside a v c x
    · have w1 := h.wind_inside hs hl h1 hi hg
      rw [if_pos hi] at ew
      refine ⟨.inr w1, ?_⟩
      rw [List.filter_cons_of_pos (by simpa using hi), List.length_cons]
      push_cast
      omega
    · rw [if_neg hi, add_zero] at ew
      rw [ew]
      refine ⟨i1, ?_⟩
      rw [List.filter_cons_of_neg (by simpa using hi)]
      exact i2

end Geom3d.Winding
