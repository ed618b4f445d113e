import Verif.Lemmas.WrittenPath
import Verif.Lemmas.ConvexCover
import Verif.Props.Backward

/-!
# Convex faces are filled exactly if no edge is used against its direction (C141)

A planar face whose corners form a convex polygon is read with the two ends of each edge in the order in which the edge is
written (C86, C139). Here: `trim` (`src/surface/plane.rs:25-91`) covers such a face with counter-clockwise triangles if and only
if the loop uses no edge against its direction. In the boundary of a solid half of all uses are against the direction; hence
no solid with convex faces is converted without a gap or a triangle that is turned over.
-/

namespace Geom3d
open Spec List

set_option linter.unusedSectionVars false

namespace ConvexFaces
open Written ConvexCover Winding

section
variable {F : Type} [Add F] [Sub F] [Mul F] [Div F] [Neg F] [Zero F] [One F] [NatCast F] [LT F] [DecidableLT F]
  [LE F] [DecidableLE F] [Env F]

/-- What the numbers make of vertex `i` of a closed polygon. -/
def turnAt (pts : List (V2 F)) (i : Nat) : Convexity :=
  computeConvexity (pts.getD ((pts.length + i - 1) % pts.length) 0) (pts.getD i 0) (pts.getD ((i + 1) % pts.length) 0)

theorem convexity_lists (pts : List (V2 F)) : computeVertexConvexity pts = .ok
    ((List.range pts.length).filter fun i => decide (turnAt pts i ≠ .colinear),
      (List.range pts.length).filter fun i => decide (turnAt pts i = .concave)) := by
  unfold computeVertexConvexity
  obtain ⟨s, h1, h2⟩ := forRange_inv (a := 0) (b := pts.length) (s := (([], []) : List Nat × List Nat))
    (body := fun (vertices, concave) i => do
      let a ← idx pts ((pts.length + i - 1) % pts.length)
      let b ← idx pts i
      let c ← idx pts ((i + 1) % pts.length)
      match computeConvexity a b c with
      | .convex => pure (vertices ++ [i], concave)
      | .concave => pure (vertices ++ [i], concave ++ [i])
      | .colinear => pure (vertices, concave))
    (fun i s => s = ((List.range i).filter fun i => decide (turnAt pts i ≠ .colinear),
      (List.range i).filter fun i => decide (turnAt pts i = .concave)))
    (Nat.zero_le _) rfl (by
      intro i s _ hi hs
      subst hs
      have hpos : 0 < pts.length := by omega
      have ea : (pts.length + i - 1) % pts.length < pts.length := Nat.mod_lt _ hpos
      have ec : (i + 1) % pts.length < pts.length := Nat.mod_lt _ hpos
      have ht : turnAt pts i = computeConvexity (pts[(pts.length + i - 1) % pts.length]'ea) (pts[i]'hi) (pts[(i + 1) % pts.length]'ec) := by
        unfold turnAt
        rw [getD_of_lt _ ea, getD_of_lt _ hi, getD_of_lt _ ec]
      simp only [idx_ok ea, idx_ok hi, idx_ok ec, ok_bind]
      rw [filter_range_succ, filter_range_succ, ← ht]
      rcases hcv : turnAt pts i <;> exact ⟨_, rfl, by simp⟩)
  rw [h2] at h1
  exact h1

theorem trim_cases {p : Plane F} {o : TrimOracle F} {bounds : List (EdgeLoop F)} {l : List (V3 F)} {k : Nat}
    (hc : collectLoops o bounds = .ok (l, [0, k])) {V C : List Nat} (hv : computeVertexConvexity (l.map p.project) = .ok (V, C))
    {mesh : TriangleMesh F} (h : p.trim o bounds = .ok mesh) :
    (V.length = C.length ∧ mesh = TriangleMesh.new) ∨
    (V.length ≠ C.length ∧ C = [] ∧ ∃ T, fanTriangles l.length = .ok T ∧ mesh = ⟨l ++ [sumV3 l / (Nat.cast l.length : F)], [], T⟩) ∨
    (V.length ≠ C.length ∧ C ≠ [] ∧ ∃ T, triangulatePolygon o.bs o.earFuel (l.map p.project) V C = .ok T ∧ mesh = ⟨l, [], T⟩) := by
  unfold Plane.trim at h
  rw [hc, ok_bind] at h
  simp only [List.length_cons, List.length_nil, Nat.zero_add, if_true] at h
  rw [hv, ok_bind] at h
  simp only at h
  split at h
  · rename_i h1
    cases h
    exact .inl ⟨h1, rfl⟩
  · rename_i h1
    split at h
    · rename_i h2
      rw [bind_eq_ok] at h
      obtain ⟨T, h3, h4⟩ := h
      cases h4
      exact .inr (.inl ⟨h1, h2, T, h3, rfl⟩)
    · rename_i h2
      rw [bind_eq_ok] at h
      obtain ⟨T, h3, h4⟩ := h
      cases h4
      exact .inr (.inr ⟨h1, h2, T, h3, rfl⟩)

/-! ### Beginning the polygon elsewhere -/

theorem rotate_getD {α : Type} {d : α} {l M : List α} {k : Nat} (h : l.rotate k = M) {i : Nat} (hi : i < l.length) :
    l.getD ((i + k) % l.length) d = M.getD i d := by
  subst h
  have h1 : (i + k) % l.length < l.length := Nat.mod_lt _ (by omega)
  rw [getD_of_lt _ h1, getD_of_lt _ (by rw [List.length_rotate]; exact hi), List.getElem_rotate]

theorem turnAt_rotate {R S : List (V2 F)} {k : Nat} (h : R.rotate k = S) {i : Nat} (hi : i < R.length) :
    turnAt R ((i + k) % R.length) = turnAt S i := by
  have hS : S.length = R.length := by rw [← h, List.length_rotate]
  have hpos : 0 < R.length := by omega
  unfold turnAt
  rw [hS]
  have e1 : (R.length + (i + k) % R.length - 1) % R.length = ((R.length + i - 1) % R.length + k) % R.length := by
    rw [Nat.mod_add_mod, show R.length + (i + k) % R.length - 1 = (i + k) % R.length + (R.length - 1) by omega, Nat.mod_add_mod]
    congr 1
    omega
  have e2 : ((i + k) % R.length + 1) % R.length = ((i + 1) % R.length + k) % R.length := by
    rw [Nat.mod_add_mod, Nat.mod_add_mod]
    congr 1
    omega
  rw [e1, e2, rotate_getD h (Nat.mod_lt _ hpos), rotate_getD h hi, rotate_getD h (Nat.mod_lt _ hpos)]

end

theorem shift_surj {n k x : Nat} (hx : x < n) : ∃ i, i < n ∧ (i + k) % n = x := by
  have hpos : 0 < n := by omega
  refine ⟨(x + (n - k % n)) % n, Nat.mod_lt _ hpos, ?_⟩
  rw [Nat.mod_add_mod]
  have h1 := Nat.mod_add_div k n
  have h2 := Nat.mod_lt k hpos
  have : x + (n - k % n) + k = x + n * (k / n + 1) := by
    rw [Nat.mul_add, Nat.mul_one]; omega
  rw [this, Nat.add_mul_mod_self_left, Nat.mod_eq_of_lt hx]

theorem shift_inj {n k i j : Nat} (hi : i < n) (hj : j < n) (h : (i + k) % n = (j + k) % n) : i = j := by
  have := Nat.ModEq.add_right_cancel' k h
  unfold Nat.ModEq at this
  rwa [Nat.mod_eq_of_lt hi, Nat.mod_eq_of_lt hj] at this

theorem tol_nonneg : (0 : ℝ) ≤ Env.tol := by norm_num [Env.tol]

/-! ### Loops with convex corners -/

abbrev starts (E : List (Use (V3 ℝ))) : List (V3 ℝ) := E.map fun u => u.2.1

structure Ready (p : Plane ℝ) (E : List (Use (V3 ℝ))) : Prop where
  chained : Chained (loopEdges E)
  convex : ConvexLoop Env.tol ((starts E).map p.project)
  len : 3 ≤ E.length

variable {p : Plane ℝ} {E : List (Use (V3 ℝ))}

theorem Ready.rot (h : Ready p E) {E' : List (Use (V3 ℝ))} (hr : E ~r E') : Ready p E' where
  chained e he := h.chained e ((loopEdges_rot hr).mem_iff.2 he)
  convex := convex_rot h.convex ((hr.map _).map _)
  len := by rw [← hr.perm.length_eq]; exact h.len

theorem Ready.lenQ (h : Ready p E) : 3 ≤ ((starts E).map p.project).length := by simpa using h.len

theorem Ready.nodup (h : Ready p E) : ((starts E).map p.project).Nodup := convex_nodup tol_nonneg h.convex h.lenQ

theorem Ready.inj (h : Ready p E) {a b : V3 ℝ} (ha : a ∈ starts E) (hb : b ∈ starts E) (e : p.project a = p.project b) : a = b :=
  List.inj_on_of_nodup_map h.nodup ha hb e

theorem Ready.step (h : Ready p E) {e : Use (V3 ℝ) × Use (V3 ℝ)} (he : e ∈ loopEdges E) : (e.1.2.1, e.1.2.2) ∈ loopEdges (starts E) := by
  rw [loopEdges_map, List.mem_map]
  exact ⟨e, he, by rw [h.chained e he]; rfl⟩

theorem Ready.side (h : Ready p E) {u : Use (V3 ℝ)} (hu : u ∈ E) : (u.2.1, u.2.2) ∈ loopEdges (starts E) := by
  obtain ⟨⟨v, hv⟩, -⟩ := exists_edge_from h.len hu
  exact h.step hv

theorem project_edge {e : V3 ℝ × V3 ℝ} {L : List (V3 ℝ)} (he : e ∈ loopEdges L) :
    (p.project e.1, p.project e.2) ∈ loopEdges (L.map p.project) := by
  rw [loopEdges_map, List.mem_map]
  exact ⟨e, he, rfl⟩

/-- Three consecutive corners. -/
theorem corner_area {Q : List (V2 ℝ)} (hQ : ConvexLoop Env.tol Q) (hl : 3 ≤ Q.length) {a b c : V2 ℝ} (h1 : (a, b) ∈ loopEdges Q)
    (h2 : (b, c) ∈ loopEdges Q) : CornerFacts a b c := by
  obtain ⟨m, hm⟩ := corner_form (convex_nodup tol_nonneg hQ hl) hl h1 h2
  have h3 : ConvexLoop Env.tol (a :: b :: c :: m) := convex_rot (convex_rot hQ hm) (by
    have : b :: c :: (m ++ [a]) = (b :: c :: m) ++ [a] := by simp
    rw [this]
    exact isRotated_append)
  exact cornerFacts_exact tol_nonneg (convex_from h3 (by simp))

theorem Ready.corner (h : Ready p E) {a b c : V3 ℝ} (h1 : (a, b) ∈ loopEdges (starts E)) (h2 : (b, c) ∈ loopEdges (starts E)) :
    CornerFacts (p.project a) (p.project b) (p.project c) :=
  corner_area h.convex h.lenQ (project_edge h1) (project_edge h2)

theorem Ready.next (h : Ready p E) {e : Use (V3 ℝ) × Use (V3 ℝ)} (he : e ∈ loopEdges E) :
    CornerFacts (p.project e.1.2.1) (p.project e.1.2.2) (p.project e.2.2.2) := by
  refine h.corner (h.step he) ?_
  have := h.side (mem_of_loopEdges he).2
  rwa [← h.chained e he] at this

theorem cv_back (a b : V2 ℝ) : computeConvexity a b a = .colinear := by
  have e : (b - a).perpDot (a - b) = 0 := by
    simp only [V2.perpDot, V2.sub_x, V2.sub_y]; ring
  unfold computeConvexity
  simp only []
  rw [e, if_pos]
  rw [near_zero, abs_zero]
  exact tol_nonneg

theorem cv_stay (a b : V2 ℝ) : computeConvexity a a b = .colinear := by
  have e : (a - a).perpDot (b - a) = 0 := by
    simp only [V2.perpDot, V2.sub_x, V2.sub_y]; ring
  unfold computeConvexity
  simp only []
  rw [e, if_pos]
  rw [near_zero, abs_zero]
  exact tol_nonneg

theorem Ready.ends (h : Ready p E) {u : Use (V3 ℝ)} (hu : u ∈ E) : first u ∈ starts E ∧ last u ∈ starts E := by
  have := mem_of_loopEdges (h.side hu)
  unfold first last
  dsimp only at this
  constructor <;> split <;> simp_all

theorem Ready.walk_mem (h : Ready p E) {x : V3 ℝ} (hx : x ∈ walk E) : x ∈ starts E := by
  unfold walk at hx
  rw [List.mem_flatMap] at hx
  obtain ⟨e, he, hx⟩ := hx
  have h1 := (h.ends (mem_of_loopEdges he).1).2
  have h2 := (h.ends (mem_of_loopEdges he).2).1
  unfold Written.turn at hx
  split at hx
  · rw [List.mem_singleton] at hx; rw [hx]; exact h1
  · rw [List.mem_cons, List.mem_singleton] at hx
    rcases hx with rfl | rfl
    · exact h1
    · exact h2

theorem getD_map_project {l : List (V3 ℝ)} {i : Nat} (hi : i < l.length) :
    (l.map p.project).getD i 0 = p.project (l[i]'hi) := by
  rw [getD_of_lt _ (by simpa using hi), List.getElem_map]

/-- The corners of the walk. -/
theorem Ready.turns (h : Ready p E) {i : Nat} (hi : i < (walk E).length) :
    ∃ e ∈ loopEdges E, ∃ x y z, Kind e (x, y, z) ∧
      turnAt ((walk E).map p.project) i = computeConvexity (p.project x) (p.project y) (p.project z) := by
  have hpos : 0 < (walk E).length := by omega
  have h1 : ((walk E).length + i - 1) % (walk E).length < (walk E).length := Nat.mod_lt _ hpos
  have h3 : (i + 1) % (walk E).length < (walk E).length := Nat.mod_lt _ hpos
  obtain ⟨e, he, hk⟩ := walk_corner h.chained hi (List.getElem?_eq_getElem h1) (List.getElem?_eq_getElem hi) (List.getElem?_eq_getElem h3)
  refine ⟨e, he, _, _, _, hk, ?_⟩
  unfold turnAt
  rw [List.length_map, getD_map_project h1, getD_map_project hi, getD_map_project h3]

/-! ### No two edges in a row backward: a fan with a triangle turned over -/

theorem fan_bad {l : List (V3 ℝ)} {g : V3 ℝ} {T : List Nat} (hT : fanTriangles l.length = .ok T) {a b : V3 ℝ}
    (h1 : (a, b) ∈ loopEdges l) (h2 : (b, a) ∈ loopEdges l) {Q : List (V2 ℝ)} :
    ¬ Fills Q ((l ++ [g]).map p.project) T := by
  intro hf
  have hl : 1 ≤ l.length := by
    rcases l with _ | ⟨x, l⟩
    · cases h1
    · simp
  obtain ⟨T', f1, -, f3⟩ := fanTriangles_eq hl
  rw [hT] at f1
  cases f1
  have key : ∀ {a b : V3 ℝ}, (a, b) ∈ loopEdges l → 0 < triArea2 (p.project g) (p.project a) (p.project b) := by
    intro a b hab
    have e : l = (List.range l.length).map fun j => l.getD j 0 := eq_tab_getD l 0
    rw [show loopEdges l = loopEdges ((List.range l.length).map fun j => l.getD j 0) from congrArg _ e, loopEdges_map, List.mem_map] at hab
    obtain ⟨⟨i, j⟩, hij, e2⟩ := hab
    have := hf.pos (l.length, i, j) (by rw [f3, List.mem_map]; exact ⟨(i, j), hij, rfl⟩)
    have hm := mem_of_loopEdges hij
    simp only [List.mem_range] at hm
    simp only [Prod.map_apply, Prod.mk.injEq] at e2
    rw [getD_of_lt 0 hm.1, getD_of_lt 0 hm.2] at e2
    dsimp only at this
    rw [getD_map_project (by simp), getD_map_project (by simp; omega), getD_map_project (by simp; omega)] at this
    rw [List.getElem_append_left hm.1, List.getElem_append_left hm.2, e2.1, e2.2] at this
    simpa using this
  have k1 := key h1
  have k2 := key h2
  have : triArea2 (p.project g) (p.project b) (p.project a) = - triArea2 (p.project g) (p.project a) (p.project b) := by
    simp only [triArea2]; ring
  linarith

theorem empty_bad (h : Ready p E) {P : List (V2 ℝ)} : ¬ Fills ((starts E).map p.project) P [] := by
  intro hf
  have hne : E ≠ [] := by rintro rfl; have := h.len; simp at this
  obtain ⟨u, hu⟩ := List.exists_mem_of_ne_nil E hne
  obtain ⟨t, ht, -⟩ := side_needed tol_nonneg h.convex h.lenQ hf (by simp [triples]) (project_edge (h.side hu))
  simp [triples] at ht

/-! ### Two in a row -/

theorem mem_V {pts : List (V2 ℝ)} {x : Nat} : x ∈ (List.range pts.length).filter (fun i => decide (turnAt pts i ≠ .colinear)) ↔
    x < pts.length ∧ turnAt pts x ≠ .colinear := by simp

theorem mem_C {pts : List (V2 ℝ)} {x : Nat} : x ∈ (List.range pts.length).filter (fun i => decide (turnAt pts i = .concave)) ↔
    x < pts.length ∧ turnAt pts x = .concave := by simp

theorem getD_append_mem {α : Type} {L r : List α} {d : α} {i : Nat} (h1 : L.length ≤ i) (h2 : i < (L ++ r).length) :
    (L ++ r).getD i d ∈ r := by
  rw [getD_of_lt _ h2, List.getElem_append_right h1]
  exact List.getElem_mem _

theorem run_free {z u v : Use (V3 ℝ)} {s : List (Use (V3 ℝ))} (h : Ready p (z :: u :: v :: s)) (hz : z.1 = true) (hu : u.1 = false)
    (hv : v.1 = false) {R : List (V2 ℝ)} {k : Nat} (hR : R.rotate k = (walk (z :: u :: v :: s)).map p.project)
    {bs : List Nat → Nat → Option Nat} (hbs : BinarySearch bs) {fuel : Nat} {st : EarState}
    (ht : triangulateState bs fuel R ((List.range R.length).filter fun i => decide (turnAt R i ≠ .colinear))
      ((List.range R.length).filter fun i => decide (turnAt R i = .concave)) = .ok st) :
    ∀ t ∈ triples st.triangles, ¬ EarEdge.HasSide (fun i => R.getD i 0) (p.project v.2.1) (p.project v.2.2) t := by
  set E := z :: u :: v :: s with hE
  have mu : u ∈ E := by simp [hE]
  have mv : v ∈ E := by simp [hE]
  have huv : (u, v) ∈ loopEdges E := by rw [hE]; simp [Spec.loopEdges_cons]
  have ab := h.step huv
  have hchain := h.chained _ huv
  dsimp only at ab hchain
  rw [hchain] at ab
  have bc := h.side mv
  have abc := h.corner ab bc
  have ma := (mem_of_loopEdges ab).1
  have mb := (mem_of_loopEdges bc).1
  have mc := (mem_of_loopEdges bc).2
  dsimp only at ma mb mc
  have nab : p.project u.2.1 ≠ p.project v.2.1 := fun e => by
    have := abc.abc; rw [e, cv_stay] at this; cases this
  have nac : p.project u.2.1 ≠ p.project v.2.2 := fun e => by
    have := abc.abc; rw [e, cv_back] at this; cases this
  have nbc : p.project v.2.1 ≠ p.project v.2.2 := fun e => by
    have := abc.bca; rw [e, cv_stay] at this; cases this
  have hlen : (walk E).length = R.length := by
    have := congrArg List.length hR
    rw [List.length_rotate, List.length_map] at this
    exact this.symm
  have hwl : (walk (z :: u :: v :: s)).length = R.length := hlen
  have hwm : ∀ x ∈ walk E, x ∈ starts E := fun x hx => h.walk_mem hx
  have hlab : ∀ i, i < R.length → R.getD ((i + k) % R.length) 0 = p.project ((walk E).getD i 0) := by
    intro i hi
    rw [rotate_getD hR hi, getD_map_project (by omega), getD_of_lt _ (by omega)]
  have hturn : ∀ i, i < R.length → turnAt R ((i + k) % R.length) = turnAt ((walk E).map p.project) i := fun i hi => turnAt_rotate hR hi
  have hmem : ∀ i, i < R.length → (walk E).getD i 0 ∈ starts E := by
    intro i hi
    rw [getD_of_lt _ (by omega)]
    exact hwm _ (List.getElem_mem _)
  have hbb : ∀ {x}, x ∈ starts E → p.project v.2.1 = p.project x → v.2.1 = x := h.inj mb
  have hcc : ∀ {x}, x ∈ starts E → p.project v.2.2 = p.project x → v.2.2 = x := h.inj mc
  obtain ⟨-, hval, -, -⟩ := C38_valid ht
  rcases walk_run hz hu hv h.chained (by exact h.nodup.of_map) with ⟨r, hw, hr⟩ | ⟨d, r, hw, hr1, hr2, hd1, hd2, hcd⟩
  · -- no vertex at `b`
    have hN : 6 ≤ R.length := by rw [← hlen, hw]; simp
    have none : ∀ x, x < R.length → turnAt R x ≠ .colinear → R.getD x 0 ≠ p.project v.2.1 := by
      intro x hx ht hb
      obtain ⟨i, hi, rfl⟩ := shift_surj (k := k) hx
      rw [hlab i hi] at hb
      rw [hturn i hi] at ht
      have hbi := hbb (hmem i hi) hb.symm
      have hi14 : i = 1 ∨ i = 4 := by
        rcases Nat.lt_or_ge i 6 with h6 | h6
        · rw [hw] at hbi
          interval_cases i
          · exact absurd (congrArg p.project hbi).symm nab
          · exact .inl rfl
          · exact absurd (congrArg p.project hbi).symm nab
          · exact absurd (congrArg p.project hbi) nbc
          · exact .inr rfl
          · exact absurd (congrArg p.project hbi) nbc
        · rw [hw] at hbi
          exact absurd (hbi ▸ getD_append_mem (by simpa using h6) (by rw [← hw]; omega)) hr
      apply ht
      unfold turnAt
      rw [List.length_map]
      have hN' : 6 ≤ (walk E).length := by omega
      rcases hi14 with rfl | rfl
      · rw [Nat.add_sub_cancel, Nat.mod_self, Nat.mod_eq_of_lt (show 1 + 1 < (walk E).length by omega), hw]
        exact cv_back _ _
      · rw [show (walk E).length + 4 - 1 = 3 + (walk E).length by omega, Nat.add_mod_right, Nat.mod_eq_of_lt (show 3 < (walk E).length by omega),
          Nat.mod_eq_of_lt (show 4 + 1 < (walk E).length by omega), hw]
        exact cv_back _ _
    intro t ht' hside
    obtain ⟨m1, m2, m3⟩ := mem_triples ht'
    have q : ∀ x ∈ st.triangles, R.getD x 0 ≠ p.project v.2.1 := fun x hx => by
      obtain ⟨h1, h2⟩ := mem_V.1 (hval x hx)
      exact none x h1 h2
    rcases hside.2.2.2 with ⟨e, -⟩ | ⟨e, -⟩ | ⟨e, -⟩
    · exact q _ m1 e
    · exact q _ m2 e
    · exact q _ m3 e
  · have hN : 7 ≤ R.length := by rw [← hlen, hw]; simp
    have hpos : 0 < R.length := by omega
    have md := (mem_of_loopEdges hcd).2
    have bcd := h.corner bc hcd
    have turn3 : turnAt ((walk E).map p.project) 3 = .concave := by
      unfold turnAt
      rw [List.length_map, show (walk E).length + 3 - 1 = 2 + (walk E).length by omega, Nat.add_mod_right,
        Nat.mod_eq_of_lt (show 2 < (walk E).length by omega), Nat.mod_eq_of_lt (show 3 + 1 < (walk E).length by omega), hw]
      exact abc.acb
    have turn5 : turnAt ((walk E).map p.project) 5 = .concave := by
      unfold turnAt
      rw [List.length_map, show (walk E).length + 5 - 1 = 4 + (walk E).length by omega, Nat.add_mod_right,
        Nat.mod_eq_of_lt (show 4 < (walk E).length by omega), Nat.mod_eq_of_lt (show 5 + 1 < (walk E).length by omega), hw]
      exact bcd.acb
    have turn1 : turnAt ((walk E).map p.project) 1 = .colinear := by
      unfold turnAt
      rw [List.length_map, Nat.add_sub_cancel, Nat.mod_self, Nat.mod_eq_of_lt (show 1 + 1 < (walk E).length by omega), hw]
      exact cv_back _ _
    have at3 : R.getD ((3 + k) % R.length) 0 = p.project v.2.2 := by rw [hlab 3 (by omega), hw]; rfl
    have at4 : R.getD ((4 + k) % R.length) 0 = p.project v.2.1 := by rw [hlab 4 (by omega), hw]; rfl
    have at5 : R.getD ((5 + k) % R.length) 0 = p.project d := by rw [hlab 5 (by omega), hw]; rfl
    have at6 : R.getD ((6 + k) % R.length) 0 = p.project v.2.2 := by rw [hlab 6 (by omega), hw]; rfl
    have edge : ∀ i, ((i + k) % R.length, (i + 1 + k) % R.length) ∈ loopEdges (List.range R.length) := by
      intro i
      rw [mem_loopEdges_range hpos]
      refine ⟨Nat.mod_lt _ hpos, ?_⟩
      rw [Nat.mod_add_mod]
      congr 1
      omega
    have ndb : p.project d ≠ p.project v.2.1 := fun e => hd1 (h.inj md mb e)
    have ndc : p.project d ≠ p.project v.2.2 := fun e => hd2 (h.inj md mc e)
    refine EarEdge.side_free (W := List.range R.length) (lab := fun i => R.getD i 0) (b := (4 + k) % R.length) (c := (3 + k) % R.length)
      (δ := (5 + k) % R.length) (g := (6 + k) % R.length) hbs ?_ ?_ ?_ ?_ ?_ ?_ ht
    · refine ⟨List.nodup_range, List.filter_sublist, nbc, at4, at3, at6, ⟨by rw [at5]; exact ndb, by rw [at5]; exact ndc⟩,
        fun e => by have := shift_inj (by omega) (by omega) e; omega, edge 3, edge 4, edge 5, ?_, ?_, ?_⟩
      · intro x hx hb
        obtain ⟨h1, h2⟩ := mem_V.1 hx
        obtain ⟨i, hi, rfl⟩ := shift_surj (k := k) h1
        rw [hlab i hi] at hb
        rw [hturn i hi] at h2
        have hbi := hbb (hmem i hi) hb.symm
        rcases Nat.lt_or_ge i 7 with h7 | h7
        · rw [hw] at hbi
          interval_cases i
          · exact absurd (congrArg p.project hbi).symm nab
          · exact absurd turn1 h2
          · exact absurd (congrArg p.project hbi).symm nab
          · exact absurd (congrArg p.project hbi) nbc
          · rfl
          · exact absurd (congrArg p.project hbi).symm ndb
          · exact absurd (congrArg p.project hbi) nbc
        · rw [hw] at hbi
          exact absurd (hbi ▸ getD_append_mem (by simpa using h7) (by rw [← hw]; omega)) hr1
      · intro x hx hb
        obtain ⟨h1, h2⟩ := mem_V.1 hx
        obtain ⟨i, hi, rfl⟩ := shift_surj (k := k) h1
        rw [hlab i hi] at hb
        have hbi := hcc (hmem i hi) hb.symm
        rcases Nat.lt_or_ge i 7 with h7 | h7
        · rw [hw] at hbi
          interval_cases i
          · exact absurd (congrArg p.project hbi).symm nac
          · exact absurd (congrArg p.project hbi).symm nbc
          · exact absurd (congrArg p.project hbi).symm nac
          · exact .inl rfl
          · exact absurd (congrArg p.project hbi).symm nbc
          · exact absurd (congrArg p.project hbi).symm ndc
          · exact .inr rfl
        · rw [hw] at hbi
          exact absurd (hbi ▸ getD_append_mem (by simpa using h7) (by rw [← hw]; omega)) hr2
      · intro x hx P' Q' R' e1 e2 e3
        obtain ⟨h1, h2⟩ := mem_V.1 hx
        obtain ⟨i, hi, rfl⟩ := shift_surj (k := k) h1
        have g1 : P' = p.project ((walk E).getD i 0) := by
          rw [← hlab i hi]
          simp [List.getD, e1]
        have g2 : Q' = p.project v.2.2 := by rw [← at3]; simp [List.getD, e2]
        have g3 : R' = p.project v.2.1 := by rw [← at4]; simp [List.getD, e3]
        rw [g1, g2, g3, hlab i hi]
        by_cases c1 : p.project ((walk E).getD i 0) = p.project v.2.1
        · rw [c1]
          exact ⟨by rw [cv_back]; simp, fun _ => .inl rfl⟩
        by_cases c2 : p.project ((walk E).getD i 0) = p.project v.2.2
        · rw [c2]
          exact ⟨by rw [cv_stay]; simp, fun _ => .inr rfl⟩
        have := convex_side tol_nonneg h.convex h.lenQ (project_edge bc) (List.mem_map_of_mem (hmem i hi)) c1 c2
        have := (cornerFacts_exact tol_nonneg this).cba
        rw [this]
        exact ⟨by simp, by simp⟩
    · exact (List.pairwise_lt_range.imp le_of_lt).sublist List.filter_sublist
    · rw [mem_C]; exact ⟨Nat.mod_lt _ hpos, by rw [hturn 3 (by omega)]; exact turn3⟩
    · rw [mem_V]; exact ⟨Nat.mod_lt _ hpos, by rw [hturn 5 (by omega), turn5]; simp⟩
    · rw [mem_C]; exact ⟨Nat.mod_lt _ hpos, by rw [hturn 5 (by omega)]; exact turn5⟩
    · rw [mem_V]; exact ⟨Nat.mod_lt _ hpos, by rw [hturn 3 (by omega), turn3]; simp⟩

/-! ### A forward edge followed by a backward one -/

theorem exists_switch : ∀ (w : List (Use (V3 ℝ))) (t : Use (V3 ℝ)), t.1 = true → (∃ v ∈ w, v.1 = false) →
    ∃ q z u s, t :: w = q ++ z :: u :: s ∧ z.1 = true ∧ u.1 = false
  | [], _, _, ⟨_, h, _⟩ => by cases h
  | v :: w, t, ht, ⟨x, hx, h⟩ => by
    by_cases hv : v.1 = true
    · have : x ∈ w := by
        rcases List.mem_cons.1 hx with rfl | h1
        · rw [hv] at h; cases h
        · exact h1
      obtain ⟨q, z, u, s, e, h1⟩ := exists_switch w v hv ⟨x, this, h⟩
      exact ⟨t :: q, z, u, s, by rw [e]; rfl, h1⟩
    · exact ⟨[], t, v, w, rfl, ht, by simpa using hv⟩

theorem switch_edges (h : Ready p E) (hT : ∃ u ∈ E, u.1 = true) (hF : ∃ u ∈ E, u.1 = false) :
    ∃ a b, (a, b) ∈ loopEdges (walk E) ∧ (b, a) ∈ loopEdges (walk E) := by
  obtain ⟨t, ht, h1⟩ := hT
  obtain ⟨w, hw⟩ := rot_of_mem ht
  obtain ⟨f, hf, h2⟩ := hF
  have hf' : f ∈ w := by
    rcases List.mem_cons.1 (hw.perm.mem_iff.1 hf) with rfl | h3
    · rw [h1] at h2; cases h2
    · exact h3
  obtain ⟨q, z, u, s, e, hz, hu⟩ := exists_switch w t h1 ⟨f, hf', h2⟩
  have hr : E ~r z :: u :: (s ++ q) := hw.trans (by rw [e]; exact isRotated_append)
  have hE := h.rot hr
  have hlen := hE.len
  rcases hs : s ++ q with _ | ⟨v, r⟩
  · rw [hs] at hlen; simp at hlen
  rw [hs] at hr hE
  have c1 := hE.chained (z, u) (by simp [Spec.loopEdges_cons])
  dsimp only at c1
  have t1 : Written.turn (z, u) = [u.2.1, u.2.2] := by simp [Written.turn, hz, hu, last, first, c1]
  have t2 : ∃ y, Written.turn (u, v) = u.2.1 :: y := by
    simp [Written.turn, hu, last]
  obtain ⟨y, t2⟩ := t2
  have hwalk : ∃ x, walk (z :: u :: v :: r) = u.2.1 :: u.2.2 :: u.2.1 :: x := by
    refine ⟨y ++ along v (r ++ [z]), ?_⟩
    show Written.turn (z, u) ++ (Written.turn (u, v) ++ along v (r ++ [z])) = _
    rw [t1, t2]
    rfl
  obtain ⟨x, hwalk⟩ := hwalk
  refine ⟨u.2.1, u.2.2, ?_, ?_⟩ <;> rw [(loopEdges_rot (walk_isRotated hr)).mem_iff, hwalk] <;> simp [Spec.loopEdges_cons]

/-! ### Both directions -/

theorem rotate_map {l : List (V3 ℝ)} {M : List (V3 ℝ)} (h : l ~r M) : ∃ k, (l.map p.project).rotate k = M.map p.project :=
  h.map _

theorem turn_of {l : List (V3 ℝ)} (h : Ready p E) (hl : l ~r walk E) {x : Nat} (hx : x < l.length) :
    ∃ e ∈ loopEdges E, ∃ a b c, Kind e (a, b, c) ∧
      turnAt (l.map p.project) x = computeConvexity (p.project a) (p.project b) (p.project c) := by
  obtain ⟨k, hk⟩ := rotate_map (p := p) hl
  have hx' : x < (l.map p.project).length := by simpa using hx
  obtain ⟨i, hi, e⟩ := shift_surj (k := k) hx'
  have := turnAt_rotate hk hi
  rw [e] at this
  rw [this]
  refine h.turns ?_
  rw [List.length_map] at hi
  rwa [← hl.perm.length_eq]

theorem all_concave {l : List (V3 ℝ)} (h : Ready p E) (hT : ¬ ∃ u ∈ E, u.1 = true) (hl : l ~r walk E) :
    ((List.range (l.map p.project).length).filter fun i => decide (turnAt (l.map p.project) i ≠ .colinear)).length
      = ((List.range (l.map p.project).length).filter fun i => decide (turnAt (l.map p.project) i = .concave)).length := by
  have : ∀ x ∈ List.range (l.map p.project).length, turnAt (l.map p.project) x = .concave := by
    intro x hx
    rw [List.mem_range, List.length_map] at hx
    obtain ⟨e, he, a, b, c, hk, ht⟩ := turn_of h hl hx
    rw [ht]
    have hno : ∀ u ∈ E, u.1 = false := fun u hu => by
      rcases hb : u.1 with _ | _
      · rfl
      · exact absurd ⟨u, hu, hb⟩ hT
    have hf := mem_of_loopEdges he
    have hcf := h.next he
    rcases hk with ⟨hk, -⟩ | ⟨-, -, hk | hk⟩
    · rw [hno _ hf.1, hno _ hf.2] at hk; cases hk
    · cases hk; exact hcf.bac
    · cases hk; exact hcf.acb
  rw [List.filter_eq_self.2 fun x hx => by simp [this x hx], List.filter_eq_self.2 fun x hx => by simp [this x hx]]

/-- With a backward edge the face is not filled. -/
theorem not_filled (h : Ready p E) (hF : ∃ u ∈ E, u.1 = false) {o : TrimOracle ℝ} (hbs : BinarySearch o.bs) {bounds : List (EdgeLoop ℝ)}
    {l : List (V3 ℝ)} (hl : l ~r walk E) {k : Nat} (hc : collectLoops o bounds = .ok (l, [0, k])) {mesh : TriangleMesh ℝ}
    (hm : p.trim o bounds = .ok mesh) : ¬ Fills ((starts E).map p.project) (mesh.vertices.map p.project) mesh.triangles := by
  have hcv := convexity_lists (l.map p.project)
  rcases trim_cases hc hcv hm with ⟨-, rfl⟩ | ⟨h1, h2, T, h3, rfl⟩ | ⟨h1, h2, T, h3, rfl⟩
  · exact empty_bad h
  · by_cases hT : ∃ u ∈ E, u.1 = true
    · obtain ⟨a, b, e1, e2⟩ := switch_edges h hT hF
      exact fan_bad h3 ((loopEdges_rot hl).mem_iff.2 e1) ((loopEdges_rot hl).mem_iff.2 e2)
    · exact absurd (all_concave h hT hl) h1
  · by_cases hFF : ∃ e ∈ loopEdges E, e.1.1 = false ∧ e.2.1 = false
    · by_cases hT : ∃ u ∈ E, u.1 = true
      · obtain ⟨z, u, v, s, hr, hz, hu, hv⟩ := exists_run hT hFF
        have hE := h.rot hr
        obtain ⟨n, hn⟩ := rotate_map (p := p) (hl.trans (walk_isRotated hr))
        unfold triangulatePolygon at h3
        rw [bind_eq_ok] at h3
        obtain ⟨st, h3, h4⟩ := h3
        cases h4
        have free := run_free hE hz hu hv hn hbs h3
        intro hf
        obtain ⟨-, hval, -, -⟩ := C38_valid h3
        have hQ : ∀ x ∈ st.triangles, (l.map p.project).getD x 0 ∈ (starts E).map p.project := by
          intro x hx
          have h5 := (mem_V.1 (hval x hx)).1
          rw [List.length_map] at h5
          rw [getD_map_project h5]
          exact List.mem_map_of_mem (h.walk_mem (hl.perm.mem_iff.1 (List.getElem_mem h5)))
        have hside : (p.project v.2.1, p.project v.2.2) ∈ loopEdges ((starts E).map p.project) :=
          project_edge (h.side (hr.perm.mem_iff.2 (by simp)))
        obtain ⟨t, ht, hs⟩ := side_needed tol_nonneg h.convex h.lenQ hf (fun t ht => by
          obtain ⟨m1, m2, m3⟩ := mem_triples ht
          exact ⟨hQ _ m1, hQ _ m2, hQ _ m3⟩) hside
        exact free t ht hs
      · exact absurd (all_concave h hT hl) h1
    · refine absurd ?_ h2
      rw [List.filter_eq_nil_iff]
      intro x hx
      rw [List.mem_range, List.length_map] at hx
      obtain ⟨e, he, a, b, c, hk, ht⟩ := turn_of h hl hx
      have hcf := h.next he
      rw [ht]
      rcases hk with ⟨-, hk | hk⟩ | ⟨hk1, hk2, -⟩
      · cases hk
        rw [hcf.abc]
        simp
      · dsimp only at hk
        rw [hk, cv_back]
        simp
      · exact absurd ⟨e, he, hk1, hk2⟩ hFF

/-! ### The fan of a convex loop -/

theorem loop_tab (Q : List (V2 ℝ)) : loopEdges Q = (loopEdges (List.range Q.length)).map fun e => (Q.getD e.1 0, Q.getD e.2 0) := by
  have e : Q = (List.range Q.length).map fun j => Q.getD j 0 := eq_tab_getD Q 0
  exact (congrArg loopEdges e).trans (loopEdges_map _ _)

theorem fan_fills {vs : List (V3 ℝ)} (hn : 3 ≤ vs.length) (hQ : ConvexLoop Env.tol (vs.map p.project)) {T : List Nat}
    (hT : fanTriangles vs.length = .ok T) : Fills (vs.map p.project) ((vs ++ [centroid vs]).map p.project) T := by
  obtain ⟨T', f1, -, f3⟩ := fanTriangles_eq (n := vs.length) (by omega)
  rw [hT] at f1
  cases f1
  have hlen : 3 ≤ (vs.map p.project).length := by simpa using hn
  have hnd := convex_nodup tol_nonneg hQ hlen
  have left : ∀ e ∈ loopEdges (vs.map p.project), ∀ v ∈ vs.map p.project, 0 ≤ triArea2 e.1 e.2 v := by
    intro e he v hv
    by_cases h1 : v = e.1
    · rw [h1, tri_aba]
    by_cases h2 : v = e.2
    · rw [h2, tri_abb]
    exact tol_nonneg.trans (convex_side tol_nonneg hQ hlen he hv h1 h2).le
  have pos : ∀ e ∈ loopEdges (vs.map p.project), 0 < triArea2 (p.project (centroid vs)) e.1 e.2 := by
    intro e he
    refine (C72_fan_positive p (by omega) (a := e.1) (b := e.2) he left).2 ?_
    obtain ⟨-, c, hc⟩ := exists_edge_from hlen (mem_of_loopEdges he).1
    obtain ⟨m, hm⟩ := corner_form hnd hlen hc he
    have h1 := hm.nodup_iff.1 hnd
    refine ⟨c, (mem_of_loopEdges hc).1, tol_nonneg.trans_lt (convex_side tol_nonneg hQ hlen he (mem_of_loopEdges hc).1 ?_ ?_)⟩
    · rintro rfl; simp at h1
    · rintro rfl; simp at h1
  have tab : ∀ e ∈ loopEdges (vs.map p.project), ∃ i j, (i, j) ∈ loopEdges (List.range vs.length) ∧
      e.1 = (vs.map p.project).getD i 0 ∧ e.2 = (vs.map p.project).getD j 0 := by
    intro e he
    rw [loop_tab, List.mem_map] at he
    obtain ⟨⟨i, j⟩, hij, rfl⟩ := he
    rw [List.length_map] at hij
    exact ⟨i, j, hij, rfl, rfl⟩
  have hget : ∀ {i}, i < vs.length → ((vs ++ [centroid vs]).map p.project).getD i 0 = (vs.map p.project).getD i 0 := by
    intro i hi
    rw [getD_map_project (by simp; omega), getD_map_project hi, List.getElem_append_left hi]
  have hcen : ((vs ++ [centroid vs]).map p.project).getD vs.length 0 = p.project (centroid vs) := by
    rw [getD_map_project (by simp)]
    simp
  refine ⟨fun t ht => ?_, fun x hx hoff => ?_⟩
  · rw [f3, List.mem_map] at ht
    obtain ⟨⟨i, j⟩, hij, rfl⟩ := ht
    have hm := mem_of_loopEdges hij
    simp only [List.mem_range] at hm
    dsimp only
    rw [hcen, hget hm.1, hget hm.2]
    refine pos ((vs.map p.project).getD i 0, (vs.map p.project).getD j 0) ?_
    rw [loop_tab, List.mem_map]
    exact ⟨(i, j), by rw [List.length_map]; exact hij, rfl⟩
  · set g := p.project (centroid vs) with hg
    have hgP : g ∈ (vs ++ [centroid vs]).map p.project := List.mem_map_of_mem (by simp)
    have hvP : ∀ v ∈ vs.map p.project, v ∈ (vs ++ [centroid vs]).map p.project := by
      intro v hv
      rw [List.map_append]
      exact List.mem_append_left _ hv
    have hgv : ∀ v ∈ vs.map p.project, g ≠ v := by
      rintro v hv rfl
      obtain ⟨⟨w, hw⟩, -⟩ := exists_edge_from hlen hv
      have := pos _ hw
      dsimp only at this
      rw [tri_aa] at this
      exact lt_irrefl _ this
    have h0 : ∀ v ∈ vs.map p.project, triArea2 g v x ≠ 0 := fun v hv => hoff g hgP v (hvP v hv) (hgv v hv)
    have hsum : ((vs.map p.project).map fun v => triArea2 g v x).sum = 0 := by
      have e : ∀ v : V2 ℝ, triArea2 g v x = -triArea2 g x v := fun v => by simp only [triArea2]; ring
      have hn' : (vs.length : ℝ) ≠ 0 := by exact_mod_cast (by omega : vs.length ≠ 0)
      have h1 := triArea2_centroid g x (vs.map p.project)
      have h2 : g = _ := project_centroid p (vs := vs) (by omega)
      have hx2 : ((vs.map p.project).map (·.x)).sum = vs.length * g.x := by rw [h2]; field_simp
      have hy2 : ((vs.map p.project).map (·.y)).sum = vs.length * g.y := by rw [h2]; field_simp
      rw [hx2, hy2, List.length_map] at h1
      have h3 : ((vs.map p.project).map fun v => triArea2 g v x).sum = -((vs.map p.project).map fun v => triArea2 g x v).sum := by
        generalize vs.map p.project = L
        induction L with
        | nil => simp
        | cons v L ih => rw [List.map_cons, List.map_cons, List.sum_cons, List.sum_cons, ih, e]; ring
      rw [h3, h1]
      ring
    have hne : vs.map p.project ≠ [] := by
      intro h; rw [h] at hlen; simp at hlen
    obtain ⟨v0, hv0⟩ := List.exists_mem_of_ne_nil _ hne
    have hp : ∃ v ∈ vs.map p.project, 0 < triArea2 g v x := by
      by_contra hcon
      push Not at hcon
      have := List.sum_lt_sum (l := vs.map p.project) (fun v => triArea2 g v x) (fun _ => 0) (fun v hv => hcon v hv)
        ⟨v0, hv0, lt_of_le_of_ne (hcon v0 hv0) (h0 v0 hv0)⟩
      rw [hsum] at this
      simp [Function.comp_def] at this
    have hm : ∃ v ∈ vs.map p.project, triArea2 g v x < 0 := by
      by_contra hcon
      push Not at hcon
      have := List.sum_lt_sum (l := vs.map p.project) (fun _ => 0) (fun v => triArea2 g v x) (fun v hv => hcon v hv)
        ⟨v0, hv0, lt_of_le_of_ne (hcon v0 hv0) (h0 v0 hv0).symm⟩
      rw [hsum] at this
      simp [Function.comp_def] at this
    obtain ⟨e, he, k1, k2⟩ := sign_change hp hm h0
    obtain ⟨i, j, hij, e1, e2⟩ := tab e he
    have hm := mem_of_loopEdges hij
    simp only [List.mem_range] at hm
    refine ⟨(vs.length, i, j), by rw [f3, List.mem_map]; exact ⟨(i, j), hij, rfl⟩, ?_⟩
    dsimp only
    rw [hcen, hget hm.1, hget hm.2, ← e1, ← e2, ← C33_exact (pos e he), isInside_iff]
    have h5 := hx e he
    unfold Inside
    have h6 : triArea2 e.1 x g = triArea2 g e.1 x := by simp only [triArea2]; ring
    have h7 : triArea2 e.1 e.2 g = triArea2 e.1 e.2 x + triArea2 g e.1 x - triArea2 g e.2 x := by simp only [triArea2]; ring
    refine ⟨?_, ?_, ?_⟩ <;> linarith

/-! ### The loop as the reader sees it -/

theorem chain_path {α : Type} : ∀ L : List α, ∀ e ∈ pathEdges (pathEdges L), e.1.2 = e.2.1
  | [], _, h => by cases h
  | [_], _, h => by cases h
  | [_, _], _, h => by cases h
  | a :: b :: c :: L, e, h => by
    have h1 : pathEdges (pathEdges (a :: b :: c :: L)) = ((a, b), (b, c)) :: pathEdges (pathEdges (b :: c :: L)) := rfl
    rw [h1] at h
    rcases List.mem_cons.1 h with rfl | h
    · rfl
    · exact chain_path (b :: c :: L) e h

theorem chain_loop {α : Type} (L : List α) : ∀ e ∈ loopEdges (loopEdges L), e.1.2 = e.2.1 := by
  intro e he
  rcases L with _ | ⟨a, _ | ⟨b, t⟩⟩
  · cases he
  · have : loopEdges (loopEdges [a]) = [((a, a), (a, a))] := rfl
    rw [this, List.mem_singleton] at he
    rw [he]
  · have h1 : loopEdges (loopEdges (a :: b :: t)) = pathEdges (pathEdges ((a :: b :: t) ++ a :: [b])) := by
      rw [Spec.pathEdges_append]
      rfl
    rw [h1] at he
    exact chain_path _ e he

/-- Corners of a convex face, counter-clockwise as seen from the side of the normal, no two of them taken for the same point. -/
structure _root_.Geom3d.Spec.ConvexFace (p : Plane ℝ) (vs : List (V3 ℝ)) : Prop where
  corners : 3 ≤ vs.length
  apart : ∀ a ∈ vs, ∀ b ∈ vs, a ≠ b → Env.tol < b.distanceSq a
  convex : ConvexLoop Env.tol (vs.map p.project)

variable {vs : List (V3 ℝ)} {flags : List Bool}

theorem snd_uses (hl : flags.length = vs.length) : (flags.zip (loopEdges vs)).map Prod.snd = loopEdges vs :=
  List.map_snd_zip (by rw [length_loopEdges, hl])

theorem fst_uses (hl : flags.length = vs.length) : (flags.zip (loopEdges vs)).map Prod.fst = flags :=
  List.map_fst_zip (by rw [length_loopEdges, hl])

theorem starts_uses (hl : flags.length = vs.length) : starts (flags.zip (loopEdges vs)) = vs := by
  have : starts (flags.zip (loopEdges vs)) = ((flags.zip (loopEdges vs)).map Prod.snd).map Prod.fst := by
    rw [List.map_map]; rfl
  rw [this, snd_uses hl, EarEdge.map_fst_loopEdges]

theorem ready (hl : flags.length = vs.length) (h : ConvexFace p vs) : Ready p (flags.zip (loopEdges vs)) where
  chained e he := by
    have : (e.1.2, e.2.2) ∈ loopEdges ((flags.zip (loopEdges vs)).map Prod.snd) := by
      rw [loopEdges_map, List.mem_map]
      exact ⟨e, he, rfl⟩
    rw [snd_uses hl] at this
    exact chain_loop vs _ this
  convex := by rw [starts_uses hl]; exact h.convex
  len := by rw [List.length_zip, length_loopEdges, hl, min_self]; exact h.corners

theorem near_ne (h : ConvexFace p vs) {a b : V3 ℝ} (ha : a ∈ vs) (hb : b ∈ vs) (hab : a ≠ b) : near (a.distanceSq b) 0 = false :=
  near_apart (h.apart b hb a ha hab.symm)

/-- **C141** What is read of a convex face is the walk. -/
theorem read_walk (hl : flags.length = vs.length) (h : ConvexFace p vs) :
    ∃ l, closePolygon (writtenPath flags vs) = .ok l ∧ l ~r walk (flags.zip (loopEdges vs)) := by
  set E := flags.zip (loopEdges vs) with hE
  have hr : Ready p E := ready hl h
  have hst : starts E = vs := starts_uses hl
  have hmem : ∀ u ∈ E, u.2.1 ∈ vs ∧ u.2.2 ∈ vs := fun u hu => by
    have := mem_of_loopEdges (hr.side hu)
    rw [hst] at this
    exact this
  have hne : ∀ u ∈ E, u.2.1 ≠ u.2.2 := fun u hu e => by
    obtain ⟨⟨v, hv⟩, -⟩ := exists_edge_from hr.len hu
    have := (hr.next hv).abc
    dsimp only at this
    rw [e, cv_stay] at this
    cases this
  have hw : writtenPath flags vs = E.flatMap fun v => [first v, last v] := by
    unfold writtenPath
    rw [← hE]
    congr 1
    funext u
    rcases u with ⟨_ | _, a, b⟩ <;> rfl
  rw [hw]
  refine close_walk (fun e => by have := hr.len; rw [e] at this; simp at this) hr.chained (fun e he => ?_) fun v hv => ?_
  · obtain ⟨m1, m2⟩ := mem_of_loopEdges he
    have hc := hr.chained e he
    have a1 := hmem _ m1
    have a2 := hmem _ m2
    have n1 := hne _ m1
    have n2 := hne _ m2
    have n3 : e.1.2.1 ≠ e.2.2.2 := fun e1 => by
      have := (hr.next he).abc
      rw [e1, cv_back] at this
      cases this
    rcases hf1 : e.1.1 with _ | _ <;> rcases hf2 : e.2.1 with _ | _ <;> simp only [first, last, hf1, hf2, Bool.false_eq_true, if_false, if_true]
    · exact near_ne h a2.2 a1.1 n3.symm
    · rw [← hc]; exact near_ne h a1.2 a1.1 n1.symm
    · rw [hc]; exact near_ne h a2.2 a2.1 n2.symm
    · rw [← hc]; exact near_self_real _
  · have a := hmem v hv
    have n := hne v hv
    rcases hf : v.1 with _ | _ <;> simp only [first, last, hf, Bool.false_eq_true, if_false, if_true]
    · exact near_ne h a.1 a.2 n
    · exact near_ne h a.2 a.1 n.symm

theorem walk_length (E : List (Use (V3 ℝ))) : (walk E).length ≤ 2 * E.length := by
  unfold walk
  rw [← length_loopEdges E]
  induction loopEdges E with
  | nil => simp
  | cons e L ih =>
    rw [List.flatMap_cons, List.length_append, List.length_cons]
    have : (Written.turn e).length ≤ 2 := by unfold Written.turn; split <;> simp
    omega

theorem forward_filled (h : ConvexFace p vs) {o : TrimOracle ℝ} {bounds : List (EdgeLoop ℝ)} {k : Nat}
    (hc : collectLoops o bounds = .ok (vs, [0, k])) : ∃ T, p.trim o bounds = .ok ⟨vs ++ [centroid vs], [], T⟩ ∧
      Fills (vs.map p.project) ((vs ++ [centroid vs]).map p.project) T := by
  have h3 := h.corners
  obtain ⟨T, hT, -, -⟩ := fanTriangles_eq (n := vs.length) (by omega)
  refine ⟨T, ?_, fan_fills h3 h.convex hT⟩
  have hlQ : 3 ≤ (vs.map p.project).length := by simpa using h3
  have hturn : ∀ i, i < (vs.map p.project).length → turnAt (vs.map p.project) i = .convex := by
    intro i hi
    have hpos : 0 < (vs.map p.project).length := by omega
    have m : ∀ j, j < (vs.map p.project).length → ((vs.map p.project).getD j 0, (vs.map p.project).getD ((j + 1) % (vs.map p.project).length) 0) ∈
        loopEdges (vs.map p.project) := fun j hj => by
      rw [loop_tab, List.mem_map]
      exact ⟨(j, (j + 1) % _), (mem_loopEdges_range hpos).2 ⟨hj, rfl⟩, rfl⟩
    have h1 := m (((vs.map p.project).length + i - 1) % (vs.map p.project).length) (Nat.mod_lt _ hpos)
    rw [Nat.mod_add_mod, show (vs.map p.project).length + i - 1 + 1 = i + (vs.map p.project).length by omega, Nat.add_mod_right, Nat.mod_eq_of_lt hi] at h1
    exact (corner_area h.convex hlQ h1 (m i hi)).abc
  have hv := convexity_lists (vs.map p.project)
  rw [List.filter_eq_self.2 fun x hx => by simp [hturn x (List.mem_range.1 hx)],
    List.filter_eq_nil_iff.2 fun x hx => by simp [hturn x (List.mem_range.1 hx)]] at hv
  rw [trim_fan hc hv (by
    intro e
    have := congrArg List.length e
    rw [List.length_range] at this
    simp at this
    rw [this] at h3
    simp at h3), hT, ok_bind, sumV3_div]
  rfl

/-- **C141** `trim` on the loop of a convex face: counter-clockwise triangles that cover the face if and only if no edge is used
against its direction. -/
theorem _root_.Geom3d.C141_trim (h : ConvexFace p vs) (hl : flags.length = vs.length) {o : TrimOracle ℝ} (hbs : BinarySearch o.bs)
    {bounds : List (EdgeLoop ℝ)} {l : List (V3 ℝ)} (hp : closePolygon (writtenPath flags vs) = .ok l)
    (hc : collectLoops o bounds = .ok (l, [0, l.length])) :
    (∀ mesh, p.trim o bounds = .ok mesh → mesh.vertices.length ≤ 2 * vs.length + 1 ∧
      (Fills (vs.map p.project) (mesh.vertices.map p.project) mesh.triangles ↔ ∀ f ∈ flags, f = true)) ∧
    ((∀ f ∈ flags, f = true) → ∃ mesh, p.trim o bounds = .ok mesh) := by
  obtain ⟨l', e1, e2⟩ := read_walk hl h
  rw [hp] at e1
  cases e1
  have hr := ready hl h
  have fwd : (∀ f ∈ flags, f = true) → l = vs := fun hf => by
    have hne : vs ≠ [] := fun e => by have := h.corners; rw [e] at this; simp at this
    have := C138_polygon hne hl hf (fun e he => by
      have hm := mem_of_loopEdges he
      refine h.apart _ hm.1 _ hm.2 fun e1 => ?_
      have hlQ : 3 ≤ (vs.map p.project).length := by simpa using h.corners
      have h1 := project_edge (p := p) he
      obtain ⟨⟨c, hc⟩, -⟩ := exists_edge_from hlQ (mem_of_loopEdges h1).2
      have := (corner_area h.convex hlQ h1 hc).abc
      rw [e1, cv_stay] at this
      cases this)
    rw [hp] at this
    cases this
    rfl
  refine ⟨fun mesh hm => ⟨?_, fun hf f hff => ?_, fun hf => ?_⟩, fun hf => ?_⟩
  · have hlen : l.length ≤ 2 * vs.length := by
      rw [e2.perm.length_eq]
      refine (walk_length _).trans ?_
      rw [List.length_zip, length_loopEdges, hl, min_self]
    rcases trim_cases hc (convexity_lists _) hm with ⟨-, rfl⟩ | ⟨-, -, T, -, rfl⟩ | ⟨-, -, T, -, rfl⟩
    · simp [TriangleMesh.new]
    · simp; omega
    · simp; omega
  · by_contra hcon
    have : ∃ u ∈ flags.zip (loopEdges vs), u.1 = false := by
      rw [← fst_uses hl, List.mem_map] at hff
      obtain ⟨u, hu, rfl⟩ := hff
      exact ⟨u, hu, by simpa using hcon⟩
    have hbad := not_filled hr this hbs e2 hc hm
    rw [starts_uses hl] at hbad
    exact hbad hf
  · have := fwd hf
    subst this
    obtain ⟨T, h1, h2⟩ := forward_filled h hc
    rw [hm] at h1
    cases h1
    exact h2
  · have := fwd hf
    subst this
    obtain ⟨T, h1, -⟩ := forward_filled h hc
    exact ⟨_, h1⟩

end ConvexFaces

/-! ### Files -/

/-- The triangles of a mesh cover a face and are counter-clockwise, seen from the side of its normal. -/
def Spec.FilledBy (s : FaceSide) (m : TriangleMesh ℝ) : Prop :=
  Fills (s.corners.map s.plane.project) (m.vertices.map s.plane.project) m.triangles

/-- **C141** A convex face of a file. -/
theorem C141_face {file : StepFile ℝ} {face : StepAdvancedFace} {s : FaceSide} (h : SaysPolygon file face s.plane s.uses s.corners)
    (hs : ConvexFace s.plane s.corners) : ∃ t, SaysFace file face t ∧ ∀ o : TrimOracle ℝ, BinarySearch o.bs → 0 < o.divFuel →
      (∀ mesh, t.getTriangleMesh o = .ok mesh → ValidMesh mesh ∧ mesh.vertices.length ≤ 2 * s.corners.length + 1 ∧
        (FilledBy s mesh ↔ ∀ u ∈ s.uses, u.2 = true)) ∧
      ((∀ u ∈ s.uses, u.2 = true) → ∃ mesh, t.getTriangleMesh o = .ok mesh) := by
  obtain ⟨t, ht, hr⟩ := polygon_read h
  refine ⟨t, ht, fun o hbs hdiv => ?_⟩
  obtain ⟨e, hc⟩ := hr o hdiv
  have hlen : (s.uses.map Prod.snd).length = s.corners.length := by rw [List.length_map]; exact h.2.1
  obtain ⟨l, h1, h2⟩ := ConvexFaces.read_walk hlen hs
  have hne : l ≠ [] := by
    rintro rfl
    have h3 : Written.walk ((s.uses.map Prod.snd).zip (loopEdges s.corners)) = [] := (List.isRotated_nil_iff'.1 h2).symm
    have hR := ConvexFaces.ready hlen hs
    obtain ⟨u, v, r, e⟩ : ∃ u v r, (s.uses.map Prod.snd).zip (loopEdges s.corners) = u :: v :: r := by
      have := hR.len
      generalize (s.uses.map Prod.snd).zip (loopEdges s.corners) = M at this
      rcases M with _ | ⟨u, _ | ⟨v, r⟩⟩
      · simp at this
      · simp at this
      · exact ⟨u, v, r, rfl⟩
    rw [e] at h3
    have : Written.walk (u :: v :: r) = Written.turn (u, v) ++ Written.along v (r ++ [u]) := rfl
    rw [this, List.append_eq_nil_iff] at h3
    have := h3.1
    unfold Written.turn at this
    split at this <;> cases this
  have hcl := hc l h1 hne
  obtain ⟨a, b⟩ := C141_trim hs hlen hbs h1 hcl
  have hfl : (∀ f ∈ s.uses.map Prod.snd, f = true) ↔ ∀ u ∈ s.uses, u.2 = true := by simp
  refine ⟨fun mesh hm => ?_, fun hf => ?_⟩
  · rw [e] at hm
    obtain ⟨⟨n, v1⟩, v2, v3⟩ := C53_valid hm
    obtain ⟨a1, a2⟩ := a mesh hm
    exact ⟨⟨by omega, v2, .inl v3⟩, a1, a2.trans hfl⟩
  · rw [e]
    exact b (hfl.2 hf)

theorem convex_read {file : StepFile ℝ} {faces : List StepAdvancedFace} {sides : List FaceSide}
    (h : List.Forall₂ (fun face s => SaysPolygon file face s.plane s.uses s.corners) faces sides)
    (hs : ∀ s ∈ sides, ConvexFace s.plane s.corners) (o : Nat → TrimOracle ℝ)
    (hbs : ∀ i, BinarySearch (o i).bs) (hdiv : ∀ i, 0 < (o i).divFuel) (k : Nat) :
    ∃ ts, List.Forall₂ (SaysFace file) faces ts ∧ ∀ meshes,
      List.Forall₂ (fun (f : TrimmedSurface ℝ × Nat) m => f.1.getTriangleMesh (o f.2) = .ok m) (ts.zipIdx k) meshes →
      List.Forall₂ (fun (f : TrimmedSurface ℝ × Nat) m => f.1.getTriangleMesh (o f.2) = .ok m ∧ ValidMesh m) (ts.zipIdx k) meshes ∧
      List.Forall₂ (fun (s : FaceSide) m => m.vertices.length ≤ 2 * s.corners.length + 1 ∧ (FilledBy s m ↔ ∀ u ∈ s.uses, u.2 = true))
        sides meshes := by
  induction h generalizing k with
  | nil =>
    refine ⟨[], .nil, fun meshes hm => ?_⟩
    rw [List.zipIdx_nil] at hm
    cases hm
    exact ⟨.nil, .nil⟩
  | @cons face s _ _ h1 _ ih =>
    obtain ⟨ts, a1, a2⟩ := ih (fun s h => hs s (by simp [h])) (k + 1)
    obtain ⟨t, b1, b2⟩ := C141_face h1 (hs s (by simp))
    refine ⟨t :: ts, .cons b1 a1, fun meshes hm => ?_⟩
    rw [List.zipIdx_cons] at hm ⊢
    rcases hm with _ | ⟨c1, c2⟩
    obtain ⟨d1, d2⟩ := a2 _ c2
    obtain ⟨e1, e2, e3⟩ := (b2 (o k) (hbs k) (hdiv k)).1 _ c1
    exact ⟨.cons ⟨c1, e1⟩ d1, .cons ⟨e2, e3⟩ d2⟩

theorem closed_some {sides : List FaceSide} (h : Closed sides) (hne : ∃ s ∈ sides, s.uses ≠ []) :
    ∃ s ∈ sides, ¬ ∀ u ∈ s.uses, u.2 = true := by
  obtain ⟨s, hs, hu⟩ := hne
  obtain ⟨⟨g, b⟩, hg⟩ := List.exists_mem_of_ne_nil _ hu
  have hmem : (g, b) ∈ sides.flatMap (·.uses) := List.mem_flatMap.2 ⟨s, hs, hg⟩
  have hb : (g, false) ∈ sides.flatMap (·.uses) := by
    cases b
    · exact hmem
    · rw [← List.count_pos_iff, ← h g, List.count_pos_iff]
      exact hmem
  obtain ⟨s', hs', hg'⟩ := List.mem_flatMap.1 hb
  exact ⟨s', hs', fun hall => by have := hall _ hg'; cases this⟩

/-- **C141** `convert_stp` on a file with convex planar faces. Whenever an OBJ file is written, a face is filled in it if and
only if it uses no edge against its direction; if the faces bound a solid, some face is not filled. -/
theorem C141_convert {file : StepFile ℝ} {sides : List FaceSide} (hc : file.compositeCurves = []) (hne : sides ≠ [])
    (h : List.Forall₂ (fun face s => SaysPolygon file face s.plane s.uses s.corners) file.advancedFaces sides)
    (hs : ∀ s ∈ sides, ConvexFace s.plane s.corners) {o : Nat → TrimOracle ℝ} (hbs : ∀ i, BinarySearch (o i).bs)
    (hdiv : ∀ i, 0 < (o i).divFuel) (hsz : (sides.map fun s => 2 * s.corners.length + 1).sum + 1 < 2 ^ 32)
    {fmt : ℝ → List Char} {fuel : Nat} {rnd : Nat → Nat → List Bool → ℝ} {obj : Option (List (ObjLine ℝ))} {svg : Option (List (List Char))}
    (hrun : convertStp o fmt fuel rnd file = .ok (obj, svg)) :
    ∃ lines meshes, obj = some lines ∧ (objRead lines).faces = meshes.flatMap meshFaces ∧
      List.Forall₂ (fun s m => FilledBy s m ↔ ∀ u ∈ s.uses, u.2 = true) sides meshes ∧
      (Closed sides → ∃ (i : Nat) (s : FaceSide) (m : TriangleMesh ℝ), sides[i]? = some s ∧ meshes[i]? = some m ∧ ¬ FilledBy s m) := by
  obtain ⟨ts, a1, a2⟩ := convex_read h hs o hbs hdiv 0
  have hts : ts ≠ [] := by
    rintro rfl
    have e1 := a1.length_eq
    have e2 := h.length_eq
    rw [e1] at e2
    exact hne (List.length_eq_zero_iff.1 e2.symm)
  have hread : file.readModel = .ok ([], ts) := C103_model (by rw [hc]; exact .nil) a1
  have hrun' := hrun
  unfold convertStp at hrun
  rw [hread, ok_bind] at hrun
  have hpos : 0 < ts.length := List.length_pos_iff.2 hts
  simp only [hpos, if_true] at hrun
  rw [bind_eq_ok] at hrun
  obtain ⟨x, hx, -⟩ := hrun
  rw [bind_eq_ok] at hx
  obtain ⟨ms, hms, -⟩ := hx
  obtain ⟨b1, b2⟩ := a2 ms (of_mapM_ok hms)
  have hsz' : (ms.map fun m => m.vertices.length).sum + 1 < 2 ^ 32 := by
    have : (ms.map fun m => m.vertices.length).sum ≤ (sides.map fun s => 2 * s.corners.length + 1).sum := by
      clear hsz hne h hs b1 a1 a2 hms
      induction b2 with
      | nil => simp
      | cons h1 _ ih =>
        rw [List.map_cons, List.sum_cons, List.map_cons, List.sum_cons]
        have := h1.1
        omega
    omega
  obtain ⟨obj', svg', h1, h2, -, h4, -⟩ := C115_convert (curves := []) (paths := []) (by rw [hc]; exact .nil) a1 (o := o)
    (fmt := fmt) (fuel := fuel) (rnd := rnd) b1 hsz' .nil
  rw [hrun'] at h1
  cases h1
  obtain ⟨lines, rfl⟩ := Option.isSome_iff_exists.1 (h2.2 hts)
  refine ⟨lines, ms, rfl, h4 lines rfl, b2.imp fun _ _ h => h.2, fun hcl => ?_⟩
  have huse : ∃ s ∈ sides, s.uses ≠ [] := by
    obtain ⟨s, hs'⟩ := List.exists_mem_of_ne_nil _ hne
    obtain ⟨i, hi, rfl⟩ := List.getElem_of_mem hs'
    have := (List.forall₂_iff_get.1 h).2 i (by rw [h.length_eq]; exact hi) hi
    refine ⟨_, hs', fun e => ?_⟩
    have e2 := this.2.1
    simp only [List.get_eq_getElem] at e2
    have e3 := (hs _ hs').corners
    rw [e] at e2
    rw [← e2] at e3
    simp at e3
  obtain ⟨s, hs', hb⟩ := closed_some hcl huse
  obtain ⟨i, hi, rfl⟩ := List.getElem_of_mem hs'
  have hi' : i < ms.length := by rw [← b2.length_eq]; exact hi
  have hm := ((List.forall₂_iff_get.1 b2).2 i hi hi').2
  exact ⟨i, _, _, List.getElem?_eq_getElem hi, List.getElem?_eq_getElem hi', fun hf => hb (hm.1 hf)⟩

/-! ### Sample faces -/

theorem convex_triangle {s : FaceSide} (h : TriangleSide s) : ConvexFace s.plane s.corners := by
  obtain ⟨a, b, c, e, hd, ha⟩ := h
  have sym : ∀ x y : V3 ℝ, (x.distanceSq y : ℝ) = y.distanceSq x := fun x y => by
    simp only [V3.distanceSq, V3.lengthSq, V3.dot, V3.sub_x, V3.sub_y, V3.sub_z]
    ring
  rw [e]
  refine ⟨by simp, fun x hx y hy hxy => ?_, fun i j k h1 h2 h3 => ?_⟩
  · have e1 := hd (a, b) (by simp [loopEdges, pathEdges])
    have e2 := hd (b, c) (by simp [loopEdges, pathEdges])
    have e3 := hd (c, a) (by simp [loopEdges, pathEdges])
    dsimp only at e1 e2 e3
    have e1' := sym b a ▸ e1
    have e2' := sym c b ▸ e2
    have e3' := sym a c ▸ e3
    simp only [List.mem_cons, List.not_mem_nil, or_false] at hx hy
    rcases hx with rfl | rfl | rfl <;> rcases hy with rfl | rfl | rfl <;> first | exact absurd rfl hxy | assumption
  · simp only [List.map_cons, List.map_nil, List.length_cons, List.length_nil] at h3
    obtain rfl : i = 0 := by omega
    obtain rfl : j = 1 := by omega
    obtain rfl : k = 2 := by omega
    exact ha

/-- Every face of the tetrahedron of C139 uses an edge against its direction, and none of its four faces is filled. -/
theorem C141_example {o : Nat → TrimOracle ℝ} (hbs : ∀ i, BinarySearch (o i).bs) (hdiv : ∀ i, 0 < (o i).divFuel)
    (hear : ∀ i, 2 ≤ (o i).earFuel) (fmt : ℝ → List Char) (fuel : Nat) (rnd : Nat → Nat → List Bool → ℝ) :
    ∃ lines meshes, convertStp o fmt fuel rnd solidFile = .ok (some lines, none) ∧
      (objRead lines).faces = meshes.flatMap meshFaces ∧ List.Forall₂ (fun s m => ¬ FilledBy s m) solidSides meshes := by
  obtain ⟨lines, -, -, h1, -⟩ := C139_example hbs hdiv hear fmt fuel rnd
  obtain ⟨lines', meshes, e, h2, h3, -⟩ := C141_convert (file := solidFile) rfl (by simp [solidSides]) solid_says
    (fun s hs => convex_triangle (solid_triangles s hs)) hbs hdiv (by simp [solidSides, tetraSide]) h1
  cases e
  refine ⟨lines, meshes, h1, h2, ?_⟩
  have hno : ∀ s ∈ solidSides, ¬ ∀ u ∈ s.uses, u.2 = true := by
    intro s hs
    simp only [solidSides, List.mem_cons, List.not_mem_nil, or_false] at hs
    rcases hs with rfl | rfl | rfl | rfl <;> simp [tetraSide]
  have key : ∀ {l : List FaceSide} {ms : List (TriangleMesh ℝ)}, List.Forall₂ (fun s m => FilledBy s m ↔ ∀ u ∈ s.uses, u.2 = true) l ms →
      (∀ s ∈ l, ¬ ∀ u ∈ s.uses, u.2 = true) → List.Forall₂ (fun s m => ¬ FilledBy s m) l ms := by
    intro l ms h
    induction h with
    | nil => exact fun _ => .nil
    | cons h1 _ ih => exact fun h => .cons (fun hf => h _ (by simp) (h1.1 hf)) (ih fun s hs => h s (by simp [hs]))
  exact key h3 hno

/-- A pentagon for C141. -/
def pentagon : List (V3 ℝ) := [⟨0, 0, 0⟩, ⟨4, -1, 0⟩, ⟨6, 2, 0⟩, ⟨3, 5, 0⟩, ⟨-1, 3, 0⟩]

/-- Non-vacuity of C141: a face with five corners. -/
example : ConvexFace ⟨0, ⟨0, 0, 1⟩, ⟨1, 0, 0⟩, ⟨0, 1, 0⟩⟩ pentagon := by
  refine ⟨by simp [pentagon], fun x hx y hy hxy => ?_, fun i j k h1 h2 h3 => ?_⟩
  · simp only [pentagon, List.mem_cons, List.not_mem_nil, or_false] at hx hy
    rcases hx with rfl | rfl | rfl | rfl | rfl <;> rcases hy with rfl | rfl | rfl | rfl | rfl <;>
      first | exact absurd rfl hxy | norm_num [V3.distanceSq, V3.lengthSq, V3.dot, Env.tol]
  · simp only [pentagon, List.map_cons, List.map_nil, List.length_cons, List.length_nil] at h3
    have hk : k < 5 := by omega
    have hj : j < 5 := by omega
    have hi : i < 5 := by omega
    interval_cases i <;> interval_cases j <;> interval_cases k <;> first | omega |
      norm_num [pentagon, triArea2, Plane.project, V3.dot, Env.tol]

end Geom3d
