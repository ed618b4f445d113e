import Verif.Model.Polygon
import Verif.Model.Instances
import Verif.Lemmas.Loops
import Verif.Lemmas.MapM
import Verif.Props.EarArea

/-! # C40: merging holes into the outer polygon -/

set_option linter.unusedSectionVars false

namespace Geom3d

section
variable {F : Type} [Add F] [Sub F] [Mul F] [Div F] [Neg F] [Zero F] [One F] [NatCast F] [LT F] [DecidableLT F]
  [LE F] [DecidableLE F] [Env F]

/-! ### Insertion loops -/

theorem insertRev_ok {α : Type} (g : Nat → α) (l : List α) {pos : Nat} (hp : pos ≤ l.length) {a b : Nat} (hab : a ≤ b) :
    forRangeRev a b l (fun o i => insertAt o pos (g i))
      = .ok (l.take pos ++ (List.range' a (b - a)).map g ++ l.drop pos) := by
  obtain ⟨s', h1, h2⟩ := forRangeRev_inv (a := a) (b := b) (s := l) (body := fun o i => insertAt o pos (g i))
    (I := fun j s => s = l.take pos ++ (List.range' j (b - j)).map g ++ l.drop pos) hab
    (by simp) (by
      rintro i s hi hib rfl
      have hlen : pos ≤ (l.take pos ++ (List.range' (i + 1) (b - (i + 1))).map g ++ l.drop pos).length := by
        simp; omega
      refine ⟨_, by unfold insertAt; rw [if_pos hlen], ?_⟩
      have e : b - i = (b - (i + 1)) + 1 := by omega
      rw [e, List.range'_succ, insertIdx_eq _ _ _ hlen]
      have hlt : (l.take pos).length = pos := by simp [hp]
      rw [List.append_assoc, List.take_left' hlt, List.drop_left' hlt]
      simp)
  rw [h1, h2]

theorem nearestEdge_ok {points : List (V2 F)} {outer : List Nat} (q : V2 F) (hne : outer ≠ [])
    (hv : ∀ x ∈ outer, x < points.length) :
    ∃ d j, nearestEdge points outer q = .ok (d, j) ∧ j < outer.length := by
  have hpos : 0 < outer.length := List.length_pos_of_ne_nil hne
  have hpt : ∀ i, i < outer.length → ∃ p, pointAt points outer i = .ok p := by
    intro i hi
    have := hv outer[i] (List.getElem_mem _)
    exact ⟨points[outer[i]], by unfold pointAt; rw [idx_ok hi, ok_bind, idx_ok this]⟩
  obtain ⟨⟨d, j⟩, h1, h2⟩ := forRange_inv (a := 0) (b := outer.length) (s := ((Env.maxV : F), 0))
    (body := fun (min, minIndex) i => do
      let a ← pointAt points outer i
      let b ← pointAt points outer ((i + 1) % outer.length)
      let distance := distanceToLineSegment2 q a b
      if distance < min then pure (distance, i) else pure (min, minIndex))
    (I := fun _ s => s.2 < outer.length) (Nat.zero_le _) hpos (by
      rintro i ⟨mn, mi⟩ _ hi hI
      obtain ⟨a, ha⟩ := hpt i hi
      obtain ⟨b, hb⟩ := hpt ((i + 1) % outer.length) (Nat.mod_lt _ hpos)
      simp only [ha, hb, ok_bind]
      split
      · exact ⟨_, rfl, hi⟩
      · exact ⟨_, rfl, hI⟩)
  exact ⟨d, j, h1, h2⟩

/-- What one merge returns: the hole is spliced in after position `j`, starting and ending at its vertex `maxX`, and
position `j` is repeated. -/
theorem mergeTwo_ok {points : List (V2 F)} {outer : List Nat} {start stop maxX : Nat} (hne : outer ≠ [])
    (hv : ∀ x ∈ outer, x < points.length) (h1 : start ≤ maxX) (h2 : maxX < stop) (h3 : stop ≤ points.length) :
    ∃ p x q, outer = p ++ x :: q ∧ mergeTwoPolygons points outer start stop maxX
      = .ok (p ++ x :: ((List.range' maxX (stop - maxX)) ++ List.range' start (maxX + 1 - start)) ++ x :: q) := by
  obtain ⟨d, j, hn, hj⟩ := nearestEdge_ok (points := points) (points[maxX]'(by omega)) hne hv
  refine ⟨outer.take j, outer[j], outer.drop (j + 1), by simp, ?_⟩
  unfold mergeTwoPolygons
  rw [idx_ok (by omega), ok_bind, hn, ok_bind]
  simp only
  rw [idx_ok hj, ok_bind]
  have e1 : insertAt outer (j + 1) outer[j] = .ok (outer.take (j + 1) ++ outer[j] :: outer.drop (j + 1)) := by
    unfold insertAt; rw [if_pos (by omega), insertIdx_eq _ _ _ (by omega)]
  rw [e1, ok_bind]
  have hlt : (outer.take (j + 1)).length = j + 1 := by simp; omega
  have e2 := insertRev_ok id (outer.take (j + 1) ++ outer[j] :: outer.drop (j + 1)) (pos := j + 1)
    (by rw [List.length_append, hlt]; omega) (a := start) (b := maxX + 1) (by omega)
  simp only [id_eq, List.map_id] at e2
  rw [e2, ok_bind, List.take_left' hlt, List.drop_left' hlt]
  have e3 := insertRev_ok id (outer.take (j + 1) ++ List.range' start (maxX + 1 - start) ++ outer[j] :: outer.drop (j + 1))
    (pos := j + 1) (by rw [List.append_assoc, List.length_append, hlt]; omega) (a := maxX) (b := stop) (by omega)
  simp only [id_eq, List.map_id] at e3
  rw [e3, List.append_assoc (outer.take (j + 1)), List.take_left' hlt, List.drop_left' hlt]
  have : outer.take (j + 1) = outer.take j ++ [outer[j]] := by
    rw [List.take_add_one]; simp [List.getElem?_eq_getElem hj]
  rw [this]
  simp only [List.append_assoc, List.cons_append, List.nil_append]

/-- The directed edges and the vertices after splicing in a hole. -/
theorem splice_edges (p q : List Nat) (x start stop m : Nat) (h1 : start ≤ m) (h2 : m < stop) :
    (Spec.loopEdges (p ++ x :: ((List.range' m (stop - m)) ++ List.range' start (m + 1 - start)) ++ x :: q)).Perm
      (Spec.loopEdges (p ++ x :: q) ++ Spec.loopEdges (List.range' start (stop - start)) ++ [(x, m), (m, x)]) ∧
    (p ++ x :: ((List.range' m (stop - m)) ++ List.range' start (m + 1 - start)) ++ x :: q).Perm
      ((p ++ x :: q) ++ List.range' start (stop - start) ++ [x, m]) := by
  have e1 : List.range' start (m + 1 - start) = List.range' start (m - start) ++ [m] := by
    rw [show m + 1 - start = (m - start) + 1 by omega, List.range'_concat]
    congr 2; omega
  have e2 : List.range' m (stop - m) = m :: List.range' (m + 1) (stop - m - 1) := by
    rw [show stop - m = (stop - m - 1) + 1 by omega, List.range'_succ]; rfl
  have e3 : List.range' start (stop - start) = List.range' start (m - start) ++ List.range' m (stop - m) := by
    rw [show stop - start = (m - start) + (stop - m) by omega, ← List.range'_append]
    congr 2; omega
  have hrot : (Spec.loopEdges (m :: (List.range' (m + 1) (stop - m - 1) ++ List.range' start (m - start)))).Perm
      (Spec.loopEdges (List.range' start (stop - start))) := by
    rw [e3, e2]
    have := Spec.loopEdges_append_comm (m :: List.range' (m + 1) (stop - m - 1)) (List.range' start (m - start))
    simpa using this
  constructor
  · refine (Spec.loopEdges_splice p x _ q).trans ?_
    have e4 : Spec.loopEdges (x :: ((List.range' m (stop - m)) ++ List.range' start (m + 1 - start)))
        = (x, m) :: (Spec.loopEdges (m :: (List.range' (m + 1) (stop - m - 1) ++ List.range' start (m - start)))
          ++ [(m, x)]) := by
      rw [Spec.loopEdges_cons, e1, e2, List.cons_append, List.cons_append, Spec.pathEdges_cons_cons,
        Spec.loopEdges_cons]
      have : m :: (List.range' (m + 1) (stop - m - 1) ++ (List.range' start (m - start) ++ [m]) ++ [x])
          = (m :: (List.range' (m + 1) (stop - m - 1) ++ List.range' start (m - start))) ++ m :: [x] := by simp
      rw [this, Spec.pathEdges_append]
      simp
    rw [e4]
    refine List.Perm.trans ?_ (((List.Perm.refl (Spec.loopEdges (p ++ x :: q))).append hrot).append_right _)
    generalize Spec.loopEdges (m :: (List.range' (m + 1) (stop - m - 1) ++ List.range' start (m - start))) = L
    generalize Spec.loopEdges (p ++ x :: q) = M
    rw [List.perm_iff_count]
    intro a
    simp only [List.count_append, List.count_cons, List.count_nil]
    omega
  · rw [List.perm_iff_count]
    intro a
    rw [e1, e3]
    simp only [List.count_append, List.count_cons, List.count_nil]
    omega

/-! ### The maximum-x vertex of a loop -/

theorem maxXIndex_ok {points : List (V2 F)} {start stop : Nat} (h : stop ≤ points.length)
    (hx : ∃ i, ∃ hi : i < points.length, start ≤ i ∧ i < stop ∧ (Env.minV : F) < points[i].x) :
    ∃ x m, maxXIndex points start stop = .ok (x, m) ∧ start ≤ m ∧ m < stop ∧ ∃ hm : m < points.length, x = points[m].x := by
  obtain ⟨i0, hi0, h1, h2, h3⟩ := hx
  obtain ⟨⟨x, m⟩, e1, e2⟩ := forRange_inv (a := start) (b := stop) (s := ((Env.minV : F), 0))
    (body := fun (xMax, iMax) index => do
      let p ← idx points index
      if xMax < p.x then pure (p.x, index) else pure (xMax, iMax))
    (I := fun j s => (s = (Env.minV, 0) ∧ j ≤ i0) ∨ (start ≤ s.2 ∧ s.2 < stop ∧ ∃ hm : s.2 < points.length, s.1 = points[s.2].x))
    (by omega) (.inl ⟨rfl, h1⟩) (by
      rintro j ⟨x, m⟩ hj hjs hI
      simp only [idx_ok (show j < points.length by omega), ok_bind]
      split
      · exact ⟨_, rfl, .inr ⟨hj, hjs, by simp only; omega, rfl⟩⟩
      · rename_i hlt
        refine ⟨_, rfl, ?_⟩
        rcases hI with ⟨hs, hle⟩ | hI
        · left
          refine ⟨hs, ?_⟩
          by_contra hc
          obtain rfl : j = i0 := by omega
          cases hs
          exact hlt h3
        · exact .inr hI)
  refine ⟨x, m, e1, ?_⟩
  rcases e2 with ⟨_, hle⟩ | ⟨a, b, c⟩
  · omega
  · exact ⟨a, b, c⟩

theorem insByX_perm (a : LoopInfo F) (l : List (LoopInfo F)) : (insByX a l).Perm (a :: l) := by
  induction l with
  | nil => exact List.Perm.refl _
  | cons b l ih =>
    unfold insByX
    split
    · exact (ih.cons b).trans (List.Perm.swap a b l)
    · exact List.Perm.refl _

theorem sortByX_perm (l : List (LoopInfo F)) : (sortByX l).Perm l := by
  induction l with
  | nil => exact List.Perm.refl _
  | cons a l ih => exact (insByX_perm a _).trans (ih.cons a)

/-! ### All holes -/

/-- The vertex indices of a loop given by its offsets. -/
def Spec.loopRange (p : Nat × Nat) : List Nat := List.range' p.1 (p.2 - p.1)

/-- A loop info is usable: its maximum lies in the loop. -/
def LoopInfo.Ok (points : List (V2 F)) (h : LoopInfo F) : Prop :=
  h.start ≤ h.iMax ∧ h.iMax < h.stop ∧ h.stop ≤ points.length

theorem merge_fold {points : List (V2 F)} (inner : List (LoopInfo F)) (hin : ∀ h ∈ inner, h.Ok points)
    (vs : List Nat) (hne : vs ≠ []) (hv : ∀ x ∈ vs, x < points.length) :
    ∃ V B, inner.foldlM (fun vs h => mergeTwoPolygons points vs h.start h.stop h.iMax) vs = .ok V ∧
      B.map Prod.snd = inner.map LoopInfo.iMax ∧ V.head? = vs.head? ∧
      (Spec.loopEdges V).Perm (Spec.loopEdges vs ++ inner.flatMap (fun h => Spec.loopEdges (Spec.loopRange (h.start, h.stop)))
        ++ B ++ B.map Prod.swap) ∧
      V.Perm (vs ++ inner.flatMap (fun h => Spec.loopRange (h.start, h.stop)) ++ B.map Prod.fst ++ B.map Prod.snd) ∧
      ∀ b ∈ B, b.1 ∈ vs ++ inner.flatMap (fun h => Spec.loopRange (h.start, h.stop)) ∧
        b.2 ∈ inner.flatMap (fun h => Spec.loopRange (h.start, h.stop)) := by
  induction inner generalizing vs with
  | nil => exact ⟨vs, [], rfl, rfl, rfl, by simp, by simp, by simp⟩
  | cons h inner ih =>
    obtain ⟨h1, h2, h3⟩ := hin h (List.mem_cons_self ..)
    obtain ⟨p, x, q, e1, e2⟩ := mergeTwo_ok hne hv h1 h2 h3
    obtain ⟨c1, c2⟩ := splice_edges p q x h.start h.stop h.iMax h1 h2
    rw [← e1] at c1 c2
    obtain ⟨V, B, f1, f2, f3, f4, f5, f6⟩ := ih (fun x hx => hin x (List.mem_cons_of_mem _ hx))
      (p ++ x :: (List.range' h.iMax (h.stop - h.iMax) ++ List.range' h.start (h.iMax + 1 - h.start)) ++ x :: q)
      (by simp) (by
        intro y hy
        have := c2.subset hy
        simp only [List.mem_append, List.mem_range', List.mem_cons, List.not_mem_nil, or_false] at this
        rcases this with (hy | ⟨i, hi, rfl⟩) | rfl | rfl
        · exact hv y hy
        · omega
        · exact hv _ (by rw [e1]; simp)
        · omega)
    refine ⟨V, (x, h.iMax) :: B, by rw [List.foldlM_cons, e2, ok_bind]; exact f1, by simp [f2], ?_, ?_, ?_, ?_⟩
    · rw [f3, e1]; cases p <;> simp
    · refine f4.trans ?_
      refine (((c1.append_right _).append_right _).append_right _).trans ?_
      rw [List.perm_iff_count]
      intro a
      simp only [List.flatMap_cons, Spec.loopRange, List.count_append, List.count_cons, List.count_nil, List.map_cons, Prod.swap]
      omega
    · refine f5.trans ?_
      refine (((c2.append_right _).append_right _).append_right _).trans ?_
      rw [List.perm_iff_count]
      intro a
      simp only [List.flatMap_cons, Spec.loopRange, List.count_append, List.count_cons, List.count_nil, List.map_cons]
      omega
    · have hx : x ∈ vs := by rw [e1]; simp
      have hm : h.iMax ∈ Spec.loopRange (h.start, h.stop) := by
        simp only [Spec.loopRange, List.mem_range']; exact ⟨h.iMax - h.start, by omega, by omega⟩
      intro b hb
      simp only [List.flatMap_cons, List.mem_append]
      rcases List.mem_cons.1 hb with rfl | hb
      · exact ⟨.inl hx, .inl hm⟩
      · obtain ⟨g1, g2⟩ := f6 b hb
        refine ⟨?_, .inr g2⟩
        rcases List.mem_append.1 g1 with g1 | g1
        · have := c2.subset g1
          simp only [List.mem_append, List.mem_cons, List.not_mem_nil, or_false] at this
          rcases this with (g | g) | g | g
          · exact .inl g
          · exact .inr (.inl g)
          · exact .inl (g ▸ hx)
          · exact .inr (.inl (g ▸ hm))
        · exact .inr (.inr g1)

/-- The offsets describe loops inside `points`, each with a vertex whose `x` exceeds the smallest float. -/
def Spec.LoopsOk (points : List (V2 F)) (polygons : List Nat) : Prop :=
  ∀ p ∈ pairs polygons, p.2 ≤ points.length ∧
    ∃ i, ∃ hi : i < points.length, p.1 ≤ i ∧ i < p.2 ∧ (Env.minV : F) < points[i].x

theorem merge_infos {points : List (V2 F)} {polygons : List Nat} (hok : Spec.LoopsOk points polygons) :
    ∃ infos : List (LoopInfo F), ((pairs polygons).mapM fun (start, stop) => do
      let (xMax, iMax) ← maxXIndex points start stop
      pure (⟨start, stop, iMax, xMax⟩ : LoopInfo F)) = .ok infos ∧
      infos.map (fun h => (h.start, h.stop)) = pairs polygons ∧ (∀ h ∈ infos, h.Ok points) ∧
      ∀ h ∈ infos, maxXIndex points h.start h.stop = .ok (h.xMax, h.iMax) := by
  obtain ⟨infos, h1, h2⟩ := mapM_ok (l := pairs polygons) (f := fun (start, stop) => do
      let (xMax, iMax) ← maxXIndex points start stop
      pure (⟨start, stop, iMax, xMax⟩ : LoopInfo F))
    (P := fun p h => (h.start, h.stop) = p ∧ h.Ok points ∧ maxXIndex points h.start h.stop = .ok (h.xMax, h.iMax))
    (by
      rintro ⟨a, b⟩ hp
      obtain ⟨hb, hx⟩ := hok _ hp
      obtain ⟨x, m, e1, e2, e3, _⟩ := maxXIndex_ok hb hx
      exact ⟨⟨a, b, m, x⟩, by simp only [e1, ok_bind]; rfl, rfl, ⟨e2, e3, hb⟩, e1⟩)
  refine ⟨infos, h1, ?_⟩
  clear h1 hok
  generalize pairs polygons = L at h2
  induction h2 with
  | nil => simp
  | cons h _ ih =>
    obtain ⟨i1, i2, i3⟩ := ih
    refine ⟨by rw [List.map_cons, h.1, i1], ?_, ?_⟩
    · intro x hx
      rcases List.mem_cons.1 hx with rfl | hx
      · exact h.2.1
      · exact i2 x hx
    · intro x hx
      rcases List.mem_cons.1 hx with rfl | hx
      · exact h.2.2
      · exact i3 x hx

/-- **C40** (any arithmetic, NaN included): for at least one loop, `merge_polygons` returns one index loop.  Its
directed edges are those of all loops plus one bridge edge per hole in both directions; its vertices are those of all
loops plus the two ends of every bridge. -/
theorem C40_merge {points : List (V2 F)} {polygons : List Nat} (hok : Spec.LoopsOk points polygons)
    (h2 : 2 ≤ polygons.length) :
    ∃ V B, mergePolygons points polygons = .ok V ∧
      (Spec.loopEdges V).Perm ((pairs polygons).flatMap (fun p => Spec.loopEdges (Spec.loopRange p))
        ++ B ++ B.map Prod.swap) ∧
      V.Perm ((pairs polygons).flatMap Spec.loopRange ++ B.map Prod.fst ++ B.map Prod.snd) ∧
      B.length + 2 = polygons.length ∧
      ∀ b ∈ B, b.1 ∈ (pairs polygons).flatMap Spec.loopRange ∧ b.2 ∈ (pairs polygons).flatMap Spec.loopRange := by
  obtain ⟨infos, h1, hpair, hin, hmax⟩ := merge_infos hok
  have hlen : infos.length + 1 = polygons.length := by
    have := congrArg List.length hpair
    simp [pairs] at this; omega
  unfold mergePolygons
  rw [h1, ok_bind]
  have hperm : (sortByX infos).reverse.Perm infos := (List.reverse_perm _).trans (sortByX_perm _)
  cases hs : (sortByX infos).reverse with
  | nil =>
    rw [hs] at hperm
    have := hperm.length_eq
    simp at this; omega
  | cons outer inner =>
    rw [hs] at hperm
    simp only
    obtain ⟨o1, o2, o3⟩ := hin outer (hperm.subset (List.mem_cons_self ..))
    obtain ⟨V, B, f1, f2, -, f4, f5, f6⟩ := merge_fold inner
      (fun h hh => hin h (hperm.subset (List.mem_cons_of_mem _ hh)))
      (List.range' outer.start (outer.stop - outer.start))
      (by
        intro hc
        have := congrArg List.length hc
        simp at this; omega)
      (by
        intro x hx
        rw [List.mem_range'] at hx
        obtain ⟨i, hi, rfl⟩ := hx
        omega)
    refine ⟨V, B, f1, ?_, ?_, ?_, ?_⟩
    · refine f4.trans ((List.Perm.append_right _ ?_).append_right _)
      rw [← hpair, List.flatMap_map]
      exact hperm.flatMap_right fun h => Spec.loopEdges (Spec.loopRange (h.start, h.stop))
    · refine f5.trans ((List.Perm.append_right _ ?_).append_right _)
      rw [← hpair, List.flatMap_map]
      exact hperm.flatMap_right fun h => Spec.loopRange (h.start, h.stop)
    · have e1 := congrArg List.length f2
      have e2 := hperm.length_eq
      simp at e1 e2
      omega
    · intro b hb
      have hsub : ∀ x, x ∈ (outer :: inner).flatMap (fun h => Spec.loopRange (h.start, h.stop)) →
          x ∈ (pairs polygons).flatMap Spec.loopRange := by
        intro x hx
        rw [← hpair, List.flatMap_map]
        exact (hperm.flatMap_right _ : ((outer :: inner).flatMap _).Perm _).subset hx
      obtain ⟨g1, g2⟩ := f6 b hb
      exact ⟨hsub _ g1, hsub _ (List.mem_append_right _ g2)⟩

/-- **C40**: every input vertex occurs, and the number of vertices is that of the loops plus two per hole. -/
theorem C40_length {points : List (V2 F)} {polygons : List Nat} (hok : Spec.LoopsOk points polygons)
    (h2 : 2 ≤ polygons.length) :
    ∃ V, mergePolygons points polygons = .ok V ∧
      (∀ p ∈ pairs polygons, ∀ i, p.1 ≤ i → i < p.2 → i ∈ V) ∧
      (∀ v ∈ V, ∃ p ∈ pairs polygons, p.1 ≤ v ∧ v < p.2) ∧
      V.length = ((pairs polygons).map fun p => p.2 - p.1).sum + 2 * (polygons.length - 2) := by
  obtain ⟨V, B, h1, -, h3, h4, h5⟩ := C40_merge hok h2
  have hmem : ∀ v, v ∈ (pairs polygons).flatMap Spec.loopRange ↔ ∃ p ∈ pairs polygons, p.1 ≤ v ∧ v < p.2 := by
    intro v
    simp only [List.mem_flatMap, Spec.loopRange, List.mem_range']
    constructor
    · rintro ⟨p, hp, i, hi, rfl⟩; exact ⟨p, hp, by omega, by omega⟩
    · rintro ⟨p, hp, ha, hb⟩; exact ⟨p, hp, v - p.1, by omega, by omega⟩
  refine ⟨V, h1, ?_, ?_, ?_⟩
  · intro p hp i ha hb
    apply h3.symm.subset
    rw [List.mem_append, List.mem_append]
    exact .inl (.inl ((hmem i).2 ⟨p, hp, ha, hb⟩))
  · intro v hv
    rw [← hmem]
    have := h3.subset hv
    simp only [List.mem_append, List.mem_map] at this
    rcases this with (h | ⟨b, hb, rfl⟩) | ⟨b, hb, rfl⟩
    · exact h
    · exact (h5 b hb).1
    · exact (h5 b hb).2
  · rw [h3.length_eq]
    simp only [List.length_append, List.length_map, List.length_flatMap, Spec.loopRange, List.length_range']
    omega

/-- **C40**: without any loop `merge_polygons` panics (`unwrap` on `None`). -/
theorem C40_empty_panics (points : List (V2 F)) {polygons : List Nat} (h : polygons.length < 2) :
    mergePolygons points polygons = .error .unwrap := by
  have : pairs polygons = [] := by
    match polygons, h with
    | [], _ => rfl
    | [_], _ => rfl
  unfold mergePolygons
  rw [this]
  rfl

end

section
variable {K : Type} [Field K] [LinearOrder K] [IsStrictOrderedRing K] [Env K]

/-- **C40**: in exact arithmetic the merged loop has the total signed area of all loops. -/
theorem C40_area {points : List (V2 K)} {polygons : List Nat} (hok : Spec.LoopsOk points polygons)
    (h2 : 2 ≤ polygons.length) :
    ∃ V, mergePolygons points polygons = .ok V ∧
      Spec.area2 (Spec.loopPoints points V)
        = ((pairs polygons).map fun p => Spec.area2 (Spec.loopPoints points (Spec.loopRange p))).sum := by
  obtain ⟨V, B, h1, h3, -⟩ := C40_merge hok h2
  refine ⟨V, h1, ?_⟩
  have harea : ∀ l : List Nat, Spec.area2 (Spec.loopPoints points l)
      = ((Spec.loopEdges l).map fun e => Spec.cross2 (points.getD e.1 0) (points.getD e.2 0)).sum := by
    intro l
    unfold Spec.area2 Spec.loopPoints
    rw [Spec.loopEdges_map, List.map_map]; rfl
  rw [harea, (h3.map _).sum_eq, List.map_append, List.map_append, List.sum_append, List.sum_append]
  have hB : (B.map fun e => Spec.cross2 (points.getD e.1 0) (points.getD e.2 0)).sum
      + ((B.map Prod.swap).map fun e => Spec.cross2 (points.getD e.1 0) (points.getD e.2 0)).sum = 0 := by
    clear h3
    induction B with
    | nil => simp
    | cons b B ih =>
      simp only [List.map_cons, List.sum_cons, Prod.fst_swap, Prod.snd_swap]
      have : Spec.cross2 (points.getD b.1 0) (points.getD b.2 0) + Spec.cross2 (points.getD b.2 0) (points.getD b.1 0)
          = (0 : K) := by simp only [Spec.cross2]; ring
      linear_combination ih + this
  rw [add_assoc, hB, add_zero]
  generalize pairs polygons = L
  induction L with
  | nil => rfl
  | cons p L ih => rw [List.flatMap_cons, List.map_append, List.sum_append, List.map_cons, List.sum_cons, ih, harea]

end

section
variable {K : Type} [Add K] [Sub K] [Mul K] [Div K] [Neg K] [Zero K] [One K] [NatCast K] [LinearOrder K] [Env K]

/-- The reported maximum is one. -/
theorem maxXIndex_max {points : List (V2 K)} {start stop : Nat} (h : stop ≤ points.length) {x : K} {m : Nat}
    (hm : maxXIndex points start stop = .ok (x, m)) :
    Env.minV ≤ x ∧ ∀ i, ∀ hi : i < points.length, start ≤ i → i < stop → points[i].x ≤ x := by
  by_cases hs : start ≤ stop
  · have := forRange_partial (a := start) (b := stop) (s := ((Env.minV : K), 0))
      (I := fun j s => Env.minV ≤ s.1 ∧ ∀ i, ∀ hi : i < points.length, start ≤ i → i < j → points[i].x ≤ s.1) hs
      ⟨le_refl _, fun i _ a b => by omega⟩ (by
        rintro j ⟨y, k⟩ s' hj hjs ⟨i1, i2⟩ hb
        simp only [idx_ok (show j < points.length by omega), ok_bind] at hb
        split at hb
        · rename_i hlt
          cases hb
          refine ⟨le_trans i1 (le_of_lt hlt), fun i hi a b => ?_⟩
          rcases Nat.lt_succ_iff_lt_or_eq.1 b with b | rfl
          · exact le_trans (i2 i hi a b) (le_of_lt hlt)
          · exact le_refl _
        · rename_i hlt
          cases hb
          refine ⟨i1, fun i hi a b => ?_⟩
          rcases Nat.lt_succ_iff_lt_or_eq.1 b with b | rfl
          · exact i2 i hi a b
          · exact not_lt.1 hlt) hm
    exact this
  · unfold maxXIndex at hm
    rw [forRange_nil (by omega)] at hm
    cases hm
    exact ⟨le_refl _, fun i _ a b => by omega⟩

theorem insByX_sorted (a : LoopInfo K) {l : List (LoopInfo K)} (h : l.Pairwise fun a b => a.xMax ≤ b.xMax) :
    (insByX a l).Pairwise fun a b => a.xMax ≤ b.xMax := by
  induction l with
  | nil => simp [insByX]
  | cons b l ih =>
    unfold insByX
    rw [List.pairwise_cons] at h
    split
    · rename_i hlt
      rw [List.pairwise_cons]
      refine ⟨fun c hc => ?_, ih h.2⟩
      rcases List.mem_cons.1 ((insByX_perm a l).subset hc) with rfl | hc
      · exact le_of_lt hlt
      · exact h.1 c hc
    · rename_i hlt
      rw [List.pairwise_cons]
      refine ⟨fun c hc => ?_, List.pairwise_cons.2 h⟩
      rcases List.mem_cons.1 hc with rfl | hc
      · exact not_lt.1 hlt
      · exact le_trans (not_lt.1 hlt) (h.1 c hc)

theorem sortByX_sorted (l : List (LoopInfo K)) : (sortByX l).Pairwise fun a b => a.xMax ≤ b.xMax := by
  induction l with
  | nil => exact List.Pairwise.nil
  | cons a l ih => exact insByX_sorted a ih

/-- **C40**: the loop into which the others are merged is one that reaches furthest in `x`: the result starts with its
first vertex. -/
theorem C40_outer {points : List (V2 K)} {polygons : List Nat} (hok : Spec.LoopsOk points polygons)
    (h2 : 2 ≤ polygons.length) :
    ∃ V p, mergePolygons points polygons = .ok V ∧ p ∈ pairs polygons ∧ V.head? = some p.1 ∧
      ∃ m, ∃ hm : m < points.length, p.1 ≤ m ∧ m < p.2 ∧
        ∀ q ∈ pairs polygons, ∀ i, ∀ hi : i < points.length, q.1 ≤ i → i < q.2 → points[i].x ≤ points[m].x := by
  obtain ⟨infos, h1, hpair, hin, hmax⟩ := merge_infos hok
  have hlen : infos.length + 1 = polygons.length := by
    have := congrArg List.length hpair
    simp [pairs] at this; omega
  unfold mergePolygons
  rw [h1, ok_bind]
  have hperm : (sortByX infos).reverse.Perm infos := (List.reverse_perm _).trans (sortByX_perm _)
  have hsort := List.pairwise_reverse.2 (sortByX_sorted infos)
  cases hs : (sortByX infos).reverse with
  | nil =>
    rw [hs] at hperm
    have := hperm.length_eq
    simp at this; omega
  | cons outer inner =>
    rw [hs] at hperm hsort
    simp only
    have hmem := hperm.subset (List.mem_cons_self ..)
    obtain ⟨o1, o2, o3⟩ := hin outer hmem
    obtain ⟨V, B, f1, f2, f3, -⟩ := merge_fold inner
      (fun h hh => hin h (hperm.subset (List.mem_cons_of_mem _ hh)))
      (List.range' outer.start (outer.stop - outer.start))
      (by
        intro hc
        have := congrArg List.length hc
        simp at this; omega)
      (by
        intro x hx
        rw [List.mem_range'] at hx
        obtain ⟨i, hi, rfl⟩ := hx
        omega)
    have hp : (outer.start, outer.stop) ∈ pairs polygons := by
      rw [← hpair]; exact List.mem_map.2 ⟨outer, hmem, rfl⟩
    refine ⟨V, (outer.start, outer.stop), f1, hp, ?_, outer.iMax, by omega, o1, o2, ?_⟩
    · rw [f3, show outer.stop - outer.start = (outer.stop - outer.start - 1) + 1 by omega, List.range'_succ]
      rfl
    · intro q hq i hi ha hb
      rw [← hpair, List.mem_map] at hq
      obtain ⟨h, hh, rfl⟩ := hq
      have hx := (maxXIndex_max (hin h hh).2.2 (hmax h hh)).2 i hi ha hb
      have hle : h.xMax ≤ outer.xMax := by
        rcases List.mem_cons.1 (hperm.symm.subset hh) with rfl | hh
        · exact le_refl _
        · exact (List.pairwise_cons.1 hsort).1 h hh
      obtain ⟨x, m, e1, e2, e3, e4, e5⟩ := maxXIndex_ok o3 (hok _ hp).2
      rw [hmax outer hmem] at e1
      cases e1
      rw [← e5]
      exact le_trans hx hle

end

/-! ### Findings and witnesses -/

/-- **C40**, finding: an empty hole (two equal offsets) makes `merge_polygons` insert all preceding vertices again,
because its "vertex of greatest x" defaults to index 0. -/
theorem C40_empty_hole :
    mergePolygons ([⟨0, 0⟩, ⟨1, 0⟩, ⟨0, 1⟩] : List (V2 Float)) [0, 3, 3] = .ok [0, 0, 1, 2, 0, 1, 2] := by
  decide +kernel

/-- Non-vacuity of C40: a square with a triangular hole, in binary64. -/
example : Spec.LoopsOk ([⟨0, 0⟩, ⟨9, 0⟩, ⟨9, 9⟩, ⟨0, 9⟩, ⟨2, 2⟩, ⟨2, 5⟩, ⟨5, 2⟩] : List (V2 Float)) [0, 4, 7] := by
  intro p hp
  simp only [pairs, List.tail_cons, List.zip_cons_cons, List.zip_nil_right, List.mem_cons, List.not_mem_nil,
    or_false] at hp
  rcases hp with rfl | rfl
  · exact ⟨by simp, 0, by simp, by decide +kernel⟩
  · exact ⟨by simp, 4, by simp, by decide +kernel⟩

example : mergePolygons ([⟨0, 0⟩, ⟨9, 0⟩, ⟨9, 9⟩, ⟨0, 9⟩, ⟨2, 2⟩, ⟨2, 5⟩, ⟨5, 2⟩] : List (V2 Float)) [0, 4, 7]
    = .ok [0, 6, 4, 5, 6, 0, 1, 2, 3] := by decide +kernel

end Geom3d
