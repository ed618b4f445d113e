import Verif.Model.Meshgen
import Verif.Model.Instances
import Verif.Lemmas.Loops
import Verif.Lemmas.MapM
import Verif.Props.EarArea
import Verif.Props.Merge
import Verif.Spec.Mesh

/-! # C41, C42: the advancing front (any arithmetic) -/

set_option linter.unusedSectionVars false

namespace Geom3d

section
variable {F : Type} [Add F] [Sub F] [Mul F] [Div F] [Neg F] [Zero F] [One F] [NatCast F] [LT F] [DecidableLT F]
  [LE F] [DecidableLE F] [Env F]

/-! ### The selected node is a vertex -/

theorem frontCandidate_valid {start stop : Nat} {selected : Option Nat} {vertices : List (V2 F)} {a b q : V2 F}
    {e : Nat × Nat} {n : Nat} {f : F}
    (h : frontCandidate start stop selected vertices a b q e = .ok (some (n, f))) :
    n < vertices.length ∧ (n = e.1 ∨ n = e.2) := by
  have key : ∀ {v : V2 F}, idx vertices e.1 = .ok v → n = e.1 → n < vertices.length ∧ (n = e.1 ∨ n = e.2) := by
    intro v h1 h2; subst h2; exact ⟨idx_lt h1, .inl rfl⟩
  have key2 : ∀ {v : V2 F}, idx vertices e.2 = .ok v → n = e.2 → n < vertices.length ∧ (n = e.1 ∨ n = e.2) := by
    intro v h1 h2; subst h2; exact ⟨idx_lt h1, .inr rfl⟩
  unfold frontCandidate at h
  split at h
  · rw [bind_eq_ok] at h
    obtain ⟨inner, -, h⟩ := h
    split at h
    · rw [bind_eq_ok] at h
      obtain ⟨v, h1, h⟩ := h
      simp only [pure_eq_ok, Except.ok.injEq, Option.some.injEq, Prod.mk.injEq] at h
      exact key h1 h.1.symm
    · split at h
      · simp only [bind_eq_ok] at h
        obtain ⟨c, hc, d, hd, h⟩ := h
        repeat' split at h
        all_goals
          simp only [pure_eq_ok, Except.ok.injEq, Option.some.injEq, Prod.mk.injEq, reduceCtorEq] at h
        all_goals first
          | exact key hc h.1.symm
          | exact key2 hd h.1.symm
      · simp at h
  · simp at h

theorem findIntersection_valid {pick : List (Nat × F) → Option Nat} (hp : PickOk pick) {start stop : Nat}
    {selected : Option Nat} {front : List (Nat × Nat)} {vertices : List (V2 F)} {n : Nat}
    (h : findIntersectionWithFront pick start stop selected front vertices = .ok (some n)) :
    n < vertices.length ∧ ∃ e ∈ front, n = e.1 ∨ n = e.2 := by
  unfold findIntersectionWithFront at h
  simp only [bind_eq_ok] at h
  obtain ⟨a, -, b, -, q, -, nearby, hn, h⟩ := h
  simp only [pure_eq_ok, Except.ok.injEq] at h
  obtain ⟨f, hf⟩ := hp.mem _ _ h
  rw [List.mem_filterMap] at hf
  obtain ⟨o, ho, hof⟩ := hf
  have h2 := of_mapM_ok hn
  simp only [id_eq] at hof
  subst hof
  clear hn h
  induction h2 with
  | nil => simp at ho
  | cons hc _ ih =>
    rcases List.mem_cons.1 ho with rfl | ho
    · have := frontCandidate_valid hc
      exact ⟨this.1, _, List.mem_cons_self .., this.2⟩
    · obtain ⟨i1, e, i2, i3⟩ := ih ho
      exact ⟨i1, e, List.mem_cons_of_mem _ i2, i3⟩

theorem selectNode_valid {pick : List (Nat × F) → Option Nat} (hp : PickOk pick) {start stop : Nat}
    {front : List (Nat × Nat)} {vertices : List (V2 F)} (fuel : Nat) {selected r : Option Nat}
    (h0 : ∀ n, selected = some n → n < vertices.length)
    (h : selectNode pick start stop front vertices fuel selected = .ok r) :
    ∀ n, r = some n → n < vertices.length := by
  induction fuel generalizing selected with
  | zero => cases h
  | succ fuel ih =>
    unfold selectNode at h
    rw [bind_eq_ok] at h
    obtain ⟨o, ho, h⟩ := h
    cases o with
    | none => cases h; exact h0
    | some node =>
      refine ih ?_ h
      rintro n ⟨⟩
      exact (findIntersection_valid hp ho).1

/-! ### The two outcomes of a step -/

theorem frontStep_cases {pick : List (Nat × F) → Option Nat} (hp : PickOk pick) {fuel : Nat} {s s' : FrontState F}
    {e : Nat × Nat} (h : frontStep pick fuel s e = .ok s') :
    e.1 < s.vertices.length ∧ e.2 < s.vertices.length ∧
    ((∃ n, n < s.vertices.length ∧ s' = ⟨frontAdd (frontAdd s.front e.1 n) n e.2, s.vertices,
        s.triangles ++ [e.1, e.2, n]⟩) ∨
     (∃ p, s' = ⟨(s.vertices.length, e.2) :: (e.1, s.vertices.length) :: s.front, s.vertices ++ [p],
        s.triangles ++ [e.1, e.2, s.vertices.length]⟩)) := by
  unfold frontStep at h
  simp only [bind_eq_ok] at h
  obtain ⟨a, ha, b, hb, o, ho, h⟩ := h
  refine ⟨idx_lt ha, idx_lt hb, ?_⟩
  cases o with
  | none => cases h; exact .inr ⟨_, rfl⟩
  | some n =>
    cases h
    exact .inl ⟨n, selectNode_valid hp fuel (selected := none) (by simp) ho n rfl, rfl⟩

theorem frontLoop_inv {pick : List (Nat × F) → Option Nat} (hp : PickOk pick) {innerFuel : Nat}
    (I : FrontState F → Prop)
    (hold : ∀ f e v t n, I ⟨f ++ [e], v, t⟩ → e.1 < v.length → e.2 < v.length → n < v.length →
      I ⟨frontAdd (frontAdd f e.1 n) n e.2, v, t ++ [e.1, e.2, n]⟩)
    (hnew : ∀ f e v t p, I ⟨f ++ [e], v, t⟩ → e.1 < v.length → e.2 < v.length →
      I ⟨(v.length, e.2) :: (e.1, v.length) :: f, v ++ [p], t ++ [e.1, e.2, v.length]⟩)
    (fuel : Nat) {s s' : FrontState F} (h0 : I s) (h : frontLoop pick innerFuel fuel s = .ok s') :
    I s' ∧ s'.front = [] := by
  induction fuel generalizing s with
  | zero => cases h
  | succ fuel ih =>
    unfold frontLoop at h
    split at h
    · rename_i hl
      cases h
      exact ⟨h0, List.getLast?_eq_none_iff.1 hl⟩
    · rename_i e hl
      rw [bind_eq_ok] at h
      obtain ⟨s1, h1, h2⟩ := h
      obtain ⟨hne, he⟩ : ∃ hne : s.front ≠ [], s.front.getLast hne = e := by
        rw [List.getLast?_eq_some_iff] at hl
        obtain ⟨l, hl⟩ := hl
        exact ⟨by simp [hl], by simp [hl]⟩
      have hs : I ⟨s.front.dropLast ++ [e], s.vertices, s.triangles⟩ := by
        rw [← he, List.dropLast_append_getLast]; exact h0
      refine ih ?_ h2
      obtain ⟨g1, g2, ⟨n, g3, rfl⟩ | ⟨p, rfl⟩⟩ := frontStep_cases hp h1
      · exact hold _ _ _ _ _ hs g1 g2 g3
      · exact hnew _ _ _ _ _ hs g1 g2

/-- **C41** (any arithmetic, any offsets): whenever the generator returns, the given points are a prefix of the
vertices, the indices form triangles, every index addresses a vertex, and there are at most as many new vertices as
triangles. -/
theorem C41_valid {pick : List (Nat × F) → Option Nat} (hp : PickOk pick) {innerFuel fuel : Nat}
    {points : List (V2 F)} {polygons : List Nat} {V : List (V2 F)} {T : List Nat}
    (h : generateTriangularMesh pick innerFuel fuel points polygons = .ok (V, T)) :
    points <+: V ∧ (∃ k, T.length = 3 * k ∧ V.length ≤ points.length + k) ∧ ∀ t ∈ T, t < V.length := by
  unfold generateTriangularMesh at h
  simp only [bind_eq_ok] at h
  obtain ⟨front, -, s, hs, h⟩ := h
  cases h
  refine (frontLoop_inv hp (I := fun s => points <+: s.vertices ∧
      (∃ k, s.triangles.length = 3 * k ∧ s.vertices.length ≤ points.length + k) ∧
      ∀ t ∈ s.triangles, t < s.vertices.length) ?_ ?_ fuel ⟨List.prefix_refl _, ⟨0, rfl, by simp⟩, by simp⟩ hs).1
  · rintro f e v t n ⟨h1, ⟨k, h2, h3⟩, h4⟩ g1 g2 g3
    refine ⟨h1, ⟨k + 1, by simp only [List.length_append] at *; simp; omega, by simp only at *; omega⟩, ?_⟩
    intro x hx
    simp only [List.mem_append, List.mem_cons, List.not_mem_nil, or_false] at hx
    rcases hx with hx | rfl | rfl | rfl
    · exact h4 x hx
    · exact g1
    · exact g2
    · exact g3
  · rintro f e v t p ⟨h1, ⟨k, h2, h3⟩, h4⟩ g1 g2
    refine ⟨h1.trans (List.prefix_append _ _), ⟨k + 1, by simp only [List.length_append] at *; simp; omega,
      by simp only [List.length_append] at *; simp; omega⟩, ?_⟩
    intro x hx
    simp only [List.mem_append, List.mem_cons, List.not_mem_nil, or_false] at hx
    simp only [List.length_append, List.length_singleton]
    rcases hx with hx | rfl | rfl | rfl
    · have := h4 x hx; simp only at this; omega
    · omega
    · omega
    · omega

/-! ### Boundary -/

theorem swapRemoveFront_perm {α : Type} {l : List α} {i : Nat} {e : α} (h : l[i]? = some e) :
    (e :: swapRemoveFront l i).Perm l := by
  cases l with
  | nil => simp at h
  | cons a t =>
    cases i with
    | zero =>
      simp only [List.getElem?_cons_zero, Option.some.injEq] at h
      subst h
      exact List.Perm.refl _
    | succ j =>
      simp only [List.getElem?_cons_succ] at h
      obtain ⟨hj, rfl⟩ := List.getElem?_eq_some_iff.1 h
      show (t[j] :: t.set j a).Perm (a :: t)
      rw [List.set_eq_take_append_cons_drop, if_pos hj]
      have ht : (a :: t).Perm (a :: (t.take j ++ t[j] :: t.drop (j + 1))) := by
        rw [List.getElem_cons_drop, List.take_append_drop]
      refine List.Perm.trans ?_ ht.symm
      refine List.Perm.trans ?_ (List.perm_middle.symm.cons a)
      refine List.Perm.trans (List.perm_middle.cons _) ?_
      exact List.Perm.swap ..

variable {M : Type} [AddCommGroup M]

theorem sum_frontAdd (φ : Nat → Nat → M) (hφ : ∀ u v, φ u v = -φ v u) (f : List (Nat × Nat)) (u v : Nat) :
    ((frontAdd f u v).map fun e => φ e.1 e.2).sum = (f.map fun e => φ e.1 e.2).sum + φ u v := by
  unfold frontAdd
  split
  · rename_i i hi
    rw [List.findIdx?_eq_some_iff_getElem] at hi
    obtain ⟨hlt, hb, -⟩ := hi
    simp only [Bool.and_eq_true, beq_iff_eq] at hb
    have hp := ((swapRemoveFront_perm (List.getElem?_eq_getElem hlt)).map fun e => φ e.1 e.2).sum_eq
    rw [List.map_cons, List.sum_cons, hb.1, hb.2] at hp
    rw [← hp, hφ u v]
    abel
  · rw [List.map_cons, List.sum_cons]; abel

/-- **C42** (any arithmetic): for every antisymmetric weight of directed edges, the triangles and the initial front
have the same total weight. -/
theorem C42_weight {pick : List (Nat × F) → Option Nat} (hp : PickOk pick) {innerFuel fuel : Nat}
    {points : List (V2 F)} {polygons : List Nat} {V : List (V2 F)} {T : List Nat}
    (h : generateTriangularMesh pick innerFuel fuel points polygons = .ok (V, T))
    (hpoly : ∀ p ∈ pairs polygons, p.1 < p.2)
    (φ : Nat → Nat → M) (hφ : ∀ u v, φ u v = -φ v u) :
    ((Spec.triEdges T).map fun e => φ e.1 e.2).sum
      = (((pairs polygons).flatMap fun p => Spec.loopEdges (Spec.loopRange p)).map fun e => φ e.1 e.2).sum := by
  unfold generateTriangularMesh at h
  simp only [bind_eq_ok] at h
  obtain ⟨front, hf, s, hs, h⟩ := h
  cases h
  have hfront : front = (pairs polygons).flatMap fun p => Spec.loopEdges (Spec.loopRange p) := by
    have hl : ∀ (L : List (Nat × Nat)) (acc r : List (Nat × Nat)), (∀ p ∈ L, p.1 < p.2) →
        L.foldlM (fun front (x : Nat × Nat) => (do
          let last ← usub x.2 1
          pure (front ++ (List.range' x.1 (last - x.1)).map (fun i => (i, i + 1)) ++ [(last, x.1)]) : Res _)) acc = .ok r →
        r = acc ++ L.flatMap fun p => Spec.loopEdges (Spec.loopRange p) := by
      intro L
      induction L with
      | nil => intro acc r _ hr; cases hr; simp
      | cons p L ih =>
        intro acc r hL hr
        have hp := hL p (List.mem_cons_self ..)
        rw [List.foldlM_cons, usub_ok (by omega), ok_bind] at hr
        have := ih _ _ (fun q hq => hL q (List.mem_cons_of_mem _ hq)) hr
        rw [this, List.flatMap_cons, List.append_assoc acc, List.append_assoc acc]
        congr 2
        unfold Spec.loopRange
        obtain ⟨a, b⟩ := p
        simp only at hp ⊢
        obtain ⟨k, rfl⟩ : ∃ k, b = a + k + 1 := ⟨b - a - 1, by omega⟩
        have e1 : a + k + 1 - 1 - a = k := by omega
        have e2 : a + k + 1 - a = k + 1 := by omega
        have e3 : a + k + 1 - 1 = a + k := by omega
        rw [e1, e2, e3, List.range'_succ, Spec.loopEdges_cons, ← List.cons_append, ← List.range'_succ, List.range'_concat,
          List.append_assoc]
        simp only [Nat.one_mul, List.singleton_append]
        rw [Spec.pathEdges_append]
        congr 1
        rw [show List.range' a k ++ [a + k] = List.range' a (k + 1) by rw [List.range'_concat]; simp]
        apply List.ext_getElem?
        intro i
        by_cases hi : i < k
        · rw [Spec.getElem?_pathEdges _ i (a + i) (a + i + 1)]
          · simp [hi]
          · rw [List.getElem?_range' (by omega), Nat.one_mul]
          · rw [List.getElem?_range' (by omega), Nat.one_mul]; rfl
        · rw [List.getElem?_eq_none (by simp; omega),
            List.getElem?_eq_none (by rw [Spec.length_pathEdges]; simp; omega)]
    have := hl (pairs polygons) [] front hpoly hf
    simpa using this
  obtain ⟨⟨-, hI⟩, hnil⟩ := frontLoop_inv hp (I := fun s => (∃ k, s.triangles.length = 3 * k) ∧
      ((Spec.triEdges s.triangles).map fun e => φ e.1 e.2).sum + (s.front.map fun e => φ e.1 e.2).sum
        = (front.map fun e => φ e.1 e.2).sum)
    (by
      rintro f e v t n ⟨⟨k, hk⟩, hI⟩ _ _ _
      refine ⟨⟨k + 1, by simp only [List.length_append] at *; simp; omega⟩, ?_⟩
      simp only at hI hk ⊢
      rw [triEdges_append t k hk, List.map_append, List.sum_append, sum_frontAdd φ hφ, sum_frontAdd φ hφ, ← hI]
      simp only [Spec.triEdges, List.map_cons, List.map_nil, List.sum_cons, List.sum_nil, List.map_append,
        List.sum_append]
      rw [hφ e.2 n, hφ n e.1]
      abel)
    (by
      rintro f e v t p ⟨⟨k, hk⟩, hI⟩ _ _
      refine ⟨⟨k + 1, by simp only [List.length_append] at *; simp; omega⟩, ?_⟩
      simp only at hI hk ⊢
      rw [triEdges_append t k hk, List.map_append, List.sum_append, ← hI]
      simp only [Spec.triEdges, List.map_cons, List.map_nil, List.sum_cons, List.sum_nil, List.map_append,
        List.sum_append]
      rw [hφ e.2 v.length, hφ v.length e.1]
      abel)
    fuel ⟨⟨0, rfl⟩, by simp [Spec.triEdges]⟩ hs
  rw [hnil, hfront] at hI
  simpa using hI

/-- How often the directed edge `(u, v)` occurs in excess of its opposite. -/
def Spec.netCount (E : List (Nat × Nat)) (u v : Nat) : ℤ := (E.count (u, v) : ℤ) - E.count (v, u)

theorem netCount_eq_sum (E : List (Nat × Nat)) (u v : Nat) :
    Spec.netCount E u v = (E.map fun e => ((if e = (u, v) then 1 else 0) - (if e = (v, u) then 1 else 0) : ℤ)).sum := by
  induction E with
  | nil => rfl
  | cons e E ih =>
    rw [List.map_cons, List.sum_cons, ← ih]
    unfold Spec.netCount
    simp only [List.count_cons, beq_iff_eq]
    split <;> split <;> push_cast <;> ring

/-- **C42** (any arithmetic): the oriented boundary of the mesh is exactly the set of loop edges: every directed edge
occurs in the triangles in excess of its opposite as often as it does in the loops. -/
theorem C42_boundary {pick : List (Nat × F) → Option Nat} (hp : PickOk pick) {innerFuel fuel : Nat}
    {points : List (V2 F)} {polygons : List Nat} {V : List (V2 F)} {T : List Nat}
    (h : generateTriangularMesh pick innerFuel fuel points polygons = .ok (V, T))
    (hpoly : ∀ p ∈ pairs polygons, p.1 < p.2) (u v : Nat) :
    Spec.netCount (Spec.triEdges T) u v
      = Spec.netCount ((pairs polygons).flatMap fun p => Spec.loopEdges (Spec.loopRange p)) u v := by
  rw [netCount_eq_sum, netCount_eq_sum]
  refine C42_weight hp h hpoly
    (fun a b => ((if (a, b) = (u, v) then 1 else 0) - (if (a, b) = (v, u) then 1 else 0) : ℤ)) ?_
  intro a b
  simp only [Prod.mk.injEq]
  by_cases h1 : a = u <;> by_cases h2 : b = v <;> by_cases h3 : a = v <;> by_cases h4 : b = u <;> simp_all

/-- Edges inside the mesh cancel: if neither `(u, v)` nor `(v, u)` is a loop edge, both occur equally often. -/
theorem C42_watertight {pick : List (Nat × F) → Option Nat} (hp : PickOk pick) {innerFuel fuel : Nat}
    {points : List (V2 F)} {polygons : List Nat} {V : List (V2 F)} {T : List Nat}
    (h : generateTriangularMesh pick innerFuel fuel points polygons = .ok (V, T))
    (hpoly : ∀ p ∈ pairs polygons, p.1 < p.2) {u v : Nat}
    (h1 : ∀ p ∈ pairs polygons, (u, v) ∉ Spec.loopEdges (Spec.loopRange p))
    (h2 : ∀ p ∈ pairs polygons, (v, u) ∉ Spec.loopEdges (Spec.loopRange p)) :
    (Spec.triEdges T).count (u, v) = (Spec.triEdges T).count (v, u) := by
  have := C42_boundary hp h hpoly u v
  unfold Spec.netCount at this
  rw [List.count_eq_zero_of_not_mem (a := (u, v)) (l := (pairs polygons).flatMap _) (by simpa using h1),
    List.count_eq_zero_of_not_mem (a := (v, u)) (l := (pairs polygons).flatMap _) (by simpa using h2)] at this
  omega

end

section
variable {K : Type} [Field K] [LinearOrder K] [IsStrictOrderedRing K] [Env K]

/-- **C42**: in exact arithmetic the signed areas of the triangles add up to that of the loops. -/
theorem C42_area {pick : List (Nat × K) → Option Nat} (hp : PickOk pick) {innerFuel fuel : Nat}
    {points : List (V2 K)} {polygons : List Nat} {V : List (V2 K)} {T : List Nat}
    (h : generateTriangularMesh pick innerFuel fuel points polygons = .ok (V, T))
    (hpoly : ∀ p ∈ pairs polygons, p.1 < p.2) :
    Spec.trianglesArea2 V T
      = ((pairs polygons).map fun p => Spec.area2 (Spec.loopPoints V (Spec.loopRange p))).sum := by
  have hw := C42_weight hp h hpoly (fun u v => Spec.cross2 (V.getD u 0) (V.getD v 0))
    (by intro u v; simp only [Spec.cross2]; ring)
  have harea : ∀ l : List Nat, Spec.area2 (Spec.loopPoints V l)
      = ((Spec.loopEdges l).map fun e => Spec.cross2 (V.getD e.1 0) (V.getD e.2 0)).sum := by
    intro l
    unfold Spec.area2 Spec.loopPoints
    rw [Spec.loopEdges_map, List.map_map]; rfl
  have e1 : ∀ (k : Nat) (T : List Nat), T.length = 3 * k →
      ((Spec.triEdges T).map fun e => Spec.cross2 (V.getD e.1 0) (V.getD e.2 0)).sum = Spec.trianglesArea2 V T := by
    intro k
    induction k with
    | zero =>
      intro T hT
      have : T = [] := List.length_eq_zero_iff.1 (by omega)
      subst this; rfl
    | succ k ih =>
      intro T hT
      match T, hT with
      | a :: b :: c :: T, hT =>
        simp only [Spec.triEdges, Spec.trianglesArea2, List.map_cons, List.sum_cons]
        rw [ih T (by simp at hT; omega)]
        simp only [Spec.cross2, Spec.triArea2]; ring
  obtain ⟨-, ⟨k, hk, -⟩, -⟩ := C41_valid hp h
  rw [← e1 k T hk, hw]
  generalize pairs polygons = L
  induction L with
  | nil => rfl
  | cons p L ih => rw [List.flatMap_cons, List.map_append, List.sum_append, List.map_cons, List.sum_cons, ih, harea]

end

/-! ### Witnesses -/

/-- The selection of the code for keys without NaN: the candidate with the greatest factor, among equals the greatest
node. -/
def pickMax {F : Type} [LT F] [DecidableLT F] : List (Nat × F) → Option (Nat × F)
  | [] => none
  | a :: l =>
    match pickMax l with
    | none => some a
    | some b => if b.2 < a.2 then some a else if a.2 < b.2 then some b else if b.1 < a.1 then some a else some b

theorem pickMax_mem {F : Type} [LT F] [DecidableLT F] {l : List (Nat × F)} {a : Nat × F} (h : pickMax l = some a) :
    a ∈ l := by
  induction l generalizing a with
  | nil => simp [pickMax] at h
  | cons b l ih =>
    unfold pickMax at h
    cases hm : pickMax l with
    | none =>
      rw [hm] at h
      simp only [Option.some.injEq] at h
      subst h; exact List.mem_cons_self ..
    | some c =>
      rw [hm] at h
      have hc := ih hm
      simp only at h
      split at h
      · cases h; exact List.mem_cons_self ..
      · split at h
        · cases h; exact List.mem_cons_of_mem _ hc
        · split at h
          · cases h; exact List.mem_cons_self ..
          · cases h; exact List.mem_cons_of_mem _ hc

theorem pickMax_ok {F : Type} [LT F] [DecidableLT F] : PickOk (fun l : List (Nat × F) => (pickMax l).map Prod.fst) where
  mem l n h := by
    simp only [Option.map_eq_some_iff] at h
    obtain ⟨⟨m, f⟩, h1, rfl⟩ := h
    exact ⟨f, pickMax_mem h1⟩
  none l h := by
    simp only [Option.map_eq_none_iff] at h
    cases l with
    | nil => rfl
    | cons a l =>
      unfold pickMax at h
      cases hm : pickMax l with
      | none => rw [hm] at h; simp at h
      | some b => rw [hm] at h; simp only at h; repeat' split at h
                  all_goals simp at h

/-- Non-vacuity of C41 and C42 in binary64: a rectangle with two extra boundary vertices. -/
example : (generateTriangularMesh (fun l => (pickMax l).map Prod.fst) 20 50
    ([⟨0, 0⟩, ⟨1, 0⟩, ⟨2, 0⟩, ⟨2, 1⟩, ⟨1, 1⟩, ⟨0, 1⟩] : List (V2 Float)) [0, 6]).map (·.2)
      = .ok [5, 0, 6, 4, 5, 6, 3, 4, 2, 6, 0, 1, 1, 2, 4, 6, 1, 4] := by decide +kernel

end Geom3d
