import Verif.Props.Ear
import Verif.Props.Planar
import Verif.Spec.Mesh

/-! # C39, C69, C70: ear clipping and signed area (exact arithmetic) -/

set_option linter.unusedSectionVars false

namespace Geom3d

section
variable {K : Type} [Field K] [LinearOrder K] [IsStrictOrderedRing K] [Env K]

/-! ### Area of a loop with a vertex removed -/

theorem area2_nil : Spec.area2 ([] : List (V2 K)) = 0 := rfl

theorem area2_one (a : V2 K) : Spec.area2 [a] = 0 := by
  simp [Spec.area2, Spec.loopEdges, Spec.pathEdges, Spec.cross2]

theorem area2_two (a b : V2 K) : Spec.area2 [a, b] = 0 := by
  simp [Spec.area2, Spec.loopEdges, Spec.pathEdges, Spec.cross2]

theorem area2_append_comm (l m : List (V2 K)) : Spec.area2 (l ++ m) = Spec.area2 (m ++ l) :=
  Spec.area2_perm (Spec.loopEdges_append_comm l m)

/-- Removing the first vertex `x` of a loop `x, n, …, p` cuts off the triangle `p x n`. -/
theorem area2_cut (x n p : V2 K) (R : List (V2 K)) :
    Spec.area2 (x :: n :: (R ++ [p])) = Spec.area2 (n :: (R ++ [p])) + Spec.triArea2 p x n := by
  simp only [Spec.area2, Spec.loopEdges_cons]
  have e1 : x :: (n :: (R ++ [p]) ++ [x]) = x :: n :: (R ++ p :: [x]) := by simp
  have e2 : n :: (R ++ [p] ++ [n]) = (n :: R) ++ p :: [n] := by simp
  have e3 : n :: (R ++ p :: [x]) = (n :: R) ++ p :: [x] := by simp
  rw [e1, Spec.pathEdges_cons_cons, e2, e3, Spec.pathEdges_append, Spec.pathEdges_append (n :: R) p [n]]
  simp only [List.map_cons, List.map_append, List.sum_cons, List.sum_append]
  simp only [Spec.pathEdges_cons_cons, Spec.pathEdges_singleton, List.map_cons, List.map_nil, List.sum_cons,
    List.sum_nil, Spec.cross2, Spec.triArea2]
  ring

/-- The positions of a loop of length `m`, listed from `i` on. -/
theorem range_rotate {m i : Nat} :
    (List.range m).rotate i = (List.range m).map fun j => (j + i) % m := by
  apply List.ext_getElem?
  intro j
  by_cases h : j < m
  · rw [List.getElem?_rotate (by simpa using h), List.getElem?_map]
    have hpos : 0 < m := by omega
    simp [h, Nat.mod_lt _ hpos]
  · rw [List.getElem?_eq_none (by simpa using by omega), List.getElem?_eq_none (by simpa using by omega)]

/-- Removing positions of a loop commutes with moving its start. -/
theorem area2_filter_rotate (m i : Nat) (q : Nat → Bool) (g : Nat → V2 K) :
    Spec.area2 (((List.range m).filter q).map g) = Spec.area2 ((((List.range m).rotate i).filter q).map g) := by
  rw [List.rotate_eq_drop_append_take_mod]
  rw [List.filter_append, List.map_append, area2_append_comm, ← List.map_append, ← List.filter_append,
    List.take_append_drop]

/-- For `m ≥ 4` the rotated positions start with `i`, its successor, and end with its predecessor; in between lie
the others, the first and last of which are the second neighbours. -/
theorem range_rotate_split {m i : Nat} (hi : i < m) (h4 : 4 ≤ m) :
    ∃ R : List Nat, (List.range m).rotate i = i :: (i + 1) % m :: (R ++ [(m + i - 1) % m]) ∧
      R.head? = some ((i + 2) % m) ∧ R.getLast? = some ((m + i - 2) % m) ∧
      ∀ j ∈ R, j ≠ i ∧ j ≠ (i + 1) % m ∧ j ≠ (m + i - 1) % m := by
  have e0 : List.range m = 0 :: 1 :: ((List.range' 2 (m - 3)) ++ [m - 1]) := by
    rw [List.range_eq_range']
    obtain ⟨k, rfl⟩ : ∃ k, m = k + 3 := ⟨m - 3, by omega⟩
    rw [show k + 3 = (k + 2) + 1 by omega, List.range'_succ, List.range'_succ, List.range'_concat]
    congr 3
    simp; omega
  have hrot := range_rotate (m := m) (i := i)
  have hsplit : (List.range m).rotate i
      = i :: (i + 1) % m :: (((List.range' 2 (m - 3)).map fun j => (j + i) % m) ++ [(m + i - 1) % m]) := by
    rw [hrot]
    conv_lhs => rw [e0]
    simp only [List.map_cons, List.map_append, List.map_nil, Nat.zero_add, Nat.mod_eq_of_lt hi]
    rw [Nat.add_comm 1 i, show m - 1 + i = m + i - 1 by omega]
  refine ⟨(List.range' 2 (m - 3)).map fun j => (j + i) % m, hsplit, ?_, ?_, ?_⟩
  · obtain ⟨k, hk⟩ : ∃ k, m - 3 = k + 1 := ⟨m - 4, by omega⟩
    rw [hk, List.range'_succ]
    simp [Nat.add_comm 2 i]
  · obtain ⟨k, hk⟩ : ∃ k, m - 3 = k + 1 := ⟨m - 4, by omega⟩
    rw [hk, List.range'_concat]
    simp only [List.map_append, List.map_cons, List.map_nil, List.getLast?_append, List.getLast?_singleton,
      Option.some_or]
    rw [show 2 + 1 * k + i = m + i - 2 by omega]
  · have hnd : ((List.range m).rotate i).Nodup := List.nodup_rotate.2 List.nodup_range
    rw [hsplit] at hnd
    simp only [List.nodup_cons, List.mem_cons, List.mem_append, List.not_mem_nil, or_false, not_or,
      List.nodup_append] at hnd
    intro j hj
    refine ⟨?_, ?_, ?_⟩
    · rintro rfl; exact hnd.1.2.1 hj
    · rintro rfl; exact hnd.2.1.1 hj
    · exact fun h => hnd.2.2.2.2 j hj _ rfl h

theorem filter_eq_self' {α : Type} {p : α → Bool} {l : List α} (h : ∀ a ∈ l, p a = true) : l.filter p = l := by
  rw [List.filter_eq_self]; exact h

/-- The area left after a clip, `m ≥ 4`: the clipped triangle, plus what the dropped neighbours cut off. -/
theorem area2_clip {m i : Nat} (hi : i < m) (h4 : 4 ≤ m) (g : Nat → V2 K) (dp dn : Bool) :
    Spec.area2 ((List.range m).map g)
      = Spec.area2 (((List.range m).filter fun j => !delPred m i dp dn j).map g)
        + Spec.triArea2 (g ((m + i - 1) % m)) (g i) (g ((i + 1) % m))
        + (if dp then Spec.triArea2 (g ((m + i - 2) % m)) (g ((m + i - 1) % m)) (g ((i + 1) % m)) else 0)
        + (if dn then Spec.triArea2 (if dp then g ((m + i - 2) % m) else g ((m + i - 1) % m)) (g ((i + 1) % m))
            (g ((i + 2) % m)) else 0) := by
  obtain ⟨R, hrot, hhead, hlast, hR⟩ := range_rotate_split hi h4
  have hp := pred_mod hi
  have hs := succ_mod hi
  have e1 : Spec.area2 ((List.range m).map g)
      = Spec.area2 (g i :: g ((i + 1) % m) :: (R.map g ++ [g ((m + i - 1) % m)])) := by
    have := area2_filter_rotate m i (fun _ => true) g
    rw [hrot] at this
    simpa using this
  have e2 := area2_filter_rotate m i (fun j => !delPred m i dp dn j) g
  rw [hrot] at e2
  have hne1 : (i + 1) % m ≠ i := by rw [hs]; split <;> omega
  have hne2 : (m + i - 1) % m ≠ i := by rw [hp]; split <;> omega
  have hne3 : (m + i - 1) % m ≠ (i + 1) % m := by rw [hp, hs]; split <;> split <;> omega
  have hRf : R.filter (fun j => !delPred m i dp dn j) = R := by
    apply filter_eq_self'
    intro j hj
    obtain ⟨h1, h2, h3⟩ := hR j hj
    simp [delPred, h1, h2, h3]
  have hdi : delPred m i dp dn i = true := by simp [delPred]
  have hdn : delPred m i dp dn ((i + 1) % m) = dn := by
    simp [delPred, hne1, Ne.symm hne3]
  have hdp : delPred m i dp dn ((m + i - 1) % m) = dp := by
    simp [delPred, hne2, hne3]
  rw [List.filter_cons, List.filter_cons, List.filter_append, List.filter_singleton, hRf, hdi, hdn, hdp] at e2
  rw [e1, e2, area2_cut]
  obtain ⟨r, R', rfl⟩ : ∃ r R', R = r :: R' := by
    cases R with
    | nil => simp at hhead
    | cons r R' => exact ⟨r, R', rfl⟩
  have hr : r = (i + 2) % m := by simpa using hhead
  obtain ⟨R'', z, hz⟩ : ∃ R'' z, r :: R' = R'' ++ [z] := ⟨_, _, (List.dropLast_append_getLast (l := r :: R') (by simp)).symm⟩
  have hzz : z = (m + i - 2) % m := by
    rw [hz, List.getLast?_append] at hlast
    simpa using hlast
  cases dp <;> cases dn
  · simp
  · simp only [Bool.not_true, Bool.false_eq_true, if_false, Bool.not_false, if_true, add_zero]
    simp only [List.map_append, List.map_cons, List.map_nil, List.cons_append, cond_true]
    rw [area2_cut, hr]
    ring
  · simp only [Bool.not_true, Bool.false_eq_true, if_false, Bool.not_false, if_true, add_zero]
    rw [hz, List.map_append, List.map_cons, List.map_nil, List.map_cons]
    have : Spec.area2 (g ((i + 1) % m) :: (R''.map g ++ [g z] ++ [g ((m + i - 1) % m)]))
        = Spec.area2 (g ((m + i - 1) % m) :: g ((i + 1) % m) :: (R''.map g ++ [g z])) := by
      rw [← List.cons_append, area2_append_comm]; rfl
    rw [this, area2_cut, hzz]
    simp only [List.map_append, List.map_cons, List.map_nil, List.append_nil, cond_false]
    ring
  · simp only [Bool.not_true, Bool.false_eq_true, if_false, if_true]
    have e3 : Spec.area2 (g ((i + 1) % m) :: ((r :: R').map g ++ [g ((m + i - 1) % m)]))
        = Spec.area2 (g ((m + i - 1) % m) :: g ((i + 1) % m) :: ((r :: R').map g)) := by
      rw [← List.cons_append, area2_append_comm]; rfl
    have e4 : g ((m + i - 1) % m) :: g ((i + 1) % m) :: ((r :: R').map g)
        = g ((m + i - 1) % m) :: g ((i + 1) % m) :: (R''.map g ++ [g z]) := by
      rw [hz, List.map_append, List.map_cons, List.map_nil]
    rw [e3, e4, area2_cut]
    have e5 : g ((i + 1) % m) :: (R''.map g ++ [g z]) = g ((i + 1) % m) :: g r :: R'.map g := by
      rw [← List.map_cons, hz, List.map_append, List.map_cons, List.map_nil]
    cases R' with
    | nil =>
      obtain ⟨rfl, rfl⟩ : R'' = [] ∧ z = r := by
        cases R'' with
        | nil => simp at hz; exact ⟨rfl, hz.symm⟩
        | cons a t => simp at hz
      simp only [List.map_nil, List.nil_append, List.append_nil, List.map_cons, cond_false]
      rw [area2_two, area2_one, ← hr, ← hzz]
      simp only [Spec.triArea2]; ring
    | cons q R3 =>
      obtain ⟨R4, z', hz4⟩ : ∃ R4 z', q :: R3 = R4 ++ [z'] :=
        ⟨_, _, (List.dropLast_append_getLast (l := q :: R3) (by simp)).symm⟩
      obtain rfl : z = z' := by
        rw [hz4, ← List.cons_append] at hz
        have := congrArg List.getLast? hz
        rw [List.getLast?_concat, List.getLast?_concat] at this
        exact (Option.some.inj this).symm
      rw [e5, hz4, List.map_append, List.map_cons, List.map_nil, area2_cut, ← hr, ← hzz]
      simp only [List.map_append, List.map_cons, List.map_nil, List.append_nil, cond_false]
      ring

theorem area2_short {l : List (V2 K)} (h : l.length ≤ 2) : Spec.area2 l = 0 := by
  match l, h with
  | [], _ => rfl
  | [a], _ => exact area2_one a
  | [a, b], _ => exact area2_two a b

/-- For at most three vertices a clip takes the whole area, whatever else is dropped. -/
theorem area2_clip_small {m i : Nat} (hi : i < m) (h3 : m ≤ 3) (g : Nat → V2 K) :
    Spec.area2 ((List.range m).map g) = Spec.triArea2 (g ((m + i - 1) % m)) (g i) (g ((i + 1) % m)) := by
  obtain rfl | rfl | rfl : m = 1 ∨ m = 2 ∨ m = 3 := by omega
  · obtain rfl : i = 0 := by omega
    rw [area2_short (by simp)]
    simp [Spec.triArea2]
  · rw [area2_short (by simp)]
    obtain rfl | rfl : i = 0 ∨ i = 1 := by omega
    · simp [Spec.triArea2]
    · simp [Spec.triArea2]
  · have : (List.range 3).map g = [g 0, g 1, g 2] := rfl
    rw [this, area2_triangle]
    obtain rfl | rfl | rfl : i = 0 ∨ i = 1 ∨ i = 2 := by omega
    · show _ = Spec.triArea2 (g 2) (g 0) (g 1); simp only [Spec.triArea2]; ring
    · rfl
    · show _ = Spec.triArea2 (g 1) (g 2) (g 0); simp only [Spec.triArea2]; ring

/-! ### C69: the area balance of a run -/

/-- The points of an index loop. -/
def Spec.loopPoints (points : List (V2 K)) (V : List Nat) : List (V2 K) := V.map fun v => points.getD v 0

/-- Twice the signed area of a flat list of triangles. -/
def Spec.trianglesArea2 (points : List (V2 K)) : List Nat → K
  | a :: b :: c :: rest =>
    Spec.triArea2 (points.getD a 0) (points.getD b 0) (points.getD c 0) + Spec.trianglesArea2 points rest
  | _ => 0

theorem trianglesArea2_append (points : List (V2 K)) (T : List Nat) (k : Nat) (h : T.length = 3 * k) (T' : List Nat) :
    Spec.trianglesArea2 points (T ++ T') = Spec.trianglesArea2 points T + Spec.trianglesArea2 points T' := by
  induction k generalizing T with
  | zero =>
    have : T = [] := List.length_eq_zero_iff.1 (by omega)
    subst this
    show _ = (0 : K) + _
    simp
  | succ k ih =>
    match T, h with
    | a :: b :: c :: T, h =>
      simp only [List.cons_append, Spec.trianglesArea2]
      rw [ih T (by simp at h; omega)]
      ring

theorem colinear_bound (htol : (0 : K) ≤ Env.tol) {a b c : V2 K} (h : computeConvexity a b c = .colinear) :
    |Spec.triArea2 a b c| ≤ Env.tol := by
  rw [computeConvexity_eq a b c htol] at h
  simp only at h
  split at h
  · rename_i h1
    have e : Spec.triArea2 a b c = (b.x - a.x) * (c.y - b.y) - (b.y - a.y) * (c.x - b.x) := by
      simp only [Spec.triArea2]; ring
    rw [e]; exact h1
  · split at h <;> cases h

/-- Vertices dropped by one clip: one vertex `b` between `a` and `c`, or two, `b` and `c`, between `a` and `d`. -/
inductive Spec.Drop (K : Type) where
  | one (a b c : V2 K)
  | two (a b c d : V2 K)

/-- Twice the signed area cut off by a drop. -/
def Spec.Drop.area2 : Spec.Drop K → K
  | .one a b c => Spec.triArea2 a b c
  | .two a b c d => Spec.triArea2 a b c + Spec.triArea2 a c d

/-- Every dropped vertex was within tolerance of straight between its two neighbours of that moment. -/
def Spec.Drop.Straight : Spec.Drop K → Prop
  | .one a b c => |Spec.triArea2 a b c| ≤ Env.tol
  | .two a b c d => |Spec.triArea2 a b c| ≤ Env.tol ∧ |Spec.triArea2 b c d| ≤ Env.tol

def Spec.Drop.count : Spec.Drop K → Nat
  | .one _ _ _ => 1
  | .two _ _ _ _ => 2

/-- The vertices of a drop are vertices of the polygon; two dropped vertices are at different positions. -/
def Spec.Drop.From (L : List (V2 K)) : Spec.Drop K → Prop
  | .one a b c => a ∈ L ∧ b ∈ L ∧ c ∈ L
  | .two a b c d => a ∈ L ∧ d ∈ L ∧ ([b, c].Sublist L ∨ [c, b].Sublist L)

/-- Some triangle of the list has no area. -/
def Spec.HasFlat (points : List (V2 K)) (T : List Nat) : Prop :=
  ∃ t ∈ Spec.triples T, Spec.triArea2 (points.getD t.1 0) (points.getD t.2.1 0) (points.getD t.2.2 0) = 0

theorem triples_append {α : Type} : ∀ {k : Nat} {T : List α} (_ : T.length = 3 * k) (T' : List α),
    Spec.triples (T ++ T') = Spec.triples T ++ Spec.triples T'
  | 0, T, h, T' => by
    have : T = [] := List.length_eq_zero_iff.1 (by omega)
    subst this; rfl
  | k + 1, a :: b :: c :: T, h, T' => by
    simp only [List.cons_append, Spec.triples]
    rw [triples_append (k := k) (by simp at h; omega)]

theorem HasFlat.append {points : List (V2 K)} {T : List Nat} {k : Nat} (hk : T.length = 3 * k)
    (h : Spec.HasFlat points T) (T' : List Nat) : Spec.HasFlat points (T ++ T') := by
  obtain ⟨t, ht, h⟩ := h
  exact ⟨t, by rw [triples_append hk]; exact List.mem_append_left _ ht, h⟩

/-- The balance of a state: triangles, left-over polygon and drops add up; drops cost triangles. -/
def AreaBalance (points : List (V2 K)) (V : List Nat) (k : Nat) (T R : List Nat) (dropped : Nat)
    (D : List (Spec.Drop K)) : Prop :=
  Spec.area2 (Spec.loopPoints points V)
      = Spec.trianglesArea2 points T + Spec.area2 (Spec.loopPoints points R) + (D.map Spec.Drop.area2).sum ∧
    (∀ d ∈ D, d.Straight ∧ d.From (Spec.loopPoints points V)) ∧
    (D.map Spec.Drop.count).sum ≤ dropped ∧ V.length = k + R.length + dropped ∧
    (D = [] ∨ k + max R.length 2 < V.length ∨ Spec.HasFlat points T)

/-- **C69**: the area balance of ear clipping.  In exact arithmetic, the polygon's area is that of the triangles plus
that of the left-over sub-polygon plus the areas cut off by dropping straight vertices; each drop consists of one or
two neighbouring vertices which were within tolerance of straight when they were dropped, and `dropped` is the number
of vertices neither clipped nor left over. -/
theorem C69_area_balance (htol : (0 : K) ≤ Env.tol) {bs : List Nat → Nat → Option Nat} {fuel : Nat}
    {points : List (V2 K)} {V C : List Nat} {s' : EarState}
    (h : triangulateState bs fuel points V C = .ok s') :
    ∃ (dropped : Nat) (D : List (Spec.Drop K)),
      Spec.area2 (Spec.loopPoints points V)
        = Spec.trianglesArea2 points s'.triangles + Spec.area2 (Spec.loopPoints points s'.vertices)
          + (D.map Spec.Drop.area2).sum ∧
      (∀ d ∈ D, d.Straight ∧ d.From (Spec.loopPoints points V)) ∧
      (D.map Spec.Drop.count).sum ≤ dropped ∧
      (3 * V.length = s'.triangles.length + 3 * s'.vertices.length + 3 * dropped ∨
        s'.vertices = [] ∧ 3 * V.length = s'.triangles.length + 6 + 3 * dropped) ∧
      (D = [] ∨ s'.triangles.length + 6 < 3 * V.length ∨ Spec.HasFlat points s'.triangles) := by
  obtain ⟨hn, s1, ⟨hV, k, hk, dropped, D, h1, h2, h3, h4, h5⟩, hend⟩ := triangulate_inv
    (J := fun s => s.vertices.Sublist V ∧ ∃ k, s.triangles.length = 3 * k ∧
      ∃ dropped D, AreaBalance points V k s.triangles s.vertices dropped D)
    (fun s m h => h)
    (by
      intro s s' hlen _ hJ hpass
      obtain ⟨-, -, hI⟩ := earPass_inv
        (I := fun _ s => s.vertices.Sublist V ∧ ∃ k, s.triangles.length = 3 * k ∧
          ∃ dropped D, AreaBalance points V k s.triangles s.vertices dropped D)
        (fun _ _ h => h)
        (by
          rintro i s s' dp dn hlen hi ⟨hV, k, hk, dropped, D, h1, h2, h3, h4, h5⟩ hc
          have hpos : 0 < s.m := by omega
          have hmem : ∀ j, j < s.m → s.vertices.getD j 0 ∈ V := by
            intro j hj
            rw [getD_of_lt _ (by omega)]
            exact hV.subset (List.getElem_mem _)
          have hmem' : ∀ j, points.getD (s.vertices.getD (j % s.m) 0) 0 ∈ Spec.loopPoints points V :=
            fun j => List.mem_map.2 ⟨_, hmem _ (Nat.mod_lt _ hpos), rfl⟩
          have hpts : Spec.loopPoints points s.vertices
              = (List.range s.m).map fun j => points.getD (s.vertices.getD j 0) 0 := by
            unfold Spec.loopPoints
            conv_lhs => rw [eq_tab_getD s.vertices 0, hlen]
            simp [tab]
          have hpts' : Spec.loopPoints points s'.vertices
              = ((List.range s.m).filter fun j => !delPred s.m i dp dn j).map
                fun j => points.getD (s.vertices.getD j 0) 0 := by
            unfold Spec.loopPoints
            rw [hc.vertices, List.map_map]; rfl
          have htri : Spec.trianglesArea2 points s'.triangles = Spec.trianglesArea2 points s.triangles
              + Spec.triArea2 (points.getD (s.vertices.getD ((s.m + i - 1) % s.m) 0) 0)
                (points.getD (s.vertices.getD i 0) 0) (points.getD (s.vertices.getD ((i + 1) % s.m) 0) 0) := by
            rw [hc.triangles, trianglesArea2_append points _ k hk]
            simp [Spec.trianglesArea2]
          have hm := hc.m
          have hl := hc.len
          refine ⟨?_, k + 1, by rw [hc.triangles]; simp [hk]; omega, dropped + dp.toNat + dn.toNat, ?_⟩
          · refine List.Sublist.trans ?_ hV
            have e : s.vertices = (List.range s.m).map fun j => s.vertices.getD j 0 := by
              conv_lhs => rw [eq_tab_getD s.vertices 0, hlen]
              simp [tab]
            rw [hc.vertices]
            conv_rhs => rw [e]
            exact (List.filter_sublist ..).map _
          by_cases h4m : 4 ≤ s.m
          · have hA := area2_clip hi h4m (fun j => points.getD (s.vertices.getD j 0) 0) dp dn
            rw [← hpts, ← hpts'] at hA
            have hgd : ∀ {v : Nat} {a : V2 K}, points[v]? = some a → points.getD v 0 = a := by
              intro v a h; simp [List.getD, h]
            have hbp : dp = true → |Spec.triArea2 (points.getD (s.vertices.getD ((s.m + i - 2) % s.m) 0) 0)
                (points.getD (s.vertices.getD ((s.m + i - 1) % s.m) 0) 0)
                (points.getD (s.vertices.getD ((i + 1) % s.m) 0) 0)| ≤ Env.tol := by
              intro hd
              obtain ⟨a, b, c, e1, e2, e3, e4⟩ := hc.prev hd
              rw [hgd e1, hgd e2, hgd e3]
              exact colinear_bound htol e4
            have hbn : dn = true → |Spec.triArea2 (points.getD (s.vertices.getD ((s.m + i - 1) % s.m) 0) 0)
                (points.getD (s.vertices.getD ((i + 1) % s.m) 0) 0)
                (points.getD (s.vertices.getD ((i + 2) % s.m) 0) 0)| ≤ Env.tol := by
              intro hd
              obtain ⟨a, b, c, e1, e2, e3, e4⟩ := hc.next hd
              rw [hgd e1, hgd e2, hgd e3]
              exact colinear_bound htol e4
            have key : ∀ d : List (Spec.Drop K), (∀ x ∈ d, x.Straight ∧ x.From (Spec.loopPoints points V)) →
                (d.map Spec.Drop.count).sum ≤ dp.toNat + dn.toNat →
                Spec.area2 (Spec.loopPoints points s.vertices) = Spec.area2 (Spec.loopPoints points s'.vertices)
                  + Spec.triArea2 (points.getD (s.vertices.getD ((s.m + i - 1) % s.m) 0) 0)
                    (points.getD (s.vertices.getD i 0) 0) (points.getD (s.vertices.getD ((i + 1) % s.m) 0) 0)
                  + (d.map Spec.Drop.area2).sum →
                ∃ D, AreaBalance points V (k + 1) s'.triangles s'.vertices (dropped + dp.toNat + dn.toNat) D := by
              intro d hd hcnt hsum
              have hflat : D ++ d = [] ∨ k + 1 + max s'.vertices.length 2 < V.length ∨
                  Spec.HasFlat points s'.triangles := by
                by_cases hD : D ++ d = []
                · exact .inl hD
                · refine .inr ?_
                  rcases h5 with h5 | h5 | h5
                  · subst h5
                    have hd0 : d ≠ [] := by simpa using hD
                    have : 1 ≤ (d.map Spec.Drop.count).sum := by
                      cases d with
                      | nil => exact absurd rfl hd0
                      | cons x d => cases x <;> simp [Spec.Drop.count] <;> omega
                    refine .inl ?_
                    rw [hl]; omega
                  · refine .inl ?_
                    rw [hl]; omega
                  · refine .inr ?_
                    rw [hc.triangles]
                    exact HasFlat.append hk h5 _
              refine ⟨D ++ d, ?_, ?_, ?_, by rw [hl]; omega, hflat⟩
              · rw [h1, htri, hsum, List.map_append, List.sum_append]; ring
              · intro x hx
                rcases List.mem_append.1 hx with hx | hx
                · exact h2 x hx
                · exact hd x hx
              · rw [List.map_append, List.sum_append]; omega
            cases dp with
            | false =>
              cases dn with
              | false => exact key [] (by simp) (by simp) (by rw [hA]; simp)
              | true =>
                refine key [.one _ _ _] ?_ (by simp [Spec.Drop.count]) (by
                  rw [hA]; simp only [Bool.false_eq_true, if_false, if_true, add_zero, List.map_cons, List.map_nil,
                    List.sum_cons, List.sum_nil]; rfl)
                intro x hx
                rw [List.mem_singleton] at hx
                subst hx
                exact ⟨hbn rfl, hmem' _, hmem' _, hmem' _⟩
            | true =>
              cases dn with
              | false =>
                refine key [.one _ _ _] ?_ (by simp [Spec.Drop.count]) (by
                  rw [hA]; simp only [Bool.false_eq_true, if_false, if_true, add_zero, List.map_cons, List.map_nil,
                    List.sum_cons, List.sum_nil]; rfl)
                intro x hx
                rw [List.mem_singleton] at hx
                subst hx
                exact ⟨hbp rfl, hmem' _, hmem' _, hmem' _⟩
              | true =>
                refine key [.two (points.getD (s.vertices.getD ((s.m + i - 2) % s.m) 0) 0)
                  (points.getD (s.vertices.getD ((s.m + i - 1) % s.m) 0) 0)
                  (points.getD (s.vertices.getD ((i + 1) % s.m) 0) 0)
                  (points.getD (s.vertices.getD ((i + 2) % s.m) 0) 0)] ?_ (by simp [Spec.Drop.count]) (by
                  rw [hA]; simp only [if_true, List.map_cons, List.map_nil,
                    List.sum_cons, List.sum_nil, Spec.Drop.area2]; ring)
                intro x hx
                rw [List.mem_singleton] at hx
                subst hx
                refine ⟨⟨hbp rfl, hbn rfl⟩, hmem' _, hmem' _, ?_⟩
                have hne3 : (s.m + i - 1) % s.m ≠ (i + 1) % s.m := by
                  rw [pred_mod hi, succ_mod hi]; split <;> split <;> omega
                have hsubl : (Spec.loopPoints points s.vertices).Sublist (Spec.loopPoints points V) := hV.map _
                have hpair : ∀ x y, x < y → y < s.m →
                    [points.getD (s.vertices.getD x 0) 0, points.getD (s.vertices.getD y 0) 0].Sublist
                      (Spec.loopPoints points s.vertices) := by
                  intro x y hxy hy
                  rw [hpts]
                  have : [x, y].Sublist (List.range s.m) := by
                    rw [← List.take_append_drop y (List.range s.m)]
                    refine List.Sublist.append (l₁ := [x]) (r₁ := [y]) ?_ ?_
                    · rw [List.singleton_sublist, List.take_range, List.mem_range]; omega
                    · rw [List.singleton_sublist, List.mem_drop_iff_getElem]
                      exact ⟨0, by simpa using hy, by simp⟩
                  exact this.map fun j => points.getD (s.vertices.getD j 0) 0
                have hp := Nat.mod_lt (s.m + i - 1) hpos
                have hn := Nat.mod_lt (i + 1) hpos
                rcases Nat.lt_or_gt_of_ne hne3 with hlt | hlt
                · exact .inl ((hpair _ _ hlt hn).trans hsubl)
                · exact .inr ((hpair _ _ hlt hp).trans hsubl)
          · have hA := area2_clip_small hi (by omega) (fun j => points.getD (s.vertices.getD j 0) 0)
            rw [← hpts] at hA
            have hflat : D = [] ∨ k + 1 + max s'.vertices.length 2 < V.length ∨ Spec.HasFlat points s'.triangles := by
              rcases h5 with h5 | h5 | h5
              · exact .inl h5
              · by_cases h3m : s.m = 3
                · refine .inr (.inl ?_)
                  rw [hl]; omega
                · refine .inr (.inr ⟨_, by rw [hc.triangles, triples_append hk]; simp [Spec.triples]; exact .inr rfl, ?_⟩)
                  obtain h12 | h12 : s.m = 1 ∨ s.m = 2 := by omega
                  · obtain rfl : i = 0 := by omega
                    simp [h12, Spec.triArea2]
                  · have : (s.m + i - 1) % s.m = (i + 1) % s.m := by rw [h12]; congr 1; omega
                    simp only [this, Spec.triArea2]; ring
              · exact .inr (.inr (by rw [hc.triangles]; exact HasFlat.append hk h5 _))
            refine ⟨D, ?_, h2, by omega, by rw [hl]; omega, hflat⟩
            have hz : Spec.area2 (Spec.loopPoints points s'.vertices) = 0 := by
              apply area2_short
              unfold Spec.loopPoints
              rw [List.length_map, hl]; omega
            rw [h1, htri, hA, hz]; ring)
        s.m 0 hlen hJ hpass
      exact hI)
    ⟨List.Sublist.refl _, 0, by simp, 0, [], by simp [Spec.trianglesArea2], by simp, by simp, by simp, by simp⟩ h
  rcases hend with ⟨e1, e2⟩ | ⟨a, b, c, e1, e2, e3⟩
  · rw [e1, e2]
    refine ⟨dropped, D, h1, h2, h3, .inl (by omega), ?_⟩
    rcases h5 with h5 | h5 | h5
    · exact .inl h5
    · exact .inr (.inl (by omega))
    · exact .inr (.inr h5)
  · rw [e2, e3]
    refine ⟨dropped, D, ?_, h2, h3, .inr ⟨rfl, ?_⟩, ?_⟩
    · rw [h1, e1, trianglesArea2_append points _ k hk]
      have : Spec.loopPoints points [a, b, c] = [points.getD a 0, points.getD b 0, points.getD c 0] := rfl
      rw [this, area2_triangle]
      have e : Spec.loopPoints points ([] : List Nat) = [] := rfl
      rw [e, area2_nil]
      simp [Spec.trianglesArea2]
    · rw [h4, e1]; simp [hk]; omega
    · rw [e1] at h5
      rcases h5 with h5 | h5 | h5
      · exact .inl h5
      · refine .inr (.inl ?_)
        simp at h5 ⊢; omega
      · exact .inr (.inr (HasFlat.append hk h5 _))

/-- **C69**: if the vertices are distinct and tolerance-straightness is transitive on them (no two vertices so close
that they hide a corner), the area error is at most the tolerance for each vertex neither clipped nor left over. -/
theorem C69_area_bound (htol : (0 : K) ≤ Env.tol) {bs : List Nat → Nat → Option Nat} {fuel : Nat}
    {points : List (V2 K)} {V C : List Nat} {s' : EarState}
    (h : triangulateState bs fuel points V C = .ok s')
    (hnd : (Spec.loopPoints points V).Nodup)
    (hq : ∀ a ∈ Spec.loopPoints points V, ∀ b ∈ Spec.loopPoints points V, ∀ c ∈ Spec.loopPoints points V,
      ∀ d ∈ Spec.loopPoints points V, b ≠ c → |Spec.triArea2 a b c| ≤ Env.tol → |Spec.triArea2 b c d| ≤ Env.tol →
        |Spec.triArea2 a c d| ≤ Env.tol) :
    3 * |Spec.area2 (Spec.loopPoints points V) - (Spec.trianglesArea2 points s'.triangles
        + Spec.area2 (Spec.loopPoints points s'.vertices))|
      ≤ (3 * V.length - s'.triangles.length - 3 * s'.vertices.length : ℤ) * Env.tol := by
  obtain ⟨dropped, D, h1, h2, h3, h4, -⟩ := C69_area_balance htol h
  have hb : ∀ D : List (Spec.Drop K), (∀ d ∈ D, d.Straight ∧ d.From (Spec.loopPoints points V)) →
      |(D.map Spec.Drop.area2).sum| ≤ ((D.map Spec.Drop.count).sum : ℕ) * Env.tol := by
    intro D hD
    induction D with
    | nil => simp
    | cons d D ih =>
      have h0 := ih fun x hx => hD x (List.mem_cons_of_mem _ hx)
      obtain ⟨hs, hp⟩ := hD d (List.mem_cons_self ..)
      have hd : |d.area2| ≤ (d.count : K) * Env.tol := by
        cases d with
        | one a b c =>
          have h5 : |Spec.triArea2 a b c| ≤ Env.tol := hs
          simpa [Spec.Drop.area2, Spec.Drop.count] using h5
        | two a b c d =>
          obtain ⟨ha, hd, hbc⟩ := hp
          have hb : b ∈ Spec.loopPoints points V := by
            rcases hbc with h | h <;> exact h.subset (by simp)
          have hc : c ∈ Spec.loopPoints points V := by
            rcases hbc with h | h <;> exact h.subset (by simp)
          have hne : b ≠ c := by
            rcases hbc with h | h
            · have := hnd.sublist h; simpa using this
            · have := hnd.sublist h; exact Ne.symm (by simpa using this)
          have := hq a ha b hb c hc d hd hne hs.1 hs.2
          have h5 := hs.1
          simp only [Spec.Drop.area2, Spec.Drop.count]
          refine (abs_add_le _ _).trans ?_
          push_cast
          linarith
      simp only [List.map_cons, List.sum_cons]
      refine (abs_add_le _ _).trans ?_
      push_cast at h0 ⊢
      linarith [add_mul (d.count : K) (((D.map Spec.Drop.count).sum : ℕ) : K) Env.tol]
  have hD := hb D h2
  have h5 : (((D.map Spec.Drop.count).sum : ℕ) : K) * Env.tol ≤ (dropped : K) * Env.tol :=
    mul_le_mul_of_nonneg_right (by exact_mod_cast h3) htol
  have h6 : 3 * (dropped : ℤ) ≤ 3 * V.length - s'.triangles.length - 3 * s'.vertices.length := by
    rcases h4 with h4 | ⟨h4, h4'⟩
    · omega
    · rw [h4]; simp; omega
  have h7 : ((3 * (dropped : ℤ) : ℤ) : K) * Env.tol
      ≤ ((3 * V.length - s'.triangles.length - 3 * s'.vertices.length : ℤ) : K) * Env.tol :=
    mul_le_mul_of_nonneg_right (by exact_mod_cast h6) htol
  have h8 : Spec.area2 (Spec.loopPoints points V) - (Spec.trianglesArea2 points s'.triangles
      + Spec.area2 (Spec.loopPoints points s'.vertices)) = (D.map Spec.Drop.area2).sum := by rw [h1]; ring
  rw [h8]
  refine le_trans ?_ h7
  push_cast at hD h5 ⊢
  linarith

/-- **C69**: if `n - 2` triangles were returned and none of them is flat, the area is conserved exactly. -/
theorem C69_exact (htol : (0 : K) ≤ Env.tol) {bs : List Nat → Nat → Option Nat} {fuel : Nat}
    {points : List (V2 K)} {V C : List Nat} {T : List Nat}
    (h : triangulatePolygon bs fuel points V C = .ok T)
    (hc : T.length = 3 * (V.length - 2))
    (hflat : ∀ t ∈ Spec.triples T,
      Spec.triArea2 (points.getD t.1 0) (points.getD t.2.1 0) (points.getD t.2.2 0) ≠ 0) :
    Spec.area2 (Spec.loopPoints points V) = Spec.trianglesArea2 points T := by
  unfold triangulatePolygon at h
  rw [bind_eq_ok] at h
  obtain ⟨s', h, hT⟩ := h
  cases hT
  obtain ⟨dropped, D, h1, h2, h3, h4, h5⟩ := C69_area_balance htol h
  have hn := (C38_valid h).1
  have hD : D = [] := by
    rcases h5 with h5 | h5 | ⟨t, ht, h5⟩
    · exact h5
    · omega
    · exact absurd h5 (hflat t ht)
  have hr : s'.vertices.length ≤ 2 := by
    rcases h4 with h4 | ⟨h4, _⟩
    · omega
    · simp [h4]
  rw [h1, hD, area2_short (by unfold Spec.loopPoints; rw [List.length_map]; exact hr)]
  simp

/-! ### C70: without concave vertices the triangulation is complete -/

theorem IsClip.area_nodrop {points : List (V2 K)} {s s' : EarState} {i : Nat} (hlen : s.vertices.length = s.m)
    (hi : i < s.m) (hc : IsClip points s s' i false false) {k : Nat} (hk : s.triangles.length = 3 * k) :
    Spec.trianglesArea2 points s'.triangles + Spec.area2 (Spec.loopPoints points s'.vertices)
      = Spec.trianglesArea2 points s.triangles + Spec.area2 (Spec.loopPoints points s.vertices) := by
  have hpts : Spec.loopPoints points s.vertices
      = (List.range s.m).map fun j => points.getD (s.vertices.getD j 0) 0 := by
    unfold Spec.loopPoints
    conv_lhs => rw [eq_tab_getD s.vertices 0, hlen]
    simp [tab]
  have hpts' : Spec.loopPoints points s'.vertices
      = ((List.range s.m).filter fun j => !delPred s.m i false false j).map
        fun j => points.getD (s.vertices.getD j 0) 0 := by
    unfold Spec.loopPoints
    rw [hc.vertices, List.map_map]; rfl
  have htri : Spec.trianglesArea2 points s'.triangles = Spec.trianglesArea2 points s.triangles
      + Spec.triArea2 (points.getD (s.vertices.getD ((s.m + i - 1) % s.m) 0) 0)
        (points.getD (s.vertices.getD i 0) 0) (points.getD (s.vertices.getD ((i + 1) % s.m) 0) 0) := by
    rw [hc.triangles, trianglesArea2_append points _ k hk]
    simp [Spec.trianglesArea2]
  by_cases h4m : 4 ≤ s.m
  · have hA := area2_clip hi h4m (fun j => points.getD (s.vertices.getD j 0) 0) false false
    rw [← hpts, ← hpts'] at hA
    simp only [Bool.false_eq_true, if_false, add_zero] at hA
    rw [htri, hA]; ring
  · have hA := area2_clip_small hi (by omega) (fun j => points.getD (s.vertices.getD j 0) 0)
    rw [← hpts] at hA
    have hz : Spec.area2 (Spec.loopPoints points s'.vertices) = 0 := by
      apply area2_short
      unfold Spec.loopPoints
      have := hc.m
      rw [List.length_map, hc.len]; simp at this; omega
    rw [htri, hA, hz]; ring

end

section
variable {F : Type} [Add F] [Sub F] [Mul F] [Div F] [Neg F] [Zero F] [One F] [NatCast F] [LT F] [DecidableLT F]
  [LE F] [DecidableLE F] [Env F]

theorem bs_nil {bs : List Nat → Nat → Option Nat} (hbs : BinarySearch bs) (x : Nat) : bs [] x = none := by
  cases h : bs [] x with
  | none => rfl
  | some j => have := hbs.found _ _ _ h; simp at this

theorem earStep_convex {bs : List Nat → Nat → Option Nat} (hbs : BinarySearch bs) {points : List (V2 F)}
    {s : EarState} {i : Nat} (hlen : s.vertices.length = s.m) (hi : i < s.m) (hC : s.concave = []) :
    ∃ s', earStep bs points s i = .ok s' ∧ s'.concave = [] ∧ IsClip points s s' i false false := by
  have hpos : 0 < s.m := by omega
  have hp := Nat.mod_lt (s.m + i - 1) hpos
  have hn := Nat.mod_lt (i + 1) hpos
  rw [← hlen] at hp hn hi
  rw [hlen] at hp hn
  have hD : deletions s.m i false false = [i] := rfl
  have hst : earStep bs points s i = .ok ⟨s.vertices.eraseIdx i, [],
      s.triangles ++ [s.vertices.getD ((s.m + i - 1) % s.m) 0, s.vertices.getD i 0, s.vertices.getD ((i + 1) % s.m) 0],
      s.m - 1⟩ := by
    unfold earStep
    rw [idx_ok hi, hC, ok_bind]
    simp only [bs_nil hbs]
    rw [idx_ok (by omega), idx_ok (by omega)]
    simp only [ok_bind, isEar, pure_eq_ok, updatePrev, updateNext, bs_nil hbs, if_true, hD]
    rw [usub_ok (by simp only [List.length_cons, List.length_nil]; omega)]
    simp only [ok_bind, Except.ok.injEq]
    rw [getD_of_lt _ (by omega), getD_of_lt _ (by omega), getD_of_lt _ (by omega)]
    rfl
  refine ⟨_, hst, rfl, ?_⟩
  rcases earStep_cases hlen (by omega) hst with h | ⟨dp, dn, hc⟩
  · have := congrArg EarState.m h
    simp at this; omega
  · have := hc.m
    have h0 : dp = false ∧ dn = false := by
      cases dp <;> cases dn <;> simp at this ⊢ <;> omega
    obtain ⟨rfl, rfl⟩ := h0
    exact hc

theorem earPass_convex {bs : List Nat → Nat → Option Nat} (hbs : BinarySearch bs) {points : List (V2 F)}
    (J : EarState → Prop)
    (hJ : ∀ i s s', s.vertices.length = s.m → i < s.m → J s → IsClip points s s' i false false → J s')
    (k i : Nat) {s : EarState} (hlen : s.vertices.length = s.m) (hC : s.concave = []) (h0 : J s) (hk : s.m ≤ i + k)
    (him : i ≤ s.m) :
    ∃ s', earPass bs points k i s = .ok s' ∧ J s' ∧ s'.concave = [] ∧ s'.vertices.length = s'.m ∧
      s'.m = (s.m + i) / 2 := by
  induction k generalizing i s with
  | zero => exact ⟨s, rfl, h0, hC, hlen, by omega⟩
  | succ k ih =>
    unfold earPass
    by_cases hi : i < s.m
    · rw [if_pos hi]
      obtain ⟨s1, h1, h2, hc⟩ := earStep_convex hbs (points := points) hlen hi hC
      rw [h1]
      simp only [ok_bind]
      have hm := hc.m
      simp only [Bool.toNat_false, add_zero] at hm
      by_cases him' : i + 1 ≤ s1.m
      · obtain ⟨s', e1, e2, e3, e4, e5⟩ := ih (i + 1) hc.len h2 (hJ _ _ _ hlen hi h0 hc) (by omega) him'
        exact ⟨s', e1, e2, e3, e4, by rw [e5]; congr 1; omega⟩
      · have : earPass bs points k (i + 1) s1 = .ok s1 := by
          cases k with
          | zero => rfl
          | succ k => unfold earPass; rw [if_neg (by omega)]; rfl
        exact ⟨s1, this, hJ _ _ _ hlen hi h0 hc, h2, hc.len, by omega⟩
    · rw [if_neg hi]
      exact ⟨s, rfl, h0, hC, hlen, by omega⟩

theorem earLoop_convex {bs : List Nat → Nat → Option Nat} (hbs : BinarySearch bs) {points : List (V2 F)}
    (J : EarState → Prop) (hm : ∀ s m, J s → J { s with m := m })
    (hJ : ∀ i s s', s.vertices.length = s.m → i < s.m → J s → IsClip points s s' i false false → J s')
    (fuel : Nat) (prevM : Option Nat) {s : EarState} (hC : s.concave = []) (h0 : J s) (h2 : 2 ≤ s.vertices.length)
    (hf : s.vertices.length < fuel) (hst : stalled prevM s.vertices.length = false) :
    ∃ s1 s', earLoop bs points fuel prevM s = .ok s' ∧ J s1 ∧
      ((s1.vertices.length = 2 ∧ s'.vertices = s1.vertices ∧ s'.triangles = s1.triangles) ∨
       ∃ a b c, s1.vertices = [a, b, c] ∧ s'.vertices = [] ∧ s'.triangles = s1.triangles ++ [a, b, c]) := by
  induction fuel generalizing prevM s with
  | zero => omega
  | succ fuel ih =>
    unfold earLoop
    rw [if_neg (by simp [hst])]
    simp only
    by_cases h3 : s.vertices.length < 3
    · rw [if_pos h3]
      exact ⟨s, s, rfl, h0, .inl ⟨by omega, rfl, rfl⟩⟩
    · rw [if_neg h3]
      by_cases h3' : s.vertices.length = 3
      · rw [if_pos h3']
        obtain ⟨a, b, c, hv⟩ := List.length_eq_three.1 h3'
        refine ⟨s, ⟨[], s.concave, s.triangles ++ [a, b, c], s.vertices.length⟩, ?_, h0, .inr ⟨a, b, c, hv, rfl, rfl⟩⟩
        rw [hv]; rfl
      · rw [if_neg h3']
        obtain ⟨s1, e1, e2, e3, e4, e5⟩ := earPass_convex hbs J hJ s.vertices.length 0
          (s := { s with m := s.vertices.length }) rfl hC (hm _ _ h0) (by simp) (by simp)
        rw [e1]
        simp only [ok_bind]
        simp only [Nat.add_zero] at e5
        exact ih _ e3 e2 (by omega) (by omega) (by simp [stalled]; omega)

/-- **C70**: without concave vertices ear clipping succeeds on any `n ≥ 2` vertices (any arithmetic, any points) and
returns exactly `n - 2` triangles. -/
theorem C70_convex_complete {bs : List Nat → Nat → Option Nat} (hbs : BinarySearch bs) (points : List (V2 F))
    {V : List Nat} (hn : 2 ≤ V.length) {fuel : Nat} (hf : V.length < fuel) :
    ∃ s', triangulateState bs fuel points V [] = .ok s' ∧ s'.triangles.length = 3 * (V.length - 2) := by
  obtain ⟨s1, s', h1, h2, h3⟩ := earLoop_convex hbs (points := points)
    (J := fun s => s.triangles.length + 3 * s.vertices.length = 3 * V.length) (fun _ _ h => h)
    (by
      intro i s s' hlen hi h hc
      have := hc.m
      rw [hc.triangles, hc.len]
      simp at this ⊢; omega)
    fuel none (s := ⟨V, [], [], V.length⟩) rfl (by simp) hn hf rfl
  refine ⟨s', ?_, ?_⟩
  · unfold triangulateState; rw [usub_ok hn]; exact h1
  · rcases h3 with ⟨e1, e2, e3⟩ | ⟨a, b, c, e1, e2, e3⟩
    · rw [e3]; omega
    · rw [e3]; rw [e1] at h2; simp at h2 ⊢; omega

end

section
variable {K : Type} [Field K] [LinearOrder K] [IsStrictOrderedRing K] [Env K]

/-- **C70**: in exact arithmetic the triangles of such a polygon add up to exactly its signed area. -/
theorem C70_convex_area {bs : List Nat → Nat → Option Nat} (hbs : BinarySearch bs) (points : List (V2 K))
    {V : List Nat} (hn : 2 ≤ V.length) {fuel : Nat} (hf : V.length < fuel) :
    ∃ s', triangulateState bs fuel points V [] = .ok s' ∧
      Spec.trianglesArea2 points s'.triangles = Spec.area2 (Spec.loopPoints points V) := by
  obtain ⟨s1, s', h1, ⟨k, hk, h2⟩, h3⟩ := earLoop_convex hbs (points := points)
    (J := fun s => ∃ k, s.triangles.length = 3 * k ∧
      Spec.trianglesArea2 points s.triangles + Spec.area2 (Spec.loopPoints points s.vertices)
        = Spec.area2 (Spec.loopPoints points V)) (fun _ _ h => h)
    (by
      rintro i s s' hlen hi ⟨k, hk, h⟩ hc
      refine ⟨k + 1, ?_, by rw [hc.area_nodrop hlen hi hk, h]⟩
      rw [hc.triangles]; simp [hk]; omega)
    fuel none (s := ⟨V, [], [], V.length⟩) rfl ⟨0, by simp, by simp [Spec.trianglesArea2]⟩ hn hf rfl
  refine ⟨s', ?_, ?_⟩
  · unfold triangulateState; rw [usub_ok hn]; exact h1
  · rcases h3 with ⟨e1, e2, e3⟩ | ⟨a, b, c, e1, e2, e3⟩
    · rw [e3, ← h2, area2_short (by unfold Spec.loopPoints; rw [List.length_map]; omega), add_zero]
    · rw [e3, ← h2, e1, trianglesArea2_append points _ k hk]
      have : Spec.loopPoints points [a, b, c] = [points.getD a 0, points.getD b 0, points.getD c 0] := rfl
      rw [this, area2_triangle]
      simp [Spec.trianglesArea2]

/-- **C70**: a polygon all of whose turns exceed the tolerance is classified without concave vertices, so
`compute_vertex_convexity` followed by `trianglate_polygon` returns `n - 2` triangles of the polygon's total area. -/
theorem C70_pipeline (htol : (0 : K) ≤ Env.tol) {bs : List Nat → Nat → Option Nat} (hbs : BinarySearch bs)
    {points : List (V2 K)} (hn : 2 ≤ points.length)
    (hconv : ∀ i, i < points.length → Env.tol < Spec.turn points i) :
    ∃ s', (computeVertexConvexity points >>= fun r => triangulateState bs (points.length + 1) points r.1 r.2) = .ok s' ∧
      s'.triangles.length = 3 * (points.length - 2) ∧
      Spec.trianglesArea2 points s'.triangles = Spec.area2 points := by
  rw [C37_compute htol, ok_bind]
  have e1 : (List.range points.length).filter (fun i => decide (Env.tol < |Spec.turn points i|))
      = List.range points.length := by
    apply filter_eq_self'
    intro i hi
    have := hconv i (by simpa using hi)
    simpa using lt_of_lt_of_le this (le_abs_self _)
  have e2 : (List.range points.length).filter (fun i => decide (Spec.turn points i < -Env.tol)) = [] := by
    rw [List.filter_eq_nil_iff]
    intro i hi
    have := hconv i (by simpa using hi)
    simp; linarith
  simp only [e1, e2]
  obtain ⟨s', h1, h2⟩ := C70_convex_complete hbs points (V := List.range points.length) (by simpa using hn)
    (fuel := points.length + 1) (by simp)
  obtain ⟨s'', h1', h3⟩ := C70_convex_area hbs points (V := List.range points.length) (by simpa using hn)
    (fuel := points.length + 1) (by simp)
  rw [h1] at h1'
  cases h1'
  refine ⟨s', h1, by simpa using h2, ?_⟩
  rw [h3]
  unfold Spec.loopPoints
  have := eq_tab_getD points 0
  conv_rhs => rw [this]
  rfl

/-! ### C39: what fails, and what remains -/

/-- Edge `i` of a closed polygon shares no point with edge `j` unless they are equal or neighbours. -/
def Spec.Simple (pts : List (V2 K)) : Prop :=
  ∀ i j, i < pts.length → j < pts.length → i ≠ j → (i + 1) % pts.length ≠ j → (j + 1) % pts.length ≠ i →
    ¬ ∃ p, Spec.OnSegment (pts.getD i 0) (pts.getD ((i + 1) % pts.length) 0) p ∧
      Spec.OnSegment (pts.getD j 0) (pts.getD ((j + 1) % pts.length) 0) p

theorem simple_of_check {pts : List (V2 K)}
    (h : (List.range pts.length).all (fun i => (List.range pts.length).all fun j =>
      decide (i = j) || decide ((i + 1) % pts.length = j) || decide ((j + 1) % pts.length = i) ||
      !isSegmentsIntersect (pts.getD i 0) (pts.getD ((i + 1) % pts.length) 0) (pts.getD j 0)
        (pts.getD ((j + 1) % pts.length) 0)) = true) : Spec.Simple pts := by
  intro i j hi hj h1 h2 h3 hp
  rw [List.all_eq_true] at h
  have := h i (by simpa using hi)
  rw [List.all_eq_true] at this
  have := this j (by simpa using hj)
  rw [← C34_exact] at hp
  rw [hp] at this
  simp [h1, h2, h3] at this

/-- The octagon of the first counterexample. -/
def cexIncomplete : List (V2 ℚ) := [⟨2, 4⟩, ⟨3, 3⟩, ⟨4, 4⟩, ⟨4, 5⟩, ⟨3, 5⟩, ⟨3, 6⟩, ⟨1, 5⟩, ⟨1, 4⟩]

/-- **C39**, finding: a simple counter-clockwise polygon with its computed concave list is not triangulated
completely.  Vertices dropped as straight stay in the concave list and block every further ear: 2 triangles of total
area 2 are returned for a polygon of area 5, and a quadrilateral of area 3 is silently left out. -/
theorem C39_incomplete :
    Spec.Simple cexIncomplete ∧ Spec.area2 cexIncomplete = 10 ∧
    ∃ V C s', computeVertexConvexity cexIncomplete = .ok (V, C) ∧
      triangulateState linSearch 10 cexIncomplete V C = .ok s' ∧ s'.triangles.length = 6 ∧ s'.vertices = [2, 3, 6, 7] ∧
      Spec.trianglesArea2 cexIncomplete s'.triangles = 4 :=
  ⟨simple_of_check (by decide +kernel), by decide +kernel,
    [0, 1, 2, 3, 4, 5, 6, 7], [0, 4], ⟨[2, 3, 6, 7], [0, 4], [0, 1, 2, 4, 5, 6], 4⟩,
    by decide +kernel, by decide +kernel, by decide +kernel, rfl, by decide +kernel⟩

/-- A square with a needle at one corner. -/
def cexNeedle : List (V2 ℚ) :=
  [⟨104, -100⟩, ⟨4 + 1 / 10 ^ 8, 1 / 10 ^ 8⟩, ⟨4 + 1 / 10 ^ 8, 4⟩, ⟨0, 4⟩, ⟨0, 0⟩, ⟨4, 0⟩]

/-- **C39**, finding: the area balance fails by an arbitrary amount.  Clipping the tip of the needle makes both of its
feet "straight" (they are `10^-8` apart), both are dropped at once, and the corner of the square goes with them: the
triangles and the left-over polygon together cover half of the polygon's area. -/
theorem C39_area_lost :
    Spec.Simple cexNeedle ∧ 32 < Spec.area2 cexNeedle ∧
    ∃ V C s', computeVertexConvexity cexNeedle = .ok (V, C) ∧
      triangulateState linSearch 10 cexNeedle V C = .ok s' ∧ s'.vertices = [2, 4] ∧
      Spec.trianglesArea2 cexNeedle s'.triangles + Spec.area2 (Spec.loopPoints cexNeedle s'.vertices) < 17 :=
  ⟨simple_of_check (by decide +kernel), by decide +kernel,
    [0, 1, 2, 3, 4, 5], [1, 5], ⟨[2, 4], [1, 5], [5, 0, 1, 2, 3, 4], 2⟩,
    by decide +kernel, by decide +kernel, rfl, by decide +kernel⟩

/-- **C39**, the part that holds: the left-over is a sub-polygon of the input, and triangles plus left-over balance the
polygon's area up to `tol` per vertex neither clipped nor left over (twice the areas are compared), provided
the vertices are distinct and tolerance-straightness is transitive on them.  Missing from the full statement: the bound without that
proviso (false, `C39_area_lost`), and a complete triangulation (false, `C39_incomplete`). -/
theorem C39_area_partial (htol : (0 : K) ≤ Env.tol) {bs : List Nat → Nat → Option Nat} {fuel : Nat}
    {points : List (V2 K)} {V C : List Nat} {s' : EarState}
    (h : triangulateState bs fuel points V C = .ok s')
    (hnd : (Spec.loopPoints points V).Nodup)
    (hq : ∀ a ∈ Spec.loopPoints points V, ∀ b ∈ Spec.loopPoints points V, ∀ c ∈ Spec.loopPoints points V,
      ∀ d ∈ Spec.loopPoints points V, b ≠ c → |Spec.triArea2 a b c| ≤ Env.tol → |Spec.triArea2 b c d| ≤ Env.tol →
        |Spec.triArea2 a c d| ≤ Env.tol) :
    s'.vertices.Sublist V ∧
    3 * |Spec.area2 (Spec.loopPoints points V) - (Spec.trianglesArea2 points s'.triangles
        + Spec.area2 (Spec.loopPoints points s'.vertices))|
      ≤ (3 * V.length - s'.triangles.length - 3 * s'.vertices.length : ℤ) * Env.tol :=
  ⟨(C38_valid h).2.2.1, C69_area_bound htol h hnd hq⟩

/-- Non-vacuity of `hq` (C39, C69): the vertices of a triangle with a straight vertex and a notch. -/
example : ∀ a ∈ ([⟨0, 0⟩, ⟨2, 0⟩, ⟨4, 0⟩, ⟨4, 4⟩, ⟨2, 1⟩] : List (V2 ℚ)),
    ∀ b ∈ ([⟨0, 0⟩, ⟨2, 0⟩, ⟨4, 0⟩, ⟨4, 4⟩, ⟨2, 1⟩] : List (V2 ℚ)),
    ∀ c ∈ ([⟨0, 0⟩, ⟨2, 0⟩, ⟨4, 0⟩, ⟨4, 4⟩, ⟨2, 1⟩] : List (V2 ℚ)),
    ∀ d ∈ ([⟨0, 0⟩, ⟨2, 0⟩, ⟨4, 0⟩, ⟨4, 4⟩, ⟨2, 1⟩] : List (V2 ℚ)), b ≠ c →
    |Spec.triArea2 a b c| ≤ Env.tol → |Spec.triArea2 b c d| ≤ Env.tol → |Spec.triArea2 a c d| ≤ Env.tol := by
  simp only [abs_le]
  decide +kernel

/-- Non-vacuity of C70: a convex pentagon. -/
example : (∀ i, i < 5 → (Env.tol : ℚ) < Spec.turn [⟨0, 0⟩, ⟨4, 0⟩, ⟨5, 3⟩, ⟨2, 5⟩, ⟨-1, 3⟩] i) ∧
    triangulateState linSearch 6 ([⟨0, 0⟩, ⟨4, 0⟩, ⟨5, 3⟩, ⟨2, 5⟩, ⟨-1, 3⟩] : List (V2 ℚ)) [0, 1, 2, 3, 4] []
      = .ok ⟨[1, 3], [], [4, 0, 1, 1, 2, 3, 3, 4, 1], 2⟩ := by decide +kernel

end

end Geom3d
