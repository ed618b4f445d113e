import Verif.Props.EarArea
import Verif.Lemmas.Chain

/-! # C75: ear clipping conserves the boundary (any arithmetic) -/

set_option linter.unusedSectionVars false

namespace Geom3d

section
variable {M : Type} [AddCommGroup M] {φ : Nat → Nat → M}

theorem chain_filter_rotate (m i : Nat) (q : Nat → Bool) (g : Nat → Nat) :
    Spec.weight φ (Spec.loopEdges (((List.range m).filter q).map g))
      = Spec.weight φ (Spec.loopEdges ((((List.range m).rotate i).filter q).map g)) := by
  rw [List.rotate_eq_drop_append_take_mod]
  rw [List.filter_append, List.map_append, chain_append_comm, ← List.map_append, ← List.filter_append,
    List.take_append_drop]

/-- The boundary left after a clip, `m ≥ 4`. -/
theorem chain_clip (h : Spec.Skew φ) {m i : Nat} (hi : i < m) (h4 : 4 ≤ m) (g : Nat → Nat) (dp dn : Bool) :
    Spec.weight φ (Spec.loopEdges ((List.range m).map g))
      = Spec.weight φ (Spec.loopEdges (((List.range m).filter fun j => !delPred m i dp dn j).map g))
        + triWeight φ (g ((m + i - 1) % m)) (g i) (g ((i + 1) % m))
        + (if dp then triWeight φ (g ((m + i - 2) % m)) (g ((m + i - 1) % m)) (g ((i + 1) % m)) else 0)
        + (if dn then triWeight φ (if dp then g ((m + i - 2) % m) else g ((m + i - 1) % m)) (g ((i + 1) % m))
            (g ((i + 2) % m)) else 0) := by
  obtain ⟨R, hrot, hhead, hlast, hR⟩ := range_rotate_split hi h4
  have hp := pred_mod hi
  have hs := succ_mod hi
  have e1 : Spec.weight φ (Spec.loopEdges ((List.range m).map g))
      = Spec.weight φ (Spec.loopEdges (g i :: g ((i + 1) % m) :: (R.map g ++ [g ((m + i - 1) % m)]))) := by
    have := chain_filter_rotate (φ := φ) m i (fun _ => true) g
    rw [hrot] at this
    simpa using this
  have e2 := chain_filter_rotate (φ := φ) m i (fun j => !delPred m i dp dn j) g
  rw [hrot] at e2
  have hne1 : (i + 1) % m ≠ i := by rw [hs]; split <;> omega
  have hne2 : (m + i - 1) % m ≠ i := by rw [hp]; split <;> omega
  have hne3 : (m + i - 1) % m ≠ (i + 1) % m := by rw [hp, hs]; split <;> split <;> omega
  have hRf : R.filter (fun j => !delPred m i dp dn j) = R := by
    apply filter_eq_self'
    intro j hj
    obtain ⟨h1, h2, h3⟩ := hR j hj
    simp [delPred, h1, h2, h3]
  have hdi : delPred m i dp dn i = true := by simp [delPred]
  have hdn : delPred m i dp dn ((i + 1) % m) = dn := by
    simp [delPred, hne1, Ne.symm hne3]
  have hdp : delPred m i dp dn ((m + i - 1) % m) = dp := by
    simp [delPred, hne2, hne3]
  rw [List.filter_cons, List.filter_cons, List.filter_append, List.filter_singleton, hRf, hdi, hdn, hdp] at e2
  rw [e1, e2, chain_cut h]
  obtain ⟨r, R', rfl⟩ : ∃ r R', R = r :: R' := by
    cases R with
    | nil => simp at hhead
    | cons r R' => exact ⟨r, R', rfl⟩
  have hr : r = (i + 2) % m := by simpa using hhead
  obtain ⟨R'', z, hz⟩ : ∃ R'' z, r :: R' = R'' ++ [z] := ⟨_, _, (List.dropLast_append_getLast (l := r :: R') (by simp)).symm⟩
  have hzz : z = (m + i - 2) % m := by
    rw [hz, List.getLast?_append] at hlast
    simpa using hlast
  cases dp <;> cases dn
  · simp
  · simp only [Bool.not_true, Bool.false_eq_true, if_false, Bool.not_false, if_true, add_zero]
    simp only [List.map_append, List.map_cons, List.map_nil, List.cons_append, cond_true]
    rw [chain_cut h, hr]
    abel
  · simp only [Bool.not_true, Bool.false_eq_true, if_false, Bool.not_false, if_true, add_zero]
    rw [hz, List.map_append, List.map_cons, List.map_nil, List.map_cons]
    have : Spec.weight φ (Spec.loopEdges (g ((i + 1) % m) :: (R''.map g ++ [g z] ++ [g ((m + i - 1) % m)])))
        = Spec.weight φ (Spec.loopEdges (g ((m + i - 1) % m) :: g ((i + 1) % m) :: (R''.map g ++ [g z]))) := by
      rw [← List.cons_append, chain_append_comm]; rfl
    rw [this, chain_cut h, hzz]
    simp only [List.map_append, List.map_cons, List.map_nil, List.append_nil, cond_false]
    abel
  · simp only [Bool.not_true, Bool.false_eq_true, if_false, if_true]
    have e3 : Spec.weight φ (Spec.loopEdges (g ((i + 1) % m) :: ((r :: R').map g ++ [g ((m + i - 1) % m)])))
        = Spec.weight φ (Spec.loopEdges (g ((m + i - 1) % m) :: g ((i + 1) % m) :: ((r :: R').map g))) := by
      rw [← List.cons_append, chain_append_comm]; rfl
    have e4 : g ((m + i - 1) % m) :: g ((i + 1) % m) :: ((r :: R').map g)
        = g ((m + i - 1) % m) :: g ((i + 1) % m) :: (R''.map g ++ [g z]) := by
      rw [hz, List.map_append, List.map_cons, List.map_nil]
    rw [e3, e4, chain_cut h]
    have e5 : g ((i + 1) % m) :: (R''.map g ++ [g z]) = g ((i + 1) % m) :: g r :: R'.map g := by
      rw [← List.map_cons, hz, List.map_append, List.map_cons, List.map_nil]
    cases R' with
    | nil =>
      obtain ⟨rfl, rfl⟩ : R'' = [] ∧ z = r := by
        cases R'' with
        | nil => simp at hz; exact ⟨rfl, hz.symm⟩
        | cons a t => simp at hz
      simp only [List.map_nil, List.nil_append, List.append_nil, List.map_cons, cond_false]
      rw [chain_short h (by simp), chain_short h (by simp), ← hr, ← hzz]
      simp only [triWeight, h.self]
      have a1 := h.anti (g ((m + i - 1) % m)) (g z)
      have a2 := h.anti (g ((i + 1) % m)) (g z)
      simp only [a1, a2]
      abel
    | cons q R3 =>
      obtain ⟨R4, z', hz4⟩ : ∃ R4 z', q :: R3 = R4 ++ [z'] :=
        ⟨_, _, (List.dropLast_append_getLast (l := q :: R3) (by simp)).symm⟩
      obtain rfl : z = z' := by
        rw [hz4, ← List.cons_append] at hz
        have := congrArg List.getLast? hz
        rw [List.getLast?_concat, List.getLast?_concat] at this
        exact (Option.some.inj this).symm
      rw [e5, hz4, List.map_append, List.map_cons, List.map_nil, chain_cut h, ← hr, ← hzz]
      simp only [List.map_append, List.map_cons, List.map_nil, List.append_nil, cond_false]
      abel

/-- For at most three vertices a clip takes the whole boundary, whatever else is dropped. -/
theorem chain_clip_small (h : Spec.Skew φ) {m i : Nat} (hi : i < m) (h3 : m ≤ 3) (g : Nat → Nat) :
    Spec.weight φ (Spec.loopEdges ((List.range m).map g))
      = triWeight φ (g ((m + i - 1) % m)) (g i) (g ((i + 1) % m)) := by
  obtain rfl | rfl | rfl : m = 1 ∨ m = 2 ∨ m = 3 := by omega
  · obtain rfl : i = 0 := by omega
    rw [chain_short h (by simp)]
    simp [triWeight, h.self]
  · rw [chain_short h (by simp)]
    obtain rfl | rfl : i = 0 ∨ i = 1 := by omega
    · simp [triWeight, h.self, h.anti (g 0) (g 1)]
    · simp [triWeight, h.self, h.anti (g 0) (g 1)]
  · have : (List.range 3).map g = [g 0, g 1, g 2] := rfl
    rw [this, chain_triangle]
    obtain rfl | rfl | rfl : i = 0 ∨ i = 1 ∨ i = 2 := by omega
    · show _ = triWeight φ (g 2) (g 0) (g 1); simp only [triWeight]; abel
    · rfl
    · show _ = triWeight φ (g 1) (g 2) (g 0); simp only [triWeight]; abel

end

section
variable {F : Type} [Add F] [Sub F] [Mul F] [Div F] [Neg F] [Zero F] [One F] [NatCast F] [LT F] [DecidableLT F]
  [LE F] [DecidableLE F] [Env F]

/-- Vertices dropped by one clip: one vertex `b` between `a` and `c`, or two, `b` and `c`, between `a` and `d`. -/
inductive Spec.Cut where
  | one (a b c : Nat)
  | two (a b c d : Nat)

/-- The directed edges which a drop takes from the boundary, and the one which replaces them, turned around. -/
def Spec.Cut.edges : Spec.Cut → List (Nat × Nat)
  | .one a b c => [(a, b), (b, c), (c, a)]
  | .two a b c d => [(a, b), (b, c), (c, d), (d, a)]

/-- `b` is straight between `a` and `c`, as the code sees it. -/
def Spec.StraightIdx (points : List (V2 F)) (a b c : Nat) : Prop :=
  ∃ p q r, points[a]? = some p ∧ points[b]? = some q ∧ points[c]? = some r ∧ computeConvexity p q r = .colinear

def Spec.Cut.Straight (points : List (V2 F)) : Spec.Cut → Prop
  | .one a b c => Spec.StraightIdx points a b c
  | .two a b c d => Spec.StraightIdx points a b c ∧ Spec.StraightIdx points b c d

/-- Some triangle names a vertex twice. -/
def Spec.Repeats (T : List Nat) : Prop := ∃ t ∈ Spec.triples T, t.1 = t.2.1 ∨ t.2.1 = t.2.2 ∨ t.1 = t.2.2

theorem Repeats.append {T : List Nat} {k : Nat} (hk : T.length = 3 * k) (h : Spec.Repeats T) (T' : List Nat) :
    Spec.Repeats (T ++ T') := by
  obtain ⟨t, ht, h⟩ := h
  exact ⟨t, by rw [triples_append hk]; exact List.mem_append_left _ ht, h⟩

variable (M : Type) [AddCommGroup M]

/-- The balance of a state. -/
def ChainBalance (points : List (V2 F)) (V : List Nat) (k : Nat) (T R : List Nat) (D : List Spec.Cut) : Prop :=
  (∀ φ : Nat → Nat → M, Spec.Skew φ → Spec.weight φ (Spec.loopEdges V)
      = Spec.weight φ (Spec.triEdges T) + Spec.weight φ (Spec.loopEdges R) + Spec.weight φ (D.flatMap Spec.Cut.edges)) ∧
    (∀ d ∈ D, d.Straight points) ∧ k + R.length ≤ V.length ∧
    (D = [] ∨ k + max R.length 2 < V.length ∨ Spec.Repeats T)

theorem triWeight_eq (φ : Nat → Nat → M) (a b c : Nat) : triWeight φ a b c = Spec.weight φ (Spec.Cut.edges (.one a b c)) := by
  simp [triWeight, Spec.Cut.edges]; abel

/-- **C75** (any arithmetic) The boundary of the polygon is that of the triangles, plus that of the left-over polygon,
plus that of the slivers cut off by dropping vertices which the code found straight.  Drops cost triangles: unless
some triangle names a vertex twice, there are fewer than `n - 2` triangles if anything was dropped. -/
theorem C75_balance {bs : List Nat → Nat → Option Nat} {fuel : Nat} {points : List (V2 F)} {V C : List Nat}
    {s' : EarState} (h : triangulateState bs fuel points V C = .ok s') :
    ∃ D : List Spec.Cut,
      (∀ φ : Nat → Nat → M, Spec.Skew φ → Spec.weight φ (Spec.loopEdges V)
        = Spec.weight φ (Spec.triEdges s'.triangles) + Spec.weight φ (Spec.loopEdges s'.vertices)
          + Spec.weight φ (D.flatMap Spec.Cut.edges)) ∧
      (∀ d ∈ D, d.Straight points) ∧
      s'.triangles.length + 3 * s'.vertices.length ≤ 3 * V.length ∧
      (D = [] ∨ s'.triangles.length + 6 < 3 * V.length ∨ Spec.Repeats s'.triangles) := by
  obtain ⟨hn, s1, ⟨k, hk, D, h1, h2, h4, h5⟩, hend⟩ := triangulate_inv
    (J := fun s => ∃ k, s.triangles.length = 3 * k ∧ ∃ D, ChainBalance M points V k s.triangles s.vertices D)
    (fun s m h => h)
    (by
      intro s s' hlen _ hJ hpass
      obtain ⟨-, -, hI⟩ := earPass_inv
        (I := fun _ s => ∃ k, s.triangles.length = 3 * k ∧ ∃ D, ChainBalance M points V k s.triangles s.vertices D)
        (fun _ _ h => h)
        (by
          rintro i s s' dp dn hlen hi ⟨k, hk, D, h1, h2, h4, h5⟩ hc
          have hpos : 0 < s.m := by omega
          have hpts : s.vertices = (List.range s.m).map fun j => s.vertices.getD j 0 := by
            conv_lhs => rw [eq_tab_getD s.vertices 0, hlen]
            simp [tab]
          have hm := hc.m
          have hl := hc.len
          have htri : ∀ φ : Nat → Nat → M, Spec.weight φ (Spec.triEdges s'.triangles)
              = Spec.weight φ (Spec.triEdges s.triangles)
              + triWeight φ (s.vertices.getD ((s.m + i - 1) % s.m) 0) (s.vertices.getD i 0)
                  (s.vertices.getD ((i + 1) % s.m) 0) := by
            intro φ
            rw [hc.triangles, triEdges_append _ k hk]
            simp [Spec.triEdges, triWeight]; abel
          refine ⟨k + 1, by rw [hc.triangles]; simp [hk]; omega, ?_⟩
          by_cases h4m : 4 ≤ s.m
          · have key : ∀ d : List Spec.Cut, (∀ x ∈ d, x.Straight points) →
                (d ≠ [] → 1 ≤ dp.toNat + dn.toNat) →
                (∀ φ : Nat → Nat → M, Spec.Skew φ →
                  Spec.weight φ (Spec.loopEdges s.vertices) = Spec.weight φ (Spec.loopEdges s'.vertices)
                  + triWeight φ (s.vertices.getD ((s.m + i - 1) % s.m) 0) (s.vertices.getD i 0)
                    (s.vertices.getD ((i + 1) % s.m) 0)
                  + Spec.weight φ (d.flatMap Spec.Cut.edges)) →
                ∃ D, ChainBalance M points V (k + 1) s'.triangles s'.vertices D := by
              intro d hd hcnt hsum
              refine ⟨D ++ d, ?_, ?_, by rw [hl]; omega, ?_⟩
              · intro φ hφ
                rw [h1 φ hφ, htri, hsum φ hφ, List.flatMap_append, weight_append]; abel
              · intro x hx
                rcases List.mem_append.1 hx with hx | hx
                · exact h2 x hx
                · exact hd x hx
              · by_cases hD : D ++ d = []
                · exact .inl hD
                · refine .inr ?_
                  rcases h5 with h5 | h5 | h5
                  · subst h5
                    have hd0 : d ≠ [] := by simpa using hD
                    have := hcnt hd0
                    refine .inl ?_
                    rw [hl]; omega
                  · refine .inl ?_
                    rw [hl]; omega
                  · refine .inr ?_
                    rw [hc.triangles]
                    exact Repeats.append hk h5 _
            have hA : ∀ φ : Nat → Nat → M, Spec.Skew φ → _ := fun φ hφ =>
              chain_clip hφ hi h4m (fun j => s.vertices.getD j 0) dp dn
            rw [← hpts, ← hc.vertices] at hA
            cases dp with
            | false =>
              cases dn with
              | false =>
                refine key [] (by simp) (by simp) ?_
                intro φ hφ
                rw [hA φ hφ]; simp
              | true =>
                refine key [.one _ _ _] ?_ (by simp) (by
                  intro φ hφ
                  rw [hA φ hφ]
                  simp only [Bool.false_eq_true, if_false, if_true, add_zero, List.flatMap_cons, List.flatMap_nil,
                    List.append_nil, triWeight_eq]
                  rfl)
                intro x hx
                rw [List.mem_singleton] at hx
                subst hx
                exact hc.next rfl
            | true =>
              cases dn with
              | false =>
                refine key [.one _ _ _] ?_ (by simp) (by
                  intro φ hφ
                  rw [hA φ hφ]
                  simp only [Bool.false_eq_true, if_false, if_true, add_zero, List.flatMap_cons, List.flatMap_nil,
                    List.append_nil, triWeight_eq]
                  rfl)
                intro x hx
                rw [List.mem_singleton] at hx
                subst hx
                exact hc.prev rfl
              | true =>
                refine key [.two (s.vertices.getD ((s.m + i - 2) % s.m) 0)
                  (s.vertices.getD ((s.m + i - 1) % s.m) 0)
                  (s.vertices.getD ((i + 1) % s.m) 0)
                  (s.vertices.getD ((i + 2) % s.m) 0)] ?_ (by simp) (by
                  intro φ hφ
                  rw [hA φ hφ]
                  simp only [if_true, List.flatMap_cons, List.flatMap_nil, List.append_nil, triWeight,
                    Spec.Cut.edges, weight_cons, weight_nil, add_zero]
                  rw [hφ.anti (s.vertices.getD ((i + 1) % s.m) 0) (s.vertices.getD ((s.m + i - 2) % s.m) 0)]
                  abel)
                intro x hx
                rw [List.mem_singleton] at hx
                subst hx
                exact ⟨hc.prev rfl, hc.next rfl⟩
          · refine ⟨D, ?_, h2, by rw [hl]; omega, ?_⟩
            · intro φ hφ
              have hA := chain_clip_small hφ hi (by omega) (fun j => s.vertices.getD j 0)
              rw [← hpts] at hA
              rw [h1 φ hφ, htri, hA, chain_short hφ (l := s'.vertices) (by rw [hl]; omega)]; abel
            · rcases h5 with h5 | h5 | h5
              · exact .inl h5
              · by_cases h3m : s.m = 3
                · refine .inr (.inl ?_)
                  rw [hl]; omega
                · refine .inr (.inr ⟨_, by rw [hc.triangles, triples_append hk]; simp [Spec.triples]; exact .inr rfl, ?_⟩)
                  obtain h12 | h12 : s.m = 1 ∨ s.m = 2 := by omega
                  · obtain rfl : i = 0 := by omega
                    simp [h12]
                  · have : (s.m + i - 1) % s.m = (i + 1) % s.m := by rw [h12]; congr 1; omega
                    simp [this]
              · exact .inr (.inr (by rw [hc.triangles]; exact Repeats.append hk h5 _)))
        s.m 0 hlen hJ hpass
      exact hI)
    ⟨0, by simp, [], by intro φ _; simp [Spec.triEdges], by simp, by simp, by simp⟩ h
  rcases hend with ⟨e1, e2⟩ | ⟨a, b, c, e1, e2, e3⟩
  · rw [e1, e2]
    refine ⟨D, h1, h2, by omega, ?_⟩
    rcases h5 with h5 | h5 | h5
    · exact .inl h5
    · exact .inr (.inl (by omega))
    · exact .inr (.inr h5)
  · rw [e2, e3]
    rw [e1] at h4 h5
    simp only [List.length_cons, List.length_nil] at h4 h5
    refine ⟨D, ?_, h2, by simp; omega, ?_⟩
    · intro φ hφ
      rw [h1 φ hφ, e1, triEdges_append _ k hk, chain_triangle]
      simp [Spec.triEdges, triWeight]; abel
    · rcases h5 with h5 | h5 | h5
      · exact .inl h5
      · refine .inr (.inl ?_)
        simp; omega
      · exact .inr (.inr (Repeats.append hk h5 _))

/-- **C75** (any arithmetic) If `n - 2` triangles were returned and none of them names a vertex twice, the triangles
have exactly the boundary of the polygon. -/
theorem C75_boundary {bs : List Nat → Nat → Option Nat} {fuel : Nat} {points : List (V2 F)} {V C : List Nat}
    {T : List Nat} (h : triangulatePolygon bs fuel points V C = .ok T) (hc : T.length = 3 * (V.length - 2))
    (hrep : ∀ t ∈ Spec.triples T, t.1 ≠ t.2.1 ∧ t.2.1 ≠ t.2.2 ∧ t.1 ≠ t.2.2) (φ : Nat → Nat → M) (hφ : Spec.Skew φ) :
    Spec.weight φ (Spec.triEdges T) = Spec.weight φ (Spec.loopEdges V) := by
  unfold triangulatePolygon at h
  rw [bind_eq_ok] at h
  obtain ⟨s', h, hT⟩ := h
  cases hT
  obtain ⟨D, h1, h2, h4, h5⟩ := C75_balance M h
  have hn := (C38_valid h).1
  have hD : D = [] := by
    rcases h5 with h5 | h5 | ⟨t, ht, h5⟩
    · exact h5
    · omega
    · have := hrep t ht; tauto
  rw [h1 φ hφ, hD, chain_short hφ (l := s'.vertices) (by omega)]
  simp

end

end Geom3d
