import Verif.Props.Polygon

/-! One step of ear clipping: which positions are deleted and what is emitted (law-free). -/

set_option linter.unusedSectionVars false

namespace Geom3d

theorem sortNat_eq_filter {l : List Nat} {m : Nat} (hn : l.Nodup) (hm : ∀ x ∈ l, x < m) :
    sortNat l = (List.range m).filter fun j => decide (j ∈ l) := by
  have hp : (sortNat l).Perm ((List.range m).filter fun j => decide (j ∈ l)) := by
    apply (sortNat_perm l).trans
    rw [List.perm_ext_iff_of_nodup hn (List.Nodup.filter _ List.nodup_range)]
    intro a
    simp only [List.mem_filter, List.mem_range, decide_eq_true_eq]
    exact ⟨fun h => ⟨hm a h, h⟩, fun h => h.2⟩
  refine hp.eq_of_pairwise' (sortNat_sorted l) ?_
  apply List.Pairwise.filter
  exact (List.pairwise_lt_range (n := m)).imp (fun h => le_of_lt h)

/-- Positions deleted by one clip at `i`. -/
def delPred (m i : Nat) (dp dn : Bool) (j : Nat) : Bool :=
  decide (j = i) || (dp && decide (j = (m + i - 1) % m)) || (dn && decide (j = (i + 1) % m))

theorem pred_mod {m i : Nat} (hi : i < m) : (m + i - 1) % m = if i = 0 then m - 1 else i - 1 := by
  split
  · subst i; rw [Nat.add_zero, Nat.mod_eq_of_lt (by omega)]
  · rw [show m + i - 1 = (i - 1) + m by omega, Nat.add_mod_right, Nat.mod_eq_of_lt (by omega)]

theorem succ_mod {m i : Nat} (hi : i < m) : (i + 1) % m = if i + 1 = m then 0 else i + 1 := by
  split
  · rename_i h; rw [h, Nat.mod_self]
  · rw [Nat.mod_eq_of_lt (by omega)]

theorem deletions_eq {m i : Nat} {dp dn : Bool} (hi : i < m) (h1 : m = 1 → dp = false ∧ dn = false)
    (h2 : m = 2 → ¬ (dp = true ∧ dn = true)) :
    deletions m i dp dn = ((List.range m).filter (delPred m i dp dn)).reverse := by
  have hp := pred_mod hi
  have hs := succ_mod hi
  unfold deletions
  rw [sortNat_eq_filter (m := m)]
  · congr 1
    apply List.filter_congr
    intro j _
    unfold delPred
    cases dp <;> cases dn <;> simp [Bool.or_assoc]
  · rw [hp, hs]
    cases dp <;> cases dn <;>
      simp only [if_true, Bool.false_eq_true, if_false, List.append_nil, List.nil_append,
        List.nodup_cons, List.mem_cons, List.not_mem_nil, or_false, not_false_eq_true, true_and, List.nodup_nil,
        and_true, List.cons_append] at * <;> split <;> (try split) <;> simp at * <;> omega
  · intro x hx
    have := Nat.mod_lt (m + i - 1) (show 0 < m by omega)
    have := Nat.mod_lt (i + 1) (show 0 < m by omega)
    cases dp <;> cases dn <;> simp at hx <;> omega

theorem length_filter_delPred {m i : Nat} {dp dn : Bool} (hi : i < m) (h1 : m = 1 → dp = false ∧ dn = false)
    (h2 : m = 2 → ¬ (dp = true ∧ dn = true)) :
    ((List.range m).filter (delPred m i dp dn)).length = 1 + dp.toNat + dn.toNat := by
  have h := congrArg List.length (deletions_eq hi h1 h2)
  rw [List.length_reverse] at h
  rw [← h]
  unfold deletions
  rw [List.length_reverse, (sortNat_perm _).length_eq]
  cases dp <;> cases dn <;> rfl

section
variable {F : Type} [Add F] [Sub F] [Mul F] [Div F] [Neg F] [Zero F] [One F] [NatCast F] [LT F] [DecidableLT F]
  [LE F] [DecidableLE F] [Env F]

theorem updatePrev_ok {bs : List Nat → Nat → Option Nat} {points : List (V2 F)} {V C C' : List Nat}
    {m i prev next : Nat} {d : Bool} (h : updatePrev bs points V C m i prev next = .ok (C', d)) :
    (d = true → (bs C prev).isSome ∧ C' = C ∧ ∃ pp a b c, V[(m + i - 2) % m]? = some pp ∧ points[pp]? = some a ∧
      points[prev]? = some b ∧ points[next]? = some c ∧ computeConvexity a b c = .colinear) ∧
    (bs C prev = none → C' = C ∧ d = false) ∧ C'.Sublist C := by
  unfold updatePrev at h
  split at h
  · rename_i hb
    simp only [pure_eq_ok, Except.ok.injEq, Prod.mk.injEq] at h
    obtain ⟨rfl, rfl⟩ := h
    simp
  · rename_i j hb
    simp only [bind_eq_ok] at h
    obtain ⟨k, hk, pp, hpp, a, ha, b, hb', c, hc, h⟩ := h
    rw [usub_eq_ok] at hk
    rw [idx_eq_ok] at hpp ha hb' hc
    refine ⟨?_, fun h' => absurd (hb.symm.trans h') (by simp), ?_⟩
    · intro hd
      subst hd
      split at h <;> simp only [pure_eq_ok, Except.ok.injEq, Prod.mk.injEq, and_false,
        Bool.false_eq_true] at h
      rename_i hcv
      refine ⟨by rw [hb]; rfl, h.1.symm, pp, a, b, c, ?_, ha, hb', hc, hcv⟩
      rw [← hk.2]; exact hpp
    · split at h <;> simp only [pure_eq_ok, Except.ok.injEq, Prod.mk.injEq] at h <;> rw [← h.1]
      exact List.eraseIdx_sublist _ _

theorem updateNext_ok {bs : List Nat → Nat → Option Nat} {points : List (V2 F)} {V C C' : List Nat}
    {m i prev next : Nat} {d : Bool} (h : updateNext bs points V C m i prev next = .ok (C', d)) :
    (d = true → (bs C next).isSome ∧ C' = C ∧ ∃ nn a b c, V[(i + 2) % m]? = some nn ∧ points[prev]? = some a ∧
      points[next]? = some b ∧ points[nn]? = some c ∧ computeConvexity a b c = .colinear) ∧
    (bs C next = none → C' = C ∧ d = false) ∧ C'.Sublist C := by
  unfold updateNext at h
  split at h
  · rename_i hb
    simp only [pure_eq_ok, Except.ok.injEq, Prod.mk.injEq] at h
    obtain ⟨rfl, rfl⟩ := h
    simp
  · rename_i j hb
    simp only [bind_eq_ok] at h
    obtain ⟨nn, hnn, a, ha, b, hb', c, hc, h⟩ := h
    rw [idx_eq_ok] at hnn ha hb' hc
    refine ⟨?_, fun h' => absurd (hb.symm.trans h') (by simp), ?_⟩
    · intro hd
      subst hd
      split at h <;> simp only [pure_eq_ok, Except.ok.injEq, Prod.mk.injEq, and_false,
        Bool.false_eq_true] at h
      rename_i hcv
      exact ⟨by rw [hb]; rfl, h.1.symm, nn, a, b, c, hnn, ha, hb', hc, hcv⟩
    · split at h <;> simp only [pure_eq_ok, Except.ok.injEq, Prod.mk.injEq] at h <;> rw [← h.1]
      exact List.eraseIdx_sublist _ _

/-- What a successful step does: nothing, or one clip at `i` with up to two dropped neighbours. -/
structure IsClip (points : List (V2 F)) (s s' : EarState) (i : Nat) (dp dn : Bool) : Prop where
  one : s.m = 1 → dp = false ∧ dn = false
  two : s.m = 2 → ¬ (dp = true ∧ dn = true)
  vertices : s'.vertices = ((List.range s.m).filter fun j => !delPred s.m i dp dn j).map fun j => s.vertices.getD j 0
  len : s'.vertices.length = s'.m
  m : s'.m + (1 + dp.toNat + dn.toNat) = s.m
  triangles : s'.triangles = s.triangles ++
    [s.vertices.getD ((s.m + i - 1) % s.m) 0, s.vertices.getD i 0, s.vertices.getD ((i + 1) % s.m) 0]
  concave : s'.concave.Sublist s.concave
  prev : dp = true → ∃ a b c, points[s.vertices.getD ((s.m + i - 2) % s.m) 0]? = some a ∧
    points[s.vertices.getD ((s.m + i - 1) % s.m) 0]? = some b ∧
    points[s.vertices.getD ((i + 1) % s.m) 0]? = some c ∧ computeConvexity a b c = .colinear
  next : dn = true → ∃ a b c, points[s.vertices.getD ((s.m + i - 1) % s.m) 0]? = some a ∧
    points[s.vertices.getD ((i + 1) % s.m) 0]? = some b ∧
    points[s.vertices.getD ((i + 2) % s.m) 0]? = some c ∧ computeConvexity a b c = .colinear

theorem earStep_cases {bs : List Nat → Nat → Option Nat} {points : List (V2 F)} {s s' : EarState} {i : Nat}
    (hlen : s.vertices.length = s.m) (hi : i < s.m) (h : earStep bs points s i = .ok s') :
    s' = s ∨ ∃ dp dn, IsClip points s s' i dp dn := by
  have hD : ∀ {j v : Nat}, s.vertices[j]? = some v → s.vertices.getD j 0 = v := by
    intro j v h; simp [List.getD, h]
  unfold earStep at h
  rw [bind_eq_ok] at h
  obtain ⟨curr, hc, h⟩ := h
  rw [idx_eq_ok] at hc
  split at h
  · cases h; exact .inl rfl
  · rename_i hbs
    simp only [bind_eq_ok] at h
    obtain ⟨prev, hp, next, hn, ear, _, h⟩ := h
    rw [idx_eq_ok] at hp hn
    split at h
    · right
      simp only [bind_eq_ok, Prod.exists] at h
      obtain ⟨C1, dp, hu1, C2, dn, hu2, m', hm', h⟩ := h
      simp only [pure_eq_ok, Except.ok.injEq] at h
      obtain ⟨p1, p2, p3⟩ := updatePrev_ok hu1
      obtain ⟨n1, n2, n3⟩ := updateNext_ok hu2
      have one : s.m = 1 → dp = false ∧ dn = false := by
        intro h1
        have e1 : prev = curr := by
          rw [h1] at hp; rw [Nat.mod_one] at hp
          have : i = 0 := by omega
          subst this
          rw [hp] at hc; exact Option.some.inj hc
        have e2 : next = curr := by
          rw [h1] at hn; rw [Nat.mod_one] at hn
          have : i = 0 := by omega
          subst this
          rw [hn] at hc; exact Option.some.inj hc
        subst e1
        obtain ⟨rfl, rfl⟩ := p2 hbs
        rw [e2] at n2
        exact ⟨rfl, (n2 hbs).2⟩
      rw [usub_eq_ok] at hm'
      have hlen' : (deletions s.m i dp dn).length = 1 + dp.toNat + dn.toNat := by
        unfold deletions
        rw [List.length_reverse, (sortNat_perm _).length_eq]
        cases dp <;> cases dn <;> rfl
      rw [hlen'] at hm'
      have two : s.m = 2 → ¬ (dp = true ∧ dn = true) := by
        rintro h2 ⟨rfl, rfl⟩
        have := hm'.1
        simp at this; omega
      have hdel := deletions_eq hi one two
      have hv : s'.vertices = ((List.range s.m).filter fun j => !delPred s.m i dp dn j).map
          fun j => s.vertices.getD j 0 := by
        rw [← h]
        simp only
        rw [hdel, foldl_reverse_eraseIdx, foldr_eraseIdx_filter _ 0 _ _ (le_of_eq hlen.symm),
          ← hlen, List.drop_length, List.append_nil]
      have hm2 : s'.m + (1 + dp.toNat + dn.toNat) = s.m := by
        rw [← h]; simp only; omega
      refine ⟨dp, dn, one, two, hv, ?_, hm2, ?_, ?_, ?_, ?_⟩
      · rw [hv, List.length_map]
        have := length_filter_delPred hi one two
        have h3 := List.length_eq_length_filter_add (l := List.range s.m) (delPred s.m i dp dn)
        rw [List.length_range] at h3
        omega
      · rw [← h, hD hp, hD hc, hD hn]
      · rw [← h]; exact n3.trans p3
      · intro hd
        obtain ⟨_, _, pp, a, b, c, e1, e2, e3, e4, e5⟩ := p1 hd
        refine ⟨a, b, c, ?_, ?_, ?_, e5⟩
        · rw [hD e1]; exact e2
        · rw [hD hp]; exact e3
        · rw [hD hn]; exact e4
      · intro hd
        obtain ⟨_, _, nn, a, b, c, e1, e2, e3, e4, e5⟩ := n1 hd
        refine ⟨a, b, c, ?_, ?_, ?_, e5⟩
        · rw [hD hp]; exact e2
        · rw [hD hn]; exact e3
        · rw [hD e1]; exact e4
    · cases h; exact .inl rfl

end

end Geom3d
