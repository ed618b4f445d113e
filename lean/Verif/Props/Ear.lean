import Verif.Lemmas.Ear
import Verif.Model.Instances

/-! # C38: ear clipping terminates, with valid triangles (any arithmetic) -/

set_option linter.unusedSectionVars false

namespace Geom3d

section
variable {F : Type} [Add F] [Sub F] [Mul F] [Div F] [Neg F] [Zero F] [One F] [NatCast F] [LT F] [DecidableLT F]
  [LE F] [DecidableLE F] [Env F]

/-! ### Rules for the two loops -/

theorem earPass_inv {bs : List Nat → Nat → Option Nat} {points : List (V2 F)} (I : Nat → EarState → Prop)
    (hsame : ∀ i s, I i s → I (i + 1) s)
    (hclip : ∀ i s s' dp dn, s.vertices.length = s.m → i < s.m → I i s → IsClip points s s' i dp dn → I (i + 1) s')
    (k i : Nat) {s s' : EarState} (hlen : s.vertices.length = s.m) (h0 : I i s)
    (h : earPass bs points k i s = .ok s') : s'.vertices.length = s'.m ∧ ∃ j, I j s' := by
  induction k generalizing i s with
  | zero => cases h; exact ⟨hlen, i, h0⟩
  | succ k ih =>
    unfold earPass at h
    split at h
    · rename_i hi
      rw [bind_eq_ok] at h
      obtain ⟨s1, h1, h2⟩ := h
      rcases earStep_cases hlen hi h1 with rfl | ⟨dp, dn, hc⟩
      · exact ih (i + 1) hlen (hsame _ _ h0) h2
      · exact ih (i + 1) hc.len (hclip _ _ _ _ _ hlen hi h0 hc) h2
    · cases h; exact ⟨hlen, i, h0⟩

/-- How a run ends: either the state `s1` after the last pass is returned, or its three remaining vertices are
emitted. -/
def EarEnds (s1 s' : EarState) : Prop :=
  (s'.vertices = s1.vertices ∧ s'.triangles = s1.triangles) ∨
  ∃ a b c, s1.vertices = [a, b, c] ∧ s'.vertices = [] ∧ s'.triangles = s1.triangles ++ [a, b, c]

theorem earLoop_inv {bs : List Nat → Nat → Option Nat} {points : List (V2 F)} (J : EarState → Prop)
    (hm : ∀ s m, J s → J { s with m := m })
    (hpass : ∀ s s', s.vertices.length = s.m → 4 ≤ s.m → J s → earPass bs points s.m 0 s = .ok s' → J s')
    (fuel : Nat) (prevM : Option Nat) {s s' : EarState} (h0 : J s)
    (h : earLoop bs points fuel prevM s = .ok s') : ∃ s1, J s1 ∧ EarEnds s1 s' := by
  induction fuel generalizing prevM s with
  | zero => cases h
  | succ fuel ih =>
    unfold earLoop at h
    split at h
    · simp only [pure_eq_ok, Except.ok.injEq] at h
      subst h; exact ⟨_, h0, .inl ⟨rfl, rfl⟩⟩
    · simp only at h
      split at h
      · simp only [pure_eq_ok, Except.ok.injEq] at h
        subst h; exact ⟨_, h0, .inl ⟨rfl, rfl⟩⟩
      · split at h
        · rename_i h3
          obtain ⟨a, b, c, hv⟩ := List.length_eq_three.1 h3
          rw [hv] at h
          simp only [idx_of_getElem? (show [a, b, c][0]? = some a from rfl),
            idx_of_getElem? (show [a, b, c][1]? = some b from rfl),
            idx_of_getElem? (show [a, b, c][2]? = some c from rfl), ok_bind, pure_eq_ok, Except.ok.injEq] at h
          exact ⟨s, h0, .inr ⟨a, b, c, hv, by rw [← h], by rw [← h]⟩⟩
        · rw [bind_eq_ok] at h
          obtain ⟨s1, h1, h2⟩ := h
          exact ih _ (hpass { s with m := s.vertices.length } s1 rfl (by simp; omega) (hm _ _ h0) h1) h2

theorem triangulate_inv {bs : List Nat → Nat → Option Nat} {points : List (V2 F)} (J : EarState → Prop)
    (hm : ∀ s m, J s → J { s with m := m })
    (hpass : ∀ s s', s.vertices.length = s.m → 4 ≤ s.m → J s → earPass bs points s.m 0 s = .ok s' → J s')
    {fuel : Nat} {V C : List Nat} {s' : EarState} (h0 : J ⟨V, C, [], V.length⟩)
    (h : triangulateState bs fuel points V C = .ok s') : 2 ≤ V.length ∧ ∃ s1, J s1 ∧ EarEnds s1 s' := by
  unfold triangulateState at h
  rw [bind_eq_ok] at h
  obtain ⟨k, hk, h⟩ := h
  rw [usub_eq_ok] at hk
  exact ⟨hk.1, earLoop_inv J hm hpass fuel none h0 h⟩

theorem IsClip.sublist {points : List (V2 F)} {s s' : EarState} {i : Nat} {dp dn : Bool}
    (hlen : s.vertices.length = s.m) (hc : IsClip points s s' i dp dn) : s'.vertices.Sublist s.vertices := by
  rw [hc.vertices]
  have e : s.vertices = (List.range s.m).map fun j => s.vertices.getD j 0 := by
    have := eq_tab_getD s.vertices 0
    rw [hlen] at this
    exact this
  conv_rhs => rw [e]
  exact List.Sublist.map _ List.filter_sublist

theorem getD_mem {l : List Nat} {j : Nat} (h : j < l.length) : l.getD j 0 ∈ l := by
  rw [getD_of_lt _ h]; exact List.getElem_mem h

/-! ### C38 -/

/-- **C38**: every emitted triangle consists of three given vertex indices, there are at most `n - 2` triangles,
and what is left over is a sub-polygon; for any number type, point array, concave list and binary search. -/
theorem C38_valid {bs : List Nat → Nat → Option Nat} {fuel : Nat} {points : List (V2 F)} {V C : List Nat}
    {s' : EarState} (h : triangulateState bs fuel points V C = .ok s') :
    2 ≤ V.length ∧ (∀ t ∈ s'.triangles, t ∈ V) ∧ s'.vertices.Sublist V ∧
      ∃ k, s'.triangles.length = 3 * k ∧ k + 2 ≤ V.length := by
  obtain ⟨hn, s1, ⟨hsub, htri, k, hk, hcount⟩, hend⟩ := triangulate_inv
    (J := fun s => s.vertices.Sublist V ∧ (∀ t ∈ s.triangles, t ∈ V) ∧
      ∃ k, s.triangles.length = 3 * k ∧ k + max s.vertices.length 2 ≤ max V.length 2)
    (fun s m h => h)
    (by
      rintro s s' hlen h4 ⟨hsub, htri, k0, hk0, hcount⟩ hpass
      obtain ⟨hlen', j, hsub', htri', k, hk, -, hcount'⟩ := earPass_inv
        (I := fun i s => s.vertices.Sublist V ∧ (∀ t ∈ s.triangles, t ∈ V) ∧
          ∃ k, s.triangles.length = 3 * k ∧ k ≤ k0 + i ∧ k + max s.m 2 ≤ max V.length 2)
        (by rintro i s ⟨h1, h2, k, h3, h4, h5⟩; exact ⟨h1, h2, k, h3, by omega, h5⟩)
        (by
          rintro i s s' dp dn hlen hi ⟨h1, h2, k, h3, h4, h5⟩ hc
          refine ⟨(hc.sublist hlen).trans h1, ?_, k + 1, ?_, by omega, ?_⟩
          · intro t ht
            rw [hc.triangles, List.mem_append] at ht
            rcases ht with ht | ht
            · exact h2 t ht
            · have hpos : 0 < s.m := by omega
              simp only [List.mem_cons, List.not_mem_nil, or_false] at ht
              rcases ht with rfl | rfl | rfl
              · exact h1.subset (getD_mem (by rw [hlen]; exact Nat.mod_lt _ hpos))
              · exact h1.subset (getD_mem (by omega))
              · exact h1.subset (getD_mem (by rw [hlen]; exact Nat.mod_lt _ hpos))
          · rw [hc.triangles]; simp [h3]; omega
          · have := hc.m
            have hle : k0 + 4 ≤ max V.length 2 := by omega
            omega)
        s.m 0 hlen ⟨hsub, htri, k0, hk0, by omega, by rw [← hlen]; exact hcount⟩ hpass
      exact ⟨hsub', htri', k, hk, by rw [hlen']; exact hcount'⟩)
    ⟨List.Sublist.refl _, by simp, 0, by simp, by simp⟩ h
  refine ⟨hn, ?_⟩
  rcases hend with ⟨e1, e2⟩ | ⟨a, b, c, e1, e2, e3⟩
  · rw [e1, e2]
    exact ⟨htri, hsub, k, hk, by omega⟩
  · rw [e2, e3]
    refine ⟨?_, List.nil_sublist _, k + 1, by simp [hk]; omega, ?_⟩
    · intro t ht
      rw [List.mem_append] at ht
      rcases ht with ht | ht
      · exact htri t ht
      · exact hsub.subset (by rw [e1]; exact ht)
    · rw [e1] at hcount; simp at hcount; omega

/-- **C38**: fewer than two vertices panic (`(n - 2) * 3` underflows). -/
theorem C38_few_panics {bs : List Nat → Nat → Option Nat} {fuel : Nat} {points : List (V2 F)} {V C : List Nat}
    (h : V.length < 2) : triangulatePolygon bs fuel points V C = .error .overflow := by
  unfold triangulatePolygon triangulateState
  rw [usub_err h]; rfl

/-! Termination -/

/-- The result is not "out of fuel". -/
def NoFuel {α : Type} (r : Res α) : Prop := r ≠ .error .fuel

theorem NoFuel.bind {α β : Type} {x : Res α} {f : α → Res β} (hx : NoFuel x) (hf : ∀ a, NoFuel (f a)) :
    NoFuel (x >>= f) := by
  cases x with
  | ok a => exact hf a
  | error e => intro h; apply hx; simpa using h

theorem noFuel_ok {α : Type} (a : α) : NoFuel (.ok a : Res α) := by simp [NoFuel]
theorem noFuel_pure {α : Type} (a : α) : NoFuel (pure a : Res α) := noFuel_ok a
theorem noFuel_idx {α : Type} (l : List α) (i : Nat) : NoFuel (idx l i) := by
  unfold NoFuel idx; split <;> simp
theorem noFuel_usub (a b : Nat) : NoFuel (usub a b) := by
  unfold NoFuel usub; split <;> simp

theorem noFuel_isEar (points : List (V2 F)) (C : List Nat) (p c n : Nat) : NoFuel (isEar points C p c n) := by
  induction C with
  | nil => exact noFuel_ok _
  | cons o C ih =>
    unfold isEar; split
    · refine (noFuel_idx _ _).bind fun _ => (noFuel_idx _ _).bind fun _ => (noFuel_idx _ _).bind fun _ =>
        (noFuel_idx _ _).bind fun _ => ?_
      split
      · exact noFuel_ok _
      · exact ih
    · exact ih

theorem noFuel_earStep (bs : List Nat → Nat → Option Nat) (points : List (V2 F)) (s : EarState) (i : Nat) :
    NoFuel (earStep bs points s i) := by
  unfold earStep
  refine (noFuel_idx _ _).bind fun _ => ?_
  split
  · exact noFuel_ok _
  · refine (noFuel_idx _ _).bind fun _ => (noFuel_idx _ _).bind fun _ => (noFuel_isEar _ _ _ _ _).bind fun _ => ?_
    split
    · refine NoFuel.bind ?_ fun _ => NoFuel.bind ?_ fun _ => (noFuel_usub _ _).bind fun _ => noFuel_ok _
      · unfold updatePrev; split
        · exact noFuel_ok _
        · refine (noFuel_usub _ _).bind fun _ => (noFuel_idx _ _).bind fun _ => (noFuel_idx _ _).bind fun _ =>
            (noFuel_idx _ _).bind fun _ => (noFuel_idx _ _).bind fun _ => ?_
          split <;> exact noFuel_ok _
      · unfold updateNext; split
        · exact noFuel_ok _
        · refine (noFuel_idx _ _).bind fun _ => (noFuel_idx _ _).bind fun _ =>
            (noFuel_idx _ _).bind fun _ => (noFuel_idx _ _).bind fun _ => ?_
          split <;> exact noFuel_ok _
    · exact noFuel_ok _

theorem noFuel_earPass (bs : List Nat → Nat → Option Nat) (points : List (V2 F)) (k i : Nat) (s : EarState) :
    NoFuel (earPass bs points k i s) := by
  induction k generalizing i s with
  | zero => exact noFuel_ok _
  | succ k ih =>
    unfold earPass; split
    · exact (noFuel_earStep _ _ _ _).bind fun _ => ih _ _
    · exact noFuel_ok _

theorem earPass_shrinks {bs : List Nat → Nat → Option Nat} {points : List (V2 F)} {s s' : EarState}
    (hlen : s.vertices.length = s.m) (h : earPass bs points s.m 0 s = .ok s') :
    s'.vertices.length ≤ s.vertices.length := by
  obtain ⟨hl, j, hj⟩ := earPass_inv (I := fun _ t => t.m ≤ s.m) (fun _ _ h => h)
    (by intro i t t' dp dn _ _ h hc; have := hc.m; omega) s.m 0 hlen (le_refl _) h
  omega

/-- `while i < m` really ends: after `m` steps `i` has passed the (only shrinking) bound. -/
theorem C38_pass_complete {bs : List Nat → Nat → Option Nat} {points : List (V2 F)} {s : EarState} (k i extra : Nat)
    (hlen : s.vertices.length = s.m) (hk : s.m ≤ i + k) :
    earPass bs points (k + extra) i s = earPass bs points k i s := by
  induction k generalizing i s with
  | zero =>
    cases extra with
    | zero => rfl
    | succ e => unfold earPass; rw [if_neg (by omega)]
  | succ k ih =>
    rw [show k + 1 + extra = (k + extra) + 1 by omega]
    unfold earPass
    split
    · rename_i hi
      cases hst : earStep bs points s i with
      | error e => rfl
      | ok s1 =>
        simp only [ok_bind]
        rcases earStep_cases hlen hi hst with rfl | ⟨dp, dn, hc⟩
        · exact ih _ hlen (by omega)
        · have := hc.m
          exact ih _ hc.len (by omega)
    · rfl

theorem earLoop_terminates (bs : List Nat → Nat → Option Nat) (points : List (V2 F)) (fuel : Nat)
    (prevM : Option Nat) (s : EarState) (h : s.vertices.length + 2 ≤ fuel) :
    NoFuel (earLoop bs points fuel prevM s) := by
  induction fuel generalizing prevM s with
  | zero => omega
  | succ fuel ih =>
    unfold earLoop
    split
    · exact noFuel_ok _
    · simp only
      split
      · exact noFuel_ok _
      · split
        · exact (noFuel_idx _ _).bind fun _ => (noFuel_idx _ _).bind fun _ => (noFuel_idx _ _).bind fun _ => noFuel_ok _
        · cases hp : earPass bs points s.vertices.length 0 { s with m := s.vertices.length } with
          | error e =>
            intro he
            have := noFuel_earPass bs points s.vertices.length 0 { s with m := s.vertices.length }
            rw [hp] at this
            exact this (by simpa using he)
          | ok s1 =>
            simp only [ok_bind]
            have hle : s1.vertices.length ≤ s.vertices.length :=
              earPass_shrinks (s := { s with m := s.vertices.length }) rfl hp
            by_cases hlt : s1.vertices.length < s.vertices.length
            · exact ih _ _ (by omega)
            · obtain ⟨f, rfl⟩ : ∃ f, fuel = f + 1 := ⟨fuel - 1, by omega⟩
              unfold earLoop
              rw [if_pos (by simp [stalled]; omega)]
              exact noFuel_ok _

/-- **C38**: ear clipping terminates for every input: `n + 2` iterations of the outer loop always suffice. -/
theorem C38_terminates (bs : List Nat → Nat → Option Nat) (points : List (V2 F)) (V C : List Nat) (fuel : Nat)
    (h : V.length + 2 ≤ fuel) : triangulatePolygon bs fuel points V C ≠ .error .fuel := by
  have : NoFuel (triangulatePolygon bs fuel points V C) := by
    unfold triangulatePolygon triangulateState
    refine NoFuel.bind ((noFuel_usub _ _).bind fun _ => earLoop_terminates _ _ _ _ _ h) fun _ => noFuel_ok _
  exact this

/-- More fuel does not change a finished run. -/
theorem earLoop_fuel_mono (bs : List Nat → Nat → Option Nat) (points : List (V2 F)) (fuel extra : Nat)
    (prevM : Option Nat) (s : EarState) (h : NoFuel (earLoop bs points fuel prevM s)) :
    earLoop bs points (fuel + extra) prevM s = earLoop bs points fuel prevM s := by
  induction fuel generalizing prevM s with
  | zero => exact absurd rfl h
  | succ fuel ih =>
    rw [show fuel + 1 + extra = (fuel + extra) + 1 by omega]
    unfold earLoop at h ⊢
    split
    · rfl
    · rename_i hc
      rw [if_neg hc] at h
      simp only at h ⊢
      split
      · rfl
      · rename_i h3
        rw [if_neg h3] at h
        split
        · rfl
        · rename_i h4
          rw [if_neg h4] at h
          cases hp : earPass bs points s.vertices.length 0 { s with m := s.vertices.length } with
          | error e => rfl
          | ok s1 =>
            rw [hp] at h
            simp only [ok_bind] at h ⊢
            exact ih _ _ h

/-- **C38**: the result does not depend on the step bound of the model. -/
theorem C38_fuel_irrelevant (bs : List Nat → Nat → Option Nat) (points : List (V2 F)) (V C : List Nat) (fuel : Nat)
    (h : V.length + 2 ≤ fuel) :
    triangulateState bs fuel points V C = triangulateState bs (V.length + 2) points V C := by
  unfold triangulateState
  obtain ⟨e, rfl⟩ := Nat.exists_eq_add_of_le h
  rw [earLoop_fuel_mono bs points (V.length + 2) e none _ (earLoop_terminates _ _ _ _ _ (le_refl _))]

/-! Panics -/

theorem isEar_total {points : List (V2 F)} {C : List Nat} {p c n : Nat} (hC : ∀ x ∈ C, x < points.length)
    (hp : p < points.length) (hc : c < points.length) (hn : n < points.length) :
    ∃ b, isEar points C p c n = .ok b := by
  induction C with
  | nil => exact ⟨true, rfl⟩
  | cons o C ih =>
    obtain ⟨b, hb⟩ := ih fun x hx => hC x (List.mem_cons_of_mem _ hx)
    unfold isEar
    rw [idx_ok hp, idx_ok hc, idx_ok hn, idx_ok (hC o List.mem_cons_self)]
    simp only [ok_bind]
    split
    · split
      · exact ⟨false, rfl⟩
      · exact ⟨b, hb⟩
    · exact ⟨b, hb⟩

theorem earStep_error {bs : List Nat → Nat → Option Nat} {points : List (V2 F)} {s : EarState} {i : Nat} {e : Panic}
    (hlen : s.vertices.length = s.m) (hi : i < s.m) (hV : ∀ x ∈ s.vertices, x < points.length)
    (hC : ∀ x ∈ s.concave, x < points.length) (h : earStep bs points s i = .error e) : e = .overflow ∧ s.m = 2 := by
  have hpos : 0 < s.m := by omega
  have hp := Nat.mod_lt (s.m + i - 1) hpos
  have hn := Nat.mod_lt (i + 1) hpos
  have hpp := Nat.mod_lt (s.m + i - 2) hpos
  have hnn := Nat.mod_lt (i + 2) hpos
  rw [← hlen] at hp hn hpp hnn
  have hi' : i < s.vertices.length := by omega
  have vp := hV _ (List.getElem_mem hp)
  have vn := hV _ (List.getElem_mem hn)
  have vpp := hV _ (List.getElem_mem hpp)
  have vnn := hV _ (List.getElem_mem hnn)
  have vc := hV _ (List.getElem_mem hi')
  rw [hlen] at hp hn hpp hnn
  simp only [hlen] at vp vn vpp vnn
  unfold earStep at h
  rw [idx_ok hi'] at h
  simp only [ok_bind] at h
  split at h
  · simp at h
  · rename_i hbs
    rw [idx_ok (by omega), idx_ok (by omega)] at h
    simp only [ok_bind] at h
    obtain ⟨b, hb⟩ := isEar_total (c := s.vertices[i]) hC vp vc vn
    rw [hb] at h
    simp only [ok_bind] at h
    split at h
    · -- the two updates succeed
      have hu1 : ∃ r, updatePrev bs points s.vertices s.concave s.m i s.vertices[(s.m + i - 1) % s.m]
          s.vertices[(i + 1) % s.m] = .ok r := by
        unfold updatePrev
        split
        · exact ⟨_, rfl⟩
        · rename_i j hj
          have h2 : 2 ≤ s.m + i := by
            by_contra hc
            have h1 : s.m = 1 := by omega
            have h0 : i = 0 := by omega
            subst h0
            simp only [h1, Nat.mod_one] at hj
            rw [hbs] at hj
            simp at hj
          rw [usub_ok h2, ok_bind, idx_ok (by omega), ok_bind, idx_ok vpp, idx_ok vp, idx_ok vn]
          simp only [ok_bind]
          split <;> exact ⟨_, rfl⟩
      obtain ⟨⟨C1, dp⟩, hu1⟩ := hu1
      rw [hu1] at h
      simp only [ok_bind] at h
      have hu2 : ∃ r, updateNext bs points s.vertices C1 s.m i s.vertices[(s.m + i - 1) % s.m]
          s.vertices[(i + 1) % s.m] = .ok r := by
        unfold updateNext
        split
        · exact ⟨_, rfl⟩
        · rw [idx_ok (by omega), ok_bind, idx_ok vp, idx_ok vn, idx_ok vnn]
          simp only [ok_bind]
          split <;> exact ⟨_, rfl⟩
      obtain ⟨⟨C2, dn⟩, hu2⟩ := hu2
      rw [hu2] at h
      simp only [ok_bind] at h
      have hl : (deletions s.m i dp dn).length = 1 + dp.toNat + dn.toNat := by
        unfold deletions
        rw [List.length_reverse, (sortNat_perm _).length_eq]
        cases dp <;> cases dn <;> rfl
      by_cases hle : (deletions s.m i dp dn).length ≤ s.m
      · rw [usub_ok hle] at h
        simp at h
      · rw [usub_err (by omega)] at h
        simp only [error_bind, Except.error.injEq] at h
        refine ⟨h.symm, ?_⟩
        obtain ⟨_, p2, _⟩ := updatePrev_ok hu1
        obtain ⟨_, n2, _⟩ := updateNext_ok hu2
        by_contra hm2
        have hm1 : s.m = 1 := by
          rw [hl] at hle
          cases dp <;> cases dn <;> simp at hle <;> omega
        have h0 : i = 0 := by omega
        subst h0
        simp only [hm1, Nat.mod_one] at p2 n2
        obtain ⟨rfl, rfl⟩ := p2 hbs
        obtain ⟨rfl, rfl⟩ := n2 hbs
        rw [hl] at hle
        simp at hle; omega
    · simp at h

theorem earPass_error {bs : List Nat → Nat → Option Nat} {points : List (V2 F)} (k i : Nat) {s : EarState} {e : Panic}
    (hlen : s.vertices.length = s.m) (hV : ∀ x ∈ s.vertices, x < points.length)
    (hC : ∀ x ∈ s.concave, x < points.length) (h : earPass bs points k i s = .error e) : e = .overflow := by
  induction k generalizing i s with
  | zero => simp [earPass] at h
  | succ k ih =>
    unfold earPass at h
    split at h
    · rename_i hi
      cases hst : earStep bs points s i with
      | error e' =>
        rw [hst] at h
        simp only [error_bind, Except.error.injEq] at h
        rw [← h]
        exact (earStep_error hlen hi hV hC hst).1
      | ok s1 =>
        rw [hst] at h
        simp only [ok_bind] at h
        rcases earStep_cases hlen hi hst with rfl | ⟨dp, dn, hc⟩
        · exact ih _ hlen hV hC h
        · exact ih _ hc.len (fun x hx => hV x ((hc.sublist hlen).subset hx))
            (fun x hx => hC x (hc.concave.subset hx)) h
    · simp at h

theorem earLoop_error {bs : List Nat → Nat → Option Nat} {points : List (V2 F)} (fuel : Nat) (prevM : Option Nat)
    {s : EarState} {e : Panic} (hV : ∀ x ∈ s.vertices, x < points.length)
    (hC : ∀ x ∈ s.concave, x < points.length) (h : earLoop bs points fuel prevM s = .error e) :
    e = .overflow ∨ e = .fuel := by
  induction fuel generalizing prevM s with
  | zero => simp only [earLoop, Except.error.injEq] at h; exact .inr h.symm
  | succ fuel ih =>
    unfold earLoop at h
    split at h
    · simp at h
    · simp only at h
      split at h
      · simp at h
      · split at h
        · rename_i h3
          rw [idx_ok (by omega), idx_ok (by omega), idx_ok (by omega)] at h
          simp at h
        · cases hp : earPass bs points s.vertices.length 0 { s with m := s.vertices.length } with
          | error e' =>
            rw [hp] at h
            simp only [error_bind, Except.error.injEq] at h
            rw [← h]
            exact .inl (earPass_error (s := { s with m := s.vertices.length }) _ _ rfl hV hC hp)
          | ok s1 =>
            rw [hp] at h
            simp only [ok_bind] at h
            obtain ⟨-, -, h1, h2⟩ := earPass_inv (points := points)
              (I := fun _ t => (∀ x ∈ t.vertices, x < points.length) ∧ ∀ x ∈ t.concave, x < points.length)
              (fun _ _ h => h)
              (by
                rintro i t t' dp dn hl _ ⟨h1, h2⟩ hc
                exact ⟨fun x hx => h1 x ((hc.sublist hl).subset hx), fun x hx => h2 x (hc.concave.subset hx)⟩)
              _ 0 (s := { s with m := s.vertices.length }) rfl ⟨hV, hC⟩ hp
            exact ih _ h1 h2 h

/-- **C38**: with at least two vertices and all indices inside the point array, the only possible panic is the
underflow of `m -= to_delete.len()`. -/
theorem C38_panics_only_underflow {bs : List Nat → Nat → Option Nat} {points : List (V2 F)} {V C : List Nat}
    {fuel : Nat} (hf : V.length + 2 ≤ fuel) (hn : 2 ≤ V.length) (hV : ∀ x ∈ V, x < points.length)
    (hC : ∀ x ∈ C, x < points.length) :
    (∃ ts, triangulatePolygon bs fuel points V C = .ok ts) ∨
      triangulatePolygon bs fuel points V C = .error .overflow := by
  unfold triangulatePolygon triangulateState
  rw [usub_ok hn]
  simp only [ok_bind]
  cases h : earLoop bs points fuel none ⟨V, C, [], V.length⟩ with
  | ok s => exact .inl ⟨_, rfl⟩
  | error e =>
    right
    rcases earLoop_error fuel none hV hC h with rfl | rfl
    · rfl
    · exact absurd h (earLoop_terminates _ _ _ _ _ hf)

end

theorem linSearch_ok : BinarySearch linSearch where
  found l x j h := by
    induction l generalizing j with
    | nil => simp [linSearch] at h
    | cons a l ih =>
      unfold linSearch at h
      split at h
      · rename_i ha
        simp only [Option.some.injEq] at h
        subst h; simp [ha]
      · rw [Option.map_eq_some_iff] at h
        obtain ⟨k, hk, rfl⟩ := h
        simpa using ih k hk
  absent l x hs h := by
    induction l with
    | nil => simp
    | cons a l ih =>
      unfold linSearch at h
      split at h
      · simp at h
      · rename_i ha
        simp only [Option.map_eq_none_iff] at h
        simp only [List.mem_cons, not_or]
        exact ⟨fun e => ha e.symm, ih (List.pairwise_cons.1 hs).2 h⟩

/-- **C38**, finding: the underflow happens.  Here vertices 1 and 4 are the same point; after clipping vertex 0
both are dropped, two vertices are left, and the single neighbour of the next clipped vertex is deleted twice. -/
theorem C38_underflow_panics :
    triangulatePolygon linSearch 20 ([⟨5, 5⟩, ⟨0, 0⟩, ⟨1, 0⟩, ⟨0, 1⟩, ⟨0, 0⟩] : List (V2 ℚ)) [0, 1, 2, 3, 4] [1, 2, 4]
      = .error .overflow := by decide +kernel

/-- Non-vacuity of C38: an L-shaped hexagon gives four triangles. -/
example : triangulateState linSearch 20 ([⟨0, 0⟩, ⟨4, 0⟩, ⟨4, 1⟩, ⟨1, 1⟩, ⟨1, 4⟩, ⟨0, 4⟩] : List (V2 Float))
    [0, 1, 2, 3, 4, 5] [3] = .ok ⟨[0, 3], [], [0, 1, 2, 3, 4, 5, 0, 2, 3, 3, 5, 0], 2⟩ := by decide +kernel

end Geom3d
