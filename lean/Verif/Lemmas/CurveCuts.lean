import Verif.Lemmas.Split

/-!
# Cutting the corners of a control polygon

Inserting a knot moves every control point but the ends to a place between it and the one before.
-/

set_option linter.unusedSectionVars false

namespace Geom3d
open Spec

section
variable {K P : Type} [Field K] [LinearOrder K] [IsStrictOrderedRing K]

theorem boehm_mem {t : Nat → K} {n r p : Nat} {x : K} (hm : ∀ i j, i ≤ j → j ≤ n → t i ≤ t j) (hr : r + p ≤ n)
    (h1 : t r ≤ x) (h2 : x < t (r + 1)) (j : Nat) : 0 ≤ boehm t r p x j ∧ boehm t r p x j ≤ 1 := by
  unfold boehm
  split
  · exact ⟨zero_le_one, le_refl _⟩
  · split
    · rename_i ha hb
      have e1 := hm j r hb (by omega)
      have e2 := hm (r + 1) (j + p) (by omega) (by omega)
      exact ⟨div_nonneg (by linarith) (by linarith), div_le_one_of_le₀ (by linarith) (by linarith)⟩
    · exact ⟨le_refl _, zero_le_one⟩

variable [AddCommGroup P] [Module K P]

/-- One more point: every new one lies between two consecutive old ones, and the last stays. -/
def Spec.CutCorners (K : Type) [Field K] [LinearOrder K] {P : Type} [AddCommGroup P] [Module K P] (l l' : List P) : Prop :=
  ∃ β : Nat → K, (∀ j, 0 ≤ β j ∧ β j ≤ 1) ∧ β l.length = 0 ∧ l'.length = l.length + 1 ∧
    ∀ i, i ≤ l.length → l'.getD i 0 = β i • l.getD i 0 + (1 - β i) • l.getD (i - 1) 0

/-- Corners are cut any number of times. -/
inductive Spec.Refines (K : Type) [Field K] [LinearOrder K] {P : Type} [AddCommGroup P] [Module K P] (l : List P) : List P → Prop
  | refl : Refines K l l
  | step {l' l'' : List P} : Refines K l l' → CutCorners K l' l'' → Refines K l l''

theorem Spec.Refines.trans {l l' l'' : List P} (h : Refines K l l') (h' : Refines K l' l'') : Refines K l l'' := by
  induction h' with
  | refl => exact h
  | step _ h2 ih => exact ih.step h2

/-- The corners of the first part of a polygon are cut. -/
theorem Spec.CutCorners.append {l l' : List P} (h : CutCorners K l l') (hl : l ≠ []) (s : List P) :
    CutCorners K (l ++ s) (l' ++ s) := by
  obtain ⟨β, h1, h2, h3, h4⟩ := h
  have hpos : 0 < l.length := List.length_pos_iff.2 hl
  refine ⟨fun i => if i ≤ l.length then β i else 0, fun j => ?_, ?_, ?_, fun i hi => ?_⟩
  · dsimp only
    split
    · exact h1 j
    · exact ⟨le_refl _, zero_le_one⟩
  · dsimp only
    rw [List.length_append]
    split
    · rw [show l.length + s.length = l.length by omega, h2]
    · rfl
  · rw [List.length_append, List.length_append, h3]; omega
  · dsimp only
    rw [List.length_append] at hi
    have e1 : ∀ j, j < l.length → (l ++ s).getD j 0 = l.getD j 0 := by
      intro j hj
      simp only [List.getD_eq_getElem?_getD]
      rw [List.getElem?_append_left hj]
    split
    · rename_i hle
      have e2 : (l' ++ s).getD i 0 = l'.getD i 0 := by
        simp only [List.getD_eq_getElem?_getD]
        rw [List.getElem?_append_left (by omega)]
      rw [e2, h4 i hle, e1 (i - 1) (by omega)]
      rcases Nat.lt_or_eq_of_le hle with h | h
      · rw [e1 i h]
      · rw [h, h2, zero_smul, zero_smul]
    · rw [zero_smul, zero_add, sub_zero, one_smul]
      simp only [List.getD_eq_getElem?_getD]
      rw [List.getElem?_append_right (by omega), List.getElem?_append_right (by omega), h3]
      congr 2
      omega

theorem Spec.CutCorners.ne_nil {l l' : List P} (h : CutCorners K l l') : l' ≠ [] := by
  obtain ⟨β, h1, h2, h3, h4⟩ := h
  exact List.ne_nil_of_length_pos (by omega)

theorem Spec.Refines.append {l l' : List P} (h : Refines K l l') (hl : l ≠ []) (s : List P) : Refines K (l ++ s) (l' ++ s) := by
  have key : l' ≠ [] ∧ Refines K (l ++ s) (l' ++ s) := by
    induction h with
    | refl => exact ⟨hl, .refl⟩
    | step _ h2 ih => exact ⟨h2.ne_nil, ih.2.step (h2.append ih.1 s)⟩
  exact key.2

end

section
variable {K P : Type} [Field K] [LinearOrder K] [IsStrictOrderedRing K] [Env K]
  [AddCommGroup P] [Module K P] [HMul K P P] [HMul P K P] [LawfulPoint K P]

/-- Inserting a knot inside the domain. -/
theorem addKnot_cuts {c c' : BSplineCurve K P} (hv : c.Valid) {x : K} (hx : knot c.knots c.degree ≤ x)
    (hx' : x < knot c.knots c.controlPoints.length) (hres : Resolved (x :: c.knots)) (h : c.addKnot x = .ok c') :
    CutCorners K c.controlPoints c'.controlPoints ∧ c'.Valid ∧ c'.degree = c.degree ∧
      knot c'.knots c'.degree ≤ x ∧ x < knot c'.knots c'.controlPoints.length ∧ Resolved (x :: c'.knots) := by
  have hl := hv.len
  have h0 : knot c.knots 0 ≤ x := le_trans (hv.mono 0 _ (by omega) (by omega)) hx
  obtain ⟨r, hr1, hr2, hr3, hr4⟩ := addKnot_index (by omega) h0
  have hpr : c.degree ≤ r := by
    by_contra hc
    exact absurd (lt_of_lt_of_le (hr4 c.degree (by omega) (by omega)) hx) (lt_irrefl _)
  have hrN : r < c.controlPoints.length := by
    by_contra hc
    exact absurd (lt_of_lt_of_le hx' ((hv.mono _ r (by omega) (by omega)).trans hr3)) (lt_irrefl _)
  obtain ⟨c₁, e1, hins⟩ := addKnot_spec hl hv.resolved hr2 hr1 hpr
  obtain ⟨c₂, e2, e3, e4, e5, e6, e7, e8⟩ := addKnot_valid hv hx (hx'.le.trans (hv.mono _ _ (by omega) (by omega))) hres
  rw [h] at e1 e2
  injection e1 with e1
  injection e2 with e2
  subst e1
  subst e2
  refine ⟨⟨boehm (knot c.knots) r c.degree x, boehm_mem hv.mono (by omega) hr3 (hr4 _ (by omega) (by omega)), ?_, hins.len, hins.pts⟩,
    e3, e4, ?_, ?_, ?_⟩
  · unfold boehm; rw [if_neg (by omega), if_neg (by omega)]
  · rw [hins.knots, knot_insertIdx hr1, e4, insertFn_le hpr]; exact hx
  · rw [hins.knots, knot_insertIdx hr1, hins.len, insertFn_gt hrN]; exact hx'
  · refine hres.mono fun y hy => ?_
    rcases List.mem_cons.1 hy with rfl | hy
    · simp
    · rw [hins.knots] at hy
      exact (List.perm_insertIdx x c.knots (by omega)).subset hy

/-- The control points of the two pieces, one after the other, refine those of the curve. -/
theorem split_cuts {c : BSplineCurve K P} (hv : c.Valid) {t : K} (ht : knot c.knots c.degree ≤ t)
    (ht' : t < knot c.knots c.controlPoints.length) (hres : Resolved (t :: c.knots)) {L R : BSplineCurve K P}
    (h : c.split t = .ok (L, R)) : Refines K c.controlPoints (L.controlPoints ++ R.controlPoints) := by
  have hl := hv.len
  have h0t : knot c.knots 0 ≤ t := le_trans (hv.mono 0 _ (by omega) (by omega)) ht
  obtain ⟨s, hsp, hsn, hs1, hs2⟩ := spanIndex_inner hl h0t (ht'.trans_le (hv.mono _ _ (by omega) (by omega)))
  have hps : c.degree ≤ s := by
    by_contra hc
    exact absurd (lt_of_lt_of_le hs2 ((hv.mono (s + 1) c.degree (by omega) (by omega)).trans ht)) (lt_irrefl _)
  unfold BSplineCurve.split at h
  rw [hsp] at h
  simp only [ok_bind] at h
  rw [idx_knot (by omega)] at h
  simp only [ok_bind] at h
  obtain ⟨t', i, hdom, h⟩ : ∃ (t' : K) (i : Nat),
      (knot c.knots c.degree ≤ t' ∧ t' < knot c.knots c.controlPoints.length ∧ Resolved (t' :: c.knots)) ∧ (do
        let b ← forRange i (c.degree + 1) c (fun c _ => c.addKnot t')
        let k ← KnotVector.spanIndex b.knots t'
        let knots0 ← KnotVector.subVec b.knots 0 (k + 1)
        let kp ← usub k c.degree
        let knots1 ← KnotVector.subVec b.knots kp b.knots.length
        let cps0 ← slice b.controlPoints 0 kp
        let cps1 ← slice b.controlPoints kp b.controlPoints.length
        (pure (⟨cps0, knots0, b.degree⟩, ⟨cps1, knots1, b.degree⟩) : Res (BSplineCurve K P × BSplineCurve K P))) = .ok (L, R) := by
    split at h
    · obtain ⟨m, -, h⟩ := bind_eq_ok.1 h
      refine ⟨knot c.knots s, m, ⟨hv.mono _ _ hps (by omega), hs1.trans_lt ht', hres.mono fun y hy => ?_⟩, h⟩
      rcases List.mem_cons.1 hy with rfl | hy
      · exact List.mem_cons_of_mem _ (knot_mem (by omega))
      · exact List.mem_cons_of_mem _ hy
    · exact ⟨t, 0, ⟨ht, ht', hres⟩, h⟩
  obtain ⟨c', h2, h⟩ := bind_eq_ok.1 h
  have key : Refines K c.controlPoints c'.controlPoints := by
    rcases Nat.lt_or_ge (c.degree + 1) i with hi | hi
    · rw [forRange_nil (by omega)] at h2
      injection h2 with h2
      rw [← h2]
      exact .refl
    · refine (forRange_partial (fun _ b => Refines K c.controlPoints b.controlPoints ∧ b.Valid ∧
        knot b.knots b.degree ≤ t' ∧ t' < knot b.knots b.controlPoints.length ∧ Resolved (t' :: b.knots)) hi
        ⟨.refl, hv, hdom⟩ ?_ h2).1
      rintro j b b' - - ⟨b1, b2, b3, b4, b5⟩ hb
      obtain ⟨d1, d2, -, d3⟩ := addKnot_cuts b2 b3 b4 b5 hb
      exact ⟨b1.step d1, d2, d3⟩
  obtain ⟨k, -, h⟩ := bind_eq_ok.1 h
  obtain ⟨k0, -, h⟩ := bind_eq_ok.1 h
  obtain ⟨kp, -, h⟩ := bind_eq_ok.1 h
  obtain ⟨k1, -, h⟩ := bind_eq_ok.1 h
  obtain ⟨p0, h3, h⟩ := bind_eq_ok.1 h
  obtain ⟨p1, h4, h⟩ := bind_eq_ok.1 h
  injection h with h
  obtain ⟨rfl, rfl⟩ := Prod.mk.inj h
  unfold slice at h3 h4
  split at h3
  · split at h4
    · injection h3 with h3
      injection h4 with h4
      show Refines K c.controlPoints (p0 ++ p1)
      rw [← h3, ← h4, List.drop_zero, List.take_length, List.take_append_drop]
      exact key
    · cases h4
  · cases h3

end

end Geom3d
