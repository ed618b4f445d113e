import Verif.Lemmas.CurveCuts
import Mathlib.Data.List.Sort

/-! `to_piecewise_bezier`. -/

set_option linter.unusedSectionVars false

namespace Geom3d
open Spec

section field
variable {K : Type} [Field K] [LinearOrder K] [IsStrictOrderedRing K] [Env K]

theorem piece_affine {t t' : Nat → K} {a h : K} (hh : h ≠ 0) (s k i : Nat) (v : K)
    (ht : ∀ j, i ≤ j → j ≤ i + k + 1 → t j = a + h * t' j) :
    piece t s k i (a + h * v) = piece t' s k i v := by
  induction k generalizing i with
  | zero => rfl
  | succ k ih =>
    simp only [piece]
    rw [ih i (fun j h1 h2 => ht j h1 (by omega)), ih (i + 1) (fun j h1 h2 => ht j (by omega) (by omega)),
      ht i (by omega) (by omega), ht (i + k + 1) (by omega) (by omega), ht (i + k + 2) (by omega) (by omega),
      ht (i + 1) (by omega) (by omega)]
    have e : ∀ x y z : K, (a + h * x - (a + h * y)) / (a + h * z - (a + h * y)) = (x - y) / (z - y) := by
      intro x y z
      rw [show a + h * x - (a + h * y) = h * (x - y) by ring,
        show a + h * z - (a + h * y) = h * (z - y) by ring, mul_div_mul_left _ _ hh]
    have e' : ∀ x y z : K, (a + h * z - (a + h * x)) / (a + h * z - (a + h * y)) = (z - x) / (z - y) := by
      intro x y z
      rw [show a + h * z - (a + h * x) = h * (z - x) by ring,
        show a + h * z - (a + h * y) = h * (z - y) by ring, mul_div_mul_left _ _ hh]
    rw [e, e']

/-- Distinct knots are further apart than the tolerance. -/
def Spec.Separated (knots : List K) : Prop := ∀ a ∈ knots, ∀ b ∈ knots, a < b → Env.tol < b - a

theorem near_iff {knots : List K} (h : Spec.Separated knots) (htol : (0 : K) ≤ Env.tol) {a b : K}
    (ha : a ∈ knots) (hb : b ∈ knots) : near a b = true ↔ a = b := by
  unfold near fabs
  rw [decide_eq_true_eq]
  constructor
  · intro hle
    rcases lt_trichotomy a b with h' | h' | h'
    · have := h a ha b hb h'
      rw [if_pos (by linarith)] at hle
      linarith
    · exact h'
    · have := h b hb a ha h'
      rw [if_neg (by linarith)] at hle
      linarith
  · rintro rfl; simpa using htol

theorem dedupAux_spec {knots : List K} (h : Spec.Separated knots) (htol : (0 : K) ≤ Env.tol)
    (l : List K) (last : K) (hlast : last ∈ knots) (hsub : ∀ x ∈ l, x ∈ knots) (hs : Sorted (last :: l)) :
    (dedupAux (fun a b => near a b) last l).Pairwise (· < ·) ∧
      (∀ x, x ∈ dedupAux (fun a b => near a b) last l ↔ x ∈ l ∧ last < x) := by
  induction l generalizing last with
  | nil => simp [dedupAux]
  | cons a l ih =>
    have hs' := List.pairwise_cons.1 hs
    have hs'' := List.pairwise_cons.1 hs'.2
    have ha := hs'.1 a (by simp)
    simp only [dedupAux]
    by_cases hn : near a last = true
    · rw [if_pos hn]
      rw [near_iff h htol (hsub a (by simp)) hlast] at hn
      subst hn
      obtain ⟨h1, h2⟩ := ih a hlast (fun x hx => hsub x (by simp [hx])) hs'.2
      refine ⟨h1, fun x => ?_⟩
      rw [h2]
      constructor
      · rintro ⟨h3, h4⟩; exact ⟨by simp [h3], h4⟩
      · rintro ⟨h3, h4⟩
        rcases List.mem_cons.1 h3 with rfl | h3
        · exact absurd h4 (lt_irrefl _)
        · exact ⟨h3, h4⟩
    · rw [if_neg hn]
      have hne : last < a := lt_of_le_of_ne ha (by
        rintro rfl; exact hn ((near_iff h htol hlast hlast).2 rfl))
      obtain ⟨h1, h2⟩ := ih a (hsub a (by simp)) (fun x hx => hsub x (by simp [hx])) hs'.2
      refine ⟨List.pairwise_cons.2 ⟨fun x hx => ((h2 x).1 hx).2, h1⟩, fun x => ?_⟩
      rw [List.mem_cons, h2, List.mem_cons]
      constructor
      · rintro (rfl | ⟨h3, h4⟩)
        · exact ⟨Or.inl rfl, hne⟩
        · exact ⟨Or.inr h3, lt_trans hne h4⟩
      · rintro ⟨h3 | h3, h4⟩
        · exact Or.inl h3
        · rcases lt_or_eq_of_le (hs''.1 x h3) with h5 | h5
          · exact Or.inr ⟨h3, h5⟩
          · exact Or.inl h5.symm

theorem dedup_spec {knots : List K} (h : Spec.Separated knots) (htol : (0 : K) ≤ Env.tol)
    (hs : Sorted knots) :
    (dedupBy (fun a b => near a b) knots).Pairwise (· < ·) ∧
      (∀ x, x ∈ dedupBy (fun a b => near a b) knots ↔ x ∈ knots) := by
  cases knots with
  | nil => simp [dedupBy]
  | cons a l =>
    obtain ⟨h1, h2⟩ := dedupAux_spec h htol l a (by simp) (fun x hx => by simp [hx]) hs
    simp only [dedupBy]
    refine ⟨List.pairwise_cons.2 ⟨fun x hx => ((h2 x).1 hx).2, h1⟩, fun x => ?_⟩
    rw [List.mem_cons, h2, List.mem_cons]
    constructor
    · rintro (h3 | ⟨h3, _⟩)
      · exact Or.inl h3
      · exact Or.inr h3
    · rintro (h3 | h3)
      · exact Or.inl h3
      · rcases lt_or_eq_of_le ((List.pairwise_cons.1 hs).1 x h3) with h5 | h5
        · exact Or.inr ⟨h3, h5⟩
        · exact Or.inl h5.symm

theorem strict_unique {l₁ l₂ : List K} (h₁ : l₁.Pairwise (· < ·)) (h₂ : l₂.Pairwise (· < ·))
    (h : ∀ x, x ∈ l₁ ↔ x ∈ l₂) : l₁ = l₂ := by
  have p : l₁.Perm l₂ := (List.perm_ext_iff_of_nodup (h₁.imp ne_of_lt) (h₂.imp ne_of_lt)).2 h
  exact p.eq_of_pairwise (fun a b _ _ h1 h2 => absurd (lt_trans h1 h2) (lt_irrefl _)) h₁ h₂

theorem CutAt.count {l A B : List K} {i : Nat} {t : K} (h : CutAt l A B i t) : l.count t = i := by
  rw [h.eq, List.count_append, List.count_append, List.count_replicate_self,
    List.count_eq_zero.2 (fun hm => lt_irrefl _ (h.lo t hm)),
    List.count_eq_zero.2 (fun hm => lt_irrefl _ (h.hi t hm))]
  omega

theorem CutAt.filter_lt {l A B : List K} {i : Nat} {t t2 : K} (h : CutAt l A B i t) (hlt : t < t2)
    (hB : ∀ b ∈ B, t2 ≤ b) : l.filter (fun x => decide (x < t2)) = A ++ List.replicate i t := by
  have e1 : A.filter (fun x => decide (x < t2)) = A :=
    List.filter_eq_self.2 (fun a ha => by simpa using lt_trans (h.lo a ha) hlt)
  have e2 : (List.replicate i t).filter (fun x => decide (x < t2)) = List.replicate i t :=
    List.filter_eq_self.2 (fun a ha => by rw [List.eq_of_mem_replicate ha]; simpa using hlt)
  have e3 : B.filter (fun x => decide (x < t2)) = [] :=
    List.filter_eq_nil_iff.2 (fun a ha => by simpa using hB a ha)
  rw [h.eq, List.filter_append, List.filter_append, e1, e2, e3, List.append_nil]

end field

section curve
variable {K P : Type} [Field K] [LinearOrder K] [IsStrictOrderedRing K] [Env K]
  [AddCommGroup P] [Module K P] [HMul K P P] [HMul P K P] [LawfulPoint K P]

theorem bezier_getPoint (b : BezierCurve P) (h : 1 ≤ b.controlPoints.length) (u : K) :
    b.getPoint u = .ok (∑ i ∈ Finset.range b.controlPoints.length,
      bernsteinPoly (b.controlPoints.length - 1) i u • cp b.controlPoints i) := by
  unfold BezierCurve.getPoint
  rw [bernstein_eq _ h]
  simp only [ok_bind, pure_eq_ok]
  rw [linComb_tab]

/-- A valid curve on `degree+1` copies of `a` and `degree+1` copies of `b` is a reparametrised Bézier curve. -/
theorem bezier_of_two_knots {c : BSplineCurve K P} (hv : c.Valid) {a b : K} (hab : a < b)
    (hk : c.knots = List.replicate (c.degree + 1) a ++ List.replicate (c.degree + 1) b) {u : K} (hu : a ≤ u) :
    c.controlPoints.length = c.degree + 1 ∧
      (BezierCurve.mk c.controlPoints).getPoint ((u - a) / (b - a)) = c.getPoint u := by
  have hlen := hv.len
  have hN : c.controlPoints.length = c.degree + 1 := by
    have : c.knots.length = c.degree + 1 + (c.degree + 1) := by rw [hk]; simp
    omega
  refine ⟨hN, ?_⟩
  set p := c.degree with hp
  have hkn : ∀ j, j ≤ 2 * p + 1 → knot c.knots j = if j ≤ p then a else b := by
    intro j hj
    unfold knot
    rw [hk]
    simp only [List.getD_eq_getElem?_getD, List.getElem?_append, List.length_replicate, List.getElem?_replicate]
    by_cases h : j ≤ p
    · rw [if_pos (by omega), if_pos (by omega), if_pos h]; rfl
    · rw [if_neg (by omega), if_pos (by omega), if_neg h]; rfl
  have hc : Contains (knot c.knots) (c.controlPoints.length + c.degree) p u := by
    refine ⟨by omega, ?_, ?_, ?_⟩
    · rw [hkn _ (by omega), hkn _ (by omega), if_pos (le_refl _), if_neg (by omega)]; exact hab
    · rw [hkn _ (by omega), if_pos (le_refl _)]; exact hu
    · rw [hkn _ (by omega), hkn _ (by omega), if_neg (by omega), if_neg (by omega)]
      rcases lt_or_ge u b with h | h
      · exact Or.inl h
      · exact Or.inr ⟨h, rfl⟩
  rw [getPoint_of_contains hv hc, bezier_getPoint _ (by simp only []; omega)]
  congr 1
  unfold BSplineCurve.pieceSum
  simp only [hN]
  apply Finset.sum_congr rfl
  intro i hi
  rw [Finset.mem_range] at hi
  congr 1
  have hne : b - a ≠ 0 := by linarith
  have e := piece_affine (t := knot c.knots) (t' := knot (KnotVector.bezierKnot p)) (a := a) hne p p i
    ((u - a) / (b - a)) (by
      intro j _ hj
      rw [hkn j (by omega), knot_bezier p j (by omega)]
      split
      · ring
      · ring)
  rw [show a + (b - a) * ((u - a) / (b - a)) = u by field_simp; ring] at e
  rw [← hp, e]
  have := piece_bezier p ((u - a) / (b - a)) p i (le_refl _) (by omega)
  rw [Nat.sub_self, Nat.zero_add] at this
  rw [this, Nat.add_sub_cancel]

/-- Clamping a curve whose end knots already have multiplicity at least `degree + 1` does nothing. -/
theorem clamp_noop {c : BSplineCurve K P} (hv : c.Valid)
    (h0 : c.degree + 1 ≤ c.knots.count (knot c.knots 0))
    (h1 : c.degree + 1 ≤ c.knots.count (knot c.knots (c.controlPoints.length + c.degree))) :
    c.clamp = .ok c := by
  have hlen := hv.len
  unfold BSplineCurve.clamp
  have e0 := (hv.sorted.cutAt (knot c.knots 0)).multiplicity hv.resolved (j := 0) (by omega) rfl
  have e1 := (hv.sorted.cutAt (knot c.knots (c.controlPoints.length + c.degree))).multiplicity hv.resolved
    (j := c.controlPoints.length + c.degree) (by omega) rfl
  rw [← (hv.sorted.cutAt _).count] at e0 e1
  rw [e0]
  simp only [ok_bind]
  rw [forRange_nil (by omega)]
  simp only [ok_bind]
  rw [usub_ok (by omega), show c.knots.length - 1 = c.controlPoints.length + c.degree by omega]
  simp only [ok_bind]
  rw [e1]
  simp only [ok_bind]
  rw [forRange_nil (by omega)]

/-- What `to_piecewise_bezier` must return for the span between the distinct knots `ds[k]`, `ds[k+1]`. -/
def GoodPiece (c : BSplineCurve K P) (ds : List K) (k : Nat) (b : BezierCurve P) : Prop :=
  b.controlPoints.length = c.degree + 1 ∧
    ∀ u, knot ds k ≤ u → (u < knot ds (k + 1) ∨ k + 2 = ds.length) →
      b.getPoint ((u - knot ds k) / (knot ds (k + 1) - knot ds k)) = c.getPoint u

theorem strict_lt {ds : List K} (h : ds.Pairwise (· < ·)) {i j : Nat} (hij : i < j) (hj : j < ds.length) :
    knot ds i < knot ds j := by
  rw [← knot_getElem hj, ← knot_getElem (by omega)]
  exact List.pairwise_iff_getElem.1 h i j (by omega) hj hij

theorem strict_lt_iff {ds : List K} (h : ds.Pairwise (· < ·)) {i j : Nat} (hi : i < ds.length)
    (hj : j < ds.length) : knot ds i < knot ds j ↔ i < j := by
  constructor
  · intro hlt
    by_contra hc
    rcases Nat.lt_or_eq_of_le (not_lt.1 hc) with h' | h'
    · exact absurd (lt_trans hlt (strict_lt h h' hi)) (lt_irrefl _)
    · rw [h'] at hlt; exact lt_irrefl _ hlt
  · intro hij; exact strict_lt h hij hj

/-- Between consecutive distinct values a knot can only be one of the two. -/
theorem no_between {knots ds : List K} (hds : ds.Pairwise (· < ·)) (hmem : ∀ x, x ∈ ds ↔ x ∈ knots) {j : Nat}
    (hj : j + 1 < ds.length) {x : K} (hx : x ∈ knots) (h : x < knot ds (j + 1)) : x ≤ knot ds j := by
  obtain ⟨i, hi, rfl⟩ := List.getElem_of_mem ((hmem x).2 hx)
  rw [knot_getElem hi] at h ⊢
  rw [strict_lt_iff hds hi hj] at h
  rcases Nat.lt_or_eq_of_le (Nat.lt_succ_iff.1 h) with h' | h'
  · exact le_of_lt (strict_lt hds h' (by omega))
  · rw [h']

theorem toPiecewiseBezier_spec {c : BSplineCurve K P} (hv : c.Valid) (htol : (0 : K) ≤ Env.tol)
    (hsep : Spec.Separated c.knots) {ds : List K} (hds : ds.Pairwise (· < ·))
    (hmem : ∀ x, x ∈ ds ↔ x ∈ c.knots) (hmult : ∀ x ∈ c.knots, c.knots.count x ≤ c.degree + 1)
    (h0 : c.knots.count (knot ds 0) = c.degree + 1)
    (h1 : c.knots.count (knot ds (ds.length - 1)) = c.degree + 1) :
    ∃ bs, c.toPiecewiseBezier = .ok bs ∧ bs.length = ds.length - 1 ∧
      (∀ k b, bs[k]? = some b → GoodPiece c ds k b) ∧ Refines K c.controlPoints (bs.flatMap fun b => b.controlPoints) := by
  set p := c.degree with hp
  set n := ds.length with hn
  have hlen := hv.len
  have hded : dedupBy (fun a b => near a b) c.knots = ds := by
    obtain ⟨a1, a2⟩ := dedup_spec hsep htol hv.sorted
    exact strict_unique a1 hds (fun x => by rw [a2, hmem])
  -- first and last distinct knot
  have hk0m : knot c.knots 0 ∈ ds := (hmem _).2 (knot_mem (by omega))
  have hkNm : knot c.knots (c.controlPoints.length + p) ∈ ds := (hmem _).2 (knot_mem (by omega))
  have hn2 : 2 ≤ n := by
    obtain ⟨i, hi, ei⟩ := List.getElem_of_mem hk0m
    obtain ⟨j, hj, ej⟩ := List.getElem_of_mem hkNm
    by_contra hc
    have : i = j := by omega
    subst this
    exact absurd hv.nonconst (by rw [← ei, ← ej]; exact lt_irrefl _)
  have hd0 : knot c.knots 0 = knot ds 0 := by
    apply le_antisymm
    · have : knot ds 0 ∈ c.knots := (hmem _).1 (knot_mem (by omega))
      obtain ⟨j, hj, ej⟩ := List.getElem_of_mem this
      rw [← ej, knot_getElem hj]; exact hv.mono _ _ (by omega) (by omega)
    · obtain ⟨i, hi, ei⟩ := List.getElem_of_mem hk0m
      rw [← ei, knot_getElem hi]
      rcases Nat.eq_zero_or_pos i with h | h
      · rw [h]
      · exact le_of_lt (strict_lt hds h hi)
  have hdN : knot c.knots (c.controlPoints.length + p) = knot ds (n - 1) := by
    apply le_antisymm
    · obtain ⟨i, hi, ei⟩ := List.getElem_of_mem hkNm
      rw [← ei, knot_getElem hi]
      rcases Nat.lt_or_ge i (n - 1) with h | h
      · exact le_of_lt (strict_lt hds h (by omega))
      · rw [show i = n - 1 by omega]
    · have : knot ds (n - 1) ∈ c.knots := (hmem _).1 (knot_mem (by omega))
      obtain ⟨j, hj, ej⟩ := List.getElem_of_mem this
      rw [← ej, knot_getElem hj]; exact hv.mono _ _ (by omega) (by omega)
  have hclamp : c.clamp = .ok c := clamp_noop hv (by rw [hd0, h0]) (by rw [← hp, hdN, h1])
  have hlt_count : ∀ j, 0 < j → j < n → p + 1 ≤ (c.knots.filter (fun x => decide (x < knot ds j))).length := by
    intro j hj hjn
    have : (c.knots.filter (fun x => decide (x < knot ds j))).count (knot ds 0) = p + 1 := by
      rw [List.count_filter (by simpa using strict_lt hds hj hjn), h0]
    rw [← this]; exact List.count_le_length
  -- the loop
  obtain ⟨st, hst1, hst2, hst3, hst4, hst5, hst6, hst7, hst8⟩ := forRange_inv (a := 2) (b := n)
    (s := (c, ([] : List (BezierCurve P))))
    (body := fun st i => do
      let t ← idx ds (n - i)
      let (left, piece) ← st.1.split t
      pure (left, st.2 ++ [BezierCurve.mk piece.controlPoints]))
    (fun i st => st.1.Valid ∧ st.1.degree = p ∧
      st.1.knots = c.knots.filter (fun x => decide (x < knot ds (n - i + 1)))
        ++ List.replicate (p + 1) (knot ds (n - i + 1)) ∧
      (∀ u, knot ds 0 ≤ u → (u < knot ds (n - i + 1) ∨ i = 2) → st.1.getPoint u = c.getPoint u) ∧
      st.2.length = i - 2 ∧
      (∀ q b, st.2[q]? = some b → GoodPiece c ds (n - 2 - q) b) ∧
      Refines K c.controlPoints (st.1.controlPoints ++ st.2.reverse.flatMap fun b => b.controlPoints))
    hn2
    (by
      refine ⟨hv, rfl, ?_, fun _ _ _ => rfl, rfl, by simp, by simpa using Refines.refl⟩
      simp only []
      rw [show n - 2 + 1 = n - 1 by omega]
      have hc := hv.sorted.cutAt (knot ds (n - 1))
      have e := hc.eq
      have hB : c.knots.filter (fun x => decide (knot ds (n - 1) < x)) = [] := by
        rw [List.filter_eq_nil_iff]
        intro x hx
        obtain ⟨j, hj, rfl⟩ := List.getElem_of_mem hx
        rw [knot_getElem hj]
        simp only [decide_eq_true_eq, not_lt]
        rw [← hdN]; exact hv.mono _ _ (by omega) (by omega)
      rw [hB, ← hc.count, h1, List.append_nil] at e
      exact e)
    (by
      rintro i ⟨left, result⟩ hi2 hin ⟨hl1, hl2, hl3, hl4, hl5, hl6, hl7⟩
      simp only at hl1 hl2 hl3 hl4 hl5 hl6 hl7
      obtain ⟨j, hj⟩ : ∃ j, j = n - i := ⟨_, rfl⟩
      rw [← hj] at hl3 hl4
      have hlt : knot ds j < knot ds (j + 1) := strict_lt hds (by omega) (by omega)
      have hltm : knot ds j ∈ c.knots := (hmem _).1 (knot_mem (by omega))
      have hsubm : ∀ x ∈ left.knots, x ∈ c.knots := by
        intro x hx
        rw [hl3, List.mem_append] at hx
        rcases hx with hx | hx
        · exact (List.mem_filter.1 hx).1
        · rw [List.eq_of_mem_replicate hx]; exact (hmem _).1 (knot_mem (by omega))
      have hdjl : knot ds j ∈ left.knots := by
        rw [hl3]; apply List.mem_append_left
        exact List.mem_filter.2 ⟨hltm, by simpa using hlt⟩
      have hAlen := hlt_count (j + 1) (by omega) (by omega)
      have hll := hl1.len
      have hlkl : left.knots.length = (c.knots.filter (fun x => decide (x < knot ds (j + 1)))).length + (p + 1) := by
        rw [hl3]; simp
      have hkp : knot left.knots left.degree ≤ knot ds j := by
        apply no_between hds hmem (by omega) (hsubm _ (knot_mem (by omega)))
        rw [← knot_getElem (by omega), List.getElem_of_eq hl3 (by omega), List.getElem_append_left (by omega)]
        simpa using (List.mem_filter.1 (List.getElem_mem (by omega :
          left.degree < (c.knots.filter (fun x => decide (x < knot ds (j + 1)))).length))).2
      have hlast : knot left.knots (left.controlPoints.length + left.degree) = knot ds (j + 1) := by
        rw [← knot_getElem (by omega), List.getElem_of_eq hl3 (by omega), List.getElem_append_right (by omega)]
        simp
      have hres : Resolved (knot ds j :: left.knots) := hl1.resolved.mono (by
        intro x hx
        rcases List.mem_cons.1 hx with rfl | hx
        · exact hdjl
        · exact hx)
      obtain ⟨t', A, B, m, L, R, g1, g2, g3, g4, g5, g6, g7, g8, g9, g10, g11, g12⟩ :=
        split_spec hl1 htol hkp (by rw [hlast]; exact hlt) hres
      have ht' : t' = knot ds j := by
        rcases g2 with ⟨h, _⟩ | ⟨_, h, _, h'⟩
        · exact h
        · exact le_antisymm h (h' _ hdjl (le_refl _))
      subst ht'
      -- identify the cut
      have hcutc := hv.sorted.cutAt (knot ds j)
      have hmA : A = c.knots.filter (fun x => decide (x < knot ds j)) ∧
          m = c.knots.count (knot ds j) ∧ B = List.replicate (p + 1) (knot ds (j + 1)) := by
        apply g3.unique
        refine ⟨?_, by simp, ?_⟩
        · rw [hl3]
          have e : c.knots.filter (fun x => decide (x < knot ds (j + 1)))
              = c.knots.filter (fun x => decide (x < knot ds j))
                ++ List.replicate (c.knots.count (knot ds j)) (knot ds j) := by
            rw [hcutc.filter_lt hlt, ← hcutc.count]
            intro a ha
            have h2 := List.mem_filter.1 ha
            simp only [decide_eq_true_eq] at h2
            by_contra hc
            exact absurd (lt_of_lt_of_le h2.2 (no_between hds hmem (by omega) h2.1 (not_le.1 hc)))
              (lt_irrefl _)
          rw [e, List.append_assoc]
        · intro b hb; rw [List.eq_of_mem_replicate hb]; exact hlt
      obtain ⟨rfl, rfl, rfl⟩ := hmA
      have hA : c.knots.filter (fun x => decide (x < knot ds j)) ≠ [] := by
        have := hlt_count j (by omega) (by omega)
        intro h; rw [h] at this; simp at this
      obtain ⟨hLv, hLg⟩ := g12 hA
      have hmx : max (c.knots.count (knot ds j)) (left.degree + 1) = p + 1 := by
        have := hmult _ hltm; omega
      refine ⟨(L, result ++ [BezierCurve.mk R.controlPoints]), ?_, hLv, by rw [g5, hl2], ?_, ?_, ?_, ?_, ?_⟩
      · simp only []
        rw [← hj, idx_knot (by omega)]
        simp only [ok_bind]
        rw [g1]
        rfl
      · simp only []
        rw [g7, hmx, show n - (i + 1) + 1 = j by omega]
      · intro u hu0 hu
        rw [show n - (i + 1) + 1 = j by omega] at hu
        have hu' : u < knot ds j := by
          rcases hu with h | h
          · exact h
          · omega
        have hfirst : knot left.knots 0 = knot ds 0 := by
          have : knot left.knots 0 ∈ ds := (hmem _).2 (hsubm _ (knot_mem (by omega)))
          apply le_antisymm
          · have h0m : knot ds 0 ∈ left.knots := by
              rw [hl3]; apply List.mem_append_left
              exact List.mem_filter.2 ⟨(hmem _).1 (knot_mem (by omega)), by
                simpa using strict_lt hds (i := 0) (j := j + 1) (by omega) (by omega)⟩
            obtain ⟨q, hq, eq⟩ := List.getElem_of_mem h0m
            rw [← eq, knot_getElem hq]; exact hl1.mono _ _ (by omega) (by omega)
          · obtain ⟨q, hq, eq⟩ := List.getElem_of_mem this
            rw [← eq, knot_getElem hq]
            rcases Nat.eq_zero_or_pos q with h | h
            · rw [h]
            · exact le_of_lt (strict_lt hds h hq)
        rw [hLg u (by rw [hfirst]; exact hu0) hu']
        exact hl4 u hu0 (Or.inl (lt_trans hu' hlt))
      · simp [hl5]; omega
      · intro q b hq
        rw [List.getElem?_append] at hq
        split at hq
        · exact hl6 q b hq
        · rename_i hql
          have hq0 : q = i - 2 := by
            by_contra hc
            rw [List.getElem?_eq_none (by simp; omega)] at hq
            cases hq
          rw [hq0, hl5, Nat.sub_self] at hq
          simp only [List.getElem?_cons_zero, Option.some.injEq] at hq
          subst hq
          rw [show n - 2 - q = j by omega]
          obtain ⟨z1, _⟩ := bezier_of_two_knots g10 hlt (by rw [g8, g6, hl2]) (le_refl _)
          refine ⟨by simp only []; rw [z1, g6, hl2], ?_⟩
          intro u hu hu'
          obtain ⟨_, z2⟩ := bezier_of_two_knots g10 hlt (by rw [g8, g6, hl2]) hu
          rw [z2, g11 u hu]
          apply hl4 u (le_trans ?_ hu)
          · rcases hu' with h | h
            · exact Or.inl h
            · exact Or.inr (by omega)
          · rcases Nat.eq_zero_or_pos j with h | h
            · rw [h]
            · exact le_of_lt (strict_lt hds h (by omega))
      · have hend : knot ds j < knot left.knots left.controlPoints.length := by
          rw [← knot_getElem (knots := left.knots) (by omega), List.getElem_of_eq hl3 (by omega), List.getElem_append_right (by omega)]
          simpa using hlt
        have hc := split_cuts hl1 hkp hend hres g1
        have := hl7.trans (hc.append (List.ne_nil_of_length_pos hl1.pts) (result.reverse.flatMap fun b => b.controlPoints))
        simpa [List.append_assoc] using this)
  obtain ⟨left, result⟩ := st
  simp only at hst2 hst3 hst4 hst5 hst6 hst7 hst8
  rw [Nat.sub_self, Nat.zero_add] at hst4
  rw [Nat.sub_self] at hst5
  refine ⟨(result ++ [BezierCurve.mk left.controlPoints]).reverse, ?_, ?_, ?_, by simpa using hst8⟩
  · unfold BSplineCurve.toPiecewiseBezier
    rw [hclamp]
    simp only [ok_bind]
    rw [hded, usub_ok (by omega)]
    simp only [ok_bind]
    have hst1' := hst1
    rw [hn] at hst1'
    rw [hst1']
    rfl
  · simp; omega
  · intro k b hb
    have hlen2 : (result ++ [BezierCurve.mk left.controlPoints]).length = n - 1 := by simp; omega
    have hkn : k < n - 1 := by
      have := (List.getElem?_eq_some_iff.1 hb).1
      rw [List.length_reverse, hlen2] at this
      exact this
    rw [List.getElem?_reverse (by omega), hlen2, List.getElem?_append] at hb
    split at hb
    · rename_i h
      have := hst7 _ _ hb
      rw [show n - 2 - (n - 1 - 1 - k) = k by omega] at this
      exact this
    · rename_i h
      by_cases hk : k = 0
      · subst hk
        rw [show n - 1 - 1 - 0 - result.length = 0 by omega] at hb
        simp only [List.getElem?_cons_zero, Option.some.injEq] at hb
        subst hb
        have hlt : knot ds 0 < knot ds 1 := strict_lt hds (by omega) (by omega)
        have hk2 : left.knots = List.replicate (left.degree + 1) (knot ds 0)
            ++ List.replicate (left.degree + 1) (knot ds 1) := by
          rw [hst4, hst3]
          congr 1
          have hc := hv.sorted.cutAt (knot ds 0)
          have hA : c.knots.filter (fun x => decide (x < knot ds 0)) = [] := by
            rw [List.filter_eq_nil_iff]
            intro x hx
            obtain ⟨j, hj, rfl⟩ := List.getElem_of_mem hx
            rw [knot_getElem hj, ← hd0]
            simp only [decide_eq_true_eq, not_lt]
            exact hv.mono _ _ (by omega) (by omega)
          rw [hc.filter_lt hlt, hA, List.nil_append, ← hc.count, h0]
          intro a ha
          have h2 := List.mem_filter.1 ha
          simp only [decide_eq_true_eq] at h2
          by_contra hc
          exact absurd (lt_of_lt_of_le h2.2 (no_between hds hmem (by omega) h2.1 (not_le.1 hc)))
            (lt_irrefl _)
        obtain ⟨z1, _⟩ := bezier_of_two_knots hst2 hlt hk2 (le_refl _)
        refine ⟨by simp only []; rw [z1, hst3], ?_⟩
        intro u hu hu'
        obtain ⟨_, z2⟩ := bezier_of_two_knots hst2 hlt hk2 hu
        rw [z2]
        apply hst5 u hu
        rcases hu' with h | h
        · exact Or.inl h
        · exact Or.inr (by omega)
      · omega

end curve

end Geom3d
