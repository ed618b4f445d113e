import Verif.Props.Knots
import Verif.Lemmas.BSpline

/-! Knot insertion, repeated insertion and splitting of valid B-spline curves. -/

set_option linter.unusedSectionVars false

namespace Geom3d
open Spec

section knots
variable {K : Type} [LinearOrder K] [Zero K]

theorem addKnot_index {knots : List K} {x : K} (hne : 0 < knots.length)
    (h0 : knot knots 0 ≤ x) :
    ∃ r, r < knots.length ∧ KnotVector.addKnot knots x = (knots.insertIdx (r + 1) x, r + 1) ∧
      knot knots r ≤ x ∧ ∀ j, r < j → j < knots.length → x < knot knots j := by
  unfold KnotVector.addKnot
  cases hp : rposition (fun t => decide (t ≤ x)) knots with
  | none =>
    have := rposition_none hp 0 hne
    rw [knot_getElem hne] at this
    simp only [decide_eq_false_iff_not] at this
    exact absurd h0 this
  | some r =>
    obtain ⟨h1, h2, h3⟩ := rposition_some hp
    refine ⟨r, h1, rfl, ?_, ?_⟩
    · rw [knot_getElem h1] at h2; simpa using h2
    · intro j hj hjl
      have := h3 j hjl hj
      rw [knot_getElem hjl] at this
      simpa using this

theorem Spec.Resolved.mono [Sub K] [Env K] {l l' : List K} (h : Resolved l) (hsub : ∀ x ∈ l', x ∈ l) :
    Resolved l' :=
  ⟨fun a ha b hb => h.eq a (hsub a ha) b (hsub b hb), fun a ha b hb => h.sub a (hsub a ha) b (hsub b hb)⟩

end knots

section curve
variable {K P : Type} [Field K] [LinearOrder K] [IsStrictOrderedRing K] [Env K]
  [AddCommGroup P] [Module K P] [HMul K P P] [HMul P K P] [LawfulPoint K P]

theorem Contains.spanAt {t : Nat → K} {n s : Nat} {u : K} (hm : ∀ i j, i ≤ j → j ≤ n → t i ≤ t j)
    (h : Contains t n s u) : SpanAt t n s := ⟨hm, h.lt, h.nonempty⟩

/-- Inserting a knot of the range at an index beyond the degree: no panic, one more knot and control point,
same degree, same curve. -/
theorem addKnot_valid {c : BSplineCurve K P} (hv : c.Valid) {x : K}
    (hx : knot c.knots c.degree ≤ x) (hx' : x ≤ knot c.knots (c.controlPoints.length + c.degree))
    (hres : Resolved (x :: c.knots)) :
    ∃ c', c.addKnot x = .ok c' ∧ c'.Valid ∧ c'.degree = c.degree ∧
      c'.knots = (KnotVector.addKnot c.knots x).1 ∧
      c'.controlPoints.length = c.controlPoints.length + 1 ∧
      knot c'.knots 0 = knot c.knots 0 ∧
      ∀ u, knot c.knots 0 ≤ u → c'.getPoint u = c.getPoint u := by
  have hl := hv.len
  have h0 : knot c.knots 0 ≤ x := le_trans (hv.mono 0 _ (by omega) (by omega)) hx
  obtain ⟨r, hr1, hr2, hr3, hr4⟩ := addKnot_index (by omega) h0
  have hpr : c.degree ≤ r := by
    by_contra hc
    exact absurd (lt_of_lt_of_le (hr4 c.degree (by omega) (by omega)) hx) (lt_irrefl _)
  obtain ⟨c', hc', hins⟩ := addKnot_spec hl hv.resolved hr2 hr1 hpr
  have hsorted : Sorted c'.knots := by
    have := ((C08_addKnot c.knots x).2.2.2.2 hv.sorted).1
    rw [hr2] at this
    rw [hins.knots]; exact this
  have hlen' : c'.knots.length = c.knots.length + 1 := by
    rw [hins.knots, List.length_insertIdx_of_le_length (by omega)]
  have hres' : Resolved c'.knots := by
    apply hres.mono
    intro y hy
    rw [hins.knots] at hy
    exact (List.perm_insertIdx x c.knots (by omega)).subset hy
  have hkf : ∀ j, knot c'.knots j = insertFn (knot c.knots) r x j := by
    intro j; rw [hins.knots]; exact knot_insertIdx hr1
  have hlast : knot c'.knots (c'.controlPoints.length + c'.degree)
      = knot c.knots (c.controlPoints.length + c.degree) := by
    rw [hkf, hins.len, hins.degree, show c.controlPoints.length + 1 + c.degree
      = c.controlPoints.length + c.degree + 1 by omega]
    rcases Nat.lt_or_ge r (c.controlPoints.length + c.degree) with h | h
    · exact insertFn_gt h
    · have : r = c.controlPoints.length + c.degree := by omega
      rw [← this, insertFn_eq]
      exact le_antisymm (this ▸ hx') hr3
  have hfirst : knot c'.knots 0 = knot c.knots 0 := by rw [hkf]; exact insertFn_le (by omega)
  have hv' : c'.Valid := by
    refine ⟨?_, hsorted, hres', ?_, ?_⟩
    · rw [hlen', hl, hins.len, hins.degree]; omega
    · rw [hlast, hfirst]; exact hv.nonconst
    · rw [hins.len]; omega
  refine ⟨c', hc', hv', hins.degree, by rw [hr2, hins.knots], hins.len, hfirst, ?_⟩
  intro u hu
  obtain ⟨s', hs1, hs2⟩ := getPoint_eq hv' (u := u) (by rw [hfirst]; exact hu)
  have hmono' := hv'.mono
  have hNN : c'.controlPoints.length + c'.degree = c.controlPoints.length + c.degree + 1 := by
    rw [hins.len, hins.degree]; omega
  rw [hNN] at hs1 hmono'
  have hkf' : knot c'.knots = insertFn (knot c.knots) r x := funext hkf
  rw [hkf'] at hs1 hmono'
  have hcont : Contains (knot c.knots) (c.controlPoints.length + c.degree) (oldSpan r s') u :=
    Contains.refine hv.mono (by omega) hr3
      (fun h => le_of_lt (hr4 (r + 1) (by omega) (by omega))) hx' hs1
  rw [hs2, getPoint_of_contains hv hcont, hins.pieceSum hl hpr hr1 (hs1.spanAt hmono') u]

/-! ### Knot vectors cut at a value -/

/-- The knots below, equal to, and above `t`. -/
structure CutAt (l A B : List K) (i : Nat) (t : K) : Prop where
  eq : l = A ++ (List.replicate i t ++ B)
  lo : ∀ a ∈ A, a < t
  hi : ∀ b ∈ B, t < b

theorem CutAt.length {l A B : List K} {i : Nat} {t : K} (h : CutAt l A B i t) :
    l.length = A.length + i + B.length := by
  rw [h.eq]; simp; omega

theorem CutAt.le_iff {l A B : List K} {i : Nat} {t : K} (h : CutAt l A B i t) {j : Nat} (hj : j < l.length) :
    knot l j ≤ t ↔ j < A.length + i := by
  have hl := h.length
  rw [← knot_getElem hj]
  constructor
  · intro hle
    by_contra hc
    have : l[j] = B[j - A.length - i]'(by omega) := by
      have e := h.eq
      subst e
      rw [List.getElem_append_right (by omega), List.getElem_append_right (by simp; omega)]
      simp
    rw [this] at hle
    exact absurd (lt_of_lt_of_le (h.hi _ (List.getElem_mem _)) hle) (lt_irrefl _)
  · intro hlt
    have e := h.eq
    subst e
    rcases Nat.lt_or_ge j A.length with h1 | h1
    · rw [List.getElem_append_left h1]; exact le_of_lt (h.lo _ (List.getElem_mem _))
    · rw [List.getElem_append_right h1, List.getElem_append_left (by simp; omega)]
      simp

theorem CutAt.lt_iff {l A B : List K} {i : Nat} {t : K} (h : CutAt l A B i t) {j : Nat} (hj : j < l.length) :
    knot l j < t ↔ j < A.length := by
  have hl := h.length
  rw [← knot_getElem hj]
  have e := h.eq
  subst e
  rcases Nat.lt_or_ge j A.length with h1 | h1
  · rw [List.getElem_append_left h1]; simp only [h1, iff_true]; exact h.lo _ (List.getElem_mem _)
  · rw [List.getElem_append_right h1]
    constructor
    · intro hlt
      exfalso
      rcases Nat.lt_or_ge (j - A.length) i with h2 | h2
      · rw [List.getElem_append_left (by simpa using h2)] at hlt
        simp at hlt
      · rw [List.getElem_append_right (by simpa using h2)] at hlt
        exact absurd (lt_trans hlt (h.hi _ (List.getElem_mem _))) (lt_irrefl _)
    · intro; omega

theorem CutAt.rposition {l A B : List K} {i : Nat} {t : K} (h : CutAt l A B i t) (hp : 0 < A.length + i) :
    rposition (fun x => decide (x ≤ t)) l = some (A.length + i - 1) := by
  have hl := h.length
  apply rposition_eq (by omega)
  · rw [knot_getElem (by omega), decide_eq_true_eq, h.le_iff (by omega)]; omega
  · intro j hj hlt
    rw [knot_getElem hj, decide_eq_false_iff_not, h.le_iff hj]; omega

theorem CutAt.addKnot {l A B : List K} {i : Nat} {t : K} (h : CutAt l A B i t) (hp : 0 < A.length + i) :
    CutAt (KnotVector.addKnot l t).1 A B (i + 1) t := by
  unfold KnotVector.addKnot
  rw [h.rposition hp]
  simp only []
  refine ⟨?_, h.lo, h.hi⟩
  have hl := h.length
  rw [insertIdx_eq _ _ _ (by omega), Nat.sub_add_cancel hp, h.eq, List.take_append, List.drop_append,
    List.take_of_length_le (by omega), List.drop_of_length_le (l := A) (by omega),
    Nat.add_sub_cancel_left, List.take_append, List.drop_append, List.replicate_succ']
  simp

theorem CutAt.spanIndex {l A B : List K} {i : Nat} {t : K} (h : CutAt l A B i t) (hp : 0 < A.length + i)
    (hB : B ≠ []) : KnotVector.spanIndex l t = .ok (A.length + i - 1) := by
  have hl := h.length
  have hb : 0 < B.length := List.length_pos_iff.2 hB
  unfold KnotVector.spanIndex
  rw [h.rposition hp]
  simp only []
  rw [usub_ok (by omega)]
  simp only [ok_bind]
  rw [if_neg (by omega)]
  rfl

/-- Every sorted vector is cut by every value. -/
theorem Spec.Sorted.cutAt {l : List K} (hs : Sorted l) (t : K) :
    CutAt l (l.filter (fun x => decide (x < t))) (l.filter (fun x => decide (t < x)))
      (l.filter (fun x => decide (x = t))).length t := by
  refine ⟨?_, by simp, by simp⟩
  induction l with
  | nil => simp
  | cons a l ih =>
    have h' := List.pairwise_cons.1 hs
    specialize ih h'.2
    rcases lt_trichotomy a t with h | h | h
    · simp only [List.filter_cons, h, decide_true, if_true, ne_of_lt h, decide_false, lt_asymm h,
        Bool.false_eq_true, if_false]
      rw [List.cons_append, ← ih]
    · subst h
      have e : l.filter (fun x => decide (x < a)) = [] := by
        rw [List.filter_eq_nil_iff]
        intro y hy; simpa using h'.1 y hy
      rw [e] at ih
      simp only [List.nil_append] at ih
      simp only [List.filter_cons, lt_irrefl, decide_false, decide_true, if_true, Bool.false_eq_true, if_false,
        e, List.nil_append, List.length_cons, List.replicate_succ]
      rw [List.cons_append, ← ih]
    · have e1 : l.filter (fun x => decide (x < t)) = [] := by
        rw [List.filter_eq_nil_iff]
        intro y hy; simpa using le_of_lt (lt_of_lt_of_le h (h'.1 y hy))
      have e2 : l.filter (fun x => decide (x = t)) = [] := by
        rw [List.filter_eq_nil_iff]
        intro y hy; simpa using ne_of_gt (lt_of_lt_of_le h (h'.1 y hy))
      rw [e1, e2] at ih
      simp only [List.filter_cons, h, decide_true, if_true, ne_of_gt h, decide_false, lt_asymm h,
        Bool.false_eq_true, if_false, e1, e2]
      simpa using ih

theorem CutAt.unique {l A B A' B' : List K} {i i' : Nat} {t : K} (h : CutAt l A B i t)
    (h' : CutAt l A' B' i' t) : A = A' ∧ i = i' ∧ B = B' := by
  have f1 : ∀ {A B : List K} {i : Nat}, CutAt l A B i t → l.filter (fun x => decide (x < t)) = A := by
    intro A B i h
    rw [h.eq, List.filter_append, List.filter_append, List.filter_eq_self.2 (by simpa using h.lo),
      List.filter_eq_nil_iff.2 (by simp), List.filter_eq_nil_iff.2 (by
        intro b hb; simpa using le_of_lt (h.hi b hb))]
    simp
  have f2 : ∀ {A B : List K} {i : Nat}, CutAt l A B i t → l.filter (fun x => decide (t < x)) = B := by
    intro A B i h
    rw [h.eq, List.filter_append, List.filter_append, List.filter_eq_self (l := B) |>.2 (by simpa using h.hi),
      List.filter_eq_nil_iff.2 (by intro b hb; simpa using le_of_lt (h.lo b hb)),
      List.filter_eq_nil_iff.2 (by simp)]
    simp
  have a := (f1 h).symm.trans (f1 h')
  have b := (f2 h).symm.trans (f2 h')
  refine ⟨a, ?_, b⟩
  have := h.length
  have := h'.length
  subst a b
  omega

theorem CutAt.multiplicity {l A B : List K} {i : Nat} {t : K} (h : CutAt l A B i t) (hr : Resolved l) {j : Nat}
    (hj : j < l.length) (hjt : knot l j = t) : KnotVector.multiplicity l j = .ok i := by
  have hl := h.length
  have := multiplicity_eq hr (i := j) (a := A.length) (b := A.length + i) hj (by omega) (by
    intro j' hj'
    rw [hjt]
    constructor
    · intro e
      have h1 := (h.le_iff hj').1 (le_of_eq e)
      have h2 := mt (h.lt_iff hj').2 (by rw [e]; exact lt_irrefl _)
      omega
    · rintro ⟨h1, h2⟩
      have h3 := (h.le_iff hj').2 h2
      have h4 := mt (h.lt_iff hj').1 (by omega)
      exact le_antisymm h3 (not_lt.1 h4))
  rw [this]; congr 1; omega

theorem CutAt.knot_eq {l A B : List K} {i : Nat} {t : K} (h : CutAt l A B i t) {j : Nat}
    (h1 : A.length ≤ j) (h2 : j < A.length + i) : knot l j = t := by
  have hl := h.length
  have h3 := (h.le_iff (j := j) (by omega)).2 h2
  have h4 := mt (h.lt_iff (j := j) (by omega)).1 (by omega)
  exact le_antisymm h3 (not_lt.1 h4)

/-- Repeated insertion of one knot. -/
theorem addKnots_loop {c : BSplineCurve K P} (hv : c.Valid) {A B : List K} {i m : Nat} {t : K} (him : i ≤ m)
    (hcut : CutAt c.knots A B i t) (ht : knot c.knots c.degree ≤ t)
    (ht' : t ≤ knot c.knots (c.controlPoints.length + c.degree)) (hres : Resolved (t :: c.knots)) :
    ∃ c', forRange i m c (fun c _ => c.addKnot t) = .ok c' ∧ c'.Valid ∧ c'.degree = c.degree ∧
      CutAt c'.knots A B m t ∧ (∀ x ∈ c'.knots, x ∈ t :: c.knots) ∧
      c'.controlPoints.length = c.controlPoints.length + (m - i) ∧
      knot c'.knots 0 = knot c.knots 0 ∧
      ∀ u, knot c.knots 0 ≤ u → c'.getPoint u = c.getPoint u := by
  have hl := hv.len
  have hcl := hcut.length
  have hAi : c.degree < A.length + i := (hcut.le_iff (by omega)).1 ht
  obtain ⟨c', h1, h2⟩ := forRange_inv (a := i) (b := m) (s := c) (body := fun c _ => c.addKnot t)
    (fun j c' => c'.Valid ∧ c'.degree = c.degree ∧
      CutAt c'.knots A B j t ∧ (∀ x ∈ c'.knots, x ∈ t :: c.knots) ∧
      c'.controlPoints.length = c.controlPoints.length + (j - i) ∧
      knot c'.knots 0 = knot c.knots 0 ∧
      ∀ u, knot c.knots 0 ≤ u → c'.getPoint u = c.getPoint u) him
    ⟨hv, rfl, hcut, fun x hx => List.mem_cons_of_mem _ hx, by omega, rfl, fun _ _ => rfl⟩
    (by
      rintro j c₁ hj1 hj2 ⟨hv1, hd1, hc1, hm1, hn1, hk1, hg1⟩
      have hl1 := hv1.len
      have hcl1 := hc1.length
      have hle : knot c₁.knots c₁.degree ≤ t := by
        rw [hc1.le_iff (by omega), hd1]; omega
      have hge : t ≤ knot c₁.knots (c₁.controlPoints.length + c₁.degree) := by
        rw [hn1, hd1]
        by_cases hB : B.length = 0
        · refine le_of_eq (hc1.knot_eq ?_ ?_).symm
          · have : ¬ knot c.knots (c.controlPoints.length + c.degree) < t := not_lt.2 ht'
            rw [hcut.lt_iff (by omega)] at this
            omega
          · omega
        · have : ¬ (c₁.controlPoints.length + c₁.degree < A.length + j) := by omega
          rw [← hc1.le_iff (by omega), hn1, hd1] at this
          exact le_of_lt (not_le.1 this)
      obtain ⟨c₂, e1, e2, e3, e4, e5, e6, e7⟩ := addKnot_valid hv1 hle hge (hres.mono (by
        intro y hy
        rcases List.mem_cons.1 hy with rfl | hy
        · simp
        · exact hm1 y hy))
      refine ⟨c₂, e1, e2, by rw [e3, hd1], ?_, ?_, by rw [e5, hn1]; omega, by rw [e6, hk1], ?_⟩
      · rw [e4]; exact hc1.addKnot (by omega)
      · intro y hy
        rw [e4] at hy
        rcases List.mem_cons.1 ((addKnot_perm _ _).subset hy) with rfl | hy
        · simp
        · exact hm1 y hy
      · intro u hu
        rw [e7 u (by rw [hk1]; exact hu), hg1 u hu])
  exact ⟨c', h1, h2⟩

end curve

end Geom3d
