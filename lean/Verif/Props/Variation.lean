import Verif.Lemmas.Variation
import Verif.Props.Natural
import Mathlib.Data.List.NodupEquivFin

/-!
# C112: no plane is crossed more often by a curve than by its control polygon

A plane is given by a linear function `L` and a level `d`.  Whenever a curve is alternately on the two sides of the plane at
increasing parameters, there are as many control points, in order, on the same sides.
-/

set_option linter.unusedSectionVars false

namespace Geom3d
open Spec

/-- Non-zero numbers of alternating signs. -/
def Spec.Alternate {K : Type} [Mul K] [Zero K] [LT K] (l : List K) : Prop :=
  (∀ a ∈ l, a ≠ 0) ∧ l.IsChain fun a b => a * b < 0

/-- The parameters of the domain of a B-spline curve: up to knot `N`, including it if the curve is clamped there. -/
def Spec.InDomain {K : Type} [Zero K] [LT K] [LE K] (knots : List K) (N p : Nat) (u : K) : Prop :=
  knot knots p ≤ u ∧ (u < knot knots N ∨ u = knot knots N ∧ knot knots N = knot knots (N + p) ∧ knot knots (N - 1) < knot knots N)

section
variable {K P : Type} [Field K] [LinearOrder K] [IsStrictOrderedRing K] [Env K]
  [AddCommGroup P] [Module K P] [HMul K P P] [HMul P K P] [LawfulPoint K P]

theorem exists_span_step {t : Nat → K} {a b : Nat} (hab : a ≤ b) {u : K} (h1 : t a ≤ u) (h2 : u < t b) :
    ∃ s, a ≤ s ∧ s < b ∧ t s ≤ u ∧ u < t (s + 1) := by
  induction b, hab using Nat.le_induction with
  | base => exact absurd h1 (not_le.2 h2)
  | succ n hn ih =>
    by_cases h : u < t n
    · obtain ⟨s, a1, a2, a3, a4⟩ := ih h
      exact ⟨s, a1, by omega, a3, a4⟩
    · exact ⟨n, hn, by omega, not_lt.1 h, h2⟩

theorem curve_signs {c : BSplineCurve K P} (hv : c.Valid) (L : P →ₗ[K] K) (d : K) {m : Nat} {u : Nat → K} {x : Nat → P}
    (hu : ∀ i, i + 1 < m → u i < u (i + 1))
    (hd : ∀ i, i < m → knot c.knots c.degree ≤ u i ∧ u i < knot c.knots c.controlPoints.length)
    (hx : ∀ i, i < m → c.getPoint (u i) = .ok (x i)) (hne : ∀ i, i < m → L (x i) - d ≠ 0)
    (ha : ∀ i, i + 1 < m → (L (x i) - d) * (L (x (i + 1)) - d) < 0) :
    ∃ k : Nat → Nat, (∀ i, i + 1 < m → k i < k (i + 1)) ∧
      ∀ i, i < m → k i < c.controlPoints.length ∧ 0 < (L (x i) - d) * (L (cp c.controlPoints (k i)) - d) := by
  rcases Nat.eq_zero_or_pos m with rfl | hm
  · exact ⟨id, by intro i hi; omega, by intro i hi; omega⟩
  have hpN : c.degree ≤ c.controlPoints.length := by
    by_contra hc
    have h1 := hd 0 hm
    have h2 := hv.mono c.controlPoints.length c.degree (by omega) (by omega)
    linarith [h1.1, h1.2]
  have hspan : ∀ i, i < m → ∃ r, Has (knot c.knots) c.controlPoints.length c.degree 0 (u i) r := by
    intro i hi
    obtain ⟨s, a1, a2, a3, a4⟩ := exists_span_step hpN (hd i hi).1 (hd i hi).2
    exact ⟨s, a1, a2, a3, a4, fun j h1 h2 => by omega⟩
  choose! r hr using hspan
  let a : Nat → K := fun j => if j < c.controlPoints.length then L (cp c.controlPoints j) - d else 0
  have hval : ∀ i, i < m → L (x i) - d = ∑ j ∈ Finset.range c.controlPoints.length, piece (knot c.knots) (r i) c.degree j (u i) * a j := by
    intro i hi
    have g := hr i hi
    have hc : Contains (knot c.knots) (c.controlPoints.length + c.degree) (r i) (u i) :=
      ⟨by have := g.hi; omega, lt_of_le_of_lt g.left g.right, g.left, Or.inl g.right⟩
    have e := (getPoint_of_contains hv hc).symm.trans (hx i hi)
    injection e with e
    have hsum : ∑ j ∈ Finset.range c.controlPoints.length, piece (knot c.knots) (r i) c.degree j (u i) = 1 :=
      piece_sum ⟨hv.mono, hc.lt, hc.nonempty⟩ (u i) c.degree _ g.lo g.hi (by have := g.hi; omega)
    rw [← e]
    unfold BSplineCurve.pieceSum
    rw [map_sum]
    have : d = ∑ j ∈ Finset.range c.controlPoints.length, piece (knot c.knots) (r i) c.degree j (u i) * d := by
      rw [← Finset.sum_mul, hsum, one_mul]
    conv_lhs => rw [this]
    rw [← Finset.sum_sub_distrib]
    refine Finset.sum_congr rfl fun j hj => ?_
    simp only [a]
    rw [if_pos (Finset.mem_range.1 hj), map_smul, smul_eq_mul]; ring
  obtain ⟨k, k1, k2⟩ := spline_signs (y := fun i => L (x i) - d) hu ha _ (t := knot c.knots) (a := a) (q := fun _ => 0) (r := r) hv.mono
    (fun i hi => if_neg (by omega)) (fun i hi => hr i hi) rfl (fun i hi => by
      rw [← hval i hi]
      exact mul_self_pos.2 (hne i hi))
  refine ⟨k, k1, fun i hi => ?_⟩
  have h := k2 i hi
  by_cases hk : k i < c.controlPoints.length
  · refine ⟨hk, ?_⟩
    simp only [a] at h
    rwa [if_pos hk] at h
  · simp only [a] at h
    rw [if_neg hk, mul_zero] at h
    exact absurd h (lt_irrefl _)

/-- Entries at increasing positions form a sublist. -/
theorem sublist_of_index {l : List P} {m : Nat} {k : Nat → Nat} (hk : ∀ i, i + 1 < m → k i < k (i + 1))
    (hl : ∀ i, i < m → k i < l.length) : ((List.range m).map fun i => cp l (k i)).Sublist l := by
  have hmono : ∀ i j, i < j → j < m → k i < k j := by
    intro i j hij
    induction j, hij using Nat.le_induction with
    | base => intro h; exact hk i h
    | succ n hn ih => intro h; exact (ih (by omega)).trans (hk n h)
  rw [List.sublist_iff_exists_fin_orderEmbedding_get_eq]
  refine ⟨OrderEmbedding.ofStrictMono (fun i => ⟨k i, hl i (by have := i.2; simpa using this)⟩) ?_, ?_⟩
  · intro i j hij
    exact hmono i j hij (by have := j.2; simpa using this)
  · intro i
    have := i.2
    simp only [List.length_map, List.length_range] at this
    simp only [List.get_eq_getElem, List.getElem_map, List.getElem_range, OrderEmbedding.coe_ofStrictMono]
    exact (cp_getElem (hl i this)).symm

/-- **C112**: B-spline curves. -/
theorem C112_bspline {c : BSplineCurve K P} (hv : c.Valid) (L : P →ₗ[K] K) (d : K) {us : List K} {xs : List P}
    (hus : us.Pairwise (· < ·)) (hd : ∀ u ∈ us, InDomain c.knots c.controlPoints.length c.degree u)
    (hx : List.Forall₂ (fun u x => c.getPoint u = .ok x) us xs) (ha : Alternate (xs.map fun x => L x - d)) :
    ∃ ps : List P, ps.Sublist c.controlPoints ∧ List.Forall₂ (fun x p => 0 < (L x - d) * (L p - d)) xs ps := by
  have hlen := hx.length_eq
  have hu : ∀ i j, i < j → j < us.length → knot us i < knot us j := by
    intro i j hij hj
    rw [← knot_getElem (by omega), ← knot_getElem hj]
    exact List.pairwise_iff_getElem.1 hus i j (by omega) hj hij
  have hdu : ∀ i, i < us.length → InDomain c.knots c.controlPoints.length c.degree (knot us i) := by
    intro i hi
    rw [← knot_getElem hi]
    exact hd _ (List.getElem_mem _)
  have hxu : ∀ i, i < us.length → c.getPoint (knot us i) = .ok (cp xs i) := by
    intro i hi
    rw [← knot_getElem hi, ← cp_getElem (by omega)]
    exact List.forall₂_iff_get.1 hx |>.2 i hi (by omega)
  have hne : ∀ i, i < us.length → L (cp xs i) - d ≠ 0 := by
    intro i hi
    exact ha.1 _ (List.mem_map.2 ⟨cp xs i, by rw [← cp_getElem (by omega)]; exact List.getElem_mem _, rfl⟩)
  have halt : ∀ i, i + 1 < us.length → (L (cp xs i) - d) * (L (cp xs (i + 1)) - d) < 0 := by
    intro i hi
    have := List.isChain_iff_getElem.1 ha.2 i (by simp; omega)
    rw [List.getElem_map, List.getElem_map, cp_getElem (by omega), cp_getElem (by omega)] at this
    exact this
  have fin : ∀ k : Nat → Nat, (∀ i, i + 1 < us.length → k i < k (i + 1)) →
      (∀ i, i < us.length → k i < c.controlPoints.length ∧ 0 < (L (cp xs i) - d) * (L (cp c.controlPoints (k i)) - d)) →
      ∃ ps : List P, ps.Sublist c.controlPoints ∧ List.Forall₂ (fun x p => 0 < (L x - d) * (L p - d)) xs ps := by
    intro k k1 k2
    refine ⟨_, sublist_of_index k1 fun i hi => (k2 i hi).1, ?_⟩
    rw [List.forall₂_iff_get]
    refine ⟨by simp [hlen], fun i h1 h2 => ?_⟩
    simp only [List.get_eq_getElem, List.getElem_map, List.getElem_range]
    rw [cp_getElem h1]
    exact (k2 i (by omega)).2
  by_cases hend : ∀ i, i < us.length → knot us i < knot c.knots c.controlPoints.length
  · obtain ⟨k, k1, k2⟩ := curve_signs hv L d (u := fun i => knot us i) (x := cp xs) (fun i hi => hu i (i + 1) (by omega) hi)
      (fun i hi => ⟨(hdu i hi).1, hend i hi⟩) hxu hne halt
    exact fin k k1 k2
  · push Not at hend
    obtain ⟨e, he, hge⟩ := hend
    obtain ⟨-, hlt | ⟨heq, hcl, hpr⟩⟩ := hdu e he
    · exact absurd hlt (not_lt.2 hge)
    have hle : ∀ i, i < us.length → knot us i ≤ knot c.knots c.controlPoints.length := by
      intro i hi
      rcases (hdu i hi).2 with h | h
      · exact h.le
      · exact h.1.le
    have hem : e + 1 = us.length := by
      by_contra hc
      have h1 := hu e (e + 1) (by omega) (by omega)
      have h2 := hle (e + 1) (by omega)
      linarith
    have hbelow : ∀ i, i < e → knot us i < knot c.knots c.controlPoints.length := fun i hi => by
      rw [← heq]; exact hu i e hi (by omega)
    obtain ⟨k, k1, k2⟩ := curve_signs hv L d (m := e) (u := fun i => knot us i) (x := cp xs)
      (fun i hi => hu i (i + 1) (by omega) (by omega)) (fun i hi => ⟨(hdu i (by omega)).1, hbelow i hi⟩)
      (fun i hi => hxu i (by omega)) (fun i hi => hne i (by omega)) (fun i hi => halt i (by omega))
    obtain ⟨q, rest, hq1, hq2⟩ := C13_end hv hcl hpr
    have hq3 : cp c.controlPoints (c.controlPoints.length - 1) = q := by
      rw [hq1]
      simp [cp]
    have hq4 : cp xs e = q := by
      have := hxu e he
      rw [heq, hcl, hq2] at this
      injection this with this
      exact this.symm
    have hpos := hv.pts
    have hlast : 0 < (L (cp xs e) - d) * (L (cp c.controlPoints (c.controlPoints.length - 1)) - d) := by
      rw [hq3, ← hq4]
      exact mul_self_pos.2 (hne e he)
    refine fin (fun i => if i < e then k i else c.controlPoints.length - 1) (fun i hi => ?_) (fun i hi => ?_)
    · rw [if_pos (by omega)]
      split
      · exact k1 i (by assumption)
      · rename_i hn
        obtain rfl : e = i + 1 := by omega
        obtain ⟨a1, a2⟩ := k2 i (by omega)
        have hne' : k i ≠ c.controlPoints.length - 1 := by
          intro e'
          rw [e', hq3, ← hq4] at a2
          exact absurd (halt i hi) (not_lt.2 a2.le)
        omega
    · split
      · exact k2 i (by assumption)
      · obtain rfl : i = e := by omega
        exact ⟨by omega, hlast⟩

/-- **C112**: along a direction in which the control points do not go back, the curve does not go back. -/
theorem C112_monotone {c : BSplineCurve K P} (hv : c.Valid) (L : P →ₗ[K] K)
    (hL : c.controlPoints.Pairwise fun p q => L p ≤ L q) {u v : K} (huv : u ≤ v)
    (hu : InDomain c.knots c.controlPoints.length c.degree u) (hv' : InDomain c.knots c.controlPoints.length c.degree v)
    {x y : P} (hx : c.getPoint u = .ok x) (hy : c.getPoint v = .ok y) : L x ≤ L y := by
  rcases eq_or_lt_of_le huv with rfl | huv
  · rw [hx] at hy
    injection hy with hy
    rw [hy]
  by_contra hc
  obtain ⟨d, d1, d2⟩ := exists_between (not_le.1 hc)
  obtain ⟨ps, h1, h2⟩ := C112_bspline hv L d (us := [u, v]) (xs := [x, y]) (by simpa using huv) (by simp [hu, hv'])
    (by simp [hx, hy]) (by
      constructor
      · simp only [List.map_cons, List.map_nil, List.mem_cons, List.not_mem_nil, or_false, forall_eq_or_imp, forall_eq]
        exact ⟨by linarith, by linarith⟩
      · simp only [List.map_cons, List.map_nil, List.isChain_cons_cons, List.isChain_singleton, and_true]
        nlinarith)
  obtain ⟨p, ps, a1, a2, rfl⟩ := List.forall₂_cons_left_iff.1 h2
  obtain ⟨q, ps, b1, b2, rfl⟩ := List.forall₂_cons_left_iff.1 a2
  have h3 := hL.sublist h1
  have h4 := (List.pairwise_cons.1 h3).1 q (by simp)
  have h5 : 0 < L p - d := by
    by_contra hc
    nlinarith
  have h6 : L q - d < 0 := by
    by_contra hc
    nlinarith
  linarith

end

section
variable {K P : Type} [Field K] [LinearOrder K] [IsStrictOrderedRing K]
  [AddCommGroup P] [Module K P] [HMul K P P] [HMul P K P] [LawfulPoint K P]

/-- Exact comparison, used to read a Bézier curve as a B-spline curve. -/
def exactCompare : Env K where
  tol := 0
  maxV := 0
  minV := 0
  minGrid := 0
  hundredth := 0
  halfSqrt3 := 0
  ulpsEq a b := decide (a = b)
  sqrt := id
  isNaN _ := false

/-- **C112**: Bézier curves on `[0, 1]`. -/
theorem C112_bezier (c : BezierCurve P) (L : P →ₗ[K] K) (d : K) {us : List K} {xs : List P} (hus : us.Pairwise (· < ·))
    (hd : ∀ u ∈ us, 0 ≤ u ∧ u ≤ 1) (hx : List.Forall₂ (fun u x => c.getPoint u = .ok x) us xs)
    (ha : Alternate (xs.map fun x => L x - d)) :
    ∃ ps : List P, ps.Sublist c.controlPoints ∧ List.Forall₂ (fun x p => 0 < (L x - d) * (L p - d)) xs ps := by
  rcases Nat.eq_zero_or_pos c.controlPoints.length with h0 | h0
  · cases hx with
    | nil => exact ⟨[], List.nil_sublist _, List.Forall₂.nil⟩
    | cons h _ =>
      unfold BezierCurve.getPoint at h
      rw [h0] at h
      cases h
  letI : Env K := exactCompare
  obtain ⟨p, hp⟩ : ∃ p, c.controlPoints.length = p + 1 := ⟨c.controlPoints.length - 1, by omega⟩
  have hres : Resolved (KnotVector.bezierKnot p : List K) :=
    ⟨fun a _ b _ => decide_eq_true_iff, fun a _ b _ => decide_eq_true_iff.trans sub_eq_zero⟩
  have hk : ∀ i, i ≤ 2 * p + 1 → knot (KnotVector.bezierKnot p : List K) i = if i ≤ p then 0 else 1 := knot_bezier p
  have hv : (BSplineCurve.mk c.controlPoints (KnotVector.bezierKnot p : List K) p).Valid :=
    ⟨by rw [bezierKnot_length]; show 2 * p + 2 = c.controlPoints.length + p + 1; omega, bezierKnot_sorted p, hres, by
      show knot _ 0 < knot _ (c.controlPoints.length + p)
      rw [hk _ (by omega), hk _ (by omega), if_pos (by omega), if_neg (by omega)]; exact zero_lt_one, h0⟩
  refine C112_bspline hv L d hus (fun u hu => ?_) ?_ ha
  · obtain ⟨h1, h2⟩ := hd u hu
    show knot _ p ≤ u ∧ (u < knot _ c.controlPoints.length ∨ u = knot _ c.controlPoints.length ∧
      knot _ c.controlPoints.length = knot _ (c.controlPoints.length + p) ∧
        knot _ (c.controlPoints.length - 1) < knot _ c.controlPoints.length)
    rw [hk _ (by omega), hk _ (by omega), hk _ (by omega), hk _ (by omega), if_pos (by omega), if_neg (by omega),
      if_neg (by omega), if_pos (by omega)]
    refine ⟨h1, ?_⟩
    rcases lt_or_eq_of_le h2 with h | h
    · exact Or.inl h
    · exact Or.inr ⟨h, rfl, zero_lt_one⟩
  · have key : ∀ u ∈ us, (BSplineCurve.mk c.controlPoints (KnotVector.bezierKnot p : List K) p).getPoint u = c.getPoint u := by
      intro u hu
      unfold BSplineCurve.getPoint BezierCurve.getPoint
      show (KnotVector.bsplineBasis (KnotVector.bezierKnot p) p u >>= _) = _
      rw [C06_bezierKnot_bernstein p hres (hd u hu).1, hp]
    rw [List.forall₂_iff_get] at hx ⊢
    refine ⟨hx.1, fun i h1 h2 => ?_⟩
    rw [key _ (List.get_mem _ _)]
    exact hx.2 i h1 h2

end

section
variable {K : Type} [Field K] [LinearOrder K] [IsStrictOrderedRing K] [Env K]

/-- The sides of a plane in homogeneous coordinates. -/
def sideOf (L : V3 K →ₗ[K] K) (d : K) : V4 K →ₗ[K] K where
  toFun p := L p.truncate - d * p.w
  map_add' a b := by
    rw [show (a + b).truncate = a.truncate + b.truncate from rfl, L.map_add, V4.add_w]; ring
  map_smul' a b := by
    rw [show (a • b).truncate = a • b.truncate from rfl, L.map_smul, show (a • b).w = a * b.w from rfl, smul_eq_mul,
      RingHom.id_apply, smul_eq_mul]; ring

theorem sideOf_euclid (L : V3 K →ₗ[K] K) (d : K) {h : V4 K} (hw : h.w ≠ 0) :
    sideOf L d h = h.w * (L (euclid h) - d) := by
  rw [euclid_eq, L.map_smul, smul_eq_mul, mul_sub, ← mul_assoc, mul_one_div_cancel hw, one_mul, mul_comm h.w d]
  rfl

theorem alternate_scale {l l' : List K} (h : List.Forall₂ (fun a b => ∃ w, 0 < w ∧ b = w * a) l l') (ha : Alternate l) :
    Alternate l' := by
  obtain ⟨h1, h2⟩ := List.forall₂_iff_get.1 h
  constructor
  · intro b hb
    obtain ⟨i, hi, rfl⟩ := List.getElem_of_mem hb
    obtain ⟨w, hw, e⟩ := h2 i (by omega) hi
    rw [List.get_eq_getElem, List.get_eq_getElem] at e
    rw [e]
    exact mul_ne_zero hw.ne' (ha.1 _ (List.getElem_mem _))
  · rw [List.isChain_iff_getElem]
    intro i hi
    obtain ⟨w, hw, e⟩ := h2 i (by omega) (by omega)
    obtain ⟨w', hw', e'⟩ := h2 (i + 1) (by omega) hi
    rw [List.get_eq_getElem, List.get_eq_getElem] at e e'
    rw [e, e']
    have := List.isChain_iff_getElem.1 ha.2 i (by omega)
    have h3 := mul_pos hw hw'
    have e3 : w * l[i] * (w' * l[i + 1]) = w * w' * (l[i] * l[i + 1]) := by ring
    rw [e3]
    exact mul_neg_of_pos_of_neg h3 this

/-- **C112**: rational B-spline curves with positive weights. -/
theorem C112_rational {c : BSplineCurve K (V4 K)} (hv : c.Valid) (hw : ∀ p ∈ c.controlPoints, 0 < p.w) (L : V3 K →ₗ[K] K) (d : K)
    {us : List K} {xs : List (V3 K)} (hus : us.Pairwise (· < ·))
    (hd : ∀ u ∈ us, InDomain c.knots c.controlPoints.length c.degree u)
    (hx : List.Forall₂ (fun u x => c.getPointRational u = .ok x) us xs) (ha : Alternate (xs.map fun x => L x - d)) :
    ∃ ps : List (V4 K), ps.Sublist c.controlPoints ∧ List.Forall₂ (fun x p => 0 < (L x - d) * (L (euclid p) - d)) xs ps := by
  have key : ∀ u ∈ us, ∀ x, c.getPointRational u = .ok x → ∃ h, c.getPoint u = .ok h ∧ 0 < h.w ∧ x = euclid h := by
    intro u hu x hux
    have rat : ∀ h, c.getPoint u = .ok h → x = euclid h := by
      intro h hh
      unfold BSplineCurve.getPointRational at hux
      rw [hh] at hux
      injection hux with hux
      rw [← hux, rational_eq]
    obtain ⟨h1, h2 | ⟨h2, h3, h4⟩⟩ := hd u hu
    · have hpN : c.degree ≤ c.controlPoints.length := by
        by_contra hc
        have := hv.mono c.controlPoints.length c.degree (by omega) (by omega)
        linarith
      obtain ⟨s, a1, a2, a3, a4⟩ := exists_span_step hpN h1 h2
      obtain ⟨h, h1, h2, -⟩ := C19_bspline hv hw ⟨a1, a2, lt_of_le_of_lt a3 a4, a3, Or.inl a4⟩
      exact ⟨h, h1, h2, rat h h1⟩
    · obtain ⟨q, rest, q1, q2⟩ := C13_end hv h3 h4
      rw [← h3, ← h2] at q2
      exact ⟨q, q2, hw q (by rw [q1]; simp), rat q q2⟩
  obtain ⟨hs, g1, g2⟩ : ∃ hs : List (V4 K), List.Forall₂ (fun u h => c.getPoint u = .ok h) us hs ∧
      List.Forall₂ (fun x h => 0 < h.w ∧ x = euclid h) xs hs := by
    clear hus hd ha
    induction hx with
    | nil => exact ⟨[], .nil, .nil⟩
    | cons h _ ih =>
      obtain ⟨hs, g1, g2⟩ := ih fun u hu => key u (List.mem_cons_of_mem _ hu)
      obtain ⟨q, q1, q2⟩ := key _ (List.mem_cons_self) _ h
      exact ⟨q :: hs, .cons q1 g1, .cons q2 g2⟩
  obtain ⟨l1, l2⟩ := List.forall₂_iff_get.1 g2
  have galt : Alternate (hs.map fun h => sideOf L d h - 0) := by
    refine alternate_scale (List.forall₂_iff_get.2 ⟨by simp [l1], fun i h1 h2 => ?_⟩) ha
    simp only [List.length_map] at h1 h2
    obtain ⟨w1, w2⟩ := l2 i h1 h2
    refine ⟨_, w1, ?_⟩
    simp only [List.get_eq_getElem, List.getElem_map, sub_zero] at w1 w2 ⊢
    rw [sideOf_euclid L d w1.ne', ← w2]
  obtain ⟨ps, p1, p2⟩ := C112_bspline hv (sideOf L d) 0 hus hd g1 galt
  refine ⟨ps, p1, ?_⟩
  obtain ⟨m1, m2⟩ := List.forall₂_iff_get.1 p2
  refine List.forall₂_iff_get.2 ⟨l1.trans m1, fun i h1 h2 => ?_⟩
  obtain ⟨w1, w2⟩ := l2 i h1 (by omega)
  have hp := hw _ (p1.subset (List.get_mem ps ⟨i, h2⟩))
  have h3 := m2 i (by omega) h2
  rw [sub_zero, sub_zero, sideOf_euclid L d w1.ne', ← w2, sideOf_euclid L d hp.ne'] at h3
  by_contra hc
  have e3 : ∀ a b e f : K, a * b * (e * f) = (a * e) * (b * f) := fun a b e f => by ring
  rw [e3] at h3
  exact absurd h3 (not_lt.2 (mul_nonpos_of_nonneg_of_nonpos (mul_pos w1 hp).le (not_lt.1 hc)))

end

/-- The hypotheses on a cubic that crosses the line `y = 0` three times, as its control polygon does. -/
theorem C112_example : ∃ ps : List (V3 ℚ), ps.Sublist [⟨0, 1, 0⟩, ⟨1, -3, 0⟩, ⟨2, 3, 0⟩, ⟨3, -1, 0⟩] ∧
    List.Forall₂ (fun x p => 0 < (x : V3 ℚ).y * p.y) [⟨0, 1, 0⟩, ⟨3 / 4, -7 / 16, 0⟩, ⟨9 / 4, 7 / 16, 0⟩, ⟨3, -1, 0⟩] ps := by
  obtain ⟨ps, h1, h2⟩ := C112_bezier (K := ℚ) ⟨[⟨0, 1, 0⟩, ⟨1, -3, 0⟩, ⟨2, 3, 0⟩, (⟨3, -1, 0⟩ : V3 ℚ)]⟩
    { toFun := fun p => p.y, map_add' := fun _ _ => rfl, map_smul' := fun _ _ => rfl } 0 (us := [0, 1 / 4, 3 / 4, 1])
    (xs := [⟨0, 1, 0⟩, ⟨3 / 4, -7 / 16, 0⟩, ⟨9 / 4, 7 / 16, 0⟩, ⟨3, -1, 0⟩]) (by decide +kernel) (by decide +kernel)
    (.cons (by decide +kernel) (.cons (by decide +kernel) (.cons (by decide +kernel) (.cons (by decide +kernel) .nil))))
    (by constructor <;> simp <;> norm_num)
  exact ⟨ps, h1, h2.imp fun x p h => by simpa using h⟩

end Geom3d
