import Verif.Props.TotalPositive
import Verif.Props.PathLength

/-!
# Polylines along a rational curve are no longer than its control polygon (C145)

C117 is about polynomial curves. In homogeneous coordinates lengths mean nothing, but cutting corners of homogeneous points with
positive weights cuts corners of the projected points.
-/

set_option linter.unusedSectionVars false

namespace Geom3d
open Spec Finset

section
variable {K P : Type} [Field K] [LinearOrder K] [IsStrictOrderedRing K] [AddCommGroup P] [Module K P]

/-- The length of the polyline through the first `n + 1` coefficients. -/
def pathSum (ν : P → K) (a : Nat → P) (n : Nat) : K := ∑ i ∈ range n, ν (a (i + 1) - a i)

theorem pathLength_eq (ν : P → K) : ∀ l : List P, pathLength ν l = pathSum ν (fun i => l.getD i 0) (l.length - 1)
  | [] => rfl
  | [_] => rfl
  | a :: b :: l => by
    rw [pathLength, pathLength_eq ν (b :: l)]
    unfold pathSum
    rw [show (a :: b :: l).length - 1 = (b :: l).length - 1 + 1 by simp, Finset.sum_range_succ', add_comm]
    rfl

theorem Spec.Measures.at_zero {ν : P → K} (h : Measures ν) : ν 0 = 0 := by
  have := h.smul 0 0 (le_refl _)
  rwa [zero_smul, zero_mul] at this

/-- Cutting corners does not lengthen a polyline. -/
theorem pathSum_cut {ν : P → K} (h : Measures ν) {β : Nat → K} (hβ : ∀ j, 0 ≤ β j ∧ β j ≤ 1) {N : Nat} (h0 : β (N + 1) = 0)
    (a : Nat → P) : pathSum ν (cutBy β a) (N + 1) ≤ pathSum ν a N := by
  have step : ∀ j, ν (cutBy β a (j + 1) - cutBy β a j) ≤ β (j + 1) * ν (a (j + 1) - a j) + (1 - β j) * ν (a j - a (j - 1)) := by
    intro j
    have e : cutBy β a (j + 1) - cutBy β a j = β (j + 1) • (a (j + 1) - a j) + (1 - β j) • (a j - a (j - 1)) := by
      unfold cutBy
      rw [Nat.add_sub_cancel]
      module
    rw [e]
    refine (h.add _ _).trans ?_
    rw [h.smul _ _ (hβ _).1, h.smul _ _ (sub_nonneg.2 (hβ _).2)]
  unfold pathSum
  refine (Finset.sum_le_sum fun j _ => step j).trans ?_
  rw [Finset.sum_add_distrib, Finset.sum_range_succ, h0, zero_mul, add_zero, Finset.sum_range_succ' (fun j => (1 - β j) * _)]
  rw [show a 0 - a (0 - 1) = 0 from sub_self _, h.at_zero, mul_zero, add_zero, ← Finset.sum_add_distrib]
  refine le_of_eq (Finset.sum_congr rfl fun j _ => ?_)
  rw [Nat.add_sub_cancel]
  ring

/-- A chord is no longer than the polyline between its ends. -/
theorem chord_le {ν : P → K} (h : Measures ν) (a : Nat → P) {p q : Nat} (hpq : p ≤ q) :
    ν (a q - a p) ≤ ∑ j ∈ Ico p q, ν (a (j + 1) - a j) := by
  induction q, hpq using Nat.le_induction with
  | base => rw [sub_self, h.at_zero, Finset.Ico_self, Finset.sum_empty]
  | succ q hq ih =>
    rw [Finset.sum_Ico_succ_top hq]
    have e : a (q + 1) - a p = (a q - a p) + (a (q + 1) - a q) := by abel
    rw [e]
    exact (h.add _ _).trans (add_le_add ih (le_refl _))

/-- A polyline through some of the coefficients, in order, is no longer than that through all. -/
theorem pathSum_skip {ν : P → K} (h : Measures ν) (a : Nat → P) {k : Nat → Nat} {m N : Nat} (hk : ∀ i, i < m → k i ≤ k (i + 1))
    (hN : k m ≤ N) : pathSum ν (fun i => a (k i)) m ≤ pathSum ν a N := by
  have key : ∀ n, n ≤ m → k 0 ≤ k n ∧ pathSum ν (fun i => a (k i)) n ≤ ∑ j ∈ Ico (k 0) (k n), ν (a (j + 1) - a j) := by
    intro n
    induction n with
    | zero => intro _; simp [pathSum]
    | succ n ih =>
      intro hn
      obtain ⟨i1, i2⟩ := ih (by omega)
      have i3 := hk n (by omega)
      refine ⟨i1.trans i3, ?_⟩
      rw [← Finset.sum_Ico_consecutive _ i1 i3]
      unfold pathSum at i2 ⊢
      rw [Finset.sum_range_succ]
      exact add_le_add i2 (chord_le h a i3)
  refine (key m (le_refl _)).2.trans (Finset.sum_le_sum_of_subset_of_nonneg (fun j hj => ?_) fun j _ _ => h.nonneg _)
  rw [Finset.mem_Ico] at hj
  exact Finset.mem_range.2 (by omega)

theorem survives_length {ν : P → K} (h : Measures ν) (ℓ : K) : Survives (fun N (a : Nat → P) => 0 < N ∧ pathSum ν a (N - 1) ≤ ℓ) K := by
  intro N a β hβ h0 _ ⟨h1, h2⟩
  obtain ⟨n, rfl⟩ : ∃ n, N = n + 1 := ⟨N - 1, by omega⟩
  exact ⟨by omega, (pathSum_cut h hβ h0 a).trans h2⟩

theorem sizes_list {ν : P → K} {xs : List P} {f : Nat → P} (hf : ∀ i, i < xs.length → xs.getD i 0 = f i) :
    pathLength ν xs = pathSum ν f (xs.length - 1) := by
  rw [pathLength_eq]
  refine Finset.sum_congr rfl fun i hi => ?_
  rw [Finset.mem_range] at hi
  dsimp only
  rw [hf i (by omega), hf (i + 1) (by omega)]

end

section
variable {K P : Type} [Field K] [LinearOrder K] [IsStrictOrderedRing K] [Env K]
  [AddCommGroup P] [Module K P] [HMul K P P] [HMul P K P] [LawfulPoint K P]

/-- The points of a curve at increasing parameters are among the coefficients after cutting corners. -/
theorem points_refined {c : BSplineCurve K P} (hv : c.Valid) {us : List K} {xs : List P} (hus : us.Pairwise (· < ·))
    (hd : ∀ u ∈ us, InDomain c.knots c.controlPoints.length c.degree u)
    (hx : List.Forall₂ (fun u x => c.getPoint u = .ok x) us xs) {Φ : Nat → (Nat → P) → Prop} (hΦ : Survives Φ K)
    (h0 : Φ c.controlPoints.length (cp c.controlPoints)) :
    ∃ (N' : Nat) (a' : Nat → P) (k : Nat → Nat), Φ N' a' ∧ (∀ i, i + 1 < xs.length → k i ≤ k (i + 1)) ∧
      ∀ i, i < xs.length → k i < N' ∧ xs.getD i 0 = a' (k i) := by
  obtain ⟨hl, hx⟩ := List.forall₂_iff_get.1 hx
  have hw : ∀ i, i < xs.length → ∃ w, KnotVector.bsplineBasis c.knots c.degree (knot us i) = .ok w ∧
      xs.getD i 0 = ∑ j ∈ range c.controlPoints.length, w.getD j 0 • cp c.controlPoints j := by
    intro i hi
    have h1 := hx i (by omega) hi
    rw [List.get_eq_getElem, knot_getElem] at h1
    obtain ⟨w, w1, w2⟩ := curve_weights hv (by rw [← knot_getElem (by omega)]; exact hd _ (List.getElem_mem _)) h1
    refine ⟨w, w1, ?_⟩
    rw [← w2, List.get_eq_getElem, List.getD_eq_getElem]
  choose! w w1 w2 using hw
  obtain ⟨N', a', k, k1, k2, k3⟩ := basis_refined hv.knotsFor (m := xs.length) (u := fun i => knot us i) (w := w)
    (fun i hi => by
      rw [← knot_getElem (by omega), ← knot_getElem (by omega)]
      exact List.pairwise_iff_getElem.1 hus i (i + 1) (by omega) (by omega) (by omega))
    (fun i hi => by rw [← knot_getElem (by omega)]; exact hd _ (List.getElem_mem _)) w1 hΦ
    (a := cp c.controlPoints) (fun i hi => cp_of_le hi) h0
  exact ⟨N', a', k, k1, k2, fun i hi => ⟨(k3 i hi).1, by rw [w2 i hi, (k3 i hi).2]⟩⟩

theorem length_of_refined {Q : Type} [AddCommGroup Q] [Module K Q] {ν : Q → K} (h : Measures ν) {ℓ : K} {xs : List Q} {N' : Nat}
    {a' : Nat → Q} {k : Nat → Nat} (h1 : pathSum ν a' (N' - 1) ≤ ℓ) (hpos : 0 ≤ ℓ) (h2 : ∀ i, i + 1 < xs.length → k i ≤ k (i + 1))
    (h3 : ∀ i, i < xs.length → k i < N' ∧ xs.getD i 0 = a' (k i)) : pathLength ν xs ≤ ℓ := by
  rcases Nat.eq_zero_or_pos xs.length with hn | hn
  · obtain rfl := List.length_eq_zero_iff.1 hn
    exact hpos
  rw [sizes_list (f := fun i => a' (k i)) fun i hi => (h3 i hi).2]
  refine (pathSum_skip h a' (fun i hi => h2 i (by omega)) ?_).trans h1
  have := (h3 (xs.length - 1) (by omega)).1
  omega

theorem pathSum_nonneg {Q : Type} [AddCommGroup Q] [Module K Q] {ν : Q → K} (h : Measures ν) (a : Nat → Q) (n : Nat) :
    0 ≤ pathSum ν a n := Finset.sum_nonneg fun _ _ => h.nonneg _

end

section
variable {K : Type} [Field K] [LinearOrder K] [IsStrictOrderedRing K] [Env K]

theorem euclid_zero : euclid (0 : V4 K) = 0 := by
  rw [euclid_eq]
  show (1 / (0 : K)) • V4.truncL (0 : V4 K) = 0
  rw [map_zero, smul_zero]

/-- Cutting corners of homogeneous points with positive weights cuts corners of the projected points. -/
theorem survives_rational {Φ : Nat → (Nat → V3 K) → Prop} (hΦ : Survives Φ K) :
    Survives (fun N (a : Nat → V4 K) => 0 < N ∧ (∀ i, i < N → 0 < (a i).w) ∧ Φ N fun i => euclid (a i)) K := by
  intro N a β hβ h0 ha ⟨hN, hw, h1⟩
  have wcut : ∀ i, (cutBy β a i).w = β i * (a i).w + (1 - β i) * (a (i - 1)).w := fun i => rfl
  have pos : ∀ i, i < N + 1 → 0 < N → 0 < (cutBy β a i).w := by
    intro i hi hN
    rw [wcut]
    rcases Nat.lt_or_ge i N with h | h
    · have p1 := hw i h
      have p2 := hw (i - 1) (by omega)
      obtain ⟨b1, b2⟩ := hβ i
      rcases eq_or_lt_of_le b1 with b | b
      · rw [← b]; linarith
      · have := mul_pos b p1
        have := mul_nonneg (sub_nonneg.2 b2) p2.le
        linarith
    · obtain rfl : i = N := by omega
      rw [h0]
      have := hw (i - 1) (by omega)
      linarith
  let γ : Nat → K := fun i => if i < N then β i * (a i).w / (cutBy β a i).w else 0
  have hγ : (fun i => euclid (cutBy β a i)) = cutBy γ fun i => euclid (a i) := by
    funext i
    rcases Nat.lt_or_ge i N with h | h
    · have p0 := pos i (by omega) (by omega)
      have p1 := hw i h
      have p2 := hw (i - 1) (by omega)
      have e : 1 - γ i = (1 - β i) * (a (i - 1)).w / (cutBy β a i).w := by
        show 1 - (if i < N then _ else 0) = _
        rw [if_pos h, eq_div_iff p0.ne', sub_mul, div_mul_cancel₀ _ p0.ne', wcut]
        ring
      show euclid _ = γ i • euclid (a i) + (1 - γ i) • euclid (a (i - 1))
      rw [e]
      show euclid _ = (if i < N then _ else 0 : K) • _ + _
      rw [if_pos h, euclid_eq, euclid_eq, euclid_eq]
      have e2 : V4.truncL (cutBy β a i) = β i • V4.truncL (a i) + (1 - β i) • V4.truncL (a (i - 1)) := by
        unfold cutBy
        rw [map_add, map_smul, map_smul]
      rw [e2, smul_add, smul_smul, smul_smul, smul_smul, smul_smul]
      congr 2
      · field_simp
      · field_simp
    · show _ = (if i < N then _ else 0 : K) • euclid (a i) + (1 - (if i < N then _ else 0 : K)) • euclid (a (i - 1))
      rw [if_neg (by omega), zero_smul, sub_zero, one_smul, zero_add]
      unfold cutBy
      rw [ha i h, smul_zero, zero_add]
      rcases Nat.lt_or_eq_of_le h with h' | h'
      · rw [ha (i - 1) (by omega), smul_zero]
      · rw [← h', h0, sub_zero, one_smul]
  refine ⟨by omega, fun i hi => pos i hi hN, ?_⟩
  · rw [hγ]
    refine hΦ N _ γ (fun i => ?_) (if_neg (lt_irrefl _)) (fun i hi => by rw [ha i hi, euclid_zero]) h1
    show 0 ≤ (if i < N then _ else 0 : K) ∧ (if i < N then _ else 0 : K) ≤ 1
    split
    · rename_i h
      have p0 := pos i (by omega) (by omega)
      have p1 := hw i h
      have p2 := hw (i - 1) (by omega)
      obtain ⟨b1, b2⟩ := hβ i
      refine ⟨div_nonneg (mul_nonneg b1 p1.le) p0.le, ?_⟩
      rw [div_le_one p0, wcut]
      have := mul_nonneg (sub_nonneg.2 b2) p2.le
      linarith
    · exact ⟨le_refl _, zero_le_one⟩

/-- **C145** Rational curves with positive weights: no longer than the polygon of the projected control points. -/
theorem C145_rational {c : BSplineCurve K (V4 K)} (hv : c.Valid) (hw : ∀ p ∈ c.controlPoints, 0 < p.w) {ν : V3 K → K}
    (hν : Measures ν) {us : List K} {xs : List (V3 K)} (hus : us.Pairwise (· < ·))
    (hd : ∀ u ∈ us, InDomain c.knots c.controlPoints.length c.degree u)
    (hx : List.Forall₂ (fun u x => c.getPointRational u = .ok x) us xs) :
    pathLength ν xs ≤ pathLength ν (c.controlPoints.map euclid) := by
  obtain ⟨hs, g1, rfl⟩ : ∃ hs : List (V4 K), List.Forall₂ (fun u h => c.getPoint u = .ok h) us hs ∧ xs = hs.map euclid := by
    clear hus
    induction hx with
    | nil => exact ⟨[], .nil, rfl⟩
    | cons h _ ih =>
      obtain ⟨hs, g1, rfl⟩ := ih fun u hu => hd u (List.mem_cons_of_mem _ hu)
      obtain ⟨q, q1, -, q2⟩ := rational_lift hv hw (hd _ List.mem_cons_self) h
      exact ⟨q :: hs, .cons q1 g1, by rw [q2]; rfl⟩
  have hmap : ∀ (l : List (V4 K)) i, i < l.length → (l.map euclid).getD i 0 = euclid (l.getD i 0) := by
    intro l i hi
    rw [List.getD_eq_getElem _ _ (by simpa using hi), List.getD_eq_getElem _ _ hi, List.getElem_map]
  have h0 := sizes_list (ν := ν) (xs := c.controlPoints.map euclid) (f := fun i => euclid (cp c.controlPoints i))
    fun i hi => hmap _ i (by simpa using hi)
  rw [List.length_map] at h0
  rw [h0]
  obtain ⟨N', a', k, k1, k2, k3⟩ := points_refined hv hus hd g1 (survives_rational (survives_length hν _)) ⟨hv.pts, fun i hi => by
    rw [← cp_getElem hi]; exact hw _ (List.getElem_mem _), hv.pts, le_refl _⟩
  refine length_of_refined hν k1.2.2.2 (pathSum_nonneg hν _ _) (by simpa using k2) fun i hi => ?_
  rw [List.length_map] at hi
  rw [hmap _ i hi, (k3 i hi).2]
  exact ⟨(k3 i hi).1, rfl⟩

/-- Rational Bézier curves with positive weights. -/
theorem C145_bezier {c : BezierCurve (V4 K)} (hn : c.controlPoints ≠ []) (hw : ∀ p ∈ c.controlPoints, 0 < p.w) {ν : V3 K → K}
    (hν : Measures ν) {us : List K} {xs : List (V3 K)} (hus : us.Pairwise (· < ·)) (hd : ∀ u ∈ us, 0 ≤ u ∧ u ≤ 1)
    (hx : List.Forall₂ (fun u x => c.getPointRational u = .ok x) us xs) :
    pathLength ν xs ≤ pathLength ν (c.controlPoints.map euclid) := by
  let : Env K := exactCompare
  have h0 : 0 < c.controlPoints.length := List.length_pos_iff.2 hn
  obtain ⟨p, hp⟩ : ∃ p, c.controlPoints.length = p + 1 := ⟨c.controlPoints.length - 1, by omega⟩
  have hres : Resolved (KnotVector.bezierKnot p : List K) :=
    ⟨fun a _ b _ => decide_eq_true_iff, fun a _ b _ => decide_eq_true_iff.trans sub_eq_zero⟩
  have hk : ∀ i, i ≤ 2 * p + 1 → knot (KnotVector.bezierKnot p : List K) i = if i ≤ p then 0 else 1 := knot_bezier p
  have hv : (BSplineCurve.mk c.controlPoints (KnotVector.bezierKnot p : List K) p).Valid :=
    ⟨by rw [bezierKnot_length]; show 2 * p + 2 = c.controlPoints.length + p + 1; omega, bezierKnot_sorted p, hres, by
      show knot _ 0 < knot _ (c.controlPoints.length + p)
      rw [hk _ (by omega), hk _ (by omega), if_pos (by omega), if_neg (by omega)]; exact zero_lt_one, h0⟩
  refine C145_rational hv hw hν hus (fun u hu => ?_) ?_
  · obtain ⟨h1, h2⟩ := hd u hu
    show knot _ p ≤ u ∧ (u < knot _ c.controlPoints.length ∨ u = knot _ c.controlPoints.length ∧
      knot _ c.controlPoints.length = knot _ (c.controlPoints.length + p) ∧
        knot _ (c.controlPoints.length - 1) < knot _ c.controlPoints.length)
    rw [hk _ (by omega), hk _ (by omega), hk _ (by omega), hk _ (by omega), if_pos (by omega), if_neg (by omega),
      if_neg (by omega), if_pos (by omega)]
    refine ⟨h1, ?_⟩
    rcases lt_or_eq_of_le h2 with h | h
    · exact Or.inl h
    · exact Or.inr ⟨h, rfl, zero_lt_one⟩
  · clear hus
    induction hx with
    | nil => exact .nil
    | @cons u x us xs h _ ih =>
      refine .cons ?_ (ih fun u hu => hd u (List.mem_cons_of_mem _ hu))
      rw [← h]
      have e : (BSplineCurve.mk c.controlPoints (KnotVector.bezierKnot p : List K) p).getPoint u = c.getPoint u := by
        unfold BSplineCurve.getPoint BezierCurve.getPoint
        show (KnotVector.bsplineBasis (KnotVector.bezierKnot p) p u >>= _) = _
        rw [C06_bezierKnot_bernstein p hres (hd u List.mem_cons_self).1, hp]
      unfold BSplineCurve.getPointRational BezierCurve.getPointRational
      rw [e]

end

/-- The polylines inscribed in the quarter of the unit circle with the weights `1, 1, 2` have at most the length two. -/
theorem C145_example {us : List ℝ} {xs : List (V3 ℝ)} (hus : us.Pairwise (· < ·)) (hd : ∀ u ∈ us, 0 ≤ u ∧ u ≤ 1)
    (hx : List.Forall₂ (fun u x => (BezierCurve.mk [⟨1, 0, 0, 1⟩, ⟨1, 1, 0, 1⟩, (⟨0, 2, 0, 2⟩ : V4 ℝ)]).getPointRational u = .ok x)
      us xs) : pathLength V3.length xs ≤ 2 := by
  refine (C145_bezier (by simp) (by simp) length_measures hus hd hx).trans (le_of_eq ?_)
  have a : ∀ x y z : ℝ, ∀ e, (⟨x, y, z⟩ : V3 ℝ) = e → x ^ 2 + y ^ 2 + z ^ 2 = 1 → e.length = 1 := by
    intro x y z e he h
    rw [← he, V3.length_eq, Real.sqrt_eq_one]
    exact (by ring : x * x + y * y + z * z = _).trans h
  show V3.length _ + (V3.length _ + 0) = 2
  rw [a 0 1 0 _ (by simp [V3.ext_iff, euclid]) (by norm_num), a (-1) 0 0 _ (by simp [V3.ext_iff, euclid]) (by norm_num)]
  norm_num

end Geom3d
