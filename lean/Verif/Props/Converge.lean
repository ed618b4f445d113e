import Verif.Props.Unique
import Verif.Props.Refine
import Verif.Lemmas.Smooth
import Verif.Props.Variation
import Verif.Props.CurveLength
import Mathlib.Algebra.BigOperators.Field
import Mathlib.Tactic.IntervalCases

/-!
# Control polygons converge to the curve when knots are inserted (C158)

Inserting a knot and taking the derivative commute, so knot insertion does not enlarge the control points of the second
derivative.  With them bounded, the control points are within a multiple of the square of the longest span of the curve.
-/

namespace Geom3d
open Spec

/-- Clamped knots: `p + 1` at each end, and no inner knot of a multiplicity above `m`. -/
structure Spec.ClampedKnots (knots : List ℝ) (N p m : Nat) : Prop where
  first : knot knots 0 = knot knots p
  last : knot knots N = knot knots (N + p)
  firstOnly : knots.count (knot knots 0) ≤ p + 1
  lastOnly : knots.count (knot knots (N + p)) ≤ p + 1
  inner : ∀ x, knot knots 0 < x → x < knot knots (N + p) → knots.count x ≤ m

namespace Converge

/-- The knots of the derivative are all but the first and the last. -/
theorem shrink_split {l : List ℝ} (h : 2 ≤ l.length) :
    l = knot l 0 :: ((l.take (l.length - 1)).drop 1 ++ [knot l (l.length - 1)]) := by
  refine List.ext_getElem (by simp; omega) fun i h1 h2 => ?_
  rw [knot_getElem]
  rcases Nat.eq_zero_or_pos i with rfl | hi
  · rfl
  · obtain ⟨j, rfl⟩ : ∃ j, i = j + 1 := ⟨i - 1, by omega⟩
    rw [List.getElem_cons_succ]
    by_cases hj : j < l.length - 2
    · rw [List.getElem_append_left (by simp; omega), List.getElem_drop, List.getElem_take, knot_getElem, Nat.add_comm]
    · rw [List.getElem_append_right (by simp; omega)]
      simp only [List.getElem_singleton]
      congr 1
      omega

section
variable {P : Type} [AddCommGroup P] [Module ℝ P] [HMul ℝ P P] [HMul P ℝ P] [LawfulPoint ℝ P]

/-- What is needed of the derivative of a clamped curve. -/
theorem derivative_clamped {c : BSplineCurve ℝ P} (hv : c.Valid) (hp : 1 ≤ c.degree) {m : Nat}
    (hk : ClampedKnots c.knots c.controlPoints.length c.degree m) :
    ∃ d, c.derivative = .ok d ∧ d.Valid ∧ d.degree + 1 = c.degree ∧ d.controlPoints.length + 1 = c.controlPoints.length ∧
      c.knots = knot c.knots 0 :: (d.knots ++ [knot c.knots (c.controlPoints.length + c.degree)]) ∧
      (∀ j, j < c.controlPoints.length + c.degree - 1 → knot d.knots j = knot c.knots (j + 1)) ∧
      ClampedKnots d.knots d.controlPoints.length d.degree m ∧
      knot d.knots 0 = knot c.knots 0 ∧
      knot d.knots (d.controlPoints.length + d.degree) = knot c.knots (c.controlPoints.length + c.degree) ∧
      ∀ i, i < c.controlPoints.length - 1 → cp d.controlPoints i =
        ((c.degree : ℝ) / (knot c.knots (i + c.degree + 1) - knot c.knots (i + 1))) •
          (cp c.controlPoints (i + 1) - cp c.controlPoints i) := by
  have hl := hv.len
  have hN := hv.pts
  have hne := hv.nonconst
  have hm := hv.mono
  have hf := hk.first
  have hla := hk.last
  have k1 : knot c.knots 1 = knot c.knots 0 :=
    le_antisymm (by rw [hf]; exact hm _ _ hp (by omega)) (hm _ _ (by omega) (by omega))
  have kN : knot c.knots (c.controlPoints.length + c.degree - 1) = knot c.knots (c.controlPoints.length + c.degree) :=
    le_antisymm (hm _ _ (by omega) (by omega)) (by rw [← hla]; exact hm _ _ (by omega) (by omega))
  have hN2 : 2 ≤ c.controlPoints.length := by
    by_contra hcon
    have h1 : c.controlPoints.length = 1 := by omega
    rw [h1] at hla hne
    rw [k1] at hla
    linarith
  obtain ⟨d, e1, e2, e3, e4, e5, e6, -⟩ := derivative_pieces hv hp hN2 (by rw [k1, kN]; exact hne)
  have ed := derivative_eq hl hp (by omega) hv.resolved
  rw [e1, Except.ok.injEq] at ed
  have hsp : c.knots = knot c.knots 0 :: (d.knots ++ [knot c.knots (c.controlPoints.length + c.degree)]) := by
    have := shrink_split (l := c.knots) (by omega)
    rw [show c.knots.length - 1 = c.controlPoints.length + c.degree by omega] at this
    have h2 : d.knots = (c.knots.take (c.controlPoints.length + c.degree)).drop 1 := by
      rw [ed]
      simp only
      rw [show c.knots.length - 1 = c.controlPoints.length + c.degree by omega]
    rw [h2]
    exact this
  have f0 : knot d.knots 0 = knot c.knots 0 := by rw [e5 0 (by omega), k1]
  have fN : knot d.knots (d.controlPoints.length + d.degree) = knot c.knots (c.controlPoints.length + c.degree) := by
    rw [e5 _ (by omega), ← kN]
    congr 1
    omega
  refine ⟨d, e1, e2, e3, e4, hsp, e5, ⟨?_, ?_, ?_, ?_, ?_⟩, f0, fN, ?_⟩
  · rw [f0, e5 _ (by omega), e3, hf]
  · rw [fN, e5 _ (by omega), e4, hla]
  · have := hk.firstOnly
    rw [congrArg (List.count (knot c.knots 0)) hsp, List.count_cons_self, List.count_append] at this
    rw [f0]
    omega
  · have := hk.lastOnly
    rw [fN]
    rw [congrArg (List.count (knot c.knots (c.controlPoints.length + c.degree))) hsp, List.count_cons, List.count_append,
      List.count_singleton_self] at this
    omega
  · intro x h1 h2
    rw [f0] at h1
    rw [fN] at h2
    exact (e6.count_le x).trans (hk.inner x h1 h2)
  · intro i hi
    rw [ed]
    simp only
    rw [← cp_getElem (by simpa using hi)]
    simp

/-- Off the knots the derivative curve is the derivative. -/
theorem derivative_at {c d : BSplineCurve ℝ P} (hv : c.Valid) (hp : 1 ≤ c.degree) (hd : c.derivative = .ok d) {u : ℝ}
    (h0 : knot c.knots c.degree ≤ u) (h1 : u < knot c.knots c.controlPoints.length) (hu : u ∉ c.knots) :
    ∃ x, d.getPoint u = .ok x ∧ ∀ f : P →ₗ[ℝ] ℝ, HasDerivAt (fun v => f (valOf (c.getPoint v))) (f x) u := by
  obtain ⟨d', e1, -, -, -, e5⟩ := C65_derivative hv hp
  rw [hd, Except.ok.injEq] at e1
  subst e1
  have hl := hv.len
  have hpN : c.degree ≤ c.controlPoints.length := by
    by_contra hcon
    have := hv.mono c.controlPoints.length c.degree (by omega) (by omega)
    linarith
  obtain ⟨s, s1, s2, s3, s4⟩ := exists_span_step (t := knot c.knots) hpN h0 h1
  refine e5 s u s1 s2 (lt_of_le_of_ne s3 fun e => hu ?_) s4
  rw [← e, ← knot_getElem (by omega)]
  exact List.getElem_mem _

end
end Converge

section
variable {P : Type} [AddCommGroup P] [Module ℝ P] [HMul ℝ P P] [HMul P ℝ P] [LawfulPoint ℝ P]
open Converge

/-- A knot inserted strictly between the ends of clamped knots. -/
theorem Converge.insert_clamped {c c' : BSplineCurve ℝ P} (hv : c.Valid) {m : Nat}
    (hk : ClampedKnots c.knots c.controlPoints.length c.degree m) {x : ℝ} (hx0 : knot c.knots 0 < x)
    (hx1 : x < knot c.knots (c.controlPoints.length + c.degree)) (hm : c.knots.count x + 1 ≤ m) (h : c.addKnot x = .ok c') :
    c'.Valid ∧ c'.degree = c.degree ∧ c'.knots.Perm (x :: c.knots) ∧ c'.controlPoints.length = c.controlPoints.length + 1 ∧
      (∀ u, knot c.knots 0 ≤ u → c'.getPoint u = c.getPoint u) ∧
      ClampedKnots c'.knots c'.controlPoints.length c'.degree m ∧ knot c'.knots 0 = knot c.knots 0 ∧
      knot c'.knots (c'.controlPoints.length + c'.degree) = knot c.knots (c.controlPoints.length + c.degree) := by
  obtain ⟨v, e1, e2, e3, e4⟩ := C15_addKnot hv hx0.le hx1.le (resolved_real _) h
  obtain ⟨k1, k2, k3, k4⟩ := Unique.ends_stay (xs := [x]) (M := c'.controlPoints.length) hv.len (by rw [v.len, e1]) hv.sorted
    v.sorted e2 (by simpa using ⟨hx0.le, hx1.le⟩) hk.first hk.last
  refine ⟨v, e1, e2, e3, e4, ⟨?_, ?_, ?_, ?_, ?_⟩, k1, by rw [e1, k4]⟩
  · rw [k1, e1, k2]
  · rw [k3, e1, k4]
  · rw [k1, e1, e2.count_eq, List.count_cons_of_ne hx0.ne']
    exact hk.firstOnly
  · rw [e1, k4, e2.count_eq, List.count_cons_of_ne hx1.ne]
    exact hk.lastOnly
  · intro y h1 h2
    rw [k1] at h1
    rw [e1, k4] at h2
    rw [e2.count_eq]
    by_cases hxy : x = y
    · subst hxy
      rw [List.count_cons_self]
      exact hm
    · rw [List.count_cons_of_ne hxy]
      exact hk.inner y h1 h2

/-- **C158** Inserting a knot and taking the derivative commute. -/
theorem C158_commute {c c' d d' : BSplineCurve ℝ P} (hv : c.Valid) (hp : 1 ≤ c.degree) {m : Nat} (hmp : m ≤ c.degree)
    (hk : ClampedKnots c.knots c.controlPoints.length c.degree m) {x : ℝ} (hx0 : knot c.knots 0 < x)
    (hx1 : x < knot c.knots (c.controlPoints.length + c.degree)) (hm : c.knots.count x + 1 ≤ m) (h : c.addKnot x = .ok c')
    (hd : c.derivative = .ok d) (hd' : c'.derivative = .ok d') : d.addKnot x = .ok d' := by
  obtain ⟨v, e1, e2, e3, e4, e5, e6, e7⟩ := insert_clamped hv hk hx0 hx1 hm h
  obtain ⟨d0, f1, f2, f3, f4, f5, f6, f7, f8, f9, -⟩ := derivative_clamped hv hp hk
  rw [hd, Except.ok.injEq] at f1
  subst f1
  obtain ⟨d1, g1, g2, g3, g4, g5, g6, g7, g8, g9, -⟩ := derivative_clamped v (by omega) e5
  rw [hd', Except.ok.injEq] at g1
  subst g1
  obtain ⟨e, he⟩ := C16_addKnot_partial f2 (x := x) (by rw [← f7.first, f8]; exact hx0.le)
  have hcd : d.knots.count x + 1 ≤ m := by
    refine le_trans ?_ hm
    have : d.knots.count x ≤ c.knots.count x := by
      conv_rhs => rw [f5]
      rw [List.count_cons, List.count_append]
      omega
    omega
  obtain ⟨w, i1, i2, i3, i4, i5, i6, i7⟩ := insert_clamped f2 f7 (by rw [f8]; exact hx0) (by rw [f9]; exact hx1) hcd he
  rw [he, Except.ok.injEq]
  symm
  have hkk : d'.knots = e.knots := by
    refine List.Perm.eq_of_pairwise (le := (· ≤ ·)) (fun a b _ _ h1 h2 => le_antisymm h1 h2) g2.sorted w.sorted ?_
    refine List.Perm.trans ?_ i2.symm
    have h1 := e2
    rw [g5, f5, e6, e7] at h1
    -- drop the ends
    have h2 : (knot c.knots 0 :: (d'.knots ++ [knot c.knots (c.controlPoints.length + c.degree)])).Perm
        (knot c.knots 0 :: ((x :: d.knots) ++ [knot c.knots (c.controlPoints.length + c.degree)])) :=
      h1.trans (List.Perm.swap _ _ _)
    exact (List.perm_append_right_iff _).1 ((List.perm_cons _).1 h2)
  have ddeg : d'.degree = e.degree := by omega
  refine C156_off_knots w g2 ddeg hkk (counts_of_clamped w.len w.sorted i5.first i5.last fun y => ?_) ?_
  · rcases lt_trichotomy y (knot e.knots 0) with hy | hy | hy
    · rw [List.count_eq_zero_of_not_mem]
      · omega
      · intro hmem
        obtain ⟨j, hj, ej⟩ := List.getElem_of_mem hmem
        rw [knot_getElem] at ej
        have := w.sorted.knot_le (i := 0) (j := j) (by omega) hj
        rw [ej] at this
        linarith
    · rw [hy]; exact i5.firstOnly
    · rcases lt_trichotomy y (knot e.knots (e.controlPoints.length + e.degree)) with hy' | hy' | hy'
      · exact (i5.inner y hy hy').trans (by omega)
      · rw [hy']; exact i5.lastOnly
      · rw [List.count_eq_zero_of_not_mem]
        · omega
        · intro hmem
          obtain ⟨j, hj, ej⟩ := List.getElem_of_mem hmem
          rw [knot_getElem] at ej
          have hwl := w.len
          have := w.sorted.knot_le (i := j) (j := e.controlPoints.length + e.degree) (by omega) (by omega)
          rw [ej] at this
          linarith
  · intro u hu0 hu1 hu
    rw [← i5.first, i6, f8] at hu0
    rw [i5.last, i7, f9] at hu1
    have a_mem : knot c.knots 0 ∈ e.knots := by
      have hwl := w.len
      have hwp := w.pts
      rw [← f8, ← i6, ← knot_getElem (by omega)]
      exact List.getElem_mem _
    have hua : knot c.knots 0 < u := lt_of_le_of_ne hu0 fun h => hu (h ▸ a_mem)
    have hu' : u ∉ c'.knots := by
      rw [g5, e6, e7]
      simp only [List.mem_cons, List.mem_append, List.not_mem_nil, or_false, not_or]
      exact ⟨hua.ne', hkk ▸ hu, hu1.ne⟩
    have hu'' : u ∉ c.knots := fun h => hu' (e2.mem_iff.2 (by simp [h]))
    obtain ⟨y, y1, y2⟩ := derivative_at hv hp hd (by rw [← hk.first]; exact hua.le) (by rw [hk.last]; exact hu1) hu''
    obtain ⟨z, z1, z2⟩ := derivative_at v (by omega) hd' (by rw [← e5.first, e6]; exact hua.le) (by rw [e5.last, e7]; exact hu1) hu'
    rw [z1, i4 u (by rw [f8]; exact hua.le), y1, Except.ok.injEq, ← sub_eq_zero, ← Module.forall_dual_apply_eq_zero_iff ℝ]
    intro f
    rw [map_sub, sub_eq_zero]
    refine (z2 f).unique ((y2 f).congr_of_eventuallyEq ?_)
    filter_upwards [lt_mem_nhds hua] with t ht
    rw [e4 t ht.le]

end

/-- The mean of `p` knots in a row, the parameter that belongs to a control point. -/
noncomputable def Spec.site (t : Nat → ℝ) (p i : Nat) : ℝ := (∑ j ∈ Finset.range p, t (i + 1 + j)) / p

namespace Converge

theorem site_step (t : Nat → ℝ) {p : Nat} (i : Nat) : site t p (i + 1) - site t p i = (t (i + p + 1) - t (i + 1)) / p := by
  unfold site
  rw [← sub_div]
  congr 1
  have h1 : ∑ j ∈ Finset.range p, t (i + 1 + 1 + j) = ∑ j ∈ Finset.range p, t (i + 1 + (j + 1)) :=
    Finset.sum_congr rfl fun j _ => by congr 1; omega
  have h2 := Finset.sum_range_succ (fun j => t (i + 1 + j)) p
  have h3 := Finset.sum_range_succ' (fun j => t (i + 1 + j)) p
  rw [h1]
  simp only [Nat.add_zero] at h3
  rw [show i + p + 1 = i + 1 + p by omega]
  linarith

open Finset in
/-- The curve with the sites for control points is the identity. -/
theorem site_sum {t : Nat → ℝ} {n s : Nat} (h : SpanAt t n s) (u : ℝ) (k N : Nat) (hk : 1 ≤ k) (hks : k ≤ s) (hN : s < N)
    (hn : s + k < n) : ∑ i ∈ range N, piece t s k i u * site t k i = u := by
  -- k times the sites
  have key : ∀ k, k ≤ s → s + k < n → ∑ i ∈ range N, piece t s k i u * (∑ j ∈ range k, t (i + 1 + j)) = k * u := by
    intro k
    induction k with
    | zero => intro _ _; simp
    | succ k ih =>
      intro hks hn
      have ih := ih (by omega) (by omega)
      have hsum := piece_sum h u k N (by omega) hN (by omega)
      set A : Nat → ℝ := fun i => ∑ j ∈ range k, t (i + 1 + j) with hA
      have hA1 : ∀ i, ∑ j ∈ range (k + 1), t (i + 1 + j) = A i + t (i + k + 1) := by
        intro i
        rw [sum_range_succ, hA]
        simp only
        rw [show i + 1 + k = i + k + 1 by omega]
      have hA2 : ∀ i, ∑ j ∈ range (k + 1), t (i + 1 + j) = A (i + 1) + t (i + 1) := by
        intro i
        rw [sum_range_succ', hA]
        simp only
        rw [Nat.add_zero]
        congr 1
        apply sum_congr rfl
        intro j _
        congr 1
        omega
      have e0 : piece t s k 0 u = 0 := piece_eq_zero _ _ _ _ _ (Or.inr (by omega))
      have eN : piece t s k N u = 0 := piece_eq_zero _ _ _ _ _ (Or.inl (by omega))
      have s1 : ∑ i ∈ range N, (u - t i) / (t (i + k + 1) - t i) * piece t s k i u * (A i + t (i + k + 1))
          = ∑ i ∈ range (N + 1), (u - t i) / (t (i + k + 1) - t i) * piece t s k i u * (A i + t (i + k + 1)) := by
        rw [sum_range_succ, eN]; ring
      have s2 : ∑ i ∈ range N, (t (i + k + 2) - u) / (t (i + k + 2) - t (i + 1)) * piece t s k (i + 1) u * (A (i + 1) + t (i + 1))
          = ∑ i ∈ range (N + 1), (t (i + k + 1) - u) / (t (i + k + 1) - t i) * piece t s k i u * (A i + t i) := by
        rw [sum_range_succ', e0]
        simp only [mul_zero, zero_mul, add_zero]
        apply sum_congr rfl
        intro i _
        rw [show i + 1 + k + 1 = i + k + 2 by omega]
      have e : ∀ i ∈ range (N + 1), (u - t i) / (t (i + k + 1) - t i) * piece t s k i u * (A i + t (i + k + 1))
          + (t (i + k + 1) - u) / (t (i + k + 1) - t i) * piece t s k i u * (A i + t i) = piece t s k i u * (A i + u) := by
        intro i _
        by_cases hc : s < i ∨ i + k < s
        · rw [piece_eq_zero _ _ _ _ _ hc]; ring
        · have h1 := h.mono i s (by omega) (by omega)
          have h2 := h.mono (s + 1) (i + k + 1) (by omega) (by omega)
          have h3 := h.nonempty
          have : t (i + k + 1) - t i ≠ 0 := by linarith
          field_simp
          ring
      simp only [piece]
      calc _ = ∑ i ∈ range N, ((u - t i) / (t (i + k + 1) - t i) * piece t s k i u * (A i + t (i + k + 1))
            + (t (i + k + 2) - u) / (t (i + k + 2) - t (i + 1)) * piece t s k (i + 1) u * (A (i + 1) + t (i + 1))) := by
              apply sum_congr rfl
              intro i _
              rw [← hA1, ← hA2, ← add_mul]
        _ = ∑ i ∈ range (N + 1), piece t s k i u * (A i + u) := by
              rw [sum_add_distrib, s1, s2, ← sum_add_distrib, sum_congr rfl e]
        _ = ∑ i ∈ range N, piece t s k i u * (A i + u) := by rw [sum_range_succ, eN]; ring
        _ = (↑(k + 1)) * u := by
              simp only [mul_add]
              rw [sum_add_distrib, ih, ← sum_mul, hsum]
              push_cast
              ring
  have hk' : (0 : ℝ) < k := by exact_mod_cast hk
  have := key k hks hn
  unfold site
  simp only [← mul_div_assoc]
  rw [← Finset.sum_div, this]
  field_simp

/-- Equal knots in a row are counted. -/
theorem run_count {l : List ℝ} (hs : Sorted l) {a b : Nat} (hab : a ≤ b) (hb : b < l.length) (h : knot l a = knot l b) :
    b - a + 1 ≤ l.count (knot l a) := by
  have hsub : ((l.drop a).take (b - a + 1)).Sublist l := (List.take_sublist _ _).trans (List.drop_sublist _ _)
  have hall : (l.drop a).take (b - a + 1) = List.replicate (b - a + 1) (knot l a) := by
    rw [List.eq_replicate_iff]
    refine ⟨by simp; omega, fun x hx => ?_⟩
    obtain ⟨j, hj, rfl⟩ := List.getElem_of_mem hx
    simp only [List.length_take, List.length_drop] at hj
    rw [List.getElem_take, List.getElem_drop, knot_getElem]
    refine le_antisymm ?_ (hs.knot_le (by omega) (by omega))
    rw [h]
    exact hs.knot_le (by omega) (by omega)
  have := hsub.count_le (knot l a)
  rwa [hall, List.count_replicate_self] at this

/-- The knots rise over `p` steps. -/
theorem gap {l : List ℝ} {N p m : Nat} (hl : l.length = N + p + 1) (hs : Sorted l) (hk : ClampedKnots l N p m) (hm : m ≤ p)
    {k : Nat} (hkN : k + 1 < N) : knot l (k + 1) < knot l (k + p + 1) := by
  refine lt_of_le_of_ne (hs.knot_le (by omega) (by omega)) fun e => ?_
  have hlo := hs.knot_le (i := 0) (j := k + 1) (by omega) (by omega)
  have hhi := hs.knot_le (i := k + 1) (j := N + p) (by omega) (by omega)
  rcases hlo.lt_or_eq with h1 | h1
  · rcases hhi.lt_or_eq with h2 | h2
    · have a := hk.inner _ h1 h2
      have b := run_count hs (a := k + 1) (b := k + p + 1) (by omega) (by omega) e
      omega
    · have a := hk.lastOnly
      rw [← h2] at a
      have b := run_count hs (a := k + 1) (b := N + p) (by omega) (by omega) h2
      omega
  · have a := hk.firstOnly
    have b := run_count hs (a := 0) (b := k + p + 1) (by omega) (by omega) (h1.trans e)
    omega

end Converge

section
variable {P : Type} [AddCommGroup P] [Module ℝ P] [HMul ℝ P P] [HMul P ℝ P] [LawfulPoint ℝ P]
open Converge

omit [HMul ℝ P P] [HMul P ℝ P] [LawfulPoint ℝ P] in
/-- Cutting corners does not enlarge the longest of the points. -/
theorem Converge.refines_bounded {ρ : P → ℝ} (hρ : Measures ρ) {D : ℝ} {l l' : List P} (h : Refines ℝ l l')
    (hl : l ≠ []) (hD : ∀ q ∈ l, ρ q ≤ D) : l' ≠ [] ∧ ∀ q ∈ l', ρ q ≤ D := by
  induction h with
  | refl => exact ⟨hl, hD⟩
  | step _ h2 ih =>
    rename_i l1 l2 _
    obtain ⟨hl1, ih⟩ := ih
    refine ⟨h2.ne_nil, fun q hq => ?_⟩
    obtain ⟨β, b1, b2, b3, b4⟩ := h2
    obtain ⟨i, hi, rfl⟩ := List.getElem_of_mem hq
    have hpos : 0 < l1.length := List.length_pos_iff.2 hl1
    have hD0 : 0 ≤ D := (hρ.nonneg _).trans (ih l1[0] (List.getElem_mem _))
    have hb : ∀ j, ρ (cp l1 j) ≤ D := by
      intro j
      by_cases hj : j < l1.length
      · rw [← cp_getElem hj]; exact ih _ (List.getElem_mem _)
      · rw [cp_of_le (by omega), hρ.at_zero]; exact hD0
    have e := b4 i (by omega)
    rw [cp_getElem]
    change cp l2 i = β i • cp l1 i + (1 - β i) • cp l1 (i - 1) at e
    rw [e]
    refine (hρ.add _ _).trans ?_
    rw [hρ.smul _ _ (b1 i).1, hρ.smul _ _ (by linarith [(b1 i).2])]
    have h1 := mul_le_mul_of_nonneg_left (hb i) (b1 i).1
    have h2 := mul_le_mul_of_nonneg_left (hb (i - 1)) (sub_nonneg.2 (b1 i).2)
    linarith

/-- **C158** Inserting knots between the ends only cuts corners of the control polygon of the second derivative. -/
theorem C158_second {c : BSplineCurve ℝ P} (hv : c.Valid) (hp : 2 ≤ c.degree) {m : Nat} (hmp : m + 1 ≤ c.degree)
    (hk : ClampedKnots c.knots c.controlPoints.length c.degree m) (xs : List ℝ)
    (hx : ∀ x ∈ xs, knot c.knots 0 < x ∧ x < knot c.knots (c.controlPoints.length + c.degree))
    (hc : ∀ x ∈ xs, (xs ++ c.knots).count x ≤ m) :
    ∃ c' d dd d' dd', xs.foldlM (fun c x => c.addKnot x) c = .ok c' ∧ c.derivative = .ok d ∧ d.derivative = .ok dd ∧
      c'.derivative = .ok d' ∧ d'.derivative = .ok dd' ∧ c'.Valid ∧ c'.degree = c.degree ∧ c'.knots.Perm (xs ++ c.knots) ∧
      c'.controlPoints.length = c.controlPoints.length + xs.length ∧
      ClampedKnots c'.knots c'.controlPoints.length c'.degree m ∧
      (∀ u, knot c.knots 0 ≤ u → c'.getPoint u = c.getPoint u) ∧ knot c'.knots 0 = knot c.knots 0 ∧
      dd.controlPoints ≠ [] ∧ Refines ℝ dd.controlPoints dd'.controlPoints := by
  induction xs generalizing c with
  | nil =>
    obtain ⟨d, d1, d2, d3, -, -, -, d4, -⟩ := derivative_clamped hv (by omega) hk
    obtain ⟨dd, f1, f2, -⟩ := derivative_clamped d2 (by omega) d4
    exact ⟨c, d, dd, d, dd, rfl, d1, f1, d1, f1, hv, rfl, by simp, rfl, hk, fun _ _ => rfl, rfl,
      List.length_pos_iff.1 f2.pts, .refl⟩
  | cons x xs ih =>
    obtain ⟨g1, g2⟩ := hx x (by simp)
    obtain ⟨c1, hc1⟩ := C16_addKnot_partial hv (x := x) (by rw [← hk.first]; exact g1.le)
    have hcx : c.knots.count x + 1 ≤ m := by
      have := hc x (by simp)
      rw [List.cons_append, List.count_cons_self, List.count_append] at this
      omega
    obtain ⟨v, e1, e2, e3, e4, e5, e6, e7⟩ := insert_clamped hv hk g1 g2 hcx hc1
    obtain ⟨c', d1, dd1, d', dd', i1, i2, i3, i4, i5, i6, i7, i8, i9, i10, i11, i12, i13, i14⟩ := ih v (by omega) (by omega) e5
      (fun y hy => by rw [e6, e7]; exact hx y (by simp [hy]))
      (fun y hy => by
        have := hc y (by simp [hy])
        rw [List.count_append, e2.count_eq]
        rw [List.cons_append, List.count_cons, List.count_append] at this
        rw [List.count_cons]
        omega)
    obtain ⟨d, j1, j2, j3, j4, j5, -, j7, j8, j9, -⟩ := derivative_clamped hv (by omega) hk
    obtain ⟨dd, k1, k2, k3, k4, k5, -, k7, k8, k9, -⟩ := derivative_clamped j2 (by omega) j7
    have a1 := C158_commute hv (by omega) (by omega) hk g1 g2 hcx hc1 j1 i2
    have hdx : d.knots.count x + 1 ≤ m := by
      have : d.knots.count x ≤ c.knots.count x := by
        conv_rhs => rw [j5]
        rw [List.count_cons, List.count_append]
        omega
      omega
    have a2 := C158_commute j2 (by omega) (by omega) j7 (by rw [j8]; exact g1) (by rw [j9]; exact g2) hdx a1 k1 i3
    have a3 := C146_addKnot k2 (x := x) (by rw [← k7.first, k8, j8]; exact g1.le) (by rw [k7.last, k9, j9]; exact g2)
      (resolved_real _) a2
    refine ⟨c', d, dd, d', dd', ?_, j1, k1, i4, i5, i6, i7.trans e1, ?_, ?_, i10, ?_, i12.trans e6, List.length_pos_iff.1 k2.pts,
      (Refines.refl.step a3).trans i14⟩
    · rw [List.foldlM_cons, hc1, ok_bind, i1]
    · refine i8.trans ((e2.append_left xs).trans ?_)
      exact List.perm_middle
    · rw [i9, e3, List.length_cons]; omega
    · intro u hu
      rw [i11 u (by rw [e6]; exact hu), e4 u hu]

omit [HMul ℝ P P] [HMul P ℝ P] [LawfulPoint ℝ P] in
/-- Points whose steps are the steps of `ξ` times slopes that change by no more than `e` are near a line. -/
theorem Converge.near_line {ρ : P → ℝ} (hρ : Measures ρ) {N : Nat} {a Q : Nat → P} {ξ : Nat → ℝ}
    {h e : ℝ} (h0 : 0 ≤ h) (he : 0 ≤ e) (ha : ∀ k, k + 1 < N → a (k + 1) - a k = (ξ (k + 1) - ξ k) • Q k)
    (hξ : ∀ k, k + 1 < N → 0 ≤ ξ (k + 1) - ξ k ∧ ξ (k + 1) - ξ k ≤ h)
    (hQ : ∀ k, k + 2 < N → ρ (Q (k + 1) - Q k) ≤ e) {i : Nat} (hi : i + 1 < N) :
    ∀ n, (i + n < N → ρ (a (i + n) - a i - (ξ (i + n) - ξ i) • Q i) ≤ (n : ℝ) ^ 2 * (h * e)) ∧
      (∀ j, j + n = i → ρ (a j - a i - (ξ j - ξ i) • Q i) ≤ (n : ℝ) ^ 2 * (h * e)) := by
  have hhe : 0 ≤ h * e := mul_nonneg h0 he
  -- the slopes
  have slope : ∀ n j, j + n + 1 < N → ρ (Q (j + n) - Q j) ≤ n * e := by
    intro n
    induction n with
    | zero => intro j _; simp [hρ.at_zero]
    | succ n ih =>
      intro j hj
      have e1 : Q (j + (n + 1)) - Q j = (Q (j + n + 1) - Q (j + n)) + (Q (j + n) - Q j) := by
        rw [show j + (n + 1) = j + n + 1 by omega]; abel
      rw [e1]
      refine (hρ.add _ _).trans ?_
      have h1 := hQ (j + n) (by omega)
      have h2 := ih j (by omega)
      push_cast
      linarith
  intro n
  induction n with
  | zero =>
    refine ⟨fun _ => by simp [hρ.at_zero], fun j hj => ?_⟩
    obtain rfl : j = i := by omega
    simp [hρ.at_zero]
  | succ n ih =>
    have hn : (0 : ℝ) ≤ n := Nat.cast_nonneg n
    refine ⟨fun hin => ?_, fun j hj => ?_⟩
    · have e1 : a (i + (n + 1)) - a i - (ξ (i + (n + 1)) - ξ i) • Q i
          = (a (i + n) - a i - (ξ (i + n) - ξ i) • Q i) + (ξ (i + n + 1) - ξ (i + n)) • (Q (i + n) - Q i) := by
        have := ha (i + n) (by omega)
        rw [show i + (n + 1) = i + n + 1 by omega, smul_sub, ← this]
        module
      rw [e1]
      refine (hρ.add _ _).trans ?_
      obtain ⟨x1, x2⟩ := hξ (i + n) (by omega)
      rw [hρ.smul _ _ x1]
      have h1 := ih.1 (by omega)
      have h2 := slope n i (by omega)
      have h3 := mul_le_mul x2 h2 (hρ.nonneg _) h0
      push_cast
      nlinarith
    · have e1 : a j - a i - (ξ j - ξ i) • Q i
          = (a (j + 1) - a i - (ξ (j + 1) - ξ i) • Q i) + (ξ (j + 1) - ξ j) • (Q i - Q j) := by
        have := ha j (by omega)
        rw [smul_sub, ← this]
        module
      rw [e1]
      refine (hρ.add _ _).trans ?_
      obtain ⟨x1, x2⟩ := hξ j (by omega)
      rw [hρ.smul _ _ x1]
      have h1 := ih.2 (j + 1) (by omega)
      have h2 := slope (n + 1) j (by omega)
      rw [show j + (n + 1) = i by omega] at h2
      have h3 := mul_le_mul x2 h2 (hρ.nonneg _) h0
      push_cast at h3 ⊢
      nlinarith

/-- The mean of knots lies between the first and the last of them. -/
theorem Converge.site_between {t : Nat → ℝ} {n p i : Nat} (hm : ∀ i j, i ≤ j → j ≤ n → t i ≤ t j) (hp : 1 ≤ p) (hn : i + p ≤ n) :
    t (i + 1) ≤ site t p i ∧ site t p i ≤ t (i + p) := by
  have hp0 : (0 : ℝ) < p := by exact_mod_cast hp
  unfold site
  rw [le_div_iff₀ hp0, div_le_iff₀ hp0]
  have h1 : ∑ j ∈ Finset.range p, t (i + 1) ≤ ∑ j ∈ Finset.range p, t (i + 1 + j) :=
    Finset.sum_le_sum fun j hj => hm _ _ (by omega) (by have := Finset.mem_range.1 hj; omega)
  have h2 : ∑ j ∈ Finset.range p, t (i + 1 + j) ≤ ∑ j ∈ Finset.range p, t (i + p) :=
    Finset.sum_le_sum fun j hj => hm _ _ (by have := Finset.mem_range.1 hj; omega) (by omega)
  rw [Finset.sum_const, Finset.card_range, nsmul_eq_mul] at h1 h2
  constructor <;> linarith

/-- It is less than the knot after them, unless they are all equal to it. -/
theorem Converge.site_lt {t : Nat → ℝ} {n p i : Nat} (hm : ∀ i j, i ≤ j → j ≤ n → t i ≤ t j) (hp : 1 ≤ p) (hn : i + p + 1 ≤ n)
    (hlt : t (i + 1) < t (i + p + 1)) : site t p i < t (i + p + 1) := by
  have hp0 : (0 : ℝ) < p := by exact_mod_cast hp
  unfold site
  rw [div_lt_iff₀ hp0]
  have h2 : ∑ j ∈ Finset.range p, t (i + 1 + j) < ∑ j ∈ Finset.range p, t (i + p + 1) :=
    Finset.sum_lt_sum (fun j hj => hm _ _ (by have := Finset.mem_range.1 hj; omega) (by omega))
      ⟨0, Finset.mem_range.2 (by omega), by simpa using hlt⟩
  rw [Finset.sum_const, Finset.card_range, nsmul_eq_mul] at h2
  linarith

/-- Knots `n` steps apart, if a step is at most `h`. -/
theorem Converge.knot_spread {t : Nat → ℝ} {M : Nat} {h : ℝ} (hs : ∀ j, j < M → t (j + 1) - t j ≤ h) :
    ∀ n i, i + n ≤ M → t (i + n) - t i ≤ n * h
  | 0, i, _ => by simp
  | n + 1, i, hi => by
    have h1 := knot_spread hs n i (by omega)
    have h2 := hs (i + n) (by omega)
    rw [show i + (n + 1) = i + n + 1 by omega]
    push_cast
    linarith

/-- **C158** The control polygon is as near to the curve as the square of the longest span: if the control points of the second
derivative are no longer than `D`, every point of the polygon is within `((p + 1) h)² D` of the point of the curve at the
parameter that belongs to it. -/
theorem C158_polygon {c d dd : BSplineCurve ℝ P} (hv : c.Valid) (hp : 2 ≤ c.degree) {m : Nat} (hmp : m + 1 ≤ c.degree)
    (hk : ClampedKnots c.knots c.controlPoints.length c.degree m) (hd : c.derivative = .ok d) (hdd : d.derivative = .ok dd)
    {ρ : P → ℝ} (hρ : Measures ρ) {h D : ℝ} (hD : ∀ q ∈ dd.controlPoints, ρ q ≤ D)
    (hh : ∀ j, j < c.controlPoints.length + c.degree → knot c.knots (j + 1) - knot c.knots j ≤ h)
    {i : Nat} (hi : i + 1 < c.controlPoints.length) {r : ℝ} (r0 : 0 ≤ r) (r1 : r ≤ 1) :
    ∃ x, c.getPoint (site (knot c.knots) c.degree i + r * (site (knot c.knots) c.degree (i + 1) - site (knot c.knots) c.degree i)) = .ok x ∧
      ρ (x - (cp c.controlPoints i + r • (cp c.controlPoints (i + 1) - cp c.controlPoints i))) ≤ ((c.degree + 1) * h) ^ 2 * D := by
  obtain ⟨d0, f1, f2, f3, f4, -, f6, f7, -, -, f10⟩ := derivative_clamped hv (by omega) hk
  rw [hd, Except.ok.injEq] at f1
  subst f1
  obtain ⟨dd0, g1, g2, g3, g4, -, -, -, -, -, g10⟩ := derivative_clamped f2 (by omega) f7
  rw [hdd, Except.ok.injEq] at g1
  subst g1
  have hl := hv.len
  have hm := hv.mono
  set t := knot c.knots with ht
  set N := c.controlPoints.length with hN
  set p := c.degree with hpdef
  have kf : t 0 = t p := hk.first
  have kl : t N = t (N + p) := hk.last
  have hp0 : (0 : ℝ) < p := by exact_mod_cast (show 0 < p by omega)
  have h0 : 0 ≤ h := le_trans (sub_nonneg.2 (hm 0 1 (by omega) (by omega))) (hh 0 (by omega))
  have hD0 : 0 ≤ D := (hρ.nonneg _).trans (hD (dd.controlPoints[0]'g2.pts) (List.getElem_mem _))
  have hgap : ∀ k, k + 1 < N → t (k + 1) < t (k + p + 1) := fun k hk' => gap hl hv.sorted hk (by omega) hk'
  -- the steps of the control points
  have hstep : ∀ k, k + 1 < N → cp c.controlPoints (k + 1) - cp c.controlPoints k
      = (site t p (k + 1) - site t p k) • cp d.controlPoints k := by
    intro k hk'
    have hpos := sub_pos.2 (hgap k hk')
    rw [f10 k (by omega), site_step, smul_smul]
    rw [show (t (k + p + 1) - t (k + 1)) / p * (p / (t (k + p + 1) - t (k + 1))) = 1 by field_simp, one_smul]
  have hξ : ∀ k, k + 1 < N → 0 ≤ site t p (k + 1) - site t p k ∧ site t p (k + 1) - site t p k ≤ h := by
    intro k hk'
    rw [site_step]
    have h1 := knot_spread hh p (k + 1) (by omega)
    rw [show k + 1 + p = k + p + 1 by omega] at h1
    refine ⟨div_nonneg (sub_nonneg.2 (hgap k hk').le) hp0.le, ?_⟩
    rw [div_le_iff₀ hp0]
    linarith
  -- the slopes
  have hQ : ∀ k, k + 2 < N → ρ (cp d.controlPoints (k + 1) - cp d.controlPoints k) ≤ h * D := by
    intro k hk'
    have hgd := gap f2.len f2.sorted f7 (by omega) (k := k) (by omega)
    have hpos := sub_pos.2 hgd
    have hpd : (0 : ℝ) < d.degree := by exact_mod_cast (show 0 < d.degree by omega)
    have e := g10 k (by omega)
    have e2 : cp d.controlPoints (k + 1) - cp d.controlPoints k
        = ((knot d.knots (k + d.degree + 1) - knot d.knots (k + 1)) / d.degree) • cp dd.controlPoints k := by
      rw [e, smul_smul]
      rw [show (knot d.knots (k + d.degree + 1) - knot d.knots (k + 1)) / d.degree
        * (d.degree / (knot d.knots (k + d.degree + 1) - knot d.knots (k + 1))) = 1 by field_simp, one_smul]
    rw [e2, hρ.smul _ _ (div_nonneg hpos.le hpd.le)]
    refine mul_le_mul ?_ ?_ (hρ.nonneg _) h0
    · rw [div_le_iff₀ hpd, f6 _ (by omega), f6 _ (by omega)]
      have h1 := knot_spread hh d.degree (k + 2) (by omega)
      rw [show k + 2 + d.degree = k + d.degree + 1 + 1 by omega] at h1
      linarith
    · rw [← cp_getElem (by omega)]
      exact hD _ (List.getElem_mem _)
  have near := near_line hρ (e := h * D) h0 (mul_nonneg h0 hD0) hstep hξ hQ hi
  -- the parameter
  obtain ⟨b1, b2⟩ := site_between (t := t) (n := N + p) (p := p) (i := i) hm (by omega) (by omega)
  obtain ⟨b3, b4⟩ := site_between (t := t) (n := N + p) (p := p) (i := i + 1) hm (by omega) (by omega)
  obtain ⟨x1, x2⟩ := hξ i hi
  set u := site t p i + r * (site t p (i + 1) - site t p i) with hu
  have u1 : site t p i ≤ u := by rw [hu]; nlinarith
  have u2 : u ≤ site t p (i + 1) := by rw [hu]; nlinarith
  have ulo : t p ≤ u := by
    rw [← kf]
    exact (hm 0 (i + 1) (by omega) (by omega)).trans (b1.trans u1)
  have uhi : u ≤ t N := by
    rw [kl]
    exact (u2.trans b4).trans (hm _ _ (by omega) (by omega))
  have hpN : p ≤ N := by
    by_contra hcon
    have h1 := kl
    have h2 := kf
    have h3 := hm N p (by omega) (by omega)
    have := hv.nonconst
    linarith
  obtain ⟨s, s1, s2, s3, s4⟩ : ∃ s, p ≤ s ∧ s < N ∧ Contains t (N + p) s u ∧ i ≤ s := by
    rcases uhi.lt_or_eq with h1 | h1
    · obtain ⟨s, s1, s2, s3, s4⟩ := exists_span_step (t := t) hpN ulo h1
      refine ⟨s, s1, s2, ⟨by omega, lt_of_le_of_lt s3 s4, s3, Or.inl s4⟩, ?_⟩
      by_contra hcon
      have := hm (s + 1) (i + 1) (by omega) (by omega)
      linarith
    · have hlast : t (N - 1) < t N := by
        refine lt_of_le_of_ne (hm _ _ (by omega) (by omega)) fun e => ?_
        have a := run_count hv.sorted (a := N - 1) (b := N + p) (by omega) (by omega) (e.trans kl)
        have b : c.knots.count (t (N + p)) ≤ p + 1 := hk.lastOnly
        rw [← kl] at b
        change _ ≤ c.knots.count (t (N - 1)) at a
        rw [e] at a
        omega
      have hp' : p ≤ N - 1 := by
        by_contra hcon
        have h3 := hm N p (by omega) (by omega)
        have h2 := kf
        have h4 := kl
        have := hv.nonconst
        linarith
      refine ⟨N - 1, hp', by omega, ⟨by omega, ?_, ?_, Or.inr ⟨?_, ?_⟩⟩, by omega⟩
      · rw [show N - 1 + 1 = N by omega]; exact hlast
      · rw [h1]; exact hlast.le
      · rw [h1, kl]
      · rw [show N - 1 + 1 = N by omega, kl]
  have s5 : s ≤ i + p + 1 := by
    by_contra hcon
    have h1 := site_lt (t := t) (n := N + p) (p := p) (i := i + 1) hm (by omega) (by omega)
      (by have := hgap (i + 1) (by omega); rwa [show i + 1 + p + 1 = i + 1 + p + 1 by omega] at this)
    have h2 := hm (i + 1 + p + 1) s (by omega) (by omega)
    have h3 := s3.left
    linarith
  have s6 : u ≤ t (s + 1) := by
    rcases s3.right with h1 | ⟨h1, h2⟩
    · exact h1.le
    · rw [h2, ← kl]; exact uhi
  have hspan : SpanAt t (N + p) s := ⟨hm, s3.lt, s3.nonempty⟩
  refine ⟨_, getPoint_of_contains hv s3, ?_⟩
  have hw1 := piece_sum hspan u p N s1 s2 (by omega)
  have hwu := site_sum hspan u p N (by omega) s1 s2 (by omega)
  have key : c.pieceSum s u - (cp c.controlPoints i + r • (cp c.controlPoints (i + 1) - cp c.controlPoints i))
      = ∑ j ∈ Finset.range N, piece t s p j u •
          (cp c.controlPoints j - cp c.controlPoints i - (site t p j - site t p i) • cp d.controlPoints i) := by
    have e1 : ∑ j ∈ Finset.range N, piece t s p j u • cp c.controlPoints i = cp c.controlPoints i := by
      rw [← Finset.sum_smul, hw1, one_smul]
    have e2 : ∑ j ∈ Finset.range N, piece t s p j u • ((site t p j - site t p i) • cp d.controlPoints i)
        = r • (cp c.controlPoints (i + 1) - cp c.controlPoints i) := by
      rw [hstep i hi, smul_smul]
      have : r * (site t p (i + 1) - site t p i) = ∑ j ∈ Finset.range N, piece t s p j u * (site t p j - site t p i) := by
        simp only [mul_sub]
        rw [Finset.sum_sub_distrib, hwu, ← Finset.sum_mul, hw1, hu]
        ring
      rw [this, Finset.sum_smul]
      exact Finset.sum_congr rfl fun j _ => smul_smul _ _ _
    simp only [smul_sub _ (cp c.controlPoints _ - _), smul_sub _ (cp c.controlPoints _)]
    rw [Finset.sum_sub_distrib, Finset.sum_sub_distrib, e1, e2]
    unfold BSplineCurve.pieceSum
    rw [smul_sub]
    abel
  rw [key]
  have hwn : ∀ j, j < N → 0 ≤ piece t s p j u := fun j hj => piece_nonneg hspan s3.left s6 p j (by omega)
  refine (hρ.sum _ _ N hwn).trans ?_
  calc _ ≤ ∑ j ∈ Finset.range N, piece t s p j u * (((p + 1) * h) ^ 2 * D) := by
        refine Finset.sum_le_sum fun j hj => ?_
        have hj := Finset.mem_range.1 hj
        by_cases hz : s < j ∨ j + p < s
        · rw [piece_eq_zero _ _ _ _ _ hz, zero_mul, zero_mul]
        · refine mul_le_mul_of_nonneg_left ?_ (hwn j hj)
          have hpp : (p : ℝ) + 1 = ((p + 1 : Nat) : ℝ) := by push_cast; rfl
          have hsq : ∀ n : Nat, n ≤ p + 1 → (n : ℝ) ^ 2 * (h * (h * D)) ≤ (((p : ℝ) + 1) * h) ^ 2 * D := by
            intro n hn
            have hn' : (n : ℝ) ≤ p + 1 := by rw [hpp]; exact_mod_cast hn
            have : (n : ℝ) ^ 2 ≤ ((p : ℝ) + 1) ^ 2 := pow_le_pow_left₀ (Nat.cast_nonneg n) hn' 2
            have := mul_le_mul_of_nonneg_right this (mul_nonneg h0 (mul_nonneg h0 hD0))
            calc _ ≤ _ := this
              _ = _ := by ring
          rcases Nat.le_total i j with hij | hij
          · have := (near (j - i)).1 (by omega)
            rw [show i + (j - i) = j by omega] at this
            exact this.trans (hsq _ (by omega))
          · exact ((near (i - j)).2 j (by omega)).trans (hsq _ (by omega))
    _ = _ := by rw [← Finset.sum_mul, hw1, one_mul]

/-- **C158** After knot insertion the control polygon is within `((p + 1) h)² D` of the curve, with `h` the longest span that is
left and `D` of the curve as it was. -/
theorem C158_insertions {c d dd : BSplineCurve ℝ P} (hv : c.Valid) (hp : 2 ≤ c.degree) {m : Nat} (hmp : m + 1 ≤ c.degree)
    (hk : ClampedKnots c.knots c.controlPoints.length c.degree m) (hd : c.derivative = .ok d) (hdd : d.derivative = .ok dd)
    {ρ : P → ℝ} (hρ : Measures ρ) {D : ℝ} (hD : ∀ q ∈ dd.controlPoints, ρ q ≤ D) (xs : List ℝ)
    (hx : ∀ x ∈ xs, knot c.knots 0 < x ∧ x < knot c.knots (c.controlPoints.length + c.degree))
    (hc : ∀ x ∈ xs, (xs ++ c.knots).count x ≤ m) :
    ∃ c', xs.foldlM (fun c x => c.addKnot x) c = .ok c' ∧ c'.degree = c.degree ∧ c'.knots.Perm (xs ++ c.knots) ∧
      c'.controlPoints.length = c.controlPoints.length + xs.length ∧
      ∀ h, (∀ j, j < c'.controlPoints.length + c.degree → knot c'.knots (j + 1) - knot c'.knots j ≤ h) →
        ∀ i, i + 1 < c'.controlPoints.length → ∀ r : ℝ, 0 ≤ r → r ≤ 1 →
          ∃ x, c.getPoint (site (knot c'.knots) c.degree i
              + r * (site (knot c'.knots) c.degree (i + 1) - site (knot c'.knots) c.degree i)) = .ok x ∧
            ρ (x - (cp c'.controlPoints i + r • (cp c'.controlPoints (i + 1) - cp c'.controlPoints i)))
              ≤ ((c.degree + 1) * h) ^ 2 * D := by
  obtain ⟨c', d0, dd0, d', dd', i1, i2, i3, i4, i5, i6, i7, i8, i9, i10, i11, i12, i13, i14⟩ := C158_second hv hp hmp hk xs hx hc
  rw [hd, Except.ok.injEq] at i2
  subst i2
  rw [hdd, Except.ok.injEq] at i3
  subst i3
  refine ⟨c', i1, i7, i8, i9, fun h hh i hi r r0 r1 => ?_⟩
  obtain ⟨x, x1, x2⟩ := C158_polygon i6 (by omega) (by omega) i10 i4 i5 hρ (refines_bounded hρ i14 i13 hD).2 (by rw [i7]; exact hh)
    hi r0 r1
  rw [i7] at x1 x2
  refine ⟨x, ?_, x2⟩
  rw [← i11 _ ?_]
  · exact x1
  -- the parameter is not before the first knot
  have hl := i6.len
  have hm := i6.mono
  rw [i7] at hm
  have b1 := (site_between (t := knot c'.knots) (n := c'.controlPoints.length + c.degree) (p := c.degree) (i := i) hm (by omega)
    (by omega)).1
  have hg := gap i6.len i6.sorted i10 (by omega) hi
  rw [i7] at hg
  have st : 0 ≤ site (knot c'.knots) c.degree (i + 1) - site (knot c'.knots) c.degree i := by
    rw [site_step]
    exact div_nonneg (sub_nonneg.2 hg.le) (Nat.cast_nonneg _)
  have := hm 0 (i + 1) (by omega) (by omega)
  rw [i12] at this
  nlinarith [mul_nonneg r0 st]

/-- **C158** The control polygons converge to the curve as the longest span goes to zero. -/
theorem C158_limit {c : BSplineCurve ℝ P} (hv : c.Valid) (hp : 2 ≤ c.degree) {m : Nat} (hmp : m + 1 ≤ c.degree)
    (hk : ClampedKnots c.knots c.controlPoints.length c.degree m) {ρ : P → ℝ} (hρ : Measures ρ) {ε : ℝ} (hε : 0 < ε) :
    ∃ δ > 0, ∀ xs : List ℝ, (∀ x ∈ xs, knot c.knots 0 < x ∧ x < knot c.knots (c.controlPoints.length + c.degree)) →
      (∀ x ∈ xs, (xs ++ c.knots).count x ≤ m) → ∃ c', xs.foldlM (fun c x => c.addKnot x) c = .ok c' ∧
        c'.knots.Perm (xs ++ c.knots) ∧
        ((∀ j, j < c'.controlPoints.length + c.degree → knot c'.knots (j + 1) - knot c'.knots j ≤ δ) →
          ∀ i, i + 1 < c'.controlPoints.length → ∀ r : ℝ, 0 ≤ r → r ≤ 1 →
            ∃ u x, c.getPoint u = .ok x ∧
              ρ (x - (cp c'.controlPoints i + r • (cp c'.controlPoints (i + 1) - cp c'.controlPoints i))) ≤ ε) := by
  obtain ⟨d, d1, d2, d3, -, -, -, d4, -⟩ := derivative_clamped hv (by omega) hk
  obtain ⟨dd, f1, f2, -⟩ := derivative_clamped d2 (by omega) d4
  obtain ⟨D, hD0, hD⟩ : ∃ D : ℝ, 0 < D ∧ ∀ q ∈ dd.controlPoints, ρ q ≤ D := by
    refine ⟨(dd.controlPoints.map ρ).sum + 1, ?_, fun q hq => ?_⟩
    · have : 0 ≤ (dd.controlPoints.map ρ).sum := List.sum_nonneg fun y hy => by
        obtain ⟨q, -, rfl⟩ := List.mem_map.1 hy
        exact hρ.nonneg q
      linarith
    · have := List.single_le_sum (l := dd.controlPoints.map ρ) (fun y hy => by
        obtain ⟨q, -, rfl⟩ := List.mem_map.1 hy
        exact hρ.nonneg q) (ρ q) (List.mem_map_of_mem hq)
      linarith
  have hp1 : (0 : ℝ) < c.degree + 1 := by positivity
  have hq : 0 < ε / (((c.degree : ℝ) + 1) ^ 2 * D) := by positivity
  refine ⟨√(ε / (((c.degree : ℝ) + 1) ^ 2 * D)), Real.sqrt_pos.2 hq, fun xs hx hc => ?_⟩
  obtain ⟨c', i1, i2, i3, i4, i5⟩ := C158_insertions hv hp hmp hk d1 f1 hρ hD xs hx hc
  refine ⟨c', i1, i3, fun hh i hi r r0 r1 => ?_⟩
  obtain ⟨x, x1, x2⟩ := i5 _ hh i hi r r0 r1
  refine ⟨_, x, x1, x2.trans (le_of_eq ?_)⟩
  rw [mul_pow, Real.sq_sqrt hq.le]
  field_simp

end

/-- **C158**, an example: a parabola with the knot one half. -/
theorem C158_example (a b c : V3 ℝ) : ∃ c' : BSplineCurve ℝ (V3 ℝ),
    (⟨[a, b, c], [0, 0, 0, 1, 1, 1], 2⟩ : BSplineCurve ℝ (V3 ℝ)).addKnot (1 / 2) = .ok c' ∧ c'.controlPoints.length = 4 ∧
      ∀ i, i < 3 → ∀ r : ℝ, 0 ≤ r → r ≤ 1 → ∃ u x, (⟨[a, b, c], [0, 0, 0, 1, 1, 1], 2⟩ : BSplineCurve ℝ (V3 ℝ)).getPoint u = .ok x ∧
        V3.length (x - (cp c'.controlPoints i + r • (cp c'.controlPoints (i + 1) - cp c'.controlPoints i)))
          ≤ 9 / 2 * V3.length (c - (2 : ℝ) • b + a) := by
  have hv : (⟨[a, b, c], [0, 0, 0, 1, 1, 1], 2⟩ : BSplineCurve ℝ (V3 ℝ)).Valid :=
    ⟨rfl, by unfold Sorted; norm_num, resolved_real _, by norm_num [knot], by norm_num⟩
  have hk : ClampedKnots ([0, 0, 0, 1, 1, 1] : List ℝ) 3 2 1 := by
    refine ⟨by norm_num [knot], by norm_num [knot], by norm_num [knot, List.count_cons], by norm_num [knot, List.count_cons], ?_⟩
    intro x h0 h1
    norm_num [knot] at h0 h1
    have e0 : ((0 : ℝ) == x) = false := by simpa using h0.ne
    have e1 : ((1 : ℝ) == x) = false := by simpa using h1.ne'
    simp [List.count_cons, e0, e1]
  obtain ⟨d, d1, d2, d3, d3', -, d5, d4, -, -, d6⟩ := Converge.derivative_clamped hv (by norm_num) hk
  obtain ⟨dd, f1, f2, f3, f3', -, -, -, -, -, f6⟩ := Converge.derivative_clamped d2 (by simp only at d3; omega) d4
  simp only [List.length_cons, List.length_nil] at d3 d3' d5 d6
  have hdeg : d.degree = 1 := by omega
  have hlen : d.controlPoints.length = 2 := by omega
  have e0 := d6 0 (by norm_num)
  have e1 := d6 1 (by norm_num)
  have q0 := f6 0 (by omega)
  rw [hdeg, d5 _ (by norm_num), d5 _ (by norm_num), e0, e1] at q0
  have hD : ∀ q ∈ dd.controlPoints, V3.length q ≤ 2 * V3.length (c - (2 : ℝ) • b + a) := by
    intro q hq
    obtain ⟨j, hj, rfl⟩ := List.getElem_of_mem hq
    have hj0 : j = 0 := by omega
    subst hj0
    rw [cp_getElem, q0, ← length_measures.smul 2 _ (by norm_num)]
    apply le_of_eq
    congr 1
    simp only [knot, cp, List.getD_cons_zero, List.getD_cons_succ]
    norm_num
    module
  obtain ⟨c', i1, i2, i3, i4, i5⟩ := C158_insertions hv (by norm_num) (m := 1) (by norm_num) hk d1 f1 length_measures hD [1 / 2]
    (by norm_num [knot]) (by norm_num [List.count_cons])
  simp only [List.foldlM_cons, List.foldlM_nil] at i1
  obtain ⟨c1, j1, j2⟩ := bind_eq_ok.1 i1
  rw [pure_eq_ok, Except.ok.injEq] at j2
  subst j2
  refine ⟨c1, j1, by simpa using i4, fun i hi r r0 r1 => ?_⟩
  have hv1 := (C15_addKnot hv (x := 1 / 2) (by norm_num [knot]) (by norm_num [knot]) (resolved_real _) j1).1
  have hks : c1.knots = [0, 0, 0, 1 / 2, 1, 1, 1] :=
    List.Perm.eq_of_pairwise (le := (· ≤ ·)) (fun a b _ _ h1 h2 => le_antisymm h1 h2) hv1.sorted (by norm_num)
      (i3.trans (by
        simp only [List.cons_append, List.nil_append]
        exact ((List.Perm.swap _ _ _).trans ((List.Perm.swap _ _ _).cons _)).trans (((List.Perm.swap _ _ _).cons _).cons _)))
  have hl4 : c1.controlPoints.length = 4 := by simpa using i4
  obtain ⟨x, x1, x2⟩ := i5 (1 / 2) (by
    rw [hks, hl4]
    intro j hj
    simp only at hj
    interval_cases j <;> norm_num [knot]) i (by omega) r r0 r1
  refine ⟨_, x, x1, x2.trans (le_of_eq ?_)⟩
  simp only
  norm_num
  ring

end Geom3d
