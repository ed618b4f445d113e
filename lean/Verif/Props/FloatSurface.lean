import Verif.Lemmas.F64Net
import Verif.Props.FloatBSpline
import Verif.Props.Rational

/-!
# C106, C107: surfaces and rational curves and surfaces in binary64

All theorems are about the operations of IEEE binary64 with all their rounding, for every input.
-/

set_option linter.unusedSectionVars false

namespace Geom3d
open Spec F64

/-! ### The weights -/

theorem bernstein_weights {n : Nat} (hn1 : 1 ≤ n) (hn : n ≤ 2 ^ 40) {u : Float} (h0 : 0 ≤ u) (h1 : u ≤ 1) :
    Weights n (fun i => bernTri u (1 - u) (n - 1) i) (fun i => bernsteinPoly (n - 1) i (val u)) n
      (5 * ((n - 1 : Nat) * eps)) := by
  obtain ⟨d, rfl⟩ : ∃ d, n = d + 1 := ⟨n - 1, by omega⟩
  rw [Nat.add_sub_cancel]
  have hε := eps_pos
  have hη := eta_pos
  have hηε : eta ≤ eps ^ 20 := eta_le
  have hd0 : (0 : ℝ) ≤ d := Nat.cast_nonneg _
  have hd1R : ((d + 1 : Nat) : ℝ) ≤ 2 ^ 40 := by exact_mod_cast hn
  obtain ⟨-, u0, u1⟩ := unit_float h0 h1
  refine ⟨fun i _ => ⟨(bernTri_apx h0 h1 d i (by omega)).1, (bernTri_apx h0 h1 d i (by omega)).2.1⟩, ?_,
    sum_bernsteinPoly d _, ?_, nonzeros_card_le _ _⟩
  · intro i _
    unfold bernsteinPoly
    exact mul_nonneg (mul_nonneg (Nat.cast_nonneg _) (pow_nonneg u0 _)) (pow_nonneg (by linarith) _)
  · refine (bernTri_total h0 h1 d (by omega)).trans ?_
    have h8 : ((d + 1 : Nat) : ℝ) * (8 * eta) ≤ eps := by
      calc ((d + 1 : Nat) : ℝ) * (8 * eta) ≤ 2 ^ 40 * (8 * eps ^ 20) :=
            mul_le_mul hd1R (by linarith) (by linarith) (by norm_num)
        _ ≤ eps := by rw [eps_eq]; norm_num
    have h9 : ((d + 1 : Nat) : ℝ) * (d * (8 * eta)) ≤ d * eps := by
      calc ((d + 1 : Nat) : ℝ) * (d * (8 * eta)) = d * (((d + 1 : Nat) : ℝ) * (8 * eta)) := by ring
        _ ≤ d * eps := mul_le_mul_of_nonneg_left h8 hd0
    linarith

/-- The knot vector ends with `degree + 1` equal knots, none of the others being taken for equal to them. -/
structure ClampedEnd (knots : List Float) (p : Nat) : Prop where
  room : 2 * p + 1 < knots.length
  last : ∀ j, knots.length - 1 - p ≤ j → j ≤ knots.length - 1 → val (knot knots j) = val (knot knots (knots.length - 1))
  before : ∀ j, j < knots.length - 1 - p → val (knot knots j) < val (knot knots (knots.length - 1)) ∧
    ulpsEqF64 (knot knots (knots.length - 1)) (knot knots j) = false

/-- A parameter of the domain of splines of degree `p`; the end of the domain only if the knots are clamped there. -/
def DomainF (knots : List Float) (p : Nat) (u : Float) : Prop :=
  IsFin u ∧ val (knot knots p) ≤ val u ∧ (val u < val (knot knots (knots.length - 1 - p)) ∨
    (ClampedEnd knots p ∧ val u = val (knot knots (knots.length - 1))))

/-- The weights of a spline of degree `p`, as they are and as they should be. -/
theorem bspline_weights {knots : List Float} {N p : Nat} (hk : KnotsF knots) (hlen : knots.length = N + p + 1) (hN : 0 < N)
    (hn : N + p ≤ 2 ^ 40) {u : Float} (hu : DomainF knots p u) :
    ∃ a A, Weights N a A (p + 1) (16 * (p * eps)) ∧ KnotVector.bsplineBasis knots p u = .ok (tab N a) ∧
      KnotVector.bsplineBasis (knots.map val) p (val u) = .ok (tab N A) ∧
      (ClampedEnd knots p → val u = val (knot knots (knots.length - 1)) →
        ∀ i, i < N → val (a i) = if i = N - 1 then 1 else 0) := by
  obtain ⟨fu, h1, h2⟩ := hu
  have e49 : (2 : ℝ) ^ (-49 : Int) = 16 * eps := by rw [eps_eq]; norm_num
  have hl1 : knots.length - 1 = N + p := by omega
  have hl2 : knots.length - 1 - p = N := by omega
  rw [hl2] at h2
  have main : ∀ s, SpanF knots (N + p) s u → p ≤ s → s < N → KnotVector.spanIndex knots u = .ok s →
      Contains (tval knots) (N + p) s (val u) →
      Weights N (basisTri (knot knots) u s p) (fun i => piece (tval knots) s p i (val u)) (p + 1) (16 * (p * eps)) ∧
        KnotVector.bsplineBasis knots p u = .ok (tab N (basisTri (knot knots) u s p)) ∧
        KnotVector.bsplineBasis (knots.map val) p (val u) = .ok (tab N fun i => piece (tval knots) s p i (val u)) := by
    intro s hF hps hsN hsp hc
    have htot := hF.total hps (by omega) (by omega)
    have hrow := (hF.row hps (by omega) (by omega) (le_refl p)).1
    rw [e49, Nat.add_sub_cancel] at htot
    have hlo : tval knots s ≤ val u := hF.lo
    refine ⟨⟨fun i _ => hrow i, fun i hi => piece_nonneg hF.spanAt hF.lo hF.hi _ _ (by omega),
      piece_sum hF.spanAt _ _ _ hps hsN (by omega), htot.trans (le_of_eq (by ring)), ?_⟩, ?_, ?_⟩
    · calc (nonzeros (basisTri (knot knots) u s p) N).card ≤ (Finset.Icc (s - p) s).card := by
            apply Finset.card_le_card
            intro i hi
            rw [mem_nonzeros] at hi
            rw [Finset.mem_Icc]
            by_contra hc
            exact hi.2 (by rw [basisTri_of_not _ _ (by omega)]; exact zero_val.2)
        _ ≤ p + 1 := by rw [Nat.card_Icc]; omega
    · have := bsplineBasis_tri hlen hsp hps (by omega)
      rwa [Nat.add_sub_cancel] at this
    · have h := basis_of_contains (knots := knots.map val) (n := N + p) (p := p) (s := s) (u := val u)
        (by rw [List.length_map, hlen]) hk.sorted (resolved_real _) (by omega)
        (by
          have a := hF.mono 0 s (by omega) hF.lt.le
          have b := hF.mono (s + 1) (N + p) hF.lt le_rfl
          have d := hF.spanAt.nonempty
          rw [← tval_eq]
          linarith) (by rw [← tval_eq]; exact hc)
      rwa [Nat.add_sub_cancel, ← tval_eq] at h
  rcases h2 with h2 | ⟨hc, hu⟩
  · obtain ⟨s, hs, hps, hsn, hlo, hhi⟩ := hk.spanIndex hlen fu (a := p) (b := N) (by omega) (by omega) h1 h2
    have hF := hk.spanF hlen fu (by omega) (by linarith) hlo hhi.le
    obtain ⟨w, e1, e2⟩ := main s hF hps hsn hs ⟨hF.lt, hF.spanAt.nonempty, hlo, Or.inl hhi⟩
    refine ⟨_, _, w, e1, e2, ?_⟩
    intro hc hu
    have := hc.last N (by omega) (by omega)
    exact absurd h2 (by rw [hu, this]; exact lt_irrefl _)
  · have hroom := hc.room
    have hlast := hc.last
    have hbef := hc.before
    rw [hl1] at hlast hbef hu
    rw [Nat.add_sub_cancel] at hlast hbef
    obtain ⟨s, hs⟩ : ∃ s, s + 1 = N := ⟨N - 1, by omega⟩
    have hsp := hk.spanIndex_end hlen fu hu.ge (m := s) (by omega) (fun j h1 h2 => hlast j (by omega) h2)
      (fun j hj => (hbef j (by omega)).2)
    have e1 : tval knots (s + 1) = tval knots (N + p) := hlast _ (by omega) (by omega)
    have hlt : tval knots s < tval knots (N + p) := (hbef s (by omega)).1
    have hF := hk.spanF hlen fu (s := s) (by omega) (by rw [e1]; exact hlt) (by rw [hu]; exact hlt.le)
      (by rw [e1, hu]; exact le_rfl)
    obtain ⟨w, e1', e2'⟩ := main s hF (by omega) (by omega) hsp
      ⟨hF.lt, hF.spanAt.nonempty, by rw [hu]; exact hlt.le, Or.inr ⟨hu.ge, e1⟩⟩
    refine ⟨_, _, w, e1', e2', ?_⟩
    intro _ _ i hi
    rw [hF.row_end (p := p) (by omega) (by omega) (by omega)
      (fun j h1 h2 => (hlast j (by omega) (by omega)).trans hu.symm) (le_refl p)]
    have : i = s ↔ i = N - 1 := by omega
    simp only [this]

/-! ### What the evaluations compute -/

section shapes
variable {P Q : Type} [Add P] [Zero P] [HMul Float P P] [AddCommGroup Q] [Module ℝ Q] [HMul ℝ Q Q] [HMul Q ℝ Q]
  [LawfulPoint ℝ Q] (f : P → Q)

theorem cp_map_getD {l : List P} {i : Nat} (hi : i < l.length) : cp (l.map f) i = f (l.getD i 0) := by
  simp [cp, List.getD, hi]

theorem sum_cp_map {l : List P} (W : Nat → ℝ) :
    ∑ i ∈ Finset.range l.length, W i • cp (l.map f) i = ∑ i ∈ Finset.range l.length, W i • f (l.getD i 0) :=
  Finset.sum_congr rfl fun i hi => by rw [cp_map_getD f (Finset.mem_range.1 hi)]

theorem sum_net_map {g : Grid P} (hg : NetOk g) (A B : Nat → ℝ) :
    ∑ i ∈ Finset.range g.rows, ∑ j ∈ Finset.range g.cols, (A i * B j) • entry (mapNet f g) i j
      = ∑ k ∈ Finset.range g.data.length, (A (k / g.cols) * B (k % g.cols)) • f (g.data.getD k 0) := by
  rw [hg, ← sum_flat g.rows g.cols (fun i j => (A i * B j) • entry (mapNet f g) i j)]
  refine Finset.sum_congr rfl fun k hk => ?_
  rw [← hg, Finset.mem_range] at hk
  congr 1
  unfold entry mapNet
  simp only []
  rw [Nat.div_add_mod']
  simp [List.getD, hk]

/-- The point `x` was computed from the points with weights that approximate those of the point `q`. -/
def Computes (pts : List P) (k : Nat) (α : ℝ) (x : P) (q : Q) : Prop :=
  ∃ a A, Weights pts.length a A k α ∧ x = linComb (tab pts.length a) pts ∧
    q = ∑ i ∈ Finset.range pts.length, A i • f (pts.getD i 0)

theorem bezierCurve_computes (c : BezierCurve P) (hc1 : 1 ≤ c.controlPoints.length) (hc : c.controlPoints.length ≤ 2 ^ 40)
    {u : Float} (h0 : 0 ≤ u) (h1 : u ≤ 1) :
    ∃ x q, c.getPoint u = .ok x ∧ (BezierCurve.mk (c.controlPoints.map f)).getPoint (val u) = .ok q ∧
      Computes f c.controlPoints c.controlPoints.length (5 * ((c.controlPoints.length - 1 : Nat) * eps)) x q := by
  refine ⟨_, _, ?_, bezier_getPoint _ (by simpa using hc1) _, _, _, bernstein_weights hc1 hc h0 h1, rfl, ?_⟩
  · unfold BezierCurve.getPoint
    rw [bernstein_tri _ hc1]
    rfl
  · rw [List.length_map]
    exact sum_cp_map f _

theorem bsplineCurve_computes (c : BSplineCurve Float P) (hk : KnotsF c.knots)
    (hlen : c.knots.length = c.controlPoints.length + c.degree + 1) (hpts : 0 < c.controlPoints.length)
    (hn : c.controlPoints.length + c.degree ≤ 2 ^ 40) {u : Float} (hu : DomainF c.knots c.degree u) :
    ∃ x q, c.getPoint u = .ok x ∧
      (BSplineCurve.mk (c.controlPoints.map f) (c.knots.map val) c.degree).getPoint (val u) = .ok q ∧
      Computes f c.controlPoints (c.degree + 1) (16 * (c.degree * eps)) x q := by
  obtain ⟨a, A, hw, e1, e2, -⟩ := bspline_weights hk hlen hpts hn hu
  refine ⟨linComb (tab c.controlPoints.length a) c.controlPoints, linComb (tab c.controlPoints.length A) (c.controlPoints.map f),
    ?_, ?_, a, A, hw, rfl, ?_⟩
  · unfold BSplineCurve.getPoint
    rw [e1]
    rfl
  · unfold BSplineCurve.getPoint
    simp only []
    rw [e2]
    rfl
  · rw [linComb_tab, sum_cp_map f]

theorem bezierSurface_computes (s : BezierSurface P) (hg : NetOk s.controlPoints) (hr1 : 1 ≤ s.controlPoints.rows)
    (hc1 : 1 ≤ s.controlPoints.cols) (hrc : s.controlPoints.rows * s.controlPoints.cols ≤ 2 ^ 40) {u v : Float}
    (hu0 : 0 ≤ u) (hu1 : u ≤ 1) (hv0 : 0 ≤ v) (hv1 : v ≤ 1) :
    ∃ x q, s.getPoint u v = .ok x ∧ (BezierSurface.mk (mapNet f s.controlPoints)).getPoint (val u) (val v) = .ok q ∧
      Computes f s.controlPoints.data (s.controlPoints.rows * s.controlPoints.cols)
        (9 * ((s.controlPoints.rows * s.controlPoints.cols : Nat) * eps)) x q := by
  have hr : s.controlPoints.rows ≤ 2 ^ 40 := (Nat.le_mul_of_pos_right _ hc1).trans hrc
  have hc : s.controlPoints.cols ≤ 2 ^ 40 := (Nat.le_mul_of_pos_left _ hr1).trans hrc
  have hε := eps_pos
  have hsmall : ∀ n : Nat, n ≤ 2 ^ 40 → 5 * (((n - 1 : Nat) : ℝ) * eps) ≤ 1 / 100 := by
    intro n hn
    have h : ((n - 1 : Nat) : ℝ) ≤ 2 ^ 40 := by exact_mod_cast (by omega : n - 1 ≤ 2 ^ 40)
    calc 5 * (((n - 1 : Nat) : ℝ) * eps) ≤ 5 * (2 ^ 40 * eps) := by
          have := mul_le_mul_of_nonneg_right h hε.le
          linarith
      _ ≤ 1 / 100 := by rw [eps_eq]; norm_num
  have hw := Weights.tensor (bernstein_weights hr1 hr hu0 hu1) (bernstein_weights hc1 hc hv0 hv1) (hsmall _ hr) (hsmall _ hc)
    (by omega)
  refine ⟨_, _, ?_, bezierSurface_getPoint (mapNet_ok f hg) hr1 hc1 _ _, flatWeight s.controlPoints.cols
    (fun i => bernTri u (1 - u) (s.controlPoints.rows - 1) i) (fun i => bernTri v (1 - v) (s.controlPoints.cols - 1) i), _,
    ?_, rfl, sum_net_map f hg _ _⟩
  · unfold BezierSurface.getPoint
    rw [bernstein_tri _ hr1, bernstein_tri _ hc1]
    simp only [ok_bind]
    exact netSum_flat hg le_rfl le_rfl _ _
  · have h := hw
    rw [← hg] at h
    refine h.mono (by rw [hg]) ?_
    rw [hg]
    obtain ⟨r, hr'⟩ : ∃ r, s.controlPoints.rows = r + 1 := ⟨_, (Nat.sub_add_cancel hr1).symm⟩
    obtain ⟨c, hc'⟩ : ∃ c, s.controlPoints.cols = c + 1 := ⟨_, (Nat.sub_add_cancel hc1).symm⟩
    rw [hr', hc', Nat.add_sub_cancel, Nat.add_sub_cancel]
    have hη : eta ≤ eps := eta_le.trans (by rw [eps_eq]; norm_num)
    have r0 : (0 : ℝ) ≤ r := Nat.cast_nonneg _
    have c0 : (0 : ℝ) ≤ c := Nat.cast_nonneg _
    have hrc0 : (0 : ℝ) ≤ ((r + 1) * (c + 1) : Nat) := Nat.cast_nonneg _
    have h1 : (((r + 1) * (c + 1) : Nat) : ℝ) * eta ≤ ((r + 1) * (c + 1) : Nat) * eps :=
      mul_le_mul_of_nonneg_left hη hrc0
    push_cast at h1 ⊢
    have := mul_nonneg r0 c0
    nlinarith [mul_nonneg r0 hε.le, mul_nonneg c0 hε.le, mul_nonneg this hε.le]

theorem bsplineSurface_computes (s : BSplineSurface Float P) (hg : NetOk s.controlPoints) (hku : KnotsF s.knots.1)
    (hkv : KnotsF s.knots.2) (hlu : s.knots.1.length = s.controlPoints.rows + s.degree.1 + 1)
    (hlv : s.knots.2.length = s.controlPoints.cols + s.degree.2 + 1) (hr : 0 < s.controlPoints.rows)
    (hc : 0 < s.controlPoints.cols) (hnu : s.controlPoints.rows + s.degree.1 ≤ 2 ^ 40)
    (hnv : s.controlPoints.cols + s.degree.2 ≤ 2 ^ 40) (hd : (s.degree.1 + 1) * (s.degree.2 + 1) ≤ 2 ^ 40) {u v : Float}
    (hu : DomainF s.knots.1 s.degree.1 u) (hv : DomainF s.knots.2 s.degree.2 v) :
    ∃ x q, s.getPoint u v = .ok x ∧
      (BSplineSurface.mk (mapNet f s.controlPoints) (s.knots.1.map val, s.knots.2.map val) s.degree).getPoint (val u) (val v)
        = .ok q ∧
      Computes f s.controlPoints.data ((s.degree.1 + 1) * (s.degree.2 + 1))
        (20 * (((s.degree.1 + 1) * (s.degree.2 + 1) : Nat) * eps)) x q := by
  obtain ⟨a, A, hwa, a1, a2, -⟩ := bspline_weights hku hlu hr hnu hu
  obtain ⟨b, B, hwb, b1, b2, -⟩ := bspline_weights hkv hlv hc hnv hv
  have hε := eps_pos
  have hsmall : ∀ p : Nat, p ≤ 2 ^ 40 → 16 * ((p : ℝ) * eps) ≤ 1 / 100 := by
    intro p hp
    have h : (p : ℝ) ≤ 2 ^ 40 := by exact_mod_cast hp
    calc 16 * ((p : ℝ) * eps) ≤ 16 * (2 ^ 40 * eps) := by
          have := mul_le_mul_of_nonneg_right h hε.le
          linarith
      _ ≤ 1 / 100 := by rw [eps_eq]; norm_num
  have hw := Weights.tensor hwa hwb (hsmall _ (by omega)) (hsmall _ (by omega)) (by omega)
  refine ⟨linComb (tab s.controlPoints.data.length (flatWeight s.controlPoints.cols a b)) s.controlPoints.data,
    ∑ i ∈ Finset.range s.controlPoints.rows, ∑ j ∈ Finset.range s.controlPoints.cols,
      (A i * B j) • entry (mapNet f s.controlPoints) i j, ?_, ?_, _, _, ?_, rfl, sum_net_map f hg _ _⟩
  · unfold BSplineSurface.getPoint
    rw [a1, b1]
    simp only [ok_bind]
    exact netSum_flat hg le_rfl le_rfl _ _
  · unfold BSplineSurface.getPoint
    simp only []
    rw [a2, b2]
    simp only [ok_bind]
    exact netSum_eq (mapNet_ok f hg) le_rfl le_rfl _ _
  · have h := hw
    rw [← hg] at h
    refine h.mono le_rfl ?_
    generalize s.degree.1 = p at *
    generalize s.degree.2 = q at *
    have hη : eta ≤ eps := eta_le.trans (by rw [eps_eq]; norm_num)
    have r0 : (0 : ℝ) ≤ p := Nat.cast_nonneg _
    have c0 : (0 : ℝ) ≤ q := Nat.cast_nonneg _
    have hrc0 : (0 : ℝ) ≤ ((p + 1) * (q + 1) : Nat) := Nat.cast_nonneg _
    have h1 : (((p + 1) * (q + 1) : Nat) : ℝ) * eta ≤ ((p + 1) * (q + 1) : Nat) * eps :=
      mul_le_mul_of_nonneg_left hη hrc0
    push_cast at h1 ⊢
    have := mul_nonneg r0 c0
    nlinarith [mul_nonneg r0 hε.le, mul_nonneg c0 hε.le, mul_nonneg this hε.le]

end shapes

/-- The real numbers stored in a homogeneous point. -/
noncomputable def F64.toReal4 (p : V4 Float) : V4 ℝ := ⟨val p.x, val p.y, val p.z, val p.w⟩

/-- All homogeneous coordinates are finite and at most `M` in absolute value. -/
def F64.Bounded4 (M : ℝ) (p : V4 Float) : Prop :=
  (IsFin p.x ∧ |val p.x| ≤ M) ∧ (IsFin p.y ∧ |val p.y| ≤ M) ∧ (IsFin p.z ∧ |val p.z| ≤ M) ∧ (IsFin p.w ∧ |val p.w| ≤ M)

theorem Computes.near3 {pts : List (V3 Float)} {k : Nat} {α : ℝ} {x : V3 Float} {q : V3 ℝ}
    (h : Computes toReal pts k α x q) (hα : α ≤ 1 / 10) (hk : k ≤ 2 ^ 41) {M : ℝ} (hM0 : 0 ≤ M) (hM : M ≤ 2 ^ (1022 : Int))
    (hb : ∀ p ∈ pts, Bounded M p) : Near ((3 * k * eps + α) * M + 3 * k * eta) x q := by
  obtain ⟨a, A, hw, rfl, rfl⟩ := h
  have key := fun (π : V3 Float → Float) (hπ : ∀ p ∈ pts, IsFin (π p) ∧ |val (π p)| ≤ M) =>
    hw.accum hα hk (p := fun i => π (pts.getD i 0)) hM0 hM (fun i hi => hπ _ (getD_mem_of_lt hi 0))
  have hx : ∀ (s : Finset Nat) (f : Nat → V3 ℝ), (∑ i ∈ s, f i).x = ∑ i ∈ s, (f i).x :=
    fun s f => map_sum (⟨⟨V3.x, rfl⟩, fun _ _ => rfl⟩ : V3 ℝ →+ ℝ) f s
  have hy : ∀ (s : Finset Nat) (f : Nat → V3 ℝ), (∑ i ∈ s, f i).y = ∑ i ∈ s, (f i).y :=
    fun s f => map_sum (⟨⟨V3.y, rfl⟩, fun _ _ => rfl⟩ : V3 ℝ →+ ℝ) f s
  have hz : ∀ (s : Finset Nat) (f : Nat → V3 ℝ), (∑ i ∈ s, f i).z = ∑ i ∈ s, (f i).z :=
    fun s f => map_sum (⟨⟨V3.z, rfl⟩, fun _ _ => rfl⟩ : V3 ℝ →+ ℝ) f s
  refine ⟨?_, ?_, ?_⟩
  · rw [v3_accum_x, hx]; exact key (fun p => p.x) (fun p h => (hb p h).1)
  · rw [v3_accum_y, hy]; exact key (fun p => p.y) (fun p h => (hb p h).2.1)
  · rw [v3_accum_z, hz]; exact key (fun p => p.z) (fun p h => (hb p h).2.2)

theorem F64.Near.mono {e e' : ℝ} {x : V3 Float} {q : V3 ℝ} (h : Near e x q) (he : e ≤ e') : Near e' x q :=
  ⟨⟨h.1.1, h.1.2.trans he⟩, ⟨h.2.1.1, h.2.1.2.trans he⟩, ⟨h.2.2.1, h.2.2.2.trans he⟩⟩

/-! ### C106 -/

theorem e1073 : (2 : ℝ) ^ (-1073 : Int) = 4 * eta := by
  rw [eta, show (-1073 : Int) = 2 + -1075 by norm_num, zpow_add₀ (by norm_num)]
  norm_num

/-- **C106.** For all binary64 parameters in the unit square evaluation of a Bézier surface with `r * c` control points
gives a point with finite coordinates that differ from those of the exact point by at most `r * c * 2 ^ -49 * M` (next to
the underflow), where `M` bounds the coordinates of the control points. -/
theorem C106_bezier (s : BezierSurface (V3 Float)) (hg : NetOk s.controlPoints) (hr1 : 1 ≤ s.controlPoints.rows)
    (hc1 : 1 ≤ s.controlPoints.cols) (hrc : s.controlPoints.rows * s.controlPoints.cols ≤ 2 ^ 40) (u v : Float)
    (hu0 : 0 ≤ u) (hu1 : u ≤ 1) (hv0 : 0 ≤ v) (hv1 : v ≤ 1) (M : ℝ) (hM : M ≤ 2 ^ (1022 : Int))
    (hb : ∀ p ∈ s.controlPoints.data, Bounded M p) :
    ∃ x q, s.getPoint u v = .ok x ∧ (BezierSurface.mk (mapNet toReal s.controlPoints)).getPoint (val u) (val v) = .ok q ∧
      Near ((s.controlPoints.rows * s.controlPoints.cols : Nat) * 2 ^ (-49 : Int) * M
        + (s.controlPoints.rows * s.controlPoints.cols : Nat) * 2 ^ (-1073 : Int)) x q := by
  obtain ⟨x, q, hx, hq, hc⟩ := bezierSurface_computes toReal s hg hr1 hc1 hrc hu0 hu1 hv0 hv1
  have hlen : 0 < s.controlPoints.data.length := by rw [hg]; exact Nat.mul_pos hr1 hc1
  have hM0 : 0 ≤ M := (abs_nonneg _).trans (hb _ (getD_mem_of_lt hlen 0)).1.2
  refine ⟨x, q, hx, hq, ?_⟩
  obtain ⟨K, hK⟩ : ∃ K, s.controlPoints.rows * s.controlPoints.cols = K := ⟨_, rfl⟩
  rw [hK] at hrc hc ⊢
  have hε := eps_pos
  have hK0 : (0 : ℝ) ≤ K := Nat.cast_nonneg _
  have hKR : (K : ℝ) ≤ 2 ^ 40 := by exact_mod_cast hrc
  refine F64.Near.mono (hc.near3 ?_ (by omega) hM0 hM hb) ?_
  · calc 9 * ((K : ℝ) * eps) ≤ 9 * (2 ^ 40 * eps) := by
          have := mul_le_mul_of_nonneg_right hKR hε.le
          linarith
      _ ≤ 1 / 10 := by rw [eps_eq]; norm_num
  · have e49 : (2 : ℝ) ^ (-49 : Int) = 16 * eps := by rw [eps_eq]; norm_num
    rw [e49, e1073]
    have h1 := mul_nonneg (mul_nonneg hK0 hε.le) hM0
    have h2 := mul_nonneg hK0 eta_pos.le
    linarith

/-- **C106.** For all binary64 parameters of the domain evaluation of a B-spline surface of degrees `p`, `q` gives a
point with finite coordinates that differ from those of the exact point by at most `(p + 1) * (q + 1) * 2 ^ -48 * M` (next
to the underflow); the size of the net does not matter. -/
theorem C106_bspline (s : BSplineSurface Float (V3 Float)) (hg : NetOk s.controlPoints) (hku : KnotsF s.knots.1)
    (hkv : KnotsF s.knots.2) (hlu : s.knots.1.length = s.controlPoints.rows + s.degree.1 + 1)
    (hlv : s.knots.2.length = s.controlPoints.cols + s.degree.2 + 1) (hr : 0 < s.controlPoints.rows)
    (hc : 0 < s.controlPoints.cols) (hnu : s.controlPoints.rows + s.degree.1 ≤ 2 ^ 40)
    (hnv : s.controlPoints.cols + s.degree.2 ≤ 2 ^ 40) (hd : (s.degree.1 + 1) * (s.degree.2 + 1) ≤ 2 ^ 40) (u v : Float)
    (hu : DomainF s.knots.1 s.degree.1 u) (hv : DomainF s.knots.2 s.degree.2 v) (M : ℝ) (hM : M ≤ 2 ^ (1022 : Int))
    (hb : ∀ p ∈ s.controlPoints.data, Bounded M p) :
    ∃ x q, s.getPoint u v = .ok x ∧
      (BSplineSurface.mk (mapNet toReal s.controlPoints) (s.knots.1.map val, s.knots.2.map val) s.degree).getPoint (val u) (val v)
        = .ok q ∧
      Near (((s.degree.1 + 1) * (s.degree.2 + 1) : Nat) * 2 ^ (-48 : Int) * M
        + ((s.degree.1 + 1) * (s.degree.2 + 1) : Nat) * 2 ^ (-1073 : Int)) x q := by
  obtain ⟨x, q, hx, hq, hcmp⟩ := bsplineSurface_computes toReal s hg hku hkv hlu hlv hr hc hnu hnv hd hu hv
  have hlen : 0 < s.controlPoints.data.length := by rw [hg]; exact Nat.mul_pos hr hc
  have hM0 : 0 ≤ M := (abs_nonneg _).trans (hb _ (getD_mem_of_lt hlen 0)).1.2
  refine ⟨x, q, hx, hq, ?_⟩
  obtain ⟨K, hK⟩ : ∃ K, (s.degree.1 + 1) * (s.degree.2 + 1) = K := ⟨_, rfl⟩
  rw [hK] at hd hcmp ⊢
  have hε := eps_pos
  have hK0 : (0 : ℝ) ≤ K := Nat.cast_nonneg _
  have hKR : (K : ℝ) ≤ 2 ^ 40 := by exact_mod_cast hd
  refine F64.Near.mono (hcmp.near3 ?_ (by omega) hM0 hM hb) ?_
  · calc 20 * ((K : ℝ) * eps) ≤ 20 * (2 ^ 40 * eps) := by
          have := mul_le_mul_of_nonneg_right hKR hε.le
          linarith
      _ ≤ 1 / 10 := by rw [eps_eq]; norm_num
  · have e48 : (2 : ℝ) ^ (-48 : Int) = 32 * eps := by rw [eps_eq]; norm_num
    rw [e48, e1073]
    have h1 := mul_nonneg (mul_nonneg hK0 hε.le) hM0
    have h2 := mul_nonneg hK0 eta_pos.le
    linarith

/-- Weights that select one control point give exactly this control point. -/
theorem linComb_select {pts : List (V3 Float)} {a : Nat → Float} {k : Nat} (hk : k < pts.length)
    (ha : ∀ i, i < pts.length → IsFin (a i) ∧ val (a i) = if i = k then 1 else 0)
    (hp : ∀ p ∈ pts, IsFin p.x ∧ IsFin p.y ∧ IsFin p.z) :
    IsFin (linComb (tab pts.length a) pts).x ∧ IsFin (linComb (tab pts.length a) pts).y ∧
      IsFin (linComb (tab pts.length a) pts).z ∧ toReal (linComb (tab pts.length a) pts) = toReal (pts.getD k 0) := by
  have key : ∀ π : V3 Float → Float, (∀ p ∈ pts, IsFin (π p)) → _ :=
    fun π hπ => accum_select (p := fun i => π (pts.getD i 0)) ha (fun i hi => hπ _ (getD_mem_of_lt hi 0))
  have kx := key (fun p => p.x) (fun p h => (hp p h).1)
  have ky := key (fun p => p.y) (fun p h => (hp p h).2.1)
  have kz := key (fun p => p.z) (fun p h => (hp p h).2.2)
  rw [if_pos hk] at kx ky kz
  unfold toReal
  rw [v3_accum_x, v3_accum_y, v3_accum_z]
  exact ⟨kx.1, ky.1, kz.1, by rw [kx.2, ky.2, kz.2]⟩

/-- Products of weights that select a row and a column. -/
theorem flatWeight_select {g : Grid (V3 Float)} (hg : NetOk g) {a b : Nat → Float} {k l : Nat} (hk : k < g.rows)
    (hl : l < g.cols) (ha : ∀ i, i < g.rows → IsFin (a i) ∧ val (a i) = if i = k then 1 else 0)
    (hb : ∀ j, j < g.cols → IsFin (b j) ∧ val (b j) = if j = l then 1 else 0)
    (hp : ∀ p ∈ g.data, IsFin p.x ∧ IsFin p.y ∧ IsFin p.z) {m n : Nat} (hm : g.rows ≤ m) (hn : g.cols ≤ n) :
    ∃ x, netSum g (tab m a) (tab n b) = .ok x ∧ IsFin x.x ∧ IsFin x.y ∧ IsFin x.z ∧ toReal x = toReal (entry g k l) := by
  refine ⟨_, netSum_flat hg hm hn a b, ?_⟩
  obtain ⟨hlt, -⟩ := grid_at hg hk hl
  refine linComb_select hlt ?_ hp
  intro i hi
  have hc : 0 < g.cols := by omega
  rw [hg] at hi
  have h1 : i / g.cols < g.rows := Nat.div_lt_of_lt_mul (by rwa [mul_comm] at hi)
  have h2 : i % g.cols < g.cols := Nat.mod_lt _ hc
  obtain ⟨fa, ea⟩ := ha _ h1
  obtain ⟨fb, eb⟩ := hb _ h2
  have e : val (a (i / g.cols)) * val (b (i % g.cols)) = if i = k * g.cols + l then 1 else 0 := by
    rw [ea, eb]
    have : i = k * g.cols + l ↔ i / g.cols = k ∧ i % g.cols = l := by
      constructor
      · rintro rfl
        rw [add_comm, Nat.add_mul_div_right _ _ hc, Nat.div_eq_of_lt hl, zero_add, Nat.add_mul_mod_self_right,
          Nat.mod_eq_of_lt hl]
        exact ⟨rfl, rfl⟩
      · rintro ⟨rfl, rfl⟩
        exact (Nat.div_add_mod' _ _).symm
    by_cases h3 : i / g.cols = k <;> by_cases h4 : i % g.cols = l <;> simp [this, h3, h4]
  obtain ⟨f, r⟩ := mul_rounds fa fb (by
    rw [e]
    exact le_max_of_le_four (by split <;> norm_num))
  rw [e] at r
  exact ⟨f, r.of_rep (by split; exacts [rep_one, rep_zero])⟩

/-- **C106.** At the corners of the unit square a Bézier surface gives exactly the corners of its net. -/
theorem C106_bezier_corners (s : BezierSurface (V3 Float)) (hg : NetOk s.controlPoints) (hr1 : 1 ≤ s.controlPoints.rows)
    (hc1 : 1 ≤ s.controlPoints.cols) (hr : s.controlPoints.rows ≤ 2 ^ 40) (hc : s.controlPoints.cols ≤ 2 ^ 40)
    (hp : ∀ p ∈ s.controlPoints.data, IsFin p.x ∧ IsFin p.y ∧ IsFin p.z) (a b : Bool) :
    ∃ x, s.getPoint (if a then (1 : Float) else 0) (if b then 1 else 0) = .ok x ∧ IsFin x.x ∧ IsFin x.y ∧ IsFin x.z ∧
      toReal x = toReal (entry s.controlPoints (if a then s.controlPoints.rows - 1 else 0)
        (if b then s.controlPoints.cols - 1 else 0)) := by
  have h00 : (0 : Float) ≤ 0 := (le_iff zero_val.1 zero_val.1).mpr le_rfl
  have h01 : (0 : Float) ≤ 1 := (le_iff zero_val.1 one_val.1).mpr (by rw [zero_val.2, one_val.2]; norm_num)
  have h11 : (1 : Float) ≤ 1 := (le_iff one_val.1 one_val.1).mpr le_rfl
  have key : ∀ (n : Nat) (t : Bool), 1 ≤ n → n ≤ 2 ^ 40 → ∀ i, i < n →
      IsFin (bernTri (if t then (1 : Float) else 0) (1 - (if t then (1 : Float) else 0)) (n - 1) i) ∧
      val (bernTri (if t then (1 : Float) else 0) (1 - (if t then (1 : Float) else 0)) (n - 1) i)
        = if i = (if t then n - 1 else 0) then 1 else 0 := by
    intro n t hn1 hn i hi
    cases t
    · refine ⟨(bernTri_apx h00 h01 _ i (by omega)).1, ?_⟩
      simp only [Bool.false_eq_true, if_false]
      rw [bernTri_ends h00 h01 (Or.inl zero_val.2) _ _ (by omega), zero_val.2, bernsteinPoly_at_zero]
    · refine ⟨(bernTri_apx h01 h11 _ i (by omega)).1, ?_⟩
      simp only [if_true]
      rw [bernTri_ends h01 h11 (Or.inr one_val.2) _ _ (by omega), one_val.2, bernsteinPoly_at_one _ _ (by omega)]
  unfold BezierSurface.getPoint
  rw [bernstein_tri _ hr1, bernstein_tri _ hc1]
  simp only [ok_bind]
  exact flatWeight_select hg (by split <;> omega) (by split <;> omega) (key _ a hr1 hr) (key _ b hc1 hc) hp le_rfl le_rfl

/-- **C106.** At the ends of clamped knot vectors a B-spline surface gives exactly the last corner of its net. -/
theorem C106_bspline_corner (s : BSplineSurface Float (V3 Float)) (hg : NetOk s.controlPoints) (hku : KnotsF s.knots.1)
    (hkv : KnotsF s.knots.2) (hlu : s.knots.1.length = s.controlPoints.rows + s.degree.1 + 1)
    (hlv : s.knots.2.length = s.controlPoints.cols + s.degree.2 + 1) (hr : 0 < s.controlPoints.rows)
    (hc : 0 < s.controlPoints.cols) (hnu : s.controlPoints.rows + s.degree.1 ≤ 2 ^ 40)
    (hnv : s.controlPoints.cols + s.degree.2 ≤ 2 ^ 40) (hcu : ClampedEnd s.knots.1 s.degree.1)
    (hcv : ClampedEnd s.knots.2 s.degree.2) (hp : ∀ p ∈ s.controlPoints.data, IsFin p.x ∧ IsFin p.y ∧ IsFin p.z) :
    ∃ x, s.getPoint (knot s.knots.1 (s.knots.1.length - 1)) (knot s.knots.2 (s.knots.2.length - 1)) = .ok x ∧
      IsFin x.x ∧ IsFin x.y ∧ IsFin x.z ∧
      toReal x = toReal (entry s.controlPoints (s.controlPoints.rows - 1) (s.controlPoints.cols - 1)) := by
  have dom : ∀ {knots : List Float} {p : Nat}, KnotsF knots → ClampedEnd knots p →
      DomainF knots p (knot knots (knots.length - 1)) := by
    intro knots p hk hce
    have := hce.room
    exact ⟨(hk.at _ (by omega)).1, hk.mono p _ (by omega) (by omega), Or.inr ⟨hce, rfl⟩⟩
  obtain ⟨a, A, hwa, a1, -, a3⟩ := bspline_weights hku hlu hr hnu (dom hku hcu)
  obtain ⟨b, B, hwb, b1, -, b3⟩ := bspline_weights hkv hlv hc hnv (dom hkv hcv)
  unfold BSplineSurface.getPoint
  rw [a1, b1]
  simp only [ok_bind]
  exact flatWeight_select hg (by omega) (by omega) (fun i hi => ⟨(hwa.fin i hi).1, a3 hcu rfl i hi⟩)
    (fun i hi => ⟨(hwb.fin i hi).1, b3 hcv rfl i hi⟩) hp le_rfl le_rfl

/-! ### C107 -/

theorem rational_limit {R : ℝ} (hR : R ≤ 2 ^ (1000 : Int)) : 3 * (1 + R) ≤ 2 ^ (1023 : Int) := by
  have h1 : (1 : ℝ) ≤ 2 ^ (1000 : Int) := one_le_zpow₀ (by norm_num) (by norm_num)
  have h2 : (2 : ℝ) ^ (1003 : Int) = 8 * 2 ^ (1000 : Int) := by
    rw [show (1003 : Int) = 3 + 1000 by norm_num, zpow_add₀ (by norm_num)]; norm_num
  refine le_trans ?_ (two_zpow_le (by norm_num : (1003 : Int) ≤ 1023))
  rw [h2]
  obtain ⟨T, hT⟩ : ∃ T : ℝ, 2 ^ (1000 : Int) = T := ⟨_, rfl⟩
  rw [hT] at hR h1 ⊢
  clear h2 hT
  linarith

theorem double_limit {x M : ℝ} (hM : M ≤ 2 ^ (1021 : Int)) (hx : x ≤ 2 * M) : x ≤ 2 ^ (1022 : Int) := by
  rw [show (1022 : Int) = 1 + 1021 by norm_num, zpow_add₀ (by norm_num), zpow_one]
  exact hx.trans (mul_le_mul_of_nonneg_left hM (by norm_num))

/-- Division by the computed weight. -/
theorem rational_coord {x w : Float} {X W e ω R : ℝ} (fx : IsFin x) (fw : IsFin w) (hx : |val x - X| ≤ e)
    (hw : |val w - W| ≤ e) (hω : (2 : ℝ) ^ (-1000 : Int) ≤ ω) (hW : ω ≤ W) (hX : |X| ≤ R * W) (he : e ≤ ω / 2)
    (hR : R ≤ 2 ^ (1000 : Int)) (hbig : |val x| ≤ 2 ^ (1022 : Int)) :
    IsFin (1 / w * x) ∧ |val (1 / w * x) - X / W| ≤ (1 + R) * (2 * e / ω + 2 ^ (-50 : Int)) := by
  have hε := eps_pos
  have hη := eta_pos
  have hηε : eta ≤ eps := eta_le.trans (by rw [eps_eq]; norm_num)
  have hε1 : eps ≤ 1 / 1000 := by rw [eps_eq]; norm_num
  have hω0 : 0 < ω := lt_of_lt_of_le (two_zpow_pos _) hω
  have hW0 : 0 < W := lt_of_lt_of_le hω0 hW
  have hR0 : 0 ≤ R := by
    by_contra h
    have := mul_neg_of_neg_of_pos (not_le.1 h) hW0
    linarith [abs_nonneg X]
  have hw1 : ω / 2 ≤ val w := by
    have := (abs_le.mp hw).1
    linarith
  have hw0 : 0 < val w := by linarith
  have hinv : 1 / val w ≤ 2 / ω := by
    rw [div_le_div_iff₀ hw0 hω0]; linarith
  have hT : (2 : ℝ) / ω ≤ 2 ^ (1001 : Int) := by
    rw [div_le_iff₀ hω0]
    have h1 : (2 : ℝ) ^ (1001 : Int) * 2 ^ (-1000 : Int) = 2 := by
      rw [← zpow_add₀ (by norm_num)]; norm_num
    calc (2 : ℝ) = 2 ^ (1001 : Int) * 2 ^ (-1000 : Int) := h1.symm
      _ ≤ _ := mul_le_mul_of_nonneg_left hω (two_zpow_pos _).le
  have hinv0 : 0 < 1 / val w := by positivity
  obtain ⟨fi, ri⟩ := div_rounds one_val.1 fw hw0.ne' (by
    rw [one_val.2, abs_of_pos hinv0]
    refine (le_abs_self _).trans (small_le_max ?_)
    rw [abs_of_pos hinv0]
    exact hinv.trans (hT.trans (two_zpow_le (by norm_num))))
  rw [one_val.2] at ri
  have bi := ri.bound
  rw [abs_of_pos hinv0] at bi
  -- the quotient of the computed numbers
  set y := val x / val w with hy
  have hyX : |y - X / W| ≤ (1 + R) * (2 * e / ω) := by
    have e1 : y - X / W = ((val x - X) * W - X * (val w - W)) / (val w * W) := by
      rw [hy]; field_simp; ring
    rw [e1, abs_div, abs_of_pos (mul_pos hw0 hW0), div_le_iff₀ (mul_pos hw0 hW0)]
    have he0 : 0 ≤ e := (abs_nonneg _).trans hx
    have h1 : |(val x - X) * W - X * (val w - W)| ≤ e * W * (1 + R) := by
      refine (abs_sub _ _).trans ?_
      rw [abs_mul, abs_mul, abs_of_pos hW0]
      have a1 := mul_le_mul_of_nonneg_right hx hW0.le
      have a2 := mul_le_mul hX hw (abs_nonneg _) (mul_nonneg hR0 hW0.le)
      nlinarith
    refine h1.trans ?_
    have h2 : e ≤ 2 * e / ω * val w := by
      rw [div_mul_eq_mul_div, le_div_iff₀ hω0]
      nlinarith
    calc e * W * (1 + R) = (1 + R) * W * e := by ring
      _ ≤ (1 + R) * W * (2 * e / ω * val w) := mul_le_mul_of_nonneg_left h2 (mul_nonneg (by linarith) hW0.le)
      _ = _ := by ring
  have hXW : |X / W| ≤ R := by
    rw [abs_div, abs_of_pos hW0, div_le_iff₀ hW0]; exact hX
  have heω : 2 * e / ω ≤ 1 := by rw [div_le_one hω0]; linarith
  have hyb : |y| ≤ 2 * (1 + R) := by
    have h1 : |y| ≤ |y - X / W| + |X / W| := by
      have := abs_add_le (y - X / W) (X / W)
      rwa [sub_add_cancel] at this
    have h2 := mul_le_mul_of_nonneg_left heω (by linarith : 0 ≤ 1 + R)
    linarith
  have hηx : eta * |val x| ≤ eps := by
    have h1 : eta * 2 ^ (1022 : Int) = eps := by
      rw [eta, eps, ← zpow_add₀ (by norm_num)]; norm_num
    rw [← h1]
    exact mul_le_mul_of_nonneg_left hbig hη.le
  have hp : |val (1 / w) * val x - y| ≤ eps * |y| + eps := by
    have e1 : val (1 / w) * val x - y = (val (1 / w) - 1 / val w) * val x := by rw [hy]; ring
    rw [e1, abs_mul]
    have h1 := mul_le_mul_of_nonneg_right bi (abs_nonneg (val x))
    have h2 : |y| = 1 / val w * |val x| := by
      rw [hy, abs_div, abs_of_pos hw0]; ring
    rw [h2]
    nlinarith
  have hpb : |val (1 / w) * val x| ≤ 3 * (1 + R) := by
    have h1 : |val (1 / w) * val x| ≤ |val (1 / w) * val x - y| + |y| := by
      have := abs_add_le (val (1 / w) * val x - y) y
      rwa [sub_add_cancel] at this
    have h2 := mul_le_mul_of_nonneg_right hε1 (abs_nonneg y)
    linarith
  obtain ⟨fr, rr⟩ := mul_rounds fi fx (small_le_max (by
    exact hpb.trans (rational_limit hR)))
  refine ⟨fr, ?_⟩
  have br := rr.bound
  have e50 : (2 : ℝ) ^ (-50 : Int) = 8 * eps := by rw [eps_eq]; norm_num
  rw [e50]
  clear hR hbig hT hω
  have t1 := abs_sub_le (val (1 / w * x)) (val (1 / w) * val x) (X / W)
  have t2 := abs_sub_le (val (1 / w) * val x) y (X / W)
  have h2 := mul_le_mul_of_nonneg_left hyb hε.le
  have h3 := mul_le_mul_of_nonneg_left hpb hε.le
  have h4 : 0 ≤ eps * R := mul_nonneg hε.le hR0
  linarith

section v4
variable (b : Nat → Float) (pts : List (V4 Float))

theorem v4_accum_x : (linComb (tab pts.length b) pts).x = accum b (fun i => (pts.getD i 0).x) pts.length :=
  linComb_accum (fun p : V4 Float => p.x) rfl (fun _ _ => rfl) (fun _ _ => rfl) b pts
theorem v4_accum_y : (linComb (tab pts.length b) pts).y = accum b (fun i => (pts.getD i 0).y) pts.length :=
  linComb_accum (fun p : V4 Float => p.y) rfl (fun _ _ => rfl) (fun _ _ => rfl) b pts
theorem v4_accum_z : (linComb (tab pts.length b) pts).z = accum b (fun i => (pts.getD i 0).z) pts.length :=
  linComb_accum (fun p : V4 Float => p.z) rfl (fun _ _ => rfl) (fun _ _ => rfl) b pts
theorem v4_accum_w : (linComb (tab pts.length b) pts).w = accum b (fun i => (pts.getD i 0).w) pts.length :=
  linComb_accum (fun p : V4 Float => p.w) rfl (fun _ _ => rfl) (fun _ _ => rfl) b pts

end v4

/-- Homogeneous control points with coordinates of absolute value at most `M`, weights of at least `ω` and Euclidean
coordinates of absolute value at most `R`. -/
structure F64.Rational (M ω R : ℝ) (p : V4 Float) : Prop where
  bounded : Bounded4 M p
  weight : ω ≤ val p.w
  x : |val p.x| ≤ R * val p.w
  y : |val p.y| ≤ R * val p.w
  z : |val p.z| ≤ R * val p.w

theorem Computes.rational {pts : List (V4 Float)} {k : Nat} {α : ℝ} {h : V4 Float} {H : V4 ℝ}
    (hc : Computes toReal4 pts k α h H) (hα : α ≤ 1 / 10) (hk : k ≤ 2 ^ 41) {M ω R e : ℝ} (hM : M ≤ 2 ^ (1021 : Int))
    (hω : (2 : ℝ) ^ (-1000 : Int) ≤ ω) (hR : R ≤ 2 ^ (1000 : Int)) (hb : ∀ p ∈ pts, Rational M ω R p)
    (he : (3 * k * eps + α) * M + 3 * k * eta ≤ e) (heω : e ≤ ω / 2) (hpts : 0 < pts.length) :
    Near ((1 + R) * (2 * e / ω + 2 ^ (-50 : Int))) ((1 / h.w) * h.truncate) (euclid H) := by
  obtain ⟨a, A, hw, rfl, rfl⟩ := hc
  have h0 := (hb _ (getD_mem_of_lt hpts 0))
  have hM0 : 0 ≤ M := (abs_nonneg _).trans h0.bounded.1.2
  have hω0 : 0 < ω := lt_of_lt_of_le (two_zpow_pos _) hω
  have hωM : ω ≤ M := h0.weight.trans ((le_abs_self _).trans h0.bounded.2.2.2.2)
  have hM3 : M ≤ 2 ^ (1022 : Int) := double_limit hM (by clear hM hω hR; linarith)
  have key := fun (π : V4 Float → Float) (hπ : ∀ p ∈ pts, IsFin (π p) ∧ |val (π p)| ≤ M) =>
    hw.accum hα hk (p := fun i => π (pts.getD i 0)) hM0 hM3 (fun i hi => hπ _ (getD_mem_of_lt hi 0))
  have hx : ∀ (s : Finset Nat) (f : Nat → V4 ℝ), (∑ i ∈ s, f i).x = ∑ i ∈ s, (f i).x :=
    fun s f => map_sum (⟨⟨V4.x, rfl⟩, fun _ _ => rfl⟩ : V4 ℝ →+ ℝ) f s
  have hy : ∀ (s : Finset Nat) (f : Nat → V4 ℝ), (∑ i ∈ s, f i).y = ∑ i ∈ s, (f i).y :=
    fun s f => map_sum (⟨⟨V4.y, rfl⟩, fun _ _ => rfl⟩ : V4 ℝ →+ ℝ) f s
  have hz : ∀ (s : Finset Nat) (f : Nat → V4 ℝ), (∑ i ∈ s, f i).z = ∑ i ∈ s, (f i).z :=
    fun s f => map_sum (⟨⟨V4.z, rfl⟩, fun _ _ => rfl⟩ : V4 ℝ →+ ℝ) f s
  have hW : ∀ (s : Finset Nat) (f : Nat → V4 ℝ), (∑ i ∈ s, f i).w = ∑ i ∈ s, (f i).w :=
    fun s f => map_sum (⟨⟨V4.w, rfl⟩, fun _ _ => rfl⟩ : V4 ℝ →+ ℝ) f s
  obtain ⟨fw, ew⟩ := key (fun p => p.w) (fun p h => (hb p h).bounded.2.2.2)
  have hWω : ω ≤ ∑ i ∈ Finset.range pts.length, A i * val (pts.getD i 0).w := by
    calc ω = ∑ i ∈ Finset.range pts.length, A i * ω := by rw [← Finset.sum_mul, hw.sum, one_mul]
      _ ≤ _ := Finset.sum_le_sum fun i hi => by
        rw [Finset.mem_range] at hi
        exact mul_le_mul_of_nonneg_left (hb _ (getD_mem_of_lt hi 0)).weight (hw.nonneg i hi)
  have coord : ∀ (π : V4 Float → Float), (∀ p ∈ pts, IsFin (π p) ∧ |val (π p)| ≤ M) →
      (∀ p ∈ pts, |val (π p)| ≤ R * val p.w) → _ := fun π h1 h2 =>
    rational_coord (key π h1).1 fw ((key π h1).2.trans he) (ew.trans he) hω hWω
      (by
        calc _ ≤ ∑ i ∈ Finset.range pts.length, |A i * val (π (pts.getD i 0))| := Finset.abs_sum_le_sum_abs _ _
          _ ≤ ∑ i ∈ Finset.range pts.length, A i * (R * val (pts.getD i 0).w) := Finset.sum_le_sum fun i hi => by
              rw [Finset.mem_range] at hi
              rw [abs_mul, abs_of_nonneg (hw.nonneg i hi)]
              exact mul_le_mul_of_nonneg_left (h2 _ (getD_mem_of_lt hi 0)) (hw.nonneg i hi)
          _ = _ := by rw [Finset.mul_sum]; exact Finset.sum_congr rfl fun i _ => by ring)
      heω hR
      (by
        have h3 : |∑ i ∈ Finset.range pts.length, A i * val (π (pts.getD i 0))| ≤ M := by
          calc _ ≤ ∑ i ∈ Finset.range pts.length, |A i * val (π (pts.getD i 0))| := Finset.abs_sum_le_sum_abs _ _
            _ ≤ ∑ i ∈ Finset.range pts.length, A i * M := Finset.sum_le_sum fun i hi => by
                rw [Finset.mem_range] at hi
                rw [abs_mul, abs_of_nonneg (hw.nonneg i hi)]
                exact mul_le_mul_of_nonneg_left (h1 _ (getD_mem_of_lt hi 0)).2 (hw.nonneg i hi)
            _ = M := by rw [← Finset.sum_mul, hw.sum, one_mul]
        have h4 := abs_add_le (val (accum a (fun i => π (pts.getD i 0)) pts.length)
          - ∑ i ∈ Finset.range pts.length, A i * val (π (pts.getD i 0)))
          (∑ i ∈ Finset.range pts.length, A i * val (π (pts.getD i 0)))
        rw [sub_add_cancel] at h4
        have h5 := (key π h1).2.trans he
        refine double_limit hM ?_
        clear hM hω hR hM3
        linarith)
  refine ⟨?_, ?_, ?_⟩
  · show IsFin (1 / (linComb (tab pts.length a) pts).w * (linComb (tab pts.length a) pts).x) ∧
      |val (1 / (linComb (tab pts.length a) pts).w * (linComb (tab pts.length a) pts).x) - (_ : V4 ℝ).x / (_ : V4 ℝ).w| ≤ _
    rw [v4_accum_x, v4_accum_w, hx, hW]
    exact coord (fun p => p.x) (fun p h => (hb p h).bounded.1) (fun p h => (hb p h).x)
  · show IsFin (1 / (linComb (tab pts.length a) pts).w * (linComb (tab pts.length a) pts).y) ∧
      |val (1 / (linComb (tab pts.length a) pts).w * (linComb (tab pts.length a) pts).y) - (_ : V4 ℝ).y / (_ : V4 ℝ).w| ≤ _
    rw [v4_accum_y, v4_accum_w, hy, hW]
    exact coord (fun p => p.y) (fun p h => (hb p h).bounded.2.1) (fun p h => (hb p h).y)
  · show IsFin (1 / (linComb (tab pts.length a) pts).w * (linComb (tab pts.length a) pts).z) ∧
      |val (1 / (linComb (tab pts.length a) pts).w * (linComb (tab pts.length a) pts).z) - (_ : V4 ℝ).z / (_ : V4 ℝ).w| ≤ _
    rw [v4_accum_z, v4_accum_w, hz, hW]
    exact coord (fun p => p.z) (fun p h => (hb p h).bounded.2.2.1) (fun p h => (hb p h).z)

/-- The error bound in the form needed. -/
theorem rational_bound {K : Nat} {c m M e : ℝ} (hm : 0 ≤ M) (hc : 3 + c ≤ m)
    (he : e = K * (m * eps) * M + K * 2 ^ (-1073 : Int)) : (3 * K * eps + c * (K * eps)) * M + 3 * K * eta ≤ e := by
  rw [he, e1073]
  have hK0 : (0 : ℝ) ≤ K := Nat.cast_nonneg _
  have h1 := mul_nonneg (mul_nonneg hK0 eps_pos.le) hm
  have h2 := mul_nonneg hK0 eta_pos.le
  have h3 := mul_le_mul_of_nonneg_right hc h1
  linarith

theorem rational_M {pts : List (V4 Float)} {M ω R : ℝ} (h : 0 < pts.length) (hb : ∀ p ∈ pts, Rational M ω R p) : 0 ≤ M :=
  (abs_nonneg _).trans (hb _ (getD_mem_of_lt h 0)).bounded.1.2

theorem small_count {K : Nat} {c : ℝ} (hc0 : 0 ≤ c) (hc : c ≤ 100) (hK : K ≤ 2 ^ 40) : c * ((K : ℝ) * eps) ≤ 1 / 10 := by
  have hKR : (K : ℝ) ≤ 2 ^ 40 := by exact_mod_cast hK
  have h1 := mul_le_mul_of_nonneg_right hKR eps_pos.le
  calc c * ((K : ℝ) * eps) ≤ 100 * (2 ^ 40 * eps) :=
        mul_le_mul hc h1 (mul_nonneg (Nat.cast_nonneg _) eps_pos.le) (by norm_num)
    _ ≤ 1 / 10 := by rw [eps_eq]; norm_num

theorem Computes.mono {P Q : Type} [Add P] [Zero P] [HMul Float P P] [AddCommGroup Q] [Module ℝ Q] {f : P → Q}
    {pts : List P} {k k' : Nat} {α α' : ℝ} {x : P} {q : Q} (h : Computes f pts k α x q) (hk : k ≤ k') (hα : α ≤ α') :
    Computes f pts k' α' x q := by
  obtain ⟨a, A, hw, e1, e2⟩ := h
  exact ⟨a, A, hw.mono hk hα, e1, e2⟩

/-- **C107.** Rational Bézier curves: for every binary64 parameter in `[0, 1]` the division by the computed weight is
safe and the computed point is near the exact one, provided that the error `e` of the homogeneous coordinates is at most
half the smallest weight. -/
theorem C107_bezier_curve (c : BezierCurve (V4 Float)) (hc1 : 1 ≤ c.controlPoints.length)
    (hc : c.controlPoints.length ≤ 2 ^ 40) (u : Float) (h0 : 0 ≤ u) (h1 : u ≤ 1) (M ω R e : ℝ)
    (hM : M ≤ 2 ^ (1021 : Int)) (hω : (2 : ℝ) ^ (-1000 : Int) ≤ ω) (hR : R ≤ 2 ^ (1000 : Int))
    (hb : ∀ p ∈ c.controlPoints, Rational M ω R p)
    (he : e = c.controlPoints.length * 2 ^ (-50 : Int) * M + c.controlPoints.length * 2 ^ (-1073 : Int)) (heω : e ≤ ω / 2) :
    ∃ x q, c.getPointRational u = .ok x ∧
      (BezierCurve.mk (c.controlPoints.map toReal4)).getPointRational (val u) = .ok q ∧
      Near ((1 + R) * (2 * e / ω + 2 ^ (-50 : Int))) x q := by
  obtain ⟨h, H, e1, e2, hcmp⟩ := bezierCurve_computes toReal4 c hc1 hc h0 h1
  have e50 : (2 : ℝ) ^ (-50 : Int) = 8 * eps := by rw [eps_eq]; norm_num
  have hM0 := rational_M hc1 hb
  have hcmp' := hcmp.mono (α' := 5 * (c.controlPoints.length * eps)) le_rfl (by
    have : ((c.controlPoints.length - 1 : Nat) : ℝ) ≤ c.controlPoints.length := by exact_mod_cast Nat.sub_le _ _
    have := mul_le_mul_of_nonneg_right this eps_pos.le
    linarith)
  refine ⟨_, _, ?_, ?_, hcmp'.rational (small_count (by norm_num) (by norm_num) hc) (by omega) hM hω hR hb
    (rational_bound (m := 8) hM0 (by norm_num) (by rw [← e50]; exact he)) heω hc1⟩
  · unfold BezierCurve.getPointRational
    rw [e1]
    rfl
  · unfold BezierCurve.getPointRational
    rw [e2, ← rational_eq]
    rfl

/-- **C107.** Rational B-spline curves: the same for every binary64 parameter of the domain. -/
theorem C107_bspline_curve (c : BSplineCurve Float (V4 Float)) (hk : KnotsF c.knots)
    (hlen : c.knots.length = c.controlPoints.length + c.degree + 1) (hpts : 0 < c.controlPoints.length)
    (hn : c.controlPoints.length + c.degree ≤ 2 ^ 40) (u : Float) (hu : DomainF c.knots c.degree u) (M ω R e : ℝ)
    (hM : M ≤ 2 ^ (1021 : Int)) (hω : (2 : ℝ) ^ (-1000 : Int) ≤ ω) (hR : R ≤ 2 ^ (1000 : Int))
    (hb : ∀ p ∈ c.controlPoints, Rational M ω R p)
    (he : e = (c.degree + 1 : Nat) * 2 ^ (-48 : Int) * M + (c.degree + 1 : Nat) * 2 ^ (-1073 : Int)) (heω : e ≤ ω / 2) :
    ∃ x q, c.getPointRational u = .ok x ∧
      (BSplineCurve.mk (c.controlPoints.map toReal4) (c.knots.map val) c.degree).getPointRational (val u) = .ok q ∧
      Near ((1 + R) * (2 * e / ω + 2 ^ (-50 : Int))) x q := by
  obtain ⟨h, H, e1, e2, hcmp⟩ := bsplineCurve_computes toReal4 c hk hlen hpts hn hu
  have e48 : (2 : ℝ) ^ (-48 : Int) = 32 * eps := by rw [eps_eq]; norm_num
  have hM0 := rational_M hpts hb
  have hcmp' := hcmp.mono (α' := 16 * ((c.degree + 1 : Nat) * eps)) le_rfl (by
    have : (c.degree : ℝ) ≤ (c.degree + 1 : Nat) := by exact_mod_cast Nat.le_succ _
    have := mul_le_mul_of_nonneg_right this eps_pos.le
    linarith)
  refine ⟨_, _, ?_, ?_, hcmp'.rational (small_count (by norm_num) (by norm_num) (by omega)) (by omega) hM hω hR hb
    (rational_bound (m := 32) hM0 (by norm_num) (by rw [← e48]; exact he)) heω hpts⟩
  · unfold BSplineCurve.getPointRational
    rw [e1]
    rfl
  · unfold BSplineCurve.getPointRational
    rw [e2, ← rational_eq]
    rfl

/-- **C107.** Rational Bézier surfaces on the unit square. -/
theorem C107_bezier_surface (s : BezierSurface (V4 Float)) (hg : NetOk s.controlPoints) (hr1 : 1 ≤ s.controlPoints.rows)
    (hc1 : 1 ≤ s.controlPoints.cols) (hrc : s.controlPoints.rows * s.controlPoints.cols ≤ 2 ^ 40) (u v : Float)
    (hu0 : 0 ≤ u) (hu1 : u ≤ 1) (hv0 : 0 ≤ v) (hv1 : v ≤ 1) (M ω R e : ℝ)
    (hM : M ≤ 2 ^ (1021 : Int)) (hω : (2 : ℝ) ^ (-1000 : Int) ≤ ω) (hR : R ≤ 2 ^ (1000 : Int))
    (hb : ∀ p ∈ s.controlPoints.data, Rational M ω R p)
    (he : e = (s.controlPoints.rows * s.controlPoints.cols : Nat) * 2 ^ (-49 : Int) * M
      + (s.controlPoints.rows * s.controlPoints.cols : Nat) * 2 ^ (-1073 : Int)) (heω : e ≤ ω / 2) :
    ∃ x q, s.getPointRational u v = .ok x ∧
      (BezierSurface.mk (mapNet toReal4 s.controlPoints)).getPointRational (val u) (val v) = .ok q ∧
      Near ((1 + R) * (2 * e / ω + 2 ^ (-50 : Int))) x q := by
  obtain ⟨h, H, e1, e2, hcmp⟩ := bezierSurface_computes toReal4 s hg hr1 hc1 hrc hu0 hu1 hv0 hv1
  have e49 : (2 : ℝ) ^ (-49 : Int) = 16 * eps := by rw [eps_eq]; norm_num
  have hlen : 0 < s.controlPoints.data.length := by rw [hg]; exact Nat.mul_pos hr1 hc1
  have hM0 := rational_M hlen hb
  refine ⟨_, _, ?_, ?_, hcmp.rational (small_count (by norm_num) (by norm_num) hrc) (by omega) hM hω hR hb
    (rational_bound (m := 16) hM0 (by norm_num) (by rw [← e49]; exact he)) heω hlen⟩
  · unfold BezierSurface.getPointRational
    rw [e1]
    rfl
  · unfold BezierSurface.getPointRational
    rw [e2, ← rational_eq]
    rfl

/-- **C107.** Rational B-spline surfaces (NURBS) on the domain. -/
theorem C107_bspline_surface (s : BSplineSurface Float (V4 Float)) (hg : NetOk s.controlPoints) (hku : KnotsF s.knots.1)
    (hkv : KnotsF s.knots.2) (hlu : s.knots.1.length = s.controlPoints.rows + s.degree.1 + 1)
    (hlv : s.knots.2.length = s.controlPoints.cols + s.degree.2 + 1) (hr : 0 < s.controlPoints.rows)
    (hc : 0 < s.controlPoints.cols) (hnu : s.controlPoints.rows + s.degree.1 ≤ 2 ^ 40)
    (hnv : s.controlPoints.cols + s.degree.2 ≤ 2 ^ 40) (hd : (s.degree.1 + 1) * (s.degree.2 + 1) ≤ 2 ^ 40) (u v : Float)
    (hu : DomainF s.knots.1 s.degree.1 u) (hv : DomainF s.knots.2 s.degree.2 v) (M ω R e : ℝ)
    (hM : M ≤ 2 ^ (1021 : Int)) (hω : (2 : ℝ) ^ (-1000 : Int) ≤ ω) (hR : R ≤ 2 ^ (1000 : Int))
    (hb : ∀ p ∈ s.controlPoints.data, Rational M ω R p)
    (he : e = ((s.degree.1 + 1) * (s.degree.2 + 1) : Nat) * 2 ^ (-48 : Int) * M
      + ((s.degree.1 + 1) * (s.degree.2 + 1) : Nat) * 2 ^ (-1073 : Int)) (heω : e ≤ ω / 2) :
    ∃ x q, s.getPointRational u v = .ok x ∧
      (BSplineSurface.mk (mapNet toReal4 s.controlPoints) (s.knots.1.map val, s.knots.2.map val) s.degree).getPointRational
        (val u) (val v) = .ok q ∧
      Near ((1 + R) * (2 * e / ω + 2 ^ (-50 : Int))) x q := by
  obtain ⟨h, H, e1, e2, hcmp⟩ := bsplineSurface_computes toReal4 s hg hku hkv hlu hlv hr hc hnu hnv hd hu hv
  have e48 : (2 : ℝ) ^ (-48 : Int) = 32 * eps := by rw [eps_eq]; norm_num
  have hlen : 0 < s.controlPoints.data.length := by rw [hg]; exact Nat.mul_pos hr hc
  have hM0 := rational_M hlen hb
  refine ⟨_, _, ?_, ?_, hcmp.rational (small_count (by norm_num) (by norm_num) hd) (by omega) hM hω hR hb
    (rational_bound (m := 32) hM0 (by norm_num) (by rw [← e48]; exact he)) heω hlen⟩
  · unfold BSplineSurface.getPointRational
    rw [e1]
    rfl
  · unfold BSplineSurface.getPointRational
    rw [e2, ← rational_eq]
    rfl

/-- The bound from below of the weights is needed: with the positive weights `2 ^ -1074` the reciprocal overflows and the
curve is infinite although all control points are `(1, 0, 0)`. -/
theorem C107_tiny_weight (t : Float) (ht : t.toBits = 1) :
    ((BezierCurve.mk [(⟨t, 0, 0, t⟩ : V4 Float), ⟨t, 0, 0, t⟩]).getPointRational 0).toOption.map
      (fun p => (p.x.toBits, p.y.isNaN)) = some (0x7FF0000000000000, true) := by
  obtain rfl : t = Float.ofBits 1 := toBits_ext (ht.trans (by decide +kernel))
  decide +kernel

example : ((BezierSurface.mk (⟨[⟨0, 0, 0⟩, ⟨0, 1, 0⟩, ⟨1, 0, 0⟩, (⟨1, 1, 4⟩ : V3 Float)], 2, 2⟩ : Grid (V3 Float))).getPoint
    (Float.ofBits 0x3FE0000000000000) (Float.ofBits 0x3FE0000000000000)).toOption.map (fun p => (p.x.toBits, p.y.toBits, p.z.toBits))
    = some (0x3FE0000000000000, 0x3FE0000000000000, 0x3FF0000000000000) := by decide +kernel

example : Rational 2 1 2 (⟨2, 0, 0, 1⟩ : V4 Float) := by
  have v1 := one_val
  have v0 := zero_val
  have v2 : IsFin (2 : Float) ∧ val (2 : Float) = 2 := by
    obtain ⟨a, b⟩ := ofNat_val (n := 2) (by norm_num)
    exact ⟨a, b.trans (by norm_num)⟩
  refine ⟨⟨⟨v2.1, ?_⟩, ⟨v0.1, ?_⟩, ⟨v0.1, ?_⟩, ⟨v1.1, ?_⟩⟩, ?_, ?_, ?_, ?_⟩ <;> simp [v2.2, v0.2, v1.2]

example : ClampedEnd [0, 0, 1, (3 : Float), 3] 1 ∧ DomainF [0, 0, 1, (3 : Float), 3] 1 2 ∧
    DomainF [0, 0, 1, (3 : Float), 3] 1 3 := by
  have v1 := one_val
  have v0 := zero_val
  have v2 : IsFin (2 : Float) ∧ val (2 : Float) = 2 := by
    obtain ⟨a, b⟩ := ofNat_val (n := 2) (by norm_num)
    exact ⟨a, b.trans (by norm_num)⟩
  have v3 : IsFin (3 : Float) ∧ val (3 : Float) = 3 := by
    obtain ⟨a, b⟩ := ofNat_val (n := 3) (by norm_num)
    exact ⟨a, b.trans (by norm_num)⟩
  have hc : ClampedEnd [0, 0, 1, (3 : Float), 3] 1 := by
    refine ⟨by simp, ?_, ?_⟩
    · intro j h1 h2
      simp only [List.length_cons, List.length_nil] at h1 h2
      obtain rfl | rfl : j = 3 ∨ j = 4 := by omega
      · simp [knot]
      · simp [knot]
    · intro j h1
      simp only [List.length_cons, List.length_nil] at h1
      obtain rfl | rfl | rfl : j = 0 ∨ j = 1 ∨ j = 2 := by omega
      · exact ⟨by simp [knot, v0.2, v3.2], by decide +kernel⟩
      · exact ⟨by simp [knot, v0.2, v3.2], by decide +kernel⟩
      · exact ⟨by simp [knot, v1.2, v3.2], by decide +kernel⟩
  refine ⟨hc, ⟨v2.1, by simp [knot, v0.2, v2.2], Or.inl (by simp [knot, v2.2, v3.2]; norm_num)⟩,
    ⟨v3.1, by simp [knot, v0.2, v3.2], Or.inr ⟨hc, by simp [knot]⟩⟩⟩

end Geom3d
