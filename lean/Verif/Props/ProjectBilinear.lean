import Verif.Props.ProjectSurface
import Verif.Props.PatchDeviation
import Verif.Props.ProjectCurve
import Mathlib.Tactic.IntervalCases

/-!
# Projection onto bilinear patches (C159)

`BSplineSurface::project_points` (`src/surface/bspline.rs:110-166`) on patches `o + u a + v b + uv c`, of any degrees and knots:
near a foot point the error is squared with each trial, and for the points of patches of little twist the start is near enough.
-/

namespace Geom3d
open Spec

/-- The patch `o + u a + v b + uv c` with its derivatives. -/
noncomputable def Spec.bilinearJet (o a b c : V3 ℝ) : Jet :=
  ⟨fun u v => o + u • a + v • b + (u * v) • c, fun _ v => a + v • c, fun u _ => b + u • c, fun _ _ => 0, fun _ _ => c, fun _ _ => 0⟩

/-- The control points of such a patch. -/
def Spec.BilinearNet (s : BSplineSurface ℝ (V3 ℝ)) (o a b c : V3 ℝ) : Prop :=
  ∀ i j, i < s.controlPoints.rows → j < s.controlPoints.cols →
    entry s.controlPoints i j = o + site (knot s.knots.1) s.degree.1 i • a + site (knot s.knots.2) s.degree.2 j • b
      + (site (knot s.knots.1) s.degree.1 i * site (knot s.knots.2) s.degree.2 j) • c

namespace Patch
section
variable {P : Type} [AddCommGroup P] [Module ℝ P] [HMul ℝ P P] [HMul P ℝ P] [LawfulPoint ℝ P]

/-- Nets that are products of sequences. -/
theorem tensor_value {s : BSplineSurface ℝ P} (h : s.Good) {o a b c : P} {X Y : Nat → ℝ}
    (hn : ∀ i j, i < s.controlPoints.rows → j < s.controlPoints.cols →
      entry s.controlPoints i j = o + X i • a + Y j • b + (X i * Y j) • c) {u v x y : ℝ} (hu : knot s.knots.1 0 ≤ u)
    (hv : knot s.knots.2 0 ≤ v)
    (hX : ∀ k, s.degree.1 ≤ k → k < s.controlPoints.rows → SpanAt (knot s.knots.1) (s.controlPoints.rows + s.degree.1) k →
      ∑ i ∈ Finset.range s.controlPoints.rows, piece (knot s.knots.1) k s.degree.1 i u * X i = x)
    (hY : ∀ k, s.degree.2 ≤ k → k < s.controlPoints.cols → SpanAt (knot s.knots.2) (s.controlPoints.cols + s.degree.2) k →
      ∑ j ∈ Finset.range s.controlPoints.cols, piece (knot s.knots.2) k s.degree.2 j v * Y j = y) :
    s.getPoint u v = .ok (o + x • a + y • b + (x * y) • c) := by
  have hs := h.valid
  obtain ⟨k, a1, a2, ha⟩ := span hs.lenU hs.sortedU h.endsU hs.nonconstU hu
  obtain ⟨l, b1, b2, hb⟩ := span hs.lenV hs.sortedV h.endsV hs.nonconstV hv
  have spU : SpanAt (knot s.knots.1) (s.controlPoints.rows + s.degree.1) k := ⟨hs.monoU, ha.lt, ha.nonempty⟩
  have spV : SpanAt (knot s.knots.2) (s.controlPoints.cols + s.degree.2) l := ⟨hs.monoV, hb.lt, hb.nonempty⟩
  have sa := piece_sum spU u s.degree.1 _ a1 a2 (by omega)
  have sb := piece_sum spV v s.degree.2 _ b1 b2 (by omega)
  have ta := hX k a1 a2 spU
  have tb := hY l b1 b2 spV
  rw [bsplineSurface_pieces hs ha hb]
  congr 1
  have : ∀ i ∈ Finset.range s.controlPoints.rows, ∑ j ∈ Finset.range s.controlPoints.cols,
      (piece (knot s.knots.1) k s.degree.1 i u * piece (knot s.knots.2) l s.degree.2 j v) • entry s.controlPoints i j
        = piece (knot s.knots.1) k s.degree.1 i u • (o + y • b)
          + (piece (knot s.knots.1) k s.degree.1 i u * X i) • (a + y • c) := by
    intro i hi
    have : ∀ j ∈ Finset.range s.controlPoints.cols,
        (piece (knot s.knots.1) k s.degree.1 i u * piece (knot s.knots.2) l s.degree.2 j v) • entry s.controlPoints i j
          = piece (knot s.knots.2) l s.degree.2 j v • (piece (knot s.knots.1) k s.degree.1 i u • (o + X i • a))
            + (piece (knot s.knots.2) l s.degree.2 j v * Y j) •
              (piece (knot s.knots.1) k s.degree.1 i u • (b + X i • c)) := by
      intro j hj
      rw [hn i j (Finset.mem_range.1 hi) (Finset.mem_range.1 hj)]
      module
    rw [Finset.sum_congr rfl this, Finset.sum_add_distrib, ← Finset.sum_smul, ← Finset.sum_smul, sb, tb]
    module
  rw [Finset.sum_congr rfl this, Finset.sum_add_distrib, ← Finset.sum_smul, ← Finset.sum_smul, sa, ta]
  module

/-- The derivative in `u` of a surface whose columns rise evenly, each at its own rate. -/
theorem derivU_cols {s : BSplineSurface ℝ P} (h : s.Good) (hp : 1 ≤ s.degree.1) {g : Nat → P}
    (hd : ∀ i j, i + 1 < s.controlPoints.rows → j < s.controlPoints.cols →
      ((s.degree.1 : ℝ) / (knot s.knots.1 (i + s.degree.1 + 1) - knot s.knots.1 (i + 1)))
        • (entry s.controlPoints (i + 1) j - entry s.controlPoints i j) = g j) :
    ∃ s', s.derivativeU = .ok s' ∧ s'.Good ∧ s'.degree = (s.degree.1 - 1, s.degree.2) ∧
      knot s'.knots.1 0 = knot s.knots.1 0 ∧ s'.knots.2 = s.knots.2 ∧ s'.controlPoints.cols = s.controlPoints.cols ∧
      ∀ i j, i < s'.controlPoints.rows → j < s'.controlPoints.cols → entry s'.controlPoints i j = g j := by
  obtain ⟨s', e1, e2, e3, e4, e5⟩ := h.derivU hp
  have e1' := e1
  have hs := h.valid
  have hl := h.ltU
  rw [derivativeU_eq hs.net hs.lenU hp (by omega) hs.cols hs.resolvedU, Except.ok.injEq] at e1'
  refine ⟨s', e1, e2, e3, e4, by rw [← e1'], by rw [← e1'], ?_⟩
  rw [← e1']
  intro i j hi hj
  simp only at hi hj
  rw [entry_netTab _ hi hj]
  exact hd i j (by omega) hj

theorem derivV_rows {s : BSplineSurface ℝ P} (h : s.Good) (hp : 1 ≤ s.degree.2) {g : Nat → P}
    (hd : ∀ i j, i < s.controlPoints.rows → j + 1 < s.controlPoints.cols →
      ((s.degree.2 : ℝ) / (knot s.knots.2 (j + s.degree.2 + 1) - knot s.knots.2 (j + 1)))
        • (entry s.controlPoints i (j + 1) - entry s.controlPoints i j) = g i) :
    ∃ s', s.derivativeV = .ok s' ∧ s'.Good ∧ s'.degree = (s.degree.1, s.degree.2 - 1) ∧
      s'.knots.1 = s.knots.1 ∧ knot s'.knots.2 0 = knot s.knots.2 0 ∧ s'.controlPoints.rows = s.controlPoints.rows ∧
      ∀ i j, i < s'.controlPoints.rows → j < s'.controlPoints.cols → entry s'.controlPoints i j = g i := by
  obtain ⟨s', e1, e2, e3, e4, e5⟩ := h.derivV hp
  have e1' := e1
  have hs := h.valid
  have hl := h.ltV
  rw [derivativeV_eq hs.net hs.lenV hp (by omega) hs.rows hs.resolvedV, Except.ok.injEq] at e1'
  refine ⟨s', e1, e2, e3, by rw [← e1'], e5, by rw [← e1'], ?_⟩
  rw [← e1']
  intro i j hi hj
  simp only at hi hj
  rw [entry_netTab _ hi hj]
  exact hd i j hi (by omega)

/-- The derivative in `u` of a surface that depends on `v` only vanishes. -/
theorem cols_derivU {s s' : BSplineSurface ℝ P} (h : s.Good) {g : Nat → P}
    (hc : ∀ i j, i < s.controlPoints.rows → j < s.controlPoints.cols → entry s.controlPoints i j = g j)
    (h' : s.derivativeU = .ok s') {u v : ℝ} (hu : knot s.knots.1 0 ≤ u) (hv : knot s.knots.2 0 ≤ v) :
    s'.getPoint u v = .ok 0 := by
  rcases Nat.eq_zero_or_pos s.degree.1 with h0 | h0
  · obtain ⟨s1, e1, e2⟩ := (C60_degree_zero (s := s)).1 h0
    rw [h', Except.ok.injEq] at e1
    rw [e1]; exact e2 u v
  · obtain ⟨s1, e1, e2, e3, e4, e5, e6⟩ := derivU_net h h0 (a := (0 : P)) (fun i j hi hj => by
      rw [hc _ _ hi hj, hc _ _ (by omega) hj, sub_self, smul_zero])
    rw [h', Except.ok.injEq] at e1
    subst e1
    exact const_value e2 e6 (by rw [e4]; exact hu) (by rw [e5]; exact hv)

theorem rows_derivV {s s' : BSplineSurface ℝ P} (h : s.Good) {g : Nat → P}
    (hc : ∀ i j, i < s.controlPoints.rows → j < s.controlPoints.cols → entry s.controlPoints i j = g i)
    (h' : s.derivativeV = .ok s') {u v : ℝ} (hu : knot s.knots.1 0 ≤ u) (hv : knot s.knots.2 0 ≤ v) :
    s'.getPoint u v = .ok 0 := by
  rcases Nat.eq_zero_or_pos s.degree.2 with h0 | h0
  · obtain ⟨s1, e1, e2⟩ := (C60_degree_zero (s := s)).2 h0
    rw [h', Except.ok.injEq] at e1
    rw [e1]; exact e2 u v
  · obtain ⟨s1, e1, e2, e3, e4, e5, e6⟩ := derivV_net h h0 (a := (0 : P)) (fun i j hi hj => by
      rw [hc _ _ hi hj, hc _ _ hi (by omega), sub_self, smul_zero])
    rw [h', Except.ok.injEq] at e1
    subst e1
    exact const_value e2 e6 (by rw [e4]; exact hu) (by rw [e5]; exact hv)

end

/-- The surface and its derivatives are those of the bilinear map. -/
theorem bilinear_jet {s : BSplineSurface ℝ (V3 ℝ)} (hs : s.Good) (hp : 1 ≤ s.degree.1) (hq : 1 ≤ s.degree.2)
    (hgu : Rises s.knots.1 s.controlPoints.rows s.degree.1) (hgv : Rises s.knots.2 s.controlPoints.cols s.degree.2)
    {o a b c : V3 ℝ} (hn : BilinearNet s o a b c) {du dv duu duv dvv : BSplineSurface ℝ (V3 ℝ)} (u1 : s.derivativeU = .ok du)
    (v1 : s.derivativeV = .ok dv) (uu1 : du.derivativeU = .ok duu) (uv1 : du.derivativeV = .ok duv)
    (vv1 : dv.derivativeV = .ok dvv) :
    JetOn ⟨s.getPoint, du.getPoint, dv.getPoint, duu.getPoint, duv.getPoint, duv.getPoint, dvv.getPoint⟩ (bilinearJet o a b c)
      (boxLo s) (boxHi s) := by
  have hlU := hs.ltU
  have hlV := hs.ltV
  obtain ⟨du', a1, a2, a3, a4, a5, a6, a7⟩ := derivU_cols hs hp (g := fun j => a + site (knot s.knots.2) s.degree.2 j • c)
    (fun i j hi hj => by
      rw [hn _ _ hi hj, hn _ _ (by omega) hj]
      have e := step_one (t := knot s.knots.1) hp (hgu i hi)
      set α := (s.degree.1 : ℝ) / (knot s.knots.1 (i + s.degree.1 + 1) - knot s.knots.1 (i + 1))
      set x' := site (knot s.knots.1) s.degree.1 (i + 1)
      set x := site (knot s.knots.1) s.degree.1 i
      set y := site (knot s.knots.2) s.degree.2 j
      calc α • (o + x' • a + y • b + (x' * y) • c - (o + x • a + y • b + (x * y) • c)) = (α * (x' - x)) • (a + y • c) := by module
        _ = _ := by rw [e, one_smul])
  rw [u1, Except.ok.injEq] at a1
  subst a1
  obtain ⟨dv', b1, b2, b3, b4, b5, b6, b7⟩ := derivV_rows hs hq (g := fun i => b + site (knot s.knots.1) s.degree.1 i • c)
    (fun i j hi hj => by
      rw [hn _ _ hi hj, hn _ _ hi (by omega)]
      have e := step_one (t := knot s.knots.2) hq (hgv j hj)
      set α := (s.degree.2 : ℝ) / (knot s.knots.2 (j + s.degree.2 + 1) - knot s.knots.2 (j + 1))
      set x := site (knot s.knots.1) s.degree.1 i
      set y' := site (knot s.knots.2) s.degree.2 (j + 1)
      set y := site (knot s.knots.2) s.degree.2 j
      calc α • (o + x • a + y' • b + (x * y') • c - (o + x • a + y • b + (x * y) • c)) = (α * (y' - y)) • (b + x • c) := by module
        _ = _ := by rw [e, one_smul])
  rw [v1, Except.ok.injEq] at b1
  subst b1
  have d2 : du.degree.2 = s.degree.2 := by rw [a3]
  have d1 : dv.degree.1 = s.degree.1 := by rw [b3]
  -- the mixed derivative
  obtain ⟨duv', c1, c2, c3, c4, c5, c6⟩ := derivV_net a2 (by omega) (a := c) (fun i j hi hj => by
    rw [a7 _ _ hi hj, a7 _ _ hi (by omega), d2, a5]
    have e := step_one (t := knot s.knots.2) hq (hgv j (by omega))
    set α := (s.degree.2 : ℝ) / (knot s.knots.2 (j + s.degree.2 + 1) - knot s.knots.2 (j + 1))
    set y' := site (knot s.knots.2) s.degree.2 (j + 1)
    set y := site (knot s.knots.2) s.degree.2 j
    calc α • (a + y' • c - (a + y • c)) = (α * (y' - y)) • c := by module
      _ = _ := by rw [e, one_smul])
  rw [uv1, Except.ok.injEq] at c1
  subst c1
  have uvv : ∀ q, InBox (boxLo s) (boxHi s) q → duv.getPoint q.x q.y = .ok c := fun q h =>
    const_value c2 c6 (by rw [c4, a4]; exact h.1.1) (by rw [c5, a5]; exact h.2.1)
  refine ⟨fun q h => ?_, fun q h => ?_, fun q h => ?_, fun q h => ?_, uvv, uvv, fun q h => ?_⟩
  · exact tensor_value hs hn h.1.1 h.2.1 (fun k k1 k2 sp => Converge.site_sum sp q.x _ _ hp k1 k2 (by omega))
      (fun k k1 k2 sp => Converge.site_sum sp q.y _ _ hq k1 k2 (by omega))
  · have e := tensor_value a2 (o := a) (a := 0) (b := c) (c := 0) (X := fun _ => 0) (Y := site (knot s.knots.2) s.degree.2) (u := q.x) (v := q.y)
      (x := 0) (y := q.y) (fun i j hi hj => by rw [a7 i j hi hj]; simp) (by rw [a4]; exact h.1.1) (by rw [a5]; exact h.2.1)
      (fun k k1 k2 sp => by simp)
      (fun k k1 k2 sp => by
        have := Converge.site_sum sp q.y _ _ (by omega) k1 k2 (by omega)
        rw [d2, a5] at this ⊢
        exact this)
    show du.getPoint q.x q.y = .ok (a + q.y • c)
    rw [e]
    simp
  · have e := tensor_value b2 (o := b) (a := c) (b := 0) (c := 0) (X := site (knot s.knots.1) s.degree.1) (Y := fun _ => 0) (u := q.x) (v := q.y)
      (x := q.x) (y := 0) (fun i j hi hj => by rw [b7 i j hi hj]; simp) (by rw [b4]; exact h.1.1) (by rw [b5]; exact h.2.1)
      (fun k k1 k2 sp => by
        have := Converge.site_sum sp q.x _ _ (by omega) k1 k2 (by omega)
        rw [d1, b4] at this ⊢
        exact this)
      (fun k k1 k2 sp => by simp)
    show dv.getPoint q.x q.y = .ok (b + q.x • c)
    rw [e]
    simp
  · exact cols_derivU a2 a7 uu1 (by rw [a4]; exact h.1.1) (by rw [a5]; exact h.2.1)
  · exact rows_derivV b2 b7 vv1 (by rw [b4]; exact h.1.1) (by rw [b5]; exact h.2.1)

/-- Jets that agree on the rectangle give the same runs. -/
theorem run_congr {d : SurfaceJet ℝ} {J J' : Jet} {lo hi : V2 ℝ} (h : JetOn d J lo hi) (h' : JetOn d J' lo hi) {p : V3 ℝ} {n : Nat}
    {q0 q : V2 ℝ} (h0 : InBox lo hi q0) (hr : NewtonRun J p lo hi n q0 q) : NewtonRun J' p lo hi n q0 q := by
  obtain ⟨k, hk, f, f0, fk, fs, fe⟩ := hr
  have hlo : lo.x ≤ hi.x ∧ lo.y ≤ hi.y := ⟨h0.1.1.trans h0.1.2, h0.2.1.trans h0.2.2⟩
  have inb : ∀ m, m ≤ k → InBox lo hi (f m) := by
    intro m hm
    rcases m with _ | m
    · rw [f0]; exact h0
    · exact step_inBox hlo (fs m (by omega)).2
  have E : ∀ {q}, InBox lo hi q → J'.s q.x q.y = J.s q.x q.y ∧ J'.su q.x q.y = J.su q.x q.y ∧ J'.sv q.x q.y = J.sv q.x q.y ∧
      J'.suu q.x q.y = J.suu q.x q.y ∧ J'.suv q.x q.y = J.suv q.x q.y ∧ J'.svv q.x q.y = J.svv q.x q.y := by
    intro q hq
    have inj : ∀ {x : Res (V3 ℝ)} {y z}, x = .ok y → x = .ok z → z = y := fun h1 h2 => by
      rw [h1, Except.ok.injEq] at h2; exact h2.symm
    exact ⟨inj (h.s q hq) (h'.s q hq), inj (h.su q hq) (h'.su q hq), inj (h.sv q hq) (h'.sv q hq), inj (h.suu q hq) (h'.suu q hq),
      inj (h.suv q hq) (h'.suv q hq), inj (h.svv q hq) (h'.svv q hq)⟩
  have st : ∀ {q}, InBox lo hi q → (Stops2 J' p q ↔ Stops2 J p q) := by
    intro q hq
    obtain ⟨e1, e2, e3, -, -, -⟩ := E hq
    unfold Stops2
    simp only [e1, e2, e3]
  refine ⟨k, hk, f, f0, fk, fun m hm => ⟨fun hc => (fs m hm).1 ((st (inb m hm.le)).1 hc), ?_⟩, fun hlt => ?_⟩
  · obtain ⟨e1, e2, e3, e4, e5, e6⟩ := E (inb m hm.le)
    have := (fs m hm).2
    unfold Step2 at this ⊢
    simp only [e1, e2, e3, e4, e5, e6]
    exact this
  · have hq : InBox lo hi q := by rw [← fk]; exact inb k le_rfl
    exact (st hq).2 (fe hlt)

end Patch

open Patch

/-- Bounds for a bilinear patch over a rectangle: the speeds of both parameters are at most `V`, the twist is at most `C`, and
the map stretches by at least `ν`. -/
structure Spec.Twist (a b c : V3 ℝ) (lo hi : V2 ℝ) (V C ν : ℝ) : Prop where
  su : ∀ q, InBox lo hi q → (a + q.y • c).length ≤ V
  sv : ∀ q, InBox lo hi q → (b + q.x • c).length ≤ V
  twist : c.length ≤ C
  stretch : ∀ q, InBox lo hi q → ∀ x y : ℝ, ν ^ 2 * (x ^ 2 + y ^ 2) ≤
    (x • (a + q.y • c) + y • (b + q.x • c)).dot (x • (a + q.y • c) + y • (b + q.x • c))

namespace Patch
variable {o a b c : V3 ℝ} {lo hi : V2 ℝ} {V C ν : ℝ}

theorem mid_inBox {q w : V2 ℝ} (hq : InBox lo hi q) (hw : InBox lo hi w) : InBox lo hi ⟨(q.x + w.x) / 2, (q.y + w.y) / 2⟩ :=
  ⟨⟨by show _ ≤ (q.x + w.x) / 2; linarith [hq.1.1, hw.1.1], by show (q.x + w.x) / 2 ≤ _; linarith [hq.1.2, hw.1.2]⟩,
    ⟨by show _ ≤ (q.y + w.y) / 2; linarith [hq.2.1, hw.2.1], by show (q.y + w.y) / 2 ≤ _; linarith [hq.2.2, hw.2.2]⟩⟩

/-- Differences of points of the patch. -/
theorem diff_mid (q w : V2 ℝ) : (bilinearJet o a b c).s q.x q.y - (bilinearJet o a b c).s w.x w.y
    = (q.x - w.x) • (a + ((q.y + w.y) / 2) • c) + (q.y - w.y) • (b + ((q.x + w.x) / 2) • c) := by
  show (o + q.x • a + q.y • b + (q.x * q.y) • c) - (o + w.x • a + w.y • b + (w.x * w.y) • c) = _
  module

theorem abs_le_gap (q w : V2 ℝ) : |q.x - w.x| ≤ gap2 q w ∧ |q.y - w.y| ≤ gap2 q w :=
  ⟨Real.abs_le_sqrt (by nlinarith [sq_nonneg (q.y - w.y)]), Real.abs_le_sqrt (by nlinarith [sq_nonneg (q.x - w.x)])⟩

theorem gap_sq (q w : V2 ℝ) : gap2 q w ^ 2 = (q.x - w.x) ^ 2 + (q.y - w.y) ^ 2 := Real.sq_sqrt (by positivity)

theorem diff_le (h : Twist a b c lo hi V C ν) {q w : V2 ℝ} (hq : InBox lo hi q) (hw : InBox lo hi w) :
    ((bilinearJet o a b c).s q.x q.y - (bilinearJet o a b c).s w.x w.y).length ≤ V * (|q.x - w.x| + |q.y - w.y|) := by
  rw [diff_mid]
  refine (V3.length_add_le _ _).trans ?_
  rw [V3.length_smul, V3.length_smul]
  have h1 := mul_le_mul_of_nonneg_left (h.su _ (mid_inBox hq hw)) (abs_nonneg (q.x - w.x))
  have h2 := mul_le_mul_of_nonneg_left (h.sv _ (mid_inBox hq hw)) (abs_nonneg (q.y - w.y))
  simp only at h1 h2
  linarith

theorem three_squares (x y : ℝ) : |y| * (2 * |x| + |y|) + |x| * (|x| + 2 * |y|) ≤ 3 * (x ^ 2 + y ^ 2) := by
  nlinarith [sq_nonneg (|x| - |y|), sq_abs x, sq_abs y]

theorem sqrt_le_abs (s t : ℝ) : √(s ^ 2 + t ^ 2) ≤ |s| + |t| := by
  rw [Real.sqrt_le_left (by positivity)]
  nlinarith [mul_nonneg (abs_nonneg s) (abs_nonneg t), sq_abs s, sq_abs t]

/-- Near a foot a bilinear patch meets the conditions of `C159_newton`. -/
theorem bilinear_tame (h : Twist a b c lo hi V C ν) {p : V3 ℝ} {w : V2 ℝ} (hw : InBox lo hi w)
    (hfoot : (a + w.y • c).dot ((bilinearJet o a b c).s w.x w.y - p) = 0 ∧ (b + w.x • c).dot ((bilinearJet o a b c).s w.x w.y - p) = 0)
    {H : ℝ} (hH : ((bilinearJet o a b c).s w.x w.y - p).length ≤ H) (ρ : ℝ) :
    Tame2 (bilinearJet o a b c) p lo hi w ρ (ν ^ 2 - C * (2 * (V * ρ) + H)) (3 * (C * V)) := by
  have hV : 0 ≤ V := (V3.length_nonneg _).trans (h.su _ hw)
  have hC : 0 ≤ C := (V3.length_nonneg _).trans h.twist
  set r0 := (bilinearJet o a b c).s w.x w.y - p with hr0
  constructor
  · intro q hq hρ x y
    obtain ⟨g1, g2⟩ := abs_le_gap q w
    have hst := h.stretch q hq x y
    rw [square] at hst
    have hd : ((bilinearJet o a b c).s q.x q.y - p).length ≤ 2 * (V * ρ) + H := by
      rw [show (bilinearJet o a b c).s q.x q.y - p = ((bilinearJet o a b c).s q.x q.y - (bilinearJet o a b c).s w.x w.y) + r0 by
        rw [hr0]; module]
      refine (V3.length_add_le _ _).trans (add_le_add ((diff_le h hq hw).trans ?_) hH)
      calc V * (|q.x - w.x| + |q.y - w.y|) ≤ V * (ρ + ρ) := mul_le_mul_of_nonneg_left (by linarith) hV
        _ = 2 * (V * ρ) := by ring
    have hrc : |((bilinearJet o a b c).s q.x q.y - p).dot c| ≤ C * (2 * (V * ρ) + H) := by
      rw [dot_comm3]
      exact (Deviation.abs_dot_le hd).trans (mul_le_mul_of_nonneg_right h.twist ((V3.length_nonneg _).trans hd))
    have eA : hessA (bilinearJet o a b c) p q = (a + q.y • c).dot (a + q.y • c) := by
      show (a + q.y • c).dot (a + q.y • c) + V3.dot _ 0 = _
      simp [V3.dot]
    have eD : hessD (bilinearJet o a b c) p q = (b + q.x • c).dot (b + q.x • c) := by
      show (b + q.x • c).dot (b + q.x • c) + V3.dot _ 0 = _
      simp [V3.dot]
    have eB : hessB (bilinearJet o a b c) p q = (a + q.y • c).dot (b + q.x • c) + ((bilinearJet o a b c).s q.x q.y - p).dot c := rfl
    rw [eA, eB, eD]
    have hxy : -(C * (2 * (V * ρ) + H) * (x ^ 2 + y ^ 2)) ≤ 2 * (((bilinearJet o a b c).s q.x q.y - p).dot c * (x * y)) := by
      set e := ((bilinearJet o a b c).s q.x q.y - p).dot c
      have k1 : |e * (x * y)| ≤ C * (2 * (V * ρ) + H) * |x * y| := by
        rw [abs_mul]; exact mul_le_mul_of_nonneg_right hrc (abs_nonneg _)
      have k2 : 2 * |x * y| ≤ x ^ 2 + y ^ 2 := by
        rw [abs_mul]
        nlinarith [sq_nonneg (|x| - |y|), sq_abs x, sq_abs y]
      have k3 : 0 ≤ C * (2 * (V * ρ) + H) := (abs_nonneg _).trans hrc
      have k4 := mul_le_mul_of_nonneg_left k2 k3
      have k5 := neg_abs_le (e * (x * y))
      linarith
    linarith
  · intro q hq hρ
    set x := q.x - w.x with hx
    set y := q.y - w.y with hy
    set su := a + q.y • c with hsu
    set sv := b + q.x • c with hsv
    set Δ := (bilinearJet o a b c).s q.x q.y - (bilinearJet o a b c).s w.x w.y with hΔ
    have e0 : (bilinearJet o a b c).s q.x q.y - p = Δ + r0 := by rw [hΔ, hr0]; module
    have eΔ : Δ = x • su + y • sv - (x * y) • c := by
      rw [hΔ, diff_mid, hsu, hsv, hx, hy]
      module
    have esu : su = (a + w.y • c) + y • c := by rw [hsu, hy]; module
    have esv : sv = (b + w.x • c) + x • c := by rw [hsv, hx]; module
    have f1 : su.dot r0 = y * c.dot r0 := by
      rw [esu, dot_comm3, V3.dot_add, V3.dot_smul, dot_comm3 r0, dot_comm3 r0, hfoot.1, zero_add]
    have f2 : sv.dot r0 = x * c.dot r0 := by
      rw [esv, dot_comm3, V3.dot_add, V3.dot_smul, dot_comm3 r0, dot_comm3 r0, hfoot.2, zero_add]
    have eA : hessA (bilinearJet o a b c) p q = su.dot su := by
      show su.dot su + V3.dot _ 0 = _
      simp [V3.dot]
    have eD : hessD (bilinearJet o a b c) p q = sv.dot sv := by
      show sv.dot sv + V3.dot _ 0 = _
      simp [V3.dot]
    have eB : hessB (bilinearJet o a b c) p q = su.dot sv + (Δ + r0).dot c := by rw [← e0]; rfl
    have eG1 : (grad (bilinearJet o a b c) p q).x = su.dot Δ + y * c.dot r0 := by
      show su.dot ((bilinearJet o a b c).s q.x q.y - p) = _
      rw [e0, V3.dot_add, f1]
    have eG2 : (grad (bilinearJet o a b c) p q).y = sv.dot Δ + x * c.dot r0 := by
      show sv.dot ((bilinearJet o a b c).s q.x q.y - p) = _
      rw [e0, V3.dot_add, f2]
    rw [eA, eB, eD, eG1, eG2]
    have k1 : su.dot Δ = x * su.dot su + y * su.dot sv - x * y * su.dot c := by
      rw [eΔ, V3.dot_sub, V3.dot_add, V3.dot_smul, V3.dot_smul, V3.dot_smul]
    have k2 : sv.dot Δ = x * su.dot sv + y * sv.dot sv - x * y * sv.dot c := by
      rw [eΔ, V3.dot_sub, V3.dot_add, V3.dot_smul, V3.dot_smul, V3.dot_smul, dot_comm3 sv su]
    have k3 : (Δ + r0).dot c = c.dot Δ + c.dot r0 := by rw [dot_comm3, V3.dot_add]
    have r1 : su.dot su * x + (su.dot sv + (Δ + r0).dot c) * y - (su.dot Δ + y * c.dot r0) = y * (c.dot Δ + x * c.dot su) := by
      rw [k1, k3, dot_comm3 c su]; ring
    have r2 : (su.dot sv + (Δ + r0).dot c) * x + sv.dot sv * y - (sv.dot Δ + x * c.dot r0) = x * (c.dot Δ + y * c.dot sv) := by
      rw [k2, k3, dot_comm3 c sv]; ring
    rw [r1, r2]
    have bΔ : |c.dot Δ| ≤ C * (V * (|x| + |y|)) :=
      (Deviation.abs_dot_le (diff_le h hq hw)).trans (mul_le_mul_of_nonneg_right h.twist (by positivity))
    have bu : |c.dot su| ≤ C * V := (Deviation.abs_dot_le (h.su q hq)).trans (mul_le_mul_of_nonneg_right h.twist hV)
    have bv : |c.dot sv| ≤ C * V := (Deviation.abs_dot_le (h.sv q hq)).trans (mul_le_mul_of_nonneg_right h.twist hV)
    have hCV : 0 ≤ C * V := mul_nonneg hC hV
    have t1 : |y * (c.dot Δ + x * c.dot su)| ≤ C * V * (|y| * (2 * |x| + |y|)) := by
      rw [abs_mul]
      have : |c.dot Δ + x * c.dot su| ≤ C * V * (2 * |x| + |y|) := by
        refine (abs_add_le _ _).trans ?_
        rw [abs_mul x]
        have := mul_le_mul_of_nonneg_left bu (abs_nonneg x)
        linarith
      calc |y| * |c.dot Δ + x * c.dot su| ≤ |y| * (C * V * (2 * |x| + |y|)) := mul_le_mul_of_nonneg_left this (abs_nonneg _)
        _ = _ := by ring
    have t2 : |x * (c.dot Δ + y * c.dot sv)| ≤ C * V * (|x| * (|x| + 2 * |y|)) := by
      rw [abs_mul]
      have : |c.dot Δ + y * c.dot sv| ≤ C * V * (|x| + 2 * |y|) := by
        refine (abs_add_le _ _).trans ?_
        rw [abs_mul y]
        have := mul_le_mul_of_nonneg_left bv (abs_nonneg y)
        linarith
      calc |x| * |c.dot Δ + y * c.dot sv| ≤ |x| * (C * V * (|x| + 2 * |y|)) := mul_le_mul_of_nonneg_left this (abs_nonneg _)
        _ = _ := by ring
    rw [gap_sq]
    have k5 := mul_le_mul_of_nonneg_left (three_squares x y) hCV
    refine (sqrt_le_abs _ _).trans ?_
    calc _ ≤ C * V * (|y| * (2 * |x| + |y|)) + C * V * (|x| * (|x| + 2 * |y|)) := add_le_add t1 t2
      _ ≤ 3 * (C * V) * (x ^ 2 + y ^ 2) := by linarith

/-- A sample lies within one step below any parameter. -/
theorem sample_below {a b x : ℝ} (h1 : a ≤ x) (h2 : x ≤ b) {d : Nat} (hd : 1 ≤ d) :
    ∃ i, i ≤ d ∧ |evenly a b d i - x| ≤ (b - a) / d := by
  have hd' : (0 : ℝ) < d := by exact_mod_cast hd
  rcases (sub_nonneg.2 (h1.trans h2)).lt_or_eq with h | h
  · have hs : 0 < (b - a) / d := div_pos h hd'
    refine ⟨⌊(x - a) / ((b - a) / d)⌋₊, ?_, ?_⟩
    · have : (x - a) / ((b - a) / d) ≤ d := by
        rw [div_le_iff₀ hs, mul_div_cancel₀ _ hd'.ne']
        linarith
      exact Nat.floor_le_of_le this
    · have f1 := Nat.floor_le (div_nonneg (sub_nonneg.2 h1) hs.le)
      have f2 := Nat.lt_floor_add_one ((x - a) / ((b - a) / d))
      rw [le_div_iff₀ hs] at f1
      rw [div_lt_iff₀ hs] at f2
      unfold evenly
      rw [abs_le]
      constructor <;> linarith
  · refine ⟨0, by omega, ?_⟩
    unfold evenly
    rw [← h]
    have : x = a := by linarith
    simp [this]

end Patch

/-- **C159** On a bilinear patch Newton's iteration from a sample within `ρ` of a foot squares the error with each trial. -/
theorem C159_bilinear {s : BSplineSurface ℝ (V3 ℝ)} (hs : s.Good) (hp : 1 ≤ s.degree.1) (hq : 1 ≤ s.degree.2)
    (hgu : Rises s.knots.1 s.controlPoints.rows s.degree.1) (hgv : Rises s.knots.2 s.controlPoints.cols s.degree.2)
    {o a b c : V3 ℝ} (hn : BilinearNet s o a b c) {V C ν : ℝ} (ht : Twist a b c (boxLo s) (boxHi s) V C ν)
    (points : List (V3 ℝ)) :
    ∃ qs, s.projectPoints points = .ok qs ∧ List.Forall₂ (fun p q => InBox (boxLo s) (boxHi s) q ∧
      ∃ i j, i ≤ s.controlPoints.rows * 4 ∧ j ≤ s.controlPoints.cols * 4 ∧
        (∀ w, InBox (boxLo s) (boxHi s) w →
          (a + w.y • c).dot (o + w.x • a + w.y • b + (w.x * w.y) • c - p) = 0 →
          (b + w.x • c).dot (o + w.x • a + w.y • b + (w.x * w.y) • c - p) = 0 →
          ∀ H ρ, (o + w.x • a + w.y • b + (w.x * w.y) • c - p).length ≤ H → gap2 (sample s i j) w ≤ ρ →
            C * (8 * (V * ρ) + H) < ν ^ 2 →
            gap2 q w ≤ ρ ∧ ((o + q.x • a + q.y • b + (q.x * q.y) • c - p).dot (o + q.x • a + q.y • b + (q.x * q.y) • c - p) ≤ Env.tol ∨
              gap2 q w ≤ 4 * Env.tol / (ν ^ 2 - C * (2 * (V * ρ) + H)) ∨ gap2 q w ≤ ρ * (1 / 2) ^ (2 ^ 20 - 1))) ∧
        (∀ w, InBox (boxLo s) (boxHi s) w → p = o + w.x • a + w.y • b + (w.x * w.y) • c → ∀ δ,
          ((boxHi s).x - (boxLo s).x) / ((s.controlPoints.rows * 4 : ℕ) : ℝ)
            + ((boxHi s).y - (boxLo s).y) / ((s.controlPoints.cols * 4 : ℕ) : ℝ) ≤ δ →
          (V * δ) ^ 2 < Env.maxV → 0 < ν → gap2 (sample s i j) w ≤ V * δ / ν)) points qs := by
  obtain ⟨du, dv, duu, duv, dvv, u1, v1, uu1, uv1, vu1, vv1, J, hJ, qs, h1, h2⟩ := C102_project hs hp hq points
  refine ⟨qs, h1, h2.imp ?_⟩
  have hB := bilinear_jet hs hp hq hgu hgv hn u1 v1 uu1 uv1 vv1
  have hx : (boxLo s).x < (boxHi s).x := hs.valid.nonconstU
  have hy : (boxLo s).y < (boxHi s).y := hs.valid.nonconstV
  have hr1 : 1 ≤ s.controlPoints.rows * 4 := by have := hs.valid.rows; omega
  have hc1 : 1 ≤ s.controlPoints.cols * 4 := by have := hs.valid.cols; omega
  have inb : ∀ i j, i ≤ s.controlPoints.rows * 4 → j ≤ s.controlPoints.cols * 4 → InBox (boxLo s) (boxHi s) (sample s i j) :=
    fun i j hi hj => ⟨evenly_mem hx.le hr1 hi, evenly_mem hy.le hc1 hj⟩
  rintro p q ⟨hbox, i, j, hi, hj, run, near, -⟩
  refine ⟨hbox, i, j, hi, hj, ?_, ?_⟩
  · intro w hw f1 f2 H ρ hH hρ hsm
    have hρ0 : 0 ≤ ρ := (Real.sqrt_nonneg _).trans hρ
    have hV : 0 ≤ V := (V3.length_nonneg _).trans (ht.su _ hw)
    have hC : 0 ≤ C := (V3.length_nonneg _).trans ht.twist
    have hCV := mul_nonneg hC (mul_nonneg hV hρ0)
    obtain ⟨-, g1, g2⟩ := C159_newton (bilinear_tame ht hw ⟨f1, f2⟩ hH ρ) (by linarith) (by positivity) (by linarith) hw (inb i j hi hj) hρ
      (run_congr hJ hB (inb i j hi hj) run)
    exact ⟨g1, g2⟩
  · intro w hw hpw δ hδ hmax hν
    beta_reduce at near
    have hV : 0 ≤ V := (V3.length_nonneg _).trans (ht.su _ hw)
    have js : ∀ q, InBox (boxLo s) (boxHi s) q → J.s q.x q.y = (bilinearJet o a b c).s q.x q.y := by
      intro q hq
      have e1 := hJ.s q hq
      rw [hB.s q hq, Except.ok.injEq] at e1
      exact e1.symm
    have hpw' : p = (bilinearJet o a b c).s w.x w.y := hpw
    obtain ⟨i', k1, k2⟩ := sample_below hw.1.1 hw.1.2 hr1
    obtain ⟨j', k3, k4⟩ := sample_below hw.2.1 hw.2.2 hc1
    have hb' := inb i' j' k1 k3
    have d1 : ((bilinearJet o a b c).s (sample s i' j').x (sample s i' j').y - p).length ≤ V * δ := by
      rw [hpw']
      refine (diff_le ht hb' hw).trans (mul_le_mul_of_nonneg_left ?_ hV)
      have k2' : |(sample s i' j').x - w.x| ≤ _ := k2
      have k4' : |(sample s i' j').y - w.y| ≤ _ := k4
      linarith
    have D : ∀ i j, i ≤ s.controlPoints.rows * 4 → j ≤ s.controlPoints.cols * 4 →
        (p - J.s (sample s i j).x (sample s i j).y).lengthSq = ((bilinearJet o a b c).s (sample s i j).x (sample s i j).y - p).length ^ 2 := by
      intro i j hi hj
      rw [js _ (inb i j hi hj), V3.length_sq]
      unfold V3.lengthSq
      simp [V3.dot]
      ring
    have d2 : ((bilinearJet o a b c).s (sample s i' j').x (sample s i' j').y - p).length ^ 2 ≤ (V * δ) ^ 2 :=
      pow_le_pow_left₀ (V3.length_nonneg _) d1 2
    have hnear := near ⟨i', j', k1, k3, by rw [D i' j' k1 k3]; exact d2.trans_lt hmax⟩ i' j' k1 k3
    rw [D i' j' k1 k3, D i j hi hj] at hnear
    have hδ0 : 0 ≤ V * δ := (V3.length_nonneg _).trans d1
    have hb := inb i j hi hj
    have hst := ht.stretch _ (mid_inBox hb hw) ((sample s i j).x - w.x) ((sample s i j).y - w.y)
    simp only at hst
    rw [← diff_mid (o := o), ← hpw', ← gap_sq, ← V3.length_sq] at hst
    rw [le_div_iff₀ hν]
    refine abs_le_of_sq_le_sq' ?_ hδ0 |>.2
    calc (gap2 (sample s i j) w * ν) ^ 2 = ν ^ 2 * gap2 (sample s i j) w ^ 2 := by ring
      _ ≤ _ := hst
      _ ≤ _ := hnear
      _ ≤ _ := d2

/-- **C159** On a bilinear patch of little twist `project_points` inverts `get_point`: it takes every point of the patch to
parameters as near to its own as the stopping conditions ask. -/
theorem C159_inverse {s : BSplineSurface ℝ (V3 ℝ)} (hs : s.Good) (hp : 1 ≤ s.degree.1) (hq : 1 ≤ s.degree.2)
    (hgu : Rises s.knots.1 s.controlPoints.rows s.degree.1) (hgv : Rises s.knots.2 s.controlPoints.cols s.degree.2)
    {o a b c : V3 ℝ} (hn : BilinearNet s o a b c) {V C ν δ : ℝ} (ht : Twist a b c (boxLo s) (boxHi s) V C ν) (hν : 0 < ν)
    (hδ : ((boxHi s).x - (boxLo s).x) / ((s.controlPoints.rows * 4 : ℕ) : ℝ)
      + ((boxHi s).y - (boxLo s).y) / ((s.controlPoints.cols * 4 : ℕ) : ℝ) ≤ δ)
    (hmax : (V * δ) ^ 2 < Env.maxV) (hsmall : 8 * (C * V ^ 2 * δ) < ν ^ 3) {w : V2 ℝ} (hw : InBox (boxLo s) (boxHi s) w) :
    ∃ p q, s.getPoint w.x w.y = .ok p ∧ s.projectPoints [p] = .ok [q] ∧ InBox (boxLo s) (boxHi s) q ∧
      (ν * gap2 q w ≤ √Env.tol ∨ gap2 q w ≤ 16 * Env.tol / (3 * ν ^ 2) ∨ gap2 q w ≤ V * δ / ν * (1 / 2) ^ (2 ^ 20 - 1)) := by
  have hval : s.getPoint w.x w.y = .ok (o + w.x • a + w.y • b + (w.x * w.y) • c) :=
    tensor_value hs hn hw.1.1 hw.2.1 (fun k k1 k2 sp => Converge.site_sum sp w.x _ _ hp k1 k2 (by omega))
      (fun k k1 k2 sp => Converge.site_sum sp w.y _ _ hq k1 k2 (by omega))
  set p := o + w.x • a + w.y • b + (w.x * w.y) • c with hpd
  obtain ⟨qs, h1, h2⟩ := C159_bilinear hs hp hq hgu hgv hn ht [p]
  cases h2 with
  | cons h h' =>
    cases h'
    rename_i q
    obtain ⟨hbox, i, j, hi, hj, g1, g2⟩ := h
    refine ⟨p, q, hval, h1, hbox, ?_⟩
    have hst := g2 w hw rfl δ hδ hmax hν
    have z : p - p = 0 := sub_self _
    have hl0 : (p - p).length ≤ 0 := by rw [z]; simp [V3.length_eq, V3.dot]
    have hlim : C * (8 * (V * (V * δ / ν)) + 0) < ν ^ 2 := by
      have : C * (8 * (V * (V * δ / ν)) + 0) = 8 * (C * V ^ 2 * δ) / ν := by field_simp; ring
      rw [this, div_lt_iff₀ hν]
      calc _ < ν ^ 3 := hsmall
        _ = _ := by ring
    obtain ⟨-, g3⟩ := g1 w hw (by rw [← hpd, z]; simp [V3.dot]) (by rw [← hpd, z]; simp [V3.dot]) 0 (V * δ / ν) hl0 hst hlim
    rcases g3 with g | g | g
    · left
      have hB : (o + q.x • a + q.y • b + (q.x * q.y) • c - p).length ≤ √Env.tol := by
        rw [V3.length_eq]
        exact Real.sqrt_le_sqrt g
      have hm := ht.stretch _ (mid_inBox hbox hw) (q.x - w.x) (q.y - w.y)
      simp only at hm
      rw [← diff_mid (o := o), ← gap_sq, ← V3.length_sq] at hm
      refine le_trans (abs_le_of_sq_le_sq' ?_ (V3.length_nonneg _) |>.2) hB
      calc (ν * gap2 q w) ^ 2 = ν ^ 2 * gap2 q w ^ 2 := by ring
        _ ≤ _ := hm
    · right; left
      refine g.trans ?_
      have ht0 : (0 : ℝ) < Env.tol := by norm_num [Env.tol]
      have hm : 3 / 4 * ν ^ 2 ≤ ν ^ 2 - C * (2 * (V * (V * δ / ν)) + 0) := by linarith
      calc 4 * Env.tol / (ν ^ 2 - C * (2 * (V * (V * δ / ν)) + 0)) ≤ 4 * Env.tol / (3 / 4 * ν ^ 2) :=
            div_le_div_of_nonneg_left (by linarith) (by positivity) hm
        _ = _ := by field_simp; norm_num
    · exact Or.inr (Or.inr g)

/-- The patch `(u, v, uv/3)` over the unit square. -/
noncomputable def saddlePatch : BSplineSurface ℝ (V3 ℝ) :=
  ⟨⟨[⟨0, 0, 0⟩, ⟨0, 1, 0⟩, ⟨1, 0, 0⟩, ⟨1, 1, 1 / 3⟩], 2, 2⟩, ([0, 0, 1, 1], [0, 0, 1, 1]), (1, 1)⟩

/-- **C159** The hypotheses of `C159_inverse` hold for `(u, v, uv/3)`. -/
theorem C159_saddle {w : V2 ℝ} (hw : InBox ⟨0, 0⟩ ⟨1, 1⟩ w) :
    ∃ p q, saddlePatch.getPoint w.x w.y = .ok p ∧ saddlePatch.projectPoints [p] = .ok [q] ∧ InBox ⟨0, 0⟩ ⟨1, 1⟩ q ∧
      gap2 q w ≤ √Env.tol := by
  have hg : saddlePatch.Good := by
    refine ⟨⟨rfl, rfl, rfl, ?_, ?_, resolved_real _, resolved_real _, ?_, ?_, ?_, ?_⟩, ⟨?_, ?_⟩, ⟨?_, ?_⟩⟩ <;>
      simp [Sorted, knot, saddlePatch]
  have hlo : boxLo saddlePatch = ⟨0, 0⟩ := by simp [boxLo, saddlePatch, knot]
  have hhi : boxHi saddlePatch = ⟨1, 1⟩ := by simp [boxHi, saddlePatch, knot]
  have hn : BilinearNet saddlePatch 0 ⟨1, 0, 0⟩ ⟨0, 1, 0⟩ ⟨0, 0, 1 / 3⟩ := by
    intro i j hi hj
    simp only [saddlePatch] at hi hj
    interval_cases i <;> interval_cases j <;> simp [saddlePatch, entry, site, knot] <;> ext <;> norm_num
  have hr : Rises saddlePatch.knots.1 2 1 ∧ Rises saddlePatch.knots.2 2 1 := by
    constructor <;>
    · intro k hk
      obtain rfl : k = 0 := by omega
      simp [saddlePatch, knot]
  have ht : Twist ⟨1, 0, 0⟩ ⟨0, 1, 0⟩ ⟨0, 0, 1 / 3⟩ (boxLo saddlePatch) (boxHi saddlePatch) (11 / 10) (1 / 3) 1 := by
    rw [hlo, hhi]
    refine ⟨fun q hq => ?_, fun q hq => ?_, ?_, fun q _ x y => ?_⟩
    · rw [V3.length_eq, Real.sqrt_le_left (by norm_num)]
      have h1 := hq.2.1
      have h2 := hq.2.2
      simp only at h1 h2
      simp [V3.dot]
      nlinarith
    · rw [V3.length_eq, Real.sqrt_le_left (by norm_num)]
      have h1 := hq.1.1
      have h2 := hq.1.2
      simp only at h1 h2
      simp [V3.dot]
      nlinarith
    · rw [V3.length_eq, Real.sqrt_le_left (by norm_num)]
      norm_num [V3.dot]
    · simp [V3.dot]
      nlinarith [mul_self_nonneg (x * (q.y * 3⁻¹) + y * (q.x * 3⁻¹))]
  have htol : (Env.tol : ℝ) = 1 / 10000000 := by norm_num [Env.tol]
  obtain ⟨p, q, h1, h2, h3, h4⟩ := C159_inverse hg (by simp [saddlePatch]) (by simp [saddlePatch]) hr.1 hr.2 hn (δ := 1 / 4) ht one_pos
    (by rw [hlo, hhi]; norm_num [saddlePatch]) (lt_of_lt_of_le (by norm_num) maxV_big) (by norm_num) (w := w) (by rw [hlo, hhi]; exact hw)
  rw [hlo, hhi] at h3
  refine ⟨p, q, h1, h2, h3, ?_⟩
  have hsq : (1 : ℝ) / 10000 ≤ √Env.tol := by
    rw [htol]
    exact Real.le_sqrt_of_sq_le (by norm_num)
  rcases h4 with g | g | g
  · linarith
  · rw [htol] at g
    norm_num at g
    linarith
  · refine g.trans (le_trans ?_ hsq)
    have : ((1 : ℝ) / 2) ^ (2 ^ 20 - 1) ≤ (1 / 2) ^ 20 := pow_le_pow_of_le_one (by norm_num) (by norm_num) (by norm_num)
    have h20 : ((1 : ℝ) / 2) ^ 20 ≤ 1 / 100000 := by norm_num
    exact (mul_le_mul_of_nonneg_left (this.trans h20) (by norm_num)).trans (by norm_num)

end Geom3d
