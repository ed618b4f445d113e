import Verif.Props.SurfaceProject
import Verif.Props.Converge

/-!
# Projection onto surfaces: where Newton's iteration leads (C159)

`BSplineSurface::project_points` (`src/surface/bspline.rs:110-166`) on plane patches, where it can be said exactly what it
returns, and near a foot point of any patch, where the error is squared with each trial.
-/

namespace Geom3d
open Spec

namespace Patch

/-- The span of a parameter, with the ends repeated. -/
theorem span {knots : List ℝ} {N p : Nat} (hl : knots.length = N + p + 1) (hs : Sorted knots) (he : RepeatedEnds knots N p)
    (hne : knot knots 0 < knot knots (N + p)) {u : ℝ} (hu : knot knots 0 ≤ u) :
    ∃ s, p ≤ s ∧ s < N ∧ Contains (knot knots) (N + p) s u := by
  obtain ⟨s, -, -, h⟩ := exists_contains hl hs (resolved_real _) hne hu
  have hlt := h.lt
  refine ⟨s, ?_, ?_, h⟩
  · by_contra hc
    have h1 := hs.knot_le (i := s + 1) (j := p) (by omega) (by omega)
    have h2 := hs.knot_le (i := 0) (j := s) (by omega) (by omega)
    have := h.nonempty
    have := he.first
    linarith
  · by_contra hc
    have h1 := hs.knot_le (i := N) (j := s) (by omega) (by omega)
    have h2 := hs.knot_le (i := s + 1) (j := N + p) (by omega) (by omega)
    have := h.nonempty
    have := he.last
    linarith

section
variable {P : Type} [AddCommGroup P] [Module ℝ P] [HMul ℝ P P] [HMul P ℝ P] [LawfulPoint ℝ P]

/-- A net of equal control points. -/
theorem const_value {s : BSplineSurface ℝ P} (h : s.Good) {c : P}
    (hc : ∀ i j, i < s.controlPoints.rows → j < s.controlPoints.cols → entry s.controlPoints i j = c) {u v : ℝ}
    (hu : knot s.knots.1 0 ≤ u) (hv : knot s.knots.2 0 ≤ v) : s.getPoint u v = .ok c := by
  have hs := h.valid
  obtain ⟨a, a1, a2, ha⟩ := span hs.lenU hs.sortedU h.endsU hs.nonconstU hu
  obtain ⟨b, b1, b2, hb⟩ := span hs.lenV hs.sortedV h.endsV hs.nonconstV hv
  have sa := piece_sum (⟨hs.monoU, ha.lt, ha.nonempty⟩ : SpanAt _ _ _) u s.degree.1 _ a1 a2 (by omega)
  have sb := piece_sum (⟨hs.monoV, hb.lt, hb.nonempty⟩ : SpanAt _ _ _) v s.degree.2 _ b1 b2 (by omega)
  rw [bsplineSurface_pieces hs ha hb]
  congr 1
  have : ∀ i ∈ Finset.range s.controlPoints.rows, ∑ j ∈ Finset.range s.controlPoints.cols,
      (piece (knot s.knots.1) a s.degree.1 i u * piece (knot s.knots.2) b s.degree.2 j v) • entry s.controlPoints i j
        = piece (knot s.knots.1) a s.degree.1 i u • c := by
    intro i hi
    have : ∀ j ∈ Finset.range s.controlPoints.cols,
        (piece (knot s.knots.1) a s.degree.1 i u * piece (knot s.knots.2) b s.degree.2 j v) • entry s.controlPoints i j
          = piece (knot s.knots.2) b s.degree.2 j v • (piece (knot s.knots.1) a s.degree.1 i u • c) := by
      intro j hj
      rw [hc i j (Finset.mem_range.1 hi) (Finset.mem_range.1 hj), smul_smul, mul_comm]
    rw [Finset.sum_congr rfl this, ← Finset.sum_smul, sb, one_smul]
  rw [Finset.sum_congr rfl this, ← Finset.sum_smul, sa, one_smul]

/-- The control points of a plane patch: an affine map of the means of the knots. -/
def _root_.Geom3d.Spec.PlaneNet (s : BSplineSurface ℝ P) (o a b : P) : Prop :=
  ∀ i j, i < s.controlPoints.rows → j < s.controlPoints.cols →
    entry s.controlPoints i j = o + site (knot s.knots.1) s.degree.1 i • a + site (knot s.knots.2) s.degree.2 j • b

/-- A plane patch is the affine map. -/
theorem plane_value {s : BSplineSurface ℝ P} (h : s.Good) (hp : 1 ≤ s.degree.1) (hq : 1 ≤ s.degree.2) {o a b : P}
    (hn : PlaneNet s o a b) {u v : ℝ} (hu : knot s.knots.1 0 ≤ u) (hv : knot s.knots.2 0 ≤ v) :
    s.getPoint u v = .ok (o + u • a + v • b) := by
  have hs := h.valid
  obtain ⟨k, a1, a2, ha⟩ := span hs.lenU hs.sortedU h.endsU hs.nonconstU hu
  obtain ⟨l, b1, b2, hb⟩ := span hs.lenV hs.sortedV h.endsV hs.nonconstV hv
  have spU : SpanAt (knot s.knots.1) (s.controlPoints.rows + s.degree.1) k := ⟨hs.monoU, ha.lt, ha.nonempty⟩
  have spV : SpanAt (knot s.knots.2) (s.controlPoints.cols + s.degree.2) l := ⟨hs.monoV, hb.lt, hb.nonempty⟩
  have sa := piece_sum spU u s.degree.1 _ a1 a2 (by omega)
  have sb := piece_sum spV v s.degree.2 _ b1 b2 (by omega)
  have ta := Converge.site_sum spU u s.degree.1 s.controlPoints.rows hp a1 a2 (by omega)
  have tb := Converge.site_sum spV v s.degree.2 s.controlPoints.cols hq b1 b2 (by omega)
  rw [bsplineSurface_pieces hs ha hb]
  congr 1
  have : ∀ i ∈ Finset.range s.controlPoints.rows, ∑ j ∈ Finset.range s.controlPoints.cols,
      (piece (knot s.knots.1) k s.degree.1 i u * piece (knot s.knots.2) l s.degree.2 j v) • entry s.controlPoints i j
        = piece (knot s.knots.1) k s.degree.1 i u • (o + v • b)
          + (piece (knot s.knots.1) k s.degree.1 i u * site (knot s.knots.1) s.degree.1 i) • a := by
    intro i hi
    have : ∀ j ∈ Finset.range s.controlPoints.cols,
        (piece (knot s.knots.1) k s.degree.1 i u * piece (knot s.knots.2) l s.degree.2 j v) • entry s.controlPoints i j
          = piece (knot s.knots.2) l s.degree.2 j v •
              (piece (knot s.knots.1) k s.degree.1 i u • (o + site (knot s.knots.1) s.degree.1 i • a))
            + (piece (knot s.knots.2) l s.degree.2 j v * site (knot s.knots.2) s.degree.2 j) •
              (piece (knot s.knots.1) k s.degree.1 i u • b) := by
      intro j hj
      rw [hn i j (Finset.mem_range.1 hi) (Finset.mem_range.1 hj)]
      module
    rw [Finset.sum_congr rfl this, Finset.sum_add_distrib, ← Finset.sum_smul, ← Finset.sum_smul, sb, tb]
    module
  rw [Finset.sum_congr rfl this, Finset.sum_add_distrib, ← Finset.sum_smul, ← Finset.sum_smul, sa, ta]
  module

/-- The derivative in `u` of a surface whose columns rise evenly. -/
theorem derivU_net {s : BSplineSurface ℝ P} (h : s.Good) (hp : 1 ≤ s.degree.1) {a : P}
    (hd : ∀ i j, i + 1 < s.controlPoints.rows → j < s.controlPoints.cols →
      ((s.degree.1 : ℝ) / (knot s.knots.1 (i + s.degree.1 + 1) - knot s.knots.1 (i + 1)))
        • (entry s.controlPoints (i + 1) j - entry s.controlPoints i j) = a) :
    ∃ s', s.derivativeU = .ok s' ∧ s'.Good ∧ s'.degree = (s.degree.1 - 1, s.degree.2) ∧
      knot s'.knots.1 0 = knot s.knots.1 0 ∧ knot s'.knots.2 0 = knot s.knots.2 0 ∧
      ∀ i j, i < s'.controlPoints.rows → j < s'.controlPoints.cols → entry s'.controlPoints i j = a := by
  obtain ⟨s', e1, e2, e3, e4, e5⟩ := h.derivU hp
  refine ⟨s', e1, e2, e3, e4, e5, ?_⟩
  have hs := h.valid
  have hl := h.ltU
  rw [derivativeU_eq hs.net hs.lenU hp (by omega) hs.cols hs.resolvedU, Except.ok.injEq] at e1
  rw [← e1]
  intro i j hi hj
  simp only at hi hj
  rw [entry_netTab _ hi hj]
  exact hd i j (by omega) hj

theorem derivV_net {s : BSplineSurface ℝ P} (h : s.Good) (hp : 1 ≤ s.degree.2) {a : P}
    (hd : ∀ i j, i < s.controlPoints.rows → j + 1 < s.controlPoints.cols →
      ((s.degree.2 : ℝ) / (knot s.knots.2 (j + s.degree.2 + 1) - knot s.knots.2 (j + 1)))
        • (entry s.controlPoints i (j + 1) - entry s.controlPoints i j) = a) :
    ∃ s', s.derivativeV = .ok s' ∧ s'.Good ∧ s'.degree = (s.degree.1, s.degree.2 - 1) ∧
      knot s'.knots.1 0 = knot s.knots.1 0 ∧ knot s'.knots.2 0 = knot s.knots.2 0 ∧
      ∀ i j, i < s'.controlPoints.rows → j < s'.controlPoints.cols → entry s'.controlPoints i j = a := by
  obtain ⟨s', e1, e2, e3, e4, e5⟩ := h.derivV hp
  refine ⟨s', e1, e2, e3, e4, e5, ?_⟩
  have hs := h.valid
  have hl := h.ltV
  rw [derivativeV_eq hs.net hs.lenV hp (by omega) hs.rows hs.resolvedV, Except.ok.injEq] at e1
  rw [← e1]
  intro i j hi hj
  simp only at hi hj
  rw [entry_netTab _ hi hj]
  exact hd i j hi (by omega)

/-- The derivatives of a constant surface vanish. -/
theorem const_derivU {s s' : BSplineSurface ℝ P} (h : s.Good) {c : P}
    (hc : ∀ i j, i < s.controlPoints.rows → j < s.controlPoints.cols → entry s.controlPoints i j = c)
    (h' : s.derivativeU = .ok s') {u v : ℝ} (hu : knot s.knots.1 0 ≤ u) (hv : knot s.knots.2 0 ≤ v) :
    s'.getPoint u v = .ok 0 := by
  rcases Nat.eq_zero_or_pos s.degree.1 with h0 | h0
  · obtain ⟨s1, e1, e2⟩ := (C60_degree_zero (s := s)).1 h0
    rw [h', Except.ok.injEq] at e1
    rw [e1]; exact e2 u v
  · obtain ⟨s1, e1, e2, e3, e4, e5, e6⟩ := derivU_net h h0 (a := (0 : P)) (fun i j hi hj => by
      rw [hc _ _ hi hj, hc _ _ (by omega) hj, sub_self, smul_zero])
    rw [h', Except.ok.injEq] at e1
    subst e1
    exact const_value e2 e6 (by rw [e4]; exact hu) (by rw [e5]; exact hv)

theorem const_derivV {s s' : BSplineSurface ℝ P} (h : s.Good) {c : P}
    (hc : ∀ i j, i < s.controlPoints.rows → j < s.controlPoints.cols → entry s.controlPoints i j = c)
    (h' : s.derivativeV = .ok s') {u v : ℝ} (hu : knot s.knots.1 0 ≤ u) (hv : knot s.knots.2 0 ≤ v) :
    s'.getPoint u v = .ok 0 := by
  rcases Nat.eq_zero_or_pos s.degree.2 with h0 | h0
  · obtain ⟨s1, e1, e2⟩ := (C60_degree_zero (s := s)).2 h0
    rw [h', Except.ok.injEq] at e1
    rw [e1]; exact e2 u v
  · obtain ⟨s1, e1, e2, e3, e4, e5, e6⟩ := derivV_net h h0 (a := (0 : P)) (fun i j hi hj => by
      rw [hc _ _ hi hj, hc _ _ hi (by omega), sub_self, smul_zero])
    rw [h', Except.ok.injEq] at e1
    subst e1
    exact const_value e2 e6 (by rw [e4]; exact hu) (by rw [e5]; exact hv)

end

/-- The inner knots of one direction have at most multiplicity `p`. -/
def _root_.Geom3d.Spec.Rises (knots : List ℝ) (N p : Nat) : Prop := ∀ k, k + 1 < N → knot knots (k + 1) < knot knots (k + p + 1)

/-- The steps of the means of the knots, scaled as in the derivative. -/
theorem step_one {t : Nat → ℝ} {p : Nat} (hp : 1 ≤ p) {i : Nat} (h : t (i + 1) < t (i + p + 1)) :
    (p : ℝ) / (t (i + p + 1) - t (i + 1)) * (site t p (i + 1) - site t p i) = 1 := by
  have hp0 : (0 : ℝ) < p := by exact_mod_cast hp
  have := sub_pos.2 h
  rw [Converge.site_step]
  field_simp

/-- The foot of the perpendicular from `p` to the plane through `o` along `a` and `b`, in its coordinates. -/
def _root_.Geom3d.Spec.Foot (o a b p : V3 ℝ) (w : V2 ℝ) : Prop :=
  a.dot (o + w.x • a + w.y • b - p) = 0 ∧ b.dot (o + w.x • a + w.y • b - p) = 0

/-- `w` moved into the rectangle, coordinate by coordinate. -/
noncomputable def _root_.Geom3d.Spec.clampTo (lo hi w : V2 ℝ) : V2 ℝ := ⟨max lo.x (min w.x hi.x), max lo.y (min w.y hi.y)⟩

end Patch

open Patch

/-- **C159** On a plane patch `project_points` returns the foot of the perpendicular, its parameters clamped one by one, unless
a stopping condition holds at the nearest sample. -/
theorem C159_plane {s : BSplineSurface ℝ (V3 ℝ)} (hs : s.Good) (hp : 1 ≤ s.degree.1) (hq : 1 ≤ s.degree.2)
    (hgu : Rises s.knots.1 s.controlPoints.rows s.degree.1) (hgv : Rises s.knots.2 s.controlPoints.cols s.degree.2)
    {o a b : V3 ℝ} (hn : PlaneNet s o a b) (hab : a.dot a * b.dot b - a.dot b * a.dot b ≠ 0) (points : List (V3 ℝ)) :
    ∃ qs, s.projectPoints points = .ok qs ∧ List.Forall₂ (fun p q => InBox (boxLo s) (boxHi s) q ∧
      ∃ i j, i ≤ s.controlPoints.rows * 4 ∧ j ≤ s.controlPoints.cols * 4 ∧
        let r := o + (sample s i j).x • a + (sample s i j).y • b - p
        ((r.dot r ≤ Env.tol ∨ (|a.dot r| ≤ Env.tol ∧ |b.dot r| ≤ Env.tol)) → q = sample s i j) ∧
        (¬ (r.dot r ≤ Env.tol ∨ (|a.dot r| ≤ Env.tol ∧ |b.dot r| ≤ Env.tol)) →
          ∃ w, Foot o a b p w ∧ q = clampTo (boxLo s) (boxHi s) w)) points qs := by
  obtain ⟨du, dv, duu, duv, dvv, u1, v1, uu1, uv1, vu1, vv1, J, hJ, qs, h1, h2⟩ := C102_project hs hp hq points
  refine ⟨qs, h1, h2.imp ?_⟩
  -- the jet
  have hlU := hs.ltU
  have hlV := hs.ltV
  obtain ⟨du', a1, a2, a3, a4, a5, a6⟩ := derivU_net hs hp (a := a) (fun i j hi hj => by
    rw [hn _ _ hi hj, hn _ _ (by omega) hj, show o + site (knot s.knots.1) s.degree.1 (i + 1) • a + site (knot s.knots.2) s.degree.2 j • b
      - (o + site (knot s.knots.1) s.degree.1 i • a + site (knot s.knots.2) s.degree.2 j • b)
      = (site (knot s.knots.1) s.degree.1 (i + 1) - site (knot s.knots.1) s.degree.1 i) • a by module, smul_smul,
      step_one hp (hgu i hi), one_smul])
  rw [u1, Except.ok.injEq] at a1
  subst a1
  obtain ⟨dv', b1, b2, b3, b4, b5, b6⟩ := derivV_net hs hq (a := b) (fun i j hi hj => by
    rw [hn _ _ hi hj, hn _ _ hi (by omega), show o + site (knot s.knots.1) s.degree.1 i • a + site (knot s.knots.2) s.degree.2 (j + 1) • b
      - (o + site (knot s.knots.1) s.degree.1 i • a + site (knot s.knots.2) s.degree.2 j • b)
      = (site (knot s.knots.2) s.degree.2 (j + 1) - site (knot s.knots.2) s.degree.2 j) • b by module, smul_smul,
      step_one hq (hgv j hj), one_smul])
  rw [v1, Except.ok.injEq] at b1
  subst b1
  have js : ∀ q, InBox (boxLo s) (boxHi s) q → J.s q.x q.y = o + q.x • a + q.y • b := by
    intro q hq'
    have e1 := hJ.s q hq'
    rw [show (SurfaceJet.mk s.getPoint du.getPoint dv.getPoint duu.getPoint duv.getPoint duv.getPoint dvv.getPoint).s = s.getPoint from rfl,
      plane_value hs hp hq hn hq'.1.1 hq'.2.1, Except.ok.injEq] at e1
    exact e1.symm
  have ju : ∀ q, InBox (boxLo s) (boxHi s) q → J.su q.x q.y = a := by
    intro q hq'
    have e1 := hJ.su q hq'
    rw [show (SurfaceJet.mk s.getPoint du.getPoint dv.getPoint duu.getPoint duv.getPoint duv.getPoint dvv.getPoint).su = du.getPoint from rfl,
      const_value a2 a6 (by rw [a4]; exact hq'.1.1) (by rw [a5]; exact hq'.2.1), Except.ok.injEq] at e1
    exact e1.symm
  have jv : ∀ q, InBox (boxLo s) (boxHi s) q → J.sv q.x q.y = b := by
    intro q hq'
    have e1 := hJ.sv q hq'
    rw [show (SurfaceJet.mk s.getPoint du.getPoint dv.getPoint duu.getPoint duv.getPoint duv.getPoint dvv.getPoint).sv = dv.getPoint from rfl,
      const_value b2 b6 (by rw [b4]; exact hq'.1.1) (by rw [b5]; exact hq'.2.1), Except.ok.injEq] at e1
    exact e1.symm
  have juu : ∀ q, InBox (boxLo s) (boxHi s) q → J.suu q.x q.y = 0 := by
    intro q hq'
    have e1 := hJ.suu q hq'
    rw [show (SurfaceJet.mk s.getPoint du.getPoint dv.getPoint duu.getPoint duv.getPoint duv.getPoint dvv.getPoint).suu = duu.getPoint from rfl,
      const_derivU a2 a6 uu1 (by rw [a4]; exact hq'.1.1) (by rw [a5]; exact hq'.2.1), Except.ok.injEq] at e1
    exact e1.symm
  have juv : ∀ q, InBox (boxLo s) (boxHi s) q → J.suv q.x q.y = 0 := by
    intro q hq'
    have e1 := hJ.suv q hq'
    rw [show (SurfaceJet.mk s.getPoint du.getPoint dv.getPoint duu.getPoint duv.getPoint duv.getPoint dvv.getPoint).suv = duv.getPoint from rfl,
      const_derivV a2 a6 uv1 (by rw [a4]; exact hq'.1.1) (by rw [a5]; exact hq'.2.1), Except.ok.injEq] at e1
    exact e1.symm
  have jvv : ∀ q, InBox (boxLo s) (boxHi s) q → J.svv q.x q.y = 0 := by
    intro q hq'
    have e1 := hJ.svv q hq'
    rw [show (SurfaceJet.mk s.getPoint du.getPoint dv.getPoint duu.getPoint duv.getPoint duv.getPoint dvv.getPoint).svv = dvv.getPoint from rfl,
      const_derivV b2 b6 vv1 (by rw [b4]; exact hq'.1.1) (by rw [b5]; exact hq'.2.1), Except.ok.injEq] at e1
    exact e1.symm
  have hx : (boxLo s).x < (boxHi s).x := hs.valid.nonconstU
  have hy : (boxLo s).y < (boxHi s).y := hs.valid.nonconstV
  rintro p q ⟨hbox, i, j, hi, hj, ⟨k, hk, f, f0, fk, fs, fe⟩, -, -⟩
  refine ⟨hbox, i, j, hi, hj, ?_⟩
  set q0 := sample s i j with hq0
  have hb0 : InBox (boxLo s) (boxHi s) q0 := ⟨evenly_mem hx.le (by have := hs.valid.rows; omega) hi, evenly_mem hy.le (by have := hs.valid.cols; omega) hj⟩
  have stops : ∀ q, InBox (boxLo s) (boxHi s) q → (Stops2 J p q ↔
      ((o + q.x • a + q.y • b - p).dot (o + q.x • a + q.y • b - p) ≤ Env.tol ∨
        (|a.dot (o + q.x • a + q.y • b - p)| ≤ Env.tol ∧ |b.dot (o + q.x • a + q.y • b - p)| ≤ Env.tol))) := by
    intro q hq'
    unfold Stops2
    simp only
    rw [js q hq', ju q hq', jv q hq', abs_of_nonneg (V3.dot_self_nonneg _)]
  -- the step from anywhere is to the foot
  have step : ∀ q q', InBox (boxLo s) (boxHi s) q → Step2 J p (boxLo s) (boxHi s) q q' →
      ∃ w, Foot o a b p w ∧ q' = clampTo (boxLo s) (boxHi s) w := by
    intro q q' hq' hst
    unfold Step2 at hst
    simp only at hst
    rw [js q hq', ju q hq', jv q hq', juu q hq', juv q hq', jvv q hq'] at hst
    obtain ⟨dx, dy, e1, e2, e3⟩ := hst
    have z : ∀ x : V3 ℝ, x.dot 0 = 0 := fun x => by simp [V3.dot]
    rw [z, add_zero, add_zero, add_zero] at e1
    obtain ⟨e4, e5⟩ := e1 hab
    refine ⟨⟨q.x + dx, q.y + dy⟩, ⟨?_, ?_⟩, ?_⟩
    · simp only [V3.dot_sub, V3.dot_add, V3.dot_smul] at e4 ⊢
      linarith
    · simp only [V3.dot_sub, V3.dot_add, V3.dot_smul] at e5 ⊢
      rw [dot_comm3 b a] at *
      linarith
    · cases q'
      simp only at e2 e3
      rw [e2, e3]
      rfl
  have inb : ∀ w, InBox (boxLo s) (boxHi s) (clampTo (boxLo s) (boxHi s) w) := fun w =>
    ⟨⟨le_max_left _ _, max_le hx.le (min_le_right _ _)⟩, ⟨le_max_left _ _, max_le hy.le (min_le_right _ _)⟩⟩
  constructor
  · intro hstop
    rcases Nat.eq_zero_or_pos k with rfl | hk0
    · rw [← fk, f0]
    · have := (fs 0 hk0).1
      rw [f0] at this
      exact absurd ((stops q0 hb0).2 hstop) this
  · intro hstop
    have hk0 : 0 < k := by
      by_contra hc
      have : k = 0 := by omega
      subst this
      have := fe (by norm_num)
      rw [← fk, f0] at this
      exact hstop ((stops q0 hb0).1 this)
    have all : ∀ m, m < k → InBox (boxLo s) (boxHi s) (f m) := by
      intro m hm
      induction m with
      | zero => rw [f0]; exact hb0
      | succ m ih =>
        obtain ⟨w, -, e⟩ := step _ _ (ih (by omega)) (fs m (by omega)).2
        rw [e]
        exact inb w
    obtain ⟨w, e1, e2⟩ := step _ _ (all (k - 1) (by omega)) (fs (k - 1) (by omega)).2
    rw [show k - 1 + 1 = k by omega, fk] at e2
    exact ⟨w, e1, e2⟩

/-- The squared length of a combination of two vectors. -/
theorem Patch.square (x y : ℝ) (a b : V3 ℝ) :
    (x • a + y • b).dot (x • a + y • b) = x ^ 2 * a.dot a + 2 * (x * y) * a.dot b + y ^ 2 * b.dot b := by
  simp [V3.dot]
  ring

/-- There is one foot. -/
theorem Patch.foot_unique {o a b p : V3 ℝ} (hab : a.dot a * b.dot b - a.dot b * a.dot b ≠ 0) {w w' : V2 ℝ} (h : Foot o a b p w)
    (h' : Foot o a b p w') : w = w' := by
  obtain ⟨h1, h2⟩ := h
  obtain ⟨h3, h4⟩ := h'
  simp only [V3.dot_sub, V3.dot_add, V3.dot_smul] at h1 h2 h3 h4
  rw [dot_comm3 b a] at h2 h4
  have ex : (w.x - w'.x) * (a.dot a * b.dot b - a.dot b * a.dot b) = 0 := by
    linear_combination b.dot b * h1 - b.dot b * h3 - a.dot b * h2 + a.dot b * h4
  have ey : (w.y - w'.y) * (a.dot a * b.dot b - a.dot b * a.dot b) = 0 := by
    linear_combination a.dot a * h2 - a.dot a * h4 - a.dot b * h1 + a.dot b * h3
  cases w; cases w'
  have := (mul_eq_zero.1 ex).resolve_right hab
  have := (mul_eq_zero.1 ey).resolve_right hab
  simp only at *
  congr 1 <;> linarith

/-- The foot is the nearest point of the plane. -/
theorem Patch.foot_nearest {o a b p : V3 ℝ} {w : V2 ℝ} (h : Foot o a b p w) (x y : ℝ) :
    (o + x • a + y • b - p).dot (o + x • a + y • b - p) = (o + w.x • a + w.y • b - p).dot (o + w.x • a + w.y • b - p)
      + ((x - w.x) • a + (y - w.y) • b).dot ((x - w.x) • a + (y - w.y) • b) := by
  obtain ⟨h1, h2⟩ := h
  have e : o + x • a + y • b - p = (o + w.x • a + w.y • b - p) + ((x - w.x) • a + (y - w.y) • b) := by module
  rw [e]
  generalize o + w.x • a + w.y • b - p = r at *
  simp only [V3.dot, V3.add_x, V3.add_y, V3.add_z, V3.smul_x, V3.smul_y, V3.smul_z] at *
  linear_combination 2 * (x - w.x) * h1 + 2 * (y - w.y) * h2

/-- **C159** If the foot of the perpendicular is on the patch, the point returned is near it, and so nearly the nearest. -/
theorem C159_nearest {s : BSplineSurface ℝ (V3 ℝ)} (hs : s.Good) (hp : 1 ≤ s.degree.1) (hq : 1 ≤ s.degree.2)
    (hgu : Rises s.knots.1 s.controlPoints.rows s.degree.1) (hgv : Rises s.knots.2 s.controlPoints.cols s.degree.2)
    {o a b : V3 ℝ} (hn : PlaneNet s o a b) (hab : a.dot a * b.dot b - a.dot b * a.dot b ≠ 0) (points : List (V3 ℝ))
    (hf : ∀ p ∈ points, ∃ w, InBox (boxLo s) (boxHi s) w ∧ Foot o a b p w) :
    ∃ qs, s.projectPoints points = .ok qs ∧ List.Forall₂ (fun p q => InBox (boxLo s) (boxHi s) q ∧
      ∃ w x y, InBox (boxLo s) (boxHi s) w ∧ s.getPoint w.x w.y = .ok x ∧ s.getPoint q.x q.y = .ok y ∧
        (∀ q' z, InBox (boxLo s) (boxHi s) q' → s.getPoint q'.x q'.y = .ok z → (x - p).dot (x - p) ≤ (z - p).dot (z - p)) ∧
        (y - x).dot (y - x) ≤ Env.tol * (1 + ((boxHi s).x - (boxLo s).x) + ((boxHi s).y - (boxLo s).y))) points qs := by
  obtain ⟨qs, h1, h2⟩ := C159_plane hs hp hq hgu hgv hn hab points
  refine ⟨qs, h1, ?_⟩
  have h3 := (List.forall₂_and_left _ _).2 ⟨hf, h2⟩
  refine h3.imp ?_
  rintro p q ⟨⟨w, hw, hfw⟩, hbq, i, j, hi, hj, c1, c2⟩
  have hx : (boxLo s).x < (boxHi s).x := hs.valid.nonconstU
  have hy : (boxLo s).y < (boxHi s).y := hs.valid.nonconstV
  have ht : (0 : ℝ) ≤ Env.tol := by norm_num [Env.tol]
  refine ⟨hbq, w, _, _, hw, plane_value hs hp hq hn hw.1.1 hw.2.1, plane_value hs hp hq hn hbq.1.1 hbq.2.1, ?_, ?_⟩
  · intro q' z hq' hz
    rw [plane_value hs hp hq hn hq'.1.1 hq'.2.1, Except.ok.injEq] at hz
    rw [← hz, foot_nearest hfw q'.x q'.y]
    have := V3.dot_self_nonneg ((q'.x - w.x) • a + (q'.y - w.y) • b)
    linarith
  · by_cases hst : (o + (sample s i j).x • a + (sample s i j).y • b - p).dot (o + (sample s i j).x • a + (sample s i j).y • b - p) ≤ Env.tol ∨
        (|a.dot (o + (sample s i j).x • a + (sample s i j).y • b - p)| ≤ Env.tol ∧
          |b.dot (o + (sample s i j).x • a + (sample s i j).y • b - p)| ≤ Env.tol)
    · have e := c1 hst
      rw [← e] at hst
      have ed : o + q.x • a + q.y • b - (o + w.x • a + w.y • b) = (q.x - w.x) • a + (q.y - w.y) • b := by module
      rw [ed]
      have hbx : |q.x - w.x| ≤ (boxHi s).x - (boxLo s).x := by
        rw [abs_le]; constructor <;> linarith [hbq.1.1, hbq.1.2, hw.1.1, hw.1.2]
      have hby : |q.y - w.y| ≤ (boxHi s).y - (boxLo s).y := by
        rw [abs_le]; constructor <;> linarith [hbq.2.1, hbq.2.2, hw.2.1, hw.2.2]
      rcases hst with h | ⟨h4, h5⟩
      · have := foot_nearest hfw q.x q.y
        have := V3.dot_self_nonneg (o + w.x • a + w.y • b - p)
        nlinarith
      · have ea : a.dot (o + q.x • a + q.y • b - p) = (q.x - w.x) * a.dot a + (q.y - w.y) * a.dot b := by
          have := hfw.1
          simp only [V3.dot_sub, V3.dot_add, V3.dot_smul] at this ⊢
          linarith
        have eb : b.dot (o + q.x • a + q.y • b - p) = (q.x - w.x) * a.dot b + (q.y - w.y) * b.dot b := by
          have := hfw.2
          simp only [V3.dot_sub, V3.dot_add, V3.dot_smul] at this ⊢
          rw [dot_comm3 b a] at *
          linarith
        have key : ((q.x - w.x) • a + (q.y - w.y) • b).dot ((q.x - w.x) • a + (q.y - w.y) • b)
            = (q.x - w.x) * a.dot (o + q.x • a + q.y • b - p) + (q.y - w.y) * b.dot (o + q.x • a + q.y • b - p) := by
          rw [square, ea, eb]; ring
        rw [key]
        have k1 : (q.x - w.x) * a.dot (o + q.x • a + q.y • b - p) ≤ ((boxHi s).x - (boxLo s).x) * Env.tol := by
          refine (le_abs_self _).trans ?_
          rw [abs_mul]
          exact mul_le_mul hbx h4 (abs_nonneg _) (by linarith)
        have k2 : (q.y - w.y) * b.dot (o + q.x • a + q.y • b - p) ≤ ((boxHi s).y - (boxLo s).y) * Env.tol := by
          refine (le_abs_self _).trans ?_
          rw [abs_mul]
          exact mul_le_mul hby h5 (abs_nonneg _) (by linarith)
        linarith
    · obtain ⟨w', hw', e⟩ := c2 hst
      have := foot_unique hab hw' hfw
      subst this
      have hqw : q = w' := by
        rw [e]
        unfold clampTo
        cases w'
        simp only [InBox] at hw
        simp only
        rw [min_eq_left hw.1.2, max_eq_right hw.1.1, min_eq_left hw.2.2, max_eq_right hw.2.1]
      rw [hqw, sub_self, V3.zero_dot]
      positivity

/-- The parallelogram spanned by `(1, 0, 0)` and `(1, 1, 0)`. -/
def skewPatch : BSplineSurface ℝ (V3 ℝ) :=
  ⟨⟨[⟨0, 0, 0⟩, ⟨1, 1, 0⟩, ⟨1, 0, 0⟩, ⟨2, 1, 0⟩], 2, 2⟩, ([0, 0, 1, 1], [0, 0, 1, 1]), (1, 1)⟩

theorem skewPatch_good : skewPatch.Good := by
  refine ⟨⟨rfl, rfl, rfl, ?_, ?_, resolved_real _, resolved_real _, ?_, ?_, ?_, ?_⟩, ⟨?_, ?_⟩, ⟨?_, ?_⟩⟩ <;>
    simp [Sorted, knot, skewPatch]

theorem skewPatch_plane : PlaneNet skewPatch 0 ⟨1, 0, 0⟩ ⟨1, 1, 0⟩ := by
  intro i j hi hj
  simp only [skewPatch] at hi hj
  interval_cases i <;> interval_cases j <;> simp [skewPatch, entry, site, knot] <;> ext <;> norm_num

theorem skewPatch_rises : Rises skewPatch.knots.1 2 1 ∧ Rises skewPatch.knots.2 2 1 := by
  constructor <;>
  · intro k hk
    obtain rfl : k = 0 := by omega
    simp [skewPatch, knot]

/-- **C159** Beyond the border of a patch with an oblique corner the point returned is not the nearest: on the parallelogram
with the sides `(1, 0, 0)` and `(1, 1, 0)` the point `(5/2, 2, 0)` goes to `(3/2, 1, 0)`, and `(2, 1, 0)` is nearer. -/
theorem C159_skew : skewPatch.projectPoints [⟨5 / 2, 2, 0⟩] = .ok [⟨1 / 2, 1⟩] ∧
    skewPatch.getPoint (1 / 2) 1 = .ok ⟨3 / 2, 1, 0⟩ ∧ skewPatch.getPoint 1 1 = .ok ⟨2, 1, 0⟩ ∧
    ((⟨2, 1, 0⟩ : V3 ℝ) - ⟨5 / 2, 2, 0⟩).length < ((⟨3 / 2, 1, 0⟩ : V3 ℝ) - ⟨5 / 2, 2, 0⟩).length := by
  have hab : (⟨1, 0, 0⟩ : V3 ℝ).dot ⟨1, 0, 0⟩ * (⟨1, 1, 0⟩ : V3 ℝ).dot ⟨1, 1, 0⟩
      - (⟨1, 0, 0⟩ : V3 ℝ).dot ⟨1, 1, 0⟩ * (⟨1, 0, 0⟩ : V3 ℝ).dot ⟨1, 1, 0⟩ ≠ 0 := by norm_num [V3.dot]
  have hlo : boxLo skewPatch = ⟨0, 0⟩ := by simp [boxLo, skewPatch, knot]
  have hhi : boxHi skewPatch = ⟨1, 1⟩ := by simp [boxHi, skewPatch, knot]
  have val : ∀ u v : ℝ, 0 ≤ u → 0 ≤ v → skewPatch.getPoint u v = .ok ⟨u + v, v, 0⟩ := by
    intro u v hu hv
    rw [plane_value skewPatch_good (by simp [skewPatch]) (by simp [skewPatch]) skewPatch_plane (by simpa [skewPatch, knot] using hu)
      (by simpa [skewPatch, knot] using hv)]
    congr 1
    ext <;> simp
  refine ⟨?_, ?_, ?_, ?_⟩
  · obtain ⟨qs, h1, h2⟩ := C159_plane skewPatch_good (by simp [skewPatch]) (by simp [skewPatch]) skewPatch_rises.1 skewPatch_rises.2
      skewPatch_plane hab [⟨5 / 2, 2, 0⟩]
    rw [h1]
    cases h2 with
    | cons h3 h4 =>
      rename_i q qs'
      cases h4
      obtain ⟨-, i, j, hi, hj, -, h5⟩ := h3
      have hb : InBox (boxLo skewPatch) (boxHi skewPatch) (sample skewPatch i j) :=
        ⟨evenly_mem (by rw [hlo, hhi]; norm_num) (by simp [skewPatch]) hi, evenly_mem (by rw [hlo, hhi]; norm_num) (by simp [skewPatch]) hj⟩
      rw [hlo, hhi] at hb
      generalize sample skewPatch i j = m at hb h5
      obtain ⟨⟨m1, m2⟩, m3, m4⟩ := hb
      simp only at m1 m2 m3 m4
      simp only [hlo, hhi] at h5
      obtain ⟨w, hw, e⟩ := h5 (by
        simp only [V3.dot, V3.add_x, V3.add_y, V3.add_z, V3.sub_x, V3.sub_y, V3.sub_z, V3.smul_x, V3.smul_y, V3.smul_z, V3.zero_x,
          V3.zero_y, V3.zero_z]
        have ht : (Env.tol : ℝ) = 1 / 10000000 := rfl
        rw [ht]
        rintro (h | ⟨-, h⟩)
        · nlinarith
        · rw [abs_le] at h
          linarith [h.1])
      have hfoot : Foot 0 (⟨1, 0, 0⟩ : V3 ℝ) ⟨1, 1, 0⟩ ⟨5 / 2, 2, 0⟩ ⟨1 / 2, 2⟩ := by
        constructor <;> simp [V3.dot] <;> norm_num
      rw [foot_unique hab hw hfoot] at e
      rw [e]
      simp [clampTo]
      norm_num
  · rw [val _ _ (by norm_num) (by norm_num)]; norm_num
  · rw [val _ _ (by norm_num) (by norm_num)]; norm_num
  · rw [V3.length_eq, V3.length_eq]
    apply Real.sqrt_lt_sqrt (V3.dot_self_nonneg _)
    norm_num [V3.dot]

/-! ### Near a foot point -/

/-- The distance in the parameter plane. -/
noncomputable def Spec.gap2 (q w : V2 ℝ) : ℝ := √((q.x - w.x) ^ 2 + (q.y - w.y) ^ 2)

/-- The gradient of half the squared distance to `p`, and its second derivatives. -/
def Spec.grad (J : Jet) (p : V3 ℝ) (q : V2 ℝ) : V2 ℝ :=
  ⟨(J.su q.x q.y).dot (J.s q.x q.y - p), (J.sv q.x q.y).dot (J.s q.x q.y - p)⟩
def Spec.hessA (J : Jet) (p : V3 ℝ) (q : V2 ℝ) : ℝ :=
  (J.su q.x q.y).dot (J.su q.x q.y) + (J.s q.x q.y - p).dot (J.suu q.x q.y)
def Spec.hessB (J : Jet) (p : V3 ℝ) (q : V2 ℝ) : ℝ :=
  (J.su q.x q.y).dot (J.sv q.x q.y) + (J.s q.x q.y - p).dot (J.suv q.x q.y)
def Spec.hessD (J : Jet) (p : V3 ℝ) (q : V2 ℝ) : ℝ :=
  (J.sv q.x q.y).dot (J.sv q.x q.y) + (J.s q.x q.y - p).dot (J.svv q.x q.y)

/-- On the part of the rectangle within `ρ` of the foot `w` the second derivatives are at least `m`, and the gradient differs
from its linear part by at most `L` times the square of the distance. -/
structure Spec.Tame2 (J : Jet) (p : V3 ℝ) (lo hi w : V2 ℝ) (ρ m L : ℝ) : Prop where
  steep : ∀ q, InBox lo hi q → gap2 q w ≤ ρ → ∀ x y : ℝ,
    m * (x ^ 2 + y ^ 2) ≤ hessA J p q * x ^ 2 + 2 * hessB J p q * (x * y) + hessD J p q * y ^ 2
  taylor : ∀ q, InBox lo hi q → gap2 q w ≤ ρ →
    √((hessA J p q * (q.x - w.x) + hessB J p q * (q.y - w.y) - (grad J p q).x) ^ 2
      + (hessB J p q * (q.x - w.x) + hessD J p q * (q.y - w.y) - (grad J p q).y) ^ 2) ≤ L * gap2 q w ^ 2

namespace Patch

theorem cauchy2 (a b x y : ℝ) : a * x + b * y ≤ √(a ^ 2 + b ^ 2) * √(x ^ 2 + y ^ 2) := by
  rw [← Real.sqrt_mul (by positivity)]
  refine Real.le_sqrt_of_sq_le ?_
  nlinarith [sq_nonneg (a * y - b * x)]

/-- If `H e = d` with `H` at least `m`, then `m |e| ≤ |d|`. -/
theorem solve_bound {A B D m x y : ℝ} (hH : m * (x ^ 2 + y ^ 2) ≤ A * x ^ 2 + 2 * B * (x * y) + D * y ^ 2) :
    m * √(x ^ 2 + y ^ 2) ≤ √((A * x + B * y) ^ 2 + (B * x + D * y) ^ 2) := by
  rcases (Real.sqrt_nonneg (x ^ 2 + y ^ 2)).lt_or_eq with h | h
  · have h1 := cauchy2 (A * x + B * y) (B * x + D * y) x y
    have h2 : √(x ^ 2 + y ^ 2) ^ 2 = x ^ 2 + y ^ 2 := Real.sq_sqrt (by positivity)
    refine le_of_mul_le_mul_right ?_ h
    calc m * √(x ^ 2 + y ^ 2) * √(x ^ 2 + y ^ 2) = m * √(x ^ 2 + y ^ 2) ^ 2 := by ring
      _ = m * (x ^ 2 + y ^ 2) := by rw [h2]
      _ ≤ _ := hH
      _ = (A * x + B * y) * x + (B * x + D * y) * y := by ring
      _ ≤ _ := h1
  · rw [← h, mul_zero]; positivity

/-- Clamping does not lead away from a point of the rectangle. -/
theorem clamp_near {lo hi x w : ℝ} (h1 : lo ≤ w) (h2 : w ≤ hi) : (max lo (min x hi) - w) ^ 2 ≤ (x - w) ^ 2 := by
  rw [sq_le_sq, abs_le]
  have h := abs_nonneg (x - w)
  have h3 := le_abs_self (x - w)
  have h4 := neg_abs_le (x - w)
  constructor
  · rcases le_total x hi with h | h
    · rw [min_eq_left h]; linarith [le_max_right lo x]
    · rw [min_eq_right h]; linarith [le_max_right lo hi]
  · rw [sub_le_iff_le_add]
    exact max_le (by linarith) ((min_le_left _ _).trans (by linarith))

variable {J : Jet} {p : V3 ℝ} {lo hi w : V2 ℝ} {ρ m L : ℝ}

/-- One step squares the error. -/
theorem newton_step (ht : Tame2 J p lo hi w ρ m L) (hm : 0 < m) (hw : InBox lo hi w) {q q' : V2 ℝ} (hq : InBox lo hi q)
    (hρ : gap2 q w ≤ ρ) (hs : Step2 J p lo hi q q') : gap2 q' w ≤ L / m * gap2 q w ^ 2 := by
  have steep := ht.steep q hq hρ
  have tay := ht.taylor q hq hρ
  obtain ⟨dx, dy, h1, h2, h3⟩ := hs
  set A := hessA J p q with hA
  set B := hessB J p q with hB
  set D := hessD J p q with hD
  have det : A * D - B * B ≠ 0 := by
    have hA0 : 0 < A := by have := steep 1 0; norm_num at this; linarith
    have := steep (-B) A
    intro hz
    have e : A * (-B) ^ 2 + 2 * B * (-B * A) + D * A ^ 2 = A * (A * D - B * B) := by ring
    rw [e, hz, mul_zero] at this
    have : 0 < m * ((-B) ^ 2 + A ^ 2) := by positivity
    linarith
  obtain ⟨e1, e2⟩ := h1 det
  have f1 : A * (q.x + dx - w.x) + B * (q.y + dy - w.y) = A * (q.x - w.x) + B * (q.y - w.y) - (grad J p q).x := by
    have : A * dx + B * dy = -(grad J p q).x := e1
    linarith
  have f2 : B * (q.x + dx - w.x) + D * (q.y + dy - w.y) = B * (q.x - w.x) + D * (q.y - w.y) - (grad J p q).y := by
    have : B * dx + D * dy = -(grad J p q).y := e2
    linarith
  have hb := solve_bound (steep (q.x + dx - w.x) (q.y + dy - w.y))
  rw [f1, f2] at hb
  have hc : gap2 q' w ≤ √((q.x + dx - w.x) ^ 2 + (q.y + dy - w.y) ^ 2) := by
    unfold gap2
    rw [h2, h3]
    exact Real.sqrt_le_sqrt (add_le_add (clamp_near hw.1.1 hw.1.2) (clamp_near hw.2.1 hw.2.2))
  rw [div_mul_eq_mul_div, le_div_iff₀ hm]
  calc gap2 q' w * m ≤ √((q.x + dx - w.x) ^ 2 + (q.y + dy - w.y) ^ 2) * m := mul_le_mul_of_nonneg_right hc hm.le
    _ ≤ _ := by rw [mul_comm]; exact hb.trans tay

theorem step_inBox {q q' : V2 ℝ} (hlo : lo.x ≤ hi.x ∧ lo.y ≤ hi.y) (hs : Step2 J p lo hi q q') : InBox lo hi q' := by
  obtain ⟨dx, dy, -, h2, h3⟩ := hs
  refine ⟨?_, ?_⟩
  · rw [h2]; exact ⟨le_max_left _ _, max_le hlo.1 (min_le_right _ _)⟩
  · rw [h3]; exact ⟨le_max_left _ _, max_le hlo.2 (min_le_right _ _)⟩

end Patch

/-- **C159** Newton's iteration on a surface near a foot point: the point returned is within the root of the tolerance of the
given one, or its parameters are as near to those of the foot as the stopping condition asks, or the error has been squared
20 times (`trials` times). -/
theorem C159_newton {J : Jet} {p : V3 ℝ} {lo hi w : V2 ℝ} {ρ m L : ℝ} (ht : Tame2 J p lo hi w ρ m L) (hm : 0 < m) (hL : 0 ≤ L)
    (hr : 2 * (L * ρ) ≤ m) (hw : InBox lo hi w) {trials : Nat} {q0 q : V2 ℝ} (h0 : InBox lo hi q0) (hq0 : gap2 q0 w ≤ ρ)
    (hrun : NewtonRun J p lo hi trials q0 q) :
    InBox lo hi q ∧ gap2 q w ≤ ρ ∧ ((J.s q.x q.y - p).dot (J.s q.x q.y - p) ≤ Env.tol ∨ gap2 q w ≤ 4 * Env.tol / m ∨
      gap2 q w ≤ ρ * (1 / 2) ^ (2 ^ trials - 1)) := by
  obtain ⟨k, hk, f, f0, fk, fs, fe⟩ := hrun
  have hρ : 0 ≤ ρ := (Real.sqrt_nonneg _).trans hq0
  have hlo : lo.x ≤ hi.x ∧ lo.y ≤ hi.y := ⟨h0.1.1.trans h0.1.2, h0.2.1.trans h0.2.2⟩
  have it : ∀ n, n ≤ k → InBox lo hi (f n) ∧ gap2 (f n) w ≤ ρ * (1 / 2) ^ (2 ^ n - 1) := by
    intro n
    induction n with
    | zero => intro _; rw [f0]; exact ⟨h0, by simpa using hq0⟩
    | succ n ih =>
      intro hn
      obtain ⟨i1, i2⟩ := ih (by omega)
      have i3 : gap2 (f n) w ≤ ρ := i2.trans (mul_le_of_le_one_right hρ (pow_le_one₀ (by norm_num) (by norm_num)))
      have st := newton_step ht hm hw i1 i3 (fs n (by omega)).2
      refine ⟨step_inBox hlo (fs n (by omega)).2, st.trans ?_⟩
      have hpow : 2 ^ (n + 1) - 1 = (2 ^ n - 1) + (2 ^ n - 1) + 1 := by
        have : 1 ≤ 2 ^ n := Nat.one_le_two_pow
        rw [pow_succ]
        omega
      have hsq : gap2 (f n) w ^ 2 ≤ (ρ * (1 / 2) ^ (2 ^ n - 1)) ^ 2 := pow_le_pow_left₀ (Real.sqrt_nonneg _) i2 2
      have hLm : L / m * ρ ≤ 1 / 2 := by
        rw [div_mul_eq_mul_div, div_le_iff₀ hm]
        linarith
      calc L / m * gap2 (f n) w ^ 2 ≤ L / m * (ρ * (1 / 2) ^ (2 ^ n - 1)) ^ 2 :=
            mul_le_mul_of_nonneg_left hsq (div_nonneg hL hm.le)
        _ = (L / m * ρ) * (ρ * ((1 / 2) ^ (2 ^ n - 1) * (1 / 2) ^ (2 ^ n - 1))) := by ring
        _ ≤ 1 / 2 * (ρ * ((1 / 2) ^ (2 ^ n - 1) * (1 / 2) ^ (2 ^ n - 1))) :=
            mul_le_mul_of_nonneg_right hLm (mul_nonneg hρ (by positivity))
        _ = ρ * (1 / 2) ^ (2 ^ (n + 1) - 1) := by rw [hpow, pow_succ, pow_add]; ring
  obtain ⟨i1, i2⟩ := it k le_rfl
  rw [fk] at i1 i2
  have i3 : gap2 q w ≤ ρ := i2.trans (mul_le_of_le_one_right hρ (pow_le_one₀ (by norm_num) (by norm_num)))
  refine ⟨i1, i3, ?_⟩
  rcases hk.lt_or_eq with hlt | heq
  · rcases fe hlt with h | ⟨g1, g2⟩
    · exact Or.inl ((le_abs_self _).trans h)
    · refine Or.inr (Or.inl ?_)
      -- the gradient is small
      have steep := ht.steep q i1 i3
      have tay := ht.taylor q i1 i3
      set A := hessA J p q
      set B := hessB J p q
      set D := hessD J p q
      have hb := solve_bound (steep (q.x - w.x) (q.y - w.y))
      have tri : √((A * (q.x - w.x) + B * (q.y - w.y)) ^ 2 + (B * (q.x - w.x) + D * (q.y - w.y)) ^ 2)
          ≤ √((A * (q.x - w.x) + B * (q.y - w.y) - (grad J p q).x) ^ 2 + (B * (q.x - w.x) + D * (q.y - w.y) - (grad J p q).y) ^ 2)
            + √((grad J p q).x ^ 2 + (grad J p q).y ^ 2) := by
        generalize A * (q.x - w.x) + B * (q.y - w.y) = a
        generalize B * (q.x - w.x) + D * (q.y - w.y) = b
        generalize (grad J p q).x = c
        generalize (grad J p q).y = d
        have hc := cauchy2 (a - c) (b - d) c d
        rw [Real.sqrt_le_left (by positivity)]
        have s1 : √((a - c) ^ 2 + (b - d) ^ 2) ^ 2 = (a - c) ^ 2 + (b - d) ^ 2 := Real.sq_sqrt (by positivity)
        have s2 : √(c ^ 2 + d ^ 2) ^ 2 = c ^ 2 + d ^ 2 := Real.sq_sqrt (by positivity)
        nlinarith
      have hg : √((grad J p q).x ^ 2 + (grad J p q).y ^ 2) ≤ 2 * Env.tol := by
        have a1 : |(grad J p q).x| ≤ Env.tol := g1
        have a2 : |(grad J p q).y| ≤ Env.tol := g2
        have ht0 : (0 : ℝ) ≤ Env.tol := by norm_num [Env.tol]
        rw [Real.sqrt_le_left (by positivity)]
        have b1 := sq_le_sq' (by linarith [abs_nonneg (grad J p q).x]) a1
        have b2 := sq_le_sq' (by linarith [abs_nonneg (grad J p q).y]) a2
        rw [sq_abs] at b1 b2
        nlinarith
      have hg0 : 0 ≤ gap2 q w := Real.sqrt_nonneg _
      have hLg : L * gap2 q w ^ 2 ≤ m / 2 * gap2 q w := by
        have : L * gap2 q w ≤ m / 2 := by
          have := mul_le_mul_of_nonneg_left i3 hL
          linarith
        calc L * gap2 q w ^ 2 = (L * gap2 q w) * gap2 q w := by ring
          _ ≤ _ := mul_le_mul_of_nonneg_right this hg0
      have hb' : m * gap2 q w ≤ √((A * (q.x - w.x) + B * (q.y - w.y)) ^ 2 + (B * (q.x - w.x) + D * (q.y - w.y)) ^ 2) := hb
      rw [le_div_iff₀ hm]
      linarith
  · rw [heq] at i2
    exact Or.inr (Or.inr i2)

end Geom3d
