import Verif.Lemmas.F64Slope
import Verif.Props.FloatInsert
import Verif.Props.FloatSurface
import Verif.Props.SurfaceDeriv
import Verif.Lemmas.F64Exact

/-!
# C129: derivatives of curves and surfaces in binary64
-/

set_option linter.unusedSectionVars false

namespace Geom3d
open Spec F64

/-! ### The code, for every number type -/

section
variable {F P : Type} [Add F] [Sub F] [Mul F] [Div F] [Neg F] [Zero F] [One F] [NatCast F] [LT F] [DecidableLT F] [LE F]
  [DecidableLE F] [Env F] [Sub P] [Zero P] [HMul P F P]

/-- The knots without the first and the last. -/
def inner (knots : List F) : List F := (knots.take (knots.length - 1)).drop 1

theorem inner_length (knots : List F) : (inner knots).length = knots.length - 2 := by
  unfold inner
  simp only [List.length_drop, List.length_take]
  omega

theorem shrink_inner {knots : List F} (h : 2 ≤ knots.length) : KnotVector.shrink knots = .ok (inner knots) := by
  unfold KnotVector.shrink inner
  rw [usub_ok (by omega)]
  simp only [ok_bind]
  rw [if_pos (by omega)]
  rfl

theorem knot_inner {knots : List F} {j : Nat} (hj : j + 2 < knots.length) : knot (inner knots) j = knot knots (j + 1) := by
  unfold knot inner
  simp only [List.getD_eq_getElem?_getD]
  rw [List.getElem?_drop, List.getElem?_take, if_pos (by omega), Nat.add_comm]

/-- A control point of the derivative. -/
def slopeOf (p : Nat) (knots : List F) (i : Nat) (a b : P) : P :=
  ((b - a : P) * (Nat.cast p : F) : P) * (invOrZero (knot knots (i + p + 1) - knot knots (i + 1)) : F)

theorem spans_inner {knots : List F} {N p : Nat} (hlen : knots.length = N + p + 1) (hN : 1 ≤ N) :
    KnotVector.spans (inner knots) p = .ok (tab (N - 1) fun i => knot knots (i + p + 1) - knot knots (i + 1)) := by
  rw [C10_spans, inner_length]
  have e : knots.length - 2 - p = N - 1 := by omega
  rw [e]
  congr 1
  refine List.map_congr_left fun i hi => ?_
  rw [List.mem_range] at hi
  rw [knot_inner (by omega), knot_inner (by omega)]

theorem curve_slopes {c : BSplineCurve F P} (hl : c.knots.length = c.controlPoints.length + c.degree + 1)
    (hp : 1 ≤ c.degree) (hN : 1 ≤ c.controlPoints.length) :
    c.derivative = .ok ⟨tab (c.controlPoints.length - 1) (fun i =>
        slopeOf c.degree c.knots i (c.controlPoints.getD i 0) (c.controlPoints.getD (i + 1) 0)),
      inner c.knots, c.degree - 1⟩ := by
  unfold BSplineCurve.derivative
  rw [shrink_inner (by omega)]
  simp only [ok_bind]
  rw [spans_inner hl hN]
  simp only [ok_bind]
  rw [usub_ok hp]
  simp only [ok_bind, pure_eq_ok]
  congr 2
  apply List.ext_getElem?
  intro i
  rw [tab_getElem?, List.getElem?_map]
  by_cases hi : i < c.controlPoints.length - 1
  · rw [if_pos hi]
    have : ((pairs c.controlPoints).zip (tab (c.controlPoints.length - 1)
        (fun i => knot c.knots (i + c.degree + 1) - knot c.knots (i + 1))))[i]?
        = some ((c.controlPoints[i], c.controlPoints[i + 1]), knot c.knots (i + c.degree + 1) - knot c.knots (i + 1)) := by
      rw [List.getElem?_zip_eq_some]
      refine ⟨pairs_getElem? _ _ (by omega), ?_⟩
      rw [tab_getElem?, if_pos hi]
    rw [this]
    simp only [Option.map_some, Option.some.injEq, slopeOf]
    congr 3 <;> simp [List.getD, show i < c.controlPoints.length by omega, show i + 1 < c.controlPoints.length by omega]
  · rw [if_neg hi, List.getElem?_eq_none]
    · rfl
    · rw [List.length_zip, pairs_length, tab_length]; omega

theorem at_entry {g : Grid P} (hg : NetOk g) {i j : Nat} (hi : i < g.rows) (hj : j < g.cols) :
    g.at i j = .ok (entry g i j) := by
  obtain ⟨h, e⟩ := grid_at hg hi hj
  rw [e]
  simp [entry, List.getD, h]

theorem surface_slopesU {s : BSplineSurface F P} (hg : NetOk s.controlPoints)
    (hu : s.knots.1.length = s.controlPoints.rows + s.degree.1 + 1) (hp : 1 ≤ s.degree.1)
    (hr : 2 ≤ s.controlPoints.rows) (hc : 0 < s.controlPoints.cols) :
    s.derivativeU = .ok ⟨⟨netTab (s.controlPoints.rows - 1) s.controlPoints.cols (fun i j =>
        slopeOf s.degree.1 s.knots.1 i (entry s.controlPoints i j) (entry s.controlPoints (i + 1) j)),
        s.controlPoints.rows - 1, s.controlPoints.cols⟩, (inner s.knots.1, s.knots.2), (s.degree.1 - 1, s.degree.2)⟩ := by
  unfold BSplineSurface.derivativeU
  rw [if_neg (by omega), usub_ok hp, shrink_inner (by omega)]
  simp only [ok_bind]
  rw [spans_inner hu (by omega), usub_ok (by omega)]
  simp only [ok_bind]
  rw [netTab_loop (f := fun i j =>
        slopeOf s.degree.1 s.knots.1 i (entry s.controlPoints i j) (entry s.controlPoints (i + 1) j))]
  · simp only [ok_bind]
    rw [fromVec_netTab (by omega) hc]
    rfl
  · intro pts i j hi hj
    rw [at_entry hg (by omega) hj, at_entry hg (by omega) hj, idx_tab hi]
    rfl

theorem surface_slopesV {s : BSplineSurface F P} (hg : NetOk s.controlPoints)
    (hv : s.knots.2.length = s.controlPoints.cols + s.degree.2 + 1) (hp : 1 ≤ s.degree.2)
    (hc : 2 ≤ s.controlPoints.cols) (hr : 0 < s.controlPoints.rows) :
    s.derivativeV = .ok ⟨⟨netTab s.controlPoints.rows (s.controlPoints.cols - 1) (fun i j =>
        slopeOf s.degree.2 s.knots.2 j (entry s.controlPoints i j) (entry s.controlPoints i (j + 1))),
        s.controlPoints.rows, s.controlPoints.cols - 1⟩, (s.knots.1, inner s.knots.2), (s.degree.1, s.degree.2 - 1)⟩ := by
  unfold BSplineSurface.derivativeV
  rw [if_neg (by omega), usub_ok hp, shrink_inner (by omega)]
  simp only [ok_bind]
  rw [spans_inner hv (by omega), usub_ok (by omega)]
  simp only [ok_bind]
  rw [netTab_loop (f := fun i j =>
        slopeOf s.degree.2 s.knots.2 j (entry s.controlPoints i j) (entry s.controlPoints i (j + 1)))]
  · simp only [ok_bind]
    rw [fromVec_netTab hr (by omega)]
    rfl
  · intro pts i j hi hj
    rw [at_entry hg hi (by omega), at_entry hg hi (by omega), idx_tab hj]
    rfl

end

/-! ### `ulps_eq!` and the sign of zero -/

theorem isZ_cases {z : Float} (h : IsZ z) : z = Float.ofBits 0 ∨ z = Float.ofBits 0x8000000000000000 := by
  obtain ⟨s, hs⟩ := isZ_iff.mp h
  cases s with
  | positive => exact Or.inl (unpack_inj (hs.trans rfl))
  | negative => exact Or.inr (unpack_inj (hs.trans rfl))

theorem ulpsEq_isZ {z b : Float} (hz : IsZ z) (hb : IsFin b) : ulpsEqF64 z b = true ↔ |val b| ≤ 2 ^ (-52 : Int) := by
  have e : val z - val b = -val b := by rw [hz.2, zero_sub]
  obtain ⟨f1, r1⟩ := sub_rounds hz.1 hb (by rw [e, abs_neg]; exact val_abs_le hb)
  rw [e, ← (neg_val hb).2] at r1
  have v1 := r1.of_rep (val_rep (neg_val hb).1)
  rw [(neg_val hb).2] at v1
  obtain ⟨f2, v2⟩ := fabs_val f1
  have key : fabs (F := Float) (z - b) ≤ (2.220446049250313e-16 : Float) ↔ |val b| ≤ 2 ^ (-52 : Int) := by
    rw [le_iff f2 epsilon_val.1, v2, v1, epsilon_val.2, abs_neg]
  rw [← key]
  unfold ulpsEqF64
  split
  · rename_i h'
    exact ⟨fun _ => h', fun _ => rfl⟩
  · rename_i hne
    simp only [hne, iff_false, Bool.not_eq_true]
    split
    · rfl
    · simp only [decide_eq_false_iff_not]
      rintro ⟨h1, h2⟩
      refine hne ?_
      rcases isZ_cases hz with rfl | rfl
      · have h0 : (Float.ofBits 0).toBits.toNat = 0 := by decide +kernel
        rw [h0] at h1 h2
        have hext : ∀ k : Fin 5, b.toBits.toNat = k → b = Float.ofBits (UInt64.ofNat k) := by
          intro k hk
          apply toBits_ext
          rw [← UInt64.toNat_inj, hk]
          clear hk
          revert k
          decide +kernel
        have hall : ∀ k : Fin 5, fabs (F := Float) (Float.ofBits 0 - Float.ofBits (UInt64.ofNat k))
            ≤ (2.220446049250313e-16 : Float) := by
          decide +kernel
        rw [hext ⟨b.toBits.toNat, by omega⟩ rfl]
        exact hall _
      · have h0 : (Float.ofBits 0x8000000000000000).toBits.toNat = 9223372036854775808 := by decide +kernel
        rw [h0] at h1 h2
        have hbits : ∀ k : Fin 9, b.toBits.toNat = 9223372036854775804 + k →
            b.toBits = UInt64.ofNat (9223372036854775804 + k) := by
          intro k hk
          rw [← UInt64.toNat_inj, hk]
          clear hk
          revert k
          decide +kernel
        have hall : ∀ k : Fin 9,
            ((Float.ofBits 0x8000000000000000).toBits >>> 63 != UInt64.ofNat (9223372036854775804 + k) >>> 63) = true ∨
            (Float.ofBits (UInt64.ofNat (9223372036854775804 + k))).toBits = UInt64.ofNat (9223372036854775804 + k) ∧
            fabs (F := Float) (Float.ofBits 0x8000000000000000 - Float.ofBits (UInt64.ofNat (9223372036854775804 + k)))
              ≤ (2.220446049250313e-16 : Float) := by
          decide +kernel
        obtain ⟨k, hk⟩ : ∃ k : Fin 9, b.toBits.toNat = 9223372036854775804 + k :=
          ⟨⟨b.toBits.toNat - 9223372036854775804, by omega⟩, by simp only; omega⟩
        have hb' := hbits k hk
        rcases hall k with h | ⟨h, h'⟩
        · exfalso
          rename_i hcond
          apply hcond
          rw [hb', h, Bool.or_true]
        · rw [toBits_ext (hb'.trans h.symm)]
          exact h'

theorem ulpsEq_congr {a a' b : Float} (ha : IsFin a) (ha' : IsFin a') (hb : IsFin b) (h : val a = val a') :
    ulpsEqF64 a b = ulpsEqF64 a' b := by
  by_cases h0 : val a = 0
  · rw [Bool.eq_iff_iff, ulpsEq_isZ ⟨ha, h0⟩ hb, ulpsEq_isZ ⟨ha', h ▸ h0⟩ hb]
  · rw [eq_of_val ha ha' h h0]

/-! ### Knot vectors without their ends -/

theorem inner_map (knots : List Float) : inner (knots.map val) = (inner knots).map val := by
  unfold inner
  rw [List.map_drop, List.map_take, List.length_map]

theorem inner_sub {F : Type} {knots : List F} : (inner knots).Sublist knots :=
  (List.drop_sublist _ _).trans (List.take_sublist _ _)

theorem KnotsF.inner {knots : List Float} (h : KnotsF knots) : KnotsF (Geom3d.inner knots) := by
  refine ⟨fun x hx => h.fin x (inner_sub.mem hx), h.sorted.sublist (inner_sub.map _), fun i hi => ?_⟩
  rw [inner_length] at hi
  rw [knot_inner (by omega), knot_inner (by omega)]
  exact h.gap (i + 1) (by omega)

theorem DomainF.inner {knots : List Float} {p : Nat} {u : Float} (hk : KnotsF knots) (hlen : p + 2 < knots.length) (hp : 1 ≤ p)
    (h : DomainF knots p u) : DomainF (Geom3d.inner knots) (p - 1) u := by
  obtain ⟨fu, h1, h2⟩ := h
  refine ⟨fu, ?_, ?_⟩
  · rw [knot_inner (by omega), Nat.sub_add_cancel hp]
    exact h1
  · rw [inner_length]
    rcases h2 with h2 | ⟨hc, h2⟩
    · left
      rw [knot_inner (by omega), show knots.length - 2 - 1 - (p - 1) + 1 = knots.length - 1 - p by omega]
      exact h2
    · right
      have hroom := hc.room
      have e : val (knot (Geom3d.inner knots) (knots.length - 2 - 1)) = val (knot knots (knots.length - 1)) := by
        rw [knot_inner (by omega)]
        exact hc.last _ (by omega) (by omega)
      refine ⟨⟨by rw [inner_length]; omega, ?_, ?_⟩, h2.trans e.symm⟩
      · intro j h3 h4
        rw [inner_length] at h3 h4 ⊢
        rw [e, knot_inner (by omega)]
        exact hc.last _ (by omega) (by omega)
      · intro j h3
        rw [inner_length] at h3 ⊢
        rw [e, knot_inner (by omega)]
        refine ⟨(hc.before (j + 1) (by omega)).1, ?_⟩
        rw [← (hc.before (j + 1) (by omega)).2]
        have h5 := hc.last (knots.length - 2 - 1 + 1) (by omega) (by omega)
        rw [knot_inner (by omega)]
        exact ulpsEq_congr (hk.at _ (by omega)).1 (hk.at _ (by omega)).1 (hk.at _ (by omega)).1 h5

/-! ### Slopes -/

theorem knots_gap {knots : List Float} (hk : KnotsF knots) {i j : Nat} (hij : i ≤ j) (hj : j < knots.length) :
    val (knot knots j) = val (knot knots i) ∨ (2 : ℝ) ^ (-51 : Int) ≤ val (knot knots j) - val (knot knots i) := by
  induction j, hij using Nat.le_induction with
  | base => exact Or.inl rfl
  | succ j hij ih =>
    have h1 : val (knot knots i) ≤ val (knot knots j) := hk.mono i j hij (by omega)
    have h2 : val (knot knots j) ≤ val (knot knots (j + 1)) := hk.mono j (j + 1) (by omega) hj
    rcases h2.eq_or_lt with h | h
    · rw [← h]; exact ih (by omega)
    · right
      have := hk.gap j hj h
      linarith

/-- Finite coordinates, each with a relative error of at most six roundings next to the underflow. -/
def SlopeNear (x : V3 Float) (q : V3 ℝ) : Prop :=
  (IsFin x.x ∧ |val x.x - q.x| ≤ 6 * eps * |q.x| + eta) ∧ (IsFin x.y ∧ |val x.y - q.y| ≤ 6 * eps * |q.y| + eta) ∧
    (IsFin x.z ∧ |val x.z - q.z| ≤ 6 * eps * |q.z| + eta)

theorem slope_near {knots : List Float} (hk : KnotsF knots) {p i : Nat} (hi : i + p + 1 < knots.length) (hp : p ≤ 2 ^ 40)
    {a b : V3 Float} (ha : Bounded (2 ^ (900 : Int)) a) (hb : Bounded (2 ^ (900 : Int)) b) :
    SlopeNear (slopeOf p knots i a b) (slopeOf p (knots.map val) i (toReal a) (toReal b)) := by
  have h1 := hk.at (i + p + 1) hi
  have h2 := hk.at (i + 1) (by omega)
  have hg := knots_gap hk (i := i + 1) (j := i + p + 1) (by omega) hi
  have e : ∀ j, knot (knots.map val) j = val (knot knots j) := fun j => by
    rw [← tval_eq]; rfl
  have key := fun {x y : Float} (hx : IsFin x ∧ |val x| ≤ 2 ^ (900 : Int)) (hy : IsFin y ∧ |val y| ≤ 2 ^ (900 : Int)) =>
    slope_err (p := p) hx.1 hy.1 h1.1 h2.1 hx.2 hy.2 h1.2 h2.2 hp hg
  unfold slopeOf
  rw [e, e]
  exact ⟨key ha.1 hb.1, key ha.2.1 hb.2.1, key ha.2.2 hb.2.2⟩

theorem SlopeNear.near {x : V3 Float} {q : V3 ℝ} (h : SlopeNear x q) {D : ℝ} (hD : Within D q) :
    Near (6 * eps * D + eta) x q := by
  have hε := eps_pos
  have key : ∀ {y v : ℝ}, |y - v| ≤ 6 * eps * |v| + eta → |v| ≤ D → |y - v| ≤ 6 * eps * D + eta := fun h1 h2 =>
    h1.trans (by have := mul_le_mul_of_nonneg_left h2 (by linarith : (0 : ℝ) ≤ 6 * eps); linarith)
  exact ⟨⟨h.1.1, key h.1.2 hD.1⟩, ⟨h.2.1.1, key h.2.1.2 hD.2.1⟩, ⟨h.2.2.1, key h.2.2.2 hD.2.2⟩⟩

theorem SlopeNear.bounded {x : V3 Float} {q : V3 ℝ} (h : SlopeNear x q) {D : ℝ} (hD : Within D q) :
    Bounded ((1 + 6 * eps) * D + eta) x := by
  have key : ∀ {y v : ℝ}, |y - v| ≤ 6 * eps * D + eta → |v| ≤ D → |y| ≤ (1 + 6 * eps) * D + eta := fun {y v} h1 h2 => by
    have := abs_sub_abs_le_abs_sub y v
    linarith
  have h' := h.near hD
  exact ⟨⟨h.1.1, key h'.1.2 hD.1⟩, ⟨h.2.1.1, key h'.2.1.2 hD.2.1⟩, ⟨h.2.2.1, key h'.2.2.2 hD.2.2⟩⟩

/-! ### Evaluation with control points that are themselves computed -/

theorem F64.Near.close {e e' : ℝ} {x : V3 Float} {q q' : V3 ℝ} (h : Near e x q) (h' : Close e' q q') : Near (e + e') x q' :=
  ⟨⟨h.1.1, (abs_sub_le _ _ _).trans (add_le_add h.1.2 h'.1)⟩, ⟨h.2.1.1, (abs_sub_le _ _ _).trans (add_le_add h.2.1.2 h'.2.1)⟩,
    ⟨h.2.2.1, (abs_sub_le _ _ _).trans (add_le_add h.2.2.2 h'.2.2)⟩⟩

theorem F64.Near.within {e D : ℝ} {x : V3 Float} {q : V3 ℝ} (h : Near e x q) (h' : Within D q) : Bounded (D + e) x := by
  have key : ∀ {y v : ℝ}, |y - v| ≤ e → |v| ≤ D → |y| ≤ D + e := fun {y v} h1 h2 => by
    have := abs_sub_abs_le_abs_sub y v
    linarith
  exact ⟨⟨h.1.1, key h.1.2 h'.1⟩, ⟨h.2.1.1, key h.2.1.2 h'.2.1⟩, ⟨h.2.2.1, key h.2.2.2 h'.2.2⟩⟩

/-- A curve evaluated in binary64 against another, exact curve with the same knots. -/
theorem curve_from {d : BSplineCurve Float (V3 Float)} {r : BSplineCurve ℝ (V3 ℝ)} (hk : KnotsF d.knots)
    (hlen : d.knots.length = d.controlPoints.length + d.degree + 1) (hpts : 0 < d.controlPoints.length)
    (hn : d.controlPoints.length + d.degree ≤ 2 ^ 40) (hrk : r.knots = d.knots.map val) (hrd : r.degree = d.degree)
    {e D : ℝ} (he : 0 ≤ e) (hD : D + e ≤ 2 ^ (1022 : Int))
    (hp : List.Forall₂ (fun x q => Near e x q ∧ Within D q) d.controlPoints r.controlPoints) {u : Float}
    (hu : DomainF d.knots d.degree u) :
    ∃ x q, d.getPoint u = .ok x ∧ r.getPoint (val u) = .ok q ∧
      Near ((d.degree + 1 : Nat) * 2 ^ (-48 : Int) * (D + e) + (d.degree + 1 : Nat) * 2 ^ (-1073 : Int) + e) x q := by
  obtain ⟨a, A, hw, e1, e2, -⟩ := bspline_weights hk hlen hpts hn hu
  have hl := hp.length_eq
  have hε := eps_pos
  have hb : ∀ x ∈ d.controlPoints, Bounded (D + e) x := by
    intro x hx
    obtain ⟨i, hi, rfl⟩ := List.getElem_of_mem hx
    have := hp.get hi (hl ▸ hi)
    exact F64.Near.within this.1 this.2
  have hM0 : 0 ≤ D + e := (abs_nonneg _).trans (hb _ (getD_mem_of_lt hpts 0)).1.2
  have hc : Computes toReal d.controlPoints (d.degree + 1) (16 * (d.degree * eps))
      (linComb (tab d.controlPoints.length a) d.controlPoints)
      (∑ i ∈ Finset.range d.controlPoints.length, A i • toReal (d.controlPoints.getD i 0)) := ⟨a, A, hw, rfl, rfl⟩
  have hpR : ((d.degree : Nat) : ℝ) ≤ 2 ^ 40 := by exact_mod_cast (by omega : d.degree ≤ 2 ^ 40)
  have hp0 : (0 : ℝ) ≤ d.degree := Nat.cast_nonneg _
  have hnear := hc.near3 (by
    calc 16 * ((d.degree : ℝ) * eps) ≤ 16 * (2 ^ 40 * eps) := by
          have := mul_le_mul_of_nonneg_right hpR hε.le
          linarith
      _ ≤ 1 / 10 := by rw [eps_eq]; norm_num) (by omega) hM0 hD hb
  refine ⟨linComb (tab d.controlPoints.length a) d.controlPoints, linComb (tab d.controlPoints.length A) r.controlPoints,
    ?_, ?_, ?_⟩
  · unfold BSplineCurve.getPoint
    rw [e1]
    rfl
  · unfold BSplineCurve.getPoint
    rw [hrk, hrd, e2]
    rfl
  · have hclose : Close e (∑ i ∈ Finset.range d.controlPoints.length, A i • toReal (d.controlPoints.getD i 0))
        (linComb (tab d.controlPoints.length A) r.controlPoints) := by
      rw [linComb_tab]
      refine weighted_close hw.nonneg hw.sum.le he fun i hi => ?_
      have h1 := cp_close (close_of_near hp) i (by simpa using hi)
      rwa [show cp (d.controlPoints.map toReal) i = toReal (d.controlPoints.getD i 0) by
        simp [cp, List.getD, hi]] at h1
    refine F64.Near.mono (F64.Near.close hnear hclose) ?_
    have e48 : (2 : ℝ) ^ (-48 : Int) = 32 * eps := by rw [eps_eq]; norm_num
    rw [e48, e1073]
    push_cast
    have h1 := mul_nonneg (mul_nonneg hp0 hε.le) hM0
    have h2 := mul_nonneg hε.le hM0
    have h3 := mul_nonneg hp0 eta_pos.le
    have h4 := eta_pos
    nlinarith

/-- A surface evaluated in binary64 against another, exact surface with the same knots. -/
theorem surface_from {d : BSplineSurface Float (V3 Float)} {r : BSplineSurface ℝ (V3 ℝ)} (hg : NetOk d.controlPoints)
    (hku : KnotsF d.knots.1) (hkv : KnotsF d.knots.2) (hlu : d.knots.1.length = d.controlPoints.rows + d.degree.1 + 1)
    (hlv : d.knots.2.length = d.controlPoints.cols + d.degree.2 + 1) (hr : 0 < d.controlPoints.rows)
    (hc : 0 < d.controlPoints.cols) (hnu : d.controlPoints.rows + d.degree.1 ≤ 2 ^ 40)
    (hnv : d.controlPoints.cols + d.degree.2 ≤ 2 ^ 40) (hd : (d.degree.1 + 1) * (d.degree.2 + 1) ≤ 2 ^ 40)
    (hrg : NetOk r.controlPoints) (hrr : r.controlPoints.rows = d.controlPoints.rows)
    (hrc : r.controlPoints.cols = d.controlPoints.cols) (hrk1 : r.knots.1 = d.knots.1.map val)
    (hrk2 : r.knots.2 = d.knots.2.map val) (hrd : r.degree = d.degree)
    {e D : ℝ} (he : 0 ≤ e) (hD : D + e ≤ 2 ^ (1022 : Int))
    (hp : ∀ i j, i < d.controlPoints.rows → j < d.controlPoints.cols →
      Near e (entry d.controlPoints i j) (entry r.controlPoints i j) ∧ Within D (entry r.controlPoints i j)) {u v : Float}
    (hu : DomainF d.knots.1 d.degree.1 u) (hv : DomainF d.knots.2 d.degree.2 v) :
    ∃ x q, d.getPoint u v = .ok x ∧ r.getPoint (val u) (val v) = .ok q ∧
      Near (((d.degree.1 + 1) * (d.degree.2 + 1) : Nat) * 2 ^ (-48 : Int) * (D + e)
        + ((d.degree.1 + 1) * (d.degree.2 + 1) : Nat) * 2 ^ (-1073 : Int) + e) x q ∧ Within D q := by
  have hb : ∀ x ∈ d.controlPoints.data, Bounded (D + e) x := by
    intro x hx
    obtain ⟨k, hk, rfl⟩ := List.getElem_of_mem hx
    rw [hg] at hk
    have hj := Nat.mod_lt k hc
    have hi : k / d.controlPoints.cols < d.controlPoints.rows := Nat.div_lt_of_lt_mul (by rwa [Nat.mul_comm])
    have := hp _ _ hi hj
    have hk' : k < d.controlPoints.data.length := by rw [hg]; exact hk
    have e1 : entry d.controlPoints (k / d.controlPoints.cols) (k % d.controlPoints.cols) = d.controlPoints.data[k] := by
      unfold entry
      rw [Nat.div_add_mod']
      simp [List.getD, hk']
    rw [e1] at this
    exact F64.Near.within this.1 this.2
  obtain ⟨x, q, h1, h2, h3⟩ := C106_bspline d hg hku hkv hlu hlv hr hc hnu hnv hd u v hu hv (D + e) hD hb
  obtain ⟨a, A, hwa, a1, a2, -⟩ := bspline_weights hku hlu hr hnu hu
  obtain ⟨b, B, hwb, b1, b2, -⟩ := bspline_weights hkv hlv hc hnv hv
  have h2' : (BSplineSurface.mk (mapNet toReal d.controlPoints) (d.knots.1.map val, d.knots.2.map val) d.degree).getPoint
      (val u) (val v) = .ok (∑ i ∈ Finset.range d.controlPoints.rows, ∑ j ∈ Finset.range d.controlPoints.cols,
        (A i * B j) • entry (mapNet toReal d.controlPoints) i j) := by
    unfold BSplineSurface.getPoint
    simp only []
    rw [a2, b2]
    simp only [ok_bind]
    exact netSum_eq (mapNet_ok toReal hg) le_rfl le_rfl _ _
  rw [h2'] at h2
  cases h2
  refine ⟨x, ∑ i ∈ Finset.range d.controlPoints.rows, ∑ j ∈ Finset.range d.controlPoints.cols,
        (A i * B j) • entry r.controlPoints i j, h1, ?_, ?_, ?_⟩
  · unfold BSplineSurface.getPoint
    rw [hrk1, hrk2, hrd, a2, b2]
    simp only [ok_bind]
    rw [netSum_eq hrg hrr.le hrc.le, hrr, hrc]
  · refine F64.Near.close h3 ?_
    simp only [mul_smul, ← Finset.smul_sum]
    refine weighted_close hwa.nonneg hwa.sum.le he fun i hi => ?_
    refine weighted_close hwb.nonneg hwb.sum.le he fun j hj => ?_
    have hij := (hp i j hi hj).1
    have e1 : entry (mapNet toReal d.controlPoints) i j = toReal (entry d.controlPoints i j) := by
      have hij' : i * d.controlPoints.cols + j < d.controlPoints.data.length := by
        rw [hg]
        calc i * d.controlPoints.cols + j < (i + 1) * d.controlPoints.cols := by rw [Nat.add_mul]; omega
          _ ≤ _ := Nat.mul_le_mul_right _ hi
      simp [entry, mapNet, List.getD, hij']
    rw [e1]
    exact ⟨hij.1.2, hij.2.1.2, hij.2.2.2⟩
  · have hD0 : 0 ≤ D := (abs_nonneg _).trans (hp 0 0 hr hc).2.1
    have hz : Close D (∑ i ∈ Finset.range d.controlPoints.rows, A i • ∑ j ∈ Finset.range d.controlPoints.cols,
        B j • entry r.controlPoints i j) (∑ i ∈ Finset.range d.controlPoints.rows, A i •
          ∑ j ∈ Finset.range d.controlPoints.cols, B j • (0 : V3 ℝ)) := by
      refine weighted_close hwa.nonneg hwa.sum.le hD0 fun i hi => ?_
      refine weighted_close hwb.nonneg hwb.sum.le hD0 fun j hj => ?_
      obtain ⟨w1, w2, w3⟩ := (hp i j hi hj).2
      unfold Close
      rw [V3.zero_x, V3.zero_y, V3.zero_z, sub_zero, sub_zero, sub_zero]
      exact ⟨w1, w2, w3⟩
    simp only [smul_zero, Finset.sum_const_zero] at hz
    unfold Close at hz
    rw [V3.zero_x, V3.zero_y, V3.zero_z, sub_zero, sub_zero, sub_zero] at hz
    simp only [mul_smul, ← Finset.smul_sum]
    exact hz

/-! ### C129 -/

theorem slope_total_bound {D : ℝ} (hD0 : 0 ≤ D) (k : Nat) (hk : 1 ≤ k) (hk' : k ≤ 2 ^ 40) :
    (k : ℝ) * 2 ^ (-48 : Int) * (D + (6 * eps * D + eta)) + k * 2 ^ (-1073 : Int) + (6 * eps * D + eta)
      ≤ k * 2 ^ (-47 : Int) * D + k * 2 ^ (-1072 : Int) := by
  have hε := eps_pos
  have hη := eta_pos
  have hs : eps ≤ 1 / 2 ^ 50 := by rw [eps_eq]; norm_num
  have hkR : (1 : ℝ) ≤ k := by exact_mod_cast hk
  have hkR' : (k : ℝ) ≤ 2 ^ 40 := by exact_mod_cast hk'
  have e48 : (2 : ℝ) ^ (-48 : Int) = 32 * eps := by rw [eps_eq]; norm_num
  have e47 : (2 : ℝ) ^ (-47 : Int) = 64 * eps := by rw [eps_eq]; norm_num
  have e72 : (2 : ℝ) ^ (-1072 : Int) = 8 * eta := by
    rw [show (-1072 : Int) = 1 + -1073 by norm_num, ← two_mul_zpow, e1073]; ring
  rw [e48, e47, e72, e1073]
  have hεD := mul_nonneg hε.le hD0
  have h1 : eps * (eps * D) ≤ 1 / 2 ^ 50 * (eps * D) := mul_le_mul_of_nonneg_right hs hεD
  have h2 : (k : ℝ) * (eps * (eps * D)) ≤ k * (1 / 2 ^ 50 * (eps * D)) :=
    mul_le_mul_of_nonneg_left h1 (by linarith)
  have h3 : eps * D ≤ k * (eps * D) := le_mul_of_one_le_left hεD hkR
  have h4 : eta ≤ k * eta := le_mul_of_one_le_left hη.le hkR
  have h5 : (k : ℝ) * (eps * eta) ≤ k * (1 / 2 ^ 50 * eta) :=
    mul_le_mul_of_nonneg_left (mul_le_mul_of_nonneg_right hs hη.le) (by linarith)
  nlinarith

theorem slope_limit {D : ℝ} (hD0 : 0 ≤ D) (hD : D ≤ 2 ^ (1000 : Int)) : D + (6 * eps * D + eta) ≤ 2 ^ (1022 : Int) := by
  have hs : eps ≤ 1 / 2 ^ 50 := by rw [eps_eq]; norm_num
  have hη : eta ≤ 1 := eta_le.trans (by rw [eps_eq]; norm_num)
  have h1 : 6 * eps * D ≤ 1 * D := mul_le_mul_of_nonneg_right (by linarith) hD0
  have h2 : (2 : ℝ) ^ (1022 : Int) = 2 ^ (22 : Int) * 2 ^ (1000 : Int) := by rw [← zpow_add₀ (by norm_num)]; norm_num
  have h3 : (1 : ℝ) ≤ 2 ^ (1000 : Int) := one_le_zpow₀ (by norm_num) (by norm_num)
  rw [h2, show (2 : ℝ) ^ (22 : Int) = 4194304 by norm_num]
  clear h2
  generalize (2 : ℝ) ^ (1000 : Int) = X at *
  linarith

/-- **C129.** For every binary64 parameter of the domain, the derivative curve computed in binary64, evaluated in
binary64, gives a vector with finite coordinates that differ from those of the exact derivative by at most
`p * 2 ^ -47 * D` (next to the underflow), where `p` is the degree and `D` bounds the control points of the exact
derivative. -/
theorem C129_curve (c : BSplineCurve Float (V3 Float)) (hk : KnotsF c.knots)
    (hlen : c.knots.length = c.controlPoints.length + c.degree + 1) (hp : 1 ≤ c.degree) (hN : 2 ≤ c.controlPoints.length)
    (hn : c.controlPoints.length + c.degree ≤ 2 ^ 40) (hb : ∀ p ∈ c.controlPoints, Bounded (2 ^ (900 : Int)) p) {u : Float}
    (hu : DomainF c.knots c.degree u) {D : ℝ} (hD : D ≤ 2 ^ (1000 : Int))
    (hs : ∀ r, (realCurve c).derivative = .ok r → ∀ q ∈ r.controlPoints, Within D q) :
    ∃ d r x q, c.derivative = .ok d ∧ (realCurve c).derivative = .ok r ∧ d.getPoint u = .ok x ∧ r.getPoint (val u) = .ok q ∧
      Near ((c.degree : ℝ) * 2 ^ (-47 : Int) * D + c.degree * 2 ^ (-1072 : Int)) x q := by
  have e1 := curve_slopes hlen hp (by omega)
  have e2 := curve_slopes (c := realCurve c) (by simp only [realCurve, List.length_map]; exact hlen) hp
    (by simp only [realCurve, List.length_map]; omega)
  have hs' := hs _ e2
  simp only [realCurve, List.length_map] at e2 hs'
  have hcp : ∀ i, i < c.controlPoints.length → (c.controlPoints.map toReal).getD i 0 = toReal (c.controlPoints.getD i 0) := by
    intro i hi
    simp [List.getD, hi]
  have hpt : List.Forall₂ (fun x q => Near (6 * eps * D + eta) x q ∧ Within D q)
      (tab (c.controlPoints.length - 1) fun i =>
        slopeOf c.degree c.knots i (c.controlPoints.getD i 0) (c.controlPoints.getD (i + 1) 0))
      (tab (c.controlPoints.length - 1) fun i =>
        slopeOf c.degree (c.knots.map val) i ((c.controlPoints.map toReal).getD i 0)
          ((c.controlPoints.map toReal).getD (i + 1) 0)) := by
    unfold tab
    rw [List.forall₂_map_left_iff, List.forall₂_map_right_iff, List.forall₂_same]
    intro i hi
    have hi' := List.mem_range.mp hi
    have hw := hs' _ (List.mem_map_of_mem hi)
    refine ⟨SlopeNear.near ?_ hw, hw⟩
    rw [hcp i (by omega), hcp (i + 1) (by omega)]
    exact slope_near hk (by omega) (by omega) (hb _ (getD_mem_of_lt (by omega) 0)) (hb _ (getD_mem_of_lt (by omega) 0))
  have hD0 : 0 ≤ D := by
    have := hs' _ (List.mem_map_of_mem (List.mem_range.mpr (by omega : 0 < c.controlPoints.length - 1)))
    exact (abs_nonneg _).trans this.1
  have he : 0 ≤ 6 * eps * D + eta := add_nonneg (mul_nonneg (mul_nonneg (by norm_num) eps_pos.le) hD0) eta_pos.le
  obtain ⟨x, q, h1, h2, h3⟩ := curve_from (d := ⟨_, inner c.knots, c.degree - 1⟩)
    (r := ⟨_, inner (c.knots.map val), c.degree - 1⟩) hk.inner (by simp only [List.length_map, List.length_range, inner_length]; omega)
    (by simp only [List.length_map, List.length_range]; omega)
    (by simp only [List.length_map, List.length_range]; omega) (inner_map _) rfl he (slope_limit hD0 hD) hpt
    (hu.inner hk (by omega) hp)
  refine ⟨_, _, x, q, e1, e2, h1, h2, F64.Near.mono h3 ?_⟩
  simp only [Nat.sub_add_cancel hp]
  exact slope_total_bound hD0 _ hp (by omega)

/-- **C129.** Strictly between two knots the computed vector is close to the derivative of the exact curve. -/
theorem C129_derivative (c : BSplineCurve Float (V3 Float)) (hk : KnotsF c.knots)
    (hlen : c.knots.length = c.controlPoints.length + c.degree + 1) (hp : 1 ≤ c.degree) (hN : 2 ≤ c.controlPoints.length)
    (hn : c.controlPoints.length + c.degree ≤ 2 ^ 40) (hb : ∀ p ∈ c.controlPoints, Bounded (2 ^ (900 : Int)) p) {u : Float}
    (fu : IsFin u) {m : Nat} (hm : c.degree ≤ m) (hm' : m < c.controlPoints.length) (h1 : val (knot c.knots m) < val u)
    (h2 : val u < val (knot c.knots (m + 1))) {D : ℝ} (hD : D ≤ 2 ^ (1000 : Int))
    (hs : ∀ r, (realCurve c).derivative = .ok r → ∀ q ∈ r.controlPoints, Within D q) :
    ∃ d x q, c.derivative = .ok d ∧ d.getPoint u = .ok x ∧
      Near ((c.degree : ℝ) * 2 ^ (-47 : Int) * D + c.degree * 2 ^ (-1072 : Int)) x q ∧
      ∀ f : V3 ℝ →ₗ[ℝ] ℝ, HasDerivAt (fun v => f (valOf ((realCurve c).getPoint v))) (f q) (val u) := by
  have g1 : val (knot c.knots c.degree) ≤ val (knot c.knots m) := hk.mono _ _ hm (by omega)
  have g2 : val (knot c.knots (m + 1)) ≤ val (knot c.knots (c.knots.length - 1 - c.degree)) :=
    hk.mono _ _ (by omega) (by omega)
  have g3 : val (knot c.knots 0) ≤ val (knot c.knots m) := hk.mono _ _ (by omega) (by omega)
  have g4 : val (knot c.knots (m + 1)) ≤ val (knot c.knots (c.controlPoints.length + c.degree)) :=
    hk.mono _ _ (by omega) (by omega)
  have e : ∀ j, knot (c.knots.map val) j = val (knot c.knots j) := fun j => by rw [← tval_eq]; rfl
  obtain ⟨d, r, x, q, e1, e2, e3, e4, e5⟩ :=
    C129_curve c hk hlen hp hN hn hb (u := u) ⟨fu, by linarith, Or.inl (by linarith)⟩ hD hs
  have hv : (realCurve c).Valid := by
    refine ⟨?_, hk.sorted, resolved_real _, ?_, ?_⟩
    · simp only [realCurve, List.length_map]; exact hlen
    · simp only [realCurve, List.length_map, e]
      linarith
    · simp only [realCurve, List.length_map]; omega
  obtain ⟨r', f1, -, -, -, f2⟩ := C65_derivative hv hp
  obtain rfl : r = r' := by rw [e2] at f1; cases f1; rfl
  obtain ⟨q', f3, f4⟩ := f2 m (val u) hm (by simp only [realCurve, List.length_map]; exact hm')
    (by simp only [realCurve, e]; exact h1) (by simp only [realCurve, e]; exact h2)
  obtain rfl : q = q' := by rw [e4] at f3; cases f3; rfl
  exact ⟨d, x, q, e1, e3, e5, f4⟩

/-- **C129.** The same for Bézier curves. -/
theorem C129_bezier (b : BezierCurve (V3 Float)) (hN : 2 ≤ b.controlPoints.length) (hn : b.controlPoints.length ≤ 2 ^ 40)
    (hb : ∀ p ∈ b.controlPoints, Bounded (2 ^ (900 : Int)) p) {u : Float} (h0 : 0 ≤ u) (h1 : u ≤ 1) {D : ℝ}
    (hD : D ≤ 2 ^ (1000 : Int))
    (hs : ∀ r, (BezierCurve.mk (b.controlPoints.map toReal)).derivative (F := ℝ) = .ok r → ∀ q ∈ r.controlPoints, Within D q) :
    ∃ d x q, b.derivative (F := Float) = .ok d ∧ d.getPoint u = .ok x ∧
      Near (((b.controlPoints.length - 1 : Nat) : ℝ) * 2 ^ (-47 : Int) * D
        + (b.controlPoints.length - 1 : Nat) * 2 ^ (-1072 : Int)) x q ∧
      ∀ f : V3 ℝ →ₗ[ℝ] ℝ,
        HasDerivAt (fun v => f (valOf ((BezierCurve.mk (b.controlPoints.map toReal)).getPoint v))) (f q) (val u) := by
  have hcp : ∀ i, i < b.controlPoints.length → cp (b.controlPoints.map toReal) i = toReal (b.controlPoints.getD i 0) := by
    intro i hi
    simp [cp, List.getD, hi]
  have e1 : b.derivative (F := Float) = .ok ⟨tab (b.controlPoints.length - 1) fun i =>
      (b.controlPoints.getD (i + 1) 0 - b.controlPoints.getD i 0) * (Nat.cast (b.controlPoints.length - 1) : Float)⟩ := by
    unfold BezierCurve.derivative BezierCurve.degree
    rw [usub_ok (by omega)]
    simp only [ok_bind, pure_eq_ok]
    congr 2
    apply List.ext_getElem?
    intro i
    rw [tab_getElem?, List.getElem?_map]
    by_cases hi : i < b.controlPoints.length - 1
    · rw [if_pos hi, pairs_getElem? _ _ (by omega)]
      simp [List.getD, show i < b.controlPoints.length by omega, show i + 1 < b.controlPoints.length by omega]
    · rw [if_neg hi, List.getElem?_eq_none (by rw [pairs_length]; omega)]
      rfl
  obtain ⟨r, e2, -, e3⟩ := bezier_derivative_spec (BezierCurve.mk (b.controlPoints.map toReal)) (by simpa using hN)
  have e2' := bezier_derivative_eq (BezierCurve.mk (b.controlPoints.map toReal)) (by simp only [List.length_map]; omega)
  have hs' := hs _ e2'
  rw [e2] at e2'
  cases e2'
  simp only [List.length_map] at e2 e3 hs'
  obtain ⟨q, f1, f2⟩ := e3 (val u)
  have hpt : List.Forall₂ (fun x q => Near (6 * eps * D + eta) x q ∧ Within D q)
      (tab (b.controlPoints.length - 1) fun i =>
        (b.controlPoints.getD (i + 1) 0 - b.controlPoints.getD i 0) * (Nat.cast (b.controlPoints.length - 1) : Float))
      (tab (b.controlPoints.length - 1) fun i => ((b.controlPoints.length - 1 : Nat) : ℝ) •
        (cp (b.controlPoints.map toReal) (i + 1) - cp (b.controlPoints.map toReal) i)) := by
    unfold tab
    rw [List.forall₂_map_left_iff, List.forall₂_map_right_iff, List.forall₂_same]
    intro i hi
    have hi' := List.mem_range.mp hi
    have hw := hs' _ (List.mem_map_of_mem hi)
    refine ⟨SlopeNear.near ?_ hw, hw⟩
    rw [hcp i (by omega), hcp (i + 1) (by omega)]
    have b1 := hb _ (getD_mem_of_lt (show i < b.controlPoints.length by omega) 0)
    have b2 := hb _ (getD_mem_of_lt (show i + 1 < b.controlPoints.length by omega) 0)
    have key := fun {x y : Float} (hx : IsFin x ∧ |val x| ≤ 2 ^ (900 : Int)) (hy : IsFin y ∧ |val y| ≤ 2 ^ (900 : Int)) =>
      difference_err (p := b.controlPoints.length - 1) hx.1 hy.1 hx.2 hy.2 (by omega)
    exact ⟨key b1.1 b2.1, key b1.2.1 b2.2.1, key b1.2.2 b2.2.2⟩
  have hD0 : 0 ≤ D := by
    have := hs' _ (List.mem_map_of_mem (List.mem_range.mpr (by omega : 0 < b.controlPoints.length - 1)))
    exact (abs_nonneg _).trans this.1
  have he : 0 ≤ 6 * eps * D + eta := add_nonneg (mul_nonneg (mul_nonneg (by norm_num) eps_pos.le) hD0) eta_pos.le
  have hbd : ∀ x ∈ tab (b.controlPoints.length - 1) (fun i =>
        (b.controlPoints.getD (i + 1) 0 - b.controlPoints.getD i 0) * (Nat.cast (b.controlPoints.length - 1) : Float)),
      Bounded (D + (6 * eps * D + eta)) x := by
    intro x hx
    obtain ⟨i, hi, rfl⟩ := List.getElem_of_mem hx
    have := hpt.get hi (hpt.length_eq ▸ hi)
    exact F64.Near.within this.1 this.2
  have hl := tab_length (b.controlPoints.length - 1) (fun i =>
        (b.controlPoints.getD (i + 1) 0 - b.controlPoints.getD i 0) * (Nat.cast (b.controlPoints.length - 1) : Float))
  generalize tab (b.controlPoints.length - 1) (fun i =>
        (b.controlPoints.getD (i + 1) 0 - b.controlPoints.getD i 0) * (Nat.cast (b.controlPoints.length - 1) : Float)) = L at *
  obtain ⟨x, q0, g1, g2, g3⟩ := C92_error ⟨L⟩ (by simp only; omega) (by simp only; omega) u h0 h1 _
    (slope_limit hD0 hD) hbd
  obtain ⟨-, u0, u1⟩ := unit_float h0 h1
  generalize (tab (b.controlPoints.length - 1) fun i => ((b.controlPoints.length - 1 : Nat) : ℝ) •
        (cp (b.controlPoints.map toReal) (i + 1) - cp (b.controlPoints.map toReal) i)) = R at *
  obtain ⟨q1, q2, k1, k2, k3⟩ := bezier_close (b := ⟨L.map toReal⟩) (b' := ⟨R⟩) he (close_of_near hpt)
    (by have := hpt.length_eq; simp only; omega) u0 u1
  rw [g2] at k1
  cases k1
  rw [f1] at k2
  cases k2
  refine ⟨_, x, q, e1, g1, F64.Near.mono (F64.Near.close g3 k3) ?_, f2⟩
  simp only [hl]
  refine le_trans ?_ (slope_total_bound hD0 _ (by omega : 1 ≤ b.controlPoints.length - 1) (by omega))
  have hk0 : (0 : ℝ) ≤ (b.controlPoints.length - 1 : Nat) := Nat.cast_nonneg _
  have h3 : (2 : ℝ) ^ (-50 : Int) ≤ 2 ^ (-48 : Int) := two_zpow_le (by norm_num)
  have h4 : 0 ≤ D + (6 * eps * D + eta) := by linarith
  gcongr

/-- The surface with the real numbers that are stored. -/
noncomputable def realSurface (s : BSplineSurface Float (V3 Float)) : BSplineSurface ℝ (V3 ℝ) :=
  ⟨mapNet toReal s.controlPoints, (s.knots.1.map val, s.knots.2.map val), s.degree⟩

/-- A B-spline surface with finite data. -/
structure Spec.SurfaceF (s : BSplineSurface Float (V3 Float)) : Prop where
  net : NetOk s.controlPoints
  knotsU : KnotsF s.knots.1
  knotsV : KnotsF s.knots.2
  lenU : s.knots.1.length = s.controlPoints.rows + s.degree.1 + 1
  lenV : s.knots.2.length = s.controlPoints.cols + s.degree.2 + 1
  rows : 2 ≤ s.controlPoints.rows
  cols : 2 ≤ s.controlPoints.cols
  sizeU : s.controlPoints.rows + s.degree.1 ≤ 2 ^ 40
  sizeV : s.controlPoints.cols + s.degree.2 ≤ 2 ^ 40
  size : (s.degree.1 + 1) * (s.degree.2 + 1) ≤ 2 ^ 40
  bounded : ∀ p ∈ s.controlPoints.data, Bounded (2 ^ (900 : Int)) p

theorem net_index {P : Type} {g : Grid P} (hg : NetOk g) {i j : Nat} (hi : i < g.rows) (hj : j < g.cols) :
    i * g.cols + j < g.data.length := by
  rw [hg]
  calc i * g.cols + j < (i + 1) * g.cols := by rw [Nat.add_mul]; omega
    _ ≤ _ := Nat.mul_le_mul_right _ hi

theorem entry_mem_data {P : Type} [Zero P] {g : Grid P} (hg : NetOk g) {i j : Nat} (hi : i < g.rows) (hj : j < g.cols) :
    entry g i j ∈ g.data := getD_mem_of_lt (net_index hg hi hj) 0

theorem entry_toReal {g : Grid (V3 Float)} (hg : NetOk g) {i j : Nat} (hi : i < g.rows) (hj : j < g.cols) :
    entry (mapNet toReal g) i j = toReal (entry g i j) := by
  simp [entry, mapNet, List.getD, net_index hg hi hj]

/-- **C129.** The same for the derivative of a surface in `u`. -/
theorem C129_surface_u {s : BSplineSurface Float (V3 Float)} (hs : SurfaceF s) (hp : 1 ≤ s.degree.1) {u v : Float}
    (hu : DomainF s.knots.1 s.degree.1 u) (hv : DomainF s.knots.2 s.degree.2 v) {D : ℝ} (hD : D ≤ 2 ^ (1000 : Int))
    (hb : ∀ r, (realSurface s).derivativeU = .ok r → ∀ q ∈ r.controlPoints.data, Within D q) :
    ∃ d r x q, s.derivativeU = .ok d ∧ (realSurface s).derivativeU = .ok r ∧ d.getPoint u v = .ok x ∧
      r.getPoint (val u) (val v) = .ok q ∧
      Near (((s.degree.1 * (s.degree.2 + 1) : Nat) : ℝ) * 2 ^ (-47 : Int) * D
        + (s.degree.1 * (s.degree.2 + 1) : Nat) * 2 ^ (-1072 : Int)) x q ∧ Within D q := by
  have hr := hs.rows
  have hc := hs.cols
  have e1 := surface_slopesU hs.net hs.lenU hp hr (by omega)
  have e2 := surface_slopesU (s := realSurface s) (mapNet_ok toReal hs.net)
    (by simp only [realSurface, mapNet, List.length_map]; exact hs.lenU) hp hr (by simp only [realSurface, mapNet]; omega)
  have hb' := hb _ e2
  have hpt : ∀ i j, i < s.controlPoints.rows - 1 → j < s.controlPoints.cols →
      Near (6 * eps * D + eta) (slopeOf s.degree.1 s.knots.1 i (entry s.controlPoints i j) (entry s.controlPoints (i + 1) j))
        (slopeOf s.degree.1 (s.knots.1.map val) i (entry (mapNet toReal s.controlPoints) i j)
          (entry (mapNet toReal s.controlPoints) (i + 1) j)) ∧
      Within D (slopeOf s.degree.1 (s.knots.1.map val) i (entry (mapNet toReal s.controlPoints) i j)
          (entry (mapNet toReal s.controlPoints) (i + 1) j)) := by
    intro i j hi hj
    have hw := hb' _ (entry_mem_data (netTab_ok _ _ _) (i := i) (j := j) hi hj)
    rw [entry_netTab _ (show i < (realSurface s).controlPoints.rows - 1 from hi)
      (show j < (realSurface s).controlPoints.cols from hj)] at hw
    simp only [realSurface] at hw
    refine ⟨SlopeNear.near ?_ hw, hw⟩
    rw [entry_toReal hs.net (by omega) hj, entry_toReal hs.net (by omega) hj]
    have := hs.lenU
    have := hs.sizeU
    exact slope_near hs.knotsU (by omega) (by omega) (hs.bounded _ (entry_mem_data hs.net (by omega) hj))
      (hs.bounded _ (entry_mem_data hs.net (by omega) hj))
  have hD0 : 0 ≤ D := (abs_nonneg _).trans (hpt 0 0 (by omega) (by omega)).2.1
  have he : 0 ≤ 6 * eps * D + eta := add_nonneg (mul_nonneg (mul_nonneg (by norm_num) eps_pos.le) hD0) eta_pos.le
  have l1 := hs.lenU
  have l2 := hs.sizeU
  have l3 := hs.size
  have hk : s.degree.1 * (s.degree.2 + 1) ≤ (s.degree.1 + 1) * (s.degree.2 + 1) := Nat.mul_le_mul_right _ (by omega)
  obtain ⟨x, q, h1, h2, h3, h4⟩ := surface_from (d := ⟨⟨netTab (s.controlPoints.rows - 1) s.controlPoints.cols (fun i j =>
        slopeOf s.degree.1 s.knots.1 i (entry s.controlPoints i j) (entry s.controlPoints (i + 1) j)),
        s.controlPoints.rows - 1, s.controlPoints.cols⟩, (inner s.knots.1, s.knots.2), (s.degree.1 - 1, s.degree.2)⟩)
    (r := ⟨⟨netTab (s.controlPoints.rows - 1) s.controlPoints.cols (fun i j =>
        slopeOf s.degree.1 (s.knots.1.map val) i (entry (mapNet toReal s.controlPoints) i j)
          (entry (mapNet toReal s.controlPoints) (i + 1) j)),
        s.controlPoints.rows - 1, s.controlPoints.cols⟩, (inner (s.knots.1.map val), s.knots.2.map val),
        (s.degree.1 - 1, s.degree.2)⟩)
    (netTab_ok _ _ _) hs.knotsU.inner hs.knotsV (by simp only [inner_length]; omega) hs.lenV (by simp only; omega)
    (by simp only; omega) (by simp only; omega) hs.sizeV (by simp only [Nat.sub_add_cancel hp]; omega) (netTab_ok _ _ _) rfl rfl
    (inner_map _) rfl rfl he (slope_limit hD0 hD)
    (fun i j hi hj => by rw [entry_netTab _ hi hj, entry_netTab _ hi hj]; exact hpt i j hi hj)
    (hu.inner hs.knotsU (by omega) hp) hv
  refine ⟨_, _, x, q, e1, e2, h1, h2, F64.Near.mono h3 ?_, h4⟩
  simp only [Nat.sub_add_cancel hp]
  exact slope_total_bound hD0 _ (Nat.mul_pos hp (by omega)) (by omega)

/-- **C129.** The same for the derivative of a surface in `v`. -/
theorem C129_surface_v {s : BSplineSurface Float (V3 Float)} (hs : SurfaceF s) (hp : 1 ≤ s.degree.2) {u v : Float}
    (hu : DomainF s.knots.1 s.degree.1 u) (hv : DomainF s.knots.2 s.degree.2 v) {D : ℝ} (hD : D ≤ 2 ^ (1000 : Int))
    (hb : ∀ r, (realSurface s).derivativeV = .ok r → ∀ q ∈ r.controlPoints.data, Within D q) :
    ∃ d r x q, s.derivativeV = .ok d ∧ (realSurface s).derivativeV = .ok r ∧ d.getPoint u v = .ok x ∧
      r.getPoint (val u) (val v) = .ok q ∧
      Near ((((s.degree.1 + 1) * s.degree.2 : Nat) : ℝ) * 2 ^ (-47 : Int) * D
        + ((s.degree.1 + 1) * s.degree.2 : Nat) * 2 ^ (-1072 : Int)) x q ∧ Within D q := by
  have hr := hs.rows
  have hc := hs.cols
  have e1 := surface_slopesV hs.net hs.lenV hp hc (by omega)
  have e2 := surface_slopesV (s := realSurface s) (mapNet_ok toReal hs.net)
    (by simp only [realSurface, mapNet, List.length_map]; exact hs.lenV) hp hc (by simp only [realSurface, mapNet]; omega)
  have hb' := hb _ e2
  have hpt : ∀ i j, i < s.controlPoints.rows → j < s.controlPoints.cols - 1 →
      Near (6 * eps * D + eta) (slopeOf s.degree.2 s.knots.2 j (entry s.controlPoints i j) (entry s.controlPoints i (j + 1)))
        (slopeOf s.degree.2 (s.knots.2.map val) j (entry (mapNet toReal s.controlPoints) i j)
          (entry (mapNet toReal s.controlPoints) i (j + 1))) ∧
      Within D (slopeOf s.degree.2 (s.knots.2.map val) j (entry (mapNet toReal s.controlPoints) i j)
          (entry (mapNet toReal s.controlPoints) i (j + 1))) := by
    intro i j hi hj
    have hw := hb' _ (entry_mem_data (netTab_ok _ _ _) (i := i) (j := j) hi hj)
    rw [entry_netTab _ (show i < (realSurface s).controlPoints.rows from hi)
      (show j < (realSurface s).controlPoints.cols - 1 from hj)] at hw
    simp only [realSurface] at hw
    refine ⟨SlopeNear.near ?_ hw, hw⟩
    rw [entry_toReal hs.net hi (by omega), entry_toReal hs.net hi (by omega)]
    have := hs.lenV
    have := hs.sizeV
    exact slope_near hs.knotsV (by omega) (by omega) (hs.bounded _ (entry_mem_data hs.net hi (by omega)))
      (hs.bounded _ (entry_mem_data hs.net hi (by omega)))
  have hD0 : 0 ≤ D := (abs_nonneg _).trans (hpt 0 0 (by omega) (by omega)).2.1
  have he : 0 ≤ 6 * eps * D + eta := add_nonneg (mul_nonneg (mul_nonneg (by norm_num) eps_pos.le) hD0) eta_pos.le
  have l1 := hs.lenV
  have l2 := hs.sizeV
  have l3 := hs.size
  have hk : (s.degree.1 + 1) * s.degree.2 ≤ (s.degree.1 + 1) * (s.degree.2 + 1) := Nat.mul_le_mul_left _ (by omega)
  obtain ⟨x, q, h1, h2, h3, h4⟩ := surface_from (d := ⟨⟨netTab s.controlPoints.rows (s.controlPoints.cols - 1) (fun i j =>
        slopeOf s.degree.2 s.knots.2 j (entry s.controlPoints i j) (entry s.controlPoints i (j + 1))),
        s.controlPoints.rows, s.controlPoints.cols - 1⟩, (s.knots.1, inner s.knots.2), (s.degree.1, s.degree.2 - 1)⟩)
    (r := ⟨⟨netTab s.controlPoints.rows (s.controlPoints.cols - 1) (fun i j =>
        slopeOf s.degree.2 (s.knots.2.map val) j (entry (mapNet toReal s.controlPoints) i j)
          (entry (mapNet toReal s.controlPoints) i (j + 1))),
        s.controlPoints.rows, s.controlPoints.cols - 1⟩, (s.knots.1.map val, inner (s.knots.2.map val)),
        (s.degree.1, s.degree.2 - 1)⟩)
    (netTab_ok _ _ _) hs.knotsU hs.knotsV.inner hs.lenU (by simp only [inner_length]; omega) (by simp only; omega)
    (by simp only; omega) hs.sizeU (by simp only; omega) (by simp only [Nat.sub_add_cancel hp]; omega) (netTab_ok _ _ _) rfl rfl
    rfl (inner_map _) rfl he (slope_limit hD0 hD)
    (fun i j hi hj => by rw [entry_netTab _ hi hj, entry_netTab _ hi hj]; exact hpt i j hi hj)
    hu (hv.inner hs.knotsV (by omega) hp)
  refine ⟨_, _, x, q, e1, e2, h1, h2, F64.Near.mono h3 ?_, h4⟩
  simp only [Nat.sub_add_cancel hp]
  exact slope_total_bound hD0 _ (Nat.mul_pos (by omega) hp) (by omega)

/-! ### A concrete case -/

theorem insertExample_knots : KnotsF insertExample.knots := by
  have h := insertExample_ok
  refine ⟨fun x hx => h.setup.apart.fin x (h.sub x hx), h.sorted, fun i hi hlt => ?_⟩
  have m1 : knot insertExample.knots i ∈ insertExample.knots := getD_mem_of_lt (by omega) 0
  have m2 : knot insertExample.knots (i + 1) ∈ insertExample.knots := getD_mem_of_lt hi 0
  exact (two_zpow_le (by norm_num)).trans (h.setup.apart.gap _ (h.sub _ m1) _ (h.sub _ m2) hlt)

/-- A quadratic curve that meets the conditions, and its derivative at 2, where `1/3` is rounded twice. -/
theorem C129_example : (∀ p ∈ insertExample.controlPoints, Bounded (2 ^ (900 : Int)) p) ∧
    DomainF insertExample.knots insertExample.degree 2 ∧
    (∀ r, (realCurve insertExample).derivative = .ok r → ∀ q ∈ r.controlPoints, Within 4 q) ∧
    (∃ d, insertExample.derivative = .ok d ∧ d.getPoint 2 = .ok ⟨1.1666666666666665, -1.1666666666666667, 0⟩) := by
  have v0 := zero_val
  have v1 := one_val
  have v2 : IsFin (2 : Float) ∧ val (2 : Float) = 2 := by
    obtain ⟨h1, h2⟩ := ofNat_val (n := 2) (by norm_num)
    exact ⟨h1, h2.trans (by norm_num)⟩
  have v3 : IsFin (3 : Float) ∧ val (3 : Float) = 3 := by
    obtain ⟨h1, h2⟩ := ofNat_val (n := 3) (by norm_num)
    exact ⟨h1, h2.trans (by norm_num)⟩
  have v4 : IsFin (4 : Float) ∧ val (4 : Float) = 4 := by
    obtain ⟨h1, h2⟩ := ofNat_val (n := 4) (by norm_num)
    exact ⟨h1, h2.trans (by norm_num)⟩
  refine ⟨fun p hp => ?_, ⟨v2.1, ?_, Or.inl ?_⟩, ?_, ?_⟩
  · have h := insertExample_ok.bounded p hp
    have h4 : (4 : ℝ) ≤ 2 ^ (900 : Int) := le_trans (by norm_num : (4 : ℝ) ≤ 2 ^ (2 : Int)) (two_zpow_le (by norm_num))
    exact ⟨⟨h.1.1, h.1.2.trans h4⟩, ⟨h.2.1.1, h.2.1.2.trans h4⟩, ⟨h.2.2.1, h.2.2.2.trans h4⟩⟩
  · show val (0 : Float) ≤ val (2 : Float)
    rw [v0.2, v2.2]; norm_num
  · show val (2 : Float) < val (3 : Float)
    rw [v3.2, v2.2]; norm_num
  · intro r hr q hq
    rw [derivative_eq (c := realCurve insertExample) rfl (by decide) (by decide) (resolved_real _)] at hr
    cases hr
    simp only [realCurve, insertExample, tab, knot, cp, toReal, List.map_cons, List.map_nil, List.length_cons, List.length_nil,
      List.getD, v0.2, v1.2, v2.2, v3.2, v4.2] at hq
    rw [show List.range (0 + 1 + 1 + 1 + 1 - 1) = [0, 1, 2] from rfl] at hq
    simp only [List.map_cons, List.map_nil, List.mem_cons, List.not_mem_nil, or_false] at hq
    rcases hq with rfl | rfl | rfl <;> simp [Within] <;> norm_num
  · refine ⟨⟨[⟨2, 4, 0⟩, ⟨1.3333333333333333, 0.6666666666666666, 2⟩, ⟨1, -3, -2⟩], [0, 0, 1, 3, 3], 1⟩, ?_, ?_⟩ <;> decide +kernel

end Geom3d
