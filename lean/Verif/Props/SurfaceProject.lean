import Verif.Props.SurfaceDeriv
import Verif.Props.Metric
import Verif.Model.Instances
import Mathlib.Tactic.IntervalCases

/-!
# C101, C102: mixed partial derivatives, and projection of points onto B-spline surfaces
-/

set_option linter.unusedSectionVars false

namespace Geom3d
open Spec

section
variable {P : Type} [AddCommGroup P] [Module ℝ P] [HMul ℝ P P] [HMul P ℝ P] [LawfulPoint ℝ P]

/-- The first and the last knot are repeated at least `degree + 1` times. -/
structure Spec.RepeatedEnds (knots : List ℝ) (N p : Nat) : Prop where
  first : knot knots 0 = knot knots p
  last : knot knots N = knot knots (N + p)

/-- A valid surface whose knot vectors both have repeated ends. -/
structure BSplineSurface.Good (s : BSplineSurface ℝ P) : Prop where
  valid : s.Valid
  endsU : RepeatedEnds s.knots.1 s.controlPoints.rows s.degree.1
  endsV : RepeatedEnds s.knots.2 s.controlPoints.cols s.degree.2

theorem BSplineSurface.Good.ltU {s : BSplineSurface ℝ P} (h : s.Good) : s.degree.1 < s.controlPoints.rows := by
  by_contra hc
  have h1 := h.valid.monoU s.controlPoints.rows s.degree.1 (by omega) (by omega)
  have h2 := h.valid.nonconstU
  rw [← h.endsU.last, h.endsU.first] at h2
  exact absurd h2 (not_lt.2 h1)

theorem BSplineSurface.Good.ltV {s : BSplineSurface ℝ P} (h : s.Good) : s.degree.2 < s.controlPoints.cols := by
  by_contra hc
  have h1 := h.valid.monoV s.controlPoints.cols s.degree.2 (by omega) (by omega)
  have h2 := h.valid.nonconstV
  rw [← h.endsV.last, h.endsV.first] at h2
  exact absurd h2 (not_lt.2 h1)

theorem sorted_shrink {l : List ℝ} (h : Sorted l) : Sorted ((l.take (l.length - 1)).drop 1) := by
  unfold Sorted at *
  exact (h.sublist (List.take_sublist _ _)).sublist (List.drop_sublist _ _)

theorem ends_shrink {l : List ℝ} {N p : Nat} (hlen : l.length = N + p + 1) (hs : Sorted l) (hp : 1 ≤ p) (hN : p < N)
    (h : RepeatedEnds l N p) :
    RepeatedEnds ((l.take (l.length - 1)).drop 1) (N - 1) (p - 1) ∧
    knot ((l.take (l.length - 1)).drop 1) 0 = knot l 0 ∧
    knot ((l.take (l.length - 1)).drop 1) (N - 1 + (p - 1)) = knot l (N + p) := by
  have k0 : knot l 1 = knot l 0 :=
    le_antisymm (h.first ▸ hs.knot_le hp (by omega)) (hs.knot_le (by omega) (by omega))
  have k1 : knot l (N + p - 1) = knot l (N + p) :=
    le_antisymm (hs.knot_le (by omega) (by omega)) (h.last ▸ hs.knot_le (by omega) (by omega))
  refine ⟨⟨?_, ?_⟩, ?_, ?_⟩
  · rw [knot_shrink (by omega), knot_shrink (by omega), show p - 1 + 1 = p by omega, zero_add, k0, h.first]
  · rw [knot_shrink (by omega), knot_shrink (by omega), show N - 1 + 1 = N by omega,
      show N - 1 + (p - 1) + 1 = N + p - 1 by omega, k1, h.last]
  · rw [knot_shrink (by omega), zero_add, k0]
  · rw [knot_shrink (by omega), show N - 1 + (p - 1) + 1 = N + p - 1 by omega, k1]

/-- Differentiation keeps a good surface good, with the same parameter rectangle. -/
theorem BSplineSurface.Good.derivU {s : BSplineSurface ℝ P} (h : s.Good) (hp : 1 ≤ s.degree.1) :
    ∃ s', s.derivativeU = .ok s' ∧ s'.Good ∧ s'.degree = (s.degree.1 - 1, s.degree.2) ∧
      knot s'.knots.1 0 = knot s.knots.1 0 ∧ knot s'.knots.2 0 = knot s.knots.2 0 := by
  have hs := h.valid
  have hl := h.ltU
  refine ⟨_, derivativeU_eq hs.net hs.lenU hp (by omega) hs.cols hs.resolvedU, ?_, rfl, ?_, rfl⟩
  · obtain ⟨e1, e2, e3⟩ := ends_shrink hs.lenU hs.sortedU hp hl h.endsU
    refine ⟨⟨netTab_ok _ _ _, ?_, hs.lenV, sorted_shrink hs.sortedU, hs.sortedV, resolved_real _, hs.resolvedV, ?_,
      hs.nonconstV, ?_, hs.cols⟩, e1, h.endsV⟩
    · have := hs.lenU
      simp
      omega
    · rw [e2, e3]; exact hs.nonconstU
    · show 0 < s.controlPoints.rows - 1
      omega
  · exact (ends_shrink hs.lenU hs.sortedU hp hl h.endsU).2.1

theorem BSplineSurface.Good.derivV {s : BSplineSurface ℝ P} (h : s.Good) (hp : 1 ≤ s.degree.2) :
    ∃ s', s.derivativeV = .ok s' ∧ s'.Good ∧ s'.degree = (s.degree.1, s.degree.2 - 1) ∧
      knot s'.knots.1 0 = knot s.knots.1 0 ∧ knot s'.knots.2 0 = knot s.knots.2 0 := by
  have hs := h.valid
  have hl := h.ltV
  refine ⟨_, derivativeV_eq hs.net hs.lenV hp (by omega) hs.rows hs.resolvedV, ?_, rfl, rfl, ?_⟩
  · obtain ⟨e1, e2, e3⟩ := ends_shrink hs.lenV hs.sortedV hp hl h.endsV
    refine ⟨⟨netTab_ok _ _ _, hs.lenU, ?_, hs.sortedU, sorted_shrink hs.sortedV, hs.resolvedU, resolved_real _,
      hs.nonconstU, ?_, hs.rows, ?_⟩, h.endsU, e1⟩
    · have := hs.lenV
      simp
      omega
    · rw [e2, e3]; exact hs.nonconstV
    · show 0 < s.controlPoints.cols - 1
      omega
  · exact (ends_shrink hs.lenV hs.sortedV hp hl h.endsV).2.1

theorem BSplineSurface.Good.total {s : BSplineSurface ℝ P} (h : s.Good) {u v : ℝ} (hu : knot s.knots.1 0 ≤ u)
    (hv : knot s.knots.2 0 ≤ v) : s.getPoint u v = .ok (valOf (s.getPoint u v)) := by
  obtain ⟨x, e⟩ := C59_total h.valid hu hv
  rw [e]; rfl

/-! ### C101: mixed partial derivatives -/

/-- **C101.** Differentiating in `u` and then in `v` gives the same surface (control net, knots and degrees) as
differentiating in `v` and then in `u`. -/
theorem C101_mixed {s : BSplineSurface ℝ P} (hs : s.Valid) (hp : 1 ≤ s.degree.1) (hq : 1 ≤ s.degree.2)
    (hr : 2 ≤ s.controlPoints.rows) (hc : 2 ≤ s.controlPoints.cols) :
    ∃ d, (do let du ← s.derivativeU; du.derivativeV) = .ok d ∧ (do let dv ← s.derivativeV; dv.derivativeU) = .ok d ∧
      d.degree = (s.degree.1 - 1, s.degree.2 - 1) ∧ d.controlPoints.rows = s.controlPoints.rows - 1 ∧
      d.controlPoints.cols = s.controlPoints.cols - 1 ∧
      ∀ i j, i + 1 < s.controlPoints.rows → j + 1 < s.controlPoints.cols →
        entry d.controlPoints i j
          = ((s.degree.1 : ℝ) / (knot s.knots.1 (i + s.degree.1 + 1) - knot s.knots.1 (i + 1))
              * ((s.degree.2 : ℝ) / (knot s.knots.2 (j + s.degree.2 + 1) - knot s.knots.2 (j + 1))))
            • (entry s.controlPoints (i + 1) (j + 1) - entry s.controlPoints i (j + 1)
                - entry s.controlPoints (i + 1) j + entry s.controlPoints i j) := by
  have hlU := hs.lenU
  have hlV := hs.lenV
  rw [derivativeU_eq hs.net hs.lenU hp hr hs.cols hs.resolvedU,
    derivativeV_eq hs.net hs.lenV hq hc hs.rows hs.resolvedV]
  simp only [ok_bind]
  rw [derivativeV_eq, derivativeU_eq]
  rotate_left
  · exact netTab_ok _ _ _
  · exact hs.lenU
  · exact hp
  · exact hr
  · show 0 < _ - 1
    omega
  · exact hs.resolvedU
  · exact netTab_ok _ _ _
  · exact hs.lenV
  · exact hq
  · exact hc
  · show 0 < _ - 1
    omega
  · exact hs.resolvedV
  have key : ∀ f g : Nat → Nat → P, (∀ i j, i < s.controlPoints.rows - 1 → j < s.controlPoints.cols - 1 → f i j = g i j) →
      netTab (s.controlPoints.rows - 1) (s.controlPoints.cols - 1) f
        = netTab (s.controlPoints.rows - 1) (s.controlPoints.cols - 1) g := by
    intro f g h
    unfold netTab
    apply List.flatMap_congr
    intro i hi
    apply List.map_congr_left
    intro j hj
    exact h i j (List.mem_range.1 hi) (List.mem_range.1 hj)
  refine ⟨_, rfl, ?_, rfl, rfl, rfl, ?_⟩
  · congr 3
    apply key
    intro i j hi hj
    dsimp only
    rw [entry_netTab _ (by omega) (by omega), entry_netTab _ (by omega) (by omega), entry_netTab _ (by omega) (by omega),
      entry_netTab _ (by omega) (by omega), ← smul_sub, ← smul_sub, smul_smul, smul_smul, mul_comm]
    congr 1
    abel
  · intro i j hi hj
    dsimp only
    rw [entry_netTab _ (by omega) (by omega), entry_netTab _ (by omega) (by omega), entry_netTab _ (by omega) (by omega),
      ← smul_sub, smul_smul, mul_comm]
    congr 1
    abel

end

/-! ### C102: `project_points` -/

/-- A surface and its partial derivatives up to order two, as functions. -/
structure Spec.Jet where
  s : ℝ → ℝ → V3 ℝ
  su : ℝ → ℝ → V3 ℝ
  sv : ℝ → ℝ → V3 ℝ
  suu : ℝ → ℝ → V3 ℝ
  suv : ℝ → ℝ → V3 ℝ
  svv : ℝ → ℝ → V3 ℝ

/-- The stopping conditions at `(u, v)`: the surface point is within tolerance of `p`, or both tangents are orthogonal to
the difference to tolerance. -/
def Spec.Stops2 (J : Jet) (p : V3 ℝ) (q : V2 ℝ) : Prop :=
  let r := J.s q.x q.y - p
  |r.dot r| ≤ Env.tol ∨ (|(J.su q.x q.y).dot r| ≤ Env.tol ∧ |(J.sv q.x q.y).dot r| ≤ Env.tol)

/-- `q'` is the clamped Newton step from `q` for the stationary points of half the squared distance: the step solves the
linear system of its Hessian and gradient whenever that has one solution. -/
def Spec.Step2 (J : Jet) (p : V3 ℝ) (lo hi : V2 ℝ) (q q' : V2 ℝ) : Prop :=
  let r := J.s q.x q.y - p
  let su := J.su q.x q.y
  let sv := J.sv q.x q.y
  let a := su.dot su + r.dot (J.suu q.x q.y)
  let b := su.dot sv + r.dot (J.suv q.x q.y)
  let d := sv.dot sv + r.dot (J.svv q.x q.y)
  ∃ dx dy : ℝ, (a * d - b * b ≠ 0 → a * dx + b * dy = -(su.dot r) ∧ b * dx + d * dy = -(sv.dot r)) ∧
    q'.x = max lo.x (min (q.x + dx) hi.x) ∧ q'.y = max lo.y (min (q.y + dy) hi.y)

/-- `(u, v)` in the closed rectangle. -/
def Spec.InBox (lo hi q : V2 ℝ) : Prop := (lo.x ≤ q.x ∧ q.x ≤ hi.x) ∧ (lo.y ≤ q.y ∧ q.y ≤ hi.y)

/-- The result of at most `trials` Newton steps from `q0`: no step from a point that satisfies a stopping condition, and
a stopping condition holds at the result unless all the steps were used. -/
def Spec.NewtonRun (J : Jet) (p : V3 ℝ) (lo hi : V2 ℝ) (trials : Nat) (q0 q : V2 ℝ) : Prop :=
  ∃ k, k ≤ trials ∧ ∃ f : Nat → V2 ℝ, f 0 = q0 ∧ f k = q ∧
    (∀ m, m < k → ¬ Stops2 J p (f m) ∧ Step2 J p lo hi (f m) (f (m + 1))) ∧ (k < trials → Stops2 J p q)

theorem newtonDelta_solves {a b c d x y : ℝ} (h : a * d - b * c ≠ 0) :
    a * (newtonDelta a b c d ⟨x, y⟩).x + c * (newtonDelta a b c d ⟨x, y⟩).y = x ∧
    b * (newtonDelta a b c d ⟨x, y⟩).x + d * (newtonDelta a b c d ⟨x, y⟩).y = y := by
  unfold newtonDelta
  dsimp only
  have e : (a * d - b * c) * (1 / (a * d - b * c)) = 1 := by rw [one_div, mul_inv_cancel₀ h]
  exact ⟨by linear_combination x * e, by linear_combination y * e⟩

/-- A jet of the model agrees with the functions on a rectangle. -/
structure Spec.JetOn (d : SurfaceJet ℝ) (J : Jet) (lo hi : V2 ℝ) : Prop where
  s : ∀ q, InBox lo hi q → d.s q.x q.y = .ok (J.s q.x q.y)
  su : ∀ q, InBox lo hi q → d.su q.x q.y = .ok (J.su q.x q.y)
  sv : ∀ q, InBox lo hi q → d.sv q.x q.y = .ok (J.sv q.x q.y)
  suu : ∀ q, InBox lo hi q → d.suu q.x q.y = .ok (J.suu q.x q.y)
  suv : ∀ q, InBox lo hi q → d.suv q.x q.y = .ok (J.suv q.x q.y)
  svu : ∀ q, InBox lo hi q → d.svu q.x q.y = .ok (J.suv q.x q.y)
  svv : ∀ q, InBox lo hi q → d.svv q.x q.y = .ok (J.svv q.x q.y)

theorem dot_comm3 (a b : V3 ℝ) : a.dot b = b.dot a := by unfold V3.dot; ring

theorem newtonLoop2_spec {d : SurfaceJet ℝ} {J : Jet} {lo hi : V2 ℝ} (hx : lo.x < hi.x) (hy : lo.y < hi.y)
    (hJ : JetOn d J lo hi) (p : V3 ℝ) (trials : Nat) (q0 : V2 ℝ) (h0 : InBox lo hi q0) :
    ∃ q, newtonLoop2 d p (lo.x, hi.x) (lo.y, hi.y) trials q0.x q0.y = .ok q ∧ InBox lo hi q ∧
      NewtonRun J p lo hi trials q0 q := by
  induction trials generalizing q0 with
  | zero => exact ⟨q0, rfl, h0, 0, le_refl _, fun _ => q0, rfl, rfl, by omega, by omega⟩
  | succ n ih =>
    have stop : Stops2 J p q0 → NewtonRun J p lo hi (n + 1) q0 q0 := fun h =>
      ⟨0, by omega, fun _ => q0, rfl, rfl, by omega, fun _ => h⟩
    unfold newtonLoop2
    rw [hJ.s q0 h0, hJ.su q0 h0, hJ.sv q0 h0, hJ.suu q0 h0, hJ.suv q0 h0, hJ.svu q0 h0, hJ.svv q0 h0]
    simp only [ok_bind]
    by_cases h1 : near (J.s q0.x q0.y - p).lengthSq 0 = true
    · rw [if_pos h1]
      exact ⟨q0, rfl, h0, stop (Or.inl ((near_zero _).1 h1))⟩
    · rw [if_neg h1]
      by_cases h2 : (near ((J.su q0.x q0.y).dot (J.s q0.x q0.y - p)) 0
          && near ((J.sv q0.x q0.y).dot (J.s q0.x q0.y - p)) 0) = true
      · rw [if_pos h2]
        rw [Bool.and_eq_true, near_zero, near_zero] at h2
        exact ⟨q0, rfl, h0, stop (Or.inr h2)⟩
      · rw [if_neg h2, clampInRange_eq, clampInRange_eq]
        simp only [ok_bind, min_eq_left hx.le, max_eq_right hx.le, min_eq_left hy.le, max_eq_right hy.le]
        have hns : ¬ Stops2 J p q0 := by
          rintro (h | h)
          · exact h1 ((near_zero _).2 h)
          · apply h2
            rw [Bool.and_eq_true, near_zero, near_zero]
            exact h
        generalize hδ : newtonDelta ((J.su q0.x q0.y).lengthSq + (J.s q0.x q0.y - p).dot (J.suu q0.x q0.y))
          ((J.su q0.x q0.y).dot (J.sv q0.x q0.y) + (J.s q0.x q0.y - p).dot (J.suv q0.x q0.y))
          ((J.su q0.x q0.y).dot (J.sv q0.x q0.y) + (J.s q0.x q0.y - p).dot (J.suv q0.x q0.y))
          ((J.sv q0.x q0.y).lengthSq + (J.s q0.x q0.y - p).dot (J.svv q0.x q0.y))
          ⟨-(J.s q0.x q0.y - p).dot (J.su q0.x q0.y), -(J.s q0.x q0.y - p).dot (J.sv q0.x q0.y)⟩ = δ
        have hbox : InBox lo hi (⟨max lo.x (min (q0.x + δ.x) hi.x), max lo.y (min (q0.y + δ.y) hi.y)⟩ : V2 ℝ) :=
          ⟨⟨le_max_left _ _, max_le hx.le (min_le_right _ _)⟩, ⟨le_max_left _ _, max_le hy.le (min_le_right _ _)⟩⟩
        obtain ⟨q, e1, e2, k, e3, f, e4, e5, e6, e7⟩ := ih _ hbox
        refine ⟨q, e1, e2, k + 1, by omega, fun m => if m = 0 then q0 else f (m - 1), by simp, by simpa using e5, ?_,
          fun h => e7 (by omega)⟩
        intro m hm
        cases m with
        | zero =>
          refine ⟨by simpa using hns, ?_⟩
          simp only [↓reduceIte, zero_add, Nat.one_ne_zero, Nat.sub_self, e4]
          refine ⟨δ.x, δ.y, ?_, rfl, rfl⟩
          intro hdet
          rw [← hδ]
          have := newtonDelta_solves (x := -((J.s q0.x q0.y - p).dot (J.su q0.x q0.y)))
            (y := -((J.s q0.x q0.y - p).dot (J.sv q0.x q0.y))) hdet
          rw [dot_comm3 (J.su q0.x q0.y) (J.s q0.x q0.y - p), dot_comm3 (J.sv q0.x q0.y) (J.s q0.x q0.y - p)]
          exact this
        | succ m =>
          simpa using e6 m (by omega)

theorem rowList_netTab {α : Type} (R C : Nat) (f : Nat → Nat → α) :
    (⟨netTab R C f, R, C⟩ : Grid α).rowList = (List.range R).map fun i => (List.range C).map (f i) := by
  unfold Grid.rowList
  apply List.map_congr_left
  intro i hi
  rw [List.mem_range] at hi
  apply List.ext_getElem?
  intro j
  rw [List.getElem?_take, List.getElem?_map]
  by_cases hj : j < C
  · rw [if_pos hj, List.getElem?_drop]
    dsimp only
    rw [netTab_getElem? R C f hi hj, List.getElem?_range hj]
    rfl
  · rw [if_neg (by exact hj), List.getElem?_eq_none (by simpa using hj)]
    rfl

theorem gridAt_table (R C : Nat) (f : Nat → Nat → V3 ℝ) (a b : Nat) :
    gridAt ((List.range R).map fun i => (List.range C).map (f i)) a b = if a < R ∧ b < C then some (f a b) else none := by
  unfold gridAt
  rw [List.getElem?_map]
  by_cases ha : a < R
  · rw [List.getElem?_range ha, Option.map_some, Option.bind_some, List.getElem?_map]
    by_cases hb : b < C
    · rw [List.getElem?_range hb, if_pos ⟨ha, hb⟩]; rfl
    · rw [List.getElem?_eq_none (by simpa using hb), if_neg (by omega)]; rfl
  · rw [List.getElem?_eq_none (by simpa using ha), if_neg (by omega)]; rfl

/-- The derivative of a good surface in `u`, whatever its degree, evaluates on the whole rectangle. -/
theorem BSplineSurface.Good.derivU_total {s : BSplineSurface ℝ (V3 ℝ)} (h : s.Good) :
    ∃ s', s.derivativeU = .ok s' ∧ ∀ u v, knot s.knots.1 0 ≤ u → knot s.knots.2 0 ≤ v →
      s'.getPoint u v = .ok (valOf (s'.getPoint u v)) := by
  rcases Nat.eq_zero_or_pos s.degree.1 with h0 | h0
  · obtain ⟨s', e1, e2⟩ := (C60_degree_zero (s := s)).1 h0
    exact ⟨s', e1, fun u v _ _ => by rw [e2]; rfl⟩
  · obtain ⟨s', e1, e2, _, e3, e4⟩ := h.derivU h0
    exact ⟨s', e1, fun u v hu hv => e2.total (by rwa [e3]) (by rwa [e4])⟩

theorem BSplineSurface.Good.derivV_total {s : BSplineSurface ℝ (V3 ℝ)} (h : s.Good) :
    ∃ s', s.derivativeV = .ok s' ∧ ∀ u v, knot s.knots.1 0 ≤ u → knot s.knots.2 0 ≤ v →
      s'.getPoint u v = .ok (valOf (s'.getPoint u v)) := by
  rcases Nat.eq_zero_or_pos s.degree.2 with h0 | h0
  · obtain ⟨s', e1, e2⟩ := (C60_degree_zero (s := s)).2 h0
    exact ⟨s', e1, fun u v _ _ => by rw [e2]; rfl⟩
  · obtain ⟨s', e1, e2, _, e3, e4⟩ := h.derivV h0
    exact ⟨s', e1, fun u v hu hv => e2.total (by rwa [e3]) (by rwa [e4])⟩

theorem range_knot {l : List ℝ} {n : Nat} (h : l.length = n + 1) :
    KnotVector.range l = .ok (knot l 0, knot l n) := by
  unfold KnotVector.range
  rw [idx_ok (by omega), usub_ok (by omega)]
  simp only [ok_bind]
  rw [idx_ok (by omega)]
  simp only [ok_bind, pure_eq_ok, knot, List.getD_eq_getElem?_getD]
  rw [List.getElem?_eq_getElem (by omega), List.getElem?_eq_getElem (by omega)]
  simp [h]

/-- The `i`-th of `d + 1` evenly spaced parameters. -/
noncomputable def Spec.evenly (a b : ℝ) (d i : Nat) : ℝ := a + (i : ℝ) * ((b - a) / (d : ℝ))

/-- The corners of the parameter rectangle of a surface. -/
def Spec.boxLo (s : BSplineSurface ℝ (V3 ℝ)) : V2 ℝ := ⟨knot s.knots.1 0, knot s.knots.2 0⟩
def Spec.boxHi (s : BSplineSurface ℝ (V3 ℝ)) : V2 ℝ :=
  ⟨knot s.knots.1 (s.controlPoints.rows + s.degree.1), knot s.knots.2 (s.controlPoints.cols + s.degree.2)⟩

/-- The sample `(i, j)` of the parameter rectangle. -/
noncomputable def Spec.sample (s : BSplineSurface ℝ (V3 ℝ)) (i j : Nat) : V2 ℝ :=
  ⟨evenly (boxLo s).x (boxHi s).x (s.controlPoints.rows * 4) i, evenly (boxLo s).y (boxHi s).y (s.controlPoints.cols * 4) j⟩

theorem evenly_mem {a b : ℝ} (h : a ≤ b) {d i : Nat} (hd : 1 ≤ d) (hi : i ≤ d) :
    a ≤ evenly a b d i ∧ evenly a b d i ≤ b := by
  have hd' : (0 : ℝ) < d := by exact_mod_cast hd
  have hi' : (i : ℝ) ≤ d := by exact_mod_cast hi
  have h0 : (0 : ℝ) ≤ i := Nat.cast_nonneg _
  have e : (i : ℝ) * ((b - a) / d) = (i / d) * (b - a) := by ring
  have h1 : (i : ℝ) / d ≤ 1 := (div_le_one hd').2 hi'
  have h2 : (0 : ℝ) ≤ i / d := div_nonneg h0 hd'.le
  unfold evenly
  rw [e]
  constructor
  · nlinarith
  · nlinarith

theorem uniformDivide_tab (a b : ℝ) {d : Nat} (hd : 1 ≤ d) :
    uniformDivide (a, b) d = .ok (tab (d + 1) (evenly a b d)) := by
  obtain ⟨l, h1, h2, h3⟩ := C28_entries (a, b) hd
  rw [h1]
  congr 1
  apply List.ext_getElem?
  intro i
  rw [tab_getElem?]
  split
  · rename_i h; exact h3 i (by omega)
  · rename_i h; exact List.getElem?_eq_none (by omega)

theorem gridParams_tab (R C : Nat) (f g : Nat → ℝ) :
    gridParams (tab R f) (tab C g) = netTab R C fun i j => ⟨f i, g j⟩ := by
  unfold gridParams tab netTab
  rw [List.flatMap_map]
  apply List.flatMap_congr
  intro i _
  rw [List.map_map]
  rfl

theorem map_netTab {α β : Type} (R C : Nat) (f : Nat → Nat → α) (g : α → β) :
    (netTab R C f).map g = netTab R C fun i j => g (f i j) := by
  unfold netTab
  rw [List.map_flatMap]
  apply List.flatMap_congr
  intro i _
  rw [List.map_map]
  rfl

theorem mem_netTab {α : Type} {R C : Nat} {f : Nat → Nat → α} {x : α} :
    x ∈ netTab R C f ↔ ∃ i j, i < R ∧ j < C ∧ f i j = x := by
  unfold netTab
  simp only [List.mem_flatMap, List.mem_range, List.mem_map]
  constructor
  · rintro ⟨i, hi, j, hj, e⟩; exact ⟨i, j, hi, hj, e⟩
  · rintro ⟨i, j, hi, hj, e⟩; exact ⟨i, hi, j, hj, e⟩

/-- **C102.** On a surface with repeated end knots and positive degrees `project_points` does not panic, whatever the
points.  Every result is in the parameter rectangle and comes from at most 20 clamped Newton steps for the distance
function, started at one of the `(4n+1)(4m+1)` evenly spaced samples; the start is the sample nearest to the point (the
first sample if none is closer than `Float::MAX`); if the iteration ends early, a stopping condition holds at the
result.  The second derivatives used are those of C101. -/
theorem C102_project {s : BSplineSurface ℝ (V3 ℝ)} (hs : s.Good) (hp : 1 ≤ s.degree.1) (hq : 1 ≤ s.degree.2)
    (points : List (V3 ℝ)) :
    ∃ du dv duu duv dvv, s.derivativeU = .ok du ∧ s.derivativeV = .ok dv ∧ du.derivativeU = .ok duu ∧
      du.derivativeV = .ok duv ∧ dv.derivativeU = .ok duv ∧ dv.derivativeV = .ok dvv ∧
      ∃ J : Jet, JetOn ⟨s.getPoint, du.getPoint, dv.getPoint, duu.getPoint, duv.getPoint, duv.getPoint, dvv.getPoint⟩ J
        (boxLo s) (boxHi s) ∧
      ∃ qs, s.projectPoints points = .ok qs ∧ List.Forall₂ (fun p q =>
        InBox (boxLo s) (boxHi s) q ∧
        ∃ i j, i ≤ s.controlPoints.rows * 4 ∧ j ≤ s.controlPoints.cols * 4 ∧
          NewtonRun J p (boxLo s) (boxHi s) 20 (sample s i j) q ∧
          let D := fun a b => (p - J.s (sample s a b).x (sample s a b).y).lengthSq
          ((∃ a b, a ≤ s.controlPoints.rows * 4 ∧ b ≤ s.controlPoints.cols * 4 ∧ D a b < Env.maxV) →
            ∀ a b, a ≤ s.controlPoints.rows * 4 → b ≤ s.controlPoints.cols * 4 → D i j ≤ D a b) ∧
          ((¬ ∃ a b, a ≤ s.controlPoints.rows * 4 ∧ b ≤ s.controlPoints.cols * 4 ∧ D a b < Env.maxV) → i = 0 ∧ j = 0))
        points qs := by
  have hv := hs.valid
  have hR := hv.rows
  have hC := hv.cols
  have hx : (boxLo s).x < (boxHi s).x := hv.nonconstU
  have hy : (boxLo s).y < (boxHi s).y := hv.nonconstV
  obtain ⟨du, u1, u2, u3, u4, u5⟩ := hs.derivU hp
  obtain ⟨dv, v1, v2, v3, v4, v5⟩ := hs.derivV hq
  obtain ⟨duu, uu1, uu2⟩ := u2.derivU_total
  obtain ⟨dvv, vv1, vv2⟩ := v2.derivV_total
  obtain ⟨duv, m1, m2, -⟩ := C101_mixed hv hp hq (by have := hs.ltU; omega) (by have := hs.ltV; omega)
  rw [u1] at m1
  rw [v1] at m2
  simp only [ok_bind] at m1 m2
  obtain ⟨duv', uv1, uv2⟩ := u2.derivV_total
  rw [m1] at uv1
  cases uv1
  let J : Jet := ⟨fun u v => valOf (s.getPoint u v), fun u v => valOf (du.getPoint u v), fun u v => valOf (dv.getPoint u v),
    fun u v => valOf (duu.getPoint u v), fun u v => valOf (duv.getPoint u v), fun u v => valOf (dvv.getPoint u v)⟩
  have hJ : JetOn ⟨s.getPoint, du.getPoint, dv.getPoint, duu.getPoint, duv.getPoint, duv.getPoint, dvv.getPoint⟩ J
      (boxLo s) (boxHi s) := by
    refine ⟨?_, ?_, ?_, ?_, ?_, ?_, ?_⟩ <;> rintro q ⟨⟨q1, -⟩, q2, -⟩
    · exact hs.total q1 q2
    · exact u2.total (by rw [u4]; exact q1) (by rw [u5]; exact q2)
    · exact v2.total (by rw [v4]; exact q1) (by rw [v5]; exact q2)
    · exact uu2 _ _ (by rw [u4]; exact q1) (by rw [u5]; exact q2)
    · exact uv2 _ _ (by rw [u4]; exact q1) (by rw [u5]; exact q2)
    · exact uv2 _ _ (by rw [u4]; exact q1) (by rw [u5]; exact q2)
    · exact vv2 _ _ (by rw [v4]; exact q1) (by rw [v5]; exact q2)
  refine ⟨du, dv, duu, duv, dvv, u1, v1, uu1, m1, m2, vv1, J, hJ, ?_⟩
  have hsample : ∀ i j, i ≤ s.controlPoints.rows * 4 → j ≤ s.controlPoints.cols * 4 →
      InBox (boxLo s) (boxHi s) (sample s i j) := fun i j hi hj =>
    ⟨evenly_mem hx.le (by omega) hi, evenly_mem hy.le (by omega) hj⟩
  have hmap : (gridParams (tab (s.controlPoints.rows * 4 + 1) (evenly (boxLo s).x (boxHi s).x (s.controlPoints.rows * 4)))
      (tab (s.controlPoints.cols * 4 + 1) (evenly (boxLo s).y (boxHi s).y (s.controlPoints.cols * 4)))).mapM
        (fun q => s.getPoint q.x q.y)
      = .ok (netTab (s.controlPoints.rows * 4 + 1) (s.controlPoints.cols * 4 + 1)
          fun i j => J.s (sample s i j).x (sample s i j).y) := by
    rw [gridParams_tab, mapM_pure (g := fun q => J.s q.x q.y)]
    · rw [map_netTab]; rfl
    · intro q hq
      rw [mem_netTab] at hq
      obtain ⟨i, j, hi, hj, rfl⟩ := hq
      exact hJ.s _ (hsample i j (by omega) (by omega))
  unfold BSplineSurface.projectPoints
  rw [u1, v1]
  simp only [ok_bind]
  rw [uu1, m1, m2, vv1, range_knot hv.lenU, range_knot hv.lenV]
  simp only [ok_bind]
  rw [uniformDivide_tab _ _ (by omega), uniformDivide_tab _ _ (by omega)]
  simp only [ok_bind]
  have e1 : knot s.knots.1 0 = (boxLo s).x := rfl
  have e2 : knot s.knots.2 0 = (boxLo s).y := rfl
  have e3 : knot s.knots.1 (s.controlPoints.rows + s.degree.1) = (boxHi s).x := rfl
  have e4 : knot s.knots.2 (s.controlPoints.cols + s.degree.2) = (boxHi s).y := rfl
  rw [e1, e2, e3, e4, hmap]
  simp only [ok_bind]
  rw [fromVec_netTab (by omega) (by omega)]
  simp only [ok_bind]
  apply mapM_ok
  intro p _
  rw [rowList_netTab]
  set f : Nat → Nat → V3 ℝ := fun i j => J.s (sample s i j).x (sample s i j).y with hf
  set grid := (List.range (s.controlPoints.rows * 4 + 1)).map fun i => (List.range (s.controlPoints.cols * 4 + 1)).map (f i)
    with hgrid
  have hat := gridAt_table (s.controlPoints.rows * 4 + 1) (s.controlPoints.cols * 4 + 1) f
  rw [← hgrid] at hat
  have hex : ∃ i j, findNearestPointInGrid grid p = (i, j) ∧ i ≤ s.controlPoints.rows * 4 ∧ j ≤ s.controlPoints.cols * 4 ∧
      ((∃ a b, a ≤ s.controlPoints.rows * 4 ∧ b ≤ s.controlPoints.cols * 4 ∧ (p - f a b).lengthSq < Env.maxV) →
        ∀ a b, a ≤ s.controlPoints.rows * 4 → b ≤ s.controlPoints.cols * 4 → (p - f i j).lengthSq ≤ (p - f a b).lengthSq) ∧
      ((¬ ∃ a b, a ≤ s.controlPoints.rows * 4 ∧ b ≤ s.controlPoints.cols * 4 ∧ (p - f a b).lengthSq < Env.maxV) →
        i = 0 ∧ j = 0) := by
    by_cases hclose : ∃ a b, a ≤ s.controlPoints.rows * 4 ∧ b ≤ s.controlPoints.cols * 4 ∧ (p - f a b).lengthSq < Env.maxV
    · obtain ⟨a, b, ha, hb, hlt⟩ := hclose
      obtain ⟨i, j, v, g1, g2, g3, -⟩ := C31_nearest_in_grid grid p
        ⟨(List.range (s.controlPoints.cols * 4 + 1)).map (f a), by
          rw [hgrid]; exact List.mem_map.2 ⟨a, List.mem_range.2 (by omega), rfl⟩, f a b,
          List.mem_map.2 ⟨b, List.mem_range.2 (by omega), rfl⟩, hlt⟩
      rw [hat] at g2
      split at g2
      · rename_i hij
        cases g2
        refine ⟨i, j, g1, by omega, by omega, fun _ c d hc hd => g3 c d _ ?_, fun h => absurd ⟨a, b, ha, hb, hlt⟩ h⟩
        rw [hat, if_pos (by omega)]
      · simp at g2
    · refine ⟨0, 0, C31_nothing_close_in_grid grid p ?_, by omega, by omega, fun h => absurd h hclose, fun _ => ⟨rfl, rfl⟩⟩
      intro row hrow v hv'
      rw [hgrid] at hrow
      obtain ⟨a, ha, rfl⟩ := List.mem_map.1 hrow
      obtain ⟨b, hb, rfl⟩ := List.mem_map.1 hv'
      rw [List.mem_range] at ha hb
      by_contra hlt
      exact hclose ⟨a, b, by omega, by omega, not_le.1 hlt⟩
  obtain ⟨i, j, h1, hi, hj, h2, h3⟩ := hex
  rw [h1]
  dsimp only
  rw [idx_tab (by omega), idx_tab (by omega)]
  simp only [ok_bind]
  obtain ⟨q, r1, r2, r3⟩ := newtonLoop2_spec hx hy hJ p 20 (sample s i j) (hsample i j hi hj)
  exact ⟨q, r1, r2, i, j, hi, hj, r3, h2, h3⟩

/-- Non-vacuity of C101 and C102: a bilinear patch over `[0, 2] × [0, 1]`. -/
theorem C102_example : (⟨⟨[⟨0, 0, 0⟩, ⟨0, 1, 0⟩, ⟨1, 0, 1⟩, ⟨1, 1, 3⟩], 2, 2⟩, ([0, 0, 2, 2], [0, 0, 1, 1]), (1, 1)⟩ :
    BSplineSurface ℝ (V3 ℝ)).Good := by
  refine ⟨⟨rfl, rfl, rfl, ?_, ?_, resolved_real _, resolved_real _, ?_, ?_, ?_, ?_⟩, ⟨?_, ?_⟩, ⟨?_, ?_⟩⟩ <;>
    simp [Sorted, knot]



/-! ### Singular Newton systems in binary64

At a pole (a row of coinciding control points) one tangent vanishes and the Newton system can be singular.  In binary64
its solution is then NaN, `clamp_in_range` keeps NaN, and the next evaluation is at NaN: there `span_index` returns the
multiplicity of the first knot, which is out of range for the first derivative of a degree 1 surface (and the second
derivative of a degree 2 surface). -/

/-- The triangle `(0,0), (1,-1), (1,1)` as a bilinear patch with a pole at the origin. -/
def Spec.pole1 : BSplineSurface Float (V3 Float) :=
  ⟨⟨[⟨0, 0, 0⟩, ⟨0, 0, 0⟩, ⟨1, -1, 0⟩, ⟨1, 1, 0⟩], 2, 2⟩, ([0, 0, 1, 1], [0, 0, 1, 1]), (1, 1)⟩

/-- Its derivatives. -/
def Spec.pole1U : BSplineSurface Float (V3 Float) :=
  ⟨⟨[⟨1, -1, 0⟩, ⟨1, 1, 0⟩], 1, 2⟩, ([0, 1], [0, 0, 1, 1]), (0, 1)⟩
def Spec.pole1V : BSplineSurface Float (V3 Float) :=
  ⟨⟨[⟨0, 0, 0⟩, ⟨0, 2, 0⟩], 2, 1⟩, ([0, 0, 1, 1], [0, 1]), (1, 0)⟩
def Spec.pole1UV : BSplineSurface Float (V3 Float) := ⟨⟨[⟨0, 2, 0⟩], 1, 1⟩, ([0, 1], [0, 1]), (0, 0)⟩
def Spec.zeroSurface : BSplineSurface Float (V3 Float) :=
  ⟨⟨[⟨0, 0, 0⟩, ⟨0, 0, 0⟩, ⟨0, 0, 0⟩, ⟨0, 0, 0⟩], 2, 2⟩, ([0, 0, 1, 1], [0, 0, 1, 1]), (1, 1)⟩

def Spec.eighths : List Float := (List.range 9).map fun i => i.toFloat / 8

def Spec.pole1Samples : List (V3 Float) := netTab 9 9 fun i j =>
  ⟨i.toFloat / 8, i.toFloat * (2 * j.toFloat - 8) / 64 + 0, 0⟩

theorem pole1_samples : (gridParams eighths eighths).mapM (fun q => pole1.getPoint q.x q.y) = .ok pole1Samples := by
  have h : ∀ i, i < 9 → ∀ j, j < 9 → pole1.getPoint (i.toFloat / 8) (j.toFloat / 8)
      = .ok ⟨i.toFloat / 8, i.toFloat * (2 * j.toFloat - 8) / 64 + 0, 0⟩ := by
    intro i hi j hj
    interval_cases i <;> interval_cases j <;> decide +kernel
  have e : gridParams eighths eighths = netTab 9 9 fun i j => ⟨i.toFloat / 8, j.toFloat / 8⟩ := rfl
  rw [e]
  have key : ∀ (l : List Nat), (∀ i ∈ l, i < 9) →
      (l.flatMap fun i => (List.range 9).map fun j => (⟨i.toFloat / 8, j.toFloat / 8⟩ : V2 Float)).mapM
        (fun q => pole1.getPoint q.x q.y)
      = .ok (l.flatMap fun i => (List.range 9).map fun j =>
          (⟨i.toFloat / 8, i.toFloat * (2 * j.toFloat - 8) / 64 + 0, 0⟩ : V3 Float)) := by
    intro l hl
    induction l with
    | nil => rfl
    | cons i l ih =>
      rw [List.flatMap_cons, List.mapM_append, ih fun i hi => hl i (List.mem_cons_of_mem _ hi), List.mapM_map]
      rw [mapM_pure (g := fun j : Nat => (⟨i.toFloat / 8, i.toFloat * (2 * j.toFloat - 8) / 64 + 0, 0⟩ : V3 Float))]
      · rfl
      · intro j hj
        exact h i (hl i (List.mem_cons_self ..)) j (List.mem_range.1 hj)
  exact key (List.range 9) fun i hi => List.mem_range.1 hi

def Spec.nan : Float := Float.ofBits 0x7FF8000000000000

section
variable {F : Type} [Add F] [Sub F] [Mul F] [Div F] [Neg F] [Zero F] [One F] [NatCast F] [LT F] [DecidableLT F]
  [LE F] [DecidableLE F] [Env F]

/-- One round of the Newton loop whose stopping conditions fail. -/
theorem newtonLoop2_step {d : SurfaceJet F} {point : V3 F} {uRange vRange : F × F} {n : Nat} {u v u' v' : F}
    {s su sv suu suv svu svv : V3 F} (h1 : d.s u v = .ok s) (h2 : d.su u v = .ok su) (h3 : d.sv u v = .ok sv)
    (h4 : d.suu u v = .ok suu) (h5 : d.suv u v = .ok suv) (h6 : d.svu u v = .ok svu) (h7 : d.svv u v = .ok svv)
    (n1 : near (s - point).lengthSq 0 = false)
    (n2 : (near (su.dot (s - point)) 0 && near (sv.dot (s - point)) 0) = false)
    (c1 : clampInRange (u + (newtonDelta (su.lengthSq + (s - point).dot suu) (su.dot sv + (s - point).dot svu)
      (su.dot sv + (s - point).dot suv) (sv.lengthSq + (s - point).dot svv)
      ⟨-((s - point).dot su), -((s - point).dot sv)⟩).x) uRange = .ok u')
    (c2 : clampInRange (v + (newtonDelta (su.lengthSq + (s - point).dot suu) (su.dot sv + (s - point).dot svu)
      (su.dot sv + (s - point).dot suv) (sv.lengthSq + (s - point).dot svv)
      ⟨-((s - point).dot su), -((s - point).dot sv)⟩).y) vRange = .ok v') :
    newtonLoop2 d point uRange vRange (n + 1) u v = newtonLoop2 d point uRange vRange n u' v' := by
  rw [newtonLoop2, h1, h2, h3, h4, h5, h6, h7]
  simp only [ok_bind]
  rw [n1, n2, c1, c2]
  rfl

/-- A surface point within no tolerance, whose first derivative panics. -/
theorem newtonLoop2_panic {d : SurfaceJet F} {point : V3 F} {uRange vRange : F × F} {n : Nat} {u v : F} {s : V3 F}
    {e : Panic} (h1 : d.s u v = .ok s) (n1 : near (s - point).lengthSq 0 = false) (h2 : d.su u v = .error e) :
    newtonLoop2 d point uRange vRange (n + 1) u v = .error e := by
  rw [newtonLoop2, h1, h2]
  simp only [ok_bind]
  rw [n1]
  rfl

/-- The projection of one point, given the intermediate values. -/
theorem projectPoints_single {s du dv duu duv dvu dvv : BSplineSurface F (V3 F)} {point : V3 F} {ur vr : F × F}
    {us vs : List F} {samples : List (V3 F)} {g : Grid (V3 F)} {i j : Nat} {u v : F} {r : Res (V2 F)}
    (e1 : s.derivativeU = .ok du) (e2 : s.derivativeV = .ok dv) (e3 : du.derivativeU = .ok duu)
    (e4 : du.derivativeV = .ok duv) (e5 : dv.derivativeU = .ok dvu) (e6 : dv.derivativeV = .ok dvv)
    (e7 : KnotVector.range s.knots.1 = .ok ur) (e8 : KnotVector.range s.knots.2 = .ok vr)
    (e9 : uniformDivide ur (s.controlPoints.rows * 4) = .ok us)
    (e10 : uniformDivide vr (s.controlPoints.cols * 4) = .ok vs)
    (e11 : (gridParams us vs).mapM (fun q => s.getPoint q.x q.y) = .ok samples)
    (e12 : Grid.fromVec samples (s.controlPoints.cols * 4 + 1) = .ok g)
    (e13 : findNearestPointInGrid g.rowList point = (i, j)) (e14 : idx us i = .ok u) (e15 : idx vs j = .ok v)
    (e16 : newtonLoop2 ⟨s.getPoint, du.getPoint, dv.getPoint, duu.getPoint, duv.getPoint, dvu.getPoint, dvv.getPoint⟩
      point ur vr 20 u v = r) :
    s.projectPoints [point] = r.map fun q => [q] := by
  unfold BSplineSurface.projectPoints
  rw [e1, e2]
  simp only [ok_bind]
  rw [e3, e4, e5, e6, e7, e8]
  simp only [ok_bind]
  rw [e9, e10]
  simp only [ok_bind]
  rw [e11]
  simp only [ok_bind]
  rw [e12]
  simp only [ok_bind]
  rw [mapM_cons, e13]
  dsimp only
  rw [e14, e15]
  simp only [ok_bind]
  rw [e16]
  cases r <;> rfl

end

/-- **C102.** In binary64 the projection of the point `(-1, 0, 0)`, which is nearest to the pole, panics on the bilinear
patch. -/
theorem C102_pole_panics : pole1.projectPoints [⟨-1, 0, 0⟩] = .error .index := by
  have e7 : KnotVector.range pole1.knots.1 = .ok (0, 1) := by decide +kernel
  have e8 : KnotVector.range pole1.knots.2 = .ok (0, 1) := by decide +kernel
  have e9 : uniformDivide ((0 : Float), 1) (pole1.controlPoints.rows * 4) = .ok eighths := by decide +kernel
  have e10 : uniformDivide ((0 : Float), 1) (pole1.controlPoints.cols * 4) = .ok eighths := by decide +kernel
  have e12 : Grid.fromVec pole1Samples (pole1.controlPoints.cols * 4 + 1) = .ok ⟨pole1Samples, 9, 9⟩ := by decide +kernel
  have e13 : findNearestPointInGrid (⟨pole1Samples, 9, 9⟩ : Grid (V3 Float)).rowList ⟨-1, 0, 0⟩ = (0, 0) := by
    decide +kernel
  have e14 : idx eighths 0 = .ok 0 := by decide +kernel
  have e1 : pole1.derivativeU = .ok pole1U := by decide +kernel
  have e2 : pole1.derivativeV = .ok pole1V := by decide +kernel
  have e3 : pole1U.derivativeU = .ok zeroSurface := by decide +kernel
  have e4 : pole1U.derivativeV = .ok pole1UV := by decide +kernel
  have e5 : pole1V.derivativeU = .ok pole1UV := by decide +kernel
  have e6 : pole1V.derivativeV = .ok zeroSurface := by decide +kernel
  have n1 : pole1.getPoint nan nan = .ok ⟨nan, nan, nan⟩ := by decide +kernel
  have n2 : near ((⟨nan, nan, nan⟩ : V3 Float) - ⟨-1, 0, 0⟩).lengthSq 0 = false := by decide +kernel
  have n3 : pole1U.getPoint nan nan = .error .index := by decide +kernel
  have s1 : pole1.getPoint 0 0 = .ok ⟨0, 0, 0⟩ := by decide +kernel
  have s2 : pole1U.getPoint 0 0 = .ok ⟨1, -1, 0⟩ := by decide +kernel
  have s3 : pole1V.getPoint 0 0 = .ok ⟨0, 0, 0⟩ := by decide +kernel
  have s4 : pole1UV.getPoint 0 0 = .ok ⟨0, 2, 0⟩ := by decide +kernel
  have s5 : zeroSurface.getPoint 0 0 = .ok ⟨0, 0, 0⟩ := by decide +kernel
  have step := newtonLoop2_step (d := ⟨pole1.getPoint, pole1U.getPoint, pole1V.getPoint, zeroSurface.getPoint,
    pole1UV.getPoint, pole1UV.getPoint, zeroSurface.getPoint⟩) (point := ⟨-1, 0, 0⟩) (uRange := (0, 1)) (vRange := (0, 1))
    (n := 19) (u' := nan) (v' := nan) s1 s2 s3 s5 s4 s4 s5 (by decide +kernel) (by decide +kernel) (by decide +kernel)
    (by decide +kernel)
  have panic := newtonLoop2_panic (d := ⟨pole1.getPoint, pole1U.getPoint, pole1V.getPoint, zeroSurface.getPoint,
    pole1UV.getPoint, pole1UV.getPoint, zeroSurface.getPoint⟩) (point := ⟨-1, 0, 0⟩) (uRange := (0, 1)) (vRange := (0, 1))
    (n := 18) n1 n2 n3
  exact projectPoints_single e1 e2 e3 e4 e5 e6 e7 e8 e9 e10 pole1_samples e12 e13 e14 e14 (step.trans panic)

end Geom3d
