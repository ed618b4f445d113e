import Verif.Props.Metric
import Verif.Props.SurfaceDeriv
import Verif.Model.Instances

/-! # C98: subdivision does not end at a jump of the curve -/

set_option linter.unusedSectionVars false

namespace Geom3d
open Spec

section
variable {F : Type} [Add F] [Sub F] [Mul F] [Div F] [Neg F] [Zero F] [One F] [NatCast F] [LT F] [DecidableLT F]
  [LE F] [DecidableLE F] [Env F]

/-- With points for all parameters of a set closed under subdivision the only failure is running out of depth. -/
theorem parameterDivision_error {getPoint : F → Res (V3 F)} {rnd : List Bool → F} {tol : F} (D : F → F → Prop)
    (hpt : ∀ lo hi, D lo hi → (∃ x, getPoint lo = .ok x) ∧ (∃ x, getPoint hi = .ok x) ∧
      ∀ path, ∃ x, getPoint (rangeAt (lo, hi) (drawRatio (rnd path))) = .ok x)
    (hD : ∀ lo hi, D lo hi → D lo ((lo + hi) / (Nat.cast 2 : F)) ∧ D ((lo + hi) / (Nat.cast 2 : F)) hi)
    (fuel : Nat) (path : List Bool) (range : F × F) (h : D range.1 range.2) :
    parameterDivision getPoint rnd tol fuel path range = .error .fuel ∨
      ∃ l, parameterDivision getPoint rnd tol fuel path range = .ok l := by
  induction fuel generalizing path range with
  | zero => exact .inl rfl
  | succ fuel ih =>
    obtain ⟨⟨p0, h0⟩, ⟨p1, h1⟩, ht⟩ := hpt _ _ h
    obtain ⟨pt, ht⟩ := ht path
    rw [parameterDivision]
    rw [h0, h1, show rangeAt range = rangeAt (range.1, range.2) from rfl, ht]
    simp only [ok_bind]
    split
    · exact .inr ⟨_, rfl⟩
    · obtain ⟨d1, d2⟩ := hD _ _ h
      rcases ih (path ++ [false]) (range.1, (range.1 + range.2) / (Nat.cast 2 : F)) d1 with e | ⟨l, e⟩
      · rw [e]; exact .inl rfl
      · rw [e]
        simp only [ok_bind]
        rcases ih (path ++ [true]) ((range.1 + range.2) / (Nat.cast 2 : F), range.2) d2 with e' | ⟨l', e'⟩
        · rw [e']; exact .inl rfl
        · rw [e']; exact .inr ⟨_, rfl⟩

/-- If the chord test fails on all ranges of a kind, and one half of every such range is again of that kind, no depth
suffices. -/
theorem parameterDivision_stuck {getPoint : F → Res (V3 F)} {rnd : List Bool → F} {tol : F} (D R : F → F → Prop)
    (hpt : ∀ lo hi, D lo hi → (∃ x, getPoint lo = .ok x) ∧ (∃ x, getPoint hi = .ok x) ∧
      ∀ path, ∃ x, getPoint (rangeAt (lo, hi) (drawRatio (rnd path))) = .ok x)
    (hD : ∀ lo hi, D lo hi → D lo ((lo + hi) / (Nat.cast 2 : F)) ∧ D ((lo + hi) / (Nat.cast 2 : F)) hi)
    (hR : ∀ lo hi, D lo hi → R lo hi → R lo ((lo + hi) / (Nat.cast 2 : F)) ∨ R ((lo + hi) / (Nat.cast 2 : F)) hi)
    (hfail : ∀ lo hi path p0 p1 pt, D lo hi → R lo hi → getPoint lo = .ok p0 → getPoint hi = .ok p1 →
      getPoint (rangeAt (lo, hi) (drawRatio (rnd path))) = .ok pt →
      ¬ pt.distance (p0 + (p1 - p0) * drawRatio (rnd path)) < tol)
    (fuel : Nat) (path : List Bool) (range : F × F) (h : D range.1 range.2) (hr : R range.1 range.2) :
    parameterDivision getPoint rnd tol fuel path range = .error .fuel := by
  induction fuel generalizing path range with
  | zero => rfl
  | succ fuel ih =>
    obtain ⟨⟨p0, h0⟩, ⟨p1, h1⟩, ht⟩ := hpt _ _ h
    obtain ⟨pt, ht⟩ := ht path
    have hno := hfail _ _ path _ _ _ h hr h0 h1 ht
    obtain ⟨d1, d2⟩ := hD _ _ h
    rw [parameterDivision]
    rw [h0, h1, show rangeAt range = rangeAt (range.1, range.2) from rfl, ht]
    simp only [ok_bind]
    rw [if_neg hno]
    rcases hR _ _ h hr with r | r
    · rw [ih (path ++ [false]) (range.1, (range.1 + range.2) / (Nat.cast 2 : F)) d1 r]; rfl
    · rcases parameterDivision_error (tol := tol) D hpt hD fuel (path ++ [false])
        (range.1, (range.1 + range.2) / (Nat.cast 2 : F)) d1 with e | ⟨l, e⟩
      · rw [e]; rfl
      · rw [e]
        simp only [ok_bind]
        rw [ih (path ++ [true]) ((range.1 + range.2) / (Nat.cast 2 : F), range.2) d2 r]; rfl

end

section

/-- The chord test at a jump. -/
theorem chord_at_jump {fx fy fz A B : V3 ℝ} {p ε tol : ℝ} (p0 : 2 / 5 ≤ p) (p1 : p ≤ 3 / 5)
    (hx : fx.distance A ≤ ε) (hy : fy.distance B ≤ ε) (hz : fz.distance A ≤ ε ∨ fz.distance B ≤ ε)
    (htol : tol + 14 / 5 * ε ≤ 2 / 5 * A.distance B) : tol ≤ fz.distance (fx + (fy - fx) * p) := by
  have hε : 0 ≤ ε := (V3.distance_nonneg _ _).trans hx
  have tri : ∀ a b c : V3 ℝ, a.distance c ≤ a.distance b + b.distance c := by
    intro a b c
    unfold V3.distance
    rw [show a - c = (a - b) + (b - c) by abel]
    exact V3.length_add_le _ _
  have sym : ∀ a b : V3 ℝ, a.distance b = b.distance a := by
    intro a b
    unfold V3.distance
    rw [show a - b = (-1 : ℝ) • (b - a) by module, V3.length_smul]; norm_num
  have hD : A.distance B - 2 * ε ≤ fx.distance fy := by
    have h1 := tri A fx B
    have h2 := tri fx fy B
    rw [sym A fx] at h1
    linarith
  rcases hz with hz | hz
  · have hzx : fz.distance fx ≤ 2 * ε := by
      have := tri fz A fx
      rw [sym A fx] at this
      linarith
    have h3 : p * fx.distance fy ≤ fz.distance (fx + (fy - fx) * p) + fz.distance fx := by
      have e : p * fx.distance fy = fx.distance (fx + (fy - fx) * p) := by
        unfold V3.distance
        rw [V3.rmul_eq, show fx - (fx + p • (fy - fx)) = p • (fx - fy) by module, V3.length_smul,
          abs_of_nonneg (by linarith)]
      have := tri fx fz (fx + (fy - fx) * p)
      rw [sym fx fz] at this
      rw [e]; linarith
    have h4 : 2 / 5 * fx.distance fy ≤ p * fx.distance fy := mul_le_mul_of_nonneg_right p0 (V3.distance_nonneg _ _)
    linarith
  · have hzy : fz.distance fy ≤ 2 * ε := by
      have := tri fz B fy
      rw [sym B fy] at this
      linarith
    have h3 : (1 - p) * fx.distance fy ≤ fz.distance (fx + (fy - fx) * p) + fz.distance fy := by
      have e : (1 - p) * fx.distance fy = fy.distance (fx + (fy - fx) * p) := by
        unfold V3.distance
        rw [V3.rmul_eq, show fy - (fx + p • (fy - fx)) = (-(1 - p)) • (fx - fy) by module, V3.length_smul, abs_neg,
          abs_of_nonneg (by linarith)]
      have := tri fy fz (fx + (fy - fx) * p)
      rw [sym fy fz] at this
      rw [e]; linarith
    have h4 : 2 / 5 * fx.distance fy ≤ (1 - p) * fx.distance fy :=
      mul_le_mul_of_nonneg_right (by linarith) (V3.distance_nonneg _ _)
    linarith

/-- **C98**: when the curve stays within `ε` of `A` before `t` and within `ε` of `B` from `t` on, and
`tol + 2.8 ε ≤ 0.4 |A - B|`, no recursion depth suffices, whatever numbers are drawn. -/
theorem C98_jump {getPoint : ℝ → Res (V3 ℝ)} {f : ℝ → V3 ℝ} {A B : V3 ℝ} {lo hi t ε tol : ℝ} (hlo : lo < t) (hhi : t ≤ hi)
    (hf : ∀ u, lo ≤ u → u ≤ hi → getPoint u = .ok (f u))
    (hA : ∀ u, lo ≤ u → u < t → (f u).distance A ≤ ε) (hB : ∀ u, t ≤ u → u ≤ hi → (f u).distance B ≤ ε)
    (htol : tol + 14 / 5 * ε ≤ 2 / 5 * A.distance B) {rnd : List Bool → ℝ} (hr : ∀ path, 0 ≤ rnd path ∧ rnd path < 1)
    (fuel : Nat) (path : List Bool) : parameterDivision getPoint rnd tol fuel path (lo, hi) = .error .fuel := by
  have hin : ∀ a b path, lo ≤ a → a ≤ b → b ≤ hi → a ≤ rangeAt (a, b) (drawRatio (rnd path)) ∧
      rangeAt (a, b) (drawRatio (rnd path)) ≤ b := by
    intro a b path h1 h2 h3
    obtain ⟨q0, q1⟩ := drawRatio_bounds (hr path).1 (hr path).2
    simp only [rangeAt]
    constructor <;> nlinarith
  refine parameterDivision_stuck (fun a b => lo ≤ a ∧ a ≤ b ∧ b ≤ hi) (fun a b => a < t ∧ t ≤ b) ?_ ?_ ?_ ?_ fuel path
    (lo, hi) ⟨le_refl _, by linarith, le_refl _⟩ ⟨hlo, hhi⟩
  · rintro a b ⟨h1, h2, h3⟩
    refine ⟨⟨_, hf a h1 (by linarith)⟩, ⟨_, hf b (by linarith) h3⟩, fun path => ?_⟩
    obtain ⟨i1, i2⟩ := hin a b path h1 h2 h3
    exact ⟨_, hf _ (by linarith) (by linarith)⟩
  · rintro a b ⟨h1, h2, h3⟩
    norm_num
    refine ⟨⟨h1, by linarith, by linarith⟩, by linarith, by linarith, h3⟩
  · rintro a b - ⟨h1, h2⟩
    by_cases hm : (a + b) / (Nat.cast 2 : ℝ) < t
    · exact .inr ⟨hm, h2⟩
    · exact .inl ⟨h1, not_lt.1 hm⟩
  · rintro a b path p0 p1 pt ⟨h1, h2, h3⟩ ⟨h4, h5⟩ e0 e1 et
    obtain ⟨i1, i2⟩ := hin a b path h1 h2 h3
    rw [hf a h1 (by linarith)] at e0
    rw [hf b (by linarith) h3] at e1
    rw [hf _ (by linarith) (by linarith)] at et
    cases e0; cases e1; cases et
    rw [not_lt]
    obtain ⟨q0, q1⟩ := C29_ratio (hr path).1 (hr path).2
    refine chord_at_jump (A := A) (B := B) (ε := ε) (by linarith) (by linarith) (hA a h1 h4) (hB b h5 h3) ?_ htol
    by_cases hz : rangeAt (a, b) (drawRatio (rnd path)) < t
    · exact .inl (hA _ (by linarith) hz)
    · exact .inr (hB _ (not_lt.1 hz) (by linarith))

/-- **C98**, in terms of one-sided limits: at a jump from `A` to `B` with `tol < 0.4 |A - B|` subdivision of every short
enough range around the jump goes on for ever. -/
theorem C98_jump_limit {f : ℝ → V3 ℝ} {A B : V3 ℝ} {t tol : ℝ}
    (hA : ∀ ε > 0, ∃ δ > 0, ∀ u, t - δ < u → u < t → (f u).distance A ≤ ε)
    (hB : ∀ ε > 0, ∃ δ > 0, ∀ u, t ≤ u → u < t + δ → (f u).distance B ≤ ε) (htol : tol < 2 / 5 * A.distance B) :
    ∃ δ > 0, ∀ (lo hi : ℝ), t - δ < lo → lo < t → t ≤ hi → hi < t + δ → ∀ rnd : List Bool → ℝ,
      (∀ path, 0 ≤ rnd path ∧ rnd path < 1) → ∀ fuel path,
        parameterDivision (fun u => .ok (f u)) rnd tol fuel path (lo, hi) = .error .fuel := by
  obtain ⟨δ1, hd1, h1⟩ := hA ((2 / 5 * A.distance B - tol) * (5 / 14)) (by linarith)
  obtain ⟨δ2, hd2, h2⟩ := hB ((2 / 5 * A.distance B - tol) * (5 / 14)) (by linarith)
  refine ⟨min δ1 δ2, lt_min hd1 hd2, fun lo hi g1 g2 g3 g4 rnd hr fuel path => ?_⟩
  have m1 := min_le_left δ1 δ2
  have m2 := min_le_right δ1 δ2
  exact C98_jump g2 g3 (fun _ _ _ => rfl) (fun u a b => h1 u (by linarith) b) (fun u a b => h2 u a (by linarith))
    (by linarith) hr fuel path

theorem convexComb_const {P : Type} [AddCommGroup P] [Module ℝ P] {A x : P} (h : ConvexComb (K := ℝ) [A, A] x) : x = A := by
  obtain ⟨w, -, h2, rfl⟩ := h
  simp only [List.length_cons, List.length_nil, zero_add, Nat.reduceAdd] at h2 ⊢
  rw [Finset.sum_range_succ, Finset.sum_range_one] at h2 ⊢
  simp only [List.getD_cons_zero, List.getD_cons_succ]
  rw [← add_smul, h2, one_smul]

/-- **C98**, an actual curve: the B-spline of degree 1 with knots `0,0,1,1,2,2` and control points `A, A, B, B` is at `A`
before the double knot and at `B` from there on; discretising it never ends if `tol ≤ 0.4 |A - B|`. -/
theorem C98_bspline (A B : V3 ℝ) {tol : ℝ} (htol : tol ≤ 2 / 5 * A.distance B) {rnd : List Bool → ℝ}
    (hr : ∀ path, 0 ≤ rnd path ∧ rnd path < 1) (fuel : Nat) :
    parameterDivision (BSplineCurve.getPoint ⟨[A, A, B, B], [0, 0, 1, 1, 2, 2], 1⟩) rnd tol fuel [] (0, 2)
      = .error .fuel := by
  have hv : (⟨[A, A, B, B], [0, 0, 1, 1, 2, 2], 1⟩ : BSplineCurve ℝ (V3 ℝ)).Valid := by
    constructor <;> first
      | exact resolved_real _
      | (simp [Sorted, knot]; done)
      | (simp [Sorted, knot]; norm_num)
  have h1 : ∀ u : ℝ, 0 ≤ u → u < 1 →
      (⟨[A, A, B, B], [0, 0, 1, 1, 2, 2], 1⟩ : BSplineCurve ℝ (V3 ℝ)).getPoint u = .ok A := by
    intro u a b
    obtain ⟨x, e, hx⟩ := C13_hull hv (s := 1) (u := u) (by simp) (by simp) (by simp [knot]) (by simpa [knot] using a)
      (.inl (by simpa [knot] using b))
    rw [e, convexComb_const hx]
  have h2 : ∀ u : ℝ, 1 ≤ u → u ≤ 2 →
      (⟨[A, A, B, B], [0, 0, 1, 1, 2, 2], 1⟩ : BSplineCurve ℝ (V3 ℝ)).getPoint u = .ok B := by
    intro u a b
    obtain ⟨x, e, hx⟩ := C13_hull hv (s := 3) (u := u) (by simp) (by simp) (by simp [knot]) (by simpa [knot] using a)
      (by
        rcases b.lt_or_eq with b | b
        · exact .inl (by simpa [knot] using b)
        · exact .inr (by simp [knot, b]))
    rw [e, convexComb_const hx]
  refine C98_jump (f := fun u => if u < 1 then A else B) (A := A) (B := B) (t := 1) (ε := 0) (by norm_num) (by norm_num)
    ?_ ?_ ?_ (by linarith) hr fuel []
  · intro u a b
    by_cases hu : u < 1
    · rw [h1 u a hu, if_pos hu]
    · rw [h2 u (not_lt.1 hu) b, if_neg hu]
  · intro u _ hu
    simp only [if_pos hu, V3.distance, sub_self, V3.length_zero, le_refl]
  · intro u hu _
    simp only [if_neg (not_lt.2 hu), V3.distance, sub_self, V3.length_zero, le_refl]

/-- Non-vacuity: a jump of length 5 and tolerance 1. -/
example : parameterDivision (BSplineCurve.getPoint ⟨[⟨0, 0, 0⟩, ⟨0, 0, 0⟩, ⟨3, 4, 0⟩, ⟨3, 4, 0⟩], [0, 0, 1, 1, 2, 2], 1⟩)
    (fun _ => 0) (1 : ℝ) 1000000 [] (0, 2) = .error .fuel :=
  C98_bspline ⟨0, 0, 0⟩ ⟨3, 4, 0⟩ (by
    have : V3.distance (⟨0, 0, 0⟩ : V3 ℝ) ⟨3, 4, 0⟩ = 5 := by
      unfold V3.distance
      rw [V3.length_eq, show ((⟨0, 0, 0⟩ : V3 ℝ) - ⟨3, 4, 0⟩).dot (⟨0, 0, 0⟩ - ⟨3, 4, 0⟩) = 5 * 5 by norm_num [V3.dot]]
      exact Real.sqrt_mul_self (by norm_num)
    rw [this]; norm_num) (fun _ => by norm_num) _

end

/-! ### Binary64: a straight line -/

/-- `1 + 2^-k` in binary64. -/
def onePlus (k : Nat) : Float := Float.ofBits (0x3FF0000000000000 + UInt64.ofNat (2 ^ (52 - k)))

/-- The line `u ↦ 2⁴⁰ (u - 1)` along the x axis. -/
def farLine : Line Float := ⟨⟨-1099511627776, 0, 0⟩, ⟨1099511627776, 0, 0⟩⟩

theorem farLine_fails : ∀ k : Fin 53,
    ¬ (farLine.getPoint (rangeAt (1, onePlus k.1) (drawRatio (0 : Float)))).distance
      (farLine.getPoint 1 + (farLine.getPoint (onePlus k.1) - farLine.getPoint 1) * drawRatio (0 : Float))
        < (1 / 100000 : Float) := by decide +kernel

theorem farLine_mid : (∀ k : Fin 52, (1 + onePlus k.1) / (Nat.cast 2 : Float) = onePlus (k.1 + 1)) ∧
    (1 + onePlus 52) / (Nat.cast 2 : Float) = 1 := by decide +kernel

/-- **C98** in binary64: even for a straight line (in exact arithmetic every chord test succeeds, `C98_line`) rounding can keep
the chord test failing for ever: the line from `(-2⁴⁰,0,0)` in direction `(2⁴⁰,0,0)` on the parameter range
`[1, 2]` with tolerance `10⁻⁵`, when the generator draws `0`. -/
theorem C98_float (fuel : Nat) :
    parameterDivision (fun u => .ok (farLine.getPoint u)) (fun _ => 0) (1 / 100000 : Float) fuel [] (1, 2)
      = .error .fuel := by
  refine parameterDivision_stuck (fun _ _ => True) (fun a b => a = 1 ∧ ∃ k : Fin 53, b = onePlus k.1) ?_ ?_ ?_ ?_ fuel []
    (1, 2) trivial ⟨rfl, 0, by decide +kernel⟩
  · intro a b _
    exact ⟨⟨_, rfl⟩, ⟨_, rfl⟩, fun _ => ⟨_, rfl⟩⟩
  · intro a b _
    exact ⟨trivial, trivial⟩
  · rintro a b - ⟨rfl, ⟨k, hk⟩, rfl⟩
    by_cases h : k < 52
    · left
      refine ⟨rfl, ⟨k + 1, by omega⟩, ?_⟩
      exact farLine_mid.1 ⟨k, h⟩
    · right
      have hk' : k = 52 := by omega
      subst hk'
      exact ⟨farLine_mid.2, ⟨52, hk⟩, rfl⟩
  · rintro a b path p0 p1 pt - ⟨rfl, k, rfl⟩ e0 e1 et
    cases e0; cases e1; cases et
    exact farLine_fails k

/-- In exact arithmetic the chord test of a line always succeeds: the ends of the range are returned at once. -/
theorem C98_line {l : Line ℝ} {tol : ℝ} (htol : 0 < tol) (rnd : List Bool → ℝ) (fuel : Nat) (path : List Bool)
    (range : ℝ × ℝ) :
    parameterDivision (fun u => .ok (l.getPoint u)) rnd tol (fuel + 1) path range = .ok [range.1, range.2] := by
  rw [parameterDivision]
  simp only [ok_bind]
  rw [if_pos]
  · rfl
  · have e : l.getPoint (rangeAt range (drawRatio (rnd path))) - (l.getPoint range.1
        + (l.getPoint range.2 - l.getPoint range.1) * drawRatio (rnd path)) = 0 := by
      simp only [Line.getPoint, rangeAt, V3.rmul_eq]
      module
    unfold V3.distance
    rw [e, V3.length_zero]
    exact htol

end Geom3d
