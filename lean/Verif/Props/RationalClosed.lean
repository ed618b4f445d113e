import Verif.Props.FloatClosed
import Verif.Props.FloatFinite

/-!
# Watertight meshes of rational patches in binary64 (C171)

Rational Bézier patches whose homogeneous sides match along the same parameter give watertight meshes in binary64, with finite vertices.
Where the sides are the same curve but with other weights, the vertices may differ.
-/

set_option linter.unusedSectionVars false

namespace Geom3d
open Spec F64 Closing

/-- A net of homogeneous control points with weights of at least `ω`, large enough for the number of its points. -/
structure Spec.WeightedNet (M ω R : ℝ) (g : Grid (V4 Float)) : Prop where
  ok : NetOk g
  rows : 1 ≤ g.rows
  cols : 1 ≤ g.cols
  size : g.rows * g.cols ≤ 2 ^ 40
  points : ∀ p ∈ g.data, Rational M ω R p
  safe : (g.rows * g.cols : Nat) * 2 ^ (-49 : Int) * M + (g.rows * g.cols : Nat) * 2 ^ (-1073 : Int) ≤ ω / 2

/-- The sides of a rational patch that the way around its parameters passes forwards. -/
def Spec.forthRational (g : Grid (V4 Float)) : List (List (V4 Float)) := [Side.vStart.points g, Side.uEnd.points g]

/-- The sides of a rational patch that the way around its parameters passes backwards. -/
def Spec.backRational (g : Grid (V4 Float)) : List (List (V4 Float)) := [Side.vEnd.points g, Side.uStart.points g]

namespace ClosedRational

/-- The point of a rational side, as a real point. -/
noncomputable def sidePoint (l : List Float) (P : List (V4 Float)) (k : Nat) : V3 ℝ :=
  match (BezierCurve.mk P).getPointRational (l.getD k 0) with
  | .ok x => toReal x
  | .error _ => 0

/-- The weight of the polygon through the computed points of a rational side. -/
noncomputable def sideChain (φ : V3 ℝ → V3 ℝ → ℝ) (n : Nat) (l : List Float) (P : List (V4 Float)) : ℝ :=
  ∑ k ∈ Finset.range n, φ (sidePoint l P k) (sidePoint l P (k + 1))

variable {M ω R : ℝ} {g : Grid (V4 Float)}

theorem finiteNet (hg : WeightedNet M ω R g) : FiniteNet4 g where
  ok := hg.ok
  rows := ⟨hg.rows, (Nat.le_mul_of_pos_right _ hg.cols).trans hg.size⟩
  cols := ⟨hg.cols, (Nat.le_mul_of_pos_left _ hg.rows).trans hg.size⟩
  fin := fun p hp => by
    obtain ⟨⟨a, -⟩, ⟨b, -⟩, ⟨c, -⟩, d, -⟩ := (hg.points p hp).bounded
    exact ⟨a, b, c, d⟩

/-- The computed weight is not zero. -/
theorem weight_pos (hg : WeightedNet M ω R g) (hM : M ≤ 2 ^ (1021 : Int)) (hω : (2 : ℝ) ^ (-1000 : Int) ≤ ω) {u v : Float}
    (hu0 : 0 ≤ u) (hu1 : u ≤ 1) (hv0 : 0 ≤ v) (hv1 : v ≤ 1) {h : V4 Float} (hh : (BezierSurface.mk g).getPoint u v = .ok h) : ¬ IsZ h.w := by
  obtain ⟨h', H, e1, -, a, A, hw, e2, -⟩ := bezierSurface_computes toReal4 ⟨g⟩ hg.ok hg.rows hg.cols hg.size hu0 hu1 hv0 hv1
  rw [hh] at e1
  cases e1
  subst e2
  have hlen : 0 < g.data.length := by rw [hg.ok]; exact Nat.mul_pos hg.rows hg.cols
  have hM0 := rational_M hlen hg.points
  have hω0 : 0 < ω := lt_of_lt_of_le (two_zpow_pos _) hω
  have hM3 : M ≤ 2 ^ (1022 : Int) := double_limit hM (by clear hM hω; linarith)
  have e49 : (2 : ℝ) ^ (-49 : Int) = 16 * eps := by rw [eps_eq]; norm_num
  obtain ⟨-, ew⟩ := hw.accum (small_count (by norm_num) (by norm_num) hg.size) (le_trans hg.size (by norm_num)) (p := fun i => (g.data.getD i 0).w) hM0 hM3
    (fun i hi => (hg.points _ (getD_mem_of_lt hi 0)).bounded.2.2.2)
  have hWω : ω ≤ ∑ i ∈ Finset.range g.data.length, A i * val (g.data.getD i 0).w := by
    calc ω = ∑ i ∈ Finset.range g.data.length, A i * ω := by rw [← Finset.sum_mul, hw.sum, one_mul]
      _ ≤ _ := Finset.sum_le_sum fun i hi => by
        rw [Finset.mem_range] at hi
        exact mul_le_mul_of_nonneg_left (hg.points _ (getD_mem_of_lt hi 0)).weight (hw.nonneg i hi)
  have hb := rational_bound (K := g.rows * g.cols) (c := 9) (m := 16) hM0 (by norm_num) rfl
  have hs := hg.safe
  rw [e49] at hs
  rintro ⟨-, hz⟩
  change val (linComb (tab g.data.length a) g.data).w = 0 at hz
  rw [v4_accum_w] at hz
  rw [hz] at ew
  have h1 := ew.trans (hb.trans hs)
  rw [zero_sub, abs_neg] at h1
  have h2 := (le_abs_self _).trans h1
  clear hM hω hM3 ew hb hs
  linarith

theorem point_finite (hg : WeightedNet M ω R g) (hM : M ≤ 2 ^ (1021 : Int)) (hω : (2 : ℝ) ^ (-1000 : Int) ≤ ω) (hR : R ≤ 2 ^ (1000 : Int))
    {u v : Float} (hu0 : 0 ≤ u) (hu1 : u ≤ 1) (hv0 : 0 ≤ v) (hv1 : v ≤ 1) :
    ∃ x, (BezierSurface.mk g).getPointRational u v = .ok x ∧ Finite3 x := by
  obtain ⟨x, q, e1, -, h⟩ := C107_bezier_surface ⟨g⟩ hg.ok hg.rows hg.cols hg.size u v hu0 hu1 hv0 hv1 M ω R _ hM hω hR hg.points rfl hg.safe
  exact ⟨x, e1, h.1.1, h.2.1.1, h.2.2.1⟩

/-- The mesh of a rational patch, and its boundary. -/
theorem mesh_weight (hg : WeightedNet M ω R g) (hM : M ≤ 2 ^ (1021 : Int)) (hω : (2 : ℝ) ^ (-1000 : Int) ≤ ω) (hR : R ≤ 2 ^ (1000 : Int))
    {n : Nat} (hn : 1 ≤ n) (hsz : (n + 1) * (n + 1) ≤ 2 ^ 32) {l : List Float} (hl : uniformDivide ((0 : Float), 1) n = .ok l) :
    ∃ mesh ts, (SurfacePatch.mk (BezierSurface.mk g).surfaceRational ((0, 1), (0, 1)) (n, n)).getTriangleMesh = .ok mesh ∧
      corners mesh = some ts ∧ (∀ t ∈ ts, Finite3 t.1 ∧ Finite3 t.2.1 ∧ Finite3 t.2.2) ∧
      ∀ φ : V3 ℝ → V3 ℝ → ℝ, Skew φ → weight φ (sidesOf (ts.map triReal)) =
        ((forthRational g).map (sideChain φ n l)).sum - ((backRational g).map (sideChain φ n l)).sum := by
  have hn2 : n ≤ 2 ^ 16 := by
    by_contra hc
    have := Nat.mul_le_mul (show 2 ^ 16 + 1 ≤ n + 1 by omega) (show 2 ^ 16 + 1 ≤ n + 1 by omega)
    omega
  obtain ⟨l', d1, d2, d3, d4, d5⟩ := ClosedFloat.unit_divide hn (hn2.trans (by norm_num))
  rw [hl] at d1
  cases d1
  have pt : ∀ i j, ∃ x, i ≤ n → j ≤ n → (BezierSurface.mk g).getPointRational (l.getD i 0) (l.getD j 0) = .ok x ∧ Finite3 x := by
    intro i j
    by_cases h : i ≤ n ∧ j ≤ n
    · obtain ⟨x, h1, h2⟩ := point_finite hg hM hω hR (d5 i h.1).2.1 (d5 i h.1).2.2 (d5 j h.2).2.1 (d5 j h.2).2.2
      exact ⟨x, fun _ _ => ⟨h1, h2⟩⟩
    · exact ⟨0, fun h1 h2 => absurd ⟨h1, h2⟩ h⟩
  choose q hq using pt
  obtain ⟨mesh, h1, -, -, h2, -⟩ := patch_mesh (p := SurfacePatch.mk (BezierSurface.mk g).surfaceRational ((0, 1), (0, 1)) (n, n)) rfl hn hn hsz
    (q := q) (by
      refine ⟨?_, fun us vs _ _ => ⟨[], rfl, Or.inl rfl⟩⟩
      intro us' vs' k1 k2 i j u v hu hv
      simp only [] at k1 k2
      rw [hl] at k1 k2
      cases k1
      cases k2
      have li : i ≤ n := by have := (List.getElem?_eq_some_iff.1 hu).1; omega
      have lj : j ≤ n := by have := (List.getElem?_eq_some_iff.1 hv).1; omega
      have w1 := (d5 i li).1
      have w2 := (d5 j lj).1
      rw [hu, Option.some.injEq] at w1
      rw [hv, Option.some.injEq] at w2
      rw [w1, w2]
      exact (hq i j li lj).1)
  refine ⟨mesh, _, h1, h2, fun t ht => ?_, fun φ hφ => ?_⟩
  · obtain ⟨i, j, hi, hj, rfl | rfl⟩ := mem_gridTriangles.1 ht
    · exact ⟨(hq _ _ (by omega) (by omega)).2, (hq _ _ (by omega) (by omega)).2, (hq _ _ (by omega) (by omega)).2⟩
    · exact ⟨(hq _ _ (by omega) (by omega)).2, (hq _ _ (by omega) (by omega)).2, (hq _ _ (by omega) (by omega)).2⟩
  have et : (gridTriangles q n n).map triReal = gridTriangles (fun i j => toReal (q i j)) n n := by
    simp [gridTriangles, List.map_flatMap, triReal]
  rw [et, grid_weight hφ]
  have side : ∀ (d : Side) (k : Nat), k ≤ n → ∀ x, (BezierSurface.mk g).getPointRational (d.at (l.getD k 0)).1 (d.at (l.getD k 0)).2 = .ok x →
      toReal x = sidePoint l (d.points g) k := by
    intro d k hk x hx
    obtain ⟨x', y, e1, e2, e3⟩ := C114_side_homogeneous (s := ⟨g⟩) (finiteNet hg) d (d5 k hk).2.1 (d5 k hk).2.2
    have hw : ¬ IsZ x'.w := by
      have i0 : (0 : Float) ≤ 0 ∧ (0 : Float) ≤ 1 ∧ (1 : Float) ≤ 1 := by decide +kernel
      cases d
      · exact weight_pos hg hM hω i0.1 i0.2.1 (d5 k hk).2.1 (d5 k hk).2.2 e1
      · exact weight_pos hg hM hω i0.2.1 i0.2.2 (d5 k hk).2.1 (d5 k hk).2.2 e1
      · exact weight_pos hg hM hω (d5 k hk).2.1 (d5 k hk).2.2 i0.1 i0.2.1 e1
      · exact weight_pos hg hM hω (d5 k hk).2.1 (d5 k hk).2.2 i0.2.1 i0.2.2 e1
    unfold BezierSurface.getPointRational at hx
    rw [e1] at hx
    cases hx
    unfold sidePoint BezierCurve.getPointRational
    change (BezierCurve.mk (d.points g)).getPoint (l.getD k 0) = .ok y at e2
    rw [e2]
    exact ClosedFloat.same_real (rational_same e3 hw)
  have s1 : ∀ k, k ≤ n → toReal (q k 0) = sidePoint l (Side.vStart.points g) k := fun k hk => side .vStart k hk _ (by
    have := (hq k 0 hk (by omega)).1
    rw [d3] at this
    exact this)
  have s2 : ∀ k, k ≤ n → toReal (q n k) = sidePoint l (Side.uEnd.points g) k := fun k hk => side .uEnd k hk _ (by
    have := (hq n k le_rfl hk).1
    rw [d4] at this
    exact this)
  have s3 : ∀ k, k ≤ n → toReal (q k n) = sidePoint l (Side.vEnd.points g) k := fun k hk => side .vEnd k hk _ (by
    have := (hq k n hk le_rfl).1
    rw [d4] at this
    exact this)
  have s4 : ∀ k, k ≤ n → toReal (q 0 k) = sidePoint l (Side.uStart.points g) k := fun k hk => side .uStart k hk _ (by
    have := (hq 0 k (by omega) hk).1
    rw [d3] at this
    exact this)
  have tot : ∀ (p : Nat → V3 ℝ) (P : List (V4 Float)), (∀ k, k ≤ n → p k = sidePoint l P k) →
      ∑ k ∈ Finset.range n, φ (p k) (p (k + 1)) = sideChain φ n l P := by
    intro p P h
    unfold sideChain
    apply Finset.sum_congr rfl
    intro k hk
    rw [Finset.mem_range] at hk
    rw [h k (by omega), h (k + 1) (by omega)]
  rw [tot _ _ s1, tot _ _ s2, tot _ _ s3, tot _ _ s4]
  simp only [forthRational, backRational, List.map_cons, List.map_nil, List.sum_cons, List.sum_nil]
  ring

end ClosedRational

open ClosedRational

/-- **C171** The meshes of a set of rational Bézier patches computed in binary64: if the homogeneous sides passed forwards are the sides
passed backwards, and the weights are not too small, then all vertices are finite, the meshes together are watertight, exactly, and the
volume they enclose is the same from every point. -/
theorem C171_watertight {M ω R : ℝ} (hM : M ≤ 2 ^ (1021 : Int)) (hω : (2 : ℝ) ^ (-1000 : Int) ≤ ω) (hR : R ≤ 2 ^ (1000 : Int))
    {gs : List (Grid (V4 Float))} (hg : ∀ g ∈ gs, WeightedNet M ω R g) (hm : (gs.flatMap forthRational).Perm (gs.flatMap backRational))
    {n : Nat} (hn : 1 ≤ n) (hsz : (n + 1) * (n + 1) ≤ 2 ^ 32) :
    ∃ tss, List.Forall₂ (fun g ts => ∃ mesh, (SurfacePatch.mk (BezierSurface.mk g).surfaceRational ((0, 1), (0, 1)) (n, n)).getTriangleMesh = .ok mesh ∧
      corners mesh = some ts) gs tss ∧ (∀ t ∈ tss.flatten, Finite3 t.1 ∧ Finite3 t.2.1 ∧ Finite3 t.2.2) ∧
      Watertight (tss.flatten.map triReal) ∧
      (∀ o o', volumeFrom o (tss.flatten.map triReal) = volumeFrom o' (tss.flatten.map triReal)) := by
  obtain ⟨l, hl, -⟩ := C28_ends ((0 : Float), 1) hn
  have key : ∃ tss, List.Forall₂ (fun g ts => ∃ mesh, (SurfacePatch.mk (BezierSurface.mk g).surfaceRational ((0, 1), (0, 1)) (n, n)).getTriangleMesh = .ok mesh ∧
      corners mesh = some ts) gs tss ∧ (∀ t ∈ tss.flatten, Finite3 t.1 ∧ Finite3 t.2.1 ∧ Finite3 t.2.2) ∧
      ∀ φ : V3 ℝ → V3 ℝ → ℝ, Skew φ → weight φ (sidesOf (tss.flatten.map triReal)) =
        ((gs.flatMap forthRational).map (sideChain φ n l)).sum - ((gs.flatMap backRational).map (sideChain φ n l)).sum := by
    clear hm
    induction gs with
    | nil => exact ⟨[], .nil, by simp, fun φ _ => by simp [sidesOf, weight]⟩
    | cons g gs ih =>
      obtain ⟨tss, k1, kf, k2⟩ := ih fun g' hg' => hg g' (by simp [hg'])
      obtain ⟨mesh, ts, m1, m2, mf, m3⟩ := mesh_weight (hg g (by simp)) hM hω hR hn hsz hl
      refine ⟨ts :: tss, .cons ⟨mesh, m1, m2⟩ k1, fun t ht => ?_, fun φ hφ => ?_⟩
      · rw [List.flatten_cons, List.mem_append] at ht
        exact ht.elim (mf t) (kf t)
      rw [List.flatten_cons, List.map_append, sidesOf, List.flatMap_append, weight_append, List.flatMap_cons, List.flatMap_cons,
        List.map_append, List.map_append, List.sum_append, List.sum_append]
      have a := m3 φ hφ
      have b := k2 φ hφ
      unfold sidesOf at a b
      rw [a, b]
      ring
  obtain ⟨tss, k1, kf, k2⟩ := key
  have hw : Watertight (tss.flatten.map triReal) := watertight_of fun φ hφ => by
    rw [k2 φ hφ, (hm.map _).sum_eq, sub_self]
  exact ⟨tss, k1, kf, hw, (C162_volume hw).1⟩

/-- A discus: two rational patches, above and below, with the unit circle as their common boundary, in four quarters. -/
def Spec.discus : List (Grid (V4 Float)) :=
  [⟨[⟨1, 0, 0, 1⟩, ⟨1, -1, 0, 1⟩, ⟨0, -2, 0, 2⟩, ⟨1, 1, 0, 1⟩, ⟨0, 0, 2, 2⟩, ⟨-2, -2, 0, 2⟩, ⟨0, 2, 0, 2⟩, ⟨-2, 2, 0, 2⟩, ⟨-4, 0, 0, 4⟩], 3, 3⟩,
   ⟨[⟨1, 0, 0, 1⟩, ⟨1, 1, 0, 1⟩, ⟨0, 2, 0, 2⟩, ⟨1, -1, 0, 1⟩, ⟨0, 0, -2, 2⟩, ⟨-2, 2, 0, 2⟩, ⟨0, -2, 0, 2⟩, ⟨-2, -2, 0, 2⟩, ⟨-4, 0, 0, 4⟩], 3, 3⟩]

theorem discus_weighted : ∀ g ∈ discus, WeightedNet 4 1 1 g := by
  have v0 := zero_val
  have v1 := one_val
  have v2 : IsFin (2 : Float) ∧ val (2 : Float) = 2 := by
    obtain ⟨a, b⟩ := ofNat_val (n := 2) (by norm_num)
    exact ⟨a, b.trans (by norm_num)⟩
  have v4 : IsFin (4 : Float) ∧ val (4 : Float) = 4 := by
    obtain ⟨a, b⟩ := ofNat_val (n := 4) (by norm_num)
    exact ⟨a, b.trans (by norm_num)⟩
  have m1 : IsFin (-1 : Float) ∧ val (-1 : Float) = -1 := by
    obtain ⟨a, b⟩ := neg_val v1.1
    exact ⟨a, b.trans (by rw [v1.2])⟩
  have m2 : IsFin (-2 : Float) ∧ val (-2 : Float) = -2 := by
    obtain ⟨a, b⟩ := neg_val v2.1
    exact ⟨a, b.trans (by rw [v2.2])⟩
  have m4 : IsFin (-4 : Float) ∧ val (-4 : Float) = -4 := by
    obtain ⟨a, b⟩ := neg_val v4.1
    exact ⟨a, b.trans (by rw [v4.2])⟩
  have hs : ((3 * 3 : Nat) : ℝ) * 2 ^ (-49 : Int) * 4 + ((3 * 3 : Nat) : ℝ) * 2 ^ (-1073 : Int) ≤ 1 / 2 := by
    have : (2 : ℝ) ^ (-1073 : Int) ≤ 2 ^ (-49 : Int) := two_zpow_le (by norm_num)
    have e' : (2 : ℝ) ^ (-49 : Int) = 1 / 562949953421312 := by norm_num
    rw [e'] at this ⊢
    push_cast
    linarith
  intro g hg
  have hp : ∀ p ∈ g.data, Rational 4 1 1 p := by
    intro p hp
    simp only [discus, List.mem_cons, List.not_mem_nil, or_false] at hg
    rcases hg with rfl | rfl <;> simp only [List.mem_cons, List.not_mem_nil, or_false] at hp <;>
      rcases hp with rfl | rfl | rfl | rfl | rfl | rfl | rfl | rfl | rfl <;>
      refine ⟨⟨⟨?_, ?_⟩, ⟨?_, ?_⟩, ⟨?_, ?_⟩, ?_, ?_⟩, ?_, ?_, ?_, ?_⟩ <;>
      first | exact v0.1 | exact v1.1 | exact v2.1 | exact v4.1 | exact m1.1 | exact m2.1 | exact m4.1
            | norm_num [v0.2, v1.2, v2.2, v4.2, m1.2, m2.2, m4.2]
  simp only [discus, List.mem_cons, List.not_mem_nil, or_false] at hg
  rcases hg with rfl | rfl <;> exact ⟨rfl, by norm_num, by norm_num, by norm_num, hp, hs⟩

/-- **C171**, an example: the meshes of the discus computed in binary64 are finite and watertight, whatever the divisions. -/
theorem C171_example {n : Nat} (hn : 1 ≤ n) (hsz : (n + 1) * (n + 1) ≤ 2 ^ 32) :
    ∃ tss, List.Forall₂ (fun g ts => ∃ mesh, (SurfacePatch.mk (BezierSurface.mk g).surfaceRational ((0, 1), (0, 1)) (n, n)).getTriangleMesh = .ok mesh ∧
      corners mesh = some ts) discus tss ∧ (∀ t ∈ tss.flatten, Finite3 t.1 ∧ Finite3 t.2.1 ∧ Finite3 t.2.2) ∧
      Watertight (tss.flatten.map triReal) := by
  obtain ⟨tss, h1, hf, h2, -⟩ := C171_watertight (M := 4) (ω := 1) (R := 1) (le_trans (by norm_num) (two_zpow_le (show (2 : Int) ≤ 1021 by norm_num)))
    (zpow_le_one_of_nonpos₀ (by norm_num) (by norm_num)) (one_le_zpow₀ (by norm_num) (by norm_num)) discus_weighted (by
    have e1 : discus.flatMap forthRational = [[⟨1, 0, 0, 1⟩, ⟨1, 1, 0, 1⟩, ⟨0, 2, 0, 2⟩], [⟨0, 2, 0, 2⟩, ⟨-2, 2, 0, 2⟩, ⟨-4, 0, 0, 4⟩],
        [⟨1, 0, 0, 1⟩, ⟨1, -1, 0, 1⟩, ⟨0, -2, 0, 2⟩], [⟨0, -2, 0, 2⟩, ⟨-2, -2, 0, 2⟩, ⟨-4, 0, 0, 4⟩]] := rfl
    have e2 : discus.flatMap backRational = [[⟨0, -2, 0, 2⟩, ⟨-2, -2, 0, 2⟩, ⟨-4, 0, 0, 4⟩], [⟨1, 0, 0, 1⟩, ⟨1, -1, 0, 1⟩, ⟨0, -2, 0, 2⟩],
        [⟨0, 2, 0, 2⟩, ⟨-2, 2, 0, 2⟩, ⟨-4, 0, 0, 4⟩], [⟨1, 0, 0, 1⟩, ⟨1, 1, 0, 1⟩, ⟨0, 2, 0, 2⟩]] := rfl
    rw [e1, e2]
    generalize ([⟨1, 0, 0, 1⟩, ⟨1, 1, 0, 1⟩, ⟨0, 2, 0, 2⟩] : List (V4 Float)) = A
    generalize ([⟨0, 2, 0, 2⟩, ⟨-2, 2, 0, 2⟩, ⟨-4, 0, 0, 4⟩] : List (V4 Float)) = B
    generalize ([⟨1, 0, 0, 1⟩, ⟨1, -1, 0, 1⟩, ⟨0, -2, 0, 2⟩] : List (V4 Float)) = C
    generalize ([⟨0, -2, 0, 2⟩, ⟨-2, -2, 0, 2⟩, ⟨-4, 0, 0, 4⟩] : List (V4 Float)) = D
    exact (List.reverse_perm [A, B, C, D]).symm) hn hsz
  exact ⟨tss, h1, hf, h2⟩

/-- The first coordinates of the vertices of the mesh of a rational patch with 3 by 1 divisions, as bits. -/
def Spec.thirdsRational (g : Grid (V4 Float)) : Option (List UInt64) :=
  (SurfacePatch.mk (BezierSurface.mk g).surfaceRational ((0, 1), (0, 1)) (3, 1)).getTriangleMesh.toOption.map fun mesh => mesh.vertices.map (·.x.toBits)

/-- **C171** The two patches share a quarter of the unit circle, in the same direction, but the weights of the second are seven times those
of the first: the same points exactly, but in binary64 the second third is another point, so there is a crack. -/
theorem C171_scaled :
    thirdsRational ⟨[⟨1, 0, 0, 1⟩, ⟨1, 0, 1, 1⟩, ⟨1, 1, 0, 1⟩, ⟨1, 1, 1, 1⟩, ⟨0, 2, 0, 2⟩, ⟨0, 2, 2, 2⟩], 3, 2⟩ = some
      [4607182418800017408, 4607182418800017408, 4605380978949069210, 4605380978949069210, 4600600234729245145, 4600600234729245145, 0, 0] ∧
    thirdsRational ⟨[⟨7, 0, 0, 7⟩, ⟨7, 0, 7, 7⟩, ⟨7, 7, 0, 7⟩, ⟨7, 7, 7, 7⟩, ⟨0, 14, 0, 14⟩, ⟨0, 14, 14, 14⟩], 3, 2⟩ = some
      [4607182418800017408, 4607182418800017408, 4605380978949069210, 4605380978949069210, 4600600234729245146, 4600600234729245146, 0, 0] := by
  constructor <;> decide +kernel

end Geom3d
