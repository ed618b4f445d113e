import Verif.Props.FloatMeasure

/-!
# Watertight meshes in binary64 (C169)

Sets of Bézier patches whose sides match along the same parameter give watertight meshes in binary64, whatever the rounding: both sides
compute the same vertices.  Where a side runs against its partner, or collapses to a point, the vertices may differ.
-/

set_option linter.unusedSectionVars false

namespace Geom3d
open Spec F64 Closing

/-- The sides of a patch that the way around its parameters passes forwards. -/
def Spec.forth (g : Grid (V3 Float)) : List (List (V3 Float)) := [Side.vStart.points g, Side.uEnd.points g]

/-- The sides of a patch that the way around its parameters passes backwards. -/
def Spec.back (g : Grid (V3 Float)) : List (List (V3 Float)) := [Side.vEnd.points g, Side.uStart.points g]

namespace ClosedFloat

/-- The point of a side, as a real point. -/
noncomputable def sidePoint (l : List Float) (P : List (V3 Float)) (k : Nat) : V3 ℝ :=
  match (BezierCurve.mk P).getPoint (l.getD k 0) with
  | .ok x => toReal x
  | .error _ => 0

/-- The weight of the polygon through the computed points of a side. -/
noncomputable def sideChain (φ : V3 ℝ → V3 ℝ → ℝ) (n : Nat) (l : List Float) (P : List (V3 Float)) : ℝ :=
  ∑ k ∈ Finset.range n, φ (sidePoint l P k) (sidePoint l P (k + 1))

theorem same_real {x y : V3 Float} (h : SamePt x y) : toReal x = toReal y := by
  obtain ⟨h1, h2, h3⟩ := h
  simp only [toReal, h1.val_eq, h2.val_eq, h3.val_eq]

theorem getPoint_total {s : BezierSurface (V3 Float)} (hs : FiniteNet s.controlPoints) (u v : Float) : ∃ x, s.getPoint u v = .ok x := by
  unfold BezierSurface.getPoint
  rw [bernstein_tri _ hs.rows.1, bernstein_tri _ hs.cols.1]
  exact ⟨_, netSum_flat hs.ok le_rfl le_rfl _ _⟩

theorem unit_divide {n : Nat} (hn : 1 ≤ n) (hn2 : n ≤ 2 ^ 24) :
    ∃ l : List Float, uniformDivide ((0 : Float), 1) n = .ok l ∧ l.length = n + 1 ∧ l.getD 0 0 = 0 ∧ l.getD n 0 = 1 ∧
      ∀ k, k ≤ n → l[k]? = some (l.getD k 0) ∧ 0 ≤ l.getD k 0 ∧ l.getD k 0 ≤ 1 := by
  obtain ⟨l, h1, h2, h3, h4, -⟩ := C95_uniform (lo := 0) (hi := 1) (M := 1) zero_val.1 one_val.1
    (by rw [zero_val.2]; norm_num) (by rw [one_val.2]; norm_num) (one_le_zpow₀ (by norm_num) (by norm_num)) hn (by omega)
  refine ⟨l, h1, h2, by rw [List.getD, h3]; rfl, by rw [List.getD, h4]; rfl, fun k hk => ?_⟩
  obtain ⟨t, k1, k2, k3⟩ := uniform_unit h1 hn2 hk
  have e : l.getD k 0 = t := by rw [List.getD, k1]; rfl
  rw [e]
  exact ⟨k1, k2, k3⟩

/-- The mesh of a patch, and its boundary. -/
theorem mesh_weight {g : Grid (V3 Float)} (hg : FiniteNet g) {n : Nat} (hn : 1 ≤ n) (hsz : (n + 1) * (n + 1) ≤ 2 ^ 32) {l : List Float}
    (hl : uniformDivide ((0 : Float), 1) n = .ok l) :
    ∃ mesh ts, (SurfacePatch.mk (BezierSurface.mk g).surface ((0, 1), (0, 1)) (n, n)).getTriangleMesh = .ok mesh ∧ corners mesh = some ts ∧
      ∀ φ : V3 ℝ → V3 ℝ → ℝ, Skew φ → weight φ (sidesOf (ts.map triReal)) =
        ((forth g).map (sideChain φ n l)).sum - ((back g).map (sideChain φ n l)).sum := by
  have hn2 : n ≤ 2 ^ 16 := by
    by_contra hc
    have := Nat.mul_le_mul (show 2 ^ 16 + 1 ≤ n + 1 by omega) (show 2 ^ 16 + 1 ≤ n + 1 by omega)
    omega
  obtain ⟨l', d1, d2, d3, d4, d5⟩ := unit_divide hn (hn2.trans (by norm_num))
  rw [hl] at d1
  cases d1
  have pt : ∀ i j, ∃ x, (BezierSurface.mk g).getPoint (l.getD i 0) (l.getD j 0) = .ok x := fun i j => getPoint_total (s := ⟨g⟩) hg _ _
  choose q hq using pt
  obtain ⟨mesh, h1, -, -, h2, -⟩ := patch_mesh (p := SurfacePatch.mk (BezierSurface.mk g).surface ((0, 1), (0, 1)) (n, n)) rfl hn hn hsz
    (q := q) (by
      refine ⟨?_, fun us vs _ _ => ⟨[], rfl, Or.inl rfl⟩⟩
      intro us' vs' k1 k2 i j u v hu hv
      simp only [] at k1 k2
      rw [hl] at k1 k2
      cases k1
      cases k2
      have w1 := (d5 i (by have := (List.getElem?_eq_some_iff.1 hu).1; omega)).1
      have w2 := (d5 j (by have := (List.getElem?_eq_some_iff.1 hv).1; omega)).1
      rw [hu, Option.some.injEq] at w1
      rw [hv, Option.some.injEq] at w2
      rw [w1, w2]
      exact hq i j)
  refine ⟨mesh, _, h1, h2, fun φ hφ => ?_⟩
  have et : (gridTriangles q n n).map triReal = gridTriangles (fun i j => toReal (q i j)) n n := by
    simp [gridTriangles, List.map_flatMap, triReal]
  rw [et, grid_weight hφ]
  have side : ∀ (d : Side) (k : Nat), k ≤ n → ∀ x, (BezierSurface.mk g).getPoint (d.at (l.getD k 0)).1 (d.at (l.getD k 0)).2 = .ok x →
      toReal x = sidePoint l (d.points g) k := by
    intro d k hk x hx
    obtain ⟨x', y, e1, e2, e3⟩ := C114_side (s := ⟨g⟩) hg d (d5 k hk).2.1 (d5 k hk).2.2
    rw [hx] at e1
    cases e1
    unfold sidePoint
    change (BezierCurve.mk (d.points g)).getPoint (l.getD k 0) = .ok y at e2
    rw [e2]
    exact same_real e3
  have s1 : ∀ k, k ≤ n → toReal (q k 0) = sidePoint l (Side.vStart.points g) k := fun k hk => side .vStart k hk _ (by
    have := hq k 0
    rw [d3] at this
    exact this)
  have s2 : ∀ k, k ≤ n → toReal (q n k) = sidePoint l (Side.uEnd.points g) k := fun k hk => side .uEnd k hk _ (by
    have := hq n k
    rw [d4] at this
    exact this)
  have s3 : ∀ k, k ≤ n → toReal (q k n) = sidePoint l (Side.vEnd.points g) k := fun k hk => side .vEnd k hk _ (by
    have := hq k n
    rw [d4] at this
    exact this)
  have s4 : ∀ k, k ≤ n → toReal (q 0 k) = sidePoint l (Side.uStart.points g) k := fun k hk => side .uStart k hk _ (by
    have := hq 0 k
    rw [d3] at this
    exact this)
  have tot : ∀ (p : Nat → V3 ℝ) (P : List (V3 Float)), (∀ k, k ≤ n → p k = sidePoint l P k) →
      ∑ k ∈ Finset.range n, φ (p k) (p (k + 1)) = sideChain φ n l P := by
    intro p P h
    unfold sideChain
    apply Finset.sum_congr rfl
    intro k hk
    rw [Finset.mem_range] at hk
    rw [h k (by omega), h (k + 1) (by omega)]
  rw [tot _ _ s1, tot _ _ s2, tot _ _ s3, tot _ _ s4]
  simp only [forth, back, List.map_cons, List.map_nil, List.sum_cons, List.sum_nil]
  ring

end ClosedFloat

open ClosedFloat

/-- **C169** The meshes of a set of Bézier patches computed in binary64: if the sides passed forwards are the sides passed backwards, then
together they are watertight, exactly, and the volume they enclose is the same from every point. -/
theorem C169_watertight {gs : List (Grid (V3 Float))} (hg : ∀ g ∈ gs, FiniteNet g) (hm : (gs.flatMap forth).Perm (gs.flatMap back))
    {n : Nat} (hn : 1 ≤ n) (hsz : (n + 1) * (n + 1) ≤ 2 ^ 32) :
    ∃ tss, List.Forall₂ (fun g ts => ∃ mesh, (SurfacePatch.mk (BezierSurface.mk g).surface ((0, 1), (0, 1)) (n, n)).getTriangleMesh = .ok mesh ∧
      corners mesh = some ts) gs tss ∧ Watertight (tss.flatten.map triReal) ∧
      (∀ o o', volumeFrom o (tss.flatten.map triReal) = volumeFrom o' (tss.flatten.map triReal)) := by
  obtain ⟨l, hl, -⟩ := C28_ends ((0 : Float), 1) hn
  have key : ∃ tss, List.Forall₂ (fun g ts => ∃ mesh, (SurfacePatch.mk (BezierSurface.mk g).surface ((0, 1), (0, 1)) (n, n)).getTriangleMesh = .ok mesh ∧
      corners mesh = some ts) gs tss ∧ ∀ φ : V3 ℝ → V3 ℝ → ℝ, Skew φ → weight φ (sidesOf (tss.flatten.map triReal)) =
        ((gs.flatMap forth).map (sideChain φ n l)).sum - ((gs.flatMap back).map (sideChain φ n l)).sum := by
    clear hm
    induction gs with
    | nil => exact ⟨[], .nil, fun φ _ => by simp [sidesOf, weight]⟩
    | cons g gs ih =>
      obtain ⟨tss, k1, k2⟩ := ih fun g' hg' => hg g' (by simp [hg'])
      obtain ⟨mesh, ts, m1, m2, m3⟩ := mesh_weight (hg g (by simp)) hn hsz hl
      refine ⟨ts :: tss, .cons ⟨mesh, m1, m2⟩ k1, fun φ hφ => ?_⟩
      rw [List.flatten_cons, List.map_append, sidesOf, List.flatMap_append, weight_append, List.flatMap_cons, List.flatMap_cons,
        List.map_append, List.map_append, List.sum_append, List.sum_append]
      have a := m3 φ hφ
      have b := k2 φ hφ
      unfold sidesOf at a b
      rw [a, b]
      ring
  obtain ⟨tss, k1, k2⟩ := key
  have hw : Watertight (tss.flatten.map triReal) := watertight_of fun φ hφ => by
    rw [k2 φ hφ, (hm.map _).sum_eq, sub_self]
  exact ⟨tss, k1, hw, (C162_volume hw).1⟩

/-- **C169**, an example: the meshes of the cushion computed in binary64 are watertight, whatever the divisions. -/
theorem C169_example {n : Nat} (hn : 1 ≤ n) (hsz : (n + 1) * (n + 1) ≤ 2 ^ 32) :
    ∃ tss, List.Forall₂ (fun g ts => ∃ mesh, (SurfacePatch.mk (BezierSurface.mk g).surface ((0, 1), (0, 1)) (n, n)).getTriangleMesh = .ok mesh ∧
      corners mesh = some ts) cushionF tss ∧ Watertight (tss.flatten.map triReal) := by
  obtain ⟨tss, h1, h2, -⟩ := C169_watertight (gs := cushionF) (fun g hg => by
    refine ⟨?_, ?_, ?_, fun p hp => ?_⟩
    · simp only [cushionF, List.mem_cons, List.not_mem_nil, or_false] at hg
      rcases hg with rfl | rfl <;> rfl
    · simp only [cushionF, List.mem_cons, List.not_mem_nil, or_false] at hg
      rcases hg with rfl | rfl <;> norm_num
    · simp only [cushionF, List.mem_cons, List.not_mem_nil, or_false] at hg
      rcases hg with rfl | rfl <;> norm_num
    · obtain ⟨⟨a, -⟩, ⟨b, -⟩, c, -⟩ := cushionF_real.2 g hg p hp
      exact ⟨a, b, c⟩) (by
    have e1 : cushionF.flatMap forth = [[⟨0, 0, 0⟩, ⟨1, 0, 0⟩, ⟨2, 0, 0⟩], [⟨2, 0, 0⟩, ⟨2, 1, 0⟩, ⟨2, 2, 0⟩], [⟨0, 0, 0⟩, ⟨0, 1, 0⟩, ⟨0, 2, 0⟩],
        [⟨0, 2, 0⟩, ⟨1, 2, 0⟩, ⟨2, 2, 0⟩]] := rfl
    have e2 : cushionF.flatMap back = [[⟨0, 2, 0⟩, ⟨1, 2, 0⟩, ⟨2, 2, 0⟩], [⟨0, 0, 0⟩, ⟨0, 1, 0⟩, ⟨0, 2, 0⟩], [⟨2, 0, 0⟩, ⟨2, 1, 0⟩, ⟨2, 2, 0⟩],
        [⟨0, 0, 0⟩, ⟨1, 0, 0⟩, ⟨2, 0, 0⟩]] := rfl
    rw [e1, e2]
    generalize ([⟨0, 0, 0⟩, ⟨1, 0, 0⟩, ⟨2, 0, 0⟩] : List (V3 Float)) = A
    generalize ([⟨2, 0, 0⟩, ⟨2, 1, 0⟩, ⟨2, 2, 0⟩] : List (V3 Float)) = B
    generalize ([⟨0, 0, 0⟩, ⟨0, 1, 0⟩, ⟨0, 2, 0⟩] : List (V3 Float)) = C
    generalize ([⟨0, 2, 0⟩, ⟨1, 2, 0⟩, ⟨2, 2, 0⟩] : List (V3 Float)) = D
    exact (List.reverse_perm [A, B, C, D]).symm) hn hsz
  exact ⟨tss, h1, h2⟩

/-- The first coordinates of the vertices of the mesh of a patch with 3 by 1 divisions, as bits. -/
def Spec.thirds (g : Grid (V3 Float)) : Option (List UInt64) :=
  (SurfacePatch.mk (BezierSurface.mk g).surface ((0, 1), (0, 1)) (3, 1)).getTriangleMesh.toOption.map fun mesh => mesh.vertices.map (·.x.toBits)

/-- **C169** The two patches share the side from `(0, 0, 0)` to `(2, 0, 0)`, in opposite directions: in binary64 one mesh passes its second
third at another point than the other, so there is a crack. -/
theorem C169_crack :
    thirds ⟨[⟨0, 0, 0⟩, ⟨0, 1, 0⟩, ⟨1, 0, 0⟩, ⟨1, 1, 0⟩, ⟨2, 0, 0⟩, ⟨2, 1, 0⟩], 3, 2⟩ = some
      [0, 0, 4604180019048437078, 4604180019048437078, 4608683618675807573, 4608683618675807573, 4611686018427387904, 4611686018427387904] ∧
    thirds ⟨[⟨2, 0, 0⟩, ⟨2, -1, 0⟩, ⟨1, 0, 0⟩, ⟨1, -1, 0⟩, ⟨0, 0, 0⟩, ⟨0, -1, 0⟩], 3, 2⟩ = some
      [4611686018427387904, 4611686018427387904, 4608683618675807574, 4608683618675807574, 4604180019048437078, 4604180019048437078, 0, 0] := by
  constructor <;> decide +kernel

/-- **C169** A side with all three control points at `(1, 0, 0)`: in binary64 the vertices along it are not all the same. -/
theorem C169_pole :
    thirds ⟨[⟨1, 0, 0⟩, ⟨0, 1, 0⟩, ⟨1, 0, 0⟩, ⟨0, 1, 1⟩, ⟨1, 0, 0⟩, ⟨0, 1, 2⟩], 3, 2⟩ = some
      [4607182418800017408, 0, 4607182418800017409, 0, 4607182418800017408, 0, 4607182418800017408, 0] := by
  decide +kernel

end Geom3d
