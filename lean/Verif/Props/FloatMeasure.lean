import Verif.Props.PatchSolids
import Verif.Props.FloatPatch

/-!
# Area and volume of meshes of Bézier patches computed in binary64 (C167)

The vertices of a mesh computed in binary64 are off by the rounding of the divisions and of the points.  The area of the mesh and the
volume over it are off by about as much times the length of all its edges; so this part of the bounds grows with the divisions.
-/

set_option linter.unusedSectionVars false

namespace Geom3d
open Spec F64 Deviation

namespace Nudge
open Area Volume

theorem sum_near {X X' : Nat → Nat → ℝ} {a b : Nat} {K : ℝ} (h : ∀ i j, i < a → j < b → |X' i j - X i j| ≤ K) :
    |(∑ i ∈ Finset.range a, ∑ j ∈ Finset.range b, X' i j) - ∑ i ∈ Finset.range a, ∑ j ∈ Finset.range b, X i j| ≤ a * b * K := by
  rw [← Finset.sum_sub_distrib]
  refine (Finset.abs_sum_le_sum_abs _ _).trans ?_
  have row : ∀ i ∈ Finset.range a, |(∑ j ∈ Finset.range b, X' i j) - ∑ j ∈ Finset.range b, X i j| ≤ b * K := by
    intro i hi
    rw [← Finset.sum_sub_distrib]
    refine (Finset.abs_sum_le_sum_abs _ _).trans ?_
    refine (Finset.sum_le_card_nsmul _ _ K fun j hj => h i j (Finset.mem_range.1 hi) (Finset.mem_range.1 hj)).trans (le_of_eq ?_)
    rw [Finset.card_range, nsmul_eq_mul]
  refine (Finset.sum_le_card_nsmul _ _ _ row).trans (le_of_eq ?_)
  rw [Finset.card_range, nsmul_eq_mul]
  ring

/-- The vertices of a grid are moved by at most `δ`; its cells have sides of at most `g` and `h`. -/
structure Moved (q q' : Nat → Nat → V3 ℝ) (a b : Nat) (δ g h : ℝ) : Prop where
  vertex : ∀ i j, i ≤ a → j ≤ b → (q' i j - q i j).length ≤ δ
  first : ∀ i j, i < a → j ≤ b → (q (i + 1) j - q i j).length ≤ g
  second : ∀ i j, i ≤ a → j < b → (q i (j + 1) - q i j).length ≤ h

variable {q q' : Nat → Nat → V3 ℝ} {a b : Nat} {δ g h : ℝ}

theorem side_near {x y x' y' : V3 ℝ} (h1 : (x' - x).length ≤ δ) (h2 : (y' - y).length ≤ δ) : ((x' - y') - (x - y)).length ≤ 2 * δ := by
  have e : (x' - y') - (x - y) = (x' - x) + -(y' - y) := by module
  rw [e]
  refine (V3.length_add_le _ _).trans ?_
  rw [V3.length_neg]
  linarith

theorem grown {x y x' y' : V3 ℝ} (h1 : (x' - x).length ≤ δ) (h2 : (y' - y).length ≤ δ) (h3 : (x - y).length ≤ g) :
    (x' - y').length ≤ g + 2 * δ := by
  have e : x' - y' = (x - y) + ((x' - y') - (x - y)) := by module
  rw [e]
  exact (V3.length_add_le _ _).trans (add_le_add h3 (side_near h1 h2))

theorem area_moved (hm : Moved q q' a b δ g h) :
    |totalArea (gridTriangles q' a b) - totalArea (gridTriangles q a b)| ≤ a * b * (2 * δ * (g + h + 2 * δ)) := by
  rw [totalArea_grid, totalArea_grid]
  refine sum_near fun i j hi hj => ?_
  have v00 := hm.vertex i j hi.le hj.le
  have v10 := hm.vertex (i + 1) j hi hj.le
  have v01 := hm.vertex i (j + 1) hi.le hj
  have v11 := hm.vertex (i + 1) (j + 1) hi hj
  have c1 := cross_near (side_near v10 v00) (side_near v01 v00) (grown v01 v00 (hm.second i j hi.le hj)) (hm.first i j hi hj.le)
  have c2 := cross_near (side_near v11 v01) (side_near v11 v10) (grown v11 v10 (hm.second (i + 1) j hi hj)) (hm.first i (j + 1) hi hj)
  rw [abs_le] at c1 c2 ⊢
  constructor <;> linarith [c1.1, c1.2, c2.1, c2.2]

theorem volume_moved (hm : Moved q q' a b δ g h) {o : V3 ℝ} {R : ℝ} (hR : ∀ i j, i ≤ a → j ≤ b → (q i j - o).length ≤ R)
    (hg : 0 ≤ g) (hd : 0 ≤ δ) :
    |volumeFrom o (gridTriangles q' a b) - volumeFrom o (gridTriangles q a b)| ≤
      a * b * ((R * (2 * δ * (g + h + 2 * δ)) + δ * ((g + 2 * δ) * (h + 2 * δ))) / 3) := by
  rw [volumeFrom_grid, volumeFrom_grid]
  refine sum_near fun i j hi hj => ?_
  have v00 := hm.vertex i j hi.le hj.le
  have v10 := hm.vertex (i + 1) j hi hj.le
  have v01 := hm.vertex i (j + 1) hi.le hj
  have v11 := hm.vertex (i + 1) (j + 1) hi hj
  have b1 := grown v10 v00 (hm.first i j hi hj.le)
  have b2 := grown v01 v00 (hm.second i j hi.le hj)
  have b3 := grown v11 v01 (hm.first i (j + 1) hi hj)
  have b4 := grown v11 v10 (hm.second (i + 1) j hi hj)
  have c1 := cross_near_vec (side_near v10 v00) (side_near v01 v00) b2 (hm.first i j hi hj.le)
  have c2 := cross_near_vec (side_near v11 v01) (side_near v11 v10) b4 (hm.first i (j + 1) hi hj)
  have l1 := (cross_le (q' (i + 1) j - q' i j) (q' i (j + 1) - q' i j)).trans
    (mul_le_mul b1 b2 (V3.length_nonneg _) (by linarith))
  have l2 := (cross_le (q' (i + 1) (j + 1) - q' i (j + 1)) (q' (i + 1) (j + 1) - q' (i + 1) j)).trans
    (mul_le_mul b3 b4 (V3.length_nonneg _) (by linarith))
  have flip : ∀ x y : V3 ℝ, (x - y).length = (y - x).length := fun x y => by
    rw [← V3.length_neg, neg_sub]
  have e1 : ∀ x x' : V3 ℝ, (x' - x).length ≤ δ → ((x - o) - (x' - o)).length ≤ δ := fun x x' hx => by
    rw [sub_sub_sub_cancel_right, flip]
    exact hx
  rw [flip] at c1 c2
  have d1 := dot_near (e1 _ _ v00) c1 (hR i j hi.le hj.le) l1
  have d2 := dot_near (e1 _ _ v01) c2 (hR i (j + 1) hi.le hj) l2
  have r1 : 2 * δ * (h + 2 * δ) + g * (2 * δ) = 2 * δ * (g + h + 2 * δ) := by ring
  rw [r1] at d1 d2
  rw [abs_le] at d1 d2 ⊢
  constructor <;> linarith [d1.1, d1.2, d2.1, d2.2]

/-- The divisions of the unit interval computed in binary64 are near the exact ones. -/
theorem unit_at {d : Nat} (hd1 : 1 ≤ d) (hd : d ≤ 2 ^ 20) {l : List Float} (hl : uniformDivide ((0 : Float), 1) d = .ok l) {i : Nat}
    (hi : i ≤ d) : |val (l.getD i 0) - i * (1 / d)| ≤ d * 2 ^ (-49 : Int) := by
  obtain ⟨l', h1, h2, h3, h4, h5⟩ := C95_uniform (lo := 0) (hi := 1) (M := 1) zero_val.1 one_val.1
    (by rw [zero_val.2]; norm_num) (by rw [one_val.2]; norm_num) (one_le_zpow₀ (by norm_num) (by norm_num)) hd1 (by omega)
  rw [hl] at h1
  cases h1
  rw [zero_val.2, one_val.2] at h5
  have e49 : (2 : ℝ) ^ (-50 : Int) * 1 + 2 ^ (-1074 : Int) ≤ 2 ^ (-49 : Int) := by
    have : (2 : ℝ) ^ (-1074 : Int) ≤ 2 ^ (-50 : Int) := two_zpow_le (by norm_num)
    have e : (2 : ℝ) ^ (-49 : Int) = 2 * 2 ^ (-50 : Int) := by rw [two_mul_zpow]; norm_num
    linarith
  obtain ⟨x, k1, k2, k3⟩ := h5 i hi
  have e : l.getD i 0 = x := by rw [List.getD, k1]; rfl
  rw [e]
  rw [sub_zero, zero_add] at k3
  have hid : (i : ℝ) ≤ d := by exact_mod_cast hi
  exact k3.trans (mul_le_mul hid e49 (by positivity) (by positivity))

end Nudge

open Nudge

/-- How far the vertices of the mesh of a patch computed in binary64 are off: `L` bounds the tangents, `N` is the number of control points,
`M` bounds their coordinates. -/
noncomputable def Spec.vertexError (L M : ℝ) (N a b : Nat) : ℝ :=
  L * ((a + b) * 2 ^ (-49 : Int)) + N * (2 ^ (-48 : Int) * M + 2 ^ (-1072 : Int))

/-- **C167** The vertices of the mesh of a Bézier patch over the unit square, all in binary64: finite, and near the points of the exact
patch at the exact divisions. -/
theorem C167_vertices {g : Grid (V3 Float)} {k : Nat} {Q : ℝ} {o : V3 ℝ} (hs : SmallNet (mapNet toReal g) k Q o) (hg : NetOk g)
    (hrc : g.rows * g.cols ≤ 2 ^ 40) {M : ℝ} (hM : M ≤ 2 ^ (1022 : Int)) (hb : ∀ p ∈ g.data, Bounded M p)
    {a b : Nat} (ha : 1 ≤ a) (hb1 : 1 ≤ b) (ha2 : a ≤ 2 ^ 20) (hb2 : b ≤ 2 ^ 20) (hsz : (a + 1) * (b + 1) ≤ 2 ^ 32) :
    ∃ mesh q, (SurfacePatch.mk (BezierSurface.mk g).surface ((0, 1), (0, 1)) (a, b)).getTriangleMesh = .ok mesh ∧
      corners mesh = some (gridTriangles q a b) ∧ ∀ i j, i ≤ a → j ≤ b → (IsFin (q i j).x ∧ IsFin (q i j).y ∧ IsFin (q i j).z) ∧
        (toReal (q i j) - patchPoint (g.rows - 1) (g.cols - 1) (entry (mapNet toReal g)) (0 + i * ((1 - 0) / a)) (0 + j * ((1 - 0) / b))).length
          ≤ vertexError (2 * (k * Q)) M (g.rows * g.cols) a b := by
  have hr : 1 ≤ g.rows := hs.rows.1
  have hc : 1 ≤ g.cols := hs.cols.1
  have hT := Solid.tangents hs
  set S := patchPoint (g.rows - 1) (g.cols - 1) (entry (mapNet toReal g)) with hS
  have hSp : ∀ u v : ℝ, (BezierSurface.mk (mapNet toReal g)).getPoint u v = .ok (S u v) := surface_patchPoint (s := ⟨mapNet toReal g⟩) hs.ok hr hc
  obtain ⟨us, e1, l1, f1, z1, o1, s1⟩ := unit_steps ha ha2
  obtain ⟨vs, e2, l2, f2, z2, o2, s2⟩ := unit_steps hb1 hb2
  set δ : ℝ := (g.rows * g.cols : Nat) * 2 ^ (-49 : Int) * M + (g.rows * g.cols : Nat) * 2 ^ (-1073 : Int) with hδ
  have pt : ∀ i j, ∃ x, i ≤ a → j ≤ b → (BezierSurface.mk g).getPoint (us.getD i 0) (vs.getD j 0) = .ok x ∧
      Near δ x (S (val (us.getD i 0)) (val (vs.getD j 0))) := by
    intro i j
    by_cases hij : i ≤ a ∧ j ≤ b
    · obtain ⟨fu, -⟩ := f1 i hij.1
      obtain ⟨fv, -⟩ := f2 j hij.2
      obtain ⟨x, q, h1, h2, h3⟩ := C106_bezier ⟨g⟩ hg hr hc hrc (us.getD i 0) (vs.getD j 0)
        ((le_iff zero_val.1 fu).2 (by rw [zero_val.2]; exact s1.low i hij.1))
        ((le_iff fu one_val.1).2 (by rw [one_val.2]; exact s1.high i hij.1))
        ((le_iff zero_val.1 fv).2 (by rw [zero_val.2]; exact s2.low j hij.2))
        ((le_iff fv one_val.1).2 (by rw [one_val.2]; exact s2.high j hij.2)) M hM hb
      rw [hSp] at h2
      cases h2
      exact ⟨x, fun _ _ => ⟨h1, h3⟩⟩
    · exact ⟨0, fun h1 h2 => absurd ⟨h1, h2⟩ hij⟩
  choose q hq using pt
  obtain ⟨mesh, h1, -, -, h2, -⟩ := patch_mesh (p := SurfacePatch.mk (BezierSurface.mk g).surface ((0, 1), (0, 1)) (a, b)) rfl ha hb1 hsz
    (q := q) (by
      refine ⟨?_, fun us vs _ _ => ⟨[], rfl, Or.inl rfl⟩⟩
      intro us' vs' k1 k2 i j u v hu hv
      simp only [] at k1 k2
      rw [e1] at k1; cases k1
      rw [e2] at k2; cases k2
      have hi : i ≤ a := by have := (List.getElem?_eq_some_iff.1 hu).1; omega
      have hj : j ≤ b := by have := (List.getElem?_eq_some_iff.1 hv).1; omega
      have w1 := (f1 i hi).2
      have w2 := (f2 j hj).2
      rw [hu, Option.some.injEq] at w1
      rw [hv, Option.some.injEq] at w2
      rw [w1, w2]
      exact (hq i j hi hj).1)
  refine ⟨mesh, q, h1, h2, fun i j hi hj => ?_⟩
  obtain ⟨⟨n1, x1⟩, ⟨n2, x2⟩, n3, x3⟩ := (hq i j hi hj).2
  refine ⟨⟨n1, n2, n3⟩, ?_⟩
  have r1 : (toReal (q i j) - S (val (us.getD i 0)) (val (vs.getD j 0))).length ≤ 2 * δ := length_le_of_within x1 x2 x3
  have ed : 2 * δ = (g.rows * g.cols : Nat) * (2 ^ (-48 : Int) * M + 2 ^ (-1072 : Int)) := by
    have e48 : (2 : ℝ) ^ (-48 : Int) = 2 * 2 ^ (-49 : Int) := by rw [two_mul_zpow]; norm_num
    have e72 : (2 : ℝ) ^ (-1072 : Int) = 2 * 2 ^ (-1073 : Int) := by rw [two_mul_zpow]; norm_num
    rw [hδ, e48, e72]; ring
  have inU : ∀ (i d : ℕ), 1 ≤ d → i ≤ d → (0 + (i : ℝ) * ((1 - 0) / d)) ∈ Set.Icc (0 : ℝ) 1 := by
    intro i d hd hi
    have hd0 : (0 : ℝ) < d := by exact_mod_cast hd
    have hid : (i : ℝ) ≤ d := by exact_mod_cast hi
    rw [sub_zero, zero_add, mul_one_div]
    exact ⟨by positivity, (div_le_one hd0).2 hid⟩
  have r2 := Volume.point_lip hT (u := val (us.getD i 0)) (v := val (vs.getD j 0)) ⟨s1.low i hi, s1.high i hi⟩ ⟨s2.low j hj, s2.high j hj⟩
    (inU i a ha hi) (inU j b hb1 hj)
  have r3 : |val (us.getD i 0) - (0 + (i : ℝ) * ((1 - 0) / a))| + |val (vs.getD j 0) - (0 + (j : ℝ) * ((1 - 0) / b))| ≤
      (a + b) * 2 ^ (-49 : Int) := by
    rw [sub_zero, zero_add, zero_add, add_mul]
    exact add_le_add (unit_at ha ha2 e1 hi) (unit_at hb1 hb2 e2 hj)
  have hQ := Solid.SmallNet.nonneg hs
  have r4 := r2.trans (mul_le_mul_of_nonneg_left r3 (by positivity))
  have e := sub_add_sub_cancel (toReal (q i j)) (S (val (us.getD i 0)) (val (vs.getD j 0))) (S (0 + (i : ℝ) * ((1 - 0) / a)) (0 + (j : ℝ) * ((1 - 0) / b)))
  rw [← e]
  refine (V3.length_add_le _ _).trans ?_
  unfold vertexError
  rw [← ed]
  exact (add_le_add r1 r4).trans (le_of_eq (add_comm _ _))

/-- **C167** The area of the mesh of a Bézier patch computed in binary64, and the volume over it. -/
theorem C167_mesh {g : Grid (V3 Float)} {k : Nat} {Q : ℝ} {o : V3 ℝ} (hs : SmallNet (mapNet toReal g) k Q o) (hg : NetOk g)
    (hrc : g.rows * g.cols ≤ 2 ^ 40) {M : ℝ} (hM : M ≤ 2 ^ (1022 : Int)) (hb : ∀ p ∈ g.data, Bounded M p)
    {a b : Nat} (ha : 1 ≤ a) (hb1 : 1 ≤ b) (ha2 : a ≤ 2 ^ 20) (hb2 : b ≤ 2 ^ 20) (hsz : (a + 1) * (b + 1) ≤ 2 ^ 32)
    {δ : ℝ} (hδ : vertexError (2 * (k * Q)) M (g.rows * g.cols) a b ≤ δ) :
    ∃ mesh ts, (SurfacePatch.mk (BezierSurface.mk g).surface ((0, 1), (0, 1)) (a, b)).getTriangleMesh = .ok mesh ∧ corners mesh = some ts ∧
      |totalArea (ts.map triReal) - surfaceArea (patchU (g.rows - 1) (g.cols - 1) (entry (mapNet toReal g)))
        (patchV (g.rows - 1) (g.cols - 1) (entry (mapNet toReal g))) (0, 1) (0, 1)| ≤
          16 * k ^ 3 * Q ^ 2 * (1 / a + 1 / b) + 2 * δ * (2 * (k * Q) * (a + b) + 2 * (a * b * δ)) ∧
      |volumeFrom o (ts.map triReal) - patchVolume o (mapNet toReal g)| ≤
          8 * k ^ 3 * Q ^ 3 * (1 / a + 1 / b) + δ / 3 * (2 * Q * (2 * (k * Q) * (a + b) + 2 * (a * b * δ))
            + (2 * (k * Q) + 2 * (a * δ)) * (2 * (k * Q) + 2 * (b * δ))) := by
  obtain ⟨mesh, q, h1, h2, h3⟩ := C167_vertices hs hg hrc hM hb ha hb1 ha2 hb2 hsz
  have hT := Solid.tangents hs
  change Tangents (patchPoint (g.rows - 1) (g.cols - 1) (entry (mapNet toReal g))) _ _ _ _ _ _ at hT
  have hQ := Solid.SmallNet.nonneg hs
  have hr : 1 ≤ g.rows := hs.rows.1
  have hc : 1 ≤ g.cols := hs.cols.1
  have et : (gridTriangles q a b).map triReal = gridTriangles (fun i j => toReal (q i j)) a b := by
    simp [gridTriangles, List.map_flatMap, triReal]
  have a0 : (0 : ℝ) < a := by exact_mod_cast ha
  have b0 : (0 : ℝ) < b := by exact_mod_cast hb1
  have hd : 0 ≤ δ := (V3.length_nonneg _).trans ((h3 0 0 (by omega) (by omega)).2.trans hδ)
  have inU : ∀ (i d : ℕ), 1 ≤ d → i ≤ d → (0 + (i : ℝ) * ((1 - 0) / d)) ∈ Set.Icc (0 : ℝ) 1 := by
    intro i d hd hi
    have hd0 : (0 : ℝ) < d := by exact_mod_cast hd
    have hid : (i : ℝ) ≤ d := by exact_mod_cast hi
    rw [sub_zero, zero_add, mul_one_div]
    exact ⟨by positivity, (div_le_one hd0).2 hid⟩
  have step : ∀ (i d : ℕ), 1 ≤ d → |(0 + ((i + 1 : ℕ) : ℝ) * ((1 - 0) / d)) - (0 + (i : ℝ) * ((1 - 0) / d))| = 1 / d := by
    intro i d hd
    have hd0 : (0 : ℝ) < d := by exact_mod_cast hd
    push_cast
    rw [show (0 : ℝ) + ((i : ℝ) + 1) * ((1 - 0) / d) - (0 + (i : ℝ) * ((1 - 0) / d)) = 1 / d by ring]
    exact abs_of_pos (by positivity)
  have hm : Moved (fun i j => patchPoint (g.rows - 1) (g.cols - 1) (entry (mapNet toReal g)) (0 + i * ((1 - 0) / a)) (0 + j * ((1 - 0) / b)))
      (fun i j => toReal (q i j)) a b δ (2 * (k * Q) * (1 / a)) (2 * (k * Q) * (1 / b)) := by
    refine ⟨fun i j hi hj => (h3 i j hi hj).2.trans hδ, fun i j hi hj => ?_, fun i j hi hj => ?_⟩
    · refine (Volume.point_lip hT (inU (i + 1) a ha hi) (inU j b hb1 hj) (inU i a ha hi.le) (inU j b hb1 hj)).trans (le_of_eq ?_)
      rw [step i a ha, sub_self, abs_zero, add_zero]
    · refine (Volume.point_lip hT (inU i a ha hi) (inU (j + 1) b hb1 hj) (inU i a ha hi) (inU j b hb1 hj.le)).trans (le_of_eq ?_)
      rw [step j b hb1, sub_self, abs_zero, zero_add]
  have near : ∀ u ∈ Set.Icc (0 : ℝ) 1, ∀ v ∈ Set.Icc (0 : ℝ) 1,
      (patchPoint (g.rows - 1) (g.cols - 1) (entry (mapNet toReal g)) u v - o).length ≤ Q := fun u hu v hv =>
    Volume.patch_near (fun i j hi hj => hs.near i j (show i < g.rows by omega) (show j < g.cols by omega)) hu.1 hu.2 hv.1 hv.2
  refine ⟨mesh, _, h1, h2, ?_, ?_⟩
  · rw [et]
    have t1 := area_moved hm
    have t2 := C160_grid hT one_pos one_pos ha hb1
    refine (abs_sub_le _ _ _).trans ((add_le_add t1 t2).trans (le_of_eq ?_))
    field_simp
    ring
  · rw [et]
    have t1 := volume_moved hm (o := o) (R := Q) (fun i j hi hj => near _ (inU i a ha hi) _ (inU j b hb1 hj)) (by positivity) hd
    have t2 := C163_grid hT one_pos one_pos near ha hb1
    refine (abs_sub_le _ _ _).trans ((add_le_add t1 t2).trans (le_of_eq ?_))
    field_simp
    ring

/-- **C167** The meshes of a set of Bézier patches computed in binary64, with the same divisions: the volume of the cones over their
triangles is near that of the cones over the exact patches; if the sides of the exact patches match, that is the volume they enclose. -/
theorem C167_solid {gs : List (Grid (V3 Float))} {k : Nat} {Q : ℝ} {o : V3 ℝ} (hs : ∀ g ∈ gs, SmallNet (mapNet toReal g) k Q o ∧ NetOk g)
    (hk : (k + 1) * (k + 1) ≤ 2 ^ 40) {M : ℝ} (hM : M ≤ 2 ^ (1022 : Int)) (hM0 : 0 ≤ M) (hb : ∀ g ∈ gs, ∀ p ∈ g.data, Bounded M p)
    {n : Nat} (hn : 1 ≤ n) (hn2 : n ≤ 2 ^ 20) (hsz : (n + 1) * (n + 1) ≤ 2 ^ 32)
    {δ : ℝ} (hδ : vertexError (2 * (k * Q)) M ((k + 1) * (k + 1)) n n ≤ δ) :
    (∃ tss, List.Forall₂ (fun g ts => ∃ mesh, (SurfacePatch.mk (BezierSurface.mk g).surface ((0, 1), (0, 1)) (n, n)).getTriangleMesh = .ok mesh ∧
      corners mesh = some ts) gs tss ∧
      |volumeFrom o (tss.flatten.map triReal) - (gs.map fun g => patchVolume o (mapNet toReal g)).sum| ≤ gs.length *
        (16 * k ^ 3 * Q ^ 3 / n + δ / 3 * (2 * Q * (4 * (k * Q) * n + 2 * (n * n * δ)) + (2 * (k * Q) + 2 * (n * δ)) ^ 2))) ∧
    (Matched ((gs.map (mapNet toReal)).flatMap around) → ∀ o',
      (gs.map fun g => patchVolume o' (mapNet toReal g)).sum = (gs.map fun g => patchVolume o (mapNet toReal g)).sum) := by
  refine ⟨?_, fun hm o' => ?_⟩
  · induction gs with
    | nil => exact ⟨[], .nil, by simp [volumeFrom]⟩
    | cons g gs ih =>
      obtain ⟨tss, k1, k2⟩ := ih (fun g' hg' => hs g' (by simp [hg'])) fun g' hg' => hb g' (by simp [hg'])
      obtain ⟨h1, h2⟩ := hs g (by simp)
      have hrc : g.rows * g.cols ≤ (k + 1) * (k + 1) := Nat.mul_le_mul h1.rows.2 h1.cols.2
      have hQ := Solid.SmallNet.nonneg h1
      have hv : vertexError (2 * (k * Q)) M (g.rows * g.cols) n n ≤ δ := by
        refine le_trans ?_ hδ
        unfold vertexError
        have : ((g.rows * g.cols : ℕ) : ℝ) ≤ (((k + 1) * (k + 1) : ℕ) : ℝ) := by exact_mod_cast hrc
        gcongr
      obtain ⟨mesh, ts, m1, m2, -, m3⟩ := C167_mesh h1 h2 (hrc.trans hk) hM (hb g (by simp)) hn hn hn2 hn2 hsz hv
      refine ⟨ts :: tss, .cons ⟨mesh, m1, m2⟩ k1, ?_⟩
      rw [List.flatten_cons, List.map_append, Solid.volumeFrom_append, List.map_cons, List.sum_cons, List.length_cons]
      have e : volumeFrom o (ts.map triReal) + volumeFrom o (tss.flatten.map triReal)
          - (patchVolume o (mapNet toReal g) + (gs.map fun g => patchVolume o (mapNet toReal g)).sum)
          = (volumeFrom o (ts.map triReal) - patchVolume o (mapNet toReal g))
            + (volumeFrom o (tss.flatten.map triReal) - (gs.map fun g => patchVolume o (mapNet toReal g)).sum) := by ring
      rw [e]
      refine (abs_add_le _ _).trans ((add_le_add m3 k2).trans (le_of_eq ?_))
      push_cast
      ring
  · have := C166_invariant (gs := gs.map (mapNet toReal)) (o := o) (k := k) (Q := Q) (fun g hg => by
      obtain ⟨g', hg', rfl⟩ := List.mem_map.1 hg
      exact (hs g' hg').1) hm o'
    simpa [List.map_map, Function.comp_def] using this

/-! ### Example -/

/-- The cushion of C162 in binary64. -/
def Spec.cushionF : List (Grid (V3 Float)) :=
  [⟨[⟨0, 0, 0⟩, ⟨0, 1, 0⟩, ⟨0, 2, 0⟩, ⟨1, 0, 0⟩, ⟨1, 1, 3⟩, ⟨1, 2, 0⟩, ⟨2, 0, 0⟩, ⟨2, 1, 0⟩, ⟨2, 2, 0⟩], 3, 3⟩,
   ⟨[⟨0, 0, 0⟩, ⟨1, 0, 0⟩, ⟨2, 0, 0⟩, ⟨0, 1, 0⟩, ⟨1, 1, -1⟩, ⟨2, 1, 0⟩, ⟨0, 2, 0⟩, ⟨1, 2, 0⟩, ⟨2, 2, 0⟩], 3, 3⟩]

theorem cushionF_real : cushionF.map (mapNet toReal) = cushion ∧ ∀ g ∈ cushionF, ∀ p ∈ g.data, Bounded 3 p := by
  have v0 := zero_val
  have v1 := one_val
  have v2 : IsFin (2 : Float) ∧ val (2 : Float) = 2 := by
    obtain ⟨a, b⟩ := ofNat_val (n := 2) (by norm_num)
    exact ⟨a, b.trans (by norm_num)⟩
  have v3 : IsFin (3 : Float) ∧ val (3 : Float) = 3 := by
    obtain ⟨a, b⟩ := ofNat_val (n := 3) (by norm_num)
    exact ⟨a, b.trans (by norm_num)⟩
  have v4 : IsFin (-1 : Float) ∧ val (-1 : Float) = -1 := by
    obtain ⟨a, b⟩ := neg_val v1.1
    exact ⟨a, b.trans (by rw [v1.2])⟩
  constructor
  · simp [cushionF, cushion, mapNet, toReal, v0.2, v1.2, v2.2, v3.2, v4.2]
  · intro g hg p hp
    simp only [cushionF, List.mem_cons, List.not_mem_nil, or_false] at hg
    rcases hg with rfl | rfl <;> simp only [List.mem_cons, List.not_mem_nil, or_false] at hp <;>
      rcases hp with rfl | rfl | rfl | rfl | rfl | rfl | rfl | rfl | rfl <;>
      refine ⟨⟨?_, ?_⟩, ⟨?_, ?_⟩, ?_, ?_⟩ <;>
      first | exact v0.1 | exact v1.1 | exact v2.1 | exact v3.1 | exact v4.1 | norm_num [v0.2, v1.2, v2.2, v3.2, v4.2]

/-- **C167**, an example: the meshes of the cushion with 50000 by 50000 divisions, computed in binary64, enclose 16/9 up to an error of
one sixth. -/
theorem C167_example :
    ∃ tss, List.Forall₂ (fun g ts => ∃ mesh, (SurfacePatch.mk (BezierSurface.mk g).surface ((0, 1), (0, 1)) (50000, 50000)).getTriangleMesh = .ok mesh ∧
      corners mesh = some ts) cushionF tss ∧ |volumeFrom ⟨1, 1, 0⟩ (tss.flatten.map triReal) - 16 / 9| ≤ 1 / 6 := by
  obtain ⟨hr, hb⟩ := cushionF_real
  have small : ∀ g ∈ cushion, SmallNet g 2 3 ⟨1, 1, 0⟩ := fun g hg => by
    simp only [cushion, List.mem_cons, List.not_mem_nil, or_false] at hg
    rcases hg with rfl | rfl <;> refine ⟨rfl, by norm_num, by norm_num, fun i j hi hj => (V3.length_le_sum _).trans ?_⟩ <;>
      (change i < 3 at hi; change j < 3 at hj; interval_cases i <;> interval_cases j <;> norm_num [entry])
  have hm : Matched (cushion.flatMap around) := by
    refine ⟨[[⟨0, 0, 0⟩, ⟨1, 0, 0⟩, ⟨2, 0, 0⟩], [⟨2, 0, 0⟩, ⟨2, 1, 0⟩, ⟨2, 2, 0⟩], [⟨2, 2, 0⟩, ⟨1, 2, 0⟩, ⟨0, 2, 0⟩],
      [⟨0, 2, 0⟩, ⟨0, 1, 0⟩, ⟨0, 0, 0⟩]], [], ?_, by simp⟩
    rw [List.append_nil]
    exact List.Perm.append_left _ (List.reverse_perm _).symm
  obtain ⟨⟨tss, h1, h2⟩, h3⟩ := C167_solid (gs := cushionF) (k := 2) (Q := 3) (o := ⟨1, 1, 0⟩) (fun g hg => by
      refine ⟨small _ (by rw [← hr]; exact List.mem_map_of_mem hg), ?_⟩
      simp only [cushionF, List.mem_cons, List.not_mem_nil, or_false] at hg
      rcases hg with rfl | rfl <;> rfl) (by norm_num) (M := 3) (le_trans (by norm_num) (two_zpow_le (show (2 : Int) ≤ 1022 by norm_num))) (by norm_num) hb
    (n := 50000) (by norm_num) (by norm_num) (by norm_num) (δ := 3 / 10 ^ 9) (by
      have : (2 : ℝ) ^ (-1072 : Int) ≤ 2 ^ (-48 : Int) := two_zpow_le (by norm_num)
      have e : (2 : ℝ) ^ (-48 : Int) = 1 / 281474976710656 := by norm_num
      have e' : (2 : ℝ) ^ (-49 : Int) = 1 / 562949953421312 := by norm_num
      unfold vertexError
      rw [e']
      rw [e] at this ⊢
      push_cast
      linarith)
  refine ⟨tss, h1, ?_⟩
  have e : (cushionF.map fun g => patchVolume ⟨1, 1, 0⟩ (mapNet toReal g)).sum = 16 / 9 := by
    rw [← h3 (by rw [hr]; exact hm) 0, ← C166_cushion, ← hr, List.map_map]
    rfl
  rw [e] at h2
  refine h2.trans ?_
  norm_num [cushionF]

end Geom3d
