import Verif.Props.TurnedSurfaces

/-!
# Solids bounded by Bézier patches (C166)

A set of Bézier patches whose sides match encloses a volume: a number that does not depend on the point from which the cones over the
patches are measured.  The volume of the meshes tends to it, with an error inverse to the number of divisions.
-/

set_option linter.unusedSectionVars false

namespace Geom3d
open Spec

/-- The volume of the cone from `o` over a Bézier patch, with sign. -/
noncomputable def Spec.patchVolume (o : V3 ℝ) (g : Grid (V3 ℝ)) : ℝ :=
  coneVolume o (patchPoint (g.rows - 1) (g.cols - 1) (entry g)) (patchU (g.rows - 1) (g.cols - 1) (entry g))
    (patchV (g.rows - 1) (g.cols - 1) (entry g)) (0, 1) (0, 1)

/-- A net with at least one row and column, of degrees at most `k`, within `Q` of `o`. -/
structure Spec.SmallNet (g : Grid (V3 ℝ)) (k : Nat) (Q : ℝ) (o : V3 ℝ) : Prop where
  ok : NetOk g
  rows : 1 ≤ g.rows ∧ g.rows ≤ k + 1
  cols : 1 ≤ g.cols ∧ g.cols ≤ k + 1
  near : ∀ i j, i < g.rows → j < g.cols → (entry g i j - o).length ≤ Q

namespace Solid

theorem SmallNet.nonneg {g : Grid (V3 ℝ)} {k : Nat} {Q : ℝ} {o : V3 ℝ} (h : SmallNet g k Q o) : 0 ≤ Q :=
  (V3.length_nonneg _).trans (h.near 0 0 h.rows.1 h.cols.1)

/-- The differences of points of a ball. -/
theorem slopes {m n : Nat} {P : Nat → Nat → V3 ℝ} {Q : ℝ} {o : V3 ℝ} (h : ∀ i j, i ≤ m → j ≤ n → (P i j - o).length ≤ Q) :
    NetSlopes m n P (2 * Q) (2 * Q) ∧ NetBends m n P (4 * Q) (4 * Q) (4 * Q) := by
  have hQ : 0 ≤ Q := (V3.length_nonneg _).trans (h 0 0 (by omega) (by omega))
  have d : ∀ x y : V3 ℝ, (x - o).length ≤ Q → (y - o).length ≤ Q → (x - y).length ≤ 2 * Q := by
    intro x y hx hy
    have e : x - y = (x - o) + -(y - o) := by module
    rw [e]
    refine (V3.length_add_le _ _).trans ?_
    rw [V3.length_neg]
    linarith
  have d2 : ∀ x y z w : V3 ℝ, (x - o).length ≤ Q → (y - o).length ≤ Q → (z - o).length ≤ Q → (w - o).length ≤ Q →
      ((x - y) + (z - w)).length ≤ 4 * Q := by
    intro x y z w hx hy hz hw
    refine (V3.length_add_le _ _).trans ?_
    linarith [d x y hx hy, d z w hz hw]
  refine ⟨⟨fun i j hi hj => d _ _ (h _ _ hi hj) (h _ _ (by omega) hj), fun i j hi hj => d _ _ (h _ _ hi hj) (h _ _ hi (by omega)),
    by linarith, by linarith⟩, ⟨fun i j hi hj => ?_, fun i j hi hj => ?_, fun i j hi hj => ?_, by linarith, by linarith, by linarith⟩⟩
  · have e : P (i + 2) j - (2 : ℝ) • P (i + 1) j + P i j = (P (i + 2) j - P (i + 1) j) + (P i j - P (i + 1) j) := by module
    rw [e]
    exact d2 _ _ _ _ (h _ _ hi hj) (h _ _ (by omega) hj) (h _ _ (by omega) hj) (h _ _ (by omega) hj)
  · have e : P (i + 1) (j + 1) - P (i + 1) j - P i (j + 1) + P i j = (P (i + 1) (j + 1) - P (i + 1) j) + (P i j - P i (j + 1)) := by module
    rw [e]
    exact d2 _ _ _ _ (h _ _ hi hj) (h _ _ hi (by omega)) (h _ _ (by omega) (by omega)) (h _ _ (by omega) hj)
  · have e : P i (j + 2) - (2 : ℝ) • P i (j + 1) + P i j = (P i (j + 2) - P i (j + 1)) + (P i j - P i (j + 1)) := by module
    rw [e]
    exact d2 _ _ _ _ (h _ _ hi hj) (h _ _ hi (by omega)) (h _ _ hi (by omega)) (h _ _ hi (by omega))

theorem tangents {g : Grid (V3 ℝ)} {k : Nat} {Q : ℝ} {o : V3 ℝ} (h : SmallNet g k Q o) :
    Tangents (patchPoint (g.rows - 1) (g.cols - 1) (entry g)) (patchU (g.rows - 1) (g.cols - 1) (entry g))
      (patchV (g.rows - 1) (g.cols - 1) (entry g)) (0, 1) (0, 1) (2 * (k * Q)) (4 * (k ^ 2 * Q)) := by
  have hQ := SmallNet.nonneg h
  have hr := h.rows
  have hc := h.cols
  obtain ⟨hS, hN⟩ := slopes (m := g.rows - 1) (n := g.cols - 1) (P := entry g) fun i j hi hj => h.near i j (by omega) (by omega)
  have c1 : ((g.rows - 1 : ℕ) : ℝ) ≤ k := by exact_mod_cast (by omega : g.rows - 1 ≤ k)
  have c2 : ((g.cols - 1 : ℕ) : ℝ) ≤ k := by exact_mod_cast (by omega : g.cols - 1 ≤ k)
  have c3 : ((g.rows - 1 - 1 : ℕ) : ℝ) ≤ k := by exact_mod_cast (by omega : g.rows - 1 - 1 ≤ k)
  have c4 : ((g.cols - 1 - 1 : ℕ) : ℝ) ≤ k := by exact_mod_cast (by omega : g.cols - 1 - 1 ≤ k)
  have two : ∀ x y : ℕ, (x : ℝ) ≤ k → (y : ℝ) ≤ k → (x : ℝ) * y * (4 * Q) ≤ 4 * (k ^ 2 * Q) := by
    intro x y hx hy
    have : (x : ℝ) * y ≤ k * k := mul_le_mul hx hy (by positivity) (by positivity)
    nlinarith
  refine Area.patch_tangents hS hN ?_ ?_ (two _ _ c1 c3) (two _ _ c1 c2) (two _ _ c2 c4) le_rfl le_rfl le_rfl le_rfl
  · nlinarith
  · nlinarith

end Solid

open Solid

/-- **C166** The volume over the grid of one patch. -/
theorem C166_patch {g : Grid (V3 ℝ)} {k : Nat} {Q : ℝ} {o : V3 ℝ} (h : SmallNet g k Q o) {n : Nat} (hn : 1 ≤ n) :
    |volumeFrom o (patchGrid n g) - patchVolume o g| ≤ 16 * k ^ 3 * Q ^ 3 / n := by
  have hr := h.rows
  have hc := h.cols
  have e : patchGrid n g = gridTriangles (fun i j => patchPoint (g.rows - 1) (g.cols - 1) (entry g)
      (0 + (i : ℝ) * ((1 - 0) / n)) (0 + (j : ℝ) * ((1 - 0) / n))) n n := by
    unfold patchGrid
    congr 1
    funext i j
    rw [surface_patchPoint (s := ⟨g⟩) h.ok hr.1 hc.1]
    rfl
  rw [e]
  refine (C163_grid (R := Q) (tangents h) one_pos one_pos (fun u hu v hv =>
    Volume.patch_near (fun i j hi hj => h.near i j (by omega) (by omega)) hu.1 hu.2 hv.1 hv.2) hn hn).trans (le_of_eq ?_)
  have : (0 : ℝ) < n := by exact_mod_cast hn
  field_simp
  ring

namespace Solid

theorem volumeFrom_append (o : V3 ℝ) (a b : List (Tri ℝ)) : volumeFrom o (a ++ b) = volumeFrom o a + volumeFrom o b := by
  simp [volumeFrom]

theorem volume_set {gs : List (Grid (V3 ℝ))} {k : Nat} {Q : ℝ} {o : V3 ℝ} (h : ∀ g ∈ gs, SmallNet g k Q o) {n : Nat} (hn : 1 ≤ n) :
    |volumeFrom o (gs.map (patchGrid n)).flatten - (gs.map (patchVolume o)).sum| ≤ gs.length * (16 * k ^ 3 * Q ^ 3) / n := by
  induction gs with
  | nil => simp [volumeFrom]
  | cons g gs ih =>
    have h1 := C166_patch (h g (by simp)) hn
    have h2 := ih fun g' hg' => h g' (by simp [hg'])
    rw [List.map_cons, List.flatten_cons, volumeFrom_append, List.map_cons, List.sum_cons, List.length_cons]
    have e : volumeFrom o (patchGrid n g) + volumeFrom o (gs.map (patchGrid n)).flatten - (patchVolume o g + (gs.map (patchVolume o)).sum) =
      (volumeFrom o (patchGrid n g) - patchVolume o g) + (volumeFrom o (gs.map (patchGrid n)).flatten - (gs.map (patchVolume o)).sum) := by ring
    rw [e]
    refine (abs_add_le _ _).trans ((add_le_add h1 h2).trans (le_of_eq ?_))
    push_cast
    ring

end Solid

/-- **C166** The volume enclosed by a set of Bézier patches with matching sides does not depend on the point from which it is measured. -/
theorem C166_invariant {gs : List (Grid (V3 ℝ))} {k : Nat} {Q : ℝ} {o : V3 ℝ} (h : ∀ g ∈ gs, SmallNet g k Q o) (hm : Matched (gs.flatMap around))
    (o' : V3 ℝ) : (gs.map (patchVolume o')).sum = (gs.map (patchVolume o)).sum := by
  have h' : ∀ g ∈ gs, SmallNet g k (Q + (o - o').length) o' := fun g hg => by
    refine ⟨(h g hg).ok, (h g hg).rows, (h g hg).cols, fun i j hi hj => ?_⟩
    rw [← sub_add_sub_cancel (entry g i j) o o']
    exact (V3.length_add_le _ _).trans (add_le_add_left ((h g hg).near i j hi hj) _)
  set K := (gs.length : ℝ) * (16 * k ^ 3 * Q ^ 3) with hK
  set K' := (gs.length : ℝ) * (16 * k ^ 3 * (Q + (o - o').length) ^ 3) with hK'
  by_contra hne
  have hpos : 0 < |(gs.map (patchVolume o')).sum - (gs.map (patchVolume o)).sum| := abs_pos.2 (sub_ne_zero.2 hne)
  obtain ⟨N, hN⟩ := exists_nat_gt ((K + K') / |(gs.map (patchVolume o')).sum - (gs.map (patchVolume o)).sum|)
  have hn : 1 ≤ N + 1 := by omega
  have k1 := volume_set h hn
  have k2 := volume_set h' hn
  rw [(C162_volume (C162_grids (fun g hg => ⟨(h g hg).ok, (h g hg).rows.1, (h g hg).cols.1⟩) hm hn)).1 o' o] at k2
  rw [← hK] at k1
  rw [← hK'] at k2
  have hN1 : (0 : ℝ) < ((N + 1 : ℕ) : ℝ) := by positivity
  have k3 : |(gs.map (patchVolume o')).sum - (gs.map (patchVolume o)).sum| ≤ (K + K') / ((N + 1 : ℕ) : ℝ) := by
    rw [add_div]
    rw [abs_le] at k1 k2 ⊢
    constructor <;> linarith [k1.1, k1.2, k2.1, k2.2]
  rw [le_div_iff₀ hN1] at k3
  rw [div_lt_iff₀ hpos] at hN
  push_cast at k3
  nlinarith

/-- **C166** The meshes of a set of Bézier patches with matching sides: watertight, and the volume they enclose tends to that of the
patches, from wherever it is measured. -/
theorem C166_solid {gs : List (Grid (V3 ℝ))} {k : Nat} {Q : ℝ} {o : V3 ℝ} (h : ∀ g ∈ gs, SmallNet g k Q o) (hm : Matched (gs.flatMap around))
    {n : Nat} (hn : 1 ≤ n) (hsz : (n + 1) * (n + 1) ≤ 2 ^ 32) :
    ∃ tss, List.Forall₂ (fun g ts => ∃ mesh, (SurfacePatch.mk (BezierSurface.mk g).surface ((0, 1), (0, 1)) (n, n)).getTriangleMesh = .ok mesh ∧
      corners mesh = some ts) gs tss ∧ Watertight tss.flatten ∧
      ∀ o1 o2, |volumeFrom o1 tss.flatten - (gs.map (patchVolume o2)).sum| ≤ gs.length * (16 * k ^ 3 * Q ^ 3) / n := by
  have hg : ∀ g ∈ gs, NetOk g ∧ 1 ≤ g.rows ∧ 1 ≤ g.cols := fun g hg => ⟨(h g hg).ok, (h g hg).rows.1, (h g hg).cols.1⟩
  have hw := C162_grids hg hm hn
  refine ⟨gs.map (patchGrid n), ?_, hw, fun o1 o2 => ?_⟩
  · rw [List.forall₂_map_right_iff]
    refine List.forall₂_same.2 fun g hgs => ?_
    obtain ⟨h1, h2, h3⟩ := hg g hgs
    exact grid_mesh (s := (BezierSurface.mk g).surface) (S := fun u v => valOf ((BezierSurface.mk g).getPoint u v)) (fun u v _ _ => by
      change (BezierSurface.mk g).getPoint u v = _
      rw [bezierSurface_getPoint (s := ⟨g⟩) h1 h2 h3]
      rfl) (fun us vs _ _ => ⟨[], rfl, Or.inl rfl⟩) one_pos one_pos hn hn hsz
  · rw [(C162_volume hw).1 o1 o, C166_invariant h hm o2]
    exact volume_set h hn

/-! ### Example -/

/-- **C166**, an example: the cushion encloses the volume 16/9. -/
theorem C166_cushion : (cushion.map (patchVolume 0)).sum = 16 / 9 := by
  have inner : ∀ (c u : ℝ), ∫ v in (0 : ℝ)..1, c * (u * v * (-1 + 2 * u + 2 * v - 3 * (u * v))) = c * (u / 6) := by
    intro c u
    have := intervalIntegral.integral_eq_sub_of_hasDerivAt (a := 0) (b := 1)
      (f := fun v => c * u * (((-1 + 2 * u) / 2) * v ^ 2 + ((2 - 3 * u) / 3) * v ^ 3))
      (f' := fun v => c * (u * v * (-1 + 2 * u + 2 * v - 3 * (u * v)))) (fun v _ => by
        have := ((((hasDerivAt_id v).pow 2).const_mul ((-1 + 2 * u) / 2)).add (((hasDerivAt_id v).pow 3).const_mul ((2 - 3 * u) / 3))).const_mul (c * u)
        refine this.congr_deriv ?_
        simp
        ring) ((by fun_prop : Continuous _).intervalIntegrable _ _)
    rw [this]
    ring
  have outer : ∀ c : ℝ, ∫ u in (0 : ℝ)..1, ∫ v in (0 : ℝ)..1, c * (u * v * (-1 + 2 * u + 2 * v - 3 * (u * v))) = c / 12 := by
    intro c
    simp only [inner]
    rw [intervalIntegral.integral_const_mul, intervalIntegral.integral_div, integral_id]
    ring
  have top : patchVolume 0 ⟨[⟨0, 0, 0⟩, ⟨0, 1, 0⟩, ⟨0, 2, 0⟩, ⟨1, 0, 0⟩, ⟨1, 1, 3⟩, ⟨1, 2, 0⟩, ⟨2, 0, 0⟩, ⟨2, 1, 0⟩, ⟨2, 2, 0⟩], 3, 3⟩ = 4 / 3 := by
    unfold patchVolume coneVolume
    rw [show (4 / 3 : ℝ) = 16 / 12 by norm_num, ← outer]
    apply intervalIntegral.integral_congr
    intro u _
    apply intervalIntegral.integral_congr
    intro v _
    simp [patchPoint, patchU, patchV, Finset.sum_range_succ, bernsteinPoly, entry, V3.dot, V3.cross, Nat.choose]
    ring
  have bottom : patchVolume 0 ⟨[⟨0, 0, 0⟩, ⟨1, 0, 0⟩, ⟨2, 0, 0⟩, ⟨0, 1, 0⟩, ⟨1, 1, -1⟩, ⟨2, 1, 0⟩, ⟨0, 2, 0⟩, ⟨1, 2, 0⟩, ⟨2, 2, 0⟩], 3, 3⟩ = 4 / 9 := by
    unfold patchVolume coneVolume
    rw [show (4 / 9 : ℝ) = (16 / 3) / 12 by norm_num, ← outer]
    apply intervalIntegral.integral_congr
    intro u _
    apply intervalIntegral.integral_congr
    intro v _
    simp [patchPoint, patchU, patchV, Finset.sum_range_succ, bernsteinPoly, entry, V3.dot, V3.cross, Nat.choose]
    ring
  rw [cushion, List.map_cons, List.map_cons, List.map_nil, List.sum_cons, List.sum_cons, List.sum_nil, top, bottom]
  norm_num

/-- **C166**, an example: the meshes of the cushion are watertight, and the volume they enclose tends to 16/9. -/
example {n : Nat} (hn : 1 ≤ n) (hsz : (n + 1) * (n + 1) ≤ 2 ^ 32) :
    ∃ tss, List.Forall₂ (fun g ts => ∃ mesh, (SurfacePatch.mk (BezierSurface.mk g).surface ((0, 1), (0, 1)) (n, n)).getTriangleMesh = .ok mesh ∧
      corners mesh = some ts) cushion tss ∧ Watertight tss.flatten ∧ ∀ o, |volumeFrom o tss.flatten - 16 / 9| ≤ 6912 / n := by
  obtain ⟨tss, h1, h2, h3⟩ := C166_solid (gs := cushion) (k := 2) (Q := 3) (o := ⟨1, 1, 0⟩) (fun g hg => by
    simp only [cushion, List.mem_cons, List.not_mem_nil, or_false] at hg
    rcases hg with rfl | rfl <;> refine ⟨rfl, by norm_num, by norm_num, fun i j hi hj => (V3.length_le_sum _).trans ?_⟩ <;>
      (change i < 3 at hi; change j < 3 at hj; interval_cases i <;> interval_cases j <;> norm_num [entry])) (by
    refine ⟨[[⟨0, 0, 0⟩, ⟨1, 0, 0⟩, ⟨2, 0, 0⟩], [⟨2, 0, 0⟩, ⟨2, 1, 0⟩, ⟨2, 2, 0⟩], [⟨2, 2, 0⟩, ⟨1, 2, 0⟩, ⟨0, 2, 0⟩],
      [⟨0, 2, 0⟩, ⟨0, 1, 0⟩, ⟨0, 0, 0⟩]], [], ?_, by simp⟩
    rw [List.append_nil]
    exact List.Perm.append_left _ (List.reverse_perm _).symm) hn hsz
  refine ⟨tss, h1, h2, fun o => ?_⟩
  have := h3 o 0
  rw [C166_cushion] at this
  refine this.trans (le_of_eq ?_)
  norm_num [cushion]

end Geom3d
