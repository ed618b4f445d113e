import Verif.Props.RationalSolids

/-!
# Rational patches with proportional sides (C173)

Homogeneous control points which differ by a factor stand for the same points (C19).  Over the reals it is therefore enough for the sides of
rational patches to match up to a factor for every pair of sides; in binary64 this is not so (`C171_scaled`).
-/

namespace Geom3d
open Spec Projection

/-- All homogeneous control points times a factor. -/
noncomputable def Spec.Arc.scale (s : ℝ) (c : Arc) : Arc := (c.1, c.2.map (s • ·))

/-- The homogeneous sides match in pairs of opposite direction up to a factor for every pair, or collapse to points. -/
def Spec.Proportional (l : List Arc) : Prop :=
  ∃ A B C : List Arc, l.Perm (A ++ B ++ C) ∧ List.Forall₂ (fun a b => ∃ s : ℝ, s ≠ 0 ∧ b = Arc.scale s (Arc.flip a)) A B ∧
    ∀ c ∈ C, ∃ x : V3 ℝ, ∀ p ∈ c.2, p.truncate = p.w • x

theorem border_scale {s : ℝ} (hs : s ≠ 0) (c : Arc) : border (Arc.scale s c) = border c :=
  Prod.ext rfl (funext fun t => congrArg valOf (C19_bezier_scale ⟨c.2⟩ hs (t : ℝ)))

/-- Sides which match are proportional. -/
theorem C173_of_coupled {l : List Arc} (h : Coupled l) : Proportional l := by
  obtain ⟨A, C, hp, hC⟩ := h
  refine ⟨A, A.map Arc.flip, C, hp, ?_, hC⟩
  rw [List.forall₂_map_right_iff]
  refine List.forall₂_same.2 fun a _ => ⟨1, one_ne_zero, ?_⟩
  simp [Arc.scale]

/-- **C173** Rational patches whose homogeneous sides match up to factors, or collapse: together they are closed. -/
theorem C173_sealed {l : List (Grid (V4 ℝ) × Nat × Nat)} {k : Nat} {Q T ω : ℝ} (hω : 0 < ω) (h : ∀ s ∈ l, SmallRational s.1 k Q T ω)
    (hm : Proportional (l.flatMap fun s => arcs s.1 s.2.1 s.2.2)) :
    Sealed ((l.map fun s => rationalPiece s.1 s.2.1 s.2.2).flatMap Piece.borders) := by
  have e : (l.map fun s => rationalPiece s.1 s.2.1 s.2.2).flatMap Piece.borders = (l.flatMap fun s => arcs s.1 s.2.1 s.2.2).map border ∧
      ∀ c ∈ l.flatMap fun s => arcs s.1 s.2.1 s.2.2, Good c := by
    clear hm
    induction l with
    | nil => exact ⟨rfl, by simp⟩
    | cons s l ih =>
      obtain ⟨k1, k2⟩ := ih fun s' hs' => h s' (by simp [hs'])
      obtain ⟨m1, m2⟩ := borders_eq hω (h s (by simp)) s.2.1 s.2.2
      refine ⟨?_, fun c hc => ?_⟩
      · rw [List.map_cons, List.flatMap_cons, k1, m1, List.flatMap_cons, List.map_append]
      · rw [List.flatMap_cons, List.mem_append] at hc
        exact hc.elim (m2 c) (k2 c)
  obtain ⟨e1, e2⟩ := e
  obtain ⟨A, B, C, hp, hB, hC⟩ := hm
  have gA : ∀ c ∈ A, Good c := fun c hc => e2 c (hp.mem_iff.2 (by simp [hc]))
  have gC : ∀ c ∈ C, Good c := fun c hc => e2 c (hp.mem_iff.2 (by simp [hc]))
  have back : B.map border = (A.map border).map Border.back := by
    clear hp
    induction hB with
    | nil => rfl
    | cons hab _ ih =>
      obtain ⟨s, hs, rfl⟩ := hab
      rw [List.map_cons, List.map_cons, List.map_cons, border_scale hs, border_flip (gA _ (by simp)), ih fun c hc => gA c (by simp [hc])]
  refine ⟨A.map border, C.map border, ?_, ?_⟩
  · rw [e1, ← back, ← List.map_append, ← List.map_append]
    exact hp.map border
  · intro c hc
    obtain ⟨c', hc', rfl⟩ := List.mem_map.1 hc
    obtain ⟨x, hx⟩ := hC c' hc'
    exact border_const (gC c' hc') hx

/-- **C173** The meshes of rational patches whose homogeneous sides match up to factors are watertight, and the volume they enclose is near
that enclosed by the patches. -/
theorem C173_solid {l : List (Grid (V4 ℝ) × Nat × Nat)} {k : Nat} {Q T ω : ℝ} (hω : 0 < ω) (h : ∀ s ∈ l, SmallRational s.1 k Q T ω)
    (hd : ∀ s ∈ l, 1 ≤ s.2.1 ∧ 1 ≤ s.2.2 ∧ (s.2.1 + 1) * (s.2.2 + 1) ≤ 2 ^ 32)
    (hm : Proportional (l.flatMap fun s => arcs s.1 s.2.1 s.2.2)) :
    ∃ tss, List.Forall₂ (fun s ts => ∃ mesh, (SurfacePatch.mk (BezierSurface.mk s.1).surfaceRational ((0, 1), (0, 1)) s.2).getTriangleMesh = .ok mesh ∧
        corners mesh = some ts) l tss ∧ Watertight tss.flatten ∧
      ∀ o1 o2, |volumeFrom o1 tss.flatten - (l.map fun s => (rationalPiece s.1 s.2.1 s.2.2).volume o2).sum| ≤
        (l.map fun s => 256 / 3 * (k ^ 3 * Q ^ 3 * T ^ 3 / ω ^ 6) * (1 / (s.2.1 : ℝ) + 1 / (s.2.2 : ℝ))).sum := by
  have hs : ∀ p ∈ l.map fun s => rationalPiece s.1 s.2.1 s.2.2, p.Sound (4 * (k * Q * T / ω ^ 2)) (24 * (k ^ 2 * Q * T ^ 2 / ω ^ 3)) (Q / ω) 0 :=
    fun p hp => by
      obtain ⟨s, hs, rfl⟩ := List.mem_map.1 hp
      exact C172_sound hω (h s hs) (hd s hs).1 (hd s hs).2.1
  have hz : ∀ p ∈ l.map fun s => rationalPiece s.1 s.2.1 s.2.2, (p.a + 1) * (p.b + 1) ≤ 2 ^ 32 := fun p hp => by
    obtain ⟨s, hs, rfl⟩ := List.mem_map.1 hp
    exact (hd s hs).2.2
  have hc := C173_sealed hω h hm
  obtain ⟨tss, h1, h2, h3⟩ := C168_solid hs hc hz
  refine ⟨tss, ?_, h2, fun o1 o2 => ?_⟩
  · rw [List.forall₂_map_left_iff] at h1
    exact h1
  · have := h3 o1 o2
    rw [List.map_map, List.map_map] at this
    refine this.trans (le_of_eq ?_)
    congr 1
    refine List.map_congr_left fun s hs => ?_
    change (1 - 0) * (1 - 0) * _ = _
    simp only [rationalPiece]
    field_simp
    ring

/-! ### Example -/

/-- The discus again, with the weights of the lower rim seven times those of the upper, and one in the middle. -/
def Spec.unevenPlate : List (Grid (V4 ℝ)) :=
  [⟨[⟨1, 0, 0, 1⟩, ⟨1, -1, 0, 1⟩, ⟨0, -2, 0, 2⟩, ⟨1, 1, 0, 1⟩, ⟨0, 0, 2, 2⟩, ⟨-2, -2, 0, 2⟩, ⟨0, 2, 0, 2⟩, ⟨-2, 2, 0, 2⟩, ⟨-4, 0, 0, 4⟩], 3, 3⟩,
   ⟨[⟨7, 0, 0, 7⟩, ⟨7, 7, 0, 7⟩, ⟨0, 14, 0, 14⟩, ⟨7, -7, 0, 7⟩, ⟨0, 0, -1, 1⟩, ⟨-14, 14, 0, 14⟩, ⟨0, -14, 0, 14⟩, ⟨-14, -14, 0, 14⟩,
     ⟨-28, 0, 0, 28⟩], 3, 3⟩]

/-- **C173**, an example: the meshes of this discus are watertight too, though no side of one patch is a side of the other. -/
theorem C173_example {n : Nat} (hn : 1 ≤ n) (hsz : (n + 1) * (n + 1) ≤ 2 ^ 32) :
    ∃ tss, List.Forall₂ (fun g ts => ∃ mesh, (SurfacePatch.mk (BezierSurface.mk g).surfaceRational ((0, 1), (0, 1)) (n, n)).getTriangleMesh = .ok mesh ∧
      corners mesh = some ts) unevenPlate tss ∧ Watertight tss.flatten := by
  have small : ∀ g ∈ unevenPlate, SmallRational g 2 28 28 1 := fun g hg => by
    simp only [unevenPlate, List.mem_cons, List.not_mem_nil, or_false] at hg
    rcases hg with rfl | rfl <;> refine ⟨rfl, by norm_num, by norm_num, fun i j hi hj => (V3.length_le_sum _).trans ?_, fun i j hi hj => ?_⟩ <;>
      (change i < 3 at hi; change j < 3 at hj; interval_cases i <;> interval_cases j <;> norm_num [entry, V4.truncate])
  obtain ⟨tss, h1, h2, -⟩ := C173_solid (l := unevenPlate.map fun g => (g, n, n)) one_pos (fun s hs => by
    obtain ⟨g, hg, rfl⟩ := List.mem_map.1 hs
    exact small g hg) (fun s hs => by
    obtain ⟨g, hg, rfl⟩ := List.mem_map.1 hs
    exact ⟨hn, hn, hsz⟩) (by
    refine ⟨[(n, [⟨1, 0, 0, 1⟩, ⟨1, 1, 0, 1⟩, ⟨0, 2, 0, 2⟩]), (n, [⟨0, 2, 0, 2⟩, ⟨-2, 2, 0, 2⟩, ⟨-4, 0, 0, 4⟩]),
        (n, [⟨-4, 0, 0, 4⟩, ⟨-2, -2, 0, 2⟩, ⟨0, -2, 0, 2⟩]), (n, [⟨0, -2, 0, 2⟩, ⟨1, -1, 0, 1⟩, ⟨1, 0, 0, 1⟩])],
      [(n, [⟨0, 14, 0, 14⟩, ⟨7, 7, 0, 7⟩, ⟨7, 0, 0, 7⟩]), (n, [⟨-28, 0, 0, 28⟩, ⟨-14, 14, 0, 14⟩, ⟨0, 14, 0, 14⟩]),
        (n, [⟨0, -14, 0, 14⟩, ⟨-14, -14, 0, 14⟩, ⟨-28, 0, 0, 28⟩]), (n, [⟨7, 0, 0, 7⟩, ⟨7, -7, 0, 7⟩, ⟨0, -14, 0, 14⟩])], [], ?_, ?_, by simp⟩
    · rw [List.append_nil]
      exact List.Perm.append_left _ (List.reverse_perm _).symm
    · have key : ∀ p q r p' q' r' : V4 ℝ, p' = (7 : ℝ) • p → q' = (7 : ℝ) • q → r' = (7 : ℝ) • r →
          ∃ s : ℝ, s ≠ 0 ∧ ((n, [r', q', p']) : Arc) = Arc.scale s (Arc.flip (n, [p, q, r])) := by
        rintro p q r _ _ _ rfl rfl rfl
        exact ⟨7, by norm_num, rfl⟩
      refine .cons (key _ _ _ _ _ _ ?_ ?_ ?_) (.cons (key _ _ _ _ _ _ ?_ ?_ ?_) (.cons (key _ _ _ _ _ _ ?_ ?_ ?_) (.cons (key _ _ _ _ _ _ ?_ ?_ ?_) .nil))) <;>
        (change _ = V4.mk _ _ _ _; norm_num))
  refine ⟨tss, ?_, h2⟩
  rw [List.forall₂_map_left_iff] at h1
  exact h1

end Geom3d
