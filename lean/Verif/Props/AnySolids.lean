import Verif.Props.SweptSurfaces
import Verif.Props.PatchSolids

/-!
# Solids bounded by surfaces of any kind (C168)

Patches of surfaces of any kind, with any divisions, whose sides match in pairs with the same number of divisions, or collapse to points:
the meshes together are watertight, the volume they enclose tends to the volume enclosed by the surfaces, and that does not depend on the
point from which it is measured.
-/

set_option linter.unusedSectionVars false

namespace Geom3d
open Spec

/-- A patch of a surface with its points, tangents, ranges and divisions. -/
structure Spec.Piece where
  surface : Surface ℝ
  S : ℝ → ℝ → V3 ℝ
  su : ℝ → ℝ → V3 ℝ
  sv : ℝ → ℝ → V3 ℝ
  U : ℝ × ℝ
  V : ℝ × ℝ
  a : Nat
  b : Nat

/-- The points and tangents are those of the surface, with bounds `L` and `M`, within `R` of `o`. -/
structure Spec.Piece.Sound (p : Piece) (L M R : ℝ) (o : V3 ℝ) : Prop where
  points : ∀ u v, u ∈ Set.Icc p.U.1 p.U.2 → v ∈ Set.Icc p.V.1 p.V.2 → p.surface.getPoint u v = .ok (p.S u v)
  normals : ∀ us vs, (∀ u ∈ us, u ∈ Set.Icc p.U.1 p.U.2) → (∀ v ∈ vs, v ∈ Set.Icc p.V.1 p.V.2) →
    ∃ N, p.surface.getNormals (gridParams us vs) = .ok N ∧ (N = [] ∨ N.length = (gridParams us vs).length)
  tangents : Tangents p.S p.su p.sv p.U p.V L M
  near : ∀ u ∈ Set.Icc p.U.1 p.U.2, ∀ v ∈ Set.Icc p.V.1 p.V.2, (p.S u v - o).length ≤ R
  ranges : p.U.1 < p.U.2 ∧ p.V.1 < p.V.2
  divisions : 1 ≤ p.a ∧ 1 ≤ p.b

/-- A side of a patch: its number of divisions, and its points over the unit interval. -/
abbrev Spec.Border := Nat × (unitInterval → V3 ℝ)

/-- The same side in the other direction. -/
def Spec.Border.back (c : Border) : Border := (c.1, fun t => c.2 (unitInterval.symm t))

/-- The way around the four sides. -/
def Spec.Piece.borders (p : Piece) : List Border :=
  [(p.a, fun t => p.S (p.U.1 + t * (p.U.2 - p.U.1)) p.V.1), (p.b, fun t => p.S p.U.2 (p.V.1 + t * (p.V.2 - p.V.1))),
   Border.back (p.a, fun t => p.S (p.U.1 + t * (p.U.2 - p.U.1)) p.V.2), Border.back (p.b, fun t => p.S p.U.1 (p.V.1 + t * (p.V.2 - p.V.1)))]

/-- The sides match in pairs, passed in both directions, or collapse to points. -/
def Spec.Sealed (l : List Border) : Prop :=
  ∃ A C : List Border, l.Perm (A ++ A.map Border.back ++ C) ∧ ∀ c ∈ C, ∀ s t, c.2 s = c.2 t

/-- The volume of the cone over the patch, with sign. -/
noncomputable def Spec.Piece.volume (o : V3 ℝ) (p : Piece) : ℝ := coneVolume o p.S p.su p.sv p.U p.V

/-- The bound of C163 for the patch. -/
noncomputable def Spec.Piece.error (L M R : ℝ) (p : Piece) : ℝ :=
  (p.U.2 - p.U.1) * (p.V.2 - p.V.1) * ((2 * (L * M) * R + L ^ 3) / 3 * ((p.U.2 - p.U.1) / p.a + (p.V.2 - p.V.1) / p.b))

/-- The triangles over the grid of the patch. -/
noncomputable def Spec.Piece.grid (p : Piece) : List (Tri ℝ) :=
  gridTriangles (fun i j => p.S (p.U.1 + i * ((p.U.2 - p.U.1) / p.a)) (p.V.1 + j * ((p.V.2 - p.V.1) / p.b))) p.a p.b

namespace Pieces
open Closing

/-- A point of a side. -/
noncomputable def at_ (c : Border) (t : ℝ) : V3 ℝ := c.2 (Set.projIcc 0 1 zero_le_one t)

noncomputable def walk (φ : V3 ℝ → V3 ℝ → ℝ) (c : Border) : ℝ :=
  ∑ k ∈ Finset.range c.1, φ (at_ c ((k : ℝ) / c.1)) (at_ c (((k + 1 : ℕ) : ℝ) / c.1))

theorem at_back (c : Border) {t : ℝ} (h0 : 0 ≤ t) (h1 : t ≤ 1) : at_ (Border.back c) t = at_ c (1 - t) := by
  unfold at_ Border.back
  simp only
  rw [Set.projIcc_of_mem zero_le_one (show t ∈ Set.Icc (0 : ℝ) 1 from ⟨h0, h1⟩),
    Set.projIcc_of_mem zero_le_one (show 1 - t ∈ Set.Icc (0 : ℝ) 1 from ⟨by linarith, by linarith⟩)]
  rfl

theorem walk_back {φ : V3 ℝ → V3 ℝ → ℝ} (hφ : Skew φ) (c : Border) : walk φ (Border.back c) = -walk φ c := by
  unfold walk
  change ∑ k ∈ Finset.range c.1, φ (at_ (Border.back c) ((k : ℝ) / c.1)) (at_ (Border.back c) (((k + 1 : ℕ) : ℝ) / c.1)) = _
  rw [← Finset.sum_range_reflect, ← Finset.sum_neg_distrib]
  refine Finset.sum_congr rfl fun k hk => ?_
  have hk := Finset.mem_range.1 hk
  have hn : (0 : ℝ) < c.1 := by exact_mod_cast (by omega : 0 < c.1)
  have e1 : ((c.1 - 1 - k : ℕ) : ℝ) = c.1 - 1 - k := by
    rw [Nat.cast_sub (by omega), Nat.cast_sub (by omega)]; simp
  have hk1 : (k : ℝ) + 1 ≤ c.1 := by exact_mod_cast hk
  have hk0 : (0 : ℝ) ≤ k := Nat.cast_nonneg k
  rw [at_back c (by positivity) (by rw [div_le_one hn, e1]; linarith), at_back c (by positivity) (by
    rw [div_le_one hn]; push_cast; rw [e1]; linarith), hφ.anti]
  congr 3
  · push_cast
    rw [e1]
    field_simp
    ring
  · push_cast
    rw [e1]
    field_simp
    ring

theorem walk_const {φ : V3 ℝ → V3 ℝ → ℝ} (hφ : Skew φ) {c : Border} (h : ∀ s t, c.2 s = c.2 t) : walk φ c = 0 := by
  unfold walk
  refine Finset.sum_eq_zero fun k _ => ?_
  unfold at_
  rw [h _ (Set.projIcc 0 1 zero_le_one (((k + 1 : ℕ) : ℝ) / c.1)), hφ.self]

theorem walk_sealed {φ : V3 ℝ → V3 ℝ → ℝ} (hφ : Skew φ) {l : List Border} (h : Sealed l) : (l.map (walk φ)).sum = 0 := by
  obtain ⟨A, C, hp, hC⟩ := h
  rw [(hp.map _).sum_eq]
  have e1 : ((A.map Border.back).map (walk φ)).sum = -(A.map (walk φ)).sum := by
    clear hp
    induction A with
    | nil => simp
    | cons c A ih =>
      rw [List.map_cons, List.map_cons, List.map_cons, List.sum_cons, List.sum_cons, walk_back hφ, ih]
      ring
  have e2 : (C.map (walk φ)).sum = 0 := by
    apply List.sum_eq_zero
    intro x hx
    obtain ⟨c, hc, rfl⟩ := List.mem_map.1 hx
    exact walk_const hφ (hC c hc)
  rw [List.map_append, List.map_append, List.sum_append, List.sum_append, e1, e2]
  ring

theorem at_frac {f : ℝ → V3 ℝ} {n k : Nat} (hk : k ≤ n) (hn : 1 ≤ n) : at_ (n, fun t => f t) ((k : ℝ) / n) = f ((k : ℝ) / n) := by
  have hn0 : (0 : ℝ) < n := by exact_mod_cast hn
  have hkn : (k : ℝ) ≤ n := by exact_mod_cast hk
  unfold at_
  rw [Set.projIcc_of_mem zero_le_one (show (k : ℝ) / n ∈ Set.Icc (0 : ℝ) 1 from ⟨by positivity, (div_le_one hn0).2 hkn⟩)]

/-- The boundary of the grid of a patch. -/
theorem grid_borders {φ : V3 ℝ → V3 ℝ → ℝ} (hφ : Skew φ) {p : Piece} (ha : 1 ≤ p.a) (hb : 1 ≤ p.b) :
    weight φ (sidesOf p.grid) = (p.borders.map (walk φ)).sum := by
  have a0 : (p.a : ℝ) ≠ 0 := by positivity
  have b0 : (p.b : ℝ) ≠ 0 := by positivity
  have side : ∀ (n : Nat), 1 ≤ n → ∀ (f : ℝ → V3 ℝ) (x d : ℝ),
      ∑ k ∈ Finset.range n, φ (f (x + k * (d / n))) (f (x + ((k + 1 : ℕ) : ℝ) * (d / n))) = walk φ (n, fun t => f (x + t * d)) := by
    intro n hn f x d
    unfold walk
    refine Finset.sum_congr rfl fun k hk => ?_
    have hk := Finset.mem_range.1 hk
    rw [at_frac (f := fun t => f (x + t * d)) hk.le hn, at_frac (f := fun t => f (x + t * d)) hk hn]
    simp only [div_mul_eq_mul_div, mul_div_assoc]
  unfold Piece.grid
  rw [grid_weight hφ]
  unfold Piece.borders
  simp only [List.map_cons, List.map_nil, List.sum_cons, List.sum_nil, walk_back hφ]
  have eU : p.U.1 + (p.a : ℝ) * ((p.U.2 - p.U.1) / p.a) = p.U.2 := by field_simp; ring
  have eV : p.V.1 + (p.b : ℝ) * ((p.V.2 - p.V.1) / p.b) = p.V.2 := by field_simp; ring
  simp only [eU, eV, Nat.cast_zero, zero_mul, add_zero]
  rw [← side p.a ha (fun x => p.S x p.V.1) p.U.1 (p.U.2 - p.U.1), ← side p.a ha (fun x => p.S x p.V.2) p.U.1 (p.U.2 - p.U.1),
    ← side p.b hb (fun x => p.S p.U.1 x) p.V.1 (p.V.2 - p.V.1), ← side p.b hb (fun x => p.S p.U.2 x) p.V.1 (p.V.2 - p.V.1)]
  ring

/-- The same patch with `N` times the divisions. -/
def fine (N : Nat) (p : Piece) : Piece := { p with a := p.a * N, b := p.b * N }

theorem sealed_fine {N : Nat} {ps : List Piece} (h : Sealed (ps.flatMap Piece.borders)) : Sealed ((ps.map (fine N)).flatMap Piece.borders) := by
  obtain ⟨A, C, hp, hC⟩ := h
  have e : (ps.map (fine N)).flatMap Piece.borders = (ps.flatMap Piece.borders).map fun c => (c.1 * N, c.2) := by
    rw [List.flatMap_map, List.map_flatMap]
    rfl
  refine ⟨A.map fun c => (c.1 * N, c.2), C.map fun c => (c.1 * N, c.2), ?_, ?_⟩
  · rw [e]
    refine (hp.map _).trans (List.Perm.of_eq ?_)
    rw [List.map_append, List.map_append, List.map_map, List.map_map]
    rfl
  · intro c hc
    obtain ⟨c', hc', rfl⟩ := List.mem_map.1 hc
    exact hC c' hc'

theorem fine_sound {N : Nat} (hN : 1 ≤ N) {p : Piece} {L M R : ℝ} {o : V3 ℝ} (h : p.Sound L M R o) : (fine N p).Sound L M R o :=
  ⟨h.points, h.normals, h.tangents, h.near, h.ranges, Nat.mul_pos h.divisions.1 hN, Nat.mul_pos h.divisions.2 hN⟩

theorem fine_error {N : Nat} (hN : 1 ≤ N) (L M R : ℝ) (p : Piece) : (fine N p).error L M R = p.error L M R / N := by
  have : (N : ℝ) ≠ 0 := by positivity
  unfold Piece.error fine
  push_cast
  rw [← div_div, ← div_div]
  ring

theorem volumes_near {ps : List Piece} {L M R : ℝ} {o : V3 ℝ} (h : ∀ p ∈ ps, p.Sound L M R o) :
    |volumeFrom o (ps.map Piece.grid).flatten - (ps.map (Piece.volume o)).sum| ≤ (ps.map (Piece.error L M R)).sum := by
  induction ps with
  | nil => simp [volumeFrom]
  | cons p ps ih =>
    have hp := h p (by simp)
    have h1 := C163_grid hp.tangents hp.ranges.1 hp.ranges.2 hp.near hp.divisions.1 hp.divisions.2
    have h2 := ih fun p' hp' => h p' (by simp [hp'])
    rw [List.map_cons, List.flatten_cons, Solid.volumeFrom_append, List.map_cons, List.sum_cons, List.map_cons, List.sum_cons]
    have e : volumeFrom o p.grid + volumeFrom o (ps.map Piece.grid).flatten - (p.volume o + (ps.map (Piece.volume o)).sum) =
      (volumeFrom o p.grid - p.volume o) + (volumeFrom o (ps.map Piece.grid).flatten - (ps.map (Piece.volume o)).sum) := by ring
    rw [e]
    exact (abs_add_le _ _).trans (add_le_add h1 h2)

end Pieces

open Pieces

/-- **C168** The grids of patches whose sides match or collapse are watertight together. -/
theorem C168_closed {ps : List Piece} (h : ∀ p ∈ ps, 1 ≤ p.a ∧ 1 ≤ p.b) (hm : Sealed (ps.flatMap Piece.borders)) :
    Watertight (ps.map Piece.grid).flatten := by
  refine Closing.watertight_of fun φ hφ => ?_
  have e : weight φ (sidesOf (ps.map Piece.grid).flatten) = ((ps.flatMap Piece.borders).map (walk φ)).sum := by
    clear hm
    induction ps with
    | nil => rfl
    | cons p ps ih =>
      rw [List.map_cons, List.flatten_cons, sidesOf, List.flatMap_append, weight_append, List.flatMap_cons, List.map_append,
        List.sum_append, ← grid_borders hφ (h p (by simp)).1 (h p (by simp)).2, ← ih fun p' hp' => h p' (by simp [hp'])]
      rfl
  rw [e]
  exact walk_sealed hφ hm

/-- **C168** The volume enclosed by the surfaces does not depend on the point from which it is measured. -/
theorem C168_invariant {ps : List Piece} {L M R : ℝ} {o : V3 ℝ} (h : ∀ p ∈ ps, p.Sound L M R o) (hm : Sealed (ps.flatMap Piece.borders))
    (o' : V3 ℝ) : (ps.map (Piece.volume o')).sum = (ps.map (Piece.volume o)).sum := by
  have h' : ∀ p ∈ ps, p.Sound L M (R + (o - o').length) o' := fun p hp => by
    refine ⟨(h p hp).points, (h p hp).normals, (h p hp).tangents, fun u hu v hv => ?_, (h p hp).ranges, (h p hp).divisions⟩
    rw [← sub_add_sub_cancel (p.S u v) o o']
    exact (V3.length_add_le _ _).trans (add_le_add_left ((h p hp).near u hu v hv) _)
  have fineSum : ∀ (N : Nat), 1 ≤ N → ∀ R' : ℝ, ((ps.map (fine N)).map (Piece.error L M R')).sum = (ps.map (Piece.error L M R')).sum / N := by
    intro N hN R'
    rw [List.map_map]
    clear h h' hm
    induction ps with
    | nil => simp
    | cons p ps ih => rw [List.map_cons, List.sum_cons, ih, List.map_cons, List.sum_cons, Function.comp_apply, fine_error hN, add_div]
  have fineVol : ∀ (N : Nat) (x : V3 ℝ), ((ps.map (fine N)).map (Piece.volume x)).sum = (ps.map (Piece.volume x)).sum := by
    intro N x
    rw [List.map_map]
    rfl
  set K := (ps.map (Piece.error L M R)).sum with hK
  set K' := (ps.map (Piece.error L M (R + (o - o').length))).sum with hK'
  by_contra hne
  have hpos : 0 < |(ps.map (Piece.volume o')).sum - (ps.map (Piece.volume o)).sum| := abs_pos.2 (sub_ne_zero.2 hne)
  obtain ⟨N, hN⟩ := exists_nat_gt ((K + K') / |(ps.map (Piece.volume o')).sum - (ps.map (Piece.volume o)).sum|)
  have hn : 1 ≤ N + 1 := by omega
  have s1 : ∀ p ∈ ps.map (fine (N + 1)), p.Sound L M R o := fun p hp => by
    obtain ⟨p', hp', rfl⟩ := List.mem_map.1 hp
    exact fine_sound hn (h p' hp')
  have s2 : ∀ p ∈ ps.map (fine (N + 1)), p.Sound L M (R + (o - o').length) o' := fun p hp => by
    obtain ⟨p', hp', rfl⟩ := List.mem_map.1 hp
    exact fine_sound hn (h' p' hp')
  have k1 := volumes_near s1
  have k2 := volumes_near s2
  rw [(C162_volume (C168_closed (fun p hp => (s1 p hp).divisions) (sealed_fine hm))).1 o' o] at k2
  rw [fineSum _ hn, fineVol, ← hK] at k1
  rw [fineSum _ hn, fineVol, ← hK'] at k2
  have hN1 : (0 : ℝ) < ((N + 1 : ℕ) : ℝ) := by positivity
  have k3 : |(ps.map (Piece.volume o')).sum - (ps.map (Piece.volume o)).sum| ≤ (K + K') / ((N + 1 : ℕ) : ℝ) := by
    rw [add_div]
    rw [abs_le] at k1 k2 ⊢
    constructor <;> linarith [k1.1, k1.2, k2.1, k2.2]
  rw [le_div_iff₀ hN1] at k3
  rw [div_lt_iff₀ hpos] at hN
  push_cast at k3
  nlinarith

/-- **C168** The meshes of patches of any kind whose sides match or collapse: watertight, and the volume they enclose is near that enclosed
by the surfaces, from wherever both are measured. -/
theorem C168_solid {ps : List Piece} {L M R : ℝ} {o : V3 ℝ} (h : ∀ p ∈ ps, p.Sound L M R o) (hm : Sealed (ps.flatMap Piece.borders))
    (hsz : ∀ p ∈ ps, (p.a + 1) * (p.b + 1) ≤ 2 ^ 32) :
    ∃ tss, List.Forall₂ (fun p ts => ∃ mesh, (SurfacePatch.mk p.surface (p.U, p.V) (p.a, p.b)).getTriangleMesh = .ok mesh ∧
      corners mesh = some ts) ps tss ∧ Watertight tss.flatten ∧
      ∀ o1 o2, |volumeFrom o1 tss.flatten - (ps.map (Piece.volume o2)).sum| ≤ (ps.map (Piece.error L M R)).sum := by
  have hw := C168_closed (fun p hp => (h p hp).divisions) hm
  refine ⟨ps.map Piece.grid, ?_, hw, fun o1 o2 => ?_⟩
  · rw [List.forall₂_map_right_iff]
    refine List.forall₂_same.2 fun p hp => ?_
    have hp' := h p hp
    exact grid_mesh hp'.points hp'.normals hp'.ranges.1 hp'.ranges.2 hp'.divisions.1 hp'.divisions.2 (hsz p hp)
  · rw [(C162_volume hw).1 o1 o, C168_invariant h hm o2]
    exact volumes_near h

/-! ### Cans -/

/-- A straight section. -/
noncomputable def Spec.rod (q d : V3 ℝ) : CurveObj ℝ :=
  { getPoint := fun u => .ok ((Line.mk q d).getPoint u), project := fun x => .ok ((Line.mk q d).project x) }

/-- The patches of a can: the side, as a cylinder, the bottom and the top, as radii spun about the axis. -/
noncomputable def Spec.can (c : Cylinder ℝ) (h : ℝ) (a b k : Nat) : List (SurfacePatch ℝ) :=
  [⟨c.surface, ((0, h), (0, 2 * Real.pi)), (a, b)⟩,
   ⟨SpinSurface.surface ⟨c.origin, c.axis, rod c.origin (c.radius • c.refDir)⟩, ((0, 1), (0, 2 * Real.pi)), (k, b)⟩,
   ⟨SpinSurface.surface ⟨c.origin, c.axis, rod (c.origin + c.radius • c.refDir + h • c.axis) (-(c.radius • c.refDir))⟩, ((0, 1), (0, 2 * Real.pi)), (k, b)⟩]

namespace Pieces

/-- A patch of a straight section turned about an axis. -/
noncomputable def turnedPiece (s : Surface ℝ) (o x q d : V3 ℝ) (h : ℝ) (a b : Nat) : Piece :=
  ⟨s, spun o x fun u => q + u • d, spunU x fun _ => d, spunV o x fun u => q + u • d, (0, h), (0, 2 * Real.pi), a, b⟩

theorem rod_section {q d o : V3 ℝ} {h D R : ℝ} (hD : d.length ≤ D) (hR : ∀ u ∈ Set.Icc 0 h, (q + u • d - o).length ≤ R) :
    Section (fun u => q + u • d) (fun _ => d) o 0 h D 0 R := by
  refine ⟨fun u _ w => ?_, fun u _ => hD, fun u _ u' _ => ?_, hR⟩
  · have e : (fun x : ℝ => w.dot (q + x • d)) = fun x => w.dot q + x * w.dot d := by
      funext x
      rw [V3.dot_add, V3.dot_smul]
    rw [e]
    have := ((hasDerivAt_id u).mul_const (w.dot d)).const_add (w.dot q)
    rw [one_mul] at this
    exact this.hasDerivWithinAt
  · rw [sub_self, zero_mul, V3.length_eq, V3.zero_dot, Real.sqrt_zero]

theorem rod_spin {o x q d : V3 ℝ} (hx : x.dot x = 1) (u v : ℝ) :
    (SpinSurface.surface ⟨o, x, rod q d⟩).getPoint u v = .ok (spun o x (fun u => q + u • d) u v) := by
  change SpinSurface.getPoint ⟨o, x, rod q d⟩ u v = _
  rw [spin_getPoint (s := ⟨o, x, rod q d⟩) hx (q := q + u • d) (by
    change Except.ok ((Line.mk q d).getPoint u) = _
    unfold Line.getPoint
    rw [V3.rmul_eq])]
  congr 1
  unfold spun turned spinRadial spinHeight
  simp only
  have e : x.cross (q + u • d - o - (q + u • d - o).dot x • x) = x.cross (q + u • d - o) := by
    ext <;> simp [V3.cross] <;> ring
  rw [e]
  module

theorem turned_sound {s : Surface ℝ} {o x q d : V3 ℝ} (hx : x.dot x = 1) {h D R L : ℝ} (hh : 0 < h) (hD : d.length ≤ D)
    (hR : ∀ u ∈ Set.Icc 0 h, (q + u • d - o).length ≤ R) (l1 : D ≤ L) (l2 : R ≤ L) (l0 : 0 ≤ L) {a b : Nat} (ha : 1 ≤ a) (hb : 1 ≤ b)
    (hs : ∀ u v, s.getPoint u v = .ok (spun o x (fun u => q + u • d) u v)) (hn : ∀ ps, s.getNormals ps = .ok []) :
    (turnedPiece s o x q d h a b).Sound L L L o := by
  refine ⟨fun u v _ _ => hs u v, fun us vs _ _ => ⟨[], hn _, Or.inl rfl⟩, C164_tangents hx (rod_section hD hR) l1 l2 l1 l0 l2, ?_,
    ⟨hh, Real.two_pi_pos⟩, ha, hb⟩
  intro u hu v _
  change (spun o x (fun u => q + u • d) u v - o).length ≤ L
  unfold spun
  rw [add_sub_cancel_left, Turned.length hx]
  exact (hR u hu).trans l2

theorem turn_full (x y : V3 ℝ) : turned x (2 * Real.pi) y = turned x 0 y := by
  unfold turned
  simp

theorem perm_can {α : Type} (x1 x2 x3 x4 x5 y1 y2 y3 y4 y5 z1 z2 : α) :
    [x1, x2, y1, y4, x3, x4, y3, z1, x5, z2, y5, y2].Perm [x1, x2, x3, x4, x5, y1, y2, y3, y4, y5, z1, z2] := by
  classical
  rw [List.perm_iff_count]
  intro c
  simp only [List.count_cons, List.count_nil]
  ring

end Pieces

/-- **C168** The meshes of a can, a cylinder with two discs: watertight, inside out, and the volume they enclose tends to `π r² h`. -/
theorem C168_can {c : Cylinder ℝ} (hc : CylFramed c) (hr : 0 ≤ c.radius) {h : ℝ} (hh : 0 < h) {a b k : Nat} (ha : 1 ≤ a) (hb : 1 ≤ b)
    (hk : 1 ≤ k) (s1 : (a + 1) * (b + 1) ≤ 2 ^ 32) (s2 : (k + 1) * (b + 1) ≤ 2 ^ 32) :
    ∃ tss, List.Forall₂ (fun p ts => ∃ mesh, p.getTriangleMesh = .ok mesh ∧ corners mesh = some ts) (can c h a b k) tss ∧
      Watertight tss.flatten ∧
      ∀ o, |volumeFrom o tss.flatten - -(Real.pi * c.radius ^ 2 * h)| ≤
        2 * Real.pi * (1 + c.radius + h) ^ 3 * (h * (h / a + 2 * Real.pi / b) + 2 * (1 / k + 2 * Real.pi / b)) := by
  set O := c.origin with hO
  set A := c.axis with hA
  obtain ⟨X, hX⟩ : ∃ X, X = c.radius • c.refDir := ⟨_, rfl⟩
  have hAA : A.dot A = 1 := hc.axis
  have hXX : X.dot X = c.radius ^ 2 := by rw [hX, V3.smul_dot, V3.dot_smul, hc.ref]; ring
  have hAX : A.dot X = 0 := by rw [hX, V3.dot_smul, hc.perp, mul_zero]
  have hXA : X.dot A = 0 := by rw [V3.dot_comm, hAX]
  have lA : A.length = 1 := by rw [V3.length_eq, hAA, Real.sqrt_one]
  have lX : X.length = c.radius := by rw [V3.length_eq, hXX, Real.sqrt_sq hr]
  set L := 1 + c.radius + h with hL
  have L0 : 0 ≤ L := by linarith
  set p1 := turnedPiece c.surface O A (O + X) A h a b with hp1
  set p2 := turnedPiece (SpinSurface.surface ⟨O, A, rod O X⟩) O A O X 1 k b with hp2
  set p3 := turnedPiece (SpinSurface.surface ⟨O, A, rod (O + X + h • A) (-X)⟩) O A (O + X + h • A) (-X) 1 k b with hp3
  have len : ∀ x y : ℝ, (x • X + y • A).length ≤ |x| * c.radius + |y| := by
    intro x y
    refine (V3.length_add_le _ _).trans (le_of_eq ?_)
    rw [V3.length_smul, V3.length_smul, lX, lA, mul_one]
  have d1 : p1.Sound L L L O := by
    refine turned_sound hAA hh (D := 1) (R := L) (le_of_eq lA) (fun u hu => ?_) (by linarith) le_rfl L0 ha hb (fun u v => ?_) fun _ => rfl
    · have e : O + X + u • A - O = (1 : ℝ) • X + u • A := by module
      rw [e]
      refine (len 1 u).trans ?_
      rw [abs_one, abs_of_nonneg hu.1]
      linarith [hu.2]
    · change Except.ok (c.getPoint u v) = _
      rw [Area.cylinder_point hc]
      congr 1
      unfold spun turned
      have e : O + X + u • A - O = X + u • A := by module
      simp only [e]
      have e2 : (X + u • A).dot A = u := by rw [V3.add_dot, V3.smul_dot, hXA, hAA]; ring
      have e3 : A.cross (X + u • A) = c.radius • A.cross c.refDir := by
        rw [hX]
        ext <;> simp [V3.cross] <;> ring
      rw [e2, e3, hX]
      module
  have d2 : p2.Sound L L L O := by
    refine turned_sound hAA one_pos (D := L) (R := L) (by rw [lX]; linarith) (fun u hu => ?_) le_rfl le_rfl L0 hk hb (rod_spin hAA) fun _ => rfl
    have e : O + u • X - O = u • X + (0 : ℝ) • A := by module
    rw [e]
    refine (len u 0).trans ?_
    rw [abs_zero, abs_of_nonneg hu.1]
    nlinarith [hu.2]
  have d3 : p3.Sound L L L O := by
    refine turned_sound hAA one_pos (D := L) (R := L) (by rw [V3.length_neg, lX]; linarith) (fun u hu => ?_) le_rfl le_rfl L0 hk hb (rod_spin hAA)
      fun _ => rfl
    have e : O + X + h • A + u • -X - O = (1 - u) • X + h • A := by module
    rw [e]
    refine (len _ h).trans ?_
    rw [abs_of_pos hh, abs_of_nonneg (by linarith [hu.2])]
    nlinarith [hu.1]
  have hm : Sealed ([p1, p2, p3].flatMap Piece.borders) := by
    have full : ∀ (f : ℝ → V3 ℝ) (u : ℝ), spun O A f u (2 * Real.pi) = spun O A f u 0 := fun f u => by
      unfold spun
      rw [turn_full]
    have m1 : (fun t : unitInterval => spun O A (fun u => O + u • X) 1 (0 + (t : ℝ) * (2 * Real.pi - 0))) =
        fun t : unitInterval => spun O A (fun u => O + X + u • A) 0 (0 + (t : ℝ) * (2 * Real.pi - 0)) := by
      funext t
      simp only [spun, one_smul, zero_smul, add_zero]
    have m2 : (fun t : unitInterval => spun O A (fun u => O + X + h • A + u • -X) 0 (0 + (t : ℝ) * (2 * Real.pi - 0))) =
        fun t : unitInterval => spun O A (fun u => O + X + u • A) h (0 + (t : ℝ) * (2 * Real.pi - 0)) := by
      funext t
      simp only [spun, zero_smul, add_zero]
    refine ⟨[(a, fun t => spun O A (fun u => O + X + u • A) (0 + t * (h - 0)) 0), (b, fun t => spun O A (fun u => O + X + u • A) h (0 + t * (2 * Real.pi - 0))),
      (k, fun t => spun O A (fun u => O + u • X) (0 + t * (1 - 0)) 0), (b, fun t => spun O A (fun u => O + u • X) 1 (0 + t * (2 * Real.pi - 0))),
      (k, fun t => spun O A (fun u => O + X + h • A + u • -X) (0 + t * (1 - 0)) 0)],
      [Border.back (b, fun t => spun O A (fun u => O + u • X) 0 (0 + t * (2 * Real.pi - 0))),
        (b, fun t => spun O A (fun u => O + X + h • A + u • -X) 1 (0 + t * (2 * Real.pi - 0)))], ?_, ?_⟩
    · refine List.Perm.trans (List.Perm.of_eq ?_) (perm_can _ _ _ _ _ _ _ _ _ _ _ _)
      simp only [List.flatMap_cons, List.flatMap_nil, Piece.borders, hp1, hp2, hp3, turnedPiece, List.cons_append, List.nil_append,
        full, m1, m2]
    · intro x hx s t
      simp only [List.mem_cons, List.not_mem_nil, or_false] at hx
      rcases hx with rfl | rfl
      · have e : ∀ v, spun O A (fun u => O + u • X) 0 v = O := fun v => by
          unfold spun turned
          ext <;> simp [V3.cross, V3.dot]
        unfold Border.back
        simp only [e]
      · have e : ∀ v, spun O A (fun u => O + X + h • A + u • -X) 1 v = O + h • A := fun v => by
          have e1 : O + X + h • A + (1 : ℝ) • -X - O = h • A := by module
          simp only [spun, e1]
          unfold turned
          have e2 : A.cross (h • A) = 0 := by ext <;> simp [V3.cross] <;> ring
          rw [V3.smul_dot, hAA, e2]
          module
        simp only [e]
  obtain ⟨tss, t1, t2, t3⟩ := C168_solid (ps := [p1, p2, p3]) (L := L) (M := L) (R := L) (o := O) (fun p hp => by
    simp only [List.mem_cons, List.not_mem_nil, or_false] at hp
    rcases hp with rfl | rfl | rfl
    · exact d1
    · exact d2
    · exact d3) hm (fun p hp => by
    simp only [List.mem_cons, List.not_mem_nil, or_false] at hp
    rcases hp with rfl | rfl | rfl
    · exact s1
    · exact s2
    · exact s2)
  refine ⟨tss, ?_, t2, fun o => ?_⟩
  · have e : can c h a b k = [p1, p2, p3].map fun p => SurfacePatch.mk p.surface (p.U, p.V) (p.a, p.b) := by
      unfold can
      rw [← hX]
      rfl
    rw [e, List.forall₂_map_left_iff]
    exact t1
  · have v1 : p1.volume O = -(2 * Real.pi / 3 * (h * c.radius ^ 2)) := by
      change coneVolume O (spun O A _) (spunU A _) (spunV O A _) (0, h) (0, 2 * Real.pi) = _
      rw [C164_volume _ _ hAA]
      have e : ∀ u : ℝ, (O + X + u • A - O).dot A * A.dot (O + X + u • A - O) - (O + X + u • A - O).dot (O + X + u • A - O) * A.dot A = -c.radius ^ 2 := by
        intro u
        have e1 : O + X + u • A - O = X + u • A := by module
        simp only [e1, V3.add_dot, V3.dot_add, V3.smul_dot, V3.dot_smul, hXX, hAA, hAX, hXA]
        ring
      simp only [e, intervalIntegral.integral_const, smul_eq_mul]
      ring
    have v2 : p2.volume O = 0 := by
      change coneVolume O (spun O A _) (spunU A _) (spunV O A _) (0, 1) (0, 2 * Real.pi) = _
      rw [C164_volume _ _ hAA]
      have e : ∀ u : ℝ, (O + u • X - O).dot A * X.dot (O + u • X - O) - (O + u • X - O).dot (O + u • X - O) * X.dot A = 0 := by
        intro u
        have e1 : O + u • X - O = u • X := by module
        simp only [e1, V3.smul_dot, V3.dot_smul, hXA]
        ring
      simp only [e, intervalIntegral.integral_const, smul_eq_mul]
      ring
    have v3 : p3.volume O = -(Real.pi / 3 * (h * c.radius ^ 2)) := by
      change coneVolume O (spun O A _) (spunU A _) (spunV O A _) (0, 1) (0, 2 * Real.pi) = _
      rw [C164_volume _ _ hAA]
      have e : ∀ u : ℝ, (O + X + h • A + u • -X - O).dot A * (-X).dot (O + X + h • A + u • -X - O)
          - (O + X + h • A + u • -X - O).dot (O + X + h • A + u • -X - O) * (-X).dot A = (h * c.radius ^ 2) * u - h * c.radius ^ 2 := by
        intro u
        have e1 : O + X + h • A + u • -X - O = (1 - u) • X + h • A := by module
        have e2 : -X = (-1 : ℝ) • X := by module
        rw [e1, e2]
        simp only [V3.add_dot, V3.dot_add, V3.smul_dot, V3.dot_smul, hXX, hAA, hAX, hXA]
        ring
      simp only [e]
      rw [intervalIntegral.integral_sub ((by fun_prop : Continuous _).intervalIntegrable _ _) ((by fun_prop : Continuous _).intervalIntegrable _ _),
        intervalIntegral.integral_const_mul, integral_id, intervalIntegral.integral_const, smul_eq_mul]
      ring
    have := t3 o O
    simp only [List.map_cons, List.map_nil, List.sum_cons, List.sum_nil, v1, v2, v3] at this
    have e : -(2 * Real.pi / 3 * (h * c.radius ^ 2)) + (0 + (-(Real.pi / 3 * (h * c.radius ^ 2)) + 0)) = -(Real.pi * c.radius ^ 2 * h) := by ring
    rw [e] at this
    refine this.trans (le_of_eq ?_)
    simp only [Piece.error, hp1, hp2, hp3, turnedPiece, sub_zero]
    ring

/-- **C168**, an example: a can of radius 1 and height 2 around the axis z. -/
example : ∃ tss, List.Forall₂ (fun p ts => ∃ mesh, p.getTriangleMesh = .ok mesh ∧ corners mesh = some ts)
    (can (⟨0, ⟨0, 0, 1⟩, ⟨1, 0, 0⟩, 1⟩ : Cylinder ℝ) 2 20000 40000 10000) tss ∧
      Watertight tss.flatten ∧ ∀ o, |volumeFrom o tss.flatten - -(2 * Real.pi)| ≤ 1 := by
  obtain ⟨tss, h1, h2, h3⟩ := C168_can (c := (⟨0, ⟨0, 0, 1⟩, ⟨1, 0, 0⟩, 1⟩ : Cylinder ℝ)) ⟨by simp [V3.dot], by simp [V3.dot], by simp [V3.dot]⟩
    (by norm_num) (show (0 : ℝ) < 2 by norm_num) (a := 20000) (b := 40000) (k := 10000) (by norm_num) (by norm_num) (by norm_num)
    (by norm_num) (by norm_num)
  refine ⟨tss, h1, h2, fun o => ?_⟩
  have e : -(Real.pi * (1 : ℝ) ^ 2 * 2) = -(2 * Real.pi) := by ring
  have := h3 o
  rw [e] at this
  refine this.trans ?_
  have hp := Real.pi_lt_d2
  have hp0 := Real.pi_pos
  norm_num
  nlinarith

end Geom3d
