import Verif.Props.RationalMeasure
import Verif.Props.NurbsSolids

/-!
# Area and volume of meshes of rational B-spline surfaces computed in binary64 (C176)

C107 bounds how far the points of a rational B-spline surface computed in binary64 are off, C174 the tangents of the exact surface.  With
C175 this bounds how far the area of the computed mesh and the volume over it are off.  The meshes of neighbouring surfaces need not meet in
binary64 (C114), so nothing is said about volumes from other points than the one chosen.
-/

set_option linter.unusedSectionVars false

namespace Geom3d
open Spec F64 Deviation Nudge

/-- The exact surface with the numbers of `s`. -/
noncomputable def Spec.realNurbs (s : BSplineSurface Float (V4 Float)) : BSplineSurface ℝ (V4 ℝ) :=
  ⟨mapNet toReal4 s.controlPoints, (s.knots.1.map val, s.knots.2.map val), s.degree⟩

/-- How far homogeneous coordinates computed in binary64 are off at most (C107): `N` weights do not vanish, `M` bounds the coordinates. -/
noncomputable def Spec.homogeneousError (M : ℝ) (N : Nat) : ℝ := N * 2 ^ (-48 : Int) * M + N * 2 ^ (-1073 : Int)

/-- How far the points of a rational B-spline surface computed in binary64 are off at most (C107). -/
noncomputable def Spec.nurbsError (M ω R : ℝ) (N : Nat) : ℝ := (1 + R) * (2 * homogeneousError M N / ω + 2 ^ (-50 : Int))

/-- Knots of splines of degree `p` with `N` control points from 0 to 1, with `p + 1` equal knots at the end. -/
structure Spec.UnitKnots (knots : List Float) (N p : Nat) : Prop where
  ok : KnotsF knots
  len : knots.length = N + p + 1
  size : N + p ≤ 2 ^ 40
  clamped : ClampedEnd knots p
  start : val (knot knots p) = 0
  first : val (knot knots 0) = 0
  last : val (knot knots (N + p)) = 1

/-- A rational B-spline surface in binary64 over the unit square whose homogeneous coordinates are at most `M`, whose weights are at least
`ω` and whose points have coordinates of at most `R`. -/
structure Spec.UnitNurbs (M ω R : ℝ) (s : BSplineSurface Float (V4 Float)) : Prop where
  net : NetOk s.controlPoints
  rows : 0 < s.controlPoints.rows
  cols : 0 < s.controlPoints.cols
  knotsU : UnitKnots s.knots.1 s.controlPoints.rows s.degree.1
  knotsV : UnitKnots s.knots.2 s.controlPoints.cols s.degree.2
  small : (s.degree.1 + 1) * (s.degree.2 + 1) ≤ 2 ^ 40
  points : ∀ p ∈ s.controlPoints.data, Rational M ω R p
  safe : homogeneousError M ((s.degree.1 + 1) * (s.degree.2 + 1)) ≤ ω / 2

namespace Nurbs

theorem unit_knot {knots : List Float} {i : Nat} (hi : i < knots.length) : knot (knots.map val) i = val (knot knots i) := by
  simp [knot, List.getD, hi]

theorem unit_domain {knots : List Float} {N p : Nat} (h : UnitKnots knots N p) {u : Float} (h0 : 0 ≤ u) (h1 : u ≤ 1) :
    DomainF knots p u ∧ val u ∈ Set.Icc (knot (knots.map val) 0) (knot (knots.map val) (N + p)) := by
  obtain ⟨fu, v0, v1⟩ := unit_float h0 h1
  have hl := h.len
  have e : knots.length - 1 = N + p := by omega
  have el := h.last
  refine ⟨⟨fu, by rw [h.start]; exact v0, ?_⟩, ?_⟩
  · rcases v1.lt_or_eq with hlt | heq
    · left
      rw [h.clamped.last _ (le_refl _) (by omega), e, el]
      exact hlt
    · right
      exact ⟨h.clamped, by rw [e, el]; exact heq⟩
  · rw [unit_knot (by omega), unit_knot (by omega), h.first, el]
    exact ⟨v0, v1⟩

theorem unit_ends {knots : List Float} {N p : Nat} (h : UnitKnots knots N p) :
    (knot (knots.map val) 0, knot (knots.map val) (N + p)) = ((0, 1) : ℝ × ℝ) := by
  have hl := h.len
  rw [unit_knot (by omega), unit_knot (by omega), h.first, h.last]

/-- The points of a rational B-spline surface computed in binary64 are near the exact ones. -/
theorem close {s : BSplineSurface Float (V4 Float)} {M ω R : ℝ} (hg : UnitNurbs M ω R s) (hM : M ≤ 2 ^ (1021 : Int))
    (hω : (2 : ℝ) ^ (-1000 : Int) ≤ ω) (hR : R ≤ 2 ^ (1000 : Int)) {Ln Mn Rn Lw Mw Rw : ℝ} (hs : SmoothNurbs (realNurbs s) Ln Mn Rn Lw Mw Rw ω)
    (a b : Nat) {u v : Float} (hu0 : 0 ≤ u) (hu1 : u ≤ 1) (hv0 : 0 ≤ v) (hv1 : v ≤ 1) :
    ∃ x, s.surfaceRational.getPoint u v = .ok x ∧
      Near (nurbsError M ω R ((s.degree.1 + 1) * (s.degree.2 + 1))) x ((nurbsPiece (realNurbs s) a b).S (val u) (val v)) := by
  obtain ⟨du, iu⟩ := unit_domain hg.knotsU hu0 hu1
  obtain ⟨dv, iv⟩ := unit_domain hg.knotsV hv0 hv1
  obtain ⟨x, q, k1, k2, k3⟩ := C107_bspline_surface s hg.net hg.knotsU.ok hg.knotsV.ok hg.knotsU.len hg.knotsV.len hg.rows hg.cols
    hg.knotsU.size hg.knotsV.size hg.small u v du dv M ω R _ hM hω hR hg.points rfl hg.safe
  have k := point hs (u := val u) (v := val v) iu iv
  have k2' : (realNurbs s).getPointRational (val u) (val v) = .ok q := k2
  rw [k] at k2'
  cases k2'
  exact ⟨x, k1, k3⟩

end Nurbs

/-- **C176** The area of the mesh of a rational B-spline surface computed in binary64, and the volume over it. -/
theorem C176_nurbs {s : BSplineSurface Float (V4 Float)} {M ω R : ℝ} (hg : UnitNurbs M ω R s) (hM : M ≤ 2 ^ (1021 : Int))
    (hω : (2 : ℝ) ^ (-1000 : Int) ≤ ω) (hR : R ≤ 2 ^ (1000 : Int)) {Ln Mn Rn Lw Mw Rw L T : ℝ} (hs : SmoothNurbs (realNurbs s) Ln Mn Rn Lw Mw Rw ω)
    (hL : Ln + Rn / ω * Lw ≤ ω * L) (hT : Mn + Rn / ω * Mw + 2 * (Lw * L) ≤ ω * T)
    {a b : Nat} (ha : 1 ≤ a) (hb : 1 ≤ b) (ha2 : a ≤ 2 ^ 20) (hb2 : b ≤ 2 ^ 20) (hsz : (a + 1) * (b + 1) ≤ 2 ^ 32)
    {δ : ℝ} (hδ : L * ((a + b) * 2 ^ (-49 : Int)) + 2 * nurbsError M ω R ((s.degree.1 + 1) * (s.degree.2 + 1)) ≤ δ) :
    ∃ mesh ts, (SurfacePatch.mk s.surfaceRational ((0, 1), (0, 1)) (a, b)).getTriangleMesh = .ok mesh ∧ corners mesh = some ts ∧
      |totalArea (ts.map triReal) - surfaceArea (nurbsPiece (realNurbs s) a b).su (nurbsPiece (realNurbs s) a b).sv (0, 1) (0, 1)| ≤
        2 * (L * T) * (1 / a + 1 / b) + 2 * δ * (L * (a + b) + 2 * (a * b * δ)) ∧
      |volumeFrom 0 (ts.map triReal) - (nurbsPiece (realNurbs s) a b).volume 0| ≤
        (2 * (L * T) * (Rn / ω) + L ^ 3) / 3 * (1 / a + 1 / b) +
          δ / 3 * (2 * (Rn / ω) * (L * (a + b) + 2 * (a * b * δ)) + (L + 2 * (a * δ)) * (L + 2 * (b * δ))) := by
  have hω0 : 0 < ω := (two_zpow_pos _).trans_le hω
  have hp := C174_sound hω0 hs hL hT ha hb
  have e1 : (nurbsPiece (realNurbs s) a b).U = (0, 1) := by
    have := Nurbs.unit_ends hg.knotsU
    exact this
  have e2 : (nurbsPiece (realNurbs s) a b).V = (0, 1) := by
    have := Nurbs.unit_ends hg.knotsV
    exact this
  have ht := hp.tangents
  have hr := hp.near
  rw [e1, e2] at ht hr
  have hv : (nurbsPiece (realNurbs s) a b).volume 0 = coneVolume 0 (nurbsPiece (realNurbs s) a b).S (nurbsPiece (realNurbs s) a b).su
      (nurbsPiece (realNurbs s) a b).sv (0, 1) (0, 1) := by
    unfold Piece.volume
    rw [e1, e2]
  rw [hv]
  exact C175_mesh (s := s.surfaceRational) (fun u v h1 h2 h3 h4 => Nurbs.close hg hM hω hR hs a b h1 h2 h3 h4) (fun _ => rfl) ht hr ha hb ha2 hb2 hsz hδ

/-- **C176** The meshes of a set of rational B-spline surfaces computed in binary64: the volume of the cones over their triangles is near
that of the cones over the exact surfaces. -/
theorem C176_solid {l : List (BSplineSurface Float (V4 Float))} {M ω R e : ℝ} (hg : ∀ s ∈ l, UnitNurbs M ω R s) (hM : M ≤ 2 ^ (1021 : Int))
    (hω : (2 : ℝ) ^ (-1000 : Int) ≤ ω) (hR : R ≤ 2 ^ (1000 : Int)) {Ln Mn Rn Lw Mw Rw L T : ℝ}
    (hs : ∀ s ∈ l, SmoothNurbs (realNurbs s) Ln Mn Rn Lw Mw Rw ω)
    (hL : Ln + Rn / ω * Lw ≤ ω * L) (hT : Mn + Rn / ω * Mw + 2 * (Lw * L) ≤ ω * T)
    (he : ∀ s ∈ l, nurbsError M ω R ((s.degree.1 + 1) * (s.degree.2 + 1)) ≤ e)
    {n : Nat} (hn : 1 ≤ n) (hn2 : n ≤ 2 ^ 20) (hsz : (n + 1) * (n + 1) ≤ 2 ^ 32) {δ : ℝ} (hδ : L * ((n + n) * 2 ^ (-49 : Int)) + 2 * e ≤ δ) :
    ∃ tss, List.Forall₂ (fun s ts => ∃ mesh, (SurfacePatch.mk s.surfaceRational ((0, 1), (0, 1)) (n, n)).getTriangleMesh = .ok mesh ∧
      corners mesh = some ts) l tss ∧
      |volumeFrom 0 (tss.flatten.map triReal) - (l.map fun s => (nurbsPiece (realNurbs s) n n).volume 0).sum| ≤ l.length *
        ((2 * (L * T) * (Rn / ω) + L ^ 3) / 3 * (1 / n + 1 / n) +
          δ / 3 * (2 * (Rn / ω) * (L * (n + n) + 2 * (n * n * δ)) + (L + 2 * (n * δ)) * (L + 2 * (n * δ)))) := by
  have hω0 : 0 < ω := (two_zpow_pos _).trans_le hω
  have e1 : ∀ s ∈ l, (nurbsPiece (realNurbs s) n n).U = (0, 1) := fun s h => by
    have := Nurbs.unit_ends (hg s h).knotsU
    exact this
  have e2 : ∀ s ∈ l, (nurbsPiece (realNurbs s) n n).V = (0, 1) := fun s h => by
    have := Nurbs.unit_ends (hg s h).knotsV
    exact this
  have hp := fun s (h : s ∈ l) => C174_sound hω0 (hs s h) hL hT hn hn
  have ht : ∀ s ∈ l, Tangents (nurbsPiece (realNurbs s) n n).S (nurbsPiece (realNurbs s) n n).su (nurbsPiece (realNurbs s) n n).sv (0, 1) (0, 1) L T :=
    fun s h => by
      have := (hp s h).tangents
      rw [e1 s h, e2 s h] at this
      exact this
  have hr : ∀ s ∈ l, ∀ u ∈ Set.Icc (0 : ℝ) 1, ∀ v ∈ Set.Icc (0 : ℝ) 1, ((nurbsPiece (realNurbs s) n n).S u v - 0).length ≤ Rn / ω := fun s h => by
    have := (hp s h).near
    rw [e1 s h, e2 s h] at this
    exact this
  have hc : ∀ s ∈ l, ∀ u v : Float, 0 ≤ u → u ≤ 1 → 0 ≤ v → v ≤ 1 →
      ∃ y, s.surfaceRational.getPoint u v = .ok y ∧ Near e y ((nurbsPiece (realNurbs s) n n).S (val u) (val v)) := fun s h u v q1 q2 q3 q4 => by
    obtain ⟨x, r1, ⟨a1, a2⟩, ⟨b1, b2⟩, c1, c2⟩ := Nurbs.close (hg s h) hM hω hR (hs s h) n n q1 q2 q3 q4
    exact ⟨x, r1, ⟨a1, a2.trans (he s h)⟩, ⟨b1, b2.trans (he s h)⟩, c1, c2.trans (he s h)⟩
  obtain ⟨tss, k1, k2⟩ := C175_solid (l := l) (s := fun s => s.surfaceRational) hc (fun _ _ _ => rfl) ht hr hn hn2 hsz hδ
  refine ⟨tss, k1, ?_⟩
  have ev : (l.map fun s => (nurbsPiece (realNurbs s) n n).volume 0) = l.map fun s => coneVolume 0 (nurbsPiece (realNurbs s) n n).S
      (nurbsPiece (realNurbs s) n n).su (nurbsPiece (realNurbs s) n n).sv (0, 1) (0, 1) :=
    List.map_congr_left fun s h => by
      unfold Piece.volume
      rw [e1 s h, e2 s h]
  rw [ev]
  exact k2

/-! ### Example -/

/-- The numbers of the example, all of them natural: weights 8 and 9, abscissas 0, 1, 3, 4. -/
def Spec.moundNat (i j : Nat) : Nat × Nat × Nat × Nat :=
  let g := fun i => if i = 0 then 0 else if i = 1 then 1 else if i = 2 then 3 else 4
  let b := if (i = 1 ∨ i = 2) ∧ (j = 1 ∨ j = 2) then 1 else 0
  ((8 + b) * g i, (8 + b) * g j, (8 + b) * b, 8 + b)

/-- A mound: a quadratic rational B-spline surface over the unit square. -/
def Spec.moundF : BSplineSurface Float (V4 Float) :=
  ⟨⟨netTab 4 4 fun i j => ⟨Float.ofNat (moundNat i j).1, Float.ofNat (moundNat i j).2.1, Float.ofNat (moundNat i j).2.2.1,
    Float.ofNat (moundNat i j).2.2.2⟩, 4, 4⟩,
    ([0, 0, 0, Float.ofBits 0x3FE0000000000000, 1, 1, 1], [0, 0, 0, Float.ofBits 0x3FE0000000000000, 1, 1, 1]), (2, 2)⟩

namespace Nurbs

theorem half_bits : IsFin (Float.ofBits 0x3FE0000000000000) ∧ val (Float.ofBits 0x3FE0000000000000) = 1 / 2 := by
  have h : (Float.ofBits 0x3FE0000000000000).toModel.unpack = .finite .positive (2 ^ 52) (-53) (by norm_num) := rfl
  unfold val
  rw [fin_unpack, h, uval_finite]
  refine ⟨rfl, ?_⟩
  show ((2 ^ 52 : Nat) : ℝ) * 2 ^ (-53 : Int) = 1 / 2
  norm_num

theorem mound_le (i j : Nat) : (moundNat i j).1 ≤ 36 ∧ (moundNat i j).2.1 ≤ 36 ∧ (moundNat i j).2.2.1 ≤ 9 ∧ 8 ≤ (moundNat i j).2.2.2 ∧
    (moundNat i j).2.2.2 ≤ 9 ∧ (moundNat i j).1 ≤ 4 * (moundNat i j).2.2.2 ∧ (moundNat i j).2.1 ≤ 4 * (moundNat i j).2.2.2 ∧
    (moundNat i j).2.2.1 ≤ 4 * (moundNat i j).2.2.2 := by
  simp only [moundNat]
  split_ifs <;> norm_num

theorem mound_real : realNurbs moundF =
    quadric4 fun i j => ⟨(moundNat i j).1, (moundNat i j).2.1, (moundNat i j).2.2.1, (moundNat i j).2.2.2⟩ := by
  have hv : ∀ n : Nat, n ≤ 36 → val (Float.ofNat n) = n := fun n hn => (ofNat_val (by omega)).2
  have hk : ([0, 0, 0, Float.ofBits 0x3FE0000000000000, 1, 1, 1] : List Float).map val = [0, 0, 0, 1 / 2, 1, 1, 1] := by
    simp only [List.map_cons, List.map_nil, zero_val.2, one_val.2, half_bits.2]
  unfold realNurbs quadric4 moundF
  simp only [hk, mapNet, netTab, List.map_flatMap, List.map_map]
  congr 2
  refine List.flatMap_congr fun i _ => ?_
  refine List.map_congr_left fun j _ => ?_
  obtain ⟨h1, h2, h3, h4, h5, -⟩ := mound_le i j
  simp only [Function.comp, toReal4]
  rw [hv _ h1, hv _ h2, hv _ (by omega), hv _ (by omega)]

theorem mound_smooth : SmoothNurbs (realNurbs moundF) 84 240 64 4 16 9 8 := by
  rw [mound_real]
  refine ⟨netTab_ok _ _ _, ?_, ?_, fun i j hi hj => ?_⟩
  · unfold numerator
    rw [quadric4_image]
    refine SplineSolid.quadric_smooth (by norm_num) (by norm_num) ?_ ?_ ?_ ?_ ?_ ?_ <;> intro i j hi hj <;>
      (try rw [← le_div_iff₀' (by norm_num)]) <;> refine (V3.length_le_sum _).trans ?_ <;> interval_cases i <;> interval_cases j <;>
      norm_num [moundNat, V4.truncate, abs_le]
  · unfold denominator
    rw [quadric4_image]
    refine SplineSolid.quadric_smooth (by norm_num) (by norm_num) ?_ ?_ ?_ ?_ ?_ ?_ <;> intro i j hi hj <;>
      (try rw [← le_div_iff₀' (by norm_num)]) <;> refine (V3.length_le_sum _).trans ?_ <;> interval_cases i <;> interval_cases j <;>
      norm_num [moundNat]
  · change i < 4 at hi
    change j < 4 at hj
    change 8 ≤ V4.w (entry ⟨netTab 4 4 _, 4, 4⟩ i j)
    rw [entry_netTab _ hi hj]
    have := (mound_le i j).2.2.2.1
    change (8 : ℝ) ≤ ((moundNat i j).2.2.2 : ℝ)
    exact_mod_cast this

theorem mound_knots : UnitKnots [0, 0, 0, Float.ofBits 0x3FE0000000000000, 1, 1, 1] 4 2 := by
  have v0 := zero_val
  have v1 := one_val
  have vh := half_bits
  have hb : (1 : ℝ) ≤ 2 ^ (900 : Int) := one_le_zpow₀ (by norm_num) (by norm_num)
  have hb2 : (1 / 2 : ℝ) ≤ 2 ^ (900 : Int) := le_trans (by norm_num) hb
  have e51 : (2 : ℝ) ^ (-51 : Int) ≤ 1 / 2 := by norm_num
  refine ⟨⟨?_, ?_, ?_⟩, rfl, by norm_num, ⟨by norm_num, ?_, ?_⟩, v0.2, v0.2, v1.2⟩
  · intro x hx
    simp only [List.mem_cons, List.not_mem_nil, or_false] at hx
    rcases hx with rfl | rfl | rfl | rfl | rfl | rfl | rfl
    iterate 3 exact ⟨v0.1, by rw [v0.2, abs_zero]; exact (two_zpow_pos _).le⟩
    · exact ⟨vh.1, by rw [vh.2, abs_of_pos (by norm_num)]; exact hb2⟩
    iterate 3 exact ⟨v1.1, by rw [v1.2, abs_one]; exact hb⟩
  · simp only [List.map_cons, List.map_nil, v0.2, v1.2, vh.2]
    norm_num
  · intro i hi hlt
    change i + 1 < 7 at hi
    have : i < 6 := by omega
    interval_cases i <;> simp only [knot, List.getD_eq_getElem?_getD, List.getElem?_cons_succ, List.getElem?_cons_zero, Option.getD_some,
      v0.2, v1.2, vh.2, lt_irrefl] at hlt ⊢ <;> linarith
  · intro j h1 h2
    change 4 ≤ j at h1
    change j ≤ 6 at h2
    interval_cases j <;> rfl
  · intro j hj
    change j < 4 at hj
    interval_cases j
    iterate 3 exact ⟨by change val (0 : Float) < val (1 : Float); rw [v0.2, v1.2]; norm_num, by decide +kernel⟩
    exact ⟨by change val (Float.ofBits 0x3FE0000000000000) < val (1 : Float); rw [vh.2, v1.2]; norm_num, by decide +kernel⟩

theorem mound_unit : UnitNurbs 36 8 4 moundF := by
  have t73 : (2 : ℝ) ^ (-1073 : Int) ≤ 2 ^ (-49 : Int) := two_zpow_le (by norm_num)
  refine ⟨netTab_ok _ _ _, by norm_num [moundF], by norm_num [moundF], mound_knots, mound_knots, by norm_num [moundF], fun p hp => ?_, ?_⟩
  · simp only [moundF, netTab, List.mem_flatMap, List.mem_map] at hp
    obtain ⟨i, -, j, -, rfl⟩ := hp
    obtain ⟨h1, h2, h3, h4, h5, h6, h7, h8⟩ := mound_le i j
    obtain ⟨f1, w1⟩ := ofNat_val (n := (moundNat i j).1) (by omega)
    obtain ⟨f2, w2⟩ := ofNat_val (n := (moundNat i j).2.1) (by omega)
    obtain ⟨f3, w3⟩ := ofNat_val (n := (moundNat i j).2.2.1) (by omega)
    obtain ⟨f4, w4⟩ := ofNat_val (n := (moundNat i j).2.2.2) (by omega)
    refine ⟨⟨⟨f1, ?_⟩, ⟨f2, ?_⟩, ⟨f3, ?_⟩, f4, ?_⟩, ?_, ?_, ?_, ?_⟩ <;> simp only [w1, w2, w3, w4, Nat.abs_cast]
    · exact_mod_cast h1
    · exact_mod_cast h2
    · exact_mod_cast h3.trans (by norm_num)
    · exact_mod_cast h5.trans (by norm_num)
    · exact_mod_cast h4
    · exact_mod_cast h6
    · exact_mod_cast h7
    · exact_mod_cast h8
  · change homogeneousError 36 9 ≤ 8 / 2
    unfold homogeneousError
    have e48 : (2 : ℝ) ^ (-48 : Int) = 1 / 281474976710656 := by norm_num
    have e49 : (2 : ℝ) ^ (-49 : Int) = 1 / 562949953421312 := by norm_num
    rw [e49] at t73
    rw [e48]
    push_cast
    linarith

end Nurbs

/-- **C176**, an example: with 50000 by 50000 divisions, the area of the mesh of the mound computed in binary64 is off by at most 1/8 and the
volume over it by at most 1/3. -/
theorem C176_example :
    ∃ mesh ts, (SurfacePatch.mk moundF.surfaceRational ((0, 1), (0, 1)) (50000, 50000)).getTriangleMesh = .ok mesh ∧ corners mesh = some ts ∧
      |totalArea (ts.map triReal) - surfaceArea (nurbsPiece (realNurbs moundF) 50000 50000).su
        (nurbsPiece (realNurbs moundF) 50000 50000).sv (0, 1) (0, 1)| ≤ 1 / 8 ∧
      |volumeFrom 0 (ts.map triReal) - (nurbsPiece (realNurbs moundF) 50000 50000).volume 0| ≤ 1 / 3 := by
  have t73 : (2 : ℝ) ^ (-1073 : Int) ≤ 2 ^ (-49 : Int) := two_zpow_le (by norm_num)
  have e48 : (2 : ℝ) ^ (-48 : Int) = 1 / 281474976710656 := by norm_num
  have e49 : (2 : ℝ) ^ (-49 : Int) = 1 / 562949953421312 := by norm_num
  have e50 : (2 : ℝ) ^ (-50 : Int) = 1 / 1125899906842624 := by norm_num
  have hδ : (15 : ℝ) * (((50000 : Nat) + (50000 : Nat)) * 2 ^ (-49 : Int)) + 2 * nurbsError 36 8 4 ((moundF.degree.1 + 1) * (moundF.degree.2 + 1)) ≤
      1 / 10 ^ 8 := by
    change (15 : ℝ) * (((50000 : Nat) + (50000 : Nat)) * 2 ^ (-49 : Int)) + 2 * nurbsError 36 8 4 9 ≤ 1 / 10 ^ 8
    unfold nurbsError homogeneousError
    rw [e49] at t73 ⊢
    rw [e50, e48]
    push_cast
    linarith
  have hM : (36 : ℝ) ≤ 2 ^ (1021 : Int) := le_trans (by norm_num) (two_zpow_le (show (6 : Int) ≤ 1021 by norm_num))
  have hω : (2 : ℝ) ^ (-1000 : Int) ≤ 8 := (zpow_le_one_of_nonpos₀ (by norm_num) (by norm_num)).trans (by norm_num)
  have hR : (4 : ℝ) ≤ 2 ^ (1000 : Int) := le_trans (by norm_num) (two_zpow_le (show (2 : Int) ≤ 1000 by norm_num))
  obtain ⟨mesh, ts, h1, h2, h3, h4⟩ := C176_nurbs Nurbs.mound_unit hM hω hR Nurbs.mound_smooth (L := 15) (T := 61) (by norm_num) (by norm_num)
    (a := 50000) (b := 50000) (by norm_num) (by norm_num) (by norm_num) (by norm_num) (by norm_num) hδ
  exact ⟨mesh, ts, h1, h2, h3.trans (by norm_num), h4.trans (by norm_num)⟩

end Geom3d
