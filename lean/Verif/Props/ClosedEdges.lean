import Verif.Props.StepRead
import Verif.Props.FloatFinite
import Verif.Lemmas.F64BSpline

/-!
# Loops of one closed edge vanish (C136)

An edge that starts and ends at the same vertex (a full circle, a closed spline) is read with an empty parameter range:
both parameters are the projection of that vertex.  Sampling gives the vertex twice, `to_polygon` leaves no vertex at all,
and `trim` skips the loop: holes are filled, and faces bounded by such loops only are empty.
-/

namespace Geom3d
open Spec

set_option linter.unusedSectionVars false

/-! ### Spec -/

/-- The random numbers without those of loop `n`. -/
def Spec.skipLoop {F : Type} (o : TrimOracle F) (n : Nat) : TrimOracle F :=
  { o with rnd := fun i => o.rnd (if i < n then i else i + 1) }

section
variable {F : Type} [Add F] [Sub F] [Mul F] [Div F] [Neg F] [Zero F] [One F] [NatCast F] [LT F] [DecidableLT F]
  [LE F] [DecidableLE F] [Env F]

/-- Face bound `r` is a loop of one edge, which runs along `curve` from `s` to `s`. -/
def Spec.SaysClosed [Trig F] (file : StepFile F) (r : Ref) (curve : DynCurve F) (s : V3 F) : Prop :=
  ∃ b b' e o o' g sense, file.faceBound r = some ⟨b, b'⟩ ∧ file.edgeLoop b = some [e] ∧
    file.orientedEdge e = some ⟨o, o'⟩ ∧ SaysEdge file o s s g sense ∧ SaysCurve file g curve

/-- A surface whose `trim` does not notice loops that have no vertices. -/
def Spec.Skips (S : Surface F) : Prop :=
  ∀ (o : TrimOracle F) (pre : List (EdgeLoop F)) (c : EdgeLoop F) (post : List (EdgeLoop F)),
    c.toPolygon o.divFuel (o.rnd pre.length) = .ok [] →
      S.trim o (pre ++ c :: post) = S.trim (skipLoop o pre.length) (pre ++ post)

/-- What is needed of the arithmetic for a curve that stays at a point: `v` is the point at `t` and at the parameter
drawn, and is at distance zero from itself. -/
structure Spec.Rests (getPoint : F → Res (V3 F)) (t : F) (v : V3 F) (r : F) : Prop where
  start : getPoint t = .ok v
  drawn : getPoint (t + (t - t) * drawRatio r) = .ok v
  chord : v.distance (v + (v - v) * drawRatio r) < Env.hundredth
  same : near (v.distanceSq v) 0 = true

/-! ### Sampling -/

theorem rests_points {s : CurveSegment F} {t : F} {v : V3 F} {rnd : List Bool → F} (h : Rests s.curve.getPoint t v (rnd []))
    (hr : s.parameterRange = (t, t)) (ht : s.tolerance = Env.hundredth) {fuel : Nat} (hf : 0 < fuel) :
    s.getPoints fuel rnd = .ok [v, v] := by
  obtain ⟨fuel, rfl⟩ : ∃ k, fuel = k + 1 := ⟨fuel - 1, by omega⟩
  unfold CurveSegment.getPoints parameterDivision
  rw [hr, ht]
  simp only [rangeAt, h.start, h.drawn, ok_bind, if_pos h.chord]
  simp [pure_eq_ok, ok_bind, h.start, List.mapM_cons, List.mapM_nil]

theorem rests_polygon {s : CurveSegment F} {t : F} {v : V3 F} {rnd : Nat → List Bool → F}
    (h : Rests s.curve.getPoint t v (rnd 0 [])) (hr : s.parameterRange = (t, t)) (ht : s.tolerance = Env.hundredth)
    {fuel : Nat} (hf : 0 < fuel) : (EdgeLoop.mk [s]).toPolygon fuel rnd = .ok [] := by
  unfold EdgeLoop.toPolygon
  simp only [List.zipIdx_cons, List.zipIdx_nil, List.mapM_cons, List.mapM_nil, rests_points h hr ht hf, ok_bind, pure_eq_ok]
  unfold closePolygon
  simp [dedupBy, dedupAux, h.same, idx, usub, ok_bind, pure_eq_ok]

/-! ### Skipped loops -/

theorem foldlM_congr_mem {α β : Type} {f g : β → α → Res β} {l : List α} (h : ∀ a ∈ l, ∀ s, f s a = g s a) (s : β) :
    l.foldlM f s = l.foldlM g s := by
  induction l generalizing s with
  | nil => rfl
  | cons a l ih =>
    simp only [List.foldlM_cons]
    rw [h a (List.mem_cons_self ..) s]
    cases g s a with
    | error e => rfl
    | ok s' => exact ih (fun a ha => h a (List.mem_cons_of_mem _ ha)) s'

theorem collectLoops_skip {o : TrimOracle F} {pre : List (EdgeLoop F)} {c : EdgeLoop F} {post : List (EdgeLoop F)}
    (hc : c.toPolygon o.divFuel (o.rnd pre.length) = .ok []) :
    collectLoops o (pre ++ c :: post) = collectLoops (skipLoop o pre.length) (pre ++ post) := by
  unfold collectLoops
  rw [List.zipIdx_append, List.zipIdx_append, List.foldlM_append, List.foldlM_append, List.zipIdx_cons, Nat.zero_add,
    List.zipIdx_succ]
  congr 1
  rw [foldlM_congr_mem (l := pre.zipIdx) (g := fun (st : List (V3 F) × List Nat × Nat) (b : EdgeLoop F × Nat) => do
    let polygon ← b.1.toPolygon (skipLoop o pre.length).divFuel ((skipLoop o pre.length).rnd b.2)
    if 0 < polygon.length then
      pure (st.1 ++ polygon, st.2.1 ++ [st.2.2 + polygon.length], st.2.2 + polygon.length)
    else pure (st.1 ++ polygon, st.2.1, st.2.2))]
  · congr 1
    funext st
    simp only [List.foldlM_cons, hc, ok_bind, List.length_nil, lt_irrefl, if_false, List.append_nil, pure_eq_ok,
      List.foldlM_map]
    apply foldlM_congr_mem
    rintro ⟨b, i⟩ hb s
    have hi : pre.length ≤ i := (List.mem_zipIdx hb).1
    simp only [skipLoop, if_neg (Nat.not_lt.2 hi)]
  · rintro ⟨b, i⟩ hb s
    have hi : i < pre.length := by simpa using (List.mem_zipIdx hb).2.1
    simp only [skipLoop, if_pos hi]

theorem skips_plane (p : Plane F) : Skips p.surface.boxed := by
  intro o pre c post hc
  show p.trim o _ = p.trim _ _
  unfold Plane.trim
  rw [collectLoops_skip hc]
  rfl

theorem skips_cylinder [Trig F] (c : Cylinder F) : Skips c.surface.boxed := by
  intro o pre l post hc
  show c.trim o _ = c.trim _ _
  unfold Cylinder.trim
  rw [collectLoops_skip hc]
  rfl

theorem skips_bspline (s : BSplineSurface F (V3 F)) : Skips s.surface.boxed := by
  intro o pre l post hc
  show s.trim o _ = s.trim _ _
  unfold BSplineSurface.trim
  rw [collectLoops_skip hc]
  rfl

theorem skips_extract [Trig F] {file : StepFile F} {face : StepAdvancedFace} {S : Surface F} (h : SaysSurface file face S) :
    Skips S := by
  cases h <;> first | exact skips_plane _ | exact skips_cylinder _ | exact skips_bspline _ | exact fun _ _ _ _ _ => rfl

/-! ### Faces -/

theorem closed_segment [Trig F] {file : StepFile F} {r : Ref} {curve : DynCurve F} {s : V3 F} {u : F}
    (h : SaysClosed file r curve s) (hu : curve.obj.project s = .ok u) (irr : ¬ u < u) {l : EdgeLoop F}
    (hl : SaysBound file r l) : ∃ seg, l = ⟨[seg]⟩ ∧ seg.curve = curve.obj ∧ seg.parameterRange = (u, u) ∧
      seg.tolerance = Env.hundredth := by
  obtain ⟨b, b', e, o, o', g, sense, h1, h2, h3, h4, h5⟩ := h
  obtain ⟨c, c', edges, k1, k2, k3⟩ := hl
  rw [h1] at k1; cases k1
  rw [h2] at k2; cases k2
  obtain ⟨E⟩ := l
  rcases k3 with _ | ⟨k3, k4⟩
  cases k4
  rename_i seg
  refine ⟨seg, rfl, ?_⟩
  obtain ⟨g', q, s', t', c, sense', curve', u', v', m1, m2, m3, m4, m5, rfl⟩ := k3
  rw [h3] at m1; cases m1
  -- the two descriptions of the edge are read the same way
  have e1 := extractEdge h4 (C103_curve h5) hu hu
  have e2 := extractEdge m2 (C103_curve m3) m4 m5
  rw [e1] at e2
  have e3 := Option.some.inj (Except.ok.inj e2)
  have ec : curve = curve' := congrArg DynSegment.curve e3
  subst ec
  have er : curve.obj.refine (u, u) sense = curve.obj.refine (u', v') sense' := congrArg DynSegment.parameterRange e3
  refine ⟨rfl, ?_, rfl⟩
  show curve.obj.refine (u', v') sense' = _
  rw [← er]
  cases h5 with
  | line => rfl
  | circle => exact C67_closed_edge_unchanged u irr sense
  | polyline => rfl
  | bspline => rfl

theorem forall2_split {α β : Type} {R : α → β → Prop} {a : List α} {x : α} {b : List α} {l : List β}
    (h : List.Forall₂ R (a ++ x :: b) l) : ∃ l1 y l2, l = l1 ++ y :: l2 ∧ l1.length = a.length ∧ R x y ∧
      List.Forall₂ R (a ++ b) (l1 ++ l2) := by
  induction a generalizing l with
  | nil =>
    rcases h with _ | ⟨h1, h2⟩
    exact ⟨[], _, _, rfl, rfl, h1, h2⟩
  | cons z a ih =>
    rcases h with _ | ⟨h1, h2⟩
    obtain ⟨l1, y, l2, rfl, e, k1, k2⟩ := ih h2
    exact ⟨_ :: l1, y, l2, rfl, by rw [List.length_cons, List.length_cons, e], k1, .cons h1 k2⟩

/-- **C136** A bound of one edge that starts and ends at the same vertex has no effect: whatever the curve and the
surface, the mesh of the face is the mesh of the face without that bound. -/
theorem C136_face [Trig F] {file : StepFile F} {face : StepAdvancedFace} {t : TrimmedSurface F} (h : SaysFace file face t)
    {pre post : List Ref} {r : Ref} (hb : face.bounds = pre ++ r :: post) {curve : DynCurve F} {s : V3 F}
    (hc : SaysClosed file r curve s) {u : F} {v : V3 F} (hu : curve.obj.project s = .ok u) (irr : ¬ u < u) :
    ∃ t', file.readFace face = .ok (some t) ∧ file.readFace { face with bounds := pre ++ post } = .ok (some t') ∧
      ∀ o : TrimOracle F, 0 < o.divFuel → Rests curve.obj.getPoint u v (o.rnd pre.length 0 []) →
        t.getTriangleMesh o = t'.getTriangleMesh (skipLoop o pre.length) := by
  have h2 := h.2
  rw [hb] at h2
  obtain ⟨l1, y, l2, e, hlen, k1, k2⟩ := forall2_split h2
  refine ⟨⟨t.surface, l1 ++ l2⟩, C103_face h, C103_face ⟨?_, k2⟩, fun o hf hr => ?_⟩
  · have h1 := h.1
    generalize t.surface = S at h1 ⊢
    cases h1 with
    | plane a b => exact .plane a b
    | cylinder a b c => exact .cylinder a b c
    | bezier a b c d e => exact .bezier a b c d e
    | uniform a b c d e f g => exact .uniform a b c d e f g
    | uniformRational a b c d e f g => exact .uniformRational a b c d e f g
    | knots a b c d e f g h i j k => exact .knots a b c d e f g h i j k
    | rational a b c d e f g h i j k => exact .rational a b c d e f g h i j k
    | revolution a b c d e => exact .revolution a b c d e
  · unfold TrimmedSurface.getTriangleMesh
    rw [e, ← hlen]
    refine skips_extract h.1 o l1 y l2 ?_
    obtain ⟨seg, rfl, hs1, hs2, hs3⟩ := closed_segment hc hu irr k1
    refine rests_polygon (t := u) (v := v) ?_ hs2 hs3 hf
    rw [hs1, hlen]
    exact hr

theorem skips_all {S : Surface F} (hS : Skips S) (loops : List (EdgeLoop F)) : ∀ o : TrimOracle F,
    (∀ i, ∀ c ∈ loops, c.toPolygon o.divFuel (o.rnd i) = .ok []) → ∃ o', S.trim o loops = S.trim o' [] := by
  induction loops with
  | nil => exact fun o _ => ⟨o, rfl⟩
  | cons c loops ih =>
    intro o h
    obtain ⟨o', e⟩ := ih (skipLoop o 0) (fun i c hc => h (i + 1) c (List.mem_cons_of_mem _ hc))
    exact ⟨o', (hS o [] c loops (h 0 c (List.mem_cons_self ..))).trans e⟩

/-- **C136** A plane or cylinder face all of whose bounds are such loops has no triangles and no vertices. -/
theorem C136_empty [Trig F] {file : StepFile F} {face : StepAdvancedFace} {t : TrimmedSurface F} (h : SaysFace file face t)
    (hS : (∃ pos, file.plane face.faceGeometry = some pos) ∨
      file.plane face.faceGeometry = none ∧ ∃ pos, file.cylindricalSurface face.faceGeometry = some pos)
    {o : TrimOracle F} (hf : 0 < o.divFuel)
    (hb : ∀ r ∈ face.bounds, ∃ curve s u v, SaysClosed file r curve s ∧ curve.obj.project s = .ok u ∧ ¬ u < u ∧
      ∀ i, Rests curve.obj.getPoint u v (o.rnd i 0 [])) :
    file.readFace face = .ok (some t) ∧ t.getTriangleMesh o = .ok TriangleMesh.new := by
  refine ⟨C103_face h, ?_⟩
  have hl : ∀ i, ∀ c ∈ t.bounds, c.toPolygon o.divFuel (o.rnd i) = .ok [] := by
    intro i c hc
    obtain ⟨n, hn, rfl⟩ := List.getElem_of_mem hc
    have hn' : n < face.bounds.length := by rw [h.2.length_eq]; exact hn
    have k1 := (List.forall₂_iff_get.1 h.2).2 n hn' hn
    obtain ⟨curve, s, u, v, g1, g2, g3, g4⟩ := hb _ (List.getElem_mem hn')
    obtain ⟨seg, e, hs1, hs2, hs3⟩ := closed_segment g1 g2 g3 k1
    have e' : t.bounds[n] = ⟨[seg]⟩ := e
    rw [e']
    exact rests_polygon (t := u) (v := v) (by rw [hs1]; exact g4 i) hs2 hs3 hf
  unfold TrimmedSurface.getTriangleMesh
  obtain ⟨o', e⟩ := skips_all (skips_extract h.1) t.bounds o hl
  rw [e]
  have h1 := h.1
  generalize t.surface = S at h1 ⊢
  cases h1 with
  | plane => rfl
  | cylinder => rfl
  | bezier a => exact absurd hS (by simp [a.1, show _ = _ from a.2])
  | uniform a => exact absurd hS (by simp [a.1, a.2.1])
  | uniformRational a => exact absurd hS (by simp [a.1, a.2.1])
  | knots a => exact absurd hS (by simp [a.1, a.2.1])
  | rational a => exact absurd hS (by simp [a.1, a.2.1])
  | revolution a => exact absurd hS (by simp [a.1, a.2.1])

end

/-! ### Over the reals -/

theorem rests_real {getPoint : ℝ → Res (V3 ℝ)} {u : ℝ} {v : V3 ℝ} (h : getPoint u = .ok v) (r : ℝ) :
    Rests getPoint u v r := by
  refine ⟨h, by rw [sub_self, zero_mul, add_zero]; exact h, ?_, ?_⟩
  · rw [show v + (v - v) * drawRatio r = v by ext <;> simp, V3.distance_self]
    norm_num [Env.hundredth]
  · rw [near_zero, show v.distanceSq v = 0 by simp [V3.distanceSq, V3.lengthSq, V3.dot]]
    norm_num [Env.tol]

/-- **C136** for full circles over the reals: the bound has no effect, whatever the circle, the vertex and the random
numbers. -/
theorem C136_circle {file : StepFile ℝ} {face : StepAdvancedFace} {t : TrimmedSurface ℝ} (h : SaysFace file face t)
    {pre post : List Ref} {r : Ref} (hb : face.bounds = pre ++ r :: post) {c : Circle ℝ} {s : V3 ℝ}
    (hc : SaysClosed file r (.other c.obj) s) :
    ∃ t', file.readFace face = .ok (some t) ∧ file.readFace { face with bounds := pre ++ post } = .ok (some t') ∧
      ∀ o : TrimOracle ℝ, 0 < o.divFuel → t.getTriangleMesh o = t'.getTriangleMesh (skipLoop o pre.length) := by
  obtain ⟨t', h1, h2, h3⟩ := C136_face h hb hc (u := c.project s) (v := c.getPoint (c.project s)) rfl (lt_irrefl _)
  exact ⟨t', h1, h2, fun o hf => h3 o hf (rests_real rfl _)⟩

/-- **C136** over the reals: a plane or cylinder face bounded by full circles only, such as a disc, is empty. -/
theorem C136_disc {file : StepFile ℝ} {face : StepAdvancedFace} {t : TrimmedSurface ℝ} (h : SaysFace file face t)
    (hS : (∃ pos, file.plane face.faceGeometry = some pos) ∨
      file.plane face.faceGeometry = none ∧ ∃ pos, file.cylindricalSurface face.faceGeometry = some pos)
    (hb : ∀ r ∈ face.bounds, ∃ (c : Circle ℝ) (s : V3 ℝ), SaysClosed file r (.other c.obj) s)
    {o : TrimOracle ℝ} (hf : 0 < o.divFuel) :
    file.readFace face = .ok (some t) ∧ t.getTriangleMesh o = .ok TriangleMesh.new := by
  refine C136_empty h hS hf fun r hr => ?_
  obtain ⟨c, s, hc⟩ := hb r hr
  exact ⟨_, s, c.project s, c.getPoint (c.project s), hc, rfl, lt_irrefl _, fun i => rests_real rfl _⟩

/-! ### In binary64 -/

section
open F64

theorem isZ_lt_pos {z t : Float} (hz : IsZ z) (ht : 0 < t) : z < t := by
  obtain ⟨-, n⟩ := nan_of_lt ht
  rw [lt_ext zero_val.1.not_nan n, zero_val.1.ext_eq, zero_val.2] at ht
  rw [lt_ext hz.1.not_nan n, hz.1.ext_eq, hz.2]
  exact ht

/-- Random numbers of the unit interval, a finite parameter and a finite point. -/
theorem rests_float {getPoint : Float → Res (V3 Float)} {u : Float} {v : V3 Float} (hu : IsFin u) (hv : Finite3 v)
    (h : ∀ u', Same u' u → getPoint u' = .ok v) {r : Float} (h0 : 0 ≤ r) (h1 : r < 1) : Rests getPoint u v r := by
  obtain ⟨hp, -, -⟩ := drawRatio_float h0 h1
  obtain ⟨vx, vy, vz⟩ := hv
  have key : ∀ {x : Float}, IsFin x → IsZ (x - (x + (x - x) * drawRatio r)) := by
    intro x hx
    have hs := add_isZ (x := x) ((IsZ.of_sub hx).mul hp)
    have hf := hs.symm.fin hx
    have hval := hs.val_eq
    obtain ⟨f, rr⟩ := sub_rounds hx hf (by rw [hval, sub_self, abs_zero]; linarith [one_le_maxFinite])
    rw [hval, sub_self] at rr
    exact ⟨f, rr.unique rounds_zero⟩
  refine ⟨h u (Same.refl u), h _ (add_isZ ((IsZ.of_sub hu).mul hp)), ?_, ?_⟩
  · have zx := key vx
    have zy := key vy
    have zz := key vz
    exact isZ_lt_pos (((zx.mul zx.1).add (zy.mul zy.1) |>.add (zz.mul zz.1)).sqrt) (by decide +kernel)
  · have zx := IsZ.of_sub vx
    have zy := IsZ.of_sub vy
    have zz := IsZ.of_sub vz
    have hz : IsZ (v.distanceSq v) := (zx.mul zx.1).add (zy.mul zy.1) |>.add (zz.mul zz.1)
    have hz' : IsZ (v.distanceSq v - 0) := by
      have e : val (v.distanceSq v) - val (0 : Float) = 0 := by rw [hz.2, zero_val.2, sub_zero]
      obtain ⟨f, rr⟩ := sub_rounds hz.1 zero_val.1 (by rw [e, abs_zero]; linarith [one_le_maxFinite])
      rw [e] at rr
      exact ⟨f, rr.unique rounds_zero⟩
    have ha : IsZ (fabs (v.distanceSq v - 0)) := by
      obtain ⟨f, e⟩ := fabs_val hz'.1
      exact ⟨f, by rw [e, hz'.2, abs_zero]⟩
    have hlt : fabs (v.distanceSq v - 0) < Env.tol := isZ_lt_pos ha (by decide +kernel)
    obtain ⟨n1, n2⟩ := nan_of_lt hlt
    exact decide_eq_true ((le_ext n1 n2).2 ((lt_ext n1 n2).1 hlt).le)

/-- **C136** in binary64, for closed edges along any curve: the bound has no effect when the vertex has a finite parameter
and the curve a finite point there (the same for both zeros). -/
theorem C136_float [Trig Float] {file : StepFile Float} {face : StepAdvancedFace} {t : TrimmedSurface Float}
    (h : SaysFace file face t) {pre post : List Ref} {r : Ref} (hb : face.bounds = pre ++ r :: post)
    {curve : DynCurve Float} {s : V3 Float} (hc : SaysClosed file r curve s) {u : Float} {v : V3 Float}
    (hu : curve.obj.project s = .ok u) (fu : IsFin u) (fv : Finite3 v)
    (hv : ∀ u', Same u' u → curve.obj.getPoint u' = .ok v) :
    ∃ t', file.readFace face = .ok (some t) ∧ file.readFace { face with bounds := pre ++ post } = .ok (some t') ∧
      ∀ o : TrimOracle Float, 0 < o.divFuel → (∀ l e path, 0 ≤ o.rnd l e path ∧ o.rnd l e path < 1) →
        t.getTriangleMesh o = t'.getTriangleMesh (skipLoop o pre.length) := by
  obtain ⟨t', h1, h2, h3⟩ := C136_face h hb hc (u := u) (v := v) hu (by
    rw [F64.lt_iff fu fu]; exact lt_irrefl _)
  exact ⟨t', h1, h2, fun o hf ho => h3 o hf (rests_float fu fv hv (ho _ _ _).1 (ho _ _ _).2)⟩

end

/-! ### A sample file: the unit disc -/

/-- A file with one face: the plane `z = 0` bounded by the unit circle, an edge from `(1, 0, 0)` to `(1, 0, 0)`. -/
def discFile : StepFile ℝ :=
  { (emptyFile : StepFile ℝ) with
    cartesianPoint := fun r => if r = 1 then some [0, 0, 0] else if r = 2 then some [1, 0, 0] else none
    direction := fun r => if r = 3 then some [0, 0, 1] else if r = 4 then some [1, 0, 0] else none
    axis2Placement3d := fun r => if r = 5 then some (1, some 3, some 4) else none
    circle := fun r => if r = 6 then some (5, 1) else none
    vertexGeometry := fun r => if r = 7 then some 2 else none
    edgeCurve := fun r => if r = 8 then some ⟨7, 7, 6, true⟩ else none
    orientedEdge := fun r => if r = 9 then some ⟨8, true⟩ else none
    edgeLoop := fun r => if r = 10 then some [9] else none
    faceBound := fun r => if r = 11 then some ⟨10, true⟩ else none
    plane := fun r => if r = 12 then some 5 else none
    advancedFaces := [⟨[11], 12, true⟩] }

theorem disc_placement : SaysPlacement discFile 5 0 ⟨0, 0, 1⟩ ⟨1, 0, 0⟩ := ⟨1, 3, 4, rfl, rfl, rfl, rfl⟩

theorem disc_closed : SaysClosed discFile 11 (.other (Circle.obj ⟨0, 1, ⟨0, 0, 1⟩, (⟨1, 0, 0⟩ : V3 ℝ).normalize⟩)) ⟨1, 0, 0⟩ :=
  ⟨10, true, 9, 8, true, 6, true, rfl, rfl, rfl, ⟨7, 7, rfl, ⟨2, rfl, rfl⟩, ⟨2, rfl, rfl⟩⟩,
    .circle ⟨rfl, 5, rfl, disc_placement⟩⟩

/-- The file is read as one face, whose mesh is empty. -/
theorem C136_example : ∃ t, discFile.readModel = .ok ([], [t]) ∧
    ∀ o : TrimOracle ℝ, 0 < o.divFuel → t.getTriangleMesh o = .ok TriangleMesh.new := by
  let c : Circle ℝ := ⟨0, 1, ⟨0, 0, 1⟩, (⟨1, 0, 0⟩ : V3 ℝ).normalize⟩
  have hb : SaysBound discFile 11 ⟨[⟨c.obj, Circle.refineParameterRange (c.project ⟨1, 0, 0⟩, c.project ⟨1, 0, 0⟩) true,
      Env.hundredth, 16⟩]⟩ :=
    ⟨10, true, [9], rfl, rfl, .cons ⟨8, true, ⟨1, 0, 0⟩, ⟨1, 0, 0⟩, 6, true, .other c.obj, _, _, rfl,
      ⟨7, 7, rfl, ⟨2, rfl, rfl⟩, ⟨2, rfl, rfl⟩⟩, .circle ⟨rfl, 5, rfl, disc_placement⟩, rfl, rfl, rfl⟩ .nil⟩
  have hs : SaysFace discFile ⟨[11], 12, true⟩ ⟨_, [_]⟩ := ⟨.plane (pos := 5) rfl disc_placement, .cons hb .nil⟩
  refine ⟨_, C103_model .nil (.cons hs .nil), fun o hf => (C136_disc hs (.inl ⟨5, rfl⟩) (fun r hr => ?_) hf).2⟩
  cases List.mem_singleton.1 hr
  exact ⟨_, _, disc_closed⟩

end Geom3d
