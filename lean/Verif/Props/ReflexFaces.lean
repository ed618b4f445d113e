import Verif.Lemmas.BentTrim

/-!
# Faces with a reflex corner are tiled although some edges are used against their direction (C142)

A convex face is spoilt by a single edge that is used against its direction (C141). Here: a face with a reflex corner is not.
As long as no two edges in a row are used against their direction, the detours that are read (C86) are removed by
`compute_vertex_convexity` (`src/utils/polygon.rs:15-36`), which drops the vertices on a line with their neighbours, and the
ears are clipped off the polygon that the loop describes. The fan that `trim` makes of a convex face is taken around all
vertices that were read instead.
-/

namespace Geom3d
open Spec List

set_option linter.unusedSectionVars false

/-- Corners of a face with a reflex corner, counter-clockwise as seen from the side of the normal: the sides do not cross, no
three corners are within tolerance of a line and no two are taken for the same point. -/
structure Spec.ReflexFace (p : Plane ℝ) (vs : List (V3 ℝ)) : Prop where
  corners : 3 ≤ vs.length
  apart : ∀ a ∈ vs, ∀ b ∈ vs, a ≠ b → Env.tol < b.distanceSq a
  simple : Spec.Simple (vs.map p.project)
  general : Spec.General (vs.map p.project)
  ccw : 0 < area2 (vs.map p.project)
  reflex : ∃ a b c, (a, b) ∈ loopEdges (vs.map p.project) ∧ (b, c) ∈ loopEdges (vs.map p.project) ∧ triArea2 a b c < 0

/-- The triangles `T` between the points `P` tile the inside of the polygon `Q`: all of them are counter-clockwise, the areas add
up, and off the lines through two vertices of `Q` a point is in exactly one triangle if the polygon winds around it and in none
otherwise. -/
structure Spec.TilesFace (Q P : List (V2 ℝ)) (T : List Nat) : Prop where
  pos : ∀ t ∈ triples T, 0 < triArea2 (P.getD t.1 0) (P.getD t.2.1 0) (P.getD t.2.2 0)
  area : trianglesArea2 P T = area2 Q
  cover : ∀ x, OffLines Q x → (winding Q x = 0 ∨ winding Q x = 1) ∧ (covering P (triples T) x : ℤ) = winding Q x

namespace ReflexFaces
open Written Winding ConvexFaces Bent

variable {p : Plane ℝ} {vs : List (V3 ℝ)} {flags : List Bool}

theorem around_default {P : Type} (d d' : P) (L : List P) : around d L = around d' L := by
  unfold around
  refine List.map_congr_left fun i hi => ?_
  rw [List.mem_range] at hi
  have h1 := Nat.mod_lt (L.length + i - 1) (by omega : L.length > 0)
  have h2 := Nat.mod_lt (i + 1) (by omega : L.length > 0)
  rw [getD_of_lt d h1, getD_of_lt d hi, getD_of_lt d h2, getD_of_lt d' h1, getD_of_lt d' hi, getD_of_lt d' h2]

theorem snd_path {α : Type} : ∀ (L : List α) (x : α), (pathEdges (x :: L)).map Prod.snd = L
  | [], _ => rfl
  | y :: L, x => by
    rw [pathEdges_cons_cons, List.map_cons, snd_path L y]

theorem snd_loop {α : Type} (L : List α) : (loopEdges L).map Prod.snd ~r L := by
  cases L with
  | nil => exact .refl _
  | cons a t =>
    rw [Spec.loopEdges_cons, snd_path]
    exact isRotated_append (l := t) (l' := [a])

theorem simple (h : ReflexFace p vs) : Winding.Simple (vs.map p.project) :=
  simple_of_spec tol_nonneg (by simpa using h.corners) h.simple h.general

/-! ### The loop as a list of uses -/

theorem uses_chained (hl : flags.length = vs.length) : Chained (loopEdges (flags.zip (loopEdges vs))) := fun e he => by
  have : (e.1.2, e.2.2) ∈ loopEdges ((flags.zip (loopEdges vs)).map Prod.snd) := by
    rw [loopEdges_map, List.mem_map]
    exact ⟨e, he, rfl⟩
  rw [snd_uses hl] at this
  exact chain_loop vs _ this

theorem uses_side (hl : flags.length = vs.length) {u : Use (V3 ℝ)} (hu : u ∈ flags.zip (loopEdges vs)) : u.2 ∈ loopEdges vs := by
  rw [← snd_uses hl]
  exact List.mem_map_of_mem hu

theorem uses_isolated (hl : flags.length = vs.length) (hi : ∀ e ∈ loopEdges flags, e.1 = true ∨ e.2 = true) :
    Isolated (loopEdges (flags.zip (loopEdges vs))) := fun e he => by
  refine hi (e.1.1, e.2.1) ?_
  rw [← fst_uses hl, loopEdges_map, List.mem_map]
  exact ⟨e, he, rfl⟩

theorem uses_ends (hl : flags.length = vs.length) :
    ((loopEdges (flags.zip (loopEdges vs))).map fun e => p.project e.1.2.2) ~r vs.map p.project := by
  have : ((loopEdges (flags.zip (loopEdges vs))).map fun e => p.project e.1.2.2)
      = (((((loopEdges (flags.zip (loopEdges vs))).map Prod.fst).map Prod.snd).map Prod.snd).map p.project) := by
    simp only [List.map_map]; rfl
  rw [this, EarEdge.map_fst_loopEdges, snd_uses hl]
  exact (snd_loop vs).map _

/-- The corners of the face. -/
theorem uses_corner (h : ReflexFace p vs) (hl : flags.length = vs.length) {e : Use (V3 ℝ) × Use (V3 ℝ)}
    (he : e ∈ loopEdges (flags.zip (loopEdges vs))) :
    (p.project e.1.2.1, p.project e.1.2.2) ∈ loopEdges (vs.map p.project) ∧
      (p.project e.1.2.2, p.project e.2.2.2) ∈ loopEdges (vs.map p.project) ∧
      Env.tol < |triArea2 (p.project e.1.2.1) (p.project e.1.2.2) (p.project e.2.2.2)| := by
  obtain ⟨m1, m2⟩ := mem_of_loopEdges he
  have s1 := project_edge (p := p) (uses_side hl m1)
  have s2 := project_edge (p := p) (uses_side hl m2)
  rw [← uses_chained hl e he] at s2
  obtain ⟨n1, n2, n3⟩ := corner_ne (simple h).nodup (by simpa using h.corners) s1 s2
  exact ⟨s1, s2, general_points h.general (mem_of_loopEdges s1).1 (mem_of_loopEdges s1).2 (mem_of_loopEdges s2).2 n1 n2 n3⟩

/-- **C142** What is read of the face is the walk. -/
theorem read_walk (h : ReflexFace p vs) (hl : flags.length = vs.length) :
    ∃ l, closePolygon (writtenPath flags vs) = .ok l ∧ l ~r walk (flags.zip (loopEdges vs)) := by
  set E := flags.zip (loopEdges vs) with hE
  have hmem : ∀ u ∈ E, u.2.1 ∈ vs ∧ u.2.2 ∈ vs := fun u hu => mem_of_loopEdges (uses_side hl hu)
  have hlen : 3 ≤ E.length := by rw [hE, List.length_zip, length_loopEdges, hl, min_self]; exact h.corners
  have hS := (simple h).nodup
  have hne : ∀ u ∈ E, u.2.1 ≠ u.2.2 := fun u hu e => by
    obtain ⟨⟨v, hv⟩, -⟩ := exists_edge_from hlen hu
    obtain ⟨s1, s2, -⟩ := uses_corner h hl hv
    exact (corner_ne hS (by simpa using h.corners) s1 s2).1 (by dsimp only; rw [e])
  have far : ∀ {a b}, a ∈ vs → b ∈ vs → a ≠ b → near (a.distanceSq b) 0 = false := fun ha hb hab => near_apart (h.apart _ hb _ ha hab.symm)
  have hw : writtenPath flags vs = E.flatMap fun v => [first v, last v] := by
    unfold writtenPath
    rw [← hE]
    congr 1
    funext u
    rcases u with ⟨_ | _, a, b⟩ <;> rfl
  rw [hw]
  refine close_walk (fun e => by rw [e] at hlen; simp at hlen) (uses_chained hl) (fun e he => ?_) fun v hv => ?_
  · obtain ⟨m1, m2⟩ := mem_of_loopEdges he
    have hc := uses_chained hl e he
    have a1 := hmem _ m1
    have a2 := hmem _ m2
    have n1 := hne _ m1
    have n2 := hne _ m2
    have n3 : e.1.2.1 ≠ e.2.2.2 := fun e1 => by
      obtain ⟨s1, s2, -⟩ := uses_corner h hl he
      exact (corner_ne hS (by simpa using h.corners) s1 s2).2.1 (by rw [e1])
    rcases hf1 : e.1.1 with _ | _ <;> rcases hf2 : e.2.1 with _ | _ <;> simp only [first, last, hf1, hf2, Bool.false_eq_true, if_false, if_true]
    · exact far a2.2 a1.1 n3.symm
    · rw [← hc]; exact far a1.2 a1.1 n1.symm
    · rw [hc]; exact far a2.2 a2.1 n2.symm
    · rw [← hc]; exact near_self_real _
  · have a := hmem v hv
    have n := hne v hv
    rcases hf : v.1 with _ | _ <;> simp only [first, last, hf, Bool.false_eq_true, if_false, if_true]
    · exact far a.1 a.2 n
    · exact far a.2 a.1 n.symm

/-! ### The vertices that remain -/

theorem around_corners (h : ReflexFace p vs) (hl : flags.length = vs.length) (hi : ∀ e ∈ loopEdges flags, e.1 = true ∨ e.2 = true)
    {l : List (V3 ℝ)} (hr : l ~r walk (flags.zip (loopEdges vs))) :
    (around 0 (l.map p.project)).filter bends ~r
      (loopEdges (flags.zip (loopEdges vs))).map fun e => (p.project e.1.2.1, p.project e.1.2.2, p.project e.2.2.2) := by
  have hne : flags.zip (loopEdges vs) ≠ [] := fun e => by
    have := congrArg List.length e
    rw [List.length_zip, length_loopEdges, hl, min_self] at this
    have h3 := h.corners
    simp at this
    rw [this] at h3
    simp at h3
  have h1 := around_rotate 0 (hr.map p.project)
  rw [around_default 0 (p.project 0) ((walk (flags.zip (loopEdges vs))).map p.project), around_map,
    around_walk 0 hne (uses_chained hl) (uses_isolated hl hi)] at h1
  have h2 := filter_isRotated bends h1
  rwa [filter_spikes p.project bends (fun e he => ?_) fun a b => ?_] at h2
  · obtain ⟨-, -, h4⟩ := uses_corner h hl he
    unfold bends
    simp only
    rw [convexity_tri tol_nonneg h4]
    split <;> rfl
  · unfold bends
    simp only
    rw [cv_back]
    rfl

theorem bent_rot (h : ReflexFace p vs) (hl : flags.length = vs.length) (hi : ∀ e ∈ loopEdges flags, e.1 = true ∨ e.2 = true)
    {l : List (V3 ℝ)} (hr : l ~r walk (flags.zip (loopEdges vs))) :
    (bent (l.map p.project)).map (pt (l.map p.project)) ~r vs.map p.project := by
  rw [bent_around]
  have := (around_corners h hl hi hr).map fun t => t.2.1
  rw [List.map_map] at this
  exact this.trans (uses_ends hl)

/-- The remaining vertices and their neighbours among them. -/
theorem bent_turn (h : ReflexFace p vs) (hl : flags.length = vs.length) (hi : ∀ e ∈ loopEdges flags, e.1 = true ∨ e.2 = true)
    {l : List (V3 ℝ)} (hr : l ~r walk (flags.zip (loopEdges vs))) {x y z : Nat} (h1 : (y, x) ∈ loopEdges (bent (l.map p.project)))
    (h2 : (x, z) ∈ loopEdges (bent (l.map p.project))) :
    turnAt (l.map p.project) x = if 0 < triArea2 (pt (l.map p.project) y) (pt (l.map p.project) x) (pt (l.map p.project) z)
      then .convex else .concave := by
  set R := l.map p.project with hR
  have hrot := bent_rot h hl hi hr
  have hS := (simple h).nodup
  have hlen : 3 ≤ (vs.map p.project).length := by simpa using h.corners
  have edge : ∀ {a b}, (a, b) ∈ loopEdges (bent R) → (pt R a, pt R b) ∈ loopEdges (vs.map p.project) := by
    intro a b hab
    rw [← (loopEdges_rot hrot).mem_iff, loopEdges_map, List.mem_map]
    exact ⟨_, hab, rfl⟩
  obtain ⟨n1, n2, n3⟩ := corner_ne hS hlen (edge h1) (edge h2)
  have hx : x ∈ bent R := (mem_of_loopEdges h2).1
  have hxr : x < R.length := List.mem_range.1 (List.mem_filter.1 hx).1
  have hb := (List.mem_filter.1 hx).2
  have mt : (R.getD ((R.length + x - 1) % R.length) 0, R.getD x 0, R.getD ((x + 1) % R.length) 0) ∈ (around 0 R).filter bends := by
    rw [List.mem_filter]
    exact ⟨List.mem_map.2 ⟨x, List.mem_range.2 hxr, rfl⟩, hb⟩
  rw [(around_corners h hl hi hr).perm.mem_iff, List.mem_map] at mt
  obtain ⟨e, he, hee⟩ := mt
  obtain ⟨s1, s2, -⟩ := uses_corner h hl he
  simp only [Prod.mk.injEq] at hee
  obtain ⟨e1, e2, e3⟩ := hee
  rw [e1, e2] at s1
  rw [e2, e3] at s2
  obtain ⟨u1, u2⟩ := corner_unique hS hlen (edge h1) (edge h2) s1 s2
  unfold turnAt
  rw [u1, u2]
  exact convexity_tri tol_nonneg (general_points h.general (mem_of_loopEdges (edge h1)).1 (mem_of_loopEdges (edge h1)).2
    (mem_of_loopEdges (edge h2)).2 n1 n2 n3)

/-- **C142** `trim` on the loop of a face with a reflex corner, no two edges in a row used backward. -/
theorem _root_.Geom3d.C142_trim (h : ReflexFace p vs) (hl : flags.length = vs.length)
    (hi : ∀ e ∈ loopEdges flags, e.1 = true ∨ e.2 = true) {o : TrimOracle ℝ} (hbs : BinarySearch o.bs) (hfuel : vs.length < o.earFuel)
    {bounds : List (EdgeLoop ℝ)} {l : List (V3 ℝ)} (hp : closePolygon (writtenPath flags vs) = .ok l)
    (hc : collectLoops o bounds = .ok (l, [0, l.length])) :
    ∃ T, p.trim o bounds = .ok ⟨l, [], T⟩ ∧ T.length = 3 * (vs.length - 2) ∧
      TilesFace (vs.map p.project) (l.map p.project) T := by
  obtain ⟨l', e1, hr⟩ := read_walk h hl
  rw [hp] at e1
  cases e1
  have hrot := bent_rot h hl hi hr
  have hturn := fun {x y z} => bent_turn h hl hi hr (x := x) (y := y) (z := z)
  have hlenQ : 3 ≤ (vs.map p.project).length := by simpa using h.corners
  obtain ⟨T, t1, t2, t3⟩ := trim_bent tol_nonneg hbs hc (simple h) h.general hlenQ h.ccw h.reflex (by simpa using hfuel) hrot hturn
  exact ⟨T, t1, by rw [t2, List.length_map], t3.1, t3.2.1, t3.2.2⟩

end ReflexFaces

/-! ### Files -/

/-- Not two edges in a row are used backward. -/
def Spec.FaceSide.Alone (s : FaceSide) : Prop := ∀ e ∈ loopEdges (s.uses.map Prod.snd), e.1 = true ∨ e.2 = true

/-- A mesh of the corners of a face that tiles it. -/
structure Spec.TiledBy (s : FaceSide) (m : TriangleMesh ℝ) : Prop where
  vertices : ∀ v ∈ m.vertices, v ∈ s.corners
  count : m.triangles.length = 3 * (s.corners.length - 2)
  size : m.vertices.length ≤ 2 * s.corners.length
  tiles : TilesFace (s.corners.map s.plane.project) (m.vertices.map s.plane.project) m.triangles

/-- **C142** A face of a file with a reflex corner. -/
theorem C142_face {file : StepFile ℝ} {face : StepAdvancedFace} {s : FaceSide} (h : SaysPolygon file face s.plane s.uses s.corners)
    (hs : ReflexFace s.plane s.corners) (ha : s.Alone) :
    ∃ t, SaysFace file face t ∧ ∀ o : TrimOracle ℝ, BinarySearch o.bs → 0 < o.divFuel → s.corners.length < o.earFuel →
      ∃ mesh, t.getTriangleMesh o = .ok mesh ∧ ValidMesh mesh ∧ TiledBy s mesh := by
  obtain ⟨t, ht, hr⟩ := polygon_read h
  refine ⟨t, ht, fun o hbs hdiv hear => ?_⟩
  obtain ⟨e, hc⟩ := hr o hdiv
  have hlen : (s.uses.map Prod.snd).length = s.corners.length := by rw [List.length_map]; exact h.2.1
  obtain ⟨l, h1, h2⟩ := ReflexFaces.read_walk hs hlen
  have hrot := ReflexFaces.bent_rot hs hlen ha h2
  have h3 := hs.corners
  have hne : l ≠ [] := by
    rintro rfl
    have := hrot.perm.length_eq
    simp only [Bent.bent, List.map_nil, List.length_nil, List.range_zero, List.filter_nil, List.length_map] at this
    omega
  obtain ⟨T, a1, a2, a3⟩ := C142_trim hs hlen ha hbs hear h1 (hc l h1 hne)
  obtain ⟨⟨n, v1⟩, v2, v3⟩ := C53_valid a1
  refine ⟨_, e.trans a1, ⟨by omega, v2, .inl v3⟩, fun v hv => ?_, a2, ?_, a3⟩
  · rw [h2.perm.mem_iff] at hv
    unfold Written.walk at hv
    rw [List.mem_flatMap] at hv
    obtain ⟨e, he, hv⟩ := hv
    obtain ⟨m1, m2⟩ := Winding.mem_of_loopEdges he
    have c1 := Winding.mem_of_loopEdges (ReflexFaces.uses_side hlen m1)
    have c2 := Winding.mem_of_loopEdges (ReflexFaces.uses_side hlen m2)
    unfold Written.turn at hv
    split at hv <;> simp only [List.mem_cons, List.not_mem_nil, or_false, Written.first, Written.last] at hv
    · subst hv
      split <;> tauto
    · rcases hv with rfl | rfl <;> split <;> tauto
  · show l.length ≤ _
    rw [h2.perm.length_eq]
    refine (ConvexFaces.walk_length _).trans ?_
    rw [List.length_zip, length_loopEdges, hlen, min_self]

/-- A face that is meshed without gaps and overlaps: all edges are used in their direction, or there is a reflex corner and no two
edges in a row are used against it. -/
def Spec.Meshable (s : FaceSide) : Prop :=
  (Proper s.plane s.corners ∧ ∀ u ∈ s.uses, u.2 = true) ∨ (ReflexFace s.plane s.corners ∧ s.Alone)

/-- The mesh of such a face. -/
def Spec.MeshedWhole (s : FaceSide) (m : TriangleMesh ℝ) : Prop := MeshOf s.plane s.corners m ∨ TiledBy s m

theorem reflex_read {file : StepFile ℝ} {faces : List StepAdvancedFace} {sides : List FaceSide}
    (h : List.Forall₂ (fun face s => SaysPolygon file face s.plane s.uses s.corners) faces sides)
    (hs : ∀ s ∈ sides, Meshable s) (o : Nat → TrimOracle ℝ)
    (hbs : ∀ i, BinarySearch (o i).bs) (hdiv : ∀ i, 0 < (o i).divFuel) (hear : ∀ i, ∀ s ∈ sides, s.corners.length < (o i).earFuel)
    (k : Nat) :
    ∃ ts meshes, List.Forall₂ (SaysFace file) faces ts ∧
      List.Forall₂ (fun (f : TrimmedSurface ℝ × Nat) m => f.1.getTriangleMesh (o f.2) = .ok m ∧ ValidMesh m) (ts.zipIdx k) meshes ∧
      List.Forall₂ MeshedWhole sides meshes := by
  induction h generalizing k with
  | nil => exact ⟨[], [], .nil, .nil, .nil⟩
  | @cons face s _ _ h1 _ ih =>
    obtain ⟨ts, ms, a1, a2, a3⟩ := ih (fun s h => hs s (by simp [h])) (fun i s h => hear i s (by simp [h])) (k + 1)
    have key : ∃ t, SaysFace file face t ∧ ∃ m, (t.getTriangleMesh (o k) = .ok m ∧ ValidMesh m) ∧ MeshedWhole s m := by
      rcases hs s (by simp) with ⟨b1, b2⟩ | ⟨b1, b2⟩
      · obtain ⟨t, c1, c2⟩ := C138_face h1 b2 b1
        obtain ⟨m, d1, d2, d3⟩ := c2 (o k) (hbs k) (hdiv k) (hear k s (by simp))
        exact ⟨t, c1, m, ⟨d1, d2⟩, .inl d3⟩
      · obtain ⟨t, c1, c2⟩ := C142_face h1 b1 b2
        obtain ⟨m, d1, d2, d3⟩ := c2 (o k) (hbs k) (hdiv k) (hear k s (by simp))
        exact ⟨t, c1, m, ⟨d1, d2⟩, .inr d3⟩
    obtain ⟨t, c1, m, c2, c3⟩ := key
    exact ⟨t :: ts, m :: ms, .cons c1 a1, by rw [List.zipIdx_cons]; exact .cons c2 a2, .cons c3 a3⟩

/-- **C142** `convert_stp` on a file with such faces: the OBJ file that is written, read by any reader of the format, consists of
triangles that tile the faces of the STEP file, in its order. -/
theorem C142_convert {file : StepFile ℝ} {sides : List FaceSide} (hc : file.compositeCurves = []) (hne : sides ≠ [])
    (h : List.Forall₂ (fun face s => SaysPolygon file face s.plane s.uses s.corners) file.advancedFaces sides)
    (hs : ∀ s ∈ sides, Meshable s) {o : Nat → TrimOracle ℝ}
    (hbs : ∀ i, BinarySearch (o i).bs) (hdiv : ∀ i, 0 < (o i).divFuel) (hear : ∀ i, ∀ s ∈ sides, s.corners.length < (o i).earFuel)
    (hsz : (sides.map fun s => 2 * s.corners.length + 1).sum + 1 < 2 ^ 32) (fmt : ℝ → List Char) (fuel : Nat)
    (rnd : Nat → Nat → List Bool → ℝ) :
    ∃ lines meshes, convertStp o fmt fuel rnd file = .ok (some lines, none) ∧ List.Forall₂ MeshedWhole sides meshes ∧
      (objRead lines).faces = meshes.flatMap meshFaces := by
  obtain ⟨ts, ms, a1, a2, a3⟩ := reflex_read h hs o hbs hdiv hear 0
  have hsz' : (ms.map fun m => m.vertices.length).sum + 1 < 2 ^ 32 := by
    have : (ms.map fun m => m.vertices.length).sum ≤ (sides.map fun s => 2 * s.corners.length + 1).sum := by
      clear hsz hne h hs a1 a2 hear
      induction a3 with
      | nil => simp
      | cons h1 _ ih =>
        rw [List.map_cons, List.sum_cons, List.map_cons, List.sum_cons]
        rcases h1 with h1 | h1
        · rcases h1.vertices with h2 | h2
          · rw [h2]; omega
          · rw [h2, List.length_append]; simp only [List.length_cons, List.length_nil]; omega
        · have := h1.size
          omega
    omega
  obtain ⟨obj, svg, h1, h2, h3, h4, -⟩ := C115_convert (curves := []) (paths := []) (by rw [hc]; exact .nil) a1 (o := o)
    (fmt := fmt) (fuel := fuel) (rnd := rnd) a2 hsz' .nil
  have hts : ts ≠ [] := by
    rintro rfl
    have e1 := a1.length_eq
    have e2 := h.length_eq
    rw [e1] at e2
    exact hne (List.length_eq_zero_iff.1 e2.symm)
  obtain ⟨lines, rfl⟩ := Option.isSome_iff_exists.1 (h2.2 hts)
  have hsvg : svg = none := by
    rcases svg with _ | d
    · rfl
    · exact absurd rfl (h3.1 rfl)
  subst hsvg
  exact ⟨lines, ms, h1, a3, h4 lines rfl⟩

/-! ### Solids -/

theorem alone_count {flags : List Bool} (h : ∀ e ∈ loopEdges flags, e.1 = true ∨ e.2 = true) : 2 * flags.count false ≤ flags.length := by
  have key : ∀ L : List (Bool × Bool), (∀ e ∈ L, e.1 = true ∨ e.2 = true) →
      (L.map Prod.fst).count false + (L.map Prod.snd).count false ≤ L.length := by
    intro L
    induction L with
    | nil => simp
    | cons e L ih =>
      intro hL
      have h1 := ih fun e he => hL e (by simp [he])
      have h2 := hL e (by simp)
      rcases e with ⟨_ | _, _ | _⟩ <;> simp at h2 ⊢ <;> omega
  have := key _ h
  rw [EarEdge.map_fst_loopEdges, (ReflexFaces.snd_loop flags).perm.count_eq, length_loopEdges] at this
  omega

theorem forward_alone {s : FaceSide} (h : ∀ u ∈ s.uses, u.2 = true) : s.Alone := fun e he => by
  obtain ⟨u, hu, h1⟩ := List.mem_map.1 (Winding.mem_of_loopEdges he).1
  exact .inl (h1 ▸ h u hu)

/-- **C142** If all faces of a solid are of this kind, every second edge of every face is used against its direction; in
particular each face has a reflex corner and an even number of corners. -/
theorem C142_closed {sides : List FaceSide} (hcl : Closed sides) (hs : ∀ s ∈ sides, Meshable s) (hl : ∀ s ∈ sides, s.uses.length = s.corners.length)
    {s : FaceSide} (hm : s ∈ sides) : 2 * s.backward = s.corners.length ∧ ReflexFace s.plane s.corners := by
  have le : ∀ s ∈ sides, 2 * s.backward ≤ s.uses.length := fun s hs' => by
    have ha : s.Alone := by
      rcases hs s hs' with h | h
      · exact forward_alone h.2
      · exact h.2
    have := alone_count ha
    rwa [List.length_map] at this
  have tot : (sides.map fun s => s.uses.length).sum = (sides.map fun s => 2 * s.backward).sum := by
    have h1 := closed_flags hcl
    have h2 : (sides.map fun s => s.uses.length).sum
        = (sides.map fun s => (s.uses.map Prod.snd).count true).sum + (sides.map fun s => s.backward).sum := by
      rw [← List.sum_map_add]
      congr 1
      refine List.map_congr_left fun s _ => ?_
      have := count_flags (s.uses.map Prod.snd)
      rw [List.length_map] at this
      exact this.symm
    have h3 : (sides.map fun s => 2 * s.backward).sum = 2 * (sides.map fun s => s.backward).sum := List.sum_map_mul_left ..
    omega
  have heq : 2 * s.backward = s.uses.length := by
    by_contra hne
    have hlt := lt_of_le_of_ne (le s hm) hne
    have := List.sum_lt_sum (l := sides) (fun s => 2 * s.backward) (fun s => s.uses.length) le ⟨s, hm, hlt⟩
    omega
  rw [hl s hm] at heq
  refine ⟨heq, ?_⟩
  rcases hs s hm with ⟨h1, h2⟩ | h
  · exfalso
    have h3 := h1.corners
    have h4 : s.backward = 0 := by
      unfold FaceSide.backward
      rw [List.count_eq_zero]
      intro hf
      obtain ⟨u, hu, h5⟩ := List.mem_map.1 hf
      rw [h2 u hu] at h5
      cases h5
    omega
  · exact h.1

/-! ### A sample face: an arrow head -/

/-- The corners of the arrow head. -/
def arrowPoint (i : Nat) : V3 ℝ :=
  match i with
  | 0 => ⟨12, 0, 0⟩
  | 1 => ⟨0, 16, 0⟩
  | 2 => ⟨-12, 0, 0⟩
  | _ => ⟨0, 5, 0⟩

/-- The ends of edge `e`, in the order in which it is written; edges 1 and 3 are used backward. -/
def arrowEdge (e : Nat) : Nat × Nat :=
  match e with
  | 0 => (0, 1)
  | 1 => (2, 1)
  | 2 => (2, 3)
  | _ => (0, 3)

noncomputable def arrowDir (e : Nat) : V3 ℝ :=
  match e with
  | 0 => ⟨-12 / 20, 16 / 20, 0⟩
  | 1 => ⟨12 / 20, 16 / 20, 0⟩
  | 2 => ⟨12 / 13, 5 / 13, 0⟩
  | _ => ⟨-12 / 13, 5 / 13, 0⟩

/-- The file of the arrow head; corners are the entities `i`, vertices `10 + i`, edges `20 + e`, lines `30 + e`. -/
noncomputable def arrowFile : StepFile ℝ :=
  { (emptyFile : StepFile ℝ) with
    cartesianPoint := fun r => if r < 4 then some (v3list (arrowPoint r)) else if r = 4 then some [0, 0, 0] else none
    vertexGeometry := fun r => if 10 ≤ r ∧ r < 14 then some (r - 10) else none
    direction := fun r => if 40 ≤ r ∧ r < 44 then some (v3list (arrowDir (r - 40))) else
      if r = 60 then some [0, 0, 1] else if r = 61 then some [1, 0, 0] else none
    vectorOrientation := fun r => if 50 ≤ r ∧ r < 54 then some (r - 10) else none
    line := fun r => if 30 ≤ r ∧ r < 34 then some ((arrowEdge (r - 30)).1, r + 20) else none
    edgeCurve := fun r => if 20 ≤ r ∧ r < 24 then some ⟨10 + (arrowEdge (r - 20)).1, 10 + (arrowEdge (r - 20)).2, r + 10, true⟩ else none
    orientedEdge := fun r => if 100 ≤ r ∧ r < 104 then some ⟨r - 80, decide (r = 100 ∨ r = 102)⟩ else none
    edgeLoop := fun r => if r = 300 then some [100, 101, 102, 103] else none
    faceBound := fun r => if r = 320 then some ⟨300, true⟩ else none
    axis2Placement3d := fun r => if r = 330 then some (4, some 60, some 61) else none
    plane := fun r => if r = 310 then some 330 else none
    advancedFaces := [⟨[320], 310, true⟩] }

noncomputable def arrowPlane : Plane ℝ := ⟨⟨0, 0, 0⟩, ⟨0, 0, 1⟩, ⟨1, 0, 0⟩, (⟨0, 0, 1⟩ : V3 ℝ).cross ⟨1, 0, 0⟩⟩

noncomputable def arrowSide : FaceSide :=
  ⟨arrowPlane, [(20, true), (21, false), (22, true), (23, false)], [arrowPoint 0, arrowPoint 1, arrowPoint 2, arrowPoint 3]⟩

theorem arrow_straight {e : Nat} (he : e < 4) :
    SaysStraight arrowFile (20 + e) (arrowPoint (arrowEdge e).1) (arrowPoint (arrowEdge e).2) := by
  interval_cases e
  · exact ⟨30, true, _, arrowDir 0, 0, 20, ⟨10, 11, rfl, ⟨0, rfl, rfl⟩, ⟨1, rfl, rfl⟩⟩, ⟨0, 50, 40, rfl, rfl, rfl, rfl⟩,
      by norm_num [arrowDir, V3.dot], by apply V3.ext <;> simp [arrowDir, arrowPoint, arrowEdge],
      by apply V3.ext <;> norm_num [arrowDir, arrowPoint, arrowEdge]⟩
  · exact ⟨31, true, _, arrowDir 1, 0, 20, ⟨12, 11, rfl, ⟨2, rfl, rfl⟩, ⟨1, rfl, rfl⟩⟩, ⟨2, 51, 41, rfl, rfl, rfl, rfl⟩,
      by norm_num [arrowDir, V3.dot], by apply V3.ext <;> simp [arrowDir, arrowPoint, arrowEdge],
      by apply V3.ext <;> norm_num [arrowDir, arrowPoint, arrowEdge]⟩
  · exact ⟨32, true, _, arrowDir 2, 0, 13, ⟨12, 13, rfl, ⟨2, rfl, rfl⟩, ⟨3, rfl, rfl⟩⟩, ⟨2, 52, 42, rfl, rfl, rfl, rfl⟩,
      by norm_num [arrowDir, V3.dot], by apply V3.ext <;> simp [arrowDir, arrowPoint, arrowEdge],
      by apply V3.ext <;> norm_num [arrowDir, arrowPoint, arrowEdge]⟩
  · exact ⟨33, true, _, arrowDir 3, 0, 13, ⟨10, 13, rfl, ⟨0, rfl, rfl⟩, ⟨3, rfl, rfl⟩⟩, ⟨0, 53, 43, rfl, rfl, rfl, rfl⟩,
      by norm_num [arrowDir, V3.dot], by apply V3.ext <;> simp [arrowDir, arrowPoint, arrowEdge],
      by apply V3.ext <;> norm_num [arrowDir, arrowPoint, arrowEdge]⟩

theorem arrow_says : SaysPolygon arrowFile ⟨[320], 310, true⟩ arrowSide.plane arrowSide.uses arrowSide.corners := by
  refine ⟨⟨330, ⟨0, 0, 0⟩, ⟨0, 0, 1⟩, ⟨1, 0, 0⟩, rfl, ⟨4, 60, 61, rfl, rfl, rfl, rfl⟩, rfl⟩, rfl, 320, 300, true, [100, 101, 102, 103], rfl, rfl, rfl, ?_⟩
  exact .cons ⟨rfl, arrow_straight (e := 0) (by norm_num)⟩ (.cons ⟨rfl, arrow_straight (e := 1) (by norm_num)⟩
    (.cons ⟨rfl, arrow_straight (e := 2) (by norm_num)⟩ (.cons ⟨rfl, arrow_straight (e := 3) (by norm_num)⟩ .nil)))

theorem arrow_project : arrowSide.corners.map arrowSide.plane.project = [⟨12, 0⟩, ⟨0, 16⟩, ⟨-12, 0⟩, ⟨0, 5⟩] := by
  simp [arrowSide, arrowPlane, arrowPoint, Plane.project, V3.dot, V3.cross]

theorem arrow_reflex : ReflexFace arrowSide.plane arrowSide.corners := by
  refine ⟨by simp [arrowSide], fun x hx y hy hxy => ?_, ?_, ?_, ?_, ?_⟩
  · simp only [arrowSide, arrowPoint, List.mem_cons, List.not_mem_nil, or_false] at hx hy
    rcases hx with rfl | rfl | rfl | rfl <;> rcases hy with rfl | rfl | rfl | rfl <;>
      first | exact absurd rfl hxy | norm_num [V3.distanceSq, V3.lengthSq, V3.dot, Env.tol]
  · rw [arrow_project]
    intro i j hi hj h1 h2 h3
    simp only [List.length_cons, List.length_nil] at hi hj h2 h3
    have hi : i < 4 := hi
    have hj : j < 4 := hj
    rintro ⟨q, ⟨a, a0, a1, a2, a3⟩, ⟨b, b0, b1, b2, b3⟩⟩
    interval_cases i <;> interval_cases j <;> simp at h1 h2 h3 <;> simp at a2 a3 b2 b3 <;> nlinarith
  · rw [arrow_project]
    intro i j k hi hj hk h1 h2 h3
    simp only [List.length_cons, List.length_nil] at hi hj hk
    have hi : i < 4 := hi
    have hj : j < 4 := hj
    have hk : k < 4 := hk
    interval_cases i <;> interval_cases j <;> interval_cases k <;> first | omega | norm_num [triArea2, Env.tol]
  · rw [arrow_project]
    norm_num [area2, loopEdges, pathEdges, cross2]
  · rw [arrow_project]
    exact ⟨⟨-12, 0⟩, ⟨0, 5⟩, ⟨12, 0⟩, by simp [loopEdges, pathEdges], by simp [loopEdges, pathEdges], by norm_num [triArea2]⟩

/-- The arrow head is tiled although two of its four edges are used against their direction. -/
theorem C142_example {o : Nat → TrimOracle ℝ} (hbs : ∀ i, BinarySearch (o i).bs) (hdiv : ∀ i, 0 < (o i).divFuel)
    (hear : ∀ i, 4 < (o i).earFuel) (fmt : ℝ → List Char) (fuel : Nat) (rnd : Nat → Nat → List Bool → ℝ) :
    ∃ lines m, convertStp o fmt fuel rnd arrowFile = .ok (some lines, none) ∧ (objRead lines).faces = meshFaces m ∧
      MeshedWhole arrowSide m ∧ arrowSide.backward = 2 := by
  obtain ⟨lines, meshes, h1, h2, h3⟩ := C142_convert (file := arrowFile) (sides := [arrowSide]) rfl (by simp) (.cons arrow_says .nil)
    (fun s hs => by
      rw [List.mem_singleton] at hs
      subst hs
      refine .inr ⟨arrow_reflex, ?_⟩
      simp [FaceSide.Alone, arrowSide, loopEdges, pathEdges]) hbs hdiv
    (fun i s hs => by rw [List.mem_singleton] at hs; subst hs; exact hear i) (by simp [arrowSide]) fmt fuel rnd
  cases h2 with
  | cons a b =>
    cases b
    exact ⟨lines, _, h1, by simpa using h3, a, by simp [FaceSide.backward, arrowSide]⟩

end Geom3d
