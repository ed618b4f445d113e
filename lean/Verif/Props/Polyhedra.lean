import Verif.Props.Seam
import Verif.Props.FaceTiling
import Verif.Props.Examples

/-!
# From a STEP file to an OBJ file: faces with straight edges (C138)

A face in a plane with one bound of straight edges, each used in the direction in which it is written, is read as its own
polygon; if this is simple, in general position and counter-clockwise as seen from the side of the normal, `convert_stp` writes
triangles that tile it.
-/

namespace Geom3d
open Spec

set_option linter.unusedSectionVars false

/-! ### What the file says -/

section
variable {F : Type} [Add F] [Sub F] [Mul F] [Div F] [Neg F] [Zero F] [One F] [NatCast F] [LT F] [DecidableLT F]
  [LE F] [DecidableLE F] [Env F]

/-- The ends of an edge in the order in which they are written in the file, when the loop uses it from `p` to `q`. -/
def Spec.asWritten (flag : Bool) (p q : V3 F) : List (V3 F) := if flag then [p, q] else [q, p]

/-- The ends of all edges of a loop. -/
def Spec.writtenPath (flags : List Bool) (vs : List (V3 F)) : List (V3 F) :=
  (flags.zip (loopEdges vs)).flatMap fun u => asWritten u.1 u.2.1 u.2.2

/-- The plane of `face`, its normal turned over if the face says so. -/
def Spec.SaysPlane (file : StepFile F) (face : StepAdvancedFace) (p : Plane F) : Prop :=
  ∃ pos o z x, file.plane face.faceGeometry = some pos ∧ SaysPlacement file pos o z x ∧
    p = ⟨o, if face.sameSense then z else -z, x, (if face.sameSense then z else -z).cross x⟩

end

/-- Edge `g` is a straight edge from `s` to `e` on a line with a unit direction. -/
def Spec.SaysStraight (file : StepFile ℝ) (g : Ref) (s e : V3 ℝ) : Prop :=
  ∃ (c : Ref) (sense : Bool) (o d : V3 ℝ) (a b : ℝ), SaysEdge file g s e c sense ∧ SaysLine file c o d ∧ d.dot d = 1 ∧
    s = o + a • d ∧ e = o + b • d

/-- Oriented edge `r` goes from `p` to `q` along edge `g`, in its direction or, if `flag` is false, against it. -/
def Spec.SaysUse (file : StepFile ℝ) (r : Ref) (use : Ref × Bool) (p q : V3 ℝ) : Prop :=
  file.orientedEdge r = some ⟨use.1, use.2⟩ ∧
    SaysStraight file use.1 (if use.2 then p else q) (if use.2 then q else p)

/-- `face` lies in plane `p` and has one bound, which goes straight from each point of `vs` to the next and from the last to
the first, along the edges `uses`. -/
def Spec.SaysPolygon (file : StepFile ℝ) (face : StepAdvancedFace) (p : Plane ℝ) (uses : List (Ref × Bool)) (vs : List (V3 ℝ)) :
    Prop :=
  SaysPlane file face p ∧ uses.length = vs.length ∧ ∃ r b flag refs, face.bounds = [r] ∧ file.faceBound r = some ⟨b, flag⟩ ∧
    file.edgeLoop b = some refs ∧ List.Forall₂ (fun r u => SaysUse file r u.1 u.2.1 u.2.2) refs (uses.zip (loopEdges vs))

/-! ### Reading it -/

theorem use_segment {file : StepFile ℝ} {r : Ref} {use : Ref × Bool} {p q : V3 ℝ} (h : SaysUse file r use p q) :
    ∃ seg, SaysOriented file r seg ∧ ∀ fuel, 0 < fuel → ∀ rnd, seg.getPoints fuel rnd = .ok (asWritten use.2 p q) := by
  obtain ⟨h1, c, sense, o, d, a, b, h2, h3, hd, hp, hq⟩ := h
  obtain ⟨seg, h4, h5⟩ := seam_segment (r := r) ⟨use.1, c, sense, o, d, a, b, h1, h2, h3, hd, hp, hq⟩
  refine ⟨seg, h4, fun fuel hf rnd => (h5 fuel hf rnd).trans ?_⟩
  rcases use with ⟨g, f⟩
  cases f <;> rfl

theorem uses_segments {file : StepFile ℝ} {refs : List Ref} {L : List ((Ref × Bool) × V3 ℝ × V3 ℝ)}
    (h : List.Forall₂ (fun r u => SaysUse file r u.1 u.2.1 u.2.2) refs L) :
    ∃ segs, List.Forall₂ (SaysOriented file) refs segs ∧ ∀ fuel, 0 < fuel → ∀ (rnd : Nat → List Bool → ℝ) (k : Nat),
      (segs.zipIdx k).mapM (fun (e : CurveSegment ℝ × Nat) => e.1.getPoints fuel (rnd e.2))
        = .ok (L.map fun u => asWritten u.1.2 u.2.1 u.2.2) := by
  induction h with
  | nil => exact ⟨[], .nil, fun _ _ _ _ => rfl⟩
  | cons h1 _ ih =>
    obtain ⟨seg, a1, a2⟩ := use_segment h1
    obtain ⟨segs, b1, b2⟩ := ih
    refine ⟨seg :: segs, .cons a1 b1, fun fuel hf rnd k => ?_⟩
    rw [List.zipIdx_cons, mapM_cons, a2 fuel hf, b2 fuel hf rnd (k + 1)]
    rfl

/-- The face that is read, and the polygon it gives to `trim`. -/
theorem polygon_read {file : StepFile ℝ} {face : StepAdvancedFace} {p : Plane ℝ} {uses : List (Ref × Bool)} {vs : List (V3 ℝ)}
    (h : SaysPolygon file face p uses vs) :
    ∃ t, SaysFace file face t ∧ ∀ o : TrimOracle ℝ, 0 < o.divFuel → t.getTriangleMesh o = p.trim o t.bounds ∧
      ∀ l, closePolygon (writtenPath (uses.map Prod.snd) vs) = .ok l → l ≠ [] →
        collectLoops o t.bounds = .ok (l, [0, l.length]) := by
  obtain ⟨⟨pos, o, z, x, hp, hpos, rfl⟩, -, r, b, flag, refs, hb, hr, he, hu⟩ := h
  obtain ⟨segs, hs, hpts⟩ := uses_segments hu
  refine ⟨⟨_, [⟨segs⟩]⟩, ⟨.plane hp hpos, by rw [hb]; exact .cons ⟨b, flag, refs, hr, he, hs⟩ .nil⟩, fun o hf => ⟨rfl, fun l hl hne => ?_⟩⟩
  have hpoly : EdgeLoop.toPolygon o.divFuel (o.rnd 0) ⟨segs⟩ = .ok l := by
    unfold EdgeLoop.toPolygon
    have := hpts o.divFuel hf (o.rnd 0) 0
    refine (congrArg (fun r : Res (List (List (V3 ℝ))) => r >>= fun points => closePolygon points.flatten) this).trans ?_
    rw [ok_bind, ← hl]
    congr 1
    unfold writtenPath
    rw [List.zip_map_left, List.flatMap_map, ← List.flatMap_def]
    rfl
  unfold collectLoops
  have hlen : 0 < l.length := List.length_pos_iff.2 hne
  simp only [List.zipIdx_cons, List.zipIdx_nil, List.foldlM_cons, List.foldlM_nil, hpoly, ok_bind, pure_eq_ok, hlen, if_true,
    List.nil_append, Nat.zero_add]
  rfl

/-! ### Loops that use all edges in their direction -/

theorem dedup_path {α : Type} (same : α → α → Bool) (hs : ∀ a, same a a = true) : ∀ (l : List α) (a : α),
    (∀ e ∈ pathEdges (a :: l), same e.2 e.1 = false) →
    dedupAux same a ((pathEdges (a :: l)).flatMap fun e => [e.1, e.2]) = l
  | [], a, _ => rfl
  | b :: l, a, h => by
    have h1 : pathEdges (a :: b :: l) = (a, b) :: pathEdges (b :: l) := rfl
    rw [h1] at h ⊢
    have h2 : same b a = false := h (a, b) (by simp)
    rw [List.flatMap_cons]
    simp only [List.cons_append, List.nil_append, dedupAux, hs, h2, if_true, Bool.false_eq_true, if_false]
    rw [dedup_path same hs l b fun e he => h e (by simp [he])]

theorem written_forward {F : Type} (vs : List (V3 F)) {flags : List Bool} (hl : flags.length = vs.length)
    (hf : ∀ f ∈ flags, f = true) : writtenPath flags vs = (loopEdges vs).flatMap fun e => [e.1, e.2] := by
  have key : ∀ (flags : List Bool) (L : List (V3 F × V3 F)), flags.length = L.length → (∀ f ∈ flags, f = true) →
      (flags.zip L).flatMap (fun u => asWritten u.1 u.2.1 u.2.2) = L.flatMap fun e => [e.1, e.2] := by
    intro flags
    induction flags with
    | nil =>
      intro L h _
      cases L with
      | nil => rfl
      | cons a L => simp at h
    | cons f flags ih =>
      intro L h hf
      cases L with
      | nil => simp at h
      | cons a L =>
        rw [List.zip_cons_cons, List.flatMap_cons, List.flatMap_cons, ih L (by simpa using h) fun f h => hf f (by simp [h]),
          hf f (by simp)]
        rfl
  exact key flags _ (by rw [hl, length_loopEdges]) hf

/-- Consecutive points are told apart. -/
def Spec.StepsApart (vs : List (V3 ℝ)) : Prop := ∀ e ∈ loopEdges vs, Env.tol < e.2.distanceSq e.1

theorem near_self_real (v : V3 ℝ) : near (v.distanceSq v) 0 = true :=
  (rests_real (getPoint := fun _ => .ok v) (u := 0) rfl 0).same

theorem near_apart {p q : V3 ℝ} (h : Env.tol < p.distanceSq q) : near (p.distanceSq q) 0 = false := by
  rw [← Bool.not_eq_true, near_zero]
  exact fun h' => absurd ((le_abs_self _).trans h') (not_le.2 h)

/-- **C138** The polygon read is the polygon of the file. -/
theorem C138_polygon {vs : List (V3 ℝ)} (hne : vs ≠ []) {flags : List Bool} (hl : flags.length = vs.length)
    (hf : ∀ f ∈ flags, f = true) (hs : StepsApart vs) : closePolygon (writtenPath flags vs) = .ok vs := by
  obtain ⟨a, t, rfl⟩ := List.exists_cons_of_ne_nil hne
  rw [written_forward _ hl hf]
  have hd : dedupBy (fun a b : V3 ℝ => near (a.distanceSq b) 0) ((loopEdges (a :: t)).flatMap fun e => [e.1, e.2]) = a :: t ++ [a] := by
    have h1 : ∃ b l, t ++ [a] = b :: l := by
      cases t with
      | nil => exact ⟨a, [], rfl⟩
      | cons b t => exact ⟨b, t ++ [a], rfl⟩
    obtain ⟨b, l, h1⟩ := h1
    have h2 := dedup_path (fun a b : V3 ℝ => near (a.distanceSq b) 0) near_self_real (t ++ [a]) a fun e he => near_apart (hs e he)
    have h3 : loopEdges (a :: t) = pathEdges (a :: (t ++ [a])) := rfl
    rw [h3, List.cons_append, h1]
    rw [h1] at h2
    have h4 : pathEdges (a :: b :: l) = (a, b) :: pathEdges (b :: l) := rfl
    rw [h4, List.flatMap_cons] at h2 ⊢
    simp only [List.cons_append, List.nil_append, dedupAux, near_self_real, if_true] at h2
    simp only [List.cons_append, List.nil_append, dedupBy]
    have h5 : dedupAux (fun a b : V3 ℝ => near (a.distanceSq b) 0) a (b :: (pathEdges (b :: l)).flatMap fun e => [e.1, e.2])
        = b :: l := by rw [dedupAux]; exact h2
    rw [h5]
  unfold closePolygon
  rw [hd]
  have hlast : idx (a :: t ++ [a]) (t.length + 1) = .ok a := by
    simp [idx]
  simp only [List.length_append, List.length_cons, List.length_nil]
  have hu : usub (t.length + 1 + (0 + 1)) 1 = .ok (t.length + 1) := by simp [usub]
  rw [hu]
  have h0 : idx (a :: t ++ [a]) 0 = .ok a := rfl
  rw [h0]
  simp only [ok_bind]
  rw [hlast]
  simp only [ok_bind, near_self_real, if_true, pure_eq_ok]
  congr 1
  exact List.dropLast_concat

/-- A loop that `trim` meshes without gaps and overlaps. -/
structure Spec.Proper (p : Plane ℝ) (vs : List (V3 ℝ)) : Prop where
  corners : 3 ≤ vs.length
  apart : StepsApart vs
  simple : Simple (vs.map p.project)
  general : General (vs.map p.project)
  ccw : 0 < area2 (vs.map p.project)

/-- What the triangles of the face must do. -/
structure Spec.MeshOf (p : Plane ℝ) (vs : List (V3 ℝ)) (mesh : TriangleMesh ℝ) : Prop where
  vertices : mesh.vertices = vs ∨ mesh.vertices = vs ++ [centroid vs]
  normals : mesh.normals = []
  tiles : Tiles (vs.map p.project) (mesh.vertices.map p.project) mesh.triangles

/-- **C138** One face: read without an error, and meshed without gaps and overlaps. -/
theorem C138_face {file : StepFile ℝ} {face : StepAdvancedFace} {p : Plane ℝ} {uses : List (Ref × Bool)} {vs : List (V3 ℝ)}
    (h : SaysPolygon file face p uses vs) (hu : ∀ u ∈ uses, u.2 = true) (hv : Proper p vs) :
    ∃ t, SaysFace file face t ∧ ∀ o : TrimOracle ℝ, BinarySearch o.bs → 0 < o.divFuel → vs.length < o.earFuel →
      ∃ mesh, t.getTriangleMesh o = .ok mesh ∧ ValidMesh mesh ∧ MeshOf p vs mesh := by
  obtain ⟨t, ht, hr⟩ := polygon_read h
  have hne : vs ≠ [] := fun hn => by have := hv.corners; rw [hn] at this; simp at this
  refine ⟨t, ht, fun o hbs hdiv hear => ?_⟩
  obtain ⟨e, hc⟩ := hr o hdiv
  have hl := C138_polygon hne (flags := uses.map Prod.snd) (by rw [List.length_map]; exact h.2.1)
    (fun f hf => by obtain ⟨u, h1, rfl⟩ := List.mem_map.1 hf; exact hu u h1) hv.apart
  obtain ⟨mesh, h1, h2, h3, h4⟩ := C121_tiling (by norm_num [Env.tol]) hbs (hc vs hl hne) rfl hear hv.corners hv.simple hv.general hv.ccw
  obtain ⟨⟨k, v1⟩, v2, v3⟩ := C53_valid h1
  exact ⟨mesh, e.trans h1, ⟨by omega, v2, .inl v3⟩, h3.imp And.left And.left, h2, h4⟩

/-- A face of a polyhedron: its plane, the edges it uses, and its corners. -/
structure Spec.FaceSide where
  plane : Plane ℝ
  uses : List (Ref × Bool)
  corners : List (V3 ℝ)

theorem sides_read {file : StepFile ℝ} {faces : List StepAdvancedFace} {sides : List FaceSide}
    (h : List.Forall₂ (fun face s => SaysPolygon file face s.plane s.uses s.corners) faces sides)
    (hu : ∀ s ∈ sides, ∀ u ∈ s.uses, u.2 = true) (hv : ∀ s ∈ sides, Proper s.plane s.corners) (o : Nat → TrimOracle ℝ)
    (hbs : ∀ i, BinarySearch (o i).bs) (hdiv : ∀ i, 0 < (o i).divFuel) (hear : ∀ i, ∀ s ∈ sides, s.corners.length < (o i).earFuel)
    (k : Nat) :
    ∃ ts meshes, List.Forall₂ (SaysFace file) faces ts ∧
      List.Forall₂ (fun (f : TrimmedSurface ℝ × Nat) m => f.1.getTriangleMesh (o f.2) = .ok m ∧ ValidMesh m) (ts.zipIdx k) meshes ∧
      List.Forall₂ (fun s m => MeshOf s.plane s.corners m) sides meshes := by
  induction h generalizing k with
  | nil => exact ⟨[], [], .nil, .nil, .nil⟩
  | @cons face s _ _ h1 _ ih =>
    obtain ⟨ts, ms, a1, a2, a3⟩ := ih (fun s hs => hu s (by simp [hs])) (fun s hs => hv s (by simp [hs]))
      (fun i s hs => hear i s (by simp [hs])) (k + 1)
    obtain ⟨t, b1, b2⟩ := C138_face h1 (hu s (by simp)) (hv s (by simp))
    obtain ⟨m, c1, c2, c3⟩ := b2 (o k) (hbs k) (hdiv k) (hear k s (by simp))
    exact ⟨t :: ts, m :: ms, .cons b1 a1, by rw [List.zipIdx_cons]; exact .cons ⟨c1, c2⟩ a2, .cons c3 a3⟩

theorem meshes_size {sides : List FaceSide} {meshes : List (TriangleMesh ℝ)}
    (h : List.Forall₂ (fun s m => MeshOf s.plane s.corners m) sides meshes) :
    (meshes.map fun m => m.vertices.length).sum ≤ (sides.map fun s => s.corners.length + 1).sum := by
  induction h with
  | nil => exact le_refl _
  | cons h1 _ ih =>
    rw [List.map_cons, List.map_cons, List.sum_cons, List.sum_cons]
    have := h1.vertices
    rcases this with h | h
    · rw [h]; omega
    · rw [h, List.length_append]; simp only [List.length_cons, List.length_nil]; omega

/-- **C138** `convert_stp` on a file with planar faces that use all their edges in their direction: the OBJ file that is
written, read by any reader of the format, consists of triangles that tile the faces of the STEP file, in its order. -/
theorem C138_convert {file : StepFile ℝ} {sides : List FaceSide} (hc : file.compositeCurves = []) (hne : sides ≠ [])
    (h : List.Forall₂ (fun face s => SaysPolygon file face s.plane s.uses s.corners) file.advancedFaces sides)
    (hu : ∀ s ∈ sides, ∀ u ∈ s.uses, u.2 = true) (hv : ∀ s ∈ sides, Proper s.plane s.corners) {o : Nat → TrimOracle ℝ}
    (hbs : ∀ i, BinarySearch (o i).bs) (hdiv : ∀ i, 0 < (o i).divFuel) (hear : ∀ i, ∀ s ∈ sides, s.corners.length < (o i).earFuel)
    (hsz : (sides.map fun s => s.corners.length + 1).sum + 1 < 2 ^ 32) (fmt : ℝ → List Char) (fuel : Nat)
    (rnd : Nat → Nat → List Bool → ℝ) :
    ∃ lines meshes, convertStp o fmt fuel rnd file = .ok (some lines, none) ∧
      List.Forall₂ (fun s m => MeshOf s.plane s.corners m) sides meshes ∧
      (objRead lines).faces = meshes.flatMap meshFaces := by
  obtain ⟨ts, ms, a1, a2, a3⟩ := sides_read h hu hv o hbs hdiv hear 0
  have hsz' : (ms.map fun m => m.vertices.length).sum + 1 < 2 ^ 32 :=
    lt_of_le_of_lt (Nat.add_le_add_right (meshes_size a3) 1) hsz
  obtain ⟨obj, svg, h1, h2, h3, h4, -⟩ := C115_convert (curves := []) (paths := []) (by rw [hc]; exact .nil) a1 (o := o)
    (fmt := fmt) (fuel := fuel) (rnd := rnd) a2 hsz' .nil
  have hts : ts ≠ [] := by
    rintro rfl
    have e1 := a1.length_eq
    have e2 := h.length_eq
    rw [e1] at e2
    exact hne (List.length_eq_zero_iff.1 e2.symm)
  obtain ⟨lines, rfl⟩ := Option.isSome_iff_exists.1 (h2.2 hts)
  have hsvg : svg = none := by
    rcases svg with _ | d
    · rfl
    · exact absurd rfl (h3.1 rfl)
  subst hsvg
  exact ⟨lines, ms, h1, a3, h4 lines rfl⟩

/-! ### A sample file: a tetrahedron -/

/-- Triangles are proper loops. -/
theorem proper_triangle {p : Plane ℝ} {a b c : V3 ℝ} (hs : StepsApart [a, b, c])
    (ha : Env.tol < triArea2 (p.project a) (p.project b) (p.project c)) : Proper p [a, b, c] := by
  have htol : (0 : ℝ) ≤ Env.tol := by norm_num [Env.tol]
  refine ⟨by simp, hs, fun i j hi hj h1 h2 h3 => ?_, fun i j k hi hj hk h1 h2 h3 => ?_, ?_⟩
  · simp only [List.length_map, List.length_cons, List.length_nil] at hi hj h2 h3
    interval_cases i <;> interval_cases j <;> simp at h1 h2 h3
  · simp only [List.length_map, List.length_cons, List.length_nil] at hi hj hk
    have hb : ∀ x : ℝ, x = triArea2 (p.project a) (p.project b) (p.project c) ∨ x = -triArea2 (p.project a) (p.project b) (p.project c) →
        Env.tol < |x| := by
      rintro x (rfl | rfl)
      · exact ha.trans_le (le_abs_self _)
      · rw [abs_neg]; exact ha.trans_le (le_abs_self _)
    apply hb
    interval_cases i <;> interval_cases j <;> interval_cases k <;> simp at h1 h2 h3 <;>
      simp only [List.map_cons, List.map_nil, List.getD_cons_zero, List.getD_cons_succ, triArea2]
    all_goals first | (left; trivial) | (left; ring1) | (right; ring1)
  · have e : area2 ([a, b, c].map p.project) = triArea2 (p.project a) (p.project b) (p.project c) := by
      simp [area2, loopEdges, pathEdges, cross2, triArea2]; ring
    rw [e]
    exact htol.trans_lt ha

/-- The corners `(0, 0, 0)`, `(44, 0, 0)`, `(0, 117, 0)` and `(0, 0, 240)`. -/
def tetraPoint (i : Nat) : V3 ℝ :=
  match i with
  | 1 => ⟨44, 0, 0⟩
  | 2 => ⟨0, 117, 0⟩
  | 3 => ⟨0, 0, 240⟩
  | _ => ⟨0, 0, 0⟩

/-- The ends of edge `e`; edge 6 is edge 2 written the other way around. -/
def tetraEdge (e : Nat) : Nat × Nat :=
  match e with
  | 0 => (0, 1)
  | 1 => (0, 2)
  | 2 => (0, 3)
  | 3 => (1, 2)
  | 4 => (1, 3)
  | 5 => (2, 3)
  | _ => (3, 0)

/-- The unit direction of edge `e`. -/
noncomputable def tetraDir (e : Nat) : V3 ℝ :=
  match e with
  | 0 => ⟨1, 0, 0⟩
  | 1 => ⟨0, 1, 0⟩
  | 2 => ⟨0, 0, 1⟩
  | 3 => ⟨-44 / 125, 117 / 125, 0⟩
  | 4 => ⟨-44 / 244, 0, 240 / 244⟩
  | 5 => ⟨0, -117 / 267, 240 / 267⟩
  | _ => ⟨0, 0, -1⟩

/-- The length of edge `e`. -/
def tetraLength (e : Nat) : ℝ :=
  match e with
  | 0 => 44
  | 1 => 117
  | 2 => 240
  | 3 => 125
  | 4 => 244
  | 5 => 267
  | _ => 240

/-- Normal and first axis of face `f`. -/
def tetraAxes (f : Nat) : V3 ℝ × V3 ℝ :=
  match f with
  | 0 => (⟨0, 0, -1⟩, ⟨1, 0, 0⟩)
  | 1 => (⟨0, -1, 0⟩, ⟨1, 0, 0⟩)
  | 2 => (⟨-1, 0, 0⟩, ⟨0, 1, 0⟩)
  | _ => (⟨28080, 10560, 5148⟩, ⟨-44, 117, 0⟩)

def v3list (v : V3 ℝ) : List ℝ := [v.x, v.y, v.z]

/-- Corners of the tetrahedron are the entities `i`, their vertices `10 + i`, edges `20 + e` on lines `30 + e`; oriented edges are
`100 + e` and, against the direction, `200 + e`. Face `f` has the loop `300 + f` and the plane `310 + f`. -/
noncomputable def tetraFile (loops : Nat → List Ref) (faces : List Nat) : StepFile ℝ :=
  { (emptyFile : StepFile ℝ) with
    cartesianPoint := fun r => if r < 4 then some (v3list (tetraPoint r)) else none
    vertexGeometry := fun r => if 10 ≤ r ∧ r < 14 then some (r - 10) else none
    direction := fun r => if 40 ≤ r ∧ r < 47 then some (v3list (tetraDir (r - 40))) else
      if 60 ≤ r ∧ r < 64 then some (v3list (tetraAxes (r - 60)).1) else
      if 70 ≤ r ∧ r < 74 then some (v3list (tetraAxes (r - 70)).2) else none
    vectorOrientation := fun r => if 50 ≤ r ∧ r < 57 then some (r - 10) else none
    line := fun r => if 30 ≤ r ∧ r < 37 then some ((tetraEdge (r - 30)).1, r + 20) else none
    edgeCurve := fun r => if 20 ≤ r ∧ r < 27 then some ⟨10 + (tetraEdge (r - 20)).1, 10 + (tetraEdge (r - 20)).2, r + 10, true⟩ else none
    orientedEdge := fun r => if 100 ≤ r ∧ r < 107 then some ⟨r - 80, true⟩ else
      if 200 ≤ r ∧ r < 207 then some ⟨r - 180, false⟩ else none
    edgeLoop := fun r => if 300 ≤ r ∧ r < 304 then some (loops (r - 300)) else none
    faceBound := fun r => if 320 ≤ r ∧ r < 324 then some ⟨r - 20, true⟩ else none
    axis2Placement3d := fun r => if 330 ≤ r ∧ r < 334 then some (if r = 333 then 1 else 0, some (r - 270), some (r - 260)) else none
    plane := fun r => if 310 ≤ r ∧ r < 314 then some (r + 20) else none
    advancedFaces := faces.map fun f => ⟨[320 + f], 310 + f, true⟩ }

/-- The plane of face `f`. -/
noncomputable def tetraPlane (f : Nat) : Plane ℝ :=
  ⟨tetraPoint (if f = 3 then 1 else 0), (tetraAxes f).1, (tetraAxes f).2, (tetraAxes f).1.cross (tetraAxes f).2⟩

theorem tetra_straight (loops : Nat → List Ref) (faces : List Nat) {e : Nat} (he : e < 7) :
    SaysStraight (tetraFile loops faces) (20 + e) (tetraPoint (tetraEdge e).1) (tetraPoint (tetraEdge e).2) := by
  interval_cases e
  · exact ⟨30, true, _, tetraDir 0, 0, 44, ⟨10, 11, rfl, ⟨0, rfl, rfl⟩, ⟨1, rfl, rfl⟩⟩, ⟨0, 50, 40, rfl, rfl, rfl, rfl⟩,
      by norm_num [tetraDir, V3.dot], by apply V3.ext <;> simp [tetraDir, tetraPoint, tetraEdge],
      by apply V3.ext <;> norm_num [tetraDir, tetraPoint, tetraEdge]⟩
  · exact ⟨31, true, _, tetraDir 1, 0, 117, ⟨10, 12, rfl, ⟨0, rfl, rfl⟩, ⟨2, rfl, rfl⟩⟩, ⟨0, 51, 41, rfl, rfl, rfl, rfl⟩,
      by norm_num [tetraDir, V3.dot], by apply V3.ext <;> simp [tetraDir, tetraPoint, tetraEdge],
      by apply V3.ext <;> norm_num [tetraDir, tetraPoint, tetraEdge]⟩
  · exact ⟨32, true, _, tetraDir 2, 0, 240, ⟨10, 13, rfl, ⟨0, rfl, rfl⟩, ⟨3, rfl, rfl⟩⟩, ⟨0, 52, 42, rfl, rfl, rfl, rfl⟩,
      by norm_num [tetraDir, V3.dot], by apply V3.ext <;> simp [tetraDir, tetraPoint, tetraEdge],
      by apply V3.ext <;> norm_num [tetraDir, tetraPoint, tetraEdge]⟩
  · exact ⟨33, true, _, tetraDir 3, 0, 125, ⟨11, 12, rfl, ⟨1, rfl, rfl⟩, ⟨2, rfl, rfl⟩⟩, ⟨1, 53, 43, rfl, rfl, rfl, rfl⟩,
      by norm_num [tetraDir, V3.dot], by apply V3.ext <;> simp [tetraDir, tetraPoint, tetraEdge],
      by apply V3.ext <;> norm_num [tetraDir, tetraPoint, tetraEdge]⟩
  · exact ⟨34, true, _, tetraDir 4, 0, 244, ⟨11, 13, rfl, ⟨1, rfl, rfl⟩, ⟨3, rfl, rfl⟩⟩, ⟨1, 54, 44, rfl, rfl, rfl, rfl⟩,
      by norm_num [tetraDir, V3.dot], by apply V3.ext <;> simp [tetraDir, tetraPoint, tetraEdge],
      by apply V3.ext <;> norm_num [tetraDir, tetraPoint, tetraEdge]⟩
  · exact ⟨35, true, _, tetraDir 5, 0, 267, ⟨12, 13, rfl, ⟨2, rfl, rfl⟩, ⟨3, rfl, rfl⟩⟩, ⟨2, 55, 45, rfl, rfl, rfl, rfl⟩,
      by norm_num [tetraDir, V3.dot], by apply V3.ext <;> simp [tetraDir, tetraPoint, tetraEdge],
      by apply V3.ext <;> norm_num [tetraDir, tetraPoint, tetraEdge]⟩
  · exact ⟨36, true, _, tetraDir 6, 0, 240, ⟨13, 10, rfl, ⟨3, rfl, rfl⟩, ⟨0, rfl, rfl⟩⟩, ⟨3, 56, 46, rfl, rfl, rfl, rfl⟩,
      by norm_num [tetraDir, V3.dot], by apply V3.ext <;> simp [tetraDir, tetraPoint, tetraEdge],
      by apply V3.ext <;> norm_num [tetraDir, tetraPoint, tetraEdge]⟩

theorem tetra_forward (loops : Nat → List Ref) (faces : List Nat) {e : Nat} (he : e < 7) :
    SaysUse (tetraFile loops faces) (100 + e) (20 + e, true) (tetraPoint (tetraEdge e).1) (tetraPoint (tetraEdge e).2) :=
  ⟨by interval_cases e <;> rfl, tetra_straight loops faces he⟩

theorem tetra_backward (loops : Nat → List Ref) (faces : List Nat) {e : Nat} (he : e < 7) :
    SaysUse (tetraFile loops faces) (200 + e) (20 + e, false) (tetraPoint (tetraEdge e).2) (tetraPoint (tetraEdge e).1) :=
  ⟨by interval_cases e <;> rfl, tetra_straight loops faces he⟩

theorem tetra_plane (loops : Nat → List Ref) (faces : List Nat) {f : Nat} (hf : f < 4) :
    SaysPlane (tetraFile loops faces) ⟨[320 + f], 310 + f, true⟩ (tetraPlane f) := by
  interval_cases f
  · exact ⟨330, _, _, _, rfl, ⟨0, 60, 70, rfl, rfl, rfl, rfl⟩, rfl⟩
  · exact ⟨331, _, _, _, rfl, ⟨0, 61, 71, rfl, rfl, rfl, rfl⟩, rfl⟩
  · exact ⟨332, _, _, _, rfl, ⟨0, 62, 72, rfl, rfl, rfl, rfl⟩, rfl⟩
  · exact ⟨333, _, _, _, rfl, ⟨1, 63, 73, rfl, rfl, rfl, rfl⟩, rfl⟩

/-- A face with corners `i`, `j`, `k`. -/
noncomputable def tetraSide (f : Nat) (uses : List (Ref × Bool)) (i j k : Nat) : FaceSide :=
  ⟨tetraPlane f, uses, [tetraPoint i, tetraPoint j, tetraPoint k]⟩

theorem tetra_polygon {loops : Nat → List Ref} (faces : List Nat) {f : Nat} (hf : f < 4) {r s t : Ref} {u v w : Ref × Bool}
    {i j k : Nat} (hl : loops f = [r, s, t])
    (h1 : SaysUse (tetraFile loops faces) r u (tetraPoint i) (tetraPoint j))
    (h2 : SaysUse (tetraFile loops faces) s v (tetraPoint j) (tetraPoint k))
    (h3 : SaysUse (tetraFile loops faces) t w (tetraPoint k) (tetraPoint i)) :
    SaysPolygon (tetraFile loops faces) ⟨[320 + f], 310 + f, true⟩ (tetraPlane f) [u, v, w] [tetraPoint i, tetraPoint j, tetraPoint k] := by
  refine ⟨tetra_plane loops faces hf, rfl, 320 + f, 300 + f, true, [r, s, t], rfl, ?_, ?_, ?_⟩
  · interval_cases f <;> rfl
  · rw [← hl]; interval_cases f <;> rfl
  · exact .cons h1 (.cons h2 (.cons h3 .nil))

/-- The triangle with corners 0, 1 and 3, all of its edges used in their direction. -/
noncomputable def forwardFile : StepFile ℝ := tetraFile (fun _ => [100, 104, 106]) [1]

theorem C138_example {o : Nat → TrimOracle ℝ} (hbs : ∀ i, BinarySearch (o i).bs) (hdiv : ∀ i, 0 < (o i).divFuel)
    (hear : ∀ i, 3 < (o i).earFuel) (fmt : ℝ → List Char) (fuel : Nat) (rnd : Nat → Nat → List Bool → ℝ) :
    ∃ lines m, convertStp o fmt fuel rnd forwardFile = .ok (some lines, none) ∧ (objRead lines).faces = meshFaces m ∧
      MeshOf (tetraPlane 1) [⟨0, 0, 0⟩, ⟨44, 0, 0⟩, ⟨0, 0, 240⟩] m := by
  have hp : SaysPolygon forwardFile ⟨[321], 311, true⟩ (tetraPlane 1) [(20, true), (24, true), (26, true)]
      [tetraPoint 0, tetraPoint 1, tetraPoint 3] :=
    tetra_polygon (i := 0) (j := 1) (k := 3) [1] (f := 1) (by norm_num) rfl (tetra_forward _ _ (e := 0) (by norm_num))
      (tetra_forward _ _ (e := 4) (by norm_num)) (tetra_forward _ _ (e := 6) (by norm_num))
  obtain ⟨lines, meshes, h1, h2, h3⟩ := C138_convert (file := forwardFile)
    (sides := [tetraSide 1 [(20, true), (24, true), (26, true)] 0 1 3]) rfl (by simp) (.cons hp .nil)
    (by simp [tetraSide]) (by
      intro s hs
      rw [List.mem_singleton] at hs
      subst hs
      refine proper_triangle ?_ ?_
      · intro e he
        simp [loopEdges, pathEdges, tetraPoint] at he
        rcases he with rfl | rfl | rfl <;> norm_num [V3.distanceSq, V3.lengthSq, V3.dot, Env.tol]
      · norm_num [triArea2, tetraSide, tetraPlane, tetraPoint, tetraAxes, Plane.project, V3.dot, V3.cross, Env.tol]) hbs hdiv
    (fun i s hs => by rw [List.mem_singleton] at hs; subst hs; exact hear i) (by simp [tetraSide]) fmt fuel rnd
  cases h2 with
  | cons a b =>
    cases b
    exact ⟨lines, _, h1, by simpa using h3, a⟩

end Geom3d
