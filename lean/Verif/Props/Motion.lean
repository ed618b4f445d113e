import Verif.Props.Natural
import Verif.Props.SurfaceProject
import Verif.Props.Subdivide
import Verif.Spec.RealTrig

/-!
# C111: rigid motions

A motion is a linear map that preserves the scalar and the vector product, followed by a translation.  Moving all
objects moves all results: the same parameters, the same triangles, moved vertices, turned normals.
-/

set_option linter.unusedSectionVars false

noncomputable section
namespace Geom3d
open Spec

/-- A proper rigid motion of space. -/
structure Spec.Motion where
  lin : V3 ℝ →ₗ[ℝ] V3 ℝ
  shift : V3 ℝ
  dot : ∀ a b, (lin a).dot (lin b) = a.dot b
  cross : ∀ a b, (lin a).cross (lin b) = lin (a.cross b)

/-- The image of a point. -/
def Spec.Motion.move (m : Motion) (p : V3 ℝ) : V3 ℝ := m.lin p + m.shift

section
variable (m : Motion)

theorem move_sub (a b : V3 ℝ) : m.move a - m.move b = m.lin (a - b) := by
  rw [m.lin.map_sub]; unfold Motion.move; abel

theorem move_add (a b : V3 ℝ) : m.move a + m.lin b = m.move (a + b) := by
  rw [Motion.move, Motion.move, m.lin.map_add]; abel

theorem lin_mul (a : V3 ℝ) (k : ℝ) : m.lin a * k = m.lin (a * k) := by
  rw [LawfulPoint.right, LawfulPoint.right, m.lin.map_smul]

theorem lin_lengthSq (a : V3 ℝ) : (m.lin a).lengthSq = a.lengthSq := m.dot a a

theorem lin_length (a : V3 ℝ) : (m.lin a).length = a.length := by
  unfold V3.length; rw [m.dot]

theorem lin_normalize (a : V3 ℝ) : (m.lin a).normalize = m.lin a.normalize := by
  unfold V3.normalize
  rw [lin_length, lin_mul]

theorem move_distanceSq (a b : V3 ℝ) : (m.move a).distanceSq (m.move b) = a.distanceSq b := by
  unfold V3.distanceSq; rw [move_sub, lin_lengthSq]

theorem move_distance (a b : V3 ℝ) : (m.move a).distance (m.move b) = a.distance b := by
  unfold V3.distance; rw [move_sub, lin_length]

theorem move_lerp (a b : V3 ℝ) (k : ℝ) : (m.move a).lerp (m.move b) k = m.move (a.lerp b k) := by
  unfold V3.lerp; rw [move_sub, lin_mul, move_add]

/-! ### Loops -/

theorem res_map_bind {α β γ : Type} (f : α → β) (x : Res α) (k : β → Res γ) : (f <$> x) >>= k = x >>= fun a => k (f a) := by
  cases x <;> rfl

theorem bind_same_eq {α β β' : Type} (g : β → β') {x : Res α} {k : α → Res β} {k' : α → Res β'}
    (hk : ∀ a, x = .ok a → k' a = g <$> k a) : (x >>= k') = g <$> (x >>= k) := by
  cases x with
  | error e => rfl
  | ok a => exact hk a rfl

theorem mapM_natural {α β γ : Type} (f : β → γ) (g : α → Res β) (l : List α) :
    l.mapM (fun a => f <$> g a) = List.map f <$> l.mapM g := by
  induction l with
  | nil => rfl
  | cons a l ih =>
    rw [List.mapM_cons, List.mapM_cons, ih]
    exact bind_natural f _ rfl fun b => bind_natural (List.map f) _ rfl fun bs => rfl

theorem mapM_natural_mem {α β γ : Type} (f : β → γ) (g : α → Res β) (g' : α → Res γ) (l : List α)
    (h : ∀ a ∈ l, g' a = f <$> g a) : l.mapM g' = List.map f <$> l.mapM g := by
  induction l with
  | nil => rfl
  | cons a l ih =>
    rw [List.mapM_cons, List.mapM_cons, ih fun b hb => h b (List.mem_cons_of_mem _ hb), h a (List.mem_cons_self ..)]
    exact bind_natural f _ rfl fun b => bind_natural (List.map f) _ rfl fun bs => rfl

theorem mapM_listMap {α β γ : Type} (f : α → β) (g : β → Res γ) (l : List α) :
    (l.map f).mapM g = l.mapM fun a => g (f a) := by
  induction l with
  | nil => rfl
  | cons a l ih => rw [List.map_cons, List.mapM_cons, List.mapM_cons, ih]

theorem dedupBy_map {α β : Type} (f : α → β) (r : α → α → Bool) (r' : β → β → Bool) (h : ∀ a b, r' (f a) (f b) = r a b)
    (l : List α) : dedupBy r' (l.map f) = (dedupBy r l).map f := by
  have aux : ∀ (l : List α) (a : α), dedupAux r' (f a) (l.map f) = (dedupAux r a l).map f := by
    intro l
    induction l with
    | nil => intro a; rfl
    | cons b l ih =>
      intro a
      simp only [List.map_cons, dedupAux, h]
      split
      · exact ih a
      · rw [ih b, List.map_cons]
  cases l with
  | nil => rfl
  | cons a l => simp only [List.map_cons, dedupBy, aux]

/-! ### Subdivision and boundaries -/

/-- **C111**: adaptive subdivision of a moved curve returns the same parameters. -/
theorem C111_parameters (g : ℝ → Res (V3 ℝ)) (rnd : List Bool → ℝ) (tol : ℝ) (fuel : Nat) (path : List Bool)
    (range : ℝ × ℝ) : parameterDivision (fun u => m.move <$> g u) rnd tol fuel path range
      = parameterDivision g rnd tol fuel path range := by
  induction fuel generalizing path range with
  | zero => rfl
  | succ n ih =>
    unfold parameterDivision
    simp only [res_map_bind, ih]
    congr 1; funext a; congr 1; funext b; congr 1; funext c
    rw [move_sub, lin_mul, move_add, move_distance]

end

/-- A moved segment: the points of its range are moved. -/
structure Spec.Motion.segment (m : Motion) (s s' : CurveSegment ℝ) : Prop where
  point : ∀ u ∈ Set.uIcc s.parameterRange.1 s.parameterRange.2, s'.curve.getPoint u = m.move <$> s.curve.getPoint u
  range : s'.parameterRange = s.parameterRange
  tolerance : s'.tolerance = s.tolerance

/-- What `rand::random` returns. -/
def Spec.Draws (rnd : List Bool → ℝ) : Prop := ∀ path, 0 ≤ rnd path ∧ rnd path < 1

/-- A moved loop. -/
def Spec.Motion.loop (m : Motion) (l l' : EdgeLoop ℝ) : Prop := List.Forall₂ m.segment l.edges l'.edges

/-- The moved mesh. -/
def Spec.Motion.mesh (m : Motion) (t : TriangleMesh ℝ) : TriangleMesh ℝ :=
  ⟨t.vertices.map m.move, t.normals.map m.lin, t.triangles⟩

section
variable {m : Motion}

/-- **C111**: the points of a segment are moved. -/
theorem C111_get_points {s s' : CurveSegment ℝ} (h : m.segment s s') (fuel : Nat) {rnd : List Bool → ℝ} (hr : Draws rnd) :
    s'.getPoints fuel rnd = List.map m.move <$> s.getPoints fuel rnd := by
  unfold CurveSegment.getPoints
  rw [h.range, h.tolerance, parameterDivision_congr (g' := fun u => m.move <$> s.curve.getPoint u) h.point hr fuel []
    Set.left_mem_uIcc Set.right_mem_uIcc, C111_parameters]
  exact bind_same_eq _ fun ps hps => mapM_natural_mem _ _ _ _ fun u hu =>
    h.point u (parameterDivision_mem hps Set.left_mem_uIcc Set.right_mem_uIcc u hu)

theorem closePolygon_move (l : List (V3 ℝ)) : closePolygon (l.map m.move) = List.map m.move <$> closePolygon l := by
  unfold closePolygon
  rw [dedupBy_map m.move (fun a b => near (a.distanceSq b) 0) _ (fun a b => by rw [move_distanceSq])]
  simp only [List.length_map]
  refine bind_natural m.move _ (idx_map _ _ _) fun a => bind_same _ fun k => bind_natural m.move _ (idx_map _ _ _) fun b => ?_
  rw [move_distanceSq]
  split
  · rw [← List.map_dropLast]; rfl
  · rfl

theorem zipIdx_forall2 {α β : Type} {R : α → β → Prop} {l : List α} {l' : List β} (h : List.Forall₂ R l l') (k : Nat) :
    List.Forall₂ (fun a b => R a.1 b.1 ∧ a.2 = b.2) (l.zipIdx k) (l'.zipIdx k) := by
  induction h generalizing k with
  | nil => exact .nil
  | cons h _ ih => exact .cons ⟨h, rfl⟩ (ih _)

theorem mapM_forall2 {α β γ δ : Type} {R : α → β → Prop} (f : γ → δ) (g : α → Res γ) (g' : β → Res δ)
    (hg : ∀ a b, R a b → g' b = f <$> g a) {l : List α} {l' : List β} (h : List.Forall₂ R l l') :
    l'.mapM g' = List.map f <$> l.mapM g := by
  induction h with
  | nil => rfl
  | cons h _ ih =>
    rw [List.mapM_cons, List.mapM_cons, ih, hg _ _ h]
    exact bind_natural f _ rfl fun b => bind_natural (List.map f) _ rfl fun bs => rfl

theorem foldlM_forall2 {α β σ τ : Type} {R : α → β → Prop} (f : σ → τ) (g : σ → α → Res σ) (g' : τ → β → Res τ)
    (hg : ∀ s a b, R a b → g' (f s) b = f <$> g s a) {l : List α} {l' : List β} (h : List.Forall₂ R l l') (s : σ) :
    l'.foldlM g' (f s) = f <$> l.foldlM g s := by
  induction h generalizing s with
  | nil => rfl
  | cons h _ ih =>
    rw [List.foldlM_cons, List.foldlM_cons, hg _ _ _ h]
    exact bind_natural f _ rfl fun s => ih s

/-- **C111**: the polygon of a loop. -/
theorem C111_polygon {l l' : EdgeLoop ℝ} (h : m.loop l l') (fuel : Nat) {rnd : Nat → List Bool → ℝ}
    (hr : ∀ i, Draws (rnd i)) :
    l'.toPolygon fuel rnd = List.map m.move <$> l.toPolygon fuel rnd := by
  unfold EdgeLoop.toPolygon
  refine bind_natural (List.map (List.map m.move)) _ (mapM_forall2 (List.map m.move) _ _ ?_ (zipIdx_forall2 h 0)) fun pts => ?_
  · rintro ⟨a, i⟩ ⟨b, j⟩ ⟨h1, h2⟩
    cases h2
    exact C111_get_points h1 _ (hr _)
  · rw [← List.map_flatten, closePolygon_move]

/-- **C111**: the boundary vertices of a trimmed surface. -/
theorem C111_loops {bs bs' : List (EdgeLoop ℝ)} (h : List.Forall₂ m.loop bs bs') {o : TrimOracle ℝ}
    (hr : ∀ i j, Draws (o.rnd i j)) :
    collectLoops o bs' = (fun r => (r.1.map m.move, r.2)) <$> collectLoops o bs := by
  unfold collectLoops
  refine bind_natural (fun st : List (V3 ℝ) × List Nat × Nat => (st.1.map m.move, st.2)) _
    (foldlM_forall2 (fun st : List (V3 ℝ) × List Nat × Nat => (st.1.map m.move, st.2)) _ _ ?_ (zipIdx_forall2 h 0) ([], [0], 0))
    fun st => rfl
  rintro st ⟨a, i⟩ ⟨b, j⟩ ⟨h1, h2⟩
  cases h2
  refine bind_natural (List.map m.move) _ (C111_polygon h1 _ fun j => hr _ j) fun poly => ?_
  simp only [List.length_map]
  split <;> simp

/-! ### Planes -/

/-- The moved plane. -/
def Spec.Motion.plane (m : Motion) (p : Plane ℝ) : Plane ℝ := ⟨m.move p.origin, m.lin p.normal, m.lin p.uAxis, m.lin p.vAxis⟩

/-- **C111**: a moved point has the same coordinates on the moved plane, and back. -/
theorem C111_plane (p : Plane ℝ) (a : V3 ℝ) (u v : ℝ) :
    (m.plane p).project (m.move a) = p.project a ∧ (m.plane p).getPoint u v = m.move (p.getPoint u v) := by
  constructor
  · unfold Plane.project Motion.plane
    simp only [move_sub, m.dot]
  · unfold Plane.getPoint Motion.plane
    rw [lin_mul, lin_mul, move_add, move_add]

theorem sum_move (l : List (V3 ℝ)) : sumV3 (l.map m.move) = m.lin (sumV3 l) + (l.length : ℝ) • m.shift := by
  have : ∀ (l : List (V3 ℝ)) (a b : V3 ℝ) (k : ℝ), b = m.lin a + k • m.shift →
      (l.map m.move).foldl (· + ·) b = m.lin (l.foldl (· + ·) a) + (k + l.length) • m.shift := by
    intro l
    induction l with
    | nil => intro a b k h; simpa using h
    | cons x l ih =>
      intro a b k h
      rw [List.map_cons, List.foldl_cons, List.foldl_cons,
        ih (a + x) (b + m.move x) (k + 1) (by rw [h, m.lin.map_add, Motion.move, add_smul, one_smul]; abel)]
      rw [List.length_cons, Nat.cast_add, Nat.cast_one, show k + 1 + (l.length : ℝ) = k + (l.length + 1) by ring]
  have h := this l 0 0 0 (by simp)
  rw [zero_add] at h
  exact h

theorem center_move {l : List (V3 ℝ)} (h : l ≠ []) :
    sumV3 (l.map m.move) / (Nat.cast l.length : ℝ) = m.move (sumV3 l / (Nat.cast l.length : ℝ)) := by
  have hl : (l.length : ℝ) ≠ 0 := by simpa using h
  have e : ∀ (a : V3 ℝ) (k : ℝ), a / k = k⁻¹ • a := fun a k => V3.ext (div_eq_inv_mul _ _) (div_eq_inv_mul _ _) (div_eq_inv_mul _ _)
  rw [sum_move, e, e, Motion.move, m.lin.map_smul, smul_add, smul_smul, inv_mul_cancel₀ hl, one_smul]

/-- **C111**: trimming a moved plane by moved loops gives the moved mesh, and the same panic if there is one. -/
theorem C111_plane_trim (p : Plane ℝ) {bs bs' : List (EdgeLoop ℝ)} (h : List.Forall₂ m.loop bs bs') {o : TrimOracle ℝ}
    (hr : ∀ i j, Draws (o.rnd i j)) :
    (m.plane p).trim o bs' = m.mesh <$> p.trim o bs := by
  unfold Plane.trim
  refine bind_natural (fun r : List (V3 ℝ) × List Nat => (r.1.map m.move, r.2)) _ (C111_loops h hr) fun r => ?_
  have hp : (r.1.map m.move).map (m.plane p).project = r.1.map p.project := by
    rw [List.map_map]
    exact List.map_congr_left fun a _ => (C111_plane p a 0 0).1
  simp only [hp]
  by_cases h2 : r.2.length = 2
  · simp only [if_pos h2]
    refine bind_same_eq _ fun c hc => ?_
    by_cases h3 : c.1.length = c.2.length
    · simp only [if_pos h3]; rfl
    · simp only [if_neg h3]
      by_cases h4 : c.2 = []
      · simp only [if_pos h4, List.length_map]
        refine bind_same _ fun ts => ?_
        have hne : r.1 ≠ [] := by
          intro he
          rw [he] at hc
          cases hc
          exact h3 rfl
        rw [center_move hne]
        simp [Motion.mesh]
      · simp only [if_neg h4]
        exact bind_same _ fun ts => rfl
  · simp only [if_neg h2]
    by_cases h5 : 2 < r.2.length
    · simp only [if_pos h5]
      exact bind_same _ fun vi => bind_same _ fun c => bind_same _ fun ts => rfl
    · simp only [if_neg h5]; rfl

/-! ### Cylinders -/

/-- The moved cylinder. -/
def Spec.Motion.cylinder (m : Motion) (c : Cylinder ℝ) : Cylinder ℝ := ⟨m.move c.origin, m.lin c.axis, m.lin c.refDir, c.radius⟩

theorem lin_quat (a v : V3 ℝ) (t : ℝ) :
    (Quat.fromAxisAngle (m.lin a) t).mulVec (m.lin v) = m.lin ((Quat.fromAxisAngle a t).mulVec v) := by
  unfold Quat.fromAxisAngle Quat.mulVec
  simp only [lin_mul, m.dot, m.cross, m.lin.map_add]

/-- **C111**: coordinates on a moved cylinder. -/
theorem C111_cylinder (c : Cylinder ℝ) (a : V3 ℝ) (q : V2 ℝ) (d u v : ℝ) :
    (m.cylinder c).project (m.move a) = c.project a ∧ (m.cylinder c).projectToRing (m.move a) d = c.projectToRing a d ∧
      (m.cylinder c).generatePointFromRing q d = m.move (c.generatePointFromRing q d) ∧
      (m.cylinder c).getPoint u v = m.move (c.getPoint u v) := by
  refine ⟨?_, ?_, ?_, ?_⟩
  · unfold Cylinder.project Motion.cylinder
    simp only [move_sub, m.dot, m.cross]
  · unfold Cylinder.projectToRing Motion.cylinder
    simp only [move_sub, m.dot, m.cross]
  · unfold Cylinder.generatePointFromRing Motion.cylinder
    simp only [lin_mul, m.cross, move_add]
  · unfold Cylinder.getPoint Motion.cylinder
    simp only [lin_mul, lin_quat, move_add]

/-! ### The advancing front -/

theorem extendVertices_move (vs : List (V3 ℝ)) (pts : List (V2 ℝ)) (count : Nat) (f f' : V2 ℝ → Res (V3 ℝ))
    (h : ∀ p ∈ pts, f' p = m.move <$> f p) :
    extendVertices (vs.map m.move) pts count f' = List.map m.move <$> extendVertices vs pts count f := by
  unfold extendVertices
  refine bind_same_eq _ fun tail ht => ?_
  refine bind_natural (List.map m.move) _ (mapM_natural_mem _ _ _ _ fun p hp => h p ?_) fun new => ?_
  · unfold slice at ht
    split at ht
    · cases ht
      exact List.mem_of_mem_take (List.mem_of_mem_drop hp)
    · cases ht
  · rw [← List.map_append]; rfl

theorem reverse_mesh (t : TriangleMesh ℝ) :
    (m.mesh t).reverseWindingDirection = m.mesh <$> t.reverseWindingDirection := by
  unfold TriangleMesh.reverseWindingDirection
  exact bind_same _ fun c => rfl

/-- The parameter pairs the advancing front may return on these points. -/
def Spec.FrontPoint (o : TrimOracle ℝ) (points : List (V2 ℝ)) (polygons : List Nat) (q : V2 ℝ) : Prop :=
  ∃ pts ts, q ∈ pts ∧ (generateTriangularMesh o.pick o.innerFuel o.meshFuel points polygons = .ok (pts, ts) ∨
    generateTriangularMesh o.pick o.innerFuel o.meshFuel points.reverse polygons = .ok (pts, ts))

theorem frontTrim_move (o : TrimOracle ℝ) (vs : List (V3 ℝ)) (points : List (V2 ℝ)) (polygons : List Nat)
    (lift lift' liftHoles liftHoles' : V2 ℝ → Res (V3 ℝ))
    (h1 : ∀ q, FrontPoint o points polygons q → lift' q = m.move <$> lift q)
    (h2 : ∀ q, FrontPoint o points polygons q → liftHoles' q = m.move <$> liftHoles q) :
    frontTrim o (vs.map m.move) points polygons lift' liftHoles' = m.mesh <$> frontTrim o vs points polygons lift liftHoles := by
  unfold frontTrim
  by_cases h : polygons.length = 2
  · simp only [if_pos h]
    refine bind_same _ fun ccw => ?_
    cases ccw
    · simp only [Bool.false_eq_true, if_false, ← List.map_reverse]
      refine bind_same_eq _ fun r hr => ?_
      refine bind_natural (List.map m.move) _ (extendVertices_move _ _ _ _ _ fun p hp => h1 p ⟨r.1, r.2, hp, Or.inr hr⟩)
        fun vs => rfl
    · simp only [if_true]
      refine bind_same_eq _ fun r hr => ?_
      refine bind_natural (List.map m.move) _ (extendVertices_move _ _ _ _ _ fun p hp => h1 p ⟨r.1, r.2, hp, Or.inl hr⟩)
        fun vs => reverse_mesh (m := m) ⟨vs, [], r.2⟩
  · simp only [if_neg h]
    by_cases h' : 2 < polygons.length
    · simp only [if_pos h']
      refine bind_same_eq _ fun r hr => ?_
      refine bind_natural (List.map m.move) _ (extendVertices_move _ _ _ _ _ fun p hp => h2 p ⟨r.1, r.2, hp, Or.inl hr⟩)
        fun vs => rfl
    · simp only [if_neg h']; rfl

/-- **C111**: trimming a moved cylinder. -/
theorem C111_cylinder_trim (c : Cylinder ℝ) {bs bs' : List (EdgeLoop ℝ)} (h : List.Forall₂ m.loop bs bs') {o : TrimOracle ℝ}
    (hr : ∀ i j, Draws (o.rnd i j)) :
    (m.cylinder c).trim o bs' = m.mesh <$> c.trim o bs := by
  unfold Cylinder.trim
  refine bind_natural (fun r : List (V3 ℝ) × List Nat => (r.1.map m.move, r.2)) _ (C111_loops h hr) fun r => ?_
  have hd : (m.cylinder c).ringDistance (r.1.map m.move) = c.ringDistance r.1 := by
    unfold Cylinder.ringDistance
    rw [List.map_map, List.map_congr_left (f := (m.cylinder c).project ∘ m.move) (g := c.project)
      fun a _ => (C111_cylinder c a ⟨0, 0⟩ 0 0 0).1]
  simp only [hd]
  have hp : (r.1.map m.move).map (fun v => (m.cylinder c).projectToRing v (c.ringDistance r.1))
      = r.1.map fun v => c.projectToRing v (c.ringDistance r.1) := by
    rw [List.map_map]
    exact List.map_congr_left fun a _ => (C111_cylinder c a ⟨0, 0⟩ _ 0 0).2.1
  rw [hp]
  refine frontTrim_move o _ _ _ _ _ _ _ (fun q _ => ?_) fun q _ => ?_
  · rw [(C111_cylinder c 0 q _ 0 0).2.2.1]; rfl
  · rw [(C111_cylinder c 0 ⟨0, 0⟩ 0 q.x q.y).2.2.2]; rfl

end

end Geom3d
