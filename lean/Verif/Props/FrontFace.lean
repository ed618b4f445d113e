import Verif.Props.FrontTiling
import Verif.Props.FrontTrim
import Verif.Props.FrontPick
import Verif.Props.FrontPlanar
import Mathlib.Data.List.SplitLengths

/-!
# Trimmed cylinders and B-spline surfaces are covered in their parameter planes (C125)

`trim` of cylinders (`src/surface/cylinder.rs:54-127`) and B-spline surfaces (`src/surface/bspline.rs:202-277`) in exact
arithmetic: seen in the plane to which the loops are projected, the mesh covers each point, with sign, as often as the
projected loops wind around it.
-/

namespace Geom3d

set_option linter.unusedSectionVars false

variable {K : Type} [Field K] [LinearOrder K] [IsStrictOrderedRing K] [Env K]

/-- `Q` is the list of parameters of the vertices of `mesh`: those of the loops, or the loops in reverse, are given by
`pts`, and the others are mapped to their vertices by `lift`. -/
def Spec.Parameters (lift : V2 K → Res (V3 K)) (vs : List (V3 K)) (pts : List (V2 K)) (mesh : TriangleMesh K)
    (Q : List (V2 K)) : Prop :=
  ∃ newQ new, List.Forall₂ (fun q v => lift q = .ok v) newQ new ∧
    ((mesh.vertices = vs ++ new ∧ Q = pts ++ newQ) ∨ (mesh.vertices = vs.reverse ++ new ∧ Q = pts.reverse ++ newQ))

/-- The number of counter-clockwise triangles around `x` minus that of clockwise ones. -/
noncomputable def Spec.signedCovering (Q : List (V2 K)) (T : List Nat) (x : V2 K) : ℤ :=
  (Spec.covering Q (Spec.ccw Q T) x : ℤ) - Spec.covering Q (Spec.cw Q T) x

theorem offsets_congr {α β : Type} (a : Nat) {l : List (List α)} {m : List (List β)}
    (h : l.map List.length = m.map List.length) : Spec.offsets a l = Spec.offsets a m := by
  induction l generalizing a m with
  | nil =>
    cases m with
    | nil => rfl
    | cons _ _ => simp at h
  | cons x l ih =>
    cases m with
    | nil => simp at h
    | cons y m =>
      simp only [List.map_cons, List.cons.injEq] at h
      simp only [Spec.offsets, h.1, ih _ h.2]

/-- The sum of crossings over the loops. -/
theorem winding_blocks (loops : List (List (V2 K))) (post : List (V2 K)) (x : V2 K) :
    ((pairs (Spec.offsets 0 loops)).map fun p =>
        Spec.winding (Spec.loopPoints (loops.flatten ++ post) (Spec.loopRange p)) x).sum
      = (loops.map fun l => Spec.winding l x).sum := by
  have h : ∀ (L : List (List (V2 K))) (pre : List (V2 K)),
      ((pairs (Spec.offsets pre.length L)).map fun p =>
        Spec.winding (Spec.loopPoints (pre ++ (L.flatten ++ post)) (Spec.loopRange p)) x).sum
      = (L.map fun l => Spec.winding l x).sum := by
    intro L
    induction L with
    | nil => intro pre; simp [Spec.offsets, pairs]
    | cons b L ih =>
      intro pre
      rw [pairs_offsets_cons, List.map_cons, List.sum_cons, List.map_cons, List.sum_cons, List.flatten_cons]
      have := ih (pre ++ b)
      rw [List.length_append, List.append_assoc] at this
      rw [List.append_assoc, this, loopPoints_block]
  have := h loops []
  simpa using this

theorem winding_reverse (l : List (V2 K)) (x : V2 K) : Spec.winding l.reverse x = - Spec.winding l x :=
  weight_reverse (crossing_skew x) l

theorem append_drop_of_prefix {α : Type} {l V : List α} (h : l <+: V) : V = l ++ V.drop l.length := by
  obtain ⟨t, rfl⟩ := h
  simp

theorem inTriangle_rev {a b c x : V2 K} : Spec.InTriangle c b a x ↔ Spec.InTriangle a b c x := by
  constructor <;> rintro ⟨u, v, w, h1, h2, h3, h4, h5, h6⟩ <;>
    exact ⟨w, v, u, h3, h2, h1, by linarith, by linarith, by linarith⟩

theorem covering_rev (Q : List (V2 K)) (L : List (Nat × Nat × Nat)) (x : V2 K) :
    Spec.covering Q (L.map fun t => (t.2.2, t.2.1, t.1)) x = Spec.covering Q L x := by
  classical
  unfold Spec.covering
  rw [List.filter_map, List.length_map]
  congr 1
  apply List.filter_congr
  intro t _
  simp only [Function.comp, decide_eq_decide]
  exact inTriangle_rev

/-- **C125**, the loops on a face in the plane to which they are projected.  A single loop is covered in the reverse
direction (the mesh is turned over), several loops in theirs.  If the parameters of the vertices are clear of the
tolerance and no vertex of the loops is on an edge of the loops other than its own, there are no overlaps: each point of
the plane is in as many triangles as the loops wind around it. -/
theorem C125_front {o : TrimOracle K} (hp : PickOk o.pick) {vs : List (V3 K)} {loops : List (List (V2 K))}
    {lift liftHoles : V2 K → Res (V3 K)} {mesh : TriangleMesh K} (hl : vs.length = loops.flatten.length)
    (hne : ∀ l ∈ loops, l ≠ [])
    (h : frontTrim o vs loops.flatten (Spec.offsets 0 loops) lift liftHoles = .ok mesh) :
    ∃ Q, (loops = [] ∧ Q = [] ∨
        Spec.Parameters (if loops.length = 1 then lift else liftHoles) vs loops.flatten mesh Q) ∧
      Q.length = mesh.vertices.length ∧
      (∀ x, Spec.OffChords Q x → Spec.signedCovering Q mesh.triangles x
        = if loops.length = 1 then -(loops.map fun l => Spec.winding l x).sum
          else (loops.map fun l => Spec.winding l x).sum) ∧
      (FrontEnv K → (Env.halfSqrt3 : K) < 1 → (∀ l ∈ loops, 2 ≤ l.length) → Spec.LoopsOff loops → Spec.Clear Q →
        ∀ x, Spec.OffChords Q x → (Spec.covering Q (Spec.triples mesh.triangles) x : ℤ)
          = |(loops.map fun l => Spec.winding l x).sum|) := by
  have hpoly : ∀ p ∈ pairs (Spec.offsets 0 loops), p.1 < p.2 := by
    intro p hp
    obtain ⟨b, hb, h1, -⟩ := pairs_offsets loops [] hp
    have := List.length_pos_iff.2 (hne b hb)
    omega
  have hpoly2 : (∀ l ∈ loops, 2 ≤ l.length) → ∀ p ∈ pairs (Spec.offsets 0 loops),
      p.1 + 1 < p.2 ∧ p.2 ≤ loops.flatten.length := by
    intro hne2 p hp
    obtain ⟨b, hb, h1, h2, -⟩ := pairs_offsets loops [] hp
    have := hne2 b hb
    exact ⟨by omega, by simpa using h2⟩
  have hlen := length_offsets 0 loops
  rcases frontTrim_cases h with ⟨h2, V, T, new, m0, -, hg, hn, hnew, rfl, hr⟩ | ⟨h2, V, T, new, -, hg, hn, hnew, rfl⟩ |
    ⟨h2, V, T, new, hg, hn, hnew, rfl⟩ | ⟨h2, rfl⟩
  · obtain ⟨hpre, ⟨k, hk, hVk⟩, hT⟩ := C41_valid hp hg
    obtain ⟨m', e1, e2, e3, -, -, e6, e7, e8⟩ := C47_reverse (m := ⟨vs ++ new, [], T⟩) (k := k) hk
    rw [hr] at e1
    cases e1
    rw [if_pos (by omega)]
    refine ⟨V, .inr ⟨_, _, hnew, .inl ⟨e2, append_drop_of_prefix hpre⟩⟩, ?_, fun x hx => ?_, fun hE hh h2 ho hc x hx => ?_⟩
    · rw [e2, List.length_append, ← hnew.length_eq, List.length_drop]; omega
    · rw [if_pos (by omega)]
      have hs := C122_signed hp hg hpoly hx
      unfold Spec.signedCovering
      rw [← weight_crossing hx _ fun i hi => hT i (mem_of_triples_map e6 e7 i hi)]
      rw [← weight_crossing hx T hT] at hs
      have hw := winding_blocks loops (V.drop loops.flatten.length) x
      rw [← append_drop_of_prefix hpre] at hw
      rw [hw] at hs
      have hsk : Spec.Skew (fun u v => Spec.crossing x (V.getD u 0) (V.getD v 0)) := Skew.comp (crossing_skew x) _
      have := weight_perm (φ := fun u v => Spec.crossing x (V.getD u 0) (V.getD v 0)) e8
      rw [weight_swap hsk] at this
      exact this.trans (congrArg Neg.neg hs)
    · have hs := (C135_tiling hE hh hp hg (hpoly2 h2) (nodesOff_of_loops hE hc hpre ho) hc).2 x hx
      have hw := winding_blocks loops (V.drop loops.flatten.length) x
      rw [← append_drop_of_prefix hpre] at hw
      rw [hw] at hs
      rw [e7, covering_rev, ← hs, abs_of_nonneg (by positivity)]
  · obtain ⟨hpre, ⟨k, hk, hVk⟩, hT⟩ := C41_valid hp hg
    rw [if_pos (by omega)]
    obtain ⟨b, hb⟩ : ∃ b, loops = [b] := List.length_eq_one_iff.1 (by omega)
    subst hb
    have e : [b].flatten.reverse = [b.reverse].flatten := by simp
    have hd : V = [b].flatten.reverse ++ V.drop [b].flatten.length := by
      have := append_drop_of_prefix hpre
      rwa [List.length_reverse] at this
    have hw := winding_blocks [b.reverse] (V.drop [b].flatten.length)
    rw [← e, ← hd] at hw
    rw [show Spec.offsets 0 [b.reverse] = Spec.offsets 0 [b] by simp [Spec.offsets]] at hw
    refine ⟨V, .inr ⟨_, _, hnew, .inr ⟨rfl, hd⟩⟩, ?_, fun x hx => ?_, fun hE hh h2 ho hc x hx => ?_⟩
    · simp only [List.length_append, ← hnew.length_eq, List.length_drop, List.length_reverse]; omega
    · rw [if_pos (by simp)]
      have hs := C122_signed hp hg hpoly hx
      rw [hw] at hs
      unfold Spec.signedCovering
      rw [hs]
      simp [winding_reverse]
    · have hs := (C135_tiling hE hh hp hg (by rw [List.length_reverse]; exact hpoly2 h2) (by
        have := nodesOff_of_loops hE hc (loops := [b.reverse]) (by rw [← e]; exact hpre) (loopsOff_reverse ho)
        rw [← e, show Spec.offsets 0 [b.reverse] = Spec.offsets 0 [b] by simp [Spec.offsets]] at this
        exact this) hc).2 x hx
      rw [hw] at hs
      simp only [List.map_cons, List.map_nil, List.sum_cons, List.sum_nil, add_zero, winding_reverse] at hs ⊢
      rw [← abs_neg, ← hs, abs_of_nonneg (by positivity)]
  · obtain ⟨hpre, ⟨k, hk, hVk⟩, hT⟩ := C41_valid hp hg
    rw [if_neg (by omega)]
    have hw := winding_blocks loops (V.drop loops.flatten.length)
    rw [← append_drop_of_prefix hpre] at hw
    refine ⟨V, .inr ⟨_, _, hnew, .inl ⟨rfl, append_drop_of_prefix hpre⟩⟩, ?_, fun x hx => ?_, fun hE hh h2 ho hc x hx => ?_⟩
    · simp only [List.length_append, ← hnew.length_eq, List.length_drop]; omega
    · rw [if_neg (by omega)]
      have hs := C122_signed hp hg hpoly hx
      rw [hw] at hs
      exact hs
    · have hs := (C135_tiling hE hh hp hg (hpoly2 h2) (nodesOff_of_loops hE hc hpre ho) hc).2 x hx
      rw [hw] at hs
      show ((Spec.covering V (Spec.triples T) x : ℕ) : ℤ) = _
      rw [← hs, abs_of_nonneg (by positivity)]
  · have : loops = [] := List.length_eq_zero_iff.1 (by omega)
    subst this
    refine ⟨[], .inl ⟨rfl, rfl⟩, rfl, fun x _ => ?_, fun _ _ _ _ _ x _ => ?_⟩
    · simp [Spec.signedCovering, Spec.covering, Spec.ccw, Spec.cw, TriangleMesh.new, Spec.triples]
    · simp [Spec.covering, TriangleMesh.new, Spec.triples]

/-! ### The faces -/

section
variable [Trig K]

/-- **C125**, cylinders: the loops are projected to the ring. -/
theorem C125_cylinder {c : Cylinder K} {o : TrimOracle K} (hp : PickOk o.pick) {bounds : List (EdgeLoop K)}
    {mesh : TriangleMesh K} (h : c.trim o bounds = .ok mesh) :
    ∃ loops d Q, List.Forall₂ (fun b P => EdgeLoop.toPolygon o.divFuel (o.rnd b.2) b.1 = .ok P) bounds.zipIdx loops ∧
      d = c.ringDistance loops.flatten ∧
      (Q = [] ∨ Spec.Parameters (fun p => .ok (if (Spec.nonEmpty loops).length = 1 then c.generatePointFromRing p d
        else c.getPoint p.x p.y)) loops.flatten (loops.flatten.map fun v => c.projectToRing v d) mesh Q) ∧
      Q.length = mesh.vertices.length ∧
      (∀ x, Spec.OffChords Q x → Spec.signedCovering Q mesh.triangles x
        = if (Spec.nonEmpty loops).length = 1
          then -((Spec.nonEmpty loops).map fun l => Spec.winding (l.map fun v => c.projectToRing v d) x).sum
          else ((Spec.nonEmpty loops).map fun l => Spec.winding (l.map fun v => c.projectToRing v d) x).sum) ∧
      (FrontEnv K → (Env.halfSqrt3 : K) < 1 → (∀ l ∈ Spec.nonEmpty loops, 2 ≤ l.length) →
        Spec.LoopsOff ((Spec.nonEmpty loops).map fun l => l.map fun v => c.projectToRing v d) → Spec.Clear Q →
        ∀ x, Spec.OffChords Q x → (Spec.covering Q (Spec.triples mesh.triangles) x : ℤ)
          = |((Spec.nonEmpty loops).map fun l => Spec.winding (l.map fun v => c.projectToRing v d) x).sum|) := by
  obtain ⟨loops, h1, h⟩ := Cylinder.trim_front h
  set d := c.ringDistance (Spec.nonEmpty loops).flatten with hd
  set f : V3 K → V2 K := fun v => c.projectToRing v d with hf
  have hfl : (Spec.nonEmpty loops).flatten.map f = ((Spec.nonEmpty loops).map (List.map f)).flatten := by
    rw [List.map_flatten]
  have hoff : Spec.offsets 0 (Spec.nonEmpty loops) = Spec.offsets 0 ((Spec.nonEmpty loops).map (List.map f)) :=
    offsets_congr 0 (by simp [List.map_map, Function.comp_def])
  rw [hfl, hoff] at h
  obtain ⟨Q, q1, q2, q3, q4⟩ := C125_front hp (by rw [← hfl, List.length_map]) (by
    intro l hl
    obtain ⟨l', hl', rfl⟩ := List.mem_map.1 hl
    have : l' ≠ [] := by
      have := (List.mem_filter.1 hl').2
      rintro rfl
      simp at this
    simpa using this) h
  refine ⟨loops, d, Q, h1, by rw [hd, nonEmpty_flatten], ?_, q2, fun x hx => ?_, fun hE hh h2 ho hc x hx => ?_⟩
  · rcases q1 with q1 | q1
    · exact .inl q1.2
    · right
      rw [← hfl, nonEmpty_flatten, List.length_map] at q1
      by_cases hc : (Spec.nonEmpty loops).length = 1
      · simpa [hc] using q1
      · simpa [hc] using q1
  · have := q3 x hx
    rw [List.length_map, List.map_map] at this
    exact this
  · have := q4 hE hh (by
      intro l hl
      obtain ⟨l', hl', rfl⟩ := List.mem_map.1 hl
      rw [List.length_map]
      exact h2 l' hl') ho hc x hx
    rw [List.map_map] at this
    exact this

end

/-- **C125**, B-spline surfaces: the loops are projected to the parameter domain. -/
theorem C125_bspline {s : BSplineSurface K (V3 K)} {o : TrimOracle K} (hp : PickOk o.pick) {bounds : List (EdgeLoop K)}
    {mesh : TriangleMesh K} (h : s.trim o bounds = .ok mesh) :
    ∃ loops, ∃ ploops : List (List (V2 K)), ∃ Q,
      List.Forall₂ (fun b P => EdgeLoop.toPolygon o.divFuel (o.rnd b.2) b.1 = .ok P) bounds.zipIdx loops ∧
      s.projectPoints loops.flatten = .ok ploops.flatten ∧
      ploops.map List.length = (Spec.nonEmpty loops).map List.length ∧
      (Q = [] ∨ Spec.Parameters (fun p => s.getPoint p.x p.y) loops.flatten ploops.flatten mesh Q) ∧
      Q.length = mesh.vertices.length ∧
      (∀ x, Spec.OffChords Q x → Spec.signedCovering Q mesh.triangles x
        = if ploops.length = 1 then -(ploops.map fun l => Spec.winding l x).sum
          else (ploops.map fun l => Spec.winding l x).sum) ∧
      (FrontEnv K → (Env.halfSqrt3 : K) < 1 → (∀ l ∈ ploops, 2 ≤ l.length) → Spec.LoopsOff ploops → Spec.Clear Q →
        ∀ x, Spec.OffChords Q x → (Spec.covering Q (Spec.triples mesh.triangles) x : ℤ)
          = |(ploops.map fun l => Spec.winding l x).sum|) := by
  obtain ⟨loops, pts, h1, h2, h⟩ := BSplineSurface.trim_front h
  have hlen := projectPoints_length h2
  have hsum : ((Spec.nonEmpty loops).map List.length).sum = pts.length := by
    rw [← hlen, List.length_flatten]
  set ploops := ((Spec.nonEmpty loops).map List.length).splitLengths pts with hpl
  have hfl : ploops.flatten = pts := List.flatten_splitLengths _ _ hsum.ge
  have hln : ploops.map List.length = (Spec.nonEmpty loops).map List.length := List.map_splitLengths_length _ _ hsum.le
  rw [← offsets_congr 0 hln, ← hfl] at h
  obtain ⟨Q, q1, q2, q3, q4⟩ := C125_front hp (by rw [hfl, hlen]) (by
    intro l hl
    have : l.length ∈ (Spec.nonEmpty loops).map List.length := by
      rw [← hln]; exact List.mem_map.2 ⟨l, hl, rfl⟩
    obtain ⟨l', hl', he⟩ := List.mem_map.1 this
    have := (List.mem_filter.1 hl').2
    rintro rfl
    have : l' = [] := List.length_eq_zero_iff.1 he
    subst this
    simp at *) h
  rw [nonEmpty_flatten] at h2 q1
  refine ⟨loops, ploops, Q, h1, by rw [hfl]; exact h2, hln, ?_, q2, q3, q4⟩
  rcases q1 with q1 | q1
  · exact .inl q1.2
  · right
    split at q1 <;> exact q1

/-! ### A case -/

section

/-- As `Spec.frontEnvQ`, with a square root that is zero at zero. -/
@[reducible] def Spec.faceEnvQ : Env ℚ :=
  { (inferInstance : Env ℚ) with sqrt := fun x => if x ≤ 0 then 0 else if x < 1 / 1000000 then 1 / 2000 else 1 }

attribute [local instance 2000] Spec.faceEnvQ

theorem faceEnv_rat : FrontEnv ℚ :=
  FrontEnv.mk (by decide +kernel) (by decide +kernel) (by decide +kernel) (by
    intro x hx
    show 0 < (if x ≤ 0 then (0 : ℚ) else if x < 1 / 1000000 then 1 / 2000 else 1)
    rw [if_neg (not_le.2 hx)]
    split <;> norm_num)

/-- A biquadratic patch over the unit square, raised in the middle. -/
def Spec.bumpPatch : BSplineSurface ℚ (V3 ℚ) :=
  ⟨⟨[⟨0, 0, 0⟩, ⟨0, 1 / 2, 0⟩, ⟨0, 1, 0⟩, ⟨1 / 2, 0, 0⟩, ⟨1 / 2, 1 / 2, 1⟩, ⟨1 / 2, 1, 0⟩, ⟨1, 0, 0⟩, ⟨1, 1 / 2, 0⟩, ⟨1, 1, 0⟩], 3, 3⟩,
    ([0, 0, 0, 1, 1, 1], [0, 0, 0, 1, 1, 1]), (2, 2)⟩

def Spec.frontOracle : TrimOracle ℚ := { Spec.oracle with pick := pickNode }

theorem frontOracle_ok : PickOk Spec.frontOracle.pick := C124_pick_ok

/-- Corners of a loop on the patch. -/
def Spec.bumpLoop : List (V3 ℚ) :=
  [⟨0, 0, 0⟩, ⟨1 / 2, 0, 0⟩, ⟨1, 0, 0⟩, ⟨1, 1 / 2, 0⟩, ⟨1 / 2, 1 / 2, 1 / 4⟩, ⟨0, 1 / 2, 0⟩]

/-- Non-vacuity of **C125**: a face of a B-spline surface with a loop in either direction, meshed with a new vertex. -/
theorem C125_example :
    ((Spec.bumpPatch.trim Spec.frontOracle [Spec.edgeLoop Spec.bumpLoop]).map fun m => (m.vertices.length, m.triangles))
      = .ok (7, [6, 0, 5, 6, 5, 4, 2, 4, 3, 1, 0, 6, 4, 2, 1, 4, 1, 6]) ∧
    ((Spec.bumpPatch.trim Spec.frontOracle [Spec.edgeLoop Spec.bumpLoop.reverse]).map fun m =>
        (m.vertices.length, m.triangles))
      = .ok (7, [5, 0, 6, 4, 5, 6, 3, 4, 2, 6, 0, 1, 1, 2, 4, 6, 1, 4]) := by
  constructor <;> decide +kernel

end

end Geom3d
