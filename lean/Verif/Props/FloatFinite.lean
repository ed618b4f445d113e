import Verif.Lemmas.F64Finite
import Verif.Lemmas.Trim
import Verif.Props.FloatDivide
import Verif.Props.EdgeLoop
import Verif.Props.Jump

/-!
# Subdivision in binary64 returns finite points only (C118)
-/

namespace Geom3d
open Spec F64

/-- All three coordinates are finite. -/
def Spec.Finite3 (p : V3 Float) : Prop := IsFin p.x ∧ IsFin p.y ∧ IsFin p.z

/-- A distance below something is a distance of finite points, and the something is positive. -/
theorem finite_of_distance {a b : V3 Float} {t : Float} (h : a.distance b < t) :
    Finite3 a ∧ Finite3 b ∧ 0 < t := by
  have h' : ((a.x - b.x) * (a.x - b.x) + (a.y - b.y) * (a.y - b.y) + (a.z - b.z) * (a.z - b.z)).sqrt < t := h
  have hf := fin_of_sqrt_lt h'
  obtain ⟨hxy, hz⟩ := fin_of_add hf
  obtain ⟨hx, hy⟩ := fin_of_add hxy
  obtain ⟨ax, bx⟩ := fin_of_sub (fin_of_mul hx).1
  obtain ⟨ay, yb⟩ := fin_of_sub (fin_of_mul hy).1
  obtain ⟨az, bz⟩ := fin_of_sub (fin_of_mul hz).1
  exact ⟨⟨ax, ay, az⟩, ⟨bx, yb, bz⟩, pos_of_sqrt_lt h'⟩

theorem finite_of_lerp {a b : V3 Float} {p : Float} (h : Finite3 (a + (b - a) * p)) :
    Finite3 a ∧ Finite3 b ∧ IsFin p := by
  obtain ⟨hx, hy, hz⟩ := h
  obtain ⟨ax, dx⟩ := fin_of_add (show IsFin (a.x + (b.x - a.x) * p) from hx)
  obtain ⟨ay, dy⟩ := fin_of_add (show IsFin (a.y + (b.y - a.y) * p) from hy)
  obtain ⟨az, dz⟩ := fin_of_add (show IsFin (a.z + (b.z - a.z) * p) from hz)
  obtain ⟨ex, hp⟩ := fin_of_mul dx
  exact ⟨⟨ax, ay, az⟩, ⟨(fin_of_sub ex).1, (fin_of_sub (fin_of_mul dy).1).1, (fin_of_sub (fin_of_mul dz).1).1⟩, hp⟩

/-- What passing the chord test says in binary64: the three points and the ratio are finite, the tolerance is
positive. -/
theorem chord_finite {getPoint : Float → Res (V3 Float)} {tol p a b : Float} (h : ChordTest getPoint tol p a b) :
    ∃ pa pb pt, getPoint a = .ok pa ∧ getPoint b = .ok pb ∧ getPoint (a + (b - a) * p) = .ok pt ∧
      Finite3 pa ∧ Finite3 pb ∧ Finite3 pt ∧ IsFin p ∧ 0 < tol := by
  obtain ⟨pa, pb, pt, h1, h2, h3, h4⟩ := h
  obtain ⟨f1, f2, f3⟩ := finite_of_distance h4
  obtain ⟨g1, g2, g3⟩ := finite_of_lerp f2
  exact ⟨pa, pb, pt, h1, h2, h3, g1, g2, f1, g3, f3⟩

/-- **C118.** Whatever the curve, the tolerance, the random numbers and the range: when `parameter_division` returns in
binary64, the curve has a finite point at every parameter it returns, and the tolerance is positive. -/
theorem C118_division {getPoint : Float → Res (V3 Float)} {rnd : List Bool → Float} {tol : Float} {fuel : Nat}
    {path : List Bool} {range : Float × Float} {l : List Float}
    (h : parameterDivision getPoint rnd tol fuel path range = .ok l) :
    (∀ u ∈ l, ∃ p, getPoint u = .ok p ∧ Finite3 p) ∧ 0 < tol := by
  induction fuel generalizing path range l with
  | zero => cases h
  | succ fuel ih =>
    rcases parameterDivision_cases h with ⟨rfl, ht⟩ | ⟨r₁, r₂, h1, h2, rfl⟩
    · obtain ⟨pa, pb, pt, e1, e2, -, f1, f2, -, -, t0⟩ := chord_finite ht
      refine ⟨fun u hu => ?_, t0⟩
      rcases List.mem_cons.1 hu with rfl | hu
      · exact ⟨pa, e1, f1⟩
      · rw [List.mem_singleton.1 hu]; exact ⟨pb, e2, f2⟩
    · refine ⟨fun u hu => ?_, (ih h1).2⟩
      rcases List.mem_append.1 hu with hu | hu
      · exact (ih h1).1 u (List.dropLast_subset _ hu)
      · exact (ih h2).1 u hu

theorem forall₂_mem_right {α β : Type} {R : α → β → Prop} {l : List α} {l' : List β} (h : List.Forall₂ R l l') {b : β}
    (hb : b ∈ l') : ∃ a ∈ l, R a b := by
  induction h with
  | nil => cases hb
  | cons h1 _ ih =>
    rcases List.mem_cons.1 hb with rfl | hb
    · exact ⟨_, List.mem_cons_self .., h1⟩
    · obtain ⟨a, ha, h⟩ := ih hb
      exact ⟨a, List.mem_cons_of_mem _ ha, h⟩

/-- **C118** for curve segments: `get_points` returns finite points only. -/
theorem C118_points {fuel : Nat} {rnd : List Bool → Float} {s : CurveSegment Float} {pts : List (V3 Float)}
    (h : s.getPoints fuel rnd = .ok pts) : ∀ p ∈ pts, Finite3 p := by
  unfold CurveSegment.getPoints at h
  rw [bind_eq_ok] at h
  obtain ⟨us, h1, h2⟩ := h
  have h3 := of_mapM_ok h2
  intro p hp
  obtain ⟨u, hu, e⟩ := forall₂_mem_right h3 hp
  obtain ⟨q, e', f⟩ := (C118_division h1).1 u hu
  rw [e] at e'; cases e'; exact f

/-- **C118** for edge loops. -/
theorem C118_loop {fuel : Nat} {rnd : Nat → List Bool → Float} {e : EdgeLoop Float} {P : List (V3 Float)}
    (h : e.toPolygon fuel rnd = .ok P) : ∀ p ∈ P, Finite3 p := by
  obtain ⟨samples, h1, h2, h3⟩ := C62_loop h
  intro p hp
  have hp := (C62_order h1).1.subset hp
  obtain ⟨ps, hps, hp⟩ := List.mem_flatten.1 hp
  obtain ⟨i, hi⟩ := List.mem_iff_getElem?.1 hps
  have hl : i < samples.length := (List.getElem?_eq_some_iff.1 hi).1
  have he : i < e.edges.length := by omega
  obtain ⟨ps', e1, e2⟩ := h3 i e.edges[i] (List.getElem?_eq_getElem he)
  rw [hi] at e1; cases e1
  exact C118_points e2 p hp

/-- **C118** for the boundary vertices that every `trim` starts from. -/
theorem C118_boundary {o : TrimOracle Float} {bounds : List (EdgeLoop Float)} {vs : List (V3 Float)} {polygons : List Nat}
    (h : collectLoops o bounds = .ok (vs, polygons)) : ∀ p ∈ vs, Finite3 p := by
  obtain ⟨loops, h1, rfl, -⟩ := collectLoops_spec h
  intro p hp
  obtain ⟨P, hP, hp⟩ := List.mem_flatten.1 hp
  obtain ⟨b, -, e⟩ := forall₂_mem_right h1 hP
  exact C118_loop e p hp

/-- **C118**, the other way round: a curve whose point at an end of the range is not finite is never divided. -/
theorem C118_never {getPoint : Float → Res (V3 Float)} {rnd : List Bool → Float} {tol : Float} {range : Float × Float}
    {t : Float} {p : V3 Float} (ht : t = range.1 ∨ t = range.2) (hp : getPoint t = .ok p) (hn : ¬ Finite3 p)
    (fuel : Nat) (path : List Bool) (l : List Float) :
    parameterDivision getPoint rnd tol fuel path range ≠ .ok l := by
  intro h
  obtain ⟨h1, h2, -⟩ := C29_ends h
  have hm : t ∈ l := by
    rcases ht with rfl | rfl
    · exact List.mem_of_mem_head? (by rw [h1]; rfl)
    · exact List.mem_of_getLast? h2
  obtain ⟨q, e, f⟩ := (C118_division h).1 t hm
  rw [hp] at e; cases e; exact hn f

/-! ### Polylines without length -/

theorem isZ_distance {a : V3 Float} (h : Finite3 a) : IsZ (a.distance a) := by
  obtain ⟨hx, hy, hz⟩ := h
  have zx := IsZ.of_sub hx
  have zy := IsZ.of_sub hy
  have zz := IsZ.of_sub hz
  have : IsZ ((a.x - a.x) * (a.x - a.x) + (a.y - a.y) * (a.y - a.y) + (a.z - a.z) * (a.z - a.z)).sqrt :=
    ((zx.mul zx.1).add (zy.mul zy.1) |>.add (zz.mul zz.1)).sqrt
  exact this

theorem isZ_sum {l : List Float} (h : ∀ x ∈ l, IsZ x) : IsZ (sumF l) := by
  suffices ∀ a, IsZ a → IsZ (l.foldl (· + ·) a) from this 0 zero_val
  induction l with
  | nil => intro a ha; exact ha
  | cons x l ih =>
    intro a ha
    exact ih (fun y hy => h y (List.mem_cons_of_mem _ hy)) _ (ha.add (h x (List.mem_cons_self ..)))

theorem polyline_point_new {a : V3 Float} (n : Nat) :
    ∃ c, Polyline.new (List.replicate (n + 2) a) = .ok c ∧ c.vertices = List.replicate (n + 2) a ∧
      c.segmentLengths = List.replicate (n + 1) (a.distance a) ∧
      c.length = sumF (List.replicate (n + 1) (a.distance a)) := by
  have hp : pairs (List.replicate (n + 2) a) = List.replicate (n + 1) (a, a) := by
    induction n with
    | zero => rfl
    | succ n ih =>
      rw [List.replicate_succ, List.replicate_succ, List.replicate_succ (n := n + 1), ← ih]
      rfl
  refine ⟨⟨List.replicate (n + 2) a, (pairs (List.replicate (n + 2) a)).map fun pair => pair.2.distance pair.1,
    sumF ((pairs (List.replicate (n + 2) a)).map fun pair => pair.2.distance pair.1)⟩, ?_, rfl, ?_, ?_⟩
  rotate_left
  · rw [hp, List.map_replicate]
  · rw [hp, List.map_replicate]
  · unfold Polyline.new assertR
    rw [if_pos (by simp)]
    rfl

/-- **C118**: strictly inside its parameter range a polyline of equal vertices has no finite point. -/
theorem C118_point_polyline {a : V3 Float} (ha : Finite3 a) {n : Nat} {c : Polyline Float}
    (hc : Polyline.new (List.replicate (n + 2) a) = .ok c) (t : Float) :
    ∃ p, c.getPoint t = .ok p ∧ (IsFin t → 0 < val t → val t < 1 → ¬ Finite3 p) := by
  obtain ⟨c', e, h1, h2, h3⟩ := polyline_point_new (a := a) n
  rw [hc] at e; cases e
  have hd := isZ_distance ha
  have hl : IsZ c.length := by rw [h3]; exact isZ_sum fun x hx => by rw [List.eq_of_mem_replicate hx]; exact hd
  unfold Polyline.getPoint
  split
  · rename_i ht
    refine ⟨a, by unfold Polyline.start; rw [h1]; rfl, fun f t0 t1 => ?_⟩
    rw [le_iff f zero_val.1, zero_val.2] at ht
    exact absurd ht (not_le.2 t0)
  split
  · rename_i ht
    refine ⟨a, ?_, fun f t0 t1 => ?_⟩
    · unfold Polyline.stop usub
      rw [h1, List.length_replicate, if_pos (by omega)]
      show idx _ _ = _
      unfold idx
      rw [List.getElem?_replicate, if_pos (by omega)]
    rw [le_iff one_val.1 f, one_val.2] at ht
    exact absurd ht (not_le.2 t1)
  rw [h1, h2, List.replicate_succ (n := n)]
  have hw : ¬ a.distance a < t * c.length := by
    intro h
    obtain ⟨n1, n2⟩ := nan_of_lt h
    rw [fmul_comm] at h n2
    rcases zero_mul_cases hl t with hz | hz
    · rw [F64.lt_iff hd.1 hz.1, hd.2, hz.2] at h
      exact lt_irrefl _ h
    · exact n2 hz
  unfold polylineWalk
  rw [if_neg hw]
  refine ⟨a.lerp a (t * c.length / a.distance a), rfl, fun f t0 t1 hp => ?_⟩
  have := (finite_of_lerp hp).2.2
  have hz : IsZ (t * c.length) := by
    rw [fmul_comm]; exact hl.mul f
  exact zero_div_zero hz hd this

/-- **C118**: `get_points` on a polyline of equal vertices never returns, neither on the whole range nor on a range that
ends strictly inside it: every recursion depth is used up, whatever the random numbers and the tolerance. -/
theorem C118_point_never {a : V3 Float} (ha : Finite3 a) {n : Nat} {c : Polyline Float}
    (hc : Polyline.new (List.replicate (n + 2) a) = .ok c) {rnd : List Bool → Float}
    (hr : ∀ path, 0 ≤ rnd path ∧ rnd path < 1) {range : Float × Float}
    (h : range = (0, 1) ∨ (IsFin range.1 ∧ 0 < val range.1 ∧ val range.1 < 1) ∨
      (IsFin range.2 ∧ 0 < val range.2 ∧ val range.2 < 1)) (tol : Float) (fuel : Nat) (path : List Bool) :
    parameterDivision c.getPoint rnd tol fuel path range = .error .fuel := by
  have hend : ∀ {range : Float × Float} (fuel : Nat) (path : List Bool), ((IsFin range.1 ∧ 0 < val range.1 ∧ val range.1 < 1) ∨
      (IsFin range.2 ∧ 0 < val range.2 ∧ val range.2 < 1)) →
      ∀ l, parameterDivision c.getPoint rnd tol fuel path range ≠ .ok l := by
    rintro range fuel path (⟨f, h0, h1⟩ | ⟨f, h0, h1⟩) l
    · obtain ⟨p, hp, hn⟩ := C118_point_polyline ha hc range.1
      exact C118_never (.inl rfl) hp (hn f h0 h1) fuel path l
    · obtain ⟨p, hp, hn⟩ := C118_point_polyline ha hc range.2
      exact C118_never (.inr rfl) hp (hn f h0 h1) fuel path l
  have hnever : ∀ l, parameterDivision c.getPoint rnd tol fuel path range ≠ .ok l := by
    rcases h with rfl | h
    · intro l hl
      cases fuel with
      | zero => cases hl
      | succ fuel =>
        rcases parameterDivision_cases hl with ⟨-, ht⟩ | ⟨r₁, r₂, h1, -, -⟩
        · obtain ⟨pa, pb, pt, -, -, e3, -, -, f3, -⟩ := chord_finite ht
          obtain ⟨r0, r1⟩ := hr path
          obtain ⟨f, l0, l1⟩ := drawRatio_float r0 r1
          have d : IsFin ((1 : Float) - 0) ∧ val ((1 : Float) - 0) = 1 := by
            have e : val (1 : Float) - val (0 : Float) = 1 := by rw [one_val.2, zero_val.2, sub_zero]
            obtain ⟨g, r⟩ := sub_rounds one_val.1 zero_val.1 (by rw [e, abs_one]; exact one_le_maxFinite)
            rw [e] at r
            exact ⟨g, r.of_rep rep_one⟩
          have m : IsFin ((1 - 0) * drawRatio (rnd path)) ∧ val ((1 - 0) * drawRatio (rnd path)) = val (drawRatio (rnd path)) := by
            have e : val ((1 : Float) - 0) * val (drawRatio (rnd path)) = val (drawRatio (rnd path)) := by rw [d.2, one_mul]
            obtain ⟨g, r⟩ := mul_rounds d.1 f (by rw [e]; exact val_abs_le f)
            rw [e] at r
            exact ⟨g, r.of_rep (val_rep f)⟩
          have a0 : IsFin (0 + (1 - 0) * drawRatio (rnd path)) ∧
              val (0 + (1 - 0) * drawRatio (rnd path)) = val (drawRatio (rnd path)) := by
            have e : val (0 : Float) + val ((1 - 0) * drawRatio (rnd path)) = val (drawRatio (rnd path)) := by
              rw [m.2, zero_val.2, zero_add]
            obtain ⟨g, r⟩ := add_rounds zero_val.1 m.1 (by rw [e]; exact val_abs_le f)
            rw [e] at r
            exact ⟨g, r.of_rep (val_rep f)⟩
          obtain ⟨q, e, hn⟩ := C118_point_polyline ha hc (0 + (1 - 0) * drawRatio (rnd path))
          rw [e3] at e; cases e
          have := eps_eq
          exact hn a0.1 (by rw [a0.2]; linarith) (by rw [a0.2]; linarith) f3
        · refine hend _ _ (.inr ?_) _ h1
          have e : val (0 : Float) + val (1 : Float) = 1 := by rw [one_val.2, zero_val.2, zero_add]
          obtain ⟨g, r⟩ := add_rounds zero_val.1 one_val.1 (by rw [e, abs_one]; exact one_le_maxFinite)
          rw [e] at r
          have v1 := r.of_rep rep_one
          have e2 : val ((0 : Float) + 1) / val ((2 : Nat) : Float) = 1 / 2 := by rw [v1, two_val.2]
          obtain ⟨g2, r2⟩ := div_rounds g two_val.1 (by rw [two_val.2]; norm_num) (by
            rw [e2, abs_of_pos (by norm_num)]; linarith [one_le_maxFinite])
          rw [e2] at r2
          have v2 := r2.of_rep ⟨1, -1, by norm_num, by norm_num, by norm_num⟩
          refine ⟨g2, ?_⟩
          show 0 < val ((0 + 1) / ((2 : Nat) : Float)) ∧ val ((0 + 1) / ((2 : Nat) : Float)) < 1
          rw [v2]
          norm_num
    · exact hend fuel path h
  rcases parameterDivision_error (tol := tol) (fun _ _ => True) (getPoint := c.getPoint) (rnd := rnd)
    (fun lo hi _ => ⟨(C118_point_polyline ha hc lo).imp fun _ h => h.1, (C118_point_polyline ha hc hi).imp fun _ h => h.1,
      fun path => (C118_point_polyline ha hc _).imp fun _ h => h.1⟩) (fun _ _ _ => ⟨trivial, trivial⟩) fuel path range trivial
    with h | ⟨l, h⟩
  · exact h
  · exact absurd h (hnever l)

/-- The segment of that polyline, and every edge loop with it, cannot be sampled. -/
theorem C118_point_segment {a : V3 Float} (ha : Finite3 a) {n : Nat} {c : Polyline Float}
    (hc : Polyline.new (List.replicate (n + 2) a) = .ok c) {rnd : Nat → List Bool → Float}
    (hr : ∀ i path, 0 ≤ rnd i path ∧ rnd i path < 1) {s : CurveSegment Float} (hs : s.curve.getPoint = c.getPoint)
    (h01 : s.parameterRange = (0, 1)) (fuel : Nat) :
    (∀ i, s.getPoints fuel (rnd i) = .error .fuel) ∧
    ∀ e : EdgeLoop Float, s ∈ e.edges → ∀ P, e.toPolygon fuel rnd ≠ .ok P := by
  have h : ∀ i, s.getPoints fuel (rnd i) = .error .fuel := by
    intro i
    unfold CurveSegment.getPoints
    rw [hs, h01, C118_point_never ha hc (hr i) (.inl rfl)]
    rfl
  refine ⟨h, fun e he P hP => ?_⟩
  obtain ⟨samples, -, -, h3⟩ := C62_loop hP
  obtain ⟨i, hi⟩ := List.mem_iff_getElem?.1 he
  obtain ⟨ps, -, e2⟩ := h3 i s hi
  rw [h i] at e2
  cases e2

/-- Non-vacuity of **C118**: a straight line is sampled at its two ends; the polyline of a doubled point is built, has
its point at both ends of the range and no finite point in the middle, and is not sampled. -/
theorem C118_example :
    (parameterDivision (fun t => .ok (⟨t, 2 * t, 0⟩ : V3 Float)) (fun _ => 0) 0.125 5 [] (0, 1)).map
      (·.map Float.toBits) = .ok [(0 : Float).toBits, (1 : Float).toBits] ∧
    ∃ c, Polyline.new [(⟨1, 2, 3⟩ : V3 Float), ⟨1, 2, 3⟩] = .ok c ∧
      c.getPoint 0 = .ok ⟨1, 2, 3⟩ ∧ c.getPoint 1 = .ok ⟨1, 2, 3⟩ ∧
      (∃ p, c.getPoint 0.5 = .ok p ∧ ¬ Finite3 p) ∧
      parameterDivision c.getPoint (fun _ => 0) 0.125 1000000 [] (0, 1) = .error .fuel := by
  have ha : Finite3 (⟨1, 2, 3⟩ : V3 Float) :=
    ⟨show Float.isFinite 1 = true by decide +kernel, show Float.isFinite 2 = true by decide +kernel,
      show Float.isFinite 3 = true by decide +kernel⟩
  refine ⟨by decide +kernel, ?_⟩
  obtain ⟨c, hc, h1, h2, h3⟩ := polyline_point_new (a := (⟨1, 2, 3⟩ : V3 Float)) 0
  refine ⟨c, hc, ?_, ?_, ?_, C118_point_never (n := 0) ha hc
    (fun _ => ⟨by decide +kernel, by decide +kernel⟩) (.inl rfl) _ _ _⟩
  · unfold Polyline.getPoint
    rw [if_pos (by decide +kernel)]
    unfold Polyline.start
    rw [h1]; rfl
  · unfold Polyline.getPoint
    rw [if_neg (by decide +kernel), if_pos (by decide +kernel)]
    unfold Polyline.stop
    rw [h1]; rfl
  · obtain ⟨p, hp, hn⟩ := C118_point_polyline (n := 0) ha hc 0.5
    have f : IsFin (0.5 : Float) := show Float.isFinite 0.5 = true by decide +kernel
    have l0 : (0 : Float) < 0.5 := by decide +kernel
    have l1 : (0.5 : Float) < 1 := by decide +kernel
    rw [F64.lt_iff zero_val.1 f, zero_val.2] at l0
    rw [F64.lt_iff f one_val.1, one_val.2] at l1
    exact ⟨p, hp, hn f l0 l1⟩

end Geom3d
