import Verif.Lemmas.F64Exact
import Verif.Props.FloatSurface
import Verif.Props.FloatDivide
import Verif.Props.Face

/-!
# C114: patches with a common edge have no cracks (binary64)

At the ends of its parameter range a Bézier surface gives, bit for bit except for the signs of zeros, the points of the
Bézier curve of the control points along that edge.  So two patches whose control points agree along an edge agree
there, and so do their meshes.
-/

namespace Geom3d
open Spec F64

/-! ### The specification -/

/-- The same point, perhaps with zeros of another sign. -/
def F64.SamePt (p q : V3 Float) : Prop := Same p.x q.x ∧ Same p.y q.y ∧ Same p.z q.z

/-- The same homogeneous point, perhaps with zeros of another sign. -/
def F64.SamePt4 (p q : V4 Float) : Prop := Same p.x q.x ∧ Same p.y q.y ∧ Same p.z q.z ∧ Same p.w q.w

/-- The four sides of a patch. -/
inductive Spec.Side where
  | uStart | uEnd | vStart | vEnd

/-- The control points along a side. -/
def Spec.Side.points {P : Type} [Zero P] (g : Grid P) : Spec.Side → List P
  | .uStart => (List.range g.cols).map (entry g 0)
  | .uEnd => (List.range g.cols).map (entry g (g.rows - 1))
  | .vStart => (List.range g.rows).map (entry g · 0)
  | .vEnd => (List.range g.rows).map (entry g · (g.cols - 1))

/-- The parameters along a side of the unit square. -/
def Spec.Side.at {F : Type} [Zero F] [One F] : Spec.Side → F → F × F
  | .uStart, t => (0, t)
  | .uEnd, t => (1, t)
  | .vStart, t => (t, 0)
  | .vEnd, t => (t, 1)

/-- How often a side is divided, and the number of its `k`-th vertex, in the mesh with divisions `(m, n)`. -/
def Spec.Side.division : Spec.Side → Nat → Nat → Nat
  | .uStart, _, n => n
  | .uEnd, _, n => n
  | .vStart, m, _ => m
  | .vEnd, m, _ => m

def Spec.Side.vertex : Spec.Side → Nat → Nat → Nat → Nat
  | .uStart, _, _, k => k
  | .uEnd, m, n, k => m * (n + 1) + k
  | .vStart, _, n, k => k * (n + 1)
  | .vEnd, _, n, k => k * (n + 1) + n

theorem F64.SamePt.symm {p q : V3 Float} (h : SamePt p q) : SamePt q p := ⟨h.1.symm, h.2.1.symm, h.2.2.symm⟩

theorem F64.SamePt.trans {p q r : V3 Float} (h : SamePt p q) (h' : SamePt q r) : SamePt p r :=
  ⟨h.1.trans h'.1, h.2.1.trans h'.2.1, h.2.2.trans h'.2.2⟩

theorem F64.SamePt4.symm {p q : V4 Float} (h : SamePt4 p q) : SamePt4 q p :=
  ⟨h.1.symm, h.2.1.symm, h.2.2.1.symm, h.2.2.2.symm⟩

theorem F64.SamePt4.trans {p q r : V4 Float} (h : SamePt4 p q) (h' : SamePt4 q r) : SamePt4 p r :=
  ⟨h.1.trans h'.1, h.2.1.trans h'.2.1, h.2.2.1.trans h'.2.2.1, h.2.2.2.trans h'.2.2.2⟩

/-! ### Sums with vanishing terms -/

theorem accum_skip {w p : Nat → Float} {n : Nat} : ∀ {m : Nat}, (∀ i, i < m → IsZ (w (n + i) * p (n + i))) →
    Same (accum w p (n + m)) (accum w p n)
  | 0, _ => Same.refl _
  | m + 1, h => (add_isZ (h m (by omega))).trans (accum_skip fun i hi => h i (by omega))

theorem accum_follow {w p w' p' : Nat → Float} {n : Nat} {s : Float} (hs : Same (accum w p n) s) :
    ∀ {m : Nat}, (∀ i, i < m → Same (w (n + i) * p (n + i)) (w' i * p' i)) → IsZ s →
      Same (accum w p (n + m)) (accum w' p' m)
  | 0, _, hz => hs.trans (Or.inr ⟨hz, zero_val⟩)
  | m + 1, h, hz => Same.add (accum_follow hs (fun i hi => h i (by omega)) hz) (h m (by omega))

theorem accum_one {w p : Nat → Float} {n c l : Nat} (hl : l < c) (h : ∀ i, i < c → i ≠ l → IsZ (w (n + i) * p (n + i))) :
    Same (accum w p (n + c)) (accum w p n + w (n + l) * p (n + l)) := by
  obtain ⟨d, rfl⟩ : ∃ d, c = l + 1 + d := ⟨c - (l + 1), by omega⟩
  rw [show n + (l + 1 + d) = (n + l + 1) + d by omega]
  refine (accum_skip (n := n + l + 1) fun i hi => ?_).trans ?_
  · have := h (l + 1 + i) (by omega) (by omega)
    rwa [show n + (l + 1 + i) = n + l + 1 + i by omega] at this
  · exact Same.add (accum_skip fun i hi => h i (by omega) (by omega)) (Same.refl _)

/-- Weights that select a row. -/
theorem accum_row {a b p : Nat → Float} {r c k : Nat} (hc : 0 < c) (hk : k < r)
    (ha : ∀ i, i < r → IsFin (a i) ∧ val (a i) = if i = k then 1 else 0) (hb : ∀ j, j < c → IsFin (b j))
    (hp : ∀ i, i < r * c → IsFin (p i)) :
    Same (accum (flatWeight c a b) p (r * c)) (accum b (fun j => p (k * c + j)) c) := by
  have hz : ∀ t, t < r * c → t / c ≠ k → IsZ (flatWeight c a b t * p t) := by
    intro t ht htk
    have h1 : t / c < r := Nat.div_lt_of_lt_mul (by rwa [mul_comm] at ht)
    obtain ⟨fa, ea⟩ := ha _ h1
    rw [if_neg htk] at ea
    exact (IsZ.mul ⟨fa, ea⟩ (hb _ (Nat.mod_lt _ hc))).mul (hp t ht)
  have hkc : k * c + c ≤ r * c := by
    have := Nat.mul_le_mul_right c hk
    rwa [Nat.succ_mul] at this
  have q1 : ∀ j, j < c → (k * c + j) / c = k := fun j hj => by
    rw [add_comm, Nat.add_mul_div_right _ _ hc, Nat.div_eq_of_lt hj, zero_add]
  have q2 : ∀ j, j < c → (k * c + j) % c = j := fun j hj => by
    rw [add_comm, Nat.add_mul_mod_self_right, Nat.mod_eq_of_lt hj]
  obtain ⟨d, hd⟩ : ∃ d, r * c = k * c + c + d := ⟨r * c - (k * c + c), by omega⟩
  rw [hd]
  refine (accum_skip fun i hi => hz _ (by omega) ?_).trans ?_
  · have : k + 1 ≤ (k * c + c + i) / c := by
      rw [Nat.le_div_iff_mul_le hc, Nat.succ_mul]
      omega
    omega
  · refine accum_follow (s := 0) ?_ ?_ zero_val
    · have := accum_skip (w := flatWeight c a b) (p := p) (n := 0) (m := k * c) fun i hi => hz _ (by omega) (by
        rw [zero_add]
        exact Nat.ne_of_lt (Nat.div_lt_of_lt_mul (by rwa [mul_comm] at hi)))
      rwa [zero_add] at this
    · intro j hj
      refine Same.mul ?_ (Same.refl _)
      obtain ⟨fa, ea⟩ := ha k hk
      rw [if_pos rfl] at ea
      rw [flatWeight, q1 j hj, q2 j hj]
      exact one_mul_same fa ea

/-- Weights that select a column. -/
theorem accum_column {a b p : Nat → Float} {c l : Nat} (hl : l < c)
    (hb : ∀ j, j < c → IsFin (b j) ∧ val (b j) = if j = l then 1 else 0) :
    ∀ {r : Nat}, (∀ i, i < r → IsFin (a i)) → (∀ i, i < r * c → IsFin (p i)) →
    Same (accum (flatWeight c a b) p (r * c)) (accum a (fun i => p (i * c + l)) r) := by
  intro r
  have hc : 0 < c := by omega
  induction r with
  | zero => intro _ _; rw [Nat.zero_mul]; exact Same.refl _
  | succ r ih =>
    intro ha hp
    have hrc : (r + 1) * c = r * c + c := Nat.succ_mul _ _
    have q1 : ∀ j, j < c → (r * c + j) / c = r := fun j hj => by
      rw [add_comm, Nat.add_mul_div_right _ _ hc, Nat.div_eq_of_lt hj, zero_add]
    have q2 : ∀ j, j < c → (r * c + j) % c = j := fun j hj => by
      rw [add_comm, Nat.add_mul_mod_self_right, Nat.mod_eq_of_lt hj]
    rw [hrc]
    refine (accum_one hl fun j hj hjl => ?_).trans ?_
    · refine IsZ.mul ?_ (hp _ (by omega))
      rw [flatWeight, q1 j hj, q2 j hj, fmul_comm]
      obtain ⟨fb, eb⟩ := hb j hj
      rw [if_neg hjl] at eb
      exact IsZ.mul ⟨fb, eb⟩ (ha r (by omega))
    · refine Same.add (ih (fun i hi => ha i (by omega)) fun i hi => hp i (by omega)) (Same.mul ?_ (Same.refl _))
      rw [flatWeight, q1 l hl, q2 l hl, fmul_comm]
      obtain ⟨fb, eb⟩ := hb l hl
      rw [if_pos rfl] at eb
      exact one_mul_same fb eb

/-! ### Edges of nets -/

section edges
variable {P : Type} [Add P] [Zero P] [HMul Float P P]

theorem map_range_getD (n : Nat) (f : Nat → P) {i : Nat} (hi : i < n) : ((List.range n).map f).getD i 0 = f i := by
  simp [List.getD, hi]

/-- A coordinate of points. -/
structure Coordinate (π : P → Float) : Prop where
  zero : π 0 = 0
  add : ∀ a b, π (a + b) = π a + π b
  mul : ∀ (s : Float) a, π (s * a) = s * π a

theorem netSum_row {g : Grid P} (hg : NetOk g) {a b : Nat → Float} {k : Nat} (hk : k < g.rows) (hc : 0 < g.cols)
    (ha : ∀ i, i < g.rows → IsFin (a i) ∧ val (a i) = if i = k then 1 else 0) (hb : ∀ j, j < g.cols → IsFin (b j)) :
    ∃ x, netSum g (tab g.rows a) (tab g.cols b) = .ok x ∧ ∀ π : P → Float, Coordinate π → (∀ p ∈ g.data, IsFin (π p)) →
      Same (π x) (π (linComb (tab g.cols b) ((List.range g.cols).map (entry g k)))) := by
  refine ⟨_, netSum_flat hg le_rfl le_rfl a b, fun π hπ hp => ?_⟩
  rw [linComb_accum π hπ.zero hπ.add hπ.mul]
  have e := linComb_accum π hπ.zero hπ.add hπ.mul b ((List.range g.cols).map (entry g k))
  rw [List.length_map, List.length_range] at e
  rw [e]
  have h := accum_row (p := fun i => π (g.data.getD i 0)) hc hk ha hb
    (fun i hi => hp _ (getD_mem_of_lt (by rw [hg]; exact hi) 0))
  rw [← hg] at h
  refine h.trans (Or.inl (accum_congr fun j hj => ?_))
  rw [map_range_getD _ _ hj]
  rfl

theorem netSum_column {g : Grid P} (hg : NetOk g) {a b : Nat → Float} {l : Nat} (hl : l < g.cols)
    (ha : ∀ i, i < g.rows → IsFin (a i)) (hb : ∀ j, j < g.cols → IsFin (b j) ∧ val (b j) = if j = l then 1 else 0) :
    ∃ x, netSum g (tab g.rows a) (tab g.cols b) = .ok x ∧ ∀ π : P → Float, Coordinate π → (∀ p ∈ g.data, IsFin (π p)) →
      Same (π x) (π (linComb (tab g.rows a) ((List.range g.rows).map (entry g · l)))) := by
  refine ⟨_, netSum_flat hg le_rfl le_rfl a b, fun π hπ hp => ?_⟩
  rw [linComb_accum π hπ.zero hπ.add hπ.mul]
  have e := linComb_accum π hπ.zero hπ.add hπ.mul a ((List.range g.rows).map (entry g · l))
  rw [List.length_map, List.length_range] at e
  rw [e]
  have h := accum_column (p := fun i => π (g.data.getD i 0)) hl hb ha
    (fun i hi => hp _ (getD_mem_of_lt (by rw [hg]; exact hi) 0))
  rw [← hg] at h
  refine h.trans (Or.inl (accum_congr fun j hj => ?_))
  rw [map_range_getD _ _ hj]
  rfl

/-- The weights at the ends of the unit interval. -/
theorem bernTri_select {n : Nat} (hn1 : 1 ≤ n) (hn : n ≤ 2 ^ 40) :
    (∀ i, i < n → IsFin (bernTri (0 : Float) (1 - 0) (n - 1) i) ∧ val (bernTri (0 : Float) (1 - 0) (n - 1) i) = if i = 0 then 1 else 0) ∧
    (∀ i, i < n → IsFin (bernTri (1 : Float) (1 - 1) (n - 1) i) ∧
      val (bernTri (1 : Float) (1 - 1) (n - 1) i) = if i = n - 1 then 1 else 0) := by
  have h00 : (0 : Float) ≤ 0 := (le_iff zero_val.1 zero_val.1).mpr le_rfl
  have h01 : (0 : Float) ≤ 1 := (le_iff zero_val.1 one_val.1).mpr (by rw [zero_val.2, one_val.2]; norm_num)
  have h11 : (1 : Float) ≤ 1 := (le_iff one_val.1 one_val.1).mpr le_rfl
  constructor
  · intro i hi
    refine ⟨(bernTri_apx h00 h01 _ i (by omega)).1, ?_⟩
    rw [bernTri_ends h00 h01 (Or.inl zero_val.2) _ _ (by omega), zero_val.2, bernsteinPoly_at_zero]
  · intro i hi
    refine ⟨(bernTri_apx h01 h11 _ i (by omega)).1, ?_⟩
    rw [bernTri_ends h01 h11 (Or.inr one_val.2) _ _ (by omega), one_val.2, bernsteinPoly_at_one _ _ (by omega)]

/-- Along each side a Bézier surface is the Bézier curve of the control points there, in every coordinate. -/
theorem bezier_side (s : BezierSurface P) (hg : NetOk s.controlPoints) (hr1 : 1 ≤ s.controlPoints.rows)
    (hc1 : 1 ≤ s.controlPoints.cols) (hr : s.controlPoints.rows ≤ 2 ^ 40) (hc : s.controlPoints.cols ≤ 2 ^ 40)
    (d : Side) {t : Float} (h0 : 0 ≤ t) (h1 : t ≤ 1) :
    ∃ x y, s.getPoint (d.at t).1 (d.at t).2 = .ok x ∧ (BezierCurve.mk (d.points s.controlPoints)).getPoint t = .ok y ∧
      ∀ π : P → Float, Coordinate π → (∀ p ∈ s.controlPoints.data, IsFin (π p)) → Same (π x) (π y) := by
  have hcurve : ∀ (n : Nat) (f : Nat → P), 1 ≤ n → (BezierCurve.mk ((List.range n).map f)).getPoint t
      = .ok (linComb (tab n fun i => bernTri t (1 - t) (n - 1) i) ((List.range n).map f)) := by
    intro n f hn
    unfold BezierCurve.getPoint
    simp only [List.length_map, List.length_range]
    rw [bernstein_tri _ hn]
    rfl
  have sel := @bernTri_select
  have fin : ∀ n i, n ≤ 2 ^ 40 → IsFin (bernTri t (1 - t) (n - 1) i) :=
    fun n i hn => (bernTri_apx h0 h1 _ i (by omega)).1
  have hget : ∀ u v : Float, s.getPoint u v = netSum s.controlPoints
      (tab s.controlPoints.rows fun i => bernTri u (1 - u) (s.controlPoints.rows - 1) i)
      (tab s.controlPoints.cols fun i => bernTri v (1 - v) (s.controlPoints.cols - 1) i) := by
    intro u v
    unfold BezierSurface.getPoint
    rw [bernstein_tri _ hr1, bernstein_tri _ hc1]
    rfl
  cases d
  case uStart =>
    obtain ⟨x, e1, e2⟩ := netSum_row hg (k := 0) (by omega) (by omega) (bernTri_select hr1 hr).1 (fun j _ => fin _ j hc)
    exact ⟨x, _, (hget _ _).trans e1, hcurve _ _ hc1, e2⟩
  case uEnd =>
    obtain ⟨x, e1, e2⟩ := netSum_row hg (k := s.controlPoints.rows - 1) (by omega) (by omega) (bernTri_select hr1 hr).2
      (fun j _ => fin _ j hc)
    exact ⟨x, _, (hget _ _).trans e1, hcurve _ _ hc1, e2⟩
  case vStart =>
    obtain ⟨x, e1, e2⟩ := netSum_column hg (l := 0) (by omega) (fun j _ => fin _ j hr) (bernTri_select hc1 hc).1
    exact ⟨x, _, (hget _ _).trans e1, hcurve _ _ hr1, e2⟩
  case vEnd =>
    obtain ⟨x, e1, e2⟩ := netSum_column hg (l := s.controlPoints.cols - 1) (by omega) (fun j _ => fin _ j hr)
      (bernTri_select hc1 hc).2
    exact ⟨x, _, (hget _ _).trans e1, hcurve _ _ hr1, e2⟩

end edges

theorem coord3 : Coordinate (fun p : V3 Float => p.x) ∧ Coordinate (fun p : V3 Float => p.y) ∧ Coordinate (fun p : V3 Float => p.z) :=
  ⟨⟨rfl, fun _ _ => rfl, fun _ _ => rfl⟩, ⟨rfl, fun _ _ => rfl, fun _ _ => rfl⟩, ⟨rfl, fun _ _ => rfl, fun _ _ => rfl⟩⟩

theorem coord4 : Coordinate (fun p : V4 Float => p.x) ∧ Coordinate (fun p : V4 Float => p.y) ∧ Coordinate (fun p : V4 Float => p.z) ∧
    Coordinate (fun p : V4 Float => p.w) :=
  ⟨⟨rfl, fun _ _ => rfl, fun _ _ => rfl⟩, ⟨rfl, fun _ _ => rfl, fun _ _ => rfl⟩, ⟨rfl, fun _ _ => rfl, fun _ _ => rfl⟩,
    ⟨rfl, fun _ _ => rfl, fun _ _ => rfl⟩⟩

/-! ### C114 -/

/-- A net of finite points that a program can hold. -/
structure F64.FiniteNet (g : Grid (V3 Float)) : Prop where
  ok : NetOk g
  rows : 1 ≤ g.rows ∧ g.rows ≤ 2 ^ 40
  cols : 1 ≤ g.cols ∧ g.cols ≤ 2 ^ 40
  fin : ∀ p ∈ g.data, IsFin p.x ∧ IsFin p.y ∧ IsFin p.z

structure F64.FiniteNet4 (g : Grid (V4 Float)) : Prop where
  ok : NetOk g
  rows : 1 ≤ g.rows ∧ g.rows ≤ 2 ^ 40
  cols : 1 ≤ g.cols ∧ g.cols ≤ 2 ^ 40
  fin : ∀ p ∈ g.data, IsFin p.x ∧ IsFin p.y ∧ IsFin p.z ∧ IsFin p.w

/-- **C114.** Along each side of the unit square a Bézier surface gives the points of the Bézier curve of the control
points of that side, without any rounding difference. -/
theorem C114_side {s : BezierSurface (V3 Float)} (hs : FiniteNet s.controlPoints) (d : Side) {t : Float} (h0 : 0 ≤ t)
    (h1 : t ≤ 1) :
    ∃ x y, s.getPoint (d.at t).1 (d.at t).2 = .ok x ∧ (BezierCurve.mk (d.points s.controlPoints)).getPoint t = .ok y ∧
      SamePt x y := by
  obtain ⟨x, y, e1, e2, h⟩ := bezier_side s hs.ok hs.rows.1 hs.cols.1 hs.rows.2 hs.cols.2 d h0 h1
  exact ⟨x, y, e1, e2, h _ coord3.1 fun p hp => (hs.fin p hp).1, h _ coord3.2.1 fun p hp => (hs.fin p hp).2.1,
    h _ coord3.2.2 fun p hp => (hs.fin p hp).2.2⟩

/-- **C114** for homogeneous control points, before the division by the weight. -/
theorem C114_side_homogeneous {s : BezierSurface (V4 Float)} (hs : FiniteNet4 s.controlPoints) (d : Side) {t : Float}
    (h0 : 0 ≤ t) (h1 : t ≤ 1) :
    ∃ x y, s.getPoint (d.at t).1 (d.at t).2 = .ok x ∧ (BezierCurve.mk (d.points s.controlPoints)).getPoint t = .ok y ∧
      SamePt4 x y := by
  obtain ⟨x, y, e1, e2, h⟩ := bezier_side s hs.ok hs.rows.1 hs.cols.1 hs.rows.2 hs.cols.2 d h0 h1
  exact ⟨x, y, e1, e2, h _ coord4.1 fun p hp => (hs.fin p hp).1, h _ coord4.2.1 fun p hp => (hs.fin p hp).2.1,
    h _ coord4.2.2.1 fun p hp => (hs.fin p hp).2.2.1, h _ coord4.2.2.2 fun p hp => (hs.fin p hp).2.2.2⟩

/-- **C114.** Two Bézier surfaces whose control points agree along a side of each (any two sides) agree along these
sides. -/
theorem C114_seam {s s' : BezierSurface (V3 Float)} (hs : FiniteNet s.controlPoints) (hs' : FiniteNet s'.controlPoints)
    {d d' : Side} (hd : d.points s.controlPoints = d'.points s'.controlPoints) {t : Float} (h0 : 0 ≤ t) (h1 : t ≤ 1) :
    ∃ x x', s.getPoint (d.at t).1 (d.at t).2 = .ok x ∧ s'.getPoint (d'.at t).1 (d'.at t).2 = .ok x' ∧ SamePt x x' := by
  obtain ⟨x, y, e1, e2, e3⟩ := C114_side hs d h0 h1
  obtain ⟨x', y', e1', e2', e3'⟩ := C114_side hs' d' h0 h1
  rw [hd, e2'] at e2
  cases e2
  exact ⟨x, x', e1, e1', e3.trans e3'.symm⟩

theorem rational_same {p q : V4 Float} (h : SamePt4 p q) (hw : ¬ IsZ p.w) :
    SamePt ((1 / p.w) * p.truncate) ((1 / q.w) * q.truncate) := by
  obtain ⟨hx, hy, hz, hww⟩ := h
  have e : p.w = q.w := hww.resolve_right fun h => hw h.1
  rw [e]
  exact ⟨Same.mul (Same.refl _) hx, Same.mul (Same.refl _) hy, Same.mul (Same.refl _) hz⟩

/-- **C114** for rational surfaces, wherever the weight does not vanish. -/
theorem C114_seam_rational {s s' : BezierSurface (V4 Float)} (hs : FiniteNet4 s.controlPoints)
    (hs' : FiniteNet4 s'.controlPoints) {d d' : Side} (hd : d.points s.controlPoints = d'.points s'.controlPoints)
    {t : Float} (h0 : 0 ≤ t) (h1 : t ≤ 1) {h : V4 Float} (hh : s.getPoint (d.at t).1 (d.at t).2 = .ok h) (hw : ¬ IsZ h.w) :
    ∃ x x', s.getPointRational (d.at t).1 (d.at t).2 = .ok x ∧ s'.getPointRational (d'.at t).1 (d'.at t).2 = .ok x' ∧
      SamePt x x' := by
  obtain ⟨x, y, e1, e2, e3⟩ := C114_side_homogeneous hs d h0 h1
  obtain ⟨x', y', e1', e2', e3'⟩ := C114_side_homogeneous hs' d' h0 h1
  rw [hd, e2'] at e2
  cases e2
  rw [hh] at e1
  cases e1
  refine ⟨_, _, ?_, ?_, rational_same (e3.trans e3'.symm) hw⟩
  · unfold BezierSurface.getPointRational
    rw [hh]
    rfl
  · unfold BezierSurface.getPointRational
    rw [e1']
    rfl

/-- The parameters of up to `2 ^ 24` divisions of the unit interval stay in it. -/
theorem uniform_unit {d : Nat} {l : List Float} (hl : uniformDivide ((0 : Float), 1) d = .ok l) (hd : d ≤ 2 ^ 24) {k : Nat}
    (hk : k ≤ d) : ∃ t, l[k]? = some t ∧ 0 ≤ t ∧ t ≤ 1 := by
  obtain ⟨hd1, -⟩ := uniformDivide_eq_ok hl
  obtain ⟨l', e1, -, -, e4, e5⟩ := C95_uniform (lo := 0) (hi := 1) (M := 1) zero_val.1 one_val.1
    (by rw [zero_val.2]; norm_num) (by rw [one_val.2]; norm_num) (one_le_zpow₀ (by norm_num) (by norm_num)) hd1
    (hd.trans (by norm_num))
  rw [hl] at e1
  cases e1
  obtain ⟨t, h1, h2, h3⟩ := e5 k hk
  refine ⟨t, h1, ?_⟩
  rcases Nat.eq_or_lt_of_le hk with rfl | hlt
  · rw [e4] at h1
    cases h1
    exact ⟨(le_iff zero_val.1 one_val.1).mpr (by rw [zero_val.2, one_val.2]; norm_num),
      (le_iff one_val.1 one_val.1).mpr le_rfl⟩
  · rw [zero_val.2, one_val.2, zero_add, sub_zero] at h3
    have hd0 : (0 : ℝ) < d := by exact_mod_cast hd1
    have hd2 : (d : ℝ) ≤ 2 ^ 24 := by exact_mod_cast hd
    have hk2 : (k : ℝ) + 1 ≤ d := by exact_mod_cast hlt
    have hk0 : (0 : ℝ) ≤ k := Nat.cast_nonneg k
    have hinv : (2 : ℝ) ^ (-24 : Int) ≤ 1 / d := by
      rw [zpow_neg, one_div]
      exact inv_anti₀ hd0 (by exact_mod_cast hd2)
    have heps : (2 : ℝ) ^ (-50 : Int) * 1 + 2 ^ (-1074 : Int) ≤ 2 ^ (-49 : Int) := by
      have := two_zpow_le (by norm_num : (-1074 : Int) ≤ -50)
      have e : (2 : ℝ) ^ (-49 : Int) = 2 * 2 ^ (-50 : Int) := by norm_num
      linarith
    have hprod : (k : ℝ) * ((2 : ℝ) ^ (-50 : Int) * 1 + 2 ^ (-1074 : Int)) ≤ k * 2 ^ (-49 : Int) :=
      mul_le_mul_of_nonneg_left heps hk0
    have h5 := abs_le.mp (h3.trans hprod)
    have h6 : (k : ℝ) * (1 / d) + 1 / d ≤ 1 := by
      rw [← add_one_mul, mul_one_div]
      exact (div_le_one hd0).mpr hk2
    have h7 : (k : ℝ) * 2 ^ (-24 : Int) ≤ k * (1 / d) := mul_le_mul_of_nonneg_left hinv hk0
    have e49 : (2 : ℝ) ^ (-49 : Int) = 2 ^ (-24 : Int) * 2 ^ (-25 : Int) := by norm_num
    have h8 : (k : ℝ) * 2 ^ (-49 : Int) ≤ 2 ^ (-24 : Int) := by
      rw [e49]
      have : (k : ℝ) * 2 ^ (-25 : Int) ≤ 1 := by
        calc (k : ℝ) * 2 ^ (-25 : Int) ≤ 2 ^ 24 * 2 ^ (-25 : Int) :=
              mul_le_mul_of_nonneg_right (by linarith) (by norm_num)
          _ ≤ 1 := by norm_num
      nlinarith [two_zpow_pos (-24)]
    have h9 : (k : ℝ) * 2 ^ (-49 : Int) ≤ k * 2 ^ (-24 : Int) :=
      mul_le_mul_of_nonneg_left (two_zpow_le (by norm_num)) hk0
    constructor
    · rw [le_iff zero_val.1 h2, zero_val.2]
      linarith [h5.1]
    · rw [le_iff h2 one_val.1, one_val.2]
      linarith [h5.2]

theorem samples_side {s : Surface Float} {m n : Nat} {pts : List (V3 Float)} {us vs : List Float}
    (h : Samples s ((0, 1), (0, 1)) m n pts us vs) (d : Side) {k : Nat} (hk : k ≤ d.division m n) {l : List Float} {t : Float}
    (hl : uniformDivide ((0 : Float), 1) (d.division m n) = .ok l) (ht : l[k]? = some t) :
    ∃ p, s.getPoint (d.at t).1 (d.at t).2 = .ok p ∧ pts[d.vertex m n k]? = some p := by
  cases d
  case uStart =>
    have : l = vs := by have := h.vsDef; rw [show uniformDivide ((0 : Float), 1) n = .ok l from hl] at this; cases this; rfl
    subst this
    obtain ⟨p, h1, h2⟩ := h.at_ 0 k _ t h.first.1 ht
    exact ⟨p, h1, by simpa [Side.vertex] using h2⟩
  case uEnd =>
    have : l = vs := by have := h.vsDef; rw [show uniformDivide ((0 : Float), 1) n = .ok l from hl] at this; cases this; rfl
    subst this
    exact h.at_ m k _ t h.last.1 ht
  case vStart =>
    have : l = us := by have := h.usDef; rw [show uniformDivide ((0 : Float), 1) m = .ok l from hl] at this; cases this; rfl
    subst this
    exact h.at_ k 0 t _ ht h.first.2
  case vEnd =>
    have : l = us := by have := h.usDef; rw [show uniformDivide ((0 : Float), 1) m = .ok l from hl] at this; cases this; rfl
    subst this
    exact h.at_ k n t _ ht h.last.2

/-- **C114.** The meshes of two Bézier patches over the unit square whose control points agree along a side, divided
equally often there, have the same vertices along it: there is no crack between them. -/
theorem C114_mesh {s s' : BezierSurface (V3 Float)} (hs : FiniteNet s.controlPoints) (hs' : FiniteNet s'.controlPoints)
    {d d' : Side} (hd : d.points s.controlPoints = d'.points s'.controlPoints) {m n m' n' : Nat} {mesh mesh' : TriangleMesh Float}
    (h : (SurfacePatch.mk s.surface ((0, 1), (0, 1)) (m, n)).getTriangleMesh = .ok mesh)
    (h' : (SurfacePatch.mk s'.surface ((0, 1), (0, 1)) (m', n')).getTriangleMesh = .ok mesh')
    (hdiv : d.division m n = d'.division m' n') (hbig : d.division m n ≤ 2 ^ 24) (k : Nat) (hk : k ≤ d.division m n) :
    ∃ x x', mesh.vertices[d.vertex m n k]? = some x ∧ mesh'.vertices[d'.vertex m' n' k]? = some x' ∧ SamePt x x' := by
  obtain ⟨⟨us, vs, hS⟩, -⟩ := C44_mesh h rfl
  obtain ⟨⟨us', vs', hS'⟩, -⟩ := C44_mesh h' rfl
  obtain ⟨l, hl⟩ : ∃ l, uniformDivide ((0 : Float), 1) (d.division m n) = .ok l := by
    cases d
    · exact ⟨_, hS.vsDef⟩
    · exact ⟨_, hS.vsDef⟩
    · exact ⟨_, hS.usDef⟩
    · exact ⟨_, hS.usDef⟩
  obtain ⟨t, ht, h0, h1⟩ := uniform_unit hl hbig hk
  obtain ⟨x, e1, e2⟩ := samples_side hS d hk hl ht
  obtain ⟨x', e1', e2'⟩ := samples_side hS' d' (hdiv ▸ hk) (hdiv ▸ hl) ht
  obtain ⟨y, y', g1, g2, g3⟩ := C114_seam hs hs' hd h0 h1
  have i1 : y = x := by
    have : s.getPoint (d.at t).1 (d.at t).2 = .ok x := e1
    rw [g1] at this
    exact Except.ok.inj this
  have i2 : y' = x' := by
    have : s'.getPoint (d'.at t).1 (d'.at t).2 = .ok x' := e1'
    rw [g2] at this
    exact Except.ok.inj this
  exact ⟨x, x', e2, e2', i1 ▸ i2 ▸ g3⟩

/-! ### B-spline surfaces -/

/-- **C114.** At the end of a clamped knot vector a B-spline surface gives the points of the B-spline curve of its last
row (last column) of control points, without any rounding difference. -/
theorem C114_bspline_end {s : BSplineSurface Float (V3 Float)} (hs : FiniteNet s.controlPoints) (hku : KnotsF s.knots.1)
    (hkv : KnotsF s.knots.2) (hlu : s.knots.1.length = s.controlPoints.rows + s.degree.1 + 1)
    (hlv : s.knots.2.length = s.controlPoints.cols + s.degree.2 + 1) (hnu : s.controlPoints.rows + s.degree.1 ≤ 2 ^ 40)
    (hnv : s.controlPoints.cols + s.degree.2 ≤ 2 ^ 40) :
    (ClampedEnd s.knots.1 s.degree.1 → ∀ v, DomainF s.knots.2 s.degree.2 v →
      ∃ x y, s.getPoint (knot s.knots.1 (s.knots.1.length - 1)) v = .ok x ∧
        (BSplineCurve.mk (Side.uEnd.points s.controlPoints) s.knots.2 s.degree.2).getPoint v = .ok y ∧ SamePt x y) ∧
    (ClampedEnd s.knots.2 s.degree.2 → ∀ u, DomainF s.knots.1 s.degree.1 u →
      ∃ x y, s.getPoint u (knot s.knots.2 (s.knots.2.length - 1)) = .ok x ∧
        (BSplineCurve.mk (Side.vEnd.points s.controlPoints) s.knots.1 s.degree.1).getPoint u = .ok y ∧ SamePt x y) := by
  have dom : ∀ {knots : List Float} {p : Nat}, KnotsF knots → ClampedEnd knots p →
      DomainF knots p (knot knots (knots.length - 1)) := by
    intro knots p hk hce
    have := hce.room
    exact ⟨(hk.at _ (by omega)).1, hk.mono p _ (by omega) (by omega), Or.inr ⟨hce, rfl⟩⟩
  have hr := hs.rows.1
  have hc := hs.cols.1
  constructor
  · intro hcu v hv
    obtain ⟨a, A, hwa, a1, -, a3⟩ := bspline_weights hku hlu hr hnu (dom hku hcu)
    obtain ⟨b, B, hwb, b1, -, -⟩ := bspline_weights hkv hlv hc hnv hv
    obtain ⟨x, e1, h⟩ := netSum_row hs.ok (a := a) (b := b) (k := s.controlPoints.rows - 1) (by omega) hc
      (fun i hi => ⟨(hwa.fin i hi).1, a3 hcu rfl i hi⟩) (fun j hj => (hwb.fin j hj).1)
    refine ⟨x, _, ?_, ?_, h _ coord3.1 fun p hp => (hs.fin p hp).1, h _ coord3.2.1 fun p hp => (hs.fin p hp).2.1,
      h _ coord3.2.2 fun p hp => (hs.fin p hp).2.2⟩
    · unfold BSplineSurface.getPoint
      rw [a1, b1]
      exact e1
    · unfold BSplineCurve.getPoint
      simp only []
      rw [b1]
      rfl
  · intro hcv u hu
    obtain ⟨a, A, hwa, a1, -, -⟩ := bspline_weights hku hlu hr hnu hu
    obtain ⟨b, B, hwb, b1, -, b3⟩ := bspline_weights hkv hlv hc hnv (dom hkv hcv)
    obtain ⟨x, e1, h⟩ := netSum_column hs.ok (a := a) (b := b) (l := s.controlPoints.cols - 1) (by omega)
      (fun j hj => (hwa.fin j hj).1) (fun i hi => ⟨(hwb.fin i hi).1, b3 hcv rfl i hi⟩)
    refine ⟨x, _, ?_, ?_, h _ coord3.1 fun p hp => (hs.fin p hp).1, h _ coord3.2.1 fun p hp => (hs.fin p hp).2.1,
      h _ coord3.2.2 fun p hp => (hs.fin p hp).2.2⟩
    · unfold BSplineSurface.getPoint
      rw [a1, b1]
      exact e1
    · unfold BSplineCurve.getPoint
      simp only []
      rw [a1]
      rfl

/-- Two B-spline surfaces of degree one over `[0, 49] × [0, 1]`: the last row of the first is the first row of the
second. -/
def Spec.crackLeft : BSplineSurface Float (V3 Float) :=
  ⟨⟨[⟨0, 0, 0⟩, ⟨0, 1, 0⟩, ⟨1, 0, 0⟩, ⟨1, 1, 0⟩], 2, 2⟩, ([0, 0, 49, 49], [0, 0, 1, 1]), (1, 1)⟩

def Spec.crackRight : BSplineSurface Float (V3 Float) :=
  ⟨⟨[⟨1, 0, 0⟩, ⟨1, 1, 0⟩, ⟨3, 0, 0⟩, ⟨3, 1, 0⟩], 2, 2⟩, ([0, 0, 49, 49], [0, 0, 1, 1]), (1, 1)⟩

/-- **C114** fails at the start of a knot vector: the surfaces `crackLeft` and `crackRight` have a common edge, but the
`x` coordinates computed for its corner differ by `2 ^ -52`. -/
theorem C114_bspline_crack :
    Side.uEnd.points crackLeft.controlPoints = Side.uStart.points crackRight.controlPoints ∧
    (crackLeft.getPoint 49 0).toOption.map (fun p => p.x.toBits) = some 0x3FF0000000000000 ∧
    (crackRight.getPoint 0 0).toOption.map (fun p => p.x.toBits) = some 0x3FF0000000000001 := by
  refine ⟨by decide +kernel, by decide +kernel, by decide +kernel⟩

/-! ### A concrete case -/

/-- Two patches with a common edge (the end of `u` of the first, the start of `v` of the second). -/
def Spec.seamLeft : BezierSurface (V3 Float) :=
  ⟨⟨[⟨0, 0, 0⟩, ⟨0, 1, 2⟩, ⟨0, 2, 0⟩, ⟨1, 0, 0⟩, ⟨1, 1, 7⟩, ⟨1, 2, 3⟩], 2, 3⟩⟩

def Spec.seamRight : BezierSurface (V3 Float) :=
  ⟨⟨[⟨1, 0, 0⟩, ⟨5, 0, 0⟩, ⟨1, 1, 7⟩, ⟨5, 1, 0⟩, ⟨1, 2, 3⟩, ⟨5, 2, 1⟩], 3, 2⟩⟩

theorem C114_example : Side.uEnd.points seamLeft.controlPoints = Side.vStart.points seamRight.controlPoints ∧
    (seamLeft.getPoint (1 : Float) (1 / 10)).toOption.map (fun p => (p.x.toBits, p.y.toBits, p.z.toBits))
      = (seamRight.getPoint (1 / 10 : Float) 0).toOption.map (fun p => (p.x.toBits, p.y.toBits, p.z.toBits)) ∧
    ((seamLeft.getPoint (1 : Float) (1 / 10)).toOption.map fun p => (p.x.toBits, p.y.toBits, p.z.toBits))
      = some (0x3FF0000000000000, 0x3FC999999999999A, 0x3FF4A3D70A3D70A5) := by
  refine ⟨by decide +kernel, by decide +kernel, by decide +kernel⟩

example : FiniteNet seamLeft.controlPoints := by
  refine ⟨rfl, by decide, by decide, ?_⟩
  unfold IsFin
  decide +kernel

example : FiniteNet seamRight.controlPoints := by
  refine ⟨rfl, by decide, by decide, ?_⟩
  unfold IsFin
  decide +kernel

end Geom3d
