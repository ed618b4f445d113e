import Verif.Model.Mesh
import Verif.Spec.Mesh
import Verif.Lemmas.MapM
import Verif.Spec.ExactEnv
import Mathlib.Data.List.Nodup
import Mathlib.Tactic.Linarith

/-! # C43, C47, C48: triangle meshes and OBJ output (any arithmetic) -/

set_option linter.unusedSectionVars false

namespace Geom3d

/-! ### C43: grid triangulation -/

section
variable {α : Type}

theorem asU32_of_lt {n : Nat} (h : n < 2 ^ 32) : asU32 n = n := Nat.mod_eq_of_lt h

theorem forRange_append {β : Type} (a b : Nat) (l : List β) (f : Nat → List β) :
    forRange a b l (fun s i => pure (s ++ f i)) = .ok (l ++ (List.range' a (b - a)).flatMap f) := by
  unfold forRange
  generalize List.range' a (b - a) = r
  induction r generalizing l with
  | nil => simp
  | cons i r ih =>
    rw [List.foldlM_cons, pure_eq_ok, ok_bind, ih]
    simp

/-- The cells `(row, col)` of an `r × c` grid of vertices. -/
def Spec.cells (r c : Nat) : List (Nat × Nat) :=
  (List.range (r - 1)).flatMap fun i => (List.range (c - 1)).map fun j => (i, j)

theorem mem_cells {r c : Nat} {p : Nat × Nat} : p ∈ Spec.cells r c ↔ p.1 + 1 < r ∧ p.2 + 1 < c := by
  obtain ⟨i, j⟩ := p
  simp only [Spec.cells, List.mem_flatMap, List.mem_range, List.mem_map, Prod.mk.injEq]
  constructor
  · rintro ⟨a, ha, b, hb, rfl, rfl⟩; omega
  · rintro ⟨h1, h2⟩; exact ⟨i, by omega, j, by omega, rfl, rfl⟩

theorem cells_nodup (r c : Nat) : (Spec.cells r c).Nodup := by
  unfold Spec.cells
  rw [List.nodup_flatMap]
  refine ⟨fun i _ => List.nodup_range.map fun a b h => by simpa using h, ?_⟩
  apply List.nodup_range.imp
  intro a b hab x hx hy
  simp only [List.mem_map, List.mem_range] at hx hy
  obtain ⟨_, _, rfl⟩ := hx
  obtain ⟨_, _, h⟩ := hy
  exact hab (by simpa using (congrArg Prod.fst h).symm)

theorem createTriangles_eq {g : Grid α} (hr : 1 ≤ g.rows) (hc : 1 ≤ g.cols) :
    createTriangles g = .ok ((Spec.cells g.rows g.cols).flatMap fun p => cellTriangles g.cols p.1 p.2) := by
  unfold createTriangles
  rw [usub_ok hr, ok_bind, usub_ok hc, ok_bind]
  have h1 : (fun triangles row => forRange 0 (g.cols - 1) triangles fun triangles col =>
      (pure (triangles ++ cellTriangles g.cols row col) : Res (List Nat))) =
      fun triangles row => pure (triangles ++ (List.range (g.cols - 1)).flatMap (cellTriangles g.cols row)) := by
    funext t row
    rw [forRange_append, Nat.sub_zero, ← List.range_eq_range']
    rfl
  rw [h1, forRange_append, Nat.sub_zero, ← List.range_eq_range', List.nil_append, Spec.cells, List.flatMap_assoc]
  simp only [List.flatMap_map]

/-- Index of the vertex in row `p.1` and column `p.2` of a row-major grid with `c` columns. -/
def Spec.gridId (c : Nat) (p : Nat × Nat) : Nat := p.1 * c + p.2

theorem gridId_lt {r c : Nat} {p : Nat × Nat} (h1 : p.1 < r) (h2 : p.2 < c) : Spec.gridId c p < r * c := by
  unfold Spec.gridId
  have : (p.1 + 1) * c ≤ r * c := Nat.mul_le_mul_right c h1
  rw [Nat.add_mul] at this
  omega

theorem gridId_inj {c : Nat} {p q : Nat × Nat} (hp : p.2 < c) (hq : q.2 < c)
    (h : Spec.gridId c p = Spec.gridId c q) : p = q := by
  unfold Spec.gridId at h
  have hc : 0 < c := by omega
  have e1 : p.1 = q.1 := by
    have := congrArg (· / c) h
    simpa [Nat.mul_comm _ c, Nat.mul_add_div hc, Nat.div_eq_of_lt hp, Nat.div_eq_of_lt hq] using this
  rw [e1] at h
  exact Prod.ext e1 (by omega)

/-- The directed edges of the two triangles of a cell, as pairs of grid positions. -/
def Spec.cellEdges (p : Nat × Nat) : List ((Nat × Nat) × (Nat × Nat)) :=
  [(p, (p.1 + 1, p.2)), ((p.1 + 1, p.2), (p.1, p.2 + 1)), ((p.1, p.2 + 1), p),
   ((p.1, p.2 + 1), (p.1 + 1, p.2)), ((p.1 + 1, p.2), (p.1 + 1, p.2 + 1)), ((p.1 + 1, p.2 + 1), (p.1, p.2 + 1))]

theorem cellTriangles_eq {r c : Nat} (hsz : r * c ≤ 2 ^ 32) {p : Nat × Nat} (hp : p ∈ Spec.cells r c) :
    cellTriangles c p.1 p.2 = [Spec.gridId c p, Spec.gridId c (p.1 + 1, p.2), Spec.gridId c (p.1, p.2 + 1),
      Spec.gridId c (p.1, p.2 + 1), Spec.gridId c (p.1 + 1, p.2), Spec.gridId c (p.1 + 1, p.2 + 1)] := by
  rw [mem_cells] at hp
  have key : ∀ q : Nat × Nat, q.1 < r → q.2 < c → asU32 (q.1 * c + q.2) = Spec.gridId c q := by
    intro q h1 h2
    have := gridId_lt h1 h2
    exact asU32_of_lt (by unfold Spec.gridId at this; omega)
  have e : ∀ i j, i * c + j + 1 = i * c + (j + 1) := fun i j => rfl
  simp only [cellTriangles, e]
  rw [key p (by omega) (by omega), key (p.1 + 1, p.2) (by simp; omega) (by simp; omega),
    key (p.1, p.2 + 1) (by simp; omega) (by simp; omega),
    key (p.1 + 1, p.2 + 1) (by simp; omega) (by simp; omega)]

theorem triEdges_flatMap {β : Type} (l : List β) (f : β → List Nat) (hf : ∀ b ∈ l, (f b).length = 6) :
    Spec.triEdges (l.flatMap f) = l.flatMap fun b => Spec.triEdges (f b) := by
  induction l with
  | nil => rfl
  | cons b l ih =>
    rw [List.flatMap_cons, List.flatMap_cons, triEdges_append _ 2 (hf b (List.mem_cons_self ..)),
      ih fun x hx => hf x (List.mem_cons_of_mem _ hx)]

/-- The grid edges in terms of positions. -/
def Spec.gridEdges (r c : Nat) : List ((Nat × Nat) × (Nat × Nat)) := (Spec.cells r c).flatMap Spec.cellEdges

theorem triEdges_createTriangles {g : Grid α} (hr : 1 ≤ g.rows) (hc : 1 ≤ g.cols) (hsz : g.rows * g.cols ≤ 2 ^ 32) :
    ∃ T, createTriangles g = .ok T ∧
      Spec.triEdges T = (Spec.gridEdges g.rows g.cols).map fun e => (Spec.gridId g.cols e.1, Spec.gridId g.cols e.2) := by
  refine ⟨_, createTriangles_eq hr hc, ?_⟩
  rw [triEdges_flatMap _ _ fun b _ => rfl, Spec.gridEdges, List.map_flatMap]
  apply List.flatMap_congr
  intro p hp
  rw [cellTriangles_eq hsz hp]
  rfl

theorem mem_gridEdges {r c : Nat} {p q : Nat × Nat} :
    (p, q) ∈ Spec.gridEdges r c ↔
      (q = (p.1 + 1, p.2) ∧ p.1 + 1 < r ∧ p.2 + 1 < c) ∨
      (p = (q.1 + 1, q.2) ∧ q.1 + 1 < r ∧ q.2 < c ∧ 1 ≤ q.2) ∨
      (p = (q.1, q.2 + 1) ∧ q.1 + 1 < r ∧ q.2 + 1 < c) ∨
      (q = (p.1, p.2 + 1) ∧ p.1 < r ∧ 1 ≤ p.1 ∧ p.2 + 1 < c) ∨
      (p.1 = q.1 + 1 ∧ q.2 = p.2 + 1 ∧ p.1 < r ∧ q.2 < c) ∨
      (q.1 = p.1 + 1 ∧ p.2 = q.2 + 1 ∧ q.1 < r ∧ p.2 < c) := by
  obtain ⟨a, b⟩ := p
  obtain ⟨a', b'⟩ := q
  simp only [Spec.gridEdges, List.mem_flatMap, Spec.cellEdges, List.mem_cons, List.not_mem_nil, or_false, mem_cells,
    Prod.mk.injEq]
  constructor
  · rintro ⟨⟨i, j⟩, h, h'⟩
    simp only [Prod.mk.injEq] at h h'
    rcases h' with h' | h' | h' | h' | h' | h'
    · left; omega
    · right; right; right; right; left; omega
    · right; right; left; omega
    · right; right; right; right; right; omega
    · right; right; right; left; omega
    · right; left; omega
  · rintro (h | h | h | h | h | h)
    · exact ⟨(a, b), by simp only; omega, by left; simp only [Prod.mk.injEq, true_and, and_true]; omega⟩
    · exact ⟨(a', b - 1), by simp only; omega, by right; right; right; right; right; simp only [Prod.mk.injEq, true_and, and_true]; omega⟩
    · exact ⟨(a, b'), by simp only; omega, by right; right; left; simp only [Prod.mk.injEq, true_and, and_true]; omega⟩
    · exact ⟨(a - 1, b), by simp only; omega, by right; right; right; right; left; simp only [Prod.mk.injEq, true_and, and_true]; omega⟩
    · exact ⟨(a', b), by simp only; omega, by right; left; simp only [Prod.mk.injEq, true_and, and_true]; omega⟩
    · exact ⟨(a, b'), by simp only; omega, by right; right; right; left; simp only [Prod.mk.injEq, true_and, and_true]; omega⟩

theorem gridEdges_nodup (r c : Nat) : (Spec.gridEdges r c).Nodup := by
  unfold Spec.gridEdges
  rw [List.nodup_flatMap]
  constructor
  · rintro ⟨i, j⟩ _
    simp [Spec.cellEdges]
  · apply (cells_nodup r c).imp
    rintro ⟨i, j⟩ ⟨i', j'⟩ hab ⟨⟨a, b⟩, ⟨a', b'⟩⟩ hx hy
    simp only [Spec.cellEdges, List.mem_cons, List.not_mem_nil, or_false, Prod.mk.injEq] at hx hy
    apply hab
    simp only [Prod.mk.injEq]
    omega

theorem gridEdges_valid {r c : Nat} {e : (Nat × Nat) × (Nat × Nat)} (h : e ∈ Spec.gridEdges r c) :
    e.1.1 < r ∧ e.1.2 < c ∧ e.2.1 < r ∧ e.2.2 < c := by
  obtain ⟨⟨a, b⟩, ⟨a', b'⟩⟩ := e
  rw [mem_gridEdges] at h
  simp only [Prod.mk.injEq] at h ⊢
  omega

/-- An edge of the triangulated grid between two positions: vertical, horizontal or (falling to the left)
diagonal neighbours, listed from the upper or left end. -/
def Spec.IsGridEdge (r c : Nat) (p q : Nat × Nat) : Prop :=
  (p.1 < r ∧ p.2 < c ∧ q.1 < r ∧ q.2 < c) ∧
    ((q.1 = p.1 + 1 ∧ q.2 = p.2) ∨ (q.1 = p.1 ∧ q.2 = p.2 + 1) ∨ (q.1 = p.1 + 1 ∧ q.2 + 1 = p.2))

/-- A vertical edge in the first or last column or a horizontal edge in the first or last row. -/
def Spec.OnRim (r c : Nat) (p q : Nat × Nat) : Prop :=
  (p.2 = q.2 ∧ (p.2 = 0 ∨ p.2 + 1 = c)) ∨ (p.1 = q.1 ∧ (p.1 = 0 ∨ p.1 + 1 = r))

/-- **C43** (size): `6 (r-1) (c-1)` indices, all of them vertices. -/
theorem C43_size {g : Grid α} (hr : 1 ≤ g.rows) (hc : 1 ≤ g.cols) (hsz : g.rows * g.cols ≤ 2 ^ 32) :
    ∃ T, createTriangles g = .ok T ∧ T.length = 6 * ((g.rows - 1) * (g.cols - 1)) ∧
      ∀ i ∈ T, i < g.rows * g.cols := by
  refine ⟨_, createTriangles_eq hr hc, ?_, ?_⟩
  · rw [List.length_flatMap]
    simp only [cellTriangles, List.length_cons, List.length_nil, List.map_const', List.sum_replicate, smul_eq_mul]
    rw [Spec.cells, List.length_flatMap]
    simp only [List.length_map, List.length_range, List.map_const', List.sum_replicate, smul_eq_mul]
    exact Nat.mul_comm _ _
  · intro i hi
    rw [List.mem_flatMap] at hi
    obtain ⟨p, hp, hi⟩ := hi
    rw [cellTriangles_eq hsz hp] at hi
    rw [mem_cells] at hp
    simp only [List.mem_cons, List.not_mem_nil, or_false] at hi
    rcases hi with rfl | rfl | rfl | rfl | rfl | rfl <;> exact gridId_lt (by first | omega | (simp only; omega)) (by first | omega | (simp only; omega))

/-- **C43** (manifold): no directed edge occurs twice; every directed edge belongs to an edge of the grid; an edge
inside the grid occurs in both directions and an edge on the rim in exactly one. -/
theorem C43_manifold {g : Grid α} (hr : 2 ≤ g.rows) (hc : 2 ≤ g.cols) (hsz : g.rows * g.cols ≤ 2 ^ 32) :
    ∃ T, createTriangles g = .ok T ∧ (Spec.triEdges T).Nodup ∧
      (∀ e ∈ Spec.triEdges T, ∃ p q, (Spec.IsGridEdge g.rows g.cols p q ∨ Spec.IsGridEdge g.rows g.cols q p) ∧
        e = (Spec.gridId g.cols p, Spec.gridId g.cols q)) ∧
      (∀ p q, Spec.IsGridEdge g.rows g.cols p q → ¬ Spec.OnRim g.rows g.cols p q →
        (Spec.gridId g.cols p, Spec.gridId g.cols q) ∈ Spec.triEdges T ∧
        (Spec.gridId g.cols q, Spec.gridId g.cols p) ∈ Spec.triEdges T) ∧
      (∀ p q, Spec.IsGridEdge g.rows g.cols p q → Spec.OnRim g.rows g.cols p q →
        Xor ((Spec.gridId g.cols p, Spec.gridId g.cols q) ∈ Spec.triEdges T)
          ((Spec.gridId g.cols q, Spec.gridId g.cols p) ∈ Spec.triEdges T)) := by
  obtain ⟨T, hT, hE⟩ := triEdges_createTriangles (g := g) (by omega) (by omega) hsz
  have hmem : ∀ p q : Nat × Nat, p.2 < g.cols → q.2 < g.cols →
      ((Spec.gridId g.cols p, Spec.gridId g.cols q) ∈ Spec.triEdges T ↔ (p, q) ∈ Spec.gridEdges g.rows g.cols) := by
    intro p q hp hq
    rw [hE, List.mem_map]
    constructor
    · rintro ⟨⟨p', q'⟩, h1, h2⟩
      have hv := gridEdges_valid h1
      simp only [Prod.mk.injEq] at h2 hv
      rw [← gridId_inj hv.2.1 hp h2.1, ← gridId_inj hv.2.2.2 hq h2.2]
      exact h1
    · intro h; exact ⟨(p, q), h, rfl⟩
  refine ⟨T, hT, ?_, ?_, ?_, ?_⟩
  · rw [hE]
    refine List.Nodup.map_on ?_ (gridEdges_nodup _ _)
    rintro ⟨p, q⟩ h1 ⟨p', q'⟩ h2 h
    have hv := gridEdges_valid h1
    have hv' := gridEdges_valid h2
    simp only [Prod.mk.injEq] at h hv hv'
    rw [gridId_inj hv.2.1 hv'.2.1 h.1, gridId_inj hv.2.2.2 hv'.2.2.2 h.2]
  · intro e he
    rw [hE, List.mem_map] at he
    obtain ⟨⟨⟨a, b⟩, ⟨a', b'⟩⟩, h1, rfl⟩ := he
    refine ⟨(a, b), (a', b'), ?_, rfl⟩
    rw [mem_gridEdges] at h1
    simp only [Prod.mk.injEq, Spec.IsGridEdge] at h1 ⊢
    rcases h1 with h1 | h1 | h1 | h1 | h1 | h1
    · left; omega
    · right; omega
    · right; omega
    · left; omega
    · right; omega
    · left; omega
  · rintro ⟨a, b⟩ ⟨a', b'⟩ h1 h2
    simp only [Spec.IsGridEdge, Spec.OnRim] at h1 h2
    rw [hmem _ _ h1.1.2.1 h1.1.2.2.2, hmem _ _ h1.1.2.2.2 h1.1.2.1, mem_gridEdges, mem_gridEdges]
    simp only [Prod.mk.injEq]
    obtain ⟨hv, h1 | h1 | h1⟩ := h1
    · constructor
      · left; omega
      · right; left; omega
    · constructor
      · right; right; right; left; omega
      · right; right; left; omega
    · constructor
      · right; right; right; right; right; omega
      · right; right; right; right; left; omega
  · rintro ⟨a, b⟩ ⟨a', b'⟩ h1 h2
    simp only [Spec.IsGridEdge, Spec.OnRim] at h1 h2
    rw [hmem _ _ h1.1.2.1 h1.1.2.2.2, hmem _ _ h1.1.2.2.2 h1.1.2.1, mem_gridEdges, mem_gridEdges]
    simp only [Prod.mk.injEq]
    rcases h2 with ⟨h2, h3 | h3⟩ | ⟨h2, h3 | h3⟩
    · left
      refine ⟨by left; omega, ?_⟩
      rintro (h | h | h | h | h | h) <;> omega
    · right
      refine ⟨by right; left; omega, ?_⟩
      rintro (h | h | h | h | h | h) <;> omega
    · right
      refine ⟨by right; right; left; omega, ?_⟩
      rintro (h | h | h | h | h | h) <;> omega
    · left
      refine ⟨by right; right; right; left; omega, ?_⟩
      rintro (h | h | h | h | h | h) <;> omega

/-- **C43** (rim): the boundary runs down the first column, along the last row, up the last column and back
along the first row. -/
theorem C43_rim {g : Grid α} (hr : 2 ≤ g.rows) (hc : 2 ≤ g.cols) (hsz : g.rows * g.cols ≤ 2 ^ 32) :
    ∃ T, createTriangles g = .ok T ∧
      (∀ i, i + 1 < g.rows → (Spec.gridId g.cols (i, 0), Spec.gridId g.cols (i + 1, 0)) ∈ Spec.triEdges T) ∧
      (∀ j, j + 1 < g.cols → (Spec.gridId g.cols (g.rows - 1, j), Spec.gridId g.cols (g.rows - 1, j + 1)) ∈
        Spec.triEdges T) ∧
      (∀ i, i + 1 < g.rows → (Spec.gridId g.cols (i + 1, g.cols - 1), Spec.gridId g.cols (i, g.cols - 1)) ∈
        Spec.triEdges T) ∧
      (∀ j, j + 1 < g.cols → (Spec.gridId g.cols (0, j + 1), Spec.gridId g.cols (0, j)) ∈ Spec.triEdges T) := by
  obtain ⟨T, hT, hE⟩ := triEdges_createTriangles (g := g) (by omega) (by omega) hsz
  have hmem : ∀ p q : Nat × Nat, (p, q) ∈ Spec.gridEdges g.rows g.cols →
      (Spec.gridId g.cols p, Spec.gridId g.cols q) ∈ Spec.triEdges T := by
    intro p q h
    rw [hE, List.mem_map]
    exact ⟨(p, q), h, rfl⟩
  refine ⟨T, hT, ?_, ?_, ?_, ?_⟩ <;> intro i hi <;> apply hmem <;> rw [mem_gridEdges]
  · left; exact ⟨rfl, by simp only; omega, by simp only; omega⟩
  · right; right; right; left; exact ⟨rfl, by simp only; omega, by simp only; omega, by simp only; omega⟩
  · right; left; exact ⟨rfl, by simp only; omega, by simp only; omega, by simp only; omega⟩
  · right; right; left; exact ⟨rfl, by simp only; omega, by simp only; omega⟩

/-- An empty grid makes `create_triangles` panic (`rows - 1` underflows). -/
theorem C43_empty_panics {g : Grid α} (h : g.rows = 0) : createTriangles g = .error .overflow := by
  unfold createTriangles
  rw [h, usub_err (by omega)]
  rfl

/-- A concrete case: a grid with 2 rows and 3 columns. -/
theorem C43_example : createTriangles (⟨[(), (), (), (), (), ()], 2, 3⟩ : Grid Unit)
    = .ok [0, 3, 1, 1, 3, 4, 1, 4, 2, 2, 4, 5] := by decide

end

/-! ### C47: reverse_winding_direction -/

section
variable {F : Type}

/-- `chunks(3)` of a list whose length is a multiple of three. -/
theorem chunks3_eq {α : Type} : ∀ {k : Nat} {l : List α}, l.length = 3 * k →
    chunks3 l = (Spec.triples l).map fun t => [t.1, t.2.1, t.2.2]
  | 0, l, h => by
    have : l = [] := List.length_eq_zero_iff.1 (by omega)
    subst this; rfl
  | k + 1, a :: b :: c :: l, h => by
    have := chunks3_eq (k := k) (l := l) (by simp at h; omega)
    simp [chunks3, Spec.triples, this]

theorem triples_flatten {α : Type} (ts : List (α × α × α)) :
    Spec.triples (ts.map fun t => [t.1, t.2.1, t.2.2]).flatten = ts := by
  induction ts with
  | nil => rfl
  | cons t ts ih => simp [Spec.triples, ih]

theorem flatten_triples {α : Type} : ∀ {k : Nat} {l : List α}, l.length = 3 * k →
    ((Spec.triples l).map fun t => [t.1, t.2.1, t.2.2]).flatten = l
  | 0, l, h => by
    have : l = [] := List.length_eq_zero_iff.1 (by omega)
    subst this; rfl
  | k + 1, a :: b :: c :: l, h => by
    have := flatten_triples (k := k) (l := l) (by simp at h; omega)
    simp [Spec.triples, this]

theorem triEdges_eq_triples : ∀ l : List Nat, Spec.triEdges l =
    (Spec.triples l).flatMap fun t => [(t.1, t.2.1), (t.2.1, t.2.2), (t.2.2, t.1)]
  | a :: b :: c :: l => by simp [Spec.triEdges, Spec.triples, triEdges_eq_triples l]
  | [] => rfl
  | [_] => rfl
  | [_, _] => rfl

theorem length_triples {α : Type} : ∀ {k : Nat} {l : List α}, l.length = 3 * k → (Spec.triples l).length = k
  | 0, l, h => by
    have : l = [] := List.length_eq_zero_iff.1 (by omega)
    subst this; rfl
  | k + 1, a :: b :: c :: l, h => by
    have := length_triples (k := k) (l := l) (by simp at h; omega)
    simp [Spec.triples, this]

theorem reverseWinding_eq {m : TriangleMesh F} {k : Nat} (h : m.triangles.length = 3 * k) :
    m.reverseWindingDirection = .ok { m with
      triangles := ((Spec.triples m.triangles).map fun t => [t.2.2, t.2.1, t.1]).flatten } := by
  unfold TriangleMesh.reverseWindingDirection
  rw [chunks3_eq h, mapM_pure (g := List.reverse)]
  · simp only [List.map_map, ok_bind, pure_eq_ok]
    rfl
  · simp only [List.mem_map]
    rintro _ ⟨⟨a, b, c⟩, _, rfl⟩
    rfl

/-- **C47**: on a list of `k` triangles it keeps vertices, normals and the number of triangles, reverses each
triangle, and turns every directed edge around. -/
theorem C47_reverse {m : TriangleMesh F} {k : Nat} (h : m.triangles.length = 3 * k) :
    ∃ m', m.reverseWindingDirection = .ok m' ∧ m'.vertices = m.vertices ∧ m'.normals = m.normals ∧
      m'.triangleCount = m.triangleCount ∧ m.triangleCount = k ∧ m'.triangles.length = 3 * k ∧
      Spec.triples m'.triangles = (Spec.triples m.triangles).map (fun t => (t.2.2, t.2.1, t.1)) ∧
      (Spec.triEdges m'.triangles).Perm ((Spec.triEdges m.triangles).map Prod.swap) := by
  have ht : Spec.triples (((Spec.triples m.triangles).map fun t => [t.2.2, t.2.1, t.1]).flatten)
      = (Spec.triples m.triangles).map (fun t => (t.2.2, t.2.1, t.1)) := by
    rw [← triples_flatten ((Spec.triples m.triangles).map (fun t => (t.2.2, t.2.1, t.1)))]
    congr 2
    simp
  have hl : (((Spec.triples m.triangles).map fun t => [t.2.2, t.2.1, t.1]).flatten).length = 3 * k := by
    rw [List.length_flatten, List.map_map]
    have : (List.length ∘ fun t : Nat × Nat × Nat => [t.2.2, t.2.1, t.1]) = fun _ => 3 := by funext t; rfl
    rw [this]
    simp [length_triples h, Nat.mul_comm]
  refine ⟨_, reverseWinding_eq h, rfl, rfl, ?_, ?_, hl, ht, ?_⟩
  · simp only [TriangleMesh.triangleCount, hl, h]
  · simp only [TriangleMesh.triangleCount, h]; omega
  · simp only
    rw [triEdges_eq_triples, triEdges_eq_triples, ht, List.flatMap_map, List.map_flatMap]
    apply List.Perm.flatMap_left
    rintro ⟨a, b, c⟩ _
    simp only [List.map_cons, List.map_nil, Prod.swap_prod_mk]
    exact (List.Perm.swap _ _ _)

/-- **C47**: applying it twice is the identity. -/
theorem C47_involution {m : TriangleMesh F} {k : Nat} (h : m.triangles.length = 3 * k) :
    (m.reverseWindingDirection >>= fun m' => m'.reverseWindingDirection) = .ok m := by
  obtain ⟨m', h1, hv, hn, -, -, hl, ht, -⟩ := C47_reverse h
  rw [h1, ok_bind, reverseWinding_eq hl, ht]
  simp only [List.map_map]
  have : ((fun t : Nat × Nat × Nat => [t.2.2, t.2.1, t.1]) ∘ fun t : Nat × Nat × Nat => (t.2.2, t.2.1, t.1))
      = fun t => [t.1, t.2.1, t.2.2] := by funext t; rfl
  rw [this, flatten_triples h]
  cases m; cases m'
  simp_all

theorem chunks3_last {α : Type} : ∀ {k : Nat} {l : List α}, l.length % 3 = k → k ≠ 0 →
    ∃ t ∈ chunks3 l, t.length = k
  | k, a :: b :: c :: l, h, hk => by
    obtain ⟨t, ht, hl⟩ := chunks3_last (k := k) (l := l) (by simp at h; omega) hk
    exact ⟨t, by rw [chunks3]; exact List.mem_cons_of_mem _ ht, hl⟩
  | k, [], h, hk => by simp at h; omega
  | k, [a], h, hk => ⟨[a], by simp [chunks3], by simpa using h⟩
  | k, [a, b], h, hk => ⟨[a, b], by simp [chunks3], by simpa using h⟩

theorem mapM_error_mem {α β : Type} {f : α → Res β} {l : List α} {e : Panic}
    (hf : ∀ a ∈ l, ∀ e', f a = .error e' → e' = e) {a : α} (ha : a ∈ l) (h : f a = .error e) :
    l.mapM f = .error e := by
  induction l with
  | nil => simp at ha
  | cons x l ih =>
    rw [mapM_cons]
    rcases List.mem_cons.1 ha with rfl | ha
    · rw [h]; rfl
    · cases hx : f x with
      | error e' => rw [hf x (List.mem_cons_self ..) e' hx]; rfl
      | ok b =>
        rw [ok_bind, ih (fun y hy => hf y (List.mem_cons_of_mem _ hy)) ha]
        rfl

/-- **C47**: an index list that is not made of triples makes it panic. -/
theorem C47_panics {m : TriangleMesh F} (h : m.triangles.length % 3 ≠ 0) :
    m.reverseWindingDirection = .error .index := by
  unfold TriangleMesh.reverseWindingDirection
  obtain ⟨t, ht, hl⟩ := chunks3_last (l := m.triangles) rfl h
  have hf : ∀ a e', reverseChunk a = .error e' → e' = .index := by
    intro a e' h
    unfold reverseChunk idx at h
    rcases h0 : a[0]? with _ | a0 <;> rcases h1 : a[1]? with _ | a1 <;> rcases h2 : a[2]? with _ | a2 <;>
      simp [h0, h1, h2] at h <;> exact h.symm
  have ht2 : reverseChunk t = .error .index := by
    unfold reverseChunk
    rw [idx_err (by omega)]; rfl
  rw [mapM_error_mem (fun a _ => hf a) ht ht2]
  rfl

/-- A concrete case: two triangles sharing an edge. -/
theorem C47_example : (⟨[], [], [0, 1, 2, 2, 1, 3]⟩ : TriangleMesh ℚ).reverseWindingDirection
    = .ok ⟨[], [], [2, 1, 0, 3, 1, 2]⟩ := by decide

end

/-! ### C48: OBJ output -/

section
variable {F : Type}

/-- Reader of OBJ files: state is the vertices and normals read so far and the faces, each corner resolved to its
position and normal by 1-based numbering over the whole file. -/
structure Spec.ObjFile (F : Type) where
  vs : List (V3 F)
  ns : List (V3 F)
  faces : List (List (Option (V3 F) × Option (V3 F)))

/-- 1-based lookup. -/
def Spec.lookup1 {α : Type} (l : List α) (n : Nat) : Option α := if n = 0 then none else l[n - 1]?

/-- Effect of one line. -/
def Spec.objLine (s : Spec.ObjFile F) : ObjLine F → Spec.ObjFile F
  | .v p => { s with vs := s.vs ++ [p] }
  | .vn n => { s with ns := s.ns ++ [n] }
  | .f corners => { s with faces := s.faces ++
      [corners.map fun c => (Spec.lookup1 s.vs c.1, c.2.bind (Spec.lookup1 s.ns))] }

/-- Reading a whole file. -/
def Spec.objRead (lines : List (ObjLine F)) : Spec.ObjFile F := lines.foldl Spec.objLine ⟨[], [], []⟩

/-- The triangles of a mesh as corner positions and normals. -/
def Spec.meshFaces (m : TriangleMesh F) : List (List (Option (V3 F) × Option (V3 F))) :=
  (Spec.triples m.triangles).map fun t =>
    [(m.vertices[t.1]?, m.normals[t.1]?), (m.vertices[t.2.1]?, m.normals[t.2.1]?),
     (m.vertices[t.2.2]?, m.normals[t.2.2]?)]

/-- A mesh with triples of valid indices and either no normals or one per vertex. -/
structure Spec.ValidMesh (m : TriangleMesh F) : Prop where
  triples : m.triangles.length % 3 = 0
  index : ∀ i ∈ m.triangles, i < m.vertices.length
  normals : m.normals = [] ∨ m.normals.length = m.vertices.length

theorem mem_triples {α : Type} : ∀ {l : List α} {t : α × α × α}, t ∈ Spec.triples l → t.1 ∈ l ∧ t.2.1 ∈ l ∧ t.2.2 ∈ l
  | a :: b :: c :: l, t, h => by
    rw [Spec.triples, List.mem_cons] at h
    rcases h with rfl | h
    · simp
    · obtain ⟨h1, h2, h3⟩ := mem_triples h
      simp [h1, h2, h3]
  | [], _, h => by simp [Spec.triples] at h
  | [_], _, h => by simp [Spec.triples] at h
  | [_, _], _, h => by simp [Spec.triples] at h

/-- Corner of a face line, without the overflow checks. -/
def Spec.corner (normals : Bool) (vs ns i : Nat) : Nat × Option Nat := (i + vs, if normals then some (i + ns) else none)

theorem objFace_eq {nb : Bool} {vs ns : Nat} {a b c : Nat} (ha : a + vs < 2 ^ 32) (hb : b + vs < 2 ^ 32)
    (hc : c + vs < 2 ^ 32) (hn : nb = true → a + ns < 2 ^ 32 ∧ b + ns < 2 ^ 32 ∧ c + ns < 2 ^ 32) :
    objFace (F := F) nb vs ns [a, b, c] = .ok (.f [Spec.corner nb vs ns a, Spec.corner nb vs ns b,
      Spec.corner nb vs ns c]) := by
  have key : ∀ i, i + vs < 2 ^ 32 → (nb = true → i + ns < 2 ^ 32) →
      objCorner nb vs ns i = .ok (Spec.corner nb vs ns i) := by
    intro i h1 h2
    unfold objCorner uadd32
    rw [if_pos h1, ok_bind]
    cases nb with
    | true => rw [if_pos (h2 rfl)]; rfl
    | false => simp [Spec.corner]
  unfold objFace
  simp only [idx, List.getElem?_cons_zero, List.getElem?_cons_succ, ok_bind, key a ha fun h => (hn h).1,
    key b hb fun h => (hn h).2.1, key c hc fun h => (hn h).2.2, pure_eq_ok]

theorem writeObj_eq {m : TriangleMesh F} (hm : Spec.ValidMesh m) {vs ns : Nat}
    (hv : vs + m.vertices.length < 2 ^ 32) (hn : ns + m.normals.length < 2 ^ 32) :
    m.writeObj vs ns = .ok (m.vertices.map .v ++ m.normals.map .vn ++ (Spec.triples m.triangles).map fun t =>
      .f [Spec.corner (!m.normals.isEmpty) vs ns t.1, Spec.corner (!m.normals.isEmpty) vs ns t.2.1,
        Spec.corner (!m.normals.isEmpty) vs ns t.2.2]) := by
  obtain ⟨k, hk⟩ : ∃ k, m.triangles.length = 3 * k := ⟨m.triangles.length / 3, by have := hm.triples; omega⟩
  unfold TriangleMesh.writeObj
  rw [chunks3_eq hk]
  have : ((Spec.triples m.triangles).map fun t => [t.1, t.2.1, t.2.2]).mapM
      (objFace (F := F) (!m.normals.isEmpty) vs ns) = .ok ((Spec.triples m.triangles).map fun t =>
      .f [Spec.corner (!m.normals.isEmpty) vs ns t.1, Spec.corner (!m.normals.isEmpty) vs ns t.2.1,
        Spec.corner (!m.normals.isEmpty) vs ns t.2.2]) := by
    rw [show (Spec.triples m.triangles).map (fun t => (ObjLine.f [Spec.corner (!m.normals.isEmpty) vs ns t.1,
        Spec.corner (!m.normals.isEmpty) vs ns t.2.1, Spec.corner (!m.normals.isEmpty) vs ns t.2.2] : ObjLine F))
      = ((Spec.triples m.triangles).map fun t => [t.1, t.2.1, t.2.2]).map fun l =>
        .f (l.map (Spec.corner (!m.normals.isEmpty) vs ns)) by simp]
    apply mapM_pure
    simp only [List.mem_map]
    rintro _ ⟨⟨a, b, c⟩, ht, rfl⟩
    obtain ⟨h1, h2, h3⟩ := mem_triples ht
    have := hm.index _ h1
    have := hm.index _ h2
    have := hm.index _ h3
    rw [objFace_eq (by simp at *; omega) (by simp at *; omega) (by simp at *; omega)]
    · simp
    · intro h
      rcases hm.normals with h' | h'
      · simp [h'] at h
      · simp only at *; omega
  rw [this]
  rfl

theorem foldl_v (s : Spec.ObjFile F) (l : List (V3 F)) :
    (l.map ObjLine.v).foldl Spec.objLine s = { s with vs := s.vs ++ l } := by
  induction l generalizing s with
  | nil => simp
  | cons a l ih => simp [ih, Spec.objLine]

theorem foldl_vn (s : Spec.ObjFile F) (l : List (V3 F)) :
    (l.map ObjLine.vn).foldl Spec.objLine s = { s with ns := s.ns ++ l } := by
  induction l generalizing s with
  | nil => simp
  | cons a l ih => simp [ih, Spec.objLine]

theorem foldl_f (s : Spec.ObjFile F) (l : List (List (Nat × Option Nat))) :
    (l.map ObjLine.f).foldl Spec.objLine s = { s with faces := s.faces ++ l.map (fun corners =>
      corners.map fun c => (Spec.lookup1 s.vs c.1, c.2.bind (Spec.lookup1 s.ns))) } := by
  induction l generalizing s with
  | nil => simp
  | cons a l ih => simp [ih, Spec.objLine]

theorem lookup1_append {α : Type} (l l' : List α) (i : Nat) : Spec.lookup1 (l ++ l') (i + (l.length + 1)) = l'[i]? := by
  unfold Spec.lookup1
  rw [if_neg (by omega), show i + (l.length + 1) - 1 = l.length + i by omega,
    List.getElem?_append_right (by omega), Nat.add_sub_cancel_left]

/-- The lines of one mesh, read after files that already contain `vs` and `ns`, resolve to its triangles. -/
theorem read_writeObj {m : TriangleMesh F} (hm : Spec.ValidMesh m) (s : Spec.ObjFile F)
    (hv : s.vs.length + 1 + m.vertices.length < 2 ^ 32) (hn : s.ns.length + 1 + m.normals.length < 2 ^ 32) :
    ∃ lines, m.writeObj (s.vs.length + 1) (s.ns.length + 1) = .ok lines ∧
      lines.foldl Spec.objLine s = ⟨s.vs ++ m.vertices, s.ns ++ m.normals, s.faces ++ Spec.meshFaces m⟩ := by
  refine ⟨_, writeObj_eq hm hv hn, ?_⟩
  rw [List.foldl_append, List.foldl_append, foldl_v, foldl_vn]
  rw [show (Spec.triples m.triangles).map (fun t => (ObjLine.f [Spec.corner (!m.normals.isEmpty) (s.vs.length + 1)
      (s.ns.length + 1) t.1, Spec.corner (!m.normals.isEmpty) (s.vs.length + 1) (s.ns.length + 1) t.2.1,
      Spec.corner (!m.normals.isEmpty) (s.vs.length + 1) (s.ns.length + 1) t.2.2] : ObjLine F))
    = ((Spec.triples m.triangles).map fun t => [Spec.corner (!m.normals.isEmpty) (s.vs.length + 1)
      (s.ns.length + 1) t.1, Spec.corner (!m.normals.isEmpty) (s.vs.length + 1) (s.ns.length + 1) t.2.1,
      Spec.corner (!m.normals.isEmpty) (s.vs.length + 1) (s.ns.length + 1) t.2.2]).map ObjLine.f by simp, foldl_f]
  simp only [List.map_map, Spec.meshFaces]
  congr 2
  have key : ∀ i, i ∈ m.triangles →
      ((Spec.lookup1 (s.vs ++ m.vertices) (Spec.corner (!m.normals.isEmpty) (s.vs.length + 1) (s.ns.length + 1) i).1,
        (Spec.corner (!m.normals.isEmpty) (s.vs.length + 1) (s.ns.length + 1) i).2.bind
          (Spec.lookup1 (s.ns ++ m.normals))) : Option (V3 F) × Option (V3 F)) = (m.vertices[i]?, m.normals[i]?) := by
    intro i hi
    simp only [Spec.corner, lookup1_append]
    congr 1
    rcases hm.normals with h | h
    · simp [h]
    · have hne : m.normals.isEmpty = false := by
        have := hm.index i hi
        cases hm' : m.normals with
        | nil => rw [hm'] at h; simp at h; omega
        | cons => rfl
      simp only [hne, Bool.not_false, if_true, Option.bind_some, lookup1_append]
  apply List.map_congr_left
  intro t ht
  obtain ⟨h1, h2, h3⟩ := mem_triples ht
  simp only [Function.comp_apply, List.map_cons, List.map_nil, key _ h1, key _ h2, key _ h3]

/-- **C48**: the file written for any list of valid meshes resolves, face by face and triangle by triangle, to the
corner positions and normals of the meshes. -/
theorem C48_obj (meshes : List (TriangleMesh F)) (hm : ∀ m ∈ meshes, Spec.ValidMesh m)
    (hsz : (meshes.map fun m => m.vertices.length).sum + 1 < 2 ^ 32) :
    ∃ lines, saveAsObj meshes = .ok lines ∧
      (Spec.objRead lines).faces = meshes.flatMap Spec.meshFaces ∧
      (Spec.objRead lines).vs = meshes.flatMap (·.vertices) ∧
      (Spec.objRead lines).ns = meshes.flatMap (·.normals) := by
  have key : ∀ (meshes : List (TriangleMesh F)) (L : List (ObjLine F)), (∀ m ∈ meshes, Spec.ValidMesh m) →
      (Spec.objRead L).ns.length ≤ (Spec.objRead L).vs.length →
      (meshes.map fun m => m.vertices.length).sum + (Spec.objRead L).vs.length + 1 < 2 ^ 32 →
      ∃ lines a b, meshes.foldlM (fun (st : List (ObjLine F) × Nat × Nat) mesh => (do
        let lines ← mesh.writeObj st.2.1 st.2.2
        let vertexStart ← uadd32 st.2.1 (asU32 mesh.vertices.length)
        let normalStart ← uadd32 st.2.2 (asU32 mesh.normals.length)
        pure (st.1 ++ lines, vertexStart, normalStart) : Res (List (ObjLine F) × Nat × Nat)))
        (L, (Spec.objRead L).vs.length + 1, (Spec.objRead L).ns.length + 1) = .ok (lines, a, b) ∧
      (Spec.objRead lines).faces = (Spec.objRead L).faces ++ meshes.flatMap Spec.meshFaces ∧
      (Spec.objRead lines).vs = (Spec.objRead L).vs ++ meshes.flatMap (·.vertices) ∧
      (Spec.objRead lines).ns = (Spec.objRead L).ns ++ meshes.flatMap (·.normals) := by
    intro meshes
    induction meshes with
    | nil => intro L _ _ _; exact ⟨L, _, _, rfl, by simp⟩
    | cons m meshes ih =>
      intro L hm hle hsz
      have hvm := hm m (List.mem_cons_self ..)
      simp only [List.map_cons, List.sum_cons] at hsz
      have hnl : m.normals.length ≤ m.vertices.length := by
        rcases hvm.normals with h | h
        · simp [h]
        · omega
      obtain ⟨lines, h1, h2⟩ := read_writeObj hvm (Spec.objRead L) (by omega) (by omega)
      have hr : Spec.objRead (L ++ lines) = ⟨(Spec.objRead L).vs ++ m.vertices, (Spec.objRead L).ns ++ m.normals,
          (Spec.objRead L).faces ++ Spec.meshFaces m⟩ := by
        rw [← h2]; unfold Spec.objRead; rw [List.foldl_append]
      obtain ⟨lines', a, b, h3, h4, h5, h6⟩ := ih (L ++ lines) (fun x hx => hm x (List.mem_cons_of_mem _ hx))
        (by rw [hr]; simp only [List.length_append]; omega) (by rw [hr]; simp only [List.length_append]; omega)
      refine ⟨lines', a, b, ?_, ?_, ?_, ?_⟩
      · rw [List.foldlM_cons]
        simp only [h1, ok_bind, asU32_of_lt (show m.vertices.length < 2 ^ 32 by omega),
          asU32_of_lt (show m.normals.length < 2 ^ 32 by omega), uadd32,
          if_pos (show (Spec.objRead L).vs.length + 1 + m.vertices.length < 2 ^ 32 by omega),
          if_pos (show (Spec.objRead L).ns.length + 1 + m.normals.length < 2 ^ 32 by omega), pure_eq_ok]
        rw [hr] at h3
        simp only [List.length_append] at h3
        rw [show (Spec.objRead L).vs.length + 1 + m.vertices.length
            = (Spec.objRead L).vs.length + m.vertices.length + 1 by omega,
          show (Spec.objRead L).ns.length + 1 + m.normals.length
            = (Spec.objRead L).ns.length + m.normals.length + 1 by omega]
        exact h3
      · rw [h4, hr]; simp
      · rw [h5, hr]; simp
      · rw [h6, hr]; simp
  obtain ⟨lines, a, b, h1, h2, h3, h4⟩ := key meshes [] hm (by simp [Spec.objRead])
    (by simpa [Spec.objRead] using hsz)
  refine ⟨lines, ?_, ?_, ?_, ?_⟩
  · unfold saveAsObj
    have : (([] : List (ObjLine F)), 1, 1) = (([] : List (ObjLine F)), (Spec.objRead ([] : List (ObjLine F))).vs.length + 1,
      (Spec.objRead ([] : List (ObjLine F))).ns.length + 1) := rfl
    rw [this, h1]
    rfl
  · simpa [Spec.objRead] using h2
  · simpa [Spec.objRead] using h3
  · simpa [Spec.objRead] using h4

/-- Every corner position resolves. -/
theorem C48_resolved {m : TriangleMesh F} (hm : Spec.ValidMesh m) {f : List (Option (V3 F) × Option (V3 F))}
    (hf : f ∈ Spec.meshFaces m) : ∀ c ∈ f, c.1.isSome := by
  simp only [Spec.meshFaces, List.mem_map] at hf
  obtain ⟨t, ht, rfl⟩ := hf
  obtain ⟨h1, h2, h3⟩ := mem_triples ht
  have h1 := hm.index _ h1
  have h2 := hm.index _ h2
  have h3 := hm.index _ h3
  simp [h1, h2, h3]

/-- A concrete case: two meshes, the first with normals, the second without. -/
theorem C48_example : saveAsObj
    [(⟨[⟨0, 0, 0⟩, ⟨1, 0, 0⟩, ⟨0, 1, 0⟩], [⟨0, 0, 1⟩, ⟨0, 0, 1⟩, ⟨0, 0, 1⟩], [0, 1, 2]⟩ : TriangleMesh ℚ),
     ⟨[⟨0, 0, 5⟩, ⟨1, 0, 5⟩, ⟨0, 1, 5⟩], [], [2, 1, 0]⟩]
    = .ok [.v ⟨0, 0, 0⟩, .v ⟨1, 0, 0⟩, .v ⟨0, 1, 0⟩, .vn ⟨0, 0, 1⟩, .vn ⟨0, 0, 1⟩, .vn ⟨0, 0, 1⟩,
      .f [(1, some 1), (2, some 2), (3, some 3)], .v ⟨0, 0, 5⟩, .v ⟨1, 0, 5⟩, .v ⟨0, 1, 5⟩,
      .f [(6, none), (5, none), (4, none)]] := by
  rfl

end

end Geom3d
