import Verif.Model.Surface
import Verif.Model.Instances
import Verif.Props.Mesh
import Verif.Props.Utils

/-! # C44, C45, C46: meshes of surface patches (any arithmetic) -/

set_option linter.unusedSectionVars false

namespace Geom3d

section
variable {F : Type} [Add F] [Sub F] [Mul F] [Div F] [Neg F] [Zero F] [One F] [NatCast F] [LT F] [DecidableLT F]
  [LE F] [DecidableLE F] [Env F]

/-! ### C44: vertices and triangles -/

theorem getElem?_flatMap_const {α β : Type} (l : List α) (f : α → List β) (n : Nat) (hn : ∀ a, (f a).length = n)
    {i j : Nat} {a : α} (hi : l[i]? = some a) (hj : j < n) : (l.flatMap f)[i * n + j]? = (f a)[j]? := by
  induction l generalizing i with
  | nil => simp at hi
  | cons b l ih =>
    rw [List.flatMap_cons]
    cases i with
    | zero =>
      simp only [List.getElem?_cons_zero, Option.some.injEq] at hi
      subst hi
      rw [List.getElem?_append_left (by rw [hn]; omega)]
      simp
    | succ i =>
      simp only [List.getElem?_cons_succ] at hi
      rw [List.getElem?_append_right (by rw [hn]; nlinarith), hn]
      have : (i + 1) * n + j - n = i * n + j := by rw [Nat.succ_mul]; omega
      rw [this, ih hi]

theorem length_gridParams (us vs : List F) : (gridParams us vs).length = us.length * vs.length := by
  simp [gridParams, List.length_flatMap]

theorem getElem?_gridParams {us vs : List F} {i j : Nat} {u v : F} (hu : us[i]? = some u) (hv : vs[j]? = some v) :
    (gridParams us vs)[i * vs.length + j]? = some ⟨u, v⟩ := by
  have hj : j < vs.length := (List.getElem?_eq_some_iff.1 hv).1
  unfold gridParams
  rw [getElem?_flatMap_const us _ vs.length (by simp) hu hj, List.getElem?_map, hv]
  rfl

theorem fromVec_ok {α : Type} {l : List α} {r c : Nat} (hl : l.length = (r + 1) * (c + 1)) :
    Grid.fromVec l (c + 1) = .ok ⟨l, r + 1, c + 1⟩ := by
  unfold Grid.fromVec
  rw [if_neg (by rw [hl]; positivity), if_neg (by omega), if_neg (by rw [hl]; simp), hl,
    Nat.mul_div_cancel _ (by omega)]

/-- The samples: `us`, `vs` are the divisions of the two ranges, and entry `i * vs.length + j` of `pts` is the point
of the surface at `(us[i], vs[j])`. -/
structure Spec.Samples (s : Surface F) (range : (F × F) × (F × F)) (m n : Nat) (pts : List (V3 F)) (us vs : List F) :
    Prop where
  usDef : uniformDivide range.1 m = .ok us
  vsDef : uniformDivide range.2 n = .ok vs
  usLength : us.length = m + 1
  vsLength : vs.length = n + 1
  first : us[0]? = some range.1.1 ∧ vs[0]? = some range.2.1
  last : us[m]? = some range.1.2 ∧ vs[n]? = some range.2.2
  length : pts.length = (m + 1) * (n + 1)
  at_ : ∀ i j u v, us[i]? = some u → vs[j]? = some v →
    ∃ p, s.getPoint u v = .ok p ∧ pts[i * (n + 1) + j]? = some p

theorem uniformDivide_eq_ok {range : F × F} {d : Nat} {l : List F} (h : uniformDivide range d = .ok l) :
    1 ≤ d ∧ l.length = d + 1 ∧ l[0]? = some range.1 ∧ l[d]? = some range.2 := by
  by_cases hd : 1 ≤ d
  · obtain ⟨l', h1, h2, h3, h4⟩ := C28_ends range hd
    rw [h1] at h; cases h
    refine ⟨hd, h2, by rw [← h3, List.head?_eq_getElem?], ?_⟩
    rw [← h4, List.getLast?_eq_getElem?, h2]; rfl
  · have : d = 0 := by omega
    subst this; rw [C28_zero_panics] at h; cases h

theorem samples_of_mapM {s : Surface F} {range : (F × F) × (F × F)} {m n : Nat} {pts : List (V3 F)} {us vs : List F}
    (h1 : uniformDivide range.1 m = .ok us) (h2 : uniformDivide range.2 n = .ok vs)
    (h3 : ((gridParams us vs).mapM fun q => s.getPoint q.x q.y) = .ok pts) : Spec.Samples s range m n pts us vs := by
  obtain ⟨hm, hul, hu0, hum⟩ := uniformDivide_eq_ok h1
  obtain ⟨hn, hvl, hv0, hvn⟩ := uniformDivide_eq_ok h2
  have h4 := of_mapM_ok h3
  refine ⟨h1, h2, hul, hvl, ⟨hu0, hv0⟩, ⟨hum, hvn⟩, ?_, ?_⟩
  · rw [← h4.length_eq, length_gridParams, hul, hvl]
  · intro i j u v hu hv
    have := getElem?_gridParams hu hv
    rw [hvl] at this
    obtain ⟨p, hp, hq⟩ := forall₂_getElem? h4 this
    exact ⟨p, hq, hp⟩

theorem getTriangleMesh_eq_ok {p : SurfacePatch F} {mesh : TriangleMesh F} (h : p.getTriangleMesh = .ok mesh) :
    ∃ us vs N, Spec.Samples p.surface p.parameterRange p.parameterDivision.1 p.parameterDivision.2 mesh.vertices us vs ∧
      p.surface.getNormals (gridParams us vs) = .ok N ∧
      createTriangles (⟨mesh.vertices, p.parameterDivision.1 + 1, p.parameterDivision.2 + 1⟩ : Grid (V3 F))
        = .ok mesh.triangles ∧
      repairNormals (p.parameterDivision.1 + 1) (p.parameterDivision.2 + 1) N = .ok mesh.normals ∧
      p.getPointGrid = .ok ⟨mesh.vertices, p.parameterDivision.1 + 1, p.parameterDivision.2 + 1⟩ := by
  simp only [SurfacePatch.getTriangleMesh, bind_eq_ok, pure_eq_ok, Except.ok.injEq] at h
  obtain ⟨us, h1, vs, h2, pts, h3, N, h4, g, h5, T, h6, N', h7, rfl⟩ := h
  have hs := samples_of_mapM h1 h2 h3
  have hg := fromVec_ok hs.length
  rw [hg] at h5; cases h5
  refine ⟨us, vs, N, hs, h4, h6, h7, ?_⟩
  unfold SurfacePatch.getPointGrid
  rw [h1, ok_bind, h2, ok_bind]
  exact (by rw [SurfacePatch.getPoints] at h3; rw [h3, ok_bind, hg])

/-- **C44** The mesh of a patch with divisions `(m, n)`: its vertices are the samples of the surface on the parameter
grid, row by row, the same as those of `get_point_grid`; it has `2mn` triangles, and their indices are valid. -/
theorem C44_mesh {p : SurfacePatch F} {mesh : TriangleMesh F} (h : p.getTriangleMesh = .ok mesh) {m n : Nat}
    (hd : p.parameterDivision = (m, n)) :
    (∃ us vs, Spec.Samples p.surface p.parameterRange m n mesh.vertices us vs) ∧
    p.getPointGrid = .ok ⟨mesh.vertices, m + 1, n + 1⟩ ∧
    mesh.vertices.length = (m + 1) * (n + 1) ∧
    mesh.triangles.length = 3 * (2 * (m * n)) ∧ mesh.triangleCount = 2 * (m * n) ∧
    ((m + 1) * (n + 1) ≤ 2 ^ 32 → ∀ i ∈ mesh.triangles, i < mesh.vertices.length) := by
  obtain ⟨us, vs, N, hs, _, hT, _, hg⟩ := getTriangleMesh_eq_ok h
  rw [hd] at hs hT hg
  have hlen : mesh.triangles.length = 6 * (m * n) := by
    rw [createTriangles_eq (by simp) (by simp)] at hT
    rw [Except.ok.injEq] at hT
    rw [← hT, List.length_flatMap]
    simp only [cellTriangles, List.length_cons, List.length_nil, List.map_const', List.sum_replicate, smul_eq_mul]
    rw [Spec.cells, List.length_flatMap]
    simp only [List.length_map, List.length_range, List.map_const', List.sum_replicate, smul_eq_mul]
    exact Nat.mul_comm _ _
  refine ⟨⟨us, vs, hs⟩, hg, hs.length, by omega, by rw [TriangleMesh.triangleCount]; omega, ?_⟩
  intro hsz i hi
  obtain ⟨T, hT', _, hv⟩ := C43_size (g := ⟨mesh.vertices, m + 1, n + 1⟩) (by simp) (by simp) hsz
  rw [hT] at hT'; cases hT'
  rw [hs.length]
  exact hv i hi

/-! ### C45: repair of NaN normals -/

/-- The grid neighbours consulted for entry `i`, in order: above (already repaired), below (original), left (already
repaired), right (original). -/
def Spec.neighbours (rows cols : Nat) (orig final : List (V3 F)) (i : Nat) : List (V3 F) :=
  (if 0 < i / cols then final[i - cols]?.toList else []) ++
  (if i / cols + 1 < rows then orig[i + cols]?.toList else []) ++
  (if 0 < i % cols then final[i - 1]?.toList else []) ++
  (if i % cols + 1 < cols then orig[i + 1]?.toList else [])

/-- `final` is `orig` with each NaN entry replaced by its first neighbour that is not NaN, if there is one. -/
def Spec.Repaired (rows cols : Nat) (orig final : List (V3 F)) : Prop :=
  final.length = orig.length ∧
  ∀ (i : Nat) (n : V3 F), orig[i]? = some n →
    final[i]? = some (if n.isNaN then
      ((Spec.neighbours rows cols orig final i).find? fun a => !a.isNaN).getD n else n)

theorem findNeighbor_ok {normals : List (V3 F)} {cols : Nat} {l : List (Nat × Nat)} {vs : List (V3 F)}
    (h : List.Forall₂ (fun (p : Nat × Nat) v => normals[p.1 * cols + p.2]? = some v) l vs) :
    findNeighbor normals cols l = .ok (vs.find? fun a => !a.isNaN) := by
  induction h with
  | nil => rfl
  | @cons p v l vs hp _ ih =>
    obtain ⟨r, c⟩ := p
    rw [findNeighbor, idx_of_getElem? hp, ok_bind, ih, List.find?_cons]
    cases v.isNaN <;> rfl

theorem forall₂_append' {α β : Type} {R : α → β → Prop} {a a' : List α} {b b' : List β} (h1 : List.Forall₂ R a b)
    (h2 : List.Forall₂ R a' b') : List.Forall₂ R (a ++ a') (b ++ b') := List.rel_append h1 h2

/-- One step on a list of the right length. -/
theorem repairStep_ok {rows cols : Nat} {s : List (V3 F)} {i : Nat} (hl : s.length = rows * cols) {n : V3 F}
    (hi : s[i]? = some n) :
    repairStep rows cols s i = .ok (s.set i (if n.isNaN then
      ((Spec.neighbours rows cols s s i).find? fun a => !a.isNaN).getD n else n)) := by
  have hlt : i < s.length := (List.getElem?_eq_some_iff.1 hi).1
  have hset : s.set i n = s := by
    rw [List.getElem?_eq_some_iff] at hi
    obtain ⟨h, rfl⟩ := hi
    exact List.set_getElem_self h
  have hcols : 0 < cols := by
    rcases Nat.eq_zero_or_pos cols with h | h
    · rw [h, Nat.mul_zero] at hl; omega
    · exact h
  have hrow : i / cols < rows := by rw [Nat.div_lt_iff_lt_mul hcols, ← hl]; exact hlt
  have hcol : i % cols < cols := Nat.mod_lt _ hcols
  have hdm : i / cols * cols + i % cols = i := by rw [Nat.mul_comm]; exact Nat.div_add_mod i cols
  unfold repairStep
  rw [idx_of_getElem? hi, ok_bind]
  cases hn : n.isNaN
  · simp [hset]
  · simp only [if_true]
    rw [usub_ok (Nat.lt_of_le_of_lt (Nat.zero_le _) hrow), ok_bind, usub_ok hcols, ok_bind]
    have key : List.Forall₂ (fun (p : Nat × Nat) v => s[p.1 * cols + p.2]? = some v)
        ((if 0 < i / cols then [(i / cols - 1, i % cols)] else []) ++
          (if i / cols < rows - 1 then [(i / cols + 1, i % cols)] else []) ++
          (if 0 < i % cols then [(i / cols, i % cols - 1)] else []) ++
          (if i % cols < cols - 1 then [(i / cols, i % cols + 1)] else []))
        (Spec.neighbours rows cols s s i) := by
      unfold Spec.neighbours
      have one : ∀ (r c k : Nat), r * cols + c = k → k < s.length →
          List.Forall₂ (fun (p : Nat × Nat) v => s[p.1 * cols + p.2]? = some v) [(r, c)] s[k]?.toList := by
        intro r c k hk hlt
        subst hk
        rw [List.getElem?_eq_getElem hlt]
        exact .cons (by simp [hlt]) .nil
      have hdown : i / cols + 1 < rows → i + cols < s.length := by
        intro h
        rw [hl]
        calc i + cols = i / cols * cols + i % cols + cols := by rw [hdm]
          _ < (i / cols + 1 + 1) * cols := by rw [Nat.add_mul, Nat.add_mul]; omega
          _ ≤ rows * cols := Nat.mul_le_mul_right _ h
      have hright : i % cols + 1 < cols → i + 1 < s.length := by
        intro h
        rw [hl]
        calc i + 1 = i / cols * cols + (i % cols + 1) := by omega
          _ < (i / cols + 1) * cols := by rw [Nat.add_mul]; omega
          _ ≤ rows * cols := Nat.mul_le_mul_right _ hrow
      refine forall₂_append' (forall₂_append' (forall₂_append' ?_ ?_) ?_) ?_
      · split
        · refine one _ _ _ ?_ (by omega)
          rw [Nat.sub_mul]
          have : cols ≤ i / cols * cols := Nat.le_mul_of_pos_left _ (by omega)
          omega
        · exact .nil
      · by_cases h : i / cols + 1 < rows
        · rw [if_pos (by omega), if_pos h]
          exact one _ _ _ (by rw [Nat.add_mul]; omega) (hdown h)
        · rw [if_neg (fun h' => h (Nat.add_lt_of_lt_sub h')), if_neg h]; exact .nil
      · by_cases h : 0 < i % cols
        · rw [if_pos h, if_pos h]
          have hi1 : i / cols * cols + (i % cols - 1) = i - 1 := by
            rw [← Nat.add_sub_assoc h, hdm]
          exact one _ _ _ hi1 (by omega)
        · rw [if_neg h, if_neg h]; exact .nil
      · by_cases h : i % cols + 1 < cols
        · rw [if_pos (by omega), if_pos h]
          exact one _ _ _ (by omega) (hright h)
        · rw [if_neg (by omega), if_neg h]; exact .nil
    rw [findNeighbor_ok key, ok_bind]
    cases (Spec.neighbours rows cols s s i).find? fun a => !a.isNaN with
    | none => simp [hset]
    | some v => simp [upd_ok hlt]

/-- **C45** On a list with one normal per grid point the repair loop does not panic; it replaces every NaN normal by
the first of its neighbours that is not NaN, looking at the repaired values above and to the left and the original
values below and to the right, and changes nothing else. -/
theorem C45_repaired {rows cols : Nat} {N : List (V3 F)} (hl : N.length = rows * cols) :
    ∃ N', repairNormals rows cols N = .ok N' ∧ Spec.Repaired rows cols N N' := by
  have hcols : 0 < N.length → 0 < cols := by
    intro h
    rcases Nat.eq_zero_or_pos cols with h' | h'
    · rw [h', Nat.mul_zero] at hl; omega
    · exact h'
  obtain ⟨N', h1, h2, h3, h4⟩ := forRange_inv (a := 0) (b := N.length) (s := N) (body := repairStep rows cols)
    (fun k s => s.length = N.length ∧ (∀ i, k ≤ i → s[i]? = N[i]?) ∧
      ∀ i n, i < k → N[i]? = some n → s[i]? = some (if n.isNaN then
        ((Spec.neighbours rows cols N s i).find? fun a => !a.isNaN).getD n else n))
    (Nat.zero_le _) ⟨rfl, fun _ _ => rfl, fun i n h => absurd h (Nat.not_lt_zero _)⟩ (by
      intro k s _ hk ⟨hs, hge, hlt⟩
      have hkn : N[k]? = some N[k] := List.getElem?_eq_getElem hk
      have hsk : s[k]? = some N[k] := by rw [hge k (Nat.le_refl _), hkn]
      refine ⟨_, repairStep_ok (hs.trans hl) hsk, by simp [hs], ?_, ?_⟩
      · intro i hi
        rw [List.getElem?_set_ne (by omega)]
        exact hge i (by omega)
      · have hc := hcols (by omega)
        -- neighbours do not see the entry being written
        have hnb : ∀ (i : Nat) (v : V3 F), i ≤ k →
            Spec.neighbours rows cols N (s.set k v) i = Spec.neighbours rows cols N s i := by
          intro i v hik
          unfold Spec.neighbours
          congr 1
          congr 1
          · congr 1
            split
            · rename_i h0
              have : cols ≤ i := by
                by_contra hcon
                rw [Nat.div_eq_of_lt (by omega)] at h0
                omega
              rw [List.getElem?_set_ne (by omega)]
            · rfl
          · split
            · rename_i h0
              have : 0 < i := Nat.pos_of_ne_zero (by rintro rfl; simp at h0)
              rw [List.getElem?_set_ne (by omega)]
            · rfl
        have hnn : Spec.neighbours rows cols s s k = Spec.neighbours rows cols N s k := by
          unfold Spec.neighbours
          rw [hge (k + cols) (by omega), hge (k + 1) (by omega)]
        intro i n hi hn
        rcases Nat.lt_succ_iff_lt_or_eq.1 hi with h | rfl
        · rw [List.getElem?_set_ne (by omega), hlt i n h hn, hnb _ _ (by omega)]
        · rw [hkn] at hn; cases hn
          rw [List.getElem?_set_self (by omega), hnb _ _ (Nat.le_refl _), hnn])
  refine ⟨N', h1, h2, fun i n hn => h4 i n (List.getElem?_eq_some_iff.1 hn).1 hn⟩

/-- An empty normal list (surfaces without `get_normals`) is left alone. -/
theorem C45_empty (rows cols : Nat) : repairNormals rows cols ([] : List (V3 F)) = .ok [] := rfl

/-- **C45** Consequences: the length is kept, normals that are not NaN are unchanged, and every changed normal is a
copy of an original normal that is not NaN. -/
theorem C45_copies {rows cols : Nat} {N N' : List (V3 F)} (hcols : 0 < cols) (h : Spec.Repaired rows cols N N') :
    N'.length = N.length ∧
    (∀ (i : Nat) (n : V3 F), N[i]? = some n → n.isNaN = false → N'[i]? = some n) ∧
    (∀ (i : Nat) (n n' : V3 F), N[i]? = some n → N'[i]? = some n' → n' = n ∨ (n'.isNaN = false ∧ n' ∈ N)) := by
  have h3 : ∀ (i : Nat) (n n' : V3 F), N[i]? = some n → N'[i]? = some n' → n' = n ∨ (n'.isNaN = false ∧ n' ∈ N) := by
    intro i
    induction i using Nat.strong_induction_on with
    | _ i ih =>
      intro n n' hn hn'
      rw [h.2 i n hn, Option.some.injEq] at hn'
      by_cases hnan : n.isNaN = true
      swap
      · rw [if_neg hnan] at hn'; exact .inl hn'.symm
      rw [if_pos hnan] at hn'
      cases hf : (Spec.neighbours rows cols N N' i).find? fun a => !a.isNaN with
      | none => rw [hf] at hn'; exact .inl hn'.symm
      | some v =>
        rw [hf, Option.getD_some] at hn'
        subst hn'
        have hv : v.isNaN = false := by simpa using List.find?_some hf
        have hm := List.mem_of_find?_eq_some hf
        refine .inr ⟨hv, ?_⟩
        -- a repaired value at a smaller index is an original one
        have back : ∀ j, j < i → N'[j]? = some v → v ∈ N := by
          intro j hj hv'
          obtain ⟨o, ho⟩ : ∃ o, N[j]? = some o := by
            have hlt : j < N'.length := (List.getElem?_eq_some_iff.1 hv').1
            rw [h.1] at hlt
            exact ⟨_, List.getElem?_eq_getElem hlt⟩
          rcases ih j hj o v ho hv' with rfl | ⟨_, hm⟩
          · exact List.mem_of_getElem? ho
          · exact hm
        unfold Spec.neighbours at hm
        simp only [List.mem_append] at hm
        rcases hm with ((hm | hm) | hm) | hm
        · split at hm
          · rename_i h0
            rw [Option.mem_toList] at hm
            have : cols ≤ i := by
              by_contra hcon
              rw [Nat.div_eq_of_lt (by omega)] at h0
              omega
            exact back _ (by omega) hm
          · simp at hm
        · split at hm
          · rw [Option.mem_toList] at hm
            exact List.mem_of_getElem? hm
          · simp at hm
        · split at hm
          · rename_i h0
            rw [Option.mem_toList] at hm
            have : 0 < i := Nat.pos_of_ne_zero (by rintro rfl; simp at h0)
            exact back _ (by omega) hm
          · simp at hm
        · split at hm
          · rw [Option.mem_toList] at hm
            exact List.mem_of_getElem? hm
          · simp at hm
  refine ⟨h.1, ?_, h3⟩
  intro i n hn hnan
  rw [h.2 i n hn, if_neg (by simp [hnan])]

/-- **C45** A normal that is still NaN was NaN, and so were all its neighbours when it was visited. -/
theorem C45_stays_nan {rows cols : Nat} {N N' : List (V3 F)} (h : Spec.Repaired rows cols N N') {i : Nat} {n' : V3 F}
    (hi : N'[i]? = some n') (hn : n'.isNaN = true) :
    N[i]? = some n' ∧ ∀ v ∈ Spec.neighbours rows cols N N' i, v.isNaN = true := by
  obtain ⟨n, hN⟩ : ∃ n, N[i]? = some n := by
    have hlt : i < N'.length := (List.getElem?_eq_some_iff.1 hi).1
    rw [h.1] at hlt
    exact ⟨_, List.getElem?_eq_getElem hlt⟩
  have h2 := h.2 i n hN
  rw [hi, Option.some.injEq] at h2
  by_cases hnan : n.isNaN = true
  swap
  · rw [if_neg hnan] at h2; subst h2; exact absurd hn hnan
  rw [if_pos hnan] at h2
  cases hf : (Spec.neighbours rows cols N N' i).find? fun a => !a.isNaN with
  | none =>
    rw [hf] at h2
    have h2' : n' = n := h2
    rw [h2']
    refine ⟨hN, fun v hv => ?_⟩
    simpa using List.find?_eq_none.1 hf v hv
  | some v =>
    rw [hf, Option.getD_some] at h2
    have hv : v.isNaN = false := by simpa using List.find?_some hf
    rw [h2, hv] at hn; cases hn

/-- **C45** in `get_triangle_mesh`: the normals of the mesh are the repaired normals of the surface at the grid
parameters. -/
theorem C45_mesh {p : SurfacePatch F} {mesh : TriangleMesh F} (h : p.getTriangleMesh = .ok mesh) {m n : Nat}
    (hd : p.parameterDivision = (m, n)) :
    ∃ us vs N, Spec.Samples p.surface p.parameterRange m n mesh.vertices us vs ∧
      p.surface.getNormals (gridParams us vs) = .ok N ∧
      (N = [] → mesh.normals = []) ∧
      (N.length = (m + 1) * (n + 1) → Spec.Repaired (m + 1) (n + 1) N mesh.normals) := by
  obtain ⟨us, vs, N, hs, hN, _, hR, _⟩ := getTriangleMesh_eq_ok h
  rw [hd] at hs hR
  refine ⟨us, vs, N, hs, hN, ?_, ?_⟩
  · rintro rfl; rw [C45_empty, Except.ok.injEq] at hR; exact hR.symm
  · intro hl
    obtain ⟨N', h1, h2⟩ := C45_repaired (rows := m + 1) (cols := n + 1) hl
    rw [hR] at h1; cases h1; exact h2

/-- **C44** No panic: the mesh exists for divisions of at least one whenever the surface can be evaluated and
returns no normals or one normal per parameter. -/
theorem C44_total (p : SurfacePatch F) (hm : 1 ≤ p.parameterDivision.1) (hn : 1 ≤ p.parameterDivision.2)
    (hpt : ∀ u v, ∃ q, p.surface.getPoint u v = .ok q)
    (hno : ∀ ps, ∃ N, p.surface.getNormals ps = .ok N ∧ (N = [] ∨ N.length = ps.length)) :
    ∃ mesh, p.getTriangleMesh = .ok mesh := by
  obtain ⟨us, h1, hul, _⟩ := C28_ends p.parameterRange.1 hm
  obtain ⟨vs, h2, hvl, _⟩ := C28_ends p.parameterRange.2 hn
  obtain ⟨pts, h3, hpts⟩ := mapM_ok (f := fun q : V2 F => p.surface.getPoint q.x q.y) (P := fun _ _ => True)
    (l := gridParams us vs) (fun a _ => by obtain ⟨q, hq⟩ := hpt a.x a.y; exact ⟨q, hq, trivial⟩)
  obtain ⟨N, h4, hN⟩ := hno (gridParams us vs)
  have hlen : pts.length = (p.parameterDivision.1 + 1) * (p.parameterDivision.2 + 1) := by
    rw [← hpts.length_eq, length_gridParams, hul, hvl]
  obtain ⟨N', h5⟩ : ∃ N', repairNormals (p.parameterDivision.1 + 1) (p.parameterDivision.2 + 1) N = .ok N' := by
    rcases hN with rfl | hN
    · exact ⟨[], C45_empty _ _⟩
    · obtain ⟨N', h, _⟩ := C45_repaired (rows := p.parameterDivision.1 + 1) (cols := p.parameterDivision.2 + 1)
        (N := N) (by rw [hN, length_gridParams, hul, hvl])
      exact ⟨N', h⟩
  unfold SurfacePatch.getTriangleMesh SurfacePatch.getPoints
  simp only [h1, ok_bind, h2, h3, h4, fromVec_ok hlen, h5]
  rw [createTriangles_eq (by simp) (by simp), ok_bind]
  exact ⟨_, rfl⟩

/-- **C44** A division of zero panics. -/
theorem C44_zero_panics (p : SurfacePatch F) (h : p.parameterDivision.1 = 0) :
    p.getTriangleMesh = .error .overflow := by
  unfold SurfacePatch.getTriangleMesh
  rw [h, C28_zero_panics]
  rfl

/-! ### C46: boxing -/

/-- **C46**, as far as it is true: the boxed surface gives the same points, vertices, triangles, point grid and
trimming; and the same mesh if the surface does not define normals.  Missing: the normals (see
`C46_normals_lost`). -/
theorem C46_partial {p : SurfacePatch F} {mesh : TriangleMesh F} (h : p.getTriangleMesh = .ok mesh) :
    ({ p with surface := p.surface.boxed } : SurfacePatch F).getTriangleMesh
      = .ok { mesh with normals := [] } ∧
    ({ p with surface := p.surface.boxed } : SurfacePatch F).getPointGrid = p.getPointGrid ∧
    ∀ o b, (⟨p.surface.boxed, b⟩ : TrimmedSurface F).getTriangleMesh o
      = (⟨p.surface, b⟩ : TrimmedSurface F).getTriangleMesh o := by
  refine ⟨?_, rfl, fun _ _ => rfl⟩
  simp only [SurfacePatch.getTriangleMesh, bind_eq_ok, pure_eq_ok, Except.ok.injEq] at h
  obtain ⟨us, h1, vs, h2, pts, h3, N, h4, g, h5, T, h6, N', h7, rfl⟩ := h
  unfold SurfacePatch.getTriangleMesh
  simp only [h1, ok_bind, h2]
  have h3' : ({ p with surface := p.surface.boxed } : SurfacePatch F).getPoints (gridParams us vs) = .ok pts := h3
  rw [h3', ok_bind]
  show (pure [] >>= _) = _
  rw [pure_eq_ok, ok_bind, h5, ok_bind, h6, ok_bind, C45_empty, ok_bind]
  rfl

/-! ### C71: what boxing changes, exactly -/

/-- **C71** The mesh of the boxed surface is the mesh of the surface without its normals; the two agree exactly when
the surface supplies no normals. -/
theorem C71_boxed {p : SurfacePatch F} {mesh : TriangleMesh F} (h : p.getTriangleMesh = .ok mesh) :
    ∃ mesh', ({ p with surface := p.surface.boxed } : SurfacePatch F).getTriangleMesh = .ok mesh' ∧
      mesh'.vertices = mesh.vertices ∧ mesh'.triangles = mesh.triangles ∧ mesh'.normals = [] ∧
      (mesh' = mesh ↔ mesh.normals = []) := by
  refine ⟨_, (C46_partial h).1, rfl, rfl, rfl, ?_⟩
  obtain ⟨a, b, c⟩ := mesh
  simp [eq_comm]

/-- **C71** A surface that fails to evaluate fails in the same way when boxed. -/
theorem C71_points (p : SurfacePatch F) (params : List (V2 F)) :
    ({ p with surface := p.surface.boxed } : SurfacePatch F).getPoints params = p.getPoints params ∧
    ({ p with surface := p.surface.boxed } : SurfacePatch F).getPointGrid = p.getPointGrid ∧
    ∀ o b, (⟨p.surface.boxed, b⟩ : TrimmedSurface F).getTriangleMesh o
      = (⟨p.surface, b⟩ : TrimmedSurface F).getTriangleMesh o :=
  ⟨rfl, rfl, fun _ _ => rfl⟩

end

/-- A surface with normals: the unit square with normal `(0,0,1)`. -/
def Spec.squareWithNormals : Surface ℚ where
  getPoint u v := .ok ⟨u, v, 0⟩
  getNormals ps := .ok (ps.map fun _ => ⟨0, 0, 1⟩)

/-- **Finding** (C46 is false): boxing a surface drops its normals. -/
theorem C46_normals_lost :
    ∃ (s : Surface ℚ) (mesh mesh' : TriangleMesh ℚ),
      (⟨s, ((0, 1), (0, 1)), (1, 1)⟩ : SurfacePatch ℚ).getTriangleMesh = .ok mesh ∧
      (⟨s.boxed, ((0, 1), (0, 1)), (1, 1)⟩ : SurfacePatch ℚ).getTriangleMesh = .ok mesh' ∧
      mesh.normals = [⟨0, 0, 1⟩, ⟨0, 0, 1⟩, ⟨0, 0, 1⟩, ⟨0, 0, 1⟩] ∧ mesh'.normals = [] :=
  ⟨Spec.squareWithNormals,
   ⟨[⟨0, 0, 0⟩, ⟨0, 1, 0⟩, ⟨1, 0, 0⟩, ⟨1, 1, 0⟩], [⟨0, 0, 1⟩, ⟨0, 0, 1⟩, ⟨0, 0, 1⟩, ⟨0, 0, 1⟩], [0, 2, 1, 1, 2, 3]⟩,
   ⟨[⟨0, 0, 0⟩, ⟨0, 1, 0⟩, ⟨1, 0, 0⟩, ⟨1, 1, 0⟩], [], [0, 2, 1, 1, 2, 3]⟩,
   by decide +kernel, by decide +kernel, rfl, rfl⟩

/-- A concrete case of **C71** with normals, and one without. -/
theorem C71_example :
    ((⟨Spec.squareWithNormals, ((0, 1), (0, 1)), (1, 1)⟩ : SurfacePatch ℚ).getTriangleMesh.map (·.normals.length) = .ok 4) ∧
    ((⟨{ getPoint := fun u v => .ok ⟨u, v, u * v⟩ }, ((0, 1), (0, 1)), (1, 1)⟩ : SurfacePatch ℚ).getTriangleMesh.map
      (fun m => (m.normals.length, m.vertices.length)) = .ok (0, 4)) := by
  constructor <;> decide +kernel

/-- The same happens to a bilinear B-spline patch in binary64. -/
theorem C46_bspline_normals_lost :
    ∃ (s : BSplineSurface Float (V3 Float)) (mesh mesh' : TriangleMesh Float),
      BSplineSurface.uniformClamped (F := Float) (⟨[⟨0, 0, 0⟩, ⟨0, 1, 0⟩, ⟨1, 0, 0⟩, ⟨1, 1, 0⟩], 2, 2⟩ : Grid (V3 Float))
        (1, 1) = .ok s ∧
      (⟨s.surface, ((0, 1), (0, 1)), (1, 1)⟩ : SurfacePatch Float).getTriangleMesh = .ok mesh ∧
      (⟨s.surface.boxed, ((0, 1), (0, 1)), (1, 1)⟩ : SurfacePatch Float).getTriangleMesh = .ok mesh' ∧
      mesh.normals.length = 4 ∧ mesh'.normals = [] := by
  have h1 : ∃ s mesh, BSplineSurface.uniformClamped (F := Float)
        (⟨[⟨0, 0, 0⟩, ⟨0, 1, 0⟩, ⟨1, 0, 0⟩, ⟨1, 1, 0⟩], 2, 2⟩ : Grid (V3 Float)) (1, 1) = .ok s ∧
      (⟨s.surface, ((0, 1), (0, 1)), (1, 1)⟩ : SurfacePatch Float).getTriangleMesh = .ok mesh ∧
      mesh.normals.length = 4 := by
    refine ⟨_, ⟨[⟨0, 0, 0⟩, ⟨0, 1, 0⟩, ⟨1, 0, 0⟩, ⟨1, 1, 0⟩],
      [⟨0, 0, 1⟩, ⟨0, 0, 1⟩, ⟨0, 0, 1⟩, ⟨0, 0, 1⟩], [0, 2, 1, 1, 2, 3]⟩, rfl, ?_, rfl⟩
    decide +kernel
  obtain ⟨s, mesh, hs, hm, hl⟩ := h1
  exact ⟨s, mesh, _, hs, hm, (C46_partial hm).1, hl, rfl⟩

/-- A concrete case of **C45**: one NaN normal in a 2 by 2 grid (binary64). -/
theorem C45_example :
    ((repairNormals 2 2 ([⟨0, 0, 0.0 / 0.0⟩, ⟨0, 0, 0.0 / 0.0⟩, ⟨1, 0, 0⟩, ⟨0, 0, 0.0 / 0.0⟩] : List (V3 Float))).toOption.map
      fun l => l.map fun a => (a.x.toBits, a.z.isNaN)) =
      some [((1 : Float).toBits, false), ((1 : Float).toBits, false), ((1 : Float).toBits, false),
        ((1 : Float).toBits, false)] := by decide +kernel

/-- A concrete case of **C44**. -/
theorem C44_example :
    (⟨Spec.squareWithNormals, ((0, 1), (0, 3)), (1, 2)⟩ : SurfacePatch ℚ).getTriangleMesh
      = .ok ⟨[⟨0, 0, 0⟩, ⟨0, 3 / 2, 0⟩, ⟨0, 3, 0⟩, ⟨1, 0, 0⟩, ⟨1, 3 / 2, 0⟩, ⟨1, 3, 0⟩],
        List.replicate 6 ⟨0, 0, 1⟩, [0, 3, 1, 1, 3, 4, 1, 4, 2, 2, 4, 5]⟩ := by decide +kernel

end Geom3d
