import Verif.Spec.Stl
import Verif.Spec.Mesh
import Verif.Props.Mesh

/-! # C49, C50, C80: STL export -/

set_option linter.unusedSectionVars false

namespace Geom3d
open Spec

/-! ### The calls of `save_as_stl` -/

/-- All calls are writes of at most 80 bytes. -/
def Spec.IsWrites (ops : List FileOp) : Prop := ∀ op ∈ ops, ∃ b, op = .write b ∧ b.length ≤ 80

/-- The bytes written. -/
def Spec.outBytes (ops : List FileOp) : List UInt8 :=
  ops.flatMap fun op => match op with | .write b => b | .seek _ => []

theorem isWrites_append {a b : List FileOp} (ha : IsWrites a) (hb : IsWrites b) : IsWrites (a ++ b) := by
  intro op h
  rcases List.mem_append.1 h with h | h
  · exact ha op h
  · exact hb op h

theorem outBytes_append (a b : List FileOp) : outBytes (a ++ b) = outBytes a ++ outBytes b := by
  simp [outBytes]

theorem trace_bind_ok {α β : Type} {t : Trace α} {a : α} (f : α → Trace β) (h : t.res = .ok a) :
    (t >>= f) = ⟨t.ops ++ (f a).ops, (f a).res⟩ := by
  change Trace.bind t f = _
  unfold Trace.bind; rw [h]

theorem trace_bind_error {α β : Type} {t : Trace α} {e : Panic} (f : α → Trace β) (h : t.res = .error e) :
    (t >>= f) = ⟨t.ops, .error e⟩ := by
  change Trace.bind t f = _
  unfold Trace.bind; rw [h]

theorem trace_write_bind {β : Type} (b : List UInt8) (f : Unit → Trace β) :
    (Trace.write b >>= f) = ⟨.write b :: (f ()).ops, (f ()).res⟩ := rfl

theorem trace_seek_bind {β : Type} (p : Nat) (f : Unit → Trace β) :
    (Trace.seek p >>= f) = ⟨.seek p :: (f ()).ops, (f ()).res⟩ := rfl

theorem u32le_length (n : Nat) : (u32le n).length = 4 := rfl

section
variable {F : Type}

/-- The twelve bytes of a corner. -/
def vertexBytes (f32 : F → UInt32) (p : V3 F) : List UInt8 :=
  u32le (f32 p.x).toNat ++ u32le (f32 p.y).toNat ++ u32le (f32 p.z).toNat

theorem stlVertex_ok (f32 : F → UInt32) {vs : List (V3 F)} {i : Nat} {p : V3 F} (h : vs[i]? = some p) :
    (stlVertex f32 vs i).res = .ok () ∧ IsWrites (stlVertex f32 vs i).ops ∧
      outBytes (stlVertex f32 vs i).ops = vertexBytes f32 p := by
  unfold stlVertex Trace.lift
  rw [trace_bind_ok _ (idx_of_getElem? h)]
  refine ⟨rfl, ?_, ?_⟩
  · intro op hop
    have hop' : op ∈ [.write (u32le (f32 p.x).toNat), .write (u32le (f32 p.y).toNat),
      FileOp.write (u32le (f32 p.z).toNat)] := hop
    simp only [List.mem_cons, List.not_mem_nil, or_false] at hop'
    rcases hop' with rfl | rfl | rfl <;> exact ⟨_, rfl, by rw [u32le_length]; decide⟩
  · change outBytes [.write (u32le (f32 p.x).toNat), .write (u32le (f32 p.y).toNat),
      FileOp.write (u32le (f32 p.z).toNat)] = _
    simp [outBytes, vertexBytes]

theorem stlVertex_err (f32 : F → UInt32) {vs : List (V3 F)} {i : Nat} (h : vs[i]? = none) :
    (stlVertex f32 vs i).res = .error .index ∧ (stlVertex f32 vs i).ops = [] := by
  unfold stlVertex Trace.lift
  rw [trace_bind_error _ (idx_err (by simpa using h))]
  exact ⟨rfl, rfl⟩

/-- A loop of writes. -/
theorem forM_writes {α : Type} (f : α → Trace Unit) (hw : ∀ a, IsWrites (f a).ops) (l : List α) :
    IsWrites (l.forM f).ops := by
  induction l with
  | nil => intro op h; cases h
  | cons a l ih =>
    change IsWrites (f a >>= fun _ => l.forM f).ops
    cases h : (f a).res with
    | ok u => rw [trace_bind_ok _ h]; exact isWrites_append (hw a) ih
    | error e => rw [trace_bind_error _ h]; exact hw a

theorem forM_ok {α : Type} (f : α → Trace Unit) (g : α → List UInt8) (l : List α)
    (hf : ∀ a ∈ l, (f a).res = .ok () ∧ outBytes (f a).ops = g a) :
    (l.forM f).res = .ok () ∧ outBytes (l.forM f).ops = l.flatMap g := by
  induction l with
  | nil => exact ⟨rfl, rfl⟩
  | cons a l ih =>
    change (f a >>= fun _ => l.forM f).res = _ ∧ outBytes (f a >>= fun _ => l.forM f).ops = _
    obtain ⟨h1, h2⟩ := hf a (by simp)
    obtain ⟨h3, h4⟩ := ih fun b hb => hf b (by simp [hb])
    rw [trace_bind_ok _ h1]
    exact ⟨h3, by rw [outBytes_append, h2, h4, List.flatMap_cons]⟩

/-- If the loop succeeds then every turn did. -/
theorem forM_inv {α : Type} (f : α → Trace Unit) {l : List α} (h : (l.forM f).res = .ok ()) :
    (∀ a ∈ l, (f a).res = .ok ()) ∧ outBytes (l.forM f).ops = l.flatMap fun a => outBytes (f a).ops := by
  induction l with
  | nil => exact ⟨(fun a ha => by cases ha), rfl⟩
  | cons a l ih =>
    change (f a >>= fun _ => l.forM f).res = .ok () at h
    change _ ∧ outBytes (f a >>= fun _ => l.forM f).ops = _
    cases ha : (f a).res with
    | error e => rw [trace_bind_error _ ha] at h; cases h
    | ok u =>
      rw [trace_bind_ok _ ha] at h ⊢
      obtain ⟨h1, h2⟩ := ih h
      refine ⟨?_, by rw [outBytes_append, h2, List.flatMap_cons]⟩
      intro b hb
      rcases List.mem_cons.1 hb with rfl | hb
      · exact ha
      · exact h1 b hb

theorem stlVertex_writes (f32 : F → UInt32) (vs : List (V3 F)) (i : Nat) : IsWrites (stlVertex f32 vs i).ops := by
  cases h : vs[i]? with
  | none => rw [(stlVertex_err f32 h).2]; intro op ho; cases ho
  | some p => exact (stlVertex_ok f32 h).2.1

theorem stlVertex_res (f32 : F → UInt32) {vs : List (V3 F)} {i : Nat} (h : (stlVertex f32 vs i).res = .ok ()) :
    ∃ p, vs[i]? = some p ∧ outBytes (stlVertex f32 vs i).ops = vertexBytes f32 p := by
  cases hi : vs[i]? with
  | none => rw [(stlVertex_err f32 hi).1] at h; cases h
  | some p => exact ⟨p, rfl, (stlVertex_ok f32 hi).2.2⟩

/-- The calls of one triangle. -/
theorem stlTriangle_eq (f32 : F → UInt32) (vs : List (V3 F)) (t : List Nat) :
    stlTriangle f32 vs t = ⟨.write (u32le 0) :: .write (u32le 0) :: .write (u32le 0) ::
        (t.forM (stlVertex f32 vs) >>= fun _ => Trace.write [0, 0]).ops,
      (t.forM (stlVertex f32 vs) >>= fun _ => Trace.write [0, 0]).res⟩ := rfl

theorem stlTriangle_writes (f32 : F → UInt32) (vs : List (V3 F)) (t : List Nat) :
    IsWrites (stlTriangle f32 vs t).ops := by
  rw [stlTriangle_eq]
  intro op hop
  simp only [List.mem_cons] at hop
  rcases hop with rfl | rfl | rfl | hop
  · exact ⟨_, rfl, by rw [u32le_length]; decide⟩
  · exact ⟨_, rfl, by rw [u32le_length]; decide⟩
  · exact ⟨_, rfl, by rw [u32le_length]; decide⟩
  · cases h : (t.forM (stlVertex f32 vs)).res with
    | error e =>
      rw [trace_bind_error _ h] at hop
      exact forM_writes _ (stlVertex_writes f32 vs) t op hop
    | ok u =>
      rw [trace_bind_ok _ h] at hop
      rcases List.mem_append.1 hop with hop | hop
      · exact forM_writes _ (stlVertex_writes f32 vs) t op hop
      · rw [List.mem_singleton.1 hop]; exact ⟨_, rfl, by decide⟩

theorem stlTriangle_bytes (f32 : F → UInt32) {vs : List (V3 F)} {t : List Nat}
    (h : (stlTriangle f32 vs t).res = .ok ()) :
    (t.forM (stlVertex f32 vs)).res = .ok () ∧ outBytes (stlTriangle f32 vs t).ops
      = List.replicate 12 0 ++ outBytes (t.forM (stlVertex f32 vs)).ops ++ [0, 0] := by
  rw [stlTriangle_eq] at h ⊢
  simp only [] at h
  cases ht : (t.forM (stlVertex f32 vs)).res with
  | error e => rw [trace_bind_error _ ht] at h; cases h
  | ok u =>
    rw [trace_bind_ok _ ht]
    refine ⟨rfl, ?_⟩
    simp only [outBytes, List.flatMap_cons, List.flatMap_append, Trace.write, List.flatMap_nil, List.append_nil]
    rfl

/-- Length of the bytes of a triangle that was written completely. -/
theorem stlTriangle_length (f32 : F → UInt32) {vs : List (V3 F)} {t : List Nat}
    (h : (stlTriangle f32 vs t).res = .ok ()) :
    (outBytes (stlTriangle f32 vs t).ops).length = 14 + 12 * t.length := by
  obtain ⟨h1, h2⟩ := stlTriangle_bytes f32 h
  obtain ⟨h3, h4⟩ := forM_inv _ h1
  rw [h2, h4]
  have : ∀ (l : List Nat), (∀ i ∈ l, (stlVertex f32 vs i).res = .ok ()) →
      (l.flatMap fun i => outBytes (stlVertex f32 vs i).ops).length = 12 * l.length := by
    intro l hl
    induction l with
    | nil => rfl
    | cons i l ih =>
      obtain ⟨p, -, hp⟩ := stlVertex_res f32 (hl i (by simp))
      rw [List.flatMap_cons, List.length_append, ih (fun j hj => hl j (by simp [hj])), hp]
      simp [vertexBytes, u32le_length]
      omega
  simp [this t h3]
  omega

theorem chunks_length (f32 : F → UInt32) (vs : List (V3 F)) : ∀ (l : List Nat),
    (∀ t ∈ chunks3 l, (stlTriangle f32 vs t).res = .ok ()) →
    50 * (l.length / 3) ≤ ((chunks3 l).flatMap fun t => outBytes (stlTriangle f32 vs t).ops).length
  | a :: b :: c :: l, h => by
    have ih := chunks_length f32 vs l (fun t ht => h t (by rw [chunks3]; exact List.mem_cons_of_mem _ ht))
    have h1 := stlTriangle_length f32 (h [a, b, c] (by rw [chunks3]; simp))
    rw [chunks3, List.flatMap_cons, List.length_append, h1]
    simp only [List.length_cons, List.length_nil]
    omega
  | [], _ => by simp
  | [a], _ => by simp
  | [a, b], _ => by simp

/-- The body of the loop over the faces. -/
def stlFace (f32 : F → UInt32) (count : Nat) (face : Res (TriangleMesh F)) : Trace Nat := do
  let mesh ← Trace.lift face
  (chunks3 mesh.triangles).forM (stlTriangle f32 mesh.vertices)
  pure (count + mesh.triangleCount)

theorem saveAsStl_eq (f32 : F → UInt32) (name : List Char) (faces : List (Res (TriangleMesh F))) :
    saveAsStl f32 (some name) faces = ⟨.write (stlHeader name) :: .write (u32le 0) ::
        (faces.foldlM (stlFace f32) 0 >>= fun c => Trace.seek 80 >>= fun _ => Trace.write (u32le c)).ops,
      (faces.foldlM (stlFace f32) 0 >>= fun c => Trace.seek 80 >>= fun _ => Trace.write (u32le c)).res⟩ := rfl

theorem stlFace_spec (f32 : F → UInt32) (count : Nat) (face : Res (TriangleMesh F)) :
    IsWrites (stlFace f32 count face).ops ∧
    ∀ c, (stlFace f32 count face).res = .ok c → count ≤ c ∧
      50 * (c - count) ≤ (outBytes (stlFace f32 count face).ops).length := by
  unfold stlFace Trace.lift
  cases face with
  | error e =>
    rw [trace_bind_error _ rfl]
    exact ⟨(fun op h => by cases h), fun c h => by cases h⟩
  | ok mesh =>
    rw [trace_bind_ok _ rfl]
    simp only [List.nil_append]
    have hw := forM_writes _ (stlTriangle_writes f32 mesh.vertices) (chunks3 mesh.triangles)
    cases hr : ((chunks3 mesh.triangles).forM (stlTriangle f32 mesh.vertices)).res with
    | error e =>
      rw [trace_bind_error _ hr]
      exact ⟨hw, fun c h => by cases h⟩
    | ok u =>
      rw [trace_bind_ok _ hr]
      have e : (pure (count + mesh.triangleCount) : Trace Nat).ops = [] := rfl
      simp only [e, List.append_nil]
      refine ⟨hw, fun c hc => ?_⟩
      have : c = count + mesh.triangleCount := by cases hc; rfl
      subst this
      refine ⟨by omega, ?_⟩
      obtain ⟨h1, h2⟩ := forM_inv _ hr
      rw [h2]
      have := chunks_length f32 mesh.vertices mesh.triangles h1
      unfold TriangleMesh.triangleCount
      omega

theorem stlFaces_spec (f32 : F → UInt32) (faces : List (Res (TriangleMesh F))) (count : Nat) :
    IsWrites (faces.foldlM (stlFace f32) count).ops ∧
    ∀ c, (faces.foldlM (stlFace f32) count).res = .ok c → count ≤ c ∧
      50 * (c - count) ≤ (outBytes (faces.foldlM (stlFace f32) count).ops).length := by
  induction faces generalizing count with
  | nil =>
    refine ⟨(fun op h => by cases h), fun c h => ?_⟩
    have : c = count := by cases h; rfl
    subst this
    exact ⟨le_refl _, by omega⟩
  | cons face faces ih =>
    change IsWrites (stlFace f32 count face >>= fun c => faces.foldlM (stlFace f32) c).ops ∧
      ∀ c, (stlFace f32 count face >>= fun c => faces.foldlM (stlFace f32) c).res = .ok c → _ ∧
        _ ≤ (outBytes (stlFace f32 count face >>= fun c => faces.foldlM (stlFace f32) c).ops).length
    obtain ⟨h1, h2⟩ := stlFace_spec f32 count face
    cases hr : (stlFace f32 count face).res with
    | error e =>
      rw [trace_bind_error _ hr]
      exact ⟨h1, fun c h => by cases h⟩
    | ok c1 =>
      rw [trace_bind_ok _ hr]
      obtain ⟨h3, h4⟩ := ih c1
      obtain ⟨h5, h6⟩ := h2 c1 hr
      refine ⟨isWrites_append h1 h3, fun c hc => ?_⟩
      obtain ⟨h7, h8⟩ := h4 c hc
      refine ⟨by omega, ?_⟩
      rw [outBytes_append, List.length_append]
      omega

/-- The calls of `save_as_stl`: none (no file name), or header, zero count and triangle data, followed, if nothing
panicked, by the count. -/
theorem saveAsStl_shape (f32 : F → UInt32) (name : List Char) (faces : List (Res (TriangleMesh F))) :
    ∃ mid, IsWrites mid ∧
      ((∃ e, (saveAsStl f32 (some name) faces) = ⟨.write (stlHeader name) :: .write (u32le 0) :: mid, .error e⟩) ∨
       (∃ c, (saveAsStl f32 (some name) faces)
          = ⟨.write (stlHeader name) :: .write (u32le 0) :: (mid ++ [.seek 80, .write (u32le c)]), .ok ()⟩ ∧
          50 * c ≤ (outBytes mid).length)) := by
  rw [saveAsStl_eq]
  obtain ⟨h1, h2⟩ := stlFaces_spec f32 faces 0
  refine ⟨(faces.foldlM (stlFace f32) 0).ops, h1, ?_⟩
  cases hr : (faces.foldlM (stlFace f32) 0).res with
  | error e => left; exact ⟨e, by rw [trace_bind_error _ hr]⟩
  | ok c =>
    right
    refine ⟨c, ?_, by have := (h2 c hr).2; simpa using this⟩
    rw [trace_bind_ok _ hr]
    rfl

end

/-! ### The header -/

theorem utf8_length_ge (s : List Char) : s.length ≤ (utf8 s).length := by
  induction s with
  | nil => rfl
  | cons c s ih =>
    unfold utf8 at *
    rw [List.flatMap_cons, List.length_append, String.length_utf8EncodeChar, List.length_cons]
    have := c.utf8Size_pos
    omega

theorem stlHeader_length (name : List Char) : (stlHeader name).length = 80 := by
  unfold stlHeader
  rw [List.length_take]
  have := utf8_length_ge ("Binary STL file\nName: ".toList ++ pad57 name ++ ['\n'])
  have h22 : ("Binary STL file\nName: ".toList).length = 22 := by decide
  have hl : ("Binary STL file\nName: ".toList ++ pad57 name ++ ['\n']).length
      = 22 + (name.length + (57 - name.length)) + 1 := by
    simp only [List.length_append, pad57, List.length_replicate, List.length_cons, List.length_nil, h22]
  omega

/-- **C49**, the header: 80 bytes for every file name, beginning with "Binary STL file", never with "solid". -/
theorem C49_header (name : List Char) : (stlHeader name).length = 80 ∧
    (stlHeader name).take 15 = utf8 "Binary STL file".toList ∧ (stlHeader name).take 5 ≠ utf8 "solid".toList := by
  have h : (stlHeader name).take 15 = utf8 "Binary STL file".toList := by
    unfold stlHeader
    rw [List.take_take, show min 15 80 = 15 from rfl]
    have e : utf8 ("Binary STL file\nName: ".toList ++ pad57 name ++ ['\n'])
        = utf8 "Binary STL file\nName: ".toList ++ utf8 (pad57 name ++ ['\n']) := by unfold utf8; rw [← List.flatMap_append, List.append_assoc]
    rw [e, List.take_append_of_le_length (by decide)]
    decide +kernel
  refine ⟨stlHeader_length name, h, ?_⟩
  have h5 : (stlHeader name).take 5 = (utf8 "Binary STL file".toList).take 5 := by rw [← h, List.take_take]; rfl
  rw [h5]
  decide +kernel

/-! ### The file -/

theorem write_end (c b : List UInt8) : FileState.write ⟨c, c.length⟩ b = ⟨c ++ b, (c ++ b).length⟩ := by
  induction b generalizing c with
  | nil => simp [FileState.write]
  | cons x b ih =>
    have e : FileState.put ⟨c, c.length⟩ x = ⟨c ++ [x], (c ++ [x]).length⟩ := by simp [FileState.put]
    unfold FileState.write at ih ⊢
    rw [List.foldl_cons, e, ih]
    simp

theorem run_writes {ops : List FileOp} (h : IsWrites ops) (c : List UInt8) :
    FileState.run ⟨c, c.length⟩ ops = ⟨c ++ outBytes ops, (c ++ outBytes ops).length⟩ := by
  induction ops generalizing c with
  | nil => simp [FileState.run, outBytes]
  | cons op ops ih =>
    obtain ⟨b, rfl, -⟩ := h op (by simp)
    have := ih (fun o ho => h o (by simp [ho])) (c ++ b)
    unfold FileState.run at this ⊢
    rw [List.foldl_cons, FileState.step, write_end, this]
    simp [outBytes]

theorem run_append (s : FileState) (a b : List FileOp) : s.run (a ++ b) = (s.run a).run b := by
  unfold FileState.run; rw [List.foldl_append]

/-- Overwriting. -/
theorem write_over (a z r b : List UInt8) (h : b.length = z.length) :
    FileState.write ⟨a ++ z ++ r, a.length⟩ b = ⟨a ++ b ++ r, (a ++ b).length⟩ := by
  induction b generalizing a z with
  | nil =>
    have : z = [] := List.length_eq_zero_iff.1 h.symm
    subst this
    simp [FileState.write]
  | cons x b ih =>
    match z, h with
    | y :: z, h =>
      have e : FileState.put ⟨a ++ (y :: z) ++ r, a.length⟩ x = ⟨(a ++ [x]) ++ z ++ r, (a ++ [x]).length⟩ := by
        have hlt : a.length < (a ++ (y :: z) ++ r).length := by simp
        unfold FileState.put
        rw [if_pos hlt]
        simp
      unfold FileState.write at ih ⊢
      rw [List.foldl_cons, e, ih _ _ (by simpa using h)]
      simp

/-- Overwriting the count. -/
theorem write_count {h z rest b : List UInt8} (hh : h.length = 80) (hb : b.length ≤ z.length) :
    FileState.write ⟨h ++ z ++ rest, 80⟩ b = ⟨h ++ (b ++ z.drop b.length) ++ rest, 80 + b.length⟩ := by
  have := write_over h (z.take b.length) (z.drop b.length ++ rest) b (by simp [hb])
  rw [hh] at this
  have e : h ++ z.take b.length ++ (z.drop b.length ++ rest) = h ++ z ++ rest := by
    rw [← List.append_assoc, List.append_assoc h, List.take_append_drop]
  rw [e] at this
  rw [this]
  simp [hh]

theorem getD_app_right {α : Type} (a b : List α) (i : Nat) (d : α) : (a ++ b).getD (a.length + i) d = b.getD i d := by
  rw [List.getD_eq_getElem?_getD, List.getD_eq_getElem?_getD, List.getElem?_append_right (by omega)]
  congr 2; omega

theorem word_app (a b : List UInt8) (i : Nat) : word (a ++ b) (a.length + i) = word b i := by
  unfold word
  rw [Nat.add_assoc a.length i 1, Nat.add_assoc a.length i 2, Nat.add_assoc a.length i 3]
  simp only [getD_app_right]

theorem ofNat_toNat (n : Nat) : (UInt8.ofNat n).toNat = n % 256 := by simp

theorem word_u32le (n : Nat) (rest : List UInt8) : word (u32le n ++ rest) 0 = n % 2 ^ 32 := by
  unfold word u32le
  simp only [List.cons_append, List.getD_cons_zero, List.getD_cons_succ, List.nil_append, Nat.zero_add, ofNat_toNat]
  omega

theorem word_count {h rest : List UInt8} (n : Nat) (hh : h.length = 80) :
    word (h ++ u32le n ++ rest) 80 = n % 2 ^ 32 := by
  have := word_app h (u32le n ++ rest) 0
  rw [hh] at this
  rw [List.append_assoc, this, word_u32le]

/-! ### C49 -/

section
variable {F : Type}

/-- The corners of the triangles of a mesh, if the index list is complete and in range. -/
def Spec.corners (m : TriangleMesh F) : Option (List (V3 F × V3 F × V3 F)) :=
  if m.triangles.length % 3 = 0 then
    (triples m.triangles).mapM fun t => do
      let a ← m.vertices[t.1]?
      let b ← m.vertices[t.2.1]?
      let c ← m.vertices[t.2.2]?
      pure (a, b, c)
  else none

/-- The words of a triangle: zero normal, three corners in single precision. -/
def Spec.stlWords (f32 : F → UInt32) (t : V3 F × V3 F × V3 F) : List Nat :=
  [0, 0, 0, (f32 t.1.x).toNat, (f32 t.1.y).toNat, (f32 t.1.z).toNat, (f32 t.2.1.x).toNat, (f32 t.2.1.y).toNat,
    (f32 t.2.1.z).toNat, (f32 t.2.2.x).toNat, (f32 t.2.2.y).toNat, (f32 t.2.2.z).toNat]

/-- The bytes of a triangle. -/
def triBytes (f32 : F → UInt32) (t : V3 F × V3 F × V3 F) : List UInt8 := (stlWords f32 t).flatMap u32le ++ [0, 0]

theorem triBytes_length (f32 : F → UInt32) (t : V3 F × V3 F × V3 F) : (triBytes f32 t).length = 50 := rfl

theorem stlTriangle_corners (f32 : F → UInt32) {vs : List (V3 F)} {i j k : Nat} {a b c : V3 F} (hi : vs[i]? = some a)
    (hj : vs[j]? = some b) (hk : vs[k]? = some c) : (stlTriangle f32 vs [i, j, k]).res = .ok () ∧
      outBytes (stlTriangle f32 vs [i, j, k]).ops = triBytes f32 (a, b, c) := by
  have h : ([i, j, k].forM (stlVertex f32 vs)).res = .ok () ∧ outBytes ([i, j, k].forM (stlVertex f32 vs)).ops
      = vertexBytes f32 a ++ vertexBytes f32 b ++ vertexBytes f32 c := by
    obtain ⟨ha1, -, ha2⟩ := stlVertex_ok f32 hi
    obtain ⟨hb1, -, hb2⟩ := stlVertex_ok f32 hj
    obtain ⟨hc1, -, hc2⟩ := stlVertex_ok f32 hk
    have h := forM_inv (stlVertex f32 vs) (l := [i, j, k]) (forM_ok _ (fun i => outBytes (stlVertex f32 vs i).ops) _
      (fun x hx => by
        simp only [List.mem_cons, List.not_mem_nil, or_false] at hx
        rcases hx with rfl | rfl | rfl
        · exact ⟨ha1, rfl⟩
        · exact ⟨hb1, rfl⟩
        · exact ⟨hc1, rfl⟩)).1
    refine ⟨(forM_ok _ (fun i => outBytes (stlVertex f32 vs i).ops) _ (fun x hx => ⟨h.1 x hx, rfl⟩)).1, ?_⟩
    rw [h.2]
    simp [ha2, hb2, hc2]
  have hr : (stlTriangle f32 vs [i, j, k]).res = .ok () := by
    rw [stlTriangle_eq]
    simp only []
    rw [trace_bind_ok _ h.1]
    rfl
  refine ⟨hr, ?_⟩
  rw [(stlTriangle_bytes f32 hr).2, h.2]
  rfl

theorem stlMesh_bytes (f32 : F → UInt32) {m : TriangleMesh F} {ts : List (V3 F × V3 F × V3 F)}
    (h : corners m = some ts) :
    ((chunks3 m.triangles).forM (stlTriangle f32 m.vertices)).res = .ok () ∧
      outBytes ((chunks3 m.triangles).forM (stlTriangle f32 m.vertices)).ops = ts.flatMap (triBytes f32) ∧
      m.triangleCount = ts.length := by
  unfold corners at h
  split at h
  · rename_i h3
    have hch : chunks3 m.triangles = (triples m.triangles).map fun t => [t.1, t.2.1, t.2.2] :=
      chunks3_eq (k := m.triangles.length / 3) (by omega)
    have hlen : (triples m.triangles).length = m.triangles.length / 3 := by
      have : ∀ l : List Nat, (triples l).length = l.length / 3 := by
        intro l
        induction l using triples.induct with
        | case1 a b c rest ih => simp only [triples, List.length_cons, ih]; omega
        | case2 l hl =>
          match l, hl with
          | [], _ => rfl
          | [a], _ => simp [triples]
          | [a, b], _ => simp [triples]
          | a :: b :: c :: l, hl => exact absurd rfl (hl a b c l)
      exact this _
    unfold TriangleMesh.triangleCount
    rw [hch, ← hlen]
    generalize triples m.triangles = L at h
    clear hch hlen
    induction L generalizing ts with
    | nil => cases h; exact ⟨rfl, rfl, rfl⟩
    | cons t L ih =>
      rw [List.mapM_cons] at h
      obtain ⟨i, j, k⟩ := t
      simp only [Option.bind_eq_bind, Option.bind_eq_some_iff, Option.pure_def, Option.some.injEq] at h
      obtain ⟨x, ⟨a, ha, b, hb, c, hc, rfl⟩, ts', hts, rfl⟩ := h
      obtain ⟨h1, h2, h4⟩ := ih hts
      obtain ⟨h5, h6⟩ := stlTriangle_corners f32 ha hb hc
      rw [List.map_cons]
      have hall : ∀ y ∈ [i, j, k] :: L.map (fun t => [t.1, t.2.1, t.2.2]), (stlTriangle f32 m.vertices y).res = .ok () := by
        intro y hy
        rcases List.mem_cons.1 hy with rfl | hy
        · exact h5
        · exact (forM_inv _ h1).1 y hy
      have hok := forM_ok (stlTriangle f32 m.vertices) (fun y => outBytes (stlTriangle f32 m.vertices y).ops)
        ([i, j, k] :: L.map (fun t => [t.1, t.2.1, t.2.2])) (fun y hy => ⟨hall y hy, rfl⟩)
      refine ⟨hok.1, ?_, by simp [h4]⟩
      rw [hok.2, List.flatMap_cons, h6, ← (forM_inv _ h1).2, h2, List.flatMap_cons]
  · cases h

theorem stlFaces_bytes (f32 : F → UInt32) : ∀ {ms : List (TriangleMesh F)} {css : List (List (V3 F × V3 F × V3 F))},
    ms.mapM corners = some css → ∀ count,
    ((ms.map .ok).foldlM (stlFace f32) count).res = .ok (count + css.flatten.length) ∧
      outBytes ((ms.map .ok).foldlM (stlFace f32) count).ops = css.flatten.flatMap (triBytes f32)
  | [], css, h, count => by cases h; exact ⟨rfl, rfl⟩
  | m :: ms, css, h, count => by
    rw [List.mapM_cons] at h
    simp only [Option.bind_eq_bind, Option.bind_eq_some_iff, Option.pure_def, Option.some.injEq] at h
    obtain ⟨ts, hts, css', hcss, rfl⟩ := h
    obtain ⟨h1, h2, h3⟩ := stlMesh_bytes f32 hts
    have hf : (stlFace f32 count (.ok m)) = ⟨((chunks3 m.triangles).forM (stlTriangle f32 m.vertices)).ops,
        .ok (count + ts.length)⟩ := by
      unfold stlFace Trace.lift
      rw [trace_bind_ok _ rfl]
      simp only [List.nil_append]
      rw [trace_bind_ok _ h1]
      have e : (pure (count + m.triangleCount) : Trace Nat) = ⟨[], .ok (count + m.triangleCount)⟩ := rfl
      simp only [e, List.append_nil]
      rw [h3]
    obtain ⟨h4, h5⟩ := stlFaces_bytes f32 hcss (count + ts.length)
    have e : ((Except.ok m :: ms.map .ok).foldlM (stlFace f32) count)
        = (stlFace f32 count (.ok m) >>= fun c => (ms.map .ok).foldlM (stlFace f32) c) := rfl
    rw [List.map_cons, e, trace_bind_ok (a := count + ts.length) _ (by rw [hf])]
    refine ⟨by simp only []; rw [h4]; simp [Nat.add_assoc], ?_⟩
    simp only []
    rw [outBytes_append, h5, hf, h2]
    simp

/-- The complete file. -/
theorem stl_file (f32 : F → UInt32) (name : List Char) {ms : List (TriangleMesh F)}
    {css : List (List (V3 F × V3 F × V3 F))} (h : ms.mapM corners = some css) :
    (saveAsStl f32 (some name) (ms.map .ok)).res = .ok () ∧
    final (saveAsStl f32 (some name) (ms.map .ok)).ops
      = stlHeader name ++ u32le css.flatten.length ++ css.flatten.flatMap (triBytes f32) := by
  rw [saveAsStl_eq]
  obtain ⟨h1, h2⟩ := stlFaces_bytes f32 h 0
  obtain ⟨h3, -⟩ := stlFaces_spec f32 (ms.map .ok) 0
  rw [Nat.zero_add] at h1
  rw [trace_bind_ok _ h1]
  refine ⟨rfl, ?_⟩
  unfold final
  have e : ∀ mid : List FileOp, FileOp.write (stlHeader name) :: .write (u32le 0) :: (mid
      ++ (Trace.seek 80 >>= fun _ => Trace.write (u32le css.flatten.length)).ops)
      = (.write (stlHeader name) :: .write (u32le 0) :: mid) ++ [.seek 80, .write (u32le css.flatten.length)] := by
    intro mid; rfl
  rw [e, run_append]
  have hw : IsWrites (.write (stlHeader name) :: .write (u32le 0) :: ((ms.map .ok).foldlM (stlFace f32) 0).ops) := by
    intro op hop
    simp only [List.mem_cons] at hop
    rcases hop with rfl | rfl | hop
    · exact ⟨_, rfl, by rw [stlHeader_length]⟩
    · exact ⟨_, rfl, by decide⟩
    · exact h3 op hop
  have hr := run_writes hw []
  rw [List.length_nil] at hr
  rw [hr]
  unfold FileState.run
  simp only [List.foldl_cons, List.foldl_nil, FileState.step]
  have e2 : ([] : List UInt8) ++ outBytes (.write (stlHeader name) :: .write (u32le 0) ::
      ((ms.map .ok).foldlM (stlFace f32) 0).ops) = stlHeader name ++ u32le 0 ++ css.flatten.flatMap (triBytes f32) := by
    rw [← h2]
    simp [outBytes]
  rw [e2, write_count (stlHeader_length name) (by simp [u32le_length])]
  simp [u32le_length]

theorem words_at (ws : List Nat) (rest : List UInt8) : ∀ k (h : k < ws.length),
    word (ws.flatMap u32le ++ rest) (4 * k) = ws[k] % 2 ^ 32 := by
  induction ws with
  | nil => intro k h; cases h
  | cons w ws ih =>
    intro k h
    cases k with
    | zero =>
      rw [List.flatMap_cons, List.append_assoc]
      exact word_u32le w _
    | succ k =>
      have := word_app (u32le w) (ws.flatMap u32le ++ rest) (4 * k)
      rw [u32le_length] at this
      rw [List.flatMap_cons, List.append_assoc, show 4 * (k + 1) = 4 + 4 * k by omega, this, ih k (by simpa using h)]
      rfl

theorem stlTriangle_at (f32 : F → UInt32) {hd : List UInt8} (hh : hd.length = 84) {ts : List (V3 F × V3 F × V3 F)}
    {i : Nat} (hi : i < ts.length) :
    Spec.stlTriangle (hd ++ ts.flatMap (triBytes f32)) i = (stlWords f32 ts[i], [0, 0]) := by
  have hsplit : ts.flatMap (triBytes f32) = (ts.take i).flatMap (triBytes f32)
      ++ (triBytes f32 ts[i] ++ (ts.drop (i + 1)).flatMap (triBytes f32)) := by
    conv_lhs => rw [← List.take_append_drop i ts, List.drop_eq_getElem_cons hi]
    rw [List.flatMap_append, List.flatMap_cons]
  have hlen : ∀ l : List (V3 F × V3 F × V3 F), (l.flatMap (triBytes f32)).length = 50 * l.length := by
    intro l
    induction l with
    | nil => rfl
    | cons t l ih => rw [List.flatMap_cons, List.length_append, ih, triBytes_length, List.length_cons]; omega
  have hpre : (hd ++ (ts.take i).flatMap (triBytes f32)).length = 84 + 50 * i := by
    rw [List.length_append, hh, hlen, List.length_take]; omega
  have hw : ∀ k, word (hd ++ ts.flatMap (triBytes f32)) (84 + 50 * i + k)
      = word (triBytes f32 ts[i] ++ (ts.drop (i + 1)).flatMap (triBytes f32)) k := by
    intro k
    rw [hsplit, ← List.append_assoc, ← hpre, word_app]
  have hg : ∀ k, (hd ++ ts.flatMap (triBytes f32)).getD (84 + 50 * i + k) 0
      = (triBytes f32 ts[i] ++ (ts.drop (i + 1)).flatMap (triBytes f32)).getD k 0 := by
    intro k
    rw [hsplit, ← List.append_assoc, ← hpre, getD_app_right]
  unfold Spec.stlTriangle
  refine Prod.ext ?_ ?_
  · simp only []
    apply List.ext_getElem
    · rfl
    · intro k h1 h2
      rw [List.getElem_map, List.getElem_range, hw]
      have h3 := words_at (stlWords f32 ts[i]) ([0, 0] ++ (ts.drop (i + 1)).flatMap (triBytes f32)) k h2
      unfold triBytes at h3 ⊢
      rw [List.append_assoc, h3]
      have hlt : ∀ w ∈ stlWords f32 ts[i], w < 2 ^ 32 := by
        intro w hw
        simp only [stlWords, List.mem_cons, List.not_mem_nil, or_false] at hw
        rcases hw with rfl | rfl | rfl | rfl | rfl | rfl | rfl | rfl | rfl | rfl | rfl | rfl <;>
          first | exact UInt32.toNat_lt _ | decide
      exact Nat.mod_eq_of_lt (hlt _ (List.getElem_mem _))
  · simp only [hg]
    rfl

/-- **C49**, the file: `save_as_stl` succeeds, the file has 84 + 50·n bytes, and decoding it returns all triangles of
all faces in order, with zero normals and attributes and the corners in single precision. -/
theorem C49_decode (f32 : F → UInt32) (name : List Char) {ms : List (TriangleMesh F)}
    {css : List (List (V3 F × V3 F × V3 F))} (h : ms.mapM corners = some css) (hn : css.flatten.length < 2 ^ 32) :
    (saveAsStl f32 (some name) (ms.map .ok)).res = .ok () ∧
    (final (saveAsStl f32 (some name) (ms.map .ok)).ops).take 80 = stlHeader name ∧
    decodeStl (final (saveAsStl f32 (some name) (ms.map .ok)).ops)
      = some (css.flatten.map fun t => (stlWords f32 t, [0, 0])) := by
  obtain ⟨h1, h2⟩ := stl_file f32 name h
  refine ⟨h1, ?_, ?_⟩
  · rw [h2, List.append_assoc, ← stlHeader_length name, List.take_left]
  rw [h2]
  unfold decodeStl
  have hc := word_count (h := stlHeader name) (rest := css.flatten.flatMap (triBytes f32)) css.flatten.length
    (stlHeader_length name)
  rw [Nat.mod_eq_of_lt hn] at hc
  rw [hc, if_pos]
  · congr 1
    apply List.ext_getElem
    · rw [List.length_map, List.length_map, List.length_range]
    · intro i h3 h4
      rw [List.length_map] at h4
      rw [List.getElem_map, List.getElem_range, List.getElem_map]
      exact stlTriangle_at f32 (by simp [stlHeader_length, u32le_length]) h4
  · have hlen : ∀ l : List (V3 F × V3 F × V3 F), (l.flatMap (triBytes f32)).length = 50 * l.length := by
      intro l
      induction l with
      | nil => rfl
      | cons t l ih => rw [List.flatMap_cons, List.length_append, ih, triBytes_length, List.length_cons]; omega
    rw [List.length_append, List.length_append, stlHeader_length, u32le_length, hlen]

/-- **C49**, the premise of `C49_decode` holds for every list of meshes whose index lists are complete and in range. -/
theorem C49_applies (ms : List (TriangleMesh F)) (h : ∀ m ∈ ms, m.triangles.length % 3 = 0 ∧
    ∀ i ∈ m.triangles, i < m.vertices.length) : ∃ css, ms.mapM corners = some css ∧
      css.flatten.length = (ms.map fun m => m.triangles.length / 3).sum := by
  induction ms with
  | nil => exact ⟨[], rfl, rfl⟩
  | cons m ms ih =>
    obtain ⟨css, h1, h2⟩ := ih fun m' hm' => h m' (by simp [hm'])
    obtain ⟨h3, h4⟩ := h m (by simp)
    have : ∀ l : List Nat, (∀ i ∈ l, i < m.vertices.length) → ∃ ts : List (V3 F × V3 F × V3 F),
        (triples l).mapM (fun t => do
          let a ← m.vertices[t.1]?
          let b ← m.vertices[t.2.1]?
          let c ← m.vertices[t.2.2]?
          pure (a, b, c)) = some ts ∧ ts.length = l.length / 3 := by
      intro l
      induction l using triples.induct with
      | case1 a b c rest ih =>
        intro hl
        obtain ⟨ts, h5, h6⟩ := ih fun i hi => hl i (by simp [hi])
        refine ⟨(m.vertices[a]'(hl a (by simp)), m.vertices[b]'(hl b (by simp)), m.vertices[c]'(hl c (by simp))) :: ts,
          ?_, by simp only [List.length_cons, h6]; omega⟩
        simp only [triples, List.mapM_cons, h5]
        simp [List.getElem?_eq_getElem (hl a (by simp)), List.getElem?_eq_getElem (hl b (by simp)),
          List.getElem?_eq_getElem (hl c (by simp))]
      | case2 l hl =>
        intro _
        match l, hl with
        | [], _ => exact ⟨[], rfl, rfl⟩
        | [a], _ => exact ⟨[], rfl, by simp⟩
        | [a, b], _ => exact ⟨[], rfl, by simp⟩
        | a :: b :: c :: l, hl => exact absurd rfl (hl a b c l)
    obtain ⟨ts, h5, h6⟩ := this _ h4
    refine ⟨ts :: css, ?_, by simp [h2, h6]⟩
    have hc : corners m = some ts := by unfold corners; rw [if_pos h3]; exact h5
    rw [List.mapM_cons, hc, h1]
    rfl

end

/-- Non-vacuity: a model with two meshes, three triangles; here the words are the integers themselves. -/
theorem C49_example : decodeStl (final (saveAsStl (F := Nat) UInt32.ofNat (some "part".toList)
      [.ok ⟨[⟨1, 2, 3⟩, ⟨4, 5, 6⟩, ⟨7, 8, 9⟩, ⟨10, 11, 12⟩], [], [0, 1, 2, 2, 1, 3]⟩,
       .ok ⟨[⟨300, 70000, 4000000000⟩, ⟨0, 0, 1⟩, ⟨0, 1, 0⟩], [], [2, 0, 1]⟩]).ops)
    = some [([0, 0, 0, 1, 2, 3, 4, 5, 6, 7, 8, 9], [0, 0]), ([0, 0, 0, 7, 8, 9, 4, 5, 6, 10, 11, 12], [0, 0]),
        ([0, 0, 0, 0, 1, 0, 300, 70000, 4000000000, 0, 0, 1], [0, 0])] := by decide +kernel

/-! ### C50 -/

theorem events_append (a b : List FileOp) : events (a ++ b) = events a ++ events b := by simp [events]

theorem events_writes {ops : List FileOp} (h : IsWrites ops) :
    events ops = (outBytes ops).map fun b => FileOp.write [b] := by
  induction ops with
  | nil => rfl
  | cons op ops ih =>
    obtain ⟨b, rfl, -⟩ := h op (by simp)
    have e : events (FileOp.write b :: ops) = (b.map fun x => FileOp.write [x]) ++ events ops := rfl
    have e2 : outBytes (FileOp.write b :: ops) = b ++ outBytes ops := rfl
    rw [e, e2, ih (fun o ho => h o (by simp [ho])), List.map_append]

theorem run_bytes (s : FileState) (b : List UInt8) : s.run (b.map fun x => FileOp.write [x]) = s.write b := by
  unfold FileState.run FileState.write
  rw [List.foldl_map]
  rfl

/-- The byte-wise events lead to the same file. -/
theorem run_events (s : FileState) (ops : List FileOp) : s.run (events ops) = s.run ops := by
  induction ops generalizing s with
  | nil => rfl
  | cons op ops ih =>
    cases op with
    | write b =>
      have e : events (FileOp.write b :: ops) = (b.map fun x => FileOp.write [x]) ++ events ops := rfl
      rw [e, run_append, run_bytes, ih]
      rfl
    | seek p =>
      have e : events (FileOp.seek p :: ops) = FileOp.seek p :: events ops := rfl
      have e2 : ∀ l, s.run (FileOp.seek p :: l) = (s.step (.seek p)).run l := fun l => rfl
      rw [e, e2, e2, ih]

theorem take_map_bytes (b : List UInt8) (n : Nat) :
    FileState.run ⟨[], 0⟩ ((b.map fun x => FileOp.write [x]).take n) = ⟨b.take n, (b.take n).length⟩ := by
  rw [← List.map_take, run_bytes]
  have := write_end [] (b.take n)
  simpa using this

theorem word_take {b : List UInt8} {n i : Nat} (h : i + 4 ≤ n) : word (b.take n) i = word b i := by
  have : ∀ k, k < n → (b.take n).getD k 0 = b.getD k 0 := by
    intro k hk
    simp [List.getD, List.getElem?_take, hk]
  unfold word
  rw [this i (by omega), this (i + 1) (by omega), this (i + 2) (by omega), this (i + 3) (by omega)]

/-- A count field that is only partly written announces no more than the full one. -/
theorem word_partial {h rest : List UInt8} (c k : Nat) (hh : h.length = 80) (hk : k ≤ 4) :
    word (h ++ ((u32le c).take k ++ (u32le 0).drop k) ++ rest) 80 ≤ c := by
  have := word_app h (((u32le c).take k ++ (u32le 0).drop k) ++ rest) 0
  rw [hh] at this
  rw [List.append_assoc, this]
  have h0 : (UInt8.ofNat 0).toNat = 0 := rfl
  have hk' : k = 0 ∨ k = 1 ∨ k = 2 ∨ k = 3 ∨ k = 4 := by omega
  unfold word u32le
  rcases hk' with rfl | rfl | rfl | rfl | rfl <;>
    simp only [List.take_zero, List.take_succ_cons, List.drop_zero, List.drop_succ_cons, List.cons_append,
      List.nil_append, List.getD_cons_zero, List.getD_cons_succ, Nat.zero_add, ofNat_toNat] <;> omega

section
variable {F : Type}

/-- **C50** Wherever `save_as_stl` stops (crash, write error or panic after any byte), a file whose count field is
complete and not zero contains all the triangle data: the same bytes as the complete file, enough for the announced
number of triangles.  Index lists may even be incomplete or out of range. -/
theorem C50_crash (f32 : F → UInt32) (stem : Option (List Char)) (faces : List (Res (TriangleMesh F))) (n : Nat)
    (h84 : 84 ≤ (crashed (saveAsStl f32 stem faces).ops n).length)
    (hc : word (crashed (saveAsStl f32 stem faces).ops n) 80 ≠ 0) :
    (saveAsStl f32 stem faces).res = .ok () ∧
    (crashed (saveAsStl f32 stem faces).ops n).drop 84 = (final (saveAsStl f32 stem faces).ops).drop 84 ∧
    84 + 50 * word (crashed (saveAsStl f32 stem faces).ops n) 80 ≤ (crashed (saveAsStl f32 stem faces).ops n).length := by
  cases stem with
  | none =>
    have e : (saveAsStl f32 none faces).ops = [] := rfl
    rw [e] at h84
    simp [crashed, events, FileState.run] at h84
  | some name =>
    obtain ⟨mid, hmid, hs⟩ := saveAsStl_shape f32 name faces
    have hw : IsWrites (.write (stlHeader name) :: .write (u32le 0) :: mid) := by
      intro op hop
      simp only [List.mem_cons] at hop
      rcases hop with rfl | rfl | hop
      · exact ⟨_, rfl, by rw [stlHeader_length]⟩
      · exact ⟨_, rfl, by decide⟩
      · exact hmid op hop
    have hout : outBytes (.write (stlHeader name) :: .write (u32le 0) :: mid)
        = stlHeader name ++ u32le 0 ++ outBytes mid := by simp [outBytes]
    have hzero : ∀ m, 84 ≤ ((stlHeader name ++ u32le 0 ++ outBytes mid).take m).length →
        word ((stlHeader name ++ u32le 0 ++ outBytes mid).take m) 80 = 0 := by
      intro m hm
      rw [List.length_take] at hm
      rw [word_take (by omega), word_count 0 (stlHeader_length name)]; rfl
    rcases hs with ⟨e, hs⟩ | ⟨c, hs, hcount⟩
    · rw [hs] at h84 hc
      exfalso
      unfold crashed at h84 hc
      simp only [] at h84 hc
      rw [events_writes hw, take_map_bytes, hout] at h84 hc
      exact hc (hzero n h84)
    · rw [hs] at h84 hc ⊢
      simp only [] at h84 hc ⊢
      refine ⟨trivial, ?_⟩
      generalize hall : stlHeader name ++ u32le 0 ++ outBytes mid = all at *
      have hev : events (.write (stlHeader name) :: .write (u32le 0) :: (mid ++ [.seek 80, .write (u32le c)]))
          = (all.map fun b => FileOp.write [b]) ++ FileOp.seek 80 :: (u32le c).map fun b => FileOp.write [b] := by
        rw [← hout, ← events_writes hw, ← List.cons_append, ← List.cons_append, events_append]
        rfl
      have hrun : ∀ k, FileState.run ⟨[], 0⟩ ((all.map fun b => FileOp.write [b]) ++ FileOp.seek 80 ::
          ((u32le c).take k).map fun b => FileOp.write [b])
          = ⟨stlHeader name ++ ((u32le c).take k ++ (u32le 0).drop ((u32le c).take k).length) ++ outBytes mid,
              80 + ((u32le c).take k).length⟩ := by
        intro k
        have h1 := take_map_bytes all all.length
        rw [List.take_of_length_le (by simp), List.take_length] at h1
        rw [run_append, h1]
        have e2 : ∀ (s : FileState) l, s.run (FileOp.seek 80 :: l) = (s.step (.seek 80)).run l := fun s l => rfl
        rw [e2, run_bytes]
        simp only [FileState.step]
        rw [← hall, write_count (stlHeader_length name) (by simp [u32le_length])]
      have hfinal : final (.write (stlHeader name) :: .write (u32le 0) :: (mid ++ [.seek 80, .write (u32le c)]))
          = stlHeader name ++ u32le c ++ outBytes mid := by
        unfold final
        rw [← run_events, hev]
        have := hrun 4
        rw [List.take_of_length_le (by simp [u32le_length])] at this
        rw [this]
        simp [u32le_length]
      unfold crashed at h84 hc ⊢
      rw [hfinal]
      rw [hev] at h84 hc ⊢
      by_cases hn : n ≤ all.length
      · rw [List.take_append_of_le_length (by simpa using hn), take_map_bytes] at h84 hc
        exact absurd (hzero n h84) hc
      · have e : ((all.map fun b => FileOp.write [b]) ++ FileOp.seek 80 :: (u32le c).map fun b => FileOp.write [b]).take n
            = (all.map fun b => FileOp.write [b]) ++ FileOp.seek 80 ::
              ((u32le c).take (n - all.length - 1)).map fun b => FileOp.write [b] := by
          rw [List.take_append, List.take_of_length_le (by simp; omega), List.length_map]
          have : n - all.length = (n - all.length - 1) + 1 := by omega
          rw [this, List.take_succ_cons, ← List.map_take]
          simp
        rw [e, hrun] at h84 hc ⊢
        generalize (n - all.length - 1) = k at *
        simp only [] at h84 hc ⊢
        have hkl : ((u32le c).take k).length = min k 4 := by simp [u32le_length]
        have h4 : (stlHeader name ++ ((u32le c).take k ++ (u32le 0).drop ((u32le c).take k).length)).length = 84 := by
          simp [u32le_length, stlHeader_length]
        have h4' : (stlHeader name ++ u32le c).length = 84 := by simp [u32le_length, stlHeader_length]
        constructor
        · conv_lhs => rw [← h4, List.drop_left]
          rw [← h4', List.drop_left]
        · have hp := word_partial (h := stlHeader name) (rest := outBytes mid) c (min k 4) (stlHeader_length name)
            (by omega)
          have hk2 : (u32le c).take (min k 4) = (u32le c).take k := by
            rcases Nat.le_total k 4 with h | h
            · rw [Nat.min_eq_left h]
            · rw [Nat.min_eq_right h, List.take_of_length_le (by simp [u32le_length]), List.take_of_length_le
                (by simpa [u32le_length] using h)]
          rw [hk2] at hp
          rw [hkl]
          rw [List.length_append, ← hkl, h4, hkl]
          omega

end

/-- Non-vacuity: the 139th event writes the first byte of the count; from there on the file announces its triangle. -/
theorem C50_example :
    let ops := (saveAsStl (F := Nat) UInt32.ofNat (some "p".toList) [.ok ⟨[⟨1, 2, 3⟩, ⟨4, 5, 6⟩, ⟨7, 8, 9⟩], [], [0, 1, 2]⟩]).ops
    (crashed ops 135).length = 134 ∧ word (crashed ops 135) 80 = 0 ∧ word (crashed ops 136) 80 = 1 ∧
      (crashed ops 100).length = 100 := by decide +kernel

/-! ### C80: the buffered writer -/

/-- The state of a session: what reached the file is the first part of the events, the buffer the rest. -/
def Spec.Buffered (done : List FileOp) (w : BufWriter) : Prop :=
  ∃ n, w.file = FileState.run ⟨[], 0⟩ ((events done).take n) ∧
    (events done).drop n = w.buf.map fun b => FileOp.write [b]

theorem flush_buffered {done : List FileOp} {w : BufWriter} (dev : Nat → Nat) (h : Buffered done w) :
    Buffered done (w.flush dev).1 := by
  obtain ⟨n, h1, h2⟩ := h
  unfold BufWriter.flush
  split
  · exact ⟨n, h1, h2⟩
  · refine ⟨n + dev w.flushes, ?_, ?_⟩
    · simp only []
      rw [List.take_add, run_append, ← h1, h2, ← List.map_take, run_bytes]
    · simp only []
      rw [← List.drop_drop, h2, List.map_drop]

theorem flush_ok {dev : Nat → Nat} {w : BufWriter} (h : (w.flush dev).2 = true) : (w.flush dev).1.buf = [] := by
  unfold BufWriter.flush at h ⊢
  split at h
  · rename_i h0; rw [if_pos h0]; exact h0
  · rename_i h0
    rw [if_neg h0]
    simpa using h

/-- A state whose buffer holds everything that has not reached the file, extended by new events. -/
theorem buffered_write {done : List FileOp} {w : BufWriter} (h : Buffered done w) (b : List UInt8) :
    Buffered (done ++ [.write b]) { w with buf := w.buf ++ b } := by
  obtain ⟨n, h1, h2⟩ := h
  have e : events (done ++ [.write b]) = events done ++ b.map fun x => FileOp.write [x] := by
    rw [events_append]; simp [events]
  rcases Nat.le_total n (events done).length with hn | hn
  · refine ⟨n, ?_, ?_⟩
    · rw [e, List.take_append_of_le_length hn]; exact h1
    · rw [e, List.drop_append_of_le_length hn, h2, List.map_append]
  · refine ⟨(events done).length, ?_, ?_⟩
    · rw [e, List.take_left]
      rw [List.take_of_length_le hn] at h1
      exact h1
    · rw [e, List.drop_left]
      rw [List.drop_of_length_le hn] at h2
      have : w.buf = [] := by simpa using h2.symm
      simp [this]

theorem buffered_seek {done : List FileOp} {w : BufWriter} (h : Buffered done w) (hb : w.buf = []) (p : Nat) :
    Buffered (done ++ [.seek p]) { w with file := { w.file with pos := p } } := by
  obtain ⟨n, h1, h2⟩ := h
  have e : events (done ++ [.seek p]) = events done ++ [.seek p] := by
    rw [events_append]; simp [events]
  rw [hb] at h2
  have hn : (events done).length ≤ n := by simpa using h2
  refine ⟨(events done).length + 1, ?_, ?_⟩
  · rw [e, List.take_of_length_le (by simp), run_append]
    rw [List.take_of_length_le hn] at h1
    rw [← h1]
    rfl
  · rw [e, List.drop_of_length_le (by simp), hb]
    rfl

/-- One call: either it succeeds and is added to the calls done, or it fails and the state describes the calls
before it. -/
theorem step_buffered {done : List FileOp} {w : BufWriter} (dev : Nat → Nat) (h : Buffered done w) (op : FileOp) :
    ((w.step dev op).2 = true → Buffered (done ++ [op]) (w.step dev op).1) ∧
    ((w.step dev op).2 = false → Buffered done (w.step dev op).1) := by
  have hf := flush_buffered dev h
  cases op with
  | write b =>
    unfold BufWriter.step
    simp only []
    split
    · exact ⟨fun _ => buffered_write h b, fun h => by cases h⟩
    · split
      · exact ⟨fun _ => buffered_write hf b, fun h => by cases h⟩
      · rename_i h2
        exact ⟨fun h3 => absurd h3 h2, fun _ => hf⟩
  | seek p =>
    unfold BufWriter.step
    simp only []
    split
    · rename_i h2
      exact ⟨fun _ => buffered_seek hf (flush_ok h2) p, fun h => by cases h⟩
    · rename_i h2
      exact ⟨fun h3 => absurd h3 h2, fun _ => hf⟩

theorem run_buffered (dev : Nat → Nat) : ∀ (ops done : List FileOp) (w : BufWriter), Buffered done w →
    ∃ k, k ≤ ops.length ∧ Buffered (done ++ ops.take k) (BufWriter.run dev w ops).1 ∧
      ((BufWriter.run dev w ops).2 = true → k = ops.length)
  | [], done, w, h => ⟨0, le_refl _, by simpa [BufWriter.run] using h, fun _ => rfl⟩
  | op :: ops, done, w, h => by
    obtain ⟨h1, h2⟩ := step_buffered dev h op
    unfold BufWriter.run
    split
    · rename_i hs
      obtain ⟨k, hk, h3, h4⟩ := run_buffered dev ops (done ++ [op]) _ (h1 hs)
      refine ⟨k + 1, by simpa using hk, ?_, fun hr => by simp [h4 hr]⟩
      rw [List.take_succ_cons, ← List.append_cons done op] at *
      simpa using h3
    · rename_i hs
      have hs' : (w.step dev op).2 = false := by simpa using hs
      exact ⟨0, by simp, by simpa using h2 hs', fun hr => absurd hr hs⟩

/-- **C80**, justification of the crash model: whatever the operating system accepts in each flush of the buffer, the
file left behind (also after an error, and after the flush of the destructor) is one of the states `crashed`. -/
theorem C80_crash_states (dev : Nat → Nat) (ops : List FileOp) :
    ∃ n, (BufWriter.session dev ops).1.content = crashed ops n := by
  obtain ⟨k, hk, h, -⟩ := run_buffered dev ops [] ⟨[], ⟨[], 0⟩, 0⟩ ⟨0, rfl, rfl⟩
  obtain ⟨n, h1, h2⟩ := flush_buffered dev h
  refine ⟨min n (events (ops.take k)).length, ?_⟩
  unfold BufWriter.session crashed
  simp only []
  rw [h1]
  congr 2
  rw [List.nil_append]
  have : events ops = events (ops.take k) ++ events (ops.drop k) := by
    rw [← events_append, List.take_append_drop]
  rw [this, List.take_append_of_le_length (by omega)]
  rcases Nat.le_total n (events (ops.take k)).length with h | h
  · rw [Nat.min_eq_left h]
  · rw [Nat.min_eq_right h, List.take_length, List.take_of_length_le h]

/-- The flush number only grows, and a run depends only on the flushes it makes. -/
theorem flush_mono (dev : Nat → Nat) (w : BufWriter) : w.flushes ≤ (w.flush dev).1.flushes := by
  unfold BufWriter.flush; split
  · exact le_refl _
  · exact Nat.le_succ _

theorem flush_agree {dev dev' : Nat → Nat} {w : BufWriter}
    (h : ∀ k, k < (w.flush dev).1.flushes → dev' k = dev k) : w.flush dev' = w.flush dev := by
  unfold BufWriter.flush at h ⊢
  split
  · rfl
  · rename_i h0
    rw [if_neg h0] at h
    rw [h w.flushes (by simp)]

theorem step_mono (dev : Nat → Nat) (w : BufWriter) (op : FileOp) : w.flushes ≤ (w.step dev op).1.flushes := by
  have := flush_mono dev w
  cases op with
  | write b =>
    unfold BufWriter.step; simp only []
    split
    · exact le_refl _
    · split <;> exact this
  | seek p =>
    unfold BufWriter.step; simp only []
    split <;> exact this

theorem step_agree {dev dev' : Nat → Nat} {w : BufWriter} {op : FileOp}
    (h : ∀ k, k < (w.step dev op).1.flushes → dev' k = dev k) : w.step dev' op = w.step dev op := by
  cases op with
  | write b =>
    unfold BufWriter.step at h ⊢
    simp only [] at h ⊢
    split
    · rfl
    · rename_i h0
      rw [if_neg h0] at h
      rw [flush_agree (dev := dev)]
      intro k hk
      apply h
      split <;> exact hk
  | seek p =>
    unfold BufWriter.step at h ⊢
    simp only [] at h ⊢
    rw [flush_agree (dev := dev)]
    intro k hk
    apply h
    split <;> exact hk

theorem run_mono (dev : Nat → Nat) : ∀ (ops : List FileOp) (w : BufWriter), w.flushes ≤ (BufWriter.run dev w ops).1.flushes
  | [], w => le_refl _
  | op :: ops, w => by
    unfold BufWriter.run
    split
    · exact le_trans (step_mono dev w op) (run_mono dev ops _)
    · exact step_mono dev w op

theorem run_agree {dev dev' : Nat → Nat} : ∀ {ops : List FileOp} {w : BufWriter},
    (∀ k, k < (BufWriter.run dev w ops).1.flushes → dev' k = dev k) →
    BufWriter.run dev' w ops = BufWriter.run dev w ops
  | [], w, _ => rfl
  | op :: ops, w, h => by
    have hs : w.step dev' op = w.step dev op := by
      apply step_agree
      intro k hk
      apply h
      unfold BufWriter.run
      split
      · exact lt_of_lt_of_le hk (run_mono dev ops _)
      · exact hk
    unfold BufWriter.run at h ⊢
    rw [hs]
    split
    · rename_i h2
      rw [if_pos h2] at h
      exact run_agree h
    · rfl

/-- With a device that accepts everything each call succeeds. -/
theorem step_good {w : BufWriter} (hw : w.buf.length ≤ 8192) {op : FileOp}
    (hop : ∀ b, op = .write b → b.length < 8192) :
    (w.step (fun _ => 8192) op).2 = true ∧ (w.step (fun _ => 8192) op).1.buf.length ≤ 8192 := by
  have hf : (w.flush (fun _ => 8192)).2 = true := by
    unfold BufWriter.flush
    split
    · rfl
    · simp; omega
  have hb := flush_ok hf
  cases op with
  | write b =>
    unfold BufWriter.step
    simp only []
    split
    · rename_i h; exact ⟨rfl, by simpa using h⟩
    · exact ⟨rfl, by simpa [hb] using (hop b rfl).le⟩
  | seek p =>
    unfold BufWriter.step
    simp only []
    rw [if_pos hf]
    exact ⟨rfl, by simp [hb]⟩

theorem run_good : ∀ {ops : List FileOp} {w : BufWriter}, w.buf.length ≤ 8192 →
    (∀ b, FileOp.write b ∈ ops → b.length < 8192) →
    (BufWriter.run (fun _ => 8192) w ops).2 = true ∧ (BufWriter.run (fun _ => 8192) w ops).1.buf.length ≤ 8192
  | [], w, hw, _ => ⟨rfl, hw⟩
  | op :: ops, w, hw, h => by
    obtain ⟨h1, h2⟩ := step_good hw (op := op) fun b hb => h b (by simp [hb])
    unfold BufWriter.run
    rw [if_pos h1]
    exact run_good h2 fun b hb => h b (by simp [hb])

theorem seek_buf {dev : Nat → Nat} {w : BufWriter} (h : (w.flush dev).2 = true) (p : Nat) :
    (BufWriter.run dev w [.seek p]).1.buf = [] := by
  have hs : w.step dev (.seek p) = ({ (w.flush dev).1 with file := { (w.flush dev).1.file with pos := p } }, true) := by
    unfold BufWriter.step
    simp only []
    rw [if_pos h]
  unfold BufWriter.run
  rw [hs]
  exact flush_ok h

theorem small_write {w : BufWriter} (dev : Nat → Nat) (hb : w.buf = []) {b : List UInt8} (h : b.length < 8192) :
    BufWriter.run dev w [.write b] = ({ w with buf := b }, true) := by
  have hs : w.step dev (.write b) = ({ w with buf := b }, true) := by
    unfold BufWriter.step
    simp only []
    rw [if_pos (by rw [hb]; simpa using h.le), hb, List.nil_append]
  unfold BufWriter.run
  rw [hs]
  rfl

/-- **C80**, a device that accepts everything: the result is `Ok` and the file the complete one. -/
theorem C80_complete {ops : List FileOp} (h : ∀ b, FileOp.write b ∈ ops → b.length < 8192) :
    (BufWriter.session (fun _ => 8192) ops).2 = true ∧
    (BufWriter.session (fun _ => 8192) ops).1.content = final ops := by
  obtain ⟨h1, h2⟩ := run_good (ops := ops) (w := ⟨[], ⟨[], 0⟩, 0⟩) (by simp) h
  obtain ⟨k, hk, h3, h4⟩ := run_buffered (fun _ => 8192) ops [] ⟨[], ⟨[], 0⟩, 0⟩ ⟨0, rfl, rfl⟩
  have hk' := h4 h1
  rw [hk', List.take_length, List.nil_append] at h3
  obtain ⟨n, h5, h6⟩ := flush_buffered (fun _ => 8192) h3
  refine ⟨h1, ?_⟩
  unfold BufWriter.session
  simp only []
  rw [h5]
  have hb : ((BufWriter.run (fun _ => 8192) ⟨[], ⟨[], 0⟩, 0⟩ ops).1.flush (fun _ => 8192)).1.buf = [] := by
    apply flush_ok
    unfold BufWriter.flush
    split
    · rfl
    · simp; omega
  rw [hb] at h6
  have hn : (events ops).length ≤ n := by simpa using h6
  rw [List.take_of_length_le hn, run_events]
  rfl

section
variable {F : Type}

theorem shape_pieces {mid : List FileOp} (hmid : IsWrites mid) (name : List Char) (c : Nat) :
    ∀ b, FileOp.write b ∈ (.write (stlHeader name) :: .write (u32le 0) :: (mid ++ [.seek 80, .write (u32le c)])) →
      b.length < 8192 := by
  intro b hb
  simp only [List.mem_cons, List.mem_append, FileOp.write.injEq, reduceCtorEq, List.not_mem_nil, or_false,
    false_or] at hb
  rcases hb with rfl | rfl | hb | rfl
  · rw [stlHeader_length]; decide
  · decide
  · obtain ⟨b', h1, h2⟩ := hmid _ hb
    cases h1
    omega
  · rw [u32le_length]; decide

/-- **C80** The result of `save_as_stl` says nothing about the last flush: for every model that is meshed without
panic there is a device that fails in the very last write only; the call returns `Ok` and leaves all the triangle data
behind a count of zero. -/
theorem C80_false_success (f32 : F → UInt32) (name : List Char) (faces : List (Res (TriangleMesh F)))
    (hok : (saveAsStl f32 (some name) faces).res = .ok ()) :
    ∃ dev K, (∀ k, k ≠ K → dev k = 8192) ∧
      (BufWriter.session dev (saveAsStl f32 (some name) faces).ops).2 = true ∧
      (BufWriter.session dev (saveAsStl f32 (some name) faces).ops).1.content.drop 84
        = (final (saveAsStl f32 (some name) faces).ops).drop 84 ∧
      word (BufWriter.session dev (saveAsStl f32 (some name) faces).ops).1.content 80 = 0 := by
  obtain ⟨mid, hmid, hs⟩ := saveAsStl_shape f32 name faces
  rcases hs with ⟨e, hs⟩ | ⟨c, hs, -⟩
  · rw [hs] at hok; cases hok
  rw [hs]
  simp only []
  have hpieces := shape_pieces hmid name c
  set good : Nat → Nat := fun _ => 8192 with hgood
  set pre : List FileOp := .write (stlHeader name) :: .write (u32le 0) :: (mid ++ [.seek 80]) with hpre
  have hops : (.write (stlHeader name) :: .write (u32le 0) :: (mid ++ [.seek 80, .write (u32le c)]) : List FileOp)
      = pre ++ [.write (u32le c)] := by simp [hpre]
  rw [hops] at hpieces ⊢
  -- the state before the last write
  have hrunapp : ∀ (dev : Nat → Nat) (a b : List FileOp) (w : BufWriter), (BufWriter.run dev w a).2 = true →
      BufWriter.run dev w (a ++ b) = BufWriter.run dev (BufWriter.run dev w a).1 b := by
    intro dev a
    induction a with
    | nil => intro b w _; rfl
    | cons op a ih =>
      intro b w h
      rw [List.cons_append, BufWriter.run]
      rw [BufWriter.run] at h
      conv_rhs => rw [BufWriter.run]
      split
      · rename_i h1
        rw [if_pos h1] at h
        exact ih b _ h
      · rename_i h1; rw [if_neg h1] at h; exact absurd h h1
  set w0 : BufWriter := ⟨[], ⟨[], 0⟩, 0⟩ with hw0
  obtain ⟨hr1, hr2⟩ := run_good (ops := pre) (w := w0) (by simp [hw0]) (fun b hb => hpieces b (by simp [hb]))
  obtain ⟨k, hk, h3, h4⟩ := run_buffered good pre [] w0 ⟨0, rfl, rfl⟩
  have hk' := h4 hr1
  rw [hk', List.take_length, List.nil_append] at h3
  -- the buffer is empty after the seek
  have hbuf : (BufWriter.run good w0 pre).1.buf = [] := by
    have hp : pre = (.write (stlHeader name) :: .write (u32le 0) :: mid) ++ [.seek 80] := by simp [hpre]
    obtain ⟨hq1, hq2⟩ := run_good (ops := .write (stlHeader name) :: .write (u32le 0) :: mid) (w := w0) (by simp [hw0])
      (fun b hb => hpieces b (by
        rw [hp]
        exact List.mem_append_left _ (List.mem_append_left _ hb)))
    rw [hp, hrunapp good _ _ _ hq1]
    have hf : ((BufWriter.run good w0 (.write (stlHeader name) :: .write (u32le 0) :: mid)).1.flush good).2 = true := by
      unfold BufWriter.flush
      split
      · rfl
      · simp [hgood]; omega
    exact seek_buf hf 80
  obtain ⟨n, h5, h6⟩ := h3
  rw [hbuf] at h6
  have hn : (events pre).length ≤ n := by simpa using h6
  rw [List.take_of_length_le hn, run_events] at h5
  -- the device
  refine ⟨fun k => if k = (BufWriter.run good w0 pre).1.flushes then 0 else 8192, (BufWriter.run good w0 pre).1.flushes,
    fun k hk => if_neg hk, ?_⟩
  set dev : Nat → Nat := fun k => if k = (BufWriter.run good w0 pre).1.flushes then 0 else 8192 with hdev
  have hag : BufWriter.run dev w0 pre = BufWriter.run good w0 pre := by
    apply run_agree
    intro k hk
    simp only [hdev]
    rw [if_neg (by omega)]
  have hlast : BufWriter.run dev w0 (pre ++ [.write (u32le c)])
      = ({ (BufWriter.run good w0 pre).1 with buf := u32le c }, true) := by
    rw [hrunapp dev _ _ _ (by rw [hag]; exact hr1), hag]
    exact small_write dev hbuf (by rw [u32le_length]; decide)
  have hflush : (({ (BufWriter.run good w0 pre).1 with buf := u32le c } : BufWriter).flush dev).1.file
      = (BufWriter.run good w0 pre).1.file := by
    unfold BufWriter.flush
    rw [if_neg (by simp [u32le])]
    simp only [hdev, if_true, List.take_zero]
    rfl
  have hsess : BufWriter.session dev (pre ++ [.write (u32le c)]) = ((BufWriter.run good w0 pre).1.file, true) := by
    unfold BufWriter.session
    simp only [← hw0]
    rw [hlast]
    simp only [hflush]
  rw [hsess, h5]
  have hw : IsWrites (.write (stlHeader name) :: .write (u32le 0) :: mid) := by
    intro op hop
    simp only [List.mem_cons] at hop
    rcases hop with rfl | rfl | hop
    · exact ⟨_, rfl, by rw [stlHeader_length]⟩
    · exact ⟨_, rfl, by decide⟩
    · exact hmid op hop
  have hout : outBytes (.write (stlHeader name) :: .write (u32le 0) :: mid)
      = stlHeader name ++ u32le 0 ++ outBytes mid := by simp [outBytes]
  have hprun : FileState.run ⟨[], 0⟩ pre = ⟨stlHeader name ++ u32le 0 ++ outBytes mid, 80⟩ := by
    have hp : pre = (.write (stlHeader name) :: .write (u32le 0) :: mid) ++ [.seek 80] := by simp [hpre]
    have := run_writes hw []
    rw [List.length_nil] at this
    rw [hp, run_append, this, hout]
    rfl
  have hfin : final (pre ++ [.write (u32le c)]) = stlHeader name ++ u32le c ++ outBytes mid := by
    unfold final
    rw [run_append, hprun]
    have e : ∀ s : FileState, s.run [.write (u32le c)] = s.write (u32le c) := fun s => rfl
    rw [e, write_count (stlHeader_length name) (by simp [u32le_length])]
    simp [u32le_length]
  rw [hprun, hfin]
  refine ⟨rfl, ?_, ?_⟩
  · have e1 : (stlHeader name ++ u32le 0).length = 84 := by simp [u32le_length, stlHeader_length]
    have e2 : (stlHeader name ++ u32le c).length = 84 := by simp [u32le_length, stlHeader_length]
    simp only []
    conv_lhs => rw [← e1, List.drop_left]
    rw [← e2, List.drop_left]
  · simp only []
    rw [word_count 0 (stlHeader_length name)]
    rfl

end

/-- Non-vacuity: one triangle; the second flush fails. -/
theorem C80_example :
    let ops := (saveAsStl (F := Nat) UInt32.ofNat (some "p".toList) [.ok ⟨[⟨1, 2, 3⟩, ⟨4, 5, 6⟩, ⟨7, 8, 9⟩], [], [0, 1, 2]⟩]).ops
    let s := BufWriter.session (fun k => if k = 1 then 0 else 8192) ops
    s.2 = true ∧ s.1.content.length = 134 ∧ word s.1.content 80 = 0 := by decide +kernel

end Geom3d
