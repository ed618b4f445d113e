import Verif.Model.Mesh

/-!
# Model of the STL export (`src/model.rs:25-64`)

The function is modelled by the sequence of calls it makes on its writer, together with its outcome: a panic in the
middle (a face that cannot be meshed, a vertex index out of range) leaves the calls made so far.  The number formats
are bytes; `point.x as f32` followed by `to_le_bytes` is the little endian form of the word `f32 x`, where
`f32 : F → UInt32` (rounding to single precision, then the bit pattern) is a parameter.
-/

namespace Geom3d

/-- A call on a file or writer: append/overwrite bytes at the current position, or move the position. -/
inductive FileOp where
  | write (bytes : List UInt8)
  | seek (pos : Nat)
  deriving DecidableEq, Repr

/-- The calls made by a function, and its outcome. -/
structure Trace (α : Type) where
  ops : List FileOp
  res : Res α

/-- Sequencing: after a panic nothing more is called. -/
def Trace.bind {α β : Type} (t : Trace α) (f : α → Trace β) : Trace β :=
  match t.res with
  | .ok a => ⟨t.ops ++ (f a).ops, (f a).res⟩
  | .error e => ⟨t.ops, .error e⟩

instance : Monad Trace where
  pure a := ⟨[], .ok a⟩
  bind := Trace.bind

/-- `writer.write(bytes)`. -/
def Trace.write (bytes : List UInt8) : Trace Unit := ⟨[.write bytes], .ok ()⟩

/-- `writer.seek(SeekFrom::Start(pos))`. -/
def Trace.seek (pos : Nat) : Trace Unit := ⟨[.seek pos], .ok ()⟩

/-- A computation that calls no writer. -/
def Trace.lift {α : Type} (r : Res α) : Trace α := ⟨[], r⟩

/-- `u32::to_le_bytes` of `n as u32`. -/
def u32le (n : Nat) : List UInt8 :=
  [UInt8.ofNat n, UInt8.ofNat (n / 256), UInt8.ofNat (n / 65536), UInt8.ofNat (n / 16777216)]

/-- The UTF-8 bytes of a text. -/
def utf8 (s : List Char) : List UInt8 := s.flatMap String.utf8EncodeChar

/-- `{:57}`: padded on the right with spaces to 57 characters. -/
def pad57 (name : List Char) : List Char := name ++ List.replicate (57 - name.length) ' '

/-- The header (`src/model.rs:32-35`). -/
def stlHeader (name : List Char) : List UInt8 :=
  (utf8 ("Binary STL file\nName: ".toList ++ pad57 name ++ ['\n'])).take 80

/-- The three words of a vertex (`src/model.rs:51-54`). -/
def stlVertex {F : Type} (f32 : F → UInt32) (vertices : List (V3 F)) (index : Nat) : Trace Unit := do
  let point ← Trace.lift (idx vertices index)
  Trace.write (u32le (f32 point.x).toNat)
  Trace.write (u32le (f32 point.y).toNat)
  Trace.write (u32le (f32 point.z).toNat)

/-- One turn of the inner loop (`src/model.rs:44-58`); `0.0_f32.to_le_bytes()` is four zero bytes. -/
def stlTriangle {F : Type} (f32 : F → UInt32) (vertices : List (V3 F)) (triangle : List Nat) : Trace Unit := do
  Trace.write (u32le 0)
  Trace.write (u32le 0)
  Trace.write (u32le 0)
  triangle.forM (stlVertex f32 vertices)
  Trace.write [0, 0]

/-- `Model::save_as_stl` (`src/model.rs:25-64`).  `stem` is `path.file_stem()`, `faces` the results of
`get_triangle_mesh` on the faces; the loop state is `triangle_count`. -/
def saveAsStl {F : Type} (f32 : F → UInt32) (stem : Option (List Char)) (faces : List (Res (TriangleMesh F))) :
    Trace Unit := do
  let name ← Trace.lift (match stem with | some name => .ok name | none => .error .unwrap)
  Trace.write (stlHeader name)
  Trace.write (u32le 0)
  let triangleCount ← faces.foldlM (fun (count : Nat) face => do
    let mesh ← Trace.lift face
    (chunks3 mesh.triangles).forM (stlTriangle f32 mesh.vertices)
    pure (count + mesh.triangleCount)) 0
  Trace.seek 80
  Trace.write (u32le triangleCount)

/-! ### `std::io::BufWriter<File>` -/

/-- A file: its contents and the position of the next write. -/
structure FileState where
  content : List UInt8
  pos : Nat
  deriving DecidableEq, Repr

/-- Writing one byte at the current position (a gap is filled with zeros). -/
def FileState.put (s : FileState) (b : UInt8) : FileState :=
  ⟨if s.pos < s.content.length then s.content.set s.pos b
    else s.content ++ List.replicate (s.pos - s.content.length) 0 ++ [b], s.pos + 1⟩

/-- Writing bytes. -/
def FileState.write (s : FileState) (bytes : List UInt8) : FileState := bytes.foldl FileState.put s

/-- One call on an unbuffered file. -/
def FileState.step (s : FileState) : FileOp → FileState
  | .write bytes => s.write bytes
  | .seek pos => { s with pos := pos }

/-- All calls, on an unbuffered file. -/
def FileState.run (s : FileState) (ops : List FileOp) : FileState := ops.foldl FileState.step s

/-- `BufWriter<File>`: the buffer, the file, and how many flushes have been done.  `dev k` is the number of bytes the
operating system accepts in the `k`-th flush. -/
structure BufWriter where
  buf : List UInt8
  file : FileState
  flushes : Nat

/-- `BufWriter::flush_buf`: the accepted bytes leave the buffer; `false` is an error. -/
def BufWriter.flush (dev : Nat → Nat) (w : BufWriter) : BufWriter × Bool :=
  if w.buf = [] then (w, true)
  else (⟨w.buf.drop (dev w.flushes), w.file.write (w.buf.take (dev w.flushes)), w.flushes + 1⟩,
    decide (w.buf.length ≤ dev w.flushes))

/-- `BufWriter::write` for pieces shorter than the buffer (8192 bytes), and `Seek::seek`. -/
def BufWriter.step (dev : Nat → Nat) (w : BufWriter) : FileOp → BufWriter × Bool
  | .write bytes =>
    if w.buf.length + bytes.length ≤ 8192 then ({ w with buf := w.buf ++ bytes }, true)
    else
      let r := w.flush dev
      if r.2 then ({ r.1 with buf := r.1.buf ++ bytes }, true) else r
  | .seek pos =>
    let r := w.flush dev
    if r.2 then ({ r.1 with file := { r.1.file with pos := pos } }, true) else r

/-- The calls with `?` after each: stop at the first error. -/
def BufWriter.run (dev : Nat → Nat) : BufWriter → List FileOp → BufWriter × Bool
  | w, [] => (w, true)
  | w, op :: ops => if (w.step dev op).2 then BufWriter.run dev (w.step dev op).1 ops else w.step dev op

/-- The whole call: create, write, and drop the writer, whose flush ignores errors (`let _ = self.flush_buf()`).  The
Boolean is the `std::io::Result` returned by the function. -/
def BufWriter.session (dev : Nat → Nat) (ops : List FileOp) : FileState × Bool :=
  let r := BufWriter.run dev ⟨[], ⟨[], 0⟩, 0⟩ ops
  ((r.1.flush dev).1.file, r.2)

end Geom3d
