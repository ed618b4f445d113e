import Verif.Model.Export
import Verif.Model.Points

/-!
# The text of OBJ files and the writers they and the point clouds go through

`writeln!` hands its text to `write_all` of the writer in pieces; where the pieces begin is up to the formatting
machinery, so the sessions below are defined on any list of pieces.
-/

namespace Geom3d

/-! ### `std::io::LineWriter<File>` -/

/-- `inner.write_all(bytes)`, past the buffer: `dev k` bytes are accepted in the `k`-th access to the file. -/
def BufWriter.direct (dev : Nat → Nat) (w : BufWriter) (bytes : List UInt8) : BufWriter × Bool :=
  (⟨w.buf, w.file.write (bytes.take (dev w.flushes)), w.flushes + 1⟩, decide (bytes.length ≤ dev w.flushes))

/-- `BufWriter::write_all` with a buffer of `cap` bytes. -/
def BufWriter.writeAll (cap : Nat) (dev : Nat → Nat) (w : BufWriter) (bytes : List UInt8) : BufWriter × Bool :=
  let r := if cap < w.buf.length + bytes.length then w.flush dev else (w, true)
  if r.2 then
    if cap ≤ bytes.length then r.1.direct dev bytes else ({ r.1 with buf := r.1.buf ++ bytes }, true)
  else r

/-- `memrchr(b'\n', bytes)`: everything up to the last line feed, and the rest. -/
def cutLines (bytes : List UInt8) : List UInt8 × List UInt8 :=
  let tail := (bytes.reverse.takeWhile (fun b => b != 10)).reverse
  (bytes.take (bytes.length - tail.length), tail)

/-- `LineWriterShim::write_all`; the buffer holds 1024 bytes. -/
def lineWrite (dev : Nat → Nat) (w : BufWriter) (bytes : List UInt8) : BufWriter × Bool :=
  let (lines, tail) := cutLines bytes
  if lines = [] then
    let r := if w.buf.getLast? = some 10 then w.flush dev else (w, true)
    if r.2 then r.1.writeAll 1024 dev bytes else r
  else
    let r := if w.buf = [] then w.direct dev lines else
      let r := w.writeAll 1024 dev lines
      if r.2 then r.1.flush dev else r
    if r.2 then r.1.writeAll 1024 dev tail else r

/-- The pieces with `?` after each: stop at the first error. -/
def lineRun (dev : Nat → Nat) : BufWriter → List (List UInt8) → BufWriter × Bool
  | w, [] => (w, true)
  | w, piece :: pieces => if (lineWrite dev w piece).2 then lineRun dev (lineWrite dev w piece).1 pieces else lineWrite dev w piece

/-- `TriangleMesh::save_as_obj` (`src/mesh.rs:83-87`), `Model::save_as_obj` (`src/model.rs:66-79`) and `save_bound_as_obj`
(`src/surface/bspline.rs:300-315`) on the bytes they write: create the file, write the pieces, and drop the writer, whose
last flush ignores errors.  The Boolean is the `std::io::Result` returned. -/
def lineSession (dev : Nat → Nat) (pieces : List (List UInt8)) : FileState × Bool :=
  let r := lineRun dev ⟨[], ⟨[], 0⟩, 0⟩ pieces
  ((r.1.flush dev).1.file, r.2)

/-! ### OBJ text -/

/-- `{}` of a `u32`. -/
def fmtNat (n : Nat) : List Char := Nat.toDigits 10 n

/-- `{}` or `{}//{}` (`src/mesh.rs:60`, `:70`). -/
def cornerText (c : Nat × Option Nat) : List Char :=
  match c.2 with
  | none => fmtNat c.1
  | some n => fmtNat c.1 ++ ['/', '/'] ++ fmtNat n

/-- The text of a line (`src/mesh.rs:45`, `:49`, `:58-64`, `:68-76`); `fmt` is `{}` on a `Float`. -/
def objLineText {F : Type} (fmt : F → List Char) : ObjLine F → List Char
  | .v p => ['v', ' '] ++ fmt p.x ++ [' '] ++ fmt p.y ++ [' '] ++ fmt p.z ++ ['\n']
  | .vn p => ['v', 'n', ' '] ++ fmt p.x ++ [' '] ++ fmt p.y ++ [' '] ++ fmt p.z ++ ['\n']
  | .f corners => ['f'] ++ corners.flatMap (fun c => ' ' :: cornerText c) ++ ['\n']

/-- The text of a file. -/
def objText {F : Type} (fmt : F → List Char) (lines : List (ObjLine F)) : List Char := lines.flatMap (objLineText fmt)

/-! ### Point clouds: `file.write` without a look at the number of bytes written -/

/-- The calls `file.write(line)?` of `save_point_cloud` (`src/points.rs:44-48`), `save_point_cloud_with_normal`
(`:55-64`) and `save_points` (`:69-72`): `dev k` is what the operating system answers to the `k`-th call, an error or the
number of bytes taken.  The Boolean is the `std::io::Result` returned. -/
def plainWrites (dev : Nat → Option Nat) : Nat → FileState → List (List UInt8) → FileState × Bool
  | _, file, [] => (file, true)
  | k, file, line :: lines =>
    match dev k with
    | none => (file, false)
    | some n => plainWrites dev (k + 1) (file.write (line.take n)) lines

/-- The whole call. -/
def plainSession (dev : Nat → Option Nat) (lines : List (List UInt8)) : FileState × Bool :=
  plainWrites dev 0 ⟨[], 0⟩ lines

/-- The lines of `save_point_cloud` (`src/points.rs:47`). -/
def cloudLines {F : Type} (fmt : F → List Char) (points : List (V3 F)) : List (List UInt8) :=
  points.map fun p => utf8 (savePointCloud fmt [p])

end Geom3d
