import Verif.Model.Export

/-!
The layout of a binary STL file, written without reference to the exporter: 80 bytes of header, the number of
triangles as a little endian word, then for each triangle 50 bytes: twelve words (normal, three corners) and a 16 bit
attribute.  Also: the states a file can be left in when the process stops.
-/

namespace Geom3d

/-- The little endian word at byte `i`. -/
def Spec.word (b : List UInt8) (i : Nat) : Nat :=
  (b.getD i 0).toNat + 256 * (b.getD (i + 1) 0).toNat + 65536 * (b.getD (i + 2) 0).toNat
    + 16777216 * (b.getD (i + 3) 0).toNat

/-- One triangle: twelve words and the attribute bytes. -/
abbrev Spec.StlTriangle := List Nat × List UInt8

/-- Triangle `i` of the file. -/
def Spec.stlTriangle (b : List UInt8) (i : Nat) : Spec.StlTriangle :=
  ((List.range 12).map fun k => Spec.word b (84 + 50 * i + 4 * k),
    [b.getD (84 + 50 * i + 48) 0, b.getD (84 + 50 * i + 49) 0])

/-- The triangles of a binary STL file; `none` if the size does not fit the announced number. -/
def Spec.decodeStl (b : List UInt8) : Option (List Spec.StlTriangle) :=
  if b.length = 84 + 50 * Spec.word b 80 then
    some ((List.range (Spec.word b 80)).map (Spec.stlTriangle b))
  else none

/-- The byte-wise events of a sequence of calls. -/
def Spec.events (ops : List FileOp) : List FileOp :=
  ops.flatMap fun op => match op with
    | .write bytes => bytes.map fun b => .write [b]
    | .seek pos => [.seek pos]

/-- The file after the first `n` events: what a reader finds if the process stops there. -/
def Spec.crashed (ops : List FileOp) (n : Nat) : List UInt8 :=
  (FileState.run ⟨[], 0⟩ ((Spec.events ops).take n)).content

/-- The file after all calls. -/
def Spec.final (ops : List FileOp) : List UInt8 := (FileState.run ⟨[], 0⟩ ops).content

end Geom3d
