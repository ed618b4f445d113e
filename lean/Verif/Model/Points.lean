import Verif.Model.Base

/-!
# Model of `src/points.rs`

A text file is its list of characters.  `fmt` is `{}` on a `Float`, `parse` is `Float::from_str`; both are parameters,
the round-trip contract between them is a hypothesis of the theorems.
-/

namespace Geom3d

/-- `scale_points` (`src/points.rs:7-9`). -/
def scalePoints {F : Type} [Mul F] (points : List (V3 F)) (scale : F) : List (V3 F) :=
  points.map fun point => point * scale

/-- A line feed ends the line; `BufRead::lines` also removes one carriage return in front of it. -/
def stripCR (line : List Char) : List Char :=
  if line.getLast? = some '\r' then line.dropLast else line

/-- `BufRead::lines`, with the characters of the line read so far. -/
def linesAux : List Char → List Char → List (List Char)
  | cur, [] => if cur = [] then [] else [cur]
  | cur, c :: text => if c = '\n' then stripCR cur :: linesAux [] text else linesAux (cur ++ [c]) text

/-- `cursor.lines()` (`src/points.rs:15`). -/
def lines (text : List Char) : List (List Char) := linesAux [] text

/-- The separators `[' ', ',', '\t']` (`src/points.rs:22`). -/
def isSep (c : Char) : Bool := c = ' ' || c = ',' || c = '\t'

/-- `str::split`, with the characters of the item read so far. -/
def splitAux : List Char → List Char → List (List Char)
  | cur, [] => [cur]
  | cur, c :: text => if isSep c then cur :: splitAux [] text else splitAux (cur ++ [c]) text

/-- `cords.split([' ', ',', '\t']).filter(|item| !item.is_empty())` (`src/points.rs:21-24`). -/
def fields (line : List Char) : List (List Char) := (splitAux [] line).filter fun item => item ≠ []

/-- `Float::from_str(x).unwrap()`. -/
def parseR {F : Type} (parse : List Char → Option F) (s : List Char) : Res F :=
  match parse s with
  | some x => .ok x
  | none => .error .unwrap

/-- One turn of the loop of `load_point_cloud` (`src/points.rs:16-39`): the points pushed. -/
def loadLine {F : Type} (parse : List Char → Option F) (cords : List Char) : Res (List (V3 F)) :=
  if cords.head? = some '#' then pure []
  else match fields cords with
    | [x, y, z] => do
      let x ← parseR parse x
      let y ← parseR parse y
      let z ← parseR parse z
      pure [⟨x, y, z⟩]
    | [_, x, y, z] => do
      let x ← parseR parse x
      let y ← parseR parse y
      let z ← parseR parse z
      pure [⟨x, y, z⟩]
    | _ => pure []

/-- `load_point_cloud` (`src/points.rs:11-42`) on the text of the file. -/
def loadPointCloud {F : Type} (parse : List Char → Option F) (text : List Char) : Res (List (V3 F)) :=
  (lines text).foldlM (fun points line => do
    let ps ← loadLine parse line
    pure (points ++ ps)) []

/-- `save_point_cloud` (`src/points.rs:44-50`): the text written (each `write` of a line is taken to be complete). -/
def savePointCloud {F : Type} (fmt : F → List Char) (points : List (V3 F)) : List Char :=
  points.flatMap fun p => fmt p.x ++ [' '] ++ fmt p.y ++ [' '] ++ fmt p.z ++ ['\n']

/-- `save_point_cloud_with_normal` (`src/points.rs:52-68`). -/
def savePointCloudWithNormal {F : Type} (fmt : F → List Char) (points : List (V3 F × V3 F)) : List Char :=
  points.flatMap fun p => fmt p.1.x ++ [' '] ++ fmt p.1.y ++ [' '] ++ fmt p.1.z ++ [' ']
    ++ fmt p.2.x ++ [' '] ++ fmt p.2.y ++ [' '] ++ fmt p.2.z ++ ['\n']

/-- `save_points` (`src/points.rs:70-76`). -/
def savePoints {F : Type} (fmt : F → List Char) (points : List (V2 F)) : List Char :=
  points.flatMap fun p => fmt p.x ++ [','] ++ fmt p.y ++ ['\n']

end Geom3d
