/-!
# SVG path data (SVG 1.1, section 8.3), absolute `M`, `L`, `C`

Reading the text of a path: numbers, separated by white space, commas, signs or a second decimal point, and command
letters; a command is repeated while numbers follow, `M` being repeated as `L`.  Written from the standard, without
reference to the model.
-/

namespace Spec.Svg

/-- A number in decimal notation, as text. -/
abbrev Num := List Char

inductive Token where
  | command (c : Char)
  | number (n : Num)
  deriving DecidableEq, Repr

/-- A number read so far, if any. -/
def flush (acc : Num) : List Token := if acc = [] then [] else [.number acc]

/-- Lexical analysis; `acc` is the number being read. -/
def lex : Num → List Char → List Token
  | acc, [] => flush acc
  | acc, c :: cs =>
    if c.isDigit then lex (acc ++ [c]) cs
    else if c = '-' then flush acc ++ lex ['-'] cs
    else if c = '.' then (if '.' ∈ acc then flush acc ++ lex ['.'] cs else lex (acc ++ ['.']) cs)
    else if c = ' ' ∨ c = ',' then flush acc ++ lex [] cs
    else flush acc ++ .command c :: lex [] cs

/-- A point of the drawing. -/
abbrev Pt := Num × Num

/-- What a path is made of. -/
inductive Stroke where
  | line (p q : Pt)
  | cubic (p a b q : Pt)
  deriving DecidableEq, Repr

/-- Draw: the current command, the current point, the remaining tokens.  `none` for malformed paths. -/
def draw : Char → Option Pt → List Token → Option (List Stroke)
  | _, _, [] => some []
  | _, cur, .command c :: .number n :: ts => draw c cur (.number n :: ts)
  | 'M', _, .number x :: .number y :: ts => draw 'L' (some (x, y)) ts
  | 'L', some p, .number x :: .number y :: ts => (draw 'L' (some (x, y)) ts).map (.line p (x, y) :: ·)
  | 'C', some p, .number x₁ :: .number y₁ :: .number x₂ :: .number y₂ :: .number x :: .number y :: ts =>
    (draw 'C' (some (x, y)) ts).map (.cubic p (x₁, y₁) (x₂, y₂) (x, y) :: ·)
  | _, _, _ => none

/-- The strokes of a path given as text. -/
def strokes (text : List Char) : Option (List Stroke) := draw ' ' none (lex [] text)

/-- Decimal notation as `{:.2}` prints finite numbers: an optional sign, digits, and possibly a point and digits. -/
def Decimal (n : Num) : Prop :=
  ∃ sign whole frac : List Char, n = sign ++ whole ++ frac ∧ (sign = [] ∨ sign = ['-']) ∧ whole ≠ [] ∧
    (∀ c ∈ whole, c.isDigit = true) ∧ (frac = [] ∨ ∃ ds, frac = '.' :: ds ∧ ∀ c ∈ ds, c.isDigit = true)

end Spec.Svg

/-! ### What a drawing program should show for a list of items -/

namespace Spec.Svg

/-- Items of a drawing: a polygon line of its own, a polygon line continued from the current point, cubics. -/
inductive Item where
  | fresh (ps : List Pt)
  | joined (ps : List Pt)
  | cubics (bs : List (Pt × Pt × Pt × Pt))

/-- Straight lines from the current point, if there is one, through `ps`. -/
def through : Option Pt → List Pt → List Stroke
  | _, [] => []
  | none, p :: ps => through (some p) ps
  | some c, p :: ps => .line c p :: through (some p) ps

/-- Cubics, each beginning where the one before ended, whatever its own start. -/
def chained : Pt → List (Pt × Pt × Pt × Pt) → List Stroke
  | _, [] => []
  | c, (_, a, b, q) :: bs => .cubic c a b q :: chained q bs

/-- The strokes of an item. -/
def Item.strokes (cur : Option Pt) : Item → List Stroke
  | .fresh ps => through none ps
  | .joined ps => through cur ps
  | .cubics [] => []
  | .cubics ((p, a, b, q) :: bs) => chained p ((p, a, b, q) :: bs)

/-- The last point of an item. -/
def Item.last : Item → Option Pt
  | .fresh ps => ps.getLast?
  | .joined ps => ps.getLast?
  | .cubics bs => bs.getLast?.map fun b => b.2.2.2

/-- The strokes of a list of items. -/
def sketch : Option Pt → List Item → List Stroke
  | _, [] => []
  | cur, i :: is => i.strokes cur ++ sketch (i.last.or cur) is

/-- The cubics as they are. -/
def exact (bs : List (Pt × Pt × Pt × Pt)) : List Stroke := bs.map fun b => .cubic b.1 b.2.1 b.2.2.1 b.2.2.2

end Spec.Svg
