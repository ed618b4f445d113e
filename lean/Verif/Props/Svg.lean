import Verif.Model.Svg
import Verif.Spec.Svg
import Verif.Props.Join

/-! # C64, C83, C84: SVG export -/

set_option linter.unusedSectionVars false

namespace Geom3d
open Spec.Svg Spec

/-! ### Reading the text back -/

/-- The text after a number or command begins with a separator or a command. -/
def Starts (rest : List Char) : Prop := rest = [] ∨ ∃ r, rest = ' ' :: r ∨ rest = 'M' :: r ∨ rest = ',' :: r

theorem lex_digits (acc ds rest : List Char) (h : ∀ c ∈ ds, c.isDigit = true) :
    lex acc (ds ++ rest) = lex (acc ++ ds) rest := by
  induction ds generalizing acc with
  | nil => simp
  | cons c ds ih =>
    rw [List.cons_append, lex, if_pos (h c (by simp)), ih _ (fun x hx => h x (by simp [hx]))]
    simp

theorem lex_end (acc rest : List Char) (h : Starts rest) : lex acc rest = flush acc ++ lex [] rest := by
  rcases h with rfl | ⟨r, rfl | rfl | rfl⟩
  · simp [lex, flush]
  · have e : (' ' : Char).isDigit = false := by decide
    simp [lex, e, flush]
  · have e : ('M' : Char).isDigit = false := by decide
    simp [lex, e, flush]
  · have e : (',' : Char).isDigit = false := by decide
    simp [lex, e, flush]

/-- A decimal followed by a separator is read as one number. -/
theorem lex_decimal {n : Num} (hn : Decimal n) {rest : List Char} (h : Starts rest) :
    lex [] (n ++ rest) = .number n :: lex [] rest := by
  obtain ⟨sign, whole, frac, rfl, hs, hw, hwd, hf⟩ := hn
  have hsign : lex [] (sign ++ (whole ++ (frac ++ rest))) = lex sign (whole ++ (frac ++ rest)) := by
    rcases hs with rfl | rfl
    · rfl
    · have e : ('-' : Char).isDigit = false := by decide
      simp [lex, e, flush]
  have hdot : '.' ∉ sign ++ whole := by
    intro hc
    rcases List.mem_append.1 hc with hc | hc
    · rcases hs with rfl | rfl
      · cases hc
      · simp at hc
    · exact absurd (hwd _ hc) (by decide)
  have hne : ∀ x : List Char, sign ++ whole ++ x ≠ [] := by
    intro x hx
    simp [hw] at hx
  rw [List.append_assoc, List.append_assoc, hsign, lex_digits _ _ _ hwd]
  rcases hf with rfl | ⟨ds, rfl, hd⟩
  · rw [List.nil_append, lex_end _ _ h, flush, if_neg (by simpa using hne [])]
    simp
  · have e : ('.' : Char).isDigit = false := by decide
    rw [List.cons_append, lex, if_neg (by simp [e]), if_neg (by decide), if_pos rfl, if_neg hdot,
      lex_digits _ _ _ hd, lex_end _ _ h, flush, if_neg (by simp)]
    simp

/-- `data` is read as `ts`, whatever follows. -/
def ReadsAs (data : List Char) (ts : List Token) : Prop :=
  ∀ rest, Starts rest → lex [] (data ++ rest) = ts ++ lex [] rest

theorem readsAs_nil : ReadsAs [] [] := fun _ _ => rfl

theorem ReadsAs.append {a b : List Char} {s t : List Token} (ha : ReadsAs a s) (hb : ReadsAs b t)
    (h : ∃ r, b = ' ' :: r ∨ b = 'M' :: r) : ReadsAs (a ++ b) (s ++ t) := by
  intro rest hr
  rw [List.append_assoc, ha _ ?_, hb _ hr, List.append_assoc]
  obtain ⟨r, rfl | rfl⟩ := h
  · exact Or.inr ⟨r ++ rest, Or.inl rfl⟩
  · exact Or.inr ⟨r ++ rest, Or.inr (Or.inl rfl)⟩

variable {F : Type}

/-- A point as the drawing sees it. -/
def svgPt (fmt : F → List Char) (p : V3 F) : Pt := (fmt p.x, fmt p.y)

/-- The coordinates of the point print as decimals (finite numbers do). -/
def Prints (fmt : F → List Char) (p : V3 F) : Prop := Decimal (fmt p.x) ∧ Decimal (fmt p.y)

variable {fmt : F → List Char}

theorem lex_pair {p : V3 F} (h : Prints fmt p) {rest : List Char} (hr : Starts rest) :
    lex [] (svgPair fmt p ++ rest) = .number (fmt p.x) :: .number (fmt p.y) :: lex [] rest := by
  unfold svgPair
  rw [List.append_assoc, lex_decimal h.1 (rest := ',' :: fmt p.y ++ rest) (Or.inr ⟨_, Or.inr (Or.inr rfl)⟩)]
  have e : (',' : Char).isDigit = false := by decide
  have : lex [] (',' :: fmt p.y ++ rest) = lex [] (fmt p.y ++ rest) := by
    rw [List.cons_append, lex, if_neg (by simp [e]), if_neg (by decide), if_neg (by decide), if_pos (Or.inr rfl)]
    rfl
  rw [this, lex_decimal h.2 hr]

theorem lex_space (rest : List Char) : lex [] (' ' :: rest) = lex [] rest := by
  have e : (' ' : Char).isDigit = false := by decide
  rw [lex, if_neg (by simp [e]), if_neg (by decide), if_neg (by decide), if_pos (Or.inl rfl)]
  rfl

theorem readsAs_move {p : V3 F} (h : Prints fmt p) :
    ReadsAs (svgMove fmt p) [.command 'M', .number (fmt p.x), .number (fmt p.y)] := by
  intro rest hr
  have e : ('M' : Char).isDigit = false := by decide
  unfold svgMove
  rw [List.cons_append, List.cons_append, lex, if_neg (by simp [e]), if_neg (by decide), if_neg (by decide),
    if_neg (by decide), lex_space, lex_pair h hr]
  rfl

theorem readsAs_line {p : V3 F} (h : Prints fmt p) :
    ReadsAs (svgLine fmt p) [.command 'L', .number (fmt p.x), .number (fmt p.y)] := by
  intro rest hr
  have e : ('L' : Char).isDigit = false := by decide
  unfold svgLine
  rw [List.cons_append, List.cons_append, List.cons_append, lex_space, lex, if_neg (by simp [e]), if_neg (by decide),
    if_neg (by decide), if_neg (by decide), lex_space, lex_pair h hr]
  rfl

theorem readsAs_triple {p q r : V3 F} (hp : Prints fmt p) (hq : Prints fmt q) (hr : Prints fmt r) :
    ReadsAs (svgTriple fmt p q r) [.number (fmt p.x), .number (fmt p.y), .number (fmt q.x), .number (fmt q.y),
      .number (fmt r.x), .number (fmt r.y)] := by
  intro rest h
  unfold svgTriple
  rw [List.append_assoc, List.append_assoc, List.cons_append, List.cons_append, List.cons_append, lex_space,
    lex_pair hp (Or.inr ⟨_, Or.inl rfl⟩), lex_space, lex_pair hq (Or.inr ⟨_, Or.inl rfl⟩),
    lex_space, lex_pair hr h]
  rfl

theorem readsAs_curve {p q r : V3 F} (hp : Prints fmt p) (hq : Prints fmt q) (hr : Prints fmt r) :
    ReadsAs (' ' :: 'C' :: svgTriple fmt p q r) [.command 'C', .number (fmt p.x), .number (fmt p.y),
      .number (fmt q.x), .number (fmt q.y), .number (fmt r.x), .number (fmt r.y)] := by
  intro rest h
  have e : ('C' : Char).isDigit = false := by decide
  rw [List.cons_append, List.cons_append, lex_space, lex, if_neg (by simp [e]), if_neg (by decide),
    if_neg (by decide), if_neg (by decide), readsAs_triple hp hq hr rest h]
  rfl

/-! ### Drawing -/

theorem draw_move (cmd : Char) (cur : Option Pt) (x y : Num) (ts : List Token) :
    draw cmd cur (.command 'M' :: .number x :: .number y :: ts) = draw 'L' (some (x, y)) ts := by
  rw [draw, draw]

theorem draw_line (cmd : Char) (p : Pt) (x y : Num) (ts : List Token) :
    draw cmd (some p) (.command 'L' :: .number x :: .number y :: ts)
      = (draw 'L' (some (x, y)) ts).map (.line p (x, y) :: ·) := by
  rw [draw, draw]

theorem draw_curve (cmd : Char) (p : Pt) (x₁ y₁ x₂ y₂ x y : Num) (ts : List Token) :
    draw cmd (some p) (.command 'C' :: .number x₁ :: .number y₁ :: .number x₂ :: .number y₂ :: .number x :: .number y
      :: ts) = (draw 'C' (some (x, y)) ts).map (.cubic p (x₁, y₁) (x₂, y₂) (x, y) :: ·) := by
  rw [draw, draw]

theorem draw_more (p : Pt) (x₁ y₁ x₂ y₂ x y : Num) (ts : List Token) :
    draw 'C' (some p) (.number x₁ :: .number y₁ :: .number x₂ :: .number y₂ :: .number x :: .number y
      :: ts) = (draw 'C' (some (x, y)) ts).map (.cubic p (x₁, y₁) (x₂, y₂) (x, y) :: ·) := by
  rw [draw]

/-- The text so far has been drawn as `ss`; the command letter is `cmd`, the current point `cur`. -/
def Drawn (data : List Char) (ss : List Stroke) (cmd : Char) (cur : Option Pt) : Prop :=
  (data.length = 0 ↔ cur = none) ∧
  ∃ ts, ReadsAs data ts ∧ ∀ rest, draw ' ' none (ts ++ rest) = (draw cmd cur rest).map (ss ++ ·)

theorem drawn_nil : Drawn [] [] ' ' none := by
  refine ⟨by simp, [], readsAs_nil, fun rest => ?_⟩
  simp

theorem Drawn.move {data ss cmd cur} (h : Drawn data ss cmd cur) {p : V3 F} (hp : Prints fmt p) :
    Drawn (data ++ svgMove fmt p) ss 'L' (some (svgPt fmt p)) := by
  obtain ⟨-, ts, h1, h2⟩ := h
  refine ⟨by simp [svgMove], _, h1.append (readsAs_move hp) ⟨_, Or.inr rfl⟩, fun rest => ?_⟩
  rw [List.append_assoc, h2]
  simp only [List.cons_append, List.nil_append]
  rw [draw_move]
  rfl

theorem Drawn.line {data ss cmd c} (h : Drawn data ss cmd (some c)) {p : V3 F} (hp : Prints fmt p) :
    Drawn (data ++ svgLine fmt p) (ss ++ [.line c (svgPt fmt p)]) 'L' (some (svgPt fmt p)) := by
  obtain ⟨-, ts, h1, h2⟩ := h
  refine ⟨by simp [svgLine], _, h1.append (readsAs_line hp) ⟨_, Or.inl rfl⟩, fun rest => ?_⟩
  rw [List.append_assoc, h2]
  simp only [List.cons_append, List.nil_append]
  rw [draw_line, Option.map_map]
  congr 1
  funext l
  simp [svgPt]

theorem Drawn.curve {data ss cmd c} (h : Drawn data ss cmd (some c)) {p q r : V3 F} (hp : Prints fmt p)
    (hq : Prints fmt q) (hr : Prints fmt r) :
    Drawn (data ++ (' ' :: 'C' :: svgTriple fmt p q r)) (ss ++ [.cubic c (svgPt fmt p) (svgPt fmt q) (svgPt fmt r)])
      'C' (some (svgPt fmt r)) := by
  obtain ⟨-, ts, h1, h2⟩ := h
  refine ⟨by simp, _, h1.append (readsAs_curve hp hq hr) ⟨_, Or.inl rfl⟩, fun rest => ?_⟩
  rw [List.append_assoc, h2]
  simp only [List.cons_append, List.nil_append]
  rw [draw_curve, Option.map_map]
  congr 1
  funext l
  simp [svgPt]

theorem Drawn.more {data ss c} (h : Drawn data ss 'C' (some c)) {p q r : V3 F} (hp : Prints fmt p)
    (hq : Prints fmt q) (hr : Prints fmt r) :
    Drawn (data ++ svgTriple fmt p q r) (ss ++ [.cubic c (svgPt fmt p) (svgPt fmt q) (svgPt fmt r)])
      'C' (some (svgPt fmt r)) := by
  obtain ⟨-, ts, h1, h2⟩ := h
  refine ⟨by simp [svgTriple], _, h1.append (readsAs_triple hp hq hr) ⟨_, Or.inl rfl⟩, fun rest => ?_⟩
  rw [List.append_assoc, h2]
  simp only [List.cons_append, List.nil_append]
  rw [draw_more, Option.map_map]
  congr 1
  funext l
  simp [svgPt]

theorem Drawn.strokes {data ss cmd cur} (h : Drawn data ss cmd cur) : strokes data = some ss := by
  obtain ⟨-, ts, h1, h2⟩ := h
  have h3 := h1 [] (Or.inl rfl)
  rw [List.append_nil] at h3
  rw [Spec.Svg.strokes, h3, h2]
  simp [lex, flush, draw]

/-! ### Segments -/

theorem through_none (ps : List Pt) (p : Pt) : through none (p :: ps) = through (some p) ps := by
  rw [through]

theorem last_or {α : Type} (p : α) (l : List α) (cur : Option α) :
    (p :: l).getLast?.or cur = l.getLast?.or (some p) := by
  cases l with
  | nil => simp
  | cons q l =>
    rw [List.getLast?_cons_cons]
    cases h : (q :: l).getLast? with
    | none => simp at h
    | some x => simp

theorem last_or_map {α β : Type} (f : α → β) (p : α) (l : List α) (cur : Option β) :
    ((p :: l).getLast?.map f).or cur = (l.getLast?.map f).or (some (f p)) := by
  cases l with
  | nil => simp
  | cons q l =>
    rw [List.getLast?_cons_cons]
    cases h : (q :: l).getLast? with
    | none => simp at h
    | some x => simp

/-- A polygon line continued after its first point. -/
theorem drawn_lines (l : List (V3 F)) (hl : ∀ p ∈ l, Prints fmt p) {data ss cmd c}
    (h : Drawn data ss cmd (some c)) (push : List Char → V3 F → List Char)
    (hpush : ∀ d p, d ≠ [] → push d p = d ++ svgLine fmt p) :
    ∃ cmd', Drawn (l.foldl push data) (ss ++ through (some c) (l.map (svgPt fmt))) cmd'
      ((l.map (svgPt fmt)).getLast?.or (some c)) := by
  induction l generalizing data ss cmd c with
  | nil => exact ⟨cmd, by simpa [through] using h⟩
  | cons p l ih =>
    have hne : data ≠ [] := fun e => by
      have := h.1
      simp [e] at this
    have h1 := h.line (hl p (by simp))
    rw [← hpush _ _ hne] at h1
    obtain ⟨cmd', h2⟩ := ih (fun q hq => hl q (by simp [hq])) h1
    refine ⟨cmd', ?_⟩
    simp only [List.foldl_cons, List.map_cons, through]
    rw [List.append_assoc, List.singleton_append] at h2
    convert h2 using 1
    exact last_or _ _ _

/-- Sample points, continued from what was drawn before. -/
theorem drawn_points (l : List (V3 F)) (hl : ∀ p ∈ l, Prints fmt p) {data ss cmd cur} (h : Drawn data ss cmd cur) :
    ∃ cmd', Drawn (svgPoints fmt data l) (ss ++ through cur (l.map (svgPt fmt))) cmd'
      ((l.map (svgPt fmt)).getLast?.or cur) := by
  have hpush : ∀ (d : List Char) (p : V3 F), d ≠ [] →
      d ++ (if d.length = 0 then svgMove fmt p else svgLine fmt p) = d ++ svgLine fmt p := by
    intro d p hd
    rw [if_neg (by simpa using hd)]
  unfold svgPoints
  cases cur with
  | some c => exact drawn_lines l hl h _ hpush
  | none =>
    have hd : data = [] := by simpa using h.1.2 rfl
    subst hd
    cases l with
    | nil => exact ⟨cmd, by simpa [through] using h⟩
    | cons p l =>
      have h1 := h.move (hl p (by simp))
      obtain ⟨cmd', h2⟩ := drawn_lines l (fun q hq => hl q (by simp [hq])) h1
        (fun d p => d ++ if d.length = 0 then svgMove fmt p else svgLine fmt p) hpush
      refine ⟨cmd', ?_⟩
      simp only [List.foldl_cons, List.map_cons, through]
      convert h2 using 1
      · simp
      · exact last_or _ _ _

/-- A polygon line of its own. -/
theorem drawn_polyline (l : List (V3 F)) (hl : ∀ p ∈ l, Prints fmt p) {data ss cmd cur} (h : Drawn data ss cmd cur) :
    ∃ cmd', Drawn (l.zipIdx.foldl (fun data (p : V3 F × Nat) =>
        data ++ if p.2 = 0 then svgMove fmt p.1 else svgLine fmt p.1) data)
      (ss ++ through none (l.map (svgPt fmt))) cmd' ((l.map (svgPt fmt)).getLast?.or cur) := by
  cases l with
  | nil => exact ⟨cmd, by simpa [through] using h⟩
  | cons p l =>
    have h1 := h.move (hl p (by simp))
    have e : ∀ (l : List (V3 F)) (k : Nat) (d : List Char), (l.zipIdx (k + 1)).foldl (fun data (p : V3 F × Nat) =>
        data ++ if p.2 = 0 then svgMove fmt p.1 else svgLine fmt p.1) d
        = l.foldl (fun d p => d ++ svgLine fmt p) d := by
      intro l
      induction l with
      | nil => intro k d; rfl
      | cons q l ih => intro k d; simp [List.zipIdx_cons, ih]
    obtain ⟨cmd', h2⟩ := drawn_lines l (fun q hq => hl q (by simp [hq])) h1
      (fun d p => d ++ svgLine fmt p) (fun _ _ _ => rfl)
    refine ⟨cmd', ?_⟩
    rw [List.zipIdx_cons, List.foldl_cons, List.map_cons, through]
    simp only [if_pos]
    rw [show (0 : Nat) + 1 = 0 + 1 from rfl, e]
    convert h2 using 1
    exact last_or _ _ _

/-- The four points of a cubic piece. -/
def svgCubic (fmt : F → List Char) : BezierCurve (V3 F) → Option (Pt × Pt × Pt × Pt)
  | ⟨[p, a, b, q]⟩ => some (svgPt fmt p, svgPt fmt a, svgPt fmt b, svgPt fmt q)
  | _ => none

/-- The pieces, all cubic and finite, are these cubics. -/
def Cubics (fmt : F → List Char) (bs : List (BezierCurve (V3 F))) (qs : List (Pt × Pt × Pt × Pt)) : Prop :=
  List.Forall₂ (fun b q => ∃ p₀ p₁ p₂ p₃, b = ⟨[p₀, p₁, p₂, p₃]⟩ ∧
    (Prints fmt p₀ ∧ Prints fmt p₁ ∧ Prints fmt p₂ ∧ Prints fmt p₃) ∧
    q = (svgPt fmt p₀, svgPt fmt p₁, svgPt fmt p₂, svgPt fmt p₃)) bs qs

theorem drawn_more (bs : List (BezierCurve (V3 F))) (qs : List (Pt × Pt × Pt × Pt)) (hq : Cubics fmt bs qs)
    (k : Nat) {data ss c} (h : Drawn data ss 'C' (some c)) :
    ∃ data', (bs.zipIdx (k + 1)).foldlM (fun data (b : BezierCurve (V3 F) × Nat) => do
        pure (data ++ (← svgPiece fmt b.2 b.1))) data = (.ok data' : Res _) ∧
      Drawn data' (ss ++ chained c qs) 'C' ((qs.getLast?.map fun b => b.2.2.2).or (some c)) := by
  induction hq generalizing k data ss c with
  | nil => exact ⟨data, rfl, by simpa [chained] using h⟩
  | @cons b q bs qs hb hbs ih =>
    obtain ⟨p₀, p₁, p₂, p₃, rfl, ⟨-, g1, g2, g3⟩, rfl⟩ := hb
    obtain ⟨data', e, h'⟩ := ih (k + 1) (h.more g1 g2 g3)
    refine ⟨data', ?_, ?_⟩
    · rw [List.zipIdx_cons, List.foldlM_cons]
      exact e
    · rw [List.append_assoc] at h'
      simp only [chained]
      convert h' using 1
      · simp
      · exact last_or_map _ _ _ _

theorem drawn_cubics (bs : List (BezierCurve (V3 F))) (qs : List (Pt × Pt × Pt × Pt)) (hq : Cubics fmt bs qs)
    {data ss cmd cur} (h : Drawn data ss cmd cur) :
    ∃ data' cmd', bs.zipIdx.foldlM (fun data (b : BezierCurve (V3 F) × Nat) => do
        pure (data ++ (← svgPiece fmt b.2 b.1))) data = (.ok data' : Res _) ∧
      Drawn data' (ss ++ (Item.cubics qs).strokes cur) cmd' ((qs.getLast?.map fun b => b.2.2.2).or cur) := by
  cases hq with
  | nil => exact ⟨data, cmd, rfl, by simpa [Item.strokes] using h⟩
  | @cons b q bs qs hb hbs =>
    obtain ⟨p₀, p₁, p₂, p₃, rfl, ⟨g0, g1, g2, g3⟩, rfl⟩ := hb
    obtain ⟨data', e, h'⟩ := drawn_more bs qs hbs 0 ((h.move g0).curve g1 g2 g3)
    refine ⟨data', 'C', ?_, ?_⟩
    · rw [List.zipIdx_cons, List.foldlM_cons]
      rw [List.append_assoc] at e
      exact e
    · rw [List.append_assoc] at h'
      simp only [Item.strokes, chained]
      convert h' using 1
      · simp
      · exact last_or_map _ _ _ _

section
variable [Add F] [Sub F] [Mul F] [Div F] [Neg F] [Zero F] [One F] [NatCast F] [LT F] [DecidableLT F]
  [LE F] [DecidableLE F] [Env F]

/-- What a segment stands for: a line runs between the points of its range; a polyline is drawn with all its vertices,
whatever its range; a cubic B-spline as its pieces, whatever its range; anything else through its sample points, joined to
what was drawn before. -/
inductive Shows (fmt : F → List Char) (fuel : Nat) (rnd : List Bool → F) : DynSegment F → Item → Prop
  | line (c : Line F) (range tol n) (h0 : Prints fmt (c.getPoint range.1)) (h1 : Prints fmt (c.getPoint range.2)) :
      Shows fmt fuel rnd ⟨.line c, range, tol, n⟩
        (.fresh [svgPt fmt (c.getPoint range.1), svgPt fmt (c.getPoint range.2)])
  | polyline (c : Polyline F) (range tol n) (h : ∀ p ∈ c.vertices, Prints fmt p) :
      Shows fmt fuel rnd ⟨.polyline c, range, tol, n⟩ (.fresh (c.vertices.map (svgPt fmt)))
  | cubic (c : BSplineCurve F (V3 F)) (range tol n) (bs qs) (h3 : c.degree = 3) (hb : c.toPiecewiseBezier = .ok bs)
      (hq : Cubics fmt bs qs) : Shows fmt fuel rnd ⟨.bspline c, range, tol, n⟩ (.cubics qs)
  | sampled (c : DynCurve F) (range tol n) (ps) (hk : (∃ b, c = .bspline b ∧ b.degree ≠ 3) ∨ ∃ o, c = .other o)
      (hp : CurveSegment.getPoints fuel rnd ⟨c.obj, range, tol, n⟩ = .ok ps) (h : ∀ p ∈ ps, Prints fmt p) :
      Shows fmt fuel rnd ⟨c, range, tol, n⟩ (.joined (ps.map (svgPt fmt)))

theorem drawn_segment {fuel : Nat} {rnd : List Bool → F} {s : DynSegment F} {i : Item} (hs : Shows fmt fuel rnd s i)
    {data ss cmd cur} (h : Drawn data ss cmd cur) :
    ∃ data' cmd', svgSegment fmt fuel rnd data s = .ok data' ∧
      Drawn data' (ss ++ i.strokes cur) cmd' (i.last.or cur) := by
  cases hs with
  | line c range tol n h0 h1 =>
    exact ⟨_, _, rfl, by simpa [Item.strokes, Item.last, through] using (h.move h0).line h1⟩
  | polyline c range tol n hp =>
    obtain ⟨cmd', h'⟩ := drawn_polyline c.vertices hp h
    exact ⟨_, cmd', rfl, h'⟩
  | cubic c range tol n bs qs h3 hb hq =>
    obtain ⟨data', cmd', e, h'⟩ := drawn_cubics bs qs hq h
    refine ⟨data', cmd', ?_, h'⟩
    simp only [svgSegment, if_pos h3]
    rw [hb]
    exact e
  | sampled c range tol n ps hk hp hps =>
    obtain ⟨cmd', h'⟩ := drawn_points ps hps h
    refine ⟨_, cmd', ?_, h'⟩
    rcases hk with ⟨b, rfl, hb⟩ | ⟨o, rfl⟩
    · simp only [svgSegment, if_neg hb, DynSegment.segment]
      rw [hp]
      rfl
    · simp only [svgSegment, DynSegment.segment]
      rw [hp]
      rfl

/-- **C84** Reading the path of a polycurve by the SVG standard gives exactly the strokes of its segments: lines between
the points of their ranges, polylines with all their vertices, cubic B-splines as cubics, all others through their sample
points; a segment of the last kind is joined to the end of the segment before it by one more line. -/
theorem C84_strokes {fuel : Nat} {rnd : Nat → List Bool → F} {segments : List (DynSegment F)} {items : List Item}
    (h : List.Forall₂ (fun (s : DynSegment F × Nat) i => Shows fmt fuel (rnd s.2) s.1 i) segments.zipIdx items) :
    ∃ d, svgData fmt fuel rnd segments = .ok d ∧ strokes d = some (sketch none items) := by
  unfold svgData
  have key : ∀ (l : List (DynSegment F × Nat)) (items : List Item),
      List.Forall₂ (fun (s : DynSegment F × Nat) i => Shows fmt fuel (rnd s.2) s.1 i) l items →
      ∀ {data ss cmd cur}, Drawn data ss cmd cur →
      ∃ data' cmd' cur', l.foldlM (fun data s => svgSegment fmt fuel (rnd s.2) data s.1) data = .ok data' ∧
        Drawn data' (ss ++ sketch cur items) cmd' cur' := by
    intro l items hl
    induction hl with
    | nil => intro data ss cmd cur hd; exact ⟨data, cmd, cur, rfl, by simpa [sketch] using hd⟩
    | cons hs _ ih =>
      intro data ss cmd cur hd
      obtain ⟨d1, c1, e1, h1⟩ := drawn_segment hs hd
      obtain ⟨d2, c2, u2, e2, h2⟩ := ih h1
      refine ⟨d2, c2, u2, ?_, ?_⟩
      · rw [List.foldlM_cons, e1]
        exact e2
      · rw [List.append_assoc] at h2
        exact h2
  obtain ⟨d, c, u, e, hd⟩ := key _ _ h drawn_nil
  exact ⟨d, e, by simpa using hd.strokes⟩

end

/-! ### Cubic curves -/

/-- Consecutive cubics join. -/
def Joined (qs : List (Pt × Pt × Pt × Pt)) : Prop :=
  ∀ k q q', qs[k]? = some q → qs[k + 1]? = some q' → q.2.2.2 = q'.1

theorem chained_exact_iff (c : Pt) (q : Pt × Pt × Pt × Pt) (qs : List (Pt × Pt × Pt × Pt)) :
    chained c (q :: qs) = Spec.Svg.exact (q :: qs) ↔ c = q.1 ∧ Joined (q :: qs) := by
  induction qs generalizing c q with
  | nil =>
    obtain ⟨p, a, b, e⟩ := q
    simp [chained, Spec.Svg.exact, Joined]
  | cons q' qs ih =>
    obtain ⟨p, a, b, e⟩ := q
    have h := ih e q'
    rw [chained]
    simp only [Spec.Svg.exact, List.map_cons, List.cons.injEq, Stroke.cubic.injEq, and_true] at h ⊢
    rw [h]
    refine and_congr_right fun _ => ⟨fun ⟨h1, h2⟩ k x y hx hy => ?_, fun h => ⟨h 0 _ _ rfl rfl, fun k => h (k + 1)⟩⟩
    cases k with
    | zero =>
      simp at hx hy
      rw [← hx, ← hy]
      exact h1
    | succ k => exact h2 k x y (by simpa using hx) (by simpa using hy)

/-- **C83** The path shows the cubic pieces of a B-spline exactly when they join in the printed text. -/
theorem C83_exact_iff (cur : Option Pt) (qs : List (Pt × Pt × Pt × Pt)) :
    (Item.cubics qs).strokes cur = Spec.Svg.exact qs ↔ Joined qs := by
  cases qs with
  | nil => simp [Item.strokes, Spec.Svg.exact, Joined]
  | cons q qs =>
    obtain ⟨p, a, b, e⟩ := q
    rw [Item.strokes, chained_exact_iff]
    simp

/-- **C83** The path always has one cubic per piece, with the control points of the piece; only the start can differ. -/
theorem C83_pieces (cur : Option Pt) (qs : List (Pt × Pt × Pt × Pt)) :
    List.Forall₂ (fun (s : Stroke) (q : Pt × Pt × Pt × Pt) => ∃ p, s = .cubic p q.2.1 q.2.2.1 q.2.2.2)
      ((Item.cubics qs).strokes cur) qs := by
  have key : ∀ (qs : List (Pt × Pt × Pt × Pt)) (c : Pt), List.Forall₂
      (fun (s : Stroke) (q : Pt × Pt × Pt × Pt) => ∃ p, s = .cubic p q.2.1 q.2.2.1 q.2.2.2) (chained c qs) qs := by
    intro qs
    induction qs with
    | nil => intro c; exact .nil
    | cons q qs ih => intro c; exact .cons ⟨c, rfl⟩ (ih _)
  cases qs with
  | nil => exact .nil
  | cons q qs => exact key _ _

section
variable {K : Type} [Field K] [LinearOrder K] [IsStrictOrderedRing K] [Env K] {fmt : K → List Char}

/-- A clamped cubic: valid, knots further apart than the tolerance or equal, end knots of multiplicity 4, all inner knots
of multiplicity at most `m`. -/
structure ClampedCubic (c : BSplineCurve K (V3 K)) (m : Nat) : Prop where
  valid : c.Valid
  cubic : c.degree = 3
  apart : ∀ a ∈ c.knots, ∀ b ∈ c.knots, a < b → Env.tol < b - a
  first : c.knots.count (knot c.knots 0) = 4
  last : c.knots.count (knot c.knots (c.knots.length - 1)) = 4
  inner : ∀ x ∈ c.knots, knot c.knots 0 < x → x < knot c.knots (c.knots.length - 1) → c.knots.count x ≤ m

/-- The distinct knots in order. -/
theorem exists_distinct {c : BSplineCurve K (V3 K)} (hv : c.Valid) : ∃ ds : List K, ds.Pairwise (· < ·) ∧
    (∀ x, x ∈ ds ↔ x ∈ c.knots) ∧ knot ds 0 = knot c.knots 0 ∧
    knot ds (ds.length - 1) = knot c.knots (c.knots.length - 1) := by
  have hlen := hv.len
  have hpw : c.knots.dedup.Pairwise (· < ·) :=
    ((hv.sorted.sublist (List.dedup_sublist _)).and (List.nodup_dedup c.knots)).imp fun ⟨h1, h2⟩ => lt_of_le_of_ne h1 h2
  have hmem : ∀ x, x ∈ c.knots.dedup ↔ x ∈ c.knots := fun x => List.mem_dedup
  have hkn : ∀ x, x ∈ c.knots → ∃ j, j ≤ c.controlPoints.length + c.degree ∧ knot c.knots j = x := by
    intro x hx
    obtain ⟨i, hi, ei⟩ := List.getElem_of_mem hx
    exact ⟨i, by omega, by rw [← ei, knot_getElem hi]⟩
  have hdn : ∀ x, x ∈ c.knots → ∃ j, j < c.knots.dedup.length ∧ knot c.knots.dedup j = x := by
    intro x hx
    obtain ⟨i, hi, ei⟩ := List.getElem_of_mem ((hmem x).2 hx)
    exact ⟨i, hi, by rw [← ei, knot_getElem hi]⟩
  have hmono : ∀ i j, i ≤ j → j < c.knots.dedup.length → knot c.knots.dedup i ≤ knot c.knots.dedup j := by
    intro i j h1 h2
    rcases Nat.eq_or_lt_of_le h1 with rfl | h1
    · exact le_refl _
    · exact le_of_lt (strict_lt hpw h1 h2)
  obtain ⟨j0, hj0, e0⟩ := hdn _ (knot_mem (show 0 < c.knots.length by omega))
  obtain ⟨j1, hj1, e1⟩ := hdn _ (knot_mem (show c.knots.length - 1 < c.knots.length by omega))
  refine ⟨c.knots.dedup, hpw, hmem, le_antisymm ?_ ?_, le_antisymm ?_ ?_⟩
  · rw [← e0]; exact hmono _ _ (by omega) hj0
  · obtain ⟨j, hj, ej⟩ := hkn _ ((hmem _).1 (knot_mem (show 0 < c.knots.dedup.length by omega)))
    rw [← ej]; exact hv.mono _ _ (by omega) hj
  · obtain ⟨j, hj, ej⟩ := hkn _ ((hmem _).1 (knot_mem (show c.knots.dedup.length - 1 < c.knots.dedup.length by omega)))
    rw [← ej]; exact hv.mono _ _ (by omega) (by omega)
  · rw [← e1]; exact hmono _ _ (by omega) (by omega)

/-- The pieces of a clamped cubic with inner multiplicities at most 3 are cubics that join. -/
theorem clampedCubic_pieces {c : BSplineCurve K (V3 K)} (hc : ClampedCubic c 3) (htol : (0 : K) ≤ Env.tol) :
    ∃ bs, c.toPiecewiseBezier = .ok bs ∧ (∀ b ∈ bs, b.controlPoints.length = 4) ∧
      ∀ (k : Nat) (b b' : BezierCurve (V3 K)), bs[k]? = some b → bs[k + 1]? = some b' →
        cp b.controlPoints 3 = cp b'.controlPoints 0 := by
  have hv := hc.valid
  have hlen := hv.len
  obtain ⟨ds, hds, hmem, e0, e1⟩ := exists_distinct hv
  have hge : ∀ x ∈ c.knots, knot c.knots 0 ≤ x ∧ x ≤ knot c.knots (c.knots.length - 1) := by
    intro x hx
    obtain ⟨i, hi, ei⟩ := List.getElem_of_mem hx
    rw [← ei, knot_getElem hi]
    exact ⟨hv.mono _ _ (by omega) (by omega), hv.mono _ _ (by omega) (by omega)⟩
  have hmult : ∀ x ∈ c.knots, c.knots.count x ≤ c.degree + 1 := by
    intro x hx
    rw [hc.cubic]
    rcases (hge x hx).1.lt_or_eq with h | h
    · rcases (hge x hx).2.lt_or_eq with h' | h'
      · exact le_trans (hc.inner x hx h h') (by omega)
      · rw [h', hc.last]
    · rw [← h, hc.first]
  have h0 : c.knots.count (knot ds 0) = c.degree + 1 := by rw [e0, hc.first, hc.cubic]
  have h1 : c.knots.count (knot ds (ds.length - 1)) = c.degree + 1 := by rw [e1, hc.last, hc.cubic]
  obtain ⟨bs, f1, f2, f3⟩ := C18_toPiecewiseBezier hv htol hc.apart hds hmem hmult h0 h1
  obtain ⟨bs', g1, g2, g3⟩ := C82_join hv htol hc.apart hds hmem hmult h0 h1
  obtain rfl : bs = bs' := by rw [f1] at g1; exact Except.ok.inj g1
  refine ⟨bs, f1, fun b hb => ?_, fun k b b' hb hb' => ?_⟩
  · obtain ⟨i, hi, rfl⟩ := List.getElem_of_mem hb
    rw [(f3 i _ (List.getElem?_eq_getElem hi)).1, hc.cubic]
  · have hk : k + 1 < bs.length := by
      by_contra hn
      rw [List.getElem?_eq_none (by omega)] at hb'
      cases hb'
    have hl := strict_lt hds (show 0 < k + 1 by omega) (by omega)
    have hr := strict_lt hds (show k + 1 < ds.length - 1 by omega) (by omega)
    have := g3 k b b' hb hb' (by
      rw [hc.cubic]
      exact hc.inner _ ((hmem _).1 (knot_mem (by omega))) (by rw [← e0]; exact hl) (by rw [← e1]; exact hr))
    rw [hc.cubic] at this
    exact this.1

/-- The cubic stroke of a piece. -/
def pieceStroke (fmt : K → List Char) (b : BezierCurve (V3 K)) : Stroke :=
  .cubic (svgPt fmt (cp b.controlPoints 0)) (svgPt fmt (cp b.controlPoints 1)) (svgPt fmt (cp b.controlPoints 2))
    (svgPt fmt (cp b.controlPoints 3))

/-- The four points of a piece. -/
def pieceCubic (fmt : K → List Char) (b : BezierCurve (V3 K)) : Pt × Pt × Pt × Pt :=
  (svgPt fmt (cp b.controlPoints 0), svgPt fmt (cp b.controlPoints 1), svgPt fmt (cp b.controlPoints 2),
    svgPt fmt (cp b.controlPoints 3))

theorem cubics_of_length (hfmt : ∀ x, Decimal (fmt x)) (bs : List (BezierCurve (V3 K)))
    (h : ∀ b ∈ bs, b.controlPoints.length = 4) : Cubics fmt bs (bs.map (pieceCubic fmt)) := by
  induction bs with
  | nil => exact .nil
  | cons b bs ih =>
    refine .cons ?_ (ih fun x hx => h x (by simp [hx]))
    have hb := h b (by simp)
    obtain ⟨l⟩ := b
    match l, hb with
    | [p₀, p₁, p₂, p₃], _ =>
      exact ⟨p₀, p₁, p₂, p₃, rfl, ⟨⟨hfmt _, hfmt _⟩, ⟨hfmt _, hfmt _⟩, ⟨hfmt _, hfmt _⟩, ⟨hfmt _, hfmt _⟩⟩, rfl⟩

/-- **C64**, for curves whose inner knots have multiplicity at most 3: the path of a polycurve of clamped cubic B-splines,
read by the SVG standard, consists of exactly the pieces of `to_piecewise_bezier` of all segments in order.  Missing: inner
knots of multiplicity 4, for which the claim is false (`C64_false`); `C83` covers them. -/
theorem C64_pieces_partial (hfmt : ∀ x, Decimal (fmt x)) (htol : (0 : K) ≤ Env.tol) {fuel : Nat}
    {rnd : Nat → List Bool → K} (segments : List (DynSegment K))
    (h : ∀ s ∈ segments, ∃ c, s.curve = .bspline c ∧ ClampedCubic c 3) :
    ∃ (d : List Char) (bss : List (List (BezierCurve (V3 K)))), svgData fmt fuel rnd segments = .ok d ∧
      List.Forall₂ (fun (s : DynSegment K) bs => ∃ c, s.curve = .bspline c ∧ c.toPiecewiseBezier = .ok bs) segments bss ∧
      strokes d = some (bss.flatten.map (pieceStroke fmt)) := by
  have key : ∀ (l : List (DynSegment K)) (n : Nat), (∀ s ∈ l, ∃ c, s.curve = .bspline c ∧ ClampedCubic c 3) →
      ∃ bss : List (List (BezierCurve (V3 K))),
      List.Forall₂ (fun (s : DynSegment K) bs => ∃ c, s.curve = .bspline c ∧ c.toPiecewiseBezier = .ok bs) l bss ∧
      List.Forall₂ (fun (s : DynSegment K × Nat) i => Shows fmt fuel (rnd s.2) s.1 i) (l.zipIdx n)
        (bss.map fun bs => .cubics (bs.map (pieceCubic fmt))) ∧
      ∀ cur, sketch cur (bss.map fun bs => .cubics (bs.map (pieceCubic fmt))) = bss.flatten.map (pieceStroke fmt) := by
    intro l
    induction l with
    | nil => intro n _; exact ⟨[], .nil, .nil, fun _ => rfl⟩
    | cons s l ih =>
      intro n hl
      obtain ⟨c, hc, hcc⟩ := hl s (by simp)
      obtain ⟨bs, e1, e2, e3⟩ := clampedCubic_pieces hcc htol
      obtain ⟨bss, f1, f2, f3⟩ := ih (n + 1) fun x hx => hl x (by simp [hx])
      refine ⟨bs :: bss, .cons ⟨c, hc, e1⟩ f1, ?_, fun cur => ?_⟩
      · rw [List.zipIdx_cons, List.map_cons]
        refine .cons ?_ f2
        obtain ⟨sc, range, tol, m⟩ := s
        simp only [] at hc
        subst hc
        exact .cubic c range tol m bs _ hcc.cubic e1 (cubics_of_length hfmt bs e2)
      · rw [List.map_cons, sketch, f3, List.flatten_cons, List.map_append]
        congr 1
        rw [(C83_exact_iff cur _).2]
        · simp [Spec.Svg.exact, pieceCubic, pieceStroke, Function.comp_def]
        · intro k q q' hq hq'
          rw [List.getElem?_map, Option.map_eq_some_iff] at hq hq'
          obtain ⟨b, hb, rfl⟩ := hq
          obtain ⟨b', hb', rfl⟩ := hq'
          simp only [pieceCubic]
          rw [e3 k b b' hb hb']
  obtain ⟨bss, f1, f2, f3⟩ := key segments 0 h
  obtain ⟨d, e, hd⟩ := C84_strokes f2
  exact ⟨d, bss, e, f1, by rw [hd, f3]⟩

end

/-- A printer of natural numbers below ten with a sign. -/
def tinyFmt (q : ℚ) : List Char :=
  (if q < 0 then ['-'] else []) ++ [Nat.digitChar (q.num.natAbs % 10)]

/-- **C64**, **C83**: with an inner knot of multiplicity 4 the second piece is drawn from the end of the first. -/
theorem C64_false :
    (⟨[⟨0, 0, 0⟩, ⟨1, 1, 0⟩, ⟨2, 1, 0⟩, ⟨3, 0, 0⟩, ⟨5, 0, 0⟩, ⟨6, 1, 0⟩, ⟨7, 1, 0⟩, ⟨8, 0, 0⟩],
        [0, 0, 0, 0, 1, 1, 1, 1, 2, 2, 2, 2], 3⟩ : BSplineCurve ℚ (V3 ℚ)).toPiecewiseBezier
      = .ok [⟨[⟨0, 0, 0⟩, ⟨1, 1, 0⟩, ⟨2, 1, 0⟩, ⟨3, 0, 0⟩]⟩, ⟨[⟨5, 0, 0⟩, ⟨6, 1, 0⟩, ⟨7, 1, 0⟩, ⟨8, 0, 0⟩]⟩] ∧
    (svgData tinyFmt 0 (fun _ _ => 0) [⟨.bspline ⟨[⟨0, 0, 0⟩, ⟨1, 1, 0⟩, ⟨2, 1, 0⟩, ⟨3, 0, 0⟩, ⟨5, 0, 0⟩, ⟨6, 1, 0⟩,
        ⟨7, 1, 0⟩, ⟨8, 0, 0⟩], [0, 0, 0, 0, 1, 1, 1, 1, 2, 2, 2, 2], 3⟩, (0, 2), 1, 1⟩]).map strokes
      = .ok (some [.cubic (['0'], ['0']) (['1'], ['1']) (['2'], ['1']) (['3'], ['0']),
          .cubic (['3'], ['0']) (['6'], ['1']) (['7'], ['1']) (['8'], ['0'])]) := by decide +kernel

/-- The hypotheses of `C64_pieces_partial` can be met: a clamped cubic with an inner knot of multiplicity 2. -/
theorem C64_applies : ClampedCubic (⟨[⟨0, 0, 0⟩, ⟨0, 4, 0⟩, ⟨4, 4, 0⟩, ⟨8, 4, 0⟩, ⟨8, 0, 0⟩, ⟨8, 8, 8⟩],
    [0, 0, 0, 0, 1, 1, 2, 2, 2, 2], 3⟩ : BSplineCurve ℚ (V3 ℚ)) 3 := by
  refine ⟨⟨rfl, ?_, resolved_rat _, ?_, ?_⟩, rfl, ?_, ?_, ?_, ?_⟩ <;> try unfold Sorted
  all_goals decide +kernel

/-- Non-vacuity of `C64`: two cubic segments. -/
theorem C64_example :
    (svgData tinyFmt 0 (fun _ _ => 0)
      [⟨.bspline ⟨[⟨0, 0, 0⟩, ⟨1, 1, 0⟩, ⟨2, 1, 0⟩, ⟨3, 0, 0⟩], [0, 0, 0, 0, 1, 1, 1, 1], 3⟩, (0, 1), 1, 1⟩,
       ⟨.bspline ⟨[⟨5, 0, 0⟩, ⟨6, -1, 0⟩, ⟨7, 1, 0⟩, ⟨8, 0, 0⟩], [0, 0, 0, 0, 1, 1, 1, 1], 3⟩, (0, 1), 1, 1⟩]).map
      (fun d => (String.ofList d, strokes d))
      = .ok ("M 0,0 C 1,1 2,1 3,0M 5,0 C 6,-1 7,1 8,0",
          some [.cubic (['0'], ['0']) (['1'], ['1']) (['2'], ['1']) (['3'], ['0']),
          .cubic (['5'], ['0']) (['6'], ['-', '1']) (['7'], ['1']) (['8'], ['0'])]) := by decide +kernel

/-- **C84**: the range of a polyline and of a cubic is ignored, and a sampled segment is joined to the one before. -/
theorem C84_example :
    (svgData tinyFmt 9 (fun _ _ => 0)
      [⟨.polyline ⟨[⟨0, 0, 0⟩, ⟨4, 0, 0⟩], [4], 4⟩, (0, 1 / 2), 1, 1⟩,
       ⟨.other { getPoint := fun u => .ok ⟨7 + u, 7, 0⟩, project := fun _ => .ok 0 }, (0, 1), 1, 1⟩]).map
      (fun d => (String.ofList d, strokes d))
      = .ok ("M 0,0 L 4,0 L 7,7 L 8,7", some [.line (['0'], ['0']) (['4'], ['0']), .line (['4'], ['0']) (['7'], ['7']),
          .line (['7'], ['7']) (['8'], ['7'])]) := by decide +kernel

end Geom3d
