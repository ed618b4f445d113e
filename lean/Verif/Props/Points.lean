import Verif.Model.Points
import Verif.Lemmas.Res
import Mathlib.Tactic.Set

/-! # C51, C81: point cloud files -/

set_option linter.unusedSectionVars false

namespace Geom3d

/-! ### Specification -/

/-- A separator character of the point cloud format. -/
def Spec.IsSep (c : Char) : Prop := c = ' ' ∨ c = ',' ∨ c = '\t'

/-- A column: not empty, without separators. -/
def Spec.Column (s : List Char) : Prop := s ≠ [] ∧ ∀ c ∈ s, ¬ Spec.IsSep c

/-- `line` consists of the given columns: separators in front, columns with at least one separator between them,
possibly separators behind. -/
inductive Spec.Columns : List Char → List (List Char) → Prop
  | nil : Spec.Columns [] []
  | sep {c : Char} {line : List Char} {cols : List (List Char)} :
      Spec.IsSep c → Spec.Columns line cols → Spec.Columns (c :: line) cols
  | last {s : List Char} : Spec.Column s → Spec.Columns s [s]
  | cons {s : List Char} {c : Char} {line : List Char} {cols : List (List Char)} :
      Spec.Column s → Spec.IsSep c → Spec.Columns line cols → Spec.Columns (s ++ c :: line) (s :: cols)

/-- A line as `lines` delivers it: no line feed, and no carriage return at the end. -/
def Spec.Line (line : List Char) : Prop := '\n' ∉ line ∧ line.getLast? ≠ some '\r'

/-- Contract of formatting and parsing for a value: the text is read back, is a column, and contains neither line ends
nor `#`. -/
structure Spec.Readable {F : Type} (fmt : F → List Char) (parse : List Char → Option F) (x : F) : Prop where
  back : parse (fmt x) = some x
  column : Spec.Column (fmt x)
  noEnd : '\n' ∉ fmt x
  noCR : '\r' ∉ fmt x
  noHash : '#' ∉ fmt x

open Spec

/-! ### Lines -/

theorem linesAux_line {line : List Char} (h : '\n' ∉ line) (cur rest : List Char) :
    linesAux cur (line ++ '\n' :: rest) = stripCR (cur ++ line) :: linesAux [] rest := by
  induction line generalizing cur with
  | nil => simp [linesAux]
  | cons c line ih =>
    have hc : c ≠ '\n' := fun e => h (by simp [e])
    rw [List.cons_append, linesAux, if_neg hc, ih (fun hm => h (by simp [hm]))]
    simp

theorem lines_cons {line : List Char} (h : Line line) (rest : List Char) :
    lines (line ++ '\n' :: rest) = line :: lines rest := by
  unfold lines
  rw [linesAux_line h.1, List.nil_append, stripCR, if_neg h.2]

theorem lines_crlf {line : List Char} (h : '\n' ∉ line) (rest : List Char) :
    lines (line ++ '\r' :: '\n' :: rest) = line :: lines rest := by
  have e : line ++ '\r' :: '\n' :: rest = (line ++ ['\r']) ++ '\n' :: rest := by simp
  unfold lines
  rw [e, linesAux_line (by simp [h]), List.nil_append, stripCR, if_pos (by simp)]
  simp

theorem linesAux_end {line : List Char} (h : '\n' ∉ line) (cur : List Char) (hne : cur ++ line ≠ []) :
    linesAux cur line = [cur ++ line] := by
  induction line generalizing cur with
  | nil => simp at hne; simp [linesAux, hne]
  | cons c line ih =>
    have hc : c ≠ '\n' := fun e => h (by simp [e])
    rw [linesAux, if_neg hc, ih (fun hm => h (by simp [hm])) _ (by simp)]
    simp

/-! ### Columns -/

theorem isSep_iff (c : Char) : isSep c = true ↔ IsSep c := by
  unfold isSep IsSep; simp [or_assoc]

theorem splitAux_column {s : List Char} (h : ∀ c ∈ s, ¬ IsSep c) (cur : List Char) : splitAux cur s = [cur ++ s] := by
  induction s generalizing cur with
  | nil => simp [splitAux]
  | cons c s ih =>
    have hc : ¬ isSep c = true := fun e => h c (by simp) ((isSep_iff c).1 e)
    rw [splitAux, if_neg hc, ih (fun d hd => h d (by simp [hd]))]
    simp

theorem splitAux_column_sep {s : List Char} (h : ∀ c ∈ s, ¬ IsSep c) {c : Char} (hc : IsSep c) (cur line : List Char) :
    splitAux cur (s ++ c :: line) = (cur ++ s) :: splitAux [] line := by
  induction s generalizing cur with
  | nil => rw [List.nil_append, splitAux, if_pos ((isSep_iff c).2 hc)]; simp
  | cons d s ih =>
    have hd : ¬ isSep d = true := fun e => h d (by simp) ((isSep_iff d).1 e)
    rw [List.cons_append, splitAux, if_neg hd, ih (fun e he => h e (by simp [he]))]
    simp

/-- The fields found are the columns. -/
theorem fields_columns {line : List Char} {cols : List (List Char)} (h : Columns line cols) : fields line = cols := by
  induction h with
  | nil => rfl
  | sep hc _ ih =>
    unfold fields at ih ⊢
    rw [splitAux, if_pos ((isSep_iff _).2 hc), List.filter_cons]
    simpa using ih
  | last hs =>
    unfold fields
    rw [splitAux_column hs.2]
    simp [hs.1]
  | cons hs hc _ ih =>
    unfold fields at ih ⊢
    rw [splitAux_column_sep hs.2 hc, List.filter_cons]
    simpa [hs.1] using ih

/-- Every line consists of columns. -/
theorem columns_exist (line : List Char) : ∃ cols, Columns line cols := by
  suffices h : ∀ cur : List Char, (∀ c ∈ cur, ¬ IsSep c) → ∃ cols, Columns (cur ++ line) cols by
    simpa using h [] (by simp)
  induction line with
  | nil =>
    intro cur hcur
    rw [List.append_nil]
    by_cases h : cur = []
    · subst h; exact ⟨_, .nil⟩
    · exact ⟨_, .last ⟨h, hcur⟩⟩
  | cons c line ih =>
    intro cur hcur
    by_cases hc : IsSep c
    · obtain ⟨cols, hcols⟩ := ih [] (by simp)
      rw [List.nil_append] at hcols
      by_cases h : cur = []
      · subst h; exact ⟨_, .sep hc hcols⟩
      · exact ⟨_, .cons ⟨h, hcur⟩ hc hcols⟩
    · obtain ⟨cols, hcols⟩ := ih (cur ++ [c]) (by
        intro d hd
        rcases List.mem_append.1 hd with hd | hd
        · exact hcur d hd
        · rw [List.mem_singleton.1 hd]; exact hc)
      exact ⟨cols, by simpa using hcols⟩

section
variable {F : Type} (parse : List Char → Option F) (fmt : F → List Char)

theorem foldlM_acc (ls : List (List Char)) (acc : List (V3 F)) :
    ls.foldlM (fun points line => do
      let ps ← loadLine parse line
      pure (points ++ ps)) acc
    = (ls.foldlM (fun points line => do
      let ps ← loadLine parse line
      pure (points ++ ps)) [] >>= fun ps => (pure (acc ++ ps) : Res (List (V3 F)))) := by
  induction ls generalizing acc with
  | nil => simp
  | cons l ls ih =>
    rw [List.foldlM_cons, List.foldlM_cons]
    cases h : loadLine parse l with
    | error e => rfl
    | ok ps =>
      simp only [ok_bind, pure_eq_ok, List.nil_append] at ih ⊢
      rw [ih (acc ++ ps), ih ps]
      cases ls.foldlM (fun points line => do
        let ps ← loadLine parse line
        (Except.ok (points ++ ps) : Res (List (V3 F)))) ([] : List (V3 F)) with
      | error e => rfl
      | ok qs => simp

theorem load_lines_cons {text line rest : List Char} (h : lines text = line :: lines rest) :
    loadPointCloud parse text = (do
      let ps ← loadLine parse line
      let qs ← loadPointCloud parse rest
      pure (ps ++ qs)) := by
  unfold loadPointCloud
  rw [h, List.foldlM_cons]
  cases loadLine parse line with
  | error e => rfl
  | ok ps =>
    exact foldlM_acc parse (lines rest) ps

/-- **C51**, a file is read line by line; `\n` and `\r\n` end a line. -/
theorem C51_lines {line : List Char} (h : Line line) (rest : List Char) :
    loadPointCloud parse (line ++ '\n' :: rest) = (do
      let ps ← loadLine parse line
      let qs ← loadPointCloud parse rest
      pure (ps ++ qs)) ∧
    loadPointCloud parse (line ++ '\r' :: '\n' :: rest) = loadPointCloud parse (line ++ '\n' :: rest) := by
  refine ⟨load_lines_cons parse (lines_cons h rest), ?_⟩
  rw [load_lines_cons parse (lines_cons h rest), load_lines_cons parse (lines_crlf h.1 rest)]

/-- **C51**, the last line may lack its line end. -/
theorem C51_last_line {line : List Char} (h : Line line) (hne : line ≠ []) :
    loadPointCloud parse line = loadPointCloud parse (line ++ ['\n']) := by
  unfold loadPointCloud
  rw [lines_cons h []]
  have : lines line = [line] := by
    unfold lines
    rw [linesAux_end h.1 [] (by simpa using hne), List.nil_append]
  rw [this]
  rfl

/-- **C51**, comments are skipped. -/
theorem C51_comment (s : List Char) : loadLine parse ('#' :: s) = .ok [] := rfl

/-- **C51**, a line with a number of columns other than 3 or 4 is skipped, whatever its columns contain. -/
theorem C51_skip {line : List Char} {cols : List (List Char)} (h : Columns line cols) (h3 : cols.length ≠ 3)
    (h4 : cols.length ≠ 4) : loadLine parse line = .ok [] := by
  unfold loadLine
  split
  · rfl
  · rw [fields_columns h]
    match cols, h3, h4 with
    | [], _, _ => rfl
    | [_], _, _ => rfl
    | [_, _], _, _ => rfl
    | [_, _, _], h3, _ => exact absurd rfl h3
    | [_, _, _, _], _, h4 => exact absurd rfl h4
    | _ :: _ :: _ :: _ :: _ :: _, _, _ => rfl

/-- **C51**, three columns that parse are a point. -/
theorem C51_three {line x y z : List Char} (h : Columns line [x, y, z]) (hc : line.head? ≠ some '#') {a b c : F}
    (hx : parse x = some a) (hy : parse y = some b) (hz : parse z = some c) :
    loadLine parse line = .ok [⟨a, b, c⟩] := by
  unfold loadLine
  rw [if_neg hc, fields_columns h]
  simp [parseR, hx, hy, hz]

/-- **C51**, of four columns the first is ignored. -/
theorem C51_four {line n x y z : List Char} (h : Columns line [n, x, y, z]) (hc : line.head? ≠ some '#') {a b c : F}
    (hx : parse x = some a) (hy : parse y = some b) (hz : parse z = some c) :
    loadLine parse line = .ok [⟨a, b, c⟩] := by
  unfold loadLine
  rw [if_neg hc, fields_columns h]
  simp [parseR, hx, hy, hz]

/-- **C51**, the panics: a line of three or four columns, not a comment, whose coordinates do not all parse. -/
theorem C51_panics {line : List Char} {pre : List (List Char)} {x y z : List Char} (h : Columns line (pre ++ [x, y, z]))
    (hp : pre.length ≤ 1) (hc : line.head? ≠ some '#') (hn : parse x = none ∨ parse y = none ∨ parse z = none) :
    loadLine parse line = .error .unwrap := by
  unfold loadLine
  rw [if_neg hc, fields_columns h]
  have key : (do
      let x ← parseR parse x
      let y ← parseR parse y
      let z ← parseR parse z
      pure [⟨x, y, z⟩] : Res (List (V3 F))) = .error .unwrap := by
    unfold parseR
    cases hx : parse x with
    | none => rfl
    | some a =>
      cases hy : parse y with
      | none => rfl
      | some b =>
        cases hz : parse z with
        | none => rfl
        | some c => simp [hx, hy, hz] at hn
  match pre, hp with
  | [], _ => exact key
  | [_], _ => exact key

/-- Three formatted numbers on a line. -/
theorem columns_three {x y z : F} (hx : Readable fmt parse x) (hy : Readable fmt parse y) (hz : Readable fmt parse z) :
    Columns (fmt x ++ ' ' :: (fmt y ++ ' ' :: fmt z)) [fmt x, fmt y, fmt z] :=
  .cons hx.column (.inl rfl) (.cons hy.column (.inl rfl) (.last hz.column))

theorem head_not_hash {x : F} (hx : Readable fmt parse x) (rest : List Char) : (fmt x ++ rest).head? ≠ some '#' := by
  intro h
  have hne := hx.column.1
  cases hf : fmt x with
  | nil => exact hne hf
  | cons c t =>
    rw [hf] at h
    simp at h
    exact hx.noHash (by rw [hf, h]; simp)

theorem line_of {pre : List Char} {z : F} (hpre : '\n' ∉ pre) (hz : Readable fmt parse z) : Line (pre ++ fmt z) := by
  refine ⟨by simp [hpre, hz.noEnd], ?_⟩
  intro h
  cases hf : (fmt z).getLast? with
  | none => exact hz.column.1 (List.getLast?_eq_none_iff.1 hf)
  | some c =>
    rw [List.getLast?_append, hf] at h
    simp at h
    rw [h] at hf
    exact hz.noCR (List.mem_of_getLast? hf)

/-- All coordinates of a point can be written and read back. -/
def Spec.ReadablePoint (p : V3 F) : Prop := Readable fmt parse p.x ∧ Readable fmt parse p.y ∧ Readable fmt parse p.z

/-- **C51**, the round trip. -/
theorem C51_roundtrip_partial (ps : List (V3 F)) (h : ∀ p ∈ ps, ReadablePoint parse fmt p) :
    loadPointCloud parse (savePointCloud fmt ps) = .ok ps := by
  induction ps with
  | nil => rfl
  | cons p ps ih =>
    obtain ⟨hx, hy, hz⟩ := h p (by simp)
    have e : savePointCloud fmt (p :: ps)
        = (fmt p.x ++ ' ' :: (fmt p.y ++ ' ' :: fmt p.z)) ++ '\n' :: savePointCloud fmt ps := by
      simp [savePointCloud]
    have hl : Line (fmt p.x ++ ' ' :: (fmt p.y ++ ' ' :: fmt p.z)) := by
      have := line_of parse fmt (pre := fmt p.x ++ ' ' :: (fmt p.y ++ [' '])) (z := p.z) (by
        simp [hx.noEnd, hy.noEnd]) hz
      simpa using this
    rw [e, (C51_lines parse hl _).1, ih fun q hq => h q (by simp [hq]),
      C51_three parse (columns_three parse fmt hx hy hz) (head_not_hash parse fmt hx _) hx.back hy.back hz.back]
    rfl

/-- **C81** A file written with normals has six columns per line: it loads as an empty cloud, without any error. -/
theorem C81_normals (ps : List (V3 F × V3 F))
    (h : ∀ p ∈ ps, ReadablePoint parse fmt p.1 ∧ ReadablePoint parse fmt p.2) :
    loadPointCloud parse (savePointCloudWithNormal fmt ps) = .ok [] := by
  induction ps with
  | nil => rfl
  | cons p ps ih =>
    obtain ⟨⟨hx, hy, hz⟩, ha, hb, hc⟩ := h p (by simp)
    set line := fmt p.1.x ++ ' ' :: (fmt p.1.y ++ ' ' :: (fmt p.1.z ++ ' ' :: (fmt p.2.x ++ ' ' :: (fmt p.2.y ++ ' ' ::
      fmt p.2.z)))) with hline
    have e : savePointCloudWithNormal fmt (p :: ps) = line ++ '\n' :: savePointCloudWithNormal fmt ps := by
      simp [savePointCloudWithNormal, hline]
    have hl : Line line := by
      have := line_of parse fmt (pre := fmt p.1.x ++ ' ' :: (fmt p.1.y ++ ' ' :: (fmt p.1.z ++ ' ' :: (fmt p.2.x ++ ' ' ::
        (fmt p.2.y ++ [' ']))))) (z := p.2.z) (by simp [hx.noEnd, hy.noEnd, hz.noEnd, ha.noEnd, hb.noEnd]) hc
      simpa [hline] using this
    have hcol : Columns line [fmt p.1.x, fmt p.1.y, fmt p.1.z, fmt p.2.x, fmt p.2.y, fmt p.2.z] :=
      .cons hx.column (.inl rfl) (.cons hy.column (.inl rfl) (.cons hz.column (.inl rfl) (columns_three parse fmt ha hb hc)))
    rw [e, (C51_lines parse hl _).1, ih fun q hq => h q (by simp [hq]), C51_skip parse hcol (by simp) (by simp)]
    rfl

/-- **C81** A file written by `save_points` has two columns per line: it loads as an empty cloud. -/
theorem C81_points (ps : List (V2 F)) (h : ∀ p ∈ ps, Readable fmt parse p.x ∧ Readable fmt parse p.y) :
    loadPointCloud parse (savePoints fmt ps) = .ok [] := by
  induction ps with
  | nil => rfl
  | cons p ps ih =>
    obtain ⟨hx, hy⟩ := h p (by simp)
    have e : savePoints fmt (p :: ps) = (fmt p.x ++ ',' :: fmt p.y) ++ '\n' :: savePoints fmt ps := by
      simp [savePoints]
    have hl : Line (fmt p.x ++ ',' :: fmt p.y) := by
      have := line_of parse fmt (pre := fmt p.x ++ [',']) (z := p.y) (by simp [hx.noEnd]) hy
      simpa using this
    have hcol : Columns (fmt p.x ++ ',' :: fmt p.y) [fmt p.x, fmt p.y] :=
      .cons hx.column (.inr (.inl rfl)) (.last hy.column)
    rw [e, (C51_lines parse hl _).1, ih fun q hq => h q (by simp [hq]), C51_skip parse hcol (by simp) (by simp)]
    rfl

/-- **C51**, the last part is false of the code: of every non-empty list with normals no position is loaded back. -/
theorem C51_normals_lost (ps : List (V3 F × V3 F)) (hne : ps ≠ [])
    (h : ∀ p ∈ ps, ReadablePoint parse fmt p.1 ∧ ReadablePoint parse fmt p.2) :
    loadPointCloud parse (savePointCloudWithNormal fmt ps) ≠ .ok (ps.map Prod.fst) := by
  rw [C81_normals parse fmt ps h]
  intro e
  rw [Except.ok.injEq] at e
  exact hne (by simpa using e.symm)

end

/-! ### A concrete number format -/

/-- Unary numbers: `n` is `n + 1` strokes. -/
def demoFmt (n : Nat) : List Char := List.replicate (n + 1) '1'

/-- Reading them. -/
def demoParse (s : List Char) : Option Nat := some (s.length - 1)

/-- Non-vacuity: the contract can be met by every number of a format. -/
theorem C51_contract (n : Nat) : Readable demoFmt demoParse n := by
  have h : ∀ c, c ∈ demoFmt n → c = '1' := by
    intro c hc
    exact List.eq_of_mem_replicate hc
  refine ⟨by simp [demoFmt, demoParse], ⟨by simp [demoFmt], ?_⟩, ?_, ?_, ?_⟩
  · intro c hc
    rw [h c hc]
    unfold IsSep
    decide
  · intro hc; exact absurd (h _ hc) (by decide)
  · intro hc; exact absurd (h _ hc) (by decide)
  · intro hc; exact absurd (h _ hc) (by decide)

/-- Non-vacuity: a small file with comment, index column, other separators, CRLF and a line to skip. -/
theorem C51_example : loadPointCloud (F := Nat) (fun s => if s = ['1'] then some 1 else if s = ['2'] then some 2 else none)
      "# cloud\n1 2 1\n9,2,2,1\r\n\n1 2 1 2 1 2\n\t2  1\t2".toList
    = .ok [⟨1, 2, 1⟩, ⟨2, 2, 1⟩, ⟨2, 1, 2⟩] := by decide +kernel

/-- **C51**, `scale_points` multiplies every coordinate of every point, in order. -/
theorem C51_scale {F : Type} [Mul F] (points : List (V3 F)) (scale : F) :
    (scalePoints points scale).length = points.length ∧
    ∀ (i : Nat) (p : V3 F), points[i]? = some p →
      (scalePoints points scale)[i]? = some ⟨p.x * scale, p.y * scale, p.z * scale⟩ := by
  refine ⟨by simp [scalePoints], ?_⟩
  intro i p h
  unfold scalePoints
  rw [List.getElem?_map, h]
  rfl

/-- Non-vacuity. -/
example : scalePoints [⟨1, 2, 3⟩, (⟨0, 4, 5⟩ : V3 ℕ)] 10 = [⟨10, 20, 30⟩, ⟨0, 40, 50⟩] := by decide

end Geom3d
