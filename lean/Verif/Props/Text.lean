import Verif.Model.Text
import Verif.Props.Stl
import Verif.Props.Mesh
import Verif.Props.Points

/-! # C132, C133: OBJ files as bytes, and point clouds on a file that takes fewer bytes -/

set_option linter.unusedSectionVars false

namespace Geom3d

/-! ### Specification -/

/-- The parts of a text between the characters `c`. -/
def Spec.cut (c : Char) : List Char → List (List Char)
  | [] => [[]]
  | x :: l => if x = c then [] :: Spec.cut c l else
    match Spec.cut c l with
    | [] => [[x]]
    | w :: ws => (x :: w) :: ws

/-- The number with the given decimal digits. -/
def Spec.readNat (s : List Char) : Option Nat :=
  if s = [] ∨ ∃ c ∈ s, c.isDigit = false then none else some (s.foldl (fun n c => 10 * n + (c.toNat - 48)) 0)

/-- A corner of a face: `a` or `a//n`. -/
def Spec.readCorner (s : List Char) : Option (Nat × Option Nat) :=
  match Spec.cut '/' s with
  | [a] => do pure (← Spec.readNat a, none)
  | [a, [], n] => do pure (← Spec.readNat a, some (← Spec.readNat n))
  | _ => none

/-- A line of an OBJ file. -/
def Spec.readObjLine {F : Type} (parse : List Char → Option F) (line : List Char) : Option (ObjLine F) :=
  match Spec.cut ' ' line with
  | [['v'], x, y, z] => do pure (.v ⟨← parse x, ← parse y, ← parse z⟩)
  | [['v', 'n'], x, y, z] => do pure (.vn ⟨← parse x, ← parse y, ← parse z⟩)
  | ['f'] :: corners => do pure (.f (← corners.mapM Spec.readCorner))
  | _ => none

/-- An OBJ file: every line ends with a line feed. -/
def Spec.readObj {F : Type} (parse : List Char → Option F) (text : List Char) : Option (List (ObjLine F)) :=
  if (Spec.cut '\n' text).getLast? = some [] then (Spec.cut '\n' text).dropLast.mapM (Spec.readObjLine parse) else none

/-- ASCII bytes as characters. -/
def Spec.ascii (bytes : List UInt8) : List Char := bytes.map fun b => Char.ofNat b.toNat

/-- All that has been handed over and not refused is in the file or behind it in the buffer. -/
def Spec.Holds (text : List UInt8) (w : BufWriter) : Prop :=
  w.file.pos = w.file.content.length ∧ w.file.content ++ w.buf = text

open Spec

/-! ### The line writer -/

theorem flush_holds {t : List UInt8} {w : BufWriter} (dev : Nat → Nat) (h : Holds t w) : Holds t (w.flush dev).1 := by
  obtain ⟨h1, h2⟩ := h
  unfold BufWriter.flush
  split
  · exact ⟨h1, h2⟩
  · have e : w.file = ⟨w.file.content, w.file.content.length⟩ := by rw [← h1]
    unfold Holds
    simp only []
    rw [e, write_end]
    exact ⟨rfl, by rw [← h2, List.append_assoc, List.take_append_drop]⟩

theorem flush_length {dev : Nat → Nat} {w : BufWriter} : (w.flush dev).1.buf.length ≤ w.buf.length := by
  unfold BufWriter.flush
  split
  · exact le_refl _
  · simp

/-- A call with `bytes` after `t`: if it succeeds everything is taken, in any case a first part. -/
def Taken (t bytes : List UInt8) (r : BufWriter × Bool) : Prop :=
  (r.2 = true → Holds (t ++ bytes) r.1) ∧ ∃ n, Holds ((t ++ bytes).take n) r.1

theorem Taken.of_holds {t bytes : List UInt8} {w : BufWriter} {b : Bool} (h : Holds (t ++ bytes) w) : Taken t bytes (w, b) :=
  ⟨fun _ => h, (t ++ bytes).length, by rw [List.take_length]; exact h⟩

theorem Taken.of_failed {t bytes : List UInt8} {r : BufWriter × Bool} (h : Holds t r.1) (hr : ¬ r.2 = true) : Taken t bytes r :=
  ⟨fun h' => absurd h' hr, t.length, by rw [List.take_left]; exact h⟩

theorem direct_taken {t bytes : List UInt8} {w : BufWriter} (dev : Nat → Nat) (h : Holds t w) (hb : w.buf = []) :
    Taken t bytes (w.direct dev bytes) := by
  obtain ⟨h1, h2⟩ := h
  rw [hb, List.append_nil] at h2
  have e : w.file = ⟨t, t.length⟩ := by rw [← h2, ← h1]
  have key : Holds (t ++ bytes.take (dev w.flushes)) (w.direct dev bytes).1 := by
    unfold Holds BufWriter.direct
    simp only []
    rw [e, write_end, hb]
    simp
  refine ⟨fun hr => ?_, t.length + dev w.flushes, ?_⟩
  · have : bytes.length ≤ dev w.flushes := by simpa [BufWriter.direct] using hr
    rwa [List.take_of_length_le this] at key
  · rwa [List.take_length_add_append]

theorem writeAll_taken {t bytes : List UInt8} {w : BufWriter} (cap : Nat) (dev : Nat → Nat) (h : Holds t w) :
    Taken t bytes (w.writeAll cap dev bytes) := by
  have push : ∀ {w : BufWriter}, Holds t w → Taken t bytes ({ w with buf := w.buf ++ bytes }, true) := fun {w} h =>
    Taken.of_holds ⟨h.1, by rw [← h.2]; simp⟩
  unfold BufWriter.writeAll
  simp only []
  by_cases hc : cap < w.buf.length + bytes.length
  · rw [if_pos hc]
    by_cases hf : (w.flush dev).2 = true
    · rw [if_pos hf]
      split
      · exact direct_taken dev (flush_holds dev h) (flush_ok hf)
      · exact push (flush_holds dev h)
    · rw [if_neg hf]
      exact Taken.of_failed (flush_holds dev h) hf
  · rw [if_neg hc, if_pos rfl]
    split
    · exact direct_taken dev h (by show w.buf = []; apply List.length_eq_zero_iff.mp; omega)
    · exact push h

theorem cutLines_append (bytes : List UInt8) : (cutLines bytes).1 ++ (cutLines bytes).2 = bytes := by
  have h : bytes = (bytes.reverse.dropWhile (fun b => b != 10)).reverse ++ (bytes.reverse.takeWhile (fun b => b != 10)).reverse := by
    rw [← List.reverse_append, List.takeWhile_append_dropWhile, List.reverse_reverse]
  unfold cutLines
  simp only []
  set a := (bytes.reverse.dropWhile (fun b => b != 10)).reverse
  set b := (bytes.reverse.takeWhile (fun b => b != 10)).reverse
  rw [h]
  simp

theorem cutLines_end {bytes : List UInt8} (h : bytes.getLast? = some 10) : cutLines bytes = (bytes, []) := by
  have e : bytes.reverse.takeWhile (fun b => b != 10) = [] := by
    rw [← List.head?_reverse] at h
    cases hr : bytes.reverse with
    | nil => rfl
    | cons x l =>
      rw [hr] at h
      simp only [List.head?_cons, Option.some.injEq] at h
      rw [h]
      rfl
  unfold cutLines
  simp [e]

theorem Taken.trans {t a b : List UInt8} {r : BufWriter × Bool} {f : BufWriter → BufWriter × Bool} (h : Taken t a r)
    (hf : ∀ w, Holds (t ++ a) w → Taken (t ++ a) b (f w)) : Taken t (a ++ b) (if r.2 then f r.1 else r) := by
  split
  · rename_i hr
    have := hf r.1 (h.1 hr)
    unfold Taken at this ⊢
    rwa [← List.append_assoc]
  · rename_i hr
    obtain ⟨n, hn⟩ := h.2
    refine ⟨fun h => absurd h hr, min n (t ++ a).length, ?_⟩
    rw [← List.append_assoc, List.take_append_of_le_length (by omega)]
    rcases Nat.le_total n (t ++ a).length with h | h
    · rwa [Nat.min_eq_left h]
    · rw [Nat.min_eq_right h, List.take_length]
      rwa [List.take_of_length_le h] at hn

theorem lineWrite_taken {t : List UInt8} {w : BufWriter} (dev : Nat → Nat) (h : Holds t w) (bytes : List UInt8) :
    Taken t bytes (lineWrite dev w bytes) := by
  unfold lineWrite
  rcases hc : cutLines bytes with ⟨lines, tail⟩
  have happ := cutLines_append bytes
  rw [hc] at happ
  simp only [] at happ ⊢
  split
  · have h0 : Taken t [] (if w.buf.getLast? = some 10 then w.flush dev else (w, true)) := by
      split
      · rcases hf : w.flush dev with ⟨w', b⟩
        have := flush_holds dev h
        rw [hf] at this
        exact Taken.of_holds (by simpa using this)
      · exact Taken.of_holds (by simpa using h)
    have := h0.trans (b := bytes) (f := fun w => w.writeAll 1024 dev bytes) fun w hw => writeAll_taken 1024 dev hw
    simpa using this
  · rw [← happ]
    refine Taken.trans (f := fun w => w.writeAll 1024 dev tail) ?_ fun w hw => writeAll_taken 1024 dev hw
    split
    · rename_i hb
      exact direct_taken dev h hb
    · have := (writeAll_taken (bytes := lines) 1024 dev h).trans (b := []) (f := fun w => w.flush dev) fun w hw => by
        rcases hf : w.flush dev with ⟨w', b⟩
        have := flush_holds dev hw
        rw [hf] at this
        exact Taken.of_holds (by simpa using this)
      simpa using this

theorem writeAll_nil {cap : Nat} {dev : Nat → Nat} {w : BufWriter} (hc : 0 < cap) (hb : w.buf = []) :
    (w.writeAll cap dev []).1.buf = [] := by
  unfold BufWriter.writeAll
  simp only [hb, List.length_nil, Nat.add_zero, Nat.not_lt_zero, if_false, if_true]
  rw [if_neg (by omega)]
  simp

/-- After a line feed nothing is left in the buffer. -/
theorem lineWrite_empty {t : List UInt8} {w : BufWriter} {dev : Nat → Nat} (h : t.getLast? = some 10 → w.buf = [])
    {bytes : List UInt8} (hok : (lineWrite dev w bytes).2 = true) (he : (t ++ bytes).getLast? = some 10) :
    (lineWrite dev w bytes).1.buf = [] := by
  by_cases hn : bytes = []
  · subst hn
    rw [List.append_nil] at he
    have hb := h he
    unfold lineWrite
    have : cutLines [] = ([], []) := rfl
    simp only [this, if_true, hb, List.getLast?_nil, reduceCtorEq, if_false]
    exact writeAll_nil (by norm_num) hb
  · have he' : bytes.getLast? = some 10 := by
      rw [List.getLast?_append] at he
      rcases hl : bytes.getLast? with _ | x
      · rw [List.getLast?_eq_none_iff] at hl
        exact absurd hl hn
      · rw [hl] at he
        simpa using he
    unfold lineWrite at hok ⊢
    rw [cutLines_end he'] at hok ⊢
    simp only [if_neg hn] at hok ⊢
    set r := (if w.buf = [] then w.direct dev bytes else
      if (w.writeAll 1024 dev bytes).2 = true then (w.writeAll 1024 dev bytes).1.flush dev else w.writeAll 1024 dev bytes) with hr
    by_cases h2 : r.2 = true
    · rw [if_pos h2]
      refine writeAll_nil (by norm_num) ?_
      rw [hr] at h2 ⊢
      split
      · rename_i hb
        exact hb
      · rename_i hb
        rw [if_neg hb] at h2
        split
        · rename_i h3
          rw [if_pos h3] at h2
          exact flush_ok h2
        · rename_i h3
          rw [if_neg h3] at h2
          exact absurd h2 h3
    · rw [if_neg h2] at hok
      exact absurd hok h2

theorem lineRun_taken (dev : Nat → Nat) : ∀ (pieces : List (List UInt8)) {t : List UInt8} {w : BufWriter}, Holds t w →
    Taken t pieces.flatten (lineRun dev w pieces)
  | [], t, w, h => Taken.of_holds (by simpa using h)
  | p :: ps, t, w, h => by
    rw [List.flatten_cons, lineRun]
    exact (lineWrite_taken dev h p).trans fun w hw => lineRun_taken dev ps hw

theorem lineRun_empty (dev : Nat → Nat) : ∀ (pieces : List (List UInt8)) {t : List UInt8} {w : BufWriter},
    (t.getLast? = some 10 → w.buf = []) → (lineRun dev w pieces).2 = true → (t ++ pieces.flatten).getLast? = some 10 →
    (lineRun dev w pieces).1.buf = []
  | [], t, w, h, _, he => h (by simpa using he)
  | p :: ps, t, w, h, hok, he => by
    rw [lineRun] at hok ⊢
    by_cases h1 : (lineWrite dev w p).2 = true
    · rw [if_pos h1] at hok ⊢
      refine lineRun_empty dev ps (t := t ++ p) (fun hp => lineWrite_empty h h1 hp) hok ?_
      simpa using he
    · rw [if_neg h1] at hok
      exact absurd hok h1

/-- **C132** Whatever happens, the file holds a first part of the text. -/
theorem C132_prefix (dev : Nat → Nat) (pieces : List (List UInt8)) :
    ∃ n, (lineSession dev pieces).1.content = pieces.flatten.take n := by
  obtain ⟨n, h⟩ := (lineRun_taken dev pieces (t := []) (w := ⟨[], ⟨[], 0⟩, 0⟩) ⟨rfl, rfl⟩).2
  obtain ⟨-, h2⟩ := flush_holds dev h
  unfold lineSession
  simp only []
  rw [List.nil_append] at h2
  set w' := (lineRun dev ⟨[], ⟨[], 0⟩, 0⟩ pieces).1.flush dev
  refine ⟨min w'.1.file.content.length n, ?_⟩
  rw [← List.take_take, ← h2, List.take_left]

/-- **C132** If the text ends with a line feed and the result is `Ok`, all of it is in the file: no error is lost with the
last flush. -/
theorem C132_honest {dev : Nat → Nat} {pieces : List (List UInt8)} (hend : pieces.flatten ≠ [] → pieces.flatten.getLast? = some 10)
    (hok : (lineSession dev pieces).2 = true) : (lineSession dev pieces).1.content = pieces.flatten := by
  have hok' : (lineRun dev ⟨[], ⟨[], 0⟩, 0⟩ pieces).2 = true := hok
  have h := (lineRun_taken dev pieces (t := []) (w := ⟨[], ⟨[], 0⟩, 0⟩) ⟨rfl, rfl⟩).1 hok'
  have hb : (lineRun dev ⟨[], ⟨[], 0⟩, 0⟩ pieces).1.buf = [] := by
    by_cases hn : pieces.flatten = []
    · have := h.2
      rw [List.nil_append, hn, List.append_eq_nil_iff] at this
      exact this.2
    · exact lineRun_empty dev pieces (t := []) (fun _ => rfl) hok' (by simpa using hend hn)
  unfold lineSession
  simp only []
  have hf : (lineRun dev ⟨[], ⟨[], 0⟩, 0⟩ pieces).1.flush dev = ((lineRun dev ⟨[], ⟨[], 0⟩, 0⟩ pieces).1, true) := by
    unfold BufWriter.flush
    rw [if_pos hb]
  rw [hf]
  have := h.2
  rw [hb] at this
  simpa using this

/-- A device that takes at least `N` bytes each time. -/
theorem flush_enough {dev : Nat → Nat} {N : Nat} (hd : ∀ k, N ≤ dev k) {w : BufWriter} (hb : w.buf.length ≤ N) :
    (w.flush dev).2 = true := by
  unfold BufWriter.flush
  split
  · rfl
  · simpa using hb.trans (hd _)

theorem direct_enough {dev : Nat → Nat} {N : Nat} (hd : ∀ k, N ≤ dev k) {w : BufWriter} {bytes : List UInt8}
    (hb : bytes.length ≤ N) : (w.direct dev bytes).2 = true := by
  simpa [BufWriter.direct] using hb.trans (hd _)

theorem writeAll_enough {dev : Nat → Nat} {N cap : Nat} (hd : ∀ k, N ≤ dev k) {w : BufWriter} {bytes : List UInt8}
    (hw : w.buf.length ≤ N) (hb : bytes.length ≤ N) : (w.writeAll cap dev bytes).2 = true := by
  unfold BufWriter.writeAll
  simp only []
  have h1 : (if cap < w.buf.length + bytes.length then w.flush dev else (w, true)).2 = true := by
    split
    · exact flush_enough hd hw
    · rfl
  rw [if_pos h1]
  split
  · exact direct_enough hd hb
  · rfl

theorem holds_length {t : List UInt8} {w : BufWriter} (h : Holds t w) : w.buf.length ≤ t.length := by
  rw [← h.2]; simp

theorem lineWrite_enough {dev : Nat → Nat} {N : Nat} (hd : ∀ k, N ≤ dev k) {t : List UInt8} {w : BufWriter} (h : Holds t w)
    {bytes : List UInt8} (hN : t.length + bytes.length ≤ N) : (lineWrite dev w bytes).2 = true := by
  have hw := holds_length h
  have happ := congrArg List.length (cutLines_append bytes)
  rw [List.length_append] at happ
  unfold lineWrite
  rcases hc : cutLines bytes with ⟨lines, tail⟩
  rw [hc] at happ
  simp only [] at happ ⊢
  split
  · have h1 : (if w.buf.getLast? = some 10 then w.flush dev else (w, true)).2 = true := by
      split
      · exact flush_enough hd (by omega)
      · rfl
    rw [if_pos h1]
    refine writeAll_enough hd ?_ (by omega)
    split
    · exact flush_length.trans (by omega)
    · simp only []; omega
  · have h1 := writeAll_enough (cap := 1024) hd (w := w) (bytes := lines) (by omega) (by omega)
    have h2 := (writeAll_taken (bytes := lines) 1024 dev h).1 h1
    have h3 := holds_length h2
    rw [List.length_append] at h3
    rw [if_pos h1]
    have h4 : (if w.buf = [] then w.direct dev lines else (w.writeAll 1024 dev lines).1.flush dev).2 = true := by
      split
      · exact direct_enough hd (by omega)
      · exact flush_enough hd (by omega)
    rw [if_pos h4]
    refine writeAll_enough hd ?_ (by omega)
    split
    · simp only [BufWriter.direct]; omega
    · exact flush_length.trans (by omega)

theorem lineRun_enough {dev : Nat → Nat} {N : Nat} (hd : ∀ k, N ≤ dev k) : ∀ (pieces : List (List UInt8)) {t : List UInt8}
    {w : BufWriter}, Holds t w → t.length + pieces.flatten.length ≤ N → (lineRun dev w pieces).2 = true
  | [], _, _, _, _ => rfl
  | p :: ps, t, w, h, hN => by
    rw [List.flatten_cons, List.length_append] at hN
    have h1 := lineWrite_enough hd h (bytes := p) (by omega)
    rw [lineRun, if_pos h1]
    exact lineRun_enough hd ps ((lineWrite_taken dev h p).1 h1) (by rw [List.length_append]; omega)

/-- **C132** A file that takes everything: the result is `Ok`. -/
theorem C132_complete {dev : Nat → Nat} {pieces : List (List UInt8)} (hd : ∀ k, pieces.flatten.length ≤ dev k) :
    (lineSession dev pieces).2 = true :=
  lineRun_enough hd pieces (t := []) (w := ⟨[], ⟨[], 0⟩, 0⟩) ⟨rfl, rfl⟩ (by simp)

/-! ### OBJ text -/

theorem cut_none {c : Char} {a : List Char} (h : c ∉ a) : cut c a = [a] := by
  induction a with
  | nil => rfl
  | cons x a ih =>
    have hx : x ≠ c := fun e => h (by simp [e])
    rw [cut, if_neg hx, ih (fun hm => h (by simp [hm]))]

theorem cut_append {c : Char} {a : List Char} (h : c ∉ a) (b : List Char) : cut c (a ++ c :: b) = a :: cut c b := by
  induction a with
  | nil => simp [cut]
  | cons x a ih =>
    have hx : x ≠ c := fun e => h (by simp [e])
    rw [List.cons_append, cut, if_neg hx, ih (fun hm => h (by simp [hm]))]

theorem fmtNat_digit {n : Nat} {c : Char} (h : c ∈ fmtNat n) : c.isDigit = true := Nat.isDigit_of_mem_toDigits (by norm_num) (by norm_num) h

theorem fmtNat_without {n : Nat} {c : Char} (h : c.isDigit = false) : c ∉ fmtNat n := fun hm => by
  rw [fmtNat_digit hm] at h
  exact absurd h (by simp)

theorem fmtNat_value (n : Nat) : (fmtNat n).foldl (fun n c => 10 * n + (c.toNat - 48)) 0 = n := by
  induction n using Nat.strong_induction_on with
  | _ n ih =>
    unfold fmtNat
    by_cases h : n < 10
    · rw [Nat.toDigits_of_lt_base h]
      simp [Nat.toNat_digitChar_sub_48_of_lt_ten h]
    · rw [Nat.toDigits_of_base_le (by norm_num) (by omega), List.foldl_append]
      have := ih (n / 10) (by omega)
      unfold fmtNat at this
      rw [this]
      simp only [List.foldl_cons, List.foldl_nil]
      rw [Nat.toNat_digitChar_sub_48_of_lt_ten (by omega)]
      omega

theorem readNat_fmt (n : Nat) : readNat (fmtNat n) = some n := by
  unfold readNat
  rw [if_neg, fmtNat_value]
  rintro (h | ⟨c, hc, h⟩)
  · exact Nat.toDigits_ne_nil h
  · rw [fmtNat_digit hc] at h
    exact absurd h (by simp)

theorem readCorner_text (c : Nat × Option Nat) : readCorner (cornerText c) = some c := by
  obtain ⟨a, n⟩ := c
  cases n with
  | none =>
    unfold readCorner cornerText
    simp only []
    rw [cut_none (fmtNat_without (by decide))]
    simp [readNat_fmt]
  | some n =>
    unfold readCorner cornerText
    simp only []
    rw [List.append_assoc, List.cons_append, cut_append (fmtNat_without (by decide)), List.cons_append, List.nil_append]
    rw [show ('/' :: fmtNat n) = [] ++ '/' :: fmtNat n from rfl, cut_append (by simp), cut_none (fmtNat_without (by decide))]
    simp [readNat_fmt]

theorem corner_without {c : Char} (h : c.isDigit = false) (hs : c ≠ '/') (k : Nat × Option Nat) : c ∉ cornerText k := by
  obtain ⟨a, n⟩ := k
  cases n with
  | none => exact fmtNat_without h
  | some n =>
    unfold cornerText
    simp only [List.mem_append, List.mem_cons, List.not_mem_nil, or_false, not_or]
    exact ⟨⟨fmtNat_without h, hs, hs⟩, fmtNat_without h⟩

theorem cut_corners (l : List (Nat × Option Nat)) (w : List Char) (hw : ' ' ∉ w) :
    cut ' ' (w ++ l.flatMap fun c => ' ' :: cornerText c) = w :: l.map cornerText := by
  induction l generalizing w with
  | nil => simp [cut_none hw]
  | cons c l ih =>
    rw [List.flatMap_cons, List.cons_append, cut_append hw, ih _ (corner_without (by decide) (by decide) c), List.map_cons]

/-- The numbers of a line can be read back. -/
def Spec.ReadableLine {F : Type} (parse : List Char → Option F) (fmt : F → List Char) : ObjLine F → Prop
  | .v p => ReadablePoint parse fmt p
  | .vn p => ReadablePoint parse fmt p
  | .f _ => True

section
variable {F : Type} {parse : List Char → Option F} {fmt : F → List Char}

theorem Spec.Readable.no_space {x : F} (h : Readable fmt parse x) : ' ' ∉ fmt x := fun hm => h.column.2 _ hm (Or.inl rfl)

/-- A line without its line feed. -/
theorem objLine_read {l : ObjLine F} (h : ReadableLine parse fmt l) :
    ∃ s, objLineText fmt l = s ++ ['\n'] ∧ '\n' ∉ s ∧ readObjLine parse s = some l := by
  cases l with
  | v p =>
    obtain ⟨hx, hy, hz⟩ := h
    refine ⟨['v', ' '] ++ fmt p.x ++ [' '] ++ fmt p.y ++ [' '] ++ fmt p.z, rfl, ?_, ?_⟩
    · simp [hx.noEnd, hy.noEnd, hz.noEnd]
    · unfold readObjLine
      have e : cut ' ' (['v', ' '] ++ fmt p.x ++ [' '] ++ fmt p.y ++ [' '] ++ fmt p.z) = [['v'], fmt p.x, fmt p.y, fmt p.z] := by
        have := cut_append (c := ' ') (a := ['v']) (by simp) (fmt p.x ++ ' ' :: (fmt p.y ++ ' ' :: fmt p.z))
        rw [cut_append hx.no_space, cut_append hy.no_space, cut_none hz.no_space] at this
        simpa using this
      rw [e]
      simp [hx.back, hy.back, hz.back]
  | vn p =>
    obtain ⟨hx, hy, hz⟩ := h
    refine ⟨['v', 'n', ' '] ++ fmt p.x ++ [' '] ++ fmt p.y ++ [' '] ++ fmt p.z, rfl, ?_, ?_⟩
    · simp [hx.noEnd, hy.noEnd, hz.noEnd]
    · unfold readObjLine
      have e : cut ' ' (['v', 'n', ' '] ++ fmt p.x ++ [' '] ++ fmt p.y ++ [' '] ++ fmt p.z)
          = [['v', 'n'], fmt p.x, fmt p.y, fmt p.z] := by
        have := cut_append (c := ' ') (a := ['v', 'n']) (by simp) (fmt p.x ++ ' ' :: (fmt p.y ++ ' ' :: fmt p.z))
        rw [cut_append hx.no_space, cut_append hy.no_space, cut_none hz.no_space] at this
        simpa using this
      rw [e]
      simp [hx.back, hy.back, hz.back]
  | f corners =>
    refine ⟨['f'] ++ corners.flatMap (fun c => ' ' :: cornerText c), rfl, ?_, ?_⟩
    · simp only [List.mem_append, List.mem_cons, List.not_mem_nil, or_false, List.mem_flatMap, not_or, not_exists, not_and]
      exact ⟨by decide, fun c _ => ⟨by decide, corner_without (by decide) (by decide) c⟩⟩
    · unfold readObjLine
      rw [cut_corners _ _ (by simp)]
      have e : (corners.map cornerText).mapM readCorner = some corners := by
        rw [List.mapM_map]
        have : (readCorner ∘ cornerText) = fun c => some c := funext readCorner_text
        simp only [this]
        clear h
        induction corners with
        | nil => rfl
        | cons c corners ih => rw [List.mapM_cons, ih]; rfl
      simp [e]

/-- **C132** The text of an OBJ file is read back as the lines written. -/
theorem C132_text {lines : List (ObjLine F)} (h : ∀ l ∈ lines, ReadableLine parse fmt l) :
    readObj parse (objText fmt lines) = some lines := by
  have key : ∀ {lines : List (ObjLine F)}, (∀ l ∈ lines, ReadableLine parse fmt l) →
      ∃ ss, cut '\n' (objText fmt lines) = ss ++ [[]] ∧ ss.mapM (readObjLine parse) = some lines := by
    intro lines
    induction lines with
    | nil => exact fun _ => ⟨[], rfl, rfl⟩
    | cons l lines ih =>
      intro h
      obtain ⟨ss, e1, e2⟩ := ih fun l hl => h l (by simp [hl])
      obtain ⟨s, e3, e4, e5⟩ := objLine_read (h l (by simp))
      refine ⟨s :: ss, ?_, ?_⟩
      · unfold objText at e1 ⊢
        rw [List.flatMap_cons, e3, List.append_assoc, List.singleton_append, cut_append e4, e1]
        rfl
      · simp [List.mapM_cons, e5, e2]
  obtain ⟨ss, e1, e2⟩ := key h
  unfold readObj
  rw [e1]
  simp [e2]

/-- The characters of a line are ASCII if those of its numbers are. -/
theorem utf8_ascii {s : List Char} (h : ∀ c ∈ s, c.toNat < 128) : ascii (utf8 s) = s := by
  induction s with
  | nil => rfl
  | cons c s ih =>
    have hc := h c (by simp)
    have e : String.utf8EncodeChar c = [c.val.toUInt8] := by
      apply String.utf8EncodeChar_eq_singleton
      unfold Char.utf8Size
      rw [if_pos]
      show c.val ≤ 0x7f
      rw [UInt32.le_iff_toNat_le]
      exact Nat.le_of_lt_succ hc
    have ih' := ih fun c hc => h c (by simp [hc])
    unfold ascii utf8 at ih' ⊢
    rw [List.flatMap_cons, e, List.map_append, ih']
    simp only [List.map_cons, List.map_nil, List.singleton_append, List.cons.injEq, and_true]
    apply Char.ext
    rw [UInt32.toNat_inj.symm]
    have h2 : c.val.toUInt8.toNat = c.toNat := by
      rw [UInt32.toNat_toUInt8]
      exact Nat.mod_eq_of_lt (by show c.toNat < 2 ^ 8; omega)
    rw [h2, Char.ofNat_toNat]

theorem digit_ascii {c : Char} (h : c.isDigit = true) : c.toNat < 128 := by
  unfold Char.isDigit at h
  simp only [Bool.and_eq_true, decide_eq_true_eq] at h
  have := h.2
  rw [UInt32.le_iff_toNat_le] at this
  exact lt_of_le_of_lt this (by decide)

theorem objText_ascii (hf : ∀ x, ∀ c ∈ fmt x, c.toNat < 128) (lines : List (ObjLine F)) : ∀ c ∈ objText fmt lines, c.toNat < 128 := by
  intro c hc
  unfold objText at hc
  rw [List.mem_flatMap] at hc
  obtain ⟨l, -, hl⟩ := hc
  have hn : ∀ {n : Nat} {c : Char}, c ∈ fmtNat n → c.toNat < 128 := fun h => digit_ascii (fmtNat_digit h)
  cases l with
  | v p =>
    simp only [objLineText, List.mem_append, List.mem_cons, List.not_mem_nil, or_false] at hl
    rcases hl with (((((((h | h) | h) | h) | h) | h) | h) | h)
    all_goals first | exact hf _ _ h | (subst h; decide)
  | vn p =>
    simp only [objLineText, List.mem_append, List.mem_cons, List.not_mem_nil, or_false] at hl
    rcases hl with (((((((h | h | h) | h) | h) | h) | h) | h) | h)
    all_goals first | exact hf _ _ h | (subst h; decide)
  | f corners =>
    simp only [objLineText, List.mem_append, List.mem_cons, List.not_mem_nil, or_false, List.mem_flatMap] at hl
    rcases hl with (h | ⟨k, -, h | h⟩) | h
    · subst h; decide
    · subst h; decide
    · obtain ⟨a, n⟩ := k
      cases n with
      | none => exact hn h
      | some n =>
        simp only [cornerText, List.mem_append, List.mem_cons, List.not_mem_nil, or_false] at h
        rcases h with (h | h | h) | h
        · exact hn h
        · subst h; decide
        · subst h; decide
        · exact hn h
    · subst h; decide

theorem objText_end (lines : List (ObjLine F)) : objText fmt lines ≠ [] → ∃ s, objText fmt lines = s ++ ['\n'] := by
  intro hne
  rcases List.eq_nil_or_concat lines with rfl | ⟨ls, l, rfl⟩
  · exact absurd rfl hne
  · have : ∃ s, objLineText fmt l = s ++ ['\n'] := by cases l <;> exact ⟨_, rfl⟩
    obtain ⟨s, hs⟩ := this
    refine ⟨objText fmt ls ++ s, ?_⟩
    unfold objText
    rw [List.concat_eq_append, List.flatMap_append, List.flatMap_singleton, hs, List.append_assoc]

/-- **C132** `save_as_obj`, from the meshes to the bytes of the file and back: if it returns `Ok`, in whatever pieces the
text was handed over and whatever the file did, reading the file gives the triangles of all the meshes. -/
theorem C132_file {meshes : List (TriangleMesh F)} (hm : ∀ m ∈ meshes, Spec.ValidMesh m)
    (hsz : (meshes.map fun m => m.vertices.length).sum + 1 < 2 ^ 32)
    (hf : ∀ x, Readable fmt parse x) (ha : ∀ x, ∀ c ∈ fmt x, c.toNat < 128) :
    ∃ lines, saveAsObj meshes = .ok lines ∧ ∀ (dev : Nat → Nat) (pieces : List (List UInt8)),
      pieces.flatten = utf8 (objText fmt lines) → (lineSession dev pieces).2 = true →
      ∃ read, readObj parse (ascii (lineSession dev pieces).1.content) = some read ∧
        (Spec.objRead read).faces = meshes.flatMap Spec.meshFaces := by
  obtain ⟨lines, h1, h2, -, -⟩ := C48_obj meshes hm hsz
  refine ⟨lines, h1, fun dev pieces hp hok => ⟨lines, ?_, h2⟩⟩
  have hend : pieces.flatten ≠ [] → pieces.flatten.getLast? = some 10 := by
    rw [hp]
    intro hne
    obtain ⟨s, hs⟩ := objText_end (fmt := fmt) lines (by rintro h; exact hne (by rw [h]; rfl))
    rw [hs]
    unfold utf8
    rw [List.flatMap_append]
    have : ['\n'].flatMap String.utf8EncodeChar = [10] := by decide
    rw [this, List.getLast?_append]
    rfl
  rw [C132_honest hend hok, hp, utf8_ascii (objText_ascii ha lines)]
  refine C132_text fun l _ => ?_
  cases l with
  | v p => exact ⟨hf _, hf _, hf _⟩
  | vn p => exact ⟨hf _, hf _, hf _⟩
  | f _ => trivial

end

/-! ### Point clouds -/

theorem plain_content (dev : Nat → Option Nat) : ∀ (lines : List (List UInt8)) (k : Nat) (c : List UInt8),
    (plainWrites dev k ⟨c, c.length⟩ lines).2 = true →
    (plainWrites dev k ⟨c, c.length⟩ lines).1.content = c ++ (lines.zipIdx k).flatMap fun l => l.1.take ((dev l.2).getD 0)
  | [], k, c, _ => by simp [plainWrites]
  | l :: ls, k, c, h => by
    rw [plainWrites] at h ⊢
    cases hd : dev k with
    | none => rw [hd] at h; simp at h
    | some n =>
      rw [hd] at h
      simp only [write_end] at h ⊢
      rw [plain_content dev ls (k + 1) _ h]
      simp [List.zipIdx_cons, hd]

theorem plain_ok (dev : Nat → Option Nat) : ∀ (lines : List (List UInt8)) (k : Nat) (s : FileState),
    (plainWrites dev k s lines).2 = true ↔ ∀ i < lines.length, (dev (k + i)).isSome
  | [], k, s => by simp [plainWrites]
  | l :: ls, k, s => by
    rw [plainWrites]
    cases hd : dev k with
    | none =>
      simp only [Bool.false_eq_true, false_iff]
      intro h
      have := h 0 (by simp)
      rw [Nat.add_zero, hd] at this
      simp at this
    | some n =>
      simp only []
      rw [plain_ok dev ls (k + 1)]
      constructor
      · intro h i hi
        cases i with
        | zero => simp [hd]
        | succ i =>
          have := h i (by simpa using hi)
          rwa [Nat.add_right_comm, Nat.add_assoc] at this
      · intro h i hi
        have := h (i + 1) (by simpa using hi)
        rwa [← Nat.add_assoc, Nat.add_right_comm] at this

/-- **C133** The result is `Ok` exactly if no call fails, and then the file consists of the beginnings of the lines that
were taken, one after the other. -/
theorem C133_content (dev : Nat → Option Nat) (lines : List (List UInt8)) :
    ((plainSession dev lines).2 = true ↔ ∀ i < lines.length, (dev i).isSome) ∧
    ((plainSession dev lines).2 = true →
      (plainSession dev lines).1.content = lines.zipIdx.flatMap fun l => l.1.take ((dev l.2).getD 0)) := by
  refine ⟨?_, fun h => ?_⟩
  · have := plain_ok dev lines 0 ⟨[], 0⟩
    simp only [Nat.zero_add] at this
    exact this
  · exact plain_content dev lines 0 [] h

/-- Lines taken whole. -/
theorem taken_whole {dev : Nat → Option Nat} : ∀ (lines : List (List UInt8)) (k : Nat),
    (∀ l ∈ lines, ∀ j, k ≤ j → l.length ≤ (dev j).getD 0) →
    ((lines.zipIdx k).flatMap fun l => l.1.take ((dev l.2).getD 0)) = lines.flatten
  | [], _, _ => rfl
  | l :: ls, k, h => by
    rw [List.zipIdx_cons, List.flatMap_cons, List.flatten_cons, List.take_of_length_le (h l (by simp) k (le_refl _)),
      taken_whole ls (k + 1) fun l hl j hj => h l (by simp [hl]) j (by omega)]

section
variable {F : Type} {parse : List Char → Option F} {fmt : F → List Char}

theorem utf8_append (a b : List Char) : utf8 (a ++ b) = utf8 a ++ utf8 b := by
  unfold utf8
  rw [List.flatMap_append]

theorem cloudLines_flatten (points : List (V3 F)) : (cloudLines fmt points).flatten = utf8 (savePointCloud fmt points) := by
  induction points with
  | nil => rfl
  | cons p points ih =>
    have e : savePointCloud fmt (p :: points) = savePointCloud fmt [p] ++ savePointCloud fmt points := by
      simp [savePointCloud]
    rw [e, utf8_append, ← ih]
    rfl

theorem cloud_ascii (ha : ∀ x, ∀ c ∈ fmt x, c.toNat < 128) (points : List (V3 F)) :
    ∀ c ∈ savePointCloud fmt points, c.toNat < 128 := by
  intro c hc
  unfold savePointCloud at hc
  rw [List.mem_flatMap] at hc
  obtain ⟨p, -, hl⟩ := hc
  simp only [List.mem_append, List.mem_cons, List.not_mem_nil, or_false] at hl
  rcases hl with ((((h | h) | h) | h) | h) | h
  all_goals first | exact ha _ _ h | (subst h; decide)

/-- **C133** A file that takes every line whole: the cloud is read back. -/
theorem C133_complete {points : List (V3 F)} (hf : ∀ p ∈ points, ReadablePoint parse fmt p)
    (ha : ∀ x, ∀ c ∈ fmt x, c.toNat < 128) {dev : Nat → Option Nat}
    (hd : ∀ k, ∃ n, dev k = some n ∧ ∀ l ∈ cloudLines fmt points, l.length ≤ n) :
    (plainSession dev (cloudLines fmt points)).2 = true ∧
    loadPointCloud parse (ascii (plainSession dev (cloudLines fmt points)).1.content) = .ok points := by
  have hok : (plainSession dev (cloudLines fmt points)).2 = true := by
    rw [(C133_content dev _).1]
    intro i _
    obtain ⟨n, hn, -⟩ := hd i
    simp [hn]
  refine ⟨hok, ?_⟩
  rw [(C133_content dev _).2 hok]
  have e : ((cloudLines fmt points).zipIdx.flatMap fun l => l.1.take ((dev l.2).getD 0)) = (cloudLines fmt points).flatten := by
    refine taken_whole _ _ fun l hl j _ => ?_
    obtain ⟨n, hn, h⟩ := hd j
    rw [hn]
    exact h l hl
  rw [e, cloudLines_flatten, utf8_ascii (cloud_ascii ha points)]
  exact C51_roundtrip_partial parse fmt points hf

/-- **C133** A short write goes unnoticed: for every cloud there is a behaviour of the file with no error in any call, so
that the result is `Ok`, after which the cloud read back has lost its first point. -/
theorem C133_lost {p : V3 F} {points : List (V3 F)} (hf : ∀ q ∈ points, ReadablePoint parse fmt q)
    (ha : ∀ x, ∀ c ∈ fmt x, c.toNat < 128) :
    ∃ dev : Nat → Option Nat, (∀ k, (dev k).isSome) ∧ (plainSession dev (cloudLines fmt (p :: points))).2 = true ∧
    loadPointCloud parse (ascii (plainSession dev (cloudLines fmt (p :: points))).1.content) = .ok points := by
  set N := (cloudLines fmt points).flatten.length with hN
  set dev : Nat → Option Nat := fun k => if k = 0 then some 0 else some N with hdev
  have hs : ∀ k, (dev k).isSome := fun k => by simp only [hdev]; split <;> rfl
  have hok : (plainSession dev (cloudLines fmt (p :: points))).2 = true := by
    rw [(C133_content dev _).1]
    exact fun i _ => hs i
  refine ⟨dev, hs, hok, ?_⟩
  rw [(C133_content dev _).2 hok]
  have e : cloudLines fmt (p :: points) = utf8 (savePointCloud fmt [p]) :: cloudLines fmt points := rfl
  rw [e, List.zipIdx_cons, List.flatMap_cons, taken_whole _ _ fun l hl j hj => ?_]
  · have : (dev 0).getD 0 = 0 := rfl
    rw [this, List.take_zero, List.nil_append, cloudLines_flatten, utf8_ascii (cloud_ascii ha points)]
    exact C51_roundtrip_partial parse fmt points hf
  · simp only [hdev]
    rw [if_neg (by omega), hN]
    exact (List.sublist_flatten_of_mem hl).length_le

end

/-- A line of which one byte was taken joins the next: the file, written with result `Ok`, contains a point that never
was in the cloud. -/
theorem C133_example :
    let cloud : List (V3 Nat) := [⟨0, 1, 2⟩, ⟨0, 3, 0⟩]
    let s := plainSession (fun k => if k = 0 then some 1 else some 100) (cloudLines demoFmt cloud)
    s.2 = true ∧ loadPointCloud demoParse (ascii s.1.content) = .ok [⟨1, 3, 0⟩] ∧
      loadPointCloud demoParse (savePointCloud demoFmt cloud) = .ok cloud := by decide +kernel

/-- One triangle with normals, in pieces of three bytes; then with a file that stops in the middle. -/
theorem C132_example :
    let mesh : TriangleMesh Nat := ⟨[⟨0, 1, 2⟩, ⟨1, 0, 0⟩, ⟨0, 1, 0⟩], [⟨0, 0, 1⟩, ⟨0, 0, 1⟩, ⟨0, 0, 1⟩], [0, 1, 2]⟩
    let lines := (saveAsObj [mesh]).toOption.getD []
    let text := utf8 (objText demoFmt lines)
    let pieces := (List.range 50).map fun i => (text.drop (3 * i)).take 3
    let good := lineSession (fun _ => 1000) pieces
    let bad := lineSession (fun k => if k = 3 then 5 else if 3 < k then 0 else 1000) pieces
    pieces.flatten = text ∧ good.2 = true ∧ good.1.content = text ∧ bad.2 = false ∧ bad.1.content.length = 34 := by decide +kernel

end Geom3d
