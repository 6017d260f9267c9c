import Verif.Core.Diagnostics
/-!
# C71 – diagnostics show every message and mark the right place
-/
namespace Flapi.Diag
open SourceRegistry

/-! ## Specification -/

/-- A span that lies inside the text: `proc_macro2` gives such spans for tokens of that text. -/
def WellPlaced (n : Note) (code : Text) : Prop :=
  1 ≤ n.start.line ∧ n.start.line ≤ n.stop.line ∧ n.stop.line ≤ (lines [] code).length ∧
  (n.start.line = n.stop.line → n.start.column ≤ n.stop.column) ∧
  (n.start.line < n.stop.line → ∀ l, (lines [] code)[n.start.line - 1]? = some l → n.start.column < l.length)

/-- Line number `i` (from 0) of the text quoted for a note. -/
def quoted (n : Note) (code : Text) (i : Nat) : Text := ((lines [] code)[n.start.line - 1 + i]?).getD []

/-- First column marked in line `i` of the quotation. -/
def markFrom (n : Note) (i : Nat) : Nat := if i = 0 then n.start.column else 0

/-- End of the marked columns in line `i` of the quotation: the end of the span in the last line, otherwise the end of
the line – counted in bytes, and one less in the first line. -/
def markTo (n : Note) (code : Text) (i : Nat) : Nat :=
  if i = n.stop.line - n.start.line then n.stop.column
  else if i = 0 then byteLen (quoted n code i) - 1 else byteLen (quoted n code i)

/-- The last note with a location among the given ones. -/
def lastLocated (l : List Note) : Option SourceId := ((l.map (·.src)).filter (·.isSome)).getLast?

/-! ## Quotation -/

theorem length_le_byteLen (l : Text) : l.length ≤ byteLen l := by
  induction l with
  | nil => simp [byteLen]
  | cons c l ih => simp only [List.length_cons, byteLen]; have := c.utf8Size_pos; omega

/-- The line printed under line `i`. -/
def marks (n : Note) (code : Text) (i : Nat) : Text :=
  List.replicate (markFrom n i) ' ' ++ List.replicate (max 1 (markTo n code i - markFrom n i)) '^'

theorem pad_eq (n : Note) (i : Nat) : pad i n.start.column = List.replicate (markFrom n i) ' ' := by
  unfold pad markFrom
  by_cases h : i = 0
  · by_cases h2 : n.start.column > 0
    · rw [if_pos ⟨h, h2⟩, if_pos h]; congr 1; omega
    · rw [if_neg (fun x => h2 x.2), if_pos h, show n.start.column = 0 by omega]; rfl
  · rw [if_neg (fun x => h x.1), if_neg h]; rfl

theorem markLen_eq (n : Note) (code : Text) (hw : WellPlaced n code) (i : Nat) (hi : i ≤ n.stop.line - n.start.line) :
    markLen n (n.stop.line - n.start.line + 1) i (quoted n code i) = some (markTo n code i - markFrom n i) := by
  obtain ⟨h1, h2, h3, h4, h5⟩ := hw
  unfold markLen markTo markFrom
  by_cases h0 : i = 0
  · subst h0
    rw [if_pos rfl]
    by_cases hl : n.start.line = n.stop.line
    · have e1 : 0 = n.stop.line - n.start.line + 1 - 1 := by omega
      have e2 : 0 = n.stop.line - n.start.line := by omega
      rw [if_pos e1, if_pos e2]
      simp [sub?, h4 hl]
    · have e1 : ¬ 0 = n.stop.line - n.start.line + 1 - 1 := by omega
      have e2 : ¬ 0 = n.stop.line - n.start.line := by omega
      rw [if_neg e1, if_neg e2]
      have hlt : n.start.line - 1 < (lines [] code).length := by omega
      have hq : (lines [] code)[n.start.line - 1]? = some (quoted n code 0) := by
        simp only [quoted, Nat.add_zero, List.getElem?_eq_getElem hlt, Option.getD_some]
      have hc := h5 (by omega) _ hq
      have hb := length_le_byteLen (quoted n code 0)
      have s1 : sub? (byteLen (quoted n code 0)) n.start.column = some (byteLen (quoted n code 0) - n.start.column) := by
        unfold sub?; rw [if_pos (by omega)]
      have s2 : sub? (byteLen (quoted n code 0) - n.start.column) 1 =
          some (byteLen (quoted n code 0) - n.start.column - 1) := by
        unfold sub?; rw [if_pos (by omega)]
      rw [s1]
      simp only [Option.bind_some, s2, if_pos trivial]
      congr 1; omega
  · rw [if_neg h0]
    by_cases hl : i = n.stop.line - n.start.line
    · have e1 : ¬ i ≠ n.stop.line - n.start.line + 1 - 1 := by omega
      rw [if_neg e1, if_pos hl, if_neg h0]; rfl
    · have e1 : i ≠ n.stop.line - n.start.line + 1 - 1 := by omega
      rw [if_pos e1, if_neg hl, if_neg h0, if_neg h0]; rfl

theorem snippetLoop_eq (n : Note) (code : Text) (hw : WellPlaced n code) : ∀ (l : List Text) (i : Nat),
    (∀ (j : Nat) x, l[j]? = some x → x = quoted n code (i + j)) → i + l.length = n.stop.line - n.start.line + 1 →
    snippetLoop n (n.stop.line - n.start.line + 1) i l =
      some ((List.range' i l.length).map fun i => quoted n code i ++ ['\n'] ++ marks n code i ++ ['\n']).flatten := by
  intro l
  induction l with
  | nil => intro i _ _; simp [snippetLoop]
  | cons x l ih =>
    intro i hx hl
    have hx0 : x = quoted n code i := hx 0 x rfl
    have hq := markLen_eq n code hw i (by simp at hl; omega)
    unfold snippetLoop
    rw [hx0, hq]
    simp only
    have hne : ¬ i = n.stop.line := by
      obtain ⟨h1, h2, _⟩ := hw
      simp at hl; omega
    rw [if_neg hne, ih (i + 1) (fun j y hy => by
      have := hx (j + 1) y hy
      rw [this]; congr 1; omega) (by simp at hl; omega)]
    simp [List.range'_succ, marks, pad_eq, carets]

/-- **C71 (quotation).** For a span inside the text the printing never fails, and the quotation consists of exactly the
lines the span covers, in order, each followed by a line of marks. -/
theorem C71_quotation (n : Note) (code : Text) (hw : WellPlaced n code) :
    snippet n code = some ((List.range (n.stop.line - n.start.line + 1)).map fun i =>
      quoted n code i ++ ['\n'] ++ marks n code i ++ ['\n']).flatten := by
  have hw' := hw
  obtain ⟨h1, h2, h3, _, _⟩ := hw
  unfold snippet
  have s1 : sub? n.stop.line n.start.line = some (n.stop.line - n.start.line) := by unfold sub?; rw [if_pos h2]
  have s2 : sub? n.start.line 1 = some (n.start.line - 1) := by unfold sub?; rw [if_pos h1]
  rw [s1, s2]
  simp only
  have hlen : (((lines [] code).drop (n.start.line - 1)).take (n.stop.line - n.start.line + 1)).length =
      n.stop.line - n.start.line + 1 := by
    rw [List.length_take, List.length_drop]; omega
  rw [snippetLoop_eq n code hw' _ 0 ?_ (by omega), hlen, List.range_eq_range']
  intro j x hx
  rw [List.getElem?_take] at hx
  split at hx
  · rw [List.getElem?_drop] at hx
    simp [quoted, hx]
  · simp at hx

/-- **C71 (marks).** In the line of marks under line `i` of the quotation, column `c` holds a caret exactly if it lies in
the marked range (an empty range is shown as one caret), and there is a blank in every column before it. -/
theorem C71_marks (n : Note) (code : Text) (i c : Nat) :
    ((marks n code i)[c]? = some '^' ↔ markFrom n i ≤ c ∧ c < max (markTo n code i) (markFrom n i + 1)) ∧
    ((marks n code i)[c]? = some ' ' ↔ c < markFrom n i) := by
  unfold marks
  rcases Nat.lt_or_ge c (markFrom n i) with h | h
  · rw [List.getElem?_append_left (by simpa using h)]
    simp [h]
    omega
  · rw [List.getElem?_append_right (by simpa using h), List.length_replicate, List.getElem?_replicate]
    split
    · rename_i hlt
      constructor
      · simp only [true_iff]; omega
      · simp; exact h
    · rename_i hlt
      constructor
      · simp only [reduceCtorEq, false_iff, not_and]; omega
      · simp; exact h

/-- **C71 (one-line spans).** For a span within one line exactly the characters of the span are marked: column `c`
carries a caret if and only if `start ≤ c < end` (one caret for an empty span). -/
theorem C71_one_line (n : Note) (code : Text) (hw : WellPlaced n code) (h1 : n.start.line = n.stop.line) (line : Text)
    (hl : (lines [] code)[n.start.line - 1]? = some line) :
    ∃ m : Text, snippet n code = some (line ++ ['\n'] ++ m ++ ['\n']) ∧
      ∀ c : Nat, m[c]? = some '^' ↔ n.start.column ≤ c ∧ c < max n.stop.column (n.start.column + 1) := by
  refine ⟨marks n code 0, ?_, ?_⟩
  · rw [C71_quotation n code hw, show n.stop.line - n.start.line + 1 = 1 by omega]
    simp [quoted, hl]
  · intro c
    have := (C71_marks n code 0 c).1
    have e1 : markFrom n 0 = n.start.column := rfl
    have e2 : markTo n code 0 = n.stop.column := by
      unfold markTo; rw [if_pos (by omega)]
    rw [e1, e2] at this
    exact this

/-- **C71 (finding).** For a span over several lines the last character of its first line is not marked, although it
belongs to the span (whenever the line is plain ASCII and the span has more than one character on it). -/
theorem C71_finding_first_line_short (n : Note) (code line : Text)
    (h1 : n.start.line < n.stop.line) (hl : (lines [] code)[n.start.line - 1]? = some line)
    (hascii : byteLen line = line.length) (h2 : n.start.column + 1 < line.length) :
    (marks n code 0)[line.length - 1]? ≠ some '^' := by
  intro hc
  have := ((C71_marks n code 0 (line.length - 1)).1.1 hc).2
  have e1 : markFrom n 0 = n.start.column := rfl
  have e2 : markTo n code 0 = line.length - 1 := by
    have hq : quoted n code 0 = line := by simp [quoted, hl]
    unfold markTo
    rw [if_neg (by omega), if_pos rfl, hq, hascii]
  rw [e1, e2] at this
  omega

/-! ## The report -/

theorem snippet_isSome (n : Note) (code : Text) (hw : WellPlaced n code) : (snippet n code).isSome := by
  rw [C71_quotation n code hw]; rfl

/-- **C71 (printing never fails).** If every id is registered and every span lies inside its file, the whole report is
printed. -/
theorem C71_printing_never_fails (reg : Registry) (notes : List Note)
    (h : ∀ n ∈ notes, n.src ≠ none → ∃ s, srcWithId reg n.src = some s ∧ WellPlaced n s.code) (prev : Option SourceId) :
    (report reg prev notes).isSome := by
  induction notes generalizing prev with
  | nil => rfl
  | cons n l ih =>
    have ih' := ih (fun m hm => h m (List.mem_cons_of_mem _ hm))
    unfold report
    by_cases hn : n.src = none
    · rw [if_pos hn]
      obtain ⟨x, hx⟩ := Option.isSome_iff_exists.1 (ih' prev)
      rw [hx]; rfl
    · rw [if_neg hn]
      obtain ⟨s, hs, hw⟩ := h n (by simp) hn
      rw [hs]
      simp only
      obtain ⟨q, hq⟩ := Option.isSome_iff_exists.1 (snippet_isSome n s.code hw)
      unfold location
      rw [hq]
      simp only
      obtain ⟨x, hx⟩ := Option.isSome_iff_exists.1 (ih' (some n.src))
      rw [hx]; rfl

/-- What the part of the report about one note must look like: it contains the message; for a note with a location it
contains the quotation, ends with the place, and begins with the name of the file exactly if the previous located note
was not in the same file. -/
def BlockOk (reg : Registry) (before : Option SourceId) (n : Note) (b : Text) : Prop :=
  n.msg <:+: b ∧
  (n.src ≠ none → ∃ s q, srcWithId reg n.src = some s ∧ snippet n s.code = some q ∧ q <:+: b ∧
    ("At ".toList ++ s.idOfCode ++ [':'] ++ dec n.start.line ++ [':'] ++ dec n.start.column ++ ['\n']) <:+ b ∧
    (("error in ".toList ++ s.idOfCode ++ ['\n']) <+: b ↔ before ≠ some n.src))

theorem report_blocks (reg : Registry) (notes : List Note) : ∀ (prev : Option SourceId) (out : Text),
    report reg prev notes = some out →
    ∃ blocks : List Text, blocks.length = notes.length ∧ out = blocks.flatten ∧
      ∀ (i : Nat) n b, notes[i]? = some n → blocks[i]? = some b →
        BlockOk reg ((lastLocated (notes.take i)).or prev) n b := by
  induction notes with
  | nil => intro prev out h; simp [report] at h; exact ⟨[], rfl, by simp [h], by simp⟩
  | cons n l ih =>
    intro prev out h
    unfold report at h
    by_cases hn : n.src = none
    · rw [if_pos hn] at h
      cases hr : report reg prev l with
      | none => simp [hr] at h
      | some rest =>
        simp only [hr, Option.some.injEq] at h
        obtain ⟨bs, b1, b2, b3⟩ := ih prev rest hr
        refine ⟨("Error (without location information): ".toList ++ n.msg ++ ['\n']) :: bs, by simp [b1], ?_, ?_⟩
        · rw [← h, List.flatten_cons, b2]
        · intro i m b hm hb
          cases i with
          | zero =>
            simp only [List.getElem?_cons_zero, Option.some.injEq] at hm hb
            subst hm; subst hb
            exact ⟨⟨_, _, rfl⟩, fun h => absurd hn h⟩
          | succ i =>
            simp only [List.getElem?_cons_succ] at hm hb
            have := b3 i m b hm hb
            have e : lastLocated ((n :: l).take (i + 1)) = lastLocated (l.take i) := by
              simp [lastLocated, hn]
            rw [e]; exact this
    · rw [if_neg hn] at h
      cases hs : srcWithId reg n.src with
      | none => simp [hs] at h
      | some s =>
        simp only [hs] at h
        cases hq : location n s with
        | none => simp [hq] at h
        | some q =>
          simp only [hq] at h
          cases hr : report reg (some n.src) l with
          | none => simp [hr] at h
          | some rest =>
            simp only [hr, Option.some.injEq] at h
            obtain ⟨bs, b1, b2, b3⟩ := ih (some n.src) rest hr
            refine ⟨(header prev n.src s ++ q) :: bs, by simp [b1], ?_, ?_⟩
            · rw [← h, List.flatten_cons, b2]
            · intro i m b hm hb
              cases i with
              | zero =>
                simp only [List.getElem?_cons_zero, Option.some.injEq] at hm hb
                subst hm; subst hb
                unfold location at hq
                cases hsn : snippet n s.code with
                | none => simp [hsn] at hq
                | some sn =>
                  simp only [hsn, Option.some.injEq] at hq
                  have hp : "parsing of ".toList = 'p' :: "arsing of ".toList := by decide
                  have hq' : ∃ r, q = 'p' :: r := ⟨_, by rw [← hq, hp]; rfl⟩
                  have ha : "\nAt ".toList = '\n' :: "At ".toList := by decide
                  refine ⟨?_, fun _ => ⟨s, sn, hs, hsn, ?_, ?_, ?_⟩⟩
                  · rw [← hq]
                    exact ⟨header prev n.src s ++ ("parsing of ".toList ++ s.idOfCode ++ " failed\nerror: ".toList), _,
                      by simp only [List.append_assoc]; rfl⟩
                  · rw [← hq]
                    exact ⟨header prev n.src s ++ ("parsing of ".toList ++ s.idOfCode ++ " failed\nerror: ".toList ++ n.msg ++ ['\n']),
                      _, by simp only [List.append_assoc]; rfl⟩
                  · rw [← hq, ha]
                    exact ⟨header prev n.src s ++ ("parsing of ".toList ++ s.idOfCode ++ " failed\nerror: ".toList ++ n.msg ++ ['\n']
                      ++ sn ++ ['\n']), by simp only [List.append_assoc]; rfl⟩
                  · have e0 : (lastLocated ((n :: l).take 0)).or prev = prev := rfl
                    rw [e0]
                    unfold header
                    by_cases hprev : prev = some n.src
                    · rw [if_pos hprev]
                      obtain ⟨r, hr'⟩ := hq'
                      have he : "error in ".toList = 'e' :: "rror in ".toList := by decide
                      constructor
                      · rw [hr', he]
                        intro hpre
                        simp [List.cons_prefix_cons] at hpre
                      · intro hne; exact absurd hprev hne
                    · rw [if_neg hprev]
                      exact ⟨fun _ => hprev, fun _ => ⟨q, rfl⟩⟩
              | succ i =>
                simp only [List.getElem?_cons_succ] at hm hb
                have := b3 i m b hm hb
                have hsome : n.src.isSome = true := by
                  cases hx : n.src with
                  | none => exact absurd hx hn
                  | some k => rfl
                have e : (lastLocated ((n :: l).take (i + 1))).or prev = (lastLocated (l.take i)).or (some n.src) := by
                  simp only [lastLocated, List.take_succ_cons, List.map_cons, List.filter_cons, hsome, if_true]
                  rw [List.getLast?_cons]
                  cases ((List.filter (fun x => x.isSome) (List.map (fun x => x.src) (List.take i l))).getLast?) <;> rfl
                rw [e]; exact this

/-- **C71 (nothing is lost).** The report consists of one part per note, in order; each contains the note's message, and
for a note with a location also the quotation and, at its end, the file, line and column; the file is announced exactly
when it differs from that of the previous located note. -/
theorem C71_every_note_reported (reg : Registry) (notes : List Note) (out : Text) (h : report reg none notes = some out) :
    ∃ blocks : List Text, blocks.length = notes.length ∧ out = blocks.flatten ∧
      ∀ (i : Nat) n b, notes[i]? = some n → blocks[i]? = some b → BlockOk reg (lastLocated (notes.take i)) n b := by
  obtain ⟨bs, b1, b2, b3⟩ := report_blocks reg notes none out h
  refine ⟨bs, b1, b2, fun i n b hn hb => ?_⟩
  have := b3 i n b hn hb
  simpa using this

/-! ## Lines -/

theorem lines_append (pre : Text) : ∀ cur rest, (∀ c ∈ pre, c ≠ '\n') →
    lines cur (pre ++ '\n' :: rest) = stripCr (cur ++ pre) :: lines [] rest := by
  induction pre with
  | nil => intro cur rest _; simp [lines]
  | cons c pre ih =>
    intro cur rest h
    have hc : c ≠ '\n' := h c (by simp)
    simp only [List.cons_append, lines, if_neg hc]
    rw [ih _ _ (fun d hd => h d (List.mem_cons_of_mem _ hd))]
    simp

/-- **C71 (line numbers).** Line number `k` of a text made of lines (without line breaks and final carriage returns in
them) is the `k`-th of them. -/
theorem C71_lines (ls : List Text) (h : ∀ l ∈ ls, (∀ c ∈ l, c ≠ '\n') ∧ l.getLast? ≠ some '\r') :
    lines [] (ls.map (· ++ ['\n'])).flatten = ls := by
  induction ls with
  | nil => rfl
  | cons l ls ih =>
    obtain ⟨h1, h2⟩ := h l (by simp)
    have e : ((l :: ls).map (· ++ ['\n'])).flatten = l ++ '\n' :: (ls.map (· ++ ['\n'])).flatten := by simp
    rw [e, lines_append l [] _ h1, ih (fun x hx => h x (List.mem_cons_of_mem _ hx))]
    simp [stripCr, h2]

/-! ## Non-vacuity -/

/-- A file with two lines. -/
def demoSrc : SourceCode := ⟨"crate: lib.rs".toList, "fn f(\n  x: Foo) {}\n".toList⟩

/-- A note about `Foo`. -/
def demoNote : Note := ⟨some 0, "unknown type".toList, ⟨2, 5⟩, ⟨2, 8⟩⟩

/-- A note about the parameter list. -/
def demoNote2 : Note := ⟨some 0, "in this list".toList, ⟨1, 4⟩, ⟨2, 9⟩⟩

example : WellPlaced demoNote demoSrc.code ∧ WellPlaced demoNote2 demoSrc.code := by
  have e : lines [] demoSrc.code = ["fn f(".toList, "  x: Foo) {}".toList] := by decide +kernel
  unfold WellPlaced
  rw [e]
  decide +kernel

example : snippet demoNote demoSrc.code = some "  x: Foo) {}\n     ^^^\n".toList := by decide +kernel

example : snippet demoNote2 demoSrc.code = some "fn f(\n    ^\n  x: Foo) {}\n^^^^^^^^^\n".toList := by decide +kernel

example : report [demoSrc] none [demoNote, ⟨none, "hint".toList, ⟨1, 0⟩, ⟨1, 0⟩⟩, demoNote2] = some
    ("error in crate: lib.rs\nparsing of crate: lib.rs failed\nerror: unknown type\n  x: Foo) {}\n     ^^^\n\n".toList ++
     "At crate: lib.rs:2:5\nError (without location information): hint\n".toList ++
     "parsing of crate: lib.rs failed\nerror: in this list\nfn f(\n    ^\n  x: Foo) {}\n^^^^^^^^^\n\nAt crate: lib.rs:1:4\n".toList) := by
  decide +kernel

/-- The finding: `fn ` is not marked up to its end when the span starts at the beginning of the first line. -/
example : snippet ⟨some 0, [], ⟨1, 0⟩, ⟨2, 2⟩⟩ demoSrc.code = some "fn f(\n^^^^\n  x: Foo) {}\n^^\n".toList := by decide +kernel

end Flapi.Diag
