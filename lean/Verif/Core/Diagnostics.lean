import Verif.Core.SourceRegistry
/-!
# Printing diagnostics (model)

`panic_on_parse_error` and `eprint_error_location`.  What is printed to standard error is a text; `none` means that the
printing itself panics (an arithmetic underflow or an index out of bounds).  Positions are those of `proc_macro2`: lines
counted from 1, columns counted in characters from 0.
-/
namespace Flapi.Diag
open SourceRegistry

/-- `proc_macro2::LineColumn`. -/
structure LC where
  line : Nat
  column : Nat
deriving DecidableEq

/-- An entry of `DiagnosticError::data` – source id, message, span: macroslib/src/error.rs:14-17. -/
structure Note where
  src : SourceId
  msg : Text
  start : LC
  stop : LC
deriving DecidableEq

/-- `str::len`: number of bytes. -/
def byteLen : Text → Nat
  | [] => 0
  | c :: l => c.utf8Size + byteLen l

/-- Line terminator handling of `str::lines`: a `\r` right before the `\n` is dropped. -/
def stripCr (l : Text) : Text := if l.getLast? = some '\r' then l.dropLast else l

/-- `str::lines`. -/
def lines : Text → Text → List Text
  | cur, [] => if cur.isEmpty then [] else [cur]
  | cur, c :: r => if c = '\n' then stripCr cur :: lines [] r else lines (cur ++ [c]) r

/-- `{:^^1$}` applied to `'^'`: at least one caret: macroslib/src/error.rs:121. -/
def carets (n : Nat) : Text := List.replicate (max 1 n) '^'

/-- `{:1$}` applied to `' '`, guarded by `start.column > 0` on the first line: macroslib/src/error.rs:107-109. -/
def pad (i : Nat) (col : Nat) : Text := if i = 0 ∧ col > 0 then List.replicate (max 1 col) ' ' else []

/-- Checked subtraction of `usize`. -/
def sub? (a b : Nat) : Option Nat := if b ≤ a then some (a - b) else none

/-- Number of carets under line number `i` of the snippet: macroslib/src/error.rs:110-120. -/
def markLen (n : Note) (nlines i : Nat) (line : Text) : Option Nat :=
  if i = 0 then
    if i = nlines - 1 then sub? n.stop.column n.start.column
    else (sub? (byteLen line) n.start.column).bind (sub? · 1)
  else if i ≠ nlines - 1 then some (byteLen line)
  else some n.stop.column

/-- The loop over the lines: macroslib/src/error.rs:98-126. -/
def snippetLoop (n : Note) (nlines : Nat) : Nat → List Text → Option Text
  | _, [] => some []
  | i, line :: l => match markLen n nlines i line with
    | none => none
    | some k =>
      let out := line ++ ['\n'] ++ pad i n.start.column ++ carets k ++ ['\n']
      if i = n.stop.line then some out
      else match snippetLoop n nlines (i + 1) l with
        | none => none
        | some rest => some (out ++ rest)

/-- The quoted source lines: macroslib/src/error.rs:96-126. -/
def snippet (n : Note) (code : Text) : Option Text :=
  match sub? n.stop.line n.start.line, sub? n.start.line 1 with
  | some k, some from_ => snippetLoop n (k + 1) 0 (((lines [] code).drop from_).take (k + 1))
  | _, _ => none

/-- `eprint_error_location`: macroslib/src/error.rs:91-136. -/
def location (n : Note) (s : SourceCode) : Option Text :=
  match snippet n s.code with
  | none => none
  | some q => some ("parsing of ".toList ++ s.idOfCode ++ " failed\nerror: ".toList ++ n.msg ++ ['\n'] ++ q ++ "\nAt ".toList ++
      s.idOfCode ++ [':'] ++ dec n.start.line ++ [':'] ++ dec n.start.column ++ ['\n'])

/-- The header printed when the source changes: macroslib/src/error.rs:82-84. -/
def header (prev : Option SourceId) (id : SourceId) (s : SourceCode) : Text :=
  if prev = some id then [] else "error in ".toList ++ s.idOfCode ++ ['\n']

/-- The loop of `panic_on_parse_error`: macroslib/src/error.rs:73-89. -/
def report (reg : Registry) : Option SourceId → List Note → Option Text
  | _, [] => some []
  | prev, n :: l =>
    if n.src = none then
      match report reg prev l with
      | none => none
      | some rest => some ("Error (without location information): ".toList ++ n.msg ++ ['\n'] ++ rest)
    else match srcWithId reg n.src with
      | none => none
      | some s => match location n s with
        | none => none
        | some q => match report reg (some n.src) l with
          | none => none
          | some rest => some (header prev n.src s ++ q ++ rest)

end Flapi.Diag
