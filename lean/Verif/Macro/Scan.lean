import Verif.Base.Text
/-!
# Macro calls inside foreign code templates (model)

`expand_macroses` works on UTF-8 text with byte offsets.  The text is modelled as its list of characters; every place
where the code uses a byte offset that need not be a character boundary goes through `splitAtByte`, whose `none` is the
slicing panic of Rust.
-/
namespace Flapi.Macro

/-- Character classes outside ASCII (`char::is_alphabetic`, `is_alphanumeric`, `is_whitespace`) are an arbitrary oracle;
inside ASCII they are fixed below. -/
structure Unicode where
  alpha : Char → Bool
  alnum : Char → Bool
  ws : Char → Bool

/-- One byte in UTF-8. -/
def ascii (c : Char) : Bool := c.utf8Size == 1

/-- `char::is_alphabetic`: used at macroslib/src/typemap/typemap_macro.rs:656, 665. -/
def Unicode.isAlphabetic (u : Unicode) (c : Char) : Bool := if ascii c then c.isAlpha else u.alpha c

/-- `char::is_alphanumeric`: used at macroslib/src/typemap/typemap_macro.rs:690. -/
def Unicode.isAlphanumeric (u : Unicode) (c : Char) : Bool := if ascii c then c.isAlphanum else u.alnum c

/-- ASCII part of `char::is_whitespace`: U+0009..U+000D and U+0020. -/
def asciiWs (c : Char) : Bool := c == ' ' || (9 ≤ c.toNat && c.toNat ≤ 13)

/-- `char::is_whitespace`: used at macroslib/src/typemap/typemap_macro.rs:691, 696 and by `str::trim` at 720-724. -/
def Unicode.isWhitespace (u : Unicode) (c : Char) : Bool := if ascii c then asciiWs c else u.ws c

/-- Identifier characters of `find_macro`: macroslib/src/typemap/typemap_macro.rs:690. -/
def Unicode.isIdent (u : Unicode) (c : Char) : Bool := u.isAlphanumeric c || c == '_'

/-- Split a text at a byte offset, as `&s[..n]`, `&s[n..]` do; `none` is the panic for an offset that is out of range or
inside a character. -/
def splitAtByte : Nat → Text → Option (Text × Text)
  | 0, t => some ([], t)
  | _ + 1, [] => none
  | n + 1, c :: t =>
    if c.utf8Size ≤ n + 1 then
      (splitAtByte (n + 1 - c.utf8Size) t).map fun (a, b) => (c :: a, b)
    else none
termination_by structural _ t => t

/-- The matching-bracket loop: macroslib/src/typemap/typemap_macro.rs:702-715.  The result is the number of
*characters* before the closing bracket (`chars().enumerate()`). -/
def closeIdx : Text → (depth idx : Nat) → Option Nat
  | [], _, _ => none
  | c :: t, depth, idx =>
    if c == ')' then
      if depth - 1 == 0 then some idx else closeIdx t (depth - 1) (idx + 1)
    else if c == '(' then closeIdx t (depth + 1) (idx + 1)
    else closeIdx t depth (idx + 1)

/-- `str::trim`. -/
def trim (u : Unicode) (t : Text) : Text :=
  ((t.dropWhile u.isWhitespace).reverse.dropWhile u.isWhitespace).reverse

/-- `str::split(',')`. -/
def splitComma : Text → List Text
  | [] => [[]]
  | c :: t =>
    if c == ',' then [] :: splitComma t
    else match splitComma t with
      | [] => [[c]]
      | p :: ps => (c :: p) :: ps

/-- The parameter list of a call: macroslib/src/typemap/typemap_macro.rs:719-728. -/
def params (u : Unicode) (inner : Text) : List Text :=
  ((splitComma (trim u inner)).map (trim u)).filter fun s => !s.isEmpty

/-- Outcome of `find_macro`. -/
inductive Found
  | panic
  | no
  /-- macro name, parameters, text after the parameters up to the end of the template (still starting with the
  character taken for the closing bracket) -/
  | call (id : Text) (ps : List Text) (fromClose : Text)
deriving DecidableEq

/-- From the opening bracket on: macroslib/src/typemap/typemap_macro.rs:699-728. -/
def findArgs (u : Unicode) (id : Text) (r5 : Text) : Found :=
  match closeIdx r5 1 0 with
  | none => .no
  | some n =>
    match splitAtByte n r5 with
    | none => .panic
    | some (inner, r) => .call id (params u inner) r

/-- Test for `(` after `!`: macroslib/src/typemap/typemap_macro.rs:695-699. -/
def findParen (u : Unicode) (id : Text) (r3 : Text) : Found :=
  match r3.dropWhile u.isWhitespace with
  | [] => .no
  | c :: r5 => if !ascii c then .panic else if c != '(' then .no else findArgs u id r5

/-- Test for `!` after the identifier: macroslib/src/typemap/typemap_macro.rs:690-694. -/
def findBang (u : Unicode) (id : Text) (r1 : Text) : Found :=
  match r1.dropWhile u.isWhitespace with
  | [] => .no
  | c :: r3 => if !ascii c then .panic else if c != '!' then .no else findParen u id r3

/-- `find_macro`: macroslib/src/typemap/typemap_macro.rs:687-729. -/
def findMacro (u : Unicode) (code : Text) : Found :=
  match code.dropWhile u.isIdent with
  | [] => .no
  | r1 => findBang u (code.takeWhile u.isIdent) r1

/-- Outcome of `expand_macroses`. -/
inductive Out (ε : Type) (α : Type)
  | panic
  | error (e : ε)
  | ok (a : α)
  /-- never reached (`C20_no_fuel`) -/
  | fuel
deriving DecidableEq

/-- The loop of `expand_macroses`: macroslib/src/typemap/typemap_macro.rs:654-682.  The `FnMut` expander is a function
with state `σ` that returns the text it appends to the output; `fuel` only makes the recursion structural. -/
def expandLoop {σ ε} (u : Unicode) (exp : σ → Text → List Text → Except ε (Text × σ)) :
    Nat → σ → Text → Text → Out ε (Text × σ)
  | 0, _, _, _ => .fuel
  | fuel + 1, s, ret, code =>
    match code.dropWhile (fun c => !u.isAlphabetic c) with
    | [] => .ok (ret ++ code, s)
    | c :: rest =>
      let ret := ret ++ code.takeWhile (fun c => !u.isAlphabetic c)
      match findMacro u (c :: rest) with
      | .panic => .panic
      | .call id ps r =>
        match exp s id ps with
        | .error e => .error e
        | .ok (t, s') =>
          match splitAtByte 1 r with
          | none => .panic
          | some (_, r') => expandLoop u exp fuel s' (ret ++ t) r'
      | .no =>
        match (c :: rest).dropWhile u.isAlphabetic with
        | [] => .ok (ret ++ (c :: rest), s)
        | rest' => expandLoop u exp fuel s (ret ++ (c :: rest).takeWhile u.isAlphabetic) rest'

/-- `expand_macroses`: macroslib/src/typemap/typemap_macro.rs:648-685. -/
def expandMacroses {σ ε} (u : Unicode) (exp : σ → Text → List Text → Except ε (Text × σ)) (s : σ) (code : Text) :
    Out ε (Text × σ) :=
  expandLoop u exp (code.length + 1) s [] code

end Flapi.Macro
