import Verif.Lang.TokenParse
import Verif.TypeMap.RuleParse
import Verif.TypeMap.Instantiate
/-!
# From the tokens of a `foreign_typemap!` to its lines (model)

The parsers of macroslib/src/typemap/typemap_macro/parse.rs, token by token; what a line does to the rule read so far is
`Flapi.RuleParse.addLine`.  Tokens are those of `Lang/TokenParse.lean`; `=>` and `<=` are one token each (`.other`).
What `syn` itself parses (types, generics, Rust items) is a parameter.  Positions are left out.
-/
namespace Flapi.RuleTokens

open Flapi.TokenParse
open Flapi.RuleParse (Line RLine FLine Rule Res addLine)

/-- A Rust item, as far as `define_c_type!` looks at it (macroslib/src/typemap/typemap_macro/parse.rs:344-400): whether it carries
`#[repr(C)]` or `#[no_mangle]`, and the `extern` of a function with its name. -/
inductive SynItem (κ : Type) where
  | struct (reprC : Bool) (x : κ)
  | union (reprC : Bool) (x : κ)
  | fn (noMangle : Bool) (abi : Option (Option Text)) (x : κ)
  | static (noMangle : Bool) (x : κ)
  | other
  deriving DecidableEq, Repr

/-- What is left to `syn` besides `Flapi.TokenParse.Syn`: generics with their value, one Rust item, and printing tokens. -/
structure Ext (γ κ : Type) where
  gen : List Tok → Option (γ × List Tok)
  item : List Tok → Option (SynItem κ × List Tok)
  text : List Tok → Text

variable {τ γ κ : Type}

/-- macroslib/src/typemap/typemap_macro/parse.rs:26. -/
def kwRType : Text := "r_type".toList
/-- macroslib/src/typemap/typemap_macro/parse.rs:27. -/
def kwFType : Text := "f_type".toList
/-- macroslib/src/typemap/typemap_macro/parse.rs:28. -/
def kwReqModules : Text := "req_modules".toList
/-- macroslib/src/typemap/typemap_macro/parse.rs:29. -/
def kwModule : Text := "module".toList
/-- macroslib/src/typemap/typemap_macro/parse.rs:30. -/
def kwOption : Text := "option".toList
/-- macroslib/src/typemap/typemap_macro/parse.rs:31. -/
def kwInputToOutput : Text := "input_to_output".toList
/-- macroslib/src/typemap/typemap_macro/parse.rs:32. -/
def kwUniquePrefix : Text := "unique_prefix".toList
/-- macroslib/src/typemap/typemap_macro/parse.rs:33. -/
def kwTemporary : Text := "temporary".toList
/-- macroslib/src/typemap/typemap_macro.rs:37. -/
def kwDefineCType : Text := "define_c_type".toList
/-- macroslib/src/typemap/typemap_macro.rs:34. -/
def kwGenericAlias : Text := "generic_alias".toList
/-- macroslib/src/typemap/typemap_macro.rs:35. -/
def kwConcat : Text := "swig_concat_idents".toList
/-- macroslib/src/typemap/typemap_macro.rs:36. -/
def kwIType : Text := "swig_i_type".toList
/-- macroslib/src/typemap/typemap_macro.rs:42. -/
def kwSwigFType : Text := "swig_f_type".toList
/-- `Token![=>]`: macroslib/src/typemap/typemap_macro/parse.rs:219, 635. -/
def fatArrow : Text := "=>".toList
/-- `Token![<=]`: macroslib/src/typemap/typemap_macro/parse.rs:222, 640. -/
def leArrow : Text := "<=".toList
/-- The name of the ABI: macroslib/src/typemap/typemap_macro/parse.rs:370. -/
def abiC : Text := "C".toList

/-- A string literal: macroslib/src/typemap/typemap_macro/parse.rs:327, 417, 425, 434, 573, 585, 631, 637. -/
def litStr : List Tok → Option (Text × List Tok)
  | .str s :: r => some (s, r)
  | _ => none

/-- `word = "literal"`, as in `module = "..."` (macroslib/src/typemap/typemap_macro/parse.rs:325-327, 415-417, 423-425, 571-573,
582-585). -/
def setting (w : Text) (toks : List Tok) : Option (Text × List Tok) := do
  let r ← keyword w toks
  let r ← punct '=' r
  litStr r

/-- `$name:` in front of a rule: macroslib/src/typemap/typemap_macro/parse.rs:65-70. -/
def varPart (O : Syn τ) : List Tok → Option (Option Text × List Tok)
  | .p '$' :: r => do
    let (n, r) ← ident O r
    let r ← punct ':' r
    pure (some n, r)
  | r => some (none, r)

/-! ## `r_type` -/

/-- `peek(Token![<])`: true also in front of `<=`, `<<` and so on (macroslib/src/typemap/typemap_macro/parse.rs:204). -/
def startsLt : List Tok → Bool
  | .p '<' :: _ => true
  | .other ('<' :: _) :: _ => true
  | _ => false

/-- Generic parameters: macroslib/src/typemap/typemap_macro/parse.rs:204-205. -/
def genPart (E : Ext γ κ) (toks : List Tok) : Option (Option γ × List Tok) :=
  if startsLt toks then (E.gen toks).map fun x => (some x.1, x.2) else some (none, toks)

/-- The arrow of a line and what follows it, read by `read`; `true` points right:
macroslib/src/typemap/typemap_macro/parse.rs:218-225, 634-644. -/
def arrowPart {α : Type} (read : List Tok → Option (α × List Tok)) : List Tok → Option (Option (Bool × α) × List Tok)
  | .other s :: r =>
    if s = fatArrow then (read r).map fun x => (some (true, x.1), x.2)
    else if s = leArrow then (read r).map fun x => (some (false, x.1), x.2)
    else some (none, .other s :: r)
  | r => some (none, r)

/-- The code after a conversion: macroslib/src/typemap/typemap_macro/parse.rs:227-230. -/
def bodyPart (E : Ext γ κ) (arrow : Bool) : List Tok → Option Text × List Tok
  | .grp .brace ts :: r => if arrow then (some (E.text ts), r) else (none, .grp .brace ts :: r)
  | r => (none, r)

/-- `parse_r_type_rule`, as far as it reads tokens: macroslib/src/typemap/typemap_macro/parse.rs:204-230. -/
def rLine (O : Syn τ) (E : Ext γ κ) (var : Option Text) (toks : List Tok) : Option (RLine τ γ × List Tok) := do
  let (g, r) ← genPart E toks
  let (left, r) ← O.ty r
  let (arrow, r) ← arrowPart O.ty r
  let b := bodyPart E arrow.isSome r
  pure (⟨var, g, left, arrow, b.1⟩, b.2)

/-! ## `f_type` -/

/-- The names in `req_modules = [..]`: macroslib/src/typemap/typemap_macro/parse.rs:551-568. -/
def strs : List Tok → Option (List Text)
  | [] => some []
  | [.str s] => some [s]
  | .str s :: .p ',' :: r => (strs r).map (s :: ·)
  | _ => none

/-- A parameter of an `f_type` line. -/
inductive Param where
  | modules (l : List Text)
  | option (s : Text)
  | inputToOutput
  | uniquePrefix (s : Text)
  | temporary (n : Text)
  deriving DecidableEq, Repr

/-- One parameter, after its comma: macroslib/src/typemap/typemap_macro/parse.rs:547-602. -/
def param (O : Syn τ) : List Tok → Option (Param × List Tok)
  | .id w :: r =>
    if w = kwReqModules then do
      let r ← punct '=' r
      let (inside, r) ← group .bracket r
      let l ← strs inside
      pure (.modules l, r)
    else if w = kwOption then do
      let r ← punct '=' r
      let (s, r) ← litStr r
      pure (.option s, r)
    else if w = kwInputToOutput then some (.inputToOutput, r)
    else if w = kwUniquePrefix then do
      let r ← punct '=' r
      let (s, r) ← litStr r
      pure (.uniquePrefix s, r)
    else none
  | .p '$' :: r => do
    let (n, r) ← ident O r
    let r ← punct ':' r
    let r ← keyword kwTemporary r
    pure (.temporary n, r)
  | _ => none

/-- The loop over the parameters, which stops where no comma follows: macroslib/src/typemap/typemap_macro/parse.rs:545-603.  `fuel`
is the number of tokens. -/
def params (O : Syn τ) : Nat → List Tok → Option (List Param × List Tok)
  | 0, r => some ([], r)
  | n + 1, .p ',' :: r => do
    let (x, r) ← param O r
    let (xs, r) ← params O n r
    pure (x :: xs, r)
  | _ + 1, r => some ([], r)

/-- What one parameter adds: macroslib/src/typemap/typemap_macro/parse.rs:553-601. -/
def addParam (l : FLine) : Param → FLine
  | .modules ms => { l with mods := l.mods ++ ms }
  | .option s => { l with option := some s }
  | .inputToOutput => { l with inputToOutput := true }
  | .uniquePrefix s => { l with uniquePrefix := some s }
  | .temporary n => { l with temporaries := l.temporaries ++ [n] }

/-- `if input.peek(LitStr)`: macroslib/src/typemap/typemap_macro/parse.rs:629-633, 687-688. -/
def optStr : List Tok → Option Text × List Tok
  | .str s :: r => (some s, r)
  | r => (none, r)

/-- `parse_f_type_rule`, as far as it reads tokens of the line: macroslib/src/typemap/typemap_macro/parse.rs:629-645, 687-688. -/
def fLine (var : Option Text) (ps : List Param) (toks : List Tok) : Option (FLine × List Tok) := do
  let left := optStr toks
  let (arrow, r) ← arrowPart litStr left.2
  let body := if arrow.isSome then optStr r else (none, r)
  pure (ps.foldl addParam ⟨var, none, [], false, none, [], left.1, arrow, body.1⟩, body.2)

/-! ## Macros -/

/-- `syn::Macro`, called at macroslib/src/typemap/typemap_macro/parse.rs:110, 481: path, `!` and the tokens in delimiters. -/
def macroCall (O : Syn τ) (toks : List Tok) : Option (Path × List Tok × List Tok) := do
  let (p, r) ← path O toks
  let r ← punct '!' r
  match r with
  | .grp _ ts :: r => pure (p, ts, r)
  | _ => none

/-- `Path::is_ident`: macroslib/src/typemap/typemap_macro/parse.rs:121-151, 482-500. -/
def isIdent (p : Path) (w : Text) : Bool := !p.leading && decide (p.segments = [w])

/-- One item of `define_c_type!`: macroslib/src/typemap/typemap_macro/parse.rs:344-400. -/
def citem : SynItem κ → Option κ
  | .struct reprC x => if reprC then some x else none
  | .union reprC x => if reprC then some x else none
  | .fn noMangle abi x => if noMangle then (if abi = some (some abiC) then some x else none) else none
  | .static noMangle x => if noMangle then some x else none
  | .other => none

/-- One round of the loop of `CItemsList::parse`: macroslib/src/typemap/typemap_macro/parse.rs:343-402. -/
def citemRound (E : Ext γ κ) (toks : List Tok) : Option (κ × List Tok) :=
  (E.item toks).bind fun x => (citem x.1).map fun y => (y, x.2)

/-- `CItems::parse`: macroslib/src/typemap/typemap_macro/parse.rs:323-336, with the list of macroslib/src/typemap/typemap_macro/parse.rs:340-405. -/
def cItems (E : Ext γ κ) (toks : List Tok) : Option (Text × List κ) := do
  let (m, r) ← setting kwModule toks
  let r ← punct ';' r
  let l ← many (citemRound E) r.length r
  pure (m, l)

/-- `GenericCItems::parse`: macroslib/src/typemap/typemap_macro/parse.rs:452-468; the items stay tokens. -/
def genericCItems (toks : List Tok) : Option (Text × List Tok) := do
  let (m, r) ← setting kwModule toks
  let r ← punct ';' r
  pure (m, r)

/-- The option of `foreign_code!`: macroslib/src/typemap/typemap_macro/parse.rs:422-433. -/
def codeOption : List Tok → Option (Option Text × List Tok)
  | .id w :: r =>
    if w = kwOption then do
      let (s, r) ← setting kwOption (.id w :: r)
      let r ← punct ';' r
      pure (some s, r)
    else some (none, .id w :: r)
  | r => some (none, r)

/-- `ForeignCode::parse`: macroslib/src/typemap/typemap_macro/parse.rs:412-441, and the check of `syn::parse2` that nothing is left. -/
def foreignCode (toks : List Tok) : Option (Text × Option Text × Text) := do
  let (m, r) ← setting kwModule toks
  let r ← punct ';' r
  let (o, r) ← codeOption r
  let (c, r) ← litStr r
  match r with
  | [] => pure (m, o, c)
  | _ :: _ => none

/-- `GenericAlias::parse`: macroslib/src/typemap/typemap_macro/parse.rs:443-450; the value stays tokens. -/
def genericAlias (O : Syn τ) (toks : List Tok) : Option (Text × List Tok) := do
  let (n, r) ← ident O toks
  let r ← punct '=' r
  pure (n, r)

/-- Lines with their contents: C items with the name of their module, generic C items and aliases as tokens. -/
abbrev TLine (τ γ κ : Type) := Line τ γ (Text × List κ) (Text × List Tok) (Text × List Tok)
/-- The rule they make. -/
abbrev TRule (τ γ κ : Type) := Rule τ γ (Text × List κ) (Text × List Tok) (Text × List Tok)

/-- What a macro in a rule says: macroslib/src/typemap/typemap_macro/parse.rs:111-156. -/
def macroLine (O : Syn τ) (E : Ext γ κ) (p : Path) (ts : List Tok) : Option (TLine τ γ κ) :=
  if isIdent p kwDefineCType then
    match cItems E ts with
    | some c => some (.cItems c)
    | none => (genericCItems ts).map .genericCItems
  else if isIdent p kwForeignCode || isIdent p kwForeignerCode then
    (foreignCode ts).map fun x => .code x.1 x.2.1 x.2.2
  else if isIdent p kwGenericAlias then (genericAlias O ts).map .alias
  else some .unknownMacro

/-! ## The rule -/

/-- What follows the parentheses, by the word in them; the third component are the tokens left over in the parentheses:
macroslib/src/typemap/typemap_macro/parse.rs:72-108, 538-611. -/
def ruleLine (O : Syn τ) (E : Ext γ κ) (var : Option Text) (inside r : List Tok) : Option (TLine τ γ κ × List Tok × List Tok) :=
  match inside with
  | .id w :: ps =>
    if w = kwRType then
      match ps with
      | [] => (rLine O E var r).map fun x => (.rType x.1, [], x.2)
      | _ :: _ => none
    else if w = kwFType then
      (params O ps.length ps).bind fun x => (fLine var x.1 r).map fun y => (.fType y.1, x.2, y.2)
    else none
  | _ => none

/-- One line, without its semicolon: macroslib/src/typemap/typemap_macro/parse.rs:60-156. -/
def line (O : Syn τ) (E : Ext γ κ) : List Tok → Option (TLine τ γ κ × List Tok × List Tok)
  | .grp .paren inside :: r => (varPart O inside).bind fun x => ruleLine O E x.1 x.2 r
  | toks => (macroCall O toks).bind fun x => (macroLine O E x.1 x.2.1).map fun l => (l, [], x.2.2)

/-- The loop: macroslib/src/typemap/typemap_macro/parse.rs:60-158.  `left` says that tokens were left over in parentheses somewhere;
`fuel` is the number of tokens. -/
def rounds [DecidableEq γ] (O : Syn τ) (E : Ext γ κ) (gap : Text) :
    Nat → TRule τ γ κ → Bool → List Tok → Res (TRule τ γ κ × Bool)
  | _, r, left, [] => .ok (r, left)
  | 0, _, _, _ :: _ => .err
  | n + 1, r, left, t :: ts =>
    match line O E (t :: ts) with
    | none => .err
    | some (l, over, rest) =>
      (addLine gap r l).bind fun r =>
        match punct ';' rest with
        | none => .err
        | some rest => rounds O E gap n r (left || !over.isEmpty) rest

/-- The checks after the loop (macroslib/src/typemap/typemap_macro/parse.rs:160-193), and the error `syn::parse2` reports at the
end for tokens left over in parentheses (crate `syn`, called at macroslib/src/typemap.rs:1045-1046). -/
def ending (toks : List Tok) (r : TRule τ γ κ) (left : Bool) : Res (TRule τ γ κ) :=
  if toks.isEmpty then .err
  else if !r.aliases.isEmpty && r.generics.isNone then .err
  else if r.genericCTypes.isSome && r.generics.isNone then .err
  else if left then .err
  else .ok r

/-- Reading a `foreign_typemap!`: macroslib/src/typemap/typemap_macro/parse.rs:47-194. -/
def parseRule [DecidableEq γ] (O : Syn τ) (E : Ext γ κ) (gap : Text) (toks : List Tok) : Res (TRule τ γ κ) :=
  (rounds O E gap toks.length {} false toks).bind fun x => ending toks x.1 x.2

/-! ## Values of aliases -/

/-- `Punctuated::parse_terminated`: items with commas between them, a last comma allowed (crate `syn`, called at
macroslib/src/typemap/typemap_macro/parse.rs:473, 525-526). -/
def sepBy {α : Type} (item : List Tok → Option (α × List Tok)) : Nat → List Tok → Option (List α)
  | _, [] => some []
  | 0, _ :: _ => none
  | n + 1, t :: ts =>
    match item (t :: ts) with
    | none => none
    | some (x, []) => some [x]
    | some (x, .p ',' :: r) => (sepBy item n r).map (x :: ·)
    | some (_, _ :: _) => none

/-- `swig_i_type!` in an alias: macroslib/src/typemap/typemap_macro/parse.rs:485-502. -/
def iTypeArgs : List Text → Option Inst.Item
  | [a] => some (.iType a none)
  | [a, b] => some (.iType a (some b))
  | _ => none

/-- `GenericAliasItem::parse`: macroslib/src/typemap/typemap_macro/parse.rs:478-519.  `fuel` bounds the nesting. -/
def aliasItem (O : Syn τ) : Nat → List Tok → Option (Inst.Item × List Tok)
  | 0, _ => none
  | n + 1, toks =>
    match macroCall O toks with
    | some (p, ts, r) =>
      if isIdent p kwConcat then (sepBy (aliasItem O n) ts.length ts).map fun l => (.concat l, r)
      else if isIdent p kwIType then ((idents O ts).bind iTypeArgs).map fun i => (i, r)
      else if isIdent p kwSwigFType then
        match ident O ts with
        | some (a, []) => some (.fType a, r)
        | _ => none
      else none
    | none => (ident O toks).map fun x => (.ident x.1, x.2)

mutual
/-- Nesting depth of a token, the fuel for `aliasItem` (no counterpart in the code). -/
def depth : Tok → Nat
  | .grp _ ts => depths ts + 1
  | _ => 0
/-- Nesting depth of tokens. -/
def depths : List Tok → Nat
  | [] => 0
  | t :: ts => max (depth t) (depths ts)
end

/-- Reading the value of an alias with `syn::parse2`: macroslib/src/typemap/typemap_macro.rs:563. -/
def aliasValue (O : Syn τ) (toks : List Tok) : Option Inst.Item :=
  match aliasItem O (depths toks + 1) toks with
  | some (i, []) => some i
  | _ => none

end Flapi.RuleTokens
