import Verif.Lang.ClassParse
/-!
# From the tokens of a `foreign_enum!`, `foreign_interface!` or `foreign_class!` to the description (model)

The parsers of macroslib/src/code_parse.rs, token by token.  What `syn` itself parses (the inside of an attribute, Rust types,
trait bounds, argument lists, generics, blocks) is a parameter, `Syn`.  `none` is an error reported to the user.
Multi-character punctuation (`::`, `->`) is one token.  Positions (`Span`) are left out.
-/
namespace Flapi.TokenParse

open Flapi.ClassParse

/-- Delimiters of a token group (crate `proc_macro2`). -/
inductive Delim where
  | paren | bracket | brace
  deriving DecidableEq, Repr

/-- Token trees (crate `proc_macro2`), with `::` and `->` glued; `lit` is a literal other than a string, a lifetime or
anything else. -/
inductive Tok where
  | id (n : Text)
  | p (c : Char)
  | colon2
  | arrow
  | str (s : Text)
  | other (s : Text)
  | grp (d : Delim) (ts : List Tok)
  deriving Repr

/-- What `syn` makes of the inside of `#[..]`: `doc = "..."`, `derive(..)` (with its text), anything else (its text);
matched at macroslib/src/code_parse.rs:145-170. -/
inductive Meta where
  | doc (s : Text)
  | derive (args : List Tok) (text : Text)
  | other (text : Text)
  deriving Repr

/-- A bound of `self_type`, as matched at macroslib/src/code_parse.rs:752-766: a trait (with its text and its name if it is a
single identifier), a lifetime or something else. -/
inductive Bound where
  | trait (ident : Option Text) (text : Text)
  | lifetime (text : Text)
  | other
  deriving DecidableEq, Repr

/-- What is left to `syn`.  A parser of a prefix returns the rest of the tokens. -/
structure Syn (Ty : Type) where
  /-- identifiers that `Ident::parse` refuses (keywords and `_`) -/
  reserved : Text → Bool
  /-- inside of `#[..]` -/
  metaOf : List Tok → Option Meta
  /-- `syn::Type` -/
  ty : List Tok → Option (Ty × List Tok)
  /-- `syn::TypeTraitObject` -/
  bounds : List Tok → Option (List Bound × List Tok)
  /-- the inside of the parentheses, `Punctuated<syn::FnArg, Token![,]>` -/
  args : List Tok → Option (List (SynArg Ty))
  /-- `syn::Generics`, which may be empty -/
  generics : List Tok → Option (List Tok)
  /-- the inside of a `syn::Block` -/
  block : List Tok → Bool

variable {Ty : Type}

/-- `input.parse::<Ident>()`: macroslib/src/code_parse.rs:205, 686, 693, 732, 743. -/
def ident (O : Syn Ty) : List Tok → Option (Text × List Tok)
  | .id n :: r => if O.reserved n then none else some (n, r)
  | _ => none

/-- A keyword token (`Token![enum]`, `kw::class`, ...): macroslib/src/code_parse.rs:111-121, 204, 685. -/
def keyword (w : Text) : List Tok → Option (List Tok)
  | .id n :: r => if n = w then some r else none
  | _ => none

/-- A punctuation token (`Token![,]`, `Token![;]`, `Token![=]`): macroslib/src/code_parse.rs:700, 769, 772. -/
def punct (c : Char) : List Tok → Option (List Tok)
  | .p d :: r => if d = c then some r else none
  | _ => none

/-- `braced!` and `parenthesized!`: macroslib/src/code_parse.rs:208, 336-337, 689, 736, 776. -/
def group (d : Delim) : List Tok → Option (List Tok × List Tok)
  | .grp e ts :: r => if e = d then some (ts, r) else none
  | _ => none

/-- The words a path may contain although they are reserved (crate `syn`, `Path::parse_mod_style`, called at
macroslib/src/code_parse.rs:329, 696, 773). -/
def pathWord (n : Text) : Bool :=
  n = "super".toList || n = "self".toList || n = "Self".toList || n = "crate".toList

/-- One segment of such a path. -/
def isSeg (O : Syn Ty) (n : Text) : Bool := !O.reserved n || pathWord n

/-- Segments of `syn::Path::parse_mod_style`, called at macroslib/src/code_parse.rs:329, 696, 773: a segment, and after `::`
the next one. -/
def segs (O : Syn Ty) : List Tok → Option (List Text × List Tok)
  | .id n :: .colon2 :: r =>
    if isSeg O n then (segs O r).map fun x => (n :: x.1, x.2) else none
  | .id n :: r => if isSeg O n then some ([n], r) else none
  | _ => none

/-- A Rust path: with leading `::` or not, and its segments. -/
structure Path where
  leading : Bool
  segments : List Text
  deriving DecidableEq, Repr

/-- `syn::Path::parse_mod_style`, called at macroslib/src/code_parse.rs:329, 696, 773. -/
def path (O : Syn Ty) : List Tok → Option (Path × List Tok)
  | .colon2 :: r => (segs O r).map fun x => (⟨true, x.1⟩, x.2)
  | r => (segs O r).map fun x => (⟨false, x.1⟩, x.2)

/-- `syn::Attribute::parse_outer`, called at macroslib/src/code_parse.rs:142-143: the insides of all `#[..]` in front. -/
def outer (O : Syn Ty) : List Tok → Option (List Meta × List Tok)
  | .p '#' :: .grp .bracket ts :: r => do
    let m ← O.metaOf ts
    let (ms, r) ← outer O r
    pure (m :: ms, r)
  | .p '#' :: _ => none
  | r => some ([], r)

/-- `MacroArgs`, identifiers separated by commas, a last comma allowed: macroslib/src/typemap/typemap_macro/parse.rs:470-476. -/
def idents (O : Syn Ty) : List Tok → Option (List Text)
  | [] => some []
  | [.id n] => if O.reserved n then none else some [n]
  | .id n :: .p ',' :: r => if O.reserved n then none else (idents O r).map (n :: ·)
  | _ => none

/-- `ParseAttrsFlags` (DOC is never tested): macroslib/src/code_parse.rs:129-135. -/
structure Flags where
  derive : Bool
  unknown : Bool
  deriving DecidableEq, Repr

/-- `Attrs`: macroslib/src/code_parse.rs:123-127. -/
structure Attrs where
  docs : List Text
  derives : List Text
  unknown : List Text
  deriving DecidableEq, Repr

/-- One attribute: macroslib/src/code_parse.rs:145-179. -/
def addAttr (O : Syn Ty) (f : Flags) (a : Attrs) : Meta → Option Attrs
  | .doc s => some { a with docs := a.docs ++ [s] }
  | .derive args text =>
    if f.derive then (idents O args).map fun l => { a with derives := a.derives ++ l }
    else if f.unknown then some { a with unknown := a.unknown ++ [text] }
    else none
  | .other text => if f.unknown then some { a with unknown := a.unknown ++ [text] } else none

/-- The loop over the attributes: macroslib/src/code_parse.rs:144-180. -/
def addAttrs (O : Syn Ty) (f : Flags) : Attrs → List Meta → Option Attrs
  | a, [] => some a
  | a, m :: l => (addAttr O f a m).bind fun a => addAttrs O f a l

/-- `parse_attrs`: macroslib/src/code_parse.rs:137-187.  When the attributes themselves are malformed nothing is consumed
(`fork`). -/
def attrs (O : Syn Ty) (f : Flags) (toks : List Tok) : Option (Attrs × List Tok) :=
  match outer O toks with
  | none => some (⟨[], [], []⟩, toks)
  | some (ms, r) => (addAttrs O f ⟨[], [], []⟩ ms).map fun a => (a, r)

/-- `parse_doc_comments`: macroslib/src/code_parse.rs:189-192. -/
def docComments (O : Syn Ty) (toks : List Tok) : Option (List Text × List Tok) :=
  (attrs O ⟨false, false⟩ toks).map fun x => (x.1.docs, x.2)

/-- `while !parser.is_empty()`: macroslib/src/code_parse.rs:221, 691, 741.  `fuel` only makes the recursion structural: it is
the number of tokens, and every round consumes at least one. -/
def many {α} (item : List Tok → Option (α × List Tok)) : Nat → List Tok → Option (List α)
  | _, [] => some []
  | 0, _ :: _ => none
  | n + 1, t :: ts => do
    let (x, r) ← item (t :: ts)
    let xs ← many item n r
    pure (x :: xs)

/-! ## Enums -/

/-- macroslib/src/code_parse.rs:685. -/
def kwEnum : Text := "enum".toList

/-- `ForeignEnumItem`: macroslib/src/types.rs:263-267. -/
structure EnumItem where
  name : Text
  rustName : Path
  docs : List Text
  deriving DecidableEq, Repr

/-- `ForeignEnumInfo`: macroslib/src/types.rs:248-254. -/
structure EnumDecl where
  name : Text
  items : List EnumItem
  docs : List Text
  derives : List Text
  deriving DecidableEq, Repr

/-- The variant an item stands for: macroslib/src/code_parse.rs:694-699. -/
def variantPath (O : Syn Ty) (enumName item : Text) : List Tok → Option (Path × List Tok)
  | .p '=' :: r => path O r
  | r => some (⟨false, [enumName, item]⟩, r)

/-- One item of an enum: macroslib/src/code_parse.rs:692-706. -/
def enumItem (O : Syn Ty) (enumName : Text) (toks : List Tok) : Option (EnumItem × List Tok) := do
  let (docs, r) ← docComments O toks
  let (name, r) ← ident O r
  let (p, r) ← variantPath O enumName name r
  let r ← punct ',' r
  pure (⟨name, p, docs⟩, r)

/-- `ForeignEnumInfoParser::parse` and the check of `syn::parse2` that nothing is left:
macroslib/src/code_parse.rs:60-65, 677-717. -/
def parseEnum (O : Syn Ty) (toks : List Tok) : Option EnumDecl := do
  let (a, r) ← attrs O ⟨true, false⟩ toks
  let r ← keyword kwEnum r
  let (name, r) ← ident O r
  let (body, r) ← group .brace r
  let items ← many (enumItem O name) body.length body
  match r with
  | [] => pure ⟨name, items, a.docs, a.derives⟩
  | _ :: _ => none

/-! ## Interfaces -/

/-- macroslib/src/code_parse.rs:119. -/
def kwInterface : Text := "interface".toList
/-- macroslib/src/code_parse.rs:120. -/
def kwCallback : Text := "callback".toList
/-- macroslib/src/code_parse.rs:248, 744. -/
def kwSelfType : Text := "self_type".toList

/-- Names a bound after the first may have: macroslib/src/code_parse.rs:756. -/
def isSendSync (n : Text) : Bool := n = "Sync".toList || n = "Send".toList

/-- Check of one bound after the first: macroslib/src/code_parse.rs:754-765 (`other` is `unimplemented!()`). -/
def boundOk : Bound → Bool
  | .trait (some n) _ => isSendSync n
  | .trait none _ => false
  | .lifetime _ => true
  | .other => false

/-- `ForeignInterfaceMethod`: macroslib/src/types.rs:286-291. -/
structure IMethod (Ty : Type) where
  name : Text
  rustName : Path
  inputs : List (FnArg Ty)
  output : Option Ty
  docs : List Text
  deriving DecidableEq, Repr

/-- One round of the loop over the body of an interface: a `self_type` or a method. -/
inductive IEntry (Ty : Type) where
  | selfType (bounds : List Bound)
  | method (m : IMethod Ty)
  deriving DecidableEq, Repr

/-- `ForeignInterface`: macroslib/src/types.rs:269-275. -/
structure Interface (Ty : Type) where
  name : Text
  selfType : List Bound
  items : List (IMethod Ty)
  docs : List Text
  deriving DecidableEq, Repr

/-- `syn::ReturnType`, parsed at macroslib/src/code_parse.rs:433, 788. -/
def retType (O : Syn Ty) : List Tok → Option (Option Ty × List Tok)
  | .arrow :: r => (O.ty r).map fun x => (some x.1, x.2)
  | r => some (none, r)

/-- The `self_type` of an interface: macroslib/src/code_parse.rs:744-771. -/
def selfTypeEntry (O : Syn Ty) (r : List Tok) : Option (IEntry Ty × List Tok) := do
  let (bs, r) ← O.bounds r
  if bs.isEmpty then none
  else if (bs.drop 1).all boundOk then do
    let r ← punct ';' r
    pure (.selfType bs, r)
  else none

/-- A method of an interface, after its name: macroslib/src/code_parse.rs:772-798. -/
def methodEntry (O : Syn Ty) (docs : List Text) (name : Text) (r : List Tok) : Option (IEntry Ty × List Tok) := do
  let r ← punct '=' r
  let (p, r) ← path O r
  let (inside, r) ← group .paren r
  let args ← O.args inside
  let inputs ← parseCallback args
  let (out, r) ← retType O r
  let r ← punct ';' r
  pure (.method ⟨name, p, inputs, out, docs⟩, r)

/-- One round of the loop: macroslib/src/code_parse.rs:741-799. -/
def iEntry (O : Syn Ty) (toks : List Tok) : Option (IEntry Ty × List Tok) := do
  let (docs, r) ← docComments O toks
  let (name, r) ← ident O r
  if name = kwSelfType then selfTypeEntry O r else methodEntry O docs name r

/-- `self_type` after the loop: the last one: macroslib/src/code_parse.rs:738, 767. -/
def lastSelfType : List (IEntry Ty) → Option (List Bound)
  | [] => none
  | .selfType b :: l => some ((lastSelfType l).getD b)
  | .method _ :: l => lastSelfType l

/-- `items` after the loop: macroslib/src/code_parse.rs:739, 790. -/
def methodsOf : List (IEntry Ty) → List (IMethod Ty)
  | [] => []
  | .selfType _ :: l => methodsOf l
  | .method m :: l => m :: methodsOf l

/-- The keyword in front: macroslib/src/code_parse.rs:724-731. -/
def interfaceKeyword (toks : List Tok) : Option (List Tok) :=
  (keyword kwInterface toks).or (keyword kwCallback toks)

/-- `ForeignInterfaceParser::parse` and the check of `syn::parse2` that nothing is left:
macroslib/src/code_parse.rs:68-76, 721-813. -/
def parseInterface (O : Syn Ty) (toks : List Tok) : Option (Interface Ty) := do
  let (docs, r) ← docComments O toks
  let r ← interfaceKeyword r
  let (name, r) ← ident O r
  let (body, r) ← group .brace r
  let es ← many (iEntry O) body.length body
  let st ← lastSelfType es
  match r with
  | [] => pure ⟨name, st, methodsOf es, docs⟩
  | _ :: _ => none

/-! ## Classes -/

/-- macroslib/src/code_parse.rs:114. -/
def kwClass : Text := "class".toList
/-- macroslib/src/code_parse.rs:116. -/
def kwPrivate : Text := "private".toList
/-- macroslib/src/code_parse.rs:117. -/
def kwProtected : Text := "protected".toList
/-- macroslib/src/code_parse.rs:118. -/
def kwEmpty : Text := "empty".toList
/-- macroslib/src/code_parse.rs:115. -/
def kwAlias : Text := "alias".toList
/-- macroslib/src/code_parse.rs:255. -/
def kwForeignCode : Text := "foreign_code".toList
/-- macroslib/src/code_parse.rs:255. -/
def kwForeignerCode : Text := "foreigner_code".toList

/-- `if content.peek(kw) { content.parse::<kw>()?; .. }`: macroslib/src/code_parse.rs:228-238. -/
def optKeyword (w : Text) : List Tok → Bool × List Tok
  | .id n :: r => if n = w then (true, r) else (false, .id n :: r)
  | r => (false, r)

/-- The word that says what the entry is: macroslib/src/code_parse.rs:240-247. -/
def kindWord (O : Syn Ty) : List Tok → Option (Text × List Tok)
  | .id n :: r => if n = kwFn then some (n, r) else if O.reserved n then none else some (n, r)
  | _ => none

/-- An entry of a class body together with the documentation and the unknown attributes in front of it. -/
structure CEntry (Ty : Type) where
  entry : Entry Ty
  docs : List Text
  unknown : List Text
  deriving DecidableEq, Repr

/-- A string literal (`syn::LitStr`): macroslib/src/code_parse.rs:262. -/
def strLit : List Tok → Option (Text × List Tok)
  | .str s :: r => some (s, r)
  | _ => none

/-- `syn::Generics`, skipped when there are any: macroslib/src/code_parse.rs:332-335. -/
def skipGenerics (O : Syn Ty) (toks : List Tok) : List Tok := (O.generics toks).getD toks

/-- End of a function: a body or `;`: macroslib/src/code_parse.rs:436-448. -/
def funcEnd (O : Syn Ty) : List Tok → Option (Bool × List Tok)
  | .grp .brace ts :: r => if O.block ts then some (true, r) else none
  | r => (punct ';' r).map fun r => (false, r)

/-- `alias name;` after a function: macroslib/src/code_parse.rs:450-462 (whether an alias is allowed there is checked by
`ClassParse.step`). -/
def aliasPart (O : Syn Ty) (toks : List Tok) : Option (Option Text × List Tok) :=
  match optKeyword kwAlias toks with
  | (true, r) => do
    let (a, r) ← ident O r
    let r ← punct ';' r
    pure (some a, r)
  | (false, r) => some (none, r)

/-- A constructor without implementation, `= empty [-> T];`: macroslib/src/code_parse.rs:276-287; `none`: it is not one. -/
def dummyHead : List Tok → Option (List Tok)
  | .p '=' :: .id n :: r => if n = kwEmpty then some r else none
  | _ => none

/-- A function of a class, after the word: macroslib/src/code_parse.rs:329-462; of the path only the segments are used later. -/
def funcEntry (O : Syn Ty) (priv prot : Bool) (kind : Text) (r : List Tok) : Option (Entry Ty × List Tok) := do
  let (p, r) ← path O r
  let r := skipGenerics O r
  let (inside, r) ← group .paren r
  let args ← O.args inside
  let (out, r) ← retType O r
  let (inline, r) ← funcEnd O r
  let (al, r) ← aliasPart O r
  pure (.func priv prot kind p.segments args out inline al, r)

/-- What follows the word: macroslib/src/code_parse.rs:248-507.  The checks that do not concern the tokens are those of
`ClassParse.step`; making them after the whole body has been read only changes which error is reported first. -/
def afterWord (O : Syn Ty) (priv prot : Bool) (kind : Text) (r : List Tok) : Option (Entry Ty × List Tok) :=
  if kind = kwSelfType then do
    let (t, r) ← O.ty r
    let r ← punct ';' r
    pure (.selfType t, r)
  else if kind = kwForeignerCode || kind = kwForeignCode then do
    let (s, r) ← strLit r
    let r ← punct ';' r
    pure (.code s, r)
  else if kind = kwConstructor && (dummyHead r).isSome then do
    let r ← dummyHead r
    let (out, r) ← retType O r
    let r ← punct ';' r
    pure (.dummy priv prot out, r)
  else funcEntry O priv prot kind r

/-- One round of the loop of `do_parse_foreigner_class`: macroslib/src/code_parse.rs:221-508. -/
def classEntry (O : Syn Ty) (toks : List Tok) : Option (CEntry Ty × List Tok) := do
  let (a, r) ← attrs O ⟨false, true⟩ toks
  let (priv, r) := optKeyword kwPrivate r
  let (prot, r) := optKeyword kwProtected r
  let (kind, r) ← kindWord O r
  let (e, r) ← afterWord O priv prot kind r
  pure (⟨e, a.docs, a.unknown⟩, r)

/-- Does the entry become a method: macroslib/src/code_parse.rs:316-325, 497-507. -/
def isFunc : Entry Ty → Bool
  | .dummy _ _ _ => true
  | .func _ _ _ _ _ _ _ _ => true
  | _ => false

/-- `ForeignClassInfo` with the documentation of the class and, in the order of the methods, their documentation and unknown
attributes: macroslib/src/types.rs:14-23, 89-99. -/
structure ClassDecl (Ty : Type) where
  name : Text
  docs : List Text
  cls : Class Ty
  methodDocs : List (List Text)
  methodAttrs : List (List Text)

/-- `do_parse_foreigner_class` and the check of `syn::parse2` that nothing is left: macroslib/src/code_parse.rs:33-58,
194-576.  The language is not looked at. -/
def parseClassDecl (O : Syn Ty) (norm : Ty → Text) (camel : Text → Text) (toks : List Tok) : Option (ClassDecl Ty) := do
  let (a, r) ← attrs O ⟨true, false⟩ toks
  let r ← keyword kwClass r
  let (name, r) ← ident O r
  let (body, r) ← group .brace r
  let es ← many (classEntry O) body.length body
  let c ← parseClass norm camel a.derives (es.map (·.entry))
  match r with
  | [] =>
    let fs := es.filter fun e => isFunc e.entry
    pure ⟨name, a.docs, c, fs.map (·.docs), fs.map (·.unknown)⟩
  | _ :: _ => none

end Flapi.TokenParse
