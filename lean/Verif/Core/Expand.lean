import Verif.Core.FileCache
/-!
# `Generator::expand_str` (model)

Parsing of Rust, the DSL parsers, the type map and the language backend are parameters (`Env`); the control flow, the
order of output and the moment of writing are modelled.
-/
namespace Flapi.Expand
open FileCache

/-- A top-level item of a source file: an item-position macro call or anything else.  `text` is its token text as printed
by `DisplayToTokens`. -/
inductive Item
  | mac (name : Text) (tokens : Text) (text : Text)
  | other (text : Text)
deriving DecidableEq

/-- Parsed descriptions handed to the backend: `ItemToExpand`, macroslib/src/lib.rs. -/
inductive Expandable (C E I : Type)
  | cls (c : C)
  | enum (e : E)
  | iface (i : I)

/-- The parts of the generator that are parameters of this model.  `σ` is the type map. -/
structure Env (σ ε C E I : Type) where
  parseClass : Text → Except ε C
  registerClass : σ → C → σ
  parseEnum : Text → Except ε E
  parseInterface : Text → Except ε I
  parseTypemap : σ → Text → Except ε σ
  expandItems : σ → List (Expandable C E I) → Except ε (σ × List Text)
  postProcess : σ → Text → Except ε Text
  missingTokens : Text → ε
  /-- `None` = `rustfmt_bindings` is off; otherwise exit status and standard output of rustfmt on the given source;
  `Sum.inl ()` = could not be run -/
  rustfmt : Option (Text → Sum Unit (Option Int × Text))

variable {σ ε C E I : Type}

/-- macroslib/src/lib.rs:346-353. -/
def nForeignerClass : Text := "foreigner_class".toList
/-- macroslib/src/lib.rs:346-353. -/
def nForeignClass : Text := "foreign_class".toList
/-- macroslib/src/lib.rs:346-353. -/
def nForeignEnum : Text := "foreign_enum".toList
/-- macroslib/src/lib.rs:346-353. -/
def nForeignInterface : Text := "foreign_interface".toList
/-- macroslib/src/lib.rs:346-353. -/
def nForeignCallback : Text := "foreign_callback".toList
/-- macroslib/src/lib.rs:346-353. -/
def nForeignTypemap : Text := "foreign_typemap".toList

/-- The six names handled: macroslib/src/lib.rs:346-353, 616-625. -/
def ourMacros : List Text :=
  [nForeignerClass, nForeignClass, nForeignEnum, nForeignInterface,
   nForeignCallback, nForeignTypemap]

/-- Loop state: in-memory output, type map, descriptions collected so far. -/
structure St (σ C E I : Type) where
  out : Text
  map : σ
  todo : List (Expandable C E I)

/-- One iteration over an item: macroslib/src/lib.rs:614-679. -/
def stepItem (env : Env σ ε C E I) (st : St σ C E I) : Item → Except ε (St σ C E I)
  | .other text => .ok { st with out := st.out ++ text ++ ['\n'] }
  | .mac name tokens text =>
    if !ourMacros.contains name then .ok { st with out := st.out ++ text ++ ['\n'] }
    else if tokens.isEmpty then .error (env.missingTokens name)
    else if name = nForeignerClass ∨ name = nForeignClass then
      match env.parseClass tokens with
      | .error e => .error e
      | .ok c => .ok { st with map := env.registerClass st.map c, todo := st.todo ++ [.cls c] }
    else if name = nForeignEnum then
      match env.parseEnum tokens with
      | .error e => .error e
      | .ok x => .ok { st with todo := st.todo ++ [.enum x] }
    else if name = nForeignInterface ∨ name = nForeignCallback then
      match env.parseInterface tokens with
      | .error e => .error e
      | .ok x => .ok { st with todo := st.todo ++ [.iface x] }
    else
      match env.parseTypemap st.map tokens with
      | .error e => .error e
      | .ok m => .ok { st with map := m }

/-- Loop over the items of one file. -/
def stepItems (env : Env σ ε C E I) (st : St σ C E I) : List Item → Except ε (St σ C E I)
  | [] => .ok st
  | it :: its => match stepItem env st it with
    | .error e => .error e
    | .ok st' => stepItems env st' its

/-- Loop over the source files: macroslib/src/lib.rs:610-680.  A file that `syn` cannot parse is an error. -/
def stepFiles (env : Env σ ε C E I) (st : St σ C E I) : List (Except ε (List Item)) → Except ε (St σ C E I)
  | [] => .ok st
  | .error e :: _ => .error e
  | .ok items :: fs => match stepItems env st items with
    | .error e => .error e
    | .ok st' => stepFiles env st' fs

/-- Choice of the text after running rustfmt: macroslib/src/lib.rs:823-837 (exit status 0: its output; 2: error;
3 or anything else: the source unchanged). -/
def rustfmtCnt (status : Option Int) (output src : Text) : Except Unit Text :=
  match status with
  | some 0 => .ok output
  | some 2 => .error ()
  | some 3 => .ok src
  | _ => .ok src

/-- How `expand_str` can end. -/
inductive Result (ε : Type)
  | ok
  | err (e : ε)
  | panic
deriving DecidableEq

/-- Everything before the file is flushed: macroslib/src/lib.rs:591-713. `utils` are the items of the built-in
conversion tables (`init_types_map`). -/
def produce (env : Env σ ε C E I) (pointerWidth : Nat) (map0 : σ) (utils : Except ε (List Text))
    (files : List (Except ε (List Item))) : Sum (Result ε) Text :=
  if pointerWidth = 0 then .inl .panic
  else match utils with
  | .error e => .inl (.err e)
  | .ok us =>
    match stepFiles env ⟨us.flatten, map0, []⟩ files with
    | .error e => .inl (.err e)
    | .ok st =>
      match env.expandItems st.map st.todo with
      | .error e => .inl (.err e)
      | .ok (m, code) =>
        let src := st.out ++ (code.map (· ++ ['\n'])).flatten
        match env.postProcess m src with
        | .error e => .inl (.err e)
        | .ok src =>
          match env.rustfmt with
          | none => .inr src
          | some run => match run src with
            | .inl () => .inl .panic
            | .inr (status, output) => match rustfmtCnt status output src with
              | .error () => .inl .panic
              | .ok cnt => .inr cnt

/-- `expand_str`: macroslib/src/lib.rs:587-723 – produce the text, then flush it to `dst`. -/
def expandStr (env : Env σ ε C E I) (ft : Faults) (pointerWidth : Nat) (map0 : σ) (utils : Except ε (List Text))
    (files : List (Except ε (List Item))) (dst : Path) (d : Disk Char) : Result ε × Disk Char :=
  match produce env pointerWidth map0 utils files with
  | .inl r => (r, d)
  | .inr cnt =>
    let o := flush ft d ⟨cnt, dst, []⟩
    (if o.ok then .ok else .panic, o.final d)

end Flapi.Expand
