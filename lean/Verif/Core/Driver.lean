import Verif.Core.Expand
import Verif.Core.SourceRegistry
import Verif.Base.Replace
/-!
# `Generator`: configuring and running it (model)

The builder methods are modelled one by one; a panic is `none`.  Reading of files is a function from paths to optional
texts, the type map and the backend are parameters (`Back`), and the run itself is `Expand.expandStr` with the arguments
the driver computes.  Not modelled: the deprecation warnings printed, the texts of the panics, and the (single) flag
`init_done`, which is never seen set because `expand`/`expand_many` consume the generator.
-/
namespace Flapi.Driver
open SourceRegistry Expand FileCache

/-- `LanguageConfig`, as far as the driver looks at it: macroslib/src/lib.rs:100-104. -/
inductive Lang
  | java (optionalPackage : Text)
  | cpp
  | python
deriving DecidableEq

/-- The texts compiled into the generator by `include_str!`. -/
structure Texts where
  jni : Text
  cpp : Text
  py : Text

/-- `"java.util.Optional"`: macroslib/src/lib.rs:368. -/
def optDots : Text := "java.util.Optional".toList
/-- `"java/util/Optional"`: macroslib/src/lib.rs:372. -/
def optSlashes : Text := "java/util/Optional".toList

/-- `replace('.', "/")`: macroslib/src/lib.rs:375. -/
def slashed (pkg : Text) : Text := pkg.map fun c => if c = '.' then '/' else c

/-- The built-in Java table with another package for `Optional`: macroslib/src/lib.rs:364-378. -/
def optionalCode (pkg code : Text) : Text :=
  strReplace (strReplace code optDots (pkg ++ ".Optional".toList)) optSlashes (slashed pkg ++ "/Optional".toList)

/-- Name and text of the built-in conversion table: macroslib/src/lib.rs:361-421. -/
def builtin (t : Texts) : Lang → SourceCode
  | .java pkg => ⟨"jni-include.rs".toList, optionalCode pkg t.jni⟩
  | .cpp => ⟨"cpp-include.rs".toList, t.cpp⟩
  | .python => ⟨"python-include.rs".toList, t.py⟩

/-- `Generator`: macroslib/src/lib.rs:326-339.  `F`, `G` are the types of attribute callbacks; `sources` is
`conv_map_source`. The C++ helper headers are not modelled here (see C52). -/
structure Gen (F G : Type) where
  lang : Lang
  reg : Registry
  sources : List SourceId
  width : Nat
  rustfmt : Bool
  removeFiles : Bool
  classCbs : List (Text × F)
  enumCbs : List (Text × F)
  methodCbs : List (Text × G)

variable {F G : Type}

/-- `Generator::new`: macroslib/src/lib.rs:356-436.  `envWidth` is the value of `CARGO_CFG_TARGET_POINTER_WIDTH`. -/
def new (t : Texts) (envWidth : Option Nat) (lang : Lang) : Option (Gen F G) := do
  let (id, reg) ← register [] (builtin t lang)
  pure ⟨lang, reg, [id], envWidth.getD 0, false, false, [], [], []⟩

/-- One call of a builder method. -/
inductive Call (F G : Type)
  | width (n : Nat)
  | rustfmt (b : Bool)
  | removeFiles (b : Bool)
  | merge (id code : Text)
  | classCb (name : Text) (f : F)
  | enumCb (name : Text) (f : F)
  | methodCb (name : Text) (g : G)

/-- `KNOWN_CLASS_DERIVES`: macroslib/src/lib.rs:70-81. -/
def knownClassDerives : List Text :=
  ["Clone".toList, "Copy".toList, "SmartPtrCopy".toList, "PlainClass".toList, "camelCaseAliases".toList]

/-- `contains_key`: macroslib/src/lib.rs:478, 496, 514. -/
def hasKey {α : Type} (l : List (Text × α)) (k : Text) : Bool := l.any fun x => x.1 = k

/-- The builder methods: macroslib/src/lib.rs:440-525. -/
def call (g : Gen F G) : Call F G → Option (Gen F G)
  | .width n => some { g with width := n }
  | .rustfmt b => some { g with rustfmt := b }
  | .removeFiles b => some { g with removeFiles := b }
  | .merge id code => do
    let (i, reg) ← register g.reg ⟨id, code⟩
    pure { g with reg := reg, sources := g.sources ++ [i] }
  | .classCb name f =>
    if knownClassDerives.contains name then none
    else if hasKey g.classCbs name then none
    else some { g with classCbs := g.classCbs ++ [(name, f)] }
  | .enumCb name f =>
    if hasKey g.enumCbs name then none else some { g with enumCbs := g.enumCbs ++ [(name, f)] }
  | .methodCb name f =>
    if hasKey g.methodCbs name then none else some { g with methodCbs := g.methodCbs ++ [(name, f)] }

/-- A chain of builder calls; a panic ends it.  (User code that makes calls of macroslib/src/lib.rs:440-525.) -/
def configure (g : Gen F G) : List (Call F G) → Option (Gen F G)
  | [] => some g
  | c :: cs => match call g c with
    | none => none
    | some g => configure g cs

/-- `JavaConfig::use_null_annotation`: macroslib/src/lib.rs:135-146; `none` is the panic. -/
def useNullAnnotation (importAnnotation : Text) : Option Text :=
  let suffix := ".NonNull".toList
  if suffix.isSuffixOf importAnnotation then some (importAnnotation.take (importAnnotation.length - suffix.length)) else none

/-! ## Running -/

variable {σ ε C E I : Type}

/-- What the backend is told besides the items: macroslib/src/lib.rs:683-695. -/
structure Settings (F G : Type) where
  lang : Lang
  width : Nat
  removeFiles : Bool
  classCbs : List (Text × F)
  enumCbs : List (Text × F)
  methodCbs : List (Text × G)

/-- The parts of the program below the driver. `runRustfmt` is the formatter. -/
structure Back (F G σ ε C E I : Type) where
  emptyMap : σ
  merge : σ → SourceId → Text → Nat → Except ε σ
  isEmpty : σ → Bool
  noConversions : ε
  takeUtils : σ → σ × List Text
  parseFile : SourceId → Text → Except ε (List Item)
  env : Settings F G → Env σ ε C E I
  runRustfmt : Text → Sum Unit (Option Int × Text)

/-- The loop over `conv_map_source`: macroslib/src/lib.rs:730-733.  `none` is a lookup failure (a panic). -/
def mergeAll (b : Back F G σ ε C E I) (reg : Registry) (w : Nat) : σ → List SourceId → Option (Except ε σ)
  | m, [] => some (.ok m)
  | m, id :: ids => match src reg id with
    | none => none
    | some code => match b.merge m id code w with
      | .error e => some (.error e)
      | .ok m => mergeAll b reg w m ids

/-- `init_types_map`: macroslib/src/lib.rs:725-742. -/
def initTypesMap (b : Back F G σ ε C E I) (g : Gen F G) : Option (Except ε (σ × List Text)) :=
  match mergeAll b g.reg g.width b.emptyMap g.sources with
  | none => none
  | some (.error e) => some (.error e)
  | some (.ok m) => if b.isEmpty m then some (.error b.noConversions) else some (.ok (b.takeUtils m))

/-- Parsing the registered source files: macroslib/src/lib.rs:610-612. -/
def parseAll (b : Back F G σ ε C E I) (reg : Registry) : List SourceId → Option (List (Except ε (List Item)))
  | [] => some []
  | id :: ids => match src reg id, parseAll b reg ids with
    | some code, some l => some (b.parseFile id code :: l)
    | _, _ => none

/-- What a run does: its result, the disk afterwards, and what the backend (which writes the foreign files) was given, if
it was started at all. -/
structure Run (σ ε C E I : Type) where
  result : Result ε
  disk : Disk Char
  backend : Option (σ × List (Expandable C E I))

/-- The settings of a generator: macroslib/src/lib.rs:683-695. -/
def settings (g : Gen F G) : Settings F G := ⟨g.lang, g.width, g.removeFiles, g.classCbs, g.enumCbs, g.methodCbs⟩

/-- The environment of the run: macroslib/src/lib.rs:681-713. -/
def envOf (b : Back F G σ ε C E I) (g : Gen F G) : Env σ ε C E I :=
  { b.env (settings g) with rustfmt := if g.rustfmt then some b.runRustfmt else none }

/-- Is the backend started, and with what: macroslib/src/lib.rs:591-695. -/
def backendInput (env : Env σ ε C E I) (w : Nat) (utils : Except ε (σ × List Text)) (files : List (Except ε (List Item))) :
    Option (σ × List (Expandable C E I)) :=
  if w = 0 then none
  else match utils with
  | .error _ => none
  | .ok (m, us) => match stepFiles env ⟨us.flatten, m, []⟩ files with
    | .error _ => none
    | .ok st => some (st.map, st.todo)

/-- The type map after `init_types_map` (irrelevant after an error): macroslib/src/lib.rs:601. -/
def mapOf (b : Back F G σ ε C E I) : Except ε (σ × List Text) → σ
  | .ok x => x.1
  | .error _ => b.emptyMap

/-- `expand_str` on the registered sources: macroslib/src/lib.rs:587-723. -/
def runStr (b : Back F G σ ε C E I) (ft : Faults) (g : Gen F G) (ids : List SourceId) (dst : Path) (d : Disk Char) :
    Run σ ε C E I :=
  if g.width = 0 then ⟨.panic, d, none⟩
  else match initTypesMap b g, parseAll b g.reg ids with
  | some utils, some files =>
    let r := expandStr (envOf b g) ft g.width (mapOf b utils) (utils.map (·.2)) files dst d
    ⟨r.1, r.2, backendInput (envOf b g) g.width utils files⟩
  | _, _ => ⟨.panic, d, none⟩

/-- `format!("{}: {}", crate_name, src)`: macroslib/src/lib.rs:543, 572. -/
def fileId (crateName : Text) (p : Path) : Text := crateName ++ ": ".toList ++ p

/-- Reading and registering the files in order: macroslib/src/lib.rs:561-576.  `none` is a panic. -/
def readAll (crateName : Text) (read : Path → Option Text) : Registry → List Path → Option (List SourceId × Registry)
  | reg, [] => some ([], reg)
  | reg, p :: ps => match read p with
    | none => none
    | some code => match register reg ⟨fileId crateName p, code⟩ with
      | none => none
      | some (id, reg) => match readAll crateName read reg ps with
        | none => none
        | some (ids, reg) => some (id :: ids, reg)

/-- `expand_many`: macroslib/src/lib.rs:556-581. -/
def expandMany (b : Back F G σ ε C E I) (ft : Faults) (read : Path → Option Text) (g : Gen F G) (crateName : Text)
    (srcs : List Path) (dst : Path) (d : Disk Char) : Run σ ε C E I :=
  match readAll crateName read g.reg srcs with
  | none => ⟨.panic, d, none⟩
  | some (ids, reg) => runStr b ft { g with reg := reg } ids dst d

/-- `expand`: macroslib/src/lib.rs:529-550. -/
def expand (b : Back F G σ ε C E I) (ft : Faults) (read : Path → Option Text) (g : Gen F G) (crateName : Text)
    (source : Path) (dst : Path) (d : Disk Char) : Run σ ε C E I :=
  match read source with
  | none => ⟨.panic, d, none⟩
  | some code => match register g.reg ⟨fileId crateName source, code⟩ with
    | none => ⟨.panic, d, none⟩
    | some (id, reg) => runStr b ft { g with reg := reg } [id] dst d

end Flapi.Driver
