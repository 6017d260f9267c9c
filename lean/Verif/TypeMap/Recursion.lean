import Verif.TypeMap.Requests
/-!
# The recursion of `map_type` through generic rules (model)

Mapping a Rust type may instantiate a generic rule, the helper macros of the rule ask for the mapping of other types, and so
on (`map_type` → `do_map_type` → `subst_generic_params` → `swig_i_type` … → `map_type`).  Here the recursion is written with an
explicit *oracle* for the inner questions; `solve n` unfolds it `n` times.  What a search finds, what merging a rule or C
items does to the state, and which rule fits are parameters (modelled in `Select`, `MapType`, `MergeRule`); the instantiation and
the answers of the back ends are those of `Instantiate` and `Requests`.  After an error the state is not meaningful (the run
ends); a panic is reported as an error.
-/
namespace Flapi.Recursion
open Flapi Flapi.Macro Flapi.Inst Flapi.Requests

/-- A foreign type found for a Rust type (macroslib/src/cpp/mod.rs:92-184, macroslib/src/java_jni/map_type.rs:26-125): one without conversion code, one
through an intermediate type (the answer is built from the mapping of that type), or none. -/
inductive Hit
  | direct (i : Info)
  | via (inner : PTy) (combine : Info → Except Er Info)
  | fail

/-- What the first search says: a result, or the generic rule that fits with the types for its parameters
(macroslib/src/cpp/map_type.rs:30-54). -/
inductive Look
  | hit (h : Hit)
  | rule (i : Nat) (params : Text → Option PTy)

/-- The part of the generator that is not spelled out here.  `fields` are the types of the fields, arguments and constants of C
items. -/
structure Sys (σ κ : Type) where
  java : Bool
  u : Unicode
  norm : PTy → Text
  disp : PTy → Text
  parse : Text → Option PTy
  noNull : Text → Text
  parseC : Text → Option κ
  fields : κ → List PTy
  rules : List (Rule κ)
  look : σ → PTy → Dir → Look × σ
  finish : σ → PTy → Dir → Hit × σ
  conv : σ → PTy → PTy → Text → Text → Except Er Text × σ
  regC : σ → Text × κ → Except Er Unit × σ
  addC : σ → Text × κ → List Info → Except Er Unit × σ
  merge : σ → Rule κ → Dir → Except Er Unit × σ

/-- An answer to "map this type in this direction". -/
abbrev Oracle (σ : Type) := σ → PTy → Dir → Except Er Info × σ

variable {σ κ : Type}

/-- The surroundings of an instantiation. -/
def Sys.env (S : Sys σ κ) (params : Text → Option PTy) : Inst.Env := ⟨S.u, S.norm, S.disp, S.parse, params⟩

/-- The back end as an answering machine: macroslib/src/cpp/map_type.rs:162-270, macroslib/src/java_jni/map_type.rs:240-324. -/
def Sys.backend (S : Sys σ κ) (O : Oracle σ) (d : Dir) : Backend σ :=
  if S.java then javaB S.noNull ⟨O, S.conv⟩ d else cppB ⟨O, S.conv⟩ d

/-- What is done with a foreign type that was found: macroslib/src/cpp/mod.rs:92-184, macroslib/src/java_jni/map_type.rs:26-125. -/
def follow (O : Oracle σ) (s : σ) (d : Dir) : Hit → Except Er Info × σ
  | .direct i => (.ok i, s)
  | .fail => (.error .backend, s)
  | .via inner combine =>
    match O s inner d with
    | (.ok i, s') => (combine i, s')
    | (.error e, s') => (.error e, s')

/-- The mapping of the field types of C items, one after the other: `map_repr_c_type`, macroslib/src/cpp/map_type.rs:306-330, called from
macroslib/src/cpp/cpp_code.rs:317-333. -/
def askAll (O : Oracle σ) : σ → List PTy → Except Er (List Info) × σ
  | s, [] => (.ok [], s)
  | s, t :: ts =>
    match O s t .incoming with
    | (.error e, s') => (.error e, s')
    | (.ok i, s') =>
      match askAll O s' ts with
      | (.error e, s'') => (.error e, s'')
      | (.ok is, s'') => (.ok (i :: is), s'')

/-- `merge_c_types`: macroslib/src/cpp/mod.rs:555-570: register the types, then map the types of their fields and write them. -/
def mergeC (S : Sys σ κ) (O : Oracle σ) (s : σ) : Option (Text × κ) → Except Er Unit × σ
  | none => (.ok (), s)
  | some c =>
    match S.regC s c with
    | (.error e, s1) => (.error e, s1)
    | (.ok _, s1) =>
      match askAll O s1 (S.fields c.2) with
      | (.error e, s2) => (.error e, s2)
      | (.ok is, s2) => S.addC s2 c is

/-- The C items of the rule, instantiated and merged (C++ only; Java refuses rules with C items): macroslib/src/cpp/map_type.rs:61-84,
macroslib/src/java_jni/map_type.rs:157-163. -/
def instC (S : Sys σ κ) (O : Oracle σ) (params : Text → Option PTy) (d : Dir) (s : σ) (r : Rule κ) : Except Er Unit × σ :=
  if S.java then (if r.cTypes.isSome || r.genericC.isSome then .error .backend else .ok (), s)
  else
    match substToCItems (S.env params) S.parseC (S.backend O d) s r with
    | .ok (c, s') => mergeC S O s' c
    | .error e => (.error e, s)
    | _ => (.error .backend, s)

/-- Instantiating a rule and merging the result: macroslib/src/cpp/map_type.rs:60-99, macroslib/src/java_jni/map_type.rs:157-181. -/
def inst (S : Sys σ κ) (O : Oracle σ) (params : Text → Option PTy) (d : Dir) (s : σ) (r : Rule κ) : Except Er Unit × σ :=
  match instC S O params d s r with
  | (.error e, s1) => (.error e, s1)
  | (.ok _, s1) =>
    match substGenericParams (S.env params) (S.backend O d) d s1 r with
    | .ok (r', s2) => S.merge s2 r' d
    | .error e => (.error e, s1)
    | _ => (.error .backend, s1)

/-- `map_type`, with the inner questions answered by `O`: macroslib/src/cpp/map_type.rs:19-140, macroslib/src/java_jni/map_type.rs:26-221. -/
def step (S : Sys σ κ) (O : Oracle σ) : Oracle σ := fun s t d =>
  match S.look s t d with
  | (.hit h, s1) => follow O s1 d h
  | (.rule i params, s1) =>
    match S.rules[i]? with
    | none => (.error .backend, s1)
    | some r =>
      match inst S O params d s1 r with
      | (.error e, s2) => (.error e, s2)
      | (.ok _, s2) => follow O (S.finish s2 t d).2 d (S.finish s2 t d).1

/-- `map_type` unfolded `n` times; questions below that are answered by `bot`. -/
def solve (S : Sys σ κ) (bot : Oracle σ) : Nat → Oracle σ
  | 0 => bot
  | n + 1 => step S (solve S bot n)

end Flapi.Recursion
