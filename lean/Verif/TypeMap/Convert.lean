import Verif.TypeMap.Map
import Verif.Core.Template
/-! # `TypeMap::convert_rust_types` (model) -/
namespace Flapi.Convert
open Graph TMap Template

/-- `TypeConvEdge`: macroslib/src/typemap.rs:196-215.  The dependency is an `Rc<RefCell<Option<TokenStream>>>` that clones
of an edge share, so an edge holds the number of the cell. -/
structure EdgeW where
  code : TypeConvCode
  dep : Nat
deriving DecidableEq

/-- The cells holding the support code that has not been emitted yet. -/
abbrev Cells := Nat → Option Text

/-- `RefCell::take`. -/
def clear (cells : Cells) (c : Nat) : Cells := fun i => if i = c then none else cells i

/-- What `dependency.borrow_mut().take()` yields: macroslib/src/typemap.rs:590-592. -/
def takeDep (cells : Cells) (c : Nat) : List (Nat × Text) :=
  match cells c with
  | some d => [(c, d)]
  | none => []

/-- Result of the loop: emitted support code (with the cell it came from), code text, remaining cells. -/
structure Out where
  deps : List (Nat × Text)
  code : Text
  cells : Cells

variable {τ : Type}

/-- The loop at macroslib/src/typemap.rs:589-603; `cur` is the variable read by the next step (`in_var_name` for the first
one, `out_var_name` for all others).  `none` = `unwrap` on a missing edge.  `tyname` is `RustTypeS::typename`. -/
def convLoop (tyname : τ → Text) (g : Graph (RTy τ) EdgeW) (out ret : Text) : Cells → Text → List Nat → Option Out
  | cells, _, [] => some ⟨[], [], cells⟩
  | cells, cur, e :: es =>
    match g.edges[e]? with
    | none => none
    | some ed => match g.nodes[ed.dst]? with
      | none => none
      | some target =>
        let dep := takeDep cells ed.w.dep
        let code := ed.w.code.generateCode out cur (tyname target.ty) ret
        match convLoop tyname g out ret (clear cells ed.w.dep) out es with
        | none => none
        | some r => some ⟨dep ++ r.deps, code ++ r.code, r.cells⟩

/-- `let mut {out} = {in};`: macroslib/src/typemap.rs:580-587. -/
def copyCode (inVar out : Text) : Text := "let mut ".toList ++ out ++ " = ".toList ++ inVar ++ ";".toList

/-- State threaded through conversions. -/
structure CS (τ : Type) where
  tm : TM τ EdgeW
  cells : Cells

/-- Outcome of a conversion request. -/
inductive ConvRes (τ : Type)
  | ok (deps : List (Nat × Text)) (code : Text) (st : CS τ)
  | err (st : CS τ)
  | panic

/-- macroslib/src/typemap.rs:569-605 `convert_rust_types`. -/
def convertRustTypes (tyname : τ → Text) (P : PopFn) (ord : List Nat → List Nat) (rules : List (Rule τ EdgeW)) (st : CS τ)
    (a b : Nat) (inVar out ret : Text) : ConvRes τ :=
  match findOrBuildPath P ord rules st.tm a b with
  | none => .panic
  | some (_, .panic) => .panic
  | some (tm, .err) => .err { st with tm := tm }
  | some (tm, .ok path) =>
    if path.isEmpty ∧ inVar ≠ out then .ok [] (copyCode inVar out) { st with tm := tm }
    else match convLoop tyname tm.g out ret st.cells inVar path with
      | none => .panic
      | some r => .ok r.deps r.code { tm := tm, cells := r.cells }

/-- A request for a conversion. -/
structure Req where
  a : Nat
  b : Nat
  inVar : Text
  out : Text
  ret : Text

/-- A history of requests; failed requests emit nothing.  Returns per request the emitted support code. -/
def convertMany (tyname : τ → Text) (P : PopFn) (ord : List Nat → List Nat) (rules : List (Rule τ EdgeW)) :
    CS τ → List Req → Option (List (List (Nat × Text)) × CS τ)
  | st, [] => some ([], st)
  | st, q :: qs =>
    match convertRustTypes tyname P ord rules st q.a q.b q.inVar q.out q.ret with
    | .panic => none
    | .err st' => (convertMany tyname P ord rules st' qs).map fun r => ([] :: r.1, r.2)
    | .ok deps _ st' => (convertMany tyname P ord rules st' qs).map fun r => (deps :: r.1, r.2)

end Flapi.Convert
