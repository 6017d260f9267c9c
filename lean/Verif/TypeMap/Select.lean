import Verif.TypeMap.Map
/-! # `TypeMap::map_through_conversion_to_foreign` (model) -/
namespace Flapi.Select
open Graph TMap
variable {τ κ : Type}

/-- `ForeignConversionRule` without the conversion code: macroslib/src/typemap/ty.rs:175-186. -/
structure FRule where
  rustTy : Nat
  inter : Option Nat
deriving DecidableEq, Repr

/-- The two rules of a `ForeignTypeS`: macroslib/src/typemap/ty.rs:156-164. -/
structure FT where
  into : Option FRule
  frm : Option FRule
deriving DecidableEq, Repr

/-- `petgraph::Direction`: `true` = Outgoing (Rust to foreign). -/
abbrev Dir := Bool

/-- The rule of a foreign type for a direction: macroslib/src/typemap.rs:682-697, 816-819. -/
def ruleFor (d : Dir) (f : FT) : Option FRule := if d then f.into else f.frm

/-- Source and target of the wanted conversion: macroslib/src/typemap.rs:684, 692, 826-829. -/
def ends (d : Dir) (rty other : Nat) : Nat × Nat := if d then (rty, other) else (other, rty)

/-- One iteration of the fast search: macroslib/src/typemap.rs:681-716. -/
def fastStep (P : PopFn) (g : Graph (RTy τ) κ) (d : Dir) (rty : Nat) (min : Option (Nat × Nat)) (fi : FT × Nat) :
    Option (Nat × Nat) :=
  match ruleFor d fi.1 with
  | none => min
  | some r => match findConversionPath P g (ends d rty r.rustTy).1 (ends d rty r.rustTy).2 with
    | .ok path => match min with
      | some x => if path.length < x.1 then some (path.length, fi.2) else some x
      | none => some (path.length, fi.2)
    | _ => min

/-- The fast search: macroslib/src/typemap.rs:680-722; result: path length and index of the foreign type. -/
def fastSearch (P : PopFn) (g : Graph (RTy τ) κ) (fts : List FT) (d : Dir) (rty : Nat) : Option (Nat × Nat) :=
  fts.zipIdx.foldl (fastStep P g d rty) none

/-- A candidate of the deep search: path, foreign type, its Rust type, its intermediate type. -/
structure Cand (τ κ : Type) where
  path : PossiblePath τ κ
  ft : Nat
  rustTy : Nat
  inter : Option Nat

/-- Candidates for one bound on the number of steps: macroslib/src/typemap.rs:815-848 (`none` = panic).
`try_build_path` gives the graph back unchanged (C13), so it is not threaded here. -/
def candidates (P : PopFn) (ord : List Nat → List Nat) (rules : List (Rule τ κ)) (tm : TM τ κ) (d : Dir) (rty maxSteps : Nat) :
    List (FT × Nat) → Option (List (Cand τ κ))
  | [] => some []
  | (f, i) :: fs =>
    match ruleFor d f with
    | none => candidates P ord rules tm d rty maxSteps fs
    | some r =>
      match tryBuildPath P ord rules tm (ends d rty r.rustTy).1 (ends d rty r.rustTy).2 maxSteps with
      | .panic => none
      | .none _ => candidates P ord rules tm d rty maxSteps fs
      | .some p _ => (candidates P ord rules tm d rty maxSteps fs).map (⟨p, i, r.rustTy, r.inter⟩ :: ·)

/-- Increasing bounds `n, n+1, …`, `k` of them: macroslib/src/typemap.rs:814, 849-851. -/
def deepen (P : PopFn) (ord : List Nat → List Nat) (rules : List (Rule τ κ)) (tm : TM τ κ) (d : Dir) (rty : Nat) (fts : List FT) :
    Nat → Nat → Option (List (Cand τ κ))
  | _, 0 => some []
  | n, k + 1 =>
    match candidates P ord rules tm d rty n fts.zipIdx with
    | none => none
    | some [] => deepen P ord rules tm d rty fts (n + 1) k
    | some cs => some cs

/-- Removal of the candidates that are intermediate types of others: macroslib/src/typemap.rs:853-864. -/
def retain (cs : List (Cand τ κ)) : List (Cand τ κ) :=
  let inter := cs.filterMap (·.inter)
  cs.filter fun c => !inter.contains c.rustTy

/-- The key function of `min_by_key`, which may extend the type map: macroslib/src/typemap.rs:866-891.
`none` = panic. -/
def candKey (P : PopFn) (ord : List Nat → List Nat) (rules : List (Rule τ κ)) (d : Dir) (tm : TM τ κ) (c : Cand τ κ) :
    Option (Nat × TM τ κ) :=
  match c.inter with
  | none => some (c.path.pathLen, tm)
  | some it =>
    match findOrBuildPath P ord rules tm (if d then c.rustTy else it) (if d then it else c.rustTy) with
    | none => none
    | some (tm', .ok p) => some (c.path.pathLen + p.length, tm')
    | some (tm', .err) => some (c.path.pathLen, tm')
    | some (_, .panic) => none

/-- Keys of all candidates in order (`min_by_key` evaluates the key of each element once). -/
def candKeys (P : PopFn) (ord : List Nat → List Nat) (rules : List (Rule τ κ)) (d : Dir) :
    TM τ κ → List (Cand τ κ) → Option (List (Nat × Cand τ κ) × TM τ κ)
  | tm, [] => some ([], tm)
  | tm, c :: cs =>
    match candKey P ord rules d tm c with
    | none => none
    | some (k, tm1) => match candKeys P ord rules d tm1 cs with
      | none => none
      | some (ks, tm2) => some ((k, c) :: ks, tm2)

/-- `Iterator::min_by_key`: the first element with the least key. -/
def firstMinBy : List (Nat × Cand τ κ) → Option (Nat × Cand τ κ)
  | [] => none
  | x :: r => match firstMinBy r with
    | none => some x
    | some y => if y.1 < x.1 then some y else some x

/-- Deep search, after the creation of possible foreign types: macroslib/src/typemap.rs:811-900.
`none` = panic (an internal assertion). -/
def deepSearch (P : PopFn) (ord : List Nat → List Nat) (rules : List (Rule τ κ)) (tm : TM τ κ) (fts : List FT) (d : Dir)
    (rty : Nat) : Option (Option Nat × TM τ κ) :=
  match deepen P ord rules tm d rty fts 1 maxTryBuildPathSteps with
  | none => none
  | some cs =>
    match candKeys P ord rules d tm (retain cs) with
    | none => none
    | some (ks, tm1) => match firstMinBy ks with
      | none => some (none, tm1)
      | some (_, c) => match mergePath tm1 c.path.newEdges with
        | none => none
        | some tm2 => some (some c.ft, tm2)

/-- State: type map, foreign types, the two caches. -/
structure SS (τ κ : Type) where
  tm : TM τ κ
  fts : List FT
  toCache : Nat → Option Nat
  fromCache : Nat → Option Nat

/-- `HashMap::insert`. -/
def put (f : Nat → Option Nat) (k v : Nat) : Nat → Option Nat := fun i => if i = k then some v else f i

/-- macroslib/src/typemap.rs:649-915 `map_through_conversion_to_foreign`.  `addHints` stands for the creation of possible
foreign types from rules with `to_foreigner_hint` (lines 750-809). -/
def mapToForeign (P : PopFn) (ord : List Nat → List Nat) (rules : List (Rule τ κ)) (addHints : SS τ κ → Dir → SS τ κ)
    (st : SS τ κ) (d : Dir) (fast : Bool) (rty : Nat) : Option (Option Nat × SS τ κ) :=
  match (if d then st.toCache else st.fromCache) rty with
  | some f => some (some f, st)
  | none =>
    match fastSearch P st.tm.g st.fts d rty with
    | some (_, f) =>
      some (some f, if d then { st with toCache := put st.toCache rty f } else { st with fromCache := put st.fromCache rty f })
    | none =>
      if fast then some (none, st)
      else
        let st1 := addHints st d
        match deepSearch P ord rules st1.tm st1.fts d rty with
        | none => none
        | some (r, tm) => some (r, { st1 with tm := tm })

end Flapi.Select
