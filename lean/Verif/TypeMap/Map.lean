import Verif.TypeMap.Graph
/-!
# `TypeMap`: nodes, names, rules, speculative search (model)

A Rust type is a normalised name plus a payload `τ` (syntax tree, implemented traits, source id); a rule (edge weight)
is an element of `κ`.  `HashMap`s are functions; iteration over a hash set goes through an arbitrary reordering `ord`.
-/
namespace Flapi.TMap
open Graph

/-- `RustTypeS`, macroslib/src/typemap/ty.rs:17-63: `normalized_name` and the rest (`graph_idx` is the position). -/
structure RTy (τ : Type) where
  name : Text
  ty : τ
deriving DecidableEq, Repr

/-- `conv_graph` and `rust_names_map` of `TypeMap`: macroslib/src/typemap.rs:226-231. -/
structure TM (τ κ : Type) where
  g : Graph (RTy τ) κ
  names : Text → Option Nat

variable {τ κ : Type}

/-- Point update of a name map. -/
def setName (f : Text → Option Nat) (k : Text) (v : Nat) : Text → Option Nat := fun s => if s = k then some v else f s

/-- `TypeMap::default()` has no types and no rules: macroslib/src/typemap.rs:301-313. -/
def empty : TM τ κ := ⟨⟨[], []⟩, fun _ => none⟩

/-- macroslib/src/typemap.rs:940-954 `add_node` (and 956-1013 `find_or_alloc_rust_type*`, macroslib/src/typemap/parse.rs:178-188). -/
def addNode (tm : TM τ κ) (r : RTy τ) : TM τ κ × Nat :=
  match tm.names r.name with
  | some i => (tm, i)
  | none =>
    let (g, i) := Graph.addNode tm.g r
    ({ g := g, names := setName tm.names r.name i }, i)

/-- macroslib/src/typemap.rs:539-550 `add_conversion_rule` (and macroslib/src/typemap/parse.rs:702-706, macroslib/src/typemap/merge.rs:127, 150). -/
def addRule (tm : TM τ κ) (a b : Nat) (w : κ) : TM τ κ := { tm with g := updateEdge tm.g a b w }

/-! ## Merging a freshly parsed table -/

/-- `Rc::make_mut(&mut conv_graph[i]).merge(..)`: macroslib/src/typemap/merge.rs:374. -/
def modifyTy (tm : TM τ κ) (i : Nat) (f : τ → τ) : TM τ κ :=
  { tm with g := { tm.g with nodes := tm.g.nodes.modify i fun r => { r with ty := f r.ty } } }

/-- macroslib/src/typemap/merge.rs:358-377 `add_new_nodes`; also returns `new_node_to_our_map` as a list. -/
def addNewNodes (mrg : τ → τ → τ) (tm : TM τ κ) : List (RTy τ) → TM τ κ × List Nat
  | [] => (tm, [])
  | r :: rs =>
    let (tm1, i) := addNode tm r
    let tm2 := modifyTy tm1 i (fun t => mrg t r.ty)
    let (tm3, is) := addNewNodes mrg tm2 rs
    (tm3, i :: is)

/-- Edges of the new table leaving the nodes listed in `order`, in the order visited by `add_new_edges`. -/
def edgesInOrder (new : Graph (RTy τ) κ) (order : List Nat) : List (Edge κ) :=
  order.flatMap fun a => new.edges.reverse.filter (fun e => e.src == a)

/-- macroslib/src/typemap/merge.rs:379-409 `add_new_edges`; `order` is the iteration order of the index map.
`none` = `expect("At this step we should have full map new -> our")`. -/
def addNewEdges (tm : TM τ κ) (map : List Nat) : List (Edge κ) → Option (TM τ κ)
  | [] => some tm
  | e :: es =>
    match map[e.src]?, map[e.dst]? with
    | some a, some b => addNewEdges (addRule tm a b e.w) map es
    | _, _ => none

/-- macroslib/src/typemap/merge.rs:24-62 `TypeMap::merge`, the part on nodes and edges. -/
def mergeTable (mrg : τ → τ → τ) (order : List Nat) (tm : TM τ κ) (new : Graph (RTy τ) κ) : Option (TM τ κ) :=
  let (tm1, map) := addNewNodes mrg tm new.nodes
  addNewEdges tm1 map (edgesInOrder new order)

/-! ## Speculative extension -/

/-- `TypeGraphSnapshot`: macroslib/src/typemap.rs:391-397. -/
structure Snap (τ κ : Type) where
  g : Graph (RTy τ) κ
  names : Text → Option Nat
  newNames : Text → Option Nat
  newNodes : List Nat
  newEdges : List Nat

/-- macroslib/src/typemap.rs:400-408 `TypeGraphSnapshot::new`. -/
def snapNew (tm : TM τ κ) : Snap τ κ := ⟨tm.g, tm.names, fun _ => none, [], []⟩

/-- macroslib/src/typemap.rs:410-438 `node_for_ty`. -/
def nodeForTy (s : Snap τ κ) (r : RTy τ) : Snap τ κ × Nat :=
  match s.names r.name with
  | some i => (s, i)
  | none =>
    match s.newNames r.name with
    | some i => (s, i)
    | none =>
      let (g, i) := Graph.addNode s.g r
      ({ s with g := g, newNames := setName s.newNames r.name i, newNodes := s.newNodes ++ [i] }, i)

/-- macroslib/src/typemap.rs:440-449 `find_type_by_name`. -/
def findTypeByName (s : Snap τ κ) (n : Text) : Option (RTy τ) :=
  match s.names n with
  | some i => s.g.nodes[i]?
  | none => match s.newNames n with
    | some i => s.g.nodes[i]?
    | none => none

/-- macroslib/src/typemap.rs:451-456 `TypeGraphSnapshot::add_edge`. -/
def snapAddEdge (s : Snap τ κ) (a b : Nat) (w : κ) : Snap τ κ :=
  match findEdge s.g a b with
  | some _ => s
  | none =>
    let (g, i) := Graph.addEdge s.g a b w
    { s with g := g, newEdges := s.newEdges ++ [i] }

/-- macroslib/src/typemap.rs:459-468 `Drop for TypeGraphSnapshot`. -/
def restore (s : Snap τ κ) : Graph (RTy τ) κ :=
  s.newNodes.reverse.foldl removeNode (s.newEdges.reverse.foldl removeEdge s.g)

/-- `PossiblePath`: macroslib/src/typemap.rs:342-346. -/
structure PossiblePath (τ κ : Type) where
  pathLen : Nat
  newEdges : List (RTy τ × RTy τ × κ)

/-- Endpoints and weight of an edge: macroslib/src/typemap.rs:355-370. -/
def pathEntry (s : Snap τ κ) (e : Nat) : Option (RTy τ × RTy τ × κ) :=
  match s.g.edges[e]? with
  | some ed => match s.g.nodes[ed.src]?, s.g.nodes[ed.dst]? with
    | some a, some b => some (a, b, ed.w)
    | _, _ => none
  | none => none

/-- macroslib/src/typemap.rs:352-376 `PossiblePath::new` (an index out of range would panic; such entries are dropped
here and proved not to occur). -/
def possiblePath (s : Snap τ κ) (path : List Nat) : PossiblePath τ κ :=
  { pathLen := path.length
    newEdges := (path.filter s.newEdges.contains).filterMap (pathEntry s) }

/-- macroslib/src/typemap.rs:1135-1144 `merge_path_to_conv_map`; `none` = the `assert!` fails. -/
def mergePath : TM τ κ → List (RTy τ × RTy τ × κ) → Option (TM τ κ)
  | tm, [] => some tm
  | tm, (a, b, w) :: rest =>
    let (tm1, i) := addNode tm a
    let (tm2, j) := addNode tm1 b
    match findEdge tm2.g i j with
    | some _ => none
    | none => mergePath { tm2 with g := (Graph.addEdge tm2.g i j w).1 } rest

/-- `petgraph::algo::has_path_connecting`: depth-first search with an explicit stack; `none` = allowance exhausted. -/
def dfsLoop {ν ε : Type} (g : Graph ν ε) (goal : Nat) : Nat → List Nat → List Nat → Option Bool
  | 0, _, _ => none
  | _ + 1, [], _ => some false
  | n + 1, v :: st, vis =>
    if v ∈ vis then dfsLoop g goal n st vis
    else if v = goal then some true
    else dfsLoop g goal n (((neighbors g v).filter (fun x => decide (x ∉ v :: vis))).reverse ++ st) (v :: vis)

/-- `petgraph::algo::has_path_connecting` as used at macroslib/src/typemap.rs:1219-1222. -/
def hasPath {ν ε : Type} (g : Graph ν ε) (a b : Nat) : Option Bool := dfsLoop g b (g.edges.length + 2) [a] []

/-- A generic rule seen from the search: `GenericTypeConv::is_conv_possible` plus `code_for_conversion`, given the type
to convert, the goal type and the name lookup (macroslib/src/typemap.rs:1198-1216). -/
abbrev Rule (τ κ : Type) := RTy τ → RTy τ → (Text → Option (RTy τ)) → Option (RTy τ × κ)

/-- State or result of the rounds of `try_build_path`. -/
inductive TB (τ κ : Type)
  | cont (s : Snap τ κ) (next : List Nat)
  | found (s : Snap τ κ) (path : List Nat)
  | panic

/-- `FxHashSet::insert`. -/
def insertSet (l : List Nat) (x : Nat) : List Nat := if x ∈ l then l else l ++ [x]

/-- One generic rule for one type: macroslib/src/typemap.rs:1191-1248. -/
def tryRule (P : PopFn) (start goal : Nat) (goalTy : RTy τ) (fromIdx : Nat) (frm : RTy τ)
    (s : Snap τ κ) (next : List Nat) (rule : Rule τ κ) : TB τ κ :=
  match rule frm goalTy (findTypeByName s) with
  | none => .cont s next
  | some (to, w) =>
    if frm.name = to.name then .cont s next
    else
      let (s1, toIdx) := nodeForTy s to
      let s2 := snapAddEdge s1 fromIdx toIdx w
      match hasPath s2.g toIdx goal with
      | none => .panic
      | some true => match findConversionPath P s2.g start goal with
        | .ok path => .found s2 path
        | _ => .panic
      | some false => .cont s2 (insertSet next toIdx)

/-- All generic rules for one type. -/
def tryRules (P : PopFn) (start goal : Nat) (goalTy : RTy τ) (fromIdx : Nat) (frm : RTy τ)
    (s : Snap τ κ) (next : List Nat) : List (Rule τ κ) → TB τ κ
  | [] => .cont s next
  | r :: rs => match tryRule P start goal goalTy fromIdx frm s next r with
    | .cont s next => tryRules P start goal goalTy fromIdx frm s next rs
    | x => x

/-- All types of one round: macroslib/src/typemap.rs:1183-1249. -/
def tryRound (P : PopFn) (rules : List (Rule τ κ)) (start goal : Nat) (goalTy : RTy τ)
    (s : Snap τ κ) (next : List Nat) : List Nat → TB τ κ
  | [] => .cont s next
  | a :: as => match s.g.nodes[a]? with
    | none => .panic
    | some frm =>
      match tryRules P start goal goalTy a frm s ((neighbors s.g a).foldl insertSet next) rules with
      | .cont s next => tryRound P rules start goal goalTy s next as
      | x => x

/-- The rounds: macroslib/src/typemap.rs:1166-1252. `ord` is the iteration order of a hash set. -/
def tryRounds (P : PopFn) (ord : List Nat → List Nat) (rules : List (Rule τ κ)) (start goal : Nat) (goalTy : RTy τ) :
    Nat → Snap τ κ → List Nat → TB τ κ
  | 0, s, cur => .cont s cur
  | n + 1, s, cur =>
    if cur.isEmpty then .cont s cur
    else match tryRound P rules start goal goalTy s [] (ord cur) with
      | .cont s next => tryRounds P ord rules start goal goalTy n s next
      | x => x

/-- Result of `try_build_path`, with the graph as the dropped snapshot leaves it. -/
inductive BuildRes (τ κ : Type)
  | some (p : PossiblePath τ κ) (g : Graph (RTy τ) κ)
  | none (g : Graph (RTy τ) κ)
  | panic

/-- macroslib/src/typemap.rs:1146-1255 `try_build_path`. -/
def tryBuildPath (P : PopFn) (ord : List Nat → List Nat) (rules : List (Rule τ κ)) (tm : TM τ κ) (start goal maxSteps : Nat) :
    BuildRes τ κ :=
  match tm.g.nodes[goal]? with
  | none => .panic
  | some goalTy =>
    match tryRounds P ord rules start goal goalTy maxSteps (snapNew tm) [start] with
    | .cont s _ => .none (restore s)
    | .found s path => .some (possiblePath s path) (restore s)
    | .panic => .panic

/-- macroslib/src/typemap.rs:42-46. -/
def maxTryBuildPathSteps : Nat := 7

/-- macroslib/src/typemap.rs:623-646 `build_path_if_possible`. -/
def buildPathIfPossible (P : PopFn) (ord : List Nat → List Nat) (rules : List (Rule τ κ)) (tm : TM τ κ) (start goal : Nat) :
    Option (TM τ κ) :=
  match tryBuildPath P ord rules tm start goal maxTryBuildPathSteps with
  | .some p g => mergePath { tm with g := g } p.newEdges
  | .none g => some { tm with g := g }
  | .panic => none

/-- macroslib/src/typemap.rs:552-567 `find_or_build_path` (`none` = panic). -/
def findOrBuildPath (P : PopFn) (ord : List Nat → List Nat) (rules : List (Rule τ κ)) (tm : TM τ κ) (a b : Nat) :
    Option (TM τ κ × PathRes) :=
  match findPath P tm.g a b with
  | .err => match buildPathIfPossible P ord rules tm a b with
    | none => none
    | some tm' => some (tm', findPath P tm'.g a b)
  | r => some (tm, r)

end Flapi.TMap
