import Verif.Base.Text
/-!
# The conversion graph (`petgraph::Graph`) and the shortest path search (model)

`petgraph` 0.6 is a dependency whose source is not in `/repo`; the operations used by `macroslib/src/typemap.rs` are
transcribed from the documented behaviour of `petgraph::graph::Graph` and `petgraph::algo::astar`.
-/
namespace Flapi.Graph

/-- A directed edge with its weight (`TypeConvEdge`, macroslib/src/typemap.rs:196-215). -/
structure Edge (ε : Type) where
  src : Nat
  dst : Nat
  w : ε
deriving DecidableEq, Repr

/-- `TypesConvGraph` (macroslib/src/typemap.rs:227): node and edge indices are positions in these lists. -/
structure Graph (ν ε : Type) where
  nodes : List ν
  edges : List (Edge ε)
deriving DecidableEq, Repr

variable {ν ε : Type}

/-- `Graph::add_node`, used at macroslib/src/typemap.rs:425, 948. -/
def addNode (g : Graph ν ε) (v : ν) : Graph ν ε × Nat :=
  ({ g with nodes := g.nodes ++ [v] }, g.nodes.length)

/-- `Graph::add_edge`, used at macroslib/src/typemap.rs:453, 1142. -/
def addEdge (g : Graph ν ε) (a b : Nat) (w : ε) : Graph ν ε × Nat :=
  ({ g with edges := g.edges ++ [⟨a, b, w⟩] }, g.edges.length)

/-- Does edge number `i` go from `a` to `b`? -/
def isEdge (g : Graph ν ε) (a b i : Nat) : Bool :=
  match g.edges[i]? with
  | some e => e.src == a && e.dst == b
  | none => false

/-- `Graph::find_edge`: the adjacency list of a node starts with the most recently added edge.
Used at macroslib/src/typemap.rs:452, 1117, 1141. -/
def findEdge (g : Graph ν ε) (a b : Nat) : Option Nat :=
  (List.range g.edges.length).reverse.find? (isEdge g a b)

/-- `Graph::update_edge`: overwrite the weight of the existing edge or add one.
Used at macroslib/src/typemap.rs:549, macroslib/src/typemap/merge.rs:127, 150, 402. -/
def updateEdge (g : Graph ν ε) (a b : Nat) (w : ε) : Graph ν ε :=
  match findEdge g a b with
  | some i => { g with edges := g.edges.set i ⟨a, b, w⟩ }
  | none => (addEdge g a b w).1

/-- `Vec::swap_remove`. -/
def swapRemove {α : Type} (l : List α) (i : Nat) : List α :=
  match l.getLast? with
  | none => l
  | some x => if i < l.length then (l.set i x).dropLast else l

/-- `Graph::remove_edge` (the last edge takes the freed index), used at macroslib/src/typemap.rs:462. -/
def removeEdge (g : Graph ν ε) (i : Nat) : Graph ν ε :=
  { g with edges := swapRemove g.edges i }

/-- Newest edge leaving (`out = true`) or entering the node. -/
def incident (g : Graph ν ε) (out : Bool) (a : Nat) : Option Nat :=
  (List.range g.edges.length).reverse.find? fun i =>
    match g.edges[i]? with
    | some e => if out then e.src == a else e.dst == a
    | none => false

/-- The edge removal loops of `Graph::remove_node`; every round removes an edge so `g.edges.length` rounds are enough. -/
def removeIncident (out : Bool) (a : Nat) : Nat → Graph ν ε → Graph ν ε
  | 0, g => g
  | n + 1, g =>
    match incident g out a with
    | none => g
    | some i => removeIncident out a n (removeEdge g i)

/-- `Graph::remove_node`: remove incident edges, swap-remove the node, redirect edges of the relocated node.
Used at macroslib/src/typemap.rs:465. -/
def removeNode (g : Graph ν ε) (a : Nat) : Graph ν ε :=
  if a < g.nodes.length then
    let g1 := removeIncident true a g.edges.length g
    let g2 := removeIncident false a g1.edges.length g1
    let old := g2.nodes.length - 1
    let fix := fun v => if v = old then a else v
    { nodes := swapRemove g2.nodes a,
      edges := if a = old then g2.edges else g2.edges.map fun e => ⟨fix e.src, fix e.dst, e.w⟩ }
  else g

/-- Targets of the edges leaving a node, newest edge first (`Graph::edges` / `neighbors_directed(_, Outgoing)`). -/
def neighbors (g : Graph ν ε) (a : Nat) : List Nat :=
  (g.edges.reverse.filter (fun e => e.src == a)).map (·.dst)

/-! ## `petgraph::algo::astar` -/

/-- `BinaryHeap::pop` on `MinScored` pairs: some element with the least score, any of those. -/
structure PopFn where
  pop : List (Nat × Nat) → Option ((Nat × Nat) × List (Nat × Nat))
  pop_nil : pop [] = none
  pop_spec : ∀ h, h ≠ [] → ∃ x r, pop h = some (x, r) ∧ h.Perm (x :: r) ∧ ∀ y ∈ h, x.1 ≤ y.1

/-- Local variables of `astar`: `visit_next`, `scores`, `estimate_scores`, `path_tracker.came_from`. -/
structure AState where
  heap : List (Nat × Nat)
  scores : Nat → Option Nat
  est : Nat → Option Nat
  pred : Nat → Option Nat

/-- Point update of a map. -/
def upd (f : Nat → Option Nat) (k v : Nat) : Nat → Option Nat := fun i => if i = k then some v else f i

/-- The heuristic of macroslib/src/typemap.rs:1110: `|idx| if idx != from { 1 } else { 0 }`. -/
def heur (start v : Nat) : Nat := if v = start then 0 else 1

/-- Relaxing one out-going edge of `node` in `astar` (edge cost 1, macroslib/src/typemap.rs:1109). -/
def relax1 (start node nodeScore : Nat) (st : AState) (next : Nat) : AState :=
  let go : AState :=
    { st with
      scores := upd st.scores next (nodeScore + 1)
      pred := upd st.pred next node
      heap := (nodeScore + 1 + heur start next, next) :: st.heap }
  match st.scores next with
  | some old => if old ≤ nodeScore + 1 then st else go
  | none => go

/-- `PathTracker::reconstruct_path_to`; `none` = still not at a node without predecessor after `n` steps. -/
def reconstruct (pred : Nat → Option Nat) : Nat → Nat → List Nat → Option (List Nat)
  | 0, _, _ => none
  | n + 1, v, acc =>
    match pred v with
    | none => some (v :: acc)
    | some u => reconstruct pred n u (v :: acc)

/-- Outcome of the search loop. `diverged` = the step allowance ran out (proved impossible). -/
inductive Res
  | found (nodes : List Nat)
  | notFound
  | diverged
deriving DecidableEq, Repr

/-- Main loop of `astar`. -/
def astarLoop (P : PopFn) (g : Graph ν ε) (start goal : Nat) : Nat → AState → Res
  | 0, _ => .diverged
  | n + 1, st =>
    match P.pop st.heap with
    | none => .notFound
    | some ((es, node), rest) =>
      let st := { st with heap := rest }
      if node = goal then
        match reconstruct st.pred (g.nodes.length + 1) node [] with
        | some p => .found p
        | none => .diverged
      else
        let skip := match st.est node with
          | some e => decide (e ≤ es)
          | none => false
        if skip then astarLoop P g start goal n st
        else
          let st := { st with est := upd st.est node es }
          let sc := (st.scores node).getD 0
          astarLoop P g start goal n ((neighbors g node).foldl (relax1 start node sc) st)

/-- Initial state of `astar`. -/
def astarInit (start : Nat) : AState :=
  { heap := [(heur start start, start)], scores := upd (fun _ => none) start 0, est := fun _ => none,
    pred := fun _ => none }

/-- `petgraph::algo::astar` as called at macroslib/src/typemap.rs:1106-1110. -/
def astar (P : PopFn) (g : Graph ν ε) (start goal : Nat) : Res :=
  astarLoop P g start goal (g.nodes.length + 1) (astarInit start)

/-- Outcome of `find_conversion_path`. -/
inductive PathRes
  | ok (edges : List Nat)
  | err
  | panic
deriving DecidableEq, Repr

/-- The edges between consecutive nodes: macroslib/src/typemap.rs:1112-1120 (`expect` = `none`). -/
def edgesOfNodes (g : Graph ν ε) : List Nat → Option (List Nat)
  | a :: b :: r =>
    match findEdge g a b, edgesOfNodes g (b :: r) with
    | some e, some es => some (e :: es)
    | _, _ => none
  | _ => some []

/-- macroslib/src/typemap.rs:1093-1133 `find_conversion_path`. -/
def findConversionPath (P : PopFn) (g : Graph ν ε) (a b : Nat) : PathRes :=
  match astar P g a b with
  | .found ns => match edgesOfNodes g ns with
    | some es => .ok es
    | none => .panic
  | .notFound => .err
  | .diverged => .panic

/-- macroslib/src/typemap.rs:607-621 `TypeMap::find_path`. -/
def findPath (P : PopFn) (g : Graph ν ε) (a b : Nat) : PathRes :=
  if a = b then .ok [] else findConversionPath P g a b

end Flapi.Graph
