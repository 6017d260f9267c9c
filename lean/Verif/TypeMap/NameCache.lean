import Verif.TypeMap.Ty
/-!
# Model of the cache behind `normalize_type`

The cache hands out `&'static str` references to the boxed texts it owns (a `transmute` removes the lifetime), so the model has
a heap: a reference is the address of a box, and reading it after the box was freed is undefined behaviour.  `K` is the type of
keys (`syn::Type`, whose equality ignores positions in the source), `N` the type of names, `norm` the computation of a name
(C18).  Simplification: the hash map is a list of entries; that it moves its boxes around when it grows does not move the
texts.
-/
namespace Flapi.NameCache

/-- Boxes that are alive, with their contents (`Box<str>`); addresses are not used again. -/
structure Heap (N : Type) where
  cells : List (Nat × N)
  next : Nat

/-- Reading through a reference; `none`: the box was freed. -/
def Heap.read {N} (h : Heap N) (p : Nat) : Option N := (h.cells.find? fun c => c.1 == p).map (·.2)

/-- `String::into_boxed_str`: macroslib/src/typemap/ast.rs:242. -/
def Heap.alloc {N} (h : Heap N) (v : N) : Nat × Heap N := (h.next, ⟨(h.next, v) :: h.cells, h.next + 1⟩)

/-- Dropping a box. -/
def Heap.free {N} (h : Heap N) (p : Nat) : Heap N := ⟨h.cells.filter fun c => c.1 != p, h.next⟩

/-- `NormalizeTyLifetimesCache`: macroslib/src/typemap/ast.rs:231-239. -/
abbrev Cache (K : Type) := List (K × Nat)

/-- `NormalizeTyLifetimesCache::get`: macroslib/src/typemap/ast.rs:245-247. -/
def Cache.get {K} [DecidableEq K] (c : Cache K) (ty : K) : Option Nat := (c.find? fun e => e.1 = ty).map (·.2)

/-- The state of the process: one cache per thread (`thread_local!`, macroslib/src/typemap/ast.rs:250-255) and the heap. -/
structure St (K N : Type) where
  caches : Nat → Cache K
  heap : Heap N

def St.setCache {K N} (s : St K N) (t : Nat) (c : Cache K) : Nat → Cache K := fun u => if u = t then c else s.caches u

/-- `NormalizeTyLifetimesCache::insert`: macroslib/src/typemap/ast.rs:241-244.  If the key is in the map already, its box is replaced
and freed. -/
def insert {K N} [DecidableEq K] (s : St K N) (t : Nat) (ty : K) (val : N) : Nat × St K N :=
  let (p, h) := s.heap.alloc val
  match (s.caches t).get ty with
  | some old => (p, ⟨s.setCache t ((s.caches t).map fun e => if e.1 = ty then (e.1, p) else e), h.free old⟩)
  | none => (p, ⟨s.setCache t ((ty, p) :: s.caches t), h⟩)

/-- `normalize_type` called on thread `t`: macroslib/src/typemap/ast.rs:297-319. -/
def normalizeType {K N} [DecidableEq K] (norm : K → N) (s : St K N) (t : Nat) (ty : K) : Nat × St K N :=
  match (s.caches t).get ty with
  | some p => (p, s)
  | none => insert s t ty (norm ty)

/-- The end of a thread drops its cache with all boxes (`thread_local!`, macroslib/src/typemap/ast.rs:250-255). -/
def exitThread {K N} (s : St K N) (t : Nat) : St K N :=
  ⟨s.setCache t [], (s.caches t).foldl (fun h e => h.free e.2) s.heap⟩

/-- What happens in a process as far as the names of types are concerned. -/
inductive Op (K : Type)
  /-- a thread asks for the name of a type -/
  | call (t : Nat) (ty : K)
  | exit (t : Nat)

/-- One operation; the reference returned by a call. -/
def step {K N} [DecidableEq K] (norm : K → N) (s : St K N) : Op K → Option Nat × St K N
  | .call t ty => let (p, s') := normalizeType norm s t ty; (some p, s')
  | .exit t => (none, exitThread s t)

/-- A history; the references returned, in order. -/
def run {K N} [DecidableEq K] (norm : K → N) : St K N → List (Op K) → List (Option Nat) × St K N
  | s, [] => ([], s)
  | s, o :: l => let (r, s') := step norm s o; let (rs, s'') := run norm s' l; (r :: rs, s'')

/-- The start of the process. -/
def start {K N} : St K N := ⟨fun _ => [], ⟨[], 0⟩⟩

end Flapi.NameCache
