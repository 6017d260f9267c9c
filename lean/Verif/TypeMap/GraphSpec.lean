import Verif.TypeMap.Graph
/-! # Conversion chains: specification -/
namespace Flapi.Graph
variable {ν ε : Type}

/-- `es` (edge indices) is a chain of conversions from node `a` to node `b`. -/
def IsPath (g : Graph ν ε) : Nat → Nat → List Nat → Prop
  | a, b, [] => a = b
  | a, b, e :: es => ∃ ed, g.edges[e]? = some ed ∧ ed.src = a ∧ IsPath g ed.dst b es

/-- Endpoints of edges exist. -/
def WF (g : Graph ν ε) : Prop := ∀ e ∈ g.edges, e.src < g.nodes.length ∧ e.dst < g.nodes.length

/-- There is an edge. -/
def Adj (g : Graph ν ε) (a b : Nat) : Prop := ∃ e ∈ g.edges, e.src = a ∧ e.dst = b

theorem mem_neighbors {g : Graph ν ε} {a b : Nat} : b ∈ neighbors g a ↔ Adj g a b := by
  simp [neighbors, Adj, and_assoc]

theorem isEdge_iff {g : Graph ν ε} {a b i : Nat} :
    isEdge g a b i = true ↔ ∃ e, g.edges[i]? = some e ∧ e.src = a ∧ e.dst = b := by
  unfold isEdge
  split <;> simp_all

theorem findEdge_some {g : Graph ν ε} {a b i : Nat} (h : findEdge g a b = some i) :
    ∃ e, g.edges[i]? = some e ∧ e.src = a ∧ e.dst = b :=
  isEdge_iff.1 (List.find?_some h)

theorem findEdge_none {g : Graph ν ε} {a b : Nat} : findEdge g a b = none ↔ ¬ Adj g a b := by
  unfold findEdge
  rw [List.find?_eq_none]
  constructor
  · rintro h ⟨e, he, h1, h2⟩
    obtain ⟨i, hi, rfl⟩ := List.getElem_of_mem he
    refine h i (by simp [hi]) (isEdge_iff.2 ⟨_, List.getElem?_eq_getElem hi, h1, h2⟩)
  · intro h i _ hi
    obtain ⟨e, he, h1, h2⟩ := isEdge_iff.1 hi
    exact h ⟨e, List.mem_of_getElem? he, h1, h2⟩

theorem IsPath.append {g : Graph ν ε} : ∀ {p q : List Nat} {a b c : Nat},
    IsPath g a b p → IsPath g b c q → IsPath g a c (p ++ q)
  | [], _, _, _, _, h, hq => by cases h; simpa using hq
  | _ :: _, _, _, _, _, ⟨ed, h1, h2, h3⟩, hq => ⟨ed, h1, h2, h3.append hq⟩

theorem Adj.edge {g : Graph ν ε} {a b : Nat} (h : Adj g a b) : ∃ e, IsPath g a b [e] := by
  obtain ⟨ed, hm, h1, h2⟩ := h
  obtain ⟨i, hi, rfl⟩ := List.getElem_of_mem hm
  exact ⟨i, _, List.getElem?_eq_getElem hi, h1, h2⟩

end Flapi.Graph
