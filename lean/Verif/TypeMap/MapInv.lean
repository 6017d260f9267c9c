import Verif.TypeMap.Map
import Verif.TypeMap.AStarProps
/-! # Invariants of the type map and of the speculative search (helper lemmas) -/
namespace Flapi.TMap
open Graph
variable {τ κ : Type}

/-- Well-formed type map: rules connect existing types, at most one rule per ordered pair, and names are in bijection with
types. -/
structure Ok (tm : TM τ κ) : Prop where
  wf : WF tm.g
  byName : ∀ (i : Nat) r, tm.g.nodes[i]? = some r → tm.names r.name = some i
  valid : ∀ s (i : Nat), tm.names s = some i → ∃ r, tm.g.nodes[i]? = some r ∧ r.name = s
  simple : ∀ (i j : Nat) e f, tm.g.edges[i]? = some e → tm.g.edges[j]? = some f → e.src = f.src → e.dst = f.dst → i = j

theorem ok_empty : Ok (empty : TM τ κ) := by
  constructor <;> simp [empty, WF]

theorem Ok.lt {tm : TM τ κ} (h : Ok tm) {s : Text} {i : Nat} (hs : tm.names s = some i) : i < tm.g.nodes.length := by
  obtain ⟨r, hr, _⟩ := h.valid s i hs
  exact (List.getElem?_eq_some_iff.1 hr).1

theorem WF.addNode {ν ε} {g : Graph ν ε} (h : WF g) (v : ν) : WF (Graph.addNode g v).1 := by
  intro e he
  have := h e he
  simp [Graph.addNode]; omega

theorem WF.addEdge {ν ε} {g : Graph ν ε} (h : WF g) {a b : Nat} (ha : a < g.nodes.length) (hb : b < g.nodes.length) (w : ε) :
    WF (Graph.addEdge g a b w).1 := by
  intro e he
  simp only [Graph.addEdge, List.mem_append, List.mem_singleton] at he
  rcases he with he | rfl
  · exact h e he
  · exact ⟨ha, hb⟩

theorem addNode_ok {tm : TM τ κ} (h : Ok tm) (r : RTy τ) : Ok (addNode tm r).1 := by
  unfold addNode
  cases hn : tm.names r.name with
  | some i => exact h
  | none =>
    constructor
    · exact WF.addNode h.wf r
    · intro i q hq
      simp only [Graph.addNode] at hq ⊢
      rw [List.getElem?_append] at hq
      unfold setName
      split at hq
      · have := h.byName i q hq
        split
        · rename_i e; rw [e, hn] at this; cases this
        · exact this
      · rename_i hlt
        have h0 : i - tm.g.nodes.length = 0 := by
          have := (List.getElem?_eq_some_iff.1 hq).1; simp at this; omega
        rw [h0] at hq; simp at hq; subst hq
        simp; omega
    · intro s i hs
      simp only [Graph.addNode, setName] at hs ⊢
      split at hs
      · cases hs; subst_vars; exact ⟨r, by simp, rfl⟩
      · obtain ⟨q, hq, hqn⟩ := h.valid s i hs
        refine ⟨q, ?_, hqn⟩
        rw [List.getElem?_append_left (List.getElem?_eq_some_iff.1 hq).1]; exact hq
    · exact h.simple

theorem addNode_names {tm : TM τ κ} (r : RTy τ) : (addNode tm r).1.names r.name = some (addNode tm r).2 := by
  unfold addNode
  cases hn : tm.names r.name <;> simp [hn, setName]

theorem addNode_mono {tm : TM τ κ} (r : RTy τ) {s : Text} {i : Nat} (h : tm.names s = some i) :
    (addNode tm r).1.names s = some i := by
  unfold addNode
  cases hn : tm.names r.name with
  | some j => exact h
  | none =>
    simp only [setName]
    split
    · subst_vars; rw [hn] at h; cases h
    · exact h

theorem addNode_edges {tm : TM τ κ} (r : RTy τ) : (addNode tm r).1.g.edges = tm.g.edges := by
  unfold addNode
  cases hn : tm.names r.name <;> simp [Graph.addNode]

theorem addNode_nodes {tm : TM τ κ} (r : RTy τ) : ∃ x, (addNode tm r).1.g.nodes = tm.g.nodes ++ x := by
  unfold addNode
  cases hn : tm.names r.name
  · exact ⟨[r], rfl⟩
  · exact ⟨[], by simp⟩

theorem addEdge_ok {tm : TM τ κ} (h : Ok tm) {a b : Nat} (ha : a < tm.g.nodes.length) (hb : b < tm.g.nodes.length) (w : κ)
    (hno : ¬ Adj tm.g a b) : Ok { tm with g := (Graph.addEdge tm.g a b w).1 } := by
  constructor
  · exact WF.addEdge h.wf ha hb w
  · exact h.byName
  · exact h.valid
  · intro i j e f hi hj h1 h2
    simp only [Graph.addEdge] at hi hj
    rw [List.getElem?_append] at hi hj
    have key : ∀ (k : Nat) (x : Edge κ), tm.g.edges[k]? = some x → ¬ (x.src = a ∧ x.dst = b) := by
      intro k x hx ⟨e1, e2⟩
      exact hno ⟨x, List.mem_of_getElem? hx, e1, e2⟩
    have last : ∀ (k : Nat) (x : Edge κ), ([⟨a, b, w⟩] : List (Edge κ))[k]? = some x → k = 0 ∧ x.src = a ∧ x.dst = b := by
      intro k x hx
      have := (List.getElem?_eq_some_iff.1 hx).1
      simp at this; subst this; simp at hx; subst hx; simp
    split at hi <;> split at hj
    · exact h.simple i j e f hi hj h1 h2
    · obtain ⟨_, e1, e2⟩ := last _ _ hj
      exact absurd ⟨h1.trans e1, h2.trans e2⟩ (key i e hi)
    · obtain ⟨_, e1, e2⟩ := last _ _ hi
      exact absurd ⟨h1.symm.trans e1, h2.symm.trans e2⟩ (key j f hj)
    · obtain ⟨e0, _⟩ := last _ _ hi
      obtain ⟨f0, _⟩ := last _ _ hj
      omega

theorem addRule_ok {tm : TM τ κ} (h : Ok tm) {a b : Nat} (ha : a < tm.g.nodes.length) (hb : b < tm.g.nodes.length) (w : κ) :
    Ok (addRule tm a b w) := by
  unfold addRule updateEdge
  cases hf : findEdge tm.g a b with
  | none => exact addEdge_ok h ha hb w (findEdge_none.1 hf)
  | some i =>
    obtain ⟨e0, g1, g2, g3⟩ := findEdge_some hf
    constructor
    · intro e he
      rcases List.mem_or_eq_of_mem_set he with he | rfl
      · exact h.wf e he
      · exact ⟨ha, hb⟩
    · exact h.byName
    · exact h.valid
    · intro x y e f hx hy h1 h2
      have key : ∀ (k : Nat) e, (tm.g.edges.set i ⟨a, b, w⟩)[k]? = some e →
          ∃ e', tm.g.edges[k]? = some e' ∧ e'.src = e.src ∧ e'.dst = e.dst := by
        intro k e he
        rw [List.getElem?_set] at he
        split at he
        · rename_i hik
          subst hik
          split at he
          · cases he; exact ⟨e0, g1, g2, g3⟩
          · cases he
        · exact ⟨e, he, rfl, rfl⟩
      obtain ⟨e', k1, k2, k3⟩ := key x e hx
      obtain ⟨f', l1, l2, l3⟩ := key y f hy
      exact h.simple x y e' f' k1 l1 (by rw [k2, l2, h1]) (by rw [k3, l3, h2])

/-! ## Snapshots -/

/-- The type map as seen through a snapshot. -/
def snapTM (s : Snap τ κ) : TM τ κ := ⟨s.g, fun n => match s.names n with | some i => some i | none => s.newNames n⟩

/-- Relation between a snapshot and the type map it was taken from. -/
structure SnapInv (tm : TM τ κ) (s : Snap τ κ) : Prop where
  ok : Ok (snapTM s)
  names : s.names = tm.names
  nodes : ∃ x, s.g.nodes = tm.g.nodes ++ x ∧ s.newNodes = List.range' tm.g.nodes.length x.length
  edges : ∃ x, s.g.edges = tm.g.edges ++ x ∧ s.newEdges = List.range' tm.g.edges.length x.length

theorem snapInv_new {tm : TM τ κ} (h : Ok tm) : SnapInv tm (snapNew tm) := by
  constructor
  · have : snapTM (snapNew tm) = tm := by
      unfold snapTM snapNew
      cases tm; simp only [TM.mk.injEq, true_and]
      funext n; split <;> simp_all
    rw [this]; exact h
  · rfl
  · exact ⟨[], by simp [snapNew]⟩
  · exact ⟨[], by simp [snapNew]⟩

theorem nodeForTy_snapTM (s : Snap τ κ) (r : RTy τ) :
    snapTM (nodeForTy s r).1 = (addNode (snapTM s) r).1 ∧ (nodeForTy s r).2 = (addNode (snapTM s) r).2 := by
  unfold nodeForTy addNode
  cases h1 : s.names r.name with
  | some i => simp [snapTM, h1]
  | none =>
    cases h2 : s.newNames r.name with
    | some i => simp [snapTM, h1, h2]
    | none =>
      simp only [snapTM, h1, h2, Graph.addNode, TM.mk.injEq, true_and, and_true]
      funext n
      unfold setName
      by_cases hn : n = r.name
      · subst hn; simp [h1]
      · simp [hn]

theorem snapInv_nodeForTy {tm : TM τ κ} {s : Snap τ κ} (h : SnapInv tm s) (r : RTy τ) :
    SnapInv tm (nodeForTy s r).1 := by
  refine ⟨?_, ?_, ?_, ?_⟩
  · rw [(nodeForTy_snapTM s r).1]; exact addNode_ok h.ok r
  · unfold nodeForTy
    cases s.names r.name with
    | some i => exact h.names
    | none => cases s.newNames r.name <;> exact h.names
  · unfold nodeForTy
    cases s.names r.name with
    | some i => exact h.nodes
    | none => cases s.newNames r.name with
      | some i => exact h.nodes
      | none =>
        obtain ⟨x, h1, h2⟩ := h.nodes
        refine ⟨x ++ [r], by simp [Graph.addNode, h1], ?_⟩
        simp [Graph.addNode, h1, h2, List.range'_concat]
  · unfold nodeForTy
    cases s.names r.name with
    | some i => exact h.edges
    | none => cases s.newNames r.name <;> exact h.edges

theorem snapInv_addEdge {tm : TM τ κ} {s : Snap τ κ} (h : SnapInv tm s) {a b : Nat} (ha : a < s.g.nodes.length)
    (hb : b < s.g.nodes.length) (w : κ) : SnapInv tm (snapAddEdge s a b w) := by
  unfold snapAddEdge
  cases hf : findEdge s.g a b with
  | some i => exact h
  | none =>
    refine ⟨?_, h.names, h.nodes, ?_⟩
    · exact addEdge_ok (tm := snapTM s) h.ok ha hb w (findEdge_none.1 hf)
    · obtain ⟨x, h1, h2⟩ := h.edges
      refine ⟨x ++ [⟨a, b, w⟩], by simp [Graph.addEdge, h1], ?_⟩
      simp [Graph.addEdge, h1, h2, List.range'_concat]

/-! ## Restoring -/

theorem swapRemove_last {α : Type} (l : List α) (x : α) : swapRemove (l ++ [x]) l.length = l := by
  simp [swapRemove]

theorem removeEdges_range {ν ε} (nodes : List ν) : ∀ (x base : List (Edge ε)),
    (List.range' base.length x.length).reverse.foldl removeEdge (⟨nodes, base ++ x⟩ : Graph ν ε) = ⟨nodes, base⟩ := by
  intro x
  induction x using List.reverseRecOn with
  | nil => intro base; simp
  | append_singleton x e ih =>
    intro base
    rw [List.length_append, List.length_singleton, List.range'_concat]
    simp only [List.reverse_append, List.reverse_singleton, List.singleton_append, List.foldl_cons]
    have : removeEdge (⟨nodes, base ++ (x ++ [e])⟩ : Graph ν ε) (base.length + 1 * x.length) = ⟨nodes, base ++ x⟩ := by
      unfold removeEdge
      have := swapRemove_last (base ++ x) e
      simp only [List.length_append] at this
      simp [← List.append_assoc, this]
    rw [this]; exact ih base

theorem removeIncident_none {ν ε} (out : Bool) (a : Nat) (n : Nat) (g : Graph ν ε)
    (h : ∀ e ∈ g.edges, e.src ≠ a ∧ e.dst ≠ a) : removeIncident out a n g = g := by
  cases n with
  | zero => rfl
  | succ n =>
    unfold removeIncident
    have : incident g out a = none := by
      unfold incident
      rw [List.find?_eq_none]
      intro i _
      split
      · rename_i e he
        have := h e (List.mem_of_getElem? he)
        cases out <;> simp [this.1, this.2]
      · simp
    rw [this]

theorem removeNodes_range {ν ε} (edges : List (Edge ε)) : ∀ (x base : List ν),
    (∀ e ∈ edges, e.src < base.length ∧ e.dst < base.length) →
    (List.range' base.length x.length).reverse.foldl removeNode (⟨base ++ x, edges⟩ : Graph ν ε) = ⟨base, edges⟩ := by
  intro x
  induction x using List.reverseRecOn with
  | nil => intro base _; simp
  | append_singleton x v ih =>
    intro base hb
    rw [List.length_append, List.length_singleton, List.range'_concat]
    simp only [List.reverse_append, List.reverse_singleton, List.singleton_append, List.foldl_cons]
    have : removeNode (⟨base ++ (x ++ [v]), edges⟩ : Graph ν ε) (base.length + 1 * x.length) = ⟨base ++ x, edges⟩ := by
      unfold removeNode
      have hinc : ∀ e ∈ edges, e.src ≠ base.length + 1 * x.length ∧ e.dst ≠ base.length + 1 * x.length := by
        intro e he; have := hb e he; omega
      simp only [removeIncident_none _ _ _ (⟨base ++ (x ++ [v]), edges⟩ : Graph ν ε) hinc]
      have h1 : base.length + 1 * x.length < (base ++ (x ++ [v])).length := by simp
      have h2 : base.length + 1 * x.length = (base ++ (x ++ [v])).length - 1   := by simp
      rw [if_pos h1, if_pos h2]
      have := swapRemove_last (base ++ x) v
      simp only [List.length_append] at this
      simp [← List.append_assoc, this]
    rw [this]; exact ih base hb

theorem restore_eq {tm : TM τ κ} {s : Snap τ κ} (hwf : WF tm.g) (h : SnapInv tm s) : restore s = tm.g := by
  obtain ⟨xn, n1, n2⟩ := h.nodes
  obtain ⟨xe, e1, e2⟩ := h.edges
  unfold restore
  have hg : s.g = ⟨tm.g.nodes ++ xn, tm.g.edges ++ xe⟩ := by
    rw [← n1, ← e1]
  rw [hg, e2, n2, removeEdges_range, removeNodes_range _ _ _ hwf]

/-! ## Reachability test -/

/-- Reachability, as a specification. -/
def Reach {ν ε} (g : Graph ν ε) (a b : Nat) : Prop := ∃ p, IsPath g a b p

theorem Reach.step {ν ε} {g : Graph ν ε} {a b c : Nat} (h : Reach g a b) (hbc : Adj g b c) : Reach g a c := by
  obtain ⟨p, hp⟩ := h
  obtain ⟨e, he⟩ := hbc.edge
  exact ⟨_, hp.append he⟩

/-- Edges whose source has not been visited. -/
def pendEdges {ν ε} (g : Graph ν ε) (vis : List Nat) : Nat := (g.edges.filter (fun e => decide (e.src ∉ vis))).length

theorem pendEdges_cons {ν ε} (g : Graph ν ε) (v : Nat) (vis : List Nat) (hv : v ∉ vis) :
    pendEdges g (v :: vis) + (neighbors g v).length = pendEdges g vis := by
  unfold pendEdges neighbors
  simp only [List.length_map]
  rw [List.filter_reverse, List.length_reverse]
  induction g.edges with
  | nil => rfl
  | cons e es ih =>
    by_cases h1 : e.src = v
    · have : e.src ∉ vis := h1 ▸ hv
      simp [h1, hv] at ih ⊢; omega
    · by_cases h2 : e.src ∈ vis
      · simp [h1, h2] at ih ⊢; omega
      · simp [h1, h2] at ih ⊢; omega

theorem dfs_spec {ν ε} (g : Graph ν ε) (a goal : Nat) : ∀ (n : Nat) (st vis : List Nat),
    (∀ x ∈ st, Reach g a x) → (a ∈ st ∨ a ∈ vis) → goal ∉ vis →
    (∀ v ∈ vis, ∀ w, Adj g v w → w ∈ vis ∨ w ∈ st) →
    st.length + pendEdges g vis < n →
    (dfsLoop g goal n st vis = some true ∧ Reach g a goal) ∨ (dfsLoop g goal n st vis = some false ∧ ¬ Reach g a goal)
  | 0, _, _, _, _, _, _, hn => by omega
  | n + 1, [], vis, _, ha, hg, hcl, _ => by
    right
    refine ⟨rfl, ?_⟩
    have ha : a ∈ vis := by simpa using ha
    rintro ⟨p, hp⟩
    have : ∀ (p : List Nat) (x : Nat), x ∈ vis → ∀ y, IsPath g x y p → y ∈ vis := by
      intro p
      induction p with
      | nil => intro x hx y hy; cases hy; exact hx
      | cons e p ih =>
        rintro x hx y ⟨ed, h1, h2, h3⟩
        have hadj : Adj g x ed.dst := ⟨ed, List.mem_of_getElem? h1, h2, rfl⟩
        rcases hcl x hx _ hadj with h | h
        · exact ih _ h y h3
        · cases h
    exact hg (this p a ha goal hp)
  | n + 1, v :: st, vis, hr, ha, hg, hcl, hn => by
    unfold dfsLoop
    by_cases hv : v ∈ vis
    · simp only [hv, if_true]
      refine dfs_spec g a goal n st vis (fun x hx => hr x (by simp [hx])) ?_ hg ?_ (by simp at hn; omega)
      · rcases ha with ha | ha
        · rcases List.mem_cons.1 ha with rfl | ha
          · exact Or.inr hv
          · exact Or.inl ha
        · exact Or.inr ha
      · intro x hx w hw
        rcases hcl x hx w hw with h | h
        · exact Or.inl h
        · rcases List.mem_cons.1 h with rfl | h
          · exact Or.inl hv
          · exact Or.inr h
    · simp only [hv, if_false]
      by_cases hvg : v = goal
      · left; subst hvg; simp [hr v (by simp)]
      · simp only [hvg, if_false]
        refine dfs_spec g a goal n _ _ ?_ ?_ ?_ ?_ ?_
        · intro x hx
          rcases List.mem_append.1 hx with hx | hx
          · simp only [List.mem_reverse, List.mem_filter] at hx
            exact (hr v (by simp)).step (mem_neighbors.1 hx.1)
          · exact hr x (by simp [hx])
        · rcases ha with ha | ha
          · rcases List.mem_cons.1 ha with rfl | ha
            · right; simp
            · left; simp [ha]
          · right; simp [ha]
        · simp; exact ⟨fun e => hvg e.symm, hg⟩
        · intro x hx w hw
          by_cases hwv : w ∈ v :: vis
          · exact Or.inl hwv
          · right
            rcases List.mem_cons.1 hx with rfl | hx
            · apply List.mem_append_left
              simp only [List.mem_reverse, List.mem_filter]
              exact ⟨mem_neighbors.2 hw, by simpa using hwv⟩
            · rcases hcl x hx w hw with h | h
              · exact absurd (List.mem_cons_of_mem _ h) hwv
              · rcases List.mem_cons.1 h with rfl | h
                · exact absurd (by simp) hwv
                · exact List.mem_append_right _ h
        · have h1 := pendEdges_cons g v vis hv
          have h2 := List.length_filter_le (fun x => decide (x ∉ v :: vis)) (neighbors g v)
          simp only [List.length_append, List.length_reverse, List.length_cons] at hn ⊢
          omega

theorem hasPath_spec {ν ε} (g : Graph ν ε) (a b : Nat) :
    (hasPath g a b = some true ∧ Reach g a b) ∨ (hasPath g a b = some false ∧ ¬ Reach g a b) := by
  unfold hasPath
  refine dfs_spec g a b _ [a] [] ?_ (by simp) (by simp) (by simp) ?_
  · intro x hx; simp at hx; subst hx; exact ⟨[], rfl⟩
  · unfold pendEdges
    have := List.length_filter_le (fun e : Edge ε => decide (e.src ∉ ([] : List Nat))) g.edges
    simp at this ⊢; omega

end Flapi.TMap
