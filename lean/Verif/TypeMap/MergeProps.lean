import Verif.TypeMap.BuildProps
/-! # Identity of types and precedence of rules over all histories of the type map (C14) -/
namespace Flapi.TMap
open Graph
variable {τ κ : Type}

/-! ## Specification -/

/-- There is a rule with weight `w` from type `s` to type `t`. -/
def HasRule (tm : TM τ κ) (s t : Text) (w : κ) : Prop :=
  ∃ i j, tm.names s = some i ∧ tm.names t = some j ∧ ∃ e ∈ tm.g.edges, e.src = i ∧ e.dst = j ∧ e.w = w

/-- A freshly parsed table: types with pairwise different names and at most one rule per ordered pair. -/
def Table (new : Graph (RTy τ) κ) : Prop := ∃ names, Ok (⟨new, names⟩ : TM τ κ)

/-- Operations on the type map after its creation. -/
inductive Step (P : PopFn) (ord : List Nat → List Nat) (rules : List (Rule τ κ)) (mrg : τ → τ → τ) : TM τ κ → TM τ κ → Prop
  | alloc (tm : TM τ κ) (r : RTy τ) : Step P ord rules mrg tm (addNode tm r).1
  | rule (tm : TM τ κ) (a b : Nat) (w : κ) (ha : a < tm.g.nodes.length) (hb : b < tm.g.nodes.length) :
      Step P ord rules mrg tm (addRule tm a b w)
  | merge (tm tm' : TM τ κ) (new : Graph (RTy τ) κ) (order : List Nat) (hnew : Table new)
      (hord : order.Perm (List.range new.nodes.length)) (h : mergeTable mrg order tm new = some tm') :
      Step P ord rules mrg tm tm'
  | search (tm tm' : TM τ κ) (a b : Nat) (r : PathRes) (ha : a < tm.g.nodes.length) (hb : b < tm.g.nodes.length)
      (h : findOrBuildPath P ord rules tm a b = some (tm', r)) : Step P ord rules mrg tm tm'

/-- States reachable from the empty type map. -/
inductive Reachable (P : PopFn) (ord : List Nat → List Nat) (rules : List (Rule τ κ)) (mrg : τ → τ → τ) : TM τ κ → Prop
  | init : Reachable P ord rules mrg empty
  | step {tm tm' : TM τ κ} (h : Reachable P ord rules mrg tm) (hs : Step P ord rules mrg tm tm') :
      Reachable P ord rules mrg tm'

/-! ## Lemmas -/

theorem modifyTy_ok {tm : TM τ κ} (h : Ok tm) (i : Nat) (f : τ → τ) : Ok (modifyTy tm i f) := by
  have hn : ∀ (k : Nat) r, (modifyTy tm i f).g.nodes[k]? = some r → ∃ r', tm.g.nodes[k]? = some r' ∧ r'.name = r.name := by
    intro k r hr
    simp only [modifyTy, List.getElem?_modify] at hr
    cases hk : tm.g.nodes[k]? with
    | none => rw [hk] at hr; simp at hr
    | some r' =>
      rw [hk] at hr; simp at hr
      refine ⟨r', rfl, ?_⟩
      split at hr
      · rw [← hr]
      · rw [← hr]
  constructor
  · intro e he; have := h.wf e he; simpa [modifyTy] using this
  · intro k r hr
    obtain ⟨r', h1, h2⟩ := hn k r hr
    rw [← h2]; exact h.byName k r' h1
  · intro s k hs
    obtain ⟨r, h1, h2⟩ := h.valid s k hs
    simp only [modifyTy, List.getElem?_modify, h1]
    split
    · exact ⟨_, rfl, h2⟩
    · exact ⟨_, rfl, h2⟩
  · exact h.simple

theorem addNewNodes_spec (mrg : τ → τ → τ) : ∀ (rs : List (RTy τ)) (tm : TM τ κ), Ok tm →
    Ok (addNewNodes mrg tm rs).1 ∧ (addNewNodes mrg tm rs).1.g.edges = tm.g.edges ∧
    (∀ s i, tm.names s = some i → (addNewNodes mrg tm rs).1.names s = some i) ∧
    (∀ (k : Nat) r, rs[k]? = some r → ∃ i, (addNewNodes mrg tm rs).2[k]? = some i ∧
      (addNewNodes mrg tm rs).1.names r.name = some i)
  | [], tm, h => ⟨h, rfl, fun _ _ h => h, by simp⟩
  | r :: rs, tm, h => by
    have h1 := addNode_ok h r
    have h2 := modifyTy_ok h1 (addNode tm r).2 (fun t => mrg t r.ty)
    obtain ⟨k1, k2, k3, k4⟩ := addNewNodes_spec mrg rs _ h2
    unfold addNewNodes
    refine ⟨k1, ?_, ?_, ?_⟩
    · rw [k2]; simp only [modifyTy]; exact addNode_edges r
    · intro s i hs; exact k3 s i (addNode_mono r hs)
    · intro k q hq
      cases k with
      | zero =>
        simp at hq; subst hq
        exact ⟨_, rfl, k3 _ _ (addNode_names r)⟩
      | succ k => exact k4 k q (by simpa using hq)

theorem adj_updateEdge {ν ε} {g : Graph ν ε} {a b : Nat} {w : ε}
    (hs : ∀ (i j : Nat) e f, g.edges[i]? = some e → g.edges[j]? = some f → e.src = f.src → e.dst = f.dst → i = j)
    (x y : Nat) (v : ε) :
    (∃ e ∈ (updateEdge g a b w).edges, e.src = x ∧ e.dst = y ∧ e.w = v) ↔
    (if x = a ∧ y = b then v = w else ∃ e ∈ g.edges, e.src = x ∧ e.dst = y ∧ e.w = v) := by
  unfold updateEdge
  cases hf : findEdge g a b with
  | none =>
    have hna := findEdge_none.1 hf
    simp only [Graph.addEdge, List.mem_append, List.mem_singleton]
    split
    · rename_i hxy
      obtain ⟨rfl, rfl⟩ := hxy
      constructor
      · rintro ⟨e, he | rfl, h1, h2, h3⟩
        · exact absurd ⟨e, he, h1, h2⟩ hna
        · exact h3.symm
      · rintro rfl; exact ⟨⟨x, y, v⟩, Or.inr rfl, rfl, rfl, rfl⟩
    · rename_i hxy
      constructor
      · rintro ⟨e, he | rfl, h1, h2, h3⟩
        · exact ⟨e, he, h1, h2, h3⟩
        · exact absurd ⟨h1.symm, h2.symm⟩ hxy
      · rintro ⟨e, he, h⟩; exact ⟨e, Or.inl he, h⟩
  | some i =>
    obtain ⟨e0, g1, g2, g3⟩ := findEdge_some hf
    have hil := (List.getElem?_eq_some_iff.1 g1).1
    simp only
    have mem : ∀ e, e ∈ g.edges.set i ⟨a, b, w⟩ ↔ e = ⟨a, b, w⟩ ∨ ∃ k, k ≠ i ∧ g.edges[k]? = some e := by
      intro e
      rw [List.mem_iff_getElem?]
      constructor
      · rintro ⟨k, hk⟩
        rw [List.getElem?_set] at hk
        split at hk
        · left; exact (Option.some_inj.1 hk).symm
        · right; exact ⟨k, fun h => by simp_all, hk⟩
      · rintro (rfl | ⟨k, hk, he⟩)
        · exact ⟨i, by simp [hil]⟩
        · exact ⟨k, by rw [List.getElem?_set_ne (Ne.symm hk)]; exact he⟩
    split
    · rename_i hxy
      obtain ⟨rfl, rfl⟩ := hxy
      constructor
      · rintro ⟨e, he, h1, h2, h3⟩
        rcases (mem e).1 he with rfl | ⟨k, hk, hk2⟩
        · exact h3.symm
        · exact absurd (hs k i e e0 hk2 g1 (h1.trans g2.symm) (h2.trans g3.symm)) hk
      · rintro rfl; exact ⟨⟨x, y, v⟩, (mem _).2 (Or.inl rfl), rfl, rfl, rfl⟩
    · rename_i hxy
      constructor
      · rintro ⟨e, he, h1, h2, h3⟩
        rcases (mem e).1 he with rfl | ⟨k, hk, hk2⟩
        · exact absurd ⟨h1.symm, h2.symm⟩ hxy
        · exact ⟨e, List.mem_of_getElem? hk2, h1, h2, h3⟩
      · rintro ⟨e, he, h1, h2, h3⟩
        obtain ⟨k, hk, rfl⟩ := List.getElem_of_mem he
        refine ⟨_, (mem _).2 (Or.inr ⟨k, ?_, List.getElem?_eq_getElem hk⟩), h1, h2, h3⟩
        rintro rfl
        have hee : g.edges[k] = e0 := (List.getElem?_eq_some_iff.1 g1).2
        exact hxy ⟨by rw [← h1, hee, g2], by rw [← h2, hee, g3]⟩

/-- Effect of a sequence of edge updates on one pair. -/
theorem addNewEdges_spec : ∀ (es : List (Edge κ)) (tm : TM τ κ) (map : List Nat), Ok tm →
    (∀ e ∈ es, ∃ a b, map[e.src]? = some a ∧ map[e.dst]? = some b ∧ a < tm.g.nodes.length ∧ b < tm.g.nodes.length) →
    (∀ e ∈ es, ∀ f ∈ es, map[e.src]? = map[f.src]? → map[e.dst]? = map[f.dst]? → e.w = f.w) →
    ∃ tm', addNewEdges tm map es = some tm' ∧ Ok tm' ∧ tm'.names = tm.names ∧ tm'.g.nodes = tm.g.nodes ∧
      (∀ x y v, (∃ e ∈ tm'.g.edges, e.src = x ∧ e.dst = y ∧ e.w = v) ↔
        ((∃ e ∈ es, map[e.src]? = some x ∧ map[e.dst]? = some y ∧ e.w = v) ∨
         ((¬ ∃ e ∈ es, map[e.src]? = some x ∧ map[e.dst]? = some y) ∧ ∃ e ∈ tm.g.edges, e.src = x ∧ e.dst = y ∧ e.w = v)))
  | [], tm, map, h, _, _ => ⟨tm, rfl, h, rfl, rfl, by simp⟩
  | e :: es, tm, map, h, hv, hu => by
    obtain ⟨a, b, ha, hb, hal, hbl⟩ := hv e (by simp)
    have hok := addRule_ok h hal hbl e.w
    have hnodes : (addRule tm a b e.w).g.nodes = tm.g.nodes := by
      unfold addRule updateEdge; simp only; split <;> rfl
    obtain ⟨tm', h1, h2, h3, h4, h5⟩ := addNewEdges_spec es (addRule tm a b e.w) map hok
      (fun f hf => by rw [hnodes]; exact hv f (by simp [hf]))
      (fun f hf f' hf' => hu f (by simp [hf]) f' (by simp [hf']))
    unfold addNewEdges
    rw [ha, hb]
    refine ⟨tm', h1, h2, h3, h4.trans hnodes, ?_⟩
    intro x y v
    rw [h5]
    have key := adj_updateEdge (w := e.w) (a := a) (b := b) h.simple x y v
    have key' : (∃ e_1 ∈ (addRule tm a b e.w).g.edges, e_1.src = x ∧ e_1.dst = y ∧ e_1.w = v) ↔ _ := key
    rw [key']
    constructor
    · rintro (⟨f, hf, h⟩ | ⟨hno, h⟩)
      · exact Or.inl ⟨f, by simp [hf], h⟩
      · split at h
        · rename_i hxy; obtain ⟨rfl, rfl⟩ := hxy
          left; exact ⟨e, by simp, ha, hb, h.symm⟩
        · rename_i hxy
          right
          refine ⟨?_, h⟩
          rintro ⟨f, hf, k1, k2⟩
          rcases List.mem_cons.1 hf with rfl | hf
          · rw [ha] at k1; rw [hb] at k2; cases k1; cases k2; exact hxy ⟨rfl, rfl⟩
          · exact hno ⟨f, hf, k1, k2⟩
    · rintro (⟨f, hf, k1, k2, k3⟩ | ⟨hno, h⟩)
      · rcases List.mem_cons.1 hf with rfl | hf
        · by_cases hex : ∃ f' ∈ es, map[f'.src]? = some x ∧ map[f'.dst]? = some y
          · obtain ⟨f', hf', l1, l2⟩ := hex
            left; refine ⟨f', hf', l1, l2, ?_⟩
            rw [← k3]
            exact (hu f (by simp) f' (by simp [hf']) (k1.trans l1.symm) (k2.trans l2.symm)).symm
          · right; refine ⟨hex, ?_⟩
            rw [ha] at k1; rw [hb] at k2; cases k1; cases k2
            simp [k3]
        · exact Or.inl ⟨f, hf, k1, k2, k3⟩
      · right
        refine ⟨fun ⟨f, hf, k⟩ => hno ⟨f, by simp [hf], k⟩, ?_⟩
        split
        · rename_i hxy; obtain ⟨rfl, rfl⟩ := hxy
          exact absurd ⟨e, by simp, ha, hb⟩ hno
        · exact h

theorem mem_edgesInOrder {new : Graph (RTy τ) κ} {order : List Nat} (hw : WF new)
    (hord : order.Perm (List.range new.nodes.length)) (e : Edge κ) : e ∈ edgesInOrder new order ↔ e ∈ new.edges := by
  simp only [edgesInOrder, List.mem_flatMap, List.mem_filter, List.mem_reverse, beq_iff_eq]
  constructor
  · rintro ⟨a, _, h, _⟩; exact h
  · intro h
    exact ⟨e.src, hord.symm.subset (by simp [(hw e h).1]), h, rfl⟩

theorem mergeTable_spec (mrg : τ → τ → τ) (order : List Nat) (tm : TM τ κ) (new : Graph (RTy τ) κ) (hok : Ok tm)
    (hnew : Table new) (hord : order.Perm (List.range new.nodes.length)) :
    ∃ tm', mergeTable mrg order tm new = some tm' ∧ Ok tm' ∧
      (∀ s i, tm.names s = some i → tm'.names s = some i) ∧
      (∀ (k : Nat) r, new.nodes[k]? = some r → ∃ i, tm'.names r.name = some i) ∧
      (∀ s t w, HasRule tm' s t w ↔
        ((∃ a b, ∃ e ∈ new.edges, new.nodes[e.src]? = some a ∧ new.nodes[e.dst]? = some b ∧ a.name = s ∧ b.name = t ∧ e.w = w) ∨
         ((¬ ∃ a b, ∃ e ∈ new.edges, new.nodes[e.src]? = some a ∧ new.nodes[e.dst]? = some b ∧ a.name = s ∧ b.name = t) ∧
           HasRule tm s t w))) := by
  obtain ⟨nn, hnok⟩ := hnew
  obtain ⟨k1, k2, k3, k4⟩ := addNewNodes_spec mrg new.nodes tm hok
  unfold mergeTable
  simp only
  generalize addNewNodes mrg tm new.nodes = q at *
  obtain ⟨tm1, map⟩ := q
  simp only at k1 k2 k3 k4 ⊢
  have hmem := mem_edgesInOrder (hnok.wf) hord
  -- map is injective on node indices
  have hmap : ∀ (i : Nat), i < new.nodes.length → ∃ r x, new.nodes[i]? = some r ∧ map[i]? = some x ∧ tm1.names r.name = some x := by
    intro i hi
    obtain ⟨x, hx1, hx2⟩ := k4 i _ (List.getElem?_eq_getElem hi)
    exact ⟨_, x, List.getElem?_eq_getElem hi, hx1, hx2⟩
  have hinj : ∀ i j, i < new.nodes.length → j < new.nodes.length → map[i]? = map[j]? → i = j := by
    intro i j hi hj h
    obtain ⟨r, x, a1, a2, a3⟩ := hmap i hi
    obtain ⟨r', x', b1, b2, b3⟩ := hmap j hj
    rw [a2, b2] at h; cases h
    obtain ⟨q, q1, q2⟩ := k1.valid _ _ a3
    obtain ⟨q', q1', q2'⟩ := k1.valid _ _ b3
    rw [q1] at q1'; cases q1'
    have h1 := hnok.byName i r a1
    have h2 := hnok.byName j r' b1
    rw [← q2, q2', h2] at h1; cases h1; rfl
  obtain ⟨tm', m1, m2, m3, m4, m5⟩ := addNewEdges_spec (edgesInOrder new order) tm1 map k1
    (by
      intro e he
      have hw := hnok.wf e ((hmem e).1 he)
      obtain ⟨r, x, a1, a2, a3⟩ := hmap e.src hw.1
      obtain ⟨r', x', b1, b2, b3⟩ := hmap e.dst hw.2
      exact ⟨x, x', a2, b2, k1.lt a3, k1.lt b3⟩)
    (by
      intro e he f hf h1 h2
      have hwe := hnok.wf e ((hmem e).1 he)
      have hwf := hnok.wf f ((hmem f).1 hf)
      have e1 := hinj _ _ hwe.1 hwf.1 h1
      have e2 := hinj _ _ hwe.2 hwf.2 h2
      obtain ⟨i, hi, hi2⟩ := List.getElem_of_mem ((hmem e).1 he)
      obtain ⟨j, hj, hj2⟩ := List.getElem_of_mem ((hmem f).1 hf)
      have hij := hnok.simple i j e f (by rw [← hi2]; exact List.getElem?_eq_getElem hi)
        (by rw [← hj2]; exact List.getElem?_eq_getElem hj) e1 e2
      subst hij; rw [← hi2, ← hj2])
  refine ⟨tm', m1, m2, fun s i h => by rw [m3]; exact k3 s i h, fun k r h => by
    obtain ⟨i, _, hi⟩ := k4 k r h; exact ⟨i, by rw [m3]; exact hi⟩, ?_⟩
  intro s t w
  -- translate between names and indices
  have nameIdx : ∀ (e : Edge κ), e ∈ new.edges → ∀ x y, tm1.names s = some x → tm1.names t = some y →
      ((map[e.src]? = some x ∧ map[e.dst]? = some y) ↔
       ∃ a b, new.nodes[e.src]? = some a ∧ new.nodes[e.dst]? = some b ∧ a.name = s ∧ b.name = t) := by
    intro e he x y hx hy
    have hw := hnok.wf e he
    obtain ⟨r, x', a1, a2, a3⟩ := hmap e.src hw.1
    obtain ⟨r', y', b1, b2, b3⟩ := hmap e.dst hw.2
    constructor
    · rintro ⟨h1, h2⟩
      rw [a2] at h1; rw [b2] at h2; cases h1; cases h2
      refine ⟨r, r', a1, b1, ?_, ?_⟩
      · obtain ⟨q, q1, q2⟩ := k1.valid _ _ hx
        obtain ⟨q', q1', q2'⟩ := k1.valid _ _ a3
        rw [q1] at q1'; cases q1'; rw [← q2, q2']
      · obtain ⟨q, q1, q2⟩ := k1.valid _ _ hy
        obtain ⟨q', q1', q2'⟩ := k1.valid _ _ b3
        rw [q1] at q1'; cases q1'; rw [← q2, q2']
    · rintro ⟨a, b, h1, h2, rfl, rfl⟩
      rw [a1] at h1; rw [b1] at h2; cases h1; cases h2
      rw [a3] at hx; rw [b3] at hy; cases hx; cases hy
      exact ⟨a2, b2⟩
  have backNames : ∀ e ∈ tm.g.edges, ∀ (x : Nat), (e.src = x ∨ e.dst = x) → ∀ n, tm1.names n = some x → tm.names n = some x := by
    intro e he x hex n hn
    have hlt : x < tm.g.nodes.length := by rcases hex with rfl | rfl; exacts [(hok.wf e he).1, (hok.wf e he).2]
    have h1 := hok.byName x _ (List.getElem?_eq_getElem hlt)
    have h2 := k3 _ _ h1
    obtain ⟨q, q1, q2⟩ := k1.valid _ _ hn
    obtain ⟨q', q1', q2'⟩ := k1.valid _ _ h2
    rw [q1] at q1'; cases q1'
    rw [← q2, q2']; exact h1
  constructor
  · rintro ⟨i, j, hi, hj, hr⟩
    rw [m3] at hi hj
    rcases (m5 i j w).1 hr with ⟨e, he, h1, h2, h3⟩ | ⟨hno, hold⟩
    · left
      obtain ⟨a, b, c1, c2, c3, c4⟩ := (nameIdx e ((hmem e).1 he) i j hi hj).1 ⟨h1, h2⟩
      exact ⟨a, b, e, (hmem e).1 he, c1, c2, c3, c4, h3⟩
    · right
      constructor
      · rintro ⟨a, b, e, he, c⟩
        exact hno ⟨e, (hmem e).2 he, (nameIdx e he i j hi hj).2 ⟨a, b, c⟩⟩
      · obtain ⟨e, he, h1, h2, h3⟩ := hold
        rw [k2] at he
        exact ⟨i, j, backNames e he i (Or.inl h1) s hi, backNames e he j (Or.inr h2) t hj, e, he, h1, h2, h3⟩
  · rintro (⟨a, b, e, he, c1, c2, c3, c4, c5⟩ | ⟨hno, i, j, hi, hj, e, he, h1, h2, h3⟩)
    · have hw := hnok.wf e he
      obtain ⟨r, x', a1, a2, a3⟩ := hmap e.src hw.1
      obtain ⟨r', y', b1, b2, b3⟩ := hmap e.dst hw.2
      rw [c1] at a1; rw [c2] at b1; cases a1; cases b1
      refine ⟨x', y', by rw [m3, ← c3]; exact a3, by rw [m3, ← c4]; exact b3, ?_⟩
      exact (m5 x' y' w).2 (Or.inl ⟨e, (hmem e).2 he, a2, b2, c5⟩)
    · refine ⟨i, j, by rw [m3]; exact k3 _ _ hi, by rw [m3]; exact k3 _ _ hj, ?_⟩
      refine (m5 i j w).2 (Or.inr ⟨?_, e, by rw [k2]; exact he, h1, h2, h3⟩)
      rintro ⟨f, hf, d1, d2⟩
      obtain ⟨a, b, c⟩ := (nameIdx f ((hmem f).1 hf) i j (k3 _ _ hi) (k3 _ _ hj)).1 ⟨d1, d2⟩
      exact hno ⟨a, b, f, (hmem f).1 hf, c⟩

theorem addRule_names (tm : TM τ κ) (a b : Nat) (w : κ) : (addRule tm a b w).names = tm.names := rfl

theorem step_ok {P : PopFn} {ord : List Nat → List Nat} (hord : ∀ l, (ord l).Perm l) {rules : List (Rule τ κ)}
    {mrg : τ → τ → τ} {tm tm' : TM τ κ} (h : Ok tm) (hs : Step P ord rules mrg tm tm') :
    Ok tm' ∧ ∀ s i, tm.names s = some i → tm'.names s = some i := by
  cases hs with
  | alloc r => exact ⟨addNode_ok h r, fun s i hs => addNode_mono r hs⟩
  | rule a b w ha hb => exact ⟨addRule_ok h ha hb w, fun _ _ h => h⟩
  | merge _ new order hnew ho hm =>
    obtain ⟨t, h1, h2, h3, _⟩ := mergeTable_spec mrg order tm new h hnew ho
    rw [hm] at h1; cases h1; exact ⟨h2, h3⟩
  | search _ a b r ha hb hf =>
    obtain ⟨t, q, h1, h2, h3, _⟩ := C48_find_or_build P ord hord rules tm h a b ha hb
    rw [hf] at h1; cases h1; exact ⟨h2, h3.names⟩

/-! ## C14 -/

/-- In every reachable state a name denotes at most one type, the type found under a name carries that name, different
names denote different types, and between two types there is at most one rule. -/
theorem C14_identity (P : PopFn) (ord : List Nat → List Nat) (hord : ∀ l, (ord l).Perm l) (rules : List (Rule τ κ))
    (mrg : τ → τ → τ) (tm : TM τ κ) (h : Reachable P ord rules mrg tm) :
    (∀ s i, tm.names s = some i → ∃ r, tm.g.nodes[i]? = some r ∧ r.name = s) ∧
    (∀ s t i, tm.names s = some i → tm.names t = some i → s = t) ∧
    (∀ (i : Nat) r, tm.g.nodes[i]? = some r → tm.names r.name = some i) ∧
    (∀ s t w w', HasRule tm s t w → HasRule tm s t w' → w = w') := by
  have hok : Ok tm := by
    induction h with
    | init => exact ok_empty
    | step _ hs ih => exact (step_ok hord ih hs).1
  refine ⟨hok.valid, ?_, hok.byName, ?_⟩
  · intro s t i hs ht
    obtain ⟨r, r1, r2⟩ := hok.valid s i hs
    obtain ⟨q, q1, q2⟩ := hok.valid t i ht
    rw [r1] at q1; cases q1; rw [← r2, q2]
  · rintro s t w w' ⟨i, j, hi, hj, e, he, h1, h2, rfl⟩ ⟨i', j', hi', hj', e', he', h1', h2', rfl⟩
    rw [hi] at hi'; cases hi'; rw [hj] at hj'; cases hj'
    obtain ⟨k, hk, hk2⟩ := List.getElem_of_mem he
    obtain ⟨l, hl, hl2⟩ := List.getElem_of_mem he'
    have := hok.simple k l e e' (by rw [← hk2]; exact List.getElem?_eq_getElem hk)
      (by rw [← hl2]; exact List.getElem?_eq_getElem hl) (h1.trans h1'.symm) (h2.trans h2'.symm)
    subst this; rw [← hk2, ← hl2]

/-- Reachable states satisfy the well-formedness that the search theorems (C10, C13, C48) assume. -/
theorem C14_reachable_ok (P : PopFn) (ord : List Nat → List Nat) (hord : ∀ l, (ord l).Perm l) (rules : List (Rule τ κ))
    (mrg : τ → τ → τ) (tm : TM τ κ) (h : Reachable P ord rules mrg tm) : Ok tm := by
  induction h with
  | init => exact ok_empty
  | step _ hs ih => exact (step_ok hord ih hs).1

/-- No operation ever changes which type a known name denotes. -/
theorem C14_stable (P : PopFn) (ord : List Nat → List Nat) (hord : ∀ l, (ord l).Perm l) (rules : List (Rule τ κ))
    (mrg : τ → τ → τ) (tm tm' : TM τ κ) (h : Reachable P ord rules mrg tm) (hs : Step P ord rules mrg tm tm')
    (s : Text) (i : Nat) (hn : tm.names s = some i) : tm'.names s = some i :=
  (step_ok hord (C14_reachable_ok P ord hord rules mrg tm h) hs).2 s i hn

/-- Allocating a type by name: the same name always gives the same type; a type just allocated is found under its name. -/
theorem C14_find_or_alloc (tm : TM τ κ) (r q : RTy τ) (h : r.name = q.name) :
    (addNode (addNode tm r).1 q) = ((addNode tm r).1, (addNode tm r).2) ∧
    (addNode tm r).1.names r.name = some (addNode tm r).2 := by
  refine ⟨?_, addNode_names r⟩
  have := addNode_names (tm := tm) r
  rw [h] at this
  generalize addNode tm r = x at this
  unfold addNode
  rw [this]

/-- Merging a table never fails on nodes and rules, makes its types known, and afterwards the rule between two types is the
one of the merged table if it has one, and the former one otherwise — independently of the iteration order. -/
theorem C14_merge_overrides (mrg : τ → τ → τ) (order : List Nat) (tm : TM τ κ) (new : Graph (RTy τ) κ) (hok : Ok tm)
    (hnew : Table new) (hord : order.Perm (List.range new.nodes.length)) :
    ∃ tm', mergeTable mrg order tm new = some tm' ∧ (∀ r ∈ new.nodes, ∃ i, tm'.names r.name = some i) ∧
      ∀ s t w, HasRule tm' s t w ↔
        ((∃ names, HasRule ⟨new, names⟩ s t w ∧ Ok (⟨new, names⟩ : TM τ κ)) ∨
         ((¬ ∃ names v, HasRule ⟨new, names⟩ s t v ∧ Ok (⟨new, names⟩ : TM τ κ)) ∧ HasRule tm s t w)) := by
  obtain ⟨tm', h1, _, _, h4, h5⟩ := mergeTable_spec mrg order tm new hok hnew hord
  obtain ⟨nn, hnok⟩ := hnew
  have key : ∀ s t w, (∃ a b, ∃ e ∈ new.edges, new.nodes[e.src]? = some a ∧ new.nodes[e.dst]? = some b ∧ a.name = s ∧
      b.name = t ∧ e.w = w) ↔ ∃ names, HasRule ⟨new, names⟩ s t w ∧ Ok (⟨new, names⟩ : TM τ κ) := by
    intro s t w
    constructor
    · rintro ⟨a, b, e, he, c1, c2, rfl, rfl, c5⟩
      exact ⟨nn, ⟨e.src, e.dst, hnok.byName _ _ c1, hnok.byName _ _ c2, e, he, rfl, rfl, c5⟩, hnok⟩
    · rintro ⟨names, ⟨i, j, hi, hj, e, he, rfl, rfl, h3⟩, ho⟩
      obtain ⟨a, a1, a2⟩ := ho.valid _ _ hi
      obtain ⟨b, b1, b2⟩ := ho.valid _ _ hj
      exact ⟨a, b, e, he, a1, b1, a2, b2, h3⟩
  refine ⟨tm', h1, ?_, ?_⟩
  · intro r hr
    obtain ⟨k, hk, rfl⟩ := List.getElem_of_mem hr
    exact h4 k _ (List.getElem?_eq_getElem hk)
  · intro s t w
    rw [h5, key]
    refine or_congr Iff.rfl (and_congr (not_congr ?_) Iff.rfl)
    constructor
    · rintro ⟨a, b, e, he, c1, c2, c3, c4⟩
      obtain ⟨n, hn⟩ := (key s t e.w).1 ⟨a, b, e, he, c1, c2, c3, c4, rfl⟩
      exact ⟨n, e.w, hn⟩
    · rintro ⟨n, v, hn⟩
      obtain ⟨a, b, e, he, c1, c2, c3, c4, _⟩ := (key s t v).2 ⟨n, hn⟩
      exact ⟨a, b, e, he, c1, c2, c3, c4⟩

/-! ## A concrete case -/

/-- A map with `a ⟶ c` (weight 1). -/
def exM1 : TM Unit Nat := addRule exTM 0 1 1
/-- A parsed table with `c ⟶ b` (weight 5) and `a ⟶ c` (weight 9); its indices differ from those of the map. -/
def exNew : Graph (RTy Unit) Nat := ⟨[⟨['c'], ()⟩, ⟨['b'], ()⟩, ⟨['a'], ()⟩], [⟨0, 1, 5⟩, ⟨2, 0, 9⟩]⟩

example : Table exNew := by
  have h := addRule_ok (addRule_ok (addNode_ok (addNode_ok (addNode_ok (ok_empty (τ := Unit) (κ := Nat)) ⟨['c'], ()⟩)
    ⟨['b'], ()⟩) ⟨['a'], ()⟩) (a := 0) (b := 1) (by decide) (by decide) 5) (a := 2) (b := 0) (by decide) (by decide) 9
  exact ⟨_, h⟩
example : ((mergeTable (fun _ _ => ()) [1, 2, 0] exM1 exNew).map fun t => (t.g.edges, t.names ['b'])) =
    some ([⟨0, 1, 9⟩, ⟨1, 2, 5⟩], some 2) := by decide
example (P : PopFn) : Reachable P id ([] : List (Rule Unit Nat)) (fun _ _ => ()) exM1 :=
  .step (.step (.step .init (.alloc _ _)) (.alloc _ _)) (.rule _ 0 1 1 (by decide) (by decide))

end Flapi.TMap
