import Verif.TypeMap.MapInv
/-! # The speculative search: restoration, soundness, no panic (C13, C48) -/
namespace Flapi.TMap
open Graph
variable {τ κ : Type}

/-- `h` has all nodes and edges of `g` at the same indices. -/
def Ext {ν ε} (g h : Graph ν ε) : Prop := (∃ x, h.nodes = g.nodes ++ x) ∧ ∃ x, h.edges = g.edges ++ x

theorem Ext.refl {ν ε} (g : Graph ν ε) : Ext g g := ⟨⟨[], by simp⟩, [], by simp⟩

theorem Ext.trans {ν ε} {f g h : Graph ν ε} (a : Ext f g) (b : Ext g h) : Ext f h := by
  obtain ⟨⟨x, h1⟩, y, h2⟩ := a
  obtain ⟨⟨x', h1'⟩, y', h2'⟩ := b
  exact ⟨⟨x ++ x', by simp [h1', h1]⟩, y ++ y', by simp [h2', h2]⟩

theorem Ext.edge {ν ε} {g h : Graph ν ε} (a : Ext g h) {i : Nat} {e : Edge ε} (he : g.edges[i]? = some e) :
    h.edges[i]? = some e := by
  obtain ⟨_, y, h2⟩ := a
  rw [h2, List.getElem?_append_left (List.getElem?_eq_some_iff.1 he).1]; exact he

theorem Ext.node {ν ε} {g h : Graph ν ε} (a : Ext g h) {i : Nat} {v : ν} (he : g.nodes[i]? = some v) :
    h.nodes[i]? = some v := by
  obtain ⟨⟨y, h2⟩, _⟩ := a
  rw [h2, List.getElem?_append_left (List.getElem?_eq_some_iff.1 he).1]; exact he

theorem Ext.path {ν ε} {g h : Graph ν ε} (a : Ext g h) : ∀ {p : List Nat} {x y : Nat}, IsPath g x y p → IsPath h x y p
  | [], _, _, hp => hp
  | _ :: _, _, _, ⟨ed, h1, h2, h3⟩ => ⟨ed, a.edge h1, h2, a.path h3⟩

theorem Ext.reach {ν ε} {g h : Graph ν ε} (a : Ext g h) {x y : Nat} (hp : Reach g x y) : Reach h x y := by
  obtain ⟨p, hp⟩ := hp; exact ⟨p, a.path hp⟩

theorem Ext.len {ν ε} {g h : Graph ν ε} (a : Ext g h) : g.nodes.length ≤ h.nodes.length := by
  obtain ⟨⟨x, h1⟩, _⟩ := a; simp [h1]

theorem ext_nodeForTy (s : Snap τ κ) (r : RTy τ) : Ext s.g (nodeForTy s r).1.g := by
  have h1 : (nodeForTy s r).1.g = (snapTM (nodeForTy s r).1).g := rfl
  rw [h1, (nodeForTy_snapTM s r).1]
  obtain ⟨x, hx⟩ := addNode_nodes (tm := snapTM s) r
  exact ⟨⟨x, hx⟩, [], by simp [addNode_edges]; rfl⟩

theorem ext_snapAddEdge (s : Snap τ κ) (a b : Nat) (w : κ) : Ext s.g (snapAddEdge s a b w).g := by
  unfold snapAddEdge
  cases findEdge s.g a b with
  | some i => exact Ext.refl _
  | none => exact ⟨⟨[], by simp [Graph.addEdge]⟩, [⟨a, b, w⟩], rfl⟩

theorem adj_snapAddEdge (s : Snap τ κ) (a b : Nat) (w : κ) : Adj (snapAddEdge s a b w).g a b := by
  unfold snapAddEdge
  cases h : findEdge s.g a b with
  | some i =>
    obtain ⟨e, h1, h2, h3⟩ := findEdge_some h
    exact ⟨e, List.mem_of_getElem? h1, h2, h3⟩
  | none => exact ⟨⟨a, b, w⟩, by simp [Graph.addEdge], rfl, rfl⟩

theorem nodeForTy_lt {s : Snap τ κ} (hs : Ok (snapTM s)) (r : RTy τ) :
    (nodeForTy s r).2 < (nodeForTy s r).1.g.nodes.length := by
  have h1 : (nodeForTy s r).1.g = (snapTM (nodeForTy s r).1).g := rfl
  rw [h1, (nodeForTy_snapTM s r).1, (nodeForTy_snapTM s r).2]
  exact (addNode_ok hs r).lt (addNode_names r)

/-- What every stage of the search guarantees. -/
def Good (tm : TM τ κ) (start goal : Nat) (g0 : Graph (RTy τ) κ) : TB τ κ → Prop
  | .cont s next => SnapInv tm s ∧ Ext g0 s.g ∧ ∀ a ∈ next, Reach s.g start a
  | .found s path => SnapInv tm s ∧ Ext g0 s.g ∧ IsPath s.g start goal path ∧
      ∀ q, IsPath s.g start goal q → path.length ≤ q.length
  | .panic => False

theorem mem_insertSet {l : List Nat} {x y : Nat} : y ∈ insertSet l x ↔ y ∈ l ∨ y = x := by
  unfold insertSet; split <;> simp
  rintro rfl; assumption

theorem mem_foldl_insertSet {l xs : List Nat} {y : Nat} : y ∈ xs.foldl insertSet l ↔ y ∈ l ∨ y ∈ xs := by
  induction xs generalizing l with
  | nil => simp
  | cons x xs ih => simp [ih, mem_insertSet, or_assoc]

theorem reach_lt {ν ε} {g : Graph ν ε} (hwf : WF g) {a b : Nat} (ha : a < g.nodes.length) (h : Reach g a b) :
    b < g.nodes.length := by
  obtain ⟨p, hp⟩ := h
  induction p generalizing a with
  | nil => cases hp; exact ha
  | cons e p ih =>
    obtain ⟨ed, h1, h2, h3⟩ := hp
    exact ih (hwf ed (List.mem_of_getElem? h1)).2 h3

theorem tryRule_good (P : PopFn) {tm : TM τ κ} {start goal a : Nat} {goalTy frm : RTy τ} {s : Snap τ κ} {next : List Nat}
    (rule : Rule τ κ) (hs : SnapInv tm s) (hst : start < s.g.nodes.length) (ha : Reach s.g start a)
    (hnext : ∀ x ∈ next, Reach s.g start x) :
    Good tm start goal s.g (tryRule P start goal goalTy a frm s next rule) := by
  unfold tryRule
  cases hr : rule frm goalTy (findTypeByName s) with
  | none => exact ⟨hs, Ext.refl _, hnext⟩
  | some x =>
    obtain ⟨tt, w⟩ := x
    simp only
    split
    · exact ⟨hs, Ext.refl _, hnext⟩
    · have hlt := nodeForTy_lt hs.ok tt
      have he1 := ext_nodeForTy s tt
      have hs1 := snapInv_nodeForTy hs tt
      generalize nodeForTy s tt = nt at hlt he1 hs1
      obtain ⟨s1, toIdx⟩ := nt
      simp only at hlt he1 hs1 ⊢
      have hal : a < s.g.nodes.length := reach_lt hs.ok.wf hst ha
      have hal1 : a < s1.g.nodes.length := lt_of_lt_of_le hal he1.len
      have he2 := ext_snapAddEdge s1 a toIdx w
      have hs2 := snapInv_addEdge hs1 hal1 hlt w
      have hadj := adj_snapAddEdge s1 a toIdx w
      generalize snapAddEdge s1 a toIdx w = s2 at he2 hs2 hadj
      have he := he1.trans he2
      have hto : Reach s2.g start toIdx := (he.reach ha).step hadj
      rcases hasPath_spec s2.g toIdx goal with ⟨hp, hreach⟩ | ⟨hp, _⟩
      · rw [hp]
        simp only
        obtain ⟨q1, hq1⟩ := hto
        obtain ⟨q2, hq2⟩ := hreach
        rcases findConversionPath_spec P (b := goal) hs2.ok.wf (lt_of_lt_of_le hst he.len) with
          ⟨p, h1, h2, h3⟩ | ⟨_, h2⟩
        · have h1 : findConversionPath P s2.g start goal = .ok p := h1
          rw [h1]; exact ⟨hs2, he, h2, h3⟩
        · exact absurd (hq1.append hq2) (h2 _)
      · rw [hp]
        refine ⟨hs2, he, ?_⟩
        intro x hx
        rcases mem_insertSet.1 hx with hx | rfl
        · exact he.reach (hnext x hx)
        · exact hto

theorem good_trans {tm : TM τ κ} {start goal : Nat} {g0 g1 : Graph (RTy τ) κ} (h : Ext g0 g1) {x : TB τ κ}
    (hx : Good tm start goal g1 x) : Good tm start goal g0 x := by
  cases x with
  | cont s next => exact ⟨hx.1, h.trans hx.2.1, hx.2.2⟩
  | found s p => exact ⟨hx.1, h.trans hx.2.1, hx.2.2⟩
  | panic => exact hx

theorem tryRules_good (P : PopFn) {tm : TM τ κ} {start goal a : Nat} {goalTy frm : RTy τ} :
    ∀ (rules : List (Rule τ κ)) (s : Snap τ κ) (next : List Nat), SnapInv tm s → start < s.g.nodes.length →
      Reach s.g start a → (∀ x ∈ next, Reach s.g start x) →
      Good tm start goal s.g (tryRules P start goal goalTy a frm s next rules)
  | [], s, next, hs, _, _, hn => ⟨hs, Ext.refl _, hn⟩
  | r :: rs, s, next, hs, hst, ha, hn => by
    unfold tryRules
    have h := tryRule_good P (goal := goal) (goalTy := goalTy) (frm := frm) r hs hst ha hn
    cases hx : tryRule P start goal goalTy a frm s next r with
    | cont s1 n1 =>
      rw [hx] at h
      obtain ⟨h1, h2, h3⟩ := h
      exact good_trans h2 (tryRules_good P rs s1 n1 h1 (lt_of_lt_of_le hst h2.len) (h2.reach ha) h3)
    | found s1 p => rw [hx] at h; exact h
    | panic => rw [hx] at h; exact h

theorem tryRound_good (P : PopFn) (rules : List (Rule τ κ)) {tm : TM τ κ} {start goal : Nat} {goalTy : RTy τ} :
    ∀ (cur : List Nat) (s : Snap τ κ) (next : List Nat), SnapInv tm s → start < s.g.nodes.length →
      (∀ x ∈ cur, Reach s.g start x) → (∀ x ∈ next, Reach s.g start x) →
      Good tm start goal s.g (tryRound P rules start goal goalTy s next cur)
  | [], s, next, hs, _, _, hn => ⟨hs, Ext.refl _, hn⟩
  | a :: as, s, next, hs, hst, hc, hn => by
    unfold tryRound
    have ha : Reach s.g start a := hc a (by simp)
    have hal := reach_lt hs.ok.wf hst ha
    have hal : a < s.g.nodes.length := hal
    rw [List.getElem?_eq_getElem hal]
    simp only
    have hn' : ∀ x ∈ (neighbors s.g a).foldl insertSet next, Reach s.g start x := by
      intro x hx
      rcases mem_foldl_insertSet.1 hx with hx | hx
      · exact hn x hx
      · exact ha.step (mem_neighbors.1 hx)
    have h := tryRules_good P (goal := goal) (goalTy := goalTy) (frm := s.g.nodes[a]) rules s _ hs hst ha hn'
    cases hx : tryRules P start goal goalTy a s.g.nodes[a] s ((neighbors s.g a).foldl insertSet next) rules with
    | cont s1 n1 =>
      rw [hx] at h
      obtain ⟨h1, h2, h3⟩ := h
      exact good_trans h2 (tryRound_good P rules as s1 n1 h1 (lt_of_lt_of_le hst h2.len)
        (fun x hx => h2.reach (hc x (by simp [hx]))) h3)
    | found s1 p => rw [hx] at h; exact h
    | panic => rw [hx] at h; exact h

theorem tryRounds_good (P : PopFn) (ord : List Nat → List Nat) (hord : ∀ l, (ord l).Perm l) (rules : List (Rule τ κ))
    {tm : TM τ κ} {start goal : Nat} {goalTy : RTy τ} :
    ∀ (n : Nat) (s : Snap τ κ) (cur : List Nat), SnapInv tm s → start < s.g.nodes.length →
      (∀ x ∈ cur, Reach s.g start x) →
      Good tm start goal s.g (tryRounds P ord rules start goal goalTy n s cur)
  | 0, s, cur, hs, _, hc => ⟨hs, Ext.refl _, hc⟩
  | n + 1, s, cur, hs, hst, hc => by
    unfold tryRounds
    split
    · exact ⟨hs, Ext.refl _, hc⟩
    · have h := tryRound_good P rules (goal := goal) (goalTy := goalTy) (ord cur) s [] hs hst
        (fun x hx => hc x ((hord cur).subset hx)) (by simp)
      cases hx : tryRound P rules start goal goalTy s [] (ord cur) with
      | cont s1 n1 =>
        rw [hx] at h
        obtain ⟨h1, h2, h3⟩ := h
        exact good_trans h2 (tryRounds_good P ord hord rules n s1 n1 h1 (lt_of_lt_of_le hst h2.len) h3)
      | found s1 p => rw [hx] at h; exact h
      | panic => rw [hx] at h; exact h

/-! ## A shortest chain uses no edge twice -/

theorem path_split {ν ε} {g : Graph ν ε} : ∀ {p q : List Nat} {a c : Nat}, IsPath g a c (p ++ q) →
    ∃ b, IsPath g a b p ∧ IsPath g b c q
  | [], _, a, _, h => ⟨a, rfl, h⟩
  | _ :: _, _, _, _, ⟨ed, h1, h2, h3⟩ => by
    obtain ⟨b, h4, h5⟩ := path_split h3
    exact ⟨b, ⟨ed, h1, h2, h4⟩, h5⟩

theorem shortest_nodup {ν ε} {g : Graph ν ε} : ∀ {p : List Nat} {a b : Nat}, IsPath g a b p →
    (∀ q, IsPath g a b q → p.length ≤ q.length) → p.Nodup
  | [], _, _, _, _ => List.nodup_nil
  | e :: p, a, b, ⟨ed, h1, h2, h3⟩, hmin => by
    rw [List.nodup_cons]
    constructor
    · intro hm
      obtain ⟨y, z, rfl⟩ := List.append_of_mem hm
      obtain ⟨c, _, ed', k1, k2, k3⟩ := path_split h3
      rw [h1] at k1; cases k1
      have := hmin (e :: z) ⟨ed, h1, h2, k3⟩
      simp at this; omega
    · refine shortest_nodup h3 fun q hq => ?_
      have := hmin (e :: q) ⟨ed, h1, h2, hq⟩
      simpa using this

/-! ## Merging a built chain into the type map -/

/-- `tm'` keeps every type, name and rule of `tm`. -/
structure Grows (tm tm' : TM τ κ) : Prop where
  ext : Ext tm.g tm'.g
  names : ∀ s i, tm.names s = some i → tm'.names s = some i

theorem Grows.refl (tm : TM τ κ) : Grows tm tm := ⟨Ext.refl _, fun _ _ h => h⟩
theorem Grows.trans {a b c : TM τ κ} (h : Grows a b) (k : Grows b c) : Grows a c :=
  ⟨h.ext.trans k.ext, fun s i hs => k.names s i (h.names s i hs)⟩

theorem grows_addNode (tm : TM τ κ) (r : RTy τ) : Grows tm (addNode tm r).1 := by
  obtain ⟨x, hx⟩ := addNode_nodes (tm := tm) r
  exact ⟨⟨⟨x, hx⟩, [], by simp [addNode_edges]⟩, fun s i h => addNode_mono r h⟩

/-- Rule between two types given by name. -/
def NAdj (tm : TM τ κ) (s t : Text) : Prop := ∃ i j, tm.names s = some i ∧ tm.names t = some j ∧ Adj tm.g i j

theorem Ext.adj {ν ε} {g h : Graph ν ε} (a : Ext g h) {x y : Nat} (hp : Adj g x y) : Adj h x y := by
  obtain ⟨_, y, h2⟩ := a
  obtain ⟨e, he, h3⟩ := hp
  exact ⟨e, by rw [h2]; simp [he], h3⟩

theorem NAdj.grows {tm tm' : TM τ κ} (h : Grows tm tm') {s t : Text} (ha : NAdj tm s t) : NAdj tm' s t := by
  obtain ⟨i, j, h1, h2, h3⟩ := ha
  exact ⟨i, j, h.names _ _ h1, h.names _ _ h2, h.ext.adj h3⟩

/-- In a well-formed map adding a type adds no rule. -/
theorem nadj_addNode {tm : TM τ κ} (h : Ok tm) (r : RTy τ) {s t : Text} (ha : NAdj (addNode tm r).1 s t) : NAdj tm s t := by
  obtain ⟨i, j, h1, h2, e, he, h3, h4⟩ := ha
  rw [addNode_edges] at he
  have hw := h.wf e he
  have key : ∀ (x : Text) (k : Nat), (addNode tm r).1.names x = some k → k < tm.g.nodes.length → tm.names x = some k := by
    intro x k hx hk
    unfold addNode at hx
    cases hn : tm.names r.name with
    | some m => rw [hn] at hx; exact hx
    | none =>
      rw [hn] at hx
      simp only [Graph.addNode, setName] at hx
      split at hx
      · cases hx; omega
      · exact hx
  exact ⟨i, j, key s i h1 (h3 ▸ hw.1), key t j h2 (h4 ▸ hw.2), e, he, h3, h4⟩

theorem mergePath_spec : ∀ (l : List (RTy τ × RTy τ × κ)) (tm : TM τ κ), Ok tm →
    (∀ x ∈ l, ¬ NAdj tm x.1.name x.2.1.name) → (l.map fun x => (x.1.name, x.2.1.name)).Nodup →
    ∃ tm', mergePath tm l = some tm' ∧ Ok tm' ∧ Grows tm tm' ∧ (∀ x ∈ l, NAdj tm' x.1.name x.2.1.name)
  | [], tm, hok, _, _ => ⟨tm, rfl, hok, Grows.refl _, by simp⟩
  | (a, b, w) :: rest, tm, hok, hno, hnd => by
    unfold mergePath
    have hok1 := addNode_ok hok a
    have hok2 := addNode_ok hok1 b
    have hg1 := grows_addNode tm a
    have hg2 := grows_addNode (addNode tm a).1 b
    have hna : (addNode (addNode tm a).1 b).1.names a.name = some (addNode tm a).2 :=
      hg2.names _ _ (addNode_names a)
    have hnb : (addNode (addNode tm a).1 b).1.names b.name = some (addNode (addNode tm a).1 b).2 := addNode_names b
    have hback : ∀ s t, NAdj (addNode (addNode tm a).1 b).1 s t → NAdj tm s t :=
      fun s t h => nadj_addNode hok a (nadj_addNode hok1 b h)
    simp only
    generalize addNode tm a = q1 at *
    obtain ⟨tm1, i⟩ := q1
    simp only at *
    generalize addNode tm1 b = q2 at *
    obtain ⟨tm2, j⟩ := q2
    simp only at *
    have hnadj : ¬ Adj tm2.g i j := by
      intro h
      exact hno (a, b, w) (by simp) (hback _ _ ⟨i, j, hna, hnb, h⟩)
    rw [findEdge_none.2 hnadj]
    simp only
    have hok3 := addEdge_ok hok2 (hok2.lt hna) (hok2.lt hnb) w hnadj
    have hg3 : Grows tm2 { tm2 with g := (Graph.addEdge tm2.g i j w).1 } :=
      ⟨⟨⟨[], by simp [Graph.addEdge]⟩, [⟨i, j, w⟩], rfl⟩, fun _ _ h => h⟩
    rw [List.map_cons, List.nodup_cons] at hnd
    obtain ⟨hfst, hnd'⟩ := hnd
    obtain ⟨tm', r1, r2, r3, r4⟩ := mergePath_spec rest _ hok3 (by
      rintro x hx ⟨i', j', k1, k2, e, he, k3, k4⟩
      simp only [Graph.addEdge, List.mem_append, List.mem_singleton] at he
      rcases he with he | rfl
      · exact hno x (by simp [hx]) (hback _ _ ⟨i', j', k1, k2, e, he, k3, k4⟩)
      · simp only at k1 k2 k3 k4
        subst k3 k4
        apply hfst
        rw [List.mem_map]
        refine ⟨x, hx, ?_⟩
        obtain ⟨ra, v1, v2⟩ := hok2.valid _ _ k1
        obtain ⟨ra', v1', v2'⟩ := hok2.valid _ _ hna
        obtain ⟨rb, u1, u2⟩ := hok2.valid _ _ k2
        obtain ⟨rb', u1', u2'⟩ := hok2.valid _ _ hnb
        rw [v1] at v1'; cases v1'
        rw [u1] at u1'; cases u1'
        rw [← v2, ← v2', ← u2, ← u2']) hnd'
    refine ⟨tm', r1, r2, (hg1.trans (hg2.trans hg3)).trans r3, ?_⟩
    intro x hx
    rcases List.mem_cons.1 hx with rfl | hx
    · refine NAdj.grows r3 ⟨i, j, hna, hnb, ⟨i, j, w⟩, by simp [Graph.addEdge], rfl, rfl⟩
    · exact r4 x hx

/-- The chain found in the speculative graph exists in the type map after merging its new rules. -/
theorem transfer_path {tm tm' : TM τ κ} {s : Snap τ κ} (hs : SnapInv tm s) (hg : Grows tm tm') (hok : Ok tm) (hok' : Ok tm')
    {full : List Nat} (hnew : ∀ x ∈ (possiblePath s full).newEdges, NAdj tm' x.1.name x.2.1.name) :
    ∀ (path : List Nat) (a b i j : Nat) (ra rb : RTy τ), (∀ e ∈ path, e ∈ full) → IsPath s.g a b path →
      s.g.nodes[a]? = some ra → s.g.nodes[b]? = some rb → tm'.names ra.name = some i → tm'.names rb.name = some j →
      ∃ p, IsPath tm'.g i j p ∧ p.length = path.length
  | [], a, b, i, j, ra, rb, _, hp, h1, h2, h3, h4 => by
    cases hp; rw [h1] at h2; cases h2; rw [h3] at h4; cases h4
    exact ⟨[], rfl, rfl⟩
  | e :: path, a, b, i, j, ra, rb, hsub, ⟨ed, k1, k2, k3⟩, h1, h2, h3, h4 => by
    obtain ⟨xe, e1, e2⟩ := hs.edges
    obtain ⟨xn, n1, n2⟩ := hs.nodes
    have hext : Ext tm.g s.g := ⟨⟨xn, n1⟩, xe, e1⟩
    have hdl : ed.dst < s.g.nodes.length := (hs.ok.wf ed (List.mem_of_getElem? k1)).2
    have hrd : s.g.nodes[ed.dst]? = some s.g.nodes[ed.dst] := List.getElem?_eq_getElem hdl
    obtain ⟨i', hi', hadj⟩ : ∃ i', tm'.names (s.g.nodes[ed.dst]).name = some i' ∧ Adj tm'.g i i' := by
      by_cases hlt : e < tm.g.edges.length
      · -- an old rule
        have hold : tm.g.edges[e]? = some ed := by
          rw [e1, List.getElem?_append_left hlt] at k1; exact k1
        have hw := hok.wf ed (List.mem_of_getElem? hold)
        have hsrc : tm.g.nodes[a]? = some ra := by
          rw [n1, List.getElem?_append_left (k2 ▸ hw.1)] at h1; exact h1
        have hdst : tm.g.nodes[ed.dst]? = some s.g.nodes[ed.dst] := by
          have := List.getElem?_eq_getElem hw.2
          rw [this, Option.some_inj]
          have h5 := hext.node this
          rw [hrd] at h5; exact (Option.some_inj.1 h5).symm
        have hi : i = a := by
          have := hg.names _ _ (hok.byName a ra hsrc)
          rw [h3] at this; cases this; rfl
        refine ⟨ed.dst, hg.names _ _ (hok.byName _ _ hdst), ?_⟩
        rw [hi]
        exact hg.ext.adj ⟨ed, List.mem_of_getElem? hold, k2, rfl⟩
      · -- a new rule
        have hle : e < s.g.edges.length := (List.getElem?_eq_some_iff.1 k1).1
        have hmem : (ra, s.g.nodes[ed.dst], ed.w) ∈ (possiblePath s full).newEdges := by
          unfold possiblePath
          simp only [List.mem_filterMap, List.mem_filter]
          refine ⟨e, ⟨hsub e (by simp), ?_⟩, ?_⟩
          · rw [List.contains_iff_mem, e2, List.mem_range'_1]
            rw [e1] at hle; simp at hle
            omega
          · unfold pathEntry
            rw [k1]; simp only
            rw [k2, h1, hrd]
        obtain ⟨x, y, g1, g2, g3⟩ := hnew _ hmem
        rw [h3] at g1; cases g1
        exact ⟨y, g2, g3⟩
    obtain ⟨p, hp, hl⟩ := transfer_path hs hg hok hok' hnew path ed.dst b i' j _ rb (fun x hx => hsub x (by simp [hx])) k3
      hrd h2 hi' h4
    obtain ⟨e', he'⟩ := hadj.edge
    exact ⟨[e'] ++ p, he'.append hp, by simp [hl]; try omega⟩

theorem possiblePath_fresh {tm : TM τ κ} {s : Snap τ κ} (hs : SnapInv tm s) (hok : Ok tm) {path : List Nat}
    (hnd : path.Nodup) :
    (∀ x ∈ (possiblePath s path).newEdges, ¬ NAdj tm x.1.name x.2.1.name) ∧
    ((possiblePath s path).newEdges.map fun x => (x.1.name, x.2.1.name)).Nodup := by
  obtain ⟨xe, e1, e2⟩ := hs.edges
  have hext : Ext tm.g s.g := ⟨by obtain ⟨x, h, _⟩ := hs.nodes; exact ⟨x, h⟩, xe, e1⟩
  have char : ∀ x e, pathEntry s e = some x → ∃ ed, s.g.edges[e]? = some ed ∧ s.g.nodes[ed.src]? = some x.1 ∧ s.g.nodes[ed.dst]? = some x.2.1 := by
    intro x e h
    unfold pathEntry at h
    split at h
    · rename_i ed hed
      split at h
      · cases h; exact ⟨ed, hed, by assumption, by assumption⟩
      · cases h
    · cases h
  have nmEq : ∀ (x y : RTy τ) (i j : Nat), s.g.nodes[i]? = some x → s.g.nodes[j]? = some y → x.name = y.name → i = j := by
    intro x y i j hx hy hn
    have h1 := hs.ok.byName _ _ hx
    have h2 := hs.ok.byName _ _ hy
    rw [hn, h2] at h1; cases h1; rfl
  constructor
  · intro x hx
    simp only [possiblePath, List.mem_filterMap, List.mem_filter] at hx
    obtain ⟨e, ⟨_, hen⟩, hx⟩ := hx
    obtain ⟨ed, hed, ha, hb⟩ := char x e hx
    rw [List.contains_iff_mem, e2, List.mem_range'_1] at hen
    rintro ⟨i, j, n1, n2, f, hf, f1, f2⟩
    obtain ⟨k, hk, rfl⟩ := List.getElem_of_mem hf
    have hk' := List.getElem?_eq_getElem hk
    obtain ⟨ri, v1, v2⟩ := hok.valid _ _ n1
    obtain ⟨rj, u1, u2⟩ := hok.valid _ _ n2
    have hi := nmEq _ _ _ _ ha (hext.node v1) v2.symm
    have hj := nmEq _ _ _ _ hb (hext.node u1) u2.symm
    have := hs.ok.simple e k ed _ hed (hext.edge hk') (by rw [hi, f1]) (by rw [hj, f2])
    omega
  · have hf : (path.filter s.newEdges.contains).Nodup := hnd.filter _
    unfold possiblePath
    simp only
    generalize path.filter s.newEdges.contains = l at hf
    rw [List.map_filterMap]
    refine List.Pairwise.filterMap _ ?_ hf
    intro e e' hne b hb b' hb' hbb
    apply hne
    simp only [Option.map_eq_some_iff] at hb hb'
    obtain ⟨x, hx, rfl⟩ := hb
    obtain ⟨y, hy, rfl⟩ := hb'
    have hxy := hbb.symm
    obtain ⟨ed, h1, h2, h3⟩ := char x e hx
    obtain ⟨ed', k1, k2, k3⟩ := char y e' hy
    simp only [Prod.mk.injEq] at hxy
    exact hs.ok.simple e e' ed ed' h1 k1 (nmEq _ _ _ _ h2 k2 hxy.1.symm) (nmEq _ _ _ _ h3 k3 hxy.2.symm)

/-! ## Theorems -/

/-- C13: whatever the generic rules do and whether or not a conversion is found, after the attempt the graph of types and
rules is exactly the one before the attempt (all indices included); and the attempt never panics. -/
theorem C13_restored (P : PopFn) (ord : List Nat → List Nat) (hord : ∀ l, (ord l).Perm l) (rules : List (Rule τ κ))
    (tm : TM τ κ) (hok : Ok tm) (start goal maxSteps : Nat) (hs : start < tm.g.nodes.length)
    (hg : goal < tm.g.nodes.length) :
    (∃ p, tryBuildPath P ord rules tm start goal maxSteps = .some p tm.g) ∨
    tryBuildPath P ord rules tm start goal maxSteps = .none tm.g := by
  unfold tryBuildPath
  rw [List.getElem?_eq_getElem hg]
  simp only
  have h := tryRounds_good P ord hord rules (goal := goal) (goalTy := tm.g.nodes[goal]) maxSteps (snapNew tm) [start]
    (snapInv_new hok) hs (by simp; exact ⟨[], rfl⟩)
  cases hx : tryRounds P ord rules start goal tm.g.nodes[goal] maxSteps (snapNew tm) [start] with
  | cont s n => rw [hx] at h; right; simp only [restore_eq hok.wf h.1]
  | found s p => rw [hx] at h; left; exact ⟨possiblePath s p, by simp only [restore_eq hok.wf h.1]⟩
  | panic => rw [hx] at h; exact h.elim

/-- C13: if the generator ends without a conversion, the type map (names included) is unchanged. -/
theorem C13_failed_build_unchanged (P : PopFn) (ord : List Nat → List Nat) (hord : ∀ l, (ord l).Perm l)
    (rules : List (Rule τ κ)) (tm : TM τ κ) (hok : Ok tm) (a b : Nat) (ha : a < tm.g.nodes.length)
    (hb : b < tm.g.nodes.length) (h : ∀ p g, tryBuildPath P ord rules tm a b maxTryBuildPathSteps ≠ .some p g) :
    buildPathIfPossible P ord rules tm a b = some tm := by
  unfold buildPathIfPossible
  rcases C13_restored P ord hord rules tm hok a b maxTryBuildPathSteps ha hb with ⟨p, hp⟩ | hp
  · exact absurd hp (h p tm.g)
  · rw [hp]

/-- C48: if the search with generic rules reports a conversion of `p.pathLen` steps, adding its new rules succeeds
(the internal assertion does not fail), keeps all existing types and rules, keeps the map well-formed, and then an
ordinary search finds a genuine chain of at most that many steps. -/
theorem C48_built_path_genuine (P : PopFn) (ord : List Nat → List Nat) (hord : ∀ l, (ord l).Perm l)
    (rules : List (Rule τ κ)) (tm : TM τ κ) (hok : Ok tm) (a b n : Nat) (ha : a < tm.g.nodes.length)
    (hb : b < tm.g.nodes.length) (p : PossiblePath τ κ) (g : Graph (RTy τ) κ)
    (h : tryBuildPath P ord rules tm a b n = .some p g) :
    ∃ tm', mergePath { tm with g := g } p.newEdges = some tm' ∧ Ok tm' ∧ Grows tm tm' ∧
      ∃ q, findPath P tm'.g a b = .ok q ∧ IsPath tm'.g a b q ∧ q.length ≤ p.pathLen := by
  unfold tryBuildPath at h
  rw [List.getElem?_eq_getElem hb] at h
  simp only at h
  have hgood := tryRounds_good P ord hord rules (goal := b) (goalTy := tm.g.nodes[b]) n (snapNew tm) [a]
    (snapInv_new hok) ha (by simp; exact ⟨[], rfl⟩)
  cases hx : tryRounds P ord rules a b tm.g.nodes[b] n (snapNew tm) [a] with
  | cont s m => rw [hx] at h; cases h
  | panic => rw [hx] at h; cases h
  | found s path =>
    rw [hx] at h hgood
    obtain ⟨hs, hext, hpath, hmin⟩ := hgood
    simp only [BuildRes.some.injEq] at h
    obtain ⟨rfl, rfl⟩ := h
    rw [restore_eq hok.wf hs]
    obtain ⟨f1, f2⟩ := possiblePath_fresh hs hok (shortest_nodup hpath hmin)
    obtain ⟨tm', m1, m2, m3, m4⟩ := mergePath_spec _ tm hok f1 f2
    refine ⟨tm', m1, m2, m3, ?_⟩
    have hra := List.getElem?_eq_getElem ha
    have hrb := List.getElem?_eq_getElem hb
    have hext : Ext tm.g s.g := hext
    obtain ⟨q0, hq0, hl⟩ := transfer_path hs m3 hok m2 m4 path a b a b _ _ (fun e he => he) hpath
      (hext.node hra) (hext.node hrb) (m3.names _ _ (hok.byName _ _ hra)) (m3.names _ _ (hok.byName _ _ hrb))
    have ha' : a < tm'.g.nodes.length := lt_of_lt_of_le ha m3.ext.len
    obtain ⟨q, hq⟩ := C10_complete P tm'.g a b q0 m2.wf ha' hq0
    refine ⟨q, hq, C10_sound P _ a b q m2.wf ha' hq, ?_⟩
    have := C10_shortest P _ a b q q0 m2.wf ha' hq hq0
    simp only [possiblePath]; omega

/-- C48: looking for a conversion, with the construction of missing ones from generic rules, never panics, and what it
returns is a genuine chain in the resulting map, which extends the former map. -/
theorem C48_find_or_build (P : PopFn) (ord : List Nat → List Nat) (hord : ∀ l, (ord l).Perm l)
    (rules : List (Rule τ κ)) (tm : TM τ κ) (hok : Ok tm) (a b : Nat) (ha : a < tm.g.nodes.length)
    (hb : b < tm.g.nodes.length) :
    ∃ tm' r, findOrBuildPath P ord rules tm a b = some (tm', r) ∧ Ok tm' ∧ Grows tm tm' ∧
      ((∃ p, r = .ok p ∧ IsPath tm'.g a b p) ∨ (r = .err ∧ tm' = tm ∧ ∀ q, ¬ IsPath tm.g a b q)) := by
  unfold findOrBuildPath
  have h10 := C10_error_iff P tm.g a b hok.wf ha
  cases hf : findPath P tm.g a b with
  | panic => exact absurd hf h10.2
  | ok p =>
    exact ⟨tm, .ok p, rfl, hok, Grows.refl _, Or.inl ⟨p, rfl, C10_sound P _ a b p hok.wf ha hf⟩⟩
  | err =>
    simp only
    rcases C13_restored P ord hord rules tm hok a b maxTryBuildPathSteps ha hb with ⟨p, hp⟩ | hp
    · obtain ⟨tm', m1, m2, m3, q, hq, hq2, _⟩ := C48_built_path_genuine P ord hord rules tm hok a b _ ha hb p _ hp
      have : buildPathIfPossible P ord rules tm a b = some tm' := by
        unfold buildPathIfPossible; rw [hp]; exact m1
      rw [this]
      exact ⟨tm', _, rfl, m2, m3, Or.inl ⟨q, hq, hq2⟩⟩
    · have : buildPathIfPossible P ord rules tm a b = some tm := by
        unfold buildPathIfPossible; rw [hp]
      rw [this]
      exact ⟨tm, _, rfl, hok, Grows.refl _, Or.inr ⟨hf, rfl, h10.1.1 hf⟩⟩

/-! ## A concrete case -/

/-- Two unrelated types `a`, `c`; one generic rule wraps any type: `x ⟶ &x`, another one turns `&x` into `c`. -/
def exTM : TM Unit Nat :=
  (addNode (addNode empty ⟨['a'], ()⟩).1 ⟨['c'], ()⟩).1
/-- First rule. -/
def exRef : Rule Unit Nat := fun f _ _ => some (⟨'&' :: f.name, ()⟩, 1)
/-- Second rule. -/
def exDeref : Rule Unit Nat := fun f _ _ => if f.name.head? = some '&' then some (⟨['c'], ()⟩, 2) else none

/-- Number of steps of a built path. -/
def BuildRes.len {τ κ} : BuildRes τ κ → Option (Nat × Nat)
  | .some p g => Option.some (p.pathLen, g.nodes.length)
  | _ => Option.none

example : Ok exTM := addNode_ok (addNode_ok ok_empty _) _

end Flapi.TMap
