import Verif.TypeMap.BuildProps
/-! # Everything the search adds comes from a generic rule (C48) -/
namespace Flapi.TMap
open Graph
variable {τ κ : Type}

/-! ## Specification -/

/-- Some generic rule turns type `frm` into type `tt` with conversion `w` when `goal` is the type wanted. -/
def Applied (rules : List (Rule τ κ)) (goal frm tt : RTy τ) (w : κ) : Prop :=
  ∃ rule ∈ rules, ∃ look, rule frm goal look = some (tt, w)

/-- The type is one of the graph, or comes from such a type by rules. -/
inductive Derived (rules : List (Rule τ κ)) (goal : RTy τ) (g : Graph (RTy τ) κ) : RTy τ → Prop
  | old {i : Nat} {q : RTy τ} (h : g.nodes[i]? = some q) : Derived rules goal g q
  | rule {frm q : RTy τ} {w : κ} (h : Derived rules goal g frm) (ha : Applied rules goal frm q w) : Derived rules goal g q

/-! ## Lemmas -/

/-- Nodes and edges of `g` beyond those of `base` satisfy `N` and `E`. -/
structure Made (base : Graph (RTy τ) κ) (N : RTy τ → Prop) (E : RTy τ → RTy τ → κ → Prop) (g : Graph (RTy τ) κ) : Prop where
  nodes : ∀ (i : Nat) q, g.nodes[i]? = some q → base.nodes.length ≤ i → N q
  edges : ∀ (k : Nat) e, g.edges[k]? = some e → base.edges.length ≤ k →
    ∃ x y, g.nodes[e.src]? = some x ∧ g.nodes[e.dst]? = some y ∧ E x y e.w
  old : ∀ (i : Nat) q, g.nodes[i]? = some q → i < base.nodes.length → base.nodes[i]? = some q
  len : base.nodes.length ≤ g.nodes.length

variable {base : Graph (RTy τ) κ} {N : RTy τ → Prop} {E : RTy τ → RTy τ → κ → Prop}

theorem made_refl (base : Graph (RTy τ) κ) : Made base N E base := by
  refine ⟨?_, ?_, fun _ _ h _ => h, Nat.le_refl _⟩
  · intro i q h hle
    have := (List.getElem?_eq_some_iff.1 h).1; omega
  · intro k e h hle
    have := (List.getElem?_eq_some_iff.1 h).1; omega

theorem made_node {g : Graph (RTy τ) κ} (h : Made base N E g) {r : RTy τ} (hr : N r) : Made base N E (Graph.addNode g r).1 := by
  refine ⟨?_, ?_, ?_, ?_⟩
  · intro i q hq hle
    simp only [Graph.addNode] at hq
    rw [List.getElem?_append] at hq
    split at hq
    · exact h.nodes i q hq hle
    · have : q = r := by
        have := List.mem_of_getElem? hq
        simpa using this
      rw [this]; exact hr
  · intro k e he hle
    obtain ⟨x, y, h1, h2, h3⟩ := h.edges k e he hle
    refine ⟨x, y, ?_, ?_, h3⟩
    · simp only [Graph.addNode]
      rw [List.getElem?_append_left (List.getElem?_eq_some_iff.1 h1).1]; exact h1
    · simp only [Graph.addNode]
      rw [List.getElem?_append_left (List.getElem?_eq_some_iff.1 h2).1]; exact h2
  · intro i q hq hlt
    simp only [Graph.addNode] at hq
    rw [List.getElem?_append_left (Nat.lt_of_lt_of_le hlt h.len)] at hq
    exact h.old i q hq hlt
  · simp only [Graph.addNode, List.length_append]
    exact Nat.le_trans h.len (Nat.le_add_right _ _)

theorem made_edge {g : Graph (RTy τ) κ} (h : Made base N E g) {a b : Nat} {x y : RTy τ} {w : κ} (ha : g.nodes[a]? = some x)
    (hb : g.nodes[b]? = some y) (he : E x y w) : Made base N E (Graph.addEdge g a b w).1 := by
  refine ⟨h.nodes, ?_, h.old, h.len⟩
  · intro k e hk hle
    simp only [Graph.addEdge] at hk
    rw [List.getElem?_append] at hk
    split at hk
    · exact h.edges k e hk hle
    · have : e = ⟨a, b, w⟩ := by
        have := List.mem_of_getElem? hk
        simpa using this
      subst this
      exact ⟨x, y, ha, hb, he⟩

theorem made_nodeForTy {s : Snap τ κ} (h : Made base N E s.g) {r : RTy τ} (hr : N r) : Made base N E (nodeForTy s r).1.g := by
  unfold nodeForTy
  cases s.names r.name with
  | some i => exact h
  | none =>
    cases s.newNames r.name with
    | some i => exact h
    | none => exact made_node h hr

theorem nodeForTy_at {s : Snap τ κ} (hok : Ok (snapTM s)) (r : RTy τ) :
    ∃ q, (nodeForTy s r).1.g.nodes[(nodeForTy s r).2]? = some q ∧ q.name = r.name := by
  have h1 : (nodeForTy s r).1.g = (snapTM (nodeForTy s r).1).g := rfl
  rw [h1, (nodeForTy_snapTM s r).1, (nodeForTy_snapTM s r).2]
  exact (addNode_ok hok r).valid _ _ (addNode_names r)

theorem made_snapAddEdge {s : Snap τ κ} (h : Made base N E s.g) {a b : Nat} {x y : RTy τ} {w : κ} (ha : s.g.nodes[a]? = some x)
    (hb : s.g.nodes[b]? = some y) (he : E x y w) : Made base N E (snapAddEdge s a b w).g := by
  unfold snapAddEdge
  cases findEdge s.g a b with
  | some i => exact h
  | none => exact made_edge h ha hb he

/-- Types that are results of generic rules. -/
def NewTy (base : Graph (RTy τ) κ) (rules : List (Rule τ κ)) (goal q : RTy τ) : Prop :=
  ∃ frm w, Derived rules goal base frm ∧ Applied rules goal frm q w
/-- Conversions that are results of generic rules. -/
def NewRule (rules : List (Rule τ κ)) (goal x y : RTy τ) (w : κ) : Prop := ∃ tt, Applied rules goal x tt w ∧ y.name = tt.name

/-- What every stage of the search guarantees about additions. -/
def GoodR (base : Graph (RTy τ) κ) (rules : List (Rule τ κ)) (goalTy : RTy τ) : TB τ κ → Prop
  | .cont s _ => Made base (NewTy base rules goalTy) (NewRule rules goalTy) s.g
  | .found s _ => Made base (NewTy base rules goalTy) (NewRule rules goalTy) s.g
  | .panic => True

theorem derived_of {rules : List (Rule τ κ)} {goal : RTy τ} {g : Graph (RTy τ) κ} (hm : Made base (NewTy base rules goal) E g) {a : Nat}
    {q : RTy τ} (h : g.nodes[a]? = some q) : Derived rules goal base q := by
  rcases Nat.lt_or_ge a base.nodes.length with hlt | hge
  · exact .old (hm.old a q h hlt)
  · obtain ⟨frm, w, h1, h2⟩ := hm.nodes a q h hge
    exact .rule h1 h2

theorem tryRule_made (P : PopFn) {tm : TM τ κ} {start goal a : Nat} {goalTy frm : RTy τ} {s : Snap τ κ} {next : List Nat}
    {rules : List (Rule τ κ)} (rule : Rule τ κ) (hmem : rule ∈ rules) (hs : SnapInv tm s) (hm : Made base (NewTy base rules goalTy) (NewRule rules goalTy) s.g)
    (ha : s.g.nodes[a]? = some frm) : GoodR base rules goalTy (tryRule P start goal goalTy a frm s next rule) := by
  unfold tryRule
  cases hr : rule frm goalTy (findTypeByName s) with
  | none => exact hm
  | some x =>
    obtain ⟨tt, w⟩ := x
    simp only
    split
    · exact hm
    · have happ : Applied rules goalTy frm tt w := ⟨rule, hmem, _, hr⟩
      have he1 := ext_nodeForTy s tt
      have hm1 := made_nodeForTy hm (r := tt) ⟨frm, w, derived_of hm ha, happ⟩
      obtain ⟨q, hq1, hq2⟩ := nodeForTy_at hs.ok tt
      generalize nodeForTy s tt = nt at he1 hm1 hq1
      obtain ⟨s1, toIdx⟩ := nt
      simp only at he1 hm1 hq1 ⊢
      have hm2 := made_snapAddEdge hm1 (he1.node ha) hq1 ⟨tt, happ, hq2⟩
      generalize snapAddEdge s1 a toIdx w = s2 at hm2
      split
      · exact True.intro
      · split <;> first | exact hm2 | exact True.intro
      · exact hm2

theorem tryRules_made (P : PopFn) {tm : TM τ κ} {start goal a : Nat} {goalTy frm : RTy τ} {all : List (Rule τ κ)} :
    ∀ (rules : List (Rule τ κ)) (s : Snap τ κ) (next : List Nat), (∀ r ∈ rules, r ∈ all) → SnapInv tm s → start < s.g.nodes.length →
      Reach s.g start a → (∀ x ∈ next, Reach s.g start x) → s.g.nodes[a]? = some frm →
      Made base (NewTy base all goalTy) (NewRule all goalTy) s.g →
      GoodR base all goalTy (tryRules P start goal goalTy a frm s next rules)
  | [], s, next, _, _, _, _, _, _, hm => hm
  | r :: rs, s, next, hsub, hs, hst, ha, hn, hf, hm => by
    unfold tryRules
    have h := tryRule_good P (goal := goal) (goalTy := goalTy) (frm := frm) r hs hst ha hn
    have h' := tryRule_made P (start := start) (goal := goal) (next := next) r (hsub r (by simp)) hs hm hf
    cases hx : tryRule P start goal goalTy a frm s next r with
    | cont s1 n1 =>
      rw [hx] at h h'
      obtain ⟨h1, h2, h3⟩ := h
      exact tryRules_made P rs s1 n1 (fun r hr => hsub r (by simp [hr])) h1 (lt_of_lt_of_le hst h2.len) (h2.reach ha) h3 (h2.node hf) h'
    | found s1 p => rw [hx] at h'; exact h'
    | panic => exact True.intro

theorem tryRound_made (P : PopFn) (rules : List (Rule τ κ)) {tm : TM τ κ} {start goal : Nat} {goalTy : RTy τ} :
    ∀ (cur : List Nat) (s : Snap τ κ) (next : List Nat), SnapInv tm s → start < s.g.nodes.length →
      (∀ x ∈ cur, Reach s.g start x) → (∀ x ∈ next, Reach s.g start x) →
      Made base (NewTy base rules goalTy) (NewRule rules goalTy) s.g →
      GoodR base rules goalTy (tryRound P rules start goal goalTy s next cur)
  | [], s, next, _, _, _, _, hm => hm
  | a :: as, s, next, hs, hst, hc, hn, hm => by
    unfold tryRound
    have ha : Reach s.g start a := hc a (by simp)
    have hal : a < s.g.nodes.length := reach_lt hs.ok.wf hst ha
    rw [List.getElem?_eq_getElem hal]
    simp only
    have hn' : ∀ x ∈ (neighbors s.g a).foldl insertSet next, Reach s.g start x := by
      intro x hx
      rcases mem_foldl_insertSet.1 hx with hx | hx
      · exact hn x hx
      · exact ha.step (mem_neighbors.1 hx)
    have h := tryRules_good P (goal := goal) (goalTy := goalTy) (frm := s.g.nodes[a]) rules s _ hs hst ha hn'
    have h' := tryRules_made P (goal := goal) (goalTy := goalTy) (frm := s.g.nodes[a]) rules s _ (fun _ h => h) hs hst ha hn'
      (List.getElem?_eq_getElem hal) hm
    cases hx : tryRules P start goal goalTy a s.g.nodes[a] s ((neighbors s.g a).foldl insertSet next) rules with
    | cont s1 n1 =>
      rw [hx] at h h'
      obtain ⟨h1, h2, h3⟩ := h
      exact tryRound_made P rules as s1 n1 h1 (lt_of_lt_of_le hst h2.len) (fun x hx => h2.reach (hc x (by simp [hx]))) h3 h'
    | found s1 p => rw [hx] at h'; exact h'
    | panic => exact True.intro

theorem tryRounds_made (P : PopFn) (ord : List Nat → List Nat) (hord : ∀ l, (ord l).Perm l) (rules : List (Rule τ κ))
    {tm : TM τ κ} {start goal : Nat} {goalTy : RTy τ} :
    ∀ (n : Nat) (s : Snap τ κ) (cur : List Nat), SnapInv tm s → start < s.g.nodes.length →
      (∀ x ∈ cur, Reach s.g start x) → Made base (NewTy base rules goalTy) (NewRule rules goalTy) s.g →
      GoodR base rules goalTy (tryRounds P ord rules start goal goalTy n s cur)
  | 0, s, cur, _, _, _, hm => hm
  | n + 1, s, cur, hs, hst, hc, hm => by
    unfold tryRounds
    split
    · exact hm
    · have h := tryRound_good P rules (goal := goal) (goalTy := goalTy) (ord cur) s [] hs hst
        (fun x hx => hc x ((hord cur).subset hx)) (by simp)
      have h' := tryRound_made P rules (goal := goal) (goalTy := goalTy) (ord cur) s [] hs hst
        (fun x hx => hc x ((hord cur).subset hx)) (by simp) hm
      cases hx : tryRound P rules start goal goalTy s [] (ord cur) with
      | cont s1 n1 =>
        rw [hx] at h h'
        obtain ⟨h1, h2, h3⟩ := h
        exact tryRounds_made P ord hord rules n s1 n1 h1 (lt_of_lt_of_le hst h2.len) h3 h'
      | found s1 p => rw [hx] at h'; exact h'
      | panic => exact True.intro

/-- Types of one name agree. -/
def Agree (f : Text → Option (RTy τ)) (g : Graph (RTy τ) κ) : Prop := ∀ (i : Nat) q, g.nodes[i]? = some q → f q.name = some q

theorem addNode_at {f : Text → Option (RTy τ)} {tm : TM τ κ} (hok : Ok tm) (hf : Agree f tm.g) {r : RTy τ} (hr : f r.name = some r) :
    (addNode tm r).1.g.nodes[(addNode tm r).2]? = some r ∧ Agree f (addNode tm r).1.g := by
  have hag : Agree f (addNode tm r).1.g := by
    unfold addNode
    cases hn : tm.names r.name with
    | some i => exact hf
    | none =>
      intro i q hq
      simp only [Graph.addNode] at hq
      rw [List.getElem?_append] at hq
      split at hq
      · exact hf i q hq
      · have : q = r := by
          have := List.mem_of_getElem? hq
          simpa using this
        rw [this]; exact hr
  refine ⟨?_, hag⟩
  obtain ⟨q, h1, h2⟩ := (addNode_ok hok r).valid _ _ (addNode_names r)
  rw [h1]
  have := hag _ _ h1
  rw [h2, hr] at this
  exact this.symm ▸ rfl

theorem made_addNode {tm : TM τ κ} (h : Made base N E tm.g) {r : RTy τ} (hr : tm.names r.name = none → N r) :
    Made base N E (addNode tm r).1.g := by
  unfold addNode
  cases hn : tm.names r.name with
  | some i => exact h
  | none => exact made_node h (hr hn)

theorem mergePath_made {f : Text → Option (RTy τ)} (b0 : TM τ κ) : ∀ (l : List (RTy τ × RTy τ × κ)) (tm tm' : TM τ κ), Ok tm → Agree f tm.g → Grows b0 tm →
    Made b0.g N E tm.g → (∀ x ∈ l, f x.1.name = some x.1 ∧ f x.2.1.name = some x.2.1 ∧ E x.1 x.2.1 x.2.2 ∧
      (b0.names x.1.name = none → N x.1) ∧ (b0.names x.2.1.name = none → N x.2.1)) →
    mergePath tm l = some tm' → Made b0.g N E tm'.g
  | [], tm, tm', _, _, _, hm, _, h => by cases h; exact hm
  | (a, b, w) :: rest, tm, tm', hok, hf, hgr, hm, hl, h => by
    unfold mergePath at h
    obtain ⟨fa, fb, he, na, nb⟩ := hl (a, b, w) (by simp)
    simp only at fa fb he na nb
    have old : ∀ {t : TM τ κ}, Grows b0 t → ∀ {n : Text}, t.names n = none → b0.names n = none := by
      intro t ht n hn
      cases h0 : b0.names n with
      | none => rfl
      | some i => rw [ht.names _ _ h0] at hn; cases hn
    have a1 := addNode_at hok hf fa
    have hok1 := addNode_ok hok a
    have hm1 := made_addNode hm (r := a) fun h0 => na (old hgr h0)
    have hg1 := hgr.trans (grows_addNode tm a)
    have a2 := addNode_at hok1 a1.2 fb
    have hok2 := addNode_ok hok1 b
    have hm2 := made_addNode hm1 (r := b) fun h0 => nb (old hg1 h0)
    have hg2 := hg1.trans (grows_addNode (addNode tm a).1 b)
    have ha := (grows_addNode (addNode tm a).1 b).ext.node a1.1
    simp only at h
    generalize addNode tm a = q1 at *
    obtain ⟨tm1, i⟩ := q1
    simp only at *
    generalize addNode tm1 b = q2 at *
    obtain ⟨tm2, j⟩ := q2
    simp only at *
    cases hfe : findEdge tm2.g i j with
    | some k => rw [hfe] at h; cases h
    | none =>
      rw [hfe] at h
      simp only at h
      have hlt1 := (List.getElem?_eq_some_iff.1 ha).1
      have hlt2 := (List.getElem?_eq_some_iff.1 a2.1).1
      refine mergePath_made b0 rest { tm2 with g := (Graph.addEdge tm2.g i j w).1 } tm'
        (addEdge_ok hok2 hlt1 hlt2 w (findEdge_none.1 hfe)) a2.2 (hg2.trans ?_) (made_edge hm2 ha a2.1 he)
        (fun x hx => hl x (by simp [hx])) h
      exact ⟨⟨⟨[], by simp [Graph.addEdge]⟩, [⟨i, j, w⟩], rfl⟩, fun _ _ h => h⟩

/-! ## C48 -/

/-- C48: whatever the search for a conversion adds comes from the generic rules.  Every new type is the result of a rule
applied to an old type or to one obtained so, and every new
conversion is one that a rule gives for the type it starts from (the wanted type being the goal); its end is the type with the name the
rule gives. -/
theorem C48_only_instances (P : PopFn) (ord : List Nat → List Nat) (hord : ∀ l, (ord l).Perm l) (rules : List (Rule τ κ))
    (tm tm' : TM τ κ) (hok : Ok tm) (a b : Nat) (ha : a < tm.g.nodes.length) (target : RTy τ) (hb : tm.g.nodes[b]? = some target)
    (r : PathRes) (h : findOrBuildPath P ord rules tm a b = some (tm', r)) :
    (∀ (i : Nat) q, tm'.g.nodes[i]? = some q → tm.g.nodes.length ≤ i → ∃ frm w, Derived rules target tm.g frm ∧ Applied rules target frm q w) ∧
    (∀ (k : Nat) e, tm'.g.edges[k]? = some e → tm.g.edges.length ≤ k →
      ∃ frm q tt, tm'.g.nodes[e.src]? = some frm ∧ tm'.g.nodes[e.dst]? = some q ∧ Applied rules target frm tt e.w ∧ q.name = tt.name) := by
  suffices hm : Made tm.g (NewTy tm.g rules target) (NewRule rules target) tm'.g by
    refine ⟨hm.nodes, fun k e hk hle => ?_⟩
    obtain ⟨x, y, h1, h2, tt, h3, h4⟩ := hm.edges k e hk hle
    exact ⟨x, y, tt, h1, h2, h3, h4⟩
  unfold findOrBuildPath at h
  cases hf : findPath P tm.g a b with
  | panic => rw [hf] at h; cases h; exact made_refl _
  | ok p => rw [hf] at h; cases h; exact made_refl _
  | err =>
    rw [hf] at h
    simp only at h
    cases hb' : buildPathIfPossible P ord rules tm a b with
    | none => rw [hb'] at h; cases h
    | some t =>
      rw [hb'] at h
      cases h
      unfold buildPathIfPossible at hb'
      have hbl := (List.getElem?_eq_some_iff.1 hb).1
      have hgood := tryRounds_good P ord hord rules (goal := b) (goalTy := target) maxTryBuildPathSteps (snapNew tm) [a]
        (snapInv_new hok) ha (by simp; exact ⟨[], rfl⟩)
      have hmade := tryRounds_made (base := tm.g) P ord hord rules (goal := b) (goalTy := target) maxTryBuildPathSteps (snapNew tm) [a]
        (snapInv_new hok) ha (by simp; exact ⟨[], rfl⟩) (made_refl _)
      unfold tryBuildPath at hb'
      rw [hb] at hb'
      simp only at hb'
      cases hx : tryRounds P ord rules a b target maxTryBuildPathSteps (snapNew tm) [a] with
      | panic => rw [hx] at hb'; cases hb'
      | cont s n =>
        rw [hx] at hb' hgood
        simp only [Option.some.injEq] at hb'
        rw [← hb']
        simp only [restore_eq hok.wf hgood.1]
        exact made_refl _
      | found s p =>
        rw [hx] at hb' hgood hmade
        simp only at hb'
        have hs := hgood.1
        rw [restore_eq hok.wf hs] at hb'
        have hb' : mergePath tm (possiblePath s p).newEdges = some tm' := hb'
        have hagS : Agree (fun n => ((snapTM s).names n).bind fun i => s.g.nodes[i]?) s.g := by
          intro i q hq
          simp only [hs.ok.byName i q hq, Option.bind_some]
          exact hq
        obtain ⟨xn, n1, _⟩ := hs.nodes
        obtain ⟨xe, e1, e2⟩ := hs.edges
        have hext : Ext tm.g s.g := ⟨⟨xn, n1⟩, xe, e1⟩
        refine mergePath_made (f := fun n => ((snapTM s).names n).bind fun i => s.g.nodes[i]?) tm _ tm tm' hok
          (fun i q hq => hagS i q (hext.node hq)) (Grows.refl _) (made_refl _) ?_ hb'
        intro x hx'
        simp only [possiblePath, List.mem_filterMap, List.mem_filter] at hx'
        obtain ⟨e, ⟨_, hen⟩, hx'⟩ := hx'
        rw [List.contains_iff_mem, e2, List.mem_range'_1] at hen
        unfold pathEntry at hx'
        split at hx'
        · rename_i ed hed
          split at hx'
          · rename_i xa xb h1 h2
            cases hx'
            obtain ⟨x', y', k1, k2, k3⟩ := hmade.edges e ed hed hen.1
            rw [h1] at k1; cases k1
            rw [h2] at k2; cases k2
            have new : ∀ (i : Nat) q, s.g.nodes[i]? = some q → tm.names q.name = none → NewTy tm.g rules target q := by
              intro i q hq hn
              refine hmade.nodes i q hq ?_
              rcases Nat.lt_or_ge i tm.g.nodes.length with hlt | hge
              · exfalso
                rw [n1, List.getElem?_append_left hlt] at hq
                rw [hok.byName i q hq] at hn; cases hn
              · exact hge
            exact ⟨hagS _ _ h1, hagS _ _ h2, k3, new _ _ h1, new _ _ h2⟩
          · cases hx'
        · cases hx'

/-- Not vacuous: with the rule "a type gives itself followed by `x`" and the types `a`, `axx`, the search adds `ax` and two
conversions. -/
def grow : Rule Unit Nat := fun r _ _ => some (⟨r.name ++ ['x'], ()⟩, r.name.length)

/-- `a` and `axx`, no conversions. -/
def tmEx : TM Unit Nat := (addNode (addNode empty ⟨['a'], ()⟩).1 ⟨['a', 'x', 'x'], ()⟩).1

example : ((findOrBuildPath firstMin id [grow] tmEx 0 1).map fun x => (x.1.g.nodes.map (·.name), x.1.g.edges.map fun e => (e.src, e.dst, e.w))) =
    some ([['a'], ['a', 'x', 'x'], ['a', 'x']], [(0, 2, 1), (2, 1, 2)]) := by decide +kernel

end Flapi.TMap
