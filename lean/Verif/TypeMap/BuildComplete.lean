import Verif.TypeMap.BuildRules
/-! # The search with generic rules finds every chain of at most seven steps (C48) -/
namespace Flapi.TMap
open Graph
variable {τ κ : Type}

/-! ## Specification -/

/-- Types by name in the map proper. -/
def lookup (tm : TM τ κ) (n : Text) : Option (RTy τ) := (tm.names n).bind fun i => tm.g.nodes[i]?

/-- A generic rule converts the type named `a` to the one named `b`, whatever else has become known in the meantime (a type named `a` is one
of the map, or obtained from it by rules). -/
def Applies (tm : TM τ κ) (rules : List (Rule τ κ)) (goal : RTy τ) (rule : Rule τ κ) (a b : Text) : Prop :=
  ∀ (f : RTy τ) (look : Text → Option (RTy τ)), Derived rules goal tm.g f → f.name = a → (∀ n r, lookup tm n = some r → look n = some r) →
    ∃ tt w, rule f goal look = some (tt, w) ∧ tt.name = b

/-- `Chain k t`: the type named `t` is reached from `start` in `k` steps, each of them a known conversion or the
application of a generic rule. -/
inductive Chain (tm : TM τ κ) (rules : List (Rule τ κ)) (goal : RTy τ) (start : Nat) : Nat → Text → Prop
  | start {r} : tm.g.nodes[start]? = some r → Chain tm rules goal start 0 r.name
  | known {k a i j r} : Chain tm rules goal start k a → tm.names a = some i → Adj tm.g i j → tm.g.nodes[j]? = some r →
      Chain tm rules goal start (k + 1) r.name
  | generic {k a b rule} : Chain tm rules goal start k a → rule ∈ rules → Applies tm rules goal rule a b → a ≠ b →
      Chain tm rules goal start (k + 1) b

/-! ## Proof -/

/-- Node of a name in a snapshot. -/
def snapNode (s : Snap τ κ) (n : Text) : Option Nat := (snapTM s).names n

theorem snapNode_nodeForTy (s : Snap τ κ) (r : RTy τ) : snapNode (nodeForTy s r).1 r.name = some (nodeForTy s r).2 := by
  unfold snapNode
  rw [(nodeForTy_snapTM s r).1, (nodeForTy_snapTM s r).2]
  exact addNode_names r

theorem snapNode_mono_nodeForTy (s : Snap τ κ) (r : RTy τ) {n : Text} {i : Nat} (h : snapNode s n = some i) :
    snapNode (nodeForTy s r).1 n = some i := by
  unfold snapNode at *
  rw [(nodeForTy_snapTM s r).1]
  exact addNode_mono r h

theorem snapNode_addEdge (s : Snap τ κ) (a b : Nat) (w : κ) (n : Text) : snapNode (snapAddEdge s a b w) n = snapNode s n := by
  unfold snapNode snapTM snapAddEdge
  split <;> rfl

/-- Names keep their nodes. -/
def NamesGrow (s s' : Snap τ κ) : Prop := ∀ n i, snapNode s n = some i → snapNode s' n = some i

/-- The additions so far come from rules. -/
abbrev MadeR (tm : TM τ κ) (rules : List (Rule τ κ)) (goalTy : RTy τ) (s : Snap τ κ) : Prop :=
  Made tm.g (NewTy tm.g rules goalTy) (NewRule rules goalTy) s.g

/-- After a stage that does not find the goal: invariants kept, names kept, `next` only grows, goal still unreachable. -/
def ContC (tm : TM τ κ) (start goal : Nat) (s : Snap τ κ) (next : List Nat) (s' : Snap τ κ) (next' : List Nat) : Prop :=
  SnapInv tm s' ∧ Ext s.g s'.g ∧ NamesGrow s s' ∧ (∀ x ∈ next, x ∈ next') ∧ ¬ Reach s'.g start goal

theorem ContC.refl {tm : TM τ κ} {start goal : Nat} {s : Snap τ κ} {next : List Nat} (h : SnapInv tm s)
    (hn : ¬ Reach s.g start goal) : ContC tm start goal s next s next :=
  ⟨h, Ext.refl _, fun _ _ h => h, fun _ h => h, hn⟩

theorem ContC.trans {tm : TM τ κ} {start goal : Nat} {s s1 s2 : Snap τ κ} {n n1 n2 : List Nat}
    (h : ContC tm start goal s n s1 n1) (k : ContC tm start goal s1 n1 s2 n2) : ContC tm start goal s n s2 n2 :=
  ⟨k.1, h.2.1.trans k.2.1, fun a i x => k.2.2.1 a i (h.2.2.1 a i x), fun x hx => k.2.2.2.1 x (h.2.2.2.1 x hx), k.2.2.2.2⟩

theorem lookup_snap {tm : TM τ κ} {s : Snap τ κ} (h : SnapInv tm s) {n : Text} {r : RTy τ} (hl : lookup tm n = some r) :
    findTypeByName s n = some r := by
  unfold lookup at hl
  unfold findTypeByName
  rw [h.names]
  cases hn : tm.names n with
  | none => rw [hn] at hl; cases hl
  | some i =>
    rw [hn] at hl
    simp only [Option.bind_some] at hl
    obtain ⟨x, hx, _⟩ := h.nodes
    simp only
    rw [hx, List.getElem?_append_left (List.getElem?_eq_some_iff.1 hl).1]
    exact hl

/-- A new edge to a node from which the goal is unreachable opens no way to the goal. -/
theorem no_new_way {ν ε} {g h : Graph ν ε} {a b : Nat} {goal : Nat}
    (hadj : ∀ x y, Adj h x y → Adj g x y ∨ (x = a ∧ y = b)) (hb : ¬ Reach h b goal) :
    ∀ (p : List Nat) (x : Nat), IsPath h x goal p → Reach g x goal
  | [], x, hp => ⟨[], hp⟩
  | e :: p, x, hp => by
    obtain ⟨ed, h1, h2, h3⟩ := hp
    have hxy : Adj h x ed.dst := ⟨ed, List.mem_of_getElem? h1, h2, rfl⟩
    rcases hadj _ _ hxy with hg | ⟨_, h5⟩
    · obtain ⟨q, hq⟩ := no_new_way hadj hb p _ h3
      obtain ⟨e', he'⟩ := hg.edge
      exact ⟨_, he'.append hq⟩
    · exact absurd ⟨p, h5 ▸ h3⟩ hb

theorem adj_snapAddEdge_inv (s : Snap τ κ) (a b : Nat) (w : κ) (x y : Nat) (h : Adj (snapAddEdge s a b w).g x y) :
    Adj s.g x y ∨ (x = a ∧ y = b) := by
  unfold snapAddEdge at h
  split at h
  · exact Or.inl h
  · obtain ⟨e, he, h1, h2⟩ := h
    simp only [Graph.addEdge, List.mem_append, List.mem_singleton] at he
    rcases he with he | he
    · exact Or.inl ⟨e, he, h1, h2⟩
    · subst he; exact Or.inr ⟨h1.symm, h2.symm⟩

theorem nodeForTy_adj (s : Snap τ κ) (r : RTy τ) (x y : Nat) (h : Adj (nodeForTy s r).1.g x y) : Adj s.g x y := by
  unfold nodeForTy at h
  split at h
  · exact h
  · split at h
    · exact h
    · exact h

theorem tryRule_cont (P : PopFn) {tm : TM τ κ} {start goal a : Nat} {goalTy frm : RTy τ} {s s' : Snap τ κ} {all : List (Rule τ κ)}
    {next next' : List Nat} (rule : Rule τ κ) (hmem : rule ∈ all) (hm : MadeR tm all goalTy s) (hf : s.g.nodes[a]? = some frm) (hs : SnapInv tm s) (hst : start < s.g.nodes.length) (ha : Reach s.g start a)
    (hn : ¬ Reach s.g start goal)
    (h : tryRule P start goal goalTy a frm s next rule = .cont s' next') :
    ContC tm start goal s next s' next' ∧ MadeR tm all goalTy s' ∧
      ∀ b, Applies tm all goalTy rule frm.name b → frm.name ≠ b → ∃ i, snapNode s' b = some i ∧ i ∈ next' := by
  have hm' : MadeR tm all goalTy s' := by
    have := tryRule_made P (start := start) (goal := goal) (next := next) rule hmem hs hm hf
    rw [h] at this
    exact this
  have hal : a < s.g.nodes.length := reach_lt hs.ok.wf hst ha
  unfold tryRule at h
  cases hr : rule frm goalTy (findTypeByName s) with
  | none =>
    rw [hr] at h
    cases h
    refine ⟨.refl hs hn, hm', fun b hb _ => ?_⟩
    obtain ⟨tt, w, h1, _⟩ := hb frm (findTypeByName s) (derived_of hm hf) rfl (fun n r hl => lookup_snap hs hl)
    rw [hr] at h1; cases h1
  | some tw =>
    obtain ⟨tt, w⟩ := tw
    rw [hr] at h
    simp only at h
    have hto : ∀ b, Applies tm all goalTy rule frm.name b → tt.name = b := by
      intro b hb
      obtain ⟨tt', w', h1, h2⟩ := hb frm (findTypeByName s) (derived_of hm hf) rfl (fun n r hl => lookup_snap hs hl)
      rw [hr] at h1; cases h1; exact h2
    split at h
    · cases h
      rename_i heq
      exact ⟨.refl hs hn, hm', fun b hb hne => absurd (heq.trans (hto b hb)) hne⟩
    · have hs1 := snapInv_nodeForTy hs tt
      have hlt := nodeForTy_lt hs.ok tt
      have he1 := ext_nodeForTy s tt
      have hal1 : a < (nodeForTy s tt).1.g.nodes.length := lt_of_lt_of_le hal he1.len
      have hs2 := snapInv_addEdge hs1 hal1 hlt w
      have he2 := ext_snapAddEdge (nodeForTy s tt).1 a (nodeForTy s tt).2 w
      rcases hasPath_spec (snapAddEdge (nodeForTy s tt).1 a (nodeForTy s tt).2 w).g (nodeForTy s tt).2 goal with ⟨hp, _⟩ | ⟨hp, hnr⟩
      · rw [hp] at h
        simp only at h
        split at h <;> cases h
      · rw [hp] at h
        cases h
        have hsn : snapNode (snapAddEdge (nodeForTy s tt).1 a (nodeForTy s tt).2 w) tt.name = some (nodeForTy s tt).2 := by
          rw [snapNode_addEdge]; exact snapNode_nodeForTy s tt
        refine ⟨⟨hs2, he1.trans he2, ?_, ?_, ?_⟩, hm', ?_⟩
        · intro n i hi
          rw [snapNode_addEdge]; exact snapNode_mono_nodeForTy s tt hi
        · intro x hx; exact mem_insertSet.2 (Or.inl hx)
        · rintro ⟨p, hp'⟩
          refine hn (no_new_way (a := a) (b := (nodeForTy s tt).2) ?_ hnr p start hp')
          intro x y hxy
          rcases adj_snapAddEdge_inv _ _ _ _ _ _ hxy with hxy | hxy
          · exact Or.inl (nodeForTy_adj s tt x y hxy)
          · exact Or.inr hxy
        · intro b hb _
          rw [← hto b hb]
          exact ⟨_, hsn, mem_insertSet.2 (Or.inr rfl)⟩

theorem tryRules_cont (P : PopFn) {tm : TM τ κ} {start goal a : Nat} {goalTy frm : RTy τ} {all : List (Rule τ κ)} :
    ∀ (rules : List (Rule τ κ)) (s s' : Snap τ κ) (next next' : List Nat), (∀ r ∈ rules, r ∈ all) → MadeR tm all goalTy s →
      s.g.nodes[a]? = some frm → SnapInv tm s → start < s.g.nodes.length →
      Reach s.g start a → ¬ Reach s.g start goal →
      tryRules P start goal goalTy a frm s next rules = .cont s' next' →
      ContC tm start goal s next s' next' ∧ MadeR tm all goalTy s' ∧ ∀ rule ∈ rules, ∀ b, Applies tm all goalTy rule frm.name b → frm.name ≠ b →
        ∃ i, snapNode s' b = some i ∧ i ∈ next'
  | [], s, s', next, next', _, hm, _, hs, _, _, hn, h => by
    cases h
    exact ⟨.refl hs hn, hm, by simp⟩
  | r :: rs, s, s', next, next', hsub, hm, hf, hs, hst, ha, hn, h => by
    unfold tryRules at h
    cases hx : tryRule P start goal goalTy a frm s next r with
    | found s1 p => rw [hx] at h; cases h
    | panic => rw [hx] at h; cases h
    | cont s1 n1 =>
      rw [hx] at h
      simp only at h
      obtain ⟨c1, cm, c2⟩ := tryRule_cont P r (hsub r (by simp)) hm hf hs hst ha hn hx
      obtain ⟨d1, dm, d2⟩ := tryRules_cont P rs s1 s' n1 next' (fun r hr => hsub r (by simp [hr])) cm (c1.2.1.node hf) c1.1 (lt_of_lt_of_le hst c1.2.1.len) (c1.2.1.reach ha) c1.2.2.2.2 h
      refine ⟨c1.trans d1, dm, ?_⟩
      intro rule hrule b hb hne
      rcases List.mem_cons.1 hrule with e | hrule
      · rw [e] at hb
        obtain ⟨i, i1, i2⟩ := c2 b hb hne
        exact ⟨i, d1.2.2.1 _ _ i1, d1.2.2.2.1 _ i2⟩
      · exact d2 rule hrule b hb hne

/-- What a round guarantees about one of its types. -/
def Covered (tm : TM τ κ) (rules : List (Rule τ κ)) (goalTy : RTy τ) (a : Nat) (s' : Snap τ κ) (next' : List Nat) : Prop :=
  (∀ j, Adj tm.g a j → j ∈ next') ∧
    ∀ n, snapNode s' n = some a → ∀ rule ∈ rules, ∀ b, Applies tm rules goalTy rule n b → n ≠ b →
      ∃ i, snapNode s' b = some i ∧ i ∈ next'

theorem snap_name {tm : TM τ κ} {s : Snap τ κ} (h : SnapInv tm s) {n : Text} {i : Nat} (hn : snapNode s n = some i) :
    ∃ r, s.g.nodes[i]? = some r ∧ r.name = n := h.ok.valid n i hn

theorem tryRound_cont (P : PopFn) (rules : List (Rule τ κ)) {tm : TM τ κ} {start goal : Nat} {goalTy : RTy τ} :
    ∀ (cur : List Nat) (s s' : Snap τ κ) (next next' : List Nat), MadeR tm rules goalTy s → SnapInv tm s → start < s.g.nodes.length →
      (∀ x ∈ cur, Reach s.g start x) → ¬ Reach s.g start goal →
      tryRound P rules start goal goalTy s next cur = .cont s' next' →
      ContC tm start goal s next s' next' ∧ MadeR tm rules goalTy s' ∧ ∀ a ∈ cur, Covered tm rules goalTy a s' next'
  | [], s, s', next, next', hm, hs, _, _, hn, h => by
    cases h
    exact ⟨.refl hs hn, hm, by simp⟩
  | a :: as, s, s', next, next', hm, hs, hst, hc, hn, h => by
    unfold tryRound at h
    have ha : Reach s.g start a := hc a (by simp)
    have hal : a < s.g.nodes.length := reach_lt hs.ok.wf hst ha
    rw [List.getElem?_eq_getElem hal] at h
    simp only at h
    cases hx : tryRules P start goal goalTy a s.g.nodes[a] s ((neighbors s.g a).foldl insertSet next) rules with
    | found s1 p => rw [hx] at h; cases h
    | panic => rw [hx] at h; cases h
    | cont s1 n1 =>
      rw [hx] at h
      simp only at h
      obtain ⟨c1, cm, c2⟩ := tryRules_cont P rules s s1 _ n1 (fun _ h => h) hm (List.getElem?_eq_getElem hal) hs hst ha hn hx
      obtain ⟨d1, dm, d2⟩ := tryRound_cont P rules as s1 s' n1 next' cm c1.1 (lt_of_lt_of_le hst c1.2.1.len)
        (fun x hx => c1.2.1.reach (hc x (by simp [hx]))) c1.2.2.2.2 h
      have c1' : ContC tm start goal s next s1 n1 :=
        ⟨c1.1, c1.2.1, c1.2.2.1, fun x hx => c1.2.2.2.1 x (mem_foldl_insertSet.2 (Or.inl hx)), c1.2.2.2.2⟩
      refine ⟨c1'.trans d1, dm, ?_⟩
      intro b hb
      rcases List.mem_cons.1 hb with e | hb
      · subst e
        constructor
        · intro j hj
          refine d1.2.2.2.1 j (c1.2.2.2.1 j (mem_foldl_insertSet.2 (Or.inr (mem_neighbors.2 ?_))))
          obtain ⟨e, he, e1, e2⟩ := hj
          obtain ⟨x, hx, _⟩ := hs.edges
          exact ⟨e, by rw [hx]; simp [he], e1, e2⟩
        · intro n hnn rule hrule t ht hne
          obtain ⟨r, r1, r2⟩ := snap_name d1.1 hnn
          have : s'.g.nodes[b]? = some s.g.nodes[b] :=
            (c1.2.1.trans d1.2.1).node (List.getElem?_eq_getElem hal)
          rw [this] at r1
          cases r1
          obtain ⟨i, i1, i2⟩ := c2 rule hrule t (by rw [r2]; exact ht) (by rw [r2]; exact hne)
          exact ⟨i, d1.2.2.1 _ _ i1, d1.2.2.2.1 _ i2⟩
      · exact d2 b hb

/-- As long as the goal is not found every type reached by a chain of `k` steps is looked at in round `k`. -/
theorem tryRounds_cont (P : PopFn) (ord : List Nat → List Nat) (hord : ∀ l, (ord l).Perm l) (rules : List (Rule τ κ))
    {tm : TM τ κ} {start goal : Nat} {goalTy : RTy τ} :
    ∀ (n : Nat) (s s' : Snap τ κ) (cur cur' : List Nat) (k : Nat), MadeR tm rules goalTy s → SnapInv tm s → start < s.g.nodes.length →
      (∀ x ∈ cur, Reach s.g start x) → ¬ Reach s.g start goal →
      (∀ t, Chain tm rules goalTy start k t → ∃ i, snapNode s t = some i ∧ i ∈ cur) →
      tryRounds P ord rules start goal goalTy n s cur = .cont s' cur' →
      NamesGrow s s' ∧ ¬ Reach s'.g start goal ∧
      ∀ j, k ≤ j → j ≤ k + n → ∀ t, Chain tm rules goalTy start j t → ∃ i, snapNode s' t = some i ∧ Reach s'.g start i
  | 0, s, s', cur, cur', k, _, hs, hst, hc, hn, hk, h => by
    cases h
    refine ⟨fun _ _ h => h, hn, fun j h1 h2 t ht => ?_⟩
    have : j = k := by omega
    subst this
    obtain ⟨i, i1, i2⟩ := hk t ht
    exact ⟨i, i1, hc i i2⟩
  | n + 1, s, s', cur, cur', k, hm, hs, hst, hc, hn, hk, h => by
    unfold tryRounds at h
    split at h
    · rename_i he
      cases h
      refine ⟨fun _ _ h => h, hn, fun j h1 h2 t ht => ?_⟩
      exfalso
      have hne : ∀ t, ¬ Chain tm rules goalTy start k t := by
        intro t ht
        obtain ⟨i, _, i2⟩ := hk t ht
        rw [List.isEmpty_iff.1 he] at i2
        simp at i2
      have : ∀ d t, ¬ Chain tm rules goalTy start (k + d) t := by
        intro d
        induction d with
        | zero => exact hne
        | succ d ih =>
          intro t ht
          rw [← Nat.add_assoc] at ht
          generalize hm : k + d + 1 = m at ht
          cases ht with
          | start => omega
          | known c => have e := Nat.succ.inj hm; subst e; exact ih _ c
          | generic c => have e := Nat.succ.inj hm; subst e; exact ih _ c
      exact this (j - k) t (by rw [show k + (j - k) = j by omega]; exact ht)
    · have hc' : ∀ x ∈ ord cur, Reach s.g start x := fun x hx => hc x ((hord cur).subset hx)
      cases hx : tryRound P rules start goal goalTy s [] (ord cur) with
      | found s1 p => rw [hx] at h; cases h
      | panic => rw [hx] at h; cases h
      | cont s1 n1 =>
        rw [hx] at h
        simp only at h
        obtain ⟨c1, cm, c2⟩ := tryRound_cont P rules (ord cur) s s1 [] n1 hm hs hst hc' hn hx
        have hg := tryRound_good P rules (goal := goal) (goalTy := goalTy) (ord cur) s [] hs hst hc' (by simp)
        rw [hx] at hg
        have hk1 : ∀ t, Chain tm rules goalTy start (k + 1) t → ∃ i, snapNode s1 t = some i ∧ i ∈ n1 := by
          intro t ht
          generalize hm : k + 1 = m at ht
          cases ht with
          | start => omega
          | @known k' a i j r c h1 h2 h3 =>
            have e := Nat.succ.inj hm; subst e
            obtain ⟨i', i1, i2⟩ := hk a c
            have hin : snapNode s a = some i := by
              unfold snapNode snapTM
              simp only [hs.names, h1]
            rw [i1] at hin
            cases hin
            refine ⟨j, ?_, (c2 i ((hord cur).mem_iff.2 i2)).1 j h2⟩
            have : (snapTM s1).g.nodes[j]? = some r := by
              obtain ⟨x, hx, _⟩ := c1.1.nodes
              show s1.g.nodes[j]? = some r
              rw [hx, List.getElem?_append_left (List.getElem?_eq_some_iff.1 h3).1]
              exact h3
            exact c1.1.ok.byName j r this
          | @generic k' a b rule c h1 h2 h3 =>
            have e := Nat.succ.inj hm; subst e
            obtain ⟨i', i1, i2⟩ := hk a c
            exact (c2 i' ((hord cur).mem_iff.2 i2)).2 a (c1.2.2.1 _ _ i1) rule h1 t h2 h3
        obtain ⟨d1, d2, d3⟩ := tryRounds_cont P ord hord rules n s1 s' n1 cur' (k + 1) cm c1.1 (lt_of_lt_of_le hst c1.2.1.len)
          hg.2.2 c1.2.2.2.2 hk1 h
        have hgr := tryRounds_good P ord hord rules (goal := goal) (goalTy := goalTy) n s1 n1 c1.1
          (lt_of_lt_of_le hst c1.2.1.len) hg.2.2
        rw [h] at hgr
        refine ⟨fun a i hi => d1 _ _ (c1.2.2.1 _ _ hi), d2, fun j h1 h2 t ht => ?_⟩
        rcases Nat.lt_or_ge k j with hj | hj
        · exact d3 j hj (by omega) t ht
        · have : j = k := by omega
          subst this
          obtain ⟨i, i1, i2⟩ := hk t ht
          exact ⟨i, d1 _ _ (c1.2.2.1 _ _ i1), (c1.2.1.trans hgr.2.1).reach (hc i i2)⟩

/-- C48: if the wanted type can be reached by a chain of at most seven steps, known conversions and applications of generic
rules mixed in any way, then a conversion is found. -/
theorem C48_complete (P : PopFn) (ord : List Nat → List Nat) (hord : ∀ l, (ord l).Perm l) (rules : List (Rule τ κ))
    (tm : TM τ κ) (hok : Ok tm) (a b k : Nat) (ha : a < tm.g.nodes.length) (target : RTy τ)
    (hb : tm.g.nodes[b]? = some target) (hk : k ≤ 7) (hc : Chain tm rules target a k target.name) :
    ∃ tm' p, findOrBuildPath P ord rules tm a b = some (tm', .ok p) ∧ IsPath tm'.g a b p := by
  have hbl := (List.getElem?_eq_some_iff.1 hb).1
  obtain ⟨tm', r, h1, h2, h3, h4⟩ := C48_find_or_build P ord hord rules tm hok a b ha hbl
  rcases h4 with ⟨p, e, hp⟩ | ⟨e, e2, hno⟩
  · exact ⟨tm', p, by rw [h1, e], hp⟩
  · exfalso
    rw [e, e2] at h1
    have hfp : findPath P tm.g a b = .err := by
      unfold findOrBuildPath at h1
      cases hf : findPath P tm.g a b with
      | err => rfl
      | ok p => rw [hf] at h1; simp at h1
      | panic => rw [hf] at h1; simp at h1
    have hnone : tryBuildPath P ord rules tm a b maxTryBuildPathSteps = .none tm.g := by
      rcases C13_restored P ord hord rules tm hok a b maxTryBuildPathSteps ha hbl with ⟨p, hp⟩ | hp
      · exfalso
        obtain ⟨tm2, m1, _, _, q, hq, _⟩ := C48_built_path_genuine P ord hord rules tm hok a b _ ha hbl p _ hp
        unfold findOrBuildPath buildPathIfPossible at h1
        rw [hfp, hp] at h1
        simp only at h1
        rw [m1] at h1
        simp only [Option.some.injEq, Prod.mk.injEq] at h1
        rw [hq] at h1
        cases h1.2
      · exact hp
    unfold tryBuildPath at hnone
    rw [hb] at hnone
    simp only at hnone
    cases hx : tryRounds P ord rules a b target maxTryBuildPathSteps (snapNew tm) [a] with
    | found s p => rw [hx] at hnone; cases hnone
    | panic => rw [hx] at hnone; cases hnone
    | cont s' cur' =>
      obtain ⟨d1, d2, d3⟩ := tryRounds_cont P ord hord rules maxTryBuildPathSteps (snapNew tm) s' [a] cur' 0
        (made_refl _) (snapInv_new hok) ha (by simp; exact ⟨[], rfl⟩) (by rintro ⟨q, hq⟩; exact hno q hq) (by
          intro t ht
          cases ht with
          | start h =>
            refine ⟨a, ?_, by simp⟩
            have := hok.byName a _ h
            unfold snapNode snapTM snapNew
            simp only [this]) hx
      obtain ⟨i, i1, i2⟩ := d3 k (by omega) (by simp only [maxTryBuildPathSteps]; omega) target.name hc
      have hbn := hok.byName b target hb
      have : snapNode s' target.name = some b := by
        refine d1 _ _ ?_
        unfold snapNode snapTM snapNew
        simp only [hbn]
      rw [i1] at this
      cases this
      exact d2 i2

/-- A chain of two generic rules: `a ⟶ &a ⟶ c`. -/
example : ∃ (b : Nat) (target : RTy Unit), exTM.g.nodes[b]? = some target ∧ Chain exTM [exRef, exDeref] target 0 2 target.name :=
  ⟨1, ⟨['c'], ()⟩, rfl, Chain.generic (a := ['&', 'a']) (rule := exDeref)
    (Chain.generic (a := ['a']) (rule := exRef) (Chain.start (r := ⟨['a'], ()⟩) rfl) (by simp)
      (by intro f look _ hf _; exact ⟨_, _, rfl, by simp [hf]⟩) (by decide))
    (by simp) (by intro f look _ hf _; exact ⟨⟨['c'], ()⟩, 2, by simp [exDeref, hf], rfl⟩) (by decide)⟩

end Flapi.TMap
