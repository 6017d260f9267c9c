import Verif.TypeMap.BuildComplete
/-! # Which conversions are found does not depend on the order in which hash tables are walked (C48) -/
namespace Flapi.TMap
open Graph
variable {τ κ : Type}

/-! ## Specification -/

/-- The lookup knows at least the types of the map. -/
def Extends (tm : TM τ κ) (look : Text → Option (RTy τ)) : Prop := ∀ n r, lookup tm n = some r → look n = some r

/-- Whether a generic rule can be applied, and the name of the type it leads to, depends on the name of the type only. -/
def Uniform (tm : TM τ κ) (rules : List (Rule τ κ)) (goal : RTy τ) : Prop :=
  ∀ rule ∈ rules, ∀ (f f' : RTy τ) (look look' : Text → Option (RTy τ)), Derived rules goal tm.g f → Derived rules goal tm.g f' → f.name = f'.name →
    Extends tm look → Extends tm look' → (rule f goal look).map (·.1.name) = (rule f' goal look').map (·.1.name)

/-- The wanted type is reached by `k` steps of any kind, one application of a generic rule, and known conversions. -/
def FoundAfter (tm : TM τ κ) (rules : List (Rule τ κ)) (goalTy : RTy τ) (start goal k : Nat) : Prop :=
  ∃ (x t : Text) (rule : Rule τ κ), Chain tm rules goalTy start k x ∧ rule ∈ rules ∧ Applies tm rules goalTy rule x t ∧ x ≠ t ∧
    ∃ i, tm.names t = some i ∧ Reach tm.g i goal

/-! ## Proof -/

theorem applies_of {tm : TM τ κ} {rules : List (Rule τ κ)} {goal : RTy τ} (hu : Uniform tm rules goal) {rule : Rule τ κ} (hm : rule ∈ rules)
    {f tt : RTy τ} {w : κ} {look : Text → Option (RTy τ)} (hd : Derived rules goal tm.g f) (hl : Extends tm look)
    (h : rule f goal look = some (tt, w)) : Applies tm rules goal rule f.name tt.name := by
  intro f' look' hd' hn hl'
  have := hu rule hm f f' look look' hd hd' hn.symm hl hl'
  rw [h] at this
  cases hx : rule f' goal look' with
  | none => rw [hx] at this; cases this
  | some p =>
    rw [hx] at this
    exact ⟨p.1, p.2, rfl, (Option.some.inj this).symm⟩

/-- Where the additional edges of the graph come from. -/
structure Inv (tm : TM τ κ) (rules : List (Rule τ κ)) (goalTy : RTy τ) (start goal : Nat) (s : Snap τ κ) : Prop where
  snap : SnapInv tm s
  made : MadeR tm rules goalTy s
  no : ¬ Reach s.g start goal
  edges : ∀ x y, Adj s.g x y → Adj tm.g x y ∨ (Reach s.g start x ∧ ∃ (fx fy : RTy τ) (rule : Rule τ κ), s.g.nodes[x]? = some fx ∧ s.g.nodes[y]? = some fy ∧
    rule ∈ rules ∧ Applies tm rules goalTy rule fx.name fy.name ∧ fx.name ≠ fy.name)

/-- The node is reached in `k` steps. -/
def ChainAt (tm : TM τ κ) (rules : List (Rule τ κ)) (goalTy : RTy τ) (start : Nat) (s : Snap τ κ) (k i : Nat) : Prop :=
  ∃ r, s.g.nodes[i]? = some r ∧ Chain tm rules goalTy start k r.name

/-- What a stage of the search guarantees. -/
def Exact (tm : TM τ κ) (rules : List (Rule τ κ)) (goalTy : RTy τ) (start goal k : Nat) (g0 : Graph (RTy τ) κ) : TB τ κ → Prop
  | .cont s next => Inv tm rules goalTy start goal s ∧ Ext g0 s.g ∧ ∀ i ∈ next, ChainAt tm rules goalTy start s (k + 1) i
  | .found _ _ => FoundAfter tm rules goalTy start goal k
  | .panic => True

/-- A way to the goal in a graph whose additional edges lead to places without a known way to the goal, but for those to `b`. -/
theorem tail_known {ν ε} {g0 h : Graph ν ε} {b goal : Nat} (hadj : ∀ x y, Adj h x y → Adj g0 x y ∨ y = b ∨ ¬ Reach g0 y goal) :
    ∀ (p : List Nat) (x : Nat), IsPath h x goal p → Reach g0 x goal ∨ Reach g0 b goal
  | [], x, hp => Or.inl ⟨[], hp⟩
  | e :: p, x, hp => by
    obtain ⟨ed, h1, h2, h3⟩ := hp
    have hxy : Adj h x ed.dst := ⟨ed, List.mem_of_getElem? h1, h2, rfl⟩
    rcases tail_known hadj p _ h3 with hr | hr
    · rcases hadj _ _ hxy with ha | ha | ha
      · obtain ⟨q, hq⟩ := hr
        obtain ⟨e', he'⟩ := ha.edge
        exact Or.inl ⟨_, he'.append hq⟩
      · exact Or.inr (ha ▸ hr)
      · exact absurd hr ha
    · exact Or.inr hr

theorem ChainAt.ext {tm : TM τ κ} {rules : List (Rule τ κ)} {goalTy : RTy τ} {start k i : Nat} {s s' : Snap τ κ} (h : Ext s.g s'.g)
    (hc : ChainAt tm rules goalTy start s k i) : ChainAt tm rules goalTy start s' k i := by
  obtain ⟨r, h1, h2⟩ := hc
  exact ⟨r, h.node h1, h2⟩

theorem snap_ext {tm : TM τ κ} {s : Snap τ κ} (h : SnapInv tm s) : Ext tm.g s.g := by
  obtain ⟨x, hx, _⟩ := h.nodes
  obtain ⟨y, hy, _⟩ := h.edges
  exact ⟨⟨x, hx⟩, y, hy⟩

theorem tryRule_exact (P : PopFn) {tm : TM τ κ} {start goal a k : Nat} {goalTy frm : RTy τ} {s : Snap τ κ} {all : List (Rule τ κ)}
    {next : List Nat} (rule : Rule τ κ) (hmem : rule ∈ all) (hu : Uniform tm all goalTy) (hI : Inv tm all goalTy start goal s)
    (hgl : goal < tm.g.nodes.length) (hok : Ok tm) (hst : start < s.g.nodes.length) (ha : Reach s.g start a) (hf : s.g.nodes[a]? = some frm) (hc : Chain tm all goalTy start k frm.name)
    (hn : ∀ i ∈ next, ChainAt tm all goalTy start s (k + 1) i) :
    Exact tm all goalTy start goal k s.g (tryRule P start goal goalTy a frm s next rule) := by
  have hcont := fun s' next' => tryRule_cont P (s' := s') (next := next) (next' := next') rule hmem hI.made hf hI.snap hst ha hI.no
  revert hcont
  have hal : a < s.g.nodes.length := reach_lt hI.snap.ok.wf hst ha
  unfold tryRule
  cases hr : rule frm goalTy (findTypeByName s) with
  | none =>
    intro _
    exact ⟨hI, Ext.refl _, hn⟩
  | some tw =>
    obtain ⟨tt, w⟩ := tw
    simp only
    have hap : Applies tm all goalTy rule frm.name tt.name :=
      applies_of hu hmem (derived_of hI.made hf) (fun n r hl => lookup_snap hI.snap hl) hr
    split
    · intro _
      exact ⟨hI, Ext.refl _, hn⟩
    · rename_i hne
      have hs1 := snapInv_nodeForTy hI.snap tt
      have hlt := nodeForTy_lt hI.snap.ok tt
      have he1 := ext_nodeForTy s tt
      have hat : ∃ q, (nodeForTy s tt).1.g.nodes[(nodeForTy s tt).2]? = some q ∧ q.name = tt.name := snap_name hs1 (snapNode_nodeForTy s tt)
      have hadj1 := nodeForTy_adj s tt
      generalize nodeForTy s tt = nt at hs1 hlt he1 hat hadj1
      obtain ⟨s1, j⟩ := nt
      simp only at hs1 hlt he1 hat hadj1 ⊢
      have hal1 : a < s1.g.nodes.length := lt_of_lt_of_le hal he1.len
      have he2 := ext_snapAddEdge s1 a j w
      have hs2 := snapInv_addEdge hs1 hal1 hlt w
      have hinv := adj_snapAddEdge_inv s1 a j w
      have hadd := adj_snapAddEdge s1 a j w
      generalize snapAddEdge s1 a j w = s2 at he2 hs2 hinv hadd
      have he := he1.trans he2
      have hadj : ∀ x y, Adj s2.g x y → Adj s.g x y ∨ (x = a ∧ y = j) := by
        intro x y hxy
        rcases hinv x y hxy with h | h
        · exact Or.inl (hadj1 x y h)
        · exact Or.inr h
      rcases hasPath_spec s2.g j goal with ⟨hp, hreach⟩ | ⟨hp, hnr⟩
      · intro _
        rw [hp]
        simp only
        have hfound : FoundAfter tm all goalTy start goal k := by
          obtain ⟨p, hp⟩ := hreach
          have hext := snap_ext hI.snap
          have : Reach tm.g j goal := by
            rcases tail_known (g0 := tm.g) (h := s2.g) (b := j) (goal := goal) (by
              intro x y hxy
              rcases hadj x y hxy with h | ⟨_, h⟩
              · rcases hI.edges x y h with h' | ⟨h', _⟩
                · exact Or.inl h'
                · right; right
                  intro hr
                  obtain ⟨q1, hq1⟩ := h'.step h
                  obtain ⟨q2, hq2⟩ := hext.reach hr
                  exact hI.no ⟨_, hq1.append hq2⟩
              · exact Or.inr (Or.inl h)) p j hp with h | h
            · exact h
            · exact h
          have hjl : j < tm.g.nodes.length := by
            obtain ⟨q, hq⟩ := this
            cases q with
            | nil => cases hq; exact hgl
            | cons e q =>
              obtain ⟨ed, h1, h2, h3⟩ := hq
              rw [← h2]
              exact (hok.wf ed (List.mem_of_getElem? h1)).1
          refine ⟨frm.name, tt.name, rule, hc, hmem, hap, hne, j, ?_, this⟩
          obtain ⟨q, hq, hqn⟩ := hat
          have h0 : tm.g.nodes[j]? = some q := by
            have h1 := (hext.trans he1).node (List.getElem?_eq_getElem hjl)
            rw [hq] at h1
            rw [List.getElem?_eq_getElem hjl]
            exact h1.symm
          rw [← hqn]
          exact hok.byName j q h0
        split <;> first | exact hfound | trivial
      · rw [hp]
        simp only
        intro hcont
        obtain ⟨c1, cm, _⟩ := hcont _ _ rfl
        refine ⟨⟨c1.1, cm, c1.2.2.2.2, ?_⟩, he, ?_⟩
        · intro x y hxy
          rcases hadj x y hxy with h | ⟨rfl, rfl⟩
          · rcases hI.edges x y h with h' | ⟨h1, fx, fy, r, h2, h3, h4⟩
            · exact Or.inl h'
            · exact Or.inr ⟨he.reach h1, fx, fy, r, he.node h2, he.node h3, h4⟩
          · obtain ⟨q, hq, hqn⟩ := hat
            exact Or.inr ⟨he.reach ha, frm, q, rule, he.node hf, he2.node hq, hmem, hqn ▸ hap, hqn ▸ hne⟩
        · intro i hi
          rcases mem_insertSet.1 hi with hi | rfl
          · exact (hn i hi).ext he
          · obtain ⟨q, hq, hqn⟩ := hat
            exact ⟨q, he2.node hq, hqn ▸ .generic hc hmem hap hne⟩

theorem exact_trans {tm : TM τ κ} {rules : List (Rule τ κ)} {goalTy : RTy τ} {start goal k : Nat} {g0 g1 : Graph (RTy τ) κ} (h : Ext g0 g1) {x : TB τ κ}
    (hx : Exact tm rules goalTy start goal k g1 x) : Exact tm rules goalTy start goal k g0 x := by
  cases x with
  | cont s next => exact ⟨hx.1, h.trans hx.2.1, hx.2.2⟩
  | found s p => exact hx
  | panic => exact hx

theorem tryRules_exact (P : PopFn) {tm : TM τ κ} {start goal a k : Nat} {goalTy frm : RTy τ} {all : List (Rule τ κ)} (hu : Uniform tm all goalTy)
    (hgl : goal < tm.g.nodes.length) (hok : Ok tm) (hc : Chain tm all goalTy start k frm.name) :
    ∀ (rules : List (Rule τ κ)) (s : Snap τ κ) (next : List Nat), (∀ r ∈ rules, r ∈ all) → Inv tm all goalTy start goal s →
      start < s.g.nodes.length → Reach s.g start a → s.g.nodes[a]? = some frm → (∀ i ∈ next, ChainAt tm all goalTy start s (k + 1) i) →
      Exact tm all goalTy start goal k s.g (tryRules P start goal goalTy a frm s next rules)
  | [], s, next, _, hI, _, _, _, hn => ⟨hI, Ext.refl _, hn⟩
  | r :: rs, s, next, hsub, hI, hst, ha, hf, hn => by
    unfold tryRules
    have h := tryRule_exact P r (hsub r (by simp)) hu hI hgl hok hst ha hf hc hn
    cases hx : tryRule P start goal goalTy a frm s next r with
    | found s1 p => rw [hx] at h; exact h
    | panic => trivial
    | cont s1 n1 =>
      rw [hx] at h
      obtain ⟨h1, h2, h3⟩ := h
      exact exact_trans h2 (tryRules_exact P hu hgl hok hc rs s1 n1 (fun r hr => hsub r (by simp [hr])) h1 (lt_of_lt_of_le hst h2.len) (h2.reach ha) (h2.node hf) h3)

theorem tryRound_exact (P : PopFn) {tm : TM τ κ} {start goal k : Nat} {goalTy : RTy τ} {rules : List (Rule τ κ)} (hu : Uniform tm rules goalTy)
    (hgl : goal < tm.g.nodes.length) (hok : Ok tm) :
    ∀ (cur : List Nat) (s : Snap τ κ) (next : List Nat), Inv tm rules goalTy start goal s → start < s.g.nodes.length →
      (∀ x ∈ cur, Reach s.g start x ∧ ChainAt tm rules goalTy start s k x) → (∀ i ∈ next, ChainAt tm rules goalTy start s (k + 1) i) →
      Exact tm rules goalTy start goal k s.g (tryRound P rules start goal goalTy s next cur)
  | [], s, next, hI, _, _, hn => ⟨hI, Ext.refl _, hn⟩
  | a :: as, s, next, hI, hst, hc, hn => by
    unfold tryRound
    obtain ⟨ha, frm, hf, hch⟩ := hc a (by simp)
    rw [hf]
    simp only
    have hn' : ∀ i ∈ (neighbors s.g a).foldl insertSet next, ChainAt tm rules goalTy start s (k + 1) i := by
      intro i hi
      rcases mem_foldl_insertSet.1 hi with hi | hi
      · exact hn i hi
      · rcases hI.edges a i (mem_neighbors.1 hi) with h | ⟨_, fx, fy, rule, h2, h3, h4, h5, h6⟩
        · have hext := snap_ext hI.snap
          obtain ⟨e, he, e1, e2⟩ := h
          obtain ⟨l1, l2⟩ := hok.wf e he
          rw [e1] at l1
          rw [e2] at l2
          have k1 := hext.node (List.getElem?_eq_getElem l1)
          rw [hf] at k1
          have k2 : tm.g.nodes[a]? = some frm := by rw [List.getElem?_eq_getElem l1]; exact k1.symm
          exact ⟨_, hext.node (List.getElem?_eq_getElem l2), .known hch (hok.byName a frm k2) ⟨e, he, e1, e2⟩ (List.getElem?_eq_getElem l2)⟩
        · rw [hf] at h2
          have e := Option.some.inj h2
          subst e
          exact ⟨fy, h3, .generic hch h4 h5 h6⟩
    have h := tryRules_exact P hu hgl hok hch rules s _ (fun _ h => h) hI hst ha hf hn'
    cases hx : tryRules P start goal goalTy a frm s ((neighbors s.g a).foldl insertSet next) rules with
    | found s1 p => rw [hx] at h; exact h
    | panic => trivial
    | cont s1 n1 =>
      rw [hx] at h
      obtain ⟨h1, h2, h3⟩ := h
      exact exact_trans h2 (tryRound_exact P hu hgl hok as s1 n1 h1 (lt_of_lt_of_le hst h2.len)
        (fun x hx => ⟨h2.reach (hc x (by simp [hx])).1, (hc x (by simp [hx])).2.ext h2⟩) h3)

theorem tryRounds_exact (P : PopFn) (ord : List Nat → List Nat) (hord : ∀ l, (ord l).Perm l) {tm : TM τ κ} {start goal : Nat} {goalTy : RTy τ}
    {rules : List (Rule τ κ)} (hu : Uniform tm rules goalTy) (hgl : goal < tm.g.nodes.length) (hok : Ok tm) :
    ∀ (n k : Nat) (s : Snap τ κ) (cur : List Nat), Inv tm rules goalTy start goal s → start < s.g.nodes.length →
      (∀ x ∈ cur, Reach s.g start x ∧ ChainAt tm rules goalTy start s k x) → ∀ s' p, tryRounds P ord rules start goal goalTy n s cur = .found s' p →
      ∃ j, j < k + n ∧ FoundAfter tm rules goalTy start goal j
  | 0, k, s, cur, _, _, _, s', p, h => by cases h
  | n + 1, k, s, cur, hI, hst, hc, s', p, h => by
    unfold tryRounds at h
    split at h
    · cases h
    · have hc' : ∀ x ∈ ord cur, Reach s.g start x ∧ ChainAt tm rules goalTy start s k x := fun x hx => hc x ((hord cur).subset hx)
      have hx := tryRound_exact P hu hgl hok (ord cur) s [] hI hst hc' (by simp)
      have hg := tryRound_good P rules (goal := goal) (goalTy := goalTy) (ord cur) s [] hI.snap hst (fun x hx => (hc' x hx).1) (by simp)
      cases he : tryRound P rules start goal goalTy s [] (ord cur) with
      | panic => rw [he] at h; cases h
      | found s1 p1 =>
        rw [he] at hx
        exact ⟨k, by omega, hx⟩
      | cont s1 n1 =>
        rw [he] at h hx hg
        obtain ⟨h1, h2, h3⟩ := hx
        obtain ⟨j, j1, j2⟩ := tryRounds_exact P ord hord hu hgl hok n (k + 1) s1 n1 h1 (lt_of_lt_of_le hst h2.len)
          (fun x hx => ⟨hg.2.2 x hx, h3 x hx⟩) s' p h
        exact ⟨j, by omega, j2⟩

/-! ## Theorems -/

/-- **C48**: exactly which conversions are found, when rules judge types by their names: those made of known conversions, and those that are a chain of
at most six steps of any kind, one application of a generic rule, and any number of known conversions. -/
theorem C48_found_iff (P : PopFn) (ord : List Nat → List Nat) (hord : ∀ l, (ord l).Perm l) (rules : List (Rule τ κ))
    (tm : TM τ κ) (hok : Ok tm) (a b : Nat) (ha : a < tm.g.nodes.length) (target : RTy τ) (hb : tm.g.nodes[b]? = some target)
    (hu : Uniform tm rules target) :
    (∃ tm' p, findOrBuildPath P ord rules tm a b = some (tm', .ok p)) ↔ Reach tm.g a b ∨ ∃ k, k ≤ 6 ∧ FoundAfter tm rules target a b k := by
  have hbl := (List.getElem?_eq_some_iff.1 hb).1
  constructor
  · rintro ⟨tm', p, h⟩
    by_cases hr : Reach tm.g a b
    · exact Or.inl hr
    · right
      have hfp : findPath P tm.g a b = .err := ((C10_error_iff P tm.g a b hok.wf ha).1).2 (fun q hq => hr ⟨q, hq⟩)
      unfold findOrBuildPath at h
      rw [hfp] at h
      simp only [buildPathIfPossible] at h
      cases hx : tryBuildPath P ord rules tm a b maxTryBuildPathSteps with
      | panic => rw [hx] at h; cases h
      | none g =>
        rw [hx] at h
        rcases C13_restored P ord hord rules tm hok a b maxTryBuildPathSteps ha hbl with ⟨_, hp⟩ | hp
        · rw [hx] at hp; cases hp
        · rw [hx] at hp
          cases hp
          simp only [Option.some.injEq, Prod.mk.injEq] at h
          rw [hfp] at h
          cases h.2
      | some q g =>
        unfold tryBuildPath at hx
        rw [hb] at hx
        simp only at hx
        cases hy : tryRounds P ord rules a b target maxTryBuildPathSteps (snapNew tm) [a] with
        | panic => rw [hy] at hx; cases hx
        | cont s c => rw [hy] at hx; cases hx
        | found s path =>
          obtain ⟨j, j1, j2⟩ := tryRounds_exact P ord hord hu hbl hok maxTryBuildPathSteps 0 (snapNew tm) [a]
            ⟨snapInv_new hok, made_refl _, hr, fun x y h => Or.inl h⟩ ha (by
              intro x hx
              rw [List.mem_singleton.1 hx]
              exact ⟨⟨[], rfl⟩, _, List.getElem?_eq_getElem ha, .start (List.getElem?_eq_getElem ha)⟩) s path hy
          exact ⟨j, by simp only [maxTryBuildPathSteps] at j1; omega, j2⟩
  · intro hex
    obtain ⟨tm', r, h1, h2, h3, h4⟩ := C48_find_or_build P ord hord rules tm hok a b ha hbl
    rcases h4 with ⟨p, e, hp⟩ | ⟨e, e2, hno⟩
    · exact ⟨tm', p, by rw [h1, e]⟩
    · exfalso
      rcases hex with ⟨q, hq⟩ | ⟨k, hk, x, t, rule, hc, hmem, hap, hne, i, hi, hr⟩
      · exact hno q hq
      · have hfp : findPath P tm.g a b = .err := ((C10_error_iff P tm.g a b hok.wf ha).1).2 hno
        have hnone : tryBuildPath P ord rules tm a b maxTryBuildPathSteps = .none tm.g := by
          rcases C13_restored P ord hord rules tm hok a b maxTryBuildPathSteps ha hbl with ⟨p, hp⟩ | hp
          · exfalso
            obtain ⟨tm2, m1, _, _, q, hq, _⟩ := C48_built_path_genuine P ord hord rules tm hok a b _ ha hbl p _ hp
            unfold findOrBuildPath buildPathIfPossible at h1
            rw [hfp, hp] at h1
            simp only at h1
            rw [m1] at h1
            simp only [Option.some.injEq, Prod.mk.injEq] at h1
            rw [hq, e] at h1
            cases h1.2
          · exact hp
        unfold tryBuildPath at hnone
        rw [hb] at hnone
        simp only at hnone
        cases hx : tryRounds P ord rules a b target maxTryBuildPathSteps (snapNew tm) [a] with
        | found s p => rw [hx] at hnone; cases hnone
        | panic => rw [hx] at hnone; cases hnone
        | cont s' cur' =>
          have hgood := tryRounds_good P ord hord rules (goal := b) (goalTy := target) maxTryBuildPathSteps (snapNew tm) [a] (snapInv_new hok) ha
            (by simp; exact ⟨[], rfl⟩)
          rw [hx] at hgood
          obtain ⟨d1, d2, d3⟩ := tryRounds_cont P ord hord rules maxTryBuildPathSteps (snapNew tm) s' [a] cur' 0
            (made_refl _) (snapInv_new hok) ha (by simp; exact ⟨[], rfl⟩) (by rintro ⟨q, hq⟩; exact hno q hq) (by
              intro t ht
              cases ht with
              | start h =>
                refine ⟨a, ?_, by simp⟩
                have := hok.byName a _ h
                unfold snapNode snapTM snapNew
                simp only [this]) hx
          obtain ⟨i', i1, i2⟩ := d3 (k + 1) (by omega) (by simp only [maxTryBuildPathSteps]; omega) t (.generic hc hmem hap hne)
          have : snapNode s' t = some i := by
            refine d1 _ _ ?_
            unfold snapNode snapTM snapNew
            simp only [hi]
          rw [i1] at this
          have e := Option.some.inj this
          subst e
          obtain ⟨q1, hq1⟩ := i2
          obtain ⟨q2, hq2⟩ := (snap_ext hgood.1).reach hr
          exact d2 ⟨_, hq1.append hq2⟩

/-- **C48**: whether a conversion is found depends neither on the order in which a hash table is walked nor on how the search breaks ties. -/
theorem C48_order_irrelevant (P P' : PopFn) (ord ord' : List Nat → List Nat) (hord : ∀ l, (ord l).Perm l) (hord' : ∀ l, (ord' l).Perm l)
    (rules : List (Rule τ κ)) (tm : TM τ κ) (hok : Ok tm) (a b : Nat) (ha : a < tm.g.nodes.length) (target : RTy τ)
    (hb : tm.g.nodes[b]? = some target) (hu : Uniform tm rules target) :
    (∃ tm' p, findOrBuildPath P ord rules tm a b = some (tm', .ok p)) ↔ ∃ tm' p, findOrBuildPath P' ord' rules tm a b = some (tm', .ok p) := by
  rw [C48_found_iff P ord hord rules tm hok a b ha target hb hu, C48_found_iff P' ord' hord' rules tm hok a b ha target hb hu]

/-! ## Finding -/

/-- A rule that turns the type with one name into the type with another one. -/
def single (a b : Char) : Rule Unit Nat := fun f _ _ => if f.name = [a] then some (⟨[b], ()⟩, 0) else none

/-- Types `s`, `g`, `x`, `y` with known conversions `x ⟶ y ⟶ g`. -/
def tmTwo : TM Unit Nat :=
  addRule (addRule (addNode (addNode (addNode (addNode empty ⟨['s'], ()⟩).1 ⟨['g'], ()⟩).1 ⟨['x'], ()⟩).1 ⟨['y'], ()⟩).1 2 3 0) 3 1 0

/-- Rules `s ⟶ a`, `s ⟶ b`, `a ⟶ x`, `b ⟶ g`. -/
def rulesTwo : List (Rule Unit Nat) := [single 's' 'a', single 's' 'b', single 'a' 'x', single 'b' 'g']

theorem single_uniform (tm : TM Unit Nat) (goal : RTy Unit) : Uniform tm rulesTwo goal := by
  intro rule hr f f' look look' _ _ hn _ _
  simp only [rulesTwo, List.mem_cons, List.not_mem_nil, or_false] at hr
  rcases hr with rfl | rfl | rfl | rfl <;> simp only [single, hn] <;> split <;> rfl

theorem tmTwo_ok : Ok tmTwo :=
  addRule_ok (addRule_ok (addNode_ok (addNode_ok (addNode_ok (addNode_ok ok_empty _) _) _) _) (by decide) (by decide) _) (by decide) (by decide) _

/-- Number of steps of the conversion that is found. -/
def foundLen (r : Option (TM Unit Nat × PathRes)) : Option Nat :=
  match r with
  | some (_, .ok p) => some p.length
  | _ => none

/-- **C48 (finding)**: the conversion built from generic rules need not be the shortest one, and *which* conversion is built depends on the order in which a
hash set is walked: here a conversion of four steps in one order and one of two steps in the other. -/
theorem C48_finding_order : ∃ (rules : List (Rule Unit Nat)) (tm : TM Unit Nat) (ord ord' : List Nat → List Nat), Ok tm ∧ (∀ l, (ord l).Perm l) ∧
    (∀ l, (ord' l).Perm l) ∧ (∀ goal, Uniform tm rules goal) ∧ foundLen (findOrBuildPath firstMin ord rules tm 0 1) = some 4 ∧
    foundLen (findOrBuildPath firstMin ord' rules tm 0 1) = some 2 :=
  ⟨rulesTwo, tmTwo, id, List.reverse, tmTwo_ok, fun _ => .refl _, fun l => List.reverse_perm l, single_uniform _, by decide +kernel, by decide +kernel⟩

/-! ## Non-vacuity -/

/-- A rule step, another rule step, and two known conversions. -/
example : FoundAfter tmTwo rulesTwo ⟨['g'], ()⟩ 0 1 1 :=
  ⟨['a'], ['x'], single 'a' 'x', .generic (a := ['s']) (rule := single 's' 'a') (.start (r := ⟨['s'], ()⟩) rfl) (by simp [rulesTwo])
    (by intro f look _ hf _; exact ⟨⟨['a'], ()⟩, 0, by simp [single, hf], rfl⟩) (by decide), by simp [rulesTwo],
    (by intro f look _ hf _; exact ⟨⟨['x'], ()⟩, 0, by simp [single, hf], rfl⟩), by decide, 2, by decide,
    ⟨[0, 1], ⟨⟨2, 3, 0⟩, rfl, rfl, ⟨3, 1, 0⟩, rfl, rfl, rfl⟩⟩⟩

example : (tryBuildPath firstMin id [exRef, exDeref] exTM 0 1 7).len = some (2, 2) := by decide
example : (findOrBuildPath firstMin id [exRef, exDeref] exTM 0 1).map (·.2) = some (.ok [0, 1]) := by decide
example : (findOrBuildPath firstMin id [exDeref] exTM 0 1).map (·.2) = some .err := by decide

end Flapi.TMap
