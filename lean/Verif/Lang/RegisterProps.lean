import Verif.Lang.Register
import Verif.TypeMap.MergeRuleProps
import Verif.TypeMap.SelectProps
/-! # Effect of a sequence of registrations (helper lemmas for C63, C64) -/
namespace Flapi.Register

open Flapi.Exported (lit)
open Flapi.FTypes (Storage FType FRule Inter UName Consistent Over)
open Flapi.TMap (HasRule TM RTy addNode addRule)

/-! ## Specification -/

/-- The type map and the storage of foreign types are well formed, and foreign types stand for known Rust types. -/
structure Inv (st : St) : Prop where
  ok : TMap.Ok st.tm
  names : Consistent st.fts
  known : ∀ ft ∈ st.fts.ftypes, ∀ r, ft.into = some r ∨ ft.frm = some r → r.rustTy < st.tm.g.nodes.length

/-- What is known about the Rust type with a name. -/
def info (st : St) (n : Text) : Option RInfo := ((st.tm.names n).bind fun i => st.tm.g.nodes[i]?).map (·.ty)

/-- Number of the Rust type with a name (0 if there is none). -/
def ix (st : St) (n : Text) : Nat := (st.tm.names n).getD 0

/-- A foreign rule with the types found by name. -/
def mkRule (f : Text → Nat) (r : FRuleN) : FRule Text :=
  ⟨f r.ty.name, r.inter.map fun m => ⟨false, f m.1.name, m.2, none⟩⟩

/-- The foreign types added by a sequence of operations. -/
def made (f : Text → Nat) : List Cmd → List (FType Text)
  | [] => []
  | .ftype src pre d mods into frm :: cs => ⟨⟨pre ++ d, pre.length⟩, src, mods, into.map (mkRule f), frm.map (mkRule f)⟩ :: made f cs
  | _ :: cs => made f cs

/-- The full names of those foreign types. -/
def ftNames : List Cmd → List Text
  | [] => []
  | .ftype _ pre d _ _ _ :: cs => (pre ++ d) :: ftNames cs
  | _ :: cs => ftNames cs

/-- The conversions between Rust types stored by a sequence of operations. -/
def rulesOf : List Cmd → List (Text × Text × Text)
  | [] => []
  | .rule a b c :: cs => (a.name, b.name, c) :: rulesOf cs
  | _ :: cs => rulesOf cs

/-- The Rust types a foreign rule mentions. -/
def FRuleN.keys (r : FRuleN) : List Key := r.ty :: (r.inter.map (·.1)).toList

/-- The Rust types an operation mentions. -/
def Cmd.keys : Cmd → List Key
  | .alloc k _ => [k]
  | .rule a b _ => [a, b]
  | .ftype _ _ _ _ into frm => (into.map FRuleN.keys).getD [] ++ (frm.map FRuleN.keys).getD []

/-! ## Lemmas -/

theorem node_names (st : St) (k : Key) (ts : List Text) : (st.node k ts).1.tm.names k.name = some (st.node k ts).2 :=
  TMap.addNode_names (tm := st.tm) ⟨k.name, ⟨k.ty, ts⟩⟩

theorem node_mono (st : St) (k : Key) (ts : List Text) {n : Text} {i : Nat} (h : st.tm.names n = some i) :
    (st.node k ts).1.tm.names n = some i := TMap.addNode_mono _ h

theorem node_fts (st : St) (k : Key) (ts : List Text) : (st.node k ts).1.fts = st.fts := rfl

/-- What one step (or several) may do to the table of types. -/
structure Ext (a b : St) : Prop where
  names : ∀ n i, a.tm.names n = some i → b.tm.names n = some i
  nodes : ∃ x, b.tm.g.nodes = a.tm.g.nodes ++ x

theorem Ext.refl (a : St) : Ext a a := ⟨fun _ _ h => h, [], by simp⟩

theorem Ext.trans {a b c : St} (h : Ext a b) (k : Ext b c) : Ext a c := by
  obtain ⟨h1, x, hx⟩ := h
  obtain ⟨k1, y, hy⟩ := k
  exact ⟨fun n i hn => k1 n i (h1 n i hn), x ++ y, by rw [hy, hx, List.append_assoc]⟩

theorem Ext.info {a b : St} (h : Ext a b) (ha : Inv a) {n : Text} {r : RInfo} (hi : info a n = some r) : info b n = some r := by
  unfold Register.info at hi ⊢
  cases hn : a.tm.names n with
  | none => rw [hn] at hi; cases hi
  | some i =>
    rw [hn] at hi
    rw [h.names n i hn]
    obtain ⟨x, hx⟩ := h.nodes
    have hlt := ha.ok.lt hn
    simp only [Option.bind_some] at hi ⊢
    rw [hx, List.getElem?_append_left hlt]
    exact hi

theorem Ext.ix {a b : St} (h : Ext a b) {n : Text} (hn : a.tm.names n ≠ none) : ix b n = ix a n := by
  unfold Register.ix
  cases h1 : a.tm.names n with
  | none => exact absurd h1 hn
  | some i => rw [h.names n i h1]

theorem node_ext (st : St) (k : Key) (ts : List Text) : Ext st (st.node k ts).1 :=
  ⟨fun _ _ h => node_mono st k ts h, TMap.addNode_nodes _⟩

theorem Inv.ext {a b : St} (h : Inv a) (he : Ext a b) (hok : TMap.Ok b.tm) (hf : b.fts = a.fts) : Inv b := by
  obtain ⟨x, hx⟩ := he.nodes
  refine ⟨hok, hf ▸ h.names, fun ft hft r hr => ?_⟩
  rw [hf] at hft
  have := h.known ft hft r hr
  rw [hx]; simp; omega

theorem node_inv {st : St} (h : Inv st) (k : Key) (ts : List Text) : Inv (st.node k ts).1 :=
  h.ext (node_ext st k ts) (TMap.addNode_ok h.ok _) rfl

theorem node_rules {st : St} (h : Inv st) (k : Key) (ts : List Text) (x y w : Text) :
    HasRule (st.node k ts).1.tm x y w ↔ HasRule st.tm x y w := FTypes.hasRule_addNode h.ok _ x y w

/-- `frule` allocates the types and returns the rule. -/
theorem frule_spec {st : St} (h : Inv st) (ro : Option FRuleN) :
    Inv (st.frule ro).1 ∧ Ext st (st.frule ro).1 ∧ (st.frule ro).1.fts = st.fts ∧
    (∀ x y w, HasRule (st.frule ro).1.tm x y w ↔ HasRule st.tm x y w) ∧
    (∀ k ∈ (ro.map FRuleN.keys).getD [], (st.frule ro).1.tm.names k.name ≠ none) ∧
    (st.frule ro).2 = ro.map (mkRule (ix (st.frule ro).1)) := by
  match ro with
  | none => exact ⟨h, Ext.refl st, rfl, fun _ _ _ => Iff.rfl, by simp, rfl⟩
  | some ⟨t, none⟩ =>
    refine ⟨node_inv h t [], node_ext st t [], rfl, node_rules h t [], ?_, ?_⟩
    · intro k hk
      simp only [Option.map_some, Option.getD_some, FRuleN.keys, Option.map_none, Option.toList_none, List.mem_singleton] at hk
      subst hk
      show (st.node k []).1.tm.names k.name ≠ none
      rw [node_names]; simp
    · show some (⟨(st.node t []).2, none⟩ : FRule Text) = some ⟨ix (st.node t []).1 t.name, none⟩
      simp [ix, node_names]
  | some ⟨t, some (m, c)⟩ =>
    have h1 := node_inv h t []
    have e1 := node_ext st t []
    have e2 := node_ext (st.node t []).1 m []
    have n1 := e2.names _ _ (node_names st t [])
    refine ⟨node_inv h1 m [], e1.trans e2, rfl, fun x y w => (node_rules h1 m [] x y w).trans (node_rules h t [] x y w), ?_, ?_⟩
    · intro k hk
      simp only [Option.map_some, Option.getD_some, FRuleN.keys, Option.toList_some, List.mem_cons, List.not_mem_nil, or_false] at hk
      show ((st.node t []).1.node m []).1.tm.names k.name ≠ none
      rcases hk with rfl | rfl
      · rw [n1]; simp
      · rw [node_names]; simp
    · show some (⟨(st.node t []).2, some ⟨false, ((st.node t []).1.node m []).2, c, none⟩⟩ : FRule Text) =
        some ⟨ix ((st.node t []).1.node m []).1 t.name, some ⟨false, ix ((st.node t []).1.node m []).1 m.name, c, none⟩⟩
      unfold ix
      rw [n1, node_names]; rfl

theorem mkRule_ext {a b : St} (h : Ext a b) (ro : Option FRuleN)
    (hk : ∀ k ∈ (ro.map FRuleN.keys).getD [], a.tm.names k.name ≠ none) :
    ro.map (mkRule (ix b)) = ro.map (mkRule (ix a)) := by
  match ro with
  | none => rfl
  | some ⟨t, none⟩ =>
    have := hk t (by simp [FRuleN.keys])
    simp [mkRule, h.ix this]
  | some ⟨t, some (m, c)⟩ =>
    have h1 := hk t (by simp [FRuleN.keys])
    have h2 := hk m (by simp [FRuleN.keys])
    simp [mkRule, h.ix h1, h.ix h2]

/-- What a successful sequence of operations does. -/
structure Done (st : St) (cs : List Cmd) (st' : St) : Prop where
  inv : Inv st'
  ext : Ext st st'
  keys : ∀ c ∈ cs, ∀ k ∈ c.keys, st'.tm.names k.name ≠ none
  rules : ∀ x y w, HasRule st'.tm x y w ↔ Over (HasRule st.tm) (rulesOf cs) x y w
  fts : st'.fts.ftypes = st.fts.ftypes ++ made (ix st') cs
  fnames : ∀ n, st'.fts.findByName n = none ↔ st.fts.findByName n = none ∧ n ∉ ftNames cs

/-- Can the operation be performed? -/
def Free (st : St) : Cmd → Prop
  | .ftype _ pre d _ _ _ => st.fts.findByName (pre ++ d) = none
  | _ => True

theorem made_ext {a b : St} (h : Ext a b) : ∀ (cs : List Cmd), (∀ c ∈ cs, ∀ k ∈ c.keys, a.tm.names k.name ≠ none) →
    made (ix b) cs = made (ix a) cs
  | [], _ => rfl
  | .alloc k t :: cs, hk => made_ext h cs fun c hc => hk c (List.mem_cons_of_mem _ hc)
  | .rule x y w :: cs, hk => made_ext h cs fun c hc => hk c (List.mem_cons_of_mem _ hc)
  | .ftype src pre d mods into frm :: cs, hk => by
    have h1 := hk _ List.mem_cons_self
    simp only [made]
    rw [made_ext h cs fun c hc => hk c (List.mem_cons_of_mem _ hc),
      mkRule_ext h into fun k hk' => h1 k (by simp only [Cmd.keys, List.mem_append]; exact Or.inl hk'),
      mkRule_ext h frm fun k hk' => h1 k (by simp only [Cmd.keys, List.mem_append]; exact Or.inr hk')]

theorem step_spec {st : St} (h : Inv st) (c : Cmd) :
    (Free st c ∧ ∃ st', step st c = .ok st' ∧ Done st [c] st') ∨ (¬ Free st c ∧ step st c = .error .duplicate) := by
  match c with
  | .alloc k ts =>
    left
    refine ⟨trivial, _, rfl, node_inv h k ts, node_ext st k ts, ?_, node_rules h k ts, by simp [made, node_fts], by simp [ftNames, node_fts]⟩
    intro c hc k' hk
    simp only [List.mem_singleton] at hc; subst hc
    simp only [Cmd.keys, List.mem_singleton] at hk; subst hk
    rw [node_names]; simp
  | .rule a b w =>
    left
    have h1 := node_inv h a []
    have h2 := node_inv h1 b []
    have e1 := node_ext st a []
    have e2 := node_ext (st.node a []).1 b []
    have n1 := e2.names _ _ (node_names st a [])
    have n2 := node_names (st.node a []).1 b []
    generalize hs2 : ((st.node a []).1.node b []).1 = s2 at *
    generalize hi : (st.node a []).2 = i at *
    generalize hj : ((st.node a []).1.node b []).2 = j at *
    have hr : ∀ x y w, HasRule s2.tm x y w ↔ HasRule st.tm x y w := by
      intro x y w; rw [← hs2, node_rules h1, node_rules h]
    have hst : s2.fts = st.fts := by rw [← hs2]; rfl
    have e3 : Ext s2 ⟨addRule s2.tm i j w, s2.fts⟩ := ⟨fun _ _ h => h, [], by
      simp only [addRule, Graph.updateEdge, List.append_nil]
      split <;> rfl⟩
    refine ⟨trivial, ⟨addRule s2.tm i j w, s2.fts⟩, ?_, ?_⟩
    · simp only [step, hs2, hi, hj]
    · refine ⟨h2.ext e3 (TMap.addRule_ok h2.ok (h2.ok.lt n1) (h2.ok.lt n2) w) rfl, (e1.trans e2).trans e3, ?_, ?_, ?_, ?_⟩
      · intro c hc k hk
        simp only [List.mem_singleton] at hc; subst hc
        simp only [Cmd.keys, List.mem_cons, List.not_mem_nil, or_false] at hk
        show s2.tm.names k.name ≠ none
        rcases hk with rfl | rfl
        · rw [n1]; simp
        · rw [n2]; simp
      · intro x y v
        show HasRule (addRule s2.tm i j w) x y v ↔ _
        rw [FTypes.hasRule_addRule h2.ok n1 n2 w x y v]
        simp only [rulesOf, Over]
        split
        · exact Iff.rfl
        · exact hr x y v
      · simp [made, hst]
      · simp [ftNames, hst]
  | .ftype src pre d mods into frm =>
    obtain ⟨i1, e1, f1, r1, k1, v1⟩ := frule_spec h into
    obtain ⟨i2, e2, f2, r2, k2, v2⟩ := frule_spec i1 frm
    generalize hs2 : ((st.frule into).1.frule frm).1 = s2 at *
    have hst : s2.fts = st.fts := by rw [f2, f1]
    have v1' : (st.frule into).2 = into.map (mkRule (ix s2)) := by rw [v1, mkRule_ext e2 into k1]
    generalize hft : (⟨⟨pre ++ d, pre.length⟩, src, mods, into.map (mkRule (ix s2)), frm.map (mkRule (ix s2))⟩ : FType Text) = ft
    have hname : ft.name.value = pre ++ d := by rw [← hft]
    have hstep : step st (.ftype src pre d mods into frm) =
        match s2.fts.addNew ft with
        | (fts, some _) => .ok ⟨s2.tm, fts⟩
        | (_, none) => .error .duplicate := by
      rw [← hft, ← v1', ← v2, ← hs2]
      rfl
    cases hn : st.fts.names (pre ++ d) with
    | some q =>
      right
      refine ⟨by simp [Free, Storage.findByName, hn], ?_⟩
      rw [hstep]
      simp [Storage.addNew, hst, hname, hn]
    | none =>
      left
      have hadd : s2.fts.addNew ft = (⟨st.fts.ftypes ++ [ft], TMap.setName st.fts.names (pre ++ d) st.fts.ftypes.length⟩, some st.fts.ftypes.length) := by
        simp [Storage.addNew, hst, hname, hn]
      have hc : Consistent (s2.fts.addNew ft).1 := FTypes.addNew_consistent i2.names ft
      rw [hadd] at hc
      have kk : ∀ k ∈ Cmd.keys (.ftype src pre d mods into frm), s2.tm.names k.name ≠ none := by
        intro k hk
        simp only [Cmd.keys, List.mem_append] at hk
        rcases hk with hk | hk
        · intro hc
          have := k1 k hk
          cases hx : (st.frule into).1.tm.names k.name with
          | none => exact this hx
          | some i => rw [e2.names _ _ hx] at hc; cases hc
        · exact k2 k hk
      refine ⟨by simp [Free, Storage.findByName, hn], ⟨s2.tm, ⟨st.fts.ftypes ++ [ft], TMap.setName st.fts.names (pre ++ d) st.fts.ftypes.length⟩⟩, ?_, ?_⟩
      · rw [hstep, hadd]
      · refine ⟨⟨i2.ok, hc, ?_⟩, ⟨(e1.trans e2).names, (e1.trans e2).nodes⟩, ?_, ?_, ?_, ?_⟩
        · intro f hf r hr
          simp only [List.mem_append, List.mem_singleton] at hf
          rcases hf with hf | rfl
          · exact i2.known f (by rw [hst]; exact hf) r hr
          · show r.rustTy < s2.tm.g.nodes.length
            have lem : ∀ ro : Option FRuleN, (∀ k ∈ (ro.map FRuleN.keys).getD [], s2.tm.names k.name ≠ none) →
                ro.map (mkRule (ix s2)) = some r → r.rustTy < s2.tm.g.nodes.length := by
              intro ro hk hr
              cases ro with
              | none => cases hr
              | some q =>
                simp only [Option.map_some, Option.some.injEq] at hr
                have := hk q.ty (by simp [FRuleN.keys])
                cases hx : s2.tm.names q.ty.name with
                | none => exact absurd hx this
                | some z =>
                  rw [← hr]
                  show ix s2 q.ty.name < _
                  simp only [ix, hx, Option.getD_some]
                  exact i2.ok.lt hx
            rw [← hft] at hr
            rcases hr with hr | hr
            · exact lem into (fun k hk => kk k (by simp only [Cmd.keys, List.mem_append]; exact Or.inl hk)) hr
            · exact lem frm (fun k hk => kk k (by simp only [Cmd.keys, List.mem_append]; exact Or.inr hk)) hr
        · intro c hc k hk
          simp only [List.mem_singleton] at hc; subst hc
          exact kk k hk
        · intro x y w
          show HasRule s2.tm x y w ↔ _
          simp only [rulesOf, Over]
          rw [r2, r1]
        · show st.fts.ftypes ++ [ft] = st.fts.ftypes ++ [_]
          rw [← hft]; rfl
        · intro n
          simp only [Storage.findByName, TMap.setName, ftNames, List.mem_singleton]
          split
          · rename_i e; simp [e]
          · rename_i e; simp [e]

theorem rulesOf_append : ∀ (l m : List Cmd), rulesOf (l ++ m) = rulesOf l ++ rulesOf m
  | [], _ => rfl
  | .alloc _ _ :: l, m => rulesOf_append l m
  | .rule a b c :: l, m => by simp [rulesOf, rulesOf_append l m]
  | .ftype _ _ _ _ _ _ :: l, m => rulesOf_append l m

theorem made_append (f : Text → Nat) : ∀ (l m : List Cmd), made f (l ++ m) = made f l ++ made f m
  | [], _ => rfl
  | .alloc _ _ :: l, m => made_append f l m
  | .rule a b c :: l, m => made_append f l m
  | .ftype _ _ _ _ _ _ :: l, m => by simp [made, made_append f l m]

theorem ftNames_append : ∀ (l m : List Cmd), ftNames (l ++ m) = ftNames l ++ ftNames m
  | [], _ => rfl
  | .alloc _ _ :: l, m => ftNames_append l m
  | .rule a b c :: l, m => ftNames_append l m
  | .ftype _ _ _ _ _ _ :: l, m => by simp [ftNames, ftNames_append l m]

theorem Done.trans {a b c : St} {l m : List Cmd} (h : Done a l b) (k : Done b m c) : Done a (l ++ m) c := by
  have hk : ∀ cmd ∈ l, ∀ q ∈ cmd.keys, b.tm.names q.name ≠ none := h.keys
  refine ⟨k.inv, h.ext.trans k.ext, ?_, ?_, ?_, ?_⟩
  · intro cmd hc q hq
    rcases List.mem_append.1 hc with hc | hc
    · intro hn
      cases hx : b.tm.names q.name with
      | none => exact h.keys cmd hc q hq hx
      | some i => rw [k.ext.names _ _ hx] at hn; cases hn
    · exact k.keys cmd hc q hq
  · intro x y w
    rw [k.rules, rulesOf_append, FTypes.over_append]
    exact FTypes.over_congr h.rules _ x y w
  · rw [k.fts, h.fts, made_append, List.append_assoc, made_ext k.ext l hk]
  · intro n
    rw [k.fnames, h.fnames, ftNames_append, List.mem_append]
    constructor
    · rintro ⟨⟨h1, h2⟩, h3⟩; exact ⟨h1, fun h => h.elim h2 h3⟩
    · rintro ⟨h1, h2⟩; exact ⟨⟨h1, fun h => h2 (Or.inl h)⟩, fun h => h2 (Or.inr h)⟩

theorem Done.nil {st : St} (h : Inv st) : Done st [] st :=
  ⟨h, Ext.refl st, by simp, fun _ _ _ => Iff.rfl, by simp [made], by simp [ftNames]⟩

/-- A sequence of operations succeeds exactly if the names of the new foreign types are new and different from each other; otherwise
the error is that of a duplicate name. -/
theorem run_spec : ∀ (cs : List Cmd) {st : St}, Inv st →
    (((∀ n ∈ ftNames cs, st.fts.findByName n = none) ∧ (ftNames cs).Nodup) ∧ ∃ st', run st cs = .ok st' ∧ Done st cs st') ∨
    (¬ ((∀ n ∈ ftNames cs, st.fts.findByName n = none) ∧ (ftNames cs).Nodup) ∧ run st cs = .error .duplicate)
  | [], st, h => Or.inl ⟨⟨by simp [ftNames], by simp [ftNames]⟩, st, rfl, Done.nil h⟩
  | c :: cs, st, h => by
    have hcons : ftNames (c :: cs) = ftNames [c] ++ ftNames cs := ftNames_append [c] cs
    have hfree : Free st c ↔ (∀ n ∈ ftNames [c], st.fts.findByName n = none) := by
      cases c <;> simp [Free, ftNames]
    have hnd : (ftNames [c]).Nodup := by cases c <;> simp [ftNames]
    rcases step_spec h c with ⟨hf, s1, hs1, hd⟩ | ⟨hf, he⟩
    · have hrun : run st (c :: cs) = run s1 cs := by rw [run, hs1]; rfl
      have hiff : ((∀ n ∈ ftNames (c :: cs), st.fts.findByName n = none) ∧ (ftNames (c :: cs)).Nodup) ↔
          ((∀ n ∈ ftNames cs, s1.fts.findByName n = none) ∧ (ftNames cs).Nodup) := by
        rw [hcons, List.nodup_append]
        constructor
        · rintro ⟨h1, _, h3, h4⟩
          refine ⟨fun n hn => (hd.fnames n).2 ⟨h1 n (List.mem_append.2 (Or.inr hn)), fun hm => h4 n hm n hn rfl⟩, h3⟩
        · rintro ⟨h1, h2⟩
          refine ⟨fun n hn => ?_, hnd, h2, fun a ha b hb hab => ?_⟩
          · rcases List.mem_append.1 hn with hn | hn
            · exact hfree.1 hf n hn
            · exact ((hd.fnames n).1 (h1 n hn)).1
          · subst hab; exact ((hd.fnames a).1 (h1 a hb)).2 ha
      rw [hrun, hiff]
      rcases run_spec cs hd.inv with ⟨h1, s2, h2, h3⟩ | ⟨h1, h2⟩
      · exact Or.inl ⟨h1, s2, h2, hd.trans h3⟩
      · exact Or.inr ⟨h1, h2⟩
    · right
      refine ⟨?_, by rw [run, he]; rfl⟩
      rintro ⟨h1, _⟩
      exact hf (hfree.2 fun n hn => h1 n (by rw [hcons]; exact List.mem_append.2 (Or.inl hn)))

theorem run_append (st : St) : ∀ (l m : List Cmd), run st (l ++ m) = (run st l).bind fun s => run s m := by
  intro l
  induction l generalizing st with
  | nil => intro m; rfl
  | cons c l ih =>
    intro m
    show (step st c).bind (fun s => run s (l ++ m)) = ((step st c).bind fun s => run s l).bind fun s => run s m
    cases hs : step st c with
    | error e => rfl
    | ok s1 => exact ih s1 m

theorem run_done {st st' : St} {cs : List Cmd} (h : Inv st) (hr : run st cs = .ok st') : Done st cs st' := by
  rcases run_spec cs h with ⟨_, s, h1, h2⟩ | ⟨_, h1⟩
  · rw [hr] at h1; cases h1; exact h2
  · rw [hr] at h1; cases h1

/-! ### Which rules, types and traits -/

/-- If all stored conversions between two types have the same code, that one is in force. -/
theorem over_mem (old : Text → Text → Text → Prop) : ∀ (l : List (Text × Text × Text)) (a b c : Text), (a, b, c) ∈ l →
    (∀ c', (a, b, c') ∈ l → c' = c) → ∀ w, Over old l a b w ↔ w = c := by
  intro l
  induction l generalizing old with
  | nil => intro a b c h; cases h
  | cons x l ih =>
    obtain ⟨xa, xb, xc⟩ := x
    intro a b c hm hu w
    simp only [Over]
    by_cases hl : (a, b, c) ∈ l
    · exact ih _ a b c hl (fun c' hc' => hu c' (List.mem_cons_of_mem _ hc')) w
    · rcases List.mem_cons.1 hm with hm | hm
      · obtain ⟨rfl, rfl, rfl⟩ : a = xa ∧ b = xb ∧ c = xc := by cases hm; exact ⟨rfl, rfl, rfl⟩
        have key : ∀ (l : List (Text × Text × Text)) (old' : Text → Text → Text → Prop), (∀ c', (a, b, c') ∉ l) →
            (∀ w, old' a b w ↔ w = c) → ∀ w, Over old' l a b w ↔ w = c := by
          intro l
          induction l with
          | nil => intro old' _ h w; exact h w
          | cons y l ih =>
            obtain ⟨ya, yb, yc⟩ := y
            intro old' hn h w
            simp only [Over]
            refine ih _ (fun c' hc' => hn c' (List.mem_cons_of_mem _ hc')) (fun w => ?_) w
            rw [if_neg]
            · exact h w
            · rintro ⟨rfl, rfl⟩; exact hn yc List.mem_cons_self
        refine key l _ (fun c' hc' => hl ?_) (fun w => by simp) w
        rw [← hu c' (List.mem_cons_of_mem _ hc')]; exact hc'
      · exact absurd hm hl

/-- Conversions between pairs of types that are not mentioned stay. -/
theorem over_other (old : Text → Text → Text → Prop) : ∀ (l : List (Text × Text × Text)) (a b : Text), (∀ c, (a, b, c) ∉ l) →
    ∀ w, Over old l a b w ↔ old a b w := by
  intro l
  induction l generalizing old with
  | nil => intro a b _ w; exact Iff.rfl
  | cons x l ih =>
    obtain ⟨xa, xb, xc⟩ := x
    intro a b hn w
    simp only [Over]
    rw [ih _ a b (fun c hc => hn c (List.mem_cons_of_mem _ hc)) w, if_neg]
    rintro ⟨rfl, rfl⟩; exact hn xc List.mem_cons_self

theorem mem_made {f : Text → Nat} {src : Option Nat} {pre d : Text} {mods : List Text} {into frm : Option FRuleN} :
    ∀ {cs : List Cmd}, Cmd.ftype src pre d mods into frm ∈ cs →
      (⟨⟨pre ++ d, pre.length⟩, src, mods, into.map (mkRule f), frm.map (mkRule f)⟩ : FType Text) ∈ made f cs
  | .alloc _ _ :: cs, h => by
    rcases List.mem_cons.1 h with h | h
    · cases h
    · exact mem_made (cs := cs) h
  | .rule _ _ _ :: cs, h => by
    rcases List.mem_cons.1 h with h | h
    · cases h
    · exact mem_made (cs := cs) h
  | .ftype _ _ _ _ _ _ :: cs, h => by
    simp only [made]
    rcases List.mem_cons.1 h with h | h
    · cases h; exact List.mem_cons_self
    · exact List.mem_cons_of_mem _ (mem_made h)

theorem mem_rulesOf {a b : Key} {c : Text} : ∀ {cs : List Cmd}, Cmd.rule a b c ∈ cs → (a.name, b.name, c) ∈ rulesOf cs
  | .alloc _ _ :: cs, h => by
    rcases List.mem_cons.1 h with h | h
    · cases h
    · exact mem_rulesOf (cs := cs) h
  | .rule _ _ _ :: cs, h => by
    simp only [rulesOf]
    rcases List.mem_cons.1 h with h | h
    · cases h; exact List.mem_cons_self
    · exact List.mem_cons_of_mem _ (mem_rulesOf h)
  | .ftype _ _ _ _ _ _ :: cs, h => by
    rcases List.mem_cons.1 h with h | h
    · cases h
    · exact mem_rulesOf (cs := cs) h

/-- A type that is new when it is looked up with a list of traits implements exactly those. -/
theorem run_traits {st st' : St} (h : Inv st) (l m : List Cmd) (k : Key) (ts : List Text)
    (hr : run st (l ++ .alloc k ts :: m) = .ok st') (hn : st.tm.names k.name = none)
    (hl : ∀ c ∈ l, ∀ q ∈ c.keys, q.name ≠ k.name) : info st' k.name = some ⟨k.ty, ts⟩ := by
  have new : ∀ (l : List Cmd) (s s1 : St), Inv s → s.tm.names k.name = none → (∀ c ∈ l, ∀ q ∈ c.keys, q.name ≠ k.name) →
      run s l = .ok s1 → s1.tm.names k.name = none := by
    have hnode : ∀ (s : St) (q : Key) (t : List Text), q.name ≠ k.name → s.tm.names k.name = none →
        (s.node q t).1.tm.names k.name = none := by
      intro s q t hq hs
      simp only [St.node, TMap.addNode]
      split
      · exact hs
      · simp only [TMap.setName]
        rw [if_neg (fun e => hq e.symm)]; exact hs
    have hfr : ∀ (s : St) (ro : Option FRuleN), (∀ q ∈ (ro.map FRuleN.keys).getD [], q.name ≠ k.name) → s.tm.names k.name = none →
        (s.frule ro).1.tm.names k.name = none := by
      intro s ro hq hs
      match ro with
      | none => exact hs
      | some ⟨t, none⟩ => exact hnode s t [] (hq t (by simp [FRuleN.keys])) hs
      | some ⟨t, some (m, c)⟩ =>
        exact hnode _ m [] (hq m (by simp [FRuleN.keys])) (hnode s t [] (hq t (by simp [FRuleN.keys])) hs)
    intro l
    induction l with
    | nil => intro s s1 _ hs _ hr; cases hr; exact hs
    | cons c l ih =>
      intro s s1 hi hs hk hr
      rcases step_spec hi c with ⟨_, s2, hs2, hd⟩ | ⟨_, he⟩
      · have : run s2 l = .ok s1 := by rw [run, hs2] at hr; exact hr
        refine ih s2 s1 hd.inv ?_ (fun c hc => hk c (List.mem_cons_of_mem _ hc)) this
        have hkc := hk c List.mem_cons_self
        match c, hs2, hkc with
        | .alloc q t, hs2, hkc =>
          cases hs2
          exact hnode s q t (hkc q (by simp [Cmd.keys])) hs
        | .rule a b w, hs2, hkc =>
          cases hs2
          exact hnode _ b [] (hkc b (by simp [Cmd.keys])) (hnode s a [] (hkc a (by simp [Cmd.keys])) hs)
        | .ftype src pre d mods into frm, hs2, hkc =>
          have h2 : ((s.frule into).1.frule frm).1.tm.names k.name = none :=
            hfr _ frm (fun q hq => hkc q (by simp only [Cmd.keys, List.mem_append]; exact Or.inr hq))
              (hfr s into (fun q hq => hkc q (by simp only [Cmd.keys, List.mem_append]; exact Or.inl hq)) hs)
          simp only [step] at hs2
          split at hs2
          · cases hs2; exact h2
          · cases hs2
      · rw [run, he] at hr; cases hr
  rw [run_append] at hr
  cases hl1 : run st l with
  | error e => rw [hl1] at hr; cases hr
  | ok s1 =>
    rw [hl1] at hr
    have d1 := run_done h hl1
    have n1 := new l st s1 h hn hl hl1
    have hr2 : run (s1.node k ts).1 m = .ok st' := hr
    have i2 := node_inv d1.inv k ts
    have d2 := run_done i2 hr2
    refine d2.ext.info i2 ?_
    unfold info
    rw [node_names]
    simp only [St.node, TMap.addNode, n1, Graph.addNode, Option.bind_some]
    simp

/-- A known type keeps what is known about it. -/
theorem run_keeps_info {st st' : St} (h : Inv st) {cs : List Cmd} (hr : run st cs = .ok st') {n : Text} {r : RInfo}
    (hi : info st n = some r) : info st' n = some r := (run_done h hr).ext.info h hi

/-! ### Selection of the foreign type -/

/-- The rules of a foreign type as the selection sees them. -/
def view (ft : FType Text) : Select.FT :=
  ⟨ft.into.map fun r => ⟨r.rustTy, r.inter.map (·.ty)⟩, ft.frm.map fun r => ⟨r.rustTy, r.inter.map (·.ty)⟩⟩

/-- The foreign type chosen for a Rust type: the one found by the search over existing conversions. -/
def chosen (P : Graph.PopFn) (st : St) (d : Select.Dir) (n : Text) : Option (FType Text) :=
  (st.tm.names n).bind fun i => (Select.fastSearch P st.tm.g (st.fts.ftypes.map view) d i).bind fun r => st.fts.ftypes[r.2]?

/-- The Rust type a foreign type stands for. -/
def stands (d : Select.Dir) (ft : FType Text) : Option Nat := ((if d then ft.into else ft.frm).map (·.rustTy))

/-- The first foreign type standing for the Rust type itself is chosen. -/
theorem chosen_first (P : Graph.PopFn) {st : St} (h : Inv st) (d : Select.Dir) (n : Text) (i : Nat) (hn : st.tm.names n = some i)
    (l m : List (FType Text)) (ft : FType Text) (hsplit : st.fts.ftypes = l ++ ft :: m) (hft : stands d ft = some i)
    (hl : ∀ f ∈ l, stands d f ≠ some i) : chosen P st d n = some ft := by
  have hfo : Select.FtsOk st.tm.g (st.fts.ftypes.map view) := by
    intro f hf r hr
    obtain ⟨q, hq, rfl⟩ := List.mem_map.1 hf
    have := h.known q hq
    simp only [view, Option.map_eq_some_iff] at hr
    rcases hr with ⟨x, hx, rfl⟩ | ⟨x, hx, rfl⟩
    · exact this x (Or.inl hx)
    · exact this x (Or.inr hx)
  have hlt := h.ok.lt hn
  have hbest := Select.fastSearch_best P st.tm.g h.ok.wf (st.fts.ftypes.map view) d i hlt hfo
  have hget : st.fts.ftypes[l.length]? = some ft := by rw [hsplit]; simp
  have hrep : Select.Represents st.tm.g (st.fts.ftypes.map view) d i l.length 0 := by
    have hv : (st.fts.ftypes.map view)[l.length]? = some (view ft) := by rw [List.getElem?_map, hget]; rfl
    cases d with
    | true =>
      simp only [stands, if_true, Option.map_eq_some_iff] at hft
      obtain ⟨r, hr, hri⟩ := hft
      exact ⟨view ft, ⟨r.rustTy, r.inter.map (·.ty)⟩, [], hv, ⟨by simp [view, hr], hri.symm⟩, rfl⟩
    | false =>
      simp only [stands, Bool.false_eq_true, if_false, Option.map_eq_some_iff] at hft
      obtain ⟨r, hr, hri⟩ := hft
      exact ⟨view ft, ⟨r.rustTy, r.inter.map (·.ty)⟩, [], hv, ⟨by simp [view, hr], hri⟩, rfl⟩
  cases hf : Select.fastSearch P st.tm.g (st.fts.ftypes.map view) d i with
  | none =>
    rw [hf] at hbest
    exact absurd hrep (hbest l.length 0 (by rw [List.length_map, hsplit]; simp))
  | some r =>
    obtain ⟨k, j⟩ := r
    rw [hf] at hbest
    obtain ⟨hj, hrj, hmin⟩ := hbest
    have h0 := (hmin l.length 0 (by rw [List.length_map, hsplit]; simp) hrep)
    have hk : k = 0 := by omega
    subst hk
    have hnl : ¬ l.length < j := fun hlt => by have := h0.2 hlt; omega
    have hjl : ¬ j < l.length := by
      intro hjl
      obtain ⟨f, r, p, e1, e2, e3⟩ := hrj
      obtain ⟨q, hq⟩ : ∃ q, l[j]? = some q := ⟨_, List.getElem?_eq_getElem hjl⟩
      have hq' : st.fts.ftypes[j]? = some q := by rw [hsplit, List.getElem?_append_left hjl]; exact hq
      rw [List.getElem?_map, hq'] at e1
      simp only [Option.map_some, Option.some.injEq] at e1
      have hp : p = [] := List.eq_nil_of_length_eq_zero e3
      subst hp
      refine hl q (List.mem_of_getElem? hq) ?_
      cases d with
      | true =>
        obtain ⟨a1, a2⟩ := e2
        rw [← e1] at a1
        simp only [view, Option.map_eq_some_iff] at a1
        obtain ⟨z, z1, z2⟩ := a1
        simp only [stands, if_true, z1, Option.map_some, Option.some.injEq]
        have : i = r.rustTy := a2
        rw [this, ← z2]
      | false =>
        obtain ⟨a1, a2⟩ := e2
        rw [← e1] at a1
        simp only [view, Option.map_eq_some_iff] at a1
        obtain ⟨z, z1, z2⟩ := a1
        simp only [stands, Bool.false_eq_true, if_false, z1, Option.map_some, Option.some.injEq]
        have : r.rustTy = i := a2
        rw [← this, ← z2]
    have hjj : j = l.length := by omega
    subst hjj
    simp only [chosen, hn, Option.bind_some, hf]
    exact hget

/-- The name of the Rust type a new foreign type stands for. -/
def stdKey (d : Select.Dir) : Cmd → Option Text
  | .ftype _ _ _ _ into frm => (if d then into else frm).map (·.ty.name)
  | _ => none

/-- The foreign type an operation adds. -/
def mkF (f : Text → Nat) : Cmd → Option (FType Text)
  | .ftype src pre d mods into frm => some ⟨⟨pre ++ d, pre.length⟩, src, mods, into.map (mkRule f), frm.map (mkRule f)⟩
  | _ => none

theorem made_eq (f : Text → Nat) : ∀ (cs : List Cmd), made f cs = cs.filterMap (mkF f)
  | [] => rfl
  | .alloc _ _ :: cs => by rw [List.filterMap_cons]; exact made_eq f cs
  | .rule _ _ _ :: cs => by rw [List.filterMap_cons]; exact made_eq f cs
  | .ftype _ _ _ _ _ _ :: cs => by simp [made, mkF, made_eq f cs]

theorem stands_mkF {f : Text → Nat} {dir : Select.Dir} {c : Cmd} {ft : FType Text} (h : mkF f c = some ft) :
    stands dir ft = (stdKey dir c).map f := by
  cases c with
  | alloc => cases h
  | rule => cases h
  | ftype src pre d mods into frm =>
    simp only [mkF, Option.some.injEq] at h
    subst h
    cases dir <;> simp [stands, stdKey, mkRule, Function.comp_def]

theorem stdKey_key {dir : Select.Dir} {c : Cmd} {n : Text} (h : stdKey dir c = some n) : ∃ k ∈ c.keys, k.name = n := by
  cases c with
  | alloc => cases h
  | rule => cases h
  | ftype src pre d mods into frm =>
    cases dir with
    | true =>
      simp only [stdKey, if_true, Option.map_eq_some_iff] at h
      obtain ⟨r, rfl, rfl⟩ := h
      exact ⟨r.ty, by simp [Cmd.keys, FRuleN.keys], rfl⟩
    | false =>
      simp only [stdKey, Bool.false_eq_true, if_false, Option.map_eq_some_iff] at h
      obtain ⟨r, rfl, rfl⟩ := h
      exact ⟨r.ty, by simp [Cmd.keys, FRuleN.keys], rfl⟩

theorem ix_inj {st : St} (h : Inv st) {n m : Text} (hn : st.tm.names n ≠ none) (hm : st.tm.names m ≠ none) (he : ix st n = ix st m) :
    n = m := by
  unfold ix at he
  cases h1 : st.tm.names n with
  | none => exact absurd h1 hn
  | some i =>
    cases h2 : st.tm.names m with
    | none => exact absurd h2 hm
    | some j =>
      rw [h1, h2] at he
      simp only [Option.getD_some] at he
      subst he
      obtain ⟨r, r1, r2⟩ := h.ok.valid _ _ h1
      obtain ⟨q, q1, q2⟩ := h.ok.valid _ _ h2
      rw [r1] at q1; cases q1; rw [← r2, q2]

/-- If no older foreign type stands for a Rust type, the first new one standing for it is chosen. -/
theorem chosen_pick (P : Graph.PopFn) {st st' : St} (h : Inv st) {cs : List Cmd} (hr : run st cs = .ok st') (dir : Select.Dir)
    (n : Text) (hold : ∀ i, st.tm.names n = some i → ∀ ft ∈ st.fts.ftypes, stands dir ft ≠ some i) (c : Cmd)
    (hp : cs.find? (fun c => decide (stdKey dir c = some n)) = some c) : chosen P st' dir n = mkF (ix st') c := by
  have hd := run_done h hr
  obtain ⟨hc, as, bs, rfl, has⟩ := List.find?_eq_some_iff_append.1 hp
  simp only [decide_eq_true_eq] at hc
  have hnamed : ∀ q, ∀ x ∈ as ++ c :: bs, stdKey dir x = some q → st'.tm.names q ≠ none := by
    intro q x hx hq
    obtain ⟨k, hk, rfl⟩ := stdKey_key hq
    exact hd.keys x hx k hk
  have hnn := hnamed n c (by simp) hc
  obtain ⟨i, hi⟩ : ∃ i, st'.tm.names n = some i := by
    cases h1 : st'.tm.names n with
    | none => exact absurd h1 hnn
    | some i => exact ⟨i, rfl⟩
  have hix : ix st' n = i := by simp [ix, hi]
  obtain ⟨ft, hft⟩ : ∃ ft, mkF (ix st') c = some ft := by
    cases c with
    | alloc => cases hc
    | rule => cases hc
    | ftype => exact ⟨_, rfl⟩
  have hsplit : st'.fts.ftypes = (st.fts.ftypes ++ as.filterMap (mkF (ix st'))) ++ ft :: bs.filterMap (mkF (ix st')) := by
    rw [hd.fts, made_eq, List.filterMap_append, List.filterMap_cons, hft]
    simp
  rw [hft]
  refine chosen_first P hd.inv dir n i hi _ _ ft hsplit ?_ ?_
  · rw [stands_mkF hft, hc, Option.map_some, hix]
  · intro f hf
    rcases List.mem_append.1 hf with hf | hf
    · cases h1 : st.tm.names n with
      | some j =>
        have := hd.ext.names _ _ h1
        rw [hi] at this; cases this
        exact hold i h1 f hf
      | none =>
        intro hs
        have hlt : i < st.tm.g.nodes.length := by
          cases dir with
          | true =>
            simp only [stands, if_true, Option.map_eq_some_iff] at hs
            obtain ⟨r, r1, r2⟩ := hs
            rw [← r2]; exact h.known f hf r (Or.inl r1)
          | false =>
            simp only [stands, Bool.false_eq_true, if_false, Option.map_eq_some_iff] at hs
            obtain ⟨r, r1, r2⟩ := hs
            rw [← r2]; exact h.known f hf r (Or.inr r1)
        obtain ⟨q, hq⟩ : ∃ q, st.tm.g.nodes[i]? = some q := ⟨_, List.getElem?_eq_getElem hlt⟩
        obtain ⟨x, hx⟩ := hd.ext.nodes
        obtain ⟨r, r1, r2⟩ := hd.inv.ok.valid _ _ hi
        rw [hx, List.getElem?_append_left hlt, hq] at r1
        cases r1
        have := h.ok.byName i q hq
        rw [r2, h1] at this; cases this
    · obtain ⟨x, hx, hxf⟩ := List.mem_filterMap.1 hf
      rw [stands_mkF hxf]
      cases hk : stdKey dir x with
      | none => simp
      | some q =>
        simp only [Option.map_some, ne_eq, Option.some.injEq]
        intro he
        have hq := hnamed q x (by simp [hx]) hk
        have := ix_inj hd.inv hq hnn (by rw [he, hix])
        subst this
        have := has x hx
        simp [hk] at this

/-- A foreign rule for Rust type `t` that goes through the Rust type `via` and converts with `code` on the foreign side. -/
def Goes (st : St) (r : Option (FRule Text)) (t via code : Text) : Prop :=
  ∃ (i j : Nat), st.tm.names t = some i ∧ st.tm.names via = some j ∧ r = some ⟨i, some ⟨false, j, code, none⟩⟩

/-- A foreign rule that takes values of Rust type `t` as they are. -/
def Direct (st : St) (r : Option (FRule Text)) (t : Text) : Prop :=
  ∃ (i : Nat), st.tm.names t = some i ∧ r = some ⟨i, none⟩

theorem named_ix {st : St} {n : Text} (h : st.tm.names n ≠ none) : st.tm.names n = some (ix st n) := by
  unfold ix
  cases h1 : st.tm.names n with
  | none => exact absurd h1 h
  | some i => rfl

theorem lookup_goes (P : Graph.PopFn) {st st' : St} (h : Inv st) {cs : List Cmd} (hr : run st cs = .ok st') (dir : Select.Dir)
    (n : Text) (hold : ∀ i, st.tm.names n = some i → ∀ ft ∈ st.fts.ftypes, stands dir ft ≠ some i)
    {src : Option Nat} {pre d : Text} {mods : List Text} {into frm : Option FRuleN} {k m : Key} {code : Text}
    (hrule : (if dir then into else frm) = some ⟨k, some (m, code)⟩)
    (hp : cs.find? (fun c => decide (stdKey dir c = some n)) = some (.ftype src pre d mods into frm)) :
    ∃ ft, chosen P st' dir n = some ft ∧ ft.name.display = d ∧ ft.provided = mods ∧
      Goes st' (if dir then ft.into else ft.frm) n m.name code := by
  have hd := run_done h hr
  have hc := chosen_pick P h hr dir n hold _ hp
  have hk : k.name = n := by
    have := List.find?_some hp
    simp only [decide_eq_true_eq, stdKey, hrule, Option.map_some, Option.some.injEq] at this
    exact this
  have hmem := List.mem_of_find?_eq_some hp
  have hk1 : ∀ q ∈ FRuleN.keys ⟨k, some (m, code)⟩, st'.tm.names q.name ≠ none := by
    intro q hq
    refine hd.keys _ hmem q ?_
    simp only [Cmd.keys, List.mem_append]
    cases dir with
    | true => left; simp only [if_true] at hrule; rw [hrule]; exact hq
    | false => right; simp only [Bool.false_eq_true, if_false] at hrule; rw [hrule]; exact hq
  refine ⟨_, hc, by simp [FTypes.UName.display], rfl, ix st' n, ix st' m.name, ?_, ?_, ?_⟩
  · rw [← hk]; exact named_ix (hk1 k (by simp [FRuleN.keys]))
  · exact named_ix (hk1 m (by simp [FRuleN.keys]))
  · cases dir with
    | true => simp only [if_true] at hrule ⊢; rw [hrule, ← hk]; rfl
    | false => simp only [Bool.false_eq_true, if_false] at hrule ⊢; rw [hrule, ← hk]; rfl

theorem lookup_direct (P : Graph.PopFn) {st st' : St} (h : Inv st) {cs : List Cmd} (hr : run st cs = .ok st') (dir : Select.Dir)
    (n : Text) (hold : ∀ i, st.tm.names n = some i → ∀ ft ∈ st.fts.ftypes, stands dir ft ≠ some i)
    {src : Option Nat} {pre d : Text} {mods : List Text} {into frm : Option FRuleN} {k : Key}
    (hrule : (if dir then into else frm) = some ⟨k, none⟩)
    (hp : cs.find? (fun c => decide (stdKey dir c = some n)) = some (.ftype src pre d mods into frm)) :
    ∃ ft, chosen P st' dir n = some ft ∧ ft.name.display = d ∧ ft.provided = mods ∧
      Direct st' (if dir then ft.into else ft.frm) n := by
  have hd := run_done h hr
  have hc := chosen_pick P h hr dir n hold _ hp
  have hk : k.name = n := by
    have := List.find?_some hp
    simp only [decide_eq_true_eq, stdKey, hrule, Option.map_some, Option.some.injEq] at this
    exact this
  have hmem := List.mem_of_find?_eq_some hp
  have hk1 : st'.tm.names k.name ≠ none := by
    refine hd.keys _ hmem k ?_
    simp only [Cmd.keys, List.mem_append]
    cases dir with
    | true => left; simp only [if_true] at hrule; rw [hrule]; simp [FRuleN.keys]
    | false => right; simp only [Bool.false_eq_true, if_false] at hrule; rw [hrule]; simp [FRuleN.keys]
  refine ⟨_, hc, by simp [FTypes.UName.display], rfl, ix st' n, ?_, ?_⟩
  · rw [← hk]; exact named_ix hk1
  · cases dir with
    | true => simp only [if_true] at hrule ⊢; rw [hrule, ← hk]; rfl
    | false => simp only [Bool.false_eq_true, if_false] at hrule ⊢; rw [hrule, ← hk]; rfl

theorem find_flat {α : Type} (f : α → List Cmd) (p : Cmd → Bool) (l m : List α) (c : α) (x : Cmd)
    (hl : ∀ c' ∈ l, ∀ y ∈ f c', p y = false) (hx : (f c).find? p = some x) : ((l ++ c :: m).flatMap f).find? p = some x := by
  rw [List.flatMap_append, List.flatMap_cons, List.find?_append, List.find?_append, hx]
  have : (l.flatMap f).find? p = none := by
    rw [List.find?_eq_none]
    intro y hy
    obtain ⟨c', h1, h2⟩ := List.mem_flatMap.1 hy
    rw [hl c' h1 y h2]; simp
  rw [this]; rfl

theorem mem_rules_flat {α : Type} (f : α → List Cmd) {x : Text × Text × Text} : ∀ {cs : List α},
    x ∈ rulesOf (cs.flatMap f) ↔ ∃ c ∈ cs, x ∈ rulesOf (f c)
  | [] => by simp [rulesOf]
  | c :: cs => by
    rw [List.flatMap_cons, rulesOf_append, List.mem_append, mem_rules_flat (cs := cs)]
    simp

/-! ### Type names -/

/-- A text cut at a character. -/
def cut (sep : Char) : Text → List Text
  | [] => [[]]
  | c :: t => if c = sep then [] :: cut sep t else
    match cut sep t with
    | w :: ws => (c :: w) :: ws
    | [] => [[c]]

theorem cut_one {sep : Char} : ∀ {t : Text}, sep ∉ t → cut sep t = [t]
  | [], _ => rfl
  | c :: t, h => by
    simp only [List.mem_cons, not_or] at h
    simp only [cut, if_neg (Ne.symm h.1), cut_one h.2]

theorem cut_app {sep : Char} : ∀ {a : Text} (b : Text), sep ∉ a → cut sep (a ++ sep :: b) = a :: cut sep b
  | [], b, _ => by simp [cut]
  | c :: t, b, h => by
    simp only [List.mem_cons, not_or] at h
    simp only [List.cons_append, cut, if_neg (Ne.symm h.1), cut_app b h.2]

/-- The name of a type that is neither a reference nor a pointer. -/
structure Ordinary (t : Text) : Prop where
  noNul : Char.ofNat 0 ∉ t
  noRef : t.head? ≠ some '&'
  noPtr : t.head? ≠ some '*'
  noMut : t.head? ≠ some ' ' ∧ ¬ lit "mut " <+: t

/-- The object, the referenced and the `self` type are ordinary types. -/
structure OrdinaryDesc (d : Desc) : Prop where
  this : Ordinary d.thisTy
  inner : Ordinary d.inner
  self : Ordinary d.selfTy

theorem lit_append (a b : String) : lit (a ++ b) = lit a ++ lit b := by unfold lit; simp

theorem refOf_noNul {t : Text} (h : Char.ofNat 0 ∉ t) : Char.ofNat 0 ∉ refOf t := by
  simp only [refOf, List.mem_append, not_or]
  exact ⟨by unfold lit; decide, h⟩

theorem mutRefOf_noNul {t : Text} (h : Char.ofNat 0 ∉ t) : Char.ofNat 0 ∉ mutRefOf t := by
  simp only [mutRefOf, List.mem_append, not_or]
  exact ⟨by unfold lit; decide, h⟩

theorem mutPtrOf_noNul {t : Text} (h : Char.ofNat 0 ∉ t) : Char.ofNat 0 ∉ mutPtrOf t := by
  simp only [mutPtrOf, List.mem_append, not_or]
  exact ⟨by unfold lit; decide, h⟩

theorem refOf_head (t : Text) : (refOf t).head? = some '&' := by unfold refOf lit; simp
theorem mutRefOf_head (t : Text) : (mutRefOf t).head? = some '&' := by unfold mutRefOf lit; simp
theorem mutPtrOf_head (t : Text) : (mutPtrOf t).head? = some '*' := by unfold mutPtrOf lit; simp

theorem refOf_inj {a b : Text} : refOf a = refOf b ↔ a = b := by simp [refOf]
theorem mutRefOf_inj {a b : Text} : mutRefOf a = mutRefOf b ↔ a = b := by simp [mutRefOf]

theorem mutRefOf_eq (t : Text) : mutRefOf t = refOf (lit "mut " ++ t) := by
  simp only [mutRefOf, refOf, ← List.append_assoc]
  congr 1
  unfold lit; decide

theorem refOf_ne_mut {a b : Text} (h : Ordinary a) : refOf a ≠ mutRefOf b := by
  rw [mutRefOf_eq]
  intro he
  rw [refOf_inj] at he
  exact h.noMut.2 (he ▸ List.prefix_append _ _)

theorem Ordinary.neRef {a b : Text} (h : Ordinary a) : a ≠ refOf b := fun he => h.noRef (he ▸ refOf_head b)
theorem Ordinary.neMutRef {a b : Text} (h : Ordinary a) : a ≠ mutRefOf b := fun he => h.noRef (he ▸ mutRefOf_head b)
theorem Ordinary.nePtr {a b : Text} (h : Ordinary a) : a ≠ mutPtrOf b := fun he => h.noPtr (he ▸ mutPtrOf_head b)

theorem run_checked (st : St) (k : Key) (ts : List Text) (e : Except Err Unit) (X : List Cmd) (st' : St) :
    ((do let st1 ← run st [.alloc k ts]; e; run st1 X) = .ok st') ↔ e = .ok () ∧ run st (.alloc k ts :: X) = .ok st' := by
  have h2 : run st (.alloc k ts :: X) = run (st.node k ts).1 X := rfl
  have h1 : run st [.alloc k ts] = .ok (st.node k ts).1 := rfl
  rw [h1, h2]
  cases e with
  | error e => exact ⟨fun h => (by cases h), fun h => (by cases h.1)⟩
  | ok u => exact ⟨fun h => ⟨rfl, h⟩, fun h => h.2⟩

end Flapi.Register
