import Verif.TypeMap.MergeRule
import Verif.TypeMap.MergeProps
import Verif.TypeMap.ForeignTypesProps
/-! # Effect of registering one `foreign_typemap!` rule (C51) -/
namespace Flapi.FTypes
open Flapi TMap
variable {τ κ : Type}

/-! ## Specification -/

/-- Type map and foreign type storage are well formed (holds in all reachable states: C14_reachable_ok,
C15_lookup_consistent). -/
def Inv (s : MState τ κ) : Prop := TMap.Ok s.tm ∧ Consistent s.st

/-- The Rust-side conversions a rule asks for, in the order they take effect: (from, target, code). -/
def asked (norm : τ → Text) (ri : RuleInfo τ κ) : List (Text × Text × κ) :=
  (match ri.rLR with | some ⟨l, some r, some c⟩ => [(norm l, norm r, c)] | _ => []) ++
  (match ri.rRL with | some ⟨l, some r, some c⟩ => [(norm r, norm l, c)] | _ => [])

/-- Rust conversions in force after applying `l` on top of `old`: later ones override earlier ones. -/
def Over (old : Text → Text → κ → Prop) : List (Text × Text × κ) → Text → Text → κ → Prop
  | [], x, y, w => old x y w
  | (a, b, c) :: l, x, y, w => Over (fun x y w => if x = a ∧ y = b then w = c else old x y w) l x y w

/-! ## Lemmas -/

theorem hasRule_addNode {tm : TM τ κ} (h : TMap.Ok tm) (r : RTy τ) (x y : Text) (w : κ) :
    HasRule (addNode tm r).1 x y w ↔ HasRule tm x y w := by
  have ho := addNode_ok h r
  constructor
  · rintro ⟨i, j, hi, hj, e, he, h1, h2, h3⟩
    rw [addNode_edges] at he
    have hw := h.wf e he
    have back : ∀ k n, k < tm.g.nodes.length → (addNode tm r).1.names n = some k → tm.names n = some k := by
      intro k n hk hn
      obtain ⟨q, hq⟩ : ∃ q, tm.g.nodes[k]? = some q := ⟨_, List.getElem?_eq_getElem hk⟩
      have h4 := h.byName k q hq
      have h5 := addNode_mono r h4
      obtain ⟨a, a1, a2⟩ := ho.valid _ _ hn
      obtain ⟨b, b1, b2⟩ := ho.valid _ _ h5
      rw [a1] at b1; cases b1
      rw [← a2, b2]; exact h4
    exact ⟨i, j, back i x (h1 ▸ hw.1) hi, back j y (h2 ▸ hw.2) hj, e, he, h1, h2, h3⟩
  · rintro ⟨i, j, hi, hj, e, he, h1⟩
    exact ⟨i, j, addNode_mono r hi, addNode_mono r hj, e, by rw [addNode_edges]; exact he, h1⟩

theorem hasRule_addRule {tm : TM τ κ} (h : TMap.Ok tm) {a b : Nat} {na nb : Text} (ha : tm.names na = some a)
    (hb : tm.names nb = some b) (c : κ) (x y : Text) (w : κ) :
    HasRule (addRule tm a b c) x y w ↔ if x = na ∧ y = nb then w = c else HasRule tm x y w := by
  have key := fun i j => adj_updateEdge (w := c) (a := a) (b := b) h.simple i j w
  have inj : ∀ s t i, tm.names s = some i → tm.names t = some i → s = t := by
    intro s t i hs ht
    obtain ⟨r, r1, r2⟩ := h.valid s i hs
    obtain ⟨q, q1, q2⟩ := h.valid t i ht
    rw [r1] at q1; cases q1; rw [← r2, q2]
  unfold HasRule
  simp only [addRule]
  constructor
  · rintro ⟨i, j, hi, hj, hr⟩
    rw [key] at hr
    by_cases hij : i = a ∧ j = b
    · obtain ⟨rfl, rfl⟩ := hij
      rw [if_pos ⟨rfl, rfl⟩] at hr
      rw [if_pos ⟨inj _ _ _ hi ha, inj _ _ _ hj hb⟩]; exact hr
    · rw [if_neg hij] at hr
      rw [if_neg]
      · exact ⟨i, j, hi, hj, hr⟩
      · rintro ⟨rfl, rfl⟩
        rw [ha] at hi; rw [hb] at hj; cases hi; cases hj; exact hij ⟨rfl, rfl⟩
  · intro hr
    by_cases hxy : x = na ∧ y = nb
    · obtain ⟨rfl, rfl⟩ := hxy
      rw [if_pos ⟨rfl, rfl⟩] at hr
      exact ⟨a, b, ha, hb, by rw [key, if_pos ⟨rfl, rfl⟩]; exact hr⟩
    · rw [if_neg hxy] at hr
      obtain ⟨i, j, hi, hj, hr⟩ := hr
      refine ⟨i, j, hi, hj, ?_⟩
      rw [key, if_neg]
      · exact hr
      · rintro ⟨rfl, rfl⟩; exact hxy ⟨inj _ _ _ hi ha, inj _ _ _ hj hb⟩

/-- A step of the rule registration: what it may do to the state. -/
structure Good (s s' : MState τ κ) : Prop where
  inv : Inv s → Inv s'
  names : ∀ n i, s.tm.names n = some i → s'.tm.names n = some i
  keeps : Keeps s.st s'.st
  cacheTo : ∀ i, s.cacheTo i = none → s'.cacheTo i = none
  cacheFrom : ∀ i, s.cacheFrom i = none → s'.cacheFrom i = none

theorem Good.refl (s : MState τ κ) : Good s s := ⟨id, fun _ _ h => h, fun _ _ h => h, fun _ h => h, fun _ h => h⟩

theorem Good.trans {a b c : MState τ κ} (h : Good a b) (k : Good b c) : Good a c :=
  ⟨fun x => k.inv (h.inv x), fun n i x => k.names n i (h.names n i x), fun n i x => k.keeps n i (h.keeps n i x),
   fun i x => k.cacheTo i (h.cacheTo i x), fun i x => k.cacheFrom i (h.cacheFrom i x)⟩

theorem good_invalidate (s : MState τ κ) (t : Nat) : Good s (s.invalidate t) :=
  ⟨id, fun _ _ h => h, fun _ _ h => h, fun i h => by simp [MState.invalidate, h], fun i h => by simp [MState.invalidate, h]⟩

theorem good_alloc (norm : τ → Text) (s : MState τ κ) (t : τ) : Good s (s.findOrAlloc norm t).1 :=
  ⟨fun h => ⟨addNode_ok h.1 _, h.2⟩, fun _ _ h => addNode_mono _ h, fun _ _ h => h, fun _ h => h, fun _ h => h⟩

theorem alloc_names (norm : τ → Text) (s : MState τ κ) (t : τ) :
    (s.findOrAlloc norm t).1.tm.names (norm t) = some (s.findOrAlloc norm t).2 :=
  addNode_names (tm := s.tm) ⟨norm t, t⟩

theorem hasRule_alloc (norm : τ → Text) {s : MState τ κ} (h : Inv s) (t : τ) (x y : Text) (w : κ) :
    HasRule (s.findOrAlloc norm t).1.tm x y w ↔ HasRule s.tm x y w := hasRule_addNode h.1 _ x y w

theorem finishFType_spec (s : MState τ κ) (i : Nat) (mods : List Text) (pre : Option Text) (src : Option Nat) (_h : Inv s) :
    Good s (finishFType s i mods pre src).1 ∧ (finishFType s i mods pre src).1.tm = s.tm ∧
    (∀ ft, s.st.ftypes[i]? = some ft → ∃ ft', (finishFType s i mods pre src).1.st.ftypes[i]? = some ft' ∧
      ft'.name.value = ft.name.value ∧ ft'.into = ft.into ∧ ft'.frm = ft.frm ∧ ft'.provided = mods) ∧
    (∀ (j : Nat), j ≠ i → (finishFType s i mods pre src).1.st.ftypes[j]? = s.st.ftypes[j]?) ∧
    (i < s.st.ftypes.length → (finishFType s i mods pre src).2 ≠ .panic) := by
  unfold finishFType
  cases hi : s.st.ftypes[i]? with
  | none =>
    refine ⟨Good.refl s, rfl, by simp, by simp, ?_⟩
    intro hlt; simp at hi; omega
  | some ft =>
    dsimp only
    have hv := setUniquePrefix_value { ft with provided := mods } pre src
    have hrest : (setUniquePrefix { ft with provided := mods } pre src).1.into = ft.into ∧
        (setUniquePrefix { ft with provided := mods } pre src).1.frm = ft.frm ∧
        (setUniquePrefix { ft with provided := mods } pre src).1.provided = mods ∧
        (setUniquePrefix { ft with provided := mods } pre src).2 ≠ .panic := by
      unfold setUniquePrefix
      dsimp only
      split
      · simp
      · cases pre with
        | none => simp [UName.setNamePrefix]
        | some p =>
          dsimp only
          split
          · rename_i hp; simp [UName.setNamePrefix, hp]
          · simp
    have hcons : Consistent s.st → Consistent (s.st.modify i fun _ => (setUniquePrefix { ft with provided := mods } pre src).1) := by
      intro hc n k
      have := hc n k
      simp only [Storage.findByName, Storage.modify, List.getElem?_modify] at *
      rw [this]
      by_cases hik : i = k
      · subst hik; simp [hi, hv]
      · simp [hik]
    refine ⟨⟨fun h => ⟨h.1, hcons h.2⟩, fun _ _ h => h, fun _ _ h => h, fun _ h => h, fun _ h => h⟩, rfl, ?_, ?_, fun _ => hrest.2.2.2⟩
    · intro ft0 h0; cases h0
      refine ⟨_, by simp [Storage.modify, hi], hv, hrest.1, hrest.2.1, hrest.2.2.1⟩
    · intro j hj; simp [Storage.modify, Ne.symm hj]

theorem mergeSimple_spec (norm : τ → Text) (src : Option Nat) (s : MState τ κ) (t : τ) (f : Text) (mods : List Text)
    (pre : Option Text) (h : Inv s) :
    let r := mergeSimple norm src s t f mods pre
    Good s r.1 ∧ r.2 ≠ .panic ∧ (∀ x y w, HasRule r.1.tm x y w ↔ HasRule s.tm x y w) ∧
    (∀ i, r.1.tm.names (norm t) = some i → r.1.cacheTo i = none ∧ r.1.cacheFrom i = none) ∧
    (s.st.findByName f ≠ none → r.2 = .err ∧ r.1.st = s.st) ∧
    (s.st.findByName f = none → ∃ i ft k, r.1.st.findByName f = some i ∧ r.1.st.ftypes[i]? = some ft ∧
      r.1.tm.names (norm t) = some k ∧ ft.into = some ⟨k, none⟩ ∧ ft.frm = some ⟨k, none⟩ ∧ ft.provided = mods) := by
  intro r
  have g1 := good_alloc norm s t
  have g2 := good_invalidate (s.findOrAlloc norm t).1 (s.findOrAlloc norm t).2
  have g12 := g1.trans g2
  have hn := alloc_names norm s t
  have hr : r = mergeSimple norm src s t f mods pre := rfl
  unfold mergeSimple at hr
  dsimp only at hr
  cases hf : s.st.names f with
  | some j =>
    have ha : Storage.allocNew ((s.findOrAlloc norm t).1.invalidate (s.findOrAlloc norm t).2).st ⟨f, 0⟩ src (s.findOrAlloc norm t).2 =
        (s.st, none) := by
      simp [Storage.allocNew, Storage.addNew, MState.invalidate, MState.findOrAlloc, hf]
    rw [ha] at hr
    dsimp only at hr
    rw [hr]
    refine ⟨⟨fun x => g12.inv x, g12.names, fun _ _ h => h, g12.cacheTo, g12.cacheFrom⟩, by simp, ?_, ?_, ?_, ?_⟩
    · intro x y w; exact hasRule_alloc norm h t x y w
    · intro i hi
      have : (s.findOrAlloc norm t).1.tm.names (norm t) = some i := hi
      rw [hn] at this; cases this
      simp [MState.invalidate]
    · intro _; exact ⟨rfl, rfl⟩
    · intro hc; rw [Storage.findByName, hf] at hc; cases hc
  | none =>
    have ha : Storage.allocNew ((s.findOrAlloc norm t).1.invalidate (s.findOrAlloc norm t).2).st ⟨f, 0⟩ src (s.findOrAlloc norm t).2 =
        (⟨s.st.ftypes ++ [⟨⟨f, 0⟩, src, [], some ⟨(s.findOrAlloc norm t).2, none⟩, some ⟨(s.findOrAlloc norm t).2, none⟩⟩],
          TMap.setName s.st.names f s.st.ftypes.length⟩, some s.st.ftypes.length) := by
      simp [Storage.allocNew, Storage.addNew, MState.invalidate, MState.findOrAlloc, hf]
    have hadd := addNew_consistent h.2 (⟨⟨f, 0⟩, src, [], some ⟨(s.findOrAlloc norm t).2, none⟩, some ⟨(s.findOrAlloc norm t).2, none⟩⟩ : FType κ)
    have hkeep := addNew_keeps s.st (⟨⟨f, 0⟩, src, [], some ⟨(s.findOrAlloc norm t).2, none⟩, some ⟨(s.findOrAlloc norm t).2, none⟩⟩ : FType κ)
    simp only [Storage.addNew, hf] at hadd hkeep
    rw [ha] at hr
    dsimp only at hr
    generalize hs3 : ({ (s.findOrAlloc norm t).1.invalidate (s.findOrAlloc norm t).2 with
      st := (⟨s.st.ftypes ++ [⟨⟨f, 0⟩, src, [], some ⟨(s.findOrAlloc norm t).2, none⟩, some ⟨(s.findOrAlloc norm t).2, none⟩⟩],
          TMap.setName s.st.names f s.st.ftypes.length⟩ : Storage κ) } : MState τ κ) = s3 at hr
    have g3 : Good s s3 := by
      subst hs3
      exact ⟨fun x => ⟨(g12.inv x).1, hadd⟩, g12.names, hkeep, g12.cacheTo, g12.cacheFrom⟩
    obtain ⟨k1, k2, k3, _, k5⟩ := finishFType_spec s3 s.st.ftypes.length mods pre src (g3.inv h)
    have hst3 : s3.st = (⟨s.st.ftypes ++ [⟨⟨f, 0⟩, src, [], some ⟨(s.findOrAlloc norm t).2, none⟩, some ⟨(s.findOrAlloc norm t).2, none⟩⟩],
          TMap.setName s.st.names f s.st.ftypes.length⟩ : Storage κ) := by subst hs3; rfl
    have htm3 : s3.tm = (s.findOrAlloc norm t).1.tm := by subst hs3; rfl
    rw [← hr] at k1 k2 k3 k5
    refine ⟨g3.trans k1, k5 (by rw [hst3]; simp), ?_, ?_, ?_, ?_⟩
    · intro x y w; rw [k2, htm3]; exact hasRule_alloc norm h t x y w
    · intro i hi
      rw [k2, htm3, hn] at hi; cases hi
      refine ⟨k1.cacheTo _ ?_, k1.cacheFrom _ ?_⟩ <;> · subst hs3; simp [MState.invalidate]
    · intro hc; exact absurd hf hc
    · intro _
      obtain ⟨ft', f1, f2, f3, f4, f5⟩ := k3 _ (by rw [hst3]; simp; rfl)
      refine ⟨s.st.ftypes.length, ft', (s.findOrAlloc norm t).2, k1.keeps _ _ ?_, f1, by rw [k2, htm3]; exact hn, f3, f4, f5⟩
      rw [hst3]; simp [Storage.findByName, TMap.setName]

/-- What `mergeRRule` does. -/
theorem mergeRRule_spec (norm : τ → Text) (fwd : Bool) (s : MState τ κ) (h : Inv s) (ro : Option (RRule τ κ)) :
    let r := mergeRRule norm fwd s ro
    Good s r.1 ∧ r.2 ≠ .panic ∧ r.1.st = s.st ∧
    (∀ q, r.2 = .ok q → ∀ x y w, HasRule r.1.tm x y w ↔ Over (HasRule s.tm)
      (match ro with | some ⟨l, some rt, some c⟩ => [if fwd then (norm l, norm rt, c) else (norm rt, norm l, c)] | _ => []) x y w) ∧
    (∀ a b, r.2 = .ok (some (a, b)) → ∃ l rt c, ro = some ⟨l, some rt, some c⟩ ∧
      r.1.tm.names (norm l) = some (if fwd then a else b) ∧ r.1.tm.names (norm rt) = some (if fwd then b else a) ∧
      r.1.cacheTo a = none ∧ r.1.cacheTo b = none ∧ r.1.cacheFrom a = none ∧ r.1.cacheFrom b = none) ∧
    (r.2 = .ok none → ro = none) := by
  match ro with
  | none => exact ⟨Good.refl s, by simp [mergeRRule], rfl, fun _ _ x y w => Iff.rfl, by simp [mergeRRule], fun _ => rfl⟩
  | some ⟨l, none, c⟩ =>
    exact ⟨Good.refl s, by simp [mergeRRule], rfl, by simp [mergeRRule], by simp [mergeRRule], by simp [mergeRRule]⟩
  | some ⟨l, some rt, none⟩ =>
    exact ⟨Good.refl s, by simp [mergeRRule], rfl, by simp [mergeRRule], by simp [mergeRRule], by simp [mergeRRule]⟩
  | some ⟨l, some rt, some c⟩ =>
    intro r
    have g1 := good_alloc norm s l
    have g2 := good_alloc norm (s.findOrAlloc norm l).1 rt
    have g12 := g1.trans g2
    have i1 := g1.inv h
    have i2 := g12.inv h
    have n1 := g2.names _ _ (alloc_names norm s l)
    have n2 := alloc_names norm (s.findOrAlloc norm l).1 rt
    generalize hs2 : ((s.findOrAlloc norm l).1.findOrAlloc norm rt).1 = s2 at *
    generalize hli : (s.findOrAlloc norm l).2 = li at *
    generalize hri : ((s.findOrAlloc norm l).1.findOrAlloc norm rt).2 = rI at *
    have hr : r = ((({ s2 with tm := addRule s2.tm (if fwd then (li, rI) else (rI, li)).1 (if fwd then (li, rI) else (rI, li)).2 c } :
        MState τ κ).invalidate (if fwd then (li, rI) else (rI, li)).1).invalidate (if fwd then (li, rI) else (rI, li)).2,
        .ok (some (if fwd then (li, rI) else (rI, li)))) := by
      show mergeRRule norm fwd s (some ⟨l, some rt, some c⟩) = _
      simp only [mergeRRule, hs2, hli, hri]
    have hl : li < s2.tm.g.nodes.length := i2.1.lt n1
    have hrl : rI < s2.tm.g.nodes.length := i2.1.lt n2
    have hst : s2.st = s.st := by rw [← hs2]; rfl
    have hrul : ∀ x y w, HasRule s2.tm x y w ↔ HasRule s.tm x y w := by
      intro x y w
      rw [← hs2, hasRule_alloc norm i1, hasRule_alloc norm h]
    cases fwd with
    | true =>
      simp only [if_true] at hr ⊢
      have ga : Good s2 ({ s2 with tm := addRule s2.tm li rI c } : MState τ κ) :=
        ⟨fun x => ⟨addRule_ok x.1 hl hrl c, x.2⟩, fun _ _ h => h, fun _ _ h => h, fun _ h => h, fun _ h => h⟩
      have gb := ga.trans ((good_invalidate _ li).trans (good_invalidate _ rI))
      rw [hr]
      refine ⟨g12.trans gb, by simp, hst, ?_, ?_, by simp⟩
      · intro q hq x y w
        show HasRule (addRule s2.tm li rI c) x y w ↔ _
        rw [hasRule_addRule i2.1 n1 n2 c x y w]
        simp only [Over]
        split
        · exact Iff.rfl
        · exact hrul x y w
      · intro a b hab
        simp only [Out.ok.injEq, Option.some.injEq, Prod.mk.injEq] at hab
        obtain ⟨rfl, rfl⟩ := hab
        exact ⟨l, rt, c, rfl, n1, n2, by simp [MState.invalidate], by simp [MState.invalidate], by simp [MState.invalidate],
          by simp [MState.invalidate]⟩
    | false =>
      simp only [Bool.false_eq_true, if_false] at hr ⊢
      have ga : Good s2 ({ s2 with tm := addRule s2.tm rI li c } : MState τ κ) :=
        ⟨fun x => ⟨addRule_ok x.1 hrl hl c, x.2⟩, fun _ _ h => h, fun _ _ h => h, fun _ h => h, fun _ h => h⟩
      have gb := ga.trans ((good_invalidate _ rI).trans (good_invalidate _ li))
      rw [hr]
      refine ⟨g12.trans gb, by simp, hst, ?_, ?_, by simp⟩
      · intro q hq x y w
        show HasRule (addRule s2.tm rI li c) x y w ↔ _
        rw [hasRule_addRule i2.1 n2 n1 c x y w]
        simp only [Over]
        split
        · exact Iff.rfl
        · exact hrul x y w
      · intro a b hab
        simp only [Out.ok.injEq, Option.some.injEq, Prod.mk.injEq] at hab
        obtain ⟨rfl, rfl⟩ := hab
        exact ⟨l, rt, c, rfl, n1, n2, by simp [MState.invalidate], by simp [MState.invalidate], by simp [MState.invalidate],
          by simp [MState.invalidate]⟩

/-- The conversion rule a foreign-side rule asks for, given the two Rust types. -/
def fruleOf (l rt : Nat) (r : FConv κ) : FRule κ :=
  match r.code with
  | some (c, csrc) => ⟨l, some ⟨r.inputToOutput, rt, c, csrc⟩⟩
  | none => ⟨rt, none⟩

theorem optFRule_spec (lr : Option (Nat × Nat)) (rs : List (FConv κ)) (s : MState τ κ) :
    let r := optFRule lr rs s
    Good s r.1 ∧ r.1.tm = s.tm ∧ r.1.st = s.st ∧ (rs.length ≤ 1 → r.2 ≠ .panic) ∧ (r.2 = .ok none → rs = []) ∧
    (∀ f fr, r.2 = .ok (some (f, fr)) → ∃ fc l rt, rs = [fc] ∧ fc.pair = .onlyRight f ∧ lr = some (l, rt) ∧ fr = fruleOf l rt fc) := by
  match rs with
  | [] => exact ⟨Good.refl s, rfl, rfl, by simp [optFRule], fun _ => rfl, by simp [optFRule]⟩
  | _ :: _ :: _ => exact ⟨Good.refl s, rfl, rfl, by simp, by simp [optFRule], by simp [optFRule]⟩
  | [r] =>
    intro q
    have hq : q = optFRule lr [r] s := rfl
    unfold optFRule mergeFRule at hq
    dsimp only at hq
    cases hp : r.pair with
    | onlyLeft n => rw [hp] at hq; rw [hq]; exact ⟨Good.refl s, rfl, rfl, by simp, by simp, by simp⟩
    | both a b => rw [hp] at hq; rw [hq]; exact ⟨Good.refl s, rfl, rfl, by simp, by simp, by simp⟩
    | onlyRight f =>
      rw [hp] at hq
      match lr with
      | none => rw [hq]; exact ⟨Good.refl s, rfl, rfl, by simp, by simp, by simp⟩
      | some (l, rt) =>
        have g := (good_invalidate s rt).trans (good_invalidate (s.invalidate rt) l)
        cases hc : r.code with
        | none =>
          rw [hc] at hq; rw [hq]
          refine ⟨g, rfl, rfl, by simp, by simp, ?_⟩
          intro f' fr hfr
          simp only [Out.ok.injEq, Option.some.injEq, Prod.mk.injEq] at hfr
          obtain ⟨rfl, rfl⟩ := hfr
          exact ⟨r, l, rt, rfl, hp, rfl, by simp [fruleOf, hc]⟩
        | some c =>
          obtain ⟨c, csrc⟩ := c
          rw [hc] at hq; rw [hq]
          refine ⟨g, rfl, rfl, by simp, by simp, ?_⟩
          intro f' fr hfr
          simp only [Out.ok.injEq, Option.some.injEq, Prod.mk.injEq] at hfr
          obtain ⟨rfl, rfl⟩ := hfr
          exact ⟨r, l, rt, rfl, hp, rfl, by simp [fruleOf, hc]⟩

theorem storeRules_spec (src : Option Nat) (s : MState τ κ) (h : Inv s) (f : Text) (into frm : Option (FRule κ))
    (mods : List Text) (pre : Option Text) :
    let r := storeRules src s f into frm mods pre
    Good s r.1 ∧ r.1.tm = s.tm ∧ r.2 ≠ .panic ∧
    (r.2 = .ok () → ∃ (i : Nat) (ft : FType κ), r.1.st.findByName f = some i ∧ r.1.st.ftypes[i]? = some ft ∧
      ft.into = into.or ((s.st.ftypes[i]?).bind (·.into)) ∧ ft.frm = frm.or ((s.st.ftypes[i]?).bind (·.frm)) ∧ ft.provided = mods ∧
      (∀ old, s.st.ftypes[i]? = some old → (∀ r ∈ into, rewriteAllowed old.into r = true) ∧ (∀ r ∈ frm, rewriteAllowed old.frm r = true)) ∧
      (∀ (j : Nat) o, j ≠ i → s.st.ftypes[j]? = some o → r.1.st.ftypes[j]? = some o)) := by
  intro r
  obtain ⟨i, a1, a2, a3⟩ := C15_find_or_alloc s.st ⟨f, 0⟩ src
  have hr : r = storeRules src s f into frm mods pre := rfl
  unfold storeRules at hr
  have hcs : Consistent (s.st.findOrAlloc ⟨f, 0⟩ src).1 := by rw [findOrAlloc_eq]; exact addNew_consistent h.2 _
  have hold : (∀ o, s.st.ftypes[i]? = some o → (s.st.findOrAlloc ⟨f, 0⟩ src).1.ftypes[i]? = some o) ∧
      (∀ o, (s.st.findOrAlloc ⟨f, 0⟩ src).1.ftypes[i]? = some o → o.into = (s.st.ftypes[i]?).bind (·.into) ∧
        o.frm = (s.st.ftypes[i]?).bind (·.frm)) ∧
      (∀ (j : Nat) o, s.st.ftypes[j]? = some o → (s.st.findOrAlloc ⟨f, 0⟩ src).1.ftypes[j]? = some o) := by
    unfold Storage.findOrAlloc at a1 ⊢
    cases hn : s.st.names f with
    | some k =>
      refine ⟨fun _ h => h, ?_, fun _ _ h => h⟩
      intro o ho
      dsimp only at ho
      rw [ho]; exact ⟨rfl, rfl⟩
    | none =>
      simp only [Storage.addNew, hn, Option.some.injEq] at a1 ⊢
      subst a1
      refine ⟨by simp, ?_, ?_⟩
      · intro o ho; simp at ho; subst ho; simp
      · intro j o ho; rw [List.getElem?_append_left (List.getElem?_eq_some_iff.1 ho).1]; exact ho
  cases hfa : s.st.findOrAlloc ⟨f, 0⟩ src with
  | mk st o =>
    rw [hfa] at a1 a2 a3 hr hcs hold
    simp only at a1 a2 a3 hcs hold
    subst a1
    dsimp only at hr
    obtain ⟨ft, hft, hftn⟩ := (hcs f i).1 a2
    rw [hft] at hr
    dsimp only at hr
    have g1 : Good s { s with st := st } := ⟨fun x => ⟨x.1, hcs⟩, fun _ _ h => h, a3, fun _ h => h, fun _ h => h⟩
    by_cases hc1 : into.all (rewriteAllowed ft.into) = true
    · rw [if_pos hc1] at hr
      have g2 : Good { s with st := st } ({ s with st := st.modify i fun ft => { ft with into := into.or ft.into } } : MState τ κ) :=
        ⟨fun x => ⟨x.1, modify_consistent x.2 i (fun ft => { ft with into := into.or ft.into }) (fun _ => rfl)⟩,
          fun _ _ h => h, fun _ _ h => h, fun _ h => h, fun _ h => h⟩
      by_cases hc2 : frm.all (rewriteAllowed ft.frm) = true
      · rw [if_pos hc2] at hr
        generalize hs3 : ({ s with st := Storage.modify (st.modify i fun ft => { ft with into := into.or ft.into }) i (fun ft => { ft with frm := frm.or ft.frm }) } : MState τ κ) = s3 at hr
        have g3 : Good s s3 := by
          subst hs3
          refine (g1.trans g2).trans ⟨fun x => ⟨x.1, modify_consistent x.2 i (fun ft => { ft with frm := frm.or ft.frm })
            (fun _ => rfl)⟩, fun _ _ h => h, fun _ _ h => h, fun _ h => h, fun _ h => h⟩
        have e3 : s3.st.ftypes[i]? = some { ft with into := into.or ft.into, frm := frm.or ft.frm } := by
          subst hs3; simp [Storage.modify, hft]
        obtain ⟨k1, k2, k3, k4, k5⟩ := finishFType_spec s3 i mods pre src (g3.inv h)
        rw [← hr] at k1 k2 k3 k4 k5
        have htm : s3.tm = s.tm := by subst hs3; rfl
        refine ⟨g3.trans k1, k2.trans htm, k5 (List.getElem?_eq_some_iff.1 e3).1, ?_⟩
        intro _
        obtain ⟨ft', f1, f2, f3, f4, f5⟩ := k3 _ e3
        have hn3 : s3.st.findByName f = some i := by subst hs3; exact a2
        obtain ⟨o1, o2⟩ := hold.2.1 ft hft
        refine ⟨i, ft', k1.keeps _ _ hn3, f1, by rw [f3, ← o1], by rw [f4, ← o2], f5, ?_, ?_⟩
        · intro old ho
          have := hold.1 old ho
          rw [hft] at this; cases this
          constructor
          · intro q hq; cases hq; simpa using hc1
          · intro q hq; cases hq; simpa using hc2
        · intro j o hj ho
          rw [k4 j hj]
          subst hs3
          simp only [Storage.modify]
          simp [Ne.symm hj, hold.2.2 j o ho]
      · rw [if_neg hc2] at hr
        rw [hr]
        exact ⟨g1.trans g2, rfl, by simp, by simp⟩
    · rw [if_neg hc1] at hr
      rw [hr]
      exact ⟨g1, rfl, by simp, by simp⟩

theorem storeBoth_good (src : Option Nat) (s : MState τ κ) (h : Inv s) (a b : Option (Text × FRule κ)) (mods : List Text)
    (pre : Option Text) : Good s (storeBoth src s a b mods pre).1 ∧ (storeBoth src s a b mods pre).1.tm = s.tm ∧
    (storeBoth src s a b mods pre).2 ≠ .panic := by
  unfold storeBoth
  split
  · split
    · exact ⟨(storeRules_spec src s h _ _ _ mods pre).1, (storeRules_spec src s h _ _ _ mods pre).2.1,
        (storeRules_spec src s h _ _ _ mods pre).2.2.1⟩
    · exact ⟨Good.refl s, rfl, by simp⟩
  · exact ⟨(storeRules_spec src s h _ _ _ mods pre).1, (storeRules_spec src s h _ _ _ mods pre).2.1,
        (storeRules_spec src s h _ _ _ mods pre).2.2.1⟩
  · exact ⟨(storeRules_spec src s h _ _ _ mods pre).1, (storeRules_spec src s h _ _ _ mods pre).2.1,
        (storeRules_spec src s h _ _ _ mods pre).2.2.1⟩
  · exact ⟨Good.refl s, rfl, by simp⟩

theorem bindOut {α β : Type} {x : Out α} {s : MState τ κ} {k : α → MState τ κ × Out β} {r : MState τ κ × Out β}
    (hr : r = match x with | .err => (s, .err) | .panic => (s, .panic) | .ok a => k a) :
    (x = .err ∧ r = (s, .err)) ∨ (x = .panic ∧ r = (s, .panic)) ∨ ∃ a, x = .ok a ∧ r = k a := by
  cases x with
  | err => exact Or.inl ⟨rfl, hr⟩
  | panic => exact Or.inr (Or.inl ⟨rfl, hr⟩)
  | ok a => exact Or.inr (Or.inr ⟨a, rfl, hr⟩)

theorem over_append (old : Text → Text → κ → Prop) : ∀ (l m : List (Text × Text × κ)) (x y : Text) (w : κ),
    Over old (l ++ m) x y w = Over (Over old l) m x y w
  | [], _, _, _, _ => rfl
  | (a, b, c) :: l, m, x, y, w => by
    show Over _ (l ++ m) x y w = _
    rw [over_append _ l m x y w]; rfl

theorem over_congr {old old' : Text → Text → κ → Prop} (h : ∀ x y w, old x y w ↔ old' x y w) :
    ∀ (l : List (Text × Text × κ)) (x y : Text) (w : κ), Over old l x y w ↔ Over old' l x y w
  | [], x, y, w => h x y w
  | (a, b, c) :: l, x, y, w => by
    refine over_congr ?_ l x y w
    intro x y w
    split
    · exact Iff.rfl
    · exact h x y w

/-- Everything about the non-simple case. -/
theorem mergeFull_spec (norm : τ → Text) (src : Option Nat) (s : MState τ κ) (h : Inv s) (ri : RuleInfo τ κ)
    (h1 : ri.fLR.length ≤ 1) (h2 : ri.fRL.length ≤ 1) :
    let r := mergeFull norm src s ri
    Good s r.1 ∧ r.2 ≠ .panic ∧
    (r.2 = .ok () → (∀ x y w, HasRule r.1.tm x y w ↔ Over (HasRule s.tm) (asked norm ri) x y w) ∧
      (∀ e ∈ asked norm ri, ∀ n ∈ [e.1, e.2.1], ∀ i, r.1.tm.names n = some i → r.1.cacheTo i = none ∧ r.1.cacheFrom i = none) ∧
      ∃ lr rl a b s4 pre, (∀ p, lr = some p → ∃ l rt c, ri.rLR = some ⟨l, some rt, some c⟩ ∧ r.1.tm.names (norm l) = some p.1 ∧
          r.1.tm.names (norm rt) = some p.2) ∧
        (∀ p, rl = some p → ∃ l rt c, ri.rRL = some ⟨l, some rt, some c⟩ ∧ r.1.tm.names (norm l) = some p.1 ∧
          r.1.tm.names (norm rt) = some p.2) ∧
        (a = none → ri.fLR = []) ∧ (b = none → ri.fRL = []) ∧
        (∀ f fr, a = some (f, fr) → ∃ fc l rt, ri.fLR = [fc] ∧ fc.pair = .onlyRight f ∧ lr = some (l, rt) ∧ fr = fruleOf l rt fc) ∧
        (∀ f fr, b = some (f, fr) → ∃ fc l rt, ri.fRL = [fc] ∧ fc.pair = .onlyRight f ∧ rl = some (l, rt) ∧ fr = fruleOf l rt fc) ∧
        Inv s4 ∧ s4.st = s.st ∧
        r = storeBoth src s4 a b ((ri.fLR ++ ri.fRL).flatMap (·.reqModules)) pre) := by
  intro r
  have hr : r = mergeFull norm src s ri := rfl
  unfold mergeFull at hr
  obtain ⟨a1, a2, a3, a4, a5, a6⟩ := mergeRRule_spec norm true s h ri.rLR
  cases hx1 : mergeRRule norm true s ri.rLR with
  | mk s1 o1 =>
  rw [hx1] at a1 a2 a3 a4 a5 a6 hr
  dsimp only at a1 a2 a3 a4 a5 a6 hr
  cases o1 with
  | err => rw [hr]; exact ⟨a1, by simp, by simp⟩
  | panic => exact absurd rfl a2
  | ok lr =>
  dsimp only at hr
  obtain ⟨b1, b2, b3, b4, b5, b6⟩ := mergeRRule_spec norm false s1 (a1.inv h) ri.rRL
  cases hx2 : mergeRRule norm false s1 ri.rRL with
  | mk s2 o2 =>
  rw [hx2] at b1 b2 b3 b4 b5 b6 hr
  dsimp only at b1 b2 b3 b4 b5 b6 hr
  have gb := a1.trans b1
  cases o2 with
  | err => rw [hr]; exact ⟨gb, by simp, by simp⟩
  | panic => exact absurd rfl b2
  | ok rl =>
  dsimp only at hr
  obtain ⟨c1, c2, c3, c4, c5, c6⟩ := optFRule_spec lr ri.fLR s2
  cases hx3 : optFRule lr ri.fLR s2 with
  | mk s3 o3 =>
  rw [hx3] at c1 c2 c3 c4 c5 c6 hr
  dsimp only at c1 c2 c3 c4 c5 c6 hr
  have gc := gb.trans c1
  cases o3 with
  | err => rw [hr]; exact ⟨gc, by simp, by simp⟩
  | panic => exact absurd rfl (c4 h1)
  | ok into =>
  dsimp only at hr
  obtain ⟨d1, d2, d3, d4, d5, d6⟩ := optFRule_spec (rl.map fun p => (p.2, p.1)) ri.fRL s3
  cases hx4 : optFRule (rl.map fun p => (p.2, p.1)) ri.fRL s3 with
  | mk s4 o4 =>
  rw [hx4] at d1 d2 d3 d4 d5 d6 hr
  dsimp only at d1 d2 d3 d4 d5 d6 hr
  have gd := gc.trans d1
  cases o4 with
  | err => rw [hr]; exact ⟨gd, by simp, by simp⟩
  | panic => exact absurd rfl (d4 h2)
  | ok frm =>
  dsimp only at hr
  cases hj : joinPrefix (ri.fLR.head?.bind (·.uniquePrefix)) (ri.fRL.head?.bind (·.uniquePrefix)) with
  | none => rw [hj] at hr; rw [hr]; exact ⟨gd, by simp, by simp⟩
  | some pre =>
  rw [hj] at hr
  dsimp only at hr
  obtain ⟨e1, e2, e3⟩ := storeBoth_good src s4 (gd.inv h) into frm ((ri.fLR ++ ri.fRL).flatMap (·.reqModules)) pre
  rw [← hr] at e1 e2 e3
  refine ⟨gd.trans e1, e3, ?_⟩
  intro _
  have htm : r.1.tm = s2.tm := e2.trans (d2.trans c2)
  refine ⟨?_, ?_, lr, rl.map fun p => (p.2, p.1), into, frm, s4, pre, ?_, ?_, fun hh => c5 (by rw [hh]), fun hh => d5 (by rw [hh]),
    fun f fr hh => c6 f fr (by rw [hh]), fun f fr hh => d6 f fr (by rw [hh]), gd.inv h, d3.trans (c3.trans (b3.trans a3)), hr⟩
  · intro x y w
    rw [htm, b4 rl rfl x y w, asked, over_append]
    have : ∀ (o : Option (RRule τ κ)), (match o with
        | some ⟨l, some rt, some c⟩ => [if false then (norm l, norm rt, c) else (norm rt, norm l, c)] | _ => []) =
        (match o with | some ⟨l, some r, some c⟩ => [(norm r, norm l, c)] | _ => []) := by
      intro o; split <;> rfl
    simp only [Bool.false_eq_true, if_false]
    refine over_congr ?_ _ x y w
    intro x y w
    rw [a4 lr rfl x y w]
    simp only [if_true]
  · intro e he n hn i hi
    rw [htm] at hi
    have g3e : Good s2 r.1 := (c1.trans d1).trans e1
    rw [asked, List.mem_append] at he
    rcases he with he | he
    · have g2e : Good s1 r.1 := b1.trans g3e
      match hlr : lr with
      | none =>
        rw [a6 rfl] at he; simp at he
      | some (p, q) =>
        obtain ⟨l, rt, c, k1, k2, k3, k4, k5, k6, k7⟩ := a5 p q rfl
        rw [k1] at he
        simp only [List.mem_singleton] at he
        subst he
        simp only [if_true] at k2 k3
        rcases List.mem_cons.1 hn with rfl | hn
        · have := b1.names _ _ k2
          rw [this] at hi; cases hi
          exact ⟨g2e.cacheTo _ k4, g2e.cacheFrom _ k6⟩
        · rw [List.mem_singleton] at hn; subst hn
          have := b1.names _ _ k3
          rw [this] at hi; cases hi
          exact ⟨g2e.cacheTo _ k5, g2e.cacheFrom _ k7⟩
    · match hrl : rl with
      | none => rw [b6 rfl] at he; simp at he
      | some (p, q) =>
        obtain ⟨l, rt, c, k1, k2, k3, k4, k5, k6, k7⟩ := b5 p q rfl
        rw [k1] at he
        simp only [List.mem_singleton] at he
        subst he
        simp only [Bool.false_eq_true, if_false] at k2 k3
        rcases List.mem_cons.1 hn with rfl | hn
        · rw [k3] at hi; cases hi
          exact ⟨g3e.cacheTo _ k4, g3e.cacheFrom _ k6⟩
        · rw [List.mem_singleton] at hn; subst hn
          rw [k2] at hi; cases hi
          exact ⟨g3e.cacheTo _ k5, g3e.cacheFrom _ k7⟩
  · rintro ⟨p, q⟩ hp
    subst hp
    obtain ⟨l, rt, c, k1, k2, k3, _⟩ := a5 p q rfl
    simp only [if_true] at k2 k3
    exact ⟨l, rt, c, k1, by rw [htm]; exact b1.names _ _ k2, by rw [htm]; exact b1.names _ _ k3⟩
  · rintro ⟨p, q⟩ hp
    rw [Option.map_eq_some_iff] at hp
    obtain ⟨⟨p', q'⟩, hrl, hpq⟩ := hp
    cases hpq
    subst hrl
    obtain ⟨l, rt, c, k1, k2, k3, _⟩ := b5 p' q' rfl
    simp only [Bool.false_eq_true, if_false] at k2 k3
    exact ⟨l, rt, c, k1, by rw [htm]; exact k2, by rw [htm]; exact k3⟩

/-! ## C51 -/

theorem backendData_false {ri : RuleInfo τ κ} (h : ri.backendData = false) :
    ri.generic = false ∧ ri.fLR.length ≤ 1 ∧ ri.fRL.length ≤ 1 ∧ ri.hasFCode = false ∧ ri.hasCTypes = false := by
  simp only [RuleInfo.backendData, Bool.or_eq_false_iff, decide_eq_false_iff_not] at h
  obtain ⟨⟨⟨⟨⟨⟨h1, h2⟩, h3⟩, _⟩, _⟩, h4⟩, h5⟩ := h
  exact ⟨h1, by omega, by omega, h2, h3⟩

/-- Registering any rule, successful or not, keeps the type map and the foreign type storage well formed, keeps all known
types and foreign types under their handles, and never panics. -/
theorem C51_safe (norm : τ → Text) (src : Option Nat) (s : MState τ κ) (h : Inv s) (ri : RuleInfo τ κ) :
    let r := (mayBeMerge norm src s ri).2
    Inv r.1 ∧ r.2 ≠ .panic ∧ (∀ n i, s.tm.names n = some i → r.1.tm.names n = some i) ∧
    (∀ n i, s.st.findByName n = some i → r.1.st.findByName n = some i) := by
  intro r
  have hr : r = (mayBeMerge norm src s ri).2 := rfl
  unfold mayBeMerge at hr
  split at hr
  · rw [hr]; exact ⟨h, by simp, fun _ _ h => h, fun _ _ h => h⟩
  · split at hr
    · rw [hr]; exact ⟨h, by simp, fun _ _ h => h, fun _ _ h => h⟩
    · rename_i hg hb
      simp only [Bool.not_eq_true] at hg hb
      obtain ⟨_, h1, h2, _⟩ := backendData_false hb
      have hr' : r = mergeConvRule norm src s ri := hr
      unfold mergeConvRule at hr'
      rw [hg, hb] at hr'
      simp only [Bool.or_self, Bool.false_eq_true, if_false] at hr'
      cases hs : ri.simpleNoBackend with
      | some q =>
        obtain ⟨t, f, mods, pre⟩ := q
        rw [hs] at hr'
        obtain ⟨k1, k2, _⟩ := mergeSimple_spec norm src s t f mods pre h
        rw [hr']; exact ⟨k1.inv h, k2, k1.names, k1.keeps⟩
      | none =>
        rw [hs] at hr'
        obtain ⟨k1, k2, _⟩ := mergeFull_spec norm src s h ri h1 h2
        rw [hr']; exact ⟨k1.inv h, k2, k1.names, k1.keeps⟩

/-- A rule that only pairs a Rust type with a foreign type: refused, without effect on the foreign types, if the foreign name
is known; otherwise the foreign type is created, bound to the Rust type in both directions without conversion code, and
cached search results for the Rust type are forgotten.  Rust conversions are unaffected. -/
theorem C51_simple_rule (norm : τ → Text) (src : Option Nat) (s : MState τ κ) (h : Inv s) (ri : RuleInfo τ κ) (t : τ) (f : Text)
    (mods : List Text) (pre : Option Text) (hb : ri.backendData = false) (hs : ri.simpleNoBackend = some (t, f, mods, pre)) :
    let r := mergeConvRule norm src s ri
    (∀ x y w, HasRule r.1.tm x y w ↔ HasRule s.tm x y w) ∧
    (∀ i, r.1.tm.names (norm t) = some i → r.1.cacheTo i = none ∧ r.1.cacheFrom i = none) ∧
    (s.st.findByName f ≠ none → r.2 = .err ∧ r.1.st = s.st) ∧
    (s.st.findByName f = none → ∃ i ft k, r.1.st.findByName f = some i ∧ r.1.st.ftypes[i]? = some ft ∧
      r.1.tm.names (norm t) = some k ∧ ft.into = some ⟨k, none⟩ ∧ ft.frm = some ⟨k, none⟩ ∧ ft.provided = mods) := by
  intro r
  have hr : r = mergeSimple norm src s t f mods pre := by
    show mergeConvRule norm src s ri = _
    unfold mergeConvRule
    rw [hs]
    simp [hb, (backendData_false hb).1]
  rw [hr]
  exact (mergeSimple_spec norm src s t f mods pre h).2.2

/-- A rule with conversions, if accepted: the Rust-side conversions it asks for are in force with exactly its code, all other
Rust-side conversions are as before, and no stale search result about its Rust types is kept. -/
theorem C51_rust_side (norm : τ → Text) (src : Option Nat) (s : MState τ κ) (h : Inv s) (ri : RuleInfo τ κ)
    (hb : ri.backendData = false) (hs : ri.simpleNoBackend = none) (hok : (mergeConvRule norm src s ri).2 = .ok ()) :
    let s' := (mergeConvRule norm src s ri).1
    (∀ x y w, HasRule s'.tm x y w ↔ Over (HasRule s.tm) (asked norm ri) x y w) ∧
    (∀ e ∈ asked norm ri, ∀ n ∈ [e.1, e.2.1], ∀ i, s'.tm.names n = some i → s'.cacheTo i = none ∧ s'.cacheFrom i = none) := by
  obtain ⟨hg, h1, h2, _⟩ := backendData_false hb
  have hr : mergeConvRule norm src s ri = mergeFull norm src s ri := by
    unfold mergeConvRule; rw [hs]; simp [hb, hg]
  rw [hr] at hok ⊢
  obtain ⟨_, _, k⟩ := mergeFull_spec norm src s h ri h1 h2
  exact ⟨(k hok).1, (k hok).2.1⟩

/-- A rule with foreign-side conversions, if accepted: the foreign type it names carries, for each direction it gives, exactly
the requested conversion between the right Rust types; a direction it does not give keeps the former conversion. -/
theorem C51_foreign_side (norm : τ → Text) (src : Option Nat) (s : MState τ κ) (h : Inv s) (ri : RuleInfo τ κ)
    (hb : ri.backendData = false) (hs : ri.simpleNoBackend = none) (hok : (mergeConvRule norm src s ri).2 = .ok ())
    (f : Text) (hf : (∃ fc ∈ ri.fLR, fc.pair = .onlyRight f) ∨ (∃ fc ∈ ri.fRL, fc.pair = .onlyRight f)) :
    let s' := (mergeConvRule norm src s ri).1
    ∃ (i : Nat) (ft : FType κ), s'.st.findByName f = some i ∧ s'.st.ftypes[i]? = some ft ∧
      (∀ fc, ri.fLR = [fc] → fc.pair = .onlyRight f ∧ ∃ l r c a b, ri.rLR = some ⟨l, some r, some c⟩ ∧ s'.tm.names (norm l) = some a ∧
        s'.tm.names (norm r) = some b ∧ ft.into = some (fruleOf a b fc)) ∧
      (ri.fLR = [] → ft.into = (s.st.ftypes[i]?).bind (·.into)) ∧
      (∀ fc, ri.fRL = [fc] → fc.pair = .onlyRight f ∧ ∃ l r c a b, ri.rRL = some ⟨l, some r, some c⟩ ∧ s'.tm.names (norm l) = some a ∧
        s'.tm.names (norm r) = some b ∧ ft.frm = some (fruleOf a b fc)) ∧
      (ri.fRL = [] → ft.frm = (s.st.ftypes[i]?).bind (·.frm)) ∧
      (∀ (j : Nat) o, j ≠ i → s.st.ftypes[j]? = some o → s'.st.ftypes[j]? = some o) := by
  obtain ⟨hg, h1, h2, _⟩ := backendData_false hb
  have hr : mergeConvRule norm src s ri = mergeFull norm src s ri := by
    unfold mergeConvRule; rw [hs]; simp [hb, hg]
  rw [hr] at hok ⊢
  obtain ⟨_, _, k⟩ := mergeFull_spec norm src s h ri h1 h2
  obtain ⟨_, _, lr, rl, a, b, s4, pre, kl, kr, ka0, kb0, ka, kb, ki, kst, keq⟩ := k hok
  generalize mergeFull norm src s ri = r at *
  have hst : ∀ (j : Nat), s4.st.ftypes[j]? = s.st.ftypes[j]? := by intro j; rw [kst]
  match a, b with
  | none, none =>
    rcases hf with ⟨fc, hfc, _⟩ | ⟨fc, hfc, _⟩
    · rw [ka0 rfl] at hfc; simp at hfc
    · rw [kb0 rfl] at hfc; simp at hfc
  | some (f1, r1), none =>
    obtain ⟨fc, l, rt, g1, g2, g3, g4⟩ := ka f1 r1 rfl
    have hff : f1 = f := by
      rcases hf with ⟨fc', hfc, hp⟩ | ⟨fc', hfc, _⟩
      · rw [g1] at hfc; simp at hfc; subst hfc; rw [g2] at hp; cases hp; rfl
      · rw [kb0 rfl] at hfc; simp at hfc
    subst hff
    obtain ⟨tl, tr, c, p1, p2, p3⟩ := kl _ g3
    have hsr : r = storeRules src s4 f1 (some r1) none ((ri.fLR ++ ri.fRL).flatMap (·.reqModules)) pre := keq
    obtain ⟨_, _, _, q⟩ := storeRules_spec src s4 ki f1 (some r1) none ((ri.fLR ++ ri.fRL).flatMap (·.reqModules)) pre
    rw [← hsr] at q
    obtain ⟨i, ft, q1, q2, q3, q4, q5, q6, q7⟩ := q hok
    refine ⟨i, ft, q1, q2, ?_, ?_, ?_, ?_, fun j o hj ho => q7 j o hj (by rw [hst]; exact ho)⟩
    · intro fc' hfc'; rw [g1] at hfc'; cases hfc'
      exact ⟨g2, tl, tr, c, l, rt, p1, p2, p3, by rw [q3, g4]; rfl⟩
    · intro he; rw [he] at g1; cases g1
    · intro fc' hfc'; rw [kb0 rfl] at hfc'; cases hfc'
    · intro _; rw [q4, hst]; rfl
  | none, some (f2, r2) =>
    obtain ⟨fc, l, rt, g1, g2, g3, g4⟩ := kb f2 r2 rfl
    have hff : f2 = f := by
      rcases hf with ⟨fc', hfc, _⟩ | ⟨fc', hfc, hp⟩
      · rw [ka0 rfl] at hfc; simp at hfc
      · rw [g1] at hfc; simp at hfc; subst hfc; rw [g2] at hp; cases hp; rfl
    subst hff
    obtain ⟨tl, tr, c, p1, p2, p3⟩ := kr _ g3
    have hsr : r = storeRules src s4 f2 none (some r2) ((ri.fLR ++ ri.fRL).flatMap (·.reqModules)) pre := keq
    obtain ⟨_, _, _, q⟩ := storeRules_spec src s4 ki f2 none (some r2) ((ri.fLR ++ ri.fRL).flatMap (·.reqModules)) pre
    rw [← hsr] at q
    obtain ⟨i, ft, q1, q2, q3, q4, q5, q6, q7⟩ := q hok
    refine ⟨i, ft, q1, q2, ?_, ?_, ?_, ?_, fun j o hj ho => q7 j o hj (by rw [hst]; exact ho)⟩
    · intro fc' hfc'; rw [ka0 rfl] at hfc'; cases hfc'
    · intro _; rw [q3, hst]; rfl
    · intro fc' hfc'; rw [g1] at hfc'; cases hfc'
      exact ⟨g2, tl, tr, c, l, rt, p1, p2, p3, by rw [q4, g4]; rfl⟩
    · intro he; rw [he] at g1; cases g1
  | some (f1, r1), some (f2, r2) =>
    obtain ⟨fc, l, rt, g1, g2, g3, g4⟩ := ka f1 r1 rfl
    obtain ⟨fc2, l2, rt2, g1', g2', g3', g4'⟩ := kb f2 r2 rfl
    have heq : f1 = f2 := by
      by_cases hne : f1 = f2
      · exact hne
      · exfalso
        have : r = (s4, .err) := by rw [keq]; simp [storeBoth, hne]
        rw [this] at hok; cases hok
    subst heq
    have hff : f1 = f := by
      rcases hf with ⟨fc', hfc, hp⟩ | ⟨fc', hfc, hp⟩
      · rw [g1] at hfc; simp at hfc; subst hfc; rw [g2] at hp; cases hp; rfl
      · rw [g1'] at hfc; simp at hfc; subst hfc; rw [g2'] at hp; cases hp; rfl
    subst hff
    obtain ⟨tl, tr, c, p1, p2, p3⟩ := kl _ g3
    obtain ⟨tl', tr', c', p1', p2', p3'⟩ := kr _ g3'
    have hsr : r = storeRules src s4 f1 (some r1) (some r2) ((ri.fLR ++ ri.fRL).flatMap (·.reqModules)) pre := by
      rw [keq]; simp [storeBoth]
    obtain ⟨_, _, _, q⟩ := storeRules_spec src s4 ki f1 (some r1) (some r2) ((ri.fLR ++ ri.fRL).flatMap (·.reqModules)) pre
    rw [← hsr] at q
    obtain ⟨i, ft, q1, q2, q3, q4, q5, q6, q7⟩ := q hok
    refine ⟨i, ft, q1, q2, ?_, ?_, ?_, ?_, fun j o hj ho => q7 j o hj (by rw [hst]; exact ho)⟩
    · intro fc' hfc'; rw [g1] at hfc'; cases hfc'
      exact ⟨g2, tl, tr, c, l, rt, p1, p2, p3, by rw [q3, g4]; rfl⟩
    · intro he; rw [he] at g1; cases g1
    · intro fc' hfc'; rw [g1'] at hfc'; cases hfc'
      exact ⟨g2', tl', tr', c', l2, rt2, p1', p2', p3', by rw [q4, g4']; rfl⟩
    · intro he; rw [he] at g1'; cases g1'

/-- Overwriting a foreign-side conversion that has code with another one from the same source file is always refused. -/
theorem C51_no_rewrite_in_same_file (norm : τ → Text) (src : Option Nat) (s : MState τ κ) (h : Inv s) (ri : RuleInfo τ κ)
    (hb : ri.backendData = false) (hs : ri.simpleNoBackend = none) (f : Text) (fc : FConv κ) (hf : ri.fLR = [fc])
    (hp : fc.pair = .onlyRight f) (i : Nat) (old : FType κ) (hi : s.st.findByName f = some i) (ho : s.st.ftypes[i]? = some old)
    (c c' : κ) (k : Nat) (hc : fc.code = some (c, some k)) (r0 : FRule κ) (n0 : Inter κ) (hr0 : old.into = some r0)
    (hn0 : r0.inter = some n0) (hsame : n0.codeSrc = some k) (_hcode : n0.code = c') :
    (mergeConvRule norm src s ri).2 = .err := by
  obtain ⟨hg, h1, h2, _⟩ := backendData_false hb
  have hr : mergeConvRule norm src s ri = mergeFull norm src s ri := by
    unfold mergeConvRule; rw [hs]; simp [hb, hg]
  obtain ⟨_, np, kk⟩ := mergeFull_spec norm src s h ri h1 h2
  rw [hr]
  cases hout : (mergeFull norm src s ri).2 with
  | err => rfl
  | panic => exact absurd hout np
  | ok u =>
    exfalso
    obtain ⟨_, _, lr, rl, a, b, s4, pre, kl, kr, ka0, kb0, ka, kb, ki, kst, keq⟩ := kk hout
    generalize mergeFull norm src s ri = r at *
    match a with
    | none => rw [ka0 rfl] at hf; cases hf
    | some (f1, r1) =>
      obtain ⟨fc', l, rt, g1, g2, g3, g4⟩ := ka f1 r1 rfl
      rw [hf] at g1; cases g1
      rw [hp] at g2; cases g2
      have hbad : rewriteAllowed old.into r1 = false := by
        rw [g4, hr0]
        simp [rewriteAllowed, fruleOf, hc, hn0, hsame]
      have fin : ∀ frm mods, (storeRules src s4 f (some r1) frm mods pre).2 ≠ .ok () := by
        intro frm mods hk
        obtain ⟨_, _, _, q⟩ := storeRules_spec src s4 ki f (some r1) frm mods pre
        obtain ⟨j, ft, q1, q2, q3, q4, q5, q6, q7⟩ := q hk
        have hij : j = i := by
          have := (storeRules_spec src s4 ki f (some r1) frm mods pre).1.keeps f i (by rw [kst]; exact hi)
          rw [this] at q1; cases q1; rfl
        subst hij
        have := (q6 old (by rw [kst]; exact ho)).1 r1 rfl
        rw [hbad] at this; cases this
      match b with
      | none => exact fin none _ (by rw [keq] at hout; exact hout)
      | some (f2, r2) =>
        rw [keq] at hout
        simp only [storeBoth] at hout
        split at hout
        · exact fin _ _ hout
        · cases hout

/-! ## Concrete cases -/

/-- Empty state. -/
def s0 : MState Text Nat := ⟨TMap.empty, Storage.empty, fun _ => none, fun _ => none⟩

theorem s0_inv : Inv s0 := ⟨ok_empty, consistent_empty⟩

/-- `foreign_typemap!( ($p:r_type) A => I { 1 } ($p:f_type) => "F" "2" ; ($p:r_type) A <= I {3}; ($p:f_type) <= "F" )`. -/
def exRule : RuleInfo Text Nat :=
  { generic := false
    rLR := some ⟨['A'], some ['I'], some 1⟩
    rRL := some ⟨['A'], some ['I'], some 3⟩
    fLR := [⟨[], false, .onlyRight ['F'], false, none, some (2, some 9)⟩]
    fRL := [⟨[], false, .onlyRight ['F'], false, none, none⟩]
    hasCTypes := false
    hasFCode := false }

/-- Registering the example rule. -/
def s1 : MState Text Nat := (mergeConvRule id (some 9) s0 exRule).1

example : exRule.backendData = false ∧ exRule.simpleNoBackend = none ∧ (mergeConvRule id (some 9) s0 exRule).2 = .ok () ∧
    s1.st.ftypes.map (fun f => (f.name.value, f.into, f.frm)) =
      [(['F'], some ⟨0, some ⟨false, 1, 2, some 9⟩⟩, some ⟨1, none⟩)] ∧
    s1.tm.g.edges.map (fun e => (e.src, e.dst, e.w)) = [(0, 1, 1), (1, 0, 3)] := ⟨rfl, rfl, by decide, by decide, by decide⟩

-- the same rule again from the same file is refused
example : (mergeConvRule id (some 9) s1 exRule).2 = .err := by decide

/-- A rule whose two directions disagree about the hidden prefix of the foreign type is refused. -/
theorem C51_prefix_mismatch (norm : τ → Text) (src : Option Nat) (s : MState τ κ) (h : Inv s) (ri : RuleInfo τ κ)
    (hb : ri.backendData = false) (a b : FConv κ) (p q : Text) (ha : ri.fLR = [a]) (hbr : ri.fRL = [b])
    (hp : a.uniquePrefix = some p) (hq : b.uniquePrefix = some q) (hpq : p ≠ q) :
    (mergeConvRule norm src s ri).2 = .err := by
  have hs : ri.simpleNoBackend = none := by
    unfold RuleInfo.simpleNoBackend RuleInfo.simple
    simp [hbr]
  obtain ⟨hg, h1, h2, _⟩ := backendData_false hb
  have hr : mergeConvRule norm src s ri = mergeFull norm src s ri := by
    unfold mergeConvRule; rw [hs]; simp [hb, hg]
  obtain ⟨_, np, _⟩ := mergeFull_spec norm src s h ri h1 h2
  rw [hr]
  have hj : joinPrefix (ri.fLR.head?.bind (·.uniquePrefix)) (ri.fRL.head?.bind (·.uniquePrefix)) = none := by
    rw [ha, hbr]
    simp [joinPrefix, hp, hq, Ne.symm hpq]
  unfold mergeFull at np ⊢
  rw [hj] at np ⊢
  simp only at np ⊢
  rcases e1 : mergeRRule norm true s ri.rLR with ⟨s1, _ | _ | _⟩ <;> rw [e1] at np <;> simp only [e1] at np ⊢
  · rcases e2 : mergeRRule norm false s1 ri.rRL with ⟨s2, _ | _ | _⟩ <;> rw [e2] at np <;> simp only at np ⊢
    · rename_i lr rl
      rcases e3 : optFRule lr ri.fLR s2 with ⟨s3, _ | _ | _⟩ <;> rw [e3] at np <;> simp only at np ⊢
      · rcases e4 : optFRule (rl.map fun p => (p.2, p.1)) ri.fRL s3 with ⟨s4, _ | _ | _⟩ <;> rw [e4] at np <;> simp only at np ⊢
        all_goals first | exact absurd rfl np | (rw [e4])
      · exact absurd rfl np
    · exact absurd rfl np
  · exact absurd rfl np

/-- Finding: registration is not atomic.  If only the second direction is a forbidden overwrite, the error is reported
after the first direction was replaced already. -/
theorem C51_error_not_atomic : ∃ (s : MState Text Nat) (ri : RuleInfo Text Nat), Inv s ∧
    (mergeConvRule id (some 9) s ri).2 = .err ∧
    (mergeConvRule id (some 9) s ri).1.st.ftypes.map (·.into) ≠ s.st.ftypes.map (·.into) := by
  refine ⟨(mergeConvRule id (some 9) s0 { exRule with fLR := [], fRL := [⟨[], false, .onlyRight ['F'], false, none, some (2, some 9)⟩] }).1,
    { exRule with fRL := [⟨[], false, .onlyRight ['F'], false, none, some (5, some 9)⟩] }, ?_, by decide, by decide⟩
  have := C51_safe id (some 9) s0 s0_inv { exRule with fLR := [], fRL := [⟨[], false, .onlyRight ['F'], false, none, some (2, some 9)⟩] }
  exact this.1

end Flapi.FTypes
