import Verif.TypeMap.ReadFile
import Verif.TypeMap.MergeRuleProps
/-! # Reading a file of conversion rules (C58) -/
namespace Flapi.ReadFile
open Flapi Flapi.Template Flapi.FTypes TMap
variable {τ γ ι ρ : Type}

/-! ## Specification -/

/-- The entries of all `cfg` attributes. -/
def cfgEntries (attrs : List Attr) : List CfgMeta := attrs.flatMap fun a => match a with | .cfg ms => ms | _ => []

/-- The pointer width an entry states. -/
def widthOf : CfgMeta → Option Nat
  | .width n => n
  | _ => none

/-- The pointer widths read, before the first entry that cannot be read. -/
def widths (attrs : List Attr) : List Nat :=
  ((cfgEntries attrs).takeWhile (· ≠ .bad)).filterMap widthOf

/-- An item is left out if the last pointer width read is another one. -/
def dropped (w : Nat) (attrs : List Attr) : Bool :=
  match (widths attrs).getLast? with
  | some n => n != w
  | none => false

/-- The values given to a known attribute. -/
def given (attrs : List Attr) (k : Key) : List Text := attrs.filterMap fun a => match a with | .swig j (some v) => if j = k then some v else none | _ => none

/-- Has known attributes. -/
def hasSwig (attrs : List Attr) : Bool := attrs.any fun a => match a with | .swig _ _ => true | _ => false

/-- All known attributes have a string value. -/
def Strings (attrs : List Attr) : Prop := ∀ k, .swig k none ∉ attrs

/-- Templates mention the result, its type and the source. -/
def Complete (c : Text) : Prop := toVar <:+: c ∧ fromVar <:+: c ∧ toVarType <:+: c

/-- The template an item gives to a trait. -/
def traitDef (w : Nat) : Item τ γ ι ρ → Option (Text × Text)
  | .trait attrs name _ => if dropped w attrs then none else (given attrs .code).head?.map fun c => (name, c)
  | _ => none

/-- The template of a trait after the items `pre`: the latest one given, else the one known before. -/
def templates (w : Nat) (t0 : Text → Option Text) (pre : List (Item τ γ ι ρ)) (t : Text) : Option Text :=
  match (pre.filterMap (traitDef w)).reverse.find? (fun p => p.1 = t) with
  | some p => some p.2
  | none => t0 t

/-- What an item contributes to the code that is copied into the output. -/
def utilsOf (env : Env τ γ ι) (w : Nat) : Item τ γ ι ρ → List ι
  | .trait a _ i => if dropped w a then [] else [env.strip i]
  | .macro a i => if dropped w a || hasSwig a then [] else [i]
  | .other i => [i]
  | _ => []

/-- The trait an implementation belongs to. -/
def traitOf (i : Impl τ γ ι) : Text := if i.into then "SwigInto".toList else "SwigFrom".toList

/-- `impl SwigInto<B> for A` and `impl SwigFrom<A> for B` both convert `A` to `B`. -/
def ends (i : Impl τ γ ι) (arg : τ) : τ × τ := if i.into then (i.self, arg) else (arg, i.self)

/-- The conversion code made of a template. -/
def codeOf (c : Text) : TypeConvCode := ⟨c, [toVar, fromVar]⟩

/-- The generic conversions an item contributes, `T` being the templates in force. -/
def genericOf (env : Env τ γ ι) (w : Nat) (T : Text → Option Text) : Item τ γ ι ρ → List (GEdge τ γ ι)
  | .impl i =>
    if dropped w i.attrs || i.typeParams.isEmpty then []
    else
      match i.arg, T (traitOf i) with
      | some arg, some c =>
        [⟨(ends i arg).1, (ends i arg).2, codeOf c, some (env.strip i.item), i.generics, (given i.attrs .toHint).head?, (given i.attrs .fromHint).head?⟩]
      | _, _ => []
  | .macro a i =>
    if dropped w a || !hasSwig a then []
    else
      match ((given a .frm).head?).bind env.parseTy, ((given a .dst).head?).bind env.parseTy, (given a .code).head?,
        ((given a .genericArg).mapM env.parseTy).bind env.mkGenerics with
      | some f, some t, some c, some (g, _) => [⟨f, t, codeOf c, some (env.strip i), g, (given a .toHint).head?, (given a .fromHint).head?⟩]
      | _, _, _, _ => []
  | .typemap _ (some (ri, some e, _)) => if ri.generic then [e] else []
  | _ => []

/-- The conversions between concrete types an item contributes. -/
def concreteOf (env : Env τ γ ι) (w : Nat) (T : Text → Option Text) : Item τ γ ι ρ → List (Text × Text × EdgeW ι)
  | .impl i =>
    if dropped w i.attrs || !i.typeParams.isEmpty then []
    else
      match i.arg, T (traitOf i) with
      | some arg, some c =>
        [(makeUniqueIfNeed (env.norm (ends i arg).1) (given i.attrs .fromHint).head?, makeUniqueIfNeed (env.norm (ends i arg).2) (given i.attrs .toHint).head?,
          codeOf c, some (env.strip i.item))]
      | _, _ => []
  | .typemap _ (some (ri, _, _)) => if ri.backendData then [] else asked env.norm ri
  | _ => []

/-- Rules kept for later. -/
def genericRuleOf : Item τ γ ι ρ → List ρ
  | .typemap _ (some (ri, none, r)) => if ri.generic then [r] else []
  | _ => []
def notMergedOf : Item τ γ ι ρ → List ρ
  | .typemap _ (some (ri, _, r)) => if !ri.generic && ri.backendData then [r] else []
  | _ => []

/-- Every element with the elements before it. -/
def withPrefix {α : Type} (pre : List α) : List α → List (List α × α)
  | [] => []
  | a :: l => (pre, a) :: withPrefix (pre ++ [a]) l

/-- Everything a table says about the items it was read from. -/
structure Says (env : Env τ γ ι) (w : Nat) (t0 : Text → Option Text) (items : List (Item τ γ ι ρ)) (s : St τ γ ι ρ) : Prop where
  inv : Inv s.m
  traits : ∀ t, s.traits t = templates w t0 items t
  complete : ∀ t c, s.traits t = some c → Complete c
  utils : s.utils = items.flatMap (utilsOf env w)
  generic : s.genericEdges = (withPrefix [] items).flatMap fun p => genericOf env w (templates w t0 p.1) p.2
  concrete : ∀ x y c, HasRule s.m.tm x y c ↔
    Over (fun _ _ _ => False) ((withPrefix [] items).flatMap fun p => concreteOf env w (templates w t0 p.1) p.2) x y c
  genericRules : s.genericRules = items.flatMap genericRuleOf
  notMerged : s.notMerged = items.flatMap notMergedOf

/-- A hint: given at most once, and then nothing else is given. -/
def HintOk (attrs : List Attr) (k : Key) : Prop := given attrs k = [] ∨ (∃ v, given attrs k = [v]) ∧ ∀ j, j ≠ k → given attrs j = []

/-- A hint of a generic conversion: given at most once, and then it mentions the only type parameter. -/
def GenericHintOk (typeParams : List Text) (attrs : List Attr) (k : Key) : Prop :=
  given attrs k = [] ∨ ∃ v p, given attrs k = [v] ∧ typeParams = [p] ∧ p <:+: v

/-- When an item that is not left out is accepted, `T` being the templates in force. -/
def ItemOk (env : Env τ γ ι) (T : Text → Option Text) : Item τ γ ι ρ → Prop
  | .impl i =>
    Strings i.attrs ∧ i.arg.isSome ∧ (T (traitOf i)).isSome ∧ HintOk i.attrs .toHint ∧ HintOk i.attrs .fromHint ∧
      (i.typeParams ≠ [] → GenericHintOk i.typeParams i.attrs .toHint ∧ GenericHintOk i.typeParams i.attrs .fromHint)
  | .trait attrs _ _ => Strings attrs ∧ (hasSwig attrs = true → ∃ c, given attrs .code = [c] ∧ Complete c)
  | .macro attrs _ => Strings attrs ∧ (hasSwig attrs = true →
      ∃ f fs t ts c tys g ps, given attrs .frm = f :: fs ∧ given attrs .dst = t :: ts ∧ given attrs .code = [c] ∧ Complete c ∧
        given attrs .genericArg ≠ [] ∧ (given attrs .genericArg).mapM env.parseTy = some tys ∧ env.mkGenerics tys = some (g, ps) ∧
        (env.parseTy f).isSome ∧ (env.parseTy t).isSome ∧ GenericHintOk ps attrs .toHint ∧ GenericHintOk ps attrs .fromHint)
  | _ => True

/-- The attributes of an item. -/
def Item.attrs : Item τ γ ι ρ → List Attr
  | .impl i => i.attrs
  | .trait a _ _ => a
  | .typemap a _ => a
  | .macro a _ => a
  | _ => []

/-- Items other than rules and the module of foreign types. -/
def Item.ordinary : Item τ γ ι ρ → Prop
  | .typesMod _ => False
  | .typemap _ _ => False
  | _ => True

/-- What the module of foreign types declares; a foreign name without a Rust type is skipped. -/
def decls (env : Env τ γ ι) : List ModAttr → Option (List (Text × RTy τ))
  | [] => some []
  | .foreign (some f) :: .rust v :: l =>
    match v.bind env.parseTy, decls env l with
    | some t, some d => some ((f, ⟨env.norm t, t⟩) :: d)
    | _, _ => none
  | .foreign (some f) :: .rustNotUnique v :: l =>
    match v.bind env.parseTy, decls env l with
    | some t, some d => some ((f, ⟨makeUnique (env.norm t) f, t⟩) :: d)
    | _, _ => none
  | .foreign (some _) :: l => decls env l
  | _ => none

/-- The declaration in force for a name: the last one. -/
def lastDecl (d : List (Text × RTy τ)) (f : Text) : Option (RTy τ) := (d.reverse.find? (fun p => p.1 = f)).map (·.2)

/-- The foreign name is bound, in both directions and without intermediate code, to the Rust type. -/
def Bound (s : MState τ (EdgeW ι)) (f : Text) (r : RTy τ) : Prop :=
  ∃ (i : Nat) (ft : FType (EdgeW ι)) (k : Nat), s.st.findByName f = some i ∧ s.st.ftypes[i]? = some ft ∧ s.tm.names r.name = some k ∧
    ft.into = some ⟨k, none⟩ ∧ ft.frm = some ⟨k, none⟩

/-! ## Lemmas -/

theorem readMetas_spec (w : Nat) : ∀ (ms : List CfgMeta) (res : Bool),
    readMetas w res ms = (match ((ms.takeWhile (· ≠ .bad)).filterMap widthOf).getLast? with
      | some n => n != w | none => res, decide (.bad ∈ ms))
  | [], res => rfl
  | .bad :: l, res => by simp [readMetas]
  | .plain :: l, res => by simp [widthOf, readMetas, readMetas_spec w l res]
  | .width none :: l, res => by simp [widthOf, readMetas, readMetas_spec w l res]
  | .width (some n) :: l, res => by
    simp only [readMetas, readMetas_spec w l]
    simp only [ne_eq, decide_not, reduceCtorEq, decide_false, Bool.not_false, List.takeWhile_cons_of_pos, List.filterMap_cons_some, List.mem_cons,
      false_or]
    rw [List.filterMap_cons_some (f := widthOf) (a := .width (some n)) (b := n) rfl]
    generalize List.filterMap _ (List.takeWhile _ l) = L
    rw [List.getLast?_cons]
    cases L.getLast? with
    | none => simp [bne_comm]
    | some m => simp

theorem takeWhile_append_all {α : Type} {p : α → Bool} {a b : List α} (h : ∀ x ∈ a, p x = true) : (a ++ b).takeWhile p = a ++ b.takeWhile p := by
  induction a with
  | nil => rfl
  | cons x a ih => simp [h x (by simp), ih (fun y hy => h y (by simp [hy]))]

theorem takeWhile_append_stop {α : Type} {p : α → Bool} {a b : List α} (h : ∃ x ∈ a, p x = false) : (a ++ b).takeWhile p = a.takeWhile p := by
  induction a with
  | nil => simp at h
  | cons x a ih =>
    cases hp : p x with
    | false => simp [hp]
    | true =>
      obtain ⟨y, hy, h⟩ := h
      rcases List.mem_cons.1 hy with rfl | hy
      · rw [hp] at h; cases h
      · simp [hp, ih ⟨y, hy, h⟩]

theorem wrongWidth_spec (w : Nat) : ∀ (attrs : List Attr) (res : Bool),
    wrongWidth w res attrs = match (widths attrs).getLast? with | some n => n != w | none => res
  | [], res => rfl
  | .swig k v :: l, res => by rw [wrongWidth.eq_def]; exact wrongWidth_spec w l res
  | .other :: l, res => by rw [wrongWidth.eq_def]; exact wrongWidth_spec w l res
  | .cfg ms :: l, res => by
    have hc : cfgEntries (.cfg ms :: l) = ms ++ cfgEntries l := rfl
    unfold widths
    rw [hc]
    simp only [wrongWidth, readMetas_spec]
    by_cases hb : CfgMeta.bad ∈ ms
    · rw [takeWhile_append_stop ⟨_, hb, by simp⟩]
      simp [hb]
    · rw [takeWhile_append_all (by intro x hx; simp; rintro rfl; exact hb hx)]
      have hall : ms.takeWhile (· ≠ CfgMeta.bad) = ms := by
        have := takeWhile_append_all (p := fun x => decide (x ≠ CfgMeta.bad)) (a := ms) (b := []) (by intro x hx; simp; rintro rfl; exact hb hx)
        simpa using this
      simp only [hb, decide_false, Bool.false_eq_true, if_false, wrongWidth_spec w l, hall, List.filterMap_append, List.getLast?_append]
      unfold widths
      cases (List.filterMap _ (List.takeWhile _ (cfgEntries l))).getLast? with
      | none => simp
      | some m => simp

theorem wrongWidth_eq (w : Nat) (attrs : List Attr) : wrongWidth w false attrs = dropped w attrs := by rw [wrongWidth_spec]; rfl

theorem swigAttrs_none (attrs : List Attr) : swigAttrs attrs = none ↔ ¬ Strings attrs := by
  induction attrs with
  | nil => simp [swigAttrs, Strings]
  | cons a l ih =>
    have keep : ∀ a : Attr, (∀ k, a ≠ .swig k none) → (Strings (a :: l) ↔ Strings l) := by
      intro a ha
      simp only [Strings, List.mem_cons, not_or]
      exact ⟨fun h k => (h k).2, fun h k => ⟨fun e => ha k e.symm, h k⟩⟩
    cases a with
    | cfg ms => rw [keep _ (by simp)]; exact ih
    | other => rw [keep _ (by simp)]; exact ih
    | swig k v =>
      cases v with
      | none => exact ⟨fun _ h => h k (by simp), fun _ => rfl⟩
      | some v => rw [keep _ (by simp), ← ih]; simp [swigAttrs]

theorem swigAttrs_some {attrs : List Attr} {m : List (Key × Text)} (h : swigAttrs attrs = some m) :
    Strings attrs ∧ (∀ k, vals m k = given attrs k) ∧ (m = [] ↔ hasSwig attrs = false) := by
  refine ⟨?_, ?_⟩
  · apply Classical.not_not.1
    rw [← swigAttrs_none, h]; simp
  · induction attrs generalizing m with
    | nil => simp only [swigAttrs, Option.some.injEq] at h; subst h; simp [vals, given, hasSwig]
    | cons a l ih =>
      cases a with
      | cfg ms => exact ih h
      | other => exact ih h
      | swig k v =>
        cases v with
        | none => simp [swigAttrs] at h
        | some v =>
          simp only [swigAttrs, Option.map_eq_some_iff] at h
          obtain ⟨m', h', rfl⟩ := h
          obtain ⟨h1, h2⟩ := ih h'
          refine ⟨?_, by simp [hasSwig]⟩
          intro j
          have := h1 j
          unfold vals given at this ⊢
          rw [List.filterMap_cons, List.filterMap_cons, this]

theorem validTemplate_iff (c : Text) : validTemplate c = true ↔ Complete c := by
  simp [validTemplate, Complete, strContains_iff, and_assoc]

theorem swigCode_iff {m : List (Key × Text)} {c : Text} : swigCode m = some c ↔ vals m .code = [c] ∧ Complete c := by
  unfold swigCode
  split
  · rename_i c' h
    rw [h]
    split
    · rename_i hv
      rw [validTemplate_iff] at hv
      simp only [Option.some.injEq, List.cons.injEq, and_true]
      exact ⟨fun e => ⟨e, e ▸ hv⟩, fun e => e.1⟩
    · rename_i hv
      rw [validTemplate_iff] at hv
      simp only [reduceCtorEq, List.cons.injEq, and_true, false_iff, not_and]
      rintro rfl; exact hv
  · rename_i h
    simp only [reduceCtorEq, false_iff, not_and]
    intro e; exact (h c e).elim

theorem newCode_complete {c : Text} (h : Complete c) : newCode c = .ok (codeOf c) := by
  have h1 := (strContains_iff c toVar).2 h.1
  have h2 := (strContains_iff c fromVar).2 h.2.1
  unfold newCode TypeConvCode.new foundParams
  simp [h1, h2, codeOf]


theorem withPrefix_append {α : Type} (l : List α) (a : α) : ∀ pre, withPrefix pre (l ++ [a]) = withPrefix pre l ++ [(pre ++ l, a)] := by
  induction l with
  | nil => intro pre; simp [withPrefix]
  | cons b l ih => intro pre; simp [withPrefix, ih]

theorem templates_append (w : Nat) (t0 : Text → Option Text) (pre : List (Item τ γ ι ρ)) (it : Item τ γ ι ρ) (t : Text) :
    templates w t0 (pre ++ [it]) t = match traitDef w it with | some (n, c) => if t = n then some c else templates w t0 pre t | none => templates w t0 pre t := by
  unfold templates
  rw [List.filterMap_append]
  cases h : traitDef w it with
  | none => simp [h]
  | some p =>
    obtain ⟨n, c⟩ := p
    simp only [h, List.filterMap_cons, List.filterMap_nil, List.reverse_append, List.reverse_cons, List.reverse_nil, List.nil_append, List.cons_append,
      List.find?_cons]
    by_cases hn : n = t
    · subst hn; simp
    · have : ¬ t = n := fun e => hn e.symm
      simp [hn, this]

theorem hint_eq {tp : List Text} {m : List (Key × Text)} {k : Key} {o : Option Text} (h : genericHint tp m k = .ok o) : o = (vals m k).head? := by
  unfold genericHint at h
  split at h
  · rename_i e; cases h; rw [e]; rfl
  · rename_i e
    split at h
    · split at h <;> cases h
      rw [e]; rfl
    · cases h
  · cases h

theorem suffix_eq {m : List (Key × Text)} {k : Key} {o : Option Text} (h : suffix m k = .ok o) : o = (vals m k).head? := by
  unfold suffix at h
  split at h
  · rename_i e; cases h; rw [e]; rfl
  · rename_i e
    split at h <;> cases h
    rw [e]; rfl
  · cases h

theorem bind_ok {α β : Type} {r : Res α} {f : α → Res β} {b : β} : r.bind f = .ok b ↔ ∃ a, r = .ok a ∧ f a = .ok b := by
  cases r <;> simp [Res.bind]

theorem parseTys_mapM (env : Env τ γ ι) : ∀ l : List Text, parseTys env l = l.mapM env.parseTy
  | [] => rfl
  | t :: l => by
    rw [List.mapM_cons, parseTys, parseTys_mapM env l]
    cases env.parseTy t with
    | none => rfl
    | some a => cases l.mapM env.parseTy <;> rfl

theorem fillTypes_spec (src : Option Nat) : ∀ (l : List (Text × RTy τ)) (s r : MState τ (EdgeW ι)), Inv s → fillTypes src s l = .ok r →
    Inv r ∧ (∀ x y c, HasRule r.tm x y c ↔ HasRule s.tm x y c) ∧ (∀ n i, s.tm.names n = some i → r.tm.names n = some i)
  | [], s, r, h, e => by cases e; exact ⟨h, fun _ _ _ => Iff.rfl, fun _ _ h => h⟩
  | (f, q) :: l, s, r, h, e => by
    unfold fillTypes at e
    cases ha : s.st.allocNew ⟨f, 0⟩ src (addNode s.tm q).2 with
    | mk st o =>
      cases o with
      | none => simp only [ha] at e; cases e
      | some i =>
        simp only [ha] at e
        have hinv : Inv ({ s with tm := (addNode s.tm q).1, st := st } : MState τ (EdgeW ι)) := by
          refine ⟨addNode_ok h.1 q, ?_⟩
          have := addNew_consistent h.2 (⟨⟨f, 0⟩, src, [], some ⟨(addNode s.tm q).2, none⟩, some ⟨(addNode s.tm q).2, none⟩⟩ : FType (EdgeW ι))
          have e' : (s.st.addNew ⟨⟨f, 0⟩, src, [], some ⟨(addNode s.tm q).2, none⟩, some ⟨(addNode s.tm q).2, none⟩⟩) = (st, some i) := ha
          rw [e'] at this
          exact this
        obtain ⟨h1, h2, h3⟩ := fillTypes_spec src l _ r hinv e
        exact ⟨h1, fun x y c => (h2 x y c).trans (hasRule_addNode h.1 q x y c), fun n i hn => h3 n i (addNode_mono q hn)⟩


theorem vals_code_head {m : List (Key × Text)} {c : Text} (h : swigCode m = some c) : (vals m .code).head? = some c := by
  rw [(swigCode_iff.1 h).1]; rfl

/-- A step that changes none of these keeps them. -/
theorem Says.step {env : Env τ γ ι} {w : Nat} {t0 : Text → Option Text} {pre : List (Item τ γ ι ρ)} {s s' : St τ γ ι ρ} {it : Item τ γ ι ρ}
    (h : Says env w t0 pre s) (hinv : Inv s'.m)
    (htr : ∀ t, s'.traits t = match traitDef w it with | some (n, c) => if t = n then some c else s.traits t | none => s.traits t)
    (hcomp : ∀ n c, traitDef w it = some (n, c) → Complete c)
    (hu : s'.utils = s.utils ++ utilsOf env w it)
    (hg : s'.genericEdges = s.genericEdges ++ genericOf env w (templates w t0 pre) it)
    (hc : ∀ x y c, HasRule s'.m.tm x y c ↔ Over (HasRule s.m.tm) (concreteOf env w (templates w t0 pre) it) x y c)
    (hgr : s'.genericRules = s.genericRules ++ genericRuleOf it)
    (hn : s'.notMerged = s.notMerged ++ notMergedOf it) : Says env w t0 (pre ++ [it]) s' := by
  refine ⟨hinv, ?_, ?_, ?_, ?_, ?_, ?_, ?_⟩
  · intro t
    rw [templates_append, htr]
    cases traitDef w it with
    | none => exact h.traits t
    | some p => simp only [h.traits t]
  · intro t c e
    rw [htr] at e
    cases ht : traitDef w it with
    | none => rw [ht] at e; exact h.complete t c e
    | some p =>
      rw [ht] at e
      simp only at e
      split at e
      · cases e; exact hcomp _ _ ht
      · exact h.complete t c e
  · rw [hu, h.utils]; simp
  · rw [hg, h.generic, withPrefix_append]; simp
  · intro x y c
    rw [hc, withPrefix_append, List.flatMap_append, over_append]
    simp only [List.flatMap_cons, List.flatMap_nil, List.append_nil, List.nil_append]
    exact over_congr h.concrete _ x y c
  · rw [hgr, h.genericRules]; simp
  · rw [hn, h.notMerged]; simp

theorem addItem_says {env : Env τ γ ι} {ord : List (Text × RTy τ) → List (Text × RTy τ)} {w : Nat} {src : Option Nat} {t0 : Text → Option Text}
    {pre : List (Item τ γ ι ρ)} {s s' : St τ γ ι ρ} {it : Item τ γ ι ρ} (h : Says env w t0 pre s) (e : addItem env ord w src s it = .ok s') :
    Says env w t0 (pre ++ [it]) s' := by
  cases it with
  | other i =>
    cases e
    exact h.step h.inv (fun _ => rfl) (by simp [traitDef]) rfl (by simp [genericOf]) (fun _ _ _ => Iff.rfl) (by simp [genericRuleOf]) (by simp [notMergedOf])
  | typesMod attrs =>
    simp only [addItem, handleMod] at e
    split at e
    · cases e
    · split at e
      · cases e
      · rw [bind_ok] at e
        obtain ⟨m, e1, e2⟩ := e
        cases e2
        obtain ⟨k1, k2, _⟩ := fillTypes_spec src _ _ _ h.inv e1
        exact h.step k1 (fun _ => rfl) (by simp [traitDef]) (by simp [utilsOf]) (by simp [genericOf]) k2 (by simp [genericRuleOf]) (by simp [notMergedOf])
  | trait attrs name item =>
    simp only [addItem, wrongWidth_eq] at e
    split at e
    · rename_i hd
      cases e
      exact h.step h.inv (by simp [traitDef, hd]) (by simp [traitDef, hd]) (by simp [utilsOf, hd]) (by simp [genericOf]) (fun _ _ _ => Iff.rfl)
        (by simp [genericRuleOf]) (by simp [notMergedOf])
    · rename_i hd
      split at e
      · cases e
      · rename_i hm
        cases e
        have hv := (swigAttrs_some hm).2.1 .code
        have hg : given attrs .code = [] := hv.symm
        exact h.step h.inv (by simp [traitDef, hd, hg]) (by simp [traitDef, hd, hg]) (by simp [utilsOf, hd]) (by simp [genericOf]) (fun _ _ _ => Iff.rfl)
          (by simp [genericRuleOf]) (by simp [notMergedOf])
      · rename_i m hne hm
        split at e
        · cases e
        · rename_i c hc
          cases e
          have hv := (swigAttrs_some hm).2.1 .code
          have hg : (given attrs .code).head? = some c := by rw [← hv]; exact vals_code_head hc
          have hcomp := (swigCode_iff.1 hc).2
          exact h.step h.inv (by simp [traitDef, hd, hg]) (by simp only [traitDef, hd, hg]; simp; exact hcomp) (by simp [utilsOf, hd])
            (by simp [genericOf]) (fun _ _ _ => Iff.rfl) (by simp [genericRuleOf]) (by simp [notMergedOf])
  | «macro» attrs item =>
    simp only [addItem, wrongWidth_eq] at e
    split at e
    · rename_i hd
      cases e
      exact h.step h.inv (fun _ => rfl) (by simp [traitDef]) (by simp [utilsOf, hd]) (by simp [genericOf, hd]) (fun _ _ _ => Iff.rfl)
        (by simp [genericRuleOf]) (by simp [notMergedOf])
    · rename_i hd
      split at e
      · cases e
      · rename_i hm
        cases e
        have hs := (swigAttrs_some hm).2.2.1 rfl
        exact h.step h.inv (fun _ => rfl) (by simp [traitDef]) (by simp [utilsOf, hd, hs]) (by simp [genericOf, hs]) (fun _ _ _ => Iff.rfl)
          (by simp [genericRuleOf]) (by simp [notMergedOf])
      · rename_i m hne hm
        obtain ⟨_, hv, hs⟩ := swigAttrs_some hm
        have hs' : hasSwig attrs = true := by
          cases hx : hasSwig attrs with
          | true => rfl
          | false => exact (hne (hs.2 hx)).elim
        unfold handleMacro at e
        split at e
        · rename_i f fs t ts c hf ht hc
          split at e
          · cases e
          · rename_i gs hgne
            split at e
            · cases e
            · rename_i tys htys
              split at e
              · cases e
              · rename_i g ps hmk
                split at e
                · rename_i fty tty hfty htty
                  simp only [bind_ok] at e
                  obtain ⟨hto, e1, hfrom, e2, code, e3, e4⟩ := e
                  cases e4
                  have hcomp := (swigCode_iff.1 hc).2
                  rw [newCode_complete hcomp] at e3
                  cases e3
                  rw [hv] at hf ht
                  have a1 : (given attrs .frm).head? = some f := by rw [hf]; rfl
                  have a2 : (given attrs .dst).head? = some t := by rw [ht]; rfl
                  have a3 : (given attrs .code).head? = some c := by rw [← hv]; exact vals_code_head hc
                  rw [parseTys_mapM, hv] at htys
                  have a4 := hint_eq e1
                  have a5 := hint_eq e2
                  rw [hv] at a4 a5
                  refine h.step h.inv (fun _ => rfl) (by simp [traitDef]) (by simp [utilsOf, hd, hs']) ?_ (fun _ _ _ => Iff.rfl)
                    (by simp [genericRuleOf]) (by simp [notMergedOf])
                  simp only [genericOf, hd, hs', a1, a2, a3, htys, Option.bind_some, hfty, htty, hmk, a4, a5]
                  simp
                · cases e
        · cases e
  | typemap attrs r =>
    cases r with
    | none => cases e
    | some r =>
      obtain ⟨ri, eo, rest⟩ := r
      simp only [addItem] at e
      by_cases hg : ri.generic = true
      · have hb : ri.backendData = true := by simp [RuleInfo.backendData, hg]
        simp only [mayBeMerge, hg, if_true] at e
        cases eo with
        | some ge =>
          cases e
          exact h.step h.inv (fun _ => rfl) (by simp [traitDef]) (by simp [utilsOf]) (by simp [genericOf, hg]) (by simp [concreteOf, hb, Over])
            (by simp [genericRuleOf]) (by simp [notMergedOf, hg])
        | none =>
          cases e
          exact h.step h.inv (fun _ => rfl) (by simp [traitDef]) (by simp [utilsOf]) (by simp [genericOf]) (by simp [concreteOf, hb, Over])
            (by simp [genericRuleOf, hg]) (by simp [notMergedOf, hg])
      · have hno : genericOf env w (templates w t0 pre) (Item.typemap attrs (some (ri, eo, rest))) = [] := by
          cases eo <;> simp [genericOf, hg]
        have hnr : genericRuleOf (Item.typemap (τ := τ) (γ := γ) (ι := ι) attrs (some (ri, eo, rest))) = [] := by
          cases eo <;> simp [genericRuleOf, hg]
        by_cases hb : ri.backendData = true
        · simp only [mayBeMerge, hg, hb, if_true] at e
          cases e
          exact h.step h.inv (fun _ => rfl) (by simp [traitDef]) (by simp [utilsOf]) (by simp [hno]) (by simp [concreteOf, hb, Over])
            (by simp [hnr]) (by simp [notMergedOf, hg, hb])
        · have hs := C51_safe env.norm src s.m h.inv ri
          simp only [Bool.not_eq_true] at hg hb
          have hmm : mayBeMerge env.norm src s.m ri = (.merged, mergeConvRule env.norm src s.m ri) := by simp [mayBeMerge, hg, hb]
          rw [hmm] at e hs
          cases hmc : mergeConvRule env.norm src s.m ri with
          | mk m o =>
            rw [hmc] at e hs
            cases o with
            | err => cases e
            | panic => cases e
            | ok u =>
              cases e
              refine h.step hs.1 (fun _ => rfl) (by simp [traitDef]) (by simp [utilsOf]) (by simp [hno]) ?_ (by simp [hnr]) (by simp [notMergedOf, hg, hb])
              simp only [concreteOf, hb, Bool.false_eq_true, if_false]
              cases hsim : ri.simpleNoBackend with
              | none =>
                have := (C51_rust_side env.norm src s.m h.inv ri hb hsim (by rw [hmc])).1
                rw [hmc] at this
                exact this
              | some q =>
                obtain ⟨t, f, mods, pr⟩ := q
                have := (C51_simple_rule env.norm src s.m h.inv ri t f mods pr hb hsim).1
                rw [hmc] at this
                have hask : asked env.norm ri = [] := by
                  unfold RuleInfo.simpleNoBackend at hsim
                  split at hsim
                  · cases hsim
                  · unfold RuleInfo.simple at hsim
                    split at hsim
                    · cases hsim
                    · rename_i hc
                      split at hsim
                      · rename_i h1 h2
                        have : ri.rRL = none := by
                          cases hr : ri.rRL with
                          | none => rfl
                          | some _ => simp [hr] at hc
                        simp [asked, h1, this]
                      · cases hsim
                rw [hask]
                exact this
  | impl i =>
    simp only [addItem, wrongWidth_eq] at e
    split at e
    · rename_i hd
      cases e
      exact h.step h.inv (fun _ => rfl) (by simp [traitDef]) (by simp [utilsOf]) (by simp [genericOf, hd]) (by simp [concreteOf, hd, Over])
        (by simp [genericRuleOf]) (by simp [notMergedOf])
    · rename_i hd
      split at e
      · cases e
      · rename_i m hm
        obtain ⟨_, hv, hs⟩ := swigAttrs_some hm
        unfold handleImpl at e
        rw [bind_ok] at e
        obtain ⟨sto, e1, e⟩ := e
        rw [bind_ok] at e
        obtain ⟨sfrom, e2, e⟩ := e
        split at e
        · cases e
        · rename_i arg harg
          split at e
          · cases e
          · rename_i tmpl htm
            have hcomp := h.complete _ _ htm
            rw [newCode_complete hcomp] at e
            simp only [Res.bind] at e
            have htr : templates w t0 pre (traitOf i) = some tmpl := by rw [← h.traits]; exact htm
            have a1 := suffix_eq e1
            have a2 := suffix_eq e2
            rw [hv] at a1 a2
            split at e
            · rename_i hp
              cases e
              have hx := addNode_ok h.inv.1 (⟨makeUniqueIfNeed (env.norm (if i.into then i.self else arg)) sfrom, if i.into then i.self else arg⟩ : RTy τ)
              have hxn := addNode_names (tm := s.m.tm) (⟨makeUniqueIfNeed (env.norm (if i.into then i.self else arg)) sfrom, if i.into then i.self else arg⟩ : RTy τ)
              have hy := addNode_ok hx (⟨makeUniqueIfNeed (env.norm (if i.into then arg else i.self)) sto, if i.into then arg else i.self⟩ : RTy τ)
              have hyn := addNode_names (tm := (addNode s.m.tm (⟨makeUniqueIfNeed (env.norm (if i.into then i.self else arg)) sfrom, if i.into then i.self else arg⟩ : RTy τ)).1) (⟨makeUniqueIfNeed (env.norm (if i.into then arg else i.self)) sto, if i.into then arg else i.self⟩ : RTy τ)
              have hxn' := addNode_mono (⟨makeUniqueIfNeed (env.norm (if i.into then arg else i.self)) sto, if i.into then arg else i.self⟩ : RTy τ) hxn
              refine h.step ⟨addRule_ok hy (hy.lt hxn') (hy.lt hyn) _, h.inv.2⟩ (fun _ => rfl) (by simp [traitDef]) (by simp [utilsOf, addConvCode]) ?_ ?_
                (by simp [genericRuleOf, addConvCode]) (by simp [notMergedOf, addConvCode])
              · simp [genericOf, hp, addConvCode]
              · intro x y c
                have key := hasRule_addRule hy hxn' hyn (codeOf tmpl, some (env.strip i.item)) x y c
                refine Iff.trans key ?_
                simp only [concreteOf, hd, hp, harg, htr, Bool.not_true, Bool.or_false, Bool.false_eq_true, if_false, Over, ends]
                rw [a1, a2]
                cases i.into
                · simp only [Bool.false_eq_true, if_false]
                  split
                  · exact Iff.rfl
                  · exact (hasRule_addNode (addNode_ok h.inv.1 _) _ x y c).trans (hasRule_addNode h.inv.1 _ x y c)
                · simp only [if_true]
                  split
                  · exact Iff.rfl
                  · exact (hasRule_addNode (addNode_ok h.inv.1 _) _ x y c).trans (hasRule_addNode h.inv.1 _ x y c)
            · rename_i hp
              simp only [Bool.not_eq_true] at hp
              obtain ⟨hto, e3, e⟩ := bind_ok.1 e
              obtain ⟨hfrom, e4, e⟩ := bind_ok.1 e
              cases e
              have a3 := hint_eq e3
              have a4 := hint_eq e4
              rw [hv] at a3 a4
              refine h.step h.inv (fun _ => rfl) (by simp [traitDef]) (by simp [utilsOf]) ?_ (by simp [concreteOf, hp, Over])
                (by simp [genericRuleOf]) (by simp [notMergedOf])
              simp only [genericOf, hd, hp, harg, htr, ends, a3, a4]
              cases i.into <;> simp

theorem addItems_says {env : Env τ γ ι} {ord : List (Text × RTy τ) → List (Text × RTy τ)} {w : Nat} {src : Option Nat} {t0 : Text → Option Text} :
    ∀ (items pre : List (Item τ γ ι ρ)) (s r : St τ γ ι ρ), Says env w t0 pre s → addItems env ord w src s items = .ok r → Says env w t0 (pre ++ items) r
  | [], pre, s, r, h, e => by cases e; simpa using h
  | it :: l, pre, s, r, h, e => by
    obtain ⟨s', e1, e2⟩ := bind_ok.1 e
    have := addItems_says l (pre ++ [it]) s' r (addItem_says h e1) e2
    simpa using this

theorem says_start (env : Env τ γ ι) (w : Nat) (t0 : Text → Option Text) (h : ∀ t c, t0 t = some c → Complete c) :
    Says (ρ := ρ) env w t0 [] (St.start t0) := by
  refine ⟨⟨ok_empty, consistent_empty⟩, fun t => rfl, h, rfl, rfl, ?_, rfl, rfl⟩
  intro x y c
  simp only [withPrefix, List.flatMap_nil, Over, iff_false]
  rintro ⟨i, j, hi, _⟩
  cases hi


/-! ## Acceptance -/

theorem filter_one {α : Type} (p : α → Bool) {L : List α} (hn : L.Nodup) {k : α} (hk : k ∈ L) (hp : p k = true) :
    (L.filter p).length = 1 ↔ ∀ j ∈ L, j ≠ k → p j = false := by
  have hkf : k ∈ L.filter p := List.mem_filter.2 ⟨hk, hp⟩
  constructor
  · intro h j hj hne
    cases hpj : p j with
    | false => rfl
    | true =>
      have hjf : j ∈ L.filter p := List.mem_filter.2 ⟨hj, hpj⟩
      obtain ⟨x, hx⟩ := List.length_eq_one_iff.1 h
      rw [hx] at hkf hjf
      simp only [List.mem_singleton] at hkf hjf
      exact (hne (hjf.trans hkf.symm)).elim
  · intro h
    have hall : ∀ x ∈ L.filter p, x = k := by
      intro x hx
      obtain ⟨h1, h2⟩ := List.mem_filter.1 hx
      apply Classical.byContradiction
      intro hne
      rw [h x h1 hne] at h2; cases h2
    have hnd := hn.filter p
    match hL : L.filter p with
    | [] => rw [hL] at hkf; cases hkf
    | [x] => rfl
    | x :: y :: l =>
      rw [hL] at hall hnd
      rw [hall x (by simp), hall y (by simp)] at hnd
      simp at hnd

theorem keyCount_one {attrs : List Attr} {m : List (Key × Text)} (hv : ∀ k, vals m k = given attrs k) {k : Key} {v : Text} (h : given attrs k = [v]) :
    keyCount m = 1 ↔ ∀ j, j ≠ k → given attrs j = [] := by
  unfold keyCount
  rw [filter_one _ (by decide) (k := k) (by cases k <;> decide) (by rw [hv, h]; rfl)]
  constructor
  · intro hall j hj
    have := hall j (by cases j <;> decide) hj
    rw [hv] at this
    simpa using this
  · intro hall j _ hj
    rw [hv, hall j hj]; rfl

theorem suffix_ok {attrs : List Attr} {m : List (Key × Text)} (hv : ∀ k, vals m k = given attrs k) (k : Key) :
    (∃ o, suffix m k = .ok o) ↔ HintOk attrs k := by
  unfold suffix HintOk
  rw [hv]
  cases h : given attrs k with
  | nil => simp
  | cons v l =>
    cases l with
    | nil =>
      simp only [reduceCtorEq, List.cons.injEq, and_true, exists_eq', true_and, false_or]
      rw [← keyCount_one hv h]
      by_cases hc : keyCount m = 1 <;> simp [hc]
    | cons b l => simp

theorem suffix_np (m : List (Key × Text)) (k : Key) : suffix m k ≠ .panic := by
  unfold suffix
  split
  · simp
  · split <;> simp
  · simp

theorem genericHint_np (ps : List Text) (m : List (Key × Text)) (k : Key) : genericHint ps m k ≠ .panic := by
  unfold genericHint
  split
  · simp
  · split
    · split <;> simp
    · simp
  · simp

theorem genericHint_ok {attrs : List Attr} {m : List (Key × Text)} (hv : ∀ k, vals m k = given attrs k) (ps : List Text) (k : Key) :
    (∃ o, genericHint ps m k = .ok o) ↔ GenericHintOk ps attrs k := by
  unfold genericHint GenericHintOk
  rw [hv]
  cases h : given attrs k with
  | nil => simp
  | cons v l =>
    cases l with
    | nil =>
      match ps with
      | [] => simp
      | [p] =>
        by_cases hc : p <:+: v
        · have := (strContains_iff v p).2 hc
          simp [this, hc]
        · have : strContains v p = false := by
            cases hx : strContains v p with
            | false => rfl
            | true => exact (hc ((strContains_iff v p).1 hx)).elim
          simp [this, hc]
      | p :: q :: l => simp
    | cons b l => simp

theorem bind_isok {α β : Type} {r : Res α} {f : α → Res β} : (∃ b, r.bind f = .ok b) ↔ ∃ a, r = .ok a ∧ ∃ b, f a = .ok b := by
  cases r <;> simp [Res.bind]

theorem bind_panic {α β : Type} {r : Res α} {f : α → Res β} : r.bind f = .panic ↔ r = .panic ∨ ∃ a, r = .ok a ∧ f a = .panic := by
  cases r <;> simp [Res.bind]

theorem isok_and {α : Type} {r : Res α} {P : Prop} : (∃ a, r = .ok a ∧ P) ↔ (∃ a, r = .ok a) ∧ P := by
  constructor
  · rintro ⟨a, h, p⟩; exact ⟨⟨a, h⟩, p⟩
  · rintro ⟨⟨a, h⟩, p⟩; exact ⟨a, h, p⟩

theorem handleImpl_ok (env : Env τ γ ι) {m : List (Key × Text)} {i : Impl τ γ ι} {s : St τ γ ι ρ} (hv : ∀ k, vals m k = given i.attrs k)
    (hc : ∀ t c, s.traits t = some c → Complete c) :
    (∃ s', handleImpl env m i s = .ok s') ↔ i.arg.isSome ∧ (s.traits (traitOf i)).isSome ∧ HintOk i.attrs .toHint ∧ HintOk i.attrs .fromHint ∧
      (i.typeParams ≠ [] → GenericHintOk i.typeParams i.attrs .toHint ∧ GenericHintOk i.typeParams i.attrs .fromHint) := by
  unfold handleImpl
  simp only [bind_isok, isok_and]
  cases harg : i.arg with
  | none => simp [suffix_ok hv]
  | some arg =>
    have htr : (if i.into then intoName else fromName) = traitOf i := rfl
    simp only [htr]
    cases ht : s.traits (traitOf i) with
    | none => simp
    | some c =>
      simp only
      rw [newCode_complete (hc _ _ ht)]
      by_cases hp : i.typeParams = []
      · simp only [Res.bind, hp, List.isEmpty_nil, if_true, Res.ok.injEq, exists_eq', and_true, Option.isSome_some, ne_eq, not_true_eq_false,
          false_imp_iff, true_and]
        rw [← suffix_ok hv, ← suffix_ok hv]
        constructor
        · rintro ⟨a, h, b, h2⟩; exact ⟨⟨a, h⟩, ⟨b, h2⟩⟩
        · rintro ⟨⟨a, h⟩, ⟨b, h2⟩⟩; exact ⟨a, h, b, h2⟩
      · have hpe : i.typeParams.isEmpty = false := by simp [hp]
        rw [← suffix_ok hv, ← suffix_ok hv, ← genericHint_ok hv, ← genericHint_ok hv]
        simp only [Res.bind, hpe, Bool.false_eq_true, if_false, ne_eq, hp, not_false_eq_true, true_imp_iff, Option.isSome_some, true_and]
        constructor
        · rintro ⟨a, h, b, h2, s', h3⟩
          obtain ⟨x, h4, h5⟩ := bind_ok.1 h3
          obtain ⟨y, h6, _⟩ := bind_ok.1 h5
          exact ⟨⟨a, h⟩, ⟨b, h2⟩, ⟨x, h4⟩, ⟨y, h6⟩⟩
        · rintro ⟨⟨a, h⟩, ⟨b, h2⟩, ⟨x, h4⟩, ⟨y, h6⟩⟩
          exact ⟨a, h, b, h2, _, bind_ok.2 ⟨x, h4, bind_ok.2 ⟨y, h6, rfl⟩⟩⟩


theorem ordinary_ok (env : Env τ γ ι) (ord : List (Text × RTy τ) → List (Text × RTy τ)) (w : Nat) (src : Option Nat) {s : St τ γ ι ρ}
    (hc : ∀ t c, s.traits t = some c → Complete c) (it : Item τ γ ι ρ) (ho : it.ordinary) :
    (∃ s', addItem env ord w src s it = .ok s') ↔ (dropped w it.attrs = false → ItemOk env s.traits it) := by
  cases it with
  | typesMod _ => exact ho.elim
  | typemap _ _ => exact ho.elim
  | other i => simp [addItem, ItemOk]
  | impl i =>
    simp only [addItem, wrongWidth_eq, Item.attrs, ItemOk]
    cases hd : dropped w i.attrs with
    | true => simp
    | false =>
      simp only [Bool.false_eq_true, if_false, true_imp_iff]
      cases hm : swigAttrs i.attrs with
      | none => simp [(swigAttrs_none _).1 hm]
      | some m =>
        obtain ⟨h1, h2, _⟩ := swigAttrs_some hm
        simp only [h1, true_and]
        exact handleImpl_ok env h2 hc
  | trait attrs name item =>
    simp only [addItem, wrongWidth_eq, Item.attrs, ItemOk]
    cases hd : dropped w attrs with
    | true => simp
    | false =>
      simp only [Bool.false_eq_true, if_false, true_imp_iff]
      cases hm : swigAttrs attrs with
      | none => simp [(swigAttrs_none _).1 hm]
      | some m =>
        obtain ⟨h1, h2, h3⟩ := swigAttrs_some hm
        simp only [h1, true_and]
        cases m with
        | nil => simp [h3.1 rfl]
        | cons x m =>
          have hs : hasSwig attrs = true := by
            cases hx : hasSwig attrs with
            | true => rfl
            | false => cases h3.2 hx
          simp only [hs, true_imp_iff]
          have := fun c => swigCode_iff (m := x :: m) (c := c)
          rw [h2] at this
          cases hsc : swigCode (x :: m) with
          | none =>
            simp only [reduceCtorEq, exists_false, false_iff, not_exists]
            intro c hcc
            rw [← this c, hsc] at hcc; cases hcc
          | some c =>
            simp only [Res.ok.injEq, exists_eq', true_iff]
            exact ⟨c, (this c).1 hsc⟩
  | «macro» attrs item =>
    simp only [addItem, wrongWidth_eq, Item.attrs, ItemOk]
    cases hd : dropped w attrs with
    | true => simp
    | false =>
      simp only [Bool.false_eq_true, if_false, true_imp_iff]
      cases hm : swigAttrs attrs with
      | none => simp [(swigAttrs_none _).1 hm]
      | some m =>
        obtain ⟨h1, h2, h3⟩ := swigAttrs_some hm
        simp only [h1, true_and]
        cases m with
        | nil => simp [h3.1 rfl]
        | cons x m =>
          have hs : hasSwig attrs = true := by
            cases hx : hasSwig attrs with
            | true => rfl
            | false => cases h3.2 hx
          simp only [hs, true_imp_iff]
          generalize x :: m = m at *
          constructor
          · rintro ⟨s', e⟩
            unfold handleMacro at e
            split at e
            · rename_i f fs t ts c hf ht hc
              split at e
              · cases e
              · rename_i gs hgne
                split at e
                · cases e
                · rename_i tys htys
                  split at e
                  · cases e
                  · rename_i g ps hmk
                    split at e
                    · rename_i fty tty hfty htty
                      obtain ⟨hto, e1, e⟩ := bind_ok.1 e
                      obtain ⟨hfrom, e2, e⟩ := bind_ok.1 e
                      rw [h2] at hf ht
                      obtain ⟨c1, c2⟩ := swigCode_iff.1 hc
                      rw [h2] at c1
                      rw [parseTys_mapM, h2] at htys
                      refine ⟨f, fs, t, ts, c, tys, g, ps, hf, ht, c1, c2, ?_, htys, hmk, by simp [hfty], by simp [htty], (genericHint_ok h2 ps _).1 ⟨_, e1⟩,
                        (genericHint_ok h2 ps _).1 ⟨_, e2⟩⟩
                      rw [← h2]; exact hgne
                    · cases e
            · cases e
          · rintro ⟨f, fs, t, ts, c, tys, g, ps, hf, ht, c1, c2, hg, htys, hmk, hfty, htty, k1, k2⟩
            obtain ⟨fty, hfty⟩ := Option.isSome_iff_exists.1 hfty
            obtain ⟨tty, htty⟩ := Option.isSome_iff_exists.1 htty
            obtain ⟨o1, k1⟩ := (genericHint_ok h2 ps _).2 k1
            obtain ⟨o2, k2⟩ := (genericHint_ok h2 ps _).2 k2
            have hsc : swigCode m = some c := swigCode_iff.2 ⟨(h2 _).trans c1, c2⟩
            rw [← h2] at hf ht hg htys
            rw [← parseTys_mapM] at htys
            unfold handleMacro
            rw [hf, ht, hsc]
            simp only
            cases hgs : vals m .genericArg with
            | nil => exact (hg hgs).elim
            | cons a l =>
              rw [hgs] at htys
              simp only [htys, hmk, hfty, htty, k1, k2, newCode_complete c2, Res.bind, Res.ok.injEq, exists_eq']

/-- Items that make reading panic: conversion macros without, or with unusable, generic parameters. -/
def Panics (env : Env τ γ ι) (w : Nat) : Item τ γ ι ρ → Prop
  | .macro attrs _ => dropped w attrs = false ∧ Strings attrs ∧ given attrs .frm ≠ [] ∧ given attrs .dst ≠ [] ∧
      (∃ c, given attrs .code = [c] ∧ Complete c) ∧
      (given attrs .genericArg = [] ∨ ∃ tys, (given attrs .genericArg).mapM env.parseTy = some tys ∧ env.mkGenerics tys = none)
  | _ => False

theorem fillTypes_np (src : Option Nat) : ∀ (l : List (Text × RTy τ)) (s : MState τ (EdgeW ι)), fillTypes src s l ≠ .panic
  | [], s => by simp [fillTypes]
  | (f, q) :: l, s => by
    unfold fillTypes
    simp only
    split
    · simp
    · exact fillTypes_np src l _

theorem addItem_panic (env : Env τ γ ι) (ord : List (Text × RTy τ) → List (Text × RTy τ)) (w : Nat) (src : Option Nat) {s : St τ γ ι ρ}
    (hi : Inv s.m) (hc : ∀ t c, s.traits t = some c → Complete c) (it : Item τ γ ι ρ) :
    addItem env ord w src s it = .panic ↔ Panics env w it := by
  cases it with
  | other i => simp [addItem, Panics]
  | typesMod attrs =>
    simp only [addItem, handleMod, Panics, iff_false]
    split
    · simp
    · split
      · simp
      · rw [bind_panic]
        rintro (h | ⟨a, _, h⟩)
        · exact fillTypes_np _ _ _ h
        · cases h
  | typemap attrs r =>
    simp only [Panics, iff_false]
    cases r with
    | none => simp [addItem]
    | some r =>
      obtain ⟨ri, eo, rest⟩ := r
      have hs := (C51_safe env.norm src s.m hi ri).2.1
      simp only [addItem]
      split
      · split <;> simp
      · simp
      · simp
      · simp
      · rename_i e; rw [e] at hs; exact (hs rfl).elim
  | impl i =>
    simp only [addItem, Panics, iff_false]
    split
    · simp
    · split
      · simp
      · unfold handleImpl
        simp only [bind_panic]
        rintro (h | ⟨a, _, h | ⟨b, _, h⟩⟩)
        · exact suffix_np _ _ h
        · exact suffix_np _ _ h
        · split at h
          · cases h
          · split at h
            · cases h
            · rename_i ht
              rw [newCode_complete (hc _ _ ht)] at h
              simp only [Res.bind] at h
              split at h
              · cases h
              · rcases bind_panic.1 h with h | ⟨_, _, h⟩
                · exact genericHint_np _ _ _ h
                · rcases bind_panic.1 h with h | ⟨_, _, h⟩
                  · exact genericHint_np _ _ _ h
                  · cases h
  | trait attrs name item =>
    simp only [addItem, Panics, iff_false]
    split
    · simp
    · split
      · simp
      · simp
      · split <;> simp
  | «macro» attrs item =>
    simp only [addItem, wrongWidth_eq, Panics]
    cases hd : dropped w attrs with
    | true => simp
    | false =>
      simp only [Bool.false_eq_true, if_false, true_and]
      cases hm : swigAttrs attrs with
      | none => simp [(swigAttrs_none _).1 hm]
      | some m =>
        obtain ⟨h1, h2, h3⟩ := swigAttrs_some hm
        simp only [h1, true_and]
        cases m with
        | nil =>
          have : given attrs .frm = [] := (h2 .frm).symm
          simp [this]
        | cons x m =>
          change handleMacro env (x :: m) item s = .panic ↔ _
          generalize x :: m = m at *
          simp only [← h2, ← parseTys_mapM]
          unfold handleMacro
          cases hf : vals m .frm with
          | nil => simp
          | cons f fs =>
            cases ht : vals m .dst with
            | nil => simp
            | cons t ts =>
              have hsc := fun c => swigCode_iff (m := m) (c := c)
              cases hs : swigCode m with
              | none =>
                simp only [reduceCtorEq, ne_eq, not_false_eq_true, true_and, false_iff, not_and]
                rintro ⟨c, hcc⟩
                rw [← hsc c, hs] at hcc; cases hcc
              | some c =>
                have hcc := (hsc c).1 hs
                have hex : ∃ c, vals m .code = [c] ∧ Complete c := ⟨c, hcc⟩
                simp only [ne_eq, reduceCtorEq, not_false_eq_true, true_and, hex]
                cases hg : vals m .genericArg with
                | nil => simp
                | cons a l =>
                  simp only [reduceCtorEq, false_or]
                  cases hp : parseTys env (a :: l) with
                  | none => simp
                  | some tys =>
                    simp only [Option.some.injEq, exists_eq_left']
                    cases hmk : env.mkGenerics tys with
                    | none => simp
                    | some gp =>
                      obtain ⟨g, ps⟩ := gp
                      simp only [reduceCtorEq, iff_false]
                      split
                      · rw [newCode_complete hcc.2]
                        rw [bind_panic]
                        rintro (h | ⟨_, _, h⟩)
                        · exact genericHint_np _ _ _ h
                        · rcases bind_panic.1 h with h | ⟨_, _, h⟩
                          · exact genericHint_np _ _ _ h
                          · cases h
                      · simp


/-! ## The module of foreign types -/

theorem modSteps_decls (env : Env τ γ ι) : ∀ (l : List ModAttr) (mp : List (Text × RTy τ)),
    (modSteps env ⟨none, mp⟩ l).map (·.map) = (decls env l).map (fun d => d.foldl (fun m p => insertEntry p.1 p.2 m) mp) ∧
    ∀ f, (modSteps env ⟨some f, mp⟩ l).map (·.map) = (decls env (.foreign (some f) :: l)).map (fun d => d.foldl (fun m p => insertEntry p.1 p.2 m) mp)
  | [], mp => ⟨rfl, fun _ => rfl⟩
  | .foreign (some g) :: l, mp => ⟨(modSteps_decls env l mp).2 g, fun _ => (modSteps_decls env l mp).2 g⟩
  | .foreign none :: l, mp => ⟨rfl, fun _ => rfl⟩
  | .other :: l, mp => ⟨rfl, fun _ => rfl⟩
  | .rust v :: l, mp => by
    refine ⟨rfl, fun f => ?_⟩
    cases v with
    | none => rfl
    | some v =>
      simp only [modSteps, modStep, decls, Option.bind_some]
      cases ht : env.parseTy v with
      | none => rfl
      | some t =>
        simp only [Option.map_some]
        rw [(modSteps_decls env l _).1]
        cases decls env l <;> rfl
  | .rustNotUnique v :: l, mp => by
    refine ⟨rfl, fun f => ?_⟩
    cases v with
    | none => rfl
    | some v =>
      simp only [modSteps, modStep, decls, Option.bind_some]
      cases ht : env.parseTy v with
      | none => rfl
      | some t =>
        simp only [Option.map_some]
        rw [(modSteps_decls env l _).1]
        cases decls env l <;> rfl

theorem insertEntry_keys (f : Text) (v : RTy τ) : ∀ m : List (Text × RTy τ), (m.map (·.1)).Nodup → ((insertEntry f v m).map (·.1)).Nodup ∧
    ∀ p, p ∈ insertEntry f v m ↔ p = (f, v) ∨ (p ∈ m ∧ p.1 ≠ f)
  | [], _ => by simp [insertEntry]
  | (g, u) :: l, h => by
    simp only [List.map_cons, List.nodup_cons] at h
    obtain ⟨h1, h2⟩ := insertEntry_keys f v l h.2
    unfold insertEntry
    split
    · rename_i e
      subst e
      refine ⟨by simpa using h, ?_⟩
      intro p
      simp only [List.mem_cons]
      constructor
      · rintro (rfl | hp)
        · exact .inl rfl
        · exact .inr ⟨.inr hp, fun e => h.1 (e ▸ List.mem_map_of_mem hp)⟩
      · rintro (rfl | ⟨rfl | hp, hne⟩)
        · exact .inl rfl
        · exact (hne rfl).elim
        · exact .inr hp
    · rename_i e
      refine ⟨?_, ?_⟩
      · simp only [List.map_cons, List.nodup_cons]
        refine ⟨?_, h1⟩
        intro hm
        obtain ⟨p, hp, hpe⟩ := List.mem_map.1 hm
        rcases (h2 p).1 hp with rfl | ⟨hp, _⟩
        · exact e hpe.symm
        · exact h.1 (hpe ▸ List.mem_map_of_mem hp)
      · intro p
        simp only [List.mem_cons, h2]
        constructor
        · rintro (rfl | rfl | ⟨hp, hne⟩)
          · exact .inr ⟨.inl rfl, e⟩
          · exact .inl rfl
          · exact .inr ⟨.inr hp, hne⟩
        · rintro (rfl | ⟨rfl | hp, hne⟩)
          · exact .inr (.inl rfl)
          · exact .inl rfl
          · exact .inr (.inr ⟨hp, hne⟩)

theorem fold_entries (d : List (Text × RTy τ)) : ((d.foldl (fun m p => insertEntry p.1 p.2 m) []).map (·.1)).Nodup ∧
    ∀ f v, (f, v) ∈ d.foldl (fun m p => insertEntry p.1 p.2 m) [] ↔ lastDecl d f = some v := by
  have gen : ∀ e : List (Text × RTy τ), ((e.reverse.foldl (fun m p => insertEntry p.1 p.2 m) []).map (·.1)).Nodup ∧
      ∀ f v, (f, v) ∈ e.reverse.foldl (fun m p => insertEntry p.1 p.2 m) [] ↔ lastDecl e.reverse f = some v := by
    intro e
    induction e with
    | nil => simp [lastDecl]
    | cons p e ih =>
      obtain ⟨g, u⟩ := p
      simp only [List.reverse_cons, List.foldl_append, List.foldl_cons, List.foldl_nil]
      obtain ⟨h1, h2⟩ := insertEntry_keys g u _ ih.1
      refine ⟨h1, ?_⟩
      intro f v
      rw [h2]
      unfold lastDecl
      simp only [List.reverse_append, List.reverse_reverse, List.reverse_cons, List.reverse_nil, List.nil_append, List.cons_append, List.find?_cons]
      by_cases hg : g = f
      · subst hg
        simp only [decide_true, Option.map_some, Option.some.injEq, Prod.mk.injEq, true_and, ne_eq, not_true_eq_false, and_false, or_false]
        exact eq_comm
      · have : ¬ f = g := fun e => hg e.symm
        simp only [hg, decide_false, Prod.mk.injEq, this, false_and, false_or, ne_eq, not_false_eq_true, and_true, ih.2]
        unfold lastDecl
        simp
  have := gen d.reverse
  rwa [List.reverse_reverse] at this

theorem fillTypes_full (src : Option Nat) : ∀ (l : List (Text × RTy τ)) (s : MState τ (EdgeW ι)), Inv s → (l.map (·.1)).Nodup →
    ((∃ r, fillTypes src s l = .ok r) ↔ ∀ p ∈ l, s.st.findByName p.1 = none) ∧
    ∀ r, fillTypes src s l = .ok r → (∀ p ∈ l, Bound r p.1 p.2) ∧ (∀ n, (∀ p ∈ l, p.1 ≠ n) → r.st.findByName n = s.st.findByName n) ∧
      (∀ (i : Nat) ft, s.st.ftypes[i]? = some ft → r.st.ftypes[i]? = some ft)
  | [], s, _, _ => by
    refine ⟨by simp [fillTypes], ?_⟩
    intro r e; cases e
    exact ⟨by simp, fun _ _ => rfl, fun _ _ h => h⟩
  | (f, q) :: l, s, hi, hn => by
    simp only [List.map_cons, List.nodup_cons] at hn
    unfold fillTypes
    simp only [Storage.allocNew, Storage.addNew]
    cases hf : s.st.names f with
    | some j =>
      simp only
      refine ⟨?_, by simp⟩
      simp only [reduceCtorEq, exists_false, false_iff]
      intro h
      have := h (f, q) (by simp)
      rw [show s.st.findByName f = s.st.names f from rfl, hf] at this
      cases this
    | none =>
      simp only
      have hinv : Inv ({ s with tm := (addNode s.tm q).1, st := ⟨s.st.ftypes ++ [⟨⟨f, 0⟩, src, [], some ⟨(addNode s.tm q).2, none⟩, some ⟨(addNode s.tm q).2, none⟩⟩],
          setName s.st.names f s.st.ftypes.length⟩ } : MState τ (EdgeW ι)) := by
        refine ⟨addNode_ok hi.1 q, ?_⟩
        have := addNew_consistent hi.2 (⟨⟨f, 0⟩, src, [], some ⟨(addNode s.tm q).2, none⟩, some ⟨(addNode s.tm q).2, none⟩⟩ : FType (EdgeW ι))
        unfold Storage.addNew at this
        simp only [hf] at this
        exact this
      obtain ⟨k1, k2⟩ := fillTypes_full src l _ hinv hn.2
      refine ⟨?_, ?_⟩
      · rw [k1]
        have hne : ∀ p ∈ l, p.1 ≠ f := fun p hp e => hn.1 (e ▸ List.mem_map_of_mem hp)
        simp only [List.mem_cons, forall_eq_or_imp]
        constructor
        · intro h
          refine ⟨hf, fun p hp => ?_⟩
          have := h p hp
          simpa [Storage.findByName, setName, hne p hp] using this
        · rintro ⟨_, h⟩ p hp
          have := h p hp
          simpa [Storage.findByName, setName, hne p hp] using this
      · intro r e
        obtain ⟨b1, b2, b3⟩ := k2 r e
        obtain ⟨_, _, c3⟩ := fillTypes_spec src l _ r hinv e
        refine ⟨?_, ?_, ?_⟩
        · intro p hp
          rcases List.mem_cons.1 hp with rfl | hp
          · refine ⟨s.st.ftypes.length, ⟨⟨f, 0⟩, src, [], some ⟨(addNode s.tm q).2, none⟩, some ⟨(addNode s.tm q).2, none⟩⟩, (addNode s.tm q).2, ?_,
              b3 s.st.ftypes.length _ (by simp), c3 _ _ (addNode_names q), rfl, rfl⟩
            rw [b2 f (fun p hp e => hn.1 (e ▸ List.mem_map_of_mem hp))]
            simp [Storage.findByName, setName]
          · exact b1 p hp
        · intro n hne
          rw [b2 n (fun p hp => hne p (by simp [hp]))]
          have : n ≠ f := fun e => hne (f, q) (by simp) e.symm
          simp [Storage.findByName, setName, this]
        · intro i ft hft
          exact b3 i ft (by rw [List.getElem?_append_left (List.getElem?_eq_some_iff.1 hft).1]; exact hft)

/-! ## Theorems -/

theorem over_last {κ : Type} : ∀ (l : List (Text × Text × κ)) (old : Text → Text → κ → Prop) (x y : Text) (c : κ),
    Over old l x y c ↔ match l.reverse.find? (fun e => e.1 = x ∧ e.2.1 = y) with | some e => c = e.2.2 | none => old x y c := by
  intro l
  induction l with
  | nil => intro old x y c; rfl
  | cons e l ih =>
    intro old x y c
    obtain ⟨a, b, d⟩ := e
    show Over _ l x y c ↔ _
    rw [ih, List.reverse_cons, List.find?_append]
    cases h : l.reverse.find? (fun e => decide (e.1 = x ∧ e.2.1 = y)) with
    | some e => simp
    | none =>
      simp only [Option.none_or, List.find?_cons, List.find?_nil]
      by_cases hab : a = x ∧ b = y
      · obtain ⟨rfl, rfl⟩ := hab; simp
      · have : ¬ (x = a ∧ y = b) := fun h => hab ⟨h.1.symm, h.2.symm⟩
        simp [hab, this]

/-- The table read from a file contains exactly what its items say: see `Says`. -/
theorem C58_content (env : Env τ γ ι) (ord : List (Text × RTy τ) → List (Text × RTy τ)) (w : Nat) (src : Option Nat) (t0 : Text → Option Text)
    (h0 : ∀ t c, t0 t = some c → Complete c) (items : List (Item τ γ ι ρ)) (r : St τ γ ι ρ) (h : parse env ord w src t0 items = .ok r) :
    Says env w t0 items r :=
  addItems_says items [] _ r (says_start env w t0 h0) h

/-- Between two concrete types, the conversion in force is the last one the file gives. -/
theorem C58_last_conversion (env : Env τ γ ι) (ord : List (Text × RTy τ) → List (Text × RTy τ)) (w : Nat) (src : Option Nat) (t0 : Text → Option Text)
    (h0 : ∀ t c, t0 t = some c → Complete c) (items : List (Item τ γ ι ρ)) (r : St τ γ ι ρ) (h : parse env ord w src t0 items = .ok r) (x y : Text)
    (c : EdgeW ι) :
    HasRule r.m.tm x y c ↔ ((((withPrefix [] items).flatMap fun p => concreteOf env w (templates w t0 p.1) p.2).reverse.find?
      fun e => e.1 = x ∧ e.2.1 = y).map fun e => e.2.2) = some c := by
  rw [(C58_content env ord w src t0 h0 items r h).concrete, over_last]
  cases List.find? _ _ with
  | none => simp
  | some e => simp; exact eq_comm

/-- A file of ordinary items is read exactly if every item that is not left out is in order, given the templates before it. -/
theorem C58_accepts (env : Env τ γ ι) (ord : List (Text × RTy τ) → List (Text × RTy τ)) (w : Nat) (src : Option Nat) (t0 : Text → Option Text)
    (h0 : ∀ t c, t0 t = some c → Complete c) (items : List (Item τ γ ι ρ)) (ho : ∀ it ∈ items, it.ordinary) :
    (∃ r, parse env ord w src t0 items = .ok r) ↔
      ∀ p ∈ withPrefix [] items, dropped w p.2.attrs = false → ItemOk env (templates w t0 p.1) p.2 := by
  have gen : ∀ (l pre : List (Item τ γ ι ρ)) (s : St τ γ ι ρ), Says env w t0 pre s → (∀ it ∈ l, it.ordinary) →
      ((∃ r, addItems env ord w src s l = .ok r) ↔ ∀ p ∈ withPrefix pre l, dropped w p.2.attrs = false → ItemOk env (templates w t0 p.1) p.2) := by
    intro l
    induction l with
    | nil => intro pre s _ _; simp [addItems, withPrefix]
    | cons it l ih =>
      intro pre s hs ho
      have hfun : s.traits = templates w t0 pre := funext hs.traits
      have key := ordinary_ok env ord w src hs.complete it (ho it (by simp))
      simp only [withPrefix, List.mem_cons, forall_eq_or_imp, addItems, bind_isok, ← hfun]
      rw [← key]
      constructor
      · rintro ⟨s', e1, e2⟩
        exact ⟨⟨s', e1⟩, (ih _ s' (addItem_says hs e1) (fun x hx => ho x (by simp [hx]))).1 e2⟩
      · rintro ⟨⟨s', e1⟩, e2⟩
        exact ⟨s', e1, (ih _ s' (addItem_says hs e1) (fun x hx => ho x (by simp [hx]))).2 e2⟩
  exact gen items [] _ (says_start env w t0 h0) ho

/-- Reading never panics unless the file has a conversion macro without, or with unusable, generic parameters. -/
theorem C58_no_panic (env : Env τ γ ι) (ord : List (Text × RTy τ) → List (Text × RTy τ)) (w : Nat) (src : Option Nat) (t0 : Text → Option Text)
    (h0 : ∀ t c, t0 t = some c → Complete c) (items : List (Item τ γ ι ρ)) (hp : ∀ it ∈ items, ¬ Panics env w it) :
    parse env ord w src t0 items ≠ .panic := by
  have gen : ∀ (l pre : List (Item τ γ ι ρ)) (s : St τ γ ι ρ), Says env w t0 pre s → (∀ it ∈ l, ¬ Panics env w it) → addItems env ord w src s l ≠ .panic := by
    intro l
    induction l with
    | nil => intro pre s _ _; simp [addItems]
    | cons it l ih =>
      intro pre s hs hp h
      rcases bind_panic.1 h with h | ⟨s', h1, h2⟩
      · exact hp it (by simp) ((addItem_panic env ord w src hs.inv hs.complete it).1 h)
      · exact ih _ s' (addItem_says hs h1) (fun x hx => hp x (by simp [hx])) h2
  exact gen items [] _ (says_start env w t0 h0) hp

/-- The module of foreign types: accepted exactly if it is written as pairs and none of its names is known already; then, whatever the order in which they are
entered, each name is bound to the Rust type of its last declaration, other names stay as they are, and no conversion is added or removed. -/
theorem C58_types (env : Env τ γ ι) (ord : List (Text × RTy τ) → List (Text × RTy τ)) (hord : ∀ l, (ord l).Perm l) (src : Option Nat) (attrs : List ModAttr)
    (s : St τ γ ι ρ) (hi : Inv s.m) :
    ((∃ r, handleMod env ord src attrs s = .ok r) ↔ ∃ d, decls env attrs = some d ∧ ∀ f v, lastDecl d f = some v → s.m.st.findByName f = none) ∧
    ∀ r d, handleMod env ord src attrs s = .ok r → decls env attrs = some d →
      (∀ f v, lastDecl d f = some v → Bound r.m f v) ∧ (∀ f, lastDecl d f = none → r.m.st.findByName f = s.m.st.findByName f) ∧
      (∀ (i : Nat) ft, s.m.st.ftypes[i]? = some ft → r.m.st.ftypes[i]? = some ft) ∧ (∀ x y c, HasRule r.m.tm x y c ↔ HasRule s.m.tm x y c) := by
  have hm := (modSteps_decls env attrs []).1
  unfold handleMod
  cases hs : modSteps env ⟨none, []⟩ attrs with
  | none =>
    rw [hs] at hm
    have hd : decls env attrs = none := by
      cases hd : decls env attrs with
      | none => rfl
      | some d => rw [hd] at hm; cases hm
    simp [hd]
  | some ms =>
    rw [hs] at hm
    cases hd : decls env attrs with
    | none => rw [hd] at hm; cases hm
    | some d =>
      rw [hd] at hm
      simp only [Option.map_some, Option.some.injEq] at hm
      obtain ⟨f1, f2⟩ := fold_entries d
      rw [← hm] at f1 f2
      have hp := hord ms.map
      obtain ⟨k1, k2⟩ := fillTypes_full src (ord ms.map) s.m hi ((hp.map (·.1)).nodup_iff.2 f1)
      have hmem : ∀ f v, (f, v) ∈ ord ms.map ↔ lastDecl d f = some v := fun f v => (hp.mem_iff).trans (f2 f v)
      simp only [Option.some.injEq, exists_eq_left', bind_isok, Res.ok.injEq, exists_eq', and_true]
      refine ⟨?_, ?_⟩
      · constructor
        · rintro ⟨r, e⟩ f v hfv
          exact (k1.1 ⟨r, e⟩) (f, v) ((hmem f v).2 hfv)
        · intro h
          obtain ⟨r, e⟩ := k1.2 (fun p hp => h p.1 p.2 ((hmem p.1 p.2).1 hp))
          exact ⟨r, e⟩
      · rintro r d' e rfl
        obtain ⟨m, e1, e2⟩ := bind_ok.1 e
        cases e2
        obtain ⟨b1, b2, b3⟩ := k2 m e1
        refine ⟨fun f v h => b1 (f, v) ((hmem f v).2 h), ?_, b3, (fillTypes_spec src _ _ _ hi e1).2.1⟩
        intro f hf
        apply b2
        rintro ⟨g, v⟩ hp rfl
        rw [(hmem g v).1 hp] at hf
        cases hf


theorem addItem_seen {env : Env τ γ ι} {ord : List (Text × RTy τ) → List (Text × RTy τ)} {w : Nat} {src : Option Nat} {s s' : St τ γ ι ρ} {it : Item τ γ ι ρ}
    (e : addItem env ord w src s it = .ok s') : (s.seenMod = true → s'.seenMod = true) ∧ (∀ a, it = .typesMod a → s.seenMod = false ∧ s'.seenMod = true) := by
  cases it with
  | other i => cases e; exact ⟨id, by simp⟩
  | typesMod attrs =>
    simp only [addItem, handleMod] at e
    split at e
    · cases e
    · rename_i hs
      split at e
      · cases e
      · obtain ⟨m, _, e2⟩ := bind_ok.1 e
        cases e2
        exact ⟨fun _ => rfl, fun a _ => ⟨by simpa using hs, rfl⟩⟩
  | trait attrs name item =>
    simp only [addItem] at e
    refine ⟨?_, by simp⟩
    split at e
    · cases e; exact id
    · split at e
      · cases e
      · cases e; exact id
      · split at e
        · cases e
        · cases e; exact id
  | «macro» attrs item =>
    simp only [addItem] at e
    refine ⟨?_, by simp⟩
    split at e
    · cases e; exact id
    · split at e
      · cases e
      · cases e; exact id
      · unfold handleMacro at e
        split at e
        · split at e
          · cases e
          · split at e
            · cases e
            · split at e
              · cases e
              · split at e
                · obtain ⟨_, _, e⟩ := bind_ok.1 e
                  obtain ⟨_, _, e⟩ := bind_ok.1 e
                  obtain ⟨_, _, e⟩ := bind_ok.1 e
                  cases e; exact id
                · cases e
        · cases e
  | typemap attrs r =>
    simp only [addItem] at e
    refine ⟨?_, by simp⟩
    split at e
    · cases e
    · split at e
      · split at e <;> cases e <;> exact id
      · cases e; exact id
      · cases e; exact id
      · cases e
      · cases e
  | impl i =>
    simp only [addItem] at e
    refine ⟨?_, by simp⟩
    split at e
    · cases e; exact id
    · split at e
      · cases e
      · unfold handleImpl at e
        obtain ⟨_, _, e⟩ := bind_ok.1 e
        obtain ⟨_, _, e⟩ := bind_ok.1 e
        split at e
        · cases e
        · split at e
          · cases e
          · obtain ⟨_, _, e⟩ := bind_ok.1 e
            split at e
            · cases e; exact id
            · obtain ⟨_, _, e⟩ := bind_ok.1 e
              obtain ⟨_, _, e⟩ := bind_ok.1 e
              cases e; exact id

/-- A file with two modules of foreign types is not accepted. -/
theorem C58_one_module (env : Env τ γ ι) (ord : List (Text × RTy τ) → List (Text × RTy τ)) (w : Nat) (src : Option Nat) (t0 : Text → Option Text)
    (x y z : List (Item τ γ ι ρ)) (a b : List ModAttr) (r : St τ γ ι ρ) : parse env ord w src t0 (x ++ .typesMod a :: y ++ .typesMod b :: z) ≠ .ok r := by
  have second : ∀ (l : List (Item τ γ ι ρ)) (s : St τ γ ι ρ), s.seenMod = true → addItems env ord w src s (l ++ .typesMod b :: z) ≠ .ok r := by
    intro l
    induction l with
    | nil =>
      intro s hs h
      obtain ⟨s', h1, _⟩ := bind_ok.1 h
      rw [((addItem_seen h1).2 b rfl).1] at hs
      cases hs
    | cons it l ih =>
      intro s hs h
      obtain ⟨s', h1, h2⟩ := bind_ok.1 h
      exact ih s' ((addItem_seen h1).1 hs) h2
  have first : ∀ (l : List (Item τ γ ι ρ)) (s : St τ γ ι ρ), addItems env ord w src s (l ++ (.typesMod a :: y ++ .typesMod b :: z)) ≠ .ok r := by
    intro l
    induction l with
    | nil =>
      intro s h
      obtain ⟨s', h1, h2⟩ := bind_ok.1 h
      exact second y s' ((addItem_seen h1).2 a rfl).2 h2
    | cons it l ih =>
      intro s h
      obtain ⟨s', h1, h2⟩ := bind_ok.1 h
      exact ih s' h2
  unfold parse
  rw [List.append_assoc]
  exact first x _

/-- An item with the attribute `cfg(target_pointer_width = "n")`, and no other `cfg`, is left out exactly when generating for another width. -/
theorem C58_width (w n : Nat) (a b : List Attr) (ha : ∀ ms, .cfg ms ∉ a) (hb : ∀ ms, .cfg ms ∉ b) :
    dropped w (a ++ .cfg [.width (some n)] :: b) = (n != w) := by
  have none : ∀ l : List Attr, (∀ ms, .cfg ms ∉ l) → cfgEntries l = [] := by
    intro l hl
    unfold cfgEntries
    rw [List.flatMap_eq_nil_iff]
    intro x hx
    cases x with
    | cfg ms => exact (hl ms hx).elim
    | swig _ _ => rfl
    | other => rfl
  have : cfgEntries (a ++ .cfg [.width (some n)] :: b) = cfgEntries a ++ ([.width (some n)] ++ cfgEntries b) := by
    unfold cfgEntries; rw [List.flatMap_append, List.flatMap_cons]
  rw [none a ha, none b hb] at this
  unfold dropped widths
  rw [this]
  rfl

/-- A left out item changes nothing. -/
theorem C58_left_out (env : Env τ γ ι) (ord : List (Text × RTy τ) → List (Text × RTy τ)) (w : Nat) (src : Option Nat) (s : St τ γ ι ρ) (it : Item τ γ ι ρ)
    (hm : ∀ a r, it ≠ .typemap a r) (h : dropped w it.attrs = true) : addItem env ord w src s it = .ok s := by
  cases it with
  | impl i => simp only [Item.attrs] at h; simp [addItem, wrongWidth_eq, h]
  | trait a n i => simp only [Item.attrs] at h; simp [addItem, wrongWidth_eq, h]
  | «macro» a i => simp only [Item.attrs] at h; simp [addItem, wrongWidth_eq, h]
  | typemap a r => exact (hm a r rfl).elim
  | typesMod a => cases h
  | other i => cases h

/-- Templates found in one file are used for the next one, until redefined. -/
theorem C58_next_file (env : Env τ γ ι) (ord : List (Text × RTy τ) → List (Text × RTy τ)) (w : Nat) (src : Option Nat) (t0 : Text → Option Text)
    (h0 : ∀ t c, t0 t = some c → Complete c) (items : List (Item τ γ ι ρ)) (r : St τ γ ι ρ) (h : parse env ord w src t0 items = .ok r) (t : Text) :
    traitsAfter (parse env ord w src t0 items) t = templates w t0 items t ∧ ∀ c, traitsAfter (parse env ord w src t0 items) t = some c → Complete c := by
  have hs := C58_content env ord w src t0 h0 items r h
  rw [h]
  exact ⟨hs.traits t, hs.complete t⟩

/-! ## Findings -/

/-- Finding: `foreign_typemap!` ignores `cfg` attributes: the rule is taken for every pointer width. -/
theorem C58_finding_rule_cfg (env : Env τ γ ι) (ord : List (Text × RTy τ) → List (Text × RTy τ)) (w : Nat) (src : Option Nat) (s : St τ γ ι ρ)
    (a b : List Attr) (r) : addItem env ord w src s (.typemap a r) = addItem env ord w src s (.typemap b r) := rfl

/-- Finding: `cfg(not(target_pointer_width = ".."))` and the like never leave an item out (whatever follows them). -/
theorem C58_finding_not (w : Nat) (a : List Attr) (ms : List CfgMeta) : dropped w (.cfg (.bad :: ms) :: a) = false := by
  simp [dropped, widths, cfgEntries]

/-- Finding: of several pointer widths only the last one counts, although `cfg`s are a conjunction. -/
theorem C58_finding_last_cfg (w n : Nat) : dropped w [.cfg [.width (some n)], .cfg [.width (some w)]] = false := by
  simp [dropped, widths, cfgEntries, widthOf, List.takeWhile]

/-- Finding: a foreign name without a Rust type is ignored without an error. -/
theorem C58_finding_skipped (env : Env τ γ ι) (f : Text) (l : List ModAttr) (d : List (Text × RTy τ)) (h : decls env l = some d) :
    ∃ d', decls env (l ++ [.foreign (some f)]) = some d' ∧ d' = d := by
  refine ⟨d, ?_, rfl⟩
  have gen : ∀ (n : Nat) (l : List ModAttr) (d : List (Text × RTy τ)), l.length ≤ n → decls env l = some d → decls env (l ++ [.foreign (some f)]) = some d := by
    intro n
    induction n with
    | zero =>
      intro l d hl h
      have : l = [] := List.length_eq_zero_iff.1 (by omega)
      subst this
      simpa [decls] using h
    | succ n ih =>
      intro l d hl h
      match l, hl, h with
      | [], _, h => simpa [decls] using h
      | .foreign (some g) :: .rust v :: l, hl, h =>
        simp only [List.cons_append, decls] at h ⊢
        cases ht : v.bind env.parseTy with
        | none => rw [ht] at h; cases h
        | some t =>
          rw [ht] at h
          cases hd : decls env l with
          | none => rw [hd] at h; cases h
          | some e => rw [hd] at h; rw [ih l e (by simp at hl; omega) hd]; exact h
      | .foreign (some g) :: .rustNotUnique v :: l, hl, h =>
        simp only [List.cons_append, decls] at h ⊢
        cases ht : v.bind env.parseTy with
        | none => rw [ht] at h; cases h
        | some t =>
          rw [ht] at h
          cases hd : decls env l with
          | none => rw [hd] at h; cases h
          | some e => rw [hd] at h; rw [ih l e (by simp at hl; omega) hd]; exact h
      | [.foreign (some g)], _, h => simpa [decls] using h
      | .foreign (some g) :: .foreign x :: l, hl, h =>
        have := ih (.foreign x :: l) d (by simp at hl ⊢; omega) h
        exact this
      | .foreign (some g) :: .other :: l, _, h => simp [decls] at h
      | .foreign none :: l, _, h => simp [decls] at h
      | .rust _ :: l, _, h => simp [decls] at h
      | .rustNotUnique _ :: l, _, h => simp [decls] at h
      | .other :: l, _, h => simp [decls] at h
  exact gen l.length l d (Nat.le_refl _) h

/-- Finding: after a file with an error all templates known before are gone. -/
theorem C58_finding_lost (env : Env τ γ ι) (ord : List (Text × RTy τ) → List (Text × RTy τ)) (w : Nat) (src : Option Nat) (t0 : Text → Option Text)
    (items : List (Item τ γ ι ρ)) (h : parse env ord w src t0 items = .err) (t : Text) : traitsAfter (parse env ord w src t0 items) t = none := by
  rw [h]; rfl

/-! ## Examples -/

/-- Types are their text, generic parameter lists the names. -/
def exEnv : Env Text (List Text) Nat := ⟨fun t => some t, fun l => some (l, l), id, fun n => n + 100⟩
def exTmpl : Text := "let {to_var}: {to_var_type} = <{to_var_type}>::swig_from({from_var});".toList

/-- A trait, an implementation for another width, an implementation, a generic one, a macro, ordinary code. -/
def exFile : List (Item Text (List Text) Nat Unit) :=
  [.trait [.swig .code (some exTmpl)] "SwigFrom".toList 0,
   .impl ⟨[.cfg [.width (some 32)]], false, some ['u'], ['j'], [], [], 1⟩,
   .impl ⟨[.cfg [.width (some 64)]], false, some ['u'], ['j'], [], [], 2⟩,
   .impl ⟨[.swig .toHint (some ['T'])], false, some ['T'], ['o'], [['T']], [['T']], 3⟩,
   .typesMod [.foreign (some ['l']), .rust (some ['j'])],
   .macro [] 4, .other 5]

/-- The example can be read, and its parts are where they belong. -/
example : (match parse exEnv id 64 none (fun _ => none) exFile with
    | .ok r => decide (r.utils = [100, 4, 5]) && decide (r.genericEdges.map (fun e => (e.fromTy, e.toTy, e.toHint, e.dep)) = [(['T'], ['o'], some ['T'], some 103)]) &&
        decide (r.m.tm.g.edges.map (fun e => (e.src, e.dst, e.w.2)) = [(0, 1, some 102)]) && decide (r.m.st.ftypes.map (fun f => f.name.value) = [['l']])
    | _ => false) = true := by decide +kernel

/-- The hypothesis of the theorems: at the start nothing is known. -/
example : ∀ (t c : Text), (fun _ : Text => (none : Option Text)) t = some c → Complete c := by intro t c h; cases h

/-- A conversion macro without generic parameters panics. -/
example : (match parse (ρ := Unit) exEnv id 64 none (fun _ => none)
    [.macro [.swig .frm (some ['a']), .swig .dst (some ['b']), .swig .code (some exTmpl)] 0] with | .panic => true | _ => false) = true := by decide +kernel

end Flapi.ReadFile
