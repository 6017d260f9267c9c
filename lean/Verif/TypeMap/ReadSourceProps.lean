import Verif.TypeMap.ReadSource
import Verif.TypeMap.ReadFileProps
import Verif.Core.ConfigProps
import Verif.TypeMap.AStarProps
/-! # Which items of a file are conversion rules (C58) -/
namespace Flapi.ReadFile
open Flapi Flapi.Template Flapi.FTypes Flapi.Graph TMap
open Flapi.Config (parseUsize Numeral denotes)
variable {τ γ ι ρ : Type}

/-! ## Specification -/

/-- The path `name`. -/
def plainPath (name : Text) : TPath τ := ⟨false, [⟨name, .none⟩]⟩

/-- The path `SwigInto<t>` or `SwigFrom<t>`. -/
def traitPath (into : Bool) (t : τ) : TPath τ := ⟨false, [⟨if into then "SwigInto".toList else "SwigFrom".toList, .angle [.type t]⟩]⟩

/-- A path of one segment without `::` in front, `SwigInto` or `SwigFrom` with any arguments or none. -/
def NamesConversion (p : TPath τ) : Prop := ∃ a, p = ⟨false, [⟨"SwigInto".toList, a⟩]⟩ ∨ p = ⟨false, [⟨"SwigFrom".toList, a⟩]⟩

/-- What the `cfg` attributes of a list of attributes contain, in order; `none` stands for a `cfg` without parentheses. -/
inductive Conditions : List (SAttr τ) → List (Option (TPath τ × CfgRest)) → Prop
  | nil : Conditions [] []
  | list (val : Option Text) (l : List (TPath τ × CfgRest)) (as : List (SAttr τ)) (r : List (Option (TPath τ × CfgRest))) :
      Conditions as r → Conditions (⟨plainPath "cfg".toList, val, some l⟩ :: as) (l.map some ++ r)
  | bare (val : Option Text) (as : List (SAttr τ)) (r : List (Option (TPath τ × CfgRest))) :
      Conditions as r → Conditions (⟨plainPath "cfg".toList, val, none⟩ :: as) (none :: r)
  | other (a : SAttr τ) (as : List (SAttr τ)) (r : List (Option (TPath τ × CfgRest))) :
      a.path ≠ plainPath "cfg".toList → Conditions as r → Conditions (a :: as) r

/-- A condition after which reading goes on: `target_pointer_width = ".."`, or a single other word. -/
inductive Readable : Option (TPath τ × CfgRest) → Prop
  | width (v : Text) : Readable (some (plainPath "target_pointer_width".toList, .eqStr v))
  | word (p : TPath τ) : p ≠ plainPath "target_pointer_width".toList → Readable (some (p, .nothing))

/-- The condition `target_pointer_width = "n"`, the number written in decimal digits, perhaps after a `+`. -/
inductive States : Option (TPath τ × CfgRest) → Nat → Prop
  | mk (v u : Text) : Numeral u → denotes u < 2 ^ 64 → (v = u ∨ v = '+' :: u) →
      States (some (plainPath "target_pointer_width".toList, .eqStr v)) (denotes u)

/-! ## Lemmas -/

theorem isIdent_iff (p : TPath τ) (n : Text) : p.isIdent n = true ↔ p = plainPath n := by
  obtain ⟨l, segs⟩ := p
  unfold TPath.isIdent plainPath
  cases l with
  | true => simp
  | false =>
    match segs with
    | [] => simp
    | [⟨i, a⟩] => cases a <;> simp
    | _ :: _ :: _ => simp

theorem ignore_iff (p : TPath τ) (n : Text) : p.isIdentIgnoreParams n = true ↔ ∃ a, p = ⟨false, [⟨n, a⟩]⟩ := by
  obtain ⟨l, segs⟩ := p
  unfold TPath.isIdentIgnoreParams
  cases l with
  | true => simp
  | false =>
    match segs with
    | [] => simp
    | [⟨i, a⟩] => simp
    | _ :: _ :: _ => simp

theorem into_ne_from : intoName ≠ fromName := by decide

theorem toItem_named {p : TPath τ} (h : NamesConversion p) (attrs : List (SAttr τ)) (self : τ) (g : γ) (ps : List Text) (item : ι) :
    (SItem.impl attrs (some p) self g ps item : SItem τ γ ι ρ).toItem =
      .impl ⟨attrs.map SAttr.toAttr, p.isIdentIgnoreParams intoName, p.param, self, g, ps, item⟩ := by
  have : (p.isIdentIgnoreParams intoName || p.isIdentIgnoreParams fromName) = true := by
    obtain ⟨a, h | h⟩ := h
    · rw [(ignore_iff p intoName).2 ⟨a, h⟩]; rfl
    · rw [(ignore_iff p fromName).2 ⟨a, h⟩, Bool.or_true]
  show (if (p.isIdentIgnoreParams intoName || p.isIdentIgnoreParams fromName) = true then _ else _) = _
  rw [if_pos this]

theorem toItem_traitPath (into : Bool) (t : τ) (attrs : List (SAttr τ)) (self : τ) (g : γ) (ps : List Text) (item : ι) :
    (SItem.impl attrs (some (traitPath into t)) self g ps item : SItem τ γ ι ρ).toItem = .impl ⟨attrs.map SAttr.toAttr, into, some t, self, g, ps, item⟩ := by
  cases into with
  | true =>
    rw [toItem_named (p := traitPath true t) ⟨_, Or.inl rfl⟩, (ignore_iff (traitPath true t) intoName).2 ⟨_, rfl⟩]; rfl
  | false =>
    have h : (traitPath false t).isIdentIgnoreParams intoName = false := by
      cases hc : (traitPath false t).isIdentIgnoreParams intoName with
      | false => rfl
      | true =>
        obtain ⟨a, ha⟩ := (ignore_iff _ _).1 hc
        injection ha with _ h1
        injection h1 with h2 _
        injection h2 with h3 _
        exact absurd h3.symm into_ne_from
    rw [toItem_named (p := traitPath false t) ⟨_, Or.inr rfl⟩, h]; rfl

theorem name_inj : ∀ j k : Key, j.name = k.name → j = k := by
  intro j k h
  cases j <;> cases k <;> first | rfl | exact absurd h (by decide)

theorem name_ne_cfg (k : Key) : k.name ≠ "cfg".toList := by cases k <;> decide

theorem mem_keys (k : Key) : k ∈ keys := by cases k <;> decide

theorem toAttr_swig (a : SAttr τ) (k : Key) (v : Option Text) : a.toAttr = .swig k v ↔ a.path = plainPath k.name ∧ a.value = v := by
  have inj : ∀ m n : Text, (plainPath m : TPath τ) = plainPath n → m = n := by
    intro m n h
    injection h with _ h1
    injection h1 with h2 _
    injection h2
  unfold SAttr.toAttr
  by_cases hc : a.path.isIdent "cfg".toList = true
  · rw [if_pos hc]
    constructor
    · intro h; cases h
    · intro ⟨h, _⟩
      rw [h] at hc
      exact absurd (inj _ _ ((isIdent_iff _ _).1 hc)) (name_ne_cfg k)
  · rw [if_neg hc]
    cases hf : keys.find? (fun k => a.path.isIdent k.name) with
    | none =>
      constructor
      · intro h; cases h
      · intro ⟨h, _⟩
        have := List.find?_eq_none.1 hf k (mem_keys k)
        exact absurd ((isIdent_iff _ _).2 h) this
    | some j =>
      have hj : a.path = plainPath j.name := (isIdent_iff _ _).1 (List.find?_some (p := fun k : Key => a.path.isIdent k.name) hf)
      constructor
      · intro h
        injection h with h1 h2
        subst h1
        exact ⟨hj, h2⟩
      · intro ⟨h, hv⟩
        have : j = k := name_inj j k (inj _ _ (hj.symm.trans h))
        rw [this, hv]

theorem mem_withPrefix {α : Type} (x : α) (post : List α) : ∀ (pre acc : List α), (acc ++ pre, x) ∈ withPrefix acc (pre ++ x :: post)
  | [], acc => by rw [List.append_nil]; exact List.mem_cons_self ..
  | a :: pre, acc => by
    have := mem_withPrefix x post pre (acc ++ [a])
    rw [List.append_assoc] at this
    exact List.mem_cons_of_mem _ this

theorem addItems_split {env : Env τ γ ι} {ord : List (Text × RTy τ) → List (Text × RTy τ)} {w : Nat} {src : Option Nat} {r : St τ γ ι ρ} (rest : List (Item τ γ ι ρ)) :
    ∀ (pre : List (Item τ γ ι ρ)) (s : St τ γ ι ρ), addItems env ord w src s (pre ++ rest) = .ok r →
      ∃ t, addItems env ord w src s pre = .ok t ∧ addItems env ord w src t rest = .ok r
  | [], s, h => ⟨s, rfl, h⟩
  | a :: pre, s, h => by
    obtain ⟨u, h1, h2⟩ := bind_ok.1 h
    obtain ⟨t, h3, h4⟩ := addItems_split rest pre u h2
    exact ⟨t, bind_ok.2 ⟨u, h1, h3⟩, h4⟩

/-- An item of a file that is read is in order. -/
theorem item_ok {env : Env τ γ ι} {ord : List (Text × RTy τ) → List (Text × RTy τ)} {w : Nat} {src : Option Nat} {t0 : Text → Option Text}
    (h0 : ∀ t c, t0 t = some c → Complete c) {pre post : List (Item τ γ ι ρ)} {it : Item τ γ ι ρ} {r : St τ γ ι ρ}
    (h : parse env ord w src t0 (pre ++ it :: post) = .ok r) (ho : it.ordinary) (hw : dropped w it.attrs = false) : ItemOk env (templates w t0 pre) it := by
  obtain ⟨t, h1, h2⟩ := addItems_split _ pre _ h
  have hs := addItems_says pre [] _ t (says_start env w t0 h0) h1
  rw [List.nil_append] at hs
  obtain ⟨u, hu, _⟩ := bind_ok.1 h2
  have := (ordinary_ok env ord w src hs.complete it ho).1 ⟨u, hu⟩ hw
  rwa [funext hs.traits] at this

/-- A rule between two types is what a search between them finds. -/
theorem direct_found {κ : Type} {tm : TM τ κ} (h : TMap.Ok tm) (P : PopFn) {x y : Text} {c : κ} (hr : HasRule tm x y c) (hne : x ≠ y) :
    ∃ i j k, tm.names x = some i ∧ tm.names y = some j ∧ findPath P tm.g i j = PathRes.ok [k] ∧ tm.g.edges[k]? = some ⟨i, j, c⟩ := by
  obtain ⟨i, j, hi, hj, e, he, hs, hd, hw⟩ := hr
  obtain ⟨k, hk⟩ := List.mem_iff_getElem?.1 he
  have hp : IsPath tm.g i j [k] := ⟨e, hk, hs, hd⟩
  have hl := h.lt hi
  obtain ⟨p, hf⟩ := C10_complete P tm.g i j [k] h.wf hl hp
  have hlen := C10_shortest P tm.g i j p [k] h.wf hl hf hp
  have hpath := C10_sound P tm.g i j p h.wf hl hf
  have hij : i ≠ j := by
    intro e
    subst e
    obtain ⟨r, hr, rfl⟩ := h.valid x i hi
    obtain ⟨q, hq, rfl⟩ := h.valid y i hj
    rw [hr] at hq
    cases hq
    exact hne rfl
  match p, hlen, hpath with
  | [], _, hpath => exact absurd hpath hij
  | [k'], _, ⟨d, hd1, hd2, hd3⟩ =>
    have : k' = k := h.simple k' k d e hd1 hk (hd2.trans hs.symm) ((show d.dst = j from hd3).trans hd.symm)
    subst this
    refine ⟨i, j, k', hi, hj, hf, ?_⟩
    rw [hk]
    obtain ⟨a, b, w⟩ := e
    cases hs; cases hd; cases hw
    rfl
  | _ :: _ :: l, hlen, _ => simp at hlen

/-! ## C58: items as they are written -/

/-- The last conversion a file gives between two different types is what is used between them: the search finds it alone, never a longer chain. -/
theorem C58_last_conversion_used (env : Env τ γ ι) (ord : List (Text × RTy τ) → List (Text × RTy τ)) (w : Nat) (src : Option Nat) (t0 : Text → Option Text)
    (h0 : ∀ t c, t0 t = some c → Complete c) (items : List (Item τ γ ι ρ)) (r : St τ γ ι ρ) (h : parse env ord w src t0 items = .ok r) (x y : Text)
    (c : EdgeW ι) (hne : x ≠ y) (P : PopFn)
    (hc : (((withPrefix [] items).flatMap fun p => concreteOf env w (templates w t0 p.1) p.2).reverse.find? fun e => e.1 = x ∧ e.2.1 = y).map
      (fun e => e.2.2) = some c) :
    ∃ i j k, r.m.tm.names x = some i ∧ r.m.tm.names y = some j ∧ findPath P r.m.tm.g i j = PathRes.ok [k] ∧ r.m.tm.g.edges[k]? = some ⟨i, j, c⟩ :=
  direct_found (C58_content env ord w src t0 h0 items r h).inv.1 P ((C58_last_conversion env ord w src t0 h0 items r h x y c).2 hc) hne

/-- `#[name = "v"]` gives the value `v` to a known attribute if and only if the name is written as one plain word. -/
theorem C58_source_attributes (attrs : List (SAttr τ)) (k : Key) (v : Text) :
    v ∈ given (attrs.map SAttr.toAttr) k ↔ ∃ a ∈ attrs, a.path = plainPath k.name ∧ a.value = some v := by
  unfold given
  rw [List.mem_filterMap]
  constructor
  · intro ⟨b, hb, hv⟩
    obtain ⟨a, ha, rfl⟩ := List.mem_map.1 hb
    cases hx : a.toAttr with
    | cfg ms => rw [hx] at hv; cases hv
    | other => rw [hx] at hv; cases hv
    | swig j u =>
      rw [hx] at hv
      cases u with
      | none => cases hv
      | some u =>
        simp only at hv
        by_cases hj : j = k
        · rw [if_pos hj] at hv
          injection hv with hv
          subst hj hv
          exact ⟨a, ha, (toAttr_swig a _ _).1 hx⟩
        · rw [if_neg hj] at hv; cases hv
  · intro ⟨a, ha, hp, hv⟩
    refine ⟨a.toAttr, List.mem_map.2 ⟨a, ha, rfl⟩, ?_⟩
    rw [(toAttr_swig a k (some v)).2 ⟨hp, hv⟩]
    simp

/-- Code that is copied keeps its attributes, in order, except those whose name starts with `swig_`: each of these becomes an empty doc comment, and so none of the
known attributes is left. -/
theorem C58_source_strip (a : SAttr τ) :
    ((∃ n args l, a.path = ⟨false, ⟨"swig_".toList ++ n, args⟩ :: l⟩) → a.strip = ⟨plainPath "doc".toList, some [], none⟩) ∧
    ((¬ ∃ n args l, a.path = ⟨false, ⟨"swig_".toList ++ n, args⟩ :: l⟩) → a.strip = a) ∧ ∀ k v, a.strip.toAttr ≠ .swig k v := by
  obtain ⟨⟨lead, segs⟩, val, metas⟩ := a
  have doc : ∀ k v, (⟨plainPath "doc".toList, some [], none⟩ : SAttr τ).toAttr ≠ .swig k v := by
    intro k v h
    have hp := ((toAttr_swig _ _ _).1 h).1
    injection hp with _ h1
    injection h1 with h2 _
    injection h2 with h3 _
    revert h3
    cases k <;> decide
  cases lead with
  | true =>
    refine ⟨fun ⟨n, args, l, h⟩ => by (injection h with h1 _; cases h1), fun _ => rfl, fun k v h => ?_⟩
    have hp := ((toAttr_swig _ _ _).1 h).1
    injection hp with h1 _
    cases h1
  | false =>
    cases segs with
    | nil =>
      refine ⟨fun ⟨n, args, l, h⟩ => by (injection h with _ h1; cases h1), fun _ => rfl, fun k v h => ?_⟩
      have hp := ((toAttr_swig _ _ _).1 h).1
      injection hp with _ h1
      cases h1
    | cons s l =>
      obtain ⟨i, args⟩ := s
      have iff : "swig_".toList.isPrefixOf i = true ↔ ∃ n, i = "swig_".toList ++ n := by
        rw [List.isPrefixOf_iff_prefix]
        exact ⟨fun ⟨n, h⟩ => ⟨n, h.symm⟩, fun ⟨n, h⟩ => ⟨n, h.symm⟩⟩
      by_cases hc : "swig_".toList.isPrefixOf i = true
      · have e : (⟨⟨false, ⟨i, args⟩ :: l⟩, val, metas⟩ : SAttr τ).strip = ⟨plainPath "doc".toList, some [], none⟩ := by
          show (if "swig_".toList.isPrefixOf i = true then _ else _) = _
          rw [if_pos hc]; rfl
        refine ⟨fun _ => e, fun h => absurd ?_ h, fun k v h => doc k v (e ▸ h)⟩
        obtain ⟨n, hn⟩ := iff.1 hc
        exact ⟨n, args, l, by rw [hn]⟩
      · have e : (⟨⟨false, ⟨i, args⟩ :: l⟩, val, metas⟩ : SAttr τ).strip = ⟨⟨false, ⟨i, args⟩ :: l⟩, val, metas⟩ := by
          show (if "swig_".toList.isPrefixOf i = true then _ else _) = _
          rw [if_neg hc]
        refine ⟨fun ⟨n, args', l', h⟩ => absurd (iff.2 ⟨n, ?_⟩) hc, fun _ => e, fun k v h => ?_⟩
        · injection h with _ h1
          injection h1 with h2 _
          injection h2
        · rw [e] at h
          have hp := ((toAttr_swig _ _ _).1 h).1
          injection hp with _ h1
          injection h1 with h2 _
          injection h2 with h3 _
          refine hc (iff.2 ?_)
          rw [h3]
          cases k
          · exact ⟨"to_foreigner_hint".toList, by decide⟩
          · exact ⟨"from_foreigner_hint".toList, by decide⟩
          · exact ⟨"code".toList, by decide⟩
          · exact ⟨"generic_arg".toList, by decide⟩
          · exact ⟨"from".toList, by decide⟩
          · exact ⟨"to".toList, by decide⟩

/-- Finding: a misspelt known attribute, say `#[swig_to_foreign_hint = ".."]`, is no error: it is as if it were not there, and it is removed from the code. -/
theorem C58_finding_misspelt (n : Text) (val : Option Text) (metas : Option (List (TPath τ × CfgRest))) (hn : ∀ k : Key, "swig_".toList ++ n ≠ k.name) :
    (⟨plainPath ("swig_".toList ++ n), val, metas⟩ : SAttr τ).toAttr = .other ∧
    (⟨plainPath ("swig_".toList ++ n), val, metas⟩ : SAttr τ).strip = ⟨plainPath "doc".toList, some [], none⟩ := by
  refine ⟨?_, (C58_source_strip _).1 ⟨n, .none, [], rfl⟩⟩
  unfold SAttr.toAttr
  rw [if_neg]
  · have : keys.find? (fun k => (plainPath ("swig_".toList ++ n) : TPath τ).isIdent k.name) = none := by
      rw [List.find?_eq_none]
      intro k _ h
      have := (isIdent_iff _ _).1 h
      injection this with _ h1
      injection h1 with h2 _
      injection h2 with h3 _
      exact hn k h3
    show (match keys.find? (fun k => (plainPath ("swig_".toList ++ n) : TPath τ).isIdent k.name) with | some k => Attr.swig k val | none => .other) = _
    rw [this]
  · intro h
    have := (isIdent_iff _ _).1 h
    injection this with _ h1
    injection h1 with h2 _
    injection h2 with h3 _
    cases h3

/-- A text is read as a number exactly if it is its decimal digits, perhaps after a `+`. -/
theorem parseUsize_iff (t : Text) (n : Nat) : parseUsize t = some n ↔ ∃ u, Numeral u ∧ denotes u < 2 ^ 64 ∧ (t = u ∨ t = '+' :: u) ∧ denotes u = n := by
  obtain ⟨-, h1, h2⟩ := Config.C92_width (some t)
  have value : ∀ u, Numeral u → denotes u < 2 ^ 64 → (t = u ∨ t = '+' :: u) → parseUsize t = some (denotes u) := by
    intro u hu hl e
    have h := h1 u hu hl
    have inj : ∀ x : Text, Config.widthFromEnv (some x) = some (some (denotes u)) → parseUsize x = some (denotes u) := by
      intro x hx
      have hx : (parseUsize x).map some = some (some (denotes u)) := hx
      cases hp : parseUsize x with
      | none => rw [hp] at hx; cases hx
      | some k => rw [hp] at hx; injection hx
    rcases e with e | e <;> rw [e]
    · exact inj _ h.1
    · exact inj _ h.2
  constructor
  · intro h
    apply Classical.byContradiction
    intro hn
    by_cases he : ∃ u, Numeral u ∧ denotes u < 2 ^ 64 ∧ (t = u ∨ t = '+' :: u)
    · obtain ⟨u, hu, hl, e⟩ := he
      have := value u hu hl e
      rw [h] at this
      injection this with this
      exact hn ⟨u, hu, hl, e, this.symm⟩
    · have : (parseUsize t).map some = none := h2.2 ⟨t, rfl, he⟩
      rw [h] at this
      cases this
  · intro ⟨u, hu, hl, e, en⟩
    rw [← en]
    exact value u hu hl e

/-- The condition as the reader takes it. -/
def metaOf (x : Option (TPath τ × CfgRest)) : CfgMeta :=
  match x with
  | some e => cfgMeta e.1 e.2
  | none => .bad

theorem conditions_entries {as : List (SAttr τ)} {r : List (Option (TPath τ × CfgRest))} (h : Conditions as r) :
    cfgEntries (as.map SAttr.toAttr) = r.map metaOf := by
  induction h with
  | nil => rfl
  | list val l as r _ ih =>
    rw [List.map_cons, List.map_append, List.map_map, ← ih]
    have e : (⟨plainPath "cfg".toList, val, some l⟩ : SAttr τ).toAttr = .cfg (l.map fun e => cfgMeta e.1 e.2) := by
      unfold SAttr.toAttr
      rw [if_pos ((isIdent_iff _ _).2 rfl)]
    rw [e]
    exact List.flatMap_cons
  | bare val as r _ ih =>
    rw [List.map_cons, List.map_cons, ← ih]
    have e : (⟨plainPath "cfg".toList, val, none⟩ : SAttr τ).toAttr = .cfg [.bad] := by
      unfold SAttr.toAttr
      rw [if_pos ((isIdent_iff _ _).2 rfl)]
    rw [e]
    exact List.flatMap_cons
  | other a as r ha _ ih =>
    rw [List.map_cons, ← ih]
    unfold SAttr.toAttr
    rw [if_neg (fun hc => ha ((isIdent_iff _ _).1 hc))]
    split <;> exact List.flatMap_cons

theorem readable_iff (x : Option (TPath τ × CfgRest)) : Readable x ↔ metaOf x ≠ .bad := by
  constructor
  · intro h
    cases h with
    | width v =>
      show cfgMeta (plainPath "target_pointer_width".toList) (.eqStr v) ≠ _
      unfold cfgMeta
      rw [if_pos ((isIdent_iff _ _).2 rfl)]
      intro h; cases h
    | word p hp =>
      show cfgMeta p .nothing ≠ _
      unfold cfgMeta
      rw [if_neg (fun hc => hp ((isIdent_iff _ _).1 hc))]
      intro h; cases h
  · intro h
    match x with
    | none => exact absurd rfl h
    | some (p, rest) =>
      have h : cfgMeta p rest ≠ .bad := h
      unfold cfgMeta at h
      by_cases hp : p.isIdent "target_pointer_width".toList = true
      · rw [if_pos hp] at h
        rw [(isIdent_iff _ _).1 hp]
        cases rest with
        | eqStr v => exact .width v
        | _ => exact absurd rfl h
      · rw [if_neg hp] at h
        cases rest with
        | nothing => exact .word p (fun hc => hp ((isIdent_iff _ _).2 hc))
        | _ => exact absurd rfl h

theorem states_iff (x : Option (TPath τ × CfgRest)) (n : Nat) : States x n ↔ widthOf (metaOf x) = some n := by
  constructor
  · intro h
    cases h with
    | mk v u hu hl e =>
      show widthOf (cfgMeta (plainPath "target_pointer_width".toList) (.eqStr v)) = _
      unfold cfgMeta
      rw [if_pos ((isIdent_iff _ _).2 rfl)]
      exact (parseUsize_iff v _).2 ⟨u, hu, hl, e, rfl⟩
  · intro h
    match x with
    | none => cases h
    | some (p, rest) =>
      have h : widthOf (cfgMeta p rest) = some n := h
      unfold cfgMeta at h
      by_cases hp : p.isIdent "target_pointer_width".toList = true
      · rw [if_pos hp] at h
        rw [(isIdent_iff _ _).1 hp]
        cases rest with
        | eqStr v =>
          obtain ⟨u, hu, hl, e, en⟩ := (parseUsize_iff v n).1 h
          rw [← en]
          exact .mk v u hu hl e
        | _ => cases h
      · rw [if_neg hp] at h
        cases rest <;> cases h

theorem lastRead_none {α : Type} (good : α → Bool) (f : α → Option Nat) (hf : ∀ x n, f x = some n → good x = true) (l : List α) :
    (l.takeWhile good).filterMap f = [] ↔ ∀ pre y post m, l = pre ++ y :: post → (∀ z ∈ pre, good z = true) → f y ≠ some m := by
  induction l with
  | nil => exact ⟨fun _ pre y post m h => (by cases pre <;> cases h), fun _ => rfl⟩
  | cons a t ih =>
    by_cases ha : good a = true
    · rw [List.takeWhile_cons, if_pos ha]
      cases hfa : f a with
      | none =>
        rw [List.filterMap_cons_none hfa, ih]
        constructor
        · intro h pre y post m e hp
          cases pre with
          | nil => injection e with e _; rw [← e, hfa]; intro h; cases h
          | cons b pre => injection e with _ e; exact h pre y post m e fun z hz => hp z (List.mem_cons_of_mem _ hz)
        · intro h pre y post m e hp
          exact h (a :: pre) y post m (by rw [e]; rfl) fun z hz => (List.mem_cons.1 hz).elim (fun e => e ▸ ha) (hp z)
      | some k =>
        rw [List.filterMap_cons_some hfa]
        exact ⟨fun h => (by cases h), fun h => absurd hfa (h [] a t k rfl fun _ hz => (by cases hz))⟩
    · rw [List.takeWhile_cons, if_neg ha]
      refine ⟨fun _ pre y post m e hp hy => ?_, fun _ => rfl⟩
      cases pre with
      | nil => injection e with e _; exact ha (hf a m (by rw [e]; exact hy))
      | cons b pre => injection e with e _; exact ha (by rw [e]; exact hp b (List.mem_cons_self ..))

theorem lastRead_some {α : Type} (good : α → Bool) (f : α → Option Nat) (hf : ∀ x n, f x = some n → good x = true) (l : List α) (n : Nat) :
    ((l.takeWhile good).filterMap f).getLast? = some n ↔ ∃ pre x post, l = pre ++ x :: post ∧ (∀ z ∈ pre, good z = true) ∧ f x = some n ∧
      ∀ pre' y post' m, post = pre' ++ y :: post' → (∀ z ∈ pre', good z = true) → f y ≠ some m := by
  induction l with
  | nil => exact ⟨fun h => (by cases h), fun ⟨pre, x, post, h, _⟩ => (by cases pre <;> cases h)⟩
  | cons a t ih =>
    have shift : good a = true → (∃ pre x post, t = pre ++ x :: post ∧ (∀ z ∈ pre, good z = true) ∧ f x = some n ∧
        ∀ pre' y post' m, post = pre' ++ y :: post' → (∀ z ∈ pre', good z = true) → f y ≠ some m) →
        ∃ pre x post, a :: t = pre ++ x :: post ∧ (∀ z ∈ pre, good z = true) ∧ f x = some n ∧
        ∀ pre' y post' m, post = pre' ++ y :: post' → (∀ z ∈ pre', good z = true) → f y ≠ some m := by
      intro ha ⟨pre, x, post, e, hp, hx, hl⟩
      exact ⟨a :: pre, x, post, by rw [e]; rfl, fun z hz => (List.mem_cons.1 hz).elim (fun e => e ▸ ha) (hp z), hx, hl⟩
    by_cases ha : good a = true
    · rw [List.takeWhile_cons, if_pos ha]
      cases hfa : f a with
      | none =>
        rw [List.filterMap_cons_none hfa, ih]
        refine ⟨shift ha, ?_⟩
        intro ⟨pre, x, post, e, hp, hx, hl⟩
        cases pre with
        | nil => injection e with e _; rw [← e, hfa] at hx; cases hx
        | cons b pre => injection e with _ e; exact ⟨pre, x, post, e, fun z hz => hp z (List.mem_cons_of_mem _ hz), hx, hl⟩
      | some k =>
        rw [List.filterMap_cons_some hfa]
        cases hL : (t.takeWhile good).filterMap f with
        | nil =>
          have none := (lastRead_none good f hf t).1 hL
          constructor
          · intro h
            have h : some k = some n := h
            exact ⟨[], a, t, rfl, fun _ hz => (by cases hz), hfa.trans h, none⟩
          · intro ⟨pre, x, post, e, hp, hx, _⟩
            cases pre with
            | nil => injection e with e _; rw [← e, hfa] at hx; exact hx
            | cons b pre => injection e with _ e; exact absurd hx (none pre x post n e fun z hz => hp z (List.mem_cons_of_mem _ hz))
        | cons b L =>
          rw [List.getLast?_cons_cons, ← hL, ih]
          refine ⟨shift ha, ?_⟩
          intro ⟨pre, x, post, e, hp, hx, hl⟩
          cases pre with
          | nil =>
            injection e with _ e
            subst e
            rw [(lastRead_none good f hf t).2 hl] at hL
            cases hL
          | cons b pre => injection e with _ e; exact ⟨pre, x, post, e, fun z hz => hp z (List.mem_cons_of_mem _ hz), hx, hl⟩
    · rw [List.takeWhile_cons, if_neg ha]
      refine ⟨fun h => (by cases h), ?_⟩
      intro ⟨pre, x, post, e, hp, hx, _⟩
      cases pre with
      | nil => injection e with e _; exact absurd (hf x n hx) (e ▸ ha)
      | cons b pre => injection e with e _; exact absurd (hp b (List.mem_cons_self ..)) (e ▸ ha)

/-- An item is left out exactly if among its conditions, up to the first that cannot be read, the last that states a pointer width states another one; a width that is
no number states nothing. -/
theorem C58_source_conditions (w : Nat) (as : List (SAttr τ)) (r : List (Option (TPath τ × CfgRest))) (h : Conditions as r) :
    dropped w (as.map SAttr.toAttr) = true ↔ ∃ pre x post n, r = pre ++ x :: post ∧ (∀ y ∈ pre, Readable y) ∧ States x n ∧ n ≠ w ∧
      ∀ pre' y post' m, post = pre' ++ y :: post' → (∀ z ∈ pre', Readable z) → ¬ States y m := by
  have e : widths (as.map SAttr.toAttr) = (r.takeWhile fun x => decide (metaOf x ≠ .bad)).filterMap fun x => widthOf (metaOf x) := by
    unfold widths
    rw [conditions_entries h, List.takeWhile_map, List.filterMap_map]
    rfl
  have last := lastRead_some (fun x : Option (TPath τ × CfgRest) => decide (metaOf x ≠ .bad)) (fun x => widthOf (metaOf x))
    (fun x n hx => decide_eq_true (fun hb => by rw [hb] at hx; cases hx)) r
  simp only [decide_eq_true_eq, ← readable_iff, ne_eq, ← states_iff] at last
  have d : dropped w (as.map SAttr.toAttr) = true ↔ ∃ n, (widths (as.map SAttr.toAttr)).getLast? = some n ∧ n ≠ w := by
    unfold dropped
    cases (widths (as.map SAttr.toAttr)).getLast? with
    | none => exact ⟨fun h => (by cases h), fun ⟨n, h, _⟩ => (by cases h)⟩
    | some n =>
      constructor
      · intro h; exact ⟨n, rfl, by simpa using h⟩
      · intro ⟨m, hm, hw⟩; injection hm with hm; subst hm; simpa using hw
  rw [d, e]
  constructor
  · intro ⟨n, hn, hw⟩
    obtain ⟨pre, x, post, e1, e2, e3, e4⟩ := (last n).1 hn
    exact ⟨pre, x, post, n, e1, e2, e3, hw, e4⟩
  · intro ⟨pre, x, post, n, e1, e2, e3, hw, e4⟩
    exact ⟨n, (last n).2 ⟨pre, x, post, e1, e2, e3, e4⟩, hw⟩

/-- An item with the attribute `#[cfg(target_pointer_width = "v")]`, `v` a number, and no other `cfg` is left out exactly if the width is another one. -/
theorem C58_source_width (w n : Nat) (v : Text) (val : Option Text) (a b : List (SAttr τ)) (hv : parseUsize v = some n)
    (ha : ∀ x ∈ a ++ b, x.path ≠ plainPath "cfg".toList) :
    dropped w ((a ++ ⟨plainPath "cfg".toList, val, some [(plainPath "target_pointer_width".toList, .eqStr v)]⟩ :: b).map SAttr.toAttr) = (n != w) := by
  have other : ∀ x : SAttr τ, x.path ≠ plainPath "cfg".toList → ∀ ms, x.toAttr ≠ .cfg ms := by
    intro x hx ms h
    unfold SAttr.toAttr at h
    rw [if_neg (fun hc => hx ((isIdent_iff _ _).1 hc))] at h
    split at h <;> cases h
  have e : (⟨plainPath "cfg".toList, val, some [(plainPath "target_pointer_width".toList, .eqStr v)]⟩ : SAttr τ).toAttr = .cfg [.width (some n)] := by
    unfold SAttr.toAttr
    rw [if_pos ((isIdent_iff _ _).2 rfl)]
    show Attr.cfg [cfgMeta (plainPath "target_pointer_width".toList) (.eqStr v)] = _
    unfold cfgMeta
    rw [if_pos ((isIdent_iff _ _).2 rfl)]
    show Attr.cfg [.width (parseUsize v)] = _
    rw [hv]
  rw [List.map_append, List.map_cons, e]
  refine C58_width w n _ _ ?_ ?_ <;> intro ms hm <;> obtain ⟨x, hx, hxe⟩ := List.mem_map.1 hm
  · exact other x (ha x (List.mem_append_left _ hx)) ms hxe
  · exact other x (ha x (List.mem_append_right _ hx)) ms hxe

/-- Finding: conditions are not read inside `all(..)`, and a `cfg` in which anything but a plain word stands before the width is ignored from there on:
`#[cfg(all(target_pointer_width = "32"))]` and `#[cfg(unix = "..", target_pointer_width = "32")]` leave nothing out. -/
theorem C58_finding_nested_cfg (w : Nat) (p : TPath τ) (rest : CfgRest) (l : List (TPath τ × CfgRest)) (val : Option Text) (a : List (SAttr τ))
    (hp : p ≠ plainPath "target_pointer_width".toList) (hr : rest ≠ .nothing) :
    dropped w ((⟨plainPath "cfg".toList, val, some ((p, rest) :: l)⟩ :: a).map SAttr.toAttr) = false := by
  have e : (⟨plainPath "cfg".toList, val, some ((p, rest) :: l)⟩ : SAttr τ).toAttr = .cfg (.bad :: l.map fun e => cfgMeta e.1 e.2) := by
    unfold SAttr.toAttr
    rw [if_pos ((isIdent_iff _ _).2 rfl)]
    show Attr.cfg (cfgMeta p rest :: _) = _
    have : cfgMeta p rest = .bad := by
      unfold cfgMeta
      rw [if_neg (fun hc => hp ((isIdent_iff _ _).1 hc))]
      cases rest <;> first | rfl | exact absurd rfl hr
    rw [this]
  rw [List.map_cons, e]
  exact C58_finding_not w _ _

/-- The attributes of the module of foreign types are told apart by their names, each one plain word. -/
theorem C58_source_types (a : SAttr τ) (v : Option Text) :
    (a.toModAttr = .foreign v ↔ a.path = plainPath "swig_foreigner_type".toList ∧ a.value = v) ∧
    (a.toModAttr = .rust v ↔ a.path = plainPath "swig_rust_type".toList ∧ a.value = v) ∧
    (a.toModAttr = .rustNotUnique v ↔ a.path = plainPath "swig_rust_type_not_unique".toList ∧ a.value = v) := by
  have inj : ∀ {m n : Text}, (plainPath m : TPath τ) = plainPath n → m = n := by
    intro m n h
    injection h with _ h1
    injection h1 with h2 _
    injection h2
  have e1 := isIdent_iff a.path "swig_foreigner_type".toList
  have e2 := isIdent_iff a.path "swig_rust_type".toList
  have e3 := isIdent_iff a.path "swig_rust_type_not_unique".toList
  have n12 : "swig_foreigner_type".toList ≠ "swig_rust_type".toList := by decide
  have n13 : "swig_foreigner_type".toList ≠ "swig_rust_type_not_unique".toList := by decide
  have n23 : "swig_rust_type".toList ≠ "swig_rust_type_not_unique".toList := by decide
  unfold SAttr.toModAttr
  generalize "swig_foreigner_type".toList = x at *
  generalize "swig_rust_type".toList = y at *
  generalize "swig_rust_type_not_unique".toList = z at *
  by_cases h1 : a.path = plainPath x
  · rw [if_pos (e1.2 h1), h1]
    simp only [ModAttr.foreign.injEq, true_and, reduceCtorEq, false_iff, not_and]
    exact ⟨fun h => absurd (inj h) n12, fun h => absurd (inj h) n13⟩
  · rw [if_neg (fun h => h1 (e1.1 h))]
    by_cases h2 : a.path = plainPath y
    · rw [if_pos (e2.2 h2), h2]
      simp only [ModAttr.rust.injEq, true_and, reduceCtorEq, false_iff, not_and]
      exact ⟨fun h => absurd (inj h).symm n12, fun h => absurd (inj h) n23⟩
    · rw [if_neg (fun h => h2 (e2.1 h))]
      by_cases h3 : a.path = plainPath z
      · rw [if_pos (e3.2 h3), h3]
        simp only [ModAttr.rustNotUnique.injEq, true_and, and_true, reduceCtorEq, false_iff, not_and]
        exact ⟨fun h => absurd (inj h).symm n13, fun h => absurd (inj h).symm n23⟩
      · rw [if_neg (fun h => h3 (e3.1 h))]
        simp [h1, h2, h3]

/-- Modules, macros and everything else: the module `swig_foreign_types_map` and the macro `foreign_typemap!` are special, the latter only if written without a path;
everything else is copied; other macros and traits depend on their attributes. -/
theorem C58_source_items (attrs : List (SAttr τ)) (name : Text) (p : TPath τ) (rule : Option (RuleInfo τ (EdgeW ι) × Option (GEdge τ γ ι) × ρ)) (item : ι) :
    (SItem.mod attrs name item : SItem τ γ ι ρ).toItem =
      (if name = "swig_foreign_types_map".toList then .typesMod (attrs.map SAttr.toModAttr) else .other item) ∧
    (p = plainPath "foreign_typemap".toList → (SItem.macro attrs p rule item : SItem τ γ ι ρ).toItem = .typemap (attrs.map SAttr.toAttr) rule) ∧
    (p ≠ plainPath "foreign_typemap".toList → (SItem.macro attrs p rule item : SItem τ γ ι ρ).toItem = .macro (attrs.map SAttr.toAttr) item) ∧
    (SItem.trait attrs name item : SItem τ γ ι ρ).toItem = .trait (attrs.map SAttr.toAttr) name item ∧
    (SItem.other item : SItem τ γ ι ρ).toItem = .other item := by
  refine ⟨rfl, fun h => if_pos ((isIdent_iff _ _).2 h), fun h => if_neg (fun hc => h ((isIdent_iff _ _).1 hc)), rfl, rfl⟩

/-- `impl SwigInto<t> for self` and `impl SwigFrom<self'> for t'` anywhere in a file that is read, without type parameters, for this pointer width and without hints:
there is a conversion from the one type to the other in the table. -/
theorem C58_source_conversion (env : Env τ γ ι) (ord : List (Text × RTy τ) → List (Text × RTy τ)) (w : Nat) (src : Option Nat) (t0 : Text → Option Text)
    (h0 : ∀ t c, t0 t = some c → Complete c) (pre post : List (SItem τ γ ι ρ)) (attrs : List (SAttr τ)) (into : Bool) (t self : τ) (g : γ) (item : ι)
    (r : St τ γ ι ρ) (h : parseSource env ord w src t0 (pre ++ .impl attrs (some (traitPath into t)) self g [] item :: post) = .ok r)
    (hw : dropped w (attrs.map SAttr.toAttr) = false)
    (hn : ∀ a ∈ attrs, a.path ≠ plainPath "swig_to_foreigner_hint".toList ∧ a.path ≠ plainPath "swig_from_foreigner_hint".toList) :
    ∃ c, HasRule r.m.tm (env.norm (if into then self else t)) (env.norm (if into then t else self)) c := by
  unfold parseSource at h
  rw [List.map_append, List.map_cons, toItem_traitPath] at h
  have noHint : ∀ k : Key, (k = .toHint ∨ k = .fromHint) → (given (attrs.map SAttr.toAttr) k).head? = none := by
    intro k hk
    cases hx : given (attrs.map SAttr.toAttr) k with
    | nil => rfl
    | cons v l =>
      obtain ⟨a, ha, hp, _⟩ := (C58_source_attributes attrs k v).1 (by rw [hx]; exact List.mem_cons_self ..)
      rcases hk with rfl | rfl
      · exact absurd hp (hn a ha).1
      · exact absurd hp (hn a ha).2
  let l := (withPrefix [] (pre.map SItem.toItem ++ .impl ⟨attrs.map SAttr.toAttr, into, some t, self, g, [], item⟩ :: post.map SItem.toItem)).flatMap
    fun p => concreteOf env w (templates w t0 p.1) p.2
  have key : ∃ e ∈ l, e.1 = env.norm (if into then self else t) ∧ e.2.1 = env.norm (if into then t else self) := by
    have hm := mem_withPrefix (Item.impl ⟨attrs.map SAttr.toAttr, into, some t, self, g, [], item⟩ : Item τ γ ι ρ) (post.map SItem.toItem) (pre.map SItem.toItem) []
    have hT : ∃ c, templates w t0 (pre.map SItem.toItem) (traitOf (⟨attrs.map SAttr.toAttr, into, some t, self, g, [], item⟩ : Impl τ γ ι)) = some c := by
      have := item_ok h0 h trivial hw
      exact Option.isSome_iff_exists.1 this.2.2.1
    obtain ⟨c, hc⟩ := hT
    refine ⟨(makeUniqueIfNeed (env.norm (if into then self else t)) none, makeUniqueIfNeed (env.norm (if into then t else self)) none, codeOf c,
      some (env.strip item)), List.mem_flatMap.2 ⟨_, hm, ?_⟩, ?_⟩
    · simp only [concreteOf, hw, List.nil_append]
      rw [hc]
      simp only [noHint .toHint (Or.inl rfl), noHint .fromHint (Or.inr rfl), ends]
      cases into <;> simp
    · exact ⟨rfl, rfl⟩
  obtain ⟨e, he, hx, hy⟩ := key
  cases hf : l.reverse.find? (fun e => e.1 = env.norm (if into then self else t) ∧ e.2.1 = env.norm (if into then t else self)) with
  | none =>
    have := List.find?_eq_none.1 hf e (List.mem_reverse.2 he)
    simp [hx, hy] at this
  | some d =>
    exact ⟨d.2.2, (C58_last_conversion env ord w src t0 h0 _ r h _ _ _).2 (congrArg (Option.map fun e => e.2.2) hf)⟩

/-- Finding: an implementation of `SwigInto` or `SwigFrom` whose trait is written with a path (`::SwigInto<T>`, `swig::SwigInto<T>`) is no conversion: it is copied
like any other code, with its attributes, whatever pointer width it is for. -/
theorem C58_finding_qualified_trait (env : Env τ γ ι) (ord : List (Text × RTy τ) → List (Text × RTy τ)) (w : Nat) (src : Option Nat) (s : St τ γ ι ρ)
    (attrs : List (SAttr τ)) (p : Option (TPath τ)) (self : τ) (g : γ) (ps : List Text) (item : ι) (h : ∀ q, p = some q → ¬ NamesConversion q) :
    addItem env ord w src s (SItem.impl attrs p self g ps item).toItem = .ok { s with utils := s.utils ++ [item] } := by
  cases p with
  | none => rfl
  | some q =>
    have hq := h q rfl
    have h1 : q.isIdentIgnoreParams intoName = false := by
      cases hc : q.isIdentIgnoreParams intoName with
      | false => rfl
      | true => obtain ⟨a, ha⟩ := (ignore_iff _ _).1 hc; exact absurd ⟨a, Or.inl ha⟩ hq
    have h2 : q.isIdentIgnoreParams fromName = false := by
      cases hc : q.isIdentIgnoreParams fromName with
      | false => rfl
      | true => obtain ⟨a, ha⟩ := (ignore_iff _ _).1 hc; exact absurd ⟨a, Or.inr ha⟩ hq
    show addItem env ord w src s (if (q.isIdentIgnoreParams intoName || q.isIdentIgnoreParams fromName) = true then _ else _) = _
    rw [h1, h2]
    rfl

/-- A file with an implementation of `SwigInto` or `SwigFrom` for this pointer width whose trait does not have exactly one argument, a type, is refused. -/
theorem C58_source_refused (env : Env τ γ ι) (ord : List (Text × RTy τ) → List (Text × RTy τ)) (w : Nat) (src : Option Nat) (t0 : Text → Option Text)
    (h0 : ∀ t c, t0 t = some c → Complete c) (pre post : List (SItem τ γ ι ρ)) (attrs : List (SAttr τ)) (p : TPath τ) (self : τ) (g : γ) (ps : List Text) (item : ι) (hp : NamesConversion p)
    (ha : ∀ into t, p ≠ traitPath into t) (hw : dropped w (attrs.map SAttr.toAttr) = false) (r : St τ γ ι ρ) :
    parseSource env ord w src t0 (pre ++ .impl attrs (some p) self g ps item :: post) ≠ .ok r := by
  intro h
  unfold parseSource at h
  rw [List.map_append, List.map_cons, toItem_named hp] at h
  have := (item_ok h0 h trivial hw).2.1
  obtain ⟨t, ht⟩ := Option.isSome_iff_exists.1 this
  change p.param = some t at ht
  obtain ⟨a, hp⟩ := hp
  have arg : ∀ n : Text, (⟨false, [⟨n, a⟩]⟩ : TPath τ).param = some t → a = .angle [.type t] := by
    intro n hn
    match a with
    | .none => cases hn
    | .paren => cases hn
    | .angle [] => cases hn
    | .angle [.type u] =>
      have : u = t := Option.some.inj hn
      rw [this]
    | .angle [.other] => cases hn
    | .angle (_ :: _ :: _) => simp [TPath.param] at hn
  rcases hp with rfl | rfl
  · exact ha true t (by rw [arg _ ht]; rfl)
  · exact ha false t (by rw [arg _ ht]; rfl)

/-- Finding: a hint must be the only known attribute of an implementation, so a generic one cannot have both hints (a generic conversion macro can). -/
theorem C58_finding_both_hints (env : Env τ γ ι) (ord : List (Text × RTy τ) → List (Text × RTy τ)) (w : Nat) (src : Option Nat) (t0 : Text → Option Text)
    (h0 : ∀ t c, t0 t = some c → Complete c) (pre post : List (SItem τ γ ι ρ)) (attrs : List (SAttr τ)) (p : TPath τ) (self : τ) (g : γ) (ps : List Text) (item : ι)
    (hp : NamesConversion p) (hw : dropped w (attrs.map SAttr.toAttr) = false) (r : St τ γ ι ρ)
    (ht : ∃ a ∈ attrs, ∃ v, a.path = plainPath "swig_to_foreigner_hint".toList ∧ a.value = some v)
    (hf : ∃ a ∈ attrs, ∃ v, a.path = plainPath "swig_from_foreigner_hint".toList ∧ a.value = some v) :
    parseSource env ord w src t0 (pre ++ .impl attrs (some p) self g ps item :: post) ≠ .ok r := by
  intro h
  unfold parseSource at h
  rw [List.map_append, List.map_cons, toItem_named hp] at h
  obtain ⟨a, ha, v, ht⟩ := ht
  obtain ⟨b, hb, u, hf⟩ := hf
  have h1 := (C58_source_attributes attrs .toHint v).2 ⟨a, ha, ht⟩
  have h2 := (C58_source_attributes attrs .fromHint u).2 ⟨b, hb, hf⟩
  rcases (item_ok h0 h trivial hw).2.2.2.1 with h3 | ⟨_, h3⟩
  · rw [show given (attrs.map SAttr.toAttr) .toHint = [] from h3] at h1
    cases h1
  · rw [show given (attrs.map SAttr.toAttr) .fromHint = [] from h3 .fromHint (by decide)] at h2
    cases h2

/-! ## Examples -/

/-- `#[swig_code = ..] trait SwigInto<T> {}`, `impl SwigInto<o> for A {}`, `impl m::SwigInto<o> for B {}`: the first is a conversion, the second is copied. -/
def exSource : List (SItem Text (List Text) Nat Unit) :=
  [.trait [⟨plainPath "swig_code".toList, some exTmpl, none⟩] "SwigInto".toList 0, .impl [] (some (traitPath true ['o'])) ['A'] [] [] 1,
   .impl [] (some ⟨false, [⟨['m'], .none⟩, ⟨"SwigInto".toList, .angle [.type ['o']]⟩]⟩) ['B'] [] [] 2]

example : (match parseSource exEnv id 64 none (fun _ => none) exSource with
    | .ok r => decide (r.utils = [100, 2]) && decide (r.m.tm.g.edges.map (fun e => (e.src, e.dst, e.w.2)) = [(0, 1, some 101)])
    | _ => false) = true := by decide +kernel

example : (fun (l : List Attr) => dropped 64 l) (([] : List (SAttr Text)).map SAttr.toAttr) = false := rfl

/-- The second trait of the example does not name a conversion; a trait without argument does. -/
example : ¬ NamesConversion (⟨false, [⟨['m'], .none⟩, ⟨"SwigInto".toList, .angle [.type ['o']]⟩]⟩ : TPath Text) := by
  rintro ⟨a, h | h⟩ <;> injection h with _ h1 <;> injection h1 with _ h2 <;> cases h2

example : parseUsize "64".toList = some 64 ∧ parseUsize "+32".toList = some 32 ∧ parseUsize "".toList = none ∧ parseUsize "+".toList = none ∧
    parseUsize "6 4".toList = none ∧ parseUsize "18446744073709551616".toList = none ∧ parseUsize "18446744073709551615".toList = some 18446744073709551615 := by
  decide +kernel

/-- `#[cfg(target_pointer_width = "32")]` with another attribute in front. -/
example : dropped 64 ((([⟨plainPath "doc".toList, some [], none⟩] : List (SAttr Text)) ++
    (⟨plainPath "cfg".toList, none, some [(plainPath "target_pointer_width".toList, .eqStr "32".toList)]⟩ : SAttr Text) :: []).map SAttr.toAttr) = true :=
  C58_source_width 64 32 "32".toList none [⟨plainPath "doc".toList, some [], none⟩] [] (by decide +kernel) (by
    intro x hx
    cases List.mem_singleton.1 hx
    intro h
    injection h with _ h1
    injection h1 with h2 _
    injection h2 with h3 _
    exact absurd h3 (by decide))

/-- `swig_to_foreign_hint` is misspelt. -/
example : ∀ k : Key, "swig_".toList ++ "to_foreign_hint".toList ≠ k.name := by intro k; cases k <;> decide

/-- Both hints: refused. -/
example : (match parseSource (ρ := Unit) exEnv id 64 none (fun _ => some exTmpl)
    [.impl [⟨plainPath "swig_to_foreigner_hint".toList, some ['T'], none⟩, ⟨plainPath "swig_from_foreigner_hint".toList, some ['T'], none⟩] (some (traitPath true ['o'])) ['A'] []
      [['T']] 1] with | .err => true | _ => false) = true := by decide +kernel

example : NamesConversion (plainPath "SwigFrom".toList : TPath Text) ∧ ∀ into t, (plainPath "SwigFrom".toList : TPath Text) ≠ traitPath into t :=
  ⟨⟨_, Or.inr rfl⟩, fun into t h => by
    injection h with _ h1
    injection h1 with h2 _
    injection h2 with _ h3
    cases h3⟩

/-- `#[cfg(unix, target_pointer_width = "+32")] #[cfg]`: the width counts, the second attribute ends the reading. -/
example : Conditions ([⟨plainPath "cfg".toList, none, some [(plainPath "unix".toList, .nothing), (plainPath "target_pointer_width".toList, .eqStr "+32".toList)]⟩,
      ⟨plainPath "cfg".toList, none, none⟩] : List (SAttr Text))
    [some (plainPath "unix".toList, .nothing), some (plainPath "target_pointer_width".toList, .eqStr "+32".toList), none] :=
  .list _ _ _ _ (.bare _ _ _ .nil)

example : States (some ((plainPath "target_pointer_width".toList : TPath Text), .eqStr "+32".toList)) 32 :=
  .mk _ "32".toList ⟨by decide, by decide⟩ (by decide) (Or.inr rfl)

end Flapi.ReadFile
