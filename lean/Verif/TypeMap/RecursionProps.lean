import Verif.TypeMap.Recursion
/-!
# Mapping a type ends (properties, C74)
-/
namespace Flapi.Recursion
open Flapi Flapi.Macro Flapi.Inst Flapi.Requests

variable {σ κ : Type}

/-! ## Specification -/

mutual
/-- Size of a type; constructors may be given different weights (`c`), references count 1. -/
def weight (c : Text → Nat) : PTy → Nat
  | .node h ks => c h + weights c ks
  | .ref _ e => 1 + weight c e
  | .mac _ _ => 2
def weights (c : Text → Nat) : PTys → Nat
  | .nil => 0
  | .cons h t => weight c h + weights c t
end

mutual
/-- A pattern with its parameters replaced. -/
def fill (m : Text → Option PTy) : PTy → PTy
  | .node h .nil => (m h).getD (.node h .nil)
  | .node h (.cons k ks) => .node h (fills m (.cons k ks))
  | .ref h e => .ref h (fill m e)
  | .mac i a => .mac i a
def fills (m : Text → Option PTy) : PTys → PTys
  | .nil => .nil
  | .cons h t => .cons (fill m h) (fills m t)
end

mutual
/-- The parameter `x` occurs in a pattern. -/
def Occurs (x : Text) : PTy → Prop
  | .node h .nil => h = x
  | .node _ (.cons k ks) => OccursIn x (.cons k ks)
  | .ref _ e => Occurs x e
  | .mac _ _ => False
def OccursIn (x : Text) : PTys → Prop
  | .nil => False
  | .cons h t => Occurs x h ∨ OccursIn x t
end

/-- The pattern is not a bare parameter or references to one: `Vec<T>`, `&[T]`, `(T1, T2)`, but not `T` or `&T`. -/
def Guarded : PTy → Prop
  | .node _ .nil => False
  | .node _ (.cons _ _) => True
  | .ref _ e => Guarded e
  | .mac _ _ => False

/-- A rule fits the type `t`: `t` is an instance of a guarded pattern, and every parameter with a value occurs in it. -/
def Fits (t : PTy) (params : Text → Option PTy) : Prop :=
  ∃ pat, Guarded pat ∧ fill params pat = t ∧ ∀ x v, params x = some v → Occurs x pat

/-- `D`: types whose foreign type is known without conversion code (or which have none); they are the leaves of the recursion. -/
def rank (c : Text → Nat) (D : PTy → Bool) (t : PTy) : Nat := if D t then 0 else weight c t

/-- The types of answers are not more complex than the types in question, below `k`. -/
def GoodBelow (c : Text → Nat) (D : PTy → Bool) (k : Nat) (O : Oracle σ) : Prop :=
  ∀ s t d i s', rank c D t < k → O s t d = (.ok i, s') → rank c D i.rt ≤ rank c D t

/-- What is asked of the rule set and the searches, all of it about single steps:
* generic rules are applied only to instances of guarded patterns, never to types of `D`;
* intermediate types are in `D`;
* the boundary type of a type is not more complex than the type itself;
* the identifiers made by `generic_alias!` are types without parameters;
* the fields of the C items of an instance are less complex than the type the rule is applied to. -/
structure Tame (S : Sys σ κ) (c : Text → Nat) (D : PTy → Bool) : Prop where
  heads : ∀ h, 2 ≤ c h
  ruleFits : ∀ s t d i params s', S.look s t d = (.rule i params, s') → D t = false ∧ Fits t params
  viaLook : ∀ s t d inner f s', S.look s t d = (.hit (.via inner f), s') → D t = false ∧ D inner = true ∧
    ∀ i j, f i = .ok j → rank c D j.rt ≤ rank c D t
  viaFinish : ∀ s t d inner f s', S.finish s t d = (.via inner f, s') → D inner = true ∧
    ∀ i j, f i = .ok j → rank c D j.rt ≤ rank c D t
  directLook : ∀ s t d i s', S.look s t d = (.hit (.direct i), s') → rank c D i.rt ≤ rank c D t
  directFinish : ∀ s t d i s', S.finish s t d = (.direct i, s') → rank c D i.rt ≤ rank c D t
  aliases : ∀ x ty, S.parse (escapeAsType x) = some ty → rank c D ty ≤ 3
  fields : ∀ s t d i params s1 r (O : Oracle σ) s2 hd items s3, S.look s t d = (.rule i params, s1) → S.rules[i]? = some r →
    GoodBelow c D (rank c D t) O →
    substToCItems (S.env params) S.parseC (S.backend O d) s2 r = .ok (some (hd, items), s3) →
    ∀ f ∈ S.fields items, rank c D f < rank c D t

/-! ## Instances are larger than the values of their parameters -/

mutual
theorem weight_ge (c : Text → Nat) (hc : ∀ h, 2 ≤ c h) : ∀ t, 2 ≤ weight c t
  | .node h ks => by rw [weight]; have := hc h; omega
  | .ref _ e => by rw [weight]; have := weight_ge c hc e; omega
  | .mac _ _ => by rw [weight]; omega
end

mutual
theorem occurs_le (c : Text → Nat) (m : Text → Option PTy) (x : Text) (v : PTy) (hv : m x = some v) :
    ∀ p, Occurs x p → weight c v ≤ weight c (fill m p)
  | .node h .nil, ho => by rw [Occurs] at ho; subst ho; rw [fill, hv]; exact Nat.le_refl _
  | .node h (.cons k ks), ho => by
    rw [Occurs] at ho
    have := occursIn_le c m x v hv _ ho
    rw [fill, weight]; omega
  | .ref h e, ho => by
    rw [Occurs] at ho
    have := occurs_le c m x v hv e ho
    rw [fill, weight]; omega
  | .mac _ _, ho => by rw [Occurs] at ho; exact ho.elim
theorem occursIn_le (c : Text → Nat) (m : Text → Option PTy) (x : Text) (v : PTy) (hv : m x = some v) :
    ∀ p, OccursIn x p → weight c v ≤ weights c (fills m p)
  | .nil, ho => by rw [OccursIn] at ho; exact ho.elim
  | .cons h t, ho => by
    rw [OccursIn] at ho
    rw [fills, weights]
    rcases ho with ho | ho
    · have := occurs_le c m x v hv h ho; omega
    · have := occursIn_le c m x v hv t ho; omega
end

theorem guarded_lt (c : Text → Nat) (hc : ∀ h, 2 ≤ c h) (m : Text → Option PTy) (x : Text) (v : PTy) (hv : m x = some v) :
    ∀ p, Guarded p → Occurs x p → 2 + weight c v ≤ weight c (fill m p)
  | .node _ .nil, hg, _ => hg.elim
  | .node h (.cons k ks), _, ho => by
    rw [Occurs] at ho
    have := occursIn_le c m x v hv _ ho
    have := hc h
    rw [fill, weight]; omega
  | .ref h e, hg, ho => by
    rw [Guarded] at hg
    rw [Occurs] at ho
    have := guarded_lt c hc m x v hv e hg ho
    rw [fill, weight]; omega
  | .mac _ _, hg, _ => hg.elim

theorem guarded_ge (c : Text → Nat) (hc : ∀ h, 2 ≤ c h) (m : Text → Option PTy) :
    ∀ p, Guarded p → 4 ≤ weight c (fill m p)
  | .node _ .nil, hg => hg.elim
  | .node h (.cons k ks), _ => by
    have := hc h
    have := weight_ge c hc (fill m k)
    rw [fill, weight, fills, weights]; omega
  | .ref h e, hg => by
    rw [Guarded] at hg
    have := guarded_ge c hc m e hg
    rw [fill, weight]; omega
  | .mac _ _, hg => hg.elim

theorem rank_le (c : Text → Nat) (D : PTy → Bool) (t : PTy) : rank c D t ≤ weight c t := by
  unfold rank; split <;> omega

/-- **C74 (what a rule may ask about is simpler).** Whatever type a rule names in a helper macro — a parameter or a reference
to one — is less complex than the type the rule is applied to, if the rule's pattern is guarded. -/
theorem C74_questions_simpler (c : Text → Nat) (hc : ∀ h, 2 ≤ c h) (D : PTy → Bool) (S : Sys σ κ) (t : PTy)
    (params : Text → Option PTy) (hD : D t = false) (hf : Fits t params) (p : Text) (q : PTy)
    (hq : findTypeParam (S.env params) p = .ok q) : rank c D q < rank c D t := by
  obtain ⟨pat, hg, he, hocc⟩ := hf
  have hk : rank c D t = weight c t := by unfold rank; rw [hD]; rfl
  rw [hk]
  refine Nat.lt_of_le_of_lt (rank_le c D q) ?_
  unfold findTypeParam at hq
  split at hq
  · rename_i v hv
    injection hq with hq; subst hq
    have := guarded_lt c hc params p v hv pat hg (hocc p v hv)
    rw [he] at this; omega
  · split at hq
    · rename_i h e hp
      split at hq
      · rename_i v hv
        injection hq with hq; subst hq
        have := guarded_lt c hc params _ v hv pat hg (hocc _ v hv)
        rw [he] at this
        rw [weight]; omega
      · cases hq
    · cases hq

/-! ## An instantiation depends only on the answers to its questions -/

/-- Two back ends give the same answers to questions about types in `Q`, and their boundary types are in `Q` again. -/
structure AgreeOn (Q : PTy → Prop) (B B' : Backend σ) : Prop where
  iType : ∀ s t o, Q t → B.iType s t o = B'.iType s t o
  fType : ∀ s t o, Q t → B.fType s t o = B'.fType s t o
  rustToI : ∀ s t x y, Q t → B.rustToI s t x y = B'.rustToI s t x y
  iToRust : ∀ s t x y, Q t → B.iToRust s t x y = B'.iToRust s t x y
  foreignToI : ∀ s t x, Q t → B.foreignToI s t x = B'.foreignToI s t x
  foreignFromI : ∀ s t x, Q t → B.foreignFromI s t x = B'.foreignFromI s t x
  closed : ∀ s t o t' s', Q t → B.iType s t o = (.ok t', s') → Q t'

section congr
variable {Q : PTy → Prop} {B B' : Backend σ} (hA : AgreeOn Q B B') {env : Inst.Env}
  (hQ : ∀ p q, findTypeParam env p = .ok q → Q q)
include hA hQ

theorem rustExp_congr (al : List Alias) : rustExp env B al = rustExp env B' al := by
  funext s id ps
  unfold rustExp
  split
  · split
    · rename_i p x y
      cases h : findTypeParam env p with
      | error e => rfl
      | ok t =>
        simp only
        rw [hA.rustToI _ _ _ _ (hQ p t h), hA.iToRust _ _ _ _ (hQ p t h)]
    · rfl
  · split
    · cases oneOrTwo ps with
      | error e => rfl
      | ok po =>
        obtain ⟨p, o⟩ := po
        simp only
        cases h : findTypeParam env p with
        | error e => rfl
        | ok t => simp only; rw [hA.iType _ _ _ (hQ p t h)]
    · rfl

theorem fTypeArg_Q (al : List Alias) (hal : ∀ a ∈ al, Q a.value) (p : Text) (t : PTy) (h : fTypeArg env al p = .ok t) : Q t := by
  unfold fTypeArg at h
  split at h
  · split at h
    · rename_i a ha
      injection h with h; subst h
      exact hal a (List.mem_of_find?_eq_some ha)
    · cases h
  · exact hQ p t h

theorem callFType_congr (al : List Alias) (hal : ∀ a ∈ al, Q a.value) : callFType env B al = callFType env B' al := by
  funext s ps
  unfold callFType
  cases oneOrTwo ps with
  | error e => rfl
  | ok po =>
    obtain ⟨p, o⟩ := po
    simp only
    cases h : fTypeArg env al p with
    | error e => rfl
    | ok t => simp only; rw [hA.fType _ _ _ (fTypeArg_Q hA hQ al hal p t h)]

theorem foreignExp_congr (al : List Alias) (hal : ∀ a ∈ al, Q a.value) : foreignExp env B al = foreignExp env B' al := by
  funext s id ps
  unfold foreignExp
  rw [callFType_congr hA hQ al hal]
  split
  · rfl
  · split
    · cases oneOrTwo ps with
      | error e => rfl
      | ok po =>
        obtain ⟨p, o⟩ := po
        simp only
        cases h : findTypeParam env p with
        | error e => rfl
        | ok t =>
          simp only
          have h1 := hQ p t h
          rw [← hA.iType _ _ _ h1]
          rcases hr : B.iType s t o with ⟨r, s'⟩
          cases r with
          | error e => rfl
          | ok t' =>
            simp only [ask]
            rw [hA.fType _ _ _ (hA.closed _ _ _ _ _ h1 hr)]
    · split
      · split
        · rename_i p x
          cases h : findTypeParam env p with
          | error e => rfl
          | ok t =>
            simp only
            rw [hA.foreignToI _ _ _ (hQ p t h), hA.foreignFromI _ _ _ (hQ p t h)]
        · rfl
      · rfl

theorem nameExp_congr (al : List Alias) (hal : ∀ a ∈ al, Q a.value) : nameExp env B al = nameExp env B' al := by
  funext s id ps
  unfold nameExp
  rw [callFType_congr hA hQ al hal]

theorem afterVisit_congr (al : List Alias) (t : PTy) (v : VState σ) : afterVisit env B al t v = afterVisit env B' al t v := by
  unfold afterVisit
  split
  · split
    · rename_i id arg _
      cases h : findTypeParam env arg with
      | error e => rfl
      | ok ty => simp only; rw [hA.iType _ _ _ (hQ arg ty h)]
    · rfl
  · rfl

mutual
theorem visit_congr (al : List Alias) : ∀ t v, visit env B al t v = visit env B' al t v
  | .node h ks, v => by
    rw [visit, visit]
    split
    · rfl
    · split
      · exact afterVisit_congr hA hQ al _ v
      · simp only; rw [visits_congr al ks v]
  | .ref h e, v => by
    rw [visit, visit]
    split
    · rfl
    · split
      · exact afterVisit_congr hA hQ al _ v
      · simp only; rw [visit_congr al e v]
  | .mac id arg, v => by
    rw [visit, visit]
    split
    · rfl
    · split <;> exact afterVisit_congr hA hQ al _ v
theorem visits_congr (al : List Alias) : ∀ ts v, visits env B al ts v = visits env B' al ts v
  | .nil, v => rfl
  | .cons h t, v => by
    rw [visits, visits]
    rw [visit_congr al h v, visits_congr al t _]
end

theorem expandType_congr (al : List Alias) : expandType env B al = expandType env B' al := by
  funext s t
  unfold expandType
  rw [visit_congr hA hQ al]

mutual
theorem concatIdents_congr : ∀ it s, concatIdents env B it s = concatIdents env B' it s
  | .concat items, s => by rw [concatIdents, concatIdents]; exact concatAll_congr items s
  | .ident id, (s, m, t) => rfl
  | .iType id arg, (s, m, t) => by
    rw [concatIdents, concatIdents]
    cases h : findTypeParam env id with
    | error e => rfl
    | ok ty => simp only; rw [hA.iType _ _ _ (hQ id ty h)]
  | .fType id, (s, m, t) => by
    rw [concatIdents, concatIdents]
    cases h : findTypeParam env id with
    | error e => rfl
    | ok ty => simp only; rw [hA.fType _ _ _ (hQ id ty h)]
theorem concatAll_congr : ∀ is s, concatAll env B is s = concatAll env B' is s
  | [], s => rfl
  | i :: is, s => by
    rw [concatAll, concatAll, concatIdents_congr i s]
    cases concatIdents env B' i s with
    | error e => rfl
    | ok s' => exact concatAll_congr is s'
end

theorem buildAliases_congr (l : List (Text × Option Item)) : ∀ s, buildAliases env B l s = buildAliases env B' l s := by
  induction l with
  | nil => intro s; rfl
  | cons x l ih =>
    intro s
    obtain ⟨n, it⟩ := x
    cases it with
    | none => rfl
    | some it =>
      rw [buildAliases, buildAliases, concatIdents_congr hA hQ it]
      cases concatIdents env B' it (s, [], []) with
      | error e => rfl
      | ok r =>
        obtain ⟨s', m, t⟩ := r
        simp only
        rw [ih]

end congr

theorem buildAliases_values {env : Inst.Env} {B : Backend σ} (P : PTy → Prop)
    (hP : ∀ x ty, env.parse (escapeAsType x) = some ty → P ty) : ∀ (l : List (Text × Option Item)) s al s',
    buildAliases env B l s = .ok (al, s') → ∀ a ∈ al, P a.value := by
  intro l
  induction l with
  | nil =>
    intro s al s' h a ha
    rw [buildAliases, Except.ok.injEq, Prod.mk.injEq] at h
    rw [← h.1] at ha; cases ha
  | cons x l ih =>
    intro s al s' h a ha
    obtain ⟨n, it⟩ := x
    cases it with
    | none => cases h
    | some it =>
      rw [buildAliases] at h
      split at h
      · cases h
      · rename_i s1 m t _
        split at h
        · cases h
        · rename_i ty hty
          split at h
          · cases h
          · rename_i l' s2 hl
            injection h with h
            injection h with h1 h2
            rw [← h1] at ha
            rcases List.mem_cons.1 ha with rfl | ha
            · exact hP _ _ hty
            · exact ih _ _ _ hl a ha

section congr2
variable {Q : PTy → Prop} {B B' : Backend σ} (hA : AgreeOn Q B B') {env : Inst.Env}
  (hQ : ∀ p q, findTypeParam env p = .ok q → Q q)
include hA hQ

theorem expandRRule_congr (al : List Alias) : expandRRule env B al = expandRRule env B' al := by
  funext s r
  have hc : expandCode env B al = expandCode env B' al := by
    funext s c
    cases c with
    | none => rfl
    | some c => unfold expandCode expandRustCode; rw [rustExp_congr hA hQ al]
  unfold expandRRule
  rw [hc, expandType_congr hA hQ al]

theorem expandFConv_congr (al : List Alias) (hal : ∀ a ∈ al, Q a.value) : expandFConv env B al = expandFConv env B' al := by
  funext s r
  have hn : expandName env B al = expandName env B' al := by
    funext s n; unfold expandName; rw [nameExp_congr hA hQ al hal]
  have hp : expandPair env B al = expandPair env B' al := by
    funext s p; cases p <;> (unfold expandPair; rw [hn])
  have hc : expandFConvCode env B al = expandFConvCode env B' al := by
    funext s c
    cases c with
    | none => rfl
    | some c => unfold expandFConvCode expandForeignCode; rw [foreignExp_congr hA hQ al hal]
  have hx : expandPrefix env B al = expandPrefix env B' al := by
    funext s p
    cases p with
    | none => rfl
    | some p => unfold expandPrefix; rw [hn]
  unfold expandFConv
  rw [hp, hc, hx]

theorem expandFConvs_congr (al : List Alias) (hal : ∀ a ∈ al, Q a.value) (l : List FConv) :
    ∀ s, expandFConvs env B al s l = expandFConvs env B' al s l := by
  induction l with
  | nil => intro s; rfl
  | cons r l ih =>
    intro s
    rw [expandFConvs, expandFConvs, expandFConv_congr hA hQ al hal]
    congr 1
    funext x
    obtain ⟨r', s'⟩ := x
    simp only
    rw [ih]

theorem expandFCode_congr (al : List Alias) (hal : ∀ a ∈ al, Q a.value) (l : List FCode) :
    ∀ s, expandFCode env B al s l = expandFCode env B' al s l := by
  induction l with
  | nil => intro s; rfl
  | cons c l ih =>
    intro s
    rw [expandFCode, expandFCode]
    congr 1
    funext m
    have : expandForeignCode env B al = expandForeignCode env B' al := by
      funext s c; unfold expandForeignCode; rw [foreignExp_congr hA hQ al hal]
    rw [this]
    congr 1
    funext x
    obtain ⟨t, s'⟩ := x
    simp only
    rw [ih]

theorem expandSide_congr (al : List Alias) (hal : ∀ a ∈ al, Q a.value) (w : Bool) (s : σ) (r : Option RRule) (f : List FConv) :
    expandSide env B al w s r f = expandSide env B' al w s r f := by
  unfold expandSide
  split
  · rw [expandRRule_congr hA hQ al]
    congr 1
    funext x
    obtain ⟨r', s'⟩ := x
    simp only
    rw [expandFConvs_congr hA hQ al hal]
  · rfl

theorem substGenericParams_congr (hP : ∀ x ty, env.parse (escapeAsType x) = some ty → Q ty) (d : Dir) (s : σ) (r : Rule κ) :
    substGenericParams env B d s r = substGenericParams env B' d s r := by
  unfold substGenericParams
  split
  · rfl
  · rw [buildAliases_congr hA hQ r.aliases s]
    cases hb : buildAliases env B' r.aliases s with
    | error e => rfl
    | ok x =>
      obtain ⟨al, s1⟩ := x
      have hal := buildAliases_values Q hP _ _ _ _ hb
      simp only [lift, andThen]
      rw [expandSide_congr hA hQ al hal]
      cases expandSide env B' al (decide (d = .outgoing) || r.isSimple) s1 r.rLR r.fLR with
      | ok y =>
        obtain ⟨lr, s2⟩ := y
        simp only
        rw [expandSide_congr hA hQ al hal]
        cases expandSide env B' al (decide (d = .incoming)) s2 r.rRL r.fRL with
        | ok z =>
          obtain ⟨rl, s3⟩ := z
          simp only
          rw [expandFCode_congr hA hQ al hal]
        | _ => rfl
      | _ => rfl

theorem substToCItems_congr (parseC : Text → Option κ) (s : σ) (r : Rule κ) :
    substToCItems env parseC B s r = substToCItems env parseC B' s r := by
  unfold substToCItems
  split
  · rfl
  · rw [buildAliases_congr hA hQ r.aliases s]
    cases buildAliases env B' r.aliases s with
    | error e => rfl
    | ok x =>
      obtain ⟨al, s1⟩ := x
      simp only [lift, andThen]
      have : expandRustCode env B al = expandRustCode env B' al := by
        funext s c; unfold expandRustCode; rw [rustExp_congr hA hQ al]
      rw [this]

end congr2

/-! ## The recursion -/

/-- Two oracles give the same answers below `k`. -/
def AgreeBelow (c : Text → Nat) (D : PTy → Bool) (k : Nat) (O O' : Oracle σ) : Prop :=
  ∀ s t d, rank c D t < k → O s t d = O' s t d

theorem backend_agree (S : Sys σ κ) (c : Text → Nat) (D : PTy → Bool) (k : Nat) (O O' : Oracle σ)
    (h : AgreeBelow c D k O O') (hg : GoodBelow c D k O) (d : Dir) :
    AgreeOn (fun t => rank c D t < k) (S.backend O d) (S.backend O' d) := by
  unfold Sys.backend
  cases S.java with
  | true =>
    simp only [if_true]
    refine ⟨?_, ?_, ?_, ?_, ?_, ?_, ?_⟩
    · intro s t o ht; simp only [javaB]; rw [h s t d ht]
    · intro s t o ht; simp only [javaB]; rw [h s t d ht]
    · intro s t x y ht; simp only [javaB, rustToI]; rw [h s t _ ht]
    · intro s t x y ht; rfl
    · intro s t x ht; rfl
    · intro s t x ht; simp only [javaB]; rw [h s t _ ht]
    · intro s t o t' s' ht hi
      simp only [javaB] at hi
      rcases ho : O s t d with ⟨r, s1⟩
      rw [ho] at hi
      cases r with
      | error e => cases hi
      | ok i =>
        simp only [andAsk, Prod.mk.injEq, Except.ok.injEq] at hi
        rw [← hi.1]
        exact Nat.lt_of_le_of_lt (hg s t d i s1 ht ho) ht
  | false =>
    simp only [Bool.false_eq_true, if_false]
    refine ⟨?_, ?_, ?_, ?_, ?_, ?_, ?_⟩
    · intro s t o ht
      simp only [cppB]
      cases argDir d o with
      | error e => rfl
      | ok d' => simp only; rw [h s t d' ht]
    · intro s t o ht
      simp only [cppB]
      cases argDir d o with
      | error e => rfl
      | ok d' => simp only; rw [h s t d' ht]
    · intro s t x y ht; simp only [cppB, rustToI]; rw [h s t _ ht]
    · intro s t x y ht; simp only [cppB, iToRust]; rw [h s t _ ht]
    · intro s t x ht; simp only [cppB]; rw [h s t _ ht]
    · intro s t x ht; simp only [cppB]; rw [h s t _ ht]
    · intro s t o t' s' ht hi
      simp only [cppB] at hi
      cases hd : argDir d o with
      | error e => rw [hd] at hi; cases hi
      | ok d' =>
        rw [hd] at hi
        simp only at hi
        rcases ho : O s t d' with ⟨r, s1⟩
        rw [ho] at hi
        cases r with
        | error e => cases hi
        | ok i =>
          simp only [andAsk, Prod.mk.injEq, Except.ok.injEq] at hi
          rw [← hi.1]
          exact Nat.lt_of_le_of_lt (hg s t d' i s1 ht ho) ht

theorem askAll_congr (c : Text → Nat) (D : PTy → Bool) (k : Nat) (O O' : Oracle σ) (h : AgreeBelow c D k O O') :
    ∀ (ts : List PTy) s, (∀ t ∈ ts, rank c D t < k) → askAll O s ts = askAll O' s ts := by
  intro ts
  induction ts with
  | nil => intro s _; rfl
  | cons t ts ih =>
    intro s ht
    rw [askAll, askAll, h s t .incoming (ht t (by simp))]
    rcases O' s t .incoming with ⟨r, s'⟩
    cases r with
    | error e => rfl
    | ok i => simp only; rw [ih s' (fun x hx => ht x (by simp [hx]))]

theorem rank_pos (c : Text → Nat) (hc : ∀ h, 2 ≤ c h) (D : PTy → Bool) (t : PTy) (h : D t = false) : 2 ≤ rank c D t := by
  unfold rank; rw [h]; exact weight_ge c hc t

/-- **C74 (locality).** One step of the mapping of a type depends on the mappings of strictly simpler types only. -/
theorem C74_local (S : Sys σ κ) (c : Text → Nat) (D : PTy → Bool) (hS : Tame S c D) (O O' : Oracle σ) (t : PTy)
    (h : AgreeBelow c D (rank c D t) O O') (hg : GoodBelow c D (rank c D t) O) (s : σ) (d : Dir) :
    step S O s t d = step S O' s t d := by
  have hD0 : ∀ x, D x = true → rank c D x = 0 := by intro x hx; unfold rank; rw [hx]; rfl
  unfold step
  rcases hl : S.look s t d with ⟨lk, s1⟩
  cases lk with
  | hit hh =>
    cases hh with
    | direct i => rfl
    | fail => rfl
    | via inner f =>
      obtain ⟨a, b, _⟩ := hS.viaLook _ _ _ _ _ _ hl
      have := rank_pos c hS.heads D t a
      simp only [follow]
      rw [h s1 inner d (by rw [hD0 inner b]; omega)]
  | rule i params =>
    simp only
    cases hr : S.rules[i]? with
    | none => rfl
    | some r =>
      simp only
      obtain ⟨hDt, hfit⟩ := hS.ruleFits _ _ _ _ _ _ hl
      have hpos := rank_pos c hS.heads D t hDt
      have hbig : 4 ≤ rank c D t := by
        obtain ⟨pat, hgd, he, _⟩ := hfit
        have := guarded_ge c hS.heads params pat hgd
        rw [he] at this
        unfold rank; rw [hDt]; exact this
      have hQ : ∀ p q, findTypeParam (S.env params) p = .ok q → rank c D q < rank c D t :=
        fun p q hq => C74_questions_simpler c hS.heads D S t params hDt hfit p q hq
      have hA := backend_agree S c D (rank c D t) O O' h hg d
      have hP : ∀ x ty, (S.env params).parse (escapeAsType x) = some ty → rank c D ty < rank c D t := by
        intro x ty hx
        have := hS.aliases x ty hx
        omega
      have hC : instC S O params d s1 r = instC S O' params d s1 r := by
        unfold instC
        split
        · rfl
        · rw [← substToCItems_congr hA hQ]
          cases hc : substToCItems (S.env params) S.parseC (S.backend O d) s1 r with
          | ok x =>
            obtain ⟨co, s2⟩ := x
            simp only
            cases co with
            | none => rfl
            | some cc =>
              obtain ⟨hd, items⟩ := cc
              have hf := hS.fields s t d i params s1 r O s1 hd items s2 hl hr hg hc
              unfold mergeC
              simp only
              rcases S.regC s2 (hd, items) with ⟨rr, s3⟩
              cases rr with
              | error e => rfl
              | ok _ =>
                simp only
                rw [askAll_congr c D _ O O' h _ _ hf]
          | _ => rfl
      have hI : inst S O params d s1 r = inst S O' params d s1 r := by
        unfold inst
        rw [hC]
        rcases instC S O' params d s1 r with ⟨rr, s2⟩
        cases rr with
        | error e => rfl
        | ok _ =>
          simp only
          rw [substGenericParams_congr hA hQ hP]
      rw [hI]
      rcases inst S O' params d s1 r with ⟨rr, s2⟩
      cases rr with
      | error e => rfl
      | ok _ =>
        simp only
        rcases hfin : S.finish s2 t d with ⟨hh, s3⟩
        cases hh with
        | direct i => rfl
        | fail => rfl
        | via inner f =>
          simp only [follow]
          rw [h s3 inner d (by rw [hD0 inner (hS.viaFinish _ _ _ _ _ _ hfin).1]; omega)]

theorem follow_good (c : Text → Nat) (D : PTy → Bool) (t : PTy) (O : Oracle σ) (s : σ) (d : Dir) (hh : Hit) (i : Info) (s' : σ)
    (hd : ∀ i, hh = .direct i → rank c D i.rt ≤ rank c D t)
    (hv : ∀ inner f, hh = .via inner f → ∀ i j, f i = .ok j → rank c D j.rt ≤ rank c D t)
    (h : follow O s d hh = (.ok i, s')) : rank c D i.rt ≤ rank c D t := by
  cases hh with
  | direct j =>
    simp only [follow, Prod.mk.injEq, Except.ok.injEq] at h
    rw [← h.1]; exact hd j rfl
  | fail => cases h
  | via inner f =>
    simp only [follow] at h
    rcases ho : O s inner d with ⟨r, s1⟩
    rw [ho] at h
    cases r with
    | error e => cases h
    | ok j =>
      simp only [Prod.mk.injEq] at h
      exact hv inner f rfl j i h.1

/-- The boundary type of an answer is never more complex than the question. -/
theorem step_good (S : Sys σ κ) (c : Text → Nat) (D : PTy → Bool) (hS : Tame S c D) (O : Oracle σ) (s : σ) (t : PTy) (d : Dir)
    (i : Info) (s' : σ) (h : step S O s t d = (.ok i, s')) : rank c D i.rt ≤ rank c D t := by
  unfold step at h
  rcases hl : S.look s t d with ⟨lk, s1⟩
  rw [hl] at h
  cases lk with
  | hit hh =>
    refine follow_good c D t O s1 d hh i s' ?_ ?_ h
    · rintro j rfl; exact hS.directLook _ _ _ _ _ hl
    · rintro inner f rfl; exact (hS.viaLook _ _ _ _ _ _ hl).2.2
  | rule k params =>
    simp only at h
    cases hr : S.rules[k]? with
    | none => rw [hr] at h; cases h
    | some r =>
      rw [hr] at h
      simp only at h
      rcases hi : inst S O params d s1 r with ⟨rr, s2⟩
      rw [hi] at h
      cases rr with
      | error e => cases h
      | ok _ =>
        simp only at h
        refine follow_good c D t O _ d _ i s' ?_ ?_ h
        · intro j hj
          exact hS.directFinish s2 t d j _ (Prod.ext hj rfl)
        · intro inner f hj
          exact (hS.viaFinish s2 t d inner f _ (Prod.ext hj rfl)).2

theorem solve_good (S : Sys σ κ) (c : Text → Nat) (D : PTy → Bool) (hS : Tame S c D) (bot : Oracle σ) (n k : Nat) (hk : k ≤ n) :
    GoodBelow c D k (solve S bot n) := by
  intro s t d i s' ht h
  cases n with
  | zero => omega
  | succ n => exact step_good S c D hS _ s t d i s' h

theorem solve_agree (S : Sys σ κ) (c : Text → Nat) (D : PTy → Bool) (hS : Tame S c D) (bot bot' : Oracle σ) :
    ∀ (k n m : Nat), k ≤ n → k ≤ m → AgreeBelow c D k (solve S bot n) (solve S bot' m) := by
  intro k
  induction k with
  | zero => intro n m _ _ s t d ht; omega
  | succ k ih =>
    intro n m hn hm s t d ht
    cases n with
    | zero => omega
    | succ n =>
      cases m with
      | zero => omega
      | succ m =>
        rw [solve, solve]
        refine C74_local S c D hS _ _ t ?_ ?_ s d
        · intro s' t' d' ht'
          exact ih n m (by omega) (by omega) s' t' d' (by omega)
        · intro s' t' d' i s'' ht' h
          exact solve_good S c D hS bot n k (by omega) s' t' d' i s'' (by omega) h

/-- **C74 (mapping ends).** For a tame rule set the mapping of every type is settled after at most as many nested mappings as
the type is complex: unfolding the recursion further, or giving any other answers below, changes nothing. -/
theorem C74_ends (S : Sys σ κ) (c : Text → Nat) (D : PTy → Bool) (hS : Tame S c D) (bot bot' : Oracle σ) (t : PTy) (n m : Nat)
    (hn : rank c D t < n) (hm : rank c D t < m) (s : σ) (d : Dir) : solve S bot n s t d = solve S bot' m s t d :=
  solve_agree S c D hS bot bot' (rank c D t + 1) n m hn hm s t d (Nat.lt_succ_self _)

theorem solve_fixed (S : Sys σ κ) (F : Oracle σ) (hF : F = step S F) (n : Nat) : solve S F n = F := by
  induction n with
  | zero => rfl
  | succ n ih => rw [solve, ih, ← hF]

/-- **C74 (one mapping).** There is exactly one function that satisfies the recursive equation of `map_type`. -/
theorem C74_unique (S : Sys σ κ) (c : Text → Nat) (D : PTy → Bool) (hS : Tame S c D) :
    (∃ F : Oracle σ, F = step S F) ∧ ∀ F F' : Oracle σ, F = step S F → F' = step S F' → F = F' := by
  refine ⟨⟨fun s t d => solve S (fun s _ _ => (.error .backend, s)) (rank c D t + 1) s t d, ?_⟩, ?_⟩
  · funext s t d
    rw [solve]
    refine C74_local S c D hS _ _ t ?_ ?_ s d
    · intro s' t' d' ht'
      exact C74_ends S c D hS _ _ t' _ _ ht' (Nat.lt_succ_self _) s' d'
    · exact solve_good S c D hS _ _ _ (Nat.le_refl _)
  · intro F F' hF hF'
    funext s t d
    have := C74_ends S c D hS F F' t (rank c D t + 1) (rank c D t + 1) (Nat.lt_succ_self _) (Nat.lt_succ_self _) s d
    rw [solve_fixed S F hF, solve_fixed S F' hF'] at this
    exact this

/-- **C74 (shape of answers).** Whatever is answered for inner questions, the boundary type of a type is not more complex than the
type itself. -/
theorem C74_boundary_simpler (S : Sys σ κ) (c : Text → Nat) (D : PTy → Bool) (hS : Tame S c D) (F : Oracle σ) (hF : F = step S F)
    (s : σ) (t : PTy) (d : Dir) (i : Info) (s' : σ) (h : F s t d = (.ok i, s')) : rank c D i.rt ≤ rank c D t := by
  rw [hF] at h
  exact step_good S c D hS F s t d i s' h

def leaf (n : String) : PTy := .node n.toList .nil

/-! ## The rules that come with flapigen -/

def ptys : List PTy → PTys
  | [] => .nil
  | t :: l => .cons t (ptys l)

def node (h : String) (l : List PTy) : PTy := .node h.toList (ptys l)
def ref (t : PTy) : PTy := .ref [] t

/-- Patterns of the generic rules with a foreign side, with their parameters: macroslib/src/cpp/cpp-include.rs:261-1257 and
macroslib/src/java_jni/jni-include.rs:346-1690. -/
def builtin : List (List String × PTy) :=
  [(["T"], node "*const" [leaf "T"]), (["T"], node "*mut" [leaf "T"]),
   (["T"], node "Option" [node "extern C fn" [leaf "T"]]),
   (["T1", "T2"], node "extern C fn" [leaf "T1", leaf "T2"]),
   (["T1", "T2"], node "(,)" [leaf "T1", leaf "T2"]),
   (["T1", "T2", "T3"], node "(,,)" [leaf "T1", leaf "T2", leaf "T3"]),
   (["T"], node "Option" [ref (leaf "T")]), (["T"], node "Option" [leaf "T"]),
   (["T"], ref (node "[]" [leaf "T"])), (["T"], node "Vec" [leaf "T"]),
   (["T"], node "Result" [node "()" [], leaf "T"]), (["T1", "T2"], node "Result" [leaf "T1", leaf "T2"]),
   (["T"], node "Result" [leaf "T", ref (leaf "str")]), (["T"], node "Result" [leaf "T", leaf "String"])]

/-- **C74 (rules of flapigen).** All generic rules that come with flapigen have guarded patterns in which their parameters occur. -/
theorem C74_builtin_guarded : ∀ b ∈ builtin, Guarded b.2 ∧ ∀ x ∈ b.1, Occurs x.toList b.2 := by
  intro b hb
  simp only [builtin, List.mem_cons, List.not_mem_nil, or_false] at hb
  rcases hb with rfl | rfl | rfl | rfl | rfl | rfl | rfl | rfl | rfl | rfl | rfl | rfl | rfl | rfl <;>
    simp [node, ref, leaf, ptys, Guarded, Occurs, OccursIn]

/-! ## Finding and concrete cases -/
def app (n : String) (t : PTy) : PTy := .node n.toList (.cons t .nil)

/-- A rule `(r_type) <T> …; (f_type) name` that only maps names. -/
def nameRule (name : String) : Rule Unit :=
  { generic := true, rLR := some ⟨leaf "T", none, none⟩, rRL := none,
    fLR := [⟨none, [], none, .onlyLeft name.toList, false, none⟩], fRL := [], cTypes := none, genericC := none, fCode := [],
    aliases := [] }

/-- The foreign name of an instance. -/
def nameOf (r : Rule Unit) : Text :=
  match r.fLR with
  | ⟨_, _, _, .onlyLeft n, _, _⟩ :: _ => n
  | _ => []

def only (x : Text) (t : PTy) : Text → Option PTy := fun y => if y = x then some t else none

/-- A small system; the state is the name of the last merged instance. -/
def demo (rule : Rule Unit) (look : PTy → Look) : Sys Text Unit where
  java := false
  u := ⟨fun _ => false, fun _ => false, fun _ => false⟩
  norm := fun _ => []
  disp := fun _ => []
  parse := fun _ => none
  noNull := id
  parseC := fun _ => none
  fields := fun _ => []
  rules := [rule]
  look := fun s t _ => (look t, s)
  finish := fun s _ _ => (.direct ⟨⟨s, 0⟩, leaf "i32", none, []⟩, s)
  conv := fun s _ _ _ _ => (.ok [], s)
  regC := fun s _ => (.ok (), s)
  addC := fun s _ _ => (.ok (), s)
  merge := fun _ r _ => (.ok (), nameOf r)

def i32Info : Info := ⟨⟨"int".toList, 0⟩, leaf "i32", none, []⟩

/-- `i32` is known, `Vec<T>` has a rule. -/
def vecLook (t : PTy) : Look :=
  if t = leaf "i32" then .hit (.direct i32Info)
  else
    match t with
    | .node h (.cons k .nil) => if h = "Vec".toList then .rule 0 (only "T".toList k) else .hit .fail
    | _ => .hit .fail

def vecSys : Sys Text Unit := demo (nameRule "vector<swig_f_type!(T)>") vecLook

/-- The demonstration system is tame. -/
theorem vecSys_tame : Tame vecSys (fun _ => 2) (fun t => t = leaf "i32") where
  heads := fun _ => Nat.le_refl _
  ruleFits := by
    intro s t d i params s' h
    simp only [vecSys, demo, vecLook, Prod.mk.injEq] at h
    obtain ⟨h, _⟩ := h
    split at h
    · cases h
    · rename_i hne
      refine ⟨by simpa using hne, ?_⟩
      split at h
      · rename_i hd k
        split at h
        · rename_i e
          injection h with _ h
          subst h; subst e
          refine ⟨app "Vec" (leaf "T"), trivial, ?_, ?_⟩
          · simp [app, leaf, fill, fills, only]
          · intro x v hx
            simp only [only] at hx
            split at hx
            · rename_i e; subst e; exact Or.inl rfl
            · cases hx
        · cases h
      · cases h
  viaLook := by
    intro s t d inner f s' h
    simp only [vecSys, demo, vecLook, Prod.mk.injEq] at h
    obtain ⟨h, _⟩ := h
    split at h
    · cases h
    · split at h
      · split at h <;> cases h
      · cases h
  viaFinish := by
    intro s t d inner f s' h
    simp only [vecSys, demo, Prod.mk.injEq, reduceCtorEq, false_and] at h
  directLook := by
    intro s t d i s' h
    simp only [vecSys, demo, vecLook, Prod.mk.injEq] at h
    obtain ⟨h, _⟩ := h
    split at h
    · injection h with h; injection h with h; subst h; simp [rank, i32Info]
    · split at h
      · split at h <;> cases h
      · cases h
  directFinish := by
    intro s t d i s' h
    simp only [vecSys, demo, Prod.mk.injEq, Hit.direct.injEq] at h
    rw [← h.1]; simp [rank]
  aliases := by intro x ty h; cases h
  fields := by intro s t d i params s1 r O s2 hd items s3 _ _ _ _ f hf; cases hf

/-- Nested types are mapped through nested questions. -/
example : (match solve vecSys (fun s _ _ => (.error .backend, s)) 8 [] (app "Vec" (app "Vec" (leaf "i32"))) .outgoing with
    | (.ok i, _) => some i.name.value
    | _ => none) = some "vector<vector<int>>".toList := by decide +kernel

/-- With a smaller allowance the answer below matters. -/
example : (match solve vecSys (fun s _ _ => (.error .backend, s)) 2 [] (app "Vec" (app "Vec" (leaf "i32"))) .outgoing with
    | (.ok _, _) => true
    | _ => false) = false := by decide +kernel

/-- A rule for every type that asks for the mapping of the very type it is applied to. -/
def loopSys : Sys Text Unit :=
  demo (nameRule "swig_f_type!(T)") fun t => if t = leaf "Foo" then .rule 0 (only "T".toList (leaf "Foo")) else .hit .fail

/-- The oracle that answers for `Foo` only. -/
def fooOk : Oracle Text := fun s t _ =>
  if t = leaf "Foo" then (.ok ⟨⟨"X".toList, 0⟩, leaf "i32", none, []⟩, "X".toList) else (.error .backend, s)

/-- The oracle that knows nothing. -/
def noAnswer : Oracle Text := fun s _ _ => (.error .backend, s)

theorem loop_ok : fooOk = step loopSys fooOk := by
  funext s t d
  by_cases h : t = leaf "Foo"
  · subst h; cases d <;> rfl
  · simp [step, loopSys, demo, fooOk, h, follow]

theorem loop_none : noAnswer = step loopSys noAnswer := by
  funext s t d
  by_cases h : t = leaf "Foo"
  · subst h; cases d <;> rfl
  · simp [step, loopSys, demo, noAnswer, h, follow]

/-- **C74 (finding).** A generic rule whose pattern is a bare parameter and which asks for the mapping of that parameter makes the
mapping go round for ever: two different mappings satisfy the recursive equation, and at every depth the result is whatever is
assumed below (the generator overflows its stack). -/
theorem C74_finding_bare_parameter :
    (∃ F F' : Oracle Text, F = step loopSys F ∧ F' = step loopSys F' ∧ F ≠ F') ∧
    ∀ n s d, (∃ i s', solve loopSys fooOk n s (leaf "Foo") d = (.ok i, s')) ∧
      ∃ e s', solve loopSys noAnswer n s (leaf "Foo") d = (.error e, s') := by
  refine ⟨⟨fooOk, noAnswer, loop_ok, loop_none, ?_⟩, ?_⟩
  · intro h
    have := congrFun (congrFun (congrFun h []) (leaf "Foo")) .outgoing
    simp [fooOk, noAnswer] at this
  · intro n s d
    rw [solve_fixed _ _ loop_ok, solve_fixed _ _ loop_none]
    exact ⟨⟨_, _, by simp [fooOk]; exact ⟨rfl, rfl⟩⟩, ⟨_, _, rfl⟩⟩

/-! ## The result -/

/-- A foreign type was found and answered for: directly, or from the mapping of the type in between. -/
inductive Followed (F : Oracle σ) (s : σ) (d : Dir) : Hit → Info → σ → Prop
  | direct (i : Info) : Followed F s d (.direct i) i s
  | via (inner : PTy) (combine : Info → Except Er Info) (j i : Info) (s' : σ) :
      F s inner d = (.ok j, s') → combine j = .ok i → Followed F s d (.via inner combine) i s'

/-- The types are mapped one after the other, as arguments. -/
inductive Mapped (F : Oracle σ) : σ → List PTy → List Info → σ → Prop
  | nil (s : σ) : Mapped F s [] [] s
  | cons (s : σ) (t : PTy) (i : Info) (s1 : σ) (ts : List PTy) (is : List Info) (s2 : σ) :
      F s t .incoming = (.ok i, s1) → Mapped F s1 ts is s2 → Mapped F s (t :: ts) (i :: is) s2

/-- The machine that answers the helper macros. -/
def answering (S : Sys σ κ) (F : Oracle σ) (d : Dir) : Backend σ :=
  match S.java with
  | true => javaB S.noNull ⟨F, S.conv⟩ d
  | false => cppB ⟨F, S.conv⟩ d

/-- The C items of a rule were dealt with: Java has none; C++ instantiates them, registers them, maps the types of their fields, writes them. -/
inductive CItems (S : Sys σ κ) (F : Oracle σ) (params : Text → Option PTy) (d : Dir) (s : σ) (r : Rule κ) : σ → Prop
  | java : S.java = true → r.cTypes = none → r.genericC = none → CItems S F params d s r s
  | nothing (s1 : σ) : S.java = false →
      substToCItems ⟨S.u, S.norm, S.disp, S.parse, params⟩ S.parseC (answering S F d) s r = .ok (none, s1) → CItems S F params d s r s1
  | items (c : Text × κ) (is : List Info) (s1 s2 s3 s4 : σ) : S.java = false →
      substToCItems ⟨S.u, S.norm, S.disp, S.parse, params⟩ S.parseC (answering S F d) s r = .ok (some c, s1) →
      S.regC s1 c = (.ok (), s2) → Mapped F s2 (S.fields c.2) is s3 → S.addC s3 c is = (.ok (), s4) → CItems S F params d s r s4

/-- How a type can come to its mapping. -/
inductive Maps (S : Sys σ κ) (F : Oracle σ) (s : σ) (t : PTy) (d : Dir) : Info → σ → Prop
  /-- it, or a type it converts to, has a foreign type -/
  | known (h : Hit) (s1 : σ) (i : Info) (s' : σ) : S.look s t d = (.hit h, s1) → Followed F s1 d h i s' → Maps S F s t d i s'
  /-- a generic rule fits: its C items are dealt with, then the rest of it is instantiated and merged, and then there is a foreign type -/
  | rule (n : Nat) (params : Text → Option PTy) (r r' : Rule κ) (s1 s2 s3 s4 s5 : σ) (h : Hit) (i : Info) (s' : σ) :
      S.look s t d = (.rule n params, s1) → S.rules[n]? = some r → CItems S F params d s1 r s2 →
      substGenericParams ⟨S.u, S.norm, S.disp, S.parse, params⟩ (answering S F d) d s2 r = .ok (r', s3) →
      S.merge s3 r' d = (.ok (), s4) → S.finish s4 t d = (h, s5) → Followed F s5 d h i s' → Maps S F s t d i s'

theorem backend_eq (S : Sys σ κ) (F : Oracle σ) (d : Dir) : S.backend F d = answering S F d := by
  unfold Sys.backend answering
  cases S.java <;> rfl

theorem follow_iff (F : Oracle σ) (s : σ) (d : Dir) (h : Hit) (i : Info) (s' : σ) : follow F s d h = (.ok i, s') ↔ Followed F s d h i s' := by
  constructor
  · intro e
    cases h with
    | direct j =>
      have e1 := Except.ok.inj (congrArg Prod.fst e)
      have e2 := congrArg Prod.snd e
      simp only at e1 e2
      subst e1 e2
      exact .direct _
    | fail => cases congrArg Prod.fst e
    | via inner combine =>
      simp only [follow] at e
      cases hq : F s inner d with
      | mk x s1 =>
        rw [hq] at e
        cases x with
        | error er => cases congrArg Prod.fst e
        | ok j =>
          have e1 := congrArg Prod.fst e
          have e2 := congrArg Prod.snd e
          simp only at e1 e2
          subst e2
          exact .via _ _ j _ _ hq e1
  · intro e
    cases e with
    | direct => rfl
    | via inner combine j i s' h1 h2 => simp only [follow, h1, h2]

theorem askAll_iff (F : Oracle σ) (ts : List PTy) : ∀ (s : σ) (is : List Info) (s' : σ), askAll F s ts = (.ok is, s') ↔ Mapped F s ts is s' := by
  induction ts with
  | nil =>
    intro s is s'
    constructor
    · intro e
      have e1 := Except.ok.inj (congrArg Prod.fst e)
      have e2 := congrArg Prod.snd e
      simp only at e1 e2
      subst e1 e2
      exact .nil _
    · intro e; cases e; rfl
  | cons t ts ih =>
    intro s is s'
    constructor
    · intro e
      unfold askAll at e
      cases h1 : F s t .incoming with
      | mk x s1 =>
        rw [h1] at e
        cases x with
        | error er => cases congrArg Prod.fst e
        | ok i =>
          simp only at e
          cases h2 : askAll F s1 ts with
          | mk y s2 =>
            rw [h2] at e
            cases y with
            | error er => cases congrArg Prod.fst e
            | ok js =>
              have e1 := Except.ok.inj (congrArg Prod.fst e)
              have e2 := congrArg Prod.snd e
              simp only at e1 e2
              subst e1 e2
              exact .cons _ _ _ _ _ _ _ h1 ((ih _ _ _).1 h2)
    · intro e
      cases e with
      | cons _ _ i s1 _ is s2 h1 h2 =>
        unfold askAll
        rw [h1]
        simp only
        rw [(ih _ _ _).2 h2]

theorem instC_iff (S : Sys σ κ) (F : Oracle σ) (params : Text → Option PTy) (d : Dir) (s : σ) (r : Rule κ) (s' : σ) :
    instC S F params d s r = (.ok (), s') ↔ CItems S F params d s r s' := by
  unfold instC
  rw [backend_eq]
  cases hj : S.java with
  | true =>
    simp only [if_true]
    constructor
    · intro e
      have e2 := congrArg Prod.snd e
      simp only at e2
      subst e2
      cases h1 : r.cTypes with
      | some x => rw [h1] at e; simp at e
      | none =>
        cases h2 : r.genericC with
        | some x => rw [h1, h2] at e; simp at e
        | none => exact .java hj h1 h2
    · intro e
      cases e with
      | java _ h1 h2 => simp [h1, h2]
      | nothing _ h => rw [hj] at h; cases h
      | items _ _ _ _ _ _ h => rw [hj] at h; cases h
  | false =>
    simp only [Bool.false_eq_true, if_false]
    constructor
    · intro e
      cases h1 : substToCItems (S.env params) S.parseC (answering S F d) s r with
      | ok p =>
        obtain ⟨c, s1⟩ := p
        rw [h1] at e
        simp only at e
        cases c with
        | none =>
          have e2 := congrArg Prod.snd e
          have e3 : s1 = s' := e2
          subst e3
          exact .nothing _ hj h1
        | some c =>
          unfold mergeC at e
          simp only at e
          cases h2 : S.regC s1 c with
          | mk x s2 =>
            rw [h2] at e
            cases x with
            | error er => cases congrArg Prod.fst e
            | ok u =>
              simp only at e
              cases h3 : askAll F s2 (S.fields c.2) with
              | mk y s3 =>
                rw [h3] at e
                cases y with
                | error er => cases congrArg Prod.fst e
                | ok is => exact .items c is s1 s2 s3 s' hj h1 h2 ((askAll_iff ..).1 h3) e
      | error er => rw [h1] at e; cases congrArg Prod.fst e
      | fuel => rw [h1] at e; cases congrArg Prod.fst e
      | panic => rw [h1] at e; cases congrArg Prod.fst e
    · intro e
      cases e with
      | java h => rw [hj] at h; cases h
      | nothing _ _ h1 =>
        have h1' : substToCItems (S.env params) S.parseC (answering S F d) s r = .ok (none, s') := h1
        rw [h1']
        rfl
      | items c is s1 s2 s3 s4 _ h1 h2 h3 h4 =>
        have h1' : substToCItems (S.env params) S.parseC (answering S F d) s r = .ok (some c, s1) := h1
        rw [h1']
        show mergeC S F s1 (some c) = _
        unfold mergeC
        simp only [h2]
        rw [(askAll_iff ..).2 h3]
        simp only [h4]

/-- **C74 (result).** The mapping of a type succeeds exactly if the type (or one it converts to) has a foreign type, or a generic rule fits, its C items and then
the rule itself can be instantiated with the answers of the same mapping to the helper macros (in C++ the C items also with the mappings of their fields), and
after merging it there is a foreign type; the answer is the one of that foreign type. -/
theorem C74_result (S : Sys σ κ) (F : Oracle σ) (hF : F = step S F) (s : σ) (t : PTy) (d : Dir) (i : Info) (s' : σ) :
    F s t d = (.ok i, s') ↔ Maps S F s t d i s' := by
  have hs : F s t d = step S F s t d := congrFun (congrFun (congrFun hF s) t) d
  rw [hs]
  unfold step
  constructor
  · intro e
    cases h1 : S.look s t d with
    | mk x s1 =>
      rw [h1] at e
      cases x with
      | hit h => exact .known h s1 i s' h1 ((follow_iff ..).1 e)
      | rule n params =>
        simp only at e
        cases h2 : S.rules[n]? with
        | none => rw [h2] at e; cases congrArg Prod.fst e
        | some r =>
          rw [h2] at e
          simp only at e
          unfold inst at e
          cases h3 : instC S F params d s1 r with
          | mk y s2 =>
            rw [h3] at e
            cases y with
            | error er => cases congrArg Prod.fst e
            | ok u =>
              simp only [backend_eq] at e
              cases h4 : substGenericParams (S.env params) (answering S F d) d s2 r with
              | ok p =>
                obtain ⟨r', s3⟩ := p
                rw [h4] at e
                simp only at e
                cases h5 : S.merge s3 r' d with
                | mk z s4 =>
                  rw [h5] at e
                  cases z with
                  | error er => cases congrArg Prod.fst e
                  | ok v =>
                    simp only at e
                    exact .rule n params r r' s1 s2 s3 s4 _ _ i s' h1 h2 ((instC_iff ..).1 h3) h4 h5 rfl ((follow_iff ..).1 e)
              | error er => rw [h4] at e; cases congrArg Prod.fst e
              | fuel => rw [h4] at e; cases congrArg Prod.fst e
              | panic => rw [h4] at e; cases congrArg Prod.fst e
  · intro e
    cases e with
    | known h s1 _ _ h1 h2 =>
      rw [h1]
      exact (follow_iff ..).2 h2
    | rule n params r r' s1 s2 s3 s4 s5 h _ _ h1 h2 h3 h4 h5 h6 h7 =>
      rw [h1]
      simp only [h2]
      unfold inst
      rw [(instC_iff ..).2 h3, backend_eq]
      have h4' : substGenericParams (S.env params) (answering S F d) d s2 r = .ok (r', s3) := h4
      simp only [h4', h5, h6]
      exact (follow_iff ..).2 h7
/-- Nested types are mapped in that way, by the one mapping there is. -/
example : ∃ F : Oracle Text, F = step vecSys F ∧ ∃ i s', Maps vecSys F [] (app "Vec" (app "Vec" (leaf "i32"))) .outgoing i s' ∧
    i.name.value = "vector<vector<int>>".toList := by
  obtain ⟨⟨F, hF⟩, _⟩ := C74_unique vecSys _ _ vecSys_tame
  refine ⟨F, hF, ?_⟩
  have h1 := C74_ends vecSys _ _ vecSys_tame F noAnswer (app "Vec" (app "Vec" (leaf "i32"))) 8 8 (by decide) (by decide) [] .outgoing
  rw [solve_fixed vecSys F hF] at h1
  have h2 : (match solve vecSys noAnswer 8 [] (app "Vec" (app "Vec" (leaf "i32"))) .outgoing with
    | (.ok i, _) => some i.name.value
    | _ => none) = some "vector<vector<int>>".toList := by decide +kernel
  cases h3 : solve vecSys noAnswer 8 [] (app "Vec" (app "Vec" (leaf "i32"))) .outgoing with
  | mk x s' =>
    rw [h3] at h1 h2
    cases x with
    | error e => cases h2
    | ok i => exact ⟨i, s', (C74_result vecSys F hF _ _ _ _ _).1 h1, Option.some.inj h2⟩

end Flapi.Recursion
