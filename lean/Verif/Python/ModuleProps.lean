import Verif.Python.Module
import Verif.Python.CallProps
import Verif.Python.RetProps
/-!
# Python: what the generated module contains (C68)
-/
namespace Flapi.PyModule

open Flapi.Py (RTy Ptr Exp RExp Env smart genArg genRet)
open Flapi.Exported (lit)

/-! ## Specification -/

/-- The name of an item. -/
def Item.name : Item → Text
  | .cls c => c.name
  | .enm e => e.name
  | .iface n => n

def isMethod (m : Method) : Bool := match m.variant with | .method _ => true | _ => false

/-- A `private constructor = empty`. -/
def isDummy (m : Method) : Bool := m.path.isEmpty

/-- The name the declaration gives a method: its alias, otherwise the last segment of its path. -/
def shownName (m : Method) : Text := m.alias.getD (m.path.getLast?.getD [])

/-- The name in Python. -/
def pyName (m : Method) : Text :=
  if m.variant = .constructor then lit "__new__" else if shownName m = lit "to_string" then lit "__repr__" else shownName m

/-- The declared arguments besides `self`. -/
def Declares (m : Method) (as : List (Text × RTy)) : Prop := m.args.drop (if isMethod m then 1 else 0) = as.map fun a => .named a.1 a.2

def Param.name : Param → Text
  | .self => lit "self"
  | .cls => lit "_cls"
  | .arg n _ => n

def Param.ty? : Param → Option RTy
  | .arg _ t => some t
  | _ => none

/-- What Python sees in front of the arguments. -/
def leading (m : Method) : List Text :=
  match m.variant with
  | .method _ => [lit "self"]
  | .constructor => [lit "_cls"]
  | .static => []

/-- The types of the parameters of the Rust function: what `self` stands for, and the arguments. -/
def rustTypes (c : Class) (m : Method) (as : List (Text × RTy)) : List RTy :=
  (match m.variant, c.self with
    | .method .rptr, some (n, _) => [.ref (.other n)]
    | .method .rptrMut, some (n, _) => [.refMut (.other n)]
    | .method _, some (n, _) => [.other n]
    | _, _ => []) ++ as.map (·.2)

/-- The environment and the meaning of types for an item that comes after `before`. -/
abbrev envAt (items before : List Item) : Env := envOf items (enumTypes before)
abbrev tyAt (items before : List Item) (t : RTy) : RTy := classify (classesOf items) (enumTypes before) t

/-- The lines of a text. -/
def linesOf : Text → List Text
  | [] => [[]]
  | a :: l =>
    if a = '\n' then [] :: linesOf l
    else match linesOf l with
      | [] => [[a]]
      | x :: r => (a :: x) :: r

/-- A list of documentation strings without line breaks as lines; no documentation is one empty line. -/
def docLines (docs : List Text) : List Text := if docs = [] then [[]] else docs

/-- `d` is a wrapper of the method `m` of class `c`, with the arguments `as`. -/
structure Wraps (items before : List Item) (c : Class) (m : Method) (as : List (Text × RTy)) (d : PyDef) : Prop where
  name : d.name = pyName m
  static : d.static = true ↔ m.variant = .static
  params : d.params.map Param.name = leading m ++ as.map (·.1)
  paramTypes : (d.params.filterMap Param.ty?).map some = as.map fun a => (genArg (envAt items before) true (tyAt items before a.2)).map (·.1)
  callee : d.callee = m.path
  variables : d.convs.map (·.1) = (if isMethod m then [lit "self"] else []) ++ as.map (·.1)
  conversions : d.convs.map (fun x => some x.2) =
    (rustTypes c m as).map fun t => (genArg (envAt items before) true (tyAt items before t)).map (·.2)
  result : genRet (envAt items before) (tyAt items before (m.ret.getD .unit)) .call = some (d.ret, d.result)
  noDoc : (∃ t, d.name = lit "__" ++ t) → d.doc = none
  doc : (¬ ∃ t, d.name = lit "__" ++ t) → (∀ x ∈ m.docs, '\n' ∉ x) → ∃ T, d.doc = some T ∧ linesOf T = (docLines m.docs).map (lit "/// " ++ ·)

/-! ## Lemmas -/

theorem linesOf_ne (t : Text) : linesOf t ≠ [] := by
  cases t with
  | nil => simp [linesOf]
  | cons a l =>
    unfold linesOf
    split
    · simp
    · split <;> simp

theorem linesOf_append (x t : Text) (h : '\n' ∉ x) : linesOf (x ++ '\n' :: t) = x :: linesOf t := by
  induction x with
  | nil => simp [linesOf]
  | cons a x ih =>
    simp only [List.mem_cons, not_or] at h
    simp only [List.cons_append, linesOf, ih h.2]
    rw [if_neg (fun e => h.1 e.symm)]

theorem linesOf_one (x : Text) (h : '\n' ∉ x) : linesOf x = [x] := by
  induction x with
  | nil => rfl
  | cons a x ih =>
    simp only [List.mem_cons, not_or] at h
    simp only [linesOf, ih h.2]
    rw [if_neg (fun e => h.1 e.symm)]

theorem linesOf_doc (P : Text) (hP : '\n' ∉ P) (S : Text) (hS : S = '\n' :: P) : ∀ docs : List Text, (∀ x ∈ docs, '\n' ∉ x) →
    linesOf (P ++ join S docs) = (docLines docs).map (P ++ ·)
  | [], _ => by simp [join, docLines, linesOf_one P hP]
  | [a], h => by
    simp only [join, docLines, List.map_cons, List.map_nil, if_neg (List.cons_ne_nil a [])]
    exact linesOf_one _ (by simp [hP, h a (by simp)])
  | a :: b :: l, h => by
    have ih := linesOf_doc P hP S hS (b :: l) fun x hx => h x (by simp [hx])
    have e : P ++ join S (a :: b :: l) = (P ++ a) ++ '\n' :: (P ++ join S (b :: l)) := by
      rw [join, hS]
      · simp
      · simp
    rw [e, linesOf_append _ _ (by simp [hP, h a (by simp)]), ih]
    simp [docLines]

theorem mapRes_ok {α β} (f : α → Except Err β) (l : List α) (r : List β) : mapRes f l = .ok r ↔ l.map f = r.map .ok := by
  induction l generalizing r with
  | nil => cases r <;> simp [mapRes]
  | cons a l ih =>
    cases hf : f a with
    | error e => cases r <;> simp [mapRes, hf]
    | ok b =>
      cases hl : mapRes f l with
      | error e =>
        have : ∀ r : List β, l.map f ≠ r.map Except.ok := fun r h => by rw [(ih r).2 h] at hl; cases hl
        cases r with
        | nil => simp [mapRes, hf, hl]
        | cons x r => simp [mapRes, hf, hl, this r]
      | ok bs =>
        cases r with
        | nil => simp [mapRes, hf, hl]
        | cons x r =>
          simp only [mapRes, hf, hl, Except.ok.injEq, List.cons.injEq, List.map_cons]
          rw [← ih r, hl, Except.ok.injEq]

theorem genItems_ok (cfg : Cfg) (items : List Item) (done rest : List Item) (ms : List Module) : genItems cfg items done rest = .ok ms ↔
    ms.length = rest.length ∧ ∀ (k : Nat) (i : Item), rest[k]? = some i → ∃ m, ms[k]? = some m ∧ genItem cfg items (done ++ rest.take k) i = .ok m := by
  induction rest generalizing done ms with
  | nil => cases ms <;> simp [genItems]
  | cons i rest ih =>
    constructor
    · intro h
      simp only [genItems] at h
      split at h
      · cases h
      · rename_i m hm
        split at h
        · cases h
        · rename_i ms' hms
          cases h
          obtain ⟨hl, hk⟩ := (ih _ _).1 hms
          refine ⟨by simp [hl], ?_⟩
          intro k j hj
          cases k with
          | zero =>
            simp only [List.getElem?_cons_zero, Option.some.injEq] at hj
            subst hj
            exact ⟨m, by simp, by simpa using hm⟩
          | succ k =>
            simp only [List.getElem?_cons_succ] at hj
            obtain ⟨m', h1, h2⟩ := hk k j hj
            exact ⟨m', by simpa using h1, by simpa using h2⟩
    · rintro ⟨hl, hk⟩
      cases ms with
      | nil => simp at hl
      | cons m ms =>
        obtain ⟨m', h1, h2⟩ := hk 0 i (by simp)
        simp only [List.getElem?_cons_zero, Option.some.injEq] at h1
        subst h1
        simp only [List.take_zero, List.append_nil] at h2
        have := (ih (done ++ [i]) ms).2 ⟨by simpa using hl, fun k j hj => by
          obtain ⟨m', h3, h4⟩ := hk (k + 1) j (by simpa using hj)
          exact ⟨m', by simpa using h3, by simpa using h4⟩⟩
        simp [genItems, h2, this]

theorem parseIdent_ok {cfg : Cfg} {s t : Text} (h : parseIdent cfg s = .ok t) : cfg.ident s = true ∧ t = s := by
  unfold parseIdent at h
  split at h
  · cases h; exact ⟨by assumption, rfl⟩
  · cases h

theorem expand_ok {cfg : Cfg} {items : List Item} {out : Output} (h : expand cfg items = .ok out) :
    ∃ ms, genItems cfg items [] items = .ok ms ∧ cfg.ident cfg.moduleName = true ∧ cfg.ident (lit "init" ++ cfg.moduleName) = true ∧
      cfg.ident (lit "PyInit_" ++ cfg.moduleName) = true ∧
      out = ⟨ms, lit "py_error", lit "Error", lit "init" ++ cfg.moduleName, lit "PyInit_" ++ cfg.moduleName, ms.map Module.added⟩ := by
  simp only [expand] at h
  split at h
  · cases h
  · rename_i ms hms
    simp only [genInit, bind, Except.bind] at h
    split at h
    · cases h
    · rename_i a ha
      split at h
      · cases h
      · rename_i b hb
        split at h
        · cases h
        · rename_i d hd
          cases h
          obtain ⟨h1, -⟩ := parseIdent_ok ha
          obtain ⟨h2, rfl⟩ := parseIdent_ok hb
          obtain ⟨h3, rfl⟩ := parseIdent_ok hd
          exact ⟨ms, hms, h1, h2, h3, rfl⟩

theorem methodName_ok {m : Method} {n : Text} (hp : m.path ≠ []) (h : methodName m = .ok n) : n = pyName m := by
  simp only [methodName, standardName] at h
  simp only [pyName, shownName]
  split at h
  · cases h; simp [*]
  · rename_i hv
    rw [if_neg hv]
    have key : ∀ (o : Option Text) (p : Option Text),
        (Except.map (fun n => if n = lit "to_string" then lit "__repr__" else n)
          (match o with | some a => Except.ok a | none => match p with | some s => Except.ok s | none => Except.error Err.noName)) = .ok n →
        n = if o.getD (p.getD []) = lit "to_string" then lit "__repr__" else o.getD (p.getD []) := by
      intro o p h
      cases o with
      | some a => simp only [Except.map, Except.ok.injEq] at h; rw [← h]; rfl
      | none =>
        cases p with
        | none => simp [Except.map] at h
        | some s => simp only [Except.map, Except.ok.injEq] at h; rw [← h]; rfl
    exact key _ _ h

theorem genParam_ok {cs : List Class} {env : Env} {a : FnArg} {r} (h : genParam cs env a = .ok r) :
    ∃ n t p e, a = .named n t ∧ genArg env true (classify cs env.enums t) = some (p, e) ∧ r = ((n, p), (n, e)) := by
  cases a with
  | self => cases h
  | named n t =>
    simp only [genParam] at h
    split at h
    · rename_i p e hg
      cases h
      exact ⟨n, t, p, e, rfl, hg, rfl⟩
    · cases h

theorem params_ok {cs : List Class} {env : Env} : ∀ {l : List FnArg} {r : List ((Text × RTy) × (Text × Exp))}, l.map (genParam cs env) = r.map .ok →
    ∃ as : List (Text × RTy), l = (as.map fun a => .named a.1 a.2) ∧ r.map (·.1.1) = as.map (·.1) ∧ r.map (·.2.1) = as.map (·.1) ∧
      (r.map fun x => some x.1.2) = (as.map fun a => (genArg env true (classify cs env.enums a.2)).map (·.1)) ∧
      (r.map fun x => some x.2.2) = (as.map fun a => (genArg env true (classify cs env.enums a.2)).map (·.2))
  | [], r, h => by
    have : r = [] := by simpa using h.symm
    subst this
    exact ⟨[], by simp⟩
  | a :: l, r, h => by
    cases r with
    | nil => simp at h
    | cons x r =>
      simp only [List.map_cons, List.cons.injEq] at h
      obtain ⟨n, t, p, e, rfl, hg, rfl⟩ := genParam_ok h.1
      obtain ⟨as, rfl, h1, h2, h3, h4⟩ := params_ok h.2
      exact ⟨(n, t) :: as, by simp, by simp [h1], by simp [h2], by simp [h3, hg], by simp [h4, hg]⟩

theorem selfConv_ok {cs : List Class} {env : Env} {c : Class} {m : Method} {s : Option Exp} (h : selfConv cs env c m = .ok s) :
    ((selfPart s).map (·.1) = (if isMethod m then [lit "self"] else [])) ∧
    ((selfPart s).map (fun x : Text × Exp => some x.2)) =
      (rustTypes c m []).map fun t => (genArg env true (classify cs env.enums t)).map (·.2) := by
  unfold selfConv at h
  unfold rustTypes isMethod
  split at h
  · rename_i v hv
    split at h
    · cases h
    · rename_i n r hs
      split at h
      · rename_i p e hg
        cases h
        cases v <;> simp_all [selfTy, selfPart]
      · cases h
  · rename_i hv
    cases h
    cases hm : m.variant <;> simp_all [selfPart]

theorem rustTypes_append (c : Class) (m : Method) (as : List (Text × RTy)) : rustTypes c m as = rustTypes c m [] ++ as.map (·.2) := by
  simp [rustTypes]

theorem genMethod_some {items before : List Item} {c : Class} {m : Method} {d : PyDef}
    (h : genMethod (classesOf items) (envAt items before) c m = .ok (some d)) : isDummy m = false ∧ ∃ as, Declares m as ∧ Wraps items before c m as d := by
  unfold genMethod at h
  split at h
  · cases h
  · rename_i hp
    simp only [bind, Except.bind] at h
    split at h
    · cases h
    · rename_i name hn
      split at h
      · cases h
      · rename_i args ha
        split at h
        · cases h
        · rename_i self hs
          split at h
          · rename_i r hr
            cases h
            rw [mapRes_ok] at ha
            obtain ⟨as, h1, h2, h3, h4, h5⟩ := params_ok ha
            obtain ⟨h6, h7⟩ := selfConv_ok hs
            refine ⟨by simp [isDummy, hp], as, ?_, ?_⟩
            · unfold Declares
              rw [← h1]
              unfold skipArgs isMethod
              cases m.variant <;> rfl
            · constructor
              · exact methodName_ok hp hn
              · simp
              · simp only [List.map_append, List.map_map, Function.comp_def, Param.name, h2]
                congr 1
                unfold firstParam leading
                cases m.variant <;> rfl
              · have e : (firstParam m).filterMap Param.ty? = [] := by
                  unfold firstParam
                  cases m.variant <;> rfl
                simp only [List.filterMap_append, e, List.nil_append, List.filterMap_map, Function.comp_def, Param.ty?]
                refine Eq.trans ?_ h4
                simp
              · rfl
              · simp only [List.map_append, h6, List.map_map, Function.comp_def]
                rw [h3]
              · rw [rustTypes_append]
                simp only [List.map_append, List.map_map, Function.comp_def]
                exact congr (congrArg _ h7) h5
              · exact hr
              · intro he
                simp only [docOf]
                rw [if_pos (List.isPrefixOf_iff_prefix.2 ⟨he.choose, he.choose_spec.symm⟩)]
              · intro hne hnl
                simp only [docOf]
                have hne' : ¬ (lit "__").isPrefixOf name = true := fun hp' => hne (by
                  obtain ⟨t, ht⟩ := List.isPrefixOf_iff_prefix.1 hp'
                  exact ⟨t, ht.symm⟩)
                rw [if_neg hne']
                exact ⟨_, rfl, linesOf_doc (lit "/// ") (by unfold lit; decide) _ (by unfold lit; decide) m.docs hnl⟩
          · cases h

theorem genMethod_none {cs : List Class} {env : Env} {c : Class} {m : Method} (h : genMethod cs env c m = .ok none) : isDummy m = true := by
  unfold genMethod at h
  split at h
  · rename_i hp; simp [isDummy, hp]
  · simp only [bind, Except.bind] at h
    repeat (first | (split at h) | cases h)


theorem genMethod_dummy {cs : List Class} {env : Env} {c : Class} {m : Method} (h : isDummy m = true) : genMethod cs env c m = .ok none := by
  unfold genMethod
  rw [if_pos (by simpa [isDummy] using h)]

theorem genClass_ok {cfg : Cfg} {cs : List Class} {env : Env} {c : Class} {mod : Module} (h : genClass cfg cs env c = .ok mod) :
    cfg.classHandlers = 0 ∧ cfg.methodHandlers = 0 ∧ cfg.ident (modName cfg c.name) = true ∧
    ∃ (data : Option RTy) (defs : List (Option PyDef)), instanceField c = .ok data ∧ c.methods.map (genMethod cs env c) = defs.map .ok ∧
      mod = .cls (modName cfg c.name) c.name (classDoc c) data (defs.filterMap id) := by
  unfold genClass at h
  split at h
  · cases h
  · rename_i hh
    simp only [bind, Except.bind] at h
    split at h
    · cases h
    · rename_i a ha
      split at h
      · cases h
      · rename_i data hd
        split at h
        · cases h
        · rename_i defs hdefs
          cases h
          obtain ⟨h1, rfl⟩ := parseIdent_ok ha
          exact ⟨by omega, by omega, h1, data, defs, hd, (mapRes_ok _ _ _).1 hdefs, rfl⟩

theorem genEnum_ok {cfg : Cfg} {known : List Text} {e : EnumInfo} {mod : Module} (h : genEnum cfg known e = .ok mod) :
    cfg.ident (modName cfg e.name) = true ∧ e.name ∉ known ∧
      mod = .enm (modName cfg e.name) e.name (join (lit "\n") e.docs) (e.items.map fun i => (i.1, i.2.1)) (e.items.map fun i => i.2.1) := by
  simp only [genEnum, bind, Except.bind] at h
  split at h
  · cases h
  · rename_i a ha
    split at h
    · cases h
    · rename_i hk
      cases h
      obtain ⟨h1, rfl⟩ := parseIdent_ok ha
      exact ⟨h1, hk, rfl⟩

theorem added_eq {cfg : Cfg} {items before : List Item} {i : Item} {m : Module} (h : genItem cfg items before i = .ok m) :
    m.added = (modName cfg i.name, i.name) := by
  cases i with
  | cls c => obtain ⟨-, -, -, d, ds, -, -, rfl⟩ := genClass_ok h; rfl
  | enm e => obtain ⟨-, -, rfl⟩ := genEnum_ok h; rfl
  | iface n => cases h

/-- The wrappers of a class, in order. -/
theorem defs_wrap {items before : List Item} {c : Class} : ∀ (ms : List Method) (ds : List (Option PyDef)),
    ms.map (genMethod (classesOf items) (envAt items before) c) = ds.map .ok →
    (ds.filterMap id).length = (ms.filter fun m => !isDummy m).length ∧
    ∀ (k : Nat) (m : Method), (ms.filter fun m => !isDummy m)[k]? = some m → ∃ d as, (ds.filterMap id)[k]? = some d ∧ Declares m as ∧ Wraps items before c m as d
  | [], ds, h => by
    have : ds = [] := by simpa using h.symm
    subst this
    simp
  | m :: ms, ds, h => by
    cases ds with
    | nil => simp at h
    | cons d ds =>
      simp only [List.map_cons, List.cons.injEq] at h
      have ih := defs_wrap ms ds h.2
      cases d with
      | none =>
        have hd := genMethod_none h.1
        have e : ((m :: ms).filter fun m => !isDummy m) = ms.filter fun m => !isDummy m := by simp [hd]
        rw [e]
        simpa using ih
      | some d =>
        obtain ⟨hd, as, h1, h2⟩ := genMethod_some h.1
        have e : ((m :: ms).filter fun m => !isDummy m) = m :: ms.filter fun m => !isDummy m := by simp [hd]
        rw [e]
        have e' : (some d :: ds).filterMap id = d :: ds.filterMap id := by simp
        rw [e']
        refine ⟨by simp [ih.1], ?_⟩
        intro k m' hk
        cases k with
        | zero =>
          simp only [List.getElem?_cons_zero, Option.some.injEq] at hk
          subst hk
          exact ⟨d, as, by simp, h1, h2⟩
        | succ k =>
          simp only [List.getElem?_cons_succ] at hk ⊢
          exact ih.2 k m' hk

/-! ## Theorems -/

/-- The Python module consists of exactly the declared classes and enums, in the order of the declarations, each added once under its own name from the
module generated for it; the initialiser is named after the module. -/
theorem C68_module (cfg : Cfg) (items : List Item) (out : Output) (h : expand cfg items = .ok out) :
    out.added = items.map (fun i => (lit "py_" ++ cfg.snake i.name, i.name)) ∧
    out.modules.map Module.added = out.added ∧
    out.initName = lit "init" ++ cfg.moduleName ∧ out.pyInitName = lit "PyInit_" ++ cfg.moduleName ∧
    out.errorMod = lit "py_error" ∧ out.errorName = lit "Error" := by
  obtain ⟨ms, hms, -, -, -, rfl⟩ := expand_ok h
  obtain ⟨hl, hk⟩ := (genItems_ok _ _ _ _ _).1 hms
  refine ⟨?_, rfl, rfl, rfl, rfl, rfl⟩
  apply List.ext_getElem?
  intro k
  simp only [List.getElem?_map]
  cases hi : items[k]? with
  | none =>
    rw [List.getElem?_eq_none_iff] at hi
    rw [List.getElem?_eq_none (by omega)]
    rfl
  | some i =>
    obtain ⟨m, h1, h2⟩ := hk k i hi
    rw [h1]
    simp only [Option.map_some, added_eq h2]
    rfl

/-- The class generated for a declaration has exactly one `def` for every method that is not a dummy constructor, in their order, and each is a wrapper of its
method: the Python name, `@staticmethod`, the parameters in order, and a body that calls the path of the declaration with `self` and the arguments, each
converted for its declared type, and converts the result for the declared type. -/
theorem C68_class (cfg : Cfg) (items : List Item) (out : Output) (h : expand cfg items = .ok out) (k : Nat) (c : Class) (hk : items[k]? = some (.cls c)) :
    ∃ doc data defs, out.modules[k]? = some (.cls (lit "py_" ++ cfg.snake c.name) c.name doc data defs) ∧
      defs.length = (c.methods.filter fun m => !isDummy m).length ∧
      ∀ (j : Nat) (m : Method), (c.methods.filter fun m => !isDummy m)[j]? = some m →
        ∃ d as, defs[j]? = some d ∧ Declares m as ∧ Wraps items (items.take k) c m as d := by
  obtain ⟨ms, hms, -, -, -, rfl⟩ := expand_ok h
  obtain ⟨hl, hk'⟩ := (genItems_ok _ _ _ _ _).1 hms
  obtain ⟨mod, h1, h2⟩ := hk' k _ hk
  simp only [List.nil_append] at h2
  obtain ⟨-, -, -, data, defs, -, hd, rfl⟩ := genClass_ok h2
  obtain ⟨h3, h4⟩ := defs_wrap _ _ hd
  exact ⟨_, _, _, h1, h3, h4⟩

/-- An enum has its constants in the order of the declaration, each with the variant it stands for, and the conversion back tries the same variants. -/
theorem C68_enum (cfg : Cfg) (items : List Item) (out : Output) (h : expand cfg items = .ok out) (k : Nat) (e : EnumInfo) (hk : items[k]? = some (.enm e)) :
    out.modules[k]? = some (.enm (lit "py_" ++ cfg.snake e.name) e.name (join (lit "\n") e.docs) (e.items.map fun i => (i.1, i.2.1))
      (e.items.map fun i => i.2.1)) := by
  obtain ⟨ms, hms, -, -, -, rfl⟩ := expand_ok h
  obtain ⟨hl, hk'⟩ := (genItems_ok _ _ _ _ _).1 hms
  obtain ⟨mod, h1, h2⟩ := hk' k _ hk
  obtain ⟨-, -, rfl⟩ := genEnum_ok h2
  exact h1

end Flapi.PyModule
