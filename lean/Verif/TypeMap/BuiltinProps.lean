import Verif.TypeMap.Builtin
import Verif.TypeMap.GenericProps
import Verif.TypeMap.GenericCodeProps
import Verif.TypeMap.BuildComplete
import Verif.TypeMap.TyProps
import Verif.Core.TemplateProps
/-! # The conversions every type map starts with (C80) -/
namespace Flapi.Builtin
open Flapi.Ast Flapi.Template

/-! ## Specification -/

/-- What the code of a conversion does with the variable. -/
inductive Form where
  /-- `&x` or `&mut x` -/
  | addr (mt : Bool)
  /-- `x` -/
  | use
  /-- `x.as_ref()` -/
  | asRef
  /-- `x.as_mut()` -/
  | asMut
deriving DecidableEq

/-- The expression, for variable `x`. -/
def Form.expr (x : Text) : Form → Text
  | .addr false => "&".toList ++ x
  | .addr true => "&mut ".toList ++ x
  | .use => x
  | .asRef => x ++ ".as_ref()".toList
  | .asMut => x ++ ".as_mut()".toList

/-- `let mut ` -/
def kwLetMut : Text := "let mut ".toList
/-- `: ` -/
def kwColon : Text := ": ".toList
/-- ` = ` -/
def kwEq : Text := " = ".toList
/-- `;` -/
def kwSemi : Text := ";".toList
/-- The indentation of a line. -/
def kwIndent : Text := "    ".toList
/-- The end of a line. -/
def kwNl : Text := "\n".toList
/-- The placeholder of the new variable. -/
def phTo : Text := "{to_var}".toList
/-- The placeholder of its type. -/
def phType : Text := "{to_var_type}".toList
/-- The placeholder of the old variable. -/
def phFrom : Text := "{from_var}".toList

/-- The statement that declares `y : t` by the expression. -/
def Form.stmt (f : Form) (y t x : Text) : Text := kwLetMut ++ (y ++ (kwColon ++ (t ++ (kwEq ++ (f.expr x ++ kwSemi)))))

/-- `b` is `Box<x>`. -/
def IsBox (b x : Ty) : Prop := ∃ q l, b = .path q l (.cons "Box".toList (.angle (.ty x .nil)) .nil)

/-- The conversions a user may expect between values, references and boxes. -/
inductive Step : Ty → Ty → Form → Prop
  /-- a value can be borrowed -/
  | borrow (mt : Bool) (t : Ty) : Step t (.ref none mt t) (.addr mt)
  /-- an exclusive reference can be used as a shared one -/
  | share (lt : Option Text) (t : Ty) : Step (.ref lt true t) (.ref none false t) .use
  /-- a reference to a box gives a reference to its content -/
  | unbox (lt : Option Text) (b x : Ty) (h : IsBox b x) : Step (.ref lt false b) (.ref none false x) .asRef
  /-- likewise for exclusive references -/
  | unboxMut (lt : Option Text) (b x : Ty) (h : IsBox b x) : Step (.ref lt true b) (.ref none true x) .asMut

/-- Values: objects, boxes and references. -/
inductive Val where
  | obj (id : Nat)
  | box (v : Val)
  | ref (mt : Bool) (v : Val)
deriving DecidableEq

/-- The object a value leads to. -/
def Val.object : Val → Nat
  | .obj i => i
  | .box v => v.object
  | .ref _ v => v.object

/-- The object may be changed through the value: no shared reference is on the way. -/
def Val.canWrite : Val → Prop
  | .obj _ => True
  | .box v => v.canWrite
  | .ref mt v => mt = true ∧ v.canWrite

/-- The value has the type; `obj` stands for a value of any type that is neither a reference nor a box. -/
def Val.HasTy : Val → Ty → Prop
  | .obj _, t => (∀ lt mt e, t ≠ .ref lt mt e) ∧ ∀ x, ¬ IsBox t x
  | .box v, t => ∃ x, IsBox t x ∧ v.HasTy x
  | .ref mt v, t => ∃ lt e, t = .ref lt mt e ∧ v.HasTy e

/-- Rust lets the expression be written for a variable: `&mut x` needs an `x` that is declared `mut`. -/
def Form.allowed (declaredMut : Bool) : Form → Prop
  | .addr true => declaredMut = true
  | _ => True

/-- All lines of a chain are allowed if the first variable is declared `mut` or not; all others are declared by `let mut`, see
`Form.stmt`. -/
def Allowed (declaredMut : Bool) : List Form → Prop
  | [] => True
  | f :: fs => f.allowed declaredMut ∧ Allowed true fs

/-- Evaluation of the expression (the declared type decides that an exclusive reference is reborrowed as a shared one); `none`: the
expression does not compile. -/
def Form.run : Form → Val → Option Val
  | .addr mt, v => some (.ref mt v)
  | .use, .ref true v => some (.ref false v)
  | .asRef, .ref false (.box v) => some (.ref false v)
  | .asMut, .ref true (.box v) => some (.ref true v)
  | _, _ => none

/-- A chain of conversions. -/
inductive Chain : Ty → List Form → Ty → Prop
  | nil (t : Ty) : Chain t [] t
  | cons {t t' t'' : Ty} {f : Form} {fs : List Form} (h : Step t t' f) (r : Chain t' fs t'') : Chain t (f :: fs) t''

/-- All expressions of a chain, one after the other. -/
def runAll : List Form → Val → Option Val
  | [], v => some v
  | f :: fs, v => (f.run v).bind (runAll fs)

/-! ## Helper lemmas -/

/-- The map with `T` bound to `x`. -/
def bound (x : Ty) : TyMap := ⟨[(kwT, some x)]⟩
/-- The map with `T` unbound. -/
def unbound : TyMap := ⟨[(kwT, none)]⟩

theorem get1 (k x : Text) (v : Option Ty) : (SubstMap.Map.mk [(k, v)] : TyMap).get x = if k = x then some v else none := by
  rw [SubstMap.get_cons]; rfl

theorem unbound_get (k : Text) : unbound.get k = if kwT = k then some none else none := get1 _ _ _
theorem bound_get (x : Ty) (k : Text) : (bound x).get k = if kwT = k then some (some x) else none := get1 _ _ _

theorem set_unbound (x : Ty) : unbound.setMut kwT (some x) = bound x := by
  simp [unbound, bound, SubstMap.Map.setMut, SubstMap.setFirst]

theorem bind_T (t : Ty) : bindPath (.cons kwT .none .nil) t unbound = some (bound t) := by
  simp [bindPath, unbound_get, set_unbound]

theorem keyT : tyT.paramKey = some kwT := by decide

theorem fallback_T (t : Ty) : fallback tyT t unbound = (true, bound t) := by
  simp [fallback, tyT, bind_T]

theorem match_T (t : Ty) : matchTy t tyT unbound = (true, bound t) := by
  cases t
  case path q l s => simp [matchTy, tyT, matchPath, bind_T]
  all_goals
    have h := fallback_T
    simp only [tyT] at h
    simp [matchTy, tyT, h]

theorem subst_T (x : Ty) : tyT.subst (bound x) = x := by
  have hl : TyMap.look (bound x) tyT = some x := by simp [TyMap.look, keyT, bound_get]
  simp only [tyT] at hl ⊢
  rw [Ty.subst, hl]; rfl

theorem subst_ref (mt : Bool) (x : Ty) : (Ty.ref none mt tyT).subst (bound x) = .ref none mt x := by
  have hl : TyMap.look (bound x) (Ty.ref none mt tyT) = none := by
    have : (Ty.ref none mt tyT).paramKey = none := by cases mt <;> decide
    simp [TyMap.look, this]
  rw [Ty.subst, hl, subst_T]; rfl

theorem m0 : (SubstMap.ofList ([(kwT, Bounds.nil)].map fun p => (p.1, none)) : TyMap) = unbound := rfl

/-- The rest of the applicability test, once the source pattern matched. -/
theorem conv_yes (nm : Ty → Text) (f t : Ty) (c : Text) (ty : Ast.RTy) (goal : Option Ast.RTy) (others : Text → Option Ast.RTy) (x : Ty)
    (h : matchTy ty.ty f unbound = (true, bound x)) :
    isConvPossible nm (entry f t c).gen ty goal others = .yes (t.subst (bound x)) (nm (t.subst (bound x))) (bound x) := by
  unfold isConvPossible
  simp only [entry]
  rw [m0, h]
  simp [getTraitBounds, whereBounds, inlineBounds, traitNames, checkAll, satisfies, bound, hasUnbound, finishConv, finishTo,
    FTypes.makeUniqueIfNeed]

theorem conv_no (nm : Ty → Text) (f t : Ty) (c : Text) (ty : Ast.RTy) (goal : Option Ast.RTy) (others : Text → Option Ast.RTy)
    (h : (matchTy ty.ty f unbound).1 = false) : isConvPossible nm (entry f t c).gen ty goal others = .no := by
  unfold isConvPossible
  simp only [entry]
  rw [m0]
  split
  · rfl
  · rename_i h'; rw [h'] at h; cases h

/-- Matching a reference pattern. -/
theorem match_ref (mt : Bool) (p t : Ty) : matchTy t (.ref none mt p) unbound =
    match t with
    | .ref _ mt' e => if mt = mt' then matchTy e p unbound else (false, unbound)
    | _ => (false, unbound) := by
  cases t <;> simp [matchTy, fallback]

theorem isBox_def (b x : Ty) : IsBox b x ↔ ∃ q l, b = .path q l (.cons kwBox (.angle (.ty x .nil)) .nil) := Iff.rfl

/-- A map that is bound stays so. -/
theorem mono_bound {x : Ty} {m : TyMap} (h : Mono (bound x) m) : m = bound x := by
  have hk := h.keys
  have hl := h.le kwT x (by simp [bound_get])
  rcases m with ⟨l⟩
  simp only [bound, List.map_cons, List.map_nil] at hk
  match l, hk with
  | [(k, v)], hk =>
    simp only [List.map_cons, List.map_nil, List.cons.injEq, and_true] at hk
    subst hk
    rw [get1] at hl
    simp at hl
    rw [hl]; rfl

theorem match_box_no {b : Ty} (h : ∀ x, ¬ IsBox b x) : (matchTy b boxT unbound).1 = false := by
  have hb : ∀ t : Ty, bindPath (.cons kwBox (.angle (.ty tyT .nil)) .nil) t unbound = none := by
    intro t
    have : ¬ kwT = kwBox := by decide
    simp [bindPath, unbound_get, this]
  cases b
  case path q l s =>
    simp only [matchTy, boxT, matchPath, hb]
    split
    · rename_i hlen
      cases s with
      | nil => simp [Segs.len] at hlen
      | cons i a r =>
        cases r with
        | cons _ _ _ => simp [Segs.len] at hlen
        | nil =>
          simp only [matchSegs]
          split
          · rename_i hi
            cases a with
            | none => simp [matchArgs]
            | parens i o => simp [matchArgs]
            | angle g =>
              simp only [matchArgs]
              split
              · rename_i hg
                cases g with
                | nil => simp [GArgs.len] at hg
                | ty x r =>
                  cases r with
                  | nil => exact absurd ⟨q, l, by rw [← hi]; rfl⟩ (h x)
                  | _ => simp [GArgs.len] at hg
                | _ => simp [GArgs.len, matchG] at hg
              · rename_i hx
                rcases hq : (if (GArgs.ty tyT GArgs.nil).len = g.len then matchG g (GArgs.ty tyT GArgs.nil) unbound
                  else (false, unbound)) with ⟨a, m⟩
                cases a with
                | false => rfl
                | true => exact (hx m hq).elim
          · rfl
    · rfl
  all_goals simp [matchTy, boxT, fallback, hb]

theorem match_box {b x : Ty} (h : IsBox b x) (m : TyMap) (hm : matchTy b boxT unbound = (true, m)) : m = bound x := by
  obtain ⟨q, l, rfl⟩ := (isBox_def _ _).1 h
  have hb : ∀ t : Ty, bindPath (.cons kwBox (.angle (.ty tyT .nil)) .nil) t unbound = none := by
    intro t
    have : ¬ kwT = kwBox := by decide
    simp [bindPath, unbound_get, this]
  have hin : inside tyT x unbound = (x, bound x) := by simp [inside, keyT, unbound_get, set_unbound]
  simp only [matchTy, boxT, matchPath, hb, Segs.len, if_true, matchSegs, matchArgs, GArgs.len, matchG, hin] at hm
  have h1 := mono x x (bound x)
  rcases hx : matchTy x x (bound x) with ⟨a, m'⟩
  rw [hx] at hm h1
  cases a with
  | false => simp at hm
  | true =>
    simp [matchG, matchSegs] at hm
    rw [← hm]
    exact mono_bound h1

theorem match_box_free {b x : Ty} (h : IsBox b x) (hf : x.free [kwT] = true) : matchTy b boxT unbound = (true, bound x) := by
  obtain ⟨q, l, rfl⟩ := (isBox_def _ _).1 h
  have hb : ∀ t : Ty, bindPath (.cons kwBox (.angle (.ty tyT .nil)) .nil) t unbound = none := by
    intro t
    have : ¬ kwT = kwBox := by decide
    simp [bindPath, unbound_get, this]
  have hin : inside tyT x unbound = (x, bound x) := by simp [inside, keyT, unbound_get, set_unbound]
  have hr : matchTy x x (bound x) = (true, bound x) := by
    refine matchTy_refl [kwT] _ ?_ x hf
    intro k hk
    rw [bound_get] at hk
    by_cases e : kwT = k
    · simp [e]
    · simp [e] at hk
  simp [matchTy, boxT, matchPath, hb, Segs.len, matchSegs, matchArgs, GArgs.len, matchG, hin, hr]

/-- The code of every default conversion is used as it stands. -/
theorem code_plain (u : Macro.Unicode) (nm : Ty → Text) (m : TyMap) (e : Entry) (he : e ∈ defaultRules) :
    GenericCode.codeForConversion u nm m e.code.code = some e.code.code := by
  have h : ∀ e ∈ defaultRules, (∀ c ∈ e.code.code, Macro.ascii c = true) ∧ '!' ∉ e.code.code := by
    intro e he
    simp only [defaultRules, List.mem_cons, List.not_mem_nil, or_false] at he
    rcases he with rfl | rfl | rfl | rfl | rfl <;> decide +kernel
  exact GenericCode.C77_plain_code u nm m _ (h e he).1 (h e he).2

/-- The code of a default conversion, by form. -/
theorem code_forms : borrowRule.code.code = (Form.addr false).stmt toVar toVarType fromVar ∧
    borrowMutRule.code.code = (Form.addr true).stmt toVar toVarType fromVar ∧
    shareRule.code.code = Form.use.stmt toVar toVarType fromVar ∧
    unboxRule.code.code = Form.asRef.stmt toVar toVarType fromVar ∧
    unboxMutRule.code.code = Form.asMut.stmt toVar toVarType fromVar := by decide +kernel

/-- The type is an instance of the source pattern of the conversion, with `T` standing for `x`. -/
def Fits (t : Ty) (e : Entry) (x : Ty) : Prop := matchTy t e.gen.fromTy unbound = (true, bound x)

/-- The form of the source pattern decides. -/
theorem match_cases (e : Entry) (he : e ∈ defaultRules) (t : Ty) :
    (matchTy t e.gen.fromTy unbound).1 = false ∨ ∃ x f, matchTy t e.gen.fromTy unbound = (true, bound x) ∧
      Step t (e.gen.toTy.subst (bound x)) f ∧ e.code.code = f.stmt toVar toVarType fromVar := by
  obtain ⟨c1, c2, c3, c4, c5⟩ := code_forms
  simp only [defaultRules, List.mem_cons, List.not_mem_nil, or_false] at he
  rcases he with rfl | rfl | rfl | rfl | rfl
  · refine Or.inr ⟨t, .addr false, match_T t, ?_, c1⟩
    simp only [borrowRule, entry, subst_ref]; exact .borrow _ _
  · refine Or.inr ⟨t, .addr true, match_T t, ?_, c2⟩
    simp only [borrowMutRule, entry, subst_ref]; exact .borrow _ _
  · have hm := match_ref true tyT t
    simp only [shareRule, entry] at hm ⊢
    rw [hm]
    cases t
    case ref lt mt e =>
      cases mt with
      | false => exact Or.inl rfl
      | true =>
        refine Or.inr ⟨e, .use, by simp [match_T], ?_, c3⟩
        rw [subst_ref]; exact .share _ _
    all_goals exact Or.inl rfl
  · have hm := match_ref false boxT t
    simp only [unboxRule, entry] at hm ⊢
    rw [hm]
    cases t
    case ref lt mt e =>
      cases mt with
      | true => exact Or.inl rfl
      | false =>
        simp only [if_true]
        rcases hb : matchTy e boxT unbound with ⟨a, m⟩
        cases a with
        | false => exact Or.inl rfl
        | true =>
          by_cases h : ∃ x, IsBox e x
          · obtain ⟨x, hx⟩ := h
            refine Or.inr ⟨x, .asRef, by rw [match_box hx m hb], ?_, c4⟩
            rw [subst_ref]; exact .unbox _ _ _ hx
          · have := match_box_no (b := e) (fun x hx => h ⟨x, hx⟩)
            rw [hb] at this; cases this
    all_goals exact Or.inl rfl
  · have hm := match_ref true boxT t
    simp only [unboxMutRule, entry] at hm ⊢
    rw [hm]
    cases t
    case ref lt mt e =>
      cases mt with
      | false => exact Or.inl rfl
      | true =>
        simp only [if_true]
        rcases hb : matchTy e boxT unbound with ⟨a, m⟩
        cases a with
        | false => exact Or.inl rfl
        | true =>
          by_cases h : ∃ x, IsBox e x
          · obtain ⟨x, hx⟩ := h
            refine Or.inr ⟨x, .asMut, by rw [match_box hx m hb], ?_, c5⟩
            rw [subst_ref]; exact .unboxMut _ _ _ hx
          · have := match_box_no (b := e) (fun x hx => h ⟨x, hx⟩)
            rw [hb] at this; cases this
    all_goals exact Or.inl rfl

/-- Every default conversion is made by `entry`. -/
theorem entry_of (e : Entry) (he : e ∈ defaultRules) : ∃ f t c, e = entry f t c := by
  simp only [defaultRules, List.mem_cons, List.not_mem_nil, or_false] at he
  rcases he with rfl | rfl | rfl | rfl | rfl <;> exact ⟨_, _, _, rfl⟩

theorem ruleOf_yes (u : Macro.Unicode) (nm : Ty → Text) (dep : Nat) (e : Entry) (he : e ∈ defaultRules)
    (frm goal : TMap.RTy (Ty × List Text)) (look) (x : Ty) (h : matchTy frm.ty.1 e.gen.fromTy unbound = (true, bound x)) :
    ruleOf u nm dep e frm goal look =
      some (⟨nm (e.gen.toTy.subst (bound x)), (e.gen.toTy.subst (bound x), [])⟩, ⟨e.code, dep⟩) := by
  have hc := code_plain u nm (bound x) e he
  obtain ⟨f, t, c, rfl⟩ := entry_of e he
  unfold ruleOf
  rw [conv_yes nm f t c (view frm) (some (view goal)) _ x h]
  simp only [hc]
  rfl

theorem ruleOf_no (u : Macro.Unicode) (nm : Ty → Text) (dep : Nat) (e : Entry) (he : e ∈ defaultRules)
    (frm goal : TMap.RTy (Ty × List Text)) (look) (h : (matchTy frm.ty.1 e.gen.fromTy unbound).1 = false) :
    ruleOf u nm dep e frm goal look = none := by
  obtain ⟨f, t, c, rfl⟩ := entry_of e he
  unfold ruleOf
  rw [conv_no nm f t c (view frm) (some (view goal)) _ h]

theorem mem_rules (u : Macro.Unicode) (nm : Ty → Text) (cell : Nat) (r) :
    r ∈ rules u nm cell ↔ ∃ i e, defaultRules[i]? = some e ∧ r = ruleOf u nm (cell + i) e := by
  simp only [rules, List.mem_mapIdx]
  constructor
  · rintro ⟨i, hi, rfl⟩; exact ⟨i, _, List.getElem?_eq_getElem hi, rfl⟩
  · rintro ⟨i, e, he, rfl⟩
    obtain ⟨hi, rfl⟩ := List.getElem?_eq_some_iff.1 he
    exact ⟨i, hi, rfl⟩

/-- The text around the source variable. -/
def Form.around : Form → Text × Text
  | .addr false => ("&".toList, [])
  | .addr true => ("&mut ".toList, [])
  | .use => ([], [])
  | .asRef => ([], ".as_ref()".toList)
  | .asMut => ([], ".as_mut()".toList)

theorem expr_around (f : Form) (x : Text) : f.expr x = f.around.1 ++ x ++ f.around.2 := by
  rcases f with ⟨⟨⟩⟩ | _ | _ | _ <;> simp [Form.expr, Form.around]

/-- The code of a step in pieces. -/
def Form.pieces (f : Form) : List Piece :=
  [.lit kwLetMut, .ph toVar, .lit kwColon, .ph toVarType, .lit kwEq, .lit f.around.1, .ph fromVar, .lit f.around.2, .lit kwSemi]

theorem pieces_render (f : Form) : render f.pieces = f.stmt toVar toVarType fromVar := by
  simp only [Form.pieces, render, Form.stmt, expr_around, List.append_assoc, List.append_nil]

theorem pieces_lit (f : Form) : ∀ t, Piece.lit t ∈ f.pieces → '{' ∉ t := by
  intro t ht
  simp only [Form.pieces, List.mem_cons, Piece.lit.injEq, reduceCtorEq, false_or, List.not_mem_nil, or_false] at ht
  have h : ∀ f : Form, '{' ∉ f.around.1 ∧ '{' ∉ f.around.2 := by
    intro f; rcases f with ⟨⟨⟩⟩ | _ | _ | _ <;> decide
  rcases ht with rfl | rfl | rfl | rfl | rfl | rfl
  · decide
  · decide
  · decide
  · exact (h f).1
  · exact (h f).2
  · decide

/-! ## C80 -/

/-- **C80**: each default conversion is one of the expected steps between values, references and boxes, it has the code of that step, and
the new type is registered under its own name. -/
theorem C80_sound (u : Macro.Unicode) (nm : Ty → Text) (cell : Nat) (goal frm to_ : TMap.RTy (Ty × List Text)) (w : Convert.EdgeW)
    (h : TMap.Applied (rules u nm cell) goal frm to_ w) :
    ∃ f, Step frm.ty.1 to_.ty.1 f ∧ w.code.code = f.stmt phTo phType phFrom ∧
      to_.name = nm to_.ty.1 := by
  obtain ⟨r, hr, look, hl⟩ := h
  obtain ⟨i, e, he, rfl⟩ := (mem_rules _ _ _ _).1 hr
  have he := List.mem_of_getElem? he
  rcases match_cases e he frm.ty.1 with h | ⟨x, f, h1, h2, h3⟩
  · rw [ruleOf_no u nm _ e he frm goal look h] at hl; cases hl
  · rw [ruleOf_yes u nm _ e he frm goal look x h1] at hl
    cases hl
    exact ⟨f, h2, h3, rfl⟩

/-- **C80**: and every expected step is available, for every type that does not mention a type called `T`. -/
theorem C80_complete (u : Macro.Unicode) (nm : Ty → Text) (cell : Nat) (goal frm : TMap.RTy (Ty × List Text)) (t : Ty) (f : Form)
    (hf : frm.ty.1.free [kwT] = true) (h : Step frm.ty.1 t f) :
    ∃ w, TMap.Applied (rules u nm cell) goal frm ⟨nm t, (t, [])⟩ w ∧
      w.code.code = f.stmt phTo phType phFrom := by
  obtain ⟨c1, c2, c3, c4, c5⟩ := code_forms
  have go : ∀ (i : Nat) (e : Entry), defaultRules[i]? = some e → ∀ x, matchTy frm.ty.1 e.gen.fromTy unbound = (true, bound x) →
      TMap.Applied (rules u nm cell) goal frm ⟨nm (e.gen.toTy.subst (bound x)), (e.gen.toTy.subst (bound x), [])⟩ ⟨e.code, cell + i⟩ :=
    fun i e he x hx => ⟨_, (mem_rules _ _ _ _).2 ⟨i, e, he, rfl⟩, fun _ => none, ruleOf_yes u nm _ e (List.mem_of_getElem? he) frm goal _ x hx⟩
  rcases frm with ⟨n, ⟨ty, im⟩⟩
  simp only at hf h go ⊢
  cases h with
  | borrow mt =>
    cases mt with
    | false => exact ⟨_, by simpa [borrowRule, entry, subst_ref] using go 0 borrowRule rfl ty (match_T ty), c1⟩
    | true => exact ⟨_, by simpa [borrowMutRule, entry, subst_ref] using go 1 borrowMutRule rfl ty (match_T ty), c2⟩
  | share lt x =>
    refine ⟨⟨shareRule.code, cell + 2⟩, ?_, c3⟩
    have := go 2 shareRule rfl x (by simp only [shareRule, entry]; rw [match_ref]; simp [match_T])
    simpa [shareRule, entry, subst_ref] using this
  | unbox lt b x hx =>
    refine ⟨⟨unboxRule.code, cell + 3⟩, ?_, c4⟩
    have hxf : x.free [kwT] = true := by
      obtain ⟨q, l, rfl⟩ := hx
      simp only [Ty.free, Segs.free, Args.free, GArgs.free, Bool.and_eq_true] at hf
      simp_all
    have := go 3 unboxRule rfl x (by simp only [unboxRule, entry]; rw [match_ref]; simp [match_box_free hx hxf])
    simpa [unboxRule, entry, subst_ref] using this
  | unboxMut lt b x hx =>
    refine ⟨⟨unboxMutRule.code, cell + 4⟩, ?_, c5⟩
    have hxf : x.free [kwT] = true := by
      obtain ⟨q, l, rfl⟩ := hx
      simp only [Ty.free, Segs.free, Args.free, GArgs.free, Bool.and_eq_true] at hf
      simp_all
    have := go 4 unboxMutRule rfl x (by simp only [unboxMutRule, entry]; rw [match_ref]; simp [match_box_free hx hxf])
    simpa [unboxMutRule, entry, subst_ref] using this

/-- **C80**: the line written for a step declares the new variable with its type by the expression of the step. -/
theorem C80_code (f : Form) (params : List Text) (out inVar ty ret : Text) (h : ∀ n ∈ [out, inVar, ty, ret], '{' ∉ n) :
    (TypeConvCode.mk (f.stmt phTo phType phFrom) params).generateCode out inVar ty ret =
      kwIndent ++ f.stmt out ty inVar ++ kwNl := by
  have h1 := C09_generate_code f.pieces params out inVar ty ret
    (by intro n hn; simp only [List.mem_cons, List.not_mem_nil, or_false] at hn; exact h n (by simp; exact hn))
    (by
      intro t ht
      simp only [Form.pieces, List.mem_cons, Piece.ph.injEq, reduceCtorEq, false_or, List.not_mem_nil, or_false] at ht
      rcases ht with rfl | rfl | rfl <;> simp [tokens])
    (by
      intro t ht tok htok
      simp only [tokens, List.mem_cons, List.not_mem_nil, or_false] at htok
      rcases htok with rfl | rfl | rfl | rfl <;> exact inert_of_not_mem '{' _ _ (pieces_lit f t ht))
  rw [pieces_render] at h1
  have e1 : ¬ toVarType = toVar := by decide
  have e2 : ¬ toVarType = fromVar := by decide
  have e3 : ¬ fromVar = toVar := by decide
  refine h1.trans ?_
  simp only [Form.pieces, instantiate, Form.stmt, expr_around, e1, e2, e3, if_true, if_false, List.append_assoc, List.append_nil]
  rfl

theorem isBox_ref {lt : Option Text} {mt : Bool} {e x : Ty} : ¬ IsBox (.ref lt mt e) x := by
  rintro ⟨q, l, h⟩; cases h

theorem isBox_unique {b x y : Ty} (h : IsBox b x) (h' : IsBox b y) : x = y := by
  obtain ⟨q, l, rfl⟩ := h
  obtain ⟨q', l', h'⟩ := h'
  cases h'; rfl

theorem hasTy_ref {v : Val} {lt : Option Text} {mt : Bool} {e : Ty} (h : v.HasTy (.ref lt mt e)) : ∃ v0, v = .ref mt v0 ∧ v0.HasTy e := by
  cases v with
  | obj i => exact absurd rfl (h.1 lt mt e)
  | box v => obtain ⟨x, hx, _⟩ := h; exact absurd hx isBox_ref
  | ref m v => obtain ⟨lt', e', h1, h2⟩ := h; cases h1; exact ⟨v, rfl, h2⟩

theorem hasTy_box {v : Val} {b x : Ty} (hb : IsBox b x) (h : v.HasTy b) : ∃ v0, v = .box v0 ∧ v0.HasTy x := by
  cases v with
  | obj i => exact absurd hb (h.2 x)
  | box v => obtain ⟨y, hy, h2⟩ := h; rw [isBox_unique hb hy]; exact ⟨v, rfl, h2⟩
  | ref m v => obtain ⟨lt', e', rfl, h2⟩ := h; exact absurd hb isBox_ref

theorem step_value {t t' : Ty} {f : Form} (h : Step t t' f) (v : Val) (hv : v.HasTy t) :
    ∃ v', f.run v = some v' ∧ v'.HasTy t' ∧ v'.object = v.object ∧ (v'.canWrite → v.canWrite) := by
  cases h with
  | borrow mt => exact ⟨.ref mt v, rfl, ⟨_, _, rfl, hv⟩, rfl, fun h => h.2⟩
  | share lt e =>
    obtain ⟨v0, rfl, h0⟩ := hasTy_ref hv
    exact ⟨.ref false v0, rfl, ⟨_, _, rfl, h0⟩, rfl, fun h => absurd h.1 (by decide)⟩
  | unbox lt b x hx =>
    obtain ⟨v0, rfl, h0⟩ := hasTy_ref hv
    obtain ⟨v1, rfl, h1⟩ := hasTy_box hx h0
    exact ⟨.ref false v1, rfl, ⟨_, _, rfl, h1⟩, rfl, fun h => absurd h.1 (by decide)⟩
  | unboxMut lt b x hx =>
    obtain ⟨v0, rfl, h0⟩ := hasTy_ref hv
    obtain ⟨v1, rfl, h1⟩ := hasTy_box hx h0
    exact ⟨.ref true v1, rfl, ⟨_, _, rfl, h1⟩, rfl, fun h => h⟩

/-- **C80**: along any chain of these conversions every expression compiles, the last variable has the type the chain ends in, it leads
to the very object the first variable leads to, and it allows changing the object only if the first variable does. -/
theorem C80_same_object {t t' : Ty} {fs : List Form} (h : Chain t fs t') : ∀ v : Val, v.HasTy t →
    ∃ v', runAll fs v = some v' ∧ v'.HasTy t' ∧ v'.object = v.object ∧ (v'.canWrite → v.canWrite) := by
  induction h with
  | nil t => intro v hv; exact ⟨v, rfl, hv, rfl, fun h => h⟩
  | cons hs _ ih =>
    intro v hv
    obtain ⟨v1, r1, t1, o1, w1⟩ := step_value hs v hv
    obtain ⟨v2, r2, t2, o2, w2⟩ := ih v1 t1
    exact ⟨v2, by simp [runAll, r1, r2], t2, o2.trans o1, fun h => w1 (w2 h)⟩

/-- Whether the object can be changed depends on the type only. -/
theorem canWrite_type : ∀ (v v' : Val) (t : Ty), v.HasTy t → v'.HasTy t → (v.canWrite ↔ v'.canWrite)
  | .obj i, v', t, h, h' => by
    cases v' with
    | obj j => exact Iff.rfl
    | box v => obtain ⟨x, hx, _⟩ := h'; exact absurd hx (h.2 x)
    | ref m v => obtain ⟨lt, e, rfl, _⟩ := h'; exact absurd rfl (h.1 lt m e)
  | .box v, v', t, h, h' => by
    obtain ⟨x, hx, hv⟩ := h
    obtain ⟨w, rfl, hw⟩ := hasTy_box hx h'
    exact canWrite_type v w x hv hw
  | .ref m v, v', t, h, h' => by
    obtain ⟨lt, e, rfl, hv⟩ := h
    obtain ⟨w, rfl, hw⟩ := hasTy_ref h'
    simp only [Val.canWrite, canWrite_type v w e hv hw]

/-- Every type has a value. -/
theorem inhabited : ∀ (n : Nat) (t : Ty), sizeOf t ≤ n → ∃ v : Val, v.HasTy t
  | 0, t, h => by cases t <;> simp at h
  | n + 1, t, h => by
    by_cases hb : ∃ x, IsBox t x
    · obtain ⟨x, hx⟩ := hb
      have : sizeOf x ≤ n := by
        obtain ⟨q, l, rfl⟩ := hx
        simp only [Ty.path.sizeOf_spec, Segs.cons.sizeOf_spec, Args.angle.sizeOf_spec, GArgs.ty.sizeOf_spec] at h
        omega
      obtain ⟨v, hv⟩ := inhabited n x this
      exact ⟨.box v, x, hx, hv⟩
    · by_cases hr : ∃ lt mt e, t = .ref lt mt e
      · obtain ⟨lt, mt, e, rfl⟩ := hr
        have : sizeOf e ≤ n := by
          simp only [Ty.ref.sizeOf_spec] at h; omega
        obtain ⟨v, hv⟩ := inhabited n e this
        exact ⟨.ref mt v, lt, e, rfl, hv⟩
      · exact ⟨.obj 0, fun lt mt e he => hr ⟨lt, mt, e, he⟩, fun x hx => hb ⟨x, hx⟩⟩

/-- **C80**: a shared reference never becomes an exclusive one: no value of a type reached from `&e` allows changing the object. -/
theorem C80_shared_stays_shared {lt : Option Text} {e t' : Ty} {fs : List Form} (h : Chain (.ref lt false e) fs t') (v : Val)
    (hv : v.HasTy t') : ¬ v.canWrite := by
  intro hw
  obtain ⟨v0, h0⟩ := inhabited _ (.ref lt false e) (Nat.le_refl _)
  obtain ⟨v1, _, t1, _, w1⟩ := C80_same_object h v0 h0
  obtain ⟨v2, rfl, _⟩ := hasTy_ref h0
  exact absurd (w1 ((canWrite_type _ _ _ hv t1).1 hw)).1 (by decide)

/-- **C80**: ownership is never given up: every chain ends in a reference (unless nothing is done). -/
theorem C80_only_references {t t' : Ty} {fs : List Form} (h : Chain t fs t') (hn : fs ≠ []) : ∃ mt e, t' = .ref none mt e := by
  induction h with
  | nil => exact absurd rfl hn
  | @cons a b c f fs hs hc ih =>
    cases fs with
    | nil =>
      cases hc
      cases hs with
      | borrow mt => exact ⟨_, _, rfl⟩
      | share => exact ⟨_, _, rfl⟩
      | unbox => exact ⟨_, _, rfl⟩
      | unboxMut => exact ⟨_, _, rfl⟩
    | cons g gs => exact ih (by simp)

/-! ### The search with these conversions -/

theorem norm_ref (lt : Option Text) (mt : Bool) (t : Ty) : (Ty.ref lt mt t).norm = .ref none mt t.norm := by
  simp [Ty.norm, Ty.stripLt, Ty.stripDyn]

theorem norm_box {b x : Ty} (h : IsBox b x) : IsBox b.norm x.norm := by
  obtain ⟨q, l, rfl⟩ := h
  exact ⟨q, l, by simp [Ty.norm, Ty.stripLt, Ty.stripDyn, Segs.stripLt, Segs.stripDyn, Args.stripLt, Args.stripDyn, GArgs.stripLt, GArgs.stripDyn]⟩

theorem step_norm {t t' : Ty} {f : Form} (h : Step t t' f) : Step t.norm t'.norm f := by
  cases h with
  | borrow mt => rw [norm_ref]; exact .borrow _ _
  | share lt e => rw [norm_ref, norm_ref]; exact .share _ _
  | unbox lt b x hx => rw [norm_ref, norm_ref]; exact .unbox _ _ _ (norm_box hx)
  | unboxMut lt b x hx => rw [norm_ref, norm_ref]; exact .unboxMut _ _ _ (norm_box hx)

theorem step_plain {t t' : Ty} {f : Form} (h : Step t t' f) (hp : t.plain = true) : t'.plain = true := by
  cases h with
  | borrow mt => simpa [Ty.plain] using hp
  | share lt e => simpa [Ty.plain] using hp
  | unbox lt b x hx => obtain ⟨q, l, rfl⟩ := hx; simp_all [Ty.plain, Segs.plain, Args.plain, GArgs.plain]
  | unboxMut lt b x hx => obtain ⟨q, l, rfl⟩ := hx; simp_all [Ty.plain, Segs.plain, Args.plain, GArgs.plain]

/-- The types of the map are plain and registered under their own names. -/
def Named (nm : Ty → Text) (g : Graph.Graph (TMap.RTy (Ty × List Text)) Convert.EdgeW) : Prop :=
  ∀ (i : Nat) q, g.nodes[i]? = some q → q.ty.1.plain = true ∧ q.name = nm q.ty.1

/-- The edge has the code of the form. -/
def CodeIs (g : Graph.Graph (TMap.RTy (Ty × List Text)) Convert.EdgeW) (e : Nat) (f : Form) : Prop :=
  ∃ ed, g.edges[e]? = some ed ∧ ed.w.code.code = f.stmt phTo phType phFrom

/-- **C80**: in a type map without other conversions (types without `dyn`/`impl`, each registered under its own name, and names that
identify types up to lifetimes), a conversion that the search finds or builds is a chain of the steps above (up to lifetimes) from the
given type to the wanted one, and its edges carry the code of these steps in order. -/
theorem C80_search (u : Macro.Unicode) (nm : Ty → Text) (hnm : ∀ t t', t.plain = true → t'.plain = true → nm t = nm t' → Same t t')
    (cell : Nat) (P : Graph.PopFn) (ord : List Nat → List Nat) (hord : ∀ l, (ord l).Perm l)
    (tm tm' : TMap.TM (Ty × List Text) Convert.EdgeW) (hok : TMap.Ok tm) (hno : tm.g.edges = []) (hn : Named nm tm.g)
    (a b : Nat) (A B : TMap.RTy (Ty × List Text)) (ha : tm.g.nodes[a]? = some A) (hb : tm.g.nodes[b]? = some B) (p : List Nat)
    (h : TMap.findOrBuildPath P ord (rules u nm cell) tm a b = some (tm', .ok p)) :
    ∃ fs : List Form, Chain A.ty.1.norm fs B.ty.1.norm ∧ fs.length = p.length ∧
      ∀ (i : Nat) e f, p[i]? = some e → fs[i]? = some f → CodeIs tm'.g e f := by
  have hal := (List.getElem?_eq_some_iff.1 ha).1
  have hbl := (List.getElem?_eq_some_iff.1 hb).1
  obtain ⟨n1, n2⟩ := TMap.C48_only_instances P ord hord (rules u nm cell) tm tm' hok a b hal B hb (.ok p) h
  obtain ⟨tm2, r, h2, hok2, hgr, hr⟩ := TMap.C48_find_or_build P ord hord (rules u nm cell) tm hok a b hal hbl
  rw [h] at h2
  cases h2
  have hpath : Graph.IsPath tm'.g a b p := by
    rcases hr with ⟨q, hq, hq2⟩ | ⟨hq, _⟩
    · cases hq; exact hq2
    · cases hq
  have hder : ∀ q, TMap.Derived (rules u nm cell) B tm.g q → q.ty.1.plain = true := by
    intro q hq
    induction hq with
    | old h => exact (hn _ _ h).1
    | rule _ hap ih => obtain ⟨f, hs, _, _⟩ := C80_sound u nm cell _ _ _ _ hap; exact step_plain hs ih
  have hn' : Named nm tm'.g := by
    intro i q hq
    rcases Nat.lt_or_ge i tm.g.nodes.length with hlt | hge
    · refine hn i q ?_
      have := hgr.ext.node (List.getElem?_eq_getElem hlt)
      rw [hq] at this
      cases this
      exact List.getElem?_eq_getElem hlt
    · obtain ⟨frm, w, h1, h2⟩ := n1 i q hq hge
      obtain ⟨f, hs, _, hnm'⟩ := C80_sound u nm cell _ _ _ _ h2
      exact ⟨step_plain hs (hder frm h1), hnm'⟩
  have hstep : ∀ (e : Nat) ed, tm'.g.edges[e]? = some ed → ∀ x y, tm'.g.nodes[ed.src]? = some x → tm'.g.nodes[ed.dst]? = some y →
      ∃ f, Step x.ty.1.norm y.ty.1.norm f ∧ CodeIs tm'.g e f := by
    intro e ed he x y hx hy
    obtain ⟨frm, q, tt, h1, h2, h3, h4⟩ := n2 e ed he (by simp [hno])
    rw [hx] at h1; cases h1
    rw [hy] at h2; cases h2
    obtain ⟨f, hs, hc, hnm'⟩ := C80_sound u nm cell _ _ _ _ h3
    refine ⟨f, ?_, ed, he, hc⟩
    have hsame : Same y.ty.1 tt.ty.1 :=
      hnm _ _ (hn' _ _ hy).1 (step_plain hs (hn' _ _ hx).1) (by rw [← (hn' _ _ hy).2, h4, hnm'])
    have := (C18_norm_iff_same _ _).2 hsame
    rw [this]
    exact step_norm hs
  have hA : tm'.g.nodes[a]? = some A := hgr.ext.node ha
  have hB : tm'.g.nodes[b]? = some B := hgr.ext.node hb
  clear h n1 n2 hr ha hb hal hbl
  induction p generalizing a A with
  | nil =>
    have : a = b := hpath
    subst this
    rw [hA] at hB; cases hB
    exact ⟨[], .nil _, rfl, by simp⟩
  | cons e es ih =>
    obtain ⟨ed, h1, rfl, h3⟩ := hpath
    have hlt := (hok2.wf ed (List.mem_of_getElem? h1)).2
    obtain ⟨f, hs, hc⟩ := hstep e ed h1 A _ hA (List.getElem?_eq_getElem hlt)
    obtain ⟨fs, g1, g2, g3⟩ := ih ed.dst _ h3 (List.getElem?_eq_getElem hlt)
    refine ⟨f :: fs, .cons hs g1, by simp [g2], ?_⟩
    intro i e' f' hi hf
    cases i with
    | zero => simp at hi hf; subst hi hf; exact hc
    | succ i => exact g3 i e' f' (by simpa using hi) (by simpa using hf)

/-! ### Every short chain is found -/

/-- A walk of `n` steps. -/
inductive Walk (S : Ty → Ty → Prop) : Nat → Ty → Ty → Prop
  | nil (t : Ty) : Walk S 0 t t
  | snoc {n : Nat} {t t' t'' : Ty} (r : Walk S n t t') (h : S t' t'') : Walk S (n + 1) t t''

theorem Walk.cons {S : Ty → Ty → Prop} {n : Nat} {t t' t'' : Ty} (h : S t t') (r : Walk S n t' t'') : Walk S (n + 1) t t'' := by
  induction r with
  | nil => exact .snoc (.nil _) h
  | snoc _ hs ih => exact .snoc (ih h) hs

/-- Types of a map for which the search is complete: no lifetimes, no `dyn`/`impl`, no type called `T`. -/
def Simple (t : Ty) : Prop := t.plain = true ∧ t.norm = t ∧ t.free [kwT] = true

/-- The search finds the end of a short walk, for rules that are exactly the steps. -/
theorem found_of (nm : Ty → Text) (hnm : ∀ t t', t.plain = true → t'.plain = true → nm t = nm t' → Same t t')
    (rules : List (TMap.Rule (Ty × List Text) Convert.EdgeW)) (S : Ty → Ty → Prop)
    (hsound : ∀ goal frm to_ w, TMap.Applied rules goal frm to_ w → S frm.ty.1 to_.ty.1 ∧ to_.name = nm to_.ty.1)
    (hcompl : ∀ t t' goal, t.free [kwT] = true → S t t' → ∃ rule ∈ rules, ∀ frm look, frm.ty.1 = t →
      ∃ tt w, rule frm goal look = some (tt, w) ∧ tt.name = nm t')
    (hsimple : ∀ t t', S t t' → Simple t → Simple t') (hne : ∀ t t', S t t' → t ≠ t')
    (P : Graph.PopFn) (ord : List Nat → List Nat) (hord : ∀ l, (ord l).Perm l)
    (tm : TMap.TM (Ty × List Text) Convert.EdgeW) (hok : TMap.Ok tm)
    (hs : ∀ (i : Nat) q, tm.g.nodes[i]? = some q → Simple q.ty.1 ∧ q.name = nm q.ty.1)
    (a b : Nat) (A B : TMap.RTy (Ty × List Text)) (ha : tm.g.nodes[a]? = some A) (hb : tm.g.nodes[b]? = some B)
    (k : Nat) (hk : k ≤ 7) (hw : Walk S k A.ty.1 B.ty.1) :
    ∃ tm' p, TMap.findOrBuildPath P ord rules tm a b = some (tm', .ok p) := by
  have hder : ∀ q, TMap.Derived rules B tm.g q → Simple q.ty.1 ∧ q.name = nm q.ty.1 := by
    intro q hq
    induction hq with
    | old h => exact hs _ _ h
    | rule _ hap ih =>
      obtain ⟨h1, h2⟩ := hsound _ _ _ _ hap
      exact ⟨hsimple _ _ h1 ih.1, h2⟩
  have hinj : ∀ t t', Simple t → Simple t' → nm t = nm t' → t = t' := by
    intro t t' h h' e
    have := (C18_norm_iff_same _ _).2 (hnm t t' h.1 h'.1 e)
    rw [h.2.1, h'.2.1] at this
    exact this
  have hA := hs _ _ ha
  have key : ∀ n t, Walk S n A.ty.1 t → Simple t ∧ TMap.Chain tm rules B a n (nm t) := by
    intro n t hw
    clear hk
    generalize hT : A.ty.1 = T at hw
    induction hw with
    | nil => subst hT; exact ⟨hA.1, by rw [← hA.2]; exact .start ha⟩
    | @snoc n t t' t'' _ hst ih =>
      obtain ⟨i1, i2⟩ := ih hT
      have i3 := hsimple _ _ hst i1
      obtain ⟨rule, hr, hall⟩ := hcompl _ _ B i1.2.2 hst
      refine ⟨i3, .generic i2 hr ?_ fun e => hne _ _ hst (hinj _ _ i1 i3 e)⟩
      intro f look hf hfn _
      obtain ⟨f1, f2⟩ := hder f hf
      exact hall f look (hinj _ _ f1 i1 (by rw [← f2, hfn]))
  have hB := hs _ _ hb
  obtain ⟨tm', p, h, _⟩ := TMap.C48_complete P ord hord rules tm hok a b k (List.getElem?_eq_some_iff.1 ha).1 B hb hk
    (by rw [hB.2]; exact (key k _ hw).2)
  exact ⟨tm', p, h⟩

theorem step_simple {t t' : Ty} {f : Form} (h : Step t t' f) (hs : Simple t) : Simple t' := by
  obtain ⟨h1, h2, h3⟩ := hs
  refine ⟨step_plain h h1, ?_, ?_⟩
  · cases h with
    | borrow mt => rw [norm_ref, h2]
    | share lt e => rw [norm_ref] at h2 ⊢; simp only [Ty.ref.injEq] at h2; rw [h2.2.2]
    | unbox lt b x hx =>
      rw [norm_ref] at h2 ⊢
      simp only [Ty.ref.injEq] at h2
      have := norm_box hx
      rw [h2.2.2] at this
      rw [isBox_unique this hx]
    | unboxMut lt b x hx =>
      rw [norm_ref] at h2 ⊢
      simp only [Ty.ref.injEq] at h2
      have := norm_box hx
      rw [h2.2.2] at this
      rw [isBox_unique this hx]
  · have hbox : ∀ {b x : Ty}, IsBox b x → b.free [kwT] = true → x.free [kwT] = true := by
      rintro b x ⟨q, l, rfl⟩ hf
      simp only [Ty.free, Segs.free, Args.free, GArgs.free, Bool.and_eq_true] at hf
      simp_all
    cases h with
    | borrow mt => simpa [Ty.free] using h3
    | share lt e => simpa [Ty.free] using h3
    | unbox lt b x hx => simp only [Ty.free] at h3 ⊢; exact hbox hx h3
    | unboxMut lt b x hx => simp only [Ty.free] at h3 ⊢; exact hbox hx h3

theorem step_ne {t t' : Ty} {f : Form} (h : Step t t' f) : t ≠ t' := by
  have hbox : ∀ {b x : Ty}, IsBox b x → sizeOf x < sizeOf b := by
    rintro b x ⟨q, l, rfl⟩
    simp only [Ty.path.sizeOf_spec, Segs.cons.sizeOf_spec, Args.angle.sizeOf_spec, GArgs.ty.sizeOf_spec]
    omega
  cases h with
  | borrow mt => intro e; have := congrArg sizeOf e; simp only [Ty.ref.sizeOf_spec] at this; omega
  | share lt e => intro e; cases e
  | unbox lt b x hx => intro e; cases e; have := hbox hx; omega
  | unboxMut lt b x hx => intro e; cases e; have := hbox hx; omega

theorem rule_uniform (u : Macro.Unicode) (nm : Ty → Text) (cell : Nat) {r} (hr : r ∈ rules u nm cell)
    (frm frm' goal goal' : TMap.RTy (Ty × List Text)) (look look') (h : frm.ty.1 = frm'.ty.1) : r frm goal look = r frm' goal' look' := by
  obtain ⟨i, e, he, rfl⟩ := (mem_rules _ _ _ _).1 hr
  have he := List.mem_of_getElem? he
  rcases match_cases e he frm.ty.1 with h1 | ⟨x, f, h1, _, _⟩
  · rw [ruleOf_no u nm _ e he frm goal look h1, ruleOf_no u nm _ e he frm' goal' look' (by rw [← h]; exact h1)]
  · rw [ruleOf_yes u nm _ e he frm goal look x h1, ruleOf_yes u nm _ e he frm' goal' look' x (by rw [← h]; exact h1)]

/-- **C80**: and it is not missed: whatever else the map knows, if the wanted type is at the end of a chain of at most seven steps, a
conversion is found (types without lifetimes, `dyn`, `impl` and not mentioning a type called `T`, each registered under its own name). -/
theorem C80_found (u : Macro.Unicode) (nm : Ty → Text) (hnm : ∀ t t', t.plain = true → t'.plain = true → nm t = nm t' → Same t t')
    (cell : Nat) (P : Graph.PopFn) (ord : List Nat → List Nat) (hord : ∀ l, (ord l).Perm l)
    (tm : TMap.TM (Ty × List Text) Convert.EdgeW) (hok : TMap.Ok tm)
    (hs : ∀ (i : Nat) q, tm.g.nodes[i]? = some q → Simple q.ty.1 ∧ q.name = nm q.ty.1)
    (a b : Nat) (A B : TMap.RTy (Ty × List Text)) (ha : tm.g.nodes[a]? = some A) (hb : tm.g.nodes[b]? = some B)
    (fs : List Form) (hlen : fs.length ≤ 7) (hc : Chain A.ty.1 fs B.ty.1) :
    ∃ tm' p, TMap.findOrBuildPath P ord (rules u nm cell) tm a b = some (tm', .ok p) := by
  refine found_of nm hnm (rules u nm cell) (fun t t' => ∃ f, Step t t' f) ?_ ?_ (fun t t' h hs => h.elim fun f h => step_simple h hs)
    (fun t t' h => h.elim fun f h => step_ne h) P ord hord tm hok hs a b A B ha hb fs.length hlen ?_
  · intro goal frm to_ w h
    obtain ⟨f, h1, _, h2⟩ := C80_sound u nm cell goal frm to_ w h
    exact ⟨⟨f, h1⟩, h2⟩
  · intro t t' goal hf ⟨f, h⟩
    obtain ⟨w, ⟨r, hr, look, hl⟩, _⟩ := C80_complete u nm cell goal ⟨[], (t, [])⟩ t' f hf h
    exact ⟨r, hr, fun frm look' he => ⟨_, w, (rule_uniform u nm cell hr frm _ goal goal look' look he).trans hl, rfl⟩⟩
  · generalize A.ty.1 = x at hc
    generalize B.ty.1 = y at hc
    induction hc with
    | nil t => exact .nil t
    | cons h _ ih => exact .cons ⟨_, h⟩ (ih (by simp only [List.length_cons] at hlen; omega))

/-! ### Not vacuous -/

/-- The hypothesis on names holds for the normalised token sequence under any injective spelling. -/
example (spell : List Tok → Text) (hi : ∀ a b, spell a = spell b → a = b) (t t' : Ty) (h : t.plain = true) (h' : t'.plain = true)
    (e : spell t.normName = spell t'.normName) : Same t t' := (C18_name_iff h h').1 (hi _ _ e)

/-- The type `F`. -/
def tyF : Ty := .path none false (.cons ['F'] .none .nil)
/-- The type `Box<F>`. -/
def boxF : Ty := .path none false (.cons kwBox (.angle (.ty tyF .nil)) .nil)
/-- A spelling that tells the types of the examples apart. -/
def spellTok : Tok → Char
  | .ident [c] => c
  | .ident _ => 'X'
  | .amp => '&'
  | .mut_ => 'm'
  | .lt => '<'
  | .gt => '>'
  | _ => '?'
/-- Names for the examples. -/
def exNm (t : Ty) : Text := t.normName.map spellTok
/-- The map with the two types. -/
def exMap (a b : Ty) : TMap.TM (Ty × List Text) Convert.EdgeW :=
  (TMap.addNode (TMap.addNode TMap.empty ⟨exNm a, (a, [])⟩).1 ⟨exNm b, (b, [])⟩).1
/-- Length of the conversion found. -/
def exFind (a b : Ty) : Option (Option Nat) :=
  (TMap.findOrBuildPath Graph.firstMin id (rules GenericCode.plain exNm 0) (exMap a b) 0 1).map fun x =>
    match x.2 with
    | .ok p => some p.length
    | _ => none

example : Chain boxF [.addr true, .asMut, .use] (.ref none false tyF) :=
  .cons (.borrow true _) (.cons (.unboxMut _ _ _ ⟨none, false, rfl⟩) (.cons (.share _ _) (.nil _)))
example : runAll [.addr true, .asMut, .use] (.box (.obj 7)) = some (.ref false (.obj 7)) := rfl
example : exFind boxF (.ref none false tyF) = some (some 2) := by decide +kernel
example : exFind (.ref none true boxF) (.ref none true tyF) = some (some 1) := by decide +kernel
example : Named exNm (exMap boxF (.ref none false tyF)).g := by
  intro i q h
  have : (exMap boxF (.ref none false tyF)).g.nodes = [⟨exNm boxF, (boxF, [])⟩, ⟨exNm (.ref none false tyF), (.ref none false tyF, [])⟩] := by
    decide +kernel
  rw [this] at h
  have := List.mem_of_getElem? h
  simp only [List.mem_cons, List.not_mem_nil, or_false] at this
  rcases this with rfl | rfl <;> exact ⟨by decide, rfl⟩

example : ∀ t ∈ [boxF, .ref none false tyF], Simple t := by
  intro t ht
  simp only [List.mem_cons, List.not_mem_nil, or_false] at ht
  rcases ht with rfl | rfl <;> exact ⟨by decide, by decide, by decide⟩

/-- **C80 (finding)**: a value of type `X` can be passed where `&mut X` is wanted: when no more specific
rule applies, the function then changes the converted local value, and the foreign caller does not see the change. -/
theorem C80_finding_mut_of_copy (t : Ty) : Chain t [.addr true] (.ref none true t) := .cons (.borrow true t) (.nil _)

/-- **C80**: the lines of a chain never ask for a variable that is not declared `mut`, provided the first variable is declared
`mut`; and if it is not (it is a parameter of the generated function), the only bad case is that the chain begins by borrowing
the parameter exclusively. -/
theorem C80_mut_variables (fs : List Form) :
    Allowed true fs ∧ (Allowed false fs ↔ ∀ fs', fs ≠ .addr true :: fs') := by
  have h1 : ∀ l : List Form, Allowed true l := by
    intro l
    induction l with
    | nil => trivial
    | cons f l ih => exact ⟨by cases f with | addr b => cases b <;> simp [Form.allowed] | _ => trivial, ih⟩
  refine ⟨h1 fs, ?_⟩
  cases fs with
  | nil => simp [Allowed]
  | cons f fs =>
    simp only [Allowed, h1 fs, and_true]
    cases f with
    | addr b => cases b <;> simp [Form.allowed]
    | _ => simp [Form.allowed]

/-- **C80 (finding)**: the shortest conversion from `X` to `&mut X` is that borrow and nothing else, so an argument declared `&mut X`
whose value arrives as an `X` (say `&mut i32`, which arrives as the parameter `a: i32` of the generated function; parameters are
written without `mut`) gives a function that does not compile, although generation succeeds. -/
theorem C80_finding_mut_parameter (t : Ty) (f : Form) (h : Step t (.ref none true t) f) (ht : ∀ lt mt e, t ≠ .ref lt mt e) :
    f = .addr true ∧ ¬ Allowed false [f] := by
  cases h with
  | borrow mt t => exact ⟨rfl, by simp [Allowed, Form.allowed]⟩
  | unboxMut lt b x hb => exact absurd rfl (ht lt true b)

example : Step tyT (.ref none true tyT) (.addr true) := .borrow true tyT

end Flapi.Builtin
