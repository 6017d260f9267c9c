import Verif.Cpp.Interface
import Verif.Cpp.ArgsProps
import Verif.Core.NameGenProps
import Verif.Lang.ExportedProps
import Verif.Lang.RegisterProps
/-! # C++: the code generated for a callback interface agrees with itself (C66) -/
namespace Flapi.CppInterface

open Flapi.Cpp (TypeInfo MethodSig Converter cArgsWithTypes cppArgsWithTypes convertArgs convArg comma requiredIncludes commaJoin)
open Flapi.NameGen (newUniqueName)
open Flapi.Exported (lit SelfVar RStmt RustFn Err orErr Call World M bind_ok orErr_ok convAll)
open Flapi.Register

/-! ## Specification -/

/-- A function pointer that goes from C++ to Rust: the method's name, its arguments (name and type) and its result. -/
structure Slot where
  name : Text
  args : List (Text × FTy)
  ret : FTy

/-- The slot of a method: the name and the argument names are those of the method; the type of each argument is the one the type map
gives for it in the direction out of Rust, the type of the result the one for the direction into Rust (`void` if there is none). -/
structure IsSlot {σ} (tm : TypeMap σ) (m : IMethod) (s : Slot) : Prop where
  name : s.name = m.name
  count : s.args.length = m.args.length
  args : ∀ (k : Nat) (a : Text × Text), m.args[k]? = some a →
    ∃ (t : FTy) (s1 s2 : σ), s.args[k]? = some (a.1, t) ∧ tm.mapType s1 false a.2 = some (t, s2)
  ret : ∀ ty, m.output = some ty → ∃ (s1 s2 : σ), tm.mapType s1 true ty = some (s.ret, s2)
  noRet : m.output = none → s.ret = ⟨⟨lit "void", [], none, false⟩, lit "()"⟩

/-- One slot for each method. -/
def Slots {σ} (tm : TypeMap σ) (i : Interface) (sl : List Slot) : Prop :=
  sl.length = i.items.length ∧ ∀ (k : Nat) (m : IMethod) (s : Slot), i.items[k]? = some m → sl[k]? = some s → IsSlot tm m s

/-- Parameters of the C function: the arguments and one more. -/
def Slot.cParams (s : Slot) (last : Text) : Text := commaJoin (s.args.map (fun a => a.2.info.name ++ ' ' :: a.1) ++ [last])

/-- The member of the C structure. -/
def Slot.c (ws : Char → Bool) (docs : List Text) (s : Slot) : Text :=
  Comments.docToC ws docs false ++ lit "\n    " ++ s.ret.info.name ++ lit " (*" ++ s.name ++ lit ")(" ++ s.cParams (lit "void *opaque") ++ lit ");\n"

/-- The field of the Rust structure. -/
def Slot.rust (s : Slot) : Text × RFieldTy :=
  (s.name, .fnPtr (s.args.map (·.2.rust) ++ [lit "*const ::std::os::raw::c_void"]) s.ret.rust)

/-- The type a C++ user sees. -/
def shown (t : TypeInfo) : Text := match t.converter with | some c => c.typename | none => t.name

/-- Parameters of the virtual method. -/
def Slot.virtualParams (s : Slot) : List Text :=
  (s.args.filter fun a => !a.2.info.inputToOutput).map fun a => shown a.2.info ++ ' ' :: a.1

/-- The virtual method. -/
def Slot.virtual (ws : Char → Bool) (m : IMethod) (s : Slot) : Text :=
  Comments.docToC ws m.docs false ++ lit "\n    virtual " ++ shown s.ret.info ++ lit " " ++ s.name ++ lit "(" ++ commaJoin s.virtualParams ++
    lit ") " ++ (if m.self.readOnly then lit "const " else []) ++ lit "noexcept = 0;\n"

/-- The value returned: the result `r` or, if the type has a converter with some code, that code applied to `r`. -/
def returned (t : TypeInfo) (r : Text) : Text :=
  match t.converter with
  | none => r
  | some c => if strReplace c.code.code Template.fromVar r = [] then r else strReplace c.code.code Template.fromVar r

/-- The static C++ function that stands behind a function pointer: it has the pointer's parameters and result type, casts the last
parameter to the class, converts each argument on its own (`ds` are the preparations, `es` the expressions), calls the virtual method
with the results and returns what it gives.  The names it introduces are new. -/
structure IsStatic (i : Interface) (m : IMethod) (s : Slot) (text : Text) : Prop where
  intro ::
  ex : ∃ (o p r : Text) (ds es : List Text), o ∉ m.argNames ∧ p ∉ o :: m.argNames ∧ r ∉ p :: o :: m.argNames ∧
    ds.length = s.args.length ∧ es.length = s.args.length ∧
    (∀ (k : Nat) (a : Text × FTy), s.args[k]? = some a → ∃ d e kb ka, ds[k]? = some d ∧ es[k]? = some e ∧
      convArg a.2.info a.1 k kb = some (d, e, ka) ∧ (r :: p :: o :: m.argNames) <:+ kb) ∧
    text = lit "\n    static " ++ s.ret.info.name ++ lit " c_" ++ s.name ++ lit "(" ++ s.cParams (lit "void *" ++ o) ++
      lit ")\n    {\n        assert(" ++ o ++ lit " != nullptr);\n        auto " ++ p ++ lit " = static_cast<" ++
      (if m.self.readOnly then lit "const " else []) ++ i.name ++ lit " *>(" ++ o ++ lit ");\n" ++ ds.flatten ++
      (if s.ret.info.name = lit "void" then
        lit "\n        " ++ p ++ lit "->" ++ s.name ++ lit "(" ++ commaJoin es ++ lit ");\n    }\n"
      else lit "\n        auto " ++ r ++ lit " = " ++ p ++ lit "->" ++ s.name ++ lit "(" ++ commaJoin es ++ lit ");\n        return " ++
        returned s.ret.info r ++ lit ";\n    }\n")

/-- The members are filled in by name. -/
def fillSpec (sl : List Slot) : Text := sl.flatMap fun s => lit "        ret." ++ s.name ++ lit " = c_" ++ s.name ++ lit ";\n"

/-- Conversion code of the arguments of a method in the Rust trait: for each argument `k`, held by variable `a{k}`, the code the type map
gives for the pair of its types. -/
def ArgCodes {σ} (tm : TypeMap σ) (m : IMethod) (s : Slot) (codes : List Text) : Prop :=
  codes.length = m.args.length ∧
  ∀ (k : Nat) (a : Text × Text) (b : Text × FTy) (c : Text), m.args[k]? = some a → s.args[k]? = some b → codes[k]? = some c →
    ∃ sa d sb, tm.convert sa a.2 b.2.rust ('a' :: dec k) (lit "()") = some (d, c, sb)

/-- Conversion code of the result. -/
def OutCode {σ} (tm : TypeMap σ) (m : IMethod) (s : Slot) (ko : Option Text) : Prop :=
  ko.isSome = m.output.isSome ∧ ∀ c ty, ko = some c → m.output = some ty →
    ∃ sa d sb, tm.convert sa s.ret.rust ty (lit "ret") ty = some (d, c, sb)

/-- How the trait's method takes `self`. -/
def receiver : SelfVar → Text
  | .rptr => lit "&self"
  | .rptrMut => lit "&mut self"
  | .default => lit "self"
  | .mut => lit "mut self"

theorem receiver_eq (v : SelfVar) : selfText v = receiver v := by cases v <;> rfl

/-- What a method of the Rust trait does when it is called with `vs`: convert the arguments from left to right, call the function pointer
with the method's name with them and `self.opaque`, convert the result. -/
structure Forwards {σ} (tm : TypeMap σ) (m : IMethod) (s : Slot) (f : TraitFn) : Prop where
  name : m.path.getLast? = some f.fn.name
  self : f.self = receiver m.self
  params : f.fn.params.map (·.2) = m.args.map (·.2)
  ret : f.fn.ret = m.output.getD (lit "()")
  run : ∃ codes ko, ArgCodes tm m s codes ∧ OutCode tm m s ko ∧
    ∀ (S V : Type) (w : World S V) (env : Text → V) (vs : List V), vs.length = m.args.length →
      f.fn.run w env vs = (do
        let xs ← convAll w codes vs
        let r ← w.call [s.name] (xs ++ [env (lit "self.opaque")])
        Exported.outConv w ko r)

/-! ## Lemmas -/

theorem mapArgs_ok {σ} {tm : TypeMap σ} : ∀ (as : List (Text × Text)) (s s' : σ) (ts : List FTy),
    mapArgs tm s as = .ok (ts, s') → ts.length = as.length ∧
      ∀ (i : Nat) (a : Text × Text), as[i]? = some a → ∃ t s1 s2, ts[i]? = some t ∧ tm.mapType s1 false a.2 = some (t, s2) := by
  intro as
  induction as with
  | nil =>
    intro s s' ts h
    simp only [mapArgs, Except.ok.injEq, Prod.mk.injEq] at h
    simp [← h.1]
  | cons a as ih =>
    intro s s' ts h
    obtain ⟨n, ty⟩ := a
    simp only [mapArgs, bind_ok, orErr_ok, Prod.exists, Except.ok.injEq, Prod.mk.injEq] at h
    obtain ⟨t, s1, h1, ts', s2, h2, rfl, rfl⟩ := h
    obtain ⟨hl, hi⟩ := ih _ _ _ h2
    refine ⟨by simp [hl], ?_⟩
    intro i a ha
    cases i with
    | zero =>
      simp only [List.getElem?_cons_zero, Option.some.injEq] at ha
      subst ha
      exact ⟨t, _, _, rfl, h1⟩
    | succ i => exact hi i a (by simpa using ha)

/-- The slot of a method with a signature. -/
def slot (m : IMethod) (g : Sig) : Slot := ⟨m.name, m.argNames.zip g.input, g.output⟩

theorem slot_name (m : IMethod) (g : Sig) : (slot m g).name = m.name := rfl
theorem slot_ret (m : IMethod) (g : Sig) : (slot m g).ret = g.output := rfl

theorem slot_ok {σ} {tm : TypeMap σ} {m : IMethod} {s s1 s2 : σ} {i : List FTy} {o : FTy}
    (h1 : mapArgs tm s m.args = .ok (i, s1)) (h2 : mapOutput tm s1 m = .ok (o, s2)) : IsSlot tm m (slot m ⟨o, i⟩) := by
  obtain ⟨hl, hi⟩ := mapArgs_ok _ _ _ _ h1
  refine ⟨rfl, ?_, ?_, ?_, ?_⟩
  · simp [slot, IMethod.argNames, hl]
  · intro k a ha
    obtain ⟨t, s1, s2, ht, hm⟩ := hi k a ha
    refine ⟨t, s1, s2, ?_, hm⟩
    simp only [slot, List.getElem?_zip_eq_some]
    exact ⟨by simp [IMethod.argNames, ha], ht⟩
  · intro ty hty
    rw [mapOutput, hty] at h2
    simp only [orErr_ok] at h2
    exact ⟨_, _, h2⟩
  · intro hno
    rw [mapOutput, hno] at h2
    simp only [Except.ok.injEq, Prod.mk.injEq] at h2
    exact h2.1.symm

theorem findSigs_ok {σ} {tm : TypeMap σ} : ∀ (ms : List IMethod) (s s' : σ) (gs : List Sig), findSigs tm s ms = .ok (gs, s') →
    gs.length = ms.length ∧ (∀ (k : Nat) (m : IMethod) (g : Sig), ms[k]? = some m → gs[k]? = some g →
      g.input.length = m.args.length ∧ IsSlot tm m (slot m g)) := by
  intro ms
  induction ms with
  | nil =>
    intro s s' gs h
    simp only [findSigs, Except.ok.injEq, Prod.mk.injEq] at h
    simp [← h.1]
  | cons m ms ih =>
    intro s s' gs h
    simp only [findSigs, bind_ok, Prod.exists, Except.ok.injEq, Prod.mk.injEq] at h
    obtain ⟨i, s1, h1, o, s2, h2, r, s3, h3, rfl, rfl⟩ := h
    obtain ⟨hl, hk⟩ := ih _ _ _ h3
    refine ⟨by simp [hl], ?_⟩
    intro k m' g hm hg
    cases k with
    | zero =>
      simp only [List.getElem?_cons_zero, Option.some.injEq] at hm hg
      subst hm hg
      exact ⟨(mapArgs_ok _ _ _ _ h1).1, slot_ok h1 h2⟩
    | succ k => exact hk k m' g (by simpa using hm) (by simpa using hg)

theorem commaJoin_snoc_flat : ∀ (l : List Text) (a : Text), commaJoin (l ++ [a]) = (l.flatMap fun x => x ++ ", ".toList) ++ a := by
  intro l a
  induction l with
  | nil => simp [commaJoin]
  | cons b l ih =>
    rw [List.cons_append, Cpp.commaJoin_cons _ _ (by simp), ih]
    simp [comma]

/-- The parameters as the generator writes them. -/
theorem cParams_eq (m : IMethod) (g : Sig) (last : Text) :
    (slot m g).cParams last = cArgsWithTypes (sigC g) m.argNames true ++ last := by
  rw [Slot.cParams, commaJoin_snoc_flat, Cpp.C49_c_parameters_comma]
  congr 1
  simp only [slot, sigC, List.flatMap_map]
  generalize m.argNames = ns
  generalize g.input = ts
  induction ns generalizing ts with
  | nil => cases ts <;> simp
  | cons n ns ih => cases ts with
    | nil => simp
    | cons t ts => simp only [List.map_cons, List.zip_cons_cons, List.flatMap_cons, ih]

theorem virtual_eq (m : IMethod) (g : Sig) : commaJoin (slot m g).virtualParams = cppArgsWithTypes (sigC g) m.argNames := by
  rw [Cpp.C49_cpp_parameters]
  congr 1
  simp only [Slot.virtualParams, slot, sigC]
  generalize m.argNames = ns
  generalize g.input = ts
  induction ns generalizing ts with
  | nil => cases ts <;> simp
  | cons n ns ih => cases ts with
    | nil => simp
    | cons t ts =>
      simp only [List.map_cons, List.zip_cons_cons, List.filter_cons]
      cases t.info.inputToOutput with
      | true => simpa using ih ts
      | false => simp only [Bool.not_false, if_true, List.map_cons, ih]; rfl

theorem cField_eq (ws : Char → Bool) (m : IMethod) (g : Sig) : cField ws m g = (slot m g).c ws m.docs := by
  have e : lit "void *opaque);\n" = lit "void *opaque" ++ lit ");\n" := by unfold lit; decide
  simp only [cField, Slot.c, cParams_eq, e, List.append_assoc, slot_name, slot_ret]

theorem virtualText_eq (ws : Char → Bool) (m : IMethod) (g : Sig) : virtualText ws m g = (slot m g).virtual ws m := by
  simp only [virtualText, Slot.virtual, virtual_eq, constIf, slot_name, slot_ret]
  rfl

theorem returned_eq (g : Sig) (r : Text) : (if (outConv g r).isEmpty then r else outConv g r) = returned g.output.info r := by
  unfold outConv returned
  cases g.output.info.converter with
  | none => rfl
  | some c => simp only [List.isEmpty_iff]

theorem static_ok {i : Interface} {m : IMethod} {g : Sig} {n : Names} {conv args : Text} {kn : List Text}
    (hl : g.input.length = m.args.length) (hn : names m = some n)
    (hc : convertArgs (sigC g) (n.ret :: n.ptr :: n.opaqueN :: m.argNames) m.argNames = some (conv, args, kn)) :
    IsStatic i m (slot m g) (staticText i m g n conv args) := by
  simp only [names, Option.bind_eq_bind, Option.bind_eq_some_iff, Option.pure_def, Option.some.injEq] at hn
  obtain ⟨o, ho, p, hp, r, hr, rfl⟩ := hn
  obtain ⟨ds, es, h1, h2, rfl, rfl, h5⟩ := Cpp.C49_one_expression_per_argument _ _ _ _ _ _ hc
  have hlen : ((sigC g).input.zip m.argNames).length = (slot m g).args.length := by
    simp [sigC, slot, Nat.min_comm]
  refine ⟨o, p, r, ds, es, NameGen.C01_fresh _ _ _ ho, NameGen.C01_fresh _ _ _ hp, NameGen.C01_fresh _ _ _ hr,
    h1.trans hlen, h2.trans hlen, ?_, ?_⟩
  · intro k a ha
    obtain ⟨an, t⟩ := a
    simp only [slot, List.getElem?_zip_eq_some] at ha
    obtain ⟨d, e, kb, ka, e1, e2, e3, e4, _⟩ := h5 k t.info an (by simp [sigC, ha.2]) ha.1
    exact ⟨d, e, kb, ka, e1, e2, e3, e4⟩
  · have hr := returned_eq g r
    rw [cParams_eq, slot_name, slot_ret, ← hr]
    unfold staticText callText constIf
    by_cases hv : g.output.info.name = lit "void"
    · rw [if_pos hv]; simp only [List.append_assoc]
    · rw [if_neg hv]; simp only [List.append_assoc]

theorem loopCpp_ok {ws : Char → Bool} {i : Interface} : ∀ (ms : List IMethod) (gs : List Sig) (p q : Parts), gs.length = ms.length →
    (∀ (k : Nat) (m : IMethod) (g : Sig), ms[k]? = some m → gs[k]? = some g → g.input.length = m.args.length) →
    loopCpp ws i p ms gs = .ok q →
    ∃ stats : List Text, stats.length = ms.length ∧
      (∀ (k : Nat) (m : IMethod) (g : Sig) (t : Text), ms[k]? = some m → gs[k]? = some g → stats[k]? = some t → IsStatic i m (slot m g) t) ∧
      q.cHdr = p.cHdr ++ ((ms.zip gs).map fun x => (slot x.1 x.2).c ws x.1.docs).flatten ∧
      q.virt = p.virt ++ ((ms.zip gs).map fun x => (slot x.1 x.2).virtual ws x.1).flatten ∧
      q.stat = p.stat ++ stats.flatten ∧ q.fill = p.fill ++ fillSpec ((ms.zip gs).map fun x => slot x.1 x.2) := by
  intro ms
  induction ms with
  | nil =>
    intro gs p q hl _ h
    have : gs = [] := List.eq_nil_of_length_eq_zero hl
    subst this
    simp only [loopCpp, Except.ok.injEq] at h
    subst h
    exact ⟨[], rfl, by simp, by simp, by simp, by simp, by simp [fillSpec]⟩
  | cons m ms ih =>
    intro gs p q hl hin h
    cases gs with
    | nil => simp at hl
    | cons g gs =>
      simp only [loopCpp, bind_ok] at h
      obtain ⟨p1, h1, h2⟩ := h
      simp only [stepCpp, bind_ok, orErr_ok, Prod.exists, Except.ok.injEq] at h1
      obtain ⟨n, hn, conv, args, kn, hc, rfl⟩ := h1
      obtain ⟨stats, e1, e2, e3, e4, e5, e6⟩ := ih gs _ q (by simpa using hl)
        (fun k m' g' hm hg => hin (k + 1) m' g' (by simpa using hm) (by simpa using hg)) h2
      have hst := static_ok (i := i) (hin 0 m g rfl rfl) hn hc
      refine ⟨staticText i m g n conv args :: stats, by simp [e1], ?_, ?_, ?_, ?_, ?_⟩
      · intro k m' g' t hm hg ht
        cases k with
        | zero =>
          simp only [List.getElem?_cons_zero, Option.some.injEq] at hm hg ht
          subst hm hg ht
          exact hst
        | succ k => exact e2 k m' g' t (by simpa using hm) (by simpa using hg) (by simpa using ht)
      · rw [e3, cField_eq]; simp
      · rw [e4, virtualText_eq]; simp
      · rw [e5]; simp
      · rw [e6]; simp [fillText, fillSpec, slot]

/-! ### The Rust trait -/

theorem aName_inj {j k : Nat} (h : aName j = aName k) : j = k := dec_injective (by simpa [aName] using h)

theorem aNames_nodup (n : Nat) : ((List.range n).map aName).Nodup := by
  exact List.nodup_range.map aName fun a b h he => h (aName_inj he)

theorem traitParams_eq : ∀ (as : List (Text × Text)) (n : Nat),
    (traitParams n as).map (·.1) = (List.range' n as.length).map aName ∧ (traitParams n as).map (·.2) = as.map (·.2) := by
  intro as
  induction as with
  | nil => intro n; simp [traitParams]
  | cons a as ih =>
    intro n
    obtain ⟨h1, h2⟩ := ih (n + 1)
    constructor
    · simp only [traitParams, List.map_cons, h1, List.length_cons, List.range'_succ]
    · simp only [traitParams, List.map_cons, h2]

theorem convInputs_ok {σ I} {tm : Exported.TypeMap σ I} : ∀ (as : List (Text × Text)) (ts : List (Exported.FTy I)) (n : Nat) (s s' : σ)
    (ds : List Text) (cs : List RStmt), ts.length = as.length → convInputs tm n s as ts = .ok (ds, cs, s') →
    ∃ codes : List Text, codes.length = as.length ∧ cs = Exported.convStmts ((List.range' n as.length).map aName) codes ∧
      ∀ (i : Nat) (a : Text × Text) (t : Exported.FTy I) (k : Text), as[i]? = some a → ts[i]? = some t → codes[i]? = some k →
        ∃ sa d sb, tm.convert sa a.2 t.rust (aName (n + i)) (lit "()") = some (d, k, sb) := by
  intro as
  induction as with
  | nil =>
    intro ts n s s' ds cs _ h
    simp only [convInputs, Except.ok.injEq, Prod.mk.injEq] at h
    obtain ⟨_, rfl, _⟩ := h
    exact ⟨[], rfl, rfl, by simp⟩
  | cons a as ih =>
    intro ts n s s' ds cs hl h
    cases ts with
    | nil => simp at hl
    | cons t ts =>
      obtain ⟨nm, ty⟩ := a
      simp only [convInputs, bind_ok, orErr_ok, Prod.exists, Except.ok.injEq, Prod.mk.injEq] at h
      obtain ⟨d, k, s1, h1, ds', cs', s2, h2, rfl, rfl, rfl⟩ := h
      obtain ⟨codes, e1, rfl, e3⟩ := ih ts _ _ _ _ _ (by simpa using hl) h2
      refine ⟨k :: codes, by simp [e1], by simp [Exported.convStmts, List.range'_succ], ?_⟩
      intro i a' t' k' ha ht hk
      cases i with
      | zero =>
        simp only [List.getElem?_cons_zero, Option.some.injEq] at ha ht hk
        subst ha ht hk
        exact ⟨_, _, _, h1⟩
      | succ i =>
        have := e3 i a' t' k' (by simpa using ha) (by simpa using ht) (by simpa using hk)
        rwa [Nat.add_assoc, Nat.add_comm 1 i] at this

theorem convOutput_ok {σ I} {tm : Exported.TypeMap σ I} {s s' : σ} {m : IMethod} {t : Exported.FTy I} {ds : List Text} {cs : List RStmt}
    (h : convOutput tm s m t = .ok (ds, cs, s')) : ∃ ko : Option Text, cs = Exported.outStmts (lit "ret") ko ∧
      ko.isSome = m.output.isSome ∧ ∀ c ty, ko = some c → m.output = some ty →
        ∃ sa d sb, tm.convert sa t.rust ty (lit "ret") ty = some (d, c, sb) := by
  unfold convOutput at h
  cases ho : m.output with
  | none =>
    rw [ho] at h
    cases h
    exact ⟨none, rfl, by simp, by simp⟩
  | some ty =>
    rw [ho] at h
    simp only [bind_ok, orErr_ok, Prod.exists, Except.ok.injEq, Prod.mk.injEq] at h
    obtain ⟨d, k, s1, h1, rfl, rfl, rfl⟩ := h
    refine ⟨some k, rfl, by simp, ?_⟩
    intro k' ty' hk hty
    cases hk; cases hty
    exact ⟨_, _, _, h1⟩

theorem selfOpaque_ne (k : Nat) : lit "self.opaque" ≠ aName k := by
  intro h
  have := congrArg List.head? h
  unfold lit aName at this
  simp at this

theorem run_trait {S V} (w : World S V) (env : Text → V) (n : Nat) (codes : List Text) (ko : Option Text) (ty f : Text)
    (vs : List V) (hc : codes.length = n) (hv : vs.length = n) :
    Exported.runBody w (Exported.bindAll env ((List.range n).map aName) vs)
      (Exported.convStmts ((List.range n).map aName) codes ++
        [.call (lit "ret") ty (.fn [f] ((List.range n).map aName ++ [selfOpaque]))] ++ Exported.outStmts (lit "ret") ko ++ [.result (lit "ret")]) =
      (do let xs ← convAll w codes vs
          let r ← w.call [f] (xs ++ [env (lit "self.opaque")])
          Exported.outConv w ko r) := by
  have hn := aNames_nodup n
  have hso : selfOpaque ∉ (List.range n).map aName := by
    intro h
    obtain ⟨k, _, hk⟩ := List.mem_map.1 h
    exact selfOpaque_ne k hk.symm
  generalize hA : (List.range n).map aName = A at *
  have hAl : A.length = n := by rw [← hA]; simp
  rw [List.append_assoc, List.append_assoc, Exported.runBody_append _ _ _ _ (by simp), Exported.run_convs w _ _ _ hn (by omega),
    Exported.bindAll_names A vs env hn (by omega), bind_assoc]
  refine Exported.convAll_congr w _ _ codes vs (by omega) fun xs hx => ?_
  rw [pure_bind, List.singleton_append, Exported.runBody_cons _ _ _ (by simp)]
  simp only [Exported.exec, bind_assoc, pure_bind, List.map_append, List.map_cons, List.map_nil]
  rw [Exported.bindAll_names A xs _ hn (by omega), Exported.bindAll_other _ _ _ _ hso, Exported.bindAll_other _ _ _ _ hso]
  congr 1
  funext r
  rw [Exported.run_out, Exported.set_same]

theorem traitFn_ok {σ} {tm : TypeMap σ} {s s' : σ} {m : IMethod} {g : Sig} {ds : List Text} {f : TraitFn}
    (hl : g.input.length = m.args.length) (h : traitFn tm s m g = .ok (ds, f, s')) : Forwards tm m (slot m g) f := by
  simp only [traitFn, bind_ok, orErr_ok, Prod.exists, Except.ok.injEq, Prod.mk.injEq] at h
  obtain ⟨n, hn, d1, c1, s1, h1, d2, c2, s2, h2, _, rfl, _⟩ := h
  obtain ⟨codes, e1, rfl, e3⟩ := convInputs_ok _ _ _ _ _ _ _ hl h1
  obtain ⟨ko, rfl, e4, e5⟩ := convOutput_ok h2
  obtain ⟨p1, p2⟩ := traitParams_eq m.args 0
  refine ⟨hn, receiver_eq _, p2, rfl, codes, ko, ⟨e1, ?_⟩, ⟨e4, e5⟩, ?_⟩
  · intro k a b c ha hb hc
    simp only [slot] at hb
    have := e3 k a b.2 c ha (by
      obtain ⟨b1, b2⟩ := b
      rw [List.getElem?_zip_eq_some] at hb
      exact hb.2) hc
    simpa [aName] using this
  · intro S V w env vs hv
    unfold RustFn.run
    show Exported.runBody w (Exported.bindAll env ((traitParams 0 m.args).map (·.1)) vs) _ = _
    rw [p1, ← List.range_eq_range']
    exact run_trait w env m.args.length codes ko g.output.rust m.name vs e1 hv

theorem traitFns_ok {σ} {tm : TypeMap σ} : ∀ (ms : List IMethod) (gs : List Sig) (s s' : σ) (ds : List Text) (fs : List TraitFn),
    gs.length = ms.length → (∀ (k : Nat) (m : IMethod) (g : Sig), ms[k]? = some m → gs[k]? = some g → g.input.length = m.args.length) →
    traitFns tm s ms gs = .ok (ds, fs, s') → fs.length = ms.length ∧
      ∀ (k : Nat) (m : IMethod) (g : Sig) (f : TraitFn), ms[k]? = some m → gs[k]? = some g → fs[k]? = some f → Forwards tm m (slot m g) f := by
  intro ms
  induction ms with
  | nil =>
    intro gs s s' ds fs _ _ h
    simp only [traitFns, Except.ok.injEq, Prod.mk.injEq] at h
    simp [← h.2.1]
  | cons m ms ih =>
    intro gs s s' ds fs hl hin h
    cases gs with
    | nil => simp at hl
    | cons g gs =>
      simp only [traitFns, bind_ok, Prod.exists, Except.ok.injEq, Prod.mk.injEq] at h
      obtain ⟨d, f, s1, h1, ds', fs', s2, h2, rfl, rfl, rfl⟩ := h
      obtain ⟨e1, e2⟩ := ih gs _ _ _ _ (by simpa using hl) (fun k m' g' hm hg => hin (k + 1) m' g' (by simpa using hm) (by simpa using hg)) h2
      refine ⟨by simp [e1], ?_⟩
      intro k m' g' f' hm hg hf
      cases k with
      | zero =>
        simp only [List.getElem?_cons_zero, Option.some.injEq] at hm hg hf
        subst hm hg hf
        exact traitFn_ok (hin 0 m g rfl rfl) h1
      | succ k => exact e2 k m' g' f' (by simpa using hm) (by simpa using hg) (by simpa using hf)

/-! ## C66 -/

/-- SPECIFICATION: the whole C header. -/
def cHeaderSpec (ws : Char → Bool) (i : Interface) (sl : List Slot) : Text :=
  lit "// Automatically generated by flapigen\n#pragma once\n" ++ Comments.docToC ws i.docs true ++ lit "\nstruct C_" ++ i.name ++
  lit " {\n    void *opaque;\n    //! call by Rust side when callback not need anymore\n    void (*C_" ++ i.name ++
  lit "_deref)(void *opaque);\n" ++ ((i.items.zip sl).map fun x => x.2.c ws x.1.docs).flatten ++ lit "\n};\n"

/-- SPECIFICATION: the fields of the Rust structure. -/
def rustStructSpec (i : Interface) (sl : List Slot) : List (Text × RFieldTy) :=
  (lit "opaque", .ty (lit "*const ::std::os::raw::c_void")) ::
  (lit "C_" ++ i.name ++ lit "_deref", .fnPtr [lit "*const ::std::os::raw::c_void"] (lit "()")) :: sl.map Slot.rust

/-- SPECIFICATION: the class in the C++ header, after the opening and before the closing of the namespace: the virtual methods, the two
functions making the C structure (both fill in every member) and the static functions. -/
def cppClassSpec (ws : Char → Bool) (i : Interface) (sl : List Slot) (stats : List Text) : Text :=
  Comments.docToC ws i.docs true ++ lit "\nclass " ++ i.name ++ lit " {\npublic:\n    virtual ~" ++ i.name ++ lit "() noexcept {}\n" ++
  ((i.items.zip sl).map fun x => x.2.virtual ws x.1).flatten ++ lit "\n\n" ++
  (lit "    static C_" ++ i.name ++ lit " to_c_interface(std::unique_ptr<" ++ i.name ++
    lit "> p) noexcept\n    {\n        assert(p != nullptr);\n        C_" ++ i.name ++
    lit " ret;\n        ret.opaque = p.release();\n\n        ret.C_" ++ i.name ++ lit "_deref = c_" ++ i.name ++ lit "_deref;\n" ++ fillSpec sl ++
    lit "\n        return ret;\n    }\n") ++
  (lit "    static C_" ++ i.name ++ lit " reference_to_c_interface(" ++ i.name ++ lit " &cpp_interface) noexcept\n    {\n        C_" ++ i.name ++
    lit " ret;\n        ret.opaque = &cpp_interface;\n" ++ fillSpec sl ++ lit "\n        ret.C_" ++ i.name ++
    lit "_deref = [](void *) {};\n        return ret;\n    }\n") ++
  lit "protected:\n" ++
  (lit "\n    static void c_" ++ i.name ++ lit "_deref(void *opaque)\n    {\n        auto p = static_cast<" ++ i.name ++
    lit " *>(opaque);\n        delete p;\n    }\n") ++ stats.flatten ++ lit "\n};\n"

/-- SPECIFICATION: the includes of the C++ header: those of the used types and the C header. -/
def cppPrelude (i : Interface) (incs : List Text) : Text :=
  lit "// Automatically generated by flapigen\n#pragma once\n\n#include <cassert>\n#include <memory> //for std::unique_ptr\n\n" ++
  (incs.flatMap fun x => lit "#include " ++ x ++ lit "\n") ++ lit "\n#include \"c_" ++ i.name ++ lit ".h\"\n\n"

/-- SPECIFICATION: everything generated for an interface speaks of the same functions. -/
structure Agree {σ} (ws : Char → Bool) (ns : Text) (tm : TypeMap σ) (i : Interface) (sl : List Slot) (out : Out) : Prop where
  slots : Slots tm i sl
  /-- the C structure -/
  c : out.cHdr = cHeaderSpec ws i sl
  /-- the Rust structure: the same members, in the same order -/
  rust : out.rust.struct = lit "C_" ++ i.name ∧ out.rust.fields = rustStructSpec i sl
  /-- the C++ class, with one static function for each member -/
  cpp : ∃ (incs stats : List Text), stats.length = sl.length ∧ incs.Nodup ∧
    (∀ x, x ∈ incs ↔ ∃ s ∈ sl, x ∈ s.ret.info.modules ∨ ∃ a ∈ s.args, x ∈ a.2.info.modules) ∧
    (∀ (k : Nat) (m : IMethod) (s : Slot) (t : Text), i.items[k]? = some m → sl[k]? = some s → stats[k]? = some t → IsStatic i m s t) ∧
    out.cppHdr = cppPrelude i incs ++ lit "namespace " ++ ns ++ lit " {\n" ++ cppClassSpec ws i sl stats ++ lit "} // namespace " ++ ns ++ lit "\n"
  /-- the Rust trait: each method forwards to the function pointer with its name, which is a field of the structure -/
  «trait» : out.rust.trait = i.trait ∧ out.rust.fns.length = sl.length ∧
    ∀ (k : Nat) (m : IMethod) (s : Slot) (f : TraitFn), i.items[k]? = some m → sl[k]? = some s → out.rust.fns[k]? = some f → Forwards tm m s f
  /-- dropping the Rust object calls the pointer that deletes the C++ object -/
  drop : out.rust.dropCalls = lit "C_" ++ i.name ++ lit "_deref"

theorem zip_slots (ws : Char → Bool) (ms : List IMethod) (gs : List Sig) (f : IMethod → Slot → Text) :
    ((ms.zip gs).map fun x => f x.1 (slot x.1 x.2)) = (ms.zip ((ms.zip gs).map fun x => slot x.1 x.2)).map fun x => f x.1 x.2 := by
  induction ms generalizing gs with
  | nil => simp
  | cons m ms ih => cases gs with
    | nil => simp
    | cons g gs => simp [ih]

theorem includeLines_eq (l : List Text) : Cpp.includeLines l = l.flatMap fun x => lit "#include " ++ x ++ lit "\n" := by
  have h1 : "#include ".toList = lit "#include " := by unfold lit; rfl
  have h2 : lit "\n" = ['\n'] := by unfold lit; decide
  induction l with
  | nil => rfl
  | cons a l ih =>
    have e : Cpp.includeLines (a :: l) = "#include ".toList ++ a ++ '\n' :: Cpp.includeLines l := rfl
    rw [e, ih, h1, List.flatMap_cons]
    generalize (l.flatMap fun x => lit "#include " ++ x ++ lit "\n") = X
    rw [h2]
    simp only [List.append_assoc, List.singleton_append]

theorem includes_ok (ms : List IMethod) (gs : List Sig) (hl : gs.length = ms.length)
    (hin : ∀ (k : Nat) (m : IMethod) (g : Sig), ms[k]? = some m → gs[k]? = some g → g.input.length = m.args.length) (x : Text) :
    x ∈ requiredIncludes (gs.map sigC) ↔ ∃ s ∈ (ms.zip gs).map fun x => slot x.1 x.2, x ∈ s.ret.info.modules ∨ ∃ a ∈ s.args, x ∈ a.2.info.modules := by
  have h1 : x ∈ requiredIncludes (gs.map sigC) ↔ ∃ g ∈ gs, x ∈ g.output.info.modules ∨ ∃ t ∈ g.input, x ∈ t.info.modules := by
    unfold requiredIncludes
    have := (Cpp.retainUnique_spec (Cpp.collectIncludes (gs.map sigC)) []).2.1 x
    simp only [List.not_mem_nil, not_false_eq_true, and_true] at this
    rw [this, Cpp.mem_collect]
    simp [Cpp.Needs, sigC]
  rw [h1]
  constructor
  · rintro ⟨g, hg, h⟩
    obtain ⟨k, hk⟩ := List.mem_iff_getElem?.1 hg
    have hlt : k < ms.length := by rw [← hl]; exact (List.getElem?_eq_some_iff.1 hk).1
    have hm : ms[k]? = some ms[k] := List.getElem?_eq_getElem hlt
    refine ⟨slot ms[k] g, List.mem_map.2 ⟨(ms[k], g), List.mem_iff_getElem?.2 ⟨k, ?_⟩, rfl⟩, ?_⟩
    · rw [List.getElem?_zip_eq_some]; exact ⟨hm, hk⟩
    · rcases h with h | ⟨t, ht, h⟩
      · exact Or.inl h
      · right
        obtain ⟨j, hj⟩ := List.mem_iff_getElem?.1 ht
        have hjl : j < ms[k].argNames.length := by
          rw [IMethod.argNames, List.length_map, ← hin k _ g hm hk]; exact (List.getElem?_eq_some_iff.1 hj).1
        refine ⟨(ms[k].argNames[j], t), List.mem_iff_getElem?.2 ⟨j, ?_⟩, h⟩
        simp only [slot, List.getElem?_zip_eq_some]
        exact ⟨List.getElem?_eq_getElem hjl, hj⟩
  · rintro ⟨s, hs, h⟩
    obtain ⟨⟨m, g⟩, hz, rfl⟩ := List.mem_map.1 hs
    refine ⟨g, (List.of_mem_zip hz).2, ?_⟩
    rcases h with h | ⟨⟨n, t⟩, ha, h⟩
    · exact Or.inl h
    · exact Or.inr ⟨t, (List.of_mem_zip ha).2, h⟩

/-- The C structure, the Rust structure, the C++ class and the implementation of the Rust trait generated for an interface agree: there
is one list of function pointers, with the types the type map gives for the arguments and results of the methods, such that the C and
the Rust structure have exactly these members in this order, the C++ class fills in each of them with a static function of its own type
that calls the virtual method, and each trait method calls the one with its name. -/
theorem C66_agree {σ} (ws : Char → Bool) (ns : Text) (tm : TypeMap σ) (s : σ) (i : Interface) (out : Out)
    (h : generate ws ns tm s i = .ok out) : ∃ sl, Agree ws ns tm i sl out := by
  simp only [generate, bind_ok, Prod.exists, Except.ok.injEq] at h
  obtain ⟨gs, s1, h1, c, cpp, h2, r, s2, h3, rfl⟩ := h
  obtain ⟨hl, hk⟩ := findSigs_ok _ _ _ _ h1
  have hin : ∀ (k : Nat) (m : IMethod) (g : Sig), i.items[k]? = some m → gs[k]? = some g → g.input.length = m.args.length :=
    fun k m g hm hg => (hk k m g hm hg).1
  simp only [genCpp, bind_ok, Except.ok.injEq, Prod.mk.injEq] at h2
  obtain ⟨q, h2, rfl, rfl⟩ := h2
  simp only [genRust, bind_ok, Prod.exists, Except.ok.injEq, Prod.mk.injEq] at h3
  obtain ⟨ds, fs, s3, h3, rfl, rfl⟩ := h3
  obtain ⟨stats, e1, e2, e3, e4, e5, e6⟩ := loopCpp_ok _ _ _ _ hl hin h2
  obtain ⟨f1, f2⟩ := traitFns_ok _ _ _ _ _ _ hl hin h3
  have hsl : ∀ (k : Nat) (m : IMethod) (sl : Slot), i.items[k]? = some m → ((i.items.zip gs).map fun x => slot x.1 x.2)[k]? = some sl →
      ∃ g, gs[k]? = some g ∧ sl = slot m g := by
    intro k m sl hm hs
    simp only [List.getElem?_map, Option.map_eq_some_iff, Prod.exists] at hs
    obtain ⟨m', g, hz, rfl⟩ := hs
    rw [List.getElem?_zip_eq_some] at hz
    rw [hm] at hz
    cases hz.1
    exact ⟨g, hz.2, rfl⟩
  have hlen : ((i.items.zip gs).map fun x => slot x.1 x.2).length = i.items.length := by simp [hl]
  refine ⟨(i.items.zip gs).map fun x => slot x.1 x.2, ⟨hlen, ?_⟩, ?_, ⟨rfl, ?_⟩, ?_, ⟨rfl, f1.trans hlen.symm, ?_⟩, rfl⟩
  · intro k m sl hm hs
    obtain ⟨g, hg, rfl⟩ := hsl k m sl hm hs
    exact (hk k m g hm hg).2
  · show q.cHdr ++ cEnd = _
    rw [e3, cHeaderSpec, ← zip_slots ws i.items gs fun m s => s.c ws m.docs]
    simp only [cHead, cEnd]
  · show rustFields i gs = _
    simp only [rustFields, rustStructSpec, Interface.deref, opaquePtr, List.map_map, List.cons.injEq, true_and]
    refine List.map_congr_left fun x hx => ?_
    obtain ⟨m, g⟩ := x
    obtain ⟨k, hk'⟩ := List.mem_iff_getElem?.1 hx
    rw [List.getElem?_zip_eq_some] at hk'
    have hll := hin k m g hk'.1 hk'.2
    simp only [Function.comp, Slot.rust, slot, Prod.mk.injEq, true_and]
    congr 2
    have : (m.argNames.zip g.input).map (fun a => a.2.rust) = ((m.argNames.zip g.input).map (·.2)).map (·.rust) := by simp
    rw [this, List.map_snd_zip (by simp [IMethod.argNames, hll])]
  · refine ⟨requiredIncludes (gs.map sigC), stats, e1.trans hlen.symm, (Cpp.retainUnique_spec _ _).1, ?_, ?_, ?_⟩
    · exact includes_ok i.items gs hl hin
    · intro k m sl t hm hs ht
      obtain ⟨g, hg, rfl⟩ := hsl k m sl hm hs
      exact e2 k m g t hm hg ht
    · show cppFile ws ns (requiredIncludes (gs.map sigC)) i q = _
      have l1 : lit "\"\n\nnamespace " = lit "\"\n\n" ++ lit "namespace " := by unfold lit; decide
      have l2 : lit "\n};\n} // namespace " = lit "\n};\n" ++ lit "} // namespace " := by unfold lit; decide
      have l3 : lit "\n" ++ lit "\n" = lit "\n\n" := by unfold lit; decide
      have l4 : lit "\n#include \"c_" = lit "\n#include \"" ++ lit "c_" := by unfold lit; decide
      have l5 : lit ".h\"\n\n" = lit ".h" ++ lit "\"\n\n" := by unfold lit; decide
      simp only [cppFile, cppHead, cppPrelude, includeLines_eq, Interface.cHeader, l4, l5, toC, refToC, e4, e5, e6, derefText, cppClassSpec, ← zip_slots ws i.items gs fun m s => s.virtual ws m,
        l1, l2, ← l3, List.append_assoc, List.nil_append]
  · intro k m sl f hm hs hf
    obtain ⟨g, hg, rfl⟩ := hsl k m sl hm hs
    exact f2 k m g f hm hg hf

/-! ### Names -/

/-- The members of the structure have different names exactly if the methods have, and none is called `opaque` or like the pointer that
deletes the object. -/
theorem C66_members_distinct {σ} (ws : Char → Bool) (ns : Text) (tm : TypeMap σ) (s : σ) (i : Interface) (out : Out)
    (h : generate ws ns tm s i = .ok out) :
    (out.rust.fields.map (·.1)).Nodup ↔ (i.items.map (·.name)).Nodup ∧ lit "opaque" ∉ i.items.map (·.name) ∧
      lit "C_" ++ i.name ++ lit "_deref" ∉ i.items.map (·.name) := by
  obtain ⟨sl, ha⟩ := C66_agree ws ns tm s i out h
  have hn : sl.map (·.name) = i.items.map (·.name) := by
    refine List.ext_getElem? fun k => ?_
    simp only [List.getElem?_map]
    cases hm : i.items[k]? with
    | none =>
      have : sl[k]? = none := by rw [List.getElem?_eq_none_iff] at hm ⊢; rw [ha.slots.1]; exact hm
      rw [this]; rfl
    | some m =>
      have hlt : k < sl.length := by rw [ha.slots.1]; exact (List.getElem?_eq_some_iff.1 hm).1
      rw [List.getElem?_eq_getElem hlt]
      simp only [Option.map_some, Option.some.injEq]
      exact (ha.slots.2 k m sl[k] hm (List.getElem?_eq_getElem hlt)).name
  have hf : out.rust.fields.map (·.1) = lit "opaque" :: (lit "C_" ++ i.name ++ lit "_deref") :: i.items.map (·.name) := by
    rw [ha.rust.2, ← hn]
    simp [rustStructSpec, Slot.rust]
  have hne : lit "opaque" ≠ lit "C_" ++ i.name ++ lit "_deref" := by
    intro h
    have := congrArg List.head? h
    unfold lit at this
    simp at this
  rw [hf, List.nodup_cons, List.nodup_cons]
  simp only [List.mem_cons, not_or, hne, not_false_eq_true, true_and]
  constructor
  · rintro ⟨h1, h2, h3⟩; exact ⟨h3, h1, h2⟩
  · rintro ⟨h1, h2, h3⟩; exact ⟨h2, h3, h1⟩

/-! ### Registration -/

/-- What kind of type is written? -/
def tag (t : Text) : Nat :=
  match t.head? with
  | some 'C' => 0
  | some 'B' => 1
  | some '&' => if t[2]? = some 'm' then 2 else 3
  | _ => if t[2]? = some 'm' then 4 else 5

theorem tag_n (i : Interface) : tag (i.cName) = 0 := by unfold Interface.cName lit; simp [tag]
theorem tag_b (i : Interface) : tag (i.boxed) = 1 := by unfold Interface.boxed lit; simp [tag]
theorem tag_mr (i : Interface) : tag (mutRefOf i.cName) = 2 := by unfold mutRefOf lit; simp [tag]
theorem tag_r (i : Interface) : tag (refOf i.cName) = 3 := by unfold refOf Interface.cName lit; simp [tag]
theorem tag_mp (i : Interface) : tag (mutPtrOf i.cName) = 4 := by unfold mutPtrOf lit; simp [tag]
theorem tag_cp (i : Interface) : tag (constPtrOf i.cName) = 5 := by unfold constPtrOf lit; simp [tag]

theorem ne_of_tag {a b : Text} (h : tag a ≠ tag b) : a ≠ b := fun e => h (by rw [e])

theorem ne_n_b (i j : Interface) : i.cName ≠ j.boxed := ne_of_tag (by simp [tag_n, tag_b])
theorem ne_n_mr (i j : Interface) : i.cName ≠ mutRefOf j.cName := ne_of_tag (by simp [tag_n, tag_mr])
theorem ne_n_r (i j : Interface) : i.cName ≠ refOf j.cName := ne_of_tag (by simp [tag_n, tag_r])
theorem ne_n_mp (i j : Interface) : i.cName ≠ mutPtrOf j.cName := ne_of_tag (by simp [tag_n, tag_mp])
theorem ne_n_cp (i j : Interface) : i.cName ≠ constPtrOf j.cName := ne_of_tag (by simp [tag_n, tag_cp])
theorem ne_b_n (i j : Interface) : i.boxed ≠ j.cName := ne_of_tag (by simp [tag_b, tag_n])
theorem ne_b_mr (i j : Interface) : i.boxed ≠ mutRefOf j.cName := ne_of_tag (by simp [tag_b, tag_mr])
theorem ne_b_r (i j : Interface) : i.boxed ≠ refOf j.cName := ne_of_tag (by simp [tag_b, tag_r])
theorem ne_b_mp (i j : Interface) : i.boxed ≠ mutPtrOf j.cName := ne_of_tag (by simp [tag_b, tag_mp])
theorem ne_b_cp (i j : Interface) : i.boxed ≠ constPtrOf j.cName := ne_of_tag (by simp [tag_b, tag_cp])
theorem ne_mr_n (i j : Interface) : mutRefOf i.cName ≠ j.cName := ne_of_tag (by simp [tag_mr, tag_n])
theorem ne_mr_b (i j : Interface) : mutRefOf i.cName ≠ j.boxed := ne_of_tag (by simp [tag_mr, tag_b])
theorem ne_mr_r (i j : Interface) : mutRefOf i.cName ≠ refOf j.cName := ne_of_tag (by simp [tag_mr, tag_r])
theorem ne_mr_mp (i j : Interface) : mutRefOf i.cName ≠ mutPtrOf j.cName := ne_of_tag (by simp [tag_mr, tag_mp])
theorem ne_mr_cp (i j : Interface) : mutRefOf i.cName ≠ constPtrOf j.cName := ne_of_tag (by simp [tag_mr, tag_cp])
theorem ne_r_n (i j : Interface) : refOf i.cName ≠ j.cName := ne_of_tag (by simp [tag_r, tag_n])
theorem ne_r_b (i j : Interface) : refOf i.cName ≠ j.boxed := ne_of_tag (by simp [tag_r, tag_b])
theorem ne_r_mr (i j : Interface) : refOf i.cName ≠ mutRefOf j.cName := ne_of_tag (by simp [tag_r, tag_mr])
theorem ne_r_mp (i j : Interface) : refOf i.cName ≠ mutPtrOf j.cName := ne_of_tag (by simp [tag_r, tag_mp])
theorem ne_r_cp (i j : Interface) : refOf i.cName ≠ constPtrOf j.cName := ne_of_tag (by simp [tag_r, tag_cp])
theorem ne_mp_n (i j : Interface) : mutPtrOf i.cName ≠ j.cName := ne_of_tag (by simp [tag_mp, tag_n])
theorem ne_mp_b (i j : Interface) : mutPtrOf i.cName ≠ j.boxed := ne_of_tag (by simp [tag_mp, tag_b])
theorem ne_mp_mr (i j : Interface) : mutPtrOf i.cName ≠ mutRefOf j.cName := ne_of_tag (by simp [tag_mp, tag_mr])
theorem ne_mp_r (i j : Interface) : mutPtrOf i.cName ≠ refOf j.cName := ne_of_tag (by simp [tag_mp, tag_r])
theorem ne_mp_cp (i j : Interface) : mutPtrOf i.cName ≠ constPtrOf j.cName := ne_of_tag (by simp [tag_mp, tag_cp])
theorem ne_cp_n (i j : Interface) : constPtrOf i.cName ≠ j.cName := ne_of_tag (by simp [tag_cp, tag_n])
theorem ne_cp_b (i j : Interface) : constPtrOf i.cName ≠ j.boxed := ne_of_tag (by simp [tag_cp, tag_b])
theorem ne_cp_mr (i j : Interface) : constPtrOf i.cName ≠ mutRefOf j.cName := ne_of_tag (by simp [tag_cp, tag_mr])
theorem ne_cp_r (i j : Interface) : constPtrOf i.cName ≠ refOf j.cName := ne_of_tag (by simp [tag_cp, tag_r])
theorem ne_cp_mp (i j : Interface) : constPtrOf i.cName ≠ mutPtrOf j.cName := ne_of_tag (by simp [tag_cp, tag_mp])

theorem constPtrOf_inj {a b : Text} : constPtrOf a = constPtrOf b ↔ a = b := by simp [constPtrOf]
theorem mutPtrOf_inj {a b : Text} : mutPtrOf a = mutPtrOf b ↔ a = b := by simp [mutPtrOf]
theorem cName_inj {i j : Interface} : i.cName = j.cName ↔ i.name = j.name := by simp [Interface.cName]
theorem boxed_inj {i j : Interface} : i.boxed = j.boxed ↔ i.object = j.object := by simp [Interface.boxed]

theorem kname (t : Text) : (key t).name = t := rfl

/-- SPECIFICATION: the Rust types of an interface. -/
def tys (i : Interface) : List Text :=
  [i.cName, refOf i.cName, mutRefOf i.cName, constPtrOf i.cName, mutPtrOf i.cName, i.boxed]

/-- SPECIFICATION: the C and C++ types of an interface. -/
def cppNames (i : Interface) : List Text :=
  [lit "C_" ++ i.name, lit "const C_" ++ i.name ++ lit " &", lit "C_" ++ i.name ++ lit " &", lit "const struct C_" ++ i.name ++ lit " * const",
   lit "std::unique_ptr<" ++ i.name ++ lit ">"]

theorem ftNames_reg (i : Interface) : ftNames (regCmds i) = cppNames i := by
  have h1 : lit "const C_" = lit "const " ++ lit "C_" := by unfold lit; decide
  have h2 : lit "const struct C_" = lit "const struct " ++ lit "C_" := by unfold lit; decide
  simp only [regCmds, directCmds, referenceCmds, ftNames, cppNames, Interface.cName, h1, h2, List.append_assoc, List.cons_append,
    List.nil_append]

theorem ftNames_all (is : List Interface) : ftNames (is.flatMap regCmds) = is.flatMap cppNames := by
  induction is with
  | nil => rfl
  | cons c cs ih => rw [List.flatMap_cons, List.flatMap_cons, ftNames_append, ftNames_reg, ih]

/-- Registration of interfaces succeeds exactly if their C++ types are new and different from each other. -/
theorem C66_accepted (st : St) (h : Inv st) (is : List Interface) :
    (∃ st', run st (is.flatMap regCmds) = .ok st') ↔
      (∀ n ∈ is.flatMap cppNames, st.fts.findByName n = none) ∧ (is.flatMap cppNames).Nodup := by
  rw [← ftNames_all]
  rcases run_spec (is.flatMap regCmds) h with ⟨h3, st', h4, _⟩ | ⟨h3, h4⟩
  · exact ⟨fun _ => h3, fun _ => ⟨st', h4⟩⟩
  · constructor
    · rintro ⟨st', hr⟩; rw [h4] at hr; cases hr
    · exact fun h => absurd h h3

/-- The words of a text. -/
abbrev words (t : Text) : List Text := cut ' ' t

theorem words_eq (i : Interface) (hn : ' ' ∉ i.name) : (cppNames i).map words =
    [[lit "C_" ++ i.name], [lit "const", lit "C_" ++ i.name, lit "&"], [lit "C_" ++ i.name, lit "&"],
     [lit "const", lit "struct", lit "C_" ++ i.name, lit "*", lit "const"], [lit "std::unique_ptr<" ++ i.name ++ lit ">"]] := by
  have hC : ' ' ∉ lit "C_" ++ i.name := by simp only [List.mem_append, not_or]; exact ⟨by unfold lit; decide, hn⟩
  have hU : ' ' ∉ lit "std::unique_ptr<" ++ i.name ++ lit ">" := by
    simp only [List.mem_append, not_or]; exact ⟨⟨by unfold lit; decide, hn⟩, by unfold lit; decide⟩
  have hc : ' ' ∉ lit "const" := by unfold lit; decide
  have hs : ' ' ∉ lit "struct" := by unfold lit; decide
  have ha : ' ' ∉ lit "&" := by unfold lit; decide
  have hst : ' ' ∉ lit "*" := by unfold lit; decide
  have l1 : lit "const C_" = lit "const" ++ ' ' :: lit "C_" := by unfold lit; decide
  have l2 : lit " &" = ' ' :: lit "&" := by unfold lit; decide
  have l3 : lit "const struct C_" = lit "const" ++ ' ' :: (lit "struct" ++ ' ' :: lit "C_") := by unfold lit; decide
  have l4 : lit " * const" = ' ' :: (lit "*" ++ ' ' :: lit "const") := by unfold lit; decide
  have cwa : ∀ {a : Text} (b : Text), ' ' ∉ a → words (a ++ ' ' :: b) = a :: words b := fun b h => cut_app b h
  have cwo : ∀ {a : Text}, ' ' ∉ a → words a = [a] := fun h => cut_one h
  have w3 : words (lit "C_" ++ i.name ++ lit " &") = [lit "C_" ++ i.name, lit "&"] := by rw [l2, cwa _ hC, cwo ha]
  have w2 : words (lit "const C_" ++ i.name ++ lit " &") = [lit "const", lit "C_" ++ i.name, lit "&"] := by
    rw [l1, List.append_assoc, List.append_assoc, List.cons_append, cwa _ hc, ← List.append_assoc, w3]
  have w4 : words (lit "const struct C_" ++ i.name ++ lit " * const") =
      [lit "const", lit "struct", lit "C_" ++ i.name, lit "*", lit "const"] := by
    have e : lit "const struct C_" ++ i.name ++ lit " * const" =
        lit "const" ++ ' ' :: (lit "struct" ++ ' ' :: ((lit "C_" ++ i.name) ++ ' ' :: (lit "*" ++ ' ' :: lit "const"))) := by
      rw [l3, l4]; simp only [List.append_assoc, List.cons_append]
    rw [e, cwa _ hc, cwa _ hs, cwa _ hC, cwa _ hst, cwo hc]
  simp only [cppNames, List.map_cons, List.map_nil, w2, w3, w4, cwo hC, cwo hU]

/-- These types are different from each other exactly if the names of the interfaces are. -/
theorem C66_names (is : List Interface) (hid : ∀ i ∈ is, ' ' ∉ i.name) :
    (is.flatMap cppNames).Nodup ↔ (is.map (·.name)).Nodup := by
  have d1 : lit "const" ≠ lit "&" := by unfold lit; decide
  have d2 : ∀ n m : Text, lit "C_" ++ n ≠ lit "std::unique_ptr<" ++ m ++ lit ">" := by
    intro n m he
    have := congrArg List.head? he
    unfold lit at this
    simp at this
  have hinj : ∀ i ∈ is, ∀ j ∈ is, ∀ x, x ∈ cppNames i → x ∈ cppNames j → i.name = j.name := by
    intro i hi j hj x hx hx'
    have h1 : words x ∈ (cppNames i).map words := List.mem_map.2 ⟨x, hx, rfl⟩
    have h2 : words x ∈ (cppNames j).map words := List.mem_map.2 ⟨x, hx', rfl⟩
    rw [words_eq _ (hid i hi)] at h1
    rw [words_eq _ (hid j hj)] at h2
    generalize words x = X at h1 h2
    simp only [List.mem_cons, List.not_mem_nil, or_false] at h1 h2
    have d2' : ∀ n m : Text, lit "std::unique_ptr<" ++ m ++ lit ">" ≠ lit "C_" ++ n := fun n m he => d2 n m he.symm
    rcases h1 with rfl | rfl | rfl | rfl | rfl <;> rcases h2 with h2 | h2 | h2 | h2 | h2 <;>
      simp only [List.cons.injEq, List.append_cancel_right_eq, List.append_cancel_left_eq, and_true, true_and, reduceCtorEq, and_false,
        false_and, d2, d2'] at h2 <;> exact h2
  unfold List.Nodup
  rw [List.pairwise_flatMap, List.pairwise_map]
  constructor
  · rintro ⟨_, h⟩
    refine h.imp ?_
    intro i j h he
    exact h (lit "C_" ++ i.name) (by simp [cppNames]) (lit "C_" ++ j.name) (by simp [cppNames]) (by rw [he])
  · intro h
    constructor
    · intro i hi
      have hnd : ((cppNames i).map words).Nodup := by
        rw [words_eq _ (hid i hi)]
        have := d2 i.name i.name
        rw [List.append_assoc] at this
        simp [this]
      exact List.Pairwise.of_map words (fun x y h he => h (he ▸ rfl)) hnd
    · refine List.Pairwise.imp_of_mem ?_ h
      intro i j hi hj hn x hx y hy hxy
      subst hxy
      exact hn (hinj i hi j hj x hx hy)

theorem regKeys (i : Interface) (x : Cmd) (hx : x ∈ regCmds i) (k : Key) (hk : k ∈ x.keys) : ∃ t ∈ tys i, k = key t := by
  have h0 : ∀ l : List Cmd, (∀ x ∈ l, ∀ k ∈ x.keys, k ∈ (tys i).map key) → ∀ x ∈ l, ∀ k ∈ x.keys, ∃ t ∈ tys i, k = key t := by
    intro l h x hx k hk
    have := h x hx k hk
    simp only [List.mem_map] at this
    obtain ⟨t, h1, h2⟩ := this
    exact ⟨t, h1, h2.symm⟩
  refine h0 _ ?_ x hx k hk
  simp [regCmds, directCmds, referenceCmds, Cmd.keys, FRuleN.keys, tys]

/-- Different interfaces have no type in common. -/
theorem tys_sep {i j : Interface} (hn : i.name ≠ j.name) (ho : i.object ≠ j.object) : ∀ t ∈ tys i, t ∉ tys j := by
  have hc : i.cName ≠ j.cName := fun e => hn (cName_inj.1 e)
  have hb : i.boxed ≠ j.boxed := fun e => ho (boxed_inj.1 e)
  intro t ht ht'
  simp only [tys, List.mem_cons, List.not_mem_nil, or_false] at ht ht'
  rcases ht with rfl | rfl | rfl | rfl | rfl | rfl <;>
    simp only [ne_n_b, ne_n_mr, ne_n_r, ne_n_mp, ne_n_cp, ne_b_n, ne_b_mr, ne_b_r, ne_b_mp, ne_b_cp, ne_mr_n, ne_mr_b, ne_mr_r, ne_mr_mp, ne_mr_cp, ne_r_n, ne_r_b, ne_r_mr, ne_r_mp, ne_r_cp, ne_mp_n, ne_mp_b, ne_mp_mr, ne_mp_r, ne_mp_cp, ne_cp_n, ne_cp_b, ne_cp_mr, ne_cp_r, ne_cp_mp, refOf_inj, mutRefOf_inj, constPtrOf_inj, mutPtrOf_inj, hc, hb, or_self] at ht'

theorem other_reg {l : List Interface} {i : Interface} (hs : ∀ j ∈ l, j.name ≠ i.name ∧ j.object ≠ i.object) (dir : Select.Dir)
    (n : Text) (hn : n ∈ tys i) : ∀ j ∈ l, ∀ y ∈ regCmds j, decide (stdKey dir y = some n) = false := by
  intro j hj y hy
  simp only [decide_eq_false_iff_not]
  intro he
  obtain ⟨k, hk, hkn⟩ := stdKey_key he
  obtain ⟨t, ht, rfl⟩ := regKeys j y hy k hk
  rw [kname] at hkn
  subst hkn
  exact tys_sep (hs j hj).1 (hs j hj).2 t ht hn

/-- How an interface can be used in functions: `Box<dyn Trait>` is passed to Rust as `std::unique_ptr<Name>`, which C++ gives away as a
pointer to the C structure; the structure itself and pointers to it are used as they are, and references to it are lent to C++.  This
holds for any number of interfaces, as long as no earlier interface has the same name or trait and no older foreign type stands for
these Rust types. -/
theorem C66_lookup (P : Graph.PopFn) (st st' : St) (h : Inv st) (l m : List Interface) (i : Interface)
    (hr : run st ((l ++ i :: m).flatMap regCmds) = .ok st') (hs : ∀ j ∈ l, j.name ≠ i.name ∧ j.object ≠ i.object)
    (hold : ∀ t ∈ tys i, ∀ n, st.tm.names t = some n → ∀ dir, ∀ ft ∈ st.fts.ftypes, stands dir ft ≠ some n) :
    (∃ ft, chosen P st' false i.boxed = some ft ∧ ft.name.display = lit "std::unique_ptr<" ++ i.name ++ lit ">" ∧
      ft.provided = [lit "\"" ++ i.name ++ lit ".hpp\"", lit "<memory>", lit "<utility>"] ∧
      Goes st' ft.frm i.boxed (constPtrOf i.cName) (lit "\n        C_" ++ i.name ++ lit " $tmp = " ++ i.name ++
        lit "::to_c_interface(std::move({from_var}));\n        {to_var_type} = &$tmp;\n")) ∧
    (∀ dir, ∃ ft, chosen P st' dir i.cName = some ft ∧ ft.name.display = lit "C_" ++ i.name ∧
      ft.provided = [lit "\"c_" ++ i.name ++ lit ".h\""] ∧ Direct st' (if dir then ft.into else ft.frm) i.cName) ∧
    (∀ dir, ∃ ft, chosen P st' dir (constPtrOf i.cName) = some ft ∧ ft.name.display = lit "const struct C_" ++ i.name ++ lit " * const" ∧
      ft.provided = [lit "\"c_" ++ i.name ++ lit ".h\""] ∧ Direct st' (if dir then ft.into else ft.frm) (constPtrOf i.cName)) ∧
    (∃ ft, chosen P st' true (refOf i.cName) = some ft ∧ ft.name.display = lit "const C_" ++ i.name ++ lit " &" ∧
      ft.provided = [lit "\"c_" ++ i.name ++ lit ".h\""] ∧ Goes st' ft.into (refOf i.cName) (constPtrOf i.cName) (lit "*{from_var}")) ∧
    (∃ ft, chosen P st' true (mutRefOf i.cName) = some ft ∧ ft.name.display = lit "C_" ++ i.name ++ lit " &" ∧
      ft.provided = [lit "\"c_" ++ i.name ++ lit ".h\""] ∧ Goes st' ft.into (mutRefOf i.cName) (mutPtrOf i.cName) (lit "*{from_var}")) := by
  have go : ∀ (dir : Select.Dir) (n : Text), n ∈ tys i → ∀ x, (regCmds i).find? (fun c => decide (stdKey dir c = some n)) = some x →
      ((l ++ i :: m).flatMap regCmds).find? (fun c => decide (stdKey dir c = some n)) = some x := by
    intro dir n hn x hx
    exact find_flat regCmds _ l m i x (other_reg hs dir n hn) hx
  have mC : i.cName ∈ tys i := by simp [tys]
  have mR : refOf i.cName ∈ tys i := by simp [tys]
  have mM : mutRefOf i.cName ∈ tys i := by simp [tys]
  have mP : constPtrOf i.cName ∈ tys i := by simp [tys]
  have mB : i.boxed ∈ tys i := by simp [tys]
  have c1 : lit "\"c_" ++ i.name ++ lit ".h\"" = lit "\"" ++ i.cHeader ++ lit "\"" := by
    have e1 : lit "\"c_" = lit "\"" ++ lit "c_" := by unfold lit; decide
    have e2 : lit ".h\"" = lit ".h" ++ lit "\"" := by unfold lit; decide
    rw [e1, e2]; simp only [Interface.cHeader, List.append_assoc]
  have c2 : lit "\"" ++ i.name ++ lit ".hpp\"" = lit "\"" ++ i.cppHeader ++ lit "\"" := by
    have e2 : lit ".hpp\"" = lit ".hpp" ++ lit "\"" := by unfold lit; decide
    rw [e2]; simp only [Interface.cppHeader, List.append_assoc]
  have c3 : lit "*{from_var}" = lit "*" ++ fv := by unfold fv Template.fromVar lit; decide
  have c4 : lit "\n        C_" ++ i.name ++ lit " $tmp = " ++ i.name ++
        lit "::to_c_interface(std::move({from_var}));\n        {to_var_type} = &$tmp;\n" = giveCode i := by
    have e : lit "::to_c_interface(std::move({from_var}));\n        {to_var_type} = &$tmp;\n" =
      lit "::to_c_interface(std::move(" ++ (fv ++ (lit "));\n        " ++ (Template.toVarType ++ lit " = &$tmp;\n"))) := by
      unfold fv Template.fromVar Template.toVarType lit; decide
    rw [e]; simp only [giveCode, List.append_assoc]
  have c5 : lit "const C_" ++ i.name ++ lit " &" = lit "const " ++ i.cName ++ lit " &" := by
    have e1 : lit "const C_" = lit "const " ++ lit "C_" := by unfold lit; decide
    rw [e1]; simp only [Interface.cName, List.append_assoc]
  have c6 : lit "const struct C_" ++ i.name ++ lit " * const" = lit "const struct " ++ i.cName ++ lit " * const" := by
    have e1 : lit "const struct C_" = lit "const struct " ++ lit "C_" := by unfold lit; decide
    rw [e1]; simp only [Interface.cName, List.append_assoc]
  rw [c1, c2, c3, c4, c5, c6]
  have p1 := go false _ mB (.ftype i.src [] (lit "std::unique_ptr<" ++ i.name ++ lit ">")
     [lit "\"" ++ i.cppHeader ++ lit "\"", lit "<memory>", lit "<utility>"] none
     (some ⟨key i.boxed, some (key (constPtrOf i.cName), giveCode i)⟩))
    (by simp [regCmds, directCmds, referenceCmds, stdKey, kname, ne_n_b, ne_cp_b, -List.find?_append])
  have p2 : ∀ dir, _ := fun dir => go dir _ mC (.ftype i.src [] i.cName [lit "\"" ++ i.cHeader ++ lit "\""] (some ⟨key i.cName, none⟩) (some ⟨key i.cName, none⟩))
    (by cases dir <;> simp [regCmds, directCmds, referenceCmds, stdKey, kname, -List.find?_append])
  have p3 : ∀ dir, _ := fun dir => go dir _ mP (.ftype i.src [] (lit "const struct " ++ i.cName ++ lit " * const") [lit "\"" ++ i.cHeader ++ lit "\""]
      (some ⟨key (constPtrOf i.cName), none⟩) (some ⟨key (constPtrOf i.cName), none⟩))
    (by cases dir <;> simp [regCmds, directCmds, referenceCmds, stdKey, kname, ne_n_cp, ne_r_cp, ne_mr_cp, -List.find?_append])
  have p4 := go true _ mR (.ftype i.src [] (lit "const " ++ i.cName ++ lit " &") [lit "\"" ++ i.cHeader ++ lit "\""]
      (some ⟨key (refOf i.cName), some (key (constPtrOf i.cName), lit "*" ++ fv)⟩) none)
    (by simp [regCmds, directCmds, referenceCmds, stdKey, kname, ne_n_r, -List.find?_append])
  have p5 := go true _ mM (.ftype i.src [] (i.cName ++ lit " &") [lit "\"" ++ i.cHeader ++ lit "\""]
      (some ⟨key (mutRefOf i.cName), some (key (mutPtrOf i.cName), lit "*" ++ fv)⟩) none)
    (by simp [regCmds, directCmds, referenceCmds, stdKey, kname, ne_n_mr, ne_r_mr, -List.find?_append])
  exact ⟨lookup_goes P h hr false _ (fun n hn => hold _ mB n hn false) rfl p1,
    fun dir => lookup_direct P h hr dir _ (fun n hn => hold _ mC n hn dir) (k := key i.cName) (by simp) (p2 dir),
    fun dir => lookup_direct P h hr dir _ (fun n hn => hold _ mP n hn dir) (k := key (constPtrOf i.cName)) (by simp) (p3 dir),
    lookup_goes P h hr true _ (fun n hn => hold _ mR n hn true) rfl p4,
    lookup_goes P h hr true _ (fun n hn => hold _ mM n hn true) rfl p5⟩

theorem rulesOf_reg (i : Interface) : rulesOf (regCmds i) =
    [(refOf i.cName, constPtrOf i.cName, lit "\n            let " ++ tv ++ lit ": " ++ constPtrOf i.cName ++ lit " = " ++ fv ++ lit ";\n        "),
     (mutRefOf i.cName, mutPtrOf i.cName, lit "\n            let " ++ tv ++ lit ": " ++ mutPtrOf i.cName ++ lit " = " ++ fv ++ lit ";\n        "),
     (constPtrOf i.cName, i.boxed, takeCode i)] := by
  simp [regCmds, directCmds, referenceCmds, rulesOf, kname]

/-- The Rust side: a pointer to the structure becomes a boxed trait object holding a copy of the structure, after a check for null; a
reference becomes a pointer of the same kind.  No other interface interferes. -/
theorem C66_conversions (st st' : St) (h : Inv st) (is : List Interface) (hr : run st (is.flatMap regCmds) = .ok st')
    (hs : is.Pairwise fun a b => a.name ≠ b.name ∧ a.object ≠ b.object) (i : Interface) (hi : i ∈ is) (w : Text) :
    (TMap.HasRule st'.tm (constPtrOf i.cName) i.boxed w ↔ w = lit "\n            assert!(!{from_var}.is_null());\n            let {to_var}: &C_" ++ i.name ++
      lit " = unsafe { {from_var}.as_ref().unwrap() };\n            let mut {to_var}: " ++ i.boxed ++ lit " = Box::new({to_var}.clone());\n        ") ∧
    (TMap.HasRule st'.tm (refOf i.cName) (constPtrOf i.cName) w ↔
      w = lit "\n            let {to_var}: " ++ constPtrOf i.cName ++ lit " = {from_var};\n        ") ∧
    (TMap.HasRule st'.tm (mutRefOf i.cName) (mutPtrOf i.cName) w ↔
      w = lit "\n            let {to_var}: " ++ mutPtrOf i.cName ++ lit " = {from_var};\n        ") := by
  have e1 : lit "\n            let {to_var}: " = lit "\n            let " ++ (tv ++ lit ": ") := by unfold tv Template.toVar lit; decide
  have e2 : lit " = {from_var};\n        " = lit " = " ++ (fv ++ lit ";\n        ") := by unfold fv Template.fromVar lit; decide
  have e3 : lit "\n            assert!(!{from_var}.is_null());\n            let {to_var}: &C_" =
      lit "\n            assert!(!" ++ (fv ++ (lit ".is_null());\n            let " ++ (tv ++ (lit ": &" ++ lit "C_")))) := by
    unfold tv fv Template.toVar Template.fromVar lit; decide
  have e4 : lit " = unsafe { {from_var}.as_ref().unwrap() };\n            let mut {to_var}: " =
      lit " = unsafe { " ++ (fv ++ (lit ".as_ref().unwrap() };\n            let mut " ++ (tv ++ lit ": "))) := by
    unfold tv fv Template.toVar Template.fromVar lit; decide
  have e5 : lit " = Box::new({to_var}.clone());\n        " = lit " = Box::new(" ++ (tv ++ lit ".clone());\n        ") := by
    unfold tv Template.toVar lit; decide
  have t1 : lit "\n            assert!(!{from_var}.is_null());\n            let {to_var}: &C_" ++ i.name ++
      lit " = unsafe { {from_var}.as_ref().unwrap() };\n            let mut {to_var}: " ++ i.boxed ++ lit " = Box::new({to_var}.clone());\n        " = takeCode i := by
    rw [e3, e4, e5]; simp only [takeCode, Interface.cName, List.append_assoc]
  have t2 : ∀ X : Text, lit "\n            let {to_var}: " ++ X ++ lit " = {from_var};\n        " =
      lit "\n            let " ++ tv ++ lit ": " ++ X ++ lit " = " ++ fv ++ lit ";\n        " := by
    intro X; rw [e1, e2]; simp only [List.append_assoc]
  rw [t1, t2, t2]
  have hdone := run_done h hr
  have hsep : ∀ j ∈ is, j ≠ i → j.name ≠ i.name ∧ j.object ≠ i.object := by
    intro j hj hne
    obtain ⟨l, m, rfl⟩ := List.append_of_mem hi
    rw [List.pairwise_append, List.pairwise_cons] at hs
    rcases List.mem_append.1 hj with h1 | h1
    · exact hs.2.2 j h1 i List.mem_cons_self
    · rcases List.mem_cons.1 h1 with h1 | h1
      · exact absurd h1 hne
      · obtain ⟨a, b⟩ := hs.2.1.1 j h1
        exact ⟨a.symm, b.symm⟩
  have go : ∀ a b code, (a, b, code) ∈ rulesOf (regCmds i) → ∀ w, TMap.HasRule st'.tm a b w ↔ w = code := by
    intro a b code hm w
    rw [hdone.rules]
    refine over_mem _ _ a b code ((mem_rules_flat regCmds).2 ⟨i, hi, hm⟩) ?_ w
    intro c' hc'
    obtain ⟨x, hx, hm'⟩ := (mem_rules_flat regCmds).1 hc'
    have hnm : ∀ j : Interface, (j.name = i.name → j = i) → (a, b, c') ∈ rulesOf (regCmds j) → c' = code := by
      intro j hj hm'
      rw [rulesOf_reg] at hm hm'
      simp only [List.mem_cons, List.not_mem_nil, or_false, Prod.mk.injEq] at hm hm'
      rcases hm with ⟨rfl, rfl, rfl⟩ | ⟨rfl, rfl, rfl⟩ | ⟨rfl, rfl, rfl⟩ <;>
        rcases hm' with ⟨h1, h2, h3⟩ | ⟨h1, h2, h3⟩ | ⟨h1, h2, h3⟩ <;>
        simp only [refOf_inj, mutRefOf_inj, constPtrOf_inj, mutPtrOf_inj, cName_inj, ne_n_b, ne_n_mr, ne_n_r, ne_n_mp, ne_n_cp, ne_b_n, ne_b_mr, ne_b_r, ne_b_mp, ne_b_cp, ne_mr_n, ne_mr_b, ne_mr_r, ne_mr_mp, ne_mr_cp, ne_r_n, ne_r_b, ne_r_mr, ne_r_mp, ne_r_cp, ne_mp_n, ne_mp_b, ne_mp_mr, ne_mp_r, ne_mp_cp, ne_cp_n, ne_cp_b, ne_cp_mr, ne_cp_r, ne_cp_mp] at h1 h2 <;>
        (have := hj h1.symm; subst this; exact h3)
    refine hnm x (fun he => ?_) hm'
    by_cases hxi : x = i
    · exact hxi
    · exact absurd he (hsep x hx hxi).1
  rw [rulesOf_reg] at go
  exact ⟨go _ _ _ (by simp) w, go _ _ _ (by simp) w, go _ _ _ (by simp) w⟩

/-! ### Findings -/

/-- **Finding.**  An argument whose type is also an output (`input_to_output`) is left out of the virtual method's parameters, but the static
function passes an expression for each argument: the generated C++ does not compile. -/
theorem C66_finding_in_out (i : Interface) (m : IMethod) (s : Slot) (t : Text) (_h : IsStatic i m s t)
    (hio : ∃ a ∈ s.args, a.2.info.inputToOutput = true) :
    ∃ (pre post : Text) (es : List Text), t = pre ++ lit "->" ++ s.name ++ lit "(" ++ commaJoin es ++ lit ");\n" ++ post ∧
      es.length = s.args.length ∧ s.virtualParams.length < es.length := by
  obtain ⟨⟨o, p, r, ds, es, -, -, -, h1, h2, -, rfl⟩⟩ := _h
  have hlt : s.virtualParams.length < es.length := by
    rw [h2, Slot.virtualParams, List.length_map]
    obtain ⟨a, ha, hb⟩ := hio
    have h3 := List.length_filter_le (fun a : Text × FTy => !a.2.info.inputToOutput) s.args
    rcases Nat.lt_or_eq_of_le h3 with h3 | h3
    · exact h3
    · have := List.length_filter_eq_length_iff.1 h3 a ha
      simp [hb] at this
  have key : ∀ H : Text, ∃ (pre post : Text) (es' : List Text),
      H ++ (if s.ret.info.name = lit "void" then
        lit "\n        " ++ p ++ lit "->" ++ s.name ++ lit "(" ++ commaJoin es ++ lit ");\n    }\n"
      else lit "\n        auto " ++ r ++ lit " = " ++ p ++ lit "->" ++ s.name ++ lit "(" ++ commaJoin es ++ lit ");\n        return " ++
        returned s.ret.info r ++ lit ";\n    }\n") = pre ++ lit "->" ++ s.name ++ lit "(" ++ commaJoin es' ++ lit ");\n" ++ post ∧
      es'.length = s.args.length ∧ s.virtualParams.length < es'.length := by
    intro H
    by_cases hv : s.ret.info.name = lit "void"
    · have e : lit ");\n    }\n" = lit ");\n" ++ lit "    }\n" := by unfold lit; decide
      refine ⟨H ++ (lit "\n        " ++ p), lit "    }\n", es, ?_, h2, hlt⟩
      rw [if_pos hv, e]
      simp only [List.append_assoc]
    · have e : lit ");\n        return " = lit ");\n" ++ lit "        return " := by unfold lit; decide
      refine ⟨H ++ (lit "\n        auto " ++ r ++ lit " = " ++ p), lit "        return " ++ returned s.ret.info r ++ lit ";\n    }\n", es, ?_, h2, hlt⟩
      rw [if_neg hv, e]
      simp only [List.append_assoc]
  exact key _

/-! ### Examples -/

/-- A type map that knows every type. -/
def tm0 : TypeMap Nat := ⟨fun s d t => some (⟨⟨(if d then lit "in_" else lit "out_") ++ t, [lit "<x>"], none, false⟩, lit "r_" ++ t⟩, s + 1),
  fun s f t v _ => some ([], f ++ lit "->" ++ t ++ lit ":" ++ v, s + 1)⟩

/-- `callback Obs { self_type Observer; on_change = Observer::on_change(&self, x: i32, pi: u8) -> bool; done = Observer::done(&mut self); }` -/
def obs : Interface := ⟨lit "Obs", lit "Observer", lit "Observer", [],
  [⟨lit "on_change", [lit "Observer", lit "on_change"], .rptr, [(lit "x", lit "i32"), (lit "pi", lit "u8")], some (lit "bool"), []⟩,
   ⟨lit "done", [lit "Observer", lit "finish"], .rptrMut, [], none, []⟩], none⟩

/-- What is generated for it. -/
def obsOut : Option Out := match generate (fun c => c = ' ') (lit "org") tm0 0 obs with | .ok o => some o | .error _ => none

example : obsOut.map (·.cHdr) = some (lit "// Automatically generated by flapigen\n#pragma once\n\nstruct C_Obs {\n    void *opaque;\n    //! call by Rust side when callback not need anymore\n    void (*C_Obs_deref)(void *opaque);\n\n    in_bool (*on_change)(out_i32 x, out_u8 pi, void *opaque);\n\n    void (*done)(void *opaque);\n\n};\n") := by
  decide +kernel

example : obsOut.map (fun o => o.rust.fields) = some [(lit "opaque", .ty (lit "*const ::std::os::raw::c_void")),
    (lit "C_Obs_deref", .fnPtr [lit "*const ::std::os::raw::c_void"] (lit "()")),
    (lit "on_change", .fnPtr [lit "r_i32", lit "r_u8", lit "*const ::std::os::raw::c_void"] (lit "r_bool")),
    (lit "done", .fnPtr [lit "*const ::std::os::raw::c_void"] (lit "()"))] := by decide +kernel

/-- The argument `pi` makes the generator use another name for the object. -/
example : obs.items.map (fun m => (names m).map (·.ptr)) = [some (lit "pi0"), some (lit "pi")] := by decide +kernel

/-- `C66_agree` is about something. -/
example : ∃ out sl, generate (fun c => c = ' ') (lit "org") tm0 0 obs = .ok out ∧ Agree (fun c => c = ' ') (lit "org") tm0 obs sl out ∧ sl.length = 2 := by
  cases h : generate (fun c => c = ' ') (lit "org") tm0 0 obs with
  | error e =>
    have : obsOut.isSome = true := by decide +kernel
    simp [obsOut, h] at this
  | ok out =>
    obtain ⟨sl, ha⟩ := C66_agree _ _ _ _ _ _ h
    exact ⟨out, sl, rfl, ha, ha.slots.1⟩

/-- A second interface. -/
def other : Interface := ⟨lit "Other", lit "Oth", lit "Oth", [], [], none⟩

/-- **Finding.**  A method whose result is another callback interface (or any type converted by declaring a variable) is generated with
the placeholders of the conversion code left in the C++ text. -/
theorem C66_finding_result_placeholder :
    returned ⟨lit "const struct C_Other * const", [], some ⟨lit "std::unique_ptr<Other>", ⟨giveCode other, [Template.fromVar, Template.toVarType, lit "$tmp"]⟩⟩, false⟩
      (lit "ret") = lit "\n        C_Other $tmp = Other::to_c_interface(std::move(ret));\n        {to_var_type} = &$tmp;\n" := by decide +kernel

/-- An empty type map. -/
def st0 : St := ⟨TMap.empty, FTypes.Storage.empty⟩

theorem st0_inv : Inv st0 := ⟨TMap.ok_empty, FTypes.consistent_empty, by intro ft hft; cases hft⟩

/-- Is it accepted? -/
def accepted (is : List Interface) : Bool := match run st0 (is.flatMap regCmds) with | .ok _ => true | .error _ => false

example : accepted [obs, other] = true := by decide +kernel
example : accepted [obs, { other with name := lit "Obs" }] = false := by decide +kernel

/-- The hypotheses of `C66_lookup` and `C66_conversions` hold for the two interfaces. -/
example : ∃ st', run st0 ([obs, other].flatMap regCmds) = .ok st' ∧
    (∀ P, ∃ ft, chosen P st' false (lit "Box < dyn Oth >") = some ft ∧ ft.name.display = lit "std::unique_ptr<Other>") ∧
    ∃ w, TMap.HasRule st'.tm (constPtrOf obs.cName) obs.boxed w := by
  cases hr : run st0 ([obs, other].flatMap regCmds) with
  | error e =>
    have : accepted [obs, other] = true := by decide +kernel
    rw [accepted, hr] at this; cases this
  | ok st' =>
    have n1 : obs.name ≠ other.name := by decide +kernel
    have n2 : obs.object ≠ other.object := by decide +kernel
    refine ⟨st', rfl, fun P => ?_, ?_⟩
    · obtain ⟨⟨ft, h1, h2, _⟩, _⟩ := C66_lookup P st0 st' st0_inv [obs] [] other hr
        (by intro j hj; simp only [List.mem_singleton] at hj; subst hj; exact ⟨n1, n2⟩) (by intro t _ i hi; cases hi)
      have hb : other.boxed = lit "Box < dyn Oth >" := by decide +kernel
      have hd : lit "std::unique_ptr<" ++ other.name ++ lit ">" = lit "std::unique_ptr<Other>" := by decide +kernel
      exact ⟨ft, hb ▸ h1, h2.trans hd⟩
    · exact ⟨_, (C66_conversions st0 st' st0_inv [obs, other] hr (by simp [n1, n2]) obs (by simp) _).1.2 rfl⟩

end Flapi.CppInterface
