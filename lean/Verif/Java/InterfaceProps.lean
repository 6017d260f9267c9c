import Verif.Java.Interface
import Verif.Java.ClassGenProps
import Verif.Java.CallbackProps
import Verif.Java.NamesProps
import Verif.Cpp.InterfaceProps
/-! # Java: the code generated for a callback interface agrees with itself (C67) -/
namespace Flapi.JavaInterface

open Flapi.CppInterface (IMethod Interface aName convInputs convOutput traitParams receiver receiver_eq convInputs_ok convOutput_ok traitParams_eq
  aNames_nodup)
open Flapi.JavaClassGen (FTy Sig TypeMap Cfg sigJ)
open Flapi.JavaCode (argsWithTypes nullImports commaJoin argPiece annText)
open Flapi.JavaNames (SigMap methodSignature JTy methodDesc Reg GoodName Names RetNames table)
open Flapi.JavaCallback (methodIds C36_dispatch)
open Flapi.Exported (lit RStmt RustFn Err orErr World M bind_ok orErr_ok convAll)
open Flapi.Register

/-! ## Specification -/

/-- A method that Rust calls in Java: its name, its arguments (name and type) and its result. -/
structure Slot where
  name : Text
  args : List (Text × FTy)
  ret : FTy

/-- The type of an argument: the one the type map gives in the direction out of Rust; but if it is to be converted by Java code, the
value is converted to a `jobject` instead, which the type map must be able to do. -/
def ArgType {σ} (tm : TypeMap σ) (rust : Text) (t : FTy) : Prop :=
  ∃ (u : FTy) (s1 s2 : σ), tm.mapType s1 false rust = some (u, s2) ∧
    (u.info.conv = none → t = u) ∧
    (u.info.conv ≠ none → t.info.name = u.info.name ∧ t.info.annotation = u.info.annotation ∧ t.info.conv = none ∧ t.rust = lit "jobject" ∧
      ∃ s3 d c s4, tm.convert s3 rust (lit "jobject") (lit "x") (lit "ret") = some (d, c, s4))

/-- The slot of a method: its name and the names of its arguments, the types of the arguments as above, and as result type what the type
map gives in the direction into Rust, where no Java code may be needed (`void` if there is no result). -/
structure IsSlot {σ} (tm : TypeMap σ) (m : IMethod) (s : Slot) : Prop where
  name : s.name = m.name
  count : s.args.length = m.args.length
  args : ∀ (k : Nat) (a : Text × Text), m.args[k]? = some a → ∃ t : FTy, s.args[k]? = some (a.1, t) ∧ ArgType tm a.2 t
  ret : ∀ ty, m.output = some ty → s.ret.info.conv = none ∧ ∃ (s1 s2 : σ), tm.mapType s1 true ty = some (s.ret, s2)
  noRet : m.output = none → s.ret = ⟨⟨lit "void", none, none⟩, lit "()"⟩

/-- One slot for each method. -/
def Slots {σ} (tm : TypeMap σ) (i : Interface) (sl : List Slot) : Prop :=
  sl.length = i.items.length ∧ ∀ (k : Nat) (m : IMethod) (s : Slot), i.items[k]? = some m → sl[k]? = some s → IsSlot tm m s

/-- The null annotation in front of a type: only if annotations are wanted and the name does not contain one already. -/
def note (cfg : Cfg) (t : FTy) : Text :=
  if cfg.nullPackage.isSome = true ∧ ¬ (lit "@NonNull" <:+: t.info.name) ∧ ¬ (lit "@Nullable" <:+: t.info.name) then
    match t.info.annotation with
    | some .nonNull => lit "@NonNull "
    | some .nullable => lit "@Nullable "
    | none => []
  else []

/-- Declaration of the method in Java. -/
def Slot.java (cfg : Cfg) (docs : List Text) (s : Slot) : Text :=
  lit "\n" ++ Comments.docToJava cfg.ws docs false ++ lit "\n    " ++ s.ret.info.name ++ lit " " ++ s.name ++ lit "(" ++
    commaJoin (s.args.map fun a => note cfg a.2 ++ a.2.info.name ++ ' ' :: a.1) ++ lit ");\n"

/-- The Java file; the import lines are those of C33. -/
def javaSpec (cfg : Cfg) (i : Interface) (sl : List Slot) : Text :=
  lit "// Automatically generated by flapigen\npackage " ++ cfg.package ++ lit ";\n" ++
  nullImports cfg.nullPackage (sl.map fun s => ⟨s.ret.info, s.args.map (·.2.info)⟩) ++ lit "\n" ++
  Comments.docToJava cfg.ws i.docs true ++ lit "\npublic interface " ++ i.name ++ lit " {\n" ++
  ((i.items.zip sl).map fun x => x.2.java cfg x.1.docs).flatten ++ lit "\n}\n"

/-- The results a Java method can have when Rust calls it, with the JNI functions that call it. -/
def jniFunctions : List (Text × Text) :=
  [(lit "jboolean", lit "Boolean"), (lit "jbyte", lit "Byte"), (lit "jshort", lit "Short"), (lit "jint", lit "Int"), (lit "jlong", lit "Long"),
   (lit "jfloat", lit "Float"), (lit "jdouble", lit "Double"), (lit "jobject", lit "Object")]

/-- `f` is the JNI function for a method. -/
def JniFunction (m : IMethod) (s : Slot) (f : Text) : Prop :=
  (m.output = none → f = lit "CallVoidMethod") ∧
  (m.output ≠ none → ∃ x, (s.ret.rust, x) ∈ jniFunctions ∧ f = lit "Call" ++ x ++ lit "Method")

/-- A value as it is passed to a C function with variable arguments: small types are cast to the promoted types of C. -/
def promote {S V} (w : JWorld S V) (t : FTy) (v : V) : V :=
  if t.rust = lit "jboolean" then w.cast (lit "::std::os::raw::c_uint") v
  else if t.rust = lit "jbyte" ∨ t.rust = lit "jshort" then w.cast (lit "::std::os::raw::c_int") v
  else if t.rust = lit "jfloat" then w.cast (lit "f64") v
  else v

/-- Conversion code of the arguments of a trait method: for argument `k`, held by the variable `a{k}`, the code the type map gives for the
pair of its types. -/
def ArgCodes {σ} (tm : TypeMap σ) (m : IMethod) (s : Slot) (codes : List Text) : Prop :=
  codes.length = m.args.length ∧
  ∀ (k : Nat) (a : Text × Text) (b : Text × FTy) (c : Text), m.args[k]? = some a → s.args[k]? = some b → codes[k]? = some c →
    ∃ sa d sb, tm.convert sa a.2 b.2.rust ('a' :: dec k) (lit "()") = some (d, c, sb)

/-- Conversion code of the result. -/
def OutCode {σ} (tm : TypeMap σ) (m : IMethod) (s : Slot) (ko : Option Text) : Prop :=
  ko.isSome = m.output.isSome ∧ ∀ c ty, ko = some c → m.output = some ty →
    ∃ sa d sb, tm.convert sa s.ret.rust ty (lit "ret") ty = some (d, c, sb)

/-- Method `k` of the trait, called with `vs` on a callback with the method ids `ids`.  Without a JNI environment a method without result
does nothing and one with a result panics.  Otherwise the arguments are converted from left to right, the JNI function for the result type
is called with id number `k` and the (promoted) arguments, a pending Java exception is cleared and the result is converted. -/
structure Forwards {σ} (tm : TypeMap σ) (k : Nat) (m : IMethod) (s : Slot) (f : TraitFn) : Prop where
  name : m.path.getLast? = some f.name
  self : f.self = receiver m.self
  params : f.params.map (·.2) = m.args.map (·.2)
  ret : f.ret = m.output.getD (lit "()")
  run : ∃ codes ko fn, ArgCodes tm m s codes ∧ OutCode tm m s ko ∧ JniFunction m s fn ∧
    ∀ (S V : Type) (w : JWorld S V) (env : Text → V) (ids vs : List V) (id : V), vs.length = m.args.length → ids[k]? = some id →
      f.run w env ids vs = (do
        let e ← w.hasEnv
        if e = true then do
          let xs ← convAll w.toWorld codes vs
          let r ← w.invoke fn id (List.zipWith (promote w) (s.args.map (·.2)) xs)
          w.clear
          if m.output.isSome = true then Exported.outConv w.toWorld ko r else pure w.unit
        else if m.output.isSome = true then w.panic else pure w.unit)

/-- Everything generated for an interface speaks of the same methods. -/
structure Agree {σ} (cfg : Cfg) (tm : TypeMap σ) (i : Interface) (sl : List Slot) (out : Out) : Prop where
  slots : Slots tm i sl
  /-- the Java interface -/
  java : out.java = javaSpec cfg i sl
  /-- the methods looked up in the class of the Java object: the declared ones in this order, by name and JNI signature -/
  lookups : out.rust.fromObject.lookups.length = sl.length ∧
    ∀ (k : Nat) (s : Slot) (x : Text × Text), sl[k]? = some s → out.rust.fromObject.lookups[k]? = some x →
      x.1 = s.name ∧ methodSignature cfg.table (s.args.map (·.2.info.name)) s.ret.info.name = some x.2
  /-- the trait: method `k` calls the `k`-th of them -/
  «trait» : out.rust.trait = i.trait ∧ out.rust.fns.length = sl.length ∧
    ∀ (k : Nat) (m : IMethod) (s : Slot) (f : TraitFn), i.items[k]? = some m → sl[k]? = some s → out.rust.fns[k]? = some f → Forwards tm k m s f
  /-- the conversion makes the boxed trait object of the interface -/
  «from» : out.rust.fromObject.hint = i.name ∧ out.rust.fromObject.target = i.boxed

/-! ## Lemmas -/

theorem mapArg_ok {σ} {tm : TypeMap σ} {s s' : σ} {ty : Text} {t : FTy} (h : mapArg tm s ty = .ok (t, s')) : ArgType tm ty t := by
  simp only [mapArg, bind_ok, orErr_ok, Prod.exists] at h
  obtain ⟨u, s1, h1, h2⟩ := h
  refine ⟨u, s, s1, h1, ?_⟩
  cases hc : u.info.conv with
  | none =>
    rw [hc] at h2
    simp only [Except.ok.injEq, Prod.mk.injEq] at h2
    exact ⟨fun _ => h2.1.symm, fun h => absurd rfl h⟩
  | some c =>
    rw [hc] at h2
    simp only [bind_ok, orErr_ok, Prod.exists, Except.ok.injEq, Prod.mk.injEq] at h2
    obtain ⟨d, k, s2, h3, rfl, _⟩ := h2
    exact ⟨(by intro h; cases h), fun _ => ⟨rfl, rfl, rfl, rfl, _, _, _, _, h3⟩⟩

theorem mapArgs_ok {σ} {tm : TypeMap σ} : ∀ (as : List (Text × Text)) (s s' : σ) (ts : List FTy),
    mapArgs tm s as = .ok (ts, s') → ts.length = as.length ∧
      ∀ (i : Nat) (a : Text × Text), as[i]? = some a → ∃ t, ts[i]? = some t ∧ ArgType tm a.2 t := by
  intro as
  induction as with
  | nil =>
    intro s s' ts h
    simp only [mapArgs, Except.ok.injEq, Prod.mk.injEq] at h
    simp [← h.1]
  | cons a as ih =>
    intro s s' ts h
    obtain ⟨n, ty⟩ := a
    simp only [mapArgs, bind_ok, Prod.exists, Except.ok.injEq, Prod.mk.injEq] at h
    obtain ⟨t, s1, h1, ts', s2, h2, rfl, rfl⟩ := h
    obtain ⟨hl, hi⟩ := ih _ _ _ h2
    refine ⟨by simp [hl], ?_⟩
    intro i a ha
    cases i with
    | zero =>
      simp only [List.getElem?_cons_zero, Option.some.injEq] at ha
      subst ha
      exact ⟨t, rfl, mapArg_ok h1⟩
    | succ i => exact hi i a (by simpa using ha)

/-- The slot of a method with a signature. -/
def slot (m : IMethod) (g : Sig) : Slot := ⟨m.name, m.argNames.zip g.input, g.output⟩

theorem slot_name (m : IMethod) (g : Sig) : (slot m g).name = m.name := rfl
theorem slot_ret (m : IMethod) (g : Sig) : (slot m g).ret = g.output := rfl

theorem slot_types {m : IMethod} {g : Sig} (hl : g.input.length = m.args.length) : (slot m g).args.map (·.2) = g.input := by
  simp only [slot]
  exact List.map_snd_zip (by simp [IMethod.argNames, hl])

theorem slot_ok {σ} {tm : TypeMap σ} {m : IMethod} {s s1 s2 : σ} {i : List FTy} {o : FTy}
    (h1 : mapArgs tm s m.args = .ok (i, s1)) (h2 : mapOutput tm s1 m = .ok (o, s2)) : IsSlot tm m (slot m ⟨o, i⟩) := by
  obtain ⟨hl, hi⟩ := mapArgs_ok _ _ _ _ h1
  refine ⟨rfl, ?_, ?_, ?_, ?_⟩
  · simp [slot, IMethod.argNames, hl]
  · intro k a ha
    obtain ⟨t, ht, hm⟩ := hi k a ha
    refine ⟨t, ?_, hm⟩
    simp only [slot, List.getElem?_zip_eq_some]
    exact ⟨by simp [IMethod.argNames, ha], ht⟩
  · intro ty hty
    rw [mapOutput, hty] at h2
    simp only [bind_ok, orErr_ok, Prod.exists] at h2
    obtain ⟨t, s3, h3, h4⟩ := h2
    cases hc : t.info.conv with
    | some c => rw [hc] at h4; cases h4
    | none =>
      rw [hc] at h4
      simp only [Option.isSome_none, Bool.false_eq_true, if_false, Except.ok.injEq, Prod.mk.injEq] at h4
      obtain ⟨rfl, rfl⟩ := h4
      exact ⟨hc, _, _, h3⟩
  · intro hno
    rw [mapOutput, hno] at h2
    simp only [Except.ok.injEq, Prod.mk.injEq] at h2
    exact h2.1.symm

theorem findSigs_ok {σ} {tm : TypeMap σ} : ∀ (ms : List IMethod) (s s' : σ) (gs : List Sig), findSigs tm s ms = .ok (gs, s') →
    gs.length = ms.length ∧ (∀ (k : Nat) (m : IMethod) (g : Sig), ms[k]? = some m → gs[k]? = some g →
      g.input.length = m.args.length ∧ IsSlot tm m (slot m g)) := by
  intro ms
  induction ms with
  | nil =>
    intro s s' gs h
    simp only [findSigs, Except.ok.injEq, Prod.mk.injEq] at h
    simp [← h.1]
  | cons m ms ih =>
    intro s s' gs h
    simp only [findSigs, bind_ok, Prod.exists, Except.ok.injEq, Prod.mk.injEq] at h
    obtain ⟨i, s1, h1, o, s2, h2, r, s3, h3, rfl, rfl⟩ := h
    obtain ⟨hl, hk⟩ := ih _ _ _ h3
    refine ⟨by simp [hl], ?_⟩
    intro k m' g hm hg
    cases k with
    | zero =>
      simp only [List.getElem?_cons_zero, Option.some.injEq] at hm hg
      subst hm hg
      exact ⟨(mapArgs_ok _ _ _ _ h1).1, slot_ok h1 h2⟩
    | succ k => exact hk k m' g (by simpa using hm) (by simpa using hg)

theorem note_eq (cfg : Cfg) (t : FTy) : annText true cfg.nullPackage.isSome t.info.annotation t.info.name = note cfg t := by
  have e1 : lit "@NonNull" = JavaNames.nonNull := by unfold lit JavaNames.nonNull; rfl
  have e2 : lit "@Nullable" = JavaNames.nullable := by unfold lit JavaNames.nullable; rfl
  have e3 : lit "@NonNull " = "@NonNull ".toList := by unfold lit; rfl
  have e4 : lit "@Nullable " = "@Nullable ".toList := by unfold lit; rfl
  unfold note annText
  rw [e1, e2, e3, e4]
  have h1 := strContains_iff t.info.name JavaNames.nonNull
  have h2 := strContains_iff t.info.name JavaNames.nullable
  generalize strContains t.info.name JavaNames.nonNull = a at *
  generalize strContains t.info.name JavaNames.nullable = b at *
  by_cases hc : cfg.nullPackage.isSome = true ∧ ¬ (JavaNames.nonNull <:+: t.info.name) ∧ ¬ (JavaNames.nullable <:+: t.info.name)
  · rw [if_pos hc]
    obtain ⟨c1, c2, c3⟩ := hc
    rw [← h1] at c2
    rw [← h2] at c3
    rw [c1]
    have a0 : a = false := by cases a with | false => rfl | true => exact absurd rfl c2
    have b0 : b = false := by cases b with | false => rfl | true => exact absurd rfl c3
    rw [a0, b0]
    cases t.info.annotation with
    | none => rfl
    | some n => cases n <;> rfl
  · rw [if_neg hc]
    rw [← h1, ← h2] at hc
    cases hn : cfg.nullPackage.isSome <;> cases a <;> cases b <;> cases t.info.annotation with
    | none => rfl
    | some n => cases n <;> first | rfl | (exact absurd ⟨hn, by simp, by simp⟩ hc)

theorem javaMethod_eq (cfg : Cfg) (m : IMethod) (g : Sig) (hl : g.input.length = m.args.length) :
    javaMethod cfg m g = (slot m g).java cfg m.docs := by
  have hargs : argsWithTypes false true false cfg.nullPackage.isSome (sigJ g) m.argNames =
      commaJoin ((slot m g).args.map fun a => note cfg a.2 ++ a.2.info.name ++ ' ' :: a.1) := by
    rw [JavaClassGen.argsWithTypes_eq _ _ _ _ _ _ (by simp [sigJ, IMethod.argNames, hl]), JavaClassGen.zip_info, List.map_map]
    simp only [Bool.false_and, Bool.false_eq_true, if_false, List.nil_append, slot]
    congr 1
    generalize m.argNames = ns
    generalize g.input = ts
    induction ts generalizing ns with
    | nil => cases ns <;> simp
    | cons t ts ih =>
      cases ns with
      | nil => simp
      | cons n ns =>
        rw [List.zip_cons_cons, List.map_cons, ih, List.zip_cons_cons, List.map_cons]
        simp only [Function.comp, argPiece, JavaClassGen.printed_ext, note_eq]
  simp only [javaMethod, Slot.java, hargs, slot_name, slot_ret]

theorem zip_slots (ms : List IMethod) (gs : List Sig) (f : IMethod → Slot → Text) :
    ((ms.zip gs).map fun x => f x.1 (slot x.1 x.2)) = (ms.zip ((ms.zip gs).map fun x => slot x.1 x.2)).map fun x => f x.1 x.2 := by
  induction ms generalizing gs with
  | nil => simp
  | cons m ms ih => cases gs with
    | nil => simp
    | cons g gs => simp [ih]

theorem lookups_ok {cfg : Cfg} : ∀ (ms : List IMethod) (gs : List Sig) (r : List (Text × Text)), gs.length = ms.length →
    lookups cfg ms gs = .ok r → r.length = ms.length ∧
      ∀ (k : Nat) (m : IMethod) (g : Sig) (x : Text × Text), ms[k]? = some m → gs[k]? = some g → r[k]? = some x →
        x.1 = m.name ∧ methodSignature cfg.table (g.input.map (·.info.name)) g.output.info.name = some x.2 := by
  intro ms
  induction ms with
  | nil =>
    intro gs r _ h
    simp only [lookups, Except.ok.injEq] at h
    subst h
    exact ⟨rfl, by simp⟩
  | cons m ms ih =>
    intro gs r hl h
    cases gs with
    | nil => simp at hl
    | cons g gs =>
      simp only [lookups, lookup, bind_ok, orErr_ok, Except.ok.injEq] at h
      obtain ⟨x, ⟨sg, h1, rfl⟩, r', h2, rfl⟩ := h
      obtain ⟨e1, e2⟩ := ih gs r' (by simpa using hl) h2
      refine ⟨by simp [e1], ?_⟩
      intro k m' g' x hm hg hx
      cases k with
      | zero =>
        simp only [List.getElem?_cons_zero, Option.some.injEq] at hm hg hx
        subst hm hg hx
        exact ⟨rfl, h1⟩
      | succ k => exact e2 k m' g' x (by simpa using hm) (by simpa using hg) (by simpa using hx)

theorem execAll_eq {S V} (w : World S V) : ∀ (l : List RStmt) (env : Text → V), execAll w env l = l.foldlM (Exported.exec w) env := by
  intro l
  induction l with
  | nil => intro env; rfl
  | cons s l ih =>
    intro env
    rw [execAll, List.foldlM_cons]
    congr 1
    funext e
    exact ih e

theorem callArgs_fst : ∀ (ts : List FTy) (n : Nat), (callArgs n ts).map (·.1) = (List.range' n ts.length).map aName := by
  intro ts
  induction ts with
  | nil => intro n; rfl
  | cons t ts ih =>
    intro n
    rw [callArgs, List.map_cons, ih, List.length_cons, List.range'_succ, List.map_cons]

theorem variadic_promote {S V} (w : JWorld S V) (t : FTy) (x : Text) (env : Text → V) :
    argValue w env (x, variadic.lookup t.rust) = promote w t (env x) := by
  unfold argValue promote variadic
  have h1 : lit "jbyte" ≠ lit "jboolean" := by unfold lit; decide
  have h2 : lit "jshort" ≠ lit "jboolean" := by unfold lit; decide
  have h3 : lit "jfloat" ≠ lit "jboolean" := by unfold lit; decide
  have h4 : lit "jshort" ≠ lit "jbyte" := by unfold lit; decide
  have h5 : lit "jfloat" ≠ lit "jbyte" := by unfold lit; decide
  have h6 : lit "jfloat" ≠ lit "jshort" := by unfold lit; decide
  generalize lit "jboolean" = a1 at *
  generalize lit "jbyte" = a2 at *
  generalize lit "jshort" = a3 at *
  generalize lit "jfloat" = a4 at *
  generalize lit "::std::os::raw::c_uint" = c1
  generalize lit "::std::os::raw::c_int" = c2
  generalize lit "f64" = c3
  generalize t.rust = r
  simp only [List.lookup]
  by_cases e1 : r = a1
  · subst e1; simp
  · rw [if_neg e1]
    have : (r == a1) = false := by simpa using e1
    rw [this]
    dsimp only
    by_cases e2 : r = a2
    · subst e2; simp
    · have : (r == a2) = false := by simpa using e2
      rw [this]
      dsimp only
      by_cases e3 : r = a3
      · subst e3; simp
      · have : (r == a3) = false := by simpa using e3
        rw [this, if_neg (by simp [e2, e3])]
        dsimp only
        by_cases e4 : r = a4
        · subst e4; simp
        · have : (r == a4) = false := by simpa using e4
          rw [this, if_neg e4]

theorem callArgs_values {S V} (w : JWorld S V) (env : Text → V) : ∀ (ts : List FTy) (n : Nat),
    (callArgs n ts).map (argValue w env) = List.zipWith (promote w) ts (((List.range' n ts.length).map aName).map env) := by
  intro ts
  induction ts with
  | nil => intro n; rfl
  | cons t ts ih =>
    intro n
    rw [callArgs, List.map_cons, ih, variadic_promote, List.length_cons, List.range'_succ, List.map_cons, List.map_cons, List.zipWith_cons_cons]

theorem run_trait {S V} (w : JWorld S V) (env : Text → V) (ids vs : List V) (id : V) (f : TraitFn) (m : IMethod) (ts : List FTy)
    (codes : List Text) (ko : Option Text) (hc : codes.length = m.args.length) (hv : vs.length = m.args.length) (hts : ts.length = m.args.length)
    (hid : ids[f.idx]? = some id) (hp : f.params.map (·.1) = (List.range m.args.length).map aName)
    (hpre : f.pre = Exported.convStmts ((List.range m.args.length).map aName) codes) (hargs : f.args = callArgs 0 ts)
    (hpost : f.post = Exported.outStmts (lit "ret") ko) (hn : f.needsEnv = m.output.isSome) :
    f.run w env ids vs = (do
      let e ← w.hasEnv
      if e = true then do
        let xs ← convAll w.toWorld codes vs
        let r ← w.invoke f.caller id (List.zipWith (promote w) ts xs)
        w.clear
        if m.output.isSome = true then Exported.outConv w.toWorld ko r else pure w.unit
      else if m.output.isSome = true then w.panic else pure w.unit) := by
  have hnd := aNames_nodup m.args.length
  unfold TraitFn.run
  rw [hp, hpre, hargs, hpost, hn, hid]
  congr 1
  funext e
  cases e with
  | false => simp
  | true =>
    simp only [if_true]
    have hlen : (List.range' 0 ts.length).map aName = (List.range m.args.length).map aName := by rw [hts, List.range_eq_range']
    generalize hA : (List.range m.args.length).map aName = A at *
    have hAl : A.length = m.args.length := by rw [← hA]; simp
    rw [execAll_eq, Exported.run_convs w.toWorld _ _ _ hnd (by omega), Exported.bindAll_names A vs env hnd (by omega), bind_assoc]
    refine Exported.convAll_congr w.toWorld _ _ codes vs (by omega) fun xs hx => ?_
    rw [pure_bind]
    rw [callArgs_values, hlen, Exported.bindAll_names A xs _ hnd (by omega)]
    congr 1
    funext r
    congr 1
    funext _
    rw [Exported.run_out, Exported.set_same]

theorem lookup_mem {α β} [BEq α] [LawfulBEq α] {l : List (α × β)} {a : α} {b : β} (h : l.lookup a = some b) : (a, b) ∈ l := by
  induction l with
  | nil => cases h
  | cons p l ih =>
    obtain ⟨x, y⟩ := p
    rw [List.lookup_cons] at h
    cases hx : a == x with
    | true =>
      rw [hx] at h
      cases h
      rw [eq_of_beq hx]
      exact List.mem_cons_self
    | false => rw [hx] at h; exact List.mem_cons_of_mem _ (ih h)

theorem callers_eq : callers = jniFunctions.map fun p => (p.1, lit "Call" ++ p.2 ++ lit "Method") := by
  unfold callers jniFunctions lit; decide

theorem callerOf_ok {m : IMethod} {t : FTy} {f : Text} (h : callerOf m t = .ok f) (s : Slot) (hs : s.ret = t) : JniFunction m s f := by
  unfold callerOf at h
  cases ho : m.output with
  | none =>
    rw [ho] at h
    cases h
    exact ⟨fun _ => rfl, fun h => absurd ho h⟩
  | some ty =>
    rw [ho] at h
    rw [orErr_ok] at h
    have := lookup_mem h
    rw [callers_eq, List.mem_map] at this
    obtain ⟨⟨a, b⟩, hm, he⟩ := this
    cases he
    refine ⟨fun h => ?_, fun _ => ⟨b, by rw [hs]; exact hm, rfl⟩⟩
    rw [ho] at h; cases h

theorem traitFn_ok {σ} {tm : TypeMap σ} {s s' : σ} {k : Nat} {m : IMethod} {g : Sig} {ds : List Text} {f : TraitFn}
    (hl : g.input.length = m.args.length) (h : traitFn tm s k m g = .ok (ds, f, s')) : Forwards tm k m (slot m g) f := by
  simp only [traitFn, bind_ok, orErr_ok, Prod.exists, Except.ok.injEq, Prod.mk.injEq] at h
  obtain ⟨n, hn, d1, c1, s1, h1, d2, c2, s2, h2, cl, h3, _, rfl, _⟩ := h
  obtain ⟨codes, e1, rfl, e3⟩ := convInputs_ok _ _ _ _ _ _ _ hl h1
  obtain ⟨ko, rfl, e4, e5⟩ := convOutput_ok h2
  obtain ⟨p1, p2⟩ := traitParams_eq m.args 0
  refine ⟨hn, receiver_eq _, p2, rfl, codes, ko, cl, ⟨e1, ?_⟩, ⟨e4, e5⟩, callerOf_ok h3 _ rfl, ?_⟩
  · intro j a b c ha hb hc
    simp only [slot] at hb
    have := e3 j a b.2 c ha (by
      obtain ⟨b1, b2⟩ := b
      rw [List.getElem?_zip_eq_some] at hb
      exact hb.2) hc
    simpa [aName] using this
  · intro S V w env ids vs id hv hid
    rw [slot_types hl]
    exact run_trait w env ids vs id _ m g.input codes ko e1 hv hl hid (by rw [List.range_eq_range']; exact p1)
      (by rw [List.range_eq_range']) rfl rfl rfl

theorem traitFns_ok {σ} {tm : TypeMap σ} : ∀ (ms : List IMethod) (gs : List Sig) (n : Nat) (s s' : σ) (ds : List Text) (fs : List TraitFn),
    gs.length = ms.length → (∀ (k : Nat) (m : IMethod) (g : Sig), ms[k]? = some m → gs[k]? = some g → g.input.length = m.args.length) →
    traitFns tm n s ms gs = .ok (ds, fs, s') → fs.length = ms.length ∧
      ∀ (k : Nat) (m : IMethod) (g : Sig) (f : TraitFn), ms[k]? = some m → gs[k]? = some g → fs[k]? = some f →
        Forwards tm (n + k) m (slot m g) f := by
  intro ms
  induction ms with
  | nil =>
    intro gs n s s' ds fs _ _ h
    simp only [traitFns, Except.ok.injEq, Prod.mk.injEq] at h
    simp [← h.2.1]
  | cons m ms ih =>
    intro gs n s s' ds fs hl hin h
    cases gs with
    | nil => simp at hl
    | cons g gs =>
      simp only [traitFns, bind_ok, Prod.exists, Except.ok.injEq, Prod.mk.injEq] at h
      obtain ⟨d, f, s1, h1, ds', fs', s2, h2, rfl, rfl, rfl⟩ := h
      obtain ⟨e1, e2⟩ := ih gs _ _ _ _ _ (by simpa using hl) (fun k m' g' hm hg => hin (k + 1) m' g' (by simpa using hm) (by simpa using hg)) h2
      refine ⟨by simp [e1], ?_⟩
      intro k m' g' f' hm hg hf
      cases k with
      | zero =>
        simp only [List.getElem?_cons_zero, Option.some.injEq] at hm hg hf
        subst hm hg hf
        exact traitFn_ok (hin 0 m g rfl rfl) h1
      | succ k =>
        have := e2 k m' g' f' (by simpa using hm) (by simpa using hg) (by simpa using hf)
        rwa [Nat.add_assoc, Nat.add_comm 1 k] at this

/-! ## C67 -/

/-- The Java interface, the look-up of the methods and the implementation of the Rust trait agree: there is one list of methods, with the
types the type map gives for their arguments and results, such that the Java interface declares exactly these, the conversion from a Java
object looks up exactly these by name and signature, in this order, and the `k`-th trait method calls the `k`-th of them with its own
arguments. -/
theorem C67_agree {σ} (cfg : Cfg) (tm : TypeMap σ) (s : σ) (i : Interface) (out : Out)
    (h : generate cfg tm s i = .ok out) : ∃ sl, Agree cfg tm i sl out := by
  simp only [generate, bind_ok, Prod.exists, Except.ok.injEq] at h
  obtain ⟨gs, s1, h1, r, s2, h2, rfl⟩ := h
  obtain ⟨hl, hk⟩ := findSigs_ok _ _ _ _ h1
  have hin : ∀ (k : Nat) (m : IMethod) (g : Sig), i.items[k]? = some m → gs[k]? = some g → g.input.length = m.args.length :=
    fun k m g hm hg => (hk k m g hm hg).1
  simp only [genRust, bind_ok, Prod.exists, Except.ok.injEq, Prod.mk.injEq] at h2
  obtain ⟨ls, h3, ds, fs, s3, h4, rfl, rfl⟩ := h2
  obtain ⟨l1, l2⟩ := lookups_ok _ _ _ hl h3
  obtain ⟨f1, f2⟩ := traitFns_ok _ _ _ _ _ _ _ hl hin h4
  have hsl : ∀ (k : Nat) (sl : Slot), ((i.items.zip gs).map fun x => slot x.1 x.2)[k]? = some sl →
      ∃ m g, i.items[k]? = some m ∧ gs[k]? = some g ∧ sl = slot m g := by
    intro k sl hs
    simp only [List.getElem?_map, Option.map_eq_some_iff, Prod.exists] at hs
    obtain ⟨m, g, hz, rfl⟩ := hs
    rw [List.getElem?_zip_eq_some] at hz
    exact ⟨m, g, hz.1, hz.2, rfl⟩
  have hlen : ((i.items.zip gs).map fun x => slot x.1 x.2).length = i.items.length := by simp [hl]
  refine ⟨(i.items.zip gs).map fun x => slot x.1 x.2, ⟨hlen, ?_⟩, ?_, ⟨l1.trans hlen.symm, ?_⟩, ⟨rfl, f1.trans hlen.symm, ?_⟩, rfl, rfl⟩
  · intro k m sl hm hs
    obtain ⟨m', g, hm', hg, rfl⟩ := hsl k sl hs
    rw [hm] at hm'; cases hm'
    exact (hk k m g hm hg).2
  · have himp : gs.map sigJ = ((i.items.zip gs).map fun x => slot x.1 x.2).map fun s => (⟨s.ret.info, s.args.map (·.2.info)⟩ : JavaCode.Sig) := by
      rw [List.map_map]
      refine List.ext_getElem? fun k => ?_
      simp only [List.getElem?_map]
      cases hg : gs[k]? with
      | none =>
        have : (i.items.zip gs)[k]? = none := by
          rw [List.getElem?_eq_none_iff] at hg ⊢
          simp only [List.length_zip]; omega
        rw [this]; rfl
      | some g =>
        have hlt : k < i.items.length := by rw [← hl]; exact (List.getElem?_eq_some_iff.1 hg).1
        have hm := List.getElem?_eq_getElem hlt
        have : (i.items.zip gs)[k]? = some (i.items[k], g) := by rw [List.getElem?_zip_eq_some]; exact ⟨hm, hg⟩
        rw [this]
        simp only [Option.map_some, Function.comp, Option.some.injEq, sigJ, slot_ret, JavaCode.Sig.mk.injEq, true_and]
        have := congrArg (List.map (fun t : FTy => t.info)) (slot_types (hin k _ g hm hg))
        rw [List.map_map] at this
        exact this.symm
    have hms : ((i.items.zip gs).flatMap fun x => javaMethod cfg x.1 x.2) =
        ((i.items.zip ((i.items.zip gs).map fun x => slot x.1 x.2)).map fun x => x.2.java cfg x.1.docs).flatten := by
      rw [← zip_slots i.items gs fun m s => s.java cfg m.docs, List.flatMap_def]
      congr 1
      refine List.map_congr_left fun x hx => ?_
      obtain ⟨k, hk'⟩ := List.mem_iff_getElem?.1 hx
      rw [List.getElem?_zip_eq_some] at hk'
      exact javaMethod_eq cfg x.1 x.2 (hin k _ _ hk'.1 hk'.2)
    show javaFile cfg i gs = _
    simp only [javaFile, javaHead, javaSpec, himp, hms, List.append_assoc]
  · intro k sl x hs hx
    obtain ⟨m, g, hm, hg, rfl⟩ := hsl k sl hs
    obtain ⟨e1, e2⟩ := l2 k m g x hm hg hx
    refine ⟨e1, ?_⟩
    have := congrArg (List.map (fun t : FTy => t.info.name)) (slot_types (hin k m g hm hg))
    rw [List.map_map] at this
    rw [slot_ret, ← e2]
    congr 1
  · intro k m sl f hm hs hf
    obtain ⟨m', g, hm', hg, rfl⟩ := hsl k sl hs
    rw [hm] at hm'; cases hm'
    have := f2 k m g f hm hg hf
    rwa [Nat.zero_add] at this

/-- A call reaches the right Java method.  Let the types of the interface be spelled as C31 requires (`tys k`, `rt k` are the Java types of
method `k`), and let the class of a Java object have, for each declared method, a method `impl k` with this name and the JVM descriptor of
these types.  Then making the trait object succeeds, and the `k`-th trait method, called with an environment, converts its arguments, calls
`impl k` with them through the JNI function for its result type, clears an exception and converts the result. -/
theorem C67_dispatch {σ} (cfg : Cfg) (tm : TypeMap σ) (s : σ) (i : Interface) (out : Out) (h : generate cfg tm s i = .ok out)
    (pkg : Text) (regs : List Reg) (htab : cfg.table = table pkg regs) (hr : ∀ r ∈ regs, GoodName r.name)
    (sl : List Slot) (ha : Agree cfg tm i sl out) (tys : Nat → List JTy) (rt : Nat → Option JTy)
    (hty : ∀ (k : Nat) (t : Slot), sl[k]? = some t → Names pkg regs (t.args.map (·.2.info.name)) (tys k) ∧ RetNames t.ret.info.name (rt k))
    {S V : Type} (find : Text × Text → Option V) (impl : Nat → V)
    (hcls : ∀ (k : Nat) (m : IMethod), i.items[k]? = some m → find (m.name, methodDesc (tys k) (rt k)) = some (impl k)) :
    ∃ ids, out.rust.fromObject.ids find = some ids ∧
      ∀ (k : Nat) (m : IMethod), i.items[k]? = some m → ∃ (f : TraitFn) (t : Slot) (codes : List Text) (ko : Option Text) (fn : Text),
        out.rust.fns[k]? = some f ∧ m.path.getLast? = some f.name ∧ sl[k]? = some t ∧ ArgCodes tm m t codes ∧ OutCode tm m t ko ∧ JniFunction m t fn ∧
        ∀ (w : JWorld S V) (env : Text → V) (vs : List V), vs.length = m.args.length → w.hasEnv = pure true →
          f.run w env ids vs = (do
            let xs ← convAll w.toWorld codes vs
            let r ← w.invoke fn (impl k) (List.zipWith (promote w) (t.args.map (·.2)) xs)
            w.clear
            if m.output.isSome = true then Exported.outConv w.toWorld ko r else pure w.unit) := by
  have hlen := ha.slots.1
  have hslot : ∀ (k : Nat) (m : IMethod), i.items[k]? = some m → ∃ t : Slot, sl[k]? = some t := by
    intro k m hm
    have : k < sl.length := by rw [hlen]; exact (List.getElem?_eq_some_iff.1 hm).1
    exact ⟨_, List.getElem?_eq_getElem this⟩
  have hlk : ∀ (k : Nat) (x : Text × Text), out.rust.fromObject.lookups[k]? = some x → find x = some (impl k) := by
    intro k x hx
    have hlt : k < sl.length := by rw [← ha.lookups.1]; exact (List.getElem?_eq_some_iff.1 hx).1
    have hlt' : k < i.items.length := by rw [← hlen]; exact hlt
    have hs := List.getElem?_eq_getElem hlt
    have hm := List.getElem?_eq_getElem hlt'
    obtain ⟨e1, e2⟩ := ha.lookups.2 k _ x hs hx
    obtain ⟨n1, n2⟩ := hty k _ hs
    have hd := JavaNames.C31_signature_is_descriptor pkg regs hr _ _ _ _ n1 n2
    rw [htab, hd] at e2
    have hnm := (ha.slots.2 k _ _ hm hs).name
    have : x = (i.items[k].name, methodDesc (tys k) (rt k)) := by
      rw [← hnm, ← e1]
      exact Prod.ext rfl (Option.some.inj e2).symm
    rw [this]
    exact hcls k _ hm
  have hids : ∀ (l : List (Text × Text)), (∀ x ∈ l, ∃ v, find x = some v) → ∃ ids, methodIds find l = some ids := by
    intro l
    induction l with
    | nil => intro _; exact ⟨[], rfl⟩
    | cons x l ih =>
      intro hx
      obtain ⟨v, hv⟩ := hx x List.mem_cons_self
      obtain ⟨ids, hi⟩ := ih fun y hy => hx y (List.mem_cons_of_mem _ hy)
      exact ⟨v :: ids, by simp [methodIds, hv, hi]⟩
  obtain ⟨ids, hi⟩ := hids out.rust.fromObject.lookups (by
    intro x hx
    obtain ⟨k, hk⟩ := List.mem_iff_getElem?.1 hx
    exact ⟨_, hlk k x hk⟩)
  obtain ⟨d1, d2⟩ := C36_dispatch hi
  refine ⟨ids, hi, ?_⟩
  intro k m hm
  obtain ⟨t, ht⟩ := hslot k m hm
  have hf : ∃ f, out.rust.fns[k]? = some f := by
    have : k < out.rust.fns.length := by rw [ha.trait.2.1]; exact (List.getElem?_eq_some_iff.1 ht).1
    exact ⟨_, List.getElem?_eq_getElem this⟩
  obtain ⟨f, hf⟩ := hf
  have hfw := ha.trait.2.2 k m t f hm ht hf
  obtain ⟨codes, ko, fn, c1, c2, c3, c4⟩ := hfw.run
  have hx : ∃ x, out.rust.fromObject.lookups[k]? = some x := by
    have : k < out.rust.fromObject.lookups.length := by rw [ha.lookups.1]; exact (List.getElem?_eq_some_iff.1 ht).1
    exact ⟨_, List.getElem?_eq_getElem this⟩
  obtain ⟨x, hx⟩ := hx
  have hid : ids[k]? = some (impl k) := (d2 k x hx).trans (hlk k x hx)
  refine ⟨f, t, codes, ko, fn, hf, hfw.name, ht, c1, c2, c3, ?_⟩
  intro w env vs hv he
  rw [c4 S V w env ids vs (impl k) hv hid, he, pure_bind]
  simp

/-- A class that lacks one of the methods, or has it with another descriptor, makes the conversion from the Java object panic, before any
method is called. -/
theorem C67_missing_method {σ} (cfg : Cfg) (tm : TypeMap σ) (s : σ) (i : Interface) (out : Out) (_h : generate cfg tm s i = .ok out)
    {V : Type} (find : Text × Text → Option V) :
    out.rust.fromObject.ids find = none ↔ ∃ x ∈ out.rust.fromObject.lookups, find x = none := by
  show methodIds find out.rust.fromObject.lookups = none ↔ _
  generalize out.rust.fromObject.lookups = l
  induction l with
  | nil => simp [methodIds]
  | cons x l ih =>
    simp only [methodIds, Option.bind_eq_bind, Option.pure_def, List.mem_cons, exists_eq_or_imp, ← ih]
    cases find x with
    | none => simp
    | some v => cases methodIds find l <;> simp

/-- Which results are possible: a trait method with a result is accepted only if the type map gives for it one of the eight JNI types. -/
theorem C67_results {σ} (cfg : Cfg) (tm : TypeMap σ) (s : σ) (i : Interface) (out : Out) (h : generate cfg tm s i = .ok out) :
    ∀ m ∈ i.items, ∀ ty, m.output = some ty → ∃ (t : FTy) (s1 s2 : σ), tm.mapType s1 true ty = some (t, s2) ∧ t.info.conv = none ∧
      t.rust ∈ jniFunctions.map (·.1) := by
  intro m hm ty hty
  obtain ⟨sl, ha⟩ := C67_agree cfg tm s i out h
  obtain ⟨k, hk⟩ := List.mem_iff_getElem?.1 hm
  have hlt : k < sl.length := by rw [ha.slots.1]; exact (List.getElem?_eq_some_iff.1 hk).1
  have hs := List.getElem?_eq_getElem hlt
  have hlf : k < out.rust.fns.length := by rw [ha.trait.2.1]; exact hlt
  obtain ⟨codes, ko, fn, _, _, c3, _⟩ := (ha.trait.2.2 k m _ _ hk hs (List.getElem?_eq_getElem hlf)).run
  obtain ⟨hc, s1, s2, hmap⟩ := (ha.slots.2 k m _ hk hs).ret ty hty
  obtain ⟨x, hx, _⟩ := c3.2 (by rw [hty]; simp)
  exact ⟨_, s1, s2, hmap, hc, List.mem_map.2 ⟨_, hx, rfl⟩⟩

/-! ### Registration -/

theorem obj_name (i : Interface) : (objectOf i).name = lit "jobject" ++ Char.ofNat 0 :: i.name := rfl

theorem obj_inj {i j : Interface} : (objectOf i).name = (objectOf j).name ↔ i.name = j.name := by
  rw [obj_name, obj_name]
  simp

theorem obj_ne_boxed (i j : Interface) : (objectOf i).name ≠ j.boxed := by
  rw [obj_name]
  intro h
  have := congrArg List.head? h
  unfold Interface.boxed lit at this
  simp at this

theorem ftNames_all (is : List Interface) : ftNames (is.flatMap regCmds) = is.map (·.name) := by
  induction is with
  | nil => rfl
  | cons c cs ih =>
    rw [List.flatMap_cons, List.map_cons, ftNames_append, ih]
    rfl

/-- Registration of interfaces succeeds exactly if their Java names are new and different from each other. -/
theorem C67_accepted (st : St) (h : Inv st) (is : List Interface) :
    (∃ st', run st (is.flatMap regCmds) = .ok st') ↔
      (∀ i ∈ is, st.fts.findByName i.name = none) ∧ (is.map (·.name)).Nodup := by
  have := run_spec (is.flatMap regCmds) h
  rw [ftNames_all] at this
  simp only [List.mem_map, forall_exists_index, and_imp, forall_apply_eq_imp_iff₂] at this
  rcases this with ⟨h3, st', h4, _⟩ | ⟨h3, h4⟩
  · exact ⟨fun _ => h3, fun _ => ⟨st', h4⟩⟩
  · constructor
    · rintro ⟨st', hr⟩; rw [h4] at hr; cases hr
    · exact fun h => absurd h h3

theorem rulesOf_reg (i : Interface) : rulesOf (regCmds i) = [((objectOf i).name, i.boxed, fromCode)] := by
  simp [regCmds, rulesOf, CppInterface.kname]

/-- Both directions: the Java type named like the interface stands for a `jobject` that carries this name; no other interface gets it. -/
theorem C67_lookup (P : Graph.PopFn) (st st' : St) (h : Inv st) (l m : List Interface) (i : Interface)
    (hr : run st ((l ++ i :: m).flatMap regCmds) = .ok st') (hs : ∀ j ∈ l, j.name ≠ i.name)
    (hold : ∀ n, st.tm.names (lit "jobject" ++ Char.ofNat 0 :: i.name) = some n → ∀ dir, ∀ ft ∈ st.fts.ftypes, stands dir ft ≠ some n) (dir : Select.Dir) :
    ∃ ft, chosen P st' dir (lit "jobject" ++ Char.ofNat 0 :: i.name) = some ft ∧ ft.name.display = i.name ∧
      Direct st' (if dir then ft.into else ft.frm) (lit "jobject" ++ Char.ofNat 0 :: i.name) := by
  rw [← obj_name] at *
  have hp : ((l ++ i :: m).flatMap regCmds).find? (fun c => decide (stdKey dir c = some (objectOf i).name)) =
      some (.ftype i.src [] i.name [] (some ⟨objectOf i, none⟩) (some ⟨objectOf i, none⟩)) := by
    refine find_flat regCmds _ l m i _ ?_ ?_
    · intro j hj c hc
      simp only [regCmds, List.mem_cons, List.not_mem_nil, or_false] at hc
      have hne : (objectOf j).name ≠ (objectOf i).name := fun e => hs j hj (obj_inj.1 e)
      rcases hc with rfl | rfl | rfl
      · cases dir <;> simp [stdKey]
      · cases dir <;> simp [stdKey]
      · cases dir <;> simp [stdKey, hne]
    · cases dir <;> simp [regCmds, stdKey]
  obtain ⟨ft, h1, h2, _, h4⟩ := lookup_direct P h hr dir _ (fun n hn => hold n hn dir) (k := objectOf i) (by cases dir <;> rfl) hp
  exact ⟨ft, h1, h2, h4⟩

/-- That `jobject` is converted to the boxed trait object by the generated implementation of `SwigFrom`, which needs `env`. -/
theorem C67_conversions (st st' : St) (h : Inv st) (is : List Interface) (hr : run st (is.flatMap regCmds) = .ok st')
    (i : Interface) (hi : i ∈ is) (w : Text) :
    TMap.HasRule st'.tm (lit "jobject" ++ Char.ofNat 0 :: i.name) i.boxed w ↔
      w = lit "let mut {to_var}: {to_var_type} = <{to_var_type}>::swig_from({from_var}, env);" := by
  have e : lit "let mut {to_var}: {to_var_type} = <{to_var_type}>::swig_from({from_var}, env);" = fromCode := by
    unfold fromCode tv fv Template.toVar Template.toVarType Template.fromVar lit; decide
  rw [e, ← obj_name, (run_done h hr).rules]
  refine over_mem _ _ _ _ fromCode ((mem_rules_flat regCmds).2 ⟨i, hi, by rw [rulesOf_reg]; simp⟩) ?_ w
  intro c' hc'
  obtain ⟨x, hx, hm'⟩ := (mem_rules_flat regCmds).1 hc'
  rw [rulesOf_reg] at hm'
  simp only [List.mem_singleton, Prod.mk.injEq] at hm'
  exact hm'.2.2

/-! ### Findings -/

/-- **Finding.**  The trait is implemented for the one structure `JavaCallback`: two interfaces with the same trait are accepted by the
generator, but give two implementations of it. -/
theorem C67_finding_one_struct {σ} (cfg : Cfg) (tm : TypeMap σ) (s s' : σ) (i j : Interface) (out out' : Out)
    (h : generate cfg tm s i = .ok out) (h' : generate cfg tm s' j = .ok out') (hij : i.trait = j.trait) : out.rust.trait = out'.rust.trait := by
  obtain ⟨_, ha⟩ := C67_agree cfg tm s i out h
  obtain ⟨_, hb⟩ := C67_agree cfg tm s' j out' h'
  rw [ha.trait.1, hb.trait.1, hij]

/-- **Finding.**  A Java exception does not stop the Rust caller: whatever JNI returned is converted and returned. -/
theorem C67_finding_exception {σ} (tm : TypeMap σ) (k : Nat) (m : IMethod) (t : Slot) (f : TraitFn) (hf : Forwards tm k m t f)
    (ho : m.output.isSome = true) {S V : Type} (w : JWorld S V) (env : Text → V) (ids vs : List V) (id dflt : V) (hv : vs.length = m.args.length)
    (hid : ids[k]? = some id) (he : w.hasEnv = pure true) (hinv : ∀ fn a, w.invoke fn id a = pure dflt) :
    ∃ codes ko, ArgCodes tm m t codes ∧ OutCode tm m t ko ∧
      f.run w env ids vs = (do let _ ← convAll w.toWorld codes vs; w.clear; Exported.outConv w.toWorld ko dflt) := by
  obtain ⟨codes, ko, fn, c1, c2, _, c4⟩ := hf.run
  refine ⟨codes, ko, c1, c2, ?_⟩
  rw [c4 S V w env ids vs id hv hid, he, pure_bind]
  simp [hinv, ho]

/-! ### Examples -/

/-- A type map that knows every type; `Foo` needs Java code. -/
def tm0 : TypeMap Unit :=
  ⟨fun s _ t => some (⟨⟨(if t = lit "bool" then lit "boolean" else if t = lit "i32" then lit "int" else if t = lit "i8" then lit "byte" else t),
      if t = lit "Foo" then some ⟨lit "long", none, lit "code"⟩ else none, if t = lit "Foo" then some .nonNull else none⟩,
      if t = lit "bool" then lit "jboolean" else if t = lit "i32" then lit "jint" else if t = lit "i8" then lit "jbyte" else lit "jstring"⟩, s),
    fun s f t v _ => some ([], f ++ lit "->" ++ t ++ lit ":" ++ v, s)⟩

/-- Options. -/
def cfg0 : Cfg := ⟨lit "org.ex", some (lit "an"), .std, table (lit "org.ex") [.cls (lit "Foo")], fun _ => false, fun c => c = ' '⟩

/-- `callback Obs { self_type Observer; onChange = Observer::on_change(&self, x: i32, y: i8, f: Foo) -> bool; done = Observer::done(&mut self); }` -/
def obs : Interface := ⟨lit "Obs", lit "Observer", lit "Observer", [],
  [⟨lit "onChange", [lit "Observer", lit "on_change"], .rptr, [(lit "x", lit "i32"), (lit "y", lit "i8"), (lit "f", lit "Foo")], some (lit "bool"), []⟩,
   ⟨lit "done", [lit "Observer", lit "finish"], .rptrMut, [], none, []⟩], none⟩

/-- What is generated for it. -/
def obsOut : Option Out := match generate cfg0 tm0 () obs with | .ok o => some o | .error _ => none

example : obsOut.map (·.java) = some (lit "// Automatically generated by flapigen\npackage org.ex;\nimport an.NonNull;\n\npublic interface Obs {\n\n\n    boolean onChange(int x, byte y, @NonNull Foo f);\n\n\n    void done();\n\n}\n") := by
  decide +kernel

example : obsOut.map (·.rust.fromObject.lookups) = some [(lit "onChange", lit "(IBLorg/ex/Foo;)Z"), (lit "done", lit "()V")] := by decide +kernel

example : obsOut.map (fun o => o.rust.fns.map fun f => (f.name, f.caller, f.idx)) = some
    [(lit "on_change", lit "CallBooleanMethod", 0), (lit "finish", lit "CallVoidMethod", 1)] := by decide +kernel

example : obsOut.map (fun o => o.rust.fns.map fun f => f.args.map (·.2)) = some [[none, some (lit "::std::os::raw::c_int"), none], []] := by
  decide +kernel

/-- A method with a string as result is rejected. -/
example : (match generate cfg0 tm0 () { obs with items := [⟨lit "name", [lit "Observer", lit "name"], .rptr, [], some (lit "String"), []⟩] } with
    | .error .callbackResult => true | _ => false) = true := by decide +kernel

/-- `C67_agree` and `C67_dispatch` are about something: a class with the two methods. -/
example : ∃ out ids, generate cfg0 tm0 () obs = .ok out ∧
    out.rust.fromObject.ids (fun x : Text × Text => if x = (lit "onChange", lit "(IBLorg/ex/Foo;)Z") then some 7 else if x = (lit "done", lit "()V") then some 8 else none) = some ids ∧
    ids = [7, 8] := by
  cases h : generate cfg0 tm0 () obs with
  | error e =>
    have : obsOut.isSome = true := by decide +kernel
    simp [obsOut, h] at this
  | ok out =>
    have e : obsOut.map (·.rust.fromObject.lookups) = some [(lit "onChange", lit "(IBLorg/ex/Foo;)Z"), (lit "done", lit "()V")] := by decide +kernel
    simp only [obsOut, h, Option.map_some, Option.some.injEq] at e
    refine ⟨out, [7, 8], rfl, ?_, rfl⟩
    unfold FromObject.ids
    rw [e]
    decide +kernel

/-- An interface with one method: `callback Ping { self_type Pinger; ping = Pinger::ping(&self, x: i32) -> bool; }`. -/
def ping : Interface := ⟨lit "Ping", lit "Pinger", lit "Pinger", [],
  [⟨lit "ping", [lit "Pinger", lit "ping"], .rptr, [(lit "x", lit "i32")], some (lit "bool"), []⟩], none⟩

/-- All hypotheses of `C67_dispatch` hold for it. -/
example : ∃ out sl, generate cfg0 tm0 () ping = .ok out ∧ Agree cfg0 tm0 ping sl out ∧
    (∀ (k : Nat) (t : Slot), sl[k]? = some t →
      Names (lit "org.ex") [.cls (lit "Foo")] (t.args.map (·.2.info.name)) [.prim .int] ∧ RetNames t.ret.info.name (some (.prim .boolean))) := by
  cases h : generate cfg0 tm0 () ping with
  | error e =>
    have : (match generate cfg0 tm0 () ping with | .ok _ => true | .error _ => false) = true := by decide +kernel
    rw [h] at this; cases this
  | ok out =>
    obtain ⟨sl, ha⟩ := C67_agree _ _ _ _ _ h
    refine ⟨out, sl, rfl, ha, ?_⟩
    intro k t ht
    have hk : k = 0 := by
      have h1 := (List.getElem?_eq_some_iff.1 ht).1
      rw [ha.slots.1] at h1
      simpa [ping] using h1
    subst hk
    have hs := ha.slots.2 0 _ t rfl ht
    obtain ⟨t0, h0, u, s1, s2, hu, hn, _⟩ := hs.args 0 _ rfl
    obtain ⟨_, s3, s4, hr⟩ := hs.ret _ rfl
    have e1 : (u.info.name, u.info.conv.isNone) = (lit "int", true) := by
      have : ∀ s, (tm0.mapType s false (lit "i32")).map (fun x => (x.1.info.name, x.1.info.conv.isNone)) = some (lit "int", true) := by
        intro s
        cases s
        decide +kernel
      have := this s1
      rw [hu] at this
      exact Option.some.inj this
    have e2 : t.ret.info.name = lit "boolean" := by
      have : ∀ s, (tm0.mapType s true (lit "bool")).map (fun x => x.1.info.name) = some (lit "boolean") := by
        intro s
        cases s
        decide +kernel
      have := this s3
      rw [hr] at this
      exact Option.some.inj this
    have hlen := hs.count
    have hargs : t.args = [(lit "x", t0)] := by
      match h : t.args, hlen, h0 with
      | [a], _, h0 => simpa [h] using h0
    rw [hargs, e2, hn (by simpa using congrArg Prod.snd e1)]
    have e3 : u.info.name = JavaNames.Prim.int.word := by
      refine (congrArg Prod.fst e1).trans ?_
      unfold lit; decide
    have e4 : lit "boolean" = JavaNames.Prim.boolean.word := by unfold lit; decide
    simp only [List.map_cons, List.map_nil]
    rw [e3, e4]
    exact ⟨.cons (.prim _) .plain .nil, .prim _⟩
/-- An empty type map. -/
def st0 : St := ⟨TMap.empty, FTypes.Storage.empty⟩

theorem st0_inv : Inv st0 := ⟨TMap.ok_empty, FTypes.consistent_empty, by intro ft hft; cases hft⟩

/-- Is it accepted? -/
def accepted (is : List Interface) : Bool := match run st0 (is.flatMap regCmds) with | .ok _ => true | .error _ => false

example : accepted [obs, { obs with name := lit "Other" }] = true := by decide +kernel
example : accepted [obs, obs] = false := by decide +kernel

/-- The hypotheses of `C67_lookup` and `C67_conversions` hold. -/
example : ∃ st', run st0 ([obs].flatMap regCmds) = .ok st' ∧
    (∀ P dir, ∃ ft, chosen P st' dir (lit "jobject" ++ Char.ofNat 0 :: lit "Obs") = some ft ∧ ft.name.display = lit "Obs") ∧
    ∃ w, TMap.HasRule st'.tm (lit "jobject" ++ Char.ofNat 0 :: lit "Obs") obs.boxed w := by
  cases hr : run st0 ([obs].flatMap regCmds) with
  | error e =>
    have : accepted [obs] = true := by decide +kernel
    rw [accepted, hr] at this; cases this
  | ok st' =>
    refine ⟨st', rfl, fun P dir => ?_, ?_⟩
    · obtain ⟨ft, h1, h2, _⟩ := C67_lookup P st0 st' st0_inv [] [] obs hr (by simp) (by intro n _ _ ft hft; cases hft) dir
      exact ⟨ft, h1, h2⟩
    · exact ⟨_, (C67_conversions st0 st' st0_inv [obs] hr obs (by simp) _).2 rfl⟩

end Flapi.JavaInterface
