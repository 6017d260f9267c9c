import Verif.Java.ClassGen
import Verif.Java.FenceProps
import Verif.Java.ClassSymbolProps
import Verif.Lang.ExportedProps
/-!
# C62: the native functions declared by a Java class and the exported Rust functions agree
-/
namespace Flapi.JavaClassGen

open Flapi.JavaCode (Info Conv Fence Parts argsWithTypes convertCode staticBody methodBody constructorBody nullImports selfField
  commaJoin Passed protectedArgs fenceCode annText argPiece argPieces dropNl convText)
open Flapi.JavaNames (SigMap ArgTy filterNull methodSymbol destructorSymbol jniFuncName)
open Flapi.CppNames (Access)
open Flapi.NameGen (newUniqueName)
open Flapi.Template (toVar toVarType fromVar)
open Flapi.Exported hiding FTy Sig TypeMap

/-! ## Specification: what a native function looks like from both sides -/

/-- A parameter: the pointer of the object (`name` is its name in Java), or an argument whose type is known under two names. -/
inductive Param
  | object (name : Text)
  | arg (t : FTy) (name : Text)

/-- A result: a pointer to a new object, nothing, or a value whose type is known under two names. -/
inductive Result
  | object
  | nothing
  | value (t : FTy)

/-- A native function. -/
structure Proto where
  name : Text
  symbol : Text
  params : List Param
  result : Result
  throws : Bool

/-- The Java type that crosses the border. -/
def nativeTy (t : FTy) : Text :=
  match t.info.conv with
  | some c => c.transition
  | none => t.info.name

/-- The parameter in Java; `note` are null annotations. -/
def Param.java (note : FTy → Text) : Param → Text
  | .object n => lit "long " ++ n
  | .arg t n => note t ++ nativeTy t ++ ' ' :: n

/-- The parameter in Rust. -/
def Param.rust : Param → Text × Text
  | .object _ => (lit "this", lit "jlong")
  | .arg t n => (n, t.rust)

/-- The result in Java. -/
def Result.java : Result → Text
  | .object => lit "long"
  | .nothing => lit "void"
  | .value t => nativeTy t

/-- The result in Rust. -/
def Result.rust : Result → Text
  | .object => lit "jlong"
  | .nothing => lit "()"
  | .value t => t.rust

/-- The declaration in Java (without access). -/
def Proto.java (note : FTy → Text) (p : Proto) : Text :=
  lit "static native " ++ p.result.java ++ lit " " ++ p.name ++ lit "(" ++ commaJoin (p.params.map (Param.java note)) ++ lit ")" ++
    (if p.throws then lit " throws Exception" else []) ++ lit ";\n"

/-- The Rust signature. -/
def Proto.rust (p : Proto) : Text × List (Text × Text) × Text :=
  (p.symbol, (lit "env", lit "*mut JNIEnv") :: (lit "_", lit "jclass") :: p.params.map Param.rust, p.result.rust)

/-- Something has to be converted in Java. -/
def converts (g : Sig) : Bool := (g.output :: g.input).any fun t => t.info.conv.isSome

/-- The name of the method in Java. -/
def shortName (m : Method) : Text := m.alias.getD (m.path.getLast?.getD [])

/-- The name of the native function. -/
def nativeName (m : Method) (g : Sig) : Text :=
  match m.variant with
  | .ctor => lit "init"
  | .method _ => lit "do_" ++ shortName m
  | .static => if converts g then lit "do_" ++ shortName m else shortName m

/-- The symbol of a native function (C30), `none` if a Java type has no JNI signature; `all` are all methods. -/
def symbolOf (cfg : Cfg) (c : Class) (all : List (Method × Sig)) (m : Method) (g : Sig) : Option Text :=
  jniFuncName cfg.table cfg.package c.name (nativeName m g) (variantJ m.variant) (g.input.map argTy)
    (decide (1 < (all.map fun p => nativeName p.1 p.2).count (nativeName m g)))

/-- The native function of a method. -/
def protoOf (cfg : Cfg) (c : Class) (all : List (Method × Sig)) (m : Method) (g : Sig) : Proto where
  name := nativeName m g
  symbol := (symbolOf cfg c all m g).getD []
  params := (match m.variant with | .method _ => [.object (lit "self")] | _ => []) ++
    (g.input.zip m.argNames).map fun p => .arg p.1 p.2
  result := match m.variant with | .ctor => .object | _ => .value g.output
  throws := (m.output.map cfg.isResult).getD false

/-- The native functions of the methods. -/
def methodProtos (cfg : Cfg) (c : Class) (sigs : List Sig) : List Proto :=
  ((c.methods.zip sigs).filter fun p => !p.1.isEmptyCtor).map fun p => protoOf cfg c (c.methods.zip sigs) p.1 p.2

/-- The native function that frees an object. -/
def deleteProtos (cfg : Cfg) (c : Class) : List Proto :=
  if ∃ m ∈ c.methods, m.variant = .ctor then
    [⟨lit "do_delete", (destructorSymbol cfg.table cfg.package c.name).getD [], [.object (lit "me")], .nothing, false⟩]
  else []

/-- Every conversion code of the type map contains a statement (a semicolon). -/
def HasCode {σ} (tm : TypeMap σ) : Prop :=
  ∀ s b ty t s', tm.mapType s b ty = some (t, s') → ∀ k, t.info.conv = some k → ';' ∈ k.converter

/-- Possible annotations. -/
def Annot (n : Text) : Prop := n = [] ∨ n = lit "@NonNull " ∨ n = lit "@Nullable "

/-- Parameters of the method the user sees. -/
def userParams (note : FTy → Text) (m : Method) (g : Sig) : Text :=
  commaJoin ((g.input.zip m.argNames).map fun p => note p.1 ++ p.1.info.name ++ ' ' :: p.2)

/-- The same text up to line breaks. -/
def SameCode (a b : Text) : Prop := a.filter (· ≠ '\n') = b.filter (· ≠ '\n')

/-- The call of the native function: the object first, then what stands for the arguments. -/
def callOf (m : Method) (g : Sig) (passed : List Text) : Text :=
  nativeName m g ++ lit "(" ++ commaJoin ((match m.variant with | .method _ => [lit "mNativeObj"] | _ => []) ++ passed) ++ lit ");"

/-- The code that follows the call: how the result is kept, converted and returned. -/
def resultCode (cfg : Cfg) (g : Sig) (call fence r cr : Text) : Text :=
  if g.output.info.name = lit "void" then
    lit "        " ++ call ++ lit "\n" ++ fence ++ lit "    }"
  else
    match g.output.info.conv with
    | none => lit "        " ++ Comments.trim cfg.ws (filterNull g.output.info.name) ++ lit " " ++ r ++ lit " = " ++ call ++ lit "\n" ++
        fence ++ lit "\n        return " ++ r ++ lit ";\n    }"
    | some k => lit "        " ++ Comments.trim cfg.ws (filterNull k.transition) ++ lit " " ++ r ++ lit " = " ++ call ++
        outputConv cfg.ws g.output.info k r cr ++ lit "\n" ++ fence ++ lit "\n        return " ++ cr ++ lit ";\n    }"

/-- The body of a wrapper: the code converting the arguments (`Passed`, C34: each argument once and in order, a
converted one through its own temporary); the call; the reachability fences of C34; the result.  All local names
are different from each other, from the arguments and from the field. -/
def BodySpec (cfg : Cfg) (m : Method) (g : Sig) (body : Text) : Prop :=
  ∃ (temps passed : List Text) (conv lead fence : Text) (r cr : Text),
    Passed ((sigJ g).input.zip m.argNames) temps passed conv ∧ SameCode lead conv ∧
    fenceCode cfg.fence (protectedArgs ((sigJ g).input.zip m.argNames)) = some fence ∧
    (r :: cr :: temps).Nodup ∧ (∀ x ∈ r :: cr :: temps, x ∉ m.argNames ∧ (m.variant.isMethod = true → x ≠ lit "mNativeObj")) ∧
    body = lead ++ match m.variant with
      | .ctor => lit "        mNativeObj = " ++ callOf m g passed ++ fence ++ lit "\n    }"
      | _ => resultCode cfg g (callOf m g passed) (if fence = [] then [] else fence ++ lit "\n") r cr

/-- What the user sees in front of the body. -/
def headOf (cfg : Cfg) (c : Class) (note : FTy → Text) (m : Method) (g : Sig) : Text :=
  (match m.variant with
    | .static => lit " static " ++ g.output.info.name ++ lit " " ++ shortName m
    | .method _ => lit " final " ++ g.output.info.name ++ lit " " ++ shortName m
    | .ctor => lit " " ++ c.name) ++
  lit "(" ++ userParams note m g ++ lit ")" ++ (if (m.output.map cfg.isResult).getD false then lit " throws Exception" else []) ++
  match m.variant with
  | .method _ => lit " {"
  | _ => lit " {\n"

/-- The Java keyword for the access of a method. -/
def accessKeyword : Access → String
  | .priv => "private"
  | .prot => "protected"
  | .pub => "public"

/-- The member of the class generated for a method: an empty constructor; a native method that can be called directly; or a
wrapper followed by its private native method. -/
def MemberSpec (cfg : Cfg) (c : Class) (all : List (Method × Sig)) (m : Method) (g : Sig) (text : Text) : Prop :=
  ∃ note : FTy → Text, (∀ t, Annot (note t)) ∧ ∃ rest, text = Comments.docToJava cfg.ws m.docs false ++ lit "\n    " ++ lit (accessKeyword m.access) ++ rest ∧
    if m.isEmptyCtor then rest = lit " " ++ c.name ++ lit "() {}\n"
    else if m.variant = .static ∧ converts g = false then rest = lit " " ++ (protoOf cfg c all m g).java note
    else ∃ body, BodySpec cfg m g body ∧
      rest = headOf cfg c note m g ++ body ++ lit "\n    private " ++ (protoOf cfg c all m g).java (fun _ => [])

/-- The beginning of the file. -/
def fileHead (cfg : Cfg) (c : Class) (gs : List Sig) : Text :=
  lit "// Automatically generated by flapigen\npackage " ++ cfg.package ++ lit ";\n" ++ nullImports cfg.nullPackage (gs.map sigJ) ++
  lit "\n" ++ Comments.docToJava cfg.ws c.docs true ++ lit "\npublic final class " ++ c.name ++ lit " {\n"

/-- What a class with a constructor has besides its methods: `delete`, which frees the object once, the finaliser, the native
function that frees, the constructor for objects that come from Rust, and the pointer.  A class without objects cannot be
constructed. -/
def objectPart (cfg : Cfg) (c : Class) : Text :=
  if ∃ m ∈ c.methods, m.variant = .ctor then
    lit ("\n    public synchronized void delete() {\n        if (mNativeObj != 0) {\n            do_delete(mNativeObj);\n" ++
      "            mNativeObj = 0;\n       }\n    }\n    @Override\n    protected void finalize() throws Throwable {\n" ++
      "        try {\n            delete();\n        }\n        finally {\n             super.finalize();\n        }\n    }\n") ++
    ((deleteProtos cfg c).map fun p => lit "    private " ++ p.java (fun _ => [])).flatten ++
    lit "    /*package*/ " ++ c.name ++ lit ("(InternalPointerMarker marker, long ptr) {\n        assert marker == InternalPointerMarker.RAW_PTR;\n" ++
      "        this.mNativeObj = ptr;\n    }\n    /*package*/ long mNativeObj;\n")
  else lit "\n    private " ++ c.name ++ lit "() {}\n"

/-! ## Helper lemmas -/

theorem repl_keeps (pat first other : Text) (ch : Char) (hp : pat ≠ []) (hch : ch ∉ pat) : ∀ (src : Text) (m : Bool) (k : Nat),
    (∀ x ∈ src.take k, x ≠ ch) → ch ∈ src → ch ∈ repl pat first other m k src := by
  intro src
  induction src with
  | nil => intro m k _ h; cases h
  | cons c cs ih =>
    intro m k ht h
    cases k with
    | zero =>
      rw [repl]
      split
      · rename_i hpre
        apply List.mem_append_right
        obtain ⟨t, ht'⟩ := List.isPrefixOf_iff_prefix.1 hpre
        cases pat with
        | nil => exact absurd rfl hp
        | cons q pat =>
          simp only [List.cons_append, List.cons.injEq] at ht'
          obtain ⟨rfl, rfl⟩ := ht'
          rw [List.mem_cons, not_or] at hch
          refine ih true _ ?_ ?_
          · intro x hx
            simp only [List.length_cons, Nat.add_sub_cancel, List.take_left] at hx
            rintro rfl
            exact hch.2 hx
          · rcases List.mem_cons.1 h with h | h
            · exact absurd h hch.1
            · exact h
      · rcases List.mem_cons.1 h with rfl | h
        · exact List.mem_cons_self
        · exact List.mem_cons_of_mem _ (ih m 0 (by simp) h)
    | succ k =>
      rw [repl]
      refine ih m k (fun x hx => ht x (by simp [hx])) ?_
      rcases List.mem_cons.1 h with rfl | h
      · exact absurd rfl (ht ch (by simp))
      · exact h

theorem strReplace_keeps (src pat to' : Text) (ch : Char) (hp : pat ≠ []) (hch : ch ∉ pat) (h : ch ∈ src) :
    ch ∈ strReplace src pat to' := by
  rw [strReplace_eq_repl _ _ _ hp]
  exact repl_keeps pat to' to' ch hp hch src _ 0 (by simp) h

theorem filterNull_keeps {t : Text} (h : ';' ∈ t) : ';' ∈ filterNull t :=
  strReplace_keeps _ _ _ _ (by decide) (by decide) (strReplace_keeps _ _ _ _ (by decide) (by decide) h)

theorem dropWhile_keeps {ws : Char → Bool} {t : Text} {ch : Char} (hw : ws ch = false) (h : ch ∈ t) : ch ∈ t.dropWhile ws := by
  induction t with
  | nil => cases h
  | cons c t ih =>
    rw [List.dropWhile_cons]
    split
    · rename_i hc
      rcases List.mem_cons.1 h with rfl | h
      · rw [hw] at hc; cases hc
      · exact ih h
    · exact h

theorem trim_keeps {ws : Char → Bool} {t : Text} {ch : Char} (hw : ws ch = false) (h : ch ∈ t) : ch ∈ Comments.trim ws t := by
  unfold Comments.trim
  rw [List.mem_reverse]
  exact dropWhile_keeps hw (List.mem_reverse.2 (dropWhile_keeps hw h))

theorem convText_ne {k : Conv} (h : ';' ∈ k.converter) (v x : Text) : convText k v x ≠ [] := by
  have : ';' ∈ convText k v x := by
    unfold convText
    apply filterNull_keeps
    exact strReplace_keeps _ _ _ _ (by decide) (by decide) (strReplace_keeps _ _ _ _ (by decide) (by decide)
      (strReplace_keeps _ _ _ _ (by decide) (by decide) h))
  intro e
  rw [e] at this
  cases this

theorem outputConv_ne {ws : Char → Bool} (hw : ws ';' = false) (t : Info) {k : Conv} (h : ';' ∈ k.converter) (r cr : Text) :
    outputConv ws t k r cr ≠ [] := by
  have : ';' ∈ Comments.trim ws (filterNull (strReplace (strReplace (strReplace k.converter fromVar r) toVarType (t.name ++ ' ' :: cr))
      toVar cr)) := by
    apply trim_keeps hw
    apply filterNull_keeps
    exact strReplace_keeps _ _ _ _ (by decide) (by decide) (strReplace_keeps _ _ _ _ (by decide) (by decide)
      (strReplace_keeps _ _ _ _ (by decide) (by decide) h))
  unfold outputConv
  simp only
  split
  · exact List.cons_ne_nil _ _
  · intro e
    rw [e] at this
    cases this

theorem passed_conv {l : List (Info × Text)} {ts ps : List Text} {c : Text} (h : Passed l ts ps c)
    (hk : ∀ a ∈ l, ∀ k, a.1.conv = some k → ';' ∈ k.converter) : c.isEmpty = !(l.any fun a => a.1.conv.isSome) := by
  induction h with
  | nil => rfl
  | direct h t ih =>
    rw [ih (fun a ha => hk a (List.mem_cons_of_mem _ ha)), List.any_cons, h]
    rfl
  | @conv a x l ts ps c k v h t ih =>
    rw [List.any_cons, h]
    have := convText_ne (hk (a, x) List.mem_cons_self k h) v x
    simp [this]

/-! ### Argument lists -/

theorem argPieces_eq (ext int un : Bool) (n : Nat) : ∀ (l : List (Info × Text)) (i : Nat), i + l.length = n →
    argPieces ext int un n i l = commaJoin (l.map fun p => argPiece ext int un p.1 p.2) := by
  intro l
  induction l with
  | nil => intro i _; rfl
  | cons a l ih =>
    intro i hi
    obtain ⟨a, x⟩ := a
    rw [List.length_cons] at hi
    rw [argPieces, ih (i + 1) (by omega)]
    cases l with
    | nil =>
      rw [if_pos (by simp at hi; omega)]
      simp [commaJoin]
    | cons b l =>
      rw [if_neg (by simp at hi; omega)]
      rfl

theorem argsWithTypes_eq (comma ext int un : Bool) (s : JavaCode.Sig) (names : List Text) (hl : names.length = s.input.length) :
    argsWithTypes comma ext int un s names = (if comma && !s.input.isEmpty then ", ".toList else []) ++
      commaJoin ((s.input.zip names).map fun p => argPiece ext int un p.1 p.2) := by
  rw [argsWithTypes, argPieces_eq _ _ _ _ _ _ (by simp [hl])]

theorem zip_info (g : Sig) (names : List Text) : (sigJ g).input.zip names = (g.input.zip names).map fun p => (p.1.info, p.2) := by
  unfold sigJ
  generalize g.input = l
  induction l generalizing names with
  | nil => rfl
  | cons a l ih =>
    cases names with
    | nil => rfl
    | cons b k => simpa using ih k

/-- The annotation used for a parameter. -/
def noteOf (cfg : Cfg) (t : FTy) : Text := annText true cfg.nullPackage.isSome t.info.annotation t.info.name

theorem noteOf_annot (cfg : Cfg) (t : FTy) : Annot (noteOf cfg t) := by
  unfold noteOf annText Annot
  have e1 : lit "@NonNull " = "@NonNull ".toList := by unfold lit; rfl
  have e2 : lit "@Nullable " = "@Nullable ".toList := by unfold lit; rfl
  rw [e1, e2]
  dsimp only
  split
  · split
    · exact .inr (.inl rfl)
    · exact .inl rfl
  · split
    · exact .inr (.inr rfl)
    · exact .inl rfl
  · exact .inl rfl

theorem printed_ext (t : FTy) : t.info.printed false = t.info.name := by
  unfold Info.printed
  cases t.info.conv <;> rfl

theorem printed_int (t : FTy) : t.info.printed true = nativeTy t := by
  unfold Info.printed nativeTy
  cases t.info.conv <;> rfl

theorem annText_int (un : Bool) (n : Option JavaCode.Null) (t : Text) : annText false un n t = [] := by
  unfold annText
  cases n with
  | none => rfl
  | some n => cases n <;> rfl

theorem extArgs_eq (cfg : Cfg) (m : Method) (g : Sig) (hl : g.input.length = m.args.length) :
    extArgs cfg m g = userParams (noteOf cfg) m g := by
  rw [extArgs, argsWithTypes_eq _ _ _ _ _ _ (by simp [sigJ, Method.argNames, hl]), zip_info, List.map_map]
  simp only [Bool.false_and, Bool.false_eq_true, if_false, List.nil_append, userParams]
  congr 1
  refine List.map_congr_left fun p _ => ?_
  simp only [Function.comp, argPiece, printed_ext, noteOf]

theorem intArgs_eq (cfg : Cfg) (comma : Bool) (m : Method) (g : Sig) (hl : g.input.length = m.args.length) :
    intArgs cfg comma m g = (if comma && !g.input.isEmpty then ", ".toList else []) ++
      commaJoin (((g.input.zip m.argNames).map fun p => Param.arg p.1 p.2).map (Param.java fun _ => [])) := by
  rw [intArgs, argsWithTypes_eq _ _ _ _ _ _ (by simp [sigJ, Method.argNames, hl]), zip_info, List.map_map, List.map_map]
  have : (sigJ g).input.isEmpty = g.input.isEmpty := by simp [sigJ, List.isEmpty_iff]
  rw [this]
  congr 2
  refine List.map_congr_left fun p _ => ?_
  simp only [Function.comp, argPiece, printed_int, annText_int, Param.java]

theorem intArgs_eq' (cfg : Cfg) (m : Method) (g : Sig) (hl : g.input.length = m.args.length) :
    intArgs cfg false m g = commaJoin (((g.input.zip m.argNames).map fun p => Param.arg p.1 p.2).map (Param.java fun _ => [])) := by
  rw [intArgs_eq cfg false m g hl]
  simp

theorem direct_params (cfg : Cfg) (m : Method) (g : Sig) (hc : converts g = false) : userParams (noteOf cfg) m g =
    commaJoin (((g.input.zip m.argNames).map fun p => Param.arg p.1 p.2).map (Param.java (noteOf cfg))) := by
  unfold userParams
  rw [List.map_map]
  congr 1
  refine List.map_congr_left fun p hp => ?_
  have hm := (List.of_mem_zip hp).1
  have : p.1.info.conv = none := by
    simp only [converts, List.any_cons, Bool.or_eq_false_iff, List.any_eq_false] at hc
    simpa using hc.2 p.1 hm
  simp only [Function.comp, Param.java, nativeTy, this]

/-! ### Bodies -/

theorem lit_eq (s : String) : lit s = s.toList := by unfold lit; rfl

theorem lp : lit "(" = ['('] := by unfold lit; decide
theorem sp : lit " " = [' '] := by unfold lit; decide
theorem nl : lit "\n" = ['\n'] := by unfold lit; decide
theorem callEnd : lit ");\n" = lit ");" ++ ['\n'] := by unfold lit; decide
theorem retEnd : lit ";\n    }" = lit ";\n" ++ lit "    }" := by unfold lit; decide
theorem initLp : lit " = init(" = lit " = " ++ (lit "init" ++ ['(']) := by unfold lit; decide
theorem selfFieldLit : selfField = lit "mNativeObj" := by rw [lit_eq]; rfl

/-- The end of a body of the model. -/
def tailOf (p : Parts) (call : Text) : Text :=
  (if p.retType ≠ lit "void" then lit "        " ++ (p.interType ++ ' ' :: p.retName ++ lit " = ") ++ call ++ p.retConv ++ ['\n']
    else lit "        " ++ call ++ ['\n']) ++
  (if p.fence.isEmpty then [] else p.fence ++ ['\n']) ++
  (if p.retType ≠ lit "void" then lit "\n        return " ++ (if p.retConv.isEmpty then p.retName else p.convRet) ++ lit ";\n" else []) ++
  lit "    }"

theorem staticBody_eq (p : Parts) : staticBody p = (if p.conv.isEmpty then [] else dropNl p.conv ++ ['\n']) ++
    tailOf p (p.func ++ '(' :: (p.args ++ lit ");")) := by
  have e : ");\n".toList = ");".toList ++ ['\n'] := by decide
  unfold staticBody tailOf
  unfold Parts.assign Parts.fencePart Parts.ret JavaCode.indent
  rw [e]
  repeat rw [← lit_eq]
  simp only [List.append_assoc, List.cons_append, List.nil_append]

theorem methodBody_eq (p : Parts) : methodBody p =
    (if p.conv.isEmpty then [] else (if p.conv.head? ≠ some '\n' then ['\n'] else []) ++ p.conv) ++ '\n' ::
    tailOf p (p.func ++ '(' :: (selfField ++ (p.args ++ lit ");"))) := by
  have e : ");\n".toList = ");".toList ++ ['\n'] := by decide
  unfold methodBody tailOf
  unfold Parts.assign Parts.fencePart Parts.ret JavaCode.indent
  rw [e]
  repeat rw [← lit_eq]
  simp only [List.append_assoc, List.cons_append, List.nil_append]
  by_cases hv : p.retType = lit "void" <;>
    simp only [hv, ne_eq, not_true, not_false_eq_true, if_true, if_false, List.append_assoc, List.cons_append, List.nil_append]

theorem constructorBody_eq (p : Parts) : constructorBody p = (if p.conv.isEmpty then [] else dropNl p.conv ++ ['\n']) ++
    (lit "        " ++ (selfField ++ (lit " = " ++ ((lit "init" ++ '(' :: (p.args ++ lit ");")) ++ (p.fence ++ lit "\n    }"))))) := by
  have e : " = init(".toList = " = ".toList ++ ("init".toList ++ ['(']) := by decide
  unfold constructorBody
  unfold JavaCode.indent
  rw [e]
  repeat rw [← lit_eq]
  simp only [List.append_assoc, List.cons_append, List.nil_append]

theorem same_dropNl (t : Text) : SameCode (if t.isEmpty then [] else dropNl t ++ ['\n']) t := by
  unfold SameCode
  cases t with
  | nil => rfl
  | cons a t =>
    rw [if_neg (by simp)]
    rw [List.filter_append]
    have : List.filter (fun x => decide (x ≠ '\n')) ['\n'] = [] := by decide
    rw [this, List.append_nil]
    by_cases ha : a = '\n'
    · subst ha; rfl
    · rw [dropNl]
      intro l e
      cases e
      exact ha rfl

theorem same_method (t : Text) :
    SameCode ((if t.isEmpty then [] else (if t.head? ≠ some '\n' then ['\n'] else []) ++ t) ++ ['\n']) t := by
  unfold SameCode
  have h1 : List.filter (fun x => decide (x ≠ '\n')) ['\n'] = [] := by decide
  rw [List.filter_append, h1, List.append_nil]
  cases t with
  | nil => rfl
  | cons a t =>
    rw [if_neg (by simp), List.filter_append]
    split
    · rw [h1, List.nil_append]
    · rfl

theorem commaJoin_cons (x : Text) (l : List Text) : commaJoin (x :: l) = x ++ ((if l.isEmpty then [] else ", ".toList) ++ commaJoin l) := by
  cases l with
  | nil => simp [commaJoin]
  | cons y l => simp [commaJoin]

theorem convertCode_ok {f : Fence} {comma : Bool} {known : List Text} {s : JavaCode.Sig} {names : List Text}
    (hl : names.length = s.input.length) {conv args fence : Text} (h : convertCode f comma known s names = some (conv, args, fence)) :
    ∃ ts ps, Passed (s.input.zip names) ts ps conv ∧ ts.Nodup ∧ (∀ t ∈ ts, t ∉ known) ∧ ps.length = s.input.length ∧
      args = (if comma && !s.input.isEmpty then ", ".toList else []) ++ commaJoin ps ∧
      fenceCode f (protectedArgs (s.input.zip names)) = some fence := by
  unfold convertCode at h
  simp only [Option.bind_eq_bind, Option.bind_eq_some_iff, Option.pure_def, Option.some.injEq, Prod.mk.injEq] at h
  obtain ⟨r, hr, fc, hf, rfl, rfl, rfl⟩ := h
  obtain ⟨ts, ps, p1, p2, p3, p4, p5⟩ := JavaCode.convLoop_spec _ _ 0 known r hr (by simp [hl])
  refine ⟨ts, ps, p1, p3, p4, ?_, by rw [p2], by rw [← p5]; exact hf⟩
  have : ∀ {l ts ps c}, Passed l ts ps c → ps.length = l.length := by
    intro l ts ps c h
    induction h with
    | nil => rfl
    | direct h t ih => simp [ih]
    | conv k v h t ih => simp [ih]
  rw [this p1, List.length_zip]
  omega

/-- The codes of a signature contain statements. -/
def SigHas (g : Sig) : Prop := ∀ t ∈ g.output :: g.input, ∀ k, t.info.conv = some k → ';' ∈ k.converter

theorem needConv_eq {t : FTy} (h : ∀ k, t.info.conv = some k → ';' ∈ k.converter) : (argTy t).needConv = t.info.conv.isSome := by
  unfold argTy JavaNames.ArgTy.needConv
  cases hc : t.info.conv with
  | none => rfl
  | some k =>
    have : k.converter ≠ [] := fun e => by
      have := h k hc
      rw [e] at this
      cases this
    simp [this]

theorem shortName_eq (m : Method) : m.shortName = shortName m := by
  unfold Method.shortName shortName
  cases m.alias <;> rfl

theorem funcName_eq {m : Method} {g : Sig} (h : SigHas g) : funcName m g = nativeName m g := by
  have hc : ((nameInfo m g).args.any ArgTy.needConv || (nameInfo m g).out.needConv) = converts g := by
    simp only [nameInfo, converts, List.any_cons, List.any_map]
    rw [needConv_eq (h _ List.mem_cons_self), Bool.or_comm]
    congr 1
    rw [Bool.eq_iff_iff, List.any_eq_true, List.any_eq_true]
    constructor
    · rintro ⟨t, ht, h1⟩
      exact ⟨t, ht, by rw [← needConv_eq (h t (List.mem_cons_of_mem _ ht))]; exact h1⟩
    · rintro ⟨t, ht, h1⟩
      exact ⟨t, ht, by rw [Function.comp, needConv_eq (h t (List.mem_cons_of_mem _ ht))]; exact h1⟩
  unfold funcName JavaNames.Method.nativeName nativeName
  simp only [hc]
  rw [lit_eq, lit_eq]
  have hv : (nameInfo m g).variant = variantJ m.variant := rfl
  have hs : (nameInfo m g).shortName = shortName m := shortName_eq m
  rw [hv, hs]
  cases m.variant with
  | ctor => rfl
  | method v => rfl
  | static => cases converts g <;> rfl

theorem selfField_args {m : Method} {known : List Text} (h : knownNames m = .ok known) :
    (∀ x, x ∉ known → x ∉ m.argNames ∧ (m.variant.isMethod = true → x ≠ lit "mNativeObj")) ∧
    (m.variant.isMethod = true → lit "mNativeObj" ∉ m.argNames) := by
  unfold knownNames at h
  rw [selfFieldLit] at h
  split at h
  · rename_i hm
    split at h
    · cases h
    · rename_i hc
      cases h
      simp only [List.mem_cons, not_or]
      exact ⟨fun x hx => ⟨hx.2, fun _ => hx.1⟩, fun _ => by simpa using hc⟩
  · rename_i hm
    cases h
    exact ⟨fun x hx => ⟨hx, fun h => absurd h hm⟩, fun h => absurd h hm⟩

/-- What is known after the preparation. -/
structure PrepSpec (cfg : Cfg) (m : Method) (g : Sig) (p : Prep) (temps passed : List Text) : Prop where
  pass : Passed ((sigJ g).input.zip m.argNames) temps passed p.parts.conv
  fence : fenceCode cfg.fence (protectedArgs ((sigJ g).input.zip m.argNames)) = some p.parts.fence
  nodup : (p.parts.retName :: p.parts.convRet :: temps).Nodup
  fresh : ∀ x ∈ p.parts.retName :: p.parts.convRet :: temps, x ∉ m.argNames ∧ (m.variant.isMethod = true → x ≠ lit "mNativeObj")
  func : p.parts.func = funcName m g
  args : p.parts.args = (if m.variant.isMethod && !g.input.isEmpty then ", ".toList else []) ++ commaJoin passed
  plen : passed.length = g.input.length
  ret : (p.parts.retType, p.inter, p.parts.retConv) = retParts cfg.ws m g.output.info p.parts.retName p.parts.convRet
  inter : p.parts.interType = Comments.trim cfg.ws (filterNull (if p.parts.retConv.isEmpty then p.parts.retType else p.inter))

theorem prepare_ok {cfg : Cfg} {m : Method} {g : Sig} {p : Prep} (hl : g.input.length = m.args.length) (h : prepare cfg m g = .ok p) :
    ∃ temps passed, PrepSpec cfg m g p temps passed := by
  simp only [prepare, bind_ok, orErr_ok, Prod.exists, Except.ok.injEq] at h
  obtain ⟨known, h1, ret, h2, cr, h3, conv, args, fence, h4, rfl⟩ := h
  obtain ⟨ts, ps, e1, e2, e3, e4, e5, e6⟩ := convertCode_ok (by simp [sigJ, Method.argNames, hl]) h4
  have hk := (selfField_args h1).1
  have f1 := Flapi.NameGen.C01_fresh _ _ _ h2
  have f2 := Flapi.NameGen.C01_fresh _ _ _ h3
  rw [List.mem_cons, not_or] at f2
  refine ⟨ts, ps, e1, e6, ?_, ?_, rfl, ?_, ?_, rfl, rfl⟩
  · simp only [List.nodup_cons, List.mem_cons, not_or]
    refine ⟨⟨fun e => f2.1 e.symm, fun hx => ?_⟩, fun hx => ?_, e2⟩
    · exact e3 _ hx (by simp)
    · exact e3 _ hx (by simp)
  · intro x hx
    apply hk
    simp only [List.mem_cons] at hx
    rcases hx with rfl | rfl | hx
    · exact f1
    · exact f2.2
    · intro hin
      exact e3 _ hx (by simp [hin])
  · have : (sigJ g).input.isEmpty = g.input.isEmpty := by simp [sigJ, List.isEmpty_iff]
    rw [e5, this]
  · rw [e4]; simp [sigJ]

theorem callOf_eq {cfg : Cfg} {m : Method} {g : Sig} {p : Prep} {ts ps : List Text} (h : PrepSpec cfg m g p ts ps) (hs : SigHas g) :
    callOf m g ps = p.parts.func ++ '(' :: ((if m.variant.isMethod then selfField else []) ++ (p.parts.args ++ lit ");")) := by
  rw [callOf, h.func, funcName_eq hs, h.args, lp]
  have : ps.isEmpty = g.input.isEmpty := by
    have := h.plen
    cases ps <;> cases hg : g.input <;> simp_all
  cases hv : m.variant with
  | method v =>
    simp only [Variant.isMethod, Bool.true_and, if_true, List.singleton_append, commaJoin_cons, this, ← selfFieldLit]
    cases g.input.isEmpty <;> simp [List.append_assoc]
  | ctor => simp [Variant.isMethod, List.append_assoc]
  | static => simp [Variant.isMethod, List.append_assoc]

theorem tailOf_eq {cfg : Cfg} {m : Method} {g : Sig} {p : Prep} {ts ps : List Text} (h : PrepSpec cfg m g p ts ps) (hs : SigHas g)
    (hw : cfg.ws ';' = false) (hv : m.variant ≠ .ctor) (call : Text) : tailOf p.parts call =
      resultCode cfg g call (if p.parts.fence = [] then [] else p.parts.fence ++ lit "\n") p.parts.retName p.parts.convRet := by
  have hr : (p.parts.retType, p.inter, p.parts.retConv) = match g.output.info.conv with
      | some c => (g.output.info.name, c.transition, outputConv cfg.ws g.output.info c p.parts.retName p.parts.convRet)
      | none => (g.output.info.name, g.output.info.name, []) := by
    rw [h.ret, retParts]
    cases hx : m.variant with
    | ctor => exact absurd hx hv
    | method v => rfl
    | static => rfl
  have hfe : (if p.parts.fence.isEmpty then [] else p.parts.fence ++ ['\n']) = if p.parts.fence = [] then [] else p.parts.fence ++ lit "\n" := by
    rw [nl]
    by_cases hf : p.parts.fence = []
    · simp [hf]
    · simp [hf]
  have hi := h.inter
  unfold tailOf resultCode
  rw [hfe]
  generalize (if p.parts.fence = [] then [] else p.parts.fence ++ lit "\n") = F
  cases hc : g.output.info.conv with
  | none =>
    rw [hc] at hr
    simp only [Prod.mk.injEq] at hr
    obtain ⟨r1, r2, r3⟩ := hr
    rw [r3, r1] at hi
    rw [hi, r1, r3]
    by_cases hvoid : g.output.info.name = lit "void"
    · simp only [hvoid, ne_eq, not_true, if_false, if_true, nl, List.append_assoc, List.nil_append]
    · simp only [hvoid, ne_eq, not_false_eq_true, if_true, if_false, List.isEmpty_nil, nl, sp, retEnd, List.append_assoc,
        List.cons_append, List.nil_append]
  | some k =>
    rw [hc] at hr
    simp only [Prod.mk.injEq] at hr
    obtain ⟨r1, r2, r3⟩ := hr
    have hne := outputConv_ne hw g.output.info (hs _ List.mem_cons_self k hc) p.parts.retName p.parts.convRet
    rw [← r3] at hne
    have hne' : p.parts.retConv.isEmpty = false := by simpa using hne
    rw [hne', if_neg Bool.false_ne_true, r2] at hi
    by_cases hvoid : g.output.info.name = lit "void"
    · simp only [r1, hvoid, ne_eq, not_true, if_false, if_true, nl, List.append_assoc, List.nil_append]
    · simp only [hi, r1, hvoid, hne', ne_eq, not_false_eq_true, Bool.false_eq_true, if_true, if_false, ← r3, nl, sp, retEnd, List.append_assoc,
        List.cons_append, List.nil_append]

/-! ### Members -/

theorem excSpec_eq (cfg : Cfg) (m : Method) :
    excSpec cfg m = if (m.output.map cfg.isResult).getD false then lit " throws Exception" else [] := by
  unfold excSpec
  cases m.output <;> rfl

theorem zip_fst {g : Sig} {m : Method} (hl : g.input.length = m.args.length) :
    ((sigJ g).input.zip m.argNames).any (fun a => a.1.conv.isSome) = g.input.any fun t => t.info.conv.isSome := by
  rw [zip_info, List.any_map]
  have : (g.input.zip m.argNames).map (·.1) = g.input := List.map_fst_zip (by simp [Method.argNames, hl])
  conv => rhs; rw [← this, List.any_map]
  rfl

theorem conv_isEmpty {cfg : Cfg} {m : Method} {g : Sig} {p : Prep} {ts ps : List Text} (hl : g.input.length = m.args.length)
    (h : PrepSpec cfg m g p ts ps) (hs : SigHas g) (hw : cfg.ws ';' = false) (hv : m.variant ≠ .ctor) :
    (p.parts.conv.isEmpty && p.parts.retConv.isEmpty) = !converts g := by
  have h1 : p.parts.conv.isEmpty = !(g.input.any fun t => t.info.conv.isSome) := by
    rw [passed_conv h.pass, zip_fst hl]
    intro a ha k hk
    rw [zip_info, List.mem_map] at ha
    obtain ⟨q, hq, rfl⟩ := ha
    exact hs _ (List.mem_cons_of_mem _ (List.of_mem_zip hq).1) k hk
  have h2 : p.parts.retConv.isEmpty = !g.output.info.conv.isSome := by
    have hr := h.ret
    cases hx : m.variant with
    | ctor => exact absurd hx hv
    | method v =>
      rw [retParts, hx] at hr
      cases hc : g.output.info.conv with
      | none => simp only [hc, Prod.mk.injEq] at hr; rw [hr.2.2]; rfl
      | some k =>
        simp only [hc, Prod.mk.injEq] at hr
        rw [hr.2.2]
        simpa using outputConv_ne hw g.output.info (hs _ List.mem_cons_self k hc) p.parts.retName p.parts.convRet
    | static =>
      rw [retParts, hx] at hr
      cases hc : g.output.info.conv with
      | none => simp only [hc, Prod.mk.injEq] at hr; rw [hr.2.2]; rfl
      | some k =>
        simp only [hc, Prod.mk.injEq] at hr
        rw [hr.2.2]
        simpa using outputConv_ne hw g.output.info (hs _ List.mem_cons_self k hc) p.parts.retName p.parts.convRet
  rw [h1, h2, converts, List.any_cons, Bool.not_or, Bool.and_comm]

theorem ret_types {cfg : Cfg} {m : Method} {g : Sig} {p : Prep} {ts ps : List Text} (h : PrepSpec cfg m g p ts ps) (hv : m.variant ≠ .ctor) :
    p.parts.retType = g.output.info.name ∧ p.inter = nativeTy g.output := by
  have hr := h.ret
  unfold nativeTy
  cases hx : m.variant with
  | ctor => exact absurd hx hv
  | method v =>
    rw [retParts, hx] at hr
    cases hc : g.output.info.conv <;> simp only [hc, Prod.mk.injEq] at hr <;> exact ⟨hr.1, hr.2.1⟩
  | static =>
    rw [retParts, hx] at hr
    cases hc : g.output.info.conv <;> simp only [hc, Prod.mk.injEq] at hr <;> exact ⟨hr.1, hr.2.1⟩

theorem l_direct : lit " static native " = lit " " ++ lit "static native " := by unfold lit; decide
theorem l_private : lit "\n    private static native " = lit "\n    private " ++ lit "static native " := by unfold lit; decide +kernel
theorem l_privateLong : lit "\n    private static native long " = lit "\n    private " ++ (lit "static native " ++ (lit "long" ++ lit " ")) := by
  unfold lit; decide +kernel
theorem l_self : lit "(long self" = lit "(" ++ (lit "long " ++ lit "self") := by unfold lit; decide

theorem member_ok {cfg : Cfg} {c : Class} {m : Method} {g : Sig} {p : Prep} (all : List (Method × Sig))
    (hl : g.input.length = m.args.length) (hs : SigHas g) (hw : cfg.ws ';' = false) (h : prepare cfg m g = .ok p) :
    MemberSpec cfg c all m g (memberText cfg c m g p) := by
  obtain ⟨ts, ps, hp⟩ := prepare_ok hl h
  have hacc : lit (accessKeyword m.access) = accessW m.access := by cases m.access <;> rfl
  refine ⟨noteOf cfg, noteOf_annot cfg, ?_⟩
  rw [hacc]
  have hb : ∀ lead, SameCode lead p.parts.conv → m.variant ≠ .ctor → BodySpec cfg m g (lead ++ tailOf p.parts (callOf m g ps)) := by
    intro lead hlead hv
    refine ⟨ts, ps, p.parts.conv, lead, p.parts.fence, p.parts.retName, p.parts.convRet, hp.pass, hlead, hp.fence, hp.nodup, hp.fresh, ?_⟩
    rw [tailOf_eq hp hs hw hv]
    cases hx : m.variant with
    | ctor => exact absurd hx hv
    | method v => rfl
    | static => rfl
  have hcall := callOf_eq hp hs
  have hfn := hp.func.trans (funcName_eq hs)
  unfold memberText
  cases hv : m.variant with
  | static =>
    have hnc : m.variant ≠ .ctor := by rw [hv]; exact nofun
    have hem : m.isEmptyCtor = false := by simp [Method.isEmptyCtor, hv]
    obtain ⟨r1, r2⟩ := ret_types hp hnc
    have hres : (protoOf cfg c all m g).result.java = nativeTy g.output := by simp only [protoOf, hv, Result.java]
    have hpar : (protoOf cfg c all m g).params = (g.input.zip m.argNames).map fun p => Param.arg p.1 p.2 := by
      simp only [protoOf, hv, List.nil_append]
    have hname : (protoOf cfg c all m g).name = nativeName m g := rfl
    have hthr : (protoOf cfg c all m g).throws = (m.output.map cfg.isResult).getD false := rfl
    rw [hem, conv_isEmpty hl hp hs hw hnc]
    simp only [Bool.false_eq_true, if_false]
    by_cases hc : converts g = true
    · rw [hc]
      refine ⟨headOf cfg c (noteOf cfg) m g ++ ((if p.parts.conv.isEmpty then [] else dropNl p.parts.conv ++ ['\n']) ++ tailOf p.parts (callOf m g ps)) ++ lit "\n    private " ++ (protoOf cfg c all m g).java (fun _ => []), ?_, ?_⟩
      rotate_left
      · rw [if_neg (by simp)]
        refine ⟨_, hb _ (same_dropNl _) hnc, rfl⟩
      · simp only [Bool.not_true, Bool.false_eq_true, if_false]
        rw [headOf, hv, Proto.java, hres, hpar, hname, hthr, staticBody_eq, hcall, ← intArgs_eq' cfg m g hl, hfn, r1, r2,
          extArgs_eq cfg m g hl, excSpec_eq, l_private, hv]
        simp only [Variant.isMethod, Bool.false_eq_true, if_false, shortName_eq, List.append_assoc, List.nil_append]
    · have hc' : converts g = false := by simpa using hc
      rw [hc']
      refine ⟨lit " " ++ (protoOf cfg c all m g).java (noteOf cfg), ?_, ?_⟩
      rotate_left
      · rw [if_pos ⟨trivial, rfl⟩]
      · have hnat : nativeTy g.output = g.output.info.name := by
          unfold nativeTy
          simp only [converts, List.any_cons, Bool.or_eq_false_iff] at hc'
          have : g.output.info.conv = none := by simpa using hc'.1
          rw [this]
        have hnn : nativeName m g = shortName m := by simp only [nativeName, hv, hc', Bool.false_eq_true, if_false]
        simp only [Bool.not_false, if_true]
        rw [Proto.java, hres, hpar, hname, hthr, hnn, hnat, r1, extArgs_eq cfg m g hl, direct_params cfg m g hc', excSpec_eq, l_direct]
        simp only [shortName_eq, List.append_assoc]
  | method v =>
    have hnc : m.variant ≠ .ctor := by rw [hv]; exact nofun
    have hem : m.isEmptyCtor = false := by simp [Method.isEmptyCtor, hv]
    obtain ⟨r1, r2⟩ := ret_types hp hnc
    have hres : (protoOf cfg c all m g).result.java = nativeTy g.output := by simp only [protoOf, hv, Result.java]
    have hpar : (protoOf cfg c all m g).params = .object (lit "self") :: (g.input.zip m.argNames).map fun p => Param.arg p.1 p.2 := by
      simp only [protoOf, hv, List.singleton_append]
    have hname : (protoOf cfg c all m g).name = nativeName m g := rfl
    have hthr : (protoOf cfg c all m g).throws = (m.output.map cfg.isResult).getD false := rfl
    rw [hem]
    simp only [Bool.false_eq_true, if_false]
    refine ⟨headOf cfg c (noteOf cfg) m g ++ (((if p.parts.conv.isEmpty then [] else (if p.parts.conv.head? ≠ some '\n' then ['\n'] else []) ++ p.parts.conv) ++ ['\n']) ++
        tailOf p.parts (callOf m g ps)) ++ lit "\n    private " ++ (protoOf cfg c all m g).java (fun _ => []), ?_, ?_⟩
    rotate_left
    · rw [if_neg (by simp)]
      refine ⟨_, hb _ (same_method _) hnc, rfl⟩
    · rw [headOf, hv, Proto.java, hres, hpar, hname, hthr, methodBody_eq, hcall, hfn, r1, r2,
          extArgs_eq cfg m g hl, excSpec_eq, l_private, l_self, hv, List.map_cons, commaJoin_cons, intArgs_eq cfg true m g hl]
      have he : (List.map (Param.java fun _ => []) (List.map (fun p => Param.arg p.1 p.2) (g.input.zip m.argNames))).isEmpty =
          g.input.isEmpty := by
        rw [Bool.eq_iff_iff]
        simp only [List.isEmpty_iff, List.map_eq_nil_iff, List.zip_eq_nil_iff, Method.argNames]
        constructor
        · rintro (h | h)
          · exact h
          · rw [h] at hl; exact List.length_eq_zero_iff.1 (by simpa using hl)
        · exact Or.inl
      rw [he]
      have hx : (if (true && !g.input.isEmpty) = true then ", ".toList else []) = if g.input.isEmpty = true then [] else ", ".toList := by
        cases g.input.isEmpty <;> rfl
      rw [hx]
      simp only [Variant.isMethod, if_true, shortName_eq, Param.java, List.append_assoc, List.cons_append, List.nil_append]
  | ctor =>
    by_cases hd : m.isDummy = true
    · have hem : m.isEmptyCtor = true := by simp [Method.isEmptyCtor, hv, hd]
      rw [hem]
      simp only [if_true]
      refine ⟨_, ?_, rfl⟩
      simp only [hd, if_true, List.append_assoc]
    · have hd' : m.isDummy = false := by simpa using hd
      have hem : m.isEmptyCtor = false := by simp [Method.isEmptyCtor, hv, hd']
      have hres : (protoOf cfg c all m g).result.java = lit "long" := by simp only [protoOf, hv, Result.java]
      have hpar : (protoOf cfg c all m g).params = (g.input.zip m.argNames).map fun p => Param.arg p.1 p.2 := by
        simp only [protoOf, hv, List.nil_append]
      have hname : (protoOf cfg c all m g).name = nativeName m g := rfl
      have hthr : (protoOf cfg c all m g).throws = (m.output.map cfg.isResult).getD false := rfl
      have hinit : nativeName m g = lit "init" := by simp only [nativeName, hv]
      rw [hem]
      simp only [Bool.false_eq_true, if_false, hd']
      refine ⟨headOf cfg c (noteOf cfg) m g ++ ((if p.parts.conv.isEmpty then [] else dropNl p.parts.conv ++ ['\n']) ++
          (lit "        mNativeObj = " ++ callOf m g ps ++ p.parts.fence ++ lit "\n    }")) ++ lit "\n    private " ++ (protoOf cfg c all m g).java (fun _ => []), ?_, ?_⟩
      rotate_left
      · rw [if_neg (by simp)]
        refine ⟨(if p.parts.conv.isEmpty then [] else dropNl p.parts.conv ++ ['\n']) ++
          (lit "        mNativeObj = " ++ callOf m g ps ++ p.parts.fence ++ lit "\n    }"), ?_, rfl⟩
        refine ⟨ts, ps, p.parts.conv, _, p.parts.fence, p.parts.retName, p.parts.convRet, hp.pass, same_dropNl _, hp.fence, hp.nodup,
          hp.fresh, ?_⟩
        rw [hv]
      · have hx : lit "        mNativeObj = " = lit "        " ++ (selfField ++ lit " = ") := by
          rw [selfFieldLit]; unfold lit; decide +kernel
        rw [headOf, hv, Proto.java, hres, hpar, hname, hthr, constructorBody_eq, hcall, ← intArgs_eq' cfg m g hl, hfn, hinit,
          extArgs_eq cfg m g hl, excSpec_eq, l_privateLong, hv, hx]
        simp only [Variant.isMethod, Bool.false_eq_true, if_false, List.append_assoc, List.nil_append]

/-! ### The whole class -/

/-- What is known of the types chosen for one method. -/
structure SigSpec {σ} (tm : TypeMap σ) (m : Method) (g : Sig) : Prop where
  len : g.input.length = m.args.length
  args : ∀ (i : Nat) (a : Text × Text), m.args[i]? = some a → ∃ t s1 s2, g.input[i]? = some t ∧ tm.mapType s1 true a.2 = some (t, s2)
  out : (m.variant = .ctor ∧ g.output = unitTy []) ∨ (m.variant ≠ .ctor ∧ m.output = none ∧ g.output = unitTy (lit "void")) ∨
    (m.variant ≠ .ctor ∧ ∃ ty s1 s2, m.output = some ty ∧ tm.mapType s1 false ty = some (g.output, s2))

theorem mapOutput_ok {σ} {tm : TypeMap σ} {s s' : σ} {m : Method} {o : FTy} (h : mapOutput tm s m = .ok (o, s')) :
    (m.variant = .ctor ∧ o = unitTy []) ∨ (m.variant ≠ .ctor ∧ m.output = none ∧ o = unitTy (lit "void")) ∨
    (m.variant ≠ .ctor ∧ ∃ ty s1 s2, m.output = some ty ∧ tm.mapType s1 false ty = some (o, s2)) := by
  unfold mapOutput at h
  cases hv : m.variant with
  | ctor =>
    rw [hv] at h
    left
    cases ho : m.output with
    | none => rw [ho] at h; cases h; exact ⟨rfl, rfl⟩
    | some ty =>
      rw [ho] at h
      simp only [bind_ok, Prod.exists, Except.ok.injEq, Prod.mk.injEq] at h
      obtain ⟨_, _, _, rfl, _⟩ := h
      exact ⟨rfl, rfl⟩
  | method v =>
    rw [hv] at h
    right
    cases ho : m.output with
    | none => rw [ho] at h; cases h; exact .inl ⟨nofun, rfl, rfl⟩
    | some ty => rw [ho] at h; exact .inr ⟨nofun, ty, _, _, rfl, orErr_ok.1 h⟩
  | static =>
    rw [hv] at h
    right
    cases ho : m.output with
    | none => rw [ho] at h; cases h; exact .inl ⟨nofun, rfl, rfl⟩
    | some ty => rw [ho] at h; exact .inr ⟨nofun, ty, _, _, rfl, orErr_ok.1 h⟩

theorem findSigs_ok {σ} {tm : TypeMap σ} : ∀ (ms : List Method) (s s' : σ) (gs : List Sig),
    findSigs tm s ms = .ok (gs, s') → gs.length = ms.length ∧
      ∀ (i : Nat) (m : Method) (g : Sig), ms[i]? = some m → gs[i]? = some g → SigSpec tm m g := by
  intro ms
  induction ms with
  | nil =>
    intro s s' gs h
    simp only [findSigs, Except.ok.injEq, Prod.mk.injEq] at h
    simp [← h.1]
  | cons m ms ih =>
    intro s s' gs h
    simp only [findSigs, bind_ok, Prod.exists, Except.ok.injEq, Prod.mk.injEq] at h
    obtain ⟨i, s1, h1, o, s2, h2, r, s3, h3, rfl, rfl⟩ := h
    obtain ⟨hl, hi⟩ := ih _ _ _ h3
    refine ⟨by simp [hl], ?_⟩
    intro k m' g hm hg
    cases k with
    | zero =>
      simp only [List.getElem?_cons_zero, Option.some.injEq] at hm hg
      subst hm hg
      obtain ⟨ha, hb⟩ := mapArgs_ok _ _ _ _ h1
      exact ⟨ha, hb, mapOutput_ok h2⟩
    | succ k => exact hi k m' g (by simpa using hm) (by simpa using hg)

theorem SigSpec.has {σ} {tm : TypeMap σ} {m : Method} {g : Sig} (h : SigSpec tm m g) (hc : HasCode tm) : SigHas g := by
  intro t ht k hk
  rcases List.mem_cons.1 ht with rfl | ht
  · rcases h.out with ⟨_, e⟩ | ⟨_, _, e⟩ | ⟨_, ty, s1, s2, _, e⟩
    · rw [e] at hk; cases hk
    · rw [e] at hk; cases hk
    · exact hc _ _ _ _ _ e k hk
  · obtain ⟨i, hi⟩ := List.getElem?_of_mem ht
    have hlt : i < m.args.length := by rw [← h.len]; exact (List.getElem?_eq_some_iff.1 hi).1
    obtain ⟨t', s1, s2, e1, e2⟩ := h.args i m.args[i] (List.getElem?_eq_getElem hlt)
    rw [hi] at e1
    cases e1
    exact hc _ _ _ _ _ e2 k hk

theorem zip_has {σ} {tm : TypeMap σ} {ms : List Method} {gs : List Sig} (hc : HasCode tm)
    (h : ∀ (i : Nat) (m : Method) (g : Sig), ms[i]? = some m → gs[i]? = some g → SigSpec tm m g) :
    ∀ q ∈ ms.zip gs, SigHas q.2 := by
  intro q hq
  obtain ⟨i, hi⟩ := List.getElem?_of_mem hq
  rw [List.getElem?_zip_eq_some] at hi
  exact (h i q.1 q.2 hi.1 hi.2).has hc

theorem symbolOf_eq {cfg : Cfg} {c : Class} {all : List (Method × Sig)} {m : Method} {g : Sig} (ha : ∀ q ∈ all, SigHas q.2)
    (hs : SigHas g) :
    methodSymbol cfg.table cfg.package c.name (all.map fun p => nameInfo p.1 p.2) (nameInfo m g) = symbolOf cfg c all m g := by
  have h1 : (nameInfo m g).nativeName = nativeName m g := funcName_eq hs
  have h2 : (all.map fun p => nameInfo p.1 p.2).map JavaNames.Method.nativeName = all.map fun p => nativeName p.1 p.2 := by
    rw [List.map_map]
    exact List.map_congr_left fun q hq => funcName_eq (ha q hq)
  unfold methodSymbol symbolOf JavaNames.overloaded
  rw [h1, h2]
  rfl

theorem members_ok {cfg : Cfg} {c : Class} : ∀ (ms : List Method) (gs : List Sig) (t : Text), gs.length = ms.length →
    members cfg c ms gs = .ok t → ∃ texts : List Text, texts.length = ms.length ∧ t = texts.flatten ∧
      ∀ (i : Nat) m g, ms[i]? = some m → gs[i]? = some g → ∃ p, prepare cfg m g = .ok p ∧ texts[i]? = some (memberText cfg c m g p) := by
  intro ms
  induction ms with
  | nil =>
    intro gs t _ h
    rw [members] at h
    · cases h; exact ⟨[], rfl, rfl, by simp⟩
    · intro _ _ _ _ e; cases e
  | cons m ms ih =>
    intro gs t hl h
    cases gs with
    | nil => simp at hl
    | cons g gs =>
      simp only [members, bind_ok, Except.ok.injEq] at h
      obtain ⟨p, h1, r, h2, rfl⟩ := h
      obtain ⟨texts, e1, rfl, e3⟩ := ih gs r (by simpa using hl) h2
      refine ⟨memberText cfg c m g p :: texts, by simp [e1], rfl, ?_⟩
      intro i m' g' hm hg
      cases i with
      | zero =>
        simp only [List.getElem?_cons_zero, Option.some.injEq] at hm hg
        subst hm hg
        exact ⟨p, h1, rfl⟩
      | succ i => exact e3 i m' g' (by simpa using hm) (by simpa using hg)

theorem rustLoop_ok {σ} {cfg : Cfg} {tm : TypeMap σ} {c : Class} {all : List (Method × Sig)} : ∀ (l : List (Method × Sig)) (s s' : σ)
    (rs : List RItem), rustLoop cfg tm c all s l = .ok (rs, s') → ∃ rss : List (List RItem), rss.length = l.length ∧ rs = rss.flatten ∧
      ∀ (i : Nat) q, l[i]? = some q → ∃ r sa sb, rss[i]? = some r ∧ rustOf cfg tm sa c all q.1 q.2 = .ok (r, sb) := by
  intro l
  induction l with
  | nil =>
    intro s s' rs h
    simp only [rustLoop, Except.ok.injEq, Prod.mk.injEq] at h
    exact ⟨[], rfl, h.1.symm, by simp⟩
  | cons q l ih =>
    intro s s' rs h
    obtain ⟨m, g⟩ := q
    simp only [rustLoop, bind_ok, Prod.exists, Except.ok.injEq, Prod.mk.injEq] at h
    obtain ⟨r, s1, h1, rs', s2, h2, rfl, rfl⟩ := h
    obtain ⟨rss, e1, rfl, e3⟩ := ih _ _ _ h2
    refine ⟨r :: rss, by simp [e1], rfl, ?_⟩
    intro i q hq
    cases i with
    | zero =>
      simp only [List.getElem?_cons_zero, Option.some.injEq] at hq
      subst hq
      exact ⟨r, _, _, rfl, h1⟩
    | succ i => exact e3 i q (by simpa using hq)

theorem generate_ok {σ} {cfg : Cfg} {tm : TypeMap σ} {s : σ} {c : Class} {out : Out} (h : generate cfg tm s c = .ok out) :
    ∃ gs s1 mt, ∃ (rss : List (List RItem)) (dr : List RItem), findSigs tm s c.methods = .ok (gs, s1) ∧ members cfg c c.methods gs = .ok mt ∧
      (c.hasMethods = true → c.hasCtor = true) ∧
      out.java = javaHead cfg c gs ++ mt ++ (if c.hasCtor then lifeText c else []) ++
        (if !c.hasCtor && !c.hasMethods then utilText c else []) ++ c.foreignCode ++ lit "}" ∧
      rss.length = (c.methods.zip gs).length ∧
      (∀ (i : Nat) q, (c.methods.zip gs)[i]? = some q → ∃ r sa sb, rss[i]? = some r ∧
        rustOf cfg tm sa c (c.methods.zip gs) q.1 q.2 = .ok (r, sb)) ∧
      dtorItems cfg c = .ok dr ∧
      out.rust = (match c.selfDesc with | some d => [RItem.classImpl d.thisTy] | none => []) ++ rss.flatten ++ dr := by
  simp only [generate, generateJava, generateRust, bind_ok, Prod.exists, Except.ok.injEq] at h
  obtain ⟨gs, s1, h1, jv, ⟨mt, h2, h3⟩, rt, ⟨rs, s2, h4, dr, h5, h6⟩, rfl⟩ := h
  obtain ⟨rss, e1, rfl, e3⟩ := rustLoop_ok _ _ _ _ h4
  refine ⟨gs, s1, mt, rss, dr, h1, h2, ?_, ?_, e1, e3, h5, h6.symm⟩
  · intro hm
    split at h3
    · cases h3
    · rename_i hc
      rw [hm] at hc
      simpa using hc
  · split at h3
    · cases h3
    · cases h3; rfl

/-! ### Signatures -/

theorem genStatic_sig {σ} {tm : TypeMap σ} {s s' : σ} {f : Text} {m : Method} {g : Sig} {r : Text} {rs : List RItem}
    (h : genStatic tm s f m g r = .ok (rs, s')) :
    rs.filterMap RItem.signature = [(f, jniParams ++ rustArgs m g, g.output.rust)] := by
  simp only [genStatic, bind_ok, Prod.exists, Except.ok.injEq, Prod.mk.injEq] at h
  obtain ⟨_, _, _, _, _, _, _, _, rfl, _⟩ := h
  rw [List.filterMap_append, support_sig]; rfl

theorem genMethod_sig {σ} {tm : TypeMap σ} {s s' : σ} {c : Class} {v : SelfVar} {f : Text} {m : Method} {g : Sig} {r : Text}
    {rs : List RItem} (h : genMethod tm s c v f m g r = .ok (rs, s')) :
    rs.filterMap RItem.signature = [(f, jniParams ++ (thisW, jlong) :: rustArgs m g, g.output.rust)] := by
  simp only [genMethod, bind_ok, Prod.exists, Except.ok.injEq, Prod.mk.injEq] at h
  obtain ⟨_, _, _, _, _, _, _, _, _, _, _, _, _, _, _, rfl, _⟩ := h
  rw [List.filterMap_append, support_sig]; rfl

theorem genCtor_sig {σ} {tm : TypeMap σ} {s s' : σ} {d : SelfDesc} {f : Text} {m : Method} {g : Sig} {rs : List RItem}
    (h : genCtor tm s d f m g = .ok (rs, s')) :
    rs.filterMap RItem.signature = [(f, jniParams ++ rustArgs m g, jlong)] := by
  simp only [genCtor, bind_ok, Prod.exists, Except.ok.injEq, Prod.mk.injEq] at h
  obtain ⟨_, _, _, _, _, _, _, _, rfl, _⟩ := h
  rw [List.filterMap_append, support_sig]; rfl

theorem rustArgs_eq (m : Method) (g : Sig) :
    rustArgs m g = ((g.input.zip m.argNames).map fun p => Param.arg p.1 p.2).map Param.rust := by
  rw [rustArgs, List.map_map]; rfl

theorem rustOf_sig {σ} {cfg : Cfg} {tm : TypeMap σ} {s s' : σ} {c : Class} {all : List (Method × Sig)} {m : Method} {g : Sig}
    {rs : List RItem} (ha : ∀ q ∈ all, SigHas q.2) (hs : SigHas g) (h : rustOf cfg tm s c all m g = .ok (rs, s')) :
    (symbolOf cfg c all m g).isSome = true ∧
    rs.filterMap RItem.signature = if m.isEmptyCtor then [] else [(protoOf cfg c all m g).rust] := by
  simp only [rustOf, bind_ok, orErr_ok] at h
  obtain ⟨fname, h1, known, _, ret, _, h⟩ := h
  rw [symbolOf_eq ha hs] at h1
  have hsym : (protoOf cfg c all m g).symbol = fname := by simp only [protoOf, h1, Option.getD_some]
  refine ⟨by rw [h1]; rfl, ?_⟩
  cases hv : m.variant with
  | static =>
    rw [hv] at h
    rw [genStatic_sig h, Proto.rust, hsym]
    simp only [Method.isEmptyCtor, hv, protoOf, rustArgs_eq, Result.rust, jniParams]
    simp
  | method v =>
    rw [hv] at h
    rw [genMethod_sig h, Proto.rust, hsym]
    simp only [Method.isEmptyCtor, hv, protoOf, rustArgs_eq, Result.rust, jniParams, thisW, jlong]
    simp [Param.rust]
  | ctor =>
    rw [hv] at h
    simp only at h
    split at h
    · rename_i hd
      cases h
      simp [Method.isEmptyCtor, hv, hd]
    · rename_i hd
      simp only [bind_ok, orErr_ok] at h
      obtain ⟨d, _, h⟩ := h
      rw [genCtor_sig h, Proto.rust, hsym]
      simp only [Method.isEmptyCtor, hv, protoOf, rustArgs_eq, Result.rust, jniParams, jlong]
      simp [hd]

theorem hasCtor_iff (c : Class) : c.hasCtor = true ↔ ∃ m ∈ c.methods, m.variant = .ctor := by
  simp [Class.hasCtor, List.any_eq_true]

theorem hasMethods_iff (c : Class) : c.hasMethods = true ↔ ∃ m ∈ c.methods, m.variant.isMethod = true := by
  simp [Class.hasMethods, List.any_eq_true]

theorem lit_append (a b : String) : lit (a ++ b) = lit a ++ lit b := by
  unfold lit
  exact String.toList_append

theorem objectPart_eq {cfg : Cfg} {c : Class} (h : c.hasMethods = true → c.hasCtor = true) :
    (if c.hasCtor then lifeText c else []) ++ (if !c.hasCtor && !c.hasMethods then utilText c else []) = objectPart cfg c := by
  unfold objectPart
  by_cases hc : c.hasCtor = true
  · have hx := (hasCtor_iff c).1 hc
    rw [if_pos hx, deleteProtos, if_pos hx, hc]
    have e : lifeText c = lit ("\n    public synchronized void delete() {\n        if (mNativeObj != 0) {\n            do_delete(mNativeObj);\n" ++
      "            mNativeObj = 0;\n       }\n    }\n    @Override\n    protected void finalize() throws Throwable {\n" ++
      "        try {\n            delete();\n        }\n        finally {\n             super.finalize();\n        }\n    }\n") ++
      (lit "    private " ++ (lit "static native " ++ (lit "void" ++ (lit " " ++ (lit "do_delete" ++ (lit "(" ++ ((lit "long " ++ lit "me") ++
        (lit ")" ++ (lit ";\n" ++ (lit "    /*package*/ " ++ (c.name ++ lit ("(InternalPointerMarker marker, long ptr) {\n        assert marker == InternalPointerMarker.RAW_PTR;\n" ++
      "        this.mNativeObj = ptr;\n    }\n    /*package*/ long mNativeObj;\n")))))))))))) := by
      unfold lifeText
      have e1 : lit ("\n    public synchronized void delete() {\n        if (mNativeObj != 0) {\n            do_delete(mNativeObj);\n" ++
        "            mNativeObj = 0;\n       }\n    }\n    @Override\n    protected void finalize() throws Throwable {\n" ++
        "        try {\n            delete();\n        }\n        finally {\n             super.finalize();\n        }\n    }\n" ++
        "    private static native void do_delete(long me);\n    /*package*/ ") =
        lit ("\n    public synchronized void delete() {\n        if (mNativeObj != 0) {\n            do_delete(mNativeObj);\n" ++
        "            mNativeObj = 0;\n       }\n    }\n    @Override\n    protected void finalize() throws Throwable {\n" ++
        "        try {\n            delete();\n        }\n        finally {\n             super.finalize();\n        }\n    }\n") ++
        (lit "    private " ++ (lit "static native " ++ (lit "void" ++ (lit " " ++ (lit "do_delete" ++ (lit "(" ++ ((lit "long " ++ lit "me") ++
        (lit ")" ++ (lit ";\n" ++ lit "    /*package*/ "))))))))) := by
        rw [lit_append]
        congr 1
        unfold lit; decide
      rw [e1]
      simp only [List.append_assoc]
    rw [e]
    simp only [if_true, Bool.not_true, Bool.false_and, Bool.false_eq_true, if_false, List.append_nil, Proto.java, Result.java, Param.java,
      List.map_cons, List.map_nil, commaJoin, List.flatten_cons, List.flatten_nil, List.append_assoc, List.nil_append]
  · have hx : ¬ ∃ m ∈ c.methods, m.variant = .ctor := fun h => hc ((hasCtor_iff c).2 h)
    have hc' : c.hasCtor = false := by simpa using hc
    have hm : c.hasMethods = false := by
      cases hm : c.hasMethods with
      | false => rfl
      | true => rw [h hm] at hc'; cases hc'
    rw [if_neg hx, hc', hm]
    simp only [Bool.false_eq_true, if_false, Bool.not_false, Bool.and_self, if_true, List.nil_append]
    rfl

theorem dtor_sig {cfg : Cfg} {c : Class} {dr : List RItem} (h : dtorItems cfg c = .ok dr) :
    dr.filterMap RItem.signature = (deleteProtos cfg c).map Proto.rust ∧
    (c.hasCtor = true → (destructorSymbol cfg.table cfg.package c.name).isSome = true) := by
  unfold dtorItems at h
  by_cases hc : c.hasCtor = true
  · rw [if_pos hc] at h
    simp only [bind_ok, orErr_ok, Except.ok.injEq] at h
    obtain ⟨d, hd, f, hf, rfl⟩ := h
    rw [deleteProtos, if_pos ((hasCtor_iff c).1 hc), hf]
    exact ⟨rfl, fun _ => rfl⟩
  · rw [if_neg hc] at h
    cases h
    rw [deleteProtos, if_neg (fun h => hc ((hasCtor_iff c).2 h))]
    exact ⟨rfl, fun h => absurd h hc⟩

theorem zip_get {α β} {l : List α} {k : List β} {i : Nat} {a : α} {b : β} (h1 : l[i]? = some a) (h2 : k[i]? = some b) :
    (l.zip k)[i]? = some (a, b) := by
  rw [List.getElem?_zip_eq_some]; exact ⟨h1, h2⟩

/-! ## C62 -/

/-- **C62**: the Rust functions exported for a class are exactly these, in this order: one per method in the order of the
declaration (none for a constructor that only says that there is none), and the function that frees an object (if there
is a constructor).  Each has the name of C30, the two JNI parameters, and the parameters and the result shown by `Proto.rust`. -/
theorem C62_rust_functions {σ} (cfg : Cfg) (tm : TypeMap σ) (s : σ) (c : Class) (out : Out) (hc : HasCode tm)
    (h : generate cfg tm s c = .ok out) :
    ∃ gs s1, findSigs tm s c.methods = .ok (gs, s1) ∧
      out.rust.filterMap RItem.signature = (methodProtos cfg c gs ++ deleteProtos cfg c).map Proto.rust ∧
      (∀ q ∈ c.methods.zip gs, (symbolOf cfg c (c.methods.zip gs) q.1 q.2).isSome = true) ∧
      ((∃ m ∈ c.methods, m.variant = .ctor) → (destructorSymbol cfg.table cfg.package c.name).isSome = true) := by
  obtain ⟨gs, s1, mt, rss, dr, h1, h2, h3, h4, h5, h6, h7, h8⟩ := generate_ok h
  obtain ⟨hl, hsig⟩ := findSigs_ok _ _ _ _ h1
  have ha := zip_has hc hsig
  obtain ⟨d1, d2⟩ := dtor_sig h7
  refine ⟨gs, s1, h1, ?_, ?_, fun hx => d2 ((hasCtor_iff c).2 hx)⟩
  · rw [h8, List.filterMap_append, List.filterMap_append, d1, signatures_flatten, List.map_append]
    have e0 : (match c.selfDesc with | some d => [RItem.classImpl d.thisTy] | none => []).filterMap RItem.signature = [] := by
      cases c.selfDesc <;> rfl
    rw [e0, List.nil_append]
    congr 1
    rw [methodProtos]
    generalize hall : c.methods.zip gs = all at h5 h6 ha ⊢
    have key : ∀ (l : List (Method × Sig)) (rss : List (List RItem)), rss.length = l.length →
        (∀ q ∈ l, SigHas q.2) →
        (∀ (i : Nat) q, l[i]? = some q → ∃ r sa sb, rss[i]? = some r ∧ rustOf cfg tm sa c all q.1 q.2 = .ok (r, sb)) →
        (rss.map fun r => r.filterMap RItem.signature).flatten =
          ((l.filter fun p => !p.1.isEmptyCtor).map fun p => protoOf cfg c all p.1 p.2).map Proto.rust := by
      intro l
      induction l with
      | nil => intro rss hl _ _; cases rss <;> simp_all
      | cons q l ih =>
        intro rss hl hq hr
        cases rss with
        | nil => simp at hl
        | cons r rss =>
          obtain ⟨r', sa, sb, e1, e2⟩ := hr 0 q rfl
          cases e1
          have e3 := (rustOf_sig ha (hq q List.mem_cons_self) e2).2
          rw [List.map_cons, List.flatten_cons, e3,
            ih rss (by simpa using hl) (fun q hx => hq q (List.mem_cons_of_mem _ hx)) (fun i q hq => hr (i + 1) q (by simpa using hq)),
            List.filter_cons]
          cases q.1.isEmptyCtor <;> simp
    exact key all rss h5 ha h6
  · intro q hq
    obtain ⟨i, hi⟩ := List.getElem?_of_mem hq
    obtain ⟨r, sa, sb, _, e2⟩ := h6 i q hi
    exact (rustOf_sig ha (ha q hq) e2).1

/-- **C62**: the Java file is: the head, one member per method in the order of the declaration, what is needed for objects, the
user's own code.  The member of a method declares exactly the native function of that method (with the same name, parameters
and result as the exported Rust function, `Proto.java`), and — if the method is not itself native — has a body that converts
the arguments, calls this native function, and converts the result (`MemberSpec`).  (Semicolons are not white space, and every
Java conversion code of the type map contains a statement; see the finding for what happens otherwise.) -/
theorem C62_java_class {σ} (cfg : Cfg) (tm : TypeMap σ) (s : σ) (c : Class) (out : Out) (hc : HasCode tm) (hw : cfg.ws ';' = false)
    (h : generate cfg tm s c = .ok out) :
    ∃ (gs : List Sig) (s1 : σ) (texts : List Text), findSigs tm s c.methods = .ok (gs, s1) ∧ texts.length = c.methods.length ∧
      out.java = fileHead cfg c gs ++ texts.flatten ++ objectPart cfg c ++ c.foreignCode ++ lit "}" ∧
      ∀ (i : Nat) (m : Method) (g : Sig) (t : Text), c.methods[i]? = some m → gs[i]? = some g → texts[i]? = some t →
        MemberSpec cfg c (c.methods.zip gs) m g t := by
  obtain ⟨gs, s1, mt, rss, dr, h1, h2, h3, h4, h5, h6, h7, h8⟩ := generate_ok h
  obtain ⟨hl, hsig⟩ := findSigs_ok _ _ _ _ h1
  obtain ⟨texts, e1, rfl, e3⟩ := members_ok _ _ _ hl h2
  refine ⟨gs, s1, texts, h1, e1, ?_, ?_⟩
  · rw [h4, ← objectPart_eq h3]
    have : javaHead cfg c gs = fileHead cfg c gs := rfl
    rw [this]
    simp only [List.append_assoc]
  · intro i m g t hm hg ht
    obtain ⟨p, hp, e4⟩ := e3 i m g hm hg
    rw [e4] at ht
    cases ht
    have hs := hsig i m g hm hg
    exact member_ok _ hs.len (hs.has hc) hw hp

/-- **C62**: position by position, the parameter of a native function in Java and in Rust are the two names of one type, the
one the type map has found for the declared argument; the object comes first in methods and nowhere else; the result likewise
(`void`/`()` when nothing is returned, `long`/`jlong` for constructors). -/
theorem C62_one_type_two_names {σ} (cfg : Cfg) (tm : TypeMap σ) (s s1 : σ) (c : Class) (gs : List Sig)
    (h : findSigs tm s c.methods = .ok (gs, s1)) (i : Nat) (m : Method) (hm : c.methods[i]? = some m) :
    ∃ g, gs[i]? = some g ∧
      (let p := protoOf cfg c (c.methods.zip gs) m g
       let self := if m.variant.isMethod then 1 else 0
       p.params.length = self + m.args.length ∧
       (∀ (j : Nat) (n ty : Text), m.args[j]? = some (n, ty) → ∃ t sa sb, tm.mapType sa true ty = some (t, sb) ∧
         (p.params.map (Param.java fun _ => []))[self + j]? = some (nativeTy t ++ ' ' :: n) ∧
         (p.params.map Param.rust)[self + j]? = some (n, t.rust)) ∧
       (∀ v, m.variant = .method v → (p.params.map (Param.java fun _ => []))[0]? = some (lit "long " ++ lit "self") ∧
         (p.params.map Param.rust)[0]? = some (lit "this", lit "jlong")) ∧
       (m.variant = .ctor → p.result.java = lit "long" ∧ p.result.rust = lit "jlong") ∧
       (m.variant ≠ .ctor → m.output = none → p.result.java = lit "void" ∧ p.result.rust = lit "()") ∧
       (∀ ty, m.variant ≠ .ctor → m.output = some ty → ∃ t sa sb, tm.mapType sa false ty = some (t, sb) ∧
         p.result.java = nativeTy t ∧ p.result.rust = t.rust)) := by
  obtain ⟨hl, hall⟩ := findSigs_ok _ _ _ _ h
  have hi : i < gs.length := by rw [hl]; exact (List.getElem?_eq_some_iff.1 hm).1
  refine ⟨gs[i], List.getElem?_eq_getElem hi, ?_⟩
  have hg := hall i m gs[i] hm (List.getElem?_eq_getElem hi)
  generalize gs[i] = g at hg
  generalize c.methods.zip gs = all
  obtain ⟨hlen, hargs, hout⟩ := hg
  have hz : (g.input.zip m.argNames).length = m.args.length := by
    rw [List.length_zip, Method.argNames, List.length_map]; omega
  have hj : ∀ (j : Nat) (n ty : Text), m.args[j]? = some (n, ty) → ∃ t sa sb, tm.mapType sa true ty = some (t, sb) ∧
      ((g.input.zip m.argNames).map fun p => Param.arg p.1 p.2)[j]? = some (Param.arg t n) := by
    intro j n ty ha
    obtain ⟨t, sa, sb, h1, h2⟩ := hargs j (n, ty) ha
    refine ⟨t, sa, sb, h2, ?_⟩
    have : (g.input.zip m.argNames)[j]? = some (t, n) := zip_get h1 (by rw [Method.argNames, List.getElem?_map, ha]; rfl)
    rw [List.getElem?_map, this]; rfl
  refine ⟨?_, ?_, ?_, ?_, ?_, ?_⟩
  · cases hv : m.variant with
    | method v => simp only [protoOf, hv, Variant.isMethod, if_true, List.length_append, List.length_map, hz]; rfl
    | static => simp only [protoOf, hv, Variant.isMethod, Bool.false_eq_true, if_false, List.length_append, List.length_map, hz]; rfl
    | ctor => simp only [protoOf, hv, Variant.isMethod, Bool.false_eq_true, if_false, List.length_append, List.length_map, hz]; rfl
  · intro j n ty ha
    obtain ⟨t, sa, sb, h1, h2⟩ := hj j n ty ha
    refine ⟨t, sa, sb, h1, ?_⟩
    have h3 : (protoOf cfg c all m g).params[(if m.variant.isMethod then 1 else 0) + j]? = some (Param.arg t n) := by
      cases hv : m.variant with
      | method v =>
        simp only [protoOf, hv, Variant.isMethod, if_true, List.singleton_append]
        rw [Nat.add_comm, List.getElem?_cons_succ]
        exact h2
      | static =>
        simp only [protoOf, hv, Variant.isMethod, Bool.false_eq_true, if_false, List.nil_append, Nat.zero_add]
        exact h2
      | ctor =>
        simp only [protoOf, hv, Variant.isMethod, Bool.false_eq_true, if_false, List.nil_append, Nat.zero_add]
        exact h2
    rw [List.getElem?_map, List.getElem?_map, h3]
    exact ⟨rfl, rfl⟩
  · intro v hv
    simp only [protoOf, hv, List.singleton_append, List.map_cons, List.getElem?_cons_zero]
    exact ⟨rfl, rfl⟩
  · intro hv
    simp only [protoOf, hv]
    exact ⟨rfl, rfl⟩
  · intro hv ho
    rcases hout with ⟨h1, _⟩ | ⟨_, _, h2⟩ | ⟨_, ty, _, _, h1, _⟩
    · exact absurd h1 hv
    · have : (protoOf cfg c all m g).result = .value g.output := by simp only [protoOf]
      rw [this, h2]
      exact ⟨rfl, rfl⟩
    · rw [ho] at h1; cases h1
  · intro ty hv ho
    rcases hout with ⟨h1, _⟩ | ⟨_, h1, _⟩ | ⟨_, ty', sa, sb, h1, h2⟩
    · exact absurd h1 hv
    · rw [ho] at h1; cases h1
    · rw [ho] at h1
      cases h1
      refine ⟨g.output, sa, sb, h2, ?_⟩
      have : (protoOf cfg c all m g).result = .value g.output := by simp only [protoOf]
      rw [this]
      exact ⟨rfl, rfl⟩

/-- What the `long` of a Java object points to: the Rust object itself, also when the class keeps it in a `Box`, `Rc` or `Arc`. -/
def pointsTo (c : Class) : Text :=
  match c.selfDesc with
  | some d => (match d.holder with | .smart _ inner => inner | .plain ty => ty)
  | none => lit "()"

theorem pointsTo_eq (c : Class) : c.pointee = pointsTo c := by
  unfold Class.pointee pointsTo
  cases c.selfDesc with
  | none => rfl
  | some d =>
    simp only [Option.map_some, Option.getD_some]
    cases d.holder <;> rfl

theorem rustKnown_this {m : Method} {known : List Text} (h : rustKnown m = .ok known) (hv : m.variant.isMethod = true) :
    thisW ∉ m.argNames := by
  unfold rustKnown at h
  rw [hv, if_pos rfl] at h
  split at h
  · cases h
  · rename_i hc; simpa using hc

/-- **C62**: what a call of an exported function does.  For every method of the class (except a constructor without
function) there is an exported Rust function with the method's native signature such that, whatever the conversions, the user's
functions and inline blocks do to the state of the program: called with the JNI environment, the class and one value per
parameter it converts the arguments from left to right, each by the code the type map gave for exactly the pair of types of *its*
position; runs the user's function (or block) once, on the converted arguments, preceded — in methods — by the converted
reference (shared for `&self`, unique for `&mut self`) to the object passed first; converts its result, or moves the new object to the heap (for a constructor that returns
`Result` the conversion itself does that or throws); and does nothing else.  (Arguments have different names, as Rust
requires.) -/
theorem C62_values {σ} (cfg : Cfg) (tm : TypeMap σ) (s : σ) (c : Class) (out : Out) (hc : HasCode tm)
    (h : generate cfg tm s c = .ok out) (i : Nat) (m : Method) (hm : c.methods[i]? = some m) (hd : m.isEmptyCtor = false)
    (hnd : m.argNames.Nodup) :
    ∃ gs s1 g f, findSigs tm s c.methods = .ok (gs, s1) ∧ gs[i]? = some g ∧ RItem.fn f ∈ out.rust ∧
      (f.name, f.params, f.ret) = (protoOf cfg c (c.methods.zip gs) m g).rust ∧
      ∃ codes, ArgCodes tm m g codes ∧ ∀ (S V : Type) (w : World S V) (env : Text → V) (je jc : V) (vs : List V),
        vs.length = m.args.length →
        (m.variant = .static → ∃ ko, OutCode tm m g ko ∧
          f.run w env (je :: jc :: vs) = do
            let xs ← convAll w codes vs
            let r ← userCode w m xs
            outConv w ko r) ∧
        (∀ v, m.variant = .method v → ∃ ko kt, OutCode tm m g ko ∧
          (∃ fr tt sa r d sb, SelfRef v (pointsTo c) c.selfTy fr tt ∧ RStmt.refThis fr ∈ f.body ∧
            tm.convert sa fr tt (lit "this") r = some (d, kt, sb)) ∧
          ∀ obj, f.run w env (je :: jc :: obj :: vs) = do
            let xs ← convAll w codes vs
            let o ← w.deref obj
            let o ← w.conv kt o
            let r ← userCode w m (o :: xs)
            outConv w ko r) ∧
        (m.variant = .ctor → ∃ desc kt, c.selfDesc = some desc ∧
          (∃ sa r d sb, tm.convert sa desc.ctorRet (match desc.okTy with | some _ => lit "jlong" | none => desc.ctorRet) (lit "this") r =
            some (d, kt, sb)) ∧
          f.run w env (je :: jc :: vs) = do
            let xs ← convAll w codes vs
            let r ← userCode w m xs
            let r ← w.conv kt r
            match desc.okTy with
            | some _ => pure r
            | none => w.toHeap desc.holder r) := by
  obtain ⟨gs, s1, mt, rss, dr, h1, h2, h3, h4, h5, h6, h7, h8⟩ := generate_ok h
  obtain ⟨hl, hsig⟩ := findSigs_ok _ _ _ _ h1
  have ha := zip_has hc hsig
  have hi : i < gs.length := by rw [hl]; exact (List.getElem?_eq_some_iff.1 hm).1
  have hg : gs[i]? = some gs[i] := List.getElem?_eq_getElem hi
  generalize gs[i] = g at hg
  have hlen := (hsig i m g hm hg).len
  obtain ⟨rs, sa, sb, hr0, hru⟩ := h6 i (m, g) (zip_get hm hg)
  have hrin : ∀ x ∈ rs, x ∈ out.rust := by
    intro x hx
    rw [h8]
    exact List.mem_append_left _ (List.mem_append_right _ (List.mem_flatten.2 ⟨rs, List.mem_of_getElem? hr0, hx⟩))
  have hsg := (rustOf_sig ha ((hsig i m g hm hg).has hc) hru).2
  rw [hd, if_neg Bool.false_ne_true] at hsg
  have hnames : (rustArgs m g).map (·.1) = m.argNames := rustArgs_names m g hlen
  have hal : m.argNames.length = m.args.length := by simp [Method.argNames]
  simp only [rustOf, bind_ok, orErr_ok] at hru
  obtain ⟨fname, _, known, hk, ret, _, hru⟩ := hru
  cases hv : m.variant with
  | static =>
    simp only [hv, genStatic, bind_ok, Prod.exists, Except.ok.injEq, Prod.mk.injEq] at hru
    obtain ⟨dOut, cOut, s2, ho, dIn, cIn, s3, hin, rfl, _⟩ := hru
    obtain ⟨codes, e1, rfl⟩ := inputs_ok hlen hin
    obtain ⟨ko, e2, rfl⟩ := output_ok ho
    rw [List.filterMap_append, support_sig] at hsg
    simp only [List.filterMap_cons, RItem.signature, List.filterMap_nil, List.nil_append, List.cons.injEq, and_true] at hsg
    refine ⟨gs, s1, g, _, h1, hg, hrin _ (List.mem_append_right _ (List.mem_singleton.2 rfl)), hsg, codes,
      e1, fun S V w env je jc vs hvs => ⟨fun _ => ⟨ko, e2, ?_⟩, fun _ hc => (by cases hc), fun hc => (by cases hc)⟩⟩
    have hb := bindAll_names m.argNames vs (Exported.set (Exported.set env (lit "env") je) (lit "_") jc) hnd (by rw [hal]; exact hvs)
    simp only [RustFn.run, jniParams, List.cons_append, List.nil_append, List.map_cons, hnames, bindAll]
    exact run_static w _ m codes ko _ _ vs (by rw [hv]; rfl) hnd (by rw [hal]; exact e1.1) hb
  | method v =>
    simp only [hv, genMethod, bind_ok, orErr_ok, Prod.exists, Except.ok.injEq, Prod.mk.injEq] at hru
    obtain ⟨dIn, cIn, s2, hin, dOut, cOut, s3, ho, fr, tt, hty, dT, kt, s4, hT, rfl, _⟩ := hru
    obtain ⟨codes, e1, rfl⟩ := inputs_ok hlen hin
    obtain ⟨ko, e2, rfl⟩ := output_ok ho
    rw [List.filterMap_append, support_sig] at hsg
    simp only [List.filterMap_cons, RItem.signature, List.filterMap_nil, List.nil_append, List.cons.injEq, and_true] at hsg
    refine ⟨gs, s1, g, _, h1, hg, hrin _ (List.mem_append_right _ (List.mem_singleton.2 rfl)), hsg, codes,
      e1, fun S V w env je jc vs hvs => ⟨fun hc => (by cases hc), fun v' hv' => ?_, fun hc => (by cases hc)⟩⟩
    cases hv'
    refine ⟨ko, kt, e2, ⟨fr, tt, _, _, _, _, suitable_ref (pointsTo_eq c ▸ hty), by simp, hT⟩, fun obj => ?_⟩
    have hthis : thisW ∉ m.argNames := rustKnown_this hk (by rw [hv]; rfl)
    have hb := bindAll_names m.argNames vs (Exported.set (Exported.set (Exported.set env (lit "env") je) (lit "_") jc) thisW obj) hnd
      (by rw [hal]; exact hvs)
    have hbt := bindAll_other m.argNames vs (Exported.set (Exported.set (Exported.set env (lit "env") je) (lit "_") jc) thisW obj) thisW hthis
    rw [set_same] at hbt
    simp only [RustFn.run, jniParams, List.cons_append, List.nil_append, List.map_cons, hnames, bindAll]
    exact run_method w _ m codes ko _ _ _ kt obj vs (by rw [hv]; rfl) hnd (by rw [hal]; exact e1.1) hthis hb hbt
  | ctor =>
    have hdm : m.isDummy = false := by simpa [Method.isEmptyCtor, hv] using hd
    simp only [hv, hdm, Bool.false_eq_true, if_false, genCtor, bind_ok, orErr_ok, Prod.exists, Except.ok.injEq, Prod.mk.injEq] at hru
    obtain ⟨d, hsd, dIn, cIn, s2, hin, dT, kt, s3, hT, rfl, _⟩ := hru
    obtain ⟨codes, e1, rfl⟩ := inputs_ok hlen hin
    rw [List.filterMap_append, support_sig] at hsg
    simp only [List.filterMap_cons, RItem.signature, List.filterMap_nil, List.nil_append, List.cons.injEq, and_true] at hsg
    have htgt : d.target = match d.okTy with | some _ => lit "jlong" | none => d.ctorRet := by
      unfold SelfDesc.target SelfDesc.thisTy
      cases d.okTy <;> rfl
    refine ⟨gs, s1, g, _, h1, hg, hrin _ (List.mem_append_right _ (List.mem_singleton.2 rfl)), hsg, codes,
      e1, fun S V w env je jc vs hvs => ⟨fun hc => (by cases hc), fun _ hc => (by cases hc), fun _ =>
        ⟨d, kt, hsd, ⟨_, _, _, _, by rw [← htgt]; exact hT⟩, ?_⟩⟩⟩
    have hb := bindAll_names m.argNames vs (Exported.set (Exported.set env (lit "env") je) (lit "_") jc) hnd (by rw [hal]; exact hvs)
    simp only [RustFn.run, jniParams, List.cons_append, List.nil_append, List.map_cons, hnames, bindAll]
    have hrun := run_ctor w _ m codes m.realOutput kt d.box vs (by rw [hv]; rfl) hnd (by rw [hal]; exact e1.1) hb
    refine hrun.trans ?_
    unfold SelfDesc.box
    cases d.okTy <;> rfl

/-- **C62**: what the function that frees an object does: it takes the object behind the pointer (read as a pointer to what was put on
the heap) back from the heap and drops it, and nothing else. -/
theorem C62_delete {σ} (cfg : Cfg) (tm : TypeMap σ) (s : σ) (c : Class) (out : Out) (h : generate cfg tm s c = .ok out) :
    ∀ p ∈ deleteProtos cfg c, ∃ f d, RItem.fn f ∈ out.rust ∧ (f.name, f.params, f.ret) = p.rust ∧ c.selfDesc = some d ∧
      RStmt.refThis (lit "*mut " ++ pointsTo c) ∈ f.body ∧
      ∀ (S V : Type) (w : World S V) (env : Text → V) (je jc obj : V), f.run w env [je, jc, obj] = (do
        let o ← w.deref obj
        let o ← w.fromHeap d.holder false o
        let _ ← w.drop o
        pure w.unit) := by
  obtain ⟨gs, s1, mt, rss, dr, h1, h2, h3, h4, h5, h6, h7, h8⟩ := generate_ok h
  intro p hp
  unfold deleteProtos at hp
  split at hp
  · rename_i hx
    rw [List.mem_singleton] at hp
    subst hp
    unfold dtorItems at h7
    rw [if_pos ((hasCtor_iff c).2 hx)] at h7
    simp only [bind_ok, orErr_ok, Except.ok.injEq] at h7
    obtain ⟨d, hd, f, hf, rfl⟩ := h7
    refine ⟨_, d, by rw [h8]; exact List.mem_append_right _ (List.mem_singleton.2 rfl), ?_, hd, by rw [pointsTo_eq]; exact List.mem_cons_self, fun S V w env je jc obj => ?_⟩
    · rw [hf]; rfl
    · simp [RustFn.run, jniParams, bindAll, runBody, tailValue, exec, set_same]
  · cases hp

/-- **C62**: the exported functions are exactly those of C50, so that theorem tells when no two of them have the same symbol, and
C30 tells that the JVM looks for each under the name it is exported with. -/
theorem C62_symbols {σ} (cfg : Cfg) (tm : TypeMap σ) (s : σ) (c : Class) (out : Out) (hc : HasCode tm)
    (h : generate cfg tm s c = .ok out) : ∃ gs s1, findSigs tm s c.methods = .ok (gs, s1) ∧
      JavaNames.classSymbols cfg.table cfg.package c.name ((c.methods.zip gs).map fun q => nameInfo q.1 q.2) =
        some ((methodProtos cfg c gs ++ deleteProtos cfg c).map (·.symbol)) := by
  obtain ⟨gs, s1, h1, h2, h3, h4⟩ := C62_rust_functions cfg tm s c out hc h
  obtain ⟨hl, hsig⟩ := findSigs_ok _ _ _ _ h1
  have ha := zip_has hc hsig
  refine ⟨gs, s1, h1, ?_⟩
  have hfst : (c.methods.zip gs).map (·.1) = c.methods := List.map_fst_zip (by omega)
  have hany : ((c.methods.zip gs).map fun q => nameInfo q.1 q.2).any (fun x => decide (x.variant = .constructor)) = true ↔
      ∃ m ∈ c.methods, m.variant = .ctor := by
    rw [List.any_map, List.any_eq_true]
    constructor
    · rintro ⟨q, hq, he⟩
      refine ⟨q.1, by rw [← hfst]; exact List.mem_map.2 ⟨q, hq, rfl⟩, ?_⟩
      simp only [Function.comp, nameInfo, decide_eq_true_eq] at he
      cases hv : q.1.variant <;> simp_all [variantJ]
    · rintro ⟨m, hm, hv⟩
      rw [← hfst, List.mem_map] at hm
      obtain ⟨q, hq, rfl⟩ := hm
      exact ⟨q, hq, by simp [Function.comp, nameInfo, hv, variantJ]⟩
  have hms : ∀ l : List (Method × Sig), (∀ q ∈ l, q ∈ c.methods.zip gs) →
      JavaNames.methodSymbols cfg.table cfg.package c.name ((c.methods.zip gs).map fun q => nameInfo q.1 q.2) (l.map fun q => nameInfo q.1 q.2) =
        some (((l.filter fun p => !p.1.isEmptyCtor).map fun p => protoOf cfg c (c.methods.zip gs) p.1 p.2).map (·.symbol)) := by
    intro l
    induction l with
    | nil => intro _; rfl
    | cons q l ih =>
      intro hq
      have hq0 := hq q List.mem_cons_self
      obtain ⟨sy, hsy⟩ := Option.isSome_iff_exists.1 (h3 q hq0)
      rw [List.map_cons, JavaNames.methodSymbols, symbolOf_eq ha (ha q hq0), hsy, ih (fun q hx => hq q (List.mem_cons_of_mem _ hx)),
        List.filter_cons]
      have hps : (protoOf cfg c (c.methods.zip gs) q.1 q.2).symbol = sy := by simp only [protoOf, hsy, Option.getD_some]
      have hem : (decide ((nameInfo q.1 q.2).variant = .constructor) && (nameInfo q.1 q.2).dummy) = q.1.isEmptyCtor := by
        have hx : ∀ v : Variant, decide (variantJ v = .constructor) = decide (v = .ctor) := by intro v; cases v <;> rfl
        exact congrArg (· && q.1.isDummy) (hx q.1.variant)
      simp only [Option.bind_eq_bind, Option.bind_some, Option.pure_def, hem]
      cases q.1.isEmptyCtor <;> simp [hps]
  rw [JavaNames.classSymbols, hms _ (fun _ h => h)]
  simp only [Option.bind_eq_bind, Option.bind_some, List.map_append]
  rw [deleteProtos]
  by_cases hx : ∃ m ∈ c.methods, m.variant = .ctor
  · obtain ⟨d, hd⟩ := Option.isSome_iff_exists.1 (h4 hx)
    rw [if_pos (hany.2 hx), if_pos hx, hd]
    rfl
  · rw [if_neg (fun h => hx (hany.1 h)), if_neg hx]
    simp [methodProtos]

/-- **C62**: the first thing generated in Rust for a class with objects is the implementation of the trait that puts objects on the heap, for
the type the constructors make — the `T` of `Result<T, E>` if they return a result. -/
theorem C62_class_trait {σ} (cfg : Cfg) (tm : TypeMap σ) (s : σ) (c : Class) (out : Out) (h : generate cfg tm s c = .ok out)
    (d : SelfDesc) (hd : c.selfDesc = some d) :
    ∃ rest, out.rust = RItem.classImpl (match d.okTy with | some t => t | none => d.ctorRet) :: rest := by
  obtain ⟨gs, s1, mt, rss, dr, _, _, _, _, _, _, _, h8⟩ := generate_ok h
  refine ⟨rss.flatten ++ dr, ?_⟩
  rw [h8, hd]
  simp only [SelfDesc.thisTy, List.append_assoc, List.cons_append, List.nil_append]
  cases d.okTy <;> rfl

/-- **C62**: what is accepted.  A class with methods has a constructor; a class with a constructor knows the type of its objects; no
method takes an argument called `mNativeObj` or `this`, or takes its object by value; with generated reachability fences no
method has more arguments to protect than the largest fence takes. -/
theorem C62_accepted {σ} (cfg : Cfg) (tm : TypeMap σ) (s : σ) (c : Class) (out : Out) (h : generate cfg tm s c = .ok out) :
    ((∃ m ∈ c.methods, m.variant.isMethod = true) → ∃ m ∈ c.methods, m.variant = .ctor) ∧
    ((∃ m ∈ c.methods, m.variant = .ctor) → c.selfDesc.isSome = true) ∧
    ∃ gs s1, findSigs tm s c.methods = .ok (gs, s1) ∧ ∀ (i : Nat) m g, c.methods[i]? = some m → gs[i]? = some g →
      (∀ v, m.variant = .method v → lit "mNativeObj" ∉ m.argNames ∧ lit "this" ∉ m.argNames ∧ (v = .rptr ∨ v = .rptrMut)) ∧
      (∀ n, cfg.fence = .gen n → (protectedArgs ((g.input.map (·.info)).zip m.argNames)).length ≤ n) := by
  obtain ⟨gs, s1, mt, rss, dr, h1, h2, h3, h4, h5, h6, h7, h8⟩ := generate_ok h
  obtain ⟨hl, hsig⟩ := findSigs_ok _ _ _ _ h1
  obtain ⟨texts, e1, rfl, e3⟩ := members_ok _ _ _ hl h2
  refine ⟨?_, ?_, gs, s1, h1, ?_⟩
  · intro hm
    exact (hasCtor_iff c).1 (h3 ((hasMethods_iff c).2 hm))
  · intro hm
    unfold dtorItems at h7
    rw [if_pos ((hasCtor_iff c).2 hm)] at h7
    simp only [bind_ok, orErr_ok] at h7
    obtain ⟨d, hd, _⟩ := h7
    rw [hd]; rfl
  · intro i m g hm hg
    obtain ⟨p, hp, -⟩ := e3 i m g hm hg
    obtain ⟨rs, sa, sb, hr0, hru⟩ := h6 i (m, g) (zip_get hm hg)
    constructor
    · intro v hv
      have hvm : m.variant.isMethod = true := by rw [hv]; rfl
      simp only [prepare, bind_ok] at hp
      obtain ⟨known, hk, _⟩ := hp
      simp only [rustOf, bind_ok, hv, genMethod, Prod.exists] at hru
      obtain ⟨_, _, known2, hk2, _, _, _, _, _, _, _, _, _, _, fr, tt, hst, _⟩ := hru
      refine ⟨(selfField_args hk).2 hvm, rustKnown_this hk2 hvm, ?_⟩
      cases v with
      | rptr => exact .inl rfl
      | rptrMut => exact .inr rfl
      | «mut» => cases hst
      | default => cases hst
    · intro n hf
      obtain ⟨ts, ps, hps⟩ := prepare_ok (hsig i m g hm hg).len hp
      have := hps.fence
      rw [hf, fenceCode] at this
      by_cases hgt : (protectedArgs ((sigJ g).input.zip m.argNames)).length > n
      · simp only [hgt, if_true] at this
        cases this
      · simp only [sigJ] at hgt
        omega

/-- **C62**: the parameters of an exported Rust function have different names exactly if the declared arguments have and none of them is called `env` or, in a
method, `this` (which is refused, see `C62_accepted`).  Finding: `env` is accepted, and the generated Rust code does not compile. -/
theorem C62_rust_parameters (cfg : Cfg) (c : Class) (all : List (Method × Sig)) (m : Method) (g : Sig) (hl : g.input.length = m.argNames.length)
    (hu : lit "_" ∉ m.argNames) :
    ((protoOf cfg c all m g).rust.2.1.map (·.1)).Nodup ↔
      m.argNames.Nodup ∧ lit "env" ∉ m.argNames ∧ ((∃ v, m.variant = .method v) → lit "this" ∉ m.argNames) := by
  have e1 : lit "env" ≠ lit "_" := by unfold lit; decide
  have e2 : lit "env" ≠ lit "this" := by unfold lit; decide
  have e3 : lit "_" ≠ lit "this" := by unfold lit; decide
  have hz : ((g.input.zip m.argNames).map fun p => Param.arg p.1 p.2).map (fun p => (Param.rust p).1) = m.argNames := by
    rw [List.map_map]
    show (g.input.zip m.argNames).map Prod.snd = m.argNames
    exact List.map_snd_zip (Nat.le_of_eq hl.symm)
  unfold protoOf Proto.rust
  simp only [List.map_cons, List.map_map, List.map_append] at hz ⊢
  cases hv : m.variant with
  | method v =>
    simp only [List.map_cons, List.map_nil, Function.comp_def, Param.rust] at hz ⊢
    rw [hz]
    simp [e1, e2, e3, hu, and_comm, and_left_comm]
  | ctor =>
    simp only [List.map_nil, Function.comp_def] at hz ⊢
    rw [hz]
    simp [e1, hu, and_comm]
  | static =>
    simp only [List.map_nil, Function.comp_def] at hz ⊢
    rw [hz]
    simp [e1, hu, and_comm]

/-! ### Findings -/

/-- **C62 (finding)**: an argument of a constructor may be called `mNativeObj` (methods are protected against that); the generated
constructor then assigns the pointer to its parameter instead of the field, so the new object has no native object. -/
theorem C62_finding_constructor_field (p : Parts) (hc : p.conv = []) (ha : p.args = lit "mNativeObj") (hf : p.fence = []) :
    constructorBody p = lit "        mNativeObj = init(mNativeObj);\n    }" := by
  rw [constructorBody_eq, hc, ha, hf, selfFieldLit, List.isEmpty_nil, if_pos rfl]
  unfold lit
  decide +kernel

/-! ### Non-vacuity -/

/-- A type map for the examples: objects of class `Foo` are passed as `long`, `T` otherwise is `T_j` in Java and `T_r` in Rust. -/
def sampleTm : TypeMap Unit :=
  ⟨fun _ inc ty => some (if ty = "Foo".toList then
      ⟨⟨"Foo".toList, some ⟨"long".toList, none, if inc then "\n        {to_var_type} = {from_var}.mNativeObj;".toList else
        "\n        {to_var_type} = new Foo({from_var});".toList⟩, some .nonNull⟩, "jlong".toList⟩
    else ⟨⟨ty ++ "_j".toList, none, none⟩, ty ++ "_r".toList⟩, ()),
   fun _ fr tt v _ => some ([], v ++ ": ".toList ++ fr ++ " -> ".toList ++ tt, ())⟩

theorem sample_has : HasCode sampleTm := by
  intro s b ty t s' h k hk
  simp only [sampleTm, Option.some.injEq, Prod.mk.injEq, and_true] at h
  subst h
  split at hk
  · cases hk
    cases b <;> decide
  · cases hk

/-- The configuration of the examples. -/
def sampleCfg : Cfg := ⟨"a.b".toList, none, .gen 2, [("i32_j".toList, "I".toList), ("u8_j".toList, "S".toList)],
  fun t => "Result".toList.isPrefixOf t, (· = ' ')⟩

/-- A class with a constructor, a method, a private method, a native static method and one that needs conversions. -/
def sampleClass : Class :=
  ⟨"Foo".toList,
   [⟨.ctor, ["Foo".toList, "new".toList], [("a".toList, "i32".toList)], some "Result<Foo, E>".toList, none, .pub, [], none⟩,
    ⟨.method .rptr, ["Foo".toList, "f".toList], [("ret".toList, "i32".toList), ("b".toList, "Foo".toList)], some "u8".toList, none,
      .pub, [], none⟩,
    ⟨.method .rptrMut, ["Foo".toList, "g".toList], [], none, some "h".toList, .priv, [], none⟩,
    ⟨.static, ["Foo".toList, "s".toList], [("b".toList, "u8".toList)], none, none, .pub, [], some "{ 1 }".toList⟩,
    ⟨.static, ["Foo".toList, "t".toList], [("b".toList, "u8".toList)], some "Foo".toList, none, .pub, [], none⟩],
   some ⟨"Foo".toList, "Result<Foo, E>".toList, some "Foo".toList, .plain "Foo".toList⟩, "    int x;\n".toList, []⟩

/-- The run succeeds, and the exported functions are the expected ones. -/
def sampleOk : Bool :=
  match generate sampleCfg sampleTm () sampleClass with
  | .ok out => (out.rust.filterMap RItem.signature).map (fun q => (q.1, q.2.1.drop 2, q.2.2)) =
      [("Java_a_b_Foo_init".toList, [("a".toList, "i32_r".toList)], "jlong".toList),
       ("Java_a_b_Foo_do_1f".toList, [("this".toList, "jlong".toList), ("ret".toList, "i32_r".toList), ("b".toList, "jlong".toList)],
        "u8_r".toList),
       ("Java_a_b_Foo_do_1h".toList, [("this".toList, "jlong".toList)], "()".toList),
       ("Java_a_b_Foo_s".toList, [("b".toList, "u8_r".toList)], "()".toList),
       ("Java_a_b_Foo_do_1t".toList, [("b".toList, "u8_r".toList)], "jlong".toList),
       ("Java_a_b_Foo_do_1delete".toList, [("this".toList, "jlong".toList)], "()".toList)]
  | .error _ => false

example : sampleOk = true := by
  unfold sampleOk
  decide +kernel

/-- A class with one static method that converts its result. -/
def smallClass : Class :=
  ⟨"Foo".toList,
   [⟨.static, ["Foo".toList, "t".toList], [("b".toList, "u8".toList)], some "Foo".toList, none, .pub, [], none⟩],
   none, [], []⟩

/-- The Java text of the small class. -/
def sampleJava : Bool :=
  match generate sampleCfg sampleTm () smallClass with
  | .ok out => List.isPrefixOf "// Automatically generated by flapigen
package a.b;


public final class Foo {

    public static Foo t(u8_j b) {
        long ret = do_t(b);
        Foo convRet = new Foo(ret);

        return convRet;
    }
    private static native long do_t(u8_j b);".toList out.java
  | .error _ => false

example : sampleJava = true := by
  unfold sampleJava
  decide +kernel

end Flapi.JavaClassGen
