import Verif.Cpp.ClassGen
import Verif.Cpp.ArgsProps
import Verif.Cpp.NamesProps
import Verif.Lang.ExportedProps
/-!
# C61: the C prototypes, the exported Rust functions and the calls made by the C++ class agree
-/
namespace Flapi.CppClassGen

open Flapi.Cpp (TypeInfo MethodSig Converter cArgsWithTypes cppArgsWithTypes convertArgs convArg comma commaJoin
  commaJoin_cons C49_c_parameters C49_one_expression_per_argument)
open Flapi.CppNames (Access cFuncName cppRetType)
open Flapi.NameGen (newUniqueName)
open Flapi.Template
open Flapi.Exported hiding FTy Sig TypeMap

/-! ## Specification: what an exported function looks like from both sides -/

/-- A parameter: the object, or an argument whose type is known under two names. -/
inductive Param
  /-- `decl` is what follows the type in C (`* const self` …), `rust` is the Rust pointer type -/
  | object (readOnly : Bool) (decl : Text) (rust : Text)
  | arg (t : FTy) (name : Text)

/-- A result: a new object (`rust` is the Rust pointer type), or a value whose type is known under two names. -/
inductive Result
  | object (rust : Text)
  | value (t : FTy)

/-- An exported function. -/
structure Proto where
  symbol : Text
  params : List Param
  result : Result

/-- The parameter in C. -/
def Param.c (opq : Text) : Param → Text
  | .object ro decl _ => (if ro then lit "const " else []) ++ opq ++ lit " " ++ decl
  | .arg t n => t.info.name ++ ' ' :: n

/-- The parameter in Rust. -/
def Param.rust : Param → Text × Text
  | .object _ _ r => (thisW, r)
  | .arg t n => (n, t.rust)

/-- The result type in C. -/
def Result.c (opq : Text) : Result → Text
  | .object _ => opq ++ lit " *"
  | .value t => t.info.name ++ lit " "

/-- The result type in Rust. -/
def Result.rust : Result → Text
  | .object r => r
  | .value t => t.rust

/-- The C prototype. -/
def Proto.c (opq : Text) (p : Proto) : Text :=
  lit "\n    " ++ p.result.c opq ++ p.symbol ++ lit "(" ++ commaJoin (p.params.map (Param.c opq)) ++ lit ");\n"

/-- The Rust signature: name, parameters, result. -/
def Proto.rust (p : Proto) : Text × List (Text × Text) × Text := (p.symbol, p.params.map Param.rust, p.result.rust)

/-- The function exported for a method. -/
def protoOf (c : Class) (m : Method) (g : Sig) : Proto where
  symbol := cFuncName m.access c.name (m.alias.getD (m.path.getLast?.getD []))
  params := (match m.variant with
    | .method v => [.object v.readOnly (lit "* const self") (mutPtr c.thisTy)]
    | _ => []) ++ (g.input.zip m.argNames).map fun p => .arg p.1 p.2
  result := match m.variant with
    | .ctor => .object (constPtr cVoid)
    | _ => .value g.output

/-- The function that copies a `SmartPtrCopy` object. -/
def cloneProtos (c : Class) : List Proto :=
  if (∃ m ∈ c.methods, m.variant ≠ .static) ∧ lit "Copy" ∉ c.derives ∧ lit "SmartPtrCopy" ∈ c.derives then
    [⟨cFuncName .priv c.name (lit "clone"), [.object true (lit "*") (constPtr c.thisTy)], .object (mutPtr cVoid)⟩]
  else []

/-- The function that frees an object. -/
def deleteProtos (c : Class) : List Proto :=
  if c.methods.any fun m => m.variant = .ctor then
    [⟨c.name ++ lit "_delete", [.object true (lit "*self") (mutPtr c.thisTy)], .value (unitTy (lit "void"))⟩]
  else []

/-- The functions exported for the methods. -/
def methodProtos (c : Class) (sigs : List Sig) : List Proto :=
  ((c.methods.zip sigs).filter fun p => !p.1.isEmptyCtor).map fun p => protoOf c p.1 p.2

/-- Effective access of the members of a C++ class body. -/
def accesses : Access → List Piece → List (Access × Text)
  | _, [] => []
  | _, .label a :: l => accesses a l
  | a, .member t :: l => (a, t) :: accesses a l

/-- The access in force at the end. -/
def lastAccess : Access → List Piece → Access
  | a, [] => a
  | _, .label b :: l => lastAccess b l
  | a, .member _ :: l => lastAccess a l

/-! ## Helper lemmas -/

theorem symbol_eq (c : Class) (m : Method) (g : Sig) : (protoOf c m g).symbol = c.func m := by
  unfold Class.func Method.shortName protoOf
  cases m.alias <;> rfl

theorem protoOf_params (c : Class) (m : Method) (g : Sig) : (protoOf c m g).params = (match m.variant with
    | .method v => [Param.object v.readOnly (lit "* const self") (mutPtr c.thisTy)]
    | _ => []) ++ (g.input.zip m.argNames).map fun p => .arg p.1 p.2 := rfl

theorem protoOf_result (c : Class) (m : Method) (g : Sig) : (protoOf c m g).result = (match m.variant with
    | .ctor => Result.object (constPtr cVoid)
    | _ => .value g.output) := rfl

theorem clone_cond (c : Class) : ((∃ m ∈ c.methods, m.variant ≠ .static) ∧ lit "Copy" ∉ c.derives ∧ lit "SmartPtrCopy" ∈ c.derives) ↔
    (!c.staticOnly && !c.copyDerived && c.smartPtrCopyDerived) = true := by
  simp only [Class.staticOnly, Class.copyDerived, Class.smartPtrCopyDerived, Bool.and_eq_true, Bool.not_eq_true', List.all_eq_false,
    decide_eq_true_eq, List.contains_eq_mem, decide_eq_false_iff_not, and_assoc]

theorem cloneProtos_eq (c : Class) : cloneProtos c = if (!c.staticOnly && !c.copyDerived && c.smartPtrCopyDerived) = true then
    [⟨cFuncName .priv c.name (lit "clone"), [.object true (lit "*") (constPtr c.thisTy)], .object (mutPtr cVoid)⟩]
  else [] := by
  unfold cloneProtos
  by_cases hc : (!c.staticOnly && !c.copyDerived && c.smartPtrCopyDerived) = true
  · rw [if_pos hc, if_pos ((clone_cond c).2 hc)]
  · rw [if_neg hc, if_neg (fun h => hc ((clone_cond c).1 h))]

theorem rustArgs_eq (m : Method) (g : Sig) :
    rustArgs m g = ((g.input.zip m.argNames).map fun p => Param.arg p.1 p.2).map Param.rust := by
  rw [rustArgs, List.map_map]; rfl

theorem cArgs_eq (m : Method) (g : Sig) (opq : Text) : cArgsWithTypes (sigC g) m.argNames false =
    commaJoin (((g.input.zip m.argNames).map fun p => Param.arg p.1 p.2).map (Param.c opq)) := by
  rw [C49_c_parameters, sigC]
  congr 1
  rw [List.map_map]
  generalize g.input = l, m.argNames = k
  induction l generalizing k with
  | nil => rfl
  | cons a l ih => cases k with
    | nil => rfl
    | cons b k => simpa [Param.c] using ih k

theorem prepare_ok {m : Method} {g : Sig} {p : Prep} (h : prepare m g = .ok p) :
    ∃ known convRet known', knownNames m = .ok known ∧ newUniqueName known (lit "ret") = some p.ret ∧
      newUniqueName (p.ret :: known) (lit "conv_ret") = some convRet ∧
      convertArgs (sigC g) (convRet :: p.ret :: known) m.argNames = some (p.convCode, p.callArgs, known') ∧
      inOut m none (g.input.zip m.argNames) = .ok p.io ∧
      retCode p.io g.output p.ret convRet known' = .ok (p.retTy, p.convRet) ∧
      p.cArgs = cArgsWithTypes (sigC g) m.argNames false ∧ p.cppArgs = cppArgsWithTypes (sigC g) m.argNames := by
  simp only [prepare, bind_ok, orErr_ok, Prod.exists, Except.ok.injEq] at h
  obtain ⟨known, h1, ret, h2, cr, h3, a, b, k, h4, io, h5, x, y, h6, rfl⟩ := h
  exact ⟨known, cr, k, h1, h2, h3, h4, h5, h6, rfl, rfl⟩

/-- The text of a member in the class. -/
def memberText (ws : Char → Bool) (c : Class) (m : Method) (p : Prep) : Text :=
  match m.variant with
  | .static => docs ws m ++ lit "\n    static " ++ p.retTy ++ lit " " ++ m.shortName ++ lit "(" ++ p.cppArgs ++ lit ") noexcept;\n"
  | .method v => docs ws m ++ lit "\n    " ++ p.retTy ++ lit " " ++ m.shortName ++ lit "(" ++ p.cppArgs ++
        lit ") " ++ constIf v ++ lit "noexcept;\n"
  | .ctor => if m.isDummy then docs ws m ++ lit "\n    " ++ c.cppName ++ lit "() noexcept {}\n"
    else docs ws m ++ lit "\n    " ++ c.cppName ++ lit "(" ++ p.cppArgs ++ lit ") noexcept\n    {\n" ++
          p.convCode ++ lit "\n        this->self_ = " ++ c.func m ++ lit "(" ++ p.callArgs ++
          lit ");\n        if (this->self_ == nullptr) {\n            std::abort();\n        }\n    }\n"

/-- The text of the definition of a member. -/
def implText (c : Class) (m : Method) (g : Sig) (p : Prep) : Text :=
  match m.variant with
  | .static => implHead c p.retTy m.shortName p.cppArgs [] ++ p.convCode ++
        implCall g.output.info (c.func m) p.callArgs p.ret p.convRet p.io
  | .method v => implHead c p.retTy m.shortName p.cppArgs (constIf v) ++ p.convCode ++
        implCall g.output.info (c.func m) (lit "this->self_" ++ afterSelf m p.callArgs) p.ret p.convRet p.io
  | .ctor => []

theorem genStatic_sig {σ} {tm : TypeMap σ} {s s' : σ} {f : Text} {m : Method} {g : Sig} {r : Text} {rs : List RItem}
    (h : genStatic tm s f m g r = .ok (rs, s')) :
    rs.filterMap RItem.signature = [(f, rustArgs m g, g.output.rust)] := by
  simp only [genStatic, bind_ok, Prod.exists, Except.ok.injEq, Prod.mk.injEq] at h
  obtain ⟨_, _, _, _, _, _, _, _, rfl, _⟩ := h
  rw [List.filterMap_append, support_sig]; rfl

theorem genMethod_sig {σ} {tm : TypeMap σ} {s s' : σ} {c : Class} {v : SelfVar} {f : Text} {m : Method} {g : Sig} {r : Text}
    {rs : List RItem} (h : genMethod tm s c v f m g r = .ok (rs, s')) :
    rs.filterMap RItem.signature = [(f, (thisW, mutPtr c.thisTy) :: rustArgs m g, g.output.rust)] := by
  simp only [genMethod, bind_ok, Prod.exists, Except.ok.injEq, Prod.mk.injEq] at h
  obtain ⟨_, _, _, _, _, _, _, _, _, _, _, _, _, _, _, rfl, _⟩ := h
  rw [List.filterMap_append, support_sig]; rfl

theorem genCtor_sig {σ} {tm : TypeMap σ} {s s' : σ} {d : SelfDesc} {f : Text} {m : Method} {g : Sig} {rs : List RItem}
    (h : genCtor tm s d f m g = .ok (rs, s')) :
    rs.filterMap RItem.signature = [(f, rustArgs m g, constPtr cVoid)] := by
  simp only [genCtor, bind_ok, Prod.exists, Except.ok.injEq, Prod.mk.injEq] at h
  obtain ⟨_, _, _, _, _, _, _, _, rfl, _⟩ := h
  rw [List.filterMap_append, support_sig]; rfl

/-- The Rust items of one method. -/
def rustOf {σ} (tm : TypeMap σ) (s : σ) (c : Class) (m : Method) (g : Sig) (p : Prep) : Except Err (List RItem × σ) :=
  match m.variant with
  | .static => genStatic tm s (c.func m) m g p.ret
  | .method v => genMethod tm s c v (c.func m) m g p.ret
  | .ctor => if m.isDummy then .ok ([], s) else do
      let d ← orErr .noThisInfo c.selfDesc
      genCtor tm s d (c.func m) m g

theorem rustOf_sig {σ} {tm : TypeMap σ} {s s' : σ} {c : Class} {m : Method} {g : Sig} {p : Prep} {rs : List RItem}
    (h : rustOf tm s c m g p = .ok (rs, s')) :
    rs.filterMap RItem.signature = if m.isEmptyCtor then [] else [(protoOf c m g).rust] := by
  unfold rustOf at h
  cases hv : m.variant with
  | static =>
    rw [hv] at h
    simp only at h
    rw [genStatic_sig h]
    simp [Method.isEmptyCtor, hv, Proto.rust, symbol_eq, protoOf_params, protoOf_result, rustArgs_eq, Result.rust]
  | method v =>
    rw [hv] at h
    simp only at h
    rw [genMethod_sig h]
    simp [Method.isEmptyCtor, hv, Proto.rust, symbol_eq, protoOf_params, protoOf_result, rustArgs_eq, Result.rust, Param.rust]
  | ctor =>
    rw [hv] at h
    simp only at h
    split at h
    · rename_i hd
      simp only [Except.ok.injEq, Prod.mk.injEq] at h
      simp [Method.isEmptyCtor, hv, hd, ← h.1]
    · rename_i hd
      simp only [bind_ok] at h
      obtain ⟨d, _, h⟩ := h
      rw [genCtor_sig h]
      simp [Method.isEmptyCtor, hv, hd, Proto.rust, symbol_eq, protoOf_params, protoOf_result, rustArgs_eq, Result.rust]

theorem step_ok {σ} {ws : Char → Bool} {tm : TypeMap σ} {c : Class} {st st' : St σ} {m : Method} {g : Sig}
    (h : step ws tm c st m g = .ok st') :
    ∃ p rs s, prepare m g = .ok p ∧ rustOf tm st.tm c m g p = .ok (rs, s) ∧
      st' = st.add (docs ws m ++ if m.isEmptyCtor then [] else (protoOf c m g).c c.opaque)
        (labelIf st.access m.access ++ [.member (memberText ws c m p)]) (implText c m g p) rs m.access (m.variant = .ctor) s := by
  simp only [step, bind_ok] at h
  obtain ⟨p, hp, h⟩ := h
  obtain ⟨_, _, _, _, _, _, _, _, _, hc, _⟩ := prepare_ok hp
  rw [cArgs_eq m g c.opaque] at hc
  cases hv : m.variant with
  | static =>
    rw [hv] at h
    simp only [bind_ok, Prod.exists, Except.ok.injEq] at h
    obtain ⟨rs, s, hr, h⟩ := h
    refine ⟨p, rs, s, hp, by simp only [rustOf, hv]; exact hr, ?_⟩
    rw [← h]
    have he : m.isEmptyCtor = false := by simp [Method.isEmptyCtor, hv]
    rw [he, if_neg Bool.false_ne_true, memberText, hv, implText, hv, Proto.c, hc]
    simp only [symbol_eq, protoOf_params, protoOf_result, hv, List.nil_append, List.append_assoc, Result.c]
    rfl
  | method v =>
    rw [hv] at h
    simp only [bind_ok, Prod.exists, Except.ok.injEq] at h
    obtain ⟨rs, s, hr, h⟩ := h
    refine ⟨p, rs, s, hp, by simp only [rustOf, hv]; exact hr, ?_⟩
    rw [← h]
    have he : m.isEmptyCtor = false := by simp [Method.isEmptyCtor, hv]
    rw [he, if_neg Bool.false_ne_true, memberText, hv, implText, hv, Proto.c]
    have hj : constIf v ++ (c.opaque ++ (lit " * const self" ++ if p.cArgs.isEmpty = true then [] else comma ++ p.cArgs)) =
        commaJoin ((([Param.object v.readOnly (lit "* const self") (mutPtr c.thisTy)] ++
          (g.input.zip m.argNames).map fun p => Param.arg p.1 p.2)).map (Param.c c.opaque)) := by
      have hs : lit " * const self" = lit " " ++ lit "* const self" := by unfold lit; decide
      rw [hs, List.map_append, List.map_cons, List.map_nil, hc]
      cases hz : g.input.zip m.argNames with
      | nil =>
        simp only [List.map_nil, commaJoin, List.isEmpty_nil, if_true, Param.c, List.append_nil, constIf, List.append_assoc]
      | cons x l =>
        rw [List.singleton_append, commaJoin_cons _ _ (by simp)]
        have hne : (commaJoin (List.map (Param.c c.opaque) (List.map (fun p => Param.arg p.1 p.2) (x :: l)))).isEmpty = false := by
          rw [Cpp.commaJoin_nonempty]
          · rfl
          · intro y hy
            simp only [List.mem_map] at hy
            obtain ⟨a, ⟨b, _, rfl⟩, rfl⟩ := hy
            simp [Param.c]
        rw [if_neg (by rw [hne]; decide)]
        simp only [Param.c, constIf, List.append_assoc]
    have hpar : (protoOf c m g).params = [Param.object v.readOnly (lit "* const self") (mutPtr c.thisTy)] ++
          (g.input.zip m.argNames).map fun p => Param.arg p.1 p.2 := by simp only [protoOf, hv]
    have hres : (protoOf c m g).result = .value g.output := by simp only [protoOf, hv]
    rw [hpar, hres, symbol_eq, ← hj]
    simp only [List.append_assoc, Result.c]
    rfl
  | ctor =>
    rw [hv] at h
    simp only at h
    by_cases hd : m.isDummy = true
    · rw [if_pos hd] at h
      simp only [Except.ok.injEq] at h
      refine ⟨p, [], st.tm, hp, by simp only [rustOf, hv, if_pos hd], ?_⟩
      rw [← h]
      have he : m.isEmptyCtor = true := by simp [Method.isEmptyCtor, hv, hd]
      rw [he, if_pos rfl, memberText, hv, implText, hv]
      simp only [if_pos hd, List.append_nil]
      rfl
    · rw [if_neg hd] at h
      simp only [bind_ok, Prod.exists, Except.ok.injEq] at h
      obtain ⟨d, hd', rs, s, hr, h⟩ := h
      refine ⟨p, rs, s, hp, by simp only [rustOf, hv, if_neg hd, bind_ok]; exact ⟨d, hd', hr⟩, ?_⟩
      rw [← h]
      have he : m.isEmptyCtor = false := by simp [Method.isEmptyCtor, hd]
      rw [he, if_neg Bool.false_ne_true, memberText, hv, implText, hv, Proto.c, hc]
      simp only [symbol_eq, protoOf_params, protoOf_result, hv, List.nil_append, List.append_assoc, Result.c, if_neg hd]
      rfl


theorem accesses_append (a : Access) (l k : List Piece) : accesses a (l ++ k) = accesses a l ++ accesses (lastAccess a l) k := by
  induction l generalizing a with
  | nil => rfl
  | cons x l ih => cases x with
    | label b => simp only [List.cons_append, accesses, lastAccess, ih]
    | member t => simp only [List.cons_append, accesses, lastAccess, ih]

theorem lastAccess_append (a : Access) (l k : List Piece) : lastAccess a (l ++ k) = lastAccess (lastAccess a l) k := by
  induction l generalizing a with
  | nil => rfl
  | cons x l ih => cases x with
    | label b => simp only [List.cons_append, lastAccess, ih]
    | member t => simp only [List.cons_append, lastAccess, ih]

/-- What the loop has done. -/
structure LoopSpec {σ} (ws : Char → Bool) (tm : TypeMap σ) (c : Class) (qs : List (Method × Sig)) (st st' : St σ)
    (ps : List Prep) (rss : List (List RItem)) : Prop where
  cHdr : st'.cHdr = st.cHdr ++
    (qs.map fun q => docs ws q.1 ++ if q.1.isEmptyCtor then [] else (protoOf c q.1 q.2).c c.opaque).flatten
  impl : st'.impl = st.impl ++ ((qs.zip ps).map fun x => implText c x.1.1 x.1.2 x.2).flatten
  rust : st'.rust = st.rust ++ rss.flatten
  acc : accesses .pub st'.cpp = accesses .pub st.cpp ++ (qs.zip ps).map fun x => (x.1.1.access, memberText ws c x.1.1 x.2)
  last : st'.access = some (lastAccess .pub st'.cpp)
  lastM : lastAccess .pub st'.cpp = ((qs.getLast?).map (·.1.access)).getD (lastAccess .pub st.cpp)
  dtor : st'.needDtor = (st.needDtor || qs.any fun q => decide (q.1.variant = .ctor))
  lenP : ps.length = qs.length
  lenR : rss.length = qs.length
  each : ∀ (i : Nat) (q : Method × Sig), qs[i]? = some q → ∃ p rs s s', ps[i]? = some p ∧ rss[i]? = some rs ∧ prepare q.1 q.2 = .ok p ∧
    rustOf tm s c q.1 q.2 p = .ok (rs, s')

theorem loop_ok {σ} {ws : Char → Bool} {tm : TypeMap σ} {c : Class} : ∀ (ms : List Method) (gs : List Sig) (st st' : St σ),
    st.access = some (lastAccess .pub st.cpp) → loop ws tm c st ms gs = .ok st' →
    ∃ ps rss, LoopSpec ws tm c (ms.zip gs) st st' ps rss := by
  intro ms
  induction ms with
  | nil =>
    intro gs st st' ha h
    simp only [loop, Except.ok.injEq] at h
    subst h
    exact ⟨[], [], by simp, by simp, by simp, by simp, ha, by simp, by simp, rfl, rfl, by simp⟩
  | cons m ms ih =>
    intro gs st st' ha h
    cases gs with
    | nil =>
      simp only [loop, Except.ok.injEq] at h
      subst h
      exact ⟨[], [], by simp, by simp, by simp, by simp, ha, by simp, by simp, rfl, rfl, by simp⟩
    | cons g gs =>
      simp only [loop, bind_ok] at h
      obtain ⟨st1, h1, h2⟩ := h
      obtain ⟨p, rs, s, hp, hr, rfl⟩ := step_ok h1
      have hl : ∀ k, accesses (lastAccess .pub st.cpp) (labelIf st.access m.access ++ [Piece.member k]) = [(m.access, k)] ∧
          lastAccess (lastAccess .pub st.cpp) (labelIf st.access m.access ++ [Piece.member k]) = m.access := by
        intro k
        rw [ha, labelIf]
        split
        · rename_i e
          simp only [Option.some.injEq] at e
          simp [accesses, lastAccess, e]
        · simp [accesses, lastAccess]
      obtain ⟨ps, rss, hs⟩ := ih gs _ st' (by
        simp only [St.add]
        rw [lastAccess_append, (hl _).2]) h2
      refine ⟨p :: ps, rs :: rss, ?_, ?_, ?_, ?_, hs.last, ?_, ?_, ?_, ?_, ?_⟩
      · rw [hs.cHdr]
        simp only [St.add, List.zip_cons_cons, List.map_cons, List.flatten_cons, List.append_assoc]
      · rw [hs.impl]
        simp only [St.add, List.zip_cons_cons, List.map_cons, List.flatten_cons, List.append_assoc]
      · rw [hs.rust]
        simp only [St.add, List.flatten_cons, List.append_assoc]
      · rw [hs.acc]
        simp only [St.add, List.zip_cons_cons, List.map_cons]
        rw [accesses_append, (hl _).1, List.append_assoc, List.singleton_append]
      · rw [hs.lastM]
        simp only [St.add]
        rw [lastAccess_append, (hl _).2, List.zip_cons_cons]
        cases hz : ms.zip gs with
        | nil => rfl
        | cons y l =>
          rw [List.getLast?_cons_cons]
          cases hg : (y :: l).getLast? with
          | none => simp at hg
          | some z => rfl
      · rw [hs.dtor]
        simp only [St.add, List.zip_cons_cons, List.any_cons, Bool.or_assoc]
      · simp [hs.lenP]
      · simp [hs.lenR]
      · intro i q hi
        cases i with
        | zero =>
          simp only [List.zip_cons_cons, List.getElem?_cons_zero, Option.some.injEq] at hi
          subst hi
          exact ⟨p, rs, _, _, rfl, rfl, hp, hr⟩
        | succ i => exact hs.each i q (by simpa using hi)

/-- What is known of the types chosen for one method. -/
structure SigSpec {σ} (tm : TypeMap σ) (m : Method) (g : Sig) : Prop where
  len : g.input.length = m.args.length
  args : ∀ (i : Nat) (a : Text × Text), m.args[i]? = some a → ∃ t s1 s2, g.input[i]? = some t ∧ tm.mapType s1 true a.2 = some (t, s2)
  out : (m.variant = .ctor ∧ g.output = unitTy []) ∨ (m.variant ≠ .ctor ∧ m.output = none ∧ g.output = unitTy (lit "void")) ∨
    (m.variant ≠ .ctor ∧ ∃ ty s1 s2, m.output = some ty ∧ tm.mapType s1 false ty = some (g.output, s2))

theorem findSigs_ok {σ} {tm : TypeMap σ} : ∀ (ms : List Method) (s s' : σ) (gs : List Sig),
    findSigs tm s ms = .ok (gs, s') → gs.length = ms.length ∧
      ∀ (i : Nat) (m : Method) (g : Sig), ms[i]? = some m → gs[i]? = some g → SigSpec tm m g := by
  intro ms
  induction ms with
  | nil =>
    intro s s' gs h
    simp only [findSigs, Except.ok.injEq, Prod.mk.injEq] at h
    simp [← h.1]
  | cons m ms ih =>
    intro s s' gs h
    simp only [findSigs, bind_ok, Prod.exists, Except.ok.injEq, Prod.mk.injEq] at h
    obtain ⟨i, s1, h1, o, s2, h2, r, s3, h3, rfl, rfl⟩ := h
    obtain ⟨hl, hi⟩ := ih _ _ _ h3
    refine ⟨by simp [hl], ?_⟩
    intro k m' g hm hg
    cases k with
    | zero =>
      simp only [List.getElem?_cons_zero, Option.some.injEq] at hm hg
      subst hm hg
      obtain ⟨ha, hb⟩ := mapArgs_ok _ _ _ _ h1
      refine ⟨ha, hb, ?_⟩
      unfold mapOutput at h2
      split at h2
      · rename_i hv
        simp only [Except.ok.injEq, Prod.mk.injEq] at h2
        exact .inl ⟨hv, h2.1.symm⟩
      · rename_i hv
        right
        split at h2
        · rename_i ho
          simp only [Except.ok.injEq, Prod.mk.injEq] at h2
          exact .inl ⟨hv, ho, h2.1.symm⟩
        · rename_i ty ho
          rw [orErr_ok] at h2
          exact .inr ⟨hv, ty, _, _, ho, h2⟩
    | succ k => exact hi k m' g (by simpa using hm) (by simpa using hg)

theorem dtor_need (c : Class) (gs : List Sig) (hl : gs.length = c.methods.length) :
    ((c.methods.zip gs).any fun q => decide (q.1.variant = .ctor)) = c.methods.any fun m => decide (m.variant = .ctor) := by
  have : (c.methods.zip gs).map (·.1) = c.methods := List.map_fst_zip (by omega)
  conv => rhs; rw [← this, List.any_map]
  rfl

/-- The starting state of the loop. -/
def startSt {σ} (ws : Char → Bool) (width : Nat) (c : Class) (cc : Text) (cr : List RItem) (cm : List Piece) (s : σ) : St σ :=
  ⟨cPreamble ws width c ++ cc, cm, [], cr ++ (match c.selfDesc with | some d => [RItem.classImpl d.ctorRet] | none => []),
    some .pub, false, s⟩

theorem generate_ok {σ} {ws : Char → Bool} {width : Nat} {tm : TypeMap σ} {s : σ} {c : Class} {out : Out}
    (h : generate ws width tm s c = .ok out) :
    ∃ gs s1 cc cr cm st ps rss dc dr dm,
      ((c.methods.any fun m => m.variant.isMethod) = true → (c.methods.any fun m => decide (m.variant = .ctor)) = true) ∧
      findSigs tm s c.methods = .ok (gs, s1) ∧
      copyPart c = .ok (cc, cr, cm) ∧
      LoopSpec ws tm c (c.methods.zip gs) (startSt ws width c cc cr cm s1) st ps rss ∧
      st.needDtor = (c.methods.any fun m => decide (m.variant = .ctor)) ∧
      dtorStuff c st.needDtor = .ok (dc, dr, dm) ∧
      out = ⟨st.cHdr ++ dc ++ cEnd, st.cpp ++ dm ++ foreignStuff c ++ fieldStuff c, st.impl, st.rust ++ dr⟩ := by
  unfold generate at h
  split at h
  · cases h
  · rename_i hm
    simp only [bind_ok, Prod.exists] at h
    obtain ⟨gs, s1, h1, h⟩ := h
    simp only [doGenerate, bind_ok, Prod.exists, Except.ok.injEq] at h
    obtain ⟨cc, cr, cm, h2, st, h3, dc, dr, dm, h4, rfl⟩ := h
    have hcm : accesses .pub cm = accesses .pub cm ∧ lastAccess .pub cm = .pub := by
      refine ⟨rfl, ?_⟩
      unfold copyPart at h2
      split at h2
      · cases h2; rfl
      · unfold copyStuff at h2
        split at h2
        · simp only [bind_ok, Except.ok.injEq, Prod.mk.injEq] at h2
          obtain ⟨_, _, _, _, rfl⟩ := h2; rfl
        · split at h2
          · simp only [bind_ok, Except.ok.injEq, Prod.mk.injEq] at h2
            obtain ⟨_, _, _, _, rfl⟩ := h2; rfl
          · cases h2; rfl
    obtain ⟨ps, rss, hs⟩ := loop_ok c.methods gs _ st (by simp only [hcm.2]) h3
    have hn : st.needDtor = (c.methods.any fun m => decide (m.variant = .ctor)) := by
      rw [hs.dtor, dtor_need c gs (findSigs_ok _ _ _ _ h1).1]; simp
    refine ⟨gs, s1, cc, cr, cm, st, ps, rss, dc, dr, dm, ?_, h1, h2, hs, hn, h4, rfl⟩
    intro hm'
    rw [hm'] at hm
    simpa using hm

/-! ## C61 -/

/-- **C61**: the Rust functions exported for a class are exactly these, in this order: the copy function (if the class is
`SmartPtrCopy`), one per method in the order of the declaration (none for a constructor that only says that there is none),
and the function that frees an object (if there is a constructor); each with the parameters and the result type shown by
`Proto.rust`. -/
theorem C61_rust_functions {σ} (ws : Char → Bool) (width : Nat) (tm : TypeMap σ) (s : σ) (c : Class) (out : Out)
    (h : generate ws width tm s c = .ok out) :
    ∃ gs s1, findSigs tm s c.methods = .ok (gs, s1) ∧
      out.rust.filterMap RItem.signature = (cloneProtos c ++ methodProtos c gs ++ deleteProtos c).map Proto.rust := by
  obtain ⟨gs, s1, cc, cr, cm, st, ps, rss, dc, dr, dm, -, h1, h2, hs, hn, h4, rfl⟩ := generate_ok h
  refine ⟨gs, s1, h1, ?_⟩
  simp only [List.map_append, List.filterMap_append, hs.rust, startSt]
  have e1 : cr.filterMap RItem.signature = (cloneProtos c).map Proto.rust := by
    rw [cloneProtos_eq]
    unfold copyPart at h2
    split at h2
    · rename_i hst
      cases h2
      simp [hst]
    · rename_i hst
      unfold copyStuff at h2
      split at h2
      · rename_i hc
        simp only [bind_ok, Except.ok.injEq, Prod.mk.injEq] at h2
        obtain ⟨_, _, _, rfl, _⟩ := h2
        simp [hc]
      · rename_i hc
        split at h2
        · rename_i hsm
          simp only [bind_ok, orErr_ok, Except.ok.injEq, Prod.mk.injEq] at h2
          obtain ⟨d, hd, _, rfl, _⟩ := h2
          simp [hc, hst, hsm, RItem.signature, cloneFn, Proto.rust, Param.rust, Result.rust, Class.thisTy, hd]
        · rename_i hsm
          cases h2
          simp [hsm]
  have e2 : (match c.selfDesc with | some d => [RItem.classImpl d.ctorRet] | none => []).filterMap RItem.signature = [] := by
    cases c.selfDesc <;> rfl
  have e3 : dr.filterMap RItem.signature = (deleteProtos c).map Proto.rust := by
    unfold deleteProtos
    rw [hn] at h4
    unfold dtorStuff at h4
    split at h4
    · rename_i hc
      simp only [bind_ok, Except.ok.injEq, Prod.mk.injEq] at h4
      obtain ⟨d, _, _, rfl, _⟩ := h4
      rw [if_pos hc]
      rfl
    · rename_i hc
      rw [if_neg hc]
      split at h4
      · cases h4; rfl
      · cases h4; rfl
  have e4 : (rss.flatten).filterMap RItem.signature = (methodProtos c gs).map Proto.rust := by
    rw [signatures_flatten, methodProtos]
    have hlen := hs.lenR
    have hall := hs.each
    generalize c.methods.zip gs = qs at hlen hall
    clear hs
    induction qs generalizing rss ps with
    | nil =>
      have : rss = [] := List.length_eq_zero_iff.1 hlen
      subst this; rfl
    | cons q qs ih =>
      cases rss with
      | nil => simp at hlen
      | cons r rss =>
        obtain ⟨p, rs, sa, sb, hp0, hr0, hpr, hru⟩ := hall 0 q rfl
        cases ps with
        | nil => simp at hp0
        | cons p' ps =>
        simp only [List.getElem?_cons_zero, Option.some.injEq] at hr0 hp0
        subst hr0 hp0
        have := ih ps rss (by simpa using hlen) (fun i q hq => by
          obtain ⟨p, rs, a, b, x1, x2, x3, x4⟩ := hall (i + 1) q (by simpa using hq)
          exact ⟨p, rs, a, b, by simpa using x1, by simpa using x2, x3, x4⟩)
        rw [List.map_cons, List.flatten_cons, rustOf_sig hru, this]
        by_cases he : q.1.isEmptyCtor = true
        · simp [he, List.filter_cons]
        · simp [he, List.filter_cons]
  rw [e1, e2, e3, e4]
  simp

/-- **C61**: the C header declares exactly the same functions, in the same order; nothing but comments stands between the
declarations. -/
theorem C61_c_prototypes {σ} (ws : Char → Bool) (width : Nat) (tm : TypeMap σ) (s : σ) (c : Class) (out : Out)
    (h : generate ws width tm s c = .ok out) :
    ∃ gs s1, findSigs tm s c.methods = .ok (gs, s1) ∧
      out.cHdr = cPreamble ws width c ++ ((cloneProtos c).map (Proto.c c.opaque)).flatten ++
        ((c.methods.zip gs).map fun q => Flapi.Comments.docToC ws q.1.docs false ++
          if q.1.isEmptyCtor then [] else (protoOf c q.1 q.2).c c.opaque).flatten ++
        ((deleteProtos c).map (Proto.c c.opaque)).flatten ++ cEnd := by
  obtain ⟨gs, s1, cc, cr, cm, st, ps, rss, dc, dr, dm, -, h1, h2, hs, hn, h4, rfl⟩ := generate_ok h
  refine ⟨gs, s1, h1, ?_⟩
  simp only [hs.cHdr, startSt]
  have e1 : cc = ((cloneProtos c).map (Proto.c c.opaque)).flatten := by
    rw [cloneProtos_eq]
    unfold copyPart at h2
    split at h2
    · rename_i hst
      cases h2
      simp [hst]
    · rename_i hst
      unfold copyStuff at h2
      split at h2
      · rename_i hc
        simp only [bind_ok, Except.ok.injEq, Prod.mk.injEq] at h2
        obtain ⟨_, _, rfl, _⟩ := h2
        simp [hc]
      · rename_i hc
        split at h2
        · rename_i hsm
          simp only [bind_ok, orErr_ok, Except.ok.injEq, Prod.mk.injEq] at h2
          obtain ⟨d, hd, rfl, _⟩ := h2
          have hst' : (!c.staticOnly && !c.copyDerived && c.smartPtrCopyDerived) = true := by simp [hst, hc, hsm]
          rw [if_pos hst']
          have l1 : lit "(const " = lit "(" ++ lit "const " := by unfold lit; decide
          have l2 : lit " *);\n" = lit " " ++ (lit "*" ++ lit ");\n") := by unfold lit; decide
          simp only [List.map_cons, List.map_nil, List.flatten_cons, List.flatten_nil, List.append_nil, Proto.c, Param.c,
            commaJoin, Result.c, l1, l2, if_true, List.append_assoc]
        · rename_i hsm
          cases h2
          simp [hsm]
  have e3 : dc = ((deleteProtos c).map (Proto.c c.opaque)).flatten := by
    unfold deleteProtos
    rw [hn] at h4
    unfold dtorStuff at h4
    split at h4
    · rename_i hc
      simp only [bind_ok, Except.ok.injEq, Prod.mk.injEq] at h4
      obtain ⟨d, _, rfl, _⟩ := h4
      rw [if_pos hc]
      have l1 : lit "(const " = lit "(" ++ lit "const " := by unfold lit; decide
      have l2 : lit " *self);\n" = lit " " ++ (lit "*self" ++ lit ");\n") := by unfold lit; decide
      have l3 : lit "\n    void " = lit "\n    " ++ (lit "void" ++ lit " ") := by unfold lit; decide
      simp only [List.map_cons, List.map_nil, List.flatten_cons, List.flatten_nil, List.append_nil, Proto.c, Param.c,
        commaJoin, Result.c, l1, l2, l3, if_true, List.append_assoc, unitTy]
    · rename_i hc
      rw [if_neg hc]
      split at h4
      · cases h4; rfl
      · cases h4; rfl
  rw [e1, e3]

/-- What the pointer in a C++ object points to: the Rust object itself, also when the class keeps it in a `Box`, `Rc` or `Arc`. -/
def pointsTo (c : Class) : Text :=
  match c.selfDesc with
  | some d => (match d.holder with | .smart _ inner => inner | .plain ty => ty)
  | none => lit "()"

theorem pointsTo_eq (c : Class) : c.thisTy = pointsTo c := by
  unfold Class.thisTy pointsTo
  cases c.selfDesc with
  | none => rfl
  | some d =>
    simp only [Option.map_some, Option.getD_some]
    cases d.holder <;> rfl

/-- **C61**: position by position the C parameter and the Rust parameter of a function are the two names of one type, the
one the type map has found for the declared argument; the object pointer comes first in methods and nowhere else; the
result likewise (`void`/`()` when nothing is returned, the object pointer for constructors). -/
theorem C61_one_type_two_names {σ} (tm : TypeMap σ) (s s1 : σ) (c : Class) (gs : List Sig)
    (h : findSigs tm s c.methods = .ok (gs, s1)) (i : Nat) (m : Method) (hm : c.methods[i]? = some m) :
    ∃ g, gs[i]? = some g ∧
      (let p := protoOf c m g
       let self := if m.variant.isMethod then 1 else 0
       p.symbol = c.func m ∧ p.params.length = self + m.args.length ∧
       (∀ (j : Nat) (n ty : Text), m.args[j]? = some (n, ty) → ∃ t sa sb, tm.mapType sa true ty = some (t, sb) ∧
         (p.params.map (Param.c c.opaque))[self + j]? = some (t.info.name ++ ' ' :: n) ∧
         (p.params.map Param.rust)[self + j]? = some (n, t.rust)) ∧
       (∀ v, m.variant = .method v → (p.params.map (Param.c c.opaque))[0]? =
           some ((if v.readOnly then lit "const " else []) ++ c.opaque ++ lit " " ++ lit "* const self") ∧
         (p.params.map Param.rust)[0]? = some (lit "this", lit "*mut " ++ pointsTo c)) ∧
       (m.variant = .ctor → p.result.c c.opaque = c.opaque ++ lit " *" ∧ p.result.rust = lit "*const " ++ cVoid) ∧
       (m.variant ≠ .ctor → m.output = none → p.result.c c.opaque = lit "void" ++ lit " " ∧ p.result.rust = lit "()") ∧
       (∀ ty, m.variant ≠ .ctor → m.output = some ty → ∃ t sa sb, tm.mapType sa false ty = some (t, sb) ∧
         p.result.c c.opaque = t.info.name ++ lit " " ∧ p.result.rust = t.rust)) := by
  obtain ⟨hl, hall⟩ := findSigs_ok _ _ _ _ h
  have hi : i < gs.length := by rw [hl]; exact (List.getElem?_eq_some_iff.1 hm).1
  refine ⟨gs[i], List.getElem?_eq_getElem hi, ?_⟩
  have hg := hall i m gs[i] hm (List.getElem?_eq_getElem hi)
  generalize gs[i] = g at hg
  obtain ⟨hlen, hargs, hout⟩ := hg
  rw [← pointsTo_eq]
  have hz : (g.input.zip m.argNames).length = m.args.length := by
    rw [List.length_zip, Method.argNames, List.length_map]; omega
  have hj : ∀ (j : Nat) (n ty : Text), m.args[j]? = some (n, ty) → ∃ t sa sb, tm.mapType sa true ty = some (t, sb) ∧
      ((g.input.zip m.argNames).map fun p => Param.arg p.1 p.2)[j]? = some (Param.arg t n) := by
    intro j n ty ha
    obtain ⟨t, sa, sb, h1, h2⟩ := hargs j (n, ty) ha
    refine ⟨t, sa, sb, h2, ?_⟩
    rw [List.getElem?_map]
    have : (g.input.zip m.argNames)[j]? = some (t, n) := by
      rw [List.getElem?_zip_eq_some]
      exact ⟨h1, by rw [Method.argNames, List.getElem?_map, ha]; rfl⟩
    rw [this]; rfl
  refine ⟨symbol_eq c m g, ?_, ?_, ?_, ?_, ?_, ?_⟩
  · cases hv : m.variant <;> simp [protoOf, hv, hz, Variant.isMethod] <;> omega
  · intro j n ty ha
    obtain ⟨t, sa, sb, h1, h2⟩ := hj j n ty ha
    refine ⟨t, sa, sb, h1, ?_⟩
    have h3 : (protoOf c m g).params[(if m.variant.isMethod then 1 else 0) + j]? = some (Param.arg t n) := by
      cases hv : m.variant with
      | method v =>
        simp only [protoOf, hv, Variant.isMethod, if_true]
        rw [Nat.add_comm, List.singleton_append, List.getElem?_cons_succ]
        exact h2
      | static =>
        simp only [protoOf, hv, Variant.isMethod, Bool.false_eq_true, if_false, List.nil_append, Nat.zero_add]
        exact h2
      | ctor =>
        simp only [protoOf, hv, Variant.isMethod, Bool.false_eq_true, if_false, List.nil_append, Nat.zero_add]
        exact h2
    rw [List.getElem?_map, List.getElem?_map, h3]
    exact ⟨rfl, rfl⟩
  · intro v hv
    simp only [protoOf, hv, List.singleton_append, List.map_cons, List.getElem?_cons_zero]
    exact ⟨rfl, rfl⟩
  · intro hv
    simp only [protoOf, hv]
    exact ⟨rfl, rfl⟩
  · intro hv ho
    rcases hout with ⟨h1, _⟩ | ⟨_, _, h2⟩ | ⟨_, ty, _, _, h1, _⟩
    · exact absurd h1 hv
    · have : (protoOf c m g).result = .value g.output := by
        simp only [protoOf]
      rw [this, h2]
      exact ⟨rfl, rfl⟩
    · rw [ho] at h1; cases h1
  · intro ty hv ho
    rcases hout with ⟨h1, _⟩ | ⟨_, h1, _⟩ | ⟨_, ty', sa, sb, h1, h2⟩
    · exact absurd h1 hv
    · rw [ho] at h1; cases h1
    · rw [ho] at h1
      cases h1
      refine ⟨g.output, sa, sb, h2, ?_⟩
      have : (protoOf c m g).result = .value g.output := by
        simp only [protoOf]
      rw [this]
      exact ⟨rfl, rfl⟩

/-! ### Calls made by the C++ class -/

theorem exprs_of_prepare {m : Method} {g : Sig} {p : Prep} (hp : prepare m g = .ok p) (hlen : g.input.length = m.args.length) :
    ∃ exprs : List Text, exprs.length = m.args.length ∧ p.callArgs = commaJoin exprs ∧
      ∀ (j : Nat) (t : FTy) (n : Text), g.input[j]? = some t → m.argNames[j]? = some n →
        ∃ d a kb ka, exprs[j]? = some a ∧ convArg t.info n j kb = some (d, a, ka) ∧ p.ret ∈ kb ∧ ∀ x ∈ m.argNames, x ∈ kb := by
  obtain ⟨known, cr, known', hk, hr, hcr, hconv, _, _, _, _⟩ := prepare_ok hp
  obtain ⟨ds, as, h1, h2, h3, h4, h5⟩ := C49_one_expression_per_argument _ _ _ _ _ _ hconv
  have hsub : ∀ x ∈ m.argNames, x ∈ known := by
    unfold knownNames at hk
    split at hk
    · split at hk
      · cases hk
      · cases hk; intro x hx; exact List.mem_cons_of_mem _ hx
    · cases hk; exact fun x hx => hx
  refine ⟨as, ?_, h4, ?_⟩
  · rw [h2, List.length_zip, sigC, Method.argNames]
    simp only [List.length_map]
    omega
  · intro j t n ht hn
    obtain ⟨d, a, kb, ka, _, e2, e3, e4, _⟩ := h5 j t.info n (by simp only [sigC, List.getElem?_map, ht]; rfl) hn
    exact ⟨d, a, kb, ka, e2, e3, e4.subset (by simp), fun x hx => e4.subset (by simp [hsub x hx])⟩

/-- The call expression of the specification: the object first (in methods), then one expression per argument. -/
def callText (c : Class) (m : Method) (exprs : List Text) : Text :=
  c.func m ++ lit "(" ++ commaJoin ((if m.variant.isMethod then [lit "this->self_"] else []) ++ exprs) ++ lit ");"

/-- What stands in front of the body of the definition of a member of a class (`{name}Wrapper<OWN_DATA>`, or `{name}` for plain
ones). -/
def headSpec (c : Class) (retTy name args tail : Text) : Text :=
  (if c.plain then lit "\n    inline " else lit "\n    template<bool OWN_DATA>\n    inline ") ++ retTy ++ lit " " ++ c.cppName ++
    (if c.plain then lit "::" else lit "<OWN_DATA>::") ++ name ++ lit "(" ++ args ++ lit ") " ++ tail ++ lit "noexcept\n    {\n"

theorem implHead_eq : implHead = headSpec := by
  funext c r n a t
  unfold implHead headSpec
  by_cases h : c.plain = true
  · rw [if_pos h, if_pos h, if_pos h]
  · rw [if_neg h, if_neg h, if_neg h]

/-- How a member function ends: an argument that is turned into the result is returned by name; otherwise the result of the
C function is returned as it is or converted, by the code of its rule applied to the variable `ret` (a result variable of
its own, if the code needs one). -/
def ReturnSpec (m : Method) (g : Sig) (retTy after ret : Text) : Prop :=
  match (g.input.zip m.argNames).find? (fun p => p.1.info.inputToOutput) with
  | some (t, n) => retTy = cppRetType ((t.info.converter.map (·.typename)).getD t.info.name) ∧
    after = lit "\n        return " ++ n ++ lit ";\n" ++ lit "\n    }\n"
  | none => retTy = cppRetType ((g.output.info.converter.map (·.typename)).getD g.output.info.name) ∧
    if g.output.info.name = lit "void" then after = lit "\n    }\n"
    else match g.output.info.converter with
      | none => after = lit "\n" ++ lit "        return " ++ ret ++ lit ";" ++ lit "\n    }\n"
      | some cv => ∃ cr known known' code, cr ∉ m.argNames ∧ cr ≠ ret ∧ (∀ x ∈ cr :: ret :: m.argNames, x ∈ known) ∧
        cv.code.generateWithSubst (cppSubst ret (cv.typename ++ ' ' :: cr) cr) known = some (code, known') ∧
        after = lit "\n" ++ (if cv.code.hasParam toVarType then code ++ lit "\n        return " ++ cr ++ lit ";"
          else lit "        return " ++ code ++ lit ";") ++ lit "\n    }\n"

theorem inOut_find {m : Method} : ∀ (l : List (FTy × Text)) (cur io : Option (FTy × Text)), inOut m cur l = .ok io →
    io = cur.or (l.find? fun p => p.1.info.inputToOutput) ∧
    ((l.find? fun p => p.1.info.inputToOutput).isSome = true → m.variant ≠ .ctor ∧ m.output = none ∧ cur = none) := by
  intro l
  induction l with
  | nil => intro cur io h; cases h; exact ⟨by cases cur <;> rfl, by simp⟩
  | cons a l ih =>
    intro cur io h
    obtain ⟨t, n⟩ := a
    unfold inOut at h
    split at h
    · rename_i hio
      split at h
      · cases h
      · rename_i hc
        split at h
        · cases h
        · rename_i hcur
          split at h
          · cases h
          · rename_i hout
            have hcur' : cur = none := by simpa using hcur
            subst hcur'
            rw [List.find?_cons_of_pos (by simpa using hio)]
            exact ⟨(ih _ _ h).1, fun _ => ⟨hc, by simpa using hout, rfl⟩⟩
    · rename_i hio
      rw [List.find?_cons_of_neg (by simpa using hio)]
      exact ih _ _ h

theorem known_args {m : Method} {known : List Text} (hk : knownNames m = .ok known) : ∀ x ∈ m.argNames, x ∈ known := by
  unfold knownNames at hk
  split at hk
  · split at hk
    · cases hk
    · cases hk; intro x hx; exact List.mem_cons_of_mem _ hx
  · cases hk; exact fun x hx => hx

theorem return_of_prepare {m : Method} {g : Sig} {p : Prep} (hp : prepare m g = .ok p) (hc : m.variant ≠ .ctor)
    (hout : m.output = none → g.output = unitTy (lit "void")) (args : Text) : ∃ after, ReturnSpec m g p.retTy after p.ret ∧
      ∀ f, implCall g.output.info f args p.ret p.convRet p.io = lit "\n        " ++
        ((if g.output.info.name = lit "void" then [] else g.output.info.name ++ lit " " ++ p.ret ++ lit " = ") ++
          (f ++ lit "(" ++ (args ++ lit ");")) ++ after) := by
  obtain ⟨known, cr, known', hk, hr, hcr, hconv, hio, hret, _, _⟩ := prepare_ok hp
  obtain ⟨hfind, hfin⟩ := inOut_find _ _ _ hio
  rw [Option.none_or] at hfind
  have l1 : lit ");\n" = lit ");" ++ lit "\n" := by unfold lit; decide
  unfold ReturnSpec
  rw [← hfind] at hfin ⊢
  cases hi : p.io with
  | some q =>
    obtain ⟨t, n⟩ := q
    rw [hi] at hfin
    have hvoid := hout (hfin rfl).2.1
    refine ⟨_, ⟨?_, rfl⟩, fun f => ?_⟩
    · rw [hi] at hret
      simp only [retCode, Option.map_some, Option.getD_some, Option.isNone_some, Bool.false_eq_true, if_false] at hret
      cases hcv : t.info.converter with
      | none => rw [hcv] at hret; simp only [Except.ok.injEq, Prod.mk.injEq] at hret; exact hret.1.symm
      | some cv => rw [hcv] at hret; simp only [Except.ok.injEq, Prod.mk.injEq] at hret; exact hret.1.symm
    · rw [hvoid]
      have : (unitTy (lit "void")).info.name = lit "void" := rfl
      rw [implCall, this, if_neg (by simp), if_pos rfl]
      simp only [inOutRet, List.append_assoc, List.nil_append]
  | none =>
    rw [hi] at hret
    simp only [retCode, Option.map_none, Option.getD_none, Option.isNone_none, if_true] at hret
    have hty : p.retTy = cppRetType ((g.output.info.converter.map (·.typename)).getD g.output.info.name) := by
      cases hcv : g.output.info.converter with
      | none => rw [hcv] at hret; simp only [Except.ok.injEq, Prod.mk.injEq] at hret; exact hret.1.symm
      | some cv =>
        rw [hcv] at hret
        simp only [bind_ok, orErr_ok, Prod.exists] at hret
        obtain ⟨code, k2, h1, h2⟩ := hret
        split at h2 <;> simp only [Except.ok.injEq, Prod.mk.injEq] at h2 <;> exact h2.1.symm
    by_cases hvoid : g.output.info.name = lit "void"
    · refine ⟨lit "\n    }\n", ⟨hty, by rw [if_pos hvoid]⟩, fun f => ?_⟩
      rw [implCall, if_neg (by simp [hvoid]), if_pos hvoid]
      simp only [inOutRet, List.append_assoc, List.nil_append]
    · refine ⟨lit "\n" ++ p.convRet ++ lit "\n    }\n", ⟨hty, ?_⟩, fun f => ?_⟩
      · rw [if_neg hvoid]
        cases hcv : g.output.info.converter with
        | none =>
          rw [hcv] at hret
          simp only [Except.ok.injEq, Prod.mk.injEq] at hret
          simp only [← hret.2, List.append_assoc]
        | some cv =>
          rw [hcv] at hret
          simp only [bind_ok, orErr_ok, Prod.exists] at hret
          obtain ⟨code, k2, h1, h2⟩ := hret
          have hf := Flapi.NameGen.C01_fresh _ _ _ hcr
          have ha := known_args hk
          rw [List.mem_cons, not_or] at hf
          have hsuf : cr :: p.ret :: known <:+ known' := by
            have h' : Flapi.Cpp.convArgsLoop ([] : List Text).flatten (commaJoin []) ([] : List Text).length (cr :: p.ret :: known)
                ((sigC g).input.zip m.argNames) = some (p.convCode, p.callArgs, known') := hconv
            obtain ⟨_, _, -, -, -, -, h, -, -⟩ := Flapi.Cpp.convArgsLoop_eq _ _ _ _ _ _ _ h'
            exact h
          refine ⟨cr, known', k2, code, fun hx => hf.2 (ha _ hx), hf.1, ?_, h1, ?_⟩
          · intro x hx
            apply hsuf.subset
            simp only [List.mem_cons] at hx ⊢
            rcases hx with h | h | h
            · exact .inl h
            · exact .inr (.inl h)
            · exact .inr (.inr (ha x h))
          · split at h2
            · rename_i hpar
              simp only [Except.ok.injEq, Prod.mk.injEq] at h2
              rw [if_pos hpar, h2.2]
            · rename_i hpar
              simp only [Except.ok.injEq, Prod.mk.injEq] at h2
              rw [if_neg hpar, h2.2]
      · rw [implCall, if_pos hvoid, if_neg hvoid]
        simp only [l1, List.append_assoc]

theorem zip_get {α β} {l : List α} {k : List β} {i : Nat} {a : α} {b : β} (h1 : l[i]? = some a) (h2 : k[i]? = some b) :
    (l.zip k)[i]? = some (a, b) := by
  rw [List.getElem?_zip_eq_some]; exact ⟨h1, h2⟩

/-- **C61**: the C++ class declares every method with its own access, return type, name, parameters and constness, and
defines it with the same ones; the definition calls the exported function of that method with the object (in methods) and
one expression per argument, each made from that argument; the result is stored in a variable of the declared C type whose
name is none of the argument names; then it is converted and returned (`ReturnSpec`).  Constructors do the same inside the
class. -/
theorem C61_cpp_members {σ} (ws : Char → Bool) (width : Nat) (tm : TypeMap σ) (s : σ) (c : Class) (out : Out)
    (h : generate ws width tm s c = .ok out) :
    ∃ (gs : List Sig) (s1 : σ) (pre post : List (Access × Text)) (members bodies : List Text),
      findSigs tm s c.methods = .ok (gs, s1) ∧
      members.length = c.methods.length ∧ bodies.length = c.methods.length ∧
      accesses .pub out.cpp = pre ++ ((c.methods.map (·.access)).zip members) ++ post ∧ out.impl = bodies.flatten ∧
      ∀ (i : Nat) m g, c.methods[i]? = some m → gs[i]? = some g →
        ∃ (retTy : Text) (exprs : List Text) (code after ret : Text), exprs.length = m.args.length ∧ ret ∉ m.argNames ∧
        (∀ (j : Nat) t n, g.input[j]? = some t → m.argNames[j]? = some n →
          ∃ d a kb ka, exprs[j]? = some a ∧ convArg t.info n j kb = some (d, a, ka) ∧ ret ∈ kb ∧ ∀ x ∈ m.argNames, x ∈ kb) ∧
        (let params := cppArgsWithTypes (sigC g) m.argNames
         let docs := Flapi.Comments.docToC ws m.docs false
         let store := if g.output.info.name = lit "void" then [] else g.output.info.name ++ lit " " ++ ret ++ lit " = "
         (m.variant ≠ .ctor → ReturnSpec m g retTy after ret) ∧
         (m.variant = .static →
          members[i]? = some (docs ++ lit "\n    static " ++ retTy ++ lit " " ++ m.shortName ++ lit "(" ++ params ++ lit ") noexcept;\n") ∧
          bodies[i]? = some (headSpec c retTy m.shortName params [] ++ code ++ lit "\n        " ++ store ++ callText c m exprs ++ after)) ∧
         (∀ v, m.variant = .method v →
          members[i]? = some (docs ++ lit "\n    " ++ retTy ++ lit " " ++ m.shortName ++ lit "(" ++ params ++ lit ") " ++ constIf v ++
            lit "noexcept;\n") ∧
          bodies[i]? = some (headSpec c retTy m.shortName params (constIf v) ++ code ++ lit "\n        " ++ store ++
            callText c m exprs ++ after)) ∧
         (m.variant = .ctor → m.isDummy = false →
          members[i]? = some (docs ++ lit "\n    " ++ c.cppName ++ lit "(" ++ params ++ lit ") noexcept\n    {\n" ++ code ++
            lit "\n        this->self_ = " ++ callText c m exprs ++ after) ∧ bodies[i]? = some []) ∧
         (m.variant = .ctor → m.isDummy = true →
          members[i]? = some (docs ++ lit "\n    " ++ c.cppName ++ lit "() noexcept {}\n") ∧ bodies[i]? = some [])) := by
  obtain ⟨gs, s1, cc, cr, cm, st, ps, rss, dc, dr, dm, -, h1, h2, hs, hn, h4, rfl⟩ := generate_ok h
  obtain ⟨hl, hsig⟩ := findSigs_ok _ _ _ _ h1
  have hzl : (c.methods.zip gs).length = c.methods.length := by rw [List.length_zip]; omega
  refine ⟨gs, s1, accesses .pub cm, accesses (lastAccess .pub st.cpp) (dm ++ foreignStuff c ++ fieldStuff c),
    ((c.methods.zip gs).zip ps).map (fun x => memberText ws c x.1.1 x.2),
    ((c.methods.zip gs).zip ps).map (fun x => implText c x.1.1 x.1.2 x.2), h1, ?_, ?_, ?_, ?_, ?_⟩
  · rw [List.length_map, List.length_zip, hs.lenP, Nat.min_self, hzl]
  · rw [List.length_map, List.length_zip, hs.lenP, Nat.min_self, hzl]
  · simp only [List.append_assoc]
    rw [accesses_append, hs.acc]
    simp only [startSt, List.append_assoc]
    congr 2
    have hp := hs.lenP
    rw [hzl] at hp
    generalize c.methods = ms at hl hp
    clear hs hsig hzl h1
    induction ms generalizing gs ps with
    | nil => rfl
    | cons m ms ih =>
      cases gs with
      | nil => simp at hl
      | cons g gs => cases ps with
        | nil => simp at hp
        | cons p ps => simp [ih gs ps (by simpa using hl) (by simpa using hp)]
  · simp only [hs.impl, startSt, List.nil_append]
  · intro i m g hm hg
    obtain ⟨p, rs, sa, sb, hp0, _, hp, _⟩ := hs.each i (m, g) (zip_get hm hg)
    have hx : ((c.methods.zip gs).zip ps)[i]? = some ((m, g), p) := zip_get (zip_get hm hg) hp0
    obtain ⟨exprs, he1, he2, he3⟩ := exprs_of_prepare hp (hsig i m g hm hg).len
    obtain ⟨known, cr, known', hk, hr, hcr, hconv, _, _, _, hcpp⟩ := prepare_ok hp
    have hret : p.ret ∉ m.argNames := by
      have := Flapi.NameGen.C01_fresh _ _ _ hr
      intro hin
      apply this
      unfold knownNames at hk
      split at hk
      · split at hk
        · cases hk
        · cases hk; exact List.mem_cons_of_mem _ hin
      · cases hk; exact hin
    have hcall : callText c m exprs = c.func m ++ lit "(" ++
        ((if m.variant.isMethod then lit "this->self_" ++ afterSelf m p.callArgs else p.callArgs) ++ lit ");") := by
      rw [callText, he2]
      by_cases hv : m.variant.isMethod = true
      · simp only [hv, if_true, List.singleton_append, afterSelf]
        cases exprs with
        | nil =>
          have : m.args = [] := List.length_eq_zero_iff.1 (by simpa using he1.symm)
          simp only [this, List.isEmpty_nil, if_true, commaJoin, List.append_nil, List.append_assoc]
        | cons e es =>
          have : m.args.isEmpty = false := by
            cases hma : m.args with
            | nil => rw [hma] at he1; simp at he1
            | cons _ _ => rfl
          rw [commaJoin_cons _ _ (by simp), this, if_neg Bool.false_ne_true]
          simp only [List.append_assoc]
      · simp only [hv, Bool.false_eq_true, if_false, List.nil_append, List.append_assoc]
    have hout : m.variant ≠ .ctor → m.output = none → g.output = unitTy (lit "void") := by
      intro hc ho
      rcases (hsig i m g hm hg).out with ⟨h1, _⟩ | ⟨_, _, h2⟩ | ⟨_, ty, _, _, h1, _⟩
      · exact absurd h1 hc
      · exact h2
      · rw [ho] at h1; cases h1
    cases hv : m.variant with
    | static =>
      have hnc : m.variant ≠ .ctor := by rw [hv]; exact nofun
      obtain ⟨after, hspec, ha⟩ := return_of_prepare hp hnc (hout hnc) p.callArgs
      replace ha := ha (c.func m)
      refine ⟨p.retTy, exprs, p.convCode, after, p.ret, he1, hret, he3, fun _ => hspec, ?_, ?_, ?_, ?_⟩
      · intro _
        rw [List.getElem?_map, List.getElem?_map, hx]
        simp only [hv, Variant.isMethod, Bool.false_eq_true, if_false] at hcall
        simp only [Option.map_some, memberText, implText, implHead_eq, hv, ha, hcall, hcpp, List.append_assoc]
        refine ⟨?_, ?_⟩ <;> first | trivial | rfl
      · intro v hv'; cases hv'
      · intro hv'; cases hv'
      · intro hv'; cases hv'
    | method v =>
      have hnc : m.variant ≠ .ctor := by rw [hv]; exact nofun
      obtain ⟨after, hspec, ha⟩ := return_of_prepare hp hnc (hout hnc) (lit "this->self_" ++ afterSelf m p.callArgs)
      replace ha := ha (c.func m)
      refine ⟨p.retTy, exprs, p.convCode, after, p.ret, he1, hret, he3, fun _ => hspec, ?_, ?_, ?_, ?_⟩
      · intro hv'; cases hv'
      · intro v' hv'
        cases hv'
        rw [List.getElem?_map, List.getElem?_map, hx]
        simp only [hv, Variant.isMethod, if_true] at hcall
        simp only [Option.map_some, memberText, implText, implHead_eq, hv, ha, hcall, hcpp, List.append_assoc]
        refine ⟨?_, ?_⟩ <;> first | trivial | rfl
      · intro hv'; cases hv'
      · intro hv'; cases hv'
    | ctor =>
      refine ⟨p.retTy, exprs, p.convCode,
        lit "\n        if (this->self_ == nullptr) {\n            std::abort();\n        }\n    }\n", p.ret, he1, hret, he3,
        fun h => absurd rfl h, ?_, ?_, ?_, ?_⟩
      · intro hv'; cases hv'
      · intro v hv'; cases hv'
      · intro _ hd
        rw [List.getElem?_map, List.getElem?_map, hx]
        simp only [hv, Variant.isMethod, Bool.false_eq_true, if_false] at hcall
        have l1 : lit ");\n        if (this->self_ == nullptr) {\n            std::abort();\n        }\n    }\n" =
          lit ");" ++ lit "\n        if (this->self_ == nullptr) {\n            std::abort();\n        }\n    }\n" := by
            unfold lit; decide +kernel
        simp only [Option.map_some, memberText, implText, hv, hd, Bool.false_eq_true, if_false, hcall, hcpp, l1, List.append_assoc]
        refine ⟨?_, ?_⟩ <;> first | trivial | rfl
      · intro _ hd
        rw [List.getElem?_map, List.getElem?_map, hx]
        simp only [Option.map_some, memberText, implText, hv, hd, if_true, List.append_assoc]
        refine ⟨?_, ?_⟩ <;> first | trivial | rfl

/-- **C61**: the words that decide the shape of a class: it is a plain class (its own name, no ownership parameter) exactly if `PlainClass`
is derived, otherwise a template called `NameWrapper`; it is copied by value exactly if `Copy`, through the smart pointer only if
`SmartPtrCopy` is derived; it has no object exactly if all its methods are static. -/
theorem C61_class_kinds (c : Class) :
    (c.plain = true ↔ "PlainClass".toList ∈ c.derives) ∧ (c.copyDerived = true ↔ "Copy".toList ∈ c.derives) ∧
    (c.smartPtrCopyDerived = true ↔ "SmartPtrCopy".toList ∈ c.derives) ∧ (c.staticOnly = true ↔ ∀ m ∈ c.methods, m.variant = .static) ∧
    ("PlainClass".toList ∈ c.derives → c.cppName = c.name) ∧
    ("PlainClass".toList ∉ c.derives → c.cppName = c.name ++ "Wrapper".toList) := by
  have h1 : lit "PlainClass" = "PlainClass".toList := by unfold lit; rfl
  have h2 : lit "Copy" = "Copy".toList := by unfold lit; rfl
  have h3 : lit "SmartPtrCopy" = "SmartPtrCopy".toList := by unfold lit; rfl
  have h4 : lit "Wrapper" = "Wrapper".toList := by unfold lit; rfl
  rw [← h1, ← h2, ← h3, ← h4]
  have hp : c.plain = true ↔ lit "PlainClass" ∈ c.derives := by simp [Class.plain]
  refine ⟨hp, by simp [Class.copyDerived], by simp [Class.smartPtrCopyDerived], by simp [Class.staticOnly], fun h => ?_, fun h => ?_⟩
  · simp [Class.cppName, hp.2 h]
  · have : c.plain = false := by
      cases hq : c.plain with
      | false => rfl
      | true => exact absurd (hp.1 hq) h
    simp [Class.cppName, this]

/-- **C61**: the rest of the class body: the copy members come first and are public; after the methods come the private
`free_mem` and the public destructor, the user's own code (public), and the private pointer.  A class with static methods only
has none of these. -/
theorem C61_cpp_frame {σ} (ws : Char → Bool) (width : Nat) (tm : TypeMap σ) (s : σ) (c : Class) (out : Out)
    (h : generate ws width tm s c = .ok out) :
    ∃ (copies : List Text) (members : List Text), members.length = c.methods.length ∧
      accesses .pub out.cpp = (copies.map fun t => (.pub, t)) ++ ((c.methods.map (·.access)).zip members) ++
        (if c.staticOnly then (foreignStuff c).flatMap fun x =>
            match x with | .member t => [(((c.methods.getLast?.map (·.access)).getD .pub), t)] | .label _ => []
         else
          [(.priv, lit "   static void free_mem(SelfType &p) noexcept\n   {\n        if (" ++
              (if c.plain then [] else lit "OWN_DATA && ") ++ lit "p != nullptr) {\n            " ++ (c.name ++ lit "_delete") ++
              lit "(p);\n        }\n        p = nullptr;\n   }\n"),
           (.pub, lit "    ~" ++ c.cppName ++ lit "() noexcept\n    {\n        free_mem(this->self_);\n    }\n")] ++
          ((foreignStuff c).flatMap fun x => match x with | .member t => [(.pub, t)] | .label _ => []) ++
          [(.priv, lit "    SelfType self_;\n")]) ∧
      (c.staticOnly = true → copies = []) ∧
      ((c.copyDerived || c.smartPtrCopyDerived) = false → copies = []) ∧
      ((c.copyDerived || c.smartPtrCopyDerived) = true → c.staticOnly = false → ∃ p, copies = [lit "self_ = " ++ p ++ lit "(o.self_);"] ∧
        (c.copyDerived = true → ∃ m ∈ c.methods, m.path.getLast? = some (lit "clone") ∧ p = c.func m) ∧
        (c.copyDerived = false → (cloneProtos c).map (·.symbol) = [p])) := by
  obtain ⟨gs, s1, cc, cr, cm, st, ps, rss, dc, dr, dm, hmc, h1, h2, hs, hn, h4, rfl⟩ := generate_ok h
  obtain ⟨hl, hsig⟩ := findSigs_ok _ _ _ _ h1
  have hzl : (c.methods.zip gs).length = c.methods.length := by rw [List.length_zip]; omega
  have hmem : ((c.methods.zip gs).zip ps).map (fun x => (x.1.1.access, memberText ws c x.1.1 x.2)) =
      (c.methods.map (·.access)).zip (((c.methods.zip gs).zip ps).map (fun x => memberText ws c x.1.1 x.2)) := by
    have hp := hs.lenP
    rw [hzl] at hp
    generalize c.methods = ms at hl hp
    clear hs hsig hzl h1
    induction ms generalizing gs ps with
    | nil => rfl
    | cons m ms ih =>
      cases gs with
      | nil => simp at hl
      | cons g gs => cases ps with
        | nil => simp at hp
        | cons p ps => simp [ih gs ps (by simpa using hl) (by simpa using hp)]
  have hstat : c.staticOnly = !(c.methods.any fun m => decide (m.variant = .ctor)) := by
    rw [Bool.eq_iff_iff]
    simp only [Class.staticOnly, List.all_eq_true, decide_eq_true_eq, Bool.not_eq_true', List.any_eq_false]
    constructor
    · intro ha x hx hc
      rw [ha x hx] at hc; cases hc
    · intro ha x hx
      cases hv : x.variant with
      | static => rfl
      | ctor => exact absurd hv (ha x hx)
      | method v =>
        have := hmc (List.any_eq_true.2 ⟨x, hx, by rw [hv]; rfl⟩)
        rw [List.any_eq_true] at this
        obtain ⟨y, hy, hyc⟩ := this
        exact absurd (by simpa using hyc) (ha y hy)
  have hcopies : ∃ copies : List Text, cm = copies.map (fun t => Piece.member t) ∧ (c.staticOnly = true → copies = []) ∧
      ((c.copyDerived || c.smartPtrCopyDerived) = false → copies = []) ∧
      ((c.copyDerived || c.smartPtrCopyDerived) = true → c.staticOnly = false → ∃ p, copies = [lit "self_ = " ++ p ++ lit "(o.self_);"] ∧
        (c.copyDerived = true → ∃ m ∈ c.methods, m.path.getLast? = some (lit "clone") ∧ p = c.func m) ∧
        (c.copyDerived = false → (cloneProtos c).map (·.symbol) = [p])) := by
    unfold copyPart at h2
    split at h2
    · rename_i hst
      cases h2
      exact ⟨[], rfl, fun _ => rfl, fun _ => rfl, fun _ h => by rw [hst] at h; cases h⟩
    · rename_i hst
      unfold copyStuff at h2
      split at h2
      · rename_i hc
        simp only [bind_ok, orErr_ok, Except.ok.injEq, Prod.mk.injEq] at h2
        obtain ⟨m, hf, _, _, rfl⟩ := h2
        refine ⟨[lit "self_ = " ++ c.func m ++ lit "(o.self_);"], rfl, fun h => absurd h hst, fun h => ?_, fun _ _ => ?_⟩
        · rw [hc] at h; cases h
        · refine ⟨_, rfl, fun _ => ⟨m, List.mem_of_find?_eq_some hf, by simpa using List.find?_some hf, rfl⟩, fun h => ?_⟩
          rw [hc] at h; cases h
      · rename_i hc
        split at h2
        · rename_i hsm
          simp only [bind_ok, orErr_ok, Except.ok.injEq, Prod.mk.injEq] at h2
          obtain ⟨d, _, _, _, rfl⟩ := h2
          refine ⟨[lit "self_ = " ++ cFuncName .priv c.name (lit "clone") ++ lit "(o.self_);"], rfl, fun h => absurd h hst, fun h => ?_,
            fun _ _ => ⟨_, rfl, fun h => absurd h hc, fun _ => ?_⟩⟩
          · rw [hsm] at h; simp at h
          · have : (!c.staticOnly && !c.copyDerived && c.smartPtrCopyDerived) = true := by simp [hst, hc, hsm]
            rw [cloneProtos_eq, if_pos this]; rfl
        · rename_i hsm
          cases h2
          refine ⟨[], rfl, fun _ => rfl, fun _ => rfl, fun h _ => ?_⟩
          simp [hc, hsm] at h
  obtain ⟨copies, rfl, hc1, hc2, hc3⟩ := hcopies
  have hcacc : accesses .pub (copies.map fun t => Piece.member t) = copies.map (fun t => (.pub, t)) := by
    clear hc1 hc2 hc3 hs h2 h
    induction copies with
    | nil => rfl
    | cons x l ih => simp [accesses, ih]
  have hfor : ∀ a, accesses a (foreignStuff c) = (foreignStuff c).flatMap (fun x => match x with | .member t => [(a, t)] | .label _ => []) ∧
      lastAccess a (foreignStuff c) = a := by
    intro a
    unfold foreignStuff
    split <;> exact ⟨rfl, rfl⟩
  have hlast : lastAccess .pub st.cpp = (c.methods.getLast?.map (·.access)).getD .pub := by
    rw [hs.lastM]
    have hcm' : lastAccess .pub (copies.map fun t => Piece.member t) = .pub := by
      clear hc1 hc2 hc3 hs h2 h hcacc
      induction copies with
      | nil => rfl
      | cons x l ih => simpa [lastAccess] using ih
    simp only [startSt, hcm']
    have e : (c.methods.zip gs).map (·.1) = c.methods := List.map_fst_zip (by omega)
    conv => rhs; rw [← e, List.getLast?_map, Option.map_map]
    rfl
  refine ⟨copies, ((c.methods.zip gs).zip ps).map (fun x => memberText ws c x.1.1 x.2), ?_, ?_, hc1, hc2, hc3⟩
  · rw [List.length_map, List.length_zip, hs.lenP, Nat.min_self, hzl]
  · simp only [List.append_assoc]
    rw [accesses_append, hs.acc]
    simp only [startSt, hcacc, hmem, List.append_assoc]
    congr 2
    rw [hn] at h4
    by_cases hst : c.staticOnly = true
    · have hnc : (c.methods.any fun m => decide (m.variant = .ctor)) = false := by rw [hst] at hstat; simpa using hstat.symm
      rw [hnc] at h4
      simp only [dtorStuff, hst, Bool.false_eq_true, if_false, Bool.not_true] at h4
      cases h4
      simp only [fieldStuff, hst, if_true, List.append_nil, List.nil_append]
      rw [(hfor _).1, hlast]
    · have hnc : (c.methods.any fun m => decide (m.variant = .ctor)) = true := by
        have : c.staticOnly = false := by simpa using hst
        rw [this] at hstat; simpa using hstat.symm
      rw [hnc] at h4
      simp only [dtorStuff, if_true, bind_ok, orErr_ok, Except.ok.injEq, Prod.mk.injEq] at h4
      obtain ⟨d, hd, _, _, rfl⟩ := h4
      rw [if_neg hst]
      simp only [fieldStuff, if_neg hst, List.cons_append, List.nil_append, accesses]
      rw [accesses_append, (hfor _).1, (hfor _).2]
      simp only [accesses, List.append_assoc]

/-! ### Values -/

/-- **C61**: what a call of an exported function does.  For every method, static method and constructor there is an
exported Rust function under the method's symbol such that, whatever the conversions, the user's functions and inline blocks do
to the state of the program: called with one value per parameter it converts the arguments from left to right, each by
the code the type map gave for exactly the pair of types of *its* position; runs the user's function (or block) once, on the
converted arguments, preceded — in methods — by the converted reference (shared for `&self`, unique for `&mut self`) to the object passed first; converts its result, or
moves the new object to the heap; and does nothing else.  A conversion that returns early skips everything after it.  (Arguments
have different names, as Rust requires.) -/
theorem C61_values {σ} (ws : Char → Bool) (width : Nat) (tm : TypeMap σ) (s : σ) (c : Class) (out : Out)
    (h : generate ws width tm s c = .ok out) (i : Nat) (m : Method) (hm : c.methods[i]? = some m) (hd : m.isEmptyCtor = false)
    (hnd : m.argNames.Nodup) :
    ∃ gs s1 g f, findSigs tm s c.methods = .ok (gs, s1) ∧ gs[i]? = some g ∧ RItem.fn f ∈ out.rust ∧
      (f.name, f.params, f.ret) = (protoOf c m g).rust ∧
      ∃ codes, ArgCodes tm m g codes ∧ ∀ (S V : Type) (w : World S V) (env : Text → V) (vs : List V), vs.length = m.args.length →
        (m.variant = .static → ∃ ko, OutCode tm m g ko ∧
          f.run w env vs = do
            let xs ← convAll w codes vs
            let r ← userCode w m xs
            outConv w ko r) ∧
        (∀ v, m.variant = .method v → ∃ ko kt, OutCode tm m g ko ∧
          (∃ fr tt sa r d sb, SelfRef v (pointsTo c) c.selfTy fr tt ∧ RStmt.refThis fr ∈ f.body ∧ tm.convert sa fr tt thisW r = some (d, kt, sb)) ∧
          ∀ obj, f.run w env (obj :: vs) = do
            let xs ← convAll w codes vs
            let o ← w.deref obj
            let o ← w.conv kt o
            let r ← userCode w m (o :: xs)
            outConv w ko r) ∧
        (m.variant = .ctor → ∃ desc kt, c.selfDesc = some desc ∧
          (∃ sa r d sb, tm.convert sa desc.ctorRet desc.ctorRet thisW r = some (d, kt, sb)) ∧
          f.run w env vs = do
            let xs ← convAll w codes vs
            let r ← userCode w m xs
            let r ← w.conv kt r
            w.toHeap desc.holder r) := by
  obtain ⟨gs, s1, cc, cr, cm, st, ps, rss, dc, dr, dm, -, h1, h2, hs, hn, h4, rfl⟩ := generate_ok h
  obtain ⟨hl, hsig⟩ := findSigs_ok _ _ _ _ h1
  have hi : i < gs.length := by rw [hl]; exact (List.getElem?_eq_some_iff.1 hm).1
  have hg : gs[i]? = some gs[i] := List.getElem?_eq_getElem hi
  generalize gs[i] = g at hg
  obtain ⟨p, rs, sa, sb, hp0, hr0, hp, hru⟩ := hs.each i (m, g) (zip_get hm hg)
  have hlen := (hsig i m g hm hg).len
  have hrin : ∀ x ∈ rs, x ∈ st.rust := by
    intro x hx
    rw [hs.rust]
    exact List.mem_append_right _ (List.mem_flatten.2 ⟨rs, List.mem_of_getElem? hr0, hx⟩)
  have hsg := rustOf_sig hru
  rw [hd, if_neg Bool.false_ne_true] at hsg
  have hnames : (rustArgs m g).map (·.1) = m.argNames := rustArgs_names m g hlen
  have hal : m.argNames.length = m.args.length := by simp [Method.argNames]
  unfold rustOf at hru
  cases hv : m.variant with
  | static =>
    simp only [hv, genStatic, bind_ok, Prod.exists, Except.ok.injEq, Prod.mk.injEq] at hru
    obtain ⟨dOut, cOut, s2, ho, dIn, cIn, s3, hin, rfl, _⟩ := hru
    obtain ⟨codes, e1, rfl⟩ := inputs_ok hlen hin
    obtain ⟨ko, e2, rfl⟩ := output_ok ho
    rw [List.filterMap_append, support_sig] at hsg
    simp only [List.filterMap_cons, RItem.signature, List.filterMap_nil, List.nil_append, List.cons.injEq, and_true] at hsg
    refine ⟨gs, s1, g, _, h1, hg, List.mem_append_left _ (hrin _ (List.mem_append_right _ (List.mem_singleton.2 rfl))), hsg, codes,
      e1, fun S V w env vs hvs => ⟨fun _ => ⟨ko, e2, ?_⟩, fun _ hc => (by cases hc), fun hc => (by cases hc)⟩⟩
    have hb := bindAll_names m.argNames vs env hnd (by rw [hal]; exact hvs)
    simp only [RustFn.run, hnames]
    exact run_static w _ m codes ko _ _ vs (by rw [hv]; rfl) hnd (by rw [hal]; exact e1.1) hb
  | method v =>
    simp only [hv, genMethod, bind_ok, orErr_ok, Prod.exists, Except.ok.injEq, Prod.mk.injEq] at hru
    obtain ⟨dIn, cIn, s2, hin, dOut, cOut, s3, ho, fr, tt, hty, dT, kt, s4, hT, rfl, _⟩ := hru
    obtain ⟨codes, e1, rfl⟩ := inputs_ok hlen hin
    obtain ⟨ko, e2, rfl⟩ := output_ok ho
    rw [List.filterMap_append, support_sig] at hsg
    simp only [List.filterMap_cons, RItem.signature, List.filterMap_nil, List.nil_append, List.cons.injEq, and_true] at hsg
    refine ⟨gs, s1, g, _, h1, hg, List.mem_append_left _ (hrin _ (List.mem_append_right _ (List.mem_singleton.2 rfl))), hsg, codes,
      e1, fun S V w env vs hvs => ⟨fun hc => (by cases hc), fun v' hv' => ?_, fun hc => (by cases hc)⟩⟩
    cases hv'
    refine ⟨ko, kt, e2, ⟨fr, tt, _, _, _, _, suitable_ref (pointsTo_eq c ▸ hty), by simp, hT⟩, fun obj => ?_⟩
    have hthis : thisW ∉ m.argNames := by
      obtain ⟨known, _, _, hk, _⟩ := prepare_ok hp
      unfold knownNames at hk
      rw [hv] at hk
      simp only [Variant.isMethod, if_true] at hk
      split at hk
      · cases hk
      · rename_i hc; simpa using hc
    have hb := bindAll_names m.argNames vs (Exported.set env thisW obj) hnd (by rw [hal]; exact hvs)
    have hbt := bindAll_other m.argNames vs (Exported.set env thisW obj) thisW hthis
    rw [set_same] at hbt
    simp only [RustFn.run, List.map_cons, hnames, bindAll]
    exact run_method w _ m codes ko _ _ _ kt obj vs (by rw [hv]; rfl) hnd (by rw [hal]; exact e1.1) hthis hb hbt
  | ctor =>
    have hdm : m.isDummy = false := by simpa [Method.isEmptyCtor, hv] using hd
    simp only [hv, hdm, Bool.false_eq_true, if_false, genCtor, bind_ok, orErr_ok, Prod.exists, Except.ok.injEq, Prod.mk.injEq] at hru
    obtain ⟨d, hsd, dIn, cIn, s2, hin, dT, kt, s3, hT, rfl, _⟩ := hru
    obtain ⟨codes, e1, rfl⟩ := inputs_ok hlen hin
    rw [List.filterMap_append, support_sig] at hsg
    simp only [List.filterMap_cons, RItem.signature, List.filterMap_nil, List.nil_append, List.cons.injEq, and_true] at hsg
    refine ⟨gs, s1, g, _, h1, hg, List.mem_append_left _ (hrin _ (List.mem_append_right _ (List.mem_singleton.2 rfl))), hsg, codes,
      e1, fun S V w env vs hvs => ⟨fun hc => (by cases hc), fun _ hc => (by cases hc), fun _ => ⟨d, kt, hsd, ⟨_, _, _, _, hT⟩, ?_⟩⟩⟩
    have hb := bindAll_names m.argNames vs env hnd (by rw [hal]; exact hvs)
    simp only [RustFn.run, hnames]
    exact run_ctor w _ m codes _ kt (some d.holder) vs (by rw [hv]; rfl) hnd (by rw [hal]; exact e1.1) hb

/-- **C61**: what the functions that free and copy an object do.  The first takes the object back from the heap and drops it; the
second takes it back (without opening the smart pointer), and gives the heap pointer of a copy. -/
theorem C61_delete_clone {σ} (ws : Char → Bool) (width : Nat) (tm : TypeMap σ) (s : σ) (c : Class) (out : Out)
    (h : generate ws width tm s c = .ok out) :
    (∀ p ∈ deleteProtos c, ∃ f d, RItem.fn f ∈ out.rust ∧ (f.name, f.params, f.ret) = p.rust ∧ c.selfDesc = some d ∧
      ∀ (S V : Type) (w : World S V) (env : Text → V) (obj : V), f.run w env [obj] = do
        let o ← w.fromHeap d.holder false obj
        let _ ← w.drop o
        pure w.unit) ∧
    (∀ p ∈ cloneProtos c, ∃ f d, RItem.fn f ∈ out.rust ∧ (f.name, f.params, f.ret) = p.rust ∧ c.selfDesc = some d ∧
      ∀ (S V : Type) (w : World S V) (env : Text → V) (obj : V), f.run w env [obj] = do
        let o ← w.fromHeap d.holder true obj
        w.cloneBoxed o) := by
  obtain ⟨gs, s1, cc, cr, cm, st, ps, rss, dc, dr, dm, -, h1, h2, hs, hn, h4, rfl⟩ := generate_ok h
  constructor
  · intro p hp
    unfold deleteProtos at hp
    split at hp
    · rename_i hc
      rw [List.mem_singleton] at hp
      subst hp
      rw [hn, hc] at h4
      simp only [dtorStuff, if_true, bind_ok, orErr_ok, Except.ok.injEq, Prod.mk.injEq] at h4
      obtain ⟨d, hd, -, rfl, -⟩ := h4
      refine ⟨dtorFn c d, d, List.mem_append_right _ (List.mem_singleton.2 rfl), rfl, hd, fun S V w env obj => ?_⟩
      simp [RustFn.run, dtorFn, bindAll, runBody, tailValue, exec, set_same]
    · cases hp
  · intro p hp
    rw [cloneProtos_eq] at hp
    split at hp
    · rename_i hc
      rw [List.mem_singleton] at hp
      subst hp
      rw [Bool.and_eq_true, Bool.and_eq_true, Bool.not_eq_true', Bool.not_eq_true'] at hc
      obtain ⟨⟨c1, c2⟩, c3⟩ := hc
      simp only [copyPart, c1, Bool.false_eq_true, if_false, copyStuff, c2, c3, if_true, bind_ok, orErr_ok, Except.ok.injEq,
        Prod.mk.injEq] at h2
      obtain ⟨d, hd, -, rfl, -⟩ := h2
      refine ⟨cloneFn c d, d, ?_, ?_, hd, fun S V w env obj => ?_⟩
      · rw [hs.rust]
        refine List.mem_append_left _ (List.mem_append_left _ ?_)
        simp [startSt]
      · simp [cloneFn, Proto.rust, Param.rust, Result.rust, Class.thisTy, hd]
      · simp [RustFn.run, cloneFn, bindAll, runBody, tailValue, exec, set_same]
    · cases hp

/-! ### What is rejected -/

theorem inOut_ok {m : Method} : ∀ (l : List (FTy × Text)) (cur r : Option (FTy × Text)), inOut m cur l = .ok r →
    (l.filter fun x => x.1.info.inputToOutput).length + (if cur.isSome then 1 else 0) ≤ 1 ∧
    (∀ x ∈ l, x.1.info.inputToOutput = true → m.variant ≠ .ctor ∧ m.output = none) ∧
    (cur = none → r = (l.find? fun x => x.1.info.inputToOutput)) := by
  intro l
  induction l with
  | nil => intro cur r h; simp only [inOut, Except.ok.injEq] at h; subst h; refine ⟨?_, by simp, fun h => by simp [h]⟩; simp; split <;> omega
  | cons x l ih =>
    intro cur r h
    obtain ⟨t, n⟩ := x
    simp only [inOut] at h
    by_cases hx : t.info.inputToOutput = true
    · rw [if_pos hx] at h
      split at h
      · cases h
      · rename_i hv
        split at h
        · cases h
        · rename_i hcur
          split at h
          · cases h
          · rename_i ho
            obtain ⟨e1, e2, e3⟩ := ih _ _ h
            simp only [Option.isSome_some, if_true] at e1
            have hnone : l.filter (fun x => x.1.info.inputToOutput) = [] := List.length_eq_zero_iff.1 (by omega)
            refine ⟨?_, ?_, ?_⟩
            · simp [List.filter_cons, hx, hnone, hcur]
            · intro y hy hyt
              rcases List.mem_cons.1 hy with rfl | hy
              · exact ⟨hv, by simpa using ho⟩
              · exact e2 y hy hyt
            · intro _
              rw [List.find?_cons]
              simp only [hx]
              clear ih e3
              have hno : ∀ (l : List (FTy × Text)) cur r, l.filter (fun x => x.1.info.inputToOutput) = [] → inOut m cur l = .ok r → r = cur := by
                intro l
                induction l with
                | nil => intro cur r _ h; simp only [inOut, Except.ok.injEq] at h; exact h.symm
                | cons z l ih =>
                  intro cur r hf h
                  have hz : z.1.info.inputToOutput = false := by
                    rw [List.filter_eq_nil_iff] at hf
                    simpa using hf z (by simp)
                  simp only [inOut, hz, Bool.false_eq_true, if_false] at h
                  exact ih cur r (by rw [List.filter_cons] at hf; simpa [hz] using hf) h
              exact hno l _ r hnone h
    · rw [if_neg hx] at h
      obtain ⟨e1, e2, e3⟩ := ih _ _ h
      refine ⟨?_, ?_, ?_⟩
      · rw [List.filter_cons]; simpa [hx] using e1
      · intro y hy hyt
        rcases List.mem_cons.1 hy with rfl | hy
        · exact absurd hyt hx
        · exact e2 y hy hyt
      · intro hc
        rw [List.find?_cons]
        simp only [hx]
        exact e3 hc

/-- **C61**: what is accepted.  A class with methods has a constructor; no method takes an argument called `this` or takes its
object by value; an argument that is turned into the result is the only one of its method, the method declares no result
and is not a constructor; a class with a constructor knows the type of its objects; a class derived from `Copy` has a method
that calls a function named `clone`. -/
theorem C61_accepted {σ} (ws : Char → Bool) (width : Nat) (tm : TypeMap σ) (s : σ) (c : Class) (out : Out)
    (h : generate ws width tm s c = .ok out) :
    ((∃ m ∈ c.methods, m.variant.isMethod = true) → ∃ m ∈ c.methods, m.variant = .ctor) ∧
    ((∃ m ∈ c.methods, m.variant = .ctor) → c.selfDesc.isSome = true) ∧
    (c.copyDerived = true → (∃ m ∈ c.methods, m.variant ≠ .static) → ∃ m ∈ c.methods, m.path.getLast? = some (lit "clone")) ∧
    ∃ gs s1, findSigs tm s c.methods = .ok (gs, s1) ∧ ∀ (i : Nat) m g, c.methods[i]? = some m → gs[i]? = some g →
      (m.variant.isMethod = true → lit "this" ∉ m.argNames) ∧
      (∀ v, m.variant = .method v → v = .rptr ∨ v = .rptrMut) ∧
      (g.input.filter fun t => t.info.inputToOutput).length ≤ 1 ∧
      (∀ t ∈ g.input, t.info.inputToOutput = true → m.variant ≠ .ctor ∧ m.output = none) := by
  obtain ⟨gs, s1, cc, cr, cm, st, ps, rss, dc, dr, dm, hmc, h1, h2, hs, hn, h4, rfl⟩ := generate_ok h
  obtain ⟨hl, hsig⟩ := findSigs_ok _ _ _ _ h1
  refine ⟨?_, ?_, ?_, gs, s1, h1, ?_⟩
  · rintro ⟨m, hm, hv⟩
    obtain ⟨y, hy, hyc⟩ := List.any_eq_true.1 (hmc (List.any_eq_true.2 ⟨m, hm, hv⟩))
    exact ⟨y, hy, by simpa using hyc⟩
  · rintro ⟨m, hm, hv⟩
    rw [hn, List.any_eq_true.2 ⟨m, hm, by simpa using hv⟩] at h4
    simp only [dtorStuff, if_true, bind_ok, orErr_ok] at h4
    obtain ⟨d, hd, _⟩ := h4
    rw [hd]; rfl
  · rintro hc ⟨m, hm, hv⟩
    have hst : c.staticOnly = false := by
      rw [Class.staticOnly, List.all_eq_false]
      exact ⟨m, hm, by simpa using hv⟩
    simp only [copyPart, hst, Bool.false_eq_true, if_false, copyStuff, hc, if_true, bind_ok, orErr_ok] at h2
    obtain ⟨k, hk, _⟩ := h2
    exact ⟨k, List.mem_of_find?_eq_some hk, by simpa using List.find?_some hk⟩
  · intro i m g hm hg
    obtain ⟨p, rs, sa, sb, hp0, hr0, hp, hru⟩ := hs.each i (m, g) (zip_get hm hg)
    have hlen := (hsig i m g hm hg).len
    obtain ⟨known, _, _, hk, _, _, _, hio, _⟩ := prepare_ok hp
    obtain ⟨e1, e2, _⟩ := inOut_ok _ _ _ hio
    have hfst : (g.input.zip m.argNames).map (·.1) = g.input := List.map_fst_zip (by simp [Method.argNames, hlen])
    refine ⟨?_, ?_, ?_, ?_⟩
    · intro hv
      unfold knownNames at hk
      rw [if_pos hv] at hk
      split at hk
      · cases hk
      · rename_i hc
        simp only [thisW, List.contains_eq_mem, decide_eq_true_eq] at hc
        exact hc
    · intro v hv
      simp only [rustOf, hv, genMethod, bind_ok, Prod.exists] at hru
      obtain ⟨_, _, _, _, _, _, _, _, _, _, hty, _⟩ := hru
      cases v <;> simp [suitableTypes] at hty ⊢
    · have : (g.input.filter fun t => t.info.inputToOutput) =
          ((g.input.zip m.argNames).filter fun x => x.1.info.inputToOutput).map (·.1) := by
        conv => lhs; rw [← hfst]
        rw [List.filter_map]; rfl
      rw [this, List.length_map]
      simpa using e1
    · intro t ht hx
      rw [← hfst, List.mem_map] at ht
      obtain ⟨x, hx', rfl⟩ := ht
      exact e2 x hx' hx

/-! ### Symbols -/

/-- The class as the naming rules (C26) see it. -/
def Class.names (c : Class) : Flapi.CppNames.Class :=
  ⟨c.name, c.methods.map fun m => ⟨m.access, m.shortName, decide (m.variant = .ctor), m.isDummy⟩, c.copyDerived, c.smartPtrCopyDerived⟩

/-- **C61**: the functions declared and defined for a class with objects are exactly those of C26, so that theorem tells when no
two of them have the same symbol. -/
theorem C61_symbols {σ} (tm : TypeMap σ) (s s1 : σ) (c : Class) (gs : List Sig) (h : findSigs tm s c.methods = .ok (gs, s1))
    (hst : c.staticOnly = false) :
    ((cloneProtos c ++ methodProtos c gs ++ deleteProtos c).map (·.symbol)).Perm (Flapi.CppNames.Class.symbols c.names) := by
  obtain ⟨hl, -⟩ := findSigs_ok _ _ _ _ h
  have e1 : (cloneProtos c).map (·.symbol) = Flapi.CppNames.cloneSymbols c.names := by
    rw [cloneProtos_eq]; unfold Flapi.CppNames.cloneSymbols
    have hlit : lit "clone" = "clone".toList := by unfold lit; rfl
    have ha : c.names.copyDerived = c.copyDerived := rfl
    have hb : c.names.smartPtrCopyDerived = c.smartPtrCopyDerived := rfl
    rw [hst, ha, hb, Bool.not_false, Bool.true_and]
    by_cases hc : (!c.copyDerived && c.smartPtrCopyDerived) = true
    · rw [if_pos hc, if_pos hc, ← hlit]; rfl
    · rw [if_neg hc, if_neg hc]; rfl
  have e2 : (methodProtos c gs).map (·.symbol) = Flapi.CppNames.methodSymbols c.names := by
    unfold methodProtos Flapi.CppNames.methodSymbols
    simp only [Class.names]
    generalize hn : c.methods = ms at hl
    have : ∀ (ms : List Method) (gs : List Sig), gs.length = ms.length →
        List.map (fun x => x.symbol) (List.map (fun p => protoOf c p.1 p.2) (List.filter (fun p => !p.1.isEmptyCtor) (ms.zip gs))) =
        List.map (fun m => cFuncName m.access c.name m.shortName)
          (List.filter (fun m => !(m.ctor && m.dummy))
            (List.map (fun m => (⟨m.access, m.shortName, decide (m.variant = .ctor), m.isDummy⟩ : Flapi.CppNames.Method)) ms)) := by
      intro ms
      induction ms with
      | nil => intro gs _; rfl
      | cons m ms ih =>
        intro gs hl
        cases gs with
        | nil => simp at hl
        | cons g gs =>
          have := ih gs (by simpa using hl)
          simp only [List.zip_cons_cons, List.map_cons, List.filter_cons]
          have hb : (!m.isEmptyCtor) = !(decide (m.variant = .ctor) && m.isDummy) := rfl
          simp only [hb]
          split
          · simp only [List.map_cons, this, symbol_eq]; rfl
          · exact this
    exact this ms gs hl
  have e3 : (deleteProtos c).map (·.symbol) = Flapi.CppNames.destructorSymbols c.names := by
    unfold deleteProtos Flapi.CppNames.destructorSymbols
    have hlit : lit "_delete" = "_delete".toList := by unfold lit; rfl
    simp only [Class.names, List.any_map]
    split
    · rename_i hc
      rw [if_pos (by simpa [Function.comp_def] using hc), ← hlit]; rfl
    · rename_i hc
      rw [if_neg (by simpa [Function.comp_def] using hc)]; rfl
  rw [List.map_append, List.map_append, e1, e2, e3, Flapi.CppNames.Class.symbols, List.append_assoc]
  exact List.perm_append_comm

/-! ### Findings -/

/-- **C61 (finding)**: in a class with static methods only, the user's own C++ code gets the access of the last method; after a
private method it is private. -/
theorem C61_finding_foreign_code_private {σ} (ws : Char → Bool) (width : Nat) (tm : TypeMap σ) (s : σ) (c : Class) (out : Out)
    (m : Method) (h : generate ws width tm s c = .ok out) (hst : c.staticOnly = true) (hl : c.methods.getLast? = some m)
    (hp : m.access = .priv) (hf : c.foreignCode ≠ []) :
    (Access.priv, lit "\n" ++ c.foreignCode ++ lit "\n") ∈ accesses .pub out.cpp := by
  obtain ⟨copies, members, _, e, _⟩ := C61_cpp_frame ws width tm s c out h
  rw [e, if_pos hst]
  have : foreignStuff c = [.member (lit "\n" ++ c.foreignCode ++ lit "\n")] := by
    unfold foreignStuff
    rw [if_neg (by simpa using hf)]
  rw [this, hl]
  simp [hp]

/-- **C61 (finding)**: a class derived from both `Copy` and `SmartPtrCopy` is announced as "ignore Copy", but `Copy` wins: the
smart pointer is never cloned and a method named `clone` is required — while registration forbids one written as plain
`clone` (C42). -/
theorem C61_finding_copy_wins {σ} (ws : Char → Bool) (width : Nat) (tm : TypeMap σ) (s : σ) (c : Class) (out : Out)
    (h : generate ws width tm s c = .ok out) (h1 : c.copyDerived = true) (h2 : c.smartPtrCopyDerived = true)
    (hst : ∃ m ∈ c.methods, m.variant ≠ .static) :
    cloneProtos c = [] ∧ ∃ m ∈ c.methods, m.path.getLast? = some (lit "clone") := by
  refine ⟨?_, (C61_accepted ws width tm s c out h).2.2.1 h1 hst⟩
  rw [cloneProtos_eq]
  simp [h1, h2]

/-! ### Non-vacuity -/

/-- A type map for the examples: `T` is `T_c` in C and `T_r` in exported functions. -/
def sampleTm : TypeMap Unit :=
  ⟨fun _ _ ty => some (⟨⟨ty ++ "_c".toList, [], none, false⟩, ty ++ "_r".toList⟩, ()),
   fun _ fr tt v _ => some ([], v ++ ": ".toList ++ fr ++ " -> ".toList ++ tt, ())⟩

/-- A class with a constructor, a method, a static method and a private method. -/
def sampleClass : Class :=
  ⟨"Foo".toList,
   [⟨.ctor, ["Foo".toList, "new".toList], [("a".toList, "i32".toList)], some "Foo".toList, none, .pub, ["doc".toList], none⟩,
    ⟨.method .rptr, ["Foo".toList, "f".toList], [("ret".toList, "i32".toList), ("b".toList, "u8".toList)], some "u8".toList, none,
      .pub, [], none⟩,
    ⟨.method .rptrMut, ["Foo".toList, "g".toList], [], none, some "h".toList, .priv, [], none⟩,
    ⟨.static, ["Foo".toList, "s".toList], [("b".toList, "u8".toList)], none, none, .pub, [], some "{ 1 }".toList⟩],
   some ⟨"Foo".toList, "Arc<Foo>".toList, .smart "Arc".toList "Foo".toList⟩, "int x();".toList, [], ["SmartPtrCopy".toList]⟩

/-- The run succeeds, and the exported functions are the expected ones. -/
def sampleOk : Bool :=
  match generate (· = ' ') 8 sampleTm () sampleClass with
  | .ok out => out.rust.filterMap RItem.signature =
      [("private_Foo_clone".toList, [("this".toList, "*const Foo".toList)], "*mut ::std::os::raw::c_void".toList),
       ("Foo_new".toList, [("a".toList, "i32_r".toList)], "*const ::std::os::raw::c_void".toList),
       ("Foo_f".toList, [("this".toList, "*mut Foo".toList), ("ret".toList, "i32_r".toList), ("b".toList, "u8_r".toList)], "u8_r".toList),
       ("private_Foo_h".toList, [("this".toList, "*mut Foo".toList)], "()".toList),
       ("Foo_s".toList, [("b".toList, "u8_r".toList)], "()".toList),
       ("Foo_delete".toList, [("this".toList, "*mut Foo".toList)], "()".toList)]
  | .error _ => false

example : sampleOk = true := by decide +kernel

/-- The declarations in the C header of the sample. -/
def sampleHdr : Bool :=
  match generate (· = ' ') 8 sampleTm () sampleClass with
  | .ok out => List.isSuffixOf
      ("\n    FooOpaque *private_Foo_clone(const FooOpaque *);\n    //doc\n    FooOpaque *Foo_new(i32_c a);\n" ++
       "\n    u8_c Foo_f(const FooOpaque * const self, i32_c ret, u8_c b);\n\n    void private_Foo_h(FooOpaque * const self);\n" ++
       "\n    void Foo_s(u8_c b);\n\n    void Foo_delete(const FooOpaque *self);\n\n#ifdef __cplusplus\n}\n#endif\n\n").toList out.cHdr
  | .error _ => false

example : sampleHdr = true := by decide +kernel

/-- The definition of `f`: the result variable avoids the argument called `ret`. -/
def sampleImpl : Bool :=
  match generate (· = ' ') 8 sampleTm () sampleClass with
  | .ok out => List.isPrefixOf
      ("\n    template<bool OWN_DATA>\n    inline u8_c FooWrapper<OWN_DATA>::f(i32_c ret, u8_c b) const noexcept\n    {\n" ++
       "\n        u8_c ret0 = Foo_f(this->self_, ret, b);\n        return ret0;\n    }\n").toList out.impl
  | .error _ => false

example : sampleImpl = true := by decide +kernel

/-- The hypotheses of `C61_values` hold for the method `f`. -/
example : sampleClass.methods[1]?.map (fun m => (m.isEmptyCtor, m.argNames)) = some (false, ["ret".toList, "b".toList]) := by decide

/-- A class with static methods only whose last method is private, with code of its own. -/
def sampleStatic : Class :=
  ⟨"Foo".toList, [⟨.static, ["f".toList], [("class".toList, "u8".toList), ("this".toList, "u8".toList)], none, none, .priv, [], none⟩],
   none, "int x();".toList, [], []⟩

/-- Outcome of a run. -/
def isOk {α} : Except Err α → Bool
  | .ok _ => true
  | .error _ => false

/-- The hypotheses of `C61_finding_foreign_code_private` are met. -/
example : isOk (generate (· = ' ') 8 sampleTm () sampleStatic) = true ∧ sampleStatic.staticOnly = true ∧
    sampleStatic.methods.getLast?.map (·.access) = some .priv := by decide +kernel

/-- The C header of the class ends with this. -/
def sampleStaticHdr : Bool :=
  match generate (· = ' ') 8 sampleTm () sampleStatic with
  | .ok out => List.isSuffixOf
      ("\n    void private_Foo_f(u8_c class, u8_c this);\n\n#ifdef __cplusplus\n}\n#endif\n\n").toList out.cHdr
  | .error _ => false

/-- **C61 (finding)**: names that C++ does not allow for parameters are not rejected: the keyword `class`, and `this` in a
function without object; the generated header then does not compile. -/
theorem C61_finding_keywords : ∃ out, generate (· = ' ') 8 sampleTm () sampleStatic = .ok out ∧
    "\n    void private_Foo_f(u8_c class, u8_c this);\n\n#ifdef __cplusplus\n}\n#endif\n\n".toList <:+ out.cHdr := by
  have h : sampleStaticHdr = true := by decide +kernel
  unfold sampleStaticHdr at h
  split at h
  · rename_i out ho
    exact ⟨out, ho, List.isSuffixOf_iff_suffix.1 h⟩
  · cases h

/-- Derived from both, accepted. -/
example : isOk (generate (· = ' ') 8 sampleTm ()
    { sampleClass with
      derives := ["Copy".toList, "SmartPtrCopy".toList]
      methods := ⟨.method .rptr, ["Foo".toList, "clone".toList], [], some "Foo".toList, none, .pub, [], none⟩ :: sampleClass.methods }) = true := by
  decide +kernel

/-- An argument called `this` in a method is refused. -/
example : isOk (generate (· = ' ') 8 sampleTm ()
    { sampleClass with
      methods := ⟨.method .rptr, ["f".toList], [("this".toList, "u8".toList)], none, none, .pub, [], none⟩ :: sampleClass.methods }) = false := by
  decide +kernel

end Flapi.CppClassGen
