import Verif.TypeMap.Pointers
import Verif.TypeMap.BuiltinProps
/-! # The smart pointer and lock conversions of the C++ and Java include files (C81) -/
namespace Flapi.Pointers
open Flapi.Ast Flapi.Template
open Flapi.Builtin (Form Entry entry tyT kwT unbound bound kwLetMut kwColon kwEq phTo phType phFrom kwIndent kwNl ruleOf view)

/-! ## Specification -/

/-- The type is `n<x>`. -/
def Is (n : Text) (b x : Ty) : Prop := ∃ q l, b = .path q l (.cons n (.angle (.ty x .nil)) .nil)

/-- What the code of a conversion does with the variable. -/
inductive PForm where
  /-- a built-in conversion -/
  | base (f : Form)
  /-- `& x` or `& mut x`, where the declared type makes Rust look through the pointer -/
  | deref (mt : Bool)
  /-- `x.lock().unwrap()` -/
  | lock
  /-- `x.borrow()` -/
  | borrow
  /-- `x.borrow_mut()` -/
  | borrowMut
deriving DecidableEq

/-- The text before the variable. -/
def PForm.before : PForm → Text
  | .base (.addr false) => "&".toList
  | .base (.addr true) => "&mut ".toList
  | .base _ => []
  | .deref false => "& ".toList
  | .deref true => "& mut ".toList
  | _ => []

/-- The text after the variable. -/
def PForm.after : PForm → Text
  | .base .asRef => ".as_ref();".toList
  | .base .asMut => ".as_mut();".toList
  | .base _ => ";".toList
  | .deref _ => " ;".toList
  | .lock => " . lock () . unwrap () ;".toList
  | .borrow => " . borrow () ;".toList
  | .borrowMut => " . borrow_mut () ;".toList

/-- The statement that declares `y : t`. -/
def PForm.stmt (f : PForm) (y t x : Text) : Text := kwLetMut ++ (y ++ (kwColon ++ (t ++ (kwEq ++ (f.before ++ (x ++ f.after))))))

/-- The conversions a user may expect between pointers, locks and references. -/
inductive PStep : Ty → Ty → PForm → Prop
  /-- the built-in ones -/
  | base {t t' : Ty} {f : Form} (h : Builtin.Step t t' f) : PStep t t' (.base f)
  /-- a shared pointer to a mutex gives a reference to the mutex -/
  | arcMutex (a m x : Ty) (ha : Is "Arc".toList a m) (hm : Is "Mutex".toList m x) : PStep a (.ref none false (wrap "Mutex".toList x)) (.deref false)
  /-- a mutex can be locked -/
  | lock (lt : Option Text) (m x : Ty) (hm : Is "Mutex".toList m x) : PStep (.ref lt false m) (wrap "MutexGuard".toList x) .lock
  /-- the holder of the lock has access to the content -/
  | guard (mt : Bool) (g x : Ty) (hg : Is "MutexGuard".toList g x) : PStep g (.ref none mt x) (.deref mt)
  /-- an `Rc` gives shared access -/
  | rc (r x : Ty) (hr : Is "Rc".toList r x) : PStep r (.ref none false x) (.deref false)
  /-- and so does a reference to it -/
  | rcRef (lt : Option Text) (r x : Ty) (hr : Is "Rc".toList r x) : PStep (.ref lt false r) (.ref none false x) (.deref false)
  /-- a cell can be borrowed -/
  | borrow (lt : Option Text) (c x : Ty) (hc : Is "RefCell".toList c x) : PStep (.ref lt false c) (wrap "Ref".toList x) .borrow
  /-- and exclusively -/
  | borrowMut (lt : Option Text) (c x : Ty) (hc : Is "RefCell".toList c x) : PStep (.ref lt false c) (wrap "RefMut".toList x) .borrowMut
  /-- the borrow gives shared access -/
  | ref (g x : Ty) (hg : Is "Ref".toList g x) : PStep g (.ref none false x) (.deref false)
  /-- the exclusive one gives exclusive access -/
  | refMut (g x : Ty) (hg : Is "RefMut".toList g x) : PStep g (.ref none true x) (.deref true)

/-- A chain of conversions. -/
inductive PChain : Ty → List PForm → Ty → Prop
  | nil (t : Ty) : PChain t [] t
  | cons {t t' t'' : Ty} {f : PForm} {fs : List PForm} (h : PStep t t' f) (r : PChain t' fs t'') : PChain t (f :: fs) t''

/-- Pointers and guards; a mutex or cell has an identity, and a guard remembers which one it belongs to. -/
inductive Kind where
  | box
  | arc
  | rc
  | mutex (c : Nat)
  | cell (c : Nat)
  | lockGuard (c : Nat)
  | refGuard (c : Nat)
  | mutGuard (c : Nat)
deriving DecidableEq

/-- The name of the type. -/
def Kind.name : Kind → Text
  | .box => "Box".toList
  | .arc => "Arc".toList
  | .rc => "Rc".toList
  | .mutex _ => "Mutex".toList
  | .cell _ => "RefCell".toList
  | .lockGuard _ => "MutexGuard".toList
  | .refGuard _ => "Ref".toList
  | .mutGuard _ => "RefMut".toList

/-- Values: an object behind pointers and references. -/
inductive PVal where
  | obj (id : Nat)
  | ref (mt : Bool) (v : PVal)
  | wrap (k : Kind) (v : PVal)
deriving DecidableEq

/-- The object a value leads to. -/
def PVal.object : PVal → Nat
  | .obj i => i
  | .ref _ v => v.object
  | .wrap _ v => v.object

/-- The value has the type; `obj` stands for a value of any type that is neither a reference nor one of the pointers. -/
def PVal.HasTy : PVal → Ty → Prop
  | .obj _, t => (∀ lt mt e, t ≠ .ref lt mt e) ∧ ∀ (k : Kind) x, ¬ Is k.name t x
  | .ref mt v, t => ∃ lt e, t = .ref lt mt e ∧ v.HasTy e
  | .wrap k v, t => ∃ x, Is k.name t x ∧ v.HasTy x

/-- The content is exclusively ours (`true`) if the pointer is exclusively ours (`e`): pointers that may have other owners and shared borrows
never give it, mutexes and cells always do (after locking or borrowing). -/
def Kind.gives (e : Bool) : Kind → Bool
  | .box => e
  | .arc => false
  | .rc => false
  | .mutex _ => true
  | .cell _ => true
  | .lockGuard _ => e
  | .refGuard _ => false
  | .mutGuard _ => e

/-- The object may be changed through the value, which is exclusively ours if `e`. -/
def PVal.access (e : Bool) : PVal → Bool
  | .obj _ => e
  | .ref true v => v.access e
  | .ref false v => v.access false
  | .wrap k v => v.access (k.gives e)

/-- The object may be changed by the owner of the value. -/
def PVal.canWrite (v : PVal) : Prop := v.access true = true

/-- How a mutex or cell is taken. -/
inductive Mode where
  | lock
  | shared
  | excl
deriving DecidableEq

/-- The expression: what it takes, and the value; `none`: it does not compile. -/
def PForm.eval : PForm → PVal → Option (Option (Nat × Mode) × PVal)
  | .base (.addr mt), v => some (none, .ref mt v)
  | .base .use, .ref true v => some (none, .ref false v)
  | .base .asRef, .ref false (.wrap .box v) => some (none, .ref false v)
  | .base .asMut, .ref true (.wrap .box v) => some (none, .ref true v)
  | .deref false, .wrap .arc v => some (none, .ref false v)
  | .deref false, .wrap .rc v => some (none, .ref false v)
  | .deref false, .ref false (.wrap .rc v) => some (none, .ref false v)
  | .deref false, .wrap (.lockGuard _) v => some (none, .ref false v)
  | .deref false, .wrap (.refGuard _) v => some (none, .ref false v)
  | .deref true, .wrap (.lockGuard _) v => some (none, .ref true v)
  | .deref true, .wrap (.mutGuard _) v => some (none, .ref true v)
  | .lock, .ref false (.wrap (.mutex c) v) => some (some (c, .lock), .wrap (.lockGuard c) v)
  | .borrow, .ref false (.wrap (.cell c) v) => some (some (c, .shared), .wrap (.refGuard c) v)
  | .borrowMut, .ref false (.wrap (.cell c) v) => some (some (c, .excl), .wrap (.mutGuard c) v)
  | _, _ => none

/-- The expressions of a chain: what they take, in order, and the last value. -/
def evalAll : List PForm → PVal → Option (List (Nat × Mode) × PVal)
  | [], v => some ([], v)
  | f :: fs, v => (f.eval v).bind fun r => (evalAll fs r.2).map fun s => (r.1.toList ++ s.1, s.2)

/-- Two uses of the same mutex or cell that cannot be alive together. -/
def Conflict (a b : Nat × Mode) : Prop := a.1 = b.1 ∧ ¬ (a.2 = .shared ∧ b.2 = .shared)

instance (a b : Nat × Mode) : Decidable (Conflict a b) := inferInstanceAs (Decidable (_ ∧ _))

/-- What happens to the thread. -/
inductive Outcome where
  /-- everything is taken; `held` lists it -/
  | runs (held : List (Nat × Mode))
  /-- it waits for a mutex it holds itself -/
  | blocks
  /-- it panics -/
  | panics
deriving DecidableEq

/-- The thread takes mutexes and cells one after the other and keeps them (the guards are local variables, so they live to the end of the
function); `poisoned`: a thread panicked while it held the mutex. -/
def takeAll (poisoned : Nat → Bool) : List (Nat × Mode) → List (Nat × Mode) → Outcome
  | held, [] => .runs held
  | held, r :: rs =>
    if ∃ h ∈ held, Conflict h r then (if r.2 = .lock then .blocks else .panics)
    else if r.2 = .lock ∧ poisoned r.1 = true then .panics
    else takeAll poisoned (held ++ [r]) rs

/-- An argument: its value and the conversions it goes through. -/
structure Arg where
  val : PVal
  forms : List PForm

/-- The argument has a type, and its conversions are a chain from it. -/
def Arg.Good (a : Arg) : Prop := ∃ t t', a.val.HasTy t ∧ PChain t a.forms t'

/-- What the arguments take, in order. -/
def needs : List Arg → Option (List (Nat × Mode))
  | [] => some []
  | a :: as => (evalAll a.forms a.val).bind fun r => (needs as).map fun s => r.1 ++ s

/-! ## Helper lemmas -/

theorem kw : "Arc".toList = kwArc ∧ "Rc".toList = kwRc ∧ "Mutex".toList = kwMutex ∧ "MutexGuard".toList = kwMutexGuard ∧
    "RefCell".toList = kwRefCell ∧ "Ref".toList = kwRef ∧ "RefMut".toList = kwRefMut ∧ "Box".toList = Builtin.kwBox := by decide

theorem isBox_is (b x : Ty) : Builtin.IsBox b x ↔ Is "Box".toList b x := Iff.rfl

/-- The conversions read from the file. -/
theorem pointerRules_eq : pointerRules =
    [ entry (wrap kwArc (wrap kwMutex tyT)) (shared (wrap kwMutex tyT)) ((PForm.deref false).stmt toVar toVarType fromVar)
    , entry (shared (wrap kwMutex tyT)) (wrap kwMutexGuard tyT) (PForm.lock.stmt toVar toVarType fromVar)
    , entry (wrap kwMutexGuard tyT) (shared tyT) ((PForm.deref false).stmt toVar toVarType fromVar)
    , entry (wrap kwMutexGuard tyT) (excl tyT) ((PForm.deref true).stmt toVar toVarType fromVar)
    , entry (wrap kwRc tyT) (shared tyT) ((PForm.deref false).stmt toVar toVarType fromVar)
    , entry (shared (wrap kwRc tyT)) (shared tyT) ((PForm.deref false).stmt toVar toVarType fromVar)
    , entry (shared (wrap kwRefCell tyT)) (wrap kwRef tyT) (PForm.borrow.stmt toVar toVarType fromVar)
    , entry (shared (wrap kwRefCell tyT)) (wrap kwRefMut tyT) (PForm.borrowMut.stmt toVar toVarType fromVar)
    , entry (wrap kwRef tyT) (shared tyT) ((PForm.deref false).stmt toVar toVarType fromVar)
    , entry (wrap kwRefMut tyT) (excl tyT) ((PForm.deref true).stmt toVar toVarType fromVar) ] := by
  have hs : RuleParse.rCode [' '] (some ['p']) bodyShare = .ok ⟨(PForm.deref false).stmt toVar toVarType fromVar, [toVar, fromVar]⟩ := by
    decide +kernel
  have he : RuleParse.rCode [' '] (some ['p']) bodyExcl = .ok ⟨(PForm.deref true).stmt toVar toVarType fromVar, [toVar, fromVar]⟩ := by
    decide +kernel
  have hl : RuleParse.rCode [' '] (some ['p']) bodyLock = .ok ⟨PForm.lock.stmt toVar toVarType fromVar, [toVar, fromVar]⟩ := by
    decide +kernel
  have hb : RuleParse.rCode [' '] (some ['p']) bodyBorrow = .ok ⟨PForm.borrow.stmt toVar toVarType fromVar, [toVar, fromVar]⟩ := by
    decide +kernel
  have hm : RuleParse.rCode [' '] (some ['p']) bodyBorrowMut = .ok ⟨PForm.borrowMut.stmt toVar toVarType fromVar, [toVar, fromVar]⟩ := by
    decide +kernel
  have hr : ∀ l r b c, RuleParse.rCode [' '] (some ['p']) b = .ok c →
      readRule (ruleLine l r b) = some { generics := some [(kwT, .nil)], rLR := some ⟨l, some r, some c⟩ } := by
    intro l r b c h
    simp [readRule, ruleLine, RuleParse.parse, RuleParse.addLines, RuleParse.addLine, RuleParse.addR, RuleParse.addGenerics,
      RuleParse.lineCode, RuleParse.Res.bind, h]
  unfold pointerRules ruleLines
  simp only [List.filterMap_cons, List.filterMap_nil, hr _ _ _ _ hs, hr _ _ _ _ he, hr _ _ _ _ hl, hr _ _ _ _ hb, hr _ _ _ _ hm]
  simp [RuleParse.fileAll, RuleParse.file, RuleParse.tryInto, ofEdge, entry]

theorem bindPath_wrap {n : Text} (hn : n ≠ kwT) (p t : Ty) : bindPath (.cons n (.angle (.ty p .nil)) .nil) t unbound = none := by
  have : ¬ kwT = n := fun h => hn h.symm
  simp [bindPath, Builtin.unbound_get, this]

theorem match_wrap_no {n : Text} (hn : n ≠ kwT) {p b : Ty} (h : ∀ x, ¬ Is n b x) : (matchTy b (wrap n p) unbound).1 = false := by
  have hb := fun t => bindPath_wrap hn p t
  cases b
  case path q l s =>
    simp only [matchTy, wrap, matchPath, hb]
    split
    · rename_i hlen
      cases s with
      | nil => simp [Segs.len] at hlen
      | cons i a r =>
        cases r with
        | cons _ _ _ => simp [Segs.len] at hlen
        | nil =>
          simp only [matchSegs]
          split
          · rename_i hi
            cases a with
            | none => simp [matchArgs]
            | parens i o => simp [matchArgs]
            | angle g =>
              simp only [matchArgs]
              split
              · rename_i hg
                cases g with
                | nil => simp [GArgs.len] at hg
                | ty x r =>
                  cases r with
                  | nil => exact absurd ⟨q, l, by rw [← hi]⟩ (h x)
                  | _ => simp [GArgs.len] at hg
                | _ => simp [GArgs.len, matchG] at hg
              · rename_i hx
                rcases hq : (if (GArgs.ty p GArgs.nil).len = g.len then matchG g (GArgs.ty p GArgs.nil) unbound
                  else (false, unbound)) with ⟨a, m⟩
                cases a with
                | false => rfl
                | true => exact (hx m hq).elim
          · rfl
    · rfl
  all_goals simp [matchTy, wrap, fallback, hb]

theorem match_wrap {n : Text} (hn : n ≠ kwT) {p b x : Ty} (h : Is n b x) :
    matchTy b (wrap n p) unbound = matchTy x (inside p x unbound).1 (inside p x unbound).2 := by
  obtain ⟨q, l, rfl⟩ := h
  have hb := fun t => bindPath_wrap hn p t
  simp only [matchTy, wrap, matchPath, hb, Segs.len, if_true, matchSegs, matchArgs, GArgs.len, matchG]
  rcases hx : matchTy x (inside p x unbound).1 (inside p x unbound).2 with ⟨a, m'⟩
  cases a <;> simp [matchG, matchSegs]

theorem inside_T (x : Ty) : inside tyT x unbound = (x, bound x) := by
  simp [inside, Builtin.keyT, Builtin.unbound_get, Builtin.set_unbound]

/-- Matching `n<T>`. -/
theorem match_wrapT {n : Text} (hn : n ≠ kwT) (b : Ty) :
    (matchTy b (wrap n tyT) unbound).1 = false ∨ ∃ x, Is n b x ∧ matchTy b (wrap n tyT) unbound = (true, bound x) := by
  by_cases h : ∃ x, Is n b x
  · obtain ⟨x, hx⟩ := h
    rw [match_wrap hn hx, inside_T]
    have h1 := mono x x (bound x)
    rcases hm : matchTy x x (bound x) with ⟨a, m⟩
    rw [hm] at h1
    cases a with
    | false => exact Or.inl rfl
    | true => exact Or.inr ⟨x, hx, congrArg (Prod.mk true) (Builtin.mono_bound h1)⟩
  · exact Or.inl (match_wrap_no hn fun x hx => h ⟨x, hx⟩)

theorem match_wrapT_free {n : Text} (hn : n ≠ kwT) {b x : Ty} (h : Is n b x) (hf : x.free [kwT] = true) :
    matchTy b (wrap n tyT) unbound = (true, bound x) := by
  rw [match_wrap hn h, inside_T]
  refine matchTy_refl [kwT] _ ?_ x hf
  intro k hk
  rw [Builtin.bound_get] at hk
  by_cases e : kwT = k
  · simp [e]
  · simp [e] at hk

theorem inside_mutex (x : Ty) : inside (wrap kwMutex tyT) x unbound = (wrap kwMutex tyT, unbound) := by
  have : (wrap kwMutex tyT).paramKey = none := by decide
  simp [inside, this]

theorem match_arc (b : Ty) : (matchTy b (wrap kwArc (wrap kwMutex tyT)) unbound).1 = false ∨
    ∃ m x, Is kwArc b m ∧ Is kwMutex m x ∧ matchTy b (wrap kwArc (wrap kwMutex tyT)) unbound = (true, bound x) := by
  by_cases h : ∃ m, Is kwArc b m
  · obtain ⟨m, hm⟩ := h
    rw [match_wrap (by decide) hm, inside_mutex]
    rcases match_wrapT (n := kwMutex) (by decide) m with h | ⟨x, hx, h⟩
    · exact Or.inl h
    · exact Or.inr ⟨m, x, hm, hx, h⟩
  · exact Or.inl (match_wrap_no (by decide) fun x hx => h ⟨x, hx⟩)

theorem subst_wrap (n : Text) (hn : n ≠ kwT) (x : Ty) : (wrap n tyT).subst (bound x) = wrap n x := by
  have hl : TyMap.look (bound x) (wrap n tyT) = none := by
    have : (wrap n tyT).paramKey = none := rfl
    simp [TyMap.look, this]
  unfold wrap at hl ⊢
  rw [Ty.subst, hl]
  simp [Segs.subst, Args.subst, GArgs.subst, Builtin.subst_T]

theorem subst_refwrap (mt : Bool) (n : Text) (hn : n ≠ kwT) (x : Ty) : (Ty.ref none mt (wrap n tyT)).subst (bound x) = .ref none mt (wrap n x) := by
  have hl : TyMap.look (bound x) (Ty.ref none mt (wrap n tyT)) = none := by
    have : (Ty.ref none mt (wrap n tyT)).paramKey = none := by cases mt <;> rfl
    simp [TyMap.look, this]
  rw [Ty.subst, hl, subst_wrap n hn]; rfl

/-- Matching `& n<T>`. -/
theorem match_refwrap {n : Text} (hn : n ≠ kwT) (t : Ty) :
    (matchTy t (shared (wrap n tyT)) unbound).1 = false ∨
      ∃ lt b x, t = .ref lt false b ∧ Is n b x ∧ matchTy t (shared (wrap n tyT)) unbound = (true, bound x) := by
  have hm := Builtin.match_ref false (wrap n tyT) t
  unfold shared
  rw [hm]
  cases t
  case ref lt mt e =>
    cases mt with
    | true => exact Or.inl rfl
    | false =>
      simp only [if_true]
      rcases match_wrapT hn e with h | ⟨x, hx, h⟩
      · exact Or.inl h
      · exact Or.inr ⟨lt, e, x, rfl, hx, h⟩
  all_goals exact Or.inl rfl

theorem match_cases (e : Entry) (he : e ∈ pointerRules) (t : Ty) :
    (matchTy t e.gen.fromTy unbound).1 = false ∨ ∃ x f, matchTy t e.gen.fromTy unbound = (true, bound x) ∧
      PStep t (e.gen.toTy.subst (bound x)) f ∧ e.code.code = f.stmt toVar toVarType fromVar := by
  obtain ⟨k1, k2, k3, k4, k5, k6, k7, k8⟩ := kw
  rw [pointerRules_eq] at he
  simp only [List.mem_cons, List.not_mem_nil, or_false] at he
  rcases he with rfl | rfl | rfl | rfl | rfl | rfl | rfl | rfl | rfl | rfl <;> simp only [entry]
  · rcases match_arc t with h | ⟨m, x, ha, hm, h⟩
    · exact Or.inl h
    · refine Or.inr ⟨x, .deref false, h, ?_, rfl⟩
      simp only [shared, subst_refwrap false kwMutex (by decide)]
      rw [← k3]; exact .arcMutex _ m x (k1 ▸ ha) (k3 ▸ hm)
  · rcases match_refwrap (n := kwMutex) (by decide) t with h | ⟨lt, b, x, rfl, hx, h⟩
    · exact Or.inl h
    · refine Or.inr ⟨x, .lock, h, ?_, rfl⟩
      rw [subst_wrap _ (by decide), ← k4]; exact .lock _ _ _ (k3 ▸ hx)
  · rcases match_wrapT (n := kwMutexGuard) (by decide) t with h | ⟨x, hx, h⟩
    · exact Or.inl h
    · refine Or.inr ⟨x, .deref false, h, ?_, rfl⟩
      simp only [shared, Builtin.subst_ref]; exact .guard _ _ _ (k4 ▸ hx)
  · rcases match_wrapT (n := kwMutexGuard) (by decide) t with h | ⟨x, hx, h⟩
    · exact Or.inl h
    · refine Or.inr ⟨x, .deref true, h, ?_, rfl⟩
      simp only [excl, Builtin.subst_ref]; exact .guard _ _ _ (k4 ▸ hx)
  · rcases match_wrapT (n := kwRc) (by decide) t with h | ⟨x, hx, h⟩
    · exact Or.inl h
    · refine Or.inr ⟨x, .deref false, h, ?_, rfl⟩
      simp only [shared, Builtin.subst_ref]; exact .rc _ _ (k2 ▸ hx)
  · rcases match_refwrap (n := kwRc) (by decide) t with h | ⟨lt, b, x, rfl, hx, h⟩
    · exact Or.inl h
    · refine Or.inr ⟨x, .deref false, h, ?_, rfl⟩
      simp only [shared, Builtin.subst_ref]; exact .rcRef _ _ _ (k2 ▸ hx)
  · rcases match_refwrap (n := kwRefCell) (by decide) t with h | ⟨lt, b, x, rfl, hx, h⟩
    · exact Or.inl h
    · refine Or.inr ⟨x, .borrow, h, ?_, rfl⟩
      rw [subst_wrap _ (by decide), ← k6]; exact .borrow _ _ _ (k5 ▸ hx)
  · rcases match_refwrap (n := kwRefCell) (by decide) t with h | ⟨lt, b, x, rfl, hx, h⟩
    · exact Or.inl h
    · refine Or.inr ⟨x, .borrowMut, h, ?_, rfl⟩
      rw [subst_wrap _ (by decide), ← k7]; exact .borrowMut _ _ _ (k5 ▸ hx)
  · rcases match_wrapT (n := kwRef) (by decide) t with h | ⟨x, hx, h⟩
    · exact Or.inl h
    · refine Or.inr ⟨x, .deref false, h, ?_, rfl⟩
      simp only [shared, Builtin.subst_ref]; exact .ref _ _ (k6 ▸ hx)
  · rcases match_wrapT (n := kwRefMut) (by decide) t with h | ⟨x, hx, h⟩
    · exact Or.inl h
    · refine Or.inr ⟨x, .deref true, h, ?_, rfl⟩
      simp only [excl, Builtin.subst_ref]; exact .refMut _ _ (k7 ▸ hx)

theorem base_stmt (f : Form) (y t x : Text) : (PForm.base f).stmt y t x = f.stmt y t x := by
  have key : (PForm.base f).before ++ (x ++ (PForm.base f).after) = f.expr x ++ Builtin.kwSemi := by
    have h1 : (PForm.base .asRef).after = ".as_ref()".toList ++ Builtin.kwSemi := by decide
    have h2 : (PForm.base .asMut).after = ".as_mut()".toList ++ Builtin.kwSemi := by decide
    rcases f with ⟨⟨⟩⟩ | _ | _ | _
    · exact (List.append_assoc _ _ _).symm
    · exact (List.append_assoc _ _ _).symm
    · rfl
    · rw [h1]; show x ++ _ = (x ++ _) ++ _; exact (List.append_assoc _ _ _).symm
    · rw [h2]; show x ++ _ = (x ++ _) ++ _; exact (List.append_assoc _ _ _).symm
  unfold PForm.stmt Form.stmt
  rw [key]

theorem all_cases (e : Entry) (he : e ∈ allEntries) (t : Ty) :
    (matchTy t e.gen.fromTy unbound).1 = false ∨ ∃ x f, matchTy t e.gen.fromTy unbound = (true, bound x) ∧
      PStep t (e.gen.toTy.subst (bound x)) f ∧ e.code.code = f.stmt toVar toVarType fromVar := by
  rcases List.mem_append.1 he with he | he
  · rcases Builtin.match_cases e he t with h | ⟨x, f, h1, h2, h3⟩
    · exact Or.inl h
    · exact Or.inr ⟨x, .base f, h1, .base h2, by rw [base_stmt]; exact h3⟩
  · exact match_cases e he t

theorem entry_of (e : Entry) (he : e ∈ allEntries) : ∃ f t c, e = entry f t c := by
  rcases List.mem_append.1 he with he | he
  · exact Builtin.entry_of e he
  · rw [pointerRules_eq] at he
    simp only [List.mem_cons, List.not_mem_nil, or_false] at he
    rcases he with rfl | rfl | rfl | rfl | rfl | rfl | rfl | rfl | rfl | rfl <;> exact ⟨_, _, _, rfl⟩

theorem entry_code (f t : Ty) (c : Text) : (entry f t c).code.code = c := rfl

theorem code_form (e : Entry) (he : e ∈ pointerRules) : ∃ f : PForm, e.code.code = f.stmt toVar toVarType fromVar := by
  rw [pointerRules_eq] at he
  simp only [List.mem_cons, List.not_mem_nil, or_false] at he
  rcases he with rfl | rfl | rfl | rfl | rfl | rfl | rfl | rfl | rfl | rfl
  · exact ⟨.deref false, entry_code _ _ _⟩
  · exact ⟨.lock, entry_code _ _ _⟩
  · exact ⟨.deref false, entry_code _ _ _⟩
  · exact ⟨.deref true, entry_code _ _ _⟩
  · exact ⟨.deref false, entry_code _ _ _⟩
  · exact ⟨.deref false, entry_code _ _ _⟩
  · exact ⟨.borrow, entry_code _ _ _⟩
  · exact ⟨.borrowMut, entry_code _ _ _⟩
  · exact ⟨.deref false, entry_code _ _ _⟩
  · exact ⟨.deref true, entry_code _ _ _⟩

theorem code_plain (u : Macro.Unicode) (nm : Ty → Text) (m : TyMap) (e : Entry) (he : e ∈ allEntries) :
    GenericCode.codeForConversion u nm m e.code.code = some e.code.code := by
  rcases List.mem_append.1 he with he | he
  · exact Builtin.code_plain u nm m e he
  · have h : ∀ f : PForm, (∀ c ∈ f.stmt toVar toVarType fromVar, Macro.ascii c = true) ∧ '!' ∉ f.stmt toVar toVarType fromVar := by
      intro f; rcases f with (⟨⟨⟩⟩ | _ | _ | _) | ⟨⟨⟩⟩ | _ | _ | _ <;> decide +kernel
    obtain ⟨f, hf⟩ := code_form e he
    rw [hf]
    exact GenericCode.C77_plain_code u nm m _ (h f).1 (h f).2

theorem ruleOf_yes (u : Macro.Unicode) (nm : Ty → Text) (dep : Nat) (e : Entry) (he : e ∈ allEntries)
    (frm goal : TMap.RTy (Ty × List Text)) (look) (x : Ty) (h : matchTy frm.ty.1 e.gen.fromTy unbound = (true, bound x)) :
    ruleOf u nm dep e frm goal look =
      some (⟨nm (e.gen.toTy.subst (bound x)), (e.gen.toTy.subst (bound x), [])⟩, ⟨e.code, dep⟩) := by
  have hc := code_plain u nm (bound x) e he
  obtain ⟨f, t, c, rfl⟩ := entry_of e he
  unfold ruleOf
  rw [Builtin.conv_yes nm f t c (view frm) (some (view goal)) _ x h]
  simp only [hc]
  rfl

theorem ruleOf_no (u : Macro.Unicode) (nm : Ty → Text) (dep : Nat) (e : Entry) (he : e ∈ allEntries)
    (frm goal : TMap.RTy (Ty × List Text)) (look) (h : (matchTy frm.ty.1 e.gen.fromTy unbound).1 = false) :
    ruleOf u nm dep e frm goal look = none := by
  obtain ⟨f, t, c, rfl⟩ := entry_of e he
  unfold ruleOf
  rw [Builtin.conv_no nm f t c (view frm) (some (view goal)) _ h]

theorem mem_rules (u : Macro.Unicode) (nm : Ty → Text) (cell : Nat) (r) :
    r ∈ rules u nm cell ↔ ∃ i e, allEntries[i]? = some e ∧ r = ruleOf u nm (cell + i) e := by
  simp only [rules, List.mem_mapIdx]
  constructor
  · rintro ⟨i, hi, rfl⟩; exact ⟨i, _, List.getElem?_eq_getElem hi, rfl⟩
  · rintro ⟨i, e, he, rfl⟩
    obtain ⟨hi, rfl⟩ := List.getElem?_eq_some_iff.1 he
    exact ⟨i, hi, rfl⟩

/-! ## C81 -/

/-- **C81**: each conversion of the file (and each built-in one) is one of the expected steps, it has the code of that step, and the new
type is registered under its own name. -/
theorem C81_sound (u : Macro.Unicode) (nm : Ty → Text) (cell : Nat) (goal frm to_ : TMap.RTy (Ty × List Text)) (w : Convert.EdgeW)
    (h : TMap.Applied (rules u nm cell) goal frm to_ w) :
    ∃ f, PStep frm.ty.1 to_.ty.1 f ∧ w.code.code = f.stmt phTo phType phFrom ∧ to_.name = nm to_.ty.1 := by
  obtain ⟨r, hr, look, hl⟩ := h
  obtain ⟨i, e, he, rfl⟩ := (mem_rules _ _ _ _).1 hr
  have he := List.mem_of_getElem? he
  rcases all_cases e he frm.ty.1 with h | ⟨x, f, h1, h2, h3⟩
  · rw [ruleOf_no u nm _ e he frm goal look h] at hl; cases hl
  · rw [ruleOf_yes u nm _ e he frm goal look x h1] at hl
    cases hl
    exact ⟨f, h2, h3, rfl⟩

theorem free_wrap {n : Text} {b x : Ty} (h : Is n b x) (hf : b.free [kwT] = true) : x.free [kwT] = true := by
  obtain ⟨q, l, rfl⟩ := h
  simp only [Ty.free, Segs.free, Args.free, GArgs.free, Bool.and_eq_true] at hf
  simp_all

theorem free_ref {lt : Option Text} {mt : Bool} {b : Ty} (hf : (Ty.ref lt mt b).free [kwT] = true) : b.free [kwT] = true := by
  simpa [Ty.free] using hf

theorem applied_of (u : Macro.Unicode) (nm : Ty → Text) (cell : Nat) (goal frm : TMap.RTy (Ty × List Text)) (e : Entry) (he : e ∈ allEntries)
    (x : Ty) (hx : matchTy frm.ty.1 e.gen.fromTy unbound = (true, bound x)) :
    ∃ w, TMap.Applied (rules u nm cell) goal frm ⟨nm (e.gen.toTy.subst (bound x)), (e.gen.toTy.subst (bound x), [])⟩ w ∧ w.code.code = e.code.code := by
  obtain ⟨i, hi, rfl⟩ := List.getElem_of_mem he
  exact ⟨⟨allEntries[i].code, cell + i⟩,
    ⟨_, (mem_rules _ _ _ _).2 ⟨i, _, List.getElem?_eq_getElem hi, rfl⟩, fun _ => none, ruleOf_yes u nm _ _ he frm goal _ x hx⟩, rfl⟩

/-- **C81**: and every expected step is available, for every type that does not mention a type called `T`. -/
theorem C81_complete (u : Macro.Unicode) (nm : Ty → Text) (cell : Nat) (goal frm : TMap.RTy (Ty × List Text)) (t : Ty) (f : PForm)
    (hf : frm.ty.1.free [kwT] = true) (h : PStep frm.ty.1 t f) :
    ∃ w, TMap.Applied (rules u nm cell) goal frm ⟨nm t, (t, [])⟩ w ∧ w.code.code = f.stmt phTo phType phFrom := by
  obtain ⟨k1, k2, k3, k4, k5, k6, k7, k8⟩ := kw
  have mem : ∀ {a b : Ty} {g : PForm}, entry a b (g.stmt toVar toVarType fromVar) ∈ pointerRules → 
      entry a b (g.stmt toVar toVarType fromVar) ∈ allEntries := fun h => List.mem_append_right _ h
  have go : ∀ {a b : Ty} {g : PForm}, entry a b (g.stmt toVar toVarType fromVar) ∈ pointerRules → ∀ x,
      matchTy frm.ty.1 a unbound = (true, bound x) → ∃ w, TMap.Applied (rules u nm cell) goal frm ⟨nm (b.subst (bound x)), (b.subst (bound x), [])⟩ w ∧
        w.code.code = g.stmt phTo phType phFrom := by
    intro a b g hm x hx
    obtain ⟨w, h1, h2⟩ := applied_of u nm cell goal frm _ (mem hm) x hx
    exact ⟨w, h1, h2.trans (entry_code _ _ _)⟩
  have hp := pointerRules_eq
  rcases frm with ⟨n, ⟨ty, im⟩⟩
  simp only at hf h go ⊢
  cases h with
  | @base _ _ f h =>
    obtain ⟨w, ⟨r, hr, look, hl⟩, hc⟩ := Builtin.C80_complete u nm cell goal ⟨n, (ty, im)⟩ t f hf h
    obtain ⟨i, e, he, rfl⟩ := (Builtin.mem_rules _ _ _ _).1 hr
    refine ⟨w, ⟨_, (mem_rules _ _ _ _).2 ⟨i, e, ?_, rfl⟩, look, hl⟩, by rw [base_stmt]; exact hc⟩
    unfold allEntries
    rw [List.getElem?_append_left (List.getElem?_eq_some_iff.1 he).1]
    exact he
  | arcMutex _ m x ha hm =>
    have hx := free_wrap hm (free_wrap ha hf)
    have := go (a := wrap kwArc (wrap kwMutex tyT)) (b := shared (wrap kwMutex tyT)) (g := .deref false) (by rw [hp]; simp) x
      (by rw [match_wrap (by decide) (k1 ▸ ha), inside_mutex]; exact match_wrapT_free (by decide) (k3 ▸ hm) hx)
    rw [k3]
    simpa only [shared, subst_refwrap false kwMutex (by decide)] using this
  | lock lt m x hm =>
    have hx := free_wrap hm (free_ref hf)
    have := go (a := shared (wrap kwMutex tyT)) (b := wrap kwMutexGuard tyT) (g := .lock) (by rw [hp]; simp) x
      (by unfold shared; rw [Builtin.match_ref]; simp [match_wrapT_free (n := kwMutex) (by decide) (k3 ▸ hm) hx])
    rw [k4]
    simpa only [subst_wrap kwMutexGuard (by decide)] using this
  | guard mt _ x hg =>
    have hx := free_wrap hg hf
    cases mt with
    | false =>
      have := go (a := wrap kwMutexGuard tyT) (b := shared tyT) (g := .deref false) (by rw [hp]; simp) x
        (match_wrapT_free (by decide) (k4 ▸ hg) hx)
      simpa only [shared, Builtin.subst_ref] using this
    | true =>
      have := go (a := wrap kwMutexGuard tyT) (b := excl tyT) (g := .deref true) (by rw [hp]; simp) x
        (match_wrapT_free (by decide) (k4 ▸ hg) hx)
      simpa only [excl, Builtin.subst_ref] using this
  | rc _ x hr =>
    have hx := free_wrap hr hf
    have := go (a := wrap kwRc tyT) (b := shared tyT) (g := .deref false) (by rw [hp]; simp) x
      (match_wrapT_free (by decide) (k2 ▸ hr) hx)
    simpa only [shared, Builtin.subst_ref] using this
  | rcRef lt r x hr =>
    have hx := free_wrap hr (free_ref hf)
    have := go (a := shared (wrap kwRc tyT)) (b := shared tyT) (g := .deref false) (by rw [hp]; simp) x
      (by unfold shared; rw [Builtin.match_ref]; simp [match_wrapT_free (n := kwRc) (by decide) (k2 ▸ hr) hx])
    simpa only [shared, Builtin.subst_ref] using this
  | borrow lt c x hc =>
    have hx := free_wrap hc (free_ref hf)
    have := go (a := shared (wrap kwRefCell tyT)) (b := wrap kwRef tyT) (g := .borrow) (by rw [hp]; simp) x
      (by unfold shared; rw [Builtin.match_ref]; simp [match_wrapT_free (n := kwRefCell) (by decide) (k5 ▸ hc) hx])
    rw [k6]
    simpa only [subst_wrap kwRef (by decide)] using this
  | borrowMut lt c x hc =>
    have hx := free_wrap hc (free_ref hf)
    have := go (a := shared (wrap kwRefCell tyT)) (b := wrap kwRefMut tyT) (g := .borrowMut) (by rw [hp]; simp) x
      (by unfold shared; rw [Builtin.match_ref]; simp [match_wrapT_free (n := kwRefCell) (by decide) (k5 ▸ hc) hx])
    rw [k7]
    simpa only [subst_wrap kwRefMut (by decide)] using this
  | ref _ x hg =>
    have hx := free_wrap hg hf
    have := go (a := wrap kwRef tyT) (b := shared tyT) (g := .deref false) (by rw [hp]; simp) x
      (match_wrapT_free (by decide) (k6 ▸ hg) hx)
    simpa only [shared, Builtin.subst_ref] using this
  | refMut _ x hg =>
    have hx := free_wrap hg hf
    have := go (a := wrap kwRefMut tyT) (b := excl tyT) (g := .deref true) (by rw [hp]; simp) x
      (match_wrapT_free (by decide) (k7 ▸ hg) hx)
    simpa only [excl, Builtin.subst_ref] using this

/-! ### Values -/

theorem is_ref {n : Text} {lt : Option Text} {mt : Bool} {e x : Ty} : ¬ Is n (.ref lt mt e) x := by
  rintro ⟨q, l, h⟩; cases h

theorem is_unique {n n' : Text} {b x y : Ty} (h : Is n b x) (h' : Is n' b y) : n = n' ∧ x = y := by
  obtain ⟨q, l, rfl⟩ := h
  obtain ⟨q', l', h'⟩ := h'
  cases h'; exact ⟨rfl, rfl⟩

theorem is_wrap (n : Text) (x : Ty) : Is n (wrap n x) x := ⟨none, false, rfl⟩

theorem hasTy_ref {v : PVal} {lt : Option Text} {mt : Bool} {e : Ty} (h : v.HasTy (.ref lt mt e)) : ∃ v0, v = .ref mt v0 ∧ v0.HasTy e := by
  cases v with
  | obj i => exact absurd rfl (h.1 lt mt e)
  | wrap k v => obtain ⟨x, hx, _⟩ := h; exact absurd hx is_ref
  | ref m v => obtain ⟨lt', e', h1, h2⟩ := h; cases h1; exact ⟨v, rfl, h2⟩

theorem hasTy_wrap {v : PVal} {n : Text} {b x : Ty} (hn : ∃ k : Kind, k.name = n) (hb : Is n b x) (h : v.HasTy b) :
    ∃ k v0, v = .wrap k v0 ∧ k.name = n ∧ v0.HasTy x := by
  cases v with
  | obj i => obtain ⟨k, rfl⟩ := hn; exact absurd hb (h.2 k x)
  | wrap k v =>
    obtain ⟨y, hy, h2⟩ := h
    obtain ⟨h3, rfl⟩ := is_unique hy hb
    exact ⟨k, v, rfl, h3, h2⟩
  | ref m v => obtain ⟨lt', e', rfl, h2⟩ := h; exact absurd hb is_ref

/-- Number of a kind. -/
def Kind.tag : Kind → Nat
  | .box => 0
  | .arc => 1
  | .rc => 2
  | .mutex _ => 3
  | .cell _ => 4
  | .lockGuard _ => 5
  | .refGuard _ => 6
  | .mutGuard _ => 7

/-- Number of a name. -/
def tagOf (t : Text) : Nat :=
  if t = Builtin.kwBox then 0 else if t = kwArc then 1 else if t = kwRc then 2 else if t = kwMutex then 3 else if t = kwRefCell then 4
  else if t = kwMutexGuard then 5 else if t = kwRef then 6 else 7

theorem tags : tagOf "Box".toList = 0 ∧ tagOf "Arc".toList = 1 ∧ tagOf "Rc".toList = 2 ∧ tagOf "Mutex".toList = 3 ∧ tagOf "RefCell".toList = 4 ∧
    tagOf "MutexGuard".toList = 5 ∧ tagOf "Ref".toList = 6 ∧ tagOf "RefMut".toList = 7 := by decide +kernel

theorem tag_name (k : Kind) : tagOf k.name = k.tag := by
  obtain ⟨h0, h1, h2, h3, h4, h5, h6, h7⟩ := tags
  cases k
  · exact h0
  · exact h1
  · exact h2
  · exact h3
  · exact h4
  · exact h5
  · exact h6
  · exact h7

theorem name_inv (k : Kind) :
    (k.name = "Box".toList → k = .box) ∧ (k.name = "Arc".toList → k = .arc) ∧ (k.name = "Rc".toList → k = .rc) ∧
    (k.name = "Mutex".toList → ∃ c, k = .mutex c) ∧ (k.name = "RefCell".toList → ∃ c, k = .cell c) ∧
    (k.name = "MutexGuard".toList → ∃ c, k = .lockGuard c) ∧ (k.name = "Ref".toList → ∃ c, k = .refGuard c) ∧
    (k.name = "RefMut".toList → ∃ c, k = .mutGuard c) := by
  obtain ⟨h0, h1, h2, h3, h4, h5, h6, h7⟩ := tags
  have ht := tag_name k
  refine ⟨?_, ?_, ?_, ?_, ?_, ?_, ?_, ?_⟩ <;> intro h <;> rw [h] at ht
  · rw [h0] at ht; cases k <;> simp [Kind.tag] at ht ⊢
  · rw [h1] at ht; cases k <;> simp [Kind.tag] at ht ⊢
  · rw [h2] at ht; cases k <;> simp [Kind.tag] at ht ⊢
  · rw [h3] at ht; cases k <;> simp [Kind.tag] at ht ⊢
  · rw [h4] at ht; cases k <;> simp [Kind.tag] at ht ⊢
  · rw [h5] at ht; cases k <;> simp [Kind.tag] at ht ⊢
  · rw [h6] at ht; cases k <;> simp [Kind.tag] at ht ⊢
  · rw [h7] at ht; cases k <;> simp [Kind.tag] at ht ⊢

theorem access_mono : ∀ v : PVal, v.access false = true → v.access true = true
  | .obj _, h => by simp [PVal.access] at h
  | .ref true v, h => access_mono v h
  | .ref false v, h => h
  | .wrap k v, h => by
    cases k <;> simp only [PVal.access, Kind.gives] at h ⊢ <;> first | exact h | exact access_mono v h

/-- One step on values. -/
theorem step_value {t t' : Ty} {f : PForm} (h : PStep t t' f) (v : PVal) (hv : v.HasTy t) :
    ∃ r v', f.eval v = some (r, v') ∧ v'.HasTy t' ∧ v'.object = v.object ∧ (v'.canWrite → v.canWrite) := by
  cases h with
  | base h =>
    cases h with
    | borrow mt =>
      refine ⟨none, .ref mt v, rfl, ⟨_, _, rfl, hv⟩, rfl, ?_⟩
      cases mt with
      | true => exact fun h => h
      | false => exact access_mono v
    | share lt e =>
      obtain ⟨v0, rfl, h0⟩ := hasTy_ref hv
      exact ⟨none, .ref false v0, rfl, ⟨_, _, rfl, h0⟩, rfl, access_mono v0⟩
    | unbox lt b x hx =>
      obtain ⟨v0, rfl, h0⟩ := hasTy_ref hv
      obtain ⟨k, v1, rfl, hk, h1⟩ := hasTy_wrap ⟨.box, rfl⟩ ((isBox_is _ _).1 hx) h0
      obtain rfl := (name_inv k).1 hk
      exact ⟨none, .ref false v1, rfl, ⟨_, _, rfl, h1⟩, rfl, fun h => h⟩
    | unboxMut lt b x hx =>
      obtain ⟨v0, rfl, h0⟩ := hasTy_ref hv
      obtain ⟨k, v1, rfl, hk, h1⟩ := hasTy_wrap ⟨.box, rfl⟩ ((isBox_is _ _).1 hx) h0
      obtain rfl := (name_inv k).1 hk
      exact ⟨none, .ref true v1, rfl, ⟨_, _, rfl, h1⟩, rfl, fun h => h⟩
  | arcMutex _ m x ha hm =>
    obtain ⟨k, v0, rfl, hk, h0⟩ := hasTy_wrap ⟨.arc, rfl⟩ ha hv
    obtain rfl := (name_inv k).2.1 hk
    obtain ⟨k, v1, rfl, hk, h1⟩ := hasTy_wrap ⟨.mutex 0, rfl⟩ hm h0
    obtain ⟨c, rfl⟩ := (name_inv k).2.2.2.1 hk
    exact ⟨none, .ref false (.wrap (.mutex c) v1), rfl, ⟨_, _, rfl, x, is_wrap _ _, h1⟩, rfl, fun h => h⟩
  | lock lt m x hm =>
    obtain ⟨v0, rfl, h0⟩ := hasTy_ref hv
    obtain ⟨k, v1, rfl, hk, h1⟩ := hasTy_wrap ⟨.mutex 0, rfl⟩ hm h0
    obtain ⟨c, rfl⟩ := (name_inv k).2.2.2.1 hk
    exact ⟨some (c, .lock), .wrap (.lockGuard c) v1, rfl, ⟨x, is_wrap _ _, h1⟩, rfl, fun h => h⟩
  | guard mt _ x hg =>
    obtain ⟨k, v0, rfl, hk, h0⟩ := hasTy_wrap ⟨.lockGuard 0, rfl⟩ hg hv
    obtain ⟨c, rfl⟩ := (name_inv k).2.2.2.2.2.1 hk
    cases mt with
    | true => exact ⟨none, .ref true v0, rfl, ⟨_, _, rfl, h0⟩, rfl, fun h => h⟩
    | false => exact ⟨none, .ref false v0, rfl, ⟨_, _, rfl, h0⟩, rfl, access_mono v0⟩
  | rc _ x hr =>
    obtain ⟨k, v0, rfl, hk, h0⟩ := hasTy_wrap ⟨.rc, rfl⟩ hr hv
    obtain rfl := (name_inv k).2.2.1 hk
    exact ⟨none, .ref false v0, rfl, ⟨_, _, rfl, h0⟩, rfl, fun h => h⟩
  | rcRef lt r x hr =>
    obtain ⟨v0, rfl, h0⟩ := hasTy_ref hv
    obtain ⟨k, v1, rfl, hk, h1⟩ := hasTy_wrap ⟨.rc, rfl⟩ hr h0
    obtain rfl := (name_inv k).2.2.1 hk
    exact ⟨none, .ref false v1, rfl, ⟨_, _, rfl, h1⟩, rfl, fun h => h⟩
  | borrow lt c x hc =>
    obtain ⟨v0, rfl, h0⟩ := hasTy_ref hv
    obtain ⟨k, v1, rfl, hk, h1⟩ := hasTy_wrap ⟨.cell 0, rfl⟩ hc h0
    obtain ⟨c, rfl⟩ := (name_inv k).2.2.2.2.1 hk
    exact ⟨some (c, .shared), .wrap (.refGuard c) v1, rfl, ⟨x, is_wrap _ _, h1⟩, rfl, access_mono v1⟩
  | borrowMut lt c x hc =>
    obtain ⟨v0, rfl, h0⟩ := hasTy_ref hv
    obtain ⟨k, v1, rfl, hk, h1⟩ := hasTy_wrap ⟨.cell 0, rfl⟩ hc h0
    obtain ⟨c, rfl⟩ := (name_inv k).2.2.2.2.1 hk
    exact ⟨some (c, .excl), .wrap (.mutGuard c) v1, rfl, ⟨x, is_wrap _ _, h1⟩, rfl, fun h => h⟩
  | ref _ x hg =>
    obtain ⟨k, v0, rfl, hk, h0⟩ := hasTy_wrap ⟨.refGuard 0, rfl⟩ hg hv
    obtain ⟨c, rfl⟩ := (name_inv k).2.2.2.2.2.2.1 hk
    exact ⟨none, .ref false v0, rfl, ⟨_, _, rfl, h0⟩, rfl, fun h => h⟩
  | refMut _ x hg =>
    obtain ⟨k, v0, rfl, hk, h0⟩ := hasTy_wrap ⟨.mutGuard 0, rfl⟩ hg hv
    obtain ⟨c, rfl⟩ := (name_inv k).2.2.2.2.2.2.2 hk
    exact ⟨none, .ref true v0, rfl, ⟨_, _, rfl, h0⟩, rfl, fun h => h⟩

/-- **C81**: along any chain of these conversions every expression compiles, the last variable has the type the chain ends in, it leads to
the very object the first variable leads to, and it allows changing the object only if the first variable does. -/
theorem C81_same_object {t t' : Ty} {fs : List PForm} (h : PChain t fs t') : ∀ v : PVal, v.HasTy t →
    ∃ rs v', evalAll fs v = some (rs, v') ∧ v'.HasTy t' ∧ v'.object = v.object ∧ (v'.canWrite → v.canWrite) := by
  induction h with
  | nil t => intro v hv; exact ⟨[], v, rfl, hv, rfl, fun h => h⟩
  | cons hs _ ih =>
    intro v hv
    obtain ⟨r1, v1, e1, t1, o1, w1⟩ := step_value hs v hv
    obtain ⟨r2, v2, e2, t2, o2, w2⟩ := ih v1 t1
    exact ⟨r1.toList ++ r2, v2, by simp [evalAll, e1, e2], t2, o2.trans o1, fun h => w1 (w2 h)⟩

/-- What a pointer gives depends on its type. -/
theorem gives_name (k k' : Kind) (h : k.name = k'.name) (e : Bool) : k.gives e = k'.gives e := by
  have ht : k.tag = k'.tag := by rw [← tag_name, ← tag_name, h]
  cases k <;> cases k' <;> simp [Kind.tag, Kind.gives] at ht ⊢

theorem access_type : ∀ (v v' : PVal) (t : Ty) (e : Bool), v.HasTy t → v'.HasTy t → v.access e = v'.access e
  | .obj i, v', t, e, h, h' => by
    cases v' with
    | obj j => rfl
    | wrap k v => obtain ⟨x, hx, _⟩ := h'; exact absurd hx (h.2 k x)
    | ref m v => obtain ⟨lt, e, rfl, _⟩ := h'; exact absurd rfl (h.1 lt m e)
  | .wrap k v, v', t, e, h, h' => by
    obtain ⟨x, hx, hv⟩ := h
    obtain ⟨k', w, rfl, hk, hw⟩ := hasTy_wrap ⟨k, rfl⟩ hx h'
    simp only [PVal.access]
    rw [gives_name k' k hk]
    exact access_type v w x _ hv hw
  | .ref m v, v', t, e, h, h' => by
    obtain ⟨lt, x, rfl, hv⟩ := h
    obtain ⟨w, rfl, hw⟩ := hasTy_ref h'
    cases m <;> exact access_type v w x _ hv hw

theorem inhabited : ∀ (n : Nat) (t : Ty), sizeOf t ≤ n → ∃ v : PVal, v.HasTy t
  | 0, t, h => by cases t <;> simp at h
  | n + 1, t, h => by
    by_cases hb : ∃ (k : Kind) (x : Ty), Is k.name t x
    · obtain ⟨k, x, hx⟩ := hb
      have : sizeOf x ≤ n := by
        obtain ⟨q, l, rfl⟩ := hx
        simp only [Ty.path.sizeOf_spec, Segs.cons.sizeOf_spec, Args.angle.sizeOf_spec, GArgs.ty.sizeOf_spec] at h
        omega
      obtain ⟨v, hv⟩ := inhabited n x this
      exact ⟨.wrap k v, x, hx, hv⟩
    · by_cases hr : ∃ lt mt e, t = .ref lt mt e
      · obtain ⟨lt, mt, e, rfl⟩ := hr
        have : sizeOf e ≤ n := by
          simp only [Ty.ref.sizeOf_spec] at h; omega
        obtain ⟨v, hv⟩ := inhabited n e this
        exact ⟨.ref mt v, lt, e, rfl, hv⟩
      · exact ⟨.obj 0, fun lt mt e he => hr ⟨lt, mt, e, he⟩, fun k x hx => hb ⟨k, x, hx⟩⟩

/-- **C81**: no chain of conversions gives more access: if some value of the type it ends in allows changing the object, every value of
the type it starts from does.  (So there is no way from `Rc<x>`, `Ref<x>` or `&x` to `&mut x` for a plain class `x`.) -/
theorem C81_no_more_access {t t' : Ty} {fs : List PForm} (h : PChain t fs t') (v v' : PVal) (hv : v.HasTy t) (hv' : v'.HasTy t')
    (hw : v'.canWrite) : v.canWrite := by
  obtain ⟨rs, w, _, t1, _, w1⟩ := C81_same_object h v hv
  refine w1 ?_
  have := access_type v' w t' true hv' t1
  unfold PVal.canWrite at hw ⊢
  rw [← this]; exact hw

/-- **C81**: a plain class behind a pointer that may have other owners, or behind a shared borrow, is never handed out exclusively. -/
theorem C81_shared_pointers (n : Text) (hn : n = "Rc".toList ∨ n = "Arc".toList ∨ n = "Ref".toList) (b x : Ty) (hb : Is n b x)
    (hx : (∀ lt mt e, x ≠ .ref lt mt e) ∧ ∀ (k : Kind) y, ¬ Is k.name x y) (fs : List PForm) (lt : Option Text) :
    ¬ PChain b fs (.ref lt true x) := by
  intro h
  have go : ∀ k : Kind, k.name = n → (∀ e, k.gives e = false) → False := by
    intro k hk hg
    have := C81_no_more_access h (.wrap k (.obj 0)) (.ref true (.obj 0)) ⟨x, hk ▸ hb, hx⟩ ⟨lt, x, rfl, hx⟩ rfl
    simp [PVal.canWrite, PVal.access, hg] at this
  rcases hn with rfl | rfl | rfl
  · exact go .rc rfl fun _ => rfl
  · exact go .arc rfl fun _ => rfl
  · exact go (.refGuard 0) rfl fun _ => rfl

/-! ### Locks -/

/-- Taking one after the other succeeds exactly if nothing conflicts and no mutex is poisoned. -/
theorem takeAll_runs (poisoned : Nat → Bool) : ∀ (rs held : List (Nat × Mode)), held.Pairwise (fun a b => ¬ Conflict a b) →
    ((∃ h, takeAll poisoned held rs = .runs h) ↔
      (held ++ rs).Pairwise (fun a b => ¬ Conflict a b) ∧ ∀ r ∈ rs, ¬ (r.2 = .lock ∧ poisoned r.1 = true))
  | [], held, hp => by simp [takeAll, hp]
  | r :: rs, held, hp => by
    rw [takeAll]
    by_cases hc : ∃ h ∈ held, Conflict h r
    · rw [if_pos hc]
      constructor
      · rintro ⟨h, hh⟩; split at hh <;> cases hh
      · rintro ⟨h1, _⟩
        obtain ⟨h, hh, hcf⟩ := hc
        rw [List.pairwise_append] at h1
        exact absurd hcf (h1.2.2 h hh r (by simp))
    · rw [if_neg hc]
      by_cases hpz : r.2 = .lock ∧ poisoned r.1 = true
      · rw [if_pos hpz]
        constructor
        · rintro ⟨h, hh⟩; cases hh
        · rintro ⟨_, h2⟩; exact absurd hpz (h2 r (by simp))
      · rw [if_neg hpz]
        have hp' : (held ++ [r]).Pairwise (fun a b => ¬ Conflict a b) := by
          rw [List.pairwise_append]
          refine ⟨hp, by simp, ?_⟩
          intro a ha b hb
          simp only [List.mem_singleton] at hb
          subst hb
          exact fun h => hc ⟨a, ha, h⟩
        rw [takeAll_runs poisoned rs (held ++ [r]) hp', List.append_assoc, List.singleton_append]
        constructor
        · rintro ⟨h1, h2⟩
          refine ⟨h1, ?_⟩
          intro x hx
          rcases List.mem_cons.1 hx with rfl | hx
          · exact hpz
          · exact h2 x hx
        · rintro ⟨h1, h2⟩
          exact ⟨h1, fun x hx => h2 x (List.mem_cons_of_mem _ hx)⟩

theorem takeAll_held (poisoned : Nat → Bool) : ∀ (rs held h : List (Nat × Mode)), takeAll poisoned held rs = .runs h → h = held ++ rs
  | [], held, h, e => by simp [takeAll] at e; simp [e]
  | r :: rs, held, h, e => by
    rw [takeAll] at e
    split at e
    · split at e <;> cases e
    · split at e
      · cases e
      · rw [takeAll_held poisoned rs _ h e]; simp

theorem takeAll_append (poisoned : Nat → Bool) : ∀ (rs ss held : List (Nat × Mode)),
    takeAll poisoned held (rs ++ ss) = match takeAll poisoned held rs with | .runs h => takeAll poisoned h ss | o => o
  | [], ss, held => rfl
  | r :: rs, ss, held => by
    simp only [List.cons_append, takeAll]
    split
    · split <;> rfl
    · split
      · rfl
      · exact takeAll_append poisoned rs ss _

theorem needs_good : ∀ as : List Arg, (∀ a ∈ as, a.Good) → ∃ rs, needs as = some rs
  | [], _ => ⟨[], rfl⟩
  | a :: as, h => by
    obtain ⟨t, t', hv, hc⟩ := h a (by simp)
    obtain ⟨rs, v', e, _⟩ := C81_same_object hc a.val hv
    obtain ⟨ss, hs⟩ := needs_good as fun x hx => h x (List.mem_cons_of_mem _ hx)
    exact ⟨rs ++ ss, by simp [needs, e, hs]⟩

/-- **C81**: the arguments of a call (any number, any chains) can all be converted exactly if no two of the locks and borrows they need
exclude each other and no mutex is poisoned; then all of them are held while the user's function runs. -/
theorem C81_call (poisoned : Nat → Bool) (as : List Arg) (h : ∀ a ∈ as, a.Good) :
    ∃ rs, needs as = some rs ∧
      (takeAll poisoned [] rs = .runs rs ↔ rs.Pairwise (fun a b => ¬ Conflict a b) ∧ ∀ r ∈ rs, ¬ (r.2 = .lock ∧ poisoned r.1 = true)) := by
  obtain ⟨rs, hr⟩ := needs_good as h
  refine ⟨rs, hr, ?_⟩
  have := takeAll_runs poisoned rs [] .nil
  simp only [List.nil_append] at this
  rw [← this]
  constructor
  · exact fun h => ⟨_, h⟩
  · rintro ⟨h, hh⟩
    have := takeAll_held poisoned rs [] h hh
    simp only [List.nil_append] at this
    rw [hh, this]

/-- **C81**: when a call is stuck, it is so at the first lock or borrow that cannot be had: waiting for a mutex it holds itself, else by a panic
(a cell already borrowed, or a poisoned mutex). -/
theorem C81_stuck (poisoned : Nat → Bool) (rs : List (Nat × Mode)) (o : Outcome) (h : takeAll poisoned [] rs = o) (hn : ∀ held, o ≠ .runs held) :
    ∃ pre r post, rs = pre ++ r :: post ∧ takeAll poisoned [] pre = .runs pre ∧
      (((∃ p ∈ pre, Conflict p r) ∧ o = (if r.2 = .lock then .blocks else .panics)) ∨
        ((¬ ∃ p ∈ pre, Conflict p r) ∧ r.2 = .lock ∧ poisoned r.1 = true ∧ o = .panics)) := by
  have gen : ∀ (rs held : List (Nat × Mode)), takeAll poisoned [] held = .runs held → takeAll poisoned held rs = o →
      ∃ pre r post, held ++ rs = pre ++ r :: post ∧ takeAll poisoned [] pre = .runs pre ∧
        (((∃ p ∈ pre, Conflict p r) ∧ o = (if r.2 = .lock then .blocks else .panics)) ∨
          ((¬ ∃ p ∈ pre, Conflict p r) ∧ r.2 = .lock ∧ poisoned r.1 = true ∧ o = .panics)) := by
    intro rs
    induction rs with
    | nil => intro held _ h2; exact absurd h2.symm (hn held)
    | cons r rs ih =>
      intro held h1 h2
      rw [takeAll] at h2
      by_cases hc : ∃ h ∈ held, Conflict h r
      · rw [if_pos hc] at h2
        exact ⟨held, r, rs, rfl, h1, Or.inl ⟨hc, h2.symm⟩⟩
      · rw [if_neg hc] at h2
        by_cases hp : r.2 = .lock ∧ poisoned r.1 = true
        · rw [if_pos hp] at h2
          exact ⟨held, r, rs, rfl, h1, Or.inr ⟨hc, hp.1, hp.2, h2.symm⟩⟩
        · rw [if_neg hp] at h2
          have h3 : takeAll poisoned [] (held ++ [r]) = .runs (held ++ [r]) := by
            rw [takeAll_append, h1]
            simp only [takeAll]
            rw [if_neg hc, if_neg hp]
          obtain ⟨pre, r', post, e1, e2⟩ := ih (held ++ [r]) h3 h2
          exact ⟨pre, r', post, by simpa using e1, e2⟩
  simpa using gen rs [] rfl h

/-! ### Code and search -/

/-- The code of a step in pieces. -/
def PForm.pieces (f : PForm) : List Piece :=
  [.lit kwLetMut, .ph toVar, .lit kwColon, .ph toVarType, .lit kwEq, .lit f.before, .ph fromVar, .lit f.after]

theorem pieces_render (f : PForm) : render f.pieces = f.stmt toVar toVarType fromVar := by
  simp only [PForm.pieces, render, PForm.stmt, List.append_nil]

theorem pieces_lit (f : PForm) : ∀ t, Piece.lit t ∈ f.pieces → '{' ∉ t := by
  intro t ht
  simp only [PForm.pieces, List.mem_cons, Piece.lit.injEq, reduceCtorEq, false_or, List.not_mem_nil, or_false] at ht
  have h : ∀ f : PForm, '{' ∉ f.before ∧ '{' ∉ f.after := by
    intro f; rcases f with (⟨⟨⟩⟩ | _ | _ | _) | ⟨⟨⟩⟩ | _ | _ | _ <;> decide
  rcases ht with rfl | rfl | rfl | rfl | rfl
  · decide
  · decide
  · decide
  · exact (h f).1
  · exact (h f).2

/-- **C81**: the line written for a step declares the new variable with its type by the expression of the step. -/
theorem C81_code (f : PForm) (params : List Text) (out inVar ty ret : Text) (h : ∀ n ∈ [out, inVar, ty, ret], '{' ∉ n) :
    (TypeConvCode.mk (f.stmt phTo phType phFrom) params).generateCode out inVar ty ret = kwIndent ++ f.stmt out ty inVar ++ kwNl := by
  have h1 := C09_generate_code f.pieces params out inVar ty ret
    (by intro n hn; simp only [List.mem_cons, List.not_mem_nil, or_false] at hn; exact h n (by simp; exact hn))
    (by
      intro t ht
      simp only [PForm.pieces, List.mem_cons, Piece.ph.injEq, reduceCtorEq, false_or, List.not_mem_nil, or_false] at ht
      rcases ht with rfl | rfl | rfl <;> simp [tokens])
    (by
      intro t ht tok htok
      simp only [tokens, List.mem_cons, List.not_mem_nil, or_false] at htok
      rcases htok with rfl | rfl | rfl | rfl <;> exact inert_of_not_mem '{' _ _ (pieces_lit f t ht))
  rw [pieces_render] at h1
  have e1 : ¬ toVarType = toVar := by decide
  have e2 : ¬ toVarType = fromVar := by decide
  have e3 : ¬ fromVar = toVar := by decide
  refine h1.trans ?_
  simp only [PForm.pieces, instantiate, PForm.stmt, e1, e2, e3, if_true, if_false, List.append_assoc, List.append_nil]
  rfl

theorem norm_is {n : Text} {b x : Ty} (h : Is n b x) : Is n b.norm x.norm := by
  obtain ⟨q, l, rfl⟩ := h
  exact ⟨q, l, by simp [Ty.norm, Ty.stripLt, Ty.stripDyn, Segs.stripLt, Segs.stripDyn, Args.stripLt, Args.stripDyn, GArgs.stripLt, GArgs.stripDyn]⟩

theorem norm_wrap (n : Text) (x : Ty) : (wrap n x).norm = wrap n x.norm := by
  simp [wrap, Ty.norm, Ty.stripLt, Ty.stripDyn, Segs.stripLt, Segs.stripDyn, Args.stripLt, Args.stripDyn, GArgs.stripLt, GArgs.stripDyn]

theorem step_norm {t t' : Ty} {f : PForm} (h : PStep t t' f) : PStep t.norm t'.norm f := by
  cases h with
  | base h => exact .base (Builtin.step_norm h)
  | arcMutex _ m x ha hm => rw [Builtin.norm_ref, norm_wrap]; exact .arcMutex _ _ _ (norm_is ha) (norm_is hm)
  | lock lt m x hm => rw [Builtin.norm_ref, norm_wrap]; exact .lock _ _ _ (norm_is hm)
  | guard mt _ x hg => rw [Builtin.norm_ref]; exact .guard _ _ _ (norm_is hg)
  | rc _ x hr => rw [Builtin.norm_ref]; exact .rc _ _ (norm_is hr)
  | rcRef lt r x hr => rw [Builtin.norm_ref, Builtin.norm_ref]; exact .rcRef _ _ _ (norm_is hr)
  | borrow lt c x hc => rw [Builtin.norm_ref, norm_wrap]; exact .borrow _ _ _ (norm_is hc)
  | borrowMut lt c x hc => rw [Builtin.norm_ref, norm_wrap]; exact .borrowMut _ _ _ (norm_is hc)
  | ref _ x hg => rw [Builtin.norm_ref]; exact .ref _ _ (norm_is hg)
  | refMut _ x hg => rw [Builtin.norm_ref]; exact .refMut _ _ (norm_is hg)

theorem plain_is {n : Text} {b x : Ty} (h : Is n b x) (hp : b.plain = true) : x.plain = true := by
  obtain ⟨q, l, rfl⟩ := h; simp_all [Ty.plain, Segs.plain, Args.plain, GArgs.plain]

theorem plain_wrap (n : Text) {x : Ty} (hp : x.plain = true) : (wrap n x).plain = true := by
  simp [wrap, Ty.plain, Segs.plain, Args.plain, GArgs.plain, hp]

theorem plain_ref {lt : Option Text} {mt : Bool} {b : Ty} : (Ty.ref lt mt b).plain = b.plain := by simp [Ty.plain]

theorem step_plain {t t' : Ty} {f : PForm} (h : PStep t t' f) (hp : t.plain = true) : t'.plain = true := by
  cases h with
  | base h => exact Builtin.step_plain h hp
  | arcMutex _ m x ha hm => rw [plain_ref]; exact plain_wrap _ (plain_is hm (plain_is ha hp))
  | lock lt m x hm => rw [plain_ref] at hp; exact plain_wrap _ (plain_is hm hp)
  | guard mt _ x hg => rw [plain_ref]; exact plain_is hg hp
  | rc _ x hr => rw [plain_ref]; exact plain_is hr hp
  | rcRef lt r x hr => rw [plain_ref] at hp ⊢; exact plain_is hr hp
  | borrow lt c x hc => rw [plain_ref] at hp; exact plain_wrap _ (plain_is hc hp)
  | borrowMut lt c x hc => rw [plain_ref] at hp; exact plain_wrap _ (plain_is hc hp)
  | ref _ x hg => rw [plain_ref]; exact plain_is hg hp
  | refMut _ x hg => rw [plain_ref]; exact plain_is hg hp

/-- The edge has the code of the form. -/
def CodeIs (g : Graph.Graph (TMap.RTy (Ty × List Text)) Convert.EdgeW) (e : Nat) (f : PForm) : Prop :=
  ∃ ed, g.edges[e]? = some ed ∧ ed.w.code.code = f.stmt phTo phType phFrom

/-- The conversion found is a path of genuine steps. -/
theorem search_edges (u : Macro.Unicode) (nm : Ty → Text) (hnm : ∀ t t', t.plain = true → t'.plain = true → nm t = nm t' → Same t t')
    (cell : Nat) (P : Graph.PopFn) (ord : List Nat → List Nat) (hord : ∀ l, (ord l).Perm l)
    (tm tm' : TMap.TM (Ty × List Text) Convert.EdgeW) (hok : TMap.Ok tm) (hno : tm.g.edges = []) (hn : Builtin.Named nm tm.g)
    (a b : Nat) (A B : TMap.RTy (Ty × List Text)) (ha : tm.g.nodes[a]? = some A) (hb : tm.g.nodes[b]? = some B) (p : List Nat)
    (h : TMap.findOrBuildPath P ord (rules u nm cell) tm a b = some (tm', .ok p)) :
    Graph.IsPath tm'.g a b p ∧ TMap.Ok tm' ∧ tm'.g.nodes[a]? = some A ∧ tm'.g.nodes[b]? = some B ∧
      ∀ (e : Nat) ed, tm'.g.edges[e]? = some ed → ∀ x y, tm'.g.nodes[ed.src]? = some x → tm'.g.nodes[ed.dst]? = some y →
        ∃ f, PStep x.ty.1.norm y.ty.1.norm f ∧ CodeIs tm'.g e f := by
  have hal := (List.getElem?_eq_some_iff.1 ha).1
  have hbl := (List.getElem?_eq_some_iff.1 hb).1
  obtain ⟨n1, n2⟩ := TMap.C48_only_instances P ord hord (rules u nm cell) tm tm' hok a b hal B hb (.ok p) h
  obtain ⟨tm2, r, h2, hok2, hgr, hr⟩ := TMap.C48_find_or_build P ord hord (rules u nm cell) tm hok a b hal hbl
  rw [h] at h2
  cases h2
  have hpath : Graph.IsPath tm'.g a b p := by
    rcases hr with ⟨q, hq, hq2⟩ | ⟨hq, _⟩
    · cases hq; exact hq2
    · cases hq
  have hder : ∀ q, TMap.Derived (rules u nm cell) B tm.g q → q.ty.1.plain = true := by
    intro q hq
    induction hq with
    | old h => exact (hn _ _ h).1
    | rule _ hap ih => obtain ⟨f, hs, _, _⟩ := C81_sound u nm cell _ _ _ _ hap; exact step_plain hs ih
  have hn' : Builtin.Named nm tm'.g := by
    intro i q hq
    rcases Nat.lt_or_ge i tm.g.nodes.length with hlt | hge
    · refine hn i q ?_
      have := hgr.ext.node (List.getElem?_eq_getElem hlt)
      rw [hq] at this
      cases this
      exact List.getElem?_eq_getElem hlt
    · obtain ⟨frm, w, h1, h2⟩ := n1 i q hq hge
      obtain ⟨f, hs, _, hnm'⟩ := C81_sound u nm cell _ _ _ _ h2
      exact ⟨step_plain hs (hder frm h1), hnm'⟩
  have hstep : ∀ (e : Nat) ed, tm'.g.edges[e]? = some ed → ∀ x y, tm'.g.nodes[ed.src]? = some x → tm'.g.nodes[ed.dst]? = some y →
      ∃ f, PStep x.ty.1.norm y.ty.1.norm f ∧ CodeIs tm'.g e f := by
    intro e ed he x y hx hy
    obtain ⟨frm, q, tt, h1, h2, h3, h4⟩ := n2 e ed he (by simp [hno])
    rw [hx] at h1; cases h1
    rw [hy] at h2; cases h2
    obtain ⟨f, hs, hc, hnm'⟩ := C81_sound u nm cell _ _ _ _ h3
    refine ⟨f, ?_, ed, he, hc⟩
    have hsame : Same y.ty.1 tt.ty.1 :=
      hnm _ _ (hn' _ _ hy).1 (step_plain hs (hn' _ _ hx).1) (by rw [← (hn' _ _ hy).2, h4, hnm'])
    have := (C18_norm_iff_same _ _).2 hsame
    rw [this]
    exact step_norm hs
  exact ⟨hpath, hok2, hgr.ext.node ha, hgr.ext.node hb, hstep⟩

/-- **C81**: in a type map with only these and the built-in conversions (types without `dyn`/`impl`, each registered under its own name, and names that
identify types up to lifetimes), a conversion that the search finds or builds is a chain of the steps above (up to lifetimes) from the
given type to the wanted one, and its edges carry the code of these steps in order. -/
theorem C81_search (u : Macro.Unicode) (nm : Ty → Text) (hnm : ∀ t t', t.plain = true → t'.plain = true → nm t = nm t' → Same t t')
    (cell : Nat) (P : Graph.PopFn) (ord : List Nat → List Nat) (hord : ∀ l, (ord l).Perm l)
    (tm tm' : TMap.TM (Ty × List Text) Convert.EdgeW) (hok : TMap.Ok tm) (hno : tm.g.edges = []) (hn : Builtin.Named nm tm.g)
    (a b : Nat) (A B : TMap.RTy (Ty × List Text)) (ha : tm.g.nodes[a]? = some A) (hb : tm.g.nodes[b]? = some B) (p : List Nat)
    (h : TMap.findOrBuildPath P ord (rules u nm cell) tm a b = some (tm', .ok p)) :
    ∃ fs : List PForm, PChain A.ty.1.norm fs B.ty.1.norm ∧ fs.length = p.length ∧
      ∀ (i : Nat) e f, p[i]? = some e → fs[i]? = some f → CodeIs tm'.g e f := by
  obtain ⟨hpath, hok2, hA, hB, hstep⟩ := search_edges u nm hnm cell P ord hord tm tm' hok hno hn a b A B ha hb p h
  clear h ha hb
  induction p generalizing a A with
  | nil =>
    have : a = b := hpath
    subst this
    rw [hA] at hB; cases hB
    exact ⟨[], .nil _, rfl, by simp⟩
  | cons e es ih =>
    obtain ⟨ed, h1, rfl, h3⟩ := hpath
    have hlt := (hok2.wf ed (List.mem_of_getElem? h1)).2
    obtain ⟨f, hs, hc⟩ := hstep e ed h1 A _ hA (List.getElem?_eq_getElem hlt)
    obtain ⟨fs, g1, g2, g3⟩ := ih ed.dst _ h3 (List.getElem?_eq_getElem hlt)
    refine ⟨f :: fs, .cons hs g1, by simp [g2], ?_⟩
    intro i e' f' hi hf
    cases i with
    | zero => simp at hi hf; subst hi hf; exact hc
    | succ i => exact g3 i e' f' (by simpa using hi) (by simpa using hf)

theorem norm_is_eq {n : Text} {b x : Ty} (h : Is n b x) (hb : b.norm = b) : x.norm = x := by
  have := norm_is h
  rw [hb] at this
  exact (is_unique this h).2

theorem free_wrapT {n : Text} (hn : n ≠ kwT) {x : Ty} (h : x.free [kwT] = true) : (wrap n x).free [kwT] = true := by
  simp [wrap, Ty.free, Segs.free, Args.free, GArgs.free, Segs.single, h, hn]

theorem step_simple {t t' : Ty} {f : PForm} (h : PStep t t' f) (hs : Builtin.Simple t) : Builtin.Simple t' := by
  obtain ⟨h1, h2, h3⟩ := hs
  have hp := step_plain h h1
  have href : ∀ {lt : Option Text} {mt : Bool} {b : Ty}, (Ty.ref lt mt b).norm = .ref lt mt b → b.norm = b := by
    intro lt mt b h
    rw [Builtin.norm_ref] at h
    simp only [Ty.ref.injEq] at h
    exact h.2.2
  have hmk : ∀ {mt : Bool} {b : Ty}, b.norm = b → (Ty.ref none mt b).norm = .ref none mt b := by
    intro mt b h; rw [Builtin.norm_ref, h]
  have hw : ∀ {n : Text} {b : Ty}, b.norm = b → (wrap n b).norm = wrap n b := by
    intro n b h; rw [norm_wrap, h]
  have hfr : ∀ {mt : Bool} {b : Ty}, b.free [kwT] = true → (Ty.ref none mt b).free [kwT] = true := by
    intro mt b h; simpa [Ty.free] using h
  refine ⟨hp, ?_⟩
  cases h with
  | base h => exact (Builtin.step_simple h ⟨h1, h2, h3⟩).2
  | arcMutex _ m x ha hm =>
    exact ⟨hmk (hw (norm_is_eq hm (norm_is_eq ha h2))), hfr (free_wrapT (by decide) (free_wrap hm (free_wrap ha h3)))⟩
  | lock lt m x hm => exact ⟨hw (norm_is_eq hm (href h2)), free_wrapT (by decide) (free_wrap hm (free_ref h3))⟩
  | guard mt _ x hg => exact ⟨hmk (norm_is_eq hg h2), hfr (free_wrap hg h3)⟩
  | rc _ x hr => exact ⟨hmk (norm_is_eq hr h2), hfr (free_wrap hr h3)⟩
  | rcRef lt r x hr => exact ⟨hmk (norm_is_eq hr (href h2)), hfr (free_wrap hr (free_ref h3))⟩
  | borrow lt c x hc => exact ⟨hw (norm_is_eq hc (href h2)), free_wrapT (by decide) (free_wrap hc (free_ref h3))⟩
  | borrowMut lt c x hc => exact ⟨hw (norm_is_eq hc (href h2)), free_wrapT (by decide) (free_wrap hc (free_ref h3))⟩
  | ref _ x hg => exact ⟨hmk (norm_is_eq hg h2), hfr (free_wrap hg h3)⟩
  | refMut _ x hg => exact ⟨hmk (norm_is_eq hg h2), hfr (free_wrap hg h3)⟩

theorem step_ne {t t' : Ty} {f : PForm} (h : PStep t t' f) : t ≠ t' := by
  have hsz : ∀ {n : Text} {b x : Ty}, Is n b x → sizeOf x < sizeOf b := by
    rintro n b x ⟨q, l, rfl⟩
    simp only [Ty.path.sizeOf_spec, Segs.cons.sizeOf_spec, Args.angle.sizeOf_spec, GArgs.ty.sizeOf_spec]
    omega
  cases h with
  | base h => exact Builtin.step_ne h
  | arcMutex _ m x ha hm => rintro rfl; exact is_ref ha
  | lock lt m x hm => intro e; cases e
  | guard mt _ x hg => rintro rfl; exact is_ref hg
  | rc _ x hr => rintro rfl; exact is_ref hr
  | rcRef lt r x hr => intro e; cases e; have := hsz hr; omega
  | borrow lt c x hc => intro e; cases e
  | borrowMut lt c x hc => intro e; cases e
  | ref _ x hg => rintro rfl; exact is_ref hg
  | refMut _ x hg => rintro rfl; exact is_ref hg

theorem rule_uniform (u : Macro.Unicode) (nm : Ty → Text) (cell : Nat) {r} (hr : r ∈ rules u nm cell)
    (frm frm' goal goal' : TMap.RTy (Ty × List Text)) (look look') (h : frm.ty.1 = frm'.ty.1) : r frm goal look = r frm' goal' look' := by
  obtain ⟨i, e, he, rfl⟩ := (mem_rules _ _ _ _).1 hr
  have he := List.mem_of_getElem? he
  rcases all_cases e he frm.ty.1 with h1 | ⟨x, f, h1, _, _⟩
  · rw [ruleOf_no u nm _ e he frm goal look h1, ruleOf_no u nm _ e he frm' goal' look' (by rw [← h]; exact h1)]
  · rw [ruleOf_yes u nm _ e he frm goal look x h1, ruleOf_yes u nm _ e he frm' goal' look' x (by rw [← h]; exact h1)]

/-- **C81**: and it is not missed: whatever else the map knows, if the wanted type is at the end of a chain of at most seven of these steps, a
conversion is found (types without lifetimes, `dyn`, `impl` and not mentioning a type called `T`, each registered under its own name). -/
theorem C81_found (u : Macro.Unicode) (nm : Ty → Text) (hnm : ∀ t t', t.plain = true → t'.plain = true → nm t = nm t' → Same t t')
    (cell : Nat) (P : Graph.PopFn) (ord : List Nat → List Nat) (hord : ∀ l, (ord l).Perm l)
    (tm : TMap.TM (Ty × List Text) Convert.EdgeW) (hok : TMap.Ok tm)
    (hs : ∀ (i : Nat) q, tm.g.nodes[i]? = some q → Builtin.Simple q.ty.1 ∧ q.name = nm q.ty.1)
    (a b : Nat) (A B : TMap.RTy (Ty × List Text)) (ha : tm.g.nodes[a]? = some A) (hb : tm.g.nodes[b]? = some B)
    (fs : List PForm) (hlen : fs.length ≤ 7) (hc : PChain A.ty.1 fs B.ty.1) :
    ∃ tm' p, TMap.findOrBuildPath P ord (rules u nm cell) tm a b = some (tm', .ok p) := by
  refine Builtin.found_of nm hnm (rules u nm cell) (fun t t' => ∃ f, PStep t t' f) ?_ ?_ (fun t t' h hs => h.elim fun f h => step_simple h hs)
    (fun t t' h => h.elim fun f h => step_ne h) P ord hord tm hok hs a b A B ha hb fs.length hlen ?_
  · intro goal frm to_ w h
    obtain ⟨f, h1, _, h2⟩ := C81_sound u nm cell goal frm to_ w h
    exact ⟨⟨f, h1⟩, h2⟩
  · intro t t' goal hf ⟨f, h⟩
    obtain ⟨w, ⟨r, hr, look, hl⟩, _⟩ := C81_complete u nm cell goal ⟨[], (t, [])⟩ t' f hf h
    exact ⟨r, hr, fun frm look' he => ⟨_, w, (rule_uniform u nm cell hr frm _ goal goal look' look he).trans hl, rfl⟩⟩
  · generalize A.ty.1 = x at hc
    generalize B.ty.1 = y at hc
    induction hc with
    | nil t => exact .nil t
    | cons h _ ih => exact .cons ⟨_, h⟩ (ih (by simp only [List.length_cons] at hlen; omega))

/-! ### Findings -/

/-- **C81 (finding)**: a function that gets the same mutex-protected object twice, even for reading, never runs: the thread waits for itself. -/
theorem C81_finding_same_object_twice (poisoned : Nat → Bool) (c i j : Nat) (mt mt' : Bool) (hp : poisoned c = false) :
    (needs [⟨.wrap .arc (.wrap (.mutex c) (.obj i)), [.deref false, .lock, .deref mt]⟩,
      ⟨.wrap .arc (.wrap (.mutex c) (.obj j)), [.deref false, .lock, .deref mt']⟩]).map (takeAll poisoned []) = some .blocks := by
  cases mt <;> cases mt' <;>
    simp [needs, evalAll, PForm.eval, takeAll, hp, Conflict]

/-- **C81 (finding)**: with `Rc<RefCell<…>>` reading twice works, but reading and changing the same object panics. -/
theorem C81_finding_cell_twice (poisoned : Nat → Bool) (c i : Nat) :
    (needs [⟨.wrap .rc (.wrap (.cell c) (.obj i)), [.deref false, .borrow, .deref false]⟩,
      ⟨.wrap .rc (.wrap (.cell c) (.obj i)), [.deref false, .borrow, .deref false]⟩]).map (takeAll poisoned []) =
        some (.runs [(c, .shared), (c, .shared)]) ∧
    (needs [⟨.wrap .rc (.wrap (.cell c) (.obj i)), [.deref false, .borrow, .deref false]⟩,
      ⟨.wrap .rc (.wrap (.cell c) (.obj i)), [.deref false, .borrowMut, .deref true]⟩]).map (takeAll poisoned []) = some .panics := by
  constructor <;> simp [needs, evalAll, PForm.eval, takeAll, Conflict]

/-- **C81 (finding)**: lifetimes do not count in names but do in patterns: `Ref<'a, X>` is the same type to the map as `Ref<X>`, yet no rule gives
access to its content; it can only be borrowed itself (likewise for the other pointers). -/
theorem C81_finding_lifetime_argument (u : Macro.Unicode) (nm : Ty → Text) (cell : Nat) (goal frm to_ : TMap.RTy (Ty × List Text)) (w : Convert.EdgeW)
    (n lt : Text) (x : Ty) (hf : frm.ty.1 = .path none false (.cons n (.angle (.lt lt (.ty x .nil))) .nil))
    (h : TMap.Applied (rules u nm cell) goal frm to_ w) :
    (∃ mt, to_.ty.1 = .ref none mt frm.ty.1) ∧ Same frm.ty.1 (wrap n x) := by
  have hno : ∀ {n x}, ¬ Is n frm.ty.1 x := by
    rintro n x ⟨q, l, e⟩
    rw [hf] at e
    cases e
  constructor
  · obtain ⟨f, hs, _, _⟩ := C81_sound u nm cell goal frm to_ w h
    generalize to_.ty.1 = t at hs
    generalize frm.ty.1 = s at hs hf hno
    cases hs with
    | base h =>
      cases h with
      | borrow mt => exact ⟨mt, rfl⟩
      | share lt t => cases hf
      | unbox lt b x hx => cases hf
      | unboxMut lt b x hx => cases hf
    | arcMutex _ m x ha hm => exact absurd ha hno
    | lock lt m x hm => cases hf
    | guard mt _ x hg => exact absurd hg hno
    | rc _ x hr => exact absurd hr hno
    | rcRef lt r x hr => cases hf
    | borrow lt c x hc => cases hf
    | borrowMut lt c x hc => cases hf
    | ref _ x hg => exact absurd hg hno
    | refMut _ x hg => exact absurd hg hno
  · rw [hf]
    refine (C18_norm_iff_same _ _).1 ?_
    simp [wrap, Ty.norm, Ty.stripLt, Ty.stripDyn, Segs.stripLt, Segs.stripDyn, Args.stripLt, Args.stripDyn, GArgs.stripLt, GArgs.stripDyn]

/-! ### Not vacuous -/

/-- The type `F`. -/
def tyF : Ty := .path none false (.cons ['F'] .none .nil)
/-- A spelling that tells the types of the examples apart. -/
def spellTok : Tok → Text
  | .ident n => n ++ [' ']
  | .amp => ['&']
  | .mut_ => ['m', ' ']
  | .lt => ['<']
  | .gt => ['>']
  | _ => ['?']
/-- Names for the examples. -/
def exNm (t : Ty) : Text := t.normName.flatMap spellTok
/-- The map with the two types. -/
def exMap (a b : Ty) : TMap.TM (Ty × List Text) Convert.EdgeW :=
  (TMap.addNode (TMap.addNode TMap.empty ⟨exNm a, (a, [])⟩).1 ⟨exNm b, (b, [])⟩).1
/-- Length of the conversion found. -/
def exFind (a b : Ty) : Option (Option Nat) :=
  (TMap.findOrBuildPath Graph.firstMin id (rules GenericCode.plain exNm 0) (exMap a b) 0 1).map fun x =>
    match x.2 with
    | .ok p => some p.length
    | _ => none

example : PChain (wrap "Arc".toList (wrap "Mutex".toList tyF)) [.deref false, .lock, .deref true] (.ref none true tyF) :=
  .cons (.arcMutex _ _ _ ⟨none, false, rfl⟩ ⟨none, false, rfl⟩) (.cons (.lock _ _ _ ⟨none, false, rfl⟩) (.cons (.guard true _ _ ⟨none, false, rfl⟩) (.nil _)))
example : PChain (wrap "Rc".toList (wrap "RefCell".toList tyF)) [.deref false, .borrowMut, .deref true, .base .use] (.ref none false tyF) :=
  .cons (.rc _ _ ⟨none, false, rfl⟩) (.cons (.borrowMut _ _ _ ⟨none, false, rfl⟩) (.cons (.refMut _ _ ⟨none, false, rfl⟩)
    (.cons (.base (.share _ _)) (.nil _))))
example : (PVal.wrap .arc (.wrap (.mutex 3) (.obj 7))).HasTy (wrap "Arc".toList (wrap "Mutex".toList tyF)) := by
  refine ⟨_, ⟨none, false, rfl⟩, _, ⟨none, false, rfl⟩, ?_, ?_⟩
  · intro lt mt e h; cases h
  · rintro k x ⟨q, l, h⟩
    unfold tyF at h
    injection h with _ _ h
    injection h with _ h
    cases h
example : evalAll [.deref false, .lock, .deref true] (.wrap .arc (.wrap (.mutex 3) (.obj 7))) = some ([(3, .lock)], .ref true (.obj 7)) := rfl
example : (PVal.wrap .arc (.wrap (.mutex 3) (.obj 7))).canWrite ∧ ¬ (PVal.wrap .rc (.obj 7)).canWrite := by simp [PVal.canWrite, PVal.access, Kind.gives]
example : takeAll (fun _ => false) [] [(1, .lock), (2, .shared), (2, .shared)] = .runs [(1, .lock), (2, .shared), (2, .shared)] := by decide
example : takeAll (fun c => c == 2) [] [(1, .lock), (2, .lock)] = .panics := by decide
example : exFind (wrap kwArc (wrap kwMutex tyF)) (.ref none true tyF) = some (some 3) := by decide +kernel
example : exFind (wrap kwRc (wrap kwRefCell tyF)) (.ref none true tyF) = some (some 3) := by decide +kernel
example : ∀ t ∈ [wrap "Arc".toList (wrap "Mutex".toList tyF), .ref none true tyF], Builtin.Simple t := by
  intro t ht
  simp only [List.mem_cons, List.not_mem_nil, or_false] at ht
  rcases ht with rfl | rfl <;> exact ⟨by decide, by decide, by decide⟩

end Flapi.Pointers
