import Verif.Cpp.SharedHeaders
/-!
# C items and foreign code in shared C++ headers (C52)
-/
namespace Flapi.Headers
open Flapi

/-! ## Specification -/

/-- The identity of an item within a header, e.g. `struct Foo`. -/
def Item.id : Item → Text
  | .ty u n _ _ => tyId u n
  | .fn n _ _ _ => fnId n
  | .static n _ => staticId n

/-- A request met in a tree of mappings: an item for a header or a piece of foreign code for a module. -/
inductive Occ where
  | item (h : Text) (also : Bool) (i : Item)
  | code (m : Text) (sel : Bool) (t : Text)

mutual
/-- All requests of a step, those of nested mappings included. -/
def Op.occs : Op → List Occ
  | .merge h also items => items.occs h also
  | .code m sel t => [.code m sel t]
/-- All requests of a sequence of steps. -/
def Ops.occs : Ops → List Occ
  | .nil => []
  | .cons o r => o.occs ++ r.occs
/-- All requests of a list of items. -/
def Items.occs (h : Text) (also : Bool) : Items → List Occ
  | .nil => []
  | .cons i r => (.item h also i :: i.inner) ++ r.occs h also
/-- The requests that mapping the types of an item leads to. -/
def Item.inner : Item → List Occ
  | .ty _ _ _ fs => fs.occs
  | .fn _ _ ret args => ret.occs ++ args.occs
  | .static _ u => u.occs
/-- Requests of mapping fields or parameters. -/
def Fields.occs : Fields → List Occ
  | .nil => []
  | .cons _ u r => u.occs ++ r.occs
/-- Requests of mapping a return type. -/
def Ret.occs : Ret → List Occ
  | .void => []
  | .ty u => u.occs
/-- Requests of mapping one type. -/
def Use.occs : Use → List Occ
  | .mk nested _ _ _ => nested.occs
end

/-- Somewhere among the requests an item called `id` is asked for in header `h`. -/
def Asked (h id : Text) (os : List Occ) : Prop := ∃ also i, Occ.item h also i ∈ os ∧ i.id = id

/-- The requests made directly by a sequence of steps, not by nested mappings. -/
def Items.direct (h : Text) : Items → List (Text × Text)
  | .nil => []
  | .cons i r => (h, i.id) :: r.direct h
/-- As before. -/
def Ops.direct : Ops → List (Text × Text)
  | .nil => []
  | .cons (.merge h _ items) r => items.direct h ++ r.direct
  | .cons (.code ..) r => r.direct
/-- The selected foreign code requested directly. -/
def Ops.directCode : Ops → List (Text × Text)
  | .nil => []
  | .cons (.merge ..) r => r.directCode
  | .cons (.code m sel t) r => if sel then (m, t) :: r.directCode else r.directCode

/-- The items asked for directly by the mapping of one type. -/
def Use.direct : Use → List (Text × Text)
  | .mk nested _ _ _ => nested.direct
/-- For fields or parameters. -/
def Fields.direct : Fields → List (Text × Text)
  | .nil => []
  | .cons _ u r => u.direct ++ r.direct
/-- For a return type. -/
def Ret.direct : Ret → List (Text × Text)
  | .void => []
  | .ty u => u.direct
/-- What an item directly depends on. -/
def Item.deps : Item → List (Text × Text)
  | .ty _ _ _ fs => fs.direct
  | .fn _ _ ret args => ret.direct ++ args.direct
  | .static _ u => u.direct

/-- C name found by a mapping. -/
def Use.cname : Use → Text
  | .mk _ _ c _ => c
/-- Modules found by a mapping. -/
def Use.mods : Use → List Text
  | .mk _ _ _ m => m
/-- Names and C types of fields. -/
def Fields.lines : Fields → List (Text × Text)
  | .nil => []
  | .cons n u r => (n, u.cname) :: r.lines
/-- Modules of fields. -/
def Fields.mods : Fields → List Text
  | .nil => []
  | .cons _ u r => u.mods ++ r.mods
/-- C return type. -/
def Ret.cname : Ret → Text
  | .void => "void".toList
  | .ty u => u.cname
/-- Modules of a return type. -/
def Ret.mods : Ret → List Text
  | .void => []
  | .ty u => u.mods
/-- The members of a structure as C writes them: type, name, one per line. -/
def Fields.members : Fields → Text
  | .nil => []
  | .cons n u r => "    ".toList ++ u.cname ++ " ".toList ++ n ++ ";\n".toList ++ r.members
/-- The parameters of a function after the first as C writes them. -/
def Fields.moreParams : Fields → Text
  | .nil => []
  | .cons n u r => ", ".toList ++ u.cname ++ " ".toList ++ n ++ r.moreParams
/-- The parameters of a function. -/
def Fields.params : Fields → Text
  | .nil => []
  | .cons n u r => u.cname ++ " ".toList ++ n ++ r.moreParams
/-- The C declaration of an item: every field, parameter and result with the C name found for its type, in order. -/
def Item.cdecl : Item → Text
  | .ty u n _ fs => (if u then "union ".toList else "struct ".toList) ++ n ++ " {\n".toList ++ fs.members ++ "};\n".toList
  | .fn n _ ret args => ret.cname ++ " ".toList ++ n ++ "(".toList ++ args.params ++ ");".toList
  | .static n u => "extern const ".toList ++ u.cname ++ " ".toList ++ n ++ ";\n".toList
/-- The headers whose inclusion the generator takes care of: nothing for a constant. -/
def Item.needs : Item → List Text
  | .ty _ _ _ fs => fs.mods
  | .fn _ _ ret args => ret.mods ++ args.mods
  | .static _ _ => []

/-- No item is asked for again by the mapping of its own types. -/
def NoSelf (os : List Occ) : Prop := ∀ h also i, Occ.item h also i ∈ os → ¬ Asked h i.id i.inner

/-- How often something called `id` is declared. -/
def declCount (id : Text) : List Chunk → Nat
  | [] => 0
  | .decl x _ :: r => (if x = id then 1 else 0) + declCount id r
  | _ :: r => declCount id r

/-- Read a file from left to right, `d` blocks `extern "C" {` being open.  `none`: one is closed that was not opened, or
something is declared outside. -/
def walk : Nat → List Chunk → Option Nat
  | d, [] => some d
  | d, .openC :: r => walk (d + 1) r
  | 0, .closeC :: _ => none
  | d + 1, .closeC :: r => walk d r
  | 0, .decl .. :: _ => none
  | d + 1, .decl .. :: r => walk (d + 1) r
  | d, .head :: r => walk d r
  | d, .incl _ :: r => walk d r
  | d, .code _ :: r => walk d r

/-- The order of the hash set loses and invents nothing. -/
def Cfg.Fair (cfg : Cfg) : Prop := ∀ l m, m ∈ cfg.ord l ↔ m ∈ l

/-- The name of what a piece of Rust code belongs to. -/
def RustOut.id : RustOut → Text
  | .item i => i
  | .layoutTest i => i

/-! ## Induction over trees -/

/-- The state after an item of a header, its types mapped. -/
def finishTy (cfg : Cfg) (h : Text) (also : Bool) (id : Text) (incs : List Text) (t : Text) (s1 : St) : St :=
  (({ s1 with rust := s1.rust ++ [if also then RustOut.item id else RustOut.layoutTest id] } : St).write h
    (includeChunks cfg h incs ++ [Chunk.openC, Chunk.decl id t, Chunk.closeC])).define h id
/-- The state after a function or constant. -/
def finishFn (cfg : Cfg) (h id : Text) (incs : List Text) (t : Text) (s1 : St) : St :=
  ({ s1.write h (includeChunks cfg h incs ++ [Chunk.decl id t, Chunk.closeC]) with
      rust := (s1.write h (includeChunks cfg h incs ++ [Chunk.decl id t, Chunk.closeC])).rust ++ [RustOut.item id] } : St).define h id
/-- A constant. -/
def finishStatic (h id : Text) (t : Text) (s1 : St) : St :=
  ({ s1.write h [Chunk.decl id t, Chunk.closeC] with
      rust := (s1.write h [Chunk.decl id t, Chunk.closeC]).rust ++ [RustOut.item id] } : St).define h id

/-- A statement about the state and the direct requests of the mappings of an item's types that holds once they are mapped. -/
structure Done (cfg : Cfg) (D : St → List (Text × Text) → Prop) : Prop where
  fields : ∀ fs s s' ls ms, execFields cfg fs s = some (s', ls, ms) → D s' fs.direct
  fn : ∀ ret args s s1 s2 c m ls ms, execRet cfg ret s = some (s1, c, m) → execFields cfg args s1 = some (s2, ls, ms) →
    D s2 (ret.direct ++ args.direct)
  use : ∀ u s s' c m, execUse cfg u s = some (s', c, m) → D s' u.direct

/-- A relation between requests and states before and after that every step respects. -/
structure Closed (cfg : Cfg) (D : St → List (Text × Text) → Prop) (R : List Occ → St → St → Prop) : Prop where
  nil : ∀ s, R [] s s
  app : ∀ a b s s1 s2, R a s s1 → R b s1 s2 → R (a ++ b) s s2
  skip : ∀ a h s, R a s (s.touch h)
  reg : ∀ s n c, s.reg n = none → R [] s { s with reg := fun x => if x = n then some c else s.reg x }
  code : ∀ s m sel t, R [.code m sel t] s (addCode cfg s m sel t)
  ty : ∀ h also u n wf fs s s1, s.isDefined h (tyId u n) = false → R fs.occs (s.touch h) s1 → D s1 fs.direct →
    R (.item h also (.ty u n wf fs) :: fs.occs) s
      (finishTy cfg h also (tyId u n) fs.mods (structText (tyId u n) fs.lines) s1)
  fn : ∀ h also n wf ret args s s1, s.isDefined h (fnId n) = false →
    R (ret.occs ++ args.occs) (s.write h [Chunk.openC]) s1 → D s1 (ret.direct ++ args.direct) →
    R (.item h also (.fn n wf ret args) :: (ret.occs ++ args.occs)) s
      (finishFn cfg h (fnId n) (ret.mods ++ args.mods) (fnText ret.cname n args.lines) s1)
  static : ∀ h also n u s s1, s.isDefined h (staticId n) = false → R u.occs (s.write h [Chunk.openC]) s1 → D s1 u.direct →
    R (.item h also (.static n u) :: u.occs) s (finishStatic h (staticId n) (staticText u.cname n) s1)

theorem Closed.registerItems {cfg : Cfg} {D} {R} (C : Closed cfg D R) (h : Text) :
    ∀ (items : Items) (s s' : St), Headers.registerItems s h items = some s' → R [] s s'
  | .nil, s, s', e => by
    simp only [Headers.registerItems, Option.some.injEq] at e
    subst e; exact C.nil s
  | .cons i r, s, s', e => by
    simp only [Headers.registerItems] at e
    split at e
    · cases e
    · rename_i s1 e1
      have h2 := C.registerItems h r _ _ e
      have h1 : R [] s s1 := by
        cases i with
        | ty u n wf fs =>
          simp only [registerItem] at e1
          split at e1
          · cases e1; exact C.nil s
          · split at e1
            · split at e1
              · cases e1
              · cases e1; exact C.nil s
            · rename_i hn; cases e1; exact C.reg s _ _ hn
        | fn n wf ret args => simp only [registerItem, Option.some.injEq] at e1; subst e1; exact C.nil s
        | static n u => simp only [registerItem, Option.some.injEq] at e1; subst e1; exact C.nil s
      have := C.app [] [] _ _ _ h1 h2
      simpa using this

mutual
theorem Closed.op {cfg : Cfg} {D} {R} (C : Closed cfg D R) (K : Done cfg D) :
    ∀ (o : Op) (s s' : St), execOp cfg o s = some s' → R o.occs s s'
  | .merge h also items, s, s', e => by
    simp only [execOp] at e
    split at e
    · cases e
    · rename_i s1 e1
      have h1 := C.registerItems h _ _ _ e1
      have h2 := C.items K h also items _ _ e
      have h0 := C.skip [] h s
      have := C.app _ _ _ _ _ (C.app _ _ _ _ _ h0 h1) h2
      simpa [Op.occs] using this
  | .code m sel t, s, s', e => by
    simp only [execOp, Option.some.injEq] at e
    subst e
    simpa [Op.occs] using C.code s m sel t
theorem Closed.ops {cfg : Cfg} {D} {R} (C : Closed cfg D R) (K : Done cfg D) :
    ∀ (o : Ops) (s s' : St), execOps cfg o s = some s' → R o.occs s s'
  | .nil, s, s', e => by
    simp only [execOps, Option.some.injEq] at e
    subst e
    simpa [Ops.occs] using C.nil s
  | .cons o r, s, s', e => by
    simp only [execOps] at e
    split at e
    · cases e
    · rename_i s1 e1
      have := C.app _ _ _ _ _ (C.op K o _ _ e1) (C.ops K r _ _ e)
      simpa [Ops.occs] using this
theorem Closed.items {cfg : Cfg} {D} {R} (C : Closed cfg D R) (K : Done cfg D) (h : Text) (also : Bool) :
    ∀ (is : Items) (s s' : St), execItems cfg h also is s = some s' → R (is.occs h also) s s'
  | .nil, s, s', e => by
    simp only [execItems, Option.some.injEq] at e
    subst e
    simpa [Items.occs] using C.nil s
  | .cons i r, s, s', e => by
    simp only [execItems] at e
    split at e
    · cases e
    · rename_i s1 e1
      have := C.app _ _ _ _ _ (C.item K h also i _ _ e1) (C.items K h also r _ _ e)
      simpa [Items.occs] using this
theorem Closed.item {cfg : Cfg} {D} {R} (C : Closed cfg D R) (K : Done cfg D) (h : Text) (also : Bool) :
    ∀ (i : Item) (s s' : St), execItem cfg h also i s = some s' → R (.item h also i :: i.inner) s s'
  | .ty u n wf fs, s, s', e => by
    simp only [execItem] at e
    split at e
    · cases e; exact C.skip _ h s
    · rename_i hd
      split at e
      · cases e
      · split at e
        · cases e
        · rename_i s1 ls ms e1
          have ⟨hr, hl, hm⟩ := C.fields K fs _ _ _ _ e1
          subst hl hm
          cases e
          have := C.ty h also u n wf fs s s1 (by simpa using hd) hr (K.fields _ _ _ _ _ e1)
          simp only [Item.inner]; exact this
  | .fn n wf ret args, s, s', e => by
    simp only [execItem] at e
    split at e
    · cases e; exact C.skip _ h s
    · rename_i hd
      split at e
      · cases e
      · split at e
        · cases e
        · rename_i s1 rt m1 e1
          split at e
          · cases e
          · rename_i s2 ls ms e2
            have ⟨hr1, hl1, hm1⟩ := C.ret K ret _ _ _ _ e1
            have ⟨hr, hl, hm⟩ := C.fields K args _ _ _ _ e2
            subst hl hm hl1 hm1
            cases e
            have := C.fn h also n wf ret args s s2 (by simpa using hd) (C.app _ _ _ _ _ hr1 hr)
              (K.fn _ _ _ _ _ _ _ _ _ e1 e2)
            simp only [Item.inner]; exact this
  | .static n u, s, s', e => by
    simp only [execItem] at e
    split at e
    · cases e; exact C.skip _ h s
    · rename_i hd
      split at e
      · cases e
      · rename_i s1 c ms e1
        have ⟨hr, hl, hm⟩ := C.use K u _ _ _ _ e1
        subst hl
        cases e
        have := C.static h also n u s s1 (by simpa using hd) hr (K.use _ _ _ _ _ e1)
        simp only [Item.inner]; exact this
theorem Closed.fields {cfg : Cfg} {D} {R} (C : Closed cfg D R) (K : Done cfg D) :
    ∀ (fs : Fields) (s s' : St) (ls) (ms), execFields cfg fs s = some (s', ls, ms) →
      R fs.occs s s' ∧ ls = fs.lines ∧ ms = fs.mods
  | .nil, s, s', ls, ms, e => by
    simp only [execFields, Option.some.injEq, Prod.mk.injEq] at e
    obtain ⟨rfl, rfl, rfl⟩ := e
    exact ⟨by simpa [Fields.occs] using C.nil s, rfl, rfl⟩
  | .cons n u r, s, s', ls, ms, e => by
    simp only [execFields] at e
    split at e
    · cases e
    · rename_i s1 c m e1
      split at e
      · cases e
      · rename_i s2 ls2 ms2 e2
        cases e
        have ⟨a, b, c⟩ := C.use K u _ _ _ _ e1
        have ⟨a2, b2, c2⟩ := C.fields K r _ _ _ _ e2
        subst b c b2 c2
        exact ⟨by simpa [Fields.occs] using C.app _ _ _ _ _ a a2, rfl, rfl⟩
theorem Closed.ret {cfg : Cfg} {D} {R} (C : Closed cfg D R) (K : Done cfg D) :
    ∀ (fs : Ret) (s s' : St) (c) (ms), execRet cfg fs s = some (s', c, ms) →
      R fs.occs s s' ∧ c = fs.cname ∧ ms = fs.mods
  | .void, s, s', c, ms, e => by
    simp only [execRet, Option.some.injEq, Prod.mk.injEq] at e
    obtain ⟨rfl, rfl, rfl⟩ := e
    exact ⟨by simpa [Ret.occs] using C.nil s, rfl, rfl⟩
  | .ty u, s, s', c, ms, e => by
    simp only [execRet] at e
    have ⟨a, b, c⟩ := C.use K u _ _ _ _ e
    exact ⟨by simpa [Ret.occs] using a, b, c⟩
theorem Closed.use {cfg : Cfg} {D} {R} (C : Closed cfg D R) (K : Done cfg D) :
    ∀ (u : Use) (s s' : St) (c) (ms), execUse cfg u s = some (s', c, ms) →
      R u.occs s s' ∧ c = u.cname ∧ ms = u.mods
  | .mk nested ok cn mods, s, s', c, ms, e => by
    simp only [execUse] at e
    split at e
    · cases e
    · rename_i s1 e1
      split at e
      · cases e
        exact ⟨by simpa [Use.occs] using C.ops K nested _ _ e1, rfl, rfl⟩
      · cases e
end

/-! ## Primitive steps -/

theorem file_setFile (s : St) (h : Text) (f : File) (x : Text) :
    (s.setFile h f).file x = if x = h then f else s.file x := by
  simp only [St.setFile, St.file]
  split <;> simp

theorem file_touch (s : St) (h x : Text) : (s.touch h).file x = s.file x := by
  simp only [St.touch, file_setFile]
  split
  · rename_i e; rw [e]
  · rfl

theorem file_write (s : St) (h : Text) (cs : List Chunk) (x : Text) :
    (s.write h cs).file x = if x = h then { s.file h with chunks := (s.file h).chunks ++ cs } else s.file x := by
  simp only [St.write, file_setFile]

theorem file_define (s : St) (h id : Text) (x : Text) :
    (s.define h id).file x = if x = h then { s.file h with defined := id :: (s.file h).defined } else s.file x := by
  simp only [St.define, file_setFile]

theorem chunks_write (s : St) (h : Text) (cs : List Chunk) (x : Text) :
    ((s.write h cs).file x).chunks = (s.file x).chunks ++ (if x = h then cs else []) := by
  rw [file_write]
  split
  · rename_i e; rw [e]
  · simp

theorem defined_write (s : St) (h : Text) (cs : List Chunk) (x : Text) :
    ((s.write h cs).file x).defined = (s.file x).defined := by
  rw [file_write]
  split
  · rename_i e; rw [e]
  · rfl

theorem chunks_define (s : St) (h id : Text) (x : Text) :
    ((s.define h id).file x).chunks = (s.file x).chunks := by
  rw [file_define]
  split
  · rename_i e; rw [e]
  · rfl

theorem defined_define (s : St) (h id : Text) (x : Text) :
    ((s.define h id).file x).defined = if x = h then id :: (s.file x).defined else (s.file x).defined := by
  rw [file_define]
  split
  · rename_i e; rw [e]
  · rfl

/-- What one finished item adds to its header. -/
def tyChunks (cfg : Cfg) (h : Text) (id : Text) (incs : List Text) (t : Text) : List Chunk :=
  includeChunks cfg h incs ++ [Chunk.openC, Chunk.decl id t, Chunk.closeC]
def fnChunks (cfg : Cfg) (h : Text) (id : Text) (incs : List Text) (t : Text) : List Chunk :=
  includeChunks cfg h incs ++ [Chunk.decl id t, Chunk.closeC]
def staticChunks (id t : Text) : List Chunk := [Chunk.decl id t, Chunk.closeC]

theorem finishTy_eq (cfg h also id incs t s) : finishTy cfg h also id incs t s =
    (({ s with rust := s.rust ++ [if also then RustOut.item id else RustOut.layoutTest id] } : St).write h
      (tyChunks cfg h id incs t)).define h id := rfl

theorem chunks_finishTy (cfg h also id incs t s x) : ((finishTy cfg h also id incs t s).file x).chunks =
    (s.file x).chunks ++ (if x = h then tyChunks cfg h id incs t else []) := by
  rw [finishTy_eq, chunks_define, chunks_write]; rfl
theorem chunks_finishFn (cfg h id incs t s x) : ((finishFn cfg h id incs t s).file x).chunks =
    (s.file x).chunks ++ (if x = h then fnChunks cfg h id incs t else []) := by
  rw [finishFn, chunks_define]
  exact chunks_write _ _ _ _
theorem chunks_finishStatic (h id t s x) : ((finishStatic h id t s).file x).chunks =
    (s.file x).chunks ++ (if x = h then staticChunks id t else []) := by
  rw [finishStatic, chunks_define]
  exact chunks_write _ _ _ _
theorem defined_finishTy (cfg h also id incs t s x) : ((finishTy cfg h also id incs t s).file x).defined =
    if x = h then id :: (s.file x).defined else (s.file x).defined := by
  rw [finishTy_eq, defined_define, defined_write]; rfl
theorem defined_finishFn (cfg h id incs t s x) : ((finishFn cfg h id incs t s).file x).defined =
    if x = h then id :: (s.file x).defined else (s.file x).defined := by
  rw [finishFn, defined_define]
  rw [show ∀ (a : St) r y, (({ a with rust := r } : St).file y) = a.file y from fun _ _ _ => rfl, defined_write]
theorem defined_finishStatic (h id t s x) : ((finishStatic h id t s).file x).defined =
    if x = h then id :: (s.file x).defined else (s.file x).defined := by
  rw [finishStatic, defined_define]
  rw [show ∀ (a : St) r y, (({ a with rust := r } : St).file y) = a.file y from fun _ _ _ => rfl, defined_write]

theorem addCode_cases (cfg : Cfg) (s : St) (m : Text) (sel : Bool) (t : Text) :
    (addCode cfg s m sel t = s.touch m ∧ (sel = true → (m, strReplace t nsMark cfg.ns) ∈ s.cache)) ∨
    (sel = true ∧ (m, strReplace t nsMark cfg.ns) ∉ s.cache ∧
      addCode cfg s m sel t = ({ s.touch m with cache := (m, strReplace t nsMark cfg.ns) :: s.cache } : St).write m
        [Chunk.code (strReplace t nsMark cfg.ns)]) := by
  simp only [addCode]
  have hc : (s.touch m).cache = s.cache := rfl
  cases sel with
  | false => left; simp
  | true =>
    by_cases hm : (m, strReplace t nsMark cfg.ns) ∈ s.cache
    · left; simp [hc, hm]
    · right; refine ⟨rfl, hm, ?_⟩; rw [if_pos rfl, if_neg (by rw [hc]; exact hm)]; rfl

theorem chunks_addCode (cfg : Cfg) (s : St) (m : Text) (sel : Bool) (t x : Text) :
    ((addCode cfg s m sel t).file x).chunks = (s.file x).chunks ++
      (if x = m ∧ sel = true ∧ (m, strReplace t nsMark cfg.ns) ∉ s.cache then [Chunk.code (strReplace t nsMark cfg.ns)] else []) := by
  rcases addCode_cases cfg s m sel t with ⟨e, h⟩ | ⟨h1, h2, e⟩
  · rw [e, file_touch, if_neg]
    · simp
    · intro ⟨_, hs, hn⟩; exact hn (h hs)
  · rw [e, chunks_write]
    rw [show ∀ (a : St) r y, (({ a with cache := r } : St).file y) = a.file y from fun _ _ _ => rfl, file_touch]
    simp [h1, h2]

theorem defined_addCode (cfg : Cfg) (s : St) (m : Text) (sel : Bool) (t x : Text) :
    ((addCode cfg s m sel t).file x).defined = (s.file x).defined := by
  rcases addCode_cases cfg s m sel t with ⟨e, h⟩ | ⟨h1, h2, e⟩
  · rw [e, file_touch]
  · rw [e, defined_write]
    rw [show ∀ (a : St) r y, (({ a with cache := r } : St).file y) = a.file y from fun _ _ _ => rfl, file_touch]

theorem cache_addCode (cfg : Cfg) (s : St) (m : Text) (sel : Bool) (t : Text) (p : Text × Text) :
    p ∈ (addCode cfg s m sel t).cache ↔ p ∈ s.cache ∨ (sel = true ∧ p = (m, strReplace t nsMark cfg.ns)) := by
  rcases addCode_cases cfg s m sel t with ⟨e, h⟩ | ⟨h1, h2, e⟩
  · rw [e]
    constructor
    · intro x; exact Or.inl x
    · rintro (x | ⟨hs, rfl⟩)
      · exact x
      · exact h hs
  · rw [e]
    show p ∈ _ :: s.cache ↔ _
    simp [h1, or_comm]

theorem rust_addCode (cfg : Cfg) (s : St) (m : Text) (sel : Bool) (t : Text) :
    (addCode cfg s m sel t).rust = s.rust := by
  rcases addCode_cases cfg s m sel t with ⟨e, h⟩ | ⟨h1, h2, e⟩ <;> rw [e] <;> rfl

theorem reg_addCode (cfg : Cfg) (s : St) (m : Text) (sel : Bool) (t : Text) :
    (addCode cfg s m sel t).reg = s.reg := by
  rcases addCode_cases cfg s m sel t with ⟨e, h⟩ | ⟨h1, h2, e⟩ <;> rw [e] <;> rfl

/-! ## Nothing is taken back -/

/-- Files only grow, and what is defined or cached stays so. -/
def Grows (_ : List Occ) (s s' : St) : Prop :=
  (∀ h x, x ∈ (s.file h).defined → x ∈ (s'.file h).defined) ∧ (∀ p, p ∈ s.cache → p ∈ s'.cache) ∧
  (∀ h, (s.file h).chunks <+: (s'.file h).chunks) ∧ ∀ n c, s.reg n = some c → s'.reg n = some c

theorem Grows.trans {a b c s s1 s2} (h1 : Grows a s s1) (h2 : Grows b s1 s2) : Grows c s s2 :=
  ⟨fun h x y => h2.1 _ _ (h1.1 _ _ y), fun p y => h2.2.1 _ (h1.2.1 _ y), fun h => (h1.2.2.1 h).trans (h2.2.2.1 h),
    fun n c e => h2.2.2.2 n c (h1.2.2.2 n c e)⟩

theorem Grows.refl {a s} : Grows a s s := ⟨fun _ _ h => h, fun _ h => h, fun _ => List.prefix_rfl, fun _ _ h => h⟩

theorem Grows.touch {a s h} : Grows a s (s.touch h) :=
  ⟨fun x y e => by rw [file_touch]; exact e, fun _ h => h, fun x => by rw [file_touch]; exact List.prefix_rfl, fun _ _ h => h⟩

theorem Grows.write {a s h cs} : Grows a s (s.write h cs) :=
  ⟨fun x y e => by rw [defined_write]; exact e, fun _ h => h, fun x => by rw [chunks_write]; exact List.prefix_append _ _, fun _ _ h => h⟩

theorem grows_closed (cfg : Cfg) (D) : Closed cfg D Grows where
  nil s := .refl
  app a b s s1 s2 := .trans
  skip a h s := .touch
  reg s n c hn := ⟨fun _ _ h => h, fun _ h => h, fun _ => List.prefix_rfl, fun x y h => by
    show (if x = n then some c else s.reg x) = some y
    rw [if_neg]
    · exact h
    · intro e; rw [e, hn] at h; cases h⟩
  code s m sel t := ⟨fun h x e => by rw [defined_addCode]; exact e,
    fun p e => (cache_addCode ..).2 (Or.inl e), fun h => by rw [chunks_addCode]; exact List.prefix_append _ _, fun n c h => by rw [reg_addCode]; exact h⟩
  ty h also u n wf fs s s1 _ hr _ := by
    refine Grows.trans (a := []) (b := []) .touch (Grows.trans hr (b := []) ⟨fun x y e => ?_, fun _ h => h, fun x => ?_, fun _ _ h => h⟩)
    · rw [defined_finishTy]; split <;> simp [e]
    · rw [chunks_finishTy]; exact List.prefix_append _ _
  fn h also n wf ret args s s1 _ hr _ := by
    refine Grows.trans (a := []) (b := []) .write (Grows.trans hr (b := []) ⟨fun x y e => ?_, fun _ h => h, fun x => ?_, fun _ _ h => h⟩)
    · rw [defined_finishFn]; split <;> simp [e]
    · rw [chunks_finishFn]; exact List.prefix_append _ _
  static h also n u s s1 _ hr _ := by
    refine Grows.trans (a := []) (b := []) .write (Grows.trans hr (b := []) ⟨fun x y e => ?_, fun _ h => h, fun x => ?_, fun _ _ h => h⟩)
    · rw [defined_finishStatic]; split <;> simp [e]
    · rw [chunks_finishStatic]; exact List.prefix_append _ _

theorem done_true (cfg : Cfg) : Done cfg (fun _ _ => True) := ⟨fun _ _ _ _ _ _ => trivial, fun _ _ _ _ _ _ _ _ _ _ _ => trivial,
  fun _ _ _ _ _ _ => trivial⟩

/-- Everything requested directly is there afterwards. -/
def AllDefined (s : St) (l : List (Text × Text)) : Prop := ∀ p ∈ l, p.2 ∈ (s.file p.1).defined

theorem item_done {cfg h also i s s'} (e : execItem cfg h also i s = some s') : i.id ∈ (s'.file h).defined := by
  cases i with
  | ty u n wf fs =>
    simp only [execItem] at e
    split at e
    · rename_i hd
      cases e
      rw [file_touch]
      simpa [St.isDefined, Item.id] using hd
    · split at e
      · cases e
      · split at e
        · cases e
        · cases e
          simp [defined_define, Item.id]
  | fn n wf ret args =>
    simp only [execItem] at e
    split at e
    · rename_i hd
      cases e
      rw [file_touch]
      simpa [St.isDefined, Item.id] using hd
    · split at e
      · cases e
      · split at e
        · cases e
        · split at e
          · cases e
          · cases e
            simp [defined_define, Item.id]
  | static n u =>
    simp only [execItem] at e
    split at e
    · rename_i hd
      cases e
      rw [file_touch]
      simpa [St.isDefined, Item.id] using hd
    · split at e
      · cases e
      · cases e
        simp [defined_define, Item.id]

theorem items_done {cfg h also} : ∀ {is : Items} {s s'}, execItems cfg h also is s = some s' → AllDefined s' (is.direct h)
  | .nil, s, s', e => by intro p hp; simp [Items.direct] at hp
  | .cons i r, s, s', e => by
    simp only [execItems] at e
    split at e
    · cases e
    · rename_i s1 e1
      intro p hp
      simp only [Items.direct, List.mem_cons] at hp
      rcases hp with rfl | hp
      · exact ((grows_closed cfg (fun _ _ => True)).items (done_true cfg) h also r _ _ e).1 _ _ (item_done e1)
      · exact items_done e p hp

theorem ops_done {cfg} : ∀ {os : Ops} {s s'}, execOps cfg os s = some s' → AllDefined s' os.direct
  | .nil, s, s', e => by intro p hp; simp [Ops.direct] at hp
  | .cons o r, s, s', e => by
    simp only [execOps] at e
    split at e
    · cases e
    · rename_i s1 e1
      intro p hp
      cases o with
      | code m sel t => simp only [Ops.direct] at hp; exact ops_done e p hp
      | merge h also items =>
        simp only [Ops.direct, List.mem_append] at hp
        rcases hp with hp | hp
        · simp only [execOp] at e1
          split at e1
          · cases e1
          · exact ((grows_closed cfg (fun _ _ => True)).ops (done_true cfg) r _ _ e).1 _ _ (items_done e1 p hp)
        · exact ops_done e p hp

theorem use_done {cfg} {u : Use} {s s' c m} (e : execUse cfg u s = some (s', c, m)) : AllDefined s' u.direct := by
  cases u with
  | mk nested ok cn mods =>
    simp only [execUse] at e
    split at e
    · cases e
    · rename_i s1 e1
      split at e
      · cases e; exact ops_done e1
      · cases e

theorem fields_done {cfg} : ∀ {fs : Fields} {s s' c m}, execFields cfg fs s = some (s', c, m) → AllDefined s' fs.direct
  | .nil, s, s', c, m, e => by intro p hp; simp [Fields.direct] at hp
  | .cons n u r, s, s', c, m, e => by
    simp only [execFields] at e
    split at e
    · cases e
    · rename_i s1 c1 m1 e1
      split at e
      · cases e
      · rename_i s2 ls2 ms2 e2
        cases e
        intro p hp
        simp only [Fields.direct, List.mem_append] at hp
        rcases hp with hp | hp
        · exact ((grows_closed cfg (fun _ _ => True)).fields (done_true cfg) r _ _ _ _ e2).1.1 _ _ (use_done e1 p hp)
        · exact fields_done e2 p hp

theorem done_all (cfg : Cfg) : Done cfg AllDefined where
  fields _ _ _ _ _ e := fields_done e
  fn ret args s s1 s2 c m ls ms e1 e2 := by
    intro p hp
    simp only [List.mem_append] at hp
    rcases hp with hp | hp
    · refine ((grows_closed cfg (fun _ _ => True)).fields (done_true cfg) args _ _ _ _ e2).1.1 _ _ ?_
      cases ret with
      | void => simp [Ret.direct] at hp
      | ty u => exact use_done (by simpa [execRet] using e1) p hp
    · exact fields_done e2 p hp
  use _ _ _ _ _ e := use_done e

/-! ## Blocks `extern "C"` -/

theorem walk_append : ∀ (a b : List Chunk) (d : Nat), walk d (a ++ b) = (walk d a).bind (fun e => walk e b)
  | [], b, d => by simp [walk]
  | .openC :: r, b, d => by simp only [List.cons_append, walk]; exact walk_append r b _
  | .closeC :: r, b, 0 => by simp [walk]
  | .closeC :: r, b, d + 1 => by simp only [List.cons_append, walk]; exact walk_append r b _
  | .decl .. :: r, b, 0 => by simp [walk]
  | .decl .. :: r, b, d + 1 => by simp only [List.cons_append, walk]; exact walk_append r b _
  | .head :: r, b, d => by simp only [List.cons_append, walk]; exact walk_append r b _
  | .incl _ :: r, b, d => by simp only [List.cons_append, walk]; exact walk_append r b _
  | .code _ :: r, b, d => by simp only [List.cons_append, walk]; exact walk_append r b _

theorem walk_includes (cfg h incs) (d : Nat) : walk d (includeChunks cfg h incs) = some d := by
  simp only [includeChunks]
  generalize List.filter _ _ = l
  induction l with
  | nil => rfl
  | cons x l ih => simpa [walk] using ih

/-- What is added to a file keeps the blocks balanced, and does not start the file anew. -/
def Neutral (_ : List Occ) (s s' : St) : Prop :=
  ∀ h, ∃ l, (s'.file h).chunks = (s.file h).chunks ++ l ∧ (∀ d, walk d l = some d) ∧ Chunk.head ∉ l

theorem head_includes (cfg h incs) : Chunk.head ∉ includeChunks cfg h incs := by
  simp [includeChunks]

theorem neutral_trans {a b c s s1 s2} (h1 : Neutral a s s1) (h2 : Neutral b s1 s2) : Neutral c s s2 := by
  intro h
  have ⟨l1, e1, w1, n1⟩ := h1 h
  have ⟨l2, e2, w2, n2⟩ := h2 h
  refine ⟨l1 ++ l2, by rw [e2, e1, List.append_assoc], fun d => ?_, by simp [n1, n2]⟩
  rw [walk_append, w1 d]; exact w2 d

theorem neutral_same {a} {s s' : St} (e : ∀ h, (s'.file h).chunks = (s.file h).chunks) : Neutral a s s' :=
  fun h => ⟨[], by simp [e h], fun _ => rfl, by simp⟩

theorem neutral_closed (cfg : Cfg) (D) : Closed cfg D Neutral where
  nil s := neutral_same fun _ => rfl
  app a b s s1 s2 := neutral_trans
  skip a h s := neutral_same fun x => by rw [file_touch]
  reg s n c hn := neutral_same fun _ => rfl
  code s m sel t := fun h => ⟨_, chunks_addCode cfg s m sel t h, fun d => by split <;> rfl, by split <;> simp⟩
  ty h also u n wf fs s s1 _ hr _ := by
    refine neutral_trans (a := []) (b := []) (neutral_same fun x => by rw [file_touch]) (neutral_trans hr (b := []) ?_)
    intro x
    refine ⟨_, chunks_finishTy .., fun d => ?_, ?_⟩
    · split
      · rw [tyChunks, walk_append, walk_includes]; rfl
      · rfl
    · split
      · simp [tyChunks, head_includes]
      · simp
  fn h also n wf ret args s s1 _ hr _ := by
    intro x
    have ⟨l, e, w, nh⟩ := hr x
    rw [chunks_write] at e
    refine ⟨_, by rw [chunks_finishFn, e, List.append_assoc, List.append_assoc], fun d => ?_, ?_⟩
    · by_cases hx : x = h
      · simp only [hx, if_true]
        rw [walk_append]
        show (walk d [Chunk.openC]).bind _ = _
        simp only [walk, Option.bind_some]
        rw [walk_append, w (d + 1), Option.bind_some, fnChunks, walk_append, walk_includes]
        rfl
      · simp only [hx, if_false, List.nil_append, List.append_nil]; exact w d
    · by_cases hx : x = h
      · simp [hx, nh, fnChunks, head_includes]
      · simp [hx, nh]
  static h also n u s s1 _ hr _ := by
    intro x
    have ⟨l, e, w, nh⟩ := hr x
    rw [chunks_write] at e
    refine ⟨_, by rw [chunks_finishStatic, e, List.append_assoc, List.append_assoc], fun d => ?_, ?_⟩
    · by_cases hx : x = h
      · simp only [hx, if_true]
        rw [walk_append]
        show (walk d [Chunk.openC]).bind _ = _
        simp only [walk, Option.bind_some]
        rw [walk_append, w (d + 1), Option.bind_some, staticChunks]
        rfl
      · simp only [hx, if_false, List.nil_append, List.append_nil]; exact w d
    · by_cases hx : x = h
      · simp [hx, nh, staticChunks]
      · simp [hx, nh]

/-! ## Declared once -/

theorem declCount_append (id : Text) : ∀ (a b : List Chunk), declCount id (a ++ b) = declCount id a + declCount id b
  | [], b => by simp [declCount]
  | c :: r, b => by
    cases c <;> simp only [List.cons_append, declCount, declCount_append id r b]
    omega

theorem declCount_includes (id cfg h incs) : declCount id (includeChunks cfg h incs) = 0 := by
  simp only [includeChunks]
  generalize List.filter _ _ = l
  induction l with
  | nil => rfl
  | cons x l ih => simpa [declCount] using ih

/-- Definedness is counted right, and every definition has its Rust counterpart. -/
def Counted (s : St) : Prop :=
  (∀ h id, declCount id (s.file h).chunks = if id ∈ (s.file h).defined then 1 else 0) ∧
  ∃ D : List (Text × Text), D.Nodup ∧ D.map Prod.snd = s.rust.map RustOut.id ∧
    ∀ h id, (h, id) ∈ D ↔ id ∈ (s.file h).defined

/-- If nothing asks for itself then definitions stay counted, and only what is asked for gets defined. -/
def Once (os : List Occ) (s s' : St) : Prop :=
  NoSelf os → (Counted s → Counted s') ∧
    ∀ h id, ¬ Asked h id os → id ∈ (s'.file h).defined → id ∈ (s.file h).defined

theorem noSelf_append {a b} : NoSelf (a ++ b) ↔ NoSelf a ∧ NoSelf b := by
  constructor
  · intro h
    exact ⟨fun x y z m => h x y z (by simp [m]), fun x y z m => h x y z (by simp [m])⟩
  · rintro ⟨h1, h2⟩ x y z m
    simp only [List.mem_append] at m
    rcases m with m | m
    · exact h1 x y z m
    · exact h2 x y z m

theorem counted_congr {s s' : St} (e1 : ∀ h, (s'.file h).defined = (s.file h).defined)
    (e2 : ∀ h id, declCount id (s'.file h).chunks = declCount id (s.file h).chunks) (e3 : s'.rust = s.rust)
    (hc : Counted s) : Counted s' := by
  obtain ⟨c1, L, c2, c3, c4⟩ := hc
  exact ⟨fun h id => by rw [e2, e1]; exact c1 h id, L, c2, by rw [e3]; exact c3, fun h id => by rw [e1]; exact c4 h id⟩

theorem counted_finish {s s' : St} {h id : Text} {r : RustOut} (hr : r.id = id) (hn : id ∉ (s.file h).defined)
    (e1 : ∀ x, (s'.file x).defined = if x = h then id :: (s.file x).defined else (s.file x).defined)
    (e2 : ∀ x y, declCount y (s'.file x).chunks = declCount y (s.file x).chunks + if x = h then (if id = y then 1 else 0) else 0)
    (e3 : s'.rust = s.rust ++ [r]) (hc : Counted s) : Counted s' := by
  obtain ⟨c1, L, c2, c3, c4⟩ := hc
  refine ⟨fun x y => ?_, L ++ [(h, id)], ?_, ?_, fun x y => ?_⟩
  · rw [e2, e1, c1]
    by_cases hx : x = h
    · subst hx
      simp only [if_true, List.mem_cons]
      by_cases hy : id = y
      · subst hy; simp [hn]
      · have : y ≠ id := fun e => hy e.symm
        simp [hy, this]
    · simp [hx]
  · rw [List.nodup_append]
    refine ⟨c2, by simp, ?_⟩
    intro a ha b hb e
    simp only [List.mem_singleton] at hb
    subst e; subst hb
    exact hn ((c4 _ _).1 ha)
  · rw [e3, List.map_append, List.map_append, c3]
    simp [hr]
  · rw [e1, List.mem_append, c4]
    by_cases hx : x = h
    · subst hx; simp [or_comm]
    · simp [hx]

theorem once_finish {h also} {i : Item} {s0 s s1 s' : St} {r : RustOut} (hr : r.id = i.id)
    (hd0 : ∀ x, (s.file x).defined = (s0.file x).defined)
    (hc0 : ∀ x y, declCount y (s.file x).chunks = declCount y (s0.file x).chunks) (hr0 : s.rust = s0.rust)
    (hn : i.id ∉ (s0.file h).defined) (hs : Once i.inner s s1)
    (e1 : ∀ x, (s'.file x).defined = if x = h then i.id :: (s1.file x).defined else (s1.file x).defined)
    (e2 : ∀ x y, declCount y (s'.file x).chunks = declCount y (s1.file x).chunks + if x = h then (if i.id = y then 1 else 0) else 0)
    (e3 : s'.rust = s1.rust ++ [r]) : Once (.item h also i :: i.inner) s0 s' := by
  intro ns
  have ns1 : NoSelf i.inner := fun x y z m => ns x y z (by simp [m])
  have nself : ¬ Asked h i.id i.inner := ns h also i (by simp)
  have ⟨a, b⟩ := hs ns1
  have hn1 : i.id ∉ (s1.file h).defined := fun m => hn (by rw [← hd0]; exact b _ _ nself m)
  refine ⟨fun hc => counted_finish hr hn1 e1 e2 e3 (a (counted_congr hd0 hc0 hr0 hc)), fun x y na m => ?_⟩
  rw [e1] at m
  have nai : ¬ Asked x y i.inner := fun ⟨al, j, mj, ej⟩ => na ⟨al, j, by simp [mj], ej⟩
  by_cases hx : x = h
  · subst hx
    simp only [if_true, List.mem_cons] at m
    rcases m with m | m
    · exact absurd ⟨also, i, by simp, m.symm⟩ na
    · rw [← hd0]; exact b _ _ nai m
  · simp only [hx, if_false] at m
    rw [← hd0]; exact b _ _ nai m

theorem once_same {a} {s s' : St} (e1 : ∀ h, (s'.file h).defined = (s.file h).defined)
    (e2 : ∀ h id, declCount id (s'.file h).chunks = declCount id (s.file h).chunks) (e3 : s'.rust = s.rust) : Once a s s' :=
  fun _ => ⟨counted_congr e1 e2 e3, fun h id _ m => by rw [← e1]; exact m⟩

theorem once_closed (cfg : Cfg) (D) : Closed cfg D Once where
  nil s := once_same (fun _ => rfl) (fun _ _ => rfl) rfl
  app a b s s1 s2 h1 h2 := by
    intro ns
    rw [noSelf_append] at ns
    have ⟨a1, b1⟩ := h1 ns.1
    have ⟨a2, b2⟩ := h2 ns.2
    refine ⟨fun c => a2 (a1 c), fun h id na m => b1 _ _ ?_ (b2 _ _ ?_ m)⟩
    · rintro ⟨al, j, mj, ej⟩; exact na ⟨al, j, by simp [mj], ej⟩
    · rintro ⟨al, j, mj, ej⟩; exact na ⟨al, j, by simp [mj], ej⟩
  skip a h s := once_same (fun x => by rw [file_touch]) (fun x _ => by rw [file_touch]) rfl
  reg s n c hn := once_same (fun _ => rfl) (fun _ _ => rfl) rfl
  code s m sel t := once_same (fun x => defined_addCode ..)
    (fun x y => by rw [chunks_addCode, declCount_append]; split <;> simp [declCount]) (rust_addCode ..)
  ty h also u n wf fs s s1 hd hr _ := by
    refine once_finish (i := .ty u n wf fs) (s := s.touch h) (s1 := s1)
      (r := if also then RustOut.item (tyId u n) else RustOut.layoutTest (tyId u n)) ?_ (fun x => by rw [file_touch])
      (fun x _ => by rw [file_touch]) rfl (by simpa [St.isDefined, Item.id] using hd) hr (fun x => defined_finishTy ..) (fun x y => ?_) rfl
    · cases also <;> rfl
    · rw [chunks_finishTy, declCount_append]
      by_cases hx : x = h
      · simp only [hx, if_true, tyChunks, declCount_append, declCount_includes, declCount, Item.id]; split <;> simp_all
      · simp [hx, declCount]
  fn h also n wf ret args s s1 hd hr _ := by
    refine once_finish (i := .fn n wf ret args) (s := s.write h [Chunk.openC]) (s1 := s1)
      (r := RustOut.item (fnId n)) rfl (fun x => defined_write ..)
      (fun x _ => ?_) rfl (by simpa [St.isDefined, Item.id] using hd) hr (fun x => defined_finishFn ..) (fun x y => ?_) rfl
    · rw [chunks_write, declCount_append]; split <;> simp [declCount]
    · rw [chunks_finishFn, declCount_append]
      by_cases hx : x = h
      · simp only [hx, if_true, fnChunks, declCount_append, declCount_includes, declCount, Item.id]; split <;> simp_all
      · simp [hx, declCount]
  static h also n u s s1 hd hr _ := by
    refine once_finish (i := .static n u) (s := s.write h [Chunk.openC]) (s1 := s1)
      (r := RustOut.item (staticId n)) rfl (fun x => defined_write ..)
      (fun x _ => ?_) rfl (by simpa [St.isDefined, Item.id] using hd) hr (fun x => defined_finishStatic ..) (fun x y => ?_) rfl
    · rw [chunks_write, declCount_append]; split <;> simp [declCount]
    · rw [chunks_finishStatic, declCount_append]
      by_cases hx : x = h
      · simp only [hx, if_true, staticChunks, declCount, Item.id]; split <;> simp_all
      · simp [hx, declCount]

/-! ## Foreign code once -/

/-- Code in files is counted by the cache. -/
def CodeCounted (s : St) : Prop :=
  ∀ m raw, ((s.file m).chunks.count (Chunk.code raw)) = if (m, raw) ∈ s.cache then 1 else 0

/-- Code stays counted, and comes from somewhere. -/
def CodeOnce (cfg : Cfg) (os : List Occ) (s s' : St) : Prop :=
  (CodeCounted s → CodeCounted s') ∧
  ∀ m raw, (m, raw) ∈ s'.cache → (m, raw) ∈ s.cache ∨ ∃ t, Occ.code m true t ∈ os ∧ raw = strReplace t nsMark cfg.ns

theorem codeOnce_same {cfg a} {s s' : St} (e1 : s'.cache = s.cache)
    (e2 : ∀ h raw, (s'.file h).chunks.count (Chunk.code raw) = (s.file h).chunks.count (Chunk.code raw)) :
    CodeOnce cfg a s s' :=
  ⟨fun c m raw => by rw [e2, e1]; exact c m raw, fun m raw h => Or.inl (by rw [← e1]; exact h)⟩

theorem codeOnce_trans {cfg a b c} {s s1 s2 : St} (h1 : CodeOnce cfg a s s1) (h2 : CodeOnce cfg b s1 s2)
    (ha : ∀ o ∈ a, o ∈ c) (hb : ∀ o ∈ b, o ∈ c) : CodeOnce cfg c s s2 := by
  refine ⟨fun k => h2.1 (h1.1 k), fun m raw h => ?_⟩
  rcases h2.2 m raw h with h | ⟨t, x, y⟩
  · rcases h1.2 m raw h with h | ⟨t, x, y⟩
    · exact Or.inl h
    · exact Or.inr ⟨t, ha _ x, y⟩
  · exact Or.inr ⟨t, hb _ x, y⟩

theorem count_includes (cfg h incs raw) : (includeChunks cfg h incs).count (Chunk.code raw) = 0 := by
  rw [List.count_eq_zero]
  simp [includeChunks]

theorem codeOnce_closed (cfg : Cfg) (D) : Closed cfg D (CodeOnce cfg) where
  nil s := codeOnce_same rfl (fun _ _ => rfl)
  app a b s s1 s2 h1 h2 := codeOnce_trans h1 h2 (fun o ho => by simp only [List.mem_append, List.mem_cons] at ho ⊢; simp [ho]) (fun o ho => by simp only [List.mem_append, List.mem_cons] at ho ⊢; simp [ho])
  skip a h s := codeOnce_same rfl (fun x _ => by rw [file_touch])
  reg s n c hn := codeOnce_same rfl (fun _ _ => rfl)
  code s m sel t := by
    refine ⟨fun c x raw => ?_, fun x raw h => ?_⟩
    · rw [chunks_addCode, List.count_append, c x raw]
      simp only [cache_addCode, Prod.mk.injEq]
      by_cases h1 : x = m ∧ sel = true ∧ (m, strReplace t nsMark cfg.ns) ∉ s.cache
      · rw [if_pos h1]
        obtain ⟨rfl, h2, h3⟩ := h1
        by_cases hr : raw = strReplace t nsMark cfg.ns
        · subst hr; simp [h2, h3]
        · have : ¬ Chunk.code (strReplace t nsMark cfg.ns) = Chunk.code raw := fun e => hr (by cases e; rfl)
          simp [List.count_singleton, this, hr]
      · rw [if_neg h1]
        have : ((x, raw) ∈ s.cache ∨ sel = true ∧ x = m ∧ raw = strReplace t nsMark cfg.ns) ↔ (x, raw) ∈ s.cache := by
          constructor
          · rintro (h | ⟨h2, rfl, rfl⟩)
            · exact h
            · exact Classical.byContradiction fun h3 => h1 ⟨rfl, h2, h3⟩
          · exact Or.inl
        simp [this]
    · rcases (cache_addCode ..).1 h with h | ⟨hs, e⟩
      · exact Or.inl h
      · cases e; subst hs; exact Or.inr ⟨t, by simp, rfl⟩
  ty h also u n wf fs s s1 hd hr _ := by
    refine codeOnce_trans (a := []) (b := fs.occs) (s1 := s.touch h) (codeOnce_same rfl (fun x _ => by rw [file_touch]))
      (codeOnce_trans (s1 := s1) hr (b := []) (codeOnce_same rfl (fun x raw => ?_)) (by simp) (by simp)) (by simp) (fun o ho => by simp only [List.mem_append, List.mem_cons] at ho ⊢; simp [ho])
    rw [chunks_finishTy, List.count_append]
    split <;> simp [tyChunks, count_includes]
  fn h also n wf ret args s s1 hd hr _ := by
    refine codeOnce_trans (a := []) (b := ret.occs ++ args.occs) (s1 := s.write h [Chunk.openC]) (codeOnce_same rfl (fun x raw => ?_))
      (codeOnce_trans (s1 := s1) hr (b := []) (codeOnce_same rfl (fun x raw => ?_)) (by simp) (by simp)) (by simp) (fun o ho => by simp only [List.mem_append, List.mem_cons] at ho ⊢; simp [ho])
    · rw [chunks_write, List.count_append]; split <;> simp
    rw [chunks_finishFn, List.count_append]
    split <;> simp [fnChunks, count_includes]
  static h also n u s s1 hd hr _ := by
    refine codeOnce_trans (a := []) (b := u.occs) (s1 := s.write h [Chunk.openC]) (codeOnce_same rfl (fun x raw => ?_))
      (codeOnce_trans (s1 := s1) hr (b := []) (codeOnce_same rfl (fun x raw => ?_)) (by simp) (by simp)) (by simp) (fun o ho => by simp only [List.mem_append, List.mem_cons] at ho ⊢; simp [ho])
    · rw [chunks_write, List.count_append]; split <;> simp
    rw [chunks_finishStatic, List.count_append]
    split <;> simp [staticChunks]

theorem members_eq : ∀ fs : Fields, (fs.lines.map fieldLine).flatten = fs.members
  | .nil => rfl
  | .cons n u r => by simp only [Fields.lines, List.map_cons, List.flatten_cons, members_eq r, fieldLine, Fields.members]

theorem moreParams_eq : ∀ (fs : Fields) (x : Text), (List.intersperse ", ".toList (x :: fs.lines.map argText)).flatten = x ++ fs.moreParams
  | .nil, x => by simp only [Fields.lines, List.map_nil, List.intersperse, Fields.moreParams, List.flatten_cons, List.flatten_nil]
  | .cons n u r, x => by
    simp only [Fields.lines, List.map_cons, List.intersperse_cons₂, List.flatten_cons, moreParams_eq r, argText, Fields.moreParams,
      List.append_assoc]

theorem params_eq : ∀ fs : Fields, (List.intersperse ", ".toList (fs.lines.map argText)).flatten = fs.params
  | .nil => rfl
  | .cons n u r => by simp only [Fields.lines, List.map_cons, moreParams_eq, argText, Fields.params]

theorem structText_eq (u n) (wf) (fs : Fields) : structText (tyId u n) fs.lines = (Item.ty u n wf fs).cdecl := by
  unfold structText tyId Item.cdecl
  dsimp only
  rw [members_eq]


theorem fnText_eq (n wf) (ret : Ret) (args : Fields) : fnText ret.cname n args.lines = (Item.fn n wf ret args).cdecl := by
  unfold fnText Item.cdecl
  dsimp only
  rw [params_eq]

theorem staticText_eq (n) (u : Use) : staticText u.cname n = (Item.static n u).cdecl := by
  unfold staticText Item.cdecl
  dsimp only

/-! ## Every declaration is what was asked for, and comes after what it needs -/

/-- A declaration at its place in a header: some requested item, with its C text, all it directly depends on in this header
and all headers it needs coming earlier. -/
def Justified (os : List Occ) (h : Text) (before : List Chunk) (id text : Text) : Prop :=
  ∃ also i, Occ.item h also i ∈ os ∧ i.id = id ∧ text = i.cdecl ∧
    (∀ p ∈ i.deps, p.1 = h → ∃ t, Chunk.decl p.2 t ∈ before) ∧
    (∀ m ∈ i.needs, m ≠ "\"".toList ++ h ++ "\"".toList → Chunk.incl m ∈ before)

/-- All declarations of a header are justified. -/
def AllJust (os : List Occ) (h : Text) (l : List Chunk) : Prop :=
  ∀ pre id t post, l = pre ++ Chunk.decl id t :: post → Justified os h pre id t

theorem allJust_snoc {os h l c} (hl : AllJust os h l) (hc : ∀ id t, c = Chunk.decl id t → Justified os h l id t) :
    AllJust os h (l ++ [c]) := by
  intro pre id t post e
  rcases List.append_eq_append_iff.1 e with ⟨a, e1, e2⟩ | ⟨a, e1, e2⟩
  · -- pre = l ++ a, [c] = a ++ decl :: post
    cases a with
    | nil =>
      simp only [List.nil_append, List.cons.injEq] at e2
      simp only [List.append_nil] at e1
      subst e1
      exact hc id t e2.1
    | cons x a => simp at e2
  · cases a with
    | nil =>
      simp only [List.nil_append, List.cons.injEq] at e2
      simp only [List.append_nil] at e1
      subst e1
      exact hc id t e2.1.symm
    | cons x a =>
      simp only [List.cons_append, List.cons.injEq] at e2
      rw [← e2.1] at e1
      exact hl pre id t a e1

theorem allJust_append {os h} : ∀ {l r}, AllJust os h l → (∀ id t, Chunk.decl id t ∉ r) → AllJust os h (l ++ r)
  | l, [], hl, _ => by simpa using hl
  | l, c :: r, hl, hn => by
    have := allJust_append (l := l ++ [c]) (r := r) (allJust_snoc hl fun id t e => absurd (by simp [e]) (hn id t))
      (fun id t m => hn id t (by simp [m]))
    simpa using this

/-- Declared things are in the files, and every declaration is justified. -/
def JustSt (os : List Occ) (s : St) : Prop :=
  (∀ h id, id ∈ (s.file h).defined → ∃ t, Chunk.decl id t ∈ (s.file h).chunks) ∧ ∀ h, AllJust os h (s.file h).chunks

def JustStep (all : List Occ) (os : List Occ) (s s' : St) : Prop := (∀ o ∈ os, o ∈ all) → JustSt all s → JustSt all s'

theorem decl_includes (cfg h incs id t) : Chunk.decl id t ∉ includeChunks cfg h incs := by simp [includeChunks]

theorem mem_includes {cfg : Cfg} (hf : cfg.Fair) {h incs m} (hm : m ∈ incs) (hn : m ≠ "\"".toList ++ h ++ "\"".toList) :
    Chunk.incl m ∈ includeChunks cfg h incs := by
  simp only [includeChunks, List.mem_map, List.mem_filter, decide_eq_true_eq]
  exact ⟨m, ⟨(hf incs m).2 hm, hn⟩, rfl⟩

theorem justSt_same {all} {s s' : St} (e1 : ∀ h, (s'.file h).defined = (s.file h).defined)
    (e2 : ∀ h, ∃ l, (s'.file h).chunks = (s.file h).chunks ++ l ∧ ∀ id t, Chunk.decl id t ∉ l) (hj : JustSt all s) :
    JustSt all s' := by
  refine ⟨fun h id m => ?_, fun h => ?_⟩
  · rw [e1] at m
    obtain ⟨t, mt⟩ := hj.1 h id m
    obtain ⟨l, el, _⟩ := e2 h
    exact ⟨t, by rw [el]; simp [mt]⟩
  · obtain ⟨l, el, n⟩ := e2 h
    rw [el]
    exact allJust_append (hj.2 h) n

theorem justSt_finish {all h also} {i : Item} {s s' : St} {l1 l2 : List Chunk}
    (hi : Occ.item h also i ∈ all) (hd : AllDefined s i.deps)
    (e1 : ∀ x, (s'.file x).defined = if x = h then i.id :: (s.file x).defined else (s.file x).defined)
    (e2 : ∀ x, (s'.file x).chunks = (s.file x).chunks ++ if x = h then l1 ++ Chunk.decl i.id i.cdecl :: l2 else [])
    (n1 : ∀ id t, Chunk.decl id t ∉ l1) (n2 : ∀ id t, Chunk.decl id t ∉ l2)
    (hn : ∀ m ∈ i.needs, m ≠ "\"".toList ++ h ++ "\"".toList → Chunk.incl m ∈ l1) (hj : JustSt all s) : JustSt all s' := by
  refine ⟨fun x id m => ?_, fun x => ?_⟩
  · rw [e1] at m
    rw [e2]
    by_cases hx : x = h
    · simp only [hx, if_true, List.mem_cons] at m
      rcases m with rfl | m
      · exact ⟨i.cdecl, by simp [hx]⟩
      · have ⟨t, mt⟩ := hj.1 _ _ m
        exact ⟨t, by rw [hx]; simp [mt]⟩
    · simp only [hx, if_false] at m
      have ⟨t, mt⟩ := hj.1 _ _ m
      exact ⟨t, by simp [mt]⟩
  · rw [e2]
    by_cases hx : x = h
    · subst hx
      simp only [if_true]
      have := allJust_append (os := all) (h := x) (l := ((s.file x).chunks ++ l1) ++ [Chunk.decl i.id i.cdecl]) (r := l2) ?_ n2
      · simpa using this
      · refine allJust_snoc (allJust_append (hj.2 x) n1) ?_
        intro id t e
        cases e
        refine ⟨also, i, hi, rfl, rfl, fun p hp e => ?_, fun m hm ne => ?_⟩
        · have ⟨t, mt⟩ := hj.1 _ _ (hd p hp)
          exact ⟨t, by rw [← e]; simp [mt]⟩
        · simp [hn m hm ne]
    · simp only [hx, if_false, List.append_nil]
      exact hj.2 x

theorem just_closed {cfg : Cfg} (hf : cfg.Fair) (all : List Occ) : Closed cfg AllDefined (JustStep all) where
  nil s := fun _ h => h
  app a b s s1 s2 h1 h2 := fun m hj => h2 (fun o ho => m o (by simp [ho])) (h1 (fun o ho => m o (by simp [ho])) hj)
  skip a h s := fun _ => justSt_same (fun x => by rw [file_touch]) (fun x => ⟨[], by rw [file_touch]; simp, by simp⟩)
  reg s n c hn := fun _ => justSt_same (fun _ => rfl) (fun x => ⟨[], by
    rw [List.append_nil]; rfl, by simp⟩)
  code s m sel t := fun _ => justSt_same (fun x => defined_addCode ..) (fun x => ⟨_, chunks_addCode .., by
    intro id t'; split <;> simp⟩)
  ty h also u n wf fs s s1 hd hr hD := by
    intro m hj
    have hj1 := hr (fun o ho => m o (by simp [ho])) (justSt_same (fun x => by rw [file_touch]) (fun x => ⟨[], by rw [file_touch]; simp, by simp⟩) hj)
    refine justSt_finish (also := also) (i := .ty u n wf fs) (l1 := includeChunks cfg h fs.mods ++ [Chunk.openC]) (l2 := [Chunk.closeC]) (m _ (by simp)) hD (fun x => defined_finishTy ..)
      (fun x => ?_) ?_ (by simp) ?_ hj1
    · rw [chunks_finishTy, structText_eq u n wf]; simp [tyChunks, Item.id]
    · intro id t; simp [decl_includes]
    · intro mm hm ne; exact List.mem_append_left _ (mem_includes hf hm ne)
  fn h also n wf ret args s s1 hd hr hD := by
    intro m hj
    have hj1 := hr (fun o ho => m o (List.mem_cons_of_mem _ ho)) (justSt_same (fun x => defined_write ..) (fun x => ⟨_, chunks_write .., by
      intro id t; split <;> simp⟩) hj)
    refine justSt_finish (also := also) (i := .fn n wf ret args) (l1 := includeChunks cfg h (ret.mods ++ args.mods)) (l2 := [Chunk.closeC]) (m _ (by simp)) hD (fun x => defined_finishFn ..)
      (fun x => ?_) ?_ (by simp) ?_ hj1
    · rw [chunks_finishFn, fnText_eq n wf]; simp [fnChunks, Item.id]
    · intro id t; simp [decl_includes]
    · intro mm hm ne; exact mem_includes hf hm ne
  static h also n u s s1 hd hr hD := by
    intro m hj
    have hj1 := hr (fun o ho => m o (by simp [ho])) (justSt_same (fun x => defined_write ..) (fun x => ⟨_, chunks_write .., by
      intro id t; split <;> simp⟩) hj)
    refine justSt_finish (also := also) (i := .static n u) (l1 := []) (l2 := [Chunk.closeC]) (m _ (by simp)) hD (fun x => defined_finishStatic ..)
      (fun x => ?_) (by simp) (by simp) ?_ hj1
    · rw [chunks_finishStatic, staticText_eq]; simp [staticChunks, Item.id]
    · intro mm hm; simp [Item.needs] at hm

/-! ## Properties -/

theorem file_of_some {s : St} {h f} (e : s.files h = some f) : s.file h = f := by simp [St.file, e]

theorem start_file (reg h) : (St.start reg).file h = ⟨[.head], []⟩ := rfl

/-- **C52.** Every item asked for directly is declared in its header exactly once, and nothing is declared twice, however
often, by however many rules and from however deep inside other mappings it is asked for, as long as mapping the types of an
item does not ask for that same item in that same header. -/
theorem C52_declared_once (cfg : Cfg) (reg) (ops : Ops) (s : St) (ns : NoSelf ops.occs)
    (e : execOps cfg ops (St.start reg) = some s) :
    (∀ p ∈ ops.direct, declCount p.2 (s.file p.1).chunks = 1) ∧
    ∀ h id, declCount id (s.file h).chunks ≤ 1 ∧ (declCount id (s.file h).chunks = 1 → Asked h id ops.occs) := by
  have ⟨a, b⟩ := (once_closed cfg (fun _ _ => True)).ops (done_true cfg) _ _ _ e ns
  have c : Counted s := a ⟨fun h id => by simp [start_file, declCount], [], by simp, rfl, by simp [start_file]⟩
  refine ⟨fun p hp => ?_, fun h id => ⟨?_, fun h1 => ?_⟩⟩
  · rw [c.1, if_pos (ops_done e p hp)]
  · rw [c.1]; split <;> omega
  · rw [c.1] at h1
    split at h1
    · rename_i m
      exact Classical.byContradiction fun na => by have := b h id na m; simp [start_file] at this
    · omega

/-- **C52.** The generated Rust code has exactly one counterpart (the item itself or a layout test) per declaration in a
header: the list of counterparts is the list of declarations, without repetition. -/
theorem C52_rust_counterparts (cfg : Cfg) (reg) (ops : Ops) (s : St) (ns : NoSelf ops.occs)
    (e : execOps cfg ops (St.start reg) = some s) :
    ∃ D : List (Text × Text), D.Nodup ∧ D.map Prod.snd = s.rust.map RustOut.id ∧
      ∀ h id, (h, id) ∈ D ↔ declCount id (s.file h).chunks = 1 := by
  have ⟨a, b⟩ := (once_closed cfg (fun _ _ => True)).ops (done_true cfg) _ _ _ e ns
  have c : Counted s := a ⟨fun h id => by simp [start_file, declCount], [], by simp, rfl, by simp [start_file]⟩
  obtain ⟨c1, D, d1, d2, d3⟩ := c
  refine ⟨D, d1, d2, fun h id => ?_⟩
  rw [d3, c1]
  split <;> simp_all

/-- **C52.** Every declaration in a header is that of an item somebody asked for, lists its fields or parameters in order with
the C names found for their types, and comes after the declarations of everything in this header that mapping those types
asked for, and after the inclusion of every other header those types live in. -/
theorem C52_dependencies_first (cfg : Cfg) (hf : cfg.Fair) (reg) (ops : Ops) (s : St)
    (e : execOps cfg ops (St.start reg) = some s) (h id t : Text) (pre post : List Chunk)
    (el : (s.file h).chunks = pre ++ Chunk.decl id t :: post) : Justified ops.occs h pre id t := by
  refine ((just_closed hf ops.occs).ops (done_all cfg) _ _ _ e (fun _ h => h) ⟨fun h id m => ?_, fun h => ?_⟩).2 h _ _ _ _ el
  · simp [start_file] at m
  · intro pre id t post e
    rw [start_file] at e
    cases pre with
    | nil => simp at e
    | cons x p => cases p <;> simp at e

/-- **C52.** Every header is well bracketed: it starts once with the common beginning, every declaration stands inside an
`extern "C"` block, blocks are closed only when open and all are closed at the end. -/
theorem C52_extern_blocks (cfg : Cfg) (reg) (ops : Ops) (s : St) (e : execOps cfg ops (St.start reg) = some s)
    (h : Text) (f : File) (ef : s.files h = some f) :
    walk 0 f.chunks = some 0 ∧ ∃ r, f.chunks = Chunk.head :: r ∧ Chunk.head ∉ r := by
  obtain ⟨l, el, w, n⟩ := (neutral_closed cfg (fun _ _ => True)).ops (done_true cfg) _ _ _ e h
  rw [file_of_some ef, start_file] at el
  rw [el]
  exact ⟨by simpa [walk] using w 0, l, rfl, n⟩

theorem directCode_cached {cfg : Cfg} : ∀ {o : Ops} {s0 s1 : St}, execOps cfg o s0 = some s1 → ∀ p ∈ o.directCode,
    (p.1, strReplace p.2 nsMark cfg.ns) ∈ s1.cache
  | .nil, s0, s1, _, p, hp => by simp [Ops.directCode] at hp
  | .cons o r, s0, s1, e, p, hp => by
    simp only [execOps] at e
    split at e
    · cases e
    · rename_i s2 e2
      cases o with
      | merge h also is => simp only [Ops.directCode] at hp; exact directCode_cached e p hp
      | code m sel t =>
        simp only [Ops.directCode] at hp
        split at hp
        · rename_i hs
          simp only [List.mem_cons] at hp
          rcases hp with rfl | hp
          · simp only [execOp, Option.some.injEq] at e2
            subst e2
            exact ((grows_closed cfg (fun _ _ => True)).ops (done_true cfg) r _ _ e).2.1 _ ((cache_addCode ..).2 (Or.inr ⟨hs, rfl⟩))
          · exact directCode_cached e p hp
        · exact directCode_cached e p hp

/-- **C52.** Foreign code selected by the configuration is written to its module exactly once, with the namespace filled in,
however many rules contain the same piece; and nothing else is written as foreign code. -/
theorem C52_code_once (cfg : Cfg) (reg) (ops : Ops) (s : St) (e : execOps cfg ops (St.start reg) = some s) :
    (∀ p ∈ ops.directCode, (s.file p.1).chunks.count (Chunk.code (strReplace p.2 nsMark cfg.ns)) = 1) ∧
    ∀ m raw, (s.file m).chunks.count (Chunk.code raw) ≤ 1 ∧
      (Chunk.code raw ∈ (s.file m).chunks → ∃ t, Occ.code m true t ∈ ops.occs ∧ raw = strReplace t nsMark cfg.ns) := by
  have ⟨a, b⟩ := (codeOnce_closed cfg (fun _ _ => True)).ops (done_true cfg) _ _ _ e
  have c : CodeCounted s := a fun m raw => by rw [start_file]; simp [St.start]
  refine ⟨fun p hp => ?_, fun m raw => ⟨by rw [c]; split <;> omega, fun hm => ?_⟩⟩
  · rw [c, if_pos]
    exact directCode_cached e p hp
  · have h1 : 0 < (s.file m).chunks.count (Chunk.code raw) := List.count_pos_iff.2 hm
    rw [c] at h1
    split at h1
    · rename_i hc
      rcases b m raw hc with h | h
      · simp [St.start] at h
      · exact h
    · omega

theorem id_ty (u n wf fs) : (Item.ty u n wf fs).id = (if u then ['u', 'n', 'i', 'o', 'n', ' '] else ['s', 't', 'r', 'u', 'c', 't', ' ']) ++ n := by
  cases u
  · exact congrArg (· ++ n) (show "struct ".toList = ['s', 't', 'r', 'u', 'c', 't', ' '] by decide)
  · exact congrArg (· ++ n) (show "union ".toList = ['u', 'n', 'i', 'o', 'n', ' '] by decide)
theorem id_fn (n wf r a) : (Item.fn n wf r a).id = ['f', 'n', ' '] ++ n :=
  congrArg (· ++ n) (show "fn ".toList = ['f', 'n', ' '] by decide)
theorem id_static (n u) : (Item.static n u).id = ['s', 't', 'a', 't', 'i', 'c', ' '] ++ n :=
  congrArg (· ++ n) (show "static ".toList = ['s', 't', 'a', 't', 'i', 'c', ' '] by decide)

/-- **C52.** Different items have different identities: a structure, a union, a function and a constant of the same name, and
two of the same kind with different names, are never taken for each other. -/
theorem C52_ids_distinct (i j : Item) (e : i.id = j.id) :
    (∃ n, (∃ u wf wf' fs fs', i = .ty u n wf fs ∧ j = .ty u n wf' fs') ∨
      (∃ wf wf' r r' a a', i = .fn n wf r a ∧ j = .fn n wf' r' a') ∨ ∃ u u', i = .static n u ∧ j = .static n u') := by
  cases i with
  | ty u n wf fs =>
    cases j with
    | ty u' n' wf' fs' =>
      cases u <;> cases u' <;> simp [id_ty, id_fn, id_static] at e
      · subst e; exact ⟨n, Or.inl ⟨_, _, _, _, _, rfl, rfl⟩⟩
      · subst e; exact ⟨n, Or.inl ⟨_, _, _, _, _, rfl, rfl⟩⟩
    | fn n' wf' r' a' => cases u <;> simp [id_ty, id_fn, id_static] at e
    | static n' u' => cases u <;> simp [id_ty, id_fn, id_static] at e
  | fn n wf r a =>
    cases j with
    | ty u' n' wf' fs' => cases u' <;> simp [id_ty, id_fn, id_static] at e
    | fn n' wf' r' a' =>
      simp [id_ty, id_fn, id_static] at e
      subst e; exact ⟨n, Or.inr (Or.inl ⟨_, _, _, _, _, _, rfl, rfl⟩)⟩
    | static n' u' => simp [id_ty, id_fn, id_static] at e
  | static n u =>
    cases j with
    | ty u' n' wf' fs' => cases u' <;> simp [id_ty, id_fn, id_static] at e
    | fn n' wf' r' a' => simp [id_ty, id_fn, id_static] at e
    | static n' u' =>
      simp [id_ty, id_fn, id_static] at e
      subst e; exact ⟨n, Or.inr (Or.inr ⟨_, _, rfl, rfl⟩)⟩

/-- **C52.** What has been written stays where it is: later rules only append. -/
theorem C52_append_only (cfg : Cfg) (ops : Ops) (s s' : St) (e : execOps cfg ops s = some s') (h : Text) :
    (s.file h).chunks <+: (s'.file h).chunks :=
  ((grows_closed cfg (fun _ _ => True)).ops (done_true cfg) _ _ _ e).2.2.1 h

/-- **C52.** A structure whose name already stands for a foreign type of another C name, and which is not yet declared in the
header, is rejected before anything is declared. -/
theorem C52_name_conflict (cfg : Cfg) (h : Text) (also u : Bool) (n : Text) (wf : Bool) (fs : Fields) (r : Items) (s : St)
    (c : Text) (hr : s.reg n = some c) (hc : c ≠ tyId u n) (hd : tyId u n ∉ (s.file h).defined) :
    execOp cfg (.merge h also (.cons (.ty u n wf fs) r)) s = none := by
  have : registerItems (s.touch h) h (.cons (.ty u n wf fs) r) = none := by
    simp only [registerItems, registerItem]
    have : (s.touch h).isDefined h (tyId u n) = false := by simp [St.isDefined, file_touch, hd]
    have hr' : (s.touch h).reg n = some c := hr
    simp [this, hr', hc]
  simp only [execOp, this]

/-- The structures and unions among items. -/
def Items.types : Items → List (Bool × Text)
  | .nil => []
  | .cons (.ty u n _ _) r => (u, n) :: r.types
  | .cons _ r => r.types

theorem registerItems_file {h x} : ∀ {is : Items} {s s' : St}, registerItems s h is = some s' → s'.file x = s.file x
  | .nil, s, s', e => by simp only [registerItems, Option.some.injEq] at e; rw [e]
  | .cons i r, s, s', e => by
    simp only [registerItems] at e
    split at e
    · cases e
    · rename_i s1 e1
      rw [registerItems_file e]
      cases i <;> simp only [registerItem] at e1
      · split at e1
        · cases e1; rfl
        · split at e1
          · split at e1
            · cases e1
            · cases e1; rfl
          · cases e1; rfl
      · cases e1; rfl
      · cases e1; rfl

theorem registerItems_reg {h} : ∀ {is : Items} {s s' : St}, registerItems s h is = some s' →
    (∀ n c, s.reg n = some c → s'.reg n = some c) ∧
    ∀ p ∈ is.types, tyId p.1 p.2 ∉ (s.file h).defined → s'.reg p.2 = some (tyId p.1 p.2)
  | .nil, s, s', e => by simp only [registerItems, Option.some.injEq] at e; subst e; exact ⟨fun _ _ h => h, by simp [Items.types]⟩
  | .cons i r, s, s', e => by
    simp only [registerItems] at e
    split at e
    · cases e
    · rename_i s1 e1
      have ⟨a, b⟩ := registerItems_reg e
      cases i with
      | fn n wf ret args => simp only [registerItem, Option.some.injEq] at e1; subst e1; exact ⟨a, b⟩
      | static n u => simp only [registerItem, Option.some.injEq] at e1; subst e1; exact ⟨a, b⟩
      | ty u n wf fs =>
        simp only [registerItem] at e1
        split at e1
        · rename_i hd
          cases e1
          refine ⟨a, fun p hp hn => ?_⟩
          simp only [Items.types, List.mem_cons] at hp
          rcases hp with rfl | hp
          · simp [St.isDefined] at hd; exact absurd hd hn
          · exact b p hp hn
        · split at e1
          · rename_i c hc
            split at e1
            · cases e1
            · rename_i hcc
              cases e1
              refine ⟨a, fun p hp hn => ?_⟩
              simp only [Items.types, List.mem_cons] at hp
              rcases hp with rfl | hp
              · exact a _ _ (by rw [hc]; exact congrArg some (Classical.not_not.1 hcc))
              · exact b p hp hn
          · rename_i hc
            cases e1
            refine ⟨fun x y ee => a _ _ ?_, fun p hp hn => ?_⟩
            · show (if x = n then some (tyId u n) else s.reg x) = some y
              rw [if_neg]
              · exact ee
              · rintro rfl; rw [hc] at ee; cases ee
            · simp only [Items.types, List.mem_cons] at hp
              rcases hp with rfl | hp
              · exact a _ _ (by simp)
              · exact b p hp hn

/-- **C52.** After the items of a rule were merged, each of its structures is known to later conversions under the C name it
is declared with (so that a field or parameter of that type finds it), and stays so. -/
theorem C52_types_known (cfg : Cfg) (h : Text) (also : Bool) (items : Items) (ops : Ops) (s s' : St)
    (e : execOps cfg (.cons (.merge h also items) ops) s = some s') (u : Bool) (n : Text) (hp : (u, n) ∈ items.types)
    (hn : tyId u n ∉ (s.file h).defined) : s'.reg n = some (tyId u n) := by
  simp only [execOps] at e
  split at e
  · cases e
  · rename_i s1 e1
    refine ((grows_closed cfg (fun _ _ => True)).ops (done_true cfg) _ _ _ e).2.2.2 _ _ ?_
    simp only [execOp] at e1
    split at e1
    · cases e1
    · rename_i s2 e2
      refine ((grows_closed cfg (fun _ _ => True)).items (done_true cfg) _ _ _ _ _ e1).2.2.2 _ _ ?_
      exact (registerItems_reg e2).2 (u, n) hp (by rw [file_touch]; exact hn)

/-- **C52.** An item one of whose types has no C representation ends the generation: no declaration with a hole is written. -/
theorem C52_unmapped_rejected (cfg : Cfg) (h : Text) (also : Bool) (i : Item) (s : St) (hd : i.id ∉ (s.file h).defined)
    (hu : ∃ nested c m, match i with
      | .ty _ _ _ (.cons _ u _) => u = .mk nested false c m
      | .fn _ _ (.ty u) _ => u = .mk nested false c m
      | .static _ u => u = .mk nested false c m
      | _ => False) : execItem cfg h also i s = none := by
  obtain ⟨nested, c, m, hu⟩ := hu
  have key : ∀ s, execUse cfg (.mk nested false c m) s = none := by
    intro s
    simp only [execUse]
    split <;> rfl
  cases i with
  | ty u n wf fs =>
    cases fs with
    | nil => exact hu.elim
    | cons x us r =>
      simp only at hu
      subst hu
      have : s.isDefined h (tyId u n) = false := by simpa [St.isDefined, Item.id] using hd
      simp [execItem, this, execFields, key]
  | fn n wf ret args =>
    cases ret with
    | void => exact hu.elim
    | ty u =>
      simp only at hu
      subst hu
      have : s.isDefined h (fnId n) = false := by simpa [St.isDefined, Item.id] using hd
      simp [execItem, this, execRet, key]
  | static n u =>
    simp only at hu
    subst hu
    have : s.isDefined h (staticId n) = false := by simpa [St.isDefined, Item.id] using hd
    simp [execItem, this, key]

/-! ## Findings -/

/-- A type with no further needs. -/
def plain (c : Text) : Use := .mk .nil true c []

/-- **C52, finding.** Whether an item was declared is remembered per header only: the same structure, asked for in two
headers, is declared in both, and its Rust definition is generated twice. -/
theorem C52_finding_two_headers (cfg : Cfg) (n h1 h2 : Text) (hne : h1 ≠ h2) :
    ∃ s, execOps cfg (.cons (.merge h1 true (.cons (.ty false n true .nil) .nil))
        (.cons (.merge h2 true (.cons (.ty false n true .nil) .nil)) .nil)) (St.start fun _ => none) = some s ∧
      declCount (tyId false n) (s.file h1).chunks = 1 ∧ declCount (tyId false n) (s.file h2).chunks = 1 ∧
      s.rust = [.item (tyId false n), .item (tyId false n)] := by
  have hne' : h2 ≠ h1 := fun e => hne e.symm
  simp only [execOps, execOp, registerItems, registerItem, execItems, execItem, execFields, St.isDefined, file_touch,
    start_file]
  simp [file_touch, St.touch, St.setFile, St.write, St.define, St.file, St.start, hne, hne', declCount, declCount_append, declCount_includes]

/-- **C52, finding.** The headers a function declaration needs are included inside its `extern "C"` block, which breaks for
headers that contain C++ templates. -/
theorem C52_finding_include_in_extern (n h m : Text) (hm : m ≠ "\"".toList ++ h ++ "\"".toList) (c : Text) :
    ∃ s, execOps ⟨[], id⟩ (.cons (.merge h true (.cons (.fn n true (.ty (.mk .nil true c [m])) .nil) .nil)) .nil)
        (St.start fun _ => none) = some s ∧
      (s.file h).chunks = [.head, .openC, .incl m, .decl (fnId n) (fnText c n []), .closeC] := by
  have hf : includeChunks ⟨[], id⟩ h [m] = [Chunk.incl m] := by
    show List.map _ (List.filter (fun x => decide (x ≠ "\"".toList ++ h ++ "\"".toList)) [m]) = _
    rw [List.filter_cons_of_pos (by simpa using hm)]; rfl
  simp only [execOps, execOp, registerItems, registerItem, execItems, execItem, execRet, execUse, execFields, St.isDefined,
    file_touch, start_file, List.append_nil, hf]
  simp [St.write, St.setFile, St.define, St.file, St.start, St.touch, hf]

/-- **C52, finding.** Nothing is included for the type of a constant. -/
theorem C52_finding_static_without_include (n h m c : Text) :
    ∃ s, execOps ⟨[], id⟩ (.cons (.merge h true (.cons (.static n (.mk .nil true c [m])) .nil)) .nil)
        (St.start fun _ => none) = some s ∧
      (s.file h).chunks = [.head, .openC, .decl (staticId n) (staticText c n), .closeC] := by
  simp only [execOps, execOp, registerItems, registerItem, execItems, execItem, execUse, St.isDefined, file_touch, start_file]
  simp [St.write, St.setFile, St.define, St.file, St.start, St.touch]

/-- **C52, finding.** Foreign code that comes with the type of a parameter is written into the `extern "C"` block that the
function has already opened. -/
theorem C52_finding_code_in_extern (n h c : Text) (x t : Text) (ht : strReplace t nsMark [] = t) :
    ∃ s, execOps ⟨[], id⟩ (.cons (.merge h true (.cons (.fn n true .void
          (.cons x (.mk (.cons (.code h true t) .nil) true c []) .nil)) .nil)) .nil) (St.start fun _ => none) = some s ∧
      (s.file h).chunks = [.head, .openC, .code t, .decl (fnId n) (fnText "void".toList n [(x, c)]), .closeC] := by
  simp only [execOps, execOp, registerItems, registerItem, execItems, execItem, execRet, execFields, execUse, St.isDefined,
    file_touch, start_file, includeChunks, addCode, ht]
  simp [St.write, St.setFile, St.define, St.file, St.start, St.touch]

/-- **C52, finding.** If mapping the types of an item asks for the item itself, it is declared twice: the hypothesis of
`C52_declared_once` is needed. -/
theorem C52_finding_self_nested (n h c : Text) (x : Text) :
    ∃ s, execOps ⟨[], id⟩ (.cons (.merge h true (.cons (.fn n true .void
          (.cons x (.mk (.cons (.merge h true (.cons (.fn n true .void .nil) .nil)) .nil) true c []) .nil)) .nil)) .nil)
        (St.start fun _ => none) = some s ∧ declCount (fnId n) (s.file h).chunks = 2 := by
  simp only [execOps, execOp, registerItems, registerItem, execItems, execItem, execRet, execFields, execUse, St.isDefined,
    file_touch, start_file, includeChunks]
  simp [St.write, St.setFile, St.define, St.file, St.start, St.touch, declCount]

/-! ## A concrete case -/

/-- `struct A { int32_t x; }` -/
def exA : Item := .ty false ['A'] true (.cons ['x'] (plain ['i']) .nil)
/-- `struct B` in the same header, with a field of type `struct A` and one of a type of another header -/
def exB : Item := .ty false ['B'] true
  (.cons ['a'] (.mk (.cons (.merge ['h'] false (.cons exA .nil)) .nil) true ['A'] [['"', 'h', '"']])
    (.cons ['y'] (.mk .nil true ['z'] [['<', 'z', '>']]) .nil))
/-- `B`, a piece of code twice, `A` and `B` again -/
def exOps : Ops := .cons (.merge ['h'] false (.cons exB .nil)) (.cons (.code ['h'] true ['c']) (.cons (.code ['h'] true ['c'])
  (.cons (.merge ['h'] false (.cons exA (.cons exB .nil))) .nil)))
def exCfg : Cfg := ⟨[], id⟩

example : structText "struct A".toList [(['x'], "int32_t".toList), (['y'], "struct B".toList)] =
    "struct A {\n    int32_t x;\n    struct B y;\n};\n".toList := by decide +kernel

example : fnText "void".toList ['f'] [(['x'], "int32_t".toList), (['y'], "struct B".toList)] =
    "void f(int32_t x, struct B y);".toList := by decide +kernel

example : staticText "uint8_t".toList ['K'] = "extern const uint8_t K;\n".toList := by decide +kernel

example : tyId true ['U'] = "union U".toList ∧ tyId false ['S'] = "struct S".toList ∧ fnId ['f'] = "fn f".toList := by decide +kernel

example : (true, ['A']) ∈ (Items.cons exA (.cons (.ty true ['A'] true .nil) .nil)).types := by decide

example : exCfg.Fair := fun _ _ => Iff.rfl

example : ((execOps exCfg exOps (St.start fun _ => none)).map fun s => (s.file ['h']).chunks) =
    some [.head, .openC, .decl (tyId false ['A']) exA.cdecl, .closeC, .incl ['<', 'z', '>'], .openC,
      .decl (tyId false ['B']) exB.cdecl, .closeC, .code ['c']] := by decide +kernel

example : ((execOps exCfg exOps (St.start fun _ => none)).map fun s => s.rust) =
    some [.layoutTest (tyId false ['A']), .layoutTest (tyId false ['B'])] := by decide +kernel

example : NoSelf exOps.occs := by
  have hA : exA.inner = [] := rfl
  have hB : exB.inner = [.item ['h'] false exA] := rfl
  intro h also i m
  have : i = exA ∨ i = exB := by
    simp only [exOps, Ops.occs, Op.occs, Items.occs, hA, hB] at m
    simp at m
    rcases m with m | m | m | m <;> simp [m]
  rintro ⟨al, j, mj, ej⟩
  rcases this with rfl | rfl
  · simp [hA] at mj
  · rw [hB] at mj
    simp at mj
    rw [mj.2.2] at ej
    exact absurd ej (by decide)

example : (['h'], tyId false ['A']) ∈ exB.deps := by decide +kernel

end Flapi.Headers
