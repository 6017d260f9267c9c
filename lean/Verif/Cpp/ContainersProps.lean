import Verif.Cpp.Containers
import Verif.Base.SumTo
/-!
# C++ containers own their Rust buffer exactly once and behave as values (C39, C40)
-/
namespace Flapi.Containers
variable {E : Type}

/-! ## Specification: containers as plain values, no pointers -/

/-- The value of a container: `nothing` after default construction, when moved from, cleared or released; else its elements. -/
inductive Val (E : Type) where
  | nothing
  | val (l : List E)
  deriving DecidableEq, Repr

def Val.list : Val E → List E
  | .nothing => []
  | .val l => l

/-- Abstract state: value of each living object; vectors given back to Rust, elements destroyed, elements moved out to C++, and all elements that
ever came into being (pushed, made by Rust, or copied). -/
structure Spec (E : Type) where
  vars : Nat → Option (Val E)
  rust : List (List E)
  dropped : List E
  taken : List E
  created : List E

/-- A new object needs a free name. -/
def Spec.construct (a : Spec E) (x : Nat) (v : Val E) : Res (Spec E) :=
  match a.vars x with
  | some _ => .illegal
  | none => .ok { a with vars := setVar a.vars x (some v) }

/-- What each operation means.  `illegal`: the C++ program is wrong, or does something the property does not cover (a copy of an
empty-handed string, see C40). -/
def specStep (k : Kind) (a : Spec E) (op : Op E) : Res (Spec E) :=
  if !k.has op then .illegal
  else match op with
  | .fromRust x l cap => if cap < l.length then .illegal else Spec.construct { a with created := a.created ++ l } x (.val l)
  | .default x => a.construct x .nothing
  | .moveCtor x y =>
    match a.vars y with
    | none => .illegal
    | some v => (a.construct x v).bind fun a => .ok { a with vars := setVar a.vars y (some .nothing) }
  | .moveAssign x y =>
    match a.vars x, a.vars y with
    | some v, some w =>
      .ok { a with vars := setVar (setVar a.vars x (some w)) y (some .nothing), dropped := a.dropped ++ v.list }
    | _, _ => .illegal
  | .copyCtor x y =>
    match a.vars y with
    | some (.val l) => Spec.construct { a with created := a.created ++ l } x (.val l)
    | _ => .illegal
  | .copyAssign x y =>
    match a.vars x, a.vars y with
    | some v, some (.val l) =>
      if x = y then .ok a
      else .ok { a with vars := setVar a.vars x (some (.val l)), dropped := a.dropped ++ v.list, created := a.created ++ l }
    | _, _ => .illegal
  | .destroy x =>
    match a.vars x with
    | some v => .ok { a with vars := setVar a.vars x none, dropped := a.dropped ++ v.list }
    | none => .illegal
  | .clear x =>
    match a.vars x with
    | some v => .ok { a with vars := setVar a.vars x (some .nothing), dropped := a.dropped ++ v.list }
    | none => .illegal
  | .release x =>
    match a.vars x with
    | some v => .ok { a with vars := setVar a.vars x (some .nothing), rust := a.rust ++ [v.list] }
    | none => .illegal
  | .push x e _ =>
    match a.vars x with
    | some v => .ok { a with vars := setVar a.vars x (some (.val (v.list ++ [e]))), created := a.created ++ [e] }
    | none => .illegal
  | .remove x idx =>
    match a.vars x with
    | some v =>
      match v.list[idx]? with
      | some e => .ok { a with vars := setVar a.vars x (some (.val (v.list.eraseIdx idx))), taken := a.taken ++ [e] }
      | none => .abort
    | none => .illegal
  | .read x i =>
    match a.vars x with
    | some v => if i < v.list.length then .ok a else .illegal
    | none => .illegal

/-- A whole program. -/
def specRun (k : Kind) : Spec E → List (Op E) → Res (Spec E)
  | a, [] => .ok a
  | a, op :: l => (specStep k a op).bind fun a => specRun k a l

def specInitial : Spec E := ⟨fun _ => none, [], [], [], []⟩

/-- The object `x` shows the value: it is dead, or its size and elements are those of the value. -/
def Shows (s : St E) (x : Nat) : Option (Val E) → Prop
  | none => s.vars x = none
  | some v => ∃ r, s.vars x = some r ∧ r.len = v.list.length ∧ ∀ (i : Nat) (e : E), v.list[i]? = some e → ∃ l, fromRawParts s r = some l ∧ l[i]? = some e

/-! ## Invariant -/

/-- The buffer a struct points to. -/
def bufOf (r : Raw) : Option Nat :=
  match r.ptr with
  | .buf i => some i
  | _ => none

/-- A struct stands for a value. -/
def ROk (k : Kind) (s : St E) (r : Raw) (v : Val E) : Prop :=
  (v = .nothing ∧ r = resetRaw k) ∨ ∃ l, v = .val l ∧ fromRawParts s r = some l

/-- `ex`: a buffer that is just being handed over and belongs to no object. -/
structure Inv (k : Kind) (s : St E) (a : Spec E) (ex : Option Nat) : Prop where
  dead : ∀ x, s.vars x = none ↔ a.vars x = none
  ok : ∀ x r v, s.vars x = some r → a.vars x = some v → ROk k s r v
  inj : ∀ x y r r' i, s.vars x = some r → s.vars y = some r' → bufOf r = some i → bufOf r' = some i → x = y
  live : ∀ i p, s.bufs[i]? = some (some p) → ex = some i ∨ ∃ x r, s.vars x = some r ∧ bufOf r = some i
  exFree : ∀ i, ex = some i → ∀ x r, s.vars x = some r → bufOf r ≠ some i
  rust : s.rust = a.rust
  dropped : s.dropped = a.dropped
  taken : s.taken = a.taken

theorem reset_noBuf (k : Kind) : bufOf (resetRaw k) = none := by cases k <;> rfl

theorem setVar_self {V : Type} (f : Nat → Option V) (x : Nat) (v : Option V) : setVar f x v x = v := by simp [setVar]
theorem setVar_ne {V : Type} (f : Nat → Option V) (x z : Nat) (v : Option V) (h : z ≠ x) : setVar f x v z = f z := by simp [setVar, h]

/-- `fromRawParts` looks at the struct's buffer only. -/
theorem parts_congr (s s' : St E) (r : Raw) (h : ∀ i, bufOf r = some i → s'.bufs[i]? = s.bufs[i]?) : fromRawParts s' r = fromRawParts s r := by
  unfold fromRawParts
  cases hp : r.ptr with
  | null => rfl
  | dangling => rfl
  | buf i => dsimp only; rw [h i (by simp [bufOf, hp])]

theorem parts_len {s : St E} {r : Raw} {l : List E} (h : fromRawParts s r = some l) : r.len = l.length := by
  unfold fromRawParts at h
  cases hp : r.ptr with
  | null => rw [hp] at h; simp at h
  | dangling =>
    rw [hp] at h
    simp only at h
    split at h
    · rename_i hc; cases h; exact hc.1
    · simp at h
  | buf i =>
    rw [hp] at h
    simp only at h
    split at h
    · split at h
      · rename_i hc; cases h; exact hc.2
      · simp at h
    · simp at h

theorem parts_buf {s : St E} {r : Raw} {l : List E} {i : Nat} (h : fromRawParts s r = some l) (hb : bufOf r = some i) :
    s.bufs[i]? = some (some (r.cap, l)) := by
  unfold fromRawParts at h
  unfold bufOf at hb
  cases hp : r.ptr with
  | null => rw [hp] at hb; simp at hb
  | dangling => rw [hp] at hb; simp at hb
  | buf j =>
    rw [hp] at h hb
    simp only [Option.some.injEq] at h hb
    subst hb
    split at h
    · rename_i cap l' heq
      split at h
      · rename_i hc; cases h; rw [heq, hc.1]
      · simp at h
    · simp at h

theorem parts_noBuf {s : St E} {r : Raw} {l : List E} (h : fromRawParts s r = some l) (hb : bufOf r = none) :
    l = [] ∧ r.cap = 0 ∧ r.ptr = .dangling := by
  unfold fromRawParts at h
  unfold bufOf at hb
  cases hp : r.ptr with
  | null => rw [hp] at h; simp at h
  | buf j => rw [hp] at hb; simp at hb
  | dangling =>
    rw [hp] at h
    simp only at h
    split at h
    · rename_i hc; cases h; exact ⟨rfl, hc.2, rfl⟩
    · simp at h

theorem bufOf_ptr {r : Raw} {i : Nat} (h : bufOf r = some i) : r.ptr = .buf i := by
  unfold bufOf at h
  split at h
  · rename_i heq; cases h; exact heq
  · simp at h

/-- Only objects matter for `ROk`. -/
theorem rok_congr {k : Kind} {s s' : St E} {r : Raw} {v : Val E} (h : ∀ i, bufOf r = some i → s'.bufs[i]? = s.bufs[i]?) (hr : ROk k s r v) :
    ROk k s' r v := by
  rcases hr with hr | ⟨l, h1, h2⟩
  · exact .inl hr
  · exact .inr ⟨l, h1, by rw [parts_congr s s' r h, h2]⟩

theorem rok_list {k : Kind} {s : St E} {r : Raw} {v : Val E} (hr : ROk k s r v) (hn : r.ptr ≠ .null) : fromRawParts s r = some v.list := by
  rcases hr with ⟨rfl, rfl⟩ | ⟨l, rfl, h⟩
  · cases k
    · rfl
    · rfl
    · exact absurd rfl hn
    · exact absurd rfl hn
  · exact h

theorem rok_null {k : Kind} {s : St E} {r : Raw} {v : Val E} (hr : ROk k s r v) (hn : r.ptr = .null) : v = .nothing ∧ r = resetRaw k := by
  rcases hr with h | ⟨l, rfl, h⟩
  · exact h
  · unfold fromRawParts at h; rw [hn] at h; simp at h

/-- Take the content out of an object. -/
theorem inv_take {k : Kind} {s : St E} {a : Spec E} (h : Inv k s a none) (x : Nat) (r : Raw) (hx : s.vars x = some r) :
    Inv k { s with vars := setVar s.vars x (some (resetRaw k)) } { a with vars := setVar a.vars x (some .nothing) } (bufOf r) := by
  refine ⟨?_, ?_, ?_, ?_, ?_, h.rust, h.dropped, h.taken⟩
  · intro z
    by_cases hz : z = x
    · subst hz; simp [setVar_self]
    · simp only [setVar_ne _ _ _ _ hz]; exact h.dead z
  · intro z r' v h1 h2
    by_cases hz : z = x
    · subst hz
      simp only [setVar_self, Option.some.injEq] at h1 h2
      subst h1 h2
      exact .inl ⟨rfl, rfl⟩
    · simp only [setVar_ne _ _ _ _ hz] at h1 h2
      exact rok_congr (fun _ _ => rfl) (h.ok z r' v h1 h2)
  · intro y z r1 r2 i h1 h2 h3 h4
    by_cases hy : y = x
    · subst hy
      simp only [setVar_self, Option.some.injEq] at h1
      subst h1
      rw [reset_noBuf] at h3; cases h3
    · by_cases hz : z = x
      · subst hz
        simp only [setVar_self, Option.some.injEq] at h2
        subst h2
        rw [reset_noBuf] at h4; cases h4
      · simp only [setVar_ne _ _ _ _ hy] at h1
        simp only [setVar_ne _ _ _ _ hz] at h2
        exact h.inj y z r1 r2 i h1 h2 h3 h4
  · intro i p hp
    rcases h.live i p hp with h0 | ⟨z, r', h1, h2⟩
    · cases h0
    · by_cases hz : z = x
      · subst hz
        rw [hx] at h1; cases h1
        exact .inl h2
      · exact .inr ⟨z, r', by simp only [setVar_ne _ _ _ _ hz]; exact h1, h2⟩
  · intro i hi z r' h1 h2
    by_cases hz : z = x
    · subst hz
      simp only [setVar_self, Option.some.injEq] at h1
      subst h1
      rw [reset_noBuf] at h2; cases h2
    · simp only [setVar_ne _ _ _ _ hz] at h1
      exact hz (h.inj z x r' r i h1 hx h2 hi)

/-- `x` holds no buffer. -/
def NoBuf (s : St E) (x : Nat) : Prop := ∀ r, s.vars x = some r → bufOf r = none

/-- Put a content into an object. -/
theorem inv_put {k : Kind} {s : St E} {a : Spec E} (r : Raw) (v : Val E) (h : Inv k s a (bufOf r)) (hr : ROk k s r v) (x : Nat) (hx : NoBuf s x) :
    Inv k { s with vars := setVar s.vars x (some r) } { a with vars := setVar a.vars x (some v) } none := by
  refine ⟨?_, ?_, ?_, ?_, ?_, h.rust, h.dropped, h.taken⟩
  · intro z
    by_cases hz : z = x
    · subst hz; simp [setVar_self]
    · simp only [setVar_ne _ _ _ _ hz]; exact h.dead z
  · intro z r' w h1 h2
    by_cases hz : z = x
    · subst hz
      simp only [setVar_self, Option.some.injEq] at h1 h2
      subst h1 h2
      exact rok_congr (fun _ _ => rfl) hr
    · simp only [setVar_ne _ _ _ _ hz] at h1 h2
      exact rok_congr (fun _ _ => rfl) (h.ok z r' w h1 h2)
  · intro y z r1 r2 i h1 h2 h3 h4
    by_cases hy : y = x
    · by_cases hz : z = x
      · rw [hy, hz]
      · subst hy
        simp only [setVar_self, Option.some.injEq] at h1
        subst h1
        simp only [setVar_ne _ _ _ _ hz] at h2
        exact absurd h4 (h.exFree i h3 z r2 h2)
    · by_cases hz : z = x
      · subst hz
        simp only [setVar_self, Option.some.injEq] at h2
        subst h2
        simp only [setVar_ne _ _ _ _ hy] at h1
        exact absurd h3 (h.exFree i h4 y r1 h1)
      · simp only [setVar_ne _ _ _ _ hy] at h1
        simp only [setVar_ne _ _ _ _ hz] at h2
        exact h.inj y z r1 r2 i h1 h2 h3 h4
  · intro i p hp
    rcases h.live i p hp with h0 | ⟨z, r', h1, h2⟩
    · exact .inr ⟨x, r, setVar_self _ _ _, h0⟩
    · by_cases hz : z = x
      · subst hz
        rw [hx r' h1] at h2; cases h2
      · exact .inr ⟨z, r', by simp only [setVar_ne _ _ _ _ hz]; exact h1, h2⟩
  · intro i hi; cases hi

/-- Remove an object that holds no buffer. -/
theorem inv_kill {k : Kind} {s : St E} {a : Spec E} (h : Inv k s a none) (x : Nat) (hx : NoBuf s x) :
    Inv k { s with vars := setVar s.vars x none } { a with vars := setVar a.vars x none } none := by
  refine ⟨?_, ?_, ?_, ?_, ?_, h.rust, h.dropped, h.taken⟩
  · intro z
    by_cases hz : z = x
    · subst hz; simp [setVar_self]
    · simp only [setVar_ne _ _ _ _ hz]; exact h.dead z
  · intro z r' w h1 h2
    by_cases hz : z = x
    · subst hz
      simp [setVar_self] at h1
    · simp only [setVar_ne _ _ _ _ hz] at h1 h2
      exact rok_congr (fun _ _ => rfl) (h.ok z r' w h1 h2)
  · intro y z r1 r2 i h1 h2 h3 h4
    by_cases hy : y = x
    · subst hy; simp [setVar_self] at h1
    · by_cases hz : z = x
      · subst hz; simp [setVar_self] at h2
      · simp only [setVar_ne _ _ _ _ hy] at h1
        simp only [setVar_ne _ _ _ _ hz] at h2
        exact h.inj y z r1 r2 i h1 h2 h3 h4
  · intro i p hp
    rcases h.live i p hp with h0 | ⟨z, r', h1, h2⟩
    · cases h0
    · by_cases hz : z = x
      · subst hz
        rw [hx r' h1] at h2; cases h2
      · exact .inr ⟨z, r', by simp only [setVar_ne _ _ _ _ hz]; exact h1, h2⟩
  · intro i hi; cases hi

/-- Free the buffer that is being handed over. -/
theorem inv_free {k : Kind} {s : St E} {a : Spec E} (r : Raw) (h : Inv k s a (bufOf r)) : Inv k (freeBuf s r) a none := by
  cases hb : bufOf r with
  | none =>
    rw [hb] at h
    have : freeBuf s r = s := by
      unfold freeBuf
      unfold bufOf at hb
      split at hb
      · cases hb
      · rename_i hne
        split
        · rename_i i hi; exact absurd hi (hne i)
        · rfl
    rw [this]; exact h
  | some i =>
    rw [hb] at h
    have hp := bufOf_ptr hb
    have e : freeBuf s r = { s with bufs := s.bufs.set i none } := by unfold freeBuf; rw [hp]
    rw [e]
    refine ⟨h.dead, ?_, h.inj, ?_, ?_, h.rust, h.dropped, h.taken⟩
    · intro z r' v h1 h2
      refine rok_congr (fun j hj => ?_) (h.ok z r' v h1 h2)
      have : j ≠ i := fun e => h.exFree i rfl z r' h1 (e ▸ hj)
      simp only
      rw [List.getElem?_set_ne (Ne.symm this)]
    · intro j p hp
      simp only at hp
      by_cases hj : j = i
      · subst hj
        rw [List.getElem?_set] at hp
        simp at hp
      · rw [List.getElem?_set_ne (Ne.symm hj)] at hp
        rcases h.live j p hp with h0 | h0
        · cases h0; exact absurd rfl hj
        · exact .inr h0
    · intro j hj; cases hj

/-- Change the elements of the buffer that is being handed over. -/
theorem inv_modify {k : Kind} {s : St E} {a : Spec E} (i : Nat) (q : Nat × List E) (h : Inv k s a (some i)) :
    Inv k { s with bufs := s.bufs.set i (some q) } a (some i) := by
  refine ⟨h.dead, ?_, h.inj, ?_, h.exFree, h.rust, h.dropped, h.taken⟩
  · intro z r' v h1 h2
    refine rok_congr (fun j hj => ?_) (h.ok z r' v h1 h2)
    have : j ≠ i := fun e => h.exFree i rfl z r' h1 (e ▸ hj)
    simp only
    rw [List.getElem?_set_ne (Ne.symm this)]
  · intro j p hp
    simp only at hp
    by_cases hj : j = i
    · exact .inl (by rw [hj])
    · rw [List.getElem?_set_ne (Ne.symm hj)] at hp
      exact h.live j p hp

theorem bufs_lt {k : Kind} {s : St E} {a : Spec E} {ex : Option Nat} (h : Inv k s a ex) (x : Nat) (r : Raw) (hx : s.vars x = some r) (i : Nat)
    (hi : bufOf r = some i) : i < s.bufs.length := by
  cases ha : a.vars x with
  | none => rw [← h.dead, hx] at ha; cases ha
  | some v =>
    rcases h.ok x r v hx ha with ⟨_, rfl⟩ | ⟨l, _, hl⟩
    · rw [reset_noBuf] at hi; cases hi
    · have := parts_buf hl hi
      rw [List.getElem?_eq_some_iff] at this
      exact this.1

/-- A vector arrives from Rust. -/
theorem inv_alloc {k : Kind} {s : St E} {a : Spec E} (h : Inv k s a none) (l : List E) (cap : Nat) (hc : l.length ≤ cap) :
    Inv k (fromRust s l cap).2 a (bufOf (fromRust s l cap).1) ∧ fromRawParts (fromRust s l cap).2 (fromRust s l cap).1 = some l ∧
      (fromRust s l cap).2.vars = s.vars := by
  unfold fromRust
  split
  · rename_i h0
    have : l = [] := by cases l with | nil => rfl | cons _ _ => simp only [List.length_cons] at hc; omega
    subst this
    exact ⟨h, rfl, rfl⟩
  · refine ⟨⟨h.dead, ?_, h.inj, ?_, ?_, h.rust, h.dropped, h.taken⟩, ?_, rfl⟩
    · intro z r' v h1 h2
      refine rok_congr (fun j hj => ?_) (h.ok z r' v h1 h2)
      have := bufs_lt h z r' h1 j hj
      simp only
      rw [List.getElem?_append_left this]
    · intro j p hp
      simp only at hp
      by_cases hj : j < s.bufs.length
      · rw [List.getElem?_append_left hj] at hp
        rcases h.live j p hp with h0 | h0
        · cases h0
        · exact .inr h0
      · have hlt := (List.getElem?_eq_some_iff.1 hp).1
        simp only [List.length_append, List.length_cons, List.length_nil] at hlt
        have : j = s.bufs.length := by omega
        subst this
        exact .inl rfl
    · intro i hi z r' h1 h2
      have := bufs_lt h z r' h1 i h2
      simp only [bufOf, Option.some.injEq] at hi
      omega
    · simp [fromRawParts]

theorem inv_drop {k : Kind} {s : St E} {a : Spec E} {ex : Option Nat} (h : Inv k s a ex) (l : List E) :
    Inv k { s with dropped := s.dropped ++ l } { a with dropped := a.dropped ++ l } ex :=
  ⟨h.dead, h.ok, h.inj, h.live, h.exFree, h.rust, by simp only [h.dropped], h.taken⟩

theorem inv_created {k : Kind} {s : St E} {a : Spec E} {ex : Option Nat} (h : Inv k s a ex) (l : List E) :
    Inv k s { a with created := l } ex := ⟨h.dead, h.ok, h.inj, h.live, h.exFree, h.rust, h.dropped, h.taken⟩

theorem inv_some {k : Kind} {s : St E} {a : Spec E} {ex : Option Nat} (h : Inv k s a ex) {x : Nat} {v : Val E} (hx : a.vars x = some v) :
    ∃ r, s.vars x = some r ∧ ROk k s r v := by
  cases hs : s.vars x with
  | none => rw [h.dead, hx] at hs; cases hs
  | some r => exact ⟨r, rfl, h.ok x r v hs hx⟩

theorem freeBuf_vars (s : St E) (r : Raw) (f : Nat → Option Raw) (d : List E) :
    ({ freeBuf { s with vars := f } r with dropped := d } : St E) = { freeBuf s r with vars := f, dropped := d } := by
  unfold freeBuf
  split <;> rfl

/-- `free_mem` does what it should. -/
theorem freeMem_ok {k : Kind} {s : St E} {a : Spec E} (h : Inv k s a none) (x : Nat) (v : Val E) (hx : a.vars x = some v) :
    ∃ s', freeMem k s x = .ok s' ∧ Inv k s' { a with vars := setVar a.vars x (some .nothing), dropped := a.dropped ++ v.list } none ∧
      s'.vars = setVar s.vars x (some (resetRaw k)) ∧ s'.bufs.length = s.bufs.length ∧
      ∀ z r', z ≠ x → s.vars z = some r' → fromRawParts s' r' = fromRawParts s r' := by
  obtain ⟨r, hr, hok⟩ := inv_some h hx
  have hinv := inv_drop (inv_free r (inv_take h x r hr)) v.list
  have key : ∀ (hn : r.ptr ≠ .null), ∃ s', (freeFunc s r).bind (fun s => .ok { s with vars := setVar s.vars x (some (resetRaw k)) }) = .ok s' ∧
      Inv k s' { a with vars := setVar a.vars x (some .nothing), dropped := a.dropped ++ v.list } none ∧
      s'.vars = setVar s.vars x (some (resetRaw k)) ∧ s'.bufs.length = s.bufs.length ∧
      ∀ z r', z ≠ x → s.vars z = some r' → fromRawParts s' r' = fromRawParts s r' := by
    intro hn
    have hl := rok_list hok hn
    refine ⟨{ freeBuf s r with vars := setVar s.vars x (some (resetRaw k)), dropped := s.dropped ++ v.list }, ?_, ?_, rfl, ?_, ?_⟩
    · unfold freeFunc
      rw [hl]
      simp only [Res.bind]
      have : (freeBuf s r).vars = s.vars := by unfold freeBuf; split <;> rfl
      rw [this]
    · have e := freeBuf_vars s r (setVar s.vars x (some (resetRaw k))) (s.dropped ++ v.list)
      rw [← e]
      have e2 : (freeBuf { s with vars := setVar s.vars x (some (resetRaw k)) } r).dropped = s.dropped := by unfold freeBuf; split <;> rfl
      rw [e2] at hinv
      exact hinv
    · unfold freeBuf; split <;> simp
    · intro z r' hz hzr
      apply parts_congr
      intro i hi
      unfold freeBuf
      split
      · rename_i j hj
        have : i ≠ j := by
          intro e
          subst e
          exact hz (h.inj z x r' r i hzr hr hi (by simp [bufOf, hj]))
        simp only
        rw [List.getElem?_set_ne (Ne.symm this)]
      · rfl
  have skip : ∀ (hn : r.ptr = .null), Inv k s { a with vars := setVar a.vars x (some .nothing), dropped := a.dropped ++ v.list } none ∧
      s.vars = setVar s.vars x (some (resetRaw k)) := by
    intro hn
    obtain ⟨rfl, rfl⟩ := rok_null hok hn
    have e : setVar s.vars x (some (resetRaw k)) = s.vars := by
      funext z
      by_cases hz : z = x
      · subst hz; rw [setVar_self, hr]
      · rw [setVar_ne _ _ _ _ hz]
    have e2 : setVar a.vars x (some .nothing) = a.vars := by
      funext z
      by_cases hz : z = x
      · subst hz; rw [setVar_self, hx]
      · rw [setVar_ne _ _ _ _ hz]
    rw [e2]
    simp only [Val.list, List.append_nil]
    exact ⟨h, e.symm⟩
  unfold freeMem
  rw [hr]
  cases k with
  | vec => exact key (fun hn => by have := (rok_null hok hn).2; rw [this] at hn; cases hn)
  | foreignVec => exact key (fun hn => by have := (rok_null hok hn).2; rw [this] at hn; cases hn)
  | access =>
    by_cases hn : r.ptr = .null
    · simp only [hn, ne_eq, not_true_eq_false, if_false]
      exact ⟨s, rfl, (skip hn).1, (skip hn).2, rfl, fun _ _ _ _ => rfl⟩
    · simp only [ne_eq, hn, not_false_eq_true, if_true]
      exact key hn
  | string =>
    by_cases hn : r.ptr = .null
    · simp only [hn, ne_eq, not_true_eq_false, if_false]
      exact ⟨s, rfl, (skip hn).1, (skip hn).2, rfl, fun _ _ _ _ => rfl⟩
    · simp only [ne_eq, hn, not_false_eq_true, if_true]
      exact key hn

theorem construct_sim {k : Kind} {s : St E} {a a' : Spec E} {r : Raw} {v : Val E} {x : Nat} (h : Inv k s a (bufOf r)) (hr : ROk k s r v)
    (hc : a.construct x v = .ok a') :
    construct s x r = .ok { s with vars := setVar s.vars x (some r) } ∧ a' = { a with vars := setVar a.vars x (some v) } ∧
      Inv k { s with vars := setVar s.vars x (some r) } a' none ∧ s.vars x = none := by
  unfold Spec.construct at hc
  cases ha : a.vars x with
  | some w => rw [ha] at hc; simp at hc
  | none =>
    rw [ha] at hc
    simp only [Res.ok.injEq] at hc
    subst hc
    have hs := (h.dead x).2 ha
    refine ⟨by unfold construct; rw [hs], rfl, inv_put r v h hr x (fun r' hr' => ?_), hs⟩
    rw [hs] at hr'; cases hr'

theorem construct_noabort (a : Spec E) (x : Nat) (v : Val E) : a.construct x v ≠ .abort := by
  unfold Spec.construct; split <;> simp

theorem bufOf_parts {r : Raw} : bufOf r = none ∨ ∃ i, bufOf r = some i := by
  cases bufOf r with
  | none => exact .inl rfl
  | some i => exact .inr ⟨i, rfl⟩

theorem fresh_ok {k : Kind} {s : St E} {r : Raw} {l : List E} (h : fromRawParts s r = some l) : ROk k s r (.val l) := .inr ⟨l, rfl, h⟩

/-- The string copied is one with a value. -/
theorem clone_ok {k : Kind} {s : St E} {a : Spec E} (h : Inv k s a none) (r : Raw) (l : List E) (hl : fromRawParts s r = some l) :
    stringClone s r = .ok (fromRust s l l.length) ∧ Inv k (fromRust s l l.length).2 a (bufOf (fromRust s l l.length).1) ∧
      ROk k (fromRust s l l.length).2 (fromRust s l l.length).1 (.val l) ∧ (fromRust s l l.length).2.vars = s.vars := by
  obtain ⟨h1, h2, h3⟩ := inv_alloc h l l.length (Nat.le_refl _)
  exact ⟨by unfold stringClone; rw [hl], h1, fresh_ok h2, h3⟩

theorem freeBuf_vars' (s : St E) (r : Raw) (f : Nat → Option Raw) (d : List (List E)) :
    ({ freeBuf { s with vars := f } r with rust := d } : St E) = { freeBuf s r with vars := f, rust := d } := by
  unfold freeBuf
  split <;> rfl

theorem freeBuf_rust (s : St E) (r : Raw) : (freeBuf s r).rust = s.rust ∧ (freeBuf s r).vars = s.vars ∧ (freeBuf s r).taken = s.taken := by
  unfold freeBuf; split <;> exact ⟨rfl, rfl, rfl⟩

theorem setVar_twice {V : Type} (f : Nat → Option V) (x : Nat) (v w : Option V) : setVar (setVar f x v) x w = setVar f x w := by
  funext z
  unfold setVar
  split <;> simp_all

theorem setVar_comm {V : Type} (f : Nat → Option V) (x y : Nat) (v w : Option V) (h : x ≠ y) :
    setVar (setVar f x v) y w = setVar (setVar f y w) x v := by
  funext z
  unfold setVar
  split <;> split <;> simp_all

theorem fromRust_vars (s : St E) (f : Nat → Option Raw) (l : List E) (c : Nat) :
    fromRust { s with vars := f } l c = ((fromRust s l c).1, { (fromRust s l c).2 with vars := f }) := by
  unfold fromRust; split <;> rfl

/-- Push, on a struct that stands for the value. -/
theorem push_sim {k : Kind} {s : St E} {a : Spec E} (h : Inv k s a none) (x : Nat) (r : Raw) (v : Val E) (hx : s.vars x = some r)
    (hl : fromRawParts s r = some v.list) (e : E) (c : Nat) :
    ∃ r' s', pushFunc s r e c = .ok (r', s') ∧
      Inv k { s' with vars := setVar s'.vars x (some r') } { a with vars := setVar a.vars x (some (.val (v.list ++ [e]))) } none := by
  have ht := inv_take h x r hx
  unfold pushFunc
  rw [hl]
  simp only
  by_cases hc : v.list.length < r.cap
  · simp only [hc, if_true]
    rcases bufOf_parts (r := r) with hb | ⟨i, hb⟩
    · have := parts_noBuf hl hb; omega
    · have hp := bufOf_ptr hb
      rw [hp]
      refine ⟨_, _, rfl, ?_⟩
      rw [hb] at ht
      have hm := inv_modify i (r.cap, v.list ++ [e]) ht
      have hin := parts_buf hl hb
      have hput := inv_put (k := k) ⟨.buf i, v.list.length + 1, r.cap⟩ (.val (v.list ++ [e])) (a := _) (s := _) hm
        (fresh_ok (by
          have hlt := (List.getElem?_eq_some_iff.1 hin).1
          simp [fromRawParts, List.getElem?_set, hlt])) x
        (fun r' hr' => by
          simp only [setVar_self, Option.some.injEq] at hr'
          subst hr'
          exact reset_noBuf k)
      simp only [setVar_twice] at hput
      exact hput
  · simp only [hc, if_false]
    refine ⟨(fromRust (freeBuf s r) (v.list ++ [e]) (max c (v.list.length + 1))).1,
      (fromRust (freeBuf s r) (v.list ++ [e]) (max c (v.list.length + 1))).2, rfl, ?_⟩
    have hf := inv_free r ht
    obtain ⟨h1, h2, h3⟩ := inv_alloc hf (v.list ++ [e]) (max c (v.list.length + 1)) (by simp; omega)
    have hput := inv_put (k := k) _ (.val (v.list ++ [e])) h1 (fresh_ok h2) x
        (fun r' hr' => by
          rw [h3, (freeBuf_rust _ r).2.1] at hr'
          simp only [setVar_self, Option.some.injEq] at hr'
          subst hr'
          exact reset_noBuf k)
    have e1 : freeBuf { s with vars := setVar s.vars x (some (resetRaw k)) } r
        = { freeBuf s r with vars := setVar s.vars x (some (resetRaw k)) } := by unfold freeBuf; split <;> rfl
    rw [e1, fromRust_vars] at hput
    simp only [setVar_twice] at hput
    have e2 : (fromRust (freeBuf s r) (v.list ++ [e]) (max c (v.list.length + 1))).2.vars = s.vars := by
      unfold fromRust; split <;> exact (freeBuf_rust s r).2.1
    rw [e2]
    exact hput

theorem remove_sim {k : Kind} {s : St E} {a : Spec E} (h : Inv k s a none) (x : Nat) (r : Raw) (v : Val E) (hx : s.vars x = some r)
    (hl : fromRawParts s r = some v.list) (idx : Nat) (e : E) (he : v.list[idx]? = some e) :
    ∃ r' s', removeFunc s r idx = .ok (e, r', s') ∧ s'.taken = s.taken ∧ s'.vars = s.vars ∧
      Inv k { s' with vars := setVar s'.vars x (some r') } { a with vars := setVar a.vars x (some (.val (v.list.eraseIdx idx))) } none := by
  have ht := inv_take h x r hx
  have hlt' := (List.getElem?_eq_some_iff.1 he).1
  unfold removeFunc
  rw [hl]
  simp only [he]
  rcases bufOf_parts (r := r) with hb | ⟨i, hb⟩
  · have := (parts_noBuf hl hb).1
    rw [this] at hlt'; simp at hlt'
  · have hp := bufOf_ptr hb
    rw [hp]
    refine ⟨_, _, rfl, rfl, rfl, ?_⟩
    rw [hb] at ht
    have hm := inv_modify i (r.cap, v.list.eraseIdx idx) ht
    have hin := parts_buf hl hb
    have hput := inv_put (k := k) ⟨.buf i, v.list.length - 1, r.cap⟩ (.val (v.list.eraseIdx idx)) (a := _) (s := _) hm
      (fresh_ok (by
        have hlt := (List.getElem?_eq_some_iff.1 hin).1
        simp [fromRawParts, List.getElem?_set, hlt, List.length_eraseIdx, hlt'])) x
      (fun r' hr' => by
        simp only [setVar_self, Option.some.injEq] at hr'
        subst hr'
        exact reset_noBuf k)
    simp only [setVar_twice] at hput
    exact hput

/-- One operation: if the specification allows it, the code does it. -/
theorem step_sim {k : Kind} {s : St E} {a : Spec E} (h : Inv k s a none) (op : Op E) :
    (∀ a', specStep k a op = .ok a' → ∃ s', step k s op = .ok s' ∧ Inv k s' a' none) ∧ (specStep k a op = .abort → step k s op = .abort) := by
  unfold specStep step
  cases hk : k.has op with
  | false => simp
  | true =>
  simp only [Bool.not_true, Bool.false_eq_true, if_false]
  cases op with
  | fromRust x l cap =>
    simp only
    by_cases hc : cap < l.length
    · simp [hc]
    · simp only [hc, if_false]
      refine ⟨fun a' ha => ?_, fun ha => absurd ha (construct_noabort _ _ _)⟩
      obtain ⟨h1, h2, _⟩ := inv_alloc h l cap (by omega)
      obtain ⟨c1, _, c3, _⟩ := construct_sim (inv_created h1 (a.created ++ l)) (fresh_ok h2) ha
      exact ⟨_, c1, c3⟩
  | default x =>
    simp only
    refine ⟨fun a' ha => ?_, fun ha => absurd ha (construct_noabort _ _ _)⟩
    obtain ⟨c1, _, c3, _⟩ := construct_sim (r := resetRaw k) (by rw [reset_noBuf]; exact h) (.inl ⟨rfl, rfl⟩) ha
    exact ⟨_, c1, c3⟩
  | moveCtor x y =>
    simp only
    cases hy : a.vars y with
    | none => simp
    | some v =>
      obtain ⟨r, hr, hok⟩ := inv_some h hy
      simp only [hr]
      have ht := inv_take h y r hr
      cases hc : a.construct x v with
      | abort => exact absurd hc (construct_noabort _ _ _)
      | ub => simp [Res.bind]
      | illegal => simp [Res.bind]
      | ok a1 =>
        simp only [Res.bind, Res.ok.injEq, reduceCtorEq, false_implies, and_true]
        rintro a' rfl
        have hxn : a.vars x = none := by
          unfold Spec.construct at hc
          cases ha : a.vars x with
          | none => rfl
          | some w => rw [ha] at hc; simp at hc
        have hne : x ≠ y := by intro e; subst e; rw [hxn] at hy; cases hy
        have hc' : ({ a with vars := setVar a.vars y (some .nothing) } : Spec E).construct x v =
            .ok { a with vars := setVar (setVar a.vars y (some .nothing)) x (some v) } := by
          unfold Spec.construct; simp only [setVar_ne _ _ _ _ hne, hxn]
        have ha1 : a1 = { a with vars := setVar a.vars x (some v) } := by
          unfold Spec.construct at hc; rw [hxn] at hc; simpa using hc.symm
        subst ha1
        obtain ⟨c1, _, c3, _⟩ := construct_sim ht (rok_congr (fun _ _ => rfl) hok) hc'
        have hsx : s.vars x = none := (h.dead x).2 hxn
        have hcon : construct s x r = .ok { s with vars := setVar s.vars x (some r) } := by unfold construct; simp only [hsx]
        rw [hcon]
        refine ⟨_, rfl, ?_⟩
        simp only at c3
        simp only [setVar_comm _ x y _ _ hne]
        exact c3
  | moveAssign x y =>
    simp only
    cases hx : a.vars x with
    | none => simp
    | some v =>
    cases hy : a.vars y with
    | none => simp
    | some w =>
      simp only [reduceCtorEq, false_implies, and_true, Res.ok.injEq]
      rintro a' rfl
      obtain ⟨r, hr, hok⟩ := inv_some h hy
      simp only [hr]
      obtain ⟨s1, f1, f2, f3, _, f5⟩ := freeMem_ok h x v hx
      rw [f1]
      simp only [Res.bind]
      by_cases he : x = y
      · subst he
        have : s1.vars x = some (resetRaw k) := by rw [f3, setVar_self]
        simp only [this]
        refine ⟨_, rfl, ?_⟩
        simp only [f3, setVar_twice]
        have e : ({ s1 with vars := setVar s.vars x (some (resetRaw k)) } : St E) = s1 := by rw [← f3]
        rw [e]
        exact f2
      · have hy1 : s1.vars y = some r := by rw [f3, setVar_ne _ _ _ _ (Ne.symm he), hr]
        simp only [hy1]
        refine ⟨_, rfl, ?_⟩
        have ht := inv_take f2 y r hy1
        have hok' : ROk k s1 r w := by
          rcases hok with h0 | ⟨l, h1, h2⟩
          · exact .inl h0
          · exact .inr ⟨l, h1, by rw [f5 y r (Ne.symm he) hr, h2]⟩
        have hput := inv_put r w ht (rok_congr (fun _ _ => rfl) hok') x (fun r' hr' => by
          simp only [setVar_ne _ _ _ _ he, f3, setVar_self, Option.some.injEq] at hr'
          subst hr'
          exact reset_noBuf k)
        simp only [setVar_comm _ y x _ _ (Ne.symm he), setVar_twice] at hput
        simp only [setVar_comm _ x y _ _ he]
        rw [setVar_comm _ x y _ _ he] at hput
        simp only [setVar_comm _ x y _ _ he] at hput
        exact hput
  | copyCtor x y =>
    simp only
    cases hy : a.vars y with
    | none => simp
    | some w =>
    cases w with
    | nothing => simp
    | val l =>
      simp only
      refine ⟨fun a' ha => ?_, fun ha => absurd ha (construct_noabort _ _ _)⟩
      obtain ⟨r, hr, hok⟩ := inv_some h hy
      have hl : fromRawParts s r = some l := by
        rcases hok with ⟨h0, _⟩ | ⟨l', h1, h2⟩
        · cases h0
        · cases h1; exact h2
      simp only [hr]
      obtain ⟨c1, c2, c3, _⟩ := clone_ok h r l hl
      obtain ⟨d1, _, d3, _⟩ := construct_sim (inv_created c2 (a.created ++ l)) c3 ha
      rw [c1]
      exact ⟨_, d1, d3⟩
  | copyAssign x y =>
    simp only
    cases hx : a.vars x with
    | none => simp
    | some v =>
    cases hy : a.vars y with
    | none => simp
    | some w =>
    cases w with
    | nothing => simp
    | val l =>
      obtain ⟨r, hr, hok⟩ := inv_some h hy
      have hl : fromRawParts s r = some l := by
        rcases hok with ⟨h0, _⟩ | ⟨l', h1, h2⟩
        · cases h0
        · cases h1; exact h2
      simp only [hr]
      by_cases he : x = y
      · simp only [he, if_true, Res.ok.injEq, reduceCtorEq, false_implies, and_true]
        rintro a' rfl
        exact ⟨s, rfl, h⟩
      · simp only [he, if_false, Res.ok.injEq, reduceCtorEq, false_implies, and_true]
        rintro a' rfl
        obtain ⟨s1, f1, f2, f3, _, f5⟩ := freeMem_ok h x v hx
        rw [f1]
        simp only [Res.bind]
        have hl1 : fromRawParts s1 r = some l := by rw [f5 y r (Ne.symm he) hr, hl]
        obtain ⟨c1, c2, c3, c4⟩ := clone_ok f2 r l hl1
        rw [c1]
        refine ⟨_, rfl, ?_⟩
        have hput := inv_put _ _ (inv_created c2 (a.created ++ l)) c3 x (fun r' hr' => by
          rw [c4, f3, setVar_self, Option.some.injEq] at hr'
          subst hr'
          exact reset_noBuf k)
        simp only [setVar_twice] at hput
        exact hput
  | destroy x =>
    simp only
    cases hx : a.vars x with
    | none => simp
    | some v =>
      simp only [Res.ok.injEq, reduceCtorEq, false_implies, and_true]
      rintro a' rfl
      obtain ⟨s1, f1, f2, f3, _, _⟩ := freeMem_ok h x v hx
      rw [f1]
      refine ⟨_, rfl, ?_⟩
      have hk2 := inv_kill f2 x (fun r' hr' => by
        rw [f3, setVar_self, Option.some.injEq] at hr'
        subst hr'
        exact reset_noBuf k)
      simp only [setVar_twice] at hk2
      exact hk2
  | clear x =>
    simp only
    cases hx : a.vars x with
    | none => simp
    | some v =>
      simp only [Res.ok.injEq, reduceCtorEq, false_implies, and_true]
      rintro a' rfl
      obtain ⟨s1, f1, f2, _⟩ := freeMem_ok h x v hx
      exact ⟨s1, f1, f2⟩
  | release x =>
    simp only
    cases hx : a.vars x with
    | none => simp
    | some v =>
      simp only [Res.ok.injEq, reduceCtorEq, false_implies, and_true]
      rintro a' rfl
      obtain ⟨r, hr, hok⟩ := inv_some h hx
      have hn : r.ptr ≠ .null := by
        intro hn
        have := (rok_null hok hn).2
        rw [this] at hn
        cases k <;> simp_all [Kind.has, resetRaw]
      have hl := rok_list hok hn
      simp only [hr, hl]
      refine ⟨_, rfl, ?_⟩
      have hf := inv_free r (inv_take h x r hr)
      rw [← freeBuf_vars']
      have e := (freeBuf_rust { s with vars := setVar s.vars x (some (resetRaw k)) } r)
      exact ⟨hf.dead, fun z r' v' h1 h2 => rok_congr (fun _ _ => rfl) (hf.ok z r' v' h1 h2), hf.inj, hf.live, hf.exFree,
        by simp only; rw [h.rust], hf.dropped, hf.taken⟩
  | push x e c =>
    simp only
    cases hx : a.vars x with
    | none => simp
    | some v =>
      simp only [Res.ok.injEq, reduceCtorEq, false_implies, and_true]
      rintro a' rfl
      obtain ⟨r, hr, hok⟩ := inv_some h hx
      have hn : r.ptr ≠ .null := by
        intro hn
        have := (rok_null hok hn).2
        rw [this] at hn
        cases k <;> simp_all [Kind.has, resetRaw]
      simp only [hr]
      obtain ⟨r', s', p1, p2⟩ := push_sim h x r v hr (rok_list hok hn) e c
      rw [p1]
      exact ⟨_, rfl, inv_created p2 _⟩
  | remove x idx =>
    simp only
    cases hx : a.vars x with
    | none => simp
    | some v =>
      obtain ⟨r, hr, hok⟩ := inv_some h hx
      have hn : r.ptr ≠ .null := by
        intro hn
        have := (rok_null hok hn).2
        rw [this] at hn
        cases k <;> simp_all [Kind.has, resetRaw]
      have hl := rok_list hok hn
      simp only [hr]
      cases he : v.list[idx]? with
      | none =>
        simp only [reduceCtorEq, false_implies, implies_true, true_and, forall_const]
        unfold removeFunc
        rw [hl]
        simp only [he, Res.bind]
      | some e =>
        simp only [Res.ok.injEq, reduceCtorEq, false_implies, and_true]
        rintro a' rfl
        obtain ⟨r', s', p1, p2, _, p3⟩ := remove_sim h x r v hr hl idx e he
        rw [p1]
        refine ⟨_, rfl, ?_⟩
        exact ⟨p3.dead, fun z r' v' h1 h2 => rok_congr (fun _ _ => rfl) (p3.ok z r' v' h1 h2), p3.inj, p3.live, p3.exFree,
          p3.rust, p3.dropped, by simp only; rw [p2, h.taken]⟩
  | read x i =>
    simp only
    cases hx : a.vars x with
    | none => simp
    | some v =>
      simp only
      by_cases hi : i < v.list.length
      · simp only [hi, if_true, Res.ok.injEq, reduceCtorEq, false_implies, and_true]
        rintro a' rfl
        obtain ⟨r, hr, hok⟩ := inv_some h hx
        have hn : r.ptr ≠ .null := by
          intro hn
          have := (rok_null hok hn).1
          subst this
          simp [Val.list] at hi
        have hl := rok_list hok hn
        simp only [hr, hl, parts_len hl, hi, if_true]
        exact ⟨s, rfl, h⟩
      · simp [hi]

theorem inv_initial (k : Kind) : Inv k (initial : St E) specInitial none :=
  ⟨fun _ => ⟨fun _ => rfl, fun _ => rfl⟩, fun _ _ _ h => by simp [initial] at h, fun _ _ _ _ _ h => by simp [initial] at h,
    fun _ _ h => by simp [initial] at h, fun _ h => by simp at h, rfl, rfl, rfl⟩

theorem run_sim {k : Kind} (prog : List (Op E)) : ∀ {s : St E} {a : Spec E}, Inv k s a none →
    (∀ a', specRun k a prog = .ok a' → ∃ s', run k s prog = .ok s' ∧ Inv k s' a' none) ∧
    (specRun k a prog = .abort → run k s prog = .abort) := by
  induction prog with
  | nil =>
    intro s a h
    simp only [specRun, run, Res.ok.injEq, reduceCtorEq, false_implies, and_true]
    rintro a' rfl
    exact ⟨s, rfl, h⟩
  | cons op l ih =>
    intro s a h
    obtain ⟨h1, h2⟩ := step_sim h op
    simp only [specRun, run]
    cases hs : specStep k a op with
    | ok a1 =>
      obtain ⟨s1, e1, i1⟩ := h1 a1 hs
      rw [e1]
      exact ih i1
    | ub => simp [Res.bind]
    | abort => rw [h2 hs]; simp [Res.bind]
    | illegal => simp [Res.bind]

/-- What the invariant says about what can be seen. -/
theorem inv_shows {k : Kind} {s : St E} {a : Spec E} (h : Inv k s a none) (x : Nat) : Shows s x (a.vars x) := by
  cases hx : a.vars x with
  | none => exact (h.dead x).2 hx
  | some v =>
    obtain ⟨r, hr, hok⟩ := inv_some h hx
    refine ⟨r, hr, ?_, fun i e hi => ?_⟩
    · rcases hok with ⟨rfl, rfl⟩ | ⟨l, rfl, hl⟩
      · cases k <;> rfl
      · exact parts_len hl
    · have hn : r.ptr ≠ .null := by
        intro hn
        have := (rok_null hok hn).1
        subst this
        simp [Val.list] at hi
      exact ⟨v.list, rok_list hok hn, hi⟩

theorem ptr_bufOf {r : Raw} {i : Nat} (h : r.ptr = .buf i) : bufOf r = some i := by simp [bufOf, h]

/-! ## No element is lost or duplicated: the specification's account -/

/-- What an object holds. -/
def heldBy (f : Nat → Option (Val E)) (x : Nat) : List E :=
  match f x with
  | some v => v.list
  | none => []

section Account
variable [DecidableEq E]

/-- The account balances for element `e` over the first `n` names. -/
def Balanced (a : Spec E) (n : Nat) : Prop :=
  ∀ e, a.created.count e = a.dropped.count e + a.rust.flatten.count e + a.taken.count e + sumTo (fun x => (heldBy a.vars x).count e) n

theorem held_set (f : Nat → Option (Val E)) (x n : Nat) (v : Option (Val E)) (hx : x < n) (e : E) :
    sumTo (fun z => (heldBy (setVar f x v) z).count e) n + (heldBy f x).count e =
      sumTo (fun z => (heldBy f z).count e) n + (heldBy (setVar f x v) x).count e :=
  sumTo_update (fun z => (heldBy f z).count e) (fun z => (heldBy (setVar f x v) z).count e) x n hx (fun z hz => by
    simp only [heldBy, setVar_ne _ _ _ _ hz])

theorem held_self (f : Nat → Option (Val E)) (x : Nat) (v : Val E) : heldBy (setVar f x (some v)) x = v.list := by
  simp [heldBy, setVar_self]

theorem held_dead (f : Nat → Option (Val E)) (x : Nat) : heldBy (setVar f x none) x = [] := by
  simp [heldBy, setVar_self]

theorem held_some {f : Nat → Option (Val E)} {x : Nat} {v : Val E} (h : f x = some v) : heldBy f x = v.list := by
  simp [heldBy, h]

theorem held_none {f : Nat → Option (Val E)} {x : Nat} (h : f x = none) : heldBy f x = [] := by
  simp [heldBy, h]

/-- The names an operation mentions. -/
def opBound : Op E → Nat
  | .fromRust x _ _ | .default x | .destroy x | .clear x | .release x | .push x _ _ | .remove x _ | .read x _ => x + 1
  | .moveCtor x y | .moveAssign x y | .copyCtor x y | .copyAssign x y => x + y + 1

theorem construct_inv {a a' : Spec E} {x : Nat} {v : Val E} (h : a.construct x v = .ok a') :
    a.vars x = none ∧ a' = { a with vars := setVar a.vars x (some v) } := by
  unfold Spec.construct at h
  cases hx : a.vars x with
  | some w => rw [hx] at h; simp at h
  | none => rw [hx] at h; simp only [Res.ok.injEq] at h; exact ⟨rfl, h.symm⟩

theorem count_eraseIdx (l : List E) (i : Nat) (e0 e : E) (h : l[i]? = some e0) :
    (l.eraseIdx i).count e + [e0].count e = l.count e := by
  induction l generalizing i with
  | nil => simp at h
  | cons b l ih =>
    cases i with
    | zero =>
      simp only [List.getElem?_cons_zero, Option.some.injEq] at h
      subst h
      simp only [List.eraseIdx_cons_zero, List.count_cons, List.count_nil]
      omega
    | succ i =>
      simp only [List.getElem?_cons_succ] at h
      have := ih i h
      simp only [List.eraseIdx_cons_succ, List.count_cons, List.count_nil] at this ⊢
      omega

theorem balanced_step {k : Kind} {a a' : Spec E} {op : Op E} {n : Nat} (hn : opBound op ≤ n) (h : Balanced a n) (hs : specStep k a op = .ok a') :
    Balanced a' n := by
  unfold specStep at hs
  split at hs
  · simp at hs
  intro e
  have he := h e
  cases op with
  | fromRust x l cap =>
    simp only [opBound] at hn
    simp only at hs
    split at hs
    · simp at hs
    · obtain ⟨hx, rfl⟩ := construct_inv hs
      have h1 := held_set a.vars x n (some (.val l)) (by omega) e
      rw [held_none hx, held_self] at h1
      simp only [List.count_append, List.count_nil, Val.list] at h1 ⊢
      omega
  | default x =>
    simp only [opBound] at hn
    obtain ⟨hx, rfl⟩ := construct_inv hs
    have h1 := held_set a.vars x n (some .nothing) (by omega) e
    rw [held_none hx, held_self] at h1
    simp only [List.count_nil, Val.list] at h1 ⊢
    omega
  | moveCtor x y =>
    simp only [opBound] at hn
    simp only at hs
    cases hy : a.vars y with
    | none => rw [hy] at hs; simp at hs
    | some v =>
      rw [hy] at hs
      simp only at hs
      cases hc : a.construct x v with
      | ok a1 =>
        rw [hc] at hs
        obtain ⟨hx, rfl⟩ := construct_inv hc
        simp only [Res.bind, Res.ok.injEq] at hs
        subst hs
        have hne : y ≠ x := by intro e; subst e; rw [hx] at hy; cases hy
        have h1 := held_set a.vars x n (some v) (by omega) e
        have h2 := held_set (setVar a.vars x (some v)) y n (some .nothing) (by omega) e
        rw [held_none hx, held_self] at h1
        rw [held_some (show setVar a.vars x (some v) y = some v by rw [setVar_ne _ _ _ _ hne, hy]), held_self] at h2
        simp only [List.count_nil, Val.list] at h1 h2 ⊢
        omega
      | ub => rw [hc] at hs; simp [Res.bind] at hs
      | abort => rw [hc] at hs; simp [Res.bind] at hs
      | illegal => rw [hc] at hs; simp [Res.bind] at hs
  | moveAssign x y =>
    simp only [opBound] at hn
    simp only at hs
    cases hx : a.vars x with
    | none => rw [hx] at hs; simp at hs
    | some v =>
    cases hy : a.vars y with
    | none => rw [hx, hy] at hs; simp at hs
    | some w =>
      rw [hx, hy] at hs
      simp only [Res.ok.injEq] at hs
      subst hs
      have h1 := held_set a.vars x n (some w) (by omega) e
      have h2 := held_set (setVar a.vars x (some w)) y n (some .nothing) (by omega) e
      have hw : setVar a.vars x (some w) y = some w := by
        by_cases hyx : y = x
        · subst hyx; exact setVar_self _ _ _
        · rw [setVar_ne _ _ _ _ hyx, hy]
      rw [held_some hx, held_self] at h1
      rw [held_some hw, held_self] at h2
      simp only [List.count_nil, Val.list, List.count_append] at h1 h2 ⊢
      omega
  | copyCtor x y =>
    simp only [opBound] at hn
    simp only at hs
    split at hs
    · rename_i l _
      obtain ⟨hx, rfl⟩ := construct_inv hs
      have h1 := held_set a.vars x n (some (.val l)) (by omega) e
      rw [held_none hx, held_self] at h1
      simp only [List.count_append, List.count_nil, Val.list] at h1 ⊢
      omega
    · simp at hs
  | copyAssign x y =>
    simp only [opBound] at hn
    simp only at hs
    split at hs
    · rename_i v l hx _
      split at hs
      · cases hs; exact he
      · simp only [Res.ok.injEq] at hs
        subst hs
        have h1 := held_set a.vars x n (some (.val l)) (by omega) e
        rw [held_some hx, held_self] at h1
        simp only [List.count_append, Val.list] at h1 ⊢
        omega
    · simp at hs
  | destroy x =>
    simp only [opBound] at hn
    simp only at hs
    split at hs
    · rename_i v hx
      simp only [Res.ok.injEq] at hs
      subst hs
      have h1 := held_set a.vars x n none (by omega) e
      rw [held_some hx, held_dead] at h1
      simp only [List.count_append, List.count_nil] at h1 ⊢
      omega
    · simp at hs
  | clear x =>
    simp only [opBound] at hn
    simp only at hs
    split at hs
    · rename_i v hx
      simp only [Res.ok.injEq] at hs
      subst hs
      have h1 := held_set a.vars x n (some .nothing) (by omega) e
      rw [held_some hx, held_self] at h1
      simp only [List.count_append, List.count_nil, Val.list] at h1 ⊢
      omega
    · simp at hs
  | release x =>
    simp only [opBound] at hn
    simp only at hs
    split at hs
    · rename_i v hx
      simp only [Res.ok.injEq] at hs
      subst hs
      have h1 := held_set a.vars x n (some .nothing) (by omega) e
      rw [held_some hx, held_self] at h1
      simp only [List.flatten_append, List.flatten_cons, List.flatten_nil, List.append_nil, List.count_append, List.count_nil, Val.list] at h1 ⊢
      omega
    · simp at hs
  | push x e0 c =>
    simp only [opBound] at hn
    simp only at hs
    split at hs
    · rename_i v hx
      simp only [Res.ok.injEq] at hs
      subst hs
      have h1 := held_set a.vars x n (some (.val (v.list ++ [e0]))) (by omega) e
      rw [held_some hx, held_self] at h1
      simp only [List.count_append, Val.list] at h1 ⊢
      omega
    · simp at hs
  | remove x idx =>
    simp only [opBound] at hn
    simp only at hs
    split at hs
    · rename_i v hx
      split at hs
      · rename_i e0 hi
        simp only [Res.ok.injEq] at hs
        subst hs
        have h1 := held_set a.vars x n (some (.val (v.list.eraseIdx idx))) (by omega) e
        rw [held_some hx, held_self] at h1
        have h2 := count_eraseIdx v.list idx e0 e hi
        have h3 : (Val.val (v.list.eraseIdx idx)).list = v.list.eraseIdx idx := rfl
        rw [h3] at h1
        simp only [List.count_append] at h1 ⊢
        omega
      · simp at hs
    · simp at hs
  | read x i =>
    simp only at hs
    split at hs
    · split at hs
      · cases hs; exact he
      · simp at hs
    · simp at hs

theorem balanced_run {k : Kind} (prog : List (Op E)) : ∀ {a a' : Spec E} {n : Nat}, (∀ op ∈ prog, opBound op ≤ n) → Balanced a n →
    specRun k a prog = .ok a' → Balanced a' n := by
  induction prog with
  | nil => intro a a' n _ h hs; simp only [specRun, Res.ok.injEq] at hs; subst hs; exact h
  | cons op l ih =>
    intro a a' n hn h hs
    simp only [specRun] at hs
    cases h1 : specStep k a op with
    | ok a1 =>
      rw [h1] at hs
      exact ih (fun o ho => hn o (by simp [ho])) (balanced_step (hn op (by simp)) h h1) hs
    | ub => rw [h1] at hs; simp [Res.bind] at hs
    | abort => rw [h1] at hs; simp [Res.bind] at hs
    | illegal => rw [h1] at hs; simp [Res.bind] at hs

theorem opBound_all (prog : List (Op E)) : ∃ n, ∀ op ∈ prog, opBound op ≤ n := by
  induction prog with
  | nil => exact ⟨0, by simp⟩
  | cons op l ih =>
    obtain ⟨n, hn⟩ := ih
    refine ⟨max n (opBound op), fun o ho => ?_⟩
    simp only [List.mem_cons] at ho
    rcases ho with rfl | ho
    · omega
    · have := hn o ho; omega

end Account

/-! ## Property theorems -/

/-- C39: for every container class and every program the specification allows (values, no pointers), the code runs without undefined behaviour
and shows the same values; the vectors given back to Rust, the elements destroyed and those moved out are the same; and each Rust buffer that is
still allocated belongs to exactly one living object.  Where the specification says the process aborts, it does. -/
theorem C39_refines (k : Kind) (prog : List (Op E)) :
    (∀ a, specRun k specInitial prog = .ok a → ∃ s, run k initial prog = .ok s ∧ (∀ x, Shows s x (a.vars x)) ∧ s.rust = a.rust ∧
      s.dropped = a.dropped ∧ s.taken = a.taken ∧
      ∀ (i : Nat) (p : Nat × List E), s.bufs[i]? = some (some p) →
        ∃ x r, s.vars x = some r ∧ r.ptr = .buf i ∧ ∀ y r', s.vars y = some r' → r'.ptr = .buf i → y = x) ∧
    (specRun k specInitial prog = .abort → run k initial prog = .abort) := by
  obtain ⟨h1, h2⟩ := run_sim prog (inv_initial (E := E) k)
  refine ⟨fun a ha => ?_, h2⟩
  obtain ⟨s, hs, hi⟩ := h1 a ha
  refine ⟨s, hs, inv_shows hi, hi.rust, hi.dropped, hi.taken, fun i p hp => ?_⟩
  rcases hi.live i p hp with h0 | ⟨x, r, hx, hb⟩
  · cases h0
  · exact ⟨x, r, hx, bufOf_ptr hb, fun y r' hy hp' => hi.inj y x r' r i hy hx (ptr_bufOf hp') hb⟩

/-- C39: when all objects are gone, every buffer that ever existed has been freed, and every element that ever came into being was destroyed,
given back to Rust or moved out exactly once (the two lists are the same up to order). -/
theorem C39_all_freed [DecidableEq E] (k : Kind) (prog : List (Op E)) (a : Spec E) (h : specRun k specInitial prog = .ok a)
    (hdead : ∀ x, a.vars x = none) :
    ∃ s, run k initial prog = .ok s ∧ (∀ b ∈ s.bufs, b = none) ∧ (s.dropped ++ s.rust.flatten ++ s.taken).Perm a.created := by
  obtain ⟨s, hs, hsh, h1, h2, h3, h4⟩ := (C39_refines k prog).1 a h
  refine ⟨s, hs, fun b hb => ?_, ?_⟩
  · cases b with
    | none => rfl
    | some p =>
      obtain ⟨i, hi⟩ := List.mem_iff_getElem?.1 hb
      obtain ⟨x, r, hx, _⟩ := h4 i p hi
      have := hsh x
      rw [hdead x] at this
      rw [Shows, hx] at this
      cases this
  · rw [List.perm_iff_count]
    intro e
    obtain ⟨n, hn⟩ := opBound_all prog
    have hb := balanced_run prog (a := specInitial) hn (fun e => by
      simp only [specInitial, List.count_nil, List.flatten_nil]
      rw [sumTo_zero _ _ (fun z => by simp [heldBy])]) h e
    rw [sumTo_zero _ _ (fun z => by simp [heldBy, hdead z])] at hb
    rw [h1, h2, h3, List.count_append, List.count_append]
    omega

/-- C40: copying a string that has a value gives an equal string with a buffer of its own; the original is untouched. -/
theorem C40_copy_ok (prog : List (Op E)) (a : Spec E) (h : specRun .string specInitial prog = .ok a) (x y : Nat) (l : List E)
    (hy : a.vars y = some (.val l)) (hx : a.vars x = none) :
    ∃ s s' ry rx, run .string initial prog = .ok s ∧ step .string s (.copyCtor x y) = .ok s' ∧ s'.vars y = some ry ∧ s'.vars x = some rx ∧
      fromRawParts s' ry = some l ∧ fromRawParts s' rx = some l ∧ s.vars y = some ry ∧ (l ≠ [] → rx.ptr ≠ ry.ptr) := by
  obtain ⟨s, hs, hi⟩ := (run_sim prog (inv_initial (E := E) .string)).1 a h
  have hsp : specStep .string a (.copyCtor x y) =
      .ok { a with created := a.created ++ l, vars := setVar a.vars x (some (.val l)) } := by
    simp only [specStep, Kind.has, hy, Spec.construct, hx]
    rfl
  obtain ⟨s', hs', hi'⟩ := (step_sim hi (.copyCtor x y)).1 _ hsp
  have hne : y ≠ x := by intro e; subst e; rw [hx] at hy; cases hy
  obtain ⟨ry, h1, k1⟩ := inv_some hi' (x := y) (v := .val l) (by simp only [setVar_ne _ _ _ _ hne, hy])
  obtain ⟨rx, h2, k2⟩ := inv_some hi' (x := x) (v := .val l) (by simp only [setVar_self])
  have p1 : fromRawParts s' ry = some l := by
    rcases k1 with ⟨h0, _⟩ | ⟨l', e1, e2⟩
    · cases h0
    · cases e1; exact e2
  have p2 : fromRawParts s' rx = some l := by
    rcases k2 with ⟨h0, _⟩ | ⟨l', e1, e2⟩
    · cases h0
    · cases e1; exact e2
  obtain ⟨r0, q1, q2⟩ := inv_some hi hy
  refine ⟨s, s', ry, rx, hs, hs', h1, h2, p1, p2, ?_, fun hl he => ?_⟩
  · have q3 : fromRawParts s r0 = some l := by
      rcases q2 with ⟨h0, _⟩ | ⟨l', e1, e2⟩
      · cases h0
      · cases e1; exact e2
    obtain ⟨c1, _, _, c4⟩ := clone_ok hi r0 l q3
    have : step .string s (.copyCtor x y) = construct (fromRust s l l.length).2 x (fromRust s l l.length).1 := by
      simp only [step, Kind.has, q1, c1, Res.bind]
      rfl
    rw [this] at hs'
    unfold construct at hs'
    rw [c4] at hs'
    have hsx : s.vars x = none := (hi.dead x).2 hx
    rw [hsx] at hs'
    simp only [Res.ok.injEq] at hs'
    subst hs'
    simp only [setVar_ne _ _ _ _ hne] at h1
    exact h1
  · rcases bufOf_parts (r := ry) with hb | ⟨i, hb⟩
    · exact hl (parts_noBuf p1 hb).1
    · have hb2 : bufOf rx = some i := ptr_bufOf (by rw [he]; exact bufOf_ptr hb)
      exact hne (hi'.inj y x ry rx i h1 h2 hb hb2)

/-- C40, finding: copying a string that was default constructed or moved from hands a null pointer to `String::from_raw_parts`: undefined
behaviour.  This holds for the copy constructor and (from another object) copy assignment. -/
theorem C40_finding_copy_of_empty (prog : List (Op E)) (a : Spec E) (h : specRun .string specInitial prog = .ok a) (x y : Nat)
    (hy : a.vars y = some .nothing) :
    ∃ s, run .string initial prog = .ok s ∧ step .string s (.copyCtor x y) = .ub ∧
      ((a.vars x).isSome → x ≠ y → step .string s (.copyAssign x y) = .ub) := by
  obtain ⟨s, hs, hi⟩ := (run_sim prog (inv_initial (E := E) .string)).1 a h
  obtain ⟨r, hr, hok⟩ := inv_some hi hy
  have hrr : r = resetRaw .string ∨ ∃ l, Val.nothing = Val.val l ∧ fromRawParts s r = some l := hok.imp (·.2) id
  have e : r = resetRaw .string := by
    rcases hrr with h0 | ⟨l, h0, _⟩
    · exact h0
    · cases h0
  subst e
  refine ⟨s, hs, ?_, fun hx hne => ?_⟩
  · simp only [step, Kind.has, hr]
    rfl
  · obtain ⟨v, hv⟩ := Option.isSome_iff_exists.1 hx
    obtain ⟨s1, f1, _, f3, _, f5⟩ := freeMem_ok hi x v hv
    simp only [step, Kind.has, hr, hne, f1, Res.bind]
    rfl

/-- Non-vacuity: a program with all kinds of moves, seen by both machines; all its objects are gone at the end. -/
def demo : List (Op Nat) :=
  [.fromRust 0 [1, 2] 2, .default 1, .push 0 3 4, .moveAssign 1 0, .push 0 9 1, .moveCtor 2 1, .remove 2 0, .release 2, .push 1 7 1, .read 1 0,
    .clear 1, .moveAssign 1 1, .destroy 0, .destroy 1, .destroy 2]

example : (match specRun .foreignVec specInitial demo with
    | .ok a => (a.rust, a.dropped, a.taken, a.created)
    | _ => ([], [], [], [])) = ([[2, 3]], [7, 9], [1], [1, 2, 3, 9, 7]) := by decide

example : (match run .foreignVec initial demo with
    | .ok s => (s.rust, s.dropped, s.taken, s.bufs.all Option.isNone, s.bufs.length)
    | _ => ([], [], [], false, 0)) = ([[2, 3]], [7, 9], [1], true, 4) := by decide

/-- A string copied, the original destroyed, the copy destroyed. -/
example : (match run .string (initial : St Nat) [.fromRust 0 [5, 6] 8, .copyCtor 1 0, .destroy 0, .read 1 1, .destroy 1] with
    | .ok s => s.dropped
    | _ => []) = [5, 6, 5, 6] := by decide

/-- `RustString a; RustString b(a);` -/
example : (match run .string (initial : St Nat) [.default 0, .copyCtor 1 0] with
    | .ub => true
    | _ => false) = true := by decide

end Flapi.Containers
