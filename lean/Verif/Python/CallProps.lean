import Verif.Python.ArgProps
/-!
# Python: whole calls (C47, C57)
-/
namespace Flapi.Py

/-! ## Specification -/

/-- An argument of a call: its declared type, what the generator made of it and the value Python passes. -/
structure Arg where
  ty : RTy
  pyTy : RTy
  exp : Exp
  val : Val

/-- The generator made this of the argument, rustc accepts it, and rust-cpython could convert the value. -/
def Arg.Ok (env : Env) (heap : List Int) (x : Arg) : Prop :=
  genArg env true x.ty = some (x.pyTy, x.exp) ∧ ArgCompiles env x.ty x.pyTy x.exp ∧ Fits heap x.pyTy x.val

/-- The objects an argument locks, and those it keeps locked during the call. -/
def Arg.locks (env : Env) (x : Arg) : List Nat := locksOf env x.ty x.val
def Arg.holds (env : Env) (x : Arg) : List Nat := holdsOf env x.ty x.val

def Arg.run (x : Arg) : Exp × Val := (x.exp, x.val)

/-- No object that one argument keeps locked is locked again by a later one. -/
def NoRelock (env : Env) (l : List Arg) : Prop := l.Pairwise fun x y => ∀ a ∈ x.holds env, a ∉ y.locks env

/-- The Rust function receives what the Python values stand for, in order. -/
inductive AllDenote (env : Env) (heap : List Int) : List Arg → List Val → Prop where
  | nil : AllDenote env heap [] []
  | cons (x : Arg) (l : List Arg) (w : Val) (ws : List Val) : Denotes env heap x.ty x.val w → AllDenote env heap l ws → AllDenote env heap (x :: l) (w :: ws)

/-! ## Lemmas -/

theorem evalArgs_good (env : Env) (heap : List Int) : ∀ (l : List Arg) (held : List Nat), (∀ x ∈ l, x.Ok env heap) →
    match evalArgs env heap held (l.map Arg.run) with
    | .ok ws h => AllDenote env heap l ws ∧ NoRelock env l ∧ (∀ x ∈ l, ∀ a ∈ x.locks env, a ∉ held) ∧ (∀ x ∈ l, Valid env x.ty x.val) ∧
        (∀ a, a ∈ h ↔ a ∈ held ∨ ∃ x ∈ l, a ∈ x.holds env)
    | .deadlock => ¬ NoRelock env l ∨ ∃ x ∈ l, ∃ a ∈ x.locks env, a ∈ held
    | .error => ∃ x ∈ l, ¬ Valid env x.ty x.val
    | .stuck => False
  | [], held, _ => ⟨.nil, .nil, by simp, by simp, by simp⟩
  | x :: l, held, hok => by
    obtain ⟨hg, hc, hf⟩ := hok x (List.mem_cons_self ..)
    rw [C46_argument_typed env _ _ _ hg] at hc
    have h1 := eval_good env heap true x.ty x.pyTy x.exp hg hc held x.val hf
    simp only [List.map_cons, Arg.run, evalArgs]
    cases he : eval env heap x.exp held x.val with
    | deadlock =>
      rw [he] at h1
      exact .inr ⟨x, List.mem_cons_self .., h1⟩
    | error =>
      rw [he] at h1
      exact ⟨x, List.mem_cons_self .., h1⟩
    | stuck => rw [he] at h1; exact h1.elim
    | ok w h =>
      rw [he] at h1
      obtain ⟨rfl, hd, hlk, hval⟩ := h1
      have h2 := evalArgs_good env heap l (holdsOf env x.ty x.val ++ held) (fun y hy => hok y (List.mem_cons_of_mem _ hy))
      change match evalArgs env heap (holdsOf env x.ty x.val ++ held) (l.map Arg.run) with | _ => _ at h2
      cases hr : evalArgs env heap (holdsOf env x.ty x.val ++ held) (l.map Arg.run) with
      | deadlock =>
        simp only [hr] at h2
        simp only [show evalArgs env heap (holdsOf env x.ty x.val ++ held) (List.map Arg.run l) = _ from hr]
        rcases h2 with h2 | ⟨y, hy, a, ha, hin⟩
        · exact .inl (fun hp => h2 (List.pairwise_cons.1 hp).2)
        · rcases List.mem_append.1 hin with hin | hin
          · exact .inl (fun hp => (List.pairwise_cons.1 hp).1 y hy a hin ha)
          · exact .inr ⟨y, List.mem_cons_of_mem _ hy, a, ha, hin⟩
      | error =>
        simp only [hr] at h2
        simp only [show evalArgs env heap (holdsOf env x.ty x.val ++ held) (List.map Arg.run l) = _ from hr]
        obtain ⟨y, hy, h3⟩ := h2
        exact ⟨y, List.mem_cons_of_mem _ hy, h3⟩
      | stuck => simp only [hr] at h2
      | ok ws h' =>
        simp only [hr] at h2
        simp only [show evalArgs env heap (holdsOf env x.ty x.val ++ held) (List.map Arg.run l) = _ from hr]
        obtain ⟨a1, a2, a3, a4, a5⟩ := h2
        refine ⟨.cons _ _ _ _ hd a1, List.pairwise_cons.2 ⟨?_, a2⟩, ?_, ?_, ?_⟩
        · intro y hy a ha hb
          exact a3 y hy a hb (List.mem_append_left _ ha)
        · intro y hy a ha
          rcases List.mem_cons.1 hy with rfl | hy
          · exact hlk a ha
          · exact fun hh => a3 y hy a ha (List.mem_append_right _ hh)
        · intro y hy
          rcases List.mem_cons.1 hy with rfl | hy
          · exact hval
          · exact a4 y hy
        · intro a
          rw [a5]
          simp only [List.mem_append, List.mem_cons, exists_eq_or_imp, Arg.holds]
          constructor
          · rintro ((h | h) | h)
            · exact .inr (.inl h)
            · exact .inl h
            · exact .inr (.inr h)
          · rintro (h | h | h)
            · exact .inl (.inr h)
            · exact .inl (.inl h)
            · exact .inr h

/-! ## Theorems -/

/-- A call whose enumerators are valid blocks itself for ever exactly if an object that one argument (or `self`) keeps locked is locked again by a later
one. -/
theorem C47_deadlock_iff (env : Env) (heap : List Int) (l : List Arg) (hok : ∀ x ∈ l, x.Ok env heap) (hval : ∀ x ∈ l, Valid env x.ty x.val) :
    evalArgs env heap [] (l.map Arg.run) = .deadlock ↔ ¬ NoRelock env l := by
  have h := evalArgs_good env heap l [] hok
  cases hr : evalArgs env heap [] (l.map Arg.run) with
  | deadlock =>
    simp only [hr] at h
    rcases h with h | ⟨_, _, _, _, hin⟩
    · simp [h]
    · cases hin
  | ok ws h' =>
    simp only [hr] at h
    simp [h.2.1]
  | error =>
    simp only [hr] at h
    obtain ⟨x, hx, h3⟩ := h
    exact absurd (hval x hx) h3
  | stuck => simp only [hr] at h

theorem holds_sub_locks (env : Env) (t : RTy) (v : Val) : ∀ a ∈ holdsOf env t v, a ∈ locksOf env t v := by
  induction t with
  | ref t ih =>
    unfold holdsOf locksOf
    split
    · simp
    · cases t with
      | slice u => simp
      | _ => simpa using ih
  | _ =>
    unfold holdsOf locksOf
    split
    · simp
    · simp

/-- If no two arguments (`self` included) share a lock-kept object, the call goes through: the function is called, with what the Python values stand for,
while exactly the directly passed objects are locked. -/
theorem C47_distinct_objects (env : Env) (heap : List Int) (l : List Arg) (hok : ∀ x ∈ l, x.Ok env heap) (hval : ∀ x ∈ l, Valid env x.ty x.val)
    (hdist : l.Pairwise fun x y => ∀ a ∈ x.locks env, a ∉ y.locks env) :
    ∃ ws held, evalArgs env heap [] (l.map Arg.run) = .ok ws held ∧ AllDenote env heap l ws ∧ ∀ a, a ∈ held ↔ ∃ x ∈ l, a ∈ x.holds env := by
  have hnr : NoRelock env l := hdist.imp fun h a ha => h a (holds_sub_locks env _ _ a ha)
  have h := evalArgs_good env heap l [] hok
  have hd := C47_deadlock_iff env heap l hok hval
  cases hr : evalArgs env heap [] (l.map Arg.run) with
  | deadlock => exact absurd hnr (hd.1 hr)
  | ok ws h' =>
    simp only [hr] at h
    exact ⟨ws, h', rfl, h.1, by simpa using h.2.2.2.2⟩
  | error =>
    simp only [hr] at h
    obtain ⟨x, hx, h3⟩ := h
    exact absurd (hval x hx) h3
  | stuck => simp only [hr] at h

/-- Finding: a method taking its own class, called with the object itself, blocks for ever (for every class kept in a lock, `&self` or `&mut self`, the
argument by reference, mutable reference or value). -/
theorem C47_finding_self (env : Env) (heap : List Int) (c a : Nat) (hs : storage env c = .mutex ∨ storage env c = .arcMutex) (x y : Arg)
    (hx : x.Ok env heap) (hy : y.Ok env heap) (tx : x.ty = .ref (.cls c) ∨ x.ty = .refMut (.cls c))
    (ty : y.ty = .ref (.cls c) ∨ y.ty = .refMut (.cls c) ∨ y.ty = .cls c) (vx : x.val = .ref a) (vy : y.val = .ref a) :
    evalArgs env heap [] [x.run, y.run] = .deadlock := by
  have lk : ∀ t, (t = .ref (.cls c) ∨ t = .refMut (.cls c) ∨ t = .cls c) → lockedType env t = true ∧ (∀ v, Valid env t v) := by
    rintro t (rfl | rfl | rfl) <;> refine ⟨?_, fun _ => trivial⟩ <;> simp only [lockedType, classOf, unref, smart] <;> rcases hs with h | h <;> simp [h]
  have hx' := lk x.ty (tx.elim .inl (fun h => .inr (.inl h)))
  have hy' := lk y.ty ty
  refine (C47_deadlock_iff env heap [x, y] (by simp [hx, hy]) (by simp [hx'.2, hy'.2])).2 ?_
  intro hp
  have := (List.pairwise_cons.1 hp).1 y (by simp) a
  unfold Arg.holds Arg.locks holdsOf locksOf at this
  rw [hx'.1, hy'.1, vx, vy] at this
  simp at this

/-- The function is called only with what the Python values stand for. -/
theorem C57_arguments (env : Env) (heap : List Int) (l : List Arg) (hok : ∀ x ∈ l, x.Ok env heap) (ws : List Val) (held : List Nat)
    (h : evalArgs env heap [] (l.map Arg.run) = .ok ws held) : AllDenote env heap l ws := by
  have := evalArgs_good env heap l [] hok
  simp only [h] at this
  exact this.1

/-- A number that is not a listed variant raises an exception instead (unless the call blocks on an earlier argument): the function is not called. -/
theorem C57_invalid_enumerator (env : Env) (heap : List Int) (l : List Arg) (hok : ∀ x ∈ l, x.Ok env heap) (x : Arg) (hx : x ∈ l)
    (hbad : ¬ Valid env x.ty x.val) : evalArgs env heap [] (l.map Arg.run) = .error ∨ evalArgs env heap [] (l.map Arg.run) = .deadlock := by
  have := evalArgs_good env heap l [] hok
  cases hr : evalArgs env heap [] (l.map Arg.run) with
  | deadlock => exact .inr rfl
  | error => exact .inl rfl
  | stuck => simp only [hr] at this
  | ok ws h => simp only [hr] at this; exact absurd (this.2.2.2.1 x hx) hbad

/-- No two variants share their number. -/
def DistinctNumbers (env : Env) : Prop := ∀ e, ((env.discr e).map asU32).Nodup

/-- The Rust value is determined by the Python value, if the numbers of the variants (as `u32`) differ. -/
theorem C57_determined (env : Env) (heap : List Int) (hn : DistinctNumbers env) (t : RTy) (v w w' : Val) (h : Denotes env heap t v w)
    (h' : Denotes env heap t v w') : w = w' := by
  induction h generalizing w' with
  | prim t n hs =>
    cases h' with
    | prim => rfl
    | enumerator => cases hs
    | slice => cases hs
    | ref t _ _ hc hd =>
      have : t = .str := by
        cases t <;> first | rfl | cases hs
      subst this
      cases hd
      rename_i hs'
      cases hs'
  | byValue c a x hx =>
    cases h' with
    | byValue _ _ y hy => rw [hx] at hy; simp at hy; rw [hy]
    | reference t p c a hc => cases hc
    | shared t p c a hc hp => simp [classOf, unref, smart] at hc; rw [← hc.1] at hp; cases hp
  | reference t p c a hc =>
    cases h' with
    | byValue => cases hc
    | reference => rfl
    | «mutable» => cases hc
    | shared _ _ _ _ hc' => rw [hc] at hc'; simp at hc'
    | slice t _ _ hd => cases hc
    | ref t _ _ hc' => rw [hc] at hc'; cases hc'
  | «mutable» c a =>
    cases h' with
    | «mutable» => rfl
    | reference t p c a hc => simp [classOf, unref, smart] at hc
    | shared t p c a hc => simp [classOf, unref, smart] at hc
  | shared t p c a hc hp =>
    cases h' with
    | byValue => simp [classOf, unref, smart] at hc; rw [← hc.1] at hp; cases hp
    | reference _ _ _ _ hc' => rw [hc] at hc'; simp at hc'
    | «mutable» => cases hc
    | shared => rfl
    | slice t _ _ hd => cases hc
    | ref t _ _ hc' => rw [hc] at hc'; cases hc'
  | enumerator e i d hd =>
    generalize hv : Val.prim (asU32 d) = v at h'
    cases h' with
    | prim _ _ hs => cases hs
    | enumerator _ j d' hd' =>
      simp only [Val.prim.injEq] at hv
      have e1 : ((env.discr e).map asU32)[i]? = some (asU32 d) := by simp [hd]
      have e2 : ((env.discr e).map asU32)[j]? = some (asU32 d) := by simp [hd', hv]
      have hp := List.pairwise_iff_getElem.1 (hn e)
      obtain ⟨b1, g1⟩ := List.getElem?_eq_some_iff.1 e1
      obtain ⟨b2, g2⟩ := List.getElem?_eq_some_iff.1 e2
      rcases Nat.lt_trichotomy i j with h | h | h
      · exact absurd (g1.trans g2.symm) (hp i j b1 b2 h)
      · rw [h]
      · exact absurd (g2.trans g1.symm) (hp j i b2 b1 h)
    | _ => cases hv
  | none t => cases h'; rfl
  | some t v w _ ih => cases h' with | some _ _ w' hd => rw [ih _ hd]
  | nil t => cases h'; rfl
  | cons t v l w m _ _ ih1 ih2 => cases h' with | cons _ _ _ w' m' h1 h2 => rw [ih1 _ h1, ih2 _ h2]
  | slice t v w _ ih =>
    cases h' with
    | prim _ _ hs => cases hs
    | slice _ _ _ hd => exact ih _ hd
    | reference _ p c _ hc => cases hc
    | shared _ p c _ hc => cases hc
    | ref t _ _ hc hd =>
      cases hd with
      | prim _ _ hs => cases hs
      | reference _ _ _ _ hc => cases hc
      | shared _ _ _ _ hc => cases hc
  | ref t v w hc hd ih =>
    cases h' with
    | prim _ _ hs =>
      have : t = .str := by
        cases t <;> first | rfl | cases hs
      subst this
      cases hd
      rename_i hs'
      cases hs'
    | reference _ _ _ _ hc' => rw [hc] at hc'; cases hc'
    | shared _ _ _ _ hc' => rw [hc] at hc'; cases hc'
    | slice t _ _ hd' =>
      cases hd with
      | prim _ _ hs => cases hs
      | reference _ _ _ _ hc => cases hc
      | shared _ _ _ _ hc => cases hc
    | ref _ _ _ _ hd' => exact ih _ hd'

/-! ## Examples -/

def argOf (env : Env) (t : RTy) (v : Val) : Option Arg := (genArg env true t).map fun (p, e) => ⟨t, p, e, v⟩

/-- `fn f(&mut self, other: &Foo, list: Vec<Foo>, e: Enum)`, with three different objects. -/
def demoCall (self other third : Nat) (e : Int) : List Arg :=
  [⟨.refMut (.cls 0), .ref (.py 0), .lockMut (.inst 0 false .arg), .ref self⟩,
   ⟨.ref (.cls 0), .ref (.py 0), .lockRef (.inst 0 false .arg), .ref other⟩,
   ⟨.vec (.cls 0), .vec (.py 0), .mapCollect .arg (.lockClone (.inst 0 true .arg)), .cons (.ref third) (.cons (.ref third) .nil)⟩,
   ⟨.enm 0, .prim .u32, .fromU32 0 .arg, .prim e⟩]

example : ∀ x ∈ demoCall 0 1 2 5, genArg demo true x.ty = some (x.pyTy, x.exp) ∧ wellFormed demo x.ty = true := by decide
example : evalArgs demo [10, 11, 12] [] ((demoCall 0 1 2 5).map Arg.run) =
    .ok [.refMut 0, .ref 1, .cons (.data 12) (.cons (.data 12) .nil), .enm 0 2] [1, 0] := by decide
example : evalArgs demo [10, 11, 12] [] ((demoCall 0 1 0 5).map Arg.run) = .deadlock := by decide
example : evalArgs demo [10, 11, 12] [] ((demoCall 0 1 2 4).map Arg.run) = .error := by decide

theorem demo_ok (self other third : Nat) (e : Int) (h1 : self < 3) (h2 : other < 3) (h3 : third < 3) : ∀ x ∈ demoCall self other third e, x.Ok demo [10, 11, 12] := by
  intro x hx
  simp only [demoCall, List.mem_cons, List.not_mem_nil, or_false] at hx
  rcases hx with rfl | rfl | rfl | rfl
  · exact ⟨rfl, (C46_argument_typed _ _ _ _ rfl).2 rfl, .objRef _ _ h1⟩
  · exact ⟨rfl, (C46_argument_typed _ _ _ _ rfl).2 rfl, .objRef _ _ h2⟩
  · exact ⟨rfl, (C46_argument_typed _ _ _ _ rfl).2 rfl, .cons _ _ _ (.obj _ _ h3) (.cons _ _ _ (.obj _ _ h3) (.nil _))⟩
  · exact ⟨rfl, (C46_argument_typed _ _ _ _ rfl).2 rfl, .prim _ _⟩

/-- Finding: variants whose numbers agree as `u32` are confused: the second arrives as the first. -/
theorem C57_finding_wide_numbers (env : Env) (heap : List Int) (held : List Nat) (e : Nat) (d : Int) (rest : List Int) (h : env.discr e = d :: rest) (d' : Int)
    (hsame : asU32 d' = asU32 d) : eval env heap (.fromU32 e .arg) held (.prim (asU32 d')) = .ok (.enm e 0) held := by
  simp only [eval, Out.bind, h, fromU32, hsame, List.findIdx?_cons, decide_true, if_true]

example : asU32 (2 ^ 32) = asU32 0 := by decide

end Flapi.Py
