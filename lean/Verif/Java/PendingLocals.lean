import Verif.Java.PendingProps
/-!
# C90: local references; examples and findings
-/
namespace Flapi.JniRules

/-! ## Lemmas: local references -/

/-- From `pre` local references: never more than `hi`; if it returns `a`, `post a` holds of their number. -/
def Refs (O : Oracle) (x : M α) (pre hi : Nat) (post : α → Nat → Prop) : Prop :=
  ∀ s, s.locals = pre → pre ≤ hi → (x O s).2.peak ≤ max s.peak hi ∧ (x O s).2.locals ≤ hi ∧ ∀ a, (x O s).1 = .ok a → post a (x O s).2.locals

theorem Refs.pure {O : Oracle} {a : α} {pre hi : Nat} {post : α → Nat → Prop} (h : post a pre) : Refs O (Pure.pure a : M α) pre hi post := by
  intro s hs hp
  refine ⟨Nat.le_max_left _ _, by show s.locals ≤ hi; omega, fun b hb => ?_⟩
  have := Except.ok.inj hb
  subst this
  show post a s.locals
  rw [hs]
  exact h

theorem Refs.bind {O : Oracle} {x : M α} {f : α → M β} {pre hi : Nat} {mid : α → Nat → Prop} {post : β → Nat → Prop} (hx : Refs O x pre hi mid)
    (hf : ∀ a n, mid a n → Refs O (f a) n hi post) : Refs O (x >>= f) pre hi post := by
  intro s hs hp
  obtain ⟨h1, h5, h2⟩ := hx s hs hp
  rw [bind_eq]
  unfold M.andThen
  cases hc : x O s with
  | mk r t =>
    rw [hc] at h1 h2 h5
    cases r with
    | error e => exact ⟨h1, h5, fun _ h => by cases h⟩
    | ok a =>
      obtain ⟨h3, h4⟩ := hf a _ (h2 a rfl) t rfl h5
      refine ⟨?_, h4⟩
      simp only at h1 ⊢
      omega

theorem Refs.weaken {O : Oracle} {x : M α} {pre hi : Nat} {p q : α → Nat → Prop} (h : Refs O x pre hi p) (hpq : ∀ a n, p a n → q a n) : Refs O x pre hi q :=
  fun s hs hp => ⟨(h s hs hp).1, (h s hs hp).2.1, fun a ha => hpq _ _ ((h s hs hp).2.2 a ha)⟩

theorem Refs.assert {O : Oracle} {b : Bool} {pre hi : Nat} : Refs O (JniRules.assert b) pre hi (fun _ n => n = pre ∧ b = true) := by
  intro s hs hp
  have hl : (JniRules.assert b O s).2 = s := by cases b <;> rfl
  rw [hl]
  refine ⟨Nat.le_max_left _ _, by omega, fun _ h => ⟨hs, ?_⟩⟩
  cases b
  · cases h
  · rfl

/-- A call that gives no local reference. -/
theorem Refs.plainCall {O : Oracle} {f : Fn} {pre hi : Nat} (hg : f.givesLocal = false) (hd : f ≠ .deleteLocalRef) :
    Refs O (call f) pre hi (fun _ n => n = pre) := by
  intro s hs hp
  have hl : (call f O s).2.locals = s.locals ∧ (call f O s).2.peak = max s.peak s.locals := by
    cases f <;> simp_all [call, Fn.givesLocal]
  rw [hl.1, hl.2, hs]
  exact ⟨by omega, hp, fun _ _ => rfl⟩

/-- A call that gives one. -/
theorem Refs.givingCall {O : Oracle} {f : Fn} {pre hi : Nat} (hg : f.givesLocal = true) (hp : pre + 1 ≤ hi) :
    Refs O (call f) pre hi (fun a n => n = if a.null then pre else pre + 1) := by
  intro s hs _
  have hl : (call f O s).2.locals = (if (O s.answered f).null then s.locals else s.locals + 1) ∧
      (call f O s).2.peak = max s.peak (if (O s.answered f).null then s.locals else s.locals + 1) := by
    cases f <;> simp_all [call, Fn.givesLocal] <;> cases (O s.answered _).null <;> simp
  rw [hl.1, hl.2, hs]
  refine ⟨by split <;> omega, by split <;> omega, fun a ha => ?_⟩
  have : O s.answered f = a := Except.ok.inj ha
  rw [this]

theorem Refs.check {O : Oracle} {pre hi : Nat} : Refs O JniRules.check pre hi (fun _ n => n = pre) := by
  intro s hs hp
  have h := (Refs.plainCall (O := O) (f := .exceptionCheck) (pre := pre) (hi := hi) rfl (by decide)) s hs hp
  exact ⟨h.1, h.2.1, fun _ _ => h.2.2 _ rfl⟩

theorem Refs.nonNullGiving {O : Oracle} {f : Fn} {pre hi : Nat} (hg : f.givesLocal = true) (hp : pre + 1 ≤ hi) :
    Refs O (nonNull f) pre hi (fun a n => n = pre + 1 ∧ a.null = false) :=
  Refs.bind (Refs.givingCall hg hp) fun a n hn => Refs.bind Refs.assert fun _ m hm => Refs.pure (by
    have h : a.null = false := by have := hm.2; revert this; cases a.null <;> simp
    rw [h] at hn
    exact ⟨hm.1.trans hn, h⟩)

theorem Refs.nonNullPlain {O : Oracle} {f : Fn} {pre hi : Nat} (hg : f.givesLocal = false) (hd : f ≠ .deleteLocalRef) :
    Refs O (nonNull f) pre hi (fun _ n => n = pre) :=
  Refs.bind (Refs.plainCall hg hd) fun a n hn => Refs.bind Refs.assert fun _ m hm => Refs.pure (hm.1.trans hn)

theorem Refs.checkedGiving {O : Oracle} {f : Fn} {pre hi : Nat} (hg : f.givesLocal = true) (hp : pre + 1 ≤ hi) :
    Refs O (checked f) pre hi (fun a n => n = if a.null then pre else pre + 1) :=
  Refs.bind (Refs.givingCall hg hp) fun a n hn => Refs.bind Refs.check fun b m hm =>
    Refs.bind Refs.assert fun _ k hk => Refs.pure (by rw [hk.1, hm, hn])

theorem Refs.checkedPlain {O : Oracle} {f : Fn} {pre hi : Nat} (hg : f.givesLocal = false) (hd : f ≠ .deleteLocalRef) :
    Refs O (checked f) pre hi (fun _ n => n = pre) :=
  Refs.bind (Refs.plainCall hg hd) fun a n hn => Refs.bind Refs.check fun b m hm =>
    Refs.bind Refs.assert fun _ k hk => Refs.pure (by rw [hk.1, hm, hn])

theorem Refs.deleteLocal {O : Oracle} {a : Ans} {pre hi : Nat} :
    Refs O (JniRules.deleteLocal a) pre hi (fun _ n => n = if a.null then pre else pre - 1) := by
  intro s hs hp
  obtain ⟨x, y, z⟩ := a
  cases x
  · refine ⟨?_, ?_, fun _ _ => ?_⟩
    · show max s.peak (s.locals - 1) ≤ _
      omega
    · show s.locals - 1 ≤ _
      omega
    · show s.locals - 1 = pre - 1
      rw [hs]
  · refine ⟨?_, by show s.locals ≤ _; omega, fun _ _ => hs⟩
    show max s.peak (s.locals - 1) ≤ _
    omega

theorem Refs.times {O : Oracle} {x : M Unit} {pre hi : Nat} (h : Refs O x pre hi (fun _ n => n = pre)) : ∀ k, Refs O (JniRules.times k x) pre hi (fun _ n => n = pre)
  | 0 => Refs.pure rfl
  | k + 1 => Refs.bind h fun _ n hn => by rw [hn]; exact Refs.times h k

theorem Refs.finally' {O : Oracle} {x : M α} {d : M Unit} {pre hi : Nat} {post : α → Nat → Prop} (hx : Refs O x pre hi post)
    (hd : ∀ s, (d O s).2.locals = s.locals ∧ (d O s).2.peak ≤ max s.peak s.locals) : Refs O (JniRules.finally' x d) pre hi post := by
  intro s hs hp
  obtain ⟨h1, h3, h2⟩ := hx s hs hp
  unfold JniRules.finally'
  cases hc : x O s with
  | mk r t =>
    rw [hc] at h1 h2 h3
    obtain ⟨d1, d2⟩ := hd t
    simp only at h1 h3
    cases r with
    | error e =>
      cases e with
      | panic => exact ⟨by show (d O t).2.peak ≤ _; omega, by show (d O t).2.locals ≤ _; omega, fun _ h => by cases h⟩
      | abort => exact ⟨h1, h3, fun _ h => by cases h⟩
    | ok a => exact ⟨by show (d O t).2.peak ≤ _; omega, by show (d O t).2.locals ≤ _; omega, fun b hb => by show post b (d O t).2.locals; rw [d1]; exact h2 b hb⟩

theorem releaseCall_locals {O : Oracle} {f : Fn} (hg : f.givesLocal = false) (hd : f ≠ .deleteLocalRef) (b : Nat) (s : St) :
    ((do let _ ← call f; release b : M Unit) O s).2.locals = s.locals ∧ ((do let _ ← call f; release b : M Unit) O s).2.peak ≤ max s.peak s.locals := by
  have h : (call f O s).2.locals = s.locals ∧ (call f O s).2.peak = max s.peak s.locals := by
    cases f <;> simp_all [call, Fn.givesLocal]
  exact ⟨h.1, by rw [← h.2]; exact Nat.le_refl _⟩

theorem refs_element {O : Oracle} {pre hi : Nat} (owner : Bool) (hp : pre + 1 ≤ hi) : Refs O (fromElement owner) pre hi (fun _ n => n = pre) :=
  Refs.bind (Refs.checkedGiving rfl hp) fun a n hn => Refs.bind (Refs.plainCall rfl (by decide)) fun _ m hm =>
    Refs.bind Refs.assert fun _ k hk => Refs.deleteLocal.weaken fun _ j hj => by
      rw [hj, hk.1, hm, hn]
      split <;> simp

theorem refs_boxed {O : Oracle} {pre hi : Nat} (null : Bool) (hp : pre + 1 ≤ hi) : Refs O (fromBoxed null) pre hi (fun _ n => n = pre) := by
  unfold fromBoxed
  split
  · exact Refs.pure rfl
  · refine Refs.bind (Refs.givingCall rfl hp) fun x n hn => ?_
    split
    · rename_i hx
      exact Refs.pure (by rw [hn, if_pos hx])
    · rename_i hx
      rw [if_neg hx] at hn
      subst hn
      exact Refs.bind (Refs.checkedPlain rfl (by decide)) fun _ m hm => Refs.deleteLocal.weaken fun _ j hj => by
        rw [hj, if_neg hx, hm]
        simp

/-- A buffer and its scope. -/
theorem refs_scope {O : Oracle} {x : M Unit} {f : Fn} {pre hi : Nat} {post : Unit → Nat → Prop} (hg : f.givesLocal = false) (hd : f ≠ .deleteLocalRef)
    (hx : Refs O x pre hi post) : Refs O (do let b ← acquire; JniRules.finally' x (do let _ ← call f; release b)) pre hi post := by
  intro s hs hp
  exact (Refs.finally' (d := do let _ ← call f; release s.fresh) hx (releaseCall_locals hg hd s.fresh))
    { s with held := s.fresh :: s.held, fresh := s.fresh + 1 } hs hp

theorem refs_string {O : Oracle} {pre hi : Nat} (null valid : Bool) : Refs O (fromJString null valid) pre hi (fun _ n => n = pre) := by
  unfold fromJString
  split
  · exact Refs.pure rfl
  · refine Refs.bind (Refs.plainCall rfl (by decide)) fun _ n hn => Refs.bind (Refs.plainCall rfl (by decide)) fun _ m hm => ?_
    subst hn hm
    exact refs_scope rfl (by decide) (Refs.assert.weaken fun _ _ h => h.1)

theorem refs_array {O : Oracle} {pre hi : Nat} {post : Unit → Nat → Prop} (null : Bool) {rest : M Unit} (h : Refs O rest pre hi post) :
    Refs O (withArray null rest) pre hi post := by
  refine Refs.bind Refs.assert fun _ n hn => Refs.bind (Refs.plainCall rfl (by decide)) fun _ m hm => ?_
  obtain ⟨hn, _⟩ := hn
  subst hm hn
  exact refs_scope rfl (by decide) (Refs.bind (Refs.plainCall rfl (by decide)) fun _ k hk => by rw [hk]; exact h)

theorem refs_onPanic {O : Oracle} {x : M Unit} {pre hi : Nat} {post : Unit → Nat → Prop} (hx : Refs O x pre hi post) :
    Refs O (JniRules.onPanic x (do let _ ← call .deleteGlobalRef; Pure.pure ())) pre hi post := by
  intro s hs hp
  obtain ⟨h1, h3, h2⟩ := hx s hs hp
  unfold JniRules.onPanic
  cases hc : x O s with
  | mk r t =>
    rw [hc] at h1 h2 h3
    cases r with
    | ok a => exact ⟨h1, h3, h2⟩
    | error e =>
      cases e with
      | panic =>
        refine ⟨?_, h3, fun _ h => by cases h⟩
        show max t.peak t.locals ≤ _
        simp only at h1 h3
        omega
      | abort => exact ⟨h1, h3, fun _ h => by cases h⟩

/-- What a callback argument needs: the class of the object, which is kept until the end. -/
theorem refs_newCallback {O : Oracle} {pre hi : Nat} (n : Nat) (hp : pre + 1 ≤ hi) : Refs O (newCallback n) pre hi (fun _ n => n = pre + 1) :=
  Refs.bind (Refs.nonNullPlain rfl (by decide)) fun _ m hm => refs_onPanic (Refs.bind (Refs.nonNullGiving rfl (by omega)) fun _ k hk =>
    (Refs.times (Refs.bind (Refs.nonNullPlain rfl (by decide)) fun _ j hj => Refs.pure hj) n).weaken fun _ j hj => by rw [hj, hk.1, hm])

/-- One for each callback. -/
def In.keeps : In → Nat
  | .callback _ => 1
  | _ => 0

theorem refs_with {O : Oracle} (a : In) {rest : M Unit} {pre hi : Nat} {post : Unit → Nat → Prop} (hp : pre + 1 ≤ hi) (hr : Refs O rest (pre + a.keeps) hi post) :
    Refs O (a.with rest) pre hi post := by
  cases a with
  | plain => exact hr
  | string null valid => exact Refs.bind (refs_string null valid) fun _ n (hn : n = pre) => by rw [hn]; exact hr
  | array null => exact refs_array null hr
  | objects owner =>
    refine Refs.bind (mid := fun _ n => n = pre) (Refs.bind (Refs.plainCall rfl (by decide)) fun a n hn => ?_) fun _ n hn => by rw [hn]; exact hr
    subst hn
    exact Refs.times (refs_element owner hp) a.num
  | boxed null => exact Refs.bind (refs_boxed null hp) fun _ n hn => by rw [hn]; exact hr
  | callback n => exact Refs.bind (refs_newCallback n hp) fun _ n hn => by rw [hn]; exact hr

theorem refs_withAll {O : Oracle} {rest : M Unit} {hi : Nat} {post : Unit → Nat → Prop} :
    ∀ (as : List In) (pre : Nat), pre + (as.map In.keeps).sum + 1 ≤ hi → Refs O rest (pre + (as.map In.keeps).sum) hi post → Refs O (withAll as rest) pre hi post
  | [], _, _, hr => hr
  | a :: as, pre, hp, hr => by
    simp only [List.map_cons, List.sum_cons] at hp hr
    exact refs_with a (by omega) (refs_withAll as (pre + a.keeps) (by omega) (by rw [Nat.add_assoc]; exact hr))

/-! ## C90: local references -/

/-- Converting an argument that is not a callback leaves no local reference behind, and needs at most one at any time, however long an array is.  A callback
leaves one. -/
theorem C90_argument_references {O : Oracle} (a : In) (s t : St) (r : Except Stop Unit) (h : a.with (Pure.pure ()) O s = (r, t)) :
    t.peak ≤ max s.peak (s.locals + 1) ∧ (r = .ok () → (∀ n, a ≠ .callback n) → t.locals = s.locals) ∧
    (r = .ok () → ∀ n, a = .callback n → t.locals = s.locals + 1) := by
  have key : Refs O (a.with (Pure.pure ())) s.locals (s.locals + 1) (fun _ n => n = s.locals + a.keeps) := refs_with a (Nat.le_refl _) (Refs.pure rfl)
  have := key s rfl (by omega)
  rw [h] at this
  refine ⟨this.1, fun e hn => ?_, fun e n hn => ?_⟩
  · rw [show t.locals = s.locals + a.keeps from this.2.2 () e]
    cases a with
    | callback n => exact absurd rfl (hn n)
    | _ => rfl
  · rw [show t.locals = s.locals + a.keeps from this.2.2 () e, hn]
    rfl

theorem refs_conv {O : Oracle} {pre : Nat} (o : Out) : Refs O o.conv pre (pre + 2) (fun _ n => n ≤ pre + 1) := by
  cases o with
  | plain => exact Refs.pure (by omega)
  | string => exact Refs.bind (Refs.givingCall rfl (by omega)) fun a n hn => Refs.pure (by rw [hn]; split <;> omega)
  | array =>
    exact Refs.bind (Refs.nonNullGiving rfl (by omega)) fun a n hn => Refs.bind (Refs.checkedPlain rfl (by decide)) fun _ m hm => Refs.pure (by omega)
  | object =>
    exact Refs.bind (Refs.nonNullGiving rfl (by omega)) fun a n hn => Refs.bind (Refs.checkedPlain rfl (by decide)) fun _ m hm => Refs.pure (by omega)
  | objects k =>
    refine Refs.bind (Refs.nonNullGiving rfl (by omega)) fun a n hn => ?_
    obtain ⟨hn, _⟩ := hn
    subst hn
    refine (Refs.times ?_ k).weaken fun _ n hn => by omega
    refine Refs.bind (Refs.nonNullGiving rfl (by omega)) fun b n hn => Refs.bind (Refs.checkedPlain rfl (by decide)) fun _ m hm =>
      Refs.bind (Refs.checkedPlain rfl (by decide)) fun _ j hj => (Refs.deleteLocal (hi := pre + 2)).weaken fun _ i hi => ?_
    rw [hi, hn.2]
    simp
    omega
  | strings k =>
    refine Refs.bind (Refs.nonNullGiving rfl (by omega)) fun a n hn => ?_
    obtain ⟨hn, _⟩ := hn
    subst hn
    refine (Refs.times ?_ k).weaken fun _ n hn => by omega
    refine Refs.bind (Refs.nonNullGiving rfl (by omega)) fun b n hn => Refs.bind (Refs.checkedPlain rfl (by decide)) fun _ m hm =>
      (Refs.deleteLocal (hi := pre + 2)).weaken fun _ i hi => ?_
    rw [hi, hn.2]
    simp
    omega
  | optional =>
    refine Refs.bind (Refs.checkedGiving rfl (by omega)) fun a n hn => (Refs.assert).weaken fun _ m hm => ?_
    rw [hm.1, hn]
    split <;> omega

/-- Converting a result leaves at most the one that is returned, and needs at most two at any time, however long a list is. -/
theorem C90_result_references {O : Oracle} (o : Out) (s t : St) (r : Except Stop Unit) (h : o.conv O s = (r, t)) :
    t.peak ≤ max s.peak (s.locals + 2) ∧ (r = .ok () → t.locals ≤ s.locals + 1) := by
  have := refs_conv (O := O) o s rfl (by omega)
  rw [h] at this
  exact ⟨this.1, fun e => this.2.2 () e⟩

theorem refs_result {O : Oracle} {pre : Nat} (r : Result) : Refs O r.conv pre (pre + 2) (fun _ _ => True) := by
  cases r with
  | value o => exact (refs_conv o).weaken fun _ _ _ => trivial
  | error nul =>
    show Refs O (do assert !nul; let _ ← call .throwNew; Pure.pure ()) _ _ _
    exact Refs.bind Refs.assert fun _ m hm => Refs.bind (Refs.plainCall (f := .throwNew) rfl (by decide)) fun _ _ _ => Refs.pure trivial

/-- An exported function whose Rust function calls no callback: besides one local reference for each callback argument at most two are in use at any time,
whatever the lengths of arrays and lists, and however many arguments there are. -/
theorem C90_function_references {O : Oracle} (args : List In) (r : Result) (s : St) :
    (native args (Pure.pure ()) r O s).2.peak ≤ max s.peak (s.locals + (args.filter fun a => match a with | .callback _ => true | _ => false).length + 2) := by
  have hk : (args.map In.keeps).sum = (args.filter fun a => match a with | .callback _ => true | _ => false).length := by
    induction args with
    | nil => rfl
    | cons a as ih => cases a <;> simp_all [In.keeps]; omega
  rw [← hk]
  have hr : Refs O (do (Pure.pure () : M Unit); r.conv) (s.locals + (args.map In.keeps).sum) (s.locals + (args.map In.keeps).sum + 2) (fun _ _ => True) := by
    refine Refs.bind (x := (Pure.pure () : M Unit)) (f := fun _ => r.conv) (Refs.pure (post := fun _ n => n = s.locals + (args.map In.keeps).sum) rfl) fun _ n hn => ?_
    subst hn
    exact refs_result r
  exact (refs_withAll args s.locals (by omega) hr s rfl (by omega)).1

/-- Unlike these, the local references of a callback's arguments stay until the exported function that calls it returns, or for ever on a thread that was not
started by Java: after `k` calls with a string there are `k`, so no number is enough for all programs. -/
theorem C90_finding_callback_references_pile_up {O : Oracle} (hO : ∀ n f, (O n f).null = false ∧ (O n f).throws = false) (k : Nat) (s : St)
    (hs : s.pending = false) : ∃ t, times k (callback [.string] (Pure.pure ())) O s = (.ok (), t) ∧ t.locals = s.locals + k ∧ t.pending = false := by
  induction k generalizing s with
  | zero => exact ⟨s, rfl, rfl, hs⟩
  | succ k ih =>
    have h1 : ∃ t, callback [.string] (Pure.pure ()) O s = (.ok (), t) ∧ t.locals = s.locals + 1 ∧ t.pending = false := by
      simp [callback, callJava, Out.conv, toJString, bind_eq, M.andThen, call, check, Pure.pure, M.ret, Fn.givesLocal, hO, hs]
    obtain ⟨t, ht, hl, hp⟩ := h1
    obtain ⟨u, hu, hl2, hp2⟩ := ih t hp
    refine ⟨u, ?_, by omega, hp2⟩
    show M.andThen (callback [.string] (Pure.pure ())) (fun _ => times k (callback [.string] (Pure.pure ()))) O s = _
    unfold M.andThen
    rw [ht]
    exact hu

/-! ## C90: where the rules are broken -/

/-- If there is no memory for a copy of an array (`GetIntArrayElements` and the like throw then), the native code still calls `GetArrayLength`, which must not be
called with an exception pending. -/
theorem C90_finding_array_without_memory {O : Oracle} (s : St) (ht : (O s.answered .getElements).throws = true) :
    (native [.array false] (Pure.pure ()) (.value .plain) O s).2.bad = true := by
  simp [native, withAll, In.with, withArray, Result.conv, Out.conv, assert, call, Fn.always, acquire, release, finally', bind_eq, M.andThen, Pure.pure, M.ret, ht]

/-- If there is no memory for a string argument of a callback, the Java method is called with the exception pending. -/
theorem C90_finding_string_argument_without_memory {O : Oracle} (s : St) (ht : (O s.answered .newString).throws = true) :
    (callback [.string] (Pure.pure ()) O s).2.bad = true := by
  cases hx : (O (s.answered + 2) .exceptionCheck).throws <;>
  simp [callback, callJava, Out.conv, toJString, bind_eq, M.andThen, call, check, Pure.pure, M.ret, Fn.givesLocal, Fn.always, ht]

/-! ## Examples -/

/-- Java methods always throw, arrays have three elements. -/
def throwing : Oracle := fun _ f => { null := false, throws := f == .callMethod, num := 3 }

example : Lawful throwing := by
  intro n f
  cases f <;> simp [throwing, Fn.mayThrow, Fn.nullOnThrow]

example : Readable throwing := fun _ => ⟨rfl, rfl⟩

/-- Java calls an exported function with a string, an array of numbers, an array of objects and a callback; the function calls the callback twice, with an object
and a list of strings; the callback calls another exported function, which fails, and then throws. -/
def nested : M Unit := do
  fromJava (native [.string false true, .array false, .objects true, .callback 2]
    (do callback [.object, .strings 2] (do fromJava (native [.string false true] (Pure.pure ()) (.error false)); javaNext (Pure.pure ()))
        (do callback [.plain] (Pure.pure ()); Pure.pure ())) (.value (.objects 4)))
  javaNext (Pure.pure ())

example : Code (fun o => o ≠ .string) nested :=
  .native _ _ _ _ (.callback _ _ _ (by decide) (.native _ _ _ _ .done .done) (.callback _ _ _ (by decide) .done .done)) .done

/-- It ends with nothing broken; at most five local references were in use. -/
example : (match nested throwing { answered := 0, pending := false, bad := false, held := [], fresh := 0, twice := false, locals := 0, peak := 0 } with
    | (.ok _, t) => (t.pending, t.bad, t.held, t.twice, t.locals, t.peak, t.fresh)
    | (.error _, _) => (true, true, [], true, 0, 0, 0)) = (false, false, [], false, 0, 5, 3) := by decide +kernel

end Flapi.JniRules
