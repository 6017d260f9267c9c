import Verif.Java.Pending
/-!
# C90: exceptions, buffers and local references under any behaviour of the Java machine
-/
namespace Flapi.JniRules

/-! ## Specification -/

/-- Functions of which the JNI specification says that they can throw. -/
def Fn.mayThrow : Fn → Bool
  | .newString | .newArray | .newObjectArray | .allocObject | .getMethodId | .callMethod | .callStatic | .throwNew | .setObjectElement | .getObjectElement
  | .setRegion | .getStringChars | .getElements => true
  | _ => false

/-- Functions that return null if they throw. -/
def Fn.nullOnThrow : Fn → Bool
  | .newString | .newArray | .newObjectArray | .allocObject | .getMethodId => true
  | _ => false

/-- The Java machine follows the JNI specification. -/
def Lawful (O : Oracle) : Prop := ∀ n f, (O n f).throws = true → f.mayThrow = true ∧ (f.nullOnThrow = true → (O n f).null = true)

/-- The contents of strings and arrays can always be had. -/
def Readable (O : Oracle) : Prop := ∀ n, (O n .getStringChars).throws = false ∧ (O n .getElements).throws = false

/-- Functions that the JNI specification (chapter 2, "Exceptions and Error Codes") allows while an exception is pending, as far as they are used. -/
def allowedWhilePending : List Fn :=
  [.exceptionDescribe, .exceptionClear, .exceptionCheck, .releaseStringChars, .releaseElements, .deleteLocalRef, .deleteGlobalRef]

mutual
/-- What a Rust function can do: nothing, panic, call Java methods of callbacks (with arguments that satisfy `ok`), decide by what these returned. -/
inductive Body (ok : Out → Prop) : M Unit → Prop
  | done : Body ok (pure ())
  | panics : Body ok panic
  | callback (args : List Out) (java next : M Unit) : (∀ o ∈ args, ok o) → Code ok java → Body ok next → Body ok (do callback args java; next)
  | choose (f : Bool → M Unit) : (∀ b, Body ok (f b)) → Body ok (fun O s => f (O s.answered .callMethod).null O { s with answered := s.answered + 1 })
/-- What Java code can do: nothing, call exported functions, decide by what these returned. -/
inductive Code (ok : Out → Prop) : M Unit → Prop
  | done : Code ok (pure ())
  | native (args : List In) (body : M Unit) (r : Result) (next : M Unit) : Body ok body → Code ok next →
      Code ok (do fromJava (native args body r); javaNext next)
  | choose (f : Bool → M Unit) : (∀ b, Code ok (f b)) → Code ok (fun O s => f (O s.answered .callMethod).null O { s with answered := s.answered + 1 })
end

/-! ## Lemmas: exceptions -/

/-- Nothing is pending, no rule was broken. -/
def Clean (s : St) : Prop := s.pending = false ∧ s.bad = false

/-- Leaves nothing pending. -/
def Good (O : Oracle) (x : M α) : Prop := ∀ s, Clean s → (x O s).2.bad = false ∧ ∀ a, (x O s).1 = .ok a → Clean (x O s).2

/-- Breaks no rule, and may leave something pending. -/
def Last (O : Oracle) (x : M α) : Prop := ∀ s, Clean s → (x O s).2.bad = false

theorem bind_eq (x : M α) (f : α → M β) : (x >>= f) = M.andThen x f := rfl

theorem Good.last {O : Oracle} {x : M α} (h : Good O x) : Last O x := fun s hs => (h s hs).1

theorem Good.pure (O : Oracle) (a : α) : Good O (Pure.pure a : M α) := fun s hs => ⟨hs.2, fun _ _ => hs⟩

theorem Good.panic (O : Oracle) : Good O (JniRules.panic : M α) := fun s hs => ⟨hs.2, fun _ h => by cases h⟩

theorem Good.bind {O : Oracle} {x : M α} {f : α → M β} (hx : Good O x) (hf : ∀ a, Good O (f a)) : Good O (x >>= f) := by
  intro s hs
  obtain ⟨h1, h2⟩ := hx s hs
  rw [bind_eq]
  unfold M.andThen
  cases hx' : x O s with
  | mk r t =>
    rw [hx'] at h1 h2
    cases r with
    | error e => exact ⟨h1, fun _ h => by cases h⟩
    | ok a => exact hf a t (h2 a rfl)

theorem Last.bind {O : Oracle} {x : M α} {f : α → M β} (hx : Good O x) (hf : ∀ a, Last O (f a)) : Last O (x >>= f) := by
  intro s hs
  obtain ⟨h1, h2⟩ := hx s hs
  rw [bind_eq]
  unfold M.andThen
  cases hx' : x O s with
  | mk r t =>
    rw [hx'] at h1 h2
    cases r with
    | error e => exact h1
    | ok a => exact hf a t (h2 a rfl)

theorem Good.assert (O : Oracle) (b : Bool) : Good O (JniRules.assert b) := by
  cases b
  · exact Good.panic O
  · exact Good.pure O ()

theorem Good.callQuiet {O : Oracle} {f : Fn} (h : ∀ n, (O n f).throws = false) : Good O (call f) := by
  intro s hs
  obtain ⟨h1, h2⟩ := hs
  have hb : (call f O s).2.bad = false := by simp [call, h1, h2]
  refine ⟨hb, fun a _ => ⟨?_, hb⟩⟩
  simp only [call]
  cases f <;> simp [h1, h]

theorem Last.call (O : Oracle) (f : Fn) : Last O (JniRules.call f) := by
  intro s hs
  simp [JniRules.call, hs.1, hs.2]

theorem quiet {O : Oracle} (hl : Lawful O) {f : Fn} (h : f.mayThrow = false) (n : Nat) : (O n f).throws = false := by
  cases hc : (O n f).throws with
  | false => rfl
  | true => rw [(hl n f hc).1] at h; cases h

theorem Good.nonNull {O : Oracle} (hl : Lawful O) {f : Fn} (h : f.nullOnThrow = true ∨ f.mayThrow = false) : Good O (JniRules.nonNull f) := by
  intro s hs
  have hb := Last.call O f s hs
  simp only [JniRules.nonNull, bind_eq]
  unfold M.andThen
  simp only [JniRules.call] at hb ⊢
  cases hn : (O s.answered f).null with
  | true => exact ⟨hb, fun _ h => by cases h⟩
  | false =>
    have ht : (O s.answered f).throws = false := by
      rcases h with h | h
      · cases hc : (O s.answered f).throws with
        | false => rfl
        | true => rw [(hl _ _ hc).2 h] at hn; cases hn
      · exact quiet hl h _
    refine ⟨hb, fun _ _ => ⟨?_, hb⟩⟩
    cases f <;> simp [JniRules.assert, Pure.pure, M.ret, hs.1, ht]

theorem check_eq (O : Oracle) (s : St) : ∃ t, check O s = (.ok s.pending, t) ∧ t.pending = (s.pending || (O s.answered .exceptionCheck).throws) ∧ t.bad = s.bad := by
  refine ⟨_, rfl, rfl, ?_⟩
  simp [call, Fn.always]

theorem Good.checked {O : Oracle} (hl : Lawful O) (f : Fn) : Good O (JniRules.checked f) := by
  intro s hs
  have hb := Last.call O f s hs
  simp only [JniRules.checked, bind_eq]
  unfold M.andThen
  cases hc : JniRules.call f O s with
  | mk r t =>
    rw [hc] at hb
    have hr : r = .ok (O s.answered f) := by
      have := congrArg Prod.fst hc
      exact this.symm
    subst hr
    simp only
    obtain ⟨u, hu, hp, hb'⟩ := check_eq O t
    rw [hu]
    simp only
    cases htp : t.pending with
    | true => exact ⟨by show u.bad = false; rw [hb', hb], fun _ h => by cases h⟩
    | false =>
      refine ⟨by show u.bad = false; rw [hb', hb], fun _ _ => ⟨?_, by show u.bad = false; rw [hb', hb]⟩⟩
      show u.pending = false
      rw [hp, htp, quiet hl rfl]
      rfl

theorem Good.times {O : Oracle} {x : M Unit} (h : Good O x) : ∀ n, Good O (JniRules.times n x)
  | 0 => Good.pure O ()
  | n + 1 => Good.bind h fun _ => Good.times h n

theorem Good.deleteLocal {O : Oracle} (hl : Lawful O) (a : Ans) : Good O (JniRules.deleteLocal a) := by
  intro s hs
  have h := Good.callQuiet (O := O) (f := .deleteLocalRef) (fun n => quiet hl rfl n) s hs
  have hb : (JniRules.deleteLocal a O s).2.bad = false ∧ (JniRules.deleteLocal a O s).2.pending = (call .deleteLocalRef O s).2.pending := by
    simp only [JniRules.deleteLocal]
    cases hc : call .deleteLocalRef O s with
    | mk r t =>
      rw [hc] at h
      cases a.null <;> exact ⟨h.1, rfl⟩
  exact ⟨hb.1, fun _ _ => ⟨by rw [hb.2]; exact (h.2 _ rfl).1, hb.1⟩⟩

theorem Good.acquire (O : Oracle) : Good O acquire := fun _ hs => ⟨hs.2, fun _ _ => hs⟩

/-- What a destructor does may be done while an exception is pending. -/
def Quiet (O : Oracle) (x : M Unit) : Prop := ∀ s, (x O s).2.bad = s.bad ∧ (x O s).2.pending = s.pending ∧ (x O s).1 = .ok ()

theorem Quiet.releaseCall {O : Oracle} (hl : Lawful O) {f : Fn} (ha : f.always = true) (hm : f.mayThrow = false) (hn : f ≠ .exceptionClear) (b : Nat) :
    Quiet O (do let _ ← call f; release b) := by
  intro s
  refine ⟨?_, ?_, rfl⟩
  · show (s.bad || (s.pending && !f.always)) = s.bad
    simp [ha]
  · show (call f O s).2.pending = s.pending
    simp only [call]
    cases f <;> simp_all [quiet hl hm]

theorem Good.finally' {O : Oracle} {x : M α} {d : M Unit} (hx : Good O x) (hd : Quiet O d) : Good O (JniRules.finally' x d) := by
  intro s hs
  obtain ⟨h1, h2⟩ := hx s hs
  unfold JniRules.finally'
  cases hc : x O s with
  | mk r t =>
    rw [hc] at h1 h2
    obtain ⟨q1, q2, _⟩ := hd t
    cases r with
    | error e =>
      cases e with
      | panic => exact ⟨by show (d O t).2.bad = false; rw [q1]; exact h1, fun _ h => by cases h⟩
      | abort => exact ⟨h1, fun _ h => by cases h⟩
    | ok a => exact ⟨by show (d O t).2.bad = false; rw [q1]; exact h1, fun _ _ => ⟨by show (d O t).2.pending = false; rw [q2]; exact (h2 a rfl).1, by show (d O t).2.bad = false; rw [q1]; exact h1⟩⟩

theorem Last.finally' {O : Oracle} {x : M α} {d : M Unit} (hx : Last O x) (hd : Quiet O d) : Last O (JniRules.finally' x d) := by
  intro s hs
  have h1 := hx s hs
  unfold JniRules.finally'
  cases hc : x O s with
  | mk r t =>
    rw [hc] at h1
    obtain ⟨q1, _, _⟩ := hd t
    cases r with
    | error e =>
      cases e with
      | panic => show (d O t).2.bad = false; rw [q1]; exact h1
      | abort => exact h1
    | ok a => show (d O t).2.bad = false; rw [q1]; exact h1

theorem Good.onPanic {O : Oracle} {x : M α} (hx : Good O x) : Good O (JniRules.onPanic x (do let _ ← call .deleteGlobalRef; Pure.pure ())) := by
  intro s hs
  obtain ⟨h1, h2⟩ := hx s hs
  unfold JniRules.onPanic
  cases hc : x O s with
  | mk r t =>
    rw [hc] at h1 h2
    cases r with
    | error e =>
      cases e with
      | panic =>
        refine ⟨?_, fun _ h => by cases h⟩
        show (t.bad || (t.pending && !Fn.always .deleteGlobalRef)) = false
        rw [show t.bad = false from h1]
        simp [Fn.always]
      | abort => exact ⟨h1, fun _ h => by cases h⟩
    | ok a => exact ⟨h1, fun _ _ => h2 a rfl⟩

theorem good_fromJString {O : Oracle} (hl : Lawful O) (hr : Readable O) (null valid : Bool) : Good O (fromJString null valid) := by
  unfold fromJString
  split
  · exact Good.pure O ()
  · refine Good.bind (Good.callQuiet fun n => quiet hl rfl n) fun _ => Good.bind (Good.callQuiet fun n => (hr n).1) fun _ =>
      Good.bind (Good.acquire O) fun b => Good.finally' (Good.assert O valid) (Quiet.releaseCall hl rfl rfl (by decide) b)

theorem last_withArray {O : Oracle} (hl : Lawful O) (hr : Readable O) (null : Bool) {rest : M Unit} (h : Last O rest) : Last O (withArray null rest) := by
  unfold withArray
  refine Last.bind (Good.assert O _) fun _ => Last.bind (Good.callQuiet fun n => (hr n).2) fun _ => Last.bind (Good.acquire O) fun b =>
    Last.finally' (Last.bind (Good.callQuiet fun n => quiet hl rfl n) fun _ => h) (Quiet.releaseCall hl rfl rfl (by decide) b)

theorem good_fromElement {O : Oracle} (hl : Lawful O) (owner : Bool) : Good O (fromElement owner) :=
  Good.bind (Good.checked hl _) fun a => Good.bind (Good.callQuiet fun n => quiet hl rfl n) fun _ => Good.bind (Good.assert O owner) fun _ => Good.deleteLocal hl a

theorem good_fromObjectArray {O : Oracle} (hl : Lawful O) (owner : Bool) : Good O (fromObjectArray owner) :=
  Good.bind (Good.callQuiet fun n => quiet hl rfl n) fun a => Good.times (good_fromElement hl owner) a.num

theorem good_fromBoxed {O : Oracle} (hl : Lawful O) (null : Bool) : Good O (fromBoxed null) := by
  unfold fromBoxed
  split
  · exact Good.pure O ()
  · refine Good.bind (Good.callQuiet fun n => quiet hl rfl n) fun x => ?_
    split
    · exact Good.pure O ()
    · exact Good.bind (Good.checked hl _) fun _ => Good.deleteLocal hl x

theorem good_newCallback {O : Oracle} (hl : Lawful O) (n : Nat) : Good O (newCallback n) :=
  Good.bind (Good.nonNull hl (Or.inr rfl)) fun _ => Good.onPanic (Good.bind (Good.nonNull hl (Or.inr rfl)) fun _ =>
    Good.times (Good.bind (Good.nonNull hl (Or.inl rfl)) fun _ => Good.pure O ()) n)

theorem last_with {O : Oracle} (hl : Lawful O) (hr : Readable O) (a : In) {rest : M Unit} (h : Last O rest) : Last O (a.with rest) := by
  cases a with
  | plain => exact h
  | string null valid => exact Last.bind (good_fromJString hl hr null valid) fun _ => h
  | array null => exact last_withArray hl hr null h
  | objects owner => exact Last.bind (good_fromObjectArray hl owner) fun _ => h
  | boxed null => exact Last.bind (good_fromBoxed hl null) fun _ => h
  | callback n => exact Last.bind (good_newCallback hl n) fun _ => h

theorem last_withAll {O : Oracle} (hl : Lawful O) (hr : Readable O) {rest : M Unit} (h : Last O rest) : ∀ as : List In, Last O (withAll as rest)
  | [] => h
  | a :: as => last_with hl hr a (last_withAll hl hr h as)

theorem good_toElement {O : Oracle} (hl : Lawful O) : Good O toElement :=
  Good.bind (Good.nonNull hl (Or.inl rfl)) fun a => Good.bind (Good.checked hl _) fun _ => Good.bind (Good.checked hl _) fun _ => Good.deleteLocal hl a

theorem good_toStringElement {O : Oracle} (hl : Lawful O) : Good O toStringElement :=
  Good.bind (Good.nonNull hl (Or.inl rfl)) fun a => Good.bind (Good.checked hl _) fun _ => Good.deleteLocal hl a

theorem good_conv {O : Oracle} (hl : Lawful O) (o : Out) (hs : o = .string → ∀ n, (O n .newString).throws = false) : Good O o.conv := by
  cases o with
  | plain => exact Good.pure O ()
  | string => exact Good.bind (Good.callQuiet (hs rfl)) fun _ => Good.pure O ()
  | array => exact Good.bind (Good.nonNull hl (Or.inl rfl)) fun _ => Good.bind (Good.checked hl _) fun _ => Good.pure O ()
  | object => exact Good.bind (Good.nonNull hl (Or.inl rfl)) fun _ => Good.bind (Good.checked hl _) fun _ => Good.pure O ()
  | objects n => exact Good.bind (Good.nonNull hl (Or.inl rfl)) fun _ => Good.times (good_toElement hl) n
  | strings n => exact Good.bind (Good.nonNull hl (Or.inl rfl)) fun _ => Good.times (good_toStringElement hl) n
  | optional => exact Good.bind (Good.checked hl _) fun _ => Good.assert O _

theorem last_bindPure {O : Oracle} {x : M α} (h : Last O x) : Last O (do let _ ← x; Pure.pure ()) := by
  intro s hs
  have := h s hs
  rw [bind_eq]
  unfold M.andThen
  cases hc : x O s with
  | mk r t =>
    rw [hc] at this
    cases r <;> exact this

theorem last_result {O : Oracle} (hl : Lawful O) (r : Result) : Last O r.conv := by
  cases r with
  | error nul => exact Last.bind (Good.assert O _) fun _ => last_bindPure (Last.call O .throwNew)
  | value o =>
    cases o with
    | string => exact last_bindPure (Last.call O .newString)
    | _ => exact (good_conv hl _ (by intro h; cases h)).last

theorem good_forM {O : Oracle} {args : List Out} (h : ∀ o ∈ args, Good O o.conv) : Good O (args.forM Out.conv) := by
  induction args with
  | nil => exact Good.pure O ()
  | cons o args ih =>
    exact Good.bind (h o (List.mem_cons_self ..)) fun _ => ih fun o ho => h o (List.mem_cons_of_mem _ ho)

theorem good_callback {O : Oracle} (hl : Lawful O) {args : List Out} {java : M Unit} (h : ∀ o ∈ args, Good O o.conv) (hj : Last O java) :
    Good O (callback args java) := by
  refine Good.bind (good_forM h) fun _ => ?_
  intro s hs
  have h1 : (callJava java O s).2.bad = false := by
    have := hj { s with bad := s.bad || s.pending } ⟨hs.1, by simp [hs.1, hs.2]⟩
    unfold callJava
    cases hc : java O { s with bad := s.bad || s.pending } with
    | mk r t => rw [hc] at this; cases r <;> exact this
  rw [bind_eq]
  unfold M.andThen
  cases hc : callJava java O s with
  | mk r t =>
    rw [hc] at h1
    cases r with
    | error e => exact ⟨h1, fun _ h => by cases h⟩
    | ok a =>
      simp only [bind_eq]
      unfold M.andThen
      obtain ⟨u, hu, hp, hb⟩ := check_eq O t
      rw [hu]
      simp only
      rw [quiet hl rfl, Bool.or_false] at hp
      cases htp : t.pending with
      | false => exact ⟨by show u.bad = false; rw [hb]; exact h1, fun _ _ => ⟨by show u.pending = false; rw [hp, htp], by show u.bad = false; rw [hb]; exact h1⟩⟩
      | true =>
        have hub : u.bad = false := by rw [hb]; exact h1
        simp [bind_eq, M.andThen, call, Pure.pure, M.ret, Fn.always, hub, Clean]

mutual
theorem body_good {ok : Out → Prop} {O : Oracle} (hl : Lawful O) (hr : Readable O) (hs : ok .string → ∀ n, (O n .newString).throws = false) {x : M Unit} :
    Body ok x → Good O x
  | .done => Good.pure O ()
  | .panics => Good.panic O
  | .callback _ _ _ ha hj hn =>
    Good.bind (good_callback hl (fun o ho => good_conv hl o (fun e => hs (e ▸ ha o ho))) (code_last hl hr hs hj)) fun _ => body_good hl hr hs hn
  | .choose f hf => fun s hc => body_good hl hr hs (hf _) _ hc
theorem code_last {ok : Out → Prop} {O : Oracle} (hl : Lawful O) (hr : Readable O) (hs : ok .string → ∀ n, (O n .newString).throws = false) {x : M Unit} :
    Code ok x → Last O x
  | .done => (Good.pure O ()).last
  | .native args body r next hb hn => by
    intro s hc
    have h1 := last_withAll hl hr (Last.bind (body_good hl hr hs hb) fun _ => last_result hl r) args s hc
    have h2 : (fromJava (native args body r) O s).2.bad = false := by
      unfold fromJava native
      cases hx : withAll args (do body; r.conv) O s with
      | mk r t => rw [hx] at h1; cases r <;> exact h1
    rw [bind_eq]
    unfold M.andThen
    cases hx : fromJava (native args body r) O s with
    | mk q t =>
      rw [hx] at h2
      cases q with
      | error e => exact h2
      | ok a =>
        simp only
        unfold javaNext
        cases hp : t.pending with
        | false => simpa using code_last hl hr hs hn t ⟨hp, h2⟩
        | true =>
          simp only [if_true]
          split
          · exact h2
          · exact code_last hl hr hs hn _ ⟨rfl, h2⟩
  | .choose f hf => fun s hc => code_last hl hr hs (hf _) _ hc
end

/-! ## C90: exceptions -/

/-- With a Java machine that follows the JNI specification, in which the contents of strings and arrays can always be had, no Java program that calls exported
functions, which may call callbacks, which run Java code that may call exported functions, and so on, and with exceptions thrown by any of these at any time,
makes the native code call a JNI function that must not be called while an exception is pending.  `ok`: the arguments of callbacks; if strings are among them,
creating a string must not fail. -/
theorem C90_no_call_with_pending_exception {ok : Out → Prop} {O : Oracle} (hl : Lawful O) (hr : Readable O)
    (hs : ok .string → ∀ n, (O n .newString).throws = false) {code : M Unit} (hc : Code ok code) (s : St) (h1 : s.pending = false) (h2 : s.bad = false) :
    (code O s).2.bad = false :=
  code_last hl hr hs hc s ⟨h1, h2⟩

/-- If a callback returns to Rust then no exception is pending, whatever the Java method threw. -/
theorem C90_callback_leaves_no_exception {O : Oracle} (hl : Lawful O) (args : List Out) (java : M Unit) (s t : St) (a : Unit)
    (h : callback args java O s = (.ok a, t)) : t.pending = false := by
  unfold callback at h
  rw [bind_eq] at h
  unfold M.andThen at h
  cases h1 : args.forM Out.conv O s with
  | mk r1 t1 =>
    rw [h1] at h
    cases r1 with
    | error e => cases h
    | ok a1 =>
      simp only [bind_eq] at h
      unfold M.andThen at h
      cases h2 : callJava java O t1 with
      | mk r2 t2 =>
        rw [h2] at h
        cases r2 with
        | error e => cases h
        | ok a2 =>
          simp only at h
          obtain ⟨u, hu, hp, _⟩ := check_eq O t2
          rw [hu] at h
          simp only at h
          rw [quiet hl rfl, Bool.or_false] at hp
          cases htp : t2.pending with
          | false =>
            rw [htp] at h
            have e : u = t := (Prod.mk.injEq .. ▸ h : _ ∧ _).2
            rw [← e, hp, htp]
          | true =>
            rw [htp] at h
            have e := congrArg (fun p => p.2.pending) h
            exact e.symm

/-- How calls are judged: a rule is broken by a call if and only if an exception is pending and the function is not in the list of the JNI specification. -/
theorem C90_rule (O : Oracle) (f : Fn) (s : St) : (call f O s).2.bad = true ↔ s.bad = true ∨ (s.pending = true ∧ f ∉ allowedWhilePending) := by
  have h : f.always = true ↔ f ∈ allowedWhilePending := by cases f <;> decide
  have h' : f.always = false ↔ f ∉ allowedWhilePending := by rw [← h]; cases f.always <;> decide
  simp [call, h']

/-- What a Java method threw reaches the callback: it asks whether there is an exception, and if and only if the method threw one it prints and clears it (one
call for the method, one to ask, two more then). -/
theorem C90_callback_sees_exception {O : Oracle} (hl : Lawful O) (s : St) (hp : s.pending = false) :
    ∃ t, callback [] (Pure.pure ()) O s = (.ok (), t) ∧ t.pending = false ∧
      t.answered = s.answered + (if (O s.answered .callMethod).throws then 4 else 2) := by
  have hq : (O (s.answered + 1) .exceptionCheck).throws = false := quiet hl rfl _
  cases hx : (O s.answered .callMethod).throws <;>
  simp [callback, callJava, bind_eq, M.andThen, call, check, Pure.pure, M.ret, hp, hx, hq]

/-! ## Lemmas: buffers -/

/-- Buffers that were received are released once, unless the process ends. -/
def Frees (O : Oracle) (x : M α) : Prop := ∀ s, (x O s).1 ≠ .error .abort → (x O s).2.held = s.held ∧ (x O s).2.twice = s.twice

theorem Frees.pure (O : Oracle) (a : α) : Frees O (Pure.pure a : M α) := fun _ _ => ⟨rfl, rfl⟩

theorem Frees.panic (O : Oracle) : Frees O (JniRules.panic : M α) := fun _ _ => ⟨rfl, rfl⟩

theorem Frees.assert (O : Oracle) (b : Bool) : Frees O (JniRules.assert b) := by
  cases b
  · exact Frees.panic O
  · exact Frees.pure O ()

theorem Frees.call (O : Oracle) (f : Fn) : Frees O (JniRules.call f) := fun _ _ => ⟨rfl, rfl⟩

theorem Frees.bind {O : Oracle} {x : M α} {f : α → M β} (hx : Frees O x) (hf : ∀ a, Frees O (f a)) : Frees O (x >>= f) := by
  intro s
  have h := hx s
  rw [bind_eq]
  unfold M.andThen
  cases hc : x O s with
  | mk r t =>
    rw [hc] at h
    cases r with
    | error e => exact fun hn => h fun he => hn (by have := Except.error.inj he; subst this; rfl)
    | ok a =>
      intro hn
      obtain ⟨h1, h2⟩ := h (by intro e; cases e)
      obtain ⟨h3, h4⟩ := hf a t hn
      exact ⟨h3.trans h1, h4.trans h2⟩

theorem Frees.check (O : Oracle) : Frees O JniRules.check := fun _ _ => ⟨rfl, rfl⟩

theorem Frees.checked (O : Oracle) (f : Fn) : Frees O (JniRules.checked f) :=
  Frees.bind (Frees.call O f) fun _ => Frees.bind (Frees.check O) fun _ => Frees.bind (Frees.assert O _) fun _ => Frees.pure O _

theorem Frees.nonNull (O : Oracle) (f : Fn) : Frees O (JniRules.nonNull f) :=
  Frees.bind (Frees.call O f) fun _ => Frees.bind (Frees.assert O _) fun _ => Frees.pure O _

theorem Frees.times {O : Oracle} {x : M Unit} (h : Frees O x) : ∀ n, Frees O (JniRules.times n x)
  | 0 => Frees.pure O ()
  | n + 1 => Frees.bind h fun _ => Frees.times h n

theorem Frees.deleteLocal (O : Oracle) (a : Ans) : Frees O (JniRules.deleteLocal a) := by
  intro s _
  cases a with
  | mk n _ _ => cases n <;> exact ⟨rfl, rfl⟩

/-- A buffer is received, used, and released at the end of the scope. -/
theorem Frees.scope {O : Oracle} {x : M Unit} (f : Fn) (h : Frees O x) :
    Frees O (do let b ← acquire; JniRules.finally' x (do let _ ← JniRules.call f; release b)) := by
  intro s
  have hx := h { s with held := s.fresh :: s.held, fresh := s.fresh + 1 }
  show (JniRules.finally' x (do let _ ← JniRules.call f; release s.fresh) O { s with held := s.fresh :: s.held, fresh := s.fresh + 1 }).1 ≠ .error .abort → _ ∧ _
  change _ → (JniRules.finally' x (do let _ ← JniRules.call f; release s.fresh) O { s with held := s.fresh :: s.held, fresh := s.fresh + 1 }).2.held = s.held ∧
    (JniRules.finally' x (do let _ ← JniRules.call f; release s.fresh) O { s with held := s.fresh :: s.held, fresh := s.fresh + 1 }).2.twice = s.twice
  unfold JniRules.finally'
  cases hc : x O { s with held := s.fresh :: s.held, fresh := s.fresh + 1 } with
  | mk r t =>
    rw [hc] at hx
    have key : t.held = s.fresh :: s.held → t.twice = s.twice →
        ((do let _ ← JniRules.call f; release s.fresh : M Unit) O t).2.held = s.held ∧ ((do let _ ← JniRules.call f; release s.fresh : M Unit) O t).2.twice = s.twice := by
      intro h1 h2
      constructor
      · show t.held.erase s.fresh = s.held
        rw [h1, List.erase_cons_head]
      · show (t.twice || !t.held.contains s.fresh) = s.twice
        rw [h1, h2]
        simp
    cases r with
    | ok a =>
      intro _
      obtain ⟨h1, h2⟩ := hx (by intro e; cases e)
      exact key h1 h2
    | error e =>
      cases e with
      | panic =>
        intro _
        obtain ⟨h1, h2⟩ := hx (by intro e; cases e)
        exact key h1 h2
      | abort => exact fun hn => absurd rfl hn

theorem frees_fromJString (O : Oracle) (null valid : Bool) : Frees O (fromJString null valid) := by
  unfold fromJString
  split
  · exact Frees.pure O ()
  · exact Frees.bind (Frees.call O _) fun _ => Frees.bind (Frees.call O _) fun _ => Frees.scope _ (Frees.assert O valid)

theorem frees_withArray {O : Oracle} (null : Bool) {rest : M Unit} (h : Frees O rest) : Frees O (withArray null rest) :=
  Frees.bind (Frees.assert O _) fun _ => Frees.bind (Frees.call O _) fun _ => Frees.scope _ (Frees.bind (Frees.call O _) fun _ => h)

theorem frees_fromBoxed (O : Oracle) (null : Bool) : Frees O (fromBoxed null) := by
  unfold fromBoxed
  split
  · exact Frees.pure O ()
  · refine Frees.bind (Frees.call O _) fun x => ?_
    split
    · exact Frees.pure O ()
    · exact Frees.bind (Frees.checked O _) fun _ => Frees.deleteLocal O x

theorem frees_onPanic {O : Oracle} {x : M α} {d : M Unit} (h : Frees O x) (hd : ∀ s, (d O s).2.held = s.held ∧ (d O s).2.twice = s.twice) :
    Frees O (JniRules.onPanic x d) := by
  intro s
  have hx := h s
  unfold JniRules.onPanic
  cases hc : x O s with
  | mk r t =>
    rw [hc] at hx
    cases r with
    | ok a => exact fun _ => hx (by intro e; cases e)
    | error e =>
      cases e with
      | panic =>
        intro _
        obtain ⟨h1, h2⟩ := hx (by intro e; cases e)
        exact ⟨(hd t).1.trans h1, (hd t).2.trans h2⟩
      | abort => exact fun hn => absurd rfl hn

theorem frees_with {O : Oracle} (a : In) {rest : M Unit} (h : Frees O rest) : Frees O (a.with rest) := by
  cases a with
  | plain => exact h
  | string null valid => exact Frees.bind (frees_fromJString O null valid) fun _ => h
  | array null => exact frees_withArray null h
  | objects owner =>
    exact Frees.bind (Frees.bind (Frees.call O _) fun a => Frees.times (Frees.bind (Frees.checked O _) fun a => Frees.bind (Frees.call O _) fun _ =>
      Frees.bind (Frees.assert O owner) fun _ => Frees.deleteLocal O a) a.num) fun _ => h
  | boxed null => exact Frees.bind (frees_fromBoxed O null) fun _ => h
  | callback n =>
    exact Frees.bind (Frees.bind (Frees.nonNull O _) fun _ => frees_onPanic (Frees.bind (Frees.nonNull O _) fun _ =>
      Frees.times (Frees.bind (Frees.nonNull O _) fun _ => Frees.pure O ()) n) fun _ => ⟨rfl, rfl⟩) fun _ => h

theorem frees_withAll {O : Oracle} {rest : M Unit} (h : Frees O rest) : ∀ as : List In, Frees O (withAll as rest)
  | [] => h
  | a :: as => frees_with a (frees_withAll h as)

theorem frees_conv (O : Oracle) (o : Out) : Frees O o.conv := by
  cases o with
  | plain => exact Frees.pure O ()
  | string => exact Frees.bind (Frees.call O _) fun _ => Frees.pure O ()
  | array => exact Frees.bind (Frees.nonNull O _) fun _ => Frees.bind (Frees.checked O _) fun _ => Frees.pure O ()
  | object => exact Frees.bind (Frees.nonNull O _) fun _ => Frees.bind (Frees.checked O _) fun _ => Frees.pure O ()
  | objects n =>
    exact Frees.bind (Frees.nonNull O _) fun _ => Frees.times (Frees.bind (Frees.nonNull O _) fun a => Frees.bind (Frees.checked O _) fun _ =>
      Frees.bind (Frees.checked O _) fun _ => Frees.deleteLocal O a) n
  | strings n =>
    exact Frees.bind (Frees.nonNull O _) fun _ => Frees.times (Frees.bind (Frees.nonNull O _) fun a => Frees.bind (Frees.checked O _) fun _ => Frees.deleteLocal O a) n
  | optional => exact Frees.bind (Frees.checked O _) fun _ => Frees.assert O _

theorem frees_result (O : Oracle) (r : Result) : Frees O r.conv := by
  cases r with
  | value o => exact frees_conv O o
  | error nul => exact Frees.bind (Frees.assert O _) fun _ => Frees.bind (Frees.call O _) fun _ => Frees.pure O ()

theorem frees_forM (O : Oracle) (args : List Out) : Frees O (args.forM Out.conv) := by
  induction args with
  | nil => exact Frees.pure O ()
  | cons o args ih => exact Frees.bind (frees_conv O o) fun _ => ih

theorem frees_callJava {O : Oracle} {java : M Unit} (h : Frees O java) : Frees O (callJava java) := by
  intro s
  have hx := h { s with bad := s.bad || s.pending }
  unfold callJava
  cases hc : java O { s with bad := s.bad || s.pending } with
  | mk r t =>
    rw [hc] at hx
    cases r with
    | ok a => exact fun _ => hx (by intro e; cases e)
    | error e => exact fun hn => hx fun he => hn (by have := Except.error.inj he; subst this; rfl)

theorem frees_callback {O : Oracle} (args : List Out) {java : M Unit} (h : Frees O java) : Frees O (callback args java) := by
  refine Frees.bind (frees_forM O args) fun _ => Frees.bind (frees_callJava h) fun _ => Frees.bind (Frees.check O) fun b => ?_
  cases b
  · exact Frees.pure O ()
  · exact Frees.bind (Frees.call O _) fun _ => Frees.bind (Frees.call O _) fun _ => Frees.pure O ()

mutual
theorem body_frees {ok : Out → Prop} (O : Oracle) {x : M Unit} : Body ok x → Frees O x
  | .done => Frees.pure O ()
  | .panics => Frees.panic O
  | .callback args _ _ _ hj hn => Frees.bind (frees_callback args (code_frees O hj)) fun _ => body_frees O hn
  | .choose _ hf => fun s => body_frees O (hf _) _
theorem code_frees {ok : Out → Prop} (O : Oracle) {x : M Unit} : Code ok x → Frees O x
  | .done => Frees.pure O ()
  | .native args body r next hb hn => by
    have h1 : Frees O (native args body r) := frees_withAll (Frees.bind (body_frees O hb) fun _ => frees_result O r) args
    refine Frees.bind ?_ fun _ => ?_
    · intro s
      have h := h1 s
      unfold fromJava
      cases hx : native args body r O s with
      | mk q t =>
        rw [hx] at h
        cases q with
        | ok a => exact fun _ => h (by intro e; cases e)
        | error e => exact fun hn => absurd rfl hn
    · intro s
      have hn' := code_frees O hn
      unfold javaNext
      split
      · split
        · exact fun _ => ⟨rfl, rfl⟩
        · exact hn' { s with answered := s.answered + 1, pending := false }
      · exact hn' s
  | .choose _ hf => fun s => code_frees O (hf _) _
end

/-! ## C90: buffers -/

/-- Whatever the Java machine does (it need not even follow the specification), and whatever a Java program does with exported functions and callbacks: if the
process goes on, then every buffer of a string or array that the native code received was released, and none twice. -/
theorem C90_buffers_released {ok : Out → Prop} (O : Oracle) {code : M Unit} (hc : Code ok code) (s t : St) (a : Unit) (h : code O s = (.ok a, t)) :
    t.held = s.held ∧ t.twice = s.twice := by
  have := code_frees O hc s (by rw [h]; intro e; cases e)
  rw [h] at this
  exact this

/-- This also holds when an exported function panics, at the time the panic reaches the border to Java (it has run the destructors). -/
theorem C90_buffers_released_on_panic {ok : Out → Prop} (O : Oracle) (args : List In) {body : M Unit} (hb : Body ok body) (r : Result) (s t : St)
    (h : native args body r O s = (.error .panic, t)) : t.held = s.held ∧ t.twice = s.twice := by
  have := frees_withAll (Frees.bind (body_frees O hb) fun _ => frees_result O r) args s
  have h' : withAll args (do body; r.conv) O s = (.error .panic, t) := h
  rw [h'] at this
  exact this (by intro e; cases e)

end Flapi.JniRules
