import Verif.Java.StringsProps
/-!
# Arrays and lists cross the JNI border element by element (C55)
-/
namespace Flapi.Jni
variable {T : Type}

/-! ## Specification -/

/-- The Java array at `a` holds one string per text of `l`, in order, each the UTF-16 form of that text. -/
def HoldsStrings (s : Jvm T) (a : Nat) (l : List Text) : Prop :=
  ∃ es, s.heap[a]? = some (.arr es) ∧ es.length = l.length ∧
    ∀ (j : Nat) (x : Text), l[j]? = some x → ∃ (o : Nat) (u : List Nat), es[j]? = some (some o) ∧ s.heap[o]? = some (.str u) ∧ Utf16 u x

/-- The Java array at `a` holds one wrapper per object of `l`, in order, each pointing to that object. -/
def HoldsObjects (s : Jvm T) (a : Nat) (l : List T) : Prop :=
  ∃ es, s.heap[a]? = some (.arr es) ∧ es.length = l.length ∧
    ∀ (j : Nat) (x : T), l[j]? = some x → ∃ (o n : Nat), es[j]? = some (some o) ∧ s.heap[o]? = some (.obj (n + 1)) ∧ s.natives[n]? = some x

/-- Two states agree on everything that existed before (the Rust objects included), apart from local references. -/
def ExtendsAll (s s' : Jvm T) : Prop :=
  (∀ a, a < s.heap.length → s'.heap[a]? = s.heap[a]?) ∧ s'.pins = s.pins ∧ s.natives <+: s'.natives

/-! ## Lemmas -/

theorem assert_true (s : Jvm T) : assert true s = .ok ((), s) := rfl

theorem assert_false (s : Jvm T) : assert false s = .panic := rfl

theorem bind_panic {α β : Type} (x : M T α) (f : α → M T β) (s : Jvm T) (h : x s = .panic) : (x >>= f) s = .panic := by
  change M.bind x f s = _
  rw [M.bind, h]

theorem bind_crash {α β : Type} (x : M T α) (f : α → M T β) (s : Jvm T) (h : x s = .crash) : (x >>= f) s = .crash := by
  change M.bind x f s = _
  rw [M.bind, h]

theorem newArray_ok (mk : Nat → JObj) (n : Nat) (s : Jvm T) :
    newArray mk (n : Int) s = .ok (some s.heap.length, addLocal { s with heap := s.heap ++ [mk n] } s.heap.length) := by
  unfold newArray
  rw [if_neg (by omega), alloc_ok]
  simp

theorem setElement_ok (a i : Nat) (v : Option Nat) (s : Jvm T) (es : List (Option Nat)) (h : s.heap[a]? = some (.arr es)) (hi : i < es.length) :
    setElement a (i : Int) v s = .ok (false, { s with heap := s.heap.set a (.arr (es.set i v)) }) := by
  unfold setElement
  rw [h]
  simp [hi]

theorem setElement_fail (a : Nat) (i : Int) (v : Option Nat) (s : Jvm T) (es : List (Option Nat)) (h : s.heap[a]? = some (.arr es))
    (hi : ¬ (0 ≤ i ∧ i.toNat < es.length)) : setElement a i v s = .ok (true, s) := by
  unfold setElement
  rw [h]
  simp only [hi, if_false]

theorem get_lt {α : Type} {l : List α} {i : Nat} {x : α} (h : l[i]? = some x) : i < l.length := by
  rw [List.getElem?_eq_some_iff] at h
  exact h.1

/-- State after one step of `fillStrings`. -/
theorem fillStrings_step (arr i : Nat) (x : Text) (l : List Text) (s : Jvm T) (es : List (Option Nat)) (h : s.heap[arr]? = some (.arr es))
    (hi : i < es.length) (hlen : es.length < 2147483648) (hx : (encodeUtf16 x).length < 2147483648) :
    fillStrings arr i (x :: l) s = fillStrings arr (i + 1) l
      { s with heap := (s.heap ++ [JObj.str (encodeUtf16 x)]).set arr (.arr (es.set i (some s.heap.length))),
               peak := max s.peak (s.locals.length + 1) } := by
  have hlt := get_lt h
  rw [fillStrings, bind_ok _ _ _ _ _ (fromStdStr_ok x s hx), bind_ok _ _ _ _ _ (show notNull _ _ = .ok (_, _) from rfl)]
  rw [asJsize_small i (by omega)]
  rw [bind_ok _ _ _ _ _ (setElement_ok arr i (some s.heap.length) _ es ((List.getElem?_append_left hlt).trans h) hi)]
  rw [Bool.not_false, bind_ok _ _ _ _ _ (assert_true _), bind_ok _ _ _ _ _ (show deleteLocalRef _ _ = .ok (_, _) from rfl)]
  simp only [addLocal, erase_self]

theorem fillStrings_ok (arr i : Nat) (l : List Text) (s : Jvm T) (es : List (Option Nat)) (h : s.heap[arr]? = some (.arr es))
    (hi : i + l.length ≤ es.length) (hlen : es.length < 2147483648) (hx : ∀ x ∈ l, (encodeUtf16 x).length < 2147483648) :
    ∃ (s' : Jvm T) (es' : List (Option Nat)), fillStrings arr i l s = .ok ((), s') ∧ s'.locals = s.locals ∧ s'.pins = s.pins ∧ s'.natives = s.natives ∧
      s'.peak ≤ max s.peak (s.locals.length + 1) ∧ (∀ a, a < s.heap.length → a ≠ arr → s'.heap[a]? = s.heap[a]?) ∧
      s'.heap[arr]? = some (.arr es') ∧ es'.length = es.length ∧ (∀ j, j < i → es'[j]? = es[j]?) ∧
      ∀ (j : Nat) (x : Text), l[j]? = some x → ∃ o, es'[i + j]? = some (some o) ∧ s'.heap[o]? = some (.str (encodeUtf16 x)) := by
  induction l generalizing i s es with
  | nil =>
    exact ⟨s, es, rfl, rfl, rfl, rfl, by omega, fun _ _ _ => rfl, h, rfl, fun _ _ => rfl, by simp⟩
  | cons x l ih =>
    have hlt := get_lt h
    have hi' : i < es.length := by simp only [List.length_cons] at hi; omega
    rw [fillStrings_step arr i x l s es h hi' hlen (hx x (by simp))]
    generalize hs1 : ({ s with heap := (s.heap ++ [JObj.str (encodeUtf16 x)]).set arr (.arr (es.set i (some s.heap.length))),
                               peak := max s.peak (s.locals.length + 1) } : Jvm T) = s1
    have e1 : s1.heap[arr]? = some (.arr (es.set i (some s.heap.length))) := by
      rw [← hs1]
      simp only [List.getElem?_set_self', List.getElem?_append, hlt, if_true, h]
      rfl
    have e2 : s1.heap.length = s.heap.length + 1 := by rw [← hs1]; simp
    have e3 : ∀ a, a ≠ arr → s1.heap[a]? = (s.heap ++ [JObj.str (encodeUtf16 x)])[a]? := by
      intro a ha
      rw [← hs1]
      simp only
      rw [List.getElem?_set_ne (Ne.symm ha)]
    obtain ⟨s', es', h1, h2, h3, h4, h5, h6, h7, h8, h9, h10⟩ := ih (i + 1) s1 (es.set i (some s.heap.length)) e1
      (by simp only [List.length_set, List.length_cons] at hi ⊢; omega) (by simpa using hlen) (fun y hy => hx y (by simp [hy]))
    refine ⟨s', es', h1, ?_, ?_, ?_, ?_, ?_, h7, by simpa using h8, ?_, ?_⟩
    · rw [h2, ← hs1]
    · rw [h3, ← hs1]
    · rw [h4, ← hs1]
    · rw [← hs1] at h5; simp only at h5; omega
    · intro a ha hne
      rw [h6 a (by omega) hne, e3 a hne, List.getElem?_append_left ha]
    · intro j hj
      rw [h9 j (by omega), List.getElem?_set_ne (by omega)]
    · intro j y hy
      cases j with
      | zero =>
        simp only [List.getElem?_cons_zero, Option.some.injEq] at hy
        subst hy
        refine ⟨s.heap.length, ?_, ?_⟩
        · rw [Nat.add_zero, h9 i (by omega), List.getElem?_set_self hi']
        · rw [h6 _ (by omega) (by omega), e3 _ (by omega)]
          simp
      | succ j =>
        obtain ⟨o, ho1, ho2⟩ := h10 j y (by simpa using hy)
        exact ⟨o, by rw [← ho1]; congr 1; omega, ho2⟩

theorem fillObjects_step (arr i : Nat) (x : T) (l : List T) (s : Jvm T) (es : List (Option Nat)) (h : s.heap[arr]? = some (.arr es))
    (hi : i < es.length) (hlen : es.length < 2147483648) :
    fillObjects arr i (x :: l) s = fillObjects arr (i + 1) l
      { s with heap := (s.heap ++ [JObj.obj (s.natives.length + 1)]).set arr (.arr (es.set i (some s.heap.length))),
               natives := s.natives ++ [x], peak := max s.peak (s.locals.length + 1) } := by
  have hlt := get_lt h
  have hset : setLongField s.heap.length (s.natives.length + 1)
      ({ addLocal { s with heap := s.heap ++ [JObj.obj 0] } s.heap.length with natives := s.natives ++ [x] } : Jvm T) =
      .ok ((), { addLocal { s with heap := s.heap ++ [JObj.obj (s.natives.length + 1)] } s.heap.length with natives := s.natives ++ [x] }) := by
    unfold setLongField
    simp [addLocal]
  rw [fillObjects, bind_ok _ _ _ _ _ (alloc_ok _ s), bind_ok _ _ _ _ _ (show boxObject _ _ = .ok (_, _) from rfl)]
  refine (bind_ok _ _ _ _ _ hset).trans ?_
  rw [asJsize_small i (by omega)]
  rw [bind_ok _ _ _ _ _ (setElement_ok arr i (some s.heap.length) _ es ((List.getElem?_append_left hlt).trans h) hi)]
  rw [Bool.not_false, bind_ok _ _ _ _ _ (assert_true _), bind_ok _ _ _ _ _ (show deleteLocalRef _ _ = .ok (_, _) from rfl)]
  simp only [addLocal, erase_self]

theorem fillObjects_ok (arr i : Nat) (l : List T) (s : Jvm T) (es : List (Option Nat)) (h : s.heap[arr]? = some (.arr es))
    (hi : i + l.length ≤ es.length) (hlen : es.length < 2147483648) :
    ∃ (s' : Jvm T) (es' : List (Option Nat)), fillObjects arr i l s = .ok ((), s') ∧ s'.locals = s.locals ∧ s'.pins = s.pins ∧ s'.natives = s.natives ++ l ∧
      s'.peak ≤ max s.peak (s.locals.length + 1) ∧ (∀ a, a < s.heap.length → a ≠ arr → s'.heap[a]? = s.heap[a]?) ∧
      s'.heap[arr]? = some (.arr es') ∧ es'.length = es.length ∧ (∀ j, j < i → es'[j]? = es[j]?) ∧
      ∀ (j : Nat), j < l.length → ∃ o, es'[i + j]? = some (some o) ∧ s'.heap[o]? = some (.obj (s.natives.length + j + 1)) := by
  induction l generalizing i s es with
  | nil =>
    exact ⟨s, es, rfl, rfl, rfl, by simp, by omega, fun _ _ _ => rfl, h, rfl, fun _ _ => rfl, by simp⟩
  | cons x l ih =>
    have hlt := get_lt h
    have hi' : i < es.length := by simp only [List.length_cons] at hi; omega
    rw [fillObjects_step arr i x l s es h hi' hlen]
    generalize hs1 : ({ s with heap := (s.heap ++ [JObj.obj (s.natives.length + 1)]).set arr (.arr (es.set i (some s.heap.length))),
                               natives := s.natives ++ [x], peak := max s.peak (s.locals.length + 1) } : Jvm T) = s1
    have e1 : s1.heap[arr]? = some (.arr (es.set i (some s.heap.length))) := by
      rw [← hs1]
      simp only [List.getElem?_set_self', List.getElem?_append, hlt, if_true, h]
      rfl
    have e2 : s1.heap.length = s.heap.length + 1 := by rw [← hs1]; simp
    have e3 : ∀ a, a ≠ arr → s1.heap[a]? = (s.heap ++ [JObj.obj (s.natives.length + 1)])[a]? := by
      intro a ha
      rw [← hs1]
      simp only
      rw [List.getElem?_set_ne (Ne.symm ha)]
    have e4 : s1.natives = s.natives ++ [x] := by rw [← hs1]
    obtain ⟨s', es', h1, h2, h3, h4, h5, h6, h7, h8, h9, h10⟩ := ih (i + 1) s1 (es.set i (some s.heap.length)) e1
      (by simp only [List.length_set, List.length_cons] at hi ⊢; omega) (by simpa using hlen)
    refine ⟨s', es', h1, ?_, ?_, ?_, ?_, ?_, h7, by simpa using h8, ?_, ?_⟩
    · rw [h2, ← hs1]
    · rw [h3, ← hs1]
    · rw [h4, e4]; simp
    · rw [← hs1] at h5; simp only at h5; omega
    · intro a ha hne
      rw [h6 a (by omega) hne, e3 a hne, List.getElem?_append_left ha]
    · intro j hj
      rw [h9 j (by omega), List.getElem?_set_ne (by omega)]
    · intro j hj
      cases j with
      | zero =>
        refine ⟨s.heap.length, ?_, ?_⟩
        · rw [Nat.add_zero, h9 i (by omega), List.getElem?_set_self hi']
        · rw [h6 _ (by omega) (by omega), e3 _ (by omega)]
          simp
      | succ j =>
        obtain ⟨o, ho1, ho2⟩ := h10 j (by simpa using hj)
        refine ⟨o, by rw [← ho1]; congr 1; omega, ?_⟩
        rw [ho2, e4]
        simp only [List.length_append, List.length_cons, List.length_nil]
        congr 2; omega

/-- Too long a list of strings: the position `n mod 2³²` cannot be stored. -/
theorem fillStrings_panic (arr i : Nat) (l : List Text) (s : Jvm T) (es : List (Option Nat)) (h : s.heap[arr]? = some (.arr es))
    (hi : es.length < i + l.length) (hie : i ≤ es.length) (hlen : es.length < 2147483648) (hx : ∀ x ∈ l, (encodeUtf16 x).length < 2147483648) :
    fillStrings arr i l s = .panic := by
  induction l generalizing i s es with
  | nil => simp only [List.length_nil] at hi; omega
  | cons x l ih =>
    have hlt := get_lt h
    by_cases hi' : i < es.length
    · rw [fillStrings_step arr i x l s es h hi' hlen (hx x (by simp))]
      refine ih (i + 1) _ (es.set i (some s.heap.length)) ?_ ?_ ?_ ?_ (fun y hy => hx y (by simp [hy]))
      · simp only [List.getElem?_set_self', List.getElem?_append, hlt, if_true, h]
        rfl
      · simp only [List.length_set, List.length_cons] at hi ⊢; omega
      · simp only [List.length_set]; omega
      · simpa using hlen
    · rw [fillStrings, bind_ok _ _ _ _ _ (fromStdStr_ok x s (hx x (by simp))), bind_ok _ _ _ _ _ (show notNull _ _ = .ok (_, _) from rfl)]
      have hf := setElement_fail arr (asJsize i) (some s.heap.length)
        (addLocal { s with heap := s.heap ++ [JObj.str (encodeUtf16 x)] } s.heap.length) es
        ((List.getElem?_append_left hlt).trans h)
        (by
          rw [asJsize_small i (by omega)]
          omega)
      rw [bind_ok _ _ _ _ _ hf]
      exact bind_panic _ _ _ rfl

/-! ## C55: strings -/

/-- **C55**: a list of Rust strings becomes a Java array of as many strings, the same ones in the same order; nothing else on the Java side
changes, the only local reference left open is the array, and never more than two are open on the way, however long the list is. -/
theorem C55_strings (l : List Text) (s : Jvm T) (hl : l.length < 2147483648) (hx : ∀ x ∈ l, ∀ u, Utf16 u x → u.length < 2147483648) :
    ∃ (a : Nat) (s' : Jvm T), vecStringToArray l s = .ok (a, s') ∧ HoldsStrings s' a l ∧ Extends s s' ∧ s'.locals = a :: s.locals ∧
      s'.peak ≤ max s.peak (s.locals.length + 2) := by
  unfold vecStringToArray
  rw [asJsize_small _ hl, bind_ok _ _ _ _ _ (newArray_ok _ l.length s), bind_ok _ _ _ _ _ (show notNull _ _ = .ok (_, _) from rfl)]
  obtain ⟨s', es', h1, h2, h3, h4, h5, h6, h7, h8, _, h10⟩ := fillStrings_ok s.heap.length 0 l
    (addLocal { s with heap := s.heap ++ [JObj.arr (List.replicate l.length none)] } s.heap.length) (List.replicate l.length none)
    (by simp [addLocal]) (by simp) (by simpa using hl) (fun x hxl => hx x hxl _ (encode_spec x))
  refine ⟨s.heap.length, s', ?_, ⟨es', h7, by simpa using h8, ?_⟩, ⟨?_, h3, h4⟩, h2, ?_⟩
  · rw [bind_ok _ _ _ _ _ h1]; rfl
  · intro j x hj
    obtain ⟨o, ho1, ho2⟩ := h10 j x hj
    exact ⟨o, _, by simpa using ho1, ho2, encode_spec x⟩
  · intro a ha
    rw [h6 a (by simp [addLocal]; omega) (by omega)]
    simp [addLocal, List.getElem?_append, ha]
  · simp only [addLocal, List.length_cons] at h5; omega

/-- **C55**: a list with more strings than a Java array can hold is refused (panic), never cut. -/
theorem C55_strings_too_long (l : List Text) (s : Jvm T) (hl : 2147483648 ≤ l.length) (hx : ∀ x ∈ l, ∀ u, Utf16 u x → u.length < 2147483648) :
    vecStringToArray l s = .panic := by
  unfold vecStringToArray
  by_cases hneg : asJsize l.length < 0
  · have : newArray (T := T) (fun n => .arr (List.replicate n none)) (asJsize l.length) s = .ok (none, s) := by
      unfold newArray; rw [if_pos hneg]
    rw [bind_ok _ _ _ _ _ this]
    exact bind_panic _ _ _ rfl
  · have hb : asJsize l.length < 2147483648 := by
      unfold asJsize
      have := @BitVec.toInt_lt 32 (BitVec.ofNat 32 l.length)
      omega
    have e : asJsize l.length = ((asJsize l.length).toNat : Int) := by omega
    rw [e, bind_ok _ _ _ _ _ (newArray_ok _ _ s), bind_ok _ _ _ _ _ (show notNull _ _ = .ok (_, _) from rfl)]
    apply bind_panic
    refine fillStrings_panic s.heap.length 0 l _ (List.replicate (asJsize l.length).toNat none) (by simp [addLocal]) ?_ (by simp) ?_
      (fun x hxl => hx x hxl _ (encode_spec x))
    · simp only [List.length_replicate]; omega
    · simp only [List.length_replicate]; omega

/-! ## C55: objects -/

/-- **C55**: a list of Rust objects becomes a Java array with as many wrappers, each owning the object of its position; the only local
reference left open is the array, and never more than two are open on the way. -/
theorem C55_objects (l : List T) (s : Jvm T) (hl : l.length < 2147483648) :
    ∃ (a : Nat) (s' : Jvm T), vecObjectsToArray l s = .ok (a, s') ∧ HoldsObjects s' a l ∧ ExtendsAll s s' ∧ s'.natives.length = s.natives.length + l.length ∧
      s'.locals = a :: s.locals ∧ s'.peak ≤ max s.peak (s.locals.length + 2) := by
  unfold vecObjectsToArray
  rw [show decide (l.length ≤ 2147483647) = true from decide_eq_true (by omega), bind_ok _ _ _ _ _ (assert_true s)]
  rw [asJsize_small _ hl, bind_ok _ _ _ _ _ (newArray_ok _ l.length s), bind_ok _ _ _ _ _ (show notNull _ _ = .ok (_, _) from rfl)]
  obtain ⟨s', es', h1, h2, h3, h4, h5, h6, h7, h8, _, h10⟩ := fillObjects_ok s.heap.length 0 l
    (addLocal { s with heap := s.heap ++ [JObj.arr (List.replicate l.length none)] } s.heap.length) (List.replicate l.length none)
    (by simp [addLocal]) (by simp) (by simpa using hl)
  have h4' : s'.natives = s.natives ++ l := h4
  refine ⟨s.heap.length, s', ?_, ⟨es', h7, by simpa using h8, ?_⟩, ⟨?_, h3, ⟨l, h4'.symm⟩⟩, by rw [h4']; simp, h2, ?_⟩
  · rw [bind_ok _ _ _ _ _ h1]; rfl
  · intro j x hj
    obtain ⟨o, ho1, ho2⟩ := h10 j (get_lt hj)
    refine ⟨o, s.natives.length + j, by simpa using ho1, ho2, ?_⟩
    rw [h4', List.getElem?_append_right (by omega)]
    simpa using hj
  · intro a ha
    rw [h6 a (by simp [addLocal]; omega) (by omega)]
    simp [addLocal, List.getElem?_append, ha]
  · simp only [addLocal, List.length_cons] at h5; omega

/-- **C55**: a list with more objects than a Java array can hold is refused before anything is created. -/
theorem C55_objects_too_long (l : List T) (s : Jvm T) (hl : 2147483648 ≤ l.length) : vecObjectsToArray l s = .panic := by
  unfold vecObjectsToArray
  rw [show decide (l.length ≤ 2147483647) = false from decide_eq_false (by omega)]
  exact bind_panic _ _ _ (assert_false s)

theorem addLocal_peak (s : Jvm T) (o : Nat) : (addLocal s o).peak ≤ max s.peak (s.locals.length + 1) := by simp [addLocal]

theorem readObject_ok (arr i : Nat) (s : Jvm T) (es : List (Option Nat)) (o n : Nat) (x : T) (h : s.heap[arr]? = some (.arr es))
    (h1 : es[i]? = some (some o)) (h2 : s.heap[o]? = some (.obj (n + 1))) (h3 : s.natives[n]? = some x) :
    readObject arr i s = .ok (x, { s with peak := max s.peak (s.locals.length + 1) }) := by
  unfold readObject
  have g1 : getElement arr i s = .ok (some (some o), addLocal s o) := by
    unfold getElement; rw [h]; simp only [h1]
  have g2 : getLongField (some o) (addLocal s o) = .ok (n + 1, addLocal s o) := by
    unfold getLongField; simp only [addLocal, h2]
  have g3 : derefNative (n + 1) (addLocal s o) = .ok (x, addLocal s o) := by
    unfold derefNative; simp [addLocal, h3]
  rw [bind_ok _ _ _ _ _ g1]
  simp only
  rw [bind_ok _ _ _ _ _ g2, bind_ok _ _ _ _ _ g3, bind_ok _ _ _ _ _ (show deleteLocalRef _ _ = .ok (_, _) from rfl)]
  simp only [addLocal, erase_self]
  rfl

theorem readObjects_ok (arr i : Nat) (l : List T) (s : Jvm T) (es : List (Option Nat)) (h : s.heap[arr]? = some (.arr es))
    (hx : ∀ (j : Nat) (x : T), l[j]? = some x → ∃ (o n : Nat), es[i + j]? = some (some o) ∧ s.heap[o]? = some (.obj (n + 1)) ∧ s.natives[n]? = some x) :
    ∃ p, readObjects arr i l.length s = .ok (l, { s with peak := p }) ∧ p ≤ max s.peak (s.locals.length + 1) := by
  induction l generalizing i s with
  | nil => exact ⟨s.peak, rfl, by omega⟩
  | cons x l ih =>
    obtain ⟨o, n, h1, h2, h3⟩ := hx 0 x rfl
    have hr := readObject_ok arr i s es o n x h h1 h2 h3
    obtain ⟨p, hp, hp2⟩ := ih (i + 1) { s with peak := max s.peak (s.locals.length + 1) } h (fun j y hy => by
      have := hx (j + 1) y (by simpa using hy)
      rwa [show i + (j + 1) = i + 1 + j by omega] at this)
    refine ⟨p, ?_, ?_⟩
    · rw [List.length_cons, readObjects, bind_ok _ _ _ _ _ hr, bind_ok _ _ _ _ _ hp]
      rfl
    · simp only at hp2; omega

/-- **C55**: a Java array of wrappers is read as the list of the objects they own, in order; nothing changes, no local reference stays open and
at most one is open on the way. -/
theorem C55_read_objects (a : Nat) (l : List T) (s : Jvm T) (h : HoldsObjects s a l) :
    ∃ p, arrayToVecObjects a s = .ok (l, { s with peak := p }) ∧ p ≤ max s.peak (s.locals.length + 1) := by
  obtain ⟨es, h1, h2, h3⟩ := h
  have g : getArrayLength a s = .ok (l.length, s) := by unfold getArrayLength; rw [h1]; simp only [h2]
  unfold arrayToVecObjects
  rw [bind_ok _ _ _ _ _ g]
  obtain ⟨p, hp, hle⟩ := readObjects_ok a 0 l s es h1 (fun j x hj => by simpa using h3 j x hj)
  exact ⟨p, by rw [hp], hle⟩

/-- **C55**: objects sent to Java and read back are the same objects in the same order. -/
theorem C55_objects_round_trip (l : List T) (s : Jvm T) (hl : l.length < 2147483648) :
    ∃ s', (do let a ← vecObjectsToArray l; arrayToVecObjects a : M T (List T)) s = .ok (l, s') ∧ ExtendsAll s s' := by
  obtain ⟨a, s', h1, h2, h3, _⟩ := C55_objects l s hl
  obtain ⟨p, hp, _⟩ := C55_read_objects a l s' h2
  exact ⟨{ s' with peak := p }, by rw [bind_ok _ _ _ _ _ h1]; exact hp, h3⟩

/-- FINDING (C55): an array element that is null is dereferenced: undefined behaviour instead of an error. -/
theorem C55_finding_null_element (a i : Nat) (s : Jvm T) (es : List (Option Nat)) (h : s.heap[a]? = some (.arr es)) (hi : es[i]? = some none) :
    readObject a i s = .crash := by
  have g1 : getElement a i s = .ok (some none, s) := by unfold getElement; rw [h]; simp only [hi]
  unfold readObject
  rw [bind_ok _ _ _ _ _ g1]
  exact bind_crash _ _ _ rfl

/-- **C55**: an element whose native object was already given away (field 0) is noticed: the call panics. -/
theorem C55_consumed_element (a i o : Nat) (s : Jvm T) (es : List (Option Nat)) (h : s.heap[a]? = some (.arr es)) (hi : es[i]? = some (some o))
    (ho : s.heap[o]? = some (.obj 0)) : readObject a i s = .panic := by
  have g1 : getElement a i s = .ok (some (some o), addLocal s o) := by unfold getElement; rw [h]; simp only [hi]
  have g2 : getLongField (some o) (addLocal s o) = .ok (0, addLocal s o) := by
    unfold getLongField; simp only [addLocal, ho]
  unfold readObject
  rw [bind_ok _ _ _ _ _ g1]
  simp only
  rw [bind_ok _ _ _ _ _ g2]
  exact bind_panic _ _ _ rfl

/-! ## C55: primitive arrays -/

/-- **C55**: a slice becomes a new Java array with the same elements. -/
theorem C55_slice (l : List Nat) (s : Jvm T) (hl : l.length < 2147483648) :
    ∃ (a : Nat) (s' : Jvm T), fromSlice l s = .ok (a, s') ∧ s'.heap[a]? = some (.prims l) ∧ Extends s s' ∧ s'.locals = a :: s.locals := by
  unfold fromSlice
  rw [show decide (l.length ≤ 2147483647) = true from decide_eq_true (by omega), bind_ok _ _ _ _ _ (assert_true s)]
  rw [asJsize_small _ hl, bind_ok _ _ _ _ _ (newArray_ok _ l.length s), bind_ok _ _ _ _ _ (show notNull _ _ = .ok (_, _) from rfl)]
  have g : setRegion s.heap.length (l.length : Int) l (addLocal { s with heap := s.heap ++ [JObj.prims (List.replicate l.length 0)] } s.heap.length) =
      .ok (false, addLocal { s with heap := s.heap ++ [JObj.prims l] } s.heap.length) := by
    unfold setRegion
    simp [addLocal]
  rw [bind_ok _ _ _ _ _ g]
  refine ⟨s.heap.length, addLocal { s with heap := s.heap ++ [JObj.prims l] } s.heap.length, rfl, by simp [addLocal], ⟨?_, rfl, rfl⟩, rfl⟩
  intro a ha
  simp [addLocal, List.getElem?_append, ha]

/-- **C55**: a slice longer than a Java array can be is refused. -/
theorem C55_slice_too_long (l : List Nat) (s : Jvm T) (hl : 2147483648 ≤ l.length) : fromSlice l s = .panic := by
  unfold fromSlice
  rw [show decide (l.length ≤ 2147483647) = false from decide_eq_false (by omega)]
  exact bind_panic _ _ _ (assert_false s)

/-- **C55**: a Rust function given a Java array sees exactly its elements, and after the call everything is as before: the array is unchanged and
its contents are released. -/
theorem C55_array_argument {R} (a : Nat) (l : List Nat) (f : List Nat → R) (s : Jvm T) (h : s.heap[a]? = some (.prims l)) :
    withArray (some a) f s = .ok (f l, s) := by
  have g1 : arrayToSlice (some a) s = .ok (l, { s with pins := a :: s.pins }) := by
    unfold arrayToSlice
    rw [bind_ok _ _ _ _ _ (show notNull _ _ = .ok (_, _) from rfl)]
    unfold getElements
    rw [h]
  have g2 : release a { s with pins := a :: s.pins } = .ok ((), s) := by unfold release; simp
  unfold withArray
  rw [bind_ok _ _ _ _ _ g1, bind_ok _ _ _ _ _ (show notNull _ _ = .ok (_, _) from rfl), bind_ok _ _ _ _ _ g2]
  rfl

/-- **C55**: null instead of a primitive array is refused (panic). -/
theorem C55_null_array {R} (f : List Nat → R) (s : Jvm T) : withArray none f s = .panic := rfl

/-! ## Non-vacuity -/

example : vecStringToArray ["a".toList, "bc".toList] emptyJvm =
    .ok (0, ⟨[.arr [some 1, some 2], .str [0x61], .str [0x62, 0x63]], [0], [], 2, []⟩) := by decide

example : ∃ s', (do let a ← vecObjectsToArray [10, 20]; arrayToVecObjects a : M Nat (List Nat)) emptyJvm = .ok ([10, 20], s') ∧
    ExtendsAll emptyJvm s' := C55_objects_round_trip [10, 20] emptyJvm (by decide)

example : (do let a ← fromSlice [7, 8]; withArray (some a) List.length : M Nat Nat) emptyJvm = .ok (2, ⟨[.prims [7, 8]], [0], [], 1, []⟩) := by decide +kernel

end Flapi.Jni
