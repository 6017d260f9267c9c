import Verif.Java.Strings
/-!
# Strings cross the JNI border unchanged (C38)
-/
namespace Flapi.Jni
variable {T : Type}

/-! ## Specification -/

/-- `Utf16 u s`: the code units `u` are the UTF-16 form of the text `s` (Unicode standard, table 3-5). -/
inductive Utf16 : List Nat → Text → Prop where
  | nil : Utf16 [] []
  | bmp {u s} (c : Char) (h : c.toNat < 0x10000) (t : Utf16 u s) : Utf16 (c.toNat :: u) (c :: s)
  | pair {u s} (c : Char) (hi lo : Nat) (h1 : 0xD800 ≤ hi) (h2 : hi < 0xDC00) (h3 : 0xDC00 ≤ lo) (h4 : lo < 0xE000)
      (h : c.toNat = 0x10000 + (hi - 0xD800) * 0x400 + (lo - 0xDC00)) (t : Utf16 u s) : Utf16 (hi :: lo :: u) (c :: s)

/-- `u` is well formed: every code unit is 16 bit wide and surrogates come in pairs, high before low. -/
inductive WellFormed : List Nat → Prop where
  | nil : WellFormed []
  | unit {u} (x : Nat) (h : x < 0xD800 ∨ (0xE000 ≤ x ∧ x < 0x10000)) (t : WellFormed u) : WellFormed (x :: u)
  | pair {u} (hi lo : Nat) (h1 : 0xD800 ≤ hi) (h2 : hi < 0xDC00) (h3 : 0xDC00 ≤ lo) (h4 : lo < 0xE000) (t : WellFormed u) :
      WellFormed (hi :: lo :: u)

/-- Two states agree on everything that existed before, apart from the open local references. -/
def Extends (s s' : Jvm T) : Prop :=
  (∀ a, a < s.heap.length → s'.heap[a]? = s.heap[a]?) ∧ s'.pins = s.pins ∧ s'.natives = s.natives

/-! ## Lemmas -/

theorem bind_ok {α β : Type} (x : M T α) (f : α → M T β) (s s' : Jvm T) (a : α) (h : x s = .ok (a, s')) : (x >>= f) s = f a s' := by
  change M.bind x f s = _
  rw [M.bind, h]

theorem pure_ok {α : Type} (a : α) (s : Jvm T) : (pure a : M T α) s = .ok (a, s) := rfl

theorem toNat_ofNat (n : Nat) (h : n < 0xD800 ∨ 0xDFFF < n ∧ n < 0x110000) : (Char.ofNat n).toNat = n := by
  have : n.isValidChar := h
  simp [Char.toNat, Char.ofNat, this, Char.ofNatAux]

theorem char_valid (c : Char) : c.toNat < 0xD800 ∨ 0xDFFF < c.toNat ∧ c.toNat < 0x110000 := c.valid

theorem char_inj {c d : Char} (h : c.toNat = d.toNat) : c = d := by
  rw [← Char.ofNat_toNat c, ← Char.ofNat_toNat d, h]

theorem encode_spec (s : Text) : Utf16 (encodeUtf16 s) s := by
  induction s with
  | nil => exact .nil
  | cons c s ih =>
    have hv := char_valid c
    change Utf16 (encodeChar c ++ encodeUtf16 s) _
    unfold encodeChar
    split
    · exact .bmp c (by assumption) ih
    · exact .pair c _ _ (by omega) (by omega) (by omega) (by omega) (by omega) ih

theorem decode_of_spec {u : List Nat} {s : Text} (h : Utf16 u s) : decodeUtf16 u = some s := by
  induction h with
  | nil => rfl
  | bmp c h t ih =>
    have hv := char_valid c
    rw [decodeUtf16.eq_def]
    simp only
    rw [if_pos (by omega), ih]
    simp [Char.ofNat_toNat]
  | pair c hi lo h1 h2 h3 h4 h t ih =>
    rw [decodeUtf16.eq_def]
    simp only
    rw [if_neg (by omega), if_neg (by omega), if_neg (by omega), ih, ← h]
    simp [Char.ofNat_toNat]

theorem wf_spec {u : List Nat} : WellFormed u ↔ ∃ s, Utf16 u s := by
  constructor
  · intro h
    induction h with
    | nil => exact ⟨[], .nil⟩
    | unit x h t ih =>
      obtain ⟨s, hs⟩ := ih
      have hx := toNat_ofNat x (by omega)
      have := Utf16.bmp (Char.ofNat x) (by omega) hs
      rw [hx] at this
      exact ⟨_, this⟩
    | pair hi lo h1 h2 h3 h4 t ih =>
      obtain ⟨s, hs⟩ := ih
      exact ⟨_, .pair (Char.ofNat (0x10000 + (hi - 0xD800) * 0x400 + (lo - 0xDC00))) hi lo h1 h2 h3 h4 (toNat_ofNat _ (by omega)) hs⟩
  · rintro ⟨s, h⟩
    induction h with
    | nil => exact .nil
    | bmp c h t ih => exact .unit _ (by have := char_valid c; omega) ih
    | pair c hi lo h1 h2 h3 h4 h t ih => exact .pair hi lo h1 h2 h3 h4 ih

theorem spec_of_decode (n : Nat) (u : List Nat) (hn : u.length ≤ n) (hu : ∀ x ∈ u, x < 0x10000) (s : Text) (h : decodeUtf16 u = some s) :
    Utf16 u s := by
  induction n generalizing u s with
  | zero =>
    have : u = [] := by cases u <;> simp_all
    subst this
    rw [decodeUtf16] at h; cases h; exact .nil
  | succ n ih =>
    cases u with
    | nil => rw [decodeUtf16] at h; cases h; exact .nil
    | cons x l =>
      have hx := hu x (by simp)
      rw [decodeUtf16.eq_def] at h
      simp only at h
      split at h
      · rename_i hb
        simp only [Option.map_eq_some_iff] at h
        obtain ⟨s', h', rfl⟩ := h
        have e := toNat_ofNat x (by omega)
        have := Utf16.bmp (Char.ofNat x) (by omega) (ih l (by simpa using hn) (fun y hy => hu y (by simp [hy])) s' h')
        rw [e] at this
        exact this
      · split at h
        · cases h
        · cases l with
          | nil => cases h
          | cons y l =>
            simp only at h
            split at h
            · cases h
            · simp only [Option.map_eq_some_iff] at h
              obtain ⟨s', h', rfl⟩ := h
              have hl : l.length ≤ n := by simp only [List.length_cons] at hn; omega
              exact .pair _ x y (by omega) (by omega) (by omega) (by omega) (toNat_ofNat _ (by omega))
                (ih l hl (fun z hz => hu z (by simp [hz])) s' h')

theorem utf16_units {u : List Nat} {s : Text} (h : Utf16 u s) : ∀ x ∈ u, x < 0x10000 := by
  induction h with
  | nil => simp
  | bmp c h t ih => intro x hx; rcases List.mem_cons.1 hx with rfl | hx; exact h; exact ih x hx
  | pair c hi lo h1 h2 h3 h4 h t ih =>
    intro x hx
    rcases List.mem_cons.1 hx with rfl | hx
    · omega
    · rcases List.mem_cons.1 hx with rfl | hx
      · omega
      · exact ih x hx

theorem utf16_left_unique {u v : List Nat} {s : Text} (h : Utf16 u s) : Utf16 v s → u = v := by
  intro g
  induction h generalizing v with
  | nil => cases g; rfl
  | bmp c h t ih =>
    cases g with
    | bmp _ h' t' => rw [ih t']
    | pair _ hi lo h1 h2 h3 h4 h' t' => omega
  | pair c hi lo h1 h2 h3 h4 h t ih =>
    cases g with
    | bmp _ h' t' => omega
    | pair _ hi' lo' g1 g2 g3 g4 g' t' =>
      have e1 : hi = hi' := by omega
      have e2 : lo = lo' := by omega
      rw [e1, e2, ih t']

theorem asJsize_small (n : Nat) (h : n < 2147483648) : asJsize n = n := by
  unfold asJsize
  rw [BitVec.toInt_eq_toNat_of_lt (by rw [BitVec.toNat_ofNat]; omega), BitVec.toNat_ofNat, Nat.mod_eq_of_lt (by omega)]

theorem alloc_ok (o : JObj) (s : Jvm T) :
    alloc o s = .ok (s.heap.length, addLocal { s with heap := s.heap ++ [o] } s.heap.length) := rfl

theorem newString_ok (u : List Nat) (n : Nat) (hn : n ≤ u.length) (s : Jvm T) :
    newString u (n : Int) s = .ok (some s.heap.length, addLocal { s with heap := s.heap ++ [.str (u.take n)] } s.heap.length) := by
  unfold newString
  rw [if_neg (by omega), alloc_ok]
  simp

theorem fromStdStr_ok (x : Text) (s : Jvm T) (h : (encodeUtf16 x).length < 2147483648) :
    fromStdStr x s = .ok (some s.heap.length, addLocal { s with heap := s.heap ++ [.str (encodeUtf16 x)] } s.heap.length) := by
  unfold fromStdStr
  rw [asJsize_small _ h, newString_ok _ _ (Nat.le_refl _), List.take_length]

theorem erase_self (a : Nat) (l : List Nat) : (a :: l).erase a = l := by simp

/-! ## C38 -/

/-- **C38**: every text has exactly one UTF-16 form, and the forms of texts are the well-formed sequences of code units. -/
theorem C38_utf16_of_every_text (s : Text) : ∃ u, Utf16 u s ∧ ∀ v, Utf16 v s → v = u :=
  ⟨_, encode_spec s, fun _ h => (utf16_left_unique (encode_spec s) h).symm⟩

theorem C38_well_formed_iff (u : List Nat) : WellFormed u ↔ ∃ s, Utf16 u s := wf_spec

/-- **C38**: a Rust string given to Java becomes a new Java string with exactly its UTF-16 form (up to 2³¹ - 1 code units); nothing that
existed before changes; one local reference, the result, is created. -/
theorem C38_send (x : Text) (u : List Nat) (hu : Utf16 u x) (hl : u.length < 2147483648) (s : Jvm T) :
    ∃ a s', fromStdStr x s = .ok (some a, s') ∧ s.heap.length ≤ a ∧ s'.heap[a]? = some (.str u) ∧ Extends s s' ∧
      s'.locals = a :: s.locals := by
  have e := utf16_left_unique hu (encode_spec x)
  rw [e] at hl
  refine ⟨_, _, fromStdStr_ok x s hl, Nat.le_refl _, ?_, ⟨?_, rfl, rfl⟩, rfl⟩
  · simp [addLocal, e]
  · intro a ha
    simp [addLocal, List.getElem?_append, ha]

/-- **C38**: a Java string whose code units are the UTF-16 form of a text is read as that text, and reading leaves everything as it was. -/
theorem C38_read (a : Nat) (u : List Nat) (x : Text) (hu : Utf16 u x) (s : Jvm T) (ha : s.heap[a]? = some (.str u)) :
    fromJstring (some a) s = .ok (x, s) := by
  have h1 : getStringChars a s = .ok (u, { s with pins := a :: s.pins }) := by unfold getStringChars; rw [ha]
  have h2 : release a { s with pins := a :: s.pins } = .ok ((), s) := by unfold release; simp
  unfold fromJstring
  dsimp only
  rw [bind_ok _ _ _ _ _ h1, bind_ok _ _ _ _ _ h2, decode_of_spec hu]
  rfl

/-- **C38**: an ill-formed Java string is never read as some other text: the call panics.  Conversely a well-formed string is always read. -/
theorem C38_ill_formed (a : Nat) (u : List Nat) (s : Jvm T) (ha : s.heap[a]? = some (.str u)) (hu : ∀ x ∈ u, x < 0x10000) :
    fromJstring (some a) s = .panic ↔ ¬ WellFormed u := by
  rw [wf_spec]
  constructor
  · rintro h ⟨x, hx⟩
    rw [C38_read a u x hx s ha] at h
    cases h
  · intro h
    have h1 : getStringChars a s = .ok (u, { s with pins := a :: s.pins }) := by unfold getStringChars; rw [ha]
    have h2 : release a { s with pins := a :: s.pins } = .ok ((), s) := by unfold release; simp
    unfold fromJstring
    dsimp only
    rw [bind_ok _ _ _ _ _ h1, bind_ok _ _ _ _ _ h2]
    cases hd : decodeUtf16 u with
    | none => rfl
    | some x => exact absurd ⟨x, spec_of_decode _ u (Nat.le_refl _) hu x hd⟩ h

/-- **C38**: null is read as the empty string. -/
theorem C38_null (s : Jvm T) : fromJstring none s = .ok ([], s) := rfl

/-- **C38**: a Rust string sent to Java and read back is the same string. -/
theorem C38_rust_java_rust (x : Text) (u : List Nat) (hu : Utf16 u x) (hl : u.length < 2147483648) (s : Jvm T) :
    ∃ s', (do let j ← fromStdStr x; fromJstring j : M T Text) s = .ok (x, s') ∧ Extends s s' := by
  obtain ⟨a, s', h1, _, h2, h3, _⟩ := C38_send x u hu hl s
  exact ⟨s', by rw [bind_ok _ _ _ _ _ h1]; exact C38_read a u x hu s' h2, h3⟩

/-- **C38**: a well-formed Java string read by Rust and sent back is a new Java string with the same code units. -/
theorem C38_java_rust_java (a : Nat) (u : List Nat) (hw : WellFormed u) (hl : u.length < 2147483648) (s : Jvm T)
    (ha : s.heap[a]? = some (.str u)) :
    ∃ b s', (do let x ← fromJstring (some a); fromStdStr x : M T (Option Nat)) s = .ok (some b, s') ∧ s'.heap[b]? = some (.str u) ∧
      Extends s s' := by
  obtain ⟨x, hx⟩ := wf_spec.1 hw
  obtain ⟨b, s', h1, _, h2, h3, _⟩ := C38_send x u hx hl s
  exact ⟨b, s', by rw [bind_ok _ _ _ _ _ (C38_read a u x hx s ha)]; exact h1, h2, h3⟩

/-- FINDING (C38): the length is cast to 32 bit without a check: a string of `2³² + k` code units arrives cut to its first `k` ones. -/
theorem C38_finding_long_string_cut (x : Text) (k : Nat) (hk : k < 2147483648) (hl : (encodeUtf16 x).length = 4294967296 + k) (s : Jvm T) :
    ∃ a s', fromStdStr x s = .ok (some a, s') ∧ s'.heap[a]? = some (.str ((encodeUtf16 x).take k)) := by
  refine ⟨s.heap.length, addLocal { s with heap := s.heap ++ [.str ((encodeUtf16 x).take k)] } s.heap.length, ?_, by simp [addLocal]⟩
  have e : asJsize (encodeUtf16 x).length = k := by
    unfold asJsize
    rw [hl, BitVec.toInt_eq_toNat_of_lt (by rw [BitVec.toNat_ofNat]; omega), BitVec.toNat_ofNat]
    omega
  unfold fromStdStr
  rw [e, newString_ok _ k (by omega)]

/-- FINDING (C38): a string of `2³¹ .. 2³² - 1` code units arrives as null. -/
theorem C38_finding_long_string_null (x : Text) (h1 : 2147483648 ≤ (encodeUtf16 x).length) (h2 : (encodeUtf16 x).length < 4294967296)
    (s : Jvm T) : fromStdStr x s = .ok (none, s) := by
  have e : asJsize (encodeUtf16 x).length < 0 := by
    unfold asJsize
    rw [BitVec.toInt_eq_toNat_cond, BitVec.toNat_ofNat, Nat.mod_eq_of_lt h2, if_neg (by omega)]
    omega
  unfold fromStdStr newString
  rw [if_pos e]

/-! ## Non-vacuity -/

def emptyJvm : Jvm Nat := ⟨[], [], [], 0, []⟩

example : Utf16 [0x61, 0xD83D, 0xDE00] [ 'a', '😀' ] :=
  .bmp 'a' (by decide) (.pair '😀' 0xD83D 0xDE00 (by decide) (by decide) (by decide) (by decide) (by decide) .nil)

example : fromStdStr "a😀".toList emptyJvm = .ok (some 0, ⟨[.str [0x61, 0xD83D, 0xDE00]], [0], [], 1, []⟩) := by decide

example : fromJstring (some 0) { emptyJvm with heap := [.str [0x61, 0xDE00]] } = .panic := by decide

example : ¬ WellFormed [0xDE00] := by
  intro h; cases h with
  | unit _ h _ => omega

end Flapi.Jni
