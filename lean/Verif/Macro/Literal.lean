import Verif.Macro.ScanProps
/-!
# Templates that are literals

The reading of an ASCII template does not depend on the character classes outside ASCII, so for a literal template it can be
computed once (`tokens`); what any expander makes of the template is then `runTokens`.
-/
namespace Flapi.Macro
open Flapi

/-- A piece of a template: text, or a call with its parameters. -/
inductive Token where
  | txt (t : Text)
  | call (id : Text) (ps : List Text)
deriving DecidableEq

/-- The reading of a template, with the text since the last call; `none`: the allowance is used up, or a panic. -/
def tokens (u : Unicode) : Nat → (acc code : Text) → Option (List Token)
  | 0, _, _ => none
  | n + 1, acc, code =>
    match code.dropWhile (fun c => !u.isAlphabetic c) with
    | [] => some [.txt (acc ++ code)]
    | c :: rest =>
      match findMacro u (c :: rest) with
      | .panic => none
      | .call id ps r =>
        match splitAtByte 1 r with
        | none => none
        | some (_, r') =>
          (tokens u n [] r').map fun l => .txt (acc ++ code.takeWhile (fun c => !u.isAlphabetic c)) :: .call id ps :: l
      | .no =>
        match (c :: rest).dropWhile u.isAlphabetic with
        | [] => some [.txt (acc ++ code.takeWhile (fun c => !u.isAlphabetic c) ++ (c :: rest))]
        | rest' =>
          tokens u n (acc ++ code.takeWhile (fun c => !u.isAlphabetic c) ++ (c :: rest).takeWhile u.isAlphabetic) rest'

/-- What an expander makes of a reading. -/
def runTokens {σ ε} (exp : σ → Text → List Text → Except ε (Text × σ)) : σ → List Token → Except ε (Text × σ)
  | s, [] => .ok ([], s)
  | s, .txt t :: l =>
    match runTokens exp s l with
    | .ok (o, s') => .ok (t ++ o, s')
    | .error e => .error e
  | s, .call id ps :: l =>
    match exp s id ps with
    | .error e => .error e
    | .ok (t, s1) =>
      match runTokens exp s1 l with
      | .ok (o, s') => .ok (t ++ o, s')
      | .error e => .error e

/-- Put a text in front of the output. -/
def inFront {σ ε} (ret : Text) : Except ε (Text × σ) → Out ε (Text × σ)
  | .ok (t, s) => .ok (ret ++ t, s)
  | .error e => .error e

theorem expandLoop_tokens {σ ε} (u : Unicode) (exp : σ → Text → List Text → Except ε (Text × σ)) :
    ∀ (n : Nat) (s : σ) (ret acc code : Text) (l : List Token), tokens u n acc code = some l →
      expandLoop u exp n s (ret ++ acc) code = inFront ret (runTokens exp s l)
  | 0, _, _, _, _, _, h => by cases h
  | n + 1, s, ret, acc, code, l, h => by
    unfold tokens at h
    unfold expandLoop
    split at h
    · rename_i heq
      cases h
      rw [heq]
      simp [runTokens, inFront]
    · rename_i c rest heq
      rw [heq]
      simp only
      split at h
      · cases h
      · rename_i id ps r hf
        rw [hf]
        simp only
        split at h
        · cases h
        · rename_i x r' hs
          cases ht : tokens u n [] r' with
          | none => rw [ht] at h; cases h
          | some l' =>
            rw [ht] at h
            cases h
            simp only [runTokens]
            cases he : exp s id ps with
            | error e => rfl
            | ok v =>
              obtain ⟨t, s1⟩ := v
              simp only [hs]
              have ih := expandLoop_tokens u exp n s1
                (ret ++ acc ++ code.takeWhile (fun c => !u.isAlphabetic c) ++ t) [] r' l' ht
              rw [List.append_nil] at ih
              rw [ih]
              cases runTokens exp s1 l' with
              | error e => rfl
              | ok v => simp [inFront]
      · rename_i hf
        rw [hf]
        simp only
        split at h
        · rename_i hd
          cases h
          rw [hd]
          simp [runTokens, inFront]
        · rename_i hne
          have ih := expandLoop_tokens u exp n s ret _ _ l h
          split
          · rename_i hd
            exact absurd hd hne
          · rw [← ih]
            simp only [List.append_assoc]

theorem expandMacroses_tokens {σ ε} (u : Unicode) (exp : σ → Text → List Text → Except ε (Text × σ)) (s : σ) (code : Text)
    (l : List Token) (h : tokens u (code.length + 1) [] code = some l) :
    expandMacroses u exp s code = inFront [] (runTokens exp s l) := by
  have := expandLoop_tokens u exp (code.length + 1) s [] [] code l h
  exact this

/-! ### ASCII text is read the same way everywhere -/

/-- No letters, digits or blanks outside ASCII. -/
def asciiOnly : Unicode := ⟨fun _ => false, fun _ => false, fun _ => false⟩

theorem dropWhile_congr' {p q : Char → Bool} : ∀ {l : Text}, (∀ c ∈ l, p c = q c) → l.dropWhile p = l.dropWhile q
  | [], _ => rfl
  | a :: l, h => by
    simp only [List.dropWhile_cons, h a (by simp), dropWhile_congr' (l := l) fun c hc => h c (by simp [hc])]

theorem takeWhile_congr' {p q : Char → Bool} : ∀ {l : Text}, (∀ c ∈ l, p c = q c) → l.takeWhile p = l.takeWhile q
  | [], _ => rfl
  | a :: l, h => by
    simp only [List.takeWhile_cons, h a (by simp), takeWhile_congr' (l := l) fun c hc => h c (by simp [hc])]

/-- Every character is ASCII. -/
def AllAscii (t : Text) : Prop := ∀ c ∈ t, ascii c = true

theorem AllAscii.sub {a b : Text} (h : AllAscii b) (hs : ∀ c ∈ a, c ∈ b) : AllAscii a := fun c hc => h c (hs c hc)

theorem mem_of_mem_dropWhile {p : Char → Bool} {l : Text} {c : Char} (h : c ∈ l.dropWhile p) : c ∈ l :=
  (List.dropWhile_sublist p).subset h

theorem isAlphabetic_ascii (u v : Unicode) {c : Char} (h : ascii c = true) : u.isAlphabetic c = v.isAlphabetic c := by
  simp [Unicode.isAlphabetic, h]
theorem isIdent_ascii (u v : Unicode) {c : Char} (h : ascii c = true) : u.isIdent c = v.isIdent c := by
  simp [Unicode.isIdent, Unicode.isAlphanumeric, h]
theorem isWhitespace_ascii (u v : Unicode) {c : Char} (h : ascii c = true) : u.isWhitespace c = v.isWhitespace c := by
  simp [Unicode.isWhitespace, h]

theorem trim_ascii (u v : Unicode) {t : Text} (h : AllAscii t) : trim u t = trim v t := by
  unfold trim
  rw [dropWhile_congr' (q := v.isWhitespace) fun c hc => isWhitespace_ascii u v (h c hc)]
  rw [dropWhile_congr' (p := u.isWhitespace) (q := v.isWhitespace) fun c hc => isWhitespace_ascii u v
    (h c (mem_of_mem_dropWhile (List.mem_reverse.1 hc)))]

theorem splitComma_mem : ∀ (t : Text) {p : Text} {c : Char}, p ∈ splitComma t → c ∈ p → c ∈ t
  | [], p, c, hp, hc => by
    simp only [splitComma, List.mem_singleton] at hp
    subst hp
    cases hc
  | a :: t, p, c, hp, hc => by
    unfold splitComma at hp
    split at hp
    · rcases List.mem_cons.1 hp with rfl | h
      · cases hc
      · exact List.mem_cons_of_mem _ (splitComma_mem t h hc)
    · split at hp
      · rename_i he
        rcases List.mem_cons.1 hp with rfl | h
        · simp only [List.mem_singleton] at hc; subst hc; simp
        · cases h
      · rename_i q qs he
        rcases List.mem_cons.1 hp with rfl | h
        · rcases List.mem_cons.1 hc with rfl | h
          · simp
          · exact List.mem_cons_of_mem _ (splitComma_mem t (he ▸ List.mem_cons_self) h)
        · exact List.mem_cons_of_mem _ (splitComma_mem t (he ▸ List.mem_cons_of_mem _ h) hc)

theorem mem_trim {u : Unicode} {t : Text} {c : Char} (h : c ∈ trim u t) : c ∈ t := by
  unfold trim at h
  exact mem_of_mem_dropWhile (List.mem_reverse.1 (mem_of_mem_dropWhile (List.mem_reverse.1 h)))

theorem params_ascii (u v : Unicode) {t : Text} (h : AllAscii t) : params u t = params v t := by
  unfold params
  rw [trim_ascii u v h]
  congr 1
  apply List.map_congr_left
  intro p hp
  exact trim_ascii u v fun c hc => h c (mem_trim (splitComma_mem _ hp hc))

theorem splitAtByte_mem : ∀ (n : Nat) (t : Text) {a b : Text}, splitAtByte n t = some (a, b) → ∀ c, c ∈ a ∨ c ∈ b → c ∈ t
  | n, [], a, b, h, c, hc => by
    cases n with
    | zero => cases h; simpa using hc
    | succ n => cases h
  | 0, x :: t, a, b, h, c, hc => by cases h; simpa using hc
  | n + 1, x :: t, a, b, h, c, hc => by
    unfold splitAtByte at h
    split at h
    · cases hs : splitAtByte (n + 1 - x.utf8Size) t with
      | none => rw [hs] at h; cases h
      | some v =>
        obtain ⟨a', b'⟩ := v
        rw [hs] at h
        cases h
        have ih := splitAtByte_mem _ t hs c
        rcases hc with hc | hc
        · rcases List.mem_cons.1 hc with rfl | hc
          · simp
          · exact List.mem_cons_of_mem _ (ih (Or.inl hc))
        · exact List.mem_cons_of_mem _ (ih (Or.inr hc))
    · cases h

theorem findMacro_ascii (u v : Unicode) {t : Text} (h : AllAscii t) : findMacro u t = findMacro v t := by
  unfold findMacro
  rw [dropWhile_congr' (q := v.isIdent) fun c hc => isIdent_ascii u v (h c hc),
    takeWhile_congr' (q := v.isIdent) fun c hc => isIdent_ascii u v (h c hc)]
  cases hd : t.dropWhile v.isIdent with
  | nil => rfl
  | cons x r1 =>
    have h1 : AllAscii (x :: r1) := fun c hc => h c (mem_of_mem_dropWhile (hd ▸ hc))
    simp only
    unfold findBang
    rw [dropWhile_congr' (q := v.isWhitespace) fun c hc => isWhitespace_ascii u v (h1 c hc)]
    cases hd2 : (x :: r1).dropWhile v.isWhitespace with
    | nil => rfl
    | cons y r3 =>
      have h2 : AllAscii r3 := fun c hc => h1 c (mem_of_mem_dropWhile (hd2 ▸ List.mem_cons_of_mem _ hc))
      simp only
      split
      · rfl
      · split
        · rfl
        · unfold findParen
          rw [dropWhile_congr' (q := v.isWhitespace) fun c hc => isWhitespace_ascii u v (h2 c hc)]
          cases hd3 : r3.dropWhile v.isWhitespace with
          | nil => rfl
          | cons z r5 =>
            have h3 : AllAscii r5 := fun c hc => h2 c (mem_of_mem_dropWhile (hd3 ▸ List.mem_cons_of_mem _ hc))
            simp only
            split
            · rfl
            · split
              · rfl
              · unfold findArgs
                cases closeIdx r5 1 0 with
                | none => rfl
                | some n =>
                  simp only
                  cases hs : splitAtByte n r5 with
                  | none => rfl
                  | some w =>
                    obtain ⟨i, r⟩ := w
                    simp only
                    rw [params_ascii u v fun c hc => h3 c (splitAtByte_mem n r5 hs c (Or.inl hc))]

theorem findArgs_rest {u : Unicode} {id r5 id' : Text} {ps : List Text} {r : Text} (h : findArgs u id r5 = .call id' ps r) :
    ∀ c ∈ r, c ∈ r5 := by
  unfold findArgs at h
  split at h
  · cases h
  · split at h
    · cases h
    · rename_i hs
      cases h
      exact fun c hc => splitAtByte_mem _ _ hs c (Or.inr hc)

theorem findMacro_rest {u : Unicode} {t id : Text} {ps : List Text} {r : Text} (h : findMacro u t = .call id ps r) :
    ∀ c ∈ r, c ∈ t := by
  unfold findMacro at h
  split at h
  · cases h
  · rename_i r1 hne
    unfold findBang at h
    split at h
    · cases h
    · rename_i y r3 hd2
      split at h
      · cases h
      · split at h
        · cases h
        · unfold findParen at h
          split at h
          · cases h
          · rename_i z r5 hd3
            split at h
            · cases h
            · split at h
              · cases h
              · intro c hc
                have h1 := findArgs_rest h c hc
                have h2 : c ∈ r3 := mem_of_mem_dropWhile (hd3 ▸ List.mem_cons_of_mem _ h1)
                have h3 : c ∈ t.dropWhile u.isIdent := mem_of_mem_dropWhile (hd2 ▸ List.mem_cons_of_mem _ h2)
                exact mem_of_mem_dropWhile h3

theorem tokens_ascii (u v : Unicode) : ∀ (n : Nat) (acc code : Text), AllAscii code → tokens u n acc code = tokens v n acc code
  | 0, _, _, _ => rfl
  | n + 1, acc, code, h => by
    unfold tokens
    have e1 : ∀ c ∈ code, (!u.isAlphabetic c) = !v.isAlphabetic c := fun c hc => by rw [isAlphabetic_ascii u v (h c hc)]
    rw [dropWhile_congr' e1, takeWhile_congr' e1]
    cases hd : code.dropWhile (fun c => !v.isAlphabetic c) with
    | nil => rfl
    | cons x rest =>
      have h1 : AllAscii (x :: rest) := fun c hc => h c (mem_of_mem_dropWhile (hd ▸ hc))
      simp only
      rw [findMacro_ascii u v h1]
      cases hf : findMacro v (x :: rest) with
      | panic => rfl
      | call id ps r =>
        simp only
        cases hs : splitAtByte 1 r with
        | none => rfl
        | some w =>
          obtain ⟨a, r'⟩ := w
          simp only
          rw [tokens_ascii u v n [] r' fun c hc => h1 c (findMacro_rest hf c (splitAtByte_mem 1 r hs c (Or.inr hc)))]
      | no =>
        simp only
        have e2 : ∀ c ∈ x :: rest, u.isAlphabetic c = v.isAlphabetic c := fun c hc => isAlphabetic_ascii u v (h1 c hc)
        rw [dropWhile_congr' e2, takeWhile_congr' e2]
        cases hd2 : (x :: rest).dropWhile v.isAlphabetic with
        | nil => rfl
        | cons y r2 =>
          simp only
          exact tokens_ascii u v n _ _ fun c hc => h1 c (mem_of_mem_dropWhile (hd2 ▸ hc))

/-- The reading of a literal template. -/
def readLit (code : Text) : Option (List Token) :=
  if code.all ascii then tokens asciiOnly (code.length + 1) [] code else none

theorem expandMacroses_lit {σ ε} (u : Unicode) (exp : σ → Text → List Text → Except ε (Text × σ)) (s : σ) (code : Text)
    (l : List Token) (h : readLit code = some l) : expandMacroses u exp s code = inFront [] (runTokens exp s l) := by
  unfold readLit at h
  split at h
  · rename_i ha
    refine expandMacroses_tokens u exp s code l ?_
    rw [tokens_ascii u asciiOnly _ _ _ (fun c hc => List.all_eq_true.1 ha c hc), h]
  · cases h

end Flapi.Macro
