import Verif.Macro.Scan
/-!
# Macro calls inside foreign code templates (C20)
-/
namespace Flapi.Macro

/-! ## Specification -/

/-- Brackets are balanced: no prefix closes more than it opens, and in total as many are closed as opened. -/
def Balanced (t : Text) : Prop :=
  (∀ p, p <+: t → p.count ')' ≤ p.count '(') ∧ t.count ')' = t.count '('

/-- A macro call as written in a template: `name!(inner)` with optional white space around the `!`. -/
structure Call where
  id : Text
  ws1 : Text
  ws2 : Text
  inner : Text

/-- The text of a call. -/
def Call.render (c : Call) : Text := c.id ++ (c.ws1 ++ '!' :: (c.ws2 ++ '(' :: (c.inner ++ [')'])))

/-- A well-formed call. -/
structure Call.WF (u : Unicode) (c : Call) : Prop where
  head : ∃ a as, c.id = a :: as ∧ u.isAlphabetic a = true
  ident : ∀ x ∈ c.id, u.isIdent x = true
  ws1 : ∀ x ∈ c.ws1, u.isWhitespace x = true
  ws2 : ∀ x ∈ c.ws2, u.isWhitespace x = true
  bal : Balanced c.inner

/-- A macro call begins at the start of this text. -/
def StartsCall (u : Unicode) (t : Text) : Prop := ∃ c rest, Call.WF u c ∧ t = c.render ++ rest

/-- What a template consists of. -/
inductive Piece
  | chr (c : Char)
  | call (c : Call)

/-- Reading a template from left to right: where a call begins it is one piece, everywhere else a character is. -/
inductive Parse (u : Unicode) : Text → List Piece → Prop
  | nil : Parse u [] []
  | call {c : Call} {rest ps} : Call.WF u c → Parse u rest ps → Parse u (c.render ++ rest) (.call c :: ps)
  | chr {c : Char} {rest ps} : ¬ StartsCall u (c :: rest) → Parse u rest ps → Parse u (c :: rest) (.chr c :: ps)

/-- The intended result: characters are copied, calls are replaced by what the expander says, in order; the first
expansion error is the result. -/
def run {σ ε} (u : Unicode) (exp : σ → Text → List Text → Except ε (Text × σ)) : σ → List Piece → Except ε (Text × σ)
  | s, [] => .ok ([], s)
  | s, .chr c :: ps => (run u exp s ps).map fun (t, s') => (c :: t, s')
  | s, .call c :: ps =>
    match exp s c.id (params u c.inner) with
    | .error e => .error e
    | .ok (t, s') => (run u exp s' ps).map fun (t', s'') => (t ++ t', s'')

/-- `Except` seen as an outcome. -/
def Out.ofExcept {ε α} : Except ε α → Out ε α
  | .error e => .error e
  | .ok a => .ok a

/-! ## Character facts -/

theorem alpha_ident (u : Unicode) {c : Char} (ha : ascii c) (h : u.isAlphabetic c) : u.isIdent c := by
  simp only [Unicode.isAlphabetic, Unicode.isIdent, Unicode.isAlphanumeric, ha, if_true, Char.isAlphanum] at *
  simp [h]

theorem asciiWs_not_alnum {c : Char} (h : asciiWs c) : c.isAlphanum = false ∧ c ≠ '_' ∧ c ≠ '!' ∧ c ≠ '(' := by
  have hc : c.toNat = 32 ∨ c.toNat = 9 ∨ c.toNat = 10 ∨ c.toNat = 11 ∨ c.toNat = 12 ∨ c.toNat = 13 := by
    simp only [asciiWs, Bool.or_eq_true, Bool.and_eq_true, decide_eq_true_eq, beq_iff_eq] at h
    rcases h with rfl | h
    · left; rfl
    · omega
  have key : ∀ n, c.toNat = n → c = Char.ofNat n := by
    intro n hn; rw [← hn, Char.ofNat_toNat]
  rcases hc with h | h | h | h | h | h <;> (rw [key _ h]; decide)

theorem ws_not_ident (u : Unicode) {c : Char} (ha : ascii c) (h : u.isWhitespace c) : u.isIdent c = false := by
  simp only [Unicode.isWhitespace, Unicode.isIdent, Unicode.isAlphanumeric, ha, if_true] at *
  have := asciiWs_not_alnum h
  simp [this.1, this.2.1]

theorem bang_not_ident (u : Unicode) : u.isIdent '!' = false := by
  have h1 : ascii '!' = true := by decide
  have h2 : ('!' : Char).isAlphanum = false := by decide
  simp [Unicode.isIdent, Unicode.isAlphanumeric, h1, h2]

theorem bang_not_ws (u : Unicode) : u.isWhitespace '!' = false := by
  have h1 : ascii '!' = true := by decide
  have h2 : asciiWs '!' = false := by decide
  simp [Unicode.isWhitespace, h1, h2]

theorem paren_not_ws (u : Unicode) : u.isWhitespace '(' = false := by
  have h1 : ascii '(' = true := by decide
  have h2 : asciiWs '(' = false := by decide
  simp [Unicode.isWhitespace, h1, h2]

/-! ## Lists -/

theorem dropWhile_append_of_all {α} {p : α → Bool} {a b : List α} (h : ∀ x ∈ a, p x = true) :
    (a ++ b).dropWhile p = b.dropWhile p := by
  induction a with
  | nil => rfl
  | cons x a ih =>
    simp only [List.cons_append, List.dropWhile_cons, h x (by simp), if_true]
    exact ih fun y hy => h y (by simp [hy])

theorem takeWhile_append_of_all {α} {p : α → Bool} {a b : List α} (h : ∀ x ∈ a, p x = true) :
    (a ++ b).takeWhile p = a ++ b.takeWhile p := by
  induction a with
  | nil => rfl
  | cons x a ih =>
    simp only [List.cons_append, List.takeWhile_cons, h x (by simp), if_true]
    rw [ih fun y hy => h y (by simp [hy])]

theorem mem_takeWhile {α} {p : α → Bool} {l : List α} {x : α} (h : x ∈ l.takeWhile p) : p x = true := by
  induction l with
  | nil => simp at h
  | cons y l ih =>
    rw [List.takeWhile_cons] at h
    split at h
    · rcases List.mem_cons.1 h with rfl | h
      · assumption
      · exact ih h
    · simp at h

theorem dropWhile_head {α} {p : α → Bool} {l : List α} {x : α} {r : List α} (h : l.dropWhile p = x :: r) :
    p x = false := by
  induction l with
  | nil => simp at h
  | cons y l ih =>
    rw [List.dropWhile_cons] at h
    split at h
    · exact ih h
    · rename_i hy
      cases h; simpa using hy

theorem takeWhile_dropWhile {α} {p : α → Bool} {l : List α} : l.takeWhile p ++ l.dropWhile p = l :=
  List.takeWhile_append_dropWhile

/-! ## Splitting ASCII text -/

theorem splitAtByte_ascii : ∀ (n : Nat) (t : Text), (∀ c ∈ t, ascii c = true) → n ≤ t.length →
    splitAtByte n t = some (t.take n, t.drop n) := by
  intro n t
  induction t generalizing n with
  | nil => intro _ h; cases n <;> simp at h; rfl
  | cons c t ih =>
    intro ha h
    cases n with
    | zero => rfl
    | succ n =>
      have hc : c.utf8Size = 1 := by simpa [ascii] using ha c (by simp)
      have := ih n (fun x hx => ha x (by simp [hx])) (by simpa using h)
      simp only [splitAtByte, hc]
      rw [if_pos (by omega), show n + 1 - 1 = n from rfl, this]
      rfl

/-! ## Matching brackets -/

/-- Balanced relative to an already open depth. -/
def BalAt (d : Nat) (t : Text) : Prop :=
  (∀ p, p <+: t → p.count ')' ≤ d + p.count '(') ∧ t.count ')' = d + t.count '('

theorem closeIdx_bal : ∀ (t : Text) (d idx : Nat) (rest : Text), BalAt d t →
    closeIdx (t ++ ')' :: rest) (d + 1) idx = some (idx + t.length) := by
  intro t
  induction t with
  | nil =>
    intro d idx rest h
    have : d = 0 := by have := h.2; simpa using this.symm
    subst this
    rfl
  | cons c t ih =>
    intro d idx rest h
    have hpre : ∀ p, p <+: t → (c :: p) <+: (c :: t) := fun p hp => List.cons_prefix_cons.2 ⟨rfl, hp⟩
    rw [List.cons_append, closeIdx]
    by_cases h1 : c = ')'
    · subst h1
      have hd : 1 ≤ d := by
        have := h.1 [')'] (by simp)
        simpa using this
      obtain ⟨e, rfl⟩ : ∃ e, d = e + 1 := ⟨d - 1, by omega⟩
      have hb : BalAt e t := by
        constructor
        · intro p hp
          have := h.1 _ (hpre p hp)
          simp at this
          omega
        · have := h.2
          simp at this
          omega
      rw [if_pos (by rfl), if_neg (by simp)]
      rw [show e + 1 + 1 - 1 = e + 1 from rfl, ih e (idx + 1) rest hb]
      simp; omega
    · rw [if_neg (by simpa using h1)]
      by_cases h2 : c = '('
      · subst h2
        have hb : BalAt (d + 1) t := by
          constructor
          · intro p hp
            have := h.1 _ (hpre p hp)
            simp at this
            omega
          · have := h.2
            simp at this
            omega
        rw [if_pos (by rfl), ih (d + 1) (idx + 1) rest hb]
        simp; omega
      · rw [if_neg (by simpa using h2)]
        have hb : BalAt d t := by
          constructor
          · intro p hp
            have := h.1 _ (hpre p hp)
            simpa [List.count_cons, h1, h2] using this
          · have := h.2
            simpa [List.count_cons, h1, h2] using this
        rw [ih d (idx + 1) rest hb]
        simp; omega

theorem closeIdx_some : ∀ (t : Text) (d idx n : Nat), closeIdx t (d + 1) idx = some n →
    ∃ a b, t = a ++ ')' :: b ∧ BalAt d a ∧ n = idx + a.length := by
  intro t
  induction t with
  | nil => intro d idx n h; simp [closeIdx] at h
  | cons c t ih =>
    intro d idx n h
    rw [closeIdx] at h
    have lift : ∀ (e : Nat) (a : Text), BalAt e a →
        ((c = ')' ∧ d = e + 1) ∨ (c = '(' ∧ e = d + 1) ∨ (c ≠ ')' ∧ c ≠ '(' ∧ e = d)) → BalAt d (c :: a) := by
      intro e a hb hc
      constructor
      · intro p hp
        cases p with
        | nil => simp
        | cons x p =>
          obtain ⟨hx, hp'⟩ := List.cons_prefix_cons.1 hp
          subst hx
          have := hb.1 p hp'
          rcases hc with ⟨rfl, rfl⟩ | ⟨rfl, rfl⟩ | ⟨h1, h2, rfl⟩
          · simp; omega
          · simp; omega
          · simpa [List.count_cons, h1, h2] using this
      · have := hb.2
        rcases hc with ⟨rfl, rfl⟩ | ⟨rfl, rfl⟩ | ⟨h1, h2, rfl⟩
        · simp; omega
        · simp; omega
        · simpa [List.count_cons, h1, h2] using this
    split at h
    · rename_i hc
      have hc : c = ')' := by simpa using hc
      split at h
      · rename_i hd
        have hd : d = 0 := by simpa using hd
        cases h
        exact ⟨[], t, by simp [hc], ⟨by simp, by simp [hd]⟩, by simp⟩
      · rename_i hd
        have hd : d ≠ 0 := by simpa using hd
        obtain ⟨e, rfl⟩ : ∃ e, d = e + 1 := ⟨d - 1, by omega⟩
        obtain ⟨a, b, rfl, hb, rfl⟩ := ih e (idx + 1) n h
        exact ⟨c :: a, b, rfl, lift e a hb (Or.inl ⟨hc, rfl⟩), by simp; omega⟩
    · rename_i hc
      have hc : c ≠ ')' := by simpa using hc
      split at h
      · rename_i ho
        obtain ⟨a, b, rfl, hb, rfl⟩ := ih (d + 1) (idx + 1) n h
        exact ⟨c :: a, b, rfl, lift (d + 1) a hb (Or.inr (Or.inl ⟨by simpa using ho, rfl⟩)), by simp; omega⟩
      · rename_i ho
        obtain ⟨a, b, rfl, hb, rfl⟩ := ih d (idx + 1) n h
        exact ⟨c :: a, b, rfl, lift d a hb (Or.inr (Or.inr ⟨hc, by simpa using ho, rfl⟩)), by simp; omega⟩

/-! ## `find_macro` recognises exactly the calls -/

theorem findMacro_render (u : Unicode) (c : Call) (rest : Text) (hw : Call.WF u c)
    (ha : ∀ x ∈ c.render ++ rest, ascii x = true) :
    findMacro u (c.render ++ rest) = .call c.id (params u c.inner) (')' :: rest) := by
  have hmem : ∀ x, x ∈ c.ws1 ∨ x ∈ c.inner ∨ x ∈ rest → ascii x = true := by
    intro x hx; apply ha; simp only [Call.render, List.mem_append, List.mem_cons]
    grind
  have hass : c.render ++ rest = c.id ++ (c.ws1 ++ '!' :: (c.ws2 ++ '(' :: (c.inner ++ ')' :: rest))) := by
    simp [Call.render]
  have hd1 : (c.ws1 ++ '!' :: (c.ws2 ++ '(' :: (c.inner ++ ')' :: rest))).dropWhile u.isIdent =
      c.ws1 ++ '!' :: (c.ws2 ++ '(' :: (c.inner ++ ')' :: rest)) ∧
      (c.ws1 ++ '!' :: (c.ws2 ++ '(' :: (c.inner ++ ')' :: rest))).takeWhile u.isIdent = [] := by
    cases hw1 : c.ws1 with
    | nil => simp [List.dropWhile_cons, List.takeWhile_cons, bang_not_ident]
    | cons w ws =>
      have : u.isIdent w = false := ws_not_ident u (hmem w (by simp [hw1])) (hw.ws1 w (by simp [hw1]))
      simp [List.dropWhile_cons, List.takeWhile_cons, this]
  rw [hass, findMacro, dropWhile_append_of_all hw.ident, takeWhile_append_of_all hw.ident, hd1.1, hd1.2]
  have hb : findBang u (c.id ++ []) (c.ws1 ++ '!' :: (c.ws2 ++ '(' :: (c.inner ++ ')' :: rest))) =
      .call c.id (params u c.inner) (')' :: rest) := by
    have ex : ascii '!' = true := by decide
    have ep : ascii '(' = true := by decide
    rw [findBang, dropWhile_append_of_all hw.ws1]
    simp only [List.dropWhile_cons, bang_not_ws, ex]
    simp only [Bool.not_true, Bool.false_eq_true, if_false, bne_self_eq_false, List.append_nil]
    rw [findParen, dropWhile_append_of_all hw.ws2]
    simp only [List.dropWhile_cons, paren_not_ws, ep]
    simp only [Bool.not_true, Bool.false_eq_true, if_false, bne_self_eq_false]
    have hcl := closeIdx_bal c.inner 0 0 rest ⟨by simpa using hw.bal.1, by simpa using hw.bal.2⟩
    rw [findArgs, show (1 : Nat) = 0 + 1 from rfl, hcl]
    have hsp := splitAtByte_ascii c.inner.length (c.inner ++ ')' :: rest)
      (by
        intro x hx
        simp only [List.mem_append, List.mem_cons] at hx
        rcases hx with h | rfl | h
        · exact hmem x (by simp [h])
        · decide
        · exact hmem x (by simp [h])) (by simp)
    simp only [Nat.zero_add, hsp]
    simp [ex, ep]
  revert hb
  cases hx : c.ws1 ++ '!' :: (c.ws2 ++ '(' :: (c.inner ++ ')' :: rest)) with
  | nil => simp at hx
  | cons y l => exact id

theorem findMacro_cases (u : Unicode) (a : Char) (as : Text) (hal : u.isAlphabetic a = true)
    (ha : ∀ x ∈ a :: as, ascii x = true) :
    (findMacro u (a :: as) = .no ∧ ¬ StartsCall u (a :: as)) ∨
      ∃ c rest, Call.WF u c ∧ a :: as = c.render ++ rest ∧
        findMacro u (a :: as) = .call c.id (params u c.inner) (')' :: rest) := by
  have no_or : findMacro u (a :: as) = .no ∨ ∃ c rest, Call.WF u c ∧ a :: as = c.render ++ rest := by
    have hid : u.isIdent a = true := alpha_ident u (ha a (by simp)) hal
    have e1 := @takeWhile_dropWhile _ u.isIdent (a :: as)
    have hcode : ∀ x ∈ (a :: as).dropWhile u.isIdent, ascii x = true := by
      intro x hx; exact ha x ((List.dropWhile_suffix _).subset hx)
    rw [findMacro]
    cases hd : (a :: as).dropWhile u.isIdent with
    | nil => exact Or.inl rfl
    | cons x r1 =>
      simp only
      rw [hd] at e1 hcode
      rw [findBang]
      have e2 := @takeWhile_dropWhile _ u.isWhitespace (x :: r1)
      cases hd2 : (x :: r1).dropWhile u.isWhitespace with
      | nil => exact Or.inl rfl
      | cons y r3 =>
        simp only
        rw [hd2] at e2
        have hy : ascii y = true := hcode y (by rw [← e2]; simp)
        simp only [hy, Bool.not_true, Bool.false_eq_true, if_false]
        by_cases hyb : y = '!'
        · subst hyb
          simp only [bne_self_eq_false, Bool.false_eq_true, if_false]
          rw [findParen]
          have e3 := @takeWhile_dropWhile _ u.isWhitespace r3
          have hr3 : ∀ z ∈ r3, ascii z = true := fun z hz => hcode z (by rw [← e2]; simp [hz])
          cases hd3 : r3.dropWhile u.isWhitespace with
          | nil => exact Or.inl rfl
          | cons z r5 =>
            simp only
            rw [hd3] at e3
            have hz : ascii z = true := hr3 z (by rw [← e3]; simp)
            simp only [hz, Bool.not_true, Bool.false_eq_true, if_false]
            by_cases hzp : z = '('
            · subst hzp
              simp only [bne_self_eq_false, Bool.false_eq_true, if_false]
              rw [findArgs]
              cases hcl : closeIdx r5 1 0 with
              | none => exact Or.inl rfl
              | some n =>
                obtain ⟨inner, rest, rfl, hb, -⟩ := closeIdx_some r5 0 0 n hcl
                refine Or.inr ⟨⟨(a :: as).takeWhile u.isIdent, (x :: r1).takeWhile u.isWhitespace,
                  r3.takeWhile u.isWhitespace, inner⟩, rest, ?_, ?_⟩
                · refine ⟨⟨a, as.takeWhile u.isIdent, ?_, hal⟩, fun x hx => mem_takeWhile hx,
                    fun x hx => mem_takeWhile hx, fun x hx => mem_takeWhile hx, ?_⟩
                  · simp [List.takeWhile_cons, hid]
                  · exact ⟨by simpa using hb.1, by simpa using hb.2⟩
                · rw [← e1]
                  simp only [Call.render, List.append_assoc, List.cons_append, List.nil_append]
                  rw [e1]
                  conv => lhs; rw [← e1, ← e2, ← e3]
            · have : (z != '(') = true := by simpa using hzp
              simp only [this, if_true]; exact Or.inl trivial
        · have : (y != '!') = true := by simpa using hyb
          simp only [this, if_true]; exact Or.inl trivial
  by_cases hs : StartsCall u (a :: as)
  · obtain ⟨c, rest, hw, he⟩ := hs
    exact Or.inr ⟨c, rest, hw, he, by rw [he]; exact findMacro_render u c rest hw (by rw [← he]; exact ha)⟩
  · rcases no_or with h | ⟨c, rest, hw, he⟩
    · exact Or.inl ⟨h, hs⟩
    · exact absurd ⟨c, rest, hw, he⟩ hs

/-! ## Reading a template is unambiguous -/

theorem starts_head {u : Unicode} {c : Char} {t : Text} (h : StartsCall u (c :: t)) : u.isAlphabetic c = true := by
  obtain ⟨cl, rest, hw, he⟩ := h
  obtain ⟨a, as, hi, ha⟩ := hw.head
  simp only [Call.render, hi, List.cons_append] at he
  cases he
  exact ha

theorem starts_cons {u : Unicode} {c : Char} {t : Text} (hc : u.isAlphabetic c = true) (hi : u.isIdent c = true)
    (h : StartsCall u t) : StartsCall u (c :: t) := by
  obtain ⟨cl, rest, hw, rfl⟩ := h
  refine ⟨⟨c :: cl.id, cl.ws1, cl.ws2, cl.inner⟩, rest, ⟨⟨c, cl.id, rfl, hc⟩, ?_, hw.ws1, hw.ws2, hw.bal⟩, ?_⟩
  · intro x hx
    rcases List.mem_cons.1 hx with rfl | hx
    · exact hi
    · exact hw.ident x hx
  · simp [Call.render]

theorem parse_chr {u : Unicode} {c : Char} {t : Text} {ps : List Piece} (h : Parse u (c :: t) ps)
    (hn : ¬ StartsCall u (c :: t)) : ∃ ps', ps = .chr c :: ps' ∧ Parse u t ps' := by
  generalize he : c :: t = code at h
  cases h with
  | nil => cases he
  | call hw hp => exact absurd ⟨_, _, hw, he⟩ hn
  | chr hn' hp => cases he; exact ⟨_, rfl, hp⟩

theorem parse_nil {u : Unicode} {ps : List Piece} (h : Parse u [] ps) : ps = [] := by
  generalize he : ([] : Text) = code at h
  cases h with
  | nil => rfl
  | call hw hp => rename_i c rest _; have := congrArg List.length he; simp [Call.render] at this
  | chr => cases he

theorem parse_nonalpha {u : Unicode} : ∀ (x rest : Text) (ps : List Piece), (∀ c ∈ x, u.isAlphabetic c = false) →
    Parse u (x ++ rest) ps → ∃ ps', ps = x.map .chr ++ ps' ∧ Parse u rest ps' := by
  intro x
  induction x with
  | nil => intro rest ps _ h; exact ⟨ps, rfl, h⟩
  | cons c x ih =>
    intro rest ps hx h
    obtain ⟨ps', rfl, h'⟩ := parse_chr h fun hs => by
      have := starts_head hs
      rw [hx c (by simp)] at this
      cases this
    obtain ⟨ps'', rfl, h''⟩ := ih rest ps' (fun d hd => hx d (by simp [hd])) h'
    exact ⟨ps'', rfl, h''⟩

theorem parse_alpha {u : Unicode} : ∀ (x rest : Text) (ps : List Piece), (∀ c ∈ x, u.isAlphabetic c = true) →
    (∀ c ∈ x, ascii c = true) → ¬ StartsCall u (x ++ rest) →
    Parse u (x ++ rest) ps → ∃ ps', ps = x.map .chr ++ ps' ∧ Parse u rest ps' := by
  intro x
  induction x with
  | nil => intro rest ps _ _ _ h; exact ⟨ps, rfl, h⟩
  | cons c x ih =>
    intro rest ps hx ha hn h
    obtain ⟨ps', rfl, h'⟩ := parse_chr h hn
    have hn' : ¬ StartsCall u (x ++ rest) := fun hs =>
      hn (starts_cons (hx c (by simp)) (alpha_ident u (ha c (by simp)) (hx c (by simp))) hs)
    obtain ⟨ps'', rfl, h''⟩ := ih rest ps' (fun d hd => hx d (by simp [hd])) (fun d hd => ha d (by simp [hd])) hn' h'
    exact ⟨ps'', rfl, h''⟩

theorem run_chrs {σ ε} (u : Unicode) (exp : σ → Text → List Text → Except ε (Text × σ)) (s : σ) (x : Text)
    (ps : List Piece) : run u exp s (x.map .chr ++ ps) = (run u exp s ps).map fun (t, s') => (x ++ t, s') := by
  induction x with
  | nil => cases h : run u exp s ps <;> simp [Except.map, h]
  | cons c x ih =>
    simp only [List.map_cons, List.cons_append, run, ih]
    cases run u exp s ps <;> rfl

theorem except_map_map {ε α β γ} (f : α → β) (g : β → γ) (x : Except ε α) : (x.map f).map g = x.map fun a => g (f a) := by
  cases x <;> rfl

theorem render_length (c : Call) : 0 < c.render.length := by simp [Call.render]; omega

theorem expandLoop_run {σ ε} (u : Unicode) (exp : σ → Text → List Text → Except ε (Text × σ)) :
    ∀ (fuel : Nat) (s : σ) (ret code : Text) (ps : List Piece), (∀ c ∈ code, ascii c = true) → code.length < fuel →
      Parse u code ps →
      expandLoop u exp fuel s ret code = Out.ofExcept ((run u exp s ps).map fun (t, s') => (ret ++ t, s')) := by
  intro fuel
  induction fuel with
  | zero => intro _ _ _ _ _ h; omega
  | succ fuel ih =>
    intro s ret code ps ha hl hp
    have e1 := @takeWhile_dropWhile _ (fun c => !u.isAlphabetic c) code
    have hx : ∀ c ∈ code.takeWhile (fun c => !u.isAlphabetic c), u.isAlphabetic c = false := fun c hc => by
      simpa using mem_takeWhile hc
    rw [← e1] at hp
    obtain ⟨ps1, rfl, hp1⟩ := parse_nonalpha _ _ _ hx hp
    rw [run_chrs, except_map_map, expandLoop]
    cases hd : code.dropWhile (fun c => !u.isAlphabetic c) with
    | nil =>
      rw [hd] at hp1 e1
      cases parse_nil hp1
      simp only [List.append_nil] at e1
      simp only [run, Except.map, Out.ofExcept, List.append_nil, e1]
    | cons a rest =>
      rw [hd] at hp1 e1
      have hal : u.isAlphabetic a = true := by simpa using dropWhile_head hd
      have harest : ∀ x ∈ a :: rest, ascii x = true := fun x hx' => ha x (by rw [← e1]; exact List.mem_append_right _ hx')
      have hlen : (a :: rest).length ≤ code.length := by rw [← e1]; simp
      rcases findMacro_cases u a rest hal harest with ⟨hno, hns⟩ | ⟨c, r, hw, he, hcall⟩
      · simp only [hno]
        have e2 := @takeWhile_dropWhile _ u.isAlphabetic (a :: rest)
        have hx2 : ∀ c ∈ (a :: rest).takeWhile u.isAlphabetic, u.isAlphabetic c = true := fun c hc => mem_takeWhile hc
        have ha2 : ∀ c ∈ (a :: rest).takeWhile u.isAlphabetic, ascii c = true := fun c hc =>
          harest c ((List.takeWhile_prefix _).subset hc)
        rw [← e2] at hp1 hns
        obtain ⟨ps2, rfl, hp2⟩ := parse_alpha _ _ _ hx2 ha2 hns hp1
        rw [run_chrs, except_map_map]
        cases hd2 : (a :: rest).dropWhile u.isAlphabetic with
        | nil =>
          rw [hd2] at hp2 e2
          cases parse_nil hp2
          simp only [List.append_nil] at e2
          simp only [run, Except.map, Out.ofExcept, List.append_nil, e2]
          rw [List.append_assoc]
        | cons b rest' =>
          rw [hd2] at hp2 e2
          have hlt : (b :: rest').length < (a :: rest).length := by
            have : (a :: rest).takeWhile u.isAlphabetic ≠ [] := by simp [List.takeWhile_cons, hal]
            have hpos := List.length_pos_iff.2 this
            have := congrArg List.length e2
            simp only [List.length_append] at this
            omega
          simp only
          rw [ih s _ (b :: rest') ps2 (fun x hx' => harest x (by rw [← e2]; exact List.mem_append_right _ hx'))
            (by omega) hp2]
          simp only [List.append_assoc]
      · simp only [hcall]
        have hps : ∃ ps2, ps1 = .call c :: ps2 ∧ Parse u r ps2 ∨
            ∃ c' r', ps1 = .call c' :: ps2 ∧ Call.WF u c' ∧ a :: rest = c'.render ++ r' ∧ Parse u r' ps2 := by
          generalize hq : a :: rest = q at hp1
          cases hp1 with
          | nil => cases hq
          | call hw' hp' => exact ⟨_, Or.inr ⟨_, _, rfl, hw', rfl, hp'⟩⟩
          | chr hn' hp' => exact absurd ⟨c, r, hw, hq ▸ he⟩ hn'
        obtain ⟨ps2, hps⟩ := hps
        have fin : ∀ c' r', Call.WF u c' → a :: rest = c'.render ++ r' → Parse u r' ps2 → ps1 = .call c' :: ps2 →
            (match exp s c.id (params u c.inner) with
              | .error e => .error e
              | .ok (t, s') =>
                match splitAtByte 1 (')' :: r) with
                | none => .panic
                | some (_, r'') => expandLoop u exp fuel s'
                    ((ret ++ code.takeWhile (fun c => !u.isAlphabetic c)) ++ t) r'') =
              Out.ofExcept ((run u exp s ps1).map fun (x : Text × σ) =>
                (ret ++ (code.takeWhile (fun c => !u.isAlphabetic c) ++ x.1), x.2)) := by
          intro c' r' hw' he' hp' heq
          have h2 := findMacro_render u c' r' hw' (by rw [← he']; exact harest)
          rw [← he', hcall] at h2
          simp only [Found.call.injEq, List.cons.injEq, true_and] at h2
          obtain ⟨hi, hpa, hr⟩ := h2
          rw [heq, run, ← hi, ← hpa]
          cases hexp : exp s c.id (params u c.inner) with
          | error e => rfl
          | ok v =>
            obtain ⟨t, s'⟩ := v
            simp only
            have hsp : splitAtByte 1 (')' :: r) = some ([')'], r) := by
              have : (')' : Char).utf8Size = 1 := by decide
              simp [splitAtByte, this]
            simp only [hsp]
            rw [hr]
            have hlt := render_length c'
            have hle : r'.length < (a :: rest).length := by rw [he']; simp; omega
            rw [ih s' _ r' ps2 (fun x hx' => harest x (by rw [he']; exact List.mem_append_right _ hx')) (by omega) hp',
              except_map_map]
            simp only [List.append_assoc]
        rcases hps with ⟨rfl, hp'⟩ | ⟨c', r', heq, hw', he', hp'⟩
        · exact fin c r hw he hp' rfl
        · exact fin c' r' hw' he' hp' heq

/-! ## Theorems -/

/-- **C20**: every template can be read as a sequence of characters and macro calls. -/
theorem C20_every_template_readable (u : Unicode) (code : Text) : ∃ ps, Parse u code ps := by
  suffices h : ∀ n (code : Text), code.length ≤ n → ∃ ps, Parse u code ps from h _ code (Nat.le_refl _)
  intro n
  induction n with
  | zero => intro code h; cases code with
    | nil => exact ⟨[], .nil⟩
    | cons => simp at h
  | succ n ih =>
    intro code h
    cases code with
    | nil => exact ⟨[], .nil⟩
    | cons c t =>
      by_cases hs : StartsCall u (c :: t)
      · obtain ⟨cl, rest, hw, he⟩ := hs
        have := render_length cl
        have hl : (c :: t).length = cl.render.length + rest.length := by rw [he]; simp
        obtain ⟨ps, hp⟩ := ih rest (by simp only [List.length_cons] at *; omega)
        exact ⟨_, he ▸ Parse.call hw hp⟩
      · obtain ⟨ps, hp⟩ := ih t (by simpa using h)
        exact ⟨_, Parse.chr hs hp⟩

/-- **C20**: expanding an ASCII template gives exactly the intended text: everything outside calls is copied in order,
each call is replaced by its expansion (called once, in order, with its name and parameters), the first expansion error
is returned, and nothing panics. -/
theorem C20_expand {σ ε} (u : Unicode) (exp : σ → Text → List Text → Except ε (Text × σ)) (s : σ) (code : Text)
    (ps : List Piece) (ha : ∀ c ∈ code, ascii c = true) (hp : Parse u code ps) :
    expandMacroses u exp s code = Out.ofExcept (run u exp s ps) := by
  rw [expandMacroses, expandLoop_run u exp _ s [] code ps ha (by omega) hp]
  cases run u exp s ps <;> rfl

theorem run_flatten_chr {σ ε} (u : Unicode) (exp : σ → Text → List Text → Except ε (Text × σ)) (s : σ) (x : Text) :
    run u exp s (x.map .chr) = .ok (x, s) := by
  have := run_chrs u exp s x []
  simpa [run, Except.map] using this

/-- **C20**: a template without calls is returned unchanged and the expander is not run. -/
theorem C20_no_call_unchanged {σ ε} (u : Unicode) (exp : σ → Text → List Text → Except ε (Text × σ)) (s : σ)
    (code : Text) (ha : ∀ c ∈ code, ascii c = true) (hn : ∀ t, t <:+ code → ¬ StartsCall u t) :
    expandMacroses u exp s code = .ok (code, s) := by
  have hp : Parse u code (code.map .chr) := by
    clear ha
    induction code with
    | nil => exact .nil
    | cons c t ih =>
      exact .chr (hn _ (List.suffix_refl _)) (ih fun t' ht' => hn t' (ht'.trans (List.suffix_cons c t)))
  rw [C20_expand u exp s code _ ha hp, run_flatten_chr]
  rfl

/-- **C20**: in particular, so is every template that has no exclamation mark. -/
theorem C20_no_bang_unchanged {σ ε} (u : Unicode) (exp : σ → Text → List Text → Except ε (Text × σ)) (s : σ)
    (code : Text) (ha : ∀ c ∈ code, ascii c = true) (hn : '!' ∉ code) :
    expandMacroses u exp s code = .ok (code, s) := by
  apply C20_no_call_unchanged u exp s code ha
  rintro t ht ⟨c, rest, -, rfl⟩
  apply hn
  apply ht.subset
  simp [Call.render]

/-- **C20**: a call in the middle of call-free text: the surroundings are kept, the call is replaced, and the rest is
expanded the same way.  (The text before the call must not end in an identifier character: it would be part of the
macro name.) -/
theorem C20_one_call {σ ε} (u : Unicode) (exp : σ → Text → List Text → Except ε (Text × σ)) (s s' : σ)
    (pre post t : Text) (c : Call) (hw : Call.WF u c)
    (ha : ∀ x ∈ pre ++ (c.render ++ post), ascii x = true)
    (hpre : ∀ x ∈ pre, u.isAlphabetic x = false)
    (hpost : ∀ r, r <:+ post → ¬ StartsCall u r)
    (he : exp s c.id (params u c.inner) = .ok (t, s')) :
    expandMacroses u exp s (pre ++ (c.render ++ post)) = .ok (pre ++ (t ++ post), s') := by
  have hpp : Parse u post (post.map .chr) := by
    clear ha
    induction post with
    | nil => exact .nil
    | cons x r ih =>
      exact .chr (hpost _ (List.suffix_refl _)) (ih fun t' ht' => hpost t' (ht'.trans (List.suffix_cons x r)))
  have hp : Parse u (pre ++ (c.render ++ post)) (pre.map .chr ++ .call c :: post.map .chr) := by
    clear ha
    induction pre with
    | nil => exact .call hw hpp
    | cons x r ih =>
      refine .chr (fun hs => ?_) (ih fun y hy => hpre y (by simp [hy]))
      have := starts_head hs
      rw [hpre x (by simp)] at this
      cases this
  rw [C20_expand u exp s _ _ ha hp, run_chrs, run, he]
  simp only [run_flatten_chr]
  rfl

/-- **C20**: the reading of a template is unique, so the expansion result does not depend on how it is read. -/
theorem C20_reading_unique (u : Unicode) (code : Text) (ha : ∀ c ∈ code, ascii c = true) (ps qs : List Piece)
    (hp : Parse u code ps) (hq : Parse u code qs) :
    ps.map (fun | .chr c => (Sum.inl c : Char ⊕ Text × List Text) | .call c => .inr (c.id, params u c.inner)) =
      qs.map (fun | .chr c => (Sum.inl c : Char ⊕ Text × List Text) | .call c => .inr (c.id, params u c.inner)) := by
  induction hp generalizing qs with
  | nil => generalize hc : ([] : Text) = code at hq; cases hq with
    | nil => rfl
    | call hw _ => exact absurd (congrArg List.length hc) (by simp [Call.render])
    | chr => cases hc
  | call hw _ ih =>
    rename_i c rest ps _
    generalize hc : c.render ++ rest = code at hq
    cases hq with
    | nil => exact absurd (congrArg List.length hc) (by simp [Call.render])
    | call hw' hq' =>
      rename_i c' rest' qs'
      have h1 := findMacro_render u c rest hw ha
      have h2 := findMacro_render u c' rest' hw' (by rw [← hc]; exact ha)
      rw [hc, h2] at h1
      simp only [Found.call.injEq, List.cons.injEq, true_and] at h1
      obtain ⟨hi, hpa, rfl⟩ := h1
      simp only [List.map_cons, hi, hpa]
      rw [ih (fun x hx => ha x (by simp [hx])) _ hq']
    | chr hn => exact absurd ⟨c, rest, hw, hc.symm⟩ hn
  | chr hn _ ih =>
    rename_i c rest ps _
    obtain ⟨qs', rfl, hq'⟩ := parse_chr hq hn
    simp only [List.map_cons]
    rw [ih (fun x hx => ha x (by simp [hx])) _ hq']

theorem findMacro_call_length (u : Unicode) (code id : Text) (ps : List Text) (r : Text)
    (h : findMacro u code = .call id ps r) : r.length ≤ code.length := by
  have dw : ∀ (p : Char → Bool) (l : Text), (l.dropWhile p).length ≤ l.length := fun p l =>
    (List.dropWhile_suffix _).length_le
  have sp : ∀ (n : Nat) (t a b : Text), splitAtByte n t = some (a, b) → b.length ≤ t.length := by
    intro n t
    induction t generalizing n with
    | nil => intro a b h; cases n <;> simp [splitAtByte] at h; simp [h]
    | cons c t ih =>
      intro a b h
      cases n with
      | zero => simp [splitAtByte] at h; rw [← h.2]; simp
      | succ n =>
        simp only [splitAtByte] at h
        split at h
        · cases hq : splitAtByte (n + 1 - c.utf8Size) t with
          | none => rw [hq] at h; cases h
          | some v =>
            obtain ⟨a', b'⟩ := v
            rw [hq] at h
            cases h
            have := ih _ _ _ hq
            simp; omega
        · cases h
  have d1 := dw u.isIdent code
  rw [findMacro] at h
  cases h1 : code.dropWhile u.isIdent with
  | nil => rw [h1] at h; cases h
  | cons x r1 =>
    rw [h1] at h d1
    simp only [findBang] at h
    have d2 := dw u.isWhitespace (x :: r1)
    cases h2 : (x :: r1).dropWhile u.isWhitespace with
    | nil => rw [h2] at h; cases h
    | cons y r3 =>
      rw [h2] at h d2
      simp only at h
      split at h
      · cases h
      split at h
      · cases h
      rw [findParen] at h
      have d3 := dw u.isWhitespace r3
      cases h3 : r3.dropWhile u.isWhitespace with
      | nil => rw [h3] at h; cases h
      | cons z r5 =>
        rw [h3] at h d3
        simp only at h
        split at h
        · cases h
        split at h
        · cases h
        rw [findArgs] at h
        split at h
        · cases h
        · split at h
          · cases h
          · rename_i hs
            have := sp _ _ _ _ hs
            cases h
            simp only [List.length_cons] at *
            omega

/-- **C20**: for every template whatsoever (non-ASCII included) the scan ends. -/
theorem C20_no_fuel {σ ε} (u : Unicode) (exp : σ → Text → List Text → Except ε (Text × σ)) (s : σ) (code : Text) :
    expandMacroses u exp s code ≠ .fuel := by
  suffices h : ∀ fuel s ret (code : Text), code.length < fuel → expandLoop u exp fuel s ret code ≠ .fuel from
    h _ s [] code (by omega)
  intro fuel
  induction fuel with
  | zero => intro _ _ _ h; omega
  | succ fuel ih =>
    intro s ret code hl
    rw [expandLoop]
    have hs := (List.dropWhile_suffix (l := code) (fun c => !u.isAlphabetic c)).length_le
    cases hd : code.dropWhile (fun c => !u.isAlphabetic c) with
    | nil => exact fun h => nomatch h
    | cons a rest =>
      rw [hd] at hs
      have hal : u.isAlphabetic a = true := by simpa using dropWhile_head hd
      cases hf : findMacro u (a :: rest) with
      | panic => simp only [hf]; exact fun h => nomatch h
      | no =>
        simp only [hf]
        have e2 := @takeWhile_dropWhile _ u.isAlphabetic (a :: rest)
        cases hd2 : (a :: rest).dropWhile u.isAlphabetic with
        | nil => exact fun h => nomatch h
        | cons b rest' =>
          simp only
          apply ih
          rw [hd2] at e2
          have : (a :: rest).takeWhile u.isAlphabetic ≠ [] := by simp [List.takeWhile_cons, hal]
          have hpos := List.length_pos_iff.2 this
          have := congrArg List.length e2
          simp only [List.length_append] at this
          omega
      | call id ps r =>
        simp only [hf]
        have := findMacro_call_length u _ _ _ _ hf
        split
        · exact fun h => nomatch h
        · split
          · exact fun h => nomatch h
          · rename_i hsp
            apply ih
            cases r with
            | nil => simp [splitAtByte] at hsp
            | cons x r =>
              simp only [splitAtByte] at hsp
              split at hsp
              · have hx : x.utf8Size = 1 := by
                  have := x.utf8Size_pos
                  omega
                rw [hx] at hsp
                simp [splitAtByte] at hsp
                rw [← hsp.2]
                simp only [List.length_cons] at *
                omega
              · cases hsp

/-! ### Parameters -/

theorem splitComma_noComma (t : Text) (h : ',' ∉ t) : splitComma t = [t] := by
  induction t with
  | nil => rfl
  | cons c t ih =>
    have hc : c ≠ ',' := by rintro rfl; exact h (by simp)
    rw [splitComma, if_neg (by simpa using hc), ih (fun hm => h (by simp [hm]))]

theorem splitComma_append (a b : Text) (h : ',' ∉ a) : splitComma (a ++ ',' :: b) = a :: splitComma b := by
  induction a with
  | nil => simp [splitComma]
  | cons c a ih =>
    have hc : c ≠ ',' := by rintro rfl; exact h (by simp)
    rw [List.cons_append, splitComma, if_neg (by simpa using hc), ih (fun hm => h (by simp [hm]))]

/-- Arguments written with a comma between them. -/
def joinComma : List Text → Text
  | [] => []
  | [a] => a
  | a :: b :: l => a ++ ',' :: joinComma (b :: l)

theorem splitComma_join (a : Text) (l : List Text) (h : ∀ x ∈ a :: l, ',' ∉ x) :
    splitComma (joinComma (a :: l)) = a :: l := by
  induction l generalizing a with
  | nil => exact splitComma_noComma a (h a (by simp))
  | cons b l ih =>
    rw [joinComma, splitComma_append _ _ (h a (by simp)), ih b (fun x hx => h x (by simp [hx]))]

/-- No white space at either end. -/
def Trimmed (u : Unicode) (t : Text) : Prop :=
  (∀ c, t.head? = some c → u.isWhitespace c = false) ∧ (∀ c, t.getLast? = some c → u.isWhitespace c = false)

theorem trim_of_trimmed (u : Unicode) {t : Text} (h : Trimmed u t) : trim u t = t := by
  have dw : ∀ l : Text, (∀ c, l.head? = some c → u.isWhitespace c = false) → l.dropWhile u.isWhitespace = l := by
    intro l hl
    cases l with
    | nil => rfl
    | cons c l => simp [List.dropWhile_cons, hl c rfl]
  rw [trim, dw t h.1, dw t.reverse (by intro c hc; exact h.2 c (by simpa using hc))]
  simp

/-- **C20**: the parameters of a call are exactly the arguments written between the brackets, in order. -/
theorem C20_params (u : Unicode) (a : Text) (l : List Text) (hc : ∀ x ∈ a :: l, ',' ∉ x)
    (ht : ∀ x ∈ a :: l, Trimmed u x) (hne : ∀ x ∈ a :: l, x ≠ []) : params u (joinComma (a :: l)) = a :: l := by
  have hj : Trimmed u (joinComma (a :: l)) := by
    have hne' : ∀ (a : Text) l, a ≠ [] → joinComma (a :: l) ≠ [] := by
      intro a l h
      cases l with
      | nil => exact h
      | cons b l => simp [joinComma]
    constructor
    · intro c h
      cases l with
      | nil => exact (ht a (by simp)).1 c h
      | cons b l =>
        rw [joinComma, List.head?_append] at h
        cases ha : a with
        | nil => exact absurd ha (hne a (by simp))
        | cons x a' =>
          rw [ha] at h
          exact (ht a (by simp)).1 c (by rw [ha]; simpa using h)
    · induction l generalizing a with
      | nil => exact (ht a (by simp)).2
      | cons b l ih =>
        intro c h
        apply ih b (fun x hx => hc x (by simp [hx])) (fun x hx => ht x (by simp [hx])) (fun x hx => hne x (by simp [hx])) c
        rw [joinComma, List.getLast?_append, List.getLast?_cons] at h
        have := hne' b l (hne b (by simp))
        cases hq : (joinComma (b :: l)).getLast? with
        | none => exact absurd (List.getLast?_eq_none_iff.1 hq) this
        | some d => rw [hq] at h; simpa using h
  rw [params, trim_of_trimmed u hj, splitComma_join a l hc]
  have hm : (a :: l).map (trim u) = a :: l := by
    have : ∀ x ∈ a :: l, trim u x = x := fun x hx => trim_of_trimmed u (ht x hx)
    exact (List.map_congr_left this).trans (by simp)
  rw [hm, List.filter_eq_self]
  intro x hx
  have := hne x hx
  cases x <;> simp_all

theorem splitComma_ne_nil (t : Text) : splitComma t ≠ [] := by
  induction t with
  | nil => simp [splitComma]
  | cons c t ih => rw [splitComma]; split; simp; split <;> simp

theorem trim_cons (u : Unicode) (c : Char) (t : Text) (h : u.isWhitespace c = true) : trim u (c :: t) = trim u t := by
  simp [trim, List.dropWhile_cons, h]

theorem dropWhile_snoc (p : Char → Bool) (t : Text) (c : Char) (h : p c = true) :
    (t ++ [c]).dropWhile p = (if t.dropWhile p = [] then [] else t.dropWhile p ++ [c]) := by
  induction t with
  | nil => simp [List.dropWhile_cons, h]
  | cons a t ih =>
    simp only [List.cons_append, List.dropWhile_cons]
    split
    · exact ih
    · simp

theorem trim_snoc (u : Unicode) (t : Text) (c : Char) (h : u.isWhitespace c = true) : trim u (t ++ [c]) = trim u t := by
  rw [trim, dropWhile_snoc _ _ _ h]
  split
  · rename_i e; simp [trim, e]
  · simp [trim, List.dropWhile_cons, h]

theorem map_trim_dropWhile (u : Unicode) (t : Text) (hcm : u.isWhitespace ',' = false) :
    (splitComma (t.dropWhile u.isWhitespace)).map (trim u) = (splitComma t).map (trim u) := by
  induction t with
  | nil => rfl
  | cons c t ih =>
    rw [List.dropWhile_cons]
    split
    · rename_i hc
      rw [ih]
      have hne : c ≠ ',' := by rintro rfl; rw [hcm] at hc; exact nomatch hc
      rw [splitComma, if_neg (by simpa using hne)]
      split
      · rename_i e; exact absurd e (splitComma_ne_nil t)
      · rename_i p ps e
        rw [e]; simp [trim_cons u c p hc]
    · rfl

theorem splitComma_snoc (t : Text) (c : Char) (h : c ≠ ',') :
    ∃ init last, splitComma t = init ++ [last] ∧ splitComma (t ++ [c]) = init ++ [last ++ [c]] := by
  induction t with
  | nil => exact ⟨[], [], by simp [splitComma], by simp [splitComma, h]⟩
  | cons a t ih =>
    obtain ⟨init, last, h1, h2⟩ := ih
    by_cases ha : a = ','
    · subst ha
      exact ⟨[] :: init, last, by simp [splitComma, h1], by simp [splitComma, h2]⟩
    · rw [List.cons_append, splitComma, if_neg (by simpa using ha), splitComma, if_neg (by simpa using ha), h1, h2]
      cases init with
      | nil => exact ⟨[], a :: last, by simp, by simp⟩
      | cons p ps => exact ⟨(a :: p) :: ps, last, by simp, by simp⟩

theorem map_trim_dropEnd (u : Unicode) (t : Text) (hcm : u.isWhitespace ',' = false) :
    (splitComma (t.reverse.dropWhile u.isWhitespace).reverse).map (trim u) = (splitComma t).map (trim u) := by
  have : ∀ r : Text, (splitComma (r.dropWhile u.isWhitespace).reverse).map (trim u) = (splitComma r.reverse).map (trim u) := by
    intro r
    induction r with
    | nil => rfl
    | cons c r ih =>
      rw [List.dropWhile_cons]
      split
      · rename_i hc
        rw [ih, List.reverse_cons]
        have hne : c ≠ ',' := by rintro rfl; rw [hcm] at hc; exact nomatch hc
        obtain ⟨init, last, h1, h2⟩ := splitComma_snoc r.reverse c hne
        rw [h1, h2]
        simp [trim_snoc u last c hc]
      · rfl
  have h := this t.reverse
  simpa using h

/-- The argument `x` written with white space around it. -/
def Padded (u : Unicode) (x y : Text) : Prop :=
  ∃ w w', (∀ c ∈ w, u.isWhitespace c = true) ∧ (∀ c ∈ w', u.isWhitespace c = true) ∧ y = w ++ (x ++ w')

theorem trim_padded (u : Unicode) {x y : Text} (hx : Trimmed u x) (h : Padded u x y) : trim u y = x := by
  obtain ⟨w, w', h1, h2, rfl⟩ := h
  induction w with
  | nil =>
    have : ∀ r : Text, (∀ c ∈ r, u.isWhitespace c = true) → trim u (x ++ r.reverse) = x := by
      intro r hr
      induction r with
      | nil => simpa using trim_of_trimmed u hx
      | cons c r ih =>
        rw [List.reverse_cons, ← List.append_assoc, trim_snoc u _ c (hr c (by simp)), ih (fun d hd => hr d (by simp [hd]))]
    have h := this w'.reverse (by simpa using h2)
    simpa using h
  | cons c w ih =>
    rw [List.cons_append, trim_cons u c _ (h1 c (by simp))]
    exact ih (fun d hd => h1 d (by simp [hd]))

/-- **C20**: white space around the arguments does not matter and arguments with nothing between the commas are left out. -/
theorem C20_params_blanks (u : Unicode) (zs : List (Text × Text)) (hne : zs ≠ [])
    (hp : ∀ z ∈ zs, Trimmed u z.1 ∧ Padded u z.1 z.2 ∧ ',' ∉ z.2) :
    params u (joinComma (zs.map (·.2))) = (zs.map (·.1)).filter (fun x => decide (x ≠ [])) := by
  have hcm : u.isWhitespace ',' = false := by
    have h1 : ascii ',' = true := by decide
    have h2 : asciiWs ',' = false := by decide
    simp [Unicode.isWhitespace, h1, h2]
  have hs : (splitComma (trim u (joinComma (zs.map (·.2))))).map (trim u) = (zs.map (·.2)).map (trim u) := by
    rw [trim, map_trim_dropEnd u _ hcm, map_trim_dropWhile u _ hcm]
    cases zs with
    | nil => exact absurd rfl hne
    | cons a l =>
      rw [List.map_cons, splitComma_join]
      intro x hx
      rw [← List.map_cons (f := fun z : Text × Text => z.2)] at hx
      obtain ⟨z, hz, rfl⟩ := List.mem_map.1 hx
      exact (hp z hz).2.2
  have hm : (zs.map (·.2)).map (trim u) = zs.map (·.1) := by
    rw [List.map_map]
    exact List.map_congr_left fun z hz => trim_padded u (hp z hz).1 (hp z hz).2.1
  rw [params, hs, hm]
  congr 1
  funext x
  cases x <;> simp

/-! ### Findings about non-ASCII templates -/

/-- An expander that prints its parameter list between brackets. -/
def showExp : Unit → Text → List Text → Except Unit (Text × Unit) :=
  fun _ id ps => .ok (id ++ '[' :: (ps.flatten ++ [']']), ())

/-- **C20 (finding)**: a word followed by a blank and a non-ASCII letter — for instance in a comment — makes the scan
panic, whatever the Unicode tables say about that letter unless it is white space. -/
theorem C20_finding_non_ascii_word_panics {σ ε} (u : Unicode) (hw : u.ws 'é' = false)
    (exp : σ → Text → List Text → Except ε (Text × σ)) (s : σ) :
    expandMacroses u exp s "a é".toList = .panic := by
  have h1 : ascii 'a' = true := by decide
  have h2 : ascii ' ' = true := by decide
  have h3 : ascii 'é' = false := by decide
  have e : ("a é".toList : Text) = ['a', ' ', 'é'] := rfl
  have ia : u.isAlphabetic 'a' = true := by
    simp only [Unicode.isAlphabetic, h1, if_true]; decide
  have ii : u.isIdent 'a' = true := alpha_ident u h1 ia
  have iw : u.isWhitespace ' ' = true := by
    simp only [Unicode.isWhitespace, h2, if_true]; decide
  have is' : u.isIdent ' ' = false := ws_not_ident u h2 iw
  have ie : u.isWhitespace 'é' = false := by simp [Unicode.isWhitespace, h3, hw]
  simp [e, expandMacroses, expandLoop, List.dropWhile_cons, List.takeWhile_cons, ia, findMacro, ii, is', findBang, iw, ie, h3]

/-- Tables in which `é` is a letter. -/
def latin : Unicode := ⟨fun c => c == 'é', fun c => c == 'é', fun _ => false⟩

/-- **C20 (finding)**: a non-ASCII character in a parameter makes the code cut the call short: the last byte of the
parameter is lost and the closing bracket is left in the output. -/
theorem C20_finding_non_ascii_param_cut :
    expandMacroses latin showExp () "m!(é,ab);".toList = .ok ("m[éa]);".toList, ()) := by decide

/-! ### Non-vacuity -/

/-- A call as in the shipped typemaps. -/
def sampleCall : Call := ⟨'s' :: "wig_f_type".toList, [], " ".toList, "&T, (x)".toList⟩

theorem sampleCall_wf (u : Unicode) : Call.WF u sampleCall := by
  have hA : ∀ x : Char, ascii x = true → x.isAlphanum = true ∨ x = '_' → u.isIdent x = true := by
    intro x h1 h2
    simp only [Unicode.isIdent, Unicode.isAlphanumeric, h1, if_true]
    rcases h2 with h | rfl
    · simp [h]
    · simp
  refine ⟨⟨'s', "wig_f_type".toList, rfl, ?_⟩, ?_, by simp [sampleCall], ?_, ?_⟩
  · have : ascii 's' = true := by decide
    simp only [Unicode.isAlphabetic, this, if_true]; decide
  · intro x hx
    have h : ∀ y ∈ 's' :: "wig_f_type".toList, ascii y = true ∧ (y.isAlphanum = true ∨ y = '_') := by decide
    have := h x hx
    exact hA x this.1 this.2
  · intro x hx
    have h : ∀ y ∈ " ".toList, y = ' ' := by decide
    rw [h x hx]
    have : ascii ' ' = true := by decide
    simp only [Unicode.isWhitespace, this, if_true]; decide
  · refine ⟨?_, by decide⟩
    intro p hp
    have h : ∀ i < sampleCall.inner.length + 1,
        (sampleCall.inner.take i).count ')' ≤ (sampleCall.inner.take i).count '(' := by decide
    have := h p.length (Nat.lt_succ_of_le hp.length_le)
    rwa [← List.prefix_iff_eq_take.1 hp] at this

example : expandMacroses latin showExp () "  swig_f_type! (&T, (x)) r = foo!=bar; _m ! () m2!(a,,b)".toList =
    .ok ("  swig_f_type[&T(x)] r = foo!=bar; _m[] m2[ab]".toList, ()) := by decide

example : params latin "a, b".toList = ["a".toList, "b".toList] := by decide

end Flapi.Macro
