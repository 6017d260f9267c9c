import Verif.Lang.Comments
/-!
# Doc comments stay comments; enum files say what was declared (C60)
-/
namespace Flapi.Comments
open Flapi

/-! ### Specification: what a compiler sees

Simplifications: C++ raw strings, digit separators and trigraphs are not treated; a Java escape for half of a surrogate pair is
taken for the character 0. -/

/-- A transducer over characters. -/
def run {σ β : Type} (step : σ → Char → σ × List β) (fin : σ → List β) : σ → Text → List β
  | s, [] => fin s
  | s, c :: t => (step s c).2 ++ run step fin (step s c).1 t

/-- States of the lexer that removes comments. -/
inductive Lex | code | slash | line | block | star | str (q : Char) | esc (q : Char)
deriving DecidableEq

/-- One character: comments are replaced by a blank (`/* .. */`) or dropped (`//`, up to the end of the line), strings are kept. -/
def lexStep : Lex → Char → Lex × Text
  | .code, c => if c = '/' then (.slash, []) else if c = '"' ∨ c = '\'' then (.str c, [c]) else (.code, [c])
  | .slash, c => if c = '/' then (.line, []) else if c = '*' then (.block, [' ']) else
      if c = '"' ∨ c = '\'' then (.str c, ['/', c]) else (.code, ['/', c])
  | .line, c => if c = '\n' then (.code, ['\n']) else (.line, [])
  | .block, c => if c = '*' then (.star, []) else (.block, [])
  | .star, c => if c = '/' then (.code, []) else if c = '*' then (.star, []) else (.block, [])
  | .str q, c => if c = '\\' then (.esc q, [c]) else if c = q then (.code, [c]) else (.str q, [c])
  | .esc q, c => (.str q, [c])

/-- What is pending at the end of the text. -/
def lexFin : Lex → Text
  | .slash => ['/']
  | _ => []

/-- The text without comments. -/
def uncomment (t : Text) : Text := run lexStep lexFin .code t

/-- C and C++ first join lines that end in a backslash. -/
def spliceStep : Bool → Char → Bool × Text
  | false, c => if c = '\\' then (true, []) else (false, [c])
  | true, c => if c = '\n' then (false, []) else if c = '\\' then (true, ['\\']) else (false, ['\\', c])

/-- What is pending at the end of the text. -/
def spliceFin (s : Bool) : Text := if s then ['\\'] else []

/-- The text after joining of lines. -/
def splice (t : Text) : Text := run spliceStep spliceFin false t

/-- What a C or C++ compiler sees of a text. -/
def cView (t : Text) : Text := uncomment (splice t)

/-- Value of a hexadecimal digit. -/
def hexVal (c : Char) : Option Nat :=
  if '0' ≤ c ∧ c ≤ '9' then some (c.toNat - 48) else if 'a' ≤ c ∧ c ≤ 'f' then some (c.toNat - 87) else
    if 'A' ≤ c ∧ c ≤ 'F' then some (c.toNat - 55) else none

/-- States of the translation of Unicode escapes, the first step of a Java compiler (Java Language Specification 3.3). -/
inductive Esc | normal | bs | us | hex (k v : Nat)

/-- Translation of Unicode escapes (`none`: the file is rejected). -/
def unescape : Esc → Text → Option Text
  | .normal, [] => some []
  | .bs, [] => some ['\\']
  | .us, [] => none
  | .hex _ _, [] => none
  | .normal, c :: t => if c = '\\' then unescape .bs t else (unescape .normal t).map (c :: ·)
  | .bs, c :: t => if c = 'u' then unescape .us t else (unescape .normal t).map (['\\', c] ++ ·)
  | .us, c :: t => if c = 'u' then unescape .us t else
      match hexVal c with
      | some v => unescape (.hex 1 v) t
      | none => none
  | .hex k v, c :: t =>
      match hexVal c with
      | some w => if k = 3 then (unescape .normal t).map (Char.ofNat (16 * v + w) :: ·) else unescape (.hex (k + 1) (16 * v + w)) t
      | none => none

/-- What a Java compiler sees of a text (`none`: it is rejected). -/
def javaView (t : Text) : Option Text := (unescape .normal t).map uncomment

/-- Tokens: words (identifiers, keywords, numbers) and single characters. -/
inductive Token | word (w : Text) | punct (c : Char)
deriving DecidableEq

/-- Characters of words. -/
def wordChar (c : Char) : Bool := c.isAlphanum || c == '_' || decide (128 ≤ c.toNat)

/-- The word read so far. -/
def wordFin (w : Text) : List Token := if w = [] then [] else [.word w]

/-- One character; the state is the word read so far. -/
def tokStep (w : Text) (c : Char) : Text × List Token :=
  if wordChar c then (w ++ [c], []) else ([], wordFin w ++ if c = ' ' ∨ c = '\n' then [] else [.punct c])

/-- The tokens of a text without comments. -/
def tokens (t : Text) : List Token := run tokStep wordFin [] t

/-- A doc comment that is safe in C and C++: its trimmed text is one line that does not end in a backslash. -/
def SafeC (ws : Char → Bool) (c : Text) : Prop := '\n' ∉ trim ws c ∧ (trim ws c).getLast? ≠ some '\\'

/-- A doc comment that is safe in Java: its trimmed text has no `*/` and no `\u`. -/
def SafeJava (ws : Char → Bool) (c : Text) : Prop :=
  ¬ ['*', '/'] <:+: trim ws c ∧ ¬ ['\\', 'u'] <:+: trim ws c

/-- A C++ namespace or Java package: words, dots and colons. -/
def PathName (n : Text) : Prop := ∀ c ∈ n, wordChar c = true ∨ c = '.' ∨ c = ':'

/-- A name: one word. -/
def Name (n : Text) : Prop := n ≠ [] ∧ ∀ c ∈ n, wordChar c = true

/-- The tokens of a text, given as a list of words and punctuation. -/
abbrev w (s : String) : Token := .word s.toList

/-- The enumerators of the C++ enum, separated by commas. -/
def enumerators (f : Text → Text) (items : List Item) : List Token :=
  (((items.zipIdx).map fun p => [Token.word (f p.1.name), .punct '=', .word (dec p.2)]).intersperse [.punct ',']).flatten

/-! ### Lemmas: transducers -/

/-- Output before the end. -/
def outp {σ β : Type} (step : σ → Char → σ × List β) : σ → Text → List β
  | _, [] => []
  | s, c :: t => (step s c).2 ++ outp step (step s c).1 t

/-- State at the end. -/
def fin' {σ β : Type} (step : σ → Char → σ × List β) : σ → Text → σ
  | s, [] => s
  | s, c :: t => fin' step (step s c).1 t

theorem run_append {σ β : Type} (step : σ → Char → σ × List β) (fin : σ → List β) (s : σ) (a b : Text) :
    run step fin s (a ++ b) = outp step s a ++ run step fin (fin' step s a) b := by
  induction a generalizing s with
  | nil => rfl
  | cons c a ih => simp [run, outp, fin', ih]

theorem outp_append {σ β : Type} (step : σ → Char → σ × List β) (s : σ) (a b : Text) :
    outp step s (a ++ b) = outp step s a ++ outp step (fin' step s a) b := by
  induction a generalizing s with
  | nil => rfl
  | cons c a ih => simp [outp, fin', ih]

theorem fin'_append {σ β : Type} (step : σ → Char → σ × List β) (s : σ) (a b : Text) :
    fin' step s (a ++ b) = fin' step (fin' step s a) b := by
  induction a generalizing s with
  | nil => rfl
  | cons c a ih => simp [fin', ih]

theorem run_outp {σ β : Type} (step : σ → Char → σ × List β) (fin : σ → List β) (s : σ) (a : Text) :
    run step fin s a = outp step s a ++ fin (fin' step s a) := by
  have := run_append step fin s a []
  simpa [run] using this

/-! ### Lemmas: splicing -/

theorem splice_line (s : Bool) (t : Text) (h : '\n' ∉ t) :
    outp spliceStep s t ++ spliceFin (fin' spliceStep s t) = spliceFin s ++ t ∧
    (fin' spliceStep s t = true ↔ if t = [] then s = true else t.getLast? = some '\\') := by
  induction t generalizing s with
  | nil => simp [outp, fin']
  | cons c t ih =>
    have hc : c ≠ '\n' := by rintro rfl; simp at h
    have ht : '\n' ∉ t := fun h' => h (by simp [h'])
    obtain ⟨h1, h2⟩ := ih (spliceStep s c).1 ht
    constructor
    · simp only [outp, fin', List.append_assoc, h1]
      cases s <;> by_cases hb : c = '\\' <;> simp [spliceStep, spliceFin, hb, hc]
    · simp only [fin']
      rw [h2]
      cases t with
      | nil => cases s <;> by_cases hb : c = '\\' <;> simp [spliceStep, hb, hc]
      | cons d t => simp [List.getLast?_cons_cons]

theorem splice_plain (t : Text) (h : '\\' ∉ t) : outp spliceStep false t = t ∧ fin' spliceStep false t = false := by
  induction t with
  | nil => exact ⟨rfl, rfl⟩
  | cons c t ih =>
    have hc : c ≠ '\\' := by rintro rfl; simp at h
    have ht : '\\' ∉ t := fun h' => h (by simp [h'])
    have e : spliceStep false c = (false, [c]) := by simp [spliceStep, hc]
    simp [outp, fin', e, ih ht]

/-- Texts that splicing leaves alone. -/
def Whole (t : Text) : Prop := outp spliceStep false t = t ∧ fin' spliceStep false t = false

instance (t : Text) : Decidable (Whole t) := by unfold Whole; infer_instance

theorem Whole.append {a b : Text} (ha : Whole a) (hb : Whole b) : Whole (a ++ b) := by
  constructor
  · rw [outp_append, ha.1, ha.2, hb.1]
  · rw [fin'_append, ha.2, hb.2]

theorem Whole.nil : Whole [] := ⟨rfl, rfl⟩

theorem whole_line {t : Text} (h : '\n' ∉ t) (hl : t.getLast? ≠ some '\\') : Whole t := by
  obtain ⟨h1, h2⟩ := splice_line false t h
  have hf : fin' spliceStep false t = false := by
    cases hx : fin' spliceStep false t with
    | false => rfl
    | true =>
      have := h2.1 hx
      by_cases ht : t = [] <;> simp_all
  refine ⟨?_, hf⟩
  rw [hf] at h1
  simpa [spliceFin] using h1

theorem whole_plain {t : Text} (h : '\\' ∉ t) : Whole t := splice_plain t h

theorem Whole.splice_append {a : Text} (ha : Whole a) (b : Text) : splice (a ++ b) = a ++ splice b := by
  unfold splice
  rw [run_append, ha.1, ha.2]

/-! ### Lemmas: removing comments -/

/-- From code back to code, with the given output. -/
def Sees (t o : Text) : Prop := outp lexStep .code t = o ∧ fin' lexStep .code t = .code

instance (t o : Text) : Decidable (Sees t o) := by unfold Sees; infer_instance

theorem Sees.append {a b o p : Text} (ha : Sees a o) (hb : Sees b p) : Sees (a ++ b) (o ++ p) := by
  constructor
  · rw [outp_append, ha.1, ha.2, hb.1]
  · rw [fin'_append, ha.2, hb.2]

theorem Sees.nil : Sees [] [] := ⟨rfl, rfl⟩

theorem Sees.uncomment {a o : Text} (ha : Sees a o) (b : Text) : uncomment (a ++ b) = o ++ Comments.uncomment b := by
  unfold Comments.uncomment
  rw [run_append, ha.1, ha.2]

theorem Sees.whole {a o : Text} (ha : Sees a o) : Comments.uncomment a = o := by
  have := ha.uncomment []
  simpa [Comments.uncomment, run, lexFin] using this

/-- Code without slashes and quotes. -/
def Bare (t : Text) : Prop := ∀ c ∈ t, c ≠ '/' ∧ c ≠ '"' ∧ c ≠ '\''

instance (t : Text) : Decidable (Bare t) := by unfold Bare; infer_instance

theorem sees_bare {t : Text} (h : Bare t) : Sees t t := by
  induction t with
  | nil => exact Sees.nil
  | cons c t ih =>
    have hc := h c (by simp)
    have ht := ih (fun d hd => h d (by simp [hd]))
    have e : lexStep .code c = (.code, [c]) := by simp [lexStep, hc]
    exact ⟨by simp [outp, e, ht.1], by simp [fin', e, ht.2]⟩

theorem line_run (t : Text) (h : '\n' ∉ t) : outp lexStep .line t = [] ∧ fin' lexStep .line t = .line := by
  induction t with
  | nil => exact ⟨rfl, rfl⟩
  | cons c t ih =>
    have hc : c ≠ '\n' := by rintro rfl; simp at h
    have ht : '\n' ∉ t := fun h' => h (by simp [h'])
    have e : lexStep .line c = (.line, []) := by simp [lexStep, hc]
    simp [outp, fin', e, ih ht]

theorem sees_line_comment (t : Text) (h : '\n' ∉ t) : Sees (['/', '/'] ++ t ++ ['\n']) ['\n'] := by
  obtain ⟨h1, h2⟩ := line_run t h
  have e1 : outp lexStep .code ['/', '/'] = [] := by decide
  have e2 : fin' lexStep .code ['/', '/'] = .line := by decide
  have e3 : outp lexStep .line ['\n'] = ['\n'] := by decide
  have e4 : fin' lexStep .line ['\n'] = .code := by decide
  constructor
  · rw [outp_append, outp_append, fin'_append, e1, e2, h1, h2, e3]; rfl
  · rw [fin'_append, fin'_append, e2, h2, e4]

/-- In a block comment: nothing is seen until `*/`. -/
theorem block_run (t : Text) : ∀ s, (s = .block ∨ s = .star) → ¬ ['*', '/'] <:+: t → (s = .star → t.head? ≠ some '/') →
    outp lexStep s t = [] ∧ (fin' lexStep s t = .block ∨ fin' lexStep s t = .star) ∧
    (fin' lexStep s t = .star ↔ if t = [] then s = .star else t.getLast? = some '*') := by
  induction t with
  | nil => intro s hs _ _; rcases hs with rfl | rfl <;> simp [outp, fin']
  | cons c t ih =>
    intro s hs h hh
    have ht : ¬ ['*', '/'] <:+: t := fun ⟨a, b, e⟩ => h ⟨c :: a, b, by simp [← e]⟩
    have hnext : c = '*' → t.head? ≠ some '/' := by
      rintro rfl hd
      cases t with
      | nil => simp at hd
      | cons d t => simp at hd; subst hd; exact h ⟨[], t, rfl⟩
    have key : (lexStep s c).2 = [] ∧ ((lexStep s c).1 = .block ∨ (lexStep s c).1 = .star) ∧ ((lexStep s c).1 = .star ↔ c = '*') := by
      rcases hs with rfl | rfl
      · by_cases hc : c = '*' <;> simp [lexStep, hc]
      · have : c ≠ '/' := by rintro rfl; exact hh rfl rfl
        by_cases hc : c = '*' <;> simp [lexStep, hc, this]
    obtain ⟨k1, k2, k3⟩ := key
    obtain ⟨i1, i2, i3⟩ := ih (lexStep s c).1 k2 ht (fun e => hnext (k3.1 e))
    refine ⟨by simp [outp, k1, i1], i2, ?_⟩
    simp only [fin']
    rw [i3]
    cases t with
    | nil => simp [k3]
    | cons d t => simp [List.getLast?_cons_cons]

theorem lex_open : outp lexStep .code ['/', '*'] = [' '] ∧ fin' lexStep .code ['/', '*'] = .block := by decide

/-- A block comment. -/
theorem sees_block_comment (t : Text) (h : ¬ ['*', '/'] <:+: t) (hh : t.getLast? ≠ some '*') :
    Sees (['/', '*'] ++ t ++ ['*', '/']) [' '] := by
  obtain ⟨h1, h2, h3⟩ := block_run t .block (.inl rfl) h (by simp)
  have hf : fin' lexStep .block t = .block := by
    rcases h2 with h2 | h2
    · exact h2
    · have := h3.1 h2
      by_cases ht : t = [] <;> simp_all
  have e3 : outp lexStep .block ['*', '/'] = [] := by decide
  have e4 : fin' lexStep .block ['*', '/'] = .code := by decide
  constructor
  · rw [outp_append, outp_append, fin'_append, lex_open.1, lex_open.2, h1, hf, e3]; rfl
  · rw [fin'_append, fin'_append, lex_open.2, hf, e4]

/-- Nothing is seen and the comment goes on. -/
def Quiet (t : Text) : Prop := ∀ s, s = .block ∨ s = .star →
  outp lexStep s t = [] ∧ (fin' lexStep s t = .block ∨ fin' lexStep s t = .star)

theorem Quiet.append {a b : Text} (ha : Quiet a) (hb : Quiet b) : Quiet (a ++ b) := by
  intro s hs
  obtain ⟨h1, h2⟩ := ha s hs
  obtain ⟨h3, h4⟩ := hb _ h2
  exact ⟨by rw [outp_append, h1, h3]; rfl, by rw [fin'_append]; exact h4⟩

theorem Quiet.nil : Quiet [] := fun _ hs => ⟨rfl, hs⟩

theorem quiet_noslash {t : Text} (h : '/' ∉ t) : Quiet t := by
  intro s hs
  obtain ⟨h1, h2, _⟩ := block_run t s hs (fun ⟨a, b, e⟩ => h (by simp [← e])) (fun _ e => by
    cases t with
    | nil => simp at e
    | cons c t => simp at e; subst e; simp at h)
  exact ⟨h1, h2⟩

theorem blank_block (s : Lex) (hs : s = .block ∨ s = .star) : outp lexStep s [' '] = [] ∧ fin' lexStep s [' '] = .block := by
  rcases hs with rfl | rfl <;> decide

theorem quiet_after_blank {t : Text} (h : ¬ ['*', '/'] <:+: t) : Quiet (' ' :: t) := by
  intro s hs
  obtain ⟨h1, h2⟩ := blank_block s hs
  obtain ⟨h3, h4, _⟩ := block_run t .block (.inl rfl) h (by simp)
  have e : ' ' :: t = [' '] ++ t := rfl
  rw [e]
  exact ⟨by rw [outp_append, h1, h2, h3]; rfl, by rw [fin'_append, h2]; exact h4⟩

theorem sees_quiet {t : Text} (h : Quiet t) : Sees (['/', '*'] ++ (t ++ [' ']) ++ ['*', '/']) [' '] := by
  obtain ⟨h1, h2⟩ := h .block (.inl rfl)
  obtain ⟨h3, h4⟩ := blank_block _ h2
  have e3 : outp lexStep .block ['*', '/'] = [] := by decide
  have e4 : fin' lexStep .block ['*', '/'] = .code := by decide
  constructor
  · rw [outp_append, outp_append, outp_append, fin'_append, fin'_append, lex_open.1, lex_open.2, h1, h3, h4, e3]; rfl
  · rw [fin'_append, fin'_append, fin'_append, lex_open.2, h4, e4]

/-! ### Lemmas: Unicode escapes -/

/-- The translation of Unicode escapes leaves this text alone, whatever follows. -/
def Clear (t : Text) : Prop := ∀ b, unescape .normal (t ++ b) = (unescape .normal b).map (t ++ ·)

theorem Clear.nil : Clear [] := fun b => by simp

theorem Clear.append {a b : Text} (ha : Clear a) (hb : Clear b) : Clear (a ++ b) := by
  intro c
  rw [List.append_assoc, ha, hb, Option.map_map]
  congr 1
  funext x
  simp

theorem clear_plain {t : Text} (h : '\\' ∉ t) : Clear t := by
  intro b
  induction t with
  | nil => simp
  | cons c t ih =>
    have hc : c ≠ '\\' := by rintro rfl; simp at h
    have ht : '\\' ∉ t := fun h' => h (by simp [h'])
    rw [List.cons_append, unescape, if_neg hc, ih ht, Option.map_map]
    rfl

theorem unescape_line (t b : Text) (h : ¬ ['\\', 'u'] <:+: t) :
    unescape .normal (t ++ '\n' :: b) = (unescape .normal b).map (t ++ '\n' :: ·) ∧
    (t.head? ≠ some 'u' → unescape .bs (t ++ '\n' :: b) = (unescape .normal b).map (['\\'] ++ t ++ '\n' :: ·)) := by
  induction t with
  | nil => constructor <;> simp [unescape]
  | cons c t ih =>
    have ht : ¬ ['\\', 'u'] <:+: t := fun ⟨a, b, e⟩ => h ⟨c :: a, b, by simp [← e]⟩
    obtain ⟨h1, h2⟩ := ih ht
    constructor
    · rw [List.cons_append, unescape]
      by_cases hc : c = '\\'
      · subst hc
        rw [if_pos rfl, h2]
        · rfl
        · intro hd
          cases t with
          | nil => simp at hd
          | cons d t => simp at hd; subst hd; exact h ⟨[], t, rfl⟩
      · rw [if_neg hc, h1, Option.map_map]; rfl
    · intro hu
      have hcu : c ≠ 'u' := by rintro rfl; simp at hu
      rw [List.cons_append, unescape, if_neg hcu, h1, Option.map_map]; rfl

theorem clear_line {t : Text} (h : ¬ ['\\', 'u'] <:+: t) : Clear (t ++ ['\n']) := by
  intro b
  have := (unescape_line t b h).1
  simpa using this

/-! ### Lemmas: tokens -/

/-- These tokens, and no word is left open. -/
def Toks (t : Text) (o : List Token) : Prop := outp tokStep [] t = o ∧ fin' tokStep [] t = []

instance (t : Text) (o : List Token) : Decidable (Toks t o) := by unfold Toks; infer_instance

theorem Toks.append {a b : Text} {o p : List Token} (ha : Toks a o) (hb : Toks b p) : Toks (a ++ b) (o ++ p) := by
  constructor
  · rw [outp_append, ha.1, ha.2, hb.1]
  · rw [fin'_append, ha.2, hb.2]

theorem Toks.nil : Toks [] [] := ⟨rfl, rfl⟩

theorem Toks.tokens {t : Text} {o : List Token} (h : Toks t o) : tokens t = o := by
  unfold Comments.tokens
  rw [run_outp, h.1, h.2]
  simp [wordFin]

/-- The tokens of one separating character. -/
def sep (c : Char) : List Token := if c = ' ' ∨ c = '\n' then [] else [.punct c]

theorem toks_sep (t : Text) (c : Char) (hc : wordChar c = false) : Toks (t ++ [c]) (Comments.tokens t ++ sep c) := by
  unfold Comments.tokens
  rw [run_outp]
  constructor
  · rw [outp_append]
    simp [outp, tokStep, hc, sep, List.append_assoc]
  · rw [fin'_append]
    simp [fin', tokStep, hc]

theorem tok_word (v n : Text) (hn : ∀ c ∈ n, wordChar c = true) : outp tokStep v n = [] ∧ fin' tokStep v n = v ++ n := by
  induction n generalizing v with
  | nil => simp [outp, fin']
  | cons c n ih =>
    have hc := hn c (by simp)
    have e : tokStep v c = (v ++ [c], []) := by simp [tokStep, hc]
    have := ih (v ++ [c]) (fun d hd => hn d (by simp [hd]))
    simp [outp, fin', e, this]

theorem tokens_name {n : Text} (hn : Name n) : Comments.tokens n = [.word n] := by
  unfold Comments.tokens
  obtain ⟨h1, h2⟩ := tok_word [] n hn.2
  rw [run_outp, h1, h2]
  simp [wordFin, hn.1]

theorem toks_blank (n : Nat) (i : Text) (hi : i = [] ∨ i = blanks4) :
    Toks (List.replicate n (i ++ ['\n'])).flatten [] := by
  induction n with
  | zero => exact Toks.nil
  | succ n ih =>
    rw [List.replicate_succ, List.flatten_cons]
    have : Toks (i ++ ['\n']) [] := by rcases hi with rfl | rfl <;> decide
    exact this.append ih

theorem wordChar_ne {c : Char} (h : wordChar c = true) :
    c ≠ '/' ∧ c ≠ '"' ∧ c ≠ '\'' ∧ c ≠ '\\' ∧ c ≠ '\n' ∧ c ≠ ' ' := by
  refine ⟨?_, ?_, ?_, ?_, ?_, ?_⟩ <;> rintro rfl <;> revert h <;> decide

theorem pathChar_ne {c : Char} (h : wordChar c = true ∨ c = '.' ∨ c = ':') :
    c ≠ '/' ∧ c ≠ '"' ∧ c ≠ '\'' ∧ c ≠ '\\' ∧ c ≠ '\n' := by
  rcases h with h | rfl | rfl
  · have := wordChar_ne h; simp [this]
  · decide
  · decide

theorem Name.path {n : Text} (h : Name n) : PathName n := fun c hc => .inl (h.2 c hc)

theorem PathName.bare {n : Text} (h : PathName n) : Bare n := fun c hc =>
  ⟨(pathChar_ne (h c hc)).1, (pathChar_ne (h c hc)).2.1, (pathChar_ne (h c hc)).2.2.1⟩

theorem PathName.noBs {n : Text} (h : PathName n) : '\\' ∉ n := fun hm => (pathChar_ne (h _ hm)).2.2.2.1 rfl

theorem PathName.noNl {n : Text} (h : PathName n) : '\n' ∉ n := fun hm => (pathChar_ne (h _ hm)).2.2.2.2 rfl

theorem name_dec (i : Nat) : Name (dec i) :=
  ⟨dec_ne_nil i, fun c hc => by
    have := dec_isDigit hc
    simp [wordChar, Char.isAlphanum, this]⟩

/-! ### Lemmas: C and C++ text -/

/-- What a C compiler reads, wherever the text stands between complete tokens. -/
def CReads (t : Text) (ts : List Token) : Prop := Whole t ∧ ∃ o, Sees t o ∧ Toks o ts

theorem CReads.append {a b : Text} {o p : List Token} (ha : CReads a o) (hb : CReads b p) : CReads (a ++ b) (o ++ p) := by
  obtain ⟨h1, x, h2, h3⟩ := ha
  obtain ⟨h4, y, h5, h6⟩ := hb
  exact ⟨h1.append h4, x ++ y, h2.append h5, h3.append h6⟩

theorem CReads.nil : CReads [] [] := ⟨Whole.nil, [], Sees.nil, Toks.nil⟩

theorem CReads.tokens {t : Text} {ts : List Token} (h : CReads t ts) : Comments.tokens (cView t) = ts := by
  obtain ⟨h1, o, h2, h3⟩ := h
  have e : splice t = t := by
    have := h1.splice_append []
    simpa [splice, run, spliceFin] using this
  unfold cView
  rw [e, h2.whole, h3.tokens]

theorem creads_path {n : Text} (hn : PathName n) (c : Char) (hc : wordChar c = false)
    (hc' : c ≠ '/' ∧ c ≠ '"' ∧ c ≠ '\'' ∧ c ≠ '\\') : CReads (n ++ [c]) (Comments.tokens n ++ sep c) := by
  refine ⟨whole_plain ?_, n ++ [c], sees_bare ?_, toks_sep n c hc⟩
  · simp [hn.noBs, Ne.symm hc'.2.2.2]
  · intro d hd
    rcases List.mem_append.1 hd with hd | hd
    · exact hn.bare d hd
    · simp at hd; subst hd; exact ⟨hc'.1, hc'.2.1, hc'.2.2.1⟩

theorem creads_name {n : Text} (hn : Name n) (c : Char) (hc : wordChar c = false)
    (hc' : c ≠ '/' ∧ c ≠ '"' ∧ c ≠ '\'' ∧ c ≠ '\\') : CReads (n ++ [c]) (.word n :: sep c) := by
  have := creads_path hn.path c hc hc'
  rwa [tokens_name hn] at this

theorem creads_lit {t : Text} {ts : List Token} (h1 : '\\' ∉ t) (h2 : Bare t) (h3 : Toks t ts) : CReads t ts :=
  ⟨whole_plain h1, t, sees_bare h2, h3⟩

theorem indent_cases (cls : Bool) : indent cls = [] ∨ indent cls = blanks4 := by cases cls <;> simp [indent]

theorem whole_indent (cls : Bool) : Whole (indent cls) := by cases cls <;> decide

theorem sees_indent (cls : Bool) : Sees (indent cls) (indent cls) := by cases cls <;> decide

/-- The loop after the first comment. -/
theorem docToC_loop (ws : Char → Bool) (cls : Bool) (i : Nat) (cs : List Text) :
    docToCLoop ws cls (i + 1) cs ++ ['\n'] =
      '\n' :: (cs.map fun c => indent cls ++ (['/', '/'] ++ trim ws c ++ ['\n'])).flatten := by
  induction cs generalizing i with
  | nil => rfl
  | cons c cs ih =>
    rw [docToCLoop, List.append_assoc, ih]
    simp

theorem docToC_lines (ws : Char → Bool) (cs : List Text) (cls : Bool) :
    docToC ws cs cls ++ ['\n'] =
      if cs = [] then ['\n'] else (cs.map fun c => indent cls ++ (['/', '/'] ++ trim ws c ++ ['\n'])).flatten := by
  cases cs with
  | nil => rfl
  | cons c cs =>
    rw [docToC, docToCLoop, List.append_assoc, docToC_loop]
    simp

theorem docLine (ws : Char → Bool) (cls : Bool) (c : Text) (h : SafeC ws c) :
    Whole (indent cls ++ (['/', '/'] ++ trim ws c ++ ['\n'])) ∧
    Sees (indent cls ++ (['/', '/'] ++ trim ws c ++ ['\n'])) (indent cls ++ ['\n']) := by
  have h2 : Whole ['/', '/'] := by decide
  have h3 : Whole ['\n'] := by decide
  exact ⟨(whole_indent cls).append ((h2.append (whole_line h.1 h.2)).append h3),
    (sees_indent cls).append (sees_line_comment _ h.1)⟩

theorem docLines (ws : Char → Bool) (cls : Bool) (cs : List Text) (h : ∀ c ∈ cs, SafeC ws c) :
    Whole (cs.map fun c => indent cls ++ (['/', '/'] ++ trim ws c ++ ['\n'])).flatten ∧
    Sees (cs.map fun c => indent cls ++ (['/', '/'] ++ trim ws c ++ ['\n'])).flatten
      (List.replicate cs.length (indent cls ++ ['\n'])).flatten := by
  induction cs with
  | nil => exact ⟨Whole.nil, Sees.nil⟩
  | cons c cs ih =>
    obtain ⟨a, b⟩ := docLine ws cls c (h c (by simp))
    obtain ⟨a', b'⟩ := ih (fun d hd => h d (by simp [hd]))
    simp only [List.map_cons, List.flatten_cons, List.length_cons, List.replicate_succ]
    exact ⟨a.append a', b.append b'⟩

/-- What is seen of a comment block and the end of its last line. -/
def blankOf (cls : Bool) (n : Nat) : Text := if n = 0 then ['\n'] else (List.replicate n (indent cls ++ ['\n'])).flatten

theorem docToC_reads (ws : Char → Bool) (cs : List Text) (cls : Bool) (h : ∀ c ∈ cs, SafeC ws c) :
    Whole (docToC ws cs cls ++ ['\n']) ∧ Sees (docToC ws cs cls ++ ['\n']) (blankOf cls cs.length) := by
  rw [docToC_lines]
  cases cs with
  | nil => exact ⟨by rw [if_pos rfl]; decide, by rw [if_pos rfl]; exact (by decide : Sees ['\n'] ['\n'])⟩
  | cons c cs =>
    rw [if_neg (by simp)]
    obtain ⟨a, b⟩ := docLines ws cls (c :: cs) h
    exact ⟨a, by simpa [blankOf] using b⟩

theorem creads_docs (ws : Char → Bool) (cs : List Text) (cls : Bool) (h : ∀ c ∈ cs, SafeC ws c) :
    CReads (docToC ws cs cls ++ ['\n']) [] := by
  obtain ⟨a, b⟩ := docToC_reads ws cs cls h
  refine ⟨a, _, b, ?_⟩
  unfold blankOf
  by_cases h0 : cs.length = 0
  · rw [if_pos h0]; decide
  · rw [if_neg h0]; exact toks_blank _ _ (indent_cases cls)

/-- Items: the comments before an item. -/
theorem creads_closeLine (ws : Char → Bool) (cs : List Text) (h : ∀ c ∈ cs, SafeC ws c) :
    CReads (closeLine (docToC ws cs true)) [] := by
  have hl := docToC_lines ws cs true
  cases hcs : cs with
  | nil => exact CReads.nil
  | cons c cs' =>
    rw [← hcs]
    have hne : docToC ws cs true ≠ [] := by
      rw [hcs]; simp [docToC, docToCLoop, indent]
    have hlast : (docToC ws cs true).getLast? ≠ some '\n' := by
      intro hx
      have key : ∀ (l : List Text) (i : Nat), l ≠ [] → (∀ c ∈ l, SafeC ws c) → (docToCLoop ws true i l).getLast? ≠ some '\n' := by
        intro l
        induction l with
        | nil => intro i h; simp at h
        | cons c l ih =>
          intro i _ hs
          rw [docToCLoop]
          cases l with
          | nil =>
            have hn := (hs c (by simp)).1
            simp only [docToCLoop, List.append_nil, indent, if_true]
            rw [List.getLast?_append]
            intro e
            cases ht : trim ws c with
            | nil => rw [ht] at e; simp at e
            | cons d t =>
              rw [ht] at e hn
              have : ('/' :: '/' :: d :: t).getLast? = (d :: t).getLast? := by simp [List.getLast?_cons_cons]
              rw [this] at e
              have e' : (d :: t).getLast? = some '\n' := by
                cases hg : (d :: t).getLast? with
                | none => simp at hg
                | some x => rw [hg] at e; simpa using e
              exact hn (List.mem_of_getLast? e')
          | cons d l =>
            rw [List.getLast?_append]
            have := ih (i + 1) (by simp) (fun x hx => hs x (by simp [hx]))
            have hne : docToCLoop ws true (i + 1) (d :: l) ≠ [] := by simp [docToCLoop]
            intro e
            cases hg : (docToCLoop ws true (i + 1) (d :: l)).getLast? with
            | none => simp at hg; exact hne hg
            | some x => rw [hg] at e this; simp at e; exact this (by rw [e])
      exact key cs 0 (by simp [hcs]) h hx
    rw [closeLine, if_pos ⟨hne, hlast⟩]
    exact creads_docs ws cs true h

/-! ### Lemmas: enum files in C and C++ -/

/-- `enumerators` written as a loop. -/
def enumsFrom (f : Text → Text) : Nat → List Item → List Token
  | _, [] => []
  | i, [it] => [.word (f it.name), .punct '=', .word (dec i)]
  | i, it :: b :: l => [.word (f it.name), .punct '=', .word (dec i), .punct ','] ++ enumsFrom f (i + 1) (b :: l)

theorem enumsFrom_eq (f : Text → Text) (l : List Item) (i : Nat) :
    (((l.zipIdx i).map fun p => [Token.word (f p.1.name), .punct '=', .word (dec p.2)]).intersperse [.punct ',']).flatten
      = enumsFrom f i l := by
  induction l generalizing i with
  | nil => rfl
  | cons a l ih =>
    cases l with
    | nil => rfl
    | cons b l =>
      have := ih (i + 1)
      simp only [List.zipIdx_cons, List.map_cons, List.intersperse_cons₂, List.flatten_cons, enumsFrom] at this ⊢
      rw [this]
      simp

theorem enumerators_eq (f : Text → Text) (l : List Item) : enumerators f l = enumsFrom f 0 l := enumsFrom_eq f l 0

theorem enumsFrom_cons (f : Text → Text) (i : Nat) (it : Item) (l : List Item) :
    enumsFrom f i (it :: l) =
      [.word (f it.name), .punct '=', .word (dec i)] ++ (if l = [] then [] else [.punct ',']) ++ enumsFrom f (i + 1) l := by
  cases l with
  | nil => simp [enumsFrom]
  | cons b l => simp [enumsFrom]

theorem sep_blank : sep ' ' = [] ∧ sep '\n' = [] ∧ sep ',' = [.punct ','] ∧ sep ';' = [.punct ';'] := by decide

theorem cppItems_reads (ws : Char → Bool) (n i : Nat) (its : List Item) (hn : ∀ it ∈ its, Name it.name)
    (hd : ∀ it ∈ its, ∀ c ∈ it.docs, SafeC ws c) (hi : i + its.length = n) :
    CReads (cppItems ws n i its) (enumsFrom id i its) := by
  induction its generalizing i with
  | nil => exact CReads.nil
  | cons it its ih =>
    have h1 := creads_closeLine ws it.docs (hd it (by simp))
    have h2 := creads_name (hn it (by simp)) ' ' (by decide) (by decide)
    have h3 : CReads ['=', ' '] [.punct '='] := creads_lit (by decide) (by decide) (by decide)
    have h5 := ih (i + 1) (fun x hx => hn x (by simp [hx])) (fun x hx => hd x (by simp [hx])) (by simp at hi; omega)
    have e : cppItems ws n i (it :: its) = closeLine (docToC ws it.docs true) ++ ((it.name ++ [' ']) ++ (['=', ' '] ++
        ((dec i ++ (if i = n - 1 then [] else [',']) ++ ['\n']) ++ cppItems ws n (i + 1) its))) := by
      simp [cppItems]
    rw [e, enumsFrom_cons]
    simp only [List.length_cons] at hi
    have h4 : CReads (dec i ++ (if i = n - 1 then [] else [',']) ++ ['\n']) (Token.word (dec i) :: (if its = [] then [] else [.punct ','])) := by
      by_cases hl : its = []
      · subst hl
        rw [if_pos (by simp at hi; omega), if_pos rfl, List.append_nil]
        exact creads_name (name_dec i) '\n' (by decide) (by decide)
      · have : its.length ≠ 0 := by simpa using hl
        rw [if_neg (by omega), if_neg hl]
        have a := creads_name (name_dec i) ',' (by decide) (by decide)
        have b : CReads ['\n'] [] := creads_lit (by decide) (by decide) (by decide)
        simpa [sep_blank] using a.append b
    have := h1.append (h2.append (h3.append (h4.append h5)))
    simpa [sep_blank] using this

theorem cItems_reads (ws : Char → Bool) (name : Text) (hname : Name name) (n i : Nat) (its : List Item)
    (hn : ∀ it ∈ its, Name it.name) (hd : ∀ it ∈ its, ∀ c ∈ it.docs, SafeC ws c) (hi : i + its.length = n) :
    CReads (cItems ws name n i its) (enumsFrom (fun x => name ++ '_' :: x) i its) := by
  induction its generalizing i with
  | nil => exact CReads.nil
  | cons it its ih =>
    have h1 := creads_closeLine ws it.docs (hd it (by simp))
    have h0 : CReads blanks4 [] := creads_lit (by decide) (by decide) (by decide)
    have hnm : Name (name ++ '_' :: it.name) := ⟨by simp, fun c hc => by
      rcases List.mem_append.1 hc with hc | hc
      · exact hname.2 c hc
      · rcases List.mem_cons.1 hc with rfl | hc
        · decide
        · exact (hn it (by simp)).2 c hc⟩
    have h2 := creads_name hnm ' ' (by decide) (by decide)
    have h3 : CReads ['=', ' '] [.punct '='] := creads_lit (by decide) (by decide) (by decide)
    have h5 := ih (i + 1) (fun x hx => hn x (by simp [hx])) (fun x hx => hd x (by simp [hx])) (by simp at hi; omega)
    have e : cItems ws name n i (it :: its) = closeLine (docToC ws it.docs true) ++ (blanks4 ++ ((name ++ '_' :: it.name ++ [' ']) ++
        (['=', ' '] ++ ((dec i ++ (if i ≠ n - 1 then [',', '\n'] else []) ++ ['\n']) ++ cItems ws name n (i + 1) its)))) := by
      simp [cItems]
    rw [e, enumsFrom_cons]
    simp only [List.length_cons] at hi
    have h4 : CReads (dec i ++ (if i ≠ n - 1 then [',', '\n'] else []) ++ ['\n'])
        (Token.word (dec i) :: (if its = [] then [] else [.punct ','])) := by
      by_cases hl : its = []
      · subst hl
        rw [if_neg (by simp at hi; omega), if_pos rfl, List.append_nil]
        exact creads_name (name_dec i) '\n' (by decide) (by decide)
      · have : its.length ≠ 0 := by simpa using hl
        rw [if_pos (by omega), if_neg hl]
        have a := creads_name (name_dec i) ',' (by decide) (by decide)
        have b : CReads ['\n', '\n'] [] := creads_lit (by decide) (by decide) (by decide)
        simpa [sep_blank] using a.append b
    have := h1.append (h0.append (h2.append (h3.append (h4.append h5))))
    simpa [sep_blank] using this

theorem cppHead1_reads : CReads cppHead1 [.punct '#', w "pragma", w "once", w "namespace"] :=
  ⟨by decide +kernel, "\n#pragma once\n\nnamespace ".toList, by decide +kernel, by decide +kernel⟩

theorem cHead1_reads : CReads cHead1 [.punct '#', w "pragma", w "once"] :=
  ⟨by decide +kernel, "\n#pragma once\n\n".toList, by decide +kernel, by decide +kernel⟩

/-- The trailing `} // namespace ..`. -/
theorem cppTail_reads (ns : Text) (h : PathName ns) :
    CReads (['}', ';', '\n', '}', ' ', '/', '/', ' ', 'n', 'a', 'm', 'e', 's', 'p', 'a', 'c', 'e', ' '] ++ ns ++ ['\n', '\n'])
      [.punct '}', .punct ';', .punct '}'] := by
  have h1 : CReads ['}', ';', '\n', '}', ' '] [.punct '}', .punct ';', .punct '}'] := creads_lit (by decide) (by decide) (by decide)
  have h2 : CReads (['/', '/'] ++ ([' ', 'n', 'a', 'm', 'e', 's', 'p', 'a', 'c', 'e', ' '] ++ ns) ++ ['\n']) [] := by
    have hnl : '\n' ∉ [' ', 'n', 'a', 'm', 'e', 's', 'p', 'a', 'c', 'e', ' '] ++ ns := by
      rw [List.mem_append, not_or]; exact ⟨by decide, h.noNl⟩
    refine ⟨whole_plain ?_, ['\n'], sees_line_comment _ hnl, by decide⟩
    simp [h.noBs]
  have h3 : CReads ['\n'] [] := creads_lit (by decide) (by decide) (by decide)
  have := h1.append (h2.append h3)
  simpa using this

/-! ### C60, C and C++ -/

/-- **C60**: whatever one-line doc comments (not ending in a backslash) the user writes, a C or C++ compiler sees none of them:
each is a blank line, and what follows them is read as if it stood alone. -/
theorem C60_cpp_comments_invisible (ws : Char → Bool) (cs : List Text) (cls : Bool) (h : ∀ c ∈ cs, SafeC ws c) (rest : Text) :
    cView (docToC ws cs cls ++ '\n' :: rest) =
      (if cs = [] then ['\n'] else (cs.map fun _ => indent cls ++ ['\n']).flatten) ++ cView rest := by
  obtain ⟨a, b⟩ := docToC_reads ws cs cls h
  have e : docToC ws cs cls ++ '\n' :: rest = (docToC ws cs cls ++ ['\n']) ++ rest := by simp
  unfold cView
  rw [e, a.splice_append, b.uncomment]
  congr 1
  unfold blankOf
  cases cs with
  | nil => rfl
  | cons c cs => simp [List.map_const', List.replicate_succ]

/-- **C60**: the C++ header of an enum declares, whatever the doc comments, exactly the enum with its items in order, numbered from
0. -/
theorem C60_cpp_enum_header (ws : Char → Bool) (ns : Text) (e : EnumInfo) (hns : PathName ns) (hn : Name e.name)
    (hi : ∀ it ∈ e.items, Name it.name) (hd : ∀ c ∈ e.docs, SafeC ws c) (hid : ∀ it ∈ e.items, ∀ c ∈ it.docs, SafeC ws c) :
    tokens (cView (cppEnumFile ws ns e)) =
      [.punct '#', w "pragma", w "once", w "namespace"] ++ tokens ns ++ [.punct '{', w "enum", .word e.name, .punct '{'] ++
        enumerators id e.items ++ [.punct '}', .punct ';', .punct '}'] := by
  apply CReads.tokens
  have h1 := creads_path hns ' ' (by decide) (by decide)
  have h2 : CReads ['{', '\n'] [.punct '{'] := creads_lit (by decide) (by decide) (by decide)
  have h3 := creads_docs ws e.docs true hd
  have h4 : CReads ['e', 'n', 'u', 'm', ' '] [w "enum"] := creads_lit (by decide) (by decide) (by decide)
  have h5 := creads_name hn ' ' (by decide) (by decide)
  have h6 := cppItems_reads ws e.items.length 0 e.items hi hid (by simp)
  have := cppHead1_reads.append (h1.append (h2.append (h3.append (h4.append (h5.append (h2.append (h6.append (cppTail_reads ns hns))))))))
  rw [enumerators_eq]
  unfold cppEnumFile
  simpa [sep_blank] using this

/-- **C60**: likewise the C header, where the items carry the name of the enum. -/
theorem C60_c_enum_header (ws : Char → Bool) (e : EnumInfo) (hn : Name e.name)
    (hi : ∀ it ∈ e.items, Name it.name) (hd : ∀ c ∈ e.docs, SafeC ws c) (hid : ∀ it ∈ e.items, ∀ c ∈ it.docs, SafeC ws c) :
    tokens (cView (cEnumFile ws e)) =
      [.punct '#', w "pragma", w "once", w "enum", .word e.name, .punct '{'] ++ enumerators (fun x => e.name ++ '_' :: x) e.items ++
        [.punct '}', .punct ';', w "typedef", w "enum", .word e.name, .word ('C' :: e.name), .punct ';'] := by
  apply CReads.tokens
  have h2 : CReads ['{', '\n'] [.punct '{'] := creads_lit (by decide) (by decide) (by decide)
  have h3 := creads_docs ws e.docs true hd
  have h4 : CReads ['\n', 'e', 'n', 'u', 'm', ' '] [w "enum"] := creads_lit (by decide) (by decide) (by decide)
  have h5 := creads_name hn ' ' (by decide) (by decide)
  have h6 := cItems_reads ws e.name hn e.items.length 0 e.items hi hid (by simp)
  have h7 : CReads ['}', ';', '\n', '\n', 't', 'y', 'p', 'e', 'd', 'e', 'f', ' ', 'e', 'n', 'u', 'm', ' ']
    [.punct '}', .punct ';', w "typedef", w "enum"] := creads_lit (by decide) (by decide) (by decide)
  have hc : Name ('C' :: e.name) := ⟨by simp, fun c hc => by
    rcases List.mem_cons.1 hc with rfl | hc
    · decide
    · exact hn.2 c hc⟩
  have h8 := creads_name hc ';' (by decide) (by decide)
  have h9 : CReads ['\n', '\n'] [] := creads_lit (by decide) (by decide) (by decide)
  have := cHead1_reads.append (h3.append (h4.append (h5.append (h2.append (h6.append (h7.append (h5.append (h8.append h9))))))))
  rw [enumerators_eq]
  unfold cEnumFile
  simpa [sep_blank] using this

/-! ### Lemmas: Java -/

/-- What a Java compiler reads, wherever the text stands between complete tokens. -/
def JReads (t : Text) (ts : List Token) : Prop := Clear t ∧ ∃ o, Sees t o ∧ Toks o ts

theorem JReads.append {a b : Text} {o p : List Token} (ha : JReads a o) (hb : JReads b p) : JReads (a ++ b) (o ++ p) := by
  obtain ⟨h1, x, h2, h3⟩ := ha
  obtain ⟨h4, y, h5, h6⟩ := hb
  exact ⟨h1.append h4, x ++ y, h2.append h5, h3.append h6⟩

theorem JReads.nil : JReads [] [] := ⟨Clear.nil, [], Sees.nil, Toks.nil⟩

theorem JReads.tokens {t : Text} {ts : List Token} (h : JReads t ts) : (javaView t).map Comments.tokens = some ts := by
  obtain ⟨h1, o, h2, h3⟩ := h
  have e : unescape .normal t = some t := by
    have := h1 []
    simpa [unescape] using this
  unfold javaView
  rw [e]
  simp [h2.whole, h3.tokens]

theorem jreads_path {n : Text} (hn : PathName n) (c : Char) (hc : wordChar c = false)
    (hc' : c ≠ '/' ∧ c ≠ '"' ∧ c ≠ '\'' ∧ c ≠ '\\') : JReads (n ++ [c]) (Comments.tokens n ++ sep c) := by
  refine ⟨clear_plain ?_, n ++ [c], sees_bare ?_, toks_sep n c hc⟩
  · simp [hn.noBs, Ne.symm hc'.2.2.2]
  · intro d hd
    rcases List.mem_append.1 hd with hd | hd
    · exact hn.bare d hd
    · simp at hd; subst hd; exact ⟨hc'.1, hc'.2.1, hc'.2.2.1⟩

theorem jreads_name {n : Text} (hn : Name n) (c : Char) (hc : wordChar c = false)
    (hc' : c ≠ '/' ∧ c ≠ '"' ∧ c ≠ '\'' ∧ c ≠ '\\') : JReads (n ++ [c]) (.word n :: sep c) := by
  have := jreads_path hn.path c hc hc'
  rwa [tokens_name hn] at this

theorem jreads_lit {t : Text} {ts : List Token} (h1 : '\\' ∉ t) (h2 : Bare t) (h3 : Toks t ts) : JReads t ts :=
  ⟨clear_plain h1, t, sees_bare h2, h3⟩

theorem noBs_indent (cls : Bool) : '\\' ∉ indent cls := by cases cls <;> decide

theorem quiet_indent (cls : Bool) : Quiet (indent cls) := quiet_noslash (by cases cls <;> decide)

/-- The comment lines of a Java comment. -/
def javaLines (ws : Char → Bool) (cls : Bool) (cs : List Text) : Text :=
  (cs.map fun c => indent cls ++ ([' ', '*', ' '] ++ trim ws c ++ ['\n'])).flatten

theorem docToJava_loop (ws : Char → Bool) (cls : Bool) (n i : Nat) (cs : List Text) (hcs : cs ≠ []) (hi : i + 1 + cs.length = n) :
    docToJavaLoop ws cls n (i + 1) cs = '\n' :: (javaLines ws cls cs ++ (indent cls ++ [' ', '*', '/'])) := by
  induction cs generalizing i with
  | nil => exact absurd rfl hcs
  | cons c cs ih =>
    rw [docToJavaLoop]
    cases cs with
    | nil =>
      simp only [List.length_cons, List.length_nil] at hi
      rw [if_pos (by omega), if_neg (by omega), if_pos (by omega), docToJavaLoop]
      simp [javaLines]
    | cons d cs =>
      simp only [List.length_cons] at hi
      rw [if_pos (by omega), if_neg (by omega), if_neg (by omega), ih (i + 1) (by simp) (by simp; omega)]
      simp [javaLines]

theorem docToJava_eq (ws : Char → Bool) (cs : List Text) (cls : Bool) (hcs : cs ≠ []) :
    docToJava ws cs cls = indent cls ++ (['/', '*'] ++ ((['*', '\n'] ++ javaLines ws cls cs ++ indent cls) ++ [' ']) ++ ['*', '/']) := by
  cases cs with
  | nil => exact absurd rfl hcs
  | cons c cs =>
    rw [docToJava, docToJavaLoop]
    cases cs with
    | nil => simp [docToJavaLoop, javaLines]
    | cons d cs =>
      rw [if_neg (by simp), if_pos rfl, if_neg (by simp), docToJava_loop ws cls _ 0 (d :: cs) (by simp) (by simp; omega)]
      simp [javaLines]

theorem javaLines_ok (ws : Char → Bool) (cls : Bool) (cs : List Text) (h : ∀ c ∈ cs, SafeJava ws c) :
    Quiet (javaLines ws cls cs) ∧ Clear (javaLines ws cls cs) := by
  induction cs with
  | nil => exact ⟨Quiet.nil, Clear.nil⟩
  | cons c cs ih =>
    obtain ⟨a, b⟩ := ih (fun d hd => h d (by simp [hd]))
    have hc := h c (by simp)
    have q1 : Quiet [' ', '*'] := quiet_noslash (by decide)
    have q2 : Quiet (' ' :: trim ws c) := quiet_after_blank hc.1
    have q3 : Quiet ['\n'] := quiet_noslash (by decide)
    have c1 : Clear [' ', '*', ' '] := clear_plain (by decide)
    have c2 := clear_line hc.2
    have c0 : Clear (indent cls) := clear_plain (noBs_indent cls)
    constructor
    · have := (quiet_indent cls).append ((q1.append (q2.append q3)).append a)
      simpa [javaLines] using this
    · have := c0.append ((c1.append c2).append b)
      simpa [javaLines] using this

theorem docToJava_ok (ws : Char → Bool) (cs : List Text) (cls : Bool) (hcs : cs ≠ []) (h : ∀ c ∈ cs, SafeJava ws c) :
    Clear (docToJava ws cs cls) ∧ Sees (docToJava ws cs cls) (indent cls ++ [' ']) := by
  obtain ⟨q, c⟩ := javaLines_ok ws cls cs h
  rw [docToJava_eq ws cs cls hcs]
  have c0 : Clear (indent cls) := clear_plain (noBs_indent cls)
  have c1 : Clear ['/', '*'] := clear_plain (by decide)
  have c2 : Clear ['*', '\n'] := clear_plain (by decide)
  have c3 : Clear [' '] := clear_plain (by decide)
  have c4 : Clear ['*', '/'] := clear_plain (by decide)
  have q1 : Quiet ['*', '\n'] := quiet_noslash (by decide)
  exact ⟨c0.append ((c1.append (((c2.append c).append c0).append c3)).append c4),
    (sees_indent cls).append (sees_quiet ((q1.append q).append (quiet_indent cls)))⟩

theorem jreads_docs (ws : Char → Bool) (cs : List Text) (cls : Bool) (h : ∀ c ∈ cs, SafeJava ws c) :
    JReads (docToJava ws cs cls) [] := by
  by_cases hcs : cs = []
  · subst hcs; exact JReads.nil
  · obtain ⟨a, b⟩ := docToJava_ok ws cs cls hcs h
    refine ⟨a, _, b, ?_⟩
    rcases indent_cases cls with e | e <;> rw [e] <;> decide

theorem jreads_itemDocs (ws : Char → Bool) (cs : List Text) (h : ∀ c ∈ cs, SafeJava ws c) :
    JReads (javaItemDocs ws cs) [] := by
  by_cases hcs : cs = []
  · subst hcs; exact JReads.nil
  · have h0 := jreads_docs ws cs false h
    have hne : docToJava ws cs false ≠ [] := by rw [docToJava_eq ws cs false hcs]; simp
    have hl : (docToJava ws cs false).getLast? ≠ some '\n' := by
      rw [docToJava_eq ws cs false hcs, ← List.append_assoc, List.getLast?_append]; simp
    unfold javaItemDocs
    simp only [closeLine]
    rw [if_pos hne, if_pos ⟨hne, hl⟩]
    have h1 : JReads (['\n'] ++ blanks4) [] := jreads_lit (by decide) (by decide) (by decide)
    have := h0.append h1
    simpa using this

/-- The constants of the Java enum: `A(0), B(1);`. -/
def constsFrom : Nat → List Item → List Token
  | _, [] => []
  | i, it :: l => [.word it.name, .punct '(', .word (dec i), .punct ')', .punct (if l = [] then ';' else ',')] ++ constsFrom (i + 1) l

/-- The `case` lines. -/
def casesFrom : Nat → List Item → List Token
  | _, [] => []
  | i, it :: l => [w "case", .word (dec i), .punct ':', w "return", .word it.name, .punct ';'] ++ casesFrom (i + 1) l

theorem javaItems_reads (ws : Char → Bool) (n i : Nat) (its : List Item) (hn : ∀ it ∈ its, Name it.name)
    (hd : ∀ it ∈ its, ∀ c ∈ it.docs, SafeJava ws c) (hi : i + its.length = n) :
    JReads (javaItems ws n i its) (constsFrom i its) := by
  induction its generalizing i with
  | nil => exact JReads.nil
  | cons it its ih =>
    have h0 : JReads blanks4 [] := jreads_lit (by decide) (by decide) (by decide)
    have h1 := jreads_itemDocs ws it.docs (hd it (by simp))
    have h2 := jreads_name (hn it (by simp)) '(' (by decide) (by decide)
    have h3 := jreads_name (name_dec i) ')' (by decide) (by decide)
    have h5 := ih (i + 1) (fun x hx => hn x (by simp [hx])) (fun x hx => hd x (by simp [hx])) (by simp at hi; omega)
    simp only [List.length_cons] at hi
    have h4 : JReads [if i = n - 1 then ';' else ',', '\n'] [.punct (if its = [] then ';' else ',')] := by
      by_cases hl : its = []
      · subst hl
        rw [if_pos (by simp at hi; omega), if_pos rfl]
        exact jreads_lit (by decide) (by decide) (by decide)
      · have : its.length ≠ 0 := by simpa using hl
        rw [if_neg (by omega), if_neg hl]
        exact jreads_lit (by decide) (by decide) (by decide)
    have e1 : sep '(' = [.punct '('] := by decide
    have e2 : sep ')' = [.punct ')'] := by decide
    have := h0.append (h1.append (h2.append (h3.append (h4.append h5))))
    rw [e1, e2] at this
    simpa [javaItems, constsFrom] using this

theorem javaCase_reads : JReads javaCase1 [w "case"] ∧ Toks [':', ' ', 'r', 'e', 't', 'u', 'r', 'n', ' '] [.punct ':', w "return"] :=
  ⟨jreads_lit (by decide +kernel) (by decide +kernel) (by decide +kernel), by decide +kernel⟩

theorem javaCase2_chars : javaCase2 = [':', ' ', 'r', 'e', 't', 'u', 'r', 'n', ' '] := by decide

theorem javaCases_reads (i : Nat) (its : List Item) (hn : ∀ it ∈ its, Name it.name) :
    JReads (javaCases i its) (casesFrom i its) := by
  induction its generalizing i with
  | nil => exact JReads.nil
  | cons it its ih =>
    have h1 := javaCase_reads.1
    have h2 := jreads_name (name_dec i) ':' (by decide) (by decide)
    have h3 : JReads [' ', 'r', 'e', 't', 'u', 'r', 'n', ' '] [w "return"] := jreads_lit (by decide) (by decide) (by decide)
    have h4 := jreads_name (hn it (by simp)) ';' (by decide) (by decide)
    have h5 := ih (i + 1) (fun x hx => hn x (by simp [hx]))
    have e1 : sep ':' = [.punct ':'] := by decide
    have := h1.append (h2.append (h3.append (h4.append h5)))
    rw [e1, sep_blank.2.2.2] at this
    rw [javaCases, javaCase2_chars]
    simpa [casesFrom] using this

theorem str_run (n : Text) (h : PathName n) : outp lexStep (.str '"') n = n ∧ fin' lexStep (.str '"') n = .str '"' := by
  induction n with
  | nil => exact ⟨rfl, rfl⟩
  | cons c n ih =>
    have hc := pathChar_ne (h c (by simp))
    have e : lexStep (.str '"') c = (.str '"', [c]) := by simp [lexStep, hc.2.2.2.1, hc.2.1]
    have := ih (fun d hd => h d (by simp [hd]))
    simp [outp, fin', e, this]

/-- Tokens before the name in the last `case`. -/
def endToks1 : List Token :=
  [w "default", .punct ':', w "throw", w "new", w "Error", .punct '(', .punct '"', w "Invalid", w "value", w "for", w "enum"]

/-- Tokens after it. -/
def endToks2 : List Token :=
  [.punct ':', .punct '"', .punct '+', w "x", .punct ')', .punct ';', .punct '}', .punct '}', .punct '}']

theorem javaEnd1_lex : outp lexStep .code javaEnd1 = javaEnd1 ∧ fin' lexStep .code javaEnd1 = .str '"' ∧ '\\' ∉ javaEnd1 ∧
    Toks javaEnd1 endToks1 := by decide +kernel

theorem javaEnd2_lex : outp lexStep (.str '"') javaEnd2 = javaEnd2 ∧ fin' lexStep (.str '"') javaEnd2 = .code ∧ '\\' ∉ javaEnd2 := by
  decide +kernel

/-- `javaEnd2` after its first character, which closes the name. -/
theorem javaEnd2_toks : javaEnd2 = ':' :: javaEnd2.tail ∧ Toks javaEnd2.tail endToks2.tail := by decide +kernel

theorem javaEnd_reads (n : Text) (hn : Name n) : JReads (javaEnd1 ++ n ++ javaEnd2) (endToks1 ++ .word n :: endToks2) := by
  obtain ⟨a1, a2, a3, a4⟩ := javaEnd1_lex
  obtain ⟨b1, b2, b3⟩ := javaEnd2_lex
  obtain ⟨c1, c2⟩ := javaEnd2_toks
  obtain ⟨s1, s2⟩ := str_run n hn.path
  refine ⟨clear_plain ?_, javaEnd1 ++ n ++ javaEnd2, ⟨?_, ?_⟩, ?_⟩
  · simp [a3, b3, hn.path.noBs]
  · rw [outp_append, outp_append, fin'_append, a1, a2, s1, s2, b1]
  · rw [fin'_append, fin'_append, a2, s2, b2]
  · have h := toks_sep n ':' (by decide)
    rw [tokens_name hn] at h
    have e1 : sep ':' = [.punct ':'] := by decide
    have e2 : endToks2 = .punct ':' :: endToks2.tail := by decide
    rw [e1] at h
    have := a4.append (h.append c2)
    rw [c1, e2]
    simpa using this

/-- Tokens of the fixed part of the Java enum up to its name. -/
def midToks1 : List Token := [w "private", w "final", w "int", w "value", .punct ';']
/-- … between the two mentions of the name. -/
def midToks2 : List Token := [.punct '(', w "int", w "value", .punct ')', .punct '{', w "this", .punct '.', w "value", .punct '=', w "value",
  .punct ';', .punct '}', w "public", w "final", w "int", w "getValue", .punct '(', .punct ')', .punct '{', w "return", w "value", .punct ';',
  .punct '}', w "static"]
/-- … and after them. -/
def midToks3 : List Token := [w "fromInt", .punct '(', w "int", w "x", .punct ')', .punct '{', w "switch", .punct '(', w "x", .punct ')', .punct '{']

theorem javaMid1_reads : JReads javaMid1 midToks1 := jreads_lit (by decide +kernel) (by decide +kernel) (by decide +kernel)

theorem javaMid2_lex : javaMid2 = '(' :: javaMid2.tail ∧ '\\' ∉ javaMid2.tail ∧
    Toks (outp lexStep .code javaMid2.tail) midToks2.tail ∧ fin' lexStep .code javaMid2.tail = .code := by decide +kernel

theorem javaMid2_reads : JReads javaMid2.tail midToks2.tail :=
  ⟨clear_plain javaMid2_lex.2.1, _, ⟨rfl, javaMid2_lex.2.2.2⟩, javaMid2_lex.2.2.1⟩

theorem javaMid3_lex : javaMid3 = ' ' :: javaMid3.tail := by decide

theorem javaMid3_reads : JReads javaMid3.tail midToks3 := jreads_lit (by decide +kernel) (by decide +kernel) (by decide +kernel)

theorem javaHead1_reads : JReads javaHead1 [w "package"] :=
  ⟨clear_plain (by decide +kernel), "\npackage ".toList, by decide +kernel, by decide +kernel⟩

/-! ### C60, Java -/

/-- **C60**: whatever doc comments without `*/` and `\u` the user writes (of any number of lines), a Java compiler sees one blank instead of
them, and what follows is read as if it stood alone. -/
theorem C60_java_comments_invisible (ws : Char → Bool) (cs : List Text) (cls : Bool) (h : ∀ c ∈ cs, SafeJava ws c) (rest : Text) :
    javaView (docToJava ws cs cls ++ rest) = (javaView rest).map ((if cs = [] then [] else indent cls ++ [' ']) ++ ·) := by
  by_cases hcs : cs = []
  · subst hcs
    have : docToJava ws [] cls = [] := rfl
    rw [this]; simp
  · obtain ⟨a, b⟩ := docToJava_ok ws cs cls hcs h
    unfold javaView
    rw [a, if_neg hcs, Option.map_map, Option.map_map]
    congr 1
    funext x
    exact b.uncomment x

/-- **C60**: the Java file of an enum declares, whatever the doc comments, exactly the constants in order with their positions, and `fromInt`
with one case per item, in the same order. -/
theorem C60_java_enum_file (ws : Char → Bool) (pkg : Text) (e : EnumInfo) (hp : PathName pkg) (hn : Name e.name)
    (hi : ∀ it ∈ e.items, Name it.name) (hd : ∀ c ∈ e.docs, SafeJava ws c) (hid : ∀ it ∈ e.items, ∀ c ∈ it.docs, SafeJava ws c) :
    (javaView (javaEnumFile ws pkg e)).map tokens = some (
      [w "package"] ++ tokens pkg ++ [.punct ';', w "public", w "enum", .word e.name, .punct '{'] ++
        constsFrom 0 e.items ++ midToks1 ++ [.word e.name] ++ midToks2 ++ [.word e.name] ++ midToks3 ++ casesFrom 0 e.items ++
        endToks1 ++ [.word e.name] ++ endToks2) := by
  apply JReads.tokens
  have h1 := jreads_path hp ';' (by decide) (by decide)
  have h2 : JReads ['\n', '\n'] [] := jreads_lit (by decide) (by decide) (by decide)
  have h3 := jreads_docs ws e.docs true hd
  have h4 : JReads ['\n', 'p', 'u', 'b', 'l', 'i', 'c', ' ', 'e', 'n', 'u', 'm', ' '] [w "public", w "enum"] :=
    jreads_lit (by decide) (by decide) (by decide)
  have h5 := jreads_name hn ' ' (by decide) (by decide)
  have h6 : JReads ['{', '\n'] [.punct '{'] := jreads_lit (by decide) (by decide) (by decide)
  have h7 := javaItems_reads ws e.items.length 0 e.items hi hid (by simp)
  have h8 := jreads_name hn '(' (by decide) (by decide)
  have h9 := javaCases_reads 0 e.items hi
  have := javaHead1_reads.append (h1.append (h2.append (h3.append (h4.append (h5.append (h6.append (h7.append (javaMid1_reads.append
    (h8.append (javaMid2_reads.append (h5.append (javaMid3_reads.append (h9.append (javaEnd_reads e.name hn))))))))))))))
  have e1 : sep '(' = [.punct '('] := by decide
  have e2 : midToks2 = .punct '(' :: midToks2.tail := by decide
  rw [e1, sep_blank.1, sep_blank.2.2.2] at this
  unfold javaEnumFile
  rw [e2, javaMid2_lex.1, javaMid3_lex]
  simpa using this

/-! ### C60, Python -/

/-- How the Rust lexer reads a text of doc comments: every line must begin with `///` (and not with `////`), the rest of the line is the
comment; anything else is not just doc comments (`none`). -/
def rustDocs : Option Text → Nat → Text → Option (List Text)
  | none, 3, [] => some [[]]
  | some l, _, [] => some [l]
  | none, _, [] => none
  | none, n, c :: t =>
    if n < 3 then (if c = '/' then rustDocs none (n + 1) t else none)
    else if c = '/' then none else if c = '\n' then (rustDocs none 0 t).map ([] :: ·) else rustDocs (some [c]) 3 t
  | some l, _, c :: t => if c = '\n' then (rustDocs none 0 t).map (l :: ·) else rustDocs (some (l ++ [c])) 3 t

theorem rustDocs_line (l t : Text) (h : '\n' ∉ t) :
    rustDocs (some l) 3 t = some [l ++ t] ∧
    ∀ rest, rustDocs (some l) 3 (t ++ '\n' :: rest) = (rustDocs none 0 rest).map ((l ++ t) :: ·) := by
  induction t generalizing l with
  | nil => constructor <;> simp [rustDocs]
  | cons c t ih =>
    have hc : c ≠ '\n' := by rintro rfl; simp at h
    obtain ⟨a, b⟩ := ih (l ++ [c]) (fun h' => h (by simp [h']))
    constructor
    · simp [rustDocs, hc, a]
    · intro rest; simp [rustDocs, hc, b]

theorem rustDocs_start (t : Text) : rustDocs none 0 (['/', '/', '/', ' '] ++ t) = rustDocs (some [' ']) 3 t := by
  simp [rustDocs]

/-- **C60**: the doc comments of a Python method are the one-line comments the user wrote, in order (each after one more blank; without
comments there is one blank comment). -/
theorem C60_python_docs (cs : List Text) (h : ∀ c ∈ cs, '\n' ∉ c) :
    rustDocs none 0 (docToPython cs) = some (if cs = [] then [[' ']] else cs.map (' ' :: ·)) := by
  unfold docToPython
  cases cs with
  | nil => rfl
  | cons c cs =>
    rw [rustDocs_start, if_neg (by simp)]
    induction cs generalizing c with
    | nil =>
      have := (rustDocs_line [' '] c (h c (by simp))).1
      simpa [join] using this
    | cons d cs ih =>
      have h1 := (rustDocs_line [' '] c (h c (by simp))).2 (['/', '/', '/', ' '] ++ join ['\n', '/', '/', '/', ' '] (d :: cs))
      have h2 := ih d (fun x hx => h x (by simp at hx ⊢; exact .inr hx))
      rw [rustDocs_start, h2] at h1
      simpa [join] using h1

/-! ### Findings -/

/-- **C60 (finding)**: the second line of a block doc comment (`/** .. */`) is read as C++ code. -/
theorem C60_finding_second_line_is_code (ws : Char → Bool) (c a b : Text) (cls : Bool) (hc : trim ws c = a ++ '\n' :: b)
    (ha : '\n' ∉ a) (hl : a.getLast? ≠ some '\\') (rest : Text) :
    cView (docToC ws [c] cls ++ '\n' :: rest) = indent cls ++ '\n' :: cView (b ++ '\n' :: rest) := by
  have e : docToC ws [c] cls ++ '\n' :: rest = (indent cls ++ (['/', '/'] ++ a ++ ['\n'])) ++ (b ++ '\n' :: rest) := by
    simp [docToC, docToCLoop, hc]
  have hw : Whole (indent cls ++ (['/', '/'] ++ a ++ ['\n'])) :=
    (whole_indent cls).append ((Whole.append (by decide) (whole_line ha hl)).append (by decide))
  have hs : Sees (indent cls ++ (['/', '/'] ++ a ++ ['\n'])) (indent cls ++ ['\n']) := (sees_indent cls).append (sees_line_comment _ ha)
  rw [e]
  unfold cView
  rw [hw.splice_append, hs.uncomment]
  simp

/-- **C60 (finding)**: a doc comment that ends in a backslash hides the next line of the C++ header, whatever it declares. -/
theorem C60_finding_backslash_hides_next_line (ws : Char → Bool) (c a : Text) (cls : Bool) (hc : trim ws c = a ++ ['\\'])
    (ha : '\n' ∉ a) (line rest : Text) (h1 : '\n' ∉ line) (h2 : line.getLast? ≠ some '\\') :
    cView (docToC ws [c] cls ++ '\n' :: (line ++ '\n' :: rest)) = indent cls ++ '\n' :: cView rest := by
  have e : docToC ws [c] cls ++ '\n' :: (line ++ '\n' :: rest) =
      (indent cls ++ ['/', '/']) ++ ((a ++ ['\\']) ++ ('\n' :: (line ++ ['\n'] ++ rest))) := by
    simp [docToC, docToCLoop, hc]
  have hw : Whole (indent cls ++ ['/', '/']) := (whole_indent cls).append (by decide)
  have hw2 : Whole (line ++ ['\n']) := (whole_line h1 h2).append (by decide)
  obtain ⟨l1, l2⟩ := splice_line false (a ++ ['\\']) (by simp [ha])
  have hend : fin' spliceStep false (a ++ ['\\']) = true := l2.2 (by simp)
  rw [hend] at l1
  have hout : outp spliceStep false (a ++ ['\\']) = a := by
    have : outp spliceStep false (a ++ ['\\']) ++ ['\\'] = a ++ ['\\'] := by simpa [spliceFin] using l1
    exact List.append_cancel_right this
  have hs : splice (docToC ws [c] cls ++ '\n' :: (line ++ '\n' :: rest)) =
      (indent cls ++ (['/', '/'] ++ (a ++ line) ++ ['\n'])) ++ splice rest := by
    rw [e, hw.splice_append]
    have : splice ((a ++ ['\\']) ++ ('\n' :: (line ++ ['\n'] ++ rest))) = a ++ splice (line ++ ['\n'] ++ rest) := by
      unfold splice
      rw [run_append, hout, hend]
      rfl
    rw [this, hw2.splice_append]
    simp
  have hse : Sees (indent cls ++ (['/', '/'] ++ (a ++ line) ++ ['\n'])) (indent cls ++ ['\n']) :=
    (sees_indent cls).append (sees_line_comment _ (by simp [ha, h1]))
  unfold cView
  rw [hs, hse.uncomment]
  simp

/-- **C60 (finding)**: what follows `*/` in a doc comment is read as Java code (and so is the closing `*/` of the generated comment). -/
theorem C60_finding_java_comment_closed (ws : Char → Bool) (c a b : Text) (cls : Bool) (hc : trim ws c = a ++ ['*', '/'] ++ b)
    (ha : ¬ ['*', '/'] <:+: a) (rest : Text) :
    uncomment (docToJava ws [c] cls ++ rest) = indent cls ++ ' ' :: uncomment (b ++ '\n' :: indent cls ++ [' ', '*', '/'] ++ rest) := by
  have e : docToJava ws [c] cls ++ rest =
      (indent cls ++ (['/', '*'] ++ ((['*', '\n'] ++ indent cls ++ [' ', '*']) ++ (' ' :: a)) ++ ['*', '/'])) ++
        (b ++ '\n' :: indent cls ++ [' ', '*', '/'] ++ rest) := by
    simp [docToJava, docToJavaLoop, hc]
  have q : Quiet ((['*', '\n'] ++ indent cls ++ [' ', '*']) ++ (' ' :: a)) :=
    (((quiet_noslash (by decide) : Quiet ['*', '\n']).append (quiet_indent cls)).append
      (quiet_noslash (by decide) : Quiet [' ', '*'])).append (quiet_after_blank ha)
  have hs : Sees (['/', '*'] ++ ((['*', '\n'] ++ indent cls ++ [' ', '*']) ++ (' ' :: a)) ++ ['*', '/']) [' '] := by
    obtain ⟨h1, h2⟩ := q .block (.inl rfl)
    have e3 : ∀ s, (s = Lex.block ∨ s = .star) → outp lexStep s ['*', '/'] = [] ∧ fin' lexStep s ['*', '/'] = .code := by
      intro s hs; rcases hs with rfl | rfl <;> decide
    obtain ⟨h3, h4⟩ := e3 _ h2
    constructor
    · rw [outp_append, outp_append (b := (['*', '\n'] ++ indent cls ++ [' ', '*']) ++ (' ' :: a)), fin'_append, lex_open.1, lex_open.2,
        h1, h3]; rfl
    · rw [fin'_append, fin'_append, lex_open.2, h4]
  have hall := (sees_indent cls).append hs
  rw [e, hall.uncomment]
  simp

/-- White space as in ASCII, for examples. -/
def ascii (c : Char) : Bool := c == ' ' || c == '\n'

/-- **C60 (finding)**: a doc comment that mentions a path such as `C:\users` makes the Java file unreadable; an escape can also close the
comment. -/
theorem C60_finding_java_unicode_escape :
    javaView (docToJava ascii [" see C:\\users".toList] false ++ "int f();".toList) = none ∧
    javaView (docToJava ascii [" a \\u002a/ int".toList] true ++ " f();".toList) = some "  int\n */ f();".toList := by decide +kernel

/-- **C60 (finding)**: a block doc comment on a Python method is not read as doc comments. -/
theorem C60_finding_python_block (a b : Text) (ha : '\n' ∉ a) (c : Char) (hc : c ≠ '/') :
    rustDocs none 0 (docToPython [a ++ '\n' :: c :: b]) = none := by
  unfold docToPython
  rw [rustDocs_start, join, (rustDocs_line [' '] a ha).2]
  simp [rustDocs, hc]

/-! ### The hypotheses are met -/

example : SafeC ascii " a // b \\ c".toList ∧ SafeJava ascii " a / * \\ b\n c".toList := by
  constructor
  · exact ⟨by decide +kernel, by decide +kernel⟩
  · exact ⟨by decide +kernel, by decide +kernel⟩

example : Name "Größe_1".toList ∧ PathName "com.example".toList := ⟨⟨by decide, by decide +kernel⟩, by unfold PathName; decide +kernel⟩

example : tokens (cView (cppEnumFile ascii "ns".toList ⟨"E".toList, [" doc */ enum".toList], [⟨"A".toList, ["x".toList, "y".toList]⟩, ⟨"B".toList, []⟩]⟩)) =
    [.punct '#', w "pragma", w "once", w "namespace", w "ns", .punct '{', w "enum", w "E", .punct '{', w "A", .punct '=', w "0", .punct ',',
      w "B", .punct '=', w "1", .punct '}', .punct ';', .punct '}'] := by decide +kernel

example : (javaView (javaEnumFile ascii "a.b".toList ⟨"E".toList, [" doc // x\n y".toList], [⟨"A".toList, ["x".toList, "y".toList]⟩, ⟨"B".toList, []⟩]⟩)).map
    (fun t => (tokens t).take 20) = some
    [w "package", w "a", .punct '.', w "b", .punct ';', w "public", w "enum", w "E", .punct '{', w "A", .punct '(', w "0", .punct ')', .punct ',',
      w "B", .punct '(', w "1", .punct ')', .punct ';', w "private"] := by decide +kernel

example : rustDocs none 0 (docToPython [" a".toList, " b".toList]) = some ["  a".toList, "  b".toList] := by decide +kernel

end Flapi.Comments
