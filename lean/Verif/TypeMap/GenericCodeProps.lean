import Verif.TypeMap.GenericCode
import Verif.Macro.ScanProps
/-!
# The code of a generic conversion (C77)
-/
namespace Flapi.GenericCode

open Flapi.Macro

/-! ## Specification -/

/-- A call `swig_subst_type!(..)`. -/
def IsSubst (c : Call) : Prop := c.id = "swig_subst_type".toList

/-- The text of a type that fills in a parameter: the type bound to it, or the word itself. -/
def Filled {τ : Type} (name : τ → Text) (m : SubstMap.Map Text τ) (p out : Text) : Prop :=
  (∃ ty, m.get p = some (some ty) ∧ out = name ty) ∨ ((∀ ty, m.get p ≠ some (some ty)) ∧ out = p)

/-- What becomes of a piece of the code: characters stay, `swig_subst_type!(P)` is filled in, and another macro call stays a call of the
same macro with the same arguments. -/
def Becomes {τ : Type} (u : Unicode) (name : τ → Text) (m : SubstMap.Map Text τ) : Piece → Text → Prop
  | .chr c, out => out = [c]
  | .call c, out =>
    (IsSubst c ∧ ∃ p, params u c.inner = [p] ∧ Filled name m p out) ∨
    (¬ IsSubst c ∧ ∃ c' : Call, Call.WF u c' ∧ c'.id = c.id ∧ params u c'.inner = params u c.inner ∧ out = c'.render)

/-- The pieces, one after the other. -/
inductive AllBecome {τ : Type} (u : Unicode) (name : τ → Text) (m : SubstMap.Map Text τ) : List Piece → Text → Prop
  | nil : AllBecome u name m [] []
  | cons {p ps out rest} : Becomes u name m p out → AllBecome u name m ps rest → AllBecome u name m (p :: ps) (out ++ rest)

/-! ## Balanced texts -/

/-- Only the brackets. -/
def parens (t : Text) : Text := t.filter fun c => c == '(' || c == ')'

theorem count_parens (t : Text) : (parens t).count '(' = t.count '(' ∧ (parens t).count ')' = t.count ')' := by
  induction t with
  | nil => simp [parens]
  | cons c t ih =>
    simp only [parens, List.filter_cons] at ih ⊢
    by_cases h1 : c = '('
    · subst h1; simp [ih]
    · by_cases h2 : c = ')'
      · subst h2; simp [ih]
      · have : (c == '(' || c == ')') = false := by simp [h1, h2]
        simp [this, ih, List.count_cons, h1, h2]

theorem prefix_parens {t q : Text} (h : q <+: parens t) : ∃ p, p <+: t ∧ parens p = q := by
  induction t generalizing q with
  | nil => exact ⟨[], List.prefix_refl _, by simp [parens] at h; simp [parens, h]⟩
  | cons c t ih =>
    by_cases hc : (c == '(' || c == ')') = true
    · have e : parens (c :: t) = c :: parens t := by simp only [parens, List.filter_cons, hc, if_true]
      rw [e] at h
      cases q with
      | nil => exact ⟨[], List.nil_prefix, rfl⟩
      | cons a q =>
        rw [List.cons_prefix_cons] at h
        obtain ⟨rfl, h⟩ := h
        obtain ⟨p, hp, hq⟩ := ih h
        refine ⟨a :: p, by rw [List.cons_prefix_cons]; exact ⟨rfl, hp⟩, ?_⟩
        simp only [parens, List.filter_cons, hc, if_true] at hq ⊢
        rw [hq]
    · have e : parens (c :: t) = parens t := by simp only [parens, List.filter_cons, hc]; rfl
      rw [e] at h
      obtain ⟨p, hp, hq⟩ := ih h
      refine ⟨c :: p, by rw [List.cons_prefix_cons]; exact ⟨rfl, hp⟩, ?_⟩
      simp only [parens, List.filter_cons, hc] at hq ⊢
      exact hq

theorem balanced_parens (t : Text) : Balanced t ↔ Balanced (parens t) := by
  constructor
  · rintro ⟨h1, h2⟩
    refine ⟨?_, ?_⟩
    · intro q hq
      obtain ⟨p, hp, rfl⟩ := prefix_parens hq
      rw [(count_parens p).1, (count_parens p).2]
      exact h1 p hp
    · rw [(count_parens t).1, (count_parens t).2]; exact h2
  · rintro ⟨h1, h2⟩
    refine ⟨?_, ?_⟩
    · intro p hp
      rw [← (count_parens p).1, ← (count_parens p).2]
      apply h1
      obtain ⟨r, rfl⟩ := hp
      exact ⟨parens r, by simp [parens]⟩
    · rw [(count_parens t).1, (count_parens t).2] at h2; exact h2

theorem parens_append (a b : Text) : parens (a ++ b) = parens a ++ parens b := by simp [parens]

theorem ws_not_paren (u : Unicode) {c : Char} (h : u.isWhitespace c = true) : (c == '(' || c == ')') = false := by
  by_cases h1 : c = '('
  · subst h1; rw [paren_not_ws] at h; cases h
  · by_cases h2 : c = ')'
    · subst h2
      have e1 : ascii ')' = true := by decide
      have e2 : asciiWs ')' = false := by decide
      simp [Unicode.isWhitespace, e1, e2] at h
    · simp [h1, h2]

theorem parens_dropWhile (u : Unicode) (t : Text) : parens (t.dropWhile u.isWhitespace) = parens t := by
  induction t with
  | nil => rfl
  | cons c t ih =>
    rw [List.dropWhile_cons]
    split
    · rename_i h
      rw [ih]
      simp only [parens, List.filter_cons, ws_not_paren u h]
      rfl
    · rfl

theorem parens_reverse (t : Text) : parens t.reverse = (parens t).reverse := by simp [parens, List.filter_reverse]

theorem parens_trim (u : Unicode) (t : Text) : parens (trim u t) = parens t := by
  rw [trim, parens_reverse, parens_dropWhile, parens_reverse, parens_dropWhile, List.reverse_reverse]

/-- The brackets of a list of texts. -/
def parensAll (l : List Text) : Text := l.flatMap parens

theorem parens_split (t : Text) : parensAll (splitComma t) = parens t := by
  induction t with
  | nil => rfl
  | cons c t ih =>
    rw [splitComma]
    split
    · rename_i h
      have : c = ',' := by simpa using h
      subst this
      simp only [parensAll, List.flatMap_cons] at ih ⊢
      rw [ih]; rfl
    · cases hs : splitComma t with
      | nil =>
        rw [hs] at ih
        have e : parens (c :: t) = parens [c] ++ parens t := parens_append [c] t
        rw [e, ← ih]
        simp [parensAll]
      | cons p ps =>
        rw [hs] at ih
        simp only [parensAll, List.flatMap_cons] at ih ⊢
        have : ∀ x : Text, parens (c :: x) = parens [c] ++ parens x := fun x => parens_append [c] x
        rw [this p, this t, List.append_assoc, ih]

theorem parens_params (u : Unicode) (t : Text) : parensAll (params u t) = parens t := by
  have h1 : ∀ l : List Text, parensAll (l.filter fun s => !s.isEmpty) = parensAll l := by
    intro l
    induction l with
    | nil => rfl
    | cons a l ih =>
      cases a with
      | nil => simpa [parensAll, parens, List.filter_cons] using ih
      | cons x a => simp only [List.filter_cons, List.isEmpty_cons, Bool.not_false, if_true]
                    simp only [parensAll, List.flatMap_cons] at ih ⊢; rw [ih]
  have h2 : ∀ l : List Text, parensAll (l.map (trim u)) = parensAll l := by
    intro l
    induction l with
    | nil => rfl
    | cons a l ih => simp only [parensAll, List.map_cons, List.flatMap_cons, parens_trim] at ih ⊢; rw [ih]
  rw [params, h1, h2, parens_split, parens_trim]

theorem parens_more (ps : List Text) : parens (moreParams ps) = parensAll ps := by
  induction ps with
  | nil => rfl
  | cons p ps ih =>
    have : parens (',' :: ' ' :: (p ++ moreParams ps)) = parens (p ++ moreParams ps) := by
      simp only [parens, List.filter_cons]; rfl
    rw [moreParams, this, parens_append, ih]; rfl

theorem parens_join (ps : List Text) : parens (joinParams ps) = parensAll ps := by
  cases ps with
  | nil => rfl
  | cons p ps => rw [joinParams, parens_append, parens_more]; rfl

/-! ## Writing a call out again -/

theorem trim_trimmed (u : Unicode) (t : Text) : Trimmed u (trim u t) := by
  have head : ∀ (l : Text) c, (l.dropWhile u.isWhitespace).head? = some c → u.isWhitespace c = false := by
    intro l c h
    cases hd : l.dropWhile u.isWhitespace with
    | nil => rw [hd] at h; cases h
    | cons x r => rw [hd] at h; cases h; exact dropWhile_head hd
  have last : ∀ (l : Text) c, (l.dropWhile u.isWhitespace).getLast? = some c → l.getLast? = some c := by
    intro l c h
    have := takeWhile_dropWhile (p := u.isWhitespace) (l := l)
    rw [← this, List.getLast?_append, h]; rfl
  constructor
  · intro c h
    rw [trim, List.head?_reverse] at h
    have := last _ c h
    rw [List.getLast?_reverse] at this
    exact head _ c this
  · intro c h
    rw [trim, List.getLast?_reverse] at h
    exact head _ c h

theorem params_good (u : Unicode) (t : Text) : ∀ x ∈ params u t, Trimmed u x ∧ x ≠ [] ∧ ',' ∉ x := by
  intro x hx
  simp only [params, List.mem_filter, List.mem_map] at hx
  obtain ⟨⟨y, hy, rfl⟩, hne⟩ := hx
  refine ⟨trim_trimmed u y, by intro e; rw [e] at hne; simp at hne, ?_⟩
  have hcomma : ∀ (s : Text), ∀ y ∈ splitComma s, ',' ∉ y := by
    intro s
    induction s with
    | nil => intro y hy; simp [splitComma] at hy; simp [hy]
    | cons c s ih =>
      intro y hy
      rw [splitComma] at hy
      split at hy
      · rcases List.mem_cons.1 hy with rfl | hy
        · simp
        · exact ih y hy
      · rename_i hc
        have hc' : ',' ≠ c := by intro e; subst e; simp at hc
        cases hs : splitComma s with
        | nil => rw [hs] at hy; simp at hy; subst hy; simp [hc']
        | cons p ps =>
          rw [hs] at hy ih
          rcases List.mem_cons.1 hy with rfl | hy
          · intro hm
            rcases List.mem_cons.1 hm with e | hm
            · exact hc' e
            · exact ih p (by simp) hm
          · exact ih y (by simp [hy])
  have hsub : ∀ c ∈ trim u y, c ∈ y := by
    intro c hc
    rw [trim, List.mem_reverse] at hc
    have := (List.dropWhile_suffix u.isWhitespace).subset hc
    rw [List.mem_reverse] at this
    exact (List.dropWhile_suffix u.isWhitespace).subset this
  exact fun hm => hcomma _ y hy (hsub _ hm)

/-- Parameters with a blank in front. -/
def padded (ps : List Text) : List (Text × Text) := ps.map fun p => (p, ' ' :: p)

theorem joinParams_comma (p : Text) (ps : List Text) :
    joinParams (p :: ps) = joinComma (((p, p) :: padded ps).map (·.2)) := by
  rw [joinParams]
  induction ps generalizing p with
  | nil => simp [moreParams, padded, joinComma]
  | cons q qs ih =>
    rw [moreParams]
    have := ih (' ' :: q)
    rw [List.cons_append] at this
    rw [this]
    rfl

theorem params_rewrite (u : Unicode) (t : Text) : params u (joinParams (params u t)) = params u t := by
  cases hp : params u t with
  | nil => simp [joinParams, params, trim, splitComma]
  | cons p ps =>
    have good := params_good u t
    rw [hp] at good
    have hb : u.isWhitespace ' ' = true := by
      have e1 : ascii ' ' = true := by decide
      have e2 : asciiWs ' ' = true := by decide
      simp [Unicode.isWhitespace, e1, e2]
    rw [joinParams_comma, C20_params_blanks u _ (by simp)]
    · have : ((p, p) :: padded ps).map (·.1) = p :: ps := by simp [padded, Function.comp_def]
      rw [this, List.filter_eq_self]
      intro x hx; simpa using (good x hx).2.1
    · intro z hz
      rcases List.mem_cons.1 hz with rfl | hz
      · exact ⟨(good p (by simp)).1, ⟨[], [], by simp, by simp, by simp⟩, (good p (by simp)).2.2⟩
      · simp only [padded, List.mem_map] at hz
        obtain ⟨x, hx, rfl⟩ := hz
        have g := good x (by simp [hx])
        refine ⟨g.1, ⟨[' '], [], by simp [hb], by simp, by simp⟩, ?_⟩
        intro hm
        rcases List.mem_cons.1 hm with e | hm
        · cases e
        · exact g.2.2 hm

theorem rewrite_call (u : Unicode) (c : Call) (hc : Call.WF u c) :
    ∃ c' : Call, Call.WF u c' ∧ c'.id = c.id ∧ params u c'.inner = params u c.inner ∧ rewrite c.id (params u c.inner) = c'.render := by
  refine ⟨⟨c.id, [], [], joinParams (params u c.inner)⟩, ⟨hc.head, hc.ident, by simp, by simp, ?_⟩, rfl, params_rewrite u _, rfl⟩
  simp only
  rw [balanced_parens, parens_join, parens_params, ← balanced_parens]
  exact hc.bal

/-! ## Theorems -/

theorem expander_subst {τ : Type} (name : τ → Text) (m : SubstMap.Map Text τ) (p : Text) :
    ∃ out, expander name m () Inst.swigSubstType [p] = .ok (out, ()) ∧ Filled name m p out := by
  cases h : m.get p with
  | none => exact ⟨p, by simp only [expander, if_true, h], Or.inr ⟨by simp [h], rfl⟩⟩
  | some o =>
    cases o with
    | none => exact ⟨p, by simp only [expander, if_true, h], Or.inr ⟨by simp [h], rfl⟩⟩
    | some ty => exact ⟨name ty, by simp only [expander, if_true, h], Or.inl ⟨ty, h, rfl⟩⟩

theorem run_becomes {τ : Type} (u : Unicode) (name : τ → Text) (m : SubstMap.Map Text τ) (ps : List Piece)
    (hw : ∀ c, Piece.call c ∈ ps → Call.WF u c) :
    (∃ t, Macro.run u (expander name m) () ps = .ok (t, ()) ∧ AllBecome u name m ps t) ∨
    (∃ e, Macro.run u (expander name m) () ps = .error e ∧ ∃ c, Piece.call c ∈ ps ∧ IsSubst c ∧ (params u c.inner).length ≠ 1) := by
  induction ps with
  | nil => exact Or.inl ⟨[], rfl, .nil⟩
  | cons p ps ih =>
    have ih := ih (fun c hc => hw c (List.mem_cons_of_mem _ hc))
    cases p with
    | chr c =>
      rcases ih with ⟨t, h1, h2⟩ | ⟨e, h1, c', hc', h2⟩
      · exact Or.inl ⟨c :: t, by simp [Macro.run, h1, Except.map], AllBecome.cons (out := [c]) rfl h2⟩
      · exact Or.inr ⟨e, by simp [Macro.run, h1, Except.map], c', List.mem_cons_of_mem _ hc', h2⟩
    | call c =>
      have step : ∀ out, expander name m () c.id (params u c.inner) = .ok (out, ()) → Becomes u name m (.call c) out →
          (∃ t, Macro.run u (expander name m) () (.call c :: ps) = .ok (t, ()) ∧ AllBecome u name m (.call c :: ps) t) ∨
          (∃ e, Macro.run u (expander name m) () (.call c :: ps) = .error e ∧
            ∃ c', Piece.call c' ∈ .call c :: ps ∧ IsSubst c' ∧ (params u c'.inner).length ≠ 1) := by
        intro out he hb
        rcases ih with ⟨t, h1, h2⟩ | ⟨e, h1, c', hc', h2⟩
        · exact Or.inl ⟨out ++ t, by simp [Macro.run, he, h1, Except.map], .cons hb h2⟩
        · exact Or.inr ⟨e, by simp [Macro.run, he, h1, Except.map], c', List.mem_cons_of_mem _ hc', h2⟩
      by_cases hs : c.id = Inst.swigSubstType
      · by_cases h1 : ∃ p, params u c.inner = [p]
        · obtain ⟨p, h1⟩ := h1
          obtain ⟨out, he, hf⟩ := expander_subst name m p
          refine step out ?_ (Or.inl ⟨hs, p, h1, hf⟩)
          rw [hs, h1]; exact he
        · have hl : (params u c.inner).length ≠ 1 := by
            intro e
            rw [List.length_eq_one_iff] at e
            exact h1 e
          refine Or.inr ⟨(params u c.inner).length, ?_, c, by simp, hs, hl⟩
          have he : expander name m () c.id (params u c.inner) = .error (params u c.inner).length := by
            rw [hs]
            cases hp : params u c.inner with
            | nil => simp [expander]
            | cons a l =>
              cases l with
              | nil => exact absurd ⟨a, hp⟩ h1
              | cons b l => simp [expander]
          simp [Macro.run, he]
      · obtain ⟨c', g1, g2, g3, g4⟩ := rewrite_call u c (hw c (by simp))
        refine step (rewrite c.id (params u c.inner)) ?_ (Or.inr ⟨hs, c', g1, g2, g3, g4⟩)
        simp only [expander, if_neg hs]

theorem parse_wf {u : Unicode} {code : Text} {ps : List Piece} (h : Parse u code ps) : ∀ c, Piece.call c ∈ ps → Call.WF u c := by
  induction h with
  | nil => intro c hc; simp at hc
  | @call c0 rest ps hw _ ih =>
    intro c hc
    rcases List.mem_cons.1 hc with e | hc
    · cases e; exact hw
    · exact ih c hc
  | chr _ _ ih =>
    intro c hc
    rcases List.mem_cons.1 hc with e | hc
    · cases e
    · exact ih c hc

/-- **C77**: the code of an instance of a generic conversion is the code of the conversion in which every `swig_subst_type!(P)` is
replaced by the type bound to `P`; everything else stays: characters as they are, other macro calls as calls of the same macro with the
same arguments. -/
theorem C77_code {τ : Type} (u : Unicode) (name : τ → Text) (m : SubstMap.Map Text τ) (code : Text) (ps : List Piece)
    (ha : ∀ c ∈ code, ascii c = true) (hp : Parse u code ps) (t : Text) (h : codeForConversion u name m code = some t) :
    AllBecome u name m ps t := by
  rw [codeForConversion, C20_expand u _ () code ps ha hp] at h
  rcases run_becomes u name m ps (parse_wf hp) with ⟨t', h1, h2⟩ | ⟨e, h1, _⟩
  · rw [h1] at h; cases h; exact h2
  · rw [h1] at h; cases h

/-- **C77**: instantiating fails (with a panic) exactly if some `swig_subst_type!` of the code has not exactly one argument; in
particular it does not depend on the types. -/
theorem C77_fails_iff {τ : Type} (u : Unicode) (name : τ → Text) (m : SubstMap.Map Text τ) (code : Text) (ps : List Piece)
    (ha : ∀ c ∈ code, ascii c = true) (hp : Parse u code ps) :
    codeForConversion u name m code = none ↔ ∃ c, Piece.call c ∈ ps ∧ IsSubst c ∧ (params u c.inner).length ≠ 1 := by
  rw [codeForConversion, C20_expand u _ () code ps ha hp]
  rcases run_becomes u name m ps (parse_wf hp) with ⟨t', h1, h2⟩ | ⟨e, h1, h2⟩
  · rw [h1]
    constructor
    · intro h; cases h
    · rintro ⟨c, hc, hs, hl⟩
      exfalso
      clear h1 hp
      induction h2 with
      | nil => simp at hc
      | cons hb _ ih =>
        rcases List.mem_cons.1 hc with e | hc
        · subst e
          rcases hb with ⟨_, p, hp, _⟩ | ⟨hn, _⟩
          · exact hl (by rw [hp]; rfl)
          · exact hn hs
        · exact ih hc
  · rw [h1]
    exact ⟨fun _ => h2, fun _ => rfl⟩

/-- **C77**: code without macro calls is used as it is, whatever the types. -/
theorem C77_plain_code {τ : Type} (u : Unicode) (name : τ → Text) (m : SubstMap.Map Text τ) (code : Text)
    (ha : ∀ c ∈ code, ascii c = true) (hn : '!' ∉ code) : codeForConversion u name m code = some code := by
  rw [codeForConversion, C20_no_bang_unchanged u _ () code ha hn]

/-- Two maps bind the arguments of every `swig_subst_type!` to the same types. -/
def SameTypes {τ : Type} (u : Unicode) (m m' : SubstMap.Map Text τ) (ps : List Piece) : Prop :=
  ∀ c, Piece.call c ∈ ps → IsSubst c → ∀ p ∈ params u c.inner, m.get p = m'.get p

/-- **C77**: the result depends only on the types of the parameters that the code mentions in `swig_subst_type!`. -/
theorem C77_depends_on_mentioned {τ : Type} (u : Unicode) (name : τ → Text) (m m' : SubstMap.Map Text τ) (code : Text) (ps : List Piece)
    (ha : ∀ c ∈ code, ascii c = true) (hp : Parse u code ps) (hs : SameTypes u m m' ps) :
    codeForConversion u name m code = codeForConversion u name m' code := by
  have : ∀ ps : List Piece, SameTypes u m m' ps → Macro.run u (expander name m) () ps = Macro.run u (expander name m') () ps := by
    intro ps
    induction ps with
    | nil => intro _; rfl
    | cons p ps ih =>
      intro h
      have ih := ih (fun c hc => h c (List.mem_cons_of_mem _ hc))
      cases p with
      | chr c => rw [Macro.run, Macro.run, ih]
      | call c =>
        have he : expander name m () c.id (params u c.inner) = expander name m' () c.id (params u c.inner) := by
          by_cases e : c.id = Inst.swigSubstType
          · have hh := h c (by simp) e
            cases hq : params u c.inner with
            | nil => simp [expander]
            | cons a l =>
              cases l with
              | nil =>
                rw [hq] at hh
                simp only [expander, hh a (by simp)]
              | cons b l => simp [expander]
          · simp only [expander, if_neg e]
        rw [Macro.run, Macro.run, he]
        cases expander name m' () c.id (params u c.inner) with
        | error e => rfl
        | ok x => obtain ⟨a, ⟨⟩⟩ := x; simp only [ih]
  rw [codeForConversion, codeForConversion, C20_expand u _ () code ps ha hp, C20_expand u _ () code ps ha hp, this ps hs]

/-! ## Examples and findings -/

/-- Tables without letters outside ASCII. -/
def plain : Unicode := ⟨fun _ => false, fun _ => false, fun _ => false⟩

/-- A map that binds `T` to `Foo`. -/
def tFoo : SubstMap.Map Text Text := ⟨[("T".toList, some "Foo".toList), ("U".toList, none)]⟩

example : codeForConversion plain id tFoo "let x: <swig_subst_type!(T)> = f!( a,b ) as swig_subst_type!(U);".toList =
    some "let x: <Foo> = f!(a, b) as U;".toList := by decide +kernel
example : codeForConversion plain id tFoo "swig_subst_type!(T, U)".toList = none := by decide +kernel
example : codeForConversion plain id tFoo "vec![swig_subst_type!(T)]".toList = some "vec![Foo]".toList := by decide +kernel

/-- **C77 (finding)**: inside the arguments of another macro called with round brackets `swig_subst_type!` is not filled in. -/
theorem C77_finding_nested_not_filled : codeForConversion plain id tFoo "assert!(swig_subst_type!(T)::ok());".toList =
    some "assert!(swig_subst_type!(T)::ok());".toList := by decide +kernel

/-- **C77 (finding)**: a comma in a string given to another macro gets a blank after it, so the string changes. -/
theorem C77_finding_string_changed : codeForConversion plain id tFoo "panic!(\"a,b\");".toList =
    some "panic!(\"a, b\");".toList := by decide +kernel

end Flapi.GenericCode
