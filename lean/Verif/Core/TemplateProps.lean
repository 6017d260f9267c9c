import Verif.Core.Template
import Verif.Core.NameGenProps
/-!
# C09 – conversion code templates are instantiated hygienically
-/
namespace Flapi.Template

/-! ## Specification -/

/-- A template as the rule author sees it: literal text and placeholders. -/
inductive Piece
  | lit (t : Text)
  | ph (token : Text)
deriving DecidableEq

/-- The template text. -/
def render : List Piece → Text
  | [] => []
  | .lit t :: ps => t ++ render ps
  | .ph tok :: ps => tok ++ render ps

/-- The intended result: literal text unchanged, every placeholder replaced by its value – all at once. -/
def instantiate (σ : Text → Text) : List Piece → Text
  | [] => []
  | .lit t :: ps => t ++ instantiate σ ps
  | .ph tok :: ps => σ tok ++ instantiate σ ps

/-- Value of a token in a substitution list. -/
def valueOf (kv : List (Text × Text)) (tok : Text) : Text :=
  match kv.find? (fun p => p.1 = tok) with
  | some p => p.2
  | none => tok

/-- The four placeholders of `generate_code`. -/
def tokens : List Text := [toVar, fromVar, toVarType, functionRetType]

/-! ## Helper lemmas -/

/-- Boolean version of `Inert`, for concrete checks. -/
def inertB (pat : Text) : Text → Bool
  | [] => true
  | c :: x => !(pat.isPrefixOf (c :: x)) && !((c :: x).isPrefixOf pat) && inertB pat x

theorem inertB_iff (pat x : Text) : inertB pat x = true ↔ Inert pat x := by
  induction x with
  | nil =>
    simp only [inertB, Inert, true_iff]
    intro s hs hsuf
    exact absurd (List.suffix_nil.1 hsuf) hs
  | cons c x ih =>
    simp only [inertB, Bool.and_eq_true, Bool.not_eq_true', ih]
    constructor
    · rintro ⟨⟨h1, h2⟩, h3⟩ s hs hsuf
      rcases List.suffix_cons_iff.1 hsuf with rfl | h
      · constructor
        · intro h; rw [← List.isPrefixOf_iff_prefix] at h; simp [h] at h1
        · intro h; rw [← List.isPrefixOf_iff_prefix] at h; simp [h] at h2
      · exact h3 s hs h
    · intro h
      have h0 := h (c :: x) (by simp) (List.suffix_refl _)
      refine ⟨⟨?_, ?_⟩, ?_⟩
      · rw [Bool.eq_false_iff]; intro hh; exact h0.1 (List.isPrefixOf_iff_prefix.1 hh)
      · rw [Bool.eq_false_iff]; intro hh; exact h0.2 (List.isPrefixOf_iff_prefix.1 hh)
      · intro s hs hsuf; exact h s hs (hsuf.trans (List.suffix_cons c x))

theorem inert_append (pat a b : Text) (ha : Inert pat a) (hb : Inert pat b)
    (hab : ∀ s, s ≠ [] → s <:+ a → ¬ pat <+: s ++ b) : Inert pat (a ++ b) := by
  intro s hs hsuf
  obtain ⟨t, ht⟩ := hsuf
  rcases List.append_eq_append_iff.1 ht with ⟨l, h1, h2⟩ | ⟨l, h1, h2⟩
  · by_cases hl : l = []
    · subst hl
      simp at h2; subst h2
      exact hb _ hs (List.suffix_refl _)
    · subst h2
      have hla : l <:+ a := ⟨t, h1.symm⟩
      refine ⟨hab l hl hla, ?_⟩
      intro hp
      exact (ha l hl hla).2 ((List.prefix_append l b).trans hp)
  · exact hb s hs ⟨l, h2.symm⟩

/-- A text without the first character of the pattern is inert. -/
theorem inert_of_not_mem (c : Char) (pat x : Text) (h : c ∉ x) : Inert (c :: pat) x := by
  intro s hs hsuf
  have hc : c ∉ s := fun hm => h (hsuf.subset hm)
  constructor
  · intro hp; exact hc (hp.subset (by simp))
  · intro hp
    cases s with
    | nil => exact hs rfl
    | cons d s =>
      have := List.cons_prefix_cons.1 hp
      exact hc (by simp [this.1])

/-- Replacement of one token in a template whose other pieces are inert for it. -/
theorem strReplace_render (tok v : Text) (htok : tok ≠ []) (ps : List Piece)
    (h : ∀ p ∈ ps, match p with
      | .lit t => Inert tok t
      | .ph t => t = tok ∨ Inert tok t) :
    strReplace (render ps) tok v
      = render (ps.map (fun p => match p with
          | .lit t => .lit t
          | .ph t => if t = tok then .lit v else .ph t)) := by
  induction ps with
  | nil => exact strReplace_nil _ _ htok
  | cons p ps ih =>
    have ih' := ih (fun q hq => h q (by simp [hq]))
    have hp := h p (by simp)
    cases p with
    | lit t =>
      simp only [render, List.map_cons]
      rw [strReplace_inert _ _ _ _ htok hp, ih']
    | ph t =>
      simp only [render, List.map_cons]
      by_cases ht : t = tok
      · subst ht
        simp only [if_true, render]
        rw [strReplace_match _ _ _ htok, ih']
      · simp only [ht, if_false, render]
        rcases hp with hp | hp
        · exact absurd hp ht
        · rw [strReplace_inert _ _ _ _ htok hp, ih']

theorem instantiate_step (tok v : Text) (kv : List (Text × Text)) (ps : List Piece) :
    instantiate (valueOf kv) (ps.map (fun p => match p with
          | .lit t => .lit t
          | .ph t => if t = tok then .lit v else .ph t))
      = instantiate (valueOf ((tok, v) :: kv)) ps := by
  induction ps with
  | nil => rfl
  | cons p ps ih =>
    cases p with
    | lit t => simp [instantiate, ih]
    | ph t =>
      by_cases ht : t = tok
      · subst ht; simp [instantiate, ih, valueOf]
      · have : ¬ tok = t := fun e => ht e.symm
        simp [instantiate, ih, valueOf, ht, this]

/-- **C09 (general form).** Sequential replacement of a list of tokens equals simultaneous instantiation, whenever
(1) the literal pieces and (2) the inserted values are inert for all tokens and (3) different tokens do not overlap. -/
theorem C09_sequential_is_simultaneous (kv : List (Text × Text)) (ps : List Piece)
    (hne : ∀ p ∈ kv, p.1 ≠ [])
    (hval : ∀ p ∈ kv, ∀ q ∈ kv, Inert p.1 q.2)
    (hlit : ∀ t, Piece.lit t ∈ ps → ∀ p ∈ kv, Inert p.1 t)
    (hph : ∀ t, Piece.ph t ∈ ps → ∀ p ∈ kv, t = p.1 ∨ Inert p.1 t) :
    seqReplace (render ps) kv = instantiate (valueOf kv) ps := by
  have gen : ∀ (kv : List (Text × Text)) (ps : List Piece),
      (∀ p ∈ kv, p.1 ≠ []) → (∀ p ∈ kv, ∀ q ∈ kv, Inert p.1 q.2) →
      (∀ t, Piece.lit t ∈ ps → ∀ p ∈ kv, Inert p.1 t) →
      (∀ t, Piece.ph t ∈ ps → ∀ p ∈ kv, t = p.1 ∨ Inert p.1 t) →
      seqReplace (render ps) kv = instantiate (valueOf kv) ps := by
    intro kv
    induction kv with
    | nil =>
      intro ps _ _ _ _
      simp only [seqReplace, List.foldl_nil]
      induction ps with
      | nil => rfl
      | cons p ps ih => cases p <;> simp [render, instantiate, valueOf, ih]
    | cons p kv ih =>
      intro ps hne hval hlit hph
      obtain ⟨tok, v⟩ := p
      have h1 := strReplace_render tok v (hne (tok, v) (by simp)) ps (by
        intro p hp
        cases p with
        | lit t => exact hlit t hp (tok, v) (by simp)
        | ph t => exact hph t hp (tok, v) (by simp))
      simp only [seqReplace, List.foldl_cons] at *
      rw [h1, ← instantiate_step]
      refine ih _ (fun p hp => hne p (by simp [hp]))
        (fun p hp q hq => hval p (by simp [hp]) q (by simp [hq])) ?_ ?_
      · intro t ht p hp
        obtain ⟨q, hq, he⟩ := List.mem_map.1 ht
        cases q with
        | lit t' => simp at he; subst he; exact hlit _ hq p (by simp [hp])
        | ph t' =>
          by_cases h : t' = tok
          · simp [h] at he; subst he; exact hval p (by simp [hp]) (tok, v) (by simp)
          · simp [h] at he
      · intro t ht p hp
        obtain ⟨q, hq, he⟩ := List.mem_map.1 ht
        cases q with
        | lit t' => simp at he
        | ph t' =>
          by_cases h : t' = tok
          · simp [h] at he
          · simp [h] at he; subst he; exact hph _ hq p (by simp [hp])
  exact gen kv ps hne hval hlit hph

/-! ## Property theorems -/

/-- A conversion template is accepted only if it mentions both the source and the target variable, and its text is kept. -/
theorem C09_template_complete (code : Text) :
    (∀ c, TypeConvCode.new2 code = some c → c.code = code) ∧
    ((TypeConvCode.new2 code).isSome = true ↔ "{to_var}".toList <:+: code ∧ "{from_var}".toList <:+: code) := by
  have h1 := strContains_iff code toVar
  have h2 := strContains_iff code fromVar
  unfold toVar at h1
  unfold fromVar at h2
  rw [← h1, ← h2]
  unfold TypeConvCode.new2 foundParams toVar fromVar
  generalize strContains code "{to_var}".toList = a
  generalize strContains code "{from_var}".toList = b
  constructor
  · intro c hc
    simp only [Option.ite_none_right_eq_some, Option.some.injEq] at hc
    rw [← hc.2]
  · cases a <;> cases b <;> simp

/-- **C09 (`generate_code`).** For every template made of literal text and the four placeholders, and all names and
type texts without an opening brace, the generated code is the indented template with every placeholder replaced by its
value and all other text unchanged.  A literal must not contain a placeholder, nor end in the middle of one
(`Inert`); see `C09_literal_ok` for an easy sufficient condition. -/
theorem C09_generate_code (ps : List Piece) (params : List Text) (toName fromName toTypename funcRetType : Text)
    (hnames : ∀ n ∈ [toName, fromName, toTypename, funcRetType], '{' ∉ n)
    (hph : ∀ t, Piece.ph t ∈ ps → t ∈ tokens)
    (hlit : ∀ t, Piece.lit t ∈ ps → ∀ tok ∈ tokens, Inert tok t) :
    (TypeConvCode.mk (render ps) params).generateCode toName fromName toTypename funcRetType
      = "    ".toList ++ instantiate (fun tok =>
          if tok = toVar then toName else if tok = fromVar then fromName
          else if tok = toVarType then toTypename else funcRetType) ps ++ "\n".toList := by
  let kv : List (Text × Text) :=
    [(toVar, toName), (fromVar, fromName), (toVarType, toTypename), (functionRetType, funcRetType)]
  have htk : ∀ p ∈ kv, p.1 ∈ tokens := by
    intro p hp; simp [kv] at hp; rcases hp with rfl | rfl | rfl | rfl <;> simp [tokens]
  have hbrace : ∀ tok ∈ tokens, ∀ x : Text, '{' ∉ x → Inert tok x := by
    intro tok ht x hx
    simp [tokens] at ht
    rcases ht with rfl | rfl | rfl | rfl
    · exact inert_of_not_mem '{' _ _ hx
    · exact inert_of_not_mem '{' _ _ hx
    · exact inert_of_not_mem '{' _ _ hx
    · exact inert_of_not_mem '{' _ _ hx
  have hmut : ∀ t ∈ tokens, ∀ u ∈ tokens, t = u ∨ Inert u t := by
    have : ∀ t ∈ tokens, ∀ u ∈ tokens, t = u ∨ inertB u t = true := by decide
    intro t ht u hu
    rcases this t ht u hu with h | h
    · exact Or.inl h
    · exact Or.inr ((inertB_iff _ _).1 h)
  have hmain := C09_sequential_is_simultaneous kv
    (.lit "    ".toList :: ps ++ [.lit "\n".toList])
    (by
      intro p hp
      have : ∀ t ∈ tokens, t ≠ [] := by decide
      exact this _ (htk p hp))
    (by
      intro p hp q hq
      refine hbrace _ (htk p hp) _ ?_
      simp [kv] at hq
      rcases hq with rfl | rfl | rfl | rfl
      · exact hnames _ (by simp)
      · exact hnames _ (by simp)
      · exact hnames _ (by simp)
      · exact hnames _ (by simp))
    (by
      intro t ht p hp
      simp at ht
      rcases ht with rfl | ht | rfl
      · exact hbrace _ (htk p hp) _ (by decide)
      · exact hlit t ht _ (htk p hp)
      · exact hbrace _ (htk p hp) _ (by decide))
    (by
      intro t ht p hp
      simp at ht
      exact hmut t (hph t ht) _ (htk p hp))
  have hrend : ∀ (a b : List Piece), render (a ++ b) = render a ++ render b := by
    intro a b
    induction a with
    | nil => rfl
    | cons p a ih => cases p <;> simp [render, ih]
  have hinst : ∀ (σ : Text → Text) (a b : List Piece), instantiate σ (a ++ b) = instantiate σ a ++ instantiate σ b := by
    intro σ a b
    induction a with
    | nil => rfl
    | cons p a ih => cases p <;> simp [instantiate, ih]
  have hval : ∀ t ∈ tokens, valueOf kv t = (if t = toVar then toName else if t = fromVar then fromName
          else if t = toVarType then toTypename else funcRetType) := by
    intro t ht
    have e1 : ¬ toVar = fromVar := by decide
    have e2 : ¬ toVar = toVarType := by decide
    have e3 : ¬ toVar = functionRetType := by decide
    have e4 : ¬ fromVar = toVarType := by decide
    have e5 : ¬ fromVar = functionRetType := by decide
    have e6 : ¬ toVarType = functionRetType := by decide
    have f1 := Ne.symm e1
    have f2 := Ne.symm e2
    have f3 := Ne.symm e3
    have f4 := Ne.symm e4
    have f5 := Ne.symm e5
    have f6 := Ne.symm e6
    simp [tokens] at ht
    rcases ht with rfl | rfl | rfl | rfl <;> simp [valueOf, kv, *]
  have hcongr : ∀ ps : List Piece, (∀ t, Piece.ph t ∈ ps → t ∈ tokens) →
      instantiate (valueOf kv) ps = instantiate (fun tok =>
          if tok = toVar then toName else if tok = fromVar then fromName
          else if tok = toVarType then toTypename else funcRetType) ps := by
    intro ps
    induction ps with
    | nil => intro _; rfl
    | cons p ps ih =>
      intro h
      have ih' := ih (fun t ht => h t (by simp [ht]))
      cases p with
      | lit t => simp only [instantiate, ih']
      | ph t => simp only [instantiate, ih', hval t (h t (by simp))]
  rw [List.cons_append] at hmain
  simp only [render, hrend, instantiate, hinst, List.append_nil] at hmain
  rw [hcongr ps hph] at hmain
  simpa [TypeConvCode.generateCode, seqReplace, kv] using hmain

/-- **C09 (which literals are fine).** Literal code whose opening braces are each followed by white space (as in
`{ … }` blocks) contains no placeholder and is admissible in `C09_generate_code`. -/
theorem C09_literal_ok (t : Text) (h : ∀ a b, t = a ++ '{' :: b → ∃ b', b = ' ' :: b' ∨ b = '\n' :: b') :
    ∀ tok ∈ tokens, Inert tok t := by
  intro tok htok s hs hsuf
  obtain ⟨a, ha⟩ := hsuf
  have hhead : ∃ c rest, tok = '{' :: c :: rest ∧ c ≠ ' ' ∧ c ≠ '\n' := by
    simp [tokens] at htok
    rcases htok with rfl | rfl | rfl | rfl
    · exact ⟨'t', "o_var}".toList, rfl, by decide, by decide⟩
    · exact ⟨'f', "rom_var}".toList, rfl, by decide, by decide⟩
    · exact ⟨'t', "o_var_type}".toList, rfl, by decide, by decide⟩
    · exact ⟨'f', "unction_ret_type}".toList, rfl, by decide, by decide⟩
  obtain ⟨c, rest, rfl, h1, h2⟩ := hhead
  cases s with
  | nil => exact absurd rfl hs
  | cons d s =>
    have key : d = '{' → ∃ b', s = ' ' :: b' ∨ s = '\n' :: b' := by
      rintro rfl; exact h a s ha.symm
    constructor
    · intro hp
      obtain ⟨hd, hp⟩ := List.cons_prefix_cons.1 hp
      obtain ⟨b', hb | hb⟩ := key hd.symm
      · subst hb; exact h1 (List.cons_prefix_cons.1 hp).1
      · subst hb; exact h2 (List.cons_prefix_cons.1 hp).1
    · intro hp
      obtain ⟨hd, hp⟩ := List.cons_prefix_cons.1 hp
      obtain ⟨b', hb | hb⟩ := key hd
      · subst hb; exact h1 (List.cons_prefix_cons.1 hp).1.symm
      · subst hb; exact h2 (List.cons_prefix_cons.1 hp).1.symm

/-- The names handed out for temporaries while instantiating. -/
def tmpVals (params vals : List Text) : List Text :=
  ((params.zip vals).filter (fun p => p.1.head? == some '$')).map (·.2)

theorem classify_tmp (p : Text) : (p.head? == some '$') = true → ∃ t, classify p = .tmp t := by
  intro h
  cases p with
  | nil => simp at h
  | cons c p => simp at h; subst h; exact ⟨p, rfl⟩

theorem classify_name (p : Text) : (p.head? == some '$') = false → classify p = .name p := by
  intro h
  unfold classify
  split
  · simp at h
  · rfl

/-- **C09 (temporaries).** The names substituted for the temporaries of a template are pairwise distinct, and differ from
all names known before (arguments, input and output variables); afterwards they are known. -/
theorem C09_temporaries_fresh (params vals known known' : List Text) (fromName toType toName : Text)
    (h : collectVals (cppSubst fromName toType toName) known params = some (vals, known')) :
    (tmpVals params vals).Nodup ∧ (∀ t ∈ tmpVals params vals, t ∉ known) ∧
    (∀ x, x ∈ known' ↔ x ∈ known ∨ x ∈ tmpVals params vals) ∧ vals.length = params.length := by
  induction params generalizing known vals known' with
  | nil => simp [collectVals] at h; obtain ⟨rfl, rfl⟩ := h; simp [tmpVals]
  | cons p ps ih =>
    simp only [collectVals, Option.bind_eq_bind, Option.bind_eq_some_iff, Option.pure_def, Option.some.injEq,
      Prod.exists, Prod.mk.injEq] at h
    obtain ⟨v, s1, h1, vs, s2, h2, rfl, rfl⟩ := h
    obtain ⟨i1, i2, i3, i4⟩ := ih _ _ _ h2
    cases hc : (p.head? == some '$') with
    | true =>
      obtain ⟨t, ht⟩ := classify_tmp p hc
      rw [ht] at h1
      simp only [cppSubst, Option.bind_eq_bind, Option.bind_eq_some_iff, Option.pure_def, Option.some.injEq,
        Prod.mk.injEq] at h1
      obtain ⟨n, hn, rfl, rfl⟩ := h1
      have hfresh := NameGen.C01_fresh _ _ _ hn
      have e : tmpVals (p :: ps) (n :: vs) = n :: tmpVals ps vs := by
        simp [tmpVals, hc]
      rw [e]
      refine ⟨List.nodup_cons.2 ⟨fun hm => i2 n hm (by simp), i1⟩, ?_, ?_, by simp [i4]⟩
      · intro t ht
        rcases List.mem_cons.1 ht with rfl | ht
        · exact hfresh
        · exact fun hx => i2 t ht (by simp [hx])
      · intro x
        rw [i3]
        simp only [List.mem_cons]
        constructor
        · rintro ((h | h) | h)
          · exact Or.inr (Or.inl h)
          · exact Or.inl h
          · exact Or.inr (Or.inr h)
        · rintro (h | h | h)
          · exact Or.inl (Or.inr h)
          · exact Or.inl (Or.inl h)
          · exact Or.inr h
    | false =>
      rw [classify_name p hc] at h1
      have hs : s1 = known := by
        simp only [cppSubst] at h1
        split at h1
        · simp at h1; exact h1.2.symm
        · split at h1
          · simp at h1; exact h1.2.symm
          · split at h1
            · simp at h1; exact h1.2.symm
            · simp at h1
      subst hs
      have e : tmpVals (p :: ps) (v :: vs) = tmpVals ps vs := by
        simp [tmpVals, hc]
      rw [e]
      exact ⟨i1, i2, i3, by simp [i4]⟩

/-- Expected: two distinct temporaries of a template are both replaced by their own fresh name. -/
def TemporariesIndependent : Prop :=
  ∀ (a b va vb : Text), a ≠ b → a ≠ [] → b ≠ [] → '$' ∉ a → '$' ∉ b → '$' ∉ va → '$' ∉ vb →
    seqReplace ("x(".toList ++ ('$' :: a) ++ ",".toList ++ ('$' :: b) ++ ")".toList) [('$' :: a, va), ('$' :: b, vb)]
      = "x(".toList ++ va ++ ",".toList ++ vb ++ ")".toList

/-- **C09 (finding).** A temporary whose name is a prefix of another one's corrupts the longer one:
`$p` and `$pin` give `x(v0,v0in)` instead of `x(v0,w0)`. -/
theorem C09_prefix_temporaries_corrupt : ¬ TemporariesIndependent := by
  intro h
  have := h "p".toList "pin".toList "v0".toList "w0".toList (by decide) (by decide) (by decide) (by decide) (by decide)
    (by decide) (by decide)
  revert this
  decide

/-- **C09 (finding, rule strings).** The same happens to `$out` when the input variable is called `o` (or `ou`):
the output placeholder is destroyed. -/
theorem C09_out_placeholder_lost :
    (fromTypemapString "$out = f($o);".toList "o".toList []).code = "{from_var}ut = f({from_var});".toList ∧
    (fromTypemapString "$out = f($p);".toList "p".toList []).code = "{to_var_type} = f({from_var});".toList := by
  decide

/-- **C09 (positive for temporaries).** If no temporary name is a prefix of another, and the literal text mentions them
only where intended, temporaries are instantiated independently. -/
theorem C09_temporaries_independent (kv : List (Text × Text)) (ps : List Piece)
    (hdollar : ∀ p ∈ kv, ∃ n, p.1 = '$' :: n ∧ n ≠ [] ∧ '$' ∉ n)
    (hvals : ∀ p ∈ kv, '$' ∉ p.2)
    (hpre : ∀ p ∈ kv, ∀ q ∈ kv, p.1 <+: q.1 → p.1 = q.1)
    (hlit : ∀ t, Piece.lit t ∈ ps → '$' ∉ t)
    (hall : ∀ t, Piece.ph t ∈ ps → t ∈ kv.map (·.1)) :
    seqReplace (render ps) kv = instantiate (valueOf kv) ps := by
  refine C09_sequential_is_simultaneous kv ps ?_ ?_ ?_ ?_
  · intro p hp; obtain ⟨n, h, _⟩ := hdollar p hp; rw [h]; simp
  · intro p hp q hq; obtain ⟨n, h, _⟩ := hdollar p hp; rw [h]; exact inert_of_not_mem _ _ _ (hvals q hq)
  · intro t ht p hp; obtain ⟨n, h, _⟩ := hdollar p hp; rw [h]; exact inert_of_not_mem _ _ _ (hlit t ht)
  · intro t ht p hp
    obtain ⟨q, hq, rfl⟩ := List.mem_map.1 (hall t ht)
    obtain ⟨n, h, _, hn⟩ := hdollar p hp
    obtain ⟨n', h', _, hn'⟩ := hdollar q hq
    by_cases he : q.1 = p.1
    · exact Or.inl he
    · right
      intro s hs hsuf
      rw [h'] at hsuf
      rcases List.suffix_cons_iff.1 hsuf with rfl | hsuf
      · rw [← h']
        constructor
        · intro hp'; exact he (hpre p hp q hq hp').symm
        · intro hp'; exact he (hpre q hq p hp hp')
      · have hns : '$' ∉ s := fun hm => hn' (hsuf.subset hm)
        rw [h]
        exact inert_of_not_mem '$' n s hns s hs (List.suffix_refl _)

/-! Non-vacuity -/
example : (TypeConvCode.mk (render [.lit "let mut ".toList, .ph toVar, .lit ": ".toList, .ph toVarType,
      .lit " = if ".toList, .ph fromVar, .lit " { 1 } else { 0 };".toList]) []).generateCode
      "a".toList "b".toList "u8".toList "()".toList
    = "    let mut a: u8 = if b { 1 } else { 0 };\n".toList := by decide
example : ∀ tok ∈ tokens, inertB tok " { 1 } else { 0 };".toList = true := by decide
example : ∃ vals known', collectVals (cppSubst "x".toList "T a0".toList "a0".toList) ["x".toList, "tmp".toList]
    [fromVar, "$tmp".toList, "$tmp".toList] = some (vals, known') ∧ tmpVals [fromVar, "$tmp".toList, "$tmp".toList] vals
      = ["tmp0".toList, "tmp1".toList] := ⟨_, _, rfl, by decide⟩

end Flapi.Template
