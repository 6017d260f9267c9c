import Verif.Java.Code
/-!
# C33: null annotations are imported iff used
-/
namespace Flapi.JavaCode

open Flapi.JavaNames

/-! ## Specification -/

/-- Some type of some method of the file carries the annotation. -/
def Uses (n : Null) (sigs : List Sig) : Prop := ∃ s ∈ sigs, ∃ a ∈ s.input ++ [s.output], n ∈ a.notes

/-- Text of an annotation. -/
def Null.text : Null → Text
  | .nonNull => JavaNames.nonNull
  | .nullable => JavaNames.nullable

/-- Simple name of the annotation class. -/
def Null.cls : Null → Text
  | .nonNull => "NonNull".toList
  | .nullable => "Nullable".toList

def Null.other : Null → Null
  | .nonNull => .nullable
  | .nullable => .nonNull

/-- Lines of a text. -/
def joinLines : List Text → Text
  | [] => []
  | [x] => x
  | x :: l => x ++ '\n' :: joinLines l

/-- Types as `map_type` makes them. -/
def Mapped (a : Info) : Prop := ∃ name inter opt, a = mkInfo name inter opt

/-- No type name contains both annotations. -/
def OneNote (a : Info) : Prop :=
  ¬ (nonNull <:+: a.name ∧ nullable <:+: a.name) ∧
  ∀ c, a.conv = some c → ¬ (nonNull <:+: c.transition ∧ nullable <:+: c.transition)

/-! ## The imports -/

theorem scan_spec (l : List Info) (hn hl : Bool) :
    (((scanNotes hn hl l).1 = true) ↔ hn = true ∨ ∃ a ∈ l, Null.nonNull ∈ a.notes) ∧
    (((scanNotes hn hl l).2 = true) ↔ hl = true ∨ ∃ a ∈ l, Null.nullable ∈ a.notes) := by
  induction l generalizing hn hl with
  | nil => simp [scanNotes]
  | cons a l ih =>
    have c1 : (hn || a.notes.contains .nonNull) = true ↔ hn = true ∨ Null.nonNull ∈ a.notes := by
      rw [Bool.or_eq_true, List.contains_iff_mem]
    have c2 : (hl || a.notes.contains .nullable) = true ↔ hl = true ∨ Null.nullable ∈ a.notes := by
      rw [Bool.or_eq_true, List.contains_iff_mem]
    rw [scanNotes]
    split
    · rename_i h
      rw [Bool.and_eq_true, c1, c2] at h
      simp only [List.mem_cons, exists_eq_or_imp, true_iff]
      grind
    · obtain ⟨h1, h2⟩ := ih (hn || a.notes.contains .nonNull) (hl || a.notes.contains .nullable)
      rw [h1, h2, c1, c2]
      simp only [List.mem_cons, exists_eq_or_imp]
      grind

/-- **C33**: the import lines are exactly those of the annotations carried by some type of the file, each once; without an
annotation package there are none. -/
theorem C33_imports_iff_used (p : Text) (sigs : List Sig) :
    nullImports none sigs = [] ∧
    ∃ ls : List Text, nullImports (some p) sigs = joinLines ls ∧ ls.Nodup ∧
      ∀ l, l ∈ ls ↔ ∃ n, l = importLine p (Null.cls n) ∧ Uses n sigs := by
  refine ⟨rfl, ?_⟩
  have hs := scan_spec (sigs.flatMap fun s => s.input ++ [s.output]) false false
  have hu : ∀ n, (∃ a ∈ (sigs.flatMap fun s => s.input ++ [s.output]), n ∈ a.notes) ↔ Uses n sigs := by
    intro n
    unfold Uses
    constructor
    · rintro ⟨a, ha, hn⟩
      obtain ⟨s, hs, ha⟩ := List.mem_flatMap.1 ha
      exact ⟨s, hs, a, ha, hn⟩
    · rintro ⟨s, hs, a, ha, hn⟩
      exact ⟨a, List.mem_flatMap.2 ⟨s, hs, ha⟩, hn⟩
  rw [hu, hu] at hs
  simp only [Bool.false_eq_true, false_or] at hs
  have hne : importLine p (Null.cls .nonNull) ≠ importLine p (Null.cls .nullable) := by
    intro h
    unfold importLine at h
    rw [List.append_assoc, List.append_assoc, List.append_assoc, List.append_assoc, List.append_cancel_left_eq,
      List.append_cancel_left_eq] at h
    revert h
    decide
  have he : ∀ P : Null → Prop, (∃ n, P n) ↔ P .nonNull ∨ P .nullable := by
    intro P
    constructor
    · rintro ⟨n, h⟩; cases n
      · exact Or.inl h
      · exact Or.inr h
    · rintro (h | h)
      · exact ⟨_, h⟩
      · exact ⟨_, h⟩
  unfold nullImports
  dsimp only
  generalize hr : scanNotes false false (sigs.flatMap fun s => s.input ++ [s.output]) = r at hs
  obtain ⟨b1, b2⟩ := r
  obtain ⟨h1, h2⟩ := hs
  dsimp only at h1 h2
  cases b1 <;> cases b2
  · refine ⟨[], rfl, by simp, ?_⟩
    intro l
    rw [he]
    simp only [List.not_mem_nil, false_iff]
    rintro (⟨_, h⟩ | ⟨_, h⟩)
    · exact absurd (h1.2 h) (by simp)
    · exact absurd (h2.2 h) (by simp)
  · refine ⟨[importLine p (Null.cls .nullable)], rfl, by simp, ?_⟩
    intro l
    rw [he]
    simp only [List.mem_singleton]
    constructor
    · exact fun h => Or.inr ⟨h, h2.1 rfl⟩
    · rintro (⟨_, h⟩ | ⟨h, _⟩)
      · exact absurd (h1.2 h) (by simp)
      · exact h
  · refine ⟨[importLine p (Null.cls .nonNull)], rfl, by simp, ?_⟩
    intro l
    rw [he]
    simp only [List.mem_singleton]
    constructor
    · exact fun h => Or.inl ⟨h, h1.1 rfl⟩
    · rintro (⟨h, _⟩ | ⟨_, h⟩)
      · exact h
      · exact absurd (h2.2 h) (by simp)
  · refine ⟨[importLine p (Null.cls .nonNull), importLine p (Null.cls .nullable)], rfl, by simp [hne], ?_⟩
    intro l
    rw [he]
    simp only [List.mem_cons, List.not_mem_nil, or_false]
    constructor
    · rintro (h | h)
      · exact Or.inl ⟨h, h1.1 rfl⟩
      · exact Or.inr ⟨h, h2.1 rfl⟩
    · rintro (⟨h, _⟩ | ⟨h, _⟩)
      · exact Or.inl h
      · exact Or.inr h

/-! ## What is printed is imported -/

/-- An occurrence of a word does not cross a character the word does not contain. -/
theorem infix_split {p a b : Text} {c : Char} (hc : c ∉ p) (h : p <:+: a ++ c :: b) : p <:+: a ∨ p <:+: b := by
  obtain ⟨s, t, h⟩ := h
  rw [List.append_assoc, List.append_eq_append_iff] at h
  rcases h with ⟨a', e1, e2⟩ | ⟨s', e1, e2⟩
  · rw [List.append_eq_append_iff] at e2
    rcases e2 with ⟨t', f1, f2⟩ | ⟨x, f1, f2⟩
    · left
      exact ⟨s, t', by rw [e1, f1, List.append_assoc]⟩
    · cases x with
      | nil =>
        rw [List.append_nil] at f1
        left
        exact ⟨s, [], by rw [e1, f1, List.append_nil]⟩
      | cons d x =>
        injection f2 with g1 g2
        exact absurd (by rw [f1, ← g1]; simp) hc
  · cases s' with
    | nil =>
      rw [List.nil_append] at e2
      cases p with
      | nil => left; exact List.nil_infix
      | cons d p =>
        injection e2 with g1 g2
        exact absurd (by rw [g1]; simp) hc
    | cons d s' =>
      injection e2 with g1 g2
      right
      exact ⟨s', t, by rw [g2, List.append_assoc]; rfl⟩

theorem text_no_sep (n : Null) : ' ' ∉ n.text ∧ ',' ∉ n.text ∧ '@' ∈ n.text := by cases n <;> decide

theorem typeAnn_of_contains (n : Null) (t : Text) (h : n.text <:+: t) (ho : ¬ (nonNull <:+: t ∧ nullable <:+: t)) :
    typeAnnotation t = some n := by
  unfold typeAnnotation
  cases n with
  | nullable => exact if_pos ((strContains_iff _ _).2 h)
  | nonNull =>
    have : ¬ nullable <:+: t := fun h' => ho ⟨h, h'⟩
    rw [if_neg (by rw [strContains_iff]; exact this)]
    exact if_pos ((strContains_iff _ _).2 h)

theorem mapped_name {a : Info} (hm : Mapped a) (ho : OneNote a) (n : Null) (h : n.text <:+: a.name) : n ∈ a.notes := by
  obtain ⟨name, inter, opt, rfl⟩ := hm
  have : typeAnnotation name = some n := typeAnn_of_contains n name h ho.1
  simp [mkInfo, Info.notes, this]

theorem mapped_conv {a : Info} (hm : Mapped a) (ho : OneNote a) (n : Null) (c : Conv) (hc : a.conv = some c)
    (h : n.text <:+: c.transition) : n ∈ a.notes := by
  obtain ⟨name, inter, opt, rfl⟩ := hm
  have h2 := typeAnn_of_contains n c.transition h (ho.2 c hc)
  have : c.annotation = some n := by
    simp only [mkInfo, Option.map_eq_some_iff] at hc
    obtain ⟨tc, _, rfl⟩ := hc
    exact h2
  simp only [Info.notes, hc, Option.bind_some, this]
  simp

theorem piece_used (n : Null) (ext int un : Bool) (a : Info) (x : Text) (hm : Mapped a) (ho : OneNote a)
    (hx : '@' ∉ x) (h : n.text <:+: argPiece ext int un a x) : n ∈ a.notes := by
  obtain ⟨s1, s2, s3⟩ := text_no_sep n
  unfold argPiece at h
  rcases infix_split s1 h with h | h
  · -- in the annotation or the type
    have hty : ∀ m : Null, m.text <:+: a.printed int → m ∈ a.notes := by
      intro m h
      unfold Info.printed at h
      cases hc : a.conv with
      | none => rw [hc] at h; exact mapped_name hm ho m h
      | some c =>
        rw [hc] at h
        dsimp only at h
        split at h
        · exact mapped_conv hm ho m c hc h
        · exact mapped_name hm ho m h
    generalize a.printed int = T at h hty
    cases ha : a.annotation with
    | none => rw [ha] at h; exact hty n h
    | some m =>
      have hmem : m ∈ a.notes := by simp [Info.notes, ha]
      rw [ha] at h
      have hann : annText ext un (some m) T = [] ∨ annText ext un (some m) T = m.text ++ [' '] := by
        unfold annText
        cases m <;> dsimp only <;> split
        · exact Or.inr rfl
        · exact Or.inl rfl
        · exact Or.inr rfl
        · exact Or.inl rfl
      rcases hann with e | e
      · rw [e, List.nil_append] at h; exact hty n h
      · rw [e, List.append_assoc] at h
        rcases infix_split s1 h with h | h
        · cases n <;> cases m
          · exact hmem
          · exact absurd ((strContains_iff _ _).2 h) (by decide)
          · exact absurd ((strContains_iff _ _).2 h) (by decide)
          · exact hmem
        · exact hty n h
  · obtain ⟨u, v, e⟩ := h
    exact absurd (by rw [← e]; simp [s3]) hx

theorem pieces_used (n : Null) (ext int un : Bool) (k : Nat) (l : List (Info × Text)) (i : Nat)
    (hm : ∀ q ∈ l, Mapped q.1 ∧ OneNote q.1 ∧ '@' ∉ q.2) (h : n.text <:+: argPieces ext int un k i l) :
    ∃ q ∈ l, n ∈ q.1.notes := by
  obtain ⟨s1, s2, s3⟩ := text_no_sep n
  induction l generalizing i with
  | nil =>
    rw [argPieces] at h
    obtain ⟨u, v, e⟩ := h
    simp only [List.append_eq_nil_iff] at e
    exact absurd s3 (by rw [e.1.2]; simp)
  | cons q l ih =>
    obtain ⟨a, x⟩ := q
    obtain ⟨m1, m2, m3⟩ := hm (a, x) (by simp)
    have hl := fun q hq => hm q (List.mem_cons_of_mem _ hq)
    rw [argPieces] at h
    by_cases hi : i = k - 1
    · rw [if_pos hi, List.append_nil] at h
      -- last piece: the rest of the list is printed without separator, so use the space inside the piece
      unfold argPiece at h
      rw [List.append_assoc, List.cons_append] at h
      rcases infix_split s1 h with h | h
      · refine ⟨(a, x), by simp, ?_⟩
        refine piece_used n ext int un a x m1 m2 m3 ?_
        unfold argPiece
        exact h.trans (List.prefix_append _ _).isInfix
      · -- crossing of a name and the following piece: impossible as '@' starts the word
        have hcross : n.text <:+: argPieces ext int un k (i + 1) l := by
          obtain ⟨u, v, e⟩ := h
          have hat : ∃ r, n.text = '@' :: r := by cases n <;> exact ⟨_, rfl⟩
          obtain ⟨r, hr⟩ := hat
          rw [hr] at e ⊢
          rw [List.append_assoc, List.append_eq_append_iff] at e
          rcases e with ⟨a', e1, e2⟩ | ⟨s', e1, e2⟩
          · cases a' with
            | nil => exact ⟨[], v, by simpa using e2⟩
            | cons d a' =>
              injection e2 with g1 g2
              exact absurd (by rw [e1, ← g1]; simp) m3
          · exact ⟨s', v, by rw [e2, List.append_assoc]⟩
        obtain ⟨q, hq, hn⟩ := ih (i + 1) hl hcross
        exact ⟨q, by simp [hq], hn⟩
    · rw [if_neg hi] at h
      have e : argPiece ext int un a x ++ ", ".toList ++ argPieces ext int un k (i + 1) l =
          argPiece ext int un a x ++ ',' :: (' ' :: argPieces ext int un k (i + 1) l) := by simp
      rw [e] at h
      rcases infix_split s2 h with h | h
      · exact ⟨(a, x), by simp, piece_used n ext int un a x m1 m2 m3 h⟩
      · have h' : n.text <:+: [] ++ ' ' :: argPieces ext int un k (i + 1) l := h
        rcases infix_split s1 h' with h' | h'
        · have : n.text = [] := List.eq_nil_of_infix_nil h'
          rw [this] at s3; simp at s3
        · obtain ⟨q, hq, hn⟩ := ih (i + 1) hl h'
          exact ⟨q, by simp [hq], hn⟩

/-- **C33**: whenever an annotation occurs in a printed argument list (of the public wrapper, of the native function or of a
callback method), or in the printed result type or transition type of a result, it is imported.  Types are as made by the type
mapping and contain at most one kind of annotation. -/
theorem C33_printed_is_used (n : Null) (sigs : List Sig) (s : Sig) (hs : s ∈ sigs)
    (hm : ∀ a ∈ s.input ++ [s.output], Mapped a ∧ OneNote a) (names : List Text) (hn : ∀ x ∈ names, '@' ∉ x)
    (comma ext int un : Bool)
    (h : n.text <:+: argsWithTypes comma ext int un s names ∨ n.text <:+: s.output.name ∨
      ∃ c, s.output.conv = some c ∧ n.text <:+: c.transition) : Uses n sigs := by
  obtain ⟨s1, s2, s3⟩ := text_no_sep n
  rcases h with h | h | ⟨c, hc, h⟩
  · have h' : n.text <:+: argPieces ext int un s.input.length 0 (s.input.zip names) := by
      unfold argsWithTypes at h
      split at h
      · have h2 : n.text <:+: [] ++ ',' :: ([] ++ ' ' :: argPieces ext int un s.input.length 0 (s.input.zip names)) := h
        have nn : ∀ q : Text, q <:+: [] → q = n.text → False := by
          intro q hq e
          rw [List.eq_nil_of_infix_nil hq] at e
          rw [← e] at s3; simp at s3
        rcases infix_split s2 h2 with h2 | h2
        · exact (nn _ h2 rfl).elim
        · rcases infix_split s1 h2 with h2 | h2
          · exact (nn _ h2 rfl).elim
          · exact h2
      · simpa using h
    obtain ⟨q, hq, hu⟩ := pieces_used n ext int un _ _ 0 (by
      intro q hq
      obtain ⟨i, hi, e⟩ := List.mem_iff_getElem.1 hq
      rw [List.getElem_zip] at e
      subst e
      have hin : s.input[i]'(by simp at hi; omega) ∈ s.input := List.getElem_mem _
      have hnm : names[i]'(by simp at hi; omega) ∈ names := List.getElem_mem _
      exact ⟨(hm _ (by simp [hin])).1, (hm _ (by simp [hin])).2, hn _ hnm⟩) h'
    have hqi : q.1 ∈ s.input := by
      obtain ⟨a, b⟩ := q
      exact (List.of_mem_zip hq).1
    exact ⟨s, hs, q.1, by simp [hqi], hu⟩
  · obtain ⟨m1, m2⟩ := hm s.output (by simp)
    exact ⟨s, hs, s.output, by simp, mapped_name m1 m2 n h⟩
  · obtain ⟨m1, m2⟩ := hm s.output (by simp)
    exact ⟨s, hs, s.output, by simp, mapped_conv m1 m2 n c hc h⟩

/-- **C33**: conversely, the annotation of every argument of the public wrapper is really printed in front of it (or is part of
its type) when annotations are on. -/
theorem C33_argument_annotation_printed (a : Info) (hm : Mapped a) (n : Null) (ha : a.annotation = some n) (x : Text) :
    n.text <:+: argPiece true false true a x := by
  obtain ⟨name, inter, opt, rfl⟩ := hm
  have hT : (mkInfo name inter opt).printed false = name := by
    unfold Info.printed
    cases (mkInfo name inter opt).conv <;> rfl
  unfold argPiece
  rw [hT, ha]
  cases hcn : strContains name nonNull || strContains name nullable with
  | true =>
    have hta : (typeAnnotation name) = some n := by
      cases htn : typeAnnotation name with
      | none =>
        exfalso
        unfold typeAnnotation at htn
        split at htn
        · simp at htn
        · split at htn
          · simp at htn
          · rename_i h1 h2; rw [Bool.or_eq_true] at hcn; exact hcn.elim h2 h1
      | some m => simp only [mkInfo, htn] at ha; simpa using ha
    have hin : n.text <:+: name := by
      unfold typeAnnotation at hta
      split at hta
      · rename_i h1; injection hta with e; subst e; exact (strContains_iff _ _).1 h1
      · split at hta
        · rename_i h1; injection hta with e; subst e; exact (strContains_iff _ _).1 h1
        · simp at hta
    rw [List.append_assoc]
    exact (hin.trans (List.prefix_append _ _).isInfix).trans (List.suffix_append _ _).isInfix
  | false =>
    have : annText true true (some n) name = n.text ++ [' '] := by
      unfold annText
      dsimp only
      rw [hcn]
      cases n <;> rfl
    rw [this, List.append_assoc, List.append_assoc]
    exact (List.prefix_append _ _).isInfix

/-- **C33**: which annotation a mapped type carries: the one written in it (`@Nullable` first); a type without one is annotated unless it is a Java
primitive type, `@Nullable` for `Option` and `@NonNull` otherwise. -/
theorem C33_annotation_choice (name : Text) (inter : Option (Text × Text)) (isOption : Bool) :
    (Null.nullable.text <:+: name → (mkInfo name inter isOption).annotation = some .nullable) ∧
    (¬ Null.nullable.text <:+: name → Null.nonNull.text <:+: name → (mkInfo name inter isOption).annotation = some .nonNull) ∧
    (¬ Null.nullable.text <:+: name → ¬ Null.nonNull.text <:+: name →
      (mkInfo name inter isOption).annotation =
        if name ∈ ["void".toList, "boolean".toList, "byte".toList, "short".toList, "int".toList, "long".toList, "float".toList, "double".toList]
        then none else if isOption then some .nullable else some .nonNull) := by
  have e1 : ∀ t : Text, strContains t nullable = true ↔ Null.nullable.text <:+: t := fun t => strContains_iff t _
  have e2 : ∀ t : Text, strContains t nonNull = true ↔ Null.nonNull.text <:+: t := fun t => strContains_iff t _
  refine ⟨fun h => ?_, fun h1 h2 => ?_, fun h1 h2 => ?_⟩
  · simp only [mkInfo, typeAnnotation, (e1 name).2 h, if_true, Option.isNone_some, Bool.false_and, Bool.false_eq_true, if_false]
  · have h1' : strContains name nullable = false := by rw [← Bool.not_eq_true, e1]; exact h1
    simp only [mkInfo, typeAnnotation, h1', (e2 name).2 h2, if_true, Option.isNone_some, Bool.false_and, Bool.false_eq_true, if_false]
  · have h1' : strContains name nullable = false := by rw [← Bool.not_eq_true, e1]; exact h1
    have h2' : strContains name nonNull = false := by rw [← Bool.not_eq_true, e2]; exact h2
    simp only [mkInfo, typeAnnotation, h1', h2', Option.isNone_none, Bool.true_and, Bool.false_eq_true, if_false]
    change (if (!primitives.contains name) = true then _ else _) = if name ∈ primitives then _ else _
    cases hp : primitives.contains name with
    | true => rw [if_pos (List.contains_iff_mem.1 hp)]; rfl
    | false =>
      have hnm : name ∉ primitives := fun hin => by rw [List.contains_iff_mem.2 hin] at hp; cases hp
      rw [if_neg hnm]
      cases isOption <;> rfl

/-- **C33 (finding)**: a type carrying both annotations is recorded as nullable only, so the other annotation class is not
imported although it is printed. -/
theorem C33_finding_both_annotations :
    (mkInfo "@NonNull List<@Nullable String>".toList none false).notes = [.nullable] := by decide

/-- **C33 (finding)**: a result type without annotation text still triggers an import that nothing in the file uses. -/
theorem C33_finding_unused_import :
    nullImports (some "p".toList) [⟨mkInfo "Foo".toList (some ("long".toList, "x".toList)) false, []⟩] =
      "import p.NonNull;".toList := by decide

/-! ## Non-vacuity -/

/-- `void f(@NonNull Foo a, int b, @Nullable Bar c)` -/
def sampleSig : Sig :=
  ⟨mkInfo "void".toList none false,
   [mkInfo "Foo".toList (some ("long".toList, "x".toList)) false, mkInfo "int".toList none false,
    mkInfo "@Nullable Bar".toList (some ("long".toList, "y".toList)) true]⟩

example : argsWithTypes false true false true sampleSig ["a".toList, "b".toList, "c".toList] =
    "@NonNull Foo a, int b, @Nullable Bar c".toList := by decide
example : argsWithTypes true false true true sampleSig ["a".toList, "b".toList, "c".toList] =
    ", long a, int b, long c".toList := by decide
example : nullImports (some "p".toList) [sampleSig] = "import p.NonNull;\nimport p.Nullable;".toList := by decide

end Flapi.JavaCode
