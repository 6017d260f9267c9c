import Verif.Lang.TokenParse
import Verif.Lang.ClassParseProps
/-!
# What the declaration parsers accept and what they hand on (C75)

The specification is a grammar: source trees, how each is written as tokens, and what each means.
-/
namespace Flapi.TokenParse

open Flapi.ClassParse

variable {Ty : Type}

/-! ## Specification -/

/- The words of the language used below: `kwEnum`, `kwInterface`, `kwSelfType`, ... stand for "enum", "interface",
"self_type", ... (see the model). -/

/-- The tokens of a list of attributes; each is given by what stands inside `#[..]`. -/
def writeAttrs (as : List (List Tok)) : List Tok := as.flatMap fun ts => [.p '#', .grp .bracket ts]

/-- The tokens of a comma separated list of names. -/
def writeNames : List Text → List Tok
  | [] => []
  | [n] => [.id n]
  | n :: l => .id n :: .p ',' :: writeNames l

/-- Tokens of the segments of a path. -/
def writeSegs : List Text → List Tok
  | [] => []
  | [n] => [.id n]
  | n :: l => .id n :: .colon2 :: writeSegs l

/-- Tokens of a path. -/
def writePath (p : Path) : List Tok := (if p.leading then [.colon2] else []) ++ writeSegs p.segments

/-- A path that may be written: not empty, and every segment is a name or one of `super`, `self`, `Self`, `crate`. -/
def PathOk (O : Syn Ty) (p : Path) : Prop := p.segments ≠ [] ∧ ∀ n ∈ p.segments, isSeg O n = true

/-- The documentation in an attribute. -/
def docOf : Meta → List Text
  | .doc s => [s]
  | _ => []

/-- `names` is a derive list written as the tokens `ts`. -/
def DeriveList (O : Syn Ty) (ts : List Tok) (names : List Text) : Prop :=
  (∀ n ∈ names, O.reserved n = false) ∧ (ts = writeNames names ∨ names ≠ [] ∧ ts = writeNames names ++ [.p ','])

/-- Only documentation stands in front: the attributes `as`, all of them documentation, with the texts `docs`. -/
def OnlyDocs (O : Syn Ty) (as : List (List Tok)) (docs : List Text) : Prop :=
  as.map O.metaOf = docs.map fun s => some (.doc s)

/-- Documentation and derive lists stand in front of a class or enum. -/
inductive DocsAndDerives (O : Syn Ty) : List (List Tok) → List Text → List Text → Prop where
  | nil : DocsAndDerives O [] [] []
  | doc {ts s as docs ders} : O.metaOf ts = some (.doc s) → DocsAndDerives O as docs ders →
      DocsAndDerives O (ts :: as) (s :: docs) ders
  | derive {ts args text names as docs ders} : O.metaOf ts = some (.derive args text) → DeriveList O args names →
      DocsAndDerives O as docs ders → DocsAndDerives O (ts :: as) docs (names ++ ders)

/-- Documentation and any other attributes stand in front of a method; the latter are kept as text. -/
inductive DocsAndOthers (O : Syn Ty) : List (List Tok) → List Text → List Text → Prop where
  | nil : DocsAndOthers O [] [] []
  | doc {ts s as docs oth} : O.metaOf ts = some (.doc s) → DocsAndOthers O as docs oth →
      DocsAndOthers O (ts :: as) (s :: docs) oth
  | derive {ts args text as docs oth} : O.metaOf ts = some (.derive args text) →
      DocsAndOthers O as docs oth → DocsAndOthers O (ts :: as) docs (text :: oth)
  | other {ts text as docs oth} : O.metaOf ts = some (.other text) →
      DocsAndOthers O as docs oth → DocsAndOthers O (ts :: as) docs (text :: oth)

/-- An item of an enum as written: attributes, name, and the Rust variant if it is given. -/
structure SrcItem where
  attrs : List (List Tok)
  name : Text
  variant : Option Path

/-- Its tokens; the comma is part of every item, also of the last one. -/
def SrcItem.write (s : SrcItem) : List Tok :=
  writeAttrs s.attrs ++ .id s.name ::
    ((match s.variant with | some p => .p '=' :: writePath p | none => []) ++ [.p ','])

/-- The item `i` is what `s`, written in the enum `e`, means. -/
def SrcItem.Means (O : Syn Ty) (e : Text) (s : SrcItem) (i : EnumItem) : Prop :=
  O.reserved s.name = false ∧ (∀ p, s.variant = some p → PathOk O p) ∧ OnlyDocs O s.attrs i.docs ∧ i.name = s.name ∧
    i.rustName = s.variant.getD ⟨false, [e, s.name]⟩

/-- An enum as written. -/
structure SrcEnum where
  attrs : List (List Tok)
  name : Text
  items : List SrcItem

/-- Its tokens. -/
def SrcEnum.write (s : SrcEnum) : List Tok :=
  writeAttrs s.attrs ++ [.id kwEnum, .id s.name, .grp .brace (s.items.flatMap SrcItem.write)]

/-- Two lists of the same length whose elements correspond one by one, in order. -/
inductive Each {α β} (R : α → β → Prop) : List α → List β → Prop where
  | nil : Each R [] []
  | cons {a b as bs} : R a b → Each R as bs → Each R (a :: as) (b :: bs)

/-- The enum `d` is what `s` means. -/
def SrcEnum.Means (O : Syn Ty) (s : SrcEnum) (d : EnumDecl) : Prop :=
  O.reserved s.name = false ∧ d.name = s.name ∧ DocsAndDerives O s.attrs d.docs d.derives ∧
    Each (SrcItem.Means O s.name) s.items d.items

/-! ## Basic parsers -/

theorem ident_iff (O : Syn Ty) (toks : List Tok) (n : Text) (r : List Tok) :
    ident O toks = some (n, r) ↔ toks = .id n :: r ∧ O.reserved n = false := by
  unfold ident
  split
  · rename_i m q
    split
    · rename_i h
      simp
      rintro rfl _
      exact h
    · rename_i h
      simp
      rintro rfl _
      simpa using h
  · rename_i h
    simp
    rintro rfl
    exact absurd rfl (h n r)

theorem keyword_iff (w : Text) (toks r : List Tok) : keyword w toks = some r ↔ toks = .id w :: r := by
  unfold keyword
  split
  · split
    · rename_i h; subst h; simp
    · rename_i h; simp; intro e; exact absurd e h
  · rename_i h
    simp
    rintro rfl
    exact absurd rfl (h w r)

theorem punct_iff (c : Char) (toks r : List Tok) : punct c toks = some r ↔ toks = .p c :: r := by
  unfold punct
  split
  · split
    · rename_i h; subst h; simp
    · rename_i h; simp; intro e; exact absurd e h
  · rename_i h
    simp
    rintro rfl
    exact absurd rfl (h c r)

theorem group_iff (d : Delim) (toks ts r : List Tok) : group d toks = some (ts, r) ↔ toks = .grp d ts :: r := by
  unfold group
  split
  · split
    · rename_i h; subst h; simp
    · rename_i h; simp; intro e; exact absurd e h
  · rename_i h
    simp
    rintro rfl
    exact absurd rfl (h d ts r)

/-- The rest does not continue a path. -/
def NoColon : List Tok → Prop
  | .colon2 :: _ => False
  | _ => True

theorem segs_read (O : Syn Ty) (l : List Text) (r : List Tok) (hl : l ≠ []) (h : ∀ n ∈ l, isSeg O n = true)
    (hr : NoColon r) : segs O (writeSegs l ++ r) = some (l, r) := by
  induction l with
  | nil => exact absurd rfl hl
  | cons n l ih =>
    have hn : isSeg O n = true := h n (by simp)
    cases l with
    | nil =>
      cases r with
      | nil => simp [writeSegs, segs, hn]
      | cons t r =>
        cases t <;> first | (simp [writeSegs, segs, hn]; done) | (exact absurd hr (by simp [NoColon]))
    | cons m l =>
      have := ih (by simp) (fun x hx => h x (by simp [hx]))
      simp [writeSegs, segs, hn, this]

theorem segs_inv (O : Syn Ty) : ∀ (toks : List Tok) (l : List Text) (r : List Tok), segs O toks = some (l, r) →
    l ≠ [] ∧ (∀ n ∈ l, isSeg O n = true) ∧ toks = writeSegs l ++ r ∧ NoColon r := by
  intro toks
  induction toks using segs.induct (O := O) with
  | case1 n r hs ih =>
    intro l q h
    rw [segs, if_pos hs] at h
    cases hq : segs O r with
    | none => rw [hq] at h; simp at h
    | some x =>
      rw [hq] at h
      simp at h
      obtain ⟨rfl, rfl⟩ := h
      obtain ⟨a, b, c, d⟩ := ih x.1 x.2 hq
      refine ⟨by simp, ?_, ?_, d⟩
      · intro m hm
        rcases List.mem_cons.1 hm with rfl | hm
        · exact hs
        · exact b m hm
      · obtain ⟨l', q'⟩ := x
        cases l' with
        | nil => exact absurd rfl a
        | cons y l' => simp [writeSegs] at c ⊢; exact c
  | case2 n r hs =>
    intro l q h
    rw [segs, if_neg hs] at h
    cases h
  | case3 n r hn hs =>
    intro l q h
    rw [segs, if_pos hs] at h
    · cases h
      refine ⟨by simp, by simpa using hs, by simp [writeSegs], ?_⟩
      cases r with
      | nil => trivial
      | cons t r => cases t <;> first | trivial | exact (hn _ rfl)
    · exact hn
  | case4 n r hn hs =>
    intro l q h
    rw [segs, if_neg hs] at h
    · cases h
    · exact hn
  | case5 t h1 h2 =>
    intro l q h
    unfold segs at h
    split at h
    · exact absurd rfl (h1 _ _)
    · exact absurd rfl (h2 _ _)
    · cases h

theorem path_iff (O : Syn Ty) (toks : List Tok) (p : Path) (r : List Tok) :
    path O toks = some (p, r) ↔ PathOk O p ∧ toks = writePath p ++ r ∧ NoColon r := by
  constructor
  · intro h
    unfold path at h
    split at h
    · rename_i q
      cases hq : segs O q with
      | none => rw [hq] at h; simp at h
      | some x =>
        rw [hq] at h
        simp at h
        obtain ⟨rfl, rfl⟩ := h
        obtain ⟨a, b, c, d⟩ := segs_inv O q x.1 x.2 hq
        exact ⟨⟨a, b⟩, by simp [writePath, c], d⟩
    · cases hq : segs O toks with
      | none => rw [hq] at h; simp at h
      | some x =>
        rw [hq] at h
        simp at h
        obtain ⟨rfl, rfl⟩ := h
        obtain ⟨a, b, c, d⟩ := segs_inv O toks x.1 x.2 hq
        exact ⟨⟨a, b⟩, by simp [writePath, c], d⟩
  · rintro ⟨⟨a, b⟩, rfl, c⟩
    obtain ⟨ld, l⟩ := p
    have := segs_read O l r a b c
    cases ld with
    | true => simp [writePath, path, this]
    | false =>
      cases l with
      | nil => exact absurd rfl a
      | cons n l =>
        have e : ∃ q, writeSegs (n :: l) = .id n :: q := by
          cases l <;> exact ⟨_, rfl⟩
        obtain ⟨q, e⟩ := e
        simp only [writePath] at *
        rw [e] at this ⊢
        simp at this ⊢
        simp [path, this]

/-! ## Attributes -/

/-- The rest does not start with an attribute. -/
def NoHash : List Tok → Prop
  | .p c :: _ => c ≠ '#'
  | _ => True

theorem outer_read (O : Syn Ty) (as : List (List Tok)) (ms : List Meta) (r : List Tok) (h : as.map O.metaOf = ms.map some)
    (hr : NoHash r) : outer O (writeAttrs as ++ r) = some (ms, r) := by
  induction as generalizing ms with
  | nil =>
    cases ms with
    | cons m ms => simp at h
    | nil =>
      unfold outer
      simp [writeAttrs]
      split
      · exact absurd rfl hr
      · exact absurd rfl hr
      · rfl
  | cons a as ih =>
    cases ms with
    | nil => simp at h
    | cons m ms =>
      simp at h
      have := ih ms h.2
      simp only [writeAttrs] at this
      simp [writeAttrs, outer, h.1, this]

theorem outer_inv (O : Syn Ty) : ∀ (toks : List Tok) (ms : List Meta) (r : List Tok), outer O toks = some (ms, r) →
    ∃ as : List (List Tok), as.map O.metaOf = ms.map some ∧ toks = writeAttrs as ++ r ∧ NoHash r := by
  intro toks
  induction toks using outer.induct with
  | case1 ts r ih =>
    intro ms q h
    rw [outer] at h
    cases hm : O.metaOf ts with
    | none => rw [hm] at h; simp at h
    | some m =>
      rw [hm] at h
      cases ho : outer O r with
      | none => rw [ho] at h; simp at h
      | some x =>
        rw [ho] at h
        simp at h
        obtain ⟨rfl, rfl⟩ := h
        obtain ⟨as, a, b, c⟩ := ih x.1 x.2 ho
        exact ⟨ts :: as, by simp [hm, a], by simp [writeAttrs] at b ⊢; exact b, c⟩
  | case2 r hr =>
    intro ms q h
    rw [outer] at h
    · cases h
    · exact hr
  | case3 t h1 h2 =>
    intro ms q h
    have e : outer O t = some ([], t) := by
      unfold outer
      split
      · exact absurd rfl (h1 _ _)
      · exact absurd rfl (h2 _)
      · rfl
    rw [e] at h
    cases h
    refine ⟨[], rfl, rfl, ?_⟩
    cases t with
    | nil => trivial
    | cons x t =>
      cases x with
      | p c => intro hc; subst hc; exact h2 _ rfl
      | _ => trivial

/-- What the attributes amount to. -/
def allowed (O : Syn Ty) (f : Flags) : Meta → Bool
  | .doc _ => true
  | .derive args _ => if f.derive then (idents O args).isSome else f.unknown
  | .other _ => f.unknown

def derivesOf (O : Syn Ty) (f : Flags) : Meta → List Text
  | .derive args _ => if f.derive then (idents O args).getD [] else []
  | _ => []

def unknownOf (f : Flags) : Meta → List Text
  | .derive _ t => if f.derive then [] else [t]
  | .other t => [t]
  | .doc _ => []

theorem addAttrs_iff (O : Syn Ty) (f : Flags) (ms : List Meta) (a b : Attrs) :
    addAttrs O f a ms = some b ↔ (∀ m ∈ ms, allowed O f m = true) ∧
      b = ⟨a.docs ++ ms.flatMap docOf, a.derives ++ ms.flatMap (derivesOf O f), a.unknown ++ ms.flatMap (unknownOf f)⟩ := by
  induction ms generalizing a with
  | nil => simp [addAttrs]; exact eq_comm
  | cons m ms ih =>
    cases m with
    | doc s => simp [addAttrs, addAttr, ih, allowed, docOf, derivesOf, unknownOf]
    | derive args t =>
      obtain ⟨fd, fu⟩ := f
      cases fd with
      | true =>
        cases hi : idents O args with
        | none => simp [addAttrs, addAttr, allowed, hi]
        | some l => simp [addAttrs, addAttr, ih, allowed, docOf, derivesOf, unknownOf, hi]
      | false =>
        cases fu with
        | true => simp [addAttrs, addAttr, ih, allowed, docOf, derivesOf, unknownOf]
        | false => simp [addAttrs, addAttr, allowed]
    | other t =>
      obtain ⟨fd, fu⟩ := f
      cases fu with
      | true => simp [addAttrs, addAttr, ih, allowed, docOf, derivesOf, unknownOf]
      | false => simp [addAttrs, addAttr, allowed]

/-- The attributes in front of something that does not itself start with `#`. -/
theorem attrs_iff (O : Syn Ty) (f : Flags) (toks r : List Tok) (b : Attrs) (hr : NoHash r) :
    attrs O f toks = some (b, r) ↔ ∃ (as : List (List Tok)) (ms : List Meta), as.map O.metaOf = ms.map some ∧
      toks = writeAttrs as ++ r ∧ (∀ m ∈ ms, allowed O f m = true) ∧
      b = ⟨ms.flatMap docOf, ms.flatMap (derivesOf O f), ms.flatMap (unknownOf f)⟩ := by
  constructor
  · intro h
    unfold attrs at h
    split at h
    · rename_i ho
      cases h
      -- the rest starts with `#`, since reading attributes failed
      exfalso
      have : outer O toks = some ([], toks) := by
        have := outer_read O [] [] toks rfl hr
        simpa [writeAttrs] using this
      rw [ho] at this
      cases this
    · rename_i ms q ho
      cases ha : addAttrs O f ⟨[], [], []⟩ ms with
      | none => rw [ha] at h; simp at h
      | some a =>
        rw [ha] at h
        simp at h
        obtain ⟨rfl, rfl⟩ := h
        obtain ⟨as, c, d, e⟩ := outer_inv O toks ms q ho
        obtain ⟨g, k⟩ := (addAttrs_iff O f ms _ _).1 ha
        exact ⟨as, ms, c, d, g, by simpa using k⟩
  · rintro ⟨as, ms, c, rfl, g, rfl⟩
    unfold attrs
    rw [outer_read O as ms r c hr]
    have := (addAttrs_iff O f ms ⟨[], [], []⟩ _).2 ⟨g, rfl⟩
    simp only [this]
    simp

theorem idents_iff (O : Syn Ty) (ts : List Tok) (l : List Text) : idents O ts = some l ↔ DeriveList O ts l := by
  constructor
  · induction ts using idents.induct (O := O) generalizing l with
    | case1 => intro h; simp [idents] at h; subst h; exact ⟨by simp, .inl rfl⟩
    | case2 n hn => intro h; simp [idents, hn] at h
    | case3 n hn =>
      intro h
      simp [idents] at h
      obtain ⟨h, rfl⟩ := h
      exact ⟨by simpa using h, .inl rfl⟩
    | case4 n r hn => intro h; simp [idents, hn] at h
    | case5 n r hn ih =>
      intro h
      rw [idents, if_neg hn] at h
      cases hr : idents O r with
      | none => rw [hr] at h; simp at h
      | some k =>
        rw [hr] at h
        simp at h
        subst h
        obtain ⟨a, b⟩ := ih k hr
        refine ⟨?_, ?_⟩
        · intro m hm
          rcases List.mem_cons.1 hm with rfl | hm
          · simpa using hn
          · exact a m hm
        · cases k with
          | nil =>
            rcases b with b | ⟨b, _⟩
            · subst b; exact .inr ⟨by simp, rfl⟩
            · exact absurd rfl b
          | cons x k =>
            rcases b with b | ⟨_, b⟩
            · exact .inl (by simp [writeNames, b])
            · exact .inr ⟨by simp, by simp [writeNames, b]⟩
    | case6 t h1 h2 h3 =>
      intro h
      unfold idents at h
      split at h
      · exact absurd rfl h1
      · exact absurd rfl (h2 _)
      · exact absurd rfl (h3 _ _)
      · cases h
  · rintro ⟨a, b⟩
    induction l generalizing ts with
    | nil =>
      rcases b with rfl | ⟨b, _⟩
      · rfl
      · exact absurd rfl b
    | cons n l ih =>
      have hn : O.reserved n = false := a n (by simp)
      cases l with
      | nil =>
        rcases b with rfl | ⟨_, rfl⟩
        · simp [writeNames, idents, hn]
        · simp [writeNames, idents, hn]
      | cons m l =>
        have ha : ∀ k ∈ m :: l, O.reserved k = false := fun k hk => a k (by simp [hk])
        rcases b with rfl | ⟨_, rfl⟩
        · have := ih (writeNames (m :: l)) ha (.inl rfl)
          simp [writeNames, idents, hn, this]
        · have := ih (writeNames (m :: l) ++ [.p ',']) ha (.inr ⟨by simp, rfl⟩)
          simp [writeNames, idents, hn] at this ⊢
          rw [this]

theorem onlyDocs_iff (O : Syn Ty) (as : List (List Tok)) (docs : List Text) :
    (∃ ms : List Meta, as.map O.metaOf = ms.map some ∧ (∀ m ∈ ms, allowed O ⟨false, false⟩ m = true) ∧
      docs = ms.flatMap docOf) ↔ OnlyDocs O as docs := by
  constructor
  · rintro ⟨ms, a, b, rfl⟩
    unfold OnlyDocs
    rw [a]
    clear a
    induction ms with
    | nil => rfl
    | cons m ms ih =>
      have h1 := b m (by simp)
      have h2 := ih fun x hx => b x (by simp [hx])
      cases m with
      | doc s => simp [docOf] at h2 ⊢; simp [h2]
      | derive x t => simp [allowed] at h1
      | other t => simp [allowed] at h1
  · intro h
    refine ⟨docs.map Meta.doc, by rw [h]; simp, ?_, ?_⟩
    · intro m hm
      obtain ⟨s, _, rfl⟩ := List.mem_map.1 hm
      rfl
    · clear h
      induction docs with
      | nil => rfl
      | cons s l ih => simp [docOf, ← ih]

theorem docComments_iff (O : Syn Ty) (toks r : List Tok) (docs : List Text) (hr : NoHash r) :
    docComments O toks = some (docs, r) ↔ ∃ as : List (List Tok), OnlyDocs O as docs ∧ toks = writeAttrs as ++ r := by
  constructor
  · intro h
    unfold docComments at h
    cases ha : attrs O ⟨false, false⟩ toks with
    | none => rw [ha] at h; simp at h
    | some x =>
      rw [ha] at h
      simp at h
      obtain ⟨rfl, rfl⟩ := h
      obtain ⟨as, ms, a, b, c, d⟩ := (attrs_iff O _ toks x.2 x.1 hr).1 ha
      exact ⟨as, (onlyDocs_iff O as _).1 ⟨ms, a, c, by rw [d]⟩, b⟩
  · rintro ⟨as, h, rfl⟩
    obtain ⟨ms, a, b, rfl⟩ := (onlyDocs_iff O as docs).2 h
    have := (attrs_iff O ⟨false, false⟩ (writeAttrs as ++ r) r _ hr).2 ⟨as, ms, a, rfl, b, rfl⟩
    simp [docComments, this]

theorem docsAndDerives_iff (O : Syn Ty) (as : List (List Tok)) (docs ders : List Text) :
    (∃ ms : List Meta, as.map O.metaOf = ms.map some ∧ (∀ m ∈ ms, allowed O ⟨true, false⟩ m = true) ∧
      docs = ms.flatMap docOf ∧ ders = ms.flatMap (derivesOf O ⟨true, false⟩)) ↔ DocsAndDerives O as docs ders := by
  constructor
  · rintro ⟨ms, a, b, rfl, rfl⟩
    induction ms generalizing as with
    | nil => simp at a; subst a; exact .nil
    | cons m ms ih =>
      cases as with
      | nil => simp at a
      | cons x as =>
        simp at a
        have h1 := b m (by simp)
        have h2 := ih as a.2 fun x hx => b x (by simp [hx])
        cases m with
        | doc s => simpa [docOf, derivesOf] using DocsAndDerives.doc a.1 h2
        | derive args t =>
          simp [allowed] at h1
          obtain ⟨l, hl⟩ := Option.isSome_iff_exists.1 h1
          simpa [docOf, derivesOf, hl] using DocsAndDerives.derive a.1 ((idents_iff O args l).1 hl) h2
        | other t => simp [allowed] at h1
  · intro h
    induction h with
    | nil => exact ⟨[], rfl, by simp, rfl, rfl⟩
    | @doc ts s as docs ders hm _ ih =>
      obtain ⟨ms, a, b, c, d⟩ := ih
      refine ⟨.doc s :: ms, by simp [hm, a], ?_, by simp [docOf, c], by simp [derivesOf, d]⟩
      intro m hx
      rcases List.mem_cons.1 hx with rfl | hx
      · rfl
      · exact b m hx
    | @derive ts args text names as docs ders hm hd _ ih =>
      obtain ⟨ms, a, b, c, d⟩ := ih
      have hl := (idents_iff O args names).2 hd
      refine ⟨.derive args text :: ms, by simp [hm, a], ?_, by simp [docOf, c], by simp [derivesOf, d, hl]⟩
      intro m hx
      rcases List.mem_cons.1 hx with rfl | hx
      · simp [allowed, hl]
      · exact b m hx

theorem docsAndOthers_iff (O : Syn Ty) (as : List (List Tok)) (docs oth : List Text) :
    (∃ ms : List Meta, as.map O.metaOf = ms.map some ∧
      docs = ms.flatMap docOf ∧ oth = ms.flatMap (unknownOf ⟨false, true⟩)) ↔ DocsAndOthers O as docs oth := by
  constructor
  · rintro ⟨ms, a, rfl, rfl⟩
    induction ms generalizing as with
    | nil => simp at a; subst a; exact .nil
    | cons m ms ih =>
      cases as with
      | nil => simp at a
      | cons x as =>
        simp at a
        have h2 := ih as a.2
        cases m with
        | doc s => simpa [docOf, unknownOf] using DocsAndOthers.doc a.1 h2
        | derive args t => simpa [docOf, unknownOf] using DocsAndOthers.derive a.1 h2
        | other t => simpa [docOf, unknownOf] using DocsAndOthers.other a.1 h2
  · intro h
    induction h with
    | nil => exact ⟨[], rfl, rfl, rfl⟩
    | @doc ts s as docs ders hm _ ih =>
      obtain ⟨ms, a, c, d⟩ := ih
      exact ⟨.doc s :: ms, by simp [hm, a], by simp [docOf, c], by simp [unknownOf, d]⟩
    | @derive ts args text as docs ders hm _ ih =>
      obtain ⟨ms, a, c, d⟩ := ih
      exact ⟨.derive args text :: ms, by simp [hm, a], by simp [docOf, c], by simp [unknownOf, d]⟩
    | @other ts text as docs ders hm _ ih =>
      obtain ⟨ms, a, c, d⟩ := ih
      exact ⟨.other text :: ms, by simp [hm, a], by simp [docOf, c], by simp [unknownOf, d]⟩

theorem allowed_all (O : Syn Ty) (m : Meta) : allowed O ⟨false, true⟩ m = true := by cases m <;> rfl

/-! ## The loop -/

/-- Reading item after item until nothing is left. -/
inductive Reads {α} (item : List Tok → Option (α × List Tok)) : List Tok → List α → Prop where
  | nil : Reads item [] []
  | cons {toks r x xs} : item toks = some (x, r) → Reads item r xs → Reads item toks (x :: xs)

theorem many_inv {α} (item : List Tok → Option (α × List Tok)) (n : Nat) (toks : List Tok) (xs : List α)
    (h : many item n toks = some xs) : Reads item toks xs := by
  induction n generalizing toks xs with
  | zero =>
    cases toks with
    | nil => simp [many] at h; subst h; exact .nil
    | cons t ts => simp [many] at h
  | succ n ih =>
    cases toks with
    | nil => simp [many] at h; subst h; exact .nil
    | cons t ts =>
      rw [many] at h
      cases hi : item (t :: ts) with
      | none => rw [hi] at h; simp at h
      | some x =>
        rw [hi] at h
        cases hm : many item n x.2 with
        | none => simp [hm] at h
        | some ys =>
          simp [hm] at h
          subst h
          exact .cons hi (ih _ _ hm)

theorem many_read {α} (item : List Tok → Option (α × List Tok)) (hs : ∀ toks x r, item toks = some (x, r) → r.length < toks.length)
    (toks : List Tok) (xs : List α) (h : Reads item toks xs) (n : Nat) (hn : toks.length ≤ n) : many item n toks = some xs := by
  induction h generalizing n with
  | nil => cases n <;> rfl
  | @cons toks r x xs hi _ ih =>
    have hl := hs _ _ _ hi
    cases toks with
    | nil => simp at hl
    | cons t ts =>
      cases n with
      | zero => simp at hn
      | succ n =>
        have := ih n (by simp at hl hn; omega)
        rw [many, hi]
        simp [this]

/-! ## Enums -/

theorem noHash_id (n : Text) (r : List Tok) : NoHash (.id n :: r) := trivial

/-- Tokens of the part between the name and the comma. -/
def variantToks : Option Path → List Tok
  | some p => .p '=' :: writePath p
  | none => []

theorem variantPath_iff (O : Syn Ty) (e n : Text) (toks r : List Tok) (p : Path) :
    variantPath O e n toks = some (p, .p ',' :: r) ↔ ∃ v : Option Path, (∀ q, v = some q → PathOk O q) ∧
      toks = variantToks v ++ .p ',' :: r ∧ p = v.getD ⟨false, [e, n]⟩ := by
  constructor
  · intro h
    unfold variantPath at h
    split at h
    · obtain ⟨a, b, _⟩ := (path_iff O _ _ _).1 h
      exact ⟨some p, by simpa using a, by simp [variantToks, b], rfl⟩
    · simp at h
      exact ⟨none, by simp, by simp [variantToks, h.2], h.1.symm⟩
  · rintro ⟨v, a, rfl, rfl⟩
    cases v with
    | none => simp [variantToks, variantPath]
    | some q =>
      have := (path_iff O (writePath q ++ .p ',' :: r) q (.p ',' :: r)).2 ⟨a q rfl, rfl, trivial⟩
      simp [variantToks, variantPath, this]

theorem enumItem_iff (O : Syn Ty) (e : Text) (toks r : List Tok) (i : EnumItem) :
    enumItem O e toks = some (i, r) ↔ ∃ s : SrcItem, s.Means O e i ∧ toks = s.write ++ r := by
  constructor
  · intro h
    simp only [enumItem, Option.bind_eq_bind, Option.bind_eq_some_iff, Option.pure_def] at h
    obtain ⟨⟨docs, r1⟩, h1, ⟨name, r2⟩, h2, ⟨p, r3⟩, h3, r4, h4, h5⟩ := h
    obtain ⟨rfl, hn⟩ := (ident_iff O _ _ _).1 h2
    have := (punct_iff _ _ _).1 h4
    subst this
    simp at h5
    obtain ⟨rfl, rfl⟩ := h5
    obtain ⟨v, hv, rfl, rfl⟩ := (variantPath_iff O e name _ _ _).1 h3
    obtain ⟨as, ha, rfl⟩ := (docComments_iff O _ _ _ (noHash_id _ _)).1 h1
    refine ⟨⟨as, name, v⟩, ⟨hn, hv, ha, rfl, rfl⟩, ?_⟩
    cases v <;> simp [SrcItem.write, variantToks]
  · rintro ⟨⟨as, sname, v⟩, ⟨hn, hv, ha, hi, hp⟩, rfl⟩
    obtain ⟨name, irust, idocs⟩ := i
    simp only at hn hv ha hi hp
    subst hi hp
    have e1 := (docComments_iff O (writeAttrs as ++ .id name :: (variantToks v ++ .p ',' :: r)) _ idocs (noHash_id _ _)).2
      ⟨as, ha, rfl⟩
    have e2 := (ident_iff O (.id name :: (variantToks v ++ .p ',' :: r)) name _).2 ⟨rfl, hn⟩
    have e3 := (variantPath_iff O e name (variantToks v ++ .p ',' :: r) r _).2 ⟨v, hv, rfl, rfl⟩
    have e4 := (punct_iff ',' (.p ',' :: r) r).2 rfl
    have e0 : SrcItem.write ⟨as, name, v⟩ ++ r = writeAttrs as ++ .id name :: (variantToks v ++ .p ',' :: r) := by
      cases v <;> simp [SrcItem.write, variantToks]
    rw [e0]
    simp only [enumItem, e1, Option.bind_eq_bind, Option.bind_some, e2, e3, e4, Option.pure_def]

theorem SrcItem.write_pos (s : SrcItem) (r : List Tok) : r.length < (s.write ++ r).length := by
  simp [SrcItem.write]; omega

theorem reads_items (O : Syn Ty) (e : Text) (toks : List Tok) (xs : List EnumItem) :
    Reads (enumItem O e) toks xs ↔ ∃ ss : List SrcItem, Each (SrcItem.Means O e) ss xs ∧ toks = ss.flatMap SrcItem.write := by
  constructor
  · intro h
    induction h with
    | nil => exact ⟨[], .nil, rfl⟩
    | @cons toks r x xs hi _ ih =>
      obtain ⟨ss, a, rfl⟩ := ih
      obtain ⟨s, b, rfl⟩ := (enumItem_iff O e _ _ _).1 hi
      exact ⟨s :: ss, .cons b a, by simp⟩
  · rintro ⟨ss, a, rfl⟩
    induction a with
    | nil => exact .nil
    | @cons s x ss xs b _ ih =>
      refine .cons (r := ss.flatMap SrcItem.write) ((enumItem_iff O e _ _ _).2 ⟨s, b, by simp⟩) ih

theorem many_items (O : Syn Ty) (e : Text) (toks : List Tok) (xs : List EnumItem) :
    many (enumItem O e) toks.length toks = some xs ↔
      ∃ ss : List SrcItem, Each (SrcItem.Means O e) ss xs ∧ toks = ss.flatMap SrcItem.write := by
  rw [← reads_items]
  constructor
  · exact many_inv _ _ _ _
  · intro h
    refine many_read _ ?_ _ _ h _ (Nat.le_refl _)
    intro t x r hi
    obtain ⟨s, _, rfl⟩ := (enumItem_iff O e _ _ _).1 hi
    exact s.write_pos r

/-- **C75**: a `foreign_enum!` is accepted exactly if it is an enum with documentation and derive lists in front, whose items
each end in a comma; and what is handed on is the name, the documentation and the derive lists in the order written, and item
by item the name, its documentation and the Rust variant given (`Enum::Item` when none is given). -/
theorem C75_enum (O : Syn Ty) (toks : List Tok) (d : EnumDecl) :
    parseEnum O toks = some d ↔ ∃ s : SrcEnum, s.Means O d ∧ toks = s.write := by
  constructor
  · intro h
    simp only [parseEnum, Option.bind_eq_bind, Option.bind_eq_some_iff, Option.pure_def] at h
    obtain ⟨⟨a, r1⟩, h1, r2, h2, ⟨name, r3⟩, h3, ⟨body, r4⟩, h4, items, h5, h6⟩ := h
    have := (keyword_iff _ _ _).1 h2
    subst this
    obtain ⟨rfl, hn⟩ := (ident_iff O _ _ _).1 h3
    have := (group_iff _ _ _ _).1 h4
    subst this
    cases r4 with
    | cons t r => simp at h6
    | nil =>
      simp at h6
      subst h6
      obtain ⟨as, ms, c, rfl, e, rfl⟩ := (attrs_iff O _ _ _ _ (noHash_id _ _)).1 h1
      obtain ⟨ss, g, rfl⟩ := (many_items O name _ _).1 h5
      exact ⟨⟨as, name, ss⟩, ⟨hn, rfl, (docsAndDerives_iff O as _ _).1 ⟨ms, c, e, rfl, rfl⟩, g⟩, rfl⟩
  · rintro ⟨⟨as, sname, ss⟩, ⟨hn, hd, ha, g⟩, rfl⟩
    obtain ⟨name, items, docs, ders⟩ := d
    simp only at hn hd ha g
    subst hd
    obtain ⟨ms, c, e, rfl, rfl⟩ := (docsAndDerives_iff O as _ _).2 ha
    have e1 := (attrs_iff O ⟨true, false⟩ (writeAttrs as ++ .id kwEnum :: .id name :: [.grp .brace (ss.flatMap SrcItem.write)])
      _ _ (noHash_id _ _)).2 ⟨as, ms, c, rfl, e, rfl⟩
    have e2 := (keyword_iff kwEnum (.id kwEnum :: .id name :: [.grp .brace (ss.flatMap SrcItem.write)]) _).2 rfl
    have e3 := (ident_iff O (.id name :: [.grp .brace (ss.flatMap SrcItem.write)]) name _).2 ⟨rfl, hn⟩
    have e4 := (group_iff .brace [.grp .brace (ss.flatMap SrcItem.write)] _ _).2 rfl
    have e5 := (many_items O name (ss.flatMap SrcItem.write) items).2 ⟨ss, g, rfl⟩
    have e0 : SrcEnum.write ⟨as, name, ss⟩ = writeAttrs as ++ .id kwEnum :: .id name :: [.grp .brace (ss.flatMap SrcItem.write)] :=
      rfl
    rw [e0]
    simp only [parseEnum, e1, Option.bind_eq_bind, Option.bind_some, e2, e3, e4, e5, Option.pure_def]


/-! ## Interfaces: specification -/

/-- What is assumed of the parsers of `syn`: they read a prefix; generics, when there are any, start with `<`; and the words of the declaration language are ordinary Rust
identifiers. -/
structure Laws (O : Syn Ty) : Prop where
  ty : ∀ toks t r, O.ty toks = some (t, r) → ∃ pre, toks = pre ++ r
  bounds : ∀ toks t r, O.bounds toks = some (t, r) → ∃ pre, toks = pre ++ r
  generics : ∀ toks r, O.generics toks = some r → r = toks ∨ ∃ pre, toks = .p '<' :: (pre ++ r)
  words : ∀ w ∈ ["self_type", "foreign_code", "foreigner_code", "constructor", "method", "static_method"],
    O.reserved w.toList = false

/-- A result type as written: nothing or the tokens after `->`. -/
def writeRet : Option (List Tok) → List Tok
  | none => []
  | some t => .arrow :: t

/-- It means `out` when `rest` follows. -/
def RetMeans (O : Syn Ty) (rest : List Tok) : Option (List Tok) → Option Ty → Prop
  | none, out => out = none
  | some t, out => ∃ ty, out = some ty ∧ O.ty (t ++ rest) = some (ty, rest)

/-- A bound that may follow the first one. -/
def ExtraBound (b : Bound) : Prop :=
  (∃ t, b = .lifetime t) ∨ (∃ t, b = .trait (some "Send".toList) t) ∨ ∃ t, b = .trait (some "Sync".toList) t

/-- An entry of an interface as written. -/
inductive SrcI where
  | selfType (attrs : List (List Tok)) (bounds : List Tok)
  | method (attrs : List (List Tok)) (name : Text) (path : Path) (inside : List Tok) (ret : Option (List Tok))

/-- Its tokens. -/
def SrcI.write : SrcI → List Tok
  | .selfType as b => writeAttrs as ++ .id kwSelfType :: (b ++ [.p ';'])
  | .method as n p inside ret =>
    writeAttrs as ++ .id n :: .p '=' :: (writePath p ++ .grp .paren inside :: (writeRet ret ++ [.p ';']))

/-- What it means when `rest` follows. -/
def SrcI.Means (O : Syn Ty) (rest : List Tok) : SrcI → IEntry Ty → Prop
  | .selfType as b, e => ∃ docs b1 bs, OnlyDocs O as docs ∧ e = .selfType (b1 :: bs) ∧
      O.bounds (b ++ .p ';' :: rest) = some (b1 :: bs, .p ';' :: rest) ∧ ∀ x ∈ bs, ExtraBound x
  | .method as n p inside ret, e => ∃ docs args inputs out, e = .method ⟨n, p, inputs, out, docs⟩ ∧ OnlyDocs O as docs ∧
      O.reserved n = false ∧ n ≠ kwSelfType ∧ PathOk O p ∧ O.args inside = some args ∧
      parseCallback args = some inputs ∧ RetMeans O (.p ';' :: rest) ret out

/-- A body as written means a list of entries. -/
inductive BodyMeans {α β} (write : α → List Tok) (M : List Tok → α → β → Prop) : List α → List β → Prop where
  | nil : BodyMeans write M [] []
  | cons {s e ss es} : M (ss.flatMap write) s e → BodyMeans write M ss es → BodyMeans write M (s :: ss) (e :: es)

/-- An interface as written; `callback` says which of the two words is used. -/
structure SrcInterface where
  attrs : List (List Tok)
  callback : Bool
  name : Text
  body : List SrcI

/-- Its tokens. -/
def SrcInterface.write (s : SrcInterface) : List Tok :=
  writeAttrs s.attrs ++ [.id (if s.callback then kwCallback else kwInterface), .id s.name,
    .grp .brace (s.body.flatMap SrcI.write)]

/-- The methods among the entries. -/
def IEntry.method? : IEntry Ty → Option (IMethod Ty)
  | .method m => some m
  | .selfType _ => none

/-- The self types among the entries. -/
def IEntry.selfType? : IEntry Ty → Option (List Bound)
  | .method _ => none
  | .selfType b => some b

/-- What it means: the documentation, the last `self_type`, and the methods in order. -/
def SrcInterface.Means (O : Syn Ty) (s : SrcInterface) (d : Interface Ty) : Prop :=
  OnlyDocs O s.attrs d.docs ∧ O.reserved s.name = false ∧ d.name = s.name ∧
  ∃ es, BodyMeans SrcI.write (SrcI.Means O) s.body es ∧ d.items = es.filterMap IEntry.method? ∧
    (es.filterMap IEntry.selfType?).getLast? = some d.selfType

/-! ## Interfaces: proofs -/

/-- What may follow a result type. -/
def NoArrow : List Tok → Prop
  | .arrow :: _ => False
  | _ => True

theorem retType_iff (O : Syn Ty) (L : Laws O) (toks rest : List Tok) (out : Option Ty) (hr : NoArrow rest) :
    retType O toks = some (out, rest) ↔ ∃ ret, RetMeans O rest ret out ∧ toks = writeRet ret ++ rest := by
  constructor
  · intro h
    unfold retType at h
    split at h
    · rename_i q
      cases ht : O.ty q with
      | none => rw [ht] at h; simp at h
      | some x =>
        rw [ht] at h
        simp at h
        obtain ⟨rfl, rfl⟩ := h
        obtain ⟨pre, e⟩ := L.ty _ _ _ ht
        exact ⟨some pre, ⟨x.1, rfl, by rw [← e, ht]⟩, by simp [writeRet, e]⟩
    · simp at h
      obtain ⟨rfl, rfl⟩ := h
      exact ⟨none, rfl, rfl⟩
  · rintro ⟨ret, h, rfl⟩
    cases ret with
    | none =>
      have : out = none := h
      subst this
      simp only [writeRet, List.nil_append]
      cases rest with
      | nil => rfl
      | cons t rest => cases t <;> first | rfl | exact absurd hr (by simp [NoArrow])
    | some t =>
      obtain ⟨ty, rfl, h⟩ := h
      simp [writeRet, retType, h]

theorem boundOk_iff (b : Bound) : boundOk b = true ↔ ExtraBound b := by
  cases b with
  | trait i t =>
    cases i with
    | none => simp [boundOk, ExtraBound]
    | some n =>
      simp only [boundOk, isSendSync, ExtraBound]
      simp
      exact or_comm
  | lifetime t => simp [boundOk, ExtraBound]
  | other => simp [boundOk, ExtraBound]

theorem selfTypeEntry_iff (O : Syn Ty) (L : Laws O) (toks r : List Tok) (e : IEntry Ty) :
    selfTypeEntry O toks = some (e, r) ↔ ∃ b b1 bs, toks = b ++ .p ';' :: r ∧ e = .selfType (b1 :: bs) ∧
      O.bounds (b ++ .p ';' :: r) = some (b1 :: bs, .p ';' :: r) ∧ ∀ x ∈ bs, ExtraBound x := by
  constructor
  · intro h
    simp only [selfTypeEntry, Option.bind_eq_bind, Option.bind_eq_some_iff, Option.pure_def] at h
    obtain ⟨⟨bs, r1⟩, h1, h2⟩ := h
    cases bs with
    | nil => simp at h2
    | cons b1 bs =>
      simp only [List.isEmpty_cons, Bool.false_eq_true, if_false, List.drop_succ_cons, List.drop_zero] at h2
      split at h2
      · rename_i hall
        obtain ⟨r2, h3, h4⟩ := Option.bind_eq_some_iff.1 h2
        have := (punct_iff _ _ _).1 h3
        subst this
        simp at h4
        obtain ⟨rfl, rfl⟩ := h4
        obtain ⟨pre, rfl⟩ := L.bounds _ _ _ h1
        refine ⟨pre, b1, bs, rfl, rfl, h1, fun x hx => (boundOk_iff x).1 ?_⟩
        exact List.all_eq_true.1 hall x hx
      · cases h2
  · rintro ⟨b, b1, bs, rfl, rfl, h1, h2⟩
    have e4 := (punct_iff ';' (.p ';' :: r) r).2 rfl
    have hall : bs.all boundOk = true := List.all_eq_true.2 fun x hx => (boundOk_iff x).2 (h2 x hx)
    simp only [selfTypeEntry, h1, Option.bind_eq_bind, Option.bind_some, List.isEmpty_cons, Bool.false_eq_true, if_false,
      List.drop_succ_cons, List.drop_zero, hall, if_true, e4, Option.pure_def]

theorem methodEntry_iff (O : Syn Ty) (L : Laws O) (docs : List Text) (n : Text) (toks r : List Tok) (e : IEntry Ty) :
    methodEntry O docs n toks = some (e, r) ↔ ∃ p inside ret args inputs out,
      toks = .p '=' :: (writePath p ++ .grp .paren inside :: (writeRet ret ++ .p ';' :: r)) ∧
      e = .method ⟨n, p, inputs, out, docs⟩ ∧ PathOk O p ∧ O.args inside = some args ∧
      parseCallback args = some inputs ∧ RetMeans O (.p ';' :: r) ret out := by
  constructor
  · intro h
    simp only [methodEntry, Option.bind_eq_bind, Option.bind_eq_some_iff, Option.pure_def] at h
    obtain ⟨r1, h1, ⟨p, r2⟩, h2, ⟨inside, r3⟩, h3, args, h4, inputs, h5, ⟨out, r4⟩, h6, r5, h7, h8⟩ := h
    have := (punct_iff _ _ _).1 h1
    subst this
    have := (group_iff _ _ _ _).1 h3
    subst this
    have := (punct_iff _ _ _).1 h7
    subst this
    simp at h8
    obtain ⟨rfl, rfl⟩ := h8
    obtain ⟨hp, rfl, _⟩ := (path_iff O _ _ _).1 h2
    obtain ⟨ret, hr, rfl⟩ := (retType_iff O L _ _ _ (by trivial)).1 h6
    exact ⟨p, inside, ret, args, inputs, out, rfl, rfl, hp, h4, h5, hr⟩
  · rintro ⟨p, inside, ret, args, inputs, out, rfl, rfl, hp, h4, h5, hr⟩
    have e1 := (punct_iff '=' (.p '=' :: (writePath p ++ .grp .paren inside :: (writeRet ret ++ .p ';' :: r))) _).2 rfl
    have e2 := (path_iff O (writePath p ++ .grp .paren inside :: (writeRet ret ++ .p ';' :: r)) p _).2 ⟨hp, rfl, trivial⟩
    have e3 := (group_iff .paren (.grp .paren inside :: (writeRet ret ++ .p ';' :: r)) _ _).2 rfl
    have e6 := (retType_iff O L (writeRet ret ++ .p ';' :: r) (.p ';' :: r) out (by trivial)).2 ⟨ret, hr, rfl⟩
    have e7 := (punct_iff ';' (.p ';' :: r) r).2 rfl
    simp only [methodEntry, e1, Option.bind_eq_bind, Option.bind_some, e2, e3, h4, h5, e6, e7, Option.pure_def]

theorem iEntry_iff (O : Syn Ty) (L : Laws O) (toks r : List Tok) (e : IEntry Ty) :
    iEntry O toks = some (e, r) ↔ ∃ s : SrcI, s.Means O r e ∧ toks = s.write ++ r := by
  have hw : O.reserved kwSelfType = false := L.words "self_type" (by simp)
  constructor
  · intro h
    simp only [iEntry, Option.bind_eq_bind, Option.bind_eq_some_iff] at h
    obtain ⟨⟨docs, r1⟩, h1, ⟨n, r2⟩, h2, h3⟩ := h
    obtain ⟨rfl, hn⟩ := (ident_iff O _ _ _).1 h2
    obtain ⟨as, ha, rfl⟩ := (docComments_iff O _ _ _ (noHash_id _ _)).1 h1
    split at h3
    · rename_i hk
      subst hk
      obtain ⟨b, b1, bs, rfl, rfl, h4, h5⟩ := (selfTypeEntry_iff O L _ _ _).1 h3
      exact ⟨.selfType as b, ⟨docs, b1, bs, ha, rfl, h4, h5⟩, by simp [SrcI.write]⟩
    · rename_i hk
      obtain ⟨p, inside, ret, args, inputs, out, rfl, rfl, hp, h4, h5, hr⟩ := (methodEntry_iff O L _ _ _ _ _).1 h3
      exact ⟨.method as n p inside ret, ⟨docs, args, inputs, out, rfl, ha, hn, hk, hp, h4, h5, hr⟩, by simp [SrcI.write]⟩
  · rintro ⟨s, hm, rfl⟩
    cases s with
    | selfType as b =>
      obtain ⟨docs, b1, bs, ha, rfl, h4, h5⟩ := hm
      have e1 := (docComments_iff O (writeAttrs as ++ .id kwSelfType :: (b ++ .p ';' :: r)) _ docs (noHash_id _ _)).2 ⟨as, ha, rfl⟩
      have e2 := (ident_iff O (.id kwSelfType :: (b ++ .p ';' :: r)) kwSelfType _).2 ⟨rfl, hw⟩
      have e3 := (selfTypeEntry_iff O L (b ++ .p ';' :: r) r _).2 ⟨b, b1, bs, rfl, rfl, h4, h5⟩
      have e0 : SrcI.write (.selfType as b) ++ r = writeAttrs as ++ .id kwSelfType :: (b ++ .p ';' :: r) := by
        simp [SrcI.write]
      rw [e0]
      simp only [iEntry, e1, Option.bind_eq_bind, Option.bind_some, e2, if_true, e3]
    | method as n p inside ret =>
      obtain ⟨docs, args, inputs, out, rfl, ha, hn, hk, hp, h4, h5, hr⟩ := hm
      have e1 := (docComments_iff O (writeAttrs as ++ .id n :: (.p '=' :: (writePath p ++ .grp .paren inside ::
        (writeRet ret ++ .p ';' :: r)))) _ docs (noHash_id _ _)).2 ⟨as, ha, rfl⟩
      have e2 := (ident_iff O (.id n :: (.p '=' :: (writePath p ++ .grp .paren inside ::
        (writeRet ret ++ .p ';' :: r)))) n _).2 ⟨rfl, hn⟩
      have e3 := (methodEntry_iff O L docs n (.p '=' :: (writePath p ++ .grp .paren inside ::
        (writeRet ret ++ .p ';' :: r))) r _).2 ⟨p, inside, ret, args, inputs, out, rfl, rfl, hp, h4, h5, hr⟩
      have e0 : SrcI.write (.method as n p inside ret) ++ r = writeAttrs as ++ .id n :: (.p '=' :: (writePath p ++
        .grp .paren inside :: (writeRet ret ++ .p ';' :: r))) := by
        simp [SrcI.write]
      have hk' : n ≠ kwSelfType := hk
      rw [e0]
      simp only [iEntry, e1, Option.bind_eq_bind, Option.bind_some, e2, if_neg hk', e3]

theorem reads_body {α β} (item : List Tok → Option (β × List Tok)) (write : α → List Tok) (M : List Tok → α → β → Prop)
    (hi : ∀ toks r e, item toks = some (e, r) ↔ ∃ s, M r s e ∧ toks = write s ++ r) (toks : List Tok) (xs : List β) :
    Reads item toks xs ↔ ∃ ss, BodyMeans write M ss xs ∧ toks = ss.flatMap write := by
  constructor
  · intro h
    induction h with
    | nil => exact ⟨[], .nil, rfl⟩
    | @cons toks r x xs hx _ ih =>
      obtain ⟨ss, a, rfl⟩ := ih
      obtain ⟨s, b, rfl⟩ := (hi _ _ _).1 hx
      exact ⟨s :: ss, .cons b a, by simp⟩
  · rintro ⟨ss, a, rfl⟩
    induction a with
    | nil => exact .nil
    | @cons s x ss xs b _ ih =>
      exact .cons (r := ss.flatMap write) ((hi _ _ _).2 ⟨s, b, by simp⟩) ih

theorem many_body {α β} (item : List Tok → Option (β × List Tok)) (write : α → List Tok) (M : List Tok → α → β → Prop)
    (hi : ∀ toks r e, item toks = some (e, r) ↔ ∃ s, M r s e ∧ toks = write s ++ r) (hw : ∀ s, write s ≠ [])
    (toks : List Tok) (xs : List β) :
    many item toks.length toks = some xs ↔ ∃ ss, BodyMeans write M ss xs ∧ toks = ss.flatMap write := by
  rw [← reads_body item write M hi]
  constructor
  · exact many_inv _ _ _ _
  · intro h
    refine many_read _ ?_ _ _ h _ (Nat.le_refl _)
    intro t x r hx
    obtain ⟨s, _, rfl⟩ := (hi _ _ _).1 hx
    have := List.length_pos_iff.2 (hw s)
    simp; omega

theorem SrcI.write_ne (s : SrcI) : s.write ≠ [] := by cases s <;> simp [SrcI.write]

theorem lastSelfType_eq (es : List (IEntry Ty)) : lastSelfType es = (es.filterMap IEntry.selfType?).getLast? := by
  induction es with
  | nil => rfl
  | cons e es ih =>
    cases e with
    | method m => simp [lastSelfType, IEntry.selfType?, ih]
    | selfType b =>
      simp only [lastSelfType, ih, List.filterMap_cons, IEntry.selfType?]
      rw [List.getLast?_cons]

theorem methodsOf_eq (es : List (IEntry Ty)) : methodsOf es = es.filterMap IEntry.method? := by
  induction es with
  | nil => rfl
  | cons e es ih =>
    cases e with
    | method m => rw [methodsOf, ih]; rfl
    | selfType b => rw [methodsOf, ih, List.filterMap_cons_none rfl]

theorem interfaceKeyword_iff (toks r : List Tok) :
    interfaceKeyword toks = some r ↔ ∃ cb : Bool, toks = .id (if cb then kwCallback else kwInterface) :: r := by
  unfold interfaceKeyword
  constructor
  · intro h
    cases hk : keyword kwInterface toks with
    | some q =>
      rw [hk] at h
      simp at h
      subst h
      exact ⟨false, (keyword_iff _ _ _).1 hk⟩
    | none =>
      rw [hk] at h
      simp at h
      exact ⟨true, (keyword_iff _ _ _).1 h⟩
  · rintro ⟨cb, rfl⟩
    cases cb with
    | false =>
      have := (keyword_iff kwInterface (.id kwInterface :: r) r).2 rfl
      simp only [Bool.false_eq_true, if_false, this, Option.some_or]
    | true =>
      have h1 : keyword kwInterface (.id kwCallback :: r) = none := by
        have hne : ¬ kwCallback = kwInterface := by decide
        simp only [keyword, if_neg hne]
      have h2 := (keyword_iff kwCallback (.id kwCallback :: r) r).2 rfl
      simp only [if_true, h1, h2, Option.none_or]

/-- **C75**: a `foreign_interface!`/`foreign_callback!` is accepted exactly if it has the written form: documentation, one of
the two words, a name and a body of `self_type` entries (of a trait and then only `Send`, `Sync` or lifetimes) and of methods
with a self argument, at least one `self_type` among them; what is handed on is the documentation, the last `self_type` and the
methods in order, each with the name, Rust path, arguments, result type and documentation written there. -/
theorem C75_interface (O : Syn Ty) (L : Laws O) (toks : List Tok) (d : Interface Ty) :
    parseInterface O toks = some d ↔ ∃ s : SrcInterface, s.Means O d ∧ toks = s.write := by
  constructor
  · intro h
    simp only [parseInterface, Option.bind_eq_bind, Option.bind_eq_some_iff, Option.pure_def] at h
    obtain ⟨⟨docs, r1⟩, h1, r2, h2, ⟨name, r3⟩, h3, ⟨body, r4⟩, h4, es, h5, st, h6, h7⟩ := h
    obtain ⟨cb, rfl⟩ := (interfaceKeyword_iff _ _).1 h2
    obtain ⟨rfl, hn⟩ := (ident_iff O _ _ _).1 h3
    have := (group_iff _ _ _ _).1 h4
    subst this
    obtain ⟨as, ha, rfl⟩ := (docComments_iff O _ _ _ (noHash_id _ _)).1 h1
    cases r4 with
    | cons t r => simp at h7
    | nil =>
      simp at h7
      subst h7
      obtain ⟨ss, g, rfl⟩ := (many_body (iEntry O) SrcI.write (SrcI.Means O) (iEntry_iff O L) SrcI.write_ne _ _).1 h5
      exact ⟨⟨as, cb, name, ss⟩, ⟨ha, hn, rfl, es, g, methodsOf_eq es, by rw [← lastSelfType_eq, h6]⟩, rfl⟩
  · rintro ⟨⟨as, cb, sname, ss⟩, ⟨ha, hn, hd, es, g, hm, hst⟩, rfl⟩
    obtain ⟨name, st, ms, docs⟩ := d
    simp only at ha hn hd g hm hst
    subst hd
    have e1 := (docComments_iff O (writeAttrs as ++ .id (if cb then kwCallback else kwInterface) :: .id name ::
      [.grp .brace (ss.flatMap SrcI.write)]) _ docs (noHash_id _ _)).2 ⟨as, ha, rfl⟩
    have e2 := (interfaceKeyword_iff (.id (if cb then kwCallback else kwInterface) :: .id name ::
      [.grp .brace (ss.flatMap SrcI.write)]) _).2 ⟨cb, rfl⟩
    have e3 := (ident_iff O (.id name :: [.grp .brace (ss.flatMap SrcI.write)]) name _).2 ⟨rfl, hn⟩
    have e4 := (group_iff .brace [.grp .brace (ss.flatMap SrcI.write)] _ _).2 rfl
    have e5 := (many_body (iEntry O) SrcI.write (SrcI.Means O) (iEntry_iff O L) SrcI.write_ne _ _).2 ⟨ss, g, rfl⟩
    have e0 : SrcInterface.write ⟨as, cb, name, ss⟩ = writeAttrs as ++
      .id (if cb then kwCallback else kwInterface) :: .id name :: [.grp .brace (ss.flatMap SrcI.write)] := rfl
    rw [e0]
    rw [← lastSelfType_eq] at hst
    rw [← methodsOf_eq] at hm
    simp only [parseInterface, e1, Option.bind_eq_bind, Option.bind_some, e2, e3, e4, e5, hst, Option.pure_def, hm]

/-! ## Classes: specification -/

/-- The words a function of a class may start with. -/
def FuncWord (k : Text) : Prop := k = kwConstructor ∨ k = kwMethod ∨ k = kwStaticMethod ∨ k = kwFn

/-- What follows the optional `private`/`protected` in an entry of a class. -/
inductive SrcBody where
  | selfType (ty : List Tok)
  | code (deprecated : Bool) (s : Text)
  | dummy (ret : Option (List Tok))
  | func (kind : Text) (path : Path) (generics inside : List Tok) (ret body : Option (List Tok)) (alias : Option Text)

/-- An entry of a class as written. -/
structure SrcC where
  attrs : List (List Tok)
  priv : Bool
  prot : Bool
  body : SrcBody

/-- Tokens of a function end: a block or `;`. -/
def writeEnd : Option (List Tok) → List Tok
  | some ts => [.grp .brace ts]
  | none => [.p ';']

/-- Tokens of an alias. -/
def writeAlias : Option Text → List Tok
  | some a => [.id kwAlias, .id a, .p ';']
  | none => []

/-- Tokens of what follows the optional `private`/`protected`. -/
def SrcBody.write : SrcBody → List Tok
  | .selfType t => .id kwSelfType :: (t ++ [.p ';'])
  | .code dep s => [.id (if dep then kwForeignerCode else kwForeignCode), .str s, .p ';']
  | .dummy ret => .id kwConstructor :: .p '=' :: .id kwEmpty :: (writeRet ret ++ [.p ';'])
  | .func k p g inside ret body al =>
    .id k :: (writePath p ++ (g ++ .grp .paren inside :: (writeRet ret ++ (writeEnd body ++ writeAlias al))))

/-- Tokens of `private` and `protected`. -/
def writeFlags (priv prot : Bool) : List Tok :=
  (if priv then [.id kwPrivate] else []) ++ (if prot then [.id kwProtected] else [])

/-- Tokens of an entry. -/
def SrcC.write (s : SrcC) : List Tok := writeAttrs s.attrs ++ (writeFlags s.priv s.prot ++ s.body.write)

/-- The entry it stands for when `rest` follows. -/
def SrcBody.Means (O : Syn Ty) (priv prot : Bool) (rest : List Tok) : SrcBody → Entry Ty → Prop
  | .selfType t, e => ∃ ty, e = .selfType ty ∧ O.ty (t ++ .p ';' :: rest) = some (ty, .p ';' :: rest)
  | .code _ s, e => e = .code s
  | .dummy ret, e => ∃ out, e = .dummy priv prot out ∧ RetMeans O (.p ';' :: rest) ret out
  | .func k p g inside ret body al, e => ∃ args out, e = .func priv prot k p.segments args out body.isSome al ∧
      FuncWord k ∧ PathOk O p ∧
      skipGenerics O (g ++ .grp .paren inside :: (writeRet ret ++ (writeEnd body ++ (writeAlias al ++ rest)))) =
        .grp .paren inside :: (writeRet ret ++ (writeEnd body ++ (writeAlias al ++ rest))) ∧
      O.args inside = some args ∧ RetMeans O (writeEnd body ++ (writeAlias al ++ rest)) ret out ∧
      (∀ ts, body = some ts → O.block ts = true) ∧ (∀ a, al = some a → O.reserved a = false)

/-- What an entry means, with the documentation and the other attributes in front of it. -/
def SrcC.Means (O : Syn Ty) (rest : List Tok) (s : SrcC) (e : CEntry Ty) : Prop :=
  DocsAndOthers O s.attrs e.docs e.unknown ∧ s.body.Means O s.priv s.prot rest e.entry

/-- A class as written. -/
structure SrcClass where
  attrs : List (List Tok)
  name : Text
  body : List SrcC

/-- Its tokens. -/
def SrcClass.write (s : SrcClass) : List Tok :=
  writeAttrs s.attrs ++ [.id kwClass, .id s.name, .grp .brace (s.body.flatMap SrcC.write)]

/-- What it means: the class which the entries make (see C02 and C25 for this second step), the documentation of the class,
and documentation and attributes of the functions in order. -/
def SrcClass.Means (O : Syn Ty) (norm : Ty → Text) (camel : Text → Text) (s : SrcClass) (d : ClassDecl Ty) : Prop :=
  O.reserved s.name = false ∧ d.name = s.name ∧
  ∃ ders es, DocsAndDerives O s.attrs d.docs ders ∧ BodyMeans SrcC.write (SrcC.Means O) s.body es ∧
    parseClass norm camel ders (es.map (·.entry)) = some d.cls ∧
    d.methodDocs = (es.filter fun e => isFunc e.entry).map (·.docs) ∧
    d.methodAttrs = (es.filter fun e => isFunc e.entry).map (·.unknown)

/-! ## Classes: proofs -/

/-- The rest does not start with `alias`. -/
def NoAlias : List Tok → Prop
  | .id n :: _ => n ≠ kwAlias
  | _ => True

theorem optKeyword_true (w : Text) (r : List Tok) : optKeyword w (.id w :: r) = (true, r) := by simp [optKeyword]

theorem optKeyword_inv (w : Text) (toks r : List Tok) (b : Bool) (h : optKeyword w toks = (b, r)) :
    toks = (if b then [.id w] else []) ++ r := by
  unfold optKeyword at h
  split at h
  · split at h
    · rename_i e; cases h; simp [e]
    · cases h; rfl
  · cases h; rfl

theorem aliasPart_inv (O : Syn Ty) (toks r : List Tok) (al : Option Text) (h : aliasPart O toks = some (al, r)) :
    toks = writeAlias al ++ r ∧ ∀ a, al = some a → O.reserved a = false := by
  unfold aliasPart at h
  split at h
  · rename_i q hk
    simp only [Option.bind_eq_bind, Option.bind_eq_some_iff, Option.pure_def] at h
    obtain ⟨⟨a, r1⟩, h1, r2, h2, h3⟩ := h
    obtain ⟨rfl, ha⟩ := (ident_iff O _ _ _).1 h1
    have := (punct_iff _ _ _).1 h2
    subst this
    simp at h3
    obtain ⟨rfl, rfl⟩ := h3
    have := optKeyword_inv _ _ _ _ hk
    subst this
    exact ⟨rfl, by simpa using ha⟩
  · rename_i q hk
    simp at h
    obtain ⟨rfl, rfl⟩ := h
    have := optKeyword_inv _ _ _ _ hk
    exact ⟨by simpa [writeAlias] using this, by simp⟩

theorem aliasPart_read (O : Syn Ty) (r : List Tok) (al : Option Text) (ha : ∀ a, al = some a → O.reserved a = false)
    (hr : NoAlias r) : aliasPart O (writeAlias al ++ r) = some (al, r) := by
  cases al with
  | some a =>
    have e1 := (ident_iff O (.id a :: .p ';' :: r) a _).2 ⟨rfl, ha a rfl⟩
    have e2 := (punct_iff ';' (.p ';' :: r) r).2 rfl
    simp only [aliasPart, writeAlias, List.cons_append, List.nil_append, optKeyword_true, e1, Option.bind_eq_bind,
      Option.bind_some, e2, Option.pure_def]
  | none =>
    have : optKeyword kwAlias r = (false, r) := by
      unfold optKeyword
      split
      · rw [if_neg hr]
      · rfl
    simp only [aliasPart, writeAlias, List.nil_append, this]

theorem funcEnd_iff (O : Syn Ty) (toks r : List Tok) (b : Bool) :
    funcEnd O toks = some (b, r) ↔ ∃ body : Option (List Tok), b = body.isSome ∧ (∀ ts, body = some ts → O.block ts = true) ∧
      toks = writeEnd body ++ r := by
  constructor
  · intro h
    unfold funcEnd at h
    split at h
    · rename_i ts q
      split at h
      · rename_i hb
        cases h
        exact ⟨some ts, rfl, by simpa using hb, rfl⟩
      · cases h
    · cases hp : punct ';' toks with
      | none => rw [hp] at h; simp at h
      | some q =>
        rw [hp] at h
        simp at h
        obtain ⟨rfl, rfl⟩ := h
        exact ⟨none, rfl, by simp, by simpa [writeEnd] using (punct_iff _ _ _).1 hp⟩
  · rintro ⟨body, rfl, hb, rfl⟩
    cases body with
    | some ts => simp [writeEnd, funcEnd, hb ts rfl]
    | none =>
      have := (punct_iff ';' (.p ';' :: r) r).2 rfl
      simp [writeEnd, funcEnd, this]

theorem noArrow_end (body : Option (List Tok)) (r : List Tok) : NoArrow (writeEnd body ++ r) := by cases body <;> trivial

theorem skipGenerics_inv (O : Syn Ty) (L : Laws O) (toks : List Tok) : ∃ g, toks = g ++ skipGenerics O toks := by
  unfold skipGenerics
  cases h : O.generics toks with
  | none => exact ⟨[], rfl⟩
  | some r =>
    rcases L.generics _ _ h with rfl | ⟨pre, e⟩
    · exact ⟨[], rfl⟩
    · exact ⟨.p '<' :: pre, by simpa using e⟩

theorem funcEntry_inv (O : Syn Ty) (L : Laws O) (priv prot : Bool) (k : Text) (toks r : List Tok) (e : Entry Ty)
    (hk : FuncWord k) (h : funcEntry O priv prot k toks = some (e, r)) :
    ∃ p g inside ret body al, SrcBody.Means O priv prot r (.func k p g inside ret body al) e ∧
      .id k :: toks = SrcBody.write (.func k p g inside ret body al) ++ r := by
  simp only [funcEntry, Option.bind_eq_bind, Option.bind_eq_some_iff, Option.pure_def] at h
  obtain ⟨⟨p, r1⟩, h1, ⟨inside, r2⟩, h2, args, h3, ⟨out, r3⟩, h4, ⟨inline, r4⟩, h5, ⟨al, r5⟩, h6, h7⟩ := h
  simp at h7
  obtain ⟨rfl, rfl⟩ := h7
  obtain ⟨hp, rfl, _⟩ := (path_iff O _ _ _).1 h1
  obtain ⟨g, hg⟩ := skipGenerics_inv O L r1
  have h2' := (group_iff _ _ _ _).1 h2
  obtain ⟨rfl, ha⟩ := aliasPart_inv O _ _ _ h6
  obtain ⟨body, rfl, hb, rfl⟩ := (funcEnd_iff O _ _ _).1 h5
  obtain ⟨ret, hr, rfl⟩ := (retType_iff O L _ _ _ (noArrow_end _ _)).1 h4
  have hsk : skipGenerics O (g ++ .grp .paren inside :: (writeRet ret ++ (writeEnd body ++ (writeAlias al ++ r5)))) =
      .grp .paren inside :: (writeRet ret ++ (writeEnd body ++ (writeAlias al ++ r5))) := by
    rw [← h2', ← hg]
  refine ⟨p, g, inside, ret, body, al, ⟨args, out, rfl, hk, hp, hsk, h3, hr, hb, ha⟩, ?_⟩
  rw [h2'] at hg
  simp [SrcBody.write, hg]

theorem noColon_generics (O : Syn Ty) (L : Laws O) (g : List Tok) (inside q : List Tok)
    (h : skipGenerics O (g ++ .grp .paren inside :: q) = .grp .paren inside :: q) : NoColon (g ++ .grp .paren inside :: q) := by
  cases g with
  | nil => trivial
  | cons t g =>
    cases t with
    | colon2 =>
      exfalso
      unfold skipGenerics at h
      rw [List.cons_append] at h
      cases e : O.generics (.colon2 :: (g ++ .grp .paren inside :: q)) with
      | none => rw [e] at h; simp at h
      | some r =>
        rw [e] at h
        rcases L.generics _ _ e with rfl | ⟨pre, e'⟩
        · simp at h
        · simp at e'
    | _ => trivial

theorem funcEntry_read (O : Syn Ty) (L : Laws O) (priv prot : Bool) (k : Text) (p : Path) (g inside : List Tok)
    (ret body : Option (List Tok)) (al : Option Text) (r : List Tok) (e : Entry Ty)
    (hm : SrcBody.Means O priv prot r (.func k p g inside ret body al) e) (hr : NoAlias r) :
    funcEntry O priv prot k (writePath p ++ (g ++ .grp .paren inside :: (writeRet ret ++ (writeEnd body ++ (writeAlias al ++ r))))) =
      some (e, r) := by
  obtain ⟨args, out, rfl, hk, hp, hsk, h3, hret, hb, ha⟩ := hm
  have e1 := (path_iff O (writePath p ++ (g ++ .grp .paren inside :: (writeRet ret ++ (writeEnd body ++ (writeAlias al ++ r))))) p _).2
    ⟨hp, rfl, noColon_generics O L _ _ _ hsk⟩
  have e2 := (group_iff .paren (.grp .paren inside :: (writeRet ret ++ (writeEnd body ++ (writeAlias al ++ r)))) _ _).2 rfl
  have e4 := (retType_iff O L (writeRet ret ++ (writeEnd body ++ (writeAlias al ++ r))) _ out (noArrow_end _ _)).2 ⟨ret, hret, rfl⟩
  have e5 := (funcEnd_iff O (writeEnd body ++ (writeAlias al ++ r)) (writeAlias al ++ r) _).2 ⟨body, rfl, hb, rfl⟩
  have e6 := aliasPart_read O r al ha hr
  simp only [funcEntry, e1, Option.bind_eq_bind, Option.bind_some, hsk, e2, h3, e4, e5, e6, Option.pure_def]

/-- A word an entry may start with. -/
def Word (w : Text) : Prop := FuncWord w ∨ w = kwSelfType ∨ w = kwForeignCode ∨ w = kwForeignerCode

theorem Word.ne {w : Text} (h : Word w) : w ≠ kwPrivate ∧ w ≠ kwProtected ∧ w ≠ kwAlias := by
  rcases h with (h | h | h | h) | h | h | h <;> subst h <;> decide

theorem kindWord_word (O : Syn Ty) (L : Laws O) (w : Text) (r : List Tok) (h : Word w) : kindWord O (.id w :: r) = some (w, r) := by
  have key : w = kwFn ∨ O.reserved w = false := by
    rcases h with (h | h | h | h) | h | h | h <;> subst h
    · exact .inr (L.words "constructor" (by simp))
    · exact .inr (L.words "method" (by simp))
    · exact .inr (L.words "static_method" (by simp))
    · exact .inl rfl
    · exact .inr (L.words "self_type" (by simp))
    · exact .inr (L.words "foreign_code" (by simp))
    · exact .inr (L.words "foreigner_code" (by simp))
  unfold kindWord
  rcases key with h | h
  · simp [h]
  · simp [h]

theorem kindWord_inv (O : Syn Ty) (toks r : List Tok) (w : Text) (h : kindWord O toks = some (w, r)) : toks = .id w :: r := by
  unfold kindWord at h
  split at h
  · split at h
    · cases h; rfl
    · split at h
      · cases h
      · cases h; rfl
  · cases h

/-- A function entry starts with one of the four words. -/
def KindOk : Entry Ty → Prop
  | .func _ _ k _ _ _ _ _ => FuncWord k
  | _ => True

theorem afterWord_inv (O : Syn Ty) (L : Laws O) (priv prot : Bool) (k : Text) (toks r : List Tok) (e : Entry Ty)
    (h : afterWord O priv prot k toks = some (e, r)) (hk : KindOk e) :
    ∃ b : SrcBody, b.Means O priv prot r e ∧ .id k :: toks = b.write ++ r := by
  unfold afterWord at h
  split at h
  · rename_i hs
    subst hs
    simp only [Option.bind_eq_bind, Option.bind_eq_some_iff, Option.pure_def] at h
    obtain ⟨⟨t, r1⟩, h1, r2, h2, h3⟩ := h
    have := (punct_iff _ _ _).1 h2
    subst this
    simp at h3
    obtain ⟨rfl, rfl⟩ := h3
    obtain ⟨pre, rfl⟩ := L.ty _ _ _ h1
    exact ⟨.selfType pre, ⟨t, rfl, h1⟩, by simp [SrcBody.write]⟩
  · split at h
    · rename_i hc
      simp only [Option.bind_eq_bind, Option.bind_eq_some_iff, Option.pure_def] at h
      obtain ⟨⟨s, r1⟩, h1, r2, h2, h3⟩ := h
      have := (punct_iff _ _ _).1 h2
      subst this
      simp at h3
      obtain ⟨rfl, rfl⟩ := h3
      have ht : toks = .str s :: .p ';' :: r2 := by
        unfold strLit at h1
        split at h1
        · cases h1; rfl
        · cases h1
      subst ht
      simp at hc
      rcases hc with hc | hc
      · exact ⟨.code true s, rfl, by simp [SrcBody.write, hc]⟩
      · exact ⟨.code false s, rfl, by simp [SrcBody.write, hc]⟩
    · split at h
      · rename_i hd
        simp at hd
        obtain ⟨rfl, hd⟩ := hd
        simp only [Option.bind_eq_bind, Option.bind_eq_some_iff, Option.pure_def] at h
        obtain ⟨r1, h1, ⟨out, r2⟩, h2, r3, h3, h4⟩ := h
        have := (punct_iff _ _ _).1 h3
        subst this
        simp at h4
        obtain ⟨rfl, rfl⟩ := h4
        have ht : toks = .p '=' :: .id kwEmpty :: r1 := by
          unfold dummyHead at h1
          split at h1
          · split at h1
            · rename_i e; cases h1; rw [e]
            · cases h1
          · cases h1
        obtain ⟨ret, hr, rfl⟩ := (retType_iff O L _ _ _ (by trivial)).1 h2
        exact ⟨.dummy ret, ⟨out, rfl, hr⟩, by simp [SrcBody.write, ht]⟩
      · have hf : FuncWord k := by
          have h' := h
          simp only [funcEntry, Option.bind_eq_bind, Option.bind_eq_some_iff, Option.pure_def] at h'
          obtain ⟨_, _, _, _, _, _, _, _, _, _, _, _, h7⟩ := h'
          simp at h7
          rw [← h7.1] at hk
          exact hk
        obtain ⟨p, g, inside, ret, body, al, hm, ht⟩ := funcEntry_inv O L priv prot k toks r e hf h
        exact ⟨_, hm, ht⟩

/-- The word a body starts with. -/
def SrcBody.word : SrcBody → Text
  | .selfType _ => kwSelfType
  | .code dep _ => if dep then kwForeignerCode else kwForeignCode
  | .dummy _ => kwConstructor
  | .func k _ _ _ _ _ _ => k

theorem word_of_means (O : Syn Ty) (priv prot : Bool) (r : List Tok) (b : SrcBody) (e : Entry Ty) (h : b.Means O priv prot r e) :
    Word b.word := by
  cases b with
  | selfType t => exact .inr (.inl rfl)
  | code dep s =>
    cases dep
    · exact .inr (.inr (.inl rfl))
    · exact .inr (.inr (.inr rfl))
  | dummy ret => exact .inl (.inl rfl)
  | func k p g inside ret body al =>
    obtain ⟨args, out, _, hk, _⟩ := h
    exact .inl hk

theorem dummyHead_path (O : Syn Ty) (p : Path) (hp : PathOk O p) (q : List Tok) : dummyHead (writePath p ++ q) = none := by
  obtain ⟨ld, l⟩ := p
  obtain ⟨h1, _⟩ := hp
  cases l with
  | nil => exact absurd rfl h1
  | cons n l => cases ld <;> cases l <;> rfl

theorem afterWord_read (O : Syn Ty) (L : Laws O) (priv prot : Bool) (r : List Tok) (b : SrcBody) (e : Entry Ty)
    (h : b.Means O priv prot r e) (hr : NoAlias r) :
    ∃ q, b.write ++ r = .id b.word :: q ∧ afterWord O priv prot b.word q = some (e, r) := by
  have ep := (punct_iff ';' (.p ';' :: r) r).2 rfl
  cases b with
  | selfType t =>
    obtain ⟨ty, rfl, h⟩ := h
    refine ⟨t ++ .p ';' :: r, by simp [SrcBody.write, SrcBody.word], ?_⟩
    simp only [afterWord, SrcBody.word, if_true, h, Option.bind_eq_bind, Option.bind_some, ep, Option.pure_def]
  | code dep s =>
    have : e = .code s := h
    subst this
    have hne1 : ¬ kwForeignCode = kwSelfType := by decide
    have hne2 : ¬ kwForeignerCode = kwSelfType := by decide
    refine ⟨.str s :: .p ';' :: r, by simp [SrcBody.write, SrcBody.word], ?_⟩
    cases dep
    · simp only [afterWord, SrcBody.word, Bool.false_eq_true, if_false, if_neg hne1, decide_true, Bool.or_true, if_true, strLit,
        Option.bind_eq_bind, Option.bind_some, ep, Option.pure_def]
    · simp only [afterWord, SrcBody.word, if_neg hne2, decide_true, Bool.true_or, if_true, strLit,
        Option.bind_eq_bind, Option.bind_some, ep, Option.pure_def]
  | dummy ret =>
    obtain ⟨out, rfl, h⟩ := h
    have hne1 : ¬ kwConstructor = kwSelfType := by decide
    have hne2 : ¬ (decide (kwConstructor = kwForeignerCode) || decide (kwConstructor = kwForeignCode)) = true := by decide
    have hd : dummyHead (.p '=' :: .id kwEmpty :: (writeRet ret ++ .p ';' :: r)) = some (writeRet ret ++ .p ';' :: r) := by
      simp [dummyHead]
    have e4 := (retType_iff O L (writeRet ret ++ .p ';' :: r) (.p ';' :: r) out (by trivial)).2 ⟨ret, h, rfl⟩
    refine ⟨.p '=' :: .id kwEmpty :: (writeRet ret ++ .p ';' :: r), by simp [SrcBody.write, SrcBody.word], ?_⟩
    simp only [afterWord, SrcBody.word, if_neg hne1, if_neg hne2, hd, Option.isSome_some, decide_true, Bool.and_true,
      Bool.false_eq_true, if_false, if_true, Option.bind_eq_bind, Option.bind_some, e4, ep, Option.pure_def]
    exact if_neg hne2
  | func k p g inside ret body al =>
    have hm := h
    obtain ⟨args, out, _, hk, hp, _⟩ := h
    have hne1 : ¬ k = kwSelfType := by
      rcases hk with h | h | h | h <;> subst h <;> decide
    have hne2 : ¬ (decide (k = kwForeignerCode) || decide (k = kwForeignCode)) = true := by
      rcases hk with h | h | h | h <;> subst h <;> decide
    refine ⟨writePath p ++ (g ++ .grp .paren inside :: (writeRet ret ++ (writeEnd body ++ (writeAlias al ++ r)))),
      by simp [SrcBody.write, SrcBody.word], ?_⟩
    have hf := funcEntry_read O L priv prot k p g inside ret body al r e hm hr
    have hd := dummyHead_path O p hp (g ++ .grp .paren inside :: (writeRet ret ++ (writeEnd body ++ (writeAlias al ++ r))))
    simp only [afterWord, SrcBody.word, if_neg hne1, if_neg hne2, hd, Option.isSome_none, Bool.and_false,
      Bool.false_eq_true, if_false, hf]
    exact if_neg hne2

theorem flags_read (priv prot : Bool) (w : Text) (q : List Tok) (hw : Word w) :
    ∃ r1, optKeyword kwPrivate (writeFlags priv prot ++ .id w :: q) = (priv, r1) ∧ optKeyword kwProtected r1 = (prot, .id w :: q) := by
  obtain ⟨h1, h2, _⟩ := hw.ne
  have hne : ¬ kwProtected = kwPrivate := by decide
  cases priv <;> cases prot
  · exact ⟨.id w :: q, by simp [writeFlags, optKeyword, h1], by simp [optKeyword, h2]⟩
  · exact ⟨.id kwProtected :: .id w :: q, by simp [writeFlags, optKeyword, hne], by simp [optKeyword]⟩
  · exact ⟨.id w :: q, by simp [writeFlags, optKeyword], by simp [optKeyword, h2]⟩
  · exact ⟨.id kwProtected :: .id w :: q, by simp [writeFlags, optKeyword], by simp [optKeyword]⟩

theorem flags_noHash (priv prot : Bool) (w : Text) (q : List Tok) : NoHash (writeFlags priv prot ++ .id w :: q) := by
  cases priv <;> cases prot <;> trivial

theorem classEntry_inv (O : Syn Ty) (L : Laws O) (toks r : List Tok) (e : CEntry Ty) (h : classEntry O toks = some (e, r))
    (hk : KindOk e.entry) : ∃ s : SrcC, s.Means O r e ∧ toks = s.write ++ r := by
  simp only [classEntry, Option.bind_eq_bind, Option.bind_eq_some_iff, Option.pure_def] at h
  obtain ⟨⟨a, r1⟩, h1, ⟨k, r3⟩, h3, ⟨en, r4⟩, h4, h5⟩ := h
  simp at h5
  obtain ⟨rfl, rfl⟩ := h5
  generalize hp : optKeyword kwPrivate r1 = x at h3 h4
  obtain ⟨priv, r2⟩ := x
  generalize hq : optKeyword kwProtected r2 = y at h3 h4
  obtain ⟨prot, r2'⟩ := y
  simp only at h3 h4
  have e1 := optKeyword_inv _ _ _ _ hp
  have e2 := optKeyword_inv _ _ _ _ hq
  have e3 := kindWord_inv O _ _ _ h3
  subst e3
  subst e2
  have e1' : r1 = writeFlags priv prot ++ .id k :: r3 := by simp [writeFlags, e1]
  subst e1'
  obtain ⟨as, ms, c, rfl, _, rfl⟩ := (attrs_iff O _ _ _ _ (flags_noHash _ _ _ _)).1 h1
  obtain ⟨b, hb, ht⟩ := afterWord_inv O L priv prot k r3 _ _ h4 hk
  exact ⟨⟨as, priv, prot, b⟩, ⟨(docsAndOthers_iff O as _ _).1 ⟨ms, c, rfl, rfl⟩, hb⟩, by simp [SrcC.write, ht]⟩

theorem classEntry_read (O : Syn Ty) (L : Laws O) (r : List Tok) (s : SrcC) (e : CEntry Ty) (h : s.Means O r e) (hr : NoAlias r) :
    classEntry O (s.write ++ r) = some (e, r) := by
  obtain ⟨as, priv, prot, b⟩ := s
  obtain ⟨en, docs, unk⟩ := e
  obtain ⟨ha, hb⟩ := h
  obtain ⟨ms, c, rfl, rfl⟩ := (docsAndOthers_iff O as _ _).2 ha
  obtain ⟨q, hq, h4⟩ := afterWord_read O L priv prot r b en hb hr
  have hw := word_of_means O priv prot r b en hb
  obtain ⟨r1, f1, f2⟩ := flags_read priv prot b.word q hw
  have e1 := (attrs_iff O ⟨false, true⟩ (writeAttrs as ++ (writeFlags priv prot ++ .id b.word :: q)) _ _ (flags_noHash _ _ _ _)).2
    ⟨as, ms, c, rfl, fun m _ => allowed_all O m, rfl⟩
  have e0 : SrcC.write ⟨as, priv, prot, b⟩ ++ r = writeAttrs as ++ (writeFlags priv prot ++ .id b.word :: q) := by
    simp [SrcC.write, hq]
  rw [e0]
  simp only [classEntry, e1, Option.bind_eq_bind, Option.bind_some, f1, f2, kindWord_word O L b.word q hw, h4, Option.pure_def]

theorem noAlias_write (O : Syn Ty) (ss : List SrcC) (es : List (CEntry Ty)) (h : BodyMeans SrcC.write (SrcC.Means O) ss es) :
    NoAlias (ss.flatMap SrcC.write) := by
  cases h with
  | nil => trivial
  | @cons s e ss es hm _ =>
    obtain ⟨as, priv, prot, b⟩ := s
    have hw := (word_of_means O priv prot _ b _ hm.2).ne.2.2
    have hb : ∃ q, b.write = .id b.word :: q := by cases b <;> exact ⟨_, rfl⟩
    obtain ⟨q, hb⟩ := hb
    cases as with
    | cons a as => trivial
    | nil =>
      rw [List.flatMap_cons]
      simp only [SrcC.write, hb]
      have h1 : kwPrivate ≠ kwAlias := by decide
      have h2 : kwProtected ≠ kwAlias := by decide
      cases priv <;> cases prot <;> simp [writeAttrs, writeFlags, NoAlias, hw, h1, h2]

theorem SrcC.write_ne (s : SrcC) : s.write ≠ [] := by
  obtain ⟨as, priv, prot, b⟩ := s
  cases b <;> simp [SrcC.write, SrcBody.write]

theorem class_body_inv (O : Syn Ty) (L : Laws O) (toks : List Tok) (es : List (CEntry Ty))
    (h : Reads (classEntry O) toks es) (hk : ∀ e ∈ es, KindOk e.entry) :
    ∃ ss, BodyMeans SrcC.write (SrcC.Means O) ss es ∧ toks = ss.flatMap SrcC.write := by
  induction h with
  | nil => exact ⟨[], .nil, rfl⟩
  | @cons toks r x xs hx _ ih =>
    obtain ⟨ss, a, rfl⟩ := ih fun e he => hk e (by simp [he])
    obtain ⟨s, b, rfl⟩ := classEntry_inv O L _ _ _ hx (hk x (by simp))
    exact ⟨s :: ss, .cons b a, by simp⟩

theorem class_body_read (O : Syn Ty) (L : Laws O) (ss : List SrcC) (es : List (CEntry Ty))
    (h : BodyMeans SrcC.write (SrcC.Means O) ss es) (n : Nat) (hn : (ss.flatMap SrcC.write).length ≤ n) :
    many (classEntry O) n (ss.flatMap SrcC.write) = some es := by
  induction h generalizing n with
  | nil => cases n <;> rfl
  | @cons s e ss es hm hb ih =>
    have hc := classEntry_read O L _ s e hm (noAlias_write O ss es hb)
    rw [List.flatMap_cons] at hn ⊢
    have hp := List.length_pos_iff.2 s.write_ne
    cases n with
    | zero => rw [List.length_append] at hn; omega
    | succ n =>
      have := ih n (by rw [List.length_append] at hn; omega)
      cases hw : s.write ++ ss.flatMap SrcC.write with
      | nil => rw [hw] at hc; simp at hw; exact absurd hw.1 s.write_ne
      | cons t ts =>
        rw [hw] at hc
        rw [many, hc]
        simp [this]

theorem kindVariant_word {k : Text} {args : List (SynArg Ty)} {v : Variant} (h : kindVariant k args = some v) : FuncWord k := by
  unfold kindVariant at h
  split at h
  · rename_i e; exact .inl e
  · split at h
    · rename_i e; exact .inr (.inr (.inl e))
    · split at h
      · rename_i e; exact .inr (.inl e)
      · split at h
        · rename_i e; exact .inr (.inr (.inr e))
        · cases h

theorem step_kind (norm : Ty → Text) (s s' : St Ty) (e : Entry Ty) (h : step norm s e = some s') : KindOk e := by
  cases e with
  | func priv prot k path args out inline al =>
    simp only [step] at h
    split at h
    · cases h
    · simp only [Option.bind_eq_bind, Option.bind_eq_some_iff] at h
      obtain ⟨v, hv, _⟩ := h
      exact kindVariant_word hv
  | _ => trivial

theorem run_kind (norm : Ty → Text) (es : List (Entry Ty)) (s s' : St Ty) (h : run norm s es = some s') : ∀ e ∈ es, KindOk e := by
  induction es generalizing s with
  | nil => simp
  | cons e es ih =>
    rw [run] at h
    obtain ⟨s1, h1, h2⟩ := Option.bind_eq_some_iff.1 h
    intro x hx
    rcases List.mem_cons.1 hx with rfl | hx
    · exact step_kind norm _ _ _ h1
    · exact ih s1 h2 x hx

theorem parseClass_kind (norm : Ty → Text) (camel : Text → Text) (ders : List Text) (es : List (Entry Ty)) (c : Class Ty)
    (h : parseClass norm camel ders es = some c) : ∀ e ∈ es, KindOk e := by
  unfold parseClass at h
  simp only [Option.bind_eq_bind, Option.bind_eq_some_iff] at h
  obtain ⟨s, h1, _⟩ := h
  exact run_kind norm es _ _ h1

/-- **C75**: a `foreign_class!` is accepted exactly if it has the written form and its entries make a class (C02, C25), in
every target language alike; the documentation of the class, and the documentation and other attributes of each function, are
handed on in the order written. -/
theorem C75_class (O : Syn Ty) (L : Laws O) (norm : Ty → Text) (camel : Text → Text) (toks : List Tok) (d : ClassDecl Ty) :
    parseClassDecl O norm camel toks = some d ↔ ∃ s : SrcClass, s.Means O norm camel d ∧ toks = s.write := by
  constructor
  · intro h
    simp only [parseClassDecl, Option.bind_eq_bind, Option.bind_eq_some_iff, Option.pure_def] at h
    obtain ⟨⟨a, r1⟩, h1, r2, h2, ⟨name, r3⟩, h3, ⟨body, r4⟩, h4, es, h5, c, h6, h7⟩ := h
    have := (keyword_iff _ _ _).1 h2
    subst this
    obtain ⟨rfl, hn⟩ := (ident_iff O _ _ _).1 h3
    have := (group_iff _ _ _ _).1 h4
    subst this
    cases r4 with
    | cons t r => simp at h7
    | nil =>
      simp at h7
      subst h7
      obtain ⟨as, ms, hc, rfl, he, rfl⟩ := (attrs_iff O _ _ _ _ (noHash_id _ _)).1 h1
      have hk := parseClass_kind norm camel _ _ _ h6
      obtain ⟨ss, g, rfl⟩ := class_body_inv O L _ _ (many_inv _ _ _ _ h5) fun e he => hk _ (List.mem_map.2 ⟨e, he, rfl⟩)
      exact ⟨⟨as, name, ss⟩, ⟨hn, rfl, _, es, (docsAndDerives_iff O as _ _).1 ⟨ms, hc, he, rfl, rfl⟩, g, h6, rfl, rfl⟩, rfl⟩
  · rintro ⟨⟨as, sname, ss⟩, ⟨hn, hd, ders, es, ha, g, hcls, hmd, hma⟩, rfl⟩
    obtain ⟨name, docs, cls, mdocs, mattrs⟩ := d
    simp only at hn hd ha g hcls hmd hma
    subst hd hmd hma
    obtain ⟨ms, c, e, rfl, rfl⟩ := (docsAndDerives_iff O as _ _).2 ha
    have e1 := (attrs_iff O ⟨true, false⟩ (writeAttrs as ++ .id kwClass :: .id name :: [.grp .brace (ss.flatMap SrcC.write)])
      _ _ (noHash_id _ _)).2 ⟨as, ms, c, rfl, e, rfl⟩
    have e2 := (keyword_iff kwClass (.id kwClass :: .id name :: [.grp .brace (ss.flatMap SrcC.write)]) _).2 rfl
    have e3 := (ident_iff O (.id name :: [.grp .brace (ss.flatMap SrcC.write)]) name _).2 ⟨rfl, hn⟩
    have e4 := (group_iff .brace [.grp .brace (ss.flatMap SrcC.write)] _ _).2 rfl
    have e5 := class_body_read O L ss es g _ (Nat.le_refl _)
    have e0 : SrcClass.write ⟨as, name, ss⟩ = writeAttrs as ++ .id kwClass :: .id name :: [.grp .brace (ss.flatMap SrcC.write)] :=
      rfl
    rw [e0]
    simp only [parseClassDecl, e1, Option.bind_eq_bind, Option.bind_some, e2, e3, e4, e5, hcls, Option.pure_def]

theorem matchesAll_length {es} {ms : List (Method Ty)} (h : MatchesAll es ms) : es.length = ms.length := by
  induction h with
  | nil => rfl
  | cons _ _ ih => simp [ih]

theorem entryMethod_some (e : Entry Ty) : (EntryMethod e).isSome = isFunc e := by cases e <;> rfl

theorem length_filterMap_method (es : List (CEntry Ty)) :
    ((es.map (·.entry)).filterMap EntryMethod).length = (es.filter fun e => isFunc e.entry).length := by
  induction es with
  | nil => rfl
  | cons e es ih =>
    have := entryMethod_some e.entry
    cases hm : EntryMethod e.entry with
    | none =>
      rw [hm] at this
      have h : isFunc e.entry = false := this.symm
      rw [List.filter_cons_of_neg (by simp [h]), List.map_cons, List.filterMap_cons_none hm, ih]
    | some x =>
      rw [hm] at this
      have h : isFunc e.entry = true := this.symm
      rw [List.filter_cons_of_pos (p := fun e : CEntry Ty => isFunc e.entry) h, List.map_cons, List.filterMap_cons_some hm, List.length_cons, List.length_cons, ih]

/-- **C75**: in an accepted class there is, for every function, exactly one list of documentation lines and one of other
attributes, so the `i`-th belongs to the `i`-th function. -/
theorem C75_method_docs (O : Syn Ty) (L : Laws O) (norm : Ty → Text) (camel : Text → Text) (toks : List Tok) (d : ClassDecl Ty)
    (h : parseClassDecl O norm camel toks = some d) :
    d.methodDocs.length = d.cls.methods.length ∧ d.methodAttrs.length = d.cls.methods.length := by
  obtain ⟨s, ⟨_, _, ders, es, _, _, hc, h1, h2⟩, _⟩ := (C75_class O L norm camel toks d).1 h
  have := matchesAll_length (C02_methods_in_order norm camel ders _ _ hc)
  rw [length_filterMap_method] at this
  simp [h1, h2, this]

/-- The last token of an item is the comma. -/
theorem items_last (ss : List SrcItem) (t : Tok) (h : (ss.flatMap SrcItem.write).getLast? = some t) : t = .p ',' := by
  induction ss with
  | nil => simp at h
  | cons s ss ih =>
    rw [List.flatMap_cons, List.getLast?_append] at h
    cases hl : (ss.flatMap SrcItem.write).getLast? with
    | some x => rw [hl] at h; simp at h; subst h; exact ih hl
    | none =>
      rw [hl] at h
      have : s.write.getLast? = some (.p ',') := by
        unfold SrcItem.write
        rw [← List.cons_append, ← List.append_assoc, List.getLast?_concat]
      rw [this] at h
      simp at h
      exact h.symm

/-- **C75 (finding)**: the comma after the last item of an enum is not optional: an enum whose (non-empty) body does not end in
a comma is always rejected. -/
theorem C75_finding_last_comma (O : Syn Ty) (as : List (List Tok)) (n : Text) (body : List Tok) (t : Tok)
    (hb : body.getLast? = some t) (ht : t ≠ .p ',') :
    parseEnum O (writeAttrs as ++ [.id kwEnum, .id n, .grp .brace body]) = none := by
  cases h : parseEnum O (writeAttrs as ++ [.id kwEnum, .id n, .grp .brace body]) with
  | none => rfl
  | some d =>
    exfalso
    obtain ⟨s, _, e⟩ := (C75_enum O _ d).1 h
    have h1 := congrArg List.getLast? e
    simp [SrcEnum.write] at h1
    exact ht (items_last s.items t (by rw [← h1]; exact hb))

/-- **C75**: nothing may follow the closing brace, and a declaration that is not one of the three forms is refused. -/
theorem C75_nothing_left (O : Syn Ty) (L : Laws O) (norm : Ty → Text) (camel : Text → Text) (toks : List Tok)
    (h : (parseEnum O toks).isSome ∨ (parseInterface O toks).isSome ∨ (parseClassDecl O norm camel toks).isSome) :
    ∃ body, toks.getLast? = some (.grp .brace body) := by
  rcases h with h | h | h
  · obtain ⟨d, h⟩ := Option.isSome_iff_exists.1 h
    obtain ⟨s, _, rfl⟩ := (C75_enum O _ d).1 h
    exact ⟨_, by simp [SrcEnum.write]; rfl⟩
  · obtain ⟨d, h⟩ := Option.isSome_iff_exists.1 h
    obtain ⟨s, _, rfl⟩ := (C75_interface O L _ d).1 h
    exact ⟨_, by simp [SrcInterface.write]; rfl⟩
  · obtain ⟨d, h⟩ := Option.isSome_iff_exists.1 h
    obtain ⟨s, _, rfl⟩ := (C75_class O L norm camel _ d).1 h
    exact ⟨_, by simp [SrcClass.write]; rfl⟩

/-- May the attribute stand there? -/
def MayStand (O : Syn Ty) (f : Flags) : Meta → Prop
  | .doc _ => True
  | .derive args _ => if f.derive then ∃ l, DeriveList O args l else f.unknown = true
  | .other _ => f.unknown = true

/-- **C75**: an attribute other than documentation (and, before a class or enum, a derive list) is refused in front of an enum,
an enum item, an interface and its entries; in front of a class function it is kept. -/
theorem C75_attributes (O : Syn Ty) (as : List (List Tok)) (w : Text) (r : List Tok) (f : Flags) (a : Attrs) :
    attrs O f (writeAttrs as ++ .id w :: r) = some (a, .id w :: r) ↔
      ∃ ms : List Meta, as.map O.metaOf = ms.map some ∧ a.docs = ms.flatMap docOf ∧
        (∀ m ∈ ms, MayStand O f m) ∧
        a.derives = ms.flatMap (derivesOf O f) ∧ a.unknown = ms.flatMap (unknownOf f) := by
  have key : ∀ m : Meta, allowed O f m = true ↔ MayStand O f m := by
    intro m
    cases m with
    | doc s => simp [allowed, MayStand]
    | derive args t =>
      simp only [allowed, MayStand]
      by_cases hd : f.derive = true
      · simp only [hd, if_true, Option.isSome_iff_exists]
        constructor
        · rintro ⟨l, hl⟩; exact ⟨l, (idents_iff O args l).1 hl⟩
        · rintro ⟨l, hl⟩; exact ⟨l, (idents_iff O args l).2 hl⟩
      · simp only [hd, Bool.false_eq_true, if_false]
    | other t => simp [allowed, MayStand]
  constructor
  · intro h
    obtain ⟨as', ms, c, e, g, rfl⟩ := (attrs_iff O f _ _ a (noHash_id _ _)).1 h
    have : as' = as := by
      have : ∀ (x y : List (List Tok)) (q : List Tok), writeAttrs x ++ .id w :: q = writeAttrs y ++ .id w :: q → x = y := by
        intro x
        induction x with
        | nil => intro y q h; cases y with
          | nil => rfl
          | cons _ _ => simp [writeAttrs] at h
        | cons b x ih => intro y q h; cases y with
          | nil => simp [writeAttrs] at h
          | cons d y =>
            simp [writeAttrs] at h
            have := ih y q (by simpa [writeAttrs] using h.2)
            rw [h.1, this]
      exact this _ _ _ e.symm
    subst this
    exact ⟨ms, c, rfl, fun m hm => (key m).1 (g m hm), rfl, rfl⟩
  · rintro ⟨ms, c, h1, h2, h3, h4⟩
    refine (attrs_iff O f _ _ a (noHash_id _ _)).2 ⟨as, ms, c, rfl, fun m hm => (key m).2 (h2 m hm), ?_⟩
    obtain ⟨x, y, z⟩ := a
    simp only at h1 h3 h4
    rw [h1, h3, h4]

/-! ## A concrete language: types are single names -/

/-- Bounds `A + B + ..` of single names. -/
def exBounds : List Tok → Option (List Bound × List Tok)
  | .id n :: .p '+' :: r => (exBounds r).map fun x => (.trait (some n) n :: x.1, x.2)
  | .id n :: r => some ([.trait (some n) n], r)
  | _ => none

/-- A small instance of what is left to `syn`. -/
def exSyn : Syn Text where
  reserved n := n = "fn".toList || n = "enum".toList || n = "_".toList
  metaOf ts :=
    match ts with
    | [.id _, .p '=', .str s] => some (.doc s)
    | [.id _, .grp .paren args] => some (.derive args "derive".toList)
    | [.id n] => some (.other n)
    | _ => none
  ty ts :=
    match ts with
    | .id n :: r => some (n, r)
    | _ => none
  bounds := exBounds
  args ts :=
    match ts with
    | [] => some []
    | [.p '&', .id _] => some [.receiver true false]
    | [.id x, .p ':', .id t] => some [.typed (.ident x) t]
    | [.p '&', .id _, .p ',', .id x, .p ':', .id t] => some [.receiver true false, .typed (.ident x) t]
    | _ => none
  generics ts := some ts
  block _ := true

theorem exBounds_prefix : ∀ toks t r, exBounds toks = some (t, r) → ∃ pre, toks = pre ++ r := by
  intro toks
  induction toks using exBounds.induct with
  | case1 n r ih =>
    intro t q h
    rw [exBounds] at h
    cases hb : exBounds r with
    | none => rw [hb] at h; simp at h
    | some x =>
      rw [hb] at h
      simp at h
      obtain ⟨pre, e⟩ := ih x.1 x.2 hb
      exact ⟨.id n :: .p '+' :: pre, by rw [← h.2]; simp [← e]⟩
  | case2 n r hr =>
    intro t q h
    rw [exBounds] at h
    · simp at h; exact ⟨[.id n], by simp [h.2]⟩
    · exact hr
  | case3 t h1 h2 =>
    intro x q h
    unfold exBounds at h
    split at h
    · exact absurd rfl (h1 _ _)
    · exact absurd rfl (h2 _ _)
    · cases h

/-- The assumptions about `syn` are met by it. -/
theorem exLaws : Laws exSyn where
  ty toks t r h := by
    simp only [exSyn] at h
    split at h
    · rename_i n q; simp at h; exact ⟨[.id n], by simp [h.2]⟩
    · cases h
  bounds := exBounds_prefix
  generics toks r h := by
    simp only [exSyn] at h
    exact .inl (Option.some.inj h).symm
  words := by decide

/-- `/// a` `#[derive(Clone, Copy)]` `enum E { /// x` `X, Y = m::Z, }`. -/
def exEnum : List Tok :=
  [.p '#', .grp .bracket [.id "doc".toList, .p '=', .str "a".toList],
   .p '#', .grp .bracket [.id "derive".toList, .grp .paren [.id "Clone".toList, .p ',', .id "Copy".toList]],
   .id "enum".toList, .id "E".toList,
   .grp .brace [.p '#', .grp .bracket [.id "doc".toList, .p '=', .str "x".toList], .id "X".toList, .p ',',
     .id "Y".toList, .p '=', .id "m".toList, .colon2, .id "Z".toList, .p ',']]

example : parseEnum exSyn exEnum = some ⟨"E".toList,
    [⟨"X".toList, ⟨false, ["E".toList, "X".toList]⟩, ["x".toList]⟩, ⟨"Y".toList, ⟨false, ["m".toList, "Z".toList]⟩, []⟩],
    ["a".toList], ["Clone".toList, "Copy".toList]⟩ := by decide

/-- `interface I { self_type A; f = A::f(&self) -> T; self_type B + Send; f = A::g(&self, x: T); }`. -/
def exInterface : List Tok :=
  [.id "interface".toList, .id "I".toList,
   .grp .brace [.id "self_type".toList, .id "A".toList, .p ';',
     .id "f".toList, .p '=', .id "A".toList, .colon2, .id "f".toList, .grp .paren [.p '&', .id "self".toList], .arrow,
     .id "T".toList, .p ';',
     .id "self_type".toList, .id "B".toList, .p '+', .id "Send".toList, .p ';',
     .id "f".toList, .p '=', .id "A".toList, .colon2, .id "g".toList,
     .grp .paren [.p '&', .id "self".toList, .p ',', .id "x".toList, .p ':', .id "T".toList], .p ';']]

/-- **C75 (finding)**: a second `self_type` silently replaces the first, and two methods of an interface may have the same
name: neither is reported. -/
theorem C75_finding_interface_repeats : parseInterface exSyn exInterface = some ⟨"I".toList,
    [.trait (some "B".toList) "B".toList, .trait (some "Send".toList) "Send".toList],
    [⟨"f".toList, ⟨false, ["A".toList, "f".toList]⟩, [.selfArg .rptr], some "T".toList, []⟩,
     ⟨"f".toList, ⟨false, ["A".toList, "g".toList]⟩, [.selfArg .rptr, .named "x".toList "T".toList], none, []⟩], []⟩ := by
  decide

/-- Without `self_type` an interface is refused, and so is a method without self argument. -/
example : parseInterface exSyn [.id "callback".toList, .id "I".toList, .grp .brace []] = none ∧
    parseInterface exSyn [.id "callback".toList, .id "I".toList, .grp .brace [.id "self_type".toList, .id "A".toList, .p ';',
      .id "f".toList, .p '=', .id "f".toList, .grp .paren [], .p ';']] = none := by decide

/-- `/// c` `class Foo { self_type Foo; /// new` `constructor Foo::new() -> Foo; #[cfg]` `private fn Foo::f(&self); alias g; }`. -/
def exClass : List Tok :=
  [.p '#', .grp .bracket [.id "doc".toList, .p '=', .str "c".toList],
   .id "class".toList, .id "Foo".toList,
   .grp .brace [.p '#', .grp .bracket [.id "doc".toList, .p '=', .str "lost".toList],
     .id "self_type".toList, .id "Foo".toList, .p ';',
     .p '#', .grp .bracket [.id "doc".toList, .p '=', .str "new".toList],
     .id "constructor".toList, .id "Foo".toList, .colon2, .id "new".toList, .grp .paren [], .arrow, .id "Foo".toList, .p ';',
     .p '#', .grp .bracket [.id "cfg".toList],
     .id "private".toList, .id "fn".toList, .id "Foo".toList, .colon2, .id "f".toList,
     .grp .paren [.p '&', .id "self".toList], .p ';', .id "alias".toList, .id "g".toList, .p ';']]

/-- **C75 (finding)**: documentation written in front of `self_type` is accepted and lost. -/
theorem C75_finding_lost_docs : ∃ d, parseClassDecl exSyn id id exClass = some d ∧ d.name = "Foo".toList ∧
    d.docs = ["c".toList] ∧ d.methodDocs = [["new".toList], []] ∧ d.methodAttrs = [[], ["cfg".toList]] ∧
    d.cls.methods.map Method.shortName = ["new".toList, "g".toList] ∧ d.cls.methods.map (·.access) = [.pub, .priv] := by
  refine ⟨_, rfl, ?_⟩
  decide

end Flapi.TokenParse
