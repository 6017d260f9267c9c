import Verif.Cpp.AliasNames
/-!
# Every instantiation of a generic rule has C types of its own (C56)
-/
namespace Flapi.Alias

/-! ## Specification -/

/-- No type of the user's own inside. -/
def NoUser : IT → Prop
  | .leaf _ => True
  | .user _ => False
  | .un _ a => NoUser a
  | .bin _ a b => NoUser a ∧ NoUser b
  | .triple a b c => NoUser a ∧ NoUser b ∧ NoUser c

/-! ## The escaped name, piece by piece -/

/-- Pieces of a text: `none` = the text `:: std :: os :: raw ::`. -/
def render (l : List (Option Char)) : Text := l.flatMap fun o => match o with
  | some c => [c]
  | none => osRaw

def lit (s : Text) : List (Option Char) := s.map some

/-- A pattern with a character that a text does not have leaves it alone. -/
theorem repl_none (pat : Text) (q : Char) (hq : q ∈ pat) (s : Text) (hs : q ∉ s) (m : Bool) : repl pat [] [] m 0 s = s := by
  have hp : pat ≠ [] := by intro e; rw [e] at hq; cases hq
  induction s with
  | nil => rw [repl, if_neg hp]
  | cons c s ih =>
    have h1 : ¬ pat.isPrefixOf (c :: s) = true := by
      rw [List.isPrefixOf_iff_prefix]
      intro h
      exact hs (h.subset hq)
    rw [repl, if_neg h1, ih (fun h => hs (by simp [h]))]

theorem osRaw_eq : osRaw = ':' :: osRaw.tail := rfl

theorem repl_render (l : List (Option Char)) (hl : ∀ c, some c ∈ l → c ≠ ':') (m : Bool) : repl osRaw [] [] m 0 (render l) = l.filterMap id := by
  induction l generalizing m with
  | nil => rfl
  | cons o l ih =>
    have ih' := fun m => ih (fun c hc => hl c (by simp [hc])) m
    cases o with
    | some c =>
      have hc := hl c (by simp)
      show repl osRaw [] [] m 0 (c :: render l) = _
      have h1 : osRaw.isPrefixOf (c :: render l) = false := by
        rw [osRaw_eq]
        simp [List.isPrefixOf, Ne.symm hc]
      rw [repl, if_neg (by rw [h1]; simp), ih']
      rfl
    | none =>
      show repl osRaw [] [] m 0 (osRaw ++ render l) = _
      rw [show (none :: l : List (Option Char)).filterMap id = l.filterMap id from rfl]
      rw [← ih' true]
      rw [repl_match _ _ _ (by simp [osRaw])]
      simp

/-- What becomes of the pieces. -/
def E (l : List (Option Char)) : Text := (l.filterMap id).flatMap escChar

theorem E_append (l m : List (Option Char)) : E (l ++ m) = E l ++ E m := by simp [E]

theorem render_append (l m : List (Option Char)) : render (l ++ m) = render l ++ render m := by simp [render]

theorem render_lit (s : Text) : render (lit s) = s := by
  induction s with
  | nil => rfl
  | cons c s ih => show c :: render (lit s) = _; rw [ih]

theorem lit_append (s t : Text) : lit (s ++ t) = lit s ++ lit t := by simp [lit]

def Plain (l : List (Option Char)) : Prop := ∀ c, some c ∈ l → c ≠ ':'

theorem plain_append {l m : List (Option Char)} (h1 : Plain l) (h2 : Plain m) : Plain (l ++ m) := by
  intro c hc
  rw [List.mem_append] at hc
  exact hc.elim (h1 c) (h2 c)

theorem plain_lit {s : Text} (h : ':' ∉ s) : Plain (lit s) := by
  intro c hc e
  subst e
  simp [lit] at hc
  exact h hc

theorem escape_render (l : List (Option Char)) (hl : Plain l) : escape (render l) = E l := by
  unfold escape E
  rw [strReplace_eq_repl (render l) osRaw [] (by simp [osRaw]), repl_render l hl, strReplace_eq_repl _ _ _ (by simp [osRaw2]), repl_none _ ':' (by decide)]
  intro h
  rw [List.mem_filterMap] at h
  obtain ⟨o, ho, e⟩ := h
  cases o with
  | none => cases e
  | some c => simp at e; subst e; exact hl _ ho rfl

/-- Characters of names. -/
def NameChar (c : Char) : Prop := (isAlnum c = true ∨ c = '_')

theorem digit_nameChar {c : Char} (h : c.isDigit = true) : NameChar c := by
  left
  unfold Char.isDigit at h
  unfold isAlnum
  simp only [ge_iff_le, Bool.and_eq_true, decide_eq_true_eq] at h ⊢
  exact .inr (.inr h)

theorem escChar_name (d c : Char) (h : c ∈ escChar d) : NameChar c := by
  unfold escChar at h
  split at h
  · rename_i hd
    rw [List.mem_singleton] at h
    subst h
    exact hd
  · exact digit_nameChar (dec_isDigit h)

theorem E_name (l : List (Option Char)) (c : Char) (h : c ∈ E l) : NameChar c := by
  unfold E at h
  rw [List.mem_flatMap] at h
  obtain ⟨d, _, hd⟩ := h
  exact escChar_name d c hd

theorem colon_not_name : ¬ NameChar ':' := by unfold NameChar; decide

theorem E_lit_name (s : Text) (h : ∀ c ∈ s, NameChar c) : E (lit s) = s := by
  induction s with
  | nil => rfl
  | cons c s ih =>
    show escChar c ++ E (lit s) = _
    rw [ih (fun d hd => h d (by simp [hd]))]
    have hc : isAlnum c = true ∨ c = '_' := h c (by simp)
    unfold escChar
    rw [if_pos hc]
    rfl

theorem E_E (l : List (Option Char)) : E (lit (E l)) = E l := E_lit_name _ (E_name l)

/-! ## The name of a type -/

def leafSegs : Leaf → List (Option Char)
  | .cChar => none :: lit " c_char".toList | .cShort => none :: lit " c_short".toList | .cUshort => none :: lit " c_ushort".toList
  | .cInt => none :: lit " c_int".toList | .cUint => none :: lit " c_uint".toList | .cLong => none :: lit " c_long".toList
  | .cVoid => none :: lit " c_void".toList
  | l => lit l.text

def segs : IT → List (Option Char)
  | .leaf l => leafSegs l
  | .user n => lit n
  | .un k a =>
    match k with
    | .constPtr => lit k.keyword ++ segs a
    | .mutPtr => lit k.keyword ++ segs a
    | _ => lit (E (lit k.keyword ++ segs a))
  | .bin k a b => lit (E (lit k.keyword ++ segs a ++ segs b))
  | .triple a b c => lit (E (lit "CRustTuple3".toList ++ segs a ++ segs b ++ segs c))

def code (t : IT) : Text := E (segs t)

theorem alias_eq (l : List (Option Char)) (hl : Plain l) (parts : List Text) (hp : parts.flatten = render l) : aliasName parts = E l := by
  unfold aliasName concatIdents
  rw [hp, escape_render l hl]

theorem plain_E (l : List (Option Char)) : Plain (lit (E l)) := plain_lit fun h => colon_not_name (E_name l _ h)

theorem display_eq (t : IT) (h : NoUser t) : t.display = render (segs t) ∧ Plain (segs t) := by
  induction t with
  | leaf l =>
    constructor
    · cases l <;> first | rfl | exact (render_lit _).symm
    · intro c hc e
      subst e
      revert hc
      show ¬ some ':' ∈ leafSegs l
      cases l <;> decide
  | user n => exact h.elim
  | un k a ih =>
    obtain ⟨h1, h2⟩ := ih h
    have hk : Plain (lit k.keyword) := plain_lit (by cases k <;> decide)
    have hp : Plain (lit k.keyword ++ segs a) := plain_append hk h2
    have hr : [k.keyword, a.display].flatten = render (lit k.keyword ++ segs a) := by
      rw [render_append, render_lit, h1]; simp
    cases k with
    | constPtr => exact ⟨by simp only [IT.display, segs, render_append, render_lit, h1], hp⟩
    | mutPtr => exact ⟨by simp only [IT.display, segs, render_append, render_lit, h1], hp⟩
    | option => exact ⟨by simp only [IT.display, segs, render_lit]; exact alias_eq _ hp _ hr, plain_E _⟩
    | voidRes => exact ⟨by simp only [IT.display, segs, render_lit]; exact alias_eq _ hp _ hr, plain_E _⟩
    | slice => exact ⟨by simp only [IT.display, segs, render_lit]; exact alias_eq _ hp _ hr, plain_E _⟩
    | sliceMut => exact ⟨by simp only [IT.display, segs, render_lit]; exact alias_eq _ hp _ hr, plain_E _⟩
    | vec => exact ⟨by simp only [IT.display, segs, render_lit]; exact alias_eq _ hp _ hr, plain_E _⟩
  | bin k a b iha ihb =>
    obtain ⟨h1, h2⟩ := iha h.1
    obtain ⟨h3, h4⟩ := ihb h.2
    refine ⟨?_, plain_E _⟩
    simp only [IT.display, segs, render_lit]
    exact alias_eq _ (plain_append (plain_append (plain_lit (by cases k <;> decide)) h2) h4) _ (by
      rw [render_append, render_append, render_lit, h1, h3]; simp)
  | triple a b c iha ihb ihc =>
    obtain ⟨h1, h2⟩ := iha h.1
    obtain ⟨h3, h4⟩ := ihb h.2.1
    obtain ⟨h5, h6⟩ := ihc h.2.2
    refine ⟨?_, plain_E _⟩
    simp only [IT.display, segs, render_lit]
    exact alias_eq _ (plain_append (plain_append (plain_append (plain_lit (by decide)) h2) h4) h6) _ (by
      rw [render_append, render_append, render_append, render_lit, h1, h3, h5]; simp)

/-- Beginnings of names. -/
inductive Head where
  | leaf (l : Leaf)
  | un (k : Un)
  | bin (k : Bin)
  | triple
  | optionUnion | voidResUnion | resUnion
  deriving DecidableEq

def Head.text : Head → Text
  | .leaf l => E (leafSegs l)
  | .un k => E (lit k.keyword)
  | .bin k => E (lit k.keyword)
  | .triple => "CRustTuple3".toList
  | .optionUnion => "CRustOptionUnion".toList
  | .voidResUnion => "CRustVoidOkResultUnion".toList
  | .resUnion => "CRustResultUnion".toList

def Head.hasParts : Head → Bool
  | .leaf _ => false
  | _ => true

def allLeaves : List Leaf :=
  [.i8, .u8, .i16, .u16, .i32, .u32, .i64, .u64, .isize, .usize, .f32, .f64, .cChar, .cShort, .cUshort, .cInt, .cUint, .cLong, .cVoid, .rustString,
    .strView, .objectSlice, .objectMutSlice, .foreignVec]

def allHeads : List Head :=
  allLeaves.map .leaf ++ [Un.constPtr, .mutPtr, .option, .voidRes, .slice, .sliceMut, .vec].map .un ++ [Bin.pair, .res].map .bin ++
    [.triple, .optionUnion, .voidResUnion, .resUnion]

theorem mem_allHeads (h : Head) : h ∈ allHeads := by
  cases h with
  | leaf l => cases l <;> decide
  | un k => cases k <;> decide
  | bin k => cases k <;> decide
  | triple => decide
  | optionUnion => decide
  | voidResUnion => decide
  | resUnion => decide

/-- No beginning is the start of another one, but `CRustSlice` of `CRustSliceMut` and so on. -/
theorem heads_prefix : ∀ h1 ∈ allHeads, ∀ h2 ∈ allHeads, h1.text.isPrefixOf h2.text = true →
    h1 = h2 ∨ (h1.hasParts = true ∧ ((h2.text.drop h1.text.length).head? = some 'U' ∨ (h2.text.drop h1.text.length).head? = some 'M')) := by
  decide +kernel

theorem heads_start : ∀ h ∈ allHeads, ∃ c r, h.text = c :: r ∧ c ≠ 'U' ∧ c ≠ 'M' := by
  have : ∀ h ∈ allHeads, h.text.head? ≠ none ∧ h.text.head? ≠ some 'U' ∧ h.text.head? ≠ some 'M' := by decide +kernel
  intro h hm
  obtain ⟨h1, h2, h3⟩ := this h hm
  cases ht : h.text with
  | nil => rw [ht] at h1; simp at h1
  | cons c r => rw [ht] at h2 h3; exact ⟨c, r, rfl, by simpa using h2, by simpa using h3⟩

def OkStart (r : Text) : Prop := ∃ c r', r = c :: r' ∧ c ≠ 'U' ∧ c ≠ 'M'

theorem head_cancel' (h1 h2 : Head) (r1 r2 : Text) (hr1 : h1.hasParts = true → OkStart r1) (e : h1.text ++ r1 = h2.text ++ r2)
    (hp : h1.text <+: h2.text) : h1 = h2 ∧ r1 = r2 := by
  rcases heads_prefix h1 (mem_allHeads h1) h2 (mem_allHeads h2) (List.isPrefixOf_iff_prefix.2 hp) with h | ⟨h, h'⟩
  · subst h; exact ⟨rfl, List.append_cancel_left e⟩
  · exfalso
    obtain ⟨d, hd⟩ := hp
    rw [← hd, List.append_assoc] at e
    have e' := List.append_cancel_left e
    rw [← hd, List.drop_left] at h'
    obtain ⟨c, r', hc, hu, hm⟩ := hr1 h
    rw [hc] at e'
    cases d with
    | nil => simp at h'
    | cons x d =>
      simp only [List.cons_append, List.cons.injEq] at e'
      simp only [List.head?_cons, Option.some.injEq] at h'
      rw [← e'.1] at h'
      exact h'.elim hu hm

theorem head_cancel (h1 h2 : Head) (r1 r2 : Text) (hr1 : h1.hasParts = true → OkStart r1) (hr2 : h2.hasParts = true → OkStart r2)
    (e : h1.text ++ r1 = h2.text ++ r2) : h1 = h2 ∧ r1 = r2 := by
  have p1 : h1.text <+: h2.text ++ r2 := ⟨r1, e⟩
  rcases List.prefix_or_prefix_of_prefix p1 (List.prefix_append h2.text r2) with h | h
  · exact head_cancel' h1 h2 r1 r2 hr1 e h
  · obtain ⟨a, b⟩ := head_cancel' h2 h1 r2 r1 hr2 e.symm h
    exact ⟨a.symm, b.symm⟩

theorem triple_text : E (lit "CRustTuple3".toList) = Head.triple.text := E_lit_name _ (by unfold NameChar; decide)

theorem code_leaf (l : Leaf) : code (.leaf l) = (Head.leaf l).text := rfl
theorem code_un (k : Un) (a : IT) : code (.un k a) = (Head.un k).text ++ code a := by
  cases k <;> simp only [code, segs, E_E] <;> simp only [E_append] <;> rfl
theorem code_bin (k : Bin) (a b : IT) : code (.bin k a b) = (Head.bin k).text ++ (code a ++ code b) := by
  simp only [code, segs, E_E]; simp only [E_append, List.append_assoc]; rfl
theorem code_triple (a b c : IT) : code (.triple a b c) = Head.triple.text ++ (code a ++ (code b ++ code c)) := by
  simp only [code, segs, E_E]; simp only [E_append, List.append_assoc, triple_text]

theorem head_start (h : Head) (r : Text) : OkStart (h.text ++ r) := by
  obtain ⟨c, r', e, h1, h2⟩ := heads_start h (mem_allHeads h)
  exact ⟨c, r' ++ r, by rw [e]; rfl, h1, h2⟩

theorem code_start (t : IT) (ht : NoUser t) (r : Text) : OkStart (code t ++ r) := by
  cases t with
  | leaf l => rw [code_leaf]; exact head_start _ _
  | user n => exact ht.elim
  | un k a => rw [code_un, List.append_assoc]; exact head_start _ _
  | bin k a b => rw [code_bin, List.append_assoc]; exact head_start _ _
  | triple a b c => rw [code_triple, List.append_assoc]; exact head_start _ _

/-- The head of a type and the text after it. -/
def headOf : IT → Head
  | .leaf l => .leaf l
  | .user _ => .triple
  | .un k _ => .un k
  | .bin k _ _ => .bin k
  | .triple _ _ _ => .triple

def partsOf : IT → Text
  | .leaf _ => []
  | .user _ => []
  | .un _ a => code a
  | .bin _ a b => code a ++ code b
  | .triple a b c => code a ++ (code b ++ code c)

theorem code_eq (t : IT) (ht : NoUser t) : code t = (headOf t).text ++ partsOf t := by
  cases t with
  | leaf l => rw [code_leaf]; simp [headOf, partsOf]
  | user n => exact ht.elim
  | un k a => exact code_un k a
  | bin k a b => exact code_bin k a b
  | triple a b c => exact code_triple a b c

theorem parts_start (t : IT) (ht : NoUser t) (r : Text) (h : (headOf t).hasParts = true) : OkStart (partsOf t ++ r) := by
  cases t with
  | leaf l => cases h
  | user n => exact ht.elim
  | un k a => exact code_start a ht r
  | bin k a b => simp only [partsOf, List.append_assoc]; exact code_start a ht.1 _
  | triple a b c => simp only [partsOf, List.append_assoc]; exact code_start a ht.1 _

theorem code_cancel (t : IT) (ht : NoUser t) (t' : IT) (ht' : NoUser t') (r r' : Text) (e : code t ++ r = code t' ++ r') : t = t' ∧ r = r' := by
  induction t generalizing t' r r' with
  | leaf l =>
    rw [code_eq _ ht, code_eq _ ht', List.append_assoc, List.append_assoc] at e
    obtain ⟨h1, h2⟩ := head_cancel _ _ _ _ (parts_start _ ht r) (parts_start _ ht' r') e
    cases t' with
    | leaf l' => simp only [headOf, Head.leaf.injEq] at h1; subst h1; exact ⟨rfl, by simpa [partsOf] using h2⟩
    | user n => exact ht'.elim
    | un k a => cases h1
    | bin k a b => cases h1
    | triple a b c => cases h1
  | user n => exact ht.elim
  | un k a ih =>
    rw [code_eq _ ht, code_eq _ ht', List.append_assoc, List.append_assoc] at e
    obtain ⟨h1, h2⟩ := head_cancel _ _ _ _ (parts_start _ ht r) (parts_start _ ht' r') e
    cases t' with
    | leaf l' => cases h1
    | user n => exact ht'.elim
    | un k' a' =>
      simp only [headOf, Head.un.injEq] at h1
      subst h1
      obtain ⟨g1, g2⟩ := ih ht a' ht' r r' h2
      subst g1
      exact ⟨rfl, g2⟩
    | bin k a b => cases h1
    | triple a b c => cases h1
  | bin k a b iha ihb =>
    rw [code_eq _ ht, code_eq _ ht', List.append_assoc, List.append_assoc] at e
    obtain ⟨h1, h2⟩ := head_cancel _ _ _ _ (parts_start _ ht r) (parts_start _ ht' r') e
    cases t' with
    | leaf l' => cases h1
    | user n => exact ht'.elim
    | un k' a' => cases h1
    | bin k' a' b' =>
      simp only [headOf, Head.bin.injEq] at h1
      subst h1
      simp only [partsOf, List.append_assoc] at h2
      obtain ⟨g1, g2⟩ := iha ht.1 a' ht'.1 _ _ h2
      subst g1
      obtain ⟨g3, g4⟩ := ihb ht.2 b' ht'.2 _ _ g2
      subst g3
      exact ⟨rfl, g4⟩
    | triple a b c => cases h1
  | triple a b c iha ihb ihc =>
    rw [code_eq _ ht, code_eq _ ht', List.append_assoc, List.append_assoc] at e
    obtain ⟨h1, h2⟩ := head_cancel _ _ _ _ (parts_start _ ht r) (parts_start _ ht' r') e
    cases t' with
    | leaf l' => cases h1
    | user n => exact ht'.elim
    | un k' a' => cases h1
    | bin k' a' b' => cases h1
    | triple a' b' c' =>
      simp only [partsOf, List.append_assoc] at h2
      obtain ⟨g1, g2⟩ := iha ht.1 a' ht'.1 _ _ h2
      subst g1
      obtain ⟨g3, g4⟩ := ihb ht.2.1 b' ht'.2.1 _ _ g2
      subst g3
      obtain ⟨g5, g6⟩ := ihc ht.2.2 c' ht'.2.2 _ _ g4
      subst g5
      exact ⟨rfl, g6⟩

theorem code_inj (t t' : IT) (ht : NoUser t) (ht' : NoUser t') (e : code t = code t') : t = t' :=
  (code_cancel t ht t' ht' [] [] (by simpa using e)).1

theorem structName_eq (t : IT) (ht : NoUser t) (n : Text) (h : t.structName = some n) : n = code t := by
  have hd := (display_eq t ht).1
  cases t with
  | leaf l => cases h
  | user u => cases h
  | un k a =>
    cases k with
    | constPtr => cases h
    | mutPtr => cases h
    | option => simp only [IT.structName, Option.some.injEq] at h; rw [← h, hd]; simp only [code, segs, render_lit, E_E]
    | voidRes => simp only [IT.structName, Option.some.injEq] at h; rw [← h, hd]; simp only [code, segs, render_lit, E_E]
    | slice => simp only [IT.structName, Option.some.injEq] at h; rw [← h, hd]; simp only [code, segs, render_lit, E_E]
    | sliceMut => simp only [IT.structName, Option.some.injEq] at h; rw [← h, hd]; simp only [code, segs, render_lit, E_E]
    | vec => simp only [IT.structName, Option.some.injEq] at h; rw [← h, hd]; simp only [code, segs, render_lit, E_E]
  | bin k a b => simp only [IT.structName, Option.some.injEq] at h; rw [← h, hd]; simp only [code, segs, render_lit, E_E]
  | triple a b c => simp only [IT.structName, Option.some.injEq] at h; rw [← h, hd]; simp only [code, segs, render_lit, E_E]

/-- Heads of unions. -/
def unionHead : IT → Head
  | .un .option _ => .optionUnion
  | .un .voidRes _ => .voidResUnion
  | _ => .resUnion

theorem unionName_eq (t : IT) (ht : NoUser t) (n : Text) (h : t.unionName = some n) : n = (unionHead t).text ++ partsOf t := by
  have h1 : E (lit "CRustOptionUnion".toList) = Head.optionUnion.text := E_lit_name _ (by unfold NameChar; decide)
  have h2 : E (lit "CRustVoidOkResultUnion".toList) = Head.voidResUnion.text := E_lit_name _ (by unfold NameChar; decide)
  have h3 : E (lit "CRustResultUnion".toList) = Head.resUnion.text := E_lit_name _ (by unfold NameChar; decide)
  cases t with
  | leaf l => cases h
  | user u => cases h
  | un k a =>
    obtain ⟨g1, g2⟩ := display_eq a ht
    cases k with
    | constPtr => cases h
    | mutPtr => cases h
    | slice => cases h
    | sliceMut => cases h
    | vec => cases h
    | option =>
      simp only [IT.unionName, Option.some.injEq] at h
      rw [← h, alias_eq (lit "CRustOptionUnion".toList ++ segs a) (plain_append (plain_lit (by decide)) g2) _ (by
        rw [render_append, render_lit, g1]; simp), E_append, h1]
      rfl
    | voidRes =>
      simp only [IT.unionName, Option.some.injEq] at h
      rw [← h, alias_eq (lit "CRustVoidOkResultUnion".toList ++ segs a) (plain_append (plain_lit (by decide)) g2) _ (by
        rw [render_append, render_lit, g1]; simp), E_append, h2]
      rfl
  | bin k a b =>
    obtain ⟨g1, g2⟩ := display_eq a ht.1
    obtain ⟨g3, g4⟩ := display_eq b ht.2
    cases k with
    | pair => cases h
    | res =>
      simp only [IT.unionName, Option.some.injEq] at h
      rw [← h, alias_eq (lit "CRustResultUnion".toList ++ (segs a ++ segs b)) (plain_append (plain_lit (by decide)) (plain_append g2 g4)) _ (by
        rw [render_append, render_append, render_lit, g1, g3]; simp), E_append, E_append, h3]
      rfl
  | triple a b c => cases h

/-! ## Property theorems -/

/-- C56: two different types of the C level that get a struct get structs with different names. -/
theorem C56_struct_names (t t' : IT) (ht : NoUser t) (ht' : NoUser t') (n : Text) (h : t.structName = some n) (h' : t'.structName = some n) :
    t = t' := by
  apply code_inj t t' ht ht'
  rw [← structName_eq t ht n h, ← structName_eq t' ht' n h']

/-- C56: the same for unions, and no union has the name of a struct. -/
theorem C56_union_names (t t' : IT) (ht : NoUser t) (ht' : NoUser t') (n : Text) (h : t.unionName = some n) :
    (t'.unionName = some n → t = t') ∧ t'.structName ≠ some n := by
  have e := unionName_eq t ht n h
  have start : ∀ s : IT, NoUser s → s.unionName ≠ none → (unionHead s).hasParts = true → OkStart (partsOf s) := by
    intro s hs hu _
    have := parts_start s hs []
    rw [List.append_nil] at this
    apply this
    cases s with
    | leaf l => exact absurd rfl hu
    | user u => exact absurd rfl hu
    | _ => rfl
  constructor
  · intro h'
    have e' := unionName_eq t' ht' n h'
    rw [e] at e'
    obtain ⟨h1, h2⟩ := head_cancel _ _ _ _ (start t ht (by rw [h]; simp)) (start t' ht' (by rw [h']; simp)) e'
    have key : ∀ s : IT, s.unionName ≠ none → (∃ a, s = .un .option a) ∨ (∃ a, s = .un .voidRes a) ∨ ∃ a b, s = .bin .res a b := by
      intro s hs
      cases s with
      | leaf l => exact absurd rfl hs
      | user u => exact absurd rfl hs
      | un k a => cases k <;> first | exact absurd rfl hs | simp
      | bin k a b => cases k <;> first | exact absurd rfl hs | simp
      | triple a b c => exact absurd rfl hs
    rcases key t (by rw [h]; simp) with ⟨a, rfl⟩ | ⟨a, rfl⟩ | ⟨a, b, rfl⟩ <;>
      rcases key t' (by rw [h']; simp) with ⟨a', rfl⟩ | ⟨a', rfl⟩ | ⟨a', b', rfl⟩ <;> first | (cases h1; done) | skip
    · rw [code_inj a a' ht ht' h2]
    · rw [code_inj a a' ht ht' h2]
    · simp only [partsOf] at h2
      obtain ⟨g1, g2⟩ := code_cancel a ht.1 a' ht'.1 _ _ h2
      rw [g1, code_inj b b' ht.2 ht'.2 g2]
  · intro h'
    have e' := structName_eq t' ht' n h'
    rw [e, code_eq t' ht'] at e'
    have hp : (headOf t').hasParts = true → OkStart (partsOf t') := fun hh => by
      have := parts_start t' ht' [] hh
      rwa [List.append_nil] at this
    obtain ⟨h1, _⟩ := head_cancel _ _ _ _ (start t ht (by rw [h]; simp)) hp e'
    have : ∀ s s' : IT, unionHead s ≠ headOf s' := by
      intro s s'
      have h2 : unionHead s = .optionUnion ∨ unionHead s = .voidResUnion ∨ unionHead s = .resUnion := by
        unfold unionHead; split <;> simp
      cases s' <;> (rcases h2 with h2 | h2 | h2 <;> rw [h2] <;> simp [headOf])
    exact this t t' h1

theorem genStruct_mem (hdr : List (Text × List Text)) (t : IT) (d : Text × List Text) (h : d ∈ hdr) : d ∈ genStruct hdr t := by
  unfold genStruct
  split
  · exact h
  · split
    · exact h
    · simp [h]

theorem genAll_spec (ts : List IT) (hts : ∀ t ∈ ts, NoUser t) :
    (∀ t ∈ ts, ∀ n, t.structName = some n → (n, t.fields) ∈ genAll ts) ∧
    (∀ d ∈ genAll ts, ∃ t ∈ ts, t.structName = some d.1 ∧ d.2 = t.fields) ∧ ((genAll ts).map (·.1)).Nodup := by
  unfold genAll
  generalize hr : ts.reverse = rs
  have hts' : ts = rs.reverse := by rw [← hr, List.reverse_reverse]
  subst hts'
  clear hr
  induction rs with
  | nil => exact ⟨by simp, by simp, by simp⟩
  | cons t rs ih =>
    obtain ⟨h1, h2, h3⟩ := ih (fun s hs => hts s (by simp at hs ⊢; exact .inl hs))
    have ht : NoUser t := hts t (by simp)
    simp only [List.reverse_cons, List.foldl_append, List.foldl_cons, List.foldl_nil]
    generalize hd : rs.reverse.foldl genStruct [] = hdr at *
    refine ⟨?_, ?_, ?_⟩
    · intro s hs n hn
      rw [List.mem_append, List.mem_singleton] at hs
      rcases hs with hs | rfl
      · exact genStruct_mem _ _ _ (h1 s hs n hn)
      · unfold genStruct
        rw [hn]
        simp only
        split
        · rename_i hany
          rw [List.any_eq_true] at hany
          obtain ⟨d, hd1, hd2⟩ := hany
          simp only [decide_eq_true_eq] at hd2
          obtain ⟨t', ht', hn', hf⟩ := h2 d hd1
          have : s = t' := C56_struct_names s t' ht (hts t' (by simp at ht' ⊢; exact .inl ht')) n hn (by rw [hn', hd2])
          subst this
          rw [show (n, s.fields) = d from by rw [← hd2, ← hf]]
          exact hd1
        · simp
    · intro d hd'
      unfold genStruct at hd'
      split at hd'
      · obtain ⟨t', ht', hn'⟩ := h2 d hd'; exact ⟨t', by simp at ht' ⊢; exact .inl ht', hn'⟩
      · rename_i n hn
        split at hd'
        · obtain ⟨t', ht', hn'⟩ := h2 d hd'; exact ⟨t', by simp at ht' ⊢; exact .inl ht', hn'⟩
        · rw [List.mem_append, List.mem_singleton] at hd'
          rcases hd' with hd' | rfl
          · obtain ⟨t', ht', hn'⟩ := h2 d hd'; exact ⟨t', by simp at ht' ⊢; exact .inl ht', hn'⟩
          · exact ⟨t, by simp, hn, rfl⟩
    · unfold genStruct
      split
      · exact h3
      · split
        · exact h3
        · rename_i n _ hany
          rw [List.map_append, List.nodup_append]
          refine ⟨h3, by simp, ?_⟩
          intro a ha b hb e
          simp at hb
          subst hb
          subst e
          apply hany
          rw [List.mem_map] at ha
          obtain ⟨d, hd1, hd2⟩ := ha
          rw [List.any_eq_true]
          exact ⟨d, hd1, by simp [hd2]⟩

/-- C56: in whatever order types are used, and how often, each gets its struct, exactly once and with its own fields, and nothing else is defined. -/
theorem C56_header (ts : List IT) (hts : ∀ t ∈ ts, NoUser t) :
    (∀ t ∈ ts, ∀ n, t.structName = some n → ∀ f, (n, f) ∈ genAll ts ↔ f = t.fields) ∧
    (∀ d ∈ genAll ts, ∃ t ∈ ts, t.structName = some d.1 ∧ d.2 = t.fields) ∧ ((genAll ts).map (·.1)).Nodup := by
  obtain ⟨h1, h2, h3⟩ := genAll_spec ts hts
  refine ⟨fun t ht n hn f => ⟨fun hf => ?_, fun e => by rw [e]; exact h1 t ht n hn⟩, h2, h3⟩
  obtain ⟨t', ht', hn', hf'⟩ := h2 _ hf
  rw [C56_struct_names t t' (hts t ht) (hts t' ht') n hn hn']
  exact hf'

/-- C56: what the fields are. A pair or triple holds its parts in order; an `Option` or `Result` holds its own union (whose name no other type's union
has) and a one-byte flag; a slice holds a constant pointer, a mutable slice a mutable pointer to the element type and the length; a vector a constant
pointer, length and capacity. -/
theorem C56_fields (a b c : IT) :
    (IT.bin .pair a b).fields = [a.display, b.display] ∧ (IT.triple a b c).fields = [a.display, b.display, c.display] ∧
    (∀ t ∈ [IT.un .option a, .un .voidRes a, .bin .res a b], ∃ u, t.unionName = some u ∧ t.fields = [u, (IT.leaf .u8).display]) ∧
    (IT.un .slice a).fields = [(IT.un .constPtr a).display, (IT.leaf .usize).display] ∧
    (IT.un .sliceMut a).fields = [(IT.un .mutPtr a).display, (IT.leaf .usize).display] ∧
    (IT.un .vec a).fields = [(IT.un .constPtr a).display, (IT.leaf .usize).display, (IT.leaf .usize).display] ∧
    (IT.un .constPtr a).display ≠ (IT.un .mutPtr a).display := by
  refine ⟨rfl, rfl, ?_, rfl, rfl, rfl, ?_⟩
  · intro t ht
    simp only [List.mem_cons, List.not_mem_nil, or_false] at ht
    rcases ht with rfl | rfl | rfl <;> exact ⟨_, rfl, rfl⟩
  · intro h
    have h2 : "* const ".toList ++ a.display = "* mut ".toList ++ a.display := h
    have := congrArg List.length h2
    simp at this
    try omega

/-- C56: all names are valid identifiers' characters: letters, digits and underscores. -/
theorem C56_characters (parts : List Text) : ∀ c ∈ aliasName parts, isAlnum c = true ∨ c = '_' := by
  intro c hc
  unfold aliasName escape at hc
  rw [List.mem_flatMap] at hc
  obtain ⟨d, _, hd⟩ := hc
  exact escChar_name d c hd

/-- C56, finding: names are put together without a separator, so with types of the user's own two different types can get one name; the second struct is
then not written and its users get the fields of the first. -/
theorem C56_finding_user_types :
    let t : IT := .bin .pair (.user "Foo".toList) (.user "BarBaz".toList)
    let t' : IT := .bin .pair (.user "FooBar".toList) (.user "Baz".toList)
    t ≠ t' ∧ t.structName = t'.structName ∧ t.fields ≠ t'.fields ∧ genAll [t, t'] = genAll [t] := by
  decide +kernel

/-- C56, finding: the same with `Option<&MutFoo>` and `Option<&mut Foo>` (macroslib/src/cpp/cpp-include.rs:536, 559). -/
theorem C56_finding_optional_class (c : Text) :
    aliasName ["CRustClassOpt".toList, "Mut".toList ++ c] = aliasName ["CRustClassOptMut".toList, c] := by
  have : "CRustClassOptMut".toList = "CRustClassOpt".toList ++ "Mut".toList := by decide
  simp only [aliasName, concatIdents, this]
  congr 1

/-- Non-vacuity: `(Option<*mut c_void>, Vec<u8>)`. -/
def demo : IT := .bin .pair (.un .option (.un .mutPtr (.leaf .cVoid))) (.un .vec (.leaf .u8))

example : demo.structName = some "CRustPairCRustOption4232mut3232c_voidCRustVecu8".toList := by decide +kernel
example : NoUser demo := ⟨trivial, trivial⟩

end Flapi.Alias
