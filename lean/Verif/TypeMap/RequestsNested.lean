import Verif.TypeMap.RequestsProps
/-!
# Nested compound types (C69)
-/
namespace Flapi.Requests
open Flapi Flapi.Macro Flapi.Template Flapi.Inst

variable {σ : Type}

/-! ## Specification -/

/-- A nesting of pairs, triples and optional values; the leaves are types with a mapping of their own. -/
inductive Shape where
  | leaf (i : Info)
  | pair (a b : Shape)
  | triple (a b c : Shape)
  | opt (a : Shape)

/-- The C++ type of a nesting. -/
def Shape.type : Shape → Text
  | .leaf i => (userType i).value
  | .pair a b => cat ["std::pair<".toList, a.type, ", ".toList, b.type, ">".toList]
  | .triple a b c => cat ["std::tuple<".toList, a.type, ", ".toList, b.type, ", ".toList, c.type, ">".toList]
  | .opt a => cat ["std::optional<".toList, a.type, ">".toList]

/-- The C++ expression that makes the user's value out of the boundary value `x`. -/
def Shape.get : Shape → Text → Text
  | .leaf i, x => applied i x
  | .pair a b, x => cat ["std::make_pair(".toList, a.get (x ++ ".first".toList), ", ".toList, b.get (x ++ ".second".toList), ")".toList]
  | .triple a b c, x =>
    cat ["std::make_tuple(".toList, a.get (x ++ ".first".toList), ", ".toList, b.get (x ++ ".second".toList), ", ".toList,
      c.get (x ++ ".third".toList), ")".toList]
  | .opt a, x =>
    cat ["(".toList, x, ".is_some != 0) ? std::optional<".toList, a.type, ">(".toList, a.get (x ++ ".val.data".toList),
      ") : std::optional<".toList, a.type, ">()".toList]

/-- No text `{from_var` is left open at the end of `c`. -/
def NoOpenEnd (c : Text) : Prop := ∀ p, p ≠ [] → p <+: "{from_var}".toList → p ≠ "{from_var}".toList → ¬ p <:+ c

/-- A mapping that may be a leaf: its C++ name has no `struct`/`union` keyword and no brace, and its code does not end in the middle of a
placeholder. -/
def LeafOk (i : Info) : Prop := NoTag i ∧ '{' ∉ (userType i).value ∧ ∀ c, i.conv = some c → NoOpenEnd c.2

/-- The mapping reports the name and the code of the foreign side `r`. -/
def Reports (i : Info) (r : FConv) : Prop :=
  ∃ n c ps, i.conv = some (n, c) ∧ r.pair = .onlyRight n.value ∧ r.code = some ⟨c, ps⟩

/-- The mapping of a nesting: that of a compound type is an instance of its rule, instantiated by a back end that maps the component
types as nestings. -/
inductive BuiltOut : Shape → Info → Prop
  | leaf {i : Info} : LeafOk i → BuiltOut (.leaf i) i
  | pair {σ : Type} {a b : Shape} {i1 i2 i : Info} {env : Env} {W : World σ} {al : List Alias} {t1 t2 : PTy} {s s' : σ} {r : FConv} {am : Alias} :
    BuiltOut a i1 → BuiltOut b i2 → Param env "T1" t1 → Param env "T2" t2 → Maps W t1 .outgoing i1 → Maps W t2 .outgoing i2 →
    findAlias al "CRustPairModule".toList = some am →
    expandFConv env (cppB W .outgoing) al s pairOut = .ok (r, s') → Reports i r → BuiltOut (.pair a b) i
  | triple {σ : Type} {a b c : Shape} {i1 i2 i3 i : Info} {env : Env} {W : World σ} {al : List Alias} {t1 t2 t3 : PTy} {s s' : σ}
    {r : FConv} {am : Alias} :
    BuiltOut a i1 → BuiltOut b i2 → BuiltOut c i3 → Param env "T1" t1 → Param env "T2" t2 → Param env "T3" t3 →
    Maps W t1 .outgoing i1 → Maps W t2 .outgoing i2 → Maps W t3 .outgoing i3 →
    findAlias al "CRustTuple3Module".toList = some am →
    expandFConv env (cppB W .outgoing) al s tupleOut = .ok (r, s') → Reports i r → BuiltOut (.triple a b c) i
  | opt {σ : Type} {a : Shape} {i1 i : Info} {env : Env} {W : World σ} {al : List Alias} {t1 : PTy} {s s' : σ} {r : FConv} :
    BuiltOut a i1 → Param env "T" t1 → Maps W t1 .outgoing i1 →
    expandFConv env (cppB W .outgoing) al s optionOut = .ok (r, s') → Reports i r → BuiltOut (.opt a) i

/-! ## Helpers: replacing inside replaced text -/

/-- `"{from_var}".toList`, opaque. -/
@[irreducible] def hole : Text := "{from_var}".toList
theorem hole_eq : hole = "{from_var}".toList := by unfold hole; rfl

/-- What follows the opening brace. -/
@[irreducible] def holeRest : Text := "from_var}".toList
theorem hole_cons : hole = '{' :: holeRest := by unfold hole holeRest; decide
theorem holeRest_no : '{' ∉ holeRest := by unfold holeRest; decide

theorem hole_ne : hole ≠ [] := by rw [hole_cons]; simp

theorem strReplace_cons_ne (pat to : Text) (hp : pat ≠ []) (a : Char) (r : Text) (h : ¬ pat <+: a :: r) :
    strReplace (a :: r) pat to = a :: strReplace r pat to := by
  rw [strReplace_eq_repl _ _ _ hp, strReplace_eq_repl _ _ _ hp]
  have : pat.isPrefixOf (a :: r) = false := by
    cases hb : pat.isPrefixOf (a :: r) with
    | false => rfl
    | true => exact absurd (List.isPrefixOf_iff_prefix.1 hb) h
  simp only [repl, this, Bool.false_eq_true, if_false]

/-- A text without `{` in front is copied. -/
theorem inert_of_no_brace {x : Text} (h : '{' ∉ x) : Inert hole x := by
  intro s hs hsx
  cases s with
  | nil => exact absurd rfl hs
  | cons a s =>
    have ha : a ∈ x := hsx.subset List.mem_cons_self
    have hne : a ≠ '{' := fun e => h (e ▸ ha)
    rw [hole_cons]
    constructor
    · intro hp
      exact hne (List.cons_prefix_cons.1 hp).1.symm
    · intro hp
      exact hne (List.cons_prefix_cons.1 hp).1

/-- The start of a text up to its first `{` is not changed by the replacement, and that `{` stays if the new text starts with one. -/
theorem replace_shape (y : Text) (r : Text) :
    ('{' ∉ r ∧ strReplace r hole y = r) ∨
      ∃ r0 r1, '{' ∉ r0 ∧ r = r0 ++ '{' :: r1 ∧
        ((∃ z, strReplace r hole y = r0 ++ '{' :: z) ∨ ∃ z, strReplace r hole y = r0 ++ (y ++ z)) := by
  induction r with
  | nil => exact Or.inl ⟨by simp, strReplace_nil _ _ hole_ne⟩
  | cons a r ih =>
    by_cases ha : a = '{'
    · subst ha
      right
      refine ⟨[], r, by simp, rfl, ?_⟩
      by_cases hp : hole <+: '{' :: r
      · right
        obtain ⟨q, hq⟩ := hp
        exact ⟨strReplace q hole y, by rw [← hq, strReplace_match _ _ _ hole_ne]; rfl⟩
      · left
        exact ⟨strReplace r hole y, by rw [strReplace_cons_ne _ _ hole_ne _ _ hp]; rfl⟩
    · have hp : ¬ hole <+: a :: r := by
        rw [hole_cons]
        exact fun h => ha (List.cons_prefix_cons.1 h).1.symm
      rw [strReplace_cons_ne _ _ hole_ne _ _ hp]
      rcases ih with ⟨h1, h2⟩ | ⟨r0, r1, h1, h2, h3⟩
      · exact Or.inl ⟨by simp [h1, Ne.symm ha], by rw [h2]⟩
      · right
        refine ⟨a :: r0, r1, by simp [h1, Ne.symm ha], by rw [h2]; rfl, ?_⟩
        rcases h3 with ⟨z, hz⟩ | ⟨z, hz⟩
        · exact Or.inl ⟨z, by rw [hz]; rfl⟩
        · exact Or.inr ⟨z, by rw [hz]; rfl⟩

/-- The new text starts with a character that is not in the rest of a placeholder. -/
def Foreign (y : Text) : Prop := ∃ c t, y = c :: t ∧ c ∉ holeRest

theorem prefix_app : ∀ {a p b : Text}, p <+: a ++ b → p <+: a ∨ ∃ q, p = a ++ q ∧ q <+: b
  | [], p, b, h => Or.inr ⟨p, rfl, h⟩
  | x :: a, [], b, _ => Or.inl (List.nil_prefix)
  | x :: a, y :: p, b, h => by
    obtain ⟨h1, h2⟩ := List.cons_prefix_cons.1 h
    subst h1
    rcases prefix_app h2 with h | ⟨q, hq, hb⟩
    · exact Or.inl (List.cons_prefix_cons.2 ⟨rfl, h⟩)
    · exact Or.inr ⟨q, by rw [hq]; rfl, hb⟩

/-- If a prefix of a text is followed by a character that is not in `p`, then `p` lies before it. -/
theorem prefix_before {p r0 : Text} {c : Char} {z : Text} (h : p <+: r0 ++ c :: z) (hc : c ∉ p) : p <+: r0 := by
  rcases prefix_app h with h | ⟨q, hq, hqz⟩
  · exact h
  · cases q with
    | nil => rw [hq, List.append_nil]; exact List.prefix_refl _
    | cons b q =>
      have : b = c := (List.cons_prefix_cons.1 hqz).1
      subst this
      exact absurd (hq ▸ by simp) hc

theorem NoOpenEnd.tail {a : Char} {r : Text} (h : NoOpenEnd (a :: r)) : NoOpenEnd r :=
  fun p h1 h2 h3 h4 => h p h1 h2 h3 (h4.trans (List.suffix_cons a r))

theorem NoOpenEnd.drop {x r : Text} (h : NoOpenEnd (x ++ r)) : NoOpenEnd r :=
  fun p h1 h2 h3 h4 => h p h1 h2 h3 (h4.trans (List.suffix_append x r))

/-- Replacing inside replaced text: the placeholders that the first replacement left are those of the inserted texts. -/
theorem replace_twice (y y' x : Text) (hy : Foreign y) (h1 : ∀ B, strReplace (y ++ B) hole x = y' ++ strReplace B hole x) :
    ∀ (n : Nat) (c B : Text), c.length ≤ n → NoOpenEnd c →
      strReplace (strReplace c hole y ++ B) hole x = strReplace c hole y' ++ strReplace B hole x
  | _, [], B, _, _ => by rw [strReplace_nil _ _ hole_ne, strReplace_nil _ _ hole_ne]; rfl
  | 0, a :: r, B, h, _ => by simp at h
  | n + 1, a :: r, B, h, ho => by
    by_cases hp : hole <+: a :: r
    · obtain ⟨q, hq⟩ := hp
      rw [← hq, strReplace_match _ _ _ hole_ne, strReplace_match _ _ _ hole_ne, List.append_assoc, h1,
        replace_twice y y' x hy h1 n q B ?_ ?_, List.append_assoc]
      · have := congrArg List.length hq
        rw [hole_cons] at this
        simp at this h
        omega
      · rw [← hq] at ho
        exact ho.drop
    · rw [strReplace_cons_ne _ _ hole_ne _ _ hp, strReplace_cons_ne _ _ hole_ne _ _ hp, List.cons_append, List.cons_append,
        strReplace_cons_ne, replace_twice y y' x hy h1 n r B (by simp at h; omega) ho.tail]
      · exact hole_ne
      · intro hpre
        generalize hR : strReplace r hole y = R at hpre
        rw [hole_cons] at hpre
        obtain ⟨ha, hrest⟩ := List.cons_prefix_cons.1 hpre
        have hcons : ∀ t, holeRest <+: t → hole <+: a :: t := fun t ht => by
          rw [hole_cons, ← ha]
          exact List.cons_prefix_cons.2 ⟨rfl, ht⟩
        rcases replace_shape y r with ⟨_, h3⟩ | ⟨r0, r1, h2, h3, h4⟩
        · rw [← hR, h3] at hrest
          rcases prefix_app hrest with h | ⟨q, hq, hqz⟩
          · exact hp (hcons _ h)
          · by_cases hqn : q = []
            · subst hqn
              rw [List.append_nil] at hq
              exact hp (hcons _ (hq ▸ List.prefix_refl _))
            · refine ho (a :: r) (by simp) ?_ ?_ (List.suffix_refl _)
              · rw [← hole_eq, hole_cons, hq, ← ha]
                exact ⟨q, rfl⟩
              · rw [← hole_eq, hole_cons, hq, ← ha]
                intro e
                have := congrArg List.length e
                simp at this
                exact hqn this
        · have hlast : holeRest <+: r0 := by
            rcases h4 with ⟨z, hz⟩ | ⟨z, hz⟩
            · rw [← hR, hz, List.append_assoc, List.cons_append] at hrest
              exact prefix_before hrest holeRest_no
            · obtain ⟨c, t, hc, hn⟩ := hy
              rw [← hR, hz, hc, List.append_assoc, List.cons_append, List.cons_append] at hrest
              exact prefix_before hrest hn
          exact hp (hcons _ (hlast.trans (h3 ▸ List.prefix_append _ _)))

theorem no_brace_foreign (w : Text) : Foreign (hole ++ w) :=
  ⟨'{', holeRest ++ w, by rw [hole_cons]; rfl, holeRest_no⟩

theorem replace_no_brace {w : Text} (hw : '{' ∉ w) (x B : Text) : strReplace (w ++ B) hole x = w ++ strReplace B hole x :=
  strReplace_inert _ _ _ _ hole_ne (inert_of_no_brace hw)

theorem replace_hole (x B : Text) : strReplace (hole ++ B) hole x = x ++ strReplace B hole x := strReplace_match _ _ _ hole_ne

theorem replace_last {w : Text} (hw : '{' ∉ w) (x : Text) : strReplace w hole x = w := by
  have := replace_no_brace hw x []
  rwa [List.append_nil, strReplace_nil _ _ hole_ne, List.append_nil] at this

/-- No conversion code ends in the middle of a placeholder. -/
def CodeOk (i : Info) : Prop := ∀ c, i.conv = some c → NoOpenEnd c.2

theorem applied_hole (i : Info) (x : Text) : applied i x = match i.conv with
    | some c => strReplace c.2 hole x
    | none => x := by
  unfold applied
  rw [hole_eq]
  cases i.conv <;> rfl

/-- Filling the outer placeholder of a component that was converted with `{from_var}.…`. -/
theorem applied_twice {i : Info} (ho : CodeOk i) {w : Text} (hw : '{' ∉ w) (x B : Text) :
    strReplace (applied i (hole ++ w) ++ B) hole x = applied i (x ++ w) ++ strReplace B hole x := by
  rw [applied_hole, applied_hole]
  cases hc : i.conv with
  | none => simp only [List.append_assoc]; rw [replace_hole, replace_no_brace hw]
  | some c =>
    simp only
    refine replace_twice _ _ _ (no_brace_foreign w) (fun B => ?_) c.2.length c.2 B (Nat.le_refl _) (ho c hc)
    rw [List.append_assoc, replace_hole, replace_no_brace hw, List.append_assoc]

theorem noOpenEnd_snoc (A : Text) (z : Char) (hz : z ∉ hole.dropLast) : NoOpenEnd (A ++ [z]) := by
  intro p h1 h2 h3 h4
  rw [← hole_eq] at h2 h3
  obtain ⟨q, hq⟩ := h2
  have hqne : q ≠ [] := fun e => h3 (by rw [← hq, e, List.append_nil])
  obtain ⟨p', l, rfl⟩ : ∃ p' l, p = p' ++ [l] := ⟨p.dropLast, p.getLast h1, (List.dropLast_concat_getLast h1).symm⟩
  obtain ⟨t, ht⟩ := h4
  have hl : l = z := by
    rw [← List.append_assoc] at ht
    have := (List.append_inj' ht rfl).2
    simpa using this
  subst hl
  apply hz
  rw [← hq, List.dropLast_append_of_ne_nil hqne]
  simp

theorem infix_sep {p a b : Text} {z : Char} (h : p <:+: a ++ z :: b) (hz : z ∉ p) : p <:+: a ∨ p <:+: b := by
  induction a with
  | nil =>
    rcases List.infix_cons_iff.1 h with h | h
    · cases p with
      | nil => exact Or.inl (List.nil_infix)
      | cons x p => exact absurd ((List.cons_prefix_cons.1 h).1 ▸ List.mem_cons_self) hz
    · exact Or.inr h
  | cons x a ih =>
    rcases List.infix_cons_iff.1 h with h | h
    · exact Or.inl (prefix_before (r0 := x :: a) h hz).isInfix
    · rcases ih h with h | h
      · exact Or.inl (h.trans (List.suffix_cons x a).isInfix)
      · exact Or.inr h

theorem infix_blank {p b : Text} (h : p <:+: ' ' :: b) (hp : p.head? ≠ some ' ') : p <:+: b := by
  rcases List.infix_cons_iff.1 h with h | h
  · cases p with
    | nil => exact List.nil_infix
    | cons x p => exact absurd (by rw [(List.cons_prefix_cons.1 h).1]; rfl) hp
  · exact h

/-- `"std::pair"`. -/
@[irreducible] def pairChars : Text := ['s', 't', 'd', ':', ':', 'p', 'a', 'i', 'r']
/-- `"std::tuple"`. -/
@[irreducible] def tupleChars : Text := ['s', 't', 'd', ':', ':', 't', 'u', 'p', 'l', 'e']
/-- `"std::optional"`. -/
@[irreducible] def optChars : Text := ['s', 't', 'd', ':', ':', 'o', 'p', 't', 'i', 'o', 'n', 'a', 'l']

/-- A word that contains no separator of the compound names and is not in their literal parts. -/
structure Word (p : Text) : Prop where
  comma : ',' ∉ p
  lt : '<' ∉ p
  gt : '>' ∉ p
  blank : p.head? ≠ some ' '
  ne : p ≠ []
  pair : ¬ p <:+: pairChars
  tuple : ¬ p <:+: tupleChars
  opt : ¬ p <:+: optChars

/-- `"struct "`. -/
@[irreducible] def structW : Text := ['s', 't', 'r', 'u', 'c', 't', ' ']
/-- `"union "`. -/
@[irreducible] def unionW : Text := ['u', 'n', 'i', 'o', 'n', ' ']
theorem structW_eq : "struct ".toList = structW := by unfold structW; decide
theorem unionW_eq : "union ".toList = unionW := by unfold unionW; decide

theorem word_struct : Word structW := by
  constructor <;> simp [structW, pairChars, tupleChars, optChars, List.infix_cons_iff, List.cons_prefix_cons]
theorem word_union : Word unionW := by
  constructor <;> simp [unionW, pairChars, tupleChars, optChars, List.infix_cons_iff, List.cons_prefix_cons]

theorem Word.end {p a g : Text} (w : Word p) (hg : g = ['>']) (ha : ¬ p <:+: a) : ¬ p <:+: a ++ g := by
  subst hg
  intro h
  rcases infix_sep (z := '>') (b := []) h w.gt with h | h
  · exact ha h
  · exact w.ne (List.infix_nil.1 h)

theorem Word.comma' {p a b k : Text} (w : Word p) (hk : k = [',', ' ']) (ha : ¬ p <:+: a) (hb : ¬ p <:+: b) : ¬ p <:+: a ++ (k ++ b) := by
  subst hk
  intro h
  rcases infix_sep (z := ',') (b := ' ' :: b) h w.comma with h | h
  · exact ha h
  · exact hb (infix_blank h w.blank)

theorem Word.open' {p a b : Text} (w : Word p) (ha : ¬ p <:+: a) (hb : ¬ p <:+: b) : ¬ p <:+: a ++ '<' :: b := by
  intro h
  rcases infix_sep (z := '<') h w.lt with h | h
  · exact ha h
  · exact hb h

/-- A literal, opaque. -/
@[irreducible] def lit (s : String) : Text := s.toList
theorem toList_lit (s : String) : s.toList = lit s := by unfold lit; rfl
theorem lit_first : lit "{from_var}.first" = hole ++ lit ".first" := by unfold lit; rw [hole_eq]; decide
theorem lit_second : lit "{from_var}.second" = hole ++ lit ".second" := by unfold lit; rw [hole_eq]; decide
theorem lit_third : lit "{from_var}.third" = hole ++ lit ".third" := by unfold lit; rw [hole_eq]; decide
theorem lit_data : lit "{from_var}.val.data" = hole ++ lit ".val.data" := by unfold lit; rw [hole_eq]; decide
theorem lit_isSome : lit "({from_var}.is_some != 0) ? std::optional<" =
    lit "(" ++ (hole ++ lit ".is_some != 0) ? std::optional<") := by unfold lit; rw [hole_eq]; decide
theorem paren_hole : ')' ∉ hole.dropLast := by rw [hole_eq]; decide

theorem userType_reports {i : Info} {r : FConv} {cfg : Option Text} {n c : Text} {ms : List Text} (h : Reports i r)
    (hi : Is r cfg n c ms) : (userType i).value = n ∧ (∃ u, i.conv = some (u, c)) := by
  obtain ⟨u, c', ps, h1, h2, h3⟩ := h
  obtain ⟨_, _, h4, _, h5, _, _⟩ := hi
  rw [h2] at h4
  rw [h3] at h5
  cases h4
  cases h5
  exact ⟨by unfold userType; rw [h1], u, h1⟩

theorem codeOk_of {i : Info} {u : FTypes.UName} {c A : Text} (h : i.conv = some (u, c)) (hc : c = A ++ [')']) : CodeOk i := by
  intro c' h'
  rw [h] at h'
  cases h'
  rw [hc]
  exact noOpenEnd_snoc _ _ paren_hole

theorem Word.open2 {p o o' b : Text} (w : Word p) (e : o = o' ++ ['<']) (ho : ¬ p <:+: o') (hb : ¬ p <:+: b) : ¬ p <:+: o ++ b := by
  subst e
  rw [List.append_assoc]
  exact w.open' ho hb

theorem pair_type_word {p a b : Text} (w : Word p) (ha : ¬ p <:+: a) (hb : ¬ p <:+: b) {o k g : Text} (ho : o = pairChars ++ ['<'])
    (hk : k = [',', ' ']) (hg : g = ['>']) : ¬ p <:+: o ++ (a ++ (k ++ (b ++ g))) :=
  w.open2 ho w.pair (w.comma' hk ha (w.end hg hb))

theorem triple_type_word {p a b c : Text} (w : Word p) (ha : ¬ p <:+: a) (hb : ¬ p <:+: b) (hc : ¬ p <:+: c) {o k g : Text}
    (ho : o = tupleChars ++ ['<']) (hk : k = [',', ' ']) (hg : g = ['>']) : ¬ p <:+: o ++ (a ++ (k ++ (b ++ (k ++ (c ++ g))))) :=
  w.open2 ho w.tuple (w.comma' hk ha (w.comma' hk hb (w.end hg hc)))

theorem opt_type_word {p a : Text} (w : Word p) (ha : ¬ p <:+: a) {o g : Text} (ho : o = optChars ++ ['<'])
    (hg : g = ['>']) : ¬ p <:+: o ++ (a ++ g) :=
  w.open2 ho w.opt (w.end hg ha)

theorem lit_pairOpen' : lit "std::pair<" = pairChars ++ ['<'] := by unfold lit pairChars; decide
theorem lit_tupleOpen' : lit "std::tuple<" = tupleChars ++ ['<'] := by unfold lit tupleChars; decide
theorem lit_optOpen' : lit "std::optional<" = optChars ++ ['<'] := by unfold lit optChars; decide
theorem lit_comma : lit ", " = [',', ' '] := by unfold lit; decide
theorem lit_gt : lit ">" = ['>'] := by unfold lit; decide

/-- `NoTag` of a name. -/
def NoWord (t : Text) : Prop := ¬ structW <:+: t ∧ ¬ unionW <:+: t

theorem noTag_iff {i : Info} {t : Text} (h : (userType i).value = t) : NoTag i ↔ NoWord t := by
  unfold NoTag NoWord
  rw [h, structW_eq, unionW_eq]

/-- What holds of the mapping of every nesting. -/
structure Inv (sh : Shape) (i : Info) : Prop where
  ty : (userType i).value = sh.type
  gt : ∀ x, applied i x = sh.get x
  tag : NoWord sh.type
  brace : '{' ∉ sh.type
  code : CodeOk i

theorem Inv.noTag {sh : Shape} {i : Info} (h : Inv sh i) : NoTag i := (noTag_iff h.ty).2 h.tag

theorem lit_first_no : '{' ∉ lit ".first" := by unfold lit; decide
theorem lit_second_no : '{' ∉ lit ".second" := by unfold lit; decide
theorem lit_third_no : '{' ∉ lit ".third" := by unfold lit; decide
theorem lit_data_no : '{' ∉ lit ".val.data" := by unfold lit; decide
theorem lit_isSome_no : '{' ∉ lit ".is_some != 0) ? std::optional<" := by unfold lit; decide
theorem lit_open_no : '{' ∉ lit "(" := by unfold lit; decide
theorem lit_close_no : '{' ∉ lit ")" := by unfold lit; decide
theorem lit_comma_no : '{' ∉ lit ", " := by unfold lit; decide
theorem lit_gt_no : '{' ∉ lit ">" := by unfold lit; decide
theorem lit_gtOpen_no : '{' ∉ lit ">(" := by unfold lit; decide
theorem lit_else_no : '{' ∉ lit ") : std::optional<" := by unfold lit; decide
theorem lit_emptyOpt_no : '{' ∉ lit ">()" := by unfold lit; decide
theorem lit_makePair_no : '{' ∉ lit "std::make_pair(" := by unfold lit; decide
theorem lit_makeTuple_no : '{' ∉ lit "std::make_tuple(" := by unfold lit; decide
theorem lit_pairOpen_no : '{' ∉ lit "std::pair<" := by unfold lit; decide
theorem lit_tupleOpen_no : '{' ∉ lit "std::tuple<" := by unfold lit; decide
theorem lit_optOpen_no : '{' ∉ lit "std::optional<" := by unfold lit; decide
theorem lit_close : lit ")" = [')'] := by unfold lit; decide
theorem lit_emptyOpt : lit ">()" = lit ">(" ++ [')'] := by unfold lit; decide

theorem fill_pair {i1 i2 : Info} (o1 : CodeOk i1) (o2 : CodeOk i2) (x : Text) :
    strReplace (cat [lit "std::make_pair(", applied i1 (lit "{from_var}.first"), lit ", ", applied i2 (lit "{from_var}.second"), lit ")"]) hole x =
      cat [lit "std::make_pair(", applied i1 (x ++ lit ".first"), lit ", ", applied i2 (x ++ lit ".second"), lit ")"] := by
  simp only [cat, List.flatten_cons, List.flatten_nil, List.append_nil]
  rw [lit_first, lit_second, replace_no_brace lit_makePair_no, applied_twice o1 lit_first_no, replace_no_brace lit_comma_no,
    applied_twice o2 lit_second_no, replace_last lit_close_no]

theorem fill_triple {i1 i2 i3 : Info} (o1 : CodeOk i1) (o2 : CodeOk i2) (o3 : CodeOk i3) (x : Text) :
    strReplace (cat [lit "std::make_tuple(", applied i1 (lit "{from_var}.first"), lit ", ", applied i2 (lit "{from_var}.second"), lit ", ",
        applied i3 (lit "{from_var}.third"), lit ")"]) hole x =
      cat [lit "std::make_tuple(", applied i1 (x ++ lit ".first"), lit ", ", applied i2 (x ++ lit ".second"), lit ", ",
        applied i3 (x ++ lit ".third"), lit ")"] := by
  simp only [cat, List.flatten_cons, List.flatten_nil, List.append_nil]
  rw [lit_first, lit_second, lit_third, replace_no_brace lit_makeTuple_no, applied_twice o1 lit_first_no, replace_no_brace lit_comma_no,
    applied_twice o2 lit_second_no, replace_no_brace lit_comma_no, applied_twice o3 lit_third_no, replace_last lit_close_no]

theorem fill_opt {i1 : Info} {t : Text} (o1 : CodeOk i1) (ht : '{' ∉ t) (x : Text) :
    strReplace (cat [lit "({from_var}.is_some != 0) ? std::optional<", t, lit ">(", applied i1 (lit "{from_var}.val.data"),
        lit ") : std::optional<", t, lit ">()"]) hole x =
      cat [lit "(", x, lit ".is_some != 0) ? std::optional<", t, lit ">(", applied i1 (x ++ lit ".val.data"),
        lit ") : std::optional<", t, lit ">()"] := by
  simp only [cat, List.flatten_cons, List.flatten_nil, List.append_nil]
  rw [lit_isSome, lit_data, List.append_assoc, replace_no_brace lit_open_no, List.append_assoc, replace_hole, replace_no_brace lit_isSome_no,
    replace_no_brace ht, replace_no_brace lit_gtOpen_no, applied_twice o1 lit_data_no, replace_no_brace lit_else_no, replace_no_brace ht,
    replace_last lit_emptyOpt_no]

theorem applied_of {i : Info} {u : FTypes.UName} {c : Text} (h : i.conv = some (u, c)) (x : Text) : applied i x = strReplace c hole x := by
  rw [applied_hole, h]

theorem det {ε τ α : Type} {f : τ → Out ε α} {s : τ} {a b : α} (h : f s = .ok a) (h' : f s = .ok b) : a = b := by
  rw [h] at h'
  exact Out.ok.inj h'

theorem codeOk_of5 {i : Info} {u : FTypes.UName} {a b c d : Text} (h : i.conv = some (u, cat [a, b, c, d, lit ")"])) : CodeOk i :=
  codeOk_of (A := cat [a, b, c, d]) h (by simp only [cat, List.flatten_cons, List.flatten_nil, List.append_nil, List.append_assoc, lit_close])

theorem codeOk_of7 {i : Info} {u : FTypes.UName} {a b c d e f : Text} (h : i.conv = some (u, cat [a, b, c, d, e, f, lit ")"])) : CodeOk i :=
  codeOk_of (A := cat [a, b, c, d, e, f]) h (by simp only [cat, List.flatten_cons, List.flatten_nil, List.append_nil, List.append_assoc, lit_close])

theorem codeOk_of7' {i : Info} {u : FTypes.UName} {a b c d e f g : Text} (h : i.conv = some (u, cat [a, b, c, d, e, f, g ++ [')']])) : CodeOk i :=
  codeOk_of (A := cat [a, b, c, d, e, f, g]) h (by simp only [cat, List.flatten_cons, List.flatten_nil, List.append_nil, List.append_assoc])

theorem built_inv {sh : Shape} {i : Info} (h : BuiltOut sh i) : Inv sh i := by
  induction h with
  | leaf h => exact ⟨rfl, fun _ => rfl, (noTag_iff rfl).1 h.1, h.2.1, h.2.2⟩
  | pair _ _ p1 p2 m1 m2 ha he hr I1 I2 =>
    obtain ⟨r', s'', e, is⟩ := C69_pair_out _ _ _ _ _ _ _ _ p1 m1 I1.noTag p2 m2 I2.noTag ha _
    have hd := det (f := fun s => expandFConv _ _ _ s pairOut) he e
    cases hd
    obtain ⟨hn, u, hc⟩ := userType_reports hr is
    simp only [toList_lit] at hn hc
    refine ⟨?_, fun x => ?_, ⟨?_, ?_⟩, ?_, ?_⟩
    · rw [hn, I1.ty, I2.ty]; simp only [Shape.type, toList_lit]
    · rw [applied_of hc, fill_pair I1.code I2.code, I1.gt, I2.gt]; simp only [Shape.get, toList_lit]
    · simp only [Shape.type, toList_lit, cat, List.flatten_cons, List.flatten_nil, List.append_nil]
      exact pair_type_word word_struct I1.tag.1 I2.tag.1 lit_pairOpen' lit_comma lit_gt
    · simp only [Shape.type, toList_lit, cat, List.flatten_cons, List.flatten_nil, List.append_nil]
      exact pair_type_word word_union I1.tag.2 I2.tag.2 lit_pairOpen' lit_comma lit_gt
    · simp only [Shape.type, toList_lit, cat, List.flatten_cons, List.flatten_nil, List.append_nil, List.mem_append, not_or]
      exact ⟨lit_pairOpen_no, I1.brace, lit_comma_no, I2.brace, lit_gt_no⟩
    · exact codeOk_of5 hc
  | triple _ _ _ p1 p2 p3 m1 m2 m3 ha he hr I1 I2 I3 =>
    obtain ⟨r', s'', e, is⟩ := C69_triple_out _ _ _ _ _ _ _ _ _ _ p1 m1 I1.noTag p2 m2 I2.noTag p3 m3 I3.noTag ha _
    have hd := det (f := fun s => expandFConv _ _ _ s tupleOut) he e
    cases hd
    obtain ⟨hn, u, hc⟩ := userType_reports hr is
    simp only [toList_lit] at hn hc
    refine ⟨?_, fun x => ?_, ⟨?_, ?_⟩, ?_, ?_⟩
    · rw [hn, I1.ty, I2.ty, I3.ty]; simp only [Shape.type, toList_lit]
    · rw [applied_of hc, fill_triple I1.code I2.code I3.code, I1.gt, I2.gt, I3.gt]; simp only [Shape.get, toList_lit]
    · simp only [Shape.type, toList_lit, cat, List.flatten_cons, List.flatten_nil, List.append_nil]
      exact triple_type_word word_struct I1.tag.1 I2.tag.1 I3.tag.1 lit_tupleOpen' lit_comma lit_gt
    · simp only [Shape.type, toList_lit, cat, List.flatten_cons, List.flatten_nil, List.append_nil]
      exact triple_type_word word_union I1.tag.2 I2.tag.2 I3.tag.2 lit_tupleOpen' lit_comma lit_gt
    · simp only [Shape.type, toList_lit, cat, List.flatten_cons, List.flatten_nil, List.append_nil, List.mem_append, not_or]
      exact ⟨lit_tupleOpen_no, I1.brace, lit_comma_no, I2.brace, lit_comma_no, I3.brace, lit_gt_no⟩
    · exact codeOk_of7 hc
  | opt _ p1 m1 he hr I1 =>
    obtain ⟨r', s'', e, is⟩ := C69_option_out _ _ _ _ _ p1 m1 I1.noTag _
    have hd := det (f := fun s => expandFConv _ _ _ s optionOut) he e
    cases hd
    obtain ⟨hn, u, hc⟩ := userType_reports hr is
    simp only [toList_lit] at hn hc
    refine ⟨?_, fun x => ?_, ⟨?_, ?_⟩, ?_, ?_⟩
    · rw [hn, I1.ty]; simp only [Shape.type, toList_lit]
    · rw [applied_of hc, I1.ty, fill_opt I1.code I1.brace, I1.gt]; simp only [Shape.get, toList_lit]
    · simp only [Shape.type, toList_lit, cat, List.flatten_cons, List.flatten_nil, List.append_nil]
      exact opt_type_word word_struct I1.tag.1 lit_optOpen' lit_gt
    · simp only [Shape.type, toList_lit, cat, List.flatten_cons, List.flatten_nil, List.append_nil]
      exact opt_type_word word_union I1.tag.2 lit_optOpen' lit_gt
    · simp only [Shape.type, toList_lit, cat, List.flatten_cons, List.flatten_nil, List.append_nil, List.mem_append, not_or]
      exact ⟨lit_optOpen_no, I1.brace, lit_gt_no⟩
    · rw [lit_emptyOpt] at hc
      exact codeOk_of7' hc

/-- **C69**: the C++ type of a value that is built of pairs, triples and optional values, to any depth, is that nesting of `std::pair`, `std::tuple` and
`std::optional` of the leaves' types, and the expression that the user's value is made with is the same nesting, applied to the boundary value. -/
theorem C69_nested_out (sh : Shape) (i : Info) (h : BuiltOut sh i) :
    (userType i).value = sh.type ∧ ∀ x, applied i x = sh.get x := ⟨(built_inv h).ty, (built_inv h).gt⟩

end Flapi.Requests
