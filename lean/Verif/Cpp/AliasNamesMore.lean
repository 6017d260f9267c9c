import Verif.Cpp.AliasNamesProps
/-!
# Names of function pointers, headers, functions and classes made for generic rules (C56)
-/
namespace Flapi.Alias
open Flapi

/-! ## Model -/

/-- What generic rules name besides structs and unions, with the C-level types it is named after: function pointers with one and two arguments
(macroslib/src/cpp/cpp-include.rs:271, 283), the headers of pairs, triples and vectors (296, 327, 898), the function that frees a vector and its C++
class (899, 900), the headers of results (1087, 1184). -/
inductive Made where
  | fnOne (a : IT)
  | fnTwo (a b : IT)
  | pairHeader (a b : IT)
  | tripleHeader (a b c : IT)
  | vecHeader (a : IT)
  | vecFree (a : IT)
  | vecClass (a : IT)
  | voidResHeader (a : IT)
  | resHeader (a b : IT)
  deriving DecidableEq, Repr

/-- The names: macroslib/src/cpp/cpp-include.rs:271, 283, 296, 327, 898-900, 1087, 1184 (headers without their `.h`). -/
def Made.name : Made → Text
  | .fnOne a => aliasName ["c_fn_".toList, a.display, "_t".toList]
  | .fnTwo a b => aliasName ["c_fn_".toList, a.display, b.display, "_t".toList]
  | .pairHeader a b => aliasName ["rust_tuple".toList, a.display, b.display]
  | .tripleHeader a b c => aliasName ["rust_tuple".toList, a.display, b.display, c.display]
  | .vecHeader a => aliasName ["rust_vec_".toList, a.display]
  | .vecFree a => aliasName ["CRustVec".toList, a.display, "_free".toList]
  | .vecClass a => aliasName ["RustVec".toList, a.display]
  | .voidResHeader a => aliasName ["rust_void_ok_result".toList, a.display]
  | .resHeader a b => aliasName ["rust_result".toList, a.display, b.display]

/-- The functions made for a vector of objects of the foreign class `c` (`swig_f_type!`): macroslib/src/cpp/cpp-include.rs:1030-1032. -/
def foreignVecFunctions (c : Text) : List Text :=
  [aliasName ["RustForeignVec".toList, c, "_free".toList], aliasName ["RustForeignVec".toList, c, "_push".toList],
    aliasName ["RustForeignVec".toList, c, "_remove".toList]]

/-! ## Specification -/

/-- No type of the user's own inside. -/
def Made.NoUser : Made → Prop
  | .fnOne a => Alias.NoUser a
  | .fnTwo a b => Alias.NoUser a ∧ Alias.NoUser b
  | .pairHeader a b => Alias.NoUser a ∧ Alias.NoUser b
  | .tripleHeader a b c => Alias.NoUser a ∧ Alias.NoUser b ∧ Alias.NoUser c
  | .vecHeader a => Alias.NoUser a
  | .vecFree a => Alias.NoUser a
  | .vecClass a => Alias.NoUser a
  | .voidResHeader a => Alias.NoUser a
  | .resHeader a b => Alias.NoUser a ∧ Alias.NoUser b

/-! ## Helpers -/

/-- The words names begin with. -/
inductive Kw where
  | fn | tuple | vecFile | cVec | vec | voidRes | res
  deriving DecidableEq, Repr

def Kw.text : Kw → Text
  | .fn => "c_fn_".toList
  | .tuple => "rust_tuple".toList
  | .vecFile => "rust_vec_".toList
  | .cVec => "CRustVec".toList
  | .vec => "RustVec".toList
  | .voidRes => "rust_void_ok_result".toList
  | .res => "rust_result".toList

def Made.kw : Made → Kw
  | .fnOne _ => .fn
  | .fnTwo _ _ => .fn
  | .pairHeader _ _ => .tuple
  | .tripleHeader _ _ _ => .tuple
  | .vecHeader _ => .vecFile
  | .vecFree _ => .cVec
  | .vecClass _ => .vec
  | .voidResHeader _ => .voidRes
  | .resHeader _ _ => .res

/-- What follows the first word. -/
def Made.rest : Made → Text
  | .fnOne a => code a ++ "_t".toList
  | .fnTwo a b => code a ++ (code b ++ "_t".toList)
  | .pairHeader a b => code a ++ code b
  | .tripleHeader a b c => code a ++ (code b ++ code c)
  | .vecHeader a => code a
  | .vecFree a => code a ++ "_free".toList
  | .vecClass a => code a
  | .voidResHeader a => code a
  | .resHeader a b => code a ++ code b

theorem kw_ok (k : Kw) : Plain (lit k.text) ∧ E (lit k.text) = k.text :=
  ⟨plain_lit (by cases k <;> decide), E_lit_name _ (by cases k <;> (unfold NameChar; decide))⟩

theorem t_ok : Plain (lit "_t".toList) ∧ E (lit "_t".toList) = "_t".toList :=
  ⟨plain_lit (by decide), E_lit_name _ (by unfold NameChar; decide)⟩
theorem free_ok : Plain (lit "_free".toList) ∧ E (lit "_free".toList) = "_free".toList :=
  ⟨plain_lit (by decide), E_lit_name _ (by unfold NameChar; decide)⟩

theorem name_one (k : Kw) (a : IT) (ha : NoUser a) (s : Text) (hs : Plain (lit s)) (he : E (lit s) = s) :
    aliasName [k.text, a.display, s] = k.text ++ (code a ++ s) := by
  obtain ⟨h1, h2⟩ := display_eq a ha
  rw [alias_eq (lit k.text ++ (segs a ++ lit s)) (plain_append (kw_ok k).1 (plain_append h2 hs)) _ (by
    rw [render_append, render_append, render_lit, render_lit, h1]; simp), E_append, E_append, (kw_ok k).2, he]
  rfl

theorem name_two (k : Kw) (a b : IT) (ha : NoUser a) (hb : NoUser b) (s : Text) (hs : Plain (lit s)) (he : E (lit s) = s) :
    aliasName [k.text, a.display, b.display, s] = k.text ++ (code a ++ (code b ++ s)) := by
  obtain ⟨h1, h2⟩ := display_eq a ha
  obtain ⟨h3, h4⟩ := display_eq b hb
  rw [alias_eq (lit k.text ++ (segs a ++ (segs b ++ lit s))) (plain_append (kw_ok k).1 (plain_append h2 (plain_append h4 hs))) _ (by
    rw [render_append, render_append, render_append, render_lit, render_lit, h1, h3]; simp), E_append, E_append, E_append, (kw_ok k).2, he]
  rfl

theorem name_bare (k : Kw) (a : IT) (ha : NoUser a) : aliasName [k.text, a.display] = k.text ++ code a := by
  obtain ⟨h1, h2⟩ := display_eq a ha
  rw [alias_eq (lit k.text ++ segs a) (plain_append (kw_ok k).1 h2) _ (by
    rw [render_append, render_lit, h1]; simp), E_append, (kw_ok k).2]
  rfl

theorem name_bare2 (k : Kw) (a b : IT) (ha : NoUser a) (hb : NoUser b) :
    aliasName [k.text, a.display, b.display] = k.text ++ (code a ++ code b) := by
  obtain ⟨h1, h2⟩ := display_eq a ha
  obtain ⟨h3, h4⟩ := display_eq b hb
  rw [alias_eq (lit k.text ++ (segs a ++ segs b)) (plain_append (kw_ok k).1 (plain_append h2 h4)) _ (by
    rw [render_append, render_append, render_lit, h1, h3]; simp), E_append, E_append, (kw_ok k).2]
  rfl

theorem name_bare3 (k : Kw) (a b c : IT) (ha : NoUser a) (hb : NoUser b) (hc : NoUser c) :
    aliasName [k.text, a.display, b.display, c.display] = k.text ++ (code a ++ (code b ++ code c)) := by
  obtain ⟨h1, h2⟩ := display_eq a ha
  obtain ⟨h3, h4⟩ := display_eq b hb
  obtain ⟨h5, h6⟩ := display_eq c hc
  rw [alias_eq (lit k.text ++ (segs a ++ (segs b ++ segs c))) (plain_append (kw_ok k).1 (plain_append h2 (plain_append h4 h6))) _ (by
    rw [render_append, render_append, render_append, render_lit, h1, h3, h5]; simp), E_append, E_append, E_append, (kw_ok k).2]
  rfl

theorem made_name (m : Made) (h : m.NoUser) : m.name = m.kw.text ++ m.rest := by
  cases m with
  | fnOne a => exact name_one .fn a h _ t_ok.1 t_ok.2
  | fnTwo a b => exact name_two .fn a b h.1 h.2 _ t_ok.1 t_ok.2
  | pairHeader a b => exact name_bare2 .tuple a b h.1 h.2
  | tripleHeader a b c => exact name_bare3 .tuple a b c h.1 h.2.1 h.2.2
  | vecHeader a => exact name_bare .vecFile a h
  | vecFree a => exact name_one .cVec a h _ free_ok.1 free_ok.2
  | vecClass a => exact name_bare .vec a h
  | voidResHeader a => exact name_bare .voidRes a h
  | resHeader a b => exact name_bare2 .res a b h.1 h.2

def allKw : List Kw := [.fn, .tuple, .vecFile, .cVec, .vec, .voidRes, .res]
theorem mem_allKw (k : Kw) : k ∈ allKw := by cases k <;> decide

theorem kw_prefix : ∀ k ∈ allKw, ∀ k' ∈ allKw, k.text.isPrefixOf k'.text = true → k = k' := by decide

theorem kw_cancel (k k' : Kw) (r r' : Text) (e : k.text ++ r = k'.text ++ r') : k = k' ∧ r = r' := by
  have hk : k = k' := by
    rcases Nat.le_total k.text.length k'.text.length with hl | hl
    · exact kw_prefix k (mem_allKw k) k' (mem_allKw k')
        (List.isPrefixOf_iff_prefix.2 (List.prefix_of_prefix_length_le ⟨r, e⟩ ⟨r', rfl⟩ hl))
    · exact (kw_prefix k' (mem_allKw k') k (mem_allKw k)
        (List.isPrefixOf_iff_prefix.2 (List.prefix_of_prefix_length_le ⟨r', e.symm⟩ ⟨r, rfl⟩ hl))).symm
  exact ⟨hk, List.append_cancel_left (hk ▸ e)⟩

theorem code_ne (t : IT) (ht : NoUser t) : code t ≠ [] := by
  obtain ⟨c, r, h, _⟩ := code_start t ht []
  intro e
  rw [e] at h
  simp at h

theorem tail_ne {b : IT} (hb : NoUser b) (s : Text) : s ≠ code b ++ s := fun h =>
  code_ne b hb (by have := congrArg List.length h; simp at this; exact this)

theorem E_code (t : IT) : ∀ c ∈ code t, NameChar c := fun c h => E_name (segs t) c h

/-! ## Theorems -/

/-- C56: all other names generic rules make are different from each other as well. -/
theorem C56_other_names (m m' : Made) (h : m.NoUser) (h' : m'.NoUser) (e : m.name = m'.name) : m = m' := by
  rw [made_name m h, made_name m' h'] at e
  obtain ⟨hk, hr⟩ := kw_cancel _ _ _ _ e
  cases m <;> cases m' <;> first | (cases hk; done) | skip
  · rename_i a a'; rw [(code_cancel a h a' h' _ _ hr).1]
  · rename_i a a' b'; exact absurd (code_cancel a h a' h'.1 _ _ hr).2 (tail_ne h'.2 _)
  · rename_i a b a'; exact absurd (code_cancel a h.1 a' h' _ _ hr).2.symm (tail_ne h.2 _)
  · rename_i a b a' b'
    obtain ⟨h1, h2⟩ := code_cancel a h.1 a' h'.1 _ _ hr
    rw [h1, (code_cancel b h.2 b' h'.2 _ _ h2).1]
  · rename_i a b a' b'
    obtain ⟨h1, h2⟩ := code_cancel a h.1 a' h'.1 _ _ hr
    rw [h1, code_inj b b' h.2 h'.2 h2]
  · rename_i a b a' b' c'
    obtain ⟨_, h2⟩ := code_cancel a h.1 a' h'.1 _ _ hr
    have h3 : code b ++ [] = code b' ++ code c' := by rw [List.append_nil]; exact h2
    exact absurd (code_cancel b h.2 b' h'.2.1 _ _ h3).2.symm (code_ne c' h'.2.2)
  · rename_i a b c a' b'
    obtain ⟨_, h2⟩ := code_cancel a h.1 a' h'.1 _ _ hr
    have h3 : code b ++ code c = code b' ++ [] := by rw [List.append_nil]; exact h2
    exact absurd (code_cancel b h.2.1 b' h'.2 _ _ h3).2 (code_ne c h.2.2)
  · rename_i a b c a' b' c'
    obtain ⟨h1, h2⟩ := code_cancel a h.1 a' h'.1 _ _ hr
    obtain ⟨h3, h4⟩ := code_cancel b h.2.1 b' h'.2.1 _ _ h2
    rw [h1, h3, code_inj c c' h.2.2 h'.2.2 h4]
  · rename_i a a'; rw [code_inj a a' h h' hr]
  · rename_i a a'; rw [(code_cancel a h a' h' _ _ hr).1]
  · rename_i a a'; rw [code_inj a a' h h' hr]
  · rename_i a a'; rw [code_inj a a' h h' hr]
  · rename_i a b a' b'
    obtain ⟨h1, h2⟩ := code_cancel a h.1 a' h'.1 _ _ hr
    rw [h1, code_inj b b' h.2 h'.2 h2]

theorem kw_start (k : Kw) (hk : k ≠ .cVec) : ∃ c r, k.text = c :: r ∧ c ≠ 'C' := by
  cases k <;> first | exact absurd rfl hk | exact ⟨_, _, rfl, by decide⟩

/-- C56: and no struct or union has such a name. -/
theorem C56_not_a_type (m : Made) (h : m.NoUser) (t : IT) (ht : NoUser t) : t.structName ≠ some m.name ∧ t.unionName ≠ some m.name := by
  have hC : ∀ n, (t.structName = some n ∨ t.unionName = some n) → ∃ r, n = 'C' :: r := by
    rintro n (hn | hn)
    · have e := structName_eq t ht n hn
      rw [code_eq t ht] at e
      have : ∃ r, (headOf t).text = 'C' :: r := by
        cases t with
        | leaf l => cases hn
        | user u => cases hn
        | un k a => cases k <;> first | (cases hn; done) | exact ⟨_, rfl⟩
        | bin k a b => cases k <;> exact ⟨_, rfl⟩
        | triple a b c => exact ⟨_, rfl⟩
      obtain ⟨r, hr⟩ := this
      exact ⟨r ++ partsOf t, by rw [e, hr]; rfl⟩
    · have e := unionName_eq t ht n hn
      have : ∃ r, (unionHead t).text = 'C' :: r := by
        unfold unionHead; split <;> exact ⟨_, rfl⟩
      obtain ⟨r, hr⟩ := this
      exact ⟨r ++ partsOf t, by rw [e, hr]; rfl⟩
  by_cases hk : m.kw = .cVec
  · cases m with
    | vecFree a =>
      have hn := made_name _ h
      have hv : (Made.vecFree a).name = code (.un .vec a) ++ "_free".toList := by
        rw [hn, code_un, List.append_assoc]; rfl
      constructor
      · intro hs
        have e := structName_eq t ht _ hs
        rw [hv] at e
        have := code_cancel (.un .vec a) h t ht "_free".toList [] (by rw [List.append_nil]; exact e)
        exact absurd this.2 (by decide)
      · intro hs
        have e := unionName_eq t ht _ hs
        rw [hn] at e
        have e' : (Head.un .vec).text ++ (code a ++ "_free".toList) = (unionHead t).text ++ partsOf t := e
        have hp : (unionHead t).hasParts = true → OkStart (partsOf t) := fun _ => by
          have := parts_start t ht []
          rw [List.append_nil] at this
          apply this
          cases t with
          | leaf l => cases hs
          | user u => cases hs
          | _ => rfl
        obtain ⟨h1, _⟩ := head_cancel _ _ _ _ (fun _ => code_start a h _) hp e'
        revert h1
        unfold unionHead; split <;> simp
    | _ => cases hk
  · obtain ⟨c, r, hc, hne⟩ := kw_start m.kw hk
    have hn := made_name m h
    have no : ∀ n, (t.structName = some n ∨ t.unionName = some n) → n ≠ m.name := by
      intro n hn' e
      obtain ⟨r', hr'⟩ := hC n hn'
      rw [e, hn, hc] at hr'
      simp only [List.cons_append, List.cons.injEq] at hr'
      exact hne hr'.1
    exact ⟨fun hs => no _ (.inl hs) rfl, fun hs => no _ (.inr hs) rfl⟩

/-- C56: the functions made for vectors of objects of two classes (whose names are letters, digits and underscores) are different, and the three functions of
one class are. -/
theorem C56_foreign_vec_functions (c c' : Text) (hc : ∀ x ∈ c, NameChar x) (hc' : ∀ x ∈ c', NameChar x) (n : Text)
    (h : n ∈ foreignVecFunctions c) : (foreignVecFunctions c).Nodup ∧ (n ∈ foreignVecFunctions c' → c = c') := by
  have form : ∀ d : Text, (∀ x ∈ d, NameChar x) → foreignVecFunctions d =
      ["RustForeignVec".toList ++ (d ++ "_free".toList), "RustForeignVec".toList ++ (d ++ "_push".toList),
        "RustForeignVec".toList ++ (d ++ "_remove".toList)] := by
    intro d hd
    have plain : ∀ s : Text, (∀ x ∈ s, NameChar x) → aliasName ["RustForeignVec".toList, d, s] = "RustForeignVec".toList ++ (d ++ s) := by
      intro s hs
      have hall : ∀ x ∈ "RustForeignVec".toList ++ (d ++ s), NameChar x := by
        have h0 : ∀ x ∈ "RustForeignVec".toList, NameChar x := by unfold NameChar; decide
        intro x hx
        rcases List.mem_append.1 hx with hx | hx
        · exact h0 x hx
        · rcases List.mem_append.1 hx with hx | hx
          · exact hd x hx
          · exact hs x hx
      rw [alias_eq (lit ("RustForeignVec".toList ++ (d ++ s))) (plain_lit fun hx => colon_not_name (hall _ hx)) _ (by
        rw [render_lit]; simp), E_lit_name _ hall]
    simp only [foreignVecFunctions]
    rw [plain _ (by unfold NameChar; decide), plain _ (by unfold NameChar; decide), plain _ (by unfold NameChar; decide)]
  have ends : ∀ (d d' s s' : Text), "RustForeignVec".toList ++ (d ++ s) = "RustForeignVec".toList ++ (d' ++ s') →
      s.reverse <+: (d' ++ s').reverse := by
    intro d d' s s' e
    rw [← List.append_cancel_left e, List.reverse_append]
    exact List.prefix_append _ _
  have same : ∀ (d d' s s' : Text) (k k' : Char) (r r' : Text), s.reverse = k :: r → s'.reverse = k' :: r' →
      "RustForeignVec".toList ++ (d ++ s) = "RustForeignVec".toList ++ (d' ++ s') → k = k' := by
    intro d d' s s' k k' r r' hk hk' e
    have e2 := congrArg List.reverse (List.append_cancel_left e)
    rw [List.reverse_append, List.reverse_append, hk, hk'] at e2
    simp only [List.cons_append, List.cons.injEq] at e2
    exact e2.1
  have ef : "_free".toList.reverse = 'e' :: "erf_".toList := by decide
  have ep : "_push".toList.reverse = 'h' :: "sup_".toList := by decide
  have er : "_remove".toList.reverse = 'e' :: "vomer_".toList := by decide
  have diff : ∀ d d' : Text, "RustForeignVec".toList ++ (d ++ "_free".toList) ≠ "RustForeignVec".toList ++ (d' ++ "_remove".toList) := by
    intro d d' e
    have e2 := congrArg List.reverse (List.append_cancel_left e)
    rw [List.reverse_append, List.reverse_append, ef, er] at e2
    have h1 : "erf_".toList = 'e' :: "rf_".toList := by decide
    have h2 : "vomer_".toList = 'v' :: "omer_".toList := by decide
    rw [h1, h2] at e2
    simp at e2
  rw [form c hc] at h ⊢
  rw [form c' hc']
  refine ⟨?_, fun h' => ?_⟩
  · simp only [List.nodup_cons, List.mem_cons, List.not_mem_nil, or_false, not_or, not_false_eq_true, List.nodup_nil, and_true]
    refine ⟨⟨fun e => ?_, diff c c⟩, fun e => ?_⟩
    · exact absurd (same _ _ _ _ _ _ _ _ ef ep e) (by decide)
    · exact absurd (same _ _ _ _ _ _ _ _ ep er e) (by decide)
  · simp only [List.mem_cons, List.not_mem_nil, or_false] at h h'
    rcases h with rfl | rfl | rfl <;> rcases h' with e | e | e
    · exact List.append_cancel_right (List.append_cancel_left e)
    · exact absurd (same _ _ _ _ _ _ _ _ ef ep e) (by decide)
    · exact absurd e (diff _ _)
    · exact absurd (same _ _ _ _ _ _ _ _ ep ef e) (by decide)
    · exact List.append_cancel_right (List.append_cancel_left e)
    · exact absurd (same _ _ _ _ _ _ _ _ ep er e) (by decide)
    · exact absurd e.symm (diff _ _)
    · exact absurd (same _ _ _ _ _ _ _ _ er ep e) (by decide)
    · exact List.append_cancel_right (List.append_cancel_left e)

/-- C56, finding: with types of the user's own function pointers get one name too: with one and with two arguments. -/
theorem C56_finding_function_pointers :
    Made.fnOne (.user "Foou8".toList) ≠ .fnTwo (.user "Foo".toList) (.leaf .u8) ∧
    (Made.fnOne (.user "Foou8".toList)).name = (Made.fnTwo (.user "Foo".toList) (.leaf .u8)).name := by decide +kernel

example : (Made.fnTwo (.leaf .i32) (.un .mutPtr (.leaf .cVoid))).name = "c_fn_i324232mut3232c_void_t".toList ∧
    (Made.fnTwo (.leaf .i32) (.un .mutPtr (.leaf .cVoid))).NoUser := ⟨by decide +kernel, trivial, trivial⟩

end Flapi.Alias
