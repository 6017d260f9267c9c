import Verif.Java.ClassGenProps
import Verif.Core.TemplateProps
/-!
# C34, C62: the Java code that converts an argument or a result
-/
namespace Flapi.JavaConv

open Flapi.JavaNames Flapi.JavaCode Flapi.Template

/-! ## Specification -/

/-- The code of a converter as its author writes it: Java text, the new variable together with its type, the new variable, the
value to convert. -/
inductive CPiece
  | code (t : Text)
  | declare
  | target
  | source

/-- The placeholders of the rule language. -/
def kwDeclare : Text := "{to_var_type}".toList
def kwTarget : Text := "{to_var}".toList
def kwSource : Text := "{from_var}".toList

/-- How it is written in the rule. -/
def written : List CPiece → Text
  | [] => []
  | .code t :: l => t ++ written l
  | .declare :: l => kwDeclare ++ written l
  | .target :: l => kwTarget ++ written l
  | .source :: l => kwSource ++ written l

/-- What it means: a variable `new` of type `ty` is declared and set to the converted value of `old`. -/
def meant (ty new old : Text) : List CPiece → Text
  | [] => []
  | .code t :: l => t ++ meant ty new old l
  | .declare :: l => ty ++ ' ' :: new ++ meant ty new old l
  | .target :: l => new ++ meant ty new old l
  | .source :: l => old ++ meant ty new old l

/-- Java text that is no placeholder and has no annotation in it. -/
def Plain (t : Text) : Prop := '{' ∉ t ∧ '@' ∉ t

/-! ## Lemmas -/

def piece : CPiece → Piece
  | .code t => .lit t
  | .declare => .ph toVarType
  | .target => .ph toVar
  | .source => .ph fromVar

theorem written_eq (l : List CPiece) : written l = render (l.map piece) := by
  induction l with
  | nil => rfl
  | cons p l ih =>
    cases p with
    | code t => exact congrArg (t ++ ·) ih
    | declare => exact congrArg (toVarType ++ ·) ih
    | target => exact congrArg (toVar ++ ·) ih
    | source => exact congrArg (fromVar ++ ·) ih

theorem meant_at (ty new old : Text) {l : List CPiece} (h : ∀ t, CPiece.code t ∈ l → '@' ∉ t)
    (h1 : '@' ∉ ty) (h2 : '@' ∉ new) (h3 : '@' ∉ old) : '@' ∉ meant ty new old l := by
  induction l with
  | nil => exact List.not_mem_nil
  | cons p l ih =>
    have ih := ih (fun t ht => h t (List.mem_cons_of_mem _ ht))
    cases p with
    | code t =>
      simp only [meant, List.mem_append, not_or]
      exact ⟨h t List.mem_cons_self, ih⟩
    | declare =>
      simp only [meant, List.mem_append, List.mem_cons, not_or]
      exact ⟨⟨h1, by decide, h2⟩, ih⟩
    | target =>
      simp only [meant, List.mem_append, not_or]
      exact ⟨h2, ih⟩
    | source =>
      simp only [meant, List.mem_append, not_or]
      exact ⟨h3, ih⟩

theorem filterNull_plain {t : Text} (h : '@' ∉ t) : filterNull t = t := by
  have h1 : ¬ nonNull <:+: t := fun hh => h (hh.subset (by decide))
  have h2 : ¬ nullable <:+: t := fun hh => h (hh.subset (by decide))
  unfold filterNull
  rw [strReplace_absent _ _ _ h1, strReplace_absent _ _ _ h2]

theorem token_brace : ∀ a ∈ [toVarType, toVar, fromVar], ∃ b, a = '{' :: b := by
  intro a ha
  simp only [List.mem_cons, List.not_mem_nil, or_false] at ha
  rcases ha with rfl | rfl | rfl
  · exact ⟨"to_var_type}".toList, by decide⟩
  · exact ⟨"to_var}".toList, by decide⟩
  · exact ⟨"from_var}".toList, by decide⟩

theorem token_inert : ∀ a ∈ [toVarType, toVar, fromVar], ∀ b ∈ [toVarType, toVar, fromVar], a = b ∨ Inert b a := by
  have : ∀ a ∈ [toVarType, toVar, fromVar], ∀ b ∈ [toVarType, toVar, fromVar], a = b ∨ inertB b a = true := by decide
  intro a ha b hb
  rcases this a ha b hb with h | h
  · exact Or.inl h
  · exact Or.inr ((inertB_iff _ _).1 h)

theorem inst_meant (σ : Text → Text) (ty new old : Text) (l : List CPiece) (h1 : σ toVarType = ty ++ ' ' :: new)
    (h2 : σ toVar = new) (h3 : σ fromVar = old) : instantiate σ (l.map piece) = meant ty new old l := by
  induction l with
  | nil => rfl
  | cons p l ih =>
    cases p with
    | code t => simp only [List.map_cons, piece, instantiate, meant, ih]
    | declare => simp only [List.map_cons, piece, instantiate, meant, ih, h1]
    | target => simp only [List.map_cons, piece, instantiate, meant, ih, h2]
    | source => simp only [List.map_cons, piece, instantiate, meant, ih, h3]

/-- Whatever the order of the three replacements. -/
theorem seq_meant (kv : List (Text × Text)) (ty new old : Text) (l : List CPiece)
    (hk : ∀ p ∈ kv, p.1 ∈ [toVarType, toVar, fromVar]) (hv : ∀ p ∈ kv, '{' ∉ p.2)
    (hl : ∀ t, CPiece.code t ∈ l → '{' ∉ t)
    (h1 : valueOf kv toVarType = ty ++ ' ' :: new) (h2 : valueOf kv toVar = new) (h3 : valueOf kv fromVar = old) :
    seqReplace (written l) kv = meant ty new old l := by
  have brace : ∀ p ∈ kv, ∀ t : Text, '{' ∉ t → Inert p.1 t := by
    intro p hp t ht
    obtain ⟨b, hb⟩ := token_brace _ (hk p hp)
    rw [hb]
    exact inert_of_not_mem _ _ _ ht
  rw [written_eq, C09_sequential_is_simultaneous kv (l.map piece)]
  · exact inst_meant _ _ _ _ _ h1 h2 h3
  · intro p hp
    obtain ⟨b, hb⟩ := token_brace _ (hk p hp)
    rw [hb]
    exact List.cons_ne_nil _ _
  · intro p hp q hq
    exact brace p hp _ (hv q hq)
  · intro t ht p hp
    obtain ⟨c, hc, he⟩ := List.mem_map.1 ht
    cases c with
    | code t' =>
      simp only [piece, Piece.lit.injEq] at he
      subst he
      exact brace p hp _ (hl _ hc)
    | declare => cases he
    | target => cases he
    | source => cases he
  · intro t ht p hp
    obtain ⟨c, hc, he⟩ := List.mem_map.1 ht
    refine token_inert t ?_ _ (hk p hp)
    cases c with
    | code t' => cases he
    | declare => simp only [piece, Piece.ph.injEq] at he; subst he; exact List.mem_cons_self
    | target => simp only [piece, Piece.ph.injEq] at he; subst he; exact List.mem_cons_of_mem _ List.mem_cons_self
    | source =>
      simp only [piece, Piece.ph.injEq] at he; subst he
      exact List.mem_cons_of_mem _ (List.mem_cons_of_mem _ List.mem_cons_self)

theorem ne12 : toVarType ≠ toVar := by decide
theorem ne13 : toVarType ≠ fromVar := by decide
theorem ne23 : toVar ≠ fromVar := by decide

/-! ## Property theorems -/

/-- **C34**: the code in front of a native call that converts an argument is exactly what the rule's author wrote, with the type
and name of the new variable where it is declared, its name where it is used, and the argument where the value is used. -/
theorem C34_argument_code (k : Conv) (l : List CPiece) (new arg : Text) (hk : k.converter = written l)
    (hl : ∀ t, CPiece.code t ∈ l → Plain t) (ht : Plain k.transition) (hn : Plain new) (ha : Plain arg) :
    convText k new arg = meant k.transition new arg l := by
  have hs := seq_meant [(toVarType, k.transition ++ ' ' :: new), (toVar, new), (fromVar, arg)] k.transition new arg l
    (by intro p hp; simp only [List.mem_cons, List.not_mem_nil, or_false] at hp ⊢; rcases hp with rfl | rfl | rfl <;> simp)
    (by
      intro p hp
      simp only [List.mem_cons, List.not_mem_nil, or_false] at hp
      rcases hp with rfl | rfl | rfl
      · simp only [List.mem_append, List.mem_cons, not_or]
        exact ⟨ht.1, by decide, hn.1⟩
      · exact hn.1
      · exact ha.1)
    (fun t h => (hl t h).1)
    (by simp [valueOf])
    (by simp [valueOf, ne12])
    (by simp [valueOf, ne13, ne23])
  have hp := filterNull_plain (meant_at k.transition new arg (fun t h => (hl t h).2) ht.2 hn.2 ha.2)
  unfold convText
  rw [hk]
  simp only [seqReplace, List.foldl_cons, List.foldl_nil] at hs
  rw [hs]
  exact hp

/-- **C62**: the code after a native call that converts its result is what the rule's author wrote (up to white space at the
ends and a line break and indentation in front), with the user's type and the returned variable where it is declared, its name
where it is used, and the variable holding what the native function returned where the value is used. -/
theorem C62_result_code (ws : Char → Bool) (t : Info) (k : Conv) (l : List CPiece) (ret conv : Text) (hk : k.converter = written l)
    (hl : ∀ x, CPiece.code x ∈ l → Plain x) (ht : Plain t.name) (hr : Plain ret) (hc : Plain conv) :
    ∃ lead, (∀ c ∈ lead, c = '\n' ∨ c = ' ') ∧
      JavaClassGen.outputConv ws t k ret conv = lead ++ Comments.trim ws (meant t.name conv ret l) := by
  have hs := seq_meant [(fromVar, ret), (toVarType, t.name ++ ' ' :: conv), (toVar, conv)] t.name conv ret l
    (by intro p hp; simp only [List.mem_cons, List.not_mem_nil, or_false] at hp ⊢; rcases hp with rfl | rfl | rfl <;> simp)
    (by
      intro p hp
      simp only [List.mem_cons, List.not_mem_nil, or_false] at hp
      rcases hp with rfl | rfl | rfl
      · exact hr.1
      · simp only [List.mem_append, List.mem_cons, not_or]
        exact ⟨ht.1, by decide, hc.1⟩
      · exact hc.1)
    (fun t h => (hl t h).1)
    (by simp [valueOf, ne13.symm])
    (by simp [valueOf, ne23.symm, ne12])
    (by simp [valueOf])
  have hp := filterNull_plain (meant_at t.name conv ret (fun t h => (hl t h).2) ht.2 hc.2 hr.2)
  simp only [seqReplace, List.foldl_cons, List.foldl_nil] at hs
  unfold JavaClassGen.outputConv
  simp only
  rw [hk, hs, hp]
  have hi : ∀ c ∈ JavaCode.indent, c = '\n' ∨ c = ' ' := by decide
  split
  · split
    · exact ⟨['\n'], by simp, rfl⟩
    · refine ⟨'\n' :: JavaCode.indent, ?_, by simp⟩
      intro c hc
      rcases List.mem_cons.1 hc with rfl | hc
      · exact Or.inl rfl
      · exact hi c hc
  · exact ⟨[], by simp, rfl⟩

/-! Non-vacuity: the converters of class arguments and results. -/
example : convText ⟨"long".toList, none, written [.code "        ".toList, .declare, .code " = ".toList, .source, .code ".mNativeObj;\n        ".toList,
      .source, .code ".mNativeObj = 0;\n".toList]⟩ "a0".toList "x".toList =
    "        long a0 = x.mNativeObj;\n        x.mNativeObj = 0;\n".toList := by
  rw [C34_argument_code _ _ _ _ rfl]
  · decide
  · intro t ht
    simp only [List.mem_cons, List.not_mem_nil, or_false, CPiece.code.injEq, reduceCtorEq, false_or] at ht
    rcases ht with rfl | rfl | rfl | rfl <;> exact ⟨by decide, by decide⟩
  · exact ⟨by decide, by decide⟩
  · exact ⟨by decide, by decide⟩
  · exact ⟨by decide, by decide⟩

end Flapi.JavaConv
