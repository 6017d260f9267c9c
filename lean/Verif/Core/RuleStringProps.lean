import Verif.Core.TemplateProps
/-!
# C09 – the conversion string of a typemap rule, from the text in the rule to the generated code
-/
namespace Flapi.Template

/-! ## Specification -/

/-- A conversion string as the author of the rule sees it: text, the input variable, the output variable and temporaries. -/
inductive RPiece
  | lit (t : Text)
  | var
  | out
  | tmp (n : Text)

/-- How it is written, for a rule whose input variable is called `v`. -/
def RPiece.write (v : Text) : RPiece → Text
  | .lit t => t
  | .var => '$' :: v
  | .out => "$out".toList
  | .tmp n => '$' :: n

/-- The text in the rule. -/
def source (v : Text) (ps : List RPiece) : Text := ps.flatMap (RPiece.write v)

/-- What it means: the input variable stands for `fromName`, the first `$out` for `toType` (in C++ the declaration), the later ones for
`toName`, each temporary for its own name. -/
def meaning (fromName toType toName : Text) (tv : Text → Text) : Bool → List RPiece → Text
  | _, [] => []
  | seen, .lit t :: ps => t ++ meaning fromName toType toName tv seen ps
  | seen, .var :: ps => fromName ++ meaning fromName toType toName tv seen ps
  | seen, .out :: ps => (if seen then toName else toType) ++ meaning fromName toType toName tv true ps
  | seen, .tmp n :: ps => tv n ++ meaning fromName toType toName tv seen ps

/-- The names in the string can be told apart: they are not empty, contain neither `$` nor `{`, and none is a prefix of another. -/
structure GoodNames (v : Text) (temps : List Text) : Prop where
  chars : ∀ n ∈ v :: "out".toList :: temps, n ≠ [] ∧ '$' ∉ n ∧ '{' ∉ n
  pre : ∀ a ∈ v :: "out".toList :: temps, ∀ b ∈ v :: "out".toList :: temps, a <+: b → a = b
  nodup : (v :: "out".toList :: temps).Nodup

/-- The three placeholders used inside. -/
def ruleTokens : List Text := [fromVar, toVarType, toVar]

/-! ## Lemmas -/

theorem dollar_inert {a b : Text} (ha : '$' ∉ b) (h1 : ¬ a <+: b) (h2 : ¬ b <+: a) : Inert ('$' :: a) ('$' :: b) := by
  intro s hs hsuf
  rcases List.suffix_cons_iff.1 hsuf with rfl | hsuf
  · exact ⟨fun h => h1 (List.cons_prefix_cons.1 h).2, fun h => h2 (List.cons_prefix_cons.1 h).2⟩
  · have hns : '$' ∉ s := fun hm => ha (hsuf.subset hm)
    exact inert_of_not_mem '$' a s hns s hs (List.suffix_refl _)

theorem ruleTokens_inert : ∀ a ∈ ruleTokens, ∀ b ∈ ruleTokens, a = b ∨ Inert b a := by
  have : ∀ a ∈ ruleTokens, ∀ b ∈ ruleTokens, a = b ∨ inertB b a = true := by decide
  intro a ha b hb
  rcases this a ha b hb with h | h
  · exact Or.inl h
  · exact Or.inr ((inertB_iff _ _).1 h)

theorem ruleTokens_dollar : ∀ a ∈ ruleTokens, '$' ∉ a := by decide

theorem ruleTokens_head : ∀ a ∈ ruleTokens, ∃ r, a = '{' :: r := by
  intro a ha
  simp only [ruleTokens, List.mem_cons, List.not_mem_nil, or_false] at ha
  rcases ha with rfl | rfl | rfl
  · exact ⟨"from_var}".toList, rfl⟩
  · exact ⟨"to_var_type}".toList, rfl⟩
  · exact ⟨"to_var}".toList, rfl⟩

/-- After both replacements of `parse_f_type_rule`. -/
def piecesOf : Bool → List RPiece → List Piece
  | _, [] => []
  | m, .lit t :: ps => .lit t :: piecesOf m ps
  | m, .var :: ps => .ph fromVar :: piecesOf m ps
  | m, .out :: ps => .ph (if m then toVar else toVarType) :: piecesOf true ps
  | m, .tmp n :: ps => .ph ('$' :: n) :: piecesOf m ps

/-- The text between the two replacements. -/
def middle (ps : List RPiece) : Text :=
  ps.flatMap fun | .lit t => t | .var => fromVar | .out => "$out".toList | .tmp n => '$' :: n

structure GoodPieces (v : Text) (temps : List Text) (ps : List RPiece) : Prop where
  lits : ∀ t, RPiece.lit t ∈ ps → '$' ∉ t ∧ ∀ tok ∈ ruleTokens, Inert tok t
  tmps : ∀ n, RPiece.tmp n ∈ ps → n ∈ temps

theorem GoodPieces.tail {v : Text} {temps : List Text} {p : RPiece} {ps : List RPiece} (h : GoodPieces v temps (p :: ps)) :
    GoodPieces v temps ps :=
  ⟨fun t ht => h.lits t (List.mem_cons_of_mem _ ht), fun n hn => h.tmps n (List.mem_cons_of_mem _ hn)⟩

theorem inert_pair {v : Text} {temps : List Text} (g : GoodNames v temps) {a b : Text} (ha : a ∈ v :: "out".toList :: temps)
    (hb : b ∈ v :: "out".toList :: temps) (hne : a ≠ b) : Inert ('$' :: a) ('$' :: b) :=
  dollar_inert (g.chars b hb).2.1 (fun h => hne (g.pre a ha b hb h)) (fun h => hne (g.pre b hb a ha h).symm)

theorem replace_var (v : Text) (temps : List Text) (g : GoodNames v temps) (ps : List RPiece) (hp : GoodPieces v temps ps) :
    strReplace (source v ps) ('$' :: v) fromVar = middle ps := by
  have hne : ('$' :: v : Text) ≠ [] := by simp
  induction ps with
  | nil => exact strReplace_nil _ _ hne
  | cons p ps ih =>
    have ih := ih hp.tail
    cases p with
    | lit t =>
      have h := inert_of_not_mem '$' v t (hp.lits t (by simp)).1
      simp only [source, List.flatMap_cons, RPiece.write, middle] at ih ⊢
      rw [strReplace_inert _ _ _ _ hne h, ih]
    | var =>
      simp only [source, List.flatMap_cons, RPiece.write, middle] at ih ⊢
      rw [strReplace_match _ _ _ hne, ih]
    | out =>
      have hd : v ≠ "out".toList := by
        intro e
        have := (List.nodup_cons.1 g.nodup).1
        exact this (by simp [e])
      have h : Inert ('$' :: v) "$out".toList :=
        show Inert ('$' :: v) ('$' :: "out".toList) from inert_pair g (by simp) (by simp) hd
      simp only [source, List.flatMap_cons, RPiece.write, middle] at ih ⊢
      rw [strReplace_inert _ _ _ _ hne h, ih]
    | tmp n =>
      have hn := hp.tmps n (by simp)
      have hd : v ≠ n := by
        intro e
        have := (List.nodup_cons.1 g.nodup).1
        exact this (by simp [e, hn])
      have h : Inert ('$' :: v) ('$' :: n) := inert_pair g (by simp) (by simp [hn]) hd
      simp only [source, List.flatMap_cons, RPiece.write, middle] at ih ⊢
      rw [strReplace_inert _ _ _ _ hne h, ih]

theorem replace_out (v : Text) (temps : List Text) (g : GoodNames v temps) (ps : List RPiece) (hp : GoodPieces v temps ps) (m : Bool) :
    repl "$out".toList toVarType toVar m 0 (middle ps) = render (piecesOf m ps) := by
  have e : ("$out".toList : Text) = '$' :: "out".toList := rfl
  have hne : ("$out".toList : Text) ≠ [] := by rw [e]; simp
  induction ps generalizing m with
  | nil => simp [middle, piecesOf, render, repl]
  | cons p ps ih =>
    have ih := ih hp.tail
    cases p with
    | lit t =>
      have h : Inert "$out".toList t := by rw [e]; exact inert_of_not_mem '$' _ t (hp.lits t (by simp)).1
      simp only [middle, List.flatMap_cons, piecesOf, render] at ih ⊢
      rw [repl_inert _ _ _ _ _ _ h, ih]
    | var =>
      have h : Inert "$out".toList fromVar := by rw [e]; exact inert_of_not_mem '$' _ _ (ruleTokens_dollar _ (by simp [ruleTokens]))
      simp only [middle, List.flatMap_cons, piecesOf, render] at ih ⊢
      rw [repl_inert _ _ _ _ _ _ h, ih]
    | out =>
      simp only [middle, List.flatMap_cons, piecesOf, render] at ih ⊢
      rw [repl_match _ _ _ hne, ih]
    | tmp n =>
      have hn := hp.tmps n (by simp)
      have hd : "out".toList ≠ n := by
        intro e
        have := (List.nodup_cons.1 (List.nodup_cons.1 g.nodup).2).1
        exact this (by rw [e]; exact hn)
      have h : Inert "$out".toList ('$' :: n) := by rw [e]; exact inert_pair g (by simp) (by simp [hn]) hd
      simp only [middle, List.flatMap_cons, piecesOf, render] at ih ⊢
      rw [repl_inert _ _ _ _ _ _ h, ih]

theorem code_render (v : Text) (temps : List Text) (g : GoodNames v temps) (ps : List RPiece) (hp : GoodPieces v temps ps) :
    replaceFirstAndOther (strReplace (source v ps) ('$' :: v) fromVar) "$out".toList toVarType toVar = render (piecesOf false ps) := by
  have hne : ("$out".toList : Text) ≠ [] := by
    have e : ("$out".toList : Text) = '$' :: "out".toList := rfl
    rw [e]; simp
  rw [replace_var v temps g ps hp, replaceFirstAndOther_eq_repl _ _ _ _ hne, replace_out v temps g ps hp]

theorem ph_infix {t : Text} {ps : List Piece} (h : Piece.ph t ∈ ps) : t <:+: render ps := by
  induction ps with
  | nil => simp at h
  | cons p ps ih =>
    rcases List.mem_cons.1 h with rfl | h'
    · exact ⟨[], render ps, by simp [render]⟩
    · cases p with
      | lit x => exact (ih h').trans ⟨x, [], by simp [render]⟩
      | ph x => exact (ih h').trans ⟨x, [], by simp [render]⟩

theorem collect_temps (f tt tn : Text) (temps known : List Text) :
    collectVals (cppSubst f tt tn) known (temps.map ('$' :: ·)) =
      (NameGen.allocNames known temps).map fun ns => (ns, ns.reverse ++ known) := by
  induction temps generalizing known with
  | nil => simp [collectVals, NameGen.allocNames]
  | cons t ts ih =>
    simp only [List.map_cons, collectVals, classify, cppSubst, NameGen.allocNames]
    cases NameGen.newUniqueName known t with
    | none => rfl
    | some n =>
      simp only [Option.bind_eq_bind, Option.bind_some, Option.pure_def, ih]
      cases NameGen.allocNames (n :: known) ts with
      | none => rfl
      | some ns => simp

theorem collect_names (f tt tn : Text) (known : List Text) (l : List (Text × Text))
    (hl : ∀ p ∈ l, p = (fromVar, f) ∨ p = (toVarType, tt) ∨ p = (toVar, tn)) (rest : List Text) :
    collectVals (cppSubst f tt tn) known (l.map (·.1) ++ rest) =
      (collectVals (cppSubst f tt tn) known rest).map fun x => (l.map (·.2) ++ x.1, x.2) := by
  induction l with
  | nil => simp
  | cons p l ih =>
    have ih := ih (fun q hq => hl q (List.mem_cons_of_mem _ hq))
    have h1 : cppSubst f tt tn known (classify p.1) = some (p.2, known) := by
      have e1 : toVarType ≠ fromVar := by decide
      have e2 : toVar ≠ fromVar := by decide
      have e3 : toVar ≠ toVarType := by decide
      rcases hl p (by simp) with rfl | rfl | rfl
      · rw [show classify (fromVar, f).1 = .name fromVar from classify_name fromVar (by decide)]; simp [cppSubst]
      · rw [show classify (toVarType, tt).1 = .name toVarType from classify_name toVarType (by decide)]; simp [cppSubst, e1]
      · rw [show classify (toVar, tn).1 = .name toVar from classify_name toVar (by decide)]; simp [cppSubst, e2, e3]
    simp only [List.map_cons, List.cons_append, collectVals, h1, Option.bind_eq_bind, Option.bind_some, ih, Option.pure_def]
    cases collectVals (cppSubst f tt tn) known rest <;> simp

theorem alloc_chars (known temps ns : List Text) (h : NameGen.allocNames known temps = some ns) (ht : ∀ n ∈ temps, '$' ∉ n ∧ '{' ∉ n) :
    ∀ n ∈ ns, '$' ∉ n ∧ '{' ∉ n := by
  induction temps generalizing known ns with
  | nil => simp [NameGen.allocNames] at h; subst h; simp
  | cons t ts ih =>
    simp only [NameGen.allocNames, Option.bind_eq_bind, Option.bind_eq_some_iff, Option.pure_def, Option.some.injEq] at h
    obtain ⟨n, h1, rest, h2, rfl⟩ := h
    have ih := ih _ rest h2 (fun x hx => ht x (List.mem_cons_of_mem _ hx))
    intro x hx
    rcases List.mem_cons.1 hx with rfl | hx
    · have hl := NameGen.C01_least _ _ _ h1
      have ht' := ht t (by simp)
      by_cases hm : t ∈ known
      · obtain ⟨i, rfl, _⟩ := hl.2 hm
        have hd : ∀ c ∈ dec i, c ≠ '$' ∧ c ≠ '{' := by
          intro c hc
          have := dec_isDigit hc
          constructor <;> (rintro rfl; revert this; decide)
        constructor
        · intro hc
          rcases List.mem_append.1 hc with hc | hc
          · exact ht'.1 hc
          · exact (hd _ hc).1 rfl
        · intro hc
          rcases List.mem_append.1 hc with hc | hc
          · exact ht'.2 hc
          · exact (hd _ hc).2 rfl
      · rw [hl.1 hm]; exact ht'
    · exact ih x hx

theorem valueOf_zip {temps : List Text} {ns : List Text} (tv : Text → Text) (h : temps.map tv = ns) {n : Text} (hn : n ∈ temps)
    (l : List (Text × Text)) (hl : ∀ p ∈ l, p.1 ≠ '$' :: n) :
    valueOf (l ++ (temps.map ('$' :: ·)).zip ns) ('$' :: n) = tv n := by
  have hf : l.find? (fun p => decide (p.1 = '$' :: n)) = none := by
    rw [List.find?_eq_none]; intro p hp; simpa using hl p hp
  have : ((temps.map ('$' :: ·)).zip ns).find? (fun p => decide (p.1 = '$' :: n)) = some ('$' :: n, tv n) := by
    subst h
    clear hf hl
    induction temps with
    | nil => simp at hn
    | cons t ts ih =>
      simp only [List.map_cons, List.zip_cons_cons, List.find?_cons]
      by_cases e : t = n
      · subst e; simp
      · have hn' : n ∈ ts := by
          rcases List.mem_cons.1 hn with h | h
          · exact absurd h.symm e
          · exact h
        have : (decide (('$' :: t : Text) = '$' :: n)) = false := by simp [e]
        rw [this]
        exact ih hn'
  rw [valueOf, List.find?_append, hf, this]
  rfl

theorem valueOf_name (l l2 : List (Text × Text)) (tok val : Text) (hm : (tok, val) ∈ l) (hu : ∀ p ∈ l, p.1 = tok → p.2 = val) :
    valueOf (l ++ l2) tok = val := by
  have : ∃ p, l.find? (fun p => decide (p.1 = tok)) = some p := by
    cases h : l.find? (fun p => decide (p.1 = tok)) with
    | none => rw [List.find?_eq_none] at h; exact absurd (h _ hm) (by simp)
    | some p => exact ⟨p, rfl⟩
  obtain ⟨p, hp⟩ := this
  rw [valueOf, List.find?_append, hp]
  have h1 := List.mem_of_find?_eq_some hp
  have h2 := List.find?_some hp
  exact hu p h1 (by simpa using h2)

theorem pieces_ph {v : Text} {temps : List Text} {ps : List RPiece} (hp : GoodPieces v temps ps) (m : Bool) (t : Text)
    (h : Piece.ph t ∈ piecesOf m ps) : t ∈ ruleTokens ∨ ∃ n ∈ temps, t = '$' :: n := by
  induction ps generalizing m with
  | nil => simp [piecesOf] at h
  | cons p ps ih =>
    have ih := fun m => ih hp.tail m
    cases p with
    | lit x =>
      simp only [piecesOf, List.mem_cons, reduceCtorEq, false_or] at h
      exact ih m h
    | var =>
      simp only [piecesOf, List.mem_cons, Piece.ph.injEq] at h
      rcases h with rfl | h
      · exact Or.inl (by simp [ruleTokens])
      · exact ih m h
    | out =>
      simp only [piecesOf, List.mem_cons, Piece.ph.injEq] at h
      rcases h with rfl | h
      · exact Or.inl (by cases m <;> simp [ruleTokens])
      · exact ih true h
    | tmp n =>
      simp only [piecesOf, List.mem_cons, Piece.ph.injEq] at h
      rcases h with rfl | h
      · exact Or.inr ⟨n, hp.tmps n (by simp), rfl⟩
      · exact ih m h

theorem pieces_lit {ps : List RPiece} (m : Bool) (t : Text) (h : Piece.lit t ∈ piecesOf m ps) : RPiece.lit t ∈ ps := by
  induction ps generalizing m with
  | nil => simp [piecesOf] at h
  | cons p ps ih =>
    cases p with
    | lit x =>
      simp only [piecesOf, List.mem_cons, Piece.lit.injEq] at h
      rcases h with rfl | h
      · simp
      · exact List.mem_cons_of_mem _ (ih m h)
    | var => simp only [piecesOf, List.mem_cons, reduceCtorEq, false_or] at h; exact List.mem_cons_of_mem _ (ih m h)
    | out => simp only [piecesOf, List.mem_cons, reduceCtorEq, false_or] at h; exact List.mem_cons_of_mem _ (ih true h)
    | tmp n => simp only [piecesOf, List.mem_cons, reduceCtorEq, false_or] at h; exact List.mem_cons_of_mem _ (ih m h)

theorem instantiate_meaning (σ : Text → Text) (f tt tn : Text) (tv : Text → Text) (ps : List RPiece) (m : Bool)
    (h1 : σ fromVar = f) (h2 : Piece.ph toVarType ∈ piecesOf m ps → σ toVarType = tt) (h3 : Piece.ph toVar ∈ piecesOf m ps → σ toVar = tn)
    (h4 : ∀ n, RPiece.tmp n ∈ ps → σ ('$' :: n) = tv n) : instantiate σ (piecesOf m ps) = meaning f tt tn tv m ps := by
  induction ps generalizing m with
  | nil => rfl
  | cons p ps ih =>
    have h4' : ∀ n, RPiece.tmp n ∈ ps → σ ('$' :: n) = tv n := fun n hn => h4 n (List.mem_cons_of_mem _ hn)
    cases p with
    | lit t =>
      simp only [piecesOf, instantiate, meaning] at h2 h3 ⊢
      rw [ih m (fun h => h2 (List.mem_cons_of_mem _ h)) (fun h => h3 (List.mem_cons_of_mem _ h)) h4']
    | var =>
      simp only [piecesOf, instantiate, meaning] at h2 h3 ⊢
      rw [ih m (fun h => h2 (List.mem_cons_of_mem _ h)) (fun h => h3 (List.mem_cons_of_mem _ h)) h4', h1]
    | out =>
      simp only [piecesOf, instantiate, meaning] at h2 h3 ⊢
      rw [ih true (fun h => h2 (List.mem_cons_of_mem _ h)) (fun h => h3 (List.mem_cons_of_mem _ h)) h4']
      cases m with
      | true => simp only [if_true] at h3 ⊢; rw [h3 (by simp)]
      | false => simp only [Bool.false_eq_true, if_false] at h2 ⊢; rw [h2 (by simp)]
    | tmp n =>
      simp only [piecesOf, instantiate, meaning] at h2 h3 ⊢
      rw [ih m (fun h => h2 (List.mem_cons_of_mem _ h)) (fun h => h3 (List.mem_cons_of_mem _ h)) h4', h4 n (by simp)]

/-! ## Theorem -/

/-- **C09 (rule strings, from the rule to the code).**  Let a rule have an input variable, temporaries and a conversion string in which
they can be told apart.  Then the C++ code generated for a conversion is the string with the input variable replaced by the name of the
value, the first `$out` by the declaration (or whatever `toType` stands for), every later `$out` by the name of the result, and every
temporary by its own new name (C01: distinct and not used before); nothing else changes. -/
theorem C09_rule_string (v : Text) (temps : List Text) (g : GoodNames v temps) (ps : List RPiece) (hp : GoodPieces v temps ps)
    (fromName toType toName : Text) (hv : ∀ x ∈ [fromName, toType, toName], '$' ∉ x ∧ '{' ∉ x)
    (known ns : List Text) (hns : NameGen.allocNames known temps = some ns) (tv : Text → Text) (htv : temps.map tv = ns) :
    (fromTypemapString (source v ps) v temps).generateWithSubst (cppSubst fromName toType toName) known =
      some (meaning fromName toType toName tv false ps, ns.reverse ++ known) := by
  have hcode := code_render v temps g ps hp
  let A : List (Text × Text) := if strContains (render (piecesOf false ps)) toVarType then [(toVarType, toType)] else []
  let B : List (Text × Text) := if strContains (render (piecesOf false ps)) toVar then [(toVar, toName)] else []
  have hparams : (fromTypemapString (source v ps) v temps).params =
      ((fromVar, fromName) :: (A ++ B)).map (·.1) ++ temps.map ('$' :: ·) := by
    simp only [fromTypemapString, hcode, A, B]
    cases strContains (render (piecesOf false ps)) toVarType <;> cases strContains (render (piecesOf false ps)) toVar <;> simp
  have hAB : ∀ p ∈ (fromVar, fromName) :: (A ++ B), p = (fromVar, fromName) ∨ p = (toVarType, toType) ∨ p = (toVar, toName) := by
    intro p hp
    simp only [List.mem_cons, List.mem_append, A, B] at hp
    rcases hp with h | h | h
    · exact Or.inl h
    · split at h <;> simp at h; exact Or.inr (Or.inl h)
    · split at h <;> simp at h; exact Or.inr (Or.inr h)
  have hcv : collectVals (cppSubst fromName toType toName) known (fromTypemapString (source v ps) v temps).params =
      some (((fromVar, fromName) :: (A ++ B)).map (·.2) ++ ns, ns.reverse ++ known) := by
    rw [hparams, collect_names _ _ _ _ _ hAB, collect_temps, hns]
    rfl
  have hzip : (fromTypemapString (source v ps) v temps).params.zip (((fromVar, fromName) :: (A ++ B)).map (·.2) ++ ns) =
      ((fromVar, fromName) :: (A ++ B)) ++ (temps.map ('$' :: ·)).zip ns := by
    rw [hparams]
    generalize ((fromVar, fromName) :: (A ++ B)) = l
    rw [List.zip_append (by simp)]
    congr 1
    induction l with
    | nil => rfl
    | cons x l ih => simp [ih]
  generalize hL : (fromVar, fromName) :: (A ++ B) = L at *
  have hkv1 : ∀ p ∈ L, p.1 ∈ ruleTokens ∧ p.2 ∈ [fromName, toType, toName] := by
    intro p hp
    rcases hAB p hp with rfl | rfl | rfl <;> simp [ruleTokens]
  have hkv2 : ∀ p ∈ (temps.map ('$' :: ·)).zip ns, (∃ n ∈ temps, p.1 = '$' :: n) ∧ p.2 ∈ ns := by
    intro p hp
    have h1 := (List.of_mem_zip (a := p.1) (b := p.2) hp)
    obtain ⟨n, hn, e⟩ := List.mem_map.1 h1.1
    exact ⟨⟨n, hn, e.symm⟩, h1.2⟩
  have hvals : ∀ p ∈ L ++ (temps.map ('$' :: ·)).zip ns, '$' ∉ p.2 ∧ '{' ∉ p.2 := by
    intro p hp
    rcases List.mem_append.1 hp with h | h
    · exact hv _ (hkv1 p h).2
    · exact alloc_chars known temps ns hns (fun n hn => (g.chars n (by simp [hn])).2) _ (hkv2 p h).2
  have hkey : ∀ p ∈ L ++ (temps.map ('$' :: ·)).zip ns, p.1 ∈ ruleTokens ∨ ∃ n ∈ temps, p.1 = '$' :: n := by
    intro p hp
    rcases List.mem_append.1 hp with h | h
    · exact Or.inl (hkv1 p h).1
    · exact Or.inr (hkv2 p h).1
  have hmain := C09_sequential_is_simultaneous (L ++ (temps.map ('$' :: ·)).zip ns) (piecesOf false ps)
    (by
      intro p hp
      rcases hkey p hp with h | ⟨n, _, h⟩
      · obtain ⟨r, h⟩ := ruleTokens_head _ h; rw [h]; simp
      · rw [h]; simp)
    (by
      intro p hp q hq
      rcases hkey p hp with h | ⟨n, _, h⟩
      · obtain ⟨r, h⟩ := ruleTokens_head _ h; rw [h]; exact inert_of_not_mem _ _ _ (hvals q hq).2
      · rw [h]; exact inert_of_not_mem _ _ _ (hvals q hq).1)
    (by
      intro t ht p hp'
      have hl := hp.lits t (pieces_lit false t ht)
      rcases hkey p hp' with h | ⟨n, _, h⟩
      · exact hl.2 _ h
      · rw [h]; exact inert_of_not_mem _ _ _ hl.1)
    (by
      intro t ht p hp'
      rcases pieces_ph hp false t ht with h | ⟨n, hn, rfl⟩
      · rcases hkey p hp' with h' | ⟨n', _, h'⟩
        · exact ruleTokens_inert t h _ h'
        · right; rw [h']; exact inert_of_not_mem _ _ _ (ruleTokens_dollar t h)
      · rcases hkey p hp' with h' | ⟨n', hn', h'⟩
        · right
          obtain ⟨r, h'⟩ := ruleTokens_head _ h'
          rw [h']
          refine inert_of_not_mem _ _ _ ?_
          intro hc
          rcases List.mem_cons.1 hc with e | hc
          · cases e
          · exact (g.chars n (by simp [hn])).2.2 hc
        · by_cases e : n = n'
          · left; rw [h', e]
          · right; rw [h']; exact inert_pair g (by simp [hn']) (by simp [hn]) (fun h => e h.symm))
  have e1 : toVarType ≠ fromVar := by decide
  have e2 : toVar ≠ fromVar := by decide
  have e3 : toVar ≠ toVarType := by decide
  have huniq : ∀ tok val, (tok, val) ∈ [(fromVar, fromName), (toVarType, toType), (toVar, toName)] → ∀ p ∈ L, p.1 = tok → p.2 = val := by
    intro tok val hm p hp hpt
    simp only [List.mem_cons, Prod.mk.injEq, List.not_mem_nil, or_false] at hm
    rcases hm with ⟨rfl, rfl⟩ | ⟨rfl, rfl⟩ | ⟨rfl, rfl⟩ <;> rcases hAB p hp with rfl | rfl | rfl
    · rfl
    · exact absurd hpt e1
    · exact absurd hpt e2
    · exact absurd hpt.symm e1
    · rfl
    · exact absurd hpt e3
    · exact absurd hpt.symm e2
    · exact absurd hpt.symm e3
    · rfl
  rw [instantiate_meaning _ fromName toType toName tv ps false] at hmain
  · simp only [TypeConvCode.generateWithSubst, hcv, Option.bind_eq_bind, Option.bind_some, Option.pure_def, hzip]
    have : (fromTypemapString (source v ps) v temps).code = render (piecesOf false ps) := by
      simp only [fromTypemapString, hcode]
    rw [this, hmain]
  · exact valueOf_name _ _ _ _ (by rw [← hL]; simp) (huniq _ _ (by simp))
  · intro hph
    refine valueOf_name _ _ _ _ ?_ (huniq _ _ (by simp))
    rw [← hL]
    have := (strContains_iff (render (piecesOf false ps)) toVarType).2 (ph_infix hph)
    simp [A, this]
  · intro hph
    refine valueOf_name _ _ _ _ ?_ (huniq _ _ (by simp))
    rw [← hL]
    have := (strContains_iff (render (piecesOf false ps)) toVar).2 (ph_infix hph)
    simp [B, this]
  · intro n hn
    refine valueOf_zip tv htv (hp.tmps n hn) _ ?_
    intro p hp' e
    have := ruleTokens_dollar _ (hkv1 p hp').1
    rw [e] at this
    simp at this

/-! Non-vacuity: `$out = f($p, $tmp); $out.g()` with a temporary. -/

/-- A string with every kind of piece. -/
def sampleString : List RPiece :=
  [.lit "auto ".toList, .tmp "tmp".toList, .lit " = f(".toList, .var, .lit "); ".toList, .out, .lit " = g(".toList, .tmp "tmp".toList,
    .lit "); if (x) { ".toList, .out, .lit ".h(); }".toList]

example : source "p".toList sampleString = "auto $tmp = f($p); $out = g($tmp); if (x) { $out.h(); }".toList := by decide
example : GoodNames "p".toList ["tmp".toList] :=
  ⟨by decide, by
    have : ∀ a ∈ ["p".toList, "out".toList, "tmp".toList], ∀ b ∈ ["p".toList, "out".toList, "tmp".toList],
        List.isPrefixOf a b = true → a = b := by decide
    intro a ha b hb h
    exact this a ha b hb (List.isPrefixOf_iff_prefix.2 h), by decide⟩
example : meaning "a0".toList "T r".toList "r".toList (fun _ => "tmp0".toList) false sampleString =
    "auto tmp0 = f(a0); T r = g(tmp0); if (x) { r.h(); }".toList := by decide
example : ((fromTypemapString (source "p".toList sampleString) "p".toList ["tmp".toList]).generateWithSubst
    (cppSubst "a0".toList "T r".toList "r".toList) ["tmp".toList]).map (·.1) =
    some "auto tmp0 = f(a0); T r = g(tmp0); if (x) { r.h(); }".toList := by decide +kernel

end Flapi.Template
