import Verif.Core.Expand
import Verif.Core.FileCacheProps
/-!
# C29 – expansion keeps ordinary code in place and is all-or-nothing
-/
namespace Flapi.Expand
open FileCache
variable {σ ε C E I : Type}

/-! ## Specification -/

/-- Is this item one of the flapigen macro calls? -/
def isOurs : Item → Bool
  | .mac name _ _ => ourMacros.contains name
  | .other _ => false

/-- Text of an item. -/
def itemText : Item → Text
  | .mac _ _ t => t
  | .other t => t

/-- The ordinary items of all files, in order. -/
def ordinary (items : List Item) : List Text := (items.filter (fun i => !isOurs i)).map itemText

/-- What a flapigen macro call denotes, if it is a class, enum or callback declaration. -/
def declared (env : Env σ ε C E I) : Item → Option (Expandable C E I)
  | .mac name tokens _ =>
    if name = nForeignerClass ∨ name = nForeignClass then
      (env.parseClass tokens).toOption.map .cls
    else if name = nForeignEnum then (env.parseEnum tokens).toOption.map .enum
    else if name = nForeignInterface ∨ name = nForeignCallback then
      (env.parseInterface tokens).toOption.map .iface
    else none
  | .other _ => none

/-- Effect of one item on the type map: classes are registered, `foreign_typemap!` rules merged, nothing else. -/
def mapEffect (env : Env σ ε C E I) (m : σ) : Item → σ
  | .other _ => m
  | .mac name tokens _ =>
    if name = nForeignerClass ∨ name = nForeignClass then
      match env.parseClass tokens with
      | .ok c => env.registerClass m c
      | .error _ => m
    else if name = nForeignTypemap then
      match env.parseTypemap m tokens with
      | .ok m' => m'
      | .error _ => m
    else m

/-! ## Helper lemmas -/

theorem stepItem_ok (env : Env σ ε C E I) (st st' : St σ C E I) (it : Item) (h : stepItem env st it = .ok st') :
    st'.out = st.out ++ (if isOurs it then [] else itemText it ++ ['\n']) ∧
    st'.todo = st.todo ++ (declared env it).toList := by
  cases it with
  | other t =>
    simp only [stepItem, Except.ok.injEq] at h
    subst h; simp [isOurs, itemText, declared]
  | mac name tokens text =>
    simp only [stepItem] at h
    split at h
    · rename_i hn
      simp only [Except.ok.injEq] at h
      subst h
      have hn' : name ∉ ourMacros := by simpa using hn
      have hd : declared env (.mac name tokens text) = none := by
        simp only [ourMacros, List.mem_cons, not_or] at hn'
        simp [declared, hn']
      simp [isOurs, hn', itemText, hd]
    · rename_i hn
      have hn' : name ∈ ourMacros := by simpa using hn
      split at h
      · simp at h
      · by_cases h1 : name = nForeignerClass ∨ name = nForeignClass
        · rw [if_pos h1] at h
          cases hp : env.parseClass tokens with
          | error e => simp [hp] at h
          | ok c =>
            simp [hp] at h
            subst h
            simp only [isOurs, declared, if_pos h1, hp]
            simp [Except.toOption, hn']
        · rw [if_neg h1] at h
          by_cases h2 : name = nForeignEnum
          · rw [if_pos h2] at h
            cases hp : env.parseEnum tokens with
            | error e => simp [hp] at h
            | ok c =>
              simp [hp] at h
              subst h
              simp only [isOurs, declared, if_neg h1, if_pos h2, hp]
              simp [Except.toOption, hn']
          · rw [if_neg h2] at h
            by_cases h3 : name = nForeignInterface ∨ name = nForeignCallback
            · rw [if_pos h3] at h
              cases hp : env.parseInterface tokens with
              | error e => simp [hp] at h
              | ok c =>
                simp [hp] at h
                subst h
                simp only [isOurs, declared, if_neg h1, if_neg h2, if_pos h3, hp]
                simp [Except.toOption, hn']
            · rw [if_neg h3] at h
              cases hp : env.parseTypemap st.map tokens with
              | error e => simp [hp] at h
              | ok m =>
                simp [hp] at h
                subst h
                simp only [isOurs, declared, if_neg h1, if_neg h2, if_neg h3]
                simp [hn']

theorem stepItems_ok (env : Env σ ε C E I) (items : List Item) : ∀ (st st' : St σ C E I),
    stepItems env st items = .ok st' →
    st'.out = st.out ++ ((ordinary items).map (· ++ ['\n'])).flatten ∧
    st'.todo = st.todo ++ items.filterMap (declared env) := by
  induction items with
  | nil => intro st st' h; simp [stepItems] at h; subst h; simp [ordinary]
  | cons it items ih =>
    intro st st' h
    simp only [stepItems] at h
    cases hs : stepItem env st it with
    | error e => simp [hs] at h
    | ok s1 =>
      simp only [hs] at h
      obtain ⟨a1, a2⟩ := stepItem_ok env st s1 it hs
      obtain ⟨b1, b2⟩ := ih _ _ h
      constructor
      · rw [b1, a1]
        by_cases ho : isOurs it <;> simp [ordinary, ho]
      · rw [b2, a2]
        cases hd : declared env it <;> simp [hd]

/-- All items of the (successfully parsed) files. -/
def allItems (files : List (Except ε (List Item))) : List Item :=
  files.flatMap (fun f => match f with | .ok l => l | .error _ => [])

theorem stepFiles_ok (env : Env σ ε C E I) (files : List (Except ε (List Item))) : ∀ (st st' : St σ C E I),
    stepFiles env st files = .ok st' →
    st'.out = st.out ++ ((ordinary (allItems files)).map (· ++ ['\n'])).flatten ∧
    st'.todo = st.todo ++ (allItems files).filterMap (declared env) ∧ (∀ f ∈ files, ∃ l, f = .ok l) := by
  induction files with
  | nil => intro st st' h; simp [stepFiles] at h; subst h; simp [ordinary, allItems]
  | cons f files ih =>
    intro st st' h
    cases f with
    | error e => simp [stepFiles] at h
    | ok items =>
      simp only [stepFiles] at h
      cases hs : stepItems env st items with
      | error e => simp [hs] at h
      | ok s1 =>
        simp only [hs] at h
        obtain ⟨a1, a2⟩ := stepItems_ok env items _ _ hs
        obtain ⟨b1, b2, b3⟩ := ih _ _ h
        refine ⟨?_, ?_, ?_⟩
        · rw [b1, a1]; simp [ordinary, allItems]
        · rw [b2, a2]; simp [allItems]
        · intro f hf
          rcases List.mem_cons.1 hf with rfl | hf
          · exact ⟨items, rfl⟩
          · exact b3 f hf

theorem stepItems_map (env : Env σ ε C E I) (st st' : St σ C E I) (items : List Item)
    (h : stepItems env st items = .ok st') : st'.map = items.foldl (mapEffect env) st.map := by
  induction items generalizing st with
  | nil => simp [stepItems] at h; subst h; rfl
  | cons it items ih =>
    simp only [stepItems] at h
    cases hs : stepItem env st it with
    | error e => simp [hs] at h
    | ok s1 =>
      simp only [hs] at h
      rw [ih _ h, List.foldl_cons]
      congr 1
      unfold mapEffect
      cases it with
      | other t => simp [stepItem] at hs; subst hs; rfl
      | mac name tokens text =>
        simp only [stepItem] at hs
        split at hs
        · rename_i hn
          have hn' : name ∉ ourMacros := by simpa using hn
          simp only [ourMacros, List.mem_cons, not_or] at hn'
          simp at hs; subst hs
          simp [hn']
        · rename_i hn
          have hn' : name ∈ ourMacros := by simpa using hn
          split at hs
          · simp at hs
          · by_cases h1 : name = nForeignerClass ∨ name = nForeignClass
            · rw [if_pos h1] at hs
              simp only [if_pos h1]
              cases hp : env.parseClass tokens with
              | error e => simp [hp] at hs
              | ok c => simp [hp] at hs; subst hs; rfl
            · rw [if_neg h1] at hs
              simp only [if_neg h1]
              by_cases h2 : name = nForeignEnum
              · rw [if_pos h2] at hs
                have h4 : ¬ name = nForeignTypemap := by rw [h2]; decide
                simp only [if_neg h4]
                cases hp : env.parseEnum tokens with
                | error e => simp [hp] at hs
                | ok c => simp [hp] at hs; subst hs; rfl
              · rw [if_neg h2] at hs
                by_cases h3 : name = nForeignInterface ∨ name = nForeignCallback
                · rw [if_pos h3] at hs
                  have h4 : ¬ name = nForeignTypemap := by
                    rcases h3 with h3 | h3 <;> rw [h3] <;> decide
                  simp only [if_neg h4]
                  cases hp : env.parseInterface tokens with
                  | error e => simp [hp] at hs
                  | ok c => simp [hp] at hs; subst hs; rfl
                · rw [if_neg h3] at hs
                  have h4 : name = nForeignTypemap := by
                    simp only [ourMacros, List.mem_cons, List.not_mem_nil, or_false] at hn'
                    simp only [not_or] at h1 h3
                    simpa [h1, h2, h3] using hn'
                  simp only [if_pos h4]
                  cases hp : env.parseTypemap st.map tokens with
                  | error e => simp [hp] at hs
                  | ok c => simp [hp] at hs; subst hs; rfl

theorem stepFiles_map (env : Env σ ε C E I) (files : List (Except ε (List Item))) : ∀ (st st' : St σ C E I),
    stepFiles env st files = .ok st' → st'.map = (allItems files).foldl (mapEffect env) st.map := by
  induction files with
  | nil => intro st st' h; simp [stepFiles] at h; subst h; simp [allItems]
  | cons f files ih =>
    intro st st' h
    cases f with
    | error e => simp [stepFiles] at h
    | ok items =>
      simp only [stepFiles] at h
      cases hs : stepItems env st items with
      | error e => simp [hs] at h
      | ok s1 =>
        simp only [hs] at h
        rw [ih _ _ h, stepItems_map env _ _ _ hs]
        simp [allItems, List.foldl_append]

/-! ## Property theorems -/

/-- **C29 (content).** On success every source file was parsed; the backend received every class, enum and callback
declaration of all files exactly once and in source order, together with the type map that results from processing
*all* typemap and class items of all files in source order (no declaration is expanded before a later typemap is merged);
and the text handed to post-processing is: built-in support items, then every ordinary item in source order and
unchanged, then the code made by the backend.  The file content is the post-processed text, formatted if so configured. -/
theorem C29_output_content (env : Env σ ε C E I) (pw : Nat) (map0 : σ) (utils : Except ε (List Text))
    (files : List (Except ε (List Item))) (cnt : Text)
    (h : produce env pw map0 utils files = .inr cnt) :
    ∃ us m' code src, utils = .ok us ∧
      env.expandItems ((allItems files).foldl (mapEffect env) map0) ((allItems files).filterMap (declared env))
        = .ok (m', code) ∧
      env.postProcess m' (us.flatten ++ ((ordinary (allItems files)).map (· ++ ['\n'])).flatten
        ++ (code.map (· ++ ['\n'])).flatten) = .ok src ∧
      ((env.rustfmt = none ∧ cnt = src) ∨ ∃ run status output, env.rustfmt = some run ∧
        run src = .inr (status, output) ∧ rustfmtCnt status output src = .ok cnt) ∧
      (∀ f ∈ files, ∃ l, f = .ok l) := by
  unfold produce at h
  split at h
  · simp at h
  · cases utils with
    | error e => simp at h
    | ok us =>
      simp only at h
      cases hs : stepFiles env ⟨us.flatten, map0, []⟩ files with
      | error e => simp [hs] at h
      | ok st =>
        simp only [hs] at h
        obtain ⟨b1, b2, b3⟩ := stepFiles_ok env files _ _ hs
        have b4 := stepFiles_map env files _ _ hs
        cases he : env.expandItems st.map st.todo with
        | error e => simp [he] at h
        | ok r =>
          obtain ⟨m', code⟩ := r
          simp only [he] at h
          cases hp : env.postProcess m' (st.out ++ (code.map (· ++ ['\n'])).flatten) with
          | error e => simp [hp] at h
          | ok src =>
            simp only [hp] at h
            refine ⟨us, m', code, src, rfl, ?_, ?_, ?_, b3⟩
            · rw [← he, b2, b4]; simp
            · rw [← hp, b1]
            · cases hr : env.rustfmt with
              | none => simp [hr] at h; exact Or.inl ⟨rfl, h.symm⟩
              | some run =>
                right
                simp only [hr] at h
                cases hrun : run src with
                | inl u => simp [hrun] at h
                | inr so =>
                  obtain ⟨status, output⟩ := so
                  simp only [hrun] at h
                  cases hc : rustfmtCnt status output src with
                  | error u => simp [hc] at h
                  | ok r => simp [hc] at h; subst h; exact ⟨run, status, output, rfl, hrun, hc⟩

/-- What it means that a flapigen macro call is well-formed for the DSL parsers. -/
def WellFormed (env : Env σ ε C E I) : Item → Prop
  | .other _ => True
  | .mac name tokens _ =>
    name ∈ ourMacros → tokens ≠ [] ∧
      (name = nForeignerClass ∨ name = nForeignClass → ∃ c, env.parseClass tokens = .ok c) ∧
      (name = nForeignEnum → ∃ c, env.parseEnum tokens = .ok c) ∧
      (name = nForeignInterface ∨ name = nForeignCallback → ∃ c, env.parseInterface tokens = .ok c) ∧
      (name = nForeignTypemap → ∃ m m', env.parseTypemap m tokens = .ok m')

/-- **C29 (no error is swallowed).** If text is produced at all, every flapigen macro call of every file was accepted by
its parser. -/
theorem C29_all_macros_accepted (env : Env σ ε C E I) (pw : Nat) (map0 : σ) (utils : Except ε (List Text))
    (files : List (Except ε (List Item))) (cnt : Text)
    (h : produce env pw map0 utils files = .inr cnt) : ∀ it ∈ allItems files, WellFormed env it := by
  have one : ∀ (st st' : St σ C E I) (it : Item), stepItem env st it = .ok st' → WellFormed env it := by
    intro st st' it hs
    cases it with
    | other t => trivial
    | mac name tokens text =>
      intro hn
      simp only [stepItem] at hs
      split at hs
      · rename_i hn'; simp [hn] at hn'
      · split at hs
        · simp at hs
        · rename_i ht
          refine ⟨by simpa using ht, ?_, ?_, ?_, ?_⟩
          · intro h1
            rw [if_pos h1] at hs
            cases hp : env.parseClass tokens with
            | error e => simp [hp] at hs
            | ok c => exact ⟨c, rfl⟩
          · intro h2
            have h1 : ¬ (name = nForeignerClass ∨ name = nForeignClass) := by rw [h2]; decide
            rw [if_neg h1, if_pos h2] at hs
            cases hp : env.parseEnum tokens with
            | error e => simp [hp] at hs
            | ok c => exact ⟨c, rfl⟩
          · intro h3
            have h1 : ¬ (name = nForeignerClass ∨ name = nForeignClass) := by
              rcases h3 with h3 | h3 <;> rw [h3] <;> decide
            have h2 : ¬ name = nForeignEnum := by rcases h3 with h3 | h3 <;> rw [h3] <;> decide
            rw [if_neg h1, if_neg h2, if_pos h3] at hs
            cases hp : env.parseInterface tokens with
            | error e => simp [hp] at hs
            | ok c => exact ⟨c, rfl⟩
          · intro h4
            have h1 : ¬ (name = nForeignerClass ∨ name = nForeignClass) := by rw [h4]; decide
            have h2 : ¬ name = nForeignEnum := by rw [h4]; decide
            have h3 : ¬ (name = nForeignInterface ∨ name = nForeignCallback) := by rw [h4]; decide
            rw [if_neg h1, if_neg h2, if_neg h3] at hs
            cases hp : env.parseTypemap st.map tokens with
            | error e => simp [hp] at hs
            | ok m => exact ⟨_, m, hp⟩
  have many : ∀ (items : List Item) (st st' : St σ C E I), stepItems env st items = .ok st' →
      ∀ it ∈ items, WellFormed env it := by
    intro items
    induction items with
    | nil => intro _ _ _ it hit; simp at hit
    | cons i items ih =>
      intro st st' hs it hit
      simp only [stepItems] at hs
      cases h1 : stepItem env st i with
      | error e => simp [h1] at hs
      | ok s1 =>
        simp only [h1] at hs
        rcases List.mem_cons.1 hit with rfl | hit
        · exact one _ _ _ h1
        · exact ih _ _ hs it hit
  have all : ∀ (files : List (Except ε (List Item))) (st st' : St σ C E I), stepFiles env st files = .ok st' →
      ∀ it ∈ allItems files, WellFormed env it := by
    intro files
    induction files with
    | nil => intro _ _ _ it hit; simp [allItems] at hit
    | cons f files ih =>
      intro st st' hs it hit
      cases f with
      | error e => simp [stepFiles] at hs
      | ok items =>
        simp only [stepFiles] at hs
        cases h1 : stepItems env st items with
        | error e => simp [h1] at hs
        | ok s1 =>
          simp only [h1] at hs
          simp only [allItems, List.flatMap_cons, List.mem_append] at hit
          rcases hit with hit | hit
          · exact many _ _ _ h1 it hit
          · exact ih _ _ hs it hit
  unfold produce at h
  split at h
  · simp at h
  · cases utils with
    | error e => simp at h
    | ok us =>
      simp only at h
      cases hs : stepFiles env ⟨us.flatten, map0, []⟩ files with
      | error e => simp [hs] at h
      | ok st => exact all _ _ _ hs

/-- **C29 (all or nothing).** If expansion reports an error, the disk – in particular the output file – is exactly as
before. -/
theorem C29_error_writes_nothing (env : Env σ ε C E I) (ft : Faults) (pw : Nat) (map0 : σ)
    (utils : Except ε (List Text)) (files : List (Except ε (List Item))) (dst : Path) (d : Disk Char) (e : ε)
    (h : (expandStr env ft pw map0 utils files dst d).1 = .err e) :
    (expandStr env ft pw map0 utils files dst d).2 = d := by
  unfold expandStr at *
  cases hp : produce env pw map0 utils files with
  | inl r => rfl
  | inr cnt =>
    simp only [hp] at h
    split at h <;> simp at h

/-- **C29 (success).** If expansion reports success the output file holds exactly the produced text and nothing else
changed. -/
theorem C29_success_file (env : Env σ ε C E I) (ft : Faults) (pw : Nat) (map0 : σ)
    (utils : Except ε (List Text)) (files : List (Except ε (List Item))) (dst : Path) (d : Disk Char)
    (h : (expandStr env ft pw map0 utils files dst d).1 = .ok) :
    ∃ cnt, produce env pw map0 utils files = .inr cnt ∧
      (expandStr env ft pw map0 utils files dst d).2 dst = some cnt := by
  unfold expandStr at *
  cases hp : produce env pw map0 utils files with
  | inl r =>
    simp only [hp] at h
    subst h
    exfalso
    unfold produce at hp
    split at hp
    · simp at hp
    · cases utils with
      | error e => simp at hp
      | ok us =>
        simp only at hp
        cases hs : stepFiles env ⟨us.flatten, map0, []⟩ files with
        | error e => simp [hs] at hp
        | ok st =>
          simp only [hs] at hp
          cases he : env.expandItems st.map st.todo with
          | error e => simp [he] at hp
          | ok r =>
            obtain ⟨m', code⟩ := r
            simp only [he] at hp
            cases hpp : env.postProcess m' (st.out ++ (code.map (· ++ ['\n'])).flatten) with
            | error e => simp [hpp] at hp
            | ok src =>
              simp only [hpp] at hp
              cases hr : env.rustfmt with
              | none => simp [hr] at hp
              | some run =>
                simp only [hr] at hp
                cases hrun : run src with
                | inl u => simp [hrun] at hp
                | inr so =>
                  obtain ⟨status, output⟩ := so
                  simp only [hrun] at hp
                  cases hc : rustfmtCnt status output src <;> simp [hc] at hp
  | inr cnt =>
    refine ⟨cnt, rfl, ?_⟩
    simp only [hp] at h
    have hok : (flush ft d ⟨cnt, dst, []⟩).ok = true := by
      by_cases hok : (flush ft d ⟨cnt, dst, []⟩).ok = true
      · exact hok
      · simp [hok] at h
    exact C05_success_content ft d ⟨cnt, dst, []⟩ hok

/-- **C29 (rustfmt).** Formatting either uses rustfmt's complete output (exit status 0), reports failure (status 2), or
keeps the unformatted text; partial output of a failed formatter is never used. -/
theorem C29_rustfmt_output_only_on_success (status : Option Int) (output src r : Text)
    (h : rustfmtCnt status output src = .ok r) : (status = some 0 ∧ r = output) ∨ (status ≠ some 0 ∧ status ≠ some 2 ∧ r = src) := by
  unfold rustfmtCnt at h
  split at h <;> simp_all

/-- An environment for the examples: everything succeeds, classes are their token text. -/
def demoEnv : Env (List Text) Text Text Text Text where
  parseClass t := .ok t
  registerClass m c := m ++ [c]
  parseEnum t := .ok t
  parseInterface t := .ok t
  parseTypemap m t := .ok (m ++ [t])
  expandItems m l := .ok (m, l.map fun | .cls c => c | .enum e => e | .iface i => i)
  postProcess _ s := .ok s
  missingTokens n := n
  rustfmt := none

example : produce demoEnv 64 [] (.ok []) [.ok [.other "fn a(){}".toList, .mac "foreign_class".toList "class X".toList "..".toList,
    .mac "println".toList "".toList "println!()".toList]]
    = .inr "fn a(){}\nprintln!()\nclass X\n".toList := by decide
example : produce demoEnv 64 [] (.ok []) [.ok [.mac "foreign_class".toList [] "..".toList]]
    = .inl (.err "foreign_class".toList) := by decide

end Flapi.Expand
