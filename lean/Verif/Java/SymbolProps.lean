import Verif.Java.NamesProps
/-!
# C30, C50: exported JNI symbols
-/
namespace Flapi.JavaNames

/-! ## Reading an escaped name back -/

/-- Inverse of `esc` on unambiguous texts. -/
def unesc : Text → Text
  | [] => []
  | [c] => if c = '_' then ['.'] else [c]
  | c :: d :: r =>
    if c = '_' then
      if d = '1' then '_' :: unesc r
      else if d = '2' then ';' :: unesc r
      else if d = '3' then '[' :: unesc r
      else '.' :: unesc (d :: r)
    else c :: unesc (d :: r)

/-- No `.` is followed by one of the escape digits. -/
def Ok : Text → Prop
  | [] => True
  | c :: r => (c = '.' → ∀ d ∈ r.head?, ¬ d.isDigit) ∧ Ok r

theorem esc_cons (c : Char) (r : Text) : esc (c :: r) = escChar c ++ esc r := by simp [esc]
theorem esc_append (a b : Text) : esc (a ++ b) = esc a ++ esc b := by simp [esc]

theorem esc_head (r : Text) (h : ∀ d ∈ r.head?, ¬ d.isDigit) : ∀ d ∈ (esc r).head?, ¬ d.isDigit := by
  cases r with
  | nil => simp [esc]
  | cons c r =>
    rw [esc_cons]
    have hc := h c rfl
    unfold escChar
    split
    · simp
    · split
      · simp
      · split
        · simp
        · split
          · simp
          · simpa using hc

theorem unesc_esc (s : Text) (h : Ok s) : unesc (esc s) = s := by
  induction s with
  | nil => rfl
  | cons c s ih =>
    obtain ⟨h1, h2⟩ := h
    rw [esc_cons]
    unfold escChar
    split
    · rename_i hc
      have hd := esc_head s (h1 hc)
      rw [hc]
      cases he : esc s with
      | nil =>
        have : s = [] := by
          cases s with
          | nil => rfl
          | cons c s =>
            rw [esc_cons] at he
            exfalso
            have := (List.append_eq_nil_iff.1 he).1
            unfold escChar at this
            repeat (first | (split at this) | (simp at this))
        subst this
        rfl
      | cons d r =>
        have hdd : ¬ d.isDigit := hd d (by rw [he]; rfl)
        have n1 : d ≠ '1' := by rintro rfl; exact hdd (by decide)
        have n2 : d ≠ '2' := by rintro rfl; exact hdd (by decide)
        have n3 : d ≠ '3' := by rintro rfl; exact hdd (by decide)
        rw [List.singleton_append, unesc, if_pos rfl, if_neg n1, if_neg n2, if_neg n3, ← he, ih h2]
    · split
      · rename_i hc
        rw [hc]
        change '[' :: unesc (esc s) = _
        rw [ih h2]
      · split
        · rename_i hc
          rw [hc]
          change '_' :: unesc (esc s) = _
          rw [ih h2]
        · split
          · rename_i hc
            rw [hc]
            change ';' :: unesc (esc s) = _
            rw [ih h2]
          · rename_i n1 n2 n3 n4
            rw [List.singleton_append]
            cases he : esc s with
            | nil =>
              rw [he] at ih
              rw [unesc, if_neg n3, ← ih h2]; rfl
            | cons d r => rw [unesc, if_neg n3, ← he, ih h2]

theorem Ok_append {a b : Text} (ha : Ok a) (hb : Ok b) (h : ∀ d ∈ b.head?, ¬ d.isDigit) : Ok (a ++ b) := by
  induction a with
  | nil => exact hb
  | cons c a ih =>
    obtain ⟨h1, h2⟩ := ha
    refine ⟨?_, ih h2⟩
    intro hc d hd
    cases a with
    | nil => exact h d hd
    | cons e a => exact h1 hc d hd

theorem Ok_of_nodot {a : Text} (h : '.' ∉ a) : Ok a := by
  induction a with
  | nil => trivial
  | cons c a ih =>
    simp only [List.mem_cons, not_or] at h
    exact ⟨fun e => absurd e.symm h.1, ih h.2⟩

theorem Ident.nodot {n : Text} (h : Ident n) : '.' ∉ n := fun hm => (h.chars _ hm).1 rfl
theorem Ident.ok {n : Text} (h : Ident n) : Ok n := Ok_of_nodot h.nodot

/-! ## Dotted names -/

theorem dotted_cons (c d : Text) (l : List Text) : dotted (c :: d :: l) = c ++ '.' :: dotted (d :: l) := rfl

theorem dotted_head (c : Text) (l : List Text) (hc : Ident c) : ∀ d ∈ (dotted (c :: l)).head?, ¬ d.isDigit ∧ d ≠ '.' := by
  intro d hd
  have : d ∈ c.head? := by
    cases l with
    | nil => exact hd
    | cons e l =>
      rw [dotted_cons] at hd
      cases c with
      | nil => exact absurd rfl hc.nonempty
      | cons x c => exact hd
  refine ⟨hc.first d this, (hc.chars d ?_).1⟩
  cases c with
  | nil => simp at this
  | cons x c => simp at this; simp [this]

theorem Ok_dotted (l : List Text) (h : ∀ c ∈ l, Ident c) : Ok (dotted l) := by
  induction l with
  | nil => trivial
  | cons c l ih =>
    cases l with
    | nil => exact (h c (by simp)).ok
    | cons d l =>
      rw [dotted_cons]
      refine Ok_append (h c (by simp)).ok ⟨?_, ih (fun c hc => h c (by simp_all))⟩ (by intro x hx; simp at hx; subst hx; decide)
      intro _ x hx
      exact (dotted_head d l (h d (by simp)) x hx).1

theorem dotted_append (l : List Text) (hl : l ≠ []) (c : Text) (m : List Text) :
    dotted (l ++ c :: m) = dotted l ++ '.' :: dotted (c :: m) := by
  induction l with
  | nil => exact absurd rfl hl
  | cons d l ih =>
    cases l with
    | nil => rfl
    | cons e l =>
      rw [List.cons_append, List.cons_append, dotted_cons, ← List.cons_append, ih (by simp), dotted_cons, List.append_assoc]
      rfl

/-- What can follow the method name: nothing, or `..` and the signature. -/
def tailText : Option Text → Text
  | none => []
  | some s => '.' :: '.' :: s

theorem first_dot {a b x y : Text} (ha : '.' ∉ a) (hb : '.' ∉ b) (hx : x = [] ∨ ∃ r, x = '.' :: r)
    (hy : y = [] ∨ ∃ r, y = '.' :: r) (h : a ++ x = b ++ y) : a = b ∧ x = y := by
  rcases hx with rfl | ⟨r, rfl⟩
  · rcases hy with rfl | ⟨r', rfl⟩
    · simpa using h
    · exfalso
      rw [List.append_nil] at h
      exact ha (by rw [h]; simp)
  · rcases hy with rfl | ⟨r', rfl⟩
    · exfalso
      rw [List.append_nil] at h
      exact hb (by rw [← h]; simp)
    · obtain ⟨e1, e2⟩ := split_at ha hb h
      exact ⟨e1, by rw [e2]⟩

theorem tail_shape (o : Option Text) : tailText o = [] ∨ ∃ r, tailText o = '.' :: r := by
  cases o with
  | none => exact Or.inl rfl
  | some s => exact Or.inr ⟨_, rfl⟩

theorem dotted_injective (l m : List Text) (hl : l ≠ []) (hm : m ≠ []) (il : ∀ c ∈ l, Ident c) (im : ∀ c ∈ m, Ident c)
    (o p : Option Text) (h : dotted l ++ tailText o = dotted m ++ tailText p) : l = m ∧ o = p := by
  have tinj : ∀ o p, tailText o = tailText p → o = p := by
    intro o p h
    cases o <;> cases p <;> simp_all [tailText]
  have aux : ∀ (c d : Text) (l : List Text) (o p : Option Text), Ident c → Ident d →
      tailText o ≠ '.' :: (dotted (d :: l) ++ tailText p) := by
    intro c d l o p _ hd h
    cases o with
    | none => exact absurd h (by simp [tailText])
    | some s =>
      simp only [tailText, List.cons.injEq, true_and] at h
      have hne : dotted (d :: l) ≠ [] := by
        cases l with
        | nil => exact hd.nonempty
        | cons e l => rw [dotted_cons]; simp
      cases hdd : dotted (d :: l) with
      | nil => exact absurd hdd hne
      | cons x r =>
        rw [hdd] at h
        have := (dotted_head d l hd x (by rw [hdd]; rfl)).2
        simp only [List.cons_append, List.cons.injEq] at h
        exact this h.1.symm
  induction l generalizing m with
  | nil => exact absurd rfl hl
  | cons c l ih =>
    cases m with
    | nil => exact absurd rfl hm
    | cons d m =>
      have ic := il c (by simp)
      have id' := im d (by simp)
      cases l with
      | nil =>
        cases m with
        | nil =>
          obtain ⟨e1, e2⟩ := first_dot ic.nodot id'.nodot (tail_shape o) (tail_shape p) h
          exact ⟨by rw [e1], tinj _ _ e2⟩
        | cons e m =>
          rw [dotted_cons, List.append_assoc] at h
          obtain ⟨_, e2⟩ := first_dot ic.nodot id'.nodot (tail_shape o) (Or.inr ⟨_, rfl⟩) h
          exact absurd e2 (aux c e m o p ic (im e (by simp)))
      | cons e l =>
        cases m with
        | nil =>
          rw [dotted_cons, List.append_assoc] at h
          obtain ⟨_, e2⟩ := first_dot ic.nodot id'.nodot (Or.inr ⟨_, rfl⟩) (tail_shape p) h
          exact absurd e2.symm (aux c e l p o ic (il e (by simp)))
        | cons f m =>
          rw [dotted_cons, dotted_cons, List.append_assoc, List.append_assoc] at h
          obtain ⟨e1, e2⟩ := first_dot ic.nodot id'.nodot (Or.inr ⟨_, rfl⟩) (Or.inr ⟨_, rfl⟩) h
          simp only [List.cons_append, List.cons.injEq, true_and] at e2
          obtain ⟨e3, e4⟩ := ih (f :: m) (by simp) (by simp) (fun c hc => il c (by simp_all)) (fun c hc => im c (by simp_all)) e2
          exact ⟨by rw [e1, e3], e4⟩

/-! ## The text behind a symbol -/

/-- Types of the parameters of the native method: `self` is passed as a `long` first. -/
def nativeTys (v : Variant) (tys : List JTy) : List JTy := if v = .method then .prim .long :: tys else tys

/-- Unescaped argument signature. -/
def rawArgs (m : SigMap) : List ArgTy → Option Text
  | [] => some []
  | a :: l => do
    let s ← typeSig m a.native
    let r ← rawArgs m l
    pure (s ++ r)

theorem escArgs_raw (m : SigMap) (args : List ArgTy) : escArgs m args = (rawArgs m args).map esc := by
  induction args with
  | nil => rfl
  | cons a l ih =>
    rw [escArgs, rawArgs, ih]
    cases typeSig m a.native with
    | none => rfl
    | some s =>
      cases rawArgs m l with
      | none => rfl
      | some r => simp [esc_append]

theorem esc_dotted (comps : List Text) (hc : comps ≠ []) (cls meth : Text) :
    esc (dotted (comps ++ [cls, meth])) = esc (dotted comps) ++ '_' :: esc cls ++ '_' :: esc meth := by
  rw [dotted_append comps hc cls [meth], dotted_cons]
  rw [esc_append, esc_cons, esc_append, esc_cons]
  change esc (dotted comps) ++ '_' :: (esc cls ++ '_' :: esc meth) = _
  rw [List.append_assoc]
  rfl

/-- The symbol is `Java_` and the escape of a dotted text. -/
theorem symbol_text (m : SigMap) (comps : List Text) (hc : comps ≠ []) (cls meth : Text) (v : Variant) (args : List ArgTy)
    (ov : Bool) (raw : Text) (hraw : ov = true → rawArgs m args = some raw) :
    jniFuncName m (dotted comps) cls meth v args ov = some ("Java_".toList ++ esc (dotted (comps ++ [cls, meth]) ++
      tailText (if ov then some ((if v = .method then ['J'] else []) ++ raw) else none))) := by
  unfold jniFuncName
  cases ov with
  | false =>
    rw [esc_append, esc_dotted comps hc]
    simp [tailText, esc]
  | true =>
    rw [if_pos rfl, if_pos rfl, escArgs_raw, hraw rfl]
    simp only [Option.map_some, Option.bind_eq_bind, Option.bind_some, Option.pure_def, tailText]
    rw [esc_append, esc_dotted comps hc, esc_cons, esc_cons, esc_append]
    have hj : esc (if v = .method then ['J'] else []) = if v = .method then ['J'] else [] := by
      split <;> decide
    rw [hj]
    change some (_ ++ ['_', '_'] ++ _ ++ _) = some (_ ++ (_ ++ '_' :: '_' :: _))
    simp only [List.append_assoc, List.cons_append, List.nil_append]
    rfl

theorem genSig_ok (comps : List Text) (hc : comps ≠ []) (hi : ∀ c ∈ comps, Ident c) (n : Text) (hn : Ident n) :
    Ok (genSig (dotted comps) n) := by
  have h1 : Ok (dotted (comps ++ [n])) := Ok_dotted _ (by
    intro c h
    rw [List.mem_append] at h
    rcases h with h | h
    · exact hi c h
    · simp at h; rw [h]; exact hn)
  rw [dotted_append comps hc n []] at h1
  change Ok ('L' :: ((dotted comps ++ '.' :: n) ++ ";".toList))
  exact ⟨fun e => absurd e (by decide), Ok_append h1 ⟨by decide, trivial⟩ (by intro d hd; simp at hd; subst hd; decide)⟩

theorem table_entry_ok (comps : List Text) (hc : comps ≠ []) (hi : ∀ c ∈ comps, Ident c) (regs : List Reg)
    (hr : ∀ r ∈ regs, GoodName r.name) (w : Text) (t : JTy) (h : Spells (dotted comps) regs w t) :
    ∃ s, SigMap.get (table (dotted comps) regs) w = some s ∧ slashes s = t.desc ∧ Ok s ∧ ∀ d ∈ s.head?, ¬ d.isDigit := by
  obtain ⟨s, hs, hd⟩ := table_spells _ regs hr w t h
  refine ⟨s, hs, hd, ?_⟩
  have hir : ∀ r ∈ regs, Ident r.name := fun r h => (hr r h).1
  have pre : ∀ s', SigMap.get predefined w = some s' → s = s' := by
    intro s' h'
    unfold table at hs
    rw [foldl_predef _ regs _ hr w (mem_predef_of_get h'), h'] at hs
    exact (Option.some.inj hs).symm
  cases h with
  | prim p =>
    rw [pre [p.letter] (by cases p <;> decide)]
    refine ⟨Ok_of_nodot (by cases p <;> decide), ?_⟩
    intro d hd'; simp at hd'; subst hd'; cases p <;> decide
  | primArr p =>
    rw [pre ['[', p.letter] (by cases p <;> decide)]
    refine ⟨Ok_of_nodot (by cases p <;> decide), ?_⟩
    intro d hd'; simp at hd'; subst hd'; decide
  | string =>
    rw [pre "Ljava.lang.String;".toList (by decide)]
    refine ⟨?_, ?_⟩
    · have : ∀ x : Text, Ok (x ++ [';']) → Ok (x ++ [';']) := fun _ h => h
      refine ⟨by decide, ?_⟩
      refine ⟨by decide, by decide, by decide, by decide, ?_, ?_⟩
      · intro _ d hd'; simp at hd'; subst hd'; decide
      refine ⟨by decide, by decide, by decide, by decide, ?_, ?_⟩
      · intro _ d hd'; simp at hd'; subst hd'; decide
      exact Ok_of_nodot (by decide)
    · intro d hd'; simp at hd'; subst hd'; decide
  | gen r h =>
    have := foldl_gen (dotted comps) regs hir r h predefined
    unfold MapOk at this
    unfold table at hs
    rw [this] at hs
    rw [← Option.some.inj hs]
    refine ⟨genSig_ok comps hc hi _ (hir r h), ?_⟩
    intro d hd'
    simp [genSig] at hd'; subst hd'; decide
  | genArr n h =>
    have := foldl_genArr (dotted comps) regs hir n h predefined
    unfold ArrOk at this
    unfold table at hs
    change SigMap.get _ (n ++ sfx) = _ at hs
    rw [this] at hs
    rw [← Option.some.inj hs]
    refine ⟨⟨fun e => absurd e (by decide), genSig_ok comps hc hi _ (hir _ h)⟩, ?_⟩
    intro d hd'
    simp at hd'; subst hd'; decide

theorem rawArgs_spec (comps : List Text) (hc : comps ≠ []) (hi : ∀ c ∈ comps, Ident c) (regs : List Reg)
    (hr : ∀ r ∈ regs, GoodName r.name) (args : List ArgTy) (tys : List JTy)
    (h : Names (dotted comps) regs (args.map ArgTy.native) tys) :
    ∃ raw, rawArgs (table (dotted comps) regs) args = some raw ∧ slashes raw = tys.flatMap JTy.desc ∧ Ok raw ∧
      ∀ d ∈ raw.head?, ¬ d.isDigit := by
  induction args generalizing tys with
  | nil =>
    cases h with
    | nil => exact ⟨[], rfl, rfl, trivial, by simp⟩
  | cons a l ih =>
    cases h with
    | cons hs ha hn =>
      obtain ⟨raw, h1, h2, h3, h4⟩ := ih _ hn
      obtain ⟨s, g1, g2, g3, g4⟩ := table_entry_ok comps hc hi regs hr _ _ hs
      have hcl := hs.clean (fun r h => (hr r h).1)
      refine ⟨s ++ raw, ?_, ?_, Ok_append g3 h3 h4, ?_⟩
      · rw [rawArgs, typeSig_annotated _ hcl ha, g1, h1]; rfl
      · rw [slashes_append, g2, h2]; rfl
      · cases s with
        | nil => exact h4
        | cons c s => exact g4

theorem Spells.no_semicolon {comps : List Text} (hi : ∀ c ∈ comps, Ident c) {regs : List Reg}
    (hr : ∀ r ∈ regs, GoodName r.name) {w : Text} {t : JTy} (h : Spells (dotted comps) regs w t) :
    ∀ n ∈ t.names, ';' ∉ n := by
  have hd : ';' ∉ slashes (dotted comps) := by
    have h0 : ';' ∉ dotted comps := by
      clear h hr
      induction comps with
      | nil => simp [dotted]
      | cons c l ih =>
        have hcc : ';' ∉ c := fun hm => ((hi c (by simp)).chars _ hm).2.2.1 rfl
        cases l with
        | nil => exact hcc
        | cons d l =>
          rw [dotted_cons, List.mem_append, List.mem_cons, not_or, not_or]
          exact ⟨hcc, by decide, ih (fun c h => hi c (by simp_all))⟩
    intro hm
    unfold slashes at hm
    rw [List.mem_map] at hm
    obtain ⟨c, hc, e⟩ := hm
    split at e
    · exact absurd e (by decide)
    · exact h0 (e ▸ hc)
  have hg : ∀ r ∈ regs, ';' ∉ slashes (dotted comps) ++ '/' :: r.name := by
    intro r hm
    rw [List.mem_append, List.mem_cons, not_or, not_or]
    exact ⟨hd, by decide, fun h => ((hr r hm).1.chars _ h).2.2.1 rfl⟩
  cases h with
  | prim p => intro n hn; simp [JTy.names] at hn
  | primArr p => intro n hn; simp [JTy.names] at hn
  | string => intro n hn; simp only [JTy.names, List.mem_singleton] at hn; subst hn; decide
  | gen r h => intro n hn; simp only [JTy.names, List.mem_singleton] at hn; subst hn; exact hg r h
  | genArr k h => intro n hn; simp only [JTy.names, List.mem_singleton] at hn; subst hn; exact hg _ h

theorem Names.no_semicolon {comps : List Text} (hi : ∀ c ∈ comps, Ident c) {regs : List Reg}
    (hr : ∀ r ∈ regs, GoodName r.name) {as : List Text} {ts : List JTy} (h : Names (dotted comps) regs as ts) :
    ∀ t ∈ ts, ∀ n ∈ t.names, ';' ∉ n := by
  induction h with
  | nil => simp
  | cons hs _ _ ih =>
    intro t ht
    rw [List.mem_cons] at ht
    rcases ht with rfl | ht
    · exact hs.no_semicolon hi hr
    · exact ih t ht

/-! ## C30 -/

/-- A native method as the user sees it. -/
structure Native where
  comps : List Text
  regs : List Reg
  cls : Text
  meth : Text
  variant : Variant
  args : List ArgTy
  tys : List JTy
  overloaded : Bool

/-- The names are usable and, for an overloaded method, its native parameter types are known. -/
structure Native.Good (n : Native) : Prop where
  pkg : n.comps ≠ []
  pkgId : ∀ c ∈ n.comps, Ident c
  regs : ∀ r ∈ n.regs, GoodName r.name
  cls : Ident n.cls
  meth : Ident n.meth
  args : n.overloaded = true → Names (dotted n.comps) n.regs (n.args.map ArgTy.native) n.tys

/-- Its exported symbol. -/
def Native.symbol (n : Native) : Option Text :=
  jniFuncName (table (dotted n.comps) n.regs) (dotted n.comps) n.cls n.meth n.variant n.args n.overloaded

theorem Native.symbol_spec (n : Native) (h : n.Good) :
    ∃ raw, n.symbol = some ("Java_".toList ++ esc (dotted (n.comps ++ [n.cls, n.meth]) ++
        tailText (if n.overloaded then some raw else none))) ∧
      Ok (dotted (n.comps ++ [n.cls, n.meth]) ++ tailText (if n.overloaded then some raw else none)) ∧
      (n.overloaded = true → slashes raw = (nativeTys n.variant n.tys).flatMap JTy.desc) := by
  have hid : ∀ c ∈ n.comps ++ [n.cls, n.meth], Ident c := by
    intro c hc
    rw [List.mem_append] at hc
    rcases hc with hc | hc
    · exact h.pkgId c hc
    · simp at hc
      rcases hc with rfl | rfl
      · exact h.cls
      · exact h.meth
  cases ho : n.overloaded with
  | false =>
    refine ⟨[], ?_, ?_, by simp⟩
    · unfold Native.symbol
      rw [ho, symbol_text _ n.comps h.pkg n.cls n.meth n.variant n.args false [] (by simp)]
      rfl
    · simp only [Bool.false_eq_true, if_false, tailText, List.append_nil]
      exact Ok_dotted _ hid
  | true =>
    obtain ⟨raw, h1, h2, h3, h4⟩ := rawArgs_spec n.comps h.pkg h.pkgId n.regs h.regs n.args n.tys (h.args ho)
    refine ⟨(if n.variant = .method then ['J'] else []) ++ raw, ?_, ?_, ?_⟩
    · unfold Native.symbol
      rw [ho, symbol_text _ n.comps h.pkg n.cls n.meth n.variant n.args true raw (fun _ => h1)]
    · simp only [if_true, tailText]
      have hj : Ok ((if n.variant = .method then ['J'] else []) ++ raw) ∧
          ∀ d ∈ ((if n.variant = .method then ['J'] else []) ++ raw).head?, ¬ d.isDigit := by
        split
        · refine ⟨⟨fun e => absurd e (by decide), h3⟩, ?_⟩
          intro d hd; simp at hd; subst hd; decide
        · exact ⟨h3, h4⟩
      refine Ok_append (Ok_dotted _ hid) ⟨?_, ?_, hj.1⟩ ?_
      · intro _ d hd; simp at hd; subst hd; decide
      · intro _; exact hj.2
      · intro d hd; simp at hd; subst hd; decide
    · intro _
      unfold nativeTys
      split
      · rw [List.flatMap_cons, ← h2]; rfl
      · rw [List.nil_append, h2]

/-- **C30**: two native methods with the same exported symbol are the same method: same package, class and native name, both
or neither overloaded, and if overloaded the same parameter types. -/
theorem C30_symbols_distinct (n k : Native) (hn : n.Good) (hk : k.Good) (s : Text) (h1 : n.symbol = some s)
    (h2 : k.symbol = some s) :
    n.comps = k.comps ∧ n.cls = k.cls ∧ n.meth = k.meth ∧ n.overloaded = k.overloaded ∧
      (n.overloaded = true → nativeTys n.variant n.tys = nativeTys k.variant k.tys) := by
  obtain ⟨r1, e1, o1, d1⟩ := n.symbol_spec hn
  obtain ⟨r2, e2, o2, d2⟩ := k.symbol_spec hk
  have he : esc (dotted (n.comps ++ [n.cls, n.meth]) ++ tailText (if n.overloaded then some r1 else none)) =
      esc (dotted (k.comps ++ [k.cls, k.meth]) ++ tailText (if k.overloaded then some r2 else none)) := by
    have := (e1.symm.trans h1).trans (h2.symm.trans e2)
    exact List.append_cancel_left (Option.some.inj this)
  have he2 := congrArg unesc he
  rw [unesc_esc _ o1, unesc_esc _ o2] at he2
  have idn : ∀ (x : Native), x.Good → ∀ c ∈ x.comps ++ [x.cls, x.meth], Ident c := by
    intro x hx c hc
    rw [List.mem_append] at hc
    rcases hc with hc | hc
    · exact hx.pkgId c hc
    · simp at hc
      rcases hc with rfl | rfl
      · exact hx.cls
      · exact hx.meth
  obtain ⟨a1, a2⟩ := dotted_injective _ _ (by simp) (by simp) (idn n hn) (idn k hk) _ _ he2
  obtain ⟨b1, b2⟩ := List.append_inj' a1 rfl
  simp only [List.cons.injEq, and_true] at b2
  refine ⟨b1, b2.1, b2.2, ?_, ?_⟩
  · cases hno : n.overloaded <;> cases hko : k.overloaded <;> simp_all
  · intro ho
    have hko : k.overloaded = true := by
      cases hko : k.overloaded with
      | true => rfl
      | false => rw [ho, hko] at a2; simp at a2
    rw [ho, hko] at a2
    simp only [if_true, Option.some.injEq] at a2
    have hd : (nativeTys n.variant n.tys).flatMap JTy.desc = (nativeTys k.variant k.tys).flatMap JTy.desc := by
      rw [← d1 ho, ← d2 hko, a2]
    have ns : ∀ (x : Native), x.Good → x.overloaded = true → ∀ t ∈ nativeTys x.variant x.tys, ∀ m ∈ t.names, ';' ∉ m := by
      intro x hx hxo t ht
      have base := (hx.args hxo).no_semicolon hx.pkgId hx.regs
      unfold nativeTys at ht
      split at ht
      · rw [List.mem_cons] at ht
        rcases ht with rfl | ht
        · intro m hm; simp [JTy.names] at hm
        · exact base t ht
      · exact base t ht
    exact descs_injective _ _ (ns n hn ho) (ns k hk hko) hd

end Flapi.JavaNames
