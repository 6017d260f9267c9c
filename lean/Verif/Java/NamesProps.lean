import Verif.Java.Names
import Verif.Core.TemplateProps
/-!
# C30, C31, C50: JNI symbols and method signatures
-/
namespace Flapi.JavaNames

/-! ## Specification: descriptors (JVMS 4.3) and native method names (JNI specification, chapter 2) -/

inductive Prim where
  | boolean | byte | char | short | int | long | float | double
  deriving DecidableEq, Repr

/-- Java types as the JVM sees them; `cls` holds the internal name with `/`. -/
inductive JTy where
  | prim (p : Prim)
  | cls (internalName : Text)
  | arr (elem : JTy)
  deriving DecidableEq, Repr

def Prim.letter : Prim → Char
  | .boolean => 'Z' | .byte => 'B' | .char => 'C' | .short => 'S' | .int => 'I' | .long => 'J' | .float => 'F'
  | .double => 'D'

/-- Field descriptor. -/
def JTy.desc : JTy → Text
  | .prim p => [p.letter]
  | .cls n => 'L' :: n ++ [';']
  | .arr t => '[' :: t.desc

/-- Descriptor of a result, `none` being `void`. -/
def retDesc : Option JTy → Text
  | none => ['V']
  | some t => t.desc

/-- Method descriptor. -/
def methodDesc (args : List JTy) (ret : Option JTy) : Text := '(' :: args.flatMap JTy.desc ++ ')' :: retDesc ret

def Prim.word : Prim → Text
  | .boolean => "boolean".toList | .byte => "byte".toList | .char => "char".toList | .short => "short".toList
  | .int => "int".toList | .long => "long".toList | .float => "float".toList | .double => "double".toList

def javaLangString : Text := "java/lang/String".toList

/-- Name of a generated type. -/
def Reg.name : Reg → Text
  | .cls n => n
  | .enum n => n

/-- `Spells pkg regs w t`: the Java type name `w`, written in a file of package `pkg`, means the type `t`.  (The boxed
types are left out: see the finding below.) -/
inductive Spells (pkg : Text) (regs : List Reg) : Text → JTy → Prop where
  | prim (p : Prim) : Spells pkg regs p.word (.prim p)
  | primArr (p : Prim) : Spells pkg regs (p.word ++ " []".toList) (.arr (.prim p))
  | string : Spells pkg regs "String".toList (.cls javaLangString)
  | gen (r : Reg) (h : r ∈ regs) : Spells pkg regs r.name (.cls (slashes pkg ++ '/' :: r.name))
  | genArr (n : Text) (h : Reg.cls n ∈ regs) :
      Spells pkg regs (n ++ " []".toList) (.arr (.cls (slashes pkg ++ '/' :: n)))

/-- A type name possibly preceded by a null annotation. -/
inductive Annotated (w : Text) : Text → Prop where
  | plain : Annotated w w
  | nonNull : Annotated w (nonNull ++ ' ' :: w)
  | nullable : Annotated w (nullable ++ ' ' :: w)

/-- An identifier of the class and package names handled by the generator. -/
structure Ident (n : Text) : Prop where
  nonempty : n ≠ []
  first : ∀ c ∈ n.head?, ¬ c.isDigit
  chars : ∀ c ∈ n, c ≠ '.' ∧ c ≠ '[' ∧ c ≠ ';' ∧ c ≠ '@' ∧ c.isWhitespace = false

/-- `a.b.c`. -/
def dotted : List Text → Text
  | [] => []
  | [c] => c
  | c :: l => c ++ '.' :: dotted l

/-- A package name made of identifiers. -/
def Package (p : Text) : Prop := ∃ comps : List Text, comps ≠ [] ∧ (∀ c ∈ comps, Ident c) ∧ p = dotted comps

/-- Hexadecimal digits of a UTF-16 code unit, as in `_0xxxx`. -/
def hex4 (n : Nat) : Text :=
  [Nat.digitChar (n / 4096 % 16), Nat.digitChar (n / 256 % 16), Nat.digitChar (n / 16 % 16), Nat.digitChar (n % 16)]

/-- The escape rule of the JNI specification for one character (of the basic plane). -/
def jvmEscape (c : Char) : Text :=
  if c = '/' then ['_']
  else if c = '_' then ['_', '1']
  else if c = ';' then ['_', '2']
  else if c = '[' then ['_', '3']
  else if c.isAlphanum then [c]
  else '_' :: '0' :: hex4 c.toNat

/-- The short name the JVM looks up first: `Java_` mangled class `_` mangled method. -/
def jvmShortName (internalClass meth : Text) : Text :=
  "Java_".toList ++ internalClass.flatMap jvmEscape ++ '_' :: meth.flatMap jvmEscape

/-- The long name, required for overloaded native methods: `__` and the mangled argument descriptors. -/
def jvmLongName (internalClass meth : Text) (args : List JTy) : Text :=
  jvmShortName internalClass meth ++ "__".toList ++ (args.flatMap JTy.desc).flatMap jvmEscape

/-- Names with only ASCII letters, digits and `_`. -/
def AsciiName (n : Text) : Prop := ∀ c ∈ n, c.isAlphanum ∨ c = '_'

/-! ## Table lemmas -/

theorem lookup_cons (m : SigMap) (k k' v : Text) :
    SigMap.get ((k', v) :: m) k = if k = k' then some v else SigMap.get m k := by
  unfold SigMap.get
  rw [List.lookup_cons]
  split <;> simp_all

def genSig (pkg n : Text) : Text := 'L' :: classFullName pkg n ++ ";".toList
def sfx : Text := " []".toList

theorem register_cls (pkg : Text) (m : SigMap) (n : Text) :
    register pkg m (.cls n) = (n ++ sfx, '[' :: genSig pkg n) :: (n, genSig pkg n) :: m := rfl
theorem register_enum (pkg : Text) (m : SigMap) (n : Text) :
    register pkg m (.enum n) = (n, genSig pkg n) :: m := rfl

theorem sfx_ne {n k : Text} (hn : Ident n) : n ≠ k ++ sfx := by
  intro e
  have : ' ' ∈ n := by rw [e]; simp [sfx]
  exact absurd (hn.chars _ this).2.2.2.2 (by decide)

/-- The keys of the predefined table. -/
def predefKeys : List Text := predefined.map (·.1)

/-- What a user may call a class: an identifier that is not a predefined Java type name. -/
def GoodName (n : Text) : Prop := Ident n ∧ n ∉ predefKeys ∧ n ++ sfx ∉ predefKeys

theorem register_predef (pkg : Text) (m : SigMap) (r : Reg) (hr : GoodName r.name) (k : Text) (hk : k ∈ predefKeys) :
    SigMap.get (register pkg m r) k = SigMap.get m k := by
  obtain ⟨_, h1, h2⟩ := hr
  cases r with
  | cls n =>
    rw [register_cls, lookup_cons, lookup_cons]
    rw [if_neg (by rintro rfl; exact h2 hk), if_neg (by rintro rfl; exact h1 hk)]
  | enum n =>
    rw [register_enum, lookup_cons, if_neg (by rintro rfl; exact h1 hk)]

theorem foldl_predef (pkg : Text) (regs : List Reg) (m : SigMap) (hr : ∀ r ∈ regs, GoodName r.name) (k : Text)
    (hk : k ∈ predefKeys) : SigMap.get (regs.foldl (register pkg) m) k = SigMap.get m k := by
  induction regs generalizing m with
  | nil => rfl
  | cons r regs ih =>
    rw [List.foldl_cons, ih _ (fun s hs => hr s (by simp [hs])), register_predef pkg m r (hr r (by simp)) k hk]

/-- Values stored under a class name or its array are determined by the key. -/
def MapOk (pkg : Text) (n : Text) (m : SigMap) : Prop := SigMap.get m n = some (genSig pkg n)
def ArrOk (pkg : Text) (n : Text) (m : SigMap) : Prop := SigMap.get m (n ++ sfx) = some ('[' :: genSig pkg n)

theorem register_keeps (pkg n : Text) (hn : Ident n) (m : SigMap) (r : Reg) (h : MapOk pkg n m) :
    MapOk pkg n (register pkg m r) := by
  unfold MapOk at *
  cases r with
  | cls k =>
    rw [register_cls, lookup_cons, lookup_cons, if_neg (sfx_ne hn)]
    split
    · subst_vars; rfl
    · exact h
  | enum k =>
    rw [register_enum, lookup_cons]
    split
    · subst_vars; rfl
    · exact h

theorem register_keepsArr (pkg n : Text) (m : SigMap) (r : Reg) (hr : Ident r.name) (h : ArrOk pkg n m) :
    ArrOk pkg n (register pkg m r) := by
  unfold ArrOk at *
  cases r with
  | cls k =>
    rw [register_cls, lookup_cons, lookup_cons]
    split
    · rename_i e
      rw [List.append_cancel_right e]
    · rw [if_neg (fun e => sfx_ne hr e.symm)]; exact h
  | enum k =>
    rw [register_enum, lookup_cons, if_neg (fun e => sfx_ne hr e.symm)]
    exact h

theorem foldl_keeps (pkg n : Text) (hn : Ident n) (regs : List Reg) (m : SigMap) (h : MapOk pkg n m) :
    MapOk pkg n (regs.foldl (register pkg) m) := by
  induction regs generalizing m with
  | nil => exact h
  | cons r regs ih => exact ih _ (register_keeps pkg n hn m r h)

theorem foldl_keepsArr (pkg n : Text) (regs : List Reg) (hr : ∀ r ∈ regs, Ident r.name) (m : SigMap) (h : ArrOk pkg n m) :
    ArrOk pkg n (regs.foldl (register pkg) m) := by
  induction regs generalizing m with
  | nil => exact h
  | cons r regs ih =>
    exact ih (fun s hs => hr s (by simp [hs])) _ (register_keepsArr pkg n m r (hr r (by simp)) h)

theorem foldl_gen (pkg : Text) (regs : List Reg) (hr : ∀ r ∈ regs, Ident r.name) (r : Reg) (h : r ∈ regs) (m : SigMap) :
    MapOk pkg r.name (regs.foldl (register pkg) m) := by
  induction regs generalizing m with
  | nil => simp at h
  | cons s regs ih =>
    rw [List.mem_cons] at h
    rcases h with rfl | h
    · rw [List.foldl_cons]
      apply foldl_keeps _ _ (hr _ (by simp))
      unfold MapOk
      cases r with
      | cls k =>
        rw [register_cls, lookup_cons, lookup_cons, if_neg (sfx_ne (hr _ (by simp)))]
        simp [Reg.name]
      | enum k => rw [register_enum, lookup_cons]; simp [Reg.name]
    · exact ih (fun s hs => hr s (by simp [hs])) h _

theorem foldl_genArr (pkg : Text) (regs : List Reg) (hr : ∀ r ∈ regs, Ident r.name) (n : Text) (h : Reg.cls n ∈ regs)
    (m : SigMap) : ArrOk pkg n (regs.foldl (register pkg) m) := by
  induction regs generalizing m with
  | nil => simp at h
  | cons s regs ih =>
    rw [List.mem_cons] at h
    rcases h with rfl | h
    · rw [List.foldl_cons]
      apply foldl_keepsArr _ _ _ (fun s hs => hr s (by simp [hs]))
      unfold ArrOk
      rw [register_cls, lookup_cons]; simp
    · exact ih (fun s hs => hr s (by simp [hs])) h _

theorem slashes_append (a b : Text) : slashes (a ++ b) = slashes a ++ slashes b := by simp [slashes]

theorem slashes_id {a : Text} (h : '.' ∉ a) : slashes a = a := by
  unfold slashes
  induction a with
  | nil => rfl
  | cons c a ih =>
    simp only [List.mem_cons, not_or] at h
    rw [List.map_cons, ih h.2, if_neg (fun e => h.1 e.symm)]

theorem slashes_genSig (pkg n : Text) (hn : Ident n) : slashes (genSig pkg n) = (JTy.cls (slashes pkg ++ '/' :: n)).desc := by
  have hd : '.' ∉ n := fun h => (hn.chars _ h).1 rfl
  unfold genSig classFullName JTy.desc
  rw [slashes_append]
  change 'L' :: slashes (pkg ++ '.' :: n) ++ _ = _
  rw [slashes_append]
  change 'L' :: (slashes pkg ++ '/' :: slashes n) ++ [';'] = _
  rw [slashes_id hd]

theorem mem_predef_of_get {k v : Text} (h : SigMap.get predefined k = some v) : k ∈ predefKeys := by
  unfold predefKeys
  generalize predefined = m at *
  induction m with
  | nil => simp [SigMap.get] at h
  | cons a m ih =>
    obtain ⟨a1, a2⟩ := a
    rw [lookup_cons] at h
    split at h
    · simp_all
    · simp [ih h]

/-- Table entries of the supported types are, up to `.` for `/`, the descriptors. -/
theorem table_spells (pkg : Text) (regs : List Reg) (hr : ∀ r ∈ regs, GoodName r.name) (w : Text) (t : JTy)
    (h : Spells pkg regs w t) : ∃ s, SigMap.get (table pkg regs) w = some s ∧ slashes s = t.desc := by
  have hi : ∀ r ∈ regs, Ident r.name := fun r h => (hr r h).1
  have key : ∀ w s, SigMap.get predefined w = some s → slashes s = t.desc →
      ∃ s, SigMap.get (table pkg regs) w = some s ∧ slashes s = t.desc := by
    intro w s hs e
    refine ⟨s, ?_, e⟩
    unfold table
    rw [foldl_predef pkg regs _ hr w (mem_predef_of_get hs), hs]
  cases h with
  | prim p => exact key _ [p.letter] (by cases p <;> decide) (by cases p <;> decide)
  | primArr p => exact key _ ['[', p.letter] (by cases p <;> decide) (by cases p <;> decide)
  | string => exact key _ "Ljava.lang.String;".toList (by decide) (by decide)
  | gen r h => exact ⟨_, foldl_gen pkg regs hi r h _, slashes_genSig pkg _ (hi r h)⟩
  | genArr n h =>
    refine ⟨_, foldl_genArr pkg regs hi n h _, ?_⟩
    change '[' :: slashes (genSig pkg n) = _
    rw [slashes_genSig pkg n (hi _ h)]
    rfl

/-! ## Annotations -/

/-- Words not disturbed by trimming and by the removal of annotations. -/
structure Clean (w : Text) : Prop where
  at' : '@' ∉ w
  first : ∃ c r, w = c :: r ∧ c.isWhitespace = false
  last : ∃ r c, w = r ++ [c] ∧ c.isWhitespace = false

theorem Ident.clean {n : Text} (h : Ident n) : Clean n := by
  refine ⟨fun hm => (h.chars _ hm).2.2.2.1 rfl, ?_, ?_⟩
  · cases n with
    | nil => exact absurd rfl h.nonempty
    | cons c r => exact ⟨c, r, rfl, (h.chars c (by simp)).2.2.2.2⟩
  · refine ⟨_, _, (List.dropLast_concat_getLast h.nonempty).symm, ?_⟩
    exact (h.chars _ (List.getLast_mem _)).2.2.2.2

theorem Clean.arr {n : Text} (h : Clean n) : Clean (n ++ sfx) := by
  refine ⟨?_, ?_, ?_⟩
  · rw [List.mem_append, not_or]; exact ⟨h.at', by decide⟩
  · obtain ⟨c, r, e, hc⟩ := h.first
    exact ⟨c, r ++ sfx, by rw [e]; rfl, hc⟩
  · exact ⟨n ++ " [".toList, ']', by rw [List.append_assoc]; rfl, by decide⟩

theorem Clean.prim (p : Prim) : Clean p.word := by
  refine ⟨by cases p <;> decide, ?_, ?_⟩
  · cases p <;> exact ⟨_, _, rfl, by decide⟩
  · refine ⟨p.word.dropLast, p.word.getLast (by cases p <;> decide), ?_, by cases p <;> decide⟩
    exact (List.dropLast_concat_getLast _).symm

theorem Spells.clean {pkg : Text} {regs : List Reg} (hr : ∀ r ∈ regs, Ident r.name) {w : Text} {t : JTy}
    (h : Spells pkg regs w t) : Clean w := by
  cases h with
  | prim p => exact Clean.prim p
  | primArr p => exact (Clean.prim p).arr
  | string => exact ⟨by decide, ⟨_, _, rfl, by decide⟩, ⟨"Strin".toList, 'g', rfl, by decide⟩⟩
  | gen r h => exact (hr r h).clean
  | genArr n h => exact (hr _ h).clean.arr

theorem trim_clean {w : Text} (h : Clean w) : trim w = w := by
  obtain ⟨c, r, e, hc⟩ := h.first
  obtain ⟨r', c', e', hc'⟩ := h.last
  unfold trim
  have h1 : w.dropWhile Char.isWhitespace = w := by rw [e]; simp [hc]
  rw [h1]
  have h2 : w.reverse.dropWhile Char.isWhitespace = w.reverse := by rw [e']; simp [hc']
  rw [h2, List.reverse_reverse]

theorem trim_blank {w : Text} (h : Clean w) : trim (' ' :: w) = w := by
  have : trim (' ' :: w) = trim w := by
    unfold trim
    rw [List.dropWhile_cons]; simp
  rw [this, trim_clean h]

theorem no_at_infix (k w : Text) (h : '@' ∉ w) : ¬ ('@' :: k) <:+: w := by
  intro hi
  exact h (hi.subset (by simp))

theorem nonNull_absent {w : Text} (h : '@' ∉ w) : ¬ nonNull <:+: w := no_at_infix "NonNull".toList w h
theorem nullable_absent {w : Text} (h : '@' ∉ w) : ¬ nullable <:+: w := no_at_infix "Nullable".toList w h

theorem filterNull_absent {w : Text} (h : '@' ∉ w) : filterNull w = w := by
  unfold filterNull
  rw [strReplace_absent _ _ _ (nonNull_absent h), strReplace_absent _ _ _ (nullable_absent h)]

theorem filterNull_annotated {w a : Text} (hw : Clean w) (h : Annotated w a) : filterNull a = w ∨ filterNull a = ' ' :: w := by
  have hb : '@' ∉ ' ' :: w := by
    intro hm
    rw [List.mem_cons] at hm
    rcases hm with hm | hm
    · exact absurd hm (by decide)
    · exact hw.at' hm
  cases h with
  | plain => exact Or.inl (filterNull_absent hw.at')
  | nonNull =>
    right
    unfold filterNull
    rw [strReplace_match _ _ _ (by decide), List.nil_append, strReplace_absent _ _ _ (nonNull_absent hb),
      strReplace_absent _ _ _ (nullable_absent hb)]
  | nullable =>
    right
    unfold filterNull
    rw [strReplace_inert nonNull [] nullable _ (by decide) ((Template.inertB_iff _ _).1 (by decide)),
      strReplace_absent _ _ _ (nonNull_absent hb), strReplace_match _ _ _ (by decide), List.nil_append,
      strReplace_absent _ _ _ (nullable_absent hb)]

theorem trim_filter {w a : Text} (hw : Clean w) (h : Annotated w a) : trim (filterNull a) = w := by
  rcases filterNull_annotated hw h with e | e
  · rw [e, trim_clean hw]
  · rw [e, trim_blank hw]

theorem typeSig_annotated (m : SigMap) {w a : Text} (hw : Clean w) (h : Annotated w a) : typeSig m a = m.get w := by
  unfold typeSig
  split
  · rw [trim_filter hw h]
  · rename_i hc
    cases h with
    | plain => rfl
    | nonNull =>
      exfalso
      apply hc
      rw [Bool.or_eq_true]
      left
      rw [strContains_iff]
      exact List.IsPrefix.isInfix ⟨_, rfl⟩
    | nullable =>
      exfalso
      apply hc
      rw [Bool.or_eq_true]
      right
      rw [strContains_iff]
      exact List.IsPrefix.isInfix ⟨_, rfl⟩

/-! ## C31: method signatures -/

/-- `args` are the (possibly annotated) names of `tys`. -/
inductive Names (pkg : Text) (regs : List Reg) : List Text → List JTy → Prop where
  | nil : Names pkg regs [] []
  | cons {w a t as ts} (h : Spells pkg regs w t) (ha : Annotated w a) (hs : Names pkg regs as ts) :
      Names pkg regs (a :: as) (t :: ts)

theorem sigArgs_desc (pkg : Text) (regs : List Reg) (hr : ∀ r ∈ regs, GoodName r.name) (as : List Text) (ts : List JTy)
    (h : Names pkg regs as ts) : sigArgs (table pkg regs) as = some (ts.flatMap JTy.desc) := by
  induction h with
  | nil => rfl
  | cons hs ha _ ih =>
    have hc := hs.clean (fun r h => (hr r h).1)
    obtain ⟨s, hg, hd⟩ := table_spells pkg regs hr _ _ hs
    rw [sigArgs, trim_filter hc ha, typeSig_annotated _ hc .plain, hg, ih]
    simp only [Option.bind_eq_bind, Option.bind_some, Option.pure_def, hd, List.flatMap_cons]

/-- The results for which the generated signature is right: `void`, primitives and arrays of primitives. -/
inductive RetNames : Text → Option JTy → Prop where
  | void : RetNames "void".toList none
  | prim (p : Prim) : RetNames p.word (some (.prim p))
  | primArr (p : Prim) : RetNames (p.word ++ " []".toList) (some (.arr (.prim p)))

/-- **C31**: for every callback method whose argument types are primitives, arrays of primitives, `String`, generated
classes or enums (possibly annotated) and whose result is void, primitive or an array of primitives, the generated
signature is the JVM method descriptor of these types. -/
theorem C31_signature_is_descriptor (pkg : Text) (regs : List Reg) (hr : ∀ r ∈ regs, GoodName r.name) (args : List Text)
    (tys : List JTy) (ret : Text) (rt : Option JTy) (ha : Names pkg regs args tys) (hret : RetNames ret rt) :
    methodSignature (table pkg regs) args ret = some (methodDesc tys rt) := by
  unfold methodSignature
  rw [sigArgs_desc pkg regs hr args tys ha]
  have key : typeSig (table pkg regs) ret = some (retDesc rt) := by
    have aux : ∀ s, Clean ret → SigMap.get predefined ret = some s → typeSig (table pkg regs) ret = some s := by
      intro s hc hs
      rw [typeSig_annotated _ hc .plain]
      unfold table
      rw [foldl_predef pkg regs _ hr _ (mem_predef_of_get hs), hs]
    cases hret with
    | void => exact aux _ ⟨by decide, ⟨_, _, rfl, by decide⟩, ⟨"voi".toList, 'd', rfl, by decide⟩⟩ (by decide)
    | prim p => exact aux _ (Clean.prim p) (by cases p <;> decide)
    | primArr p => exact aux _ (Clean.prim p).arr (by cases p <;> decide)
  rw [key]
  rfl

/-- Class names occurring in a type. -/
def JTy.names : JTy → List Text
  | .prim _ => []
  | .cls n => [n]
  | .arr t => t.names

theorem split_at {d : Char} {a b x y : Text} (ha : d ∉ a) (hb : d ∉ b) (h : a ++ d :: x = b ++ d :: y) :
    a = b ∧ x = y := by
  induction a generalizing b with
  | nil =>
    cases b with
    | nil => simp_all
    | cons c b =>
      simp only [List.nil_append, List.cons_append, List.cons.injEq] at h
      simp only [List.mem_cons, not_or] at hb
      exact absurd h.1 hb.1
  | cons c a ih =>
    cases b with
    | nil =>
      simp only [List.nil_append, List.cons_append, List.cons.injEq] at h
      simp only [List.mem_cons, not_or] at ha
      exact absurd h.1.symm ha.1
    | cons e b =>
      simp only [List.cons_append, List.cons.injEq] at h
      simp only [List.mem_cons, not_or] at ha hb
      obtain ⟨e1, e2⟩ := ih ha.2 hb.2 h.2
      exact ⟨by rw [h.1, e1], e2⟩

theorem letter_inj {p q : Prim} (h : p.letter = q.letter) : p = q := by
  revert h; cases p <;> cases q <;> decide

theorem letter_ne (p : Prim) : p.letter ≠ 'L' ∧ p.letter ≠ '[' ∧ p.letter ≠ ')' := by cases p <;> decide

/-- Descriptors can be read back unambiguously. -/
theorem desc_prefix_free (t u : JTy) (x y : Text) (ht : ∀ n ∈ t.names, ';' ∉ n) (hu : ∀ n ∈ u.names, ';' ∉ n)
    (h : t.desc ++ x = u.desc ++ y) : t = u ∧ x = y := by
  induction t generalizing u with
  | prim p =>
    cases u with
    | prim q =>
      simp only [JTy.desc, List.cons_append, List.nil_append, List.cons.injEq] at h
      exact ⟨by rw [letter_inj h.1], h.2⟩
    | cls n =>
      simp only [JTy.desc, List.cons_append, List.nil_append, List.cons.injEq] at h
      exact absurd h.1 (letter_ne p).1
    | arr v =>
      simp only [JTy.desc, List.cons_append, List.nil_append, List.cons.injEq] at h
      exact absurd h.1 (letter_ne p).2.1
  | cls n =>
    cases u with
    | prim q =>
      simp only [JTy.desc, List.cons_append, List.nil_append, List.cons.injEq] at h
      exact absurd h.1.symm (letter_ne q).1
    | cls k =>
      simp only [JTy.desc, List.cons_append, List.cons.injEq, true_and, List.append_assoc, List.nil_append] at h
      obtain ⟨e1, e2⟩ := split_at (ht n (by simp [JTy.names])) (hu k (by simp [JTy.names])) h
      exact ⟨by rw [e1], e2⟩
    | arr v =>
      simp only [JTy.desc, List.cons_append, List.cons.injEq] at h
      exact absurd h.1 (by decide)
  | arr v ih =>
    cases u with
    | prim q =>
      simp only [JTy.desc, List.cons_append, List.nil_append, List.cons.injEq] at h
      exact absurd h.1.symm (letter_ne q).2.1
    | cls k =>
      simp only [JTy.desc, List.cons_append, List.cons.injEq] at h
      exact absurd h.1 (by decide)
    | arr w =>
      simp only [JTy.desc, List.cons_append, List.cons.injEq, true_and] at h
      obtain ⟨e1, e2⟩ := ih w ht hu h
      exact ⟨by rw [e1], e2⟩

theorem desc_ne_nil (t : JTy) : t.desc ≠ [] := by cases t <;> simp [JTy.desc]

theorem descs_injective (ts us : List JTy) (ht : ∀ t ∈ ts, ∀ n ∈ t.names, ';' ∉ n) (hu : ∀ t ∈ us, ∀ n ∈ t.names, ';' ∉ n)
    (h : ts.flatMap JTy.desc = us.flatMap JTy.desc) : ts = us := by
  induction ts generalizing us with
  | nil =>
    cases us with
    | nil => rfl
    | cons u us =>
      rw [List.flatMap_nil, List.flatMap_cons] at h
      exact absurd (List.append_eq_nil_iff.1 h.symm).1 (desc_ne_nil u)
  | cons t ts ih =>
    cases us with
    | nil =>
      rw [List.flatMap_nil, List.flatMap_cons] at h
      exact absurd (List.append_eq_nil_iff.1 h).1 (desc_ne_nil t)
    | cons u us =>
      rw [List.flatMap_cons, List.flatMap_cons] at h
      obtain ⟨e1, e2⟩ := desc_prefix_free t u _ _ (ht t (by simp)) (hu u (by simp)) h
      rw [e1, ih us (fun t h => ht t (by simp [h])) (fun t h => hu t (by simp [h])) e2]

theorem desc_no_paren (t : JTy) (h : ∀ n ∈ t.names, ')' ∉ n) : ')' ∉ t.desc := by
  induction t with
  | prim p => simp only [JTy.desc, List.mem_singleton]; exact fun e => (letter_ne p).2.2 e.symm
  | cls n =>
    have := h n (by simp [JTy.names])
    simp [JTy.desc, this]
  | arr t ih =>
    simp only [JTy.desc, List.mem_cons, not_or]
    exact ⟨by decide, ih h⟩

theorem retDesc_inj (r q : Option JTy) (hr : ∀ t ∈ r, ∀ n ∈ t.names, ';' ∉ n) (hq : ∀ t ∈ q, ∀ n ∈ t.names, ';' ∉ n)
    (h : retDesc r = retDesc q) : r = q := by
  have nv : ∀ t : JTy, t.desc ≠ ['V'] := by
    intro t
    cases t with
    | prim p => cases p <;> decide
    | cls n => simp [JTy.desc]
    | arr t => simp [JTy.desc]
  cases r with
  | none =>
    cases q with
    | none => rfl
    | some u => exact absurd h.symm (nv u)
  | some t =>
    cases q with
    | none => exact absurd h (nv t)
    | some u =>
      have := (desc_prefix_free t u [] [] (hr t rfl) (hq u rfl) (by simpa [retDesc] using h)).1
      rw [this]

/-- **C31**: the descriptor determines the argument and result types (class names contain neither `;` nor `)`). -/
theorem C31_descriptor_unambiguous (as bs : List JTy) (r q : Option JTy)
    (ha : ∀ t ∈ as ++ r.toList, ∀ n ∈ t.names, ';' ∉ n ∧ ')' ∉ n)
    (hb : ∀ t ∈ bs ++ q.toList, ∀ n ∈ t.names, ';' ∉ n ∧ ')' ∉ n)
    (h : methodDesc as r = methodDesc bs q) : as = bs ∧ r = q := by
  unfold methodDesc at h
  simp only [List.cons_append, List.cons.injEq, true_and] at h
  have np : ∀ l : List JTy, (∀ t ∈ l, ∀ n ∈ t.names, ';' ∉ n ∧ ')' ∉ n) → ')' ∉ l.flatMap JTy.desc := by
    intro l hl hm
    rw [List.mem_flatMap] at hm
    obtain ⟨t, ht, hm⟩ := hm
    exact desc_no_paren t (fun n hn => (hl t ht n hn).2) hm
  obtain ⟨e1, e2⟩ := split_at (np as fun t ht => ha t (by simp [ht])) (np bs fun t ht => hb t (by simp [ht])) h
  refine ⟨descs_injective as bs (fun t ht n hn => (ha t (by simp [ht]) n hn).1)
    (fun t ht n hn => (hb t (by simp [ht]) n hn).1) e1, ?_⟩
  exact retDesc_inj r q (fun t ht n hn => (ha t (by simp_all) n hn).1) (fun t ht n hn => (hb t (by simp_all) n hn).1) e2

/-- **C31 (finding)**: the entries of the boxed types lack the final `;`, so a callback with a boxed argument gets a
signature that no list of types has. -/
theorem C31_finding_boxed (pkg : Text) :
    methodSignature (table pkg []) ["Integer".toList] "void".toList = some "(Ljava/lang/Integer)V".toList ∧
    ∀ t : JTy, t.desc ≠ "Ljava/lang/Integer".toList := by
  refine ⟨by change methodSignature predefined _ _ = _; decide, ?_⟩
  intro t h
  cases t with
  | prim p => revert h; cases p <;> decide
  | cls n =>
    have := congrArg List.getLast? h
    simp only [JTy.desc, List.getLast?_append] at this
    change some ';' = some 'r' at this
    exact absurd this (by decide)
  | arr t =>
    have := congrArg List.head? h
    simp only [JTy.desc, List.head?_cons] at this
    exact absurd this (by decide)

/-- **C31 (finding)**: in the result type the dots are not replaced, so a callback returning a string is looked up with a
signature that is not the descriptor of any method whose class names are internal names. -/
theorem C31_finding_object_result (pkg : Text) :
    methodSignature (table pkg []) [] "String".toList = some "()Ljava.lang.String;".toList ∧
    ∀ (as : List JTy) (r : Option JTy), (∀ t ∈ as ++ r.toList, ∀ n ∈ t.names, '.' ∉ n) →
      methodDesc as r ≠ "()Ljava.lang.String;".toList := by
  refine ⟨by change methodSignature predefined _ _ = _; decide, ?_⟩
  intro as r hn h
  have nd : ∀ t : JTy, (∀ n ∈ t.names, '.' ∉ n) → '.' ∉ t.desc := by
    intro t
    induction t with
    | prim p => intro _; cases p <;> decide
    | cls n => intro h; have := h n (by simp [JTy.names]); simp [JTy.desc, this]
    | arr t ih => intro h; have := ih h; simp [JTy.desc, this]
  have hm : '.' ∈ methodDesc as r := by rw [h]; decide
  unfold methodDesc at hm
  simp only [List.cons_append, List.mem_cons, List.mem_append, List.mem_flatMap] at hm
  rcases hm with hm | ⟨t, ht, hm⟩ | hm | hm
  · exact absurd hm (by decide)
  · exact nd t (hn t (by simp [ht])) hm
  · exact absurd hm (by decide)
  · cases r with
    | none => exact absurd hm (by decide)
    | some t => exact nd t (hn t (by simp)) hm

/-- **C31 (finding)**: a type without a table entry (for instance `Object`, or a generated interface) makes the generator
panic instead of reporting an error. -/
theorem C31_finding_unknown_type_panics (pkg : Text) (rest : List Text) (ret : Text) :
    methodSignature (table pkg []) ("Object".toList :: rest) ret = none := by
  have : typeSig (table pkg []) (trim (filterNull "Object".toList)) = none := by
    change typeSig predefined _ = none; decide
  unfold methodSignature
  rw [sigArgs, this]
  rfl

end Flapi.JavaNames
