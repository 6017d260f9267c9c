import Verif.Core.Config
/-! # C92: each option has the value it was given last -/
namespace Flapi.Config
open Flapi

/-! ## Specification -/

/-- The value given last, or the default. -/
def lastOr {α : Type} (d : α) (l : List α) : α := (l.getLast?).getD d

/-- A text that is `p` followed by `.NonNull`. -/
def NonNullOf (p t : Text) : Prop := t = p ++ ".NonNull".toList

/-- The package of the null annotations a call sets. -/
inductive SetsNull : JavaCall → Text → Prop
  | import (p t : Text) : NonNullOf p t → SetsNull (.nullAnnotation t) p
  | package (p : Text) : SetsNull (.nullAnnotationFromPackage p) p

def optionalsOf (l : List JavaCall) : List Text := l.filterMap fun | .optionalPackage p => some p | _ => none

def fencesOf (l : List JavaCall) : List Fence := l.filterMap fun | .fence f => some f | _ => none

/-- What the calls say about `std::optional`, `std::variant`, `std::string_view`: `use_boost` speaks about all three. -/
def cppOptionals (l : List CppCall) : List Std := l.filterMap fun | .optional s => some s | .useBoost => some .boost | _ => none
def cppVariants (l : List CppCall) : List Std := l.filterMap fun | .variant s => some s | .useBoost => some .boost | _ => none
def cppStrViews (l : List CppCall) : List Std := l.filterMap fun | .strView s => some s | .useBoost => some .boost | _ => none
def separates (l : List CppCall) : List Bool := l.filterMap fun | .separate b => some b | _ => none

/-- A decimal numeral. -/
def Numeral (t : Text) : Prop := t ≠ [] ∧ ∀ c ∈ t, c.isDigit = true

/-- The number it denotes. -/
def denotes : Text → Nat
  | [] => 0
  | c :: l => (c.toNat - 48) * 10 ^ l.length + denotes l

/-! ## Lemmas -/

theorem lastOr_cons {α : Type} (d a : α) (l : List α) : lastOr d (a :: l) = lastOr a l := by
  cases l with
  | nil => rfl
  | cons b l =>
    unfold lastOr
    rw [List.getLast?_cons_cons]
    cases h : (b :: l).getLast? with
    | none => simp at h
    | some x => rfl

theorem nonNullOf_take {p t : Text} (h : NonNullOf p t) : ".NonNull".toList.isSuffixOf t = true ∧ t.take (t.length - ".NonNull".toList.length) = p := by
  unfold NonNullOf at h
  generalize ".NonNull".toList = z at *
  subst h
  exact ⟨List.isSuffixOf_iff_suffix.2 ⟨p, rfl⟩, by simp⟩

theorem nonNullOf_of_suffix {t : Text} (h : ".NonNull".toList.isSuffixOf t = true) : NonNullOf (t.take (t.length - ".NonNull".toList.length)) t := by
  unfold NonNullOf
  generalize ".NonNull".toList = z at *
  obtain ⟨p, hp⟩ := List.isSuffixOf_iff_suffix.1 h
  subst hp
  simp

theorem foldl_denotes : ∀ (t : Text) (n : Nat), t.foldl (fun n c => 10 * n + (c.toNat - 48)) n = n * 10 ^ t.length + denotes t
  | [], n => by simp [denotes]
  | c :: l, n => by
    rw [List.foldl_cons, foldl_denotes l, denotes, List.length_cons, Nat.pow_succ, Nat.add_mul, Nat.mul_comm 10 n, Nat.mul_assoc, Nat.mul_comm 10 (10 ^ l.length)]
    omega

theorem numeral_iff (t : Text) : (t.isEmpty || !t.all Char.isDigit) = false ↔ Numeral t := by
  unfold Numeral
  cases t <;> simp

/-! ## C92 -/

/-- Java: after any calls that do not panic, the directory and package are those of `new`, the package of `Optional` and the reachability fence are those given last
(at first `java.util`, and a generated fence for eight objects), and the null annotations are those of the last call of either method that sets them; if there was
none then there are no annotations. -/
theorem C92_java (dir pkg : Text) (l : List JavaCall) (c : JavaConfig) (h : (JavaConfig.new dir pkg).calls l = some c) :
    c.outputDir = dir ∧ c.package = pkg ∧ c.optionalPackage = lastOr "java.util".toList (optionalsOf l) ∧ c.fence = lastOr (.generate 8) (fencesOf l) ∧
    ((∀ x ∈ l, ∀ p, ¬ SetsNull x p) → c.nullPackage = none) ∧
    (∀ pre x post p, l = pre ++ x :: post → SetsNull x p → (∀ y ∈ post, ∀ q, ¬ SetsNull y q) → c.nullPackage = some p) := by
  have gen : ∀ (l : List JavaCall) (c0 c : JavaConfig), c0.calls l = some c →
      c.outputDir = c0.outputDir ∧ c.package = c0.package ∧ c.optionalPackage = lastOr c0.optionalPackage (optionalsOf l) ∧ c.fence = lastOr c0.fence (fencesOf l) ∧
      ((∀ x ∈ l, ∀ p, ¬ SetsNull x p) → c.nullPackage = c0.nullPackage) ∧
      (∀ pre x post p, l = pre ++ x :: post → SetsNull x p → (∀ y ∈ post, ∀ q, ¬ SetsNull y q) → c.nullPackage = some p) := by
    intro l
    induction l with
    | nil =>
      intro c0 c h
      cases h
      exact ⟨rfl, rfl, rfl, rfl, fun _ => rfl, fun pre x post p h => by cases pre <;> cases h⟩
    | cons x l ih =>
      intro c0 c h
      obtain ⟨c1, h1, h2⟩ := Option.bind_eq_some_iff.1 h
      obtain ⟨e1, e2, e3, e4, e5, e6⟩ := ih c1 c h2
      have later : ∀ pre y post p, x :: l = pre ++ y :: post → (∀ z ∈ post, ∀ q, ¬ SetsNull z q) → SetsNull y p → pre ≠ [] → c.nullPackage = some p := by
        intro pre y post p e hq hy hne
        cases pre with
        | nil => exact absurd rfl hne
        | cons a pre =>
          injection e with _ e
          exact e6 pre y post p e hy hq
      have first : ∀ p, SetsNull x p → c1.nullPackage = some p := by
        intro p hp
        cases hp with
        | «import» p t ht =>
          have := nonNullOf_take ht
          simp only [JavaConfig.call, if_pos this.1] at h1
          cases h1
          exact congrArg some this.2
        | package p => cases h1; rfl
      have all : ∀ pre y post p, x :: l = pre ++ y :: post → SetsNull y p → (∀ z ∈ post, ∀ q, ¬ SetsNull z q) → c.nullPackage = some p := by
        intro pre y post p e hy hq
        cases pre with
        | nil =>
          injection e with e e'
          subst e e'
          rw [e5 hq]
          exact first p hy
        | cons a pre =>
          injection e with _ e
          exact e6 pre y post p e hy hq
      refine ⟨?_, ?_, ?_, ?_, ?_, all⟩
      · rw [e1]
        cases x with
        | nullAnnotation i => simp only [JavaConfig.call] at h1; split at h1 <;> cases h1; rfl
        | _ => cases h1; rfl
      · rw [e2]
        cases x with
        | nullAnnotation i => simp only [JavaConfig.call] at h1; split at h1 <;> cases h1; rfl
        | _ => cases h1; rfl
      · rw [e3]
        cases x with
        | nullAnnotation i => simp only [JavaConfig.call] at h1; split at h1 <;> cases h1; rfl
        | optionalPackage p => cases h1; exact (lastOr_cons _ _ _).symm
        | _ => cases h1; rfl
      · rw [e4]
        cases x with
        | nullAnnotation i => simp only [JavaConfig.call] at h1; split at h1 <;> cases h1; rfl
        | fence f => cases h1; exact (lastOr_cons _ _ _).symm
        | _ => cases h1; rfl
      · intro hn
        rw [e5 fun y hy => hn y (List.mem_cons_of_mem _ hy)]
        cases x with
        | nullAnnotation i =>
          simp only [JavaConfig.call] at h1
          split at h1
          · rename_i hs
            exact absurd (.import _ _ (nonNullOf_of_suffix hs)) (hn _ (List.mem_cons_self ..) _)
          · cases h1
        | nullAnnotationFromPackage p => exact absurd (.package p) (hn _ (List.mem_cons_self ..) p)
        | _ => cases h1; rfl
  exact gen l _ c h

/-- Java: the calls panic if and only if `use_null_annotation` is called with a text that does not end with `.NonNull`. -/
theorem C92_java_panics (c : JavaConfig) (l : List JavaCall) : c.calls l = none ↔ ∃ t, .nullAnnotation t ∈ l ∧ ∀ p, ¬ NonNullOf p t := by
  induction l generalizing c with
  | nil => exact ⟨fun h => (by cases h), fun ⟨t, h, _⟩ => (by cases h)⟩
  | cons x l ih =>
    have step : (∃ c1, c.call x = some c1) → (c.calls (x :: l) = none ↔ ∃ t, .nullAnnotation t ∈ l ∧ ∀ p, ¬ NonNullOf p t) := by
      intro ⟨c1, h1⟩
      unfold JavaConfig.calls
      rw [h1]
      exact ih c1
    have skip : (∀ t, x ≠ .nullAnnotation t) → ((∃ t, .nullAnnotation t ∈ x :: l ∧ ∀ p, ¬ NonNullOf p t) ↔ ∃ t, .nullAnnotation t ∈ l ∧ ∀ p, ¬ NonNullOf p t) := by
      intro hx
      constructor
      · intro ⟨t, ht, hp⟩
        rcases List.mem_cons.1 ht with h | h
        · exact absurd h.symm (hx t)
        · exact ⟨t, h, hp⟩
      · intro ⟨t, ht, hp⟩
        exact ⟨t, List.mem_cons_of_mem _ ht, hp⟩
    cases x with
    | nullAnnotation i =>
      by_cases hs : ".NonNull".toList.isSuffixOf i = true
      · rw [step ⟨_, if_pos hs⟩]
        constructor
        · intro ⟨t, ht, hp⟩
          exact ⟨t, List.mem_cons_of_mem _ ht, hp⟩
        · intro ⟨t, ht, hp⟩
          rcases List.mem_cons.1 ht with h | h
          · injection h with h
            subst h
            exact absurd (nonNullOf_of_suffix hs) (hp _)
          · exact ⟨t, h, hp⟩
      · have hn : c.call (.nullAnnotation i) = none := if_neg hs
        unfold JavaConfig.calls
        rw [hn]
        exact ⟨fun _ => ⟨i, List.mem_cons_self .., fun p hp => hs (nonNullOf_take hp).1⟩, fun _ => rfl⟩
    | nullAnnotationFromPackage p => rw [step ⟨_, rfl⟩, skip (fun t h => by cases h)]
    | optionalPackage p => rw [step ⟨_, rfl⟩, skip (fun t h => by cases h)]
    | fence f => rw [step ⟨_, rfl⟩, skip (fun t h => by cases h)]

/-- C++: after any calls, `CppOptional`, `CppVariant`, `CppStrView` each have the value given last, `use_boost` giving one to all three (at first C++17), and whether
implementations have headers of their own was said last (at first not). -/
theorem C92_cpp (dir space : Text) (l : List CppCall) :
    ((CppConfig.new dir space).calls l).outputDir = dir ∧ ((CppConfig.new dir space).calls l).space = space ∧
    ((CppConfig.new dir space).calls l).options.optional = lastOr .std17 (cppOptionals l) ∧
    ((CppConfig.new dir space).calls l).options.variant = lastOr .std17 (cppVariants l) ∧
    ((CppConfig.new dir space).calls l).options.strView = lastOr .std17 (cppStrViews l) ∧
    ((CppConfig.new dir space).calls l).separate = lastOr false (separates l) := by
  have gen : ∀ (l : List CppCall) (c : CppConfig), (c.calls l).outputDir = c.outputDir ∧ (c.calls l).space = c.space ∧
      (c.calls l).options.optional = lastOr c.options.optional (cppOptionals l) ∧ (c.calls l).options.variant = lastOr c.options.variant (cppVariants l) ∧
      (c.calls l).options.strView = lastOr c.options.strView (cppStrViews l) ∧ (c.calls l).separate = lastOr c.separate (separates l) := by
    intro l
    induction l with
    | nil => intro c; exact ⟨rfl, rfl, rfl, rfl, rfl, rfl⟩
    | cons x l ih =>
      intro c
      obtain ⟨e1, e2, e3, e4, e5, e6⟩ := ih (c.call x)
      have h : c.calls (x :: l) = (c.call x).calls l := rfl
      rw [h, e1, e2, e3, e4, e5, e6]
      cases x with
      | optional s => exact ⟨rfl, rfl, (lastOr_cons _ _ _).symm, rfl, rfl, rfl⟩
      | variant s => exact ⟨rfl, rfl, rfl, (lastOr_cons _ _ _).symm, rfl, rfl⟩
      | strView s => exact ⟨rfl, rfl, rfl, rfl, (lastOr_cons _ _ _).symm, rfl⟩
      | useBoost => exact ⟨rfl, rfl, (lastOr_cons _ _ _).symm, (lastOr_cons _ _ _).symm, (lastOr_cons _ _ _).symm, rfl⟩
      | separate b => exact ⟨rfl, rfl, rfl, rfl, rfl, (lastOr_cons _ _ _).symm⟩
  exact gen l _

/-- The pointer width `cargo` states is taken as the number its decimal digits denote; without the variable there is none; any other text is a panic. -/
theorem C92_width (v : Option Text) :
    widthFromEnv none = some none ∧
    (∀ t, Numeral t → denotes t < 2 ^ 64 → widthFromEnv (some t) = some (some (denotes t)) ∧ widthFromEnv (some ('+' :: t)) = some (some (denotes t))) ∧
    (widthFromEnv v = none ↔ ∃ t, v = some t ∧ ¬ ∃ u, Numeral u ∧ denotes u < 2 ^ 64 ∧ (t = u ∨ t = '+' :: u)) := by
  have plus : ∀ u : Text, Numeral u → ∀ r, u ≠ '+' :: r := by
    intro u hu r h
    have := hu.2 '+' (by rw [h]; exact List.mem_cons_self ..)
    exact absurd this (by decide)
  have read : ∀ d : Text, (if (d.isEmpty || !d.all Char.isDigit) = true then none
      else if d.foldl (fun n c => 10 * n + (c.toNat - 48)) 0 < 2 ^ 64 then some (d.foldl (fun n c => 10 * n + (c.toNat - 48)) 0) else none) =
      (none : Option Nat) ↔ ¬ (Numeral d ∧ denotes d < 2 ^ 64) := by
    intro d
    rw [foldl_denotes, Nat.zero_mul, Nat.zero_add]
    by_cases hd : Numeral d
    · rw [if_neg (by rw [(numeral_iff d).2 hd]; decide)]
      by_cases hl : denotes d < 2 ^ 64
      · rw [if_pos hl]; simp [hd, hl]
      · rw [if_neg hl]; simp [hl]
    · rw [if_pos (by
        cases hc : (d.isEmpty || !d.all Char.isDigit) with
        | true => rfl
        | false => exact absurd ((numeral_iff d).1 hc) hd)]
      simp [hd]
  have ok : ∀ d : Text, Numeral d → denotes d < 2 ^ 64 → (if (d.isEmpty || !d.all Char.isDigit) = true then none
      else if d.foldl (fun n c => 10 * n + (c.toNat - 48)) 0 < 2 ^ 64 then some (d.foldl (fun n c => 10 * n + (c.toNat - 48)) 0) else none) = some (denotes d) := by
    intro d hd hl
    rw [foldl_denotes, Nat.zero_mul, Nat.zero_add, if_neg (by rw [(numeral_iff d).2 hd]; decide), if_pos hl]
  have strip : ∀ t : Text, (∀ r, t ≠ '+' :: r) → parseUsize t = (if (t.isEmpty || !t.all Char.isDigit) = true then none
      else if t.foldl (fun n c => 10 * n + (c.toNat - 48)) 0 < 2 ^ 64 then some (t.foldl (fun n c => 10 * n + (c.toNat - 48)) 0) else none) := by
    intro t ht
    unfold parseUsize
    split
    · exact absurd rfl (ht _)
    · rfl
  have stripPlus : ∀ t : Text, parseUsize ('+' :: t) = (if (t.isEmpty || !t.all Char.isDigit) = true then none
      else if t.foldl (fun n c => 10 * n + (c.toNat - 48)) 0 < 2 ^ 64 then some (t.foldl (fun n c => 10 * n + (c.toNat - 48)) 0) else none) := fun _ => rfl
  refine ⟨rfl, fun t ht hl => ⟨?_, ?_⟩, ?_⟩
  · show (parseUsize t).map some = _
    rw [strip t (plus t ht), ok t ht hl]; rfl
  · show (parseUsize ('+' :: t)).map some = _
    rw [stripPlus, ok t ht hl]; rfl
  · cases v with
    | none => exact ⟨fun h => (by cases h), fun ⟨t, h, _⟩ => (by cases h)⟩
    | some t =>
      show (parseUsize t).map some = none ↔ _
      rw [Option.map_eq_none_iff]
      have target : (∃ t', some t = some t' ∧ ¬ ∃ u, Numeral u ∧ denotes u < 2 ^ 64 ∧ (t' = u ∨ t' = '+' :: u)) ↔
          ¬ ∃ u, Numeral u ∧ denotes u < 2 ^ 64 ∧ (t = u ∨ t = '+' :: u) :=
        ⟨fun ⟨t', h, hn⟩ => by cases h; exact hn, fun hn => ⟨t, rfl, hn⟩⟩
      rw [target]
      by_cases hp : ∃ r, t = '+' :: r
      · obtain ⟨r, rfl⟩ := hp
        rw [stripPlus, read r]
        constructor
        · intro h ⟨u, hu, hl, e⟩
          rcases e with e | e
          · exact plus u hu r e.symm
          · injection e with _ e
            subst e
            exact h ⟨hu, hl⟩
        · intro h ⟨hr, hl⟩
          exact h ⟨r, hr, hl, Or.inr rfl⟩
      · rw [strip t (fun r h => hp ⟨r, h⟩), read t]
        constructor
        · intro h ⟨u, hu, hl, e⟩
          rcases e with e | e
          · subst e; exact h ⟨hu, hl⟩
          · exact hp ⟨u, e⟩
        · intro h ⟨hr, hl⟩
          exact h ⟨t, hr, hl, Or.inl rfl⟩

/-- Finding: nothing checks the options: an empty package of annotations is accepted, and a fence for no objects. -/
theorem C92_finding_unchecked (dir pkg : Text) :
    (JavaConfig.new dir pkg).calls [.nullAnnotation ".NonNull".toList, .fence (.generate 0)] =
      some { JavaConfig.new dir pkg with nullPackage := some [], fence := .generate 0 } := by
  have h : ".NonNull".toList.isSuffixOf ".NonNull".toList = true := by decide
  have h1 : (JavaConfig.new dir pkg).call (.nullAnnotation ".NonNull".toList) =
      some { JavaConfig.new dir pkg with nullPackage := some (".NonNull".toList.take (".NonNull".toList.length - ".NonNull".toList.length)) } := if_pos (e := none) h
  rw [Nat.sub_self, List.take_zero] at h1
  unfold JavaConfig.calls
  rw [h1]
  rfl

/-! ## Examples -/

/-- The last of several calls counts; the deprecated way to set the annotations is as good as the other. -/
example : (JavaConfig.new ['o'] ['p']).calls [.nullAnnotationFromPackage ['a'], .optionalPackage ['q'], .fence .std, .nullAnnotation ('b' :: ".NonNull".toList)] =
    some ⟨['o'], ['p'], some ['b'], ['q'], .std⟩ := by decide +kernel

example : SetsNull (.nullAnnotation ('b' :: ".NonNull".toList)) ['b'] := .import _ _ rfl

/-- `use_boost`, then back to `std::variant`. -/
example : (((CppConfig.new [] []).calls [.variant .boost, .useBoost, .variant .std17, .separate true]).options.optional,
    ((CppConfig.new [] []).calls [.variant .boost, .useBoost, .variant .std17, .separate true]).options.variant) = (.boost, .std17) := rfl

example : Numeral "64".toList ∧ denotes "64".toList = 64 := by
  refine ⟨⟨by decide, by decide⟩, by decide⟩

example : widthFromEnv (some "sixtyfour".toList) = none := by decide

end Flapi.Config
