import Verif.Cpp.AbiValues
/-!
# Options, results, pairs and triples survive the C ABI (C43)
-/
namespace Flapi.Abi

/-! ## Specification -/

/-- The Rust value `r` of type `t` and the C++ value `x` are the same thing. -/
inductive Same : Ty → RVal → XVal → Prop
  | num (k n) : Same (.num k) (.num n) (.num n)
  | bool (b) : Same .bool (.bool b) (.bool b)
  | enum (e n i) : i < n → Same (.enum e n) (.enum i) (.enum i)
  | obj (c o) : Same (.cls c) (.obj o) (.obj o)
  | str (s) : Same .str (.str s) (.view (some s.toUTF8))
  | pair {a b r1 r2 x1 x2} : Same a r1 x1 → Same b r2 x2 → Same (.pair a b) (.pair r1 r2) (.pair x1 x2)
  | triple {a b c r1 r2 r3 x1 x2 x3} : Same a r1 x1 → Same b r2 x2 → Same c r3 x3 →
      Same (.triple a b c) (.triple r1 r2 r3) (.tuple x1 x2 x3)
  | none (a) : Same (.opt a) .none .nullopt
  | some {a r x} : Same a r x → Same (.opt a) (.some r) (.just x)
  | okUnit (e) : Same (.voidRes e) .okUnit .nullopt
  | errUnit {e r x} : Same e r x → Same (.voidRes e) (.err r) (.just x)
  | ok {a e r x} : Same a r x → Same (.res a e) (.ok r) (.variant a.cpp x)
  | err {a e r x} : Same e r x → Same (.res a e) (.err r) (.variant e.cpp x)

/-- `r` is a value of Rust type `t`. -/
inductive RTyped : RVal → Ty → Prop
  | num (k n) : RTyped (.num n) (.num k)
  | bool (b) : RTyped (.bool b) .bool
  | enum (e n i) : i < n → RTyped (.enum i) (.enum e n)
  | obj (c o) : RTyped (.obj o) (.cls c)
  | str (s) : RTyped (.str s) .str
  | pair {a b r1 r2} : RTyped r1 a → RTyped r2 b → RTyped (.pair r1 r2) (.pair a b)
  | triple {a b c r1 r2 r3} : RTyped r1 a → RTyped r2 b → RTyped r3 c → RTyped (.triple r1 r2 r3) (.triple a b c)
  | none (a) : RTyped .none (.opt a)
  | some {a r} : RTyped r a → RTyped (.some r) (.opt a)
  | okUnit (e) : RTyped .okUnit (.voidRes e)
  | errUnit {e r} : RTyped r e → RTyped (.err r) (.voidRes e)
  | ok {a e r} : RTyped r a → RTyped (.ok r) (.res a e)
  | err {a e r} : RTyped r e → RTyped (.err r) (.res a e)

/-- `x` is a value of the C++ type of `t` that stands for something in Rust: enumerators are declared ones, string views point to UTF-8 text. -/
inductive XTyped : XVal → Ty → Prop
  | num (k n) : XTyped (.num n) (.num k)
  | bool (b) : XTyped (.bool b) .bool
  | enum (e n i) : i < n → XTyped (.enum i) (.enum e n)
  | obj (c o) : XTyped (.obj o) (.cls c)
  | view (s : String) : XTyped (.view (some s.toUTF8)) .str
  | pair {a b x1 x2} : XTyped x1 a → XTyped x2 b → XTyped (.pair x1 x2) (.pair a b)
  | tuple {a b c x1 x2 x3} : XTyped x1 a → XTyped x2 b → XTyped x3 c → XTyped (.tuple x1 x2 x3) (.triple a b c)
  | nullopt (a) : XTyped .nullopt (.opt a)
  | just {a x} : XTyped x a → XTyped (.just x) (.opt a)
  | noError (e) : XTyped .nullopt (.voidRes e)
  | anError {e x} : XTyped x e → XTyped (.just x) (.voidRes e)
  | first {a e x} : XTyped x a → XTyped (.variant a.cpp x) (.res a e)
  | second {a e x} : XTyped x e → XTyped (.variant e.cpp x) (.res a e)

/-- Every `Result` inside has two different C++ types for value and error. -/
def VariantsDiffer : Ty → Prop
  | .pair a b => VariantsDiffer a ∧ VariantsDiffer b
  | .triple a b c => VariantsDiffer a ∧ VariantsDiffer b ∧ VariantsDiffer c
  | .opt a => VariantsDiffer a
  | .voidRes a => VariantsDiffer a
  | .res a e => VariantsDiffer a ∧ VariantsDiffer e ∧ a.cpp ≠ e.cpp
  | _ => True

/-- No triple inside. -/
def NoTriple : Ty → Prop
  | .pair a b => NoTriple a ∧ NoTriple b
  | .triple _ _ _ => False
  | .opt a => NoTriple a
  | .voidRes a => NoTriple a
  | .res a e => NoTriple a ∧ NoTriple e
  | _ => True

/-! ## Lemmas -/

theorem fromUTF8_toUTF8 (s : String) : String.fromUTF8? s.toUTF8 = some s := by
  unfold String.fromUTF8?
  have h : s.toUTF8.IsValidUTF8 := s.isValidUTF8
  rw [dif_pos h]
  rfl

theorem same_left {t : Ty} {r r' : RVal} {x : XVal} (hv : VariantsDiffer t) (h : Same t r x) (h' : Same t r' x) : r = r' := by
  induction h generalizing r' with
  | num k n => cases h'; rfl
  | bool b => cases h'; rfl
  | enum e n i hi => cases h'; rfl
  | obj c o => cases h'; rfl
  | str s =>
    generalize hx : XVal.view (Option.some s.toUTF8) = x at h'
    cases h' with
    | str s' =>
      simp only [XVal.view.injEq, Option.some.injEq] at hx
      have := congrArg String.fromUTF8? hx
      rw [fromUTF8_toUTF8, fromUTF8_toUTF8, Option.some.injEq] at this
      rw [this]
  | pair h1 h2 ih1 ih2 => cases h' with | pair g1 g2 => rw [ih1 hv.1 g1, ih2 hv.2 g2]
  | triple h1 h2 h3 ih1 ih2 ih3 => cases h' with | triple g1 g2 g3 => rw [ih1 hv.1 g1, ih2 hv.2.1 g2, ih3 hv.2.2 g3]
  | none a => cases h'; rfl
  | some h1 ih => cases h' with | some g => rw [ih hv g]
  | okUnit e => cases h'; rfl
  | errUnit h1 ih => cases h' with | errUnit g => rw [ih hv g]
  | @ok a e r x h1 ih =>
    generalize hx : XVal.variant a.cpp x = x at h'
    cases h' with
    | ok g => simp only [XVal.variant.injEq, true_and] at hx; subst hx; rw [ih hv.1 g]
    | err g => simp only [XVal.variant.injEq] at hx; exact absurd hx.1 hv.2.2
  | @err a e r x h1 ih =>
    generalize hx : XVal.variant e.cpp x = x at h'
    cases h' with
    | ok g => simp only [XVal.variant.injEq] at hx; exact absurd hx.1.symm hv.2.2
    | err g => simp only [XVal.variant.injEq, true_and] at hx; subst hx; rw [ih hv.2.1 g]

theorem same_right {t : Ty} {r : RVal} {x x' : XVal} (h : Same t r x) (h' : Same t r x') : x = x' := by
  induction h generalizing x' with
  | num k n => cases h'; rfl
  | bool b => cases h'; rfl
  | enum e n i hi => cases h'; rfl
  | obj c o => cases h'; rfl
  | str s => cases h'; rfl
  | pair h1 h2 ih1 ih2 => cases h' with | pair g1 g2 => rw [ih1 g1, ih2 g2]
  | triple h1 h2 h3 ih1 ih2 ih3 => cases h' with | triple g1 g2 g3 => rw [ih1 g1, ih2 g2, ih3 g3]
  | none a => cases h'; rfl
  | some h1 ih => cases h' with | some g => rw [ih g]
  | okUnit e => cases h'; rfl
  | errUnit h1 ih => cases h' with | errUnit g => rw [ih g]
  | ok h1 ih => cases h' with | ok g => rw [ih g]
  | err h1 ih => cases h' with | err g => rw [ih g]

/-! ## Property theorems -/

/-- C43: every Rust value arrives in C++ as the same value. -/
theorem C43_rust_to_cpp (t : Ty) (hv : VariantsDiffer t) (r : RVal) (hr : RTyped r t) :
    ∃ c x, rustToC t r = some c ∧ cToCpp t c = some x ∧ Same t r x := by
  induction hr with
  | num k n => exact ⟨_, _, rfl, rfl, .num k n⟩
  | bool b => cases b <;> exact ⟨_, _, rfl, rfl, .bool _⟩
  | enum e n i hi => exact ⟨.num i, .enum i, by simp [rustToC, hi], by simp [cToCpp], .enum e n i hi⟩
  | obj c o => exact ⟨_, _, rfl, rfl, .obj c o⟩
  | str s => exact ⟨_, _, rfl, rfl, .str s⟩
  | pair _ _ ih1 ih2 =>
    obtain ⟨c1, x1, h1, h2, h3⟩ := ih1 hv.1
    obtain ⟨c2, x2, g1, g2, g3⟩ := ih2 hv.2
    exact ⟨.struct2 c1 c2, .pair x1 x2, by simp [rustToC, h1, g1], by simp [cToCpp, h2, g2], .pair h3 g3⟩
  | triple _ _ _ ih1 ih2 ih3 =>
    obtain ⟨c1, x1, h1, h2, h3⟩ := ih1 hv.1
    obtain ⟨c2, x2, g1, g2, g3⟩ := ih2 hv.2.1
    obtain ⟨c3, x3, k1, k2, k3⟩ := ih3 hv.2.2
    exact ⟨.struct3 c1 c2 c3, .tuple x1 x2 x3, by simp [rustToC, h1, g1, k1], by simp [cToCpp, h2, g2, k2], .triple h3 g3 k3⟩
  | none a => exact ⟨_, _, rfl, rfl, .none a⟩
  | some _ ih =>
    obtain ⟨c1, x1, h1, h2, h3⟩ := ih hv
    exact ⟨.struct2 (.union 0 c1) (.num 1), .just x1, by simp [rustToC, h1], by simp [cToCpp, CVal.member, h2], .some h3⟩
  | okUnit e => exact ⟨_, _, rfl, rfl, .okUnit e⟩
  | errUnit _ ih =>
    obtain ⟨c1, x1, h1, h2, h3⟩ := ih hv
    exact ⟨.struct2 (.union 1 c1) (.num 0), .just x1, by simp [rustToC, h1], by simp [cToCpp, CVal.member, h2], .errUnit h3⟩
  | @ok a e r _ ih =>
    obtain ⟨c1, x1, h1, h2, h3⟩ := ih hv.1
    exact ⟨.struct2 (.union 0 c1) (.num 1), .variant a.cpp x1, by simp [rustToC, h1], by simp [cToCpp, CVal.member, h2, mkVariant, hv.2.2], .ok h3⟩
  | @err a e r _ ih =>
    obtain ⟨c1, x1, h1, h2, h3⟩ := ih hv.2.1
    exact ⟨.struct2 (.union 1 c1) (.num 0), .variant e.cpp x1, by simp [rustToC, h1], by simp [cToCpp, CVal.member, h2, mkVariant, hv.2.2], .err h3⟩

/-- C43: every C++ value (without triples) arrives in Rust as the same value. -/
theorem C43_cpp_to_rust (t : Ty) (hv : VariantsDiffer t) (hn : NoTriple t) (x : XVal) (hx : XTyped x t) :
    ∃ c r, cppToC t x = some c ∧ cToRust t c = some r ∧ Same t r x := by
  induction hx with
  | num k n => exact ⟨_, _, rfl, rfl, .num k n⟩
  | bool b => cases b <;> exact ⟨_, _, rfl, rfl, .bool _⟩
  | enum e n i hi => exact ⟨.num i, .enum i, rfl, by simp [cToRust, hi], .enum e n i hi⟩
  | obj c o => exact ⟨_, _, rfl, rfl, .obj c o⟩
  | view s => exact ⟨_, .str s, rfl, by simp only [cToRust, Option.bind_some, fromUTF8_toUTF8], .str s⟩
  | pair _ _ ih1 ih2 =>
    obtain ⟨c1, x1, h1, h2, h3⟩ := ih1 hv.1 hn.1
    obtain ⟨c2, x2, g1, g2, g3⟩ := ih2 hv.2 hn.2
    exact ⟨.struct2 c1 c2, .pair x1 x2, by simp [cppToC, h1, g1], by simp [cToRust, h2, g2], .pair h3 g3⟩
  | tuple _ _ _ => exact hn.elim
  | nullopt a => exact ⟨_, _, rfl, rfl, .none a⟩
  | just _ ih =>
    obtain ⟨c1, x1, h1, h2, h3⟩ := ih hv hn
    exact ⟨.struct2 (.union 0 c1) (.num 1), .some x1, by simp [cppToC, h1], by simp [cToRust, CVal.member, h2], .some h3⟩
  | noError e => exact ⟨_, _, rfl, rfl, .okUnit e⟩
  | anError _ ih =>
    obtain ⟨c1, x1, h1, h2, h3⟩ := ih hv hn
    exact ⟨.struct2 (.union 1 c1) (.num 0), .err x1, by simp [cppToC, h1], by simp [cToRust, CVal.member, h2], .errUnit h3⟩
  | @first a e x _ ih =>
    obtain ⟨c1, x1, h1, h2, h3⟩ := ih hv.1 hn.1
    exact ⟨.struct2 (.union 0 c1) (.num 1), .ok x1, by simp [cppToC, h1, hv.2.2], by simp [cToRust, CVal.member, h2], .ok h3⟩
  | @second a e x _ ih =>
    obtain ⟨c1, x1, h1, h2, h3⟩ := ih hv.2.1 hn.2
    exact ⟨.struct2 (.union 1 c1) (.num 0), .err x1, by simp [cppToC, h1, hv.2.2, Ne.symm hv.2.2], by simp [cToRust, CVal.member, h2], .err h3⟩

/-- C43: a value that goes to C++ and comes back is the value that was sent. -/
theorem C43_round_trip (t : Ty) (hv : VariantsDiffer t) (hn : NoTriple t) (r : RVal) (hr : RTyped r t) :
    (((rustToC t r).bind (cToCpp t)).bind (cppToC t)).bind (cToRust t) = some r := by
  obtain ⟨c, x, h1, h2, h3⟩ := C43_rust_to_cpp t hv r hr
  have hx : XTyped x t := by
    clear h1 h2 hv hn hr
    induction h3 with
    | num k n => exact .num k n
    | bool b => exact .bool b
    | enum e n i hi => exact .enum e n i hi
    | obj c o => exact .obj c o
    | str s => exact .view s
    | pair _ _ ih1 ih2 => exact .pair ih1 ih2
    | triple _ _ _ ih1 ih2 ih3 => exact .tuple ih1 ih2 ih3
    | none a => exact .nullopt a
    | some _ ih => exact .just ih
    | okUnit e => exact .noError e
    | errUnit _ ih => exact .anError ih
    | ok _ ih => exact .first ih
    | err _ ih => exact .second ih
  obtain ⟨c', r', g1, g2, g3⟩ := C43_cpp_to_rust t hv hn x hx
  rw [h1, Option.bind_some, h2, Option.bind_some, g1, Option.bind_some, g2, same_left hv g3 h3]

/-- C43: `Some(None)`, `None` and `Some(Some(v))` stay apart: no two different Rust values look the same in C++, and none in two ways. -/
theorem C43_nothing_confused (t : Ty) (hv : VariantsDiffer t) (r r' : RVal) (x x' : XVal) (h : Same t r x) (h' : Same t r' x') : r = r' ↔ x = x' := by
  constructor
  · intro e; subst e; exact same_right h h'
  · intro e; subst e; exact same_left hv h h'

/-- C43: the pointer of an optional class argument is null exactly if Rust gets `None` — or the wrapper it points to is empty (moved from). -/
theorem C43_optional_reference (p : Option (Option Nat)) :
    (∀ o, optRefIn p = some o ↔ p = some (some o)) ∧ (optRefIn p = none ↔ p = none ∨ p = some none) := by
  cases p with
  | none => simp [optRefIn]
  | some q => simp [optRefIn]

/-- C43, finding: no `std::tuple` can be given to Rust: the generated C++ code uses members `first`, `second`, `third` that `std::tuple` does not have. -/
theorem C43_finding_tuple_argument (a b c : Ty) (x : XVal) : cppToC (.triple a b c) x = none := by
  cases x <;> rfl

/-- C43, finding: the code for a `Result` whose value and error have the same C++ type is ill-formed in both directions. -/
theorem C43_finding_same_alternatives (a e : Ty) (h : a.cpp = e.cpp) (x : XVal) (c : CVal) (is : Int) :
    cppToC (.res a e) x = none ∧ cToCpp (.res a e) (.struct2 c (.num is)) = none := by
  constructor
  · cases x <;> simp [cppToC, h]
  · simp only [cToCpp]
    split
    · cases c.member 0 with
      | none => rfl
      | some d => cases h2 : cToCpp a d <;> simp [h2, mkVariant, h]
    · cases c.member 1 with
      | none => rfl
      | some d => cases h2 : cToCpp e d <;> simp [h2, mkVariant, h]

/-- … which is so for Rust types that are different, such as `Result<u64, usize>` on 64 bit Linux and `Result<Option<T>, Result<(), T>>`. -/
theorem C43_finding_same_alternatives_reachable (t : Ty) :
    (Ty.num .u64).cpp = (Ty.num .usize).cpp ∧ (Ty.opt t).cpp = (Ty.voidRes t).cpp := ⟨rfl, rfl⟩

/-- C43, finding: a default constructed `string_view` given as `&str` makes a slice from a null pointer, and text that is not UTF-8 makes an invalid
`str`: undefined behaviour in Rust. -/
theorem C43_finding_string_view (b : ByteArray) (hb : ∀ s : String, s.toUTF8 ≠ b) :
    (cppToC .str (.view none)).bind (cToRust .str) = none ∧ (cppToC .str (.view (some b))).bind (cToRust .str) = none := by
  refine ⟨rfl, ?_⟩
  have : String.fromUTF8? b = none := by
    unfold String.fromUTF8?
    split
    · rename_i h; exact absurd rfl (hb (String.fromUTF8 b h))
    · rfl
  simp [cppToC, cToRust, this]

/-- Non-vacuity: `Result<(Option<Option<&str>>, bool), i32>`. -/
def demoTy : Ty := .res (.pair (.opt (.opt .str)) .bool) (.num .i32)
def demoVal : RVal := .ok (.pair (.some .none) (.bool true))

example : RTyped demoVal demoTy := .ok (.pair (.some (.none _)) (.bool _))
example : VariantsDiffer demoTy ∧ NoTriple demoTy := by simp [demoTy, VariantsDiffer, NoTriple, Ty.cpp, Num.cpp]
example : (rustToC demoTy demoVal).bind (cToCpp demoTy) =
    some (.variant (.pair (.optional (.optional .stringView)) .bool) (.pair (.just .nullopt) (.bool true))) := by decide
example : ∃ b : ByteArray, ∀ s : String, s.toUTF8 ≠ b := by
  refine ⟨⟨#[0xff]⟩, fun s h => ?_⟩
  have h1 := fromUTF8_toUTF8 s
  rw [h] at h1
  have h2 : String.fromUTF8? ⟨#[0xff]⟩ = none := by
    unfold String.fromUTF8?
    rw [dif_neg (by decide)]
  rw [h2] at h1
  cases h1

end Flapi.Abi
