import Verif.Base.Replace
/-!
# Conditional alternatives of a `foreign_typemap!` rule (model)

A foreign-side rule or a foreign code block may carry an option (`option = "CppVariant::Boost"`); the generator's
configuration decides which of them are in force.
-/
namespace Flapi.Config

/-- The part of `FTypeConvRule`/`ForeignCode` that matters here: an optional option name and everything else.
macroslib/src/typemap/typemap_macro.rs:475-483 (`FTypeConvRule`), 75-81 (`ForeignCode`). -/
structure Cond (α : Type) where
  cfg : Option Text
  body : α
deriving DecidableEq

/-- The `retain` predicate: macroslib/src/typemap/utils.rs:319-322; the same test for foreign code:
macroslib/src/cpp/mod.rs:508-512. -/
def Cond.inForce {α} (options : List Text) (c : Cond α) : Bool :=
  match c.cfg with
  | none => true
  | some o => options.contains o

/-- `configure_ftype_rule`: macroslib/src/typemap/utils.rs:312-346.  The result is the new value of the rule list and
`none` or the error (reduced to the offending first rule and the others listed as notes). -/
def configure {α} (options : List Text) (rules : List (Cond α)) : List (Cond α) × Option (Cond α × List (Cond α)) :=
  match rules.filter (Cond.inForce options) with
  | [] => ([], none)
  | [r] => ([{ r with cfg := none }], none)
  | r :: rest => (rest, some (r, rest))

/-- The part of `TypeMapConvRuleInfo` that carries options: macroslib/src/typemap/typemap_macro.rs:46-59.  `β` is a
foreign code block. -/
structure Rule (α β : Type) where
  ltr : List (Cond α)
  rtl : List (Cond α)
  fcode : List (Cond β)

/-- One list of `validate_cfg_options`: macroslib/src/typemap/utils.rs:188-205, 209-223; `some o` is the error about
option `o`. -/
def badOption {α} (avail : List Text) : List (Cond α) → Option Text
  | [] => none
  | c :: cs =>
    match c.cfg with
    | some o => if avail.contains o then badOption avail cs else some o
    | none => badOption avail cs

/-- `validate_cfg_options`: macroslib/src/typemap/utils.rs:184-226. -/
def validate {α β} (avail : List Text) (r : Rule α β) : Option Text :=
  match badOption avail r.ltr with
  | some o => some o
  | none =>
    match badOption avail r.rtl with
    | some o => some o
    | none => badOption avail r.fcode

/-- Both directions as configured by the backends: macroslib/src/cpp/mod.rs:528-529,
macroslib/src/java_jni/mod.rs:330-331. -/
inductive Configured (α : Type)
  | badOption (o : Text)
  | ambiguous
  | ok (ltr rtl : List (Cond α))
deriving DecidableEq

/-- The option handling of `merge_rule`: macroslib/src/cpp/mod.rs:490-497, 528-529;
macroslib/src/java_jni/mod.rs:310-331. -/
def configureRule {α β} (avail options : List Text) (r : Rule α β) : Configured α :=
  match validate avail r with
  | some o => .badOption o
  | none =>
    match configure options r.ltr with
    | (_, some _) => .ambiguous
    | (l, none) =>
      match configure options r.rtl with
      | (_, some _) => .ambiguous
      | (l', none) => .ok l l'

/-- The two values of each of `CppOptional`, `CppVariant`, `CppStrView`: macroslib/src/lib.rs:203-255. -/
inductive Std | std17 | boost
deriving DecidableEq

/-- The option-bearing part of `CppConfig`: macroslib/src/lib.rs:191-201. -/
structure CppCfg where
  optional : Std
  variant : Std
  strView : Std

/-- `From<CppOptional> for &'static str`: macroslib/src/lib.rs:212-219. -/
def optionalName : Std → Text
  | .std17 => "CppOptional::Std17".toList
  | .boost => "CppOptional::Boost".toList

/-- `From<CppVariant> for &'static str`: macroslib/src/lib.rs:230-237. -/
def variantName : Std → Text
  | .std17 => "CppVariant::Std17".toList
  | .boost => "CppVariant::Boost".toList

/-- `From<CppStrView> for &'static str`: macroslib/src/lib.rs:248-255. -/
def strViewName : Std → Text
  | .std17 => "CppStrView::Std17".toList
  | .boost => "CppStrView::Boost".toList

/-- `all_options`: macroslib/src/cpp/mod.rs:482-488. -/
def cppAvail : List Text :=
  [optionalName .std17, optionalName .boost, variantName .std17, variantName .boost, strViewName .std17, strViewName .boost]

/-- `options`: macroslib/src/cpp/mod.rs:491-497. -/
def cppOptions (c : CppCfg) : List Text := [variantName c.variant, optionalName c.optional, strViewName c.strView]

/-- The Java options: macroslib/src/java_jni/mod.rs:304-319 (`annot` says whether a null annotation package is set). -/
def javaAvail : List Text := ["NullAnnotations".toList, "NoNullAnnotations".toList]

/-- macroslib/src/java_jni/mod.rs:311-319. -/
def javaOptions (annot : Bool) : List Text := if annot then ["NullAnnotations".toList] else ["NoNullAnnotations".toList]

end Flapi.Config
