import Verif.TypeMap.ConfigRule
/-!
# Configuration: `JavaConfig`, `CppConfig`, the pointer width (model)

The functions of the public API by which `build.rs` sets options.  What options do is the subject of other claims (C21, C33, C34, C40, C52, C70).
-/
namespace Flapi.Config
open Flapi

/-- `usize::from_str` (std, 64 bit): digits, with a `+` in front if any. -/
def parseUsize (t : Text) : Option Nat :=
  let d := match t with | '+' :: r => r | _ => t
  if d.isEmpty || !d.all Char.isDigit then none
  else
    let n := d.foldl (fun n c => 10 * n + (c.toNat - 48)) 0
    if n < 2 ^ 64 then some n else none

/-- `target_pointer_width_from_env`, given the variable `CARGO_CFG_TARGET_POINTER_WIDTH` (`none`: not set, or not Unicode); the outer `none` is a panic:
macroslib/src/lib.rs:88-97. -/
def widthFromEnv : Option Text → Option (Option Nat)
  | none => some none
  | some t => (parseUsize t).map some

/-- `JavaReachabilityFence`: macroslib/src/lib.rs:177-189. -/
inductive Fence where
  | std
  | generate (n : Nat)
  deriving DecidableEq, Repr

/-- `JavaConfig`: macroslib/src/lib.rs:106-114. -/
structure JavaConfig where
  outputDir : Text
  package : Text
  nullPackage : Option Text
  optionalPackage : Text
  fence : Fence
  deriving DecidableEq, Repr

/-- `JavaConfig::new`: macroslib/src/lib.rs:121-129. -/
def JavaConfig.new (outputDir package : Text) : JavaConfig := ⟨outputDir, package, none, "java.util".toList, .generate 8⟩

/-- A call of a method of `JavaConfig`. -/
inductive JavaCall where
  | nullAnnotation (importAnnotation : Text)
  | nullAnnotationFromPackage (package : Text)
  | optionalPackage (package : Text)
  | fence (f : Fence)
  deriving DecidableEq, Repr

/-- The methods: macroslib/src/lib.rs:135-174; `none` is a panic. -/
def JavaConfig.call (c : JavaConfig) : JavaCall → Option JavaConfig
  | .nullAnnotation i =>
    if ".NonNull".toList.isSuffixOf i then some { c with nullPackage := some (i.take (i.length - ".NonNull".toList.length)) } else none
  | .nullAnnotationFromPackage p => some { c with nullPackage := some p }
  | .optionalPackage p => some { c with optionalPackage := p }
  | .fence f => some { c with fence := f }

def JavaConfig.calls (c : JavaConfig) : List JavaCall → Option JavaConfig
  | [] => some c
  | x :: l => (c.call x).bind fun c => c.calls l

/-- `CppConfig`: macroslib/src/lib.rs:191-201. -/
structure CppConfig where
  outputDir : Text
  space : Text
  options : CppCfg
  separate : Bool

/-- `CppConfig::new`: macroslib/src/lib.rs:262-271. -/
def CppConfig.new (outputDir space : Text) : CppConfig := ⟨outputDir, space, ⟨.std17, .std17, .std17⟩, false⟩

/-- A call of a method of `CppConfig`. -/
inductive CppCall where
  | optional (s : Std)
  | variant (s : Std)
  | strView (s : Std)
  | useBoost
  | separate (b : Bool)
  deriving DecidableEq

/-- The methods: macroslib/src/lib.rs:272-307. -/
def CppConfig.call (c : CppConfig) : CppCall → CppConfig
  | .optional s => { c with options := { c.options with optional := s } }
  | .variant s => { c with options := { c.options with variant := s } }
  | .strView s => { c with options := { c.options with strView := s } }
  | .useBoost => { c with options := ⟨.boost, .boost, .boost⟩ }
  | .separate b => { c with separate := b }

def CppConfig.calls (c : CppConfig) (l : List CppCall) : CppConfig := l.foldl CppConfig.call c

end Flapi.Config
