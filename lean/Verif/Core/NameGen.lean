import Verif.Base.Text
/-!
# `new_unique_name` (model)
-/
namespace Flapi.NameGen

/-- `u64::MAX`. -/
def u64Max : Nat := 2 ^ 64 - 1

/-- The `loop` of `new_unique_name`: macroslib/src/namegen.rs:11-21.
`cur` is `new_name`, `idx` is `idx`.  `names.contains` is list membership (the `FxHashSet` is a list without regard to
order).  `none` is the `panic!` of line 19.  The `fuel` argument only makes the recursion structural: the caller passes
`u64Max`, and `idx` reaches `u64Max` (panic) before the fuel is used up. -/
def loop (names : List Text) (templ : Text) : (fuel : Nat) → (idx : Nat) → (cur : Text) → Option Text
  | fuel, idx, cur =>
    if cur ∉ names then some cur
    else match fuel with
      | 0 => none
      | fuel + 1 =>
        let cur' := templ ++ dec idx
        let idx' := idx + 1
        if idx' = u64Max then none else loop names templ fuel idx' cur'

/-- `new_unique_name`: macroslib/src/namegen.rs:5-22. -/
def newUniqueName (names : List Text) (templ : Text) : Option Text :=
  loop names templ u64Max 0 templ

/-- The way backends use it: ask for a name, then insert the name into the used set, e.g.
macroslib/src/typemap.rs:163-187 and macroslib/src/java_jni/fclass.rs (`new_unique_name` followed by
`known_names.insert`).  Returns the list of allotted names, `none` if one request panics. -/
def allocNames (names : List Text) : List Text → Option (List Text)
  | [] => some []
  | t :: ts => do
    let n ← newUniqueName names t
    let rest ← allocNames (n :: names) ts
    pure (n :: rest)

end Flapi.NameGen
