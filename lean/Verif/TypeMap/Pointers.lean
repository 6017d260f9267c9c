import Verif.TypeMap.Builtin
import Verif.TypeMap.RuleParse
/-!
# The smart pointer and lock conversions of the C++ and Java include files (model)

The ten generic `foreign_typemap!` rules are read (`TypeMap/RuleParse.lean`), filed as generic conversions and added to the built-in ones.
A rule body is what `TokenStream::to_string` prints: here tokens separated by blanks.
-/
namespace Flapi.Pointers
open Flapi.Ast Flapi.Template Flapi.Builtin

/-- `Arc` -/
def kwArc : Text := ['A', 'r', 'c']
/-- `Rc` -/
def kwRc : Text := ['R', 'c']
/-- `Mutex` -/
def kwMutex : Text := ['M', 'u', 't', 'e', 'x']
/-- `MutexGuard` -/
def kwMutexGuard : Text := ['M', 'u', 't', 'e', 'x', 'G', 'u', 'a', 'r', 'd']
/-- `RefCell` -/
def kwRefCell : Text := ['R', 'e', 'f', 'C', 'e', 'l', 'l']
/-- `Ref` -/
def kwRef : Text := ['R', 'e', 'f']
/-- `RefMut` -/
def kwRefMut : Text := ['R', 'e', 'f', 'M', 'u', 't']

/-- The type `n<t>`. -/
def wrap (n : Text) (t : Ty) : Ty := .path none false (.cons n (.angle (.ty t .nil)) .nil)
/-- The type `&t`. -/
def shared (t : Ty) : Ty := .ref none false t
/-- The type `&mut t`. -/
def excl (t : Ty) : Ty := .ref none true t

/-- A line `($p:r_type) <T> left => right { body }`. -/
def ruleLine (l r : Ty) (body : Text) : RuleParse.Line Ty (List (Text × Bounds)) Unit Unit Unit :=
  .rType ⟨some ['p'], some [(kwT, .nil)], l, some (true, r), some body⟩

/-- `$out = & $p;` -/
def bodyShare : Text := "$ out = & $ p ;".toList
/-- `$out = &mut $p;` -/
def bodyExcl : Text := "$ out = & mut $ p ;".toList
/-- `$out = $p.lock().unwrap();` -/
def bodyLock : Text := "$ out = $ p . lock () . unwrap () ;".toList
/-- `$out = $p.borrow();` -/
def bodyBorrow : Text := "$ out = $ p . borrow () ;".toList
/-- `$out = $p.borrow_mut();` -/
def bodyBorrowMut : Text := "$ out = $ p . borrow_mut () ;".toList

/-- The rules: macroslib/src/cpp/cpp-include.rs:142-200 and macroslib/src/java_jni/jni-include.rs:1019-1077 (the same in both files). -/
def ruleLines : List (RuleParse.Line Ty (List (Text × Bounds)) Unit Unit Unit) :=
  [ ruleLine (wrap kwArc (wrap kwMutex tyT)) (shared (wrap kwMutex tyT)) bodyShare
  , ruleLine (shared (wrap kwMutex tyT)) (wrap kwMutexGuard tyT) bodyLock
  , ruleLine (wrap kwMutexGuard tyT) (shared tyT) bodyShare
  , ruleLine (wrap kwMutexGuard tyT) (excl tyT) bodyExcl
  , ruleLine (wrap kwRc tyT) (shared tyT) bodyShare
  , ruleLine (shared (wrap kwRc tyT)) (shared tyT) bodyShare
  , ruleLine (shared (wrap kwRefCell tyT)) (wrap kwRef tyT) bodyBorrow
  , ruleLine (shared (wrap kwRefCell tyT)) (wrap kwRefMut tyT) bodyBorrowMut
  , ruleLine (wrap kwRef tyT) (shared tyT) bodyShare
  , ruleLine (wrap kwRefMut tyT) (excl tyT) bodyExcl ]

/-- Reading a rule that has one line. -/
def readRule (l : RuleParse.Line Ty (List (Text × Bounds)) Unit Unit Unit) :
    Option (RuleParse.Rule Ty (List (Text × Bounds)) Unit Unit Unit) :=
  match RuleParse.parse [' '] [l] with
  | .ok r => some r
  | _ => none

/-- The generic conversion as the search uses it: macroslib/src/typemap/typemap_macro.rs:454-464 (no hints, an empty dependency). -/
def ofEdge (e : RuleParse.Edge Ty (List (Text × Bounds))) : Entry := ⟨⟨e.fromTy, e.toTy, e.generics, [], none, none⟩, e.code⟩

/-- The generic conversions the include file adds: macroslib/src/typemap/merge.rs:64-77. -/
def pointerRules : List Entry := (RuleParse.fileAll {} (ruleLines.filterMap readRule)).edges.map ofEdge

/-- The generic conversions of the map: the built-in ones, then those of the file (macroslib/src/typemap/merge.rs:56-58). -/
def allEntries : List Entry := defaultRules ++ pointerRules

/-- All of them as the search uses them; entry number `i` owns the dependency cell `cell + i`. -/
def rules (u : Macro.Unicode) (nm : Ty → Text) (cell : Nat) : List (TMap.Rule (Ty × List Text) Convert.EdgeW) :=
  allEntries.mapIdx fun i e => ruleOf u nm (cell + i) e

end Flapi.Pointers
