import Verif.Core.FileCache
import Verif.Core.RemoveFiles
import Verif.Base.Replace
/-!
# A run of the C++ or Java backend and the output directory (model)

What the backends compute is a parameter (`Backend`): each step is a function of the generator's state that yields the files it
writes, in order, and either an error or the next state.  What this file models is the driver around them
(macroslib/src/cpp/mod.rs:316-387, macroslib/src/java_jni/mod.rs:172-226): the order of the steps, which files end up on the disk when, and
what is removed.  A path is the name of a file in the output directory.  Which I/O calls fail, the order in which a hash map is walked
and a directory is listed are oracles.
Simplified: an error of the I/O is one constructor (its text is dropped); a step that fails after some of its files were
written has those files in its list.
-/
namespace Flapi.BackendRun
open FileCache

/-- What one step of a backend does. -/
structure Step (σ ε β : Type) where
  files : List (Path × List β)
  res : Except ε σ

/-- A backend: `init` (macroslib/src/cpp/mod.rs:572-614, macroslib/src/java_jni/mod.rs:336-461), `register_class`, the `generate` functions, and the
headers kept in memory until the end (macroslib/src/cpp/mod.rs:360-369; there are none for Java). -/
structure Backend (σ ε ι β : Type) where
  init : σ → Step σ ε β
  isClass : ι → Bool
  register : σ → ι → Except ε σ
  generate : σ → ι → Step σ ε β
  shared : σ → List (Path × List β)
  /-- may a file of this name be removed when it was not generated: macroslib/src/cpp/mod.rs:372-379, macroslib/src/java_jni/mod.rs:215-222 -/
  stale : List Path → Path → Bool

/-- Changes of the output directory. -/
inductive Change
  | write (o : FsOp)
  | remove (p : Path)
deriving DecidableEq

/-- The output directory, all states it went through, the changes made, the number of files looked at so far, and the set
`generated_foreign_files`: macroslib/src/cpp/mod.rs:328. -/
structure FS (β : Type) where
  disk : Disk β
  trace : List (Disk β)
  ops : List Change
  n : Nat
  gen : List Path

/-- What the environment decides. -/
structure World (β : Type) where
  /-- faults of the `n`-th file update -/
  ft : Nat → Faults
  /-- order in which the hash map of shared headers is walked -/
  ord : List (Path × List β) → List (Path × List β)
  /-- `read_dir`; it fails or yields names in some order -/
  ls : Disk β → Option (List Path)
  /-- may the file be removed -/
  rm : Path → Bool

/-- Errors of a run. -/
inductive Err (ε : Type)
  | gen (e : ε)
  | io

variable {σ ε ι β : Type} [DecidableEq β]

/-- `FileWriteCache::new` and `update_file_if_necessary` for each file in turn: macroslib/src/file_cache.rs:32-56; the first failure ends
the run (`?` after each call). -/
def flushAll (w : World β) : FS β → List (Path × List β) → FS β × Bool
  | fs, [] => (fs, true)
  | fs, (p, c) :: l =>
    let o := flush (w.ft fs.n) fs.disk ⟨c, p, []⟩
    let fs' : FS β := ⟨o.final fs.disk, fs.trace ++ o.trace, fs.ops ++ o.ops.map .write, fs.n + 1, fs.gen ++ [p]⟩
    if o.ok then flushAll w fs' l else (fs', false)

/-- One step: its files are written, then it ends with its result. -/
def runStep (w : World β) (fs : FS β) (s : Step σ ε β) : FS β × Except (Err ε) σ :=
  match flushAll w fs s.files with
  | (fs', false) => (fs', .error .io)
  | (fs', true) => (fs', match s.res with | .ok v => .ok v | .error e => .error (.gen e))

/-- The first loop over the items: macroslib/src/cpp/mod.rs:344-348, macroslib/src/java_jni/mod.rs:194-198. -/
def registerAll (b : Backend σ ε ι β) : σ → List ι → Except ε σ
  | s, [] => .ok s
  | s, i :: l =>
    if b.isClass i then
      match b.register s i with
      | .ok s' => registerAll b s' l
      | .error e => .error e
    else registerAll b s l

/-- The second loop: macroslib/src/cpp/mod.rs:349-357, macroslib/src/java_jni/mod.rs:199-211. -/
def generateAll (b : Backend σ ε ι β) (w : World β) : FS β → σ → List ι → FS β × Except (Err ε) σ
  | fs, s, [] => (fs, .ok s)
  | fs, s, i :: l =>
    match runStep w fs (b.generate s i) with
    | (fs', .ok s') => generateAll b w fs' s' l
    | (fs', .error e) => (fs', .error e)

/-- `remove_files_if`, after the directory was listed: macroslib/src/typemap/utils.rs:348-373. -/
def removeAll (w : World β) (filter : Path → Bool) : FS β → List Path → FS β × Bool
  | fs, [] => (fs, true)
  | fs, p :: l =>
    if filter p then
      if w.rm p then
        let d : Disk β := fun q => if q = p then none else fs.disk q
        removeAll w filter { fs with disk := d, trace := fs.trace ++ [d], ops := fs.ops ++ [.remove p] } l
      else (fs, false)
    else removeAll w filter fs l

/-- The last part: macroslib/src/cpp/mod.rs:360-387, macroslib/src/java_jni/mod.rs:213-226. -/
def finish (b : Backend σ ε ι β) (w : World β) (remove : Bool) (fs : FS β) (s : σ) : FS β × Except (Err ε) σ :=
  match flushAll w fs (w.ord (b.shared s)) with
  | (fs', false) => (fs', .error .io)
  | (fs', true) =>
    if remove then
      match w.ls fs'.disk with
      | none => (fs', .error .io)
      | some l =>
        match removeAll w (b.stale fs'.gen) fs' l with
        | (fs'', true) => (fs'', .ok s)
        | (fs'', false) => (fs'', .error .io)
    else (fs', .ok s)

/-- `expand_items`: macroslib/src/cpp/mod.rs:316-387, macroslib/src/java_jni/mod.rs:172-226; `d`: the output directory before. -/
def run (b : Backend σ ε ι β) (w : World β) (remove : Bool) (d : Disk β) (s0 : σ) (items : List ι) :
    FS β × Except (Err ε) σ :=
  match runStep w ⟨d, [d], [], 0, []⟩ (b.init s0) with
  | (fs, .error e) => (fs, .error e)
  | (fs, .ok s1) =>
    match registerAll b s1 items with
    | .error e => (fs, .error (.gen e))
    | .ok s2 =>
      match generateAll b w fs s2 items with
      | (fs', .error e) => (fs', .error e)
      | (fs', .ok s3) => finish b w remove fs' s3

/-! ## Names of the files -/

/-- Kind of an exported item. -/
inductive Kind
  | class
  | enum
  | interface
deriving DecidableEq

/-- Files of an item of the C++ backend in the order they are written: macroslib/src/cpp/fclass.rs:78-83, 714, 731-789, macroslib/src/cpp/fenum.rs:88-93, 142, 151-155,
207, macroslib/src/cpp/finterface.rs:378-382, 599-604, 609-615; `sep`: `separate_impl_headers`. -/
def cppFiles (sep : Bool) (k : Kind) (name : Text) : List Path :=
  match k with
  | .class => (if sep then [name ++ "_impl.hpp".toList] else []) ++
      [name ++ "_fwd.hpp".toList, "c_".toList ++ name ++ ".h".toList, name ++ ".hpp".toList]
  | .enum => [name ++ ".hpp".toList, "c_".toList ++ name ++ ".h".toList]
  | .interface => ["c_".toList ++ name ++ ".h".toList, name ++ ".hpp".toList]

/-- File of an item of the Java backend: macroslib/src/java_jni/fclass.rs:89, macroslib/src/java_jni/fenum.rs:103, macroslib/src/java_jni/finterface.rs:141. -/
def javaFiles (name : Text) : List Path := [name ++ ".java".toList]

/-- Files every Java run writes: macroslib/src/java_jni/mod.rs:355-358, 382-385; `fence`: the fence class is generated. -/
def javaInitFiles (fence : Bool) : List Path :=
  "InternalPointerMarker.java".toList :: (if fence then ["JNIReachabilityFence.java".toList] else [])

/-- Files of the C++ library: macroslib/src/cpp/mod.rs:583-607; the mark of the namespace is replaced. -/
def cppInitFiles (ns : Text) (code : List (Text × Text)) : List (Path × Text) :=
  code.map fun c => (c.1, strReplace c.2 "RUST_SWIG_USER_NAMESPACE".toList ns)

end Flapi.BackendRun
