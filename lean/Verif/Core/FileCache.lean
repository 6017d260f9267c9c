import Verif.Base.Text
/-!
# `FileWriteCache` (model)

The disk is a partial map from paths to contents.  The I/O calls may fail or be interrupted: this is described by a
`Faults` oracle, and the flush yields the *list of disk states it passes through* (for crash points) together with its
result.  `β` is the byte type.
-/
namespace Flapi.FileCache

abbrev Path := Text

abbrev Disk (β : Type) := Path → Option (List β)

/-- Overwrite one file. -/
def Disk.set {β} (d : Disk β) (p : Path) (c : List β) : Disk β := fun q => if q = p then some c else d q

/-- `FileWriteCache`: macroslib/src/file_cache.rs:12-20. -/
structure Cache (β : Type) where
  cnt : List β
  path : Path
  items : List Text

/-- `FileWriteCache::new`: macroslib/src/file_cache.rs:32-43.  The registrator is the list of registered paths. -/
def new {β} (p : Path) (reg : List Path) : Cache β × List Path := (⟨[], p, []⟩, reg ++ [p])

/-- Operations on the in-memory part: `Write::write` (macroslib/src/file_cache.rs:80-83), `take_content` (:60-62),
`replace_content` (:65-67), `define_item` (:70-72). -/
inductive Op (β : Type)
  | write (data : List β)
  | take
  | replace (bytes : List β)
  | define (item : Text)

/-- Effect of one in-memory operation: macroslib/src/file_cache.rs:59-83. -/
def step {β} (c : Cache β) : Op β → Cache β
  | .write data => { c with cnt := c.cnt ++ data }
  | .take => { c with cnt := [] }
  | .replace bytes => { c with cnt := bytes }
  | .define item => { c with items := item :: c.items }

/-- `is_item_defined`: macroslib/src/file_cache.rs:74-76. -/
def Cache.isDefined {β} (c : Cache β) (item : Text) : Bool := c.items.contains item

/-- Which I/O calls fail.  `writeStop = some k` means that `write_all` returns an error after `k` bytes. -/
structure Faults where
  openFails : Bool := false
  readFails : Bool := false
  createFails : Bool := false
  writeStop : Option Nat := none

/-- The two effects on the disk, for the "no needless write" property. -/
inductive FsOp
  | create (p : Path)
  | append (p : Path)
deriving DecidableEq

/-- Outcome of a flush: success flag, disk states passed through (first = initial, last = final), and the modifying
calls issued. -/
structure Outcome (β : Type) where
  ok : Bool
  trace : List (Disk β)
  ops : List FsOp

/-- Disk states passed through while `write_all` appends `cnt` byte by byte to the freshly truncated file `p`:
contents `take 0 cnt, take 1 cnt, …, take n cnt`. -/
def writeTrace {β} (d : Disk β) (p : Path) (cnt : List β) (n : Nat) : List (Disk β) :=
  (List.range (n + 1)).map (fun k => d.set p (cnt.take k))

/-- `update_file_if_necessary`: macroslib/src/file_cache.rs:45-56.
`File::open` fails if the file does not exist or by a fault; a failed `open` falls through to `File::create`; a failed
read is returned as an error; `File::create` truncates (or creates) the file; `write_all` appends. -/
def flush {β} [DecidableEq β] (ft : Faults) (d : Disk β) (c : Cache β) : Outcome β :=
  let writePart : Outcome β :=
    if ft.createFails then ⟨false, [d], []⟩
    else match ft.writeStop with
      | none => ⟨true, d :: writeTrace d c.path c.cnt c.cnt.length, [.create c.path, .append c.path]⟩
      | some k => ⟨false, d :: writeTrace d c.path c.cnt (min k c.cnt.length), [.create c.path, .append c.path]⟩
  match (if ft.openFails then none else d c.path) with
  | some cur =>
    if ft.readFails then ⟨false, [d], []⟩
    else if cur = c.cnt then ⟨true, [d], []⟩
    else writePart
  | none => writePart

/-- The disk after the flush. -/
def Outcome.final {β} (o : Outcome β) (d : Disk β) : Disk β := (o.trace.getLast?).getD d

end Flapi.FileCache
