import Verif.Core.FileCache
/-!
# Several generators writing to one output directory at the same time (model)

Build systems may run the generator twice at the same time (for two targets, or from an editor).  Every process flushes its
files with `update_file_if_necessary`; here each of its system calls is one step, and the scheduler interleaves the steps of
any number of processes.  Files are opened, read, truncated and written in place; a write beyond the end of the file fills the
gap with `z` (the zero byte).  Removing stale files is not part of this model.  A process that dies just takes no more steps.
-/
namespace Flapi.SharedOut
open Flapi.FileCache

/-- A file to be flushed: macroslib/src/file_cache.rs:12-20. -/
structure Job (β : Type) where
  path : Path
  cnt : List β
deriving DecidableEq

/-- Where a process is in `update_file_if_necessary`: macroslib/src/file_cache.rs:45-56. -/
inductive Phase (β : Type) where
  | idle
  /-- the file is open, `buf` was read so far -/
  | reading (j : Job β) (buf : List β)
  /-- before `File::create` -/
  | creating (j : Job β)
  /-- `off` bytes were written -/
  | writing (j : Job β) (off : Nat)

/-- A process: the files to flush, where it is, and the flushes that returned `Ok`. -/
structure Proc (β : Type) where
  todo : List (Job β)
  phase : Phase β
  done : List (Job β)

/-- `write(2)` at an offset: macroslib/src/file_cache.rs:54. -/
def pwrite {β : Type} (z : β) (c : List β) (off : Nat) (bs : List β) : List β :=
  (c ++ List.replicate (off - c.length) z).take off ++ bs ++ c.drop (off + bs.length)

/-- One system call of a process: macroslib/src/file_cache.rs:45-56.  `read` and `write` may handle any number of bytes. -/
inductive PStep {β : Type} (z : β) (d : Disk β) : Proc β → Disk β → Proc β → Prop
  | open (j : Job β) (l dn : List (Job β)) (c : List β) (h : d j.path = some c) : PStep z d ⟨j :: l, .idle, dn⟩ d ⟨l, .reading j [], dn⟩
  | missing (j : Job β) (l dn : List (Job β)) (h : d j.path = none) : PStep z d ⟨j :: l, .idle, dn⟩ d ⟨l, .creating j, dn⟩
  | read (j : Job β) (l dn : List (Job β)) (buf c : List β) (n : Nat) (h : d j.path = some c) (hn : 0 < n) (hl : buf.length + n ≤ c.length) :
      PStep z d ⟨l, .reading j buf, dn⟩ d ⟨l, .reading j (buf ++ (c.drop buf.length).take n), dn⟩
  | same (j : Job β) (l dn : List (Job β)) (buf c : List β) (h : d j.path = some c) (hl : c.length ≤ buf.length) (he : buf = j.cnt) :
      PStep z d ⟨l, .reading j buf, dn⟩ d ⟨l, .idle, dn ++ [j]⟩
  | differ (j : Job β) (l dn : List (Job β)) (buf c : List β) (h : d j.path = some c) (hl : c.length ≤ buf.length) (he : buf ≠ j.cnt) :
      PStep z d ⟨l, .reading j buf, dn⟩ d ⟨l, .creating j, dn⟩
  | create (j : Job β) (l dn : List (Job β)) : PStep z d ⟨l, .creating j, dn⟩ (d.set j.path []) ⟨l, .writing j 0, dn⟩
  | write (j : Job β) (l dn : List (Job β)) (off n : Nat) (c : List β) (h : d j.path = some c) (hn : 0 < n) (hl : off + n ≤ j.cnt.length) :
      PStep z d ⟨l, .writing j off, dn⟩ (d.set j.path (pwrite z c off ((j.cnt.drop off).take n))) ⟨l, .writing j (off + n), dn⟩
  | close (j : Job β) (l dn : List (Job β)) (off : Nat) (h : off = j.cnt.length) :
      PStep z d ⟨l, .writing j off, dn⟩ d ⟨l, .idle, dn ++ [j]⟩

/-- All processes and the disk. -/
structure Sys (β : Type) where
  procs : List (Proc β)
  disk : Disk β

/-- One step of one of the processes. -/
inductive Step {β : Type} (z : β) (s : Sys β) : Sys β → Prop
  | mk (i : Nat) (p p' : Proc β) (d' : Disk β) (hi : s.procs[i]? = some p) (h : PStep z s.disk p d' p') :
      Step z s ⟨s.procs.set i p', d'⟩

/-- The processes before they start. -/
def initial {β : Type} (jobs : List (List (Job β))) (d : Disk β) : Sys β := ⟨jobs.map fun l => ⟨l, .idle, []⟩, d⟩

/-- Any number of steps. -/
inductive Reach {β : Type} (z : β) (s : Sys β) : Sys β → Prop
  | refl : Reach z s s
  | step {s' s'' : Sys β} (h : Reach z s s') (h' : Step z s' s'') : Reach z s s''

end Flapi.SharedOut
