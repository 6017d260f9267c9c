import Verif.Base.Text
/-!
# Running rustfmt (model)

`rustfmt_cnt` writes the generated code to the standard input of a child process in a second thread, while it copies the standard
output of the child in the first one.  Both pipes have a limited capacity, so a write blocks while the pipe is full, and a read
blocks while it is empty and its other end is open.  The child is an arbitrary program.

Simplifications: bytes go through the pipes one at a time when written (a longer write is a sequence of these) and in pieces of any
size when read; the child keeps both its ends open until it exits; reading from a pipe and waiting for a child do not fail
(the two `?` of macroslib/src/lib.rs:816-817); the search for the executable and the start of the process are
the first alternative of `Expand.Env.rustfmt`.
-/
namespace Flapi.Rustfmt
open Flapi

/-- What a program wants to do next. -/
inductive Want (χ β : Type) where
  /-- read at most `n + 1` bytes; `[]` is the end of the input -/
  | read (n : Nat) (k : List β → χ)
  | write (b : β) (k : χ)
  /-- anything that concerns neither pipe -/
  | work (k : χ)
  /-- `none`: killed by a signal -/
  | exit (code : Option Int)

/-- The child process. -/
inductive Proc (χ : Type) where
  | run (c : χ)
  | gone (code : Option Int)

/-- The thread that writes the source to the child, macroslib/src/lib.rs:809-812; `done` also means that its end of the pipe is
closed, because the handle is dropped with the closure. -/
inductive Writer (β : Type) where
  | writing (rest : List β)
  | done

/-- The main thread, macroslib/src/lib.rs:814-838: copying the output, waiting for the child, joining the other thread, finished. -/
inductive Main (β : Type) where
  | copying (acc : List β)
  | waiting (acc : List β)
  | joining (acc : List β) (code : Option Int)
  | finished (res : Except Unit (List β))

/-- A state of the whole. -/
structure St (χ β : Type) where
  toChild : List β
  fromChild : List β
  child : Proc χ
  writer : Writer β
  main : Main β

/-- Who makes the next step; for a child that reads: how many bytes beyond the first it gets, if there are so many. -/
inductive Pick where
  | writer
  | main
  | child (more : Nat)
deriving DecidableEq

section
variable {χ β : Type}

/-- The choice of the result by the exit status: macroslib/src/lib.rs:823-838. -/
def choose (code : Option Int) (output src : List β) : Except Unit (List β) :=
  match code with
  | some 0 => .ok output
  | some 2 => .error ()
  | some 3 => .ok src
  | _ => .ok src

/-- The state after the process and the thread were started: macroslib/src/lib.rs:801-814. -/
def start (c0 : χ) (src : List β) : St χ β := ⟨[], [], .run c0, .writing src, .copying []⟩

/-- `write_all` in the thread: macroslib/src/lib.rs:809-812.  The pipe holds `capI + 1` bytes.  If the child is gone the write fails
and the error is ignored. -/
def stepWriter (capI : Nat) (s : St χ β) : Option (St χ β) :=
  match s.writer with
  | .writing [] => some { s with writer := .done }
  | .writing (b :: rest) =>
    match s.child with
    | .gone _ => some { s with writer := .done }
    | .run _ => if s.toChild.length ≤ capI then some { s with toChild := s.toChild ++ [b], writer := .writing rest } else none
  | .done => none

/-- `io::copy`, `wait`, `join` and the choice of the result: macroslib/src/lib.rs:814-838; `src` is what the thread returns.  The only
handle of the shared source is the one that was moved into the thread and comes back by `join`, so unwrapping it cannot fail. -/
def stepMain (src : List β) (s : St χ β) : Option (St χ β) :=
  match s.main with
  | .copying acc =>
    match s.fromChild with
    | b :: t => some { s with fromChild := t, main := .copying (acc ++ [b]) }
    | [] => match s.child with
      | .gone _ => some { s with main := .waiting acc }
      | .run _ => none
  | .waiting acc =>
    match s.child with
    | .gone code => some { s with main := .joining acc code }
    | .run _ => none
  | .joining acc code =>
    match s.writer with
    | .done => some { s with main := .finished (choose code acc src) }
    | .writing _ => none
  | .finished _ => none

/-- A step of the child, an arbitrary program started at macroslib/src/lib.rs:801 with both streams piped
(macroslib/src/lib.rs:797-799).  The pipe of its output holds `capO + 1` bytes. -/
def stepChild (want : χ → Want χ β) (capO more : Nat) (s : St χ β) : Option (St χ β) :=
  match s.child with
  | .gone _ => none
  | .run c =>
    match want c with
    | .work k => some { s with child := .run k }
    | .exit code => some { s with child := .gone code }
    | .write b k => if s.fromChild.length ≤ capO then some { s with fromChild := s.fromChild ++ [b], child := .run k } else none
    | .read n k =>
      match s.toChild with
      | [] => match s.writer with
        | .done => some { s with child := .run (k []) }
        | .writing _ => none
      | b :: t => some { s with child := .run (k ((b :: t).take (min more n + 1))), toChild := (b :: t).drop (min more n + 1) }

/-- One step of the whole: macroslib/src/lib.rs:801-838. -/
def step (want : χ → Want χ β) (capI capO : Nat) (src : List β) : Pick → St χ β → Option (St χ β)
  | .writer => stepWriter capI
  | .main => stepMain src
  | .child more => stepChild want capO more

/-- A schedule: macroslib/src/lib.rs:801-838. -/
def run (want : χ → Want χ β) (capI capO : Nat) (src : List β) : List Pick → St χ β → Option (St χ β)
  | [], s => some s
  | p :: ps, s => (step want capI capO src p s).bind (run want capI capO src ps)

end
end Flapi.Rustfmt
