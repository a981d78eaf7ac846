import Verif.Base.Panic
/-!
# The thread-per-host scheduler

Source: `/repo/src/lib/scheduler/src/thread_per_host.rs`, on top of the thread pool (`Verif/Pool/Bounded.lean`, C62).

A task that the scheduler gives to the pool is known by what it does on a thread. The closure of a user is given by the functions that it passes to `for_each`, in order; it may depend on the number of the thread and
on the element of the data. Simplification: the closure does not panic (the pool then refuses everything, C62).
-/
namespace Shadow.HostSched

open Shadow.Base

/-- A task of the pool. -/
inductive Task (H : Type) where
  /-- of `new` (thread_per_host.rs:49-57) -/
  | take
  /-- `run` -/
  | run
  /-- `run_with_hosts`, with what each thread does to its host -/
  | hosts (f : Nat → List (H → H))
  /-- `run_with_data`, with the length of the data, and what each thread does for an index -/
  | data (len : Nat) (f : Nat → Nat → List (H → H))
  /-- of `join` (thread_per_host.rs:88-97) -/
  | collect

/-- What belongs to one thread: its thread-local storage, its entry of the vector of hosts in `new`, and its entry of the one in `join`. -/
structure Th (H : Type) where
  slot : Option H
  src : Option H
  out : Option H
deriving DecidableEq, Repr

variable {H : Type}

/-- `HostIter::for_each` (thread_per_host.rs:180-187), several times. -/
def forEach (iter : Option H) : List (H → H) → R (Option H)
  | [] => .ok iter
  | g :: l => do
    let h ← R.unwrap iter
    forEach (some (g h)) l

/-- The body of `run_with_hosts` and `run_with_data` (thread_per_host.rs:131-139, 158-166): the host is taken out and put back. -/
def withHost (t : Th H) (l : List (H → H)) : R (Th H) := do
  let iter ← forEach t.slot l
  let h ← R.unwrap iter
  .ok { t with slot := some h }

/-- A task on thread `i`, on processor `p`. -/
def task (i p : Nat) (t : Th H) : Task H → R (Th H)
  | .take => do
    R.assert t.slot.isNone
    let h ← R.unwrap t.src
    .ok { t with slot := some h, src := none }
  | .run => .ok t
  | .hosts f => withHost t (f i)
  | .data len f => do
    R.assert (p < len)
    withHost t (f i p)
  | .collect => do
    let h ← R.unwrap t.slot
    .ok { t with slot := none, out := some h }

/-- The tasks of a thread; `ps` are the processors it runs them on. -/
def exec (i : Nat) (t : Th H) : List (Task H) → List Nat → R (Th H)
  | x :: l, p :: ps => do
    let t ← task i p t x
    exec i t l ps
  | _, _ => .ok t

/-- A thread before `new` gives it its host. -/
def start (hosts : List H) (i : Nat) : Th H := ⟨none, hosts[i]?, none⟩

end Shadow.HostSched
