/-!
# Things that are said once

Source: `/repo/src/main/utility/once_set.rs` and the macros that use it, `log_once_at_level` and `log_once_per_value_at_level` in `/repo/src/main/utility/macros.rs:10-77`.

Any number of threads use one set (or one flag) at the same time. A step is what happens under a lock, or one atomic operation.

Trusted: a lock gives the same as if its holders came one after the other; a thread that fails while it holds the lock is not modelled.
Simplification: the set is a list.
-/
namespace Shadow.Once

variable {V : Type} [DecidableEq V]

/-- Where a thread is in `insert` (once_set.rs:20-43). -/
inductive Ph (V : Type) where
  | idle
  /-- before the read lock (once_set.rs:22-33) -/
  | reading (v : V)
  /-- before the write lock (once_set.rs:38-42) -/
  | writing (v : V)
deriving DecidableEq, Repr

structure St (V : Type) where
  set : List V
  th : Nat → Ph V
  /-- the calls that have ended, with what they returned -/
  log : List (V × Bool)

inductive Act (V : Type) where
  | call (t : Nat) (v : V)
  | read (t : Nat)
  | write (t : Nat)
deriving DecidableEq, Repr

def St.at (s : St V) (t : Nat) (p : Ph V) : St V := { s with th := fun x => if x = t then p else s.th x }

/-- `HashSet::insert`: whether it was new, and the set. -/
def put (set : List V) (v : V) : Bool × List V := if v ∈ set then (false, set) else (true, v :: set)

/-- One step, if the thread is there. -/
def step (s : St V) : Act V → Option (St V)
  | .call t v => match s.th t with
    | .idle => some (s.at t (.reading v))
    | _ => none
  | .read t => match s.th t with
    | .reading v =>
      if v ∈ s.set then some { s.at t .idle with log := s.log ++ [(v, false)] }
      else some (s.at t (.writing v))
    | _ => none
  | .write t => match s.th t with
    | .writing v =>
      let (new, set) := put s.set v
      some { s.at t .idle with set := set, log := s.log ++ [(v, new)] }
    | _ => none

def run (s : St V) : List (Act V) → Option (St V)
  | [] => some s
  | a :: l => match step s a with
    | some s' => run s' l
    | none => none

def St.init : St V := ⟨[], fun _ => .idle, []⟩

/-- The level of a message (macros.rs:70-75). -/
def level (first rest : Nat) (new : Bool) : Nat := if new then first else rest

/-- `HAS_LOGGED` (macros.rs:27-40): a thread exchanges `false` for `true`; the flag, and whether it was the first. -/
def exchange (flag : Bool) : Bool × Bool := if flag = false then (true, true) else (flag, false)

/-- The levels of the messages of one line, in the order of the exchanges. -/
def levels (first rest : Nat) : Bool → Nat → List Nat
  | _, 0 => []
  | flag, n + 1 => level first rest (exchange flag).2 :: levels first rest (exchange flag).1 n

end Shadow.Once
