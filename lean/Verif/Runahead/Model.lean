/-!
# Model of the runahead (the length of a scheduling round)

Sources: `/repo/src/main/core/runahead.rs`, `/repo/src/main/core/worker.rs` (lines 291-302).

Times are `Nat` nanoseconds.  The `RwLock` sections are atomic steps; between the check under the
read lock and the check under the write lock other workers may run.  The log message at
runahead.rs:110-116 is dropped.
-/
namespace Shadow.Runahead

/-- runahead.rs:14-25, the immutable fields of `Runahead`. -/
structure Cfg where
  /-- `is_runahead_dynamic` -/
  dynamic : Bool
  /-- `min_possible_latency` -/
  minPossible : Nat
  /-- `min_runahead_config` -/
  config : Option Nat
deriving Repr, DecidableEq

/-- runahead.rs:28-41, `Runahead::new`; `none` is the assertion at line 33. -/
def Cfg.new (dynamic : Bool) (minPossible : Nat) (config : Option Nat) : Option Cfg :=
  if minPossible = 0 then none else some ⟨dynamic, minPossible, config⟩

/-- runahead.rs:44-57, `Runahead::get`, for a value of `min_used_latency`. -/
def Cfg.get (c : Cfg) (minUsed : Option Nat) : Nat :=
  max (minUsed.getD c.minPossible) (c.config.getD 0)

/-- runahead.rs:70-79, the closure `should_update`. -/
def shouldUpdate (latency : Nat) (minUsed : Option Nat) : Bool :=
  match minUsed with
  | some m => if latency ≥ m then false else true
  | none => true

/-- Where a worker is inside `update_lowest_used_latency`. -/
inductive Pc where
  | idle
  /-- runahead.rs:82-88, about to check under the read lock -/
  | readCheck (latency : Nat)
  /-- runahead.rs:94-107, about to check (and store) under the write lock -/
  | writeCheck (latency : Nat)
deriving Repr, DecidableEq

/-- A worker thread: its `min_latency_cache` (worker.rs:295-297) and its program counter. -/
structure Worker where
  cache : Option Nat
  pc : Pc
deriving Repr, DecidableEq

/-- The shared `min_used_latency` and the workers. -/
structure State where
  minUsed : Option Nat
  workers : Nat → Worker

def State.init : State := ⟨none, fun _ => ⟨none, .idle⟩⟩

def State.setWorker (s : State) (i : Nat) (w : Worker) : State :=
  { s with workers := fun j => if j = i then w else s.workers j }

/-- What can happen next. -/
inductive Act where
  /-- worker `i` calls `Worker::update_lowest_used_latency(latency)` -/
  | report (i latency : Nat)
  /-- worker `i` executes its next critical section -/
  | advance (i : Nat)
deriving Repr, DecidableEq

/-- One atomic step; `none` is a panic or an action that is not possible in this state. -/
def step (c : Cfg) (s : State) : Act → Option State
  | .report i l =>
    match (s.workers i).pc with
    | .idle =>
      -- worker.rs:292 and runahead.rs:62, assertions
      if l = 0 then none
      -- worker.rs:295-299
      else if (s.workers i).cache.isNone || l < (s.workers i).cache.getD 0 then
        -- runahead.rs:65-67
        if c.dynamic then some (s.setWorker i ⟨some l, .readCheck l⟩)
        else some (s.setWorker i ⟨some l, .idle⟩)
      else some s
    | _ => none
  | .advance i =>
    match (s.workers i).pc with
    | .idle => none
    | .readCheck l =>
      if shouldUpdate l s.minUsed then some (s.setWorker i { s.workers i with pc := .writeCheck l })
      else some (s.setWorker i { s.workers i with pc := .idle })
    | .writeCheck l =>
      if shouldUpdate l s.minUsed then
        some { s.setWorker i { s.workers i with pc := .idle } with minUsed := some l }
      else some (s.setWorker i { s.workers i with pc := .idle })

/-- A sequence of steps, in any interleaving. -/
def exec (c : Cfg) (s : State) : List Act → Option State
  | [] => some s
  | a :: as => match step c s a with
    | none => none
    | some s' => exec c s' as

end Shadow.Runahead
