import Verif.Base.Panic

/-!
# `ChildPidWatcher` (src/main/utility/childpid_watcher.rs)

Any number of threads call the functions of one watcher while its own thread waits for exits.  All functions hold the mutex from beginning
to end, and so does the watcher thread while it handles events and commands (lines 153-204): each of these is one step.  The wait
(line 142) is a step of its own, without the mutex.

The kernel: a process that is watched is ready once it has exited, and stays ready until its descriptor is removed (the epoll is
level-triggered); the wait returns some of the ready ones, at most ten, and does not return for nothing.

Simplification: a callback is identified by its handle, and the callbacks of a process run in the order in which they were registered (the
code iterates over a `HashMap`); a callback does not call the watcher (lines 148-152: it must not).  Handles do not overflow.
-/
namespace Shadow.PidWatch

open Shadow.Base

/-- lines 31-39, `PidData`. -/
structure PidData where
  cbs : List Nat
  /-- The descriptor is there, and in the epoll. -/
  fd : Bool
  unreg : Bool
deriving DecidableEq, Repr

/-- lines 24-29. -/
inductive Cmd where
  | run (p : Nat)
  | unreg (p : Nat)
  | finish
deriving DecidableEq, Repr

/-- The watcher thread: before the wait, after it with the events, at its end. -/
inductive Pc where
  | wait
  | got (evs : List Nat)
  | done
deriving DecidableEq, Repr

/-- lines 41-54, `Inner`, with the watcher thread and the processes. -/
structure St where
  pids : Nat → Option PidData
  next : Nat
  cmds : List Cmd
  /-- The eventfd is readable. -/
  notify : Bool
  pc : Pc
  /-- The process has exited. -/
  exited : Nat → Bool
  /-- For the contract: `unregister_pid` was called since `register_pid`. -/
  asked : Nat → Bool
  /-- `drop` was called. -/
  dropping : Bool

/-- What is observed. -/
inductive Ev where
  /-- `register_pid` returns; the process has or has not exited. -/
  | pid (p : Nat) (dead : Bool)
  | exited (p : Nat)
  /-- `register_callback` returns a handle. -/
  | registered (p h : Nat)
  /-- `unregister_callback` returns. -/
  | unregistered (p h : Nat)
  /-- The callback runs. -/
  | ran (p h : Nat)
  /-- `drop` returns. -/
  | dropped
deriving DecidableEq, Repr

inductive Act where
  | registerPid (p : Nat) (dead : Bool)
  | unregisterPid (p : Nat)
  | register (p : Nat)
  | unregister (p h : Nat)
  | drop
  | join
  /-- A process exits. -/
  | exit (p : Nat)
  /-- The wait of the watcher thread returns these processes. -/
  | wait (evs : List Nat)
  /-- The watcher thread handles events and commands. -/
  | process
deriving DecidableEq, Repr

/-- lines 102-136, `new`. -/
def St.new : St := ⟨fun _ => none, 1, [], false, .wait, fun _ => false, fun _ => false, false⟩

def St.setPid (s : St) (p : Nat) (o : Option PidData) : St := { s with pids := fun q => if q = p then o else s.pids q }

/-- lines 57-60, `send_command`. -/
def St.send (s : St) (c : Cmd) : St := { s with cmds := s.cmds ++ [c], notify := true }

/-- lines 62-72, `unwatch_pid`. -/
def St.unwatch (s : St) (p : Nat) : St :=
  match s.pids p with
  | none => s
  | some d => s.setPid p (some { d with fd := false })

/-- lines 84-88, `run_callbacks_for_pid`. -/
def St.runCallbacks (s : St) (p : Nat) : R (St × List Ev) := do
  let d ← R.unwrap (s.pids p)
  return (s.setPid p (some { d with cbs := [] }), d.cbs.map (.ran p))

/-- lines 90-99 and 78-82, `should_remove_pid`, `maybe_remove_pid`, `remove_pid`. -/
def St.maybeRemove (s : St) (p : Nat) : R St := do
  let d ← R.unwrap (s.pids p)
  if d.cbs = [] ∧ d.unreg then return s.setPid p none else return s

/-- lines 155-164, one event. -/
def St.event (s : St) (p : Nat) : R (St × List Ev) := do
  let (s, e) ← (s.unwatch p).runCallbacks p
  let s ← s.maybeRemove p
  return (s, e)

def St.events (s : St) : List Nat → R (St × List Ev)
  | [] => .ok (s, [])
  | p :: l => do
    let (s, e) ← s.event p
    let (s, e') ← s.events l
    return (s, e ++ e')

/-- lines 179-190, one command other than `Finish`; line 182 is the check of a debug build. -/
def St.runCmd (s : St) (p : Nat) : R (St × List Ev) := do
  let d ← R.unwrap (s.pids p)
  R.assert (!d.fd)
  let (s, e) ← s.runCallbacks p
  let s ← s.maybeRemove p
  return (s, e)

def St.unregCmd (s : St) (p : Nat) : R St :=
  match s.pids p with
  | none => .ok s
  | some d => (s.setPid p (some { d with unreg := true })).maybeRemove p

/-- lines 178-203. -/
def St.commands (s : St) : List Cmd → R (St × List Ev)
  | [] => .ok ({ s with pc := .wait }, [])
  | .run p :: l => do
    let (s, e) ← s.runCmd p
    let (s, e') ← s.commands l
    return (s, e ++ e')
  | .unreg p :: l => do
    let s ← s.unregCmd p
    s.commands l
  | .finish :: _ => .ok ({ s with pc := .done }, [])

/-- lines 153-204, with the mutex. -/
def St.process (s : St) (evs : List Nat) : R (St × List Ev) := do
  let (s, e) ← s.events evs
  let (s, e') ← { s with cmds := [], notify := false }.commands s.cmds
  return (s, e ++ e')

/-- lines 237-268, `register_pid`: the check of line 267. -/
def St.registerPid (s : St) (p : Nat) (dead : Bool) : R (St × List Ev) := do
  R.assert (s.pids p).isNone
  return ({ s.setPid p (some ⟨[], true, false⟩) with exited := fun q => if q = p then dead else s.exited q, asked := fun q => if q = p then false else s.asked q },
    [.pid p dead])

/-- lines 282-288, `unregister_pid`. -/
def St.unregisterPid (s : St) (p : Nat) : St := { s.send (.unreg p) with asked := fun q => if q = p then true else s.asked q }

/-- lines 297-314, `register_callback`. -/
def St.register (s : St) (p : Nat) : R (St × List Ev) := do
  let d ← R.unwrap (s.pids p)
  R.assert (!d.unreg)
  let s' := { s.setPid p (some { d with cbs := d.cbs ++ [s.next] }) with next := s.next + 1 }
  return (if d.fd then s' else s'.send (.run p), [.registered p s.next])

/-- lines 321-327, `unregister_callback`. -/
def St.unregister (s : St) (p h : Nat) : R (St × List Ev) :=
  match s.pids p with
  | none => .ok (s, [.unregistered p h])
  | some d => do
    let s ← (s.setPid p (some { d with cbs := d.cbs.filter (· ≠ h) })).maybeRemove p
    return (s, [.unregistered p h])

/-- The wait may return this process. -/
def St.ready (s : St) (p : Nat) : Bool :=
  match s.pids p with
  | some d => d.fd && s.exited p
  | none => false

/-- One step; `none` is "not enabled". -/
def step (s : St) : Act → Option (R (St × List Ev))
  | .registerPid p dead => if s.dropping then none else some (s.registerPid p dead)
  | .unregisterPid p => if s.dropping then none else some (.ok (s.unregisterPid p, []))
  | .register p => if s.dropping then none else some (s.register p)
  | .unregister p h => if s.dropping then none else some (s.unregister p h)
  -- lines 336-345, `drop`.
  | .drop => if s.dropping then none else some (.ok ({ s.send .finish with dropping := true }, []))
  | .join => if s.dropping ∧ s.pc = .done then some (.ok (s, [.dropped])) else none
  | .exit p => if s.exited p then none else some (.ok ({ s with exited := fun q => if q = p then true else s.exited q }, [.exited p]))
  | .wait evs => if s.pc = .wait ∧ evs.all s.ready ∧ evs.Nodup ∧ evs.length ≤ 10 ∧ (s.notify ∨ evs ≠ []) then some (.ok ({ s with pc := .got evs }, [])) else none
  | .process => match s.pc with
    | .got evs => some (s.process evs)
    | _ => none

/-- The contract, in terms of what the callers know.  A process is registered only when nothing is left of an earlier registration; callbacks are
registered for a process that is registered and that nobody has asked to unregister (lines 276-278).  The last condition is
not in the documentation: a callback is not unregistered after its process, unless nothing is left of it (see `C61_stale_event`). -/
def allowed (s : St) : Act → Prop
  | .registerPid p _ => s.pids p = none ∧ .unreg p ∉ s.cmds
  | .register p => s.pids p ≠ none ∧ s.asked p = false
  | .unregister p _ => s.pids p = none ∨ s.asked p = false
  | _ => True

/-- The states that can be reached, with everything observed, in order. -/
inductive Run : St → List Ev → Prop
  | init : Run .new []
  | step {s s' : St} {tr e : List Ev} {a : Act} : Run s tr → allowed s a → step s a = some (.ok (s', e)) → Run s' (tr ++ e)

/-- A list of steps, without the contract. -/
def exec (s : St) : List Act → Option (St × List Ev)
  | [] => some (s, [])
  | a :: l => match step s a with
    | some (.ok (s', e)) => (exec s' l).map (fun r => (r.1, e ++ r.2))
    | _ => none

end Shadow.PidWatch
