import Verif.Latch.Simple
import Verif.Latch.CountDown

/-!
# Model of the thread pool of the thread-per-core scheduler

Source: `/repo/src/lib/scheduler/src/pools/unbounded.rs`.

The pool is put together from the models of its two latches: each step of a thread that uses a latch is a step of the model of that
latch. The other steps are those on the task (an `AtomicRefCell`) and on the flag that tells that a thread panicked. A write to the
task is two steps, one that begins it and one that ends it.

Thread `i` has waiter `i` of the start latch and counter `i + 1` of the end latch; counter 0 is the one that `new` clones. The main
thread has waiter 0 of the end latch. Tasks are known by numbers.
-/
namespace Shadow.Pool.Unbounded

open Shadow.Base Shadow.Latch

/-- Where a thread is in `work_loop`. -/
inductive TPc
  /-- unbounded.rs:263: before `start_waiter.wait()` -/
  | atWait
  /-- in it -/
  | waiting
  /-- unbounded.rs:268: before the borrow of the task -/
  | look
  /-- unbounded.rs:269: in the task, which it has borrowed -/
  | running
  /-- unbounded.rs:278: before `end_counter.count_down()` -/
  | counting
  /-- in it, before the notification -/
  | notifying
  /-- the task panicked -/
  | panicking
  /-- before the end counter is dropped -/
  | exiting
  /-- before the start waiter is dropped -/
  | exiting2
  | gone
deriving Repr, DecidableEq

/-- `ran` lists the tasks that it ran, `crashed` tells that one of them panicked. -/
structure Thread where
  pc : TPc
  ran : List Nat
  crashed : Bool
deriving Repr, DecidableEq

/-- What a call of `scope` came to. -/
inductive Res
  | done
  /-- it panics at unbounded.rs:142-148 -/
  | refused
  /-- it panics at unbounded.rs:193 -/
  | crashed
deriving Repr, DecidableEq

/-- Where the main thread is. -/
inductive MPc
  /-- unbounded.rs:48-81: in `new` -/
  | making
  /-- outside of the functions of the pool; `res` tells how the last `scope` ended -/
  | idle (res : Option Res)
  /-- unbounded.rs:158: in the closure of `scope`, before `run` -/
  | scope
  /-- unbounded.rs:216: writing the task -/
  | setting
  /-- unbounded.rs:219: before `open` -/
  | set
  /-- in `open`, before the futex call -/
  | opening
  /-- in the closure of `scope`, after `run` -/
  | ran
  /-- unbounded.rs:177: the scope ends -/
  | ending
  /-- unbounded.rs:179: blocked on the end latch -/
  | waiting
  /-- unbounded.rs:182: before the write -/
  | passed
  /-- writing the task -/
  | clearing
  /-- unbounded.rs:185-194 -/
  | checking
  /-- unbounded.rs:107: in `open`, before the futex call; `check` is `check_for_errors` -/
  | jopening (check : Bool)
  /-- unbounded.rs:109: before it joins thread `k` -/
  | joining (check : Bool) (k : Nat)
  | over
deriving Repr, DecidableEq

/-- unbounded.rs:28-45. `issued` lists the tasks that `run` was called with. -/
structure St where
  main : MPc
  threads : List Thread
  task : Option Nat
  poisoned : Bool
  start : Simple.St
  fin : CountDown.St
  issued : List Nat
deriving Repr, DecidableEq

/-- unbounded.rs:49-57. -/
def St.init : St := ⟨.making, [], none, false, .init, .init, []⟩

inductive Act
  /-- one turn of the loop of `new` -/
  | spawn (spin : Bool)
  /-- the end of `new` -/
  | made
  /-- the main thread calls `scope` -/
  | enter
  /-- it calls `run` -/
  | run (t : Nat)
  /-- the closure of `scope` ends -/
  | leave
  /-- the pool is dropped -/
  | join
  /-- the next step of the main thread in the pool -/
  | main
  /-- its wait on the condition variable of the end latch ends, notified or not -/
  | wake
  /-- the next step of thread `i` in the pool -/
  | thread (i : Nat)
  /-- the futex wait of thread `i` ends for no reason -/
  | intr (i : Nat)
  /-- the task returns on thread `i` -/
  | finish (i : Nat)
  /-- the task panics on thread `i` -/
  | crash (i : Nat)
deriving Repr, DecidableEq

def St.put (s : St) (i : Nat) (t : Thread) : St := { s with threads := s.threads.set i t }

/-- A step of the start latch. -/
def St.onStart (s : St) (a : Simple.Act) (f : Simple.St → St) : Option (R St) :=
  (Simple.step s.start a).map fun r => do return f (← r)

/-- A step of the end latch. -/
def St.onFin (s : St) (a : CountDown.Act) (f : CountDown.St → St) : Option (R St) :=
  (CountDown.step s.fin a).map fun r => do return f (← r)

/-- Whether a thread has borrowed the task. -/
def Thread.borrows (t : Thread) : Bool := decide (t.pc = .running)

/-- Whether the main thread has borrowed the task to write it. -/
def MPc.writes : MPc → Bool
  | .setting | .clearing => true
  | _ => false

/-- Where the main thread goes on after it looked at the end latch. -/
def St.looked (s : St) (fin : CountDown.St) : St :=
  { s with fin := fin, main := if fin.ws[0]?.any (fun w => decide (w.pc = .out)) then .passed else .waiting }

/-- Where thread `i` goes on after a step in `start_waiter.wait()`. -/
def St.stepped (s : St) (i : Nat) (t : Thread) (start : Simple.St) : St :=
  { s with start := start, threads := s.threads.set i { t with pc := if start.ws[i]?.any (fun w => decide (w.pc = .out)) then .look else .waiting } }

/-- The next step of the main thread. -/
def mainStep (s : St) : Option (R St) :=
  match s.main with
  | .setting => some (.ok { s with main := .set })
  -- unbounded.rs:219
  | .set => s.onStart .open fun start => { s with start := start, main := .opening }
  | .opening => s.onStart .wakeAll fun start => { s with start := start, main := .ran }
  -- unbounded.rs:177-179
  | .ending => if s.task.isSome then s.onFin (.wait 0) s.looked else some (.ok { s with main := .idle (some .done) })
  -- unbounded.rs:182; a write panics if the task is borrowed
  | .passed => some (if s.threads.any Thread.borrows then .panic else .ok { s with task := none, main := .clearing })
  | .clearing => some (.ok { s with main := .checking })
  | .checking => some (.ok { s with main := .idle (some (if s.poisoned then .crashed else .done)) })
  | .jopening c => s.onStart .wakeAll fun start => { s with start := start, main := .joining c 0 }
  -- unbounded.rs:109-114
  | .joining c k =>
      match s.threads[k]? with
      | some t => if t.pc = .gone then some (if c && t.crashed then .panic else .ok { s with main := .joining c (k + 1) }) else none
      -- the fields of the pool are dropped
      | none => s.onFin (.dropWaiter 0) fun fin => { s with fin := fin, main := .over }
  | _ => none

/-- The next step of thread `i`. -/
def threadStep (s : St) (i : Nat) (t : Thread) : Option (R St) :=
  match t.pc with
  | .atWait => s.onStart (.wait i) fun start => { s with start := start, threads := s.threads.set i { t with pc := .waiting } }
  | .waiting => s.onStart (.run i) (s.stepped i t)
  -- unbounded.rs:268-274; a borrow panics if the task is being written
  | .look =>
      some (if s.main.writes then .panic
        else match s.task with
          | some k => .ok (s.put i { t with pc := .running, ran := t.ran ++ [k] })
          | none => .ok (s.put i { t with pc := .exiting }))
  | .counting => s.onFin (.countDown (i + 1)) fun fin =>
      { s with fin := fin, threads := s.threads.set i { t with pc := if fin.cs[i + 1]?.any CountDown.Counter.pending then .notifying else .atWait } }
  | .notifying => s.onFin (.notify (i + 1)) fun fin => { s with fin := fin, threads := s.threads.set i { t with pc := .atWait } }
  -- unbounded.rs:250-256
  | .panicking => some (.ok { s with poisoned := true, threads := s.threads.set i { t with pc := .exiting } })
  | .exiting => s.onFin (.dropCounter (i + 1)) fun fin => { s with fin := fin, threads := s.threads.set i { t with pc := .exiting2 } }
  | .exiting2 => s.onStart (.drop i) fun start => { s with start := start, threads := s.threads.set i { t with pc := .gone } }
  | .running | .gone => none

/-- One step; `none` if it is not possible now. -/
def step (s : St) : Act → Option (R St)
  -- unbounded.rs:59-81
  | .spawn spin =>
      if s.main = .making then
        (Simple.step s.start (.waiter spin)).bind fun r1 => (CountDown.step s.fin (.cloneCounter 0)).map fun r2 => do
          let start ← r1
          let fin ← r2
          return { s with start := start, fin := fin, threads := s.threads ++ [⟨.atWait, [], false⟩] }
      else none
  -- unbounded.rs:83-89: the counter that was cloned is dropped
  | .made => if s.main = .making then s.onFin (.dropCounter 0) fun fin => { s with fin := fin, main := .idle none } else none
  -- unbounded.rs:138-159
  | .enter =>
      match s.main with
      | .idle _ => some (.ok { s with main := if s.poisoned then .idle (some .refused) else .scope })
      | _ => none
  -- unbounded.rs:208-216; a write panics if the task is borrowed
  | .run t =>
      if s.main = .scope then
        some (if s.threads.any Thread.borrows then .panic else .ok { s with task := some t, issued := s.issued ++ [t], main := .setting })
      else none
  | .leave => if s.main = .scope ∨ s.main = .ran then some (.ok { s with main := .ending }) else none
  -- unbounded.rs:96-107
  | .join =>
      match s.main with
      | .idle _ =>
          if s.task = none then s.onStart .open fun start => { s with start := start, main := .jopening (!s.poisoned) } else some .panic
      | _ => none
  | .main => mainStep s
  | .wake => if s.main = .waiting then s.onFin (.wake 0) s.looked else none
  | .thread i => s.threads[i]?.bind (threadStep s i)
  | .intr i => match s.threads[i]? with
    | some t => if t.pc = .waiting then s.onStart (.intr i) (s.stepped i t) else none
    | none => none
  | .finish i => match s.threads[i]? with
    | some t => if t.pc = .running then some (.ok (s.put i { t with pc := .counting })) else none
    | none => none
  | .crash i => match s.threads[i]? with
    | some t => if t.pc = .running then some (.ok (s.put i { t with pc := .panicking, crashed := true })) else none
    | none => none

/-- The number of threads and counters fits a `usize`. -/
def allowed (s : St) : Act → Prop
  | .spawn _ => s.threads.length + 2 < CountDown.U
  | _ => True

inductive Run : St → Prop
  | init : Run .init
  | step {s s' : St} {a : Act} : Run s → allowed s a → step s a = some (.ok s') → Run s'

end Shadow.Pool.Unbounded
