import Verif.Base.Panic
import Verif.Base.Count

/-!
# Model of the count-down latch

Source: `/repo/src/lib/scheduler/src/sync/count_down_latch.rs`.

Any number of counters and waiters, each used by a thread of its own. What is done under the mutex is one step. The notification
of `count_down` comes after the mutex was released and is a step of its own. A wait on the condition variable may end for no reason;
the condition is then looked at again (`wait_while`).
-/
namespace Shadow.Latch.CountDown

open Shadow.Base

/-- `usize` has 64 bits. -/
def U : Nat := 18446744073709551616

/-- count_down_latch.rs:10-15. `passed` counts the calls of `count_down` that this counter, and the one it was cloned from before
    that, have made. `pending` tells that it has not called `notify_all` yet. -/
structure Counter where
  gen : Nat
  passed : Nat
  live : Bool
  pending : Bool
deriving Repr, DecidableEq

inductive WPc
  | out
  /-- blocked on the condition variable; `true` if it was notified -/
  | blocked (notified : Bool)
deriving Repr, DecidableEq

/-- count_down_latch.rs:23-28. `passed` counts the calls of `wait` that returned. -/
structure Waiter where
  gen : Nat
  passed : Nat
  live : Bool
  pc : WPc
deriving Repr, DecidableEq

/-- count_down_latch.rs:36-48. `rounds` counts the generations that are over. -/
structure St where
  gen : Nat
  counters : Nat
  waiters : Nat
  totalC : Nat
  totalW : Nat
  rounds : Nat
  cs : List Counter
  ws : List Waiter
deriving Repr, DecidableEq

/-- count_down_latch.rs:52-75. -/
def St.init : St := ⟨0, 1, 1, 1, 1, 0, [⟨0, 0, true, false⟩], [⟨0, 0, true, .out⟩]⟩

/-- count_down_latch.rs:78-84. -/
def St.advance (s : St) : R St := do
  R.assert (decide (s.counters = 0))
  R.assert (decide (s.waiters = 0))
  return { s with counters := s.totalC, waiters := s.totalW, gen := (s.gen + 1) % U, rounds := s.rounds + 1 }

def Waiter.notify (w : Waiter) : Waiter :=
  match w.pc with
  | .blocked _ => { w with pc := .blocked true }
  | .out => w

/-- `Condvar::notify_all`. -/
def St.notifyAll (s : St) : St := { s with ws := s.ws.map Waiter.notify }

def checkedAdd (a : Nat) : R Nat := do
  R.assert (decide (a + 1 < U))
  return a + 1

def checkedSub (a : Nat) : R Nat := do
  R.assert (decide (1 ≤ a))
  return a - 1

/-- Only `if` the participant has not yet passed the current generation. -/
def addIf (b : Bool) (a : Nat) : R Nat := if b then checkedAdd a else .ok a
def subIf (b : Bool) (a : Nat) : R Nat := if b then checkedSub a else .ok a

/-- count_down_latch.rs:91-115, up to the release of the mutex; the generation of the counter (line 114) is its own and is set in the
    same step. -/
def countDown (s : St) (i : Nat) (c : Counter) : R St := do
  R.assert (decide (c.gen = s.gen))
  let n ← checkedSub s.counters
  return { s with counters := n, cs := s.cs.set i { c with gen := (c.gen + 1) % U, passed := c.passed + 1, pending := decide (n = 0) } }

/-- count_down_latch.rs:129: the condition under which `wait` blocks. -/
def blocks (s : St) (w : Waiter) : Bool := decide (w.gen ≠ s.gen) || decide (s.counters > 0)

/-- count_down_latch.rs:132-138. -/
def leave (s : St) : R St := do
  let n ← checkedSub s.waiters
  if n = 0 then St.advance { s with waiters := n } else .ok { s with waiters := n }

/-- count_down_latch.rs:121-142, from a look at the condition to the next. -/
def wait (s : St) (i : Nat) (w : Waiter) : R St :=
  if blocks s w then .ok { s with ws := s.ws.set i { w with pc := .blocked false } }
  else do
    let s ← leave s
    return { s with ws := s.ws.set i { w with gen := (w.gen + 1) % U, passed := w.passed + 1, pc := .out } }

/-- count_down_latch.rs:145-160. -/
def cloneCounter (s : St) (c : Counter) : R St := do
  let t ← checkedAdd s.totalC
  let n ← addIf (decide (c.gen = s.gen)) s.counters
  return { s with totalC := t, counters := n, cs := s.cs ++ [c] }

/-- count_down_latch.rs:162-177. -/
def cloneWaiter (s : St) (w : Waiter) : R St := do
  let t ← checkedAdd s.totalW
  let n ← addIf (decide (w.gen = s.gen)) s.waiters
  return { s with totalW := t, waiters := n, ws := s.ws ++ [w] }

/-- count_down_latch.rs:179-194. -/
def dropCounter (s : St) (i : Nat) (c : Counter) : R St := do
  let t ← checkedSub s.totalC
  let n ← subIf (decide (c.gen = s.gen)) s.counters
  let s : St := { s with totalC := t, counters := n, cs := s.cs.set i { c with live := false } }
  return if n = 0 then s.notifyAll else s

/-- count_down_latch.rs:196-211. -/
def dropWaiter (s : St) (i : Nat) (w : Waiter) : R St := do
  let t ← checkedSub s.totalW
  let n ← subIf (decide (w.gen = s.gen)) s.waiters
  let s : St := { s with totalW := t, waiters := n, ws := s.ws.set i { w with live := false } }
  if n = 0 ∧ s.counters = 0 then s.advance else .ok s

inductive Act
  | countDown (i : Nat)
  /-- counter `i` calls `notify_all` -/
  | notify (i : Nat)
  | wait (i : Nat)
  /-- the wait of waiter `i` on the condition variable ends, notified or not -/
  | wake (i : Nat)
  | cloneCounter (i : Nat)
  | cloneWaiter (i : Nat)
  | dropCounter (i : Nat)
  | dropWaiter (i : Nat)
deriving Repr, DecidableEq

/-- The counter `i` if it can be used now. -/
def St.counter (s : St) (i : Nat) : Option Counter := s.cs[i]?.filter fun c => c.live && !c.pending

/-- The waiter `i` if it can be used now. -/
def St.waiter (s : St) (i : Nat) : Option Waiter := s.ws[i]?.filter fun w => w.live && decide (w.pc = .out)

/-- One step; `none` if it is not possible now. -/
def step (s : St) : Act → Option (R St)
  | .countDown i => (s.counter i).map (countDown s i)
  -- count_down_latch.rs:109-112
  | .notify i => (s.cs[i]?.filter Counter.pending).map fun c => .ok ({ s with cs := s.cs.set i { c with pending := false } } : St).notifyAll
  | .wait i => (s.waiter i).map (wait s i)
  | .wake i => (s.ws[i]?.filter fun w => decide (w.pc ≠ .out)).map (wait s i)
  | .cloneCounter i => (s.counter i).map (cloneCounter s)
  | .cloneWaiter i => (s.waiter i).map (cloneWaiter s)
  | .dropCounter i => (s.counter i).map (dropCounter s i)
  | .dropWaiter i => (s.waiter i).map (dropWaiter s i)

end Shadow.Latch.CountDown
