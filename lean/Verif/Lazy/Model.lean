import Verif.Base.Panic
import Verif.Base.Count

/-!
# `LazyLock` (src/lib/vasi-sync/src/lazy_lock.rs)

Any number of threads call `force` (or `deref`, lines 205-220) on one lock, any number of times.  Every access to the state word and
every futex call is one step, and the steps of the threads interleave in any order.

The value written by the initializer is not an atomic variable: a thread may read it only after the write has happened before, in the
sense of the memory model.  Each thread has a flag `sees` (the write has happened before its next step), and the state word has a flag
`rel` (the value it holds was stored by a `Release` operation of a thread that sees the write).  An `Acquire` access gives the flag of
the word to the thread, a `Relaxed` access does not.  A read by a thread that does not see the write is a failure of the model.

Simplification: values are numbers; the initializer (`Producer::initialize`, lines 14-25) is arbitrary code that ends with any value or
panics; the kernel's `futex_wait` returns 0, `EINTR` or `EAGAIN` and `futex_wake` does not fail.
-/
namespace Shadow.Lazy

open Shadow.Base

/-- lazy_lock.rs:27-39, `InitState`. -/
inductive Word where
  | uninit | initd | initing | sleepers
deriving DecidableEq, Repr

/-- Where a thread is in `force` and `init`. -/
inductive Pc where
  /-- Not in a call. -/
  | idle
  /-- Before the load of line 178, or that of line 160. -/
  | load
  /-- At the head of the loop of lines 97-167 with `state`. -/
  | loop (w : Word)
  /-- After line 107: the thread has the initialization lock. -/
  | won
  /-- In the initializer. -/
  | running
  /-- After line 113, before the swap. -/
  | made
  /-- Before the wake of line 127. -/
  | wake
  /-- In `futex_wait`. -/
  | asleep
  /-- The initializer panicked in this thread. -/
  | dead
deriving DecidableEq, Repr

structure Th where
  pc : Pc
  /-- The write of the value happened before the next step of this thread. -/
  sees : Bool
  /-- A call of `force` has returned to this thread, which holds the reference. -/
  got : Bool
deriving DecidableEq, Repr

/-- lazy_lock.rs:53-57. -/
structure St where
  word : Word
  /-- The word was stored with `Release` by a thread that sees the value. -/
  rel : Bool
  /-- The initializer is still there. -/
  init : Bool
  value : Option Nat
  ths : List Th
deriving DecidableEq, Repr

/-- What can be observed: the initializer starts, it returns a value, `force` returns, a thread reads the value through its reference. -/
inductive Ev where
  | start (t : Nat)
  | made (t v : Nat)
  | ret (t : Nat)
  | read (t v : Nat)
deriving DecidableEq, Repr

inductive Act where
  /-- Thread `t` calls `force`. -/
  | call (t : Nat)
  /-- The next step of thread `t`. -/
  | go (t : Nat)
  /-- The initializer returns `v`. -/
  | make (t v : Nat)
  /-- The initializer panics. -/
  | fail (t : Nat)
  /-- A signal ends the `futex_wait` of thread `t`, or it returns for no reason. -/
  | intr (t : Nat)
  /-- Thread `t` reads the value through the reference that `force` returned. -/
  | read (t : Nat)
deriving DecidableEq, Repr

/-- lazy_lock.rs:80-94, `new`, with `n` threads. -/
def St.new (n : Nat) : St := ⟨.uninit, false, true, none, List.replicate n ⟨.idle, false, false⟩⟩

def St.put (s : St) (t : Nat) (h : Th) : St := { s with ths := s.ths.set t h }

/-- An `Acquire` access by `h`. -/
def acquire (s : St) (h : Th) : Th := { h with sees := h.sees || s.rel }

/-- `force` returns: lines 188-191. -/
def St.back (s : St) (t : Nat) (h : Th) : St × List Ev := (s.put t { h with pc := .idle, got := true }, [.ret t])

/-- lazy_lock.rs:163-165 and 183: the head of the loop, and the check in `force`. -/
def St.goLoad (s : St) (t : Nat) (h : Th) : St × List Ev := (s.put t { acquire s h with pc := .loop s.word }, [])

/-- lazy_lock.rs:99-138, the `compare_exchange`; on success it is `Relaxed`, on failure `Acquire`. -/
def St.goUninit (s : St) (t : Nat) (h : Th) : St × List Ev :=
  if s.word = .uninit then ({ s with word := .initing }.put t { h with pc := .won }, [])
  else (s.put t { acquire s h with pc := .loop s.word }, [])

/-- lazy_lock.rs:139-150. -/
def St.goIniting (s : St) (t : Nat) (h : Th) : St × List Ev :=
  if s.word = .initing then ({ s with word := .sleepers }.put t { h with pc := .loop .sleepers }, [])
  else (s.put t { acquire s h with pc := .loop s.word }, [])

/-- lazy_lock.rs:151-158: `futex_wait` sleeps only if the word is as expected, and returns `EAGAIN` otherwise. -/
def St.goWait (s : St) (t : Nat) (h : Th) : St × List Ev :=
  if s.word = .sleepers then (s.put t { h with pc := .asleep }, []) else (s.put t { h with pc := .load }, [])

/-- lazy_lock.rs:110-111: `take().unwrap()`. -/
def St.goTake (s : St) (t : Nat) (h : Th) : R (St × List Ev) := do
  R.assert s.init
  return ({ s with init := false }.put t { h with pc := .running }, [.start t])

/-- lazy_lock.rs:116-131: the swap is `Release`. -/
def St.goSwap (s : St) (t : Nat) (h : Th) : R (St × List Ev) :=
  let s' := { s with word := .initd, rel := s.rel || h.sees }
  match s.word with
  | .initing => .ok (s'.back t h)
  | .sleepers => .ok (s'.put t { h with pc := .wake }, [])
  | _ => .panic

/-- A sleeping thread is woken. -/
def wakeUp (h : Th) : Th := if h.pc = .asleep then { h with pc := .load } else h

/-- lazy_lock.rs:127: `futex_wake_all`, and the return of line 131. -/
def St.goWake (s : St) (t : Nat) (h : Th) : St × List Ev := { s with ths := s.ths.map wakeUp }.back t h

/-- The next step of thread `t`. -/
def St.go (s : St) (t : Nat) (h : Th) : Option (R (St × List Ev)) :=
  match h.pc with
  | .load => some (.ok (s.goLoad t h))
  | .loop .uninit => some (.ok (s.goUninit t h))
  | .loop .initing => some (.ok (s.goIniting t h))
  | .loop .sleepers => some (.ok (s.goWait t h))
  | .loop .initd => some (.ok (s.back t h))
  | .won => some (s.goTake t h)
  | .made => some (s.goSwap t h)
  | .wake => some (.ok (s.goWake t h))
  | .idle => none
  | .running => none
  | .asleep => none
  | .dead => none

/-- lazy_lock.rs:238-247: reading through a `Ref`.  It is a failure unless the value is there and its write happened before. -/
def St.deref (s : St) (t : Nat) (h : Th) : R (St × List Ev) := do
  R.assert h.sees
  let v ← R.unwrap s.value
  return (s, [.read t v])

/-- One step; `none` is "not enabled", `panic` is a failed `unwrap`, an unexpected state or an access without synchronization. -/
def step (s : St) : Act → Option (R (St × List Ev))
  | .call t => match s.ths[t]? with
    | some h => if h.pc = .idle then some (.ok (s.put t { h with pc := .load }, [])) else none
    | none => none
  | .go t => match s.ths[t]? with
    | some h => s.go t h
    | none => none
  | .make t v => match s.ths[t]? with
    | some h => if h.pc = .running then some (.ok ({ s with value := some v }.put t { h with pc := .made, sees := true }, [.made t v])) else none
    | none => none
  | .fail t => match s.ths[t]? with
    | some h => if h.pc = .running then some (.ok (s.put t { h with pc := .dead }, [])) else none
    | none => none
  | .intr t => match s.ths[t]? with
    | some h => if h.pc = .asleep then some (.ok (s.put t { h with pc := .load }, [])) else none
    | none => none
  | .read t => match s.ths[t]? with
    | some h => if h.got = true then some (s.deref t h) else none
    | none => none

/-- lazy_lock.rs:195-199, `initd`. -/
def St.initd (s : St) : Bool := decide (s.word = .initd)

/-- lazy_lock.rs:222-231, `drop`: the value that is dropped, if any.  The caller has exclusive access. -/
def St.drop (s : St) : Option Nat := if s.word = .initd then s.value else none

/-- Run a list of actions; the events are in order. -/
def exec (s : St) : List Act → Option (R (St × List Ev))
  | [] => some (.ok (s, []))
  | a :: as => match step s a with
    | none => none
    | some .panic => some .panic
    | some (.ok (s', e)) => match exec s' as with
      | none => none
      | some .panic => some .panic
      | some (.ok (s'', e')) => some (.ok (s'', e ++ e'))

/-- A state that `n` threads can reach, with everything observed so far, in order. -/
inductive Run (n : Nat) : St → List Ev → Prop
  | init : Run n (St.new n) []
  | step {s s' : St} {tr e : List Ev} {a : Act} : Run n s tr → step s a = some (.ok (s', e)) → Run n s' (tr ++ e)

end Shadow.Lazy
