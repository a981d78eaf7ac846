import Verif.Base.Panic
import Verif.Base.Count

/-!
# `RootedRefCell` (src/lib/shadow-shim-helper-rs/src/rootedcell/refcell.rs)

One cell, any number of threads.  The thread that has the `Root` of the cell may borrow it; a `Root` cannot be moved to another thread while
a guard exists, because the guard has its lifetime (line 46: `root: &'a Root`).

Dropping a guard for reading loads the count and stores it minus one (lines 112-114), without a root: these are two steps.  The guards
consist of a reference to the cell, which is `Sync` (line 82), and so they are `Send`: a program may give one to another thread (`send`).

Simplification: values are numbers; the steps of a borrow are one step.
-/
namespace Shadow.Rooted.Cell

open Shadow.Base

inductive Kind where
  | read | write
deriving DecidableEq, Repr

inductive Phase where
  | live
  /-- Between the load and the store of lines 112-114. -/
  | dropping (n : Nat)
  | gone
deriving DecidableEq, Repr

/-- refcell.rs:97-99 and 118-120. -/
structure Guard where
  kind : Kind
  thread : Nat
  phase : Phase
deriving DecidableEq, Repr

/-- refcell.rs:18-23, with the thread that has the root and all guards that were ever made. -/
structure St where
  tag : Nat
  val : Nat
  readers : Nat
  writer : Bool
  rootAt : Nat
  guards : List Guard
deriving DecidableEq, Repr

inductive Ev where
  /-- A guard is made. -/
  | borrowed (k : Kind) (g : Nat)
  /-- Panic: already borrowed. -/
  | refused (k : Kind)
  /-- Panic: the wrong root. -/
  | wrongRoot (root : Nat)
  /-- Panic in a debug build: overflow of the count. -/
  | overflow
  | read (g v : Nat)
  | wrote (g v : Nat)
  /-- A guard has been dropped. -/
  | ended (g : Nat)
deriving DecidableEq, Repr

inductive Act where
  | borrow (t root : Nat)
  | borrowMut (t root : Nat)
  | read (g : Nat)
  | write (g v : Nat)
  | drop (g : Nat)
  | dropEnd (g : Nat)
  /-- A guard is given to another thread. -/
  | send (g t : Nat)
  /-- The root is given to another thread. -/
  | moveRoot (t : Nat)
deriving DecidableEq, Repr

/-- refcell.rs:27-34, `new`. -/
def St.new (tag v t : Nat) : St := ⟨tag, v, 0, false, t, []⟩

/-- Thread `t` is in the middle of a drop. -/
def St.busy (s : St) (t : Nat) : Bool := s.guards.any (fun g => decide (g.thread = t) && (match g.phase with | .dropping _ => true | _ => false))

/-- refcell.rs:39-54, `borrow`. -/
def St.borrow (s : St) (debug : Bool) (t root : Nat) : St × List Ev :=
  if root ≠ s.tag then (s, [.wrongRoot root])
  else if s.writer then (s, [.refused .read])
  else if s.readers + 1 < 2 ^ 32 then
    ({ s with readers := s.readers + 1, guards := s.guards ++ [⟨.read, t, .live⟩] }, [.borrowed .read s.guards.length])
  else if debug then (s, [.overflow])
  else ({ s with readers := 0, guards := s.guards ++ [⟨.read, t, .live⟩] }, [.borrowed .read s.guards.length])

/-- refcell.rs:59-73, `borrow_mut`. -/
def St.borrowMut (s : St) (t root : Nat) : St × List Ev :=
  if root ≠ s.tag then (s, [.wrongRoot root])
  else if s.writer then (s, [.refused .write])
  else if s.readers ≠ 0 then (s, [.refused .write])
  else ({ s with writer := true, guards := s.guards ++ [⟨.write, t, .live⟩] }, [.borrowed .write s.guards.length])

/-- refcell.rs:110-116 and 140-145, `drop` of a guard: for a reader, the load only. -/
def St.drop (s : St) (i : Nat) (g : Guard) : St × List Ev :=
  match g.kind with
  | .read => ({ s with guards := s.guards.set i { g with phase := .dropping s.readers } }, [])
  | .write => ({ s with writer := false, guards := s.guards.set i { g with phase := .gone } }, [.ended i])

/-- refcell.rs:112-114: the store; `0 - 1` panics in a debug build and wraps in a release build. -/
def St.dropEnd (s : St) (debug : Bool) (i : Nat) (g : Guard) (n : Nat) : R (St × List Ev) :=
  if 0 < n then .ok ({ s with readers := n - 1, guards := s.guards.set i { g with phase := .gone } }, [.ended i])
  else if debug then .panic
  else .ok ({ s with readers := 2 ^ 32 - 1, guards := s.guards.set i { g with phase := .gone } }, [.ended i])

/-- The guard `i`, if it is live and its thread is not in the middle of something. -/
def St.guard (s : St) (i : Nat) : Option Guard :=
  match s.guards[i]? with
  | some g => if g.phase = .live ∧ s.busy g.thread = false then some g else none
  | none => none

/-- A thread may use the root of the cell only if it has it, and any other root. -/
def St.mayUse (s : St) (t root : Nat) : Bool := (decide (root ≠ s.tag) || decide (s.rootAt = t)) && !s.busy t

/-- One step; `none` is "not enabled". -/
def step (debug : Bool) (s : St) : Act → Option (R (St × List Ev))
  | .borrow t root => if s.mayUse t root then some (.ok (s.borrow debug t root)) else none
  | .borrowMut t root => if s.mayUse t root then some (.ok (s.borrowMut t root)) else none
  | .read i => (s.guard i).map (fun _ => .ok (s, [.read i s.val]))
  | .write i v => match s.guard i with
    | some g => if g.kind = .write then some (.ok ({ s with val := v }, [.wrote i v])) else none
    | none => none
  | .drop i => (s.guard i).map (fun g => .ok (s.drop i g))
  | .dropEnd i => match s.guards[i]? with
    | some g => match g.phase with
      | .dropping n => some (s.dropEnd debug i g n)
      | _ => none
    | none => none
  | .send i t => (s.guard i).map (fun g => .ok ({ s with guards := s.guards.set i { g with thread := t } }, []))
  | .moveRoot t => if s.guards.all (fun g => decide (g.phase = .gone)) then some (.ok ({ s with rootAt := t }, [])) else none

/-- No guard is given to another thread, and in a release build there are fewer than 2³² guards. -/
def allowed (debug : Bool) (s : St) : Act → Prop
  | .send _ _ => False
  | _ => debug = true ∨ s.guards.countP (fun g => decide (g.phase ≠ .gone)) + 1 < 2 ^ 32

/-- The states that can be reached, with everything observed, in order. -/
inductive Run (debug : Bool) (tag v t : Nat) : St → List Ev → Prop
  | init : Run debug tag v t (St.new tag v t) []
  | step {s s' : St} {tr e : List Ev} {a : Act} : Run debug tag v t s tr → allowed debug s a → step debug s a = some (.ok (s', e)) → Run debug tag v t s' (tr ++ e)

/-- A list of steps, without the condition. -/
def exec (debug : Bool) (s : St) : List Act → Option (St × List Ev)
  | [] => some (s, [])
  | a :: l => match step debug s a with
    | some (.ok (s', e)) => (exec debug s' l).map (fun r => (r.1, e ++ r.2))
    | _ => none

end Shadow.Rooted.Cell
