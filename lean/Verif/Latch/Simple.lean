import Verif.Base.Panic
import Verif.Base.Count

/-!
# Model of the simple latch

Source: `/repo/src/lib/scheduler/src/sync/simple_latch.rs`.

One owner opens the latch, any number of waiters wait, each on a thread of its own. Every operation on the generation and every
futex call is one step; a futex wait may end for no reason.
-/
namespace Shadow.Latch.Simple

open Shadow.Base

def M : Nat := 4294967296

/-- Where a waiter is: `out` of `wait`, at the `load` at the head of the loop, calling the futex, asleep, or dropped. -/
inductive Pc
  | out
  | load
  | wait (v : Nat)
  | asleep
  | gone
deriving Repr, DecidableEq

/-- simple_latch.rs:26-37. `passed` counts the calls of `wait` that returned, with those of the waiter it was cloned from and
    with the generations that were over when it was made. -/
structure Waiter where
  gen : Nat
  spin : Bool
  passed : Nat
  pc : Pc
deriving Repr, DecidableEq

/-- simple_latch.rs:20-24. `opens` counts the calls of `open`, `waking` tells that one of them has not called the futex yet. -/
structure St where
  gen : Nat
  opens : Nat
  waking : Bool
  ws : List Waiter
deriving Repr, DecidableEq

/-- simple_latch.rs:40-45. -/
def St.init : St := ⟨0, 0, false, []⟩

inductive Act
  | open
  | wakeAll
  | waiter (spin : Bool)
  | clone (i : Nat)
  | drop (i : Nat)
  | wait (i : Nat)
  /-- the next step of waiter `i` -/
  | run (i : Nat)
  /-- the futex wait of waiter `i` ends for no reason -/
  | intr (i : Nat)
deriving Repr, DecidableEq

def St.put (s : St) (i : Nat) (w : Waiter) : St := { s with ws := s.ws.set i w }

/-- simple_latch.rs:94-124: one round of the loop of `wait`, up to the futex call. -/
def look (latch : Nat) (w : Waiter) : R Waiter :=
  let d := (latch + M - w.gen) % M
  -- simple_latch.rs:127
  if d = 1 then .ok { w with gen := (w.gen + 1) % M, passed := w.passed + 1, pc := .out }
  else if d = 0 then .ok { w with pc := if w.spin then .load else .wait latch }
  else .panic

/-- A waiter after the futex was woken. -/
def Waiter.woken (w : Waiter) : Waiter := if w.pc = .asleep then { w with pc := .load } else w

/-- One step; `none` if it is not possible now. -/
def step (s : St) : Act → Option (R St)
  -- simple_latch.rs:65-67
  | .open => if s.waking then none else some (.ok { s with gen := (s.gen + 1) % M, opens := s.opens + 1, waking := true })
  -- simple_latch.rs:69-80
  | .wakeAll => if s.waking then some (.ok { s with waking := false, ws := s.ws.map Waiter.woken }) else none
  -- simple_latch.rs:54-62; it needs the latch exclusively
  | .waiter spin => if s.waking then none else some (.ok { s with ws := s.ws ++ [⟨s.gen, spin, s.opens, .out⟩] })
  -- simple_latch.rs:29, derived
  | .clone i => match s.ws[i]? with
    | some w => if w.pc = .out then some (.ok { s with ws := s.ws ++ [w] }) else none
    | none => none
  | .drop i => match s.ws[i]? with
    | some w => if w.pc = .out then some (.ok (s.put i { w with pc := .gone })) else none
    | none => none
  -- simple_latch.rs:92
  | .wait i => match s.ws[i]? with
    | some w => if w.pc = .out then some (.ok (s.put i { w with pc := .load })) else none
    | none => none
  | .run i => match s.ws[i]? with
    | some w => match w.pc with
      | .load => some (do
          let w' ← look s.gen w
          return s.put i w')
      -- simple_latch.rs:105-117
      | .wait v => some (.ok (s.put i { w with pc := if s.gen = v then .asleep else .load }))
      | _ => none
    | none => none
  | .intr i => match s.ws[i]? with
    | some w => match w.pc with
      | .wait _ | .asleep => some (.ok (s.put i { w with pc := .load }))
      | _ => none
    | none => none

end Shadow.Latch.Simple
