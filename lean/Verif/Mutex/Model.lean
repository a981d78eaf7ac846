import Verif.Base.Panic

/-!
# Model of the self-contained mutex

Source: `/repo/src/lib/vasi-sync/src/scmutex.rs`.

Any number of threads; every operation on the futex word and every futex call is one step, and the steps of the threads
interleave in any way (the word is a single location, its accesses are totally ordered). A futex wait may end for no reason
(`EINTR`). A guard that was disconnected is held by nobody until it is reconnected.
-/
namespace Shadow.Mutex

open Shadow.Base

/-- scmutex.rs:107-112. -/
structure FutexWord where
  lock : Nat
  sleepers : Nat
deriving Repr, DecidableEq

/-- scmutex.rs:114-118, 129-133. -/
def FutexWord.encode (w : FutexWord) : Nat := (w.lock <<< 16) ||| w.sleepers

/-- scmutex.rs:120-127. -/
def decode (v : Nat) : FutexWord := ⟨v >>> 16, v &&& 0xffff⟩

/-- scmutex.rs:153-155. -/
def UNLOCKED : Nat := 0
def LOCKED : Nat := 1
def LOCKED_DISCONNECTED : Nat := 2

/-- `fetch_add`, `fetch_sub` of a 32-bit word. -/
def add32 (v k : Nat) : Nat := (v + k) % 4294967296
def sub32 (v k : Nat) : Nat := (v + 4294967296 - k) % 4294967296

/-- Where a thread is. In `lock` (scmutex.rs:180-253): `cas` tries to take the lock, `inc` joins the sleepers, `wait` calls the
    futex, `load` reads the word again, `dec` leaves the sleepers. `wake` is in `unlock` (261-269), `recas` in `reconnect`
    (303-334). -/
inductive Pc
  | idle
  | cas (c : FutexWord)
  | inc
  | wait (c : FutexWord)
  | load
  | asleep
  | dec
  | held
  | wake
  | recas (c : FutexWord)
deriving Repr, DecidableEq

/-- The word and the threads. The counters record the calls of `disconnect`, those of `reconnect`, and how many of these are done. -/
structure St where
  word : Nat
  ts : List Pc
  disconnects : Nat
  reconnects : Nat
  reconnected : Nat
deriving Repr, DecidableEq

/-- scmutex.rs:157-178, with `n` threads that will use it. -/
def St.init (n : Nat) : St := ⟨(⟨UNLOCKED, 0⟩ : FutexWord).encode, List.replicate n .idle, 0, 0, 0⟩

def St.set (s : St) (i : Nat) (p : Pc) : St := { s with ts := s.ts.set i p }

/-- scmutex.rs:186-212: the head of the outer loop, with the value just read. -/
def outer (c : FutexWord) : Pc := if c.lock = UNLOCKED then .cas c else .inc

/-- scmutex.rs:219-224: the head of the inner loop. -/
def inner (c : FutexWord) : Pc := if c.lock = UNLOCKED then .dec else .wait c

/-- scmutex.rs:22-35, `inc_sleepers_and_fetch`. -/
def incSleepers (v : Nat) : R (Nat × FutexWord) := do
  let prev := decode v
  R.assert (decide (prev.sleepers + 1 < 65536))
  return (add32 v 1, ⟨prev.lock, prev.sleepers + 1⟩)

/-- scmutex.rs:37-52, `dec_sleepers_and_fetch`. -/
def decSleepers (v : Nat) : R (Nat × FutexWord) := do
  let prev := decode v
  R.assert (decide (1 ≤ prev.sleepers))
  return (sub32 v 1, ⟨prev.lock, prev.sleepers - 1⟩)

/-- scmutex.rs:54-70, `unlock_and_fetch`. -/
def unlockFetch (v : Nat) : R (Nat × FutexWord) := do
  let prev := decode v
  R.assert (decide (prev.lock = LOCKED))
  return (sub32 v (⟨LOCKED, 0⟩ : FutexWord).encode, ⟨UNLOCKED, prev.sleepers⟩)

/-- scmutex.rs:72-87, `disconnect`. -/
def disconnectWord (v : Nat) : R Nat := do
  let prev := decode v
  R.assert (decide (prev.lock = LOCKED))
  return add32 v (⟨LOCKED_DISCONNECTED - LOCKED, 0⟩ : FutexWord).encode

inductive Act
  | lock (i : Nat)
  | unlock (i : Nat)
  | disconnect (i : Nat)
  | reconnect (i : Nat)
  /-- the next step of thread `i` -/
  | run (i : Nat)
  /-- the wait of thread `i` ends for no reason -/
  | intr (i : Nat)
  /-- thread `i` wakes up thread `j`, if any thread sleeps -/
  | wake (i j : Nat)
deriving Repr, DecidableEq

/-- One step of a thread inside of `lock` or `reconnect`. -/
def run (s : St) (i : Nat) : Pc → Option (R St)
  -- scmutex.rs:187-212
  | .cas c =>
    if s.word = c.encode then some (.ok { s with word := (⟨LOCKED, c.sleepers⟩ : FutexWord).encode, ts := s.ts.set i .held })
    else some (.ok (s.set i (outer (decode s.word))))
  -- scmutex.rs:218
  | .inc => some (do
      let r ← incSleepers s.word
      return { s with word := r.1, ts := s.ts.set i (inner r.2) })
  -- scmutex.rs:225-242
  | .wait c => some (.ok (s.set i (if s.word = c.encode then .asleep else .load)))
  | .load => some (.ok (s.set i (inner (decode s.word))))
  -- scmutex.rs:246
  | .dec => some (do
      let r ← decSleepers s.word
      return { s with word := r.1, ts := s.ts.set i (outer r.2) })
  -- scmutex.rs:308-333
  | .recas c =>
    if s.word = c.encode then
      some (.ok { s with word := (⟨LOCKED, c.sleepers⟩ : FutexWord).encode, ts := s.ts.set i .held, reconnected := s.reconnected + 1 })
    else some (do
      R.assert (decide ((decode s.word).lock = LOCKED_DISCONNECTED))
      return s.set i (.recas (decode s.word)))
  | _ => none

/-- One step; `none` if it is not possible now. -/
def step (s : St) : Act → Option (R St)
  -- scmutex.rs:180-185
  | .lock i => if s.ts[i]? = some .idle then some (.ok (s.set i (.cas ⟨UNLOCKED, 0⟩))) else none
  -- scmutex.rs:261-269, called when the guard is dropped, 357-366
  | .unlock i =>
    if s.ts[i]? = some .held then some (do
      let r ← unlockFetch s.word
      return { s with word := r.1, ts := s.ts.set i (if r.2.sleepers > 0 then .wake else .idle) })
    else none
  -- scmutex.rs:286-293
  | .disconnect i =>
    if s.ts[i]? = some .held then some (do
      let v ← disconnectWord s.word
      return { s with word := v, ts := s.ts.set i .idle, disconnects := s.disconnects + 1 })
    else none
  -- scmutex.rs:303-307
  | .reconnect i =>
    if s.ts[i]? = some .idle then some (.ok { s with ts := s.ts.set i (.recas ⟨LOCKED_DISCONNECTED, 0⟩), reconnects := s.reconnects + 1 }) else none
  | .run i => match s.ts[i]? with
    | some p => run s i p
    | none => none
  | .intr i => match s.ts[i]? with
    | some (.wait _) => some (.ok (s.set i .dec))
    | some .asleep => some (.ok (s.set i .dec))
    | _ => none
  -- scmutex.rs:266-268
  | .wake i j =>
    if s.ts[i]? = some .wake then
      if s.ts[j]? = some .asleep then some (.ok ((s.set i .idle).set j .dec))
      else if .asleep ∈ s.ts then none
      else some (.ok (s.set i .idle))
    else none

end Shadow.Mutex
