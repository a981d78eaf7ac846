import Verif.Base.Panic

/-!
# Model of the self-contained channel

Source: `/repo/src/lib/vasi-sync/src/scchannel.rs`.

One writer, one receiver and any number of threads that close the writer. Every access to the atomic word, to the message and
every futex call is one step; the steps of the threads interleave in any way. Accesses to the word are sequentially consistent
(it is a single location, so its accesses are totally ordered under any of the orderings used). `fetch_update` is the loop of
the standard library: a load, then weak compare-and-exchanges that may fail for no reason, with the closure (and the assertion
in it) evaluated on every value read. A futex wait may end for no reason (`EINTR`).
-/
namespace Shadow.Channel

open Shadow.Base

/-- scchannel.rs:8-15. -/
inductive Contents
  | empty
  | writing
  | ready
  | reading
deriving Repr, DecidableEq

/-- scchannel.rs:38-44. -/
structure Word where
  closed : Bool
  sleeper : Bool
  contents : Contents
deriving Repr, DecidableEq

def Contents.code : Contents → Nat
  | .empty => 0
  | .writing => 1
  | .ready => 2
  | .reading => 3

/-- scchannel.rs:17-31; a bad value panics. -/
def Contents.parse : Nat → R Contents
  | 0 => .ok .empty
  | 1 => .ok .writing
  | 2 => .ok .ready
  | 3 => .ok .reading
  | _ => .panic

/-- scchannel.rs:33-36, 58-68. -/
def Word.encode (w : Word) : Nat := (if w.closed then 0x1 <<< 9 else 0) ||| (if w.sleeper then 0x1 <<< 10 else 0) ||| w.contents.code

/-- scchannel.rs:46-56. -/
def Word.decode (n : Nat) : R Word := do
  let c ← Contents.parse (n &&& 0xff)
  return ⟨n &&& (0x1 <<< 9) != 0, n &&& (0x1 <<< 10) != 0, c⟩

/-- Where the writer is (`send`, scchannel.rs:182-210). `…Cas` has loaded a value of the word. -/
inductive WPc (M : Type)
  | idle
  | claim (m : M)
  | claimCas (m : M) (w : Word)
  | write (m : M)
  | publish
  | publishCas (w : Word)
  | wake
deriving Repr, DecidableEq

/-- Where the receiver is (`receive`, scchannel.rs:219-294). -/
inductive RPc (M : Type)
  | idle
  | load
  | mark (w : Word)
  | wait (w : Word)
  | asleep
  | clear
  | clearCas (w : Word)
  | take
  | takeCas (w : Word)
  | read
  | done (m : M)
  | doneCas (m : M) (w : Word)
deriving Repr, DecidableEq

/-- Where a closing thread is (`close_writer`, scchannel.rs:302-317). -/
inductive CPc
  | idle
  | load
  | cas (w : Word)
  | wake
deriving Repr, DecidableEq

/-- The channel (scchannel.rs:164-169) and its users. `sent`, `received` record the messages of the calls of `send` and of
    the successful calls of `receive`, `errors` counts the other ones, `closing` whether `close_writer` was called. -/
structure St (M : Type) where
  word : Word
  cell : Option M
  w : WPc M
  r : RPc M
  c : Nat → CPc
  sent : List M
  received : List M
  errors : Nat
  closing : Bool

variable {M : Type}

/-- scchannel.rs:172-177. -/
def St.init : St M := ⟨⟨false, false, .empty⟩, none, .idle, .idle, fun _ => .idle, [], [], 0, false⟩

/-- `futex_wake_one`: only the receiver ever waits. -/
def wakeOne : RPc M → RPc M
  | .asleep => .clear
  | r => r

/-- scchannel.rs:183-193: the value read, and the assertion on it. -/
def claimRead (s : St M) (m : M) : R (St M) := do
  R.assert (decide (s.word.contents = .empty))
  return { s with w := .claimCas m s.word }

/-- scchannel.rs:195-206. -/
def publishRead (s : St M) : R (St M) := do
  R.assert (decide (s.word.contents = .writing))
  return { s with w := .publishCas s.word }

/-- The steps of `send`, scchannel.rs:182-210. -/
def wstep (s : St M) : Option (R (St M)) :=
  match s.w with
  | .idle => none
  | .claim m => some (claimRead s m)
  | .claimCas m w =>
    some (if s.word = w then .ok { s with word := { w with contents := .writing }, w := .write m } else claimRead s m)
  | .write m => some (.ok { s with cell := some m, w := .publish })
  | .publish => some (publishRead s)
  | .publishCas w =>
    some (if s.word = w then .ok { s with word := { w with contents := .ready }, w := if w.sleeper then .wake else .idle }
      else publishRead s)
  | .wake => some (.ok { s with w := .idle, r := wakeOne s.r })

/-- A compare-and-exchange of the writer fails for no reason. -/
def wspur (s : St M) : Option (R (St M)) :=
  match s.w with
  | .claimCas m _ => some (claimRead s m)
  | .publishCas _ => some (publishRead s)
  | _ => none

/-- scchannel.rs:221-247: the loop with the value `w`. -/
def enter (s : St M) (w : Word) : R (St M) :=
  if w.contents = .ready then .ok { s with r := .take }
  else if w.closed then .ok { s with r := .idle, errors := s.errors + 1 }
  else do
    R.assert (decide (w.contents = .empty ∨ w.contents = .writing))
    R.assert (!w.sleeper)
    return { s with r := .mark w }

/-- scchannel.rs:270-280. -/
def takeRead (s : St M) : R (St M) := do
  R.assert (decide (s.word.contents = .ready))
  return { s with r := .takeCas s.word }

/-- scchannel.rs:282-292. -/
def doneRead (s : St M) (m : M) : R (St M) := do
  R.assert (decide (s.word.contents = .reading))
  return { s with r := .doneCas m s.word }

/-- The steps of `receive`, scchannel.rs:219-294. -/
def rstep (s : St M) : Option (R (St M)) :=
  match s.r with
  | .idle => none
  | .load => some (enter s s.word)
  | .mark w =>
    some (if s.word = w then .ok { s with word := { w with sleeper := true }, r := .wait { w with sleeper := true } } else enter s s.word)
  | .wait w => some (.ok { s with r := if s.word = w then .asleep else .clear })
  | .asleep => none
  | .clear => some (.ok { s with r := .clearCas s.word })
  | .clearCas w =>
    some (if s.word = w then enter { s with word := { w with sleeper := false } } { w with sleeper := false }
      else .ok { s with r := .clearCas s.word })
  | .take => some (takeRead s)
  | .takeCas w => some (if s.word = w then .ok { s with word := { w with contents := .reading }, r := .read } else takeRead s)
  | .read => some (do
      let m ← R.unwrap s.cell
      return { s with r := .done m })
  | .done m => some (doneRead s m)
  | .doneCas m w =>
    some (if s.word = w then .ok { s with word := { w with contents := .empty }, r := .idle, received := s.received ++ [m] } else doneRead s m)

/-- A compare-and-exchange of the receiver fails, or its wait ends, for no reason. -/
def rspur (s : St M) : Option (R (St M)) :=
  match s.r with
  | .wait _ => some (.ok { s with r := .clear })
  | .asleep => some (.ok { s with r := .clear })
  | .clearCas _ => some (.ok { s with r := .clearCas s.word })
  | .takeCas _ => some (takeRead s)
  | .doneCas m _ => some (doneRead s m)
  | _ => none

def setC (c : Nat → CPc) (i : Nat) (p : CPc) : Nat → CPc := fun j => if j = i then p else c j

/-- The steps of `close_writer` in thread `i`, scchannel.rs:302-317. -/
def cstep (s : St M) (i : Nat) : Option (R (St M)) :=
  match s.c i with
  | .idle => none
  | .load => some (.ok { s with c := setC s.c i (.cas s.word) })
  | .cas w =>
    some (.ok (if s.word = w then { s with word := { w with closed := true }, c := setC s.c i (if w.sleeper then .wake else .idle) }
      else { s with c := setC s.c i (.cas s.word) }))
  | .wake => some (.ok { s with c := setC s.c i .idle, r := wakeOne s.r })

def cspur (s : St M) (i : Nat) : Option (R (St M)) :=
  match s.c i with
  | .cas _ => some (.ok { s with c := setC s.c i (.cas s.word) })
  | _ => none

inductive Act (M : Type)
  | send (m : M)
  | w
  | wspur
  | receive
  | r
  | rspur
  | close (i : Nat)
  | c (i : Nat)
  | cspur (i : Nat)
deriving Repr, DecidableEq

/-- One step; `none` if it is not possible now. -/
def step (s : St M) : Act M → Option (R (St M))
  | .send m =>
    match s.w with
    | .idle => some (.ok { s with w := .claim m, sent := s.sent ++ [m] })
    | _ => none
  | .w => wstep s
  | .wspur => wspur s
  | .receive =>
    match s.r with
    | .idle => some (.ok { s with r := .load })
    | _ => none
  | .r => rstep s
  | .rspur => rspur s
  | .close i =>
    match s.c i with
    | .idle => some (.ok { s with c := setC s.c i .load, closing := true })
    | _ => none
  | .c i => cstep s i
  | .cspur i => cspur s i

/-- scchannel.rs:319-324, `writer_is_closed`. -/
def St.writerIsClosed (s : St M) : Bool := s.word.closed

/-- scchannel.rs:330-344: the message destroyed when the channel is dropped. -/
def St.dropped (s : St M) : Option M := if s.word.contents = .ready then s.cell else none

end Shadow.Channel
