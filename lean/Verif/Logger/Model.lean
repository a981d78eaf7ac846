/-!
# The logger of the simulator

Source: `/repo/src/main/core/logger/shadow_logger.rs`.  Any number of threads log records and flush; the logger thread writes; a thread that panics writes too.

Trusted: `ArrayQueue` is a bounded queue and `mpsc` an unbounded channel, both first-in first-out with atomic operations, and the lock of the standard output excludes.
Simplifications: a record is its thread, its level and a number; the buffer of a `BufWriter` holds records and may be written out at any time (`spill`), whole records at a time; a thread panics
outside of the logger only (the hook of the logger thread itself is that of a thread that does nothing else); standard output and standard error are one stream, of which each line says where it belongs.
-/
namespace Shadow.Logger

/-- `ShadowLogRecord` (shadow_logger.rs:380-392).  Level 1 is `Error`, 5 is `Trace`. -/
structure Rec where
  tid : Nat
  level : Nat
  msg : Nat
deriving DecidableEq, Repr

structure Cfg where
  /-- `SYNC_FLUSH_QD_LINES_THRESHOLD`, the size of the queue -/
  cap : Nat
  /-- `ASYNC_FLUSH_QD_LINES_THRESHOLD` -/
  soft : Nat
  report : Bool
  maxLevel : Nat

inductive Line where
  | out (r : Rec)
  | err (r : Rec)
deriving DecidableEq, Repr

/-- Where a thread is in `log` and `flush` (shadow_logger.rs:317-377). -/
inductive TPc where
  | idle
  /-- before `records.push` -/
  | push (r : Rec)
  /-- in the `flush_sync` of the loop: the queue was full -/
  | full (r : Rec)
  /-- after the loop -/
  | pushed (r : Rec)
  /-- in the `flush_sync` of an error or of `flush` -/
  | wait
deriving DecidableEq, Repr

/-- Where a thread is in `flush_records` (shadow_logger.rs:181-246); `c` is the thread to be told. -/
inductive FPc where
  | idle
  /-- the length of the queue was read -/
  | counted (n : Nat) (c : Option Nat)
  /-- has the lock -/
  | writing (n : Nat) (buf : List Rec) (c : Option Nat)
  /-- the logger thread has panicked -/
  | dead
deriving DecidableEq, Repr

/-- The logger thread, or the panic hook of a thread. -/
abbrev Who := Option Nat

structure St where
  q : List Rec := []
  cmds : List (Option Nat) := []
  out : List Line := []
  lock : Option Who := none
  fl : Who → FPc := fun _ => .idle
  th : Nat → TPc := fun _ => .idle
  /-- the answer to the last synchronous flush is there -/
  done : Nat → Bool := fun _ => false
  /-- the sender of the answer was dropped -/
  gone : Nat → Bool := fun _ => false
  buffering : Bool := false
  /-- history: something could not be written -/
  failed : Bool := false
  /-- history: what was put into the queue -/
  hist : List Rec := []
  /-- history: what each thread logged -/
  logged : Nat → List Rec := fun _ => []
  /-- history: how many records were in `hist` when the thread asked for the last flush -/
  since : Nat → Nat := fun _ => 0

def upd {α β : Type} [DecidableEq α] (f : α → β) (a : α) (b : β) : α → β := fun x => if x = a then b else f x

/-- `enabled` (shadow_logger.rs:309-315): the level of the active host, if it has one, else that of the logger. -/
def enabled (cfg : Cfg) (host : Option (Option Nat)) (level : Nat) : Bool :=
  decide (level ≤ match host with
    | some (some l) => l
    | _ => cfg.maxLevel)

/-- `flush_sync` up to the wait (shadow_logger.rs:279-283): a new channel for the answer, and the command. -/
def St.ask (s : St) (t : Nat) : St :=
  { s with cmds := s.cmds ++ [some t], done := upd s.done t false, gone := upd s.gone t false, since := upd s.since t s.hist.length }

inductive Act where
  | log (t : Nat) (r : Rec) (host : Option (Option Nat))
  | push (t : Nat)
  | decide (t : Nat)
  | flush (t : Nat)
  | resume (t : Nat)
  | setBuffering (b : Bool)
  | recv
  | timeout
  | panic (t : Nat)
  | lock (f : Who)
  | pop (f : Who)
  | spill (f : Who) (k : Nat)
  | finish (f : Who)
  | fail (f : Who)
deriving DecidableEq, Repr

/-- The answer to the thread that waits (shadow_logger.rs:233-243). -/
def St.answer (s : St) : Option Nat → St
  | none => s
  | some t => { s with done := upd s.done t true }

/-- The sender of the answer is dropped without an answer. -/
def St.drop (s : St) : Option Nat → St
  | none => s
  | some t => { s with gone := upd s.gone t true }

def step (cfg : Cfg) (s : St) : Act → Option St
  /- `log` (shadow_logger.rs:317-343) -/
  | .log t r host =>
    if s.th t = .idle ∧ s.fl (some t) = .idle ∧ r.tid = t then
      if enabled cfg host r.level then some { s with th := upd s.th t (.push r), logged := upd s.logged t (s.logged t ++ [r]) }
      else some s
    else none
  /- the loop (shadow_logger.rs:345-354) -/
  | .push t => match s.th t with
    | .push r =>
      if s.q.length < cfg.cap then some { s with q := s.q ++ [r], hist := s.hist ++ [r], th := upd s.th t (.pushed r) }
      else some { s.ask t with th := upd s.th t (.full r) }
    | _ => none
  /- whether to flush (shadow_logger.rs:356-369) -/
  | .decide t => match s.th t with
    | .pushed r =>
      if r.level = 1 then some { s.ask t with th := upd s.th t .wait }
      else if s.q.length > cfg.soft || !s.buffering then some { s with cmds := s.cmds ++ [none], th := upd s.th t .idle }
      else some { s with th := upd s.th t .idle }
    | _ => none
  /- `flush` (shadow_logger.rs:372-374) -/
  | .flush t => if s.th t = .idle ∧ s.fl (some t) = .idle then some { s.ask t with th := upd s.th t .wait } else none
  /- `done_receiver.recv().unwrap()` (shadow_logger.rs:283): a dropped sender is a panic, which runs the hook -/
  | .resume t =>
    if s.done t then match s.th t with
      | .full r => some { s with th := upd s.th t (.push r) }
      | .wait => some { s with th := upd s.th t .idle }
      | _ => none
    else if s.gone t then match s.th t with
      | .full _ => some { s with th := upd s.th t .idle, fl := upd s.fl (some t) (.counted s.q.length none) }
      | .wait => some { s with th := upd s.th t .idle, fl := upd s.fl (some t) (.counted s.q.length none) }
      | _ => none
    else none
  | .setBuffering b => some { s with buffering := b }
  /- `logger_thread_fn` (shadow_logger.rs:161-175) and the reading of the length (shadow_logger.rs:189) -/
  | .recv => match s.fl none, s.cmds with
    | .idle, c :: cs => some { s with cmds := cs, fl := upd s.fl none (.counted s.q.length c) }
    | _, _ => none
  | .timeout => if s.fl none = .idle then some { s with fl := upd s.fl none (.counted s.q.length none) } else none
  /- the panic hook (shadow_logger.rs:52-61) -/
  | .panic t => if s.th t = .idle ∧ s.fl (some t) = .idle then some { s with fl := upd s.fl (some t) (.counted s.q.length none) } else none
  /- the lock (shadow_logger.rs:191-193) -/
  | .lock f => match s.lock, s.fl f with
    | none, .counted n c => some { s with lock := some f, fl := upd s.fl f (.writing n [] c) }
    | _, _ => none
  /- one turn of the loop (shadow_logger.rs:195-227) -/
  | .pop f => match s.fl f with
    | .writing (n + 1) buf c => match s.q with
      | [] => some { s with fl := upd s.fl f (.writing 0 buf c) }
      | r :: q =>
        if r.level ≤ 1 && cfg.report then
          some { s with q := q, out := s.out ++ (buf ++ [r]).map Line.out ++ [.err r], fl := upd s.fl f (.writing n [] c) }
        else some { s with q := q, fl := upd s.fl f (.writing n (buf ++ [r]) c) }
    | _ => none
  /- the buffer writes what it cannot hold -/
  | .spill f k => match s.fl f with
    | .writing n buf c => some { s with out := s.out ++ (buf.take k).map Line.out, fl := upd s.fl f (.writing n (buf.drop k) c) }
    | _ => none
  /- the end (shadow_logger.rs:229-246) -/
  | .finish f => match s.fl f with
    | .writing 0 buf c => some ({ s with out := s.out ++ buf.map Line.out, fl := upd s.fl f .idle, lock := none }.answer c)
    | _ => none
  /- an error of a write: `?` drops the buffer and the sender; the logger thread unwraps the error, the hook ignores it -/
  | .fail f => match s.fl f with
    | .writing _ _ c => some ({ s with fl := upd s.fl f (if f = none then .dead else .idle), lock := none, failed := true }.drop c)
    | _ => none

def init : St := {}

end Shadow.Logger
