/-!
# Model of eventfd

Source: `/repo/src/main/host/descriptor/eventfd.rs`.

* The file state is reduced to the four flags the file uses; a notification of listeners is an
  output (`changed` flags and signals).
* Copying to or from the plugin's memory can fail: the result of the copy is an input
  (`memOk`, `value`).  A failed copy returns EFAULT-like errors and has no other effect here.
-/
namespace Shadow.EventFd

def u64Max : Nat := 18446744073709551615

structure Flags where
  active : Bool
  readable : Bool
  writable : Bool
  closed : Bool
deriving Repr, DecidableEq

/-- eventfd.rs:16-25 (listeners and the open-file bookkeeping are not modelled). -/
structure EventFd where
  counter : Nat
  sem : Bool
  flags : Flags
deriving Repr, DecidableEq

/-- eventfd.rs:28-37, `new`. -/
def EventFd.new (init : Nat) (sem : Bool) : EventFd :=
  ⟨init, sem, ⟨true, false, true, false⟩⟩

inductive Errno where
  | espipe | einval | ewouldblock | efault
deriving Repr, DecidableEq

/-- A call of `notify_listeners`: the flags before and after, and whether the signal
    `READ_BUFFER_GREW` is attached. -/
structure Notify where
  before : Flags
  after : Flags
  grew : Bool
deriving Repr, DecidableEq

/-- The value transferred or the error. -/
inductive Res where
  | ok (v : Nat)
  | err (e : Errno)
deriving Repr, DecidableEq

structure Out where
  /-- the value transferred, or the error -/
  res : Res
  notify : Option Notify
deriving DecidableEq

/-- eventfd.rs:246-283, `update_state` and `handle_state_change`. -/
def setFlags (e : EventFd) (f : Flags) (grew : Bool) : EventFd × Option Notify :=
  ({ e with flags := f }, if f ≠ e.flags ∨ grew then some ⟨e.flags, f, grew⟩ else none)

/-- eventfd.rs:226-244, `refresh_state`. -/
def refresh (e : EventFd) (grew : Bool) : EventFd × Option Notify :=
  if e.flags.closed then (e, none)
  else setFlags e { e.flags with readable := decide (e.counter > 0),
                                 writable := decide (e.counter < u64Max - 1) } grew

/-- eventfd.rs:63-73, `close`. -/
def close (e : EventFd) : EventFd × Option Notify :=
  setFlags e ⟨false, false, false, true⟩ false

/-- eventfd.rs:75-121, `readv` into buffers of `len` bytes in total. -/
def readv (e : EventFd) (offset : Bool) (len : Nat) (memOk : Bool) : EventFd × Out :=
  if offset then (e, ⟨.err .espipe, none⟩)
  else if len < 8 then (e, ⟨.err .einval, none⟩)
  else if e.counter = 0 then (e, ⟨.err .ewouldblock, none⟩)
  else if ¬ memOk then (e, ⟨.err .efault, none⟩)
  else if e.sem then
    let r := refresh { e with counter := e.counter - 1 } false
    (r.1, ⟨.ok 1, r.2⟩)
  else
    let r := refresh { e with counter := 0 } false
    (r.1, ⟨.ok e.counter, r.2⟩)

/-- eventfd.rs:123-179, `writev` from `niov` buffers of `len` bytes in total; `value` is what the
    copy from memory yields. -/
def writev (e : EventFd) (offset : Bool) (len niov : Nat) (value : Option Nat) : EventFd × Out :=
  if offset then (e, ⟨.err .espipe, none⟩)
  else if len < 8 then (e, ⟨.err .einval, none⟩)
  else if niov > 1 then (e, ⟨.err .einval, none⟩)
  else match value with
    | none => (e, ⟨.err .efault, none⟩)
    | some v =>
      if v = u64Max then (e, ⟨.err .einval, none⟩)
      else if v > u64Max - 1 - e.counter then (e, ⟨.err .ewouldblock, none⟩)
      else
        let c := e.counter + v
        let r := refresh { e with counter := c } (decide (c > 0))
        (r.1, ⟨.ok v, r.2⟩)

inductive Op where
  | read (offset : Bool) (len : Nat) (memOk : Bool)
  | write (offset : Bool) (len niov : Nat) (value : Option Nat)
  | close
deriving Repr

/-- The value read and the value written by an operation (0 if none). -/
structure Moved where
  rd : Nat
  wr : Nat

def moved (r : Res) : Nat := match r with
  | .ok v => v
  | .err _ => 0

def step (e : EventFd) : Op → EventFd × Moved
  | .read o l m => let r := readv e o l m; (r.1, ⟨moved r.2.res, 0⟩)
  | .write o l n v => let r := writev e o l n v; (r.1, ⟨0, moved r.2.res⟩)
  | .close => ((close e).1, ⟨0, 0⟩)

/-- Run a history, accumulating the sums of values read and written. -/
def run (e : EventFd) : List Op → EventFd × Moved
  | [] => (e, ⟨0, 0⟩)
  | o :: os =>
    let r := step e o
    let s := run r.1 os
    (s.1, ⟨r.2.rd + s.2.rd, r.2.wr + s.2.wr⟩)

end Shadow.EventFd
