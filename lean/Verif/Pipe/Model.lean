import Verif.ByteQueue.Model

/-!
# Model of the shared buffer and of pipes

Sources: `/repo/src/main/host/descriptor/shared_buf.rs`, `/repo/src/main/host/descriptor/pipe.rs`,
`/repo/src/main/utility/callback_queue.rs`, `/repo/src/main/host/syscall/handler/unistd.rs` (`pipe_helper`).

A world is one buffer and the two ends that `pipe2` makes. The buffer emits events; the callback queue runs
them, in order, after the call that emitted them has returned. An event remembers which ends listened when it was
emitted. Simplifications: the listeners of the pipe files themselves are not modelled (only the state that they are
told); a `u16` count of readers and writers is a natural number; the sum of the lengths of the ranges of a call
does not overflow.
-/
namespace Shadow.Pipe

open Shadow.Base
open Shadow.ByteQueue

variable {α : Type}

/-- shared_buf.rs:255-267, `BufferState`. -/
structure BState where
  readable : Bool
  writable : Bool
  noReaders : Bool
  noWriters : Bool
deriving Repr, DecidableEq

/-- The bits in which two states differ (`^`). -/
def BState.diff (a b : BState) : BState :=
  ⟨a.readable != b.readable, a.writable != b.writable, a.noReaders != b.noReaders, a.noWriters != b.noWriters⟩

def BState.isEmpty (a : BState) : Bool := !a.readable && !a.writable && !a.noReaders && !a.noWriters

/-- shared_buf.rs:9-16, `SharedBuf`. -/
structure Buf (α : Type) where
  queue : Queue α
  maxLen : Nat
  state : BState
  readers : Nat
  writers : Nat
deriving Repr, DecidableEq

/-- An event of the buffer: state, changed bits, and whether `BUFFER_GREW` is signalled. -/
structure Ev where
  state : BState
  changed : BState
  grew : Bool
deriving Repr, DecidableEq

/-- shared_buf.rs:19-29, `new`. -/
def Buf.new (maxLen : Nat) : R (Buf α) := do
  R.assert (decide (maxLen ≠ 0))
  return ⟨Queue.new 4096, maxLen, ⟨false, true, true, true⟩, 0, 0⟩

/-- shared_buf.rs:31-33. -/
def Buf.hasData (b : Buf α) : Bool := b.queue.hasChunks

/-- shared_buf.rs:39-41; the subtraction of unsigned numbers must not go below zero. -/
def Buf.space (b : Buf α) : R Nat := do
  R.assert (decide (b.queue.numBytes ≤ b.maxLen))
  return b.maxLen - b.queue.numBytes

/-- shared_buf.rs:186-233, `refresh_state` with `update_state` and `handle_state_change`. -/
def Buf.refresh (b : Buf α) (grew : Bool) : R (Buf α × List Ev) := do
  let space ← b.space
  let s : BState := ⟨b.hasData, decide (space > 0), decide (b.readers = 0), decide (b.writers = 0)⟩
  let changed := s.diff b.state
  return ({ b with state := s }, if changed.isEmpty && !grew then [] else [⟨s, changed, grew⟩])

/-- shared_buf.rs:45-49, `add_reader`. -/
def Buf.addReader (b : Buf α) : R (Buf α × List Ev) := Buf.refresh { b with readers := b.readers + 1 } false

/-- shared_buf.rs:51-56, `remove_reader`. -/
def Buf.removeReader (b : Buf α) : R (Buf α × List Ev) := do
  R.assert (decide (0 < b.readers))
  Buf.refresh { b with readers := b.readers - 1 } false

/-- shared_buf.rs:64-68, `add_writer`. -/
def Buf.addWriter (b : Buf α) : R (Buf α × List Ev) := Buf.refresh { b with writers := b.writers + 1 } false

/-- shared_buf.rs:70-75, `remove_writer`. -/
def Buf.removeWriter (b : Buf α) : R (Buf α × List Ev) := do
  R.assert (decide (0 < b.writers))
  Buf.refresh { b with writers := b.writers - 1 } false

/-- The errors of the calls. -/
inductive Errno where
  | espipe
  | ebadf
  | epipe
  | eagain
  | emsgsize
  | efault
deriving Repr, DecidableEq

/-- What `SharedBuf::read` did: the buffer, the bytes that went to the caller's memory, the result (number of bytes
    copied), the events. -/
structure ReadRes (α : Type) where
  buf : Buf α
  out : List α
  res : Except Errno Nat
  evs : List Ev

/-- shared_buf.rs:91-105, `read`, into user memory. An error leaves the state flags as they are. -/
def Buf.read (b : Buf α) (dst : List (List Bool)) : R (ReadRes α) := do
  let g ← b.queue.pop iovWriter dst
  match g.res with
  | .err => return ⟨{ b with queue := g.queue }, g.out, .error .efault, []⟩
  | .wouldBlock => return ⟨{ b with queue := g.queue }, g.out, .error .eagain, []⟩
  | .none => do
    let r ← Buf.refresh { b with queue := g.queue } false
    return ⟨r.1, g.out, .ok 0, r.2⟩
  | .some copied _ _ => do
    let r ← Buf.refresh { b with queue := g.queue } false
    return ⟨r.1, g.out, .ok copied, r.2⟩

/-- What a write did: the buffer, the memory left to read, the result, the events. -/
structure WriteRes (α : Type) where
  buf : Buf α
  src : List (Src α)
  res : Except Errno Nat
  evs : List Ev

/-- shared_buf.rs:107-133, `write_stream`, from user memory. -/
def Buf.writeStream (b : Buf α) (src : List (Src α)) (len : Nat) (unsplit : Nat → Bool) : R (WriteRes α) :=
  if len = 0 then .ok ⟨b, src, .ok 0, []⟩
  else do
    let space ← b.space
    if space = 0 then return ⟨b, src, .error .eagain, []⟩
    else do
      let p ← b.queue.pushStream (takeReader iovReader) unsplit ((src.map List.length).sum + 1) (src, space)
      match p.2.2 with
      | none => return ⟨{ b with queue := p.1 }, p.2.1.1, .error .efault, []⟩
      | some written => do
        let r ← Buf.refresh { b with queue := p.1 } (decide (written > 0))
        return ⟨r.1, p.2.1.1, .ok written, r.2⟩

/-- shared_buf.rs:135-155, `write_packet`, from user memory; the result is the length of the packet. -/
def Buf.writePacket (b : Buf α) (src : List (Src α)) (len : Nat) : R (WriteRes α) :=
  if len > b.maxLen then .ok ⟨b, src, .error .emsgsize, []⟩
  else do
    let space ← b.space
    if len > space then return ⟨b, src, .error .eagain, []⟩
    else
      match b.queue.pushPacket iovReader src len with
      | (q, src', false) => return ⟨{ b with queue := q }, src', .error .efault, []⟩
      | (q, src', true) => do
        let r ← Buf.refresh { b with queue := q } true
        return ⟨r.1, src', .ok len, r.2⟩

/-- pipe.rs:21-34, `Pipe`, without the event source and `has_open_file`. The `buffer`, `listening`, `reader` and
    `writer` fields say whether the options are `Some`; `modeR`, `modeW` are the file mode; `direct` is the status
    flag; `packet` the write mode; the others are bits of the file state. -/
structure End where
  buffer : Bool
  listening : Bool
  reader : Bool
  writer : Bool
  modeR : Bool
  modeW : Bool
  direct : Bool
  packet : Bool
  active : Bool
  readable : Bool
  writable : Bool
  closed : Bool
deriving Repr, DecidableEq

/-- pipe.rs:39-52, `new`. -/
def End.new (modeR modeW direct : Bool) : End :=
  ⟨false, false, false, false, modeR, modeW, direct, false, true, false, false, false⟩

/-- pipe.rs:406-444, `align_state_to_buffer`. -/
def End.align (e : End) (s : BState) : End :=
  if e.closed then e
  else { e with
    readable := if e.modeR then s.readable || s.noWriters else e.readable
    writable := if e.modeW then s.writable || s.noReaders else e.writable }

/-- pipe.rs:325-367 and shared_buf.rs:157-177: the listener that an end adds to the buffer. -/
def End.onEvent (e : End) (ev : Ev) : End :=
  let flipped := (e.modeR && (ev.changed.readable || ev.changed.noWriters)) ||
    (e.modeW && (ev.changed.writable || ev.changed.noReaders))
  if flipped || ev.grew then e.align ev.state else e

/-- pipe.rs:124-165, `readv`. -/
def End.readv (e : End) (b : Buf α) (offset : Bool) (dst : List (List Bool)) : R (ReadRes α) :=
  if offset then .ok ⟨b, [], .error .espipe, []⟩
  else if !e.modeR then .ok ⟨b, [], .error .ebadf, []⟩
  else do
    R.assert e.buffer
    let asked := (dst.map List.length).sum
    let r ← b.read dst
    match r.res with
    | .error x => return { r with res := .error x }
    | .ok copied =>
      if copied = 0 ∧ asked ≠ 0 ∧ r.buf.writers > 0 then return { r with res := .error .eagain }
      else return r

/-- The size of a packet, `libc::PIPE_BUF`. -/
def pipeBuf : Nat := 4096

/-- pipe.rs:210-234: the packets of a write in packet mode, with `left` bytes to write and `written` written. -/
def Buf.writePackets : Nat → Buf α → List (Src α) → Nat → Nat → List Ev → R (WriteRes α)
  | 0, _, _, _, _, _ => .panic
  | fuel + 1, b, src, left, written, evs =>
    if left = 0 then .ok ⟨b, src, .ok written, evs⟩
    else do
      let k := min left pipeBuf
      let r ← b.writePacket src k
      match r.res with
      | .error x => return ⟨r.buf, r.src, if written > 0 then .ok written else .error x, evs ++ r.evs⟩
      | .ok _ => writePackets fuel r.buf r.src (left - k) (written + k) (evs ++ r.evs)

/-- pipe.rs:191-201: the write mode follows the `DIRECT` flag; to packet mode only with an empty buffer. -/
def End.nextMode (e : End) (b : Buf α) : Bool :=
  if e.packet && !e.direct then false
  else if !e.packet && e.direct then (if b.hasData then false else true)
  else e.packet

/-- pipe.rs:203-235: the write in the given mode. -/
def Buf.write (b : Buf α) (packet : Bool) (src : List (Src α)) (unsplit : Nat → Bool) : R (WriteRes α) :=
  let len := (src.map List.length).sum
  if packet then b.writePackets (len + 1) src len 0 [] else b.writeStream src len unsplit

/-- pipe.rs:167-238, `writev`. -/
def End.writev (e : End) (b : Buf α) (offset : Bool) (src : List (Src α)) (unsplit : Nat → Bool) :
    R (End × WriteRes α) :=
  if offset then .ok (e, ⟨b, src, .error .espipe, []⟩)
  else if !e.modeW then .ok (e, ⟨b, src, .error .ebadf, []⟩)
  else do
    R.assert e.buffer
    if b.readers = 0 then return (e, ⟨b, src, .error .epipe, []⟩)
    else do
      let r ← b.write (e.nextMode b) src unsplit
      return ({ e with packet := e.nextMode b }, r)

/-- The buffer and the two ends. -/
structure World (α : Type) where
  buf : Buf α
  r : End
  w : End
deriving Repr, DecidableEq

/-- Which end a call is made on. -/
inductive Side where
  | r
  | w
deriving Repr, DecidableEq

def World.get (x : World α) : Side → End
  | .r => x.r
  | .w => x.w

def World.set (x : World α) : Side → End → World α
  | .r, e => { x with r := e }
  | .w, e => { x with w := e }

/-- callback_queue.rs:38-52 and 156-161: the callbacks of an event, for the ends that listened. -/
def World.event (x : World α) (lr lw : Bool) (ev : Ev) : World α :=
  { x with r := if lr then x.r.onEvent ev else x.r, w := if lw then x.w.onEvent ev else x.w }

/-- The callbacks of the events of a call, in order. -/
def World.events (x : World α) (lr lw : Bool) : List Ev → World α
  | [] => x
  | ev :: evs => (x.event lr lw ev).events lr lw evs

/-- A call of `readv`. -/
def World.readv (x : World α) (side : Side) (offset : Bool) (dst : List (List Bool)) : R (World α × List α × Except Errno Nat) := do
  let r ← (x.get side).readv x.buf offset dst
  return (({ x with buf := r.buf } : World α).events x.r.listening x.w.listening r.evs, r.out, r.res)

/-- A call of `writev`. -/
def World.writev (x : World α) (side : Side) (offset : Bool) (src : List (Src α)) (unsplit : Nat → Bool) :
    R (World α × Except Errno Nat) := do
  let r ← (x.get side).writev x.buf offset src unsplit
  return ((({ x with buf := r.2.buf } : World α).set side r.1).events x.r.listening x.w.listening r.2.evs, r.2.res)

/-- pipe.rs:58-60, `set_status`, for the flag that matters here. -/
def World.setDirect (x : World α) (side : Side) (d : Bool) : World α := x.set side { x.get side with direct := d }

/-- pipe.rs:93-99: give back the writer handle. -/
def Buf.dropWriter (b : Buf α) (has buffer : Bool) : R (Buf α × List Ev) :=
  if has then do
    R.assert buffer
    b.removeWriter
  else .ok (b, [])

/-- pipe.rs:102-108: give back the reader handle. -/
def Buf.dropReader (b : Buf α) (has buffer : Bool) : R (Buf α × List Ev) :=
  if has then do
    R.assert buffer
    b.removeReader
  else .ok (b, [])

/-- pipe.rs:82-122, `close`. -/
def World.close (x : World α) (side : Side) : R (World α) := do
  let e := x.get side
  let x1 := x.set side { e with listening := false }
  let p ← x1.buf.dropWriter e.writer e.buffer
  let q ← p.1.dropReader e.reader e.buffer
  let e' := { e with listening := false, writer := false, reader := false, buffer := false
                     closed := true, active := false, readable := false, writable := false }
  return (({ x1 with buf := q.1 } : World α).set side e').events x1.r.listening x1.w.listening (p.2 ++ q.2)

/-- pipe.rs:305-313. -/
def Buf.takeWriter (b : Buf α) (mode : Bool) : R (Buf α × List Ev) := if mode then b.addWriter else .ok (b, [])

/-- pipe.rs:315-323. -/
def Buf.takeReader (b : Buf α) (mode : Bool) : R (Buf α × List Ev) := if mode then b.addReader else .ok (b, [])

/-- pipe.rs:295-374, `connect_to_buffer`; the events were emitted before this end listened. -/
def connect (b : Buf α) (e : End) : R (Buf α × End × List Ev) := do
  let p ← b.takeWriter e.modeW
  let q ← p.1.takeReader e.modeR
  let e' := { e with buffer := true, writer := e.modeW, reader := e.modeR, listening := true }
  return (q.1, e'.align q.1.state, p.2 ++ q.2)

/-- unistd.rs:481-495, what `pipe2` makes: the read end is connected first. -/
def World.new (maxLen : Nat) (direct : Bool) : R (World α) := do
  let b ← Buf.new maxLen
  let p ← connect b (End.new true false direct)
  let q ← connect p.1 (End.new false true direct)
  return ((⟨q.1, p.2.1, q.2.1⟩ : World α).events false false p.2.2).events true false q.2.2

end Shadow.Pipe
