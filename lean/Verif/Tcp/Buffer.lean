import Verif.Base.Panic
import Verif.Tcp.Seq

/-!
# Model of the TCP send and receive queues

Source: `/repo/src/lib/tcp/src/buffer.rs`.

* `Bytes` is a list of bytes (sharing of the underlying allocation is not visible to callers).
* `time_last_segment_sent` is written but never read in the library and is left out.
* Conversions between `usize` and `u32` of chunk lengths are exact: chunks that enter the queues
  have fewer than `2^32` bytes (`addData` makes chunks of at most 10000 bytes; received chunks are
  parts of a packet).
-/
namespace Shadow.Tcp

open Shadow.Base

abbrev Byte := UInt8

/-- buffer.rs:336-341, `Segment`. -/
inductive Segment where
  | data (d : List Byte)
  | syn
  | fin
deriving Repr, DecidableEq

/-- buffer.rs:343-350. -/
def Segment.len : Segment → Nat
  | .data d => d.length
  | .syn => 1
  | .fin => 1

/-- buffer.rs:9-21, `SendQueue`; `unused` is the length of the spare allocation. -/
structure SendQueue where
  segments : List Segment
  transmittedUpTo : Nat
  startSeq : Nat
  endSeq : Nat
  finAdded : Bool
  unused : Nat
deriving Repr, DecidableEq

namespace SendQueue

/-- buffer.rs:99-112, `add_segment`. -/
def addSegment (q : SendQueue) (seg : Segment) : R SendQueue := do
  R.assert (!q.finAdded)
  let q := if seg = .fin then { q with finAdded := true } else q
  if seg.len = 0 then return q
  return { q with endSeq := Seq.add q.endSeq seg.len, segments := q.segments ++ [seg] }

/-- buffer.rs:24-42, `new` and `add_syn`: the queue starts with the SYN. -/
def new (initial : Nat) : SendQueue :=
  ⟨[.syn], initial, initial, Seq.add initial 1, false, 0⟩

/-- buffer.rs:44-46, `add_fin`. -/
def addFin (q : SendQueue) : R SendQueue := q.addSegment .fin

/-- buffer.rs:58-87, the loop of `add_data`.  `src` is what the reader still has to give;
    `read_exact` fails when it has too little.  The flag tells whether all was read.  The fuel is
    the number of bytes to read (each turn reads at least one). -/
def addDataLoop : Nat → SendQueue → List Byte → Nat → R (SendQueue × Bool)
  | _, q, _, 0 => return (q, true)
  | 0, _, _, _ + 1 => R.panic
  | fuel + 1, q, src, len + 1 => do
    let u := if q.unused = 0 then max (min (len + 1) 10000) 2000 else q.unused
    let toRead := min (len + 1) u
    let q := { q with unused := u - toRead }
    if src.length < toRead then return (q, false)
    let q ← q.addSegment (.data (src.take toRead))
    addDataLoop fuel q (src.drop toRead) (len + 1 - toRead)

/-- buffer.rs:48-97, `add_data`. -/
def addData (q : SendQueue) (src : List Byte) (len : Nat) : R (SendQueue × Bool) :=
  addDataLoop len q src len

/-- buffer.rs:122-124, `contains`. -/
def contains (q : SendQueue) (s : Nat) : Bool := SeqRange.contains ⟨q.startSeq, q.endSeq⟩ s

/-- buffer.rs:126-128, `len`. -/
def len (q : SendQueue) : Nat := Seq.sub q.endSeq q.startSeq

/-- buffer.rs:133-158, the loop of `advance_start`. -/
def advanceLoop : List Segment → Nat → Nat → R (List Segment × Nat)
  | segs, start, newStart =>
    if start = newStart then .ok (segs, start)
    else match segs with
      | [] => R.panic
      | front :: rest =>
        if front.len ≤ Seq.sub newStart start then advanceLoop rest (Seq.add start front.len) newStart
        else match front with
          | .data d => do
            let by_ := Seq.sub newStart start
            R.assert (!(d.drop by_).isEmpty)
            -- the next turn of the loop ends it, since `start + by_ = newStart`
            return (.data (d.drop by_) :: rest, Seq.add start by_)
          | _ => R.panic

/-- buffer.rs:130-159, `advance_start`. -/
def advanceStart (q : SendQueue) (newStart : Nat) : R SendQueue := do
  R.assert (q.contains newStart || newStart == q.endSeq)
  let r ← advanceLoop q.segments q.startSeq newStart
  return { q with segments := r.1, startSeq := r.2 }

/-- buffer.rs:173-199, the loop of `next_not_transmitted`. -/
def findSegment : List Segment → Nat → Nat → R Segment
  | [], _, _ => R.panic
  | seg :: rest, cursor, target =>
    if SeqRange.contains ⟨cursor, Seq.add cursor seg.len⟩ target then
      match seg with
      | .data d => .ok (.data (d.drop (Seq.sub target cursor)))
      | s => .ok s
    else findSegment rest (Seq.add cursor seg.len) target

/-- buffer.rs:161-200, `next_not_transmitted`. -/
def nextNotTransmitted (q : SendQueue) (offset : Nat) : R (Option (Nat × Segment)) := do
  let target := Seq.add q.transmittedUpTo offset
  if q.contains target then
    let seg ← findSegment q.segments q.startSeq target
    return some (target, seg)
  else return none

/-- buffer.rs:202-210, `mark_as_transmitted`. -/
def markAsTransmitted (q : SendQueue) (upTo : Nat) : R SendQueue := do
  R.assert (q.contains upTo || upTo == q.endSeq)
  return { q with transmittedUpTo := upTo }

end SendQueue

/-- buffer.rs:213-222, `RecvQueue`. -/
structure RecvQueue where
  segments : List (List Byte)
  startSeq : Nat
  endSeq : Nat
  synAdded : Bool
  finAdded : Bool
deriving Repr, DecidableEq

namespace RecvQueue

/-- buffer.rs:225-233. -/
def new (initial : Nat) : RecvQueue := ⟨[], initial, initial, false, false⟩

/-- buffer.rs:235-241. -/
def addSyn (q : RecvQueue) : R RecvQueue := do
  R.assert (!q.synAdded)
  return { q with synAdded := true, startSeq := Seq.add q.startSeq 1, endSeq := Seq.add q.endSeq 1 }

/-- buffer.rs:243-250. -/
def addFin (q : RecvQueue) : R RecvQueue := do
  R.assert q.synAdded
  R.assert (!q.finAdded)
  return { q with finAdded := true, startSeq := Seq.add q.startSeq 1, endSeq := Seq.add q.endSeq 1 }

/-- buffer.rs:252-264. -/
def add (q : RecvQueue) (d : List Byte) : R RecvQueue := do
  R.assert q.synAdded
  R.assert (!q.finAdded)
  if d.length = 0 then return q
  return { q with endSeq := Seq.add q.endSeq d.length, segments := q.segments ++ [d] }

/-- connection.rs:268-270: all chunks of a payload, one after the other. -/
def addAll (q : RecvQueue) : List (List Byte) → R RecvQueue
  | [] => return q
  | d :: l => do
    let q ← q.add d
    q.addAll l

/-- buffer.rs:270-272. -/
def len (q : RecvQueue) : Nat := Seq.sub q.endSeq q.startSeq

/-- buffer.rs:274-276. -/
def isEmpty (q : RecvQueue) : Bool := q.len == 0

/-- buffer.rs:282-306, `pop`. -/
def pop (q : RecvQueue) (n : Nat) : R (RecvQueue × Option (Nat × List Byte)) :=
  match q.segments with
  | [] => return (q, none)
  | chunk :: rest =>
    if n < chunk.length then do
      R.assert (!(chunk.take n).isEmpty || n == 0)
      return ({ q with segments := chunk.drop n :: rest, startSeq := Seq.add q.startSeq n },
        some (q.startSeq, chunk.take n))
    else do
      R.assert (!chunk.isEmpty || n == 0)
      return ({ q with segments := rest, startSeq := Seq.add q.startSeq chunk.length },
        some (q.startSeq, chunk))

/-- buffer.rs:315-331, the loop of `read`.  The writer accepts `cap` more bytes and then fails;
    the result is the queue, the bytes written, and whether the writer failed.  The fuel bounds
    the number of turns (each pops a chunk or ends the loop). -/
def readLoop : Nat → RecvQueue → Nat → Nat → R (RecvQueue × List Byte × Bool)
  | fuel, q, remaining, cap =>
    if remaining = 0 then .ok (q, [], false)
    else match fuel with
      | 0 => R.panic
      | fuel + 1 => do
        let r ← q.pop (min remaining 4294967295)
        match r.2 with
        | none => return (r.1, [], false)
        | some (_, d) =>
          R.assert (decide (d.length ≤ remaining))
          if cap < d.length then return (r.1, d.take cap, true)
          let x ← readLoop fuel r.1 (remaining - d.length) (cap - d.length)
          return (x.1, d ++ x.2.1, x.2.2)

/-- buffer.rs:308-333, `read`. -/
def read (q : RecvQueue) (n cap : Nat) : R (RecvQueue × List Byte × Bool) :=
  if q.isEmpty then .ok (q, [], false)
  else readLoop (q.segments.length + 1) q n cap

end RecvQueue
end Shadow.Tcp
