import Verif.Tcp.Buffer
import Verif.Tcp.Scaling

/-!
# Model of a TCP connection

Source: `/repo/src/lib/tcp/src/connection.rs`, and the packet types of `/repo/src/lib/tcp/src/lib.rs`.

* Header fields that the library never reads (selective acknowledgements, timestamps, the PSH,
  URG, ECE and CWR flags) are left out.
* `debug_assert!`s are not modelled (they are absent from release builds); `assert!`, `unwrap`,
  `panic!` and `unreachable!` are `R.panic`.
* A reader or writer passed by the caller is the list of bytes it gives or the number of bytes it
  accepts before failing (see `Buffer.lean`).
-/
namespace Shadow.Tcp

open Shadow.Base

/-- An IPv4 address and port (`SocketAddrV4`). -/
structure Addr where
  ip : Nat
  port : Nat
deriving Repr, DecidableEq

/-- lib.rs:662-674, `TcpFlags`. -/
structure Flags where
  fin : Bool := false
  syn : Bool := false
  rst : Bool := false
  ack : Bool := false
deriving Repr, DecidableEq

/-- lib.rs:676-708, `TcpHeader`. -/
structure Header where
  src : Addr
  dst : Addr
  flags : Flags
  seq : Nat
  ack : Nat
  windowSize : Nat
  windowScale : Option Nat
deriving Repr, DecidableEq

/-- lib.rs:716-717, `Payload`. -/
abbrev Payload := List (List Byte)

/-- lib.rs:724-733, `Payload::len`: panics if the length does not fit a `u32`. -/
def Payload.len (p : Payload) : R Nat :=
  if p.flatten.length < M then .ok p.flatten.length else .panic

/-- lib.rs:735-739, `Payload::is_empty`. -/
def Payload.isEmpty (p : Payload) : Bool := p.all (fun x => x.length == 0)

/-- connection.rs:665-684, `ConnectionSend`. -/
structure ConnSend where
  buffer : SendQueue
  window : Nat
  isClosed : Bool
  synAcked : Bool
deriving Repr, DecidableEq

/-- connection.rs:686-699, `ConnectionRecv`. -/
structure ConnRecv where
  buffer : RecvQueue
  isClosed : Bool
deriving Repr, DecidableEq

/-- connection.rs:14-28, `Connection`. -/
structure Conn where
  localAddr : Addr
  remoteAddr : Addr
  send : ConnSend
  recv : Option ConnRecv
  needToAck : Bool
  lastAdvertisedWindow : Option Nat
  scaling : WindowScaling
  sendRstIfRecvPayload : Bool
  isReset : Bool
  needToSendRst : Bool
deriving Repr, DecidableEq

def b2n (b : Bool) : Nat := if b then 1 else 0

/-- connection.rs:798-820, `trim_chunk`. -/
def trimChunk (seq : Nat) (chunk : List Byte) (range : SeqRange) : Option (Nat × List Byte) :=
  (SeqRange.intersection ⟨seq, Seq.add seq chunk.length⟩ range).map
    (fun i => (i.start, (chunk.drop (Seq.sub i.start seq)).take i.len))

/-- connection.rs:777-792, the loop of `trim_payload`. -/
def trimChunks (seq : Nat) (range : SeqRange) : Payload → Payload
  | [] => []
  | c :: l =>
    ((trimChunk seq c range).map (·.2)).getD [] :: trimChunks (Seq.add seq c.length) range l

/-- connection.rs:758-796, `trim_payload`; `plen` is the payload's length. -/
def trimPayload (seq : Nat) (p : Payload) (plen : Nat) (range : SeqRange) : Option (Nat × Payload) :=
  let pr : SeqRange := ⟨seq, Seq.add seq plen⟩
  (pr.intersection range).map
    (fun i => if pr = i then (seq, p) else (i.start, trimChunks seq range p))

/-- connection.rs:716-756: the header after trimming to the range that starts at `start`. -/
def trimHeader (h : Header) (start : Nat) (syn fin : Bool) : Header :=
  { h with
    seq := start
    flags := { h.flags with syn := syn, fin := fin } }

/-- connection.rs:716-756, the part of `trim_segment` after the intersection `i` of the header's
    range `hr` with the window is known. -/
def trimAt (h : Header) (p : Payload) (seq plen : Nat) (hr range i : SeqRange) :
    R (Option (Header × Payload)) :=
  if i = hr then .ok (some (h, p))
  else
    let includeSyn := h.flags.syn && range.contains hr.start
    let includeFin := h.flags.fin && range.contains (Seq.subN hr.end 1)
    (trimPayload (Seq.add seq (b2n h.flags.syn)) p plen range).elim
      (.ok (some (trimHeader h i.start includeSyn includeFin, [])))
      (fun r => do
        R.assert (r.1 == Seq.add i.start (b2n includeSyn))
        return some (trimHeader h i.start includeSyn includeFin, r.2))

/-- connection.rs:703-714, the range of a segment. -/
def segmentRange (h : Header) (seq plen : Nat) : SeqRange :=
  ⟨seq, Seq.add (Seq.add (Seq.add seq (b2n h.flags.syn)) plen) (b2n h.flags.fin)⟩

/-- connection.rs:701-756, `trim_segment`. -/
def trimSegment (h : Header) (p : Payload) (range : SeqRange) : R (Option (Header × Payload)) := do
  let plen ← Payload.len p
  ((segmentRange h (Seq.new h.seq) plen).intersection range).elim (.ok none)
    (trimAt h p (Seq.new h.seq) plen (segmentRange h (Seq.new h.seq) plen) range)

namespace Conn

/-- connection.rs:33-34. -/
abbrev sendBufMax : Nat := 100000
abbrev recvBufMax : Nat := 100000
/-- connection.rs:528. -/
abbrev maxBytesPerPacket : Nat := 1500

/-- connection.rs:36-62, `new` (the scaling object is new, so `disable` cannot fail). -/
def new (local_ remote : Addr) (initialSeq : Nat) (scalingEnabled : Bool) : Conn where
  localAddr := local_
  remoteAddr := remote
  send := ⟨SendQueue.new initialSeq, 2048, false, false⟩
  recv := none
  needToAck := true
  lastAdvertisedWindow := none
  scaling := if scalingEnabled then WindowScaling.new else { WindowScaling.new with disabled := true }
  sendRstIfRecvPayload := false
  isReset := false
  needToSendRst := false

/-- connection.rs:72-75. -/
def packetAddrsMatch (c : Conn) (h : Header) : Bool := h.src == c.remoteAddr && h.dst == c.localAddr

/-- connection.rs:77-80. -/
def sendFin (c : Conn) : R Conn := do
  let b ← c.send.buffer.addFin
  return { c with send := { c.send with buffer := b, isClosed := true } }

/-- connection.rs:82-85. -/
def sendRst (c : Conn) : Conn := { c with needToSendRst := true, isReset := true }

/-- connection.rs:87-90. -/
def setSendRstIfRecvPayload (c : Conn) : Conn := { c with sendRstIfRecvPayload := true }

/-- connection.rs:611-617. -/
def sendBufHasSpace (c : Conn) : Bool := decide (c.send.buffer.len < sendBufMax)

/-- connection.rs:619-628. -/
def recvBufHasData (c : Conn) : Bool :=
  match c.recv with
  | some r => !r.buffer.isEmpty
  | none => false

inductive SendRes where
  | ok (n : Nat)
  | full
  | io
deriving Repr, DecidableEq

/-- connection.rs:92-107, `send`. -/
def sendData (c : Conn) (src : List Byte) (n : Nat) : R (Conn × SendRes) := do
  if !c.sendBufHasSpace then return (c, .full)
  let n := min n (sendBufMax - c.send.buffer.len)
  let r ← c.send.buffer.addData src n
  let c := { c with send := { c.send with buffer := r.1 } }
  if r.2 then return (c, .ok n) else return (c, .io)

inductive RecvRes where
  | ok (n : Nat)
  | empty
  | io
deriving Repr, DecidableEq

/-- connection.rs:109-117, `recv`: the bytes are those given to the writer. -/
def recvData (c : Conn) (n cap : Nat) : R (Conn × List Byte × RecvRes) := do
  let r ← R.unwrap c.recv
  if r.buffer.isEmpty then return (c, [], .empty)
  let x ← r.buffer.read n cap
  let c := { c with recv := some { r with buffer := x.1 } }
  if x.2.2 then return (c, x.2.1, .io) else return (c, x.2.1, .ok x.2.1.length)

/-- connection.rs:648-658, `recv_window`. -/
def recvWindow (c : Conn) : Option SeqRange :=
  match c.recv with
  | none => none
  | some r =>
    let left := r.buffer.endSeq
    let n := min (recvBufMax - r.buffer.len) c.scaling.recvWindowMax
    some ⟨left, Seq.add left n⟩

/-- connection.rs:637-646, `recv_window_len`. -/
def recvWindowLen (c : Conn) : Nat :=
  match c.recvWindow with
  | some w => w.len
  | none => min recvBufMax c.scaling.recvWindowMax

/-- connection.rs:630-635, `send_window`. -/
def sendWindow (c : Conn) : SeqRange :=
  ⟨c.send.buffer.startSeq, Seq.add c.send.buffer.startSeq c.send.window⟩

/-- connection.rs:130-179, a RST packet. -/
def pushRst (c : Conn) (h : Header) : Conn :=
  match c.recvWindow with
  | none => { c with isReset := true }
  | some w =>
    if Seq.new h.seq = w.start then { c with isReset := true }
    else if w.contains (Seq.new h.seq) then { c with needToAck := true }
    else c

/-- connection.rs:181-189, the first SYN. -/
def firstSyn (c : Conn) (h : Header) : R Conn :=
  if c.recv.isNone && h.flags.syn then do
    let s ← c.scaling.onReceivedSyn h.windowScale
    return { c with recv := some ⟨RecvQueue.new (Seq.new h.seq), false⟩, scaling := s }
  else .ok c

/-- connection.rs:231-243, adding the SYN, if there is one. -/
def addSynIf (b : RecvQueue) (syn : Bool) : R RecvQueue := if syn = true then b.addSyn else .ok b

/-- connection.rs:245-275, adding the payload if it continues the buffered data. -/
def acceptPayload (b : RecvQueue) (payloadSeq plen : Nat) (p : Payload) : R (RecvQueue × Nat) :=
  if plen ≠ 0 ∧ payloadSeq = b.endSeq then do
    let b ← b.addAll p
    return (b, plen)
  else .ok (b, 0)

/-- connection.rs:277-286, adding the FIN if it follows the buffered data. -/
def acceptFin (b : RecvQueue) (fin : Bool) (finSeq : Nat) (closed : Bool) : R ConnRecv :=
  if fin = true ∧ finSeq = b.endSeq then do
    let b ← b.addFin
    return ⟨b, true⟩
  else .ok ⟨b, closed⟩

/-- connection.rs:231-286, adding a SYN, the payload and a FIN to the receive buffer;
    `none` is a second SYN. -/
def acceptSegment (r : ConnRecv) (h : Header) (p : Payload) : R (Option (ConnRecv × Nat)) :=
  if r.isClosed then .ok (some (r, 0))
  else if h.flags.syn && r.buffer.synAdded then .ok none
  else do
    let b ← addSynIf r.buffer h.flags.syn
    let plen ← Payload.len p
    let x ← acceptPayload b (Seq.add (Seq.new h.seq) (b2n h.flags.syn)) plen p
    let r' ← acceptFin x.1 h.flags.fin (Seq.add (Seq.add (Seq.new h.seq) (b2n h.flags.syn)) plen) r.isClosed
    return some (r', x.2)

/-- connection.rs:304-323, the acknowledgement. -/
def processAck (s : ConnSend) (ack : Nat) : R ConnSend :=
  if SeqRange.contains ⟨Seq.add s.buffer.startSeq 1, Seq.add s.buffer.endSeq 1⟩ (Seq.new ack) then do
    let s := if Seq.new ack ≠ s.buffer.startSeq then { s with synAcked := true } else s
    let b ← s.buffer.advanceStart (Seq.new ack)
    return { s with buffer := b }
  else .ok s

/-- connection.rs:288-302, the shift for the window of the packet: none for a SYN packet. -/
def windowShift (c : Conn) (hadSyn : Bool) : R Nat :=
  if hadSyn = true then .ok 0 else c.scaling.sendWindowScaleShift

/-- connection.rs:304-323, the acknowledgement, if there is one. -/
def ackIf (s : ConnSend) (h : Header) : R ConnSend :=
  if h.flags.ack = true then processAck s h.ack else .ok s

/-- connection.rs:288-326: the segment was accepted, `r'` is the new receive side. -/
def pushAccepted (c : Conn) (hadSyn : Bool) (h : Header) (r r' : ConnRecv) (pushed : Nat) : R (Conn × Nat) := do
  let shift ← c.windowShift hadSyn
  let s ← ackIf { c.send with window := h.windowSize * 2 ^ shift } h
  return ({ c with
    recv := some r'
    needToAck := c.needToAck || (r'.buffer.endSeq != r.buffer.endSeq)
    send := s }, pushed)

/-- connection.rs:207-326, a segment trimmed to the receive window. -/
def pushTrimmed (c : Conn) (hadSyn : Bool) (h : Header) (p : Payload) : R (Conn × Nat) :=
  match c.recv with
  | none => .ok (c.sendRst, 0)
  | some r =>
    if c.sendRstIfRecvPayload && !Payload.isEmpty p then .ok (c.sendRst, 0)
    else if r.isClosed && (!Payload.isEmpty p || h.flags.syn || h.flags.fin) then .ok (c.sendRst, 0)
    else do
      let x ← acceptSegment r h p
      x.elim (.ok (c.sendRst, 0)) (fun y => c.pushAccepted hadSyn h r y.1 y.2)

/-- connection.rs:207-326, a packet other than a RST, once the first SYN has been seen. -/
def pushSegment (c : Conn) (h : Header) (p : Payload) : R (Conn × Nat) := do
  let w ← R.unwrap c.recvWindow
  let t ← trimSegment h p w
  t.elim (.ok ({ c with needToAck := true }, 0)) (fun x => c.pushTrimmed h.flags.syn x.1 x.2)

/-- connection.rs:119-326, `push_packet`; the number is the count of bytes added. -/
def pushPacket (c : Conn) (h : Header) (p : Payload) : R (Conn × Nat) :=
  if c.isReset then .panic
  else if h.flags.rst then .ok (c.pushRst h, 0)
  else do
    let c ← c.firstSyn h
    c.pushSegment h p

/-- The accumulator of `next_data_segment` (connection.rs:520-524). -/
structure Acc where
  chunks : Payload := []
  syn : Bool := false
  fin : Bool := false
  seqStart : Option Nat := none
  seqLen : Nat := 0
  payloadLen : Nat := 0
deriving Repr, DecidableEq

/-- connection.rs:549-571, one segment is added to the accumulator. -/
def Acc.push (a : Acc) (windowEnd seq : Nat) (seg : Segment) : Acc :=
  let a := { a with seqStart := some (a.seqStart.getD seq) }
  match seg with
  | .syn => { a with syn := true, seqLen := a.seqLen + 1 }
  | .fin => { a with fin := true, seqLen := a.seqLen + 1 }
  | .data d =>
    let allowed := min (maxBytesPerPacket - a.payloadLen) (Seq.sub windowEnd seq)
    let d' := d.take (min d.length allowed)
    { a with
      chunks := a.chunks ++ [d']
      payloadLen := a.payloadLen + d'.length
      seqLen := a.seqLen + d'.length }

/-- connection.rs:530-575, the loop of `next_data_segment`.  Running out of fuel would be a
    panic here; `nextDataSegment` gives enough for every run (each turn adds a flag or at least
    one of at most 1500 payload bytes). -/
def dataLoop : Nat → SendQueue → SeqRange → Acc → R Acc
  | 0, _, _, _ => R.panic
  | fuel + 1, q, w, a => do
    match ← q.nextNotTransmitted a.seqLen with
    | none => return a
    | some (seq, seg) =>
      if !w.contains seq then return a
      if a.payloadLen = maxBytesPerPacket then return a
      dataLoop fuel q w (a.push w.end seq seg)

/-- connection.rs:517-583, `next_data_segment`. -/
def nextDataSegment (c : Conn) : R (Option (SeqRange × Flags × Payload)) := do
  let a ← dataLoop 1503 c.send.buffer c.sendWindow {}
  if !List.isEmpty a.chunks || a.syn || a.fin then
    let start ← R.unwrap a.seqStart
    return some (⟨start, Seq.add start a.seqLen⟩, { syn := a.syn, fin := a.fin }, a.chunks)
  else return none

/-- connection.rs:446-454 and 488-499: the sequence number of a packet without data. -/
def emptySeq (c : Conn) : R Nat := do
  match ← c.send.buffer.nextNotTransmitted 0 with
  | some x => return x.1
  | none => return c.send.buffer.endSeq

/-- connection.rs:471-484: is an empty packet (acknowledgement or window update) due? -/
def wantsEmpty (c : Conn) : R Bool :=
  match c.recvWindow with
  | none => .ok c.needToAck
  | some w => do
    let s ← c.scaling.recvWindowScaleShift
    let apparent := w.len / 2 ^ s * 2 ^ s
    return c.needToAck || c.lastAdvertisedWindow != some apparent

/-- connection.rs:433-512, `_next_segment`. -/
def nextSegment (c : Conn) : R (Option (SeqRange × Flags × Payload)) := do
  if c.needToSendRst then
    let s ← c.emptySeq
    return some (⟨s, s⟩, { rst := true }, [])
  if c.isReset then return none
  let seg ← (do
    match ← c.nextDataSegment with
    | some x => return some x
    | none =>
      if ← c.wantsEmpty then
        let s ← c.emptySeq
        return some (⟨s, s⟩, {}, [])
      else return none : R (Option (SeqRange × Flags × Payload)))
  match seg with
  | none => return none
  | some x => if !x.2.1.syn && !c.scaling.isConfigured then return none else return some x

/-- connection.rs:429-433, `wants_to_send`. -/
def wantsToSend (c : Conn) : R Bool := do
  return (← c.nextSegment).isSome

/-- connection.rs:342-382: the window size and scale of the header, the window the peer will
    see, and the scaling state. -/
def windowFields (c : Conn) (syn : Bool) : R (Nat × Option Nat × Nat × WindowScaling) :=
  if syn then do
    let scale := if c.scaling.canSendWindowScale
      then some (WindowScaling.scaleShiftForMaxWindow recvBufMax) else none
    let size := c.recvWindowLen
    let s ← c.scaling.onSentSyn scale
    return (size, scale, size, s)
  else do
    let shift ← c.scaling.recvWindowScaleShift
    let size := c.recvWindowLen / 2 ^ shift
    return (size, none, size * 2 ^ shift, c.scaling)

/-- connection.rs:328-418, `pop_packet`. -/
def popPacket (c : Conn) : R (Conn × Option (Header × Payload)) := do
  match ← c.nextSegment with
  | none => return (c, none)
  | some (range, flags, payload) =>
    let ack := c.recv.map (fun r => r.buffer.endSeq)
    let flags := { flags with ack := ack.isSome }
    let w ← c.windowFields flags.syn
    -- `header_window_size.try_into().unwrap()`
    R.assert (decide (w.1 < 65536))
    let header : Header := {
      src := c.localAddr, dst := c.remoteAddr, flags := flags, seq := range.start,
      ack := ack.getD 0, windowSize := w.1, windowScale := w.2.1 }
    let b ← c.send.buffer.markAsTransmitted range.end
    let c := { c with
      lastAdvertisedWindow := some w.2.2.1
      scaling := w.2.2.2
      needToAck := false
      send := { c.send with buffer := b } }
    if flags.rst then
      R.assert c.needToSendRst
      return ({ c with needToSendRst := false }, some (header, payload))
    return (c, some (header, payload))

/-- connection.rs:64-70, `into_recv_buffer`. -/
def intoRecvBuffer (c : Conn) : Option RecvQueue := c.recv.map (·.buffer)

/-- connection.rs:590-594. -/
def receivedSyn (c : Conn) : Bool := c.recv.isSome

/-- connection.rs:596-599. -/
def receivedFin (c : Conn) : Bool :=
  match c.recv with
  | some r => r.isClosed
  | none => false

/-- connection.rs:601-604. -/
def synWasAcked (c : Conn) : Bool := c.send.synAcked

/-- connection.rs:606-609. -/
def finWasAcked (c : Conn) : Bool :=
  c.send.isClosed && c.send.buffer.startSeq == c.send.buffer.endSeq

end Conn
end Shadow.Tcp
