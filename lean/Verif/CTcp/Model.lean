import Verif.Tally.Model
/-!
# A connection of the C TCP stack

Model of `/repo/src/main/host/descriptor/tcp.c` (with the buffers of `socket.c` and the calls of `socket/inet/legacy_tcp.rs`): two
endpoints, a client `false` that has called `connect` and a server `true` whose listener waits for it, and the packets between them.  In this stack a
sequence number counts packets; 0 marks a packet without a number.

Simplifications, valid for the whole file:
* Numbers are natural numbers: fewer than `2^32` packets per connection (the code documents the same limit).
* Time, round trip times, timeouts and congestion control are not modelled: the retransmission timer is a flag, it may expire whenever it is on, and every
  event that calls a hook of the congestion control or tunes a buffer gets the new congestion window or buffer size as an arbitrary parameter.
* Nobody in Shadow sends a packet with the reset flag, so resets are left out.  A listener is modelled by the child it creates for this client; its queue
  (a dropped connection request) is covered by the loss of packets, closing a listener with unaccepted children is left out.
* The two endpoints are on different hosts, so a packet on its way is a copy (`packet.rs`: `new_copy_inner`) and later changes of the header do not reach it.
  The network may delay, reorder and drop packets, but it does not copy them.
* `utility_debugAssert` is compiled out; faults of the caller's memory are left out; the status bits other than `READABLE` are not modelled.
* The heap of `priority_queue.c` is a sorted list.  Elements with equal numbers are unordered in the code; here the older comes first.
-/

namespace Shadow.CTcp
open Shadow.Base

/-- `enum TCPState` (tcp.c:35-40). -/
inductive State where
  | listen | synSent | synRcvd | estab | finWait1 | finWait2 | closing | timeWait | closeWait | lastAck | closed
deriving DecidableEq, Repr

/-- What does not change in a packet once it is created: its number, flags and payload (`_tcp_createPacketWithoutPayload`, tcp.c:884-941). -/
structure Seg where
  seq : Nat
  syn : Bool := false
  fin : Bool := false
  ack : Bool := false
  dup : Bool := false
  data : List Nat := []
deriving DecidableEq, Repr

/-- A packet on its way: `packet_updateTCP` has filled in the rest of the header (tcp.c:1296-1298). -/
structure Pkt where
  seg : Seg
  ackNo : Nat
  sacks : List (Nat × Nat)
  win : Nat
deriving DecidableEq, Repr

/-- Bytes of payload in a queue (`throttledOutputLength`, `retransmit.queueLength`, `unorderedInputLength`, `outputBufferLength`). -/
def bytes (l : List Seg) : Nat := (l.map (·.data.length)).sum

/-- `struct _TCP` (tcp.c:115-245) with the buffers of `LegacySocket`.  The last group are not part of the code: what the endpoint ever created with a
number (`hist`), what the program wrote and read, whether it was told of the end of the stream without having closed its read side, and whether it has
closed the socket. -/
structure Ep where
  state : State
  closedRd : Bool := false
  closedWr : Bool := false
  remoteClosed : Bool := false
  eofRd : Bool := false
  shouldFin : Bool := false
  errSend : Bool := false
  errRecv : Bool := false
  rnext : Nat := 1
  rwin : Nat := 10
  rend : Nat := 1
  lastWin : Nat := 10
  lastAck : Nat := 1
  winPending : Bool := false
  unacked : Nat := 1
  snext : Nat := 1
  swin : Nat := 10
  sLastWin : Nat := 10
  highest : Nat := 0
  ackSched : Bool := false
  ackCount : Nat := 0
  sacks : List Nat := []
  rq : List Seg := []
  timer : Bool := false
  tally : Tally.Tally := Tally.new
  thr : List Seg := []
  uno : List Seg := []
  inb : List (List Nat) := []
  part : List Nat := []
  outC : List Seg := []
  outD : List Seg := []
  inSize : Nat
  outSize : Nat
  cwnd : Nat
  readable : Bool := false
  closeSched : Bool := false
  hist : List Seg := []
  wrote : List Nat := []
  read : List Nat := []
  eof : Bool := false
  uclosed : Bool := false
deriving DecidableEq, Repr

namespace Ep

/-- `legacysocket_getInputBufferSpace` (socket.c:282-291). -/
def inSpace (s : Ep) : Nat := s.inSize - s.inb.flatten.length

/-- `legacysocket_getOutputBufferSpace` (socket.c:293-302). -/
def outSpace (s : Ep) : Nat := s.outSize - (bytes s.outC + bytes s.outD)

/-- `tcp_getOutputBufferLength` (tcp.c:781-786). -/
def outLen (s : Ep) : Nat := bytes s.thr + bytes s.rq

/-- `_tcp_updateReceiveWindow` (tcp.c:854-875); 1460 is `CONFIG_TCP_MAX_SEGMENT_SIZE`. -/
def updRwin (s : Ep) : Ep := { s with rwin := s.inSpace / 1460 }

/-- `_tcp_updateSendWindow` (tcp.c:877-882). -/
def updSwin (s : Ep) : Ep := { s with swin := min s.cwnd s.lastWin }

end Ep

/-- `priorityqueue_push` with `packet_compareTCPSequence`. -/
def ins (g : Seg) : List Seg → List Seg
  | [] => [g]
  | h :: t => if g.seq < h.seq then g :: h :: t else h :: ins g t

/-- The `ProtocolTCPFlags` of a packet to create or of a response. -/
structure Flags where
  syn : Bool := false
  fin : Bool := false
  ack : Bool := false
  dup : Bool := false
deriving DecidableEq, Repr

namespace Ep

/-- `_tcp_createPacketWithoutPayload`, `_tcp_createDataPacket` (tcp.c:884-953) and `_tcp_bufferPacketOut` (tcp.c:817-833), which follows each of them; the new packet cannot
be in the queue. -/
def create (s : Ep) (f : Flags) (data : List Nat) : Ep :=
  let s := s.updRwin
  if !data.isEmpty || (f.fin && !f.ack) || f.syn then
    let g : Seg := ⟨s.snext, f.syn, f.fin, f.ack, f.dup, data⟩
    { s with snext := s.snext + 1, thr := ins g s.thr, hist := s.hist ++ [g] }
  else
    { s with thr := ins ⟨0, f.syn, f.fin, f.ack, f.dup, data⟩ s.thr }

/-- `_tcp_retransmitPacket` (tcp.c:1183-1219). -/
def retxPacket (s : Ep) (q : Nat) : Ep :=
  match s.rq.find? (fun g => g.seq == q) with
  | none => s
  | some g => { s with rq := s.rq.filter (fun h => h.seq != q), timer := true, thr := ins g s.thr }

/-- The loop over the lost ranges in `_tcp_flush` (tcp.c:1334-1358). -/
def retxRanges : List Tally.Rng → Ep → R Ep
  | [], s => pure s
  | r :: rs, s => do
    let s := (List.range' r.lo.toNat (r.hi - r.lo).toNat).foldl retxPacket s
    let t ← s.tally.markRetx r.lo r.hi
    retxRanges rs { s with tally := t }

/-- `legacysocket_addToOutputBuffer` (socket.c:399-425) and the lines after it in `_tcp_flush` (tcp.c:1403-1413).  Exactly the packets without a number have priority 0. -/
def toOut (s : Ep) (g : Seg) : Ep :=
  { s with
    outC := if g.seq = 0 then s.outC ++ [g] else s.outC
    outD := if g.seq = 0 then s.outD else s.outD ++ [g]
    highest := max s.highest g.seq }

/-- The loop of `_tcp_flush` over `throttledOutput` (tcp.c:1364-1417). -/
def sendLoop : List Seg → Ep → Ep
  | [], s => { s with thr := [] }
  | g :: rest, s =>
    if g.data.length > 0 ∧ ¬ (g.seq < s.unacked + s.swin ∧ g.data.length ≤ s.outSpace) then { s with thr := g :: rest }
    else sendLoop rest (s.toOut g)

/-- The loop of `_tcp_flush` over `unorderedInput` (tcp.c:1419-1466).  After the removal of a packet whose data was already delivered the loop ends. -/
def inLoop : List Seg → Ep → Ep
  | [], s => { s with uno := [] }
  | g :: rest, s =>
    if g.seq < s.rnext then { s with uno := rest }
    else if g.seq = s.rnext ∧ g.data.length ≤ s.inSpace then
      inLoop rest { s with inb := s.inb ++ [g.data], rnext := s.rnext + 1, readable := true }
    else { s with uno := g :: rest }

/-- `_tcp_flush` up to the two loops (tcp.c:1323-1466). -/
def flushBody (s : Ep) : R Ep := do
  let s := s.updRwin.updSwin
  let s ← retxRanges s.tally.lost s
  let s := sendLoop s.thr s
  pure (inLoop s.uno s)

/-- The end of `_tcp_flush` (tcp.c:1474-1489). -/
def eofPart (s : Ep) : Ep :=
  let s := if s.closedWr then { s with errSend := true } else s
  if (s.closedRd || s.remoteClosed) && decide (s.rnext ≥ s.rend) && !s.eofRd then { s with errRecv := true, readable := true } else s

/-- `_tcp_flush` as it is called from `_tcp_sendShutdownFin`: the state is such that no further FIN is sent (tcp.c:1221-1243, 1468-1472). -/
def flushFin (s : Ep) : R Ep := do
  let s ← s.flushBody
  pure ((if s.shouldFin && s.outLen == 0 then { s with shouldFin := false } else s).eofPart)

/-- `_tcp_sendShutdownFin` (tcp.c:1221-1243). -/
def sendFin (s : Ep) : R Ep :=
  match s.state with
  | .estab => (({ s with state := .finWait1 } : Ep).create { fin := true } []).flushFin
  | .synRcvd => (({ s with state := .finWait1 } : Ep).create { fin := true } []).flushFin
  | .closeWait => (({ s with state := .lastAck } : Ep).create { fin := true } []).flushFin
  | _ => pure s

/-- The middle of `_tcp_flush` (tcp.c:1468-1472). -/
def finPart (s : Ep) : R Ep :=
  if s.shouldFin && s.outLen == 0 then do
    let s ← s.sendFin
    pure { s with shouldFin := false }
  else pure s

/-- `_tcp_flush` (tcp.c:1323-1500). -/
def flush (s : Ep) : R Ep := do
  let s ← s.flushBody
  let s ← s.finPart
  pure s.eofPart

/-- `_tcp_sendControlPacket` (tcp.c:961-976). -/
def sendControl (s : Ep) (f : Flags) : R Ep := (s.create f []).flush

/-- `_tcp_setState` with `TCPS_CLOSED` (tcp.c:690-732). -/
def setClosed (s : Ep) : Ep := { s with state := .closed, rq := [] }

/-- `_tcp_connectToPeer` (tcp.c:1706-1733) on a new socket. -/
def connect (s : Ep) : R Ep := do
  let s ← s.sendControl { syn := true }
  pure { s with state := .synSent }

/-- The cases of `_tcp_processPacket` in which it returns from its switch or right after it (tcp.c:2114-2329): a listener that gets no SYN, the last
acknowledgement, a closed socket. -/
def absorbed (s : Ep) (g : Seg) : Option Ep :=
  match s.state with
  | .listen => if g.syn then none else some s
  | .lastAck => if g.fin && g.ack then some s.setClosed else none
  | .closed => some s
  | _ => none

/-- The switch of `_tcp_processPacket` (tcp.c:2114-2329) otherwise: the new state, whether the packet was processed, and the response. -/
def onState (s : Ep) (g : Seg) : Ep × Bool × Flags :=
  match s.state with
  | .listen => ({ s with rnext := g.seq + 1, state := .synRcvd }, true, { syn := true, ack := true })
  | .synSent =>
    if g.syn && g.ack then ({ s with rnext := g.seq + 1, state := .estab }, true, { ack := true })
    else if g.syn then ({ s with rnext := g.seq + 1, state := .synRcvd }, true, { ack := true })
    else (s, false, {})
  | .synRcvd => if g.ack then ({ s with state := .estab }, true, {}) else (s, false, {})
  | .estab =>
    if g.fin then ({ s with remoteClosed := true, state := .closeWait, rend := g.seq }, true, { fin := true, ack := true })
    else (s, false, {})
  | .finWait1 =>
    if g.fin && g.ack then ({ s with state := .finWait2 }, true, {})
    else if g.fin then ({ s with remoteClosed := true, state := .closing, rend := g.seq }, true, { fin := true, ack := true })
    else (s, false, {})
  | .finWait2 =>
    if g.fin then
      ({ s with remoteClosed := true, state := .timeWait, closeSched := true, rend := g.seq }, true, { fin := true, ack := true })
    else (s, false, {})
  | .closing =>
    if g.fin && g.ack then ({ s with state := .timeWait, closeSched := true }, true, {}) else (s, false, {})
  | _ => (s, false, {})

end Ep

/-- The walk over the selective acknowledgements in `_tcp_dataProcessing` (tcp.c:1913-1922): the last number before the first gap. -/
def sackWalk (h : Nat) : Nat → List Nat → Nat
  | cur, [] => cur
  | cur, n :: r => if cur + 1 < n ∧ cur > h then cur else sackWalk h n r

/-- `g_list_insert_sorted` with `_tcp_compare_sequence`. -/
def insNum (q : Nat) : List Nat → List Nat
  | [] => [q]
  | h :: t => if q ≤ h then q :: h :: t else h :: insNum q t

/-- The removal of selective acknowledgements (tcp.c:1905-1926, `_tcp_removeSacks` 1850-1873; the list is sorted). -/
def sackTrim (h : Nat) : List Nat → List Nat
  | [] => []
  | f :: r => if f ≤ h + 1 then (f :: r).filter (fun q => decide (q > sackWalk h f r)) else f :: r

/-- The loop of `_tcp_selective_acks_from_list` (tcp.c:1257-1283) with the current range. -/
def sackGo (i : Nat) (a b : Nat) : List Nat → List (Nat × Nat)
  | [] => [(a, b)]
  | q :: r =>
    if q = b then sackGo i a (b + 1) r
    else if q > b then (if i + 1 ≥ 4 then [(a, b)] else (a, b) :: sackGo (i + 1) q (q + 1) r)
    else sackGo i a b r

/-- `_tcp_selective_acks_from_list` (tcp.c:1249-1287). -/
def sackBlocks : List Nat → List (Nat × Nat)
  | [] => []
  | q :: r => sackGo 0 q (q + 1) r

namespace Ep

/-- `_tcp_dataProcessing` (tcp.c:1875-1944): whether the packet was processed, and whether its data was taken. -/
def dataProc (s : Ep) (g : Seg) : Ep × Bool × Bool :=
  if g.seq ≥ s.rnext + s.rwin then (s, true, false)
  else if g.seq ≥ s.rnext then
    let isNext := g.seq == s.rnext
    let fits := decide (g.data.length ≤ s.inSpace - bytes s.uno)
    let s := { s with sacks := if !isNext && fits then insNum g.seq s.sacks else sackTrim g.seq s.sacks }
    if (isNext && !s.readable) || fits then ({ s with uno := ins g s.uno }, true, true)
    else (s, true, false)
  else (s, false, false)

/-- `_tcp_ackProcessing` (tcp.c:1946-2038). -/
def ackProc (s : Ep) (p : Pkt) (cw outSz : Nat) : R Ep := do
  let r ← s.tally.update p.ackNo p.seg.dup
  let valid := decide (p.ackNo > s.unacked) && decide (p.ackNo ≤ s.snext)
  let validWin := (p.ackNo == s.lastAck && decide (p.win > s.lastWin)) || (decide (p.ackNo > s.lastAck) && p.win != s.lastWin)
  let s := { s with tally := r.1, cwnd := cw }
  let s := if valid then
      { s with
        rq := s.rq.filter (fun g => !(decide (s.lastAck ≤ g.seq) && decide (g.seq < p.ackNo)))
        lastAck := p.ackNo, unacked := p.ackNo, outSize := outSz }
    else s
  let s := if validWin then { s with lastWin := p.win } else s
  pure (if bytes s.rq == 0 then { s with timer := false } else if valid then { s with timer := true } else s)

/-- Acknowledgements are processed if the flag is set (tcp.c:2345-2348). -/
def ackIf (s : Ep) (p : Pkt) (cw outSz : Nat) : R Ep := if p.seg.ack then s.ackProc p cw outSz else pure s

/-- The response of `_tcp_processPacket` (tcp.c:2369-2427). -/
def respond (s : Ep) (f : Flags) : R Ep :=
  if f != {} && (!s.errRecv || f.fin) then
    if f != { ack := true } then s.sendControl f
    else pure { s with ackSched := true, ackCount := s.ackCount + 1 }
  else pure s

/-- The flags of the response (tcp.c:2369-2378). -/
def respFlags (s : Ep) (g : Seg) (f : Flags) (received : Bool) : Flags :=
  if g.seq > s.rnext ∧ g.seq < s.rnext + s.rwin then { f with ack := true, dup := true }
  else if received then { f with ack := true }
  else f

/-- The part of `_tcp_processPacket` after the switch (tcp.c:2331-2434). -/
def afterSwitch (s : Ep) (processed : Bool) (f : Flags) (p : Pkt) (cw outSz : Nat) : R Ep := do
  let d := if !p.seg.data.isEmpty && !s.errRecv then s.dataProc p.seg else (s, false, false)
  let s ← d.1.ackIf p cw outSz
  if !(processed || d.2.1 || p.seg.ack) then pure s
  else do
    let t ← s.tally.markSacked p.sacks
    let s := { s with tally := t }
    let s ← s.respond (s.respFlags p.seg f d.2.2)
    s.flush

/-- `_tcp_processPacket` (tcp.c:2073-2434). -/
def receive (s : Ep) (p : Pkt) (cw outSz : Nat) : R Ep :=
  match s.absorbed p.seg with
  | some s => pure s
  | none => (s.onState p.seg).1.afterSwitch (s.onState p.seg).2.1 (s.onState p.seg).2.2 p cw outSz

end Ep

/-- The segments into which `tcp_sendUserData` breaks the data (tcp.c:2508-2534); the first argument bounds the rounds. -/
def chunks : Nat → List Nat → List (List Nat)
  | 0, _ => []
  | n + 1, bs => if bs.isEmpty then [] else bs.take 1460 :: chunks n (bs.drop 1460)

namespace Ep

/-- `tcp_sendUserData` (tcp.c:2475-2540). -/
def write (s : Ep) (bs : List Nat) : R Ep :=
  if s.errSend then pure s
  else
    let bs := bs.take (min 65535 (s.outSpace - s.outLen))
    let s := (chunks bs.length bs).foldl (fun s c => s.create { ack := true } c) s
    ({ s with wrote := s.wrote ++ bs } : Ep).flush

/-- The loop of `tcp_receiveUserData` over the input buffer (tcp.c:2624-2664): what is taken, the rest of a packet that is read in part, what stays. -/
def takeIn (n : Nat) : List (List Nat) → List Nat × List Nat × List (List Nat)
  | [] => ([], [], [])
  | d :: q =>
    if n = 0 then ([], [], d :: q)
    else if d.length ≤ n then
      let r := takeIn (n - d.length) q
      (d ++ r.1, r.2)
    else (d.take n, d.drop n, q)

/-- The copying of `tcp_receiveUserData` (tcp.c:2593-2664): first the packet that was read in part, then the input buffer. -/
def copy (s : Ep) (n : Nat) : Ep × Nat :=
  let fromPart := s.part.take n
  if s.part.length ≤ n then
    let r := takeIn (n - s.part.length) s.inb
    ({ s with part := r.2.1, inb := r.2.2, read := s.read ++ fromPart ++ r.1 }, fromPart.length + r.1.length)
  else ({ s with part := s.part.drop n, read := s.read ++ fromPart }, fromPart.length)

/-- `tcp_receiveUserData` after the copying (tcp.c:2666-2712).  `sz` is the size of the receive buffer after tuning. -/
def afterCopy (s : Ep) (total sz : Nat) : Ep :=
  if s.inb.flatten.length > 0 || !s.part.isEmpty then
    let s := ({ s with readable := true, inSize := sz } : Ep).updRwin
    { s with winPending := s.winPending || decide (s.rwin > s.sLastWin) }
  else if bytes s.uno == 0 && s.errRecv then
    if total == 0 then
      if s.state = .closed then { s with readable := true }
      else { s with readable := true, eofRd := true, eof := s.eof || !s.closedRd }
    else
      let s := ({ s with readable := true, inSize := sz } : Ep).updRwin
      { s with winPending := s.winPending || decide (s.rwin > s.sLastWin) }
  else
    let s := ({ s with readable := false, inSize := sz } : Ep).updRwin
    { s with winPending := s.winPending || decide (s.rwin > s.sLastWin) }

/-- `tcp_receiveUserData` (tcp.c:2559-2732). -/
def recv (s : Ep) (n sz : Nat) : R Ep := do
  let s ← s.flush
  if s.inb.flatten.length == 0 && s.part.isEmpty && !s.errRecv then pure s
  else pure ((s.copy n).1.afterCopy (s.copy n).2 sz)

/-- `_tcp_close` (tcp.c:2784-2833). -/
def close (s : Ep) : R Ep :=
  let s := { s with closedWr := true, closedRd := true, uclosed := true }
  match s.state with
  | .listen | .synSent | .closed => pure s.setClosed
  | .synRcvd | .estab | .closeWait => if s.outLen == 0 then s.sendFin else pure { s with shouldFin := true }
  | _ => pure s

/-- `tcp_shutdown` (tcp.c:2835-2864). -/
def shutdown (s : Ep) (rd wr : Bool) : R Ep :=
  if s.state = .synSent ∨ s.state = .synRcvd ∨ s.state = .listen ∨ s.state = .closed then pure s
  else
    let s := if rd then { s with closedRd := true, errRecv := true } else s
    if wr && !s.closedWr then
      let s := { s with closedWr := true, errSend := true }
      if s.outLen == 0 then s.sendFin else pure { s with shouldFin := true }
    else pure s

/-- `_tcp_addRetransmit` (tcp.c:978-997). -/
def addRetx (s : Ep) (g : Seg) : Ep :=
  if s.rq.any (fun h => h.seq == g.seq) then s else { s with rq := s.rq ++ [g] }

/-- `tcp_networkInterfaceIsAboutToSendPacket` (tcp.c:1289-1321). -/
def aboutToSend (s : Ep) (g : Seg) : Ep × Pkt :=
  let p : Pkt := ⟨g, s.rnext, sackBlocks s.sacks, s.rwin⟩
  let s := { s with sLastWin := s.rwin, ackCount := if g.ack then 0 else s.ackCount }
  (if g.seq > 0 then { s.addRetx g with timer := true } else s, p)

/-- `LegacyTcpSocket::pull_out_packet` (legacy_tcp.rs:150-169) with `legacysocket_removeFromOutputBuffer` (socket.c:427-446). -/
def pull (s : Ep) : Option (Ep × Pkt) :=
  match s.outC, s.outD with
  | g :: c, _ => some (({ s with outC := c } : Ep).aboutToSend g)
  | [], g :: d => some (({ s with outD := d } : Ep).aboutToSend g)
  | [], [] => none

/-- `_tcp_runRetransmitTimerExpiredTask` (tcp.c:1502-1557), when the time for which the timer is set has come. -/
def expire (s : Ep) (cw : Nat) : R Ep :=
  if s.state = .closed then pure { s with timer := false, rq := [] }
  else if s.rq.isEmpty then pure { s with timer := false }
  else if !s.timer then pure s
  else do
    let t ← s.tally.clearRetx.markLost s.lastAck (s.highest + 1)
    ({ s with timer := true, cwnd := cw, tally := t } : Ep).flush

/-- `_tcp_sendACKTaskCallback` (tcp.c:2056-2070). -/
def ackTask (s : Ep) : R Ep :=
  let s := { s with ackSched := false }
  if s.ackCount > 0 then do
    let s ← s.sendControl { ack := true }
    pure { s with ackCount := 0 }
  else pure s

/-- `_tcp_sendWindowUpdate` (tcp.c:2542-2557). -/
def winTask (s : Ep) : R Ep := do
  let s ← s.sendControl { ack := true }
  pure { s with winPending := false }

end Ep

/-- The two endpoints (`a` is the client `false`) and the packets on their way with their destination. -/
structure W where
  a : Ep
  b : Ep
  net : List (Bool × Pkt) := []
deriving DecidableEq, Repr

/-- An endpoint. -/
def W.get (w : W) (x : Bool) : Ep := if x then w.b else w.a

/-- Replaces an endpoint. -/
def W.set (w : W) (x : Bool) (e : Ep) : W := if x then { w with b := e } else { w with a := e }

/-- What can happen: calls of the program, expired timers and scheduled tasks, the network interface taking a packet, delivery and loss. -/
inductive Act where
  | write (x : Bool) (bs : List Nat)
  | read (x : Bool) (n sz : Nat)
  | close (x : Bool)
  | shutdown (x : Bool) (rd wr : Bool)
  | bufs (x : Bool) (inSz outSz : Nat)
  | expire (x : Bool) (cw : Nat)
  | ackTask (x : Bool)
  | winTask (x : Bool)
  | closeTask (x : Bool)
  | pull (x : Bool)
  | deliver (i cw outSz : Nat)
  | drop (i : Nat)
deriving DecidableEq, Repr

/-- Updates one endpoint with the result of a function. -/
def W.upd (w : W) (x : Bool) (r : R Ep) : R W := do
  let e ← r
  pure (w.set x e)

/-- One step; `none` if the event cannot happen now.  The sizes of the buffers can be changed at any time by `setsockopt` or tuning (`bufs`). -/
def step (w : W) : Act → Option (R W)
  | .write x bs => some (w.upd x ((w.get x).write bs))
  | .read x n sz => some (w.upd x ((w.get x).recv n sz))
  | .close x => some (w.upd x (w.get x).close)
  | .shutdown x rd wr => some (w.upd x ((w.get x).shutdown rd wr))
  | .bufs x i o => some (.ok (w.set x { w.get x with inSize := i, outSize := o }))
  | .expire x cw => some (w.upd x ((w.get x).expire cw))
  | .ackTask x => if (w.get x).ackSched then some (w.upd x (w.get x).ackTask) else none
  | .winTask x => if (w.get x).winPending then some (w.upd x (w.get x).winTask) else none
  | .closeTask x =>
    if (w.get x).closeSched then some (.ok (w.set x { (w.get x).setClosed with closeSched := false })) else none
  | .pull x =>
    match (w.get x).pull with
    | none => none
    | some (e, p) => some (.ok { w.set x e with net := w.net ++ [(!x, p)] })
  | .deliver i cw o =>
    match w.net[i]? with
    | none => none
    | some (x, p) => some ({ w with net := w.net.eraseIdx i }.upd x ((w.get x).receive p cw o))
  | .drop i => if i < w.net.length then some (.ok { w with net := w.net.eraseIdx i }) else none

/-- The rules for programs, enforced by `legacy_tcp.rs` (`tcp_getConnectionError`, tcp.c:1592-1633) and the descriptor table: no call after the socket was closed, the
server's socket is not visible before the connection is established, and nothing is read or written before it. -/
def allowed (w : W) : Act → Prop
  | .write x _ | .read x _ _ | .shutdown x _ _ =>
    (w.get x).uclosed = false ∧ (w.get x).state ≠ .listen ∧ (w.get x).state ≠ .synRcvd ∧ (w.get x).state ≠ .synSent
  | .close x => (w.get x).uclosed = false ∧ (w.get x).state ≠ .listen ∧ (w.get x).state ≠ .synRcvd
  | _ => True

/-- `tcp_new` (tcp.c:2898-2949) in the given state. -/
def fresh (st : State) (inSz outSz cw : Nat) : Ep := { state := st, inSize := inSz, outSize := outSz, cwnd := cw }

/-- The client after `connect`, as computed by `Ep.connect` (see `connect_fresh`). -/
def client (inSz outSz cw : Nat) : Ep :=
  { fresh .synSent inSz outSz cw with
    rwin := inSz / 1460, swin := min cw 10, snext := 2, highest := 1
    outD := [{ seq := 1, syn := true }], hist := [{ seq := 1, syn := true }] }

/-- The start: the client has called `connect`, the server listens; the sizes of the buffers and the congestion windows are arbitrary. -/
inductive Init : W → Prop
  | mk (i1 o1 c1 i2 o2 c2 : Nat) : Init ⟨client i1 o1 c1, fresh .listen i2 o2 c2, []⟩

/-- The states that can be reached. -/
inductive Run : W → Prop
  | start {w : W} : Init w → Run w
  | step {w w' : W} {a : Act} : Run w → allowed w a → step w a = some (.ok w') → Run w'

/-- The continuations of a state. -/
inductive Cont (w : W) : W → Prop
  | refl : Cont w w
  | step {u v : W} {a : Act} : Cont w u → allowed u a → step u a = some (.ok v) → Cont w v

end Shadow.CTcp
