import Verif.Tcp.Conn

/-!
# Model of the TCP state machine

Source: `/repo/src/lib/tcp/src/states.rs` and `/repo/src/lib/tcp/src/lib.rs`.

* The nine state structs that hold a `Connection` are one constructor `on` with a `Kind`, since most
  methods are the same in several of them; each method below lists the kinds where it differs.
* A timer is a function that the environment may call at any time (`Tcp.timeout`): the code
  registers it for 60 seconds later, and it does nothing if the state has changed; the properties
  hold whenever it fires.
* Methods that a state does not implement return `InvalidState` (lib.rs:155-227) and keep the state.
* `debug_assert!`s are not modelled.
-/
namespace Shadow.Tcp

open Shadow.Base

/-- The states with a connection (states.rs:46-97). -/
inductive Kind where
  | synSent | synReceived | established | finWaitOne | finWaitTwo | closing | timeWait | closeWait | lastAck
deriving Repr, DecidableEq

/-- lib.rs:513-520, `TcpError`. -/
inductive TcpErr where
  | resetSent | resetReceived | closedWhileConnecting | timedOut
deriving Repr, DecidableEq

/-- The errors of the operations (lib.rs:524-596). -/
inductive Err where
  | invalidState | notConnected | streamClosed | empty | full | io | inProgress | alreadyConnected
  | isListening | nothingToAccept | noPacket | failedAssociation
deriving Repr, DecidableEq

/-- A `Result`. -/
inductive Res (α : Type) where
  | ok (a : α)
  | err (e : Err)
deriving Repr, DecidableEq

def Res.isOk {α : Type} : Res α → Bool
  | .ok _ => true
  | .err _ => false

/-- lib.rs:506-511. -/
inductive How where
  | read | write | both
deriving Repr, DecidableEq

/-- The states other than "init" and "listen". -/
inductive CState where
  | on (k : Kind) (c : Conn)
  /-- states.rs:99-116, `RstState`. -/
  | rst (buf : List Header) (wasConnected : Bool)
  /-- states.rs:118-127, `ClosedState`. -/
  | closed (buf : RecvQueue) (wasConnected : Bool)
deriving Repr, DecidableEq

/-- A state and its pending error (`Common::error`, states.rs:137-144). -/
structure Tcp where
  st : CState
  error : Option TcpErr
deriving Repr, DecidableEq

/-- lib.rs:600-646, `PollState`. -/
structure Poll where
  readable : Bool := false
  writable : Bool := false
  error : Bool := false
  recvClosed : Bool := false
  sendClosed : Bool := false
  listening : Bool := false
  readyToAccept : Bool := false
  connecting : Bool := false
  connected : Bool := false
  closed : Bool := false
deriving Repr, DecidableEq

/-- states.rs:2187-2199, `ClosedState::new`. -/
def mkClosed (b : Option RecvQueue) (was : Bool) : R CState := do
  let b := b.getD (RecvQueue.new 0)
  R.assert (was || b.isEmpty)
  return .closed b was

/-- states.rs:2058-2067, `RstState::new`. -/
def mkRst (ps : List Header) (was : Bool) : R CState := do
  R.assert (!ps.isEmpty)
  return .rst ps was

namespace Tcp

/-- states.rs:201-210, `set_error_if_unset`. -/
def setError (e : Option TcpErr) (n : TcpErr) : Option TcpErr := some (e.getD n)

/-- states.rs:2316-2340, `connection_was_reset`. -/
def connectionWasReset (err : Option TcpErr) (c : Conn) : R Tcp := do
  R.assert c.isReset
  let r ← c.popPacket
  match r.2 with
  | some (header, payload) =>
    R.assert (Payload.isEmpty payload)
    let st ← mkRst [header] true
    return ⟨st, setError err .resetSent⟩
  | none =>
    let st ← mkClosed none true
    return ⟨st, err⟩

/-- states.rs:2299-2314, `reset_connection`. -/
def resetConnection (err : Option TcpErr) (c : Conn) : R Tcp := do
  let t ← connectionWasReset err c.sendRst
  match t.st with
  | .rst .. => return t
  | _ => .panic

/-- The states whose `close` sends a FIN, and the next state (states.rs:921-939, 1058-1073,
    1771-1786; `shutdown` for writing 946-963, 1080-1094, 1793-1807). -/
def afterFin : Kind → Option Kind
  | .synReceived => some .finWaitOne
  | .established => some .finWaitOne
  | .closeWait => some .lastAck
  | _ => none

/-- "syn-received" reports that it was closed while connecting (states.rs:931-932, 955-956). -/
def finError (k : Kind) (err : Option TcpErr) : Option TcpErr :=
  if k = .synReceived then setError err .closedWhileConnecting else err

/-- Send a FIN if the state still can. -/
def finish (err : Option TcpErr) (k : Kind) (c : Conn) : R Tcp :=
  match afterFin k with
  | some k' => do
    let c ← c.sendFin
    return ⟨.on k' c, finError k err⟩
  | none => .ok ⟨.on k c, err⟩

/-- "syn-sent" goes directly to "closed" (states.rs:762-772). -/
def closedWhileConnecting (err : Option TcpErr) : R Tcp := do
  let st ← mkClosed none true
  return ⟨st, setError err .closedWhileConnecting⟩

/-- `close` (states.rs:762-772, 921-939, 1058-1073, 1205-1218, 1348-1361, 1479-1492, 1639-1649,
    1771-1786, 1921-1934, 2071-2074, 2203-2206); it never returns an error. -/
def close (t : Tcp) : R Tcp :=
  match t.st with
  | .on k c =>
    if k = .synSent then closedWhileConnecting t.error
    else if k ≠ .timeWait ∧ c.recvBufHasData = true then resetConnection t.error c
    else finish t.error k c.setSendRstIfRecvPayload
  | .rst .. => .ok t
  | .closed .. => .ok t

/-- `rst_close` (states.rs:774-784, and in the three states that can still send a FIN 941-944,
    1075-1078, 1788-1791; not implemented by the other states). -/
def rstClose (t : Tcp) : R (Tcp × Res Unit) :=
  match t.st with
  | .on k c =>
    if k = .synSent then do
      let t ← closedWhileConnecting t.error
      return (t, .ok ())
    else if (afterFin k).isSome then do
      let t ← resetConnection t.error c
      return (t, .ok ())
    else .ok (t, .err .invalidState)
  | _ => .ok (t, .err .invalidState)

def How.reads (h : How) : Bool := h == .read || h == .both
def How.writes (h : How) : Bool := h == .write || h == .both

/-- The writing half of `shutdown`. -/
def shutdownOn (err : Option TcpErr) (k : Kind) (c : Conn) (writes : Bool) : R Tcp :=
  if writes = true then
    if k = .synSent then closedWhileConnecting err else finish err k c
  else .ok ⟨.on k c, err⟩

/-- `shutdown` (states.rs:786-804, 946-963, 1080-1094, 1220-1230, 1363-1373, 1494-1504, 1651-1661,
    1793-1807, 1936-1946, 2076-2092, 2208-2224). -/
def shutdown (t : Tcp) (how : How) : R (Tcp × Res Unit) :=
  match t.st with
  | .on k c => do
    let t ← shutdownOn t.error k (if How.reads how then c.setSendRstIfRecvPayload else c) (How.writes how)
    return (t, .ok ())
  | .rst _ was => .ok (t, if was then .ok () else .err .notConnected)
  | .closed _ was => .ok (t, if was then .ok () else .err .notConnected)

/-- `connect` in a state other than "init" (states.rs:806-812, 965-971, 1096-1102, ..., 2094-2104,
    2226-2236): always an error. -/
def connect (t : Tcp) : Err :=
  match t.st with
  | .on .synSent _ | .on .synReceived _ => .inProgress
  | .on _ _ => .alreadyConnected
  | .rst _ was => if was then .alreadyConnected else .invalidState
  | .closed _ was => if was then .alreadyConnected else .invalidState

def sendResult : Conn.SendRes → Res Nat
  | .ok n => .ok n
  | .full => .err .full
  | .io => .err .io

/-- `send` (states.rs:814-816, 973-975, 1104-1111, 1240-1242, 1383-1385, 1514-1516, 1671-1673,
    1817-1824, 1956-1958, 2106-2112, 2238-2244). -/
def send (t : Tcp) (src : List Byte) (n : Nat) : R (Tcp × Res Nat) :=
  match t.st with
  | .on k c =>
    if k = .synSent ∨ k = .synReceived then .ok (t, .err .notConnected)
    else if k = .established ∨ k = .closeWait then do
      let r ← c.sendData src n
      return (⟨.on k r.1, t.error⟩, sendResult r.2)
    else .ok (t, .err .streamClosed)
  | .rst _ was => .ok (t, .err (if was then .streamClosed else .notConnected))
  | .closed _ was => .ok (t, .err (if was then .streamClosed else .notConnected))

/-- The states that turn "empty" into end of stream (states.rs:1518-1532, 1675-1689, 1826-1840,
    1960-1974); the others are 1113-1120, 1244-1251, 1387-1394. -/
def Kind.eof : Kind → Bool
  | .closing | .timeWait | .closeWait | .lastAck => true
  | _ => false

def recvResult (k : Kind) : Conn.RecvRes → Res Nat
  | .ok n => .ok n
  | .io => .err .io
  | .empty => .err (if Kind.eof k then .streamClosed else .empty)

/-- `recv`; the bytes are those that reached the caller's writer. -/
def recv (t : Tcp) (n cap : Nat) : R (Tcp × List Byte × Res Nat) :=
  match t.st with
  | .on k c =>
    if k = .synSent ∨ k = .synReceived then .ok (t, [], .err .notConnected)
    else do
      let r ← c.recvData n cap
      return (⟨.on k r.1, t.error⟩, r.2.1, recvResult k r.2.2)
  | .rst _ was => .ok (t, [], .err (if was then .streamClosed else .notConnected))
  | .closed b was =>
    if !was then .ok (t, [], .err .notConnected)
    else if b.isEmpty then .ok (t, [], .err .streamClosed)
    else do
      let r ← b.read n cap
      return (⟨.closed r.1 was, t.error⟩, r.2.1, if r.2.2 then .err .io else .ok r.2.1.length)

/-- The next state after a packet that did not reset the connection (states.rs:847-863, 1009-1016,
    1149-1155, 1280-1298, 1423-1429, 1561-1569, 1719, 1869, 2003-2011); `none` is "closed". -/
def nextKind (k : Kind) (c : Conn) : Option Kind :=
  match k with
  | .synSent =>
    some (if c.receivedSyn && c.synWasAcked then .established
      else if c.receivedSyn then .synReceived else .synSent)
  | .synReceived => some (if c.synWasAcked then .established else .synReceived)
  | .established => some (if c.receivedFin then .closeWait else .established)
  | .finWaitOne =>
    some (if c.receivedFin && c.finWasAcked then .timeWait
      else if c.receivedFin then .closing
      else if c.finWasAcked then .finWaitTwo else .finWaitOne)
  | .finWaitTwo => some (if c.receivedFin then .timeWait else .finWaitTwo)
  | .closing => some (if c.finWasAcked then .timeWait else .closing)
  | .timeWait => some .timeWait
  | .closeWait => some .closeWait
  | .lastAck => if c.finWasAcked then none else some .lastAck

/-- Move to the next state, with the receive buffer if it is "closed" (states.rs:2004-2008). -/
def afterPush (err : Option TcpErr) (k : Kind) (c : Conn) : R Tcp :=
  match nextKind k c with
  | some k' => .ok ⟨.on k' c, err⟩
  | none => do
    let st ← mkClosed c.intoRecvBuffer true
    return ⟨st, err⟩

/-- The error after a packet that reset the connection (states.rs:838-841 and the same lines of the
    other states). -/
def resetError (err : Option TcpErr) (h : Header) : Option TcpErr :=
  if h.flags.rst then setError err .resetReceived else err

/-- The state after a packet. -/
def afterPacket (err : Option TcpErr) (k : Kind) (h : Header) (c : Conn) : R Tcp :=
  if c.isReset = true then connectionWasReset (resetError err h) c else afterPush err k c

/-- `push_packet` (states.rs:822-863, 981-1016, 1122-1155, 1253-1298, 1396-1429, 1534-1569,
    1691-1719, 1842-1869, 1976-2011, 2122-2129; "closed" does not implement it). -/
def push (t : Tcp) (h : Header) (p : Payload) : R (Tcp × Res Nat) :=
  match t.st with
  | .on k c =>
    if !c.packetAddrsMatch h then .ok (t, .ok 0)
    else do
      let r ← c.pushPacket h p
      let t ← afterPacket t.error k h r.1
      return (t, .ok r.2)
  | .rst .. => .ok (t, .ok 0)
  | .closed .. => .ok (t, .err .invalidState)

def popResult : Option (Header × Payload) → Res (Header × Payload)
  | some x => .ok x
  | none => .err .noPacket

/-- `pop_packet` (states.rs:865-873 and the same in the other connection states, 2131-2155). -/
def pop (t : Tcp) : R (Tcp × Res (Header × Payload)) :=
  match t.st with
  | .on k c => do
    let r ← c.popPacket
    return (⟨.on k r.1, t.error⟩, popResult r.2)
  | .rst [] _ => .panic
  | .rst (h :: l) was => do
    R.assert h.flags.rst
    let st ← (if l.isEmpty = true then mkClosed none was else .ok (.rst l was))
    return (⟨st, t.error⟩, .ok (h, []))
  | .closed .. => .ok (t, .err .invalidState)

/-- `clear_error`. -/
def clearError (t : Tcp) : Tcp × Option TcpErr := ({ t with error := none }, t.error)

/-- `wants_to_send`. -/
def wantsToSend (t : Tcp) : R Bool :=
  match t.st with
  | .on _ c => c.wantsToSend
  | .rst b _ => do
    R.assert (!b.isEmpty)
    return true
  | .closed .. => .ok false

/-- `poll` (states.rs:879-887, 1032-1040, 1171-1187, 1314-1330, 1445-1461, 1585-1603, 1735-1753,
    1885-1903, 2027-2045, 2161-2173, 2268-2288). -/
def poll (t : Tcp) : Poll :=
  match t.st with
  | .on .synSent _ | .on .synReceived _ => { connecting := true, error := t.error.isSome }
  | .on .established c =>
    { connected := true, writable := c.sendBufHasSpace, readable := c.recvBufHasData, error := t.error.isSome }
  | .on .finWaitOne c | .on .finWaitTwo c =>
    { connected := true, readable := c.recvBufHasData, sendClosed := true, error := t.error.isSome }
  | .on .closing c | .on .timeWait c | .on .lastAck c =>
    { connected := true, recvClosed := true, readable := c.recvBufHasData, sendClosed := true, error := t.error.isSome }
  | .on .closeWait c =>
    { connected := true, writable := c.sendBufHasSpace, recvClosed := true, readable := c.recvBufHasData,
      error := t.error.isSome }
  | .rst _ was => { recvClosed := true, sendClosed := true, error := t.error.isSome, connected := was }
  | .closed b was =>
    { closed := true, recvClosed := true, readable := !b.isEmpty, sendClosed := true, connected := was,
      error := t.error.isSome }

/-- The timers of "syn-sent" (states.rs:743-755), "syn-received" (902-914) and "time-wait"
    (1618-1632).  `k` is the state that registered the timer. -/
def timeout (k : Kind) (t : Tcp) : R Tcp :=
  match t.st with
  | .on k' c =>
    if k' = k then
      if k = .synSent ∨ k = .synReceived then do
        let r ← rstClose { t with error := some .timedOut }
        R.assert r.2.isOk
        return r.1
      else if k = .timeWait then do
        let st ← mkClosed c.intoRecvBuffer true
        return ⟨st, t.error⟩
      else .ok t
    else .ok t
  | _ => .ok t

end Tcp

/-! ## The listening state -/

/-- states.rs:242-248, `ChildEntry`, with its key; the addresses are the remote and the local one. -/
structure Child where
  key : Nat
  tcp : Tcp
  addrs : Addr × Addr
deriving Repr, DecidableEq

/-- states.rs:28-44, `ListenState`.  The slot map is the list of its entries; a new entry gets a key
    that was never used before (`nextKey`; a slot map reuses a key only after 2^31 reuses of its
    slot).  The listening socket itself never has a pending error (nothing sets it). -/
structure Listener where
  scaling : Bool
  maxBacklog : Nat
  sendBuffer : List Header
  children : List Child
  connMap : Addr × Addr → Option Nat
  acceptQueue : List Nat
  toSend : List Nat
  nextKey : Nat

namespace Listener

/-- lib: `u32::saturating_add(1)`. -/
def backlogLimit (b : Nat) : Nat := min (b + 1) 4294967295

/-- states.rs:347-358, with the limit of 284-287. -/
def new (scaling : Bool) (backlog : Nat) : Listener where
  scaling := scaling
  maxBacklog := backlogLimit backlog
  sendBuffer := []
  children := []
  connMap := fun _ => none
  acceptQueue := []
  toSend := []
  nextKey := 0

/-- states.rs:462-465. -/
def child (l : Listener) (k : Nat) : Option Child := l.children.find? (fun c => c.key == k)

/-- Replace the state of a child. -/
def setChild (l : Listener) (k : Nat) (t : Tcp) : Listener :=
  { l with children := l.children.map (fun c => if c.key = k then { c with tcp := t } else c) }

/-- A child that `accept` may return (states.rs:417-420). -/
def acceptable (t : Tcp) : Bool :=
  match t.st with
  | .on .established _ | .on .closeWait _ => true
  | _ => false

/-- util/mod.rs:67-73, `remove_from_list` (the first occurrence). -/
def removeFrom (q : List Nat) (k : Nat) : List Nat := q.erase k

/-- Add to the back or remove (states.rs:404-431). -/
def syncQueue (q : List Nat) (k : Nat) (wanted : Bool) : List Nat :=
  if wanted then (if q.contains k then q else q ++ [k]) else removeFrom q k

def syncQueues (l : Listener) (k : Nat) (send accept : Bool) : Listener :=
  { l with toSend := syncQueue l.toSend k send, acceptQueue := syncQueue l.acceptQueue k accept }

/-- states.rs:446-460, `remove_child`. -/
def removeChild (l : Listener) (k : Nat) : R (Option (Tcp × Listener)) :=
  match l.child k with
  | none => .ok none
  | some c => do
    R.assert (l.connMap c.addrs == some k)
    return some (c.tcp, { l with
      children := l.children.filter (fun x => x.key != k)
      acceptQueue := removeFrom l.acceptQueue k
      toSend := removeFrom l.toSend k
      connMap := fun a => if a = c.addrs then none else l.connMap a })

/-- states.rs:438-441: a closed child is dropped. -/
def dropIf (l : Listener) (k : Nat) (isClosed : Bool) : R (Option Listener) :=
  if isClosed = true then do
    let r ← l.removeChild k
    let r ← R.unwrap r
    return some r.2
  else .ok (some l)

/-- states.rs:394-444, `sync_child`; `none` is `ChildNotFound`. -/
def syncChild (l : Listener) (k : Nat) : R (Option Listener) :=
  match l.child k with
  | none => .ok none
  | some c => do
    let w ← c.tcp.wantsToSend
    R.assert (l.connMap c.addrs).isSome
    (l.syncQueues k w (acceptable c.tcp)).dropIf k c.tcp.poll.closed

/-- states.rs:467-488, `with_child`; `none` is `ChildNotFound`. -/
def withChild {α : Type} (l : Listener) (k : Nat) (f : Tcp → R (Tcp × α)) : R (Option (Listener × α)) :=
  match l.child k with
  | none => .ok none
  | some c => do
    let r ← f c.tcp
    let l ← (l.setChild k r.1).syncChild k
    let l ← R.unwrap l
    return some (l, r.2)

/-- states.rs:364-387: the new entry of the slot map and of the address map. -/
def insertChild (l : Listener) (t : Tcp) (addrs : Addr × Addr) : Listener :=
  { l with
    children := l.children ++ [⟨l.nextKey, t, addrs⟩]
    connMap := fun a => if a = addrs then some l.nextKey else l.connMap a
    nextKey := l.nextKey + 1 }

/-- states.rs:360-392, `register_child`. -/
def registerChild (l : Listener) (h : Header) (p : Payload) : R Listener := do
  R.assert h.flags.syn
  R.assert (!h.flags.rst)
  let r ← (Conn.new h.dst h.src 0 l.scaling).pushPacket h p
  R.assert (l.connMap (h.src, h.dst)).isNone
  let l' ← (l.insertChild ⟨.on .synReceived r.1, none⟩ (h.src, h.dst)).syncChild l.nextKey
  R.unwrap l'

/-- states.rs:635-637: is the accept queue full? -/
def acceptFull (l : Listener) : Bool := decide (l.maxBacklog ≤ l.acceptQueue.length)

/-- states.rs:630-638: is the queue of half-open connections full? -/
def synFull (l : Listener) : R Bool := do
  R.assert (decide (l.acceptQueue.length ≤ l.children.length))
  return decide (l.maxBacklog ≤ l.children.length - l.acceptQueue.length)

/-- Is the child in the state "syn-received"? -/
def isSynReceived (l : Listener) (k : Nat) : Bool :=
  match l.child k with
  | some ⟨_, ⟨.on .synReceived _, _⟩, _⟩ => true
  | _ => false

/-- states.rs:649-667: the packet belongs to a child. -/
def pushToChild (l : Listener) (k : Nat) (h : Header) (p : Payload) : R (Listener × Res Nat) :=
  if l.isSynReceived k && h.flags.ack && l.acceptFull then .ok (l, .ok 0)
  else do
    let r ← l.withChild k (fun t => t.push h p)
    R.unwrap r

/-- states.rs:669-682: the packet belongs to no child. -/
def pushNew (l : Listener) (h : Header) (p : Payload) : R (Listener × Res Nat) :=
  if h.flags.syn = true then do
    let l ← l.registerChild h p
    return (l, .ok 0)
  else .ok (l, .ok 0)

/-- states.rs:605-683, `push_packet`. -/
def push (l : Listener) (h : Header) (p : Payload) : R (Listener × Res Nat) := do
  let sf ← l.synFull
  if h.flags.syn && (l.acceptFull || sf) then return (l, .ok 0)
  else match l.connMap (h.src, h.dst) with
    | some k => l.pushToChild k h p
    | none => l.pushNew h p

/-- states.rs:685-710, `pop_packet`. -/
def pop (l : Listener) : R (Listener × Res (Header × Payload)) :=
  match l.sendBuffer with
  | h :: rest => .ok ({ l with sendBuffer := rest }, .ok (h, []))
  | [] => match l.toSend with
    | k :: rest => do
      let r ← ({ l with toSend := rest } : Listener).withChild k Tcp.pop
      let r ← R.unwrap r
      R.assert r.2.isOk
      return r
    | [] => .ok (l, .err .noPacket)

/-- states.rs:576-595, `accept`. -/
def accept (l : Listener) : R (Listener × Res Tcp) :=
  match l.acceptQueue with
  | [] => .ok (l, .err .nothingToAccept)
  | k :: rest => do
    let r ← ({ l with acceptQueue := rest } : Listener).removeChild k
    let r ← R.unwrap r
    R.assert (acceptable r.1)
    return (r.2, .ok r.1)

/-- states.rs:507-513, the inner loop of `rst_close`: take all packets of the child.  Running out of
    fuel would be an endless loop; see `rstClose`. -/
def drainChild : Nat → Listener → Nat → R Listener
  | 0, _, _ => .panic
  | fuel + 1, l, k => do
    let r ← l.withChild k Tcp.pop
    match r with
    | some (l', .ok x) => do
      R.assert (Payload.isEmpty x.2)
      drainChild fuel { l' with sendBuffer := l'.sendBuffer ++ [x.1] } k
    | some (l', .err _) => .ok l'
    | none => .ok l

/-- states.rs:501-514, the outer loop of `rst_close` over the keys in the order `ks`.  A child that
    was reset has exactly one packet, so two turns of the inner loop are enough. -/
def closeChildren : List Nat → Listener → R Listener
  | [], l => .ok l
  | k :: ks, l => do
    let r ← l.withChild k Tcp.rstClose
    let r ← R.unwrap r
    R.assert r.2.isOk
    let l ← drainChild 2 r.1 k
    closeChildren ks l

/-- states.rs:528-535: the state after the listening state. -/
def afterListen (ps : List Header) : R CState :=
  if ps.isEmpty = true then mkClosed none false else mkRst ps false

/-- states.rs:491-537, `close` and `rst_close`.  `order` is the order in which the slot map gives its
    keys. -/
def close (l : Listener) (order : List Nat) : R Tcp := do
  let l ← closeChildren order l
  R.assert l.children.isEmpty
  let st ← afterListen (l.sendBuffer.filter (fun h => h.flags.rst))
  return ⟨st, none⟩

/-- states.rs:548-566, `listen` on a listening socket (the caller's association function succeeds). -/
def relisten (l : Listener) (backlog : Nat) : Listener := { l with maxBacklog := backlogLimit backlog }

/-- states.rs:161-186: a timer that was registered by a child. -/
def timeout (l : Listener) (key : Nat) (k : Kind) : R Listener := do
  let r ← l.withChild key (fun t => do
    let t ← t.timeout k
    return (t, ()))
  return (r.map (·.1)).getD l

/-- states.rs:716-728, `poll`. -/
def poll (l : Listener) : Poll := { listening := true, readyToAccept := !l.acceptQueue.isEmpty }

/-- states.rs:730-732, `wants_to_send`. -/
def wantsToSend (l : Listener) : Bool := !l.sendBuffer.isEmpty || !l.toSend.isEmpty

end Listener

/-! ## The whole socket -/

/-- lib.rs:341-357, `TcpStateEnum`. -/
inductive Sock where
  /-- states.rs:19-26, `InitState`. -/
  | init (scaling : Bool)
  | listening (l : Listener)
  | conn (t : Tcp)

namespace Sock

/-- states.rs:295-313 and the other `connect`s; `la` is the local address that the association
    function returns, `none` if it fails. -/
def connect (s : Sock) (remote : Addr) (la : Option Addr) : R (Sock × Res Unit) :=
  match s with
  | .init sc => match la with
    | none => .ok (s, .err .failedAssociation)
    | some a => do
      R.assert (a.ip != 0)
      return (.conn ⟨.on .synSent (Conn.new a remote 0 sc), none⟩, .ok ())
  | .listening _ => .ok (s, .err .isListening)
  | .conn t => .ok (s, .err t.connect)

/-- states.rs:278-293 and 548-566; `ok` tells whether the association function succeeds. -/
def listen (s : Sock) (backlog : Nat) (ok : Bool) : Sock × Res Unit :=
  match s with
  | .init sc => if ok then (.listening (Listener.new sc backlog), .ok ()) else (s, .err .failedAssociation)
  | .listening l => if ok then (.listening (l.relisten backlog), .ok ()) else (s, .err .failedAssociation)
  | .conn _ => (s, .err .invalidState)

/-- `close` (states.rs:263-266 for "init"). -/
def close (s : Sock) (order : List Nat) : R Sock :=
  match s with
  | .init _ => do
    let st ← mkClosed none false
    return .conn ⟨st, none⟩
  | .listening l => do
    let t ← l.close order
    return .conn t
  | .conn t => do
    let t ← t.close
    return .conn t

/-- `shutdown` (states.rs:274-276, 539-546). -/
def shutdown (s : Sock) (how : How) : R (Sock × Res Unit) :=
  match s with
  | .conn t => do
    let r ← t.shutdown how
    return (.conn r.1, r.2)
  | _ => .ok (s, .err .notConnected)

/-- `send` (states.rs:315-317, 597-599). -/
def send (s : Sock) (src : List Byte) (n : Nat) : R (Sock × Res Nat) :=
  match s with
  | .conn t => do
    let r ← t.send src n
    return (.conn r.1, r.2)
  | _ => .ok (s, .err .notConnected)

/-- `recv` (states.rs:319-321, 601-603). -/
def recv (s : Sock) (n cap : Nat) : R (Sock × List Byte × Res Nat) :=
  match s with
  | .conn t => do
    let r ← t.recv n cap
    return (.conn r.1, r.2)
  | _ => .ok (s, [], .err .notConnected)

/-- `accept` (only the listening state implements it). -/
def accept (s : Sock) : R (Sock × Res Tcp) :=
  match s with
  | .listening l => do
    let r ← l.accept
    return (.listening r.1, r.2)
  | _ => .ok (s, .err .invalidState)

/-- `push_packet` ("init" does not implement it). -/
def push (s : Sock) (h : Header) (p : Payload) : R (Sock × Res Nat) :=
  match s with
  | .init _ => .ok (s, .err .invalidState)
  | .listening l => do
    let r ← l.push h p
    return (.listening r.1, r.2)
  | .conn t => do
    let r ← t.push h p
    return (.conn r.1, r.2)

/-- `pop_packet` ("init" does not implement it). -/
def pop (s : Sock) : R (Sock × Res (Header × Payload)) :=
  match s with
  | .init _ => .ok (s, .err .invalidState)
  | .listening l => do
    let r ← l.pop
    return (.listening r.1, r.2)
  | .conn t => do
    let r ← t.pop
    return (.conn r.1, r.2)

end Sock
end Shadow.Tcp
