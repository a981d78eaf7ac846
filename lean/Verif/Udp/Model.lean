import Verif.IoVec.Model
import Verif.NetIface.Model

/-!
# UDP sockets

Model of `UdpSocket` (`src/main/host/descriptor/socket/inet/udp.rs`).  The bytes of messages have an
arbitrary type.  The association with the network interface is that of C15 and C16; here its result
is an argument of the calls that need one.
-/
namespace Shadow.Udp
open Shadow.Base
open Shadow.NetIface (SockAddr localhostIp)
open Shadow.IoVec (Mem Iov Cursor totalLen readExact writeAll)

variable {α H : Type}

/-- `CONFIG_DATAGRAM_MAX_SIZE` (udp.rs:35). -/
abbrev maxSize : Nat := 65507

/-- The error numbers used. -/
inductive Errno where
  | EPIPE | EINVAL | EAFNOSUPPORT | EDESTADDRREQ | EMSGSIZE | EWOULDBLOCK | EFAULT | ENOTCONN
  | ECONNREFUSED | EADDRINUSE | EADDRNOTAVAIL
deriving DecidableEq, Repr

/-! ## Buffers of messages -/

/-- `MessageBuffer` (udp.rs:1116-1128). -/
structure Buf (α H : Type) where
  buffer : List (List α × H) := []
  lenBytes : Nat := 0
  limit : Nat

/-- `has_space` (udp.rs:1181-1183). -/
def Buf.hasSpace (b : Buf α H) : Bool := b.lenBytes < b.limit

/-- `push_message` (udp.rs:1141-1156), with the `unwrap` of the callers. -/
def Buf.push (b : Buf α H) (m : List α) (h : H) : R (Buf α H) := do
  R.assert b.hasSpace
  .ok { b with buffer := b.buffer ++ [(m, h)], lenBytes := b.lenBytes + m.length }

/-- `pop_message` (udp.rs:1160-1165); the subtraction must not underflow. -/
def Buf.pop (b : Buf α H) : R (Option ((List α × H) × Buf α H)) :=
  match b.buffer with
  | [] => .ok none
  | x :: xs => do
    R.assert (x.1.length ≤ b.lenBytes)
    .ok (some (x, { b with buffer := xs, lenBytes := b.lenBytes - x.1.length }))

/-! ## The socket -/

/-- `MessageSendHeader` (udp.rs:1088-1096). -/
structure SendHdr where
  src : SockAddr
  dst : SockAddr
  prio : Nat
deriving DecidableEq, Repr

/-- `MessageRecvHeader` (udp.rs:1100-1110). -/
structure RecvHdr where
  src : SockAddr
  dst : SockAddr
  time : Nat
deriving DecidableEq, Repr

/-- The flags of `FileState` that occur here. -/
structure Flags where
  active : Bool := false
  closed : Bool := false
  readable : Bool := false
  writable : Bool := false
deriving DecidableEq, Repr

/-- The fields of `UdpSocket` (udp.rs:37-55) but the listeners.  `nonblock` is the one flag of `status`
that matters; `assoc` tells whether there is an association handle. -/
structure Sock (α : Type) where
  state : Flags := { active := true }
  nonblock : Bool := false
  shutR : Bool := false
  shutW : Bool := false
  send : Buf α SendHdr
  recv : Buf α RecvHdr
  peer : Option SockAddr := none
  bound : Option SockAddr := none
  assoc : Bool := false
  lastRecv : Option Nat := none

/-- What the listeners are told: the state, what changed, and whether the read buffer grew. -/
structure Note where
  state : Flags
  changed : Flags
  grew : Bool
deriving DecidableEq, Repr

/-- `handle_state_change` (udp.rs:1067-1083). -/
def noteOf (old new : Flags) (grew : Bool) : Option Note :=
  let changed : Flags := ⟨old.active != new.active, old.closed != new.closed,
    old.readable != new.readable, old.writable != new.writable⟩
  if changed = {} ∧ grew = false then none else some ⟨new, changed, grew⟩

/-- `refresh_readable_writable` with `update_state` (udp.rs:1024-1065). -/
def Sock.refresh (s : Sock α) (grew : Bool) : Sock α × Option Note :=
  let new := { s.state with readable := !s.recv.buffer.isEmpty, writable := s.send.hasSpace }
  ({ s with state := new }, noteOf s.state new grew)

/-- `new` (udp.rs:58-85). -/
def Sock.new (nonblock : Bool) (sendSize recvSize : Nat) : Sock α :=
  (({ nonblock, send := { limit := sendSize }, recv := { limit := recvSize } } : Sock α).refresh
    false).1

/-! ## The network's side -/

/-- A packet on the network. -/
structure Pkt (α : Type) where
  src : SockAddr
  dst : SockAddr
  data : List α
deriving DecidableEq, Repr

/-- What happened, for the statements about whole executions. -/
inductive Ev (α : Type) where
  /-- a send put this into the send buffer -/
  | sent (p : Pkt α)
  /-- the interface took this from the socket -/
  | pulled (p : Pkt α)
  /-- the socket accepted this from the interface -/
  | accepted (p : Pkt α)
  /-- the socket dropped this -/
  | refused (p : Pkt α)
  /-- a receive without `MSG_PEEK` removed this from the receive buffer -/
  | took (p : Pkt α)
deriving DecidableEq, Repr

/-- `push_in_packet` (udp.rs:109-170). -/
def pushIn (s : Sock α) (p : Pkt α) (time : Nat) : R (Sock α × Option Note × List (Ev α)) :=
  if s.peer.any (· ≠ p.src) then .ok (s, none, [.refused p])
  else if !s.recv.hasSpace then .ok (s, none, [.refused p])
  else do
    let b ← s.recv.push p.data ⟨p.src, p.dst, time⟩
    let (s, note) := { s with recv := b }.refresh true
    .ok (s, note, [.accepted p])

/-- `pull_out_packet` (udp.rs:172-192). -/
def pullOut (s : Sock α) : R (Option (Pkt α × Nat) × Sock α × Option Note × List (Ev α)) := do
  match ← s.send.pop with
  | none => .ok (none, s, none, [])
  | some ((data, h), b) =>
    let (s, note) := { s with send := b }.refresh false
    .ok (some (⟨h.src, h.dst, data⟩, h.prio), s, note, [.pulled ⟨h.src, h.dst, data⟩])

/-! ## The program's side -/

/-- `getsockname` (udp.rs:202-217). -/
def getsockname (s : Sock α) : SockAddr :=
  let addr := s.bound.getD ⟨0, 0⟩
  if addr.ip = 0 then
    match s.peer with
    | some p => { addr with ip := p.ip }
    | none => addr
  else addr

/-- `getpeername` (udp.rs:219-221). -/
def getpeername (s : Sock α) : Except Errno SockAddr :=
  match s.peer with
  | some p => .ok p
  | none => .error .ENOTCONN

/-- `close` (udp.rs:227-238). -/
def close (s : Sock α) : Sock α × Option Note :=
  let new : Flags := { closed := true }
  ({ s with assoc := false, state := new }, noteOf s.state new false)

/-- The errors of `associate_socket`. -/
def ofAssoc : NetIface.Errno → Errno
  | .inval => .EINVAL
  | .addrInUse => .EADDRINUSE
  | .addrNotAvail => .EADDRNOTAVAIL

/-- An address argument: missing, of another family, or an inet address. -/
inductive AddrArg where
  | missing
  | other
  | inet (a : SockAddr)
deriving DecidableEq, Repr

/-- `bind` (udp.rs:240-296).  `res` is what `associate_socket` returns for the address. -/
def bind (s : Sock α) (addr : AddrArg) (res : NetIface.Res) : R (Except Errno Unit × Sock α) :=
  match addr with
  | .missing => .ok (.error .EFAULT, s)
  | .other => .ok (.error .EINVAL, s)
  | .inet _ =>
    if s.bound.isSome then .ok (.error .EINVAL, s)
    else do
      R.assert s.peer.isNone
      R.assert (!s.assoc)
      match res with
      | .err e => .ok (.error (ofAssoc e), s)
      | .ok a => .ok (.ok (), { s with bound := some a, assoc := true })

/-- "make sure that we're bound", in `sendmsg` (udp.rs:369-415) and `connect` (udp.rs:697-747): the
interface must fit the destination, or the socket is bound implicitly. -/
def ensureBound (s : Sock α) (dst : SockAddr) (res : NetIface.Res) :
    R (Except Errno Unit × Sock α) :=
  match s.bound with
  | some b => do
    R.assert s.assoc
    if b.ip ≠ 0 ∧ (b.ip == localhostIp) ≠ (dst.ip == localhostIp) then .ok (.error .EINVAL, s)
    else .ok (.ok (), s)
  | none => do
    R.assert s.peer.isNone
    R.assert (!s.assoc)
    match res with
    | .err e => .ok (.error (ofAssoc e), s)
    | .ok a => .ok (.ok (), { s with bound := some a, assoc := true })

/-- What a call returns: a value, an error, or that the thread has to wait for the file. -/
inductive Ret (β : Type) where
  | ok (b : β)
  | err (e : Errno)
  | blocked
deriving DecidableEq, Repr

structure SendArgs where
  /-- flags that `MsgFlags` does not know -/
  badFlags : Bool := false
  dontwait : Bool := false
  addr : AddrArg := .missing
  iovs : List Iov
deriving DecidableEq, Repr

/-- The destination (udp.rs:334-347). -/
def destination (s : Sock α) (a : AddrArg) : Except Errno SockAddr :=
  match a with
  | .inet x => .ok x
  | .other => .error .EAFNOSUPPORT
  | .missing =>
    match s.peer with
    | some x => .ok x
    | none => .error .EDESTADDRREQ

/-- The source address of a message (udp.rs:435-447); `ip` is the default address of the host. -/
def sourceAddr (b dst : SockAddr) (ip : Nat) : SockAddr :=
  if b.ip = 0 then
    if dst.ip = localhostIp then ⟨localhostIp, b.port⟩ else ⟨ip, b.port⟩
  else b

/-- The closure of `sendmsg` (udp.rs:418-477): the message is read and pushed. -/
def sendBody (s : Sock α) (m : Mem α) (iovs : List Iov) (dst : SockAddr) (ip prio : Nat) :
    R (Except Errno Nat × Sock α × List (Ev α)) :=
  if !s.send.hasSpace then .ok (.error .EWOULDBLOCK, s, [])
  else do
    match ← readExact m (Cursor.new iovs) (totalLen iovs) with
    | .short => .panic
    | .fault => .ok (.error .EFAULT, s, [])
    | .ok (data, _) =>
      let b ← R.unwrap s.bound
      let src := sourceAddr b dst ip
      let buf ← s.send.push data ⟨src, dst, prio⟩
      .ok (.ok (totalLen iovs), { s with send := buf }, [.sent ⟨src, dst, data⟩])

/-- `sendmsg` (udp.rs:327-490).  `res` is what `associate_socket` returns for 0.0.0.0, `ip` the address
of the host, `prio` the next packet priority. -/
def sendmsg (s : Sock α) (m : Mem α) (a : SendArgs) (res : NetIface.Res) (ip prio : Nat) :
    R (Ret Nat × Sock α × Option Note × List (Ev α)) :=
  if s.shutW then .ok (.err .EPIPE, s, none, [])
  else if a.badFlags then .ok (.err .EINVAL, s, none, [])
  else match destination s a.addr with
  | .error e => .ok (.err e, s, none, [])
  | .ok dst =>
    if totalLen a.iovs > maxSize then .ok (.err .EMSGSIZE, s, none, [])
    else do
      match ← ensureBound s dst res with
      | (.error e, s) => .ok (.err e, s, none, [])
      | (.ok (), s) =>
        let (r, s, e) ← sendBody s m a.iovs dst ip prio
        let (s, note) := s.refresh false
        match r with
        | .ok n => .ok (.ok n, s, note, e)
        | .error .EWOULDBLOCK =>
          if a.dontwait || s.nonblock then .ok (.err .EWOULDBLOCK, s, note, e)
          else .ok (.blocked, s, note, e)
        | .error x => .ok (.err x, s, note, e)

structure RecvArgs where
  badFlags : Bool := false
  dontwait : Bool := false
  peek : Bool := false
  /-- `MSG_TRUNC` -/
  trunc : Bool := false
  iovs : List Iov
deriving DecidableEq, Repr

/-- `RecvmsgReturn`: the return value, the source address, and whether `MSG_TRUNC` is reported. -/
structure Received where
  val : Nat
  addr : Option SockAddr
  cut : Bool
deriving DecidableEq, Repr

/-- The end of the closure of `recvmsg` (udp.rs:526-553): the message is truncated and written. -/
def deliver (s : Sock α) (m : Mem α) (a : RecvArgs) (data : List α) (h : RecvHdr) :
    R (Except Errno Received × Sock α × Mem α) := do
  let cut := data.take (min (totalLen a.iovs) data.length)
  match ← writeAll m (Cursor.new a.iovs) cut with
  | (.short, _) => .panic
  | (.fault, m) => .ok (.error .EFAULT, s, m)
  | (.ok _, m) =>
    .ok (.ok ⟨if a.trunc then data.length else cut.length, some h.src, cut.length < data.length⟩,
      { s with lastRecv := some h.time }, m)

/-- The closure of `recvmsg` (udp.rs:505-553). -/
def recvBody (s : Sock α) (m : Mem α) (a : RecvArgs) :
    R (Except Errno Received × Sock α × Mem α × List (Ev α)) :=
  if a.peek then
    match s.recv.buffer with
    | [] => .ok (.error .EWOULDBLOCK, s, m, [])
    | (data, h) :: _ => do
      let (r, s, m) ← deliver s m a data h
      .ok (r, s, m, [])
  else do
    match ← s.recv.pop with
    | none => .ok (.error .EWOULDBLOCK, s, m, [])
    | some ((data, h), b) =>
      let (r, s, m) ← deliver { s with recv := b } m a data h
      .ok (r, s, m, [.took ⟨h.src, h.dst, data⟩])

/-- `recvmsg` (udp.rs:484-579). -/
def recvmsg (s : Sock α) (m : Mem α) (a : RecvArgs) :
    R (Ret Received × Sock α × Mem α × Option Note × List (Ev α)) :=
  if a.badFlags then .ok (.err .EINVAL, s, m, none, [])
  else do
    let (r, s, m, e) ← recvBody s m a
    let (s, note) := s.refresh false
    match r with
    | .ok x => .ok (.ok x, s, m, note, e)
    | .error .EWOULDBLOCK =>
      if a.dontwait || s.nonblock then .ok (.err .EWOULDBLOCK, s, m, note, e)
      else if s.shutR then .ok (.ok ⟨0, none, false⟩, s, m, note, e)
      else .ok (.blocked, s, m, note, e)
    | .error x => .ok (.err x, s, m, note, e)

/-- `connect` (udp.rs:668-752).  `routable`: `Worker::is_routable`.  `res` is what `associate_socket`
returns for the address of the interface towards the peer. -/
def connect (s : Sock α) (addr : AddrArg) (routable : Bool) (res : NetIface.Res) :
    R (Except Errno Unit × Sock α) :=
  match addr with
  | .inet a =>
    let peer : SockAddr := if a.ip = 0 then { a with ip := localhostIp } else a
    if peer.ip ≠ localhostIp ∧ routable = false then .ok (.error .ECONNREFUSED, s)
    else do
      match ← ensureBound s peer res with
      | (.error e, s) => .ok (.error e, s)
      | (.ok (), s) => .ok (.ok (), { s with peer := some peer })
  | _ => .ok (.error .EINVAL, s)

/-- The address that `connect` binds an unbound socket to (udp.rs:723-728). -/
def connectLocal (peer : SockAddr) (ip : Nat) : SockAddr :=
  if peer.ip = localhostIp then ⟨localhostIp, 0⟩ else ⟨ip, 0⟩

/-- `Shutdown`. -/
inductive How where
  | rd | wr | rdwr
deriving DecidableEq, Repr

/-- `shutdown` (udp.rs:763-784). -/
def shutdown (s : Sock α) (how : How) : Except Errno Unit × Sock α :=
  if s.peer.isNone then (.error .ENOTCONN, s)
  else
    (.ok (), { s with
      shutW := s.shutW || how = .wr || how = .rdwr
      shutR := s.shutR || how = .rd || how = .rdwr })

/-- `setsockopt` of `SO_SNDBUF` and `SO_RCVBUF` (udp.rs:894-954) with a non-negative value.  The state
is not refreshed. -/
def setSndBuf (s : Sock α) (v : Nat) : Sock α :=
  { s with send := { s.send with limit := min (max (v * 2) 4096) 268435456 } }

def setRcvBuf (s : Sock α) (v : Nat) : Sock α :=
  { s with recv := { s.recv with limit := min (max (v * 2) 2048) 268435456 } }

/-! ## Executions -/

inductive Act (α : Type) where
  | pushIn (p : Pkt α) (time : Nat)
  | pullOut
  | bind (a : AddrArg) (res : NetIface.Res)
  | connect (a : AddrArg) (routable : Bool) (res : NetIface.Res)
  | sendmsg (m : Mem α) (a : SendArgs) (res : NetIface.Res) (ip prio : Nat)
  | recvmsg (m : Mem α) (a : RecvArgs)
  | shutdown (how : How)
  | setSndBuf (v : Nat)
  | setRcvBuf (v : Nat)
  | close

/-- One call.  `none`: after `close` there are no more calls (the file has no descriptor left and is
no longer associated); only the interface empties the send buffer. -/
def step (s : Sock α) (a : Act α) : Option (R (Sock α × List (Ev α))) :=
  match a with
  | .pullOut => some (do let (_, s, _, e) ← pullOut s; .ok (s, e))
  | a =>
    if s.state.closed then none
    else match a with
    | .pushIn p t => some (do let (s, _, e) ← pushIn s p t; .ok (s, e))
    | .bind a res => some (do let (_, s) ← bind s a res; .ok (s, []))
    | .connect a r res => some (do let (_, s) ← connect s a r res; .ok (s, []))
    | .sendmsg m a res ip prio => some (do let (_, s, _, e) ← sendmsg s m a res ip prio; .ok (s, e))
    | .recvmsg m a => some (do let (_, s, _, _, e) ← recvmsg s m a; .ok (s, e))
    | .shutdown how => some (.ok ((shutdown s how).2, []))
    | .setSndBuf v => some (.ok (setSndBuf s v, []))
    | .setRcvBuf v => some (.ok (setRcvBuf s v, []))
    | .close => some (.ok ((close s).1, []))
    | .pullOut => none

/-- Executions of a socket. -/
inductive Run (s₀ : Sock α) : List (Ev α) → Sock α → Prop where
  | nil : Run s₀ [] s₀
  | step {es s a s' e} : Run s₀ es s → step s a = some (.ok (s', e)) → Run s₀ (es ++ e) s'

end Shadow.Udp
