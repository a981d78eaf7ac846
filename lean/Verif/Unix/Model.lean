import Verif.Base.Panic

/-!
# Unix-domain sockets (`src/main/host/descriptor/socket/unix.rs`)

The unix sockets of one host: unbound, listening, connected, datagram and closed sockets, the
receive buffer that every socket owns and its peer writes to, the counter of bytes in flight that
limits a sender, the table of abstract names and the queue of callbacks that is run after every
call.

Simplifications.
* The chunks of a receive buffer are kept as what the byte queue holds: the bytes of a stream, or
  the list of packets.  C24 proves that `byte_queue.rs` behaves so, also when the program's memory
  turns out to be unreadable or unwritable half way; that outcome is the argument `fault` of a call
  here.  The buffer's capacity `usize::MAX` is taken as unlimited.
* An `AtomicRefCell` that would be borrowed twice is a panic; all other borrows are left out.
* `Arc`/`Weak`: sockets are never freed, so an upgrade always succeeds.
* The listeners that other parts of Shadow add to a socket (waiting threads, epoll) are not part of
  the state; what they see is the socket's `flags` (how they are told is C53).
* Addresses are abstract names (numbers here), path names, and addresses of other families.
* Control data, unknown message flags, `ioctl`, `shutdown` and socket options, all of them answered
  with an error at once, are left out.
-/

namespace Shadow.Unix

open Shadow.Base

/-- `UnixSocketType` (unix.rs:2380-2386). -/
inductive Kind
  | stream | dgram | seq
  deriving DecidableEq, Repr

/-- The errors of the calls below. -/
inductive Err
  | again | pipe | refused | msgSize | fault | notConn | isConn | invalid | opNotSupp | noEnt
  | addrInUse | notSup
  deriving DecidableEq, Repr

/-- An address given to `bind`, `connect` or `sendto`: an abstract name, a path name, the unnamed
unix address, or an address of another family (`as_unix()` is `None`). -/
inductive Addr
  | name (n : Nat) | path | unnamed | foreign
  deriving DecidableEq, Repr

/-- The three state bits of a buffer that somebody listens to (`BufferState`, shared_buf.rs).
`WRITABLE` never changes, since the buffers of unix sockets are unlimited. -/
structure BState where
  readable : Bool := false
  noReaders : Bool := true
  noWriters : Bool := true
  deriving DecidableEq, Repr

/-- The filters of the listeners that sockets put on buffers: the owner of a connected socket
(`READABLE | NO_WRITERS` and `BUFFER_GREW`, unix.rs:1220-1235, 1282-1297, 1455-1470), the owner of a
datagram socket (`READABLE` and `BUFFER_GREW`, unix.rs:465-480), and the peer that writes to the
buffer (`WRITABLE | NO_READERS`, unix.rs:1203-1214, 1263-1274, 1440-1451). -/
inductive Role
  | own | ownDgram | peer
  deriving DecidableEq, Repr

/-- `SharedBuf` (shared_buf.rs): contents, counts of readers and writers, the published state and
the listeners in the order in which they were added. -/
structure Buf (α : Type) where
  bytes : List α := []
  pkts : List (List α) := []
  readers : Nat := 0
  writers : Nat := 0
  st : BState := {}
  ears : List (Nat × Role) := []
  deriving DecidableEq, Repr

variable {α : Type}

/-- `SharedBuf::has_data` (shared_buf.rs): there is a chunk in the byte queue. -/
def Buf.hasData (b : Buf α) : Bool := !b.bytes.isEmpty || !b.pkts.isEmpty

/-- The state that `SharedBuf::refresh_state` publishes (shared_buf.rs). -/
def Buf.exact (b : Buf α) : BState :=
  { readable := b.hasData, noReaders := b.readers == 0, noWriters := b.writers == 0 }

/-- `ByteData` (unix.rs:2421-2425): who sent a packet of a datagram socket, from which address, and
how long it is. -/
structure Entry where
  src : Nat
  addr : Option Nat
  len : Nat
  deriving DecidableEq, Repr

/-- `ProtocolState` (unix.rs:369-436).  The `peer_addr` fields serve `getpeername` only. -/
inductive Proto
  | init (bound : Option Nat)
  | listening (bound : Nat) (queue : List Nat) (limit : Nat)
  | conn (bound : Option Nat) (peerAddr : Option Nat) (peer : Nat)
  | closed
  | dgram (bound : Option Nat) (peer : Option Nat) (recv : List Entry)
  | dgramClosed
  deriving DecidableEq, Repr

/-- The bits of `FileState` that a unix socket uses. -/
structure Flags where
  active : Bool := true
  readable : Bool := false
  writable : Bool := false
  allowing : Bool := false
  closed : Bool := false
  deriving DecidableEq, Repr

/-- `UnixSocket` with `UnixSocketCommon` (unix.rs:36-40, 1975-1989); the fields `sent_len`, `state`,
`status` and `send_limit` of the latter are in `World`.  `reg` is the abstract name
under which the socket is in the namespace (the entry's listener waits for the socket to close);
`held` says that the program has the socket open, so that calls can reach it. -/
structure Sock (α : Type) where
  kind : Kind
  proto : Proto
  buf : Buf α := {}
  reg : Option Nat := none
  held : Bool := true
  deriving DecidableEq, Repr

/-- An entry of the callback queue (`CallbackQueue`): refresh a socket's state, with or without the
signal that its buffer grew; tell a sender that bytes were taken; drop a name of a closed socket. -/
inductive Cb
  | refresh (i : Nat) (grew : Bool)
  | inform (i : Nat) (n : Nat)
  | unbind (k : Kind) (name : Nat)
  deriving DecidableEq, Repr

/-- The unix sockets of a host, its abstract names (`AbstractUnixNamespace::address_map`), and the
callbacks that have been queued and not run yet.  Of socket `i`, `sent i` is `sent_len` (the bytes
in flight), `flags i` is `state`, `nonblock i` the flag `NONBLOCK` of `status`.  `limit` is
`send_limit`, the same for all sockets and never changed (unix.rs:32, 58). -/
structure World (α : Type) where
  socks : Nat → Option (Sock α)
  sent : Nat → Nat
  flags : Nat → Flags
  nonblock : Nat → Bool
  limit : Nat
  next : Nat
  ns : Kind → Nat → Option Nat
  cbs : List Cb

/-- A host without unix sockets. -/
def World.empty (limit : Nat) : World α :=
  { socks := fun _ => none, sent := fun _ => 0, flags := fun _ => {}, nonblock := fun _ => false,
    limit, next := 0, ns := fun _ _ => none, cbs := [] }

/-- Change one entry of a table. -/
def put {β : Type} (f : Nat → β) (i : Nat) (b : β) : Nat → β := fun j => if j = i then b else f j

/-- Change one socket. -/
def World.mod (w : World α) (i : Nat) (f : Sock α → Sock α) : World α :=
  { w with socks := fun j => if j = i then (w.socks j).map f else w.socks j }

/-- Queue callbacks (`CallbackQueue::add`). -/
def World.queue (w : World α) (cs : List Cb) : World α := { w with cbs := w.cbs ++ cs }

/-! ## Buffers -/

/-- Whether a listener's filter lets an event pass (listener.rs; C53): one of its bits changed, or
the buffer grew and it asked for that. -/
def Role.hears (r : Role) (old new : BState) (grew : Bool) : Bool :=
  match r with
  | .own => (old.readable != new.readable) || (old.noWriters != new.noWriters) || grew
  | .ownDgram => (old.readable != new.readable) || grew
  | .peer => old.noReaders != new.noReaders

/-- What the callback of a listener does: it refreshes its socket; the owner's passes the signal
that the buffer grew on (unix.rs:1224-1232 and the same closures elsewhere). -/
def earCb (old new : BState) (grew : Bool) (e : Nat × Role) : Option Cb :=
  if e.2.hears old new grew then
    some (.refresh e.1 (grew && (e.2 != .peer)))
  else none

/-- `SharedBuf::refresh_state` and `handle_state_change` (shared_buf.rs) after the buffer of socket
`i` was changed by `f`: publish the new state and queue the callbacks of the listeners. -/
def World.touch (w : World α) (i : Nat) (f : Buf α → Buf α) (grew : Bool) : World α :=
  match w.socks i with
  | none => w
  | some s =>
    (w.mod i fun s => { s with buf := { f s.buf with st := (f s.buf).exact } }).queue
      ((f s.buf).ears.filterMap (earCb s.buf.st (f s.buf).exact grew))

/-- Change a buffer without publishing anything: `add_listener`, dropping a listener's handle, and a
read or write that fails half way. -/
def World.poke (w : World α) (i : Nat) (f : Buf α → Buf α) : World α :=
  w.mod i fun s => { s with buf := f s.buf }

/-- `add_listener` (shared_buf.rs). -/
def Buf.listen (b : Buf α) (j : Nat) (r : Role) : Buf α := { b with ears := b.ears ++ [(j, r)] }

/-- Dropping the listener handles of socket `j`. -/
def Buf.forget (b : Buf α) (j : Nat) : Buf α := { b with ears := b.ears.filter (·.1 != j) }

/-! ## The state bits of a socket -/

/-- The number of readers of a socket's buffer. -/
def World.readers (w : World α) (i : Nat) : Nat :=
  match w.socks i with
  | some s => s.buf.readers
  | none => 0

/-- The five `refresh_file_state` functions (unix.rs:1031-1044, 1336-1361, 1523-1552, 1673-1686,
1719-1740, 1940-1953). -/
def World.flagsOf (w : World α) (i : Nat) (s : Sock α) : Flags :=
  match s.proto with
  | .init _ => {}
  | .listening _ q lim => { readable := !q.isEmpty, allowing := !decide (lim ≤ q.length) }
  | .conn _ _ p =>
    { readable := s.buf.hasData || s.buf.writers == 0
      writable := decide (w.sent i < w.limit) || w.readers p == 0 }
  | .closed => { active := false, closed := true }
  | .dgram _ _ _ => { readable := s.buf.hasData, writable := decide (w.sent i < w.limit) }
  | .dgramClosed => { active := false, closed := true }

/-- The states whose `refresh_file_state` asserts that the buffer did not grow (unix.rs:1037,
1679, 1946). -/
def Proto.quiet : Proto → Bool
  | .init _ => true
  | .closed => true
  | .dgramClosed => true
  | _ => false

/-- `UnixSocket::refresh_file_state` (unix.rs:135-138, 515-547). -/
def refresh (w : World α) (i : Nat) (grew : Bool) : R (World α) :=
  match w.socks i with
  | none => .ok w
  | some s => do
    R.assert (!(grew && s.proto.quiet))
    .ok { w with flags := put w.flags i (w.flagsOf i s) }

/-- `inform_bytes_read` (unix.rs:126-129, 656-680, 1634-1642, 1697-1704, 1859-1867, 1964-1971): a
connected or datagram socket takes the bytes off its counter, a closed one ignores the call, and the
states that never sent anything panic (unix.rs:939-948). -/
def inform (w : World α) (i : Nat) (n : Nat) : R (World α) :=
  match w.socks i with
  | none => .ok w
  | some s =>
    match s.proto with
    | .closed => .ok w
    | .dgramClosed => .ok w
    | .init _ => .panic
    | .listening _ _ _ => .panic
    | _ => do
      R.assert (decide (n ≤ w.sent i))
      refresh { w with sent := put w.sent i (w.sent i - n) } i false

/-- One queued callback.  `unbind` asserts that the name was there (abstract_unix_ns.rs:84-88). -/
def runCb (w : World α) : Cb → R (World α)
  | .refresh i grew => refresh w i grew
  | .inform i n => inform w i n
  | .unbind k n => do
    R.assert (w.ns k n).isSome
    .ok { w with ns := fun k' n' => if k' = k ∧ n' = n then none else w.ns k' n' }

/-- `CallbackQueue::run`: run the callbacks in order.  Those of sockets queue no further callback on
unix sockets. -/
def drainList (w : World α) : List Cb → R (World α)
  | [] => .ok w
  | c :: cs => runCb w c >>= fun w => drainList w cs

/-- `CallbackQueue::queue_and_run`: every call ends with running what it queued. -/
def drain (w : World α) : R (World α) := drainList { w with cbs := [] } w.cbs

/-! ## Creation -/

/-- `UNIX_SOCKET_DEFAULT_BUFFER_SIZE` (unix.rs:32), the `limit` of Shadow's hosts. -/
def defaultLimit : Nat := 212992

/-- `UnixSocket::new` and `ProtocolState::new` (unix.rs:43-74, 439-491).  No `refresh_file_state`
runs: the bits are `ACTIVE` only. -/
def newSock (α : Type) (i : Nat) (k : Kind) : Sock α :=
  match k with
  | .dgram =>
    { kind := k, proto := .dgram none none [],
      buf := { readers := 1, st := { noReaders := false }, ears := [(i, .ownDgram)] } }
  | _ => { kind := k, proto := .init none }

/-- Add a fresh socket. -/
def World.add (w : World α) (s : Sock α) (nonblock : Bool) : World α :=
  { w with
    socks := put w.socks w.next (some s), sent := put w.sent w.next 0
    flags := put w.flags w.next {}, nonblock := put w.nonblock w.next nonblock
    next := w.next + 1 }

/-- The part that `connect`, `connect_unnamed` and `queue_incoming_conn` share (unix.rs:1199-1239,
1257-1301, 1438-1474): listen on the peer's buffer and become its writer, listen on the own buffer
and become its reader, and enter the connected state. -/
def attach (w : World α) (i p : Nat) (bound peerAddr : Option Nat) : World α :=
  ((((w.poke p (·.listen i .peer)).touch p (fun b => { b with writers := b.writers + 1 }) false).poke
    i (·.listen i .own)).touch i (fun b => { b with readers := b.readers + 1 }) false).mod i
      fun s => { s with proto := .conn bound peerAddr p }

/-- `UnixSocket::pair` (unix.rs:300-336) for connection-oriented sockets, and with
`ConnLessInitial::connect_unnamed` (unix.rs:1908-1928) for datagram sockets. -/
def pairBody (w : World α) (k : Kind) (nonblock : Bool) : R (World α) :=
  let a := w.next
  let b := w.next + 1
  let w := (w.add (newSock α a k) nonblock).add (newSock α b k) nonblock
  match k with
  | .dgram => do
    let w ← refresh (w.mod a fun s => { s with proto := .dgram none (some b) [] }) a false
    refresh (w.mod b fun s => { s with proto := .dgram none (some a) [] }) b false
  | _ => do
    let w ← refresh (attach w a b none none) a false
    refresh (attach w b a none none) b false

/-! ## Results -/

/-- What a thread that has to wait waits for: a socket, and which of its bits. -/
inductive Wait
  | readable (i : Nat) | writable (i : Nat) | allowing (i : Nat)
  deriving DecidableEq, Repr

/-- What a call returns. -/
inductive Ret (α : Type)
  | done
  | err (e : Err)
  | wait (x : Wait)
  | socket (i : Nat)
  | two (i j : Nat)
  | sent (n : Nat)
  | got (data : List α) (n : Nat) (trunc : Bool) (addr : Option Nat)
  deriving DecidableEq, Repr

/-- `EWOULDBLOCK`, or a blocked thread if neither the socket nor the call is non-blocking. -/
def block (nonblock : Bool) (x : Wait) : Ret α := if nonblock then .err .again else .wait x

/-! ## Names -/

/-- `lookup_address` (unix.rs:2350-2365). -/
def lookup (w : World α) (k : Kind) : Addr → Except Err Nat
  | .name n =>
    match w.ns k n with
    | some i => .ok i
    | none => .error .refused
  | _ => .error .noEnt

/-- `UnixSocketCommon::bind` (unix.rs:2015-2061).  `auto` is the free name that `autobind` finds for
the unnamed address (C18), if there is one. -/
def commonBind (w : World α) (k : Kind) (addr : Addr) (auto : Option Nat) : Except Err Nat :=
  match addr with
  | .foreign => .error .invalid
  | .name n => if (w.ns k n).isSome then .error .addrInUse else .ok n
  | .unnamed =>
    match auto with
    | none => .error .addrInUse
    | some n => if (w.ns k n).isSome then .error .addrInUse else .ok n
  | .path => .error .notSup

/-- The socket's state with the address it was bound to. -/
def Proto.bindTo (n : Nat) : Proto → Proto
  | .init _ => .init (some n)
  | .dgram _ p r => .dgram (some n) p r
  | x => x

/-- Enter a socket into the namespace (abstract_unix_ns.rs:62-94). -/
def World.register (w : World α) (k : Kind) (n i : Nat) : World α :=
  { w.mod i fun s => { s with proto := s.proto.bindTo n, reg := some n } with
    ns := fun k' n' => if k' = k ∧ n' = n then some i else w.ns k' n' }

/-- `bind` of a socket that is not bound yet. -/
def bindBody (w : World α) (i : Nat) (s : Sock α) (addr : Addr) (auto : Option Nat) :
    World α × Ret α :=
  match commonBind w s.kind addr auto with
  | .error e => (w, .err e)
  | .ok n => (w.register s.kind n i, .done)

/-- `bind` (unix.rs:140-150, 1056-1070, 1768-1782, and the default 904-913). -/
def bind (w : World α) (i : Nat) (s : Sock α) (addr : Addr) (auto : Option Nat) :
    World α × Ret α :=
  match s.proto with
  | .init none => bindBody w i s addr auto
  | .init (some _) => (w, .err .invalid)
  | .dgram none _ _ => bindBody w i s addr auto
  | .dgram (some _) _ _ => (w, .err .invalid)
  | _ => (w, .err .opNotSupp)

/-! ## Listening, connecting, accepting -/

/-- `SHADOW_SOMAXCONN` (core/definitions.h:17). -/
def somaxconn : Nat := 4096

/-- `backlog_to_queue_size` (unix.rs:2367-2380): a negative backlog is a large one after the cast to
`u32`. -/
def queueSize (backlog : Int) : Nat := if backlog < 0 then somaxconn + 1 else min backlog.toNat somaxconn + 1

/-- `listen` (unix.rs:230-242, 1119-1141, 1380-1392, default 962-970). -/
def listen (w : World α) (i : Nat) (s : Sock α) (backlog : Int) : R (World α × Ret α) :=
  match s.proto with
  | .init (some b) => do
    let w ← refresh (w.mod i fun s => { s with proto := .listening b [] (queueSize backlog) }) i false
    .ok (w, .done)
  | .init none => .ok (w, .err .invalid)
  | .listening b q _ => do
    let w ← refresh (w.mod i fun s => { s with proto := .listening b q (queueSize backlog) }) i false
    .ok (w, .done)
  | _ => .ok (w, .err .opNotSupp)

/-- The server's half of a connection when there is room (unix.rs:1432-1501): make the child,
attach it to the client's buffer, defer its refresh, put it into the queue and refresh the server. -/
def enqueue (w : World α) (i srv : Nat) (ss : Sock α) (b : Nat) (q : List Nat) (lim : Nat)
    (from_ : Option Nat) : R (World α) :=
  let c := w.next
  let w := w.add { newSock α c ss.kind with held := false } (w.nonblock srv)
  let w := (attach w c i (some b) from_).queue [.refresh c false]
  refresh (w.mod srv fun s => { s with proto := .listening b (q ++ [c]) lim }) srv false

/-- `ConnOrientedInitial::connect` once the server was found (unix.rs:1165-1247). -/
def connectTo (w : World α) (i : Nat) (n srv : Nat) (bound : Option Nat) :
    R (World α × Ret α) :=
  match w.socks srv with
  | none => .panic
  | some ss =>
    match ss.proto with
    | .listening b q lim =>
      if lim ≤ q.length then do
        R.assert (!(w.flags srv).allowing)
        .ok (w, block (w.nonblock i) (.allowing srv))
      else do
        R.assert (w.flags srv).allowing
        let c := w.next
        let w ← enqueue w i srv ss b q lim bound
        let w ← refresh (attach w i c bound (some n)) i false
        .ok (w, .done)
    | _ => .ok (w, .err .refused)

/-- `connect` of a connection-oriented socket that is not connected (unix.rs:1143-1163): the socket
itself is borrowed, so finding itself at the address is a panic. -/
def connectInit (w : World α) (i : Nat) (s : Sock α) (bound : Option Nat) (addr : Addr) :
    R (World α × Ret α) :=
  match addr with
  | .foreign => .ok (w, .err .invalid)
  | .name n =>
    match lookup w s.kind (.name n) with
    | .error e => .ok (w, .err e)
    | .ok srv => do
      R.assert (srv != i)
      connectTo w i n srv bound
  | a =>
    match lookup w s.kind a with
    | .error e => .ok (w, .err e)
    | .ok _ => .panic

/-- `ConnLessInitial::connect` (unix.rs:1879-1906). -/
def connectDgram (w : World α) (i : Nat) (s : Sock α) (bound : Option Nat) (recv : List Entry)
    (addr : Addr) : R (World α × Ret α) :=
  match addr with
  | .foreign => .ok (w, .err .invalid)
  | a =>
    match lookup w s.kind a with
    | .error e => .ok (w, .err e)
    | .ok p => do
      let w ← refresh (w.mod i fun s => { s with proto := .dgram bound (some p) recv }) i false
      .ok (w, .done)

/-- `connect` (unix.rs:244-255; listening sockets 1394-1402, default 972-981). -/
def connect (w : World α) (i : Nat) (s : Sock α) (addr : Addr) : R (World α × Ret α) :=
  match s.proto with
  | .init bound => connectInit w i s bound addr
  | .listening _ _ _ => .ok (w, .err .invalid)
  | .dgram bound _ recv => connectDgram w i s bound recv addr
  | _ => .ok (w, .err .opNotSupp)

/-- `accept` (unix.rs:257-264, 1317-1324, 1404-1418, 1654-1661, default 997-1004) and the wait of
the system call (handler/socket.rs:758-775). -/
def accept (w : World α) (i : Nat) (s : Sock α) : R (World α × Ret α) :=
  match s.proto with
  | .listening b q lim =>
    match q with
    | [] => .ok (w, block (w.nonblock i) (.readable i))
    | c :: q => do
      let w ← refresh ((w.mod c fun s => { s with held := true }).mod i
        fun s => { s with proto := .listening b q lim }) i false
      .ok (w, .socket c)
  | .init _ => .ok (w, .err .invalid)
  | .conn _ _ _ => .ok (w, .err .invalid)
  | _ => .ok (w, .err .opNotSupp)

/-! ## Sending and receiving -/

/-- Why nothing was sent, or how many bytes are to be read from the program
(unix.rs:2148-2184). -/
def sendLen (k : Kind) (limit sent len : Nat) : Except Err Nat :=
  if limit - sent = 0 then .error .again
  else
    match k with
    | .stream => .ok (min len (limit - sent))
    | _ =>
      if len ≤ limit - sent then .ok len
      else if len ≤ limit then .error .again
      else .error .msgSize

/-- A write to socket `p`'s buffer (unix.rs:2186-2210, `SharedBuf::write_stream`/`write_packet`).
`fault = some k`: the program's memory is unreadable after `k` bytes; of a stream those `k` bytes
have been stored (C24), of a packet nothing. -/
def write (w : World α) (p : Nat) (k : Kind) (data : List α) (fault : Option Nat) :
    World α × Except Err Nat :=
  match k, fault.filter (decide <| · < data.length) with
  | .stream, none =>
    if data.length = 0 then (w, .ok 0)
    else (w.touch p (fun b => { b with bytes := b.bytes ++ data }) true, .ok data.length)
  | .stream, some n =>
    (w.poke p (fun b => { b with bytes := b.bytes ++ data.take n }), .error .fault)
  | _, none => (w.touch p (fun b => { b with pkts := b.pkts ++ [data] }) true, .ok data.length)
  | _, some _ => (w, .error .fault)

/-- `UnixSocketCommon::sendmsg` (unix.rs:2110-2225) to socket `p`.  Borrowing the peer panics if it
is the socket itself.  `dontwait` is `MSG_DONTWAIT`. -/
def commonSend (w : World α) (i : Nat) (s : Sock α) (p : Nat) (data : List α) (dontwait : Bool)
    (fault : Option Nat) : R (World α × Ret α) :=
  if p = i then .panic
  else if w.readers p = 0 then
    .ok (w, .err (match s.kind with | .dgram => .refused | _ => .pipe))
  else
    match sendLen s.kind w.limit (w.sent i) data.length with
    | .error .again => .ok (w, block (w.nonblock i || dontwait) (.writable i))
    | .error e => .ok (w, .err e)
    | .ok len =>
      match write w p s.kind (data.take len) fault with
      | (w, .error e) => .ok (w, .err e)
      | (w, .ok n) => .ok ({ w with sent := put w.sent i (w.sent i + n) }, .sent n)

/-- `resolve_destination` (unix.rs:2063-2108). -/
def resolve (w : World α) (k : Kind) (peer : Option Nat) (dst : Option Addr) : Except Err Nat :=
  match dst with
  | some .foreign => .error .invalid
  | some a =>
    match k, peer with
    | .stream, some _ => .error .isConn
    | .seq, some p => .ok p
    | .stream, none => .error .opNotSupp
    | .seq, none => .error .notConn
    | .dgram, _ => lookup w k a
  | none =>
    match peer with
    | some p => .ok p
    | none => .error .notConn

/-- The end of a datagram `sendmsg` (unix.rs:1799-1818): note the sender with the packet, which
panics unless the receiver is an open datagram socket. -/
def Sock.note (e : Entry) (s : Sock α) : Sock α :=
  { s with proto := match s.proto with
      | .dgram b p r => .dgram b p (r ++ [e])
      | x => x }

/-- The receiver's state in `ConnLessInitial::sendmsg` (unix.rs:1806-1814). -/
def isDgram (w : World α) (p : Nat) : Bool :=
  match w.socks p with
  | some s =>
    match s.proto with
    | .dgram _ _ _ => true
    | _ => false
  | none => false

/-- `ConnLessInitial::sendmsg` (unix.rs:1784-1819) once the destination is known. -/
def sendDgram (w : World α) (i : Nat) (s : Sock α) (p : Nat) (bound : Option Nat) (data : List α)
    (dontwait : Bool) (fault : Option Nat) : R (World α × Ret α) := do
  match ← commonSend w i s p data dontwait fault with
  | (w, .sent n) =>
    R.assert (isDgram w p)
    let w ← refresh (w.mod p (Sock.note { src := i, addr := bound, len := n })) i false
    .ok (w, .sent n)
  | r => .ok r

/-- `ConnOrientedConnected::sendmsg` (unix.rs:1577-1596) once the destination is known. -/
def sendConn (w : World α) (i : Nat) (s : Sock α) (p : Nat) (data : List α)
    (dontwait : Bool) (fault : Option Nat) : R (World α × Ret α) := do
  match ← commonSend w i s p data dontwait fault with
  | (w, .sent n) =>
    let w ← refresh w i false
    .ok (w, .sent n)
  | r => .ok r

/-- `sendmsg` (unix.rs:180-192, 1072-1089, 1577-1596, 1784-1819, default 915-925). -/
def send (w : World α) (i : Nat) (s : Sock α) (dst : Option Addr) (data : List α)
    (dontwait : Bool) (fault : Option Nat) : R (World α × Ret α) :=
  match s.proto with
  | .init _ =>
    match s.kind, dst with
    | .stream, some _ => .ok (w, .err .opNotSupp)
    | _, _ => .ok (w, .err .notConn)
  | .conn _ _ p =>
    match resolve w s.kind (some p) dst with
    | .error e => .ok (w, .err e)
    | .ok p => sendConn w i s p data dontwait fault
  | .dgram bound peer _ =>
    match resolve w s.kind peer dst with
    | .error e => .ok (w, .err e)
    | .ok p => sendDgram w i s p bound data dontwait fault
  | _ => .ok (w, .err .opNotSupp)

/-- `SharedBuf::read` on a buffer (shared_buf.rs, `ByteQueue::pop`, C24): the bytes given to the
program, the number taken out of the buffer, and what is left. -/
def Buf.pop (b : Buf α) (room : Nat) : List α × Nat × Buf α :=
  match b.pkts with
  | p :: ps => (p.take room, p.length, { b with pkts := ps })
  | [] => (b.bytes.take room, min room b.bytes.length, { b with bytes := b.bytes.drop room })

/-- The buffer after a read that met unwritable memory after `n` bytes (C24): those bytes of a
stream are gone, and so is a whole packet. -/
def Buf.lose (b : Buf α) (n : Nat) : Buf α :=
  match b.pkts with
  | _ :: ps => { b with pkts := ps }
  | [] => { b with bytes := b.bytes.drop n }

/-- `UnixSocketCommon::recvmsg` (unix.rs:2227-2304): the data, the bytes taken out of the buffer,
the returned length and the truncation flag; or the error. -/
inductive Got (α : Type)
  | fail (r : Ret α)
  | ok (data : List α) (removed n : Nat) (trunc : Bool)

/-- See `Got`. -/
def commonRecv (w : World α) (i : Nat) (s : Sock α) (room : Nat) (dontwait trunc : Bool)
    (fault : Option Nat) : World α × Got α :=
  if !s.buf.hasData && (s.kind == .dgram || decide (0 < s.buf.writers)) then
    (w, .fail (block (w.nonblock i || dontwait) (.readable i)))
  else
    match fault.filter (decide <| · < (s.buf.pop room).1.length) with
    | some n => (w.poke i (·.lose n), .fail (.err .fault))
    | none =>
      let r := s.buf.pop room
      (w.touch i (fun b => (b.pop room).2.2) false,
        .ok r.1 r.2.1
          (if trunc && (s.kind != .stream) then r.2.1 else r.1.length)
          (trunc && (s.kind != .stream) && decide (r.1.length < r.2.1)))

/-- `ConnOrientedConnected::recvmsg` (unix.rs:1598-1632). -/
def recvConn (w : World α) (i : Nat) (s : Sock α) (peerAddr : Option Nat) (p room : Nat)
    (dontwait trunc : Bool) (fault : Option Nat) : R (World α × Ret α) :=
  match commonRecv w i s room dontwait trunc fault with
  | (w, .fail r) => .ok (w, r)
  | (w, .ok data removed n t) => do
    let w := if 0 < removed then w.queue [.inform p removed] else w
    let w ← refresh w i false
    .ok (w, .got data n t peerAddr)

/-- The state of a datagram socket with other notes. -/
def Sock.notes (r : List Entry) (s : Sock α) : Sock α :=
  { s with proto := match s.proto with
      | .dgram b p _ => .dgram b p r
      | x => x }

/-- `ConnLessInitial::recvmsg` (unix.rs:1821-1857). -/
def recvDgram (w : World α) (i : Nat) (s : Sock α) (recv : List Entry) (room : Nat)
    (dontwait trunc : Bool) (fault : Option Nat) : R (World α × Ret α) :=
  match commonRecv w i s room dontwait trunc fault with
  | (w, .fail r) => .ok (w, r)
  | (w, .ok data removed n t) =>
    match recv with
    | [] => .panic
    | e :: rest => do
      R.assert (removed == e.len)
      let w ← refresh ((w.mod i (Sock.notes rest)).queue [.inform e.src e.len]) i false
      .ok (w, .got data n t e.addr)

/-- `recvmsg` (unix.rs:194-204, 1091-1107, 1598-1632, 1821-1857, default 927-937). -/
def recv (w : World α) (i : Nat) (s : Sock α) (room : Nat) (dontwait trunc : Bool)
    (fault : Option Nat) : R (World α × Ret α) :=
  match s.proto with
  | .init _ => .ok (w, .err (match s.kind with | .stream => .invalid | _ => .notConn))
  | .conn _ pa p => recvConn w i s pa p room dontwait trunc fault
  | .dgram _ _ r => recvDgram w i s r room dontwait trunc fault
  | _ => .ok (w, .err .opNotSupp)

/-! ## Closing -/

/-- The closed state, its bits, and the end of the socket's name: the namespace's listener hears
`CLOSED` (unix.rs:1046-1054, 1996-2013; abstract_unix_ns.rs:84-88, 150-170). -/
def shut (w : World α) (i : Nat) (p : Proto) : R (World α) := do
  let w := w.mod i fun s => { s with proto := p, held := false }
  let w ← refresh w i false
  .ok (match w.socks i with
    | some s =>
      match s.reg with
      | some n => w.queue [.unbind s.kind n]
      | none => w
    | none => w)

/-- `ConnOrientedConnected::close` (unix.rs:1554-1575): leave the own buffer as its reader
and the peer's as its writer, and drop the listeners on both. -/
def closeConn (w : World α) (i p : Nat) : R (World α) :=
  let w := w.touch i (fun b => { b with readers := b.readers - 1 }) false
  let w := w.touch p (fun b => { b with writers := b.writers - 1 }) false
  shut ((w.poke i (·.forget i)).poke p (·.forget i)) i .closed

/-- `ConnLessInitial::close` (unix.rs:1742-1766). -/
def closeDgram (w : World α) (i : Nat) (recv : List Entry) : R (World α) :=
  let w := w.touch i (fun b => { b with readers := b.readers - 1 }) false
  let w := w.queue (recv.map fun e => .inform e.src e.len)
  shut (w.poke i (·.forget i)) i .dgramClosed

/-- `close` of one socket that is not listening; the closed states panic
(unix.rs:131-133, 549-565, 1688-1695, 1955-1962). -/
def closeOne (w : World α) (i : Nat) : R (World α) :=
  match w.socks i with
  | none => .panic
  | some s =>
    match s.proto with
    | .init _ => shut w i .closed
    | .conn _ _ p => closeConn w i p
    | .dgram _ _ r => closeDgram w i r
    | _ => .panic

/-- The loop of `ConnOrientedListening::close` (unix.rs:1363-1378) over the queue: children are taken
out of the queue one at a time and closed. -/
def closeQueue (w : World α) (i b lim : Nat) : List Nat → R (World α)
  | [] => .ok w
  | c :: q => do
    let w ← closeOne (w.mod i fun s => { s with proto := .listening b q lim }) c
    closeQueue w i b lim q

/-- `close` (unix.rs:131-133, 549-565). -/
def close (w : World α) (i : Nat) (s : Sock α) : R (World α) :=
  match s.proto with
  | .listening b q lim => closeQueue w i b lim q >>= fun w => shut w i .closed
  | _ => closeOne w i

/-! ## The host -/

/-- What programs do. -/
inductive Act (α : Type)
  | socket (k : Kind) (nonblock : Bool)
  | pair (k : Kind) (nonblock : Bool)
  | bind (i : Nat) (addr : Addr) (auto : Option Nat)
  | listen (i : Nat) (backlog : Int)
  | connect (i : Nat) (addr : Addr)
  | accept (i : Nat)
  | send (i : Nat) (dst : Option Addr) (data : List α) (dontwait : Bool) (fault : Option Nat)
  | recv (i : Nat) (room : Nat) (dontwait trunc : Bool) (fault : Option Nat)
  | nonblock (i : Nat) (on : Bool)
  | close (i : Nat)
  deriving DecidableEq, Repr

/-- Run the queued callbacks and hand the result back. -/
def finish (x : R (World α × Ret α)) : R (World α × Ret α) := do
  let (w, r) ← x
  let w ← drain w
  .ok (w, r)

/-- A socket that the program has open. -/
def World.open_ (w : World α) (i : Nat) : Option (Sock α) :=
  match w.socks i with
  | some s => if s.held then some s else none
  | none => none

/-- A call on an open socket. -/
def on (w : World α) (i : Nat) (f : Sock α → R (World α × Ret α)) : Option (R (World α × Ret α)) :=
  (w.open_ i).map fun s => finish (f s)

/-- One call: `none` if the program does not have the socket open. -/
def step (w : World α) : Act α → Option (R (World α × Ret α))
  | .socket k nb => some (.ok (w.add (newSock α w.next k) nb, .socket w.next))
  | .pair k nb => some (finish (pairBody w k nb >>= fun w' => .ok (w', .two w.next (w.next + 1))))
  | .bind i addr auto => on w i fun s => .ok (bind w i s addr auto)
  | .listen i backlog => on w i fun s => listen w i s backlog
  | .connect i addr => on w i fun s => connect w i s addr
  | .accept i => on w i fun s => accept w i s
  | .send i dst data dw fault => on w i fun s => send w i s dst data dw fault
  | .recv i room dw tr fault => on w i fun s => recv w i s room dw tr fault
  | .nonblock i b => on w i fun _ => .ok ({ w with nonblock := put w.nonblock i b }, .done)
  | .close i => on w i fun s => close w i s >>= fun w => .ok (w, .done)

/-- A sequence of calls with their results. -/
def exec (w : World α) : List (Act α) → Option (R (World α × List (Ret α)))
  | [] => some (.ok (w, []))
  | a :: as =>
    match step w a with
    | none => none
    | some .panic => some .panic
    | some (.ok (w, r)) =>
      match exec w as with
      | none => none
      | some .panic => some .panic
      | some (.ok (w, rs)) => some (.ok (w, r :: rs))

end Shadow.Unix
