import Verif.SockAddr.Model
/-!
# Netlink sockets

Source: `/repo/src/main/host/descriptor/socket/netlink.rs`: through these sockets a program asks which network interfaces its host has (`getifaddrs`, `ip addr`,
the resolver of the C library).  A request waits in the socket's own buffer and is answered when the program receives.

Simplifications.  The library `neli`, which reads requests and writes answers, is not part of the repository: how it turns bytes into a request and a message into
bytes are parameters (`Lib`), and so is nothing else of it.  The buffer (`SharedBuf` with `ByteQueue`, of unlimited length here) is the list of its packets, see
`Verif/ByteQueue`.  The copy into the scattered buffers of the program (`Verif/IoVec`) is described by their total size and by the first position, if any, that cannot be written.
Flags of `sendmsg` and `recvmsg` that are unknown and those that are known but not supported have the same result and are not distinguished.  Listeners are not modelled, only the state
that they would be told.  `usize` and `u64` are unbounded numbers; all sums of lengths here stay below 2^28 (`C83_total`) as far as accepted.
-/
namespace Shadow.Netlink

open Shadow.Base
open Shadow.SockAddr (Byte le ofLe be EFAULT EINVAL)

def EAGAIN : Nat := 11
def EMSGSIZE : Nat := 90
def ENOPROTOOPT : Nat := 92
def EOPNOTSUPP : Nat := 95

abbrev Pkt := List Byte

/-- `nix::NetlinkAddr` as far as it is used: `pid()` and `groups()`. -/
structure NlAddr where
  pid : Nat
  groups : BitVec 32
deriving DecidableEq, Repr

/-- `Interface` (netlink.rs:1089-1097). -/
structure Iface where
  address : Nat
  label : List Byte
  prefixLen : Nat
  ifType : Nat
  mtu : Nat
  scope : Nat
  index : Nat
deriving DecidableEq, Repr

def ARPHRD_ETHER : Nat := 1
def ARPHRD_LOOPBACK : Nat := 772
def RT_SCOPE_UNIVERSE : Nat := 0
def RT_SCOPE_HOST : Nat := 254
def CONFIG_MTU : Nat := 1500
def LOCALHOST : Nat := 127 * 2 ^ 24 + 1

/-- netlink.rs:62-81: every host has two interfaces. -/
def interfaces (defaultIp : Nat) : List Iface :=
  [⟨LOCALHOST, [108, 111], 8, ARPHRD_LOOPBACK, CONFIG_MTU, RT_SCOPE_HOST, 1⟩,
   ⟨defaultIp, [101, 116, 104, 48], 24, ARPHRD_ETHER, CONFIG_MTU, RT_SCOPE_UNIVERSE, 2⟩]

/-- `Ifaddrmsg` of a request: the fields that are looked at. -/
structure AddrReq where
  family : Nat
  prefixLen : Nat
  flags : Nat
  index : Nat
  scope : Nat
deriving DecidableEq, Repr

/-- `Ifinfomsg` of a request. -/
structure LinkReq where
  family : Nat
  ifType : Nat
  index : Int
  flags : Nat
deriving DecidableEq, Repr

/-- What follows the header of a message in an answer. -/
inductive Payload where
  | addr (family prefixLen flags scope index : Nat) (attrs : List (Nat × List Byte))
  | link (family ifType index flags change : Nat) (attrs : List (Nat × List Byte))
  | errno (n : Nat)
  | empty
deriving DecidableEq, Repr

/-- `Nlmsghdr`. -/
structure Msg where
  type : Nat
  flags : Nat
  seq : Nat
  payload : Payload
deriving DecidableEq, Repr

/-- `neli`: `Nlmsghdr::from_bytes` gives the sequence number and the payload if there is one; `to_bytes`. -/
structure Lib where
  decAddr : List Byte → Option (Nat × Option AddrReq)
  decLink : List Byte → Option (Nat × Option LinkReq)
  enc : Msg → List Byte

def AF_UNSPEC : Nat := 0
def AF_INET : Nat := 2
def RTM_NEWLINK : Nat := 16
def RTM_GETLINK : Nat := 18
def RTM_NEWADDR : Nat := 20
def RTM_GETADDR : Nat := 22
def NLMSG_ERROR : Nat := 2
def NLMSG_DONE : Nat := 3
def NLM_F_MULTI : Nat := 2
def IFA_F_PERMANENT : Nat := 0x80
def IFA_ADDRESS : Nat := 1
def IFA_LOCAL : Nat := 2
def IFA_LABEL : Nat := 3
def IFA_BROADCAST : Nat := 4
def IFLA_IFNAME : Nat := 3
def IFLA_MTU : Nat := 4
def IFLA_TXQLEN : Nat := 13
def IFF_UP : Nat := 1
def IFF_BROADCAST : Nat := 2
def IFF_LOOPBACK : Nat := 8
def IFF_RUNNING : Nat := 64
def IFF_MULTICAST : Nat := 4096

/-- `memoffset::span_of!(nlmsghdr, nlmsg_type)`, `nlmsg_seq`. -/
def typeField (p : List Byte) : Nat := ofLe ((p.drop 4).take 2)
def seqField (p : List Byte) : Nat := ofLe ((p.drop 8).take 4)

/-- `handle_error` (netlink.rs:774-793). -/
def handleError (p : List Byte) : List Msg :=
  [⟨NLMSG_ERROR, 0, if p.length < 12 then 0 else seqField p, .empty⟩]

/-- netlink.rs:830-836: `0xffff_ffff.checked_shr(prefix_len).unwrap_or(0) | address`. -/
def broadcast (i : Iface) : Nat :=
  (if i.prefixLen < 32 then (2 ^ 32 - 1) >>> i.prefixLen else 0) ||| i.address

def doneMsg (seq : Nat) : Msg := ⟨NLMSG_DONE, NLM_F_MULTI, seq, .errno 0⟩

/-- One turn of the loop of `handle_ifaddrmsg` (netlink.rs:827-889). -/
def addrMsg (seq : Nat) (i : Iface) : Msg :=
  ⟨RTM_NEWADDR, NLM_F_MULTI, seq,
    .addr AF_INET i.prefixLen IFA_F_PERMANENT i.scope i.index
      [(IFA_ADDRESS, be i.address 4), (IFA_LOCAL, be i.address 4), (IFA_BROADCAST, be (broadcast i) 4), (IFA_LABEL, i.label ++ [0])]⟩

/-- `handle_ifaddrmsg` (netlink.rs:795-908). -/
def handleAddr (lib : Lib) (ifs : List Iface) (p : List Byte) : List Msg :=
  match lib.decAddr p with
  | none => handleError p
  | some (_, none) => handleError p
  | some (seq, some r) =>
    if r.family ≠ AF_UNSPEC ∧ r.family ≠ AF_INET then handleError p
    else if r.prefixLen ≠ 0 ∨ r.flags ≠ 0 ∨ r.index ≠ 0 ∨ r.scope ≠ RT_SCOPE_UNIVERSE then handleError p
    else ifs.map (addrMsg seq) ++ [doneMsg seq]

/-- netlink.rs:971-976. -/
def linkFlags (i : Iface) : Nat :=
  if i.ifType = ARPHRD_LOOPBACK then IFF_UP ||| IFF_LOOPBACK ||| IFF_RUNNING
  else IFF_UP ||| IFF_BROADCAST ||| IFF_RUNNING ||| IFF_MULTICAST

/-- One turn of the loop of `handle_ifinfomsg` (netlink.rs:946-1002). -/
def linkMsg (seq : Nat) (i : Iface) : Msg :=
  ⟨RTM_NEWLINK, NLM_F_MULTI, seq,
    .link AF_INET i.ifType i.index (linkFlags i) 0xffffffff
      [(IFLA_IFNAME, i.label ++ [0]), (IFLA_TXQLEN, le 1000 4), (IFLA_MTU, le i.mtu 4)]⟩

/-- `handle_ifinfomsg` (netlink.rs:910-1021). -/
def handleLink (lib : Lib) (ifs : List Iface) (p : List Byte) : List Msg :=
  match lib.decLink p with
  | none => handleError p
  | some (_, none) => handleError p
  | some (seq, some r) =>
    if r.family ≠ AF_UNSPEC ∧ r.family ≠ AF_INET then handleError p
    else if r.ifType ≠ 0 ∨ r.index ≠ 0 ∨ r.flags ≠ 0 then handleError p
    else ifs.map (linkMsg seq) ++ [doneMsg seq]

/-- netlink.rs:698-707, 718-727: a request shorter than `n` is filled up with zeros and its length field set. -/
def pad (n : Nat) (p : List Byte) : List Byte :=
  if 16 ≤ p.length ∧ p.length < n then le n 4 ++ (p ++ List.replicate (n - p.length) 0).drop 4 else p

/-- netlink.rs:682-741: the answer to a packet of at least 16 bytes. -/
def answer (lib : Lib) (ifs : List Iface) (p : Pkt) : List Msg :=
  if typeField p = RTM_GETLINK then handleLink lib ifs (pad 32 p)
  else if typeField p = RTM_GETADDR then handleAddr lib ifs (pad 24 p)
  else handleError p

/-- `FileState`. -/
structure FState where
  active : Bool
  readable : Bool
  writable : Bool
  closed : Bool
deriving DecidableEq, Repr

/-- `NetlinkSocket` with `NetlinkSocketCommon` and `ProtocolState` (netlink.rs:41-46, 383-397, 1100-1117). -/
structure Sock where
  buf : List Pkt
  sendLimit : Nat
  sentLen : Nat
  nonblock : Bool
  bound : Option NlAddr
  isClosed : Bool
  state : FState
  ifs : List Iface
deriving DecidableEq, Repr

/-- `refresh_file_state` (netlink.rs:541-563, 1029-1041). -/
def Sock.refresh (s : Sock) : Sock :=
  if s.isClosed then { s with state := ⟨false, false, false, true⟩ }
  else { s with state := ⟨true, !s.buf.isEmpty, decide (s.sentLen < s.sendLimit), false⟩ }

def DEFAULT_LIMIT : Nat := 212992

/-- `new` (netlink.rs:49-104). -/
def Sock.new (nonblock : Bool) (defaultIp : Nat) : Sock :=
  Sock.refresh ⟨[], DEFAULT_LIMIT, 0, nonblock, none, false, ⟨true, false, false, false⟩, interfaces defaultIp⟩

/-- The result of a call.  `got` has the bytes copied, the number returned and `msg_flags`. -/
inductive Out where
  | ok
  | sent (n : Nat)
  | got (bytes : List Byte) (ret : Nat) (msgFlags : Nat)
  | name (a : Option NlAddr)
  | err (e : Nat)
  | blocked
  | panic
deriving DecidableEq, Repr

/-- An address argument: a null pointer, an address of another family, or a netlink address. -/
inductive AddrArg where
  | null
  | other
  | nl (a : NlAddr)
deriving DecidableEq, Repr

/-- `RTMGRP_IPV4_IFADDR | RTMGRP_IPV6_IFADDR`. -/
def groupMask : BitVec 32 := 0x110#32

/-- `bind` (netlink.rs:583-618, 1055-1066). -/
def Sock.bind (s : Sock) (a : AddrArg) : Sock × Out :=
  if s.isClosed then (s, .err EOPNOTSUPP)
  else if s.bound.isSome then (s, .err EINVAL)
  else match a with
    | .null => (s, .err EFAULT)
    | .other => (s, .err EINVAL)
    | .nl a =>
      let s := { s with bound := some a }
      if a.groups &&& ~~~groupMask ≠ 0 then (s, .err EINVAL) else (s, .ok)

def MSG_PEEK : BitVec 32 := 0x2#32
def MSG_TRUNC : BitVec 32 := 0x20#32
def MSG_DONTWAIT : BitVec 32 := 0x40#32
def MSG_NOSIGNAL : BitVec 32 := 0x4000#32

/-- The arguments of `sendmsg`: the bytes to be sent are `none` if they cannot be read. -/
structure SendArgs where
  control : Bool
  addr : AddrArg
  flags : BitVec 32
  len : Nat
  data : Option Pkt
deriving DecidableEq, Repr

/-- The part of `NetlinkSocketCommon::sendmsg` in the closure (netlink.rs:1149-1188). -/
def Sock.push (s : Sock) (len : Nat) (data : Option Pkt) : Sock × Except Nat Nat :=
  let space := s.sendLimit - s.sentLen
  if space = 0 then (s, .error EAGAIN)
  else if len > space then (s, .error (if len ≤ s.sendLimit then EAGAIN else EMSGSIZE))
  else match data with
    | none => (s, .error EFAULT)
    | some p => ({ s with buf := s.buf ++ [p], sentLen := s.sentLen + len }, .ok len)

/-- netlink.rs:633-650: only the kernel can be sent to, that is process 0 and no groups. -/
def badDest : AddrArg → Bool
  | .null => false
  | .other => true
  | .nl d => decide (d.pid ≠ 0 ∨ d.groups ≠ 0)

/-- `sendmsg` (netlink.rs:620-658, 1068-1078) with `NetlinkSocketCommon::sendmsg` (netlink.rs:1124-1202).  The buffer tells the socket of a packet, which refreshes the state
(netlink.rs:433-444), and so does `sendmsg`. -/
def Sock.send (s : Sock) (a : SendArgs) : Sock × Out :=
  if s.isClosed then (s, .err EOPNOTSUPP)
  else if a.control then (s, .err EINVAL)
  else if badDest a.addr then (s, .err EINVAL)
  else if a.flags &&& ~~~(MSG_DONTWAIT ||| MSG_NOSIGNAL ||| MSG_TRUNC) ≠ 0 then (s, .err EINVAL)
  else match s.push a.len a.data with
    | (s, .ok n) => (s.refresh, .sent n)
    | (s, .error e) =>
      if e = EAGAIN ∧ ¬ (s.nonblock = true ∨ a.flags &&& MSG_DONTWAIT ≠ 0) then (s, .blocked) else (s, .err e)

/-- The arguments of `recvmsg`: the buffers of the program have `room` bytes, and writing the byte at `fault` fails. -/
structure RecvArgs where
  control : Bool
  flags : BitVec 32
  room : Nat
  fault : Option Nat
deriving DecidableEq, Repr

/-- netlink.rs:743-771: as much of the answer as there is room for is copied, the rest is discarded. -/
def deliver (bytes : List Byte) (a : RecvArgs) : Out :=
  let n := min bytes.length a.room
  let faults := match a.fault with
    | none => false
    | some k => decide (k < n)
  if faults then .err EFAULT
  else .got (bytes.take n) (if a.flags &&& MSG_TRUNC ≠ 0 then bytes.length else n) 0

/-- netlink.rs:675-771: what is done with a request that was taken or peeked. -/
def respond (lib : Lib) (ifs : List Iface) (p : Pkt) (a : RecvArgs) : Out :=
  if p.length < 16 then .err EINVAL
  else deliver ((answer lib ifs p).flatMap lib.enc) a

/-- `recvmsg` (netlink.rs:660-772, 1080-1090) with `NetlinkSocketCommon::recvmsg` (netlink.rs:1204-1260). -/
def Sock.recv (lib : Lib) (s : Sock) (a : RecvArgs) : Sock × Out :=
  if s.isClosed then (s, .err EOPNOTSUPP)
  else if a.control then (s, .err EINVAL)
  else if a.flags &&& ~~~(MSG_DONTWAIT ||| MSG_PEEK ||| MSG_TRUNC) ≠ 0 then (s, .err EINVAL)
  else match s.buf with
    | [] => if s.nonblock = true ∨ a.flags &&& MSG_DONTWAIT ≠ 0 then (s, .err EAGAIN) else (s, .blocked)
    | p :: rest =>
      let s := if a.flags &&& MSG_PEEK ≠ 0 then s else { s with buf := rest }
      (s.refresh, respond lib s.ifs p a)

/-- `setsockopt` (netlink.rs:181-222): `SO_SNDBUF` with the length and the value of the option, `none` if it cannot be read, `SO_RCVBUF`, or any other. -/
inductive Opt where
  | sndbuf (optlen : Nat) (val : Option Int)
  | rcvbuf
  | other
deriving DecidableEq, Repr

def Sock.setsockopt (s : Sock) : Opt → Sock × Out
  | .sndbuf optlen val =>
    if optlen < 4 then (s, .err EINVAL)
    else match val with
      | none => (s, .err EFAULT)
      | some v =>
        if v < 0 then (s, .err EINVAL)
        else ({ s with sendLimit := min (max (max (v.toNat * 2) s.sentLen) 4096) 268435456 }, .ok)
  | .rcvbuf => (s, .ok)
  | .other => (s, .err ENOPROTOOPT)

/-- `close` (netlink.rs:565-581, 1043-1053). -/
def Sock.close (s : Sock) : Sock × Out :=
  if s.isClosed then (s, .panic)
  else (({ s with isClosed := true, bound := none } : Sock).refresh, .ok)

/-- The calls of a program. -/
inductive Op where
  | bind (a : AddrArg)
  | send (a : SendArgs)
  | recv (a : RecvArgs)
  | setsockopt (o : Opt)
  | getsockname
  | setNonblock (b : Bool)
  | close
deriving DecidableEq, Repr

/-- `getsockname` (netlink.rs:135-137), `set_status` (netlink.rs:110-112). -/
def step (lib : Lib) (s : Sock) : Op → Sock × Out
  | .bind a => s.bind a
  | .send a => s.send a
  | .recv a => s.recv lib a
  | .setsockopt o => s.setsockopt o
  | .getsockname => (s, .name s.bound)
  | .setNonblock b => ({ s with nonblock := b }, .ok)
  | .close => s.close

/-- The calls made one after the other, each with its result. -/
def run (lib : Lib) (s : Sock) : List Op → Sock × List (Op × Out)
  | [] => (s, [])
  | op :: ops =>
    let (s', o) := step lib s op
    let (t, tr) := run lib s' ops
    (t, (op, o) :: tr)

end Shadow.Netlink
