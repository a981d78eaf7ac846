import Verif.Base.Panic

/-!
# Model of network interfaces, the network namespace and socket association

Sources: `/repo/src/main/host/network/interface.rs`, `/repo/src/main/host/network/namespace.rs`,
`/repo/src/main/host/descriptor/socket/inet/mod.rs` (`associate_socket`).

Simplifications: an IPv4 address is its number; sockets are values of an arbitrary type; the
`HashMap` of receiving sockets is a function; packet capture, packet status and logging are left out;
`warn_and_debug_panic!` is a panic (in a release build it only warns; the theorems show that it is
never reached).  The send queue is modelled in `Verif/NetQueue`.
-/
namespace Shadow.NetIface

open Shadow.Base

/-- network/packet.rs, `IanaProtocol`, as far as it is used here. -/
inductive Protocol where
  | tcp
  | udp
deriving Repr, DecidableEq

/-- `SocketAddrV4`. -/
structure SockAddr where
  ip : Nat
  port : Nat
deriving Repr, DecidableEq

/-- `Ipv4Addr::is_loopback`: 127.0.0.0/8. -/
def isLoopback (ip : Nat) : Bool := ip / 16777216 == 127

/-- `Ipv4Addr::is_unspecified`. -/
def isUnspecified (ip : Nat) : Bool := ip == 0

/-- `Ipv4Addr::LOCALHOST`. -/
abbrev localhostIp : Nat := 2130706433

/-- `SocketAddrV4::new(Ipv4Addr::UNSPECIFIED, 0)`. -/
abbrev wildcard : SockAddr := ⟨0, 0⟩

/-- interface.rs:28-33, `AssociatedSocketKey`. -/
structure Key where
  protocol : Protocol
  loc : SockAddr
  remote : SockAddr
deriving Repr, DecidableEq

/-- interface.rs:56-70, `NetworkInterface` (receiving side). -/
structure Iface (σ : Type) where
  addr : Nat
  recv : Key → Option σ

variable {σ : Type}

/-- interface.rs:76-113, `new`. -/
def Iface.new (addr : Nat) : Iface σ := ⟨addr, fun _ => none⟩

/-- interface.rs:115-133, `associate`. -/
def Iface.associate (i : Iface σ) (s : σ) (protocol : Protocol) (port : Nat) (peer : SockAddr) : R (Iface σ) :=
  let key : Key := ⟨protocol, ⟨i.addr, port⟩, peer⟩
  match i.recv key with
  | none => .ok { i with recv := fun k => if k = key then some s else i.recv k }
  | some _ => .panic

/-- interface.rs:135-155, `disassociate` (outside of the final cleanup). -/
def Iface.disassociate (i : Iface σ) (protocol : Protocol) (port : Nat) (peer : SockAddr) : Iface σ :=
  let key : Key := ⟨protocol, ⟨i.addr, port⟩, peer⟩
  { i with recv := fun k => if k = key then none else i.recv k }

/-- interface.rs:157-161, `is_addr_in_use`. -/
def Iface.isAddrInUse (i : Iface σ) (protocol : Protocol) (port : Nat) (peer : SockAddr) : Bool :=
  (i.recv ⟨protocol, ⟨i.addr, port⟩, peer⟩).isSome

/-- interface.rs:255-302, `push`: the socket that gets the packet, `none` if it is dropped. -/
def Iface.push (i : Iface σ) (protocol : Protocol) (src dst : SockAddr) : Option σ :=
  let loc : SockAddr := ⟨i.addr, dst.port⟩
  (i.recv ⟨protocol, loc, src⟩).or (i.recv ⟨protocol, loc, wildcard⟩)

/-- namespace.rs:25-36, `NetworkNamespace` (IPv4 part). -/
structure Ns (σ : Type) where
  localhost : Iface σ
  internet : Iface σ
  defaultIp : Nat

/-- namespace.rs:39-51, `new`. -/
def Ns.new (publicIp : Nat) : Ns σ := ⟨Iface.new localhostIp, Iface.new publicIp, publicIp⟩

/-- namespace.rs:70-88, `interface_borrow`. -/
def Ns.interface (n : Ns σ) (ip : Nat) : Option (Iface σ) :=
  if isLoopback ip then some n.localhost
  else if ip == n.defaultIp || isUnspecified ip then some n.internet
  else none

/-- namespace.rs:111-132, `is_addr_in_use`; `none` is `Err(NoInterface)`. -/
def Ns.isAddrInUse (n : Ns σ) (protocol : Protocol) (src dst : SockAddr) : Option Bool :=
  if isUnspecified src.ip then
    some (n.localhost.isAddrInUse protocol src.port dst || n.internet.isAddrInUse protocol src.port dst)
  else (n.interface src.ip).map (fun i => i.isAddrInUse protocol src.port dst)

/-- namespace.rs:151-168 and 177-190: neither in use with this peer nor with any peer. -/
def Ns.portFree (n : Ns σ) (protocol : Protocol) (ip : Nat) (peer : SockAddr) (port : Nat) : Bool :=
  !(n.isAddrInUse protocol ⟨ip, port⟩ peer).getD true && !(n.isAddrInUse protocol ⟨ip, port⟩ wildcard).getD true

/-- namespace.rs:17. -/
abbrev minRandomPort : Nat := 10000
/-- `u16::MAX`. -/
abbrev maxPort : Nat := 65535

/-- namespace.rs:175, `(start..=u16::MAX).chain(MIN_RANDOM_PORT..start)`. -/
def searchOrder (start : Nat) : List Nat :=
  List.range' start (maxPort + 1 - start) ++ List.range' minRandomPort (start - minRandomPort)

/-- namespace.rs:136-195, `get_random_free_port`; `rng i` is the `i`-th value that the random
    generator returns for the range 10000..=65535. -/
def Ns.getRandomFreePort (n : Ns σ) (protocol : Protocol) (ip : Nat) (peer : SockAddr) (rng : Nat → Nat) : Option Nat :=
  (((List.range 10).map rng).find? (n.portFree protocol ip peer)).or
    ((searchOrder (rng 10)).find? (n.portFree protocol ip peer))

/-- namespace.rs:203-231, `associate_interface`. -/
def Ns.associate (n : Ns σ) (s : σ) (protocol : Protocol) (bind peer : SockAddr) : R (Ns σ) :=
  if isUnspecified bind.ip then do
    let lo ← n.localhost.associate s protocol bind.port peer
    let inet ← n.internet.associate s protocol bind.port peer
    return { n with localhost := lo, internet := inet }
  else if isLoopback bind.ip then do
    let lo ← n.localhost.associate s protocol bind.port peer
    return { n with localhost := lo }
  else if bind.ip == n.defaultIp then do
    let inet ← n.internet.associate s protocol bind.port peer
    return { n with internet := inet }
  else .ok n

/-- namespace.rs:238-261, `disassociate_interface` (also run when an association handle is dropped,
    namespace.rs:299-310). -/
def Ns.disassociate (n : Ns σ) (protocol : Protocol) (bind peer : SockAddr) : Ns σ :=
  if isUnspecified bind.ip then
    { n with localhost := n.localhost.disassociate protocol bind.port peer
             internet := n.internet.disassociate protocol bind.port peer }
  else if isLoopback bind.ip then { n with localhost := n.localhost.disassociate protocol bind.port peer }
  else if bind.ip == n.defaultIp then { n with internet := n.internet.disassociate protocol bind.port peer }
  else n

/-- The errors of `associate_socket`. -/
inductive Errno where
  | inval
  | addrInUse
  | addrNotAvail
deriving Repr, DecidableEq

/-- Result of `associate_socket`: an error, or the final local address. -/
inductive Res where
  | ok (loc : SockAddr)
  | err (e : Errno)
deriving Repr, DecidableEq

/-- inet/mod.rs:523-541, the local address with its port chosen. -/
def Ns.chooseLocal (n : Ns σ) (protocol : Protocol) (loc peer : SockAddr) (rng : Nat → Nat) : Option SockAddr :=
  if loc.port ≠ 0 then some loc
  else (n.getRandomFreePort protocol loc.ip peer rng).map (fun p => ⟨loc.ip, p⟩)

/-- inet/mod.rs:544-572, the checks; `none` is "available". -/
def Ns.checkInUse (n : Ns σ) (protocol : Protocol) (loc peer : SockAddr) : Option Errno :=
  match n.isAddrInUse protocol loc peer with
  | some true => some .addrInUse
  | none => some .addrNotAvail
  | some false => none

def Ns.checkAll (n : Ns σ) (protocol : Protocol) (loc peer : SockAddr) (checkGeneric : Bool) : Option Errno :=
  (n.checkInUse protocol loc peer).or (if checkGeneric then n.checkInUse protocol loc wildcard else none)

/-- inet/mod.rs:503-578, `associate_socket`. -/
def Ns.associateSocket (n : Ns σ) (s : σ) (protocol : Protocol) (loc peer : SockAddr) (checkGeneric : Bool)
    (rng : Nat → Nat) : R (Ns σ × Res) :=
  if (!isUnspecified loc.ip && (n.interface loc.ip).isNone) = true then .ok (n, .err .inval)
  else match n.chooseLocal protocol loc peer rng with
    | none => .ok (n, .err .addrInUse)
    | some loc =>
      match n.checkAll protocol loc peer checkGeneric with
      | some e => .ok (n, .err e)
      | none => do
        let n' ← n.associate s protocol loc peer
        return (n', .ok loc)

end Shadow.NetIface
