import Verif.IoVec.Model
/-!
# Socket addresses between the program and the simulator

Source: `/repo/src/main/utility/sockaddr.rs`, the functions of `/repo/src/main/host/syscall/io.rs` that read and write addresses, and the places of
`/repo/src/main/host/descriptor/socket/unix.rs` and `inet/udp.rs` that decide what an address stands for.

The memory of the program and copies from and to it are those of `Verif/IoVec/Model.lean`: an address maps to a byte, or to nothing if an access faults,
and a copy fails as a whole.

Simplifications: uninitialised padding bytes are bytes like all others; `sockaddr_storage` has 128 bytes, `sockaddr_in` 16, `sockaddr_in6` 28, `sockaddr_nl` 12,
`sockaddr_un` 110 of which 108 are the path (x86-64 Linux), and `sa_family_t` is two bytes, little-endian.  That `nix::SockaddrIn` is laid out as `sockaddr_in` is what the code
asserts.
-/
namespace Shadow.SockAddr

open Shadow.Base
open Shadow.IoVec (Mem Iov load store copyFrom copyTo)

abbrev Byte := BitVec 8

def EFAULT : Nat := 14
def EINVAL : Nat := 22
def ENOTSUP : Nat := 95
def ENOENT : Nat := 2

def storageLen : Nat := 128

/-- A number below 2^16 or 2^32 in memory, the lowest byte first. -/
def le (n : Nat) : Nat → List Byte
  | 0 => []
  | k + 1 => BitVec.ofNat 8 n :: le (n / 256) k

def ofLe : List Byte → Nat
  | [] => 0
  | b :: bs => b.toNat + 256 * ofLe bs

/-- The same with the highest byte first: network order. -/
def be (n k : Nat) : List Byte := (le n k).reverse
def ofBe (l : List Byte) : Nat := ofLe l.reverse

/-- `SockaddrStorage` (sockaddr.rs:11-28). -/
structure Addr where
  slice : List Byte
  len : Nat
deriving DecidableEq, Repr

/-- `from_ptr`, `from_bytes` (sockaddr.rs:37-78) for a pointer that is not null. -/
def Addr.fromBytes (bs : List Byte) : Option Addr :=
  if bs.length > storageLen then none
  else some ⟨bs ++ List.replicate (storageLen - bs.length) 0, bs.length⟩

/-- `as_slice` (sockaddr.rs:203-206). -/
def Addr.bytes (a : Addr) : List Byte := a.slice.take a.len

/-- `family` (sockaddr.rs:80-90). -/
def Addr.family (a : Addr) : Option Nat := if a.len < 2 then none else some (ofLe (a.slice.take 2))

/-- `as_inet`, `as_inet6`, `as_netlink` (sockaddr.rs:92-112, 124-144, 170-188): the bytes of the structure. -/
def Addr.asFixed (a : Addr) (size fam : Nat) : Option (List Byte) :=
  if a.len < size then none
  else if a.family ≠ some fam then none
  else some (a.slice.take size)

def AF_UNIX : Nat := 1
def AF_INET : Nat := 2
def AF_INET6 : Nat := 10
def AF_NETLINK : Nat := 16

/-- An IPv4 address with its port (`SocketAddrV4`). -/
structure V4 where
  ip : Nat
  port : Nat
deriving DecidableEq, Repr

/-- `as_inet` and the conversion to `SocketAddrV4`: `sin_port` and `sin_addr` are in network order. -/
def Addr.asInet (a : Addr) : Option V4 :=
  (a.asFixed 16 AF_INET).map fun s => ⟨ofBe ((s.drop 4).take 4), ofBe ((s.drop 2).take 2)⟩

/-- `From<SocketAddrV4>`, `from_inet` (sockaddr.rs:114-122, 285-289): the padding is zero. -/
def fromInet (v : V4) : R Addr :=
  R.unwrap (Addr.fromBytes (le AF_INET 2 ++ be v.port 2 ++ be v.ip 4 ++ List.replicate 8 0))

/-- `SockaddrUnix` (sockaddr.rs:302-315); `fam` is `sun_family`. -/
structure Un where
  fam : Nat
  path : List Byte
  len : Nat
deriving DecidableEq, Repr

def unLen : Nat := 110

/-- `SockaddrUnix::new` (sockaddr.rs:320-340). -/
def Un.new (fam : Nat) (path : List Byte) (len : Nat) : Option Un :=
  if len < 2 then none
  else if len > unLen then none
  else if fam ≠ AF_UNIX then none
  else some ⟨fam, path, len⟩

/-- `as_unix` (sockaddr.rs:154-162). -/
def Addr.asUnix (a : Addr) : Option Un :=
  if a.family ≠ some AF_UNIX then none
  else Un.new (ofLe (a.slice.take 2)) ((a.slice.drop 2).take 108) a.len

/-- `sun_path` (sockaddr.rs:382-389): the subtraction is checked, the slice must be inside of the array. -/
def Un.sunPath (u : Un) : R (Option (List Byte)) :=
  if u.len < 2 then .ok none
  else do
    R.assert (u.len - 2 ≤ u.path.length)
    .ok (some (u.path.take (u.len - 2)))

/-- `CStr::from_bytes_until_nul`. -/
def untilNul : List Byte → Option (List Byte)
  | [] => none
  | b :: bs => if b = 0 then some [] else (untilNul bs).map (b :: ·)

/-- `as_path` (sockaddr.rs:342-355). -/
def Un.asPath (u : Un) : R (Option (List Byte)) := do
  match ← u.sunPath with
  | none => .ok none
  | some [] => .ok none
  | some (b :: bs) => if b = 0 then .ok none else .ok (untilNul (b :: bs))

/-- `as_abstract` (sockaddr.rs:357-373). -/
def Un.asAbstract (u : Un) : R (Option (List Byte)) := do
  match ← u.sunPath with
  | none => .ok none
  | some [] => .ok none
  | some (b :: bs) => if b ≠ 0 then .ok none else .ok (some bs)

/-- `is_unnamed` (sockaddr.rs:375-379). -/
def Un.isUnnamed (u : Un) : Bool := u.len == 2

/-- `new_path` (sockaddr.rs:426-455) for the bytes of a C string without the nul. -/
def Un.newPath (p : List Byte) : Option Un :=
  if p.isEmpty then none
  else if p.length ≥ 108 then none
  else some ⟨AF_UNIX, p ++ List.replicate (108 - p.length) 0, 2 + p.length + 1⟩

/-- `new_abstract` (sockaddr.rs:457-474). -/
def Un.newAbstract (n : List Byte) : Option Un :=
  if n.length + 1 > 108 then none
  else some ⟨AF_UNIX, 0 :: n ++ List.replicate (107 - n.length) 0, 2 + 1 + n.length⟩

/-- `new_unnamed` (sockaddr.rs:476-486). -/
def Un.newUnnamed : Un := ⟨AF_UNIX, List.replicate 108 0, 2⟩

/-- `from_unix` (sockaddr.rs:164-168): `len` bytes of the structure are copied. -/
def fromUnix (u : Un) : R Addr := R.unwrap (Addr.fromBytes ((le u.fam 2 ++ u.path).take u.len))

/-- `PartialEq` for `SockaddrUnix` (sockaddr.rs:528-541). -/
def Un.eq (u v : Un) : R Bool := do
  R.assert (u.fam = v.fam)
  let p ← u.sunPath
  let q ← v.sunPath
  .ok (u.len == v.len && p == q)

/-! ## The memory of the program -/

inductive Res (β : Type) where
  | ok (x : β)
  | err (e : Nat)
deriving DecidableEq, Repr

/-- `read_sockaddr` (io.rs:91-128). -/
def readAddr (m : Mem Byte) (ptr len : Nat) : R (Res (Option Addr)) :=
  if ptr = 0 then .ok (.ok none)
  else if len > storageLen then .ok (.err EINVAL)
  else do
    match ← copyFrom m len ⟨ptr, len⟩ with
    | none => .ok (.err EFAULT)
    | some bs => match Addr.fromBytes bs with
      | none => .ok (.err EINVAL)
      | some a => .ok (.ok (some a))

/-- `MemoryManager::write` of a `socklen_t`. -/
def writeLen (m : Mem Byte) (p n : Nat) : R (Option (Mem Byte)) := copyTo m ⟨p, 4⟩ (le n 4)

/-- The part of `write_sockaddr_and_len` and `write_sockaddr` that writes the address (io.rs:51-60, 79-88). -/
def writeBytes (m : Mem Byte) (a : Addr) (ptr room : Nat) : R (Mem Byte × Res Unit) :=
  if room = 0 then .ok (m, .ok ())
  else do
    let n := min a.bytes.length room
    R.assert (n ≤ a.bytes.length)
    match ← copyTo m ⟨ptr, n⟩ (a.bytes.take n) with
    | none => .ok (m, .err EFAULT)
    | some m' => .ok (m', .ok ())

/-- `write_sockaddr_and_len` (io.rs:19-61). -/
def writeAddrLen (m : Mem Byte) (addr : Option Addr) (ptr lenPtr : Nat) : R (Mem Byte × Res Unit) :=
  match addr with
  | none => do
    match ← writeLen m lenPtr 0 with
    | none => .ok (m, .err EFAULT)
    | some m' => .ok (m', .ok ())
  | some a => do
    match load m lenPtr 4 with
    | none => .ok (m, .err EFAULT)
    | some bs =>
      match ← writeLen m lenPtr a.bytes.length with
      | none => .ok (m, .err EFAULT)
      | some m' => writeBytes m' a ptr (ofLe bs)

/-- `write_sockaddr` (io.rs:68-89), which returns the length. -/
def writeAddr (m : Mem Byte) (a : Addr) (ptr room : Nat) : R (Mem Byte × Res Nat) := do
  let r ← writeBytes m a ptr room
  match r.2 with
  | .ok _ => .ok (r.1, .ok a.bytes.length)
  | .err e => .ok (r.1, .err e)

/-! ## What an address stands for -/

inductive Name where
  | abstract (n : List Byte)
  | auto
  | err (e : Nat)
deriving DecidableEq, Repr

/-- `bind` of a unix socket up to the lookup in the namespace (unix.rs:2015-2060); the namespace is the subject of C18. -/
def bindName (a : Option Addr) : R Name :=
  match a.bind Addr.asUnix with
  | none => .ok (.err EINVAL)
  | some u => do
    match ← u.asAbstract with
    | some n => .ok (.abstract n)
    | none => if u.isUnnamed then .ok .auto else .ok (.err ENOTSUP)

/-- The address that a unix socket has after `bind` (unix.rs:2039, 2052), as `getsockname` returns it. -/
def boundAddr (a : Addr) (auto : List Byte) : R (Option Addr) :=
  match a.asUnix with
  | none => .ok none
  | some u => do
    match ← u.asAbstract with
    | some _ => do
      let b ← fromUnix u
      .ok (some b)
    | none =>
      if u.isUnnamed then do
        let v ← R.unwrap (Un.newAbstract auto)
        let b ← fromUnix v
        .ok (some b)
      else .ok none

/-- `lookup_address` (unix.rs:2351-2364): the name that is looked up. -/
def lookupName (a : Addr) : R Name :=
  match a.asUnix with
  | none => .ok (.err EINVAL)
  | some u => do
    match ← u.asAbstract with
    | some n => .ok (.abstract n)
    | none => .ok (.err ENOENT)

/-- `bind` of a UDP socket up to the association (udp.rs:235-253). -/
def bindInet (a : Option Addr) : Res V4 :=
  match a with
  | none => .err EFAULT
  | some a => match a.asInet with
    | none => .err EINVAL
    | some v => .ok v

end Shadow.SockAddr
