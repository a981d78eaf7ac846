import Verif.Base.Panic
/-!
# Names of hosts: the custom call behind `getaddrinfo`

Source: `shadow_hostname_to_addr_ipv4` of `/repo/src/main/host/syscall/handler/shadow.rs`, `_shim_api_hostname_to_addr_ipv4` of `/repo/src/lib/shim/shim_api_addrinfo.c`, `case_insensitive_eq` of
`/repo/src/main/utility/mod.rs`, `resolve_name_to_ip` of `/repo/src/main/core/worker.rs`, `name_to_addr` of `/repo/src/main/network/dns.rs` (C19).

Names are lists of bytes. Simplifications: what can be read of memory is a parameter (`read`, `none` for an error), and so is whether the result can be written. The registry of names is a list. Not modelled: a length of
2^64 - 1, for which the sum in the handler overflows (what happens depends on whether the build checks for overflow), failing to allocate, and the search of `/etc/hosts` that `getaddrinfo` falls back to when this call
fails (shim_api_addrinfo.c:479-483).
-/
namespace Shadow.NameLookup

open Shadow.Base

abbrev Name := List Nat

/-- `u8::to_ascii_lowercase`. -/
def lower (c : Nat) : Nat := if 65 ≤ c ∧ c ≤ 90 then c + 32 else c

/-- `case_insensitive_eq` (utility/mod.rs:329-335). -/
def eqCase (a b : Name) : Bool := if a.length ≠ b.length then false else (a.zip b).all fun p => lower p.1 == lower p.2

/-- "localhost" -/
def localhost : Name := [108, 111, 99, 97, 108, 104, 111, 115, 116]

/-- The simulation: names and addresses of hosts. -/
structure Net where
  reg : List (Name × Nat)
  /-- `CStr::to_str`: is it UTF-8 -/
  utf8 : Name → Bool

/-- `resolve_name_to_ip` (worker.rs:480-486). -/
def Net.resolve (n : Net) (name : Name) : Option Nat := if n.utf8 name then n.reg.lookup name else none

/-- `u32::to_be` on a little-endian machine. -/
def toBe (a : Nat) : Nat := a % 256 * 16777216 + a / 256 % 256 * 65536 + a / 65536 % 256 * 256 + a / 16777216 % 256

/-- The bytes of a `u32` in memory on a little-endian machine. -/
def le (a : Nat) : List Nat := [a % 256, a / 256 % 256, a / 65536 % 256, a / 16777216 % 256]

inductive Ret where
  | ok | einval | efault | enametoolong
deriving DecidableEq, Repr

/-- A host: its name and its default address. -/
structure Host where
  name : Name
  ip : Nat

/-- `get_cstr` (memory_manager/mod.rs:146-148): up to the first NUL. -/
def cstr (l : List Nat) : Option Name := if l.contains 0 then some (l.takeWhile (· != 0)) else none

/-- `clone_mem_prefix` (memory_copier.rs:36-45), used for memory that is not mapped into Shadow: `Vec::with_capacity` panics beyond `isize::MAX` bytes. -/
def copyPrefix (mem : Nat → Option (List Nat)) (len : Nat) : R (Option (List Nat)) := if 2 ^ 63 ≤ len then .panic else .ok (mem len)

/-- Writing the address (shadow.rs:76-77 and 105-106). -/
def write (writable : Bool) (a : Nat) : Ret × List Nat := if writable then (.ok, le (toBe a)) else (.efault, [])

/-- Finding the address and writing it (shadow.rs:73-108). `NI_MAXHOST` is 1025. -/
def answer (n : Net) (h : Host) (name : Name) (writable : Bool) : Ret × List Nat :=
  if eqCase name localhost then write writable 2130706433
  else
    match (if eqCase (name.take 1025) (h.name.take 1025) then some h.ip else n.resolve name) with
    | none => (.efault, [])
    | some a => write writable a

/-- The handler (shadow.rs:41-109): what is returned, and what is written at the address for the result. `read k` is `memory_ref_prefix` for the first `k` bytes of the name. -/
def handler (n : Net) (h : Host) (read : Nat → R (Option (List Nat))) (nameLen addrLen : Nat) (writable : Bool) : R (Ret × List Nat) :=
  if addrLen < 4 then .ok (.einval, [])
  else
    match read (nameLen + 1) with
    | .panic => .panic
    | .ok none => .ok (.efault, [])
    | .ok (some l) =>
      match cstr l with
      | none => .ok (.enametoolong, [])
      | some name => .ok (answer n h name writable)

/-- `_shim_api_hostname_to_addr_ipv4` (shim_api_addrinfo.c:265-301) for a name in memory that can be read, with its NUL: the bytes of the address, or none for `false`. -/
def shim (n : Net) (h : Host) (name : Name) : R (Option (List Nat)) :=
  if eqCase name localhost then .ok (some (le (toBe 2130706433)))
  else
    match handler n h (copyPrefix fun k => some ((name ++ [0]).take k)) name.length 4 true with
    | .panic => .panic
    | .ok (.ok, b) => .ok (some b)
    | .ok _ => .ok none

end Shadow.NameLookup
