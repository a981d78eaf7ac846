/-!
# Model of the assignment of IP addresses to graph nodes

Source: `/repo/src/main/network/graph/mod.rs:333-424`.

* An IPv4 address is the number `u32::from(addr)`; IPv6 addresses can be assigned by hand only and are
  never incremented, since `last_assigned_addr` is always an IPv4 address.
* `addr_bits + increment` is a `u32` addition; its overflow is a panic (`none`), as in a build with
  overflow checks.
* The `HashMap` is a function to `Option`.
-/
namespace Shadow.IpAssign

inductive Addr where
  | v4 (n : Nat)
  | v6 (n : Nat)
deriving Repr, DecidableEq

/-- graph/mod.rs:348-353. -/
structure St (T : Type) where
  map : Addr → Option T
  last : Nat

variable {T : Type}

/-- graph/mod.rs:356-361, `new`: 11.0.0.0. -/
def St.new : St T := ⟨fun _ => none, 184549376⟩

/-- graph/mod.rs:408-415: the loop of `increment_address` from candidate `n`; `fuel` is the number of
    candidates left below 2^32. -/
def incGo (n : Nat) : Nat → Option Nat
  | 0 => none
  | fuel + 1 => if n % 256 = 0 ∨ n % 256 = 255 then incGo (n + 1) fuel else some n

/-- graph/mod.rs:401-419, `increment_address`. -/
def increment (bits : Nat) : Option Nat := incGo (bits + 1) (4294967296 - (bits + 1))

/-- graph/mod.rs:364-374: the loop of `assign`; `fuel` bounds the number of iterations (`none`: the
    increment panicked). -/
def findFree (map : Addr → Option T) (last : Nat) : Nat → Option Nat
  | 0 => none
  | fuel + 1 => match increment last with
    | none => none
    | some a => match map (.v4 a) with
      | none => some a
      | some _ => findFree map a fuel

/-- graph/mod.rs:364-374, `assign`; `none` is the panic. -/
def St.assign (s : St T) (node : T) : Option (Nat × St T) :=
  match findFree s.map s.last 4294967296 with
  | none => none
  | some a => some (a, ⟨fun x => if x = .v4 a then some node else s.map x, a⟩)

/-- graph/mod.rs:377-388, `assign_ip`: whether it succeeded, and the new state. -/
def St.assignIp (s : St T) (node : T) (addr : Addr) : Bool × St T :=
  match s.map addr with
  | some _ => (false, s)
  | none => (true, { s with map := fun x => if x = addr then some node else s.map x })

/-- graph/mod.rs:391-393, `get_node`. -/
def St.getNode (s : St T) (addr : Addr) : Option T := s.map addr

inductive Op (T : Type) where
  | auto (node : T)
  | manual (node : T) (addr : Addr)

/-- What an operation answers. -/
inductive Ans where
  | auto (a : Nat)
  | manual (ok : Bool)
deriving Repr, DecidableEq

/-- One operation; `none` is a panic. -/
def St.step (s : St T) : Op T → Option (Ans × St T)
  | .auto n => (s.assign n).map (fun r => (.auto r.1, r.2))
  | .manual n a => let r := s.assignIp n a; some (.manual r.1, r.2)

/-- A history of operations with their answers. -/
def St.run (s : St T) : List (Op T) → Option (List (Op T × Ans) × St T)
  | [] => some ([], s)
  | o :: os => match s.step o with
    | none => none
    | some (a, s') => match s'.run os with
      | none => none
      | some (l, s'') => some ((o, a) :: l, s'')

end Shadow.IpAssign
