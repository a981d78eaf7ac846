/-!
# Model of the name registry

Source: `/repo/src/main/network/dns.rs`.

* An IPv4 address is a number (`u32::from(addr)`); a name is a list of characters.
* A `HashMap` is a function to `Option`; iterating over it yields its entries in an arbitrary order,
  which is an input of `intoDns` (`records`).
* The hosts file is the list of its lines (address, name); creating and writing the memory file and
  the text form of an address are not modelled.
-/
namespace Shadow.Dns

abbrev Name := List Char

/-- dns.rs:25-29. -/
structure Record where
  id : Nat
  addr : Nat
  name : Name
deriving Repr, DecidableEq

/-- dns.rs:17-22. -/
structure Db where
  byName : Name → Option Record
  byAddr : Nat → Option Record

/-- dns.rs:31-40. -/
inductive Err where
  | broadcast
  | loopback (addr : Nat)
  | multicast (addr : Nat)
  | unspecified
  | name (n : Name)
  | addrExists (addr : Nat)
  | nameExists (n : Name)
deriving Repr, DecidableEq

/-- `Ipv4Addr::octets()[0]`. -/
def octet0 (a : Nat) : Nat := a / 16777216

/-- `Ipv4Addr::is_unspecified`: 0.0.0.0. -/
def isUnspecified (a : Nat) : Bool := a = 0
/-- `Ipv4Addr::is_loopback`: 127.0.0.0/8. -/
def isLoopback (a : Nat) : Bool := octet0 a = 127
/-- `Ipv4Addr::is_broadcast`: 255.255.255.255. -/
def isBroadcast (a : Nat) : Bool := a = 4294967295
/-- `Ipv4Addr::is_multicast`: 224.0.0.0/4. -/
def isMulticast (a : Nat) : Bool := 224 ≤ octet0 a ∧ octet0 a ≤ 239

/-- `u8::to_ascii_lowercase`. -/
def lower (c : Char) : Char := if 'A' ≤ c ∧ c ≤ 'Z' then Char.ofNat (c.toNat + 32) else c

/-- `str::eq_ignore_ascii_case`. -/
def eqIgnoreCase (a b : Name) : Bool := a.map lower = b.map lower

def localhost : Name := ['l', 'o', 'c', 'a', 'l', 'h', 'o', 's', 't']

/-- dns.rs:82-89, `DnsBuilder::new`. -/
def Db.new : Db := ⟨fun _ => none, fun _ => none⟩

/-- dns.rs:91-127, `register`: the error, if any, and the new database. -/
def Db.register (db : Db) (id addr : Nat) (name : Name) : Option Err × Db :=
  if isUnspecified addr then (some .unspecified, db)
  else if isLoopback addr then (some (.loopback addr), db)
  else if isBroadcast addr then (some .broadcast, db)
  else if isMulticast addr then (some (.multicast addr), db)
  else if eqIgnoreCase name localhost then (some (.name name), db)
  else match db.byAddr addr with
    | some _ => (some (.addrExists addr), db)
    | none => match db.byName name with
      | some _ => (some (.nameExists name), db)
      | none =>
        let r : Record := ⟨id, addr, name⟩
        (none, ⟨fun n => if n = name then some r else db.byName n,
                fun a => if a = addr then some r else db.byAddr a⟩)

/-- dns.rs:177-179, `addr_to_host_id`. -/
def Db.addrToHostId (db : Db) (a : Nat) : Option Nat := (db.byAddr a).map (·.id)
/-- dns.rs:182-187, `addr_to_name`. -/
def Db.addrToName (db : Db) (a : Nat) : Option Name := (db.byAddr a).map (·.name)
/-- dns.rs:189-191, `name_to_addr`. -/
def Db.nameToAddr (db : Db) (n : Name) : Option Nat := (db.byName n).map (·.addr)

/-- `u8::is_ascii_whitespace`. -/
def isAsciiWs (c : Char) : Bool := c = ' ' ∨ c = '\t' ∨ c = '\n' ∨ c = '\r' ∨ c = '\x0c'

/-- dns.rs:129-157, `into_dns`: the lines of the hosts file, given the values of `addr_index` in
    iteration order; `none` is the assertion failure. -/
def intoDns (records : List Record) : Option (List (Nat × Name)) :=
  let sorted := records.mergeSort (fun a b => decide (a.addr ≤ b.addr))
  if sorted.all (fun r => !r.name.any isAsciiWs) then
    some ((2130706433, localhost) :: sorted.map (fun r => (r.addr, r.name)))
  else none

/-- A registration request. -/
structure Req where
  id : Nat
  addr : Nat
  name : Name
deriving Repr, DecidableEq

/-- A sequence of registrations and the result of each. -/
def Db.run (db : Db) : List Req → List (Option Err) × Db
  | [] => ([], db)
  | q :: qs =>
    let r := db.register q.id q.addr q.name
    let s := r.2.run qs
    (r.1 :: s.1, s.2)

end Shadow.Dns
