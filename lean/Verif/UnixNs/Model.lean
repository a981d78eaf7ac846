import Verif.Base.Panic

/-!
# Model of the namespace of abstract unix socket addresses

Source: `/repo/src/main/host/descriptor/socket/abstract_unix_ns.rs`.

Simplifications: sockets are values of an arbitrary type; the hash maps are a function; names are
lists of byte values; the close listener that `bind` adds to the socket's event source (and that goes
away with the namespace entry) is an element of `listeners`; a bound socket is not deallocated before
it is closed (otherwise `lookup` would panic, lines 54-63).
-/
namespace Shadow.UnixNs

open Shadow.Base

/-- descriptor/socket/unix.rs, `UnixSocketType`. -/
inductive Ty where
  | stream
  | dgram
  | seqPacket
deriving Repr, DecidableEq

abbrev Name := List Nat

/-- abstract_unix_ns.rs:27-29, `AbstractUnixNamespace`, and the close listeners of the sockets. -/
structure Ns (σ : Type) where
  map : Ty → Name → Option σ
  listeners : List (σ × Ty × Name)

/-- abstract_unix_ns.rs:211-219, `BindError`. -/
inductive BindError where
  | nameInUse
  | noNamesAvailable
  | nameNotFound
deriving Repr, DecidableEq

variable {σ : Type} [DecidableEq σ]

/-- abstract_unix_ns.rs:32-47, `new`. -/
def Ns.new : Ns σ := ⟨fun _ _ => none, []⟩

/-- abstract_unix_ns.rs:49-64, `lookup`. -/
def Ns.lookup (n : Ns σ) (t : Ty) (name : Name) : Option σ := n.map t name

/-- The insertion of a new entry, with its close listener. -/
def Ns.insert (n : Ns σ) (t : Ty) (name : Name) (s : σ) : Ns σ :=
  ⟨fun t' name' => if t' = t ∧ name' = name then some s else n.map t' name', (s, t, name) :: n.listeners⟩

/-- abstract_unix_ns.rs:66-95, `bind`. -/
def Ns.bind (n : Ns σ) (t : Ty) (name : Name) (s : σ) : Ns σ × Option BindError :=
  match n.map t name with
  | some _ => (n, some .nameInUse)
  | none => (n.insert t name s, none)

/-- abstract_unix_ns.rs:236, "abcdef0123456789". -/
def charset : List Nat := [97, 98, 99, 100, 101, 102, 48, 49, 50, 51, 52, 53, 54, 55, 56, 57]
/-- abstract_unix_ns.rs:237. -/
def nameLen : Nat := 5

/-- abstract_unix_ns.rs:255-275, `incremental_name`, without its assertion on the index. -/
def digits : Nat → Nat → Name
  | 0, _ => []
  | l + 1, index => digits l (index / charset.length) ++ [charset.getD (index % charset.length) 0]

def incrementalName (l index : Nat) : R Name := do
  R.assert (decide (index < charset.length ^ l))
  return digits l index

/-- abstract_unix_ns.rs:125-138: the first free name in the order of `incremental_name`. -/
def Ns.linearSearch (n : Ns σ) (t : Ty) : List Nat → R (Option Name)
  | [] => .ok none
  | x :: xs => do
    let name ← incrementalName nameLen x
    if n.map t name = none then return some name else n.linearSearch t xs

/-- abstract_unix_ns.rs:107-138: ten random names, then all of them. -/
def Ns.chooseName (n : Ns σ) (t : Ty) (rng : Nat → Name) : R (Option Name) :=
  match ((List.range 10).map rng).find? (fun name => decide (n.map t name = none)) with
  | some name => .ok (some name)
  | none => n.linearSearch t (List.range (charset.length ^ nameLen))

/-- abstract_unix_ns.rs:97-167, `autobind`; `rng i` is the `i`-th random name. -/
def Ns.autobind (n : Ns σ) (t : Ty) (s : σ) (rng : Nat → Name) : R (Ns σ × (Name ⊕ BindError)) := do
  let r ← n.chooseName t rng
  match r with
  | none => return (n, .inr .noNamesAvailable)
  | some name =>
    R.assert (decide (n.map t name = none))
    return (n.insert t name s, .inl name)

/-- abstract_unix_ns.rs:169-184, `unbind`; dropping the entry removes its listener. -/
def Ns.unbind (n : Ns σ) (t : Ty) (name : Name) : Ns σ × Option BindError :=
  match n.map t name with
  | none => (n, some .nameNotFound)
  | some s => (⟨fun t' name' => if t' = t ∧ name' = name then none else n.map t' name',
      n.listeners.erase (s, t, name)⟩, none)

/-- abstract_unix_ns.rs:187-205 with the callback of 86-89 and 151-154: the close listeners of a
    socket run, one after the other; each unbinds its name and asserts that this works. -/
def Ns.runClose (n : Ns σ) : List (σ × Ty × Name) → R (Ns σ)
  | [] => .ok n
  | (_, t, name) :: rest =>
    match n.unbind t name with
    | (n', none) => n'.runClose rest
    | (_, some _) => .panic

def Ns.close (n : Ns σ) (s : σ) : R (Ns σ) := n.runClose (n.listeners.filter (fun l => decide (l.1 = s)))

end Shadow.UnixNs
