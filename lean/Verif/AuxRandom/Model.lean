import Verif.Base.Panic
/-!
# The random bytes that the kernel gives to a new program

Source: `/repo/src/lib/shim/src/reinit_auxvec_random.rs`. The file `/proc/self/auxv` is a list of bytes on a little-endian machine; how much one `read` gives is a parameter. Memory is a map from addresses to bytes;
writing through a null pointer is `panic`, and all other writes are taken to succeed, as the function demands of its caller.
-/
namespace Shadow.AuxRandom

open Shadow.Base

/-- `c_ulong::from_ne_bytes`. -/
def number : List Nat → Nat
  | [] => 0
  | b :: l => b + 256 * number l

/-- `chunks_exact(16)`, at most `fuel` of them. -/
def chunks : Nat → List Nat → List (List Nat)
  | 0, _ => []
  | fuel + 1, l => if l.length < 16 then [] else l.take 16 :: chunks fuel (l.drop 16)

/-- How reading goes: whether the file can be opened, and how many bytes the first `read` gives, none for an error. -/
structure Io where
  opened : Bool
  first : Option Nat
  /-- the second `read` does not fail -/
  second : Bool

/-- `getauxval` (reinit_auxvec_random.rs:7-44). -/
def getauxval (file : List Nat) (io : Io) (tag : Nat) : Option Nat :=
  if io.opened = false then none
  else
    match io.first with
    | none => none
    | some n =>
      let data := (file.take 736).take n
      if io.second = false ∨ data.length < file.length then none
      else (((chunks data.length data).map fun c => (number (c.take 8), number (c.drop 8))).find? (·.1 == tag)).map (·.2)

abbrev Mem := Nat → Nat

/-- Writing 16 bytes. -/
def Mem.write (m : Mem) (addr : Nat) (d : List Nat) : Mem := fun x => if addr ≤ x ∧ x < addr + 16 then d.getD (x - addr) 0 else m x

/-- `get_auxvec_random` (reinit_auxvec_random.rs:49-55): 0 is null. `AT_RANDOM` is 25. -/
def getRandom (file : List Nat) (io : Io) : Nat := (getauxval file io 25).getD 0

/-- `reinit_auxvec_random` (reinit_auxvec_random.rs:77-86). The address is looked up twice. -/
def reinit (file : List Nat) (io io' : Io) (m : Mem) (d : List Nat) : R Mem :=
  if getRandom file io = 0 then .ok m
  else
    let a := getRandom file io'
    if a = 0 then .panic else .ok (m.write a d)

end Shadow.AuxRandom
