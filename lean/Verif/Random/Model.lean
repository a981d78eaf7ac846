import Verif.Base.Panic
/-!
# Random bytes: `getrandom`

Source: `/repo/src/main/host/syscall/handler/random.rs`, `memory_ref_mut_uninit` and `flush` of `/repo/src/main/host/memory_manager/mod.rs`, `copy_to_ptr` of `/repo/src/main/host/memory_manager/memory_copier.rs`.

The generator (`Xoshiro256PlusPlus` of a library) is a parameter: a state and what `fill_bytes` does. Memory is a map from addresses to bytes. Simplifications: which buffers are mapped into Shadow is a parameter, and so is
how many bytes the kernel writes for the others. Failing to allocate is left out, and so are buffers mapped into Shadow of more than `isize::MAX` bytes.
-/
namespace Shadow.Random

open Shadow.Base

/-- A generator: `fill_bytes` gives bytes and the next state. -/
structure Gen (G : Type) where
  fill : G → Nat → List Nat × G

abbrev Mem := Nat → Nat

/-- Writing bytes from an address on. -/
def Mem.write (m : Mem) (addr : Nat) (l : List Nat) : Mem := fun x => if addr ≤ x ∧ x < addr + l.length then l.getD (x - addr) 0 else m x

/-- How the buffer can be reached. -/
inductive Buf where
  /-- mapped into Shadow -/
  | mapped
  /-- by `process_vm_writev`, which writes so many bytes, or none for an error (memory_copier.rs:247-256) -/
  | copied (n : Option Nat)

inductive Ret where
  | count (n : Nat)
  | efault
deriving DecidableEq, Repr

/-- `getrandom` (random.rs:17-51). With `memory_ref_mut_uninit` (mod.rs:539-574): a buffer that is not mapped is a new vector, which panics beyond `isize::MAX` bytes. `flush` (mod.rs:213-230) writes it
back; that it is written in part is ruled out by an assertion. -/
def getrandom {G : Type} (g : Gen G) (s : G) (m : Mem) (b : Buf) (addr count _flags : Nat) : R (G × Mem × Ret) :=
  match b with
  | .mapped =>
    let r := g.fill s count
    .ok (r.2, m.write addr r.1, .count count)
  | .copied n =>
    if 2 ^ 63 ≤ count then .panic
    else
      let r := g.fill s count
      match n with
      | none => .ok (r.2, m, .efault)
      | some k => if k ≠ count then .panic else .ok (r.2, m.write addr r.1, .count count)

/-- A call: how its buffer can be reached, where it is, how long, and the flags. -/
structure Call where
  buf : Buf
  addr : Nat
  count : Nat
  flags : Nat

/-- Calls of the programs of a host, one after another, with their results. -/
def run {G : Type} (g : Gen G) (s : G) (m : Mem) : List Call → R (G × Mem × List Ret)
  | [] => .ok (s, m, [])
  | c :: l =>
    match getrandom g s m c.buf c.addr c.count c.flags with
    | .panic => .panic
    | .ok (s', m', r) =>
      match run g s' m' l with
      | .panic => .panic
      | .ok (s'', m'', rs) => .ok (s'', m'', r :: rs)

end Shadow.Random
