import Verif.Base.Panic

/-!
# Scattered buffers of a managed process

Model of `IoVecReader` and `IoVecWriter` (`src/main/host/syscall/io.rs`), through which system calls
read from and write to the buffers that the program names with an array of `iovec`, together with
`read_exact` and `write_all` of the standard library, which the sockets call on them.

The memory of the program maps an address to a byte, or to nothing when an access faults.  Copies
(`MemoryManager::copy_from_ptr`, `copy_to_ptr`, memory_manager/mod.rs:461-471 and 577-585) fail as a
whole when any byte faults; that the kernel does not write a part of a single buffer is what the
code asserts (memory_copier.rs:252-253) and is taken from the documentation of
`process_vm_writev`.
-/
namespace Shadow.IoVec
open Shadow.Base

variable {α : Type}

abbrev Mem (α : Type) := Nat → Option α

/-- `IoVec` and `ForeignArrayPtr<u8>`, which are converted into each other (io.rs:173-192). -/
structure Iov where
  base : Nat
  len : Nat
deriving DecidableEq, Repr

/-- `ForeignArrayPtr::slice(..k)` with its assertions (types.rs:98-121). -/
def Iov.front (v : Iov) (k : Nat) : R Iov := do
  R.assert (k ≤ v.len)
  .ok ⟨v.base, k⟩

/-- `ForeignArrayPtr::slice(k..)`. -/
def Iov.back (v : Iov) (k : Nat) : R Iov := do
  R.assert (k ≤ v.len)
  .ok ⟨v.base + k, v.len - k⟩

/-- The bytes from `a` on, if all of them can be accessed. -/
def load (m : Mem α) (a : Nat) : Nat → Option (List α)
  | 0 => some []
  | n + 1 =>
    match m a, load m (a + 1) n with
    | some b, some bs => some (b :: bs)
    | _, _ => none

/-- `copy_from_ptr` (memory_copier.rs:94-119).  `n` is the length of the destination, which is
asserted to be that of the source. -/
def copyFrom (m : Mem α) (n : Nat) (v : Iov) : R (Option (List α)) := do
  R.assert (n = v.len)
  .ok (load m v.base v.len)

def store (m : Mem α) (a : Nat) : List α → Mem α
  | [] => m
  | b :: bs => store (fun x => if x = a then some b else m x) (a + 1) bs

/-- `copy_to_ptr` (memory_copier.rs:196-256). -/
def copyTo (m : Mem α) (v : Iov) (bs : List α) : R (Option (Mem α)) := do
  R.assert (bs.length = v.len)
  .ok (if (load m v.base v.len).isSome then some (store m v.base bs) else none)

/-- `IoVecReader` and `IoVecWriter`: the iovs not reached yet and what is left of the current one
(io.rs:204-209 and 276-281). -/
structure Cursor where
  iovs : List Iov
  cur : Option Iov := none
deriving DecidableEq, Repr

/-- `IoVecReader::new` and `IoVecWriter::new` (io.rs:211-222 and 283-294). -/
def Cursor.new (iovs : List Iov) : Cursor := ⟨iovs, none⟩

/-- What a read or write led to. -/
inductive Res (β : Type) where
  | ok (b : β)
  /-- `EFAULT` from the memory -/
  | fault
deriving DecidableEq, Repr

/-- The loop of `IoVecReader::read` (io.rs:225-266); `n` is what is left of the buffer and `acc` the
bytes read so far.  The fuel bounds the number of iterations; running out is a panic, and
`C51_read` shows that it does not happen. -/
def readLoop (m : Mem α) : Nat → Cursor → Nat → List α → R (Res (List α × Cursor))
  | 0, _, _, _ => .panic
  | fuel + 1, c, n, acc =>
    if n = 0 then .ok (.ok (acc, c))
    else match c.cur with
    | some src => do
      let k := min src.len n
      let v ← src.front k
      match ← copyFrom m k v with
      | none => if acc.length = 0 then .ok .fault else .ok (.ok (acc, c))
      | some bs =>
        let rest ← src.back k
        readLoop m fuel { c with cur := if rest.len = 0 then none else some rest } (n - k)
          (acc ++ bs)
    | none =>
      match c.iovs with
      | [] => .ok (.ok (acc, c))
      | v :: vs => readLoop m fuel ⟨vs, some v⟩ n acc

/-- `IoVecReader::read`. -/
def read (m : Mem α) (c : Cursor) (n : Nat) : R (Res (List α × Cursor)) :=
  readLoop m (2 * c.iovs.length + 3) c n []

/-- How `read_exact` and `write_all` of `std::io` can fail. -/
inductive Exact (β : Type) where
  | ok (b : β)
  | fault
  /-- `UnexpectedEof` or `WriteZero`: not an error number, so that the callers' conversion with
  `Errno::try_from(e).unwrap()` panics -/
  | short
deriving DecidableEq, Repr

/-- `std::io::Read::read_exact`: read until the buffer is full. -/
def readExactLoop (m : Mem α) : Nat → Cursor → Nat → List α → R (Exact (List α × Cursor))
  | 0, _, _, _ => .panic
  | fuel + 1, c, n, acc =>
    if n = 0 then .ok (.ok (acc, c))
    else do
      match ← read m c n with
      | .fault => .ok .fault
      | .ok (bs, c) =>
        if bs.length = 0 then .ok .short
        else readExactLoop m fuel c (n - bs.length) (acc ++ bs)

def readExact (m : Mem α) (c : Cursor) (n : Nat) : R (Exact (List α × Cursor)) :=
  readExactLoop m (n + 1) c n []

/-- The loop of `IoVecWriter::write` (io.rs:297-338); `bs` are the bytes left and `done` the number
of those written. -/
def writeLoop : Nat → Mem α → Cursor → List α → Nat → R (Res (Nat × Cursor) × Mem α)
  | 0, _, _, _, _ => .panic
  | fuel + 1, m, c, bs, done =>
    if bs.length = 0 then .ok (.ok (done, c), m)
    else match c.cur with
    | some dst => do
      let k := min dst.len bs.length
      let v ← dst.front k
      match ← copyTo m v (bs.take k) with
      | none => if done = 0 then .ok (.fault, m) else .ok (.ok (done, c), m)
      | some m =>
        let rest ← dst.back k
        writeLoop fuel m { c with cur := if rest.len = 0 then none else some rest } (bs.drop k)
          (done + k)
    | none =>
      match c.iovs with
      | [] => .ok (.ok (done, c), m)
      | v :: vs => writeLoop fuel m ⟨vs, some v⟩ bs done

/-- `IoVecWriter::write`. -/
def write (m : Mem α) (c : Cursor) (bs : List α) : R (Res (Nat × Cursor) × Mem α) :=
  writeLoop (2 * c.iovs.length + 3) m c bs 0

/-- `std::io::Write::write_all`. -/
def writeAllLoop : Nat → Mem α → Cursor → List α → R (Exact Cursor × Mem α)
  | 0, _, _, _ => .panic
  | fuel + 1, m, c, bs =>
    if bs.length = 0 then .ok (.ok c, m)
    else do
      match ← write m c bs with
      | (.fault, m) => .ok (.fault, m)
      | (.ok (k, c), m) =>
        if k = 0 then .ok (.short, m)
        else writeAllLoop fuel m c (bs.drop k)

def writeAll (m : Mem α) (c : Cursor) (bs : List α) : R (Exact Cursor × Mem α) :=
  writeAllLoop (bs.length + 1) m c bs

/-- The total length as the sockets compute it, `args.iovs.iter().map(|x| x.len).sum()` on `usize`:
in a release build the sum wraps around (udp.rs:361 and 502). -/
def totalLen (iovs : List Iov) : Nat := (iovs.map (·.len)).sum % 2 ^ 64

end Shadow.IoVec
