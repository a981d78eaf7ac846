import Verif.Base.Panic

/-!
# Model of the shared-memory allocator

Sources: `/repo/src/lib/shmem/src/shmalloc_impl.rs`, `/repo/src/lib/shmem/src/allocator.rs`.

Addresses are natural numbers, null is 0. Of the memory only the headers of chunks and blocks are kept; the canaries are left
out. Undefined behaviour (a header read where there is none, a null pointer followed) is a panic. The names of chunks and the
addresses at which they are mapped come from outside.
-/
namespace Shadow.ShMem

open Shadow.Base

/-- Sizes: of the header of a chunk (shmalloc_impl.rs:213-222), of that of a block with its alignment (288-306), and of a chunk (143). -/
structure Layout where
  chunkHdr : Nat
  blockHdr : Nat
  blockAlign : Nat
  chunkBytes : Nat

/-- shmalloc_impl.rs:213-222; `chunks` of the allocator is the list from `first_chunk` along `next_chunk`. -/
structure Chunk where
  name : Nat
  base : Nat
  cur : Nat
deriving Repr, DecidableEq

/-- shmalloc_impl.rs:288-296. -/
structure Block where
  next : Nat
  nbytes : Nat
  offset : Nat
deriving Repr, DecidableEq

/-- shmalloc_impl.rs:396-401, and the memory. `made` are the addresses of the headers that were written; it only bounds the
    loop over the free list. -/
structure Alloc where
  chunks : List Chunk
  free : Nat
  heap : Nat → Option Block
  made : List Nat

def upd (h : Nat → Option Block) (p : Nat) (b : Block) : Nat → Option Block := fun q => if q = p then some b else h q

/-- `as u32`. -/
def u32 (n : Nat) : Nat := n % 4294967296

def isPow2 (a : Nat) : Bool := a != 0 && a &&& (a - 1) == 0

/-- `<*mut u8>::align_offset`; it panics unless the alignment is a power of two. -/
def alignOffset (p a : Nat) : R Nat := do
  R.assert (isPow2 a)
  return (a - p % a) % a

/-- shmalloc_impl.rs:246-261, 416-429, `add_chunk`, with the name and the address of the new chunk. -/
def Alloc.addChunk (s : Alloc) (name base : Nat) : Alloc := { s with chunks := ⟨name, base, 0⟩ :: s.chunks }

/-- shmalloc_impl.rs:404-414, `new` and `init`. -/
def Alloc.init (name base : Nat) : Alloc := Alloc.addChunk ⟨[], 0, fun _ => none, []⟩ name base

/-- shmalloc_impl.rs:431-457, `check_free_list_for_acceptable_block`: the predecessor and the block. -/
def walk (heap : Nat → Option Block) (n a : Nat) : Nat → Nat → Nat → R (Nat × Nat)
  | 0, _, _ => .panic
  | fuel + 1, pred, block =>
    if block = 0 then .ok (pred, 0)
    else do
      let b ← R.unwrap (heap block)
      if b.nbytes = n then do
        let off ← alignOffset (block + b.offset) a
        if off = 0 then return (pred, block) else walk heap n a fuel block b.next
      else walk heap n a fuel block b.next

/-- shmalloc_impl.rs:459-468, `find_next_suitable_positions`. -/
def positions (p n a : Nat) : R (Nat × Nat) := do
  let off ← alignOffset p a
  return (p + off, p + off + n)

/-- shmalloc_impl.rs:470-508, `try_creating_block_in_chunk`: the address of the block and its header, if it fits. -/
def tryCreate (l : Layout) (c : Chunk) (n a : Nat) : R (Option (Nat × Block)) := do
  let h ← positions (c.base + l.chunkHdr + c.cur) l.blockHdr l.blockAlign
  let d ← positions h.2 n a
  R.assert (decide (d.1 - h.1 > 0))
  if d.2 ≤ c.base + l.chunkBytes then return some (h.1, ⟨0, u32 n, u32 (d.1 - h.1)⟩)
  else return none

/-- The header is written (shmalloc_impl.rs:493-502). -/
def Alloc.write (s : Alloc) (r : Option (Nat × Block)) : Alloc :=
  match r with
  | some (p, b) => { s with heap := upd s.heap p b, made := if p ∈ s.made then s.made else p :: s.made }
  | none => s

/-- shmalloc_impl.rs:534-570, the part of `alloc` without a suitable free block. `name` and `base` are those of a new chunk,
    should one be needed. -/
def Alloc.create (l : Layout) (s : Alloc) (n a name base : Nat) : R (Alloc × Nat) := do
  let c ← R.unwrap s.chunks.head?
  let r ← tryCreate l c n a
  let s := s.write r
  let s := if r.isNone then s.addChunk name base else s
  let c ← R.unwrap s.chunks.head?
  let r ← tryCreate l c n a
  let pb ← R.unwrap r
  let s := s.write r
  R.assert (decide (pb.2.offset > 0))
  let s := { s with chunks := { c with cur := u32 (pb.1 + pb.2.offset + n - c.base) } :: s.chunks.tail }
  let off ← alignOffset (pb.1 + pb.2.offset) a
  R.assert (decide (off = 0))
  return (s, pb.1)

/-- shmalloc_impl.rs:515-532: a block found in the free list is taken out. -/
def Alloc.unlink (s : Alloc) (pred next : Nat) : R Alloc :=
  if pred = 0 then .ok { s with free := next }
  else do
    let p ← R.unwrap (s.heap pred)
    return { s with heap := upd s.heap pred { p with next := next } }

def Alloc.take (s : Alloc) (pred block a : Nat) : R (Alloc × Nat) := do
  let b ← R.unwrap (s.heap block)
  let s ← s.unlink pred b.next
  let off ← alignOffset (block + b.offset) a
  R.assert (decide (off = 0))
  return (s, block)

/-- shmalloc_impl.rs:510-571, `alloc`. -/
def Alloc.alloc (l : Layout) (s : Alloc) (n a name base : Nat) : R (Alloc × Nat) := do
  let r ← walk s.heap n a (s.made.length + 1) 0 s.free
  if r.2 ≠ 0 then s.take r.1 r.2 a else s.create l n a name base

/-- shmalloc_impl.rs:573-586, `dealloc`. -/
def Alloc.dealloc (s : Alloc) (block : Nat) : R Alloc :=
  if block = 0 then .ok s
  else do
    let b ← R.unwrap (s.heap block)
    return { s with heap := upd s.heap block { b with next := s.free }, free := block }

/-- allocator.rs:302-306, `SharedMemAllocator::free`, which `shfree` calls: the block is set to null before it is passed on. -/
def Alloc.shfree (s : Alloc) (_block : Nat) : R Alloc := s.dealloc 0

/-- allocator.rs:167-178, dropping a `ShMemBlock`. -/
def Alloc.drop (s : Alloc) (block : Nat) : R Alloc := if block ≠ 0 then s.dealloc block else .ok s

/-- shmalloc_impl.rs:320-332, `get_block_data_range`. -/
def Alloc.range (s : Alloc) (block : Nat) : R (Nat × Nat) := do
  let b ← R.unwrap (s.heap block)
  return (block + b.offset, block + b.offset + b.nbytes)

/-- shmalloc_impl.rs:588-617, `find_chunk`. -/
def findChunk (l : Layout) (block : Nat) : List Chunk → Option Chunk
  | [] => none
  | c :: cs => if c.base + l.chunkHdr ≤ block ∧ block < c.base + l.chunkBytes then some c else findChunk l block cs

/-- shmalloc_impl.rs:619-638, `serialize`: the name of the chunk and the offset. -/
def Alloc.serialize (l : Layout) (s : Alloc) (block : Nat) : R (Nat × Nat) := do
  let c ← R.unwrap (findChunk l block s.chunks)
  R.assert (decide (block - c.base > 0))
  return (c.name, block - c.base)

/-- shmalloc_impl.rs:658-675: the mapped chunks, by name and address, at most 64 (`CHUNK_CAPACITY`). -/
structure Deser where
  chunks : List (Nat × Nat)
deriving Repr, DecidableEq

def capacity : Nat := 64

/-- shmalloc_impl.rs:677-722, `find_chunk`, `map_chunk`, `deserialize`; `base` is where the chunk would be mapped now. -/
def Deser.deserialize (d : Deser) (name offset base : Nat) : R (Deser × Nat) :=
  match d.chunks.find? (fun c => c.1 == name) with
  | some c => do
    R.assert (decide (offset > 0))
    return (d, c.2 + offset)
  | none => do
    R.assert (decide (offset > 0))
    return (⟨if d.chunks.length = capacity then d.chunks else d.chunks ++ [(name, base)]⟩, base + offset)

end Shadow.ShMem
