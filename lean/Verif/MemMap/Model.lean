import Verif.IntervalMap.Props

/-!
# Model of the memory mapper

Source: `/repo/src/main/host/memory_manager/memory_mapper.rs`, with the wrappers of `memory_manager/mod.rs:613-715`.

The mapper keeps the private anonymous memory of a program, its heap and its stack in a memory file, which both the program and
Shadow map. The offset of a byte in the file is its address in the program. The model holds the two address spaces (of the
program; and of Shadow, as far as the mapper uses it), the memory file, and the mapper's own tables.

What is not the mapper's code is the kernel. Its calls are modelled at the level of bytes: lengths are rounded up to pages, and
what the kernel chooses (addresses, success or failure of the program's own calls) is a parameter. Not modelled: the permission to
execute has no effect; Shadow's own calls do not run out of memory; the counting of misses; log messages; the program's stores to
memory that is not in the memory file; `MREMAP_DONTUNMAP`; the wrap-around of addresses at 2^64.
-/
namespace Shadow.MemMap

open Shadow.Base Shadow.IntervalMap

/-- `linux_api::mman::ProtFlags`. -/
structure Prot where
  r : Bool
  w : Bool
  x : Bool
deriving DecidableEq, Repr

/-- `HEAP_PROT` and `STACK_PROT`, memory_mapper.rs:31-33. -/
def rw : Prot := ⟨true, true, false⟩

/-- `proc_maps::MappingPath`; the names of files are numbers. -/
inductive Path where
  | heap
  | stack
  | file (n : Nat)
deriving DecidableEq, Repr

/-- memory_mapper.rs:36-44, `Region`. The null pointer is 0. -/
structure Region where
  base : Nat
  prot : Prot
  priv : Bool
  path : Option Path
deriving DecidableEq, Repr

/-- What a byte of the program's address space is mapped to: a byte of the memory file, or some other byte. -/
inductive Back where
  | shm (off : Nat)
  | other (cell : Nat)
deriving DecidableEq, Repr

structure Map where
  back : Back
  prot : Prot
deriving DecidableEq, Repr

/-- memory_mapper.rs:81-101, `MemoryMapper` and `ShmFile`, with the two address spaces and the contents of memory. `mem` are the
    bytes outside of the memory file. -/
structure St where
  page : Nat
  plugin : Nat → Option Map
  mem : Nat → Nat
  file : Nat → Nat
  len : Nat
  shadow : Nat → Option (Nat × Prot)
  regions : IMap Region
  heap : Nat × Nat

/-! ## The kernel -/

/-- Lengths are rounded up to whole pages. -/
def pageUp (pg n : Nat) : Nat := (n + (pg - 1)) / pg * pg

/-- `mmap(2)` in the program. -/
def nMmap (s : St) (a len : Nat) (prot : Prot) (cells : Nat → Nat) : St :=
  { s with plugin := fun x => if a ≤ x ∧ x < a + pageUp s.page len then some ⟨.other (cells x), prot⟩ else s.plugin x }

/-- `munmap(2)` in the program. -/
def nMunmap (s : St) (a len : Nat) : St :=
  { s with plugin := fun x => if a ≤ x ∧ x < a + pageUp s.page len then none else s.plugin x }

/-- `mprotect(2)` in the program. -/
def nMprotect (s : St) (a len : Nat) (prot : Prot) : St :=
  { s with plugin := fun x => if a ≤ x ∧ x < a + pageUp s.page len then (s.plugin x).map (fun m => { m with prot := prot }) else s.plugin x }

/-- What `mremap(2)` maps after the end of a mapping: the bytes that follow in the file, or some other bytes. -/
def grown (m : Option Map) (i : Nat) (ext : Nat → Nat) : Option Map :=
  match m with
  | none => none
  | some ⟨.shm o, p⟩ => some ⟨.shm (o + i), p⟩
  | some ⟨.other _, p⟩ => some ⟨.other (ext i), p⟩

/-- `mremap(2)` in the program, which may move the mapping. With an old size of 0 nothing is taken away, and all bytes of the new
    mapping are those of the file. -/
def nMremap (s : St) (old osz new nsz : Nat) (ext : Nat → Nat) : St :=
  { s with plugin := fun x =>
      if new ≤ x ∧ x < new + pageUp s.page nsz then
        if x - new < pageUp s.page osz then s.plugin (old + (x - new)) else grown (s.plugin old) (x - new) ext
      else if old ≤ x ∧ x < old + pageUp s.page osz then none
      else s.plugin x }

/-- `mmap(2)` of a part of the memory file in Shadow, at an address which the kernel chooses. -/
def sMmap (s : St) (base off len : Nat) (prot : Prot) : St :=
  { s with shadow := fun y => if base ≤ y ∧ y < base + pageUp s.page len then some (off + (y - base), prot) else s.shadow y }

/-- `munmap(2)` in Shadow. An address that is not at a page boundary is refused (the mapper logs a warning and carries on). -/
def sMunmap (s : St) (base len : Nat) : St :=
  if base % s.page = 0 then { s with shadow := fun y => if base ≤ y ∧ y < base + pageUp s.page len then none else s.shadow y } else s

/-- `mprotect(2)` in Shadow. -/
def sMprotect (s : St) (base len : Nat) (prot : Prot) : St :=
  if base % s.page = 0 then
    { s with shadow := fun y => if base ≤ y ∧ y < base + pageUp s.page len then (s.shadow y).map (fun m => (m.1, prot)) else s.shadow y }
  else s

/-- `mremap(2)` in Shadow; the new address is the kernel's choice. -/
def sMremap (s : St) (old osz new nsz : Nat) : St :=
  { s with shadow := fun y =>
      if new ≤ y ∧ y < new + pageUp s.page nsz then (s.shadow old).map (fun m => (m.1 + (y - new), m.2))
      else if old ≤ y ∧ y < old + pageUp s.page osz then none
      else s.shadow y }

/-- A byte that Shadow reads through a pointer; a fault ends Shadow. -/
def St.peek1 (s : St) (y : Nat) : R Nat :=
  match s.shadow y with
  | none => .panic
  | some (o, p) => if p.r && decide (o < pageUp s.page s.len) then .ok (s.file o) else .panic

/-- A byte that Shadow writes through a pointer. -/
def St.poke1 (s : St) (y v : Nat) : R St :=
  match s.shadow y with
  | none => .panic
  | some (o, p) => if p.w && decide (o < pageUp s.page s.len) then .ok { s with file := fun x => if x = o then v else s.file x } else .panic

def St.peek (s : St) (y : Nat) : Nat → R (List Nat)
  | 0 => .ok []
  | n + 1 => do
    let b ← s.peek1 y
    let r ← s.peek (y + 1) n
    return b :: r

def St.poke (s : St) (y : Nat) : List Nat → R St
  | [] => .ok s
  | v :: vs => do
    let s ← s.poke1 y v
    s.poke (y + 1) vs

/-! ## The memory file -/

/-- memory_mapper.rs:104-114, `alloc`. -/
def St.alloc (s : St) (e : Nat) : St := if e > s.len then { s with len := e } else s

/-- memory_mapper.rs:117-126, `dealloc`: punches a hole. The kernel refuses a length of 0 (`unwrap`). -/
def St.dealloc (s : St) (a b : Nat) : R St := do
  R.assert (decide (a < b))
  return { s with file := fun x => if a ≤ x ∧ x < b then 0 else s.file x }

/-- memory_mapper.rs:129-142, `mmap_into_shadow`: the offset must be at a page boundary (`unwrap`). -/
def St.mmapIntoShadow (s : St) (base a b : Nat) (prot : Prot) : R St := do
  R.assert (decide (a % s.page = 0) && decide (a < b))
  return sMmap s base a (b - a) prot

/-- memory_mapper.rs:178-191, `mmap_into_plugin`. -/
def St.mmapIntoPlugin (s : St) (a b : Nat) (prot : Prot) : R St := do
  R.assert (decide (a % s.page = 0) && decide (a < b))
  return { s with plugin := fun x => if a ≤ x ∧ x < a + pageUp s.page (b - a) then some ⟨.shm x, prot⟩ else s.plugin x }

/-! ## Regions -/

/-- interval_map.rs:282-287, `get_mut`, and an assignment through the reference; none is unwrapped. -/
def modify {V : Type} (m : IMap V) (x : Nat) (f : V → V) : R (IMap V) := do
  let i ← R.unwrap (← m.getIndex x)
  let v ← R.unwrap m.vals[i]?
  return { m with vals := m.vals.set i (f v) }

/-- `get(..).unwrap()`. -/
def find {V : Type} (m : IMap V) (x : Nat) : R ((Nat × Nat) × V) := do
  let r ← m.get x
  R.unwrap r

/-- memory_mapper.rs:450-526, the body of the loop of `unmap_mutations`. -/
def St.unmapOne (s : St) : Mutation Region → R St
  | .modifiedBegin i b => do
    let p ← find s.regions b
    if p.2.base = 0 then return s
    else do
      let s ← s.dealloc i.1 b
      let s := sMunmap s p.2.base (b - i.1)
      let m ← modify s.regions b (fun r => { r with base := r.base + (b - i.1) })
      return { s with regions := m }
  | .modifiedEnd i e => do
    let p ← find s.regions i.1
    if p.2.base = 0 then return s
    else do
      let s ← s.dealloc e i.2
      return sMunmap s (p.2.base + (e - i.1)) (i.2 - e)
  | .split _ l r => do
    let p ← find s.regions l.1
    let q ← find s.regions r.1
    R.assert (decide (p.2.base = q.2.base))
    if p.2.base = 0 then return s
    else do
      let s ← s.dealloc l.2 r.1
      let s := sMunmap s (p.2.base + (l.2 - l.1)) (r.1 - l.2)
      let m ← modify s.regions r.1 (fun v => { v with base := v.base + (r.1 - l.1) })
      return { s with regions := m }
  | .removed i r =>
    if r.base = 0 then return s
    else do
      let s ← s.dealloc i.1 i.2
      return sMunmap s r.base (i.2 - i.1)

/-- memory_mapper.rs:450-528, `unmap_mutations`. -/
def St.unmapAll (s : St) : List (Mutation Region) → R St
  | [] => .ok s
  | m :: ms => do
    let s ← s.unmapOne m
    s.unmapAll ms

/-- `regions.clear` and `unmap_mutations`. -/
def St.clearOut (s : St) (a b : Nat) : R St := do
  let r ← s.regions.clear a b
  St.unmapAll { s with regions := r.1 } r.2

/-- `regions.insert`, where the code asserts that there are no mutations. -/
def St.insertNew (s : St) (a b : Nat) (r : Region) : R St := do
  let m ← s.regions.insert a b r
  R.assert m.2.isEmpty
  return { s with regions := m.1 }

/-! ## The calls -/

/-- memory_mapper.rs:538-605, `handle_mmap_result`. -/
def St.handleMmap (s : St) (a len : Nat) (prot : Prot) (anon priv : Bool) (path base : Nat) : R St :=
  if len = 0 then return s
  else do
    let s ← s.clearOut a (a + len)
    let reg : Region := ⟨0, prot, priv, if anon then none else some (.file path)⟩
    if anon && priv then do
      let s := s.alloc (a + len)
      let s ← s.mmapIntoShadow base a (a + len) prot
      let s ← s.mmapIntoPlugin a (a + len) prot
      s.insertNew a (a + len) { reg with base := base }
    else s.insertNew a (a + len) reg

/-- mod.rs:625-643, `do_mmap`; `res` is the address that the kernel returned, or none if it failed. -/
def St.mmap (s : St) (res : Option Nat) (len : Nat) (prot : Prot) (anon priv : Bool) (path base : Nat) (cells : Nat → Nat) : R St :=
  match res with
  | none => return s
  | some a => (nMmap s a len prot cells).handleMmap a len prot anon priv path base

/-- memory_mapper.rs:611-624, `handle_munmap_result`. -/
def St.handleMunmap (s : St) (a len : Nat) : R St :=
  if len = 0 then return s else s.clearOut a (a + len)

/-- mod.rs:645-676, `handle_munmap` and `do_munmap`; `ok` tells whether the kernel's call succeeded. -/
def St.munmap (s : St) (a len : Nat) (ok : Bool) : R St :=
  if ok then (nMunmap s a len).handleMunmap a len else return s

/-- memory_mapper.rs:648-669: a new mapping of the same file. -/
def St.duplicate (s : St) (old new nsz : Nat) : R St := do
  let p ← find s.regions old
  R.assert (!p.2.priv)
  R.assert (decide (p.2.base = 0))
  let r ← s.regions.insert new (new + nsz) p.2
  St.unmapAll { s with regions := r.1 } r.2

/-- memory_mapper.rs:671-691: the old region is taken out, and what is in the way of the new one. -/
def St.takeOld (s : St) (old osz new nsz : Nat) : R (St × Region) := do
  let m ← s.regions.clear old (old + osz)
  match m.2 with
  | [.removed i r] => do
    R.assert (decide (i = (old, old + osz)))
    let s ← St.clearOut { s with regions := m.1 } new (new + nsz)
    return (s, r)
  | _ => .panic

/-- memory_mapper.rs:698-731: the region has moved. -/
def St.moveRegion (s : St) (r : Region) (old osz new nsz base : Nat) : R (St × Region) := do
  R.assert (!(decide (new ≤ old) && decide (old < new + nsz)))
  R.assert (!(decide (old ≤ new) && decide (new < old + osz)))
  let s := s.alloc (new + nsz)
  let s ← s.mmapIntoPlugin new (new + nsz) r.prot
  let s ← s.mmapIntoShadow base new (new + nsz) r.prot
  let bytes ← s.peek r.base (min osz nsz)
  let s ← s.poke base bytes
  let s := sMunmap s r.base osz
  let s ← s.dealloc old (old + osz)
  return (s, { r with base := base })

/-- memory_mapper.rs:693-755. -/
def St.adjust (s : St) (r : Region) (old osz new nsz base : Nat) : R (St × Region) :=
  if r.base = 0 then return (s, r)
  else do
    R.assert (decide (r.path = none))
    if new ≠ old then s.moveRegion r old osz new nsz base
    else if nsz < osz then do
      let s ← s.dealloc (new + nsz) (old + osz)
      return (sMremap s r.base osz r.base nsz, r)
    else if nsz > osz then
      let s := s.alloc (new + nsz)
      return (sMremap s r.base osz base nsz, { r with base := base })
    else return (s, r)

/-- memory_mapper.rs:631-760, `handle_mremap`. -/
def St.mremap (s : St) (old osz nsz : Nat) (maymove : Bool) (res : Option Nat) (base : Nat) (ext : Nat → Nat) : R St :=
  match res with
  | none => return s
  | some new =>
    let s := nMremap s old osz new nsz ext
    if maymove && decide (osz = 0) then s.duplicate old new nsz
    else do
      let p ← s.takeOld old osz new nsz
      let q ← p.1.adjust p.2 old osz new nsz base
      q.1.insertNew new (new + nsz) q.2

/-- memory_mapper.rs:790-836: the heap grows. `ok` tells whether the program's mapping could be extended. -/
def St.growHeap (s : St) (req : Nat) (ok : Bool) (base : Nat) (ext : Nat → Nat) : R St := do
  let r ← s.regions.get s.heap.1
  let s ← match r with
    | none => do
      R.assert (decide (s.heap.1 = s.heap.2))
      let s := s.alloc req
      let s ← s.mmapIntoShadow base s.heap.1 req rw
      s.mmapIntoPlugin s.heap.1 req rw
    | some p => do
      let s := s.alloc s.heap.2
      R.assert ok
      let s := nMremap s s.heap.1 (s.heap.2 - s.heap.1) s.heap.1 (req - s.heap.1) ext
      pure (sMremap s p.2.base (s.heap.2 - s.heap.1) base (req - s.heap.1))
  let m ← s.regions.insert s.heap.1 req ⟨base, rw, true, some .heap⟩
  return { s with regions := m.1, heap := (s.heap.1, req) }

/-- memory_mapper.rs:837-871: the heap shrinks. -/
def St.shrinkHeap (s : St) (req : Nat) (ok : Bool) (ext : Nat → Nat) : R St := do
  R.assert (!decide (s.heap.1 = req))
  let p ← find s.regions s.heap.1
  R.assert ok
  let s := nMremap s s.heap.1 (s.heap.2 - s.heap.1) s.heap.1 (req - s.heap.1) ext
  let s := sMremap s p.2.base (s.heap.2 - s.heap.1) p.2.base (req - s.heap.1)
  let m ← s.regions.clear req s.heap.2
  let s ← St.dealloc { s with regions := m.1 } req s.heap.2
  return { s with heap := (s.heap.1, req) }

/-- memory_mapper.rs:764-874, `handle_brk`: the new state and the result of the call. -/
def St.brk (s : St) (req : Nat) (ok : Bool) (base : Nat) (ext : Nat → Nat) : R (St × Nat) :=
  if req < s.heap.1 then return (s, s.heap.2)
  else do
    R.assert (decide (req % s.page = 0))
    if req = s.heap.2 then return (s, req)
    else if req > s.heap.2 then do
      let s ← s.growHeap req ok base ext
      return (s, req)
    else do
      let s ← s.shrinkHeap req ok ext
      return (s, req)

/-- The call to `mprotect` for the part of a region that is mapped into Shadow. -/
def St.protectPart (s : St) (r : Region) (len : Nat) (prot : Prot) : St :=
  if r.base = 0 then s else sMprotect s r.base len prot

/-- Adds to the address of a region in Shadow, unless it is null. -/
def shift (d : Nat) (r : Region) : Region := if r.base = 0 then r else { r with base := r.base + d }

/-- memory_mapper.rs:906-994, the body of the loop of `handle_mprotect`. -/
def St.protectOne (s : St) (prot : Prot) : Mutation Region → R St
  | .modifiedBegin i b => do
    let p ← find s.regions b
    let r := { p.2 with prot := prot }
    let m ← modify s.regions b (shift (b - i.1))
    let s := St.protectPart { s with regions := m } r (b - i.1) prot
    s.insertNew i.1 b r
  | .modifiedEnd i e => do
    let p ← find s.regions (e - 1)
    let r := shift (p.1.2 - p.1.1) { p.2 with prot := prot }
    let s := s.protectPart r (i.2 - e) prot
    s.insertNew e i.2 r
  | .split _ l r => do
    let p ← find s.regions r.1
    let v := shift (l.2 - l.1) { p.2 with prot := prot }
    let m ← modify s.regions r.1 (shift ((l.2 - l.1) + (r.1 - l.2)))
    let s := St.protectPart { s with regions := m } v (r.1 - l.2) prot
    s.insertNew l.2 r.1 v
  | .removed i r =>
    let v := { r with prot := prot }
    (s.protectPart v (i.2 - i.1) prot).insertNew i.1 i.2 v

def St.protectAll (s : St) (prot : Prot) : List (Mutation Region) → R St
  | [] => .ok s
  | m :: ms => do
    let s ← s.protectOne prot m
    s.protectAll prot ms

/-- memory_mapper.rs:890-1000, `handle_mprotect`. If the kernel's call fails, it may have changed a part of the range: `res` is
    the length of that part, or none for success. -/
def St.mprotect (s : St) (a len : Nat) (prot : Prot) (res : Option Nat) : R St :=
  match res with
  | some n => return nMprotect s a n prot
  | none => do
    let s := nMprotect s a len prot
    let m ← s.regions.clear a (a + len)
    St.protectAll { s with regions := m.1 } prot m.2

/-- memory_mapper.rs:1003-1045, `get_mapped_ptr`, for `n` bytes at `a` of a type with the given alignment. -/
def St.getPtr (s : St) (a n align : Nat) : R (Option Nat) := do
  R.assert (decide (n ≠ 0))
  if a % align ≠ 0 then return none
  else do
    match ← s.regions.get a with
    | none => return none
    | some p =>
      if p.2.base = 0 then return none
      else if p.1.1 ≤ a + n - 1 ∧ a + n - 1 < p.1.2 then return some (p.2.base + (a - p.1.1))
      else return none

/-- `get_ref` (memory_mapper.rs:1055-1061) and a read of the whole slice, as `copy_from_ptr` does it (mod.rs:463-475). None: the
    mapper cannot help, and the caller copies the memory with a call to the kernel. -/
def St.read (s : St) (a n : Nat) : R (Option (List Nat)) :=
  if n = 0 then return some []
  else do
    match ← s.getPtr a n 1 with
    | none => return none
    | some y => do
      let l ← s.peek y n
      return some l

/-- `get_mut` (memory_mapper.rs:1067-1073) and a write of the whole slice, as `copy_to_ptr` does it (mod.rs:575-583). -/
def St.write (s : St) (a : Nat) (bytes : List Nat) : R (Option St) :=
  if bytes.length = 0 then return some s
  else do
    match ← s.getPtr a bytes.length 1 with
    | none => return none
    | some y => do
      let s ← s.poke y bytes
      return some s

/-- The program stores a byte to memory that is in the memory file; none: it may not (it receives a signal), or the memory is
    not in the file. -/
def St.store (s : St) (x v : Nat) : Option St :=
  match s.plugin x with
  | some ⟨.shm o, p⟩ => if p.w && decide (o < pageUp s.page s.len) then some { s with file := fun y => if y = o then v else s.file y } else none
  | _ => none

/-! ## The start and the end -/

/-- memory_mapper.rs:194-224, `get_regions`: from the entries of `/proc/<pid>/maps`. -/
def getRegions (l : List (Entry Region)) : IMap Region → R (IMap Region)
  | m =>
    match l with
    | [] => .ok m
    | p :: l => do
      let r ← m.insert p.1.1 p.1.2 { p.2 with base := 0 }
      R.assert r.2.isEmpty
      getRegions l r.1

/-- memory_mapper.rs:357-380: the loop of `coalesce_regions`, with the current aggregate. -/
def coalesceLoop : List (Entry Region) → Option (Entry Region) → IMap Region → R (IMap Region)
  | [], none, out => .ok out
  | [], some q, out => do
    let r ← out.insert q.1.1 q.1.2 q.2
    return r.1
  | p :: l, none, out => do
    R.assert (decide (p.2.base = 0))
    coalesceLoop l (some p) out
  | p :: l, some q, out => do
    R.assert (decide (p.2.base = 0))
    if p.1.1 = q.1.2 ∧ p.2 = q.2 then coalesceLoop l (some ((q.1.1, p.1.2), q.2)) out
    else do
      let r ← out.insert q.1.1 q.1.2 q.2
      coalesceLoop l (some p) r.1

/-- memory_mapper.rs:353-386, `coalesce_regions`. -/
def coalesce (m : IMap Region) : R (IMap Region) := coalesceLoop (m.items 0) none IMap.new

/-- What the program has at an address. -/
def St.byte (s : St) : Back → Nat
  | .shm o => s.file o
  | .other c => s.mem c

/-- The bytes of the program that the memory copier reads (`process_vm_readv`); it fails if one cannot be read. -/
def St.copy (s : St) (a : Nat) : Nat → R (List Nat)
  | 0 => .ok []
  | n + 1 =>
    match s.plugin a with
    | none => .panic
    | some m => do
      R.assert m.prot.r
      let l ← s.copy (a + 1) n
      return s.byte m.back :: l

/-- memory_mapper.rs:147-175, `copy_into_file`. -/
def St.copyIntoFile (s : St) (p : Entry Region) (a b : Nat) : R St :=
  if b ≤ a then return s
  else do
    R.assert (decide (p.2.base ≠ 0))
    R.assert (decide (p.1.1 ≤ a) && decide (a < p.1.2))
    R.assert (decide (p.1.1 ≤ b - 1) && decide (b - 1 < p.1.2))
    let l ← s.copy a (b - a)
    s.poke (p.2.base + (a - p.1.1)) l

/-- memory_mapper.rs:227-264, `get_heap`; `brk` is the answer of the kernel's `brk(0)`. -/
def St.getHeap (s : St) (brk base : Nat) : R St :=
  match (s.regions.items 0).filter (fun p => decide (p.2.path = some .heap)) with
  | [] => return { s with heap := (brk, brk) }
  | [p] => do
    let s := s.alloc p.1.2
    let q : Entry Region := (p.1, { p.2 with base := base })
    let s ← s.mmapIntoShadow base p.1.1 p.1.2 rw
    let s ← s.copyIntoFile q p.1.1 p.1.2
    let s ← s.mmapIntoPlugin p.1.1 p.1.2 rw
    let m ← s.regions.insert p.1.1 p.1.2 q.2
    R.assert (decide (m.2.length = 1))
    return { s with regions := m.1, heap := p.1 }
  | _ => .panic

/-- memory_mapper.rs:296-311: the part of the current stack that is remapped is copied, if any. -/
def St.copyStack (s : St) (q : Entry Region) (b e : Nat) : R St := if b < e then s.copyIntoFile q b e else .ok s

/-- memory_mapper.rs:268-321, `map_stack`; `max` is the largest size of a stack (8 MB in the code). -/
def St.mapStack (s : St) (max base : Nat) : R St :=
  match (s.regions.items 0).filter (fun p => decide (p.2.path = some .stack)) with
  | [p] => do
    R.assert (decide (s.page ≤ p.1.2) && decide (max ≤ p.1.2))
    let b := p.1.2 - max
    let e := p.1.2 - s.page
    let q : Entry Region := ((b, e), { p.2 with base := base })
    let s ← s.mmapIntoShadow base b e rw
    let s := s.alloc e
    let s ← s.copyStack q p.1.1 e
    let s ← s.mmapIntoPlugin b e rw
    let m ← s.regions.insert b e q.2
    R.assert (decide (m.2.length = if p.1.1 < e then 1 else 0))
    return { s with regions := m.1 }
  | _ => .panic

/-- memory_mapper.rs:389-437, `MemoryMapper::new`, from the address space of the program and its list in `/proc`. -/
def init (page : Nat) (plugin : Nat → Option Map) (mem : Nat → Nat) (maps : List (Entry Region)) (brk hbase max sbase : Nat) : R St := do
  let m ← getRegions maps IMap.new
  let m ← coalesce m
  let s : St := ⟨page, plugin, mem, fun _ => 0, 0, fun _ => none, m, (0, 0)⟩
  let s ← s.getHeap brk hbase
  s.mapStack max sbase

/-- memory_mapper.rs:323-349, `drop`: the regions that are removed are unmapped from Shadow. -/
def St.dropAll (s : St) : List (Mutation Region) → St
  | [] => s
  | .removed i r :: ms => St.dropAll (if r.base = 0 then s else sMunmap s r.base (i.2 - i.1)) ms
  | _ :: ms => s.dropAll ms

def St.drop (s : St) (usizeMax : Nat) : R St := do
  let m ← s.regions.clear 0 usizeMax
  return St.dropAll { s with regions := m.1 } m.2

end Shadow.MemMap
