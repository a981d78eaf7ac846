import Verif.MemMap.Model

/-!
# What the calls do to the memory of a program

An address has a protection, a byte, and it is private anonymous memory (also the heap and the stack) or not.
-/
namespace Shadow.MemMap

open Shadow.Base

structure Cell where
  prot : Prot
  anon : Bool
  byte : Nat
deriving DecidableEq, Repr

abbrev View := Nat → Option Cell

/-- What the program sees. -/
def view (s : St) : View := fun x =>
  match s.plugin x with
  | none => none
  | some ⟨.shm o, p⟩ => some ⟨p, true, s.file o⟩
  | some ⟨.other c, p⟩ => some ⟨p, false, s.mem c⟩

/-- Something else for an interval. -/
def View.over (V : View) (a b : Nat) (f : Nat → Option Cell) : View := fun x => if a ≤ x ∧ x < b then f x else V x

/-- The calls, with the answers of the kernel. -/
inductive Act where
  | mmap (res : Option Nat) (len : Nat) (prot : Prot) (anon priv : Bool) (path base : Nat) (cells : Nat → Nat)
  | munmap (a len : Nat) (ok : Bool)
  | mremap (old osz nsz : Nat) (maymove : Bool) (res : Option Nat) (base : Nat) (ext : Nat → Nat)
  | brk (req : Nat) (ok : Bool) (base : Nat) (ext : Nat → Nat)
  | mprotect (a len : Nat) (prot : Prot) (res : Option Nat)
  /-- The program stores a byte. -/
  | store (x v : Nat)
  /-- Shadow writes bytes into the memory of the program. -/
  | write (a : Nat) (bytes : List Nat)

/-- None: the action is not possible, or not through the mapper. -/
def step (s : St) : Act → Option (R St)
  | .mmap res len prot anon priv path base cells => some (s.mmap res len prot anon priv path base cells)
  | .munmap a len ok => some (s.munmap a len ok)
  | .mremap old osz nsz maymove res base ext => some (s.mremap old osz nsz maymove res base ext)
  | .brk req ok base ext =>
    match s.brk req ok base ext with
    | .ok p => some (.ok p.1)
    | .panic => some .panic
  | .mprotect a len prot res => some (s.mprotect a len prot res)
  | .store x v => (s.store x v).map .ok
  | .write a bytes =>
    match s.write a bytes with
    | .ok none => none
    | .ok (some t) => some (.ok t)
    | .panic => some .panic

/-- Fresh memory: zeros. -/
def zeros (p : Prot) : Nat → Option Cell := fun _ => some ⟨p, true, 0⟩

/-- A mapping moved from one place to another, or made longer or shorter: the bytes stay, and what is new is zero, or (if it is
    not private anonymous memory) what the kernel maps there. -/
def moved (V : View) (mem : Nat → Nat) (old osz new nsz : Nat) (ext : Nat → Nat) : View := fun x =>
  if new ≤ x ∧ x < new + nsz then
    if x - new < osz then V (old + (x - new))
    else (V old).map (fun c => if c.anon then ⟨c.prot, true, 0⟩ else ⟨c.prot, false, mem (ext (x - new))⟩)
  else if old ≤ x ∧ x < old + osz then none
  else V x

/-- The memory after a call, and the end of the heap. `mem` are the bytes of files and such. -/
def outcome (mem : Nat → Nat) (V : View) (heap : Nat × Nat) : Act → View × (Nat × Nat)
  | .mmap none _ _ _ _ _ _ _ => (V, heap)
  | .mmap (some a) len prot anon priv _ _ cells =>
    (V.over a (a + len) (if anon && priv then zeros prot else fun x => some ⟨prot, false, mem (cells x)⟩), heap)
  | .munmap a len ok => (if ok then V.over a (a + len) (fun _ => none) else V, heap)
  | .mremap _ _ _ _ none _ _ => (V, heap)
  | .mremap old osz nsz _ (some new) _ ext => (moved V mem old osz new nsz ext, heap)
  | .brk req _ _ _ =>
    if req < heap.1 then (V, heap)
    else if req ≤ heap.2 then (V.over req heap.2 (fun _ => none), (heap.1, req))
    else (V.over heap.2 req (zeros rw), (heap.1, req))
  | .mprotect a len prot res =>
    match res with
    | none => (V.over a (a + len) (fun x => (V x).map (fun c => { c with prot := prot })), heap)
    | some _ => (V, heap)
  | .store x v => (V.over x (x + 1) (fun x => (V x).map (fun c => { c with byte := v })), heap)
  | .write a bytes => (V.over a (a + bytes.length) (fun x => (V x).map (fun c => { c with byte := bytes.getD (x - a) 0 })), heap)

end Shadow.MemMap
