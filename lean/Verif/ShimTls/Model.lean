import Verif.Base.Panic
/-!
# Thread-local variables of the shim

Source: `/repo/src/lib/shim/src/tls.rs`.

Trusted: `LazyLock` makes one offset for each variable (C58), `AtomicTlsMap` is a table (C59), and libc gives a new thread zeroed native storage.

Simplifications: the bytes of one thread are represented by what starts at an offset; `none` are the zeroed bytes of a variable that was not initialised. That variables do not overlap, which makes this
right, is proved (C95_disjoint, `Inv`). The limit of 100 threads in the table is left out. Values are numbers.
-/
namespace Shadow.ShimTls

open Shadow.Base

/-- `Mode` (tls.rs:22-90). -/
inductive Mode where
  | native
  | nativeTlsId
  | gettid
deriving DecidableEq, Repr

/-- What identifies a thread: its thread pointer (0 if there is none) and its number. -/
structure Id where
  fs : Nat
  tid : Nat
deriving DecidableEq, Repr

/-- The storage of a thread: native (one for each thread pointer), or in the table (`TlsOneThreadBackingStoreRef`, tls.rs:453-456). -/
inductive Loc where
  | native (fs : Nat)
  | mapped (key : Nat)
deriving DecidableEq, Repr

/-- `FastThreadId::current` and `to_nonzero_usize` (tls.rs:190-224). -/
def key (i : Id) : R Nat :=
  if i.fs ≠ 0 then do
    R.assert (i.fs < 2 ^ 63)
    .ok i.fs
  else do
    R.assert (i.tid < 2 ^ 31)
    .ok (2 ^ 63 ||| i.tid)

/-- `current_key` and `current_thread_storage` (tls.rs:339-357, 389-399). -/
def loc (m : Mode) (i : Id) : R Loc :=
  if m = .native ∧ i.fs ≠ 0 then .ok (.native i.fs)
  else do
    let k ← key i
    .ok (.mapped k)

/-- The size and alignment of each variable, with its flag, and what it is initialised with. -/
structure Layout where
  size : Nat → Nat
  align : Nat → Nat
  init : Nat → Nat

/-- One round of `alloc_offset` (tls.rs:297-321): the offset, and the next one. -/
def place (next align size : Nat) : R (Nat × Nat) := do
  R.assert (align ≤ 16)
  let off := next + (align - next % align) % align
  R.assert (off + size ≤ 1024)
  .ok (off, off + size)

structure State where
  next : Nat
  offs : Nat → Option Nat
  stores : Loc → Option (Nat → Option Nat)
  ids : Nat → Id

def upd {A B : Type} [DecidableEq A] (f : A → B) (a : A) (b : B) : A → B := fun x => if x = a then b else f x

def State.init : State := ⟨0, fun _ => none, fun _ => none, fun _ => ⟨0, 0⟩⟩

/-- What is at an offset. -/
def State.at (s : State) (l : Loc) (o : Nat) : Option Nat :=
  match s.stores l with
  | none => none
  | some st => st o

def State.write (s : State) (l : Loc) (o : Nat) (x : Nat) : State :=
  { s with stores := upd s.stores l (some (upd (s.at l) o (some x))) }

/-- The offset of a variable (tls.rs:521-533). -/
def offset (L : Layout) (s : State) (v : Nat) : R (Nat × State) :=
  match s.offs v with
  | some o => .ok (o, s)
  | none => do
    let p ← place s.next (L.align v) (L.size v)
    .ok (p.1, { s with next := p.2, offs := upd s.offs v (some p.1) })

/-- `ensure_init` (tls.rs:498-513), at a place. -/
def ensure (L : Layout) (s : State) (l : Loc) (o v : Nat) : Nat × State :=
  match s.at l o with
  | some x => (x, s)
  | none => (L.init v, s.write l o (L.init v))

/-- `ShimTlsVar::get` by a thread (tls.rs:589-594, 627-645): its storage is made if need be, then the offset, then the value. -/
def get (L : Layout) (m : Mode) (s : State) (n v : Nat) : R (Nat × Loc × Nat × State) := do
  let l ← loc m (s.ids n)
  let s := { s with stores := upd s.stores l (some (s.at l)) }
  let p ← offset L s v
  let q := ensure L p.2 l p.1 v
  .ok (q.1, l, p.1, q.2)

/-- `unregister_current_thread` (tls.rs:371-385). The code returns at once if there is no table yet; here the table is empty then, which differs only in that the range of the thread pointer is checked. -/
def unregister (s : State) (n : Nat) : R State := do
  let k ← key (s.ids n)
  .ok { s with stores := upd s.stores (.mapped k) none }

/-- `forget_all` on the table. -/
def forget (stores : Loc → Option (Nat → Option Nat)) : Loc → Option (Nat → Option Nat)
  | .native fs => stores (.native fs)
  | .mapped _ => none

/-- `fork_from` (tls.rs:416-450), in the new process, where the thread has another number. -/
def forkFrom (m : Mode) (s : State) (n tid : Nat) : R State := do
  let old ← loc m (s.ids n)
  let i : Id := ⟨(s.ids n).fs, tid⟩
  let s1 : State := { s with stores := forget s.stores, ids := upd s.ids n i }
  match old with
  | .native _ => do
    let new ← loc m i
    match new with
    | .native _ => .ok s1
    | .mapped _ => .panic
  | .mapped _ => do
    let st ← R.unwrap (s.stores old)
    let new ← loc m i
    match new with
    | .native _ => .panic
    | .mapped _ => .ok { s1 with stores := upd s1.stores new (some st) }

/-- What threads do. -/
inductive Op where
  /-- a thread starts; libc has zeroed its native storage -/
  | start (n : Nat) (i : Id)
  | get (n v : Nat)
  /-- changes the value (through a cell) -/
  | set (n v x : Nat)
  | exit (n : Nat)
  /-- the process goes on as its child, of thread `n` only -/
  | fork (n tid : Nat)
deriving DecidableEq, Repr

def step (L : Layout) (m : Mode) (s : State) : Op → R (State × Option Nat)
  | .start n i => .ok ({ s with ids := upd s.ids n i, stores := upd s.stores (.native i.fs) none }, none)
  | .get n v => do
    let r ← get L m s n v
    .ok (r.2.2.2, some r.1)
  | .set n v x => do
    let r ← get L m s n v
    .ok (r.2.2.2.write r.2.1 r.2.2.1 x, none)
  | .exit n => do
    let s ← unregister s n
    .ok (s, none)
  | .fork n tid => do
    let s ← forkFrom m s n tid
    .ok (s, none)

def run (L : Layout) (m : Mode) (s : State) : List Op → R (List (Option Nat))
  | [] => .ok []
  | op :: l => do
    let r ← step L m s op
    let out ← run L m r.1 l
    .ok (r.2 :: out)

/-! ## Allocation by several threads at once -/

/-- Where a thread is in `alloc_offset`: not in it, or with a value it has read (tls.rs:302-336), for a variable. -/
inductive Pc where
  | idle
  | read (next : Nat) (v : Nat)
deriving DecidableEq, Repr

structure Alloc where
  next : Nat
  pcs : Nat → Pc
  /-- the variables that were placed, with their offsets -/
  got : List (Nat × Nat)

/-- A thread reads the next offset to place a variable. -/
def aLoad (s : Alloc) (t v : Nat) : Alloc := { s with pcs := upd s.pcs t (.read s.next v) }

/-- A thread places its variable and tries to set the next offset; if another thread was faster, it goes on with the value it finds. -/
def aCas (L : Layout) (s : Alloc) (t : Nat) : R Alloc :=
  match s.pcs t with
  | .idle => .ok s
  | .read nx v => do
    let p ← place nx (L.align v) (L.size v)
    if s.next = nx then .ok { next := p.2, pcs := upd s.pcs t .idle, got := (v, p.1) :: s.got }
    else .ok { s with pcs := upd s.pcs t (.read s.next v) }

def aRun (L : Layout) (s : Alloc) : List (Nat × Option Nat) → R Alloc
  | [] => .ok s
  | (t, some v) :: l => aRun L (aLoad s t v) l
  | (t, none) :: l => do
    let s ← aCas L s t
    aRun L s l

end Shadow.ShimTls
