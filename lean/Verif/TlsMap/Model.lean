import Verif.Base.Panic
import Verif.Base.Count

/-!
# `AtomicTlsMap` (src/lib/vasi-sync/src/atomic_tls_map.rs)

Any number of threads use one table.  Every access to the atomic keys is one step, and the steps of the threads interleave in any order.
The values and the reference counts are not atomic: an access by a thread is a failure of the model unless all earlier accesses by other
threads happened before it.  For this a slot has the thread that owns it: the one whose `Acquire` exchange took the slot after a `Release`
store (or after the table was made).

The contract of the `unsafe` functions (lines 131-133, 152-155, 183-186, 203-206) is the condition `allowed`: a key that is in the table, or
that is being used by a call, is used by one thread only.

Simplification: keys and values are numbers; the hash function is an arbitrary function of the key; the initializer of
`get_or_insert_with` is arbitrary code that returns any value and does not use the table itself; accesses to the values and counts of a
slot that only its owner may make are part of the step that follows the atomic access.
-/
namespace Shadow.TlsMap

open Shadow.Base

/-- One entry of the arrays `keys`, `values`, `refcounts` (lines 27-32). -/
structure Slot where
  key : Option Nat
  val : Option Nat
  refs : Nat
  /-- The thread that inserted the key. -/
  ins : Option Nat
  /-- The thread whose accesses come after all earlier ones. -/
  own : Option Nat
  /-- The key was made vacant by a `Release` store that comes after all earlier accesses. -/
  rel : Bool
deriving DecidableEq, Repr

inductive Op where
  | get | getOrInsert | remove
deriving DecidableEq, Repr

inductive Pc where
  | idle
  /-- In `idx` (lines 123-129): the indexes that are still to be looked at. -/
  | scan (op : Op) (k : Nat) (rest : List Nat)
  /-- In the initializer (line 195). -/
  | init (k : Nat)
  /-- In the search for a vacant slot (lines 157-170). -/
  | cas (k v : Nat) (rest : List Nat)
  /-- The slot is taken, the value is not yet written (line 171). -/
  | fill (k v i : Nat)
  /-- The value is taken out, the key is not yet cleared (line 223). -/
  | clear (k i : Nat)
deriving DecidableEq, Repr

/-- A `Ref` (lines 290-294), held by thread `t`. -/
structure Held where
  t : Nat
  k : Nat
  i : Nat
deriving DecidableEq, Repr

structure St where
  slots : List Slot
  ths : List Pc
  held : List Held
deriving DecidableEq, Repr

/-- What the threads observe. -/
inductive Ev where
  /-- `get` finds nothing. -/
  | absent (t k : Nat)
  /-- `get` or `get_or_insert_with` returns a reference to a value that was there. -/
  | found (t k v : Nat)
  /-- The initializer of `get_or_insert_with` is called and returns `v`. -/
  | init (t k v : Nat)
  /-- `get_or_insert_with` returns a reference to the value that it inserted. -/
  | inserted (t k v : Nat)
  /-- `remove` takes the value out, or finds nothing. -/
  | removed (t k : Nat) (v : Option Nat)
  /-- A value is read through a reference. -/
  | read (t k v : Nat)
  /-- A reference is dropped. -/
  | unref (t k : Nat)
  /-- `forget_all`. -/
  | forget
deriving DecidableEq, Repr

inductive Act where
  | call (t : Nat) (op : Op) (k : Nat)
  | go (t : Nat)
  | init (t v : Nat)
  | read (t j : Nat)
  | unref (t j : Nat)
  | fork (t : Nat)
deriving DecidableEq, Repr

/-- atomic_tls_map.rs:100-107, `new_with_hasher`. -/
def St.new (N threads : Nat) : St := ⟨List.replicate N ⟨none, none, 0, none, none, true⟩, List.replicate threads .idle, []⟩

/-- atomic_tls_map.rs:110-116, `indexes_from`. -/
def indexesFrom (N : Nat) (hash : Nat → Nat) (k : Nat) : List Nat :=
  let start := hash k % N
  List.range' start (N - start) ++ List.range start

def St.put (s : St) (t : Nat) (p : Pc) : St := { s with ths := s.ths.set t p }

def St.slot (s : St) (i : Nat) (sl : Slot) : St := { s with slots := s.slots.set i sl }

def St.hold (s : St) (h : Held) : St := { s with held := h :: s.held }

/-- atomic_tls_map.rs:110-124: the search starts; the remainder of line 114 panics for a table without slots. -/
def St.begin (s : St) (N : Nat) (hash : Nat → Nat) (t : Nat) (op : Op) (k : Nat) : R (St × List Ev) := do
  R.assert (decide (0 < N))
  return (s.put t (.scan op k (indexesFrom N hash k)), [])

/-- A non-atomic access by thread `t`. -/
def Slot.access (sl : Slot) (t : Nat) : R Unit := R.assert (decide (sl.own = some t))

/-- atomic_tls_map.rs:138-139 and 301-308: a reference to the value is made. -/
def St.refHit (s : St) (t k i : Nat) (sl : Slot) : R (St × List Ev) := do
  sl.access t
  let v ← R.unwrap sl.val
  return (((s.slot i { sl with refs := sl.refs + 1 }).hold ⟨t, k, i⟩).put t .idle, [.found t k v])

/-- atomic_tls_map.rs:209-217: the count is checked and the value taken out. -/
def St.removeHit (s : St) (t k i : Nat) (sl : Slot) : R (St × List Ev) := do
  sl.access t
  R.assert (decide (sl.refs = 0))
  let v ← R.unwrap sl.val
  return ((s.slot i { sl with val := none }).put t (.clear k i), [.removed t k (some v)])

/-- atomic_tls_map.rs:123-129, `idx`, and what follows it in `get` (134-140), `get_or_insert_with` (193-194) and `remove` (207-208). -/
def St.goScan (s : St) (t : Nat) (op : Op) (k : Nat) : List Nat → R (St × List Ev)
  | [] => match op with
    | .get => .ok (s.put t .idle, [.absent t k])
    | .getOrInsert => .ok (s.put t (.init k), [])
    | .remove => .ok (s.put t .idle, [.removed t k none])
  | i :: rest => do
    let sl ← R.unwrap s.slots[i]?
    if sl.key = some k then
      match op with
      | .get => s.refHit t k i sl
      | .getOrInsert => s.refHit t k i sl
      | .remove => s.removeHit t k i sl
    else return (s.put t (.scan op k rest), [])

/-- atomic_tls_map.rs:157-170: the exchange is `Acquire` on success; without a vacant slot the `unwrap` panics. -/
def St.goCas (s : St) (t k v : Nat) : List Nat → R (St × List Ev)
  | [] => .panic
  | i :: rest => do
    let sl ← R.unwrap s.slots[i]?
    if sl.key = none then
      return ((s.slot i { sl with key := some k, ins := some t, own := if sl.rel then some t else sl.own }).put t (.fill k v i), [])
    else return (s.put t (.cas k v rest), [])

/-- atomic_tls_map.rs:171-175: the value is written and a reference made. -/
def St.goFill (s : St) (t k v i : Nat) : R (St × List Ev) := do
  let sl ← R.unwrap s.slots[i]?
  sl.access t
  return (((s.slot i { sl with val := some v, refs := sl.refs + 1 }).hold ⟨t, k, i⟩).put t .idle, [.inserted t k v])

/-- atomic_tls_map.rs:223: the key is cleared with a `Release` store. -/
def St.goClear (s : St) (t i : Nat) : R (St × List Ev) := do
  let sl ← R.unwrap s.slots[i]?
  return ((s.slot i { sl with key := none, ins := none, own := none, rel := decide (sl.own = some t) }).put t .idle, [])

def St.go (s : St) (t : Nat) : Pc → Option (R (St × List Ev))
  | .idle => none
  | .scan op k rest => some (s.goScan t op k rest)
  | .init _ => none
  | .cas k v rest => some (s.goCas t k v rest)
  | .fill k v i => some (s.goFill t k v i)
  | .clear _ i => some (s.goClear t i)

/-- atomic_tls_map.rs:311-322: reading through a `Ref`. -/
def St.readRef (s : St) (h : Held) : R (St × List Ev) := do
  let sl ← R.unwrap s.slots[h.i]?
  sl.access h.t
  let v ← R.unwrap sl.val
  return (s, [.read h.t h.k v])

/-- atomic_tls_map.rs:324-328: dropping a `Ref`. -/
def St.dropRef (s : St) (j : Nat) (h : Held) : R (St × List Ev) := do
  let sl ← R.unwrap s.slots[h.i]?
  sl.access h.t
  R.assert (decide (0 < sl.refs))
  return ({ s.slot h.i { sl with refs := sl.refs - 1 } with held := s.held.eraseIdx j }, [.unref h.t h.k])

/-- atomic_tls_map.rs:242-247, `forget_all`, in the only thread that is left after a `fork`. -/
def St.forgetAll (s : St) : St :=
  ⟨s.slots.map (fun sl => { sl with key := none, val := none, refs := 0, ins := none, own := none, rel := true }), s.ths.map (fun _ => .idle), []⟩

/-- One step; `none` is "not enabled". -/
def step (N : Nat) (hash : Nat → Nat) (s : St) : Act → Option (R (St × List Ev))
  | .call t op k => match s.ths[t]? with
    | some .idle => some (s.begin N hash t op k)
    | _ => none
  | .go t => match s.ths[t]? with
    | some p => s.go t p
    | none => none
  | .init t v => match s.ths[t]? with
    | some (.init k) => some (.ok (s.put t (.cas k v (indexesFrom N hash k)), [.init t k v]))
    | _ => none
  | .read t j => match s.held[j]? with
    | some h => if h.t = t then some (s.readRef h) else none
    | none => none
  | .unref t j => match s.held[j]?, s.ths[t]? with
    | some h, some .idle => if h.t = t then some (s.dropRef j h) else none
    | _, _ => none
  | .fork t => match s.ths[t]? with
    | some .idle => some (.ok (s.forgetAll, [.forget]))
    | _ => none

/-- atomic_tls_map.rs:266-288, `drop`: the values that are dropped.  The caller has exclusive access. -/
def dropAll : List Slot → R (List Nat)
  | [] => .ok []
  | sl :: l => do
    if sl.key.isSome then
      R.assert (decide (sl.refs = 0))
      let v ← R.unwrap sl.val
      let vs ← dropAll l
      return v :: vs
    else dropAll l

/-- The key that a call is about. -/
def Pc.key : Pc → Option Nat
  | .idle => none
  | .scan _ k _ => some k
  | .init k => some k
  | .cas k _ _ => some k
  | .fill k _ _ => some k
  | .clear k _ => some k

/-- The contract: a call with a key is made only if no other thread is in a call with this key, and if the key is in the table then the
calling thread inserted it. -/
def allowed (s : St) : Act → Prop
  | .call t _ k => (∀ (u : Nat) (p : Pc), s.ths[u]? = some p → p.key = some k → u = t) ∧ ∀ sl ∈ s.slots, sl.key = some k → sl.ins = some t
  | _ => True

/-- The states that can be reached, with everything observed, in order. -/
inductive Run (N : Nat) (hash : Nat → Nat) (threads : Nat) : St → List Ev → Prop
  | init : Run N hash threads (St.new N threads) []
  | step {s s' : St} {tr e : List Ev} {a : Act} : Run N hash threads s tr → allowed s a → step N hash s a = some (.ok (s', e)) → Run N hash threads s' (tr ++ e)

end Shadow.TlsMap
