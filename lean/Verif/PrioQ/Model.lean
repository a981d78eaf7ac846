import Verif.Base.Panic

/-!
# The priority queue of the C code

A transcription of `src/main/utility/priority_queue.c`, which the TCP sockets use for packets to send, packets
that came early and timers. Elements are pointers, here numbers. The queue is a binary heap in an array, with a map from each
element to the address of its place.

An address is the number of the allocation and an index: `g_renew` may move the array, after which the old addresses are
invalid. Using one of those, or one outside of the array, is `panic`. The array is a function here; what it holds beyond the end is
arbitrary. The comparison function is given by a key: the sequence number of a packet (`packet_compareTCPSequence`) or a
point in time (`_simulationTimeCompare`), which does not change while the element is in the queue. Indices are natural
numbers instead of `guint`. The map is a hash table of glib, here a function.
-/

namespace Shadow.PrioQ
open Shadow.Base

/-- `struct _PriorityQueue` (priority_queue.c:17-25); `base` is the number of the allocation of `heap`. -/
structure Q where
  heap : Nat → Nat
  map : Nat → Option (Nat × Nat)
  base : Nat
  size : Nat
  heapSize : Nat

/-- `INITIAL_SIZE` (priority_queue.c:15). -/
def initialSize : Nat := 100

/-- `priorityqueue_new` (priority_queue.c:27-39). -/
def new (base : Nat) (junk : Nat → Nat) : Q :=
  { heap := junk, map := fun _ => none, base := base, size := 0, heapSize := initialSize }

/-- `g_hash_table_insert`. -/
def upd {α : Type} (m : Nat → α) (p : Nat) (v : α) : Nat → α := fun x => if x = p then v else m x

/-- `_priorityqueue_refresh_map` (priority_queue.c:71-76). -/
def refresh (q : Q) : Q :=
  { q with map := (List.range q.size).foldl (fun m i => upd m (q.heap i) (some (q.base, i))) (fun _ => none) }

/-- `_priorityqueue_swap_entries` (priority_queue.c:78-85). -/
def swap (q : Q) (i j : Nat) : Q :=
  let pi := q.heap i
  let pj := q.heap j
  { q with
    heap := upd (upd q.heap i pj) j pi
    map := upd (upd q.map pi (some (q.base, j))) pj (some (q.base, i)) }

/-- `_priorityqueue_entry_smaller` (priority_queue.c:87-89). -/
def smaller (key : Nat → Nat) (q : Q) (i j : Nat) : Bool := decide (key (q.heap i) < key (q.heap j))

/-- `_priorityqueue_heapify_up` (priority_queue.c:91-97). The first argument bounds the number of rounds; the index gets smaller in each. -/
def up (key : Nat → Nat) : Nat → Q → Nat → Q × Nat
  | 0, q, i => (q, i)
  | f + 1, q, i => if i > 0 ∧ smaller key q i ((i - 1) / 2) then up key f (swap q i ((i - 1) / 2)) ((i - 1) / 2) else (q, i)

/-- The smaller child (priority_queue.c:101-104). -/
def child (key : Nat → Nat) (q : Q) (i : Nat) : Nat :=
  if 2 * i + 1 + 1 < q.size ∧ smaller key q (2 * i + 1 + 1) (2 * i + 1) then 2 * i + 1 + 1 else 2 * i + 1

/-- `_priorityqueue_heapify_down` (priority_queue.c:99-113). The first argument bounds the number of rounds; the index grows in each. -/
def down (key : Nat → Nat) : Nat → Q → Nat → Q × Nat
  | 0, q, i => (q, i)
  | f + 1, q, i =>
    if 2 * i + 1 < q.size then
      if smaller key q (child key q i) i then down key f (swap q i (child key q i)) (child key q i) else (q, i)
    else (q, i)

/-- `g_renew` of the array to `n` places, which may give it another address, and the refresh of the map. -/
def renew (q : Q) (n base : Nat) : Q :=
  let old := q.base
  let q := { q with heapSize := n, base := base }
  if base ≠ old then refresh q else q

/-- `priorityqueue_push` (priority_queue.c:115-140). `nb` is the address that `g_renew` would return. -/
def push (key : Nat → Nat) (q : Q) (data nb : Nat) : R (Q × Bool) :=
  let q := if q.size ≥ q.heapSize then renew q (q.heapSize * 2) nb else q
  match q.map data with
  | some (b, i) => do
    R.assert (b == q.base)
    let d := down key q.size q i
    let u := up key (d.2 + 1) d.1 d.2
    R.ok (u.1, false)
  | none => do
    let index := q.size
    R.assert (decide (index < q.heapSize))
    let q := { q with heap := upd q.heap index data, map := upd q.map data (some (q.base, index)), size := q.size + 1 }
    R.ok ((up key (index + 1) q index).1, true)

/-- `priorityqueue_peek` (priority_queue.c:142-148). -/
def peek (q : Q) : Option Nat := if q.size > 0 then some (q.heap 0) else none

/-- `priorityqueue_find` (priority_queue.c:150-154). -/
def find (q : Q) (data : Nat) : R (Option Nat) :=
  match q.map data with
  | none => .ok none
  | some (b, i) => do
    R.assert (b == q.base && decide (i < q.heapSize))
    R.ok (some (q.heap i))

/-- `priorityqueue_pop` (priority_queue.c:156-175). -/
def pop (key : Nat → Nat) (q : Q) (nb : Nat) : Q × Option Nat :=
  if q.size > 0 then
    let data := q.heap 0
    let q := swap q 0 (q.size - 1)
    let q := { q with map := upd q.map data none }
    let q := { q with size := q.size - 1 }
    let q := (down key q.size q 0).1
    if q.heapSize > initialSize ∧ q.size * 4 < q.heapSize then (renew q (q.heapSize / 2) nb, some data) else (q, some data)
  else (q, none)

/-- What is done with a queue; the second number of `push` and the one of `pop` are the addresses of `g_renew`. -/
inductive Op
  | push (data nb : Nat)
  | pop (nb : Nat)
deriving Repr, DecidableEq

/-- One operation: the queue, whether an element was added, and the element that was removed. -/
def step (key : Nat → Nat) (q : Q) : Op → R (Q × Bool × Option Nat)
  | .push data nb => do
    let r ← push key q data nb
    R.ok (r.1, r.2, none)
  | .pop nb => let r := pop key q nb; R.ok (r.1, false, r.2)

end Shadow.PrioQ
