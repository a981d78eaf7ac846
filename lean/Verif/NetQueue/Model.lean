import Verif.Base.Panic

/-!
# Model of the network interface's queue of sockets

Source: `/repo/src/main/host/network/queuing.rs`.

Simplifications: items are compared with decidable equality (in Rust `Eq` and `Hash`, which the
documentation of the queue requires to be stable); the `HashSet` is a list without repetitions; the
`u64` push counter is a natural number; the `BinaryHeap` is the collection of its elements and pops
its greatest element, as documented.
-/
namespace Shadow.NetQueue

open Shadow.Base

/-- queuing.rs:14-18, `Prioritized`. -/
structure Prioritized (α : Type) where
  item : α
  priority : Nat
  pushOrder : Nat
deriving Repr, DecidableEq

variable {α : Type} [DecidableEq α]

/-- queuing.rs:20-36, `Ord for Prioritized`, with the assertion that two are never equal. -/
def Prioritized.cmp (a b : Prioritized α) : R Ordering := do
  let o := match compare a.priority b.priority with
    | .lt => .gt
    | .gt => .lt
    | .eq => (compare a.pushOrder b.pushOrder).swap
  R.assert (decide (o ≠ .eq))
  return o

/-- Documented behaviour of `BinaryHeap::pop`: the greatest of `c :: rest`, and the others. -/
def extract (c : Prioritized α) : List (Prioritized α) → R (Prioritized α × List (Prioritized α))
  | [] => .ok (c, [])
  | e :: es => do
    let o ← c.cmp e
    if o = .lt then
      let r ← extract e es
      return (r.1, c :: r.2)
    else
      let r ← extract c es
      return (r.1, e :: r.2)

/-- queuing.rs:57-66, `NetworkQueueKind`. -/
inductive Kind where
  | minPriority
  | firstInFirstOut
deriving Repr, DecidableEq

/-- queuing.rs:75-80, `QueuingDiscipline`. -/
inductive Discipline (α : Type) where
  | minPriority (heap : List (Prioritized α)) (counter : Nat)
  | firstInFirstOut (deque : List α)
deriving Repr, DecidableEq

/-- queuing.rs:82-88, `PushError`. -/
inductive PushError where
  | alreadyQueued
  | nonePriority
deriving Repr, DecidableEq

/-- queuing.rs:99-104, `NetworkQueue`. -/
structure Queue (α : Type) where
  membership : List α
  queue : Discipline α
deriving Repr, DecidableEq

/-- queuing.rs:108-119, `new`. -/
def Queue.new : Kind → Queue α
  | .minPriority => ⟨[], .minPriority [] 0⟩
  | .firstInFirstOut => ⟨[], .firstInFirstOut []⟩

/-- queuing.rs:122-128, `clear`. -/
def Queue.clear (q : Queue α) : Queue α :=
  match q.queue with
  | .minPriority _ c => ⟨[], .minPriority [] c⟩
  | .firstInFirstOut _ => ⟨[], .firstInFirstOut []⟩

/-- queuing.rs:131-133, `contains`. -/
def Queue.contains (q : Queue α) (x : α) : Bool := decide (x ∈ q.membership)

/-- queuing.rs:142-144, `len`. -/
def Queue.len (q : Queue α) : Nat := q.membership.length

/-- queuing.rs:148-156, the item that `pop` takes from the discipline. -/
def Discipline.pop : Discipline α → R (Discipline α × Option α)
  | .minPriority [] c => .ok (.minPriority [] c, none)
  | .minPriority (e :: es) c => do
    let r ← extract e es
    return (.minPriority r.2 c, some r.1.item)
  | .firstInFirstOut [] => .ok (.firstInFirstOut [], none)
  | .firstInFirstOut (x :: xs) => .ok (.firstInFirstOut xs, some x)

/-- queuing.rs:148-156, `pop`; the assertion says that the item was a member. -/
def Queue.pop (q : Queue α) : R (Queue α × Option α) := do
  let r ← q.queue.pop
  match r.2 with
  | none => return (⟨q.membership, r.1⟩, none)
  | some x =>
    R.assert (decide (x ∈ q.membership))
    return (⟨q.membership.erase x, r.1⟩, some x)

/-- queuing.rs:178-201, `try_push` (`none` is `Ok(())`).  Without a priority the item stays in the
    membership set although it is not queued. -/
def Queue.tryPush (q : Queue α) (x : α) (p : Option Nat) : Queue α × Option PushError :=
  if q.contains x then (q, some .alreadyQueued)
  else
    match q.queue with
    | .minPriority heap counter =>
      match p with
      | some p => (⟨x :: q.membership, .minPriority (⟨x, p, counter⟩ :: heap) (counter + 1)⟩, none)
      | none => (⟨x :: q.membership, .minPriority heap counter⟩, some .nonePriority)
    | .firstInFirstOut deque => (⟨x :: q.membership, .firstInFirstOut (deque ++ [x])⟩, none)

/-- queuing.rs:167-169, `push`. -/
def Queue.push (q : Queue α) (x : α) (p : Option Nat) : R (Queue α) :=
  match q.tryPush x p with
  | (q', none) => .ok q'
  | (_, some _) => .panic

end Shadow.NetQueue
