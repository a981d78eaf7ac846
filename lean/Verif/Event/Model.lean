/-!
# Model of simulation events and the per-host event queue

Sources: `/repo/src/main/core/work/event.rs`, `/repo/src/main/core/work/event_queue.rs`.

Simplifications: the debugging fields `magic` and `_counter` are dropped; a packet or task is an
opaque payload with decidable equality (in Rust: `PacketRc`/`TaskRef` equality); times are `Nat`
nanoseconds; host and event identifiers are `Nat`.
-/
namespace Shadow.Ev

/-- event.rs:101-123, `EventData` with `PacketEventData` and `LocalEventData`. -/
inductive Data (P : Type) where
  | packet (payload : P) (srcHost : Nat) (srcEventId : Nat)
  | local (task : P) (eventId : Nat)
deriving DecidableEq, Repr

/-- event.rs:9-15, `Event`. -/
structure Event (P : Type) where
  time : Nat
  data : Data P
deriving DecidableEq, Repr

variable {P : Type} [DecidableEq P]

/-- event.rs:131-155 and 163-184 (`PartialOrd` for the two payload structs) together with the
    derived `PartialOrd` of the enum at event.rs:102-110 (an earlier variant is smaller). -/
def Data.partialCmp : Data P → Data P → Option Ordering
  | .packet p s i, .packet p' s' i' =>
    -- sort by src host ID, then by event ID
    let c := (compare s s').then (compare i i')
    if c = .eq then
      if p ≠ p' then none else some c
    else some c
  | .packet .., .local .. => some .lt
  | .local .., .packet .. => some .gt
  | .local t i, .local t' i' =>
    let c := compare i i'
    if c = .eq then
      if t ≠ t' then none else some c
    else some c

/-- event.rs:84-99, `PartialOrd for Event`. -/
def Event.partialCmp (a b : Event P) : Option Ordering :=
  let c := compare a.time b.time
  if c ≠ .eq then some c else a.data.partialCmp b.data

/-- event_queue.rs:10-13, `EventQueue`.  The `BinaryHeap` is modelled by the collection of its
    elements (in no particular order). -/
structure Queue (P : Type) where
  events : List (Event P)
  lastPopped : Nat
deriving DecidableEq, Repr

/-- event_queue.rs:16-21, `EventQueue::new` (`start` is `EmulatedTime::SIMULATION_START`). -/
def Queue.new (start : Nat) : Queue P := ⟨[], start⟩

/-- Result of an operation: a value or a Rust panic. -/
inductive R (α : Type) where
  | ok (a : α)
  | panic
deriving Repr, DecidableEq

/-- event_queue.rs:31-36, `EventQueue::push`. -/
def Queue.push (q : Queue P) (e : Event P) : R (Queue P) :=
  if e.time ≥ q.lastPopped then .ok { q with events := e :: q.events } else .panic

/-- The documented behaviour of `BinaryHeap<Reverse<PanickingOrd<Event>>>::pop`: remove the least
    element.  The comparison panics (event_queue.rs:87-91, `unwrap`) on incomparable elements.
    `extract c rest` returns the least of `c :: rest` and the others. -/
def extract (c : Event P) : List (Event P) → R (Event P × List (Event P))
  | [] => .ok (c, [])
  | e :: es =>
    match c.partialCmp e with
    | none => .panic
    | some .gt =>
      match extract e es with
      | .ok (m, rest) => .ok (m, c :: rest)
      | .panic => .panic
    | some _ =>
      match extract c es with
      | .ok (m, rest) => .ok (m, e :: rest)
      | .panic => .panic

/-- event_queue.rs:39-49, `EventQueue::pop`. -/
def Queue.pop (q : Queue P) : R (Option (Event P) × Queue P) :=
  match q.events with
  | [] => .ok (none, q)
  | c :: es =>
    match extract c es with
    | .panic => .panic
    | .ok (m, rest) =>
      if m.time ≥ q.lastPopped then .ok (some m, ⟨rest, m.time⟩) else .panic

/-- event_queue.rs:52-54, `EventQueue::next_event_time` (`BinaryHeap::peek` returns the least
    element; peeking performs no comparison). -/
def Queue.nextEventTime (q : Queue P) : Option Nat :=
  match q.events with
  | [] => none
  | c :: es => some (es.foldl (fun acc e => min acc e.time) c.time)

/-- The operations of the queue, for histories. -/
inductive Op (P : Type) where
  | push (e : Event P)
  | pop
deriving Repr

/-- One operation; the output is the popped event, if any. -/
def Queue.step (q : Queue P) : Op P → R (Option (Event P) × Queue P)
  | .push e => match q.push e with
    | .ok q' => .ok (none, q')
    | .panic => .panic
  | .pop => q.pop

/-- A history of operations, collecting the popped events in order. -/
def Queue.run (q : Queue P) : List (Op P) → R (List (Event P) × Queue P)
  | [] => .ok ([], q)
  | o :: os =>
    match q.step o with
    | .panic => .panic
    | .ok (out, q') =>
      match q'.run os with
      | .panic => .panic
      | .ok (outs, q'') => .ok (out.toList ++ outs, q'')

end Shadow.Ev
