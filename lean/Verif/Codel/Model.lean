import Verif.Base.Panic

/-!
# Model of the router's CoDel queue

Source: `/repo/src/main/network/router/codel_queue.rs` (with `router/mod.rs`, which only calls it).

Simplifications: a packet is a value of an arbitrary type with a length; times are `Nat` nanoseconds
(no saturation at the end of the representable time); `LIMIT` is `usize::MAX`, so a push never drops;
the increment of the control law, `round(INTERVAL / sqrt(count))` in floating point (lines 285-298), is
an arbitrary function `law` of the count; debug assertions are kept.
-/
namespace Shadow.Codel

open Shadow.Base

/-- codel_queue.rs:23, 10 ms. -/
abbrev target : Nat := 10000000
/-- codel_queue.rs:28, 100 ms. -/
abbrev interval : Nat := 100000000
/-- core/definitions.h:124, `CONFIG_MTU`. -/
abbrev mtu : Nat := 1500

/-- A packet: what it is, and its length. -/
structure Packet (π : Type) where
  data : π
  len : Nat
deriving Repr, DecidableEq

/-- codel_queue.rs:42-48, `CoDelMode`. -/
inductive Mode where
  | store
  | drop
deriving Repr, DecidableEq

/-- codel_queue.rs:50-54, `CoDelElement`. -/
structure Elem (π : Type) where
  packet : Packet π
  enqueueTs : Nat
deriving Repr, DecidableEq

/-- codel_queue.rs:65-81, `CoDelQueue`. -/
structure Queue (π : Type) where
  elements : List (Elem π)
  totalBytes : Nat
  mode : Mode
  intervalEnd : Option Nat
  dropNext : Option Nat
  currentDropCount : Nat
  previousDropCount : Nat
deriving Repr, DecidableEq

/-- codel_queue.rs:35-39, `CoDelPopItem`. -/
structure Item (π : Type) where
  packet : Packet π
  okToDrop : Bool
deriving Repr, DecidableEq

variable {π : Type}

/-- codel_queue.rs:85-95, `new`. -/
def Queue.new : Queue π := ⟨[], 0, .store, none, none, 0, 0⟩

/-- codel_queue.rs:303-317, `push`. -/
def Queue.push (q : Queue π) (p : Packet π) (now : Nat) : Queue π :=
  { q with totalBytes := q.totalBytes + p.len, elements := q.elements ++ [⟨p, now⟩] }

/-- codel_queue.rs:231-262, `process_standing_delay`. -/
def Queue.processStandingDelay (q : Queue π) (now delay : Nat) : Queue π × Bool :=
  if delay < target ∨ q.totalBytes ≤ mtu then ({ q with intervalEnd := none }, false)
  else match q.intervalEnd with
    | some e => (q, decide (now ≥ e))
    | none => ({ q with intervalEnd := some (now + interval) }, false)

/-- codel_queue.rs:204-227, `codel_pop`. -/
def Queue.codelPop (q : Queue π) (now : Nat) : R (Queue π × Option (Item π)) :=
  match q.elements with
  | [] => .ok ({ q with intervalEnd := none }, none)
  | e :: rest => do
    R.assert (decide (e.packet.len ≤ q.totalBytes))
    R.assert (decide (now ≥ e.enqueueTs))
    let r := Queue.processStandingDelay { q with elements := rest, totalBytes := q.totalBytes - e.packet.len } now
      (now - e.enqueueTs)
    return (r.1, some ⟨e.packet, r.2⟩)

/-- codel_queue.rs:265-270, `should_drop`. -/
def Queue.shouldDrop (q : Queue π) (now : Nat) : Bool :=
  match q.dropNext with
  | some next => decide (now ≥ next)
  | none => false

/-- codel_queue.rs:273-281, `was_dropping_recently`. -/
def Queue.wasDroppingRecently (q : Queue π) (now : Nat) : Bool :=
  match q.dropNext with
  | some next => decide (now - next < interval * 16)
  | none => false

/-- codel_queue.rs:159-165, the drop count to start from. -/
def Queue.startCount (q : Queue π) (now : Nat) : Nat :=
  if q.wasDroppingRecently now && decide (q.currentDropCount - q.previousDropCount > 1) then
    q.currentDropCount - q.previousDropCount
  else 1

/-- The result of `pop`: the queue, the packets dropped, the packet returned. -/
abbrev Popped (π : Type) := Queue π × List (Packet π) × Option (Packet π)

/-- codel_queue.rs:150-170, `drop_from_store_mode`. -/
def Queue.dropFromStoreMode (law : Nat → Nat) (q : Queue π) (now : Nat) (p : Packet π) : R (Popped π) := do
  R.assert (decide (q.mode = .store))
  let r ← q.codelPop now
  let q := { r.1 with mode := .drop }
  let count := q.startCount now
  let q := { q with currentDropCount := count, dropNext := some (now + law count), previousDropCount := count }
  return (q, [p], r.2.map (·.packet))

/-- codel_queue.rs:187-197, the end of a turn of the loop. -/
def Queue.afterDrop (law : Nat → Nat) (q : Queue π) (item : Option (Item π)) : R (Queue π) :=
  if item.elim false (·.okToDrop) then do
    let next ← R.unwrap q.dropNext
    return { q with dropNext := some (next + law q.currentDropCount) }
  else .ok { q with mode := .store }

/-- codel_queue.rs:180-198, the loop of `drop_from_drop_mode`; running out of `fuel` is a panic here
    (the theorems show that it does not happen). -/
def Queue.dropLoop (law : Nat → Nat) (now : Nat) : Nat → Queue π → Option (Item π) → R (Popped π)
  | 0, _, _ => .panic
  | fuel + 1, q, item =>
    match item with
    | some i =>
      if q.mode = .drop ∧ q.shouldDrop now = true then do
        let r ← ({ q with currentDropCount := q.currentDropCount + 1 } : Queue π).codelPop now
        let q ← r.1.afterDrop law r.2
        let d ← q.dropLoop law now fuel r.2
        return (d.1, i.packet :: d.2.1, d.2.2)
      else .ok (q, [], some i.packet)
    | none => .ok (q, [], none)

/-- codel_queue.rs:172-201, `drop_from_drop_mode`. -/
def Queue.dropFromDropMode (law : Nat → Nat) (q : Queue π) (now : Nat) (p : Packet π) : R (Popped π) := do
  R.assert (decide (q.mode = .drop))
  q.dropLoop law now (q.elements.length + 2) (some ⟨p, true⟩)

/-- codel_queue.rs:125-148, `pop`. -/
def Queue.pop (law : Nat → Nat) (q : Queue π) (now : Nat) : R (Popped π) := do
  let r ← q.codelPop now
  match r.2 with
  | none => return ({ r.1 with mode := .store }, [], none)
  | some i =>
    if i.okToDrop = true then
      if r.1.mode = .store then r.1.dropFromStoreMode law now i.packet
      else r.1.dropFromDropMode law now i.packet
    else return ({ r.1 with mode := .store }, [], some i.packet)

end Shadow.Codel
