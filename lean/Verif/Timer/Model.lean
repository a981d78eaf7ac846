import Verif.Base.Panic
import Verif.Time.Model

/-!
# Model of `Timer`

Sources: `/repo/src/main/host/timer.rs`, `/repo/src/main/host/host.rs` (`execute`, `push_local_event`),
`/repo/src/main/core/work/event_queue.rs` (`push`, `pop`).

A world is one timer together with the part of its host that matters to it: the clock, the time of the event popped
last, and those events in the host's queue that belong to the timer. Simplifications: counts and identifiers are
natural numbers (`u64` in Rust); a debug assertion is an assertion; the timer is not dropped while it is looked at
(a dropped timer's events do nothing, timer.rs:111-114).
-/
namespace Shadow.Timer

open Shadow.Base
open Shadow.Time

/-- timer.rs:24-31, `TimerInternal` without the callback. -/
structure Timer where
  next : Option Nat
  interval : Option Nat
  count : Nat
  nextId : Nat
  minValid : Nat
deriving Repr, DecidableEq

/-- timer.rs:51-64, `new`. -/
def Timer.new : Timer := ⟨none, none, 0, 0, 0⟩

/-- timer.rs:34-43, `reset`. -/
def Timer.reset (t : Timer) (next interval : Option Nat) : Timer :=
  { t with minValid := t.nextId, count := 0, next := next, interval := interval }

/-- An event in the host's queue whose task is `timer_expire` with this identifier. -/
structure Ev where
  time : Nat
  id : Nat
deriving Repr, DecidableEq

/-- The order of events: by time, then by identifier. Local events of a host with equal times are ordered by event
    identifier, that is, in the order in which they were made (see C01). -/
def Ev.le (a b : Ev) : Prop := a.time < b.time ∨ (a.time = b.time ∧ a.id ≤ b.id)

instance : DecidableRel Ev.le := fun a b => by unfold Ev.le; infer_instance

/-- A timer and its surroundings: `now` is `Worker::current_time`, `lastPop` the queue's `last_popped_event_time`,
    `endTime` the host's `sim_end_time`, `pending` the timer's events in the queue. -/
structure World where
  timer : Timer
  now : Nat
  lastPop : Nat
  endTime : Nat
  pending : List Ev
deriving Repr, DecidableEq

/-- host.rs:715-734 and event_queue.rs:31-36: events at or after the end are dropped, and none may be in the past. -/
def World.push (x : World) (ev : Ev) : R World :=
  if ev.time ≥ x.endTime then .ok x
  else do
    R.assert (decide (ev.time ≥ x.lastPop))
    return { x with pending := ev :: x.pending }

/-- timer.rs:158-182, `schedule_new_expire_event`. -/
def World.schedule (x : World) : R World := do
  let sinceStart ← R.unwrap (Emu.durationSince x.now simStart)
  let secs ← R.unwrap (Sim.tryFromSecs (Sim.asSecs sinceStart))
  let two ← R.unwrap (Sim.checkedMul oneSecond 2)
  let early ← R.unwrap (Sim.checkedAdd secs two)
  let next ← R.unwrap x.timer.next
  let at_ ← R.unwrap (Emu.checkedAdd simStart early)
  World.push { x with timer := { x.timer with nextId := x.timer.nextId + 1 } } ⟨min next at_, x.timer.nextId⟩

/-- timer.rs:191-208, `arm`. -/
def World.arm (x : World) (expire : Nat) (interval : Option Nat) : R World := do
  R.assert (decide (expire ≥ x.now))
  R.assert (interval.all (fun i => decide (0 < i)))
  World.schedule { x with timer := x.timer.reset (some expire) interval }

/-- timer.rs:100-104, `disarm`. -/
def World.disarm (x : World) : World := { x with timer := x.timer.reset none none }

/-- timer.rs:82-88, `consume_expiration_count`. -/
def World.consume (x : World) : World × Nat := ({ x with timer := { x.timer with count := 0 } }, x.timer.count)

/-- timer.rs:92-97, `remaining_time`. -/
def World.remaining (x : World) : Option Nat := x.timer.next.map (fun t => Emu.saturatingDurationSince t x.now)

/-- timer.rs:137-150, the end of `timer_expire`: the next expiration of a periodic timer. -/
def World.renew (x : World) (next : Nat) : R World :=
  match x.timer.interval with
  | some i => do
    R.assert (decide (0 < i))
    let n ← R.unwrap (Emu.checkedAdd next i)
    World.schedule { x with timer := { x.timer with next := some n } }
  | none => .ok { x with timer := { x.timer with next := none } }

/-- timer.rs:106-156, `timer_expire`; the flag says whether the callback `on_expire` was called. -/
def World.expire (x : World) (id : Nat) : R (World × Bool) :=
  if id < x.timer.minValid then .ok (x, false)
  else do
    let next ← R.unwrap x.timer.next
    if next > x.now then do
      let y ← x.schedule
      return (y, false)
    else do
      let y ← World.renew { x with timer := { x.timer with count := x.timer.count + 1 } } next
      return (y, true)

/-- host.rs:776-810: an event of the timer is popped and run. -/
def World.fire (x : World) (ev : Ev) : R (World × Bool) := do
  R.assert (decide (ev.time ≥ x.lastPop))
  World.expire { x with pending := x.pending.erase ev, lastPop := ev.time, now := ev.time } ev.id

/-- host.rs:785-799: an event of the timer is popped, but the processor is busy for another `d`, and it is put back.
    (No code runs until the next event is popped, so that the clock does not matter.) -/
def World.delay (x : World) (ev : Ev) (d : Nat) : R World := do
  R.assert (decide (ev.time ≥ x.lastPop))
  let t ← R.unwrap (Emu.checkedAdd ev.time d)
  World.push { x with pending := x.pending.erase ev, lastPop := ev.time, now := ev.time } ⟨t, ev.id⟩

/-- host.rs:776-810: another event of the host is popped and run. -/
def World.other (x : World) (t : Nat) : World := { x with lastPop := t, now := t }

/-- The clock goes forward while an event is being run. -/
def World.tick (x : World) (t : Nat) : World := { x with now := t }

end Shadow.Timer
