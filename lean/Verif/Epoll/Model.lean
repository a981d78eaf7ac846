import Verif.Base.Panic

/-!
# Model of epoll

Sources: `/repo/src/main/host/descriptor/epoll/{entry,mod,key}.rs`, `/repo/src/main/host/descriptor/listener.rs`
(`StateEventSource`), `/repo/src/main/utility/callback_queue.rs` (`CallbackQueue`, `EventSource`).

A world is one epoll object, the files, and the callbacks that wait to be run. Simplifications: of a file only its
state flags are kept, and of them only those that epoll looks at; events that no state flag stands for (`EPOLLERR`,
`EPOLLHUP`, ...) are left out, since `events_from_state` never reports them; the priority counter is an integer (a
`u64` counting down from its maximum in Rust, so that its overflow is not modelled); the listeners of the epoll object
itself are left out, but not the state that they are told; the epoll object is not closed.
-/
namespace Shadow.Epoll

open Shadow.Base

/-- descriptor/mod.rs:125-150, the flags of `FileState` that epoll looks at. -/
inductive Flag where
  | readable
  | writable
  | rdhup
  | closed
  | active
deriving Repr, DecidableEq

abbrev Flags := Flag → Bool

/-- The conditions of `EpollEvents` that can be reported. -/
inductive Cond where
  | inn
  | out
  | rdhup
deriving Repr, DecidableEq

/-- linux-api epoll.rs, `EpollEvents`: `EPOLLIN`, `EPOLLOUT`, `EPOLLRDHUP`, and the options `EPOLLET` and `EPOLLONESHOT`. -/
structure Events where
  on : Cond → Bool
  et : Bool
  oneshot : Bool

def Events.isEmpty (e : Events) : Bool := !(e.on .inn || e.on .out || e.on .rdhup || e.et || e.oneshot)

def Events.inter (a b : Events) : Events := ⟨fun c => a.on c && b.on c, a.et && b.et, a.oneshot && b.oneshot⟩

def Events.remove (a b : Events) : Events := ⟨fun c => a.on c && !b.on c, a.et && !b.et, a.oneshot && !b.oneshot⟩

/-- entry.rs:170-184, `events_from_state`. -/
def eventsFromState (s : Flags) : Events :=
  ⟨fun | .inn => s .readable | .out => s .writable | .rdhup => s .rdhup, false, false⟩

/-- entry.rs:186-200, `state_from_events`. -/
def stateFromEvents (e : Events) : Flags := fun
  | .readable => e.on .inn
  | .writable => e.on .out
  | .rdhup => e.on .rdhup
  | .closed => false
  | .active => false

/-- entry.rs:9-26, `Entry`; the listener handle is in `World.listeners`. -/
structure Entry where
  pri : Option Int
  interest : Events
  data : Nat
  state : Flags
  collected : Flags
  legacy : Bool

/-- entry.rs:28-38, `new`, with `set_legacy` (entry.rs:41-43). -/
def Entry.new (interest : Events) (data : Nat) (state : Flags) (legacy : Bool) : Entry :=
  ⟨none, interest, data, state, fun _ => false, legacy⟩

/-- entry.rs:51-57, `modify`. -/
def Entry.modify (e : Entry) (interest : Events) (data : Nat) (state : Flags) : Entry :=
  { e with interest := interest, data := data, state := state, collected := fun _ => false }

/-- entry.rs:67-92, `notify`. -/
def Entry.notify (e : Entry) (new changed : Flags) (grew : Bool) : R Entry :=
  let e := { e with state := new, collected := fun f => e.collected f && !changed f }
  if grew then do
    R.assert e.interest.et
    return (if new .readable then { e with collected := fun f => e.collected f && f != .readable } else e)
  else .ok e

/-- entry.rs:94-102, `get_listener_state`. -/
def Entry.listenerState (e : Entry) : Flags :=
  if e.legacy then fun _ => true else fun f => stateFromEvents e.interest f || f == .closed

/-- entry.rs:104-112, `get_listener_signals`. -/
def Entry.listenerGrew (e : Entry) : Bool := e.interest.et

/-- entry.rs:160-168, `get_ready_state`. -/
def Entry.readyState (e : Entry) : Flags := if e.interest.et then fun f => e.state f && !e.collected f else e.state

/-- entry.rs:155-158, `get_ready_events`. -/
def Entry.readyEvents (e : Entry) : Events := e.interest.inter (eventsFromState e.readyState)

/-- entry.rs:118-131, `has_ready_events`. -/
def Entry.hasReady (e : Entry) : Bool :=
  if e.legacy then
    if e.state .closed then false
    else if e.state .active then !e.readyEvents.isEmpty
    else false
  else !e.state .closed && !e.readyEvents.isEmpty

/-- entry.rs:133-153, `collect_ready_events`. -/
def Entry.collect (e : Entry) : Entry × Option (Events × Nat) :=
  let events := e.readyEvents
  if events.isEmpty then (e, none)
  else
    let e := { e with collected := fun f => e.collected f || stateFromEvents events f }
    let e := if e.interest.oneshot then { e with interest := e.interest.remove events } else e
    (e, some (events, e.data))

/-- key.rs:9-13, `Key`: the descriptor's number and the file. -/
abbrev Key := Nat × Nat

/-- A callback of a listener in the queue, with what the listener looks for (listener.rs:117-157) and what it is told. -/
structure Note where
  key : Key
  mon : Flags
  monGrew : Bool
  state : Flags
  changed : Flags
  grew : Bool

/-- mod.rs:29-46, `Epoll`, with the files, its listeners at the files in the order in which they were added, and the
    callbacks to run. -/
structure World where
  files : Nat → Flags
  legacy : Nat → Bool
  listeners : List (Key × Flags × Bool)
  queue : List Note
  readable : Bool
  counter : Int
  monitoring : Key → Option Entry
  ready : List (Int × Key)

/-- mod.rs:48-63, `new`. -/
def World.new (files : Nat → Flags) (legacy : Nat → Bool) : World :=
  ⟨files, legacy, [], [], false, 18446744073709551615, fun _ => none, []⟩

def upd (m : Key → Option Entry) (k : Key) (v : Option Entry) : Key → Option Entry := fun j => if j = k then v else m j

/-- mod.rs:242-254, `refresh_state`. -/
def World.refreshState (w : World) : World := { w with readable := !w.ready.isEmpty }

/-- mod.rs:343-362, `refresh_ready`. -/
def World.refreshReady (w : World) (k : Key) : World :=
  match w.monitoring k with
  | none => w
  | some e =>
    if e.hasReady then
      match e.pri with
      | none =>
        { w with
          counter := w.counter - 1
          ready := (w.counter, k) :: w.ready
          monitoring := upd w.monitoring k (some { e with pri := some w.counter }) }
      | some _ => w
    else match e.pri with
      | some p =>
        { w with ready := w.ready.filter (fun r => r.1 != p), monitoring := upd w.monitoring k (some { e with pri := none }) }
      | none => w

/-- mod.rs:287-313, `refresh_listener`, and callback_queue.rs:198-214: the new listener is added at the end, then the
    old one is removed. -/
def World.refreshListener (w : World) (k : Key) : World :=
  match w.monitoring k with
  | none => w
  | some e =>
    { w with listeners := w.listeners.filter (fun l => l.1 != k) ++ [(k, (fun f => e.listenerState f || f == .closed), e.listenerGrew)] }

/-- An entry that is dropped stops listening (callback_queue.rs:126-132). -/
def World.dropEntry (w : World) (k : Key) : World :=
  { w with monitoring := upd w.monitoring k none, listeners := w.listeners.filter (fun l => l.1 != k) }

inductive Op where
  | add
  | mod
  | del
deriving Repr, DecidableEq

inductive Errno where
  | ebadf
  | eexist
  | enoent
deriving Repr, DecidableEq

/-- mod.rs:209-213, the end of `ctl`. -/
def World.settle (w : World) (k : Key) : World := ((w.refreshReady k).refreshListener k).refreshState

/-- mod.rs:148-214, `ctl`; the result is the error, if any. -/
def World.ctl (w : World) (op : Op) (k : Key) (events : Events) (data : Nat) : World × Option Errno :=
  let state := w.files k.2
  match op with
  | .add =>
    if state .closed then (w, some .ebadf)
    else match w.monitoring k with
      | some _ => (w, some .eexist)
      | none => (World.settle { w with monitoring := upd w.monitoring k (some (Entry.new events data state (w.legacy k.2))) } k, none)
  | .mod =>
    match w.monitoring k with
    | none => (w, some .enoent)
    | some e => (World.settle { w with monitoring := upd w.monitoring k (some (e.modify events data state)) } k, none)
  | .del =>
    match w.monitoring k with
    | none => (w, some .enoent)
    | some e =>
      let w := w.dropEntry k
      let w := match e.pri with
        | some p => { w with ready := w.ready.filter (fun r => r.1 != p) }
        | none => w
      (World.settle w k, none)

/-- A file's state changes, or its read buffer grows: `handle_state_change` of the files (as in mod.rs:272-285), and
    callback_queue.rs:156-161, `notify_listeners`. -/
def World.change (w : World) (file : Nat) (new : Flags) (grew : Bool) : World :=
  let old := w.files file
  let changed : Flags := fun f => new f != old f
  let w := { w with files := fun i => if i = file then new else w.files i }
  if changed .readable || changed .writable || changed .rdhup || changed .closed || changed .active || grew then
    { w with queue := w.queue ++ (w.listeners.filter (fun l => l.1.2 == file)).map (fun l => ⟨l.1, l.2.1, l.2.2, new, changed, grew⟩) }
  else w

/-- mod.rs:316-340, `notify_entry`. -/
def World.notifyEntry (w : World) (k : Key) (state changed : Flags) (grew : Bool) : R World :=
  match w.monitoring k with
  | none => .ok w
  | some e => do
    let e ← e.notify state changed grew
    let w := World.refreshReady { w with monitoring := upd w.monitoring k (some e) } k
    let w := if state .closed then w.dropEntry k else w
    return w.refreshState

/-- listener.rs:117-157: whether the listener calls its function, for the filter `Always`. -/
def Note.passes (n : Note) : Bool :=
  (n.mon .readable && n.changed .readable) || (n.mon .writable && n.changed .writable) || (n.mon .rdhup && n.changed .rdhup) ||
  (n.mon .closed && n.changed .closed) || (n.mon .active && n.changed .active) || (n.grew && n.monGrew)

/-- callback_queue.rs:38-53: the first callback in the queue is run. -/
def World.deliver (w : World) : R World :=
  match w.queue with
  | [] => .ok w
  | n :: rest =>
    let w := { w with queue := rest }
    if n.passes then w.notifyEntry n.key n.state n.changed (n.grew && n.monGrew) else .ok w

/-- Documented behaviour of `BinaryHeap::pop`: the entry with the greatest priority, and the others. -/
def popMax : List (Int × Key) → Option ((Int × Key) × List (Int × Key))
  | [] => none
  | c :: rest =>
    match popMax rest with
    | none => some (c, [])
    | some (m, others) => if m.1 > c.1 then some (m, c :: others) else some (c, rest)

/-- mod.rs:378-402, one round of the loop of `collect_ready_events`, for the entry that was popped. -/
def World.collectOne (w : World) (k : Key) : R (World × (Events × Nat) × List (Int × Key)) := do
  let e ← R.unwrap (w.monitoring k)
  let e := { e with pri := none }
  R.assert e.hasReady
  let r := e.collect
  let ev ← R.unwrap r.2
  if r.1.hasReady then
    return ({ w with counter := w.counter - 1, monitoring := upd w.monitoring k (some { r.1 with pri := some w.counter }) },
      ev, [(w.counter, k)])
  else return ({ w with monitoring := upd w.monitoring k (some r.1) }, ev, [])

/-- mod.rs:376-403, the loop of `collect_ready_events`. -/
def World.collectLoop : Nat → World → List (Events × Nat) → List (Int × Key) → R (World × List (Events × Nat) × List (Int × Key))
  | 0, w, out, keep => .ok (w, out, keep)
  | room + 1, w, out, keep =>
    match popMax w.ready with
    | none => .ok (w, out, keep)
    | some (r, others) => do
      let s ← World.collectOne { w with ready := others } r.2
      collectLoop room s.1 (out ++ [s.2.1]) (keep ++ s.2.2)

/-- mod.rs:368-414, `collect_ready_events`. -/
def World.collect (w : World) (max : Nat) : R (World × List (Events × Nat)) := do
  let s ← World.collectLoop max w [] []
  return (World.refreshState { s.1 with ready := s.1.ready ++ s.2.2 }, s.2.1)

end Shadow.Epoll
