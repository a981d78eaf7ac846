import Verif.Base.Panic

/-!
# Listeners and the callback queue

Model of `src/main/utility/callback_queue.rs` (`CallbackQueue`, `EventSource`, `Handle`), of
`src/main/host/descriptor/listener.rs` (`StateEventSource`) and of the filter of
`src/main/host/status_listener.c`.

A listener is a closure; here it has a name of an arbitrary type `L`.  What a closure does when it
runs is arbitrary: it can add and drop listeners, notify the listeners of any source and add other
callbacks.  So after a callback was taken from the queue any actions may follow, and an execution is
any sequence of actions.
-/
namespace Shadow.Listen
open Shadow.Base

variable {L M C : Type}

/-! ## Event sources -/

/-- Handle ids are `Wrapping<u32>` (callback_queue.rs:104, 174). -/
abbrev idMod : Nat := 2 ^ 32

/-- `EventSourceInner` (callback_queue.rs:172-175). -/
structure Source (L : Type) where
  listeners : List (Nat × L) := []
  nextId : Nat := 0

/-- The loop of `get_unused_id` (callback_queue.rs:185-196).  Running out of fuel stands for not
ending; `C53_ids` shows that it does not happen. -/
def unusedLoop (ls : List (Nat × L)) : Nat → Nat → R (Nat × Nat)
  | 0, _ => .panic
  | fuel + 1, next =>
    if ls.any (·.1 = next) then unusedLoop ls fuel ((next + 1) % idMod)
    else .ok (next, (next + 1) % idMod)

/-- `add_listener` (callback_queue.rs:198-208).  The id is the one in the handle. -/
def Source.add (s : Source L) (l : L) : R (Nat × Source L) := do
  let (id, next) ← unusedLoop s.listeners (s.listeners.length + 1) s.nextId
  .ok (id, ⟨s.listeners ++ [(id, l)], next⟩)

/-- Remove the entry at the position of the first one with the id. -/
def removeFirst (ls : List (Nat × L)) (id : Nat) : Option (List (Nat × L)) :=
  match ls with
  | [] => none
  | x :: xs => if x.1 = id then some xs else (removeFirst xs id).map (x :: ·)

/-- `remove_listener` (callback_queue.rs:210-213). -/
def Source.remove (s : Source L) (id : Nat) : R (Source L) := do
  let ls ← R.unwrap (removeFirst s.listeners id)
  .ok { s with listeners := ls }

/-! ## The queue -/

/-- A callback in the queue: a listener of a source with a message, or some other closure. -/
inductive Cb (L M C : Type) where
  | listener (src id : Nat) (l : L) (msg : M)
  | other (c : C)
deriving DecidableEq, Repr

/-- The sources that exist, the handles that exist (with the name of their listener, for the
statements), and the queue.  A source that was dropped is `none`. -/
structure St (L M C : Type) where
  sources : Nat → Option (Source L)
  handles : List (Nat × Nat × L) := []
  queue : List (Cb L M C) := []

inductive Act (L M C : Type) where
  /-- `EventSource::add_listener` -/
  | listen (k : Nat) (l : L)
  /-- a handle is dropped -/
  | drop (k id : Nat)
  /-- `EventSource::notify_listeners` -/
  | notify (k : Nat) (msg : M)
  /-- `CallbackQueue::add` -/
  | add (c : C)
  /-- one iteration of `CallbackQueue::run` -/
  | run
  /-- a source is dropped -/
  | free (k : Nat)

/-- One action, with the callback that begins to run.  `none`: not possible.

`add_listener` (callback_queue.rs:142-150), the `Drop` of a handle, which does nothing if the source is
gone (callback_queue.rs:125-131), `notify_listeners` (callback_queue.rs:153-158), `add` and `run`
(callback_queue.rs:34-52). -/
def step [DecidableEq L] (s : St L M C) (a : Act L M C) : Option (R (St L M C × Option (Cb L M C))) :=
  match a with
  | .listen k l =>
    match s.sources k with
    | none => none
    | some src => some (do
        let (id, src') ← src.add l
        .ok ({ s with sources := fun j => if j = k then some src' else s.sources j
                      handles := s.handles ++ [(k, id, l)] }, none))
  | .drop k id =>
    match s.handles.find? (fun h => h.1 = k ∧ h.2.1 = id) with
    | none => none
    | some h =>
      let s := { s with handles := s.handles.erase h }
      match s.sources k with
      | none => some (.ok (s, none))
      | some src => some (do
          let src' ← src.remove id
          .ok ({ s with sources := fun j => if j = k then some src' else s.sources j }, none))
  | .notify k msg =>
    match s.sources k with
    | none => none
    | some src =>
      some (.ok ({ s with queue := s.queue ++ src.listeners.map fun (id, l) => .listener k id l msg },
        none))
  | .add c => some (.ok ({ s with queue := s.queue ++ [.other c] }, none))
  | .run =>
    match s.queue with
    | [] => none
    | x :: xs => some (.ok ({ s with queue := xs }, some x))
  | .free k =>
    match s.sources k with
    | none => none
    | some _ => some (.ok ({ s with sources := fun j => if j = k then none else s.sources j }, none))

/-! ## Filters -/

/-- `StateListenerFilter` (listener.rs:9-15). -/
inductive Filter where
  | never | offToOn | onToOff | always
deriving DecidableEq, Repr

/-- `intersects` of bit sets. -/
def intersects {w : Nat} (a b : BitVec w) : Bool := a &&& b != 0#w

/-- The closure that `StateEventSource::add_listener` registers (listener.rs:126-163): the arguments
passed to the function of the listener, if it is called. -/
def filtered {w v : Nat} (mState : BitVec w) (mSig : BitVec v) (f : Filter) (state changed : BitVec w)
    (sig : BitVec v) : Option (BitVec w × BitVec w × BitVec v) :=
  let flipped := intersects mState changed
  let on := intersects mState state
  let notify := match f with
    | .offToOn => flipped && on
    | .onToOff => flipped && !on
    | .always => flipped
    | .never => false
  let sig := sig &&& mSig
  let notify := notify || sig != 0#v
  if !notify then none else some (state, changed, sig)

/-- `_statuslistener_shouldNotify` (status_listener.c:99-121). -/
def legacyNotify {w : Nat} (monitoring : BitVec w) (f : Filter) (state changed : BitVec w) : Bool :=
  let flipped := monitoring &&& changed != 0#w
  let on := monitoring &&& state != 0#w
  match f with
  | .offToOn => flipped && on
  | .onToOff => flipped && !on
  | .always => flipped
  | .never => false

/-- `LegacyListenerHelper` (listener.rs:47-96) on top of a source: the C listeners with their handles. -/
structure Legacy (L : Type) where
  source : Source L := {}
  handles : List (L × Nat) := []

/-- `add_listener` (listener.rs:60-86). -/
def Legacy.add [DecidableEq L] (h : Legacy L) (l : L) : R (Legacy L) :=
  if h.handles.any (·.1 = l) then .ok h
  else do
    let (id, src) ← h.source.add l
    .ok ⟨src, h.handles ++ [(l, id)]⟩

/-- `remove_listener` (listener.rs:88-96). -/
def Legacy.remove [DecidableEq L] (h : Legacy L) (l : L) : R (Legacy L) :=
  match h.handles.find? (·.1 = l) with
  | none => .ok h
  | some x => do
    let src ← h.source.remove x.2
    .ok ⟨src, h.handles.erase x⟩

end Shadow.Listen
