import Verif.Event.Model
import Verif.Runahead.Model

/-!
# Model of scheduling rounds: hosts, workers, packets and windows

Sources: `/repo/src/main/host/host.rs` (lines 715-819), `/repo/src/main/core/worker.rs` (lines
262-397, 597-607), `/repo/src/main/core/manager.rs` (lines 429-538),
`/repo/src/main/core/controller.rs` (lines 88-112).

* A host is its event queue, its event-id counter and everything else (type `H`: processes,
  sockets, routers, random source, CPU accounting).  What a task or a packet delivery does is an
  arbitrary deterministic program `Code`, an interaction tree of unbounded length whose nodes are
  the interactions with the event queue, the clock, the network and the round; it reads nothing
  outside its own host (in Rust the other hosts are not reachable from `&Host`).
* Every critical section (one lock of an event queue) is one atomic step; steps of different
  workers interleave arbitrarily.
* Simplifications: times are unbounded `Nat` (overflow of `EmulatedTime` is the subject of C42);
  the destination, the drop decision and the latency of a packet are computed by the sending
  host's code (they depend on immutable tables and on the sender's random source) and appear as
  arguments of `send`; the update of the shared least latency is one atomic minimum (justified by
  `Shadow.Runahead.C07_value`); status logging and heartbeat messages are dropped.
* `ran`, `sent` and `clock` are ghost fields: they record history and are never read.
-/
namespace Shadow.Sim
open Shadow.Ev

/-- What a task does: the part of `TaskRef::execute` / `route_incoming_packet` that is visible
    outside `H`. -/
inductive Code (H P : Type) where
  /-- the task returns, leaving the host in the given state -/
  | done (st : H)
  /-- host.rs:715-718, `schedule_task_at_emulated_time` -/
  | schedule (t : Nat) (task : P) (k : Bool → Code H P)
  /-- worker.rs:324-397, `send_packet`, once destination and latency are known -/
  | send (dst : Nat) (packet : P) (latency : Nat) (k : Code H P)
  /-- syscall/handler/mod.rs:289-302 and managed_thread.rs:456-468: move the clock forward inside
      an event, if the new time does not exceed `max_event_runahead_time` -/
  | advance (d : Nat) (k : Bool → Code H P)
  /-- worker.rs:271-277, read `max_event_runahead_time` -/
  | runahead (k : Nat → Code H P)

/-- Where a host is inside the scheduling round. -/
inductive Phase (H P : Type) where
  /-- not yet taken by a worker in this round -/
  | waiting
  /-- host.rs:775-783, at the head of the loop -/
  | loop
  /-- host.rs:785-799, an event has been popped, the CPU check comes next -/
  | hold (e : Event P)
  /-- host.rs:801-813, inside the event, with the worker's current time -/
  | exec (now : Nat) (c : Code H P)
  /-- left the loop; manager.rs:480 comes next -/
  | broke
  | done

structure Host (H P : Type) where
  st : H
  queue : Queue P
  /-- the counter behind `get_new_event_id` -/
  nextId : Nat
  phase : Phase H P
  /-- ghost: events executed so far -/
  ran : List (Event P)
  /-- ghost: packets sent in this round: destination, send time, latency, event -/
  sent : List (Nat × Nat × Nat × Event P)
  /-- ghost: the last value of the clock while executing an event of this host -/
  clock : Nat

/-- The behaviour of all hosts. -/
structure Prog (H P : Type) where
  /-- cpu.rs: `update_time(now); delay()` as a function of the host's state -/
  cpuDelay : Nat → H → Nat → Nat
  /-- host.rs:804-811, what executing an event does -/
  run : Nat → H → Event P → Code H P

structure Cfg where
  /-- the number of hosts -/
  n : Nat
  /-- `sim_end_time` -/
  simEnd : Nat
  /-- runahead settings -/
  ra : Runahead.Cfg

variable {H P : Type} [DecidableEq P]

/-- worker.rs:271-277, `max_event_runahead_time`. -/
def maxRunahead (roundEnd : Nat) (q : Queue P) : Nat :=
  match q.nextEventTime with
  | some t => min roundEnd t
  | none => roundEnd

/-- A packet leaving a host: destination, latency, event. -/
abbrev Out (P : Type) := Option (Nat × Nat × Event P)

/-- host.rs:728-734, `push_local_event`: `none` is a panic; the Boolean is the result. -/
def pushLocal (simEnd : Nat) (q : Queue P) (e : Event P) : Option (Bool × Queue P) :=
  if e.time ≥ simEnd then some (false, q)
  else match q.push e with
    | .ok q' => some (true, q')
    | .panic => none

/-- One step of the code of host `id` inside an event: `none` is a panic. -/
def codeStep (cfg : Cfg) (roundEnd id : Nat) (h : Host H P) (now : Nat) :
    Code H P → Option (Host H P × Out P)
  | .done st => some ({ h with st := st, phase := .loop }, none)
  | .schedule t p k =>
    -- event.rs `Event::new_local` takes a new event id before the push
    match pushLocal cfg.simEnd h.queue ⟨t, .local p h.nextId⟩ with
    | some (b, q) =>
      some ({ h with queue := q, nextId := h.nextId + 1, phase := .exec now (k b) }, none)
    | none => none
  | .send dst p lat k =>
    -- worker.rs:328-335
    if now ≥ cfg.simEnd then some ({ h with phase := .exec now k }, none)
    -- worker.rs:605, `event_queues.get(..).unwrap()`; runahead.rs:62, assertion
    else if dst ≥ cfg.n ∨ lat = 0 then none
    else
      -- worker.rs:381-384
      let deliver := if now + lat < roundEnd then roundEnd else now + lat
      let e : Event P := ⟨deliver, .packet p id h.nextId⟩
      some ({ h with nextId := h.nextId + 1, phase := .exec now k,
                     sent := h.sent ++ [(dst, now, lat, e)] }, some (dst, lat, e))
  | .advance d k =>
    if now + d ≤ maxRunahead roundEnd h.queue then
      some ({ h with phase := .exec (now + d) (k true), clock := now + d }, none)
    else some ({ h with phase := .exec now (k false) }, none)
  | .runahead k =>
    some ({ h with phase := .exec now (k (maxRunahead roundEnd h.queue)) }, none)

/-- One step of host `id` on its own: the effect on the host itself and the packet it sends.
    `none` is a panic (or the end of the round for this host). -/
def lstep (cfg : Cfg) (prog : Prog H P) (roundEnd id : Nat) (h : Host H P) :
    Option (Host H P × Out P) :=
  match h.phase with
  | .waiting => some ({ h with phase := .loop }, none)
  | .loop =>
    -- host.rs:776-783, under one lock
    match h.queue.nextEventTime with
    | some t =>
      if t < roundEnd then
        match h.queue.pop with
        | .ok (some e, q) => some ({ h with queue := q, phase := .hold e }, none)
        | _ => none
      else some ({ h with phase := .broke }, none)
    | none => some ({ h with phase := .broke }, none)
  | .hold e =>
    -- host.rs:785-799
    let d := prog.cpuDelay id h.st e.time
    if d > 0 then
      match pushLocal cfg.simEnd h.queue { e with time := e.time + d } with
      | some (_, q) => some ({ h with queue := q, phase := .loop }, none)
      | none => none
    else
      -- host.rs:802-811
      some ({ h with phase := .exec e.time (prog.run id h.st e), ran := h.ran ++ [e],
                     clock := e.time }, none)
  | .exec now c => codeStep cfg roundEnd id h now c
  | .broke => some ({ h with phase := .done }, none)
  | .done => none

/-- A worker thread: the host it is running, the thread's `next_event_time` accumulator
    (manager.rs:471-487) and the worker's `next_event_time` (worker.rs:304-320). -/
structure Thread where
  cur : Option Nat
  acc : Option Nat
  pkt : Option Nat
deriving Repr, DecidableEq

/-- The minimum of two optional times: manager.rs:484-487, 492-495 and worker.rs:312-320. -/
def omin : Option Nat → Option Nat → Option Nat
  | none, b => b
  | a, none => a
  | some a, some b => some (min a b)

structure G (H P : Type) where
  hosts : Nat → Host H P
  threads : List Thread
  /-- `Runahead::min_used_latency` -/
  minUsed : Option Nat

/-- Replace one host. -/
def setHost (hs : Nat → Host H P) (id : Nat) (h : Host H P) : Nat → Host H P :=
  fun j => if j = id then h else hs j

/-- worker.rs:597-607, `push_packet_to_host`: `none` is a panic. -/
def deliver (hs : Nat → Host H P) (dst : Nat) (e : Event P) : Option (Nat → Host H P) :=
  match (hs dst).queue.push e with
  | .ok q => some (setHost hs dst { hs dst with queue := q })
  | .panic => none

/-- runahead.rs:61-107 as one atomic step. -/
def observe (c : Runahead.Cfg) (minUsed : Option Nat) (lat : Nat) : Option Nat :=
  if c.dynamic then
    if Runahead.shouldUpdate lat minUsed then some lat else minUsed
  else minUsed

/-- The actions of worker threads. -/
inductive Act where
  /-- an idle thread takes a host that has not run in this round -/
  | claim (thread host : Nat)
  /-- a thread performs the next step of its host -/
  | act (thread : Nat)
deriving Repr, DecidableEq

/-- One atomic step of a thread; `none` is a panic or an impossible action. -/
def step (cfg : Cfg) (prog : Prog H P) (roundEnd : Nat) (g : G H P) : Act → Option (G H P)
  | .claim i id =>
    match g.threads[i]? with
    | none => none
    | some th =>
      if th.cur = none ∧ id < cfg.n then
        match (g.hosts id).phase with
        | .waiting =>
          some { g with hosts := setHost g.hosts id { g.hosts id with phase := .loop },
                        threads := g.threads.set i { th with cur := some id } }
        | _ => none
      else none
  | .act i =>
    match g.threads[i]? with
    | none => none
    | some th =>
      match th.cur with
      | none => none
      | some id =>
        match lstep cfg prog roundEnd id (g.hosts id) with
        | none => none
        | some (h', none) =>
          let th' : Thread := match (g.hosts id).phase with
            -- manager.rs:480-487
            | .broke => ⟨none, omin th.acc (g.hosts id).queue.nextEventTime, th.pkt⟩
            | _ => th
          some { g with hosts := setHost g.hosts id h', threads := g.threads.set i th' }
        | some (h', some (dst, lat, e)) =>
          match deliver (setHost g.hosts id h') dst e with
          | none => none
          | some hs =>
            some { hosts := hs, threads := g.threads.set i { th with pkt := omin th.pkt (some e.time) },
                   minUsed := observe cfg.ra g.minUsed lat }

/-- Any number of steps, in any interleaving. -/
inductive Steps (cfg : Cfg) (prog : Prog H P) (roundEnd : Nat) : G H P → G H P → Prop where
  | refl (g : G H P) : Steps cfg prog roundEnd g g
  | tail {g1 g2 g3 : G H P} (a : Act) : Steps cfg prog roundEnd g1 g2 →
      step cfg prog roundEnd g2 a = some g3 → Steps cfg prog roundEnd g1 g3

/-- An executable schedule. -/
def exec (cfg : Cfg) (prog : Prog H P) (roundEnd : Nat) (g : G H P) : List Act → Option (G H P)
  | [] => some g
  | a :: as => match step cfg prog roundEnd g a with
    | none => none
    | some g' => exec cfg prog roundEnd g' as

/-- The state of the hosts between rounds. -/
structure World (H P : Type) where
  hosts : Nat → Host H P
  minUsed : Option Nat

/-- manager.rs:464-475: the beginning of a round with `nThreads` worker threads. -/
def startRound (w : World H P) (nThreads : Nat) : G H P :=
  { hosts := fun i => { w.hosts i with phase := .waiting, sent := [] },
    threads := List.replicate nThreads ⟨none, none, none⟩,
    minUsed := w.minUsed }

/-- All hosts have run and all threads have returned. -/
def Complete (cfg : Cfg) (g : G H P) : Prop :=
  (∀ id, id < cfg.n → (g.hosts id).phase = .done) ∧ ∀ th ∈ g.threads, th.cur = none

/-- manager.rs:490-495 and 519-523: the minimum over the threads. -/
def reduceThreads (ts : List Thread) : Option Nat :=
  ts.foldl (fun m th => omin m (omin th.acc th.pkt)) none

/-- controller.rs:88-112, `manager_finished_current_round`; a missing next event time is
    `EmulatedTime::MAX` (manager.rs:524), which is not below any `end_time`. -/
def nextWindow (cfg : Cfg) (minUsed : Option Nat) (minNext : Option Nat) : Option (Nat × Nat) :=
  match minNext with
  | none => none
  | some start =>
    let e := min (start + cfg.ra.get minUsed) cfg.simEnd
    if start < e then some (start, e) else none

/-- One whole round with some number of threads and some interleaving. -/
inductive Round (cfg : Cfg) (prog : Prog H P) (roundEnd : Nat) (w : World H P) :
    World H P → Option (Nat × Nat) → Prop where
  | mk (nThreads : Nat) (g : G H P) :
      Steps cfg prog roundEnd (startRound w nThreads) g → Complete cfg g →
      Round cfg prog roundEnd w ⟨g.hosts, g.minUsed⟩
        (nextWindow cfg g.minUsed (reduceThreads g.threads))

/-- manager.rs:452-538, the scheduling loop, recording the windows.  Each round may use its own
    interleaving. -/
inductive Run (cfg : Cfg) (prog : Prog H P) :
    World H P → Option (Nat × Nat) → List (Nat × Nat) → World H P → Option (Nat × Nat) → Prop where
  | nil (w : World H P) (win : Option (Nat × Nat)) : Run cfg prog w win [] w win
  | cons {w w' w'' : World H P} {win : Nat × Nat} {win' win'' : Option (Nat × Nat)}
      {wins : List (Nat × Nat)} :
      Round cfg prog win.2 w w' win' → Run cfg prog w' win' wins w'' win'' →
      Run cfg prog w (some win) (win :: wins) w'' win''

end Shadow.Sim
