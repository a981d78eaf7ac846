import Verif.Base.Panic

/-!
# The retransmission timer of the C TCP sockets

A transcription of the parts of `src/main/host/descriptor/tcp.c` that measure round trips, compute the timeout and run the
timer. Points in time are nanoseconds of simulation time, the timeout and the estimates are milliseconds.

The retransmission queue appears as far as the timer looks at it: whether it is empty. What the rest of the socket does with
it is left to the actions of the caller, so every behaviour of the rest of the socket is covered.
The priority queue of scheduled expirations and the events of the host are two sorted lists; that the priority queue
behaves like one is C76, and that the events of a host run in the order of time is C01. Additions of points in time do not wrap.
-/

namespace Shadow.Rto
open Shadow.Base

/-- `SIMTIME_ONE_MILLISECOND`. -/
def ms : Nat := 1000000

/-- `INT_MAX`; computing a larger `gint` is undefined. -/
def intMax : Nat := 2147483647

/-- `CONFIG_TCP_RTO_INIT`, `CONFIG_TCP_RTO_MIN` and `CONFIG_TCP_RTO_MAX` (core/definitions.h:45-48). -/
def rtoInit : Nat := 1000
def rtoMin : Nat := 200
def rtoMax : Nat := 120000

/-- `_tcp_setRetransmitTimeout` (tcp.c:1138-1145). -/
def clamp (t : Nat) : Nat := max (min t rtoMax) rtoMin

/-- The round trip in `_tcp_updateRTTEstimate` (tcp.c:1150-1155): a difference of `guint64`, which is cut to a `gint`. -/
def rttOf (now stamp : Nat) : Nat :=
  let d := ((now + 18446744073709551616 - stamp) % 18446744073709551616 / ms) % 4294967296
  if d = 0 ∨ d > intMax then 1 else d

/-- The smoothed round trip time and its variation. -/
structure Est where
  srtt : Nat
  var : Nat
deriving Repr, DecidableEq

/-- `ABS` of a difference. -/
def dist (a b : Nat) : Nat := (a - b) + (b - a)

/-- `_tcp_updateRTTEstimate` after the round trip is known (tcp.c:1157-1177): the new estimates and timeout. Autotuning
(tcp.c:1163-1165) is left out. -/
def estimate (e : Est) (rtt : Nat) : R (Est × Nat) := do
  let e' ← if e.srtt = 0 then R.ok ⟨rtt, rtt / 2⟩ else do
    R.assert (decide (3 * e.var ≤ intMax))
    R.assert (decide (7 * e.srtt ≤ intMax))
    let v := 3 * e.var / 4 + dist e.srtt rtt / 4
    let s := 7 * e.srtt / 8 + rtt / 8
    R.ok ⟨s, v⟩
  R.assert (decide (e'.srtt + 4 * e'.var ≤ intMax))
  R.ok (e', clamp (e'.srtt + 4 * e'.var))

/-- A socket with its timer. `log` is not in the code: the times at which the timeout was handled. -/
structure T where
  now : Nat
  desired : Nat
  sched : List Nat
  events : List Nat
  rto : Nat
  est : Est
  backoff : Nat
  queued : Bool
  closed : Bool
  log : List Nat
deriving Repr, DecidableEq

/-- Insertion into a sorted list. -/
def insert (t : Nat) : List Nat → List Nat
  | [] => [t]
  | x :: xs => if x ≤ t then x :: insert t xs else t :: x :: xs

/-- `_tcp_scheduleRetransmitTimer` (tcp.c:1077-1102): the pointer is new, so that the push succeeds. -/
def schedule (x : T) (delay : Nat) : T :=
  { x with sched := insert (x.now + delay) x.sched, events := insert (x.now + delay) x.events }

/-- `_tcp_scheduleRetransmitTimerIfNeeded` (tcp.c:1104-1116). -/
def scheduleIfNeeded (x : T) : T :=
  match x.sched.head? with
  | some t => if t ≤ x.desired then x else schedule x (x.desired - x.now)
  | none => schedule x (x.desired - x.now)

/-- `_tcp_setRetransmitTimer` (tcp.c:1118-1127). -/
def setTimer (x : T) : T := scheduleIfNeeded { x with desired := x.now + x.rto * ms }

/-- `_tcp_stopRetransmitTimer` (tcp.c:1129-1136). -/
def stopTimer (x : T) : T := { x with desired := 0 }

/-- `_tcp_runRetransmitTimerExpiredTask` (tcp.c:1499-1557), when the event is the first of the host's. The congestion window is C74 and the
marking of lost packets and `_tcp_flush` are other actions. -/
def expired (x : T) : T :=
  let x := { x with sched := x.sched.tail }
  if x.closed then { stopTimer x with queued := false }
  else if !x.queued then stopTimer x
  else if x.desired = 0 then x
  else if x.desired > x.now then scheduleIfNeeded x
  else
    let x := { x with backoff := x.backoff + 1 }
    let x := { x with rto := clamp (x.rto * 2) }
    let x := { x with log := x.log ++ [x.now] }
    setTimer x

/-- What happens to a socket. -/
inductive Act
  /-- time passes -/
  | pass (t : Nat)
  /-- the next event of the timer runs -/
  | fire
  /-- a packet is sent (tcp.c:1312-1320) -/
  | send
  /-- a packet is sent again (`_tcp_retransmitPacket`, tcp.c:1183-1219); whether the queue still holds another -/
  | resend (queued : Bool)
  /-- an acknowledgement (tcp.c:1982-2031): whether it is new, whether no bytes are left in the queue, and whether the
  queue is not empty -/
  | ack (new zero queued : Bool)
  /-- a packet with an echoed time stamp (tcp.c:2362-2366) -/
  | echo (stamp : Nat)
  /-- the queue is cleared elsewhere (`_tcp_clearRetransmit`) -/
  | clear
  /-- the socket gets into the state `TCPS_CLOSED` -/
  | close
deriving Repr, DecidableEq

/-- One action. -/
def step (x : T) : Act → R T
  | .pass t => .ok { x with now := t }
  | .fire =>
    match x.events with
    | [] => .ok x
    | e :: es => .ok (expired { x with now := e, events := es })
  | .send =>
    let x := { x with queued := true }
    .ok (if x.desired = 0 then setTimer x else x)
  | .resend q => .ok (setTimer { x with queued := q })
  | .ack new zero q =>
    let x := { x with queued := q }
    let x := if new then
        let x := if x.backoff > 2 then { x with est := ⟨0, 0⟩, rto := clamp rtoInit } else x
        { x with backoff := 0 }
      else x
    .ok (if zero then stopTimer x else if new then setTimer x else x)
  | .echo stamp =>
    if stamp ≠ 0 ∧ x.backoff = 0 then do
      let r ← estimate x.est (rttOf x.now stamp)
      .ok { x with est := r.1, rto := r.2 }
    else .ok x
  | .clear => .ok { x with queued := false }
  | .close => .ok { x with closed := true }

/-- A new socket at some time (tcp.c:2941-2945). -/
def fresh (now : Nat) : T :=
  { now := now, desired := 0, sched := [], events := [], rto := clamp rtoInit, est := ⟨0, 0⟩, backoff := 0, queued := false,
    closed := false, log := [] }

/-- Time goes forward, and no event is passed over: the host runs its events in the order of time (C01). Time stamps are
from the past, and round trips take at most 306783378 ms (three and a half days); `C75_overflow` is about longer ones. -/
def allowed (x : T) : Act → Prop
  | .pass t => x.now ≤ t ∧ ∀ e ∈ x.events, t ≤ e
  | .fire => x.events ≠ []
  | .echo stamp => stamp ≤ x.now ∧ x.now < 18446744073709551616 ∧ x.now - stamp ≤ 306783378 * ms
  | _ => True

instance (x : T) (a : Act) : Decidable (allowed x a) := by
  cases a <;> simp only [allowed] <;> infer_instance

/-- Executions. -/
inductive Run : T → Prop
  | fresh (now) (h : 0 < now) : Run (fresh now)
  | step {x y a} : Run x → allowed x a → step x a = .ok y → Run y

/-- Execution of a list of actions. -/
def exec (x : T) : List Act → Option T
  | [] => some x
  | a :: as => if allowed x a then match step x a with
      | .ok y => exec y as
      | .panic => none
    else none

end Shadow.Rto
