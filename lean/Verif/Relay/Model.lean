import Verif.TokenBucket.Model

/-!
# Model of a relay between two packet devices

Source: `/repo/src/main/network/relay/mod.rs`.

The relay is modelled as a transition system.  One action is one uninterrupted piece of code:
a packet arriving at the source device (followed by `notify`), the passage of time, the start of a
scheduled forwarding task, and one iteration of the forwarding loop.  Arrivals may also happen
between two iterations of the loop (a forwarded packet can make the source device non-empty again
through a nested call).

Simplifications: the source device is a bag of packets and `pop` may return any of them (the choice
is a parameter of the action, so every queueing discipline is covered); the relay is never dropped
while a task is pending; a scheduled task may be executed at its time or later (the CPU model can
postpone it); overflow of `now + delay` in `schedule_task_with_delay` is not modelled.

Ghost fields (`arrived`, `popped`, `fwd`) record the history and do not influence the behaviour.
-/
namespace Shadow.Relay

open Shadow.TB

/-- What the relay looks at in a packet: its length and whether its destination is the source device
    itself (relay/mod.rs:226). -/
structure Pkt where
  id : Nat
  len : Nat
  isLocal : Bool
deriving DecidableEq, Repr

/-- relay/mod.rs:68-77. `forwarding` carries the `is_bootstrapping` flag read at relay/mod.rs:203. -/
inductive Phase where
  | idle
  | pending
  | forwarding (boot : Bool)
deriving DecidableEq, Repr

/-- relay/mod.rs:57-63, with the surrounding host state the relay depends on. -/
structure State where
  now : Nat
  bucket : Option Bucket
  phase : Phase
  next : Option Pkt
  /-- wake-ups scheduled on the host's event queue by `forward_later` -/
  tasks : List Nat
  /-- packets held by the source device -/
  src : List Pkt
  /-- ghost: packets that arrived at the source device -/
  arrived : List Pkt
  /-- ghost: packets taken from the source device, oldest first -/
  popped : List Pkt
  /-- ghost: packets pushed to a destination device, with the time and whether the rate limit applied -/
  fwd : List (Nat × Pkt × Bool)
deriving DecidableEq, Repr

/-- relay/mod.rs:91-106, `Relay::new` (the bucket comes from `create_token_bucket`). -/
def init (start : Nat) (bucket : Option Bucket) : State :=
  ⟨start, bucket, .idle, none, [], [], [], [], []⟩

inductive Out where
  | ok (s : State)
  | panic
  | disabled
deriving DecidableEq

/-- relay/mod.rs:145-163, `forward_later`. -/
def forwardLater (s : State) (delay : Nat) : Out :=
  if s.phase = .pending then .panic
  else .ok { s with phase := .pending, tasks := (s.now + delay) :: s.tasks }

/-- relay/mod.rs:111-136, `notify`. -/
def notify (s : State) : Out :=
  match s.phase with
  | .idle => forwardLater s 0
  | .pending => .ok s
  | .forwarding _ => .ok s

/-- relay/mod.rs:217, `internal.next_packet.take().or_else(|| src.pop())`; `i` selects what the
    source device returns. -/
def take (s : State) (i : Nat) : Option (Pkt × State) :=
  match s.next with
  | some p => some (p, { s with next := none })
  | none =>
    match s.src[i]? with
    | some p => some (p, { s with src := s.src.eraseIdx i, popped := s.popped ++ [p] })
    | none => none

/-- relay/mod.rs:226-271, the loop body for a packet. -/
def offer (s : State) (boot : Bool) (p : Pkt) : Out :=
  if ¬ boot ∧ ¬ p.isLocal then
    match s.bucket with
    | none => .ok { s with fwd := s.fwd ++ [(s.now, p, false)] }
    | some b =>
      match remove b p.len s.now with
      | none => .panic
      | some (b', .wait d) =>
        -- relay/mod.rs:249-256, then forward_now (181-187)
        if s.next ≠ none then .panic
        else forwardLater { s with bucket := some b', next := some p, phase := .idle } d
      | some (b', .ok _) =>
        .ok { s with bucket := some b', fwd := s.fwd ++ [(s.now, p, true)] }
  else .ok { s with fwd := s.fwd ++ [(s.now, p, false)] }

/-- relay/mod.rs:215-272, one iteration of the forwarding loop. -/
def iter (s : State) (boot : Bool) (i : Nat) : Out :=
  match take s i with
  | none =>
    -- an empty source device returns nothing (a non-empty one must return something)
    if s.src = [] then .ok { s with phase := .idle } else .disabled
  | some (p, s') => offer s' boot p

inductive Act where
  /-- a packet reaches the source device, whose owner calls `notify` -/
  | push (p : Pkt)
  /-- time passes (only between events) -/
  | advance (t : Nat)
  /-- the scheduled forwarding task runs -/
  | fire
  /-- the forwarding loop performs one iteration -/
  | iter (i : Nat)

/-- One action; `bootEnd` is the configured end of the bootstrapping period
    (core/worker.rs:476-478). -/
def step (bootEnd : Nat) (s : State) : Act → Out
  | .push p => notify { s with src := s.src ++ [p], arrived := s.arrived ++ [p] }
  | .advance t =>
    match s.phase with
    | .forwarding _ => .disabled
    | _ => if s.now ≤ t then .ok { s with now := t } else .disabled
  | .fire =>
    -- relay/mod.rs:166-178, run_forward_task, and 201-209
    match s.phase with
    | .forwarding _ => .disabled
    | _ =>
      match s.tasks with
      | [] => .disabled
      | t :: ts =>
        if t ≤ s.now then
          .ok { s with tasks := ts, phase := .forwarding (s.now < bootEnd) }
        else .disabled
  | .iter i =>
    match s.phase with
    | .forwarding boot => iter s boot i
    | _ => .disabled

/-- Executions. -/
inductive Steps (bootEnd : Nat) : State → List Act → State → Prop
  | nil (s) : Steps bootEnd s [] s
  | cons {s a s' as s''} (h : step bootEnd s a = .ok s') (t : Steps bootEnd s' as s'') :
      Steps bootEnd s (a :: as) s''

/-- Executable form of `Steps`. -/
def exec (bootEnd : Nat) (s : State) : List Act → Out
  | [] => .ok s
  | a :: as =>
    match step bootEnd s a with
    | .ok s' => exec bootEnd s' as
    | .panic => .panic
    | .disabled => .disabled

end Shadow.Relay
