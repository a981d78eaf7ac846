import Verif.Base.Panic

/-!
# Model of the thread-per-core scheduler

Source: `/repo/src/lib/scheduler/src/thread_per_core.rs`.

The hosts wait in one queue for each thread. In a round the threads take them, each from its own queue first and from those of
the others when it is empty, and put them into a second set of queues, which the next scope exchanges with the first. Every
`pop` and `push` is one step, and so is a call of the closure between them: the queues (`crossbeam::queue::ArrayQueue`) are taken
to be linearisable and first in, first out.

`H` is the type of the hosts. The closure that a thread calls on a host may return any host, so that what it returns is part of the
step.
-/
namespace Shadow.Steal

open Shadow.Base

/-- Where a thread is in the task: outside of `for_each`, before a `pop` from the `k`-th queue that it visits, or in the closure
    with a host from it. -/
inductive Pc (H : Type)
  | out
  | scan (k : Nat)
  | hold (k : Nat) (h : H)
deriving Repr, DecidableEq

/-- The main thread is outside of `scope`, in `scope` before it ran a task, or in `scope` after `run_with_hosts`. -/
inductive Phase
  | outside
  | scope
  | round
deriving Repr, DecidableEq

/-- thread_per_core.rs:17-23. `log` holds what the closure was called with and what it returned in this round, `done` tells that a
    thread finished `for_each` in this round, `past` holds the logs of the earlier rounds. -/
structure St (H : Type) where
  /-- `thread_hosts` -/
  frm : List (List H)
  /-- `thread_hosts_processed` -/
  to : List (List H)
  /-- the capacity of the queues -/
  cap : Nat
  needSwap : Bool
  phase : Phase
  pcs : List (Pc H)
  log : List (H × H)
  done : Bool
  past : List (List (H × H))
deriving Repr, DecidableEq

variable {H : Type}

/-- thread_per_core.rs:64-66: push the hosts, the first of them into queue `j`. -/
def assign (cap : Nat) (qs : List (List H)) : Nat → List H → R (List (List H))
  | _, [] => .ok qs
  | j, h :: hs =>
      match qs[j % qs.length]? with
      -- the iterator over no queues ends the loop
      | none => .ok qs
      | some q => if q.length < cap then assign cap (qs.set (j % qs.length) (q ++ [h])) (j + 1) hs else .panic

/-- thread_per_core.rs:29-75, without the pool. -/
def new (n : Nat) (hosts : List H) : R (St H) := do
  -- thread_per_core.rs:56-61: no queue has capacity zero
  R.assert (n = 0 || hosts.length ≠ 0)
  let frm ← assign hosts.length (List.replicate n []) 0 hosts
  return ⟨frm, List.replicate n [], hosts.length, false, .outside, List.replicate n .out, [], false, []⟩

inductive Act (H : Type)
  /-- the main thread enters `scope` -/
  | scope
  /-- it calls `run_with_hosts` or `run_with_data` -/
  | run
  /-- it leaves `scope`, which waits for the threads -/
  | leave
  /-- thread `i` calls `for_each` -/
  | call (i : Nat)
  /-- thread `i` pops a host -/
  | pop (i : Nat)
  /-- the closure called by thread `i` returns `h` -/
  | ret (i : Nat) (h : H)
deriving Repr, DecidableEq

def idle : Pc H → Bool
  | .out => true
  | _ => false

/-- One step; `none` if it is not possible now. `debug` tells whether debug assertions are checked. -/
def step (debug : Bool) (s : St H) : Act H → Option (R (St H))
  -- thread_per_core.rs:82-94
  | .scope =>
      if s.phase = .outside then
        some (if s.needSwap then
            if debug && !s.frm.all List.isEmpty then .panic
            else .ok { s with frm := s.to, to := s.frm, needSwap := false, phase := .scope }
          else .ok { s with phase := .scope })
      else none
  -- thread_per_core.rs:141-156, 159-179
  | .run => if s.phase = .scope then some (.ok { s with phase := .round, needSwap := true, log := [], done := false }) else none
  -- thread_per_core.rs:103-112
  | .leave =>
      if s.phase = .outside || !s.pcs.all idle then none
      else some (.ok { s with phase := .outside, past := if s.phase = .round then s.past ++ [s.log] else s.past })
  -- thread_per_core.rs:196-206
  | .call i =>
      match s.pcs[i]? with
      | some .out => if s.phase = .round then some (.ok { s with pcs := s.pcs.set i (.scan 0) }) else none
      | _ => none
  | .pop i =>
      match s.pcs[i]? with
      | some (.scan k) =>
          some (if k < s.frm.length then
              -- thread_per_core.rs:199-207
              match s.frm[(i + k) % s.frm.length]? with
              | some (h :: q) => .ok { s with frm := s.frm.set ((i + k) % s.frm.length) q, pcs := s.pcs.set i (.hold k h) }
              | _ => .ok { s with pcs := s.pcs.set i (.scan (k + 1)) }
            else .ok { s with pcs := s.pcs.set i .out, done := true })
      | _ => none
  -- thread_per_core.rs:208
  | .ret i h' =>
      match s.pcs[i]? with
      | some (.hold k h) =>
          some (match s.to[i]? with
            | some q =>
                if q.length < s.cap then
                  .ok { s with to := s.to.set i (q ++ [h']), pcs := s.pcs.set i (.scan k), log := s.log ++ [(h, h')] }
                else .panic
            | none => .panic)
      | _ => none

/-- lib.rs:195-197: the closure must iterate to completion. It is enough that one thread does. -/
def allowed (s : St H) : Act H → Prop
  | .leave => s.phase = .round → s.done = true
  | _ => True

instance (s : St H) : (a : Act H) → Decidable (allowed s a)
  | .leave => by unfold allowed; infer_instance
  | .scope | .run | .call _ | .pop _ | .ret _ _ => .isTrue trivial

/-- What can happen to a scheduler that begins as `s0`. -/
inductive Run (debug : Bool) (s0 : St H) : St H → Prop
  | init : Run debug s0 s0
  | step {s s' : St H} {a : Act H} : Run debug s0 s → allowed s a → step debug s a = some (.ok s') → Run debug s0 s'

/-- The state after some steps, if all of them are possible and allowed. -/
def exec (debug : Bool) (s : St H) : List (Act H) → Option (St H)
  | [] => some s
  | a :: as =>
      if allowed s a then
        match step debug s a with
        | some (.ok s') => exec debug s' as
        | _ => none
      else none

theorem exec_run {debug : Bool} {s0 : St H} : ∀ {as : List (Act H)} {s s' : St H}, Run debug s0 s → exec debug s as = some s' → Run debug s0 s'
  | [], s, s', h, he => by
      rw [exec, Option.some.injEq] at he
      exact he ▸ h
  | a :: as, s, s', h, he => by
      rw [exec] at he
      split at he
      · next ha =>
        split at he
        · next s1 hs => exact exec_run (h.step ha hs) he
        · cases he
      · cases he

end Shadow.Steal
