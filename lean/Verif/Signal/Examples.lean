import Verif.Signal.Handlers

/-!
# Emulated signals: example executions and deviations from Linux (C50)
-/
namespace Shadow.Signal
open Shadow.Base

/-- Run a list of steps; `none` if one is not possible or panics. -/
def exec : St → List Act → Option (St × List Ev)
  | s, [] => some (s, [])
  | s, a :: as =>
    match step s a with
    | some (.ok (s1, e)) => (exec s1 as).map fun (s2, es) => (s2, e ++ es)
    | _ => none

theorem run_trans {s₀ s : St} {es fs : List Ev} {s' : St} (h : Run s₀ es s) (h' : Run s fs s') :
    Run s₀ (es ++ fs) s' := by
  induction h' with
  | nil => simpa using h
  | step _ hst ih =>
    rw [← List.append_assoc]
    exact .step ih hst

theorem exec_run {s s' : St} {as : List Act} {es : List Ev} (h : exec s as = some (s', es)) :
    Run s es s' := by
  induction as generalizing s es with
  | nil => cases h; exact .nil
  | cons a as ih =>
    unfold exec at h
    split at h
    · rename_i s1 e hst
      obtain ⟨⟨s2, es'⟩, h1, h2⟩ := Option.map_eq_some_iff.1 h
      cases h2
      exact run_trans (by simpa using Run.step (.nil (s₀ := s)) hst) (ih h1)
    · cases h

/-- What an execution shows: who died, for each thread the mask and whether it runs, and the
events. -/
structure View where
  dead : Option Nat
  threads : List (Sigset × Status × Nat)
  events : List Ev
deriving DecidableEq, Repr

def view (s : St) (es : List Ev) : View :=
  ⟨s.dead, s.threads.map fun t => (t.blocked, t.status, t.acts.length), es⟩

def runView (actions : Nat → Action) (as : List Act) : Option View :=
  (exec (fresh actions) as).map fun (s, es) => view s es

/-- A program with handlers for SIGUSR1 (10, blocking SIGUSR2 while it runs, `SA_RESTART`) and
SIGUSR2 (12). -/
def acts1 : Nat → Action := fun n =>
  if n = 10 then { handler := .fn 1, mask := single 12, restart := true }
  else if n = 12 then { handler := .fn 2 } else {}

/-- `C50_exact`, `C50_order`, `C50_accept`: two SIGUSR2 for the process and one SIGUSR1 for the
thread; the second SIGUSR2 is merged into the first; the thread's own signal goes first. -/
example : runView acts1 [.start 0, .kill none 12 7, .tkill none 0 10 8, .kill none 12 9, .enter 0,
      .deliver 0, .ret 0, .deliver 0, .ret 0, .deliver 0] =
    some ⟨none, [(0#64, .running, 0)],
      [.sent .process 12 ⟨12, 7⟩, .sent (.thread 0) 10 ⟨10, 8⟩, .took 0 (.thread 0) 10 ⟨10, 8⟩,
       .took 0 .process 12 ⟨12, 7⟩]⟩ := by decide +kernel

/-- The handler of SIGUSR1 runs with SIGUSR1 and SIGUSR2 blocked (bits 9 and 11). -/
example : runView acts1 [.start 0, .kill none 12 7, .tkill none 0 10 8, .enter 0, .deliver 0] =
    some ⟨none, [(0xa00#64, .running, 1)],
      [.sent .process 12 ⟨12, 7⟩, .sent (.thread 0) 10 ⟨10, 8⟩,
       .took 0 (.thread 0) 10 ⟨10, 8⟩]⟩ := by decide +kernel

/-- `C50_wake`: a sleeping thread is woken, and goes back to sleep after the handler. -/
example : runView acts1 [.start 0, .block 0, .kill none 10 1, .trigger 0 false, .enter 0,
      .deliver 0, .ret 0, .deliver 0, .block 0] =
    some ⟨none, [(0#64, .asleep false, 0)],
      [.sent .process 10 ⟨10, 1⟩, .took 0 .process 10 ⟨10, 1⟩]⟩ := by decide +kernel

/-- SIGTERM ends the process. -/
example : runView acts1 [.start 0, .kill none 15 1, .enter 0, .deliver 0] =
    some ⟨some 15, [(0#64, .running, 1)],
      [.sent .process 15 ⟨15, 1⟩, .took 0 .process 15 ⟨15, 1⟩]⟩ := by decide +kernel

/-- `C50_restores`: the handler of SIGUSR1 blocks SIGHUP and unblocks SIGUSR2, whose handler then
runs on top; at the end nothing is blocked, as before. -/
example : runView acts1 [.start 0, .tkill none 0 10 8, .enter 0, .deliver 0,
      .mask 0 0 (.val (single 1)) .null 8, .mask 0 1 (.val (single 12)) .null 8,
      .kill (some 0) 12 3, .enter 0, .deliver 0, .ret 0, .deliver 0, .ret 0] =
    some ⟨none, [(0#64, .running, 1)],
      [.sent (.thread 0) 10 ⟨10, 8⟩, .took 0 (.thread 0) 10 ⟨10, 8⟩, .sent .process 12 ⟨12, 3⟩,
       .took 0 .process 12 ⟨12, 3⟩]⟩ := by decide +kernel

/-! ## Deviations from Linux -/

/-- SIGKILL can be blocked: `rt_sigprocmask` does not strip SIGKILL and SIGSTOP from the mask
(handler/signal.rs:337-360), so `kill(pid, SIGKILL)` leaves the process alive, even asleep for
ever. -/
theorem C50_finding_kill_blocked : ∃ es s t, Run (fresh fun _ => {}) es s ∧
    Ev.sent .process 9 ⟨9, 1⟩ ∈ es ∧ s.pending .process 9 ≠ none ∧ s.dead = none ∧
    s.threads = [t] ∧ t.status = .asleep false := by
  have h : (exec (fresh fun _ => {}) [.start 0, .mask 0 0 (.val (single 9)) .null 8,
      .kill none 9 1, .enter 0, .deliver 0, .block 0]).isSome = true := by decide +kernel
  obtain ⟨⟨s, es⟩, hs⟩ := Option.isSome_iff_exists.1 h
  have h1 : (exec (fresh fun _ => {}) [.start 0, .mask 0 0 (.val (single 9)) .null 8,
      .kill none 9 1, .enter 0, .deliver 0, .block 0]).any (fun (s, es) =>
        decide (Ev.sent .process 9 ⟨9, 1⟩ ∈ es) && (s.pending .process 9).isSome &&
        decide (s.dead = none) && decide (s.threads.map (·.status) = [.asleep false])) = true := by
    decide +kernel
  rw [hs] at h1
  simp only [Option.any_some, Bool.and_eq_true, decide_eq_true_eq] at h1
  obtain ⟨⟨⟨h1, h2⟩, h3⟩, h4⟩ := h1
  cases hth : s.threads with
  | nil => rw [hth] at h4; cases h4
  | cons t ts =>
    rw [hth, List.map_cons] at h4
    obtain ⟨h5, h6⟩ := List.cons.inj h4
    exact ⟨es, s, t, exec_run hs, h1, fun hn => (by rw [hn] at h2; cases h2), h3,
      by rw [hth, List.map_eq_nil_iff.1 h6], h5⟩

/-- A realtime signal raised inside Shadow (a parent-death signal set with `prctl`, or the exit
signal given to `clone`) panics: the array has room for the standard signals only. -/
theorem C50_finding_realtime (sig : Nat) (h : 32 ≤ sig) (h64 : sig ≤ 64) :
    step (fresh fun _ => {}) (.send none ⟨sig, 0⟩) = some .panic := by
  obtain ⟨n, rfl⟩ : ∃ n, sig = 32 + n := ⟨sig - 32, by omega⟩
  have : n < 33 := by omega
  have hall : ∀ n : Fin 33, step (fresh fun _ => {}) (.send none ⟨(32 + n.1 : Nat), 0⟩) =
      some .panic := by
    intro n
    have hb : (match step (fresh fun _ => {}) (.send none ⟨(32 + n.1 : Nat), 0⟩) with
        | some .panic => true
        | _ => false) = true := by
      revert n; decide +kernel
    split at hb
    · assumption
    · cases hb
  exact hall ⟨n, this⟩

/-- SIGCONT, SIGSTOP, SIGTSTP, SIGTTIN and SIGTTOU with the default action are not implemented:
the thread that takes one panics. -/
theorem C50_finding_stop (sig : Nat) (h : 18 ≤ sig) (h22 : sig ≤ 22) :
    ∃ es s, Run (fresh fun _ => {}) es s ∧ step s (.deliver 0) = some .panic ∧
      es = [.sent .process sig ⟨sig, 1⟩] := by
  have hall : ∀ n : Fin 5, ∃ es s, Run (fresh fun _ => {}) es s ∧
      step s (.deliver 0) = some .panic ∧ es = [.sent .process (18 + n.1) ⟨(18 + n.1 : Nat), 1⟩] := by
    intro n
    have h : (exec (fresh fun _ => {}) [.start 0, .kill none (18 + n.1 : Nat) 1, .enter 0]).any
        (fun (s, es) => decide (es = [.sent .process (18 + n.1) ⟨(18 + n.1 : Nat), 1⟩]) &&
          (match step s (.deliver 0) with
            | some .panic => true
            | _ => false)) = true := by
      revert n; decide +kernel
    cases he : exec (fresh fun _ => {}) [.start 0, .kill none (18 + n.1 : Nat) 1, .enter 0] with
    | none => rw [he] at h; cases h
    | some x =>
      obtain ⟨s, es⟩ := x
      rw [he] at h
      simp only [Option.any_some, Bool.and_eq_true, decide_eq_true_eq] at h
      obtain ⟨h1, h2⟩ := h
      refine ⟨es, s, exec_run he, ?_, h1⟩
      split at h2
      · assumption
      · cases h2
  obtain ⟨n, rfl⟩ : ∃ n, sig = 18 + n := ⟨sig - 18, by omega⟩
  exact hall ⟨n, by omega⟩

/-- A signal for the process is offered to one thread only.  Here thread 0 is chosen for SIGUSR2 but
first runs its handler of SIGUSR1, which blocks SIGUSR2 and waits; thread 1 would accept SIGUSR2 but
sleeps on.  (Linux offers the signal again when a thread blocks it.) -/
theorem C50_finding_retarget : ∃ es s t, Run (fresh acts1) es s ∧
    s.pending .process 12 ≠ none ∧ s.threads[1]? = some t ∧ t.status = .asleep false ∧
    ¬ Mem t.blocked 12 ∧ (∃ t0, s.threads[0]? = some t0 ∧ t0.status = .asleep false) := by
  have h1 : (exec (fresh acts1) [.start 0, .clone, .start 1, .block 0, .block 1, .tkill none 0 10 1,
      .kill none 12 2, .trigger 0 false, .enter 0, .deliver 0, .block 0]).any (fun (s, _) =>
        (s.pending .process 12).isSome &&
        decide (s.threads.map (fun t => (t.blocked, t.status)) =
          [(0xa00#64, .asleep false), (0#64, .asleep false)])) = true := by
    decide +kernel
  cases hs : exec (fresh acts1) [.start 0, .clone, .start 1, .block 0, .block 1,
      .tkill none 0 10 1, .kill none 12 2, .trigger 0 false, .enter 0, .deliver 0, .block 0] with
  | none => rw [hs] at h1; cases h1
  | some x =>
    obtain ⟨s, es⟩ := x
    rw [hs] at h1
    simp only [Option.any_some, Bool.and_eq_true, decide_eq_true_eq] at h1
    obtain ⟨h2, h4⟩ := h1
    have hlen : s.threads.length = 2 := by simpa using congrArg List.length h4
    obtain ⟨t0, t1, hth⟩ : ∃ t0 t1, s.threads = [t0, t1] := by
      generalize s.threads = l at hlen
      cases l with
      | nil => cases hlen
      | cons t0 l =>
        cases l with
        | nil => cases hlen
        | cons t1 l =>
          cases l with
          | nil => exact ⟨t0, t1, rfl⟩
          | cons t2 l => simp only [List.length_cons] at hlen; omega
    · rw [hth] at h4
      simp only [List.map_cons, List.map_nil, List.cons.injEq, Prod.mk.injEq, and_true] at h4
      obtain ⟨⟨_, h0⟩, hb, h1⟩ := h4
      refine ⟨es, s, t1, exec_run hs, fun hn => (by rw [hn] at h2; cases h2), by rw [hth]; rfl, h1, ?_,
        t0, by rw [hth]; rfl, h0⟩
      rw [hb]; unfold Mem; simp

/-- Ignoring a signal does not discard one that is pending already: installing a handler later
still gets it, while Linux discards it. -/
theorem C50_finding_ignore_pending :
    runView acts1 [.start 0, .mask 0 0 (.val (single 12)) .null 8, .kill none 12 5,
      .action 0 12 (.val { handler := .ign }) .null 8,
      .action 0 12 (.val { handler := .fn 3 }) .null 8,
      .mask 0 1 (.val (single 12)) .null 8, .enter 0, .deliver 0] =
    some ⟨none, [(0x800#64, .running, 1)],
      [.sent .process 12 ⟨12, 5⟩, .took 0 .process 12 ⟨12, 5⟩]⟩ := by decide +kernel

/-- A new thread starts with an empty signal mask rather than that of its creator. -/
theorem C50_finding_clone_mask : runView acts1 [.start 0, .mask 0 0 (.val (single 12)) .null 8,
      .clone, .start 1] =
    some ⟨none, [(0x800#64, .running, 0), (0#64, .running, 0)], []⟩ := by decide +kernel

/-- A realtime signal keeps its handler over `exec`, although the function is gone
(shim_shmem.rs: only the standard signals are reset). -/
theorem C50_finding_exec_realtime : (execActions (fun _ => { handler := .fn 1 }) 34).handler = .fn 1 := by
  decide

end Shadow.Signal
