import Verif.EpollWait.Props
/-!
# Executions of C77
-/
namespace Shadow.EpollWait

open Shadow.Base
open Shadow.Time
open Shadow.Epoll (World Ghost Events fl ev)

/-- The thread that an action begins a wait for. -/
def caller : Act → Nat
  | .call t _ => t
  | _ => 0

/-- The contract, if only threads below `n` wait. -/
def allowedB (n : Nat) (s : St) : Act → Bool
  | .change .. => true
  | .deliver => !s.w.queue.isEmpty
  | .tick d => s.w.queue.isEmpty && decide (s.now + d ≤ emuMax) &&
      (List.range n).all fun t => match s.wait t with
        | none => true
        | some x => !x.sched && x.deadline.all fun e => decide (s.now + d ≤ e)
  | _ => s.w.queue.isEmpty

theorem allowedB_spec {n : Nat} {s : St} {a : Act} (hn : ∀ t, n ≤ t → s.wait t = none) (h : allowedB n s a = true) : allowed s a := by
  cases a with
  | tick d =>
    simp only [allowedB, Bool.and_eq_true, decide_eq_true_eq, List.isEmpty_iff, List.all_eq_true, List.mem_range] at h
    refine ⟨h.1.1, h.1.2, fun t x hx => ?_⟩
    have ht : t < n := by
      by_cases c : t < n
      · exact c
      · rw [hn t (by omega)] at hx; cases hx
    have := h.2 t ht
    rw [hx] at this
    simp only [Bool.and_eq_true, Bool.not_eq_true'] at this
    refine ⟨this.1, fun e he => ?_⟩
    rw [he] at this
    simpa using this.2
  | change => trivial
  | deliver =>
    simp only [allowedB, Bool.not_eq_true', List.isEmpty_eq_false_iff] at h
    exact h
  | _ =>
    simp only [allowedB, List.isEmpty_iff] at h
    exact h

theorem setW_none {s : St} {w : World} {t : Nat} (h : s.wait t = none) : (s.setW w).wait t = none := by
  unfold St.setW
  simp only
  split
  · simp only [h]; rfl
  · exact h

theorem run_none {s s' : St} {u t : Nat} {a : Args} {cond : Option Nat} {start : Nat} (h : s.wait t = none) (hu : t ≠ u)
    (hr : s.run u a cond start = .ok s') : s'.wait t = none := by
  unfold St.run at hr
  obtain ⟨r, _, h2⟩ := R.bind_eq_ok.mp hr
  have hw : ∀ v, upd (s.setW r.1).wait u v t = none := fun v => by rw [upd_ne _ _ hu]; exact setW_none h
  split at h2
  · split at h2
    · rw [R.ok.injEq] at h2; subst h2; exact hw _
    · obtain ⟨_, _, h3⟩ := R.bind_eq_ok.mp h2
      rw [R.ok.injEq] at h3; subst h3; exact hw _
  · rw [R.ok.injEq] at h2; subst h2; exact hw _

theorem step_none {s s' : St} {a : Act} {t : Nat} (h : s.wait t = none) (hc : ∀ x, a ≠ .call t x) (hs : step s a = some (.ok s')) : s'.wait t = none := by
  cases a with
  | call u x =>
    have hu : t ≠ u := by rintro rfl; exact hc x rfl
    simp only [step] at hs
    split at hs
    · rw [Option.some.injEq] at hs; exact run_none h hu hs
    · cases hs
  | wake u =>
    simp only [step] at hs
    cases hx : s.wait u with
    | none => rw [hx] at hs; cases hs
    | some x =>
      have hu : t ≠ u := by rintro rfl; rw [h] at hx; cases hx
      rw [hx] at hs
      simp only at hs
      split at hs
      · rw [Option.some.injEq] at hs
        split at hs
        · exact run_none h hu hs
        · rw [R.ok.injEq] at hs; subst hs; simp only; rw [upd_ne _ _ hu]; exact h
      · cases hs
  | deliver =>
    simp only [step, Option.some.injEq] at hs
    obtain ⟨w, h1, h2⟩ := R.bind_eq_ok.mp hs
    rw [R.ok.injEq] at h2; subst h2; exact setW_none h
  | ctl => simp only [step, Option.some.injEq, R.ok.injEq] at hs; subst hs; exact setW_none h
  | change => simp only [step, Option.some.injEq, R.ok.injEq] at hs; subst hs; exact setW_none h
  | signal u =>
    simp only [step, Option.some.injEq, R.ok.injEq] at hs; subst hs
    simp only
    by_cases hu : t = u
    · subst hu; rw [upd_self, h]; rfl
    · rw [upd_ne _ _ hu]; exact h
  | _ => simp only [step, Option.some.injEq, R.ok.injEq] at hs; subst hs; exact h

/-- A list of actions of threads below `n`. -/
def exec (n : Nat) (s : St) (g : Ghost) : List Act → Option (St × Ghost)
  | [] => some (s, g)
  | a :: as =>
    if allowedB n s a && decide (caller a < n) then
      match step s a with
      | some (.ok s') => exec n s' (ghost s g a s') as
      | _ => none
    else none

theorem exec_run {n : Nat} (as : List Act) {s s' : St} {g g' : Ghost} (h : Run s g) (hn : ∀ t, n ≤ t → s.wait t = none)
    (he : exec n s g as = some (s', g')) : Run s' g' := by
  induction as generalizing s g with
  | nil =>
    simp only [exec, Option.some.injEq, Prod.mk.injEq] at he
    rw [← he.1, ← he.2]; exact h
  | cons a as ih =>
    simp only [exec] at he
    split at he
    · rename_i hc
      rw [Bool.and_eq_true, decide_eq_true_eq] at hc
      split at he
      · rename_i s2 hs
        refine ih (.step h (allowedB_spec hn hc.1) hs) (fun t ht => step_none (hn t ht) ?_ hs) he
        rintro x rfl
        have : t < n := hc.2
        omega
      · cases he
    · cases he

/-- What a program sees of a return: the thread, the time, the result, the errno, the data of the events. -/
def seen (r : Ret) : Nat × Nat × Int × List Nat :=
  match r.out with
  | .events l => (r.tid, r.time, l.length, l.map Prod.snd)
  | .lost => (r.tid, r.time, -14, [])
  | .zero => (r.tid, r.time, 0, [])
  | .err e => (r.tid, r.time, -(e : Int), [])
  | .block _ => (r.tid, r.time, -1000, [])

def s0 : St := { w := World.new (fun _ f => f == .active) (fun _ => false), now := 1000 }
def g0 : Ghost := ⟨fun _ => [], [], fun _ => []⟩

theorem run0 : Run s0 g0 := .init .new rfl (by decide)

def results (as : List Act) : Option (List (Nat × Nat × Int × List Nat)) := (exec 3 s0 g0 as).map fun x => x.1.log.map seen

/-- What the log of an execution shows is reached by a run. -/
theorem results_run {as : List Act} {l} (h : results as = some l) : ∃ s g, Run s g ∧ s.log.map seen = l := by
  unfold results at h
  obtain ⟨⟨s, g⟩, h1, h2⟩ := Option.map_eq_some_iff.mp h
  exact ⟨s, g, exec_run as run0 (fun _ _ => rfl) h1, h2⟩

def edgeIn : Events := ev true false false true false
def levelIn : Events := ev true false false false false

/-- Two threads wait for an edge of one file: one gets it at once, the other waits on to the end of its timeout. -/
def herd : List Act :=
  [.ctl .add (3, 0) edgeIn 30, .call 1 ⟨10, .millis 5, .null, .good⟩, .call 2 ⟨10, .millis (-1), .null, .good⟩, .tick 2000,
   .change 0 (fl true false false false) false, .deliver, .wake 2, .wake 1, .tick 4998000, .wake 1]

example : results herd = some [(2, 3000, 1, [30]), (1, 5001000, 0, [])] := by decide +kernel

/-- With a level, both get it. A signal ends a wait without events. -/
example : results [.ctl .add (3, 0) levelIn 30, .call 1 ⟨10, .millis 5, .null, .good⟩, .call 2 ⟨10, .null, .null, .good⟩, .tick 7,
    .change 0 (fl true false false false) false, .deliver, .wake 1, .wake 2, .change 0 (fl false false false false) false, .deliver,
    .call 1 ⟨10, .millis 0, .null, .good⟩, .call 1 ⟨10, .spec (1, 5), .null, .good⟩, .tick 100, .signal 1, .wake 1] =
    some [(1, 1007, 1, [30]), (2, 1007, 1, [30]), (1, 1007, 0, []), (1, 1107, -4, [])] := by decide +kernel

/-- The refusals. -/
example : results [.call 1 ⟨0, .millis 5, .null, .good⟩, .call 1 ⟨178956971, .millis 5, .null, .good⟩, .call 1 ⟨178956970, .millis 0, .null, .good⟩,
    .call 1 ⟨1, .spec (0, 1000000000), .null, .good⟩, .call 1 ⟨1, .millis 0, .good, .good⟩, .call 1 ⟨1, .millis 0, .bad, .good⟩, .call 1 ⟨1, .bad, .null, .good⟩,
    .call 1 ⟨1, .spec (18446744073, 709550615), .null, .good⟩, .fd .other, .call 1 ⟨1, .millis 0, .null, .good⟩, .fd .closed, .call 1 ⟨1, .millis 0, .null, .good⟩] =
    some [(1, 1000, -22, []), (1, 1000, -22, []), (1, 1000, 0, []), (1, 1000, -22, []), (1, 1000, -22, []), (1, 1000, -14, []), (1, 1000, -14, []),
      (1, 1000, -22, []), (1, 1000, -22, []), (1, 1000, -9, [])] := by decide +kernel

def probe : Option Bool :=
  (exec 3 s0 g0 [.ctl .add (3, 0) edgeIn 30, .change 0 (fl true false false false) false, .deliver,
    .call 1 ⟨10, .millis 5, .null, .bad⟩, .call 1 ⟨10, .millis 0, .null, .good⟩]).map fun x =>
      decide (x.1.log.map seen = [(1, 1000, -14, []), (1, 1000, 0, [])]) && x.1.w.files 0 .readable

/-- Finding: an event that could not be written is gone; the next call does not see it, although the file is still readable. -/
theorem C77_lost_example : ∃ s g, Run s g ∧ s.log.map seen = [(1, 1000, -14, []), (1, 1000, 0, [])] ∧ s.w.files 0 .readable = true := by
  have h : probe = some true := by decide +kernel
  unfold probe at h
  obtain ⟨⟨s, g⟩, h1, h2⟩ := Option.map_eq_some_iff.mp h
  rw [Bool.and_eq_true, decide_eq_true_eq] at h2
  exact ⟨s, g, exec_run _ run0 (fun _ _ => rfl) h1, h2⟩

/-- Finding: a descriptor that is closed during a wait. -/
theorem C77_closed_example : ∃ s g, Run s g ∧ s.log.map seen = [(1, 5001000, -9, [])] :=
  results_run (as := [.ctl .add (3, 0) levelIn 30, .call 1 ⟨10, .millis 5, .null, .good⟩, .tick 7, .fd .closed, .tick 4999993, .wake 1]) (by decide +kernel)

/-- The waits of the first example, as runs. -/
theorem C77_example : ∃ s g, Run s g ∧ s.log.map seen = [(2, 3000, 1, [30]), (1, 5001000, 0, [])] := results_run (as := herd) (by decide +kernel)

end Shadow.EpollWait
