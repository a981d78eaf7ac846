import Verif.Wake.Props

/-! # C67: concrete runs that meet the hypotheses, and what the code does not guarantee -/

namespace Shadow.Wake

open Shadow.Base

/-- The contract as a computation. -/
def allowedB (s : St) : Act → Bool
  | .tick d => s.queue.all fun q => s.now + d ≤ q.1
  | .notify c => (s.conds c).listening && (decide ((s.conds c).trig = .futex) || decide ((s.conds c).trig = .child))
  | .block trig timeout held =>
      (match trig with
       | .file o m => decide (s.objs o &&& m = 0)
       | _ => true) &&
      (match timeout with
       | some x => decide (s.now ≤ x)
       | none => true) &&
      (!held || (decide (trig = .none) && timeout.isSome)) &&
      (held || (match s.me with
        | some t => !s.pending t
        | none => true))
  | .exec | .exit | .mask _ =>
      match s.me with
      | some t => !s.pending t
      | none => true
  | .kill pid _ => s.ths.any fun t => t.pid = pid
  | _ => true

theorem allowed_of {s : St} {a : Act} (h : allowedB s a = true) : allowed s a := by
  have hm : (match s.me with
      | some t => !s.pending t
      | none => true) = true → ∀ t, s.me = some t → s.pending t = false := by
    intro h t ht
    simpa [ht] using h
  cases a with
  | tick d => simpa [allowedB, allowed] using h
  | notify c => simpa [allowedB, allowed] using h
  | kill p g => simpa [allowedB, allowed] using h
  | exec => exact hm h
  | exit => exact hm h
  | mask l => exact hm h
  | block trig timeout held =>
    simp only [allowedB, Bool.and_eq_true] at h
    obtain ⟨⟨⟨h1, h2⟩, h3⟩, h4⟩ := h
    refine ⟨?_, ?_, ?_, ?_⟩
    · rintro o m rfl
      simpa using h1
    · rintro x rfl
      simpa using h2
    · intro e
      simpa [e] using h3
    · intro e
      simp only [e, Bool.false_or] at h4
      exact hm h4
  | _ => trivial

/-- Run a list of steps. -/
def execA (s : St) : List Act → Option St
  | [] => some s
  | a :: as =>
    if allowedB s a then
      match step s a with
      | some (.ok s') => execA s' as
      | _ => none
    else none

theorem execA_run {as : List Act} {s s' : St} (h : Run s) (he : execA s as = some s') : Run s' := by
  induction as generalizing s with
  | nil => cases he; exact h
  | cons a as ih =>
    simp only [execA] at he
    split at he
    · rename_i ha
      split at he
      · rename_i s1 hs
        exact ih (h.step (allowed_of ha) hs) he
      · cases he
    · cases he

theorem reached {as : List Act} {P : St → Prop} (h : ∃ s, execA init as = some s ∧ P s) : ∃ s, Run s ∧ P s := by
  obtain ⟨s, he, hp⟩ := h
  exact ⟨s, execA_run .init he, hp⟩

/-- Two threads.  The first waits for bit 1 of file 5 and is resumed when the second sets it; the second sleeps until 10, which the
timer ends; the first waits on a futex and is ended by a signal. -/
def story : List Act :=
  [.spawn, .event, .clone, .block (.file 5 1) none false, .event, .obj 5 3, .block .none (some 10) false, .event,
   .block .futex none false, .tick 7, .event, .event, .killTh 0 15, .block (.file 6 4) (some 30) false, .event]

theorem C67_example : ∃ s, Run s ∧ s.now = 10 ∧ s.cur = some 0 ∧
    s.log = [(0, .start), (1, .start), (0, .wake 0), (1, .wake 1), (0, .wake 2)] ∧
    ((s.conds 0).freed && (s.conds 1).freed && !(s.conds 2).freed && (s.conds 3).listening) = true :=
  reached (as := story) (P := fun s => s.now = 10 ∧ s.cur = some 0 ∧ s.log = _ ∧ _ = true)
    ⟨_, rfl, by decide +kernel, by decide +kernel, by decide +kernel, by decide +kernel⟩

/-- `C67_wake`, `C67_deliver`, `C67_lost`, `C67_time`: in this state thread 0 waits, its bit is on, its wakeup is next. -/
theorem C67_deliver_example : ∃ s, Run s ∧ s.cur = none ∧ s.queue = [] ++ (s.now, .wake 0) :: [(10, .timer 1)] ∧
    (s.byUid 0).map (·.cond) = some (some 0) ∧ (s.conds 0).trig = .file 5 1 ∧ s.objs 5 &&& 1 ≠ 0 :=
  reached (as := story.take 7) (P := fun s => s.cur = none ∧ s.queue = _ ∧ _ = some (some 0) ∧ (s.conds 0).trig = _ ∧ s.objs 5 &&& 1 ≠ 0)
    ⟨_, rfl, by decide +kernel, by decide +kernel, by decide +kernel, by decide +kernel, by decide +kernel⟩

/-- `C67_timeout`: a sleep that is not over. -/
theorem C67_timeout_example : ∃ s, Run s ∧ s.cur = none ∧ s.now = 7 ∧ (s.byUid 1).map (·.cond) = some (some 1) ∧
    (s.conds 1).timeout = some 10 ∧ s.queue = [(10, .timer 1)] :=
  reached (as := story.take 10) (P := fun s => s.cur = none ∧ s.now = 7 ∧ _ = some (some 1) ∧ (s.conds 1).timeout = _ ∧ s.queue = _)
    ⟨_, rfl, by decide +kernel, by decide +kernel, by decide +kernel, by decide +kernel, by decide +kernel⟩

/-- `C67_signal`: a signal of the process, sent by an event, has queued the wakeup of its first thread that does not block it. -/
theorem C67_signal_example : ∃ s, Run s ∧ s.cur = none ∧ s.ppend = [(0, 14)] ∧
    s.ths.map (fun t => (t.uid, t.pid, t.cond, t.blocked)) = [(0, 0, some 0, [14]), (1, 0, some 1, [])] ∧
    s.queue = [(0, .wake 1)] :=
  reached (as := [.spawn, .event, .clone, .mask [14], .block (.file 5 1) none false, .event, .block .futex none false, .kill 0 14])
    (P := fun s => s.cur = none ∧ s.ppend = _ ∧ _ = _ ∧ s.queue = _)
    ⟨_, rfl, by decide +kernel, by decide +kernel, by decide +kernel, by decide +kernel⟩

/-- **Finding.**  The leader waits for a file; another thread calls `execve`; then the file becomes ready, and the wakeup of the leader is
queued behind the task of the `execve`.  The leader is gone when its wakeup runs, but the new program's thread has its
identifier, and is resumed from a wait that has nothing to do with it: it waits for file 7, which is not ready, until time 50. -/
def stale : List Act :=
  [.spawn, .event, .clone, .block (.file 5 1) none false, .event, .exec, .obj 5 1, .event,
   .block (.file 7 1) (some 50) false, .event]

theorem C67_stale : ∃ s, Run s ∧ s.now = 0 ∧ s.cur = some 1 ∧ s.log = [(0, .start), (1, .start), (1, .exec), (1, .wake 0)] ∧
    s.objs 7 = 0 ∧ (s.byUid 1).map (·.cond) = some (some 2) ∧ (s.conds 2).trig = .file 7 1 ∧ (s.conds 2).timeout = some 50 :=
  reached (as := stale) (P := fun s => s.now = 0 ∧ s.cur = some 1 ∧ s.log = _ ∧ s.objs 7 = 0 ∧ _ = some (some 2) ∧
      (s.conds 2).trig = _ ∧ (s.conds 2).timeout = _)
    ⟨_, rfl, by decide +kernel, by decide +kernel, by decide +kernel, by decide +kernel, by decide +kernel, by decide +kernel,
      by decide +kernel⟩

/-- **Finding.**  Two threads call `execve` at the same time.  The first call ends the other thread; when the task of the second runs, its
thread is gone, and Shadow panics. -/
theorem C67_exec_panics : ∃ s, Run s ∧ s.cur = none ∧ s.ths.map (fun t => (t.uid, t.pid)) = [(0, 0)] ∧
    step s .event = some .panic :=
  reached (as := [.spawn, .event, .clone, .exec, .event, .exec, .event, .block (.file 7 1) none false])
    (P := fun s => s.cur = none ∧ _ = _ ∧ step s .event = some .panic)
    ⟨_, rfl, by decide +kernel, by decide +kernel, rfl⟩

/-- **Finding.**  If the second call is the leader's, its task finds the thread that took the leader's identifier, and replaces the new program
by that of a thread that is gone. -/
theorem C67_exec_twice : ∃ s, Run s ∧ s.cur = some 1 ∧ s.ths.map (fun t => (t.uid, t.pid, t.tid)) = [(1, 0, 0)] ∧
    s.log = [(0, .start), (1, .start), (0, .wake 0), (1, .exec), (1, .exec)] :=
  reached (as := [.spawn, .event, .clone, .block .futex none false, .event, .notify 0, .exec, .event, .exec, .event,
      .block (.file 7 1) none false, .event])
    (P := fun s => s.cur = some 1 ∧ _ = _ ∧ s.log = _)
    ⟨_, rfl, by decide +kernel, by decide +kernel, by decide +kernel⟩

/-- **Finding.**  A signal of a process is given to the thread that runs.  If its call only holds back its result, the signal waits for that
delay, though the other thread does not block it and waits on a futex: time passes. -/
theorem C67_signal_waits : ∃ s, Run s ∧ s.cur = none ∧ s.now = 50 ∧ s.ppend = [(0, 15)] ∧
    s.ths.map (fun t => (t.uid, t.cond, t.blocked)) = [(0, some 2, []), (1, some 1, [])] ∧ s.queue = [(100, .timer 2)] ∧
    (s.conds 1).trig = .futex ∧ (s.conds 1).sched = false :=
  reached (as := [.spawn, .event, .clone, .block .futex none false, .event, .block .futex none false, .notify 0, .event,
      .kill 0 15, .block .none (some 100) true, .tick 50])
    (P := fun s => s.cur = none ∧ s.now = 50 ∧ s.ppend = _ ∧ _ = _ ∧ s.queue = _ ∧ (s.conds 1).trig = _ ∧ (s.conds 1).sched = false)
    ⟨_, rfl, by decide +kernel, by decide +kernel, by decide +kernel, by decide +kernel, by decide +kernel, by decide +kernel, by decide +kernel⟩

end Shadow.Wake
