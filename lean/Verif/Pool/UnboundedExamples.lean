import Verif.Pool.UnboundedLive

/-!
# The thread pool of the thread-per-core scheduler: runs that meet the hypotheses
-/
namespace Shadow.Pool.Unbounded

open Shadow.Base Shadow.Latch

def exec (s : St) : List Act → Option St
  | [] => some s
  | a :: as => match step s a with
    | some (.ok s') => exec s' as
    | _ => none

def okAct (s : St) : Act → Bool
  | .spawn _ => decide (s.threads.length + 2 < CountDown.U)
  | _ => true

theorem okAct_allowed {s : St} {a : Act} (h : okAct s a = true) : allowed s a := by
  cases a with
  | spawn b => simpa [okAct, allowed] using h
  | _ => trivial

def good (s : St) : List Act → Bool
  | [] => true
  | a :: as => okAct s a &&
    match step s a with
    | some (.ok s') => good s' as
    | _ => false

theorem exec_run : ∀ (as : List Act) {s s' : St}, Run s → good s as = true → exec s as = some s' → Run s'
  | [], s, s', hr, _, h => by cases h; exact hr
  | a :: as, s, s', hr, hg, h => by
      simp only [exec] at h
      simp only [good, Bool.and_eq_true] at hg
      cases hs : step s a with
      | none => rw [hs] at h; cases h
      | some r =>
          cases r with
          | panic => rw [hs] at h; cases h
          | ok s1 =>
              rw [hs] at h hg
              exact exec_run as (.step hr (okAct_allowed hg.1) hs) hg.2 h

/-- Two threads; the scope of task 7, in which both are. -/
def toMid : List Act :=
  [.spawn true, .spawn false, .made, .thread 0, .thread 1, .enter, .run 7, .main, .main, .thread 1, .thread 1, .thread 0, .main, .thread 0, .leave, .main]

/-- Thread 1 panics, the main thread notices at the end of the scope. -/
def toCrashed : List Act := toMid ++ [.finish 0, .thread 0, .crash 1, .thread 1, .thread 1, .wake, .main, .main, .main]

/-- Both threads return; a second scope with task 8 is opened while thread 1 has not sent its notification. -/
def toSecond : List Act :=
  toMid ++ [.finish 0, .thread 0, .finish 1, .thread 1, .wake, .main, .main, .main, .enter, .run 8, .main, .main, .main, .leave, .main]

/-- It ends, and the pool is dropped. -/
def toOver : List Act :=
  toSecond ++ [.thread 1, .thread 1, .thread 1, .thread 1, .finish 1, .thread 1, .thread 0, .thread 0, .thread 0, .finish 0, .thread 0, .thread 0,
    .wake, .main, .main, .main, .join, .main, .thread 0, .thread 0, .thread 0, .thread 0, .thread 0, .main,
    .thread 1, .thread 1, .thread 1, .thread 1, .thread 1, .main, .main]

def ends (as : List Act) (p : St → Bool) : Bool := good .init as && (exec .init as).any p

theorem ends_run {as : List Act} {p : St → Bool} (h : ends as p = true) : ∃ s, Run s ∧ p s = true := by
  simp only [ends, Bool.and_eq_true] at h
  cases hs : exec .init as with
  | none => rw [hs] at h; cases h.2
  | some s => exact ⟨s, exec_run as .init h.1 hs, by rw [hs] at h; exact h.2⟩

/-- `C49_isolated`, `C49_held`: two threads in the task at once. -/
example : ∃ s, Run s ∧ (decide (s.main = .waiting) && decide (s.threads = [⟨.running, [7], false⟩, ⟨.running, [7], false⟩])) = true :=
  ends_run (as := toMid) (by decide +kernel)

/-- `C49_result`, `C49_refused`, `C49_crashed`: at rest after a task has panicked; the next scope is refused, the pool can be dropped. -/
example : ∃ s, Run s ∧ (decide (s.main = .idle (some .crashed)) && decide (s.threads = [⟨.atWait, [7], false⟩, ⟨.exiting2, [7], true⟩])) = true :=
  ends_run (as := toCrashed) (by decide +kernel)

example : ∃ s, Run s ∧ (decide (s.main = .idle (some .refused)) && decide (s.issued = [7])) = true :=
  ends_run (as := toCrashed ++ [.enter]) (by decide +kernel)

example : ∃ s, Run s ∧ (decide (s.main = .over) && decide (s.threads = [⟨.gone, [7], false⟩, ⟨.gone, [7], true⟩])) = true :=
  ends_run (as := toCrashed ++ [.join, .main, .thread 1, .thread 0, .thread 0, .thread 0, .thread 0, .thread 0, .main, .main, .main]) (by decide +kernel)

/-- `C49_prefix`: no thread has seen the second task yet, and one of them still has a notification of the first scope to send. -/
example : ∃ s, Run s ∧ (decide (s.main = .waiting) && decide (s.issued = [7, 8]) && decide (s.threads = [⟨.atWait, [7], false⟩, ⟨.notifying, [7], false⟩])) = true :=
  ends_run (as := toSecond) (by decide +kernel)

/-- `C49_once`, `C49_join`. -/
example : ∃ s, Run s ∧ (decide (s.main = .over) && decide (s.issued = [7, 8]) && decide (s.threads = [⟨.gone, [7, 8], false⟩, ⟨.gone, [7, 8], false⟩])) = true :=
  ends_run (as := toOver) (by decide +kernel)

/-- `C49_once` at rest, in the middle of the life of the pool. -/
example : ∃ s, Run s ∧ (decide (s.main = .idle (some .done)) && decide (s.threads = [⟨.atWait, [7], false⟩, ⟨.notifying, [7], false⟩])) = true :=
  ends_run (as := toMid ++ [.finish 0, .thread 0, .finish 1, .thread 1, .wake, .main, .main, .main]) (by decide +kernel)

/-- `C49_returns` says something: a state in which the main thread waits for both threads is not a state in which it has returned. -/
example : ∃ s, Run s ∧ ¬ s.main.returned := by
  obtain ⟨s, h1, h2⟩ := ends_run (as := toMid) (p := fun s => decide (s.main = .waiting)) (by decide +kernel)
  refine ⟨s, h1, ?_⟩
  rw [of_decide_eq_true h2]
  exact id

end Shadow.Pool.Unbounded
