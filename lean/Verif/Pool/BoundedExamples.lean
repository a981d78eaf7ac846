import Verif.Pool.BoundedLive

/-!
# The thread pool of the thread-per-host scheduler: runs that meet the hypotheses
-/
namespace Shadow.Pool.Bounded

open Shadow.Base Shadow.Latch

def exec (s : St) : List Act → Option St
  | [] => some s
  | a :: as => match step s a with
    | some (.ok s') => exec s' as
    | _ => none

def okAct (s : St) : Act → Bool
  | .spawn => decide (s.n + 2 < CountDown.U)
  | .made cpus => !cpus.isEmpty || decide (s.n = 0)
  | _ => true

theorem okAct_allowed {s : St} {a : Act} (h : okAct s a = true) : allowed s a := by
  cases a with
  | spawn => simpa [okAct, allowed] using h
  | made cpus => simpa [okAct, allowed] using h
  | _ => trivial

def good (s : St) : List Act → Bool
  | [] => true
  | a :: as => okAct s a &&
    match step s a with
    | some (.ok s') => good s' as
    | _ => false

theorem exec_run : ∀ (as : List Act) {s s' : St}, Run s → good s as = true → exec s as = some s' → Run s'
  | [], s, s', hr, _, h => by cases h; exact hr
  | a :: as, s, s', hr, hg, h => by
      simp only [exec] at h
      simp only [good, Bool.and_eq_true] at hg
      cases hs : step s a with
      | none => rw [hs] at h; cases h
      | some r =>
          cases r with
          | panic => rw [hs] at h; cases h
          | ok s1 =>
              rw [hs] at h hg
              exact exec_run as (.step hr (okAct_allowed hg.1) hs) hg.2 h

def ends (as : List Act) (p : St → Bool) : Bool := good .init as && (exec .init as).any p

theorem ends_run {as : List Act} {p : St → Bool} (h : ends as p = true) : ∃ s, Run s ∧ p s = true := by
  simp only [ends, Bool.and_eq_true] at h
  cases hs : exec .init as with
  | none => rw [hs] at h; cases h.2
  | some s => exact ⟨s, exec_run as .init h.1 hs, by rw [hs] at h; exact h.2⟩

def times (k : Nat) (a : Act) : List Act := List.replicate k a

/-- Three threads on two processors of CPUs 4 and 5; threads 0 and 1 are in task 7, thread 2 waits in the queue of processor 0. -/
def toMid : List Act :=
  times 3 .spawn ++ [.made [some 4, some 5], .thread 2, .enter, .run 7] ++ times 11 .main ++ times 4 (.thread 0) ++ times 4 (.thread 1) ++ [.leave, .main]

/-- Thread 1 returns; processor 1 takes thread 2 from processor 0, and it runs. -/
def toStolen : List Act := toMid ++ [.finish 1] ++ times 7 (.thread 1) ++ times 5 (.thread 2)

/-- The scope is over. -/
def toDone : List Act := toStolen ++ [.finish 0] ++ times 3 (.thread 0) ++ [.finish 2] ++ times 4 (.thread 2) ++ [.wake] ++ times 4 .main

/-- The pool is dropped. -/
def toOver : List Act := toDone ++ [.join] ++ times 6 .main ++ times 10 (.thread 0) ++ times 10 (.thread 1) ++ times 10 (.thread 2) ++ times 4 .main

/-- Thread 1 panics instead; thread 2 is started all the same. -/
def toCrashed : List Act :=
  toMid ++ [.crash 1] ++ times 8 (.thread 1) ++ times 5 (.thread 2) ++ [.finish 0] ++ times 3 (.thread 0) ++ [.finish 2] ++ times 4 (.thread 2) ++ [.wake] ++ times 4 .main

/-- `C62_isolated`, `C62_held`, `C62_no_idle`: two threads in the task at once, the third has yet to be started. -/
example : ∃ s, Run s ∧ (decide (s.main = .waiting) && decide (s.pc 0 = .running 0) && decide (s.pc 1 = .running 1) && decide (s.pc 2 = .park) && decide (s.ready 0 = [2])) = true :=
  ends_run (as := toMid) (by decide +kernel)

/-- `C62_one_per_processor`, `C62_bounded`, `C62_affinity`: thread 2 runs on the processor that it was stolen by, and is pinned to its CPU. -/
example : ∃ s, Run s ∧ (decide (s.n = 3) && decide (s.pc 0 = .running 0) && decide (s.pc 2 = .running 1) && decide (s.lpi 2 = 1) && decide (s.aff 2 = some 5) &&
    decide (s.cpus = [some 4, some 5])) = true :=
  ends_run (as := toStolen) (by decide +kernel)

/-- A thread that was never stolen runs unpinned, although its processor has a CPU: `new` assigns the threads to the processors without pinning them
(bounded.rs:104-115), and `start_next_thread` pins a thread only if it comes from another processor (bounded.rs:440). -/
theorem C62_unpinned : ∃ s, Run s ∧ s.inTask 0 0 ∧ s.cpus[0]? = some (some 4) ∧ s.aff 0 = none := by
  obtain ⟨s, h1, h2⟩ := ends_run (as := toStolen)
    (p := fun s => decide (0 < s.n) && decide (s.pc 0 = .running 0) && decide (s.cpus[0]? = some (some 4)) && decide (s.aff 0 = none)) (by decide +kernel)
  simp only [Bool.and_eq_true, decide_eq_true_eq] at h2
  exact ⟨s, h1, ⟨h2.1.1.1, h2.1.1.2⟩, h2.1.2, h2.2⟩

/-- `C62_once`, `C62_result` at rest. -/
example : ∃ s, Run s ∧ (decide (s.main = .idle (some .done)) && decide (s.issued = [7]) && decide (s.ran 0 = [7]) && decide (s.ran 1 = [7]) && decide (s.ran 2 = [7]) &&
    decide (s.ready 1 = [1, 2])) = true :=
  ends_run (as := toDone) (by decide +kernel)

/-- `C62_prefix`: in the second scope. -/
example : ∃ s, Run s ∧ (decide (s.issued = [7, 8]) && decide (s.ran 0 = [7, 8]) && decide (s.ran 1 = [7])) = true :=
  ends_run (as := toDone ++ [.enter, .run 8] ++ times 11 .main ++ times 4 (.thread 0)) (by decide +kernel)

/-- `C62_once`, `C62_join`. -/
example : ∃ s, Run s ∧ (decide (s.main = .over) && decide (s.n = 3) && decide (s.pc 0 = .gone) && decide (s.pc 1 = .gone) && decide (s.pc 2 = .gone) && decide (s.ran 2 = [7])) = true :=
  ends_run (as := toOver) (by decide +kernel)

/-- `C62_result`, `C62_refused`, `C62_crashed`: at rest after a task has panicked; the next scope is refused. -/
example : ∃ s, Run s ∧ (decide (s.main = .idle (some .crashed)) && decide (s.crashed 1 = true) && decide (s.pc 1 = .gone) && decide (s.ran 2 = [7])) = true :=
  ends_run (as := toCrashed) (by decide +kernel)

example : ∃ s, Run s ∧ (decide (s.main = .idle (some .refused)) && decide (s.issued = [7])) = true :=
  ends_run (as := toCrashed ++ [.enter]) (by decide +kernel)

/-- `C62_returns` says something: a state in which the main thread waits for the threads is not a state in which it has returned. -/
example : ∃ s, Run s ∧ ¬ s.main.returned := by
  obtain ⟨s, h1, h2⟩ := ends_run (as := toMid) (p := fun s => decide (s.main = .waiting)) (by decide +kernel)
  refine ⟨s, h1, ?_⟩
  rw [of_decide_eq_true h2]
  exact id

end Shadow.Pool.Bounded
