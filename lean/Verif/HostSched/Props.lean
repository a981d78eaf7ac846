import Verif.HostSched.Model
import Verif.Pool.BoundedProps
import Verif.Pool.BoundedExamples
/-!
# C97: with a thread per host, each host is worked on once per round, by its own thread
-/
namespace Shadow.HostSched

open Shadow.Base Shadow.Pool.Bounded

variable {H : Type}

/-! ## Specification -/

/-- What the rounds do to the host of thread `i`. -/
def rounds (i : Nat) (h : H) : List (Task H) → List Nat → H
  | .hosts f :: l, _ :: ps => rounds i ((f i).foldl (fun h g => g h) h) l ps
  | .data _ f :: l, p :: ps => rounds i ((f i p).foldl (fun h g => g h) h) l ps
  | _ :: l, _ :: ps => rounds i h l ps
  | _, _ => h

/-- What users of the scheduler run; the data has an element for each processor (`Scheduler::parallelism`). -/
def Work (np : Nat) : Task H → Prop
  | .take => False
  | .collect => False
  | .data len _ => np ≤ len
  | _ => True

/-! ## One thread -/

theorem forEach_ok (h : H) (l : List (H → H)) : forEach (some h) l = .ok (some (l.foldl (fun h g => g h) h)) := by
  induction l generalizing h with
  | nil => rfl
  | cons g l ih => simp [forEach, ih]

theorem exec_work (i np : Nat) (l : List (Task H)) : ∀ (h : H) (out : Option H) (ps : List Nat), ps.length = l.length → (∀ x ∈ l, Work np x) → (∀ p ∈ ps, p < np) →
    exec i ⟨some h, none, out⟩ l ps = .ok ⟨some (rounds i h l ps), none, out⟩ := by
  induction l with
  | nil => intro h out ps hl _ _; cases ps <;> rfl
  | cons x l ih =>
    intro h out ps hl hw hp
    cases ps with
    | nil => simp at hl
    | cons p ps =>
      have hx := hw x (by simp)
      have hpp := hp p (by simp)
      have next := fun h' => ih h' out ps (by simpa using hl) (fun y hy => hw y (by simp [hy])) (fun q hq => hp q (by simp [hq]))
      cases x with
      | take => exact absurd hx (by simp [Work])
      | collect => exact absurd hx (by simp [Work])
      | run => simp [exec, task, next, rounds]
      | hosts f => simp [exec, task, withHost, forEach_ok, next, rounds]
      | data len f =>
        have : p < len := by simp only [Work] at hx; omega
        simp [exec, task, withHost, forEach_ok, next, rounds, this]

theorem exec_append (i : Nat) (l l' : List (Task H)) : ∀ (t : Th H) (ps ps' : List Nat), ps.length = l.length → exec i t (l ++ l') (ps ++ ps') = (exec i t l ps).bind fun t => exec i t l' ps' := by
  induction l with
  | nil => intro t ps ps' h; have : ps = [] := List.eq_nil_of_length_eq_zero (by simpa using h); subst this; rfl
  | cons x l ih =>
    intro t ps ps' h
    cases ps with
    | nil => simp at h
    | cons p ps =>
      simp only [List.cons_append, exec]
      cases task i p t x with
      | panic => rfl
      | ok t' => exact ih t' ps ps' (by simpa using h)

theorem exec_take (hosts : List H) (i : Nat) (hi : i < hosts.length) (l : List (Task H)) (p : Nat) (ps : List Nat) :
    exec i (start hosts i) (.take :: l) (p :: ps) = exec i ⟨some hosts[i], none, none⟩ l ps := by
  simp [exec, task, start, hi]

/-! ## All threads -/

variable {s : St}

/-- The tasks that a thread has been given, in a state of the pool. -/
def given (tasks : Nat → Task H) (s : St) (i : Nat) : List (Task H) := (s.ran i).map tasks

/-- **C97.** Whenever `scope` has returned: for whatever scheduling, every host is with the thread that it was first given to, and exactly what was asked for in each round so far has been done to it, once and in
order; and no thread has panicked. -/
theorem C97_rounds (hr : Run s) (hm : s.atRest) (hosts : List H) (hn : s.n = hosts.length) (tasks : Nat → Task H) (work : List (Task H)) (hi : s.issued.map tasks = .take :: work)
    (hw : ∀ x ∈ work, Work s.cpus.length x) (i : Nat) (h : i < hosts.length) (p : Nat) (ps : List Nat) (hl : ps.length = work.length) (hp : ∀ q ∈ ps, q < s.cpus.length) :
    exec i (start hosts i) (given tasks s i) (p :: ps) = .ok ⟨some (rounds i hosts[i] work ps), none, none⟩ := by
  have : given tasks s i = .take :: work := by
    unfold given
    rw [C62_once hr (.inl hm) (by omega), hi]
  rw [this, exec_take hosts i h]
  exact exec_work i s.cpus.length work hosts[i] none ps hl hw hp

/-- **C97.** At every moment, each host is in the state after all rounds or after all but the last one. -/
theorem C97_during (hr : Run s) (hosts : List H) (hn : s.n = hosts.length) (tasks : Nat → Task H) (work : List (Task H)) (last : Task H) (hi : s.issued.map tasks = .take :: (work ++ [last]))
    (hw : ∀ x ∈ work ++ [last], Work s.cpus.length x) (i : Nat) (h : i < hosts.length) (p q : Nat) (ps : List Nat) (hl : ps.length = work.length) (hp : ∀ k ∈ ps, k < s.cpus.length) (hq : q < s.cpus.length) :
    (given tasks s i = .take :: (work ++ [last]) ∧ exec i (start hosts i) (given tasks s i) (p :: (ps ++ [q])) = .ok ⟨some (rounds i hosts[i] (work ++ [last]) (ps ++ [q])), none, none⟩) ∨
    (given tasks s i = .take :: work ∧ exec i (start hosts i) (given tasks s i) (p :: ps) = .ok ⟨some (rounds i hosts[i] work ps), none, none⟩) := by
  rcases C62_prefix hr (i := i) (by omega) with e | e
  · left
    have : given tasks s i = .take :: (work ++ [last]) := by unfold given; rw [e, hi]
    refine ⟨this, ?_⟩
    rw [this, exec_take hosts i h]
    refine exec_work i s.cpus.length _ hosts[i] none _ (by simp [hl]) hw ?_
    intro k hk
    rcases List.mem_append.1 hk with hk | hk
    · exact hp k hk
    · simp at hk; omega
  · right
    have : given tasks s i = .take :: work := by
      unfold given
      rw [e, List.map_dropLast, hi, ← List.cons_append, List.dropLast_concat]
    refine ⟨this, ?_⟩
    rw [this, exec_take hosts i h]
    exact exec_work i s.cpus.length _ hosts[i] none _ hl (fun x hx => hw x (by simp [hx])) hp

/-- **C97.** After `join` has collected the hosts, it has each of them, at the place where it was in the beginning, and no thread has one. -/
theorem C97_join (hr : Run s) (hm : s.atRest ∨ s.main = .over) (hosts : List H) (hn : s.n = hosts.length) (tasks : Nat → Task H) (work : List (Task H)) (hi : s.issued.map tasks = .take :: (work ++ [.collect]))
    (hw : ∀ x ∈ work, Work s.cpus.length x) (i : Nat) (h : i < hosts.length) (p q : Nat) (ps : List Nat) (hl : ps.length = work.length) (hp : ∀ k ∈ ps, k < s.cpus.length) :
    exec i (start hosts i) (given tasks s i) (p :: (ps ++ [q])) = .ok ⟨none, none, some (rounds i hosts[i] work ps)⟩ := by
  have : given tasks s i = .take :: (work ++ [.collect]) := by
    unfold given
    rw [C62_once hr (hm.elim .inl fun h => .inr (.inr h)) (by omega), hi]
  rw [this, exec_take hosts i h, exec_append i work [.collect] _ ps [q] hl, exec_work i s.cpus.length work hosts[i] none ps hl hw hp]
  rfl

/-- **C97.** The element of the data that a thread is given exists, and no other thread is given it while the closure runs. -/
theorem C97_element (hr : Run s) (len : Nat) (hd : s.cpus.length ≤ len) {i j p q : Nat} (h1 : s.inTask i p) (h2 : s.inTask j q) : p < len ∧ (p = q → i = j) := by
  refine ⟨Nat.lt_of_lt_of_le (C62_processor hr h1) hd, ?_⟩
  intro e
  subst e
  exact C62_one_per_processor hr h1 h2

/-! ## Cases -/

/-- Three hosts, numbers, on two processors; a round that doubles each and adds the number of its thread. -/
def exTasks : Nat → Task Nat
  | 0 => .take
  | 7 => .take
  | 8 => .hosts fun i => [fun h => 2 * h, fun h => h + i]
  | _ => .collect

theorem ex_rounds : exec 1 (start [10, 20, 30] 1) [.take, exTasks 8, .data 2 (fun _ p => [fun h => h + p]), .collect] [0, 1, 1, 0] = .ok ⟨none, none, some 42⟩ := by decide +kernel

/-- The pool reaches a state as in `C97_rounds`. -/
example : ∃ s, Run s ∧ (decide (s.main = .idle (some .done)) && decide (s.n = 3) && decide (s.issued = [7]) && decide (s.cpus.length = 2)) = true :=
  ends_run (as := toDone) (by decide +kernel)

/-- And one as in `C97_during`, with threads in different rounds. -/
example : ∃ s, Run s ∧ (decide (s.n = 3) && decide (s.issued = [7, 8]) && decide (s.ran 0 = [7, 8]) && decide (s.ran 1 = [7])) = true :=
  ends_run (as := toDone ++ [.enter, .run 8] ++ times 11 .main ++ times 4 (.thread 0)) (by decide +kernel)

example : ([7, 8].map exTasks : List (Task Nat)) = .take :: ([] ++ [exTasks 8]) ∧ Work 2 (exTasks 8) := ⟨rfl, trivial⟩

/-- Data that is too short makes a thread panic. -/
theorem ex_short : exec 0 (start [10] 0) [.take, .data 1 (fun _ _ => [])] [0, 1] = .panic := by decide +kernel

end Shadow.HostSched
