import Verif.Logger.Props
/-!
# Examples for C79
-/
namespace Shadow.Logger.Examples

def cfg : Cfg := { cap := 2, soft := 1, report := true, maxLevel := 3 }
def info (t m : Nat) : Rec := { tid := t, level := 3, msg := m }
def error (t m : Nat) : Rec := { tid := t, level := 1, msg := m }

def exec (s : St) : List Act → Option St
  | [] => some s
  | a :: as => (step cfg s a).bind fun s1 => exec s1 as

theorem exec_path {s s' : St} {as : List Act} (h : exec s as = some s') : Path cfg s as s' := by
  induction as generalizing s with
  | nil => simp only [exec] at h; injection h with h; subst h; exact .nil _
  | cons a as ih =>
    simp only [exec] at h
    cases h1 : step cfg s a with
    | none => rw [h1] at h; cases h
    | some s1 => rw [h1] at h; exact .cons h1 (ih h)

theorem exec_run {s : St} {as : List Act} (h : exec init as = some s) : Run cfg s := (exec_path h).run .init

/-- A logging thread, as far as its record is in the queue. -/
def put (r : Rec) : List Act := [.log r.tid r none, .push r.tid]

/-- Thread 1 logs, thread 2 logs an error, which is flushed: the logger thread writes both, while the hook of thread 3 runs too. -/
def mixed : List Act :=
  [.setBuffering true] ++ put (info 1 10) ++ [.decide 1] ++ put (error 2 20) ++ [.decide 2] ++
  [.panic 3, .lock (some 3), .pop (some 3), .recv, .spill (some 3) 1, .pop (some 3), .finish (some 3), .lock none, .pop none, .finish none]

example : (exec init mixed).map (fun s => (s.out, s.q, s.done 2, s.th 2 == .wait, s.failed)) =
    some ([.out (info 1 10), .out (error 2 20), .err (error 2 20)], [], true, true, false) := by decide +kernel
/-- The hypotheses of `C79_order`, of `C79_error` and of `C79_safe` are met. -/
example : ∃ s, Run cfg s ∧ s.failed = false ∧ s.hist.length = 2 := by
  have h : ((exec init mixed).map fun s => (s.failed, s.hist.length)) = some (false, 2) := by decide +kernel
  cases hs : exec init mixed with
  | none => rw [hs] at h; cases h
  | some s => rw [hs] at h; simp at h; exact ⟨s, exec_run hs, h.1, h.2⟩

/-- A record below the level of the logger is dropped, unless the host asks for it. -/
example : enabled cfg none 4 = false ∧ enabled cfg (some none) 4 = false ∧ enabled cfg (some (some 5)) 4 = true ∧ enabled cfg (some (some 1)) 3 = false := by decide

/-- Two records fill the queue: the third waits for a flush, and goes in after it. -/
def fullQ : List Act :=
  [.setBuffering true] ++ put (info 1 10) ++ [.decide 1] ++ put (info 1 11) ++ [.decide 1] ++ put (info 2 20)
example : (exec init fullQ).map (fun s => (s.q, s.th 2 == .full (info 2 20), s.cmds)) = some ([info 1 10, info 1 11], true, [none, some 2]) := by decide +kernel
example : (exec init (fullQ ++ [.recv, .lock none, .pop none, .pop none, .finish none, .recv, .lock none, .finish none, .resume 2, .push 2])).map (fun s => (s.q, s.out, s.th 2 == .pushed (info 2 20)))
    = some ([info 2 20], [.out (info 1 10), .out (info 1 11)], true) := by decide +kernel
/-- The hypotheses of `C79_progress` are met. -/
example : ∃ s, Run cfg s ∧ s.failed = false ∧ (s.th 2).waits = true ∧ s.done 2 = false := by
  have h : ((exec init fullQ).map fun s => (s.failed, (s.th 2).waits, s.done 2)) = some (false, true, false) := by decide +kernel
  cases hs : exec init fullQ with
  | none => rw [hs] at h; cases h
  | some s => rw [hs] at h; simp at h; exact ⟨s, exec_run hs, h.1, h.2.1, h.2.2⟩

/-- A record that comes after the flush was asked for need not be written when it returns; the one before is. -/
def flushed : List Act :=
  [.setBuffering true] ++ put (info 1 10) ++ [.decide 1, .flush 2, .recv] ++ put (info 1 11) ++ [.lock none, .pop none, .finish none]
example : (exec init flushed).map (fun s => (s.out, s.q, s.done 2)) = some ([.out (info 1 10)], [info 1 11], true) := by decide +kernel

/-- The logger thread cannot write: the thread that waits panics, and the next one waits for ever. -/
def broken : List Act :=
  [.setBuffering true] ++ put (error 1 10) ++ [.decide 1, .recv, .lock none, .pop none, .fail none]
example : (exec init broken).map (fun s => (s.fl none == .dead, s.gone 1, s.failed)) = some (true, true, true) := by decide +kernel
example : (exec init (broken ++ [.resume 1, .lock (some 1), .finish (some 1), .flush 2])).map (fun s => (s.th 1 == .idle, s.th 2 == .wait, s.cmds)) = some (true, true, [some 2]) := by decide +kernel
/-- The hypotheses of `C79_hang` are met. -/
example : ∃ s s1, Run cfg s ∧ s.fl none = .dead ∧ step cfg s (.flush 2) = some s1 := by
  have h : ((exec init broken).map fun s => (s.fl none == .dead, (step cfg s (.flush 2)).isSome)) = some (true, true) := by decide +kernel
  cases hs : exec init broken with
  | none => rw [hs] at h; cases h
  | some s =>
    rw [hs] at h
    simp only [Option.map_some, Option.some.injEq, Prod.mk.injEq, beq_iff_eq] at h
    obtain ⟨s1, e⟩ := Option.isSome_iff_exists.mp h.2
    exact ⟨s, s1, exec_run hs, h.1, e⟩

end Shadow.Logger.Examples
