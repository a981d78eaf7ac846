import Verif.Prctl.Model

/-!
# C102: settings made with `prctl` are those of the process, and none can undo what Shadow relies on
-/
namespace Shadow.Prctl

/-! ## Specification: read off what happened, the last first -/

/-- The signal that a process asked for last, since it was made: 0 for none. -/
def Asked (pid : Nat) : List Op → Nat
  | [] => 0
  | .start q :: l => if q = pid then 0 else Asked pid l
  | .fork _ c :: l => if c = pid then 0 else Asked pid l
  | .exec _ :: l => Asked pid l
  | .prctl q _ _ o a :: l => if q = pid ∧ o = 1 ∧ a ≤ 64 then a else Asked pid l

/-- Whether a process may be dumped: what it said last, or what its parent had when it forked. -/
def Dump (pid : Nat) : List Op → Nat
  | [] => 1
  | .start q :: l => if q = pid then 1 else Dump pid l
  | .fork q c :: l => if c = pid then Dump q l else Dump pid l
  | .exec _ :: l => Dump pid l
  | .prctl q _ _ o a :: l => if q = pid ∧ o = 4 ∧ a ≤ 1 then a else Dump pid l

/-! ## Lemmas -/

theorem run_reverse_cons (s : St) (o : Op) (l : List Op) : run s (o :: l).reverse = step (run s l.reverse) o := by simp [run]

theorem not_passed (o : Int) (h : o = 1 ∨ o = 2 ∨ o = 3 ∨ o = 4 ∨ o = 40) : passed.contains o = false := by
  rcases h with rfl | rfl | rfl | rfl | rfl <;> decide

theorem prctl_death (t : Nat) (w : Bool) (p : Proc) (o : Int) (a : Nat) : (prctl t w p o a).1.death.getD 0 = if o = 1 ∧ a ≤ 64 then a else p.death.getD 0 := by
  unfold prctl
  by_cases h1 : o = 1
  · subst h1
    rw [not_passed 1 (by simp)]
    simp only [Bool.false_eq_true, if_false, if_true, true_and, setDeath]
    by_cases h0 : a = 0
    · simp [h0]
    · by_cases h64 : a ≤ 64
      · rw [if_neg h0, if_neg (by omega), if_pos (by omega), if_pos h64]; rfl
      · rw [if_neg h0, if_neg h64]
        split
        · rfl
        · rw [if_neg (by omega)]
  · have : ¬ (o = 1 ∧ a ≤ 64) := fun h => h1 h.1
    rw [if_neg this, if_neg h1]
    split
    · rfl
    · split
      · rfl
      · split
        · rfl
        · split
          · unfold setDumpable
            split
            · rfl
            · split <;> rfl
          · split <;> rfl

theorem prctl_dumpable (t : Nat) (w : Bool) (p : Proc) (o : Int) (a : Nat) : (prctl t w p o a).1.dumpable = if o = 4 ∧ a ≤ 1 then a else p.dumpable := by
  unfold prctl
  by_cases h4 : o = 4
  · subst h4
    rw [not_passed 4 (by simp)]
    simp only [Bool.false_eq_true, if_false, if_true, true_and, setDumpable, show ¬ (4 : Int) = 1 by decide, show ¬ (4 : Int) = 2 by decide, show ¬ (4 : Int) = 40 by decide]
    by_cases h : a ≤ 1
    · have : [0, 1].contains a = true := by simp; omega
      rw [if_neg (by omega), if_pos this, if_pos h]
    · have : ¬ [0, 1].contains a = true := by simp; omega
      rw [if_neg this, if_neg h]
      split <;> rfl
  · have : ¬ (o = 4 ∧ a ≤ 1) := fun h => h4 h.1
    rw [if_neg this, if_neg h4]
    split
    · rfl
    · split
      · unfold setDeath
        split
        · rfl
        · split
          · rfl
          · split <;> rfl
      · split
        · rfl
        · split
          · rfl
          · split <;> rfl

theorem inv (l : List Op) (pid : Nat) : (run (fun _ => .new) l.reverse pid).death.getD 0 = Asked pid l ∧ (run (fun _ => .new) l.reverse pid).dumpable = Dump pid l := by
  induction l generalizing pid with
  | nil => exact ⟨rfl, rfl⟩
  | cons o l ih =>
    rw [run_reverse_cons]
    generalize run (fun _ => .new) l.reverse = s at ih
    cases o with
    | start q =>
      by_cases h : q = pid
      · subst h; simp [step, St.set, Asked, Dump, Proc.new]
      · simp [step, St.set, Asked, Dump, h, Ne.symm h, ih pid]
    | fork q c =>
      by_cases h : c = pid
      · subst h; simp [step, St.set, Asked, Dump, ih q]
      · simp [step, St.set, Asked, Dump, h, Ne.symm h, ih pid]
    | exec q =>
      by_cases h : q = pid
      · subst h; simp [step, St.set, Asked, Dump, ih q]
      · simp [step, St.set, Asked, Dump, Ne.symm h, ih pid]
    | prctl q t w o a =>
      by_cases h : q = pid
      · subst h
        simp only [step, St.set, if_true, Asked, Dump, true_and]
        rw [prctl_death, prctl_dumpable, (ih q).1, (ih q).2]
        exact ⟨rfl, rfl⟩
      · simp [step, St.set, Asked, Dump, h, Ne.symm h, ih pid]

/-! ## Theorems -/

/-- Whatever processes do (`l`, the last first), `PR_GET_PDEATHSIG` writes the signal that the process asked for last, across `execve`; a new process has none. -/
theorem C102_death (l : List Op) (pid t a : Nat) : (prctl t true (run (fun _ => .new) l.reverse pid) 2 a).2 = .wrote (Asked pid l) := by
  have := (inv l pid).1
  have hp : (2 : Int) ∉ passed := by decide
  simp [prctl, hp, this]

/-- Likewise `PR_GET_DUMPABLE`; a forked process has what its parent had. -/
theorem C102_dumpable (l : List Op) (pid t a : Nat) (w : Bool) : (prctl t w (run (fun _ => .new) l.reverse pid) 3 a).2 = .ok (Dump pid l) := by
  have := (inv l pid).2
  have hp : (3 : Int) ∉ passed := by decide
  simp [prctl, hp, this]

/-- Setting succeeds for a signal from 1 to 64 or none, and for 0 or 1; all else is `EINVAL`. -/
theorem C102_values (t : Nat) (w : Bool) (p : Proc) (a : Nat) :
    (prctl t w p 1 a).2 = (if a ≤ 64 then .ok 0 else .einval) ∧ (prctl t w p 4 a).2 = (if a ≤ 1 then .ok 0 else .einval) := by
  constructor
  · simp only [prctl, not_passed 1 (by simp), Bool.false_eq_true, if_false, if_true, setDeath]
    by_cases h0 : a = 0
    · simp [h0]
    · by_cases h : a ≤ 64
      · rw [if_neg h0, if_neg (by omega), if_pos (by omega), if_pos h]
      · rw [if_neg h0, if_neg h]
        split
        · rfl
        · rw [if_neg (by omega)]
  · simp only [prctl, not_passed 4 (by simp), Bool.false_eq_true, if_false, if_true, setDumpable, show ¬ (4 : Int) = 1 by decide, show ¬ (4 : Int) = 2 by decide, show ¬ (4 : Int) = 40 by decide]
    by_cases h : a ≤ 1
    · have : [0, 1].contains a = true := by simp; omega
      rw [if_neg (by omega), if_pos this, if_pos h]
    · have : ¬ [0, 1].contains a = true := by simp; omega
      rw [if_neg this, if_neg h]
      split <;> rfl

/-- `PR_GET_TID_ADDRESS` writes the address of the thread; this and `PR_GET_PDEATHSIG` are `EFAULT` if, and only if, the answer cannot be written. -/
theorem C102_written (t : Nat) (w : Bool) (p : Proc) (a : Nat) :
    (prctl t true p 40 a).2 = .wrote t ∧ ((prctl t w p 40 a).2 = .efault ↔ w = false) ∧ ((prctl t w p 2 a).2 = .efault ↔ w = false) := by
  have h40 : (40 : Int) ∉ passed := by decide
  have h2 : (2 : Int) ∉ passed := by decide
  cases w <;> simp [prctl, h40, h2]

/-- A call that fails, and one that only asks, changes nothing. -/
theorem C102_unchanged (t : Nat) (w : Bool) (p : Proc) (o : Int) (a : Nat) (h : (prctl t w p o a).2 = .einval ∨ (prctl t w p o a).2 = .efault ∨ o = 2 ∨ o = 3 ∨ o = 40) : (prctl t w p o a).1 = p := by
  have hp : passed.contains o = true → False := by
    intro hc
    have e : (prctl t w p o a).2 = .native := by unfold prctl; rw [if_pos hc]
    rcases h with h | h | h | h | h
    · rw [e] at h; cases h
    · rw [e] at h; cases h
    all_goals (rw [not_passed o (by simp [h])] at hc; cases hc)
  unfold prctl at h ⊢
  rw [if_neg (fun x => hp x)] at h ⊢
  by_cases h1 : o = 1
  · subst h1
    simp only [if_true, setDeath] at h ⊢
    split at h
    · simp at h
    · rename_i h0
      rw [if_neg h0]
      split at h
      · rename_i hx; rw [if_pos hx]
      · rename_i hx
        rw [if_neg hx]
        split at h
        · simp at h
        · rename_i hy; rw [if_neg hy]
  · rw [if_neg h1] at h ⊢
    by_cases h4 : o = 4
    · subst h4
      simp only [show ¬ (4 : Int) = 2 by decide, show ¬ (4 : Int) = 40 by decide, if_false, if_true, setDumpable] at h ⊢
      split at h
      · rename_i hx; rw [if_pos hx]
      · rename_i hx
        rw [if_neg hx]
        split at h
        · simp at h
        · rename_i hy; rw [if_neg hy]
    · rw [if_neg h4]
      split
      · rfl
      · split
        · rfl
        · split <;> rfl

/-- What Shadow relies on cannot be changed natively: filters for system calls (22), the trap for the time stamp counter (26), dispatch of system calls (59), and all
options from 54 on but for `PR_SET_PTRACER` or below 1. With 17, 18, 48 and 49, which stand for nothing in the bindings, no unknown option is passed on. -/
theorem C102_refused (t : Nat) (w : Bool) (p : Proc) (o : Int) (a : Nat) (h : o = 22 ∨ o = 26 ∨ o = 59 ∨ o = 17 ∨ o = 18 ∨ o = 48 ∨ o = 49 ∨ (54 ≤ o ∧ o ≤ 81) ∨ o ≤ 0 ∨ (81 < o ∧ o ≠ 1499557217)) : prctl t w p o a = (p, .einval) := by
  have hp : passed.contains o = false := by
    cases hc : passed.contains o
    · rfl
    · simp [passed] at hc
      omega
  unfold prctl
  rw [hp, if_neg (by simp), if_neg (by omega), if_neg (by omega), if_neg (by omega), if_neg (by omega), if_neg (by omega)]

/-- `arch_prctl` passes on the segment registers only, says that `cpuid` is allowed and that this cannot be changed. -/
theorem C102_arch (o : Int) : (archPrctl o = .native ↔ 4097 ≤ o ∧ o ≤ 4100) ∧ archPrctl 4113 = .ok 1 ∧ archPrctl 4114 = .enodev ∧ (archPrctl o = .einval ∨ (4097 ≤ o ∧ o ≤ 4100) ∨ o = 4113 ∨ o = 4114) := by
  refine ⟨?_, by decide, by decide, ?_⟩
  · unfold archPrctl
    split
    · simp; omega
    · split
      · simp; omega
      · split
        · rename_i hc; simp at hc; simp; omega
        · rename_i hc; simp at hc; simp; omega
  · unfold archPrctl
    split
    · omega
    · split
      · omega
      · split
        · rename_i hc; simp at hc; omega
        · exact .inl rfl

/-! ### Findings and examples -/

/-- The trap for the time stamp counter cannot be set, but is asked for natively, where the shim has set it. -/
theorem C102_tsc (t : Nat) (w : Bool) (p : Proc) (a b : Nat) : (prctl t w p 26 a).2 = .einval ∧ (prctl t w p 25 b).2 = .native := by
  refine ⟨by rw [C102_refused t w p 26 a (by simp)], ?_⟩
  unfold prctl
  rw [if_pos (by decide)]

/-- Settings that were passed on, like `PR_SET_NO_NEW_PRIVS` (38), are given to the native process only, and the one after `execve` is another that is not told. -/
theorem C102_exec (s : St) (pid t a : Nat) (w : Bool) :
    (step s (.prctl pid t w 38 a) pid).given = (38, a) :: (s pid).given ∧ (step (step s (.prctl pid t w 38 a)) (.exec pid) pid).given = [] := by
  constructor
  · simp only [step, St.set, if_true, prctl]
    rw [if_pos (by decide)]
  · simp [step, St.set]

/-- 5 asks for signal 9 and is not to be dumped, then forks 6, and runs another program. -/
theorem C102_example : let l : List Op := [.exec 5, .fork 5 6, .prctl 5 0 true 1 65, .prctl 5 0 true 4 0, .prctl 5 0 true 1 9, .start 5]
    Asked 5 l = 9 ∧ Asked 6 l = 0 ∧ Dump 5 l = 0 ∧ Dump 6 l = 0 ∧ Dump 7 l = 1 ∧ (prctl 0 true (run (fun _ => .new) l.reverse 5) 2 0).2 = .wrote 9 ∧ (prctl 0 true (run (fun _ => .new) l.reverse 6) 3 0).2 = .ok 0 := by
  decide +kernel

end Shadow.Prctl
