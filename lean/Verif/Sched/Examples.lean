import Verif.Sched.Props
/-!
# C84: examples and findings
-/
namespace Shadow.Sched

open Shadow.Base
open Shadow.IoVec (Mem load store)
open Shadow.SockAddr (Byte Mapped)

/-- 64 bytes at 100: the number 50, then -1, then bytes 7. -/
def page : Mem Byte := fun x =>
  if x < 100 ∨ 164 ≤ x then none
  else if x = 100 then some 50 else if x < 104 then some 0
  else if x < 108 then some 255
  else some 7

def mem0 : Nat → Mem Byte := fun _ => page

def s1 : St := ⟨upd (fun _ => none) 10 (some (Th.new 1)), mem0⟩

theorem run1 : Run mem0 [.born 10] s1 := Run.first [] _ 10 1 Run.start (by decide) rfl

theorem ex_page : Mapped page 100 4 ∧ intAt page 100 = 50 ∧ intAt page 104 = -1 := by
  refine ⟨fun i hi => ?_, by decide +kernel, by decide +kernel⟩
  match i, hi with
  | 0, _ => decide +kernel
  | 1, _ => decide +kernel
  | 2, _ => decide +kernel
  | 3, _ => decide +kernel

/-- A thread makes itself a real-time thread of priority 50 whose children shall not be. -/
def s2 : St := (step s1 10 (.setScheduler 0 0x40000002#32 100)).1

theorem run2 : Run mem0 [.set 10 1073741826 50, .born 10] s2 :=
  Run.step _ s1 10 (Th.new 1) (.setScheduler 0 0x40000002#32 100) run1 rfl (by rintro _ _ ⟨⟩)

/-- It reads this back, and so does another thread about it; a priority that does not fit is refused. -/
theorem ex_readback : (step s1 10 (.setScheduler 0 0x40000002#32 100)).2 = .ret 0 ∧ (step s2 10 (.getScheduler 0)).2 = .ret 1073741826 ∧
    (step s2 10 (.getScheduler 10)).2 = .ret 1073741826 ∧ (step s2 10 (.getScheduler 11)).2 = .err 3 ∧ (step s2 10 (.getScheduler (-1))).2 = .err 3 ∧
    (step s2 10 (.setParam 0 104)).2 = .err 22 ∧ (step s2 10 (.setParam 0 98)).2 = .err 14 ∧ (step s1 10 (.setScheduler 0 0#32 100)).2 = .err 22 ∧
    (step s1 10 (.setScheduler 0 4#32 100)).2 = .err 22 ∧ (step s1 10 (.setScheduler 0 6#32 100)).2 = .err 22 ∧
    intAt ((step s2 10 (.getParam 0 120)).1.mem 1) 120 = 50 := by
  decide +kernel

/-- **Finding.** A new thread or process always has policy 0 and priority 0, whatever its parent has, and although the parent did not ask that children should not get its policy. Linux gives a child
the policy and the priority of its parent unless that was asked. -/
theorem C84_not_inherited {m0 : Nat → Mem Byte} {tr : List Ev} {s : St} (hr : Run m0 tr s) {self k proc : Nat} {t : Th} (ht : s.threads self = some t) (h0 : k ≠ 0) (hk : s.threads k = none) :
    ∃ s', Run m0 (.born k :: tr) s' ∧ s' = (step s self (.clone k proc)).1 ∧ replay k (.born k :: tr) = some ⟨0, 0⟩ ∧ (step s' k (.getScheduler 0)).2 = .ret 0 := by
  have e : step s self (.clone k proc) = ({ s with threads := upd s.threads k (some (Th.new proc)) }, .ret k) := by unfold step; rw [ht]
  have hr' := Run.step tr s self t (.clone k proc) hr ht (fun k' p' hh => by cases hh; exact ⟨h0, hk⟩)
  rw [e] at hr'
  refine ⟨_, hr', by rw [e], by simp [replay], ?_⟩
  have ht' : (upd s.threads k (some (Th.new proc))) k = some (Th.new proc) := by simp [upd]
  have := (C84_get (C84_history hr').1 ht' 0 0).2 (by omega) (Th.new proc) (by simpa [who] using ht')
  rw [this.1]; rfl

/-- The parent here: policy 1 with priority 50, to be passed on. -/
def s3 : St := (step s1 10 (.setScheduler 0 1#32 100)).1

theorem run3 : Run mem0 [.set 10 1 50, .born 10] s3 :=
  Run.step _ s1 10 (Th.new 1) (.setScheduler 0 1#32 100) run1 rfl (by rintro _ _ ⟨⟩)

theorem ex_not_inherited : (step s3 10 (.getScheduler 0)).2 = .ret 1 ∧ (step (step s3 10 (.clone 11 2)).1 11 (.getScheduler 0)).2 = .ret 0 ∧
    (step (step s3 10 (.clone 11 2)).1 11 (.getScheduler 10)).2 = .ret 1 := by
  decide +kernel

/-- **Finding.** Asking for the processors answers that one byte was written, and leaves the other bytes of the mask as they were: here seven bytes 7 in a mask of eight. Linux refuses sizes that are
not a multiple of eight and writes at least eight bytes, and the C library clears just what is behind the length it is told. -/
theorem C84_mask_rest : (step s1 10 (.getAffinity 0 8 110)).2 = .ret 1 ∧ (step s1 10 (.getAffinity 0 3 110)).2 = .ret 1 ∧
    load ((step s1 10 (.getAffinity 0 8 110)).1.mem 1) 110 8 = some [1, 7, 7, 7, 7, 7, 7, 7] := by
  decide +kernel

theorem ex_affinity : (step s1 10 (.setAffinity 0 8 110)).2 = .ret 0 ∧ (step s1 10 (.setAffinity 0 1 100)).2 = .err 22 ∧ (step s1 10 (.setAffinity 0 0 100)).2 = .err 22 ∧
    (step s1 10 (.setAffinity 12 8 110)).2 = .err 3 ∧ (step s1 10 (.getAffinity 10 80 110)).2 = .err 14 := by
  decide +kernel

theorem ex_rseq : (step s1 10 (.rseq true 120 32 0#32)).2 = .ret 0 ∧ load ((step s1 10 (.rseq true 120 32 0#32)).1.mem 1) 118 12 = some [7, 7, 0, 0, 0, 0, 0, 0, 0, 0, 7, 7] ∧
    (step s1 10 (.rseq true 120 4 0#32)).2 = .err 22 ∧ (step s1 10 (.rseq true 120 100 0#32)).2 = .err 14 ∧ (step s1 10 (.rseq true 120 32 1#32)).2 = .ret 0 ∧
    (step s1 10 (.rseq true 120 32 4#32)).2 = .err 22 := by
  decide +kernel

end Shadow.Sched
