import Verif.Affinity.Props
/-!
# C85: examples and findings
-/
namespace Shadow.Affinity

open Shadow.Base

/-- Two sockets with two cores each, two threads per core. -/
def box : List Cpu := [⟨0, 0, 0, 0⟩, ⟨1, 1, 0, 0⟩, ⟨2, 2, 1, 1⟩, ⟨3, 3, 1, 1⟩, ⟨4, 0, 0, 0⟩, ⟨5, 1, 0, 0⟩, ⟨6, 2, 1, 1⟩, ⟨7, 3, 1, 1⟩]

/-- Ten workers: first the cores of one socket, then those of the other, then the second threads of the cores, then all again. -/
theorem ex_order : ∃ s h, (Pl.init box fun _ => true).workers 10 = .ok (s, h) ∧ h.reverse.map (·.num) = [0, 1, 2, 3, 4, 5, 6, 7, 0, 1] ∧
    (∀ c ∈ box, ∀ d ∈ box, c.num = d.num → c = d) ∧ ∀ c ∈ box, Usable box (fun _ => true) c := by
  refine ⟨_, _, rfl, by decide +kernel, by decide +kernel, fun c hc => ⟨hc, ?_, ?_, rfl⟩⟩
  · revert c hc; decide +kernel
  · revert c hc; decide +kernel

/-- The process may use just the processors 2, 3 and 6. -/
theorem ex_some : ∃ s h, (Pl.init box fun n => n == 2 || n == 3 || n == 6).workers 5 = .ok (s, h) ∧ h.reverse.map (·.num) = [2, 3, 6, 3, 2] := by
  refine ⟨_, _, rfl, by decide +kernel⟩

theorem ex_nothing : (Pl.init box fun n => n == 9).workers 1 = .panic := rfl

/-- **Finding.** `_cpuIdxIsEligible` gives the number of processors where `CPU_ISSET_S` wants a number of bytes. Processors with a number of at least eight times the number of processors that are online are
not used. Here two processors are online, 15 and 16, and the process may use just the second. -/
theorem C85_high_number : (∀ allowed : Nat → Bool, ¬ Usable [⟨15, 0, 0, 0⟩, ⟨16, 1, 0, 0⟩] allowed ⟨16, 1, 0, 0⟩) ∧
    (Pl.init [⟨15, 0, 0, 0⟩, ⟨16, 1, 0, 0⟩] fun n => n == 16).workers 1 = .panic :=
  ⟨fun allowed h => by have := h.2.2.1; simp at this, rfl⟩

/-- A kernel that accepts every set that is not empty and is in the first 1024 processors. -/
def kernel : Nat → (Nat → Bool) → Bool := fun _ set => (List.range 1024).any set

theorem kernel_empty (z : Nat) : kernel z (fun _ => false) = false := by simp [kernel]

/-- **Finding.** The set for `sched_setaffinity` is allocated for the highest number rather than for one more. On a machine with one processor the set has no room at all, and with 65 processors
the last cannot be set: the set stays empty, the kernel refuses it, and the thread is not bound. -/
theorem C85_last_of_word : setProcess kernel true (maxNum [⟨0, 0, 0, 0⟩]) 0 (-1) = -1 ∧ allocSize 0 = 0 ∧ setProcess kernel true 64 64 (-1) = -1 ∧ setProcess kernel true 64 63 (-1) = 63 ∧
    setProcess kernel true 65 64 (-1) = 64 ∧ setProcess kernel true 7 7 (-1) = 7 := by
  decide +kernel

theorem ex_num : Num "12".toList 12 := ⟨[1, 2], by decide, by decide, by decide, by decide⟩

theorem ex_output : Output "# CPU,Core\n12,0,0,\n".toList [⟨12, 0, 0, 0⟩] :=
  Output.comment " CPU,Core".toList "12,0,0,\n".toList _ (by decide)
    (Output.cpu "12".toList "0".toList "0".toList [] [] 12 0 0 0 [] ex_num ⟨[0], by decide, by decide, by decide, by decide⟩ ⟨[0], by decide, by decide, by decide, by decide⟩ (.inr ⟨rfl, rfl⟩) Output.nil)

theorem ex_parse : parse "# x\n0,0,0,0\n1,1,0,\n10,2,1,1\n".toList = [⟨0, 0, 0, 0⟩, ⟨1, 1, 0, 0⟩, ⟨10, 2, 1, 1⟩] := by decide +kernel

/-- **Finding.** A line with an empty field in the middle takes what is missing from the line before, as the result of reading a line is not looked at and `strtok` skips empty fields: the node 1 becomes the
socket, and the node is that of the processor before. -/
theorem C85_empty_field : parse "0,0,0,7\n1,1,,1\n".toList = [⟨0, 0, 0, 7⟩, ⟨1, 1, 1, 7⟩] := by decide +kernel

end Shadow.Affinity
