import Verif.ShmClean.Props
/-!
# C87: examples, and processes that are not seen
-/
namespace Shadow.ShmClean

def view (s : Option St) (k : Nat) : Option (List File × Phase) := s.map (fun s => (s.files, s.cl k))

theorem ex_name : shmName 6379761950298775 2738869 = "shadow_shmemfile_6379761.950298775-0002738869".toList := by decide +kernel

def p0 : Proc := ⟨0, 7, 0⟩
def p1 : Proc := ⟨1, 8, 0⟩
def p2 : Proc := ⟨2, 7, 0⟩
def f0 : Name := shmName 1 7
def f1 : Name := shmName 3 8
def f2 : Name := shmName 4 7

/-- Process 7 made a file and ended, process 8 made one and runs. -/
def before : List Act := [.start 7 0, .create p0 1, .start 8 0, .create p1 2, .touch "x".toList, .exit p0]

/-- The cleanup finds them. -/
def clean : List Act :=
  [.see 0 f1, .see 0 "x".toList, .see 0 f0, .openProc 0, .seeProc 0 "self".toList, .seeProc 0 "8".toList, .begin_ 0, .take 0 true, .take 0 true, .take 0 true]

theorem ex_all : view (run (St.init fun _ => 0) (before ++ .open_ 0 :: clean)) 0 = some ([⟨"x".toList, none⟩, ⟨f1, some p1⟩], .done 1) := by decide +kernel
theorem ex_goesOn : ∀ a ∈ clean, a.goesOn 0 := by
  intro a ha
  simp only [clean, List.mem_cons, List.not_mem_nil, or_false] at ha
  rcases ha with h | h | h | h | h | h | h | h | h | h <;> subst h <;> simp [Act.goesOn]

/-- The number 7 is used again while somebody cleans up: the file of the process that ended stays, that of the new one is not touched. -/
theorem ex_again : view (run (St.init fun _ => 0) (before ++
    [.open_ 0, .see 0 f0, .see 0 f1, .see 0 "x".toList, .start 7 0, .create p2 1, .openProc 0, .seeProc 0 "7".toList, .seeProc 0 "8".toList, .begin_ 0, .take 0 true, .take 0 true, .take 0 true])) 0 =
    some ([⟨f2, some p2⟩, ⟨"x".toList, none⟩, ⟨f1, some p1⟩, ⟨f0, some p0⟩], .done 0) := by decide +kernel

/-- The process starts after the processes were listed, and takes the number: its file is safe as it was not listed. -/
theorem ex_late : view (run (St.init fun _ => 0) (before ++
    [.open_ 0, .see 0 f0, .see 0 f1, .see 0 "x".toList, .openProc 0, .seeProc 0 "8".toList, .begin_ 0, .start 7 0, .create p2 1, .take 0 true, .take 0 true, .take 0 true])) 0 =
    some ([⟨f2, some p2⟩, ⟨"x".toList, none⟩, ⟨f1, some p1⟩], .done 1) := by decide +kernel

/-- **A process of another name space loses its files.** If `/dev/shm` is shared by two containers, a simulation in one removes the files that a
    simulation in the other is using. -/
theorem C87_other_namespace : ∃ (as : List Act) (s s' : St) (n : Name) (p : Proc), run (St.init id) as = some s ∧ step s (.take 1 true) = some s'
    ∧ (⟨n, some p⟩ : File) ∈ s.files ∧ p ∈ s.procs ∧ (⟨n, some p⟩ : File) ∉ s'.files := by
  let as : List Act := [.start 7 0, .create p0 1, .start 3 1, .open_ 1, .see 1 f0, .openProc 1, .seeProc 1 "3".toList, .begin_ 1]
  refine ⟨as, ⟨[⟨f0, some p0⟩], [⟨1, 3, 1⟩, p0], 2, 1, ((run (St.init id) as).map (·.cl)).getD fun _ => .idle, id⟩, ?_, f0, p0, ?_, ?_, ?_, ?_, ?_⟩
  rotate_left
  · rfl
  · rfl
  · simp
  · simp
  · decide +kernel

end Shadow.ShmClean
