import Verif.ProcMaps.Props
/-! # C81: concrete cases -/
namespace Shadow.ProcMaps

def exM : Mapping :=
  { first := 0x7f00, last := 0x8f00, read := true, write := false, execute := true, shared := false, offset := 0x1000, major := 0xfd, minor := 1, inode := 123,
    path := some (.path "/bin/cat".toList), deleted := true }

/-- The hypotheses of `C81_read` and of the findings hold of a line as the kernel prints it. -/
theorem ex_front : Front "7f00".toList "8f00".toList [' '] [' '] "00001000".toList [' '] "fd".toList "01".toList [' '] "123".toList exM where
  first := (parseU_iff (by decide) (by decide)).mp (by decide +kernel)
  last := (parseU_iff (by decide) (by decide)).mp (by decide +kernel)
  offset := (parseU_iff (by decide) (by decide)).mp (by decide +kernel)
  major := (parseI_iff (lim := 2 ^ 31) (by decide) (by decide)).mp (by decide +kernel)
  minor := (parseI_iff (lim := 2 ^ 31) (by decide) (by decide)).mp (by decide +kernel)
  inode := (parseU_iff (by decide) (by decide)).mp (by decide +kernel)
  sp1 := ⟨by unfold Spaces; decide, by decide⟩
  sp2 := ⟨by unfold Spaces; decide, by decide⟩
  sp3 := ⟨by unfold Spaces; decide, by decide⟩
  sp4 := ⟨by unfold Spaces; decide, by decide⟩

theorem ex_line : Line "7f00-8f00 r-xp 00001000 fd:01 123   /bin/cat (deleted)".toList exM := by
  have ht : Tail ([' ', ' ', ' '] ++ ("/bin/cat".toList ++ ([' '] ++ deletedMark))) exM.path exM.deleted :=
    .deleted _ _ _ _ (by unfold Spaces; decide) (by decide) (by unfold Word; decide +kernel) (.file _ (by decide +kernel)) (by unfold Spaces; decide) (by decide)
  have := Line.mk ex_front ht
  have e : compose "7f00".toList "8f00".toList [' '] (bit 'r' '-' exM.read) (bit 'w' '-' exM.write) (bit 'x' '-' exM.execute) (bit 's' 'p' exM.shared) [' '] "00001000".toList [' ']
      "fd".toList "01".toList [' '] "123".toList ([' ', ' ', ' '] ++ ("/bin/cat".toList ++ ([' '] ++ deletedMark))) = "7f00-8f00 r-xp 00001000 fd:01 123   /bin/cat (deleted)".toList := by decide +kernel
  rw [e] at this
  exact this

example : parseLine "7f00-8f00 r-xp 00001000 fd:01 123   /bin/cat (deleted)".toList = some exM := by decide +kernel
example : parseLine "7f00-8f00 rw-s 00000000 00:00 0 ".toList =
    some { first := 0x7f00, last := 0x8f00, read := true, write := true, execute := false, shared := true, offset := 0, major := 0, minor := 0, inode := 0, path := none, deleted := false } := by decide +kernel
example : parsePath "[stack:17]".toList = some (.threadStack 17) ∧ parsePath "[stack]".toList = some .initialStack ∧ parsePath "[vvar]".toList = some (.special "vvar".toList) := by decide +kernel
/-- A path with a blank, a name of the kernel and a named anonymous mapping. -/
example : parseLine "7f00-8f00 r-xp 00001000 fd:01 123   /home/a b".toList = none := by decide +kernel
example : parseLine "7f00-8f00 r-xp 00001000 fd:01 123   anon_inode:[perf_event]".toList = none := by decide +kernel
example : parseLine "7f00-8f00 rw-p 00000000 00:00 0   [anon: glibc: malloc]".toList = none := by decide +kernel
example : parseLine "7f00-8f00 r-xp 00001000 fd:01 123   /home/a b c".toList = none := by decide +kernel
/-- A file whose name ends in the mark is taken for a deleted one. -/
example : (parseLine "7f00-8f00 r-xp 00001000 fd:01 123   /x (deleted)".toList).map (fun m => (m.path, m.deleted)) = some (some (.path "/x".toList), true) := by decide +kernel
example : (parseFile "0-1 r-xp 0 0:0 1 /a\n1-2 r-xp 0 0:0 1 /b\n".toList).map (·.map (·.path)) = some [some (.path "/a".toList), some (.path "/b".toList)] := by decide +kernel
example : parseFile "0-1 r-xp 0 0:0 1 /a\n1-2 r-xp 0 0:0 1 /b c\n".toList = none := by decide +kernel

end Shadow.ProcMaps
