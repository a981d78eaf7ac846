import Verif.FmtBuf.Props
/-!
# Examples for C80
-/
namespace Shadow.FmtBuf.Examples
open Shadow.Base

/-- Bytes at which no character begins are one replacement, also at the end; `¡` and `ह` are read. -/
example : decodeLossy 10 [0x80, 0x80, 0x78, 0xc2, 0xa1, 0xe0, 0xa4, 0xb9, 0xf0, 0x90] = .ok [['�'], ['x'], ['¡'], ['ह'], ['�']] := by decide +kernel
/-- Overlong forms and surrogates are no characters. -/
example : decodeLossy 5 [0xc0, 0x80, 0xed, 0xa0, 0x80] = .ok [['�']] := by decide +kernel

/-- Two writes into six bytes: the second is cut between its characters, and the third is dropped. -/
example : (do
    let b ← Buf.new 6
    let b ← writeAll b [['a', 'b'], ['c', '¡', 'ह'], ['d']]
    let d ← b.display
    R.ok (b.used, d)) = .ok (5, (enc ['a', 'b', 'c', '¡'], some 4)) := by decide +kernel
/-- A cut within a character is moved back. -/
example : (do
    let b ← Buf.new 6
    let b ← writeAll b [['a', 'b', 'c', 'ह', 'd']]
    b.display) = .ok (enc ['a', 'b', 'c'], some 4) := by decide +kernel
example : floorBoundary (enc ['a', 'ह', 'd']) 3 = 1 := by decide +kernel

/-- The hypothesis of `C80_write`, `C80_sprintf` and `C80_read` is met, with and without dropped bytes. -/
example : ∃ b, Holds 6 b ['a', '¡'] 0 :=
  ⟨{ mem := [some 0x61, some 0xc2, some 0xa1, some 0, none, none], used := 3, trunc := 0 }, by decide +kernel, by decide +kernel, by decide +kernel, by decide +kernel, by decide +kernel, rfl⟩
example : ∃ b, Holds 6 b ['a', '¡'] 7 :=
  ⟨{ mem := [some 0x61, some 0xc2, some 0xa1, some 0, none, none], used := 3, trunc := 7 }, by decide +kernel, by decide +kernel, by decide +kernel, by decide +kernel, by decide +kernel, rfl⟩
/-- `sprintf` of a text that fits, of bytes that are no text, and of a text that is too long. -/
example : (do let b ← Buf.new 8; let b ← b.sprintf (some (enc ['a', 'ह'])); b.display) = .ok (enc ['a', 'ह'], none) := by decide +kernel
example : (do let b ← Buf.new 8; let b ← b.sprintf (some [0x61, 0x80, 0x80, 0x62]); b.display) = .ok (enc ['a', '�', 'b'], none) := by decide +kernel
example : (do let b ← Buf.new 4; let b ← b.sprintf (some (enc ['a', 'b', 'c', 'd', 'e'])); b.display) = .ok (enc ['a', 'b', 'c'], some 2) := by decide +kernel
/-- A zero in the text: no C string. -/
example : (do let b ← Buf.new 4; let b ← b.writeStr [0x61, 0]; b.asCstr) = .ok none := by decide +kernel
/-- A buffer without room for the zero is refused. -/
example : Buf.new 0 = .panic := by decide

/-- A write in parts, with signals; and one that fails in the middle. -/
example : fdWrite [.intr, .took 2, .intr, .took 1, .took 3] [1, 2, 3, 4] = some ([1, 2, 3, 4], true) := by decide
example : fdWrite [.took 2, .fail] [1, 2, 3, 4] = some ([1, 2], false) := by decide
example : (∀ o ∈ [Sys.intr, .took 2, .intr, .took 1, .took 3, .took 1], o ≠ .fail ∧ o ≠ .took 0) ∧ 4 ≤ ([Sys.intr, .took 2, .intr, .took 1, .took 3, .took 1].filter (· ≠ .intr)).length := by decide

end Shadow.FmtBuf.Examples
