import Verif.RangeList.Props
/-!
# C86: examples and findings
-/
namespace Shadow.RangeList

open Shadow.Base
open Shadow.ProcMaps (parseU parseU_iff Num)

/-- Calling the iterator again and again, at most so often. -/
def collect : Nat → St → List Nat × Bool
  | 0, _ => ([], false)
  | k + 1, s =>
    match next s with
    | some (.ok (some n, s)) => let (l, b) := collect k s; (n :: l, b)
    | some (.ok (none, _)) => ([], false)
    | _ => ([], true)

theorem ex_list : collect 20 (start "0-3,8,10-11".toList) = ([0, 1, 2, 3, 8, 10, 11], false) ∧ collect 20 (start "1,,5,".toList) = ([1, 5], false) ∧
    collect 20 (start "1-0".toList) = ([], false) ∧ collect 20 (start "".toList) = ([], false) ∧ collect 20 (start "4294967294-4294967295".toList) = ([4294967294, 4294967295], false) := by
  decide +kernel

/-- Malformed pieces fail, but only when they are reached. -/
theorem ex_bad : collect 20 (start "7,1-2-3,4".toList) = ([7], true) ∧ collect 20 (start "1 ".toList) = ([], true) ∧ collect 20 (start "5,-".toList) = ([5], true) ∧
    collect 20 (start "4294967296".toList) = ([], true) := by
  decide +kernel

theorem num {t : List Char} {n : Nat} (h : parseU 10 (2 ^ 32) t = some n) : Num 10 t n ∧ n < 4294967296 := parse_iff.mp h

theorem ex_ranges : Ranges "0-3,8".toList [0, 1, 2, 3, 8] false :=
  Ranges.more "0-3".toList "8".toList [0, 1, 2, 3] [8] false (by decide)
    (Piece.range "0".toList "3".toList 0 3 (num (by decide)).1 (by decide) (num (by decide)).1 (by decide))
    (Ranges.last _ _ (by decide) (Piece.one _ 8 (num (by decide)).1 (by decide)))

theorem ex_count : countCores (fun _ => true) (fun c => c % 4) [0, 1, 2, 3, 4, 5, 6, 7] = .ok 4 ∧ countCores (fun c => c == 1 || c == 5) (fun c => c % 4) [0, 1, 2, 3, 4, 5, 6, 7] = .ok 1 ∧
    countCores (fun _ => false) id [0] = .panic := by
  decide +kernel

/-- **Finding.** The kernel numbers cores within their package (socket), so that the cores of two packages have the same identifiers. Here are two packages with four cores each, without a second thread per
core: eight cores, which are counted as four. -/
theorem C86_packages : let package := fun c => c / 4; let core := fun c => c % 4
    (([0, 1, 2, 3, 4, 5, 6, 7].map fun c => (package c, core c)).Nodup) ∧ countCores (fun _ => true) core [0, 1, 2, 3, 4, 5, 6, 7] = .ok 4 := by
  decide +kernel

/-- **Finding.** A machine with more than 1024 processors makes the simulator fail, even if the process may not use those. -/
theorem C86_many (allowed : Nat → Bool) (core : Nat → Nat) (online : List Nat) (h : 1024 ∈ online) : ∀ k, countCores allowed core online ≠ .ok k := fun k e => by
  have := ((C86_count allowed core online k).mp e).1 1024 h
  omega

end Shadow.RangeList
