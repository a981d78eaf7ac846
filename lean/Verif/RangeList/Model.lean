import Verif.Base.Panic
import Verif.ProcMaps.Model
/-!
# Lists of ranges, and the number of physical cores

Source: `/repo/src/main/core/cpu.rs`.

The kernel tells which processors there are as text like `0-3,8,10-11`. Shadow reads this to find out how many workers to use when the user does not say.

Simplifications: texts are lists of characters; reading the files under `/sys` succeeds and is a parameter. `parse` of `u32` is that of `Verif/ProcMaps/Model.lean`.
-/
namespace Shadow.RangeList

open Shadow.Base
open Shadow.ProcMaps (parseU)

/-- `std::ops::RangeInclusive<u32>` with its flag that it is exhausted. -/
structure Rng where
  lo : Nat
  hi : Nat
  exhausted : Bool
deriving DecidableEq, Repr

/-- `RangeInclusive::next`: the number after the last is never computed. -/
def Rng.next (r : Rng) : Option (Nat × Rng) :=
  if r.exhausted ∨ r.hi < r.lo then none
  else if r.lo < r.hi then some (r.lo, { r with lo := r.lo + 1 })
  else some (r.lo, { r with exhausted := true })

/-- `RangeListIter` (cpu.rs:1-4). -/
structure St where
  cur : Option Rng
  rest : List Char
deriving DecidableEq, Repr

/-- `str::split_once(',')`. -/
def splitOnce : List Char → Option (List Char × List Char)
  | [] => none
  | c :: l => if c = ',' then some ([], l) else (splitOnce l).map fun (a, b) => (c :: a, b)

/-- `str::split('-')`: the first piece and the others. -/
def splitDash : List Char → List Char × List (List Char)
  | [] => ([], [])
  | c :: l => let (a, more) := splitDash l; if c = '-' then ([], a :: more) else (c :: a, more)

/-- The end of a range: the second number if there is one (cpu.rs:41). -/
def hiOf (lo : Nat) : Option (List Char) → R Nat
  | none => .ok lo
  | some e => R.unwrap (parseU 10 (2 ^ 32) e)

/-- A piece between commas (cpu.rs:35-43). -/
def piece (p : List Char) : R Rng := do
  let (start, more) := splitDash p
  R.assert (decide (more.length ≤ 1))
  let lo ← R.unwrap (parseU 10 (2 ^ 32) start)
  let hi ← hiOf lo more.head?
  .ok ⟨lo, hi, false⟩

/-- What one turn of the loop does: it ends, or goes on. -/
inductive Turn where
  | done (r : R (Option Nat × St))
  | again (s : St)

/-- The body of the loop of `next` (cpu.rs:10-54). -/
def turn (s : St) : Turn :=
  match s.cur with
  | some r =>
    match r.next with
    | none => .again { s with cur := none }
    | some (n, r) => .done (.ok (some n, { s with cur := some r }))
  | none =>
    if s.rest ≠ [] then
      let (p, rest) := (splitOnce s.rest).getD (s.rest, [])
      if p = [] then .again { s with rest := rest }
      else match piece p with
        | .panic => .done .panic
        | .ok r => .again ⟨some r, rest⟩
    else .done (.ok (none, s))

/-- The loop with a bound on the number of turns, which is shown to be enough. -/
def loop : Nat → St → Option (R (Option Nat × St))
  | 0, _ => none
  | f + 1, s =>
    match turn s with
    | .done r => some r
    | .again s => loop f s

def size (s : St) : Nat := 2 * s.rest.length + (if s.cur.isSome then 1 else 0) + 1

/-- `RangeListIter::next` (cpu.rs:9-55). -/
def next (s : St) : Option (R (Option Nat × St)) := loop (size s) s

/-- `parse_range_list` (cpu.rs:66-71). -/
def start (text : List Char) : St := ⟨none, text⟩

/-- `count_physical_cores` (cpu.rs:104-117): the processors that are online, the processors the process may run on (a set of 1024; asking for more fails), and the `core_id` of each processor. -/
def coreIds (allowed : Nat → Bool) (core : Nat → Nat) : List Nat → List Nat → R (List Nat)
  | ids, [] => .ok ids
  | ids, cpu :: online => do
    R.assert (decide (cpu < 1024))
    coreIds allowed core (if allowed cpu then (if core cpu ∈ ids then ids else core cpu :: ids) else ids) online

def countCores (allowed : Nat → Bool) (core : Nat → Nat) (online : List Nat) : R Nat := do
  let ids ← coreIds allowed core [] online
  R.assert (!ids.isEmpty)
  .ok ids.length

end Shadow.RangeList
