import Verif.Time.Model

/-!
# Model of the token bucket

Source: `/repo/src/main/network/relay/token_bucket.rs`, and `create_token_bucket` in
`/repo/src/main/network/relay/mod.rs`.

All quantities are `Nat`, with the `u64`/`SimulationTime`/`EmulatedTime` bounds made explicit;
`none` is a panic.  `log` calls and `debug_assert!`s (compiled out in release builds) are dropped.
-/
namespace Shadow.TB

open Shadow.Time

/-- token_bucket.rs:6-12. -/
structure Bucket where
  capacity : Nat
  balance : Nat
  inc : Nat
  interval : Nat
  last : Nat
deriving DecidableEq, Repr

/-- token_bucket.rs:37-57, `new_inner` (`new`, lines 20-33, passes `simStart`). -/
def newInner (capacity inc interval last : Nat) : Option Bucket :=
  if capacity > 0 ∧ inc > 0 ∧ interval ≠ 0 then
    some ⟨capacity, capacity, inc, interval, last⟩
  else none

/-- Rust `u64::saturating_add`. -/
def satAdd64 (a b : Nat) : Nat := min u64Max (a + b)
/-- Rust `u64::saturating_mul`. -/
def satMul64 (a b : Nat) : Nat := min u64Max (a * b)

/-- token_bucket.rs:124-154, `lazy_refill`; returns the duration to the next refill. -/
def lazyRefill (b : Bucket) (now : Nat) : Option (Bucket × Nat) := do
  let span ← Emu.durationSince now b.last
  if span ≥ b.interval then
    let n := span / b.interval
    let tokens := satMul64 b.inc n
    let balance := min b.capacity (satAdd64 b.balance tokens)
    let inc ← Sim.saturatingMul b.interval n
    let last := Emu.saturatingAdd b.last inc
    let span' ← Emu.durationSince now last
    let next ← Sim.checkedSub b.interval span'
    some ({ b with balance := balance, last := last }, next)
  else
    let next ← Sim.checkedSub b.interval span
    some (b, next)

/-- token_bucket.rs:91-117, `compute_conforming_duration`. -/
def conformingDuration (b : Bucket) (dec nextSpan : Nat) : Option Nat :=
  let required := dec - b.balance
  let q := required / b.inc
  let n := if required % b.inc > 0 then q + 1 else q
  match n with
  | 0 => some 0
  | 1 => some nextSpan
  | _ => do
    let m ← Sim.saturatingMul b.interval (n - 1)
    Sim.saturatingAdd nextSpan m

/-- Outcome of a removal: the new balance, or the duration to wait. -/
inductive Res where
  | ok (balance : Nat)
  | wait (dur : Nat)
deriving DecidableEq, Repr

/-- token_bucket.rs:72-83, `conforming_remove_inner`. -/
def remove (b : Bucket) (dec now : Nat) : Option (Bucket × Res) := do
  let (b', next) ← lazyRefill b now
  if dec ≤ b'.balance then
    some ({ b' with balance := b'.balance - dec }, .ok (b'.balance - dec))
  else
    let d ← conformingDuration b' dec next
    some (b', .wait d)

/-- relay/mod.rs:278-288, `create_token_bucket`, with the burst allowance of relay/mod.rs:290-309
    (`CONFIG_MTU = 1500`, core/definitions.h:124) and `new` (token_bucket.rs:20-33). -/
def create (bytesPerSecond : Nat) : Option Bucket :=
  let refill := max 1 (bytesPerSecond / 1000)
  newInner (refill + 1500) refill 1000000 simStart

/-- A history of removal attempts `(time, size)`. -/
def run (b : Bucket) : List (Nat × Nat) → Option (List Res × Bucket)
  | [] => some ([], b)
  | (t, d) :: os => do
    let (b', r) ← remove b d t
    let (rs, b'') ← run b' os
    some (r :: rs, b'')

end Shadow.TB
