/-!
# Model of `SimulationTime` and `EmulatedTime`

Sources (all under `/repo/src/lib/shadow-shim-helper-rs/src`):
`simulation_time.rs`, `emulated_time.rs`, `util/time.rs`.

Both Rust types wrap a `u64` count of nanoseconds.  They are modelled as `Nat`;
the `u64` range is explicit (`u64Max`).  A Rust panic (`unwrap` on `None`) is the
Lean value `none` for the operators, which return `Option`.
-/
namespace Shadow.Time

/-- `u64::MAX`. -/
def u64Max : Nat := 18446744073709551615

/-- simulation_time.rs, `SIMTIME_INVALID = u64::MAX`. -/
def simInvalid : Nat := u64Max

/-- emulated_time.rs:30, `EMUTIME_MAX = u64::MAX - 1`. -/
def emuMax : Nat := u64Max - 1

/-- emulated_time.rs:29, `EMUTIME_INVALID = u64::MAX`. -/
def emuInvalid : Nat := u64Max

/-- emulated_time.rs:37, `EMUTIME_SIMULATION_START`. -/
def simStart : Nat := 946684800 * 1000000000

/-- simulation_time.rs, `SIMTIME_MAX = EMUTIME_MAX - EMUTIME_SIMULATION_START`
    (the largest duration such that `SIMULATION_START + d` is a valid instant). -/
def simMax : Nat := emuMax - simStart

def oneSecond : Nat := 1000000000
def oneMilli : Nat := 1000000
def oneMicro : Nat := 1000

namespace U64

/-- Rust `u64::checked_add`. -/
def checkedAdd (a b : Nat) : Option Nat := if a + b ≤ u64Max then some (a + b) else none
/-- Rust `u64::checked_sub`. -/
def checkedSub (a b : Nat) : Option Nat := if b ≤ a then some (a - b) else none
/-- Rust `u64::checked_mul`. -/
def checkedMul (a b : Nat) : Option Nat := if a * b ≤ u64Max then some (a * b) else none
/-- Rust `u64::checked_div`. -/
def checkedDiv (a b : Nat) : Option Nat := if b = 0 then none else some (a / b)
/-- Rust `u64::checked_rem`. -/
def checkedRem (a b : Nat) : Option Nat := if b = 0 then none else some (a % b)

end U64

namespace Sim

/-- simulation_time.rs:38-48, `SimulationTime::from_c_simtime`
    (`SIMTIME_ONE_NANOSECOND = 1`). -/
def fromC (v : Nat) : Option Nat :=
  if v = simInvalid then none
  else if v > simMax then none
  else some (v / 1)

/-- simulation_time.rs:50-52, `to_c_simtime`. -/
def toC (v : Option Nat) : Nat := v.getD simInvalid

/-- simulation_time.rs:97-102. -/
def checkedAdd (a b : Nat) : Option Nat :=
  match U64.checkedAdd a b with
  | some s => fromC s
  | none => none

/-- simulation_time.rs:104-109. -/
def checkedSub (a b : Nat) : Option Nat :=
  match U64.checkedSub a b with
  | some s => fromC s
  | none => none

/-- simulation_time.rs:111-116. -/
def checkedMul (a n : Nat) : Option Nat :=
  match U64.checkedMul a n with
  | some s => fromC s
  | none => none

/-- simulation_time.rs:118-123. -/
def checkedDiv (a n : Nat) : Option Nat :=
  match U64.checkedDiv a n with
  | some s => fromC s
  | none => none

/-- simulation_time.rs:125-130. -/
def checkedRem (a b : Nat) : Option Nat :=
  match U64.checkedRem a b with
  | some s => fromC s
  | none => none

/-- simulation_time.rs:132-135; `none` is the panic of the final `unwrap`. -/
def saturatingAdd (a b : Nat) : Option Nat :=
  fromC ((U64.checkedAdd a b).getD simMax)

/-- simulation_time.rs:137-140 (`SIMTIME_MIN = 0`); `none` is a panic. -/
def saturatingSub (a b : Nat) : Option Nat :=
  fromC ((U64.checkedSub a b).getD 0)

/-- simulation_time.rs:142-145; `none` is a panic. -/
def saturatingMul (a n : Nat) : Option Nat :=
  fromC ((U64.checkedMul a n).getD simMax)

/-- simulation_time.rs:77-91. -/
def asSecs (a : Nat) : Nat := a / oneSecond
def asMillis (a : Nat) : Nat := a / oneMilli
def asMicros (a : Nat) : Nat := a / oneMicro
/-- simulation_time.rs:179-189. -/
def subsecMillis (a : Nat) : Nat := asMillis a % 1000
def subsecMicros (a : Nat) : Nat := asMicros a % 1000000
def subsecNanos (a : Nat) : Nat := a % 1000000000

/-- simulation_time.rs:147-177, `try_from_secs`, `try_from_millis`, ... -/
def tryFromSecs (s : Nat) : Option Nat := checkedMul oneSecond s
def tryFromMillis (s : Nat) : Option Nat := checkedMul oneMilli s
def tryFromMicros (s : Nat) : Option Nat := checkedMul oneMicro s
def tryFromNanos (s : Nat) : Option Nat := checkedMul 1 s

/-- simulation_time.rs:256-268, `TryFrom<Duration>` (a `Duration` is modelled by
    its exact number of nanoseconds). -/
def tryFromDuration (nanos : Nat) : Option Nat := if nanos > simMax then none else some nanos

/-- simulation_time.rs:283-294 / 307-318 / 331-342, `TryFrom<timespec>`; the two
    fields are signed 64-bit in C. -/
def tryFromTimespec (sec nsec : Int) : Option Nat :=
  if sec < 0 ∨ nsec < 0 ∨ nsec > 999999999 then none
  else tryFromDuration (sec.toNat * 1000000000 + nsec.toNat)

/-- simulation_time.rs:296-305, `TryFrom<SimulationTime> for timespec`.  `as_secs` of a
    valid time is below `2^63`, so the fallible integer conversion always succeeds; the
    bound is kept explicit. -/
def toTimespec (a : Nat) : Option (Int × Int) :=
  if a / 1000000000 ≤ 9223372036854775807 then
    some ((a / 1000000000 : Nat), (a % 1000000000 : Nat))
  else none

/-- simulation_time.rs:355-366 / 379-403, `TryFrom<timeval>`. -/
def tryFromTimeval (sec usec : Int) : Option Nat :=
  if sec < 0 ∨ usec < 0 ∨ usec > 999999 then none
  else tryFromDuration (sec.toNat * 1000000000 + usec.toNat * 1000)

/-- simulation_time.rs:368-377 / 405-425, `TryFrom<SimulationTime> for timeval`. -/
def toTimeval (a : Nat) : Option (Int × Int) :=
  if a / 1000000000 ≤ 9223372036854775807 then
    some ((a / 1000000000 : Nat), ((a % 1000000000) / 1000 : Nat))
  else none

end Sim

namespace Emu

/-- emulated_time.rs:54-60, `EmulatedTime::from_c_emutime`. -/
def fromC (v : Nat) : Option Nat :=
  if v = emuInvalid ∨ v > emuMax then none else some v

/-- emulated_time.rs:87-90, `checked_duration_since`. -/
def checkedDurationSince (t earlier : Nat) : Option Nat :=
  match U64.checkedSub t earlier with
  | some d => Sim.fromC d
  | none => none

/-- emulated_time.rs:82-84, `duration_since`; `none` is a panic. -/
def durationSince (t earlier : Nat) : Option Nat := checkedDurationSince t earlier

/-- emulated_time.rs:93-96, `saturating_duration_since`. -/
def saturatingDurationSince (t earlier : Nat) : Nat :=
  (checkedDurationSince t earlier).getD 0

/-- emulated_time.rs:98-100. -/
def checkedAdd (t d : Nat) : Option Nat :=
  match U64.checkedAdd t d with
  | some s => fromC s
  | none => none

/-- emulated_time.rs:102-104. -/
def checkedSub (t d : Nat) : Option Nat :=
  match U64.checkedSub t d with
  | some s => fromC s
  | none => none

/-- emulated_time.rs:106-111. -/
def saturatingAdd (t d : Nat) : Nat :=
  match checkedAdd t d with
  | some r => r
  | none => emuMax

/-- emulated_time.rs:113-118. -/
def saturatingSub (t d : Nat) : Nat :=
  match checkedSub t d with
  | some r => r
  | none => simStart

/-- emulated_time.rs:71-73, `from_abs_simtime`; `none` is a panic. -/
def fromAbsSimtime (d : Nat) : Option Nat := checkedAdd simStart d

/-- emulated_time.rs:76-78, `to_abs_simtime`; `none` is a panic. -/
def toAbsSimtime (t : Nat) : Option Nat := durationSince t simStart

end Emu

/-- util/time.rs:3-8, `TimeParts`. -/
structure TimeParts where
  hours : Nat
  mins : Nat
  secs : Nat
  nanos : Nat
deriving DecidableEq, Repr

/-- util/time.rs:11-33, `TimeParts::from_nanos`; the `try_from(..).unwrap()` conversions to
    `u64`/`u32` are explicit failures (`none` is a panic). -/
def TimeParts.fromNanos (total : Nat) : Option TimeParts :=
  let wholeSecs := total / 1000000000
  if wholeSecs ≤ u64Max then
    let wholeMins := wholeSecs / 60
    if wholeMins ≤ 4294967295 then
      let wholeHours := wholeMins / 60
      some { hours := wholeHours
             mins := wholeMins - wholeHours * 60
             secs := wholeSecs - wholeMins * 60
             nanos := total - wholeSecs * 1000000000 }
    else none
  else none

end Shadow.Time
