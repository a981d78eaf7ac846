import Verif.Time.Model

/-!
# Model of the simulated CPU

Source: `/repo/src/main/host/cpu.rs`.  Times are nanoseconds in `Nat`; `none` is a panic.
A `Duration` is its exact number of nanoseconds.
-/
namespace Shadow.Cpu

open Shadow.Time

/-- `u128::MAX`. -/
def u128Max : Nat := 2 ^ 128 - 1

/-- cpu.rs:8-15. -/
structure Cpu where
  simFreq : Nat
  natFreq : Nat
  threshold : Option Nat
  precision : Option Nat
  now : Nat
  avail : Nat
deriving DecidableEq, Repr

/-- cpu.rs:23-41, `Cpu::new`; `EmulatedTime::MIN` is 0 (emulated_time.rs:51). -/
def new (simFreq natFreq : Nat) (threshold precision : Option Nat) : Option Cpu :=
  match precision with
  | some p => if p > 0 then some ⟨simFreq, natFreq, threshold, some p, 0, 0⟩ else none
  | none => some ⟨simFreq, natFreq, threshold, none, 0, 0⟩

/-- cpu.rs:44-46, `update_time`. -/
def Cpu.updateTime (c : Cpu) (now : Nat) : Cpu := { c with now := now }

/-- cpu.rs:62-75, the rounding step of `add_delay`. -/
def roundTo (precision : Option Nat) (d : Nat) : Option Nat :=
  match precision with
  | none => some d
  | some p => do
    let rem ← Sim.checkedRem d p
    let down ← Sim.checkedSub d rem
    let half ← Sim.checkedDiv p 2
    if rem ≥ half then Sim.checkedAdd down p else some down

/-- cpu.rs:49-78, `add_delay`. -/
def Cpu.addDelay (c : Cpu) (nanos : Nat) : Option Cpu := do
  let cycles := nanos * c.natFreq
  if cycles > u128Max then none
  if c.simFreq = 0 then none
  let d := cycles / c.simFreq
  if d > u64Max then none
  let d ← Sim.tryFromNanos d
  let d ← roundTo c.precision d
  let a ← Emu.checkedAdd c.avail d
  some { c with avail := a }

/-- cpu.rs:81-93, `delay`. -/
def Cpu.delay (c : Cpu) : Nat :=
  match c.threshold with
  | none => 0
  | some th =>
    match Emu.checkedDurationSince c.avail c.now with
    | none => 0
    | some built => if built > th then built else 0

/-- The two mutating operations, for histories. -/
inductive Op where
  | updateTime (now : Nat)
  | addDelay (nanos : Nat)

def Cpu.step (c : Cpu) : Op → Option Cpu
  | .updateTime t => some (c.updateTime t)
  | .addDelay n => c.addDelay n

def Cpu.run (c : Cpu) : List Op → Option Cpu
  | [] => some c
  | o :: os => (c.step o).bind (·.run os)

end Shadow.Cpu
