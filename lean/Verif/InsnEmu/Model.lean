import Verif.Base.Panic
/-!
# Emulated instructions: rdtsc, rdtscp and cpuid

Source: `/repo/src/lib/shim/shim_insn_emu.c` (the handler of SIGSEGV in a managed process), `/repo/src/lib/asm-util/src/tsc.rs`, `cpuid.rs` and `ip_matches` in `lib.rs`, and
`emulate_cpuid` in `/repo/src/lib/shim/src/lib.rs:488-545`.

Trusted: the kernel raises SIGSEGV with `SI_KERNEL` at these instructions after the two `prctl` calls (shim_insn_emu.c:112-123), and goes on with the registers that the handler leaves.
What the processor answers to cpuid, and what `clock_gettime` answers, are parameters.

Simplification: the memory of the first call (`tsc_initd`) is left out, as the rate in shared memory does not change.
-/
namespace Shadow.InsnEmu

open Shadow.Base

/-- The registers that matter; `rest` stands for all others. -/
structure Regs where
  rax : BitVec 64
  rbx : BitVec 64
  rcx : BitVec 64
  rdx : BitVec 64
  rip : BitVec 64
  rest : Nat
deriving DecidableEq, Repr

/-- Bytes that can be read. -/
abbrev Mem := BitVec 64 → Option Nat

/-- `ip_matches` (asm-util/src/lib.rs:34-50): it stops at the first byte that differs. `panic` stands for reading what cannot be read. -/
def ipMatches (mem : Mem) (ip : BitVec 64) : List Nat → R Bool
  | [] => .ok true
  | b :: l => do
    let x ← R.unwrap (mem ip)
    if x = b then ipMatches mem (ip + 1) l else .ok false

/-- (tsc.rs:42-43, cpuid.rs:13). -/
def RDTSC : List Nat := [0x0f, 0x31]
def RDTSCP : List Nat := [0x0f, 0x01, 0xf9]
def CPUID : List Nat := [0x0f, 0xa2]

/-- The number of cycles in `set_rdtsc_cycles` (tsc.rs:31-36). The product of two 64-bit numbers fits into 128 bits; the quotient is cut to 64. -/
def cycles (hz nanos : BitVec 64) : BitVec 64 := BitVec.ofNat 64 (hz.toNat * nanos.toNat / 1000000000)

/-- `set_rdtsc_cycles` (tsc.rs:30-40). -/
def setCycles (hz nanos : BitVec 64) (r : Regs) : Regs :=
  let c := cycles hz nanos
  { r with rdx := (c >>> 32) &&& 0xffffffff#64, rax := c &&& 0xffffffff#64 }

/-- `emulate_rdtsc` (tsc.rs:47-50). -/
def emuRdtsc (hz nanos : BitVec 64) (r : Regs) : Regs :=
  let r := setCycles hz nanos r
  { r with rip := r.rip + 2 }

/-- `emulate_rdtscp` (tsc.rs:54-79). -/
def emuRdtscp (hz nanos : BitVec 64) (r : Regs) : Regs :=
  let r := setCycles hz nanos r
  let r := { r with rip := r.rip + 3 }
  { r with rcx := 0x806eb479#64 }

/-- What the processor answers. -/
structure Res where
  eax : BitVec 32
  ebx : BitVec 32
  ecx : BitVec 32
  edx : BitVec 32
deriving DecidableEq, Repr

/-- The change of the answer (shim/src/lib.rs:530-541). -/
def hide (leaf sub : BitVec 32) (res : Res) : Res :=
  if leaf = 1#32 then { res with ecx := res.ecx &&& ~~~(1#32 <<< 30) }
  else if leaf = 7#32 ∧ sub = 0#32 then { res with ebx := res.ebx &&& ~~~(1#32 <<< 18) }
  else res

/-- `emulate_cpuid` (shim/src/lib.rs:490-545). -/
def emuCpuid (native : BitVec 32 → BitVec 32 → Res) (r : Regs) : Regs :=
  let leaf := r.rax.setWidth 32
  let sub := r.rcx.setWidth 32
  let res := hide leaf sub (native leaf sub)
  { r with rax := res.eax.setWidth 64, rbx := res.ebx.setWidth 64, rcx := res.ecx.setWidth 64, rdx := res.edx.setWidth 64 }

/-- Whether the program or the simulator's own code was running. -/
inductive Ctx where
  | shadow
  | application
deriving DecidableEq, Repr

/-- What is around the handler. -/
structure World where
  mem : Mem
  /-- the rate of the counter in shared memory -/
  hz : BitVec 64
  /-- `clock_gettime(CLOCK_REALTIME)`: seconds and nanoseconds, or an error -/
  clock : Option (BitVec 64 × BitVec 64)
  native : BitVec 32 → BitVec 32 → Res

/-- `_shim_rdtsc_nanos` (shim_insn_emu.c:29-47). -/
def nanosNow (w : World) (ctx : Ctx) : R (BitVec 64) :=
  match ctx with
  | .shadow => .panic
  | .application => do
    let t ← R.unwrap w.clock
    .ok (t.2 + t.1 * 1000000000#64)

/-- What the handler does: it goes on with registers, or leaves the signal to the general handler. -/
inductive Out where
  | resume (r : Regs)
  | error
deriving DecidableEq, Repr

/-- The instructions (shim_insn_emu.c:74-101). -/
def emulate (w : World) (ctx : Ctx) (r : Regs) : R Out := do
  if ← ipMatches w.mem r.rip RDTSC then
    let nanos ← nanosNow w ctx
    .ok (.resume (emuRdtsc w.hz nanos r))
  else if ← ipMatches w.mem r.rip RDTSCP then
    let nanos ← nanosNow w ctx
    .ok (.resume (emuRdtscp w.hz nanos r))
  else if ← ipMatches w.mem r.rip CPUID then
    let r := emuCpuid w.native r
    .ok (.resume { r with rip := r.rip + 2 })
  else .ok .error

/-- `_shim_insn_emu_handle_sigsegv` (shim_insn_emu.c:49-110). -/
def handler (w : World) (ctx : Ctx) (kernel : Bool) (r : Regs) : R Out :=
  if kernel then emulate w ctx r else .ok .error

end Shadow.InsnEmu
