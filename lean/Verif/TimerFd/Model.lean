import Verif.Timer.Model
import Verif.ByteQueue.Model

/-!
# Model of timer file descriptors

Sources: `/repo/src/main/host/descriptor/timerfd.rs`, `/repo/src/main/host/syscall/handler/timerfd.rs`.

The timer is the model of `Shadow.Timer`; its callback is `timer_expired`. Simplifications: listeners of the file
are not modelled, only the state they are told; looking up the descriptor and reading the arguments of a call from
memory are not modelled (a failure of either changes nothing).
-/
namespace Shadow.TimerFd

open Shadow.Base
open Shadow.Time
open Shadow.Timer (Ev)
open Shadow.ByteQueue (iovWrite WRes)

/-- timerfd.rs:23-31, `TimerFd`, in the world of its timer. -/
structure World where
  tw : Timer.World
  readable : Bool
  closed : Bool
deriving Repr, DecidableEq

/-- timerfd.rs:40-53, `new`. -/
def World.new (tw : Timer.World) : World := ⟨tw, false, false⟩

/-- timerfd.rs:253-269, `refresh_state`. -/
def World.refresh (x : World) : World := if x.closed then x else { x with readable := decide (x.tw.timer.count > 0) }

/-- The errors of the calls. -/
inductive Errno where
  | espipe
  | einval
  | eagain
  | efault
deriving Repr, DecidableEq

/-- `u64::to_ne_bytes` on a little-endian machine. -/
def leBytes (n : Nat) : List Nat := (List.range 8).map (fun k => n / 256 ^ k % 256)

/-- `std::io::Write::write_all` with `IoVecWriter`: the bytes written, and whether all were. -/
def writeAll : Nat → List (List Bool) → List Nat → List Nat → List Nat × Bool
  | 0, _, bytes, out => (out, bytes.isEmpty)
  | fuel + 1, dst, bytes, out =>
    if bytes.isEmpty then (out, true)
    else match iovWrite dst bytes 0 with
      | (dst', .ok k) => if k = 0 then (out, false) else writeAll fuel dst' (bytes.drop k) (out ++ bytes.take k)
      | (_, _) => (out, false)

/-- timerfd.rs:133-174, `readv`, into the given memory: the world, the bytes written, the result. -/
def World.readv (x : World) (offset : Bool) (dst : List (List Bool)) : World × List Nat × Except Errno Nat :=
  if offset then (x, [], .error .espipe)
  else if (dst.map List.length).sum < 8 then (x, [], .error .einval)
  else
    let c := x.tw.consume
    let x := { x with tw := c.1 }
    if c.2 = 0 then (x, [], .error .eagain)
    else
      let w := writeAll 8 dst (leBytes c.2) []
      if w.2 then (x.refresh, w.1, .ok 8) else (x, w.1, .error .efault)

/-- timerfd.rs:188-198, `close`. -/
def World.close (x : World) : World := { x with readable := false, closed := true }

/-- timerfd.rs:103-107, `disarm_timer`. -/
def World.disarmTimer (x : World) : World := World.refresh { x with tw := x.tw.disarm }

/-- timerfd.rs:89-99, `arm_timer`. -/
def World.armTimer (x : World) (expire : Nat) (interval : Option Nat) : R World := do
  let tw ← x.tw.arm expire interval
  return World.refresh { x with tw := tw }

/-- handler/timerfd.rs:164-210, `timerfd_settime` after its arguments were read; the result is `false` for
    `EINVAL`. The value and the interval are given as seconds and nanoseconds. -/
def World.settime (x : World) (abs : Bool) (value interval : Int × Int) : R (World × Bool) :=
  match Sim.tryFromTimespec value.1 value.2, Sim.tryFromTimespec interval.1 interval.2 with
  | some v, some i =>
    if v = 0 then .ok (x.disarmTimer, true)
    else do
      let t ← R.unwrap (Emu.checkedAdd (if abs then 0 else x.tw.now) v)
      let y ← x.armTimer (max t x.tw.now) (if 0 < i then some i else none)
      return (y, true)
  | _, _ => .ok (x, false)

/-- handler/timerfd.rs:97-133, `timerfd_gettime_helper`: the remaining time and the interval. -/
def World.gettime (x : World) : R ((Int × Int) × (Int × Int)) := do
  let v ← R.unwrap (Sim.toTimespec (x.tw.remaining.getD 0))
  let i ← R.unwrap (Sim.toTimespec (x.tw.timer.interval.getD 0))
  return (v, i)

/-- timerfd.rs:56-68 and timer.rs:106-156: an event of the timer is run; the callback refreshes the state. -/
def World.fire (x : World) (ev : Ev) : R (World × Bool) := do
  let r ← x.tw.fire ev
  let y : World := { x with tw := r.1 }
  return (if r.2 then y.refresh else y, r.2)

end Shadow.TimerFd
