import Verif.Base.Panic

/-!
# Model of TCP window scaling

Source: `/repo/src/lib/tcp/src/window_scaling.rs`.
-/
namespace Shadow.Tcp

open Shadow.Base

/-- window_scaling.rs:4-10. -/
structure WindowScaling where
  sentSyn : Bool
  receivedSyn : Bool
  recvShiftOpt : Option Nat
  sendShiftOpt : Option Nat
  disabled : Bool
deriving Repr, DecidableEq

namespace WindowScaling

/-- window_scaling.rs:14. -/
abbrev maxShift : Nat := 14

/-- window_scaling.rs:16-24. -/
def new : WindowScaling := ⟨false, false, none, none, false⟩

/-- window_scaling.rs:26-49, `scale_shift_for_max_window`. -/
def scaleShiftForMaxWindow (window : Nat) : Nat :=
  let w := min window (65535 * 2 ^ maxShift)
  if w = 0 then 0 else min (w.log2 - (maxShift + 1)) maxShift

/-- window_scaling.rs:51-56, `disable`. -/
def disable (s : WindowScaling) : R WindowScaling := do
  R.assert (!s.sentSyn)
  return { s with disabled := true }

/-- window_scaling.rs:58-86, `sent_syn`. -/
def onSentSyn (s : WindowScaling) (ws : Option Nat) : R WindowScaling := do
  R.assert (!s.sentSyn)
  R.assert (!s.disabled || ws.isNone)
  R.assert (!(s.receivedSyn && s.sendShiftOpt.isNone) || ws.isNone)
  R.assert (ws.all (fun w => decide (w ≤ maxShift)))
  return { s with sentSyn := true, recvShiftOpt := ws }

/-- window_scaling.rs:88-104, `received_syn`. -/
def onReceivedSyn (s : WindowScaling) (ws : Option Nat) : R WindowScaling := do
  R.assert (!s.receivedSyn)
  return { s with receivedSyn := true, sendShiftOpt := ws.map (fun w => if w > maxShift then maxShift else w) }

/-- window_scaling.rs:106-111. -/
def canSendWindowScale (s : WindowScaling) : Bool :=
  !(s.disabled || (s.receivedSyn && s.sendShiftOpt.isNone))

/-- window_scaling.rs:113-117. -/
def isConfigured (s : WindowScaling) : Bool := s.disabled || (s.sentSyn && s.receivedSyn)

/-- window_scaling.rs:119-131, `recv_shift`. -/
def recvShiftRaw (s : WindowScaling) : Nat :=
  if s.disabled then 0
  else match s.recvShiftOpt, s.sendShiftOpt with
    | some r, some _ => r
    | _, _ => 0

/-- window_scaling.rs:133-145, `send_shift`. -/
def sendShiftRaw (s : WindowScaling) : Nat :=
  if s.disabled then 0
  else match s.sendShiftOpt, s.recvShiftOpt with
    | some x, some _ => x
    | _, _ => 0

/-- window_scaling.rs:147-154, `recv_window_scale_shift`. -/
def recvWindowScaleShift (s : WindowScaling) : R Nat := do
  R.assert s.isConfigured
  return s.recvShiftRaw

/-- window_scaling.rs:156-163, `send_window_scale_shift`. -/
def sendWindowScaleShift (s : WindowScaling) : R Nat := do
  R.assert s.isConfigured
  return s.sendShiftRaw

/-- window_scaling.rs:165-167, `recv_window_max`. -/
def recvWindowMax (s : WindowScaling) : Nat := 65535 * 2 ^ s.recvShiftRaw

end WindowScaling
end Shadow.Tcp
