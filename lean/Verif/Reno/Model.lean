/-!
# The congestion window of the C TCP sockets

A transcription of `src/main/host/descriptor/tcp_cong_reno.c`.
All counters are `guint32` in the code: sums and differences are taken modulo 2^32 here.
`duplicate_ack_n` is a `size_t` that never exceeds three and is a natural number here.

The callers are `_tcp_ackProcessing` (tcp.c:1976-2001: one call for a packet that is marked as a duplicate, then one
call with the number of packets that were acknowledged, which is positive) and
`_tcp_runRetransmitTimerExpiredTask` (tcp.c:1544).
-/

namespace Shadow.Reno

/-- The size of a `guint32`. -/
def M : Nat := 4294967296

/-- Addition of two `guint32`. -/
def add (a b : Nat) : Nat := (a + b) % M

/-- Subtraction of two `guint32`. -/
def sub (a b : Nat) : Nat := (a + M - b) % M

/-- Which set of hooks `state_hooks` points to (tcp_cong_reno.c:187-222). -/
inductive Phase
  | slow
  | fast
  | avoid
deriving Repr, DecidableEq

/-- `CAReno` (tcp_cong_reno.c:15-24) with the `cwnd` of `TCPCong` (tcp_cong.h:28-32). -/
structure Reno where
  phase : Phase
  dup : Nat
  nacked : Nat
  ssthresh : Nat
  cwnd : Nat
deriving Repr, DecidableEq

/-- `tcp_cong_reno_init` after `ca_reno_init_` (tcp_cong_reno.c:124-130, 180-187): the window that `ca_reno_init_` sets
to ten is set to one afterwards. `ssthresh` is `INT32_MAX`. -/
def init : Reno := { phase := .slow, dup := 0, nacked := 0, ssthresh := 2147483647, cwnd := 1 }

/-- The loop of `ca_reno_cong_avoid_new_ack_ev_` (tcp_cong_reno.c:115-119): `nacked` and `cwnd` when it ends. The first
argument bounds the number of rounds; `avoidLoop_done` shows that the bound used below is never reached. -/
def avoidLoop : Nat → Nat → Nat → Nat × Nat
  | 0, nacked, cwnd => (nacked, cwnd)
  | k + 1, nacked, cwnd =>
    if nacked ≥ cwnd then avoidLoop k (sub nacked cwnd) (add cwnd 1) else (nacked, cwnd)

/-- `ca_reno_cong_avoid_new_ack_ev_` (tcp_cong_reno.c:110-120). It leaves `duplicate_ack_n` as it is. -/
def avoidAck (r : Reno) (n : Nat) : Reno :=
  let na := add r.nacked n
  let x := avoidLoop (na + 3) na r.cwnd
  { r with nacked := x.1, cwnd := x.2 }

/-- `transition_to_cong_avoid` (tcp_cong_reno.c:42-47). -/
def toAvoid (r : Reno) (n : Nat) : Reno := avoidAck { r with nacked := 0, phase := .avoid } n

/-- `ssthresh_halve` (tcp_cong_reno.c:35-37). -/
def halve (r : Reno) : Reno := { r with ssthresh := add (r.cwnd / 2) 1 }

/-- `ca_reno_slow_start_new_ack_ev_` (tcp_cong_reno.c:67-91). -/
def slowAck (r : Reno) (n : Nat) : Reno :=
  let w := add r.cwnd n
  if w ≥ r.ssthresh then toAvoid { r with dup := 0, cwnd := r.ssthresh } (sub w r.ssthresh)
  else { r with dup := 0, cwnd := w }

/-- `ca_reno_fast_recovery_new_ack_ev_` (tcp_cong_reno.c:99-106). -/
def fastAck (r : Reno) (n : Nat) : Reno := toAvoid { r with dup := 0, cwnd := r.ssthresh } n

/-- `tcp_cong_reno_new_ack_ev_` (tcp_cong_reno.c:146-149). -/
def newAck (r : Reno) (n : Nat) : Reno :=
  match r.phase with
  | .slow => slowAck r n
  | .fast => fastAck r n
  | .avoid => avoidAck r n

/-- `ca_reno_slow_start_duplicate_ack_ev_` (tcp_cong_reno.c:51-65), which is also used during congestion avoidance
(tcp_cong_reno.c:207-216). -/
def slowDup (r : Reno) : Reno :=
  let r := { r with dup := r.dup + 1 }
  if r.dup == 3 then
    let r := halve r
    { r with cwnd := add r.ssthresh 3, phase := .fast }
  else r

/-- `tcp_cong_reno_duplicate_ack_ev_` (tcp_cong_reno.c:136-139, 95-97). -/
def dupAck (r : Reno) : Reno :=
  match r.phase with
  | .fast => { r with cwnd := add r.cwnd 1 }
  | _ => slowDup r

/-- `tcp_cong_reno_timeout_ev_` (tcp_cong_reno.c:152-163). -/
def timeout (r : Reno) : Reno :=
  let r := halve { r with dup := 0 }
  { r with cwnd := 10, phase := .slow }

/-- What the socket reports. -/
inductive Ev
  | ack (n : Nat)
  | dup
  | timeout
deriving Repr, DecidableEq

/-- One report. -/
def step (r : Reno) : Ev → Reno
  | .ack n => newAck r n
  | .dup => dupAck r
  | .timeout => timeout r

/-- A sequence of reports. -/
def run (r : Reno) (es : List Ev) : Reno := es.foldl step r

/-- `_tcp_updateSendWindow` (tcp.c:877-882): the comparison is between unsigned numbers. -/
def sendWindow (r : Reno) (lastWindow : Nat) : Nat := min r.cwnd lastWindow

end Shadow.Reno
