import Verif.CTcp.Stuck
/-!
# C69, C70: concrete runs that meet the hypotheses, and what the code does not guarantee
-/

namespace Shadow.CTcp
open Shadow.Base Shadow.Tally

/-- The contract as a computation. -/
def allowedB (w : W) : Act → Bool
  | .write x _ | .read x _ _ | .shutdown x _ _ =>
    !(w.get x).uclosed && (decide ((w.get x).state ≠ .listen) && decide ((w.get x).state ≠ .synRcvd) && decide ((w.get x).state ≠ .synSent))
  | .close x => !(w.get x).uclosed && (decide ((w.get x).state ≠ .listen) && decide ((w.get x).state ≠ .synRcvd))
  | _ => true

theorem allowed_of {w : W} {a : Act} (h : allowedB w a = true) : allowed w a := by
  cases a <;> simp_all [allowedB, allowed]

/-- Run a list of steps. -/
def execA (w : W) : List Act → Option W
  | [] => some w
  | a :: as =>
    if allowedB w a then
      match step w a with
      | some (.ok v) => execA v as
      | _ => none
    else none

theorem execA_run : ∀ {as : List Act} {w v : W}, Run w → execA w as = some v → Run v
  | [], w, v, h, e => by simp [execA] at e; subst e; exact h
  | a :: as, w, v, h, e => by
    unfold execA at e
    split at e
    · rename_i al
      split at e
      · rename_i u hu
        exact execA_run (.step h (allowed_of al) hu) e
      · simp at e
    · simp at e

/-- A client and a server with buffers for ten full packets and a bit. -/
def w0 : W := ⟨client 15000 15000 10, fresh .listen 15000 15000 10, []⟩

theorem w0_run : Run w0 := .start (.mk _ _ _ _ _ _)

theorem reachedB {as : List Act} {p : W → Bool} (h : (execA w0 as).any p = true) : ∃ v, Run v ∧ p v = true := by
  cases e : execA w0 as with
  | none => rw [e] at h; simp at h
  | some v => rw [e] at h; exact ⟨v, execA_run w0_run e, h⟩

/-- When the timer is off nothing happens. -/
theorem expire_off {X : Ep} (h1 : X.state ≠ .closed) (h2 : X.rq ≠ []) (h3 : X.timer = false) (cw : Nat) : X.expire cw = .ok X := by
  have : X.rq.isEmpty = false := by cases h : X.rq <;> simp_all
  simp [Ep.expire, h1, h3, this]

/-- The handshake. -/
def shake : List Act :=
  [.pull false, .deliver 0 10 15000, .pull true, .deliver 0 10 15000, .ackTask false, .pull false, .deliver 0 10 15000]

/-! ## The hypotheses are met -/

/-- C69: the client writes three bytes in two packets, the first is lost and sent again after a timeout, the client closes; the server reads everything, is told of the
end of the stream, and closes as well. -/
theorem ex_stream : ∃ v, Run v ∧ v.b.read = [1, 2, 3] ∧ v.a.wrote = [1, 2, 3] ∧ v.b.eof = true ∧ v.a.uclosed = true ∧ v.b.uclosed = true := by
  obtain ⟨v, r, h⟩ := reachedB (as := shake ++ [.write false [1, 2], .write false [3], .pull false, .pull false, .drop 0, .deliver 0 10 15000, .pull true,
      .deliver 0 10 15000, .expire false 5, .pull false, .deliver 0 10 15000, .read true 2 15000, .ackTask true, .pull true, .deliver 0 10 15000,
      .read true 5 15000, .close false, .pull false, .deliver 0 10 15000, .pull true, .deliver 0 10 15000, .read true 5 15000, .close true])
    (p := fun v => decide (v.b.read = [1, 2, 3] ∧ v.a.wrote = [1, 2, 3] ∧ v.b.eof = true ∧ v.a.uclosed = true ∧ v.b.uclosed = true)) (by decide +kernel)
  exact ⟨v, r, of_decide_eq_true h⟩

/-- C69: the server has selectively acknowledged the second packet and waits for the first.  C70: the timer is on; the hypotheses of `C70_timeout` hold of the first
packet. -/
theorem ex_timeout : ∃ v, Run v ∧ Cov v.a.tally.sacked 3 ∧ v.b.rnext = 2 ∧ v.a.timer = true ∧ v.a.rq ≠ [] ∧ v.a.state ≠ .closed ∧
    ∃ g ∈ v.a.hist, g.data = [1, 2] ∧ v.a.unacked ≤ g.seq ∧ g.seq ≤ v.a.highest ∧ ¬ Cov v.a.tally.sacked g.seq := by
  obtain ⟨v, r, h⟩ := reachedB (as := shake ++ [.write false [1, 2], .write false [3], .pull false, .pull false, .drop 0, .deliver 0 10 15000, .pull true,
      .deliver 0 10 15000])
    (p := fun v => decide (v.a.tally.sacked = [⟨3, 4⟩] ∧ v.b.rnext = 2 ∧ v.a.timer = true ∧ v.a.rq ≠ [] ∧ v.a.state ≠ .closed ∧
      ⟨2, false, false, true, false, [1, 2]⟩ ∈ v.a.hist ∧ v.a.unacked ≤ 2 ∧ 2 ≤ v.a.highest)) (by decide +kernel)
  obtain ⟨h1, h2, h3, h4, h5, h6, h7, h8⟩ := of_decide_eq_true h
  refine ⟨v, r, by rw [h1]; exact ⟨⟨3, 4⟩, by simp, by decide⟩, h2, h3, h4, h5, _, h6, rfl, h7, h8, ?_⟩
  rw [h1]
  rintro ⟨q, hq, k⟩
  simp at hq
  subst hq
  exact absurd k.1 (by decide)

/-! ## Findings -/

/-- **C70** (finding, the start of `C70_stuck_forever`).  A packet is delivered, but the timer expires before its acknowledgement arrives; the acknowledgement arrives
before the retransmission leaves.  Then the client's program closes the socket.  Everything was delivered, read and acknowledged, nothing is on its way, and by
`C70_stuck_forever` the server's program is never told of the end of the stream. -/
theorem C70_stuck_reached : ∃ v, Run v ∧ v.b.read = v.a.wrote ∧ v.a.wrote = [7] ∧ v.a.uclosed = true ∧ v.net = [] ∧
    ∃ g, Stuck g (v.get false) := by
  obtain ⟨v, r, h⟩ := reachedB (as := shake ++ [.write false [7], .pull false, .deliver 0 10 15000, .expire false 1, .ackTask true, .pull true,
      .deliver 0 2 15000, .pull false, .deliver 0 3 15000, .read true 10 15000, .close false])
    (p := fun v => decide ((v.b.read = v.a.wrote ∧ v.a.wrote = [7] ∧ v.a.uclosed = true ∧ v.net = []) ∧
      (⟨2, false, false, true, false, [7]⟩ ∈ v.a.rq ∧ 2 < v.a.lastAck ∧ v.a.unacked = v.a.lastAck ∧ v.a.tally.marked = [] ∧ v.a.tally.lost = [] ∧
        2 < v.a.tally.lastAck) ∧
      (v.a.state = .estab ∧ v.a.closeSched = false))) (by decide +kernel)
  obtain ⟨⟨h1, h2, h3, h4⟩, ⟨k1, k2, k3, k4, k5, k6⟩, k8, k9⟩ := of_decide_eq_true h
  have m : ∀ x : Int, ¬ Cov ([] : List Rng) x := fun x ⟨r, h, _⟩ => by simp at h
  exact ⟨v, r, h1, h2, h3, h4, ⟨2, false, false, true, false, [7]⟩, k1, by simp, k2, k3, by rw [show (v.get false) = v.a from rfl, k4]; exact m _,
    by rw [show (v.get false) = v.a from rfl, k5]; exact m _, k6, .inl k8, k9, ((run_inv r).good false).s.twf,
    fun x h => absurd h (by rw [show (v.get false) = v.a from rfl, k4, k5]; rintro (h | h) <;> exact m _ h)⟩

/-- **C70** (finding).  The timer statement is false of a FIN: the client has shut down its write side, its FIN was lost, and data of the server that arrived
since then has switched the timer off.  The FIN is not acknowledged, nothing is on its way or waits to be sent, and no timer will send it again. -/
theorem C70_fin_not_resent : ∃ v, Run v ∧ (∃ g ∈ v.a.rq, g.fin = true ∧ v.a.unacked ≤ g.seq) ∧ v.a.timer = false ∧ v.net = [] ∧ v.a.thr = [] ∧
    v.a.outC = [] ∧ v.a.outD = [] ∧ v.a.ackSched = false ∧ v.b.remoteClosed = false ∧ v.b.rq = [] ∧ v.b.ackSched = false ∧
    ∀ cw, step v (.expire false cw) = some (.ok v) := by
  obtain ⟨v, r, h⟩ := reachedB (as := shake ++ [.shutdown false false true, .pull false, .drop 0, .write true [9], .pull true, .deliver 0 10 15000,
      .ackTask false, .pull false, .deliver 0 10 15000])
    (p := fun v => decide ((∃ g ∈ v.a.rq, g.fin = true ∧ v.a.unacked ≤ g.seq) ∧ v.a.timer = false ∧ v.net = [] ∧ v.a.thr = [] ∧
      v.a.outC = [] ∧ v.a.outD = [] ∧ v.a.ackSched = false ∧ v.b.remoteClosed = false ∧ v.b.rq = [] ∧ v.b.ackSched = false) &&
      decide (v.a.state ≠ .closed ∧ v.a.rq ≠ [])) (by decide +kernel)
  simp only [Bool.and_eq_true, decide_eq_true_eq] at h
  obtain ⟨⟨h1, h2, h3, h4, h5, h6, h7, h8, h9, h10⟩, k1, k2⟩ := h
  refine ⟨v, r, h1, h2, h3, h4, h5, h6, h7, h8, h9, h10, fun cw => ?_⟩
  simp only [step, W.upd, show (v.get false) = v.a from rfl, expire_off k1 k2 h2, R.bind_ok]
  rfl

/-- The timer expires and the three packets are given to the network again. -/
def again : List Act := [.expire false 10, .pull false, .pull false, .pull false]

/-- The first of three packets is lost; the second arrives eight times. -/
def copies : List Act :=
  [.write false [1], .write false [2], .write false [3], .pull false, .pull false, .pull false] ++
    again ++ again ++ again ++ again ++ again ++ again ++ again ++ [.drop 0, .deliver 0 10 15000, .deliver 0 10 15000] ++
    (List.replicate 7 [Act.drop 0, .deliver 0 10 15000, .drop 0]).flatten ++
    (List.replicate 8 [Act.pull true, .drop 0]).flatten ++ [.pull true, .deliver 0 10 15000] ++
    [.expire false 10, .pull false, .deliver 0 10 15000, .ackTask true, .pull true, .deliver 0 10 15000]

/-- The endpoint has nothing to send. -/
def quiet : R Ep → Bool
  | .ok y => y.thr.isEmpty && y.outC.isEmpty && y.outD.isEmpty
  | .panic => false

/-- **C70** (finding).  After removing a copy of a packet that was already delivered, the loop over the received packets ends.  Here the server's program has read
until it was told that nothing is there, and it waits for readability; yet the next packet in order is at the receiver, behind a copy of an older one.  It is
selectively acknowledged, so the client does not send it again when its timer expires, and nothing is on its way. -/
theorem C70_undelivered : ∃ v, Run v ∧ v.b.readable = false ∧ v.b.inb = [] ∧ v.b.part = [] ∧ v.b.read = [1, 2] ∧ v.a.wrote = [1, 2, 3] ∧
    (∃ g ∈ v.b.uno, g.seq = v.b.rnext ∧ g.data = [3]) ∧ v.net = [] ∧ v.b.ackSched = false ∧ v.b.winPending = false ∧ quiet (v.a.expire 10) = true := by
  obtain ⟨v, r, h⟩ := reachedB (as := shake ++ copies ++ [.read true 100 15000, .read true 100 15000])
    (p := fun v => decide (v.b.readable = false ∧ v.b.inb = [] ∧ v.b.part = [] ∧ v.b.read = [1, 2] ∧ v.a.wrote = [1, 2, 3] ∧
      (∃ g ∈ v.b.uno, g.seq = v.b.rnext ∧ g.data = [3]) ∧ v.net = [] ∧ v.b.ackSched = false ∧ v.b.winPending = false ∧ quiet (v.a.expire 10) = true))
    (by decide +kernel)
  exact ⟨v, r, of_decide_eq_true h⟩

/-- **C70** (finding).  Data that was already delivered is not acknowledged again: the acknowledgement of the client's packet was lost, the client sent the packet
again, and the server got it, yet nothing is on its way and nothing waits to be sent; when the timer expires the same happens again. -/
theorem C70_copy_unanswered : ∃ v, Run v ∧ v.a.rq.map (·.data) = [[7]] ∧ v.b.read = [7] ∧ v.net = [] ∧ v.b.thr = [] ∧ v.b.outC = [] ∧ v.b.outD = [] ∧
    v.b.ackSched = false ∧ v.b.winPending = false ∧ execA v [.expire false 10, .pull false, .deliver 0 10 15000] = some v := by
  obtain ⟨v, r, h⟩ := reachedB (as := shake ++ [.write false [7], .pull false, .deliver 0 10 15000, .read true 10 15000, .ackTask true, .pull true, .drop 0,
      .expire false 10, .pull false, .deliver 0 10 15000])
    (p := fun v => decide (v.a.rq.map (·.data) = [[7]] ∧ v.b.read = [7] ∧ v.net = [] ∧ v.b.thr = [] ∧ v.b.outC = [] ∧ v.b.outD = [] ∧
      v.b.ackSched = false ∧ v.b.winPending = false ∧ execA v [.expire false 10, .pull false, .deliver 0 10 15000] = some v)) (by decide +kernel)
  exact ⟨v, r, of_decide_eq_true h⟩

end Shadow.CTcp
