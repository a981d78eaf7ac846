import Verif.Tcp.StreamTheorems

/-!
# Runs of two connections: examples that meet the hypotheses, and counterexamples
-/
namespace Shadow.Tcp.Stream

open Shadow.Base

theorem exec1_step {w w' : World} {a : Act} (h : exec1 w a = some w') : Step w w' := by
  cases a with
  | callA c =>
    simp only [exec1] at h
    split at h
    · rename_i a' o heq; cases h; exact .callA heq
    · cases h
  | callB c =>
    simp only [exec1] at h
    split at h
    · rename_i a' o heq; cases h; exact .callB heq
    · cases h
  | toA i =>
    simp only [exec1] at h
    split at h
    · cases h
    · rename_i p hp
      split at h
      · rename_i hf
        split at h
        · rename_i heq; cases h; exact .toA (List.mem_of_getElem? hp) hf heq
        · cases h
      · cases h
  | toB i =>
    simp only [exec1] at h
    split at h
    · cases h
    · rename_i p hp
      split at h
      · rename_i hf
        split at h
        · rename_i heq; cases h; exact .toB (List.mem_of_getElem? hp) hf heq
        · cases h
      · cases h

theorem exec_reach {w0 w w' : World} {l : List Act} (h0 : Reach w0 w) (h : exec w l = some w') : Reach w0 w' := by
  induction l generalizing w with
  | nil => cases h; exact h0
  | cons a l ih =>
    simp only [exec] at h
    split at h
    · cases h
    · rename_i w1 heq
      exact ih (.step h0 (exec1_step heq)) h

def addrA : Addr := ⟨1, 10⟩
def addrB : Addr := ⟨2, 20⟩

/-- Initial sequence numbers just below the wrap. -/
def w0 : World := init addrA addrB 4294967294 4294967290 true true

theorem reachable_of_exec {l : List Act} {w : World} (h : exec w0 l = some w) : Reachable w :=
  ⟨addrA, addrB, 4294967294, 4294967290, true, true, by decide, by decide, exec_reach .refl h⟩

/-- The handshake: SYN, SYN-ACK, ACK. -/
def handshake : List Act :=
  [.callA .pop, .toB 0, .callB .pop, .toA 0, .callA .pop, .toB 1]

/-- After the handshake, `A` sends three packets; they arrive in the order 3, 1, 1, 2, 3, and `B`
    reads twice. -/
def transfer : List Act :=
  handshake ++
  [.callA (.send [1, 2, 3] 3), .callA .pop, .callA (.send [4, 5] 2), .callA .pop, .callA (.send [6] 1), .callA .fin, .callA .pop,
   .toB 4, .toB 2, .toB 2, .callB (.recv 2 10), .toB 3, .callB .pop, .toA 1, .toB 4, .callB (.recv 10 10)]

/-- `B` reads all six bytes in order and has seen the FIN, although packets were reordered and
    duplicated, and although the sequence numbers wrap. -/
example : (exec w0 transfer).map (fun w => (w.b.out, w.b.failed, w.b.conn.receivedFin, w.a.written, w.fromA.length)) =
    some ([1, 2, 3, 4, 5, 6], false, true, [1, 2, 3, 4, 5, 6], 5) := by decide +kernel

example : ∃ w, Reachable w ∧ w.b.out = [1, 2, 3, 4, 5, 6] ∧ w.b.conn.receivedFin = true := by
  cases h : exec w0 transfer with
  | none => exact absurd h (by decide +kernel)
  | some w =>
    refine ⟨w, reachable_of_exec h, ?_⟩
    have h2 : (exec w0 transfer).map (fun w => (w.b.out, w.b.conn.receivedFin)) = some ([1, 2, 3, 4, 5, 6], true) := by
      decide +kernel
    rw [h] at h2
    simp only [Option.map_some, Option.some.injEq, Prod.mk.injEq] at h2
    exact h2

/-- The hypotheses of `C31_in_order` in a run: the third packet of `A` starts where `B` is. -/
example : (exec w0 (handshake ++ [.callA (.send [1, 2, 3] 3), .callA .pop])).map (fun w =>
    (w.b.conn.recv.map (fun r => (r.buffer.endSeq, r.isClosed)), (w.fromA[2]?).map (fun p => (p.hd.seq, p.hd.flags)),
      w.b.conn.isReset, w.b.conn.sendRstIfRecvPayload, w.b.conn.scaling.isConfigured)) =
    some (some (4294967295, false), some (4294967295, { ack := true }), false, false, true) := by decide +kernel

/-! ### A read that fails half-way loses bytes -/

/-- `A` writes five bytes; `B`'s first read asks for three but its buffer takes only two. -/
def failing : List Act :=
  handshake ++
  [.callA (.send [1, 2, 3, 4, 5] 5), .callA .pop, .toB 2, .callB (.recv 3 2), .callB (.recv 10 10)]

/-- The general statement of C31 is false for readers whose writes fail: the byte `3` was taken out
    of the receive buffer and is gone; the next read goes on with `4`. -/
theorem C31_failed_read_gap : ∃ w, Reachable w ∧ w.b.out = [1, 2, 4, 5] ∧ w.a.written = [1, 2, 3, 4, 5] := by
  cases h : exec w0 failing with
  | none => exact absurd h (by decide +kernel)
  | some w =>
    refine ⟨w, reachable_of_exec h, ?_⟩
    have h2 : (exec w0 failing).map (fun w => (w.b.out, w.a.written)) = some ([1, 2, 4, 5], [1, 2, 3, 4, 5]) := by
      decide +kernel
    rw [h] at h2
    simp only [Option.map_some, Option.some.injEq, Prod.mk.injEq] at h2
    exact h2

/-! ### Packets that panic (C35) -/

def client : Conn := Conn.new addrA addrB 100 true

/-- A connecting socket (its SYN is on the way) that receives a packet without SYN and RST panics. -/
theorem C35_syn_sent_panics : ∃ c hd, ConnReach c ∧ c.isReset = false ∧ c.scaling.sentSyn = true ∧
    c.packetAddrsMatch hd = true ∧ c.pushPacket hd [] = .panic := by
  refine ⟨_, { src := addrB, dst := addrA, flags := { ack := true }, seq := 0, ack := 101, windowSize := 1000, windowScale := none },
    .step (.new addrA addrB 100 true (by decide)) (.pop (c' := (match client.popPacket with
      | .ok (c, _) => c
      | .panic => client)) (o := (match client.popPacket with
      | .ok (_, o) => o
      | .panic => none)) ?_), ?_, ?_, ?_, ?_⟩
  · decide +kernel
  all_goals decide +kernel

def synTo (w : Nat) : Header :=
  { src := addrB, dst := addrA, flags := { syn := true }, seq := 7, ack := 0, windowSize := w, windowScale := some 2 }

def afterSynOf (w : Nat) : Conn := match client.pushPacket (synTo w) [] with
  | .ok (c, _) => c
  | .panic => client

theorem reach_afterSyn (w : Nat) (hw : w < 65536) (h : client.pushPacket (synTo w) [] = .ok (afterSynOf w, 0)) :
    ConnReach (afterSynOf w) :=
  .step (.new addrA addrB 100 true (by decide)) (.push h hw (by decide))

/-- A SYN with a zero window makes the reply panic: the SYN-ACK does not fit in the window, and the
    check for an empty packet asks for a window scale that is not settled. -/
theorem C35_zero_window_syn_panics : ConnReach (afterSynOf 0) ∧ (afterSynOf 0).isReset = false ∧
    (afterSynOf 0).popPacket = .panic ∧ (afterSynOf 0).wantsToSend = .panic :=
  ⟨reach_afterSyn 0 (by decide) (by decide +kernel), by decide +kernel, by decide +kernel, by decide +kernel⟩

/-- A passive connection that has not sent its SYN-ACK yet panics on a data packet. -/
theorem C35_early_data_panics : ConnReach (afterSynOf 1000) ∧ (afterSynOf 1000).isReset = false ∧
    ∃ hd pl, (afterSynOf 1000).packetAddrsMatch hd = true ∧ pl.flatten.length = 1 ∧
      (afterSynOf 1000).pushPacket hd pl = .panic :=
  ⟨reach_afterSyn 1000 (by decide) (by decide +kernel), by decide +kernel,
    { src := addrB, dst := addrA, flags := {}, seq := 8, ack := 0, windowSize := 1000, windowScale := none }, [[9]],
    by decide +kernel, by decide +kernel, by decide +kernel⟩

/-- Resetting a passive connection before its SYN-ACK was sent panics when the RST is sent. -/
theorem C35_early_reset_panics : ConnReach (afterSynOf 1000).sendRst ∧ (afterSynOf 1000).sendRst.popPacket = .panic :=
  ⟨.step (reach_afterSyn 1000 (by decide) (by decide +kernel)) .reset, by decide +kernel⟩

/-- The hypotheses of `C35_pop_partial` hold once the SYN-ACK has been sent. -/
example : ∃ c, ConnReach c ∧ c.scaling.isConfigured = true ∧ c.recv.isSome = true := by
  refine ⟨_, .step (reach_afterSyn 1000 (by decide) (by decide +kernel)) (.pop (c' := (match (afterSynOf 1000).popPacket with
      | .ok (c, _) => c
      | .panic => client)) (o := (match (afterSynOf 1000).popPacket with
      | .ok (_, o) => o
      | .panic => none)) (by decide +kernel)), by decide +kernel, by decide +kernel⟩

/-! ### Acknowledgements of bytes that were not sent -/

/-- `A` after the handshake with three bytes in its send buffer. -/
def loaded : Option Conn := (exec w0 (handshake ++ [.callA (.send [1, 2, 3] 3)])).map (fun w => w.a.conn)

/-- The peer acknowledges the SYN and two of the bytes, none of which was sent. -/
def eager : Header :=
  { src := addrB, dst := addrA, flags := { ack := true }, seq := 4294967291, ack := 1, windowSize := 1000, windowScale := none }

/-- An acknowledgement of bytes that are still waiting to be sent is accepted, and it stops the
    transmission: the third byte is in the send buffer and in the window, and nothing is sent. -/
theorem C35_unsent_ack_stalls : (loaded.map (fun c => match c.pushPacket eager [] with
    | .ok (c', _) => (decide (c'.send.buffer.len = 1 ∧ 1000 ≤ c'.send.window),
        match c'.nextDataSegment with
        | .ok none => true
        | _ => false)
    | .panic => (false, false))) = some (true, true) := by decide +kernel

end Shadow.Tcp.Stream
