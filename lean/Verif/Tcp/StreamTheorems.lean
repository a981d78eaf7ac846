import Verif.Tcp.StreamProps

/-!
# C31, C32, C35 and C36 for connections

The theorems about two endpoints quantify over every reachable world: any calls, any order of
delivery, any duplication and loss.  The theorems about panics quantify over every connection that
calls and arbitrary packets can produce.
-/
namespace Shadow.Tcp.Stream

open Shadow.Base SeqAt SeqProps SendProps TrimProps RecvProps ConnProps

/-- An arbitrary pair of endpoints of which nothing has been sent yet, and a world reached from
    there. -/
def Reachable (w : World) : Prop :=
  ∃ addrA addrB issA issB sa sb, issA < M ∧ issB < M ∧ Reach (init addrA addrB issA issB sa sb) w

theorem Reachable.inv {w : World} (h : Reachable w) : ∃ ax ay, Inv2 w.a w.b w.fromA w.fromB ax ay := by
  obtain ⟨addrA, addrB, issA, issB, sa, sb, hA, hB, h⟩ := h
  exact inv_reach hA hB h

/-! ### The stream is a prefix -/

theorem recvItems_prefix {s f fin : Bool} {b bs : List Byte} (hs : s = true)
    (h : recvItems s b f <+: streamItems bs fin) : b <+: bs ∧ (f = true → fin = true ∧ b = bs) := by
  subst hs
  have h' : b.map Item.byte ++ (if f then [.fin] else []) <+: bs.map Item.byte ++ (if fin then [.fin] else []) := by
    simp only [recvItems, streamItems, if_true, List.singleton_append] at h
    simpa using h
  clear h
  induction b generalizing bs with
  | nil =>
    refine ⟨List.nil_prefix, fun hf => ?_⟩
    subst hf
    cases bs with
    | nil => cases fin <;> simp at h' ⊢
    | cons x l => simp at h'
  | cons x l ih =>
    cases bs with
    | nil => cases fin <;> simp at h'
    | cons y l2 =>
      simp only [List.map_cons, List.cons_append, List.cons_prefix_cons, Item.byte.injEq] at h'
      obtain ⟨rfl, h'⟩ := h'
      obtain ⟨k1, k2⟩ := ih h'
      refine ⟨by simpa using k1, fun hf => ⟨(k2 hf).1, by rw [(k2 hf).2]⟩⟩

theorem got_prefix {x y : Side} {irs ay : Nat} (hy : SideOk irs ay y) (h : y.got <+: x.stream) :
    y.taken ++ buffered y.conn <+: x.written ∧
      (y.conn.receivedFin = true → x.conn.send.buffer.finAdded = true ∧ y.taken ++ buffered y.conn = x.written) := by
  unfold Side.got Conn.got at h
  unfold buffered Conn.receivedFin
  cases hr : y.conn.recv with
  | none =>
    have := hy.inv.rnone hr
    rw [this]
    refine ⟨List.nil_prefix, (fun hh => by cases hh)⟩
  | some r =>
    rw [hr] at h
    simp only at h ⊢
    have hok := (hy.inv.recv r hr).1
    cases hs : r.buffer.synAdded with
    | true =>
      unfold ConnRecv.items at h
      obtain ⟨k1, k2⟩ := recvItems_prefix hs h
      exact ⟨k1, fun hh => k2 (by rw [← hok.closed]; exact hh)⟩
    | false =>
      obtain ⟨e1, e2⟩ := hok.noSyn hs
      rw [e1, e2]
      refine ⟨List.nil_prefix, fun hh => ?_⟩
      rw [hok.closed] at hh
      rw [hok.finSyn hh] at hs
      cases hs

/-- C31: whatever was received (already taken out, then still buffered) is a prefix of what the
    peer has written, in both directions. -/
theorem C31_received_prefix {w : World} (h : Reachable w) :
    w.b.taken ++ buffered w.b.conn <+: w.a.written ∧ w.a.taken ++ buffered w.a.conn <+: w.b.written := by
  obtain ⟨ax, ay, h⟩ := h.inv
  exact ⟨(got_prefix h.cy h.xy).1, (got_prefix h.cx h.yx).1⟩

/-- C31: the bytes that the application has read are a prefix of the bytes that the peer has
    written, as long as none of its reads failed half-way. -/
theorem C31_read_prefix {w : World} (h : Reachable w) :
    (w.b.failed = false → w.b.out <+: w.a.written) ∧ (w.a.failed = false → w.a.out <+: w.b.written) := by
  obtain ⟨h1, h2⟩ := C31_received_prefix h
  obtain ⟨ax, ay, h⟩ := h.inv
  refine ⟨fun hf => ?_, fun hf => ?_⟩
  · rw [h.cy.full hf]; exact (List.prefix_append _ _).trans h1
  · rw [h.cx.full hf]; exact (List.prefix_append _ _).trans h2

/-- C31: even when reads failed, what was read are bytes of the peer's stream in their order, none
    twice. -/
theorem C31_read_sublist {w : World} (h : Reachable w) :
    w.b.out.Sublist w.a.written ∧ w.a.out.Sublist w.b.written := by
  obtain ⟨h1, h2⟩ := C31_received_prefix h
  obtain ⟨ax, ay, h⟩ := h.inv
  exact ⟨h.cy.out.trans ((List.prefix_append _ _).trans h1).sublist, h.cx.out.trans ((List.prefix_append _ _).trans h2).sublist⟩

/-- C31: a write that returns `n` has written the first `n` bytes of the caller's buffer. -/
theorem C31_write_ok {w : World} (h : Reachable w) (hopen : w.a.conn.send.isClosed = false) (src : List Byte) (n : Nat) :
    ∃ a' res, w.a.conn.sendData src n = .ok (a', res) ∧ ∃ s', w.a.call (.send src n) = .ok (s', none) ∧ s'.conn = a' ∧
      (∀ m, res = .ok m → m ≤ n ∧ m ≤ src.length ∧ s'.written = w.a.written ++ src.take m) ∧
      (res = .full → s'.written = w.a.written) := by
  obtain ⟨ax, ay, h⟩ := h.inv
  have hi := h.cx.inv
  have hf : w.a.conn.send.buffer.finAdded = false := by rw [← hi.sclosed]; exact hopen
  obtain ⟨c2, res2, k, e, k1, k2, k3, k4, k5, k6, k7, k8, -⟩ := sendData_spec hi hf src n
  have hlen : c2.send.buffer.len - w.a.conn.send.buffer.len = k := by
    rw [k3.send.len, hi.send.len, hf, k4, streamItems_length, streamItems_length, List.length_append,
      List.length_take]
    have := hi.send.le
    rw [hf, streamItems_length] at this
    omega
  refine ⟨c2, res2, e, _, by simp only [Side.call, e, R.bind_ok, R.pure_eq]; rfl, rfl, ?_, ?_⟩
  · intro m hm
    have := (k7 m hm).1
    subst this
    refine ⟨k1, k2, ?_⟩
    simp only [hlen]
  · intro hm
    have := (k8 hm).1
    subst this
    simp only [hlen, List.take_zero, List.append_nil]

/-! ### Small streams need no assumption about the lifetime of packets -/

inductive StepAny : World → World → Prop where
  | callA {w c a' o} : w.a.call c = .ok (a', o) → StepAny w { w with a := a', fromA := w.fromA ++ o.toList }
  | callB {w c b' o} : w.b.call c = .ok (b', o) → StepAny w { w with b := b', fromB := w.fromB ++ o.toList }
  | toA {w p a'} : p ∈ w.fromB → w.a.push p = .ok a' → StepAny w { w with a := a' }
  | toB {w p b'} : p ∈ w.fromA → w.b.push p = .ok b' → StepAny w { w with b := b' }

inductive ReachAny (w0 : World) : World → Prop where
  | refl : ReachAny w0 w0
  | step {w w'} : ReachAny w0 w → StepAny w w' → ReachAny w0 w'

theorem call_written {s s' : Side} {c o} (h : s.call c = .ok (s', o)) : s.written.length ≤ s'.written.length := by
  cases c <;> simp only [Side.call, R.bind_eq_ok, R.pure_eq, R.ok.injEq, Prod.mk.injEq] at h
  · obtain ⟨x, -, rfl, -⟩ := h; simp
  · obtain ⟨x, -, rfl, -⟩ := h; simp
  · obtain ⟨x, -, rfl, -⟩ := h; simp
  · obtain ⟨rfl, -⟩ := h; simp
  · obtain ⟨rfl, -⟩ := h; simp
  · obtain ⟨x, -, rfl, -⟩ := h; simp

theorem push_written {s s' : Side} {p} (h : s.push p = .ok s') : s.written = s'.written := by
  simp only [Side.push, R.bind_eq_ok] at h
  obtain ⟨x, -, h⟩ := h
  cases h; rfl

/-- With fewer than `2^32 - 200010` bytes in each direction, the network may keep packets for ever:
    every packet is fresh. -/
theorem reach_of_small {addrA addrB issA issB sa sb w} (hA : issA < M) (hB : issB < M)
    (h : ReachAny (init addrA addrB issA issB sa sb) w)
    (h1 : w.a.written.length + 200010 ≤ M) (h2 : w.b.written.length + 200010 ≤ M) :
    Reach (init addrA addrB issA issB sa sb) w := by
  induction h with
  | refl => exact .refl
  | @step w w' h hs ih =>
    cases hs with
    | callA hc =>
      have := call_written hc
      exact .step (ih (by simp only at h1; omega) h2) (.callA hc)
    | callB hc =>
      have := call_written hc
      exact .step (ih h1 (by simp only at h2; omega)) (.callB hc)
    | toA hp hx =>
      have hw := push_written hx
      simp only at h1
      rw [← hw] at h1
      have hr := ih h1 h2
      refine .step hr (.toA hp ⟨?_, ?_⟩ hx)
      · have := (C31_received_prefix (w := w) ⟨_, _, _, _, _, _, hA, hB, hr⟩).2.length_le
        rw [List.length_append] at this
        unfold Side.received
        simp only at h2
        omega
      · omega
    | toB hp hx =>
      have hw := push_written hx
      simp only at h2
      rw [← hw] at h2
      have hr := ih h1 h2
      refine .step hr (.toB hp ⟨?_, ?_⟩ hx)
      · have := (C31_received_prefix (w := w) ⟨_, _, _, _, _, _, hA, hB, hr⟩).1.length_le
        rw [List.length_append] at this
        unfold Side.received
        simp only at h1
        omega
      · omega

/-- C31 without an assumption about the age of packets, for streams below `2^32 - 200010` bytes. -/
theorem C31_small_streams {addrA addrB issA issB sa sb w} (hA : issA < M) (hB : issB < M)
    (h : ReachAny (init addrA addrB issA issB sa sb) w)
    (h1 : w.a.written.length + 200010 ≤ M) (h2 : w.b.written.length + 200010 ≤ M) :
    (w.b.failed = false → w.b.out <+: w.a.written) ∧ (w.a.failed = false → w.a.out <+: w.b.written) :=
  C31_read_prefix ⟨_, _, _, _, _, _, hA, hB, reach_of_small hA hB h h1 h2⟩

/-! ### In-order packets are not refused -/

/-- C31: a packet that starts exactly where the received data ends is accepted: what fits in the
    window is appended. -/
theorem C31_in_order {w : World} (h : Reachable w) {p : Wire} (hp : p ∈ w.fromA) {r : ConnRecv}
    (hr : w.b.conn.recv = some r) (hopen : r.isClosed = false) (hsyn : p.hd.flags.syn = false)
    (hrst : p.hd.flags.rst = false) (hnr : w.b.conn.isReset = false)
    (hns : w.b.conn.sendRstIfRecvPayload = false) (hcfg : w.b.conn.scaling.isConfigured = true)
    (hseq : Seq.new p.hd.seq = r.buffer.endSeq) :
    ∃ b', w.b.push p = .ok b' ∧
      b'.got = w.b.got ++ (packetItems p.hd.flags p.pl).take (Conn.openWindow w.b.conn r) := by
  obtain ⟨ax, ay, h⟩ := h.inv
  obtain ⟨⟨sp, n, w1, w2, w3, w4, w5⟩, ww, wa⟩ := h.nx p hp
  have hL : (packetItems p.hd.flags p.pl).length ≤ n := by rw [w2, List.length_take]; omega
  have hok := (h.cy.inv.recv r hr).1
  have hgot : w.b.got = r.items w.b.taken := by simp [Side.got, Conn.got, hr]
  have hpl : Place w.a.iss (r.items w.b.taken).length ((r.items w.b.taken).length + M) p.hd p.pl := by
    refine ⟨by rw [hseq, hok.end, pos_add_M], by simp only [Conn.recvBufMax]; omega, by omega⟩
  have ho := pushPacket_spec h.cy.inv (hd := p.hd) (pl := p.pl) (p := (r.items w.b.taken).length + M)
    (by simp only [Conn.recvBufMax]; omega) (fun r' hr' => by rw [hr] at hr'; cases hr'; exact hpl)
  have hslice : inWindow w.b.taken w.b.conn r ((r.items w.b.taken).length + M) p.hd p.pl =
      (packetItems p.hd.flags p.pl).take (Conn.openWindow w.b.conn r) := by
    simp only [inWindow, slice, Nat.sub_self, List.drop_zero, Nat.max_self, Nat.add_sub_cancel_left]
  have hnosyn : Item.syn ∉ inWindow w.b.taken w.b.conn r ((r.items w.b.taken).length + M) p.hd p.pl := by
    rw [hslice]
    intro hh
    have := List.mem_of_mem_take hh
    rw [mem_syn, hsyn] at this
    cases this
  generalize hx : w.b.conn.pushPacket p.hd p.pl = x at ho
  cases ho with
  | afterReset hh => rw [hnr] at hh; cases hh
  | noSyn _ _ hh => rw [hr] at hh; cases hh
  | rst _ hh => rw [hrst] at hh; cases hh
  | first _ _ hh => rw [hr] at hh; cases hh
  | later _ _ hh ho =>
    rw [hr] at hh
    cases hh
    have fin : ∀ c' m, x = .ok (c', m) → c'.got w.b.taken = r.items w.b.taken ++ inWindow w.b.taken w.b.conn r ((r.items w.b.taken).length + M) p.hd p.pl →
        ∃ b', w.b.push p = .ok b' ∧
          b'.got = w.b.got ++ (packetItems p.hd.flags p.pl).take (Conn.openWindow w.b.conn r) := by
      intro c' m hxx hg
      refine ⟨{ w.b with conn := c' }, by simp only [Side.push, hx, hxx, R.bind_ok, R.pure_eq], ?_⟩
      rw [hgot, ← hslice]
      exact hg
    cases ho with
    | outside h1 h2 h3 =>
      refine fin _ _ rfl ?_
      rw [h1, List.append_nil]
      simp only [Conn.got, hr]
    | reset h1 =>
      exfalso
      rcases h1 with ⟨q, -⟩ | ⟨q, -⟩ | ⟨-, -, q⟩
      · rw [hns] at q; cases q
      · rw [hopen] at q; cases q
      · exact hnosyn q
    | noShift _ q => rw [hcfg] at q; cases q
    | accepted h1 h2 h3 =>
      refine fin _ _ rfl ?_
      obtain ⟨r', s', a', shift, e, k1, k2, k3, -⟩ := h2
      subst e
      rw [if_pos (Nat.le_refl _)] at k3
      exact k3

/-! ### End of stream -/

/-- C36: when the FIN has been received, everything that the peer has written before closing has
    been received, and the peer has indeed closed. -/
theorem C36_fin_complete {w : World} (h : Reachable w) :
    (w.b.conn.receivedFin = true → w.a.conn.send.isClosed = true ∧ w.b.taken ++ buffered w.b.conn = w.a.written) ∧
    (w.a.conn.receivedFin = true → w.b.conn.send.isClosed = true ∧ w.a.taken ++ buffered w.a.conn = w.b.written) := by
  obtain ⟨ax, ay, h⟩ := h.inv
  refine ⟨fun hh => ?_, fun hh => ?_⟩
  · obtain ⟨k1, k2⟩ := (got_prefix h.cy h.xy).2 hh
    exact ⟨by rw [h.cx.inv.sclosed]; exact k1, k2⟩
  · obtain ⟨k1, k2⟩ := (got_prefix h.cx h.yx).2 hh
    exact ⟨by rw [h.cy.inv.sclosed]; exact k1, k2⟩

/-- C36: a reader that finds the buffer empty after the FIN has read all that was written. -/
theorem C36_drained {w : World} (h : Reachable w) (hf : w.b.conn.receivedFin = true) (hn : w.b.failed = false)
    {n cap : Nat} {c' out} (hr : w.b.conn.recvData n cap = .ok (c', out, .empty)) : w.b.out = w.a.written := by
  have h1 := (C36_fin_complete h).1 hf
  obtain ⟨ax, ay, h⟩ := h.inv
  cases hrv : w.b.conn.recv with
  | none => unfold Conn.recvData at hr; rw [hrv] at hr; cases hr
  | some r =>
    obtain ⟨c2, out2, res2, D, e, -, -, -, -, -, k6, -⟩ := recvData_spec h.cy.inv hrv n cap
    rw [e] at hr
    cases hr
    have hnil := k6.1 rfl
    rw [h.cy.full hn, ← h1.2]
    simp [buffered, hrv, hnil]

theorem got_fin {irs ay : Nat} {y : Side} (hy : SideOk irs ay y) : y.conn.receivedFin = true ↔ Item.fin ∈ y.got := by
  unfold Side.got Conn.got Conn.receivedFin
  cases hr : y.conn.recv with
  | none => simp
  | some r =>
    simp only
    rw [(hy.inv.recv r hr).1.closed]
    unfold ConnRecv.items recvItems
    generalize y.taken ++ r.buffer.segments.flatten = l
    cases r.buffer.synAdded <;> cases r.buffer.finAdded <;> simp

theorem stream_closed {x x' : Side} (h : x.stream <+: x'.stream) (hf : x.conn.send.buffer.finAdded = true) :
    x'.written = x.written ∧ x'.conn.send.buffer.finAdded = true := by
  unfold Side.stream at h
  rw [hf] at h
  have h2 : recvItems true x.written true <+: streamItems x'.written x'.conn.send.buffer.finAdded := h
  obtain ⟨-, k⟩ := recvItems_prefix rfl h2
  exact ⟨(k rfl).2.symm, (k rfl).1⟩

theorem step_mono {w w' : World} (h : Reachable w) (hs : Step w w') :
    w.b.got <+: w'.b.got ∧ w.a.stream <+: w'.a.stream ∧ Reachable w' := by
  have hr : Reachable w' := by
    obtain ⟨addrA, addrB, issA, issB, sa, sb, hA, hB, h⟩ := h
    exact ⟨addrA, addrB, issA, issB, sa, sb, hA, hB, .step h hs⟩
  obtain ⟨ax, ay, h⟩ := h.inv
  cases hs with
  | callA hc =>
    obtain ⟨-, -, k, -⟩ := call_spec h.cx hc
    exact ⟨List.prefix_refl _, k, hr⟩
  | callB hc =>
    obtain ⟨-, -, -, k, -⟩ := call_spec h.cy hc
    exact ⟨by simp only [k]; exact List.prefix_refl _, List.prefix_refl _, hr⟩
  | toA hp hf hx =>
    obtain ⟨_, -, -, k⟩ := inv_push h hp hf hx
    exact ⟨List.prefix_refl _, by simp only [k]; exact List.prefix_refl _, hr⟩
  | toB hp hf hx =>
    obtain ⟨_, -, k, -⟩ := inv_push h.symm hp hf hx
    exact ⟨k, List.prefix_refl _, hr⟩

/-- C36: once the FIN has been received it stays so, and no byte is written or received any
    more. -/
theorem C36_nothing_after_fin {w w' : World} (h : Reachable w) (hs : Step w w') (hf : w.b.conn.receivedFin = true) :
    w'.b.conn.receivedFin = true ∧ w'.a.written = w.a.written ∧
      w'.b.taken ++ buffered w'.b.conn = w.b.taken ++ buffered w.b.conn := by
  obtain ⟨k1, k2, k3⟩ := step_mono h hs
  have c1 := (C36_fin_complete h).1 hf
  obtain ⟨ax, ay, i⟩ := h.inv
  obtain ⟨ax', ay', i'⟩ := k3.inv
  have hf' : w'.b.conn.receivedFin = true := (got_fin i'.cy).2 (k1.subset ((got_fin i.cy).1 hf))
  have c2 := (C36_fin_complete k3).1 hf'
  have hw := (stream_closed k2 (by rw [← i.cx.inv.sclosed]; exact c1.1)).1
  exact ⟨hf', hw, by rw [c2.2, hw, c1.2]⟩

/-! ### The send window -/

/-- C32: a packet carries at most 1500 bytes; what it carries lies in the window that starts at the
    first unacknowledged position and has the length that the peer advertised last; and it starts
    where the previous packet ended. -/
theorem C32_segment {iss bs a irs rd} {c c' : Conn} {hd : Header} {pl : Payload} (h : ConnInv iss bs a irs rd c)
    (hx : c.popPacket = .ok (c', some (hd, pl))) :
    pl.flatten.length ≤ 1500 ∧
    (0 < (packetItems hd.flags pl).length →
      Seq.sub hd.seq c.send.buffer.startSeq + (packetItems hd.flags pl).length ≤ c.send.window ∧
      hd.seq = c.send.buffer.transmittedUpTo) := by
  have hwin : c.send.window < M := by have := h.window; simp only [windowMax] at this; omega
  obtain ⟨p, n, k1, k2, -⟩ := popPacket_spec h.send hwin hx
  refine ⟨k2.max, fun hpos => ?_⟩
  have hit : packetItems hd.flags pl = ((streamItems bs c.send.buffer.finAdded).drop p).take n := k2.items
  have hle := k2.le
  have hge := k2.ge
  have hlt := h.send.lt
  have hn : (packetItems hd.flags pl).length = n := by
    rw [hit, List.length_take, List.length_drop]; omega
  obtain ⟨q1, q2⟩ := k2.window (by omega)
  rw [k1, h.send.start, sub_pos _ _ _ hge (by omega), hn]
  exact ⟨by omega, q2.symm⟩

/-- C32: the window is the one of the packet that was accepted last: its window field, scaled by the
    negotiated shift (by nothing in a SYN packet). -/
theorem C32_window_update {iss bs a irs rd} {c c' : Conn} {r : ConnRecv} {p m : Nat} {hd : Header} {pl : Payload}
    (h : Accepted iss bs a irs rd c r p hd pl c' m) :
    c'.send.window = hd.windowSize * 2 ^ (if hd.flags.syn then 0 else c.scaling.sendShiftRaw) := by
  obtain ⟨r', s', a', shift, e, -, -, -, k4, -, -, k7, -⟩ := h
  subst e
  simp only
  rw [k7]
  unfold Conn.windowShift at k4
  split at k4
  · rename_i hh; cases k4; rw [if_pos hh]
  · rename_i hh
    rw [if_neg hh]
    simp only [WindowScaling.sendWindowScaleShift, R.bind_eq_ok, R.assert_eq_ok] at k4
    obtain ⟨_, _, k4⟩ := k4
    cases k4; rfl

/-- C32: at most 100000 bytes wait in the receive buffer, and at most 100000 bytes (and the FIN) in
    the send buffer. -/
theorem C32_buffers {iss bs a irs rd} {c : Conn} (h : ConnInv iss bs a irs rd c) :
    (buffered c).length ≤ 100000 ∧ c.send.buffer.len ≤ 100000 + 1 := by
  constructor
  · unfold buffered
    cases hr : c.recv with
    | none => simp
    | some r => exact (h.recv r hr).1.cap
  · rw [h.send.len]
    have := h.send.bound
    have h2 : b2n c.send.buffer.finAdded ≤ 1 := by cases c.send.buffer.finAdded <;> simp [b2n]
    simp only [Conn.sendBufMax] at this
    omega

/-! ### Panics -/

/-- The operations on one connection: calls, and arbitrary packets (16-bit window field, payload
    below 2^31 bytes). -/
inductive ConnStep : Conn → Conn → Prop where
  | send {c c' src n res} : c.sendData src n = .ok (c', res) → c.send.isClosed = false → ConnStep c c'
  | recv {c c' n cap out res} : c.recvData n cap = .ok (c', out, res) → ConnStep c c'
  | fin {c c'} : c.sendFin = .ok c' → ConnStep c c'
  | reset {c} : ConnStep c c.sendRst
  | rstOnData {c} : ConnStep c c.setSendRstIfRecvPayload
  | pop {c c' o} : c.popPacket = .ok (c', o) → ConnStep c c'
  | push {c c' hd pl m} : c.pushPacket hd pl = .ok (c', m) → hd.windowSize < 65536 → pl.flatten.length < 2147483648 →
      ConnStep c c'

inductive ConnReach : Conn → Prop where
  | new (l r iss e) : iss < M → ConnReach (Conn.new l r iss e)
  | step {c c'} : ConnReach c → ConnStep c c' → ConnReach c'

theorem payload_bound {hd : Header} {pl : Payload} (h : pl.flatten.length < 2147483648) :
    (packetItems hd.flags pl).length + Conn.recvBufMax + 1 < M := by
  have := packetItems_length hd.flags pl
  have h1 : b2n hd.flags.syn ≤ 1 := by cases hd.flags.syn <;> simp [b2n]
  have h2 : b2n hd.flags.fin ≤ 1 := by cases hd.flags.fin <;> simp [b2n]
  simp only [Conn.recvBufMax]
  omega

/-- Every connection that can be produced satisfies the invariant. -/
theorem ConnReach.inv {c : Conn} (h : ConnReach c) : ∃ iss bs a irs rd, ConnInv iss bs a irs rd c := by
  induction h with
  | new l r iss e hi => exact ⟨iss, [], 0, 0, [], inv_new l r iss e hi 0⟩
  | step _ hs ih =>
    obtain ⟨iss, bs, a, irs, rd, ih⟩ := ih
    cases hs with
    | send hx hc =>
      obtain ⟨_, _, k, e, -, -, k3, -⟩ := sendData_spec ih (by rw [← ih.sclosed]; exact hc) _ _
      rw [e] at hx; cases hx
      exact ⟨_, _, _, _, _, k3⟩
    | recv hx =>
      rename_i c _ _ _ _ _ _
      cases hr : c.recv with
      | none => unfold Conn.recvData at hx; rw [hr] at hx; cases hx
      | some r =>
        obtain ⟨_, _, _, D, e, k1, -⟩ := recvData_spec ih hr _ _
        rw [e] at hx; cases hx
        exact ⟨_, _, _, _, _, k1⟩
    | fin hx =>
      rename_i c _ _
      cases hf : c.send.buffer.finAdded with
      | true => rw [sendFin_twice ih hf] at hx; cases hx
      | false =>
        obtain ⟨_, e, k1, -⟩ := sendFin_spec ih hf
        rw [e] at hx; cases hx
        exact ⟨_, _, _, _, _, k1⟩
    | reset => exact ⟨_, _, _, _, _, sendRst_inv ih⟩
    | rstOnData => exact ⟨_, _, _, _, _, setSendRst_inv ih⟩
    | pop hx =>
      rename_i o
      cases o with
      | none => have := popPacket_none hx; subst this; exact ⟨_, _, _, _, _, ih⟩
      | some x => exact ⟨_, _, _, _, _, (popPacket_inv ih (hd := x.1) (pl := x.2) hx).1⟩
    | push hx hw hp =>
      obtain ⟨a', irs', -, k, -⟩ := pushPacket_inv ih hw (payload_bound hp) hx
      exact ⟨_, _, _, _, _, k⟩

/-- C32: in every connection that can be produced, a packet carries at most 1500 bytes of payload,
    and everything that takes sequence space in it lies in the window that starts at the first
    unacknowledged position; it starts where the last transmission ended. -/
theorem C32_in_window {c c' : Conn} {hd : Header} {pl : Payload} (h : ConnReach c)
    (hx : c.popPacket = .ok (c', some (hd, pl))) :
    pl.flatten.length ≤ 1500 ∧
    (0 < (packetItems hd.flags pl).length →
      Seq.sub hd.seq c.send.buffer.startSeq + (packetItems hd.flags pl).length ≤ c.send.window ∧
      hd.seq = c.send.buffer.transmittedUpTo) := by
  obtain ⟨iss, bs, a, irs, rd, h⟩ := h.inv
  exact C32_segment h hx

/-- C32: that window is the one of the last accepted packet, scaled by the shift of the peer's SYN
    (window fields of SYN packets are not scaled); all other packets leave it as it was. -/
theorem C32_window {c c' : Conn} {m : Nat} {hd : Header} {pl : Payload} (h : ConnReach c)
    (hpl : pl.flatten.length < 2147483648) (hx : c.pushPacket hd pl = .ok (c', m)) :
    c'.send.window = c.send.window ∨
      (hd.flags.rst = false ∧ c'.isReset = false ∧ ∃ r', c'.recv = some r' ∧
        c'.send.window = hd.windowSize * 2 ^ (if hd.flags.syn then 0 else c.scaling.sendShiftRaw)) := by
  obtain ⟨iss, bs, a, irs, rd, h⟩ := h.inv
  have hL := payload_bound (hd := hd) hpl
  have key : ∃ p, PushOutcome iss bs a irs rd c p hd pl (.ok (c', m)) := by
    cases hr : c.recv with
    | none => exact ⟨0, by rw [← hx]; exact pushPacket_spec h hL (fun r hh => by rw [hr] at hh; cases hh)⟩
    | some r =>
      obtain ⟨p, hpp⟩ := exists_place irs (r.items rd).length hd pl hL
      exact ⟨p, by rw [← hx]; exact pushPacket_spec h hL (fun r' hh => by rw [hr] at hh; cases hh; exact hpp)⟩
  obtain ⟨p, ho⟩ := key
  generalize hy : (R.ok (c', m) : R (Conn × Nat)) = x at ho
  cases ho with
  | afterReset => cases hy
  | noSyn => cases hy
  | rst h1 h2 =>
    cases hy
    left
    unfold Conn.pushRst
    split
    · rfl
    · split
      · rfl
      · split <;> rfl
  | first h1 h2 h3 h4 h5 =>
    subst hy
    generalize hy : (R.ok (c', m) : R (Conn × Nat)) = x at h5
    cases h5 with
    | noShift => cases hy
    | outside => cases hy; exact .inl rfl
    | reset => cases hy; exact .inl rfl
    | accepted q1 q2 =>
      cases hy
      right
      have := C32_window_update q2
      rw [h4, if_pos rfl] at this
      rw [h4, if_pos rfl]
      obtain ⟨r', s', a', shift, e, -⟩ := q2
      exact ⟨h2, by rw [e]; exact h1, r', by rw [e], this⟩
  | later h1 h2 h3 h5 =>
    subst hy
    generalize hy : (R.ok (c', m) : R (Conn × Nat)) = x at h5
    cases h5 with
    | noShift => cases hy
    | outside => cases hy; exact .inl rfl
    | reset => cases hy; exact .inl rfl
    | accepted q1 q2 =>
      cases hy
      right
      have := C32_window_update q2
      obtain ⟨r', s', a', shift, e, -⟩ := q2
      exact ⟨h2, by rw [e]; exact h1, r', by rw [e], this⟩

/-- C35: a packet panics only in one of three states: the connection was reset before; no SYN was
    received yet and the packet is neither a SYN nor a RST; the connection has not sent its own SYN
    (so that window scaling is not settled) and the packet is neither a SYN nor a RST. -/
theorem C35_push_partial {c : Conn} (h : ConnReach c) {hd : Header} {pl : Payload}
    (hpl : pl.flatten.length < 2147483648) (hp : c.pushPacket hd pl = .panic) :
    c.isReset = true ∨
      (hd.flags.syn = false ∧ hd.flags.rst = false ∧
        (c.recv = none ∨ (c.scaling.sentSyn = false ∧ c.scaling.disabled = false))) := by
  obtain ⟨iss, bs, a, irs, rd, h⟩ := h.inv
  have hL := payload_bound (hd := hd) hpl
  have key : ∃ p, PushOutcome iss bs a irs rd c p hd pl .panic := by
    cases hr : c.recv with
    | none => exact ⟨0, by rw [← hp]; exact pushPacket_spec h hL (fun r hh => by rw [hr] at hh; cases hh)⟩
    | some r =>
      obtain ⟨p, hpp⟩ := exists_place irs (r.items rd).length hd pl hL
      exact ⟨p, by rw [← hp]; exact pushPacket_spec h hL (fun r' hh => by rw [hr] at hh; cases hh; exact hpp)⟩
  obtain ⟨p, ho⟩ := key
  generalize hx : (R.panic : R (Conn × Nat)) = x at ho
  cases ho with
  | afterReset hh => exact .inl hh
  | noSyn h1 h2 h3 h4 => exact .inr ⟨h4, h2, .inl h3⟩
  | rst => cases hx
  | first h1 h2 h3 h4 h5 =>
    subst hx
    generalize hx : (R.panic : R (Conn × Nat)) = x at h5
    cases h5 with
    | noShift q => rw [h4] at q; cases q
    | outside => cases hx
    | reset => cases hx
    | accepted => cases hx
  | later h1 h2 h3 h5 =>
    subst hx
    generalize hx : (R.panic : R (Conn × Nat)) = x at h5
    cases h5 with
    | noShift q1 q2 q3 =>
      right
      refine ⟨q1, h2, .inr ?_⟩
      have hrs := h.rsyn
      rw [h3] at hrs
      unfold WindowScaling.isConfigured at q2
      rw [hrs] at q2
      simp only [Option.isSome_some, Bool.and_true, Bool.or_eq_false_iff] at q2
      exact ⟨q2.2, q2.1⟩
    | outside => cases hx
    | reset => cases hx
    | accepted => cases hx

/-- C35: sending never panics in a connection that has sent its SYN and received the peer's (or has
    scaling disabled), nor in one that has not received anything and is not reset. -/
theorem C35_pop_partial {c : Conn} (h : ConnReach c)
    (hc : c.scaling.isConfigured = true ∨ (c.recv = none ∧ c.needToSendRst = false)) :
    ∃ x, c.popPacket = .ok x := by
  obtain ⟨iss, bs, a, irs, rd, h⟩ := h.inv
  have hwin : c.send.window < M := by have := h.window; simp only [windowMax] at this; omega
  obtain ⟨p, e, h1, h2, h3⟩ := emptySeq_spec h.send
  have hwe : ∃ b, c.wantsEmpty = .ok b := by
    unfold Conn.wantsEmpty
    cases hr : c.recv with
    | none =>
      have : c.recvWindow = none := by unfold Conn.recvWindow; rw [hr]
      rw [this]; exact ⟨_, rfl⟩
    | some r =>
      rw [recvWindow_spec hr (h.recv r hr).1]
      have hcfg : c.scaling.isConfigured = true := by
        rcases hc with hh | ⟨hh, -⟩
        · exact hh
        · rw [hr] at hh; cases hh
      simp only [WindowScaling.recvWindowScaleShift, hcfg, R.assert_true, R.bind_ok, R.pure_eq]
      exact ⟨_, rfl⟩
  have hns : ∃ x, c.nextSegment = .ok x := by
    unfold Conn.nextSegment
    by_cases hrst : c.needToSendRst = true
    · rw [if_pos hrst, e]; exact ⟨_, rfl⟩
    · rw [if_neg hrst]
      by_cases hres : c.isReset = true
      · rw [if_pos hres]; exact ⟨_, rfl⟩
      · rw [if_neg hres]
        obtain ⟨b, hb⟩ := hwe
        rcases nextDataSegment_spec h.send hwin with ⟨e1, -⟩ | ⟨p', n, f1, pl1, e1, -⟩
        · rw [e1, R.bind_ok]
          simp only [hb, R.bind_ok]
          cases b with
          | false => exact ⟨_, rfl⟩
          | true =>
            simp only [if_true, e, R.bind_ok, R.pure_eq]
            split <;> exact ⟨_, rfl⟩
        · rw [e1, R.bind_ok]
          simp only [R.pure_eq, R.bind_ok]
          split <;> exact ⟨_, rfl⟩
  obtain ⟨x, hx⟩ := hns
  unfold Conn.popPacket
  rw [hx, R.bind_ok]
  cases x with
  | none => exact ⟨_, rfl⟩
  | some y =>
    obtain ⟨r, f, pl⟩ := y
    obtain ⟨p, n, rfl, hseg, hr1, hr2, hr3, hr4⟩ := nextSegment_spec h.send hwin hx r f pl rfl
    have hsyn : f.syn = true → c.scaling.sentSyn = false := by
      intro hs
      have hsy : [Item.syn] <+: (streamItems bs c.send.buffer.finAdded).drop p := by
        have hh : (packetItems f pl).head? = some .syn := head_syn.2 hs
        rw [hseg.items] at hh
        cases hd : (streamItems bs c.send.buffer.finAdded).drop p with
        | nil => rw [hd] at hh; simp at hh
        | cons z l =>
          rw [hd] at hh
          cases n with
          | zero => simp at hh
          | succ n => simp at hh; subst hh; exact ⟨l, rfl⟩
      have hp0 := syn_at hsy
      subst hp0
      have ha : a = 0 := by have := hseg.ge; omega
      cases hss : c.scaling.sentSyn with
      | false => rfl
      | true =>
        have htx := h.sent hss ha
        rcases hseg.tx with ht | ht
        · exact absurd ht htx
        · rw [streamItems_length] at ht; omega
    have hcfg : f.syn = false → c.scaling.isConfigured = true := by
      intro hs
      rcases hc with hh | ⟨-, hh⟩
      · exact hh
      · exact hr3 (by rw [hr1]; exact hh) hs
    obtain ⟨w, hw, hw1, -⟩ := windowFields_spec h f.syn hsyn hcfg
    obtain ⟨hm, -⟩ := markAsTransmitted_spec h.send (p := p + n) (by have := hseg.ge; omega) hseg.le
    simp only [hw, R.bind_ok, hw1, decide_true, R.assert_true, hm]
    cases hrst : f.rst with
    | false => exact ⟨_, rfl⟩
    | true =>
      rw [hr1] at hrst
      simp only [hrst, if_true, R.assert_true, R.bind_ok]
      exact ⟨_, rfl⟩

end Shadow.Tcp.Stream
