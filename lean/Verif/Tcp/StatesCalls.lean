import Verif.Tcp.StatesTheorems

/-!
# Calls on a TCP socket: results, end of stream, and absence of panics
-/
namespace Shadow.Tcp

open Shadow.Base Shadow.Tcp.ConnProps Shadow.Tcp.StatesProps Shadow.Tcp.ListenProps Shadow.Tcp.Stream Shadow.Tcp.RecvProps Shadow.Tcp.SendProps

/-- `c.buffered`: what is received but not read. -/
def Tcp.pending (t : Tcp) : List Byte :=
  match t.st with
  | .on _ c => buffered c
  | .rst .. => []
  | .closed b _ => b.segments.flatten

/-! ### Reading -/

/-- **C36**: the result of `recv` in a connection state.  It never panics; it reports end of stream
    exactly when nothing is left to read and the state has seen the FIN, "try again" exactly when
    nothing is left and the state has not seen it, and gives as much as possible otherwise. -/
theorem C36_recv {k : Kind} {c : Conn} {err : Option TcpErr} (h : SReach (.conn ⟨.on k c, err⟩)) (n cap : Nat) :
    ∃ t' out r, Tcp.recv ⟨.on k c, err⟩ n cap = .ok (t', out, r) ∧
      (r = .err .notConnected ↔ k = .synSent ∨ k = .synReceived) ∧
      (r = .err .streamClosed ↔ buffered c = [] ∧ (k = .closing ∨ k = .timeWait ∨ k = .closeWait ∨ k = .lastAck)) ∧
      (r = .err .empty ↔ buffered c = [] ∧ (k = .established ∨ k = .finWaitOne ∨ k = .finWaitTwo)) ∧
      (∀ m, r = .ok m → m = out.length ∧ m = min n (buffered c).length ∧ buffered c ≠ [] ∧
        buffered c = out ++ t'.pending) ∧
      (r = .err .io → out.length = cap ∧ out <+: buffered c) := by
  have hok : OnOk k c := h.ok
  by_cases hk : k = .synSent ∨ k = .synReceived
  · refine ⟨⟨.on k c, err⟩, [], .err .notConnected, ?_, ?_, ?_, ?_, ?_, ?_⟩
    · simp only [Tcp.recv]
      rw [if_pos hk]
    · simp [hk]
    · rcases hk with rfl | rfl <;> simp
    · rcases hk with rfl | rfl <;> simp
    · intro m hm; cases hm
    · intro hm; cases hm
  · obtain ⟨iss, bs, a, irs, rd, hi⟩ := hok.reach.inv
    have hrs : c.recv.isSome = true := hok.syn.2 (fun e => hk (Or.inl e))
    obtain ⟨r, hr⟩ := Option.isSome_iff_exists.1 hrs
    obtain ⟨c', out, res, D, e, -, -, e3, -, e5, e6, e7, e8, -, q, e9, e10⟩ := recvData_spec hi hr n cap
    have hb : buffered c = r.buffer.segments.flatten := by unfold buffered; rw [hr]
    refine ⟨⟨.on k c', err⟩, out, Tcp.recvResult k res, ?_, ?_, ?_, ?_, ?_, ?_⟩
    · simp only [Tcp.recv]
      rw [if_neg hk, e]
      rfl
    · refine ⟨fun hh => ?_, fun hh => absurd hh hk⟩
      cases res with
      | ok m => cases hh
      | io => cases hh
      | empty => simp only [Tcp.recvResult] at hh; split at hh <;> cases hh
    · rw [hb, ← e6]
      cases res <;> simp only [Tcp.recvResult] <;> cases k <;> simp [Tcp.Kind.eof] <;> simp at hk
    · rw [hb, ← e6]
      cases res <;> simp only [Tcp.recvResult] <;> cases k <;> simp [Tcp.Kind.eof] <;> simp at hk
    · intro m hm
      cases res with
      | ok m' =>
        cases hm
        obtain ⟨q1, q2⟩ := e7 m rfl
        have hne : buffered c ≠ [] := by
          rw [hb]
          intro hh
          have := e6.2 hh
          cases this
        refine ⟨q1, by rw [hb, ← q2, q1], hne, ?_⟩
        rw [hb, e10, e5 (by simp), e9]
        rfl
      | io => cases hm
      | empty => cases hm
    · intro hm
      cases res with
      | ok m' => cases hm
      | io =>
        refine ⟨(e8 rfl).2, ?_⟩
        rw [hb]
        exact List.IsPrefix.trans e3 (by rw [e10]; exact List.prefix_append _ _)
      | empty => simp only [Tcp.recvResult] at hm; split at hm <;> cases hm

/-- **C36**: end of stream is reported only after the FIN was received and everything before it was
    read. -/
theorem C36_eof {k : Kind} {c : Conn} {err : Option TcpErr} (h : SReach (.conn ⟨.on k c, err⟩)) {n cap : Nat} {t' : Tcp}
    {out : List Byte} (hx : Tcp.recv ⟨.on k c, err⟩ n cap = .ok (t', out, .err .streamClosed)) :
    c.receivedFin = true ∧ buffered c = [] := by
  obtain ⟨t2, out2, r2, e, -, e2, -⟩ := C36_recv h n cap
  rw [e] at hx
  cases hx
  obtain ⟨h1, h2⟩ := e2.1 rfl
  have hok : OnOk k c := h.ok
  refine ⟨hok.fin ?_, h1⟩
  rcases h2 with rfl | rfl | rfl | rfl <;> rfl

/-- **C36**: a packet that brings (or comes after) the FIN is noticed in every state other than
    "syn-sent" and "syn-received": the next state is one that reports end of stream. -/
theorem C36_noticed {k k' : Kind} {c c' : Conn} {err err' : Option TcpErr} {hd : Header} {pl : Payload} {r : Res Nat}
    (h1 : k ≠ .synSent) (h2 : k ≠ .synReceived) (hm : c.packetAddrsMatch hd = true)
    (hx : Tcp.push ⟨.on k c, err⟩ hd pl = .ok (⟨.on k' c', err'⟩, r)) (hf : c'.receivedFin = true) :
    k' = .closing ∨ k' = .timeWait ∨ k' = .closeWait ∨ k' = .lastAck := by
  simp only [Tcp.push] at hx
  rw [hm] at hx
  simp only [Bool.not_true, Bool.false_eq_true, if_false, R.bind_eq_ok] at hx
  obtain ⟨⟨c2, m⟩, hp, t, ha, hx⟩ := hx
  cases hx
  simp only [Tcp.afterPacket] at ha
  by_cases hr : c2.isReset = true
  · rw [if_pos hr] at ha
    unfold Tcp.connectionWasReset at ha
    simp only [R.bind_eq_ok, R.assert_eq_ok] at ha
    obtain ⟨_, -, ⟨c3, o⟩, -, ha⟩ := ha
    cases o with
    | none =>
      simp only [mkClosed_true, R.bind_ok] at ha
      cases ha
    | some y =>
      simp only [R.bind_eq_ok, R.assert_eq_ok, mkRst] at ha
      obtain ⟨_, -, st, ⟨_, -, hst⟩, ha⟩ := ha
      cases hst
      cases ha
  · rw [if_neg hr] at ha
    unfold Tcp.afterPush at ha
    split at ha
    · rename_i k2 hk
      cases ha
      cases k <;> simp_all [Tcp.nextKind]
      · cases hfa : c'.finWasAcked <;> rw [hfa] at hk <;> simp at hk <;> simp [← hk]
      · by_cases hfa : c'.finWasAcked = true
        · rw [if_pos hfa] at hk; simp [← hk]
        · rw [if_neg hfa] at hk; simp [← hk]
    · rw [mkClosed_true, R.bind_ok] at ha
      cases ha

/-! ### Calls never panic -/

/-- Every state: `recv`, `send`, `shutdown` and `clear_error` return. -/
theorem C35_calls {t : Tcp} (h : SReach (.conn t)) :
    (∀ n cap, ∃ x, t.recv n cap = .ok x) ∧ (∀ src n, ∃ x, t.send src n = .ok x) ∧
      (∀ how, ∃ x, t.shutdown how = .ok x) := by
  have hk := h.ok
  obtain ⟨st, err⟩ := t
  cases st with
  | rst b w => exact ⟨fun _ _ => ⟨_, rfl⟩, fun _ _ => ⟨_, rfl⟩, fun _ => ⟨_, rfl⟩⟩
  | closed b w =>
    refine ⟨fun n cap => ?_, fun _ _ => ⟨_, rfl⟩, fun _ => ⟨_, rfl⟩⟩
    obtain ⟨h0, irs, rd, cl, hb⟩ := hk
    simp only [Tcp.recv]
    cases w with
    | false => exact ⟨_, rfl⟩
    | true =>
      by_cases he : b.isEmpty = true
      · rw [if_neg (by simp), if_pos he]; exact ⟨_, rfl⟩
      · rw [if_neg (by simp), if_neg he]
        obtain ⟨q', out, io, D, e, -⟩ := read_spec hb n cap
        have e : b.read n cap = .ok (q', out, io) := e
        rw [e]
        exact ⟨_, rfl⟩
  | on k c =>
    have hk : OnOk k c := hk
    obtain ⟨iss, bs, a, irs, rd, hi⟩ := hk.reach.inv
    refine ⟨fun n cap => ?_, fun src n => ?_, fun how => ?_⟩
    · obtain ⟨t', out, r, e, -⟩ := C36_recv h n cap
      exact ⟨_, e⟩
    · simp only [Tcp.send]
      by_cases h1 : k = .synSent ∨ k = .synReceived
      · rw [if_pos h1]; exact ⟨_, rfl⟩
      · rw [if_neg h1]
        by_cases h2 : k = .established ∨ k = .closeWait
        · rw [if_pos h2]
          have hf : c.send.buffer.finAdded = false := by
            rw [← hi.sclosed, hk.sclosed]
            rcases h2 with rfl | rfl <;> rfl
          obtain ⟨c', res, m, e, -⟩ := sendData_spec hi hf src n
          rw [e]
          exact ⟨_, rfl⟩
        · rw [if_neg h2]; exact ⟨_, rfl⟩
    · have hfin : ∀ c2 : Conn, c2.send = c.send → ∃ x, Tcp.finish err k c2 = .ok x := by
        intro c2 e
        unfold Tcp.finish
        cases haf : Tcp.afterFin k with
        | none => exact ⟨_, rfl⟩
        | some k' =>
          have hf : c.send.buffer.finAdded = false := by
            rw [← hi.sclosed, hk.sclosed]
            cases k <;> simp [Tcp.afterFin] at haf <;> rfl
          obtain ⟨b, e1, -⟩ := sendAt_addFin hi.send hf
          have : c2.sendFin = .ok { c2 with send := { c2.send with buffer := b, isClosed := true } } := by
            unfold Conn.sendFin
            rw [e, e1]
            rfl
          simp only
          rw [this]
          exact ⟨_, rfl⟩
      simp only [Tcp.shutdown, Tcp.shutdownOn]
      split
      · split
        · rw [Tcp.closedWhileConnecting, mkClosed_true]
          exact ⟨_, rfl⟩
        · obtain ⟨x, e⟩ := hfin (if Tcp.How.reads how then c.setSendRstIfRecvPayload else c) (by split <;> rfl)
          rw [e]
          exact ⟨_, rfl⟩
      · exact ⟨_, rfl⟩

/-! ### Packets never panic after the handshake -/

theorem pushPacket_scaling {c c' : Conn} {r : ConnRecv} {hd : Header} {pl : Payload} {m : Nat} (h : ConnReach c)
    (hr : c.recv = some r) (hp : pl.flatten.length < 2147483648) (hx : c.pushPacket hd pl = .ok (c', m)) :
    c'.scaling = c.scaling := by
  obtain ⟨iss, bs, a, irs, rd, h⟩ := h.inv
  have hL := payload_bound (hd := hd) hp
  have key : ∃ p, PushOutcome iss bs a irs rd c p hd pl (.ok (c', m)) := by
    obtain ⟨p, hpp⟩ := exists_place irs (r.items rd).length hd pl hL
    exact ⟨p, by rw [← hx]; exact pushPacket_spec h hL (fun r' hh => by rw [hr] at hh; cases hh; exact hpp)⟩
  obtain ⟨p, ho⟩ := key
  generalize hy : (R.ok (c', m) : R (Conn × Nat)) = x at ho
  cases ho with
  | afterReset => cases hy
  | noSyn => cases hy
  | rst h1 h2 =>
    cases hy
    unfold Conn.pushRst
    split
    · rfl
    · split
      · rfl
      · split <;> rfl
  | first h1 h2 h3 h4 h5 => rw [hr] at h3; cases h3
  | later h1 h2 h3 h5 =>
    subst hy
    generalize hy : (R.ok (c', m) : R (Conn × Nat)) = x at h5
    cases h5 with
    | noShift => cases hy
    | outside => cases hy; rfl
    | reset => cases hy; rfl
    | accepted q1 q2 =>
      cases hy
      obtain ⟨r', s', a', shift, e, -⟩ := q2
      subst e
      rfl

theorem connectionWasReset_returns {err : Option TcpErr} {c : Conn} (h : ConnReach c) (hr : c.isReset = true)
    (hc : c.scaling.isConfigured = true) : ∃ t, Tcp.connectionWasReset err c = .ok t := by
  obtain ⟨⟨c', o⟩, e⟩ := C35_pop_partial h (Or.inl hc)
  unfold Tcp.connectionWasReset
  rw [hr, e]
  cases o with
  | none =>
    simp only [R.assert_true, R.bind_ok, mkClosed_true]
    exact ⟨_, rfl⟩
  | some y =>
    have hne : Payload.isEmpty y.2 = true := by
      unfold Conn.popPacket at e
      simp only [R.bind_eq_ok] at e
      obtain ⟨x, hx, e⟩ := e
      unfold Conn.nextSegment at hx
      by_cases hn : c.needToSendRst = true
      · rw [if_pos hn] at hx
        simp only [R.bind_eq_ok] at hx
        obtain ⟨s, -, hx⟩ := hx
        cases hx
        simp only [R.bind_eq_ok] at e
        obtain ⟨w, -, _, -, b, -, e⟩ := e
        simp only [if_true, R.bind_eq_ok] at e
        obtain ⟨_, -, e⟩ := e
        cases e
        rfl
      · rw [if_neg hn, if_pos hr] at hx
        cases hx
        cases e
    simp only [R.assert_true, R.bind_ok, hne, mkRst]
    exact ⟨_, rfl⟩

/-- **C35**: once both SYNs have been exchanged (window scaling is settled), no packet whatsoever
    makes a connection panic, nor does sending, closing or aborting. -/
theorem C35_after_handshake {k : Kind} {c : Conn} {err : Option TcpErr} (h : SReach (.conn ⟨.on k c, err⟩))
    (hk : k ≠ .synSent) (hc : c.scaling.isConfigured = true) :
    (∀ hd pl, hd.windowSize < 65536 → pl.flatten.length < 2147483648 → ∃ x, Tcp.push ⟨.on k c, err⟩ hd pl = .ok x) ∧
    (∃ x, Tcp.pop ⟨.on k c, err⟩ = .ok x) ∧ (∃ x, Tcp.close ⟨.on k c, err⟩ = .ok x) ∧
    (∃ x, Tcp.rstClose ⟨.on k c, err⟩ = .ok x) := by
  have hok : OnOk k c := h.ok
  obtain ⟨r, hr⟩ := Option.isSome_iff_exists.1 (hok.syn.2 hk)
  have hreset : ∀ c2 : Conn, ConnReach c2 → c2.scaling.isConfigured = true → ∃ x, Tcp.resetConnection err c2 = .ok x := by
    intro c2 h2 hc2
    unfold Tcp.resetConnection
    obtain ⟨t, e⟩ := connectionWasReset_returns (err := err) (ConnReach.step h2 .reset) rfl hc2
    rw [e, R.bind_ok]
    obtain ⟨-, q⟩ := connectionWasReset_spec (ConnReach.step h2 .reset) e
    rcases q with ⟨-, hd, -, -, -, rfl⟩ | ⟨q, -⟩
    · exact ⟨_, rfl⟩
    · cases q
  refine ⟨?_, ?_, ?_, ?_⟩
  · intro hd pl hw hp
    simp only [Tcp.push]
    by_cases hm : (!c.packetAddrsMatch hd) = true
    · rw [if_pos hm]; exact ⟨_, rfl⟩
    · rw [if_neg hm]
      cases hx : c.pushPacket hd pl with
      | panic =>
        exfalso
        rcases C35_push_partial hok.reach hp hx with h1 | ⟨-, -, h1 | ⟨h1, h2⟩⟩
        · rw [hok.live] at h1; cases h1
        · rw [hr] at h1; cases h1
        · unfold WindowScaling.isConfigured at hc
          rw [h1, h2] at hc
          cases hc
      | ok y =>
        obtain ⟨c', m⟩ := y
        have hsc := pushPacket_scaling hok.reach hr hp hx
        have hreach := (pushPacket_facts hok.reach hw hp hx).1
        rw [R.bind_ok]
        unfold Tcp.afterPacket
        by_cases hres : c'.isReset = true
        · rw [if_pos hres]
          obtain ⟨t, e⟩ := connectionWasReset_returns (err := Tcp.resetError err hd) hreach hres (by rw [hsc]; exact hc)
          rw [e]
          exact ⟨_, rfl⟩
        · rw [if_neg hres]
          unfold Tcp.afterPush
          split
          · exact ⟨_, rfl⟩
          · rw [mkClosed_true]
            exact ⟨_, rfl⟩
  · obtain ⟨x, e⟩ := C35_pop_partial hok.reach (Or.inl hc)
    simp only [Tcp.pop]
    rw [e]
    exact ⟨_, rfl⟩
  · simp only [Tcp.close]
    rw [if_neg hk]
    split
    · exact hreset c hok.reach hc
    · unfold Tcp.finish
      cases haf : Tcp.afterFin k with
      | none => exact ⟨_, rfl⟩
      | some k' =>
        obtain ⟨iss, bs, a, irs, rd, hi⟩ := hok.reach.inv
        have hf : c.send.buffer.finAdded = false := by
          rw [← hi.sclosed, hok.sclosed]
          cases k <;> simp [Tcp.afterFin] at haf <;> rfl
        obtain ⟨b, e1, -⟩ := sendAt_addFin hi.send hf
        have : c.setSendRstIfRecvPayload.sendFin = .ok { c.setSendRstIfRecvPayload with
            send := { c.send with buffer := b, isClosed := true } } := by
          unfold Conn.sendFin Conn.setSendRstIfRecvPayload
          simp only [e1]
          rfl
        simp only
        rw [this]
        exact ⟨_, rfl⟩
  · simp only [Tcp.rstClose]
    rw [if_neg hk]
    split
    · obtain ⟨x, e⟩ := hreset c hok.reach hc
      rw [e]
      exact ⟨_, rfl⟩
    · exact ⟨_, rfl⟩

end Shadow.Tcp
