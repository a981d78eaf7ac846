import Verif.Tcp.States
import Verif.Tcp.StreamTheorems

/-!
# What the state machine needs to know about connections

For each operation of a connection: what it changes of the facts that the state machine looks at
(SYN and FIN received, SYN and FIN acknowledged, sending side closed, reset).
-/
namespace Shadow.Tcp.StatesProps

open Shadow.Base Shadow.Tcp.ConnProps Shadow.Tcp.SeqAt Shadow.Tcp.SendProps Shadow.Tcp.RecvProps Shadow.Tcp.Stream

/-- The own FIN is acknowledged: everything in the stream, including the FIN, is. -/
theorem finWasAcked_iff {iss bs a irs rd c} (h : ConnInv iss bs a irs rd c) :
    c.finWasAcked = true ↔ c.send.isClosed = true ∧ a = (streamItems bs c.send.buffer.finAdded).length := by
  have hlt := h.send.lt
  have hle := h.send.le
  unfold Conn.finWasAcked
  rw [Bool.and_eq_true, beq_iff_eq, h.send.start, h.send.end]
  constructor
  · rintro ⟨h1, h2⟩
    exact ⟨h1, pos_inj h2 hle (by omega)⟩
  · rintro ⟨h1, h2⟩
    exact ⟨h1, by rw [← h2]⟩

theorem receivedFin_iff {iss bs a irs rd} {c : Conn} (h : ConnInv iss bs a irs rd c) :
    c.receivedFin = true ↔ Item.fin ∈ c.got rd := by
  unfold Conn.got Conn.receivedFin
  cases hr : c.recv with
  | none => simp
  | some r =>
    simp only
    rw [(h.recv r hr).1.closed]
    unfold ConnRecv.items recvItems
    generalize rd ++ r.buffer.segments.flatten = l
    cases r.buffer.synAdded <;> cases r.buffer.finAdded <;> simp

/-- The data in the receive buffer. -/
theorem recvBufHasData_iff {iss bs a irs rd} {c : Conn} (h : ConnInv iss bs a irs rd c) :
    c.recvBufHasData = true ↔ buffered c ≠ [] := by
  unfold Conn.recvBufHasData buffered
  cases hr : c.recv with
  | none => simp
  | some r =>
    simp only
    unfold RecvQueue.isEmpty
    rw [(h.recv r hr).1.len]
    generalize r.buffer.segments.flatten = l
    cases l <;> simp

/-- What stays the same when a packet arrives. -/
theorem pushPacket_frame {c c' : Conn} {hd : Header} {pl : Payload} {m : Nat} (h : ConnReach c)
    (hp : pl.flatten.length < 2147483648) (hx : c.pushPacket hd pl = .ok (c', m)) :
    c.isReset = false ∧ c'.localAddr = c.localAddr ∧ c'.remoteAddr = c.remoteAddr ∧
      c'.sendRstIfRecvPayload = c.sendRstIfRecvPayload := by
  obtain ⟨iss, bs, a, irs, rd, h⟩ := h.inv
  have hL := payload_bound (hd := hd) hp
  have key : ∃ p, PushOutcome iss bs a irs rd c p hd pl (.ok (c', m)) := by
    cases hr : c.recv with
    | none => exact ⟨0, by rw [← hx]; exact pushPacket_spec h hL (fun r hh => by rw [hr] at hh; cases hh)⟩
    | some r =>
      obtain ⟨p, hpp⟩ := exists_place irs (r.items rd).length hd pl hL
      exact ⟨p, by rw [← hx]; exact pushPacket_spec h hL (fun r' hh => by rw [hr] at hh; cases hh; exact hpp)⟩
  obtain ⟨p, ho⟩ := key
  generalize hy : (R.ok (c', m) : R (Conn × Nat)) = x at ho
  cases ho with
  | afterReset => cases hy
  | noSyn => cases hy
  | rst h1 h2 =>
    cases hy
    refine ⟨h1, ?_⟩
    unfold Conn.pushRst
    split
    · exact ⟨rfl, rfl, rfl⟩
    · split
      · exact ⟨rfl, rfl, rfl⟩
      · split <;> exact ⟨rfl, rfl, rfl⟩
  | first h1 h2 h3 h4 h5 =>
    subst hy
    generalize hy : (R.ok (c', m) : R (Conn × Nat)) = x at h5
    cases h5 with
    | noShift => cases hy
    | outside => cases hy; exact ⟨h1, rfl, rfl, rfl⟩
    | reset => cases hy; exact ⟨h1, rfl, rfl, rfl⟩
    | accepted q1 q2 =>
      cases hy
      obtain ⟨r', s', a', shift, e, -⟩ := q2
      subst e
      exact ⟨h1, rfl, rfl, rfl⟩
  | later h1 h2 h3 h5 =>
    subst hy
    generalize hy : (R.ok (c', m) : R (Conn × Nat)) = x at h5
    cases h5 with
    | noShift => cases hy
    | outside => cases hy; exact ⟨h1, rfl, rfl, rfl⟩
    | reset => cases hy; exact ⟨h1, rfl, rfl, rfl⟩
    | accepted q1 q2 =>
      cases hy
      obtain ⟨r', s', a', shift, e, -⟩ := q2
      subst e
      exact ⟨h1, rfl, rfl, rfl⟩

/-- The facts only grow when a packet arrives. -/
theorem pushPacket_facts {c c' : Conn} {hd : Header} {pl : Payload} {m : Nat} (h : ConnReach c)
    (hw : hd.windowSize < 65536) (hp : pl.flatten.length < 2147483648) (hx : c.pushPacket hd pl = .ok (c', m)) :
    ConnReach c' ∧ c'.send.isClosed = c.send.isClosed ∧ (c.synWasAcked = true → c'.synWasAcked = true) ∧
      (c.receivedFin = true → c'.receivedFin = true) ∧ (c.finWasAcked = true → c'.finWasAcked = true) ∧
      (c.recv.isSome = true → c'.recv.isSome = true) := by
  refine ⟨.step h (.push hx hw hp), ?_⟩
  obtain ⟨iss, bs, a, irs, rd, h⟩ := h.inv
  have hL := payload_bound (hd := hd) hp
  obtain ⟨a', irs', k1, k2, k3, k4, k5, k6, k7⟩ := pushPacket_inv h hw hL hx
  have hcl : c'.send.isClosed = c.send.isClosed := by rw [k2.sclosed, k3, h.sclosed]
  refine ⟨hcl, ?_, ?_, ?_, fun hh => (k5 hh).2⟩
  · intro hh
    have := h.acked.1 hh
    exact k2.acked.2 (by omega)
  · intro hh
    rw [receivedFin_iff h] at hh
    rw [receivedFin_iff k2]
    obtain ⟨p, hpp⟩ := exists_place irs' (c.got rd).length hd pl hL
    rcases k7 p hpp with e | ⟨-, -, w, e⟩
    · rw [e]; exact hh
    · rw [e]; exact List.mem_append_left _ hh
  · intro hh
    rw [finWasAcked_iff h] at hh
    rw [finWasAcked_iff k2, hcl, k3]
    refine ⟨hh.1, ?_⟩
    have := k2.send.le
    rw [k3] at this
    omega

/-- The first SYN does not reset a new connection. -/
theorem first_syn_live {l r : Addr} {iss : Nat} {e : Bool} (hi : iss < M) {c' : Conn} {hd : Header} {pl : Payload} {m : Nat}
    (hp : pl.flatten.length < 2147483648) (hr : hd.flags.rst = false)
    (hx : (Conn.new l r iss e).pushPacket hd pl = .ok (c', m)) :
    c'.isReset = false ∧ c'.recv.isSome = true ∧ c'.scaling.sentSyn = false ∧ c'.scaling.disabled = !e ∧
      (c'.synWasAcked = true → hd.flags.ack = true) := by
  have h := inv_new l r iss e hi 0
  have hL := payload_bound (hd := hd) hp
  have ho := pushPacket_spec h (p := 0) hL (fun r hh => by cases hh)
  rw [hx] at ho
  have hsent : (Conn.new l r iss e).scaling.sentSyn = false := by
    unfold Conn.new; cases e <;> rfl
  have hdis : (Conn.new l r iss e).scaling.disabled = !e := by
    unfold Conn.new; cases e <;> rfl
  generalize hy : (R.ok (c', m) : R (Conn × Nat)) = x at ho
  cases ho with
  | afterReset => cases hy
  | noSyn => cases hy
  | rst h1 h2 => rw [hr] at h2; cases h2
  | first h1 h2 h3 h4 h5 =>
    subst hy
    generalize hy : (R.ok (c', m) : R (Conn × Nat)) = x at h5
    have e1 : (afterSyn (Conn.new l r iss e) hd).scaling.sentSyn = false := by
      unfold afterSyn
      exact hsent
    have e2 : (afterSyn (Conn.new l r iss e) hd).scaling.disabled = !e := by
      unfold afterSyn
      exact hdis
    cases h5 with
    | noShift => cases hy
    | outside q1 q2 => cases q2
    | reset q =>
      exfalso
      rcases q with ⟨q, -⟩ | ⟨q, -⟩ | ⟨-, q, -⟩ <;> cases q
    | accepted q1 q2 =>
      cases hy
      obtain ⟨r', s', a', shift, ee, f1, f2, f3, f4, f5, f6, f7, f8, f9, f10, f11, f12⟩ := q2
      subst ee
      refine ⟨rfl, rfl, e1, e2, ?_⟩
      intro hh
      rcases f11 with ⟨-, g⟩ | ⟨-, g, -⟩
      · have : s'.synAcked = true := hh
        rw [g] at this
        cases this
      · exact g
  | later h1 h2 h3 => cases h3

/-- What sending a packet changes. -/
theorem popPacket_facts {c c' : Conn} {o : Option (Header × Payload)} (h : ConnReach c) (hx : c.popPacket = .ok (c', o)) :
    ConnReach c' ∧ c'.send.isClosed = c.send.isClosed ∧ c'.synWasAcked = c.synWasAcked ∧
      c'.receivedFin = c.receivedFin ∧ c'.finWasAcked = c.finWasAcked ∧ c'.recv = c.recv ∧ c'.isReset = c.isReset ∧
      c'.localAddr = c.localAddr ∧ c'.remoteAddr = c.remoteAddr ∧ c'.sendRstIfRecvPayload = c.sendRstIfRecvPayload := by
  refine ⟨.step h (.pop hx), ?_⟩
  cases o with
  | none => rw [popPacket_none hx]; exact ⟨rfl, rfl, rfl, rfl, rfl, rfl, rfl, rfl, rfl⟩
  | some y =>
    obtain ⟨iss, bs, a, irs, rd, h⟩ := h.inv
    have hwin : c.send.window < M := by have := h.window; simp only [windowMax] at this; omega
    obtain ⟨p, n, -, -, -, -, -, -, -, -, -, w, -, -, -, rfl⟩ := popPacket_spec h.send hwin (h := y.1) (pl := y.2) hx
    exact ⟨rfl, rfl, rfl, rfl, rfl, rfl, rfl, rfl, rfl⟩

/-- What reading changes. -/
theorem recvData_facts {c c' : Conn} {n cap : Nat} {out : List Byte} {res : Conn.RecvRes} (h : ConnReach c)
    (hx : c.recvData n cap = .ok (c', out, res)) :
    ConnReach c' ∧ c'.send = c.send ∧ c'.receivedFin = c.receivedFin ∧ c'.recv.isSome = true ∧ c'.isReset = c.isReset ∧
      c'.localAddr = c.localAddr ∧ c'.remoteAddr = c.remoteAddr ∧ c'.sendRstIfRecvPayload = c.sendRstIfRecvPayload := by
  refine ⟨.step h (.recv hx), ?_⟩
  obtain ⟨iss, bs, a, irs, rd, h⟩ := h.inv
  cases hr : c.recv with
  | none => unfold Conn.recvData at hx; rw [hr] at hx; cases hx
  | some r =>
    obtain ⟨c2, out2, res2, D, e, -, -, -, -, -, -, -, -, -, q, e2, -⟩ := recvData_spec h hr n cap
    rw [e] at hx
    cases hx
    subst e2
    refine ⟨rfl, ?_, rfl, rfl, rfl, rfl, rfl⟩
    unfold Conn.receivedFin
    rw [hr]

/-- What writing changes. -/
theorem sendData_facts {c c' : Conn} {src : List Byte} {n : Nat} {res : Conn.SendRes} (h : ConnReach c)
    (hcl : c.send.isClosed = false) (hx : c.sendData src n = .ok (c', res)) :
    ConnReach c' ∧ c'.send.isClosed = false ∧ c'.synWasAcked = c.synWasAcked ∧ c'.recv = c.recv ∧
      c'.isReset = c.isReset ∧ c'.localAddr = c.localAddr ∧ c'.remoteAddr = c.remoteAddr ∧
      c'.sendRstIfRecvPayload = c.sendRstIfRecvPayload := by
  refine ⟨.step h (.send hx hcl), ?_⟩
  unfold Conn.sendData at hx
  split at hx
  · cases hx; exact ⟨hcl, rfl, rfl, rfl, rfl, rfl, rfl⟩
  · simp only [R.bind_eq_ok] at hx
    obtain ⟨r, -, hx⟩ := hx
    split at hx <;> (cases hx; exact ⟨hcl, rfl, rfl, rfl, rfl, rfl, rfl⟩)

/-- What sending a FIN changes: afterwards it is not acknowledged. -/
theorem sendFin_facts {c : Conn} (h : ConnReach c) (hcl : c.send.isClosed = false) :
    ∃ c', c.sendFin = .ok c' ∧ ConnReach c' ∧ c'.send.isClosed = true ∧ c'.synWasAcked = c.synWasAcked ∧
      c'.recv = c.recv ∧ c'.isReset = c.isReset ∧ c'.finWasAcked = false ∧ c'.localAddr = c.localAddr ∧
      c'.remoteAddr = c.remoteAddr ∧ c'.sendRstIfRecvPayload = c.sendRstIfRecvPayload := by
  obtain ⟨iss, bs, a, irs, rd, hi⟩ := h.inv
  have hf : c.send.buffer.finAdded = false := by rw [← hi.sclosed]; exact hcl
  obtain ⟨c', e, k1, k2, k3, k4, k5⟩ := sendFin_spec hi hf
  have hcl' : c'.send.isClosed = true := by rw [k1.sclosed, k2]
  have e0 := e
  unfold Conn.sendFin at e
  rw [R.bind_eq_ok] at e
  obtain ⟨b, -, e⟩ := e
  cases e
  refine ⟨_, e0, .step h (.fin e0), rfl, rfl, rfl, rfl, ?_, rfl, rfl, rfl⟩
  rw [Bool.eq_false_iff]
  intro hh
  have := ((finWasAcked_iff k1).1 hh).2
  have h2 := hi.send.le
  rw [k2] at this
  rw [hf] at h2
  simp only [streamItems] at this h2
  simp at this h2
  omega

/-- When a packet resets a live connection: a RST does so without an answer; any other packet makes
    the connection send a RST. -/
theorem pushPacket_reset {c c' : Conn} {hd : Header} {pl : Payload} {m : Nat} (h : ConnReach c)
    (hp : pl.flatten.length < 2147483648) (hx : c.pushPacket hd pl = .ok (c', m)) :
    (c'.isReset = true → (hd.flags.rst = true ∧ c'.needToSendRst = false) ∨
      (hd.flags.rst = false ∧ c'.needToSendRst = true)) ∧
    (c'.isReset = false → c.recv = none → c'.recv.isSome = true → hd.flags.syn = true ∧ hd.flags.rst = false) := by
  obtain ⟨iss, bs, a, irs, rd, h⟩ := h.inv
  have hL := payload_bound (hd := hd) hp
  have key : ∃ p, PushOutcome iss bs a irs rd c p hd pl (.ok (c', m)) := by
    cases hr : c.recv with
    | none => exact ⟨0, by rw [← hx]; exact pushPacket_spec h hL (fun r hh => by rw [hr] at hh; cases hh)⟩
    | some r =>
      obtain ⟨p, hpp⟩ := exists_place irs (r.items rd).length hd pl hL
      exact ⟨p, by rw [← hx]; exact pushPacket_spec h hL (fun r' hh => by rw [hr] at hh; cases hh; exact hpp)⟩
  obtain ⟨p, ho⟩ := key
  have hrst : c.isReset = false → c.needToSendRst = false := by
    intro hh
    cases hn : c.needToSendRst with
    | false => rfl
    | true => rw [h.rst hn] at hh; cases hh
  generalize hy : (R.ok (c', m) : R (Conn × Nat)) = x at ho
  cases ho with
  | afterReset => cases hy
  | noSyn => cases hy
  | rst h1 h2 =>
    cases hy
    have hn := hrst h1
    unfold Conn.pushRst
    refine ⟨fun _ => Or.inl ⟨h2, ?_⟩, ?_⟩
    · split
      · exact hn
      · split
        · exact hn
        · split <;> exact hn
    · intro _ hr
      have : c.recvWindow = none := by unfold Conn.recvWindow; rw [hr]
      rw [this]
      intro hh
      have hh' : c.recv.isSome = true := hh
      rw [hr] at hh'; cases hh'
  | first h1 h2 h3 h4 h5 =>
    subst hy
    refine ⟨?_, fun _ _ _ => ⟨h4, h2⟩⟩
    intro hre
    generalize hy : (R.ok (c', m) : R (Conn × Nat)) = x at h5
    cases h5 with
    | noShift => cases hy
    | outside q1 q2 => cases q2
    | reset q => cases hy; exact Or.inr ⟨h2, rfl⟩
    | accepted q1 q2 =>
      cases hy
      obtain ⟨r', s', a', shift, ee, -⟩ := q2
      subst ee
      have hre' : c.isReset = true := hre
      rw [h1] at hre'
      cases hre'
  | later h1 h2 h3 h5 =>
    subst hy
    generalize hy : (R.ok (c', m) : R (Conn × Nat)) = x at h5
    refine ⟨?_, fun _ hh => by rw [h3] at hh; cases hh⟩
    intro hre
    cases h5 with
    | noShift => cases hy
    | outside =>
      cases hy
      have hre' : c.isReset = true := hre
      rw [h1] at hre'
      cases hre'
    | reset => cases hy; exact Or.inr ⟨h2, rfl⟩
    | accepted q1 q2 =>
      cases hy
      obtain ⟨r', s', a', shift, e, -⟩ := q2
      subst e
      have hre' : c.isReset = true := hre
      rw [h1] at hre'
      cases hre'

/-- A RST that resets a connection has exactly the next expected sequence number (RFC 5961); a RST
    anywhere else in the window is answered by an acknowledgement; other RSTs change nothing. -/
theorem C33_reset_exact {c c' : Conn} {r : ConnRecv} {hd : Header} {pl : Payload} {m : Nat} (h : ConnReach c)
    (hr : c.recv = some r) (hf : hd.flags.rst = true) (hx : c.pushPacket hd pl = .ok (c', m)) :
    (c'.isReset = true ↔ Seq.new hd.seq = r.buffer.endSeq) ∧
      (c'.isReset = false → c' = c ∨ c' = { c with needToAck := true }) := by
  obtain ⟨iss, bs, a, irs, rd, h⟩ := h.inv
  unfold Conn.pushPacket at hx
  by_cases hres : c.isReset = true
  · rw [if_pos hres] at hx; cases hx
  · rw [if_neg hres, if_pos hf] at hx
    cases hx
    have hw := recvWindow_spec hr (h.recv r hr).1
    have he : (c.recvWindow.map (·.start)) = some r.buffer.endSeq := by
      rw [hw, (h.recv r hr).1.end]
      rfl
    unfold Conn.pushRst
    cases hc : c.recvWindow with
    | none => rw [hc] at he; cases he
    | some w =>
      rw [hc] at he
      have he' : w.start = r.buffer.endSeq := by simpa using he
      simp only
      rw [he']
      by_cases h1 : Seq.new hd.seq = r.buffer.endSeq
      · rw [if_pos h1]
        exact ⟨⟨fun _ => h1, fun _ => rfl⟩, fun hh => by cases hh⟩
      · rw [if_neg h1]
        by_cases h2 : w.contains (Seq.new hd.seq) = true
        · rw [if_pos h2]
          exact ⟨⟨(fun hh => absurd hh hres), fun hh => absurd hh h1⟩, fun _ => Or.inr rfl⟩
        · rw [if_neg h2]
          exact ⟨⟨(fun hh => absurd hh hres), fun hh => absurd hh h1⟩, fun _ => Or.inl rfl⟩

end Shadow.Tcp.StatesProps
