import Verif.Tcp.StatesCalls

/-!
# Readiness and pending errors of a TCP socket (C47, C48)
-/
namespace Shadow.Tcp

open Shadow.Base Shadow.Tcp.ConnProps Shadow.Tcp.StatesProps Shadow.Tcp.ListenProps Shadow.Tcp.Stream Shadow.Tcp.RecvProps
  Shadow.Tcp.SendProps

/-! ### C47: the flags of `poll` tell what the calls would do -/

theorem send_space {k : Kind} {c : Conn} (h : OnOk k c) (hk : k = .established ∨ k = .closeWait) (x : Byte) :
    ∃ c' res, c.sendData [x] 1 = .ok (c', res) ∧ (c.sendBufHasSpace = true ↔ res = .ok 1) ∧
      (c.sendBufHasSpace = false ↔ res = .full) := by
  obtain ⟨iss, bs, a, irs, rd, hi⟩ := h.reach.inv
  have hf : c.send.buffer.finAdded = false := by
    rw [← hi.sclosed, h.sclosed]
    rcases hk with rfl | rfl <;> rfl
  unfold Conn.sendData
  by_cases hs : c.sendBufHasSpace = true
  · rw [hs]
    have hs' : c.send.buffer.len < Conn.sendBufMax := by simpa [Conn.sendBufHasSpace] using hs
    have hmin : min 1 (Conn.sendBufMax - c.send.buffer.len) = 1 := by omega
    obtain ⟨q', ok, j, e, -, -, -, -, k5, k6, -⟩ := addData_spec [x] 1 hi.send hf (by omega)
    have hok : ok = true := by
      cases ok with
      | true => rfl
      | false => have := k6 rfl; simp at this
    subst hok
    simp only [Bool.not_true, Bool.false_eq_true, if_false, hmin, e, R.bind_ok, if_true]
    exact ⟨_, _, rfl, by simp, by simp⟩
  · have hs' : c.sendBufHasSpace = false := by simpa using hs
    rw [hs']
    exact ⟨_, _, rfl, by simp, by simp⟩

/-- **C47**: "writable" exactly if a byte can be sent now, and then sending it succeeds. -/
theorem C47_writable {t : Tcp} (h : SReach (.conn t)) (x : Byte) :
    ∃ t' r, t.send [x] 1 = .ok (t', r) ∧ (t.poll.writable = true ↔ r = .ok 1) ∧
      (t.poll.sendClosed = true ∨ t.poll.connecting = true ↔ r = .err .streamClosed ∨ r = .err .notConnected) := by
  have hk := h.ok
  obtain ⟨st, err⟩ := t
  cases st with
  | rst b w => cases w <;> exact ⟨_, _, rfl, by simp [Tcp.poll], by simp [Tcp.poll]⟩
  | closed b w => cases w <;> exact ⟨_, _, rfl, by simp [Tcp.poll], by simp [Tcp.poll]⟩
  | on k c =>
    have hk : OnOk k c := hk
    by_cases h2 : k = .established ∨ k = .closeWait
    · obtain ⟨c', res, e, e1, e2⟩ := send_space hk h2 x
      have h1 : ¬ (k = .synSent ∨ k = .synReceived) := by rcases h2 with rfl | rfl <;> simp
      refine ⟨⟨.on k c', err⟩, Tcp.sendResult res, ?_, ?_, ?_⟩
      · simp only [Tcp.send]
        rw [if_neg h1, if_pos h2, e]
        rfl
      · have hw : (Tcp.poll ⟨.on k c, err⟩).writable = c.sendBufHasSpace := by rcases h2 with rfl | rfl <;> rfl
        rw [hw, e1]
        cases res <;> simp [Tcp.sendResult]
      · have hw : (Tcp.poll ⟨.on k c, err⟩).sendClosed = false ∧ (Tcp.poll ⟨.on k c, err⟩).connecting = false := by
          rcases h2 with rfl | rfl <;> exact ⟨rfl, rfl⟩
        rw [hw.1, hw.2]
        cases res <;> simp [Tcp.sendResult]
    · cases k <;> first
        | exact absurd (Or.inl rfl) h2
        | exact absurd (Or.inr rfl) h2
        | exact ⟨_, _, rfl, by simp [Tcp.poll], by simp [Tcp.poll]⟩

theorem hasData_iff {k : Kind} {c : Conn} (h : OnOk k c) : c.recvBufHasData = true ↔ buffered c ≠ [] := by
  obtain ⟨iss, bs, a, irs, rd, hi⟩ := h.reach.inv
  exact recvBufHasData_iff hi

/-- **C47**: "readable" exactly if a read of any size returns data; "try again" exactly if the socket is
    connected, not readable and the receiving side is not closed. -/
theorem C47_readable {t : Tcp} (h : SReach (.conn t)) {n cap : Nat} (hn : 0 < n) (hc : n ≤ cap) :
    ∃ t' out r, t.recv n cap = .ok (t', out, r) ∧
      (t.poll.readable = true ↔ r = .ok out.length ∧ out ≠ []) ∧
      (t.poll.readable = false ∧ t.poll.recvClosed = false ∧ t.poll.connecting = false ↔ r = .err .empty) ∧
      (t.poll.readable = false ∧ t.poll.recvClosed = true ∨ t.poll.connecting = true ↔
        r = .err .streamClosed ∨ r = .err .notConnected) := by
  have hk := h.ok
  obtain ⟨st, err⟩ := t
  cases st with
  | rst b w =>
    cases w <;> exact ⟨_, _, _, rfl, by simp [Tcp.poll], by simp [Tcp.poll], by simp [Tcp.poll]⟩
  | closed b w =>
    obtain ⟨h0, irs, rd, cl, hb⟩ := hk
    by_cases he : b.isEmpty = true
    · cases w with
      | false => exact ⟨_, _, _, rfl, by simp [Tcp.poll, he], by simp [Tcp.poll, he], by simp [Tcp.poll, he]⟩
      | true =>
        refine ⟨⟨.closed b true, err⟩, [], .err .streamClosed, ?_, by simp [Tcp.poll, he], by simp [Tcp.poll, he],
          by simp [Tcp.poll, he]⟩
        simp only [Tcp.recv]
        rw [if_neg (by simp), if_pos he]
    · cases w with
      | false => exact absurd (h0 rfl) he
      | true =>
        obtain ⟨q', out, io, D, e, e1, e2, e3, e4, e5, -⟩ := read_spec hb n cap
        have e : b.read n cap = .ok (q', out, io) := e
        have he' : b.isEmpty = false := by simpa using he
        have hio : io = false := by
          cases io with
          | false => rfl
          | true => have := (e4 rfl).1; omega
        subst hio
        obtain ⟨e3, e6⟩ := e3 rfl
        have hne : b.segments.flatten ≠ [] := by
          intro hh
          exact he (hb.isEmpty.2 hh)
        have hout : out ≠ [] := by
          intro hh
          rw [← e3, hh] at e6
          have hpos : 0 < b.segments.flatten.length := by
            cases hl : b.segments.flatten with
            | nil => exact absurd hl hne
            | cons _ _ => simp
          have e6 : 0 = min n b.segments.flatten.length := e6
          omega
        refine ⟨⟨.closed q' true, err⟩, out, .ok out.length, ?_, by simp [Tcp.poll, he', hout], by simp [Tcp.poll, he'],
          by simp [Tcp.poll, he']⟩
        simp only [Tcp.recv]
        rw [if_neg (by simp), if_neg he, e]
        rfl
  | on k c =>
    have hk : OnOk k c := hk
    obtain ⟨t', out, r, e, e1, e2, e3, e4, e5⟩ := C36_recv h n cap
    have hd := hasData_iff hk
    have hnio : r ≠ .err .io := by
      intro hr
      subst hr
      obtain ⟨iss, bs, a, irs, rd, hi⟩ := hk.reach.inv
      simp only [Tcp.recv] at e
      split at e
      · cases e
      · simp only [R.bind_eq_ok] at e
        obtain ⟨⟨c', o2, res⟩, e7, e8⟩ := e
        generalize hy : Tcp.recvResult k res = y at e8
        cases e8
        cases hr : c.recv with
        | none => unfold Conn.recvData at e7; rw [hr] at e7; cases e7
        | some rr =>
          obtain ⟨c2, out2, res2, D, f, -, -, -, -, -, -, -, f8, f9, -⟩ := recvData_spec hi hr n cap
          rw [f] at e7
          cases e7
          cases res with
          | ok m => cases hy
          | io => have := (f8 rfl).1; omega
          | empty =>
            simp only [Tcp.recvResult] at hy
            split at hy <;> cases hy
    have hothers : ∀ e, r = .err e → e = .notConnected ∨ e = .streamClosed ∨ e = .empty := by
      intro er hr
      subst hr
      simp only [Tcp.recv] at e
      split at e
      · cases e; exact Or.inl rfl
      · simp only [R.bind_eq_ok] at e
        obtain ⟨⟨c', o2, res⟩, e7, e8⟩ := e
        generalize hy : Tcp.recvResult k res = y at e8
        cases e8
        cases res with
        | ok m => cases hy
        | io => cases hy; exact absurd rfl hnio
        | empty =>
          simp only [Tcp.recvResult] at hy
          split at hy <;> cases hy <;> simp
    refine ⟨t', out, r, e, ?_, ?_, ?_⟩
    · have hp : (Tcp.poll ⟨.on k c, err⟩).readable = true ↔ buffered c ≠ [] ∧ ¬ (k = .synSent ∨ k = .synReceived) := by
        rw [← hd]
        cases k <;> simp [Tcp.poll]
      rw [hp]
      constructor
      · rintro ⟨h1, h2⟩
        cases r with
        | ok m =>
          obtain ⟨q1, q2, -⟩ := e4 m rfl
          subst q1
          refine ⟨rfl, ?_⟩
          intro hh
          rw [hh] at q2
          have hpos : 0 < (buffered c).length := by
            cases hl : buffered c with
            | nil => exact absurd hl h1
            | cons _ _ => simp
          have q2 : 0 = min n (buffered c).length := q2
          omega
        | err er =>
          exfalso
          rcases hothers er rfl with rfl | rfl | rfl
          · exact h2 (e1.1 rfl)
          · exact h1 (e2.1 rfl).1
          · exact h1 (e3.1 rfl).1
      · rintro ⟨h1, -⟩
        refine ⟨(e4 _ h1).2.2.1, ?_⟩
        intro hh
        have := e1.2 hh
        rw [h1] at this
        cases this
    · rw [e3]
      have hp : (Tcp.poll ⟨.on k c, err⟩).readable = false ∧ (Tcp.poll ⟨.on k c, err⟩).recvClosed = false ∧
          (Tcp.poll ⟨.on k c, err⟩).connecting = false ↔
          c.recvBufHasData = false ∧ (k = .established ∨ k = .finWaitOne ∨ k = .finWaitTwo) := by
        cases k <;> simp [Tcp.poll]
      rw [hp, Bool.eq_false_iff, ne_eq, hd]
      simp
    · rw [e1, e2]
      have hp : (Tcp.poll ⟨.on k c, err⟩).readable = false ∧ (Tcp.poll ⟨.on k c, err⟩).recvClosed = true ∨
          (Tcp.poll ⟨.on k c, err⟩).connecting = true ↔
          (c.recvBufHasData = false ∧ (k = .closing ∨ k = .timeWait ∨ k = .closeWait ∨ k = .lastAck)) ∨
            (k = .synSent ∨ k = .synReceived) := by
        cases k <;> simp [Tcp.poll]
      rw [hp, Bool.eq_false_iff, ne_eq, hd]
      simp

/-- **C47**: the other flags. -/
theorem C47_flags (t : Tcp) :
    (t.poll.connecting = true ↔ t.connect = .inProgress) ∧ (t.poll.connected = true ↔ t.connect = .alreadyConnected) ∧
    (t.poll.closed = true ↔ t.name = .closed) ∧ (t.poll.error = true ↔ t.clearError.2 ≠ none) ∧
    t.clearError.1.poll.error = false ∧ t.poll.listening = false ∧ t.poll.readyToAccept = false := by
  obtain ⟨st, err⟩ := t
  cases st with
  | rst b w => cases w <;> cases err <;> simp [Tcp.poll, Tcp.connect, Tcp.name, Tcp.clearError]
  | closed b w => cases w <;> cases err <;> simp [Tcp.poll, Tcp.connect, Tcp.name, Tcp.clearError]
  | on k c => cases k <;> cases err <;> simp [Tcp.poll, Tcp.connect, Tcp.name, Tcp.clearError, Kind.name]

/-- **C47**: a listening socket is ready exactly if `accept` returns a connection. -/
theorem C47_listening {l : Listener} (h : SReach (.listening l)) :
    (l.poll.readyToAccept = true ↔ ∃ l' t, l.accept = .ok (l', .ok t)) ∧ l.poll.listening = true := by
  refine ⟨?_, rfl⟩
  rcases C34_accept h with ⟨h1, h2⟩ | ⟨c, rest, l', h1, -, h2, -⟩
  · rw [h2]
    simp [Listener.poll, h1]
  · rw [h2]
    simp [Listener.poll, h1]

/-! ### C48: pending errors -/

/-- The error that an event leaves behind, by the names of the states: an earlier error that was not
    read is kept, except by a timeout. -/
def errorAfter (e : Ev) (n n' : Name) (old : Option TcpErr) : Option TcpErr :=
  if n' = n then old
  else match e with
    | .segment h => if n' = .reset then some (old.getD .resetSent)
        else if n' = .closed ∧ h.flags.rst = true then some (old.getD .resetReceived) else old
    | .close _ | .shutdownWrite | .abort =>
        if n = .synSent ∨ (n = .synReceived ∧ n' = .finWaitOne) then some (old.getD .closedWhileConnecting)
        else if n' = .reset then some (old.getD .resetSent) else old
    | .timeout => if n = .timeWait then old else some .timedOut
    | _ => old

theorem finish_error {err : Option TcpErr} {k : Kind} {c : Conn} {t : Tcp} (h : OnOk k c)
    (hx : Tcp.finish err k c = .ok t) :
    (t.name = k.name ∧ t.error = err) ∨ (k = .synReceived ∧ t.name = .finWaitOne ∧ t.error = some (err.getD .closedWhileConnecting)) ∨
      ((k = .established ∨ k = .closeWait) ∧ t.name ≠ k.name ∧ t.name ≠ .reset ∧ t.error = err) := by
  unfold Tcp.finish at hx
  cases hk : Tcp.afterFin k with
  | none => rw [hk] at hx; cases hx; exact Or.inl ⟨rfl, rfl⟩
  | some k' =>
    rw [hk] at hx
    simp only [R.bind_eq_ok] at hx
    obtain ⟨c', -, hx⟩ := hx
    cases hx
    rcases afterFin_some hk with ⟨rfl, rfl⟩ | ⟨rfl, rfl⟩ | ⟨rfl, rfl⟩
    · exact Or.inr (Or.inl ⟨rfl, rfl, rfl⟩)
    · exact Or.inr (Or.inr ⟨Or.inl rfl, by simp [Tcp.name, Kind.name], by simp [Tcp.name, Kind.name], rfl⟩)
    · exact Or.inr (Or.inr ⟨Or.inr rfl, by simp [Tcp.name, Kind.name], by simp [Tcp.name, Kind.name], rfl⟩)

theorem resetConnection_error {err : Option TcpErr} {c : Conn} {t : Tcp} (h : ConnReach c)
    (hx : Tcp.resetConnection err c = .ok t) : t.error = some (err.getD .resetSent) ∧ t.name = .reset := by
  unfold Tcp.resetConnection at hx
  rw [R.bind_eq_ok] at hx
  obtain ⟨t', h1, hx⟩ := hx
  have hc : ConnReach c.sendRst := .step h .reset
  obtain ⟨-, ⟨-, hd, -, -, -, rfl⟩ | ⟨h2, -⟩⟩ := connectionWasReset_spec hc h1
  · cases hx
    exact ⟨rfl, rfl⟩
  · cases h2

theorem closedWhileConnecting_error {err : Option TcpErr} {t : Tcp} (hx : Tcp.closedWhileConnecting err = .ok t) :
    t.error = some (err.getD .closedWhileConnecting) ∧ t.name = .closed := by
  unfold Tcp.closedWhileConnecting at hx
  rw [mkClosed_true] at hx
  cases hx
  exact ⟨rfl, rfl⟩

theorem kind_ne_reset (k : Kind) : k.name ≠ .reset := by cases k <;> simp [Kind.name]
theorem kind_ne_closed (k : Kind) : k.name ≠ .closed := by cases k <;> simp [Kind.name]
theorem kind_synSent (k : Kind) : k.name = .synSent ↔ k = .synSent := by cases k <;> simp [Kind.name]
theorem kind_synReceived (k : Kind) : k.name = .synReceived ↔ k = .synReceived := by cases k <;> simp [Kind.name]
theorem kind_timeWait (k : Kind) : k.name = .timeWait ↔ k = .timeWait := by cases k <;> simp [Kind.name]

theorem on_name {k : Kind} {c : Conn} {e : Option TcpErr} : (⟨.on k c, e⟩ : Tcp).name = k.name := rfl

/-- **C48**: the pending error after each event. -/
theorem C48_error {e : Ev} {t t' : Tcp} (h : SReach (.conn t)) (hs : SStep e (.conn t) (.conn t')) (he : e ≠ .call) :
    t'.error = errorAfter e t.name t'.name t.error := by
  have hok : TcpOk t := h.ok
  have hsame : ∀ {e}, t.error = errorAfter e t.name t.name t.error := by intro e; simp [errorAfter]
  cases hs with
  | connect hx => cases hx; exact hsame
  | listen hx => cases hx; exact hsame
  | shutdownRead hx => exact absurd rfl he
  | send hx => exact absurd rfl he
  | recv hx => exact absurd rfl he
  | accept hx => exact absurd rfl he
  | error => exact absurd rfl he
  | close hx =>
    simp only [Sock.close, R.bind_eq_ok] at hx
    obtain ⟨t2, hx, h2⟩ := hx
    cases h2
    obtain ⟨st, err⟩ := t
    cases st with
    | rst b w => cases hx; exact hsame
    | closed b w => cases hx; exact hsame
    | on k c =>
      have hk : OnOk k c := hok
      simp only [Tcp.close] at hx
      by_cases hs : k = .synSent
      · subst hs
        rw [if_pos rfl] at hx
        obtain ⟨h1, h2⟩ := closedWhileConnecting_error hx
        rw [h1, h2]
        simp [errorAfter, Tcp.name, Kind.name]
      · rw [if_neg hs] at hx
        split at hx
        · obtain ⟨h1, h2⟩ := resetConnection_error hk.reach hx
          rw [h1, h2, on_name]
          simp [errorAfter, kind_synSent, hs, (kind_ne_reset k).symm]
        · rcases finish_error hk.rstOnData hx with ⟨h1, h2⟩ | ⟨rfl, h1, h2⟩ | ⟨h0, h1, h3, h2⟩
          · rw [h1, h2, on_name]; simp [errorAfter]
          · rw [h1, h2, on_name]; simp [errorAfter, Kind.name]
          · rw [h2, on_name]
            unfold errorAfter
            rw [if_neg h1]
            simp only
            rw [if_neg (by rcases h0 with rfl | rfl <;> simp [Kind.name]), if_neg h3]
  | shutdownWrite hne hx =>
    rename_i how r
    simp only [Sock.shutdown, R.bind_eq_ok] at hx
    obtain ⟨⟨t2, r2⟩, hx, h2⟩ := hx
    cases h2
    obtain ⟨st, err⟩ := t
    cases st with
    | rst b w => cases hx; exact hsame
    | closed b w => cases hx; exact hsame
    | on k c =>
      simp only [Tcp.shutdown, R.bind_eq_ok] at hx
      obtain ⟨t3, hx, h3⟩ := hx
      cases h3
      have hk : OnOk k (if Tcp.How.reads how then c.setSendRstIfRecvPayload else c) := by
        split
        · exact OnOk.rstOnData hok
        · exact hok
      generalize (if Tcp.How.reads how then c.setSendRstIfRecvPayload else c) = c2 at hk hx
      unfold Tcp.shutdownOn at hx
      split at hx
      · split at hx
        · rename_i hs
          subst hs
          obtain ⟨h1, h2⟩ := closedWhileConnecting_error hx
          dsimp only
          rw [h1, h2]
          simp [errorAfter, Tcp.name, Kind.name]
        · dsimp only
          rcases finish_error hk hx with ⟨h1, h2⟩ | ⟨rfl, h1, h2⟩ | ⟨h0, h1, h3, h2⟩
          · rw [h1, h2, on_name]; simp [errorAfter]
          · rw [h1, h2, on_name]; simp [errorAfter, Kind.name]
          · rw [h2, on_name]
            unfold errorAfter
            rw [if_neg h1]
            simp only
            rw [if_neg (by rcases h0 with rfl | rfl <;> simp [Kind.name]), if_neg h3]
      · cases hx
        rw [on_name]; simp [errorAfter, on_name]
  | @push _ _ hd pl r0 hw hp hx =>
    simp only [Sock.push, R.bind_eq_ok] at hx
    obtain ⟨⟨t2, r2⟩, hx, h2⟩ := hx
    cases h2
    obtain ⟨st, err⟩ := t
    cases st with
    | rst b w => cases hx; exact hsame
    | closed b w => cases hx; exact hsame
    | on k c =>
      have hk : OnOk k c := hok
      simp only [Tcp.push] at hx
      by_cases hm : (!c.packetAddrsMatch hd) = true
      · rw [if_pos hm] at hx; cases hx; exact hsame
      · rw [if_neg hm] at hx
        simp only [R.bind_eq_ok] at hx
        obtain ⟨⟨c', m⟩, h1, t3, h2, hx⟩ := hx
        cases hx
        dsimp only at h2 ⊢
        unfold Tcp.afterPacket at h2
        by_cases hr : c'.isReset = true
        · rw [if_pos hr] at h2
          have hreach : ConnReach c' := .step hk.reach (.push h1 hw hp)
          obtain ⟨-, e⟩ := connectionWasReset_spec hreach h2
          rcases (pushPacket_reset hk.reach hp h1).1 hr with ⟨e1, e2⟩ | ⟨e1, e2⟩
          · rw [e2] at e
            rcases e with ⟨e, -⟩ | ⟨-, rfl⟩
            · cases e
            · rw [on_name]
              simp [errorAfter, Tcp.name, (kind_ne_closed k).symm, e1, Tcp.resetError, Tcp.setError]
          · rw [e2] at e
            rcases e with ⟨-, hd', -, -, -, rfl⟩ | ⟨e, -⟩
            · rw [on_name]
              simp [errorAfter, Tcp.name, (kind_ne_reset k).symm, e1, Tcp.resetError, Tcp.setError]
            · cases e
        · rw [if_neg hr] at h2
          unfold Tcp.afterPush at h2
          split at h2
          · cases h2
            simp [errorAfter, on_name, kind_ne_closed, kind_ne_reset]
          · rename_i hnk
            rw [mkClosed_true] at h2
            cases h2
            have hk2 : k = .lastAck := by
              cases k <;> simp [Tcp.nextKind] at hnk
              rfl
            subst hk2
            have hrst : hd.flags.rst = false := by
              cases hh : hd.flags.rst with
              | false => rfl
              | true =>
                exfalso
                unfold Conn.pushPacket at h1
                rw [if_neg (by rw [hk.live]; simp), if_pos hh] at h1
                cases h1
                have hfa : (c.pushRst hd).finWasAcked = c.finWasAcked := by
                  unfold Conn.pushRst
                  split
                  · rfl
                  · split
                    · rfl
                    · split <;> rfl
                simp [Tcp.nextKind, hfa, hk.finAcked, Kind.finAcked] at hnk
            simp [errorAfter, Tcp.name, Kind.name, hrst]
  | pop hx =>
    simp only [Sock.pop, R.bind_eq_ok] at hx
    obtain ⟨⟨t2, r2⟩, hx, h2⟩ := hx
    cases h2
    have : t2.error = t.error := by
      obtain ⟨st, err⟩ := t
      cases st with
      | closed b w => cases hx; rfl
      | on k c =>
        simp only [Tcp.pop, R.bind_eq_ok] at hx
        obtain ⟨x, -, hx⟩ := hx
        cases hx
        rfl
      | rst b w =>
        cases b with
        | nil => cases hx
        | cons a l =>
          simp only [Tcp.pop, R.bind_eq_ok] at hx
          obtain ⟨_, -, st, -, hx⟩ := hx
          cases hx
          rfl
    dsimp only at this ⊢
    rw [this]
    simp [errorAfter]
  | timeout hx =>
    rename_i kk
    obtain ⟨st, err⟩ := t
    cases st with
    | rst b w => cases hx; exact hsame
    | closed b w => cases hx; exact hsame
    | on k c =>
      have hk : OnOk k c := hok
      simp only [Tcp.timeout] at hx
      split at hx
      · rename_i hkk
        subst hkk
        split at hx
        · rename_i h1
          simp only [R.bind_eq_ok, R.assert_eq_ok] at hx
          obtain ⟨⟨t2, r⟩, h3, _, h4, hx⟩ := hx
          cases hx
          have herr : t2.error = some .timedOut ∧ (t2.name = .closed ∨ t2.name = .reset) := by
            simp only [Tcp.rstClose] at h3
            split at h3
            · rw [R.bind_eq_ok] at h3
              obtain ⟨t4, h5, h6⟩ := h3
              cases h6
              obtain ⟨q1, q2⟩ := closedWhileConnecting_error h5
              exact ⟨q1, Or.inl q2⟩
            · split at h3
              · rw [R.bind_eq_ok] at h3
                obtain ⟨t4, h5, h6⟩ := h3
                cases h6
                obtain ⟨q1, q2⟩ := resetConnection_error hk.reach h5
                exact ⟨q1, Or.inr q2⟩
              · cases h3; cases h4
          dsimp only
          rw [herr.1, on_name]
          unfold errorAfter
          rw [if_neg]
          · simp only
            rw [if_neg]
            rcases h1 with rfl | rfl <;> simp [Kind.name]
          · rcases herr.2 with q | q <;> rw [q]
            · exact (kind_ne_closed k).symm
            · exact (kind_ne_reset k).symm
        · split at hx
          · rename_i hw
            subst hw
            rw [mkClosed_true] at hx
            cases hx
            simp [errorAfter, Tcp.name, Kind.name]
          · cases hx; exact hsame
      · cases hx; exact hsame
  | abort hx =>
    obtain ⟨st, err⟩ := t
    cases st with
    | rst b w => cases hx; exact hsame
    | closed b w => cases hx; exact hsame
    | on k c =>
      have hk : OnOk k c := hok
      simp only [Tcp.rstClose] at hx
      split at hx
      · rename_i hs
        subst hs
        rw [R.bind_eq_ok] at hx
        obtain ⟨t4, h5, h6⟩ := hx
        cases h6
        obtain ⟨q1, q2⟩ := closedWhileConnecting_error h5
        rw [q1, q2]
        simp [errorAfter, Tcp.name, Kind.name]
      · rename_i hs
        split at hx
        · rw [R.bind_eq_ok] at hx
          obtain ⟨t4, h5, h6⟩ := hx
          cases h6
          obtain ⟨q1, q2⟩ := resetConnection_error hk.reach h5
          rw [q1, q2, on_name]
          simp [errorAfter, kind_synSent, hs, (kind_ne_reset k).symm]
        · cases hx; exact hsame

/-- **C48**: calls leave the pending error alone, except the one that reads it. -/
theorem C48_calls {t t' : Tcp} :
    (∀ {src n r}, t.send src n = .ok (t', r) → t'.error = t.error) ∧
    (∀ {n cap out r}, t.recv n cap = .ok (t', out, r) → t'.error = t.error) ∧
    t.clearError.1.error = none ∧ t.clearError.2 = t.error := by
  refine ⟨?_, ?_, rfl, rfl⟩
  · intro src n r hx
    obtain ⟨st, err⟩ := t
    cases st with
    | rst b w => cases hx; rfl
    | closed b w => cases hx; rfl
    | on k c =>
      simp only [Tcp.send] at hx
      split at hx
      · cases hx; rfl
      · split at hx
        · simp only [R.bind_eq_ok] at hx
          obtain ⟨x, -, hx⟩ := hx
          cases hx
          rfl
        · cases hx; rfl
  · intro n cap out r hx
    obtain ⟨st, err⟩ := t
    cases st with
    | rst b w => cases hx; rfl
    | closed b w =>
      simp only [Tcp.recv] at hx
      split at hx
      · cases hx; rfl
      · split at hx
        · cases hx; rfl
        · simp only [R.bind_eq_ok] at hx
          obtain ⟨x, -, hx⟩ := hx
          cases hx
          rfl
    | on k c =>
      simp only [Tcp.recv] at hx
      split at hx
      · cases hx; rfl
      · simp only [R.bind_eq_ok] at hx
        obtain ⟨x, -, hx⟩ := hx
        cases hx
        rfl

end Shadow.Tcp
