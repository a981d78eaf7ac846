import Verif.Tcp.StatesConn

/-!
# The state diagram of a connection

`Name`, `Ev` and `Edge` are the diagram of RFC 9293 (section 3.3.2), with one more state: `reset`,
a connection that is finished except that a RST still has to be sent.
-/
namespace Shadow.Tcp

/-- The states of the diagram. -/
inductive Name where
  | init | listen | synSent | synReceived | established | finWaitOne | finWaitTwo | closing | timeWait | closeWait | lastAck
  | reset | closed
deriving Repr, DecidableEq

/-- What happens to a socket. -/
inductive Ev where
  /-- A segment with this header arrives. -/
  | segment (h : Header)
  /-- The socket sends a segment. -/
  | sent
  /-- `close()`, with or without unread data. -/
  | close (unread : Bool)
  /-- `shutdown(SHUT_WR)` or `shutdown(SHUT_RDWR)`. -/
  | shutdownWrite
  /-- The timer of the state expires. -/
  | timeout
  /-- The socket is aborted. -/
  | abort
  | connect
  | listen
  /-- Any other call: reading, writing, accepting, `shutdown(SHUT_RD)`, taking the error. -/
  | call
deriving Repr, DecidableEq

/-- The states with a connection. -/
def Name.live : Name → Bool
  | .init | .listen | .reset | .closed => false
  | _ => true

/-- The edges. -/
inductive Edge : Ev → Name → Name → Prop where
  | connect : Edge .connect .init .synSent
  | listen : Edge .listen .init .listen
  | closeInit : Edge (.close false) .init .closed
  | closeListen : Edge (.close false) .listen .closed
  | resetListen : Edge (.close false) .listen .reset
  -- opening
  | synAck {h} : h.flags.syn = true → h.flags.ack = true → h.flags.rst = false →
      Edge (.segment h) .synSent .established
  | simultaneous {h} : h.flags.syn = true → h.flags.rst = false → Edge (.segment h) .synSent .synReceived
  | ackOfSyn {h} : Edge (.segment h) .synReceived .established
  -- closing by this side
  | closeSynSent : Edge (.close false) .synSent .closed
  | closeSynReceived : Edge (.close false) .synReceived .finWaitOne
  | closeEstablished : Edge (.close false) .established .finWaitOne
  | closeCloseWait : Edge (.close false) .closeWait .lastAck
  | shutSynSent : Edge .shutdownWrite .synSent .closed
  | shutSynReceived : Edge .shutdownWrite .synReceived .finWaitOne
  | shutEstablished : Edge .shutdownWrite .established .finWaitOne
  | shutCloseWait : Edge .shutdownWrite .closeWait .lastAck
  -- closing by the other side, acknowledgements of the own FIN
  | fin {h} : Edge (.segment h) .established .closeWait
  | ackOfFin {h} : Edge (.segment h) .finWaitOne .finWaitTwo
  | finInFinWaitOne {h} : Edge (.segment h) .finWaitOne .closing
  | finAckInFinWaitOne {h} : Edge (.segment h) .finWaitOne .timeWait
  | finInFinWaitTwo {h} : Edge (.segment h) .finWaitTwo .timeWait
  | ackInClosing {h} : Edge (.segment h) .closing .timeWait
  | ackInLastAck {h} : Edge (.segment h) .lastAck .closed
  | timeWaitOver : Edge .timeout .timeWait .closed
  -- aborting
  | rstReceived {h n} : h.flags.rst = true → n.live = true → Edge (.segment h) n .closed
  | rstAnswer {h n} : h.flags.rst = false → n.live = true → Edge (.segment h) n .reset
  | closeUnread {n} : n.live = true → n ≠ .synSent → n ≠ .timeWait → Edge (.close true) n .reset
  | timeoutSynSent : Edge .timeout .synSent .closed
  | timeoutSynReceived : Edge .timeout .synReceived .reset
  | abortSynSent : Edge .abort .synSent .closed
  | abortOther {n} : n = .synReceived ∨ n = .established ∨ n = .closeWait → Edge .abort n .reset
  | rstSent : Edge .sent .reset .closed

def Kind.name : Kind → Name
  | .synSent => .synSent
  | .synReceived => .synReceived
  | .established => .established
  | .finWaitOne => .finWaitOne
  | .finWaitTwo => .finWaitTwo
  | .closing => .closing
  | .timeWait => .timeWait
  | .closeWait => .closeWait
  | .lastAck => .lastAck

def Tcp.name (t : Tcp) : Name :=
  match t.st with
  | .on k _ => k.name
  | .rst .. => .reset
  | .closed .. => .closed

/-- Data that arrived and was not read. -/
def Tcp.unread (t : Tcp) : Bool :=
  match t.st with
  | .on _ c => c.recvBufHasData
  | _ => false

namespace StatesProps

open Shadow.Base ConnProps SeqAt SendProps RecvProps Shadow.Tcp.Stream

/-! ### What each state means -/

/-- The own FIN was sent (put into the stream). -/
def Kind.finSent : Kind → Bool
  | .finWaitOne | .finWaitTwo | .closing | .timeWait | .lastAck => true
  | _ => false

/-- The peer's FIN was received. -/
def Kind.finSeen : Kind → Bool
  | .closing | .timeWait | .closeWait | .lastAck => true
  | _ => false

/-- The own SYN was acknowledged. -/
def Kind.synAcked : Kind → Bool
  | .established | .closeWait | .lastAck => true
  | _ => false

/-- The own FIN was acknowledged. -/
def Kind.finAcked : Kind → Bool
  | .finWaitTwo | .timeWait => true
  | _ => false

structure OnOk (k : Kind) (c : Conn) : Prop where
  reach : ConnReach c
  live : c.isReset = false
  syn : c.recv.isSome = true ↔ k ≠ .synSent
  unacked : k = .synSent → c.synWasAcked = false
  acked : Kind.synAcked k = true → c.synWasAcked = true
  sclosed : c.send.isClosed = Kind.finSent k
  fin : Kind.finSeen k = true → c.receivedFin = true
  finAcked : c.finWasAcked = Kind.finAcked k

/-- A receive buffer that can be read from. -/
def BufOk (b : RecvQueue) : Prop := ∃ irs rd cl, RecvOk irs rd ⟨b, cl⟩

def CState.Ok : CState → Prop
  | .on k c => OnOk k c
  | .rst b _ => b ≠ [] ∧ ∀ h ∈ b, h.flags.rst = true
  | .closed b was => (was = false → b.isEmpty = true) ∧ BufOk b

def TcpOk (t : Tcp) : Prop := CState.Ok t.st

theorem bufOk_new : BufOk (RecvQueue.new 0) := by
  refine ⟨0, [], false, ?_⟩
  constructor
  · rfl
  · rfl
  · exact Nat.zero_le _
  · intro d hd; cases hd
  · rfl
  · intro hh; cases hh
  · intro _; exact ⟨rfl, rfl⟩

theorem mkClosed_ok {b : Option RecvQueue} {w : Bool} {s : CState} (hx : mkClosed b w = .ok s)
    (hb : ∀ q, b = some q → BufOk q) :
    s = .closed (b.getD (RecvQueue.new 0)) w ∧ CState.Ok s := by
  unfold mkClosed at hx
  simp only [R.bind_eq_ok, R.assert_eq_ok] at hx
  obtain ⟨_, h1, h2⟩ := hx
  cases h2
  refine ⟨rfl, ?_, ?_⟩
  · intro hw
    subst hw
    simpa using h1
  · cases b with
    | none => exact bufOk_new
    | some q => exact hb q rfl

theorem mkClosed_true (b : Option RecvQueue) : mkClosed b true = .ok (.closed (b.getD (RecvQueue.new 0)) true) := by
  unfold mkClosed
  simp [R.assert]

theorem intoRecv_ok {c : Conn} (h : ConnReach c) : ∀ q, c.intoRecvBuffer = some q → BufOk q := by
  obtain ⟨iss, bs, a, irs, rd, h⟩ := h.inv
  intro q hq
  unfold Conn.intoRecvBuffer at hq
  cases hr : c.recv with
  | none => rw [hr] at hq; cases hq
  | some r =>
    rw [hr] at hq
    cases hq
    exact ⟨irs, rd, r.isClosed, (h.recv r hr).1⟩

/-- A reset connection has at most one packet to send, a RST. -/
theorem connectionWasReset_spec {err : Option TcpErr} {c : Conn} {t : Tcp} (h : ConnReach c)
    (hx : Tcp.connectionWasReset err c = .ok t) :
    c.isReset = true ∧
    ((c.needToSendRst = true ∧ ∃ hd, hd.flags.rst = true ∧ hd.src = c.localAddr ∧ hd.dst = c.remoteAddr ∧
        t = ⟨.rst [hd] true, Tcp.setError err .resetSent⟩) ∨
      (c.needToSendRst = false ∧ t = ⟨.closed (RecvQueue.new 0) true, err⟩)) := by
  obtain ⟨iss, bs, a, irs, rd, h⟩ := h.inv
  unfold Tcp.connectionWasReset at hx
  simp only [R.bind_eq_ok, R.assert_eq_ok] at hx
  obtain ⟨_, hr, ⟨c', o⟩, hp, hx⟩ := hx
  refine ⟨hr, ?_⟩
  cases hn : c.needToSendRst with
  | false =>
    right
    refine ⟨rfl, ?_⟩
    have : c.popPacket = .ok (c, none) := by
      unfold Conn.popPacket Conn.nextSegment
      rw [hn, hr]
      rfl
    rw [this] at hp
    cases hp
    rw [mkClosed_true] at hx
    cases hx
    rfl
  | true =>
    left
    refine ⟨rfl, ?_⟩
    cases o with
    | none =>
      exfalso
      unfold Conn.popPacket Conn.nextSegment at hp
      rw [hn] at hp
      simp only [if_true, R.bind_eq_ok] at hp
      obtain ⟨x, ⟨s, -, hs⟩, hp⟩ := hp
      cases hs
      simp only [R.bind_eq_ok, if_true] at hp
      obtain ⟨w, -, _, -, b, -, _, -, hp⟩ := hp
      cases hp
    | some y =>
      have hwin : c.send.window < M := by have := h.window; simp only [windowMax] at this; omega
      obtain ⟨p, n, -, -, q1, q2, q3, -⟩ := popPacket_spec h.send hwin (h := y.1) (pl := y.2) hp
      simp only [R.bind_eq_ok, R.assert_eq_ok, mkRst] at hx
      obtain ⟨_, -, st, ⟨_, -, hst⟩, hx⟩ := hx
      cases hst
      cases hx
      exact ⟨y.1, by rw [q3, hn], q1, q2, rfl⟩

theorem wasReset_ok {err : Option TcpErr} {c : Conn} {t : Tcp} (h : ConnReach c)
    (hx : Tcp.connectionWasReset err c = .ok t) : TcpOk t := by
  obtain ⟨-, ⟨-, hd, h1, -, -, rfl⟩ | ⟨-, rfl⟩⟩ := connectionWasReset_spec h hx
  · exact ⟨by simp, by simpa using h1⟩
  · refine ⟨(fun hh => by cases hh), bufOk_new⟩

theorem resetConnection_ok {err : Option TcpErr} {c : Conn} {t : Tcp} (h : ConnReach c)
    (hx : Tcp.resetConnection err c = .ok t) : TcpOk t ∧ t.name = .reset := by
  unfold Tcp.resetConnection at hx
  rw [R.bind_eq_ok] at hx
  obtain ⟨t', h1, hx⟩ := hx
  have hc : ConnReach c.sendRst := .step h .reset
  have := wasReset_ok hc h1
  obtain ⟨-, ⟨-, hd, -, -, -, rfl⟩ | ⟨h2, -⟩⟩ := connectionWasReset_spec hc h1
  · cases hx
    exact ⟨this, rfl⟩
  · cases h2

theorem afterFin_some {k k' : Kind} (h : Tcp.afterFin k = some k') :
    (k = .synReceived ∧ k' = .finWaitOne) ∨ (k = .established ∧ k' = .finWaitOne) ∨ (k = .closeWait ∧ k' = .lastAck) := by
  cases k <;> simp [Tcp.afterFin] at h <;> simp [h]

theorem finish_ok {err : Option TcpErr} {k : Kind} {c : Conn} {t : Tcp} (h : OnOk k c)
    (hx : Tcp.finish err k c = .ok t) :
    TcpOk t ∧ (t.name = k.name ∨ (k = .synReceived ∧ t.name = .finWaitOne) ∨ (k = .established ∧ t.name = .finWaitOne) ∨
      (k = .closeWait ∧ t.name = .lastAck)) := by
  unfold Tcp.finish at hx
  cases hk : Tcp.afterFin k with
  | none =>
    rw [hk] at hx
    cases hx
    exact ⟨h, Or.inl rfl⟩
  | some k' =>
    rw [hk] at hx
    have hcl : c.send.isClosed = false := by
      rw [h.sclosed]
      rcases afterFin_some hk with ⟨rfl, -⟩ | ⟨rfl, -⟩ | ⟨rfl, -⟩ <;> rfl
    obtain ⟨c', e, k1, k2, k3, k4, k5, k6, -⟩ := sendFin_facts h.reach hcl
    simp only [e, R.bind_ok] at hx
    cases hx
    have hsome : c'.recv.isSome = true := by
      rw [k4, h.syn]
      rcases afterFin_some hk with ⟨rfl, -⟩ | ⟨rfl, -⟩ | ⟨rfl, -⟩ <;> simp
    have hfin : c'.receivedFin = c.receivedFin := by unfold Conn.receivedFin; rw [k4]
    rcases afterFin_some hk with ⟨rfl, rfl⟩ | ⟨rfl, rfl⟩ | ⟨rfl, rfl⟩
    · refine ⟨⟨k1, by rw [k5, h.live], by simp [hsome], by simp, (fun hh => by cases hh), k2, (fun hh => by cases hh), k6⟩,
        Or.inr (Or.inl ⟨rfl, rfl⟩)⟩
    · refine ⟨⟨k1, by rw [k5, h.live], by simp [hsome], by simp, (fun hh => by cases hh), k2, (fun hh => by cases hh), k6⟩,
        Or.inr (Or.inr (Or.inl ⟨rfl, rfl⟩))⟩
    · refine ⟨⟨k1, by rw [k5, h.live], by simp [hsome], by simp, (fun _ => by rw [k3]; exact h.acked rfl), k2,
        (fun _ => by rw [hfin]; exact h.fin rfl), k6⟩, Or.inr (Or.inr (Or.inr ⟨rfl, rfl⟩))⟩

theorem OnOk.rstOnData {k c} (h : OnOk k c) : OnOk k c.setSendRstIfRecvPayload :=
  ⟨.step h.reach .rstOnData, h.live, h.syn, h.unacked, h.acked, h.sclosed, h.fin, h.finAcked⟩

theorem closedWhileConnecting_ok {err : Option TcpErr} {t : Tcp} (hx : Tcp.closedWhileConnecting err = .ok t) :
    TcpOk t ∧ t.name = .closed := by
  unfold Tcp.closedWhileConnecting at hx
  rw [mkClosed_true] at hx
  cases hx
  exact ⟨⟨(fun hh => by cases hh), bufOk_new⟩, rfl⟩

theorem name_live (k : Kind) : k.name.live = true := by cases k <;> rfl

/-! ### Each operation -/

theorem close_ok {t t' : Tcp} (h : TcpOk t) (hx : t.close = .ok t') :
    TcpOk t' ∧ (t'.name = t.name ∨ Edge (.close t.unread) t.name t'.name) := by
  obtain ⟨st, err⟩ := t
  cases st with
  | rst b w => cases hx; exact ⟨h, Or.inl rfl⟩
  | closed b w => cases hx; exact ⟨h, Or.inl rfl⟩
  | on k c =>
    simp only [Tcp.close] at hx
    have hk : OnOk k c := h
    by_cases hs : k = .synSent
    · subst hs
      rw [if_pos rfl] at hx
      obtain ⟨h1, h2⟩ := closedWhileConnecting_ok hx
      refine ⟨h1, Or.inr ?_⟩
      rw [h2]
      have : (⟨.on .synSent c, err⟩ : Tcp).unread = false := by
        have hn : c.recv = none := by
          have := hk.syn
          simpa using this
        show c.recvBufHasData = false
        unfold Conn.recvBufHasData
        rw [hn]
      rw [this]
      exact .closeSynSent
    · rw [if_neg hs] at hx
      by_cases hd : k ≠ .timeWait ∧ c.recvBufHasData = true
      · rw [if_pos hd] at hx
        obtain ⟨h1, h2⟩ := resetConnection_ok hk.reach hx
        refine ⟨h1, Or.inr ?_⟩
        rw [h2]
        have : (⟨.on k c, err⟩ : Tcp).unread = true := hd.2
        rw [this]
        refine .closeUnread (name_live k) ?_ ?_
        · intro hh; cases k <;> simp [Tcp.name, Kind.name] at hh hs
        · intro hh; cases k <;> simp [Tcp.name, Kind.name] at hh hd
      · rw [if_neg hd] at hx
        obtain ⟨h1, h2⟩ := finish_ok hk.rstOnData hx
        refine ⟨h1, ?_⟩
        rcases h2 with h2 | h2
        · exact Or.inl h2
        · right
          have hun : (⟨.on k c, err⟩ : Tcp).unread = false := by
            show c.recvBufHasData = false
            rw [Bool.eq_false_iff]
            intro hh
            refine hd ⟨?_, hh⟩
            intro hk2
            subst hk2
            rcases h2 with ⟨hh, -⟩ | ⟨hh, -⟩ | ⟨hh, -⟩ <;> cases hh
          rw [hun]
          rcases h2 with ⟨rfl, h2⟩ | ⟨rfl, h2⟩ | ⟨rfl, h2⟩ <;> rw [h2]
          · exact .closeSynReceived
          · exact .closeEstablished
          · exact .closeCloseWait

theorem shutdown_ok {t t' : Tcp} {how : How} {r : Res Unit} (h : TcpOk t) (hx : t.shutdown how = .ok (t', r)) :
    TcpOk t' ∧ (t'.name = t.name ∨ (how ≠ .read ∧ Edge .shutdownWrite t.name t'.name)) := by
  obtain ⟨st, err⟩ := t
  cases st with
  | rst b w => cases hx; exact ⟨h, Or.inl rfl⟩
  | closed b w => cases hx; exact ⟨h, Or.inl rfl⟩
  | on k c =>
    simp only [Tcp.shutdown, R.bind_eq_ok] at hx
    obtain ⟨t2, hx, he⟩ := hx
    cases he
    have hk : OnOk k (if Tcp.How.reads how then c.setSendRstIfRecvPayload else c) := by
      split
      · exact OnOk.rstOnData h
      · exact h
    generalize (if Tcp.How.reads how then c.setSendRstIfRecvPayload else c) = c2 at hk hx
    unfold Tcp.shutdownOn at hx
    by_cases hw : Tcp.How.writes how = true
    · rw [if_pos hw] at hx
      have hr : how ≠ .read := by rintro rfl; cases hw
      by_cases hs : k = .synSent
      · subst hs
        rw [if_pos rfl] at hx
        obtain ⟨h1, h2⟩ := closedWhileConnecting_ok hx
        exact ⟨h1, Or.inr ⟨hr, by rw [h2]; exact .shutSynSent⟩⟩
      · rw [if_neg hs] at hx
        obtain ⟨h1, h2⟩ := finish_ok hk hx
        refine ⟨h1, ?_⟩
        rcases h2 with h2 | ⟨rfl, h2⟩ | ⟨rfl, h2⟩ | ⟨rfl, h2⟩
        · exact Or.inl h2
        · exact Or.inr ⟨hr, by rw [h2]; exact .shutSynReceived⟩
        · exact Or.inr ⟨hr, by rw [h2]; exact .shutEstablished⟩
        · exact Or.inr ⟨hr, by rw [h2]; exact .shutCloseWait⟩
    · rw [if_neg hw] at hx
      cases hx
      exact ⟨hk, Or.inl rfl⟩

theorem rstClose_ok {t t' : Tcp} {r : Res Unit} (h : TcpOk t) (hx : t.rstClose = .ok (t', r)) :
    TcpOk t' ∧ ((t'.name = t.name ∧ r = .err .invalidState ∧ t' = t) ∨
      (r = .ok () ∧ ((t.name = .synSent ∧ t'.name = .closed) ∨
        ((t.name = .synReceived ∨ t.name = .established ∨ t.name = .closeWait) ∧ t'.name = .reset)))) := by
  obtain ⟨st, err⟩ := t
  cases st with
  | rst b w => cases hx; exact ⟨h, Or.inl ⟨rfl, rfl, rfl⟩⟩
  | closed b w => cases hx; exact ⟨h, Or.inl ⟨rfl, rfl, rfl⟩⟩
  | on k c =>
    have hk : OnOk k c := h
    simp only [Tcp.rstClose] at hx
    by_cases hs : k = .synSent
    · subst hs
      rw [if_pos rfl, R.bind_eq_ok] at hx
      obtain ⟨t2, hx, he⟩ := hx
      cases he
      obtain ⟨h1, h2⟩ := closedWhileConnecting_ok hx
      exact ⟨h1, Or.inr ⟨rfl, Or.inl ⟨rfl, h2⟩⟩⟩
    · rw [if_neg hs] at hx
      by_cases hf : (Tcp.afterFin k).isSome = true
      · rw [if_pos hf, R.bind_eq_ok] at hx
        obtain ⟨t2, hx, he⟩ := hx
        cases he
        obtain ⟨h1, h2⟩ := resetConnection_ok hk.reach hx
        refine ⟨h1, Or.inr ⟨rfl, Or.inr ⟨?_, h2⟩⟩⟩
        obtain ⟨k', hk'⟩ := Option.isSome_iff_exists.1 hf
        rcases afterFin_some hk' with ⟨rfl, -⟩ | ⟨rfl, -⟩ | ⟨rfl, -⟩
        · exact Or.inl rfl
        · exact Or.inr (Or.inl rfl)
        · exact Or.inr (Or.inr rfl)
      · rw [if_neg hf] at hx
        cases hx
        exact ⟨h, Or.inl ⟨rfl, rfl, rfl⟩⟩

theorem send_ok {t t' : Tcp} {src : List Byte} {n : Nat} {r : Res Nat} (h : TcpOk t) (hx : t.send src n = .ok (t', r)) :
    TcpOk t' ∧ t'.name = t.name := by
  obtain ⟨st, err⟩ := t
  cases st with
  | rst b w => cases hx; exact ⟨h, rfl⟩
  | closed b w => cases hx; exact ⟨h, rfl⟩
  | on k c =>
    have hk : OnOk k c := h
    simp only [Tcp.send] at hx
    by_cases h1 : k = .synSent ∨ k = .synReceived
    · rw [if_pos h1] at hx; cases hx; exact ⟨h, rfl⟩
    · rw [if_neg h1] at hx
      by_cases h2 : k = .established ∨ k = .closeWait
      · rw [if_pos h2] at hx
        simp only [R.bind_eq_ok] at hx
        obtain ⟨⟨c', res⟩, h3, hx⟩ := hx
        cases hx
        have hcl : c.send.isClosed = false := by
          rw [hk.sclosed]; rcases h2 with rfl | rfl <;> rfl
        obtain ⟨k1, k2, k3, k4, k5, -⟩ := sendData_facts hk.reach hcl h3
        refine ⟨?_, rfl⟩
        have hfin : c'.receivedFin = c.receivedFin := by unfold Conn.receivedFin; rw [k4]
        refine ⟨k1, by rw [k5]; exact hk.live, by rw [k4]; exact hk.syn, by rw [k3]; exact hk.unacked,
          by rw [k3]; exact hk.acked, by rw [k2, ← hk.sclosed, hcl], by rw [hfin]; exact hk.fin, ?_⟩
        have : c'.finWasAcked = false := by unfold Conn.finWasAcked; rw [k2]; rfl
        rw [this]
        rcases h2 with rfl | rfl <;> rfl
      · rw [if_neg h2] at hx; cases hx; exact ⟨h, rfl⟩

theorem recv_ok {t t' : Tcp} {n cap : Nat} {out : List Byte} {r : Res Nat} (h : TcpOk t)
    (hx : t.recv n cap = .ok (t', out, r)) : TcpOk t' ∧ t'.name = t.name := by
  obtain ⟨st, err⟩ := t
  cases st with
  | rst b w => cases hx; exact ⟨h, rfl⟩
  | closed b w =>
    obtain ⟨h0, irs, rd, cl, hb⟩ := h
    simp only [Tcp.recv] at hx
    cases w with
    | false => cases hx; exact ⟨⟨h0, irs, rd, cl, hb⟩, rfl⟩
    | true =>
      rw [if_neg (by simp)] at hx
      by_cases he : b.isEmpty = true
      · rw [if_pos he] at hx; cases hx; exact ⟨⟨h0, irs, rd, cl, hb⟩, rfl⟩
      · rw [if_neg he] at hx
        obtain ⟨q', o, io, D, e, -, -, -, -, -, k, -⟩ := read_spec hb n cap
        have e' : b.read n cap = .ok (q', o, io) := e
        simp only [e', R.bind_ok] at hx
        cases hx
        exact ⟨⟨(fun hh => by cases hh), irs, rd ++ D, cl, k⟩, rfl⟩
  | on k c =>
    have hk : OnOk k c := h
    simp only [Tcp.recv] at hx
    by_cases h1 : k = .synSent ∨ k = .synReceived
    · rw [if_pos h1] at hx; cases hx; exact ⟨h, rfl⟩
    · rw [if_neg h1] at hx
      simp only [R.bind_eq_ok] at hx
      obtain ⟨⟨c', o, res⟩, h3, hx⟩ := hx
      cases hx
      obtain ⟨k1, k2, k3, k4, k5, -⟩ := recvData_facts hk.reach h3
      refine ⟨?_, rfl⟩
      have ha : c'.synWasAcked = c.synWasAcked := by unfold Conn.synWasAcked; rw [k2]
      have hf : c'.finWasAcked = c.finWasAcked := by unfold Conn.finWasAcked; rw [k2]
      refine ⟨k1, by rw [k5]; exact hk.live, ?_, by rw [ha]; exact hk.unacked, by rw [ha]; exact hk.acked,
        by rw [k2]; exact hk.sclosed, by rw [k3]; exact hk.fin, by rw [hf]; exact hk.finAcked⟩
      rw [k4]
      simp only [true_iff]
      intro hh
      exact h1 (Or.inl hh)

theorem pop_ok {t t' : Tcp} {r : Res (Header × Payload)} (h : TcpOk t) (hx : t.pop = .ok (t', r)) :
    TcpOk t' ∧ (t'.name = t.name ∨ (t.name = .reset ∧ t'.name = .closed)) ∧
      (∀ x, r = .ok x → x.1.flags.rst = true → t.name = .reset) := by
  obtain ⟨st, err⟩ := t
  cases st with
  | closed b w => cases hx; exact ⟨h, Or.inl rfl, fun x hh => by cases hh⟩
  | rst b w =>
    cases b with
    | nil => cases hx
    | cons hd l =>
      simp only [Tcp.pop, R.bind_eq_ok, R.assert_eq_ok] at hx
      obtain ⟨_, h1, st, h2, hx⟩ := hx
      cases hx
      refine ⟨?_, ?_, fun _ _ _ => rfl⟩
      · by_cases hl : l.isEmpty = true
        · rw [if_pos hl] at h2
          exact (mkClosed_ok h2 (fun q hq => by cases hq)).2
        · rw [if_neg hl] at h2
          cases h2
          exact ⟨by simpa using hl, fun x hx => h.2 x (List.mem_cons_of_mem _ hx)⟩
      · by_cases hl : l.isEmpty = true
        · rw [if_pos hl] at h2
          right
          refine ⟨rfl, ?_⟩
          have := (mkClosed_ok h2 (fun q hq => by cases hq)).1
          subst this
          rfl
        · rw [if_neg hl] at h2
          cases h2
          left; rfl
  | on k c =>
    have hk : OnOk k c := h
    simp only [Tcp.pop, R.bind_eq_ok] at hx
    obtain ⟨⟨c', o⟩, h3, hx⟩ := hx
    cases hx
    obtain ⟨k1, k2, k3, k4, k5, k6, k7, -⟩ := popPacket_facts hk.reach h3
    refine ⟨⟨k1, by rw [k7]; exact hk.live, by rw [k6]; exact hk.syn, by rw [k3]; exact hk.unacked,
      by rw [k3]; exact hk.acked, by rw [k2]; exact hk.sclosed, by rw [k4]; exact hk.fin, by rw [k5]; exact hk.finAcked⟩,
      Or.inl rfl, ?_⟩
    intro x hx hr
    exfalso
    obtain ⟨iss, bs, a, irs, rd, hi⟩ := hk.reach.inv
    have hwin : c.send.window < M := by have := hi.window; simp only [windowMax] at this; omega
    cases o with
    | none => cases hx
    | some y =>
      cases hx
      obtain ⟨p, n, -, -, q1, q2, q3, -⟩ := popPacket_spec hi.send hwin (h := x.1) (pl := x.2) h3
      rw [hr] at q3
      have := hi.rst q3.symm
      rw [hk.live] at this
      cases this

/-- The next state after a segment that did not reset the connection. -/
theorem afterPush_ok {err : Option TcpErr} {k : Kind} {c c' : Conn} {t : Tcp} {hd : Header} {pl : Payload} {m : Nat}
    (hk : OnOk k c) (hw : hd.windowSize < 65536) (hp : pl.flatten.length < 2147483648)
    (hx : c.pushPacket hd pl = .ok (c', m)) (hl : c'.isReset = false) (ht : Tcp.afterPush err k c' = .ok t) :
    TcpOk t ∧ (t.name = k.name ∨ Edge (.segment hd) k.name t.name) := by
  obtain ⟨f1, f2, f3, f4, f5, f6⟩ := pushPacket_facts hk.reach hw hp hx
  obtain ⟨-, g2⟩ := pushPacket_reset hk.reach hp hx
  have hack : c.synWasAcked = false → c'.synWasAcked = true → hd.flags.ack = true := by
    obtain ⟨iss, bs, a, irs, rd, hi⟩ := hk.reach.inv
    obtain ⟨a', irs', k1, k2, k3, k4, -⟩ := pushPacket_inv hi hw (payload_bound hp) hx
    intro e1 e2
    rcases k4 with rfl | ⟨-, k4, -⟩
    · have := k2.acked.1 e2
      have := hi.acked.2 this
      rw [Conn.synWasAcked, this] at e1
      cases e1
    · exact k4
  have hrecv : c.recv = none → c'.recv.isSome = true := by
    intro hn
    obtain ⟨iss, bs, a, irs, rd, hi⟩ := hk.reach.inv
    have ho := pushPacket_spec hi (p := 0) (payload_bound (hd := hd) hp) (fun r hh => by rw [hn] at hh; cases hh)
    rw [hx] at ho
    generalize hy : (R.ok (c', m) : R (Conn × Nat)) = x at ho
    cases ho with
    | afterReset => cases hy
    | noSyn => cases hy
    | rst h1 h2 =>
      cases hy
      exfalso
      have hr : c.recvWindow = none := by unfold Conn.recvWindow; rw [hn]
      unfold Conn.pushRst at hl
      rw [hr] at hl
      cases hl
    | first h1 h2 h3 h4 h5 =>
      subst hy
      generalize hy : (R.ok (c', m) : R (Conn × Nat)) = x at h5
      cases h5 with
      | noShift => cases hy
      | outside => cases hy; rfl
      | reset => cases hy; rfl
      | accepted q1 q2 =>
        cases hy
        obtain ⟨r', s', a', shift, ee, -⟩ := q2
        subst ee
        rfl
    | later h1 h2 h3 => rw [h3] at hn; cases hn
  unfold Tcp.afterPush at ht
  have hcl := hk.sclosed
  rw [← f2] at hcl
  have hsyn : k ≠ .synSent → c'.recv.isSome = true := fun hne => f6 (hk.syn.2 hne)
  have hfa0 : Kind.finSent k = false → c'.finWasAcked = false := by
    intro hh
    unfold Conn.finWasAcked
    rw [hcl, hh]
    rfl
  cases k with
  | synSent =>
    have hn : c.recv = none := by have := hk.syn; simpa using this
    have hs := hrecv hn
    obtain ⟨hs1, hs2⟩ := g2 hl hn hs
    have hun := hk.unacked rfl
    simp only [Tcp.nextKind, Conn.receivedSyn, hs, Bool.true_and] at ht
    cases hsa : c'.synWasAcked with
    | true =>
      rw [hsa] at ht
      cases ht
      refine ⟨⟨f1, hl, by simp [hs], by simp, fun _ => hsa, hcl, (fun hh => by cases hh), hfa0 rfl⟩, Or.inr ?_⟩
      exact .synAck hs1 (hack hun hsa) hs2
    | false =>
      rw [hsa] at ht
      cases ht
      refine ⟨⟨f1, hl, by simp [hs], by simp, (fun hh => by cases hh), hcl, (fun hh => by cases hh), hfa0 rfl⟩, Or.inr ?_⟩
      exact .simultaneous hs1 hs2
  | synReceived =>
    have hs := hsyn (by simp)
    simp only [Tcp.nextKind] at ht
    cases hsa : c'.synWasAcked with
    | true =>
      rw [hsa] at ht
      cases ht
      exact ⟨⟨f1, hl, by simp [hs], by simp, fun _ => hsa, hcl, (fun hh => by cases hh), hfa0 rfl⟩, Or.inr .ackOfSyn⟩
    | false =>
      rw [hsa] at ht
      cases ht
      exact ⟨⟨f1, hl, by simp [hs], by simp, (fun hh => by cases hh), hcl, (fun hh => by cases hh), hfa0 rfl⟩, Or.inl rfl⟩
  | established =>
    have hs := hsyn (by simp)
    have ha := f3 (hk.acked rfl)
    simp only [Tcp.nextKind] at ht
    cases hf : c'.receivedFin with
    | true =>
      rw [hf] at ht
      cases ht
      exact ⟨⟨f1, hl, by simp [hs], by simp, fun _ => ha, hcl, fun _ => hf, hfa0 rfl⟩, Or.inr .fin⟩
    | false =>
      rw [hf] at ht
      cases ht
      exact ⟨⟨f1, hl, by simp [hs], by simp, fun _ => ha, hcl, (fun hh => by cases hh), hfa0 rfl⟩, Or.inl rfl⟩
  | finWaitOne =>
    have hs := hsyn (by simp)
    simp only [Tcp.nextKind] at ht
    cases hf : c'.receivedFin with
    | true =>
      cases hfa : c'.finWasAcked with
      | true =>
        rw [hf, hfa] at ht
        cases ht
        exact ⟨⟨f1, hl, by simp [hs], by simp, (fun hh => by cases hh), hcl, fun _ => hf, hfa⟩, Or.inr .finAckInFinWaitOne⟩
      | false =>
        rw [hf, hfa] at ht
        cases ht
        exact ⟨⟨f1, hl, by simp [hs], by simp, (fun hh => by cases hh), hcl, fun _ => hf, hfa⟩, Or.inr .finInFinWaitOne⟩
    | false =>
      cases hfa : c'.finWasAcked with
      | true =>
        rw [hf, hfa] at ht
        cases ht
        exact ⟨⟨f1, hl, by simp [hs], by simp, (fun hh => by cases hh), hcl, (fun hh => by cases hh), hfa⟩, Or.inr .ackOfFin⟩
      | false =>
        rw [hf, hfa] at ht
        cases ht
        exact ⟨⟨f1, hl, by simp [hs], by simp, (fun hh => by cases hh), hcl, (fun hh => by cases hh), hfa⟩, Or.inl rfl⟩
  | finWaitTwo =>
    have hs := hsyn (by simp)
    have hfa := f5 hk.finAcked
    simp only [Tcp.nextKind] at ht
    cases hf : c'.receivedFin with
    | true =>
      rw [hf] at ht
      cases ht
      exact ⟨⟨f1, hl, by simp [hs], by simp, (fun hh => by cases hh), hcl, fun _ => hf, hfa⟩, Or.inr .finInFinWaitTwo⟩
    | false =>
      rw [hf] at ht
      cases ht
      exact ⟨⟨f1, hl, by simp [hs], by simp, (fun hh => by cases hh), hcl, (fun hh => by cases hh), hfa⟩, Or.inl rfl⟩
  | closing =>
    have hs := hsyn (by simp)
    have hf := f4 (hk.fin rfl)
    simp only [Tcp.nextKind] at ht
    cases hfa : c'.finWasAcked with
    | true =>
      rw [hfa] at ht
      cases ht
      exact ⟨⟨f1, hl, by simp [hs], by simp, (fun hh => by cases hh), hcl, fun _ => hf, hfa⟩, Or.inr .ackInClosing⟩
    | false =>
      rw [hfa] at ht
      cases ht
      exact ⟨⟨f1, hl, by simp [hs], by simp, (fun hh => by cases hh), hcl, fun _ => hf, hfa⟩, Or.inl rfl⟩
  | timeWait =>
    have hs := hsyn (by simp)
    cases ht
    exact ⟨⟨f1, hl, by simp [hs], by simp, (fun hh => by cases hh), hcl, fun _ => f4 (hk.fin rfl), f5 hk.finAcked⟩, Or.inl rfl⟩
  | closeWait =>
    have hs := hsyn (by simp)
    cases ht
    exact ⟨⟨f1, hl, by simp [hs], by simp, fun _ => f3 (hk.acked rfl), hcl, fun _ => f4 (hk.fin rfl), hfa0 rfl⟩, Or.inl rfl⟩
  | lastAck =>
    have hs := hsyn (by simp)
    simp only [Tcp.nextKind] at ht
    cases hfa : c'.finWasAcked with
    | true =>
      rw [hfa] at ht
      simp only [if_true, mkClosed_true] at ht
      cases ht
      refine ⟨⟨(fun hh => by cases hh), ?_⟩, Or.inr .ackInLastAck⟩
      cases hq : c'.intoRecvBuffer with
      | none => exact bufOk_new
      | some q => exact intoRecv_ok f1 q hq
    | false =>
      rw [hfa] at ht
      cases ht
      exact ⟨⟨f1, hl, by simp [hs], by simp, fun _ => f3 (hk.acked rfl), hcl, fun _ => f4 (hk.fin rfl), hfa⟩, Or.inl rfl⟩

theorem push_ok {t t' : Tcp} {hd : Header} {pl : Payload} {r : Res Nat} (h : TcpOk t)
    (hw : hd.windowSize < 65536) (hp : pl.flatten.length < 2147483648) (hx : t.push hd pl = .ok (t', r)) :
    TcpOk t' ∧ (t'.name = t.name ∨ Edge (.segment hd) t.name t'.name) := by
  obtain ⟨st, err⟩ := t
  cases st with
  | rst b w => cases hx; exact ⟨h, Or.inl rfl⟩
  | closed b w => cases hx; exact ⟨h, Or.inl rfl⟩
  | on k c =>
    have hk : OnOk k c := h
    simp only [Tcp.push] at hx
    by_cases hm : (!c.packetAddrsMatch hd) = true
    · rw [if_pos hm] at hx; cases hx; exact ⟨h, Or.inl rfl⟩
    · rw [if_neg hm] at hx
      simp only [R.bind_eq_ok] at hx
      obtain ⟨⟨c', m⟩, h1, t2, h2, hx⟩ := hx
      cases hx
      simp only at h2
      unfold Tcp.afterPacket at h2
      by_cases hr : c'.isReset = true
      · rw [if_pos hr] at h2
        have hreach : ConnReach c' := .step hk.reach (.push h1 hw hp)
        refine ⟨wasReset_ok hreach h2, Or.inr ?_⟩
        obtain ⟨-, e⟩ := connectionWasReset_spec hreach h2
        rcases (pushPacket_reset hk.reach hp h1).1 hr with ⟨e1, e2⟩ | ⟨e1, e2⟩
        · rw [e2] at e
          rcases e with ⟨e, -⟩ | ⟨-, rfl⟩
          · cases e
          · exact .rstReceived e1 (name_live k)
        · rw [e2] at e
          rcases e with ⟨-, hd', -, -, -, rfl⟩ | ⟨e, -⟩
          · exact .rstAnswer e1 (name_live k)
          · cases e
      · rw [if_neg hr] at h2
        exact afterPush_ok hk hw hp h1 (by simpa using hr) h2

theorem timeout_ok {t t' : Tcp} {k : Kind} (h : TcpOk t) (hx : t.timeout k = .ok t') :
    TcpOk t' ∧ (t'.name = t.name ∨ Edge .timeout t.name t'.name) := by
  obtain ⟨st, err⟩ := t
  cases st with
  | rst b w => cases hx; exact ⟨h, Or.inl rfl⟩
  | closed b w => cases hx; exact ⟨h, Or.inl rfl⟩
  | on k' c =>
    simp only [Tcp.timeout] at hx
    by_cases h1 : k' = k
    · subst h1
      rw [if_pos rfl] at hx
      by_cases h2 : k' = .synSent ∨ k' = .synReceived
      · rw [if_pos h2] at hx
        simp only [R.bind_eq_ok, R.assert_eq_ok] at hx
        obtain ⟨⟨t2, r⟩, h3, _, h4, hx⟩ := hx
        cases hx
        have hok : TcpOk ⟨.on k' c, some .timedOut⟩ := h
        obtain ⟨h5, h6⟩ := rstClose_ok hok h3
        refine ⟨h5, ?_⟩
        rcases h6 with ⟨-, e, -⟩ | ⟨-, ⟨e1, e2⟩ | ⟨-, e2⟩⟩
        · rw [e] at h4; cases h4
        · right
          rcases h2 with rfl | rfl
          · rw [e2]; exact .timeoutSynSent
          · cases e1
        · right
          rcases h2 with rfl | rfl
          · exfalso
            simp [Tcp.rstClose, Tcp.closedWhileConnecting, mkClosed_true] at h3
            obtain ⟨rfl, -⟩ := h3
            cases e2
          · rw [e2]; exact .timeoutSynReceived
      · rw [if_neg h2] at hx
        by_cases h3 : k' = .timeWait
        · subst h3
          rw [if_pos rfl, mkClosed_true] at hx
          cases hx
          refine ⟨⟨(fun hh => by cases hh), ?_⟩, Or.inr .timeWaitOver⟩
          have hk : OnOk .timeWait c := h
          cases hq : c.intoRecvBuffer with
          | none => exact bufOk_new
          | some q => exact intoRecv_ok hk.reach q hq
        · rw [if_neg h3] at hx
          cases hx
          exact ⟨h, Or.inl rfl⟩
    · rw [if_neg h1] at hx
      cases hx
      exact ⟨h, Or.inl rfl⟩

theorem clearError_ok {t : Tcp} (h : TcpOk t) : TcpOk t.clearError.1 ∧ t.clearError.1.name = t.name := ⟨h, rfl⟩

/-! ### Beginnings -/

theorem connect_ok (a b : Addr) (sc : Bool) (e : Option TcpErr) : TcpOk ⟨.on .synSent (Conn.new a b 0 sc), e⟩ := by
  refine ⟨.new _ _ _ _ (by decide), rfl, by simp [Conn.new], fun _ => rfl, (fun hh => by cases hh), rfl, (fun hh => by cases hh), rfl⟩

theorem child_ok {a b : Addr} {sc : Bool} {c : Conn} {hd : Header} {pl : Payload} {m : Nat}
    (hr : hd.flags.rst = false) (hw : hd.windowSize < 65536) (hp : pl.flatten.length < 2147483648)
    (hx : (Conn.new a b 0 sc).pushPacket hd pl = .ok (c, m)) : TcpOk ⟨.on .synReceived c, none⟩ := by
  have hreach : ConnReach (Conn.new a b 0 sc) := .new _ _ _ _ (by decide)
  obtain ⟨f1, f2, f3, f4, f5, f6⟩ := pushPacket_facts hreach hw hp hx
  obtain ⟨g1, g2, -⟩ := first_syn_live (by decide) hp hr hx
  refine ⟨f1, g1, by simp [g2], by simp, (fun hh => by cases hh), f2, (fun hh => by cases hh), ?_⟩
  unfold Conn.finWasAcked
  rw [f2]
  rfl

end StatesProps
end Shadow.Tcp
