import Verif.Tcp.ListenProps

/-!
# Sockets: the state diagram (C33) and the listening socket (C34)
-/
namespace Shadow.Tcp

open Shadow.Base Shadow.Tcp.ConnProps Shadow.Tcp.StatesProps Shadow.Tcp.ListenProps Shadow.Tcp.Stream

/-- The state of a socket in the diagram. -/
def Sock.name : Sock → Name
  | .init _ => .init
  | .listening _ => .listen
  | .conn t => t.name

/-- Is there data that was received and not read? -/
def Sock.unread : Sock → Bool
  | .conn t => t.unread
  | _ => false

/-- Everything that can happen to a socket.  A header holds a 16-bit window size. -/
inductive SStep : Ev → Sock → Sock → Prop where
  | connect {s s' a la r} : Sock.connect s a la = .ok (s', r) → SStep .connect s s'
  | listen {s s' b ok r} : Sock.listen s b ok = (s', r) → SStep .listen s s'
  | close {s s' order} : Sock.close s order = .ok s' → SStep (.close s.unread) s s'
  | shutdownRead {s s' r} : Sock.shutdown s .read = .ok (s', r) → SStep .call s s'
  | shutdownWrite {s s' how r} : how ≠ .read → Sock.shutdown s how = .ok (s', r) → SStep .shutdownWrite s s'
  | send {s s' src n r} : Sock.send s src n = .ok (s', r) → SStep .call s s'
  | recv {s s' n cap out r} : Sock.recv s n cap = .ok (s', out, r) → SStep .call s s'
  | accept {s s' r} : Sock.accept s = .ok (s', r) → SStep .call s s'
  | error {t} : SStep .call (.conn t) (.conn t.clearError.1)
  | push {s s' h p r} : h.windowSize < 65536 → p.flatten.length < 2147483648 → Sock.push s h p = .ok (s', r) →
      SStep (.segment h) s s'
  | pop {s s' r} : Sock.pop s = .ok (s', r) → SStep .sent s s'
  | timeout {t t' k} : Tcp.timeout k t = .ok t' → SStep .timeout (.conn t) (.conn t')
  | childTimeout {l l' key k} : Listener.timeout l key k = .ok l' → SStep .timeout (.listening l) (.listening l')
  | abort {t t' r} : Tcp.rstClose t = .ok (t', r) → SStep .abort (.conn t) (.conn t')

/-- The sockets of every execution. -/
inductive SReach : Sock → Prop where
  | init (sc : Bool) : SReach (.init sc)
  | step {e s s'} : SReach s → SStep e s s' → SReach s'
  | accepted {l l' t} : SReach (.listening l) → l.accept = .ok (l', .ok t) → SReach (.conn t)

def SockOk : Sock → Prop
  | .init _ => True
  | .listening l => ListenProps.Ok l
  | .conn t => TcpOk t

theorem listener_close_ok {l : Listener} {order : List Nat} {t : Tcp} (hx : l.close order = .ok t) :
    TcpOk t ∧ (t.name = .closed ∨ t.name = .reset) := by
  unfold Listener.close at hx
  simp only [R.bind_eq_ok] at hx
  obtain ⟨l2, -, _, -, st, h1, hx⟩ := hx
  cases hx
  unfold Listener.afterListen at h1
  split at h1
  · obtain ⟨rfl, h2⟩ := mkClosed_ok h1 (fun q hq => by cases hq)
    exact ⟨h2, Or.inl rfl⟩
  · rename_i hne
    unfold mkRst at h1
    simp only [R.bind_eq_ok] at h1
    obtain ⟨_, -, h1⟩ := h1
    cases h1
    refine ⟨⟨?_, ?_⟩, Or.inr rfl⟩
    · intro hh
      rw [hh] at hne
      exact hne rfl
    · intro h hh
      exact (List.mem_filter.1 hh).2

/-- Every step keeps the invariant and follows the diagram. -/
theorem step_ok {e : Ev} {s s' : Sock} (h : SockOk s) (hs : SStep e s s') :
    SockOk s' ∧ (s'.name = s.name ∨ Edge e s.name s'.name) := by
  cases hs with
  | connect hx =>
    cases s with
    | init sc =>
      simp only [Sock.connect] at hx
      split at hx
      · cases hx; exact ⟨h, Or.inl rfl⟩
      · simp only [R.bind_eq_ok] at hx
        obtain ⟨_, -, hx⟩ := hx
        cases hx
        exact ⟨connect_ok _ _ _ _, Or.inr .connect⟩
    | listening l => cases hx; exact ⟨h, Or.inl rfl⟩
    | conn t => cases hx; exact ⟨h, Or.inl rfl⟩
  | listen hx =>
    cases s with
    | init sc =>
      simp only [Sock.listen] at hx
      split at hx
      · cases hx; exact ⟨new_ok _ _, Or.inr .listen⟩
      · cases hx; exact ⟨h, Or.inl rfl⟩
    | listening l =>
      simp only [Sock.listen] at hx
      split at hx
      · cases hx; exact ⟨relisten_ok h _, Or.inl rfl⟩
      · cases hx; exact ⟨h, Or.inl rfl⟩
    | conn t => cases hx; exact ⟨h, Or.inl rfl⟩
  | close hx =>
    cases s with
    | init sc =>
      simp only [Sock.close, R.bind_eq_ok] at hx
      obtain ⟨st, h1, hx⟩ := hx
      cases hx
      obtain ⟨rfl, h2⟩ := mkClosed_ok h1 (fun q hq => by cases hq)
      exact ⟨h2, Or.inr .closeInit⟩
    | listening l =>
      simp only [Sock.close, R.bind_eq_ok] at hx
      obtain ⟨t, h1, hx⟩ := hx
      cases hx
      obtain ⟨h2, h3⟩ := listener_close_ok h1
      refine ⟨h2, Or.inr ?_⟩
      show Edge _ _ t.name
      rcases h3 with h3 | h3 <;> rw [h3]
      · exact .closeListen
      · exact .resetListen
    | conn t =>
      simp only [Sock.close, R.bind_eq_ok] at hx
      obtain ⟨t', h1, hx⟩ := hx
      cases hx
      exact close_ok h h1
  | shutdownRead hx =>
    cases s with
    | init sc => cases hx; exact ⟨h, Or.inl rfl⟩
    | listening l => cases hx; exact ⟨h, Or.inl rfl⟩
    | conn t =>
      simp only [Sock.shutdown, R.bind_eq_ok] at hx
      obtain ⟨⟨t', r⟩, h1, hx⟩ := hx
      cases hx
      obtain ⟨h2, h3⟩ := shutdown_ok h h1
      refine ⟨h2, ?_⟩
      rcases h3 with h3 | ⟨h3, -⟩
      · exact Or.inl h3
      · exact absurd rfl h3
  | shutdownWrite hne hx =>
    cases s with
    | init sc => cases hx; exact ⟨h, Or.inl rfl⟩
    | listening l => cases hx; exact ⟨h, Or.inl rfl⟩
    | conn t =>
      simp only [Sock.shutdown, R.bind_eq_ok] at hx
      obtain ⟨⟨t', r⟩, h1, hx⟩ := hx
      cases hx
      obtain ⟨h2, h3⟩ := shutdown_ok h h1
      refine ⟨h2, ?_⟩
      rcases h3 with h3 | ⟨-, h3⟩
      · exact Or.inl h3
      · exact Or.inr h3
  | send hx =>
    cases s with
    | init sc => cases hx; exact ⟨h, Or.inl rfl⟩
    | listening l => cases hx; exact ⟨h, Or.inl rfl⟩
    | conn t =>
      simp only [Sock.send, R.bind_eq_ok] at hx
      obtain ⟨⟨t', r⟩, h1, hx⟩ := hx
      cases hx
      obtain ⟨h2, h3⟩ := send_ok h h1
      exact ⟨h2, Or.inl h3⟩
  | recv hx =>
    cases s with
    | init sc => cases hx; exact ⟨h, Or.inl rfl⟩
    | listening l => cases hx; exact ⟨h, Or.inl rfl⟩
    | conn t =>
      simp only [Sock.recv, R.bind_eq_ok] at hx
      obtain ⟨⟨t', o, r⟩, h1, hx⟩ := hx
      cases hx
      obtain ⟨h2, h3⟩ := recv_ok h h1
      exact ⟨h2, Or.inl h3⟩
  | accept hx =>
    cases s with
    | init sc => cases hx; exact ⟨h, Or.inl rfl⟩
    | conn t => cases hx; exact ⟨h, Or.inl rfl⟩
    | listening l =>
      simp only [Sock.accept, R.bind_eq_ok] at hx
      obtain ⟨⟨l', r⟩, h1, hx⟩ := hx
      cases hx
      rcases accept_spec h with ⟨-, e⟩ | ⟨c, rest, l2, -, -, e, -, e2, -⟩
      · rw [e] at h1; cases h1; exact ⟨h, Or.inl rfl⟩
      · rw [e] at h1; cases h1; exact ⟨e2, Or.inl rfl⟩
  | error =>
    obtain ⟨h1, h2⟩ := clearError_ok (t := _) h
    exact ⟨h1, Or.inl h2⟩
  | push hw hp hx =>
    cases s with
    | init sc => cases hx; exact ⟨h, Or.inl rfl⟩
    | listening l =>
      simp only [Sock.push, R.bind_eq_ok] at hx
      obtain ⟨⟨l', r⟩, h1, hx⟩ := hx
      cases hx
      exact ⟨push_keeps h hw hp h1, Or.inl rfl⟩
    | conn t =>
      simp only [Sock.push, R.bind_eq_ok] at hx
      obtain ⟨⟨t', r⟩, h1, hx⟩ := hx
      cases hx
      exact push_ok h hw hp h1
  | pop hx =>
    cases s with
    | init sc => cases hx; exact ⟨h, Or.inl rfl⟩
    | listening l =>
      simp only [Sock.pop, R.bind_eq_ok] at hx
      obtain ⟨⟨l', r⟩, h1, hx⟩ := hx
      cases hx
      refine ⟨?_, Or.inl rfl⟩
      rcases pop_spec h h1 with ⟨-, e, -⟩ | ⟨c, t, w, y, rest, -, -, -, -, -, -, -, e⟩
      · subst e; exact h
      · exact e
    | conn t =>
      simp only [Sock.pop, R.bind_eq_ok] at hx
      obtain ⟨⟨t', r⟩, h1, hx⟩ := hx
      cases hx
      obtain ⟨h2, h3, -⟩ := pop_ok h h1
      refine ⟨h2, ?_⟩
      rcases h3 with h3 | ⟨h3, h4⟩
      · exact Or.inl h3
      · right
        show Edge _ t.name t'.name
        rw [h3, h4]
        exact .rstSent
  | timeout hx => exact timeout_ok h hx
  | childTimeout hx =>
    refine ⟨?_, Or.inl rfl⟩
    rcases timeout_spec h hx with e | ⟨c, t, w, -, -, -, -, -, e⟩
    · subst e; exact h
    · exact e
  | abort hx =>
    obtain ⟨h1, h2⟩ := rstClose_ok h hx
    refine ⟨h1, ?_⟩
    rcases h2 with ⟨e, -⟩ | ⟨-, ⟨e1, e2⟩ | ⟨e1, e2⟩⟩
    · exact Or.inl e
    · right
      show Edge _ (Tcp.name _) (Tcp.name _)
      rw [e1, e2]
      exact .abortSynSent
    · right
      show Edge _ (Tcp.name _) (Tcp.name _)
      rw [e2]
      exact .abortOther e1

theorem SReach.ok {s : Sock} (h : SReach s) : SockOk s := by
  induction h with
  | init sc => trivial
  | step _ hs ih => exact (step_ok ih hs).1
  | accepted _ hx ih =>
    rcases accept_spec ih with ⟨-, e⟩ | ⟨c, rest, l2, -, hc, e, -, -, -⟩
    · rw [e] at hx; cases hx
    · rw [e] at hx
      cases hx
      exact ((show ListenProps.Ok _ from ih).kids c hc).ok

/-! ### C33 -/

/-- **C33**: in every execution, a socket changes its state only along an edge of the diagram. -/
theorem C33_edge {e : Ev} {s s' : Sock} (h : SReach s) (hs : SStep e s s') :
    s'.name = s.name ∨ Edge e s.name s'.name := (step_ok h.ok hs).2

/-- The order of the states. -/
def Name.rank : Name → Nat
  | .init => 0
  | .listen => 1
  | .synSent => 1
  | .synReceived => 2
  | .established => 3
  | .finWaitOne => 4
  | .closeWait => 4
  | .finWaitTwo => 5
  | .closing => 5
  | .lastAck => 5
  | .timeWait => 6
  | .reset => 7
  | .closed => 8

/-- A connection never goes back to an earlier state; at most eight changes can happen. -/
theorem C33_progress {e : Ev} {s s' : Sock} (h : SReach s) (hs : SStep e s s') :
    s'.name = s.name ∨ s.name.rank < s'.name.rank := by
  rcases C33_edge h hs with e | e
  · exact Or.inl e
  · right
    generalize s'.name = n' at e ⊢
    generalize s.name = n at e ⊢
    cases e with
    | rstReceived _ hl => cases n <;> simp [Name.live] at hl <;> simp [Name.rank]
    | rstAnswer _ hl => cases n <;> simp [Name.live] at hl <;> simp [Name.rank]
    | closeUnread hl _ _ => cases n <;> simp [Name.live] at hl <;> simp [Name.rank]
    | abortOther hl => rcases hl with rfl | rfl | rfl <;> simp [Name.rank]
    | _ => simp [Name.rank]

/-- A closed socket stays closed. -/
theorem C33_closed_final {e : Ev} {s s' : Sock} (h : SReach s) (hs : SStep e s s') (hc : s.name = .closed) :
    s'.name = .closed := by
  rcases C33_progress h hs with e | e
  · rw [e, hc]
  · rw [hc] at e
    cases hn : s'.name <;> rw [hn] at e <;> simp [Name.rank] at e

/-- A connection that was reset sends nothing but RSTs and is then closed. -/
theorem C33_reset_final {e : Ev} {s s' : Sock} (h : SReach s) (hs : SStep e s s') (hc : s.name = .reset) :
    s'.name = .reset ∨ (s'.name = .closed ∧ e = .sent) := by
  rcases C33_edge h hs with e | e
  · exact Or.inl (by rw [e, hc])
  · rw [hc] at e
    generalize s'.name = n' at e ⊢
    cases e with
    | rstReceived _ hl => cases hl
    | rstAnswer _ hl => cases hl
    | closeUnread hl _ _ => cases hl
    | abortOther hl => rcases hl with hl | hl | hl <;> cases hl
    | rstSent => exact Or.inr ⟨rfl, rfl⟩

/-- **C33**: what each state means.  `bs` is what the application has written, `a` the number of
    items of the outgoing stream (SYN, bytes, FIN) that the peer has acknowledged, `rd` what the
    application has taken out of the receive buffer, `got` the items that were received. -/
theorem C33_meaning {k : Kind} {c : Conn} {err : Option TcpErr} (h : SReach (.conn ⟨.on k c, err⟩)) :
    ∃ iss bs a irs rd, ConnInv iss bs a irs rd c ∧ c.isReset = false ∧
      (k = .synSent ↔ c.got rd = []) ∧
      (k ≠ .synSent ↔ Item.syn ∈ c.got rd) ∧
      (k = .synSent → a = 0) ∧
      (k = .established ∨ k = .closeWait ∨ k = .lastAck → 0 < a) ∧
      (c.send.buffer.finAdded = true ↔
        k = .finWaitOne ∨ k = .finWaitTwo ∨ k = .closing ∨ k = .timeWait ∨ k = .lastAck) ∧
      (k = .closing ∨ k = .timeWait ∨ k = .closeWait ∨ k = .lastAck → Item.fin ∈ c.got rd) ∧
      (c.send.buffer.finAdded = true ∧ a = (streamItems bs true).length ↔ k = .finWaitTwo ∨ k = .timeWait) := by
  have hok : OnOk k c := h.ok
  obtain ⟨iss, bs, a, irs, rd, hi⟩ := hok.reach.inv
  refine ⟨iss, bs, a, irs, rd, hi, hok.live, ?_⟩
  have hgot : c.recv.isSome = true ↔ Item.syn ∈ c.got rd := by
    unfold Conn.got
    cases hr : c.recv with
    | none => simp
    | some r =>
      have := (hi.recv r hr).2 hok.live
      simp only [Option.isSome_some, true_iff]
      unfold ConnRecv.items recvItems
      rw [this]
      simp
  have hgot0 : c.recv.isSome = false ↔ c.got rd = [] := by
    constructor
    · intro hh
      have : c.recv = none := by simpa using hh
      unfold Conn.got
      rw [this]
    · intro hh
      rw [Bool.eq_false_iff]
      intro h2
      have := hgot.1 h2
      rw [hh] at this
      cases this
  refine ⟨?_, by rw [← hgot]; exact hok.syn.symm, ?_, ?_, ?_, ?_, ?_⟩
  · rw [← hgot0, Bool.eq_false_iff]
    have := hok.syn
    constructor
    · intro h1 h2; exact this.1 h2 h1
    · intro h1
      by_cases hk : k = .synSent
      · exact hk
      · exact absurd (this.2 hk) h1
  · intro hk
    have := hok.unacked hk
    have h2 : ¬ 0 < a := fun hh => by
      have h3 := hi.acked.2 hh
      rw [Conn.synWasAcked, h3] at this
      cases this
    omega
  · intro hk
    refine hi.acked.1 (hok.acked ?_)
    rcases hk with rfl | rfl | rfl <;> rfl
  · rw [← hi.sclosed, hok.sclosed]
    cases k <;> simp [Kind.finSent]
  · intro hk
    rw [← receivedFin_iff hi]
    refine hok.fin ?_
    rcases hk with rfl | rfl | rfl | rfl <;> rfl
  · have h1 := finWasAcked_iff hi
    rw [hok.finAcked, hi.sclosed] at h1
    constructor
    · rintro ⟨e1, e2⟩
      have := h1.2 ⟨e1, by rw [e1]; exact e2⟩
      cases k <;> simp [Kind.finAcked] at this <;> simp
    · intro hk
      have hk' : Kind.finAcked k = true := by rcases hk with rfl | rfl <;> rfl
      obtain ⟨e1, e2⟩ := h1.1 hk'
      rw [e1] at e2
      exact ⟨e1, e2⟩

/-! ### C34 -/

/-- **C34**: `accept` takes the connection at the front of the queue: an established one (its SYN
    was received and the own SYN was acknowledged); it never fails otherwise. -/
theorem C34_accept {l : Listener} (h : SReach (.listening l)) :
    (l.acceptQueue = [] ∧ l.accept = .ok (l, .err .nothingToAccept)) ∨
    ∃ c rest l', l.acceptQueue = c.key :: rest ∧ c ∈ l.children ∧ l.accept = .ok (l', .ok c.tcp) ∧
      (c.tcp.name = .established ∨ c.tcp.name = .closeWait) ∧
      l'.acceptQueue = rest ∧ c ∉ l'.children ∧ (∀ d, d ≠ c → (d ∈ l'.children ↔ d ∈ l.children)) ∧
      l'.connMap c.addrs = none := by
  have hok : ListenProps.Ok l := h.ok
  rcases accept_spec hok with e | ⟨c, rest, l', h1, h2, h3, h4, -, rfl⟩
  · exact Or.inl e
  · refine Or.inr ⟨c, rest, _, h1, h2, h3, h4, rfl, ?_, ?_, ?_⟩
    · intro hh
      have := (List.mem_filter.1 hh).2
      simp at this
    · intro d hd
      simp only [List.mem_filter, bne_iff_ne, ne_eq, and_iff_left_iff_imp]
      intro hdm e
      exact hd (key_inj hok.keys hdm h2 e)
    · simp

/-- The accept queue holds exactly the children that are established (or whose peer has already
    finished), each once; the send queue exactly those that have a packet to send. -/
theorem C34_queues {l : Listener} (h : SReach (.listening l)) :
    l.acceptQueue.Nodup ∧ l.toSend.Nodup ∧
    (∀ c ∈ l.children, (c.key ∈ l.acceptQueue ↔ c.tcp.name = .established ∨ c.tcp.name = .closeWait) ∧
      c.tcp.wantsToSend = .ok (decide (c.key ∈ l.toSend)) ∧ c.tcp.name ≠ .closed) ∧
    (∀ k ∈ l.acceptQueue ++ l.toSend, ∃ c ∈ l.children, c.key = k) := by
  have hok : ListenProps.Ok l := h.ok
  refine ⟨hok.qn, hok.sn, ?_, ?_⟩
  · intro c hc
    obtain ⟨s1, s2, s3⟩ := hok.synced c hc
    exact ⟨by rw [s1, acceptable_iff], s2, s3⟩
  · intro k hk
    rcases List.mem_append.1 hk with hk | hk
    · exact hok.qmem k hk
    · exact hok.smem k hk

/-- No two children have the same pair of addresses, and the address map finds every child. -/
theorem C34_one_child_per_pair {l : Listener} (h : SReach (.listening l)) {c d : Child} (hc : c ∈ l.children)
    (hd : d ∈ l.children) (e : c.addrs = d.addrs) : c = d ∧ l.connMap c.addrs = some c.key := by
  have hok : ListenProps.Ok l := h.ok
  have h1 := (hok.map c.addrs c.key).2 ⟨c, hc, rfl, rfl⟩
  have h2 := (hok.map d.addrs d.key).2 ⟨d, hd, rfl, rfl⟩
  rw [← e, h1] at h2
  exact ⟨key_inj hok.keys hc hd (Option.some.inj h2), h1⟩

/-- A packet changes at most the child of its own address pair. -/
theorem C34_isolated {l l' : Listener} {hd : Header} {pl : Payload} {r : Res Nat} (h : SReach (.listening l))
    (hw : hd.windowSize < 65536) (hp : pl.flatten.length < 2147483648) (hx : l.push hd pl = .ok (l', r))
    {c : Child} (ha : c.addrs ≠ (hd.src, hd.dst)) : c ∈ l'.children ↔ c ∈ l.children := by
  have hok : ListenProps.Ok l := h.ok
  have hupd : ∀ {m : Listener} {d : Child} {t : Tcp} {w : Bool}, Base m → d ∈ m.children → d.addrs = (hd.src, hd.dst) →
      (c ∈ (updated m d t w).children ↔ c ∈ m.children) := by
    intro m d t w hb hdm hda
    have hne : c ∈ m.children → c.key ≠ d.key := by
      intro hc e
      have := key_inj hb.keys hc hdm e
      subst this
      exact ha hda
    unfold updated
    split
    · simp only [List.mem_filter, bne_iff_ne, ne_eq, and_iff_left_iff_imp]
      exact hne
    · simp only [List.mem_map]
      constructor
      · rintro ⟨x, hx, e⟩
        by_cases hxk : x.key = d.key
        · rw [if_pos hxk] at e
          exfalso
          have := key_inj hb.keys hx hdm hxk
          subst this
          subst e
          exact ha hda
        · rw [if_neg hxk] at e
          subst e
          exact hx
      · intro hc
        exact ⟨c, hc, by rw [if_neg (hne hc)]⟩
  cases push_spec hok hx with
  | ignored e => subst e; exact Iff.rfl
  | new h1 =>
    obtain ⟨-, -, hm, cc, w, -, -, -, hk, e, -⟩ := registerChild_spec hok hw hp h1
    subst e
    have hb := insert_base hok hm hk
    rw [hupd hb (List.mem_append_right _ (List.mem_singleton.2 rfl)) rfl]
    unfold Listener.insertChild
    simp only [List.mem_append, List.mem_singleton, or_iff_left_iff_imp]
    intro e
    subst e
    exact absurd rfl ha
  | child h1 h2 h3 h4 h5 h6 =>
    subst h5
    exact hupd hok.toBase h1 h2

theorem nodup_subset_length {L : List Nat} : ∀ {K : List Nat}, L.Nodup → L ⊆ K → L.length ≤ K.length := by
  induction L with
  | nil => intro K _ _; exact Nat.zero_le _
  | cons x L ih =>
    intro K hn hs
    rw [List.nodup_cons] at hn
    have hx : x ∈ K := hs List.mem_cons_self
    have h1 : L ⊆ K.erase x := by
      intro y hy
      refine (List.mem_erase_of_ne ?_).2 (hs (List.mem_cons_of_mem _ hy))
      intro e
      subst e
      exact hn.1 hy
    have h2 := ih hn.2 h1
    rw [List.length_erase_of_mem hx] at h2
    have := List.length_pos_of_mem hx
    simp only [List.length_cons]
    omega

theorem accept_le_children {l : Listener} (h : ListenProps.Ok l) : l.acceptQueue.length ≤ l.children.length := by
  have h1 : l.acceptQueue ⊆ l.children.map Child.key := by
    intro k hk
    obtain ⟨c, hc, rfl⟩ := h.qmem k hk
    exact List.mem_map_of_mem hc
  have := nodup_subset_length h.qn h1
  rwa [List.length_map] at this

/-- A connection that was not acknowledged becomes established only by an acknowledgement. -/
theorem established_needs_ack {t t' : Tcp} {hd : Header} {pl : Payload} {r : Res Nat} (h : KidOk true t)
    (hw : hd.windowSize < 65536) (hp : pl.flatten.length < 2147483648) (hx : t.push hd pl = .ok (t', r))
    (hn : t.name = .synReceived) (ha : Listener.acceptable t' = true) : hd.flags.ack = true := by
  have hok' := (push_ok h.ok hw hp hx).1
  obtain ⟨st, err⟩ := t
  cases st with
  | rst b w => cases hn
  | closed b w => cases hn
  | on k c =>
    have hk : k = .synReceived := by cases k <;> simp [Tcp.name, Kind.name] at hn <;> rfl
    subst hk
    have hfresh := h.fresh rfl c rfl
    have hon : OnOk .synReceived c := h.ok
    simp only [Tcp.push] at hx
    by_cases hm : (!c.packetAddrsMatch hd) = true
    · rw [if_pos hm] at hx
      cases hx
      cases ha
    · rw [if_neg hm] at hx
      simp only [R.bind_eq_ok] at hx
      obtain ⟨⟨c2, m⟩, q1, t2, q2, hx⟩ := hx
      cases hx
      simp only at q2
      unfold Tcp.afterPacket at q2
      by_cases hr : c2.isReset = true
      · rw [if_pos hr] at q2
        have hreach : ConnReach c2 := .step hon.reach (.push q1 hw hp)
        obtain ⟨-, ⟨-, _, -, -, -, rfl⟩ | ⟨-, rfl⟩⟩ := connectionWasReset_spec hreach q2 <;> cases ha
      · rw [if_neg hr] at q2
        unfold Tcp.afterPush Tcp.nextKind at q2
        cases hs : c2.synWasAcked with
        | false =>
          rw [hs] at q2
          cases q2
          cases ha
        | true =>
          obtain ⟨iss, bs, a, irs, rd, hi⟩ := hon.reach.inv
          obtain ⟨a', irs', k1, k2, k3, k4, -⟩ := pushPacket_inv hi hw (payload_bound hp) q1
          rcases k4 with rfl | ⟨-, k4, -⟩
          · have := hi.acked.2 (k2.acked.1 hs)
            rw [Conn.synWasAcked, this] at hfresh
            cases hfresh
          · exact k4

theorem updated_fields (l : Listener) (c : Child) (t : Tcp) (w : Bool) :
    (updated l c t w).acceptQueue = Listener.syncQueue l.acceptQueue c.key (Listener.acceptable t) ∧
      (updated l c t w).maxBacklog = l.maxBacklog ∧ (updated l c t w).scaling = l.scaling ∧
      (updated l c t w).nextKey = l.nextKey ∧ (updated l c t w).children.length ≤ l.children.length := by
  unfold updated
  split
  · exact ⟨rfl, rfl, rfl, rfl, List.length_filter_le _ _⟩
  · exact ⟨rfl, rfl, rfl, rfl, by simp⟩

theorem push_name_kid {sc : Bool} {t t' : Tcp} {hd : Header} {pl : Payload} {r : Res Nat} (h : KidOk sc t)
    (hw : hd.windowSize < 65536) (hp : pl.flatten.length < 2147483648) (hx : t.push hd pl = .ok (t', r))
    (ha : Listener.acceptable t' = true) : Listener.acceptable t = true ∨ t.name = .synReceived := by
  rw [acceptable_iff] at ha ⊢
  have hn := h.name
  rcases (push_ok h.ok hw hp hx).2 with e | e
  · rw [e] at ha; exact Or.inl ha
  · generalize t'.name = n' at e ha
    generalize t.name = n at e hn ⊢
    unfold KidName at hn
    cases e <;> simp_all

theorem timeout_name_kid {sc : Bool} {t t' : Tcp} {k : Kind} (h : KidOk sc t) (hx : t.timeout k = .ok t')
    (ha : Listener.acceptable t' = true) : Listener.acceptable t = true := by
  rw [acceptable_iff] at ha ⊢
  have hn := h.name
  rcases (timeout_ok h.ok hx).2 with e | e
  · rw [e] at ha; exact ha
  · generalize t'.name = n' at e ha
    generalize t.name = n at e hn ⊢
    unfold KidName at hn
    cases e <;> simp_all

theorem pop_name_kid {sc : Bool} {t t' : Tcp} {r : Res (Header × Payload)} (h : KidOk sc t) (hx : t.pop = .ok (t', r))
    (ha : Listener.acceptable t' = true) : Listener.acceptable t = true := by
  rw [acceptable_iff] at ha ⊢
  rcases (pop_ok h.ok hx).2.1 with e | ⟨-, e⟩
  · rw [e] at ha; exact ha
  · rw [e] at ha; rcases ha with ha | ha <;> cases ha

/-- What a step does to the accept queue: it stays, loses its front (`accept`), loses one element,
    or one child that was half-open is added at the back, and then it was not full (if the packet
    was an acknowledgement, which it is when window scaling is enabled). -/
inductive QueueStep (l l' : Listener) : Prop where
  | same : l'.acceptQueue = l.acceptQueue → QueueStep l l'
  | front {k} : l.acceptQueue = k :: l'.acceptQueue → (∀ c ∈ l'.children, c.key ≠ k) → QueueStep l l'
  | drop {k} : l'.acceptQueue = l.acceptQueue.erase k → (∀ c ∈ l'.children, c.key = k → c.tcp.name = .reset) →
      QueueStep l l'
  | add {c d : Child} : l'.acceptQueue = l.acceptQueue ++ [c.key] → c ∈ l.children → c.tcp.name = .synReceived →
      d ∈ l'.children → d.key = c.key → (l.scaling = true → l.acceptQueue.length < l.maxBacklog) → QueueStep l l'

theorem updated_queue {sc : Bool} {l : Listener} {c : Child} {t : Tcp} {w : Bool} (h : ListenProps.Ok l) (hm : c ∈ l.children)
    (hk : KidOk sc t)
    (hn : Listener.acceptable t = true → Listener.acceptable c.tcp = true ∨ (c.tcp.name = .synReceived ∧
      (l.scaling = true → l.acceptQueue.length < l.maxBacklog)))
    (hn2 : Listener.acceptable c.tcp = true → t.name ≠ .synReceived) : QueueStep l (updated l c t w) := by
  obtain ⟨e, -⟩ := updated_fields l c t w
  by_cases ha : Listener.acceptable t = true
  · rw [ha] at e
    by_cases hq : c.key ∈ l.acceptQueue
    · refine .same ?_
      rw [e]
      simp [Listener.syncQueue, hq]
    · rcases hn ha with hh | ⟨h1, h2⟩
      · exact absurd ((h.synced c hm).acc.2 hh) hq
      · have hcl : t.name ≠ .closed := by
          rw [acceptable_iff] at ha
          intro hh
          rw [hh] at ha
          rcases ha with ha | ha <;> cases ha
        refine .add (c := c) (d := { c with tcp := t }) ?_ hm h1 ?_ rfl h2
        · rw [e]
          simp [Listener.syncQueue, hq]
        · unfold updated
          rw [if_neg hcl]
          exact List.mem_map.2 ⟨c, hm, by rw [if_pos rfl]⟩
  · have ha' : Listener.acceptable t = false := by simpa using ha
    rw [ha'] at e
    by_cases hq : c.key ∈ l.acceptQueue
    · refine .drop (k := c.key) ?_ ?_
      · rw [e]; rfl
      · intro d hd hdk
        unfold updated at hd
        split at hd
        · have := (List.mem_filter.1 hd).2
          simp [hdk] at this
        · rename_i hcl
          obtain ⟨x, hx, hxd⟩ := List.mem_map.1 hd
          by_cases hxk : x.key = c.key
          · rw [if_pos hxk] at hxd
            subst hxd
            have h1 := hn2 ((h.synced c hm).acc.1 hq)
            have h2 : ¬ (t.name = .established ∨ t.name = .closeWait) := by rw [← acceptable_iff]; exact ha
            have h3 := hk.name
            unfold KidName at h3
            simp only
            rcases h3 with h3 | h3 | h3 | h3 | h3
            · exact absurd h3 h1
            · exact absurd (Or.inl h3) h2
            · exact absurd (Or.inr h3) h2
            · exact h3
            · exact absurd h3 hcl
          · rw [if_neg hxk] at hxd
            subst hxd
            exact absurd hdk hxk
    · refine .same ?_
      rw [e]
      show l.acceptQueue.erase _ = _
      exact List.erase_of_not_mem hq

theorem edge_back {e : Ev} {n n' : Name} (h : Edge e n n') (hn : n = .established ∨ n = .closeWait) : n' ≠ .synReceived := by
  intro hh
  subst hh
  rcases hn with rfl | rfl <;> cases h

theorem queueStep_congr {l l' l2 : Listener} (h : QueueStep l l') (e1 : l2.acceptQueue = l'.acceptQueue)
    (e2 : l2.children = l'.children) : QueueStep l l2 := by
  cases h with
  | same q => exact .same (by rw [e1, q])
  | front q1 q2 => exact .front (by rw [e1]; exact q1) (by rw [e2]; exact q2)
  | drop q1 q2 => exact .drop (by rw [e1]; exact q1) (by rw [e2]; exact q2)
  | add q1 q2 q3 q4 q5 q6 => exact .add (by rw [e1]; exact q1) q2 q3 (by rw [e2]; exact q4) q5 q6

/-- What a step does to the queue. -/
theorem queue_step {e : Ev} {l l' : Listener} (h : SReach (.listening l)) (hs : SStep e (.listening l) (.listening l')) :
    QueueStep l l' := by
  have hok : ListenProps.Ok l := h.ok
  cases hs with
  | connect hx => cases hx; exact .same rfl
  | listen hx =>
    simp only [Sock.listen] at hx
    split at hx
    · cases hx; exact .same rfl
    · cases hx; exact .same rfl
  | close hx =>
    simp only [Sock.close, R.bind_eq_ok] at hx
    obtain ⟨t, h1, hx⟩ := hx
    cases hx
  | shutdownRead hx => cases hx; exact .same rfl
  | shutdownWrite hne hx => cases hx; exact .same rfl
  | send hx => cases hx; exact .same rfl
  | recv hx => cases hx; exact .same rfl
  | accept hx =>
    simp only [Sock.accept, R.bind_eq_ok] at hx
    obtain ⟨⟨l2, r⟩, h1, hx⟩ := hx
    cases hx
    rcases accept_spec hok with ⟨-, e⟩ | ⟨c, rest, l3, e1, -, e, -, e2, e3⟩
    · rw [e] at h1; cases h1; exact .same rfl
    · rw [e] at h1
      cases h1
      subst e3
      refine .front e1 ?_
      intro d hd hh
      have := (List.mem_filter.1 hd).2
      simp [hh] at this
  | push hw hp hx =>
    simp only [Sock.push, R.bind_eq_ok] at hx
    obtain ⟨⟨l2, r⟩, h1, hx⟩ := hx
    cases hx
    cases push_spec hok h1 with
    | ignored e => subst e; exact .same rfl
    | new h2 =>
      obtain ⟨-, -, hm, cc, w, -, -, -, hk, e, -⟩ := registerChild_spec hok hw hp h2
      subst e
      refine .same ?_
      rw [(updated_fields _ _ _ _).1]
      show l.acceptQueue.erase l.nextKey = l.acceptQueue
      refine List.erase_of_not_mem ?_
      intro hh
      obtain ⟨c, hc, e⟩ := hok.qmem _ hh
      have := hok.lt c hc
      omega
    | child g1 g2 g3 g4 g5 g6 =>
      rename_i c t x w
      subst g5
      have hkid := hok.kids c g1
      refine updated_queue hok g1 (push_kid hkid hw hp g3) ?_ ?_
      · intro ha
        rcases push_name_kid hkid hw hp g3 ha with e | e
        · exact Or.inl e
        · refine Or.inr ⟨e, ?_⟩
          intro hsc
          rw [hsc] at hkid
          exact g6 e (established_needs_ack hkid hw hp g3 e ha)
      · intro ha
        rw [acceptable_iff] at ha
        rcases (push_ok hkid.ok hw hp g3).2 with e | e
        · rw [e]; rcases ha with ha | ha <;> rw [ha] <;> simp
        · exact edge_back e ha
  | pop hx =>
    simp only [Sock.pop, R.bind_eq_ok] at hx
    obtain ⟨⟨l2, r⟩, h1, hx⟩ := hx
    cases hx
    rcases pop_spec hok h1 with ⟨-, e, -⟩ | ⟨c, t, w, y, rest, e1, e2, e3, e4, e5, -, -, -⟩
    · subst e; exact .same rfl
    · subst e5
      have hkid := hok.kids c e2
      have := updated_queue (w := w) hok e2 (pop_kid hkid e3) (fun ha => Or.inl (pop_name_kid hkid e3 ha)) ?_
      · refine queueStep_congr this ?_ ?_
        · unfold updated; split <;> rfl
        · unfold updated; split <;> rfl
      · intro ha
        rw [acceptable_iff] at ha
        rcases (pop_ok hkid.ok e3).2.1 with e | ⟨-, e⟩
        · rw [e]; rcases ha with ha | ha <;> rw [ha] <;> simp
        · rw [e]; simp
  | childTimeout hx =>
    rcases timeout_spec hok hx with e | ⟨c, t, w, e1, -, e3, e4, e5, -⟩
    · subst e; exact .same rfl
    · subst e5
      have hkid := hok.kids c e1
      refine updated_queue hok e1 (timeout_kid hkid e3) (fun ha => Or.inl (timeout_name_kid hkid e3 ha)) ?_
      intro ha
      rw [acceptable_iff] at ha
      rcases (timeout_ok hkid.ok e3).2 with e | e
      · rw [e]; rcases ha with ha | ha <;> rw [ha] <;> simp
      · exact edge_back e ha

/-- A step adds at most one child, and only when neither queue is full. -/
theorem children_step {e : Ev} {l l' : Listener} (h : SReach (.listening l)) (hs : SStep e (.listening l) (.listening l')) :
    l'.children.length ≤ l.children.length ∨
    (l'.children.length = l.children.length + 1 ∧ l.acceptQueue.length < l.maxBacklog ∧
      l.children.length < l.acceptQueue.length + l.maxBacklog) := by
  have hok : ListenProps.Ok l := h.ok
  cases hs with
  | connect hx => cases hx; exact Or.inl (Nat.le_refl _)
  | listen hx =>
    simp only [Sock.listen] at hx
    split at hx
    · cases hx; exact Or.inl (Nat.le_refl _)
    · cases hx; exact Or.inl (Nat.le_refl _)
  | close hx =>
    simp only [Sock.close, R.bind_eq_ok] at hx
    obtain ⟨t, h1, hx⟩ := hx
    cases hx
  | shutdownRead hx => cases hx; exact Or.inl (Nat.le_refl _)
  | shutdownWrite hne hx => cases hx; exact Or.inl (Nat.le_refl _)
  | send hx => cases hx; exact Or.inl (Nat.le_refl _)
  | recv hx => cases hx; exact Or.inl (Nat.le_refl _)
  | accept hx =>
    simp only [Sock.accept, R.bind_eq_ok] at hx
    obtain ⟨⟨l2, r⟩, h1, hx⟩ := hx
    cases hx
    rcases accept_spec hok with ⟨-, e⟩ | ⟨c, rest, l3, e1, -, e, -, e2, e3⟩
    · rw [e] at h1; cases h1; exact Or.inl (Nat.le_refl _)
    · rw [e] at h1
      cases h1
      subst e3
      exact Or.inl (List.length_filter_le _ _)
  | @push _ _ hd pl r0 hw hp hx =>
    simp only [Sock.push, R.bind_eq_ok] at hx
    obtain ⟨⟨l2, r⟩, h1, hx⟩ := hx
    cases hx
    cases push_spec hok h1 with
    | ignored e => subst e; exact Or.inl (Nat.le_refl _)
    | new h2 h3 h4 h5 =>
      obtain ⟨-, -, hm, cc, w, -, -, -, hk, e, -⟩ := registerChild_spec hok hw hp h2
      subst e
      have hl : ∀ t a, (l.insertChild t a).children.length = l.children.length + 1 := by
        intro t a
        simp [Listener.insertChild]
      refine Classical.or_iff_not_imp_left.2 (fun hnl => ?_)
      have := (updated_fields (l.insertChild ⟨.on .synReceived cc, none⟩ (hd.src, hd.dst))
        ⟨l.nextKey, ⟨.on .synReceived cc, none⟩, (hd.src, hd.dst)⟩ ⟨.on .synReceived cc, none⟩ w).2.2.2.2
      rw [hl] at this
      have hle := accept_le_children hok
      dsimp only at hnl ⊢
      omega
    | child g1 g2 g3 g4 g5 g6 =>
      subst g5
      exact Or.inl (updated_fields _ _ _ _).2.2.2.2
  | pop hx =>
    simp only [Sock.pop, R.bind_eq_ok] at hx
    obtain ⟨⟨l2, r⟩, h1, hx⟩ := hx
    cases hx
    rcases pop_spec hok h1 with ⟨-, e, -⟩ | ⟨c, t, w, y, rest, e1, e2, e3, e4, e5, -, -, -⟩
    · subst e; exact Or.inl (Nat.le_refl _)
    · subst e5
      exact Or.inl (updated_fields _ _ _ _).2.2.2.2
  | childTimeout hx =>
    rcases timeout_spec hok hx with e | ⟨c, t, w, e1, -, e3, e4, e5, -⟩
    · subst e; exact Or.inl (Nat.le_refl _)
    · subst e5
      exact Or.inl (updated_fields _ _ _ _).2.2.2.2

/-- A listening socket after `listen(backlog)`, without further calls of `listen`. -/
inductive Listening (sc : Bool) (backlog : Nat) : Listener → Prop where
  | new : Listening sc backlog (Listener.new sc backlog)
  | step {l l' e} : Listening sc backlog l → SStep e (.listening l) (.listening l') → e ≠ .listen → Listening sc backlog l'

theorem Listening.reach {sc : Bool} {b : Nat} {l : Listener} (h : Listening sc b l) : SReach (.listening l) := by
  induction h with
  | new => exact .step (.init sc) (.listen (b := b) (ok := true) rfl)
  | step _ hs _ ih => exact .step ih hs

theorem step_params {e : Ev} {l l' : Listener} (h : SReach (.listening l)) (hs : SStep e (.listening l) (.listening l'))
    (he : e ≠ .listen) : l'.maxBacklog = l.maxBacklog ∧ l'.scaling = l.scaling ∧ l.nextKey ≤ l'.nextKey ∧
      (∀ c ∈ l'.children, l.nextKey ≤ c.key → c.tcp.name = .synReceived) ∧
      (∀ c ∈ l'.children, c.key < l.nextKey → ∃ d ∈ l.children, d.key = c.key ∧ d.addrs = c.addrs ∧
        (c.tcp.name = d.tcp.name ∨ ∃ e, Edge e d.tcp.name c.tcp.name)) := by
  have hok : ListenProps.Ok l := h.ok
  have hsame : l.maxBacklog = l.maxBacklog ∧ l.scaling = l.scaling ∧ l.nextKey ≤ l.nextKey ∧
      (∀ c ∈ l.children, l.nextKey ≤ c.key → c.tcp.name = .synReceived) ∧
      (∀ c ∈ l.children, c.key < l.nextKey → ∃ d ∈ l.children, d.key = c.key ∧ d.addrs = c.addrs ∧
        (c.tcp.name = d.tcp.name ∨ ∃ e, Edge e d.tcp.name c.tcp.name)) := by
    refine ⟨rfl, rfl, Nat.le_refl _, ?_, ?_⟩
    · intro c hc hle
      have := hok.lt c hc
      omega
    · intro c hc _
      exact ⟨c, hc, rfl, rfl, Or.inl rfl⟩
  have hupd : ∀ {m : Listener} {c : Child} {t : Tcp} {w : Bool}, m.children = l.children → m.nextKey = l.nextKey →
      m.maxBacklog = l.maxBacklog → m.scaling = l.scaling → c ∈ l.children →
      (t.name = c.tcp.name ∨ ∃ e, Edge e c.tcp.name t.name) →
      (updated m c t w).maxBacklog = l.maxBacklog ∧ (updated m c t w).scaling = l.scaling ∧
      l.nextKey ≤ (updated m c t w).nextKey ∧
      (∀ d ∈ (updated m c t w).children, l.nextKey ≤ d.key → d.tcp.name = .synReceived) ∧
      (∀ x ∈ (updated m c t w).children, x.key < l.nextKey → ∃ d ∈ l.children, d.key = x.key ∧ d.addrs = x.addrs ∧
        (x.tcp.name = d.tcp.name ∨ ∃ e, Edge e d.tcp.name x.tcp.name)) := by
    intro m c t w e1 e2 e3 e4 hc hn
    obtain ⟨-, f2, f3, f4, -⟩ := updated_fields m c t w
    refine ⟨by rw [f2, e3], by rw [f3, e4], by rw [f4, e2]; exact Nat.le_refl _, ?_, ?_⟩
    · intro d hd hle
      exfalso
      have : ∃ x ∈ l.children, x.key = d.key := by
        unfold updated at hd
        split at hd
        · exact ⟨d, by rw [← e1]; exact (List.mem_filter.1 hd).1, rfl⟩
        · obtain ⟨x, hx, rfl⟩ := List.mem_map.1 hd
          exact ⟨x, by rw [← e1]; exact hx, by split <;> rfl⟩
      obtain ⟨x, hx, e⟩ := this
      have := hok.lt x hx
      omega
    · intro x hx _
      unfold updated at hx
      split at hx
      · exact ⟨x, by rw [← e1]; exact (List.mem_filter.1 hx).1, rfl, rfl, Or.inl rfl⟩
      · obtain ⟨y, hy, rfl⟩ := List.mem_map.1 hx
        have hy' : y ∈ l.children := by rw [← e1]; exact hy
        by_cases hyk : y.key = c.key
        · have := key_inj hok.keys hy' hc hyk
          subst this
          refine ⟨y, hy', by rw [if_pos rfl], by rw [if_pos rfl], ?_⟩
          rw [if_pos rfl]
          exact hn
        · refine ⟨y, hy', by rw [if_neg hyk], by rw [if_neg hyk], Or.inl ?_⟩
          rw [if_neg hyk]
  cases hs with
  | connect hx => cases hx; exact hsame
  | listen hx => exact absurd rfl he
  | close hx =>
    simp only [Sock.close, R.bind_eq_ok] at hx
    obtain ⟨t, h1, hx⟩ := hx
    cases hx
  | shutdownRead hx => cases hx; exact hsame
  | shutdownWrite hne hx => cases hx; exact hsame
  | send hx => cases hx; exact hsame
  | recv hx => cases hx; exact hsame
  | accept hx =>
    simp only [Sock.accept, R.bind_eq_ok] at hx
    obtain ⟨⟨l2, r⟩, h1, hx⟩ := hx
    cases hx
    rcases accept_spec hok with ⟨-, e⟩ | ⟨c, rest, l3, e1, -, e, -, e2, e3⟩
    · rw [e] at h1; cases h1; exact hsame
    · rw [e] at h1
      cases h1
      subst e3
      refine ⟨rfl, rfl, Nat.le_refl _, ?_, ?_⟩
      · intro d hd; exact hsame.2.2.2.1 d (List.mem_filter.1 hd).1
      · intro d hd; exact hsame.2.2.2.2 d (List.mem_filter.1 hd).1
  | @push _ _ hd pl r0 hw hp hx =>
    simp only [Sock.push, R.bind_eq_ok] at hx
    obtain ⟨⟨l2, r⟩, h1, hx⟩ := hx
    cases hx
    cases push_spec hok h1 with
    | ignored e => subst e; exact hsame
    | new h2 h3 h4 h5 =>
      obtain ⟨-, -, hm, cc, w, -, -, -, hk, e, -⟩ := registerChild_spec hok hw hp h2
      subst e
      obtain ⟨-, f2, f3, f4, -⟩ := updated_fields (l.insertChild ⟨.on .synReceived cc, none⟩ (hd.src, hd.dst))
        ⟨l.nextKey, ⟨.on .synReceived cc, none⟩, (hd.src, hd.dst)⟩ ⟨.on .synReceived cc, none⟩ w
      have hmem : ∀ x ∈ (updated (l.insertChild ⟨.on .synReceived cc, none⟩ (hd.src, hd.dst))
          ⟨l.nextKey, ⟨.on .synReceived cc, none⟩, (hd.src, hd.dst)⟩ ⟨.on .synReceived cc, none⟩ w).children,
          x ∈ l.children ∨ (x.key = l.nextKey ∧ x.tcp.name = .synReceived) := by
        intro x hx
        unfold updated at hx
        rw [if_neg (by simp [Tcp.name, Kind.name])] at hx
        obtain ⟨y, hy, rfl⟩ := List.mem_map.1 hx
        rcases List.mem_append.1 hy with hy | hy
        · left
          have hlt := hok.lt y hy
          have hne : y.key ≠ l.nextKey := by omega
          simp only
          rw [if_neg hne]
          exact hy
        · right
          simp only [List.mem_singleton] at hy
          subst hy
          rw [if_pos rfl]
          exact ⟨rfl, rfl⟩
      refine ⟨f2, f3, ?_, ?_, ?_⟩
      · show l.nextKey ≤ Listener.nextKey _
        rw [f4]
        exact Nat.le_succ _
      · intro x hx hle
        rcases hmem x hx with h | ⟨-, h⟩
        · have := hok.lt x h
          omega
        · exact h
      · intro x hx hlt
        rcases hmem x hx with h | ⟨h, -⟩
        · exact ⟨x, h, rfl, rfl, Or.inl rfl⟩
        · omega
    | child g1 g2 g3 g4 g5 g6 =>
      subst g5
      refine hupd rfl rfl rfl rfl g1 ?_
      rcases (push_ok (hok.kids _ g1).ok hw hp g3).2 with e | e
      · exact Or.inl e
      · exact Or.inr ⟨_, e⟩
  | pop hx =>
    simp only [Sock.pop, R.bind_eq_ok] at hx
    obtain ⟨⟨l2, r⟩, h1, hx⟩ := hx
    cases hx
    rcases pop_spec hok h1 with ⟨-, e, -⟩ | ⟨c, t, w, y, rest, e1, e2, e3, e4, e5, -, -, -⟩
    · subst e; exact hsame
    · subst e5
      refine hupd rfl rfl rfl rfl e2 ?_
      rcases (pop_ok (hok.kids c e2).ok e3).2.1 with e | ⟨q1, q2⟩
      · exact Or.inl e
      · exact Or.inr ⟨.sent, by rw [q1, q2]; exact .rstSent⟩
  | childTimeout hx =>
    rcases timeout_spec hok hx with e | ⟨c, t, w, e1, -, e3, e4, e5, -⟩
    · subst e; exact hsame
    · subst e5
      refine hupd rfl rfl rfl rfl e1 ?_
      rcases (timeout_ok (hok.kids c e1).ok e3).2 with e | e
      · exact Or.inl e
      · exact Or.inr ⟨_, e⟩

/-- **C34**: with window scaling (the default), the accept queue never holds more than the backlog
    allows, nor are there more than twice as many connections in all. -/
theorem C34_bound {b : Nat} {l : Listener} (h : Listening true b l) :
    l.acceptQueue.length ≤ min (b + 1) 4294967295 ∧ l.children.length ≤ 2 * min (b + 1) 4294967295 := by
  have key : l.scaling = true ∧ l.maxBacklog = min (b + 1) 4294967295 ∧ l.acceptQueue.length ≤ l.maxBacklog ∧
      l.children.length ≤ 2 * l.maxBacklog := by
    induction h with
    | new => exact ⟨rfl, rfl, Nat.zero_le _, Nat.zero_le _⟩
    | step h0 hs he ih =>
      obtain ⟨i1, i2, i3, i4⟩ := ih
      obtain ⟨p1, p2, -⟩ := step_params h0.reach hs he
      refine ⟨by rw [p2]; exact i1, by rw [p1]; exact i2, ?_, ?_⟩
      · rw [p1]
        cases queue_step h0.reach hs with
        | same q => rw [q]; exact i3
        | front q _ =>
          have := congrArg List.length q
          simp only [List.length_cons] at this
          omega
        | drop q =>
          rw [q]
          exact Nat.le_trans List.length_erase_le i3
        | add q _ _ _ _ q6 =>
          rw [q]
          have := q6 i1
          simp only [List.length_append, List.length_singleton]
          omega
      · rw [p1]
        rcases children_step h0.reach hs with q | ⟨q1, q2, q3⟩
        · omega
        · omega
  rw [← key.2.1]
  exact key.2.2

/-- Once full, nothing more is taken: a SYN is ignored when either queue is full, and so is the
    acknowledgement that would complete a handshake when the accept queue is full. -/
theorem C34_full {l : Listener} (h : SReach (.listening l)) (hd : Header) (pl : Payload) :
    (hd.flags.syn = true → l.maxBacklog ≤ l.acceptQueue.length ∨ l.maxBacklog + l.acceptQueue.length ≤ l.children.length →
      l.push hd pl = .ok (l, .ok 0)) ∧
    (∀ c ∈ l.children, c.addrs = (hd.src, hd.dst) → c.tcp.name = .synReceived → hd.flags.ack = true →
      l.maxBacklog ≤ l.acceptQueue.length → l.push hd pl = .ok (l, .ok 0)) := by
  have hok : ListenProps.Ok l := h.ok
  have hle := accept_le_children hok
  have hsf : l.synFull = .ok (decide (l.maxBacklog ≤ l.children.length - l.acceptQueue.length)) := by
    unfold Listener.synFull
    rw [decide_eq_true hle]
    rfl
  constructor
  · intro hs hf
    unfold Listener.push
    rw [hsf, R.bind_ok, hs, Bool.true_and, if_pos]
    · rfl
    · rw [Bool.or_eq_true]
      rcases hf with hf | hf
      · left; exact decide_eq_true hf
      · right; exact decide_eq_true (by omega)
  · intro c hc ha hn hk hf
    have haf : l.acceptFull = true := decide_eq_true hf
    have hm := (hok.map c.addrs c.key).2 ⟨c, hc, rfl, rfl⟩
    rw [ha] at hm
    unfold Listener.push
    rw [hsf, R.bind_ok]
    by_cases hs : hd.flags.syn = true
    · rw [hs, haf]
      rfl
    · rw [if_neg (by rw [Bool.and_eq_true]; exact fun hh => hs hh.1), hm]
      simp only [Listener.pushToChild]
      rw [(isSynReceived_iff hok.toBase hc).2 hn, hk, haf]
      rfl

/-- A run of a listening socket; `entered` lists the connections in the order in which they entered
    the accept queue, `accepted` those that `accept` has returned. -/
inductive LRun (sc : Bool) (backlog : Nat) : Listener → List Nat → List Nat → Prop where
  | new : LRun sc backlog (Listener.new sc backlog) [] []
  | accept {l l' t k rest en ac} : LRun sc backlog l en ac → l.accept = .ok (l', .ok t) → l.acceptQueue = k :: rest →
      LRun sc backlog l' en (ac ++ [k])
  | other {l l' e en ac} : LRun sc backlog l en ac → SStep e (.listening l) (.listening l') → e ≠ .listen → e ≠ .call →
      LRun sc backlog l' (en ++ l'.acceptQueue.filter (fun k => !l.acceptQueue.contains k)) ac

theorem LRun.listening {sc b l en ac} (h : LRun sc b l en ac) : Listening sc b l := by
  induction h with
  | new => exact .new
  | accept _ hx _ ih =>
    refine .step ih (e := .call) (.accept (r := .ok ‹Tcp›) ?_) (by simp)
    simp only [Sock.accept, hx, R.bind_ok]
    rfl
  | other _ hs he _ ih => exact .step ih hs he

/-- **C34**: connections are accepted in the order in which they were established, each at most once. -/
theorem C34_fifo {sc : Bool} {b : Nat} {l : Listener} {en ac : List Nat} (h : LRun sc b l en ac) :
    List.Sublist (ac ++ l.acceptQueue) en ∧ en.Nodup ∧ (∀ k ∈ en, k < l.nextKey) ∧
      (∀ c ∈ l.children, c.key ∈ en → c.key ∈ l.acceptQueue ∨ c.tcp.name = .reset) ∧
      ∀ c ∈ l.children, c.key ∉ ac := by
  have key : List.Sublist (ac ++ l.acceptQueue) en ∧ en.Nodup ∧ (∀ k ∈ en, k < l.nextKey) ∧
      (∀ c ∈ l.children, c.key ∈ en → c.key ∈ l.acceptQueue ∨ c.tcp.name = .reset) ∧
      ∀ c ∈ l.children, c.key ∉ ac := by
    induction h with
    | new => exact ⟨List.Sublist.refl _, List.nodup_nil, (fun k hk => by cases hk), (fun c hc => by cases hc), (fun c hc => by cases hc)⟩
    | accept h0 hx hq ih =>
      obtain ⟨i1, i2, i3, i4, i5⟩ := ih
      have hok : ListenProps.Ok _ := h0.listening.reach.ok
      rcases accept_spec hok with ⟨-, e⟩ | ⟨c, rest, l3, e1, e0, e, -, e2, e3⟩
      · rw [e] at hx; cases hx
      · rw [e] at hx
        cases hx
        rw [e1] at hq
        cases hq
        subst e3
        rw [e1] at i1
        refine ⟨?_, i2, i3, ?_, ?_⟩
        · simpa using i1
        · intro d hd hen
          obtain ⟨hd, hne⟩ := List.mem_filter.1 hd
          rcases i4 d hd hen with q | q
          · rw [e1] at q
            rcases List.mem_cons.1 q with q | q
            · simp [q] at hne
            · exact Or.inl q
          · exact Or.inr q
        · intro d hd
          obtain ⟨hd, hne⟩ := List.mem_filter.1 hd
          simp only [bne_iff_ne, ne_eq] at hne
          simp only [List.mem_append, List.mem_singleton, not_or]
          exact ⟨i5 d hd, hne⟩
    | other h0 hs he hc ih =>
      rename_i l l' e en ac
      obtain ⟨i1, i2, i3, i4, i5⟩ := ih
      have hreach := h0.listening.reach
      have hok : ListenProps.Ok l := hreach.ok
      have hok' : ListenProps.Ok l' := (step_ok (s := .listening l) hok hs).1
      obtain ⟨p1, p2, p3, p4, p5⟩ := step_params hreach hs he
      have hac : ∀ k ∈ ac, k < l.nextKey := fun k hk => i3 k (i1.subset (List.mem_append_left _ hk))
      have hnotac : ∀ c ∈ l'.children, c.key ∉ ac := by
        intro c hcm hh
        obtain ⟨d, hd, e1, -⟩ := p5 c hcm (hac _ hh)
        rw [← e1] at hh
        exact i5 d hd hh
      have hback : ∀ c ∈ l'.children, c.key ∈ en → c.tcp.name = .reset ∨ (c.key ∈ l.acceptQueue ∧ ∃ d ∈ l.children,
          d.key = c.key ∧ (c.tcp.name = d.tcp.name ∨ ∃ e, Edge e d.tcp.name c.tcp.name)) := by
        intro c hcm hen
        obtain ⟨d, hd, e1, -, e2⟩ := p5 c hcm (i3 _ hen)
        rw [← e1] at hen
        rcases i4 d hd hen with q | q
        · exact Or.inr ⟨by rw [← e1]; exact q, d, hd, e1, e2⟩
        · left
          rcases e2 with e2 | ⟨ee, e2⟩
          · rw [e2, q]
          · rw [q] at e2
            exfalso
            have hopen := (hok'.synced c hcm).open_
            generalize c.tcp.name = n' at e2 hopen
            cases e2 with
            | rstReceived _ hl => cases hl
            | rstAnswer _ hl => cases hl
            | closeUnread hl _ _ => cases hl
            | abortOther hl => rcases hl with hl | hl | hl <;> cases hl
            | rstSent => exact hopen rfl
      cases queue_step hreach hs with
      | same q =>
        have hnil : l'.acceptQueue.filter (fun k => !l.acceptQueue.contains k) = [] := by
          rw [q, List.filter_eq_nil_iff]
          intro k hk
          simp [hk]
        rw [hnil, List.append_nil, q]
        refine ⟨i1, i2, fun k hk => Nat.lt_of_lt_of_le (i3 k hk) p3, ?_, hnotac⟩
        intro c hcm hen
        rcases hback c hcm hen with h1 | ⟨h1, -⟩
        · exact Or.inr h1
        · exact Or.inl h1
      | front q1 q2 =>
        have hnil : l'.acceptQueue.filter (fun k => !l.acceptQueue.contains k) = [] := by
          rw [q1, List.filter_eq_nil_iff]
          intro k hk
          simp [hk]
        rw [hnil, List.append_nil]
        rw [q1] at i1
        refine ⟨List.Sublist.trans (List.Sublist.append_left (List.sublist_cons_self _ _) _) i1, i2,
          fun k hk => Nat.lt_of_lt_of_le (i3 k hk) p3, ?_, hnotac⟩
        intro c hcm hen
        rcases hback c hcm hen with h1 | ⟨h1, -⟩
        · exact Or.inr h1
        · rw [q1] at h1
          rcases List.mem_cons.1 h1 with h1 | h1
          · exact absurd h1 (q2 c hcm)
          · exact Or.inl h1
      | @drop kk q1 q2 =>
        have hnil : l'.acceptQueue.filter (fun k => !l.acceptQueue.contains k) = [] := by
          rw [q1, List.filter_eq_nil_iff]
          intro k hk
          simp [List.mem_of_mem_erase hk]
        rw [hnil, List.append_nil]
        refine ⟨?_, i2, fun k hk => Nat.lt_of_lt_of_le (i3 k hk) p3, ?_, hnotac⟩
        · rw [q1]
          exact List.Sublist.trans (List.Sublist.append_left List.erase_sublist _) i1
        · intro c hcm hen
          rcases hback c hcm hen with h1 | ⟨h1, -⟩
          · exact Or.inr h1
          · by_cases hk : c.key = kk
            · exact Or.inr (q2 c hcm hk)
            · left
              rw [q1]
              exact (List.mem_erase_of_ne hk).2 h1
      | @add cq dq q1 q2 q3 q4 q5 q6 =>
        have hna : cq.key ∉ l.acceptQueue := by
          intro hh
          have := (acceptable_iff _).1 ((hok.synced cq q2).acc.1 hh)
          rw [q3] at this
          rcases this with this | this <;> cases this
        have hne : cq.key ∉ en := by
          intro hh
          rcases i4 cq q2 hh with h1 | h1
          · exact hna h1
          · rw [q3] at h1; cases h1
        have hone : l'.acceptQueue.filter (fun k => !l.acceptQueue.contains k) = [cq.key] := by
          have hnil : l.acceptQueue.filter (fun k => !l.acceptQueue.contains k) = [] := by
            rw [List.filter_eq_nil_iff]
            intro k hk
            simp [hk]
          rw [q1, List.filter_append, hnil]
          simp [hna]
        rw [hone, q1]
        refine ⟨?_, ?_, ?_, ?_, hnotac⟩
        · rw [← List.append_assoc]
          exact List.Sublist.append_right i1 _
        · rw [List.nodup_append]
          refine ⟨i2, by simp, ?_⟩
          intro a ha b hb e
          simp only [List.mem_singleton] at hb
          subst hb
          subst e
          exact hne ha
        · intro k hk
          rcases List.mem_append.1 hk with hk | hk
          · exact Nat.lt_of_lt_of_le (i3 k hk) p3
          · simp only [List.mem_singleton] at hk
            subst hk
            exact Nat.lt_of_lt_of_le (hok.lt _ q2) p3
        · intro c hcm hen
          by_cases hk : c.key = cq.key
          · left
            rw [hk]
            simp
          · have hen : c.key ∈ en := by
              rcases List.mem_append.1 hen with h | h
              · exact h
              · simp only [List.mem_singleton] at h
                exact absurd h hk
            rcases hback c hcm hen with h1 | ⟨h1, -⟩
            · exact Or.inr h1
            · exact Or.inl (List.mem_append_left _ h1)
  exact key

/-- **C35 for a listening socket**: a SYN for a new pair of addresses is answered, except for three
    kinds of packets, which make the listening socket panic (with window scaling, the default). -/
theorem C35_listener_syn {l : Listener} (h : SReach (.listening l)) (hsc : l.scaling = true) {hd : Header} {pl : Payload}
    (hw : hd.windowSize < 65536) (hp : pl.flatten.length < 2147483648) (hs : hd.flags.syn = true)
    (hnew : ∀ c ∈ l.children, c.addrs ≠ (hd.src, hd.dst)) (hq : l.acceptQueue.length < l.maxBacklog)
    (hc : l.children.length < l.acceptQueue.length + l.maxBacklog) :
    l.push hd pl = .panic ↔ (hd.flags.rst = true ∨ hd.windowSize = 0 ∨ (hd.flags.ack = true ∧ Seq.new hd.ack = 1)) := by
  have hok : ListenProps.Ok l := h.ok
  have hle := accept_le_children hok
  have hsf : l.synFull = .ok false := by
    unfold Listener.synFull
    rw [decide_eq_true hle]
    show R.ok (decide _) = _
    rw [decide_eq_false (by omega)]
  have haf : l.acceptFull = false := decide_eq_false (by omega)
  have hmap : l.connMap (hd.src, hd.dst) = none := by
    cases hm : l.connMap (hd.src, hd.dst) with
    | none => rfl
    | some k =>
      obtain ⟨c, h1, h2, h3⟩ := (hok.map _ _).1 hm
      exact absurd ‹_› (hnew c h1)
  have hpush : l.push hd pl = (l.registerChild hd pl >>= fun l => pure (l, Res.ok 0)) := by
    unfold Listener.push
    rw [hsf, R.bind_ok, haf, hs, hmap]
    show l.pushNew hd pl = _
    unfold Listener.pushNew
    rw [if_pos hs]
  rw [hpush]
  by_cases hr : hd.flags.rst = true
  · refine ⟨fun _ => Or.inl hr, fun _ => ?_⟩
    unfold Listener.registerChild
    rw [hs, hr]
    rfl
  · have hr : hd.flags.rst = false := by simpa using hr
    obtain ⟨c, m, q, irs, e1, e2, e3, e4, e5, e6, e7, e8, e9, e10, -⟩ :=
      first_push (a := hd.dst) (b := hd.src) (sc := l.scaling) hp hw hs hr
    obtain ⟨w1, w2⟩ := first_wants e2 e3 e4 e5 e6 e9 e10
    have hreg : l.registerChild hd pl =
        ((l.insertChild ⟨.on .synReceived c, none⟩ (hd.src, hd.dst)).syncChild l.nextKey >>= R.unwrap) := by
      unfold Listener.registerChild
      rw [hs, hr, e1, hmap]
      rfl
    have hchild : (l.insertChild ⟨.on .synReceived c, none⟩ (hd.src, hd.dst)).child l.nextKey =
        some ⟨l.nextKey, ⟨.on .synReceived c, none⟩, (hd.src, hd.dst)⟩ := by
      unfold Listener.child Listener.insertChild
      rw [List.find?_append]
      have : l.children.find? (fun x => x.key == l.nextKey) = none := by
        rw [List.find?_eq_none]
        intro x hx
        have := hok.lt x hx
        simp only [beq_iff_eq]
        omega
      simp [this]
    rw [hreg]
    unfold Listener.syncChild
    rw [hchild]
    show ((Conn.wantsToSend c >>= _) >>= R.unwrap) >>= _ = R.panic ↔ _
    by_cases hbad : 0 < q ∨ c.send.window = 0
    · rw [w2 hsc hbad]
      refine ⟨fun _ => Or.inr ?_, fun _ => rfl⟩
      rcases hbad with hb | hb
      · right
        rw [e7] at hb
        split at hb
        · assumption
        · omega
      · left
        rw [← e8]
        exact hb
    · have hq0 : q = 0 := by omega
      have hwp : 0 < c.send.window := by omega
      rw [w1 hq0 hwp]
      refine ⟨fun hh => ?_, fun hh => ?_⟩
      · exfalso
        simp only [Listener.insertChild, if_true, Option.isSome_some, Listener.dropIf, R.bind_ok, R.assert_true] at hh
        cases hh
      · exfalso
        rcases hh with hh | hh | hh
        · rw [hr] at hh; cases hh
        · omega
        · rw [if_pos hh] at e7; omega

end Shadow.Tcp
