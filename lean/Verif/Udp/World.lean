import Verif.Udp.Exec

/-!
# UDP sockets: several sockets, findings and examples (C52)
-/
namespace Shadow.Udp
open Shadow.Base
open Shadow.NetIface (SockAddr localhostIp)
open Shadow.IoVec (Mem Iov Cursor totalLen addrs)

variable {α : Type}

/-! ## Sockets and a network

The network may delay, reorder and drop packets, and gives each of them to at most one socket; that
it does so is the subject of C13, C14 and C15. -/

/-- Sockets, the packets on their way, and what has happened so far. -/
structure World (α : Type) where
  socks : List (Sock α)
  flight : List (Pkt α) := []
  lost : List (Pkt α) := []
  sent : List (Pkt α) := []
  got : List (Pkt α) := []

inductive WStep (w : World α) : World α → Prop where
  /-- a program makes a call, or the interface takes a packet -/
  | call {k s a s' e} : w.socks[k]? = some s → (∀ p t, a ≠ .pushIn p t) →
      step s a = some (.ok (s', e)) →
      WStep w { w with socks := w.socks.set k s', sent := w.sent ++ Udp.sent e
                       got := w.got ++ took e, flight := w.flight ++ pulled e }
  /-- a packet arrives at a socket -/
  | deliver {l1 p l2 k s t s' e} : w.flight = l1 ++ p :: l2 → w.socks[k]? = some s →
      step s (.pushIn p t) = some (.ok (s', e)) →
      WStep w { w with socks := w.socks.set k s', flight := l1 ++ l2, lost := w.lost ++ refused e }
  /-- a packet is lost -/
  | drop {l1 p l2} : w.flight = l1 ++ p :: l2 →
      WStep w { w with flight := l1 ++ l2, lost := w.lost ++ [p] }

inductive WRun (w₀ : World α) : World α → Prop where
  | nil : WRun w₀ w₀
  | step {w w'} : WRun w₀ w → WStep w w' → WRun w₀ w'

theorem count_set [DecidableEq α] (f : Sock α → List (Pkt α)) (x : Pkt α) {l : List (Sock α)} {k : Nat}
    {s : Sock α} (s' : Sock α) (h : l[k]? = some s) :
    ((l.set k s').flatMap f).count x + (f s).count x = (l.flatMap f).count x + (f s').count x := by
  induction l generalizing k with
  | nil => simp at h
  | cons a l ih =>
    cases k with
    | zero =>
      simp only [List.getElem?_cons_zero, Option.some.injEq] at h
      subst h
      simp only [List.set_cons_zero, List.flatMap_cons, List.count_append]
      omega
    | succ k =>
      have := ih (by simpa using h)
      simp only [List.set_cons_succ, List.flatMap_cons, List.count_append]
      omega

/-- The event of an arrival. -/
theorem push_events {s s' : Sock α} (h : Inv s) {p t e}
    (hs : step s (.pushIn p t) = some (.ok (s', e))) :
    Inv s' ∧ s'.out = s.out ∧ ((e = [.refused p] ∧ s'.inn = s.inn) ∨
      (e = [.accepted p] ∧ s'.inn = s.inn ++ [p])) := by
  by_cases hc : s.state.closed = true
  · simp [step, hc] at hs
  simp only [step, if_neg hc, Option.some.injEq] at hs
  rcases C52_push_in s h p t with ⟨h1, h2⟩ | ⟨h1, h2, s1, note, h3, h4, h5, h6, h7, h8, h9, h10,
    h11, h12, h13, h14, h15⟩
  · rw [h2] at hs
    have := R.ok.inj hs
    simp only [Prod.mk.injEq] at this
    obtain ⟨rfl, rfl⟩ := this
    exact ⟨h, rfl, .inl ⟨rfl, rfl⟩⟩
  · rw [h3] at hs
    have := R.ok.inj hs
    simp only [Prod.mk.injEq] at this
    obtain ⟨rfl, rfl⟩ := this
    exact ⟨h14, h5, .inr ⟨rfl, h4⟩⟩

/-- A call other than an arrival accepts nothing. -/
theorem call_accepts {s s' : Sock α} (h : Inv s) {a e} (hs : step s a = some (.ok (s', e)))
    (ha : ∀ p t, a ≠ .pushIn p t) : accepted e = [] := by
  cases a with
  | pushIn p t => exact absurd rfl (ha p t)
  | pullOut =>
    simp only [step, Option.some.injEq] at hs
    rcases C52_pull_out s h with ⟨_, h2⟩ | ⟨p, l, prio, s1, note, _, h2, _⟩ <;>
    · rw [h2] at hs; cases hs; rfl
  | sendmsg m arg res ip prio =>
    by_cases hc : s.state.closed = true
    · simp [step, hc] at hs
    simp only [step, if_neg hc, Option.some.injEq] at hs
    obtain ⟨r', s1, note, e', h1, h2, -⟩ := sendmsg_spec h (by simpa using hc) m arg res ip prio
    rw [h1] at hs
    have := R.ok.inj hs
    simp only [Prod.mk.injEq] at this
    obtain ⟨rfl, rfl⟩ := this
    cases h2 <;> rfl
  | recvmsg m arg =>
    by_cases hc : s.state.closed = true
    · simp [step, hc] at hs
    simp only [step, if_neg hc, Option.some.injEq] at hs
    obtain ⟨r', s1, m', note, e', h1, h2, -⟩ := recvmsg_spec h m arg
    rw [h1] at hs
    have := R.ok.inj hs
    simp only [Prod.mk.injEq] at this
    obtain ⟨rfl, rfl⟩ := this
    cases h2 with
    | got => split <;> rfl
    | fault => split <;> rfl
    | _ => rfl
  | bind arg res =>
    by_cases hc : s.state.closed = true
    · simp [step, hc] at hs
    simp only [step, if_neg hc, Option.some.injEq] at hs
    obtain ⟨x, _, hs⟩ := (R.bind_eq_ok ..).1 hs
    cases hs; rfl
  | connect arg rt res =>
    by_cases hc : s.state.closed = true
    · simp [step, hc] at hs
    simp only [step, if_neg hc, Option.some.injEq] at hs
    obtain ⟨x, _, hs⟩ := (R.bind_eq_ok ..).1 hs
    cases hs; rfl
  | shutdown how =>
    by_cases hc : s.state.closed = true
    · simp [step, hc] at hs
    simp only [step, if_neg hc, Option.some.injEq] at hs
    cases hs; rfl
  | setSndBuf v =>
    by_cases hc : s.state.closed = true
    · simp [step, hc] at hs
    simp only [step, if_neg hc, Option.some.injEq] at hs
    cases hs; rfl
  | setRcvBuf v =>
    by_cases hc : s.state.closed = true
    · simp [step, hc] at hs
    simp only [step, if_neg hc, Option.some.injEq] at hs
    cases hs; rfl
  | close =>
    by_cases hc : s.state.closed = true
    · simp [step, hc] at hs
    simp only [step, if_neg hc, Option.some.injEq] at hs
    cases hs; rfl

/-- **C52 (integrity)**: among any number of sockets, the datagrams that the sends accepted are, with
their addresses and bytes, exactly those received, lost, on their way, and waiting in a socket.  So
a datagram is received at most once for each time it was sent, unchanged, and none is made up. -/
theorem C52_integrity [DecidableEq α] (socks : List (Sock α))
    (hnew : ∀ s ∈ socks, ∃ nb n k, s = Sock.new nb n k) {w : World α} (hr : WRun { socks } w) :
    w.sent.Perm (w.got ++ w.lost ++ w.flight ++ w.socks.flatMap Sock.inn ++
      w.socks.flatMap Sock.out) := by
  suffices h : (∀ s ∈ w.socks, Inv s) ∧ w.sent.Perm (w.got ++ w.lost ++ w.flight ++
      w.socks.flatMap Sock.inn ++ w.socks.flatMap Sock.out) from h.2
  induction hr with
  | nil =>
    refine ⟨fun s hs => ?_, ?_⟩
    · obtain ⟨nb, n, k, rfl⟩ := hnew s hs
      exact new_inv ..
    · have h1 : socks.flatMap Sock.inn = [] := by
        rw [List.flatMap_eq_nil_iff]
        intro s hs
        obtain ⟨nb, n, k, rfl⟩ := hnew s hs
        rfl
      have h2 : socks.flatMap Sock.out = [] := by
        rw [List.flatMap_eq_nil_iff]
        intro s hs
        obtain ⟨nb, n, k, rfl⟩ := hnew s hs
        rfl
      rw [h1, h2]
      exact .refl _
  | step _ hst ih =>
    obtain ⟨ih1, ih2⟩ := ih
    rw [List.perm_iff_count] at ih2
    cases hst with
    | @call k s a s' e hk ha hs =>
      have hi := ih1 s (List.mem_of_getElem? hk)
      have hacc := call_accepts hi hs ha
      obtain ⟨s1, e1, h1, h2, h3, -⟩ := step_spec hi hs
      cases h1
      refine ⟨?_, ?_⟩
      · intro x hx
        rcases List.mem_or_eq_of_mem_set hx with h | h
        · exact ih1 x h
        · subst h; exact h2
      · rw [List.perm_iff_count]
        intro x
        have c1 := count_set Sock.inn x s' hk
        have c2 := count_set Sock.out x s' hk
        have c3 := congrArg (List.count x) h3.out
        have c4 := congrArg (List.count x) h3.inn
        have := ih2 x
        rw [hacc] at c4
        simp only [List.count_append, List.count_nil] at *
        omega
    | @deliver l1 p l2 k s t s' e hl hk hs =>
      have hi := ih1 s (List.mem_of_getElem? hk)
      obtain ⟨h2, h3, h4⟩ := push_events hi hs
      refine ⟨?_, ?_⟩
      · intro x hx
        rcases List.mem_or_eq_of_mem_set hx with h | h
        · exact ih1 x h
        · subst h; exact h2
      · rw [List.perm_iff_count]
        intro x
        have c1 := count_set Sock.inn x s' hk
        have c2 := count_set Sock.out x s' hk
        have := ih2 x
        rw [hl] at this
        rcases h4 with ⟨rfl, h5⟩ | ⟨rfl, h5⟩
        · simp only [List.count_append, List.count_cons, h3, h5, refused, List.filterMap_cons,
            List.filterMap_nil, List.count_nil] at *
          omega
        · simp only [List.count_append, List.count_cons, h3, h5, refused, List.filterMap_cons,
            List.filterMap_nil, List.count_nil] at *
          omega
    | drop hl =>
      refine ⟨ih1, ?_⟩
      rw [List.perm_iff_count]
      intro x
      have := ih2 x
      rw [hl] at this
      simp only [List.count_append, List.count_cons, List.count_nil] at *
      omega

/-! ## Findings -/

/-- **C52 (finding)**: the name of a connected socket that is bound to 0.0.0.0 has the address of the
peer, where `getsockname` should give the address of this host. -/
theorem C52_finding_sockname (s : Sock α) {b p : SockAddr} (hb : s.bound = some b) (h0 : b.ip = 0)
    (hp : s.peer = some p) : getsockname s = ⟨p.ip, b.port⟩ := by
  simp [getsockname, hb, h0, hp]

/-- Otherwise the name is the address. -/
theorem C52_sockname (s : Sock α) {b : SockAddr} (hb : s.bound = some b)
    (h : b.ip ≠ 0 ∨ s.peer = none) : getsockname s = b := by
  unfold getsockname
  simp only [hb, Option.getD_some]
  rcases h with h | h
  · rw [if_neg h]
  · split
    · rw [h]
    · rfl

/-- **C52 (finding)**: datagrams without bytes do not count, so any number of them can be queued. -/
theorem C52_finding_empty_datagrams (s : Sock α) (h : Inv s) {m a res ip prio r s' note} {p : Pkt α}
    (hc : s.state.closed = false) (hs : sendmsg s m a res ip prio = .ok (r, s', note, [.sent p]))
    (hp : p.data = []) : Room s' ∧ s'.out.length = s.out.length + 1 := by
  obtain ⟨r1, s1, n1, e1, h1, h2, h3, h4⟩ := C52_send s h hc m a res ip prio
  rw [hs] at h1
  have := R.ok.inj h1
  simp only [Prod.mk.injEq] at this
  obtain ⟨rfl, rfl, rfl, rfl⟩ := this
  cases h2 with
  | sent _ _ _ _ _ _ g1 _ _ g2 _ _ =>
    subst hp
    refine ⟨?_, by rw [g2]; simp⟩
    unfold Room at *
    rw [h4.sendLimit, g2, bytes_append]
    simpa [bytes] using g1

/-- **C52 (finding)**: `shutdown` changes no flag and tells no listener, so a thread that waits in a
receive is not woken, although a receive would now return 0. -/
theorem C52_finding_shutdown (s : Sock α) (how : How) : (shutdown s how).2.state = s.state := by
  unfold shutdown; split <;> rfl

/-- A send to 9000 on loopback, without waiting. -/
def send (b : List Iov) (m : Mem Nat) (s : Sock Nat) : R (Ret Nat × Sock Nat × Option Note × List (Ev Nat)) :=
  sendmsg s m { addr := .inet ⟨localhostIp, 9000⟩, iovs := b } (.ok ⟨0, 5000⟩) 184549377 0

/-- Four bytes at addresses 10 to 13. -/
def mem4 : Mem Nat := fun a => if 10 ≤ a ∧ a < 14 then some a else none

def R.get : R (Ret Nat × Sock Nat × Option Note × List (Ev Nat)) → Option (Sock Nat)
  | .ok (_, s, _) => some s
  | .panic => none

/-- **C52 (finding)**: a change of the size of the send buffer does not update the flag: a writer that
waits for room is not woken when the larger size makes room. -/
theorem C52_finding_stale_writable : ∃ (s s1 : Sock Nat),
    R.get (send [⟨10, 4⟩] mem4 (Sock.new false 4 100)) = some s ∧
    R.get (send [⟨10, 4⟩] mem4 s) = some s1 ∧ s1.state.writable = false ∧
    Room (setSndBuf s1 10) ∧ (setSndBuf s1 10).state.writable = false :=
  ⟨_, _, rfl, rfl, by decide, by decide, by decide⟩

/-- **C52 (finding)**: a datagram to 0.0.0.0 is sent with that destination, which no host has, and so is
lost; `connect` to 0.0.0.0 goes to loopback. -/
theorem C52_finding_any_destination : ∃ s' note,
    sendmsg (Sock.new false 100 100 : Sock Nat) mem4 { addr := .inet ⟨0, 9000⟩, iovs := [⟨10, 4⟩] }
      (.ok ⟨0, 5000⟩) 184549377 0
    = .ok (.ok 4, s', note, [.sent ⟨⟨184549377, 5000⟩, ⟨0, 9000⟩, [10, 11, 12, 13]⟩]) :=
  ⟨_, _, rfl⟩

/-- **C52 (finding)**: a datagram that arrived before `connect` is received after it, whoever sent it:
a connected socket can receive from another address than its peer. -/
theorem C52_finding_before_connect : ∃ s : Sock Nat, ∃ es,
    Run (Sock.new false 100 100) es s ∧ s.peer = some ⟨184549378, 53⟩ ∧
    ∃ r s' m' note, recvmsg s mem4 { iovs := [⟨10, 4⟩] } =
      .ok (.ok ⟨1, some r, false⟩, s', m', note, [.took ⟨r, ⟨184549377, 5000⟩, [7]⟩]) ∧
      r ≠ ⟨184549378, 53⟩ := by
  refine ⟨_, _, .step (.step (.step .nil (a := .bind (.inet ⟨0, 5000⟩) (.ok ⟨0, 5000⟩)) (by rfl))
    (a := .pushIn ⟨⟨184549379, 1⟩, ⟨184549377, 5000⟩, [7]⟩ 5) (by rfl))
    (a := .connect (.inet ⟨184549378, 53⟩) true (.err .inval)) (by rfl), rfl, ⟨184549379, 1⟩, ?_⟩
  exact ⟨_, _, _, rfl, by decide⟩

/-! ## Examples -/

/-- The result part of a call. -/
def ret {β : Type} : R (Ret β × Sock Nat × Option Note × List (Ev Nat)) → Option (Ret β × List (Ev Nat))
  | .ok (r, _, _, e) => some (r, e)
  | .panic => none

-- a first send binds the socket, and takes its bytes from two buffers
example : ret (send [⟨12, 2⟩, ⟨10, 1⟩] mem4 (Sock.new false 4 100)) =
    some (.ok 3, [.sent ⟨⟨localhostIp, 5000⟩, ⟨localhostIp, 9000⟩, [12, 13, 10]⟩]) := by rfl

-- a fault; the socket stays bound
example : ret (send [⟨12, 3⟩] mem4 (Sock.new false 4 100)) = some (.err .EFAULT, []) ∧
    (R.get (send [⟨12, 3⟩] mem4 (Sock.new false 4 100))).map (·.bound) =
      some (some ⟨0, 5000⟩) := ⟨rfl, rfl⟩

-- a full buffer
example : ((R.get (send [⟨10, 4⟩] mem4 (Sock.new false 4 100))).bind
    fun s => ret (send [⟨10, 1⟩] mem4 s)) = some (.blocked, []) := by rfl

example : ((R.get (send [⟨10, 4⟩] mem4 (Sock.new true 4 100))).bind
    fun s => ret (send [⟨10, 1⟩] mem4 s)) = some (.err .EWOULDBLOCK, []) := by rfl

-- the hypotheses of `C52_send_ok` can be met
example : ∃ s' note p, sendmsg (Sock.new false 4 100) mem4
    { addr := .inet ⟨localhostIp, 9000⟩, iovs := [⟨10, 2⟩, ⟨13, 1⟩] } (.ok ⟨0, 5000⟩) 184549377 0 =
      .ok (.ok 3, s', note, [.sent p]) ∧ p.dst = ⟨localhostIp, 9000⟩ ∧ s'.out = [] ++ [p] :=
  C52_send_ok (Sock.new false 4 100) (new_inv ..) rfl _ _ _ _ _ (b := ⟨0, 5000⟩) rfl rfl (.given _)
    (by decide) (.new rfl rfl) (.inl rfl) (by decide) (by
      rintro ⟨a, ha, hm⟩
      simp [span, addrs, Iov.addrs, totalLen, List.range'] at ha
      rcases ha with rfl | rfl | rfl <;> simp [mem4] at hm)

/-- Two sockets: the first sends two datagrams, the second receives them in the other order. -/
def two : World Nat := { socks := [Sock.new false 100 100, Sock.new false 100 100] }

example : ∃ w, WRun two w ∧ w.got.map (·.data) = [[13], [10, 11]] ∧ w.sent.length = 2 ∧
    w.flight = [] ∧ w.lost = [] := by
  refine ⟨_, .step (.step (.step (.step (.step (.step (.step (.step (.step .nil
    (.call (k := 1) (a := .bind (.inet ⟨0, 9000⟩) (.ok ⟨0, 9000⟩)) rfl (by simp) (by rfl)))
    (.call (k := 0) (a := .sendmsg mem4 { addr := .inet ⟨184549378, 9000⟩, iovs := [⟨10, 2⟩] }
      (.ok ⟨0, 5000⟩) 184549377 0) rfl (by simp) (by rfl)))
    (.call (k := 0) (a := .sendmsg mem4 { addr := .inet ⟨184549378, 9000⟩, iovs := [⟨13, 1⟩] }
      (.ok ⟨0, 5000⟩) 184549377 1) rfl (by simp) (by rfl)))
    (.call (k := 0) (a := .pullOut) rfl (by simp) (by rfl)))
    (.call (k := 0) (a := .pullOut) rfl (by simp) (by rfl)))
    (.deliver (k := 1) (t := 7) (l1 := [_]) (l2 := []) rfl rfl (by rfl)))
    (.deliver (k := 1) (t := 8) (l1 := []) (l2 := []) rfl rfl (by rfl)))
    (.call (k := 1) (a := .recvmsg mem4 { iovs := [⟨10, 4⟩] }) rfl (by simp) (by rfl)))
    (.call (k := 1) (a := .recvmsg mem4 { iovs := [⟨10, 4⟩] }) rfl (by simp) (by rfl)), ?_⟩
  exact ⟨rfl, rfl, rfl, rfl⟩

end Shadow.Udp
