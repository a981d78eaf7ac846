import Verif.Unix.History

/-!
# Unix-domain sockets: the theorems
-/

namespace Shadow.Unix

open Shadow.Base Spec

variable {α : Type}

/-- The program of a host makes calls, none of them bad.  `tr` records them. -/
inductive Run (limit : Nat) : World α → List (Event α) → Prop
  | start : Run limit (.empty limit) []
  | call (w w' : World α) (tr : List (Event α)) (a : Act α) (r : Ret α) : Run limit w tr → ¬ Bad (abs w) a →
      step w a = some (.ok (w', r)) → Run limit w' (tr ++ [⟨abs w, a, r⟩])

theorem open_of_step {w : World α} {a : Act α} {x : R (World α × Ret α)} (h : step w a = some x) :
    Open (abs w) a := by
  refine Classical.byContradiction fun hn => ?_
  rw [step_closed hn] at h
  cases h

theorem step_ok {w w' : World α} {a : Act α} {r : Ret α} (h : Inv w) (hb : ¬ Bad (abs w) a)
    (hs : step w a = some (.ok (w', r))) : Inv w' ∧ Does (abs w) a r (abs w') := by
  obtain ⟨w2, r2, h1, h2, h3⟩ := step_does h (open_of_step hs) hb
  rw [hs] at h1
  simp only [Option.some.injEq, R.ok.injEq, Prod.mk.injEq] at h1
  obtain ⟨rfl, rfl⟩ := h1
  exact ⟨h2, h3⟩

theorem run_inv {limit : Nat} {w : World α} {tr : List (Event α)} (h : Run limit w tr) : Inv w := by
  induction h with
  | start => exact inv_empty limit
  | call w w' tr a r _ hb hs ih => exact (step_ok ih hb hs).1

theorem run_limit {limit : Nat} {w : World α} {tr : List (Event α)} (h : Run limit w tr) :
    (abs w).limit = limit := by
  induction h with
  | start => rfl
  | call w w' tr a r hr hb hs ih =>
    rw [← ih]
    have := (step_ok (run_inv hr) hb hs).2
    revert this
    generalize abs w = A, abs w' = A'
    intro hd
    cases hd <;> rfl

/-- **C55.**  In every run, a call on an open socket (that is not one of the calls described by `Bad`)
does not panic; it returns what the specification says and changes the sockets as it says. -/
theorem C55_calls {limit : Nat} {w : World α} {tr : List (Event α)} (h : Run limit w tr) {a : Act α}
    (ho : Open (abs w) a) (hb : ¬ Bad (abs w) a) :
    ∃ w' r, step w a = some (.ok (w', r)) ∧ Does (abs w) a r (abs w') ∧
      Run limit w' (tr ++ [⟨abs w, a, r⟩]) := by
  obtain ⟨w', r, h1, h2, h3⟩ := step_does (run_inv h) ho hb
  exact ⟨w', r, h1, h3, .call w w' tr a r h hb h1⟩

/-- **C55.**  In every run the history of every socket explains its state: what is read from it is
what was sent to it, in order, once, and the rest is in its inbox; only its peer sent to it; packets
arrive whole (and are cut only to the room that the program gave) and with their sender's address; and
a listening socket hands out the connections in the order in which they were made. -/
theorem C55_history {limit : Nat} {w : World α} {tr : List (Event α)} (h : Run limit w tr) (p : Nat) :
    Explains tr p ((abs w).sock p) := by
  induction h generalizing p with
  | start => exact ⟨rfl, rfl, rfl, rfl⟩
  | call w w' tr a r hr hb hs ih =>
    exact explains_step (tidy (run_inv hr)) ih (step_ok (run_inv hr) hb hs).2 p

/-- **C55.**  A program that reads nothing although it gave room learns that the stream has ended:
the peer is closed, and everything it sent has been read. -/
theorem C55_end {limit : Nat} {w w' : World α} {tr : List (Event α)} (h : Run limit w tr) {i p room : Nat}
    {b a : Option Nat} {l : List α} {dw trunc : Bool} {fault addr : Option Nat} {n : Nat} {t : Bool}
    (hi : (abs w).sock i = some ⟨.stream, .linked b a p (.stream l), true⟩) (hroom : 0 < room)
    (hb : ¬ Bad (abs w) (.recv i room dw trunc fault))
    (hs : step w (.recv i room dw trunc fault) = some (.ok (w', .got [] n t addr))) :
    Dead (abs w) p ∧ (about delivered i tr).flatMap (·.data) = (about received i tr).flatMap (·.2.1) := by
  have hx := C55_history h i
  have hd := (step_ok (run_inv h) hb hs).2
  rw [hi] at hx
  simp only [Explains] at hx
  generalize hret : Ret.got (α := α) [] n t addr = r at hd
  generalize abs w = A, abs w' = A' at *
  cases hd with
  | recvStream _ q k b' a' l' _ _ _ _ h1 hne h3 =>
    rw [hi] at h1
    simp only [Option.some.injEq, Sk.mk.injEq, St.linked.injEq, Inbox.stream.injEq] at h1
    obtain ⟨_, ⟨_, _, _, rfl⟩, _⟩ := h1
    simp only [Ret.got.injEq] at hret
    cases l with
    | nil => exact (hne rfl).elim
    | cons x l => cases room <;> simp at hret hroom
  | recvPacket _ q k b' a' d l' _ _ _ _ h1 _ => rw [hi] at h1; simp at h1
  | recvEnd _ q k b' a' _ _ _ _ h1 hdead =>
    rw [hi] at h1
    simp only [Option.some.injEq, Sk.mk.injEq, St.linked.injEq] at h1
    obtain ⟨rfl, ⟨_, _, rfl, e⟩, _⟩ := h1
    simp only [Inbox.none, Inbox.stream.injEq] at e
    subst e
    exact ⟨hdead, by simpa using hx.2⟩
  | recvWait => simp only [orWait] at hret; split at hret <;> cases hret
  | recvFault => cases hret
  | recvD _ b' q m l' _ _ _ _ h1 _ => rw [hi] at h1; cases h1
  | recvDWait => simp only [orWait] at hret; split at hret <;> cases hret
  | recvNot => cases hret

theorem waiting_conn {s : Sock α} {b a : Option Nat} {p : Nat} (hp : s.proto = .conn b a p)
    (h1 : s.kind = .stream → s.buf.pkts = []) (h2 : s.kind ≠ .stream → s.buf.bytes = []) :
    waiting (some (skOf s)) = s.buf.hasData := by
  simp only [skOf, hp]
  cases hk : s.kind <;> simp [inboxOf, waiting, Buf.hasData, hk, h1, h2]

/-- **C55.**  In every run the counter of bytes in flight that the code keeps for a socket is the
number of bytes that wait to be read from its peer, or from datagram sockets, and it is never above
the limit. -/
theorem C55_in_flight {limit : Nat} {w : World α} {tr : List (Event α)} (h : Run limit w tr) (i : Nat) :
    inFlight (abs w) i ≤ limit ∧
      ((∃ k b a p x hh, (abs w).sock i = some ⟨k, .linked b a p x, hh⟩ ∧ ¬ Dead (abs w) p) ∨
        (∃ k b q l hh, (abs w).sock i = some ⟨k, .dgram b q l, hh⟩) → w.sent i = inFlight (abs w) i) := by
  have hi := run_inv h
  have hl : w.limit = limit := run_limit h
  cases hs : w.socks i with
  | none =>
    have : (abs w).sock i = none := by simp [abs, hs]
    refine ⟨by simp [inFlight, this], ?_⟩
    rintro (⟨k, b, a, p, x, hh, e, _⟩ | ⟨k, b, q, l, hh, e⟩) <;> rw [this] at e <;> cases e
  | some s =>
    have hcap := hi.mid.acct.cap i s hs
    rw [hl] at hcap
    have hsk := sock_abs hs
    cases hp : s.proto with
    | init b => simp [inFlight, hsk, skOf, hp]
    | listening b q lim => simp [inFlight, hsk, skOf, hp]
    | closed => simp [inFlight, hsk, skOf, hp]
    | dgramClosed => simp [inFlight, hsk, skOf, hp]
    | dgram b q r =>
      have := flight_dgram hi hs hp
      exact ⟨by omega, fun _ => this.symm⟩
    | conn b a p =>
      obtain ⟨_, t, ht, _, h3⟩ := hi.peer hs hp
      rcases h3 with ⟨h3, _⟩ | ⟨⟨b', a', h3⟩, _⟩
      · refine ⟨by simp [inFlight, hsk, skOf, hp, sock_abs ht, h3], ?_⟩
        rintro (⟨k, b, a, p', x, hh, e, hd⟩ | ⟨k, b, q, l, hh, e⟩)
        · rw [hsk] at e
          simp only [skOf, hp, Option.some.injEq, Sk.mk.injEq, St.linked.injEq] at e
          obtain ⟨_, ⟨_, _, rfl, _⟩, _⟩ := e
          exact (hd ((dead_iff ht).2 (by rw [h3]; rfl))).elim
        · rw [hsk] at e; simp [skOf, hp] at e
      · have := flight_conn hi hs hp ht h3
        exact ⟨by omega, fun _ => this.symm⟩

/-- **C55.**  In every run the state bits of every socket, from which `poll`, `epoll` and blocked
calls learn what they can do, are what the sockets' real state demands. -/
theorem C55_bits {limit : Nat} {w : World α} {tr : List (Event α)} (h : Run limit w tr) {i : Nat} {s : Sk α}
    (hs : (abs w).sock i = some s) : Shows (abs w) i s (w.flags i) := by
  have hi := run_inv h
  cases hsi : w.socks i with
  | none => simp [abs, hsi] at hs
  | some t =>
    rw [sock_abs hsi] at hs
    cases hs
    have hlim : (abs w).limit = w.limit := rfl
    cases hp : t.proto with
    | init b =>
      have hb := Inv.bits hi hsi (by rw [hp]; rfl)
      simp only [World.flagsOf, hp] at hb
      simp [Shows, skOf, hp, hb]
    | listening b q lim =>
      have hb := Inv.bits hi hsi (by rw [hp]; rfl)
      simp only [World.flagsOf, hp] at hb
      simp [Shows, skOf, hp, hb]
    | closed =>
      have hb := Inv.bits hi hsi (by rw [hp]; rfl)
      simp only [World.flagsOf, hp] at hb
      simp [Shows, skOf, hp, hb]
    | dgramClosed =>
      rcases hi.mid.bits.exact i t hsi with hb | ⟨ho, _⟩ | ⟨⟨b, e⟩, _⟩
      · simp only [World.flagsOf, hp] at hb
        simp [Shows, skOf, hp, hb]
      · rw [hp] at ho; cases ho
      · rw [hp] at e; cases e
    | conn b a p =>
      have hb := Inv.bits hi hsi (by rw [hp]; rfl)
      simp only [World.flagsOf, hp] at hb
      have hw := waiting_conn hp (hi.mid.wf.noPkts i t hsi) (hi.mid.wf.noBytes i t hsi)
      obtain ⟨_, u, hu, _, h3⟩ := hi.peer hsi hp
      have hst : (skOf t).st = .linked b a p (inboxOf t.kind t.buf) := by simp [skOf, hp]
      simp only [Shows, hst, hw, hlim, dead_iff hu, hb]
      rcases h3 with ⟨h3, h4, h5⟩ | ⟨⟨b', a', h3⟩, h4, h5⟩
      · simp [h3, h4, h5, Proto.over]
      · simp [h3, h4, h5, Proto.over, flight_conn hi hsi hp hu h3]
    | dgram b q r =>
      have hf := flight_dgram hi hsi hp
      have hst : (skOf t).st = .dgram b q (msgsOf r t.buf.pkts) := by simp [skOf, hp]
      have hk := (hi.mid.wf.isD i t hsi).1 (by rw [hp]; rfl)
      have hby := hi.mid.wf.noBytes i t hsi (by rw [hk]; decide)
      have hn := hi.mid.wf.notes i t b q r hsi hp
      have hlen : t.buf.pkts.length = r.length := by simpa using congrArg List.length hn
      have hm : msgsOf r t.buf.pkts ≠ [] ↔ t.buf.hasData = true := by
        cases hr : r <;> cases hq : t.buf.pkts <;> simp [hr, hq] at hlen <;>
          simp [msgsOf, Buf.hasData, hby, hq]
      simp only [Shows, hst, hf, hlim, hm]
      rcases hi.mid.bits.exact i t hsi with hb | ⟨_, hb⟩ | ⟨⟨b', e⟩, hb, h0⟩
      · simp only [World.flagsOf, hp] at hb
        simp only [hb, decide_eq_true_eq]
        exact ⟨trivial, trivial, trivial, trivial, id, .inl⟩
      · rcases hb with ⟨_, hb⟩ | ⟨_, hb⟩ <;> cases hb
      · rw [hp] at e
        simp only [Proto.dgram.injEq] at e
        obtain ⟨_, rfl, rfl⟩ := e
        have hd : t.buf.hasData = false := by
          have : t.buf.pkts = [] := by simpa using hlen
          simp [Buf.hasData, hby, this]
        rw [hb, hd]
        simp [msgsOf, h0]

/-- **C55.**  A call that has to wait waits for a state that the socket does not show, so that it is
not tried again until something has changed.  (A packet that is longer than the room that is left is
the exception: see `F55_busy`.) -/
theorem C55_waits {limit : Nat} {w w' : World α} {tr : List (Event α)} (h : Run limit w tr) {a : Act α}
    {x : Wait} (hb : ¬ Bad (abs w) a) (hs : step w a = some (.ok (w', .wait x))) :
    match x with
    | .readable i => (w'.flags i).readable = false
    | .allowing i => (w'.flags i).allowing = false
    | .writable i => ∀ b c p y hh, (abs w').sock i = some ⟨.stream, .linked b c p y, hh⟩ →
        (w'.flags i).writable = false := by
  have hd := (step_ok (run_inv h) hb hs).2
  have h' := Run.call w w' tr a _ h hb hs
  have hbits : ∀ i s, (abs w').sock i = some s → Shows (abs w') i s (w'.flags i) := fun i s => C55_bits h'
  have eq : ∀ (y : Wait) (nb : Bool), (.wait x : Ret α) = orWait nb y → x = y := by
    intro y nb e
    simp only [orWait] at e
    split at e <;> cases e
    rfl
  have hff : ∀ {f : Bool} {P : Prop}, (f = true ↔ P) → ¬ P → f = false := by
    intro f P h1 h2
    cases f
    · rfl
    · exact (h2 (h1.1 rfl)).elim
  generalize hr : (.wait x : Ret α) = r at hd
  generalize hA : abs w = A, hA' : abs w' = A' at *
  cases hd with
  | connectFull i k b n srv lim m q h1 h2 h3 h4 =>
    obtain rfl := eq _ _ hr
    exact hff (hbits srv _ h3).2.2.2.2 (Nat.not_lt.2 h4)
  | acceptNone i k n lim h1 =>
    obtain rfl := eq _ _ hr
    exact hff (hbits i _ h1).2.2.2.1 (by simp)
  | sendFull i p k b c y dst data dw fault h1 h2 h3 h4 =>
    obtain rfl := eq _ _ hr
    intro b' c' p' y' hh e
    have hsh := hbits i _ e
    rw [h1] at e
    simp only [Option.some.injEq, Sk.mk.injEq, St.linked.injEq] at e
    obtain ⟨rfl, ⟨rfl, rfl, rfl, rfl⟩, _⟩ := e
    refine hff hsh.2.2.2.2 ?_
    rintro (h5 | h5)
    · rcases h4 with h4 | ⟨h4, _⟩
      · exact absurd h5 (Nat.not_lt.2 h4)
      · exact h4 rfl
    · exact h2 h5
  | sendDFull i p b q l dst data dw fault h1 h2 h3 h4 =>
    obtain rfl := eq _ _ hr
    intro b' c' p' y' hh e
    rw [h1] at e; cases e
  | recvWait i p k b c room dw trunc fault h1 h2 =>
    obtain rfl := eq _ _ hr
    refine hff (hbits i _ h1).2.2.2.1 ?_
    rintro (h3 | h3)
    · cases k <;> simp [waiting, Inbox.none] at h3
    · exact h2 h3
  | recvDWait i b q room dw trunc fault h1 =>
    obtain rfl := eq _ _ hr
    exact hff (hbits i _ h1).2.2.2.1 (by simp)
  | _ => first | cases hr | (simp only [packetRet] at hr; cases hr)

/-- **C55.**  In every run the peer of a linked socket is another socket of the same kind, which is
dead or linked back. -/
theorem C55_links {limit : Nat} {w : World α} {tr : List (Event α)} (h : Run limit w tr) {i p : Nat}
    {k : Kind} {b a : Option Nat} {x : Inbox α} {hh : Bool}
    (hs : (abs w).sock i = some ⟨k, .linked b a p x, hh⟩) : p ≠ i ∧
      (Dead (abs w) p ∨ ∃ b' a' y h', (abs w).sock p = some ⟨k, .linked b' a' i y, h'⟩) := by
  have hi := run_inv h
  cases hsi : w.socks i with
  | none => simp [abs, hsi] at hs
  | some s =>
    rw [sock_abs hsi] at hs
    simp only [skOf, Option.some.injEq, Sk.mk.injEq] at hs
    obtain ⟨rfl, e, _⟩ := hs
    cases hp : s.proto <;> simp only [hp] at e <;> first | (simp only [St.linked.injEq] at e) | cases e
    obtain ⟨rfl, rfl, rfl, rfl⟩ := e
    obtain ⟨h1, t, ht, hk, h3⟩ := hi.peer hsi hp
    refine ⟨h1, ?_⟩
    rcases h3 with ⟨h3, _⟩ | ⟨⟨b', a', h3⟩, _⟩
    · exact .inl ((dead_iff ht).2 (by rw [h3]; rfl))
    · exact .inr ⟨b', a', inboxOf t.kind t.buf, t.held, by rw [sock_abs ht, sk_conn h3, hk]⟩

/-- **C55.**  In every run a name leads to a socket that is not closed, of the right kind, and bound
to that name (or was, before it was connected); and a socket that was bound and is not connected is found under its name. -/
theorem C55_names {limit : Nat} {w : World α} {tr : List (Event α)} (h : Run limit w tr) (n i : Nat) :
    (∀ k, (abs w).names k n = some i → ∃ s, (abs w).sock i = some s ∧ s.kind = k ∧ ¬ Dead (abs w) i ∧
      (s.st.name = some n ∨ ∃ b a p x, s.st = .linked b a p x)) ∧
    (∀ s, (abs w).sock i = some s → s.st.name = some n → (∀ b a p x, s.st ≠ .linked b a p x) →
      (abs w).names s.kind n = some i) := by
  have hi := run_inv h
  refine ⟨fun k hk => ?_, fun s hs hn hl => ?_⟩
  · obtain ⟨s, h1, h2, h3, h4⟩ := hi.mid.names.found k n i hk
    have hd : ¬ Dead (abs w) i := fun hd => by cases h4.1 ((dead_iff h1).1 hd)
    refine ⟨skOf s, sock_abs h1, h2, hd, ?_⟩
    cases hp : s.proto with
    | init b => exact .inl (by simp only [skOf, hp, St.name]; rw [← hi.mid.wf.reg i s b h1 hp, h3])
    | listening b q lim => exact .inl (by simp only [skOf, hp, St.name]; rw [← hi.mid.wf.regL i s b q lim h1 hp, h3])
    | conn b a p => exact .inr ⟨b, a, p, inboxOf s.kind s.buf, by simp only [skOf, hp]⟩
    | closed => exact (hd ((dead_iff h1).2 (by rw [hp]; rfl))).elim
    | dgram b p r => exact .inl (by simp only [skOf, hp, St.name]; rw [← hi.mid.wf.regD i s b p r h1 hp, h3])
    | dgramClosed => exact (hd ((dead_iff h1).2 (by rw [hp]; rfl))).elim
  · cases hsi : w.socks i with
    | none => simp [abs, hsi] at hs
    | some t =>
      rw [sock_abs hsi] at hs
      cases hs
      show w.ns t.kind n = some i
      cases hp : t.proto with
      | init b =>
        simp only [skOf, hp, St.name] at hn
        exact hi.mid.names.there i t n hsi (by rw [hi.mid.wf.reg i t b hsi hp, hn]) (by rw [hp]; rfl)
      | listening b q lim =>
        simp only [skOf, hp, St.name] at hn
        exact hi.mid.names.there i t n hsi (by rw [hi.mid.wf.regL i t b q lim hsi hp, hn]) (by rw [hp]; rfl)
      | conn b a p => exact (hl b a p (inboxOf t.kind t.buf) (by simp only [skOf, hp])).elim
      | closed => simp [skOf, hp, St.name] at hn
      | dgram b p r =>
        simp only [skOf, hp, St.name] at hn
        exact hi.mid.names.there i t n hsi (by rw [hi.mid.wf.regD i t b p r hsi hp, hn]) (by rw [hp]; rfl)
      | dgramClosed => simp [skOf, hp, St.name] at hn

/-- **C55.**  In every run a connection that the program has not accepted waits in the queue of exactly
one listening socket, once. -/
theorem C55_queued {limit : Nat} {w : World α} {tr : List (Event α)} (h : Run limit w tr) {c p : Nat}
    {k : Kind} {b a : Option Nat} {x : Inbox α}
    (hs : (abs w).sock c = some ⟨k, .linked b a p x, false⟩) :
    ∃ i n q lim, (abs w).sock i = some ⟨k, .listening n q lim, true⟩ ∧ q.count c = 1 ∧
      ∀ j k' n' q' lim' hh, (abs w).sock j = some ⟨k', .listening n' q' lim', hh⟩ → c ∈ q' → j = i := by
  have hi := run_inv h
  cases hsc : w.socks c with
  | none => simp [abs, hsc] at hs
  | some s =>
    rw [sock_abs hsc] at hs
    simp only [skOf, Option.some.injEq, Sk.mk.injEq] at hs
    obtain ⟨rfl, e, he⟩ := hs
    have hconn : s.proto.isConn = true := by
      cases hp : s.proto <;> simp only [hp] at e <;> first | rfl | cases e
    obtain ⟨i, t, n, q, lim, ht, hl, hq⟩ := hi.queued c s hsc hconn he id
    obtain ⟨s', hs', _, hk, _⟩ := hi.mid.wf.child i t n q lim c ht hl hq
    rw [hsc] at hs'; cases hs'
    refine ⟨i, n, q, lim, ?_, (hi.mid.wf.nodup i t n q lim ht hl).count.trans (by simp [hq]), ?_⟩
    · rw [sock_abs ht, sk_listening hl (hi.mid.wf.early i t ht (by rw [hl]; rfl)).2, hk]
    · intro j k' n' q' lim' hh hj hc
      cases hsj : w.socks j with
      | none => simp [abs, hsj] at hj
      | some u =>
        rw [sock_abs hsj] at hj
        simp only [skOf, Option.some.injEq, Sk.mk.injEq] at hj
        obtain ⟨_, e', _⟩ := hj
        cases hp : u.proto <;> simp only [hp] at e' <;> first | (simp only [St.listening.injEq] at e') | cases e'
        obtain ⟨rfl, rfl, rfl⟩ := e'
        exact hi.mid.wf.apart j i u t _ _ _ _ _ _ c hsj ht hp hl hc hq

end Shadow.Unix
