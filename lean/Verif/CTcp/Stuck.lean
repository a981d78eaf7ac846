import Verif.CTcp.Props
/-!
# A packet that is acknowledged while its retransmission waits to be sent is kept forever

When the retransmission is given to the network, `tcp_networkInterfaceIsAboutToSendPacket` puts the packet back into the retransmission queue although it is already
acknowledged.  Later acknowledgements remove only packets from the last acknowledged number on (tcp.c:1985-1986), and the tally never reports it lost, so it
stays there.  The queue is never empty again, and the FIN is sent only when it is.
-/

namespace Shadow.CTcp
open Shadow.Base Shadow.Tally

/-- The packet `g` is acknowledged but in the retransmission queue, and the connection is open. -/
structure Stuck (g : Seg) (X : Ep) : Prop where
  rq : g ∈ X.rq
  data : g.data ≠ []
  seq : g.seq < X.lastAck
  un : X.unacked = X.lastAck
  mkd : ¬ Cov X.tally.marked g.seq
  lo : ¬ Cov X.tally.lost g.seq
  la : (g.seq : Int) < X.tally.lastAck
  st : X.state = .estab ∨ X.state = .closeWait
  cs : X.closeSched = false
  tw : TWF X.tally
  nn : ∀ x : Int, Cov X.tally.marked x ∨ Cov X.tally.lost x → 0 ≤ x

theorem mem_bytes {g : Seg} : ∀ {l : List Seg}, g ∈ l → g.data.length ≤ bytes l
  | a :: l, h => by
    rcases List.mem_cons.1 h with rfl | h
    · simp [bytes]
    · have := mem_bytes h
      simp [bytes] at this ⊢; omega

theorem Stuck.out {g : Seg} {X : Ep} (h : Stuck g X) : 0 < X.outLen := by
  have : g.data.length ≤ bytes X.rq := mem_bytes h.rq
  have : 0 < g.data.length := List.length_pos_iff.2 h.data
  unfold Ep.outLen; omega

/-- The fields that matter are the same. -/
theorem Stuck.same {g : Seg} {X Y : Ep} (h : Stuck g X) (r : Y.rq = X.rq) (l : Y.lastAck = X.lastAck) (u : Y.unacked = X.unacked)
    (t : Y.tally = X.tally) (s : Y.state = X.state) (c : Y.closeSched = X.closeSched) : Stuck g Y :=
  ⟨by rw [r]; exact h.rq, h.data, by rw [l]; exact h.seq, by rw [u, l]; exact h.un, by rw [t]; exact h.mkd, by rw [t]; exact h.lo, by rw [t]; exact h.la,
    by rw [s]; exact h.st, by rw [c]; exact h.cs, by rw [t]; exact h.tw, by rw [t]; exact h.nn⟩

theorem retxPacket_stuck {g : Seg} {X : Ep} (h : Stuck g X) {q : Nat} (hq : q ≠ g.seq) : Stuck g (X.retxPacket q) := by
  unfold Ep.retxPacket
  split
  · exact h
  · exact { h with rq := List.mem_filter.2 ⟨h.rq, by simpa using Ne.symm hq⟩ }

theorem retxFold_stuck {g : Seg} : ∀ (l : List Nat) {X : Ep}, Stuck g X → g.seq ∉ l → Stuck g (l.foldl Ep.retxPacket X)
  | [], _, h, _ => h
  | q :: l, X, h, hl => retxFold_stuck l (retxPacket_stuck h fun e => hl (by simp [e])) fun m => hl (by simp [m])

theorem retxRanges_stuck {g : Seg} : ∀ (rs : List Rng) {X Y : Ep}, Stuck g X → (∀ r ∈ rs, 0 ≤ r.lo ∧ r.lo < r.hi) → ¬ Cov rs g.seq →
    Ep.retxRanges rs X = .ok Y → Stuck g Y
  | [], X, Y, h, _, _, e => by cases e; exact h
  | r :: rs, X, Y, h, hr, hc, e => by
    have f : Stuck g ((List.range' r.lo.toNat (r.hi - r.lo).toNat).foldl Ep.retxPacket X) := by
      refine retxFold_stuck _ h fun m => hc ⟨r, by simp, ?_⟩
      rw [List.mem_range'_1] at m
      have := hr r (by simp)
      constructor <;> omega
    obtain ⟨t, e1, w, s, mk, la, _, ls⟩ := markRetx_spec f.tw (hr r (by simp)).2
    simp only [Ep.retxRanges, e1, R.bind_ok] at e
    refine retxRanges_stuck rs ?_ (fun r hr' => hr r (by simp [hr'])) (fun ⟨r', a, b⟩ => hc ⟨r', by simp [a], b⟩) e
    exact { f with
      mkd := by rw [mk]; exact f.mkd
      lo := fun c => f.mkd ((ls _).1 c).1
      la := by rw [la]; exact f.la
      tw := w
      nn := fun x hx => f.nn x (.inl (hx.elim (fun k => by rw [← mk]; exact k) (fun k => ((ls x).1 k).1))) }

theorem sendLoop_stuck {g : Seg} : ∀ (l : List Seg) {X : Ep}, Stuck g X → Stuck g (Ep.sendLoop l X)
  | [], _, h => { h with }
  | a :: l, X, h => by
    unfold Ep.sendLoop
    split
    · exact { h with }
    · exact sendLoop_stuck l (X := X.toOut a) { h with }

theorem inLoop_stuck {g : Seg} : ∀ (l : List Seg) {X : Ep}, Stuck g X → Stuck g (Ep.inLoop l X)
  | [], _, h => { h with }
  | a :: l, X, h => by
    unfold Ep.inLoop
    split
    · exact { h with }
    split
    · exact inLoop_stuck l (X := { X with inb := X.inb ++ [a.data], rnext := X.rnext + 1, readable := true }) { h with }
    · exact { h with }

theorem flushBody_stuck {g : Seg} {X Y : Ep} (h : Stuck g X) (e : X.flushBody = .ok Y) : Stuck g Y := by
  unfold Ep.flushBody at e
  obtain ⟨Z, e1, e2⟩ := R.bind_eq_ok.1 e
  cases e2
  exact inLoop_stuck _ (sendLoop_stuck _ (retxRanges_stuck _ (X := X.updRwin.updSwin) { h with }
    (fun r hr => ⟨h.nn _ (.inr ⟨r, hr, Int.le_refl _, h.tw.l.1 r hr⟩), h.tw.l.1 r hr⟩) h.lo e1))

theorem eofPart_stuck {g : Seg} {X : Ep} (h : Stuck g X) : Stuck g X.eofPart := by
  unfold Ep.eofPart
  simp only
  split <;> split <;> exact { h with }

theorem flush_stuck {g : Seg} {X Y : Ep} (h : Stuck g X) (e : X.flush = .ok Y) : Stuck g Y := by
  unfold Ep.flush at e
  obtain ⟨Z, e1, e2⟩ := R.bind_eq_ok.1 e
  obtain ⟨V, e3, e4⟩ := R.bind_eq_ok.1 e2
  cases e4
  have hz := flushBody_stuck h e1
  have := hz.out
  unfold Ep.finPart at e3
  rw [if_neg (by simp; intro _; omega)] at e3
  cases e3
  exact eofPart_stuck hz

theorem create_stuck {g : Seg} {X : Ep} (h : Stuck g X) (f : Flags) (c : List Nat) : Stuck g (X.create f c) := by
  unfold Ep.create
  split <;> exact { h with }

theorem sendControl_stuck {g : Seg} {X Y : Ep} (h : Stuck g X) {f : Flags} (e : X.sendControl f = .ok Y) : Stuck g Y :=
  flush_stuck (create_stuck h f []) e

theorem onState_stuck {g : Seg} {X : Ep} (h : Stuck g X) (p : Seg) : Stuck g (X.onState p).1 := by
  unfold Ep.onState
  rcases h.st with s | s <;> simp only [s]
  · split
    · exact { h with st := .inr rfl }
    · exact h
  · exact h

theorem dataProc_stuck {g : Seg} {X : Ep} (h : Stuck g X) (p : Seg) : Stuck g (X.dataProc p).1 := by
  unfold Ep.dataProc
  split
  · exact h
  split
  · simp only
    split <;> exact { h with }
  · exact h

theorem ackProc_stuck {g : Seg} {X Y : Ep} (h : Stuck g X) {p : Pkt} {cw o : Nat} (e : X.ackProc p cw o = .ok Y) : Stuck g Y := by
  obtain ⟨r, e1, w, _, la, la2, mk, lo⟩ := update_spec h.tw p.ackNo p.seg.dup
  unfold Ep.ackProc at e
  simp only [e1, R.bind_ok] at e
  have hla := h.la
  have nm : ¬ Cov r.1.marked g.seq := fun c => by
    rcases mk _ c with k | k
    · exact h.mkd k
    · omega
  have mnn : ∀ x : Int, Cov r.1.marked x → 0 ≤ x := fun x c => by
    rcases mk _ c with k | k
    · exact h.nn x (.inl k)
    · omega
  have nn : ∀ x : Int, Cov r.1.marked x ∨ Cov r.1.lost x → 0 ≤ x := fun x hx =>
    hx.elim (mnn x) fun c => (lo _ c).elim (fun k => h.nn x (.inr k)) (mnn x)
  have a : Stuck g { X with tally := r.1, cwnd := cw } :=
    { h with mkd := nm, lo := fun c => (lo _ c).elim h.lo nm, la := by show (g.seq : Int) < r.1.lastAck; omega, tw := w, nn := nn }
  have b : Stuck g (if (decide (p.ackNo > X.unacked) && decide (p.ackNo ≤ X.snext)) = true then
      { X with
        tally := r.1, cwnd := cw
        rq := X.rq.filter (fun g => !(decide (X.lastAck ≤ g.seq) && decide (g.seq < p.ackNo)))
        lastAck := p.ackNo, unacked := p.ackNo, outSize := o }
    else { X with tally := r.1, cwnd := cw }) := by
    split
    · rename_i c
      simp at c
      have := h.seq
      have := h.un
      exact { a with
        rq := List.mem_filter.2 ⟨h.rq, by simp; omega⟩
        seq := by show g.seq < p.ackNo; omega
        un := rfl }
    · exact a
  generalize (if (decide (p.ackNo > X.unacked) && decide (p.ackNo ≤ X.snext)) = true then
      { X with
        tally := r.1, cwnd := cw
        rq := X.rq.filter (fun g => !(decide (X.lastAck ≤ g.seq) && decide (g.seq < p.ackNo)))
        lastAck := p.ackNo, unacked := p.ackNo, outSize := o }
    else ({ X with tally := r.1, cwnd := cw } : Ep)) = Z at b e
  have c : Stuck g (if ((p.ackNo == X.lastAck && decide (p.win > X.lastWin)) || (decide (p.ackNo > X.lastAck) && p.win != X.lastWin)) = true then
      { Z with lastWin := p.win } else Z) := by
    split
    · exact { b with }
    · exact b
  generalize (if ((p.ackNo == X.lastAck && decide (p.win > X.lastWin)) || (decide (p.ackNo > X.lastAck) && p.win != X.lastWin)) = true then
      { Z with lastWin := p.win } else Z : Ep) = V at c e
  cases e
  split
  · exact { c with }
  split
  · exact { c with }
  · exact c

theorem respond_stuck {g : Seg} {X Y : Ep} (h : Stuck g X) {f : Flags} (e : X.respond f = .ok Y) : Stuck g Y := by
  unfold Ep.respond at e
  split at e
  · split at e
    · exact sendControl_stuck h e
    · cases e; exact { h with }
  · cases e; exact h

theorem afterSwitch_stuck {g : Seg} {X Y : Ep} (h : Stuck g X) {b : Bool} {f : Flags} {p : Pkt} {cw o : Nat} (hp : ∀ c ∈ p.sacks, c.1 < c.2)
    (e : X.afterSwitch b f p cw o = .ok Y) : Stuck g Y := by
  unfold Ep.afterSwitch at e
  generalize hd : (if (!p.seg.data.isEmpty && !X.errRecv) = true then X.dataProc p.seg else (X, false, false)) = d at e
  have h1 : Stuck g d.1 := by
    rw [← hd]
    split
    · exact dataProc_stuck h _
    · exact h
  obtain ⟨Z, e1, e2⟩ := R.bind_eq_ok.1 e
  have h2 : Stuck g Z := by
    unfold Ep.ackIf at e1
    split at e1
    · exact ackProc_stuck h1 e1
    · cases e1; exact h1
  simp only at e2
  split at e2
  · cases e2; exact h2
  · obtain ⟨t, e3, w, mk, _, lo, la, _⟩ := markSacked_spec p.sacks h2.tw hp
    rw [e3, R.bind_ok] at e2
    obtain ⟨V, e4, e5⟩ := R.bind_eq_ok.1 e2
    have h3 : Stuck g { Z with tally := t } :=
      { h2 with
        mkd := by rw [mk]; exact h2.mkd
        lo := by rw [lo]; exact h2.lo
        la := by rw [la]; exact h2.la
        tw := w
        nn := by show ∀ x : Int, Cov t.marked x ∨ Cov t.lost x → 0 ≤ x; rw [mk, lo]; exact h2.nn }
    exact flush_stuck (respond_stuck h3 e4) e5

theorem receive_stuck {g : Seg} {X Y : Ep} (h : Stuck g X) {p : Pkt} {cw o : Nat} (hp : ∀ c ∈ p.sacks, c.1 < c.2)
    (e : X.receive p cw o = .ok Y) : Stuck g Y := by
  unfold Ep.receive at e
  have : X.absorbed p.seg = none := by
    unfold Ep.absorbed
    rcases h.st with s | s <;> simp [s]
  rw [this] at e
  exact afterSwitch_stuck (onState_stuck h p.seg) hp e

theorem write_stuck {g : Seg} {X Y : Ep} (h : Stuck g X) {bs : List Nat} (e : X.write bs = .ok Y) : Stuck g Y := by
  unfold Ep.write at e
  split at e
  · cases e; exact h
  · simp only at e
    have fold : ∀ (l : List (List Nat)) {Z : Ep}, Stuck g Z → Stuck g (l.foldl (fun s c => s.create { ack := true } c) Z) := by
      intro l
      induction l with
      | nil => exact fun h => h
      | cons a l ih => exact fun h => ih (create_stuck h _ _)
    refine flush_stuck ?_ e
    exact Stuck.same (fold (chunks (bs.take (min 65535 (X.outSpace - X.outLen))).length (bs.take (min 65535 (X.outSpace - X.outLen)))) h)
      rfl rfl rfl rfl rfl rfl

theorem recv_stuck {g : Seg} {X Y : Ep} (h : Stuck g X) {n sz : Nat} (e : X.recv n sz = .ok Y) : Stuck g Y := by
  unfold Ep.recv at e
  obtain ⟨Z, e1, e2⟩ := R.bind_eq_ok.1 e
  have hz := flush_stuck h e1
  split at e2
  · cases e2; exact hz
  · cases e2
    have hc : Stuck g (Z.copy n).1 := by
      unfold Ep.copy
      split <;> exact { hz with }
    unfold Ep.afterCopy
    split
    · exact { hc with }
    split
    · split
      · split <;> exact { hc with }
      · exact { hc with }
    · exact { hc with }

theorem close_stuck {g : Seg} {X Y : Ep} (h : Stuck g X) (e : X.close = .ok Y) : Stuck g Y := by
  have := h.out
  unfold Ep.close at e
  rcases h.st with s | s
  all_goals
    simp only [s] at e
    rw [if_neg (by simp [Ep.outLen] at this ⊢; omega)] at e
    cases e
    exact { h with st := by simp }

theorem shutdown_stuck {g : Seg} {X Y : Ep} (h : Stuck g X) {rd wr : Bool} (e : X.shutdown rd wr = .ok Y) : Stuck g Y := by
  unfold Ep.shutdown at e
  split at e
  · cases e; exact h
  · have h1 : Stuck g (if rd then { X with closedRd := true, errRecv := true } else X) := by
      split
      · exact { h with }
      · exact h
    generalize (if rd then { X with closedRd := true, errRecv := true } else X : Ep) = Z at h1 e
    simp only at e
    split at e
    · have := h1.out
      have o : (({ Z with closedWr := true, errSend := true } : Ep).outLen == 0) = false := by
        simp [Ep.outLen] at this ⊢; omega
      rw [if_neg (by simp [o])] at e
      cases e
      exact { h1 with }
    · cases e; exact h1

theorem expire_stuck {g : Seg} {X Y : Ep} (h : Stuck g X) (hl : X.lastAck ≤ X.highest + 1) {cw : Nat} (e : X.expire cw = .ok Y) : Stuck g Y := by
  unfold Ep.expire at e
  rw [if_neg (by rcases h.st with s | s <;> simp [s])] at e
  split at e
  · cases e; exact { h with }
  split at e
  · cases e; exact h
  · obtain ⟨t, e1, w, _, _, la, m1, _, lo⟩ := markLost_spec (t := X.tally.clearRetx) (twf_clear h.tw) hl
    rw [e1, R.bind_ok] at e
    have hs := h.seq
    have nm : ¬ Cov t.marked g.seq := fun c => by
      rcases m1 _ c with k | k
      · exact h.mkd k
      · omega
    have mnn : ∀ x : Int, Cov t.marked x → 0 ≤ x := fun x c => by
      rcases m1 _ c with k | k
      · exact h.nn x (.inl k)
      · omega
    have nn : ∀ x : Int, Cov t.marked x ∨ Cov t.lost x → 0 ≤ x := fun x hx => hx.elim (mnn x) fun c => mnn x ((lo _).1 c).1
    exact flush_stuck (X := { X with timer := true, cwnd := cw, tally := t })
      { h with mkd := nm, lo := fun c => nm ((lo _).1 c).1, la := by rw [la]; exact h.la, tw := w, nn := nn } e

theorem ackTask_stuck {g : Seg} {X Y : Ep} (h : Stuck g X) (e : X.ackTask = .ok Y) : Stuck g Y := by
  unfold Ep.ackTask at e
  simp only at e
  split at e
  · obtain ⟨Z, e1, e2⟩ := R.bind_eq_ok.1 e
    cases e2
    exact { sendControl_stuck (X := { X with ackSched := false }) { h with } e1 with }
  · cases e; exact { h with }

theorem winTask_stuck {g : Seg} {X Y : Ep} (h : Stuck g X) (e : X.winTask = .ok Y) : Stuck g Y := by
  unfold Ep.winTask at e
  obtain ⟨Z, e1, e2⟩ := R.bind_eq_ok.1 e
  cases e2
  exact { sendControl_stuck h e1 with }

theorem pull_stuck {g : Seg} {X Y : Ep} {p : Pkt} (h : Stuck g X) (e : X.pull = some (Y, p)) : Stuck g Y := by
  have send : ∀ {Z : Ep} (a : Seg), Stuck g Z → Stuck g (Z.aboutToSend a).1 := by
    intro Z a hz
    have add : ∀ {V : Ep}, Stuck g V → Stuck g (V.addRetx a) := by
      intro V hv
      unfold Ep.addRetx
      split
      · exact hv
      · exact { hv with rq := List.mem_append_left _ hv.rq }
    unfold Ep.aboutToSend
    simp only
    split
    · exact Stuck.same (add (V := { Z with sLastWin := Z.rwin, ackCount := if a.ack then 0 else Z.ackCount }) { hz with }) rfl rfl rfl rfl rfl rfl
    · exact { hz with }
  unfold Ep.pull at e
  split at e
  · rename_i _ _ a c _
    simp only [Option.some.injEq] at e
    have := send (Z := { X with outC := c }) a { h with }
    rw [e] at this; exact this
  · rename_i a c _ _
    simp only [Option.some.injEq] at e
    have := send (Z := { X with outD := c }) a { h with }
    rw [e] at this; exact this
  · simp at e

theorem upd_stuck {g : Seg} {w v : W} {x y : Bool} {r : R Ep} (h : Stuck g (w.get x)) (k : ∀ Y, r = .ok Y → y = x → Stuck g Y)
    (e : w.upd y r = .ok v) : Stuck g (v.get x) := by
  unfold W.upd at e
  obtain ⟨Y, e1, e2⟩ := R.bind_eq_ok.1 e
  cases e2
  by_cases c : y = x
  · subst c; rw [get_set]; exact k Y e1 rfl
  · have : x = !y := by cases x <;> cases y <;> simp_all
    subst this
    rw [get_set']; exact h

theorem step_stuck {g : Seg} {w v : W} {x : Bool} (i : Inv w) (h : Stuck g (w.get x)) {a : Act} (e : step w a = some (.ok v)) :
    Stuck g (v.get x) := by
  have other : ∀ {y : Bool} {E : Ep}, (y = x → Stuck g E) → Stuck g ((w.set y E).get x) := by
    intro y E k
    by_cases c : y = x
    · subst c; rw [get_set]; exact k rfl
    · have : x = !y := by cases x <;> cases y <;> simp_all
      subst this
      rw [get_set']; exact h
  cases a with
  | write y bs =>
    simp only [step, Option.some.injEq] at e
    exact upd_stuck h (fun Y k c => by subst c; exact write_stuck h k) e
  | read y n sz =>
    simp only [step, Option.some.injEq] at e
    exact upd_stuck h (fun Y k c => by subst c; exact recv_stuck h k) e
  | close y =>
    simp only [step, Option.some.injEq] at e
    exact upd_stuck h (fun Y k c => by subst c; exact close_stuck h k) e
  | shutdown y rd wr =>
    simp only [step, Option.some.injEq] at e
    exact upd_stuck h (fun Y k c => by subst c; exact shutdown_stuck h k) e
  | bufs y n m =>
    simp only [step, Option.some.injEq] at e
    cases e
    exact other fun c => by subst c; exact { h with }
  | expire y cw =>
    simp only [step, Option.some.injEq] at e
    exact upd_stuck h (fun Y k c => by
      subst c; exact expire_stuck h (Nat.le_trans (i.good y).a.last (i.good y).pn) k) e
  | ackTask y =>
    simp only [step] at e
    split at e
    · simp only [Option.some.injEq] at e
      exact upd_stuck h (fun Y k c => by subst c; exact ackTask_stuck h k) e
    · simp at e
  | winTask y =>
    simp only [step] at e
    split at e
    · simp only [Option.some.injEq] at e
      exact upd_stuck h (fun Y k c => by subst c; exact winTask_stuck h k) e
    · simp at e
  | closeTask y =>
    simp only [step] at e
    split at e
    · rename_i c
      cases e
      exact other fun d => by subst d; rw [h.cs] at c; simp at c
    · simp at e
  | pull y =>
    simp only [step] at e
    split at e
    · simp at e
    · rename_i E p hp
      cases e
      have := other (y := y) (E := E) fun d => by subst d; exact pull_stuck h hp
      cases y <;> cases x <;> exact this
  | deliver j cw o =>
    simp only [step] at e
    split at e
    · simp at e
    · rename_i y p hp
      simp only [Option.some.injEq] at e
      have ok := i.net _ (List.mem_of_getElem? hp)
      refine upd_stuck (w := { w with net := w.net.eraseIdx j }) (x := x) (by cases x <;> exact h) (fun Y k c => ?_) e
      subst c
      exact receive_stuck h (fun c hc => (ok.sack c hc).1) k
  | drop j =>
    simp only [step] at e
    split at e
    · cases e; cases x <;> exact h
    · simp at e

/-- **C70** (finding).  Once a packet is acknowledged and in the retransmission queue of an open connection, in every continuation, whatever the programs and the
network do: the packet stays there and takes its share of the send buffer, the retransmission timer stays on, the endpoint never sends a FIN, not even after
its program has closed the socket, and the other program is never told of the end of the stream. -/
theorem C70_stuck_forever {w v : W} (h : Run w) {x : Bool} {g : Seg} (s : Stuck g (w.get x)) (k : Cont w v) :
    g ∈ (v.get x).rq ∧ 0 < (v.get x).outLen ∧ (v.get x).timer = true ∧ ((v.get x).state = .estab ∨ (v.get x).state = .closeWait) ∧
      (∀ f ∈ (v.get x).hist, f.fin = false) ∧ (v.get !x).eof = false := by
  have all : Stuck g (v.get x) ∧ Inv v := by
    induction k with
    | refl => exact ⟨s, run_inv h⟩
    | step _ al e ih =>
      obtain ⟨w', e1, i⟩ := step_inv ih.2 al e
      cases e1
      exact ⟨step_stuck ih.2 ih.1 e, i⟩
  obtain ⟨a, i⟩ := all
  have nf : ∀ f ∈ (v.get x).hist, f.fin = false := (i.good x).s.noFin (by rcases a.st with s | s <;> simp [PastFin, s])
  refine ⟨a.rq, a.out, (i.good x).s.timer g a.rq a.data, a.st, nf, ?_⟩
  cases e : (v.get !x).eof
  · rfl
  · have q := (i.good (!x)).r.eof e
    rw [Bool.not_not] at q
    obtain ⟨_, f, hf, c⟩ := q
    rw [nf f hf] at c; simp at c

end Shadow.CTcp
