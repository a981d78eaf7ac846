import Verif.CTcp.Ops3
/-!
# The invariant of the two endpoints and the network
-/

namespace Shadow.CTcp
open Shadow.Base Shadow.Tally

/-! ## The remaining calls -/

theorem copy_read (X : Ep) (n : Nat) : ∃ z, (X.copy n).1.read = X.read ++ z := by
  unfold Ep.copy
  split
  · exact ⟨_, List.append_assoc _ _ _⟩
  · exact ⟨_, rfl⟩

theorem flat_take_le (l : List Seg) (n : Nat) : (flat (l.take n)).length ≤ (flat l).length := by
  have := congrArg (fun l => (flat l).length) (List.take_append_drop n l)
  simp only [flat_append, List.length_append] at this
  omega

theorem copy_mv {P X : Ep} (h : Good P X) (n : Nat) : Mv P X (X.copy n).1 := by
  have st := copy_str X n
  obtain ⟨z, rd⟩ := copy_read X n
  have e : (X.copy n).1 = { X with read := (X.copy n).1.read, part := (X.copy n).1.part, inb := (X.copy n).1.inb } := by
    unfold Ep.copy; split <;> rfl
  rw [e]
  refine ⟨⟨{ h.s with }, { h.r with
      str := by rw [← h.r.str]; exact st
      eof := fun x => ⟨?_, (h.r.eof x).2⟩ }, ⟨h.a.last, h.a.sack⟩, h.pn⟩,
    ⟨List.prefix_refl _, fun _ => rfl, Nat.le_refl _, Nat.le_refl _, fun _ h => h, fun h => h⟩, ⟨rfl, rfl, fun h => h, fun h => h, fun _ _ h => h⟩⟩
  have a := (h.r.eof x).1
  have b := h.r.str
  rw [← st, rd] at b
  have c := congrArg List.length b
  have d := flat_take_le P.hist (X.rnext - 1)
  have l := congrArg List.length a
  simp only [List.length_append] at c
  have : z = [] := List.length_eq_zero_iff.1 (by omega)
  show (X.copy n).1.read = flat P.hist
  rw [rd, this, List.append_nil, a]

/-- All that the peer has written was read when the end of the stream is reported. -/
theorem eof_mv {P X : Ep} (hP : Snd P) (h : Good P X) (hi : X.inb.flatten = []) (hp : X.part = []) (he : X.errRecv = true) :
    Mv P X { X with eof := X.eof || !X.closedRd } := by
  refine ⟨⟨{ h.s with }, { h.r with eof := fun x => ?_ }, ⟨h.a.last, h.a.sack⟩, h.pn⟩,
    ⟨List.prefix_refl _, fun _ => rfl, Nat.le_refl _, Nat.le_refl _, fun _ h => h, fun h => h⟩, ⟨rfl, rfl, fun h => h, fun h => h, fun _ _ h => h⟩⟩
  cases e : X.eof
  · simp only [e, Bool.false_or] at x
    simp at x
    rcases h.r.errR he with k | k
    · rw [x] at k; simp at k
    obtain ⟨f, hf, k1, k2⟩ := h.r.rend k.1
    refine ⟨?_, f, hf, k1⟩
    have s := h.r.str
    rw [hi, hp] at s
    simp only [List.append_nil] at s
    show X.read = flat P.hist
    rw [s]
    have q := hP.fin f hf k1
    have pz := (hP.pos hf).2.2
    have dz := (hP.data f hf).2 (.inr k1)
    by_cases c : P.hist.length ≤ X.rnext - 1
    · rw [List.take_of_length_le c]
    · have c2 : X.rnext - 1 = P.hist.length - 1 := by omega
      have t := List.take_append_drop (X.rnext - 1) P.hist
      rw [c2] at t ⊢
      have dd : P.hist.drop (P.hist.length - 1) = [f] := by
        rw [q.1] at pz
        obtain ⟨lt, ge⟩ := List.getElem?_eq_some_iff.1 pz
        rw [List.drop_eq_getElem_cons lt, ge, List.drop_of_length_le (by omega)]
      conv => rhs; rw [← t]
      rw [flat_append, dd]
      simp [flat, dz]
  · exact h.r.eof e

theorem afterCopy_mv {P X : Ep} (hP : Snd P) (h : Good P X) (nl : X.state ≠ .listen) (t sz : Nat) : Mv P X (X.afterCopy t sz) := by
  have w : ∀ b, Mv P X { ({ X with readable := b, inSize := sz } : Ep).updRwin with
      winPending := X.winPending || decide (({ X with readable := b, inSize := sz } : Ep).updRwin.rwin > X.sLastWin) } := by
    intro b
    have m1 := readable_mv h b
    have m2 := m1.trans (inSize_mv m1.good sz)
    have m3 := m2.trans (updRwin_mv m2.good)
    exact m3.trans (winPending_mv m3.good _ nl)
  unfold Ep.afterCopy
  split
  · exact w true
  split
  · split
    · split
      · exact readable_mv h true
      · rename_i c1 c2 _ _
        simp at c1 c2
        have m1 := eof_mv hP h (List.length_eq_zero_iff.1 (by simp; exact c1.1)) c1.2 c2.2
        have m2 := m1.trans (readable_mv m1.good true)
        exact m2.trans (eofRd_mv m2.good true)
    · exact w true
  · exact w false

/-- A started endpoint does not go back to listening. -/
theorem notListen {P X Y : Ep} (m : Mv P X Y) (ne : X.hist ≠ []) : Y.state ≠ .listen := by
  intro st
  have p := m.ext.hist
  rw [(m.good.s.listen st).1] at p
  exact ne (List.prefix_nil.1 p)

theorem recv_mv {P X : Ep} (hP : Snd P) (h : Good P X) (ne : X.hist ≠ []) (n sz : Nat) : ∃ X', X.recv n sz = .ok X' ∧ Mv P X X' := by
  obtain ⟨Y, e, m⟩ := flush_mv hP h
  unfold Ep.recv
  simp only [e, R.bind_ok]
  split
  · exact ⟨Y, rfl, m⟩
  · have m2 := m.trans (copy_mv m.good n)
    exact ⟨_, rfl, m2.trans (afterCopy_mv hP m2.good (notListen m2 ne) _ _)⟩

theorem closeFlags_mv {P X : Ep} (h : Good P X) (hl : X.state ≠ .listen ∧ X.state ≠ .synSent ∧ X.state ≠ .synRcvd) :
    Mv P X { X with closedWr := true, closedRd := true, uclosed := true } :=
  ⟨⟨{ h.s with
        finCl := fun _ _ _ => rfl
        should := fun _ => rfl
        errS := fun _ => .inr rfl
        early := fun e => absurd e (by simp [hl]) },
      { h.r with errR := fun _ => .inl rfl }, ⟨h.a.last, h.a.sack⟩, h.pn⟩,
    ⟨List.prefix_refl _, fun _ => rfl, Nat.le_refl _, Nat.le_refl _, fun _ h => h, fun h => h⟩, ⟨rfl, rfl, fun h => h, fun h => h, fun _ _ h => h⟩⟩

theorem closeNow_mv {P X : Ep} (h : Good P X) (hh : X.hist ≠ []) :
    Mv P X ({ X with closedWr := true, closedRd := true, uclosed := true } : Ep).setClosed := by
  have m := setClosed_mv h hh
  have m2 := closeFlags_mv m.good (by simp [Ep.setClosed])
  exact m.trans m2

theorem close_mv {P X : Ep} (hP : Snd P) (h : Good P X) (nl : X.state ≠ .listen) (nr : X.state ≠ .synRcvd) :
    ∃ X', X.close = .ok X' ∧ Mv P X X' := by
  have ne := h.s.started nl nr
  have fin : X.state ≠ .synSent →
      ∃ X', (if ({ X with closedWr := true, closedRd := true, uclosed := true } : Ep).outLen == 0 then
        ({ X with closedWr := true, closedRd := true, uclosed := true } : Ep).sendFin
      else pure { X with closedWr := true, closedRd := true, uclosed := true, shouldFin := true }) = .ok X' ∧ Mv P X X' := by
    intro ns
    have m := closeFlags_mv h ⟨nl, ns, nr⟩
    split
    · obtain ⟨Y, e, m2⟩ := sendFin_mv hP m.good rfl
      exact ⟨Y, e, m.trans m2⟩
    · exact ⟨_, rfl, m.trans (shouldOn_mv m.good rfl)⟩
  unfold Ep.close
  simp only
  split
  · exact ⟨_, rfl, closeNow_mv h ne⟩
  · exact ⟨_, rfl, closeNow_mv h ne⟩
  · exact ⟨_, rfl, closeNow_mv h ne⟩
  · rename_i st; exact absurd st nr
  · rename_i st; exact fin (by simp [st])
  · rename_i st; exact fin (by simp [st])
  · refine ⟨_, rfl, closeFlags_mv h ⟨nl, ?_, nr⟩⟩
    assumption

theorem shutdown_mv {P X : Ep} (hP : Snd P) (h : Good P X) (rd wr : Bool) : ∃ X', X.shutdown rd wr = .ok X' ∧ Mv P X X' := by
  unfold Ep.shutdown
  split
  · exact ⟨X, rfl, .refl h⟩
  · rename_i c
    have m1 : Mv P X (if rd then { X with closedRd := true, errRecv := true } else X) ∧
        (if rd then { X with closedRd := true, errRecv := true } else X : Ep).state = X.state := by
      split
      · have m := closedRd_mv h ⟨fun e => c (by simp [e]), fun e => c (by simp [e]), fun e => c (by simp [e])⟩
        exact ⟨m.trans (errRecv_mv m.good (.inl rfl)), rfl⟩
      · exact ⟨.refl h, rfl⟩
    generalize (if rd then { X with closedRd := true, errRecv := true } else X : Ep) = Y at m1
    simp only
    split
    · have m2 : Mv P Y { Y with closedWr := true, errSend := true } :=
        ⟨⟨{ m1.1.good.s with
            finCl := fun _ _ _ => rfl
            should := fun _ => rfl
            errS := fun _ => .inl rfl
            early := fun e => absurd (show X.state = .listen ∨ X.state = .synSent ∨ X.state = .synRcvd by rw [← m1.2]; exact e) (by
              rintro (e | e | e) <;> exact c (by simp [e])) },
          { m1.1.good.r with }, ⟨m1.1.good.a.last, m1.1.good.a.sack⟩, m1.1.good.pn⟩,
        ⟨List.prefix_refl _, fun _ => rfl, Nat.le_refl _, Nat.le_refl _, fun _ h => h, fun h => h⟩, ⟨rfl, rfl, fun h => h, fun h => h, fun _ _ h => h⟩⟩
      have m3 := m1.1.trans m2
      split
      · obtain ⟨Z, e, m4⟩ := sendFin_mv hP m3.good rfl
        exact ⟨Z, e, m3.trans m4⟩
      · exact ⟨_, rfl, m3.trans (shouldOn_mv m3.good rfl)⟩
    · exact ⟨Y, rfl, m1.1⟩

theorem expire_mv {P X : Ep} (hP : Snd P) (h : Good P X) (cw : Nat) : ∃ X', X.expire cw = .ok X' ∧ Mv P X X' := by
  unfold Ep.expire
  split
  · rename_i st
    refine ⟨_, rfl, ⟨⟨{ h.s with
          rq := fun g hg => by simp at hg
          kept := fun c => absurd st c
          timer := fun g hg => by simp at hg
          listen := fun e => by simp [st] at e }, { h.r with }, ⟨h.a.last, h.a.sack⟩, h.pn⟩,
      ⟨List.prefix_refl _, fun _ => rfl, Nat.le_refl _, Nat.le_refl _, fun _ h => h, fun h => h⟩, ⟨rfl, rfl, fun h => h, fun h => h, fun _ _ h => h⟩⟩⟩
  split
  · rename_i c
    simp at c
    exact ⟨_, rfl, timerOff_mv h (by simp [c])⟩
  split
  · exact ⟨X, rfl, .refl h⟩
  · obtain ⟨t, e, w, s, _⟩ := markLost_spec (t := X.tally.clearRetx) (twf_clear h.s.twf) (b := X.lastAck) (e := X.highest + 1)
      (Nat.le_trans h.a.last h.pn)
    have m1 := timerOn_mv h
    have m2 := m1.trans (cwnd_mv m1.good cw)
    have m3 := m2.trans (tally_mv m2.good (t := t) w (fun q hq => h.a.sack q (by rw [s] at hq; exact hq)))
    obtain ⟨Y, e2, m4⟩ := flush_mv hP m3.good
    exact ⟨Y, by simp [e, e2], m3.trans m4⟩

theorem ackTask_mv {P X : Ep} (hP : Snd P) (h : Good P X) (c : X.ackSched = true) : ∃ X', X.ackTask = .ok X' ∧ Mv P X X' := by
  have nl : X.state ≠ .listen := fun e => by have := (h.s.listen e).2.2.2.2.2.1; rw [c] at this; simp at this
  have m := ackSched_mv h false nl
  unfold Ep.ackTask
  simp only
  split
  · obtain ⟨Y, e, m2⟩ := sendAck_mv hP m.good nl { ack := true } rfl rfl rfl
    refine ⟨_, by simp [e], (m.trans m2).trans (ackCount_mv m2.good 0)⟩
  · exact ⟨_, rfl, m⟩

theorem winPendingOff_mv {P X : Ep} (h : Good P X) : Mv P X { X with winPending := false } := by
  refine ⟨⟨{ h.s with listen := fun e => ?_ },
      { h.r with }, ⟨h.a.last, h.a.sack⟩, h.pn⟩,
    ⟨List.prefix_refl _, fun _ => rfl, Nat.le_refl _, Nat.le_refl _, fun _ h => h, fun h => h⟩, ⟨rfl, rfl, fun h => h, fun h => h, fun _ _ h => h⟩⟩
  have := h.s.listen e
  exact ⟨this.1, this.2.1, this.2.2.1, this.2.2.2.1, this.2.2.2.2.1, this.2.2.2.2.2.1, rfl⟩

theorem winTask_mv {P X : Ep} (hP : Snd P) (h : Good P X) (c : X.winPending = true) : ∃ X', X.winTask = .ok X' ∧ Mv P X X' := by
  have nl : X.state ≠ .listen := fun e => by have := (h.s.listen e).2.2.2.2.2.2; rw [c] at this; simp at this
  obtain ⟨Y, e, m⟩ := sendAck_mv hP h nl { ack := true } rfl rfl rfl
  exact ⟨_, by simp [Ep.winTask, e], m.trans (winPendingOff_mv m.good)⟩

theorem closeTask_mv {P X : Ep} (h : Good P X) (c : X.closeSched = true) : Mv P X { X.setClosed with closeSched := false } := by
  have m := setClosed_mv h (h.s.csched c)
  exact ⟨⟨{ m.good.s with csched := fun e => Bool.noConfusion e }, { m.good.r with }, ⟨m.good.a.last, m.good.a.sack⟩, m.good.pn⟩,
    ⟨m.ext.hist, m.ext.fin, m.ext.high, m.ext.next, m.ext.has, m.ext.rc⟩, ⟨m.keep.fa, m.keep.rc, m.keep.fw, m.keep.sr, m.keep.qd⟩⟩

/-! ## Sending -/

theorem sackGo_ok {S : Nat → Prop} : ∀ (l : List Nat) (i a b : Nat), a < b → (∀ q, a ≤ q → q < b → S q) → (∀ q ∈ l, S q) →
    ∀ c ∈ sackGo i a b l, c.1 < c.2 ∧ ∀ q, c.1 ≤ q → q < c.2 → S q
  | [], i, a, b, h, hs, _, c, hc => by
    simp [sackGo] at hc
    subst hc
    exact ⟨h, hs⟩
  | q :: l, i, a, b, h, hs, hl, c, hc => by
    have hl' : ∀ q ∈ l, S q := fun x hx => hl x (by simp [hx])
    unfold sackGo at hc
    split at hc
    · rename_i e
      refine sackGo_ok l i a (b + 1) (by omega) (fun x h1 h2 => ?_) hl' c hc
      by_cases x = b
      · subst x; exact hl b (by simp [e])
      · exact hs x h1 (by omega)
    split at hc
    · split at hc
      · simp at hc; subst hc; exact ⟨h, hs⟩
      · rcases List.mem_cons.1 hc with rfl | hc
        · exact ⟨h, hs⟩
        · refine sackGo_ok l (i + 1) q (q + 1) (by omega) (fun x h1 h2 => ?_) hl' c hc
          have : x = q := by omega
          subst this; exact hl x (by simp)
    · exact sackGo_ok l i a b h hs hl' c hc

theorem sackBlocks_ok {S : Nat → Prop} (l : List Nat) (hl : ∀ q ∈ l, S q) :
    ∀ c ∈ sackBlocks l, c.1 < c.2 ∧ ∀ q, c.1 ≤ q → q < c.2 → S q := by
  cases l with
  | nil => simp [sackBlocks]
  | cons a l =>
    refine sackGo_ok l 0 a (a + 1) (by omega) (fun x h1 h2 => ?_) fun q hq => hl q (by simp [hq])
    have : x = a := by omega
    subst this; exact hl x (by simp)

/-- The result of giving a packet to the network. -/
structure Pl (P X X' : Ep) (p : Pkt) : Prop where
  good : Good P X'
  ext : Ext X X'
  pkt : PktOK X' p
  sr : X'.state = X.state
  rc : X'.remoteClosed = X.remoteClosed
  fa : faL X' + (if p.seg.fin && p.seg.ack then 1 else 0) = faL X

theorem pull_pl {P X X' : Ep} (h : Good P X) {p : Pkt} (e : X.pull = some (X', p)) : Pl P X X' p := by
  have nl : ∀ g, g ∈ X.outC ∨ g ∈ X.outD → X.state ≠ .listen := by
    intro g hg st
    have := h.s.listen st
    rw [this.2.2.1, this.2.2.2.1] at hg
    simp at hg
  have blocks := sackBlocks_ok (S := Has X) X.sacks h.r.sack
  unfold Ep.pull at e
  split at e
  · -- a packet without a number
    rename_i _ _ g c ho
    have ctl := h.s.outC g (by simp [ho])
    simp [Ep.aboutToSend, ctl.1] at e
    obtain ⟨rfl, rfl⟩ := e
    refine ⟨⟨{ h.s with
          outC := fun x hx => h.s.outC x (by simp [ho]; exact .inr hx)
          listen := fun e => absurd e (nl g (by simp [ho])) }, { h.r with }, ⟨h.a.last, h.a.sack⟩, h.pn⟩,
      ⟨List.prefix_refl _, fun _ => rfl, Nat.le_refl _, Nat.le_refl _, fun _ h => h, fun h => h⟩,
      ⟨.inl ctl, Nat.le_refl _, blocks⟩, rfl, rfl, ?_⟩
    simp only [faL, List.countP_append, ho, List.countP_cons]
    omega
  · -- a packet with a number
    rename_i g d hc ho
    have hg := h.s.outD g (by simp [ho])
    have pos := h.s.pos hg.1
    simp only [Ep.aboutToSend, if_pos (show g.seq > 0 by omega), Option.some.injEq, Prod.mk.injEq] at e
    obtain ⟨e1, rfl⟩ := e
    generalize hy : ({ X with outD := d, sLastWin := X.rwin, ackCount := if g.ack then 0 else X.ackCount } : Ep) = Y at e1
    have rq : ∃ q, Y.addRetx g = { Y with rq := q } ∧ (∀ x, x ∈ q → x ∈ X.rq ∨ x = g) ∧ (∀ x ∈ X.rq, x ∈ q) ∧ g ∈ q := by
      have yr : Y.rq = X.rq := by rw [← hy]
      unfold Ep.addRetx
      split
      · rename_i c
        rw [yr] at c
        simp at c
        obtain ⟨x, hx, k⟩ := c
        refine ⟨X.rq, by rw [← yr], fun _ => .inl, fun _ h => h, ?_⟩
        have b := (h.s.pos (h.s.rq x hx).1).2.2
        rw [k, pos.2.2] at b
        simp at b
        rw [b]; exact hx
      · refine ⟨X.rq ++ [g], by rw [← yr], fun x hx => ?_, fun x hx => List.mem_append_left _ hx, by simp⟩
        simpa using hx
    obtain ⟨q, eq, q1, q2, q3⟩ := rq
    rw [eq, ← hy] at e1
    subst e1
    refine ⟨⟨{ h.s with
          outD := fun x hx => h.s.outD x (by simp [ho]; exact .inr hx)
          rq := fun x hx => by
            rcases q1 x hx with k | rfl
            · exact h.s.rq x k
            · exact hg
          kept := fun c x hx hu => ?_
          timer := fun _ _ _ => rfl
          listen := fun e => absurd e (nl g (by simp [ho])) }, { h.r with }, ⟨h.a.last, h.a.sack⟩, h.pn⟩,
      ⟨List.prefix_refl _, fun _ => rfl, Nat.le_refl _, Nat.le_refl _, fun _ h => h, fun h => h⟩,
      ⟨.inr hg, Nat.le_refl _, blocks⟩, rfl, rfl, ?_⟩
    · rcases h.s.kept c x hx hu with k | k | k
      · exact .inl k
      · rw [ho] at k
        rcases List.mem_cons.1 k with rfl | k
        · exact .inr (.inr q3)
        · exact .inr (.inl k)
      · exact .inr (.inr (q2 x k))
    · simp only [h.s.noFA hg.1]
      simp [faL]
  · simp at e

/-! ## Both endpoints -/

@[simp] theorem get_set (w : W) (x : Bool) (e : Ep) : (w.set x e).get x = e := by cases x <;> rfl
@[simp] theorem get_set' (w : W) (x : Bool) (e : Ep) : (w.set x e).get (!x) = w.get (!x) := by cases x <;> rfl
@[simp] theorem net_set (w : W) (x : Bool) (e : Ep) : (w.set x e).net = w.net := by cases x <;> rfl

/-- The acknowledgements of a FIN on their way to an endpoint. -/
def faN (net : List (Bool × Pkt)) (d : Bool) : Nat := net.countP (fun e => (e.1 == d) && (e.2.seg.fin && e.2.seg.ack))

/-- The invariant of the two endpoints and the network. -/
structure Inv (w : W) : Prop where
  good : ∀ x, Good (w.get !x) (w.get x)
  sr : ∀ x, (w.get x).state = .synRcvd → (w.get x).hist ≠ []
  net : ∀ e ∈ w.net, PktOK (w.get !e.1) e.2
  fa : ∀ x, faL (w.get x) + faN w.net (!x) + (if (w.get !x).state = .finWait2 then 1 else 0) ≤ (if (w.get x).remoteClosed then 1 else 0)

/-- One endpoint changes, and the packets in the network. -/
theorem Inv.upd {w w' : W} (h : Inv w) (x : Bool) (hx : w'.get (!x) = w.get (!x)) (g : Good (w.get !x) (w'.get x)) (k : Ext (w.get x) (w'.get x))
    (sr : (w'.get x).state = .synRcvd → (w'.get x).hist ≠ [])
    (net : ∀ e ∈ w'.net, e ∈ w.net ∨ (e.1 = !x ∧ PktOK (w'.get x) e.2))
    (fa1 : faL (w'.get x) + faN w'.net (!x) + (if (w.get !x).state = .finWait2 then 1 else 0) ≤ (if (w'.get x).remoteClosed then 1 else 0))
    (fa2 : faL (w.get !x) + faN w'.net x + (if (w'.get x).state = .finWait2 then 1 else 0) ≤ (if (w.get !x).remoteClosed then 1 else 0)) :
    Inv w' := by
  have gp := h.good (!x)
  rw [Bool.not_not] at gp
  have gp' : Good (w'.get x) (w.get !x) := gp.mono k (h.good x).s.high g.r.next.2
  have two : ∀ {Q : Bool → Prop}, Q x → Q (!x) → ∀ y, Q y := by
    intro Q a b y
    by_cases c : y = x
    · rw [c]; exact a
    · have : y = !x := by cases x <;> cases y <;> simp_all
      rw [this]; exact b
  refine ⟨two (by rw [hx]; exact g) (by rw [hx, Bool.not_not]; exact gp'), two sr (by rw [hx]; exact h.sr _), ?_, two (by rw [hx]; exact fa1)
    (by rw [hx, Bool.not_not]; exact fa2)⟩
  intro e he
  rcases net e he with k1 | ⟨k1, k2⟩
  · have o := h.net e k1
    by_cases c : e.1 = x
    · rw [c] at o ⊢; rw [hx]; exact o
    · have c : (!e.1) = x := by revert c; cases e.1 <;> cases x <;> simp
      rw [c] at o ⊢; exact o.mono k
  · rw [k1, Bool.not_not]; exact k2

theorem Inv.fa' {w : W} (h : Inv w) (x : Bool) :
    faL (w.get !x) + faN w.net x + (if (w.get x).state = .finWait2 then 1 else 0) ≤ (if (w.get !x).remoteClosed then 1 else 0) := by
  have := h.fa (!x)
  rw [Bool.not_not] at this
  exact this

/-- A local step of an endpoint. -/
theorem Inv.mv {w : W} (h : Inv w) (x : Bool) {X' : Ep} (m : Mv (w.get !x) (w.get x) X') : Inv (w.set x X') := by
  refine h.upd x (by simp) (by simpa using m.good) (by simpa using m.ext) ?_ (fun e he => .inl (by simpa using he)) ?_ ?_
  · simp only [get_set]; exact sr_of m (h.sr x)
  · simp only [get_set, net_set, m.keep.fa, m.keep.rc]; exact h.fa x
  · have := h.fa' x
    simp only [get_set, net_set]
    split
    · rename_i c
      rw [if_pos (m.keep.fw c)] at this; exact this
    · omega

theorem mv_step {w : W} (h : Inv w) (x : Bool) {r : R Ep} (m : ∃ X', r = .ok X' ∧ Mv (w.get !x) (w.get x) X') :
    ∃ w', w.upd x r = .ok w' ∧ Inv w' := by
  obtain ⟨X', rfl, m⟩ := m
  exact ⟨_, rfl, h.mv x m⟩

theorem faN_erase (l : List (Bool × Pkt)) (i : Nat) (d : Bool) {e : Bool × Pkt} (h : l[i]? = some e) :
    faN (l.eraseIdx i) d + (if (e.1 == d) && (e.2.seg.fin && e.2.seg.ack) then 1 else 0) = faN l d := by
  unfold faN
  induction l generalizing i with
  | nil => simp at h
  | cons a l ih =>
    cases i with
    | zero => simp at h; subst h; simp [List.countP_cons]
    | succ i =>
      simp at h
      have := ih i h
      simp only [List.eraseIdx_cons_succ, List.countP_cons]
      omega

/-- Every step that may happen succeeds and keeps the invariant. -/
theorem step_inv {w : W} (h : Inv w) {a : Act} (al : allowed w a) {r : R W} (e : step w a = some r) : ∃ w', r = .ok w' ∧ Inv w' := by
  have S : ∀ x, Snd (w.get !x) := fun x => (h.good (!x)).s
  cases a with
  | write x bs =>
    simp only [step, Option.some.injEq] at e; subst e
    exact mv_step h x (write_mv (S x) (h.good x) al.1 al.2.1 al.2.2.1 bs)
  | read x n sz =>
    simp only [step, Option.some.injEq] at e; subst e
    exact mv_step h x (recv_mv (S x) (h.good x) ((h.good x).s.started al.2.1 al.2.2.1) n sz)
  | close x =>
    simp only [step, Option.some.injEq] at e; subst e
    exact mv_step h x (close_mv (S x) (h.good x) al.2.1 al.2.2)
  | shutdown x rd wr =>
    simp only [step, Option.some.injEq] at e; subst e
    exact mv_step h x (shutdown_mv (S x) (h.good x) rd wr)
  | bufs x i o =>
    simp only [step, Option.some.injEq] at e; subst e
    exact ⟨_, rfl, h.mv x (sizes_mv (h.good x) i o)⟩
  | expire x cw =>
    simp only [step, Option.some.injEq] at e; subst e
    exact mv_step h x (expire_mv (S x) (h.good x) cw)
  | ackTask x =>
    simp only [step] at e
    split at e
    · simp at e; subst e; exact mv_step h x (ackTask_mv (S x) (h.good x) (by assumption))
    · simp at e
  | winTask x =>
    simp only [step] at e
    split at e
    · simp at e; subst e; exact mv_step h x (winTask_mv (S x) (h.good x) (by assumption))
    · simp at e
  | closeTask x =>
    simp only [step] at e
    split at e
    · simp at e; subst e; exact ⟨_, rfl, h.mv x (closeTask_mv (h.good x) (by assumption))⟩
    · simp at e
  | pull x =>
    simp only [step] at e
    split at e
    · simp at e
    · rename_i X' p hp
      simp at e; subst e
      have q := pull_pl (h.good x) hp
      have f1 : faN (w.net ++ [(!x, p)]) (!x) = faN w.net (!x) + (if p.seg.fin && p.seg.ack then 1 else 0) := by
        simp [faN, List.countP_append, List.countP_cons]
      have f2 : faN (w.net ++ [(!x, p)]) x = faN w.net x := by
        simp [faN, List.countP_append]
      have g1 : ∀ n, ({ w.set x X' with net := n } : W).get x = X' := by intro n; cases x <;> rfl
      have g2 : ∀ n, ({ w.set x X' with net := n } : W).get (!x) = w.get (!x) := by intro n; cases x <;> rfl
      refine ⟨_, rfl, h.upd x (g2 _) (by rw [g1]; exact q.good) (by rw [g1]; exact q.ext) ?_ (fun e he => ?_) ?_ ?_⟩
      · rw [g1, q.sr]
        intro s n
        have := q.ext.hist
        rw [n] at this
        exact h.sr x s (List.prefix_nil.1 this)
      · rcases List.mem_append.1 he with he | he
        · exact .inl he
        · simp at he; subst he
          exact .inr ⟨rfl, by rw [g1]; exact q.pkt⟩
      · have := h.fa x
        have := q.fa
        simp only [g1, f1, q.rc]
        omega
      · have := h.fa' x
        simp only [g1, f2, q.sr]
        exact this
  | deliver i cw o =>
    simp only [step] at e
    split at e
    · simp at e
    · rename_i x p hp
      simp at e; subst e
      have mem : (x, p) ∈ w.net := List.mem_of_getElem? hp
      have ok := h.net _ mem
      have cnt := faN_erase w.net i x hp
      have cnt2 := faN_erase w.net i (!x) hp
      simp at cnt cnt2
      have gp := h.good (!x)
      rw [Bool.not_not] at gp
      have fx := h.fa x
      have fx' := h.fa' x
      obtain ⟨X', e, r⟩ := receive_rc (p := p) gp (h.good x) (h.sr x) ok (fun c => by
        simp at c
        rw [if_pos c] at cnt
        constructor
        · cases rc : (w.get !x).remoteClosed
          · rw [rc] at fx'; simp at fx'; omega
          · rfl
        · intro s
          rw [if_pos s] at fx'
          split at fx' <;> omega) cw o
      have g1 : ∀ n, (({ w with net := n } : W).set x X').get x = X' := by intro n; cases x <;> rfl
      have g2 : ∀ n, (({ w with net := n } : W).set x X').get (!x) = w.get (!x) := by intro n; cases x <;> rfl
      have g3 : ∀ n, (({ w with net := n } : W).set x X').net = n := by intro n; cases x <;> rfl
      refine ⟨({ w with net := w.net.eraseIdx i } : W).set x X', by simp [W.upd, e],
        h.upd x (g2 _) (by rw [g1]; exact r.good) (by rw [g1]; exact r.ext) (by rw [g1]; exact r.sr) (fun e he => ?_) ?_ ?_⟩
      · rw [g3] at he
        exact .inl (List.mem_of_mem_eraseIdx he)
      · have := r.fa
        simp only [g1, g3]
        omega
      · simp only [g1, g3]
        split
        · rename_i c
          rcases r.fw c with k | k
          · rw [if_pos k] at fx'; omega
          · simp at k
            rw [if_pos k] at cnt
            omega
        · omega
  | drop i =>
    simp only [step] at e
    split at e
    · rename_i lt
      simp at e; subst e
      have hp : w.net[i]? = some w.net[i] := List.getElem?_eq_getElem lt
      refine ⟨_, rfl, h.upd false rfl (h.good false) (.refl _) (h.sr false) (fun e he => .inl (List.mem_of_mem_eraseIdx he)) ?_ ?_⟩
      · have := faN_erase w.net i true hp
        have := h.fa false
        simp only [Bool.not_false] at this ⊢
        show faL (w.get false) + faN (w.net.eraseIdx i) true + _ ≤ (if (w.get false).remoteClosed then 1 else 0)
        omega
      · have := faN_erase w.net i false hp
        have := h.fa' false
        show faL (w.get !false) + faN (w.net.eraseIdx i) false + (if (w.get false).state = .finWait2 then 1 else 0) ≤ _
        omega
    · simp at e

theorem init_inv {w : W} (h : Init w) : Inv w := by
  obtain ⟨i1, o1, c1, i2, o2, c2⟩ := h
  have sC : Snd (client i1 o1 c1) := by
    constructor <;> simp [client, fresh, flat, PastFin, twf_new]
    intro i g hi
    match i, hi with
    | 0, hi => simp at hi; simp [← hi]
    | i + 1, hi => simp at hi
  have sL : Snd (fresh .listen i2 o2 c2) := by
    constructor <;> simp [fresh, flat, PastFin, twf_new]
  have nc : ∀ q : Int, ¬ Cov Tally.new.sacked q := by intro q hq; simp [Cov, Tally.new] at hq
  have gC : Good (fresh .listen i2 o2 c2) (client i1 o1 c1) :=
    ⟨sC, by constructor <;> simp [client, fresh, flat], ⟨by simp [client, fresh], fun q hq => absurd hq (nc q)⟩, by simp [client, fresh]⟩
  have gL : Good (client i1 o1 c1) (fresh .listen i2 o2 c2) :=
    ⟨sL, by constructor <;> simp [client, fresh, flat], ⟨by simp [client, fresh], fun q hq => absurd hq (nc q)⟩, by simp [client, fresh]⟩
  refine ⟨fun x => ?_, fun x => ?_, by simp, fun x => ?_⟩
  · cases x
    · exact gC
    · exact gL
  · cases x
    · intro e; simp [W.get, client, fresh] at e
    · intro e; simp [W.get, fresh] at e
  · cases x <;> simp [W.get, client, fresh, faL, faN]

theorem run_inv {w : W} (h : Run w) : Inv w := by
  induction h with
  | start h => exact init_inv h
  | step _ al e ih =>
    obtain ⟨w', e1, i⟩ := step_inv ih al e
    cases e1; exact i

theorem cont_inv {w v : W} (h : Inv w) (k : Cont w v) : Inv v := by
  induction k with
  | refl => exact h
  | step _ al e ih =>
    obtain ⟨w', e1, i⟩ := step_inv ih al e
    cases e1; exact i

/-- The start is what `connect` makes of a new socket. -/
theorem connect_fresh (i o c : Nat) : (fresh .closed i o c).connect = .ok (client i o c) := by
  simp [Ep.connect, Ep.sendControl, Ep.create, Ep.flush, Ep.flushBody, Ep.finPart, Ep.eofPart, fresh, client, Ep.retxRanges, Ep.sendLoop,
    Ep.toOut, Ep.inLoop, ins, Ep.updRwin, Ep.updSwin, Ep.inSpace, Tally.new]

end Shadow.CTcp
