import Verif.CTcp.World
/-!
# C69: the byte stream of a connection of the C TCP stack; C70: nothing unacknowledged is forgotten

The statements speak of what programs see: the bytes accepted by `send` (`wrote`), those returned by `recv` (`read`), and the end of the stream (`eof`).
-/

namespace Shadow.CTcp
open Shadow.Base Shadow.Tally

/-! ## C69 -/

theorem flat_take_prefix (l : List Seg) (n : Nat) : flat (l.take n) <+: flat l :=
  ⟨flat (l.drop n), by rw [← flat_append, List.take_append_drop]⟩

/-- **C69** (stream).  Whatever packets are lost, delayed or reordered: what a program has read is a prefix of what the other program has written. -/
theorem C69_stream {w : W} (h : Run w) (x : Bool) : (w.get x).read <+: (w.get !x).wrote := by
  have i := run_inv h
  have g := i.good x
  rw [(i.good (!x)).s.wrote]
  refine List.IsPrefix.trans ?_ (flat_take_prefix _ ((w.get x).rnext - 1))
  rw [← g.r.str, List.append_assoc]
  exact List.prefix_append _ _

/-- **C69** (end of stream).  A program that has not closed its read side is told of the end of the stream only after it has read everything that the other
program has written, and that program has closed its write side, so that no more can follow. -/
theorem C69_eof {w : W} (h : Run w) (x : Bool) (e : (w.get x).eof = true) :
    (w.get x).read = (w.get !x).wrote ∧ (w.get !x).closedWr = true := by
  have i := run_inv h
  obtain ⟨a, f, hf, k⟩ := (i.good x).r.eof e
  exact ⟨by rw [(i.good (!x)).s.wrote]; exact a, (i.good (!x)).s.finCl f hf k⟩

/-- **C69** (acknowledgements).  The payload of the packets that an endpoint regards as acknowledged has been received in order: it was read or waits to be
read.  A packet that it regards as selectively acknowledged is at the receiver. -/
theorem C69_acks {w : W} (h : Run w) (x : Bool) :
    flat ((w.get x).hist.take ((w.get x).lastAck - 1)) <+: (w.get !x).read ++ (w.get !x).part ++ (w.get !x).inb.flatten ∧
    ∀ q : Nat, Cov (w.get x).tally.sacked q → Has (w.get !x) q := by
  have i := run_inv h
  have g := i.good (!x)
  rw [Bool.not_not] at g
  refine ⟨?_, (i.good x).a.sack⟩
  rw [g.r.str]
  have := (i.good x).a.last
  have := flat_take_prefix ((w.get x).hist.take ((w.get !x).rnext - 1)) ((w.get x).lastAck - 1)
  rw [List.take_take, Nat.min_eq_left (by omega)] at this
  exact this

/-- **C69** (no panic).  Nothing that can happen makes the code fail. -/
theorem C69_ok {w : W} (h : Run w) {a : Act} (al : allowed w a) {r : R W} (e : step w a = some r) : ∃ w', r = .ok w' := by
  obtain ⟨w', e, _⟩ := step_inv (run_inv h) al e
  exact ⟨w', e⟩

/-! ### What the calls do -/

/-- What flushing may do to what programs see: bytes are added behind those that can be read. -/
structure Usr (X Y : Ep) : Prop where
  wrote : Y.wrote = X.wrote
  read : Y.read = X.read
  part : Y.part = X.part
  inb : X.inb <+: Y.inb
  eof : Y.eof = X.eof

theorem Usr.refl (X : Ep) : Usr X X := ⟨rfl, rfl, rfl, List.prefix_refl _, rfl⟩

theorem Usr.trans {X Y Z : Ep} (h : Usr X Y) (k : Usr Y Z) : Usr X Z :=
  ⟨k.wrote.trans h.wrote, k.read.trans h.read, k.part.trans h.part, h.inb.trans k.inb, k.eof.trans h.eof⟩

theorem retxPacket_usr (X : Ep) (q : Nat) : Usr X (X.retxPacket q) := by
  unfold Ep.retxPacket
  split <;> exact ⟨rfl, rfl, rfl, List.prefix_refl _, rfl⟩

theorem retxFold_usr : ∀ (l : List Nat) (X : Ep), Usr X (l.foldl Ep.retxPacket X)
  | [], _ => ⟨rfl, rfl, rfl, List.prefix_refl _, rfl⟩
  | q :: l, X => (retxPacket_usr X q).trans (retxFold_usr l _)

theorem retxRanges_usr : ∀ (rs : List Rng) {X Y : Ep}, Ep.retxRanges rs X = .ok Y → Usr X Y
  | [], X, Y, e => by cases e; exact ⟨rfl, rfl, rfl, List.prefix_refl _, rfl⟩
  | r :: rs, X, Y, e => by
    simp only [Ep.retxRanges] at e
    obtain ⟨t, _, e2⟩ := R.bind_eq_ok.1 e
    refine ((retxFold_usr (List.range' r.lo.toNat (r.hi - r.lo).toNat) X).trans ?_).trans (retxRanges_usr rs e2)
    exact ⟨rfl, rfl, rfl, List.prefix_refl _, rfl⟩

theorem sendLoop_usr : ∀ (l : List Seg) (X : Ep), Usr X (Ep.sendLoop l X)
  | [], _ => ⟨rfl, rfl, rfl, List.prefix_refl _, rfl⟩
  | g :: l, X => by
    unfold Ep.sendLoop
    split
    · exact ⟨rfl, rfl, rfl, List.prefix_refl _, rfl⟩
    · exact (show Usr X (X.toOut g) from ⟨rfl, rfl, rfl, List.prefix_refl _, rfl⟩).trans (sendLoop_usr l _)

theorem inLoop_usr : ∀ (l : List Seg) (X : Ep), Usr X (Ep.inLoop l X)
  | [], _ => ⟨rfl, rfl, rfl, List.prefix_refl _, rfl⟩
  | g :: l, X => by
    unfold Ep.inLoop
    split
    · exact ⟨rfl, rfl, rfl, List.prefix_refl _, rfl⟩
    split
    · exact (show Usr X { X with inb := X.inb ++ [g.data], rnext := X.rnext + 1, readable := true } from
        ⟨rfl, rfl, rfl, List.prefix_append _ _, rfl⟩).trans (inLoop_usr l _)
    · exact ⟨rfl, rfl, rfl, List.prefix_refl _, rfl⟩

theorem flushBody_usr {X Y : Ep} (e : X.flushBody = .ok Y) : Usr X Y := by
  unfold Ep.flushBody at e
  obtain ⟨Z, e1, e2⟩ := R.bind_eq_ok.1 e
  cases e2
  exact (((show Usr X X.updRwin.updSwin from ⟨rfl, rfl, rfl, List.prefix_refl _, rfl⟩).trans (retxRanges_usr _ e1)).trans (sendLoop_usr _ _)).trans (inLoop_usr _ _)

theorem eofPart_usr (X : Ep) : Usr X X.eofPart := by
  unfold Ep.eofPart
  simp only
  split <;> split <;> exact ⟨rfl, rfl, rfl, List.prefix_refl _, rfl⟩

theorem create_usr (X : Ep) (f : Flags) (c : List Nat) : Usr X (X.create f c) := by
  unfold Ep.create
  split <;> exact ⟨rfl, rfl, rfl, List.prefix_refl _, rfl⟩

theorem flushFin_usr {X Y : Ep} (e : X.flushFin = .ok Y) : Usr X Y := by
  unfold Ep.flushFin at e
  obtain ⟨Z, e1, e2⟩ := R.bind_eq_ok.1 e
  cases e2
  refine ((flushBody_usr e1).trans ?_).trans (eofPart_usr _)
  split <;> exact ⟨rfl, rfl, rfl, List.prefix_refl _, rfl⟩

theorem sendFin_usr {X Y : Ep} (e : X.sendFin = .ok Y) : Usr X Y := by
  unfold Ep.sendFin at e
  split at e
  · exact (show Usr X { X with state := .finWait1 } from ⟨rfl, rfl, rfl, List.prefix_refl _, rfl⟩).trans ((create_usr _ _ _).trans (flushFin_usr e))
  · exact (show Usr X { X with state := .finWait1 } from ⟨rfl, rfl, rfl, List.prefix_refl _, rfl⟩).trans ((create_usr _ _ _).trans (flushFin_usr e))
  · exact (show Usr X { X with state := .lastAck } from ⟨rfl, rfl, rfl, List.prefix_refl _, rfl⟩).trans ((create_usr _ _ _).trans (flushFin_usr e))
  · cases e; exact ⟨rfl, rfl, rfl, List.prefix_refl _, rfl⟩

theorem flush_usr {X Y : Ep} (e : X.flush = .ok Y) : Usr X Y := by
  unfold Ep.flush at e
  obtain ⟨Z, e1, e2⟩ := R.bind_eq_ok.1 e
  obtain ⟨V, e3, e4⟩ := R.bind_eq_ok.1 e2
  cases e4
  refine ((flushBody_usr e1).trans ?_).trans (eofPart_usr _)
  unfold Ep.finPart at e3
  split at e3
  · obtain ⟨U, e5, e6⟩ := R.bind_eq_ok.1 e3
    cases e6
    exact (sendFin_usr e5).trans ⟨rfl, rfl, rfl, List.prefix_refl _, rfl⟩
  · cases e3; exact ⟨rfl, rfl, rfl, List.prefix_refl _, rfl⟩

/-- **C69** (`send`).  If sending is still possible, a prefix of the data is accepted: as much as fits, counted in bytes not yet acknowledged, and at most 65535
bytes; otherwise nothing.  Nothing else of what programs see changes, except that more bytes may become readable. -/
theorem C69_send {X Y : Ep} {bs : List Nat} (e : X.write bs = .ok Y) :
    Y.wrote = X.wrote ++ (if X.errSend then [] else bs.take (min 65535 (X.outSpace - X.outLen))) ∧ Y.read = X.read ∧ Y.part = X.part ∧
      X.inb <+: Y.inb ∧ Y.eof = X.eof := by
  unfold Ep.write at e
  split at e
  · rename_i c
    cases e
    simp [c]
  · rename_i c
    simp only at e
    have u := flush_usr e
    rw [if_neg c]
    have fold : ∀ (l : List (List Nat)) (Z : Ep), Usr Z (l.foldl (fun s c => s.create { ack := true } c) Z) := by
      intro l
      induction l with
      | nil => exact .refl
      | cons a l ih => intro Z; exact (create_usr Z _ _).trans (ih _)
    have f := fold (chunks (bs.take (min 65535 (X.outSpace - X.outLen))).length (bs.take (min 65535 (X.outSpace - X.outLen)))) X
    exact ⟨by rw [u.wrote]; simp only [f.wrote], by rw [u.read]; exact f.read, by rw [u.part]; exact f.part, f.inb.trans u.inb,
      by rw [u.eof]; exact f.eof⟩

theorem takeIn_take : ∀ (n : Nat) (q : List (List Nat)), (Ep.takeIn n q).1 = q.flatten.take n := by
  intro n q
  fun_induction Ep.takeIn n q with
  | case1 => simp
  | case2 => simp
  | case3 n d q h0 hd r ih =>
    rw [List.flatten_cons, List.take_append, List.take_of_length_le hd, ← ih]
  | case4 n d q h0 hd =>
    rw [List.flatten_cons, List.take_append_of_le_length (by omega)]

/-- **C69** (`recv`).  A call for `n` bytes returns the next bytes that are there, in order, `n` of them or all; there are at least those that were there before the
call.  It reports the end of the stream only if there are none. -/
theorem C69_recv {X Y : Ep} {n sz : Nat} (e : X.recv n sz = .ok Y) :
    ∃ q, X.inb <+: q ∧ Y.read = X.read ++ (X.part ++ q.flatten).take n ∧ Y.wrote = X.wrote ∧
      Y.part ++ Y.inb.flatten = (X.part ++ q.flatten).drop n ∧
      (Y.eof = true → X.eof = false → X.part ++ q.flatten = [] ∨ n = 0) := by
  unfold Ep.recv at e
  obtain ⟨Z, e1, e2⟩ := R.bind_eq_ok.1 e
  have u := flush_usr e1
  refine ⟨Z.inb, u.inb, ?_⟩
  have cr : (Z.copy n).1.read = Z.read ++ (Z.part ++ Z.inb.flatten).take n ∧ (Z.copy n).2 = ((Z.part ++ Z.inb.flatten).take n).length ∧
      (Z.copy n).1.wrote = Z.wrote ∧ (Z.copy n).1.eof = Z.eof := by
    unfold Ep.copy
    split
    · rename_i c
      simp only [takeIn_take]
      rw [List.take_append, List.take_of_length_le c]
      exact ⟨by rw [List.append_assoc], by simp, trivial, trivial⟩
    · simp only
      rw [List.take_append_of_le_length (by omega)]
      simp
  have cs := copy_str Z n
  split at e2
  · rename_i c
    cases e2
    simp only [Bool.and_eq_true, beq_iff_eq, List.isEmpty_iff] at c
    have z : Y.inb.flatten = [] := List.length_eq_zero_iff.1 c.1.1
    rw [← u.part, c.1.2, z]
    refine ⟨by simp [u.read], u.wrote, by simp, fun a b => .inl rfl⟩
  · cases e2
    have ac : ∀ (V : Ep) t, (V.afterCopy t sz).read = V.read ∧ (V.afterCopy t sz).wrote = V.wrote ∧ (V.afterCopy t sz).part = V.part ∧
        (V.afterCopy t sz).inb = V.inb ∧ ((V.afterCopy t sz).eof = true → V.eof = false → t = 0) := by
      intro V t
      unfold Ep.afterCopy
      split
      · exact ⟨rfl, rfl, rfl, rfl, fun a b => by simp [Ep.updRwin, b] at a⟩
      split
      · split
        · rename_i ht
          have ht : t = 0 := by simpa using ht
          split
          · exact ⟨rfl, rfl, rfl, rfl, fun _ _ => ht⟩
          · exact ⟨rfl, rfl, rfl, rfl, fun _ _ => ht⟩
        · exact ⟨rfl, rfl, rfl, rfl, fun a b => by simp [Ep.updRwin, b] at a⟩
      · exact ⟨rfl, rfl, rfl, rfl, fun a b => by simp [Ep.updRwin, b] at a⟩
    obtain ⟨a1, a2, a3, a4, a5⟩ := ac (Z.copy n).1 (Z.copy n).2
    refine ⟨by rw [a1, cr.1, u.read, u.part], by rw [a2, cr.2.2.1, u.wrote], ?_, fun x y => ?_⟩
    · rw [a3, a4, ← u.part]
      rw [cr.1, List.append_assoc, List.append_assoc, List.append_assoc] at cs
      have cs := List.append_cancel_left cs
      exact List.append_cancel_left (cs.trans (List.take_append_drop n (Z.part ++ Z.inb.flatten)).symm)
    · have q := a5 x (by rw [cr.2.2.2, u.eof]; exact y)
      rw [cr.2.1] at q
      rw [← u.part]
      rcases List.take_eq_nil_iff.1 (List.length_eq_zero_iff.1 q) with k | k
      · exact .inr k
      · exact .inl k

/-! ## C70 -/

/-- **C70** (nothing is forgotten).  As long as the connection is not closed, every packet that is not acknowledged waits to be sent or to be acknowledged. -/
theorem C70_kept {w : W} (h : Run w) (x : Bool) (c : (w.get x).state ≠ .closed) {g : Seg} (hg : g ∈ (w.get x).hist)
    (hu : (w.get x).unacked ≤ g.seq) : g ∈ (w.get x).thr ∨ g ∈ (w.get x).outD ∨ g ∈ (w.get x).rq :=
  ((run_inv h).good x).s.kept c g hg hu

/-- **C70** (timer).  While sent data waits to be acknowledged the retransmission timer is on. -/
theorem C70_timer {w : W} (h : Run w) (x : Bool) {g : Seg} (hg : g ∈ (w.get x).rq) (hd : g.data ≠ []) : (w.get x).timer = true :=
  ((run_inv h).good x).s.timer g hg hd

/-- The fields on which the search for packets to resend depends. -/
structure Fix (X Y : Ep) : Prop where
  hist : Y.hist = X.hist
  state : Y.state = X.state
  unacked : Y.unacked = X.unacked

theorem retxPacket_fix (X : Ep) (q : Nat) : Fix X (X.retxPacket q) := by
  unfold Ep.retxPacket
  split <;> exact ⟨rfl, rfl, rfl⟩

/-- The packet is queued after `_tcp_retransmitPacket`. -/
theorem retxPacket_hit {P X : Ep} (h : Good P X) (c : X.state ≠ .closed) {g : Seg} (hg : g ∈ X.hist) (hu : X.unacked ≤ g.seq) :
    g ∈ (X.retxPacket g.seq).thr ∨ g ∈ (X.retxPacket g.seq).outD := by
  have pos := h.s.pos hg
  rcases h.s.kept c g hg hu with k | k | k
  · exact (retxPacket_mv h g.seq).keep.qd g pos.1 (.inl k)
  · exact (retxPacket_mv h g.seq).keep.qd g pos.1 (.inr k)
  · unfold Ep.retxPacket
    split
    · rename_i n
      have := List.find?_eq_none.1 n g k
      simp at this
    · rename_i g0 hf
      have hm := List.mem_of_find?_eq_some hf
      have hq : g0.seq = g.seq := by simpa using List.find?_some hf
      have b := (h.s.pos (h.s.rq g0 hm).1).2.2
      rw [hq, pos.2.2] at b
      simp at b
      exact .inl (mem_ins.2 (.inl b))

theorem retxFold_hit {P : Ep} : ∀ (l : List Nat) {X : Ep}, Good P X → X.state ≠ .closed → ∀ {g : Seg}, g ∈ X.hist → X.unacked ≤ g.seq → g.seq ∈ l →
    g ∈ (l.foldl Ep.retxPacket X).thr ∨ g ∈ (l.foldl Ep.retxPacket X).outD
  | [], _, _, _, _, _, _, hl => by simp at hl
  | q :: l, X, h, c, g, hg, hu, hl => by
    have m := retxPacket_mv h q
    have f := retxPacket_fix X q
    by_cases e : g.seq = q
    · subst e
      exact (retxFold_mv l m.good).keep.qd g (h.s.pos hg).1 (retxPacket_hit h c hg hu)
    · exact retxFold_hit l m.good (by rw [f.state]; exact c) (by rw [f.hist]; exact hg) (by rw [f.unacked]; exact hu)
        ((List.mem_cons.1 hl).resolve_left e)

theorem retxFold_fix : ∀ (l : List Nat) (X : Ep), Fix X (l.foldl Ep.retxPacket X)
  | [], _ => ⟨rfl, rfl, rfl⟩
  | q :: l, X => by
    have a := retxPacket_fix X q
    have b := retxFold_fix l (X.retxPacket q)
    exact ⟨b.hist.trans a.hist, b.state.trans a.state, b.unacked.trans a.unacked⟩

theorem retxRanges_hit {P : Ep} : ∀ (rs : List Rng) {X X' : Ep}, Good P X → (∀ r ∈ rs, r.lo < r.hi) → X.state ≠ .closed → ∀ {g : Seg}, g ∈ X.hist →
    X.unacked ≤ g.seq → Cov rs g.seq → Ep.retxRanges rs X = .ok X' → g ∈ X'.thr ∨ g ∈ X'.outD
  | [], _, _, _, _, _, _, _, _, hc, _ => by simp [Cov] at hc
  | r :: rs, X, X', h, hr, c, g, hg, hu, hc, e => by
    have m := retxFold_mv (List.range' r.lo.toNat (r.hi - r.lo).toNat) h
    have f := retxFold_fix (List.range' r.lo.toNat (r.hi - r.lo).toNat) X
    obtain ⟨t, e1, w, s, _⟩ := markRetx_spec m.good.s.twf (hr r (by simp))
    have m2 := tally_mv m.good (t := t) w (fun q hq => m.good.a.sack q (by rw [← s]; exact hq))
    have hr' : ∀ r ∈ rs, r.lo < r.hi := fun r hr' => hr r (by simp [hr'])
    obtain ⟨Z, e2, m3⟩ := retxRanges_mv rs m2.good hr'
    simp only [Ep.retxRanges, e1, R.bind_ok] at e
    have hz : Z = X' := by rw [e2] at e; cases e; rfl
    subst hz
    have pos := h.s.pos hg
    by_cases k : r.lo ≤ g.seq ∧ (g.seq : Int) < r.hi
    · refine m3.keep.qd g pos.1 (retxFold_hit _ h c hg hu ?_)
      rw [List.mem_range'_1]
      omega
    · refine retxRanges_hit rs m2.good hr' (by show _ ≠ State.closed; simp only [f.state]; exact c) (by simp only [f.hist]; exact hg)
        (by simp only [f.unacked]; exact hu) ?_ e
      obtain ⟨r', hr1, hr2⟩ := hc
      rcases List.mem_cons.1 hr1 with rfl | hr1
      · exact absurd hr2 k
      · exact ⟨r', hr1, hr2⟩

/-- **C70** (timeout).  When the retransmission timer expires while packets wait to be acknowledged, every packet that was given to the network and is not
acknowledged, selectively or not, is queued to be sent again. -/
theorem C70_timeout {w : W} (h : Run w) (x : Bool) {cw : Nat} {Y : Ep} (e : (w.get x).expire cw = .ok Y) (on : (w.get x).timer = true)
    (ne : (w.get x).rq ≠ []) (c : (w.get x).state ≠ .closed) {g : Seg} (hg : g ∈ (w.get x).hist) (hu : (w.get x).unacked ≤ g.seq)
    (hh : g.seq ≤ (w.get x).highest) (hs : ¬ Cov (w.get x).tally.sacked g.seq) : g ∈ Y.thr ∨ g ∈ Y.outD := by
  have i := run_inv h
  have G := i.good x
  have hP := (i.good (!x)).s
  generalize w.get x = X at *
  generalize w.get (!x) = P at *
  have ne' : X.rq.isEmpty = false := by cases hq : X.rq <;> simp_all
  unfold Ep.expire at e
  rw [if_neg c, if_neg (by simp [ne']), if_neg (by simp [on])] at e
  obtain ⟨t, e1, tw, s, rx, _, _, mk, ls⟩ := markLost_spec (t := X.tally.clearRetx) (twf_clear G.s.twf) (b := X.lastAck) (e := X.highest + 1)
    (Nat.le_trans G.a.last G.pn)
  rw [e1, R.bind_ok] at e
  have m1 := timerOn_mv G
  have m2 := m1.trans (cwnd_mv m1.good cw)
  have m3 := m2.trans (tally_mv m2.good (t := t) tw (fun q hq => G.a.sack q (by rw [s] at hq; exact hq)))
  have m4 := m3.trans (updRwin_mv m3.good)
  have m5 := m4.trans (updSwin_mv m4.good)
  have lost : Cov t.lost g.seq := by
    rw [ls]
    refine ⟨mk _ ?_ ?_, hs, ?_⟩
    · have := G.s.last; omega
    · omega
    · simp [Tally.clearRetx, Cov]
  unfold Ep.flush at e
  obtain ⟨Z, e2, e3⟩ := R.bind_eq_ok.1 e
  obtain ⟨V, e4, e5⟩ := R.bind_eq_ok.1 e3
  cases e5
  unfold Ep.flushBody at e2
  obtain ⟨U, e6, e7⟩ := R.bind_eq_ok.1 e2
  cases e7
  obtain ⟨U', e6', m6⟩ := retxRanges_mv t.lost m5.good (fun r hr => tw.l.1 r hr)
  have : U = U' := by
    have := e6.symm.trans e6'
    cases this; rfl
  subst this
  have hit := retxRanges_hit t.lost m5.good (fun r hr => tw.l.1 r hr) c hg hu lost e6'
  have pos := G.s.pos hg
  have m7 := sendLoop_mv U.thr (X := U) m6.good
  have m8 := m7.trans (inLoop_mv hP _ (X := Ep.sendLoop U.thr U) m7.good)
  obtain ⟨V', e8, m9⟩ := finPart_mv hP m8.good
  have : V = V' := by
    have := e4.symm.trans e8
    cases this; rfl
  subst this
  exact ((m8.trans m9).trans (eofPart_mv m9.good)).keep.qd g pos.1 hit

end Shadow.CTcp
