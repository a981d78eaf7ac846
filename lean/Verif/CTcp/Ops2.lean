import Verif.CTcp.Ops
/-!
# Flushing, receiving, and the calls of the program keep the invariant
-/

namespace Shadow.CTcp
open Shadow.Base Shadow.Tally

theorem createCtl_mv {P X : Ep} (h : Good P X) (hl : X.state ≠ .listen) (f : Flags) (hs : f.syn = false) (hf : f.fin = false)
    (ha : f.ack = true) : Mv P X (X.create f []) := by
  obtain ⟨g, x, fa, rc, st, qd⟩ := createCtl_good h hl f hs ha
  exact ⟨g, x, ⟨by simp [fa, hf], rc, fun e => by rw [← st]; exact e, fun e => by rw [← st]; exact e, qd⟩⟩

/-- A numbered packet without data. -/
theorem create_nil (X : Ep) (f : Flags) : { X.create f [] with wrote := X.wrote ++ [] } = X.create f [] := by
  unfold Ep.create
  split <;> simp [Ep.updRwin]

/-- The state of an endpoint that sends its FIN. -/
theorem finState_mv {P X : Ep} (h : Good P X) (st : State) (c : X.closedWr = true)
    (hst : (X.state = .estab ∧ st = .finWait1) ∨ (X.state = .closeWait ∧ st = .lastAck)) :
    Mv P X (({ X with state := st } : Ep).create { fin := true } []) := by
  have nofin : ∀ g ∈ X.hist, g.fin = false := fun g hg => by
    cases hf : g.fin
    · rfl
    · have := h.s.finSt g hg hf
      rcases hst with k | k <;> simp [PastFin, k] at this
  have ne : X.hist ≠ [] := h.s.started (by rcases hst with k | k <;> simp [k]) (by rcases hst with k | k <;> simp [k])
  have m1 : Mv P X { X with state := st } := by
    refine ⟨⟨{ h.s with
        kept := fun _ => h.s.kept (by rcases hst with k | k <;> simp [k])
        finSt := fun g hg hf => by simp [nofin g hg] at hf
        listen := fun e => by rcases hst with k | k <;> simp [k] at e
        early := fun e => by rcases hst with k | k <;> simp [k] at e
        started := fun _ _ => ne },
      { h.r with
        early := fun e => by rcases hst with k | k <;> simp [k] at e
        rcSt := fun e => by
          have := h.r.rcSt e
          rcases hst with k | k <;> simp [k] at this ⊢ }, ⟨h.a.last, h.a.sack⟩, h.pn⟩,
    ⟨List.prefix_refl _, fun _ => rfl, Nat.le_refl _, Nat.le_refl _, fun _ h => h, fun h => h⟩,
    ⟨rfl, rfl, fun e => ?_, fun e => ?_, fun _ _ h => h⟩⟩
    · rcases hst with k | k <;> simp [k] at e
    · rcases hst with k | k <;> simp [k] at e
  have m2 := createNum_mv m1.good (by rcases hst with k | k <;> simp [k]) { fin := true } [] nofin
    (.inr (.inr ⟨rfl, rfl, rfl, rfl, ne, by rcases hst with k | k <;> simp [PastFin, k], c⟩))
  rw [create_nil] at m2
  exact m1.trans m2

theorem flushFin_mv {P X : Ep} (hP : Snd P) (h : Good P X) : ∃ X', X.flushFin = .ok X' ∧ Mv P X X' := by
  obtain ⟨Y, e, m⟩ := flushBody_mv hP h
  have m2 : Mv P Y (if Y.shouldFin && Y.outLen == 0 then { Y with shouldFin := false } else Y) := by
    split
    · exact shouldOff_mv m.good
    · exact .refl m.good
  have m3 := eofPart_mv m2.good
  exact ⟨_, by simp [Ep.flushFin, e], (m.trans m2).trans m3⟩

theorem sendFin_mv {P X : Ep} (hP : Snd P) (h : Good P X) (c : X.closedWr = true) : ∃ X', X.sendFin = .ok X' ∧ Mv P X X' := by
  unfold Ep.sendFin
  split
  · rename_i st
    have m := finState_mv h .finWait1 c (.inl ⟨st, rfl⟩)
    obtain ⟨Y, e, m2⟩ := flushFin_mv hP m.good
    exact ⟨Y, e, m.trans m2⟩
  · rename_i st
    have := (h.s.early (.inr (.inr st))).1
    rw [c] at this; simp at this
  · rename_i st
    have m := finState_mv h .lastAck c (.inr ⟨st, rfl⟩)
    obtain ⟨Y, e, m2⟩ := flushFin_mv hP m.good
    exact ⟨Y, e, m.trans m2⟩
  · exact ⟨X, rfl, .refl h⟩

theorem finPart_mv {P X : Ep} (hP : Snd P) (h : Good P X) : ∃ X', X.finPart = .ok X' ∧ Mv P X X' := by
  unfold Ep.finPart
  split
  · rename_i c
    simp at c
    obtain ⟨Y, e, m⟩ := sendFin_mv hP h (h.s.should c.1)
    exact ⟨_, by simp [e], m.trans (shouldOff_mv m.good)⟩
  · exact ⟨X, rfl, .refl h⟩

theorem flush_mv {P X : Ep} (hP : Snd P) (h : Good P X) : ∃ X', X.flush = .ok X' ∧ Mv P X X' := by
  obtain ⟨Y, e, m⟩ := flushBody_mv hP h
  obtain ⟨Z, e2, m2⟩ := finPart_mv hP m.good
  exact ⟨_, by simp [Ep.flush, e, e2], (m.trans m2).trans (eofPart_mv m2.good)⟩

theorem sendAck_mv {P X : Ep} (hP : Snd P) (h : Good P X) (hl : X.state ≠ .listen) (f : Flags) (hs : f.syn = false) (hf : f.fin = false)
    (ha : f.ack = true) : ∃ X', X.sendControl f = .ok X' ∧ Mv P X X' := by
  have m := createCtl_mv h hl f hs hf ha
  obtain ⟨Y, e, m2⟩ := flush_mv hP m.good
  exact ⟨Y, e, m.trans m2⟩

/-! ## Receiving -/

/-- What a delivered packet changes about acknowledgements of a FIN: each new one goes with the note that the peer has closed. -/
structure Fa (X X' : Ep) : Prop where
  fa : faL X' + (if X.remoteClosed then 1 else 0) ≤ faL X + (if X'.remoteClosed then 1 else 0)
  fw : X'.state = .finWait2 → X.state = .finWait2

theorem Keep.toFa {X X' : Ep} (k : Keep X X') : Fa X X' := ⟨by rw [k.fa, k.rc]; omega, k.fw⟩

theorem Fa.trans {X Y Z : Ep} (h : Fa X Y) (k : Fa Y Z) : Fa X Z := ⟨by have := h.fa; have := k.fa; omega, fun x => h.fw (k.fw x)⟩

/-- What the switch on the state leaves to the rest of the processing. -/
structure Sw (P X Y : Ep) (p : Pkt) (f : Flags) : Prop where
  good : Good P Y
  ext : Ext X Y
  nl : Y.state ≠ .listen
  qs : Y.thr = X.thr ∧ Y.outC = X.outC ∧ Y.hist = X.hist
  syn : f.syn = true → f.fin = false ∧ f.ack = true ∧ Y.hist = [] ∧ Y.errRecv = false
  sr : Y.state = .synRcvd → Y.hist = [] → f.syn = true
  fin : if f.fin then X.remoteClosed = false ∧ Y.remoteClosed = true else Y.remoteClosed = X.remoteClosed
  fa : f.fin = true → f.ack = true
  fw : Y.state = .finWait2 → X.state = .finWait2 ∨ (p.seg.fin && p.seg.ack) = true
  e : f = {} ∨ f.ack = true

theorem Snd.noFin {X : Ep} (h : Snd X) (c : ¬ PastFin X.state) : ∀ g ∈ X.hist, g.fin = false := fun g hg => by
  cases hf : g.fin
  · rfl
  · exact absurd (h.finSt g hg hf) c

theorem Ext.of {X Y : Ep} (h1 : Y.hist = X.hist) (h2 : Y.highest = X.highest) (h3 : X.rnext ≤ Y.rnext) (h4 : Y.uno = X.uno)
    (h5 : X.remoteClosed = true → Y.remoteClosed = true) : Ext X Y := by
  refine ⟨by rw [h1]; exact List.prefix_refl _, fun _ => h1, by omega, h3, fun q hq => ?_, h5⟩
  rcases hq with k | k
  · exact .inl (by omega)
  · exact .inr (by rw [h4]; exact k)

/-- The first packet of the peer arrives. -/
theorem firstPkt {P X : Ep} (hP : Snd P) (h : Good P X) {g : Seg} (hg : Ctl g ∨ (g ∈ P.hist ∧ g.seq ≤ P.highest)) (sy : g.syn = true)
    (e : X.state = .synSent ∨ X.state = .listen) (st : State) (hst : st = .estab ∨ st = .synRcvd) :
    Rcv P.hist P.highest { X with rnext := g.seq + 1, state := st } ∧ g.seq = 1 ∧ X.rnext = 1 ∧ X.remoteClosed = false := by
  rcases hg with c | ⟨c, c2⟩
  · rw [c.2.2.1] at sy; simp at sy
  have q := (hP.syn g c).1 sy
  have r1 := h.r.early e
  refine ⟨{ h.r with
      next := ⟨by simp, by simp only; omega⟩
      str := ?_
      sack := fun q hq => ?_
      errR := fun x => (h.r.errR x).imp id fun k => by rw [r1.2] at k; simp at k
      early := fun x => by rcases hst with rfl | rfl <;> simp at x
      rcSt := fun x => by simp [r1.2] at x }, q, r1⟩
  · have s := h.r.str
    rw [r1.1] at s
    have p := (hP.pos c).2.2
    have d := (hP.data g c).2 (.inl q)
    simp only [q]
    rw [q] at p
    rw [s, show (1 + 1 - 1 : Nat) = 0 + 1 by rfl, List.take_add_one]
    simp only [Nat.sub_self] at p
    rw [p]
    simp [flat, d]
  · rcases h.r.sack q hq with k | k
    · exact .inl (by simp only; omega)
    · exact .inr k

theorem onState_sw {P X : Ep} (hP : Good X P) (h : Good P X) (hsr : X.state = .synRcvd → X.hist ≠ []) {p : Pkt} (hp : PktOK P p)
    (hfa : (p.seg.fin && p.seg.ack) = true → P.remoteClosed = true ∧ X.state ≠ .finWait2) (hab : X.absorbed p.seg = none) :
    Sw P X (X.onState p.seg).1 p (X.onState p.seg).2.2 := by
  -- a FIN with a number
  have numFin : p.seg.fin = true → (p.seg.fin && p.seg.ack) = false → p.seg ∈ P.hist := by
    intro a b
    rcases hp.seg with c | c
    · rw [a, c.2.2.2] at b; simp at b
    · exact c.1
  have past : (p.seg.fin && p.seg.ack) = true → PastFin X.state := by
    intro a
    obtain ⟨f, hf, k, _⟩ := hP.r.rend (hfa a).1
    exact h.s.finSt f hf k
  have idle : X.state ≠ .listen → Sw P X X p {} := by
    intro hl
    exact ⟨h, .refl X, hl, ⟨rfl, rfl, rfl⟩, fun x => by simp at x, fun a b => absurd b (hsr a), by simp, fun x => by simp at x, fun x => .inl x, .inl rfl⟩
  -- the note that the peer has closed
  have closeR : ∀ st c, X.remoteClosed = false → p.seg ∈ P.hist → p.seg.fin = true → X.hist ≠ [] →
      (X.state = .estab ∧ st = .closeWait ∨ X.state = .finWait1 ∧ st = .closing ∨ X.state = .finWait2 ∧ st = .timeWait) →
      Sw P X { X with remoteClosed := true, state := st, closeSched := c, rend := p.seg.seq } p { fin := true, ack := true } := by
    intro st c rc hg hf ne hst
    refine ⟨⟨{ h.s with
          kept := fun _ => h.s.kept (by rcases hst with k | k | k <;> simp [k])
          finSt := fun g hg hf => by
            have := h.s.finSt g hg hf
            rcases hst with k | k | k <;> simp [k, PastFin] at this ⊢
          listen := fun e => by rcases hst with k | k | k <;> simp [k] at e
          early := fun e => by rcases hst with k | k | k <;> simp [k] at e
          started := fun _ _ => ne
          csched := fun _ => ne },
        { h.r with
          rend := fun _ => ⟨p.seg, hg, hf, rfl⟩
          errR := fun x => (h.r.errR x).imp id fun k => by rw [rc] at k; simp at k
          early := fun e => by rcases hst with k | k | k <;> simp [k] at e
          rcSt := fun _ => by rcases hst with k | k | k <;> simp [k] }, ⟨h.a.last, h.a.sack⟩, h.pn⟩,
      .of rfl rfl (Nat.le_refl _) rfl (fun _ => rfl), by rcases hst with k | k | k <;> simp [k], ⟨rfl, rfl, rfl⟩,
      fun x => by simp at x, fun x => by rcases hst with k | k | k <;> simp [k] at x, by simp [rc], by simp,
      fun x => by rcases hst with k | k | k <;> simp [k] at x, .inr rfl⟩
  have rcNot : X.state = .estab ∨ X.state = .finWait1 ∨ X.state = .finWait2 → X.remoteClosed = false := by
    intro e
    cases rc : X.remoteClosed
    · rfl
    · have := h.r.rcSt rc
      rcases e with e | e | e <;> simp [e] at this
  unfold Ep.onState
  split
  · -- LISTEN
    rename_i st
    have sy : p.seg.syn = true := by
      simp only [Ep.absorbed, st] at hab
      split at hab
      · assumption
      · simp at hab
    obtain ⟨r, q, n, rc⟩ := firstPkt hP.s h hp.seg sy (.inr st) .synRcvd (.inr rfl)
    have L := h.s.listen st
    have cr := h.s.early (.inl st)
    refine ⟨⟨{ h.s with
          kept := fun _ => h.s.kept (by simp [st])
          finSt := fun g hg => by simp [L.1] at hg
          listen := fun e => by simp at e
          early := fun _ => cr
          started := fun _ e => absurd rfl e }, r, ⟨h.a.last, h.a.sack⟩, h.pn⟩,
      .of rfl rfl (by simp only; omega) rfl (fun x => x), by simp, ⟨rfl, rfl, rfl⟩,
      fun _ => ⟨rfl, rfl, L.1, ?_⟩, fun _ _ => rfl, rfl, fun x => by simp at x, fun x => by simp at x, .inr rfl⟩
    show X.errRecv = false
    cases er : X.errRecv
    · rfl
    · rcases h.r.errR er with k | k
      · rw [cr.2] at k; simp at k
      · rw [rc] at k; simp at k
  · -- SYN-SENT
    rename_i st
    have ne := h.s.started (by simp [st]) (by simp [st])
    have nf := h.s.noFin (by simp [PastFin, st])
    split
    · rename_i sy
      simp at sy
      obtain ⟨r, q, n, rc⟩ := firstPkt hP.s h hp.seg sy.1 (.inl st) .estab (.inl rfl)
      exact ⟨⟨{ h.s with
            kept := fun _ => h.s.kept (by simp [st])
            finSt := fun g hg hf => by simp [nf g hg] at hf
            listen := fun e => by simp at e
            early := fun e => by simp at e
            started := fun _ _ => ne }, r, ⟨h.a.last, h.a.sack⟩, h.pn⟩,
        .of rfl rfl (by simp only; omega) rfl (fun x => x), by simp, ⟨rfl, rfl, rfl⟩,
        fun x => by simp at x, fun x => by simp at x, rfl, fun x => by simp at x, fun x => by simp at x, .inr rfl⟩
    split
    · rename_i _ sy
      obtain ⟨r, q, n, rc⟩ := firstPkt hP.s h hp.seg sy (.inl st) .synRcvd (.inr rfl)
      exact ⟨⟨{ h.s with
            kept := fun _ => h.s.kept (by simp [st])
            finSt := fun g hg hf => by simp [nf g hg] at hf
            listen := fun e => by simp at e
            early := fun _ => h.s.early (.inr (.inl st))
            started := fun _ _ => ne }, r, ⟨h.a.last, h.a.sack⟩, h.pn⟩,
        .of rfl rfl (by simp only; omega) rfl (fun x => x), by simp, ⟨rfl, rfl, rfl⟩,
        fun x => by simp at x, fun _ x => absurd x ne, rfl, fun x => by simp at x, fun x => by simp at x, .inr rfl⟩
    · exact idle (by simp [st])
  · -- SYN-RECEIVED
    rename_i st
    have nf := h.s.noFin (by simp [PastFin, st])
    split
    · exact ⟨⟨{ h.s with
            kept := fun _ => h.s.kept (by simp [st])
            finSt := fun g hg hf => by simp [nf g hg] at hf
            listen := fun e => by simp at e
            early := fun e => by simp at e
            started := fun _ _ => hsr st },
          { h.r with
            early := fun e => by simp at e
            rcSt := fun x => by have := h.r.rcSt x; simp [st] at this }, ⟨h.a.last, h.a.sack⟩, h.pn⟩,
        .of rfl rfl (Nat.le_refl _) rfl (fun x => x), by simp, ⟨rfl, rfl, rfl⟩,
        fun x => by simp at x, fun x => by simp at x, rfl, fun x => by simp at x, fun x => by simp at x, .inl rfl⟩
    · exact idle (by simp [st])
  · -- ESTABLISHED
    rename_i st
    split
    · rename_i hf
      refine closeR .closeWait X.closeSched (rcNot (.inl st)) (numFin hf ?_) hf (h.s.started (by simp [st]) (by simp [st])) (.inl ⟨st, rfl⟩)
      cases b : (p.seg.fin && p.seg.ack)
      · rfl
      · have := past b
        simp [PastFin, st] at this
    · exact idle (by simp [st])
  · -- FIN-WAIT-1
    rename_i st
    have ne := h.s.started (by simp [st]) (by simp [st])
    split
    · rename_i b
      exact ⟨⟨{ h.s with
            kept := fun _ => h.s.kept (by simp [st])
            finSt := fun g hg hf => by simp [PastFin]
            listen := fun e => by simp at e
            early := fun e => by simp at e
            started := fun _ _ => ne },
          { h.r with
            early := fun e => by simp at e
            rcSt := fun x => by have := h.r.rcSt x; simp [st] at this }, ⟨h.a.last, h.a.sack⟩, h.pn⟩,
        .of rfl rfl (Nat.le_refl _) rfl (fun x => x), by simp, ⟨rfl, rfl, rfl⟩,
        fun x => by simp at x, fun x => by simp at x, rfl, fun x => by simp at x, fun _ => .inr b, .inl rfl⟩
    split
    · rename_i b hf
      exact closeR .closing X.closeSched (rcNot (.inr (.inl st))) (numFin hf (by simpa using b)) hf ne (.inr (.inl ⟨st, rfl⟩))
    · exact idle (by simp [st])
  · -- FIN-WAIT-2
    rename_i st
    split
    · rename_i hf
      refine closeR .timeWait true (rcNot (.inr (.inr st))) (numFin hf ?_) hf (h.s.started (by simp [st]) (by simp [st])) (.inr (.inr ⟨st, rfl⟩))
      cases b : (p.seg.fin && p.seg.ack)
      · rfl
      · exact absurd st (hfa b).2
    · exact idle (by simp [st])
  · -- CLOSING
    rename_i st
    have ne := h.s.started (by simp [st]) (by simp [st])
    split
    · rename_i b
      exact ⟨⟨{ h.s with
            kept := fun _ => h.s.kept (by simp [st])
            finSt := fun g hg hf => by simp [PastFin]
            listen := fun e => by simp at e
            early := fun e => by simp at e
            started := fun _ _ => ne
            csched := fun _ => ne },
          { h.r with
            early := fun e => by simp at e
            rcSt := fun x => by simp }, ⟨h.a.last, h.a.sack⟩, h.pn⟩,
        .of rfl rfl (Nat.le_refl _) rfl (fun x => x), by simp, ⟨rfl, rfl, rfl⟩,
        fun x => by simp at x, fun x => by simp at x, rfl, fun x => by simp at x, fun x => by simp at x, .inl rfl⟩
    · exact idle (by simp [st])
  · exact idle (fun e => by simp_all)

end Shadow.CTcp
