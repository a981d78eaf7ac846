import Verif.CTcp.Model
import Verif.CTcp.TallyLem
/-!
# The invariant of a connection

`Good P X` is what holds of the endpoint `X` with the peer `P`, `PktOK P p` of a packet that `P` has sent.  `Ext P P'` is what an endpoint
may rely on when its peer makes a step.
-/

namespace Shadow.CTcp
open Shadow.Base Shadow.Tally

/-- The payload of a list of packets. -/
def flat (l : List Seg) : List Nat := l.flatMap (·.data)

/-- The packet with this number is at the receiver: delivered or kept for reordering. -/
def Has (X : Ep) (q : Nat) : Prop := q < X.rnext ∨ ∃ g ∈ X.uno, g.seq = q

/-- A packet without a number: an acknowledgement, possibly of a FIN. -/
def Ctl (g : Seg) : Prop := g.seq = 0 ∧ g.data = [] ∧ g.syn = false ∧ g.ack = true

/-- The states of an endpoint that has sent a FIN, or is closed. -/
def PastFin (s : State) : Prop :=
  s = .finWait1 ∨ s = .finWait2 ∨ s = .closing ∨ s = .timeWait ∨ s = .lastAck ∨ s = .closed

/-- The sending half of an endpoint. -/
structure Snd (X : Ep) : Prop where
  seqs : ∀ i g, X.hist[i]? = some g → g.seq = i + 1
  next : X.snext = X.hist.length + 1
  thr : ∀ g ∈ X.thr, Ctl g ∨ g ∈ X.hist
  outC : ∀ g ∈ X.outC, Ctl g
  outD : ∀ g ∈ X.outD, g ∈ X.hist ∧ g.seq ≤ X.highest
  rq : ∀ g ∈ X.rq, g ∈ X.hist ∧ g.seq ≤ X.highest
  high : X.highest ≤ X.hist.length
  syn : ∀ g ∈ X.hist, g.syn = true ↔ g.seq = 1
  data : ∀ g ∈ X.hist, g.data = [] ↔ (g.seq = 1 ∨ g.fin = true)
  fin : ∀ g ∈ X.hist, g.fin = true → g.seq = X.hist.length ∧ g.ack = false ∧ g.seq ≠ 1
  wrote : X.wrote = flat X.hist
  last : X.unacked = X.lastAck ∧ 1 ≤ X.lastAck
  kept : X.state ≠ .closed → ∀ g ∈ X.hist, X.unacked ≤ g.seq → g ∈ X.thr ∨ g ∈ X.outD ∨ g ∈ X.rq
  timer : ∀ g ∈ X.rq, g.data ≠ [] → X.timer = true
  finSt : ∀ g ∈ X.hist, g.fin = true → PastFin X.state
  finCl : ∀ g ∈ X.hist, g.fin = true → X.closedWr = true
  should : X.shouldFin = true → X.closedWr = true
  errS : X.closedWr = true → X.errSend = true ∨ X.uclosed = true
  listen : X.state = .listen → X.hist = [] ∧ X.thr = [] ∧ X.outC = [] ∧ X.outD = [] ∧ X.rq = [] ∧ X.ackSched = false ∧
    X.winPending = false
  early : X.state = .listen ∨ X.state = .synSent ∨ X.state = .synRcvd → X.closedWr = false ∧ X.closedRd = false
  started : X.state ≠ .listen → X.state ≠ .synRcvd → X.hist ≠ []
  csched : X.closeSched = true → X.hist ≠ []
  twf : TWF X.tally

/-- The receiving half of an endpoint; `H` is what the peer has sent with a number, `hi` the highest number given to the network. -/
structure Rcv (H : List Seg) (hi : Nat) (X : Ep) : Prop where
  uno : ∀ g ∈ X.uno, g ∈ H ∧ g.data ≠ [] ∧ g.seq ≤ hi
  next : 1 ≤ X.rnext ∧ X.rnext ≤ hi + 1
  str : X.read ++ X.part ++ X.inb.flatten = flat (H.take (X.rnext - 1))
  sack : ∀ q ∈ X.sacks, Has X q
  rend : X.remoteClosed = true → ∃ f ∈ H, f.fin = true ∧ f.seq = X.rend
  errR : X.errRecv = true → X.closedRd = true ∨ (X.remoteClosed = true ∧ X.rend ≤ X.rnext)
  eof : X.eof = true → X.read = flat H ∧ ∃ f ∈ H, f.fin = true
  early : X.state = .synSent ∨ X.state = .listen → X.rnext = 1 ∧ X.remoteClosed = false
  rcSt : X.remoteClosed = true → X.state = .closeWait ∨ X.state = .lastAck ∨ X.state = .closing ∨ X.state = .timeWait ∨ X.state = .closed

/-- What the sending half knows of the peer. -/
structure AckI (P X : Ep) : Prop where
  last : X.lastAck ≤ P.rnext
  sack : ∀ q : Nat, Cov X.tally.sacked q → Has P q

/-- The invariant of an endpoint with its peer. -/
structure Good (P X : Ep) : Prop where
  s : Snd X
  r : Rcv P.hist P.highest X
  a : AckI P X
  pn : P.rnext ≤ X.highest + 1

/-- A packet that the endpoint has given to the network. -/
structure PktOK (P : Ep) (p : Pkt) : Prop where
  seg : Ctl p.seg ∨ (p.seg ∈ P.hist ∧ p.seg.seq ≤ P.highest)
  ack : p.ackNo ≤ P.rnext
  sack : ∀ b ∈ p.sacks, b.1 < b.2 ∧ ∀ q, b.1 ≤ q → q < b.2 → Has P q

/-- How an endpoint may change, as seen by its peer. -/
structure Ext (P P' : Ep) : Prop where
  hist : P.hist <+: P'.hist
  fin : (∃ f ∈ P.hist, f.fin = true) → P'.hist = P.hist
  high : P.highest ≤ P'.highest
  next : P.rnext ≤ P'.rnext
  has : ∀ q, Has P q → Has P' q
  rc : P.remoteClosed = true → P'.remoteClosed = true

/-- The number of acknowledgements of a FIN that wait to be sent. -/
def faL (X : Ep) : Nat := (X.thr ++ X.outC).countP (fun g => g.fin && g.ack)

/-- A change that makes no acknowledgement of a FIN, does not enter the states in which such a packet was received or sent, nor SYN-RECEIVED, and forgets
no packet that waits to be sent. -/
structure Keep (X X' : Ep) : Prop where
  fa : faL X' = faL X
  rc : X'.remoteClosed = X.remoteClosed
  fw : X'.state = .finWait2 → X.state = .finWait2
  sr : X'.state = .synRcvd → X.state = .synRcvd
  qd : ∀ g : Seg, 0 < g.seq → g ∈ X.thr ∨ g ∈ X.outD → g ∈ X'.thr ∨ g ∈ X'.outD

/-- A local step: the invariant is kept, the peer's as well, and `Keep`. -/
structure Mv (P X X' : Ep) : Prop where
  good : Good P X'
  ext : Ext X X'
  keep : Keep X X'

theorem Ext.refl (X : Ep) : Ext X X :=
  ⟨List.prefix_refl _, fun _ => rfl, Nat.le_refl _, Nat.le_refl _, fun _ h => h, fun h => h⟩

theorem Ext.trans {X Y Z : Ep} (h : Ext X Y) (k : Ext Y Z) : Ext X Z where
  hist := h.hist.trans k.hist
  fin f := by
    have e := h.fin f
    rw [k.fin (by rw [e]; exact f), e]
  high := Nat.le_trans h.high k.high
  next := Nat.le_trans h.next k.next
  has q x := k.has q (h.has q x)
  rc x := k.rc (h.rc x)

theorem Keep.refl (X : Ep) : Keep X X := ⟨rfl, rfl, fun h => h, fun h => h, fun _ _ h => h⟩

theorem Keep.trans {X Y Z : Ep} (h : Keep X Y) (k : Keep Y Z) : Keep X Z :=
  ⟨k.fa.trans h.fa, k.rc.trans h.rc, fun x => h.fw (k.fw x), fun x => h.sr (k.sr x), fun g p x => k.qd g p (h.qd g p x)⟩

theorem Mv.refl {P X : Ep} (h : Good P X) : Mv P X X := ⟨h, .refl X, .refl X⟩

theorem Mv.trans {P X Y Z : Ep} (h : Mv P X Y) (k : Mv P Y Z) : Mv P X Z :=
  ⟨k.good, h.ext.trans k.ext, h.keep.trans k.keep⟩

theorem prefix_take {a b : List Seg} (h : a <+: b) {n : Nat} (hn : n ≤ a.length) : b.take n = a.take n := by
  obtain ⟨c, rfl⟩ := h
  rw [List.take_append_of_le_length hn]

/-- The invariant of an endpoint survives a step of its peer. -/
theorem Good.mono {P P' X : Ep} (h : Good P X) (k : Ext P P') (hp : P.highest ≤ P.hist.length) (pn : P'.rnext ≤ X.highest + 1) :
    Good P' X where
  s := h.s
  r :=
    { h.r with
      uno := fun g hg => ⟨k.hist.subset (h.r.uno g hg).1, (h.r.uno g hg).2.1, Nat.le_trans (h.r.uno g hg).2.2 k.high⟩
      next := ⟨h.r.next.1, Nat.le_trans h.r.next.2 (by have := k.high; omega)⟩
      str := by
        rw [h.r.str, prefix_take k.hist]
        have := h.r.next.2; omega
      rend := fun x => by obtain ⟨f, a, b⟩ := h.r.rend x; exact ⟨f, k.hist.subset a, b⟩
      eof := fun x => by
        have e := h.r.eof x
        rw [k.fin e.2]; exact e }
  a := ⟨Nat.le_trans h.a.last k.next, fun q hq => k.has q (h.a.sack q hq)⟩
  pn := pn

theorem PktOK.mono {P P' : Ep} {p : Pkt} (h : PktOK P p) (k : Ext P P') : PktOK P' p where
  seg := h.seg.imp id fun x => ⟨k.hist.subset x.1, Nat.le_trans x.2 k.high⟩
  ack := Nat.le_trans h.ack k.next
  sack b hb := ⟨(h.sack b hb).1, fun q a c => k.has q ((h.sack b hb).2 q a c)⟩

end Shadow.CTcp
