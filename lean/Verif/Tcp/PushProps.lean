import Verif.Tcp.ConnProps

/-!
# What a received packet does to a connection

`Outcome` lists the ways in which a packet other than a RST can end.  `pushSegment_spec` says that
one of them happens for every packet.  Positions are shifted by `2^32`, so that packets from before
the start of the stream have a position too.
-/
namespace Shadow.Tcp.ConnProps

open Shadow.Base SeqAt SeqProps SendProps TrimProps RecvProps

/-- The items of a packet at position `p` that lie in the receive window. -/
def inWindow (rd : List Byte) (c : Conn) (r : ConnRecv) (p : Nat) (hd : Header) (pl : Payload) : List Item :=
  slice ((r.items rd).length + M) (Conn.openWindow c r) p (packetItems hd.flags pl)

/-- The acceptance of a segment: what changes in the connection. -/
structure Accepted (iss : Nat) (bs : List Byte) (a irs : Nat) (rd : List Byte) (c : Conn) (r : ConnRecv) (p : Nat)
    (hd : Header) (pl : Payload) (c' : Conn) (m : Nat) : Prop where
  ex : ∃ r' s' a' shift, c' = { c with
        recv := some r'
        needToAck := c.needToAck || (r'.buffer.endSeq != r.buffer.endSeq)
        send := s' } ∧
      RecvOk irs rd r' ∧ r'.buffer.synAdded = true ∧
      r'.items rd = r.items rd ++ (if p ≤ (r.items rd).length + M then inWindow rd c r p hd pl else []) ∧
      c.windowShift hd.flags.syn = .ok shift ∧
      a ≤ a' ∧ SendAt iss bs a' s'.buffer ∧
      s'.window = hd.windowSize * 2 ^ shift ∧ s'.isClosed = c.send.isClosed ∧
      s'.buffer.transmittedUpTo = c.send.buffer.transmittedUpTo ∧
      s'.buffer.finAdded = c.send.buffer.finAdded ∧
      ((a' = a ∧ s'.synAcked = c.send.synAcked) ∨
        (a < a' ∧ hd.flags.ack = true ∧ Seq.new hd.ack = pos iss a' ∧ s'.synAcked = true)) ∧
      (∀ q, hd.flags.ack = true → Seq.new hd.ack = pos iss q → a < q →
        q ≤ (streamItems bs c.send.buffer.finAdded).length → a' = q)

/-- Why a segment makes the connection send a RST. -/
def Rejects (rd : List Byte) (c : Conn) (r : ConnRecv) (p : Nat) (hd : Header) (pl : Payload) : Prop :=
  (c.sendRstIfRecvPayload = true ∧ ∃ b, Item.byte b ∈ inWindow rd c r p hd pl) ∨
  (r.isClosed = true ∧ inWindow rd c r p hd pl ≠ []) ∨
  (r.isClosed = false ∧ r.buffer.synAdded = true ∧ Item.syn ∈ inWindow rd c r p hd pl)

inductive Outcome (iss : Nat) (bs : List Byte) (a irs : Nat) (rd : List Byte) (c : Conn) (r : ConnRecv) (p : Nat)
    (hd : Header) (pl : Payload) : R (Conn × Nat) → Prop where
  | outside : inWindow rd c r p hd pl = [] → r.buffer.synAdded = true →
      ¬ Meet p (packetItems hd.flags pl).length ((r.items rd).length + M) (Conn.openWindow c r) →
      Outcome iss bs a irs rd c r p hd pl (.ok ({ c with needToAck := true }, 0))
  | reset : Rejects rd c r p hd pl → Outcome iss bs a irs rd c r p hd pl (.ok (c.sendRst, 0))
  | noShift : hd.flags.syn = false → c.scaling.isConfigured = false → ¬ Rejects rd c r p hd pl →
      Outcome iss bs a irs rd c r p hd pl .panic
  | accepted {c' m} : ¬ Rejects rd c r p hd pl → Accepted iss bs a irs rd c r p hd pl c' m →
      Meet p (packetItems hd.flags pl).length ((r.items rd).length + M) (Conn.openWindow c r) →
      Outcome iss bs a irs rd c r p hd pl (.ok (c', m))

theorem slice_first {α} (n w : Nat) (hw : 0 < w) (X : List α) : (slice n w n X).head? = X.head? := by
  simp only [slice, Nat.sub_self, List.drop_zero, Nat.max_self]
  have : n + w - n = w := by omega
  rw [this]
  cases X with
  | nil => simp
  | cons x l =>
    cases w with
    | zero => omega
    | succ w => simp

theorem openWindow_le (c : Conn) (r : ConnRecv) :
    Conn.openWindow c r ≤ Conn.recvBufMax - r.buffer.segments.flatten.length := Nat.min_le_left _ _

theorem openWindow_pos (c : Conn) (r : ConnRecv) (h : r.buffer.segments.flatten.length < Conn.recvBufMax) :
    0 < Conn.openWindow c r := by
  unfold Conn.openWindow WindowScaling.recvWindowMax
  have := Nat.two_pow_pos c.scaling.recvShiftRaw
  have h3 : 0 < 65535 * 2 ^ c.scaling.recvShiftRaw := by omega
  omega

theorem windowShift_cases (c : Conn) (b : Bool) :
    (∃ s, c.windowShift b = .ok s) ∨ (c.windowShift b = .panic ∧ b = false ∧ c.scaling.isConfigured = false) := by
  unfold Conn.windowShift WindowScaling.sendWindowScaleShift
  cases b with
  | true => exact .inl ⟨_, rfl⟩
  | false =>
    rw [if_neg (by simp)]
    cases hc : c.scaling.isConfigured with
    | true => exact .inl ⟨_, rfl⟩
    | false => exact .inr ⟨rfl, rfl, rfl⟩

theorem pushSegment_spec {iss bs a irs rd} {c : Conn} {r : ConnRecv} {p : Nat} {hd : Header} {pl : Payload}
    (hs : SendAt iss bs a c.send.buffer) (hr : c.recv = some r) (hok : RecvOk irs rd r)
    (hp : Seq.new hd.seq = pos irs p) (h1 : (r.items rd).length + Conn.recvBufMax < p)
    (h2 : p + (packetItems hd.flags pl).length < (r.items rd).length + M + M)
    (hL : (packetItems hd.flags pl).length < M)
    (hsyn : r.buffer.synAdded = true ∨ (hd.flags.syn = true ∧ p = M ∧ r.items rd = [])) :
    Outcome iss bs a irs rd c r p hd pl (c.pushSegment hd pl) := by
  have hwle := openWindow_le c r
  have hcap := hok.cap
  simp only [Conn.recvBufMax] at *
  unfold Conn.pushSegment
  rw [recvWindow_spec hr hok, R.unwrap_some, R.bind_ok]
  have hwin : (⟨pos irs (r.items rd).length,
      pos irs ((r.items rd).length + min (Conn.recvBufMax - r.buffer.segments.flatten.length) c.scaling.recvWindowMax)⟩ : SeqRange) =
      ⟨pos irs ((r.items rd).length + M), pos irs ((r.items rd).length + M + Conn.openWindow c r)⟩ := by
    rw [pos_add_M, Nat.add_right_comm, pos_add_M]; rfl
  rw [hwin]
  have hiw : inWindow rd c r p hd pl = slice ((r.items rd).length + M) (Conn.openWindow c r) p (packetItems hd.flags pl) := rfl
  rcases trim_spec irs p ((r.items rd).length + M) (Conn.openWindow c r) hd pl hp hL (by omega) (by omega) (by omega) with
    ⟨e, t1, t2⟩ | ⟨hd', pl', e, t1, t2, t3, t4, t5, t6, t7, t8, t9⟩
  · rw [e, R.bind_ok, Option.elim_none]
    refine .outside t1 ?_ t2
    rcases hsyn with hh | ⟨hh, rfl, hh2⟩
    · exact hh
    · exfalso
      apply t2
      have hseg : r.buffer.segments.flatten.length = 0 := by
        have := RecvProps.items_length rd r
        rw [hh2] at this
        simp only [List.length_nil] at this
        omega
      have hw0 : 0 < Conn.openWindow c r := openWindow_pos c r (by simp only [Conn.recvBufMax]; omega)
      have hx0 : 0 < (packetItems hd.flags pl).length := by
        rw [packetItems_length, hh, show b2n true = 1 from rfl]; omega
      rw [hh2]
      simp only [Meet, List.length_nil]
      omega
  · rw [e, R.bind_ok, Option.elim_some]
    simp only
    rw [← hiw] at t3
    unfold Conn.pushTrimmed
    rw [hr]
    simp only
    by_cases c1 : (c.sendRstIfRecvPayload && !Payload.isEmpty pl') = true
    · rw [if_pos c1]
      refine .reset (.inl ?_)
      rw [Bool.and_eq_true] at c1
      refine ⟨c1.1, ?_⟩
      rw [← t3]
      apply Classical.byContradiction
      intro hno
      have := payload_empty_iff (f := hd'.flags) (pl := pl').2 (fun b hb => hno ⟨b, hb⟩)
      rw [this] at c1
      cases c1.2
    · rw [if_neg c1]
      by_cases c2 : (r.isClosed && (!Payload.isEmpty pl' || hd'.flags.syn || hd'.flags.fin)) = true
      · rw [if_pos c2]
        refine .reset (.inr (.inl ?_))
        rw [Bool.and_eq_true] at c2
        refine ⟨c2.1, ?_⟩
        rw [← t3]
        intro hno
        have g1 : Payload.isEmpty pl' = true := (payload_empty_iff (f := hd'.flags)).2 (by rw [hno]; simp)
        have g2 : hd'.flags.syn = false := by
          rw [← Bool.not_eq_true, ← mem_syn (pl := pl'), hno]; simp
        have g3 : hd'.flags.fin = false := by
          rw [← Bool.not_eq_true, ← mem_fin (pl := pl'), hno]; simp
        rw [g1, g2, g3] at c2
        cases c2.2
      · rw [if_neg c2]
        obtain ⟨k, hk⟩ : ∃ k, max p ((r.items rd).length + M) = k + M := ⟨max p ((r.items rd).length + M) - M, by omega⟩
        have hkN : (r.items rd).length ≤ k := by omega
        have hseq : Seq.new hd'.seq = pos irs k := by rw [t2, hk, pos_add_M]
        have hlen : k + (packetItems hd'.flags pl').length ≤ (r.items rd).length + Conn.openWindow c r ∨
            (packetItems hd'.flags pl').length = 0 := by
          rw [t3, hiw]
          have := slice_len ((r.items rd).length + M) (Conn.openWindow c r) p (packetItems hd.flags pl)
          omega
        have hmeet : k ≤ (r.items rd).length + Conn.openWindow c r := by
          simp only [Meet] at t1; omega
        have hsyn' : r.buffer.synAdded = true ∨ (hd'.flags.syn = true ∧ k = 0) := by
          rcases hsyn with hh | ⟨hh, rfl, hh2⟩
          · exact .inl hh
          · right
            have hseg : r.buffer.segments.flatten.length = 0 := by
              have := RecvProps.items_length rd r
              rw [hh2] at this
              simp only [List.length_nil] at this
              omega
            have hw0 : 0 < Conn.openWindow c r := openWindow_pos c r (by simp only [Conn.recvBufMax]; omega)
            rw [hh2, List.length_nil, Nat.zero_add] at hk hiw
            refine ⟨?_, by omega⟩
            rw [← head_syn (pl := pl'), t3, hiw, slice_first _ _ hw0, head_syn]
            exact hh
        have hfits : k + (packetItems hd'.flags pl').length + r.buffer.segments.flatten.length ≤
            (r.items rd).length + Conn.recvBufMax + b2n hd'.flags.syn + b2n hd'.flags.fin := by
          simp only [Conn.recvBufMax]
          omega
        rcases acceptSegment_spec hok hkN hseq hfits hsyn' with ⟨a1, a2, a3, a4⟩ | ⟨r', m, a1, a2, a3, a4, a5, a6⟩
        · rw [a4, R.bind_ok, Option.elim_none]
          refine .reset (.inr (.inr ⟨a1, a3, ?_⟩))
          rw [← t3, mem_syn]; exact a2
        · rw [a1, R.bind_ok, Option.elim_some]
          simp only
          have hclosed : r.isClosed = true → packetItems hd'.flags pl' = [] := by
            intro hcl
            rw [hcl, Bool.true_and] at c2
            simp only [Bool.or_eq_true, not_or, Bool.not_eq_true, Bool.not_eq_false'] at c2
            exact packet_nil c2.1.1 c2.1.2 c2.2
          have hnosyn : r.isClosed = false → r.buffer.synAdded = true → hd'.flags.syn = false := by
            intro q1 q2
            cases hq : hd'.flags.syn with
            | false => rfl
            | true =>
              exfalso
              unfold Conn.acceptSegment at a1
              rw [q1, hq, q2] at a1
              simp at a1
          have hnorej : ¬ Rejects rd c r p hd pl := by
            rintro (⟨q1, b, q2⟩ | ⟨q1, q2⟩ | ⟨q1, q2, q3⟩)
            · rw [q1, Bool.true_and] at c1
              have hpe : Payload.isEmpty pl' = true := by simpa using c1
              rw [← t3] at q2
              exact (payload_empty_iff (f := hd'.flags)).1 hpe b q2
            · rw [← t3] at q2
              exact q2 (hclosed q1)
            · rw [← t3, mem_syn, hnosyn q1 q2] at q3
              cases q3
          have hitems : r'.items rd = r.items rd ++ (if p ≤ (r.items rd).length + M then inWindow rd c r p hd pl else []) := by
            cases hcl : r.isClosed with
            | true =>
              rw [a3 hcl, ← t3, hclosed hcl]
              simp
            | false =>
              rw [a4 hcl, t3]
              congr 1
              by_cases hpp : p ≤ (r.items rd).length + M
              · rw [if_pos hpp, if_pos (by omega)]
              · rw [if_neg hpp, if_neg (by omega)]
          unfold Conn.pushAccepted
          rcases windowShift_cases c hd.flags.syn with ⟨shift, e1⟩ | ⟨e1, e2, e3⟩
          · rw [e1, R.bind_ok]
            obtain ⟨s', a', f1, f2, f3, f4, f5, f6, f7, f8⟩ :=
              ackIf_spec (s := { c.send with window := hd'.windowSize * 2 ^ shift }) hs hd'
            rw [f1, R.bind_ok]
            refine .accepted hnorej ⟨r', s', a', shift, rfl, a2, a5, hitems, e1, ?_, f2, ?_, f4, f5, f6, ?_, ?_⟩ t1
            · rcases f7 with ⟨q1, -⟩ | ⟨q1, -⟩ <;> omega
            · rw [f3, ← t7]
            · rcases f7 with ⟨q1, q2⟩ | ⟨q1, q2, q3, q4⟩
              · exact .inl ⟨q1, by rw [q2]⟩
              · exact .inr ⟨q1, by rw [← t5]; exact q2, by rw [← t6]; exact q3, q4⟩
            · rw [← t5, ← t6]; exact f8
          · rw [e1, R.bind_panic]
            exact .noShift e2 e3 hnorej

/-! ### `push_packet` -/

/-- A position for a packet, given what was received: `N` is the number of items received. -/
structure Place (irs N p : Nat) (hd : Header) (pl : Payload) : Prop where
  seq : Seq.new hd.seq = pos irs p
  low : N + Conn.recvBufMax < p
  high : p + (packetItems hd.flags pl).length < N + M + M

/-- Every packet that is not absurdly long has a place. -/
theorem exists_place (irs N : Nat) (hd : Header) (pl : Payload)
    (h : (packetItems hd.flags pl).length + Conn.recvBufMax + 1 < M) : ∃ p, Place irs N p hd pl := by
  obtain ⟨p, h1, h2, h3⟩ := exists_pos irs (N + Conn.recvBufMax + 1) (Seq.new hd.seq) (new_lt _)
  exact ⟨p, h3, by omega, by simp only [Conn.recvBufMax] at *; omega⟩

theorem firstSyn_some {c : Conn} {r : ConnRecv} (hr : c.recv = some r) (hd : Header) : c.firstSyn hd = .ok c := by
  unfold Conn.firstSyn
  rw [hr]
  rfl

/-- The connection as it is after the first SYN was noted. -/
def afterSyn (c : Conn) (hd : Header) : Conn :=
  { c with
    recv := some ⟨RecvQueue.new (Seq.new hd.seq), false⟩
    scaling := { c.scaling with
      receivedSyn := true
      sendShiftOpt := hd.windowScale.map (fun w => if w > WindowScaling.maxShift then WindowScaling.maxShift else w) } }

theorem firstSyn_none {iss bs a irs rd c} (h : ConnInv iss bs a irs rd c) (hr : c.recv = none) (hd : Header) :
    c.firstSyn hd = .ok (if hd.flags.syn then afterSyn c hd else c) := by
  have h1 := h.rsyn
  rw [hr] at h1
  unfold Conn.firstSyn
  rw [hr]
  cases hd.flags.syn with
  | false => rfl
  | true =>
    simp only [Option.isNone_none, Bool.and_self, if_true, WindowScaling.onReceivedSyn, h1]
    rfl

/-- The outcome of pushing a packet, for every packet.  The first clause is the state in which the
    peer's SYN was not seen yet. -/
inductive PushOutcome (iss : Nat) (bs : List Byte) (a irs : Nat) (rd : List Byte) (c : Conn) (p : Nat)
    (hd : Header) (pl : Payload) : R (Conn × Nat) → Prop where
  | afterReset : c.isReset = true → PushOutcome iss bs a irs rd c p hd pl .panic
  | noSyn : c.isReset = false → hd.flags.rst = false → c.recv = none → hd.flags.syn = false →
      PushOutcome iss bs a irs rd c p hd pl .panic
  | rst : c.isReset = false → hd.flags.rst = true → PushOutcome iss bs a irs rd c p hd pl (.ok (c.pushRst hd, 0))
  | first {x} : c.isReset = false → hd.flags.rst = false → c.recv = none → hd.flags.syn = true →
      Outcome iss bs a (Seq.new hd.seq) rd (afterSyn c hd) ⟨RecvQueue.new (Seq.new hd.seq), false⟩ M hd pl x →
      PushOutcome iss bs a irs rd c p hd pl x
  | later {r x} : c.isReset = false → hd.flags.rst = false → c.recv = some r →
      Outcome iss bs a irs rd c r p hd pl x → PushOutcome iss bs a irs rd c p hd pl x

theorem pushPacket_spec {iss bs a irs rd c} (h : ConnInv iss bs a irs rd c) {p : Nat} {hd : Header} {pl : Payload}
    (hL : (packetItems hd.flags pl).length + Conn.recvBufMax + 1 < M)
    (hp : ∀ r, c.recv = some r → Place irs (r.items rd).length p hd pl) :
    PushOutcome iss bs a irs rd c p hd pl (c.pushPacket hd pl) := by
  have hL' : (packetItems hd.flags pl).length < M := by omega
  unfold Conn.pushPacket
  cases hres : c.isReset with
  | true => rw [if_pos rfl]; exact .afterReset hres
  | false =>
    rw [if_neg (by simp)]
    cases hrst : hd.flags.rst with
    | true => rw [if_pos rfl]; exact .rst hres hrst
    | false =>
      rw [if_neg (by simp)]
      cases hr : c.recv with
      | none =>
        rw [firstSyn_none h hr, R.bind_ok]
        cases hsyn : hd.flags.syn with
        | false =>
          rw [if_neg (by simp)]
          unfold Conn.pushSegment Conn.recvWindow
          rw [hr]
          exact .noSyn hres hrst hr hsyn
        | true =>
          rw [if_pos rfl]
          refine .first hres hrst hr hsyn ?_
          have hrd := h.rnone hr
          subst hrd
          have hnil : ConnRecv.items [] ⟨RecvQueue.new (Seq.new hd.seq), false⟩ = [] := rfl
          refine pushSegment_spec (r := ⟨RecvQueue.new (Seq.new hd.seq), false⟩) h.send rfl (recvOk_new _ (new_lt _)) ?_ ?_ ?_ hL'
            (.inr ⟨hsyn, rfl, hnil⟩)
          · rw [← Nat.zero_add M, pos_add_M, pos_zero _ (new_lt _)]
          · rw [hnil]; simp only [List.length_nil, Conn.recvBufMax]; omega
          · rw [hnil]; simp only [List.length_nil]; omega
      | some r =>
        rw [firstSyn_some hr, R.bind_ok]
        obtain ⟨p1, p2, p3⟩ := hp r hr
        exact .later hres hrst hr (pushSegment_spec h.send hr (h.recv r hr).1 p1 p2 p3 hL'
          (.inl ((h.recv r hr).2 hres)))

/-- The window that a packet advertises is within the bound. -/
theorem window_bound {w s : Nat} (hw : w < 65536) (hs : s ≤ 14) : w * 2 ^ s ≤ windowMax := by
  have h1 : 2 ^ s ≤ 2 ^ 14 := Nat.pow_le_pow_right (by omega) hs
  have h2 : w * 2 ^ s ≤ 65535 * 2 ^ 14 := Nat.mul_le_mul (by omega) h1
  exact h2

theorem windowShift_le {c : Conn} (hS : ∀ w, c.scaling.sendShiftOpt = some w → w ≤ 14) {b : Bool} {s : Nat}
    (h : c.windowShift b = .ok s) : s ≤ 14 := by
  unfold Conn.windowShift at h
  split at h
  · cases h; omega
  · simp only [WindowScaling.sendWindowScaleShift, R.bind_eq_ok, R.assert_eq_ok] at h
    obtain ⟨_, _, h⟩ := h
    cases h
    unfold WindowScaling.sendShiftRaw
    split
    · omega
    · split
      · rename_i r _ hr _; exact hS r hr
      · omega

/-- The state `c` from which an outcome starts: the invariant, except that the SYN need not be in
    the receive buffer yet. -/
structure PreInv (iss : Nat) (bs : List Byte) (a irs : Nat) (rd : List Byte) (c : Conn) (r : ConnRecv) : Prop where
  send : SendAt iss bs a c.send.buffer
  window : c.send.window ≤ windowMax
  sclosed : c.send.isClosed = c.send.buffer.finAdded
  acked : c.send.synAcked = true ↔ 0 < a
  recv : c.recv = some r
  ok : RecvOk irs rd r
  rsyn : c.scaling.receivedSyn = true
  shiftR : ∀ w, c.scaling.recvShiftOpt = some w → w ≤ 14
  shiftS : ∀ w, c.scaling.sendShiftOpt = some w → w ≤ 14
  unsent : c.scaling.sentSyn = false → c.scaling.recvShiftOpt = none
  sent : c.scaling.sentSyn = true → a = 0 → c.send.buffer.transmittedUpTo ≠ pos iss 0
  rst : c.needToSendRst = true → c.isReset = true

theorem outcome_inv {iss bs a irs rd c r p hd pl c' m} (h : PreInv iss bs a irs rd c r) (hw : hd.windowSize < 65536)
    (ho : Outcome iss bs a irs rd c r p hd pl (.ok (c', m))) :
    ∃ a', a ≤ a' ∧ ConnInv iss bs a' irs rd c' ∧ c'.recv.isSome = true ∧
      c'.send.buffer.finAdded = c.send.buffer.finAdded ∧
      (a' = a ∨ (a < a' ∧ hd.flags.ack = true ∧ Seq.new hd.ack = pos iss a')) ∧
      (c'.got rd = r.items rd ∨
        (p ≤ (r.items rd).length + M ∧ c'.got rd = r.items rd ++ inWindow rd c r p hd pl)) := by
  generalize hx : (R.ok (c', m)) = x at ho
  cases ho with
  | outside h1 h2 h3 =>
    cases hx
    refine ⟨a, Nat.le_refl _, ⟨h.send, h.window, h.sclosed, h.acked, ?_, ?_, ?_, h.shiftR, h.shiftS, ?_, h.unsent, h.sent, h.rst⟩,
      by simp only [h.recv]; rfl, rfl, .inl rfl, .inl ?_⟩
    · intro r' hr'
      simp only [h.recv] at hr'
      cases hr'
      exact ⟨h.ok, fun _ => h2⟩
    · simp [h.recv]
    · simp [h.recv, h.rsyn]
    · simp [h.recv]
    · simp [Conn.got, h.recv]
  | reset h1 =>
    cases hx
    refine ⟨a, Nat.le_refl _, ⟨h.send, h.window, h.sclosed, h.acked, ?_, ?_, ?_, h.shiftR, h.shiftS, ?_, h.unsent, h.sent, fun _ => rfl⟩,
      by simp only [Conn.sendRst, h.recv]; rfl, rfl, .inl rfl, .inl ?_⟩
    · intro r' hr'
      simp only [Conn.sendRst, h.recv] at hr'
      cases hr'
      exact ⟨h.ok, (fun hh => by cases hh)⟩
    · simp [Conn.sendRst, h.recv]
    · simp [Conn.sendRst, h.recv, h.rsyn]
    · simp [Conn.sendRst, h.recv]
    · simp [Conn.got, Conn.sendRst, h.recv]
  | noShift => cases hx
  | accepted h1 h2 h3 =>
    cases hx
    obtain ⟨r', s', a', shift, e, k1, k2, k3, k4, k5, k6, k7, k8, k9, k10, k11, k12⟩ := h2
    subst e
    refine ⟨a', k5, ⟨k6, ?_, ?_, ?_, ?_, (fun hh => by cases hh), ?_, h.shiftR, h.shiftS, (fun hh => by cases hh), h.unsent, ?_, h.rst⟩,
      rfl, k10, ?_, ?_⟩
    · simp only; rw [k7]; exact window_bound hw (windowShift_le h.shiftS k4)
    · simp only; rw [k8, k10]; exact h.sclosed
    · simp only
      rcases k11 with ⟨q1, q2⟩ | ⟨q1, -, -, q2⟩
      · rw [q2, q1]; exact h.acked
      · rw [q2]; exact ⟨fun _ => by omega, fun _ => rfl⟩
    · intro x hx; cases hx; exact ⟨k1, fun _ => k2⟩
    · simp only; rw [h.rsyn]; rfl
    · intro hs ha
      simp only
      rw [k9]
      exact h.sent hs (by omega)
    · rcases k11 with ⟨q1, -⟩ | ⟨q1, q2, q3, -⟩
      · exact .inl q1
      · exact .inr ⟨q1, q2, q3⟩
    · simp only [Conn.got]
      rw [k3]
      by_cases hp : p ≤ (r.items rd).length + M
      · right; rw [if_pos hp]; exact ⟨hp, rfl⟩
      · left; rw [if_neg hp, List.append_nil]

theorem preInv_of_inv {iss bs a irs rd c r} (h : ConnInv iss bs a irs rd c) (hr : c.recv = some r) :
    PreInv iss bs a irs rd c r :=
  ⟨h.send, h.window, h.sclosed, h.acked, hr, (h.recv r hr).1, by rw [h.rsyn, hr]; rfl, h.shiftR, h.shiftS, h.unsent, h.sent, h.rst⟩

theorem preInv_afterSyn {iss bs a irs rd c} (h : ConnInv iss bs a irs rd c) (hr : c.recv = none) (hd : Header) :
    PreInv iss bs a (Seq.new hd.seq) rd (afterSyn c hd) ⟨RecvQueue.new (Seq.new hd.seq), false⟩ := by
  have hrd := h.rnone hr
  subst hrd
  refine ⟨h.send, h.window, h.sclosed, h.acked, rfl, recvOk_new _ (new_lt _), rfl, h.shiftR, ?_, h.unsent, h.sent, h.rst⟩
  intro w hw
  simp only [afterSyn, Option.map_eq_some_iff] at hw
  obtain ⟨x, -, hw⟩ := hw
  split at hw
  · simp only [WindowScaling.maxShift] at *; omega
  · simp only [WindowScaling.maxShift] at *; omega

theorem pushRst_inv {iss bs a irs rd c} (h : ConnInv iss bs a irs rd c) (hd : Header) :
    ConnInv iss bs a irs rd (c.pushRst hd) ∧ (c.pushRst hd).got rd = c.got rd ∧ (c.pushRst hd).recv = c.recv ∧
      (c.pushRst hd).send = c.send := by
  have h1 : ConnInv iss bs a irs rd { c with isReset := true } :=
    ⟨h.send, h.window, h.sclosed, h.acked, fun r hr => ⟨(h.recv r hr).1, fun hh => by cases hh⟩, h.rnone, h.rsyn, h.shiftR,
      h.shiftS, h.shiftN, h.unsent, h.sent, fun _ => rfl⟩
  have h2 : ConnInv iss bs a irs rd { c with needToAck := true } :=
    ⟨h.send, h.window, h.sclosed, h.acked, h.recv, h.rnone, h.rsyn, h.shiftR, h.shiftS, h.shiftN, h.unsent, h.sent, h.rst⟩
  unfold Conn.pushRst
  cases c.recvWindow with
  | none => exact ⟨h1, rfl, rfl, rfl⟩
  | some w =>
    simp only
    split
    · exact ⟨h1, rfl, rfl, rfl⟩
    · split
      · exact ⟨h2, rfl, rfl, rfl⟩
      · exact ⟨h, rfl, rfl, rfl⟩

/-- Pushing a packet keeps the invariant; what was received grows by a slice of the packet's items
    at the next position, or not at all. -/
theorem pushPacket_inv {iss bs a irs rd c c' m} (h : ConnInv iss bs a irs rd c) {hd : Header} {pl : Payload}
    (hw : hd.windowSize < 65536) (hL : (packetItems hd.flags pl).length + Conn.recvBufMax + 1 < M)
    (hx : c.pushPacket hd pl = .ok (c', m)) :
    ∃ a' irs', a ≤ a' ∧ ConnInv iss bs a' irs' rd c' ∧
      c'.send.buffer.finAdded = c.send.buffer.finAdded ∧
      (a' = a ∨ (a < a' ∧ hd.flags.ack = true ∧ Seq.new hd.ack = pos iss a')) ∧
      (c.recv.isSome = true → irs' = irs ∧ c'.recv.isSome = true) ∧
      (c.recv = none → c'.recv = none ∨ (irs' = Seq.new hd.seq ∧ hd.flags.syn = true)) ∧
      ∀ p, Place irs' (c.got rd).length p hd pl →
        c'.got rd = c.got rd ∨
        (hd.flags.rst = false ∧ p ≤ (c.got rd).length + M ∧
          ∃ w, c'.got rd = c.got rd ++ slice ((c.got rd).length + M) w p (packetItems hd.flags pl)) := by
  -- the result does not depend on the place
  have key : ∀ p, (∀ r, c.recv = some r → Place irs (r.items rd).length p hd pl) →
      ∃ a' irs', a ≤ a' ∧ ConnInv iss bs a' irs' rd c' ∧
      c'.send.buffer.finAdded = c.send.buffer.finAdded ∧
      (a' = a ∨ (a < a' ∧ hd.flags.ack = true ∧ Seq.new hd.ack = pos iss a')) ∧
      (c.recv.isSome = true → irs' = irs ∧ c'.recv.isSome = true) ∧
      (c.recv = none → c'.recv = none ∨ (irs' = Seq.new hd.seq ∧ hd.flags.syn = true)) ∧
      (∀ p', (c.recv.isSome = true → p' = p) → Place irs' (c.got rd).length p' hd pl → c'.got rd = c.got rd ∨
        (hd.flags.rst = false ∧ p' ≤ (c.got rd).length + M ∧
          ∃ w, c'.got rd = c.got rd ++ slice ((c.got rd).length + M) w p' (packetItems hd.flags pl))) := by
    intro p hp
    have ho := pushPacket_spec h hL hp
    rw [hx] at ho
    generalize hxx : (R.ok (c', m)) = x at ho
    cases ho with
    | afterReset => cases hxx
    | noSyn => cases hxx
    | rst h1 h2 =>
      cases hxx
      obtain ⟨k1, k2, k3, k4⟩ := pushRst_inv h hd
      refine ⟨a, irs, Nat.le_refl _, k1, by rw [k4], .inl rfl, fun hh => ⟨rfl, by rw [k3]; exact hh⟩, fun hh => .inl (by rw [k3]; exact hh), fun _ _ _ => .inl k2⟩
    | first h1 h2 h3 h4 h5 =>
      subst hxx
      have hgot : c.got rd = [] := by simp [Conn.got, h3]
      have hit : ConnRecv.items rd ⟨RecvQueue.new (Seq.new hd.seq), false⟩ = [] := by rw [h.rnone h3]; rfl
      obtain ⟨a', k1, k2, k3, k4, ka, k5⟩ := outcome_inv (preInv_afterSyn h h3 hd) hw h5
      refine ⟨a', Seq.new hd.seq, k1, k2, k4, ka, by rw [h3]; simp, fun _ => .inr ⟨rfl, h4⟩, ?_⟩
      intro p' _ hp'
      rw [hgot] at hp' ⊢
      have hpM : p' = M := by
        have e1 := hp'.seq
        have e2 : Seq.new hd.seq = pos (Seq.new hd.seq) M := by
          rw [← Nat.zero_add M, pos_add_M, pos_zero _ (new_lt _)]
        rw [e2] at e1
        have l := hp'.low
        have u := hp'.high
        simp only [Conn.recvBufMax, List.length_nil] at l u
        rw [← e2] at e1
        have e3 : pos (Seq.new hd.seq) M = pos (Seq.new hd.seq) p' := by rw [← e2]; exact e1
        rcases Nat.le_total M p' with hh | hh
        · exact (pos_inj e3 hh (by omega)).symm
        · exact pos_inj e3.symm hh (by omega)
      subst hpM
      rw [hit] at k5
      rcases k5 with k5 | ⟨k5, k6⟩
      · exact .inl k5
      · rw [inWindow, hit] at k6
        exact .inr ⟨h2, k5, _, k6⟩
    | later h1 h2 h3 h4 =>
      subst hxx
      rename_i r
      have hgot : c.got rd = r.items rd := by simp [Conn.got, h3]
      obtain ⟨a', k1, k2, k3, k4, ka, k5⟩ := outcome_inv (preInv_of_inv h h3) hw h4
      refine ⟨a', irs, k1, k2, k4, ka, fun _ => ⟨rfl, k3⟩, (fun hh => by rw [h3] at hh; cases hh), ?_⟩
      intro p' hpp hp'
      have := hpp (by rw [h3]; rfl)
      subst this
      rw [hgot]
      rcases k5 with k5 | ⟨k5, k6⟩
      · exact .inl k5
      · exact .inr ⟨h2, k5, _, k6⟩
  cases hr : c.recv with
  | none =>
    obtain ⟨a', irs', k1, k2, k3, ka, k4, k5, k6⟩ := key 0 (fun r hh => by rw [hr] at hh; cases hh)
    rw [hr] at k4 k5 k6
    exact ⟨a', irs', k1, k2, k3, ka, k4, k5, fun p hp => k6 p (by simp) hp⟩
  | some r =>
    have hgot : c.got rd = r.items rd := by simp [Conn.got, hr]
    obtain ⟨p0, hp0⟩ := exists_place irs (r.items rd).length hd pl hL
    obtain ⟨a', irs', k1, k2, k3, ka, k4, k5, k6⟩ := key p0 (fun r' hh => by rw [hr] at hh; cases hh; exact hp0)
    have hirs := (k4 (by rw [hr]; rfl)).1
    subst hirs
    rw [hr] at k4 k5
    refine ⟨a', irs', k1, k2, k3, ka, k4, k5, fun p hp => ?_⟩
    rw [hgot] at hp
    obtain ⟨a2, irs2, -, -, -, -, j4, -, j6⟩ := key p (fun r' hh => by rw [hr] at hh; cases hh; exact hp)
    have hirs2 := (j4 (by rw [hr]; rfl)).1
    subst hirs2
    exact j6 p (fun _ => rfl) (by rw [hgot]; exact hp)

end Shadow.Tcp.ConnProps
