import Verif.Tcp.RecvProps

/-!
# Invariants of a connection

`ConnInv iss bs a irs rd c`: the connection `c` has initial sequence number `iss`, its application
has written `bs`, the peer has acknowledged the first `a` items of the stream, the peer's initial
sequence number is `irs` (if a SYN was received), and the application has taken `rd` out of the
receive buffer.

The invariant is kept by every operation and every packet, whatever its contents.
-/
namespace Shadow.Tcp

open Shadow.Base

/-- The items a connection has accepted from its peer. -/
def Conn.got (rd : List Byte) (c : Conn) : List Item :=
  match c.recv with
  | none => []
  | some r => r.items rd

namespace ConnProps

open SeqAt SeqProps SendProps TrimProps RecvProps

abbrev windowMax : Nat := 1073725440

structure ConnInv (iss : Nat) (bs : List Byte) (a irs : Nat) (rd : List Byte) (c : Conn) : Prop where
  send : SendAt iss bs a c.send.buffer
  window : c.send.window ≤ windowMax
  sclosed : c.send.isClosed = c.send.buffer.finAdded
  acked : c.send.synAcked = true ↔ 0 < a
  recv : ∀ r, c.recv = some r → RecvOk irs rd r ∧ (c.isReset = false → r.buffer.synAdded = true)
  rnone : c.recv = none → rd = []
  rsyn : c.scaling.receivedSyn = c.recv.isSome
  shiftR : ∀ w, c.scaling.recvShiftOpt = some w → w ≤ 14
  shiftS : ∀ w, c.scaling.sendShiftOpt = some w → w ≤ 14
  shiftN : c.recv = none → c.scaling.sendShiftOpt = none
  unsent : c.scaling.sentSyn = false → c.scaling.recvShiftOpt = none
  sent : c.scaling.sentSyn = true → a = 0 → c.send.buffer.transmittedUpTo ≠ pos iss 0
  rst : c.needToSendRst = true → c.isReset = true

/-! ### Creation and calls of the application -/

theorem inv_new (l r : Addr) (iss : Nat) (e : Bool) (h : iss < M) (irs : Nat) :
    ConnInv iss [] 0 irs [] (Conn.new l r iss e) := by
  constructor
  · exact sendAt_new iss h
  · show 2048 ≤ windowMax
    decide
  · rfl
  · simp [Conn.new]
  · intro r hr; cases hr
  · intro _; rfl
  · cases e <;> rfl
  · intro w hw; cases e <;> cases hw
  · intro w hw; cases e <;> cases hw
  · intro _; cases e <;> rfl
  · intro _; cases e <;> rfl
  · intro hs; cases e <;> cases hs
  · intro hs; cases hs

/-- `send` appends to the stream what was read from the caller's buffer. -/
theorem sendData_spec {iss bs a irs rd c} (h : ConnInv iss bs a irs rd c) (hf : c.send.buffer.finAdded = false)
    (src : List Byte) (n : Nat) :
    ∃ c' res k, c.sendData src n = .ok (c', res) ∧ k ≤ n ∧ k ≤ src.length ∧
      ConnInv iss (bs ++ src.take k) a irs rd c' ∧ c'.send.buffer.finAdded = false ∧
      c'.recv = c.recv ∧ c'.isReset = c.isReset ∧
      (∀ m, res = .ok m → k = m ∧ m = min n (Conn.sendBufMax - c.send.buffer.len)) ∧
      (res = .full → k = 0 ∧ c.send.buffer.len = Conn.sendBufMax) ∧
      c'.scaling = c.scaling ∧ c'.send.window = c.send.window := by
  have hl := h.send.len
  have hb := h.send.bound
  rw [hf, show b2n false = 0 from rfl] at hb
  rw [hf] at hl
  unfold Conn.sendData Conn.sendBufHasSpace
  by_cases hs : c.send.buffer.len < Conn.sendBufMax
  · rw [if_neg (by simpa using hs)]
    obtain ⟨q', ok, k, e, k1, k2, k3, k4, k5, k6, k7⟩ := addData_spec src (min n (Conn.sendBufMax - c.send.buffer.len)) h.send hf (by omega)
    simp only
    rw [e, R.bind_ok]
    have hinv : ConnInv iss (bs ++ src.take k) a irs rd { c with send := { c.send with buffer := q' } } :=
      ⟨k2, h.window, by rw [h.sclosed, hf, k4], h.acked, h.recv, h.rnone, h.rsyn, h.shiftR, h.shiftS, h.shiftN, h.unsent,
        by simp only; rw [k7]; exact h.sent, h.rst⟩
    cases ok with
    | true =>
      refine ⟨_, _, k, rfl, by omega, k3, hinv, k4, rfl, rfl, ?_, (fun hh => by cases hh), rfl, rfl⟩
      intro m hm
      have := k5 rfl
      cases hm
      exact ⟨this, rfl⟩
    | false =>
      exact ⟨_, _, k, rfl, by omega, k3, hinv, k4, rfl, rfl, (fun m hm => by cases hm), (fun hh => by cases hh), rfl, rfl⟩
  · rw [if_pos (by simpa using hs)]
    refine ⟨c, .full, 0, rfl, Nat.zero_le _, Nat.zero_le _, by simpa using h, hf, rfl, rfl, (fun m hm => by cases hm), fun _ => ⟨rfl, ?_⟩, rfl, rfl⟩
    simp only [Conn.sendBufMax] at *
    omega

theorem sendFin_spec {iss bs a irs rd c} (h : ConnInv iss bs a irs rd c) (hf : c.send.buffer.finAdded = false) :
    ∃ c', c.sendFin = .ok c' ∧ ConnInv iss bs a irs rd c' ∧ c'.send.buffer.finAdded = true ∧ c'.recv = c.recv ∧
      c'.isReset = c.isReset ∧ c'.scaling = c.scaling := by
  obtain ⟨q', e, k1, k2, k3, -⟩ := sendAt_addFin h.send hf
  unfold Conn.sendFin
  rw [e, R.bind_ok]
  refine ⟨_, rfl, ⟨k1, h.window, k2.symm, h.acked, h.recv, h.rnone, h.rsyn, h.shiftR, h.shiftS, h.shiftN, h.unsent, ?_, h.rst⟩, k2, rfl, rfl, rfl⟩
  simp only; rw [k3]; exact h.sent

theorem sendFin_twice {iss bs a irs rd c} (_ : ConnInv iss bs a irs rd c) (hf : c.send.buffer.finAdded = true) :
    c.sendFin = .panic := by
  unfold Conn.sendFin; rw [addFin_panic _ hf]; rfl

theorem sendRst_inv {iss bs a irs rd c} (h : ConnInv iss bs a irs rd c) : ConnInv iss bs a irs rd c.sendRst :=
  ⟨h.send, h.window, h.sclosed, h.acked, fun r hr => ⟨(h.recv r hr).1, fun hh => by cases hh⟩, h.rnone, h.rsyn, h.shiftR,
    h.shiftS, h.shiftN, h.unsent, h.sent, fun _ => rfl⟩

theorem setSendRst_inv {iss bs a irs rd c} (h : ConnInv iss bs a irs rd c) :
    ConnInv iss bs a irs rd c.setSendRstIfRecvPayload :=
  ⟨h.send, h.window, h.sclosed, h.acked, h.recv, h.rnone, h.rsyn, h.shiftR,
    h.shiftS, h.shiftN, h.unsent, h.sent, h.rst⟩

/-- `recv` takes bytes out of the receive buffer. -/
theorem recvData_spec {iss bs a irs rd c} {r : ConnRecv} (h : ConnInv iss bs a irs rd c) (hr : c.recv = some r) (n cap : Nat) :
    ∃ c' out res D, c.recvData n cap = .ok (c', out, res) ∧ ConnInv iss bs a irs (rd ++ D) c' ∧
      c'.got (rd ++ D) = c.got rd ∧ out <+: D ∧ (∃ rest, r.buffer.segments.flatten = D ++ rest) ∧
      (res ≠ .io → out = D) ∧
      (res = .empty ↔ r.buffer.segments.flatten = []) ∧
      (∀ m, res = .ok m → m = out.length ∧ out.length = min n r.buffer.segments.flatten.length) ∧
      (res = .io → cap < D.length ∧ out.length = cap) ∧ D.length ≤ n ∧
      (∃ q, c' = { c with recv := some { r with buffer := q } } ∧ r.buffer.segments.flatten = D ++ q.segments.flatten) := by
  obtain ⟨hok, hsyn⟩ := h.recv r hr
  unfold Conn.recvData
  rw [hr, R.unwrap_some, R.bind_ok]
  by_cases he : r.buffer.isEmpty = true
  · have hnil := hok.isEmpty.1 he
    rw [if_pos he]
    refine ⟨c, [], .empty, [], rfl, by rw [List.append_nil]; exact h, by rw [List.append_nil], List.prefix_refl _, ⟨_, rfl⟩,
      fun _ => rfl, ⟨fun _ => hnil, fun _ => rfl⟩, (fun m hm => by cases hm), (fun hh => by cases hh), Nat.zero_le _, r.buffer, ?_, rfl⟩
    show c = { c with recv := some r }
    rw [← hr]
  · rw [if_neg he]
    have hne : ¬ r.buffer.segments.flatten = [] := mt hok.isEmpty.2 he
    obtain ⟨q', out, io, D, e, k1, k2, k3, k4, k5, k6, k7, k8, k9⟩ := read_spec hok n cap
    rw [e, R.bind_ok]
    have hinv : ConnInv iss bs a irs (rd ++ D) { c with recv := some { r with buffer := q' } } := by
      refine ⟨h.send, h.window, h.sclosed, h.acked, ?_, (fun hh => by cases hh), ?_, h.shiftR,
        h.shiftS, (fun hh => by cases hh), h.unsent, h.sent, h.rst⟩
      · intro r' hr'
        cases hr'
        exact ⟨k6, by simp only; rw [k8]; exact hsyn⟩
      · simp only; rw [h.rsyn, hr]; rfl
    have hgot : Conn.got (rd ++ D) { c with recv := some { r with buffer := q' } } = c.got rd := by
      simp only [Conn.got, hr]; exact k7
    cases io with
    | true =>
      refine ⟨_, _, _, D, rfl, hinv, hgot, k2, ⟨_, k1⟩, (fun hh => absurd rfl hh), ⟨(fun hh => by cases hh), fun hh => absurd hh hne⟩,
        (fun m hm => by cases hm), fun _ => k4 rfl, k5, q', rfl, k1⟩
    | false =>
      obtain ⟨j1, j2⟩ := k3 rfl
      refine ⟨_, _, _, D, rfl, hinv, hgot, k2, ⟨_, k1⟩, fun _ => j1, ⟨(fun hh => by cases hh), fun hh => absurd hh hne⟩,
        ?_, (fun hh => by cases hh), k5, q', rfl, k1⟩
      intro m hm
      cases hm
      exact ⟨rfl, by rw [j1]; exact j2⟩

/-! ### Sending packets -/

theorem recvShiftRaw_le {iss bs a irs rd c} (h : ConnInv iss bs a irs rd c) : c.scaling.recvShiftRaw ≤ 14 := by
  unfold WindowScaling.recvShiftRaw
  split
  · omega
  · split
    · rename_i r _ hr _
      exact h.shiftR r hr
    · omega

theorem sendShiftRaw_le {iss bs a irs rd c} (h : ConnInv iss bs a irs rd c) : c.scaling.sendShiftRaw ≤ 14 := by
  unfold WindowScaling.sendShiftRaw
  split
  · omega
  · split
    · rename_i r _ hr _
      exact h.shiftS r hr
    · omega

theorem recvShiftRaw_unsent {s : WindowScaling} (h : s.recvShiftOpt = none) : s.recvShiftRaw = 0 := by
  unfold WindowScaling.recvShiftRaw
  rw [h]
  split <;> rfl

/-- The window of the receive side: its left edge is the next position. -/
theorem recvWindow_spec {irs rd} {c : Conn} {r : ConnRecv} (hr : c.recv = some r) (hok : RecvOk irs rd r) :
    c.recvWindow = some ⟨pos irs (r.items rd).length,
      pos irs ((r.items rd).length + min (Conn.recvBufMax - r.buffer.segments.flatten.length) c.scaling.recvWindowMax)⟩ := by
  unfold Conn.recvWindow
  rw [hr]
  simp only
  rw [hok.end, hok.len, add_pos]

theorem recvWindowLen_le {iss bs a irs rd c} (h : ConnInv iss bs a irs rd c) : c.recvWindowLen ≤ c.scaling.recvWindowMax := by
  unfold Conn.recvWindowLen
  cases hr : c.recv with
  | none =>
    have : c.recvWindow = none := by unfold Conn.recvWindow; rw [hr]
    rw [this]; simp only; omega
  | some r =>
    rw [recvWindow_spec hr (h.recv r hr).1]
    simp only
    rw [len_pos _ _ _ (by simp only [Conn.recvBufMax]; omega)]
    omega

/-- The fields that `pop_packet` computes for the header: what they are, and that nothing fails. -/
theorem windowFields_spec {iss bs a irs rd c} (h : ConnInv iss bs a irs rd c) (syn : Bool)
    (hs : syn = true → c.scaling.sentSyn = false) (hc : syn = false → c.scaling.isConfigured = true) :
    ∃ w, c.windowFields syn = .ok w ∧ w.1 < 65536 ∧
      (syn = true → w = (c.recvWindowLen, (if c.scaling.canSendWindowScale then some 1 else none), c.recvWindowLen,
        { c.scaling with sentSyn := true, recvShiftOpt := if c.scaling.canSendWindowScale then some 1 else none })) ∧
      (syn = false → w = (c.recvWindowLen / 2 ^ c.scaling.recvShiftRaw, none,
        c.recvWindowLen / 2 ^ c.scaling.recvShiftRaw * 2 ^ c.scaling.recvShiftRaw, c.scaling)) := by
  have hle := recvWindowLen_le h
  cases syn with
  | true =>
    have h1 := hs rfl
    have h2 := recvShiftRaw_unsent (h.unsent h1)
    have hshift : WindowScaling.scaleShiftForMaxWindow Conn.recvBufMax = 1 := by decide
    simp only [WindowScaling.recvWindowMax, h2] at hle
    unfold Conn.windowFields
    rw [if_pos rfl, hshift]
    simp only
    have hon : c.scaling.onSentSyn (if c.scaling.canSendWindowScale then some 1 else none) =
        .ok { c.scaling with sentSyn := true, recvShiftOpt := if c.scaling.canSendWindowScale then some 1 else none } := by
      unfold WindowScaling.onSentSyn
      rw [h1]
      cases hcan : c.scaling.canSendWindowScale with
      | false => simp
      | true =>
        have hd : c.scaling.disabled = false ∧ (c.scaling.receivedSyn && c.scaling.sendShiftOpt.isNone) = false := by
          unfold WindowScaling.canSendWindowScale at hcan
          rwa [Bool.not_eq_true', Bool.or_eq_false_iff] at hcan
        rw [hd.1, hd.2]
        simp [hd.1, WindowScaling.maxShift]
    rw [hon, R.bind_ok]
    refine ⟨_, rfl, by simp only; omega, fun _ => rfl, (fun hh => by cases hh)⟩
  | false =>
    unfold Conn.windowFields
    rw [if_neg (by simp)]
    unfold WindowScaling.recvWindowScaleShift
    rw [hc rfl]
    simp only [R.assert_true, R.bind_ok, R.pure_eq]
    refine ⟨_, rfl, ?_, (fun hh => by cases hh), fun _ => rfl⟩
    simp only [WindowScaling.recvWindowMax] at hle
    simp only
    have : c.recvWindowLen / 2 ^ c.scaling.recvShiftRaw ≤ 65535 := by
      apply Nat.le_of_lt_succ
      apply Nat.div_lt_of_lt_mul
      have := Nat.two_pow_pos c.scaling.recvShiftRaw
      rw [Nat.mul_comm]
      have h3 : 65535 * 2 ^ c.scaling.recvShiftRaw < 65536 * 2 ^ c.scaling.recvShiftRaw := by omega
      have h4 : Nat.succ 65535 = 65536 := rfl
      rw [h4]
      omega
    omega

theorem windowFields_ok {c : Conn} {syn : Bool} {w} (hw : c.windowFields syn = .ok w) :
    (syn = false → c.scaling.isConfigured = true ∧ w.2.1 = none ∧ w.2.2.2 = c.scaling) ∧
    (syn = true → c.scaling.sentSyn = false ∧ ∃ s, w.2.1 = s ∧ (∀ x, s = some x → x = 1) ∧
      w.2.2.2 = { c.scaling with sentSyn := true, recvShiftOpt := s }) := by
  unfold Conn.windowFields at hw
  cases syn with
  | true =>
    rw [if_pos rfl] at hw
    have hshift : WindowScaling.scaleShiftForMaxWindow Conn.recvBufMax = 1 := by decide
    rw [hshift] at hw
    simp only [R.bind_eq_ok] at hw
    obtain ⟨s, hs, hw⟩ := hw
    cases hw
    refine ⟨(fun hh => by cases hh), fun _ => ?_⟩
    simp only [WindowScaling.onSentSyn, R.bind_eq_ok, R.assert_eq_ok] at hs
    obtain ⟨_, h1, _, h2, _, h3, _, h4, h5⟩ := hs
    cases h5
    refine ⟨by simpa using h1, _, rfl, ?_, rfl⟩
    intro x hx
    split at hx
    · cases hx; rfl
    · cases hx
  | false =>
    rw [if_neg (by simp)] at hw
    simp only [WindowScaling.recvWindowScaleShift, R.bind_eq_ok, R.assert_eq_ok] at hw
    obtain ⟨s, ⟨_, h1, h2⟩, h3⟩ := hw
    cases h3
    exact ⟨fun _ => ⟨h1, rfl, rfl⟩, (fun hh => by cases hh)⟩

theorem pos_ne_zero {i k : Nat} (h1 : 1 ≤ k) (h2 : k < M) : pos i k ≠ pos i 0 := by
  intro h
  have := pos_inj h.symm (Nat.zero_le k) (by omega)
  omega

/-- Sending a packet keeps the invariant. -/
theorem popPacket_inv {iss bs a irs rd c c'} {hd : Header} {pl : Payload} (h : ConnInv iss bs a irs rd c)
    (hx : c.popPacket = .ok (c', some (hd, pl))) :
    ConnInv iss bs a irs rd c' ∧ c'.recv = c.recv ∧ c'.isReset = c.isReset ∧
      c'.send.buffer.finAdded = c.send.buffer.finAdded := by
  have hwin : c.send.window < M := by have := h.window; simp only [windowMax] at this; omega
  obtain ⟨p, n, k1, k2, k3, k4, k5, k6, k7, k8, k9, w, hw, hw1, hw2, rfl⟩ := popPacket_spec h.send hwin hx
  obtain ⟨g1, g2⟩ := windowFields_ok hw
  have hge := k2.ge
  have hle := k2.le
  have hlt := h.send.lt
  have hsent : w.2.2.2.sentSyn = true → a = 0 → pos iss (p + n) ≠ pos iss 0 := by
    intro hs ha
    subst ha
    cases hsyn : hd.flags.syn with
    | false =>
      rw [(g1 hsyn).2.2] at hs
      have htx := h.sent hs rfl
      rcases k2.tx with ht | ht
      · have : p ≠ 0 := by
          intro hp; rw [hp] at ht; exact htx ht
        exact pos_ne_zero (by omega) (by omega)
      · have := streamItems_length bs c.send.buffer.finAdded
        exact pos_ne_zero (by omega) (by omega)
    | true =>
      have hpos : 0 < n := by
        have := congrArg List.length k2.items
        rw [packetItems_length, List.length_take] at this
        have h1 : b2n hd.flags.syn = 1 := by rw [hsyn]; rfl
        simp only at this
        omega
      exact pos_ne_zero (by omega) (by omega)
  refine ⟨⟨?_, h.window, h.sclosed, h.acked, h.recv, h.rnone, ?_, ?_, ?_, ?_, ?_, hsent, (fun hh => by cases hh)⟩, rfl, rfl, rfl⟩
  · exact (markAsTransmitted_spec h.send (p := p + n) (by omega) hle).2
  all_goals
    simp only
    cases hsyn : hd.flags.syn with
    | false =>
      rw [(g1 hsyn).2.2]
      first
        | exact h.rsyn
        | exact h.shiftR
        | exact h.shiftS
        | exact h.shiftN
        | exact h.unsent
    | true =>
      obtain ⟨e1, s, e2, e3, e4⟩ := g2 hsyn
      rw [e4]
      simp only
      first
        | exact h.rsyn
        | exact h.shiftS
        | exact h.shiftN
        | (intro x hx; have := e3 x hx; omega)
        | (intro hh; cases hh; done)

/-! ### Acknowledgements -/

theorem ackIf_spec {iss bs a} {s : ConnSend} (hs : SendAt iss bs a s.buffer) (hd : Header) :
    ∃ s' a', Conn.ackIf s hd = .ok s' ∧ SendAt iss bs a' s'.buffer ∧
      s'.window = s.window ∧ s'.isClosed = s.isClosed ∧ s'.buffer.transmittedUpTo = s.buffer.transmittedUpTo ∧
      s'.buffer.finAdded = s.buffer.finAdded ∧
      ((a' = a ∧ s' = s) ∨ (a < a' ∧ hd.flags.ack = true ∧ Seq.new hd.ack = pos iss a' ∧ s'.synAcked = true)) ∧
      (∀ q, hd.flags.ack = true → Seq.new hd.ack = pos iss q → a < q →
        q ≤ (streamItems bs s.buffer.finAdded).length → a' = q) := by
  unfold Conn.ackIf
  by_cases hf : hd.flags.ack = true
  · rw [if_pos hf]
    unfold Conn.processAck
    rw [hs.start, hs.end, add_pos, add_pos]
    have hle := hs.le
    have hlt := hs.lt
    have hc := contains_pos iss (a + 1) ((streamItems bs s.buffer.finAdded).length + 1) (Seq.new hd.ack)
      (by omega) (by omega) (new_lt _)
    by_cases hcon : SeqRange.contains ⟨pos iss (a + 1), pos iss ((streamItems bs s.buffer.finAdded).length + 1)⟩ (Seq.new hd.ack) = true
    · obtain ⟨q, q1, q2, q3⟩ := hc.1 hcon
      rw [if_pos hcon, q3]
      have hne : pos iss q ≠ pos iss a := by
        intro hh
        have := pos_inj hh.symm (by omega) (by omega)
        omega
      simp only
      rw [if_pos hne]
      simp only
      obtain ⟨b, e, k1, k2, k3, k4⟩ := advanceStart_spec hs (p := q) (by omega) (by omega)
      rw [e, R.bind_ok]
      refine ⟨_, q, rfl, k1, rfl, rfl, k2, k3, .inr ⟨by omega, hf, rfl, rfl⟩, ?_⟩
      intro q' _ h2 h3 h4
      rcases Nat.le_total q q' with hh | hh
      · exact pos_inj h2 hh (by omega)
      · exact (pos_inj h2.symm hh (by omega)).symm
    · rw [if_neg hcon]
      refine ⟨s, a, rfl, hs, rfl, rfl, rfl, rfl, .inl ⟨rfl, rfl⟩, ?_⟩
      intro q _ h2 h3 h4
      exact absurd (hc.2 ⟨q, by omega, by omega, h2⟩) hcon
  · rw [if_neg hf]
    exact ⟨s, a, rfl, hs, rfl, rfl, rfl, rfl, .inl ⟨rfl, rfl⟩, fun q hq => absurd hq hf⟩

/-! ### Receiving packets -/

theorem pos_add_M (i x : Nat) : pos i (x + M) = pos i x := by simp only [pos]; omega

theorem slice_shift {α} (n w s d : Nat) (X : List α) : slice (n + d) w (s + d) X = slice n w s X := by
  simp only [slice]
  have h1 : n + d - (s + d) = n - s := by omega
  have h2 : n + d + w - max (s + d) (n + d) = n + w - max s n := by omega
  rw [h1, h2]

theorem slice_len {α} (n w s : Nat) (X : List α) : (slice n w s X).length ≤ n + w - max s n := by
  simp only [slice, List.length_take]; omega

/-- The part of the receive window that is open. -/
def Conn.openWindow (c : Conn) (r : ConnRecv) : Nat :=
  min (Conn.recvBufMax - r.buffer.segments.flatten.length) c.scaling.recvWindowMax

theorem head_syn {f : Flags} {pl : Payload} : (packetItems f pl).head? = some .syn ↔ f.syn = true := by
  unfold packetItems
  cases hs : f.syn with
  | true => simp
  | false =>
    cases hp : pl.flatten with
    | nil => cases f.fin <;> simp
    | cons x l => simp

theorem mem_syn {f : Flags} {pl : Payload} : Item.syn ∈ packetItems f pl ↔ f.syn = true := by
  unfold packetItems
  cases hs : f.syn <;> cases hf : f.fin <;> simp

theorem mem_fin {f : Flags} {pl : Payload} : Item.fin ∈ packetItems f pl ↔ f.fin = true := by
  unfold packetItems
  cases hs : f.syn <;> cases hf : f.fin <;> simp

theorem mem_byte {f : Flags} {pl : Payload} {b : Byte} : Item.byte b ∈ packetItems f pl ↔ b ∈ pl.flatten := by
  unfold packetItems
  generalize pl.flatten = l
  cases hs : f.syn <;> cases hf : f.fin <;> simp

theorem payload_empty_iff {f : Flags} {pl : Payload} :
    Payload.isEmpty pl = true ↔ ∀ b, Item.byte b ∉ packetItems f pl := by
  rw [isEmpty_iff_flatten]
  simp only [mem_byte]
  exact List.eq_nil_iff_forall_not_mem

theorem packet_nil {f : Flags} {pl : Payload} (h1 : Payload.isEmpty pl = true) (h2 : f.syn = false) (h3 : f.fin = false) :
    packetItems f pl = [] := by
  rw [isEmpty_iff_flatten] at h1
  simp [packetItems, h1, h2, h3]

end ConnProps
end Shadow.Tcp
