import Verif.Tcp.Stream

/-!
# The stream between two endpoints (C31, C32, C36 at the level of connections)
-/
namespace Shadow.Tcp.Stream

open Shadow.Base SeqAt SeqProps SendProps TrimProps RecvProps ConnProps

/-- The items of the stream that `s` has written. -/
def Side.stream (s : Side) : List Item := streamItems s.written s.conn.send.buffer.finAdded

/-- The items that `s` has received. -/
def Side.got (s : Side) : List Item := s.conn.got s.taken

theorem inv_irs {iss bs a irs rd c} (h : ConnInv iss bs a irs rd c) (hr : c.recv = none) (irs' : Nat) :
    ConnInv iss bs a irs' rd c :=
  ⟨h.send, h.window, h.sclosed, h.acked, (fun r hh => by rw [hr] at hh; cases hh), h.rnone, h.rsyn, h.shiftR, h.shiftS,
    h.shiftN, h.unsent, h.sent, h.rst⟩

structure WireOk (irs : Nat) (x : Side) (p : Wire) : Prop where
  ex : ∃ sp n, p.hd.seq = pos x.iss sp ∧ packetItems p.hd.flags p.pl = (x.stream.drop sp).take n ∧
      sp + n ≤ x.stream.length ∧ p.written ≤ sp + 100001 ∧ n ≤ 1502
  win : p.hd.windowSize < 65536
  ack : p.hd.flags.ack = true → ∃ ap, p.hd.ack = pos irs ap ∧ p.received ≤ ap ∧ ap ≤ x.got.length

structure SideOk (irs a : Nat) (s : Side) : Prop where
  inv : ConnInv s.iss s.written a irs s.taken s.conn
  iss : s.iss < M
  out : s.out.Sublist s.taken
  full : s.failed = false → s.out = s.taken

theorem addData_fin {q q' : SendQueue} {src : List Byte} {n : Nat} {ok : Bool} (hf : q.finAdded = true)
    (h : q.addData src n = .ok (q', ok)) : ∃ u, q' = { q with unused := u } := by
  unfold SendQueue.addData at h
  cases n with
  | zero =>
    unfold SendQueue.addDataLoop at h
    cases h
    exact ⟨q.unused, rfl⟩
  | succ n =>
    unfold SendQueue.addDataLoop at h
    simp only at h
    generalize (if q.unused = 0 then max (min (n + 1) 10000) 2000 else q.unused) = u at h
    by_cases hs : src.length < min (n + 1) u
    · rw [if_pos hs] at h; cases h; exact ⟨_, rfl⟩
    · rw [if_neg hs] at h
      simp only [SendQueue.addSegment, hf] at h
      cases h

theorem len_unused (q : SendQueue) (u : Nat) : SendQueue.len { q with unused := u } = q.len := rfl

theorem got_length {irs a s} (h : SideOk irs a s) : s.received ≤ s.got.length ∧ s.got.length ≤ s.received + 2 := by
  unfold Side.received Side.got Conn.got buffered
  cases hr : s.conn.recv with
  | none =>
    have := h.inv.rnone hr
    rw [this]
    simp
  | some r =>
    have := RecvProps.items_length s.taken r
    have h1 : b2n r.buffer.synAdded ≤ 1 := by cases r.buffer.synAdded <;> simp [b2n]
    have h2 : b2n r.buffer.finAdded ≤ 1 := by cases r.buffer.finAdded <;> simp [b2n]
    simp only
    omega

theorem stream_length (s : Side) : s.written.length + 1 ≤ s.stream.length ∧ s.stream.length ≤ s.written.length + 2 := by
  have := streamItems_length s.written s.conn.send.buffer.finAdded
  have h2 : b2n s.conn.send.buffer.finAdded ≤ 1 := by cases s.conn.send.buffer.finAdded <;> simp [b2n]
  unfold Side.stream
  omega

theorem stream_prefix_data (bs d : List Byte) : streamItems bs false <+: streamItems (bs ++ d) false := by
  simp [streamItems]

theorem stream_prefix_fin (bs : List Byte) : streamItems bs false <+: streamItems bs true := by
  refine ⟨[.fin], ?_⟩
  simp [streamItems]

/-- The calls of the application and of the state machine. -/
theorem call_spec {irs a s s' o c} (h : SideOk irs a s) (hc : s.call c = .ok (s', o)) :
    SideOk irs a s' ∧ s'.iss = s.iss ∧ s.stream <+: s'.stream ∧ s'.got = s.got ∧
      ∀ p, o = some p → WireOk irs s' p := by
  obtain ⟨hi, hM, ho, hfull⟩ := h
  cases c with
  | send src n =>
    simp only [Side.call, R.bind_eq_ok] at hc
    obtain ⟨⟨c', res⟩, hc, h2⟩ := hc
    cases h2
    cases hf : s.conn.send.buffer.finAdded with
    | false =>
      obtain ⟨c2, res2, k, e, k1, k2, k3, k4, k5, k6, -⟩ := sendData_spec hi hf src n
      rw [e] at hc
      cases hc
      have hlen : c'.send.buffer.len - s.conn.send.buffer.len = k := by
        rw [k3.send.len, hi.send.len, hf, k4, streamItems_length, streamItems_length, List.length_append,
          List.length_take]
        have := hi.send.le
        rw [hf, streamItems_length] at this
        omega
      simp only [hlen]
      refine ⟨⟨k3, hM, ho, hfull⟩, by trivial, ?_, ?_, (fun p hp => by cases hp)⟩
      · simp only [Side.stream, hf, k4]; exact stream_prefix_data _ _
      · simp only [Side.got, Conn.got, k5]
    | true =>
      unfold Conn.sendData at hc
      split at hc
      · cases hc
        simp only [Nat.sub_self, List.take_zero, List.append_nil]
        exact ⟨⟨hi, hM, ho, hfull⟩, by trivial, List.prefix_refl _, by trivial, (fun p hp => by cases hp)⟩
      · simp only [R.bind_eq_ok] at hc
        obtain ⟨⟨q', ok⟩, e, hc⟩ := hc
        obtain ⟨u, rfl⟩ := addData_fin hf e
        have hcc : c' = { s.conn with send := { s.conn.send with buffer := { s.conn.send.buffer with unused := u } } } := by
          cases ok <;> (simp at hc; exact hc.1.symm)
        subst hcc
        simp only [len_unused, Nat.sub_self, List.take_zero, List.append_nil]
        refine ⟨⟨⟨sendAt_unused hi.send u, hi.window, hi.sclosed, hi.acked, hi.recv, hi.rnone, hi.rsyn, hi.shiftR, hi.shiftS,
          hi.shiftN, hi.unsent, hi.sent, hi.rst⟩, hM, ho, hfull⟩, by trivial, List.prefix_refl _, rfl, (fun p hp => by cases hp)⟩
  | recv n cap =>
    simp only [Side.call, R.bind_eq_ok] at hc
    obtain ⟨⟨c', out, res⟩, hc, h2⟩ := hc
    cases h2
    cases hr : s.conn.recv with
    | none =>
      unfold Conn.recvData at hc
      rw [hr] at hc
      cases hc
    | some r =>
      obtain ⟨c2, out2, res2, D, e, k1, k2, k3, -, k5, k6, k7, k8, k9, q, k10, k11⟩ := recvData_spec hi hr n cap
      rw [e] at hc
      cases hc
      have hD : (buffered s.conn).take ((buffered s.conn).length - (buffered c').length) = D := by
        have hb : buffered s.conn = D ++ q.segments.flatten := by simp only [buffered, hr, k11]
        have hb' : (buffered c').length = q.segments.flatten.length := by rw [k10]; rfl
        rw [hb, hb', List.length_append, Nat.add_sub_cancel, List.take_left]
      simp only [hD]
      refine ⟨⟨k1, hM, ho.append k3.sublist, ?_⟩, by trivial, ?_, k2, (fun p hp => by cases hp)⟩
      · intro hff
        simp only [Bool.or_eq_false_iff] at hff
        rw [hfull hff.1, k5 (by simpa using hff.2)]
      · simp only [Side.stream, k10]
        exact List.prefix_refl _
  | fin =>
    simp only [Side.call, R.bind_eq_ok] at hc
    obtain ⟨c', hc, h2⟩ := hc
    cases h2
    cases hf : s.conn.send.buffer.finAdded with
    | true => rw [sendFin_twice hi hf] at hc; cases hc
    | false =>
      obtain ⟨c2, e, k1, k2, k3, k4, k5⟩ := sendFin_spec hi hf
      rw [e] at hc
      cases hc
      refine ⟨⟨k1, hM, ho, hfull⟩, rfl, ?_, ?_, (fun p hp => by cases hp)⟩
      · simp only [Side.stream, hf, k2]; exact stream_prefix_fin _
      · simp only [Side.got, Conn.got, k3]
  | reset =>
    cases hc
    exact ⟨⟨sendRst_inv hi, hM, ho, hfull⟩, rfl, List.prefix_refl _, rfl, (fun p hp => by cases hp)⟩
  | rstOnData =>
    cases hc
    exact ⟨⟨setSendRst_inv hi, hM, ho, hfull⟩, rfl, List.prefix_refl _, rfl, (fun p hp => by cases hp)⟩
  | pop =>
    simp only [Side.call, R.bind_eq_ok] at hc
    obtain ⟨⟨c', pk⟩, hc, h2⟩ := hc
    cases h2
    cases pk with
    | none =>
      have := popPacket_none hc
      subst this
      exact ⟨⟨hi, hM, ho, hfull⟩, rfl, List.prefix_refl _, rfl, (fun p hp => by cases hp)⟩
    | some x =>
      obtain ⟨hd, pl⟩ := x
      obtain ⟨k1, k2, k3, k4⟩ := popPacket_inv hi hc
      have hwin : s.conn.send.window < M := by have := hi.window; simp only [windowMax] at this; omega
      obtain ⟨p, n, j1, j2, j3, j4, j5, j6, j7, j8, j9, -⟩ := popPacket_spec hi.send hwin hc
      refine ⟨⟨k1, hM, ho, hfull⟩, rfl, ?_, ?_, ?_⟩
      · simp only [Side.stream, k4]; exact List.prefix_refl _
      · simp only [Side.got, Conn.got, k2]
      · intro w hw
        cases hw
        have hge := j2.ge
        have hle := j2.le
        have hb := hi.send.bound
        have hbl := streamItems_length s.written s.conn.send.buffer.finAdded
        have hitems : packetItems hd.flags pl = (List.drop p (streamItems s.written s.conn.send.buffer.finAdded)).take n := j2.items
        have hmax := j2.max
        refine ⟨⟨p, n, j1, ?_, ?_, ?_, ?_⟩, j9, ?_⟩
        · simp only [Side.stream, k4]; exact hitems
        · simp only [Side.stream, k4]; exact hle
        · simp only [Conn.sendBufMax] at hb; simp only; omega
        · have hl := congrArg List.length hitems
          rw [packetItems_length, List.length_take, List.length_drop] at hl
          have h1 : b2n hd.flags.syn ≤ 1 := by cases hd.flags.syn <;> simp [b2n]
          have h2 : b2n hd.flags.fin ≤ 1 := by cases hd.flags.fin <;> simp [b2n]
          simp only [Conn.maxBytesPerPacket] at hmax
          omega
        · intro hack
          simp only at hack
          rw [j7] at hack
          cases hr : s.conn.recv with
          | none => rw [hr] at hack; cases hack
          | some r =>
            refine ⟨(r.items s.taken).length, ?_, ?_, ?_⟩
            · simp only; rw [j8, hr]; exact (hi.recv r hr).1.end
            · have := (got_length ⟨hi, hM, ho, hfull⟩).1
              simp only [Side.got, Conn.got, hr] at this
              exact this
            · simp only [Side.got, Conn.got, k2, hr]; omega

/-! ### Delivery -/

/-- The part of a received packet that is appended continues the stream. -/
theorem append_slice {α} {S G X : List α} {sp n w : Nat} (hG : G <+: S) (hX : X = (S.drop sp).take n)
    (hsp : sp ≤ G.length) : G ++ slice G.length w sp X <+: S := by
  obtain ⟨T, rfl⟩ := hG
  rw [List.prefix_append_right_inj]
  subst hX
  simp only [slice]
  rw [List.drop_take, List.drop_drop]
  have : sp + (G.length - sp) = G.length := by omega
  rw [this, List.drop_left]
  exact (List.take_prefix _ _).trans (List.take_prefix _ _)

/-- What is known of two endpoints `x` and `y`, of which the peer has acknowledged `ax` and `ay`
    items. -/
structure Inv2 (x y : Side) (nx ny : List Wire) (ax ay : Nat) : Prop where
  cx : SideOk y.iss ax x
  cy : SideOk x.iss ay y
  xy : y.got <+: x.stream
  yx : x.got <+: y.stream
  ackx : ax ≤ y.got.length
  acky : ay ≤ x.got.length
  nx : ∀ p ∈ nx, WireOk y.iss x p
  ny : ∀ p ∈ ny, WireOk x.iss y p

theorem Inv2.symm {x y nx ny ax ay} (h : Inv2 x y nx ny ax ay) : Inv2 y x ny nx ay ax :=
  ⟨h.cy, h.cx, h.yx, h.xy, h.acky, h.ackx, h.ny, h.nx⟩

theorem wire_mono {irs x x' p} (h : WireOk irs x p) (hi : x'.iss = x.iss) (hs : x.stream <+: x'.stream)
    (hg : x.got.length ≤ x'.got.length) : WireOk irs x' p := by
  obtain ⟨⟨sp, n, h1, h2, h3, h4, h5⟩, hw, ha⟩ := h
  refine ⟨⟨sp, n, by rw [hi]; exact h1, ?_, by have := hs.length_le; omega, h4, h5⟩, hw, ?_⟩
  · obtain ⟨T, hT⟩ := hs
    rw [h2, ← hT, List.drop_append_of_le_length (by omega), List.take_append_of_le_length]
    rw [List.length_drop]; omega
  · intro hh
    obtain ⟨ap, k1, k2, k3⟩ := ha hh
    exact ⟨ap, k1, k2, by omega⟩

theorem inv_call {x y nx ny ax ay c x' o} (h : Inv2 x y nx ny ax ay) (hc : x.call c = .ok (x', o)) :
    Inv2 x' y (nx ++ o.toList) ny ax ay := by
  obtain ⟨k1, k2, k3, k4, k5⟩ := call_spec h.cx hc
  refine ⟨k1, by rw [k2]; exact h.cy, h.xy.trans k3, by rw [k4]; exact h.yx, h.ackx, by rw [k4]; exact h.acky, ?_,
    by rw [k2]; exact h.ny⟩
  intro p hp
  rcases List.mem_append.1 hp with hp | hp
  · exact wire_mono (h.nx p hp) k2 k3 (by rw [k4]; omega)
  · exact k5 p (by cases o with
      | none => cases hp
      | some q => simp at hp; rw [hp])

theorem syn_place {irs : Nat} {y : Side} {p : Wire} (h : WireOk irs y p) (hy : y.iss < M) (hs : p.hd.flags.syn = true) :
    Seq.new p.hd.seq = y.iss := by
  obtain ⟨⟨sp, n, h1, h2, h3, h4, h5⟩, -, -⟩ := h
  have hsyn : [Item.syn] <+: y.stream.drop sp := by
    have hh : (packetItems p.hd.flags p.pl).head? = some .syn := head_syn.2 hs
    rw [h2] at hh
    cases hd : y.stream.drop sp with
    | nil => rw [hd] at hh; simp at hh
    | cons z l =>
      rw [hd] at hh
      cases n with
      | zero => simp at hh
      | succ n => simp at hh; subst hh; exact ⟨l, rfl⟩
  have := syn_at hsyn
  subst this
  rw [h1, new_pos, pos_zero _ hy]

theorem inv_push {x y nx ny ax ay p x'} (h : Inv2 x y nx ny ax ay) (hp : p ∈ ny) (hf : Fresh x p)
    (hx : x.push p = .ok x') : ∃ ax', Inv2 x' y nx ny ax' ay ∧ x.got <+: x'.got ∧ x'.stream = x.stream := by
  have hwire := h.ny p hp
  have hgl := got_length h.cx
  have hyl := h.cy.inv.send.bound
  have hxl := h.cx.inv.send.bound
  have hyM := h.cy.iss
  obtain ⟨⟨sp, n, w1, w2, w3, w4, w5⟩, ww, wa⟩ := hwire
  have hb2 : b2n y.conn.send.buffer.finAdded ≤ 1 := by cases y.conn.send.buffer.finAdded <;> simp [b2n]
  have hb1 : b2n x.conn.send.buffer.finAdded ≤ 1 := by cases x.conn.send.buffer.finAdded <;> simp [b2n]
  have hL : (packetItems p.hd.flags p.pl).length ≤ n := by rw [w2, List.length_take]; omega
  simp only [Side.push, R.bind_eq_ok] at hx
  obtain ⟨⟨c', m⟩, hx, hx2⟩ := hx
  cases hx2
  obtain ⟨a', irs', k1, k2, k3, k4, k5, k6, k7⟩ := pushPacket_inv h.cx.inv ww (by simp only [Conn.recvBufMax]; omega) hx
  have hacky := h.acky
  have hackx := h.ackx
  simp only [Conn.sendBufMax] at hyl hxl
  have hys : y.stream.length ≤ ay + 100001 := by unfold Side.stream; omega
  -- the packet's place
  have hplace : Place y.iss (x.conn.got x.taken).length (sp + M) p.hd p.pl := by
    refine ⟨?_, ?_, ?_⟩
    · rw [w1, new_pos, pos_add_M]
    · have := hf.1
      simp only [Side.got] at hgl
      simp only [Conn.recvBufMax]
      omega
    · simp only [Side.got] at hacky
      omega
  -- the peer's initial sequence number
  have hirs : ConnInv x.iss x.written a' y.iss x.taken c' ∧ (c'.got x.taken = x.got ∨
      (sp ≤ x.got.length ∧ ∃ w, c'.got x.taken = x.got ++ slice x.got.length w sp (packetItems p.hd.flags p.pl))) := by
    have done : irs' = y.iss → ConnInv x.iss x.written a' y.iss x.taken c' ∧ (c'.got x.taken = x.got ∨
      (sp ≤ x.got.length ∧ ∃ w, c'.got x.taken = x.got ++ slice x.got.length w sp (packetItems p.hd.flags p.pl))) := by
      intro he
      subst he
      refine ⟨k2, ?_⟩
      rcases k7 _ hplace with hh | ⟨-, hle, w, hw⟩
      · exact .inl hh
      · right
        refine ⟨?_, w, ?_⟩
        · simp only [Side.got]; omega
        · rw [hw, slice_shift]; rfl
    cases hr : x.conn.recv with
    | some r => exact done (k5 (by rw [hr]; rfl)).1
    | none =>
      rcases k6 hr with hh | ⟨hh, hs⟩
      · refine ⟨inv_irs k2 hh _, .inl ?_⟩
        simp only [Side.got, Conn.got, hr, hh]
      · exact done (by rw [hh, syn_place (h.ny p hp) hyM hs])
  obtain ⟨i1, i2⟩ := hirs
  have hgot : c'.got x.taken <+: y.stream ∧ x.got <+: c'.got x.taken := by
    rcases i2 with hh | ⟨hle, w, hh⟩
    · rw [hh]; exact ⟨h.yx, List.prefix_refl _⟩
    · rw [hh]; exact ⟨append_slice h.yx w2 hle, List.prefix_append _ _⟩
  have hack : a' ≤ y.got.length := by
    rcases k4 with hh | ⟨q1, q2, q3⟩
    · omega
    · obtain ⟨ap, e1, e2, e3⟩ := wa q2
      have hf2 := hf.2
      have hle := i1.send.le
      have hsl : (streamItems x.written c'.send.buffer.finAdded).length ≤ x.written.length + 2 := by
        rw [streamItems_length, k3]; omega
      have hxs := h.xy.length_le
      have hxs2 : x.stream.length ≤ ax + 100001 := by unfold Side.stream; omega
      rw [e1, new_pos] at q3
      have : ap = a' := by
        rcases Nat.le_total ap a' with hh | hh
        · exact pos_inj q3 hh (by omega)
        · exact (pos_inj q3.symm hh (by omega)).symm
      omega
  refine ⟨a', ⟨⟨i1, h.cx.iss, h.cx.out, h.cx.full⟩, h.cy, ?_, hgot.1, hack, ?_, ?_, h.ny⟩, hgot.2,
    by simp only [Side.stream, k3]⟩
  · simp only [Side.stream, k3]; exact h.xy
  · have := hgot.2.length_le
    simp only [Side.got] at *
    omega
  · intro q hq
    refine wire_mono (h.nx q hq) rfl ?_ hgot.2.length_le
    simp only [Side.stream, k3]; exact List.prefix_refl _

/-! ### Every reachable world -/

theorem inv_init (addrA addrB : Addr) (issA issB : Nat) (sa sb : Bool) (hA : issA < M) (hB : issB < M) :
    Inv2 (init addrA addrB issA issB sa sb).a (init addrA addrB issA issB sa sb).b [] [] 0 0 := by
  refine ⟨⟨inv_new _ _ _ _ hA _, hA, List.Sublist.refl _, fun _ => rfl⟩, ⟨inv_new _ _ _ _ hB _, hB, List.Sublist.refl _, fun _ => rfl⟩,
    ?_, ?_, Nat.zero_le _, Nat.zero_le _, (fun p hp => by cases hp), (fun p hp => by cases hp)⟩
  · exact List.nil_prefix
  · exact List.nil_prefix

theorem inv_step {w w' ax ay} (h : Inv2 w.a w.b w.fromA w.fromB ax ay) (hs : Step w w') :
    ∃ ax' ay', Inv2 w'.a w'.b w'.fromA w'.fromB ax' ay' := by
  cases hs with
  | callA hc => exact ⟨_, _, inv_call h hc⟩
  | callB hc => exact ⟨_, _, (inv_call h.symm hc).symm⟩
  | toA hp hf hx =>
    obtain ⟨a', k, -⟩ := inv_push h hp hf hx
    exact ⟨_, _, k⟩
  | toB hp hf hx =>
    obtain ⟨a', k, -⟩ := inv_push h.symm hp hf hx
    exact ⟨_, _, k.symm⟩

theorem inv_reach {addrA addrB issA issB sa sb w} (hA : issA < M) (hB : issB < M)
    (h : Reach (init addrA addrB issA issB sa sb) w) : ∃ ax ay, Inv2 w.a w.b w.fromA w.fromB ax ay := by
  induction h with
  | refl => exact ⟨0, 0, inv_init _ _ _ _ _ _ hA hB⟩
  | step _ hs ih =>
    obtain ⟨ax, ay, ih⟩ := ih
    exact inv_step ih hs

end Shadow.Tcp.Stream
