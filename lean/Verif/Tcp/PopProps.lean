import Verif.Tcp.SendProps

/-!
# What a connection sends

`dataLoop_spec`: the segment built by `next_data_segment` is a piece of the stream that starts at
the first position not yet transmitted, lies inside the send window, has at most 1500 bytes of
payload, and is as long as these limits allow.
-/
namespace Shadow.Tcp.SendProps

open Shadow.Base SeqAt

/-! ### Facts about a stream -/

theorem take_add_drop {α} (L : List α) (p m n : Nat) :
    (L.drop p).take (m + n) = (L.drop p).take m ++ (L.drop (p + m)).take n := by
  rw [List.take_add, List.drop_drop]

theorem syn_at {bs : List Byte} {fin : Bool} {k : Nat} (h : [Item.syn] <+: (streamItems bs fin).drop k) :
    k = 0 := by
  cases k with
  | zero => rfl
  | succ k =>
    have hm : Item.syn ∈ (streamItems bs fin).drop (k + 1) := h.subset (by simp)
    have hm' : Item.syn ∈ bs.map Item.byte ++ if fin then [Item.fin] else [] :=
      List.mem_of_mem_drop (by simpa [streamItems] using hm)
    cases fin <;> simp at hm'

theorem fin_at {bs : List Byte} {fin : Bool} {k : Nat} (h : [Item.fin] <+: (streamItems bs fin).drop k) :
    k + 1 = (streamItems bs fin).length ∧ fin = true := by
  have hm : (streamItems bs fin)[k]? = some .fin := by
    obtain ⟨t, ht⟩ := h
    have : ((streamItems bs fin).drop k)[0]? = some .fin := by rw [← ht]; rfl
    rw [List.getElem?_drop] at this
    exact this
  cases k with
  | zero => simp [streamItems] at hm
  | succ k =>
    simp only [streamItems, List.getElem?_cons_succ] at hm
    by_cases hk : k < bs.length
    · rw [List.getElem?_append_left (by simpa using hk)] at hm
      simp [hk] at hm
    · rw [List.getElem?_append_right (by simp; omega)] at hm
      cases fin with
      | false => simp at hm
      | true =>
        simp only [if_true, List.length_map] at hm
        have : k - bs.length = 0 := by
          cases hh : k - bs.length with
          | zero => rfl
          | succ n => rw [hh] at hm; simp at hm
        refine ⟨?_, rfl⟩
        rw [streamItems_length]; simp only [b2n]; simp; omega

theorem packetItems_length (f : Flags) (p : Payload) :
    (packetItems f p).length = b2n f.syn + p.flatten.length + b2n f.fin := by
  cases hs : f.syn <;> cases hf : f.fin <;>
    simp [packetItems, hs, hf, b2n, -List.length_flatten, -List.map_flatten] <;> omega

theorem packetItems_data (f : Flags) (hf : f.fin = false) (p : Payload) (d : List Byte) :
    packetItems f (p ++ [d]) = packetItems f p ++ d.map .byte := by
  simp [packetItems, hf]

theorem packetItems_fin (f : Flags) (hf : f.fin = false) (p : Payload) :
    packetItems { f with fin := true } p = packetItems f p ++ [.fin] := by
  simp [packetItems, hf]

/-! ### The loop -/

/-- What the accumulator holds: the part of the stream from position `p0`, of length `seqLen`,
    not beyond position `lim`. -/
structure AccOk (iss : Nat) (L : List Item) (p0 lim : Nat) (a : Conn.Acc) : Prop where
  items : packetItems { syn := a.syn, fin := a.fin } a.chunks = (L.drop p0).take a.seqLen
  len : p0 + a.seqLen ≤ L.length
  lim : 0 < a.seqLen → p0 + a.seqLen ≤ lim
  payload : a.payloadLen = a.chunks.flatten.length
  max : a.payloadLen ≤ Conn.maxBytesPerPacket
  start : a.seqStart = if a.seqLen = 0 then none else some (pos iss p0)
  empty : a.seqLen = 0 → a.chunks = [] ∧ a.syn = false ∧ a.fin = false
  finEnd : a.fin = true → p0 + a.seqLen = L.length

theorem accOk_init (iss : Nat) (L : List Item) (p0 lim : Nat) (h : p0 ≤ L.length) : AccOk iss L p0 lim {} := by
  constructor <;> simp [packetItems, Conn.maxBytesPerPacket, h]

theorem AccOk.seqLen {iss L p0 lim a} (h : AccOk iss L p0 lim a) :
    a.seqLen = b2n a.syn + a.payloadLen + b2n a.fin := by
  have := congrArg List.length h.items
  rw [packetItems_length, List.length_take, List.length_drop, ← h.payload] at this
  have := h.len
  simp only at *
  omega

theorem AccOk.seqLen_le {iss L p0 lim a} (h : AccOk iss L p0 lim a) : a.seqLen ≤ 1502 := by
  have h1 := h.seqLen
  have h2 := h.max
  have : b2n a.syn ≤ 1 := by cases a.syn <;> simp [b2n]
  have : b2n a.fin ≤ 1 := by cases a.fin <;> simp [b2n]
  simp only [Conn.maxBytesPerPacket] at h2
  omega

theorem getD_start {iss L p0 lim a} (h : AccOk iss L p0 lim a) :
    a.seqStart.getD (pos iss (p0 + a.seqLen)) = pos iss p0 := by
  rw [h.start]
  by_cases h0 : a.seqLen = 0
  · rw [if_pos h0, h0]; rfl
  · rw [if_neg h0]; rfl

/-- One more segment. -/
theorem accOk_push {iss bs fin p0 lim a} {seg : Segment}
    (h : AccOk iss (streamItems bs fin) p0 lim a)
    (hlt : p0 + a.seqLen < (streamItems bs fin).length)
    (hseg : seg.items <+: (streamItems bs fin).drop (p0 + a.seqLen)) (hpos : 0 < seg.len)
    (hlim : p0 + a.seqLen < lim) (hlimM : lim < p0 + a.seqLen + M)
    (hmax : a.payloadLen ≠ Conn.maxBytesPerPacket) :
    AccOk iss (streamItems bs fin) p0 lim (a.push (pos iss lim) (pos iss (p0 + a.seqLen)) seg) ∧
      a.seqLen < (a.push (pos iss lim) (pos iss (p0 + a.seqLen)) seg).seqLen := by
  have hfin : a.fin = false := by
    cases hf : a.fin with
    | false => rfl
    | true => have := h.finEnd hf; omega
  have hg := getD_start h
  cases seg with
  | syn =>
    simp only [Conn.Acc.push, hg]
    have h0 := syn_at hseg
    have hp : p0 = 0 := by omega
    have hs : a.seqLen = 0 := by omega
    obtain ⟨hc, hsy, hfi⟩ := h.empty hs
    refine ⟨⟨?_, ?_, ?_, h.payload, h.max, ?_, ?_, ?_⟩, by simp⟩
    · simp only [hc, hfi, hs, hp]; simp [packetItems, streamItems]
    · simp only; omega
    · simp only; intro _; omega
    · simp
    · simp
    · simp only [hfi]; intro hh; cases hh
  | fin =>
    simp only [Conn.Acc.push, hg]
    obtain ⟨he, -⟩ := fin_at hseg
    refine ⟨⟨?_, ?_, ?_, h.payload, h.max, ?_, ?_, ?_⟩, by simp⟩
    · simp only
      rw [take_add_drop, ← h.items]
      have := packetItems_fin { syn := a.syn, fin := a.fin } hfin a.chunks
      simp only at this
      rw [this]
      congr 1
      obtain ⟨t, ht⟩ := hseg
      rw [← ht]; rfl
    · simp only; omega
    · simp only; intro _; omega
    · simp
    · simp
    · simp only; intro _; omega
  | data d =>
    simp only [Conn.Acc.push, hg]
    rw [sub_pos _ _ _ (by omega) hlimM]
    have hk := h.max
    generalize hA : min (Conn.maxBytesPerPacket - a.payloadLen) (lim - (p0 + a.seqLen)) = al
    have hal : 0 < al := by omega
    simp only [Segment.len] at hpos
    have hdl : (d.take (min d.length al)).length = min d.length al := by
      rw [List.length_take]; omega
    generalize hD : d.take (min d.length al) = d' at hdl ⊢
    have hlen' : d'.length ≤ d.length := by omega
    have hdseg : d'.map Item.byte = ((streamItems bs fin).drop (p0 + a.seqLen)).take d'.length := by
      obtain ⟨t, ht⟩ := hseg
      rw [← ht]
      simp only [Segment.items]
      rw [List.take_append_of_le_length (by simpa using hlen'), ← List.map_take]
      congr 1
      rw [← hD, List.length_take]
      congr 1
      omega
    have hin : p0 + a.seqLen + d'.length ≤ (streamItems bs fin).length := by
      have := congrArg List.length hdseg
      rw [List.length_map, List.length_take, List.length_drop] at this
      omega
    refine ⟨⟨?_, ?_, ?_, ?_, ?_, ?_, ?_, ?_⟩, by omega⟩
    · simp only
      have := packetItems_data { syn := a.syn, fin := a.fin } hfin a.chunks d'
      rw [this, h.items, hdseg, take_add_drop]
    · simp only; omega
    · simp only; intro _; omega
    · simp only [List.flatten_append, List.length_append, ← h.payload]; simp
    · simp only [Conn.maxBytesPerPacket] at *; omega
    · simp only; rw [if_neg (by omega)]
    · simp only; intro hh; omega
    · simp only [hfin]; intro hh; cases hh

/-- The loop from a position `p0` of the buffer. -/
theorem dataLoop_spec {iss a p0 win : Nat} {q : SendQueue} {bs : List Byte} (h : SendAt iss bs a q)
    (hp : q.transmittedUpTo = pos iss p0) (ha : a ≤ p0) (hw : win < M) :
    ∀ (fuel : Nat) (acc : Conn.Acc), 1503 ≤ fuel + acc.seqLen →
      AccOk iss (streamItems bs q.finAdded) p0 (a + win) acc →
      ∃ acc', Conn.dataLoop fuel q ⟨pos iss a, pos iss (a + win)⟩ acc = .ok acc' ∧
        AccOk iss (streamItems bs q.finAdded) p0 (a + win) acc' ∧
        (acc'.payloadLen = Conn.maxBytesPerPacket ∨
          p0 + acc'.seqLen = (streamItems bs q.finAdded).length ∨ a + win ≤ p0 + acc'.seqLen) := by
  intro fuel
  induction fuel with
  | zero =>
    intro acc hf hacc
    have := hacc.seqLen_le
    omega
  | succ fuel ih =>
    intro acc hf hacc
    have hlt := h.lt
    have hl := hacc.len
    unfold Conn.dataLoop
    rcases nextNotTransmitted_spec h acc.seqLen with ⟨e, hno⟩ | ⟨p, seg, e, hq, h1, h2, h3, h4⟩
    · rw [e, R.bind_ok]
      refine ⟨acc, rfl, hacc, ?_⟩
      right; left
      by_cases hlt' : p0 + acc.seqLen < (streamItems bs q.finAdded).length
      · exact absurd (by rw [hp, add_pos]) (hno (p0 + acc.seqLen) (by omega) hlt')
      · omega
    · rw [e, R.bind_ok]
      simp only
      have hpp : p = p0 + acc.seqLen := by
        rw [hp, add_pos] at hq
        rcases Nat.le_total p (p0 + acc.seqLen) with hle | hle
        · exact pos_inj hq.symm hle (by omega)
        · exact (pos_inj hq hle (by omega)).symm
      subst hpp
      have hc := contains_pos_pos iss a (a + win) (p0 + acc.seqLen) (by omega) (by omega) h1 (by omega)
      by_cases hwin : p0 + acc.seqLen < a + win
      · have hcc := hc.2 hwin
        rw [hcc]
        simp only [Bool.not_true, Bool.false_eq_true, if_false]
        by_cases hmax : acc.payloadLen = Conn.maxBytesPerPacket
        · rw [if_pos hmax]
          exact ⟨acc, rfl, hacc, .inl hmax⟩
        · rw [if_neg hmax]
          obtain ⟨hacc', hinc⟩ := accOk_push hacc h2 h3 h4 hwin (by omega) hmax
          exact ih _ (by omega) hacc'
      · have hcc : SeqRange.contains ⟨pos iss a, pos iss (a + win)⟩ (pos iss (p0 + acc.seqLen)) = false := by
          cases hb : SeqRange.contains ⟨pos iss a, pos iss (a + win)⟩ (pos iss (p0 + acc.seqLen)) with
          | false => rfl
          | true => exact absurd (hc.1 hb) hwin
        rw [hcc]
        exact ⟨acc, rfl, hacc, .inr (.inr (by omega))⟩

/-- `next_data_segment`: nothing, or a piece of the stream. -/
theorem nextDataSegment_spec {iss a : Nat} {c : Conn} {bs : List Byte} (h : SendAt iss bs a c.send.buffer)
    (hw : c.send.window < M) :
    (c.nextDataSegment = .ok none ∧
      ∀ p, a ≤ p → p < (streamItems bs c.send.buffer.finAdded).length → p < a + c.send.window →
        c.send.buffer.transmittedUpTo ≠ pos iss p) ∨
    ∃ p n f pl, c.nextDataSegment = .ok (some (⟨pos iss p, pos iss (p + n)⟩, f, pl)) ∧
      0 < n ∧ a ≤ p ∧ p + n ≤ (streamItems bs c.send.buffer.finAdded).length ∧ p + n ≤ a + c.send.window ∧
      c.send.buffer.transmittedUpTo = pos iss p ∧
      packetItems f pl = ((streamItems bs c.send.buffer.finAdded).drop p).take n ∧
      f.rst = false ∧ f.ack = false ∧ pl.flatten.length ≤ Conn.maxBytesPerPacket ∧
      (pl.flatten.length = Conn.maxBytesPerPacket ∨
        p + n = (streamItems bs c.send.buffer.finAdded).length ∨ p + n = a + c.send.window) := by
  have hwin : c.sendWindow = ⟨pos iss a, pos iss (a + c.send.window)⟩ := by
    simp only [Conn.sendWindow]; rw [h.start, add_pos]
  simp only [Conn.nextDataSegment, hwin]
  by_cases hex : ∃ p, a ≤ p ∧ p ≤ (streamItems bs c.send.buffer.finAdded).length ∧
      c.send.buffer.transmittedUpTo = pos iss p
  · obtain ⟨p, h1, h2, h3⟩ := hex
    obtain ⟨acc, e, hacc, hfull⟩ := dataLoop_spec h h3 h1 hw 1503 {} (Nat.le_refl _) (accOk_init _ _ _ _ h2)
    rw [e, R.bind_ok]
    by_cases h0 : acc.seqLen = 0
    · left
      obtain ⟨k1, k2, k3⟩ := hacc.empty h0
      refine ⟨?_, ?_⟩
      · simp [k1, k2, k3]
      · intro p' h1' h2' h4' h5'
        have hpay : acc.payloadLen = 0 := by rw [hacc.payload, k1]; rfl
        have hlt := h.lt
        have hpe : p = p' := by
          rw [h3] at h5'
          rcases Nat.le_total p p' with hle | hle
          · exact pos_inj h5' hle (by omega)
          · exact (pos_inj h5'.symm hle (by omega)).symm
        rcases hfull with hh | hh | hh
        · simp only [Conn.maxBytesPerPacket] at hh; omega
        · omega
        · omega
    · right
      have hne : (!List.isEmpty acc.chunks || acc.syn || acc.fin) = true := by
        cases hcs : acc.chunks with
        | cons _ _ => rfl
        | nil =>
          have h5 := hacc.seqLen
          rw [hacc.payload, hcs] at h5
          cases hs : acc.syn with
          | true => simp
          | false =>
            cases hf : acc.fin with
            | true => simp
            | false =>
              rw [hs, hf] at h5
              simp [b2n] at h5; omega
      rw [if_pos hne, hacc.start, if_neg h0]
      simp only [R.unwrap_some, R.bind_ok, R.pure_eq, add_pos]
      refine ⟨p, acc.seqLen, _, _, rfl, by omega, h1, hacc.len, hacc.lim (by omega), h3, hacc.items, rfl, rfl, ?_, ?_⟩
      · rw [← hacc.payload]; exact hacc.max
      · rw [← hacc.payload]
        have := hacc.lim (by omega)
        rcases hfull with hh | hh | hh
        · exact .inl hh
        · exact .inr (.inl hh)
        · exact .inr (.inr (by omega))
  · left
    have e0 : Conn.dataLoop 1503 c.send.buffer ⟨pos iss a, pos iss (a + c.send.window)⟩ {} = .ok {} := by
      unfold Conn.dataLoop
      rcases nextNotTransmitted_spec h 0 with ⟨e, hno⟩ | ⟨p, seg, e, hq, h1, h2, h3, h4⟩
      · simp only [e, R.bind_ok]; rfl
      · exfalso
        apply hex
        refine ⟨p, h1, by omega, ?_⟩
        rw [← hq, add_zero' h.tx]
    rw [e0, R.bind_ok]
    refine ⟨rfl, ?_⟩
    intro p h1 h2 h3 h4
    exact hex ⟨p, h1, by omega, h4⟩


/-! ### Packets -/

theorem emptySeq_spec {iss a : Nat} {c : Conn} {bs : List Byte} (h : SendAt iss bs a c.send.buffer) :
    ∃ p, c.emptySeq = .ok (pos iss p) ∧ a ≤ p ∧ p ≤ (streamItems bs c.send.buffer.finAdded).length ∧
      (c.send.buffer.transmittedUpTo = pos iss p ∨ p = (streamItems bs c.send.buffer.finAdded).length) := by
  simp only [Conn.emptySeq]
  rcases nextNotTransmitted_spec h 0 with ⟨e, -⟩ | ⟨p, seg, e, hq, h1, h2, h3, h4⟩
  · rw [e, R.bind_ok]
    exact ⟨_, by rw [h.end]; rfl, h.le, Nat.le_refl _, .inr rfl⟩
  · rw [e, R.bind_ok]
    exact ⟨p, rfl, h1, by omega, .inl (by rw [← hq, add_zero' h.tx])⟩

/-- A segment chosen by `_next_segment`. -/
structure SegOk (iss : Nat) (L : List Item) (a win tx p n : Nat) (f : Flags) (pl : Payload) : Prop where
  ge : a ≤ p
  le : p + n ≤ L.length
  items : packetItems f pl = (L.drop p).take n
  window : 0 < n → p + n ≤ a + win ∧ tx = pos iss p
  max : pl.flatten.length ≤ Conn.maxBytesPerPacket
  noAck : f.ack = false
  tx : tx = pos iss p ∨ p = L.length

theorem nextSegment_spec {iss a : Nat} {c : Conn} {bs : List Byte} (h : SendAt iss bs a c.send.buffer)
    (hw : c.send.window < M) {x : Option (SeqRange × Flags × Payload)} (hx : c.nextSegment = .ok x) :
    ∀ r f pl, x = some (r, f, pl) →
      ∃ p n, r = ⟨pos iss p, pos iss (p + n)⟩ ∧
        SegOk iss (streamItems bs c.send.buffer.finAdded) a c.send.window c.send.buffer.transmittedUpTo p n f pl ∧
        f.rst = c.needToSendRst ∧ (f.rst = true → n = 0) ∧
        (f.rst = false → f.syn = false → c.scaling.isConfigured = true) ∧ (f.rst = false → c.isReset = false) := by
  intro r f pl hr
  subst hr
  obtain ⟨p, e, h1, h2, h3⟩ := emptySeq_spec h
  simp only [Conn.nextSegment] at hx
  by_cases hrst : c.needToSendRst = true
  · rw [if_pos hrst, e] at hx
    simp only [R.bind_ok, R.pure_eq, R.ok.injEq, Option.some.injEq, Prod.mk.injEq] at hx
    obtain ⟨rfl, rfl, rfl⟩ := hx
    refine ⟨p, 0, rfl, ⟨h1, by omega, ?_, ?_, ?_, rfl, h3⟩, by simp [hrst], fun _ => rfl, ?_, ?_⟩
    · simp [packetItems]
    · intro hh; omega
    · simp [Conn.maxBytesPerPacket]
    · intro hh; cases hh
    · intro hh; cases hh
  · rw [if_neg hrst] at hx
    have hrst' : c.needToSendRst = false := by simpa using hrst
    by_cases hres : c.isReset = true
    · rw [if_pos hres] at hx; cases hx
    · rw [if_neg hres] at hx
      have hres' : c.isReset = false := by simpa using hres
      rw [R.bind_eq_ok] at hx
      obtain ⟨y, hy, hx⟩ := hx
      cases y with
      | none => simp at hx
      | some y =>
        obtain ⟨r', f', pl'⟩ := y
        simp only at hx
        have hconf : f'.syn = false → c.scaling.isConfigured = true := by
          intro hs
          cases hc : c.scaling.isConfigured with
          | true => rfl
          | false => simp [hs, hc] at hx
        have hx' : r' = r ∧ f' = f ∧ pl' = pl := by
          split at hx
          · cases hx
          · simpa using hx
        obtain ⟨rfl, rfl, rfl⟩ := hx'
        rcases nextDataSegment_spec h hw with ⟨e1, -⟩ | ⟨p', n, f1, pl1, e1, k1, k2, k3, k4, k5, k6, k7, k8, k9, -⟩
        · rw [e1, R.bind_ok] at hy
          simp only [R.bind_eq_ok] at hy
          obtain ⟨b, hb, hy⟩ := hy
          cases b with
          | false => simp at hy
          | true =>
            simp only [if_true, e, R.bind_ok, R.pure_eq, R.ok.injEq, Option.some.injEq, Prod.mk.injEq] at hy
            obtain ⟨rfl, rfl, rfl⟩ := hy
            refine ⟨p, 0, rfl, ⟨h1, by omega, ?_, ?_, ?_, rfl, h3⟩, by simp [hrst'], fun _ => rfl, fun _ => hconf, fun _ => hres'⟩
            · simp [packetItems]
            · intro hh; omega
            · simp [Conn.maxBytesPerPacket]
        · rw [e1, R.bind_ok] at hy
          simp only [R.pure_eq, R.ok.injEq, Option.some.injEq, Prod.mk.injEq] at hy
          obtain ⟨rfl, rfl, rfl⟩ := hy
          refine ⟨p', n, rfl, ⟨k2, k3, k6, fun _ => ⟨k4, k5⟩, k9, k8, .inl k5⟩, by rw [k7, hrst'], ?_,
            fun _ => hconf, fun _ => hres'⟩
          intro hh; rw [k7] at hh; cases hh

theorem contains_upTo {iss a p : Nat} {q : SendQueue} {bs : List Byte} (h : SendAt iss bs a q)
    (h1 : a ≤ p) (h2 : p ≤ (streamItems bs q.finAdded).length) :
    (q.contains (pos iss p) || pos iss p == q.endSeq) = true := by
  rw [Bool.or_eq_true]
  by_cases hp : p = (streamItems bs q.finAdded).length
  · right; rw [h.end, hp]; simp
  · left
    simp only [SendQueue.contains]
    rw [h.start, h.end]
    exact (contains_pos_pos _ _ _ _ h.le h.lt h1 (by have := h.lt; omega)).2 (by omega)

theorem markAsTransmitted_spec {iss a p : Nat} {q : SendQueue} {bs : List Byte} (h : SendAt iss bs a q)
    (h1 : a ≤ p) (h2 : p ≤ (streamItems bs q.finAdded).length) :
    q.markAsTransmitted (pos iss p) = .ok { q with transmittedUpTo := pos iss p } ∧
      SendAt iss bs a { q with transmittedUpTo := pos iss p } := by
  refine ⟨?_, ⟨h.start, h.end, h.le, h.bound, h.items, h.pos, pos_lt _ _⟩⟩
  simp only [SendQueue.markAsTransmitted, contains_upTo h h1 h2, R.assert_true, R.bind_ok, R.pure_eq]

/-- What a popped packet is and what popping changes. -/
theorem popPacket_spec {iss a : Nat} {c c' : Conn} {bs : List Byte} {h : Header} {pl : Payload}
    (hs : SendAt iss bs a c.send.buffer) (hw : c.send.window < M)
    (hx : c.popPacket = .ok (c', some (h, pl))) :
    ∃ p n, h.seq = pos iss p ∧
      SegOk iss (streamItems bs c.send.buffer.finAdded) a c.send.window c.send.buffer.transmittedUpTo p n
        { h.flags with ack := false } pl ∧
      h.src = c.localAddr ∧ h.dst = c.remoteAddr ∧
      h.flags.rst = c.needToSendRst ∧ (h.flags.rst = true → n = 0) ∧
      h.flags.ack = c.recv.isSome ∧ h.ack = (c.recv.map (fun r => r.buffer.endSeq)).getD 0 ∧
      h.windowSize < 65536 ∧
      (∃ w, c.windowFields h.flags.syn = .ok w ∧ h.windowSize = w.1 ∧ h.windowScale = w.2.1 ∧
        c' = { c with
          lastAdvertisedWindow := some w.2.2.1
          scaling := w.2.2.2
          needToAck := false
          needToSendRst := false
          send := { c.send with buffer := { c.send.buffer with transmittedUpTo := pos iss (p + n) } } }) := by
  simp only [Conn.popPacket, R.bind_eq_ok] at hx
  obtain ⟨x, hx1, hx⟩ := hx
  cases x with
  | none => simp at hx
  | some y =>
    obtain ⟨r, f, pl'⟩ := y
    obtain ⟨p, n, rfl, hseg, hr1, hr2, -, -⟩ := nextSegment_spec hs hw hx1 r f pl' rfl
    simp only [R.bind_eq_ok, R.assert_eq_ok] at hx
    obtain ⟨w, hw1, _, hw2, b, hb, hx⟩ := hx
    obtain ⟨hm, -⟩ := markAsTransmitted_spec hs (p := p + n) (by have := hseg.ge; omega) hseg.le
    rw [hm] at hb
    cases hb
    have hw2' : w.1 < 65536 := by simpa using hw2
    cases hf : f.rst with
    | true =>
      simp only [hf, if_true, R.bind_eq_ok, R.assert_eq_ok, R.pure_eq, R.ok.injEq, Prod.mk.injEq,
        Option.some.injEq] at hx
      obtain ⟨_, _, rfl, rfl, rfl⟩ := hx
      refine ⟨p, n, rfl, ⟨hseg.ge, hseg.le, hseg.items, hseg.window, hseg.max, rfl, hseg.tx⟩, rfl, rfl, ?_, ?_, ?_, rfl, hw2',
        w, hw1, rfl, rfl, rfl⟩
      · simp only [← hr1, hf]
      · simp only; intro _; exact hr2 hf
      · cases c.recv <;> rfl
    | false =>
      simp only [hf, Bool.false_eq_true, if_false, R.pure_eq, R.ok.injEq, Prod.mk.injEq, Option.some.injEq] at hx
      obtain ⟨rfl, rfl, rfl⟩ := hx
      refine ⟨p, n, rfl, ⟨hseg.ge, hseg.le, hseg.items, hseg.window, hseg.max, rfl, hseg.tx⟩, rfl, rfl, ?_, ?_, ?_, rfl, hw2',
        w, hw1, rfl, rfl, ?_⟩
      · simp only [← hr1, hf]
      · simp only; intro hh; cases hh
      · cases c.recv <;> rfl
      · have : c.needToSendRst = false := by rw [← hr1, hf]
        rw [this]

theorem popPacket_none {c c' : Conn} (hx : c.popPacket = .ok (c', none)) : c' = c := by
  simp only [Conn.popPacket, R.bind_eq_ok] at hx
  obtain ⟨x, hx1, hx⟩ := hx
  cases x with
  | none => simp at hx; exact hx.symm
  | some y =>
    exfalso
    obtain ⟨r, f, pl'⟩ := y
    simp only [R.bind_eq_ok, R.assert_eq_ok] at hx
    obtain ⟨w, hw1, _, hw2, b, hb, hx⟩ := hx
    cases hf : f.rst with
    | true => simp [hf, R.bind_eq_ok] at hx
    | false => simp [hf] at hx

end Shadow.Tcp.SendProps
