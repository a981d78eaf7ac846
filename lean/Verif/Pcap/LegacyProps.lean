import Verif.Pcap.Legacy

/-!
# What the C implementation of TCP puts into a packet comes out again
-/

namespace Shadow.Pcap.Legacy

open Shadow.Base

/-! ## Byte order -/

/-- The bytes of a 16 bit number. -/
theorem swap16_toNat (x : UInt16) (a b : Nat) (ha : a < 256) (hb : b < 256)
    (hx : x.toNat = a * 256 + b) : (swap16 x).toNat = b * 256 + a := by
  simp only [swap16, UInt16.toNat_ofNat']
  rw [hx, show (a * 256 + b) % 256 = b by omega, show (a * 256 + b) / 256 = a by omega]
  exact Nat.mod_eq_of_lt (by omega)

theorem swap16_swap16 (x : UInt16) : swap16 (swap16 x) = x := by
  have := x.toNat_lt
  apply UInt16.toNat_inj.1
  rw [swap16_toNat (swap16 x) (x.toNat % 256) (x.toNat / 256) (by omega) (by omega)
    (swap16_toNat x (x.toNat / 256) (x.toNat % 256) (by omega) (by omega) (by omega))]
  omega

/-- The bytes of a 32 bit number. -/
theorem swap32_toNat (x : UInt32) (a b c d : Nat) (ha : a < 256) (hb : b < 256) (hc : c < 256)
    (hd : d < 256) (hx : x.toNat = a * 16777216 + b * 65536 + c * 256 + d) :
    (swap32 x).toNat = d * 16777216 + c * 65536 + b * 256 + a := by
  simp only [swap32, UInt32.toNat_ofNat']
  rw [hx, show (a * 16777216 + b * 65536 + c * 256 + d) % 256 = d by omega,
    show (a * 16777216 + b * 65536 + c * 256 + d) / 256 % 256 = c by omega,
    show (a * 16777216 + b * 65536 + c * 256 + d) / 65536 % 256 = b by omega,
    show (a * 16777216 + b * 65536 + c * 256 + d) / 16777216 = a by omega]
  exact Nat.mod_eq_of_lt (by omega)

theorem swap32_swap32 (x : UInt32) : swap32 (swap32 x) = x := by
  have := x.toNat_lt
  have hx : x.toNat = x.toNat / 16777216 * 16777216 + x.toNat / 65536 % 256 * 65536 +
      x.toNat / 256 % 256 * 256 + x.toNat % 256 := by omega
  apply UInt32.toNat_inj.1
  rw [swap32_toNat (swap32 x) (x.toNat % 256) (x.toNat / 256 % 256) (x.toNat / 65536 % 256)
    (x.toNat / 16777216) (by omega) (by omega) (by omega) (by omega)
    (swap32_toNat x _ _ _ _ (by omega) (by omega) (by omega) (by omega) hx)]
  exact hx.symm

/-! ## Flags -/

/-- The flags the C code defines, as a mask. -/
def known : UInt32 := 126

theorem flags_small : ∀ n : Fin 128, toLegacyFlags (toTcpFlags (UInt32.ofNat n.val)) =
    UInt32.ofNat n.val &&& known := by
  decide +kernel

theorem toTcpFlags_known (l : UInt32) : toTcpFlags (l &&& known) = toTcpFlags l := by
  have h (m : UInt32) (hm : known &&& m = m) : l &&& known &&& m = l &&& m := by
    rw [UInt32.and_assoc, hm]
  simp only [toTcpFlags, h PTCP_FIN (by decide), h PTCP_SYN (by decide), h PTCP_RST (by decide),
    h PTCP_ACK (by decide), h PTCP_SACK (by decide), h PTCP_DUPACK (by decide)]

theorem flags_round (l : UInt32) : toLegacyFlags (toTcpFlags l) = l &&& known := by
  rw [← toTcpFlags_known]
  have hx : (l &&& known).toNat < 128 := by
    rw [UInt32.toNat_and]
    exact Nat.lt_of_le_of_lt Nat.and_le_right (by decide)
  have h := flags_small ⟨(l &&& known).toNat, hx⟩
  simp only [UInt32.ofNat_toNat] at h
  rw [h, UInt32.and_assoc]
  rfl

/-! ## Time stamps -/

/-- The time a receiver gets for the time `ts` (nanoseconds) put into a packet:
whole milliseconds, at most 2^32 - 1 of them. -/
def stampOf (ts : Nat) : Nat := min (ts / 1000000) 4294967295 * 1000000

theorem stamp_round (ts : UInt64) (h : ts.toNat ≤ 17500059273709551614) :
    (toTimestamp (fromTimestamp ts)).toNat = stampOf ts.toNat := by
  have hne : ts ≠ SIMTIME_INVALID := by
    intro e
    rw [e] at h
    exact absurd h (by decide)
  unfold fromTimestamp
  rw [if_neg hne, if_neg (by unfold SIMTIME_MAX; omega)]
  simp only [toTimestamp, stampOf, UInt64.toNat_ofNat']
  by_cases hm : ts.toNat / 1000000 < 4294967296
  · rw [if_pos hm, UInt32.toNat_ofNat', Nat.mod_eq_of_lt hm, Nat.min_eq_left (by omega)]
    omega
  · rw [if_neg hm, Nat.min_eq_right (by omega)]
    decide

theorem stamp_invalid (ts : UInt64) (h : 17500059273709551614 < ts.toNat) :
    toTimestamp (fromTimestamp ts) = 18446744073709551615 := by
  unfold fromTimestamp
  split
  · rfl
  · rw [if_pos (by unfold SIMTIME_MAX; omega)]; rfl

/-! ## Headers -/

/-- **C64.** A packet that the C code made and updated gives back its header:
addresses, ports, sequence and acknowledgement numbers, the flags the C code
knows, up to 4 selective acknowledgements, the window up to 65535, the window
scale if it was set, and the time stamps in whole milliseconds. -/
theorem C64_header (flags srcIp dstIp seq ack window : UInt32) (srcPort dstPort : UInt16)
    (sacks : CSacks) (scale : UInt8) (scaleSet : Bool) (ts echo : UInt64) (data : List (List UInt8))
    (hs : sacks.len.toNat ≤ 4) :
    ∃ p h, update (newTcp flags srcIp srcPort dstIp dstPort seq) ack sacks window scale scaleSet
        ts echo = .ok p ∧
      getHeader (data.foldl append p) = .ok h ∧
      h.sourceIP = srcIp ∧ h.sourcePort = srcPort ∧
      h.destinationIP = dstIp ∧ h.destinationPort = dstPort ∧
      h.sequence = seq ∧ h.acknowledgment = ack ∧
      h.flags = flags &&& 126 ∧
      h.selectiveACKs.len = sacks.len ∧
      (∀ i, i < sacks.len.toNat → h.selectiveACKs.ranges i = sacks.ranges i) ∧
      h.window.toNat = min window.toNat 65535 ∧
      h.windowScaleSet = scaleSet ∧ (scaleSet = true → h.windowScale = scale) ∧
      (ts.toNat ≤ 17500059273709551614 → h.timestampValue.toNat = stampOf ts.toNat) ∧
      (echo.toNat ≤ 17500059273709551614 → h.timestampEcho.toNat = stampOf echo.toNat) ∧
      (17500059273709551614 < echo.toNat → h.timestampEcho = 18446744073709551615) := by
  have hap : ∀ (data : List (List UInt8)) (p : Packet),
      data.foldl append p = { p with payload := p.payload ++ data } := by
    intro data
    induction data with
    | nil => intro p; simp
    | cons d ds ih => intro p; rw [List.foldl_cons, ih]; simp [append]
  have h4 : sacks.len ≤ 4 := by rw [UInt32.le_iff_toNat_le]; exact hs
  have h8 : (UInt8.ofNat sacks.len.toNat).toNat = sacks.len.toNat := by
    rw [UInt8.toNat_ofNat']; omega
  have h8' : UInt8.ofNat sacks.len.toNat ≤ 4 := by
    rw [UInt8.le_iff_toNat_le, h8]; exact hs
  refine ⟨_, _, by simp only [update, fromSacks, h4, decide_true, R.assert_true, R.bind_ok]; rfl, by
    simp only [hap, getHeader, toSacks, h8', decide_true, R.assert_true, R.bind_ok]; rfl, ?_⟩
  dsimp only [newTcp]
  refine ⟨swap32_swap32 _, swap16_swap16 _, swap32_swap32 _, swap16_swap16 _, rfl, rfl,
    flags_round _, ?_, ?_, ?_, ?_, ?_, stamp_round ts, stamp_round echo, stamp_invalid echo⟩
  · rw [h8, UInt32.ofNat_toNat]
  · intro i hi
    simp only [copyRanges, h8, hi, if_true]
  · have := window.toNat_lt
    by_cases hw : window.toNat < 65536
    · rw [if_pos hw, UInt16.toNat_ofNat', UInt32.toNat_ofNat']; omega
    · rw [if_neg hw, Nat.min_eq_right (by omega)]; decide
  · cases scaleSet <;> rfl
  · rintro rfl; rfl

/-- **C64.** More than 4 selective acknowledgements make `packet_updateTCP` panic. -/
theorem C64_too_many (p : Packet) (ack window : UInt32) (sacks : CSacks) (scale : UInt8)
    (scaleSet : Bool) (ts echo : UInt64) (hs : 4 < sacks.len.toNat) :
    update p ack sacks window scale scaleSet ts echo = .panic := by
  have h4 : ¬ sacks.len ≤ 4 := by
    rw [UInt32.le_iff_toNat_le, Nat.not_le]; exact hs
  simp only [update, fromSacks, h4, decide_false, R.assert_false, R.bind_panic]

/-- **C64.** The round trip time the sender computes from the echoed time stamp
is at least the real one and less than a millisecond more, as long as the packet
was sent in the first 2^32 milliseconds. -/
theorem C64_rtt (sent now : Nat) (h : sent ≤ now) (hs : sent < 4294967296 * 1000000) :
    now - sent ≤ now - stampOf sent ∧ now - stampOf sent < now - sent + 1000000 := by
  unfold stampOf
  rw [Nat.min_eq_left (by omega)]
  omega

/-- **Finding.** After 2^32 milliseconds (about 50 days) of simulated time, all
time stamps are equal, and the round trip time computed from them is the time
since then. -/
theorem C64_finding_stamps_stop (sent now : Nat) (hs : 4294967296 * 1000000 ≤ sent) :
    now - stampOf sent = now - 4294967295 * 1000000 := by
  unfold stampOf
  rw [Nat.min_eq_right (by omega)]

/-! ## Payload -/

/-- The bytes C has put into a packet, in order. -/
def bytesOf (p : Packet) : List UInt8 := p.payload.flatten

theorem C64_size (p : Packet) : payloadSize p = (bytesOf p).length := by
  have h : ∀ (cs : List (List UInt8)) (n : Nat),
      cs.foldl (fun acc x => acc + x.length) n = n + cs.flatten.length := by
    intro cs
    induction cs with
    | nil => intro n; simp
    | cons c cs ih =>
      intro n
      simp only [List.foldl_cons, List.flatten_cons, List.length_append, ih]; omega
  rw [payloadSize, h, bytesOf]; omega

/-- **C64.** Appended bytes come after those that are there. -/
theorem C64_append (p : Packet) (data : List UInt8) :
    bytesOf (append p data) = bytesOf p ++ data := by
  simp [bytesOf, append]

theorem copyLoop_spec (cs : List (List UInt8)) (off space : Nat) (d : Dst)
    (hd : d.out.length ≤ d.writable) :
    ∃ r d', copyLoop cs off space d = (r, d') ∧ d'.writable = d.writable ∧
      d'.out.length ≤ d'.writable ∧
      ((∃ rest, r = some rest ∧ d'.out = d.out ++ (cs.flatten.drop off).take space ∧
          rest = space - ((cs.flatten.drop off).take space).length) ∨
        (r = none ∧ (∃ n, d'.out = d.out ++ (cs.flatten.drop off).take n ∧ n ≤ space) ∧
          d.writable < d.out.length + ((cs.flatten.drop off).take space).length)) := by
  induction cs generalizing off space d with
  | nil => exact ⟨_, _, rfl, rfl, hd, .inl ⟨_, rfl, by simp, by simp⟩⟩
  | cons c cs ih =>
    simp only [copyLoop]
    by_cases ho : off ≥ c.length
    · rw [if_pos ho]
      have : (c ++ cs.flatten).drop off = cs.flatten.drop (off - c.length) := by
        rw [List.drop_append, List.drop_eq_nil_of_le ho, List.nil_append]
      rw [List.flatten_cons, this]
      exact ih (off - c.length) space d hd
    · rw [if_neg ho]
      by_cases hz : min (c.length - off) space = 0
      · rw [if_pos hz]
        have : space = 0 := by omega
        subst this
        exact ⟨_, _, rfl, rfl, hd, .inl ⟨_, rfl, by simp, by simp⟩⟩
      · rw [if_neg hz]
        generalize hn : min (c.length - off) space = n at hz ⊢
        have hpiece : (c.take (off + n)).drop off = (c.drop off).take n := by
          rw [List.drop_take, Nat.add_sub_cancel_left]
        have hlen : ((c.drop off).take n).length = n := by
          rw [List.length_take, List.length_drop]; omega
        have hdrop : (c ++ cs.flatten).drop off = c.drop off ++ cs.flatten := by
          rw [List.drop_append_of_le_length (by omega)]
        rw [List.flatten_cons, hdrop, hpiece]
        have hsplit : (c.drop off ++ cs.flatten).take space =
            (c.drop off).take n ++ (cs.flatten.drop 0).take (space - n) := by
          rw [List.drop_zero, List.take_append, List.length_drop]
          by_cases hs : space ≤ c.length - off
          · have : n = space := by omega
            rw [this, Nat.sub_self, Nat.sub_eq_zero_of_le hs, List.take_zero]
          · have : n = c.length - off := by omega
            have e1 : (c.drop off).take space = c.drop off :=
              List.take_of_length_le (by rw [List.length_drop]; omega)
            have e2 : (c.drop off).take n = c.drop off :=
              List.take_of_length_le (by rw [List.length_drop]; omega)
            rw [e1, e2, this]
        by_cases hw : d.out.length + ((c.drop off).take n).length ≤ d.writable
        · simp only [Dst.writeAll, hw, if_true]
          obtain ⟨r, d', h1, h2, h3, h4⟩ := ih 0 (space - n)
            { d with out := d.out ++ (c.drop off).take n } (by rw [List.length_append]; exact hw)
          rw [h1]
          refine ⟨r, d', rfl, h2, h3, ?_⟩
          rw [hsplit]
          rcases h4 with ⟨rest, h5, h6, h7⟩ | ⟨h5, ⟨m, h6, h6'⟩, h7⟩
          · refine .inl ⟨rest, h5, by rw [h6, List.append_assoc], ?_⟩
            rw [h7, List.length_append, hlen]; omega
          · refine .inr ⟨h5, ⟨n + m, ?_, by omega⟩, ?_⟩
            · rw [h6]
              dsimp only
              rw [List.append_assoc]
              congr 1
              by_cases hm : m = 0
              · subst hm
                rw [Nat.add_zero, List.take_append_of_le_length
                  (by rw [List.length_drop]; omega)]
                simp
              · have hfull : n = c.length - off := by omega
                have e1 : (c.drop off).take n = c.drop off :=
                  List.take_of_length_le (by rw [List.length_drop]; omega)
                have e2 : (c.drop off).take (n + m) = c.drop off :=
                  List.take_of_length_le (by rw [List.length_drop]; omega)
                rw [List.take_append, e1, e2, List.length_drop,
                  List.drop_zero, show n + m - (c.length - off) = m by omega]
            · dsimp only at h7
              rw [List.length_append] at h7 ⊢
              omega
        · simp only [Dst.writeAll, hw, if_false]
          refine ⟨_, _, rfl, rfl, hd, .inr ⟨rfl, ⟨0, by simp, Nat.zero_le _⟩, ?_⟩⟩
          rw [hsplit, List.length_append]
          omega

/-- **C64.** Copying from offset `off` into a buffer of `len` bytes returns how
many bytes there were, and the buffer then starts with exactly the bytes of the
payload from `off` on. `EFAULT` is returned only if that part of the buffer
cannot be written, and what was written before is a part of the same bytes. -/
theorem C64_copy (p : Packet) (off len writable : Nat) :
    ∃ r d, copyPayload p off len writable = (r, d) ∧
      ((r = some (min len ((bytesOf p).length - off)) ∧
          d.out = ((bytesOf p).drop off).take len) ∨
        (r = none ∧ writable < min len ((bytesOf p).length - off) ∧
          ∃ n, n ≤ len ∧ d.out = ((bytesOf p).drop off).take n)) := by
  unfold copyPayload
  by_cases h0 : len = 0
  · rw [if_pos h0]
    subst h0
    exact ⟨_, _, rfl, .inl ⟨by simp, by simp⟩⟩
  · rw [if_neg h0]
    obtain ⟨r, d, h1, h2, h3, h4⟩ := copyLoop_spec p.payload off len ⟨[], writable⟩ (Nat.zero_le _)
    have hl : (((bytesOf p).drop off).take len).length = min len ((bytesOf p).length - off) := by
      simp
    unfold bytesOf at hl ⊢
    rw [h1]
    rcases h4 with ⟨rest, rfl, h5, h6⟩ | ⟨rfl, ⟨n, h5, h5'⟩, h6⟩
    · refine ⟨_, _, rfl, .inl ⟨?_, by simpa using h5⟩⟩
      rw [h6, hl]
      congr 1
      omega
    · refine ⟨_, _, rfl, .inr ⟨rfl, ?_, n, h5', by simpa using h5⟩⟩
      dsimp only at h6
      rw [hl] at h6
      simpa using h6

/-- **C64.** If enough of the buffer can be written there is no error. -/
theorem C64_copy_ok (p : Packet) (off len writable : Nat)
    (hw : min len ((bytesOf p).length - off) ≤ writable) :
    (copyPayload p off len writable).1 = some (min len ((bytesOf p).length - off)) ∧
      (copyPayload p off len writable).2.out = ((bytesOf p).drop off).take len := by
  obtain ⟨r, d, h1, h2⟩ := C64_copy p off len writable
  rw [h1]
  rcases h2 with h2 | ⟨-, h2, -⟩
  · exact h2
  · omega

/-- A program reads a packet with buffers of these lengths, each time from where
it stopped, as `tcp.c` does (lines 2590-2616): all bytes it got. -/
def readAll (p : Packet) : Nat → List Nat → List UInt8
  | _, [] => []
  | off, len :: lens =>
    let (r, d) := copyPayload p off len len
    d.out ++ readAll p (off + r.getD 0) lens

/-- **C64.** Reading a packet piece by piece, with any buffer lengths, gives its
bytes in order, each once. -/
theorem C64_pieces (p : Packet) (off : Nat) (lens : List Nat) (ho : off ≤ (bytesOf p).length) :
    readAll p off lens = ((bytesOf p).drop off).take lens.sum := by
  induction lens generalizing off with
  | nil => simp [readAll]
  | cons len lens ih =>
    obtain ⟨h1, h2⟩ := C64_copy_ok p off len len (Nat.min_le_left _ _)
    simp only [readAll]
    rw [h1, h2, Option.getD_some, ih _ (by omega), List.sum_cons]
    rcases Nat.le_total len ((bytesOf p).length - off) with h | h
    · rw [Nat.min_eq_left h, List.take_add, List.drop_drop]
    · rw [Nat.min_eq_right h, show off + ((bytesOf p).length - off) = (bytesOf p).length by omega,
        List.drop_length, List.take_nil, List.append_nil,
        List.take_of_length_le (by rw [List.length_drop]; omega),
        List.take_of_length_le (by rw [List.length_drop]; omega)]

/-! ## Order -/

/-- **C64.** The order of packets is the order of their sequence numbers. -/
theorem C64_order (p q : Packet) :
    (compareSeq p q < 0 ↔ p.sequence.toNat < q.sequence.toNat) ∧
    (compareSeq p q = 0 ↔ p.sequence = q.sequence) ∧
    compareSeq p q = - compareSeq q p := by
  unfold compareSeq
  have e : p.sequence = q.sequence ↔ p.sequence.toNat = q.sequence.toNat := UInt32.toNat_inj.symm
  have e' : q.sequence = p.sequence ↔ q.sequence.toNat = p.sequence.toNat := UInt32.toNat_inj.symm
  simp only [UInt32.lt_iff_toNat_lt, e, e']
  split <;> split <;> (try split) <;> (try split) <;> omega

/-- **Finding.** The order does not follow the numbers when they wrap: the packet
after number 2^32 - 1 comes first. -/
theorem C64_finding_wrap (p q : Packet) (hp : p.sequence.toNat = 4294967295)
    (hq : q.sequence = p.sequence + 1) : compareSeq q p < 0 := by
  rw [(C64_order q p).1, hq, hp, UInt32.toNat_add, hp]
  decide

/-! ## Examples -/

/-- A packet with three chunks, one of them empty. -/
def exPacket : Packet :=
  [[1, 2, 3], [], [4, 5]].foldl append (newTcp (PTCP_ACK ||| PTCP_SACK) 0x0100000b 0x5000
    0x0200000b 0x1027 7)

example : exPacket.src = 0x0b000001 ∧ exPacket.srcPort = 80 ∧ bytesOf exPacket = [1, 2, 3, 4, 5] := by
  decide

example : copyPayload exPacket 2 2 2 = (some 2, ⟨[3, 4], 2⟩) := by decide

example : (copyPayload exPacket 2 2 1).1 = none := by decide

example : readAll exPacket 0 [2, 0, 2, 7] = [1, 2, 3, 4, 5] := by decide

example : stampOf 1999999 = 1000000 := by decide

/-- The hypothesis of `C64_header` holds for a packet with two ranges. -/
example : (CSacks.mk 2 fun i => (UInt32.ofNat (10 * i), UInt32.ofNat (10 * i + 3))).len.toNat ≤ 4 := by
  decide

end Shadow.Pcap.Legacy
