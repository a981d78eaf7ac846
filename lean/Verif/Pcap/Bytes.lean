import Verif.Pcap.Model

/-!
# The bytes of a captured packet

A reader for IPv4, TCP and UDP headers, written from the RFCs and independent of
the code that writes them, recovers from the bytes of `display_bytes` the
addresses, ports, sequence numbers, flags, window, window scale and payload of
the packet. The number of bytes is `Packet::len`.
-/

namespace Shadow.Pcap

open Shadow.Base

/-! ## Specification: reading network packets -/

/-- A 16 bit number in network order. -/
def num2 (a b : UInt8) : Nat := a.toNat * 256 + b.toNat

/-- A 32 bit number in network order. -/
def num4 (a b c d : UInt8) : Nat :=
  ((a.toNat * 256 + b.toNat) * 256 + c.toNat) * 256 + d.toNat

/-- The control bits of a TCP header (RFC 9293, 3.1). -/
structure Flags where
  fin : Bool
  syn : Bool
  rst : Bool
  psh : Bool
  ack : Bool
  urg : Bool
  ece : Bool
  cwr : Bool
  deriving DecidableEq, Repr

/-- Bit `i` of a number. -/
def bit (n i : Nat) : Bool := n / 2 ^ i % 2 == 1

/-- The control bits in a byte. -/
def flagsOf (n : Nat) : Flags :=
  ⟨bit n 0, bit n 1, bit n 2, bit n 3, bit n 4, bit n 5, bit n 6, bit n 7⟩

/-- What a reader learns from a packet above the IP layer. -/
inductive Transport where
  | tcp (srcPort dstPort seq ack : Nat) (flags : Flags) (window : Nat)
      (scale : Option Nat) (payload : List UInt8)
  | udp (srcPort dstPort : Nat) (payload : List UInt8)
  deriving DecidableEq, Repr

/-- What a reader learns from a packet. -/
structure View where
  src : Nat
  dst : Nat
  ttl : Nat
  body : Transport
  deriving DecidableEq, Repr

/-- The window scale among TCP options (RFC 9293, 3.2 and RFC 7323, 2.2):
kind 0 ends the list, kind 1 is one byte, others carry their length. -/
def readScale : Nat → List UInt8 → Option Nat
  | 0, _ => none
  | _ + 1, [] => none
  | fuel + 1, k :: rest =>
    if k = 0 then none
    else if k = 1 then readScale fuel rest
    else match rest with
      | [] => none
      | len :: body =>
        if k = 3 ∧ len = 3 then body.head?.map UInt8.toNat
        else if len.toNat < 2 then none
        else readScale fuel (body.drop (len.toNat - 2))

/-- A TCP segment (RFC 9293, 3.1). -/
def readTcp : List UInt8 → Option Transport
  | sp1 :: sp2 :: dp1 :: dp2 :: s1 :: s2 :: s3 :: s4 :: a1 :: a2 :: a3 :: a4 ::
    off :: fl :: w1 :: w2 :: _c1 :: _c2 :: _u1 :: _u2 :: rest =>
    let opts := off.toNat / 16 * 4 - 20
    if 5 ≤ off.toNat / 16 ∧ opts ≤ rest.length then
      some (.tcp (num2 sp1 sp2) (num2 dp1 dp2) (num4 s1 s2 s3 s4) (num4 a1 a2 a3 a4)
        (flagsOf fl.toNat) (num2 w1 w2) (readScale opts (rest.take opts)) (rest.drop opts))
    else none
  | _ => none

/-- A UDP datagram (RFC 768). -/
def readUdp : List UInt8 → Option Transport
  | sp1 :: sp2 :: dp1 :: dp2 :: l1 :: l2 :: _c1 :: _c2 :: rest =>
    if num2 l1 l2 = 8 + rest.length then some (.udp (num2 sp1 sp2) (num2 dp1 dp2) rest)
    else none
  | _ => none

/-- An unfragmented IPv4 packet without options (RFC 791, 3.1) that carries TCP
or UDP. The total length must be the number of bytes. -/
def readIp : List UInt8 → Option View
  | v :: _tos :: l1 :: l2 :: _i1 :: _i2 :: f1 :: f2 :: ttl :: proto :: _c1 :: _c2 ::
    s1 :: s2 :: s3 :: s4 :: d1 :: d2 :: d3 :: d4 :: rest =>
    if v.toNat / 16 = 4 ∧ v.toNat % 16 = 5 ∧ num2 l1 l2 = 20 + rest.length ∧
        num2 f1 f2 % 8192 = 0 ∧ num2 f1 f2 / 8192 % 2 = 0 then
      let body := if proto.toNat = 6 then readTcp rest
        else if proto.toNat = 17 then readUdp rest else none
      body.map fun b => ⟨num4 s1 s2 s3 s4, num4 d1 d2 d3 d4, ttl.toNat, b⟩
    else none
  | _ => none

/-- The number of bytes of a packet on the wire. -/
def sizeOf : Packet → Nat
  | ⟨_, _, .tcp h chunks⟩ =>
    20 + 20 + (match h.windowScale with | some _ => 4 | none => 0) + chunks.flatten.length
  | ⟨_, _, .udp _ _ payload⟩ => 20 + 8 + payload.length

/-- What a reader should learn from a packet: its fields, without the two
control bits Shadow uses for other purposes, and with a TTL of 64. -/
def viewOf : Packet → View
  | ⟨s, d, .tcp h chunks⟩ =>
    ⟨s.toNat, d.toNat, 64,
      .tcp h.srcPort.toNat h.dstPort.toNat h.sequence.toNat h.acknowledgement.toNat
        { flagsOf h.flags.toNat with ece := false, cwr := false }
        h.windowSize.toNat (h.windowScale.map UInt8.toNat) chunks.flatten⟩
  | ⟨s, d, .udp sp dp payload⟩ =>
    ⟨s.toNat, d.toNat, 64, .udp sp.toNat dp.toNat payload⟩

/-! ## Numbers -/

theorem num2_be16 (x : UInt16) :
    num2 (UInt8.ofNat (x.toNat / 256)) (UInt8.ofNat x.toNat) = x.toNat := by
  have := x.toNat_lt
  simp only [num2, UInt8.toNat_ofNat']
  omega

theorem num4_be32 (x : UInt32) :
    num4 (UInt8.ofNat (x.toNat / 16777216)) (UInt8.ofNat (x.toNat / 65536))
      (UInt8.ofNat (x.toNat / 256)) (UInt8.ofNat x.toNat) = x.toNat := by
  have := x.toNat_lt
  simp only [num4, UInt8.toNat_ofNat']
  omega

theorem flags_kept : ∀ n : Fin 256,
    flagsOf (UInt8.ofNat n.val &&& ~~~(0x40 : UInt8) &&& ~~~(0x80 : UInt8)).toNat =
      { flagsOf n.val with ece := false, cwr := false } := by
  decide +kernel

theorem flags_kept' (x : UInt8) :
    flagsOf (x &&& ~~~(0x40 : UInt8) &&& ~~~(0x80 : UInt8)).toNat =
      { flagsOf x.toNat with ece := false, cwr := false } := by
  have h := flags_kept ⟨x.toNat, x.toNat_lt⟩
  simpa using h

theorem payloadLen_eq (cs : List (List UInt8)) : payloadLen cs = cs.flatten.length := by
  have h : ∀ (cs : List (List UInt8)) (n : Nat),
      cs.foldl (fun acc x => acc + x.length) n = n + cs.flatten.length := by
    intro cs
    induction cs with
    | nil => intro n; simp
    | cons c cs ih => intro n; simp only [List.foldl_cons, List.flatten_cons, List.length_append, ih]; omega
  rw [payloadLen, h]; omega

/-- `Packet::len` is the size on the wire. -/
theorem len_eq (p : Packet) : p.len = sizeOf p := by
  obtain ⟨s, d, data⟩ := p
  cases data with
  | tcp h cs =>
    simp only [Packet.len, Data.len, sizeOf, payloadLen_eq, TcpHeader.len]
    cases h.windowScale <;> simp <;> omega
  | udp sp dp pl => simp only [Packet.len, Data.len, sizeOf]; omega

theorem u16_ok {n : Nat} (h : n ≤ 65535) : u16Unwrap n = .ok (UInt16.ofNat n) :=
  if_pos (by omega)

theorem num2_ofNat {n : Nat} (h : n ≤ 65535) :
    num2 (UInt8.ofNat ((UInt16.ofNat n).toNat / 256)) (UInt8.ofNat (UInt16.ofNat n).toNat) = n := by
  rw [num2_be16, UInt16.toNat_ofNat']
  exact Nat.mod_eq_of_lt (by omega)

theorem tcpOptions_none {h : TcpHeader} (e : h.windowScale = none) : tcpOptions h = [] := by
  simp [tcpOptions, e]

theorem tcpOptions_some {h : TcpHeader} {s : UInt8} (e : h.windowScale = some s) :
    tcpOptions h = [3, 3, s, 0] := by
  simp [tcpOptions, e, List.replicate]

theorem tcpChunks_ok (h : TcpHeader) (payload : List (List UInt8)) :
    tcpChunks h payload = .ok ([be16 h.srcPort, be16 h.dstPort, be32 h.sequence,
      be32 h.acknowledgement,
      [UInt8.ofNat ((20 + (tcpOptions h).length) / 4) <<< 4,
        h.flags &&& ~~~(0x40 : UInt8) &&& ~~~(0x80 : UInt8)],
      be16 h.windowSize, be16 0, be16 0, tcpOptions h] ++ payload) := by
  have h1 : (20 + (tcpOptions h).length == h.len) = true ∧ 20 + (tcpOptions h).length < 256 := by
    cases e : h.windowScale with
    | none => rw [tcpOptions_none e]; simp [TcpHeader.len, e]
    | some s => rw [tcpOptions_some e]; simp [TcpHeader.len, e]
  unfold tcpChunks
  simp only [h1.1, h1.2, decide_true, R.assert_true, R.bind_ok]

theorem readTcp_chunks (h : TcpHeader) (payload : List (List UInt8)) :
    ∃ cs, tcpChunks h payload = .ok cs ∧
      cs.flatten.length = 20 + (match h.windowScale with | some _ => 4 | none => 0)
        + payload.flatten.length ∧
      readTcp cs.flatten =
        some (.tcp h.srcPort.toNat h.dstPort.toNat h.sequence.toNat h.acknowledgement.toNat
          { flagsOf h.flags.toNat with ece := false, cwr := false }
          h.windowSize.toNat (h.windowScale.map UInt8.toNat) payload.flatten) := by
  refine ⟨_, tcpChunks_ok h payload, ?_⟩
  cases e : h.windowScale with
  | none =>
    rw [tcpOptions_none e]
    constructor
    · simp [be16, be32, -List.length_flatten]; omega
    · simp only [be16, be32, List.flatten_cons, List.cons_append,
        List.nil_append, readTcp, num2_be16, num4_be32, flags_kept']
      rw [if_pos ⟨by decide, by simp⟩]
      simp [readScale]
  | some s =>
    rw [tcpOptions_some e]
    constructor
    · simp [be16, be32, -List.length_flatten]; omega
    · simp only [be16, be32, List.flatten_cons, List.cons_append,
        List.nil_append, readTcp, num2_be16, num4_be32, flags_kept']
      rw [if_pos ⟨by simp only [List.length_cons, List.length_nil]; decide, by simp⟩]
      simp [readScale]

theorem readUdp_chunks (sp dp : UInt16) (payload : List UInt8) (hl : 8 + payload.length ≤ 65535) :
    ∃ cs, udpChunks sp dp payload = .ok cs ∧
      cs.flatten.length = 8 + payload.length ∧
      readUdp cs.flatten = some (.udp sp.toNat dp.toNat payload) := by
  refine ⟨_, by simp only [udpChunks, u16_ok hl]; rfl, ?_, ?_⟩
  · simp [be16]; omega
  · simp only [be16, List.flatten_cons, List.flatten_nil, List.append_nil, List.cons_append,
      List.nil_append, readUdp, num2_be16]
    rw [if_pos (by rw [UInt16.toNat_ofNat', Nat.mod_eq_of_lt (by omega)])]

/-- **C63.** Every packet of at most 65535 bytes has bytes; their number is the
length Shadow gives for the packet, and a reader of IPv4, TCP and UDP headers
gets back its addresses, ports, sequence numbers, control bits (without ECE and
CWR), window, window scale and payload. -/
theorem C63_packet_bytes (p : Packet) (h : sizeOf p ≤ 65535) :
    ∃ cs, p.chunks = .ok cs ∧ cs.flatten.length = sizeOf p ∧
      readIp cs.flatten = some (viewOf p) := by
  have hl := len_eq p
  have h' : p.len ≤ 65535 := by omega
  obtain ⟨s, d, data⟩ := p
  cases data with
  | tcp hd pl =>
    obtain ⟨cs, h1, h2, h3⟩ := readTcp_chunks hd pl
    simp only [sizeOf] at h hl ⊢
    refine ⟨_, by simp only [Packet.chunks, u16_ok h', h1]; rfl, ?_, ?_⟩
    · simp [be16, be32, -List.length_flatten, h2]; omega
    · simp only [be16, be32, List.flatten_cons, List.cons_append,
        List.nil_append, readIp, num4_be32, num2_be16,
        h2, Data.protocol, h3]
      rw [if_pos ⟨by decide, by decide, by rw [UInt16.toNat_ofNat', Nat.mod_eq_of_lt (by omega)]; omega,
        by decide, by decide⟩]
      simp [viewOf]
  | udp sp dp pl =>
    simp only [sizeOf] at h hl ⊢
    obtain ⟨cs, h1, h2, h3⟩ := readUdp_chunks sp dp pl (by omega)
    refine ⟨_, by simp only [Packet.chunks, u16_ok h', h1]; rfl, ?_, ?_⟩
    · simp [be16, be32, -List.length_flatten, h2]; omega
    · simp only [be16, be32, List.flatten_cons, List.cons_append,
        List.nil_append, readIp, num4_be32, num2_be16,
        h2, Data.protocol, h3]
      rw [if_pos ⟨by decide, by decide, by rw [UInt16.toNat_ofNat', Nat.mod_eq_of_lt (by omega)]; omega,
        by decide, by decide⟩]
      simp [viewOf]

/-- **C63.** A larger packet makes the capture panic. -/
theorem C63_packet_too_long (p : Packet) (h : 65535 < sizeOf p) : p.chunks = .panic := by
  have hl := len_eq p
  unfold Packet.chunks
  rw [u16Unwrap, if_neg (by omega)]
  rfl

/-- A SYN with a window scale and payload in two chunks. -/
example : sizeOf ⟨0x0b000001, 0x0b000002, .tcp ⟨10000, 80, 0x82, 7, 0, 65535, some 5⟩ [[1, 2], [3]]⟩
    = 47 := by decide

example : (do
      let cs ← Packet.chunks
        ⟨0x0b000001, 0x0b000002, .tcp ⟨10000, 80, 0x82, 7, 0, 65535, some 5⟩ [[1, 2], [3]]⟩
      (.ok (readIp cs.flatten) : R _)) =
    .ok (some ⟨0x0b000001, 0x0b000002, 64,
      .tcp 10000 80 7 0 ⟨false, true, false, false, false, false, false, false⟩ 65535 (some 5)
        [1, 2, 3]⟩) := by
  decide +kernel

end Shadow.Pcap
