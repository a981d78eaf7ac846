import Verif.Base.Panic

/-!
# Packets of the C implementation of TCP

Model of the functions with which the TCP implementation in C (`tcp.c`) fills
packets and reads them (`/repo/src/main/network/packet.rs`, module `export`).
Numbers of C are `UInt` types of the same size. Reference counts and pointers
are not modelled: a packet is a value.
-/

namespace Shadow.Pcap.Legacy

open Shadow.Base

/-! ## Byte order -/

/-- `u16::from_be` and `u16::to_be` on a little-endian machine. -/
def swap16 (x : UInt16) : UInt16 :=
  UInt16.ofNat (x.toNat % 256 * 256 + x.toNat / 256)

/-- `u32::from_be` and `u32::to_be` on a little-endian machine. -/
def swap32 (x : UInt32) : UInt32 :=
  UInt32.ofNat (x.toNat % 256 * 16777216 + x.toNat / 256 % 256 * 65536 +
    x.toNat / 65536 % 256 * 256 + x.toNat / 16777216)

/-! ## C types -/

/-- `enum _ProtocolTCPFlags` (`/repo/src/main/network/legacypacket.h` lines 17-25). -/
def PTCP_RST : UInt32 := 2
def PTCP_SYN : UInt32 := 4
def PTCP_ACK : UInt32 := 8
def PTCP_SACK : UInt32 := 16
def PTCP_FIN : UInt32 := 32
def PTCP_DUPACK : UInt32 := 64

/-- `struct _PacketSelectiveAcks` (`legacypacket.h` lines 66-72); an array of 4
ranges (start, end) is a function from the index. -/
structure CSacks where
  len : UInt32
  ranges : Nat → UInt32 × UInt32

/-- `struct _PacketTCPHeader` (`legacypacket.h` lines 78-101). -/
structure CHeader where
  flags : UInt32
  sourceIP : UInt32
  sourcePort : UInt16
  destinationIP : UInt32
  destinationPort : UInt16
  sequence : UInt32
  acknowledgment : UInt32
  selectiveACKs : CSacks
  window : UInt32
  windowScale : UInt8
  windowScaleSet : Bool
  timestampValue : UInt64
  timestampEcho : UInt64

/-! ## The packet -/

/-- `struct TcpSelectiveAcks` (`packet.rs` lines 655-660). -/
structure Sacks where
  len : UInt8
  ranges : Nat → UInt32 × UInt32

/-- `Header`, `TcpHeader` and `TcpData` (`packet.rs` lines 460-464, 539-546,
572-583) of a `Data::LegacyTcp` packet, in host byte order. -/
structure Packet where
  src : UInt32
  dst : UInt32
  srcPort : UInt16
  dstPort : UInt16
  flags : UInt8
  sequence : UInt32
  acknowledgement : UInt32
  windowSize : UInt16
  selectiveAcks : Option Sacks
  windowScale : Option UInt8
  timestamp : Option UInt32
  timestampEcho : Option UInt32
  payload : List (List UInt8)

/-- Bits of `tcp::TcpFlags` (`/repo/src/lib/tcp/src/lib.rs` lines 666-675). -/
def FIN : UInt8 := 1
def SYN : UInt8 := 2
def RST : UInt8 := 4
def ACK : UInt8 := 16
def ECE : UInt8 := 64
def CWR : UInt8 := 128

/-- `legacy_flags_to_tcp_flags` (`packet.rs` lines 1416-1444). -/
def toTcpFlags (l : UInt32) : UInt8 :=
  let t : UInt8 := 0
  let t := if l &&& PTCP_FIN ≠ 0 then t ||| FIN else t
  let t := if l &&& PTCP_SYN ≠ 0 then t ||| SYN else t
  let t := if l &&& PTCP_RST ≠ 0 then t ||| RST else t
  let t := if l &&& PTCP_ACK ≠ 0 then t ||| ACK else t
  let t := if l &&& PTCP_SACK ≠ 0 then t ||| ECE else t
  let t := if l &&& PTCP_DUPACK ≠ 0 then t ||| CWR else t
  t

/-- `tcp_flags_to_legacy_flags` (`packet.rs` lines 1446-1473). -/
def toLegacyFlags (t : UInt8) : UInt32 :=
  let l : UInt32 := 0
  let l := if t &&& FIN = FIN then l ||| PTCP_FIN else l
  let l := if t &&& SYN = SYN then l ||| PTCP_SYN else l
  let l := if t &&& RST = RST then l ||| PTCP_RST else l
  let l := if t &&& ACK = ACK then l ||| PTCP_ACK else l
  let l := if t &&& ECE = ECE then l ||| PTCP_SACK else l
  let l := if t &&& CWR = CWR then l ||| PTCP_DUPACK else l
  l

/-- `SIMTIME_INVALID` and `SIMTIME_MAX`
(`/repo/src/lib/shadow-shim-helper-rs/src/simulation_time.rs`). -/
def SIMTIME_INVALID : UInt64 := 18446744073709551615
def SIMTIME_MAX : Nat := 17500059273709551614

/-- `from_legacy_timestamp` (`packet.rs` lines 1475-1477) with `from_c_simtime`
(`simulation_time.rs` lines 38-48): milliseconds, at most `u32::MAX`. -/
def fromTimestamp (ts : UInt64) : Option UInt32 :=
  if ts = SIMTIME_INVALID then none
  else if ts.toNat > SIMTIME_MAX then none
  else
    let ms := ts.toNat / 1000000
    some (if ms < 4294967296 then UInt32.ofNat ms else 4294967295)

/-- `to_legacy_timestamp` (`packet.rs` lines 1479-1481). -/
def toTimestamp : Option UInt32 → UInt64
  | none => SIMTIME_INVALID
  | some ms => UInt64.ofNat (ms.toNat * 1000000)

/-- The array of ranges after the first `n` entries were copied from `src` into
`dst` (the loops of `packet.rs` lines 1489-1494 and 1510-1515). -/
def copyRanges (src dst : Nat → UInt32 × UInt32) (n : Nat) : Nat → UInt32 × UInt32 :=
  fun i => if i < n then src i else dst i

/-- `impl From<c::PacketSelectiveAcks> for TcpSelectiveAcks` (`packet.rs` lines
1483-1498). The array has 4 entries, so the assertion keeps the indexes in it. -/
def fromSacks (c : CSacks) : R Sacks := do
  R.assert (c.len ≤ 4)
  .ok ⟨UInt8.ofNat c.len.toNat, copyRanges c.ranges (fun _ => (0, 0)) c.len.toNat⟩

/-- `to_legacy_sel_acks` (`packet.rs` lines 1500-1518). -/
def toSacks : Option Sacks → R CSacks
  | none => .ok ⟨0, fun _ => (0, 0)⟩
  | some s => do
    R.assert (s.len ≤ 4)
    .ok ⟨UInt32.ofNat s.len.toNat, copyRanges s.ranges (fun _ => (0, 0)) s.len.toNat⟩

/-- `packet_new_tcp` (`packet.rs` lines 1089-1129). Host, number and priority of
the packet are metadata and left out. -/
def newTcp (flags : UInt32) (srcIp : UInt32) (srcPort : UInt16) (dstIp : UInt32)
    (dstPort : UInt16) (seq : UInt32) : Packet :=
  { src := swap32 srcIp, dst := swap32 dstIp, srcPort := swap16 srcPort,
    dstPort := swap16 dstPort, flags := toTcpFlags flags, sequence := seq,
    acknowledgement := 0, windowSize := 0, selectiveAcks := none, windowScale := none,
    timestamp := none, timestampEcho := none, payload := [] }

/-- `packet_updateTCP` (`packet.rs` lines 1143-1177). -/
def update (p : Packet) (ack : UInt32) (sacks : CSacks) (window : UInt32) (scale : UInt8)
    (scaleSet : Bool) (ts echo : UInt64) : R Packet := do
  let s ← fromSacks sacks
  .ok { p with
    acknowledgement := ack
    selectiveAcks := some s
    windowSize := if window.toNat < 65536 then UInt16.ofNat window.toNat else 65535
    windowScale := if scaleSet then some scale else none
    timestamp := fromTimestamp ts
    timestampEcho := fromTimestamp echo }

/-- `packet_getTCPHeader` (`packet.rs` lines 1179-1213). -/
def getHeader (p : Packet) : R CHeader := do
  let sacks ← toSacks p.selectiveAcks
  .ok
    { flags := toLegacyFlags p.flags
      sourceIP := swap32 p.src
      sourcePort := swap16 p.srcPort
      destinationIP := swap32 p.dst
      destinationPort := swap16 p.dstPort
      sequence := p.sequence
      acknowledgment := p.acknowledgement
      selectiveACKs := sacks
      window := UInt32.ofNat p.windowSize.toNat
      windowScale := p.windowScale.getD 0
      windowScaleSet := p.windowScale.isSome
      timestampValue := toTimestamp p.timestamp
      timestampEcho := toTimestamp p.timestampEcho }

/-- `packet_appendPayloadWithMemoryManager` (`packet.rs` lines 1215-1262) for the
bytes `data` read from the program; a failed read panics and is left out. -/
def append (p : Packet) (data : List UInt8) : Packet :=
  { p with payload := p.payload ++ [data] }

/-- `packet_getPayloadSize` (`packet.rs` lines 1349-1352). -/
def payloadSize (p : Packet) : Nat := p.payload.foldl (fun acc x => acc + x.length) 0

/-! ## Copying the payload out -/

/-- The writer into the memory of the program (`MemoryWriterCursor`,
`/repo/src/main/host/memory_manager/mod.rs` lines 91-107): the bytes written so
far at the start of the buffer, and the number of bytes of the buffer that can
be written before an access faults. -/
structure Dst where
  out : List UInt8
  writable : Nat
  deriving DecidableEq, Repr

/-- `write_all` of the writer for at most as many bytes as there is room. A copy
that faults writes nothing (C51). -/
def Dst.writeAll (d : Dst) (bs : List UInt8) : Option Dst :=
  if d.out.length + bs.length ≤ d.writable then some { d with out := d.out ++ bs } else none

/-- The loop of `packet_copyPayloadWithMemoryManager` (`packet.rs` lines
1297-1328): `none` is the return of `EFAULT`. -/
def copyLoop : List (List UInt8) → (srcOffset dstSpace : Nat) → Dst → Option Nat × Dst
  | [], _, space, d => (some space, d)
  | bytes :: rest, off, space, d =>
    if off ≥ bytes.length then copyLoop rest (off - bytes.length) space d
    else
      let len := min (bytes.length - off) space
      if len = 0 then (some space, d)
      else
        match d.writeAll ((bytes.take (off + len)).drop off) with
        | none => (none, d)
        | some d' => copyLoop rest 0 (space - len) d'

/-- `packet_copyPayloadWithMemoryManager` (`packet.rs` lines 1264-1340): the
number of bytes, or `none` for `EFAULT`, and the buffer. Lengths and offsets are
below 2^63. -/
def copyPayload (p : Packet) (offset dstLen writable : Nat) : Option Nat × Dst :=
  if dstLen = 0 then (some 0, ⟨[], writable⟩)
  else
    match copyLoop p.payload offset dstLen ⟨[], writable⟩ with
    | (none, d) => (none, d)
    | (some space, d) => (some (dstLen - space), d)

/-- `packet_compareTCPSequence` (`packet.rs` lines 1389-1407). -/
def compareSeq (p q : Packet) : Int :=
  if p.sequence < q.sequence then -1 else if p.sequence = q.sequence then 0 else 1

end Shadow.Pcap.Legacy
