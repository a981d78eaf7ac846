import Verif.Base.Panic

/-!
# Packet captures

Model of the capture files Shadow writes when `pcap_enabled` is set: the limited
writer `Give` (`/repo/src/main/utility/give.rs`), the capture writer
(`/repo/src/main/utility/pcap_writer.rs`), the bytes of a packet
(`display_bytes`, `/repo/src/main/network/packet.rs`) and the call made by the
network interface for each packet (`/repo/src/main/host/network/interface.rs`).

The file system is a parameter: every write, seek and position query is
answered by an entry of `env`. An answer may accept only part of a write (even
nothing), or be an error. When `env` is used up everything is accepted. A write
that is retried because of a signal (`ErrorKind::Interrupted`) is one answer.
The buffer of `BufWriter` is not modelled: `bytes` is what the writer accepted.
-/

namespace Shadow.Pcap

open Shadow.Base

/-! ## The file behind the writer -/

/-- The kinds of `std::io::Error` the code tells apart
(`pcap_writer.rs` lines 114 and 130). -/
inductive IoErr where
  | writeZero | invalidData | other
  deriving DecidableEq, Repr

/-- One answer of the file system to a write, a seek or a position query. -/
inductive Ans where
  /-- the call fails -/
  | err (e : IoErr)
  /-- a write accepts at most this many bytes; a seek succeeds -/
  | acc (k : Nat)
  deriving DecidableEq, Repr

/-- The open file: its bytes, the position, and the answers still to come. -/
structure File where
  bytes : List UInt8
  pos : Nat
  env : List Ans
  deriving DecidableEq, Repr

/-- `std::io::Result`. -/
inductive Res (α : Type) where
  | ok (a : α)
  | error (e : IoErr)
  deriving DecidableEq, Repr

/-- Result of an I/O call: the value or error, and the file after it. -/
abbrev IoR (σ α : Type) := Res α × σ

/-- The bytes of a file after `d` was written at position `p`
(POSIX `write` on a regular file; `p` is never past the end here). -/
def overwrite (b : List UInt8) (p : Nat) (d : List UInt8) : List UInt8 :=
  b.take p ++ d ++ b.drop (p + d.length)

/-- `Write::write` of the file (`BufWriter<File>`, `interface.rs` line 48). -/
def File.write (f : File) (buf : List UInt8) : IoR File Nat :=
  match f.env with
  | [] => (.ok buf.length,
      { f with bytes := overwrite f.bytes f.pos buf, pos := f.pos + buf.length })
  | .err e :: env => (.error e, { f with env := env })
  | .acc k :: env =>
      let d := buf.take k
      (.ok d.length,
        { bytes := overwrite f.bytes f.pos d, pos := f.pos + d.length, env := env })

/-- `Seek::stream_position` of the file. -/
def File.streamPosition (f : File) : IoR File Nat :=
  match f.env with
  | [] => (.ok f.pos, f)
  | .err e :: env => (.error e, { f with env := env })
  | .acc _ :: env => (.ok f.pos, { f with env := env })

/-- `Seek::seek(SeekFrom::Start(p))` of the file. -/
def File.seek (f : File) (p : Nat) : IoR File Unit :=
  match f.env with
  | [] => (.ok (), { f with pos := p })
  | .err e :: env => (.error e, { f with env := env })
  | .acc _ :: env => (.ok (), { f with pos := p, env := env })

/-- The loop of `Write::write_all` in the standard library: write the rest until
nothing is left; a write of 0 bytes is the error `WriteZero`. The fuel is the
length of the buffer, since each turn of the loop removes at least one byte. -/
def writeLoop {σ : Type} (w : σ → List UInt8 → IoR σ Nat) :
    Nat → σ → List UInt8 → IoR σ Unit
  | 0, s, _ => (.ok (), s)
  | fuel + 1, s, buf =>
    if buf.isEmpty then (.ok (), s)
    else
      match w s buf with
      | (.error e, s') => (.error e, s')
      | (.ok n, s') =>
        if n = 0 then (.error .writeZero, s')
        else writeLoop w fuel s' (buf.drop n)

/-- `Write::write_all` (provided method of the standard library). -/
def writeAll {σ : Type} (w : σ → List UInt8 → IoR σ Nat) (s : σ) (buf : List UInt8) :
    IoR σ Unit :=
  writeLoop w buf.length s buf

/-- Several `write_all(..)?` calls in a row. -/
def writeChunks {σ : Type} (w : σ → List UInt8 → IoR σ Nat) :
    σ → List (List UInt8) → IoR σ Unit
  | s, [] => (.ok (), s)
  | s, c :: cs =>
    match writeAll w s c with
    | (.error e, s') => (.error e, s')
    | (.ok _, s') => writeChunks w s' cs

/-! ## `Give` -/

/-- `struct Give` (`/repo/src/main/utility/give.rs` lines 10-13). -/
structure Give where
  inner : File
  limit : Nat
  deriving DecidableEq, Repr

/-- `impl Write for Give`, `write` (`give.rs` lines 52-68): at most `limit`
bytes go to the inner writer; with a limit of 0 nothing is written. -/
def Give.write (g : Give) (buf : List UInt8) : IoR Give Nat :=
  if g.limit = 0 then (.ok 0, g)
  else
    let m := min buf.length g.limit
    match g.inner.write (buf.take m) with
    | (.error e, f) => (.error e, { g with inner := f })
    | (.ok n, f) => (.ok n, { inner := f, limit := g.limit - n })

/-! ## Numbers as bytes -/

/-- `u16::to_be_bytes`. -/
def be16 (x : UInt16) : List UInt8 :=
  [UInt8.ofNat (x.toNat / 256), UInt8.ofNat x.toNat]

/-- `u32::to_be_bytes`. -/
def be32 (x : UInt32) : List UInt8 :=
  [UInt8.ofNat (x.toNat / 16777216), UInt8.ofNat (x.toNat / 65536),
   UInt8.ofNat (x.toNat / 256), UInt8.ofNat x.toNat]

/-- `u16::to_ne_bytes` on the little-endian machines Shadow runs on (x86-64). -/
def ne16 (x : UInt16) : List UInt8 :=
  [UInt8.ofNat x.toNat, UInt8.ofNat (x.toNat / 256)]

/-- `u32::to_ne_bytes`, little-endian as above. -/
def ne32 (x : UInt32) : List UInt8 :=
  [UInt8.ofNat x.toNat, UInt8.ofNat (x.toNat / 256),
   UInt8.ofNat (x.toNat / 65536), UInt8.ofNat (x.toNat / 16777216)]

/-- `u16::try_from(n).unwrap()`. -/
def u16Unwrap (n : Nat) : R UInt16 :=
  if n < 65536 then .ok (UInt16.ofNat n) else .panic

/-- `u32::try_from(n).unwrap()`. -/
def u32Unwrap (n : Nat) : R UInt32 :=
  if n < 4294967296 then .ok (UInt32.ofNat n) else .panic

/-- `n.try_into().unwrap_or(u32::MAX)`. -/
def u32OrMax (n : Nat) : UInt32 :=
  if n < 4294967296 then UInt32.ofNat n else 4294967295

/-! ## Packets and their bytes -/

/-- `struct TcpHeader` (`/repo/src/main/network/packet.rs` lines 572-583). The
selective acknowledgements and timestamps are left out: neither the length nor
the bytes written depend on them. The flags are the bits of `tcp::TcpFlags`
(`/repo/src/lib/tcp/src/lib.rs` lines 665-675). -/
structure TcpHeader where
  srcPort : UInt16
  dstPort : UInt16
  flags : UInt8
  sequence : UInt32
  acknowledgement : UInt32
  windowSize : UInt16
  windowScale : Option UInt8
  deriving DecidableEq, Repr

/-- `enum Data` (`packet.rs` lines 490-496); `LegacyTcp` and `Tcp` both hold a
`TcpData` (539-546) and are written by the same function. -/
inductive Data where
  | tcp (h : TcpHeader) (payload : List (List UInt8))
  | udp (srcPort dstPort : UInt16) (payload : List UInt8)
  deriving DecidableEq, Repr

/-- A packet: `Header` (`packet.rs` lines 460-466; only IPv4 packets are ever
built) and `Data`. Metadata is never written. -/
structure Packet where
  src : UInt32
  dst : UInt32
  data : Data
  deriving DecidableEq, Repr

/-- `TcpHeader::len` (`packet.rs` lines 617-635). -/
def TcpHeader.len (h : TcpHeader) : Nat :=
  let len := 20
  let len := if h.windowScale.isSome then len + 3 else len
  if len % 4 ≠ 0 then len + (4 - len % 4) else len

/-- `TcpData::payload_len` (`packet.rs` lines 557-562); sums stay far below
2^64, so the overflow checks are left out. -/
def payloadLen (chunks : List (List UInt8)) : Nat :=
  chunks.foldl (fun acc x => acc + x.length) 0

/-- `Data::len` (`packet.rs` lines 499-505, with 553-555, 712-714, 737-740). -/
def Data.len : Data → Nat
  | .tcp h p => h.len + payloadLen p
  | .udp _ _ p => 8 + p.length

/-- `Packet::len` (`packet.rs` lines 388-394) with `Header::len` 20 (477-484). -/
def Packet.len (p : Packet) : Nat := 20 + p.data.len

/-- `IanaProtocol::number` (`packet.rs` lines 51-59). -/
def Data.protocol : Data → UInt8
  | .tcp .. => 6
  | .udp .. => 17

/-- The options array of `write_tcpdata_bytes` (`packet.rs` lines 850-868): the
first `options_len` bytes of an array of zeroes into which the window scale
option was copied. -/
def tcpOptions (h : TcpHeader) : List UInt8 :=
  let options := List.replicate 40 0
  let (options, len) : List UInt8 × Nat :=
    match h.windowScale with
    | some s => ([3, 3, s] ++ options.drop 3, 3)
    | none => (options, 0)
  let len := if len % 4 ≠ 0 then len + (4 - len % 4) else len
  options.take len

/-- `write_tcpdata_bytes` (`packet.rs` lines 845-920): the chunks passed to
`write_all`, in order. The assertion and the `unwrap` come before the first of
these writes. -/
def tcpChunks (h : TcpHeader) (payload : List (List UInt8)) : R (List (List UInt8)) := do
  let options := tcpOptions h
  let headerLen := 20 + options.length
  R.assert (headerLen == h.len)
  R.assert (headerLen < 256)
  let hl : UInt8 := UInt8.ofNat (headerLen / 4) <<< 4
  let flags := h.flags &&& ~~~(0x40 : UInt8) &&& ~~~(0x80 : UInt8)
  .ok ([be16 h.srcPort, be16 h.dstPort, be32 h.sequence, be32 h.acknowledgement,
    [hl, flags], be16 h.windowSize, be16 0, be16 0, options] ++ payload)

/-- `write_udpdata_bytes` (`packet.rs` lines 922-941). The `unwrap` of the
length comes after two writes in the code; it cannot fail when the `unwrap` of
the total length in `display_bytes` did not, so its place does not matter. -/
def udpChunks (sp dp : UInt16) (payload : List UInt8) : R (List (List UInt8)) := do
  let udpLen ← u16Unwrap (8 + payload.length)
  .ok [be16 sp, be16 dp, be16 udpLen, be16 0, payload]

/-- `display_bytes` (`packet.rs` lines 800-842): the chunks passed to
`write_all`, in order. -/
def Packet.chunks (p : Packet) : R (List (List UInt8)) := do
  let totalLength ← u16Unwrap p.len
  let rest ← match p.data with
    | .tcp h payload => tcpChunks h payload
    | .udp sp dp payload => udpChunks sp dp payload
  .ok ([[0x45, 0], be16 totalLength, be16 0, be16 0x4000, [64, p.data.protocol],
    be16 0, be32 p.src, be32 p.dst] ++ rest)

/-! ## The capture writer -/

/-- `write_header` (`/repo/src/main/utility/pcap_writer.rs` lines 24-53). -/
def headerChunks (captureLen : UInt32) : List (List UInt8) :=
  [ne32 0xA1B2C3D4, ne16 2, ne16 4, ne32 0, ne32 0, ne32 captureLen, ne32 101]

/-- `PcapWriter::new` (`pcap_writer.rs` lines 13-22) on a file. -/
def new (f : File) (captureLen : UInt32) : IoR File Unit :=
  writeChunks File.write f (headerChunks captureLen)

/-- `PcapWriter::write_packet` (`pcap_writer.rs` lines 56-80). -/
def writePacket (f : File) (captureLen sec usec : UInt32) (packet : List UInt8) :
    R (IoR File Unit) := do
  let packetLen ← u32Unwrap packet.length
  let trunc := min packetLen captureLen
  .ok (writeChunks File.write f
    [ne32 sec, ne32 usec, ne32 trunc, ne32 packetLen, packet.take trunc.toNat])

/-- The end of `write_packet_fmt` (`pcap_writer.rs` lines 134-140): go back and
write the captured length. -/
def patchLen (f : File) (posOfLen posAfter : Nat) (written : UInt32) : IoR File Unit :=
  match f.seek posOfLen with
  | (.error e, f) => (.error e, f)
  | (.ok _, f) =>
    match writeAll File.write f (ne32 written) with
    | (.error e, f) => (.error e, f)
    | (.ok _, f) =>
      match f.seek posAfter with
      | (.error e, f) => (.error e, f)
      | (.ok _, f) => (.ok (), f)

/-- The middle of `write_packet_fmt` (`pcap_writer.rs` lines 109-140): the
packet data through `Give`, the check of the number of bytes, the length. -/
def writeData (f : File) (captureLen : UInt32) (posOfLen posBefore : Nat)
    (chunks : List (List UInt8)) : R (IoR File Unit) :=
  let (r, g) := writeChunks Give.write ⟨f, captureLen.toNat⟩ chunks
  let f := g.inner
  if r = .ok () ∨ r = .error .writeZero then
    match f.streamPosition with
    | (.error e, f) => .ok (.error e, f)
    | (.ok posAfter, f) => do
      R.assert (posBefore ≤ posAfter)
      let written := posAfter - posBefore
      if written > captureLen.toNat then .ok (.error .invalidData, f)
      else do
        let w ← u32Unwrap written
        .ok (patchLen f posOfLen posAfter w)
  else .ok (r, f)

/-- `PcapWriter::write_packet_fmt` (`pcap_writer.rs` lines 85-141), called with
the packet's `display_bytes` as closure (`interface.rs` lines 203-205). The
chunks of the packet are computed first; a panic while doing so abandons the
call in either order. -/
def writePacketFmt (f : File) (captureLen sec usec packetLen : UInt32) (p : Packet) :
    R (IoR File Unit) := do
  let chunks ← p.chunks
  match writeChunks File.write f [ne32 sec, ne32 usec] with
  | (.error e, f) => .ok (.error e, f)
  | (.ok _, f) =>
    match f.streamPosition with
    | (.error e, f) => .ok (.error e, f)
    | (.ok posOfLen, f) =>
      match writeChunks File.write f [ne32 0, ne32 packetLen] with
      | (.error e, f) => .ok (.error e, f)
      | (.ok _, f) =>
        match f.streamPosition with
        | (.error e, f) => .ok (.error e, f)
        | (.ok posBefore, f) => writeData f captureLen posOfLen posBefore chunks

/-! ## The network interface -/

/-- The part of `NetworkInterface` (`interface.rs` lines 57-71) that concerns
captures: the file, and whether `pcap` is still `Some`. -/
structure Iface where
  live : Bool
  captureLen : UInt32
  file : File
  deriving DecidableEq, Repr

/-- `NetworkInterface::new` with captures enabled (`interface.rs` lines 77-110,
`setup_pcap_writer` 45-51): the file is created empty; an error leaves the
interface without captures. -/
def Iface.new (captureLen : UInt32) (env : List Ans) : Iface :=
  match Pcap.new ⟨[], 0, env⟩ captureLen with
  | (.ok _, f) => ⟨true, captureLen, f⟩
  | (.error _, f) => ⟨false, captureLen, f⟩

/-- `capture_if_configured` (`interface.rs` lines 192-215) at emulated time `now`
(nanoseconds since 1970), called for each packet the interface sends (line 252)
or receives (line 265). An error ends the capture. -/
def Iface.capture (i : Iface) (now : Nat) (p : Packet) : R Iface :=
  if i.live then do
    let sec := u32OrMax (now / 1000000000)
    let usec := UInt32.ofNat (now % 1000000000 / 1000)
    let packetLen := u32OrMax p.len
    let (r, f) ← writePacketFmt i.file i.captureLen sec usec packetLen p
    .ok { i with file := f, live := decide (r = .ok ()) }
  else .ok i

/-- The interface sends and receives packets, one after the other. -/
def Iface.captureAll : Iface → List (Nat × Packet) → R Iface
  | i, [] => .ok i
  | i, (now, p) :: rest => do
    let i ← i.capture now p
    i.captureAll rest

end Shadow.Pcap
