import Verif.Base.Panic

/-!
# Model of the byte queue and of readers and writers of user memory

Sources: `/repo/src/main/utility/byte_queue.rs`, `/repo/src/main/host/syscall/io.rs` (`IoVecReader`,
`IoVecWriter`).

Simplifications: bytes are values of an arbitrary type; a pre-allocated buffer is its size (that its length
equals its capacity is not modelled); whether `BytesMut::try_unsplit` can merge two buffers depends on their
addresses and is an arbitrary choice here, and if it does the result is the concatenation; an arbitrary
`std::io::Write` is a state machine whose `write` does not report `Interrupted` (a call that does is
repeated until it reports something else); the same for `read` in `read_exact`.
-/
namespace Shadow.ByteQueue

open Shadow.Base

/-- A `std::io::Read`: `read s n` fills a buffer of `n` bytes; `none` is an error. -/
structure Reader (α S : Type) where
  read : S → Nat → S × Option (List α)

/-- The result of `std::io::Write::write`. -/
inductive WRes where
  | ok (n : Nat)
  | wouldBlock
  | err
deriving Repr, DecidableEq

/-- A `std::io::Write`. -/
structure Writer (α W : Type) where
  write : W → List α → W × WRes

/-- byte_queue.rs:420-425, `ChunkType`. -/
inductive Kind where
  | stream
  | packet
deriving Repr, DecidableEq

/-- byte_queue.rs:427-431 and 481-491, `ByteChunk`; `mutable` says which variant of `BytesWrapper` it has. -/
structure Chunk (α : Type) where
  data : List α
  kind : Kind
  mutable : Bool
deriving Repr, DecidableEq

/-- byte_queue.rs:21-33, `ByteQueue`. -/
structure Queue (α : Type) where
  chunks : List (Chunk α)
  unused : Option Nat
  length : Nat
  cap : Nat
deriving Repr, DecidableEq

variable {α S W : Type}

/-- byte_queue.rs:36-45, `new`. -/
def Queue.new (cap : Nat) : Queue α := ⟨[], none, 0, cap⟩

/-- byte_queue.rs:49-51. -/
def Queue.numBytes (q : Queue α) : Nat := q.length

/-- byte_queue.rs:54-56. -/
def Queue.hasBytes (q : Queue α) : Bool := decide (q.numBytes > 0)

/-- byte_queue.rs:59-61. -/
def Queue.hasChunks (q : Queue α) : Bool := !q.chunks.isEmpty

/-- byte_queue.rs:157-163, `push_chunk`. -/
def Queue.pushChunk (q : Queue α) (data : List α) (kind : Kind) (mutable : Bool) : Queue α :=
  { q with length := q.length + data.length, chunks := q.chunks ++ [⟨data, kind, mutable⟩] }

/-- byte_queue.rs:98-124: new stream bytes are merged into the last chunk if it is a mutable stream chunk and
    `try_unsplit` succeeds. -/
def Queue.appendStream (q : Queue α) (bs : List α) (unsplit : Bool) : Queue α :=
  match q.chunks.getLast? with
  | some c =>
    if c.kind = .stream ∧ c.mutable = true ∧ unsplit = true then
      { q with chunks := q.chunks.dropLast ++ [{ c with data := c.data ++ bs }], length := q.length + bs.length }
    else q.pushChunk bs .stream true
  | none => q.pushChunk bs .stream true

/-- byte_queue.rs:75-128, the loop of `push_stream`. The result is the number of bytes copied, `none` for an
    error. `fuel` bounds the turns; running out of it is a panic here. -/
def Queue.pushLoop (r : Reader α S) (unsplit : Nat → Bool) : Nat → Queue α → S → Nat → R (Queue α × S × Option Nat)
  | 0, _, _, _ => .panic
  | fuel + 1, q, s, total =>
    let room := q.unused.getD q.cap
    match r.read s room with
    | (s', none) => .ok ({ q with unused := none }, s', none)
    | (s', some bs) => do
      R.assert (decide (bs.length ≤ room))
      let q := { q with unused := if room - bs.length = 0 then none else some (room - bs.length) }
      if bs.length = 0 then return (q, s', some total)
      else (q.appendStream bs (unsplit fuel)).pushLoop r unsplit fuel s' (total + bs.length)

/-- byte_queue.rs:74-129, `push_stream`. -/
def Queue.pushStream (q : Queue α) (r : Reader α S) (unsplit : Nat → Bool) (fuel : Nat) (s : S) :
    R (Queue α × S × Option Nat) := q.pushLoop r unsplit fuel s 0

/-- `std::io::Read::read_exact` for `n` bytes. -/
def readExact (r : Reader α S) : Nat → S → Nat → S × Option (List α)
  | _, s, 0 => (s, some [])
  | 0, s, _ + 1 => (s, none)
  | fuel + 1, s, n + 1 =>
    match r.read s (n + 1) with
    | (s', none) => (s', none)
    | (s', some []) => (s', none)
    | (s', some (b :: bs)) =>
      match readExact r fuel s' (n + 1 - (b :: bs).length) with
      | (s'', some rest) => (s'', some (b :: bs ++ rest))
      | (s'', none) => (s'', none)

/-- byte_queue.rs:132-154, `push_packet`; the result says whether it succeeded. -/
def Queue.pushPacket (q : Queue α) (r : Reader α S) (s : S) (size : Nat) : Queue α × S × Bool :=
  match readExact r size s size with
  | (s', none) => (q, s', false)
  | (s', some bs) =>
    let unused := match q.unused with
      | some u => if u ≥ size then (if u - size = 0 then none else some (u - size)) else some u
      | none => none
    (({ q with unused := unused } : Queue α).pushChunk bs .packet true, s', true)

/-- What a read got: the new queue, the writer, the bytes that the writer took, the result of the call. -/
structure Got (α W : Type) where
  queue : Queue α
  writer : W
  out : List α
  res : WRes

/-- byte_queue.rs:188-234, the loop of `pop_stream`, after `out` was written. -/
def Queue.popStream (wr : Writer α W) : Nat → Queue α → W → List α → R (Got α W)
  | 0, _, _, _ => .panic
  | fuel + 1, q, w, out =>
    match q.chunks with
    | [] => .ok ⟨q, w, out, .ok out.length⟩
    | c :: rest =>
      if c.kind ≠ .stream then .ok ⟨q, w, out, .ok out.length⟩
      else match wr.write w c.data with
        | (w', .err) => .ok ⟨q, w', out, .err⟩
        | (w', .wouldBlock) => .ok ⟨q, w', out, if out.length = 0 then .wouldBlock else .ok out.length⟩
        | (w', .ok k) => do
          R.assert (decide (k ≤ c.data.length))
          if k = 0 then return ⟨q, w', out, .ok out.length⟩
          else do
            R.assert (decide (k ≤ q.length))
            let q' := { q with length := q.length - k
                               chunks := if (c.data.drop k).isEmpty then rest else { c with data := c.data.drop k } :: rest }
            q'.popStream wr fuel w' (out ++ c.data.take k)

/-- byte_queue.rs:251-275 and 380-404: a packet is written until nothing more is taken; `none` is an error. -/
def packetLoop (wr : Writer α W) : Nat → W → List α → List α → R (W × List α × Option Nat)
  | 0, _, _, _ => .panic
  | fuel + 1, w, bytes, out =>
    match wr.write w bytes with
    | (w', .err) => .ok (w', out, none)
    | (_, .wouldBlock) => .panic
    | (w', .ok k) => do
      R.assert (decide (k ≤ bytes.length))
      if k = 0 then return (w', out, some out.length)
      else packetLoop wr fuel w' (bytes.drop k) (out ++ bytes.take k)

/-- byte_queue.rs:171-187, the values that `pop` and `peek` return: nothing there, an error, or bytes copied,
    bytes removed, and their kind. -/
inductive PopRes where
  | none
  | wouldBlock
  | err
  | some (copied removed : Nat) (kind : Kind)
deriving Repr, DecidableEq

/-- What `pop` or `peek` did. -/
structure Popped (α W : Type) where
  queue : Queue α
  writer : W
  out : List α
  res : PopRes

/-- The result of `pop_stream` or `peek_stream` as that of `pop` or `peek`. -/
def streamRes : WRes → PopRes
  | .ok n => .some n n .stream
  | .wouldBlock => .wouldBlock
  | .err => .err

/-- The result of `pop_packet` or `peek_packet` as that of `pop` or `peek`. -/
def packetRes (len : Nat) : Option Nat → PopRes
  | some n => .some n len .packet
  | none => .err

def Queue.dataLength (q : Queue α) : Nat := (q.chunks.map (·.data.length)).sum

/-- byte_queue.rs:171-275, `pop`, with `pop_packet` (236-275). -/
def Queue.pop (q : Queue α) (wr : Writer α W) (w : W) : R (Popped α W) :=
  match q.chunks with
  | [] => .ok ⟨q, w, [], .none⟩
  | c :: rest =>
    match c.kind with
    | .stream => do
      let g ← q.popStream wr (q.dataLength + 1) w []
      return ⟨g.queue, g.writer, g.out, streamRes g.res⟩
    | .packet => do
      R.assert (decide (c.data.length ≤ q.length))
      let g ← packetLoop wr (c.data.length + 1) w c.data []
      return ⟨{ q with chunks := rest, length := q.length - c.data.length }, g.1, g.2.1, packetRes c.data.length g.2.2⟩

/-- byte_queue.rs:281-301, `pop_chunk`. -/
def Queue.popChunk (q : Queue α) (sizeHint : Nat) : R (Queue α × Option (List α × Kind)) :=
  match q.chunks with
  | [] => .ok (q, none)
  | c :: rest =>
    let n := match c.kind with
      | .stream => min c.data.length sizeHint
      | .packet => c.data.length
    let chunks := match c.kind with
      | .stream => if (c.data.drop n).isEmpty then rest else { c with data := c.data.drop n } :: rest
      | .packet => rest
    do
      R.assert (decide (n ≤ q.length))
      return ({ q with chunks := chunks, length := q.length - n }, some (c.data.take n, c.kind))

/-- byte_queue.rs:339-363, the inner loop of `peek_stream`, for one chunk after `out` was written; `none` is
    "go on with the next chunk". -/
def peekChunk (wr : Writer α W) : Nat → W → List α → List α → R (W × List α × Option WRes)
  | 0, _, _, _ => .panic
  | fuel + 1, w, bytes, out =>
    match wr.write w bytes with
    | (w', .err) => .ok (w', out, some .err)
    | (w', .wouldBlock) => .ok (w', out, if out.length = 0 then some .wouldBlock else none)
    | (w', .ok k) => do
      R.assert (decide (k ≤ bytes.length))
      if k = 0 then return (w', out, none)
      else peekChunk wr fuel w' (bytes.drop k) (out ++ bytes.take k)

/-- byte_queue.rs:325-367, `peek_stream`, from the given chunk on. -/
def peekStream (wr : Writer α W) : List (Chunk α) → W → List α → R (W × List α × WRes)
  | [], w, out => .ok (w, out, .ok out.length)
  | c :: rest, w, out =>
    if c.kind ≠ .stream then .ok (w, out, .ok out.length)
    else do
      let g ← peekChunk wr (c.data.length + 1) w c.data out
      match g.2.2 with
      | some res => return (g.1, g.2.1, res)
      | none => peekStream wr rest g.1 g.2.1

/-- byte_queue.rs:308-323, `peek`, with `peek_packet` (369-405). -/
def Queue.peek (q : Queue α) (wr : Writer α W) (w : W) : R (Popped α W) :=
  match q.chunks with
  | [] => .ok ⟨q, w, [], .none⟩
  | c :: _ =>
    match c.kind with
    | .stream => do
      let g ← peekStream wr q.chunks w []
      return ⟨q, g.1, g.2.1, streamRes g.2.2⟩
    | .packet => do
      let g ← packetLoop wr (c.data.length + 1) w c.data []
      return ⟨q, g.1, g.2.1, packetRes c.data.length g.2.2⟩

/-! ### User memory -/

/-- A range of user memory to read: `none` is a byte that cannot be read. -/
abbrev Src (α : Type) := List (Option α)

/-- The bytes of a range; `none` if one of them cannot be read (`MemoryManager::copy_from_ptr`). -/
def allBytes : Src α → Option (List α)
  | [] => some []
  | none :: _ => none
  | some b :: bs => (allBytes bs).map (b :: ·)

/-- io.rs:225-266, `IoVecReader::read`: from the ranges left to read (the first is the current one). -/
def iovRead : List (Src α) → Nat → List α → List (Src α) × Option (List α)
  | [], _, got => ([], some got)
  | src :: rest, n, got =>
    if n = 0 then (src :: rest, some got)
    else
      let k := min src.length n
      match allBytes (src.take k) with
      | none => (src :: rest, if got.length = 0 then none else some got)
      | some bs =>
        if k = src.length then iovRead rest (n - k) (got ++ bs)
        else (src.drop k :: rest, some (got ++ bs))

def iovReader : Reader α (List (Src α)) := ⟨fun s n => iovRead s n []⟩

/-- `std::io::Take`: at most `limit` more bytes. -/
def takeReader (r : Reader α S) : Reader α (S × Nat) :=
  ⟨fun s n =>
    if s.2 = 0 then (s, some [])
    else match r.read s.1 (min n s.2) with
      | (s', none) => ((s', s.2), none)
      | (s', some bs) => ((s', s.2 - bs.length), some bs)⟩

/-- io.rs:300-342, `IoVecWriter::write`: a range of memory says for each byte whether it can be written. -/
def iovWrite : List (List Bool) → List α → Nat → List (List Bool) × WRes
  | [], _, done => ([], .ok done)
  | dst :: rest, buf, done =>
    if buf.length = 0 then (dst :: rest, .ok done)
    else
      let k := min dst.length buf.length
      if (dst.take k).all id = false then (dst :: rest, if done = 0 then .err else .ok done)
      else if k = dst.length then iovWrite rest (buf.drop k) (done + k)
      else (dst.drop k :: rest, .ok (done + k))

def iovWriter : Writer α (List (List Bool)) := ⟨fun w buf => iovWrite w buf 0⟩

end Shadow.ByteQueue
