import Verif.Base.Panic
/-!
# Formatting without memory allocation

Source: `/repo/src/lib/formatting-nostd/src/utf8.rs`, `format_buffer.rs` and `borrowed_fd_writer.rs`, used by the shim for its log messages.

Trusted: the encoding and decoding of one character of Lean's core library are those of Rust (a `Char` is a Unicode scalar value in both); `vsnprintf` writes the formatted text as far as there is room
and returns its length.  Simplification: lengths are natural numbers.  Memory that was not written is `none`, and reading it is an error like a panic.
-/
namespace Shadow.FmtBuf
open Shadow.Base

/-- The bytes of a text. -/
def enc (cs : List Char) : List UInt8 := cs.flatMap String.utf8EncodeChar

/-- The character at the beginning, if there is one. -/
def first (l : List UInt8) : Option Char := l.toByteArray.utf8DecodeChar? 0

/-- `core::str::from_utf8`. -/
def fromUtf8 : Nat → List UInt8 → Option (List Char)
  | _, [] => some []
  | 0, _ :: _ => none
  | n + 1, b :: l => match first (b :: l) with
    | none => none
    | some c => match fromUtf8 n ((b :: l).drop c.utf8Size) with
      | none => none
      | some cs => some (c :: cs)

/-- The loop of `split_at_first_char` (utf8.rs:19-23): `n` lengths from `k` on are tried. -/
def tryLens (buf : List UInt8) : Nat → Nat → Option (List Char × List UInt8)
  | _, 0 => none
  | k, n + 1 => match fromUtf8 k (buf.take k) with
    | some s => some (s, buf.drop k)
    | none => tryLens buf (k + 1) n

/-- `split_at_first_char` (utf8.rs:17-25). -/
def splitFirst (buf : List UInt8) : R (Option (List Char × List UInt8)) := do
  R.assert (!buf.isEmpty)
  R.ok (tryLens buf 1 (min 4 buf.length))

def replacement : Char := '�'

/-- The loop of `split_at_first_char_lossy` (utf8.rs:82-103). -/
def lossyLoop : Bool → List UInt8 → R (List Char × List UInt8)
  | _, [] => .panic
  | invalid, b :: t => do
    match ← splitFirst (b :: t) with
    | some (s, rest) => if invalid then R.ok ([replacement], b :: t) else R.ok (s, rest)
    | none => if t.isEmpty then R.ok ([replacement], []) else lossyLoop true t

/-- `split_at_first_char_lossy` (utf8.rs:80-104). -/
def splitLossy (buf : List UInt8) : R (List Char × List UInt8) := do
  R.assert (!buf.isEmpty)
  lossyLoop false buf

/-- `decode_lossy` (utf8.rs:124-142), all items; at most `n`. -/
def decodeLossy : Nat → List UInt8 → R (List (List Char))
  | _, [] => R.ok []
  | 0, _ :: _ => .panic
  | n + 1, b :: l => do
    let (item, next) ← splitLossy (b :: l)
    let items ← decodeLossy n next
    R.ok (item :: items)

/-- `FormatBuffer` (format_buffer.rs:27-32); the length of `mem` is `N`. -/
structure Buf where
  mem : List (Option UInt8)
  used : Nat
  trunc : Nat
deriving DecidableEq, Repr

/-- `null_terminate` (format_buffer.rs:67-69). -/
def Buf.nul (b : Buf) : R Buf := do
  R.assert (decide (b.used < b.mem.length))
  R.ok { b with mem := b.mem.set b.used (some 0) }

/-- `new` (format_buffer.rs:38-47). -/
def Buf.new (n : Nat) : R Buf := do
  R.assert (decide (1 ≤ n))
  Buf.nul { mem := List.replicate n none, used := 0, trunc := 0 }

/-- `capacity_remaining` (format_buffer.rs:50-52). -/
def Buf.remaining (b : Buf) : R Nat := do
  R.assert (decide (b.used ≤ b.mem.length - 1))
  R.ok (b.mem.length - 1 - b.used)

/-- `reset` (format_buffer.rs:75-79). -/
def Buf.reset (b : Buf) : R Buf := Buf.nul { b with used := 0, trunc := 0 }

def readAll : List (Option UInt8) → R (List UInt8)
  | [] => R.ok []
  | none :: _ => .panic
  | some x :: l => do
    let xs ← readAll l
    R.ok (x :: xs)

/-- `initd_buffer_including_null` (format_buffer.rs:82-90). -/
def Buf.initd (b : Buf) : R (List UInt8) := do
  R.assert (decide (b.used + 1 ≤ b.mem.length))
  let l ← readAll (b.mem.take (b.used + 1))
  R.assert (l.getLast? == some 0)
  R.ok l

/-- `as_str` (format_buffer.rs:101-104), the bytes. -/
def Buf.asStr (b : Buf) : R (List UInt8) := do
  let l ← b.initd
  R.ok (l.take (l.length - 1))

/-- `as_cstr` (format_buffer.rs:107-109): none if there is another zero. -/
def Buf.asCstr (b : Buf) : R (Option (List UInt8)) := do
  let l ← b.initd
  R.ok (if (l.take (l.length - 1)).contains 0 then none else some l)

/-- `write_fitting_str` (format_buffer.rs:178-192). -/
def Buf.fitting (b : Buf) (src : List UInt8) : R Buf := do
  let room ← b.remaining
  R.assert (decide (src.length ≤ room))
  Buf.nul { b with mem := b.mem.take b.used ++ src.map some ++ b.mem.drop (b.used + src.length), used := b.used + src.length }

/-- `str::is_char_boundary`: the beginning, the end, or a byte that does not continue a character. -/
def isBoundary (src : List UInt8) (i : Nat) : Bool :=
  if i = 0 then true
  else match src[i]? with
    | none => i == src.length
    | some b => decide (b.toNat < 128 ∨ 192 ≤ b.toNat)

/-- The loop that looks for a place to cut (format_buffer.rs:211-213). -/
def floorBoundary (src : List UInt8) : Nat → Nat
  | 0 => 0
  | n + 1 => if isBoundary src (n + 1) then n + 1 else floorBoundary src n

/-- `write_str` (format_buffer.rs:195-219). -/
def Buf.writeStr (b : Buf) (src : List UInt8) : R Buf :=
  if b.trunc > 0 then R.ok { b with trunc := b.trunc + src.length }
  else do
    let room ← b.remaining
    if src.length ≤ room then b.fitting src
    else
      let n := floorBoundary src room
      Buf.fitting { b with trunc := b.trunc + (src.length - n) } (src.take n)

/-- The loop of `sprintf` over the characters (format_buffer.rs:161-167). -/
def Buf.putAll (b : Buf) : List (List Char) → R Buf
  | [] => R.ok b
  | s :: rest => do
    let room ← b.remaining
    let b' ← if b.trunc > 0 ∨ (enc s).length > room then R.ok { b with trunc := b.trunc + (enc s).length } else b.fitting (enc s)
    b'.putAll rest

/-- `sprintf` (format_buffer.rs:124-175): `text` is what is formatted, none if `vsnprintf` fails. -/
def Buf.sprintf (b : Buf) : Option (List UInt8) → R Buf
  | none => .panic
  | some text => do
    let n := min (b.mem.length - 1) text.length
    let chars ← decodeLossy (text.take n).length (text.take n)
    let b' ← b.putAll chars
    Buf.nul { b' with trunc := b'.trunc + (text.length - n) }

/-- `Display` (format_buffer.rs:222-230): the text, and the count unless it is zero. -/
def Buf.display (b : Buf) : R (List UInt8 × Option Nat) := do
  let s ← b.asStr
  R.ok (s, if b.trunc = 0 then none else some b.trunc)

/-- What `write` does: it takes some bytes, is interrupted by a signal, or fails. -/
inductive Sys where
  | took (n : Nat)
  | intr
  | fail
deriving DecidableEq, Repr

/-- `BorrowedFdWriter::write_str` (borrowed_fd_writer.rs:36-52): what is left of the answers of `write`, what the file got, and whether all went well; none if there are no more answers. -/
def fdWrite : List Sys → List UInt8 → Option (List UInt8 × Bool)
  | _, [] => some ([], true)
  | [], _ :: _ => none
  | .intr :: os, b :: l => fdWrite os (b :: l)
  | .fail :: _, _ :: _ => some ([], false)
  | .took 0 :: _, _ :: _ => some ([], false)
  | .took (n + 1) :: os, b :: l => match fdWrite os ((b :: l).drop (n + 1)) with
    | none => none
    | some (w, ok) => some ((b :: l).take (n + 1) ++ w, ok)

end Shadow.FmtBuf
