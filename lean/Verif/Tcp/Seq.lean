/-!
# Model of TCP sequence numbers

Source: `/repo/src/lib/tcp/src/seq.rs`.

A sequence number is a `u32`; it is a natural number below `M = 2^32` here, and every operation
reduces modulo `M` (Rust's `wrapping_add` and `wrapping_sub`).
-/
namespace Shadow.Tcp

/-- The number of sequence numbers, `2^32`. -/
scoped notation "M" => (4294967296 : Nat)

/-- seq.rs:4 and 13-18, `struct Seq(u32)` and `Seq::new`: the argument is a `u32`, so the reduction is the identity on it. -/
def Seq.new (x : Nat) : Nat := x % M

/-- seq.rs:41-47 and 65-69, `Seq + u32`. -/
def Seq.add (s : Nat) (n : Nat) : Nat := (s + n) % M

/-- seq.rs:49-55, `Seq - u32`. -/
def Seq.subN (s : Nat) (n : Nat) : Nat := (s + M - n % M) % M

/-- seq.rs:57-63, `Seq - Seq`. -/
def Seq.sub (a b : Nat) : Nat := (a + M - b % M) % M

/-- seq.rs:77-85, `SeqRange`. -/
structure SeqRange where
  start : Nat
  «end» : Nat
deriving Repr, DecidableEq

namespace SeqRange

/-- seq.rs:101-104. -/
def len (r : SeqRange) : Nat := Seq.sub r.end r.start

/-- seq.rs:106-109. -/
def isEmpty (r : SeqRange) : Bool := r.len == 0

/-- seq.rs:111-115. -/
def contains (r : SeqRange) (s : Nat) : Bool := decide (len ⟨r.start, s⟩ < r.len)

/-- seq.rs:117-173, `intersection`. -/
def intersection (a b : SeqRange) : Option SeqRange :=
  if a.isEmpty then
    if b.isEmpty then (if a = b then some a else none)
    else if b.contains a.start then some a else none
  else if b.isEmpty then
    if a.contains b.start then some b else none
  else
    if b.contains a.start then
      if b.contains (Seq.subN a.end 1) then
        if Seq.sub a.start b.start < Seq.sub a.end b.start then some a else none
      else some ⟨a.start, b.end⟩
    else
      if b.contains (Seq.subN a.end 1) then some ⟨b.start, a.end⟩
      else
        if a.contains b.start && a.contains (Seq.subN b.end 1) then some b else none

end SeqRange
end Shadow.Tcp
