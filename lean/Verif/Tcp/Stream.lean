import Verif.Tcp.PushProps

/-!
# Two connected endpoints and a network

The world in which the stream properties are stated: two connections, applications that call them
in any order, and a network that loses, duplicates and reorders packets in any way (a packet that
was once sent may be delivered any number of times, at any later time).

The only restriction is the lifetime of packets (`Fresh`): sequence numbers have 32 bits, and a
packet may not be delivered after about `2^32` bytes have gone by.
-/
namespace Shadow.Tcp.Stream

open Shadow.Base

/-- An endpoint, and what its application did: the bytes it has written, the bytes that were taken
    out of the receive buffer for it, the bytes that reached its own buffer, and whether one of its
    reads failed in the middle. -/
structure Side where
  iss : Nat
  conn : Conn
  written : List Byte := []
  taken : List Byte := []
  out : List Byte := []
  failed : Bool := false
deriving Repr, DecidableEq

/-- Bytes received and not yet taken out. -/
def buffered (c : Conn) : List Byte :=
  match c.recv with
  | none => []
  | some r => r.buffer.segments.flatten

/-- The number of bytes received in order so far. -/
def Side.received (s : Side) : Nat := s.taken.length + (buffered s.conn).length

/-- A packet in the network, with the number of bytes that its sender had written and received
    when it was sent. -/
structure Wire where
  hd : Header
  pl : Payload
  written : Nat
  received : Nat
deriving Repr, DecidableEq

/-- What the state machine above may do with a connection, at any time. -/
inductive Call where
  | send (src : List Byte) (n : Nat)
  | recv (n cap : Nat)
  | fin
  | reset
  | rstOnData
  | pop
deriving Repr, DecidableEq

def Side.call (s : Side) : Call → R (Side × Option Wire)
  | .send src n => do
    let r ← s.conn.sendData src n
    return ({ s with
      conn := r.1
      written := s.written ++ src.take (r.1.send.buffer.len - s.conn.send.buffer.len) }, none)
  | .recv n cap => do
    let r ← s.conn.recvData n cap
    return ({ s with
      conn := r.1
      taken := s.taken ++ (buffered s.conn).take ((buffered s.conn).length - (buffered r.1).length)
      out := s.out ++ r.2.1
      failed := s.failed || r.2.2 == .io }, none)
  | .fin => do
    let c ← s.conn.sendFin
    return ({ s with conn := c }, none)
  | .reset => return ({ s with conn := s.conn.sendRst }, none)
  | .rstOnData => return ({ s with conn := s.conn.setSendRstIfRecvPayload }, none)
  | .pop => do
    let r ← s.conn.popPacket
    return ({ s with conn := r.1 }, r.2.map (fun p => ⟨p.1, p.2, s.written.length, s.received⟩))

/-- A packet arrives. -/
def Side.push (s : Side) (p : Wire) : R Side := do
  let r ← s.conn.pushPacket p.hd p.pl
  return { s with conn := r.1 }

/-- The packet is not too old for `s`: since it was sent, not more than about `2^32` bytes went by
    in either direction. -/
def Fresh (s : Side) (p : Wire) : Prop :=
  s.received + 200010 ≤ p.written + M ∧ s.written.length + 100010 ≤ p.received + M

instance (s : Side) (p : Wire) : Decidable (Fresh s p) := inferInstanceAs (Decidable (_ ∧ _))

structure World where
  a : Side
  b : Side
  fromA : List Wire := []
  fromB : List Wire := []
deriving Repr, DecidableEq

/-- Two new connections with each other's addresses and any initial sequence numbers. -/
def init (addrA addrB : Addr) (issA issB : Nat) (scaleA scaleB : Bool) : World where
  a := { iss := issA, conn := Conn.new addrA addrB issA scaleA }
  b := { iss := issB, conn := Conn.new addrB addrA issB scaleB }

inductive Step : World → World → Prop where
  | callA {w c a' o} : w.a.call c = .ok (a', o) → Step w { w with a := a', fromA := w.fromA ++ o.toList }
  | callB {w c b' o} : w.b.call c = .ok (b', o) → Step w { w with b := b', fromB := w.fromB ++ o.toList }
  | toA {w p a'} : p ∈ w.fromB → Fresh w.a p → w.a.push p = .ok a' → Step w { w with a := a' }
  | toB {w p b'} : p ∈ w.fromA → Fresh w.b p → w.b.push p = .ok b' → Step w { w with b := b' }

inductive Reach (w0 : World) : World → Prop where
  | refl : Reach w0 w0
  | step {w w'} : Reach w0 w → Step w w' → Reach w0 w'

/-- An executable run, for examples. -/
inductive Act where
  | callA (c : Call)
  | callB (c : Call)
  | toA (i : Nat)
  | toB (i : Nat)
deriving Repr, DecidableEq

def exec1 (w : World) : Act → Option World
  | .callA c => match w.a.call c with
    | .ok (a', o) => some { w with a := a', fromA := w.fromA ++ o.toList }
    | .panic => none
  | .callB c => match w.b.call c with
    | .ok (b', o) => some { w with b := b', fromB := w.fromB ++ o.toList }
    | .panic => none
  | .toA i => match w.fromB[i]? with
    | none => none
    | some p => if Fresh w.a p then match w.a.push p with
      | .ok a' => some { w with a := a' }
      | .panic => none
      else none
  | .toB i => match w.fromA[i]? with
    | none => none
    | some p => if Fresh w.b p then match w.b.push p with
      | .ok b' => some { w with b := b' }
      | .panic => none
      else none

def exec (w : World) : List Act → Option World
  | [] => some w
  | a :: l => match exec1 w a with
    | none => none
    | some w' => exec w' l

end Shadow.Tcp.Stream
