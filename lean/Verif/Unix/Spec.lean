import Verif.Unix.Model

/-!
# Unix-domain sockets: what they are supposed to do

A socket is idle, listening, linked to a peer, a datagram socket, or dead.  Linked and datagram
sockets have an inbox.  There are no counters, listeners, callbacks or published states here: what
the code keeps track of with those is defined from the inboxes and from who is dead.
-/

namespace Shadow.Unix.Spec

variable {α : Type}

/-- What waits to be read from a linked socket. -/
inductive Inbox (α : Type)
  | stream (l : List α)
  | packets (l : List (List α))

/-- A datagram that waits to be read. -/
structure Msg (α : Type) where
  sender : Nat
  addr : Option Nat
  data : List α

/-- The state of a socket. -/
inductive St (α : Type)
  | idle (name : Option Nat)
  | listening (name : Nat) (queue : List Nat) (limit : Nat)
  | linked (name peerName : Option Nat) (peer : Nat) (inbox : Inbox α)
  | dgram (name peer : Option Nat) (inbox : List (Msg α))
  | dead

/-- A socket; `held` if the program has it open. -/
structure Sk (α : Type) where
  kind : Kind
  st : St α
  held : Bool

/-- The sockets of a host, which of them do not block, who is bound to which name, and how many
bytes a socket may have in flight. -/
structure Host (α : Type) where
  sock : Nat → Option (Sk α)
  nonblock : Nat → Bool
  names : Kind → Nat → Option Nat
  count : Nat
  limit : Nat

/-- No sockets. -/
def Host.empty (limit : Nat) : Host α :=
  { sock := fun _ => none, nonblock := fun _ => false, names := fun _ _ => none, count := 0, limit }

/-- Socket `i` in a new state. -/
def Host.set (A : Host α) (i : Nat) (s : Sk α) : Host α :=
  { A with sock := fun j => if j = i then some s else A.sock j }

/-- A new socket. -/
def Host.new (A : Host α) (s : Sk α) (nonblock : Bool) : Host α :=
  { A with
    sock := fun j => if j = A.count then some s else A.sock j
    nonblock := fun j => if j = A.count then nonblock else A.nonblock j
    count := A.count + 1 }

/-- Socket `i` is bound to a name. -/
def Host.bound (A : Host α) (k : Kind) (n i : Nat) : Host α :=
  { A with names := fun k' n' => if k' = k ∧ n' = n then some i else A.names k' n' }

/-- The names of socket `i` are free again. -/
def Host.release (A : Host α) (i : Nat) : Host α :=
  { A with names := fun k n => if A.names k n = some i then none else A.names k n }

/-- The number of bytes in an inbox. -/
def Inbox.size : Inbox α → Nat
  | .stream l => l.length
  | .packets l => (l.map List.length).sum

/-- An empty inbox. -/
def Inbox.none (k : Kind) : Inbox α :=
  match k with
  | .stream => .stream []
  | _ => .packets []

/-- Bytes at the end of an inbox. -/
def Inbox.add (data : List α) : Inbox α → Inbox α
  | .stream l => .stream (l ++ data)
  | .packets l => .packets (l ++ [data])

/-- The bytes of datagrams from `i` in the inbox of one socket. -/
def holds (i : Nat) : Option (Sk α) → Nat
  | some ⟨_, .dgram _ _ l, _⟩ => ((l.filter (·.sender == i)).map (·.data.length)).sum
  | _ => 0

/-- The bytes that `i` has sent and nobody has read. -/
def inFlight (A : Host α) (i : Nat) : Nat :=
  match A.sock i with
  | some ⟨_, .linked _ _ p _, _⟩ =>
    match A.sock p with
    | some ⟨_, .linked _ _ _ b, _⟩ => b.size
    | _ => 0
  | some ⟨_, .dgram _ _ _, _⟩ => ((List.range A.count).map fun j => holds i (A.sock j)).sum
  | _ => 0

/-- The queue of a listening socket takes one connection more than the backlog, which is at most 4096;
a negative backlog is a large one. -/
def capacity (backlog : Int) : Nat :=
  if 0 ≤ backlog ∧ backlog ≤ 4096 then backlog.toNat + 1 else 4097

/-- The program's memory is good for the first `n` bytes. -/
def Sound (fault : Option Nat) (n : Nat) : Prop := ∀ f, fault = some f → n ≤ f

/-- Nobody will read from socket `p` any more. -/
def Dead (A : Host α) (p : Nat) : Prop := ∃ s, A.sock p = some s ∧ s.st = .dead

/-- A call that would have to wait fails if it must not. -/
def orWait (nonblock : Bool) (x : Wait) : Ret α := if nonblock then .err .again else .wait x

/-- How many bytes of `len` can be sent when `used` of `limit` bytes are in flight: a stream takes
what fits, a packet is taken whole or not at all. -/
inductive Fits (k : Kind) (limit used len : Nat) : Nat → Prop
  | stream : k = .stream → used < limit → Fits k limit used len (min len (limit - used))
  | packet : k ≠ .stream → used < limit → used + len ≤ limit → Fits k limit used len len

/-- There is no room now. -/
def Full (k : Kind) (limit used len : Nat) : Prop :=
  limit ≤ used ∨ (k ≠ .stream ∧ limit < used + len ∧ len ≤ limit)

/-- There will never be room. -/
def TooLong (k : Kind) (limit used len : Nat) : Prop :=
  used < limit ∧ k ≠ .stream ∧ limit < len

/-- The address that `bind` uses: the name given, or the one found for the unnamed address. -/
def bindName (addr : Addr) (auto : Option Nat) : Option Nat :=
  match addr with
  | .name n => some n
  | .unnamed => auto
  | _ => none

/-- Where a datagram goes. -/
inductive Dest (A : Host α) (peer : Option Nat) : Option Addr → Nat → Prop
  | default (p : Nat) : peer = some p → Dest A peer none p
  | name (n p : Nat) : A.names .dgram n = some p → Dest A peer (some (.name n)) p

/-- Why a datagram has no destination. -/
inductive NoDest (A : Host α) (peer : Option Nat) : Option Addr → Err → Prop
  | foreign : NoDest A peer (some .foreign) .invalid
  | path : NoDest A peer (some .path) .noEnt
  | unnamed : NoDest A peer (some .unnamed) .noEnt
  | nobody (n : Nat) : A.names .dgram n = none → NoDest A peer (some (.name n)) .refused
  | unconnected : peer = none → NoDest A peer none .notConn

/-- What `recv` takes out of a packet of a socket: the bytes, the length it reports and whether it
reports a truncation. -/
def packetRet (d : List α) (room : Nat) (trunc : Bool) (addr : Option Nat) : Ret α :=
  .got (d.take room) (if trunc then d.length else min room d.length) (trunc && decide (room < d.length)) addr

/-- One call on a host in state `A` returns `r` and leaves it in state `A'`. -/
inductive Does (A : Host α) : Act α → Ret α → Host α → Prop
  -- socket, socketpair
  | socket (k : Kind) (nb : Bool) : k ≠ .dgram →
      Does A (.socket k nb) (.socket A.count) (A.new ⟨k, .idle none, true⟩ nb)
  | socketD (nb : Bool) :
      Does A (.socket .dgram nb) (.socket A.count) (A.new ⟨.dgram, .dgram none none [], true⟩ nb)
  | pair (k : Kind) (nb : Bool) : k ≠ .dgram →
      Does A (.pair k nb) (.two A.count (A.count + 1))
        ((A.new ⟨k, .linked none none (A.count + 1) (.none k), true⟩ nb).new
          ⟨k, .linked none none A.count (.none k), true⟩ nb)
  | pairD (nb : Bool) :
      Does A (.pair .dgram nb) (.two A.count (A.count + 1))
        ((A.new ⟨.dgram, .dgram none (some (A.count + 1)) [], true⟩ nb).new
          ⟨.dgram, .dgram none (some A.count) [], true⟩ nb)
  -- bind
  | bind (i : Nat) (k : Kind) (addr : Addr) (auto : Option Nat) (n : Nat) :
      A.sock i = some ⟨k, .idle none, true⟩ → bindName addr auto = some n → A.names k n = none →
      Does A (.bind i addr auto) .done ((A.set i ⟨k, .idle (some n), true⟩).bound k n i)
  | bindD (i : Nat) (k : Kind) (addr : Addr) (auto : Option Nat) (n : Nat) (p : Option Nat) (l : List (Msg α)) :
      A.sock i = some ⟨k, .dgram none p l, true⟩ → bindName addr auto = some n → A.names k n = none →
      Does A (.bind i addr auto) .done ((A.set i ⟨k, .dgram (some n) p l, true⟩).bound k n i)
  | bindNot (i : Nat) (s : Sk α) (addr : Addr) (auto : Option Nat) (e : Err) :
      A.sock i = some s → s.held = true →
      (match s.st with
        | .idle none | .dgram none _ _ =>
          (match addr with
            | .foreign => e = .invalid
            | .path => e = .notSup
            | _ => e = .addrInUse ∧ ∀ n, bindName addr auto = some n → A.names s.kind n ≠ none)
        | .idle (some _) | .dgram (some _) _ _ => e = .invalid
        | _ => e = .opNotSupp) →
      Does A (.bind i addr auto) (.err e) A
  -- listen
  | listen (i : Nat) (k : Kind) (n : Nat) (backlog : Int) :
      A.sock i = some ⟨k, .idle (some n), true⟩ →
      Does A (.listen i backlog) .done (A.set i ⟨k, .listening n [] (capacity backlog), true⟩)
  | relisten (i : Nat) (k : Kind) (n : Nat) (q : List Nat) (lim : Nat) (backlog : Int) :
      A.sock i = some ⟨k, .listening n q lim, true⟩ →
      Does A (.listen i backlog) .done (A.set i ⟨k, .listening n q (capacity backlog), true⟩)
  | listenNot (i : Nat) (s : Sk α) (backlog : Int) (e : Err) : A.sock i = some s → s.held = true →
      (match s.st with
        | .idle none => e = .invalid
        | .linked _ _ _ _ | .dgram _ _ _ => e = .opNotSupp
        | _ => False) →
      Does A (.listen i backlog) (.err e) A
  -- connect
  | connect (i : Nat) (k : Kind) (b : Option Nat) (n srv lim m : Nat) (q : List Nat) :
      A.sock i = some ⟨k, .idle b, true⟩ → A.names k n = some srv →
      A.sock srv = some ⟨k, .listening m q lim, true⟩ → q.length < lim →
      Does A (.connect i (.name n)) .done
        (((A.new ⟨k, .linked (some m) b i (.none k), false⟩ (A.nonblock srv)).set srv
          ⟨k, .listening m (q ++ [A.count]) lim, true⟩).set i
          ⟨k, .linked b (some n) A.count (.none k), true⟩)
  | connectFull (i : Nat) (k : Kind) (b : Option Nat) (n srv lim m : Nat) (q : List Nat) :
      A.sock i = some ⟨k, .idle b, true⟩ → A.names k n = some srv →
      A.sock srv = some ⟨k, .listening m q lim, true⟩ → lim ≤ q.length →
      Does A (.connect i (.name n)) (orWait (A.nonblock i) (.allowing srv)) A
  | connectNot (i : Nat) (k : Kind) (b : Option Nat) (addr : Addr) (e : Err) :
      A.sock i = some ⟨k, .idle b, true⟩ →
      (match addr with
        | .foreign => e = .invalid
        | .name n => e = .refused ∧ ∀ srv, A.names k n = some srv →
            ∀ s, A.sock srv = some s → ∀ m q lim, s.st ≠ .listening m q lim
        | _ => e = .noEnt) →
      Does A (.connect i addr) (.err e) A
  | connectD (i : Nat) (k : Kind) (b p : Option Nat) (l : List (Msg α)) (n j : Nat) :
      A.sock i = some ⟨k, .dgram b p l, true⟩ → A.names k n = some j →
      Does A (.connect i (.name n)) .done (A.set i ⟨k, .dgram b (some j) l, true⟩)
  | connectDNot (i : Nat) (k : Kind) (b p : Option Nat) (l : List (Msg α)) (addr : Addr) (e : Err) :
      A.sock i = some ⟨k, .dgram b p l, true⟩ →
      (match addr with
        | .foreign => e = .invalid
        | .name n => e = .refused ∧ A.names k n = none
        | _ => e = .noEnt) →
      Does A (.connect i addr) (.err e) A
  | connectBusy (i : Nat) (s : Sk α) (addr : Addr) (e : Err) : A.sock i = some s → s.held = true →
      (match s.st with
        | .listening _ _ _ => e = .invalid
        | .linked _ _ _ _ => e = .opNotSupp
        | _ => False) →
      Does A (.connect i addr) (.err e) A
  -- accept
  | accept (i : Nat) (k : Kind) (n c lim : Nat) (q : List Nat) (s : Sk α) :
      A.sock i = some ⟨k, .listening n (c :: q) lim, true⟩ → A.sock c = some s →
      Does A (.accept i) (.socket c) ((A.set c { s with held := true }).set i ⟨k, .listening n q lim, true⟩)
  | acceptNone (i : Nat) (k : Kind) (n lim : Nat) :
      A.sock i = some ⟨k, .listening n [] lim, true⟩ →
      Does A (.accept i) (orWait (A.nonblock i) (.readable i)) A
  | acceptNot (i : Nat) (s : Sk α) (e : Err) : A.sock i = some s → s.held = true →
      (match s.st with
        | .idle _ | .linked _ _ _ _ => e = .invalid
        | .dgram _ _ _ => e = .opNotSupp
        | _ => False) →
      Does A (.accept i) (.err e) A
  -- send over a connection
  | sendNothing (i p : Nat) (k : Kind) (b a b' a' : Option Nat) (x y : Inbox α) (h : Bool) (dst : Option Addr)
      (data : List α) (dw : Bool) (fault : Option Nat) (n : Nat) :
      A.sock i = some ⟨k, .linked b a p x, true⟩ → A.sock p = some ⟨k, .linked b' a' i y, h⟩ →
      dst = none ∨ (k ≠ .stream ∧ dst ≠ some .foreign) →
      Fits k A.limit (inFlight A i) data.length n → (k = .stream ∧ n = 0) →
      Does A (.send i dst data dw fault) (.sent 0) A
  | sendSome (i p : Nat) (k : Kind) (b a b' a' : Option Nat) (x y : Inbox α) (h : Bool) (dst : Option Addr)
      (data : List α) (dw : Bool) (fault : Option Nat) (n : Nat) :
      A.sock i = some ⟨k, .linked b a p x, true⟩ → A.sock p = some ⟨k, .linked b' a' i y, h⟩ →
      dst = none ∨ (k ≠ .stream ∧ dst ≠ some .foreign) →
      Fits k A.limit (inFlight A i) data.length n → (k = .stream → n ≠ 0) → Sound fault n →
      Does A (.send i dst data dw fault) (.sent n) (A.set p ⟨k, .linked b' a' i (y.add (data.take n)), h⟩)
  | sendPipe (i p : Nat) (k : Kind) (b a : Option Nat) (x : Inbox α) (dst : Option Addr)
      (data : List α) (dw : Bool) (fault : Option Nat) :
      A.sock i = some ⟨k, .linked b a p x, true⟩ → Dead A p →
      dst = none ∨ (k ≠ .stream ∧ dst ≠ some .foreign) →
      Does A (.send i dst data dw fault) (.err .pipe) A
  | sendFull (i p : Nat) (k : Kind) (b a : Option Nat) (x : Inbox α) (dst : Option Addr)
      (data : List α) (dw : Bool) (fault : Option Nat) :
      A.sock i = some ⟨k, .linked b a p x, true⟩ → ¬ Dead A p →
      dst = none ∨ (k ≠ .stream ∧ dst ≠ some .foreign) →
      Full k A.limit (inFlight A i) data.length →
      Does A (.send i dst data dw fault) (orWait (A.nonblock i || dw) (.writable i)) A
  | sendLong (i p : Nat) (k : Kind) (b a : Option Nat) (x : Inbox α) (dst : Option Addr)
      (data : List α) (dw : Bool) (fault : Option Nat) :
      A.sock i = some ⟨k, .linked b a p x, true⟩ → ¬ Dead A p →
      dst = none ∨ (k ≠ .stream ∧ dst ≠ some .foreign) →
      TooLong k A.limit (inFlight A i) data.length →
      Does A (.send i dst data dw fault) (.err .msgSize) A
  | sendAddr (i p : Nat) (k : Kind) (b a : Option Nat) (x : Inbox α) (dst : Addr)
      (data : List α) (dw : Bool) (fault : Option Nat) (e : Err) :
      A.sock i = some ⟨k, .linked b a p x, true⟩ →
      (dst = .foreign ∧ e = .invalid ∨ dst ≠ .foreign ∧ k = .stream ∧ e = .isConn) →
      Does A (.send i (some dst) data dw fault) (.err e) A
  -- send a datagram
  | sendD (i p : Nat) (b q b' q' : Option Nat) (l l' : List (Msg α)) (dst : Option Addr)
      (data : List α) (dw : Bool) (fault : Option Nat) :
      A.sock i = some ⟨.dgram, .dgram b q l, true⟩ → Dest A q dst p →
      A.sock p = some ⟨.dgram, .dgram b' q' l', true⟩ →
      Fits .dgram A.limit (inFlight A i) data.length data.length → Sound fault data.length →
      Does A (.send i dst data dw fault) (.sent data.length)
        (A.set p ⟨.dgram, .dgram b' q' (l' ++ [⟨i, b, data⟩]), true⟩)
  | sendDDead (i p : Nat) (b q : Option Nat) (l : List (Msg α)) (dst : Option Addr)
      (data : List α) (dw : Bool) (fault : Option Nat) :
      A.sock i = some ⟨.dgram, .dgram b q l, true⟩ → Dest A q dst p → Dead A p →
      Does A (.send i dst data dw fault) (.err .refused) A
  | sendDFull (i p : Nat) (b q : Option Nat) (l : List (Msg α)) (dst : Option Addr)
      (data : List α) (dw : Bool) (fault : Option Nat) :
      A.sock i = some ⟨.dgram, .dgram b q l, true⟩ → Dest A q dst p → ¬ Dead A p →
      Full .dgram A.limit (inFlight A i) data.length →
      Does A (.send i dst data dw fault) (orWait (A.nonblock i || dw) (.writable i)) A
  | sendDLong (i p : Nat) (b q : Option Nat) (l : List (Msg α)) (dst : Option Addr)
      (data : List α) (dw : Bool) (fault : Option Nat) :
      A.sock i = some ⟨.dgram, .dgram b q l, true⟩ → Dest A q dst p → ¬ Dead A p →
      TooLong .dgram A.limit (inFlight A i) data.length →
      Does A (.send i dst data dw fault) (.err .msgSize) A
  | sendDNot (i : Nat) (b q : Option Nat) (l : List (Msg α)) (dst : Option Addr)
      (data : List α) (dw : Bool) (fault : Option Nat) (e : Err) :
      A.sock i = some ⟨.dgram, .dgram b q l, true⟩ → NoDest A q dst e →
      Does A (.send i dst data dw fault) (.err e) A
  -- send from a socket that is not connected, and from unreadable memory
  | sendNot (i : Nat) (s : Sk α) (dst : Option Addr) (data : List α) (dw : Bool) (fault : Option Nat)
      (e : Err) : A.sock i = some s → s.held = true →
      (match s.st with
        | .idle _ => e = if s.kind = .stream ∧ dst ≠ none then .opNotSupp else .notConn
        | .listening _ _ _ => e = .opNotSupp
        | _ => False) →
      Does A (.send i dst data dw fault) (.err e) A
  | sendFault (i p : Nat) (k : Kind) (b a : Option Nat) (x : Inbox α) (dst : Option Addr)
      (data : List α) (dw : Bool) (f n : Nat) :
      A.sock i = some ⟨k, .linked b a p x, true⟩ → ¬ Dead A p →
      dst = none ∨ (k ≠ .stream ∧ dst ≠ some .foreign) →
      Fits k A.limit (inFlight A i) data.length n → f < n → (k = .stream → f = 0) →
      Does A (.send i dst data dw (some f)) (.err .fault) A
  | sendDFault (i p : Nat) (b q : Option Nat) (l : List (Msg α)) (dst : Option Addr)
      (data : List α) (dw : Bool) (f : Nat) :
      A.sock i = some ⟨.dgram, .dgram b q l, true⟩ → Dest A q dst p → ¬ Dead A p →
      Fits .dgram A.limit (inFlight A i) data.length data.length → f < data.length →
      Does A (.send i dst data dw (some f)) (.err .fault) A
  -- receive from a connection
  | recvStream (i p : Nat) (k : Kind) (b a : Option Nat) (l : List α) (room : Nat) (dw trunc : Bool) (fault : Option Nat) :
      A.sock i = some ⟨k, .linked b a p (.stream l), true⟩ → l ≠ [] → Sound fault room →
      Does A (.recv i room dw trunc fault) (.got (l.take room) (min room l.length) false a)
        (A.set i ⟨k, .linked b a p (.stream (l.drop room)), true⟩)
  | recvPacket (i p : Nat) (k : Kind) (b a : Option Nat) (d : List α) (l : List (List α)) (room : Nat)
      (dw trunc : Bool) (fault : Option Nat) :
      A.sock i = some ⟨k, .linked b a p (.packets (d :: l)), true⟩ → Sound fault room →
      Does A (.recv i room dw trunc fault) (packetRet d room trunc a)
        (A.set i ⟨k, .linked b a p (.packets l), true⟩)
  | recvEnd (i p : Nat) (k : Kind) (b a : Option Nat) (room : Nat) (dw trunc : Bool) (fault : Option Nat) :
      A.sock i = some ⟨k, .linked b a p (.none k), true⟩ → Dead A p →
      Does A (.recv i room dw trunc fault) (.got [] 0 false a) A
  | recvWait (i p : Nat) (k : Kind) (b a : Option Nat) (room : Nat) (dw trunc : Bool) (fault : Option Nat) :
      A.sock i = some ⟨k, .linked b a p (.none k), true⟩ → ¬ Dead A p →
      Does A (.recv i room dw trunc fault) (orWait (A.nonblock i || dw) (.readable i)) A
  | recvFault (i p : Nat) (b a : Option Nat) (l : List α) (room : Nat) (dw trunc : Bool) :
      A.sock i = some ⟨.stream, .linked b a p (.stream l), true⟩ → l ≠ [] → 0 < room →
      Does A (.recv i room dw trunc (some 0)) (.err .fault) A
  -- receive a datagram
  | recvD (i : Nat) (b q : Option Nat) (m : Msg α) (l : List (Msg α)) (room : Nat) (dw trunc : Bool) (fault : Option Nat) :
      A.sock i = some ⟨.dgram, .dgram b q (m :: l), true⟩ → Sound fault room →
      Does A (.recv i room dw trunc fault) (packetRet m.data room trunc m.addr)
        (A.set i ⟨.dgram, .dgram b q l, true⟩)
  | recvDWait (i : Nat) (b q : Option Nat) (room : Nat) (dw trunc : Bool) (fault : Option Nat) :
      A.sock i = some ⟨.dgram, .dgram b q [], true⟩ →
      Does A (.recv i room dw trunc fault) (orWait (A.nonblock i || dw) (.readable i)) A
  | recvNot (i : Nat) (s : Sk α) (room : Nat) (dw trunc : Bool) (fault : Option Nat) (e : Err) :
      A.sock i = some s → s.held = true →
      (match s.st with
        | .idle _ => e = if s.kind = .stream then .invalid else .notConn
        | .listening _ _ _ => e = .opNotSupp
        | _ => False) →
      Does A (.recv i room dw trunc fault) (.err e) A
  -- others
  | nonblock (i : Nat) (s : Sk α) (on : Bool) : A.sock i = some s → s.held = true →
      Does A (.nonblock i on) .done { A with nonblock := fun j => if j = i then on else A.nonblock j }
  | close (i : Nat) (s : Sk α) : A.sock i = some s → s.held = true →
      (∀ n q lim, s.st ≠ .listening n q lim) →
      Does A (.close i) .done ((A.set i ⟨s.kind, .dead, false⟩).release i)
  | closeListen (i : Nat) (k : Kind) (n lim : Nat) (q : List Nat) :
      A.sock i = some ⟨k, .listening n q lim, true⟩ →
      Does A (.close i) .done
        { A.release i with
          sock := fun j => if j = i ∨ j ∈ q then (A.sock j).map fun s => ⟨s.kind, .dead, false⟩ else A.sock j }

/-- The calls that the theorems leave out: a datagram socket that sends to itself, a socket that
connects to its own address, and memory that turns out to be bad half way. -/
inductive Bad (A : Host α) : Act α → Prop
  | selfSend (i : Nat) (k : Kind) (b q : Option Nat) (l : List (Msg α)) (h : Bool) (dst : Option Addr)
      (data : List α) (dw : Bool) (fault : Option Nat) :
      A.sock i = some ⟨k, .dgram b q l, h⟩ → Dest A q dst i → Bad A (.send i dst data dw fault)
  | selfConnect (i : Nat) (k : Kind) (b : Option Nat) (h : Bool) (n : Nat) :
      A.sock i = some ⟨k, .idle b, h⟩ → A.names k n = some i → Bad A (.connect i (.name n))
  | sendFault (i : Nat) (st : St α) (h : Bool) (dst : Option Addr) (data : List α) (dw : Bool) (f : Nat) :
      A.sock i = some ⟨.stream, st, h⟩ → 0 < f → f < data.length → Bad A (.send i dst data dw (some f))
  | recvFault (i : Nat) (s : Sk α) (room : Nat) (dw trunc : Bool) (f : Nat) :
      A.sock i = some s → f < room → ¬ (s.kind = .stream ∧ f = 0) →
      Bad A (.recv i room dw trunc (some f))

/-- The socket of a call, if it is on one. -/
def target : Act α → Option Nat
  | .socket _ _ | .pair _ _ => none
  | .bind i _ _ | .listen i _ | .connect i _ | .accept i | .send i _ _ _ _ | .recv i _ _ _ _
  | .nonblock i _ | .close i => some i

/-- The program has the socket of the call open. -/
def Open (A : Host α) (a : Act α) : Prop :=
  ∀ i, target a = some i → ∃ s, A.sock i = some s ∧ s.held = true

end Shadow.Unix.Spec

/-! ## What happened in a run -/

namespace Shadow.Unix.Spec

variable {α : Type}

/-- The destination of a datagram as a function. -/
def dest (A : Host α) (q : Option Nat) : Option Addr → Option Nat
  | none => q
  | some (.name n) => A.names .dgram n
  | _ => none

/-- One call of a run: the state in which it was made, the call, and what it returned. -/
structure Event (α : Type) where
  before : Host α
  act : Act α
  ret : Ret α

/-- The socket that a successful send wrote to, and what it wrote. -/
def delivered (e : Event α) : Option (Nat × Msg α) :=
  match e.act, e.ret with
  | .send i dst data _ _, .sent n =>
    match e.before.sock i with
    | some ⟨_, .linked b _ p _, _⟩ => some (p, ⟨i, b, data.take n⟩)
    | some ⟨_, .dgram b q _, _⟩ => (dest e.before q dst).map fun p => (p, ⟨i, b, data.take n⟩)
    | _ => none
  | _, _ => none

/-- There is something to read. -/
def waiting : Option (Sk α) → Bool
  | some ⟨_, .linked _ _ _ (.stream l), _⟩ => !l.isEmpty
  | some ⟨_, .linked _ _ _ (.packets l), _⟩ => !l.isEmpty
  | some ⟨_, .dgram _ _ l, _⟩ => !l.isEmpty
  | _ => false

/-- What a successful receive handed to the program: the socket, the room that there was, the bytes
and the address.  (The end of a stream is not counted.) -/
def received (e : Event α) : Option (Nat × Nat × List α × Option Nat) :=
  match e.act, e.ret with
  | .recv i room _ _ _, .got data _ _ addr =>
    if waiting (e.before.sock i) then some (i, room, data, addr) else none
  | _, _ => none

/-- The listening socket that a successful connect reached, and the socket made for it. -/
def joined (e : Event α) : Option (Nat × Nat) :=
  match e.act, e.ret with
  | .connect i (.name n), .done =>
    match e.before.sock i with
    | some ⟨k, .idle _, _⟩ => (e.before.names k n).map fun srv => (srv, e.before.count)
    | _ => none
  | _, _ => none

/-- The listening socket of a successful accept, and the socket it returned. -/
def accepted (e : Event α) : Option (Nat × Nat) :=
  match e.act, e.ret with
  | .accept i, .socket c => some (i, c)
  | _, _ => none

/-- Of the results of `f`, those about socket `p`. -/
def about {β : Type} (f : Event α → Option (Nat × β)) (p : Nat) (tr : List (Event α)) : List β :=
  tr.filterMap fun e => (f e).bind fun x => if x.1 = p then some x.2 else none

/-- The program got `l` in pieces: of the `j`-th message as many bytes as there was room for. -/
def Pieces (l : List (Msg α)) (got : List (Nat × List α × Option Nat)) : Prop :=
  l.length = got.length ∧ ∀ (j : Nat) m g, l[j]? = some m → got[j]? = some g → g.2.1 = m.data.take g.1

/-- The same, and the program was told who sent each of them. -/
def PiecesFrom (l : List (Msg α)) (got : List (Nat × List α × Option Nat)) : Prop :=
  Pieces l got ∧ ∀ (j : Nat) m g, l[j]? = some m → got[j]? = some g → g.2.2 = m.addr

/-- The history of a socket explains its state. -/
def Explains (tr : List (Event α)) (p : Nat) : Option (Sk α) → Prop
  | none => about delivered p tr = [] ∧ about received p tr = [] ∧ about joined p tr = [] ∧
      about accepted p tr = []
  | some s =>
    match s.st with
    | .idle _ => about delivered p tr = [] ∧ about received p tr = [] ∧ about joined p tr = [] ∧
      about accepted p tr = []
    | .listening _ q _ => about joined p tr = about accepted p tr ++ q
    | .linked _ _ q (.stream l) => (∀ m ∈ about delivered p tr, m.sender = q) ∧
      (about delivered p tr).flatMap (·.data) = (about received p tr).flatMap (·.2.1) ++ l
    | .linked _ _ q (.packets l) => (∀ m ∈ about delivered p tr, m.sender = q) ∧
      ∃ ms rest, about delivered p tr = ms ++ rest ∧ rest.map (·.data) = l ∧ Pieces ms (about received p tr)
    | .dgram _ _ l => ∃ ms, about delivered p tr = ms ++ l ∧ PiecesFrom ms (about received p tr)
    | .dead => True

/-! ## Names and states that a program sees -/

/-- The name in the state of a socket. -/
def St.name : St α → Option Nat
  | .idle n | .linked n _ _ _ | .dgram n _ _ => n
  | .listening n _ _ => some n
  | .dead => none

/-- What `poll` may say about socket `i`.  A datagram socket to which nothing has happened yet may
fail to be writable. -/
def Shows (A : Host α) (i : Nat) (s : Sk α) (f : Flags) : Prop :=
  match s.st with
  | .idle _ => f = { active := true }
  | .listening _ q lim => f.active = true ∧ f.closed = false ∧ f.writable = false ∧
      (f.readable = true ↔ q ≠ []) ∧ (f.allowing = true ↔ q.length < lim)
  | .linked _ _ p _ => f.active = true ∧ f.closed = false ∧ f.allowing = false ∧
      (f.readable = true ↔ waiting (some s) = true ∨ Dead A p) ∧
      (f.writable = true ↔ inFlight A i < A.limit ∨ Dead A p)
  | .dgram _ q l => f.active = true ∧ f.closed = false ∧ f.allowing = false ∧
      (f.readable = true ↔ l ≠ []) ∧ (f.writable = true → inFlight A i < A.limit) ∧
      (inFlight A i < A.limit → f.writable = true ∨ (q = none ∧ l = [] ∧ inFlight A i = 0))
  | .dead => f = { active := false, closed := true }

end Shadow.Unix.Spec
