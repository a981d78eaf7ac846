import Verif.IoVec.Props
import Verif.Udp.Model

/-!
# UDP sockets: properties of the calls (C52)
-/
namespace Shadow.Udp
open Shadow.Base
open Shadow.NetIface (SockAddr localhostIp)
open Shadow.IoVec (Mem Iov Cursor totalLen readExact writeAll addrs Holds Faults poke)

variable {α H : Type}

/-! ## Specification -/

/-- The datagrams waiting to be sent. -/
def Sock.out (s : Sock α) : List (Pkt α) := s.send.buffer.map fun x => ⟨x.2.src, x.2.dst, x.1⟩

/-- The datagrams waiting to be received. -/
def Sock.inn (s : Sock α) : List (Pkt α) := s.recv.buffer.map fun x => ⟨x.2.src, x.2.dst, x.1⟩

/-- The payload bytes in a list of datagrams. -/
def bytes (l : List (Pkt α)) : Nat := (l.map (·.data.length)).sum

/-- What is true of every socket. -/
structure Inv (s : Sock α) : Prop where
  outBytes : s.send.lenBytes = bytes s.out
  innBytes : s.recv.lenBytes = bytes s.inn
  /-- an open socket is associated exactly when it has an address -/
  assoc : s.state.closed = false → s.assoc = s.bound.isSome
  /-- a closed socket is not associated -/
  gone : s.state.closed = true → s.assoc = false
  /-- a socket with a peer has an address -/
  peer : s.peer.isSome → s.bound.isSome
  /-- an open socket reports being readable exactly when a datagram is waiting -/
  readable : s.state.closed = false → (s.state.readable = true ↔ s.inn ≠ [])
  active : s.state.active = !s.state.closed

/-- There is room for a datagram to be sent. -/
def Room (s : Sock α) : Prop := bytes s.out < s.send.limit

instance (s : Sock α) : Decidable (Room s) := inferInstanceAs (Decidable (_ < _))

/-- The socket reports being writable exactly when there is room. -/
def Fresh (s : Sock α) : Prop := s.state.writable = true ↔ Room s

/-- Where a datagram goes: to the given address, or else to the peer. -/
inductive Dest (s : Sock α) : AddrArg → SockAddr → Prop where
  | given (a) : Dest s (.inet a) a
  | peer {a} : s.peer = some a → Dest s .missing a

/-- The address that the socket has, or that it gets from the implicit bind. -/
inductive Local (s : Sock α) (res : NetIface.Res) : SockAddr → Prop where
  | old {b} : s.bound = some b → Local s res b
  | new {b} : s.bound = none → res = .ok b → Local s res b

/-- The interface of the address reaches the destination: only loopback reaches loopback. -/
def Reaches (b dst : SockAddr) : Prop := b.ip = 0 ∨ (b.ip = localhostIp ↔ dst.ip = localhostIp)

/-- The source that the receiver sees. -/
inductive Source (b dst : SockAddr) (ip : Nat) : SockAddr → Prop where
  | bound : b.ip ≠ 0 → Source b dst ip b
  | loop : b.ip = 0 → dst.ip = localhostIp → Source b dst ip ⟨localhostIp, b.port⟩
  | inet : b.ip = 0 → dst.ip ≠ localhostIp → Source b dst ip ⟨ip, b.port⟩

/-! ## Lemmas about buffers and flags -/

theorem bytes_append (l k : List (Pkt α)) : bytes (l ++ k) = bytes l + bytes k := by
  simp [bytes]

theorem bytes_cons (p : Pkt α) (l : List (Pkt α)) : bytes (p :: l) = p.data.length + bytes l := by
  simp [bytes]

theorem refresh_inv {s : Sock α} (h : Inv s) (g : Bool) : Inv (s.refresh g).1 where
  outBytes := h.outBytes
  innBytes := h.innBytes
  assoc := h.assoc
  gone := h.gone
  peer := h.peer
  readable := fun _ => by simp [Sock.refresh, Sock.inn]
  active := h.active

theorem refresh_fresh {s : Sock α} (h : s.send.lenBytes = bytes s.out) (g : Bool) :
    Fresh (s.refresh g).1 := by
  show decide (s.send.lenBytes < s.send.limit) = true ↔ bytes s.out < s.send.limit
  rw [h]; simp

/-- All but the flag of readability. -/
structure Inv' (s : Sock α) : Prop where
  outBytes : s.send.lenBytes = bytes s.out
  innBytes : s.recv.lenBytes = bytes s.inn
  assoc : s.state.closed = false → s.assoc = s.bound.isSome
  gone : s.state.closed = true → s.assoc = false
  peer : s.peer.isSome → s.bound.isSome
  active : s.state.active = !s.state.closed

theorem Inv.weaken {s : Sock α} (h : Inv s) : Inv' s :=
  ⟨h.outBytes, h.innBytes, h.assoc, h.gone, h.peer, h.active⟩

theorem Inv'.refresh {s : Sock α} (h : Inv' s) (g : Bool) : Inv (s.refresh g).1 where
  outBytes := h.outBytes
  innBytes := h.innBytes
  assoc := h.assoc
  gone := h.gone
  peer := h.peer
  readable := fun _ => by simp [Sock.refresh, Sock.inn]
  active := h.active

theorem refresh_grew (s : Sock α) :
    ∃ n, (s.refresh true).2 = some n ∧ n.grew = true ∧ n.state = (s.refresh true).1.state := by
  simp only [Sock.refresh, noteOf, Bool.true_eq_false, and_false, if_false]
  exact ⟨_, rfl, rfl, rfl⟩

/-! ## The network's side -/

/-- **C52 (arrival)**: a packet is refused, and the socket stays as it is, exactly when the socket has
another peer or no room.  Otherwise the packet comes last among the waiting datagrams, the socket is
readable, and the listeners hear that there is new data. -/
theorem C52_push_in (s : Sock α) (h : Inv s) (p : Pkt α) (t : Nat) :
    (((∃ a, s.peer = some a ∧ a ≠ p.src) ∨ s.recv.limit ≤ bytes s.inn) ∧
      pushIn s p t = .ok (s, none, [.refused p])) ∨
    ((∀ a, s.peer = some a → a = p.src) ∧ bytes s.inn < s.recv.limit ∧ ∃ s' note,
      pushIn s p t = .ok (s', some note, [.accepted p]) ∧ s'.inn = s.inn ++ [p] ∧ s'.out = s.out ∧
      s'.peer = s.peer ∧ s'.bound = s.bound ∧ s'.shutR = s.shutR ∧ s'.shutW = s.shutW ∧
      s'.state.readable = true ∧ s'.state.closed = s.state.closed ∧ note.grew = true ∧
      note.state = s'.state ∧ Inv s' ∧ Fresh s') := by
  unfold pushIn
  by_cases hp : s.peer.any (· ≠ p.src) = true
  · rw [if_pos hp]
    refine .inl ⟨.inl ?_, rfl⟩
    cases hs : s.peer with
    | none => rw [hs] at hp; cases hp
    | some a => exact ⟨a, rfl, by rw [hs] at hp; simpa using hp⟩
  rw [if_neg hp]
  have hp' : ∀ a, s.peer = some a → a = p.src := by
    intro a ha
    rw [ha] at hp
    simpa using hp
  have hsp : s.recv.hasSpace = decide (bytes s.inn < s.recv.limit) := by
    rw [Buf.hasSpace, h.innBytes]
  by_cases hr : bytes s.inn < s.recv.limit
  · right
    rw [hsp, decide_eq_true hr]
    refine ⟨hp', hr, ?_⟩
    simp only [Buf.push, hsp, decide_eq_true hr, Bool.not_true, Bool.false_eq_true, if_false,
      R.assert_true, R.bind_ok]
    have hi : Inv' { s with recv := { s.recv with
        buffer := s.recv.buffer ++ [(p.data, (⟨p.src, p.dst, t⟩ : RecvHdr))]
        lenBytes := s.recv.lenBytes + p.data.length } } := by
      refine ⟨h.outBytes, ?_, h.assoc, h.gone, h.peer, h.active⟩
      have := h.innBytes
      simp only [Sock.inn, List.map_append, bytes_append] at this ⊢
      simp only [this]
      simp [bytes]
    obtain ⟨note, hn, hg, hst⟩ := refresh_grew { s with recv := { s.recv with
        buffer := s.recv.buffer ++ [(p.data, (⟨p.src, p.dst, t⟩ : RecvHdr))]
        lenBytes := s.recv.lenBytes + p.data.length } }
    rw [hn]
    exact ⟨_, note, rfl, by simp [Sock.refresh, Sock.inn], rfl, rfl, rfl, rfl, rfl,
      by simp [Sock.refresh], rfl, hg, hst, hi.refresh true, refresh_fresh hi.outBytes true⟩
  · left
    rw [hsp, decide_eq_false hr]
    exact ⟨.inr (by omega), rfl⟩

/-- **C52 (departure)**: the interface gets the first waiting datagram, with its addresses and bytes. -/
theorem C52_pull_out (s : Sock α) (h : Inv s) :
    (s.out = [] ∧ pullOut s = .ok (none, s, none, [])) ∨
    (∃ p l prio s' note, s.out = p :: l ∧ pullOut s = .ok (some (p, prio), s', note, [.pulled p]) ∧
      s'.out = l ∧ s'.inn = s.inn ∧ s'.peer = s.peer ∧ s'.bound = s.bound ∧ s'.shutR = s.shutR ∧
      s'.shutW = s.shutW ∧ s'.send.limit = s.send.limit ∧
      s'.state.closed = s.state.closed ∧ Inv s' ∧ Fresh s') := by
  unfold pullOut Buf.pop
  have ho := h.outBytes
  unfold Sock.out at ho ⊢
  cases hb : s.send.buffer with
  | nil => exact .inl ⟨rfl, rfl⟩
  | cons x xs =>
    right
    rw [hb] at ho
    simp only [List.map_cons, bytes_cons] at ho
    have hle : x.1.length ≤ s.send.lenBytes := by omega
    simp only [decide_eq_true hle, R.assert_true, R.bind_ok]
    have hi : Inv' { s with send := { s.send with buffer := xs
                                                  lenBytes := s.send.lenBytes - x.1.length } } := by
      refine ⟨?_, h.innBytes, h.assoc, h.gone, h.peer, h.active⟩
      show s.send.lenBytes - x.1.length = bytes (xs.map _)
      omega
    exact ⟨_, _, _, _, _, rfl, rfl, rfl, rfl, rfl, rfl, rfl, rfl, rfl, rfl, hi.refresh false,
      refresh_fresh hi.outBytes false⟩

/-! ## The implicit bind -/

theorem ensureBound_spec {s : Sock α} (h : Inv s) (hc : s.state.closed = false) (dst : SockAddr)
    (res : NetIface.Res) :
    (∃ b, Local s res b ∧ (s.bound = none ∨ Reaches b dst) ∧
      ensureBound s dst res = .ok (.ok (), { s with bound := some b, assoc := true })) ∨
    (∃ b, s.bound = some b ∧ ¬ Reaches b dst ∧ ensureBound s dst res = .ok (.error .EINVAL, s)) ∨
    (∃ e, s.bound = none ∧ res = .err e ∧ ensureBound s dst res = .ok (.error (ofAssoc e), s)) := by
  unfold ensureBound
  have ha := h.assoc hc
  cases hb : s.bound with
  | some b =>
    rw [hb] at ha
    simp only [ha, Option.isSome_some, R.assert_true, R.bind_ok]
    by_cases hr : Reaches b dst
    · left
      refine ⟨b, .old hb, .inr hr, ?_⟩
      rw [if_neg]
      · rw [← hb, show true = s.assoc by rw [ha]; rfl]
      · rintro ⟨h0, h1⟩
        rcases hr with h2 | h2
        · exact h0 h2
        · refine h1 ?_
          rw [Bool.eq_iff_iff]
          simpa using h2
    · right; left
      refine ⟨b, rfl, hr, ?_⟩
      rw [if_pos]
      refine ⟨fun h0 => hr (.inl h0), fun h1 => hr (.inr ?_)⟩
      rw [Bool.eq_iff_iff] at h1
      simpa using h1
  | none =>
    rw [hb] at ha
    have hp : s.peer.isNone = true := by
      cases hp : s.peer with
      | none => rfl
      | some a =>
        have := h.peer (by rw [hp]; rfl)
        rw [hb] at this; cases this
    simp only [ha, hp, Option.isSome_none, Bool.not_false, R.assert_true, R.bind_ok]
    cases res with
    | ok a => exact .inl ⟨a, .new hb rfl, .inl trivial, rfl⟩
    | err e => exact .inr (.inr ⟨e, trivial, rfl, rfl⟩)

theorem bindInv {s : Sock α} (h : Inv s) (b : SockAddr) (hc : s.state.closed = false) :
    Inv { s with bound := some b, assoc := true } where
  outBytes := h.outBytes
  innBytes := h.innBytes
  assoc := fun _ => rfl
  gone := fun h' => absurd (hc.symm.trans h') (by decide)
  peer := fun _ => rfl
  readable := h.readable
  active := h.active

/-! ## Sending -/

theorem source_spec (b dst : SockAddr) (ip : Nat) : Source b dst ip (sourceAddr b dst ip) := by
  unfold sourceAddr
  split
  · rename_i h
    split
    · exact .loop h (by assumption)
    · exact .inet h (by assumption)
  · exact .bound (by assumption)

/-- The bytes at the addresses, as far as the total length tells. -/
abbrev span (iovs : List Iov) : List Nat := (addrs iovs).take (totalLen iovs)

/-- What `sendmsg` returns and does. -/
inductive SendSpec (s : Sock α) (m : Mem α) (a : SendArgs) (res : NetIface.Res) (ip prio : Nat) :
    Ret Nat → Sock α → Option Note → List (Ev α) → Prop where
  | sent {dst b src data s' note} : s.shutW = false → a.badFlags = false → Dest s a.addr dst →
      data.length ≤ maxSize → Local s res b → (s.bound = none ∨ Reaches b dst) → Room s →
      Holds m (span a.iovs) data → Source b dst ip src →
      s'.out = s.out ++ [⟨src, dst, data⟩] → s'.bound = some b → s'.peer = s.peer →
      SendSpec s m a res ip prio (.ok data.length) s' note [.sent ⟨src, dst, data⟩]
  | shut : s.shutW = true → SendSpec s m a res ip prio (.err .EPIPE) s none []
  | flags : a.badFlags = true → SendSpec s m a res ip prio (.err .EINVAL) s none []
  | family : a.addr = .other → SendSpec s m a res ip prio (.err .EAFNOSUPPORT) s none []
  | noDest : a.addr = .missing → s.peer = none →
      SendSpec s m a res ip prio (.err .EDESTADDRREQ) s none []
  | long : maxSize < totalLen a.iovs → SendSpec s m a res ip prio (.err .EMSGSIZE) s none []
  | unreach {dst b} : Dest s a.addr dst → s.bound = some b → ¬ Reaches b dst →
      SendSpec s m a res ip prio (.err .EINVAL) s none []
  | noPort {e} : s.bound = none → res = .err e →
      SendSpec s m a res ip prio (.err (ofAssoc e)) s none []
  | fault {b s' note} : Faults m (span a.iovs) → Local s res b → s'.out = s.out →
      s'.bound = some b → s'.peer = s.peer → SendSpec s m a res ip prio (.err .EFAULT) s' note []
  | full {b s' note} : s.shutW = false → ¬ Room s → (a.dontwait = true ∨ s.nonblock = true) →
      Local s res b → s'.out = s.out → s'.bound = some b → s'.peer = s.peer →
      SendSpec s m a res ip prio (.err .EWOULDBLOCK) s' note []
  | wait {b s' note} : s.shutW = false → ¬ Room s → a.dontwait = false → s.nonblock = false →
      Local s res b → s'.out = s.out → s'.bound = some b → s'.peer = s.peer →
      s'.state.writable = false →
      SendSpec s m a res ip prio .blocked s' note []

/-- What sending leaves alone. -/
structure SendKeeps (s s' : Sock α) : Prop where
  inn : s'.inn = s.inn
  shutR : s'.shutR = s.shutR
  shutW : s'.shutW = s.shutW
  nonblock : s'.nonblock = s.nonblock
  sendLimit : s'.send.limit = s.send.limit
  recvLimit : s'.recv.limit = s.recv.limit
  closed : s'.state.closed = s.state.closed

theorem sendmsg_spec {s : Sock α} (h : Inv s) (hc : s.state.closed = false) (m : Mem α) (a : SendArgs)
    (res : NetIface.Res) (ip prio : Nat) :
    ∃ r s' note e, sendmsg s m a res ip prio = .ok (r, s', note, e) ∧
      SendSpec s m a res ip prio r s' note e ∧ Inv s' ∧ SendKeeps s s' ∧ (Fresh s → Fresh s') := by
  unfold sendmsg
  have same : ∀ {r note e}, SendSpec s m a res ip prio r s note e →
      SendSpec s m a res ip prio r s note e ∧ Inv s ∧ SendKeeps s s ∧ (Fresh s → Fresh s) :=
    fun hh => ⟨hh, h, ⟨rfl, rfl, rfl, rfl, rfl, rfl, rfl⟩, id⟩
  by_cases hw : s.shutW = true
  · rw [if_pos hw]; exact ⟨_, _, _, _, rfl, same (.shut hw)⟩
  rw [if_neg hw]
  have hw' : s.shutW = false := by simpa using hw
  by_cases hf : a.badFlags = true
  · rw [if_pos hf]; exact ⟨_, _, _, _, rfl, same (.flags hf)⟩
  rw [if_neg hf]
  have hf' : a.badFlags = false := by simpa using hf
  have hdest : (∃ dst, destination s a.addr = .ok dst ∧ Dest s a.addr dst) ∨
      (destination s a.addr = .error .EAFNOSUPPORT ∧ a.addr = .other) ∨
      (destination s a.addr = .error .EDESTADDRREQ ∧ a.addr = .missing ∧ s.peer = none) := by
    unfold destination
    cases a.addr with
    | inet x => exact .inl ⟨x, rfl, .given x⟩
    | other => exact .inr (.inl ⟨rfl, rfl⟩)
    | missing =>
      cases hp : s.peer with
      | some x => exact .inl ⟨x, rfl, .peer hp⟩
      | none => exact .inr (.inr ⟨rfl, rfl, rfl⟩)
  rcases hdest with ⟨dst, hd, hds⟩ | ⟨hd, h1⟩ | ⟨hd, h1, h2⟩
  rotate_left
  · rw [hd]; exact ⟨_, _, _, _, rfl, same (.family h1)⟩
  · rw [hd]; exact ⟨_, _, _, _, rfl, same (.noDest h1 h2)⟩
  rw [hd]
  simp only
  by_cases hl : totalLen a.iovs > maxSize
  · rw [if_pos hl]; exact ⟨_, _, _, _, rfl, same (.long hl)⟩
  rw [if_neg hl]
  rcases ensureBound_spec h hc dst res with ⟨b, hb1, hb2, hb3⟩ | ⟨b, hb1, hb2, hb3⟩ |
    ⟨e, hb1, hb2, hb3⟩
  rotate_left
  · rw [hb3]; exact ⟨_, _, _, _, rfl, same (.unreach hds hb1 hb2)⟩
  · rw [hb3]; exact ⟨_, _, _, _, rfl, same (.noPort hb1 hb2)⟩
  rw [hb3]
  simp only [R.bind_ok]
  have hi := bindInv h b hc
  unfold sendBody
  have hsp : s.send.hasSpace = decide (Room s) := by
    rw [Buf.hasSpace, h.outBytes]; rfl
  by_cases hroom : ¬ Room s
  · simp only [hsp, decide_eq_false hroom, Bool.not_false, if_true, R.bind_ok]
    have hwr : (({ s with bound := some b, assoc := true } : Sock α).refresh false).1.state.writable
        = false := by
      show s.send.hasSpace = false
      rw [hsp, decide_eq_false hroom]
    by_cases hn : (a.dontwait || s.nonblock) = true
    · refine ⟨.err .EWOULDBLOCK, (({ s with bound := some b, assoc := true } : Sock α).refresh false).1,
        (({ s with bound := some b, assoc := true } : Sock α).refresh false).2, [], ?_,
        .full hw' hroom (by simpa using hn) hb1 rfl rfl rfl, refresh_inv hi false,
        ⟨rfl, rfl, rfl, rfl, rfl, rfl, rfl⟩, fun _ => refresh_fresh hi.outBytes false⟩
      show (if (a.dontwait || s.nonblock) = true then _ else _) = _
      rw [if_pos hn]
    · have hn' : a.dontwait = false ∧ s.nonblock = false := by simpa using hn
      refine ⟨.blocked, (({ s with bound := some b, assoc := true } : Sock α).refresh false).1,
        (({ s with bound := some b, assoc := true } : Sock α).refresh false).2, [], ?_,
        .wait hw' hroom hn'.1 hn'.2 hb1 rfl rfl rfl hwr, refresh_inv hi false,
        ⟨rfl, rfl, rfl, rfl, rfl, rfl, rfl⟩, fun _ => refresh_fresh hi.outBytes false⟩
      show (if (a.dontwait || s.nonblock) = true then _ else _) = _
      rw [if_neg hn]
  · have hroom : Room s := Decidable.not_not.1 hroom
    simp only [hsp, decide_eq_true hroom, Bool.not_true, Bool.false_eq_true, if_false]
    obtain ⟨np1, np2, -⟩ := IoVec.C51_no_panic m a.iovs
    rcases IoVec.C51_read_exact m (Cursor.new a.iovs) (totalLen a.iovs) with
      ⟨-, hle, data, c', hr, hh, -⟩ | ⟨hfl, hr⟩ | ⟨-, -, hr⟩
    · rw [hr]
      simp only [R.bind_ok, R.unwrap_some, Buf.push, hsp, decide_eq_true hroom, R.assert_true]
      have hdl : data.length = totalLen a.iovs := by
        rw [hh.length, List.length_take]
        exact Nat.min_eq_left hle
      have hi2 : Inv' { s with
          bound := some b, assoc := true
          send := { s.send with
            buffer := s.send.buffer ++ [(data, (⟨sourceAddr b dst ip, dst, prio⟩ : SendHdr))]
            lenBytes := s.send.lenBytes + data.length } } := by
        refine ⟨?_, hi.innBytes, hi.assoc, hi.gone, hi.peer, hi.active⟩
        have := h.outBytes
        simp only [Sock.out, List.map_append, bytes_append] at this ⊢
        simp only [this]
        simp [bytes]
      rw [← hdl]
      refine ⟨_, _, _, _, rfl, .sent hw' hf' hds (by omega) hb1 hb2 hroom hh (source_spec ..) ?_ rfl
        rfl, hi2.refresh false, ⟨rfl, rfl, rfl, rfl, rfl, rfl, rfl⟩,
        fun _ => refresh_fresh hi2.outBytes false⟩
      simp [Sock.refresh, Sock.out]
    · rw [hr]
      simp only [R.bind_ok]
      exact ⟨_, _, _, _, rfl, .fault hfl hb1 rfl rfl rfl, refresh_inv hi false,
        ⟨rfl, rfl, rfl, rfl, rfl, rfl, rfl⟩, fun _ => refresh_fresh hi.outBytes false⟩
    · exact absurd hr np1

/-- **C52 (sending)**: a call to `sendmsg` on an open socket never panics; its result and effect are
as the table says, and it touches nothing but the send buffer, the address and the flags. -/
theorem C52_send (s : Sock α) (h : Inv s) (hc : s.state.closed = false) (m : Mem α) (a : SendArgs)
    (res : NetIface.Res) (ip prio : Nat) :
    ∃ r s' note e, sendmsg s m a res ip prio = .ok (r, s', note, e) ∧
      SendSpec s m a res ip prio r s' note e ∧ Inv s' ∧ SendKeeps s s' :=
  let ⟨r, s', note, e, h1, h2, h3, h4, _⟩ := sendmsg_spec h hc m a res ip prio
  ⟨r, s', note, e, h1, h2, h3, h4⟩

theorem Dest.unique {s : Sock α} {z : AddrArg} {d d' : SockAddr} (h : Dest s z d)
    (h' : Dest s z d') : d = d' := by
  cases h with
  | given => cases h'; rfl
  | peer hp =>
    cases h' with
    | peer hp' => exact Option.some.inj (hp.symm.trans hp')

/-- **C52 (a good send succeeds)**: when nothing stands against it, the datagram is queued. -/
theorem C52_send_ok (s : Sock α) (h : Inv s) (hc : s.state.closed = false) (m : Mem α) (a : SendArgs)
    (res : NetIface.Res) (ip prio : Nat) {dst b : SockAddr} (hw : s.shutW = false)
    (hf : a.badFlags = false) (hd : Dest s a.addr dst) (hl : totalLen a.iovs ≤ maxSize)
    (hb : Local s res b) (hr : s.bound = none ∨ Reaches b dst) (hroom : Room s)
    (hm : ¬ Faults m (span a.iovs)) :
    ∃ s' note p, sendmsg s m a res ip prio = .ok (.ok (totalLen a.iovs), s', note, [.sent p]) ∧
      p.dst = dst ∧ s'.out = s.out ++ [p] := by
  obtain ⟨r, s', note, e, h1, h2, -, -⟩ := C52_send s h hc m a res ip prio
  have hnd : ∀ d, Dest s a.addr d → d = dst := by
    intro d hd'
    exact hd'.unique hd
  cases h2 with
  | sent _ _ h5 _ _ _ _ h6 _ h7 _ _ =>
    have := hnd _ h5
    subst this
    have hlen := h6.length
    have hle : totalLen a.iovs ≤ (addrs a.iovs).length := by
      rw [IoVec.addrs_length]; exact Nat.mod_le ..
    rw [List.length_take, Nat.min_eq_left hle] at hlen
    rw [← hlen]
    exact ⟨_, _, _, h1, rfl, h7⟩
  | shut h3 => rw [hw] at h3; cases h3
  | flags h3 => rw [hf] at h3; cases h3
  | family h3 => rw [h3] at hd; cases hd
  | noDest h3 h4 =>
    rw [h3] at hd
    cases hd with
    | peer h5 => rw [h4] at h5; cases h5
  | long h3 => omega
  | unreach h3 h4 h5 =>
    rcases hr with h6 | h6
    · rw [h4] at h6; cases h6
    · have := hnd _ h3
      subst this
      cases hb with
      | old h7 => rw [h4] at h7; cases h7; exact absurd h6 h5
      | new h7 => rw [h4] at h7; cases h7
  | noPort h3 h4 =>
    cases hb with
    | old h5 => rw [h3] at h5; cases h5
    | new _ h5 => rw [h4] at h5; cases h5
  | fault h3 => exact absurd h3 hm
  | full _ h3 => exact absurd hroom h3
  | wait _ h3 => exact absurd hroom h3

/-! ## Receiving -/

/-- What `recvmsg` returns and does.  A datagram that is too long is cut; the rest of it is lost, and the
program is told. -/
inductive RecvSpec (s : Sock α) (m : Mem α) (a : RecvArgs) :
    Ret Received → Sock α → Mem α → List (Ev α) → Prop where
  | got {p l s'} : a.badFlags = false → s.inn = p :: l →
      ¬ Faults m ((addrs a.iovs).take (min (totalLen a.iovs) p.data.length)) →
      s'.inn = (if a.peek then p :: l else l) →
      RecvSpec s m a
        (.ok ⟨if a.trunc then p.data.length else min (totalLen a.iovs) p.data.length, some p.src,
          decide (totalLen a.iovs < p.data.length)⟩) s'
        (poke m ((addrs a.iovs).take (min (totalLen a.iovs) p.data.length))
          (p.data.take (min (totalLen a.iovs) p.data.length)))
        (if a.peek then [] else [.took p])
  | flags : a.badFlags = true → RecvSpec s m a (.err .EINVAL) s m []
  | fault {p l s' m'} : s.inn = p :: l →
      Faults m ((addrs a.iovs).take (min (totalLen a.iovs) p.data.length)) →
      s'.inn = (if a.peek then p :: l else l) →
      RecvSpec s m a (.err .EFAULT) s' m' (if a.peek then [] else [.took p])
  | empty {s'} : s.inn = [] → (a.dontwait = true ∨ s.nonblock = true) → s'.inn = [] →
      RecvSpec s m a (.err .EWOULDBLOCK) s' m []
  | shut {s'} : s.inn = [] → a.dontwait = false → s.nonblock = false → s.shutR = true →
      s'.inn = [] → RecvSpec s m a (.ok ⟨0, none, false⟩) s' m []
  | wait {s'} : s.inn = [] → a.dontwait = false → s.nonblock = false → s.shutR = false →
      s'.inn = [] → s'.state.readable = false → RecvSpec s m a .blocked s' m []

/-- What receiving leaves alone. -/
structure RecvKeeps (s s' : Sock α) : Prop where
  out : s'.out = s.out
  bound : s'.bound = s.bound
  peer : s'.peer = s.peer
  shutR : s'.shutR = s.shutR
  shutW : s'.shutW = s.shutW
  nonblock : s'.nonblock = s.nonblock
  sendLimit : s'.send.limit = s.send.limit
  recvLimit : s'.recv.limit = s.recv.limit
  closed : s'.state.closed = s.state.closed

theorem deliver_spec (s : Sock α) (m : Mem α) (a : RecvArgs) (data : List α) (h : RecvHdr) :
    (¬ Faults m ((addrs a.iovs).take (min (totalLen a.iovs) data.length)) ∧
      deliver s m a data h = .ok (.ok ⟨if a.trunc then data.length else
          min (totalLen a.iovs) data.length, some h.src, decide (totalLen a.iovs < data.length)⟩,
        { s with lastRecv := some h.time },
        poke m ((addrs a.iovs).take (min (totalLen a.iovs) data.length))
          (data.take (min (totalLen a.iovs) data.length)))) ∨
    (Faults m ((addrs a.iovs).take (min (totalLen a.iovs) data.length)) ∧ ∃ m',
      deliver s m a data h = .ok (.error .EFAULT, s, m')) := by
  unfold deliver
  have hl : (data.take (min (totalLen a.iovs) data.length)).length =
      min (totalLen a.iovs) data.length := by
    rw [List.length_take]; omega
  have hlt : decide (min (totalLen a.iovs) data.length < data.length) =
      decide (totalLen a.iovs < data.length) := by
    rw [decide_eq_decide]
    omega
  have hnp := (IoVec.C51_no_panic m a.iovs).2.2 (data.take (min (totalLen a.iovs) data.length))
    (by rw [hl]; omega)
  rcases IoVec.C51_write_all m (Cursor.new a.iovs) (data.take (min (totalLen a.iovs) data.length))
    with ⟨h1, h2, c', h3, -⟩ | ⟨h1, k, -, h3, -⟩ | ⟨-, -, h3⟩
  · left
    rw [hl] at h1 h3
    refine ⟨h1, ?_⟩
    simp only [h3, R.bind_ok, hl, hlt]
    rfl
  · right
    rw [hl] at h1
    refine ⟨h1, poke m (List.take k (Cursor.new a.iovs).left)
        (List.take k (data.take (min (totalLen a.iovs) data.length))), ?_⟩
    simp only [h3]; rfl
  · exact absurd h3 (hnp _).1

theorem recvmsg_spec {s : Sock α} (h : Inv s) (m : Mem α) (a : RecvArgs) :
    ∃ r s' m' note e, recvmsg s m a = .ok (r, s', m', note, e) ∧ RecvSpec s m a r s' m' e ∧
      Inv s' ∧ RecvKeeps s s' ∧ (Fresh s → Fresh s') := by
  unfold recvmsg
  by_cases hf : a.badFlags = true
  · rw [if_pos hf]
    exact ⟨_, _, _, _, _, rfl, .flags hf, h, ⟨rfl, rfl, rfl, rfl, rfl, rfl, rfl, rfl, rfl⟩, id⟩
  rw [if_neg hf]
  have hf' : a.badFlags = false := by simpa using hf
  -- the body
  have body : (s.inn = [] ∧ recvBody s m a = .ok (.error .EWOULDBLOCK, s, m, [])) ∨
      (∃ p l s1, s.inn = p :: l ∧ s1.inn = (if a.peek then p :: l else l) ∧ RecvKeeps s s1 ∧
        Inv' s1 ∧
        ((¬ Faults m ((addrs a.iovs).take (min (totalLen a.iovs) p.data.length)) ∧
          recvBody s m a = .ok (.ok ⟨if a.trunc then p.data.length else
            min (totalLen a.iovs) p.data.length, some p.src,
            decide (totalLen a.iovs < p.data.length)⟩, s1,
            poke m ((addrs a.iovs).take (min (totalLen a.iovs) p.data.length))
              (p.data.take (min (totalLen a.iovs) p.data.length)),
            (if a.peek then [] else [.took p]))) ∨
        (Faults m ((addrs a.iovs).take (min (totalLen a.iovs) p.data.length)) ∧ ∃ m',
          recvBody s m a = .ok (.error .EFAULT, s1, m', (if a.peek then [] else [.took p]))))) := by
    unfold recvBody Buf.pop
    have hb := h.innBytes
    unfold Sock.inn at hb
    unfold Sock.inn
    cases hbuf : s.recv.buffer with
    | nil =>
      left
      refine ⟨rfl, ?_⟩
      split <;> rfl
    | cons x xs =>
      obtain ⟨data, hd⟩ := x
      right
      rw [hbuf] at hb
      simp only [List.map_cons, bytes_cons] at hb
      have hw := h.weaken
      have keeps : RecvKeeps s s := ⟨rfl, rfl, rfl, rfl, rfl, rfl, rfl, rfl, rfl⟩
      have hw2 : ∀ t, Inv' { s with lastRecv := t } := fun t =>
        ⟨hw.outBytes, hw.innBytes, hw.assoc, hw.gone, hw.peer, hw.active⟩
      have hpop : ∀ t, Inv' { s with recv := { s.recv with buffer := xs
                                                           lenBytes := s.recv.lenBytes - data.length }
                                     lastRecv := t } := by
        intro t
        refine ⟨hw.outBytes, ?_, hw.assoc, hw.gone, hw.peer, hw.active⟩
        show s.recv.lenBytes - data.length = bytes (xs.map _)
        omega
      by_cases hp : a.peek = true
      · simp only [hp, if_true]
        rcases deliver_spec s m a data hd with ⟨h1, h2⟩ | ⟨h1, m', h2⟩
        · refine ⟨⟨hd.src, hd.dst, data⟩, xs.map _, { s with lastRecv := some hd.time }, rfl, ?_,
            ⟨rfl, rfl, rfl, rfl, rfl, rfl, rfl, rfl, rfl⟩, hw2 _, .inl ⟨h1, ?_⟩⟩
          · show s.recv.buffer.map _ = _
            rw [hbuf]; rfl
          · rw [h2]; rfl
        · refine ⟨⟨hd.src, hd.dst, data⟩, xs.map _, s, rfl, ?_, keeps, hw, .inr ⟨h1, m', ?_⟩⟩
          · rw [hbuf]; rfl
          · rw [h2]; rfl
      · have hp' : a.peek = false := by simpa using hp
        have hle : data.length ≤ s.recv.lenBytes := by omega
        simp only [hp', Bool.false_eq_true, if_false, decide_eq_true hle, R.assert_true, R.bind_ok]
        rcases deliver_spec { s with recv := { s.recv with
            buffer := xs, lenBytes := s.recv.lenBytes - data.length } } m a data hd with
          ⟨h1, h2⟩ | ⟨h1, m', h2⟩
        · refine ⟨⟨hd.src, hd.dst, data⟩, xs.map _, _, rfl, ?_, ?_, hpop (some hd.time),
            .inl ⟨h1, ?_⟩⟩
          · rfl
          · exact ⟨rfl, rfl, rfl, rfl, rfl, rfl, rfl, rfl, rfl⟩
          · rw [h2]; rfl
        · refine ⟨⟨hd.src, hd.dst, data⟩, xs.map _, _, rfl, ?_, ?_, hpop s.lastRecv,
            .inr ⟨h1, m', ?_⟩⟩
          · rfl
          · exact ⟨rfl, rfl, rfl, rfl, rfl, rfl, rfl, rfl, rfl⟩
          · rw [h2]; rfl
  have rk : ∀ {s1 : Sock α}, RecvKeeps s s1 → RecvKeeps s (s1.refresh false).1 :=
    fun hk => ⟨hk.out, hk.bound, hk.peer, hk.shutR, hk.shutW, hk.nonblock, hk.sendLimit,
      hk.recvLimit, hk.closed⟩
  rcases body with ⟨h1, h2⟩ | ⟨p, l, s1, h1, h2, h3, h4, h5⟩
  · rw [h2]
    simp only [R.bind_ok]
    have hk : RecvKeeps s (s.refresh false).1 := ⟨rfl, rfl, rfl, rfl, rfl, rfl, rfl, rfl, rfl⟩
    have hi := refresh_inv h false
    have hfr : Fresh s → Fresh (s.refresh false).1 := fun _ => refresh_fresh h.outBytes false
    by_cases hn : (a.dontwait || s.nonblock) = true
    · refine ⟨.err .EWOULDBLOCK, (s.refresh false).1, m, (s.refresh false).2, [], ?_,
        .empty h1 (by simpa using hn) h1, hi, hk, hfr⟩
      show (if (a.dontwait || s.nonblock) = true then _ else _) = _
      rw [if_pos hn]
    have hn' : a.dontwait = false ∧ s.nonblock = false := by simpa using hn
    by_cases hs : s.shutR = true
    · refine ⟨.ok ⟨0, none, false⟩, (s.refresh false).1, m, (s.refresh false).2, [], ?_,
        .shut h1 hn'.1 hn'.2 hs h1, hi, hk, hfr⟩
      show (if (a.dontwait || s.nonblock) = true then _ else if s.shutR = true then _ else _) = _
      rw [if_neg hn, if_pos hs]
    · refine ⟨.blocked, (s.refresh false).1, m, (s.refresh false).2, [], ?_,
        .wait h1 hn'.1 hn'.2 (by simpa using hs) h1 ?_, hi, hk, hfr⟩
      · show (if (a.dontwait || s.nonblock) = true then _ else if s.shutR = true then _ else _) = _
        rw [if_neg hn, if_neg hs]
      · show (!s.recv.buffer.isEmpty) = false
        have : s.recv.buffer = [] := by simpa [Sock.inn] using h1
        rw [this]; rfl
  · have hi := h4.refresh false
    have hfr : Fresh s → Fresh (s1.refresh false).1 := fun _ => refresh_fresh h4.outBytes false
    rcases h5 with ⟨h6, h7⟩ | ⟨h6, m', h7⟩
    · rw [h7]
      exact ⟨_, (s1.refresh false).1, _, _, _, rfl, .got hf' h1 h6 h2, hi, rk h3, hfr⟩
    · rw [h7]
      exact ⟨_, (s1.refresh false).1, _, _, _, rfl, .fault h1 h6 h2, hi, rk h3, hfr⟩

/-- **C52 (receiving)**: a call to `recvmsg` never panics; its result and effect are as the table says,
and it touches nothing but the receive buffer, the time of the last packet and the flags. -/
theorem C52_recv (s : Sock α) (h : Inv s) (m : Mem α) (a : RecvArgs) :
    ∃ r s' m' note e, recvmsg s m a = .ok (r, s', m', note, e) ∧ RecvSpec s m a r s' m' e ∧
      Inv s' ∧ RecvKeeps s s' :=
  let ⟨r, s', m', note, e, h1, h2, h3, h4, _⟩ := recvmsg_spec h m a
  ⟨r, s', m', note, e, h1, h2, h3, h4⟩

/-- **C52 (peeking)**: `MSG_PEEK` gives what the next receive gives, to the same places, and keeps the
datagram. -/
theorem C52_peek (s : Sock α) (h : Inv s) (m : Mem α) (a : RecvArgs) {r s1 m1 n1 e1}
    (hp : recvmsg s m { a with peek := true } = .ok (r, s1, m1, n1, e1)) :
    s1.inn = s.inn ∧ e1 = [] ∧ ∃ s2 n2 e2,
      recvmsg s m { a with peek := false } = .ok (r, s2, m1, n2, e2) := by
  have key : ∀ {r' s' m' e'}, RecvSpec s m { a with peek := true } r' s' m' e' →
      s'.inn = s.inn ∧ e' = [] := by
    intro r' s' m' e' hh
    cases hh with
    | got _ h1 _ h2 => exact ⟨by rw [h1, h2]; rfl, rfl⟩
    | flags => exact ⟨rfl, rfl⟩
    | fault h1 _ h2 => exact ⟨by rw [h1, h2]; rfl, rfl⟩
    | empty h1 _ h2 => exact ⟨by rw [h1, h2], rfl⟩
    | shut h1 _ _ _ h2 => exact ⟨by rw [h1, h2], rfl⟩
    | wait h1 _ _ _ h2 => exact ⟨by rw [h1, h2], rfl⟩
  obtain ⟨r', s', m', n', e', h1, h2, -, -⟩ := C52_recv s h m { a with peek := true }
  rw [hp] at h1
  obtain ⟨e1, e2, e3, e4, e5⟩ : r = r' ∧ s1 = s' ∧ m1 = m' ∧ n1 = n' ∧ e1 = e' := by
    have := R.ok.inj h1
    simpa using this
  subst e1; subst e2; subst e3; subst e4; subst e5
  refine ⟨(key h2).1, (key h2).2, ?_⟩
  clear h1
  -- by evaluation
  unfold recvmsg at hp ⊢
  simp only at hp ⊢
  by_cases hf : a.badFlags = true
  · rw [if_pos hf] at hp
    rw [if_pos hf]
    cases hp
    exact ⟨_, _, _, rfl⟩
  rw [if_neg hf] at hp
  rw [if_neg hf]
  unfold recvBody Buf.pop at hp ⊢
  simp only [if_true, Bool.false_eq_true, if_false] at hp ⊢
  have hb := h.innBytes
  unfold Sock.inn at hb
  cases hbuf : s.recv.buffer with
  | nil =>
    rw [hbuf] at hp
    simp only [R.bind_ok] at hp ⊢
    exact ⟨_, _, _, hp⟩
  | cons x xs =>
    obtain ⟨data, hd⟩ := x
    rw [hbuf] at hp hb
    simp only [List.map_cons, bytes_cons] at hb
    have hle : data.length ≤ s.recv.lenBytes := by omega
    simp only [decide_eq_true hle, R.assert_true, R.bind_ok] at hp ⊢
    rcases deliver_spec { s with recv := { s.recv with
        buffer := xs, lenBytes := s.recv.lenBytes - data.length } } m { a with peek := false } data hd
      with ⟨g1, g2⟩ | ⟨g1, m', g2⟩
    · rcases deliver_spec s m { a with peek := true } data hd with ⟨f1, f2⟩ | ⟨f1, m'', f2⟩
      · rw [f2] at hp
        rw [g2]
        simp only [R.bind_ok] at hp ⊢
        cases hp
        exact ⟨_, _, _, rfl⟩
      · exact absurd f1 g1
    · rcases deliver_spec s m { a with peek := true } data hd with ⟨f1, f2⟩ | ⟨f1, m'', f2⟩
      · exact absurd g1 f1
      · have : m' = m'' := by
          unfold deliver at f2 g2
          simp only at f2 g2
          generalize writeAll m (Cursor.new a.iovs) _ = w at f2 g2
          match w, f2, g2 with
          | .ok (.fault, w'), f2, g2 =>
            simp only [R.bind_ok] at f2 g2
            cases f2; cases g2; rfl
        subst this
        rw [f2] at hp
        rw [g2]
        simp only [R.bind_ok] at hp ⊢
        cases hp
        exact ⟨_, _, _, rfl⟩

end Shadow.Udp
