import Verif.Udp.Props

/-!
# UDP sockets: executions (C52)
-/
namespace Shadow.Udp
open Shadow.Base
open Shadow.NetIface (SockAddr localhostIp)
open Shadow.IoVec (Mem Iov Cursor totalLen addrs)

variable {α : Type}

/-! ## Addresses -/

/-- **C52 (bind)**: a socket is bound at most once; it gets the address that the namespace gives. -/
theorem C52_bind (s : Sock α) (h : Inv s) (hc : s.state.closed = false) (arg : AddrArg)
    (res : NetIface.Res) :
    ∃ r s', bind s arg res = .ok (r, s') ∧ Inv s' ∧ s'.out = s.out ∧ s'.inn = s.inn ∧
      s'.peer = s.peer ∧
      ((arg = .missing ∧ r = .error .EFAULT ∧ s' = s) ∨
       (arg = .other ∧ r = .error .EINVAL ∧ s' = s) ∨
       (∃ a b, arg = .inet a ∧ s.bound = some b ∧ r = .error .EINVAL ∧ s' = s) ∨
       (∃ a e, arg = .inet a ∧ s.bound = none ∧ res = .err e ∧ r = .error (ofAssoc e) ∧ s' = s) ∨
       (∃ a b, arg = .inet a ∧ s.bound = none ∧ res = .ok b ∧ r = .ok () ∧ s'.bound = some b)) := by
  unfold bind
  cases arg with
  | missing => exact ⟨_, _, rfl, h, rfl, rfl, rfl, .inl ⟨rfl, rfl, rfl⟩⟩
  | other => exact ⟨_, _, rfl, h, rfl, rfl, rfl, .inr (.inl ⟨rfl, rfl, rfl⟩)⟩
  | inet a =>
    simp only
    cases hb : s.bound with
    | some b =>
      exact ⟨_, _, rfl, h, rfl, rfl, rfl, .inr (.inr (.inl ⟨a, b, rfl, rfl, rfl, rfl⟩))⟩
    | none =>
      have ha := h.assoc hc
      rw [hb] at ha
      have hp : s.peer.isNone = true := by
        cases hp : s.peer with
        | none => rfl
        | some a =>
          have := h.peer (by rw [hp]; rfl)
          rw [hb] at this; cases this
      simp only [ha, hp, Option.isSome_none, Bool.not_false, R.assert_true, R.bind_ok,
        Bool.false_eq_true, if_false]
      cases res with
      | err e =>
        exact ⟨_, _, rfl, h, rfl, rfl, rfl,
          .inr (.inr (.inr (.inl ⟨a, e, rfl, trivial, rfl, rfl, rfl⟩)))⟩
      | ok b =>
        exact ⟨_, _, rfl, bindInv h b hc, rfl, rfl, rfl,
          .inr (.inr (.inr (.inr ⟨a, b, rfl, trivial, rfl, rfl, rfl⟩)))⟩

/-- **C52 (connect)**: the peer is the given address, with the loopback address for 0.0.0.0.  It must
be on the loopback interface or routable, and reachable from the address of the socket. -/
theorem C52_connect (s : Sock α) (h : Inv s) (hc : s.state.closed = false) (arg : AddrArg)
    (routable : Bool) (res : NetIface.Res) :
    ∃ r s', connect s arg routable res = .ok (r, s') ∧ Inv s' ∧ s'.out = s.out ∧ s'.inn = s.inn ∧
      s'.shutW = s.shutW ∧ s'.shutR = s.shutR ∧
      (((∀ a, arg ≠ .inet a) ∧ r = .error .EINVAL ∧ s' = s) ∨
       (∃ a p, arg = .inet a ∧ p.port = a.port ∧ p.ip = (if a.ip = 0 then localhostIp else a.ip) ∧
        ((p.ip ≠ localhostIp ∧ routable = false ∧ r = .error .ECONNREFUSED ∧ s' = s) ∨
         (∃ b, s.bound = some b ∧ ¬ Reaches b p ∧ r = .error .EINVAL ∧ s' = s) ∨
         (∃ e, s.bound = none ∧ res = .err e ∧ r = .error (ofAssoc e) ∧ s' = s) ∨
         (∃ b, Local s res b ∧ (s.bound = none ∨ Reaches b p) ∧
          (p.ip = localhostIp ∨ routable = true) ∧ r = .ok () ∧ s'.bound = some b ∧
          s'.peer = some p)))) := by
  unfold connect
  cases arg with
  | missing => exact ⟨_, _, rfl, h, rfl, rfl, rfl, rfl, .inl ⟨by simp, rfl, rfl⟩⟩
  | other => exact ⟨_, _, rfl, h, rfl, rfl, rfl, rfl, .inl ⟨by simp, rfl, rfl⟩⟩
  | inet a =>
    simp only
    have hport : (if a.ip = 0 then { a with ip := localhostIp } else a : SockAddr).port = a.port := by
      split <;> rfl
    have hip : (if a.ip = 0 then { a with ip := localhostIp } else a : SockAddr).ip =
        (if a.ip = 0 then localhostIp else a.ip) := by split <;> rfl
    generalize (if a.ip = 0 then { a with ip := localhostIp } else a : SockAddr) = p at *
    by_cases hr : p.ip ≠ localhostIp ∧ routable = false
    · rw [if_pos hr]
      exact ⟨_, _, rfl, h, rfl, rfl, rfl, rfl,
        .inr ⟨a, p, rfl, hport, hip, .inl ⟨hr.1, hr.2, rfl, rfl⟩⟩⟩
    rw [if_neg hr]
    have hr' : p.ip = localhostIp ∨ routable = true := by
      by_cases h1 : p.ip = localhostIp
      · exact .inl h1
      · right
        cases routable with
        | true => rfl
        | false => exact absurd ⟨h1, rfl⟩ hr
    rcases ensureBound_spec h hc p res with ⟨b, h1, h2, h3⟩ | ⟨b, h1, h2, h3⟩ | ⟨e, h1, h2, h3⟩
    · rw [h3]
      have hi := bindInv h b hc
      exact ⟨_, _, rfl, ⟨hi.outBytes, hi.innBytes, hi.assoc, hi.gone, fun _ => rfl, hi.readable,
        hi.active⟩, rfl, rfl, rfl, rfl,
        .inr ⟨a, p, rfl, hport, hip, .inr (.inr (.inr ⟨b, h1, h2, hr', rfl, rfl, rfl⟩))⟩⟩
    · rw [h3]
      exact ⟨_, _, rfl, h, rfl, rfl, rfl, rfl,
        .inr ⟨a, p, rfl, hport, hip, .inr (.inl ⟨b, h1, h2, rfl, rfl⟩)⟩⟩
    · rw [h3]
      exact ⟨_, _, rfl, h, rfl, rfl, rfl, rfl,
        .inr ⟨a, p, rfl, hport, hip, .inr (.inr (.inl ⟨e, h1, h2, rfl, rfl⟩))⟩⟩

/-- **C52 (close)**: the socket leaves the interface, reports only that it is closed, and the datagrams
that it has accepted for sending stay. -/
theorem C52_close (s : Sock α) (h : Inv s) :
    (close s).1.state = ⟨false, true, false, false⟩ ∧ (close s).1.assoc = false ∧
    (close s).1.out = s.out ∧ Inv (close s).1 ∧
    (s.state.closed = false → ∃ n, (close s).2 = some n ∧ n.state = (close s).1.state ∧
      n.changed.closed = true) := by
  refine ⟨rfl, rfl, rfl, ⟨h.outBytes, h.innBytes, fun h' => (by cases h'), fun _ => rfl, h.peer,
    fun h' => (by cases h'), rfl⟩, fun hc => ?_⟩
  simp only [close, noteOf, hc]
  rw [if_neg (fun h' => by
    have := congrArg Flags.closed h'.1
    cases this)]
  exact ⟨_, rfl, rfl, rfl⟩

/-! ## Executions -/

/-- The datagrams in the events, by kind. -/
def sent (e : List (Ev α)) : List (Pkt α) := e.filterMap fun | .sent p => some p | _ => none
def pulled (e : List (Ev α)) : List (Pkt α) := e.filterMap fun | .pulled p => some p | _ => none
def accepted (e : List (Ev α)) : List (Pkt α) := e.filterMap fun | .accepted p => some p | _ => none
def took (e : List (Ev α)) : List (Pkt α) := e.filterMap fun | .took p => some p | _ => none
def refused (e : List (Ev α)) : List (Pkt α) := e.filterMap fun | .refused p => some p | _ => none

/-- What one call does to the queues. -/
structure Moves (s s' : Sock α) (e : List (Ev α)) : Prop where
  out : s.out ++ sent e = pulled e ++ s'.out
  inn : s.inn ++ accepted e = took e ++ s'.inn
  bound : ∀ b, s.bound = some b → s'.bound = some b
  peer : s.peer.isSome → s'.peer.isSome
  shutR : s.shutR = true → s'.shutR = true
  shutW : s.shutW = true → s'.shutW = true ∧ sent e = []
  only : ∀ p ∈ accepted e, ∀ a, s.peer = some a → p.src = a
  small : ∀ p ∈ sent e, p.data.length ≤ maxSize ∧ bytes s.out < s.send.limit ∧
    s'.out = s.out ++ [p]
  one : e.length ≤ 1

theorem Moves.quiet {s s' : Sock α} (ho : s'.out = s.out) (hi : s'.inn = s.inn)
    (hb : ∀ b, s.bound = some b → s'.bound = some b) (hp : s.peer.isSome → s'.peer.isSome)
    (hr : s.shutR = true → s'.shutR = true) (hw : s.shutW = true → s'.shutW = true) :
    Moves s s' [] where
  out := by simp [ho, sent, pulled]
  inn := by simp [hi, accepted, took]
  bound := hb
  peer := hp
  shutR := hr
  shutW := fun h => ⟨hw h, rfl⟩
  only := by simp [accepted]
  small := by simp [sent]
  one := by simp

theorem step_spec {s : Sock α} (h : Inv s) {a : Act α} {r} (hs : step s a = some r) :
    ∃ s' e, r = .ok (s', e) ∧ Inv s' ∧ Moves s s' e ∧
      ((∀ v, a ≠ .setSndBuf v) → s'.state.closed = false → Fresh s → Fresh s') := by
  have same : Moves s s [] :=
    Moves.quiet rfl rfl (fun _ h => h) id id id
  cases a with
  | pullOut =>
    simp only [step, Option.some.injEq] at hs
    rcases C52_pull_out s h with ⟨h1, h2⟩ | ⟨p, l, prio, s', note, h1, h2, h3, h4, h5, h6, h7, h8, h9,
      h10, h11, h12⟩
    · rw [h2] at hs
      exact ⟨s, [], hs.symm, h, same, fun _ _ => id⟩
    · rw [h2] at hs
      refine ⟨s', _, hs.symm, h11, ⟨?_, ?_, ?_, ?_, ?_, ?_, ?_, ?_, ?_⟩, fun _ _ _ => h12⟩
      · simp [h1, h3, sent, pulled]
      · simp [h4, accepted, took]
      · intro b hb; rw [h6, hb]
      · intro hp; rw [h5]; exact hp
      · intro hp; rw [h7]; exact hp
      · intro hp; rw [h8]; exact ⟨hp, rfl⟩
      · simp [accepted]
      · simp [sent]
      · simp
  | pushIn p t =>
    by_cases hc : s.state.closed = true
    · simp [step, hc] at hs
    simp only [step, if_neg hc, Option.some.injEq] at hs
    rcases C52_push_in s h p t with ⟨h1, h2⟩ | ⟨h1, h2, s', note, h3, h4, h5, h6, h7, h8, h9, h10,
      h11, h12, h13, h14, h15⟩
    · rw [h2] at hs
      refine ⟨s, _, hs.symm, h, ⟨?_, ?_, fun _ h => h, id, id, fun h => ⟨h, rfl⟩, ?_, ?_, ?_⟩,
        fun _ _ => id⟩
      · simp [sent, pulled]
      · simp [accepted, took]
      · simp [accepted]
      · simp [sent]
      · simp
    · rw [h3] at hs
      refine ⟨s', _, hs.symm, h14, ⟨?_, ?_, ?_, ?_, ?_, ?_, ?_, ?_, ?_⟩, fun _ _ _ => h15⟩
      · simp [h5, sent, pulled]
      · simp [h4, accepted, took]
      · intro b hb; rw [h7, hb]
      · intro hp; rw [h6]; exact hp
      · intro hp; rw [h8]; exact hp
      · intro hp; rw [h9]; exact ⟨hp, rfl⟩
      · intro q hq a ha
        simp only [accepted, List.filterMap_cons, List.filterMap_nil, List.mem_singleton] at hq
        subst hq
        exact (h1 a ha).symm
      · simp [sent]
      · simp
  | bind arg res =>
    by_cases hc : s.state.closed = true
    · simp [step, hc] at hs
    simp only [step, if_neg hc, Option.some.injEq] at hs
    obtain ⟨r', s', h1, h2, h3, h4, h5, h6⟩ := C52_bind s h (by simpa using hc) arg res
    have hr : s'.shutR = s.shutR ∧ s'.shutW = s.shutW ∧ s'.state = s.state ∧ s'.send = s.send := by
      unfold bind at h1
      split at h1
      · cases h1; exact ⟨rfl, rfl, rfl, rfl⟩
      · cases h1; exact ⟨rfl, rfl, rfl, rfl⟩
      · split at h1
        · cases h1; exact ⟨rfl, rfl, rfl, rfl⟩
        · obtain ⟨_, _, h1⟩ := (R.bind_eq_ok ..).1 h1
          obtain ⟨_, _, h1⟩ := (R.bind_eq_ok ..).1 h1
          split at h1 <;> cases h1 <;> exact ⟨rfl, rfl, rfl, rfl⟩
    rw [h1] at hs
    refine ⟨s', [], hs.symm, h2, Moves.quiet h3 h4 ?_ (by rw [h5]; exact id) (by rw [hr.1]; exact id)
      (by rw [hr.2.1]; exact id), fun _ _ hf => ?_⟩
    · intro b hb
      rcases h6 with ⟨_, _, h7⟩ | ⟨_, _, h7⟩ | ⟨_, _, _, _, _, h7⟩ | ⟨_, _, _, _, _, _, h7⟩ |
        ⟨_, _, _, h7, _⟩
      · rw [h7, hb]
      · rw [h7, hb]
      · rw [h7, hb]
      · rw [h7, hb]
      · rw [hb] at h7; cases h7
    · unfold Fresh Room at *
      rw [hr.2.2.1, hr.2.2.2, h3]; exact hf
  | connect arg rt res =>
    by_cases hc : s.state.closed = true
    · simp [step, hc] at hs
    simp only [step, if_neg hc, Option.some.injEq] at hs
    obtain ⟨r', s', h1, h2, h3, h4, h5, h6, h7⟩ := C52_connect s h (by simpa using hc) arg rt res
    rw [h1] at hs
    have hkeep : (∀ b, s.bound = some b → s'.bound = some b) ∧
        (s.peer.isSome → s'.peer.isSome) := by
      rcases h7 with ⟨_, _, h8⟩ | ⟨_, _, _, _, _, ⟨_, _, _, h8⟩ | ⟨_, _, _, _, h8⟩ | ⟨_, _, _, _, h8⟩ |
        ⟨b, h9, _, _, _, h10, h11⟩⟩
      · subst h8; exact ⟨fun _ h => h, id⟩
      · subst h8; exact ⟨fun _ h => h, id⟩
      · subst h8; exact ⟨fun _ h => h, id⟩
      · subst h8; exact ⟨fun _ h => h, id⟩
      · refine ⟨fun b' hb' => ?_, fun _ => by rw [h11]; rfl⟩
        cases h9 with
        | old h12 => rw [h10, ← h12, hb']
        | new h12 => rw [hb'] at h12; cases h12
    have hst : s'.state = s.state ∧ s'.send = s.send := by
      have eb : ∀ d x y, ensureBound s d res = .ok (x, y) → y.state = s.state ∧ y.send = s.send := by
        intro d x y hh
        unfold ensureBound at hh
        split at hh
        · obtain ⟨_, _, hh⟩ := (R.bind_eq_ok ..).1 hh
          split at hh <;> cases hh <;> exact ⟨rfl, rfl⟩
        · obtain ⟨_, _, hh⟩ := (R.bind_eq_ok ..).1 hh
          obtain ⟨_, _, hh⟩ := (R.bind_eq_ok ..).1 hh
          split at hh <;> cases hh <;> exact ⟨rfl, rfl⟩
      unfold connect at h1
      split at h1
      · simp only at h1
        generalize (if _ = 0 then _ else _ : SockAddr) = p at h1
        split at h1
        · cases h1; exact ⟨rfl, rfl⟩
        · obtain ⟨⟨x, y⟩, h8, h1⟩ := (R.bind_eq_ok ..).1 h1
          have := eb _ _ _ h8
          split at h1 <;> rename_i he <;> cases he <;> cases h1 <;> exact this
      · cases h1; exact ⟨rfl, rfl⟩
    refine ⟨s', [], hs.symm, h2, Moves.quiet h3 h4 hkeep.1 hkeep.2 (by rw [h6]; exact id)
      (by rw [h5]; exact id), fun _ _ hf => ?_⟩
    unfold Fresh Room at *
    rw [hst.1, hst.2, h3]; exact hf
  | sendmsg m arg res ip prio =>
    by_cases hc : s.state.closed = true
    · simp [step, hc] at hs
    simp only [step, if_neg hc, Option.some.injEq] at hs
    obtain ⟨r', s', note, e, h1, h2, h3, h4, h5⟩ :=
      sendmsg_spec h (by simpa using hc) m arg res ip prio
    rw [h1] at hs
    refine ⟨s', e, hs.symm, h3, ?_, fun _ _ => h5⟩
    have hloc : ∀ b b', Local s res b → s.bound = some b' → some b = some b' := by
      intro b b' hl hb
      cases hl with
      | old h12 => exact h12.symm.trans hb
      | new h12 => rw [hb] at h12; cases h12
    have quiet : ∀ b, Local s res b → s'.out = s.out → s'.bound = some b → s'.peer = s.peer →
        Moves s s' [] := by
      intro b hl ho hb hp
      refine Moves.quiet ho h4.inn ?_ (by rw [hp]; exact id) (by rw [h4.shutR]; exact id)
        (by rw [h4.shutW]; exact id)
      intro b' hb'
      rw [hb]; exact hloc b b' hl hb'
    cases h2 with
    | sent g1 _ _ g2 g3 _ g4 _ _ g5 g6 g7 =>
      refine ⟨by simp [g5, sent, pulled], by simp [h4.inn, accepted, took],
        fun b' hb' => by rw [g6]; exact hloc _ _ g3 hb', by rw [g7]; exact id,
        by rw [h4.shutR]; exact id, fun hw => (by rw [g1] at hw; cases hw), by simp [accepted], ?_,
        by simp⟩
      intro p hp
      simp only [sent, List.filterMap_cons, List.filterMap_nil, List.mem_singleton] at hp
      subst hp
      exact ⟨g2, g4, g5⟩
    | shut => exact same
    | flags => exact same
    | family => exact same
    | noDest => exact same
    | long => exact same
    | unreach => exact same
    | noPort => exact same
    | fault _ g1 g2 g3 g4 => exact quiet _ g1 g2 g3 g4
    | full _ _ _ g1 g2 g3 g4 => exact quiet _ g1 g2 g3 g4
    | wait _ _ _ _ g1 g2 g3 g4 => exact quiet _ g1 g2 g3 g4
  | recvmsg m arg =>
    by_cases hc : s.state.closed = true
    · simp [step, hc] at hs
    simp only [step, if_neg hc, Option.some.injEq] at hs
    obtain ⟨r', s', m', note, e, h1, h2, h3, h4, h5⟩ := recvmsg_spec h m arg
    rw [h1] at hs
    refine ⟨s', e, hs.symm, h3, ?_, fun _ _ => h5⟩
    have quiet : s'.inn = s.inn → Moves s s' [] := fun hi =>
      Moves.quiet h4.out hi (by rw [h4.bound]; exact fun _ h => h) (by rw [h4.peer]; exact id)
        (by rw [h4.shutR]; exact id) (by rw [h4.shutW]; exact id)
    have take : ∀ p l, s.inn = p :: l → s'.inn = (if arg.peek then p :: l else l) →
        Moves s s' (if arg.peek then [] else [.took p]) := by
      intro p l g1 g2
      by_cases hp : arg.peek = true
      · rw [if_pos hp] at g2 ⊢
        exact quiet (by rw [g1, g2])
      · rw [if_neg hp] at g2 ⊢
        exact ⟨by simp [h4.out, sent, pulled], by simp [g1, g2, accepted, took],
          by rw [h4.bound]; exact fun _ h => h, by rw [h4.peer]; exact id,
          by rw [h4.shutR]; exact id, by rw [h4.shutW]; exact fun h => ⟨h, rfl⟩,
          by simp [accepted], by simp [sent], by simp⟩
    cases h2 with
    | got _ g1 _ g2 => exact take _ _ g1 g2
    | flags => exact same
    | fault g1 _ g2 => exact take _ _ g1 g2
    | empty g1 _ g2 => exact quiet (by rw [g1, g2])
    | shut g1 _ _ _ g2 => exact quiet (by rw [g1, g2])
    | wait g1 _ _ _ g2 => exact quiet (by rw [g1, g2])
  | shutdown how =>
    by_cases hc : s.state.closed = true
    · simp [step, hc] at hs
    simp only [step, if_neg hc, Option.some.injEq] at hs
    refine ⟨_, _, hs.symm, ?_, ?_, ?_⟩
    · unfold shutdown
      split
      · exact h
      · exact ⟨h.outBytes, h.innBytes, h.assoc, h.gone, h.peer, h.readable, h.active⟩
    · unfold shutdown
      split
      · exact same
      · refine Moves.quiet rfl rfl (fun _ h => h) id ?_ ?_
        · intro hr; simp [hr]
        · intro hw; simp [hw]
    · unfold shutdown
      split
      · exact fun _ _ => id
      · exact fun _ _ => id
  | setSndBuf v =>
    by_cases hc : s.state.closed = true
    · simp [step, hc] at hs
    simp only [step, if_neg hc, Option.some.injEq] at hs
    exact ⟨_, _, hs.symm, ⟨h.outBytes, h.innBytes, h.assoc, h.gone, h.peer, h.readable, h.active⟩,
      Moves.quiet rfl rfl (fun _ h => h) id id id, fun h' => absurd rfl (h' v)⟩
  | setRcvBuf v =>
    by_cases hc : s.state.closed = true
    · simp [step, hc] at hs
    simp only [step, if_neg hc, Option.some.injEq] at hs
    exact ⟨_, _, hs.symm, ⟨h.outBytes, h.innBytes, h.assoc, h.gone, h.peer, h.readable, h.active⟩,
      Moves.quiet rfl rfl (fun _ h => h) id id id, fun _ _ => id⟩
  | close =>
    by_cases hc : s.state.closed = true
    · simp [step, hc] at hs
    simp only [step, if_neg hc, Option.some.injEq] at hs
    exact ⟨_, _, hs.symm, (C52_close s h).2.2.2.1, Moves.quiet rfl rfl (fun _ h => h) id id id,
      fun _ h' => by cases h'⟩

theorem new_inv (nb : Bool) (n k : Nat) : Inv (Sock.new nb n k : Sock α) where
  outBytes := rfl
  innBytes := rfl
  assoc := fun _ => rfl
  gone := fun h => by cases h
  peer := fun h => by cases h
  readable := fun _ => by simp [Sock.new, Sock.refresh, Sock.inn]
  active := rfl

theorem run_inv {s₀ s : Sock α} {es} (h₀ : Inv s₀) (hr : Run s₀ es s) : Inv s := by
  induction hr with
  | nil => exact h₀
  | step _ hs ih =>
    obtain ⟨s', e, h1, h2, -⟩ := step_spec ih hs
    cases h1; exact h2

/-- **C52 (no panic, invariant)**: in every execution of a new socket, no assertion of the code fails,
and the counters and flags are right: the bytes counted are the bytes queued, an open socket is
readable exactly when a datagram waits, and it is associated exactly when it is bound. -/
theorem C52_invariant (nb : Bool) (n k : Nat) {s : Sock α} {es} (hr : Run (Sock.new nb n k) es s) :
    Inv s ∧ ∀ a r, step s a = some r → r ≠ .panic := by
  have h := run_inv (new_inv nb n k) hr
  refine ⟨h, fun a r hs => ?_⟩
  obtain ⟨s', e, h1, -⟩ := step_spec h hs
  rw [h1]; exact fun h => by cases h

/-- **C52 (first in, first out)**: what the interface has got, followed by what waits, is exactly what
sends accepted, in order and unchanged; and what receives took, followed by what waits, is exactly
what was accepted from the interface.  Nothing is lost, doubled or changed inside the socket. -/
theorem C52_fifo (nb : Bool) (n k : Nat) {s : Sock α} {es} (hr : Run (Sock.new nb n k) es s) :
    sent es = pulled es ++ s.out ∧ accepted es = took es ++ s.inn := by
  suffices h : Inv s ∧ sent es = pulled es ++ s.out ∧ accepted es = took es ++ s.inn from h.2
  induction hr with
  | nil => exact ⟨new_inv nb n k, rfl, rfl⟩
  | @step es s a s' e _ hs ih =>
    obtain ⟨hi, ih1, ih2⟩ := ih
    obtain ⟨s'', e', h1, h2, h3, -⟩ := step_spec hi hs
    cases h1
    refine ⟨h2, ?_, ?_⟩
    · have := h3.out
      simp only [sent, pulled, List.filterMap_append] at *
      rw [ih1, List.append_assoc, List.append_assoc, this]
    · have := h3.inn
      simp only [accepted, took, List.filterMap_append] at *
      rw [ih2, List.append_assoc, List.append_assoc, this]

/-- **C52 (no rebinding)**: an address and a shutdown are for ever, and a connected socket stays
connected; after `shutdown` of the writing side nothing more is sent. -/
theorem C52_stable {s s' : Sock α} {es} (h : Inv s) (hr : Run s es s') :
    (∀ b, s.bound = some b → s'.bound = some b) ∧ (s.peer.isSome → s'.peer.isSome) ∧
    (s.shutR = true → s'.shutR = true) ∧ (s.shutW = true → s'.shutW = true ∧ sent es = []) := by
  suffices hh : Inv s' ∧ _ from hh.2
  induction hr with
  | nil => exact ⟨h, fun _ h => h, id, id, fun h => ⟨h, rfl⟩⟩
  | step _ hs ih =>
    obtain ⟨hi, i1, i2, i3, i4⟩ := ih
    obtain ⟨s'', e', h1, h2, h3, -⟩ := step_spec hi hs
    cases h1
    refine ⟨h2, fun b hb => h3.bound b (i1 b hb), fun hp => h3.peer (i2 hp), fun hp => h3.shutR (i3 hp),
      fun hw => ?_⟩
    obtain ⟨g1, g2⟩ := i4 hw
    obtain ⟨g3, g4⟩ := h3.shutW g1
    refine ⟨g3, ?_⟩
    unfold sent at *
    rw [List.filterMap_append, g2, g4]; rfl

/-- **C52 (only the peer)**: a connected socket accepts packets from its peer only. -/
theorem C52_peer_only {s s' : Sock α} {a e} (h : Inv s) (hs : step s a = some (.ok (s', e)))
    {p : Pkt α} (hp : .accepted p ∈ e) {q : SockAddr} (hq : s.peer = some q) : p.src = q := by
  obtain ⟨s'', e', h1, h2, h3, -⟩ := step_spec h hs
  cases h1
  refine h3.only p ?_ q hq
  unfold accepted
  rw [List.mem_filterMap]
  exact ⟨_, hp, rfl⟩

/-- **C52 (limits)**: a send is accepted only while fewer bytes than the limit are queued, and never
adds more than 65507 bytes. -/
theorem C52_limit {s s' : Sock α} {a e} (h : Inv s) (hs : step s a = some (.ok (s', e))) {p : Pkt α}
    (hp : .sent p ∈ e) :
    p.data.length ≤ maxSize ∧ bytes s.out < s.send.limit ∧
      bytes s'.out < s.send.limit + maxSize := by
  obtain ⟨s'', e', h1, h2, h3, -⟩ := step_spec h hs
  cases h1
  obtain ⟨g1, g2, g3⟩ := h3.small p (by
    unfold sent
    rw [List.mem_filterMap]
    exact ⟨_, hp, rfl⟩)
  refine ⟨g1, g2, ?_⟩
  rw [g3, bytes_append]
  simp only [bytes, List.map_cons, List.map_nil, List.sum_cons, List.sum_nil]
  show bytes s.out + _ < _
  omega

/-- **C52 (writability)**: the flag tells whether there is room, as long as the size of the send buffer
is not changed; the next send, receive, arrival or departure puts it right again. -/
theorem C52_fresh {s s' : Sock α} {a e} (h : Inv s) (hs : step s a = some (.ok (s', e)))
    (ha : ∀ v, a ≠ .setSndBuf v) (hc : s'.state.closed = false) (hf : Fresh s) : Fresh s' := by
  obtain ⟨s'', e', h1, -, -, h2⟩ := step_spec h hs
  cases h1
  exact h2 ha hc hf

theorem new_fresh (nb : Bool) (n k : Nat) : Fresh (Sock.new nb n k : Sock α) := by
  show decide (0 < n) = true ↔ bytes [] < n
  simp [bytes]

/-! ## Waiting threads -/

theorem noteOf_changed {old new : Flags} {g : Bool} (h : old ≠ new) :
    ∃ n, noteOf old new g = some n ∧ n.state = new ∧
      (n.changed.readable = (old.readable != new.readable)) ∧
      (n.changed.writable = (old.writable != new.writable)) := by
  unfold noteOf
  simp only
  rw [if_neg]
  · exact ⟨_, rfl, rfl, rfl, rfl⟩
  · rintro ⟨h1, _⟩
    obtain ⟨a, b, c, d⟩ := old
    obtain ⟨a', b', c', d'⟩ := new
    simp only [Flags.mk.injEq, bne_eq_false_iff_eq] at h1
    obtain ⟨rfl, rfl, rfl, rfl⟩ := h1
    exact h rfl

/-- **C52 (a waiting writer is woken)**: a blocked send leaves the flag off; the departure that makes
room turns it on and tells the listeners. -/
theorem C52_wake_writer (s : Sock α) (h : Inv s) (hw : s.state.writable = false) (hf : Fresh s)
    {r s' note e} (hp : pullOut s = .ok (r, s', note, e)) (hroom : Room s') :
    ∃ n, note = some n ∧ n.state = s'.state ∧ n.state.writable = true ∧ n.changed.writable = true := by
  have hnr : ¬ Room s := fun h' => by rw [hf.2 h'] at hw; cases hw
  rcases C52_pull_out s h with ⟨h1, h2⟩ | ⟨p, l, prio, s1, n1, h1, h2, h3, h4, h5, h6, h7, h8, h9,
    h10, h11, h12⟩
  · rw [h2] at hp; cases hp; exact absurd hroom hnr
  · rw [h2] at hp
    cases hp
    have hw' := h12.2 hroom
    unfold pullOut Buf.pop at h2
    have ho := h.outBytes
    unfold Sock.out at ho h1
    cases hb : s.send.buffer with
    | nil => rw [hb] at h1; cases h1
    | cons x xs =>
      rw [hb] at ho h2
      simp only [List.map_cons, bytes_cons] at ho
      have hle : x.1.length ≤ s.send.lenBytes := by omega
      simp only [decide_eq_true hle, R.assert_true, R.bind_ok] at h2
      have hh := R.ok.inj h2
      simp only [Prod.mk.injEq] at hh
      obtain ⟨-, hs, hn, -⟩ := hh
      subst hs; subst hn
      obtain ⟨n, g1, g2, g3, g4⟩ := noteOf_changed (old := s.state) (g := false)
        (new := (({ s with send := { s.send with buffer := xs
                                                 lenBytes := s.send.lenBytes - x.1.length } } :
          Sock α).refresh false).1.state) (by
          intro he
          rw [he] at hw
          rw [hw] at hw'; cases hw')
      refine ⟨n, g1, g2, by rw [g2]; exact hw', ?_⟩
      rw [g4, hw, hw']; rfl

/-- **C52 (a waiting reader is woken)**: a blocked receive leaves the flag off; the packet that is
accepted next turns it on and tells the listeners. -/
theorem C52_wake_reader (s : Sock α) (h : Inv s) (hr : s.state.readable = false) {p t s' note}
    (hp : pushIn s p t = .ok (s', note, [.accepted p])) :
    ∃ n, note = some n ∧ n.state = s'.state ∧ n.state.readable = true ∧ n.changed.readable = true := by
  rcases C52_push_in s h p t with ⟨h1, h2⟩ | ⟨h1, h2, s1, n1, h3, h4, h5, h6, h7, h8, h9, h10, h11,
    h12, h13, h14, h15⟩
  · rw [h2] at hp
    have hh := R.ok.inj hp
    simp at hh
  · rw [h3] at hp
    cases hp
    refine ⟨n1, rfl, h13, by rw [h13]; exact h10, ?_⟩
    unfold pushIn at h3
    split at h3
    · have hh := R.ok.inj h3; simp at hh
    split at h3
    · have hh := R.ok.inj h3; simp at hh
    obtain ⟨b, _, h3⟩ := (R.bind_eq_ok ..).1 h3
    simp only at h3
    have hh := R.ok.inj h3
    simp only [Prod.mk.injEq] at hh
    obtain ⟨hs, hn, -⟩ := hh
    simp only [Sock.refresh, noteOf, Bool.true_eq_false, and_false, if_false, Option.some.injEq] at hn
    rw [← hn, hr]
    have : (!b.buffer.isEmpty) = true := by
      rw [← hs] at h10; exact h10
    simp only [this]; rfl

/-! ## Emptying a socket -/

/-- Departures, one after the other. -/
def drain (s : Sock α) : Nat → R (List (Pkt α) × Sock α)
  | 0 => .ok ([], s)
  | n + 1 => do
    let (p, s, _, _) ← pullOut s
    let (l, s) ← drain s n
    .ok (p.toList.map (·.1) ++ l, s)

/-- **C52 (accepted datagrams leave)**: the interface that keeps asking gets every datagram that was
accepted, open or closed, and the socket is empty then. -/
theorem C52_drain (s : Sock α) (h : Inv s) : ∃ s', drain s s.out.length = .ok (s.out, s') ∧ s'.out = [] := by
  suffices ∀ n (s : Sock α), Inv s → s.out.length = n → ∃ s', drain s n = .ok (s.out, s') ∧ s'.out = [] from
    this _ s h rfl
  intro n
  induction n with
  | zero =>
    intro s _ hl
    have : s.out = [] := List.length_eq_zero_iff.1 hl
    exact ⟨s, by rw [this]; rfl, this⟩
  | succ n ih =>
    intro s h hl
    rcases C52_pull_out s h with ⟨h1, h2⟩ | ⟨p, l, prio, s1, n1, h1, h2, h3, _, _, _, _, _, _, _, h4, _⟩
    · rw [h1] at hl; cases hl
    · rw [h1] at hl
      obtain ⟨s', g1, g2⟩ := ih s1 h4 (by rw [h3]; simpa using hl)
      refine ⟨s', ?_, g2⟩
      unfold drain
      rw [h2]
      simp only [R.bind_ok, g1, h1, h3]
      rfl

end Shadow.Udp
