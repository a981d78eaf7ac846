import Verif.Unix.Step

/-!
# Unix-domain sockets: creating and connecting
-/

namespace Shadow.Unix

open Shadow.Base Spec

variable {α : Type}

/-! ## connect, socketpair -/

theorem attach_ok {w : World α} {i p : Nat} {s t : Sock α} (hs : w.socks i = some s)
    (ht : w.socks p = some t) (hne : i ≠ p) (b a : Option Nat) :
    attach w i p b a = { w with
      socks := put (put w.socks p
          (some { t with buf := ({ t.buf.listen i .peer with writers := t.buf.writers + 1 } : Buf α).pub }))
        i (some { s with
          proto := .conn b a p
          buf := ({ s.buf.listen i .own with readers := s.buf.readers + 1 } : Buf α).pub })
      cbs := w.cbs ++ heard { t.buf.listen i .peer with writers := t.buf.writers + 1 } t.buf.st false ++
        heard { s.buf.listen i .own with readers := s.buf.readers + 1 } s.buf.st false } := by
  unfold attach
  rw [poke_some (i := p) ht]
  rw [touch_some (i := p) (s := { t with buf := t.buf.listen i .peer }) (by simp)]
  rw [poke_some (i := i) (s := s) (by simp [put_ne _ _ hne, hs])]
  rw [touch_some (i := i) (s := { s with buf := s.buf.listen i .own }) (by simp)]
  rw [mod_some (i := i) (put_same ..)]
  simp only [put_put, Buf.listen, Buf.pub]

/-- What two fresh buffers look like when the first socket has attached itself. -/
def half1 (i : Nat) : Buf α := { writers := 1, st := { noWriters := false }, ears := [(i, .peer)] }
def half2 (i : Nat) : Buf α := { readers := 1, st := { noReaders := false }, ears := [(i, .own)] }

/-- The buffers of a new connection: of the socket that attached itself first, and of the other. -/
def fullA (i j : Nat) : Buf α :=
  { readers := 1, writers := 1, st := { noReaders := false, noWriters := false }
    ears := [(i, .own), (j, .peer)] }
def fullB (i j : Nat) : Buf α :=
  { readers := 1, writers := 1, st := { noReaders := false, noWriters := false }
    ears := [(i, .peer), (j, .own)] }

theorem joinedA (i j : Nat) : Joined (fullA i j : Buf α) i j :=
  ⟨rfl, rfl, rfl, rfl, rfl, by simp [fullA], by simp [fullA], by simp [fullA]⟩

theorem joinedB (i j : Nat) : Joined (fullB i j : Buf α) j i :=
  ⟨rfl, rfl, rfl, rfl, rfl, by simp [fullB], by simp [fullB], by
    intro e he
    simp only [fullB, List.mem_cons, List.not_mem_nil, or_false] at he
    exact he.symm⟩

theorem attach_first {w : World α} {i p : Nat} {s t : Sock α} (hs : w.socks i = some s)
    (ht : w.socks p = some t) (hne : i ≠ p) (e1 : s.buf = {}) (e2 : t.buf = {}) (b a : Option Nat) :
    attach w i p b a = { w with
      socks := put (put w.socks p (some { t with buf := half1 i })) i
        (some { s with proto := .conn b a p, buf := half2 i }) } := by
  rw [attach_ok hs ht hne, e1, e2]
  simp [heard, Buf.listen, Buf.pub, Buf.exact, Buf.hasData, half1, half2, earCb, Role.hears]

theorem attach_second {w : World α} {i p : Nat} {s t : Sock α} (hs : w.socks i = some s)
    (ht : w.socks p = some t) (hne : i ≠ p) (e1 : s.buf = half1 p) (e2 : t.buf = half2 p) (b a : Option Nat) :
    attach w i p b a = { w with
      socks := put (put w.socks p (some { t with buf := fullA p i })) i
        (some { s with proto := .conn b a p, buf := fullB p i })
      cbs := w.cbs ++ [.refresh p false, .refresh p false] } := by
  rw [attach_ok hs ht hne, e1, e2]
  simp [heard, Buf.listen, Buf.pub, Buf.exact, Buf.hasData, half1, half2, fullA, fullB, earCb, Role.hears]

theorem newSock_init {k : Kind} (hk : k ≠ .dgram) (i : Nat) :
    newSock α i k = { kind := k, proto := .init none } := by cases k <;> simp_all [newSock]

theorem inbox_empty {k : Kind} {b : Buf α} (h1 : b.bytes = []) (h2 : b.pkts = []) :
    inboxOf k b = Inbox.none k := by cases k <;> simp [inboxOf, Inbox.none, h1, h2]

theorem good_pairConn {w : World α} (h : Inv w) {k : Kind} (hk : k ≠ .dgram) (nb : Bool) :
    Good w (.pair k nb) (pairBody w k nb >>= fun w' => .ok (w', .two w.next (w.next + 1))) := by
  have hx : w.next ≠ w.next + 1 := by omega
  have hy : w.next + 1 ≠ w.next := by omega
  have e0 : pairBody w k nb = (refresh (attach ((w.add (newSock α w.next k) nb).add
      (newSock α (w.next + 1) k) nb) w.next (w.next + 1) none none) w.next false >>= fun w' =>
      refresh (attach w' (w.next + 1) w.next none none) (w.next + 1) false) := by
    cases k <;> first | rfl | simp_all
  rw [e0, newSock_init hk, newSock_init hk]
  rw [attach_first (s := { kind := k, proto := .init none }) (t := { kind := k, proto := .init none })
    (by simp only [World.add]; rw [put_ne _ _ hx, put_same]) (by simp only [World.add]; rw [put_same])
    hx rfl rfl, refresh_false, R.bind_ok]
  generalize hw1 : ({ (w.add { kind := k, proto := .init none } nb).add { kind := k, proto := .init none } nb with
    socks := _ } : World α) = w1
  have hr := fixed_rest w1 w.next
  rw [attach_second (i := w.next + 1) (p := w.next)
    (s := { kind := k, proto := .init none, buf := half1 w.next })
    (t := { kind := k, proto := .conn none none (w.next + 1), buf := half2 w.next })
    (by rw [hr.1, ← hw1]; simp only []; rw [put_ne _ _ hy, put_same])
    (by rw [hr.1, ← hw1]; simp only []; rw [put_same]) hy rfl rfl, refresh_false, R.bind_ok]
  generalize hw2 : ({ fixed w1 w.next with socks := _, cbs := _ } : World α) = w2
  have hr2 := fixed_rest w2 (w.next + 1)
  have es : (fixed w2 (w.next + 1)).socks =
      put (put w.socks w.next (some { kind := k, proto := .conn none none (w.next + 1), buf := fullA w.next (w.next + 1) }))
      (w.next + 1) (some { kind := k, proto := .conn none none w.next, buf := fullB w.next (w.next + 1) }) := by
    rw [hr2.1, ← hw2]
    simp only []
    rw [hr.1, ← hw1]
    funext j
    simp only [World.add, put]
    split <;> try rfl
    split <;> rfl
  have en : (fixed w2 (w.next + 1)).next = w.next + 2 := by
    rw [hr2.2.1, ← hw2]; simp only []; rw [hr.2.1, ← hw1]; rfl
  have ens : (fixed w2 (w.next + 1)).ns = w.ns := by
    rw [hr2.2.2.1, ← hw2]; simp only []; rw [hr.2.2.1, ← hw1]; rfl
  have el : (fixed w2 (w.next + 1)).limit = w.limit := by
    rw [hr2.2.2.2.2.2.1, ← hw2]; simp only []; rw [hr.2.2.2.2.2.1, ← hw1]; rfl
  have esent : (fixed w2 (w.next + 1)).sent = put (put w.sent w.next 0) (w.next + 1) 0 := by
    rw [hr2.2.2.2.2.1, ← hw2]; simp only []; rw [hr.2.2.2.2.1, ← hw1]; rfl
  have enb : (fixed w2 (w.next + 1)).nonblock = put (put w.nonblock w.next nb) (w.next + 1) nb := by
    rw [hr2.2.2.2.2.2.2, ← hw2]; simp only []; rw [hr.2.2.2.2.2.2, ← hw1]; rfl
  have ec : (fixed w2 (w.next + 1)).cbs = [.refresh w.next false, .refresh w.next false] := by
    rw [hr2.2.2.2.1, ← hw2]; simp only []; rw [hr.2.2.2.1, ← hw1]; simp [World.add, h.idle]
  have hm : Mid (fixed w2 (w.next + 1)) (fixed w2 (w.next + 1)).cbs := by
    refine mid_pair h hk (joinedA _ _) (joinedB _ _) es en ens el esent ?_ ?_ ?_
    · intro j h1 h2
      rw [fixed_ne _ h2, ← hw2]
      simp only []
      rw [fixed_ne _ h1, ← hw1]
      simp only [World.add]
      rw [put_ne _ _ h2, put_ne _ _ h1]
    · intro j u hj hu
      rcases hj with rfl | rfl
      · exact .inr (.inl ⟨false, by rw [ec]; simp⟩)
      · exact .inl (fixed_flags (by rw [hr2.1] at hu; exact hu))
    · rw [ec]; intro c hc; exact ⟨w.next, by simpa using hc⟩
  have hn := h.mid.wf.none_next
  refine ⟨_, _, _, rfl, hm, ?_, ?_, owner_names hm.names (by rw [ens]; rfl) (by rw [ec]; simp), .pair k nb hk⟩
  · rw [es]
    refine waiting_of h.queued ?_ ?_
    · intro c t hc h1 h2
      simp only [put] at hc
      split at hc
      · cases hc; cases h2
      · split at hc
        · cases hc; cases h2
        · exact ⟨t, hc, h1, h2⟩
    · intro c t i s b q lim _ _ hi hp hm
      have := h.mid.wf.old i s hi
      exact ⟨i, s, b, q, lim, by rw [put_ne _ _ (by omega), put_ne _ _ (by omega)]; exact hi, hp, hm⟩
  · refine ⟨fun j => ?_, ?_, en, el⟩
    · rw [es]
      simp only [Host.new, abs, put]
      by_cases e1 : j = w.next + 1
      · simp [e1, skOf, inbox_empty, fullB]
      · by_cases e2 : j = w.next
        · simp [e2, skOf, inbox_empty, fullA]
        · simp [e1, e2]
    · rw [enb]; rfl

theorem good_socket {w : World α} (h : Inv w) (k : Kind) (nb : Bool) :
    Good w (.socket k nb) (.ok (w.add (newSock α w.next k) nb, .socket w.next)) := by
  have hm := mid_add h k nb
  have hc : (w.add (newSock α w.next k) nb).cbs = [] := h.idle
  have hq : Waiting (w.add (newSock α w.next k) nb).socks fun _ => False := by
    refine waiting_of h.queued ?_ ?_
    · intro c t hc h1 h2
      simp only [World.add, put] at hc
      split at hc
      · cases hc; cases k <;> simp [newSock, Proto.isConn] at h1
      · exact ⟨t, hc, h1, h2⟩
    · intro c t i s b q lim _ _ hi hp hm
      have := h.mid.wf.old i s hi
      exact ⟨i, s, b, q, lim, by simp only [World.add]; rw [put_ne _ _ (by omega)]; exact hi, hp, hm⟩
  have hsh : ∀ x, skOf (newSock α w.next k) = x → Shape (w.add (newSock α w.next k) nb) ((abs w).new x nb) := by
    rintro x rfl
    refine ⟨fun j => ?_, rfl, rfl, rfl⟩
    simp only [Host.new, abs, World.add, put]
    by_cases e : j = w.next <;> simp [e]
  by_cases hk : k = .dgram
  · subst hk
    exact ⟨_, _, _, rfl, by rw [hc]; exact hm, hq, hsh ⟨.dgram, .dgram none none [], true⟩ (by simp [skOf, newSock, msgsOf]),
      owner_names hm.names rfl (by simp), .socketD nb⟩
  · exact ⟨_, _, _, rfl, by rw [hc]; exact hm, hq, hsh ⟨k, .idle none, true⟩ (by rw [newSock_init hk]; rfl),
      owner_names hm.names rfl (by simp), .socket k nb hk⟩

theorem good_inv {w w' : World α} {r : Ret α} {a : Act α} {x : R (World α × Ret α)} (h : Good w a x)
    (hx : x = .ok (w', r)) (hc : w'.cbs = []) : Inv w' := by
  obtain ⟨w1, r1, A, rfl, h1, h2, _⟩ := h
  simp only [R.ok.injEq, Prod.mk.injEq] at hx
  obtain ⟨rfl, rfl⟩ := hx
  exact ⟨by rw [hc] at h1; exact h1, hc, h2⟩

/-- One datagram socket of a pair gets the other as its peer. -/
theorem inv_peer {w : World α} {i p : Nat} {s t : Sock α} {b q : Option Nat} {r : List Entry} (h : Inv w)
    (hs : w.socks i = some s) (hp : s.proto = .dgram b q r) (ht : w.socks p = some t) (hk : t.kind = .dgram) :
    Inv (fixed { w with socks := put w.socks i (some { s with proto := .dgram b (some p) r }) } i) := by
  have hh := h.mid.wf.heldD i s b q r hs hp
  let w0 : World α := { w with socks := put w.socks i (some { s with proto := .dgram b (some p) r }) }
  have hr := fixed_rest w0 i
  have hm : Mid (fixed w0 i) (fixed w0 i).cbs := by
    refine mid_one (w' := fixed w0 i) h hs (wf_peer h.mid.wf hs hp (p := p) (by simp [ht, hk])) ?_
      hr.1 hr.2.1 hr.2.2.1 hr.2.2.2.2.2.1 hr.2.2.2.2.1
      (fun j hj => fixed_ne w0 hj) ?_ (by rw [hr.2.2.2.1]; exact h.idle)
    · constructor <;> simp [hp, SameName, Proto.over, Proto.early, owed]
    · intro u hu
      exact fixed_flags (w := w0) (by rw [hr.1] at hu; exact hu)
  have hc : (fixed w0 i).cbs = [] := by rw [hr.2.2.2.1]; exact h.idle
  exact ⟨by rw [← hc]; exact hm, hc, waiting_put h.queued hs hr.1 (.inl rfl) (by simp [hh])
    (by simp [hp])⟩

theorem good_pairDgram {w : World α} (h : Inv w) (nb : Bool) :
    Good w (.pair .dgram nb) (pairBody w .dgram nb >>= fun w' => .ok (w', .two w.next (w.next + 1))) := by
  have hx : w.next ≠ w.next + 1 := by omega
  have hy : w.next + 1 ≠ w.next := by omega
  have h1 : Inv (w.add (newSock α w.next .dgram) nb) := good_inv (good_socket h .dgram nb) rfl h.idle
  have h2 := good_inv (good_socket h1 .dgram nb) rfl h.idle
  simp only [pairBody]
  generalize hw2 : (w.add (newSock α w.next .dgram) nb).add (newSock α (w.next + 1) .dgram) nb = w2
  have h2' : Inv w2 := by rw [← hw2]; exact h2
  have ea : w2.socks w.next = some (newSock α w.next .dgram) := by
    rw [← hw2]; simp only [World.add]; rw [put_ne _ _ hx, put_same]
  have eb : w2.socks (w.next + 1) = some (newSock α (w.next + 1) .dgram) := by
    rw [← hw2]; simp only [World.add]; rw [put_same]
  have h3 := inv_peer (i := w.next) (p := w.next + 1) h2' ea rfl eb rfl
  rw [mod_some ea, refresh_false, R.bind_ok]
  generalize hw3 : fixed ({ w2 with socks := _ } : World α) w.next = w3 at *
  have hr : w3.socks = put w2.socks w.next
      (some { newSock α w.next .dgram with proto := .dgram none (some (w.next + 1)) [] }) ∧ w3.next = w2.next ∧ w3.ns = w2.ns ∧ w3.cbs = w2.cbs ∧ w3.sent = w2.sent ∧
    w3.limit = w2.limit ∧ w3.nonblock = w2.nonblock := by rw [← hw3]; exact fixed_rest _ _
  have eb3 : w3.socks (w.next + 1) = some (newSock α (w.next + 1) .dgram) := by
    rw [hr.1]; simp only []; rw [put_ne _ _ hy]; exact eb
  have h4 := inv_peer (i := w.next + 1) (p := w.next) h3 eb3 rfl
    (t := { newSock α w.next .dgram with proto := .dgram none (some (w.next + 1)) [] })
    (by rw [hr.1]; exact put_same ..) rfl
  rw [mod_some eb3, refresh_false, R.bind_ok]
  generalize hw4 : fixed ({ w3 with socks := _ } : World α) (w.next + 1) = w4 at *
  have hr4 : w4.socks = put w3.socks (w.next + 1)
      (some { newSock α (w.next + 1) .dgram with proto := .dgram none (some w.next) [] }) ∧ w4.next = w3.next ∧ w4.ns = w3.ns ∧ w4.cbs = w3.cbs ∧ w4.sent = w3.sent ∧
    w4.limit = w3.limit ∧ w4.nonblock = w3.nonblock := by rw [← hw4]; exact fixed_rest _ _
  refine ⟨_, _, _, rfl, by rw [h4.idle]; exact h4.mid, h4.queued, ?_, ?_, .pairD nb⟩
  · refine ⟨fun j => ?_, ?_, ?_, ?_⟩
    · rw [hr4.1]
      simp only []
      rw [hr.1, ← hw2]
      simp only [World.add, Host.new, abs, put]
      by_cases e1 : j = w.next + 1
      · simp [e1, skOf, newSock, msgsOf]
      · by_cases e2 : j = w.next
        · simp [e2, skOf, newSock, msgsOf]
        · simp [e1, e2]
    · rw [hr4.2.2.2.2.2.2, hr.2.2.2.2.2.2, ← hw2]; rfl
    · rw [hr4.2.1, hr.2.1, ← hw2]; rfl
    · rw [hr4.2.2.2.2.2.1, hr.2.2.2.2.2.1, ← hw2]; rfl
  · exact owner_names h4.mid.names (by rw [hr4.2.2.1, hr.2.2.1, ← hw2]; rfl) (by simp)

theorem good_pair {w : World α} (h : Inv w) (k : Kind) (nb : Bool) :
    Good w (.pair k nb) (pairBody w k nb >>= fun w' => .ok (w', .two w.next (w.next + 1))) := by
  by_cases hk : k = .dgram
  · subst hk; exact good_pairDgram h nb
  · exact good_pairConn h hk nb

/-- The bits of a socket that is neither new nor a datagram socket are right between calls. -/
theorem Inv.bits {w : World α} {i : Nat} {s : Sock α} (h : Inv w) (hs : w.socks i = some s)
    (hd : s.proto.isD = false) : w.flags i = w.flagsOf i s := by
  rcases h.mid.bits.exact i s hs with h | ⟨_, h⟩ | ⟨⟨b, h⟩, _⟩
  · exact h
  · rcases h with ⟨_, h⟩ | ⟨_, h⟩ <;> cases h
  · rw [h] at hd; cases hd

theorem good_connectRoom {w : World α} {i srv n m lim : Nat} {q : List Nat} {s t : Sock α}
    {bound : Option Nat} (h : Inv w) (hs : w.socks i = some s) (hh : s.held = true)
    (hp : s.proto = .init bound) (ht : w.socks srv = some t) (hl : t.proto = .listening m q lim)
    (hk : t.kind = s.kind) (hns : w.ns s.kind n = some srv) (hroom : q.length < lim) :
    Good w (.connect i (.name n))
      (enqueue w i srv t m q lim bound >>= fun w' =>
        refresh (attach w' i w.next bound (some n)) i false >>= fun w' => .ok (w', .done)) := by
  have hne : i ≠ srv := by rintro rfl; rw [hs] at ht; cases ht; rw [hp] at hl; cases hl
  have hi : i ≠ w.next := Nat.ne_of_lt (h.mid.wf.old i s hs)
  have hv : srv ≠ w.next := Nat.ne_of_lt (h.mid.wf.old srv t ht)
  have hkd : t.kind ≠ .dgram := by
    intro e
    have := (h.mid.wf.isD srv t ht).2 e
    rw [hl] at this; cases this
  have hsb := (h.mid.wf.early i s hs (by rw [hp]; rfl)).1
  have hth := (h.mid.wf.early srv t ht (by rw [hl]; rfl)).2
  unfold enqueue
  simp only []
  rw [newSock_init hkd]
  rw [attach_first (s := { kind := t.kind, proto := .init none, held := false }) (t := s)
    (by simp only [World.add]; rw [put_same]) (by simp only [World.add]; rw [put_ne _ _ hi]; exact hs)
    (Ne.symm hi) rfl hsb]
  generalize hw1 : ({ w.add { kind := t.kind, proto := .init none, held := false } (w.nonblock srv) with
    socks := _ } : World α) = w1
  have es1 : w1.socks = put (put (put w.socks w.next (some { kind := t.kind, proto := .init none, held := false }))
      i (some { s with buf := half1 w.next })) w.next
      (some { kind := t.kind, proto := .conn (some m) bound i, buf := half2 w.next, held := false }) := by
    rw [← hw1]; rfl
  have hs1 : (w1.queue [.refresh w.next false]).socks srv = some t := by
    rw [queue_socks, es1, put_ne _ _ hv, put_ne _ _ (Ne.symm hne), put_ne _ _ hv]; exact ht
  rw [mod_some hs1, refresh_false, R.bind_ok]
  generalize hw2 : ({ w1.queue [.refresh w.next false] with socks := _ } : World α) = w2
  have es2 : w2.socks = put w1.socks srv (some { t with proto := .listening m (q ++ [w.next]) lim }) := by
    rw [← hw2]; rfl
  have hr2 := fixed_rest w2 srv
  rw [attach_second (i := i) (p := w.next) (s := { s with buf := half1 w.next })
    (t := { kind := t.kind, proto := .conn (some m) bound i, buf := half2 w.next, held := false })
    (by rw [hr2.1, es2, es1, put_ne _ _ hne, put_ne _ _ hi, put_same])
    (by rw [hr2.1, es2, es1, put_ne _ _ (Ne.symm hv), put_same]) hi rfl rfl, refresh_false, R.bind_ok]
  generalize hw3 : ({ fixed w2 srv with socks := _, cbs := _ } : World α) = w3
  have hr3 := fixed_rest w3 i
  have es : (fixed w3 i).socks = put (put (put w.socks w.next
        (some { kind := t.kind, proto := .conn (some m) bound i, buf := fullA w.next i, held := false }))
      srv (some { t with proto := .listening m (q ++ [w.next]) lim }))
      i (some { s with proto := .conn bound (some n) w.next, buf := fullB w.next i }) := by
    rw [hr3.1, ← hw3]
    simp only []
    rw [hr2.1, es2, es1]
    funext j
    simp only [put]
    by_cases e1 : j = i
    · simp [e1]
    · by_cases e2 : j = w.next
      · simp [e2, e1, Ne.symm hv, Ne.symm hi]
      · simp [e1, e2]
  have en : (fixed w3 i).next = w.next + 1 := by
    rw [hr3.2.1, ← hw3]; simp only []; rw [hr2.2.1, ← hw2, ← hw1]; rfl
  have ens : (fixed w3 i).ns = w.ns := by
    rw [hr3.2.2.1, ← hw3]; simp only []; rw [hr2.2.2.1, ← hw2, ← hw1]; rfl
  have el : (fixed w3 i).limit = w.limit := by
    rw [hr3.2.2.2.2.2.1, ← hw3]; simp only []; rw [hr2.2.2.2.2.2.1, ← hw2, ← hw1]; rfl
  have esent : (fixed w3 i).sent = put w.sent w.next 0 := by
    rw [hr3.2.2.2.2.1, ← hw3]; simp only []; rw [hr2.2.2.2.2.1, ← hw2, ← hw1]; rfl
  have enb : (fixed w3 i).nonblock = put w.nonblock w.next (w.nonblock srv) := by
    rw [hr3.2.2.2.2.2.2, ← hw3]; simp only []; rw [hr2.2.2.2.2.2.2, ← hw2, ← hw1]; rfl
  have ec : (fixed w3 i).cbs = [.refresh w.next false, .refresh w.next false, .refresh w.next false] := by
    rw [hr3.2.2.2.1, ← hw3]; simp only []; rw [hr2.2.2.2.1, ← hw2, ← hw1]; simp [World.add, World.queue, h.idle]
  have fl2 : ∀ j, w2.flags j = put w.flags w.next {} j := by intro j; rw [← hw2, ← hw1]; rfl
  have fl3 : ∀ j, w3.flags j = (fixed w2 srv).flags j := by intro j; rw [← hw3]
  have hm : Mid (fixed w3 i) (fixed w3 i).cbs := by
    refine mid_connect h hs hp ht hl hk (joinedB _ _) (joinedA _ _) es en ens el esent ?_ ?_ ?_
    · intro j h1 h2 h3
      rw [fixed_ne _ h1, fl3, fixed_ne _ h3, fl2, put_ne _ _ h2]
    · intro j u hj hu
      rcases hj with rfl | rfl | rfl
      · exact .inl (fixed_flags (by rw [hr3.1] at hu; exact hu))
      · exact .inr (.inl ⟨false, by rw [ec]; simp⟩)
      · left
        rw [es, put_ne _ _ (Ne.symm hne), put_same] at hu
        cases hu
        rw [fixed_ne _ (Ne.symm hne), fl3, fixed_flags (w := w2) (i := j)
          (s := { t with proto := .listening m (q ++ [w.next]) lim }) (by rw [es2, put_same])]
        simp [World.flagsOf]
    · rw [ec]; intro c hc; exact ⟨w.next, by simpa using hc⟩
  refine ⟨_, _, _, rfl, hm, ?_, ?_, owner_names hm.names (by rw [ens]; rfl) (by rw [ec]; simp),
    .connect i s.kind bound n srv lim m q (by rw [sock_abs hs, sk_init hp hh]) hns
      (by rw [sock_abs ht, sk_listening hl hth, hk]) hroom⟩
  · rw [es]
    have hsv : (put (put (put w.socks w.next
        (some { kind := t.kind, proto := .conn (some m) bound i, buf := fullA w.next i, held := false }))
      srv (some { t with proto := .listening m (q ++ [w.next]) lim }))
      i (some { s with proto := .conn bound (some n) w.next, buf := fullB w.next i })) srv =
        some { t with proto := .listening m (q ++ [w.next]) lim } := by
      rw [put_ne _ _ (Ne.symm hne), put_same]
    intro c u hc h1 h2 _
    by_cases e2 : c = w.next
    · exact ⟨srv, _, m, q ++ [w.next], lim, hsv, rfl, by simp [e2]⟩
    · have hcw : w.socks c = some u := by
        simp only [put] at hc
        split at hc
        · cases hc; rw [hh] at h2; cases h2
        · split at hc
          · cases hc; cases h1
          · simpa [e2] using hc
      obtain ⟨x, v, b', q', l', h6, h7, h8⟩ := h.queued c u hcw h1 h2 id
      by_cases e3 : x = srv
      · subst e3
        rw [ht] at h6; cases h6
        rw [hl] at h7; cases h7
        exact ⟨x, _, m, q ++ [w.next], lim, hsv, rfl, by simp [h8]⟩
      · have hxi : x ≠ i := by rintro rfl; rw [hs] at h6; cases h6; rw [hp] at h7; cases h7
        have hxn : x ≠ w.next := Nat.ne_of_lt (h.mid.wf.old x v h6)
        exact ⟨x, v, b', q', l', by rw [put_ne _ _ hxi, put_ne _ _ e3, put_ne _ _ hxn]; exact h6, h7, h8⟩
  · refine ⟨fun j => ?_, ?_, en, el⟩
    · rw [es]
      simp only [Host.new, Host.set, abs, put]
      by_cases e1 : j = i
      · simp [e1, skOf, inbox_empty, fullB, hh]
      · by_cases e2 : j = srv
        · simp [e2, Ne.symm hne, skOf, hth, hk]
        · by_cases e3 : j = w.next
          · simp [e3, Ne.symm hi, Ne.symm hv, skOf, inbox_empty, fullA, hk]
          · simp [e1, e2, e3]
    · rw [enb]; rfl

theorem good_connect {w : World α} {i : Nat} {s : Sock α} (h : Inv w) (hs : w.socks i = some s)
    (hh : s.held = true) (addr : Addr) (hbad : ¬ Bad (abs w) (.connect i addr)) :
    Good w (.connect i addr) (connect w i s addr) := by
  have hsk := sock_abs hs
  unfold connect
  split
  · rename_i bound hp
    have hsk' : (abs w).sock i = some ⟨s.kind, .idle bound, true⟩ := by rw [hsk, sk_init hp hh]
    unfold connectInit
    cases addr with
    | foreign => exact good_same h (.connectNot i s.kind bound _ _ hsk' rfl)
    | path => exact good_same h (.connectNot i s.kind bound _ _ hsk' rfl)
    | unnamed => exact good_same h (.connectNot i s.kind bound _ _ hsk' rfl)
    | name n =>
      simp only [lookup]
      cases hns : w.ns s.kind n with
      | none =>
        refine good_same h (.connectNot i s.kind bound _ _ hsk' ⟨rfl, ?_⟩)
        intro srv hx
        have : w.ns s.kind n = some srv := hx
        rw [hns] at this; cases this
      | some srv =>
        have hne : srv ≠ i := by
          rintro rfl
          exact hbad (.selfConnect srv s.kind bound true n hsk' hns)
        obtain ⟨t, ht, hk, hr, _⟩ := h.mid.names.found _ _ _ hns
        have e : (srv != i) = true := by simp [hne]
        simp only [e, R.assert_true, R.bind_ok, connectTo, ht]
        split
        · rename_i m q lim hl
          have hth := (h.mid.wf.early srv t ht (by rw [hl]; rfl)).2
          have hb := Inv.bits h ht (by rw [hl]; rfl)
          simp only [World.flagsOf, hl] at hb
          split
          · rename_i hfull
            have : (!(w.flags srv).allowing) = true := by rw [hb]; simp [hfull]
            simp only [this, R.assert_true, R.bind_ok]
            exact good_same h (.connectFull i s.kind bound n srv lim m q hsk' hns
              (by rw [sock_abs ht, sk_listening hl hth, hk]) hfull)
          · rename_i hroom
            have : (w.flags srv).allowing = true := by rw [hb]; simp [hroom]
            simp only [this, R.assert_true, R.bind_ok]
            exact good_connectRoom h hs hh hp ht hl hk hns (by omega)
        · rename_i hl
          refine good_same h (.connectNot i s.kind bound _ _ hsk' ⟨rfl, ?_⟩)
          intro srv' hx u hu m q lim hc
          have : w.ns s.kind n = some srv' := hx
          rw [hns] at this; cases this
          rw [sock_abs ht] at hu; cases hu
          cases hp' : t.proto with
          | listening a b c => exact hl a b c hp'
          | _ => simp [skOf, hp'] at hc
  · rename_i hp
    exact good_same h (.connectBusy i _ addr _ hsk hh (by simp [skOf, hp]))
  · rename_i bound peer r hp
    have hsk' : (abs w).sock i = some ⟨s.kind, .dgram bound peer (msgsOf r s.buf.pkts), true⟩ := by
      rw [hsk, sk_dgram hp hh]
    unfold connectDgram
    cases addr with
    | foreign => exact good_same h (.connectDNot i s.kind _ _ _ _ _ hsk' rfl)
    | path => exact good_same h (.connectDNot i s.kind _ _ _ _ _ hsk' rfl)
    | unnamed => exact good_same h (.connectDNot i s.kind _ _ _ _ _ hsk' rfl)
    | name n =>
      simp only [lookup]
      cases hns : w.ns s.kind n with
      | none => exact good_same h (.connectDNot i s.kind _ _ _ _ _ hsk' ⟨rfl, hns⟩)
      | some p =>
        obtain ⟨t, ht, hk, hr, _⟩ := h.mid.names.found _ _ _ hns
        have hkd : t.kind = .dgram := by
          rw [hk]; exact (h.mid.wf.isD i s hs).1 (by rw [hp]; rfl)
        refine good_one (s' := { s with proto := .dgram bound (some p) r }) h hs hh
          (wf_peer h.mid.wf hs hp (by simp [ht, hkd])) ?_ (by simp [hp])
          (k := ⟨s.kind, .dgram bound (some p) (msgsOf r s.buf.pkts), true⟩) (by simp [skOf, hh]) ?_ _ rfl
        · constructor <;> simp [hp, SameName, Proto.over, Proto.early, owed]
        · exact .connectD i s.kind bound peer _ n p hsk' hns
  · refine good_same h (.connectBusy i _ addr _ hsk hh ?_)
    have ho := h.mid.wf.held i s hs hh
    cases hp : s.proto <;> simp_all [skOf, Proto.over]

end Shadow.Unix
