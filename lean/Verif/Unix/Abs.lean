import Verif.Unix.Close
import Verif.Unix.Spec

/-!
# Unix-domain sockets: from the code's state to the specification's
-/

namespace Shadow.Unix

open Shadow.Base Spec

variable {α : Type}

/-- The inbox of a linked socket. -/
def inboxOf (k : Kind) (b : Buf α) : Inbox α :=
  match k with
  | .stream => .stream b.bytes
  | _ => .packets b.pkts

/-- The inbox of a datagram socket. -/
def msgsOf (r : List Entry) (ds : List (List α)) : List (Msg α) :=
  List.zipWith (fun e d => ⟨e.src, e.addr, d⟩) r ds

/-- A socket of the specification. -/
def skOf (s : Sock α) : Sk α :=
  { kind := s.kind
    st := match s.proto with
      | .init b => .idle b
      | .listening b q lim => .listening b q lim
      | .conn b a p => .linked b a p (inboxOf s.kind s.buf)
      | .closed => .dead
      | .dgram b p r => .dgram b p (msgsOf r s.buf.pkts)
      | .dgramClosed => .dead
    held := s.held }

/-- The specification's state. -/
def abs (w : World α) : Host α :=
  { sock := fun i => (w.socks i).map skOf, nonblock := w.nonblock, names := w.ns, count := w.next
    limit := w.limit }

/-- `w` is in state `A`, except for the names. -/
structure Shape (w : World α) (A : Host α) : Prop where
  sock : ∀ i, (w.socks i).map skOf = A.sock i
  nonblock : w.nonblock = A.nonblock
  count : w.next = A.count
  limit : w.limit = A.limit

/-- The names of `A` are those of the open sockets of `w`. -/
def Owner (w : World α) (A : Host α) : Prop :=
  ∀ k n j, A.names k n = some j ↔
    ∃ s, w.socks j = some s ∧ s.kind = k ∧ s.reg = some n ∧ s.proto.over = false

theorem Shape.rfl' (w : World α) : Shape w (abs w) := ⟨fun _ => rfl, rfl, rfl, rfl⟩

theorem owner_names {w : World α} {A : Host α} {cs : List Cb} (h : Names w cs) (hn : A.names = w.ns)
    (hu : ∀ k n, Cb.unbind k n ∉ cs) : Owner w A := by
  intro k n j
  rw [hn]
  constructor
  · intro e
    obtain ⟨s, h1, h2, h3, h4⟩ := h.found k n j e
    refine ⟨s, h1, h2, h3, ?_⟩
    cases ho : s.proto.over
    · rfl
    · exact (hu k n (h4.1 ho)).elim
  · rintro ⟨s, h1, rfl, h3, h4⟩
    exact h.there j s n h1 h3 h4

theorem owner_unique {w : World α} {A B : Host α} (h : Owner w A) (h' : Owner w B) : A.names = B.names := by
  funext k n
  cases e : A.names k n with
  | some j => exact ((h' k n j).2 ((h k n j).1 e)).symm
  | none =>
    cases e' : B.names k n with
    | none => rfl
    | some j => rw [(h k n j).2 ((h' k n j).1 e')] at e; cases e

theorem abs_eq {w : World α} {A : Host α} (h : Inv w) (hs : Shape w A) (ho : Owner w A) : abs w = A := by
  have hn := owner_unique (owner_names (A := abs w) h.mid.names rfl (by simp)) ho
  have h1 : (abs w).sock = A.sock := funext hs.sock
  cases A
  simp only [abs] at hn h1 ⊢
  simp only [Host.mk.injEq]
  exact ⟨h1, hs.nonblock, hn, hs.count, hs.limit⟩

/-- The body of a call went well: it leaves a consistent state with callbacks to run, and returns
what the specification says. -/
def Good (w : World α) (a : Act α) (x : R (World α × Ret α)) : Prop :=
  ∃ w' r A', x = .ok (w', r) ∧ Mid w' w'.cbs ∧ Waiting w'.socks (fun _ => False) ∧ Shape w' A' ∧
    Owner w' A' ∧ Does (abs w) a r A'

theorem good_finish {w : World α} {a : Act α} {x : R (World α × Ret α)} (h : Good w a x) :
    ∃ w' r, finish x = .ok (w', r) ∧ Inv w' ∧ Does (abs w) a r (abs w') := by
  obtain ⟨w', r, A', rfl, h1, h2, h3, h4, h5⟩ := h
  obtain ⟨w'', e, hi, e1, e2, e3, e4⟩ := drain_ok h1 h2
  refine ⟨w'', r, ?_, hi, ?_⟩
  · simp only [finish, R.bind_ok, e]
  · rw [abs_eq hi (A := A') ⟨by rw [e1]; exact h3.sock, by rw [e4]; exact h3.nonblock,
      by rw [e2]; exact h3.count, by rw [e3]; exact h3.limit⟩
      (by intro k n j; rw [e1]; exact h4 k n j)]
    exact h5

theorem good_same {w : World α} {a : Act α} {r : Ret α} (h : Inv w) (hd : Does (abs w) a r (abs w)) :
    Good w a (.ok (w, r)) :=
  ⟨w, r, abs w, rfl, by rw [h.idle]; exact h.mid, h.queued, .rfl' w,
    owner_names h.mid.names rfl (by simp), hd⟩

/-! ## Reading the specification's state -/

theorem sock_abs {w : World α} {i : Nat} {s : Sock α} (h : w.socks i = some s) :
    (abs w).sock i = some (skOf s) := by simp [abs, h]

theorem sk_init {s : Sock α} {b : Option Nat} (hp : s.proto = .init b) (hh : s.held = true) :
    skOf s = ⟨s.kind, .idle b, true⟩ := by simp [skOf, hp, hh]

theorem sk_listening {s : Sock α} {b lim : Nat} {q : List Nat} (hp : s.proto = .listening b q lim)
    (hh : s.held = true) : skOf s = ⟨s.kind, .listening b q lim, true⟩ := by simp [skOf, hp, hh]

theorem sk_conn {s : Sock α} {b a : Option Nat} {p : Nat} (hp : s.proto = .conn b a p) :
    skOf s = ⟨s.kind, .linked b a p (inboxOf s.kind s.buf), s.held⟩ := by simp [skOf, hp]

theorem sk_dgram {s : Sock α} {b a : Option Nat} {r : List Entry} (hp : s.proto = .dgram b a r)
    (hh : s.held = true) : skOf s = ⟨s.kind, .dgram b a (msgsOf r s.buf.pkts), true⟩ := by
  simp [skOf, hp, hh]

theorem dead_iff {w : World α} {i : Nat} {s : Sock α} (h : w.socks i = some s) :
    Dead (abs w) i ↔ s.proto.over = true := by
  simp only [Dead, sock_abs h, Option.some.injEq, exists_eq_left', skOf]
  cases s.proto <;> simp [Proto.over]

theorem inbox_size {k : Kind} {b : Buf α} (h1 : k = .stream → b.pkts = []) (h2 : k ≠ .stream → b.bytes = []) :
    (inboxOf k b).size = vol b := by
  cases k <;> simp [inboxOf, Inbox.size, vol, h1, h2]

theorem msgs_holds (i : Nat) (r : List Entry) (ds : List (List α))
    (h : ds.map List.length = r.map Entry.len) :
    (((msgsOf r ds).filter (·.sender == i)).map (·.data.length)).sum = owedIn i r := by
  induction r generalizing ds with
  | nil => simp [msgsOf, owedIn]
  | cons e r ih =>
    cases ds with
    | nil => simp at h
    | cons d ds =>
      simp only [List.map_cons, List.cons.injEq] at h
      have := ih ds h.2
      simp only [msgsOf, owedIn, List.zipWith_cons_cons, List.filter_cons] at this ⊢
      by_cases hi : e.src = i
      · simp [hi, this, h.1]
      · simp [hi, this]

theorem holds_owed {w : World α} (h : Wf w.socks w.next) (i j : Nat) :
    holds i ((abs w).sock j) = owed i (w.socks j) := by
  cases hs : w.socks j with
  | none => simp [abs, hs, holds, owed]
  | some s =>
    rw [sock_abs hs]
    cases hp : s.proto with
    | dgram b a r => simp only [skOf, hp, holds, owed]; exact msgs_holds i r _ (h.notes j s b a r hs hp)
    | _ => simp [skOf, hp, holds, owed]

theorem flight_dgram {w : World α} {i : Nat} {s : Sock α} {b a : Option Nat} {r : List Entry}
    (h : Inv w) (hs : w.socks i = some s) (hp : s.proto = .dgram b a r) :
    inFlight (abs w) i = w.sent i := by
  have := h.mid.acct.dgram i s b a r hs hp
  simp only [pendN, Nat.add_zero] at this
  simp only [inFlight, sock_abs hs, skOf, hp, this, owedTo]
  congr 1
  exact List.map_congr_left fun j _ => holds_owed h.mid.wf i j

theorem flight_conn {w : World α} {i p : Nat} {s t : Sock α} {b a b' a' : Option Nat}
    (h : Inv w) (hs : w.socks i = some s) (hp : s.proto = .conn b a p) (ht : w.socks p = some t)
    (hc : t.proto = .conn b' a' i) : inFlight (abs w) i = w.sent i := by
  have := h.mid.acct.conn i s b a p t hs hp ht
  simp only [pendN, Nat.add_zero] at this
  simp only [inFlight, sock_abs hs, sock_abs ht, skOf, hp, hc, this]
  exact inbox_size (h.mid.wf.noPkts p t ht) (h.mid.wf.noBytes p t ht)

/-- The peer of a connected socket is closed or connected to it. -/
theorem Inv.peer {w : World α} {i p : Nat} {s : Sock α} {b a : Option Nat} (h : Inv w)
    (hs : w.socks i = some s) (hp : s.proto = .conn b a p) : p ≠ i ∧ ∃ t, w.socks p = some t ∧
      t.kind = s.kind ∧ ((t.proto = .closed ∧ w.readers p = 0 ∧ s.buf.writers = 0) ∨
        ((∃ b' a', t.proto = .conn b' a' i) ∧ w.readers p = 1 ∧ s.buf.writers = 1)) := by
  obtain ⟨h1, t, ht, hk, hc⟩ := h.mid.wf.peer i s b a p hs hp
  refine ⟨h1, t, ht, hk, ?_⟩
  rcases hc with hc | ⟨b', a', hc⟩
  · refine .inl ⟨hc, ?_, h.mid.wf.alone i s b a p t hs hp ht hc⟩
    have := h.mid.wf.readers p t ht (by rw [hc]; rfl)
    simp [World.readers, ht, this, hc, Proto.over]
  · refine .inr ⟨⟨b', a', hc⟩, ?_, (h.mid.wf.writers p t b' a' i s ht hc hs).1⟩
    have := h.mid.wf.readers p t ht (by rw [hc]; rfl)
    simp [World.readers, ht, this, hc, Proto.over]

end Shadow.Unix
