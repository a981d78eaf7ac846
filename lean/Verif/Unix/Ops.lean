import Verif.Unix.Inv

/-!
# Unix-domain sockets: the calls keep the sockets well formed
-/

namespace Shadow.Unix

open Shadow.Base

variable {α : Type}

/-- Identifiers that are not in use yet. -/
theorem Wf.none_next {S : Nat → Option (Sock α)} {n : Nat} (h : Wf S n) : S n = none := by
  cases e : S n with
  | none => rfl
  | some s => have := h.old n s e; omega

/-- Queues that only lose children stay disjoint. -/
theorem Wf.apart_of {S S' : Nat → Option (Sock α)} {n : Nat} (h : Wf S n)
    (hb : ∀ x u b q l, S' x = some u → u.proto = .listening b q l →
      ∃ u0 q0 l0, S x = some u0 ∧ u0.proto = .listening b q0 l0 ∧ ∀ c ∈ q, c ∈ q0) :
    ∀ x y u v b q l b' q' l' c, S' x = some u → S' y = some v → u.proto = .listening b q l →
      v.proto = .listening b' q' l' → c ∈ q → c ∈ q' → x = y := by
  intro x y u v b q l b' q' l' c hx hy hu hv hc hc'
  obtain ⟨u0, q0, l0, h1, h2, h3⟩ := hb x u b q l hx hu
  obtain ⟨v0, q1, l1, k1, k2, k3⟩ := hb y v b' q' l' hy hv
  exact h.apart x y u0 v0 b q0 l0 b' q1 l1 c h1 k1 h2 k2 (h3 c hc) (k3 c hc')

/-- Connections that were there before still have different peers. -/
theorem Wf.inj_of {S S' : Nat → Option (Sock α)} {n : Nat} (h : Wf S n)
    (hb : ∀ x u b a p, S' x = some u → u.proto = .conn b a p →
      ∃ u0 b a, S x = some u0 ∧ u0.proto = .conn b a p) :
    ∀ x y u v b a b' a' p, S' x = some u → S' y = some v → u.proto = .conn b a p →
      v.proto = .conn b' a' p → x = y := by
  intro x y u v b a b' a' p hx hy hu hv
  obtain ⟨u0, b0, a0, h1, h2⟩ := hb x u b a p hx hu
  obtain ⟨v0, b1, a1, k1, k2⟩ := hb y v b' a' p hy hv
  exact h.inj x y u0 v0 b0 a0 b1 a1 p h1 k1 h2 k2

/-- A buffer of one end of a new connection: `i` is its owner and `j` its writer. -/
def Joined (b : Buf α) (i j : Nat) : Prop :=
  b.bytes = [] ∧ b.pkts = [] ∧ b.readers = 1 ∧ b.writers = 1 ∧ b.st = b.exact ∧
    (i, Role.own) ∈ b.ears ∧ (j, Role.peer) ∈ b.ears ∧ ∀ e ∈ b.ears, e = (i, Role.own) ∨ e = (j, Role.peer)

/-- As far as connections go the two sockets are the same. -/
def SameConn (u v : Sock α) : Prop :=
  u.buf = v.buf ∧ u.kind = v.kind ∧ (∀ b a y, u.proto = .conn b a y ↔ v.proto = .conn b a y) ∧
    (u.proto = .closed ↔ v.proto = .closed)

/-- The four clauses about connections. -/
structure Links (S : Nat → Option (Sock α)) : Prop where
  peer : ∀ x u b a y, S x = some u → u.proto = .conn b a y → y ≠ x ∧ ∃ v, S y = some v ∧
    v.kind = u.kind ∧ (v.proto = .closed ∨ ∃ b' a', v.proto = .conn b' a' x)
  writers : ∀ x u b a y v, S x = some u → u.proto = .conn b a y → S y = some v →
    v.buf.writers = 1 ∧ (x, Role.peer) ∈ v.buf.ears
  alone : ∀ x u b a y v, S x = some u → u.proto = .conn b a y → S y = some v →
    v.proto = .closed → u.buf.writers = 0
  inj : ∀ x y u v b a b' a' p, S x = some u → S y = some v → u.proto = .conn b a p →
    v.proto = .conn b' a' p → x = y

/-- The three clauses about queues. -/
structure Queues (S : Nat → Option (Sock α)) : Prop where
  child : ∀ i s b q lim c, S i = some s → s.proto = .listening b q lim → c ∈ q →
    ∃ t, S c = some t ∧ t.held = false ∧ t.kind = s.kind ∧ t.reg = none ∧ t.proto.isConn = true
  nodup : ∀ i s b q lim, S i = some s → s.proto = .listening b q lim → q.Nodup
  apart : ∀ i j s t b q lim b' q' lim' c, S i = some s → S j = some t →
    s.proto = .listening b q lim → t.proto = .listening b' q' lim' → c ∈ q → c ∈ q' → i = j

/-- The clauses about connections after one new connection was made between `i` and `c`. -/
theorem Wf.link {S S' : Nat → Option (Sock α)} {n i c : Nat} {I C : Sock α} {b1 a1 b2 a2 : Option Nat}
    (h : Wf S n) (hne : i ≠ c)
    (hi : ∀ s, S i = some s → s.proto.early = true) (hc : S c = none)
    (gi : S' i = some I) (gc : S' c = some C) (pi : I.proto = .conn b1 a1 c)
    (pc : C.proto = .conn b2 a2 i) (hk : I.kind = C.kind) (ji : Joined I.buf i c) (jc : Joined C.buf c i)
    (back : ∀ x u, x ≠ i → x ≠ c → S' x = some u → ∃ u0, S x = some u0 ∧ SameConn u u0)
    (fwd : ∀ x u0, x ≠ i → x ≠ c → S x = some u0 → ∃ u, S' x = some u ∧ SameConn u u0) :
    Links S' := by
  have fresh : ∀ x u b a p, S x = some u → u.proto = .conn b a p → p ≠ i ∧ p ≠ c := by
    intro x u b a p hu hp
    obtain ⟨-, t, ht, -, h2⟩ := h.peer x u b a p hu hp
    constructor
    · rintro rfl
      have := hi t ht
      rcases h2 with h2 | ⟨_, _, h2⟩ <;> rw [h2] at this <;> cases this
    · rintro rfl; rw [hc] at ht; cases ht
  -- a connection is the new one, seen from either end, or an old one
  have cases : ∀ x u b a y, S' x = some u → u.proto = .conn b a y →
      (x = i ∧ u = I ∧ y = c) ∨ (x = c ∧ u = C ∧ y = i) ∨
      (x ≠ i ∧ x ≠ c ∧ y ≠ i ∧ y ≠ c ∧ ∃ u0, S x = some u0 ∧ SameConn u u0 ∧ u0.proto = .conn b a y) := by
    intro x u b a y hu hp
    by_cases e1 : x = i
    · subst e1; rw [gi] at hu; cases hu; rw [pi] at hp; cases hp; exact .inl ⟨rfl, rfl, rfl⟩
    · by_cases e2 : x = c
      · subst e2; rw [gc] at hu; cases hu; rw [pc] at hp; cases hp; exact .inr (.inl ⟨rfl, rfl, rfl⟩)
      · obtain ⟨u0, h1, h2⟩ := back x u e1 e2 hu
        have h3 := (h2.2.2.1 b a y).1 hp
        exact .inr (.inr ⟨e1, e2, (fresh x u0 b a y h1 h3).1, (fresh x u0 b a y h1 h3).2, u0, h1, h2, h3⟩)
  refine ⟨?_, ?_, ?_, ?_⟩
  · intro x u b a y hu hp
    rcases cases x u b a y hu hp with ⟨rfl, rfl, rfl⟩ | ⟨rfl, rfl, rfl⟩ | ⟨e1, e2, e3, e4, u0, h1, h2, h3⟩
    · exact ⟨hne.symm, C, gc, hk.symm, .inr ⟨_, _, pc⟩⟩
    · exact ⟨hne, I, gi, hk, .inr ⟨_, _, pi⟩⟩
    · obtain ⟨k1, v0, k2, k3, k4⟩ := h.peer x u0 b a y h1 h3
      obtain ⟨v, k5, k6⟩ := fwd y v0 e3 e4 k2
      refine ⟨k1, v, k5, by rw [k6.2.1, k3, h2.2.1], ?_⟩
      rcases k4 with k4 | ⟨b', a', k4⟩
      · exact .inl (k6.2.2.2.2 k4)
      · exact .inr ⟨b', a', (k6.2.2.1 b' a' x).2 k4⟩
  · intro x u b a y v hu hp hv
    rcases cases x u b a y hu hp with ⟨rfl, rfl, rfl⟩ | ⟨rfl, rfl, rfl⟩ | ⟨e1, e2, e3, e4, u0, h1, h2, h3⟩
    · rw [gc] at hv; cases hv; exact ⟨jc.2.2.2.1, jc.2.2.2.2.2.2.1⟩
    · rw [gi] at hv; cases hv; exact ⟨ji.2.2.2.1, ji.2.2.2.2.2.2.1⟩
    · obtain ⟨v0, k1, k2⟩ := back y v e3 e4 hv
      rw [k2.1]
      exact h.writers x u0 b a y v0 h1 h3 k1
  · intro x u b a y v hu hp hv hvc
    rcases cases x u b a y hu hp with ⟨rfl, rfl, rfl⟩ | ⟨rfl, rfl, rfl⟩ | ⟨e1, e2, e3, e4, u0, h1, h2, h3⟩
    · rw [gc] at hv; cases hv; rw [pc] at hvc; cases hvc
    · rw [gi] at hv; cases hv; rw [pi] at hvc; cases hvc
    · obtain ⟨v0, k1, k2⟩ := back y v e3 e4 hv
      rw [h2.1]
      exact h.alone x u0 b a y v0 h1 h3 k1 (k2.2.2.2.1 hvc)
  · intro x y u v b a b' a' p hx hy hu hv
    rcases cases x u b a p hx hu with ⟨h1, h2, h3⟩ | ⟨h1, h2, h3⟩ | ⟨e1, e2, e3, e4, u0, h1, h2, h3⟩ <;>
      rcases cases y v b' a' p hy hv with ⟨k1, k2, k3⟩ | ⟨k1, k2, k3⟩ | ⟨f1, f2, f3, f4, v0, k1, k2, k3⟩
    · rw [h1, k1]
    · exact (hne (k3.symm.trans h3)).elim
    · exact (f4 h3).elim
    · exact (hne (h3.symm.trans k3)).elim
    · rw [h1, k1]
    · exact (f3 h3).elim
    · exact (e4 k3).elim
    · exact (e3 k3).elim
    · exact h.inj x y u0 v0 b a b' a' p h1 k1 h3 k3

theorem SameConn.rfl' (u : Sock α) : SameConn u u := ⟨rfl, rfl, fun _ _ _ => Iff.rfl, Iff.rfl⟩

/-- `grind` with the definitions that the clauses use. -/
macro "wf_grind" : tactic => `(tactic|
  grind [put, Proto.isD, Proto.early, Proto.over, Proto.isConn, Buf.exact, Buf.hasData])

/-- `grind` with all clauses of `h`. -/
macro "wf_all" h:ident : tactic => `(tactic|
  (obtain ⟨a1, a2, a3, a4, a5, a6, a7, a8, a9, a10, a11, a12, a13, a14, a15, a16, a17, a18, a19, a20,
    a21, a22, a23, a24, a25⟩ := $h; wf_grind))

/-- Proves each clause of `Wf` for an explicitly changed table from the same clause before the
change, and where that is not enough from all of them. -/
macro "wf_clauses" h:ident : tactic => `(tactic| (
  constructor
  case old => first | assumption | (have c := Wf.old $h; clear $h; wf_grind) | wf_all $h
  case isD => first | assumption | (have c := Wf.isD $h; clear $h; wf_grind) | wf_all $h
  case noPkts => first | assumption | (have c := Wf.noPkts $h; clear $h; wf_grind) | wf_all $h
  case noBytes => first | assumption | (have c := Wf.noBytes $h; clear $h; wf_grind) | wf_all $h
  case st => first | assumption | (have c := Wf.st $h; clear $h; wf_grind) | wf_all $h
  case early => first | assumption | (have c := Wf.early $h; clear $h; wf_grind) | wf_all $h
  case readers => first | assumption | (have c := Wf.readers $h; clear $h; wf_grind) | wf_all $h
  case peer => first | assumption | exact Links.peer (by assumption) | (have c := Wf.peer $h; clear $h; wf_grind) | wf_all $h
  case writers => first | assumption | exact Links.writers (by assumption) | (have c := Wf.writers $h; clear $h; wf_grind) | wf_all $h
  case alone => first | assumption | exact Links.alone (by assumption) | (have c := Wf.alone $h; clear $h; wf_grind) | wf_all $h
  case ear => first | assumption | (have c := Wf.ear $h; clear $h; wf_grind) | wf_all $h
  case earD => first | assumption | (have c := Wf.earD $h; clear $h; wf_grind) | wf_all $h
  case earOwn => first | assumption | (have c := Wf.earOwn $h; clear $h; wf_grind) | wf_all $h
  case notes => first | assumption | (have c := Wf.notes $h; clear $h; wf_grind) | wf_all $h
  case srcs => first | assumption | (have c := Wf.srcs $h; clear $h; wf_grind) | wf_all $h
  case peerD => first | assumption | (have c := Wf.peerD $h; clear $h; wf_grind) | wf_all $h
  case child => first | assumption | exact Queues.child (by assumption) | (have c := Wf.child $h; clear $h; wf_grind) | wf_all $h
  case nodup => first | assumption | exact Queues.nodup (by assumption) | (have c := Wf.nodup $h; clear $h; wf_grind) | wf_all $h
  case apart => first | assumption | exact Queues.apart (by assumption) | exact Wf.apart_of $h (by clear $h; wf_grind) | (have c := Wf.apart $h; clear $h; wf_grind) | wf_all $h
  case held => first | assumption | (have c := Wf.held $h; clear $h; wf_grind) | wf_all $h
  case heldD => first | assumption | (have c := Wf.heldD $h; clear $h; wf_grind) | wf_all $h
  case reg => first | assumption | (have c := Wf.reg $h; clear $h; wf_grind) | wf_all $h
  case regL => first | assumption | (have c := Wf.regL $h; clear $h; wf_grind) | wf_all $h
  case regD => first | assumption | (have c := Wf.regD $h; clear $h; wf_grind) | wf_all $h
  case inj => first | assumption | exact Links.inj (by assumption) | exact Wf.inj_of $h (by clear $h; wf_grind) | (have c := Wf.inj $h; clear $h; wf_grind) | wf_all $h))

/-- A change of the contents of a connected socket's buffer. -/
theorem wf_content {S : Nat → Option (Sock α)} {n p : Nat} {t : Sock α} {b : Buf α} (h : Wf S n)
    (hp : S p = some t) (he : t.proto.early = false) (hd : t.proto.isD = false)
    (h1 : b.readers = t.buf.readers) (h2 : b.writers = t.buf.writers) (h3 : b.ears = t.buf.ears)
    (h4 : b.st = b.exact) (h5 : t.kind = .stream → b.pkts = []) (h6 : t.kind ≠ .stream → b.bytes = []) :
    Wf (put S p (some { t with buf := b })) n := by
  wf_clauses h

/-- A change of the packets of a datagram socket together with its notes. -/
theorem wf_packets {S : Nat → Option (Sock α)} {n p : Nat} {t : Sock α} {b : Buf α}
    {bound peer : Option Nat} {r r' : List Entry} (h : Wf S n)
    (hp : S p = some t) (hd : t.proto = .dgram bound peer r)
    (h1 : b.readers = t.buf.readers) (h3 : b.ears = t.buf.ears)
    (h4 : b.st = b.exact) (h6 : b.bytes = [])
    (h7 : b.pkts.map List.length = r'.map Entry.len)
    (h8 : ∀ e ∈ r', e ∈ r ∨ (S e.src).map Sock.kind = some .dgram) :
    Wf (put S p (some { t with buf := b, proto := .dgram bound peer r' })) n := by
  have hk := (h.isD p t hp).1 (by rw [hd]; rfl)
  wf_clauses h

/-- A new socket. -/
theorem wf_add {S : Nat → Option (Sock α)} {n : Nat} (h : Wf S n) (k : Kind) :
    Wf (put S n (some (newSock α n k))) (n + 1) := by
  have hn := h.none_next
  cases k <;> simp only [newSock] <;> wf_clauses h

/-- A datagram socket gets a peer. -/
theorem wf_peer {S : Nat → Option (Sock α)} {n i p : Nat} {s : Sock α} {b q : Option Nat}
    {r : List Entry} (h : Wf S n) (hs : S i = some s) (hd : s.proto = .dgram b q r)
    (hk : (S p).map Sock.kind = some .dgram) :
    Wf (put S i (some { s with proto := .dgram b (some p) r })) n := by
  wf_clauses h

/-- A socket gets a name. -/
theorem wf_bind {S : Nat → Option (Sock α)} {n i m : Nat} {s : Sock α} (h : Wf S n)
    (hs : S i = some s) (hd : s.proto = .init none ∨ ∃ p r, s.proto = .dgram none p r) :
    Wf (put S i (some { s with proto := s.proto.bindTo m, reg := some m })) n := by
  rcases hd with hd | ⟨p, r, hd⟩ <;> rw [hd] <;> simp only [Proto.bindTo] <;> wf_clauses h

/-- A socket starts to listen, or changes its limit. -/
theorem wf_listen {S : Nat → Option (Sock α)} {n i m : Nat} {q : List Nat} {s : Sock α} (h : Wf S n)
    (hs : S i = some s) (lim : Nat)
    (hd : (s.proto = .init (some m) ∧ q = []) ∨ ∃ l, s.proto = .listening m q l) :
    Wf (put S i (some { s with proto := .listening m q lim })) n := by
  rcases hd with ⟨hd, rfl⟩ | ⟨l, hd⟩
  · wf_clauses h
  · have hap := h.apart_of (S' := put S i (some { s with proto := .listening m q lim })) (by
      intro x u b q' l' hx hu
      by_cases ex : x = i
      · subst ex
        simp only [put, if_true, Option.some.injEq] at hx
        subst hx
        simp only [Proto.listening.injEq] at hu
        obtain ⟨rfl, rfl, rfl⟩ := hu
        exact ⟨s, _, _, hs, hd, fun _ h => h⟩
      · simp only [put, ex, if_false] at hx
        exact ⟨u, q', l', hx, hu, fun _ h => h⟩)
    wf_clauses h

/-- A child is taken out of the queue and handed to the program. -/
theorem wf_accept {S : Nat → Option (Sock α)} {n i m c lim : Nat} {q : List Nat} {s t : Sock α}
    (h : Wf S n) (hs : S i = some s) (hd : s.proto = .listening m (c :: q) lim)
    (ht : S c = some t) (hp : t.proto.isConn = true) (hld : Bool) (hne : i ≠ c) :
    Wf (put (put S c (some { t with held := hld })) i (some { s with proto := .listening m q lim })) n := by
  have hnd := h.nodup i s m _ lim hs hd
  have key : ∀ j u b q₁ l₁,
      put (put S c (some { t with held := hld })) i (some { s with proto := .listening m q lim }) j =
        some u → u.proto = .listening b q₁ l₁ →
      ∃ u0 q0 l0, S j = some u0 ∧ u0.kind = u.kind ∧ u0.proto = .listening b q0 l0 ∧
        ∀ d ∈ q₁, d ∈ q0 ∧ d ≠ c := by
    intro j u b q₁ l₁ hj hu
    by_cases ej : j = i
    · subst ej
      simp only [put, if_true, Option.some.injEq] at hj
      subst hj
      simp only [Proto.listening.injEq] at hu
      obtain ⟨rfl, rfl, rfl⟩ := hu
      refine ⟨s, _, _, hs, rfl, hd, fun d hdq => ⟨List.mem_cons_of_mem _ hdq, ?_⟩⟩
      rintro rfl
      exact (List.nodup_cons.1 hnd).1 hdq
    · simp only [put, ej, if_false] at hj
      by_cases ec : j = c
      · subst ec
        simp only [if_true, Option.some.injEq] at hj
        subst hj
        simp only at hu
        rw [hu] at hp; cases hp
      · simp only [ec, if_false] at hj
        refine ⟨u, q₁, l₁, hj, rfl, hu, fun d hdq => ⟨hdq, ?_⟩⟩
        rintro rfl
        exact ej (h.apart i j s u _ _ _ _ _ _ d hs hj hd hu (by simp) hdq).symm
  have hap := h.apart_of (S' := put (put S c (some { t with held := hld })) i
      (some { s with proto := .listening m q lim })) fun x u b q l hx hu => by
    obtain ⟨u0, q0, l0, h1, h2, h3, h4⟩ := key x u b q l hx hu
    exact ⟨u0, q0, l0, h1, h3, fun c hc => (h4 c hc).1⟩
  have hinj := h.inj_of (S' := put (put S c (some { t with held := hld })) i
      (some { s with proto := .listening m q lim })) fun x u b a p hx hu => by
    by_cases ex : x = i
    · subst ex; simp only [put, if_true, Option.some.injEq] at hx; subst hx; cases hu
    · simp only [put, ex, if_false] at hx
      by_cases ec : x = c
      · subst ec
        simp only [if_true, Option.some.injEq] at hx
        subst hx
        exact ⟨t, b, a, ht, hu⟩
      · simp only [ec, if_false] at hx
        exact ⟨u, b, a, hx, hu⟩
  have hch : ∀ j u b q₁ l₁ d,
      put (put S c (some { t with held := hld })) i (some { s with proto := .listening m q lim }) j =
        some u → u.proto = .listening b q₁ l₁ → d ∈ q₁ →
      ∃ v, put (put S c (some { t with held := hld })) i
        (some { s with proto := .listening m q lim }) d = some v ∧ v.held = false ∧ v.kind = u.kind ∧
          v.reg = none ∧ v.proto.isConn = true := by
    intro j u b q₁ l₁ d hj hu hdq
    obtain ⟨u0, q0, l0, h1, h2, h3, h4⟩ := key j u b q₁ l₁ hj hu
    obtain ⟨h4, h5⟩ := h4 d hdq
    obtain ⟨v, hv, hv1, hv2, hv3, hv4⟩ := h.child j u0 b q0 l0 d h1 h3 h4
    have hdi : d ≠ i := by
      rintro rfl
      rw [hs] at hv; cases hv
      rw [hd] at hv4; cases hv4
    refine ⟨v, ?_, hv1, hv2.trans h2, hv3, hv4⟩
    simp only [put, hdi, h5, if_false]
    exact hv
  clear key hnd
  have hov : t.proto.over = false := by revert hp; cases t.proto <;> simp [Proto.isConn, Proto.over]
  have hnd : q.Nodup := (List.nodup_cons.1 (h.nodup i s m _ lim hs hd)).2
  wf_clauses h

/-- A socket that was never connected is closed. -/
theorem wf_shut {S : Nat → Option (Sock α)} {n i : Nat} {s : Sock α} (h : Wf S n)
    (hs : S i = some s) (hd : s.proto.early = true) (hq : ∀ b q l, s.proto = .listening b q l → q = []) :
    Wf (put S i (some { s with proto := .closed, held := false })) n := by
  have hnd : s.proto.isD = false := by revert hd; cases s.proto <;> simp [Proto.isD, Proto.early]
  have hkd := h.isD i s hs
  wf_clauses h

/-- A datagram socket is closed. -/
theorem wf_closeDgram {S : Nat → Option (Sock α)} {n i : Nat} {s : Sock α} {b p : Option Nat}
    {r : List Entry} {bf : Buf α} (h : Wf S n)
    (hs : S i = some s) (hd : s.proto = .dgram b p r) (hb : bf.bytes = s.buf.bytes)
    (hp : bf.pkts = s.buf.pkts) (hr : bf.readers = 0) (hst : bf.st = bf.exact)
    (hw : bf.writers = s.buf.writers) (he : ∀ e ∈ bf.ears, e ∈ s.buf.ears) :
    Wf (put S i (some { s with proto := .dgramClosed, held := false, buf := bf })) n := by
  wf_clauses h

/-- The clauses about connections after a connected socket was closed. -/
theorem closeConn_aux {S : Nat → Option (Sock α)} {n i p : Nat} {s t : Sock α} {b a : Option Nat}
    {bs bt : Buf α} (h : Wf S n) (hs : S i = some s) (hd : s.proto = .conn b a p) (ht : S p = some t)
    (hsb : bs.bytes = s.buf.bytes) (hsp : bs.pkts = s.buf.pkts) (hsr : bs.readers = 0)
    (hsw : bs.writers = s.buf.writers) (hst : bs.st = bs.exact)
    (hse : ∀ e, e ∈ bs.ears ↔ e ∈ s.buf.ears ∧ e.1 ≠ i)
    (htb : bt.bytes = t.buf.bytes) (htp : bt.pkts = t.buf.pkts) (htr : bt.readers = t.buf.readers)
    (htw : bt.writers = 0) (htt : bt.st = bt.exact)
    (hte : ∀ e, e ∈ bt.ears ↔ e ∈ t.buf.ears ∧ e.1 ≠ i)
    (hnq : ∀ j u b q l, S j = some u → u.proto = .listening b q l → i ∉ q) :
    let S' := put (put S p (some { t with buf := bt })) i
      (some { s with proto := .closed, held := false, buf := bs })
    (∀ x u b a y, S' x = some u → u.proto = .conn b a y → y ≠ x ∧ ∃ v, S' y = some v ∧
      v.kind = u.kind ∧ (v.proto = .closed ∨ ∃ b' a', v.proto = .conn b' a' x)) ∧
    (∀ x u b a y v, S' x = some u → u.proto = .conn b a y → S' y = some v →
      v.buf.writers = 1 ∧ (x, Role.peer) ∈ v.buf.ears) ∧
    (∀ x u b a y v, S' x = some u → u.proto = .conn b a y → S' y = some v →
      v.proto = .closed → u.buf.writers = 0) ∧
    (∀ x u b a y, S' x = some u → u.proto = .conn b a y → (x, Role.own) ∈ u.buf.ears) ∧
    (∀ x y u v b a b' a' p, S' x = some u → S' y = some v → u.proto = .conn b a p →
      v.proto = .conn b' a' p → x = y) := by
  have hpe := h.peer i s b a p hs hd
  obtain ⟨hne, t', ht', hk, hor⟩ := hpe
  rw [ht] at ht'; cases ht'
  have hx : ∀ x u b a, S x = some u → u.proto = .conn b a i → x = p := by
    intro x u b' a' hu hc
    obtain ⟨-, v, hv, -, hv'⟩ := h.peer x u b' a' i hu hc
    rw [hs] at hv; cases hv
    rw [hd] at hv'
    rcases hv' with h | ⟨_, _, h⟩
    · cases h
    · simp only [Proto.conn.injEq] at h; exact h.2.2.symm
  obtain ⟨S', hS'⟩ : ∃ S', S' = put (put S p (some { t with buf := bt })) i
    (some { s with proto := .closed, held := false, buf := bs }) := ⟨_, rfl⟩
  have gi : S' i = some { s with proto := .closed, held := false, buf := bs } := by rw [hS']; simp
  have gp : S' p = some { t with buf := bt } := by rw [hS', put_ne _ _ hne]; simp
  have gx : ∀ x, x ≠ i → x ≠ p → S' x = S x := fun x h1 h2 => by rw [hS', put_ne _ _ h1, put_ne _ _ h2]
  have back : ∀ x u b a y, S' x = some u → u.proto = .conn b a y →
      x ≠ i ∧ ∃ u0, S x = some u0 ∧ u0.proto = .conn b a y ∧ u0.kind = u.kind ∧
        (x ≠ p → u = u0) ∧ (x = p → u0 = t ∧ u.buf = bt) := by
    intro x u b' a' y hu hc
    have ex : x ≠ i := by rintro rfl; rw [gi] at hu; cases hu; cases hc
    refine ⟨ex, ?_⟩
    by_cases ep : x = p
    · subst ep; rw [gp] at hu; cases hu; exact ⟨t, ht, hc, rfl, fun h => (h rfl).elim, fun _ => ⟨rfl, rfl⟩⟩
    · rw [gx x ex ep] at hu; exact ⟨u, hu, hc, rfl, fun _ => rfl, fun h => (ep h).elim⟩
  have only : ∀ x u b' a', S x = some u → u.proto = .conn b' a' p → x = i :=
    fun x u b' a' hu hc => h.inj x i u s b' a' b a p hu hs hc hd
  have hinj := h.inj_of (S' := S') fun x u b a y hx hu => by
    obtain ⟨-, u0, h1, h2, -⟩ := back x u b a y hx hu
    exact ⟨u0, b, a, h1, h2⟩
  have hwr : ∀ x u b a y v, S' x = some u → u.proto = .conn b a y → S' y = some v →
      v.buf.writers = 1 ∧ (x, Role.peer) ∈ v.buf.ears := by
    intro x u b' a' y v hu hc hv
    obtain ⟨ex, u0, hu0, hc0, -⟩ := back x u b' a' y hu hc
    by_cases ey : y = i
    · subst ey
      rw [gi] at hv
      cases hv
      have := h.writers x u0 b' a' y s hu0 hc0 hs
      exact ⟨by simpa [hsw] using this.1, (hse _).2 ⟨this.2, ex⟩⟩
    · have hyp : y ≠ p := by rintro rfl; exact ex (only x u0 b' a' hu0 hc0)
      rw [gx y ey hyp] at hv
      exact h.writers x u0 b' a' y v hu0 hc0 hv
  have hpe : ∀ x u b a y, S' x = some u → u.proto = .conn b a y → y ≠ x ∧ ∃ v, S' y = some v ∧
      v.kind = u.kind ∧ (v.proto = .closed ∨ ∃ b' a', v.proto = .conn b' a' x) := by
    intro x u b' a' y hu hc
    obtain ⟨ex, u0, hu0, hc0, hk0, -⟩ := back x u b' a' y hu hc
    obtain ⟨h1, v, hv, hvk, hv'⟩ := h.peer x u0 b' a' y hu0 hc0
    refine ⟨h1, ?_⟩
    by_cases ey : y = i
    · subst ey
      rw [hs] at hv; cases hv
      exact ⟨_, gi, by rw [← hk0]; exact hvk, .inl rfl⟩
    · have hyp : y ≠ p := by rintro rfl; exact ex (only x u0 b' a' hu0 hc0)
      exact ⟨v, by rw [gx y ey hyp]; exact hv, by rw [← hk0]; exact hvk, hv'⟩
  have hal : ∀ x u b a y v, S' x = some u → u.proto = .conn b a y → S' y = some v →
      v.proto = .closed → u.buf.writers = 0 := by
    intro x u b' a' y v hu hc hv hvc
    obtain ⟨ex, u0, hu0, hc0, -, h1, h2⟩ := back x u b' a' y hu hc
    by_cases ep : x = p
    · rw [(h2 ep).2]; exact htw
    · rw [h1 ep] at hc ⊢
      by_cases ey : y = i
      · subst ey; exact (ep (hx x u0 b' a' hu0 hc0)).elim
      · have hyp : y ≠ p := by rintro rfl; exact ex (only x u0 b' a' hu0 hc0)
        rw [gx y ey hyp] at hv
        exact h.alone x u0 b' a' y v hu0 hc0 hv hvc
  have hear : ∀ x u b a y, S' x = some u → u.proto = .conn b a y → (x, Role.own) ∈ u.buf.ears := by
    intro x u b' a' y hu hc
    obtain ⟨ex, u0, hu0, hc0, -, h1, h2⟩ := back x u b' a' y hu hc
    have := h.ear x u0 b' a' y hu0 hc0
    by_cases ep : x = p
    · rw [(h2 ep).2]; rw [(h2 ep).1] at this; exact (hte _).2 ⟨this, ex⟩
    · rw [h1 ep]; exact this
  rw [← hS']
  exact ⟨hpe, hwr, hal, hear, hinj⟩

/-- A connected socket is closed. -/
theorem wf_closeConn {S : Nat → Option (Sock α)} {n i p : Nat} {s t : Sock α} {b a : Option Nat}
    {bs bt : Buf α} (h : Wf S n) (hs : S i = some s) (hd : s.proto = .conn b a p) (ht : S p = some t)
    (hsb : bs.bytes = s.buf.bytes) (hsp : bs.pkts = s.buf.pkts) (hsr : bs.readers = 0)
    (hsw : bs.writers = s.buf.writers) (hst : bs.st = bs.exact)
    (hse : ∀ e, e ∈ bs.ears ↔ e ∈ s.buf.ears ∧ e.1 ≠ i)
    (htb : bt.bytes = t.buf.bytes) (htp : bt.pkts = t.buf.pkts) (htr : bt.readers = t.buf.readers)
    (htw : bt.writers = 0) (htt : bt.st = bt.exact)
    (hte : ∀ e, e ∈ bt.ears ↔ e ∈ t.buf.ears ∧ e.1 ≠ i)
    (hnq : ∀ j u b q l, S j = some u → u.proto = .listening b q l → i ∉ q) :
    Wf (put (put S p (some { t with buf := bt })) i
      (some { s with proto := .closed, held := false, buf := bs })) n := by
  have aux := closeConn_aux h hs hd ht hsb hsp hsr hsw hst hse htb htp htr htw htt hte hnq
  have hpe := h.peer i s b a p hs hd
  obtain ⟨hne, t', ht', hk, hor⟩ := hpe
  rw [ht] at ht'; cases ht'
  have hkd := h.isD i s hs
  constructor
  case old => have c := h.old; clear aux h; grind [put, Proto.isD, Proto.early, Proto.over, Proto.isConn, Buf.exact, Buf.hasData]
  case isD => have c := h.isD; clear aux h; grind [put, Proto.isD, Proto.early, Proto.over, Proto.isConn, Buf.exact, Buf.hasData]
  case noPkts => have c := h.noPkts; clear aux h; grind [put, Proto.isD, Proto.early, Proto.over, Proto.isConn, Buf.exact, Buf.hasData]
  case noBytes => have c := h.noBytes; clear aux h; grind [put, Proto.isD, Proto.early, Proto.over, Proto.isConn, Buf.exact, Buf.hasData]
  case st => have c := h.st; clear aux h; grind [put, Proto.isD, Proto.early, Proto.over, Proto.isConn, Buf.exact, Buf.hasData]
  case early => have c := h.early; clear aux h; grind [put, Proto.isD, Proto.early, Proto.over, Proto.isConn, Buf.exact, Buf.hasData]
  case readers => have c := h.readers; clear aux h; grind [put, Proto.isD, Proto.early, Proto.over, Proto.isConn, Buf.exact, Buf.hasData]
  case peer => exact aux.1
  case writers => exact aux.2.1
  case alone => exact aux.2.2.1
  case ear => exact aux.2.2.2.1
  case earD => have c := h.earD; clear aux h; grind [put, Proto.isD, Proto.early, Proto.over, Proto.isConn, Buf.exact, Buf.hasData]
  case earOwn => have c := h.earOwn; clear aux h; grind [put, Proto.isD, Proto.early, Proto.over, Proto.isConn, Buf.exact, Buf.hasData]
  case notes => have c := h.notes; clear aux h; grind [put, Proto.isD, Proto.early, Proto.over, Proto.isConn, Buf.exact, Buf.hasData]
  case srcs => have c := h.srcs; clear aux h; grind [put, Proto.isD, Proto.early, Proto.over, Proto.isConn, Buf.exact, Buf.hasData]
  case peerD => have c := h.peerD; clear aux h; grind [put, Proto.isD, Proto.early, Proto.over, Proto.isConn, Buf.exact, Buf.hasData]
  case child => have c := h.child; clear aux h; grind [put, Proto.isD, Proto.early, Proto.over, Proto.isConn, Buf.exact, Buf.hasData]
  case nodup => have c := h.nodup; clear aux h; grind [put, Proto.isD, Proto.early, Proto.over, Proto.isConn, Buf.exact, Buf.hasData]
  case apart => exact h.apart_of (by clear aux h; grind [put, Proto.isD, Proto.early, Proto.over, Proto.isConn, Buf.exact, Buf.hasData])
  case held => have c := h.held; clear aux h; grind [put, Proto.isD, Proto.early, Proto.over, Proto.isConn, Buf.exact, Buf.hasData]
  case heldD => have c := h.heldD; clear aux h; grind [put, Proto.isD, Proto.early, Proto.over, Proto.isConn, Buf.exact, Buf.hasData]
  case reg => have c := h.reg; clear aux h; grind [put, Proto.isD, Proto.early, Proto.over, Proto.isConn, Buf.exact, Buf.hasData]
  case regL => have c := h.regL; clear aux h; grind [put, Proto.isD, Proto.early, Proto.over, Proto.isConn, Buf.exact, Buf.hasData]
  case regD => have c := h.regD; clear aux h; grind [put, Proto.isD, Proto.early, Proto.over, Proto.isConn, Buf.exact, Buf.hasData]
  case inj => exact aux.2.2.2.2

/-- Two new sockets are connected to each other. -/
theorem wf_pair {S : Nat → Option (Sock α)} {n : Nat} {k : Kind} {ba bb : Buf α} (h : Wf S n)
    (hk : k ≠ .dgram) (h1 : Joined ba n (n + 1)) (h2 : Joined bb (n + 1) n) :
    Wf (put (put S n (some { kind := k, proto := .conn none none (n + 1), buf := ba })) (n + 1)
      (some { kind := k, proto := .conn none none n, buf := bb })) (n + 2) := by
  have hn := h.none_next
  have hn' : S (n + 1) = none := by
    cases e : S (n + 1) with
    | none => rfl
    | some s => have := h.old _ s e; omega
  obtain ⟨S', hS'⟩ : ∃ S', S' = put (put S n (some { kind := k, proto := .conn none none (n + 1), buf := ba }))
      (n + 1) (some { kind := k, proto := .conn none none n, buf := bb }) := ⟨_, rfl⟩
  have gx : ∀ x, x ≠ n → x ≠ n + 1 → S' x = S x := fun x e1 e2 => by
    rw [hS', put_ne _ _ e2, put_ne _ _ e1]
  have hlinks := h.link (S' := S') (i := n) (c := n + 1)
    (I := { kind := k, proto := .conn none none (n + 1), buf := ba })
    (C := { kind := k, proto := .conn none none n, buf := bb }) (by omega)
    (fun s hs => by rw [hn] at hs; cases hs) hn' (by rw [hS', put_ne _ _ (by omega)]; exact put_same ..)
    (by rw [hS']; exact put_same ..) rfl rfl rfl h1 h2
    (fun x u e1 e2 hu => ⟨u, by rw [← gx x e1 e2]; exact hu, SameConn.rfl' u⟩)
    (fun x u e1 e2 hu => ⟨u, by rw [gx x e1 e2]; exact hu, SameConn.rfl' u⟩)
  clear gx
  subst hS'
  obtain ⟨b1, b2, b3, b4, b5, b6, b7, b8⟩ := h1
  obtain ⟨c1, c2, c3, c4, c5, c6, c7, c8⟩ := h2
  wf_clauses h

/-- A socket connects to a listening one. -/
theorem wf_connect {S : Nat → Option (Sock α)} {n i srv m lim : Nat} {q : List Nat} {s t : Sock α}
    {bound peer : Option Nat} {bi bc : Buf α} (h : Wf S n) (hi : S i = some s)
    (hp : s.proto = .init bound) (ht : S srv = some t) (hl : t.proto = .listening m q lim)
    (hk : t.kind = s.kind) (h1 : Joined bi i n) (h2 : Joined bc n i) :
    Wf (put (put (put S n (some { kind := t.kind, proto := .conn (some m) bound i, buf := bc, held := false }))
      srv (some { t with proto := .listening m (q ++ [n]) lim }))
      i (some { s with proto := .conn bound peer n, buf := bi })) (n + 1) := by
  have hn := h.none_next
  have hD := h.isD i s hi
  rw [hp] at hD
  obtain ⟨S', hS'⟩ : ∃ S', S' = put (put (put S n (some { kind := t.kind, proto := .conn (some m) bound i, buf := bc, held := false }))
      srv (some { t with proto := .listening m (q ++ [n]) lim }))
      i (some { s with proto := .conn bound peer n, buf := bi }) := ⟨_, rfl⟩
  have hni : i ≠ n := by have := h.old i s hi; omega
  have his : i ≠ srv := by rintro rfl; rw [hi] at ht; cases ht; rw [hp] at hl; cases hl
  have hns : srv ≠ n := by have := h.old srv t ht; omega
  have gs : S' srv = some { t with proto := .listening m (q ++ [n]) lim } := by
    rw [hS', put_ne _ _ (Ne.symm his)]; exact put_same ..
  have gx : ∀ x, x ≠ i → x ≠ n → x ≠ srv → S' x = S x := fun x e1 e2 e3 => by
    rw [hS', put_ne _ _ e1, put_ne _ _ e3, put_ne _ _ e2]
  have same : SameConn { t with proto := .listening m (q ++ [n]) lim } t :=
    ⟨rfl, rfl, fun _ _ _ => by simp [hl], by simp [hl]⟩
  have hlinks := h.link (S' := S') (i := i) (c := n)
    (I := { s with proto := .conn bound peer n, buf := bi })
    (C := { kind := t.kind, proto := .conn (some m) bound i, buf := bc, held := false }) hni
    (fun s' hs => by rw [hi] at hs; cases hs; rw [hp]; rfl) hn (by rw [hS']; exact put_same ..)
    (by rw [hS', put_ne _ _ (Ne.symm hni), put_ne _ _ (Ne.symm hns)]; exact put_same ..) rfl rfl hk.symm h1 h2
    (fun x u e1 e2 hu => by
      by_cases e3 : x = srv
      · subst e3; rw [gs] at hu; cases hu; exact ⟨t, ht, same⟩
      · exact ⟨u, by rw [← gx x e1 e2 e3]; exact hu, SameConn.rfl' u⟩)
    (fun x u e1 e2 hu => by
      by_cases e3 : x = srv
      · subst e3; rw [ht] at hu; cases hu; exact ⟨_, gs, same⟩
      · exact ⟨u, by rw [gx x e1 e2 e3]; exact hu, SameConn.rfl' u⟩)
  have old : ∀ x u b q l, S x = some u → u.proto = .listening b q l → n ∉ q := by
    intro x u b q l hx hu hm
    obtain ⟨t, ht, -⟩ := h.child x u b q l n hx hu hm
    rw [hn] at ht; cases ht
  have back : ∀ x u b q' l, S' x = some u → u.proto = .listening b q' l → ∃ u0 q0, S x = some u0 ∧
      u0.proto = .listening b q0 l ∧ (∀ d ∈ q', d ∈ q0 ∨ (d = n ∧ x = srv)) := by
    intro x u b q' l hx hu
    rw [hS'] at hx
    by_cases ei : x = i
    · subst ei; simp only [put, if_true, Option.some.injEq] at hx; subst hx; cases hu
    · by_cases es : x = srv
      · subst es
        simp only [put, ei, if_false, if_true, Option.some.injEq] at hx
        subst hx
        simp only [Proto.listening.injEq] at hu
        obtain ⟨rfl, rfl, rfl⟩ := hu
        exact ⟨t, q, ht, hl, fun d hd => by simpa using hd⟩
      · by_cases en : x = n
        · subst en; simp only [put, ei, es, if_false, if_true, Option.some.injEq] at hx; subst hx; cases hu
        · simp only [put, ei, es, en, if_false] at hx
          exact ⟨u, q', hx, hu, fun d hd => .inl hd⟩
  have hap : ∀ x y u v b q l b' q' l' c, S' x = some u → S' y = some v → u.proto = .listening b q l →
      v.proto = .listening b' q' l' → c ∈ q → c ∈ q' → x = y := by
    intro x y u v b q₁ l b' q₂ l' d hx hy hu hv hd hd'
    obtain ⟨u0, qa, k1, k2, k3⟩ := back x u b q₁ l hx hu
    obtain ⟨v0, qb, j1, j2, j3⟩ := back y v b' q₂ l' hy hv
    rcases k3 d hd with h3 | ⟨h3, h4⟩ <;> rcases j3 d hd' with h5 | ⟨h5, h6⟩
    · exact h.apart x y u0 v0 b qa l b' qb l' d k1 j1 k2 j2 h3 h5
    · exact (old _ _ _ _ _ k1 k2 (h5 ▸ h3)).elim
    · exact (old _ _ _ _ _ j1 j2 (h3 ▸ h5)).elim
    · rw [h4, h6]
  have hnd : ∀ x u b q' l, S' x = some u → u.proto = .listening b q' l → q'.Nodup := by
    intro x u b q' l hx hu
    by_cases es : x = srv
    · subst es
      rw [gs] at hx; cases hx
      simp only [Proto.listening.injEq] at hu
      obtain ⟨rfl, rfl, rfl⟩ := hu
      refine List.nodup_append.2 ⟨h.nodup _ _ _ _ _ ht hl, by simp, ?_⟩
      intro d hd e he hde
      simp only [List.mem_singleton] at he
      exact old _ _ _ _ _ ht hl (he ▸ hde ▸ hd)
    · obtain ⟨u0, q0, k1, k2, k3⟩ := back x u b q' l hx hu
      by_cases ei : x = i
      · subst ei; rw [hi] at k1; cases k1; rw [hp] at k2; cases k2
      · by_cases en : x = n
        · subst en; rw [hn] at k1; cases k1
        · rw [gx x ei en es] at hx
          exact h.nodup _ _ _ _ _ hx hu
  have hch : ∀ x u b q' l d, S' x = some u → u.proto = .listening b q' l → d ∈ q' →
      ∃ v, S' d = some v ∧ v.held = false ∧ v.kind = u.kind ∧ v.reg = none ∧ v.proto.isConn = true := by
    intro x u b q' l d hx hu hd
    obtain ⟨u0, q0, k1, k2, k3⟩ := back x u b q' l hx hu
    have hku : u.kind = u0.kind := by
      by_cases es : x = srv
      · subst es; rw [gs] at hx; cases hx; rw [ht] at k1; cases k1; rfl
      · by_cases ei : x = i
        · subst ei; rw [hi] at k1; cases k1; rw [hp] at k2; cases k2
        · by_cases en : x = n
          · subst en; rw [hn] at k1; cases k1
          · rw [gx x ei en es, k1] at hx; cases hx; rfl
    rcases k3 d hd with h3 | ⟨rfl, rfl⟩
    · obtain ⟨v, j1, j2, j3, j4, j5⟩ := h.child x u0 b q0 l d k1 k2 h3
      have e1 : d ≠ i := by rintro rfl; rw [hi] at j1; cases j1; rw [hp] at j5; cases j5
      have e2 : d ≠ n := by rintro rfl; rw [hn] at j1; cases j1
      have e3 : d ≠ srv := by rintro rfl; rw [ht] at j1; cases j1; rw [hl] at j5; cases j5
      exact ⟨v, by rw [gx d e1 e2 e3]; exact j1, j2, by rw [j3, hku], j4, j5⟩
    · rw [ht] at k1; cases k1
      exact ⟨{ kind := t.kind, proto := .conn (some m) bound i, buf := bc, held := false },
        by rw [hS', put_ne _ _ (Ne.symm hni), put_ne _ _ (Ne.symm hns)]; exact put_same ..,
        rfl, hku.symm, rfl, rfl⟩
  have hqs : Queues S' := ⟨hch, hnd, hap⟩
  clear gx gs same old back hch hnd hap hns his hni
  subst hS'
  obtain ⟨b1, b2, b3, b4, b5, b6, b7, b8⟩ := h1
  obtain ⟨c1, c2, c3, c4, c5, c6, c7, c8⟩ := h2
  wf_clauses h

end Shadow.Unix
