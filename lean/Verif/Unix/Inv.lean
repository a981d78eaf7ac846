import Verif.Unix.Model

/-!
# Unix-domain sockets: the invariant and the callback queue

`Mid w cs` holds of the state `w` while the callbacks `cs` are still to be run.  With no callback
left it is the invariant between calls.
-/

namespace Shadow.Unix

open Shadow.Base

variable {α : Type}

/-- The number of bytes in a buffer. -/
def vol (b : Buf α) : Nat := b.bytes.length + (b.pkts.map List.length).sum

/-- Bytes that socket `i` sent and that the notes `r` still list. -/
def owedIn (i : Nat) (r : List Entry) : Nat := ((r.filter (·.src == i)).map Entry.len).sum

/-- Bytes from `i` that wait in one (datagram) socket. -/
def owed (i : Nat) : Option (Sock α) → Nat
  | some s =>
    match s.proto with
    | .dgram _ _ r => owedIn i r
    | _ => 0
  | none => 0

/-- Bytes from `i` that wait in all datagram sockets. -/
def owedTo (S : Nat → Option (Sock α)) (next i : Nat) : Nat :=
  ((List.range next).map fun j => owed i (S j)).sum

/-- Bytes that queued callbacks are about to take off the counter of `i`. -/
def pendN (i : Nat) : List Cb → Nat
  | [] => 0
  | .inform j n :: cs => (if j = i then n else 0) + pendN i cs
  | _ :: cs => pendN i cs

/-- A queued callback will refresh socket `i`. -/
def Pending (i : Nat) (cs : List Cb) : Prop :=
  (∃ g, Cb.refresh i g ∈ cs) ∨ ∃ n, Cb.inform i n ∈ cs

/-- A closed socket. -/
def Proto.over : Proto → Bool
  | .init _ => false
  | .listening _ _ _ => false
  | .conn _ _ _ => false
  | .closed => true
  | .dgram _ _ _ => false
  | .dgramClosed => true

/-- The states of datagram sockets. -/
def Proto.isD : Proto → Bool
  | .init _ => false
  | .listening _ _ _ => false
  | .conn _ _ _ => false
  | .closed => false
  | .dgram _ _ _ => true
  | .dgramClosed => true

/-- The connected state. -/
def Proto.isConn : Proto → Bool
  | .init _ => false
  | .listening _ _ _ => false
  | .conn _ _ _ => true
  | .closed => false
  | .dgram _ _ _ => false
  | .dgramClosed => false

/-- The states before a connection. -/
def Proto.early : Proto → Bool
  | .init _ => true
  | .listening _ _ _ => true
  | .conn _ _ _ => false
  | .closed => false
  | .dgram _ _ _ => false
  | .dgramClosed => false

/-- A datagram socket whose bits have never been refreshed. -/
def Fresh (w : World α) (i : Nat) (s : Sock α) : Prop :=
  (∃ b, s.proto = .dgram b none []) ∧ w.flags i = {} ∧ w.sent i = 0

/-- The part of the invariant that does not mention counters, callbacks, state bits or names. -/
structure Wf (S : Nat → Option (Sock α)) (next : Nat) : Prop where
  old : ∀ i s, S i = some s → i < next
  isD : ∀ i s, S i = some s → (s.proto.isD = true ↔ s.kind = .dgram)
  noPkts : ∀ i s, S i = some s → s.kind = .stream → s.buf.pkts = []
  noBytes : ∀ i s, S i = some s → s.kind ≠ .stream → s.buf.bytes = []
  st : ∀ i s, S i = some s → s.buf.st = s.buf.exact
  early : ∀ i s, S i = some s → s.proto.early = true → s.buf = {} ∧ s.held = true
  readers : ∀ i s, S i = some s → s.proto.early = false →
    s.buf.readers = if s.proto.over then 0 else 1
  peer : ∀ i s b a p, S i = some s → s.proto = .conn b a p → p ≠ i ∧ ∃ t, S p = some t ∧
    t.kind = s.kind ∧ (t.proto = .closed ∨ ∃ b' a', t.proto = .conn b' a' i)
  writers : ∀ i s b a p t, S i = some s → s.proto = .conn b a p → S p = some t →
    t.buf.writers = 1 ∧ (i, Role.peer) ∈ t.buf.ears
  alone : ∀ i s b a p t, S i = some s → s.proto = .conn b a p → S p = some t →
    t.proto = .closed → s.buf.writers = 0
  ear : ∀ i s b a p, S i = some s → s.proto = .conn b a p → (i, Role.own) ∈ s.buf.ears
  earD : ∀ i s b p r, S i = some s → s.proto = .dgram b p r → (i, Role.ownDgram) ∈ s.buf.ears
  earOwn : ∀ i s j r, S i = some s → (j, r) ∈ s.buf.ears → r ≠ Role.peer → j = i
  notes : ∀ i s b p r, S i = some s → s.proto = .dgram b p r →
    s.buf.pkts.map List.length = r.map Entry.len
  srcs : ∀ i s b p r e, S i = some s → s.proto = .dgram b p r → e ∈ r →
    (S e.src).map Sock.kind = some .dgram
  peerD : ∀ i s b p r, S i = some s → s.proto = .dgram b (some p) r →
    (S p).map Sock.kind = some .dgram
  child : ∀ i s b q lim c, S i = some s → s.proto = .listening b q lim → c ∈ q →
    ∃ t, S c = some t ∧ t.held = false ∧ t.kind = s.kind ∧ t.reg = none ∧ t.proto.isConn = true
  nodup : ∀ i s b q lim, S i = some s → s.proto = .listening b q lim → q.Nodup
  apart : ∀ i j s t b q lim b' q' lim' c, S i = some s → S j = some t →
    s.proto = .listening b q lim → t.proto = .listening b' q' lim' → c ∈ q → c ∈ q' → i = j
  held : ∀ i s, S i = some s → s.held = true → s.proto.over = false
  heldD : ∀ i s b p r, S i = some s → s.proto = .dgram b p r → s.held = true
  reg : ∀ i s b, S i = some s → s.proto = .init b → s.reg = b
  regL : ∀ i s b q lim, S i = some s → s.proto = .listening b q lim → s.reg = some b
  regD : ∀ i s b p r, S i = some s → s.proto = .dgram b p r → s.reg = b
  inj : ∀ i j s t b a b' a' p, S i = some s → S j = some t → s.proto = .conn b a p →
    t.proto = .conn b' a' p → i = j

/-- Every connection that the program does not have yet waits in the queue of a listening socket,
except those in `ex`. -/
def Waiting (S : Nat → Option (Sock α)) (ex : Nat → Prop) : Prop :=
  ∀ c t, S c = some t → t.proto.isConn = true → t.held = false → ¬ ex c →
    ∃ i s b q lim, S i = some s ∧ s.proto = .listening b q lim ∧ c ∈ q

/-- The names of a host while callbacks are pending. -/
structure Names (w : World α) (cs : List Cb) : Prop where
  found : ∀ k n i, w.ns k n = some i → ∃ s, w.socks i = some s ∧ s.kind = k ∧ s.reg = some n ∧
    (s.proto.over = true ↔ Cb.unbind k n ∈ cs)
  there : ∀ i s n, w.socks i = some s → s.reg = some n → s.proto.over = false →
    w.ns s.kind n = some i
  due : ∀ k n, Cb.unbind k n ∈ cs → (w.ns k n).isSome = true
  once : ∀ k n, cs.count (Cb.unbind k n) ≤ 1

/-- The counters of bytes in flight while callbacks are pending. -/
structure Acct (w : World α) (cs : List Cb) : Prop where
  conn : ∀ i s b a p t, w.socks i = some s → s.proto = .conn b a p → w.socks p = some t →
    w.sent i = vol t.buf + pendN i cs
  dgram : ∀ i s b p r, w.socks i = some s → s.proto = .dgram b p r →
    w.sent i = owedTo w.socks w.next i + pendN i cs
  early : ∀ i s, w.socks i = some s → s.proto.early = true → w.sent i = 0
  target : ∀ i n, Cb.inform i n ∈ cs → ∃ s, w.socks i = some s ∧ s.proto.early = false
  cap : ∀ i s, w.socks i = some s → w.sent i ≤ w.limit

/-- The state bits while callbacks are pending. -/
structure Bits (w : World α) (cs : List Cb) : Prop where
  exact : ∀ i s, w.socks i = some s →
    w.flags i = w.flagsOf i s ∨ (s.proto.over = false ∧ Pending i cs) ∨ Fresh w i s
  grew : ∀ i, Cb.refresh i true ∈ cs → ∀ s, w.socks i = some s → s.proto.quiet = false

/-- The whole invariant while callbacks are pending. -/
structure Mid (w : World α) (cs : List Cb) : Prop where
  wf : Wf w.socks w.next
  names : Names w cs
  acct : Acct w cs
  bits : Bits w cs

@[simp] theorem put_same {β : Type} (f : Nat → β) (i : Nat) (b : β) : put f i b i = b := by simp [put]
theorem put_ne {β : Type} (f : Nat → β) {i j : Nat} (b : β) (h : j ≠ i) : put f i b j = f j := by
  simp [put, h]

@[simp] theorem mod_socks (w : World α) (i : Nat) (f : Sock α → Sock α) (j : Nat) :
    (w.mod i f).socks j = if j = i then (w.socks j).map f else w.socks j := rfl
@[simp] theorem mod_next (w : World α) (i : Nat) (f : Sock α → Sock α) :
    (w.mod i f).next = w.next := rfl
@[simp] theorem mod_ns (w : World α) (i : Nat) (f : Sock α → Sock α) :
    (w.mod i f).ns = w.ns := rfl
@[simp] theorem mod_cbs (w : World α) (i : Nat) (f : Sock α → Sock α) :
    (w.mod i f).cbs = w.cbs := rfl
@[simp] theorem mod_sent (w : World α) (i : Nat) (f : Sock α → Sock α) :
    (w.mod i f).sent = w.sent := rfl
@[simp] theorem mod_flags (w : World α) (i : Nat) (f : Sock α → Sock α) :
    (w.mod i f).flags = w.flags := rfl
@[simp] theorem mod_limit (w : World α) (i : Nat) (f : Sock α → Sock α) :
    (w.mod i f).limit = w.limit := rfl
@[simp] theorem queue_socks (w : World α) (cs : List Cb) : (w.queue cs).socks = w.socks := rfl
@[simp] theorem queue_next (w : World α) (cs : List Cb) : (w.queue cs).next = w.next := rfl
@[simp] theorem queue_ns (w : World α) (cs : List Cb) : (w.queue cs).ns = w.ns := rfl
@[simp] theorem queue_cbs (w : World α) (cs : List Cb) : (w.queue cs).cbs = w.cbs ++ cs := rfl
@[simp] theorem queue_sent (w : World α) (cs : List Cb) : (w.queue cs).sent = w.sent := rfl
@[simp] theorem queue_flags (w : World α) (cs : List Cb) : (w.queue cs).flags = w.flags := rfl
@[simp] theorem queue_limit (w : World α) (cs : List Cb) : (w.queue cs).limit = w.limit := rfl

/-! ## Running a refresh -/

/-- The world in which socket `i` shows the right bits. -/
def fixed (w : World α) (i : Nat) : World α :=
  match w.socks i with
  | some s => { w with flags := put w.flags i (w.flagsOf i s) }
  | none => w

theorem fixed_some {w : World α} {i : Nat} {s : Sock α} (h : w.socks i = some s) :
    fixed w i = { w with flags := put w.flags i (w.flagsOf i s) } := by simp [fixed, h]

theorem fixed_rest (w : World α) (i : Nat) : (fixed w i).socks = w.socks ∧
    (fixed w i).next = w.next ∧ (fixed w i).ns = w.ns ∧ (fixed w i).cbs = w.cbs ∧
    (fixed w i).sent = w.sent ∧ (fixed w i).limit = w.limit ∧ (fixed w i).nonblock = w.nonblock := by
  unfold fixed; split <;> simp

theorem fixed_ne (w : World α) {i j : Nat} (h : j ≠ i) : (fixed w i).flags j = w.flags j := by
  unfold fixed; split
  · simp [put, h]
  · rfl

theorem flagsOf_congr {w w' : World α} (i : Nat) (s : Sock α)
    (h1 : w'.sent i = w.sent i) (h2 : w'.limit = w.limit) (h3 : ∀ j, w'.readers j = w.readers j) :
    w'.flagsOf i s = w.flagsOf i s := by
  unfold World.flagsOf; cases s.proto <;> simp [h1, h2, h3]

theorem fixed_flagsOf (w : World α) (i j : Nat) (s : Sock α) :
    (fixed w i).flagsOf j s = w.flagsOf j s := by
  have h := fixed_rest w i
  exact flagsOf_congr j s (by rw [h.2.2.2.2.1]) h.2.2.2.2.2.1
    (fun j => by unfold World.readers; rw [h.1])

theorem refresh_ok (w : World α) (i : Nat) (grew : Bool)
    (h : grew = true → ∀ s, w.socks i = some s → s.proto.quiet = false) :
    refresh w i grew = .ok (fixed w i) := by
  unfold refresh fixed
  cases hs : w.socks i with
  | none => rfl
  | some s =>
    have : (!(grew && s.proto.quiet)) = true := by
      cases g : grew
      · rfl
      · simp [h g s hs]
    simp only [this, R.assert_true, R.bind_ok]

theorem pendN_cons_refresh (i j : Nat) (g : Bool) (cs : List Cb) :
    pendN i (.refresh j g :: cs) = pendN i cs := rfl

theorem names_fixed {w : World α} {cs : List Cb} (h : Names w cs) (i : Nat) : Names (fixed w i) cs := by
  have hf := fixed_rest w i
  exact ⟨by rw [hf.1, hf.2.2.1]; exact h.found, by rw [hf.1, hf.2.2.1]; exact h.there,
    by rw [hf.2.2.1]; exact h.due, h.once⟩

theorem acct_fixed {w : World α} {cs : List Cb} (h : Acct w cs) (i : Nat) : Acct (fixed w i) cs := by
  have hf := fixed_rest w i
  constructor
  · rw [hf.1, hf.2.2.2.2.1]; exact h.conn
  · rw [hf.1, hf.2.2.2.2.1, hf.2.1]; exact h.dgram
  · rw [hf.1, hf.2.2.2.2.1]; exact h.early
  · rw [hf.1]; exact h.target
  · rw [hf.1, hf.2.2.2.2.1, hf.2.2.2.2.2.1]; exact h.cap

/-- The bits after a refresh of `i`: those of `i` are right, no other socket's bits changed. -/
theorem bits_fixed {w : World α} {cs cs' : List Cb} {i : Nat}
    (h : ∀ j s, j ≠ i → w.socks j = some s →
      w.flags j = w.flagsOf j s ∨ (s.proto.over = false ∧ Pending j cs') ∨ Fresh w j s)
    (hg : Bits w cs) (hsub : ∀ j, Cb.refresh j true ∈ cs' → Cb.refresh j true ∈ cs) :
    Bits (fixed w i) cs' := by
  have hf := fixed_rest w i
  constructor
  · intro j s hs
    rw [hf.1] at hs
    rw [fixed_flagsOf]
    by_cases e : j = i
    · subst e
      left
      rw [fixed_some hs]
      simp
    · rw [fixed_ne w e]
      rcases h j s e hs with h | h | h
      · exact .inl h
      · exact .inr (.inl h)
      · refine .inr (.inr ⟨h.1, ?_, ?_⟩)
        · rw [fixed_ne w e]; exact h.2.1
        · rw [hf.2.2.2.2.1]; exact h.2.2
  · intro j hj s hs
    rw [hf.1] at hs
    exact hg.grew j (hsub j hj) s hs

theorem mid_refresh {w : World α} {cs : List Cb} {i : Nat} {g : Bool}
    (h : Mid w (.refresh i g :: cs)) : ∃ w', refresh w i g = .ok w' ∧ Mid w' cs ∧ w' = fixed w i := by
  refine ⟨_, refresh_ok w i g fun hg s hs => h.bits.grew i (by simp [hg]) s hs, ?_, rfl⟩
  have hf := fixed_rest w i
  refine ⟨by rw [hf.1, hf.2.1]; exact h.wf, ?_, ?_, ?_⟩
  · refine names_fixed ⟨?_, h.names.there, ?_, ?_⟩ i
    · intro k n j hj
      obtain ⟨s, h1, h2, h3, h4⟩ := h.names.found k n j hj
      exact ⟨s, h1, h2, h3, by simpa using h4⟩
    · intro k n hm; exact h.names.due k n (by simp [hm])
    · intro k n; have := h.names.once k n; simpa using this
  · refine acct_fixed (cs := cs) ⟨h.acct.conn, h.acct.dgram, h.acct.early, ?_, h.acct.cap⟩ i
    intro j n hm; exact h.acct.target j n (by simp [hm])
  · refine bits_fixed (cs := .refresh i g :: cs) ?_ h.bits (by simp +contextual)
    intro j s hne hs
    rcases h.bits.exact j s hs with h | ⟨h1, h2⟩ | h
    · exact .inl h
    · refine .inr (.inl ⟨h1, ?_⟩)
      rcases h2 with ⟨g', h2⟩ | ⟨n, h2⟩
      · simp only [List.mem_cons, Cb.refresh.injEq, hne, false_and, false_or] at h2
        exact .inl ⟨g', h2⟩
      · simp only [List.mem_cons, reduceCtorEq, false_or] at h2
        exact .inr ⟨n, h2⟩
    · exact .inr (.inr h)

theorem mid_unbind {w : World α} {cs : List Cb} {k : Kind} {n : Nat}
    (h : Mid w (.unbind k n :: cs)) : ∃ w', runCb w (.unbind k n) = .ok w' ∧ Mid w' cs ∧
      w' = { w with ns := fun k' n' => if k' = k ∧ n' = n then none else w.ns k' n' } := by
  have hd := h.names.due k n (by simp)
  have h0 : Cb.unbind k n ∉ cs := by
    have := h.names.once k n
    simp only [List.count_cons_self] at this
    exact List.count_eq_zero.1 (by omega)
  refine ⟨_, by simp only [runCb, hd, R.assert_true, R.bind_ok], ?_, rfl⟩
  refine ⟨h.wf, ⟨?_, ?_, ?_, ?_⟩, ⟨h.acct.conn, h.acct.dgram, h.acct.early, ?_, h.acct.cap⟩, ⟨?_, ?_⟩⟩
  · intro k' n' i hi
    simp only at hi
    split at hi
    · cases hi
    · rename_i hne
      obtain ⟨s, h1, h2, h3, h4⟩ := h.names.found k' n' i hi
      refine ⟨s, h1, h2, h3, ?_⟩
      rw [h4]
      simp [hne]
  · intro i s m hs hr ho
    have := h.names.there i s m hs hr ho
    simp only
    rw [if_neg]
    · exact this
    · rintro ⟨rfl, rfl⟩
      obtain ⟨s', h1, h2, h3, h4⟩ := h.names.found _ _ _ this
      rw [hs] at h1; cases h1
      rw [h4.2 (by simp)] at ho; cases ho
  · intro k' n' hm
    have := h.names.due k' n' (by simp [hm])
    simp only
    rw [if_neg]
    · exact this
    · rintro ⟨rfl, rfl⟩; exact h0 hm
  · intro k' n'
    have := h.names.once k' n'
    rw [List.count_cons] at this
    omega
  · intro j m hm; exact h.acct.target j m (by simp [hm])
  · intro j s hs
    rcases h.bits.exact j s hs with h | ⟨h1, h2⟩ | h
    · exact .inl h
    · refine .inr (.inl ⟨h1, ?_⟩)
      rcases h2 with ⟨g', h2⟩ | ⟨m, h2⟩
      · exact .inl ⟨g', by simpa using h2⟩
      · exact .inr ⟨m, by simpa using h2⟩
    · exact .inr (.inr h)
  · intro i hi s hs; exact h.bits.grew i (by simp [hi]) s hs

/-- The world after bytes were taken off the counter of `i`. -/
def taken (w : World α) (i n : Nat) : World α := { w with sent := put w.sent i (w.sent i - n) }

theorem mid_inform {w : World α} {cs : List Cb} {i n : Nat}
    (h : Mid w (.inform i n :: cs)) : ∃ w', inform w i n = .ok w' ∧ Mid w' cs ∧
      w'.socks = w.socks ∧ w'.next = w.next ∧ w'.ns = w.ns ∧ w'.cbs = w.cbs ∧ w'.limit = w.limit ∧
      w'.nonblock = w.nonblock := by
  obtain ⟨s, hs, he⟩ := h.acct.target i n (by simp)
  have names : Names w cs := by
    refine ⟨?_, h.names.there, ?_, ?_⟩
    · intro k n j hj
      obtain ⟨s, h1, h2, h3, h4⟩ := h.names.found k n j hj
      exact ⟨s, h1, h2, h3, by simpa using h4⟩
    · intro k n hm; exact h.names.due k n (by simp [hm])
    · intro k n; have := h.names.once k n; simpa using this
  have grew : ∀ j, Cb.refresh j true ∈ cs → ∀ s, w.socks j = some s → s.proto.quiet = false :=
    fun j hj s hs => h.bits.grew j (by simp [hj]) s hs
  have others : ∀ j s, (j ≠ i ∨ s.proto.over = true) → w.socks j = some s →
      w.flags j = w.flagsOf j s ∨ (s.proto.over = false ∧ Pending j cs) ∨ Fresh w j s := by
    intro j s hne hs
    rcases h.bits.exact j s hs with h | ⟨h1, h2⟩ | h
    · exact .inl h
    · have hne : j ≠ i := by rcases hne with h | h; exact h; rw [h] at h1; cases h1
      refine .inr (.inl ⟨h1, ?_⟩)
      rcases h2 with ⟨g', h2⟩ | ⟨m, h2⟩
      · exact .inl ⟨g', by simpa using h2⟩
      · simp only [List.mem_cons, Cb.inform.injEq, hne, false_and, false_or] at h2
        exact .inr ⟨m, h2⟩
    · exact .inr (.inr h)
  -- a closed socket ignores the call
  have over : s.proto.over = true → Mid w cs := by
    intro ho
    refine ⟨h.wf, names, ⟨?_, ?_, h.acct.early, ?_, h.acct.cap⟩, ⟨?_, grew⟩⟩
    · intro j t b a p t' ht hp ht'
      have := h.acct.conn j t b a p t' ht hp ht'
      simp only [pendN] at this
      rw [if_neg] at this
      · omega
      · rintro rfl; rw [hs] at ht; cases ht; rw [hp] at ho; cases ho
    · intro j t b p r ht hp
      have := h.acct.dgram j t b p r ht hp
      simp only [pendN] at this
      rw [if_neg] at this
      · omega
      · rintro rfl; rw [hs] at ht; cases ht; rw [hp] at ho; cases ho
    · intro j m hm; exact h.acct.target j m (by simp [hm])
    · intro j t ht
      refine others j t ?_ ht
      by_cases e : j = i
      · subst e; rw [hs] at ht; cases ht; exact .inr ho
      · exact .inl e
  -- an open one takes the bytes off
  have opened : s.proto.over = false →
      n ≤ w.sent i ∧ ∃ w', refresh (taken w i n) i false = .ok w' ∧ Mid w' cs ∧
      w'.socks = w.socks ∧ w'.next = w.next ∧ w'.ns = w.ns ∧ w'.cbs = w.cbs ∧ w'.limit = w.limit ∧
      w'.nonblock = w.nonblock := by
    intro ho
    have hle : n ≤ w.sent i := by
      cases hp : s.proto with
      | init b => rw [hp] at he; cases he
      | listening b q l => rw [hp] at he; cases he
      | closed => rw [hp] at ho; cases ho
      | dgramClosed => rw [hp] at ho; cases ho
      | conn b a p =>
        obtain ⟨-, t, ht, -⟩ := h.wf.peer i s b a p hs hp
        have := h.acct.conn i s b a p t hs hp ht
        simp only [pendN, if_true] at this
        omega
      | dgram b p r =>
        have := h.acct.dgram i s b p r hs hp
        simp only [pendN, if_true] at this
        omega
    have hf := fixed_rest (taken w i n) i
    refine ⟨hle, _, refresh_ok _ _ _ (fun hh => (by cases hh)), ?_, hf.1, hf.2.1, hf.2.2.1, hf.2.2.2.1,
      hf.2.2.2.2.2.1, hf.2.2.2.2.2.2⟩
    have hsn : ∀ j, j ≠ i → (taken w i n).sent j = w.sent j := fun j hj => put_ne _ _ hj
    have hsi : (taken w i n).sent i = w.sent i - n := by simp [taken]
    have hT : Acct (taken w i n) cs := by
      constructor
      · intro j t b a p t' ht hp ht'
        have := h.acct.conn j t b a p t' ht hp ht'
        simp only [pendN] at this
        by_cases e : j = i
        · subst e; rw [if_pos rfl] at this; rw [hsi]; omega
        · rw [if_neg (Ne.symm e)] at this; rw [hsn j e]; omega
      · intro j t b p r ht hp
        have := h.acct.dgram j t b p r ht hp
        simp only [pendN] at this
        show _ = owedTo w.socks w.next j + _
        by_cases e : j = i
        · subst e; rw [if_pos rfl] at this; rw [hsi]; omega
        · rw [if_neg (Ne.symm e)] at this; rw [hsn j e]; omega
      · intro j t ht hp
        have := h.acct.early j t ht hp
        by_cases e : j = i
        · subst e; rw [hsi]; omega
        · rw [hsn j e]; exact this
      · intro j m hm; exact h.acct.target j m (by simp [hm])
      · intro j t ht
        have := h.acct.cap j t ht
        show (taken w i n).sent j ≤ w.limit
        by_cases e : j = i
        · subst e; rw [hsi]; omega
        · rw [hsn j e]; exact this
    refine ⟨by rw [hf.1, hf.2.1]; exact h.wf,
      names_fixed (w := taken w i n) ⟨names.found, names.there, names.due, names.once⟩ i, acct_fixed hT i, ?_⟩
    have hB : ∀ j s, j ≠ i → (taken w i n).socks j = some s →
        (taken w i n).flags j = (taken w i n).flagsOf j s ∨ (s.proto.over = false ∧ Pending j cs) ∨
          Fresh (taken w i n) j s := by
      intro j t hne ht
      have hfl : (taken w i n).flagsOf j t = w.flagsOf j t :=
        flagsOf_congr j t (hsn j hne) rfl (fun _ => rfl)
      rw [hfl]
      rcases others j t (.inl hne) ht with h | h | h
      · exact .inl h
      · exact .inr (.inl h)
      · exact .inr (.inr ⟨h.1, h.2.1, by rw [hsn j hne]; exact h.2.2⟩)
    refine ⟨?_, ?_⟩
    · intro j t ht
      rw [hf.1] at ht
      rw [fixed_flagsOf]
      by_cases e : j = i
      · subst e; left; rw [fixed_some ht]; simp
      · rw [fixed_ne _ e]
        rcases hB j t e ht with h | h | h
        · exact .inl h
        · exact .inr (.inl h)
        · exact .inr (.inr ⟨h.1, by rw [fixed_ne _ e]; exact h.2.1, by rw [hf.2.2.2.2.1]; exact h.2.2⟩)
    · intro j hj t ht
      rw [hf.1] at ht
      exact grew j hj t ht
  unfold inform
  rw [hs]
  simp only
  cases hp : s.proto with
  | init b => rw [hp] at he; cases he
  | listening b q l => rw [hp] at he; cases he
  | closed => exact ⟨w, rfl, over (by rw [hp]; rfl), rfl, rfl, rfl, rfl, rfl, rfl⟩
  | dgramClosed => exact ⟨w, rfl, over (by rw [hp]; rfl), rfl, rfl, rfl, rfl, rfl, rfl⟩
  | conn b a p =>
    obtain ⟨hle, w', h1, h2⟩ := opened (by rw [hp]; rfl)
    refine ⟨w', ?_, h2⟩
    simp only [hle, decide_true, R.assert_true, R.bind_ok]
    exact h1
  | dgram b p r =>
    obtain ⟨hle, w', h1, h2⟩ := opened (by rw [hp]; rfl)
    refine ⟨w', ?_, h2⟩
    simp only [hle, decide_true, R.assert_true, R.bind_ok]
    exact h1

/-- What running callbacks leaves alone. -/
structure Kept (w w' : World α) : Prop where
  socks : w'.socks = w.socks
  next : w'.next = w.next
  limit : w'.limit = w.limit
  nonblock : w'.nonblock = w.nonblock
  cbs : w'.cbs = w.cbs

theorem drainList_ok {w : World α} {cs : List Cb} (h : Mid w cs) :
    ∃ w', drainList w cs = .ok w' ∧ Mid w' [] ∧ Kept w w' := by
  induction cs generalizing w with
  | nil => exact ⟨w, rfl, h, ⟨rfl, rfl, rfl, rfl, rfl⟩⟩
  | cons c cs ih =>
    have : ∃ w1, runCb w c = .ok w1 ∧ Mid w1 cs ∧ Kept w w1 := by
      cases c with
      | refresh i g =>
        obtain ⟨w1, h1, h2, h3⟩ := mid_refresh h
        have hf := fixed_rest w i
        subst h3
        exact ⟨_, h1, h2, ⟨hf.1, hf.2.1, hf.2.2.2.2.2.1, hf.2.2.2.2.2.2, hf.2.2.2.1⟩⟩
      | inform i n =>
        obtain ⟨w1, h1, h2, h3, h4, h5, h6, h7, h8⟩ := mid_inform h
        exact ⟨w1, h1, h2, ⟨h3, h4, h7, h8, h6⟩⟩
      | unbind k n =>
        obtain ⟨w1, h1, h2, h3⟩ := mid_unbind h
        subst h3
        exact ⟨_, h1, h2, ⟨rfl, rfl, rfl, rfl, rfl⟩⟩
    obtain ⟨w1, h1, h2, h3⟩ := this
    obtain ⟨w', h4, h5, h6⟩ := ih h2
    refine ⟨w', ?_, h5, ⟨h6.socks.trans h3.socks, h6.next.trans h3.next, h6.limit.trans h3.limit,
      h6.nonblock.trans h3.nonblock, h6.cbs.trans h3.cbs⟩⟩
    simp only [drainList, h1, R.bind_ok, h4]

/-- The invariant between calls. -/
structure Inv (w : World α) : Prop where
  mid : Mid w []
  idle : w.cbs = []
  queued : Waiting w.socks fun _ => False

theorem drain_ok {w : World α} (h : Mid w w.cbs) (hq : Waiting w.socks fun _ => False) : ∃ w', drain w = .ok w' ∧ Inv w' ∧
    w'.socks = w.socks ∧ w'.next = w.next ∧ w'.limit = w.limit ∧ w'.nonblock = w.nonblock := by
  have h' : Mid { w with cbs := [] } w.cbs :=
    ⟨h.wf, ⟨h.names.found, h.names.there, h.names.due, h.names.once⟩,
      ⟨h.acct.conn, h.acct.dgram, h.acct.early, h.acct.target, h.acct.cap⟩, ⟨h.bits.exact, h.bits.grew⟩⟩
  obtain ⟨w', h1, h2, h3⟩ := drainList_ok h'
  exact ⟨w', h1, ⟨h2, h3.cbs, by rw [h3.socks]; exact hq⟩, h3.socks, h3.next, h3.limit, h3.nonblock⟩

end Shadow.Unix
