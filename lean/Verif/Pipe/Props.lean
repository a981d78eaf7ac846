import Verif.Pipe.Model
import Verif.ByteQueue.Props

/-!
# C23: pipes
-/
namespace Shadow.Pipe

open Shadow.Base
open Shadow.ByteQueue

variable {α : Type}

/-! ### The buffer -/

/-- What the flags of a buffer must say. -/
def flags (b : Buf α) : BState :=
  ⟨!b.queue.toks.isEmpty, decide (tokBytes b.queue.toks < b.maxLen), decide (b.readers = 0), decide (b.writers = 0)⟩

structure BInv (b : Buf α) : Prop where
  q : ByteQueue.Inv b.queue
  fits : tokBytes b.queue.toks ≤ b.maxLen
  packets : ∀ bs, Tok.pkt bs ∈ b.queue.toks → bs ≠ []

/-- The events lead from one state to the other. -/
inductive Chain : BState → List Ev → BState → Prop where
  | nil {s} : Chain s [] s
  | cons {s ev evs s'} : ev.changed = ev.state.diff s → Chain ev.state evs s' → Chain s (ev :: evs) s'

theorem Chain.append {a b c : BState} {x y : List Ev} (h : Chain a x b) (h' : Chain b y c) : Chain a (x ++ y) c := by
  induction h with
  | nil => exact h'
  | cons e _ ih => exact .cons e (ih h')

theorem diff_isEmpty {a b : BState} (h : (a.diff b).isEmpty = true) : a = b := by
  obtain ⟨a1, a2, a3, a4⟩ := a
  obtain ⟨b1, b2, b3, b4⟩ := b
  revert h
  cases a1 <;> cases a2 <;> cases a3 <;> cases a4 <;> cases b1 <;> cases b2 <;> cases b3 <;> cases b4 <;>
    simp [BState.diff, BState.isEmpty]

theorem hasData_eq {b : Buf α} (h : ByteQueue.Inv b.queue) : b.hasData = !b.queue.toks.isEmpty := by
  have := (C24_counts h).2.2
  unfold Buf.hasData
  cases ht : b.queue.toks with
  | nil =>
    rw [ht] at this
    cases hh : b.queue.hasChunks with
    | false => rfl
    | true => exact absurd rfl (this.1 hh)
  | cons t ts =>
    rw [ht] at this
    exact this.2 (List.cons_ne_nil _ _)

theorem space_spec {b : Buf α} (h : BInv b) : b.space = .ok (b.maxLen - tokBytes b.queue.toks) := by
  have hn := (C24_counts h.q).1
  have := h.fits
  unfold Buf.space
  rw [hn, decide_eq_true this]
  rfl

theorem refresh_spec {b : Buf α} (h : BInv b) (grew : Bool) :
    ∃ evs, b.refresh grew = .ok ({ b with state := flags b }, evs) ∧ Chain b.state evs (flags b) := by
  unfold Buf.refresh
  rw [space_spec h, R.bind_ok, hasData_eq h.q]
  have hf := h.fits
  have hs : (⟨!b.queue.toks.isEmpty, decide (b.maxLen - tokBytes b.queue.toks > 0), decide (b.readers = 0), decide (b.writers = 0)⟩ : BState) = flags b := by
    unfold flags
    congr 1
    rw [decide_eq_decide]
    omega
  dsimp only
  rw [hs]
  refine ⟨_, rfl, ?_⟩
  by_cases hc : (((flags b).diff b.state).isEmpty && !grew) = true
  · rw [if_pos hc]
    rw [Bool.and_eq_true] at hc
    rw [diff_isEmpty hc.1]
    exact .nil
  · rw [if_neg hc]
    exact .cons rfl .nil

/-! ### The ends -/

/-- The flags of an open end agree with those of the buffer. -/
def Aligned (e : End) (s : BState) : Prop :=
  e.closed = false → (e.modeR = true → e.readable = (s.readable || s.noWriters)) ∧
    (e.modeW = true → e.writable = (s.writable || s.noReaders))

/-- Two ends that differ at most in what `align` can change. -/
structure Same (e e' : End) : Prop where
  buffer : e'.buffer = e.buffer
  listening : e'.listening = e.listening
  reader : e'.reader = e.reader
  writer : e'.writer = e.writer
  modeR : e'.modeR = e.modeR
  modeW : e'.modeW = e.modeW
  direct : e'.direct = e.direct
  packet : e'.packet = e.packet
  active : e'.active = e.active
  closed : e'.closed = e.closed
  readable : e.closed = true ∨ e.modeR = false → e'.readable = e.readable
  writable : e.closed = true ∨ e.modeW = false → e'.writable = e.writable

theorem Same.refl (e : End) : Same e e := ⟨rfl, rfl, rfl, rfl, rfl, rfl, rfl, rfl, rfl, rfl, fun _ => rfl, fun _ => rfl⟩

theorem Same.trans {a b c : End} (h : Same a b) (h' : Same b c) : Same a c :=
  ⟨h'.buffer.trans h.buffer, h'.listening.trans h.listening, h'.reader.trans h.reader, h'.writer.trans h.writer,
   h'.modeR.trans h.modeR, h'.modeW.trans h.modeW, h'.direct.trans h.direct, h'.packet.trans h.packet,
   h'.active.trans h.active, h'.closed.trans h.closed,
   fun x => (h'.readable (by rw [h.closed, h.modeR]; exact x)).trans (h.readable x),
   fun x => (h'.writable (by rw [h.closed, h.modeW]; exact x)).trans (h.writable x)⟩

theorem same_align (e : End) (s : BState) : Same e (e.align s) := by
  unfold End.align
  by_cases hc : e.closed = true
  · rw [if_pos hc]; exact .refl e
  · rw [if_neg hc]
    refine ⟨rfl, rfl, rfl, rfl, rfl, rfl, rfl, rfl, rfl, rfl, ?_, ?_⟩
    · intro h
      rcases h with h | h
      · exact absurd h hc
      · dsimp only; rw [h]; rfl
    · intro h
      rcases h with h | h
      · exact absurd h hc
      · dsimp only; rw [h]; rfl

theorem same_onEvent (e : End) (ev : Ev) : Same e (e.onEvent ev) := by
  unfold End.onEvent
  dsimp only
  split
  · exact same_align ..
  · exact .refl e

theorem aligned_align (e : End) (s : BState) : Aligned (e.align s) s := by
  intro hc
  rw [(same_align e s).closed] at hc
  rw [(same_align e s).modeR, (same_align e s).modeW]
  unfold End.align
  rw [if_neg (by simp [hc])]
  refine ⟨fun h => ?_, fun h => ?_⟩
  · dsimp only; rw [if_pos h]
  · dsimp only; rw [if_pos h]

theorem aligned_onEvent {e : End} {s : BState} (h : Aligned e s) {ev : Ev} (hd : ev.changed = ev.state.diff s) :
    Aligned (e.onEvent ev) ev.state := by
  unfold End.onEvent
  dsimp only
  split
  · exact aligned_align _ _
  · rename_i hn
    intro hc
    obtain ⟨h1, h2⟩ := h hc
    rw [hd] at hn
    obtain ⟨s1, s2, s3, s4⟩ := s
    obtain ⟨⟨t1, t2, t3, t4⟩, ch, g⟩ := ev
    refine ⟨fun hm => ?_, fun hm => ?_⟩
    · rw [h1 hm]
      rw [hm] at hn
      simp [BState.diff] at hn
      dsimp only
      rw [hn.1.1.1, hn.1.1.2]
    · rw [h2 hm]
      rw [hm] at hn
      simp [BState.diff] at hn
      dsimp only
      rw [hn.1.2.1, hn.1.2.2]

theorem events_spec : ∀ (evs : List Ev) (x : World α) (lr lw : Bool), ∃ r' w', x.events lr lw evs = ⟨x.buf, r', w'⟩ ∧
    Same x.r r' ∧ Same x.w w' ∧
    (∀ s s', Chain s evs s' → (lr = true → Aligned x.r s → Aligned r' s') ∧ (lw = true → Aligned x.w s → Aligned w' s')) ∧
    (lr = false → r' = x.r) ∧ (lw = false → w' = x.w) := by
  intro evs
  induction evs with
  | nil =>
    intro x lr lw
    refine ⟨x.r, x.w, rfl, .refl _, .refl _, ?_, fun _ => rfl, fun _ => rfl⟩
    intro s s' hc
    cases hc
    exact ⟨fun _ h => h, fun _ h => h⟩
  | cons ev evs ih =>
    intro x lr lw
    obtain ⟨r', w', e, hr, hw, hc, h1, h2⟩ := ih (x.event lr lw ev) lr lw
    refine ⟨r', w', e, ?_, ?_, ?_, ?_, ?_⟩
    · refine Same.trans ?_ hr
      unfold World.event
      cases lr
      · exact .refl _
      · exact same_onEvent ..
    · refine Same.trans ?_ hw
      unfold World.event
      cases lw
      · exact .refl _
      · exact same_onEvent ..
    · intro s s' hch
      cases hch with
      | cons hd hch =>
        obtain ⟨c1, c2⟩ := hc _ _ hch
        refine ⟨fun hl ha => c1 hl ?_, fun hl ha => c2 hl ?_⟩
        · subst hl; exact aligned_onEvent ha hd
        · subst hl; exact aligned_onEvent ha hd
    · intro hl; rw [h1 hl]; subst hl; rfl
    · intro hl; rw [h2 hl]; subst hl; rfl

/-- The parts of an end that do not depend on the buffer. -/
structure EndInv (isR : Bool) (e : End) : Prop where
  modeR : e.modeR = isR
  modeW : e.modeW = !isR
  buffer : e.buffer = !e.closed
  listening : e.listening = !e.closed
  reader : e.reader = (isR && !e.closed)
  writer : e.writer = (!isR && !e.closed)
  readable : isR = false ∨ e.closed = true → e.readable = false
  writable : isR = true ∨ e.closed = true → e.writable = false

theorem EndInv.same {isR : Bool} {e e' : End} (h : EndInv isR e) (s : Same e e') : EndInv isR e' := by
  refine ⟨s.modeR.trans h.modeR, s.modeW.trans h.modeW, ?_, ?_, ?_, ?_, ?_, ?_⟩
  · rw [s.buffer, s.closed]; exact h.buffer
  · rw [s.listening, s.closed]; exact h.listening
  · rw [s.reader, s.closed]; exact h.reader
  · rw [s.writer, s.closed]; exact h.writer
  · intro x
    rw [s.closed] at x
    rw [s.readable ?_]
    · exact h.readable x
    · rcases x with x | x
      · exact .inr (by rw [h.modeR]; exact x)
      · exact .inl x
  · intro x
    rw [s.closed] at x
    rw [s.writable ?_]
    · exact h.writable x
    · rcases x with x | x
      · exact .inr (by rw [h.modeW, x]; rfl)
      · exact .inl x

/-- What holds after any calls, also with memory that cannot be read or written. -/
structure WInv (x : World α) : Prop where
  buf : BInv x.buf
  r : EndInv true x.r
  w : EndInv false x.w
  readers : x.buf.readers = if x.r.closed then 0 else 1
  writers : x.buf.writers = if x.w.closed then 0 else 1

/-- What holds as long as all memory could be read and written: the flags agree with the buffer. -/
structure Fresh (x : World α) : Prop where
  state : x.buf.state = flags x.buf
  r : Aligned x.r (flags x.buf)
  w : Aligned x.w (flags x.buf)

theorem events_inv {x : World α} (h : WInv x) (lr lw : Bool) (evs : List Ev) : WInv (x.events lr lw evs) := by
  obtain ⟨r', w', e, hr, hw, _⟩ := events_spec evs x lr lw
  rw [e]
  exact ⟨h.buf, h.r.same hr, h.w.same hw, by rw [hr.closed]; exact h.readers, by rw [hw.closed]; exact h.writers⟩

/-- After the events of a call, the flags agree with the new state of the buffer. -/
theorem events_fresh {x : World α} {s : BState} {lr lw : Bool} {evs : List Ev} (hc : Chain s evs (flags x.buf))
    (hs : x.buf.state = flags x.buf) (hr : Aligned x.r s) (hw : Aligned x.w s) (hlr : x.r.closed = false → lr = true)
    (hlw : x.w.closed = false → lw = true) : Fresh (x.events lr lw evs) := by
  obtain ⟨r', w', e, h1, h2, h3, h4, h5⟩ := events_spec evs x lr lw
  rw [e]
  obtain ⟨c1, c2⟩ := h3 _ _ hc
  refine ⟨hs, ?_, ?_⟩
  · intro hcl
    rw [h1.closed] at hcl
    exact c1 (hlr hcl) hr (by rw [h1.closed]; exact hcl)
  · intro hcl
    rw [h2.closed] at hcl
    exact c2 (hlw hcl) hw (by rw [h2.closed]; exact hcl)

/-! ### Reading the buffer -/

theorem binv_suffix {b : Buf α} (h : BInv b) {q' : Queue α} (hq : ByteQueue.Inv q') {pre : List (Tok α)}
    (e : b.queue.toks = pre ++ q'.toks) : BInv { b with queue := q' } := by
  refine ⟨hq, ?_, ?_⟩
  · have := h.fits
    rw [e, tokBytes_append] at this
    dsimp only
    omega
  · intro bs hb
    exact h.packets bs (by rw [e]; exact List.mem_append_right _ hb)

theorem binv_state {b : Buf α} (h : BInv b) (s : BState) : BInv { b with state := s } := ⟨h.q, h.fits, h.packets⟩

theorem iovWriter_not_wouldBlock (w : List (List Bool)) (bs : List α) : (iovWriter.write w bs).2 ≠ .wouldBlock :=
  iovWrite_not_wouldBlock w bs 0

theorem specPop_suffix (ts : List (Tok α)) (n : Nat) : ∃ pre, ts = pre ++ (specPop ts n).2.2 := by
  cases ts with
  | nil => exact ⟨[], rfl⟩
  | cons t ts =>
    cases t with
    | byte b => exact ⟨_, (List.take_append_drop _ _).symm⟩
    | pkt bs => exact ⟨[.pkt bs], rfl⟩

theorem read_any {b : Buf α} (h : BInv b) (dst : List (List Bool)) :
    ∃ r, b.read dst = .ok r ∧ BInv r.buf ∧ r.buf.readers = b.readers ∧ r.buf.writers = b.writers ∧
      r.buf.maxLen = b.maxLen := by
  obtain ⟨g, e, i, t⟩ := C24_pop_any h.q iovWriter_sound iovWriter_not_wouldBlock dst
  have hb : BInv { b with queue := g.queue } := by
    rcases t with t | ⟨bs, _, t⟩
    · exact binv_suffix h i t
    · exact binv_suffix (pre := [.pkt bs]) h i t
  unfold Buf.read
  rw [e, R.bind_ok]
  cases hr : g.res with
  | err => exact ⟨_, rfl, hb, rfl, rfl, rfl⟩
  | wouldBlock => exact ⟨_, rfl, hb, rfl, rfl, rfl⟩
  | none =>
    obtain ⟨evs, e2, _⟩ := refresh_spec hb false
    dsimp only
    rw [e2]
    exact ⟨_, rfl, binv_state hb _, rfl, rfl, rfl⟩
  | some c m k =>
    obtain ⟨evs, e2, _⟩ := refresh_spec hb false
    dsimp only
    rw [e2]
    exact ⟨_, rfl, binv_state hb _, rfl, rfl, rfl⟩

theorem specPop_res (ts : List (Tok α)) (n : Nat) :
    (ts = [] ∧ (specPop ts n).2.1 = .none ∧ (specPop ts n).1 = []) ∨
    (ts ≠ [] ∧ ∃ m k, (specPop ts n).2.1 = .some (specPop ts n).1.length m k) := by
  cases ts with
  | nil => exact .inl ⟨rfl, rfl, rfl⟩
  | cons t ts =>
    refine .inr ⟨List.cons_ne_nil _ _, ?_⟩
    cases t with
    | byte b => exact ⟨_, _, rfl⟩
    | pkt bs => exact ⟨bs.length, .packet, by simp [specPop]⟩

theorem read_spec {b : Buf α} (h : BInv b) {dst : List (List Bool)} (hw : Writable dst) :
    ∃ q evs, b.read dst = .ok ⟨{ b with queue := q, state := flags { b with queue := q } },
        (specPop b.queue.toks (room dst)).1, .ok (specPop b.queue.toks (room dst)).1.length, evs⟩ ∧
      q.toks = (specPop b.queue.toks (room dst)).2.2 ∧ BInv { b with queue := q } ∧
      Chain b.state evs (flags { b with queue := q }) := by
  obtain ⟨g, e, i, gd, t⟩ := C24_pop h.q iovWriter_like hw
  obtain ⟨t1, t2, t3⟩ : g.out = (specPop b.queue.toks (room dst)).1 ∧ g.res = (specPop b.queue.toks (room dst)).2.1 ∧
      g.queue.toks = (specPop b.queue.toks (room dst)).2.2 := by
    rw [← t]; exact ⟨rfl, rfl, rfl⟩
  obtain ⟨pre, hp⟩ := specPop_suffix b.queue.toks (room dst)
  have hb : BInv { b with queue := g.queue } := binv_suffix h i (by rw [t3]; exact hp)
  obtain ⟨evs, e2, hc⟩ := refresh_spec hb false
  refine ⟨g.queue, evs, ?_, t3, hb, hc⟩
  unfold Buf.read
  rw [e, R.bind_ok]
  rcases specPop_res b.queue.toks (room dst) with ⟨_, hr, ho⟩ | ⟨_, m, k, hr⟩
  · rw [t2, hr]
    dsimp only
    rw [e2, R.bind_ok, t1, ho]
    rfl
  · rw [t2, hr]
    dsimp only
    rw [e2, R.bind_ok, t1]
    rfl

/-! ### Writing to the buffer -/

theorem reads_take {S : Type} {r : Reader α S} (hs : r.Sound) : ∀ {s bs s1}, Reads (takeReader r) s bs s1 → bs.length + s1.2 ≤ s.2 := by
  intro s bs s1 h
  induction h with
  | nil => simp
  | @cons s n s' bs bs' s'' hr _ ih =>
    rw [List.length_append]
    simp only [takeReader] at hr
    by_cases h0 : s.2 = 0
    · rw [if_pos h0] at hr
      cases hr
      simpa using ih
    · rw [if_neg h0] at hr
      rcases hx : r.read s.1 (min n s.2) with ⟨s1, res⟩
      rw [hx] at hr
      cases res with
      | none => cases hr
      | some x =>
        have := hs _ _ _ _ hx
        cases hr
        dsimp only at ih
        omega

theorem binv_append {b : Buf α} (h : BInv b) {q' : Queue α} (hq : ByteQueue.Inv q') {ts : List (Tok α)}
    (e : q'.toks = b.queue.toks ++ ts) (hf : tokBytes b.queue.toks + tokBytes ts ≤ b.maxLen)
    (hp : ∀ bs, Tok.pkt bs ∈ ts → bs ≠ []) : BInv { b with queue := q' } := by
  refine ⟨hq, by dsimp only; rw [e, tokBytes_append]; exact hf, ?_⟩
  intro bs hb
  dsimp only at hb
  rw [e] at hb
  rcases List.mem_append.1 hb with hb | hb
  · exact h.packets bs hb
  · exact hp bs hb

theorem writeStream_any {b : Buf α} (h : BInv b) (src : List (Src α)) (len : Nat) (unsplit : Nat → Bool) :
    ∃ r, b.writeStream src len unsplit = .ok r ∧ BInv r.buf ∧ r.buf.readers = b.readers ∧ r.buf.writers = b.writers ∧
      r.buf.maxLen = b.maxLen := by
  unfold Buf.writeStream
  by_cases h0 : len = 0
  · rw [if_pos h0]; exact ⟨_, rfl, h, rfl, rfl, rfl⟩
  · rw [if_neg h0, space_spec h, R.bind_ok]
    by_cases h1 : b.maxLen - tokBytes b.queue.toks = 0
    · rw [if_pos h1]; exact ⟨_, rfl, h, rfl, rfl, rfl⟩
    · rw [if_neg h1]
      obtain ⟨q', s', res, bs, e, i, t, hn, s1, n, hr, _⟩ := C24_push_stream h.q (takeReader_sound iovReader_sound)
        (takeReader_finite iovReader_finite) unsplit (s := (src, b.maxLen - tokBytes b.queue.toks))
        (fuel := (src.map List.length).sum + 1) (Nat.lt_succ_self _)
      have hlen := reads_take iovReader_sound hr
      dsimp only at hlen
      have hf := h.fits
      have hb : BInv { b with queue := q' } := by
        refine binv_append h i t ?_ ?_
        · rw [tokBytes_bytes]; omega
        · intro bs' hb'
          simp at hb'
      rw [e, R.bind_ok]
      cases res with
      | none => exact ⟨_, rfl, hb, rfl, rfl, rfl⟩
      | some k =>
        dsimp only
        obtain ⟨evs, e2, _⟩ := refresh_spec hb (decide (k > 0))
        rw [e2]
        exact ⟨_, rfl, binv_state hb _, rfl, rfl, rfl⟩

/-- A write in stream mode of readable memory: as much as fits. -/
theorem writeStream_spec {b : Buf α} (h : BInv b) {src : List (Src α)} (hm : Mapped src) {len : Nat} (hl : len = (values src).length)
    (unsplit : Nat → Bool) :
    ∃ q src' evs, Mapped src' ∧ BInv { b with queue := q } ∧
      (if len = 0 then b.writeStream src len unsplit = .ok ⟨b, src, .ok 0, []⟩
       else if b.maxLen - tokBytes b.queue.toks = 0 then b.writeStream src len unsplit = .ok ⟨b, src, .error .eagain, []⟩
       else b.writeStream src len unsplit = .ok ⟨{ b with queue := q, state := flags { b with queue := q } }, src',
            .ok (min len (b.maxLen - tokBytes b.queue.toks)), evs⟩ ∧
          q.toks = b.queue.toks ++ ((values src).take (b.maxLen - tokBytes b.queue.toks)).map .byte ∧
          Chain b.state evs (flags { b with queue := q })) := by
  by_cases h0 : len = 0
  · refine ⟨b.queue, src, [], hm, h, ?_⟩
    rw [if_pos h0]
    unfold Buf.writeStream
    rw [if_pos h0]
  by_cases h1 : b.maxLen - tokBytes b.queue.toks = 0
  · refine ⟨b.queue, src, [], hm, h, ?_⟩
    rw [if_neg h0, if_pos h1]
    unfold Buf.writeStream
    rw [if_neg h0, space_spec h, R.bind_ok, if_pos h1]
    rfl
  have hlen : (values src).length = (src.map List.length).sum := by
    clear hl
    induction src with
    | nil => rfl
    | cons s rest ih =>
      rw [values_cons, List.length_append, filterMap_length (hm s (List.mem_cons_self ..)),
        ih (fun x hx => hm x (List.mem_cons_of_mem _ hx))]
      simp
  obtain ⟨q, s', e, i, t, g, d⟩ := C24_push_slice h.q (takeReader_like iovReader_like) unsplit
    (s := (src, b.maxLen - tokBytes b.queue.toks)) hm (fuel := (src.map List.length).sum + 1) (by
      dsimp only
      rw [List.length_take]
      omega)
  dsimp only at e t d
  have hf := h.fits
  have hb : BInv { b with queue := q } := by
    refine binv_append h i t ?_ ?_
    · rw [tokBytes_bytes, List.length_take]; omega
    · intro bs' hb'
      obtain ⟨x, _, hx⟩ := List.mem_map.1 hb'
      cases hx
  obtain ⟨evs, e2, hc⟩ := refresh_spec hb (decide (((values src).take (b.maxLen - tokBytes b.queue.toks)).length > 0))
  refine ⟨q, s'.1, evs, g, hb, ?_⟩
  rw [if_neg h0, if_neg h1]
  refine ⟨?_, t, hc⟩
  unfold Buf.writeStream
  rw [if_neg h0, space_spec h, R.bind_ok, if_neg h1, e, R.bind_ok]
  dsimp only
  rw [e2, R.bind_ok, List.length_take, hl, Nat.min_comm]
  rfl

theorem writePacket_any {b : Buf α} (h : BInv b) (src : List (Src α)) {len : Nat} (hl : len ≠ 0) :
    ∃ r, b.writePacket src len = .ok r ∧ BInv r.buf ∧ r.buf.readers = b.readers ∧ r.buf.writers = b.writers ∧
      r.buf.maxLen = b.maxLen := by
  unfold Buf.writePacket
  by_cases h0 : len > b.maxLen
  · rw [if_pos h0]; exact ⟨_, rfl, h, rfl, rfl, rfl⟩
  · rw [if_neg h0, space_spec h, R.bind_ok]
    by_cases h1 : len > b.maxLen - tokBytes b.queue.toks
    · rw [if_pos h1]; exact ⟨_, rfl, h, rfl, rfl, rfl⟩
    · rw [if_neg h1]
      rcases hp : b.queue.pushPacket iovReader src len with ⟨q, src', ok⟩
      obtain ⟨i, h2, h3⟩ := C24_push_packet h.q iovReader_sound hp
      have hf := h.fits
      cases ok with
      | false =>
        refine ⟨_, rfl, ?_, rfl, rfl, rfl⟩
        exact binv_suffix (pre := []) h i (h3 rfl).symm
      | true =>
        obtain ⟨bs, hlen, _, t⟩ := h2 rfl
        have hb : BInv { b with queue := q } := by
          refine binv_append h i t ?_ ?_
          · simp only [tokBytes]; omega
          · intro bs' hb'
            rw [List.mem_singleton] at hb'
            cases hb'
            intro hh
            rw [hh] at hlen
            exact hl hlen.symm
        dsimp only
        obtain ⟨evs, e2, _⟩ := refresh_spec hb true
        rw [e2]
        exact ⟨_, rfl, binv_state hb _, rfl, rfl, rfl⟩

theorem writePackets_any : ∀ (fuel : Nat) {b : Buf α}, BInv b → ∀ (src : List (Src α)) (left written : Nat) (evs : List Ev),
    left < fuel → ∃ r, b.writePackets fuel src left written evs = .ok r ∧ BInv r.buf ∧ r.buf.readers = b.readers ∧
      r.buf.writers = b.writers ∧ r.buf.maxLen = b.maxLen := by
  intro fuel
  induction fuel with
  | zero => intro b _ src left written evs hf; omega
  | succ fuel ih =>
    intro b h src left written evs hf
    rw [Buf.writePackets]
    by_cases h0 : left = 0
    · rw [if_pos h0]; exact ⟨_, rfl, h, rfl, rfl, rfl⟩
    · rw [if_neg h0]
      have hp : pipeBuf = 4096 := rfl
      have hk : min left pipeBuf ≠ 0 := by omega
      obtain ⟨r, e, i, h1, h2, h3⟩ := writePacket_any h src hk
      dsimp only
      rw [e, R.bind_ok]
      cases hr : r.res with
      | error x => exact ⟨_, rfl, i, h1, h2, h3⟩
      | ok n =>
        dsimp only
        obtain ⟨r', e', i', h1', h2', h3'⟩ := ih i r.src (left - min left pipeBuf) (written + min left pipeBuf) (evs ++ r.evs) (by omega)
        exact ⟨r', e', i', h1'.trans h1, h2'.trans h2, h3'.trans h3⟩

/-- Data cut into packets of `PIPE_BUF` bytes; the last one may be shorter. -/
def packets (data : List α) : List (List α) :=
  if data = [] then [] else data.take pipeBuf :: packets (data.drop pipeBuf)
termination_by data.length
decreasing_by
  rename_i h
  have := List.length_pos_iff.2 h
  have hp : pipeBuf = 4096 := rfl
  rw [List.length_drop]
  omega

theorem packets_nil : packets ([] : List α) = [] := by rw [packets]; simp

theorem packets_cons {data : List α} (h : data ≠ []) : packets data = data.take pipeBuf :: packets (data.drop pipeBuf) := by
  rw [packets, if_neg h]

theorem writePacket_spec {b : Buf α} (h : BInv b) {src : List (Src α)} (hm : Mapped src) {k : Nat} (hk : k ≤ (values src).length)
    (h0 : k ≠ 0) (hs : k ≤ b.maxLen - tokBytes b.queue.toks) :
    ∃ q src' evs, b.writePacket src k = .ok ⟨{ b with queue := q, state := flags { b with queue := q } }, src', .ok k, evs⟩ ∧
      Mapped src' ∧ values src' = (values src).drop k ∧ BInv { b with queue := q } ∧
      q.toks = b.queue.toks ++ [.pkt ((values src).take k)] ∧ Chain b.state evs (flags { b with queue := q }) := by
  obtain ⟨q, src', e, t, m, v⟩ := pushPacket_like (q := b.queue) iovReader_like hm hk
  obtain ⟨i, _⟩ := C24_push_packet h.q iovReader_sound e
  have hf := h.fits
  have hb : BInv { b with queue := q } := by
    refine binv_append h i t ?_ ?_
    · simp only [tokBytes, List.length_take]; omega
    · intro bs' hb'
      rw [List.mem_singleton] at hb'
      cases hb'
      intro hh
      have := congrArg List.length hh
      rw [List.length_take, List.length_nil] at this
      omega
  obtain ⟨evs, e2, hc⟩ := refresh_spec hb true
  refine ⟨q, src', evs, ?_, m, v, hb, t, hc⟩
  unfold Buf.writePacket
  rw [if_neg (by omega), space_spec h, R.bind_ok, if_neg (by omega), e]
  dsimp only
  rw [e2]
  rfl

/-- A write in packet mode of readable memory: as many packets as fit, from the first. -/
theorem writePackets_spec : ∀ (fuel : Nat) {b : Buf α}, BInv b → ∀ {src : List (Src α)}, Mapped src →
    ∀ {left : Nat}, left = (values src).length → ∀ (written : Nat) (evs : List Ev), left < fuel →
    ∃ n q st src' evs' res, n ≤ left ∧
      b.writePackets fuel src left written evs = .ok ⟨{ b with queue := q, state := st }, src', res, evs ++ evs'⟩ ∧
      BInv { b with queue := q } ∧ Chain b.state evs' st ∧ (b.state = flags b → st = flags { b with queue := q }) ∧
      q.toks = b.queue.toks ++ (packets ((values src).take n)).map .pkt ∧
      (n = left ∨ (pipeBuf ∣ n ∧ b.maxLen - tokBytes b.queue.toks < n + min (left - n) pipeBuf)) ∧
      (if n = left ∨ 0 < written + n then res = .ok (written + n)
       else res = .error (if b.maxLen < min left pipeBuf then .emsgsize else .eagain)) := by
  intro fuel
  have hp : pipeBuf = 4096 := rfl
  induction fuel with
  | zero => intro b _ src _ left _ written evs hf; omega
  | succ fuel ih =>
    intro b h src hm left hl written evs hf
    rw [Buf.writePackets]
    by_cases h0 : left = 0
    · rw [if_pos h0]
      refine ⟨0, b.queue, b.state, src, [], .ok written, Nat.zero_le _, by rw [List.append_nil], h, .nil, fun hs => hs, ?_, .inl h0.symm, ?_⟩
      · rw [List.take_zero, packets_nil]; simp
      · rw [if_pos (.inl h0.symm)]; rfl
    · rw [if_neg h0]
      dsimp only
      by_cases h1 : min left pipeBuf ≤ b.maxLen - tokBytes b.queue.toks
      · obtain ⟨q, src', evs1, e, m, v, hb, t, hc⟩ := writePacket_spec h hm (k := min left pipeBuf) (by omega) (by omega) h1
        rw [e, R.bind_ok]
        dsimp only
        have hvl : left - min left pipeBuf = (values src').length := by rw [v, List.length_drop]; omega
        obtain ⟨n, q2, st, src2, evs2, res, hn, e2, hb2, hc2, hs2, t2, hd, hr⟩ := ih (binv_state hb (flags { b with queue := q }))
          m hvl (written + min left pipeBuf) (evs ++ evs1) (by omega)
        dsimp only at t2 hd hc2 hs2
        have htb : tokBytes q.toks = tokBytes b.queue.toks + min left pipeBuf := by
          rw [t, tokBytes_append]
          simp only [tokBytes, List.length_take]
          omega
        refine ⟨min left pipeBuf + n, q2, st, src2, evs1 ++ evs2, res, by omega, ?_, binv_state hb2 b.state, hc.append hc2, fun _ => hs2 rfl, ?_, ?_, ?_⟩
        · rw [e2, List.append_assoc]
        · rw [t2, t, List.append_assoc]
          congr 1
          have hne : (values src).take (min left pipeBuf + n) ≠ [] := by
            intro hh
            have := congrArg List.length hh
            rw [List.length_take, List.length_nil] at this
            omega
          rw [packets_cons hne, List.map_cons, List.singleton_append, v]
          congr 1
          · congr 1
            rw [List.take_take]
            rcases Nat.le_total left pipeBuf with hlp | hlp
            · rw [Nat.min_eq_left hlp, List.take_of_length_le (by omega), List.take_of_length_le (by omega)]
            · congr 1; omega
          · congr 2
            rw [List.drop_take]
            rcases Nat.le_total left pipeBuf with hlp | hlp
            · rw [List.drop_eq_nil_of_le (by omega), List.drop_eq_nil_of_le (by omega), List.take_nil, List.take_nil]
            · rw [Nat.min_eq_right hlp, Nat.add_sub_cancel_left]
        · rcases hd with hd | ⟨hdv, hd⟩
          · exact .inl (by omega)
          · by_cases hlp : left ≤ pipeBuf
            · exact .inl (by omega)
            · refine .inr ⟨?_, ?_⟩
              · rw [Nat.min_eq_right (by omega)]
                exact Nat.dvd_add (Nat.dvd_refl _) hdv
              · rw [htb] at hd
                omega
        · by_cases hx : n = left - min left pipeBuf ∨ 0 < written + min left pipeBuf + n
          · rw [if_pos hx] at hr
            rw [if_pos (by omega), hr, Nat.add_assoc]
          · exact absurd (.inr (by omega)) hx
      · have e : b.writePacket src (min left pipeBuf) =
            .ok ⟨b, src, .error (if b.maxLen < min left pipeBuf then .emsgsize else .eagain), []⟩ := by
          unfold Buf.writePacket
          by_cases h2 : min left pipeBuf > b.maxLen
          · rw [if_pos h2, if_pos h2]
          · rw [if_neg h2, space_spec h, R.bind_ok, if_pos (by omega), if_neg h2]
            rfl
        rw [e, R.bind_ok]
        dsimp only
        refine ⟨0, b.queue, b.state, src, [], _, Nat.zero_le _, rfl, h, .nil, fun hs => hs, ?_, .inr ⟨Nat.dvd_zero _, by omega⟩, ?_⟩
        · rw [List.take_zero, packets_nil]; simp
        · by_cases hw : 0 < written
          · rw [if_pos (.inr (by omega)), if_pos hw]; rfl
          · rw [if_neg (by omega), if_neg (by omega)]

/-! ### The calls -/

/-- What the pipe holds. -/
def World.toks (x : World α) : List (Tok α) := x.buf.queue.toks

/-- The bytes that can still be stored. -/
def World.free (x : World α) : Nat := x.buf.maxLen - tokBytes x.toks

theorem flags_state (b : Buf α) (s : BState) : flags { b with state := s } = flags b := rfl

theorem listening_of_open {isR : Bool} {e : End} (h : EndInv isR e) : e.closed = false → e.listening = true := by
  intro hc
  rw [h.listening, hc]
  rfl

/-- **C23** (reading). With memory that can be written, a read of the open read end gives the bytes that were stored
    first, and removes them (in packet mode, one packet). It reports `EAGAIN` exactly if nothing is stored, something
    was asked for, and the write end is open. It is the end of the stream, `Ok(0)` for a request of at least one byte,
    exactly if nothing is stored and the write end is closed. It never panics. -/
theorem C23_read {x : World α} (h : WInv x) (ho : x.r.closed = false) {dst : List (List Bool)} (hw : Writable dst) :
    ∃ x' res, x.readv .r false dst = .ok (x', (specPop x.toks (room dst)).1, res) ∧ WInv x' ∧ (Fresh x → Fresh x') ∧
      x'.toks = (specPop x.toks (room dst)).2.2 ∧ Same x.r x'.r ∧ Same x.w x'.w ∧
      res = (if x.toks = [] ∧ room dst ≠ 0 ∧ x.w.closed = false then .error .eagain
             else .ok (specPop x.toks (room dst)).1.length) ∧
      (0 < room dst → (res = .ok 0 ↔ x.toks = [] ∧ x.w.closed = true)) := by
  obtain ⟨q, evs, e, t, hb, hc⟩ := read_spec h.buf hw
  have hwr := h.writers
  have hzero : (specPop x.toks (room dst)).1.length = 0 ↔ x.toks = [] ∨ room dst = 0 := by
    cases ht : x.toks with
    | nil => simp [specPop]
    | cons a ts =>
      cases a with
      | byte b => simp [specPop, lead, Nat.min_eq_zero_iff]
      | pkt bs =>
        have hne := h.buf.packets bs (by
          rw [show x.buf.queue.toks = x.toks from rfl, ht]
          exact List.mem_cons_self ..)
        have hpos := List.length_pos_iff.2 hne
        simp only [specPop, List.length_take]
        constructor
        · intro hh; exact .inr (by omega)
        · intro hh
          rcases hh with hh | hh
          · cases hh
          · omega
  have hcond : ((specPop x.toks (room dst)).1.length = 0 ∧ (dst.map List.length).sum ≠ 0 ∧ x.buf.writers > 0) ↔
      (x.toks = [] ∧ room dst ≠ 0 ∧ x.w.closed = false) := by
    rw [hzero]
    have hr : (dst.map List.length).sum = room dst := rfl
    rw [hr]
    cases hcw : x.w.closed with
    | true => rw [hcw] at hwr; simp [hwr]
    | false =>
      rw [hcw] at hwr
      simp only [hwr]
      constructor
      · rintro ⟨h1 | h1, h2, _⟩
        · exact ⟨h1, h2, trivial⟩
        · exact absurd h1 h2
      · rintro ⟨h1, h2, _⟩
        exact ⟨.inl h1, h2, by simp⟩
  have hrv : x.r.readv x.buf false dst = .ok ⟨{ x.buf with queue := q, state := flags { x.buf with queue := q } },
      (specPop x.toks (room dst)).1, (if x.toks = [] ∧ room dst ≠ 0 ∧ x.w.closed = false then .error .eagain
             else .ok (specPop x.toks (room dst)).1.length), evs⟩ := by
    unfold End.readv
    rw [if_neg (by decide), h.r.modeR, h.r.buffer, ho]
    rw [if_neg (by decide), Bool.not_false, R.assert_true, R.bind_ok]
    dsimp only
    rw [e, R.bind_ok]
    dsimp only
    rw [show x.buf.queue.toks = x.toks from rfl]
    by_cases hx : x.toks = [] ∧ room dst ≠ 0 ∧ x.w.closed = false
    · rw [if_pos hx, if_pos (hcond.2 hx)]
      rfl
    · rw [if_neg hx, if_neg (fun hh => hx (hcond.1 hh))]
      rfl
  let x1 : World α := { x with buf := { x.buf with queue := q, state := flags { x.buf with queue := q } } }
  have i1 : WInv x1 := ⟨binv_state hb _, h.r, h.w, h.readers, h.writers⟩
  obtain ⟨r', w', ee, sr, sw, _⟩ := events_spec evs x1 x.r.listening x.w.listening
  refine ⟨x1.events x.r.listening x.w.listening evs, _, ?_, events_inv i1 _ _ _, ?_, ?_, ?_, ?_, rfl, ?_⟩
  · unfold World.readv
    rw [show x.get .r = x.r from rfl, hrv, R.bind_ok]
    rfl
  · intro hf
    refine events_fresh (s := x.buf.state) hc rfl ?_ ?_ (listening_of_open h.r) (listening_of_open h.w)
    · rw [hf.state]; exact hf.r
    · rw [hf.state]; exact hf.w
  · rw [ee]; exact t
  · rw [ee]; exact sr
  · rw [ee]; exact sw
  · intro hpos
    by_cases hx : x.toks = [] ∧ room dst ≠ 0 ∧ x.w.closed = false
    · rw [if_pos hx]
      constructor
      · intro hh; cases hh
      · intro hh; rw [hh.2] at hx; exact absurd hx.2.2 (by decide)
    · rw [if_neg hx]
      constructor
      · intro hh
        have h0 : (specPop x.toks (room dst)).1.length = 0 := by injection hh
        rcases hzero.1 h0 with h1 | h1
        · refine ⟨h1, ?_⟩
          cases hcw : x.w.closed with
          | true => rfl
          | false => exact absurd ⟨h1, by omega, hcw⟩ hx
        · omega
      · rintro ⟨h1, _⟩
        rw [hzero.2 (.inl h1)]

/-- What a write mode makes of written bytes. -/
def sentToks (packet : Bool) (bs : List α) : List (Tok α) :=
  if packet then (packets bs).map .pkt else bs.map .byte

/-- The write mode that the next write uses: packet mode if the `DIRECT` flag is set and the pipe was already in
    packet mode or is empty. -/
def modeOf (x : World α) : Bool := x.w.direct && (x.w.packet || x.toks.isEmpty)

theorem nextMode_eq {x : World α} (h : WInv x) : x.w.nextMode x.buf = modeOf x := by
  unfold End.nextMode modeOf
  rw [hasData_eq h.buf.q]
  show _ = (x.w.direct && (x.w.packet || x.buf.queue.toks.isEmpty))
  cases x.w.direct <;> cases x.w.packet <;> cases x.buf.queue.toks.isEmpty <;> rfl

theorem packet_fresh {x : World α} {e : End} (hs : Aligned x.w (flags x.buf)) (he : e = { x.w with packet := e.packet }) :
    Aligned e (flags x.buf) := by
  rw [he]
  intro hc
  exact hs hc

/-- **C23** (writing). With memory that can be read, a write to the open write end: `EPIPE` if the read end is closed;
    otherwise the first `n` bytes are stored, as stream bytes or cut into packets. In stream mode `n` is as much as
    fits, and `EAGAIN` means that there is no space at all; in packet mode as many whole packets as fit are stored,
    and an error means that not even the first one does. It never panics. -/
theorem C23_write {x : World α} (h : WInv x) (ho : x.w.closed = false) {src : List (Src α)} (hm : Mapped src) (unsplit : Nat → Bool) :
    ∃ x' res, x.writev .w false src unsplit = .ok (x', res) ∧ WInv x' ∧ (Fresh x → Fresh x') ∧
      x'.r.closed = x.r.closed ∧ x'.w.closed = x.w.closed ∧ x'.r.direct = x.r.direct ∧ x'.w.direct = x.w.direct ∧
      x'.buf.maxLen = x.buf.maxLen ∧
      (if x.r.closed then res = .error .epipe ∧ x'.toks = x.toks ∧ x'.w.packet = x.w.packet
       else x'.w.packet = modeOf x ∧ ∃ n, n ≤ (values src).length ∧
        x'.toks = x.toks ++ sentToks (modeOf x) ((values src).take n) ∧
        (if modeOf x then
          (n = (values src).length ∨ (pipeBuf ∣ n ∧ x.free < n + min ((values src).length - n) pipeBuf)) ∧
          (if n = (values src).length ∨ 0 < n then res = .ok n
           else res = .error (if x.buf.maxLen < min (values src).length pipeBuf then .emsgsize else .eagain))
         else n = min (values src).length x.free ∧
          res = if (values src).length ≠ 0 ∧ x.free = 0 then .error .eagain else .ok n)) := by
  have hlen : (src.map List.length).sum = (values src).length := by
    clear unsplit
    induction src with
    | nil => rfl
    | cons s rest ih =>
      rw [values_cons, List.length_append, filterMap_length (hm s (List.mem_cons_self ..)),
        ← ih (fun x hx => hm x (List.mem_cons_of_mem _ hx))]
      simp
  have hrd := h.readers
  cases hcr : x.r.closed with
  | true =>
    have hr0 : x.buf.readers = 0 := by rw [hrd, hcr]; rfl
    refine ⟨x, .error .epipe, ?_, h, fun hf => hf, hcr, rfl, rfl, rfl, rfl, ?_⟩
    · unfold World.writev End.writev
      rw [show x.get .w = x.w from rfl, if_neg (by decide), h.w.modeW, h.w.buffer, ho, if_neg (by decide)]
      rw [Bool.not_false, R.assert_true, R.bind_ok, if_pos hr0]
      rfl
    · rw [if_pos rfl]; exact ⟨rfl, rfl, rfl⟩
  | false =>
    have hr0 : ¬ x.buf.readers = 0 := by rw [hrd, hcr]; decide
    -- the call up to the write itself
    have hwv : ∀ r : WriteRes α, (if modeOf x then x.buf.writePackets ((values src).length + 1) src (values src).length 0 []
          else x.buf.writeStream src (values src).length unsplit) = .ok r →
        x.writev .w false src unsplit = .ok ((({ x with buf := r.buf, w := { x.w with packet := modeOf x } } : World α)).events
          x.r.listening x.w.listening r.evs, r.res) := by
      intro r hr
      have hr' : x.buf.write (modeOf x) src unsplit = .ok r := by
        unfold Buf.write
        dsimp only
        rw [hlen]
        exact hr
      unfold World.writev End.writev
      rw [show x.get .w = x.w from rfl, if_neg (by decide), if_neg (by rw [h.w.modeW]; decide),
        show R.assert x.w.buffer = .ok () by rw [h.w.buffer, ho]; rfl, R.bind_ok, if_neg hr0, nextMode_eq h, hr']
      rfl
    -- what follows from what the write did
    have fin : ∀ (q : Queue α) (st : BState) (src' : List (Src α)) (res : Except Errno Nat) (evs : List Ev),
        BInv { x.buf with queue := q } → Chain x.buf.state evs st → (x.buf.state = flags x.buf → st = flags { x.buf with queue := q }) →
        (if modeOf x then x.buf.writePackets ((values src).length + 1) src (values src).length 0 []
          else x.buf.writeStream src (values src).length unsplit) = .ok ⟨{ x.buf with queue := q, state := st }, src', res, evs⟩ →
        ∃ x', x.writev .w false src unsplit = .ok (x', res) ∧ WInv x' ∧ (Fresh x → Fresh x') ∧ x'.r.closed = false ∧
          x'.w.closed = x.w.closed ∧ x'.r.direct = x.r.direct ∧ x'.w.direct = x.w.direct ∧ x'.buf.maxLen = x.buf.maxLen ∧
          x'.w.packet = modeOf x ∧ x'.toks = q.toks := by
      intro q st src' res evs hb hc hs hr
      let x1 : World α := { x with buf := { x.buf with queue := q, state := st }, w := { x.w with packet := modeOf x } }
      have i1 : WInv x1 := by
        refine ⟨binv_state hb _, h.r, ?_, h.readers, h.writers⟩
        exact ⟨h.w.modeR, h.w.modeW, h.w.buffer, h.w.listening, h.w.reader, h.w.writer, h.w.readable, h.w.writable⟩
      obtain ⟨r', w', ee, sr, sw, _⟩ := events_spec evs x1 x.r.listening x.w.listening
      refine ⟨x1.events x.r.listening x.w.listening evs, hwv _ hr, events_inv i1 _ _ _, ?_, ?_, ?_, ?_, ?_, ?_, ?_, ?_⟩
      · intro hf
        have hst := hs hf.state
        refine events_fresh (s := x.buf.state) ?_ ?_ ?_ ?_ (listening_of_open i1.r) (listening_of_open i1.w)
        · rw [← show st = flags x1.buf from hst]; exact hc
        · exact hst
        · rw [hf.state]; exact hf.r
        · rw [hf.state]; exact packet_fresh (e := { x.w with packet := modeOf x }) hf.w rfl
      · rw [ee]; exact sr.closed.trans hcr
      · rw [ee]; exact sw.closed
      · rw [ee]; exact sr.direct
      · rw [ee]; exact sw.direct
      · rw [ee]
      · rw [ee]; exact sw.packet
      · rw [ee]; rfl
    cases hmode : modeOf x with
    | true =>
      rw [hmode] at fin
      obtain ⟨n, q, st, src', evs, res, hn, e, hb, hc, hs, t, hd, hr⟩ := writePackets_spec ((values src).length + 1) h.buf hm rfl 0 []
        (Nat.lt_succ_self _)
      obtain ⟨x', e', i', f', c1, c2, c3, c4, c5, c6, c7⟩ := fin q st src' res evs hb hc hs (by rw [if_pos rfl, e]; rfl)
      refine ⟨x', res, e', i', f', c1, c2, c3, c4, c5, ?_⟩
      rw [if_neg (by decide)]
      refine ⟨c6, n, hn, ?_, ?_⟩
      · rw [c7, t]; rfl
      · rw [if_pos rfl]
        refine ⟨hd, ?_⟩
        rw [Nat.zero_add] at hr
        exact hr
    | false =>
      rw [hmode] at fin
      obtain ⟨q, src', evs, _, hb, hx⟩ := writeStream_spec h.buf hm rfl unsplit
      have hfree : x.buf.maxLen - tokBytes x.buf.queue.toks = x.free := rfl
      rw [hfree] at hx
      by_cases h0 : (values src).length = 0
      · rw [if_pos h0] at hx
        obtain ⟨x', e', i', f', c1, c2, c3, c4, c5, c6, c7⟩ := fin x.buf.queue x.buf.state src (.ok 0) [] h.buf .nil (fun hs => hs)
          (by rw [if_neg (by decide), hx])
        refine ⟨x', _, e', i', f', c1, c2, c3, c4, c5, ?_⟩
        rw [if_neg (by decide)]
        refine ⟨c6, 0, Nat.zero_le _, ?_, ?_⟩
        · rw [c7]; simp [sentToks, World.toks]
        · rw [if_neg (by decide), if_neg (by omega)]
          exact ⟨by omega, rfl⟩
      · rw [if_neg h0] at hx
        by_cases h1 : x.free = 0
        · rw [if_pos h1] at hx
          obtain ⟨x', e', i', f', c1, c2, c3, c4, c5, c6, c7⟩ := fin x.buf.queue x.buf.state src (.error .eagain) [] h.buf .nil (fun hs => hs)
            (by rw [if_neg (by decide), hx])
          refine ⟨x', _, e', i', f', c1, c2, c3, c4, c5, ?_⟩
          rw [if_neg (by decide)]
          refine ⟨c6, 0, Nat.zero_le _, ?_, ?_⟩
          · rw [c7]; simp [sentToks, World.toks]
          · rw [if_neg (by decide), if_pos ⟨h0, h1⟩]
            exact ⟨by omega, rfl⟩
        · rw [if_neg h1] at hx
          obtain ⟨hx, t, hc⟩ := hx
          obtain ⟨x', e', i', f', c1, c2, c3, c4, c5, c6, c7⟩ := fin q _ src' _ evs hb hc (fun _ => rfl)
            (by rw [if_neg (by decide), hx])
          refine ⟨x', _, e', i', f', c1, c2, c3, c4, c5, ?_⟩
          rw [if_neg (by decide)]
          refine ⟨c6, min (values src).length x.free, Nat.min_le_left _ _, ?_, ?_⟩
          · rw [c7, t]
            have : (values src).take (min (values src).length x.free) = (values src).take x.free := by
              rcases Nat.le_total (values src).length x.free with hh | hh
              · rw [Nat.min_eq_left hh, List.take_of_length_le (Nat.le_refl _), List.take_of_length_le hh]
              · rw [Nat.min_eq_right hh]
            rw [this]
            rfl
          · rw [if_neg (by decide), if_neg (fun hh => h1 hh.2)]
            exact ⟨rfl, rfl⟩

theorem binv_counts {b : Buf α} (h : BInv b) (r w : Nat) : BInv { b with readers := r, writers := w } := ⟨h.q, h.fits, h.packets⟩

/-- An end after `close`. -/
def End.shut (e : End) : End :=
  { e with listening := false, writer := false, reader := false, buffer := false
           closed := true, active := false, readable := false, writable := false }

theorem endInv_shut {isR : Bool} {e : End} (h : EndInv isR e) : EndInv isR e.shut := by
  refine ⟨h.modeR, h.modeW, rfl, rfl, ?_, ?_, fun _ => rfl, fun _ => rfl⟩
  · cases isR <;> rfl
  · cases isR <;> rfl

theorem aligned_shut (e : End) (s : BState) : Aligned e.shut s := by intro h; cases h

/-- **C23** (closing). Closing an end never panics and does not change what is stored. The other end's flags follow
    as long as they were right: after closing the write end the read end is readable, and after closing the read end
    the write end is writable (see `C23_flags`). -/
theorem C23_close {x : World α} (h : WInv x) (side : Side) :
    ∃ x', x.close side = .ok x' ∧ WInv x' ∧ (Fresh x → Fresh x') ∧ x'.toks = x.toks ∧
      x'.r.closed = (x.r.closed || decide (side = .r)) ∧ x'.w.closed = (x.w.closed || decide (side = .w)) := by
  cases side with
  | r =>
    cases hc : x.r.closed with
    | true =>
      refine ⟨{ x with r := x.r.shut }, ?_, ⟨h.buf, endInv_shut h.r, h.w, ?_, h.writers⟩, ?_, rfl, rfl, ?_⟩
      · unfold World.close
        dsimp only [World.get]
        rw [h.r.writer, h.r.reader, hc]
        rfl
      · have := h.readers
        rw [hc] at this
        exact this
      · intro hf
        exact ⟨hf.state, aligned_shut _ _, hf.w⟩
      · simp
    | false =>
      have hr := h.readers
      rw [hc] at hr
      have hb : BInv { x.buf with readers := x.buf.readers - 1 } := binv_counts h.buf _ _
      obtain ⟨evs, e, ch⟩ := refresh_spec hb false
      let x1 : World α := ⟨{ x.buf with readers := x.buf.readers - 1, state := flags { x.buf with readers := x.buf.readers - 1 } }, x.r.shut, x.w⟩
      have i1 : WInv x1 := by
        refine ⟨binv_state hb _, endInv_shut h.r, h.w, ?_, h.writers⟩
        show x.buf.readers - 1 = 0
        rw [hr]; rfl
      obtain ⟨r', w', ee, sr, sw, _⟩ := events_spec evs x1 false x.w.listening
      refine ⟨x1.events false x.w.listening evs, ?_, events_inv i1 _ _ _, ?_, ?_, ?_, ?_⟩
      · unfold World.close
        dsimp only [World.get, World.set]
        rw [h.r.writer, h.r.reader, h.r.buffer, hc]
        have e1 : x.buf.dropReader true true = .ok (x1.buf, evs) := by
          unfold Buf.dropReader Buf.removeReader
          rw [if_pos rfl, R.assert_true, R.bind_ok, decide_eq_true (by rw [hr]; decide), R.assert_true, R.bind_ok]
          exact e
        show (x.buf.dropReader true true >>= _) = _
        rw [e1]
        rfl
      · intro hf
        refine events_fresh (s := x.buf.state) ch rfl (aligned_shut _ _) ?_ (fun hh => by cases hh) (listening_of_open h.w)
        rw [hf.state]; exact hf.w
      · rw [ee]; rfl
      · rw [ee]; exact sr.closed
      · rw [ee]; simpa using sw.closed
  | w =>
    cases hc : x.w.closed with
    | true =>
      refine ⟨{ x with w := x.w.shut }, ?_, ⟨h.buf, h.r, endInv_shut h.w, h.readers, ?_⟩, ?_, rfl, ?_, rfl⟩
      · unfold World.close
        dsimp only [World.get]
        rw [h.w.writer, h.w.reader, hc]
        rfl
      · have := h.writers
        rw [hc] at this
        exact this
      · intro hf
        exact ⟨hf.state, hf.r, aligned_shut _ _⟩
      · simp
    | false =>
      have hr := h.writers
      rw [hc] at hr
      have hb : BInv { x.buf with writers := x.buf.writers - 1 } := binv_counts h.buf _ _
      obtain ⟨evs, e, ch⟩ := refresh_spec hb false
      let x1 : World α := ⟨{ x.buf with writers := x.buf.writers - 1, state := flags { x.buf with writers := x.buf.writers - 1 } }, x.r, x.w.shut⟩
      have i1 : WInv x1 := by
        refine ⟨binv_state hb _, h.r, endInv_shut h.w, h.readers, ?_⟩
        show x.buf.writers - 1 = 0
        rw [hr]; rfl
      obtain ⟨r', w', ee, sr, sw, _⟩ := events_spec evs x1 x.r.listening false
      refine ⟨x1.events x.r.listening false evs, ?_, events_inv i1 _ _ _, ?_, ?_, ?_, ?_⟩
      · unfold World.close
        dsimp only [World.get, World.set]
        rw [h.w.writer, h.w.reader, h.w.buffer, hc]
        have e1 : x.buf.dropWriter true true = .ok (x1.buf, evs) := by
          unfold Buf.dropWriter Buf.removeWriter
          rw [if_pos rfl, R.assert_true, R.bind_ok, decide_eq_true (by rw [hr]; decide), R.assert_true, R.bind_ok]
          exact e
        show (x.buf.dropWriter true true >>= _) = _
        rw [e1]
        show R.ok (World.events _ _ _ (evs ++ [])) = _
        rw [List.append_nil]
        rfl
      · intro hf
        refine events_fresh (s := x.buf.state) ch rfl ?_ (aligned_shut _ _) (listening_of_open h.r) (fun hh => by cases hh)
        rw [hf.state]; exact hf.r
      · rw [ee]; rfl
      · rw [ee]; simpa using sr.closed
      · rw [ee]; exact sw.closed

theorem setDirect_inv {x : World α} (h : WInv x) (side : Side) (d : Bool) :
    WInv (x.setDirect side d) ∧ (Fresh x → Fresh (x.setDirect side d)) := by
  cases side with
  | r =>
    exact ⟨⟨h.buf, ⟨h.r.modeR, h.r.modeW, h.r.buffer, h.r.listening, h.r.reader, h.r.writer, h.r.readable, h.r.writable⟩, h.w, h.readers, h.writers⟩,
      fun hf => ⟨hf.state, fun hc => hf.r hc, hf.w⟩⟩
  | w =>
    exact ⟨⟨h.buf, h.r, ⟨h.w.modeR, h.w.modeW, h.w.buffer, h.w.listening, h.w.reader, h.w.writer, h.w.readable, h.w.writable⟩, h.readers, h.writers⟩,
      fun hf => ⟨hf.state, hf.r, fun hc => hf.w hc⟩⟩

/-- The world that `pipe2` makes, in a picture: empty, both ends open, the write end writable. -/
theorem new_spec {maxLen : Nat} (h : 0 < maxLen) (direct : Bool) :
    ∃ x : World α, World.new maxLen direct = .ok x ∧ WInv x ∧ Fresh x ∧ x.toks = [] ∧ x.r.closed = false ∧ x.w.closed = false ∧
      x.buf.maxLen = maxLen := by
  have hq : ∀ (st : BState) (r w : Nat), BInv (⟨Queue.new 4096, maxLen, st, r, w⟩ : Buf α) := by
    intro st r w
    refine ⟨inv_new (by decide), Nat.zero_le _, ?_⟩
    intro bs hb
    cases hb
  have hx : World.new (α := α) maxLen direct = .ok ⟨⟨Queue.new 4096, maxLen, ⟨false, true, false, false⟩, 1, 1⟩,
      ⟨true, true, true, false, true, false, direct, false, true, false, false, false⟩,
      ⟨true, true, false, true, false, true, direct, false, true, false, true, false⟩⟩ := by
    obtain ⟨n, rfl⟩ : ∃ n, maxLen = n + 1 := ⟨maxLen - 1, by omega⟩
    cases direct <;> rfl
  refine ⟨_, hx, ⟨hq _ _ _, ?_, ?_, rfl, rfl⟩, ⟨?_, ?_, ?_⟩, rfl, rfl, rfl, rfl⟩
  · exact ⟨rfl, rfl, rfl, rfl, rfl, rfl, fun _ => rfl, fun _ => rfl⟩
  · exact ⟨rfl, rfl, rfl, rfl, rfl, rfl, fun _ => rfl, fun hh => by rcases hh with hh | hh <;> cases hh⟩
  · unfold flags
    show _ = BState.mk false (decide (0 < maxLen)) _ _
    rw [decide_eq_true h]
    rfl
  · intro _
    exact ⟨fun _ => rfl, (fun hh => by cases hh)⟩
  · intro _
    refine ⟨(fun hh => by cases hh), fun _ => ?_⟩
    show true = (decide (0 < maxLen) || _)
    rw [decide_eq_true h]
    rfl

/-! ### Histories -/

/-- Any calls on the two ends of a pipe, with any memory. Calls that panic are not steps. -/
inductive Reach (maxLen : Nat) : World α → Prop where
  | new {direct x} : 0 < maxLen → World.new maxLen direct = .ok x → Reach maxLen x
  | read {x side offset dst x' out res} : Reach maxLen x → x.readv side offset dst = .ok (x', out, res) → Reach maxLen x'
  | write {x side offset src unsplit x' res} : Reach maxLen x → x.writev side offset src unsplit = .ok (x', res) → Reach maxLen x'
  | direct {x} (side d) : Reach maxLen x → Reach maxLen (x.setDirect side d)
  | close {x side x'} : Reach maxLen x → x.close side = .ok x' → Reach maxLen x'

theorem getInv {x : World α} (h : WInv x) (side : Side) : EndInv (decide (side = .r)) (x.get side) := by
  cases side with
  | r => exact h.r
  | w => exact h.w

/-- A read with any memory. -/
theorem readv_any {x : World α} (h : WInv x) {side : Side} {offset : Bool} {dst : List (List Bool)}
    (ho : (x.get side).closed = false) :
    ∃ x' out res, x.readv side offset dst = .ok (x', out, res) ∧ WInv x' ∧ x'.buf.maxLen = x.buf.maxLen := by
  obtain ⟨r, e, i, h1, h2, h3⟩ := read_any h.buf dst
  have he := getInv h side
  have hx : ∃ r', (x.get side).readv x.buf offset dst = .ok r' ∧ BInv r'.buf ∧ r'.buf.readers = x.buf.readers ∧
      r'.buf.writers = x.buf.writers ∧ r'.buf.maxLen = x.buf.maxLen := by
    unfold End.readv
    cases offset with
    | true => exact ⟨_, rfl, h.buf, rfl, rfl, rfl⟩
    | false =>
      rw [if_neg (by decide)]
      cases hm : (x.get side).modeR with
      | false => exact ⟨_, rfl, h.buf, rfl, rfl, rfl⟩
      | true =>
        rw [if_neg (by decide), he.buffer, ho, Bool.not_false, R.assert_true, R.bind_ok]
        dsimp only
        rw [e, R.bind_ok]
        cases hr : r.res with
        | error z => exact ⟨_, rfl, i, h1, h2, h3⟩
        | ok n =>
          dsimp only
          split
          · exact ⟨_, rfl, i, h1, h2, h3⟩
          · exact ⟨_, rfl, i, h1, h2, h3⟩
  obtain ⟨r', e', i', h1', h2', h3'⟩ := hx
  unfold World.readv
  rw [e', R.bind_ok]
  refine ⟨_, _, _, rfl, ?_, ?_⟩
  · exact events_inv (x := ({ x with buf := r'.buf } : World α)) ⟨i', h.r, h.w, h1'.trans h.readers, h2'.trans h.writers⟩ _ _ _
  · obtain ⟨_, _, ee, _⟩ := events_spec r'.evs ({ x with buf := r'.buf } : World α) x.r.listening x.w.listening
    rw [ee]
    exact h3'

theorem set_inv {x : World α} (h : WInv x) {b : Buf α} (hb : BInv b) (hr : b.readers = x.buf.readers) (hw : b.writers = x.buf.writers)
    (side : Side) (p : Bool) : WInv (({ x with buf := b } : World α).set side { x.get side with packet := p }) := by
  cases side with
  | r => exact ⟨hb, ⟨h.r.modeR, h.r.modeW, h.r.buffer, h.r.listening, h.r.reader, h.r.writer, h.r.readable, h.r.writable⟩, h.w, hr.trans h.readers, hw.trans h.writers⟩
  | w => exact ⟨hb, h.r, ⟨h.w.modeR, h.w.modeW, h.w.buffer, h.w.listening, h.w.reader, h.w.writer, h.w.readable, h.w.writable⟩, hr.trans h.readers, hw.trans h.writers⟩

/-- A write with any memory. -/
theorem writev_any {x : World α} (h : WInv x) {side : Side} {offset : Bool} {src : List (Src α)} {unsplit : Nat → Bool}
    (ho : (x.get side).closed = false) :
    ∃ x' res, x.writev side offset src unsplit = .ok (x', res) ∧ WInv x' ∧ x'.buf.maxLen = x.buf.maxLen := by
  have he := getInv h side
  have hw : ∀ p, ∃ r, x.buf.write p src unsplit = .ok r ∧ BInv r.buf ∧ r.buf.readers = x.buf.readers ∧
      r.buf.writers = x.buf.writers ∧ r.buf.maxLen = x.buf.maxLen := by
    intro p
    unfold Buf.write
    cases p with
    | true => exact writePackets_any _ h.buf _ _ _ _ (Nat.lt_succ_self _)
    | false => exact writeStream_any h.buf _ _ _
  have hx : ∃ p r', (x.get side).writev x.buf offset src unsplit = .ok ({ x.get side with packet := p }, r') ∧ BInv r'.buf ∧
      r'.buf.readers = x.buf.readers ∧ r'.buf.writers = x.buf.writers ∧ r'.buf.maxLen = x.buf.maxLen := by
    unfold End.writev
    cases offset with
    | true => exact ⟨(x.get side).packet, _, rfl, h.buf, rfl, rfl, rfl⟩
    | false =>
      rw [if_neg (by decide)]
      by_cases hm : (x.get side).modeW = true
      · rw [if_neg (by rw [hm]; decide), show R.assert (x.get side).buffer = .ok () by rw [he.buffer, ho]; rfl, R.bind_ok]
        by_cases h0 : x.buf.readers = 0
        · rw [if_pos h0]; exact ⟨(x.get side).packet, _, rfl, h.buf, rfl, rfl, rfl⟩
        · rw [if_neg h0]
          obtain ⟨r, e, i, h1, h2, h3⟩ := hw ((x.get side).nextMode x.buf)
          rw [e]
          exact ⟨_, r, rfl, i, h1, h2, h3⟩
      · rw [if_pos (by simpa using hm)]
        exact ⟨(x.get side).packet, _, rfl, h.buf, rfl, rfl, rfl⟩
  obtain ⟨p, r', e', i', h1', h2', h3'⟩ := hx
  unfold World.writev
  rw [e', R.bind_ok]
  refine ⟨_, _, rfl, events_inv (set_inv h i' h1' h2' side p) _ _ _, ?_⟩
  dsimp only
  obtain ⟨_, _, ee, _⟩ := events_spec r'.evs ((({ x with buf := r'.buf } : World α)).set side { x.get side with packet := p }) x.r.listening x.w.listening
  rw [ee]
  cases side with
  | r => exact h3'
  | w => exact h3'

theorem events_nil (x : World α) : x.events x.r.listening x.w.listening [] = x := rfl

theorem readv_closed {x : World α} (h : WInv x) {side : Side} (hc : (x.get side).closed = true) {offset : Bool} {dst : List (List Bool)}
    {x' out res} (e : x.readv side offset dst = .ok (x', out, res)) : x' = x ∧ out = [] := by
  have he := getInv h side
  unfold World.readv End.readv at e
  cases offset with
  | true => cases e; exact ⟨rfl, rfl⟩
  | false =>
    rw [if_neg (by decide)] at e
    by_cases hm : (x.get side).modeR = true
    · rw [if_neg (by rw [hm]; decide), he.buffer, hc] at e
      cases e
    · rw [if_pos (by simpa using hm)] at e
      cases e
      exact ⟨rfl, rfl⟩

theorem writev_closed {x : World α} (h : WInv x) {side : Side} (hc : (x.get side).closed = true) {offset : Bool} {src : List (Src α)}
    {unsplit x' res} (e : x.writev side offset src unsplit = .ok (x', res)) : x' = x ∧ ∃ z, res = .error z := by
  have he := getInv h side
  have hset : (({ x with buf := x.buf } : World α).set side (x.get side)) = x := by cases side <;> rfl
  unfold World.writev End.writev at e
  cases offset with
  | true =>
    rw [if_pos rfl, R.bind_ok] at e
    dsimp only at e
    rw [hset] at e
    cases e; exact ⟨rfl, _, rfl⟩
  | false =>
    rw [if_neg (by decide)] at e
    by_cases hm : (x.get side).modeW = true
    · rw [if_neg (by rw [hm]; decide), he.buffer, hc] at e
      cases e
    · rw [if_pos (by simpa using hm), R.bind_ok] at e
      dsimp only at e
      rw [hset] at e
      cases e
      exact ⟨rfl, _, rfl⟩

theorem reach_inv {maxLen : Nat} {x : World α} (h : Reach maxLen x) : WInv x ∧ x.buf.maxLen = maxLen := by
  induction h with
  | @new direct x h0 e =>
    obtain ⟨x2, e2, i, _, _, _, _, hm⟩ := new_spec (α := α) h0 direct
    rw [e2] at e
    obtain rfl := R.ok.inj e
    exact ⟨i, hm⟩
  | @read x side offset dst x' out res _ e ih =>
    cases hc : (x.get side).closed with
    | true => rw [(readv_closed ih.1 hc e).1]; exact ih
    | false =>
      obtain ⟨x2, o2, r2, e2, i2, m2⟩ := readv_any ih.1 (offset := offset) (dst := dst) hc
      rw [e2] at e
      obtain ⟨rfl, _⟩ := Prod.mk.inj (R.ok.inj e)
      exact ⟨i2, m2.trans ih.2⟩
  | @write x side offset src unsplit x' res _ e ih =>
    cases hc : (x.get side).closed with
    | true => rw [(writev_closed ih.1 hc e).1]; exact ih
    | false =>
      obtain ⟨x2, r2, e2, i2, m2⟩ := writev_any ih.1 (offset := offset) (src := src) (unsplit := unsplit) hc
      rw [e2] at e
      obtain ⟨rfl, _⟩ := Prod.mk.inj (R.ok.inj e)
      exact ⟨i2, m2.trans ih.2⟩
  | @direct x side d _ ih =>
    refine ⟨(setDirect_inv ih.1 side d).1, ?_⟩
    cases side
    · exact ih.2
    · exact ih.2
  | @close x side x' _ e ih =>
    obtain ⟨x2, e2, i2, _⟩ := C23_close ih.1 side
    have hm : ∀ y, x.close side = .ok y → y.buf.maxLen = x.buf.maxLen := by
      intro y hy
      clear e2
      unfold World.close at hy
      simp only [Buf.dropWriter, Buf.dropReader, Buf.removeWriter, Buf.removeReader, R.bind_eq_ok] at hy
      obtain ⟨p, hp, q, hq, hy⟩ := hy
      have refr : ∀ (b : Buf α) (z : Buf α × List Ev), b.refresh false = .ok z → z.1.maxLen = b.maxLen := by
        intro b z hz
        unfold Buf.refresh at hz
        rw [R.bind_eq_ok] at hz
        obtain ⟨_, _, hz⟩ := hz
        cases hz
        rfl
      have h1 : p.1.maxLen = x.buf.maxLen := by
        by_cases hw : (x.get side).writer = true
        · rw [if_pos hw] at hp
          rw [R.bind_eq_ok] at hp
          obtain ⟨_, _, hp⟩ := hp
          rw [R.bind_eq_ok] at hp
          obtain ⟨_, _, hp⟩ := hp
          rw [refr _ _ hp]
          cases side <;> rfl
        · rw [if_neg hw] at hp
          cases hp
          cases side <;> rfl
      have h2 : q.1.maxLen = p.1.maxLen := by
        by_cases hw : (x.get side).reader = true
        · rw [if_pos hw] at hq
          rw [R.bind_eq_ok] at hq
          obtain ⟨_, _, hq⟩ := hq
          rw [R.bind_eq_ok] at hq
          obtain ⟨_, _, hq⟩ := hq
          exact refr ({ p.1 with readers := p.1.readers - 1 } : Buf α) _ hq
        · rw [if_neg hw] at hq
          cases hq
          rfl
      cases hy
      obtain ⟨_, _, ee, _⟩ := events_spec (p.2 ++ q.2) ((({ x.set side { x.get side with listening := false } with buf := q.1 } : World α)).set side
        (x.get side).shut) (x.set side { x.get side with listening := false }).r.listening (x.set side { x.get side with listening := false }).w.listening
      have := congrArg (fun w : World α => w.buf.maxLen) ee
      refine Eq.trans this ?_
      cases side
      · exact h2.trans h1
      · exact h2.trans h1
    have hm2 := hm _ e
    rw [e2] at e
    obtain rfl := R.ok.inj e
    exact ⟨i2, hm2.trans ih.2⟩

/-- **C23** (capacity). After any calls, with any memory, a pipe never holds more bytes than its capacity. -/
theorem C23_capacity {maxLen : Nat} {x : World α} (h : Reach maxLen x) :
    x.buf.queue.numBytes = tokBytes x.toks ∧ tokBytes x.toks ≤ maxLen := by
  obtain ⟨i, m⟩ := reach_inv h
  refine ⟨(C24_counts i.buf.q).1, ?_⟩
  rw [← m]
  exact i.buf.fits

/-- **C23** (no panic). After any calls, with any memory, a call on an open end returns. -/
theorem C23_no_panic {maxLen : Nat} {x : World α} (h : Reach maxLen x) (side : Side) (ho : (x.get side).closed = false)
    (offset : Bool) (dst : List (List Bool)) (src : List (Src α)) (unsplit : Nat → Bool) :
    (x.readv side offset dst).Ok ∧ (x.writev side offset src unsplit).Ok ∧ (x.close side).Ok := by
  obtain ⟨i, _⟩ := reach_inv h
  obtain ⟨x1, o1, r1, e1, _⟩ := readv_any i (offset := offset) (dst := dst) ho
  obtain ⟨x2, r2, e2, _⟩ := writev_any i (offset := offset) (src := src) (unsplit := unsplit) ho
  obtain ⟨x3, e3, _⟩ := C23_close i side
  exact ⟨⟨_, e1⟩, ⟨_, e2⟩, ⟨_, e3⟩⟩

/-- Calls with memory that can be read and written. `sent` is what successful writes wrote: the first `n` bytes if
    the call returned `n`, cut into packets in packet mode. `got` is what each read returned. -/
inductive Run (maxLen : Nat) : World α → List (Tok α) → List (List α) → Prop where
  | new {direct x} : 0 < maxLen → World.new maxLen direct = .ok x → Run maxLen x [] []
  | read {x sent got side offset dst x' out res} : Run maxLen x sent got → Writable dst →
      x.readv side offset dst = .ok (x', out, res) → Run maxLen x' sent (got ++ [out])
  | write {x sent got side offset src unsplit x' res} : Run maxLen x sent got → Mapped src →
      x.writev side offset src unsplit = .ok (x', res) →
      Run maxLen x' (sent ++ match res with | .ok n => sentToks x'.w.packet ((values src).take n) | .error _ => []) got
  | direct {x sent got} (side d) : Run maxLen x sent got → Run maxLen (x.setDirect side d) sent got
  | close {x sent got side x'} : Run maxLen x sent got → x.close side = .ok x' → Run maxLen x' sent got

theorem Run.reach {maxLen : Nat} {x : World α} {sent got} (h : Run maxLen x sent got) : Reach maxLen x := by
  induction h with
  | new h0 e => exact .new h0 e
  | read _ _ e ih => exact .read ih e
  | write _ _ e ih => exact .write ih e
  | direct s d _ ih => exact .direct s d ih
  | close _ e ih => exact .close ih e

/-- A read of the write end, or with an offset, does nothing. -/
theorem readv_refused {x : World α} (h : WInv x) {side : Side} {offset : Bool} (hx : offset = true ∨ side = .w) {dst : List (List Bool)}
    {x' out res} (e : x.readv side offset dst = .ok (x', out, res)) :
    x' = x ∧ out = [] ∧ res = .error (if offset then .espipe else .ebadf) := by
  unfold World.readv End.readv at e
  cases offset with
  | true => cases e; exact ⟨rfl, rfl, rfl⟩
  | false =>
    obtain rfl : side = .w := by rcases hx with hx | hx; cases hx; exact hx
    rw [if_neg (by decide), if_pos (by rw [show x.get .w = x.w from rfl, h.w.modeR]; rfl)] at e
    cases e
    exact ⟨rfl, rfl, rfl⟩

/-- A write to the read end, or with an offset, does nothing. -/
theorem writev_refused {x : World α} (h : WInv x) {side : Side} {offset : Bool} (hx : offset = true ∨ side = .r) {src : List (Src α)}
    {unsplit x' res} (e : x.writev side offset src unsplit = .ok (x', res)) :
    x' = x ∧ res = .error (if offset then .espipe else .ebadf) := by
  have hset : (({ x with buf := x.buf } : World α).set side (x.get side)) = x := by cases side <;> rfl
  unfold World.writev End.writev at e
  cases offset with
  | true =>
    rw [if_pos rfl, R.bind_ok] at e
    dsimp only at e
    rw [hset] at e
    cases e; exact ⟨rfl, rfl⟩
  | false =>
    obtain rfl : side = .r := by rcases hx with hx | hx; cases hx; exact hx
    rw [if_neg (by decide), if_pos (by rw [show x.get .r = x.r from rfl, h.r.modeW]; rfl), R.bind_ok] at e
    dsimp only at e
    rw [hset] at e
    cases e
    exact ⟨rfl, rfl⟩

theorem delivers_pop {got : List (List α)} {gone ts : List (Tok α)} (d : Delivers got gone) (n : Nat) :
    ∃ gone', gone ++ ts = gone' ++ (specPop ts n).2.2 ∧ Delivers (got ++ [(specPop ts n).1]) gone' := by
  cases ts with
  | nil => exact ⟨gone ++ ([] : List α).map .byte, by simp [specPop], .bytes d⟩
  | cons t ts =>
    cases t with
    | pkt bs => 
      refine ⟨gone ++ [Tok.pkt bs], by simp [specPop], ?_⟩
      exact Delivers.pkt (bs := bs.take n) (full := bs) d (List.take_prefix _ _)
    | byte b =>
      refine ⟨gone ++ ((specPop (.byte b :: ts) n).1).map .byte, ?_, .bytes d⟩
      rw [List.append_assoc]
      congr 1
      simp only [specPop]
      generalize hl : lead (Tok.byte b :: ts) = l
      have hpre : ∀ (ts : List (Tok α)), ∃ rest, ts = (lead ts).map .byte ++ rest := by
        intro ts
        induction ts with
        | nil => exact ⟨[], rfl⟩
        | cons t ts ih =>
          obtain ⟨rest, hr⟩ := ih
          cases t with
          | byte c => exact ⟨rest, by simp only [lead, List.map_cons, List.cons_append, ← hr]⟩
          | pkt bs => exact ⟨.pkt bs :: ts, rfl⟩
      obtain ⟨rest, hr⟩ := hpre (.byte b :: ts)
      rw [hl] at hr
      rw [hr]
      have : (l.map (Tok.byte) ++ rest).take (l.take n).length = (l.take n).map .byte := by
        rw [List.take_append_of_le_length (by simp; omega), ← List.map_take, List.length_take]
        congr 1
        rcases Nat.le_total n l.length with hh | hh
        · rw [Nat.min_eq_left hh]
        · rw [Nat.min_eq_right hh, List.take_of_length_le (Nat.le_refl _), List.take_of_length_le hh]
      rw [← this, List.take_append_drop]

/-- **C23** (order). With memory that can be read and written, in every state: what successful writes wrote is what
    reads returned, followed by what is stored. Stream bytes are neither lost, duplicated nor reordered; each
    packet is returned by one read, by itself. The flags are right. -/
theorem C23_history {maxLen : Nat} {x : World α} {sent : List (Tok α)} {got : List (List α)} (h : Run maxLen x sent got) :
    WInv x ∧ Fresh x ∧ ∃ gone, sent = gone ++ x.toks ∧ Delivers got gone := by
  induction h with
  | @new direct x h0 e =>
    obtain ⟨x2, e2, i, f, t, _⟩ := new_spec (α := α) h0 direct
    rw [e2] at e
    obtain rfl := R.ok.inj e
    exact ⟨i, f, [], by rw [t]; rfl, .nil⟩
  | @read x sent got side offset dst x' out res _ hw e ih =>
    obtain ⟨i, f, gone, hs, d⟩ := ih
    have triv : x' = x → out = [] → WInv x' ∧ Fresh x' ∧ ∃ gone, sent = gone ++ x'.toks ∧ Delivers (got ++ [out]) gone := by
      intro h1 h2
      rw [h1, h2]
      exact ⟨i, f, gone ++ ([] : List α).map .byte, by simpa using hs, .bytes d⟩
    by_cases hx : offset = true ∨ side = .w
    · obtain ⟨h1, h2, _⟩ := readv_refused i hx e
      exact triv h1 h2
    · obtain ⟨rfl, rfl⟩ : offset = false ∧ side = .r := by
        constructor
        · cases offset <;> simp at hx ⊢
        · cases side <;> simp at hx ⊢
      cases hc : x.r.closed with
      | true =>
        obtain ⟨h1, h2⟩ := readv_closed i (side := .r) hc e
        exact triv h1 h2
      | false =>
        obtain ⟨x2, res2, e2, i2, f2, t2, _⟩ := C23_read i hc hw
        rw [e2] at e
        obtain ⟨rfl, e3⟩ := Prod.mk.inj (R.ok.inj e)
        obtain ⟨rfl, _⟩ := Prod.mk.inj e3
        obtain ⟨gone', h1, h2⟩ := delivers_pop (ts := x.toks) d (room dst)
        refine ⟨i2, f2 f, gone', ?_, h2⟩
        rw [hs, t2, h1]
  | @write x sent got side offset src unsplit x' res _ hm e ih =>
    obtain ⟨i, f, gone, hs, d⟩ := ih
    by_cases hx : offset = true ∨ side = .r
    · obtain ⟨rfl, rfl⟩ := writev_refused i hx e
      exact ⟨i, f, gone, by rw [hs]; simp, d⟩
    · obtain ⟨rfl, rfl⟩ : offset = false ∧ side = .w := by
        constructor
        · cases offset <;> simp at hx ⊢
        · cases side <;> simp at hx ⊢
      cases hc : x.w.closed with
      | true =>
        obtain ⟨rfl, z, rfl⟩ := writev_closed i (side := .w) hc e
        exact ⟨i, f, gone, by rw [hs]; simp, d⟩
      | false =>
        obtain ⟨x2, res2, e2, i2, f2, _, _, _, _, _, hr⟩ := C23_write i hc hm unsplit
        rw [e2] at e
        obtain ⟨rfl, rfl⟩ := Prod.mk.inj (R.ok.inj e)
        refine ⟨i2, f2 f, gone, ?_, d⟩
        cases hcr : x.r.closed with
        | true =>
          rw [hcr, if_pos rfl] at hr
          obtain ⟨rfl, t, _⟩ := hr
          rw [t, hs]; simp
        | false =>
          rw [hcr, if_neg (by decide)] at hr
          obtain ⟨hp, n, hn, t, hr⟩ := hr
          rw [t, hs, hp]
          have herr : ∀ z, res2 = .error z → sentToks (modeOf x) ((values src).take n) = [] := by
            intro z hz
            cases hmode : modeOf x with
            | true =>
              rw [hmode, if_pos rfl] at hr
              obtain ⟨_, hr⟩ := hr
              by_cases hn0 : n = (values src).length ∨ 0 < n
              · rw [if_pos hn0] at hr; rw [hr] at hz; cases hz
              · have : n = 0 := by omega
                subst this
                simp [sentToks, packets_nil]
            | false =>
              rw [hmode, if_neg (by decide)] at hr
              obtain ⟨hn', hr⟩ := hr
              by_cases hn0 : (values src).length ≠ 0 ∧ x.free = 0
              · have : n = 0 := by omega
                subst this
                simp [sentToks]
              · rw [if_neg hn0] at hr; rw [hr] at hz; cases hz
          have hok : ∀ k, res2 = .ok k → k = n := by
            intro k hk
            cases hmode : modeOf x with
            | true =>
              rw [hmode, if_pos rfl] at hr
              obtain ⟨_, hr⟩ := hr
              by_cases hn0 : n = (values src).length ∨ 0 < n
              · rw [if_pos hn0] at hr; rw [hr] at hk; injection hk with hk; exact hk.symm
              · rw [if_neg hn0] at hr; rw [hr] at hk; cases hk
            | false =>
              rw [hmode, if_neg (by decide)] at hr
              obtain ⟨hn', hr⟩ := hr
              by_cases hn0 : (values src).length ≠ 0 ∧ x.free = 0
              · rw [if_pos hn0] at hr; rw [hr] at hk; cases hk
              · rw [if_neg hn0] at hr; rw [hr] at hk; injection hk with hk; exact hk.symm
          cases hres : res2 with
          | error z => rw [herr z hres]; simp
          | ok k => rw [hok k hres]; simp
  | @direct x sent got side d0 _ ih =>
    obtain ⟨i, f, gone, hs, d⟩ := ih
    obtain ⟨i2, f2⟩ := setDirect_inv i side d0
    refine ⟨i2, f2 f, gone, ?_, d⟩
    cases side
    · exact hs
    · exact hs
  | @close x sent got side x' _ e ih =>
    obtain ⟨i, f, gone, hs, d⟩ := ih
    obtain ⟨x2, e2, i2, f2, t2, _⟩ := C23_close i side
    rw [e2] at e
    obtain rfl := R.ok.inj e
    exact ⟨i2, f2 f, gone, by rw [t2]; exact hs, d⟩

theorem delivers_bytes {got : List (List α)} {gone : List (Tok α)} (d : Delivers got gone) :
    ∀ bs, gone = bs.map .byte → got.flatten = bs := by
  induction d with
  | nil => intro bs h; cases bs with
    | nil => rfl
    | cons b bs => cases h
  | @bytes got ts b _ ih =>
    intro bs h
    obtain ⟨l1, l2, e1, e2, e3⟩ := List.map_eq_append_iff.1 h.symm
    have : l2 = b := by
      have hinj : ∀ (a c : List α), a.map Tok.byte = c.map Tok.byte → a = c := by
        intro a
        induction a with
        | nil => intro c hc; cases c with
          | nil => rfl
          | cons _ _ => cases hc
        | cons y ys ihy =>
          intro c hc
          cases c with
          | nil => cases hc
          | cons z zs =>
            injection hc with h1 h2
            injection h1 with h1
            rw [h1, ihy zs h2]
      exact hinj _ _ e3
    rw [List.flatten_append, ih l1 e2.symm, e1, this]
    simp
  | @pkt got ts b full _ _ ih =>
    intro bs h
    obtain ⟨l1, l2, e1, e2, e3⟩ := List.map_eq_append_iff.1 h.symm
    cases l2 with
    | nil => cases e3
    | cons z zs => cases e3

/-- **C23** (byte stream). If no write was made in packet mode: the bytes that reads returned, put together, are a
    prefix of the bytes written, and the rest is stored. -/
theorem C23_stream {maxLen : Nat} {x : World α} {bs : List α} {got : List (List α)} (h : Run maxLen x (bs.map .byte) got) :
    ∃ rest, bs = got.flatten ++ rest ∧ x.toks = rest.map .byte := by
  obtain ⟨_, _, gone, hs, d⟩ := C23_history h
  obtain ⟨l1, l2, e1, e2, e3⟩ := List.map_eq_append_iff.1 hs
  exact ⟨l2, by rw [e1, delivers_bytes d l1 e2.symm], e3.symm⟩

/-- **C23** (readiness flags). As long as all memory could be read and written: the read end is flagged readable
    exactly if something is stored or the write end is closed, and the write end is flagged writable exactly if there
    is space or the read end is closed. -/
theorem C23_flags {maxLen : Nat} {x : World α} {sent got} (h : Run maxLen x sent got) :
    (x.r.readable = true ↔ x.r.closed = false ∧ (x.toks ≠ [] ∨ x.w.closed = true)) ∧
    (x.w.writable = true ↔ x.w.closed = false ∧ (tokBytes x.toks < maxLen ∨ x.r.closed = true)) ∧
    x.r.writable = false ∧ x.w.readable = false := by
  obtain ⟨i, f, _⟩ := C23_history h
  obtain ⟨_, hm⟩ := reach_inv h.reach
  refine ⟨?_, ?_, i.r.writable (.inl rfl), i.w.readable (.inl rfl)⟩
  · cases hc : x.r.closed with
    | true => rw [i.r.readable (.inr hc)]; simp
    | false =>
      rw [(f.r hc).1 i.r.modeR]
      have hw := i.writers
      cases hcw : x.w.closed with
      | true => rw [hcw] at hw; simp [flags, hw]
      | false => rw [hcw] at hw; simp [flags, hw, World.toks]
  · cases hc : x.w.closed with
    | true => rw [i.w.writable (.inr hc)]; simp
    | false =>
      rw [(f.w hc).2 i.w.modeW]
      have hw := i.readers
      cases hcw : x.r.closed with
      | true => rw [hcw] at hw; simp [flags, hw]
      | false => rw [hcw] at hw; simp [flags, hw, World.toks, hm]

/-- **C23** (readable means that a read does not wait). A read of at least one byte reports `EAGAIN` exactly if the
    read end is not flagged readable. -/
theorem C23_readable {maxLen : Nat} {x : World α} {sent got} (h : Run maxLen x sent got) (ho : x.r.closed = false)
    {dst : List (List Bool)} (hw : Writable dst) (h0 : 0 < room dst) :
    ∃ x' out res, x.readv .r false dst = .ok (x', out, res) ∧ (res = .error .eagain ↔ x.r.readable = false) := by
  obtain ⟨i, _⟩ := C23_history h
  obtain ⟨x', res, e, _, _, _, _, _, hr, _⟩ := C23_read i ho hw
  refine ⟨x', _, res, e, ?_⟩
  have hf := (C23_flags h).1
  rw [ho] at hf
  rw [← Bool.not_eq_true, hf, hr]
  by_cases hx : x.toks = [] ∧ room dst ≠ 0 ∧ x.w.closed = false
  · rw [if_pos hx]
    simp [hx]
  · rw [if_neg hx]
    constructor
    · intro hh; cases hh
    · intro hh
      exact absurd ⟨Decidable.byContradiction fun hn => hh ⟨rfl, .inl hn⟩, by omega,
        by cases hc : x.w.closed with
          | false => rfl
          | true => exact absurd ⟨rfl, .inr hc⟩ hh⟩ hx

/-- **C23** (writable means that a write does not wait). In stream mode, a write of at least one byte reports
    `EAGAIN` exactly if the write end is not flagged writable. In packet mode it still holds that a write which stores
    something needs the flag. -/
theorem C23_writable {maxLen : Nat} {x : World α} {sent got} (h : Run maxLen x sent got) (ho : x.w.closed = false)
    {src : List (Src α)} (hm : Mapped src) (h0 : 0 < (values src).length) (unsplit : Nat → Bool) :
    ∃ x' res, x.writev .w false src unsplit = .ok (x', res) ∧
      (modeOf x = false → (res = .error .eagain ↔ x.w.writable = false)) ∧ (∀ n, res = .ok n → x.w.writable = true) := by
  obtain ⟨i, _⟩ := C23_history h
  obtain ⟨_, hml⟩ := reach_inv h.reach
  obtain ⟨x', res, e, i', _, _, _, _, _, hmx, hr⟩ := C23_write i ho hm unsplit
  refine ⟨x', res, e, ?_⟩
  have hf := (C23_flags h).2.1
  rw [ho] at hf
  have hfree : x.free = maxLen - tokBytes x.toks := by unfold World.free; rw [hml]
  cases hcr : x.r.closed with
  | true =>
    rw [hcr, if_pos rfl] at hr
    rw [hcr] at hf
    have hwt : x.w.writable = true := hf.2 ⟨rfl, .inr rfl⟩
    rw [hwt, hr.1]
    exact ⟨fun _ => ⟨fun hh => (by cases hh), fun hh => (by cases hh)⟩, fun _ _ => rfl⟩
  | false =>
    rw [hcr, if_neg (by decide)] at hr
    rw [hcr] at hf
    obtain ⟨_, n, hn, ht, hr⟩ := hr
    cases hmode : modeOf x with
    | false =>
      rw [hmode, if_neg (by decide)] at hr
      obtain ⟨_, hr⟩ := hr
      by_cases hx : x.free = 0
      · rw [if_pos ⟨by omega, hx⟩] at hr
        have : ¬ x.w.writable = true := by
          rw [hf]; rintro ⟨_, hh | hh⟩
          · omega
          · cases hh
        rw [hr]
        exact ⟨fun _ => ⟨fun _ => (by simpa using this), fun _ => rfl⟩, fun _ hh => (by cases hh)⟩
      · rw [if_neg (fun hh => hx hh.2)] at hr
        have : x.w.writable = true := hf.2 ⟨rfl, .inl (by omega)⟩
        rw [hr, this]
        exact ⟨fun _ => ⟨fun hh => (by cases hh), fun hh => (by cases hh)⟩, fun _ _ => rfl⟩
    | true =>
      refine ⟨fun hh => (by cases hh), ?_⟩
      rw [hmode, if_pos rfl] at hr
      intro k hk
      have hn0 : 0 < n := by
        obtain ⟨_, hr⟩ := hr
        by_cases hx : n = (values src).length ∨ 0 < n
        · omega
        · rw [if_neg hx] at hr; rw [hr] at hk; cases hk
      have hfit := i'.buf.fits
      rw [show x'.buf.queue.toks = x'.toks from rfl, ht, hmx, hml, tokBytes_append, hmode] at hfit
      refine hf.2 ⟨rfl, .inl ?_⟩
      have hpos : 0 < tokBytes (sentToks true ((values src).take n)) := by
        have hne : (values src).take n ≠ [] := by
          intro hh
          have := congrArg List.length hh
          rw [List.length_take] at this
          simp only [List.length_nil] at this
          omega
        unfold sentToks
        rw [if_pos rfl, packets_cons hne]
        have hp : pipeBuf = 4096 := rfl
        have : 0 < (((values src).take n).take pipeBuf).length := by
          rw [List.length_take]
          have := List.length_pos_iff.2 hne
          omega
        simp only [List.map_cons, tokBytes]
        omega
      omega

/-- **C23** (a write that fits is not split). In stream mode, a write of at most the free space stores all its bytes,
    next to each other. -/
theorem C23_no_split {maxLen : Nat} {x : World α} (h : Reach maxLen x) (ho : x.w.closed = false) (hr : x.r.closed = false)
    (hs : modeOf x = false) {src : List (Src α)} (hm : Mapped src) (hf : (values src).length ≤ x.free) (unsplit : Nat → Bool) :
    ∃ x', x.writev .w false src unsplit = .ok (x', .ok (values src).length) ∧ x'.toks = x.toks ++ (values src).map .byte := by
  obtain ⟨i, _⟩ := reach_inv h
  obtain ⟨x', res, e, _, _, _, _, _, _, _, hh⟩ := C23_write i ho hm unsplit
  rw [hr, if_neg (by decide), hs] at hh
  obtain ⟨_, n, _, ht, hh⟩ := hh
  rw [if_neg (by decide), Nat.min_eq_left hf] at hh
  obtain ⟨rfl, hh⟩ := hh
  rw [if_neg (by omega)] at hh
  refine ⟨x', by rw [e, hh], ?_⟩
  rw [ht, List.take_length]
  rfl

/-- **C23** (broken pipe). With the read end closed, every write fails with `EPIPE` and stores nothing. -/
theorem C23_epipe {maxLen : Nat} {x : World α} (h : Reach maxLen x) (ho : x.w.closed = false) (hr : x.r.closed = true)
    {src : List (Src α)} (hm : Mapped src) (unsplit : Nat → Bool) :
    ∃ x', x.writev .w false src unsplit = .ok (x', .error .epipe) ∧ x'.toks = x.toks := by
  obtain ⟨i, _⟩ := reach_inv h
  obtain ⟨x', res, e, _, _, _, _, _, _, _, hh⟩ := C23_write i ho hm unsplit
  rw [hr, if_pos rfl] at hh
  exact ⟨x', by rw [e, hh.1], hh.2.1⟩

/-- **C23** (wrong calls). A read of the write end, a write to the read end, and any call with an offset change nothing. -/
theorem C23_refused {maxLen : Nat} {x : World α} (h : Reach maxLen x) (side : Side) (offset : Bool) :
    (∀ {dst x' out res}, (offset = true ∨ side = .w) → x.readv side offset dst = .ok (x', out, res) →
      x' = x ∧ out = [] ∧ res = .error (if offset then .espipe else .ebadf)) ∧
    (∀ {src unsplit x' res}, (offset = true ∨ side = .r) → x.writev side offset src unsplit = .ok (x', res) →
      x' = x ∧ res = .error (if offset then .espipe else .ebadf)) := by
  obtain ⟨i, _⟩ := reach_inv h
  exact ⟨fun hx e => readv_refused i hx e, fun hx e => writev_refused i hx e⟩

end Shadow.Pipe
