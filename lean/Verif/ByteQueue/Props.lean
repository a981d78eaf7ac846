import Verif.ByteQueue.Model

/-!
# C24: the byte queue
-/
namespace Shadow.ByteQueue

open Shadow.Base

variable {α S W : Type}

/-! ### Specification -/

/-- What a queue holds: stream bytes and whole packets, in order. How stream bytes are stored in chunks is not
    visible here. -/
inductive Tok (α : Type) where
  | byte (b : α)
  | pkt (bs : List α)
deriving Repr, DecidableEq

def Chunk.toks (c : Chunk α) : List (Tok α) :=
  match c.kind with
  | .stream => c.data.map .byte
  | .packet => [.pkt c.data]

def Queue.toks (q : Queue α) : List (Tok α) := q.chunks.flatMap Chunk.toks

/-- The stream bytes before the first packet. -/
def lead : List (Tok α) → List α
  | .byte b :: ts => b :: lead ts
  | _ => []

/-- The number of bytes in the queue. -/
def tokBytes : List (Tok α) → Nat
  | [] => 0
  | .byte _ :: ts => 1 + tokBytes ts
  | .pkt bs :: ts => bs.length + tokBytes ts

/-- A reader returns at most what it was asked for. -/
def Reader.Sound (r : Reader α S) : Prop := ∀ s n s' bs, r.read s n = (s', some bs) → bs.length ≤ n

/-- A reader has at most `rem` more bytes. -/
def Reader.Finite (r : Reader α S) (rem : S → Nat) : Prop :=
  ∀ s n s' bs, r.read s n = (s', some bs) → rem s' + bs.length ≤ rem s

/-- The reader returns the bytes `bs` in a sequence of calls. -/
inductive Reads (r : Reader α S) : S → List α → S → Prop where
  | nil {s} : Reads r s [] s
  | cons {s n s' bs bs' s''} : r.read s n = (s', some bs) → Reads r s' bs' s'' → Reads r s (bs ++ bs') s''

/-- A reader of the bytes `data`, like a slice. -/
structure Reader.Like (r : Reader α S) (good : S → Prop) (data : S → List α) : Prop where
  step : ∀ s n, good s → ∃ s', r.read s n = (s', some ((data s).take n)) ∧ good s' ∧ data s' = (data s).drop n

/-- A writer does not claim to have taken more than it was given. -/
def Writer.Sound (wr : Writer α W) : Prop := ∀ w bs w' k, wr.write w bs = (w', .ok k) → k ≤ bs.length

/-- A writer with room for `cap` bytes, like a slice. -/
structure Writer.Like (wr : Writer α W) (good : W → Prop) (cap : W → Nat) : Prop where
  step : ∀ w bs, good w → ∃ w', wr.write w bs = (w', .ok (min (cap w) bs.length)) ∧ good w' ∧
    cap w' = cap w - min (cap w) bs.length

/-! ### Invariant -/

structure Inv (q : Queue α) : Prop where
  len : q.length = q.dataLength
  nonempty : ∀ c ∈ q.chunks, c.kind = .stream → c.data ≠ []
  unused : ∀ u, q.unused = some u → 0 < u
  cap : 0 < q.cap

theorem inv_new {cap : Nat} (h : 0 < cap) : Inv (Queue.new cap : Queue α) := by
  refine ⟨rfl, ?_, ?_, h⟩
  · intro c hc; cases hc
  · intro u hu; cases hu

theorem toks_append (c : Chunk α) (l : List (Chunk α)) :
    (l ++ [c]).flatMap Chunk.toks = l.flatMap Chunk.toks ++ c.toks := by simp

theorem tokBytes_append (a b : List (Tok α)) : tokBytes (a ++ b) = tokBytes a + tokBytes b := by
  induction a with
  | nil => simp [tokBytes]
  | cons t a ih => cases t <;> simp [tokBytes, ih] <;> omega

theorem tokBytes_bytes (bs : List α) : tokBytes (bs.map .byte) = bs.length := by
  induction bs with
  | nil => rfl
  | cons b bs ih => simp [tokBytes, ih]; omega

theorem tokBytes_toks (q : Queue α) : tokBytes q.toks = q.dataLength := by
  unfold Queue.toks Queue.dataLength
  induction q.chunks with
  | nil => rfl
  | cons c cs ih =>
    rw [List.flatMap_cons, tokBytes_append, ih, List.map_cons, List.sum_cons]
    congr 1
    cases hk : c.kind with
    | stream => simp [Chunk.toks, hk, tokBytes_bytes]
    | packet => simp [Chunk.toks, hk, tokBytes]

theorem dataLength_pushChunk (q : Queue α) (bs : List α) (k : Kind) (m : Bool) :
    (q.pushChunk bs k m).dataLength = q.dataLength + bs.length := by
  simp [Queue.pushChunk, Queue.dataLength]

theorem inv_pushChunk {q : Queue α} (h : Inv q) {bs : List α} {k : Kind} {m : Bool} (hne : k = .stream → bs ≠ []) :
    Inv (q.pushChunk bs k m) := by
  refine ⟨?_, ?_, h.unused, h.cap⟩
  · rw [dataLength_pushChunk, ← h.len]; rfl
  · intro c hc hk
    rcases List.mem_append.1 hc with hc | hc
    · exact h.nonempty c hc hk
    · rw [List.mem_singleton.1 hc] at hk ⊢; exact hne hk

theorem toks_pushChunk (q : Queue α) (bs : List α) (k : Kind) (m : Bool) :
    (q.pushChunk bs k m).toks = q.toks ++ (⟨bs, k, m⟩ : Chunk α).toks := by
  simp [Queue.pushChunk, Queue.toks]

theorem appendStream_spec {q : Queue α} (h : Inv q) {bs : List α} (hne : bs ≠ []) (u : Bool) :
    Inv (q.appendStream bs u) ∧ (q.appendStream bs u).toks = q.toks ++ bs.map .byte ∧
      (q.appendStream bs u).unused = q.unused ∧ (q.appendStream bs u).cap = q.cap := by
  unfold Queue.appendStream
  cases hl : q.chunks.getLast? with
  | none => exact ⟨inv_pushChunk h (fun _ => hne), toks_pushChunk .., rfl, rfl⟩
  | some c =>
    dsimp only
    by_cases hc : c.kind = .stream ∧ c.mutable = true ∧ u = true
    · rw [if_pos hc]
      obtain ⟨l, e⟩ := List.getLast?_eq_some_iff.1 hl
      refine ⟨⟨?_, ?_, h.unused, h.cap⟩, ?_, rfl, rfl⟩
      · have := h.len
        simp only [Queue.dataLength, e] at this ⊢
        simp at this ⊢
        omega
      · intro c' hc' hk
        rcases List.mem_append.1 hc' with hc' | hc'
        · exact h.nonempty c' (List.dropLast_subset _ hc') hk
        · rw [List.mem_singleton.1 hc']; simp [hne]
      · simp only [Queue.toks, e]
        simp [Chunk.toks, hc.1]
    · rw [if_neg hc]
      exact ⟨inv_pushChunk h (fun _ => hne), toks_pushChunk .., rfl, rfl⟩

theorem room_pos {q : Queue α} (h : Inv q) : 0 < q.unused.getD q.cap := by
  cases hu : q.unused with
  | none => exact h.cap
  | some u => exact h.unused u hu

theorem inv_unused {q : Queue α} (h : Inv q) (n : Nat) :
    Inv { q with unused := if n = 0 then none else some n } := by
  refine ⟨h.len, h.nonempty, ?_, h.cap⟩
  intro u hu
  by_cases hn : n = 0
  · simp [hn] at hu
  · simp [hn] at hu; omega

theorem pushLoop_spec {r : Reader α S} {rem : S → Nat} (hs : r.Sound) (hf : r.Finite rem) (unsplit : Nat → Bool) :
    ∀ (fuel : Nat) {q : Queue α} {s : S} (total : Nat), Inv q → rem s < fuel →
    ∃ q' s' res bs, q.pushLoop r unsplit fuel s total = .ok (q', s', res) ∧ Inv q' ∧
      q'.toks = q.toks ++ bs.map .byte ∧ (∀ n, res = some n → n = total + bs.length) ∧
      ∃ s1 n, Reads r s bs s1 ∧ 0 < n ∧ r.read s1 n = (s', if res = none then none else some []) := by
  intro fuel
  induction fuel with
  | zero => intro q s total _ hlt; omega
  | succ fuel ih =>
    intro q s total h hlt
    rw [Queue.pushLoop]
    have hroom := room_pos h
    generalize hR : q.unused.getD q.cap = room at *
    rcases hrd : r.read s room with ⟨s', res⟩
    cases res with
    | none =>
      refine ⟨_, s', none, [], rfl, ⟨h.len, h.nonempty, (fun u hu => by cases hu), h.cap⟩, ?_, (fun n hn => by cases hn), s, room, .nil, hroom, ?_⟩
      · exact (List.append_nil _).symm
      · rw [if_pos rfl]; exact hrd
    | some bs =>
      have hle := hs _ _ _ _ hrd
      have hfin := hf _ _ _ _ hrd
      dsimp only
      rw [decide_eq_true hle, R.assert_true, R.bind_ok]
      have h1 := inv_unused h (room - bs.length)
      by_cases hb : bs.length = 0
      · rw [if_pos hb]
        have hnil := List.length_eq_zero_iff.1 hb
        subst hnil
        refine ⟨_, s', some total, [], rfl, h1, ?_, ?_, s, room, .nil, hroom, ?_⟩
        · exact (List.append_nil _).symm
        · intro n hn; cases hn; rfl
        · rw [if_neg (by simp)]; exact hrd
      · rw [if_neg hb]
        have hne : bs ≠ [] := fun hh => hb (by rw [hh]; rfl)
        obtain ⟨i1, t1, u1, c1⟩ := appendStream_spec h1 hne (unsplit fuel)
        obtain ⟨q', s'', res, bs', e, i2, t2, n2, s1, n, r2, hn, rd⟩ := ih (s := s') (total + bs.length) i1 (by omega)
        refine ⟨q', s'', res, bs ++ bs', e, i2, ?_, ?_, s1, n, .cons hrd r2, hn, rd⟩
        · rw [t2, t1]; simp [Queue.toks]
        · intro n hn
          rw [n2 n hn]; simp; omega

/-- **C24** (`push_stream`). From any reader that ends, `push_stream` appends the bytes it reads, in order, whatever
    the chunks; it stops when the reader has no more or reports an error. If it succeeds it returns their number.
    It never panics. -/
theorem C24_push_stream {q : Queue α} (h : Inv q) {r : Reader α S} {rem : S → Nat} (hs : r.Sound) (hf : r.Finite rem)
    (unsplit : Nat → Bool) {s : S} {fuel : Nat} (hfuel : rem s < fuel) :
    ∃ q' s' res bs, q.pushStream r unsplit fuel s = .ok (q', s', res) ∧ Inv q' ∧
      q'.toks = q.toks ++ bs.map .byte ∧ (∀ n, res = some n → n = bs.length) ∧
      ∃ s1 n, Reads r s bs s1 ∧ 0 < n ∧ r.read s1 n = (s', if res = none then none else some []) := by
  obtain ⟨q', s', res, bs, e, i, t, n, x⟩ := pushLoop_spec hs hf unsplit fuel 0 h hfuel
  exact ⟨q', s', res, bs, e, i, t, fun k hk => by rw [n k hk]; omega, x⟩

theorem pushLoop_like {r : Reader α S} {good : S → Prop} {data : S → List α} (hl : r.Like good data) (unsplit : Nat → Bool) :
    ∀ (fuel : Nat) {q : Queue α} {s : S} (total : Nat), Inv q → good s → (data s).length < fuel →
    ∃ q' s', q.pushLoop r unsplit fuel s total = .ok (q', s', some (total + (data s).length)) ∧ Inv q' ∧
      q'.toks = q.toks ++ (data s).map .byte ∧ good s' ∧ data s' = [] := by
  intro fuel
  induction fuel with
  | zero => intro q s total _ _ hlt; omega
  | succ fuel ih =>
    intro q s total h hg hlt
    rw [Queue.pushLoop]
    have hroom := room_pos h
    generalize hR : q.unused.getD q.cap = room at *
    obtain ⟨s', hrd, hg', hd'⟩ := hl.step s room hg
    rw [hrd]
    dsimp only
    have hle : ((data s).take room).length ≤ room := by simp; omega
    rw [decide_eq_true hle, R.assert_true, R.bind_ok]
    have h1 := inv_unused h (room - ((data s).take room).length)
    by_cases hb : ((data s).take room).length = 0
    · rw [if_pos hb]
      have hnil : data s = [] := by
        rw [List.length_take] at hb
        exact List.length_eq_zero_iff.1 (by omega)
      refine ⟨_, s', ?_, h1, ?_, hg', ?_⟩
      · rw [hnil]; rfl
      · rw [hnil]; exact (List.append_nil _).symm
      · rw [hd', hnil]; exact List.drop_nil
    · rw [if_neg hb]
      have hne : (data s).take room ≠ [] := fun hh => hb (by rw [hh]; rfl)
      obtain ⟨i1, t1, u1, c1⟩ := appendStream_spec h1 hne (unsplit fuel)
      have hlen : (data s').length = (data s).length - room := by rw [hd', List.length_drop]
      have hlt' : ((data s).take room).length = min room (data s).length := List.length_take
      obtain ⟨q', s'', e, i2, t2, g2, d2⟩ := ih (s := s') (total + ((data s).take room).length) i1 hg' (by omega)
      refine ⟨q', s'', ?_, i2, ?_, g2, d2⟩
      · rw [e]
        have : total + ((data s).take room).length + (data s').length = total + (data s).length := by omega
        rw [this]
      · rw [t2, t1, hd', List.append_assoc, ← List.map_append, List.take_append_drop]; rfl

/-- **C24** (`push_stream` of a slice). All bytes are appended, and their number is returned. -/
theorem C24_push_slice {q : Queue α} (h : Inv q) {r : Reader α S} {good : S → Prop} {data : S → List α} (hl : r.Like good data)
    (unsplit : Nat → Bool) {s : S} (hg : good s) {fuel : Nat} (hfuel : (data s).length < fuel) :
    ∃ q' s', q.pushStream r unsplit fuel s = .ok (q', s', some (data s).length) ∧ Inv q' ∧
      q'.toks = q.toks ++ (data s).map .byte ∧ good s' ∧ data s' = [] := by
  have := pushLoop_like hl unsplit fuel 0 h hg hfuel
  rwa [Nat.zero_add] at this

theorem readExact_spec {r : Reader α S} (hs : r.Sound) : ∀ (fuel n : Nat) {s s' : S} {bs : List α}, n ≤ fuel →
    readExact r fuel s n = (s', some bs) → bs.length = n ∧ Reads r s bs s' := by
  intro fuel
  induction fuel with
  | zero =>
    intro n s s' bs hn h
    have : n = 0 := by omega
    subst this
    rw [readExact] at h; cases h; exact ⟨rfl, .nil⟩
  | succ fuel ih =>
    intro n s s' bs hn h
    cases n with
    | zero => rw [readExact] at h; cases h; exact ⟨rfl, .nil⟩
    | succ n =>
      rw [readExact] at h
      rcases hr : r.read s (n + 1) with ⟨s1, res⟩
      rw [hr] at h
      cases res with
      | none => cases h
      | some l =>
        cases l with
        | nil => cases h
        | cons b l =>
          have hle := hs _ _ _ _ hr
          dsimp only at h
          rcases hx : readExact r fuel s1 (n + 1 - (b :: l).length) with ⟨s2, res2⟩
          rw [hx] at h
          cases res2 with
          | none => cases h
          | some rest =>
            have he := Prod.ext_iff.1 h
            obtain rfl : s2 = s' := he.1
            obtain rfl : b :: l ++ rest = bs := Option.some.inj he.2
            have hlen : (b :: l).length = l.length + 1 := rfl
            obtain ⟨e1, e2⟩ := ih (n + 1 - (b :: l).length) (by omega) hx
            exact ⟨by rw [List.length_append, e1]; omega, .cons hr e2⟩

theorem readExact_like {r : Reader α S} {good : S → Prop} {data : S → List α} (hl : r.Like good data) :
    ∀ (fuel n : Nat) {s : S}, n ≤ fuel → good s → n ≤ (data s).length →
    ∃ s', readExact r fuel s n = (s', some ((data s).take n)) ∧ good s' ∧ data s' = (data s).drop n := by
  intro fuel n s hf hg hn
  cases n with
  | zero =>
    refine ⟨s, ?_, hg, rfl⟩
    cases fuel <;> rw [readExact] <;> simp
  | succ n =>
    cases fuel with
    | zero => omega
    | succ fuel =>
      obtain ⟨s1, e, g, d⟩ := hl.step s (n + 1) hg
      rw [readExact, e]
      cases ht : (data s).take (n + 1) with
      | nil =>
        have := congrArg List.length ht
        rw [List.length_take, List.length_nil] at this
        omega
      | cons b l =>
        dsimp only
        have hlen : (b :: l).length = n + 1 := by rw [← ht, List.length_take]; omega
        have hz : n + 1 - (b :: l).length = 0 := by omega
        rw [hz]
        refine ⟨s1, ?_, g, d⟩
        cases fuel <;> rw [readExact] <;> simp

/-- **C24** (`push_packet`). The packet holds exactly `size` bytes that the reader returned, and is one packet;
    if the reader ends too early or fails, the contents do not change. -/
theorem C24_push_packet {q : Queue α} (h : Inv q) {r : Reader α S} (hs : r.Sound) {s : S} {size : Nat}
    {q' s' ok} (e : q.pushPacket r s size = (q', s', ok)) :
    Inv q' ∧ (ok = true → ∃ bs, bs.length = size ∧ Reads r s bs s' ∧ q'.toks = q.toks ++ [.pkt bs]) ∧
      (ok = false → q'.toks = q.toks) := by
  unfold Queue.pushPacket at e
  rcases hx : readExact r size s size with ⟨s1, res⟩
  rw [hx] at e
  cases res with
  | none =>
    cases e
    exact ⟨h, fun hh => (by cases hh), fun _ => rfl⟩
  | some bs =>
    obtain ⟨e1, e2⟩ := readExact_spec hs size size (Nat.le_refl _) hx
    dsimp only at e
    cases e
    refine ⟨?_, ?_, (fun hh => by cases hh)⟩
    · apply inv_pushChunk _ (fun hh => by cases hh)
      refine ⟨h.len, h.nonempty, ?_, h.cap⟩
      intro u hu
      dsimp only at hu
      cases hq : q.unused with
      | none => rw [hq] at hu; cases hu
      | some v =>
        rw [hq] at hu
        dsimp only at hu
        have := h.unused v hq
        by_cases h1 : v ≥ size
        · rw [if_pos h1] at hu
          by_cases h2 : v - size = 0
          · rw [if_pos h2] at hu; cases hu
          · rw [if_neg h2] at hu; cases hu; omega
        · rw [if_neg h1] at hu; cases hu; exact this
    · intro _
      exact ⟨bs, e1, e2, by rw [toks_pushChunk]; rfl⟩

theorem pushPacket_like {q : Queue α} {r : Reader α S} {good : S → Prop} {data : S → List α} (hl : r.Like good data)
    {s : S} (hg : good s) {size : Nat} (hn : size ≤ (data s).length) :
    ∃ q' s', q.pushPacket r s size = (q', s', true) ∧ q'.toks = q.toks ++ [.pkt ((data s).take size)] ∧ good s' ∧
      data s' = (data s).drop size := by
  obtain ⟨s', e, g, d⟩ := readExact_like hl size size (Nat.le_refl _) hg hn
  unfold Queue.pushPacket
  rw [e]
  exact ⟨_, s', rfl, by rw [toks_pushChunk]; rfl, g, d⟩


/-! ### Popping -/

theorem lead_bytes (bs : List α) (ts : List (Tok α)) : lead (bs.map .byte ++ ts) = bs ++ lead ts := by
  induction bs with
  | nil => rfl
  | cons b bs ih => simp [lead, ih]

theorem toks_cons (q : Queue α) (c : Chunk α) (rest : List (Chunk α)) (e : q.chunks = c :: rest) :
    q.toks = c.toks ++ rest.flatMap Chunk.toks := by simp [Queue.toks, e]

/-- Taking `k` bytes from the front chunk. -/
theorem popFront_spec {q : Queue α} (h : Inv q) {c : Chunk α} {rest : List (Chunk α)} (e : q.chunks = c :: rest)
    (hk : c.kind = .stream) {k : Nat} (hle : k ≤ c.data.length) :
    k ≤ q.length ∧ ∃ q', q' = { q with length := q.length - k
                                       chunks := if (c.data.drop k).isEmpty then rest else { c with data := c.data.drop k } :: rest } ∧
      Inv q' ∧ q.toks = (c.data.take k).map .byte ++ q'.toks ∧ q'.dataLength = q.dataLength - k ∧ k ≤ q.dataLength := by
  have hlen := h.len
  have hd : q.dataLength = c.data.length + (rest.map (·.data.length)).sum := by simp [Queue.dataLength, e]
  refine ⟨by omega, _, rfl, ?_, ?_, ?_, by omega⟩
  · refine ⟨?_, ?_, h.unused, h.cap⟩
    · by_cases he : (c.data.drop k).isEmpty = true
      · have : c.data.length ≤ k := List.drop_eq_nil_iff.1 (List.isEmpty_iff.1 he)
        simp only [he, Queue.dataLength, if_true]
        omega
      · simp only [he, Queue.dataLength]
        simp
        omega
    · intro c' hc' hk'
      by_cases he : (c.data.drop k).isEmpty = true
      · simp only [he, if_true] at hc'
        exact h.nonempty c' (by rw [e]; exact List.mem_cons_of_mem _ hc') hk'
      · simp only [he] at hc'
        rcases List.mem_cons.1 hc' with hc' | hc'
        · rw [hc']
          intro hh
          rw [show c.data.drop k = [] from hh] at he
          exact he rfl
        · exact h.nonempty c' (by rw [e]; exact List.mem_cons_of_mem _ hc') hk'
  · rw [toks_cons q c rest e]
    have hct : c.toks = c.data.map .byte := by simp [Chunk.toks, hk]
    have hsplit : c.data.map (Tok.byte) = (c.data.take k).map .byte ++ (c.data.drop k).map .byte := by
      rw [← List.map_append, List.take_append_drop]
    rw [hct, hsplit, List.append_assoc]
    congr 1
    by_cases he : (c.data.drop k).isEmpty = true
    · simp only [he, Queue.toks, if_true]
      rw [List.isEmpty_iff.1 he]; rfl
    · simp only [he, Queue.toks]
      simp [Chunk.toks, hk]
  · by_cases he : (c.data.drop k).isEmpty = true
    · have : c.data.length ≤ k := List.drop_eq_nil_iff.1 (List.isEmpty_iff.1 he)
      simp only [he, Queue.dataLength, if_true]
      simp only [Queue.dataLength] at hd
      omega
    · simp only [he, Queue.dataLength]
      simp only [Queue.dataLength] at hd
      simp
      omega

/-- `pop_stream` with any writer: the bytes that the writer took are the first stream bytes of the queue. -/
theorem popStream_spec {wr : Writer α W} (hs : wr.Sound) : ∀ (fuel : Nat) {q : Queue α} {w : W} (out : List α), Inv q →
    q.dataLength < fuel → ∃ g bs, q.popStream wr fuel w out = .ok g ∧ g.out = out ++ bs ∧
      q.toks = bs.map .byte ++ g.queue.toks ∧ Inv g.queue ∧ (∀ n, g.res = .ok n → n = g.out.length) := by
  intro fuel
  induction fuel with
  | zero => intro q w out _ hf; omega
  | succ fuel ih =>
    intro q w out h hf
    rw [Queue.popStream]
    cases hc : q.chunks with
    | nil => exact ⟨_, [], rfl, (List.append_nil _).symm, rfl, h, fun n hn => by cases hn; rfl⟩
    | cons c rest =>
      dsimp only
      by_cases hk : c.kind = .stream
      · rw [if_neg (by simp [hk])]
        rcases hw : wr.write w c.data with ⟨w', res⟩
        cases res with
        | err => exact ⟨_, [], rfl, (List.append_nil _).symm, rfl, h, fun n hn => by cases hn⟩
        | wouldBlock =>
          refine ⟨_, [], rfl, (List.append_nil _).symm, rfl, h, ?_⟩
          intro n hn
          by_cases h0 : out.length = 0
          · rw [if_pos h0] at hn; cases hn
          · rw [if_neg h0] at hn; cases hn; rfl
        | ok k =>
          have hle := hs _ _ _ _ hw
          dsimp only
          rw [decide_eq_true hle, R.assert_true, R.bind_ok]
          by_cases h0 : k = 0
          · rw [if_pos h0]
            exact ⟨_, [], rfl, (List.append_nil _).symm, rfl, h, fun n hn => by cases hn; rfl⟩
          · rw [if_neg h0]
            obtain ⟨hkl, q', eq', i', t', d', kd⟩ := popFront_spec h hc hk hle
            rw [decide_eq_true hkl, R.assert_true, R.bind_ok, ← eq']
            obtain ⟨g, bs, e, eo, et, ei, en⟩ := ih (w := w') (out ++ c.data.take k) i' (by omega)
            refine ⟨g, c.data.take k ++ bs, e, by rw [eo, List.append_assoc], ?_, ei, en⟩
            rw [t', et, List.map_append, List.append_assoc]
      · rw [if_pos (by simp [hk])]
        exact ⟨_, [], rfl, (List.append_nil _).symm, rfl, h, fun n hn => by cases hn; rfl⟩

theorem lead_of_packet {q : Queue α} {c : Chunk α} {rest} (e : q.chunks = c :: rest) (hk : c.kind ≠ .stream) : lead q.toks = [] := by
  rw [toks_cons q c rest e]
  cases hh : c.kind with
  | stream => exact absurd hh hk
  | packet => simp [Chunk.toks, hh, lead]

/-- `pop_stream` with a writer of known room: it takes as many stream bytes as there are and fit. -/
theorem popStream_like {wr : Writer α W} {good : W → Prop} {cap : W → Nat} (hl : wr.Like good cap) :
    ∀ (fuel : Nat) {q : Queue α} {w : W} (out : List α), Inv q → good w → q.dataLength < fuel →
    ∃ g, q.popStream wr fuel w out = .ok g ∧ g.out = out ++ (lead q.toks).take (cap w) ∧ g.res = .ok g.out.length ∧
      q.toks = ((lead q.toks).take (cap w)).map .byte ++ g.queue.toks ∧ Inv g.queue ∧ good g.writer := by
  intro fuel
  induction fuel with
  | zero => intro q w out _ _ hf; omega
  | succ fuel ih =>
    intro q w out h hg hf
    rw [Queue.popStream]
    cases hc : q.chunks with
    | nil =>
      have hz : q.toks = [] := by simp [Queue.toks, hc]
      exact ⟨_, rfl, by rw [hz]; simp [lead], rfl, by rw [hz]; simp [lead], h, hg⟩
    | cons c rest =>
      dsimp only
      by_cases hk : c.kind = .stream
      · rw [if_neg (by simp [hk])]
        obtain ⟨w', e, g', c'⟩ := hl.step w c.data hg
        rw [e]
        dsimp only
        have hle : min (cap w) c.data.length ≤ c.data.length := Nat.min_le_right ..
        rw [decide_eq_true hle, R.assert_true, R.bind_ok]
        have hne := h.nonempty c (by rw [hc]; exact List.mem_cons_self ..) hk
        have hpos : 0 < c.data.length := List.length_pos_iff.2 hne
        by_cases h0 : min (cap w) c.data.length = 0
        · rw [if_pos h0]
          have hc0 : cap w = 0 := by omega
          exact ⟨_, rfl, by rw [hc0]; simp, rfl, by rw [hc0]; simp, h, g'⟩
        · rw [if_neg h0]
          obtain ⟨hkl, q', eq', i', t', d', kd⟩ := popFront_spec h hc hk hle
          rw [decide_eq_true hkl, R.assert_true, R.bind_ok, ← eq']
          obtain ⟨g, e1, eo, en, et, ei, eg⟩ := ih (w := w') (out ++ c.data.take (min (cap w) c.data.length)) i' g' (by omega)
          have hlead : lead q.toks = c.data.take (min (cap w) c.data.length) ++ lead q'.toks := by rw [t', lead_bytes]
          have htake : (lead q.toks).take (cap w) = c.data.take (min (cap w) c.data.length) ++ (lead q'.toks).take (cap w') := by
            rw [hlead, List.take_append, List.length_take, c']
            congr 1
            · rw [List.take_of_length_le]
              rw [List.length_take]; omega
            · congr 1; omega
          refine ⟨g, e1, ?_, en, ?_, ei, eg⟩
          · rw [eo, htake, List.append_assoc]
          · rw [htake, List.map_append, List.append_assoc, ← et]
            exact t'
      · rw [if_pos (by simp [hk])]
        have hz := lead_of_packet hc hk
        exact ⟨_, rfl, by rw [hz]; simp, rfl, by rw [hz]; simp, h, hg⟩

theorem packetLoop_spec {wr : Writer α W} (hs : wr.Sound) (hb : ∀ w bs, (wr.write w bs).2 ≠ .wouldBlock) :
    ∀ (fuel : Nat) {w : W} {bytes out : List α}, bytes.length < fuel →
    ∃ w' bs res, packetLoop wr fuel w bytes out = .ok (w', out ++ bs, res) ∧ bs <+: bytes ∧
      (∀ n, res = some n → n = (out ++ bs).length) := by
  intro fuel
  induction fuel with
  | zero => intro w bytes out hf; omega
  | succ fuel ih =>
    intro w bytes out hf
    rw [packetLoop]
    rcases hw : wr.write w bytes with ⟨w', res⟩
    cases res with
    | err => exact ⟨w', [], none, by rw [List.append_nil], List.nil_prefix, fun n hn => by cases hn⟩
    | wouldBlock => exact absurd (by rw [hw]) (hb w bytes)
    | ok k =>
      have hle := hs _ _ _ _ hw
      dsimp only
      rw [decide_eq_true hle, R.assert_true, R.bind_ok]
      by_cases h0 : k = 0
      · rw [if_pos h0]
        exact ⟨w', [], some out.length, by rw [List.append_nil]; rfl, List.nil_prefix, fun n hn => by cases hn; rw [List.append_nil]⟩
      · rw [if_neg h0]
        obtain ⟨w2, bs, res, e, hp, hn⟩ := ih (w := w') (bytes := bytes.drop k) (out := out ++ bytes.take k) (by rw [List.length_drop]; omega)
        refine ⟨w2, bytes.take k ++ bs, res, by rw [e, List.append_assoc], ?_, ?_⟩
        · obtain ⟨t, ht⟩ := hp
          exact ⟨t, by rw [List.append_assoc, ht, List.take_append_drop]⟩
        · intro n h1
          rw [hn n h1, List.append_assoc]

theorem packetLoop_like {wr : Writer α W} {good : W → Prop} {cap : W → Nat} (hl : wr.Like good cap) :
    ∀ (fuel : Nat) {w : W} {bytes out : List α}, good w → bytes.length < fuel →
    ∃ w', packetLoop wr fuel w bytes out = .ok (w', out ++ bytes.take (cap w), some (out ++ bytes.take (cap w)).length) ∧ good w' := by
  intro fuel
  induction fuel with
  | zero => intro w bytes out _ hf; omega
  | succ fuel ih =>
    intro w bytes out hg hf
    rw [packetLoop]
    obtain ⟨w', e, g', c'⟩ := hl.step w bytes hg
    rw [e]
    dsimp only
    have hle : min (cap w) bytes.length ≤ bytes.length := Nat.min_le_right ..
    rw [decide_eq_true hle, R.assert_true, R.bind_ok]
    by_cases h0 : min (cap w) bytes.length = 0
    · rw [if_pos h0]
      have : bytes.take (cap w) = [] := by
        rw [List.take_eq_nil_iff]
        rcases Nat.eq_zero_or_pos (cap w) with h | h
        · exact .inl h
        · exact .inr (List.length_eq_zero_iff.1 (by omega))
      exact ⟨w', by rw [this, List.append_nil]; rfl, g'⟩
    · rw [if_neg h0]
      obtain ⟨w2, e2, g2⟩ := ih (w := w') (bytes := bytes.drop (min (cap w) bytes.length)) (out := out ++ bytes.take (min (cap w) bytes.length))
        g' (by rw [List.length_drop]; omega)
      have : out ++ bytes.take (min (cap w) bytes.length) ++ (bytes.drop (min (cap w) bytes.length)).take (cap w') = out ++ bytes.take (cap w) := by
        rw [List.append_assoc]
        congr 1
        rcases Nat.le_total (cap w) bytes.length with h | h
        · rw [Nat.min_eq_left h] at c' ⊢
          rw [c', Nat.sub_self, List.take_zero, List.append_nil]
        · rw [Nat.min_eq_right h, List.drop_length, List.take_length, List.take_nil, List.append_nil, List.take_of_length_le h]
      rw [this] at e2
      exact ⟨w2, e2, g2⟩

/-- What a `pop` with room for `n` bytes returns: the bytes, how many were removed, and of which kind; and what
    is left. A packet is removed whole. -/
def specPop : List (Tok α) → Nat → List α × PopRes × List (Tok α)
  | [], _ => ([], .none, [])
  | .pkt bs :: ts, n => (bs.take n, .some (min n bs.length) bs.length .packet, ts)
  | .byte b :: ts, n =>
    let out := (lead (.byte b :: ts)).take n
    (out, .some out.length out.length .stream, (Tok.byte b :: ts).drop out.length)

theorem toks_stream {q : Queue α} (h : Inv q) {c : Chunk α} {rest} (e : q.chunks = c :: rest) (hk : c.kind = .stream) :
    ∃ b ts, q.toks = .byte b :: ts := by
  rw [toks_cons q c rest e]
  have hne := h.nonempty c (by rw [e]; exact List.mem_cons_self ..) hk
  cases hd : c.data with
  | nil => exact absurd hd hne
  | cons b bs => exact ⟨b, bs.map .byte ++ rest.flatMap Chunk.toks, by simp [Chunk.toks, hk, hd]⟩

/-- **C24** (`pop`). With a destination that has room for `n` bytes, `pop` returns the next stream bytes, as many as
    there are before the next packet and as fit; or the next packet, whole or cut to the room, with the rest of it
    discarded. It never merges packets with anything, and never panics. -/
theorem C24_pop {q : Queue α} (h : Inv q) {wr : Writer α W} {good : W → Prop} {cap : W → Nat} (hl : wr.Like good cap)
    {w : W} (hg : good w) :
    ∃ g, q.pop wr w = .ok g ∧ Inv g.queue ∧ good g.writer ∧ (g.out, g.res, g.queue.toks) = specPop q.toks (cap w) := by
  unfold Queue.pop
  cases hc : q.chunks with
  | nil =>
    refine ⟨_, rfl, h, hg, ?_⟩
    have hz : q.toks = [] := by simp [Queue.toks, hc]
    simp [hz, specPop]
  | cons c rest =>
    dsimp only
    cases hk : c.kind with
    | stream =>
      obtain ⟨g, e, eo, en, et, ei, eg⟩ := popStream_like hl (q.dataLength + 1) [] h hg (Nat.lt_succ_self _)
      dsimp only
      rw [e, R.bind_ok]
      refine ⟨_, rfl, ei, eg, ?_⟩
      obtain ⟨b, ts, hb⟩ := toks_stream h hc hk
      rw [List.nil_append] at eo
      rw [hb] at eo et ⊢
      simp only [specPop, ← eo, en, streamRes]
      rw [← eo] at et
      congr 2
      rw [et, List.drop_append_of_le_length (by simp)]
      simp
    | packet =>
      have hlen := h.len
      have hd : q.dataLength = c.data.length + (rest.map (·.data.length)).sum := by simp [Queue.dataLength, hc]
      have hle : c.data.length ≤ q.length := by omega
      dsimp only
      rw [decide_eq_true hle, R.assert_true, R.bind_ok]
      obtain ⟨w', e, g⟩ := packetLoop_like hl (c.data.length + 1) (bytes := c.data) (out := []) hg (Nat.lt_succ_self _)
      rw [e, R.bind_ok]
      refine ⟨_, rfl, ⟨?_, ?_, h.unused, h.cap⟩, g, ?_⟩
      · simp only [Queue.dataLength]
        omega
      · intro c' hc' hk'
        exact h.nonempty c' (by rw [hc]; exact List.mem_cons_of_mem _ hc') hk'
      · rw [toks_cons q c rest hc]
        simp [Chunk.toks, hk, specPop, packetRes, Queue.toks]

/-- **C24** (`pop` with any writer). Whatever the writer does (short writes, errors), the bytes it took are the next
    bytes of the queue, and only these, or the packet they begin, are gone. -/
theorem C24_pop_any {q : Queue α} (h : Inv q) {wr : Writer α W} (hs : wr.Sound) (hb : ∀ w bs, (wr.write w bs).2 ≠ .wouldBlock)
    (w : W) : ∃ g, q.pop wr w = .ok g ∧ Inv g.queue ∧
      (q.toks = g.out.map .byte ++ g.queue.toks ∨ ∃ bs, g.out <+: bs ∧ q.toks = .pkt bs :: g.queue.toks) := by
  unfold Queue.pop
  cases hc : q.chunks with
  | nil => exact ⟨_, rfl, h, .inl rfl⟩
  | cons c rest =>
    dsimp only
    cases hk : c.kind with
    | stream =>
      obtain ⟨g, bs, e, eo, et, ei, en⟩ := popStream_spec hs (q.dataLength + 1) (w := w) [] h (Nat.lt_succ_self _)
      dsimp only
      rw [e, R.bind_ok]
      rw [List.nil_append] at eo
      exact ⟨_, rfl, ei, .inl (by rw [et, ← eo])⟩
    | packet =>
      have hlen := h.len
      have hd : q.dataLength = c.data.length + (rest.map (·.data.length)).sum := by simp [Queue.dataLength, hc]
      have hle : c.data.length ≤ q.length := by omega
      dsimp only
      rw [decide_eq_true hle, R.assert_true, R.bind_ok]
      obtain ⟨w', bs, res, e, hp, _⟩ := packetLoop_spec hs hb (c.data.length + 1) (w := w) (bytes := c.data) (out := []) (Nat.lt_succ_self _)
      rw [e, R.bind_ok]
      refine ⟨_, rfl, ⟨?_, ?_, h.unused, h.cap⟩, .inr ⟨c.data, ?_, ?_⟩⟩
      · simp only [Queue.dataLength]
        omega
      · intro c' hc' hk'
        exact h.nonempty c' (by rw [hc]; exact List.mem_cons_of_mem _ hc') hk'
      · exact hp
      · rw [toks_cons q c rest hc]
        simp [Chunk.toks, hk, Queue.toks]

/-! ### Peeking -/

theorem peekChunk_like {wr : Writer α W} {good : W → Prop} {cap : W → Nat} (hl : wr.Like good cap) :
    ∀ (fuel : Nat) {w : W} {bytes out : List α}, good w → bytes.length < fuel →
    ∃ w', peekChunk wr fuel w bytes out = .ok (w', out ++ bytes.take (cap w), none) ∧ good w' ∧
      cap w' = cap w - min (cap w) bytes.length := by
  intro fuel
  induction fuel with
  | zero => intro w bytes out _ hf; omega
  | succ fuel ih =>
    intro w bytes out hg hf
    rw [peekChunk]
    obtain ⟨w', e, g', c'⟩ := hl.step w bytes hg
    rw [e]
    dsimp only
    have hle : min (cap w) bytes.length ≤ bytes.length := Nat.min_le_right ..
    rw [decide_eq_true hle, R.assert_true, R.bind_ok]
    by_cases h0 : min (cap w) bytes.length = 0
    · rw [if_pos h0]
      have : bytes.take (cap w) = [] := by
        rw [List.take_eq_nil_iff]
        rcases Nat.eq_zero_or_pos (cap w) with h | h
        · exact .inl h
        · exact .inr (List.length_eq_zero_iff.1 (by omega))
      exact ⟨w', by rw [this, List.append_nil]; rfl, g', c'⟩
    · rw [if_neg h0]
      obtain ⟨w2, e2, g2, c2⟩ := ih (w := w') (bytes := bytes.drop (min (cap w) bytes.length)) (out := out ++ bytes.take (min (cap w) bytes.length))
        g' (by rw [List.length_drop]; omega)
      have : out ++ bytes.take (min (cap w) bytes.length) ++ (bytes.drop (min (cap w) bytes.length)).take (cap w') = out ++ bytes.take (cap w) := by
        rw [List.append_assoc]
        congr 1
        rcases Nat.le_total (cap w) bytes.length with h | h
        · rw [Nat.min_eq_left h] at c' ⊢
          rw [c', Nat.sub_self, List.take_zero, List.append_nil]
        · rw [Nat.min_eq_right h, List.drop_length, List.take_length, List.take_nil, List.append_nil, List.take_of_length_le h]
      rw [this] at e2
      refine ⟨w2, e2, g2, ?_⟩
      rw [c2, c', List.length_drop]
      omega

theorem peekStream_like {wr : Writer α W} {good : W → Prop} {cap : W → Nat} (hl : wr.Like good cap) :
    ∀ (cs : List (Chunk α)) {w : W} (out : List α), good w →
    ∃ w', peekStream wr cs w out = .ok (w', out ++ (lead (cs.flatMap Chunk.toks)).take (cap w),
      .ok (out ++ (lead (cs.flatMap Chunk.toks)).take (cap w)).length) ∧ good w' := by
  intro cs
  induction cs with
  | nil => intro w out hg; exact ⟨w, by simp [peekStream, lead], hg⟩
  | cons c rest ih =>
    intro w out hg
    rw [peekStream]
    cases hk : c.kind with
    | packet =>
      rw [if_pos (by simp)]
      refine ⟨w, ?_, hg⟩
      simp [Chunk.toks, hk, lead]
    | stream =>
      rw [if_neg (by simp)]
      obtain ⟨w', e, g', c'⟩ := peekChunk_like hl (c.data.length + 1) (bytes := c.data) (out := out) hg (Nat.lt_succ_self _)
      rw [e, R.bind_ok]
      dsimp only
      obtain ⟨w2, e2, g2⟩ := ih (w := w') (out ++ c.data.take (cap w)) g'
      refine ⟨w2, ?_, g2⟩
      rw [e2]
      have : out ++ c.data.take (cap w) ++ (lead (rest.flatMap Chunk.toks)).take (cap w') =
          out ++ (lead ((c :: rest).flatMap Chunk.toks)).take (cap w) := by
        rw [List.flatMap_cons, show c.toks = c.data.map .byte by simp [Chunk.toks, hk], lead_bytes, List.append_assoc,
          List.take_append, c']
        congr 3
        omega
      rw [this]

/-- **C24** (`peek`). `peek` returns what `pop` with the same destination would, and does not change the queue. -/
theorem C24_peek {q : Queue α} (h : Inv q) {wr : Writer α W} {good : W → Prop} {cap : W → Nat} (hl : wr.Like good cap)
    {w : W} (hg : good w) :
    ∃ g g', q.peek wr w = .ok g ∧ g.queue = q ∧ q.pop wr w = .ok g' ∧ g.out = g'.out ∧ g.res = g'.res ∧
      (g.out, g.res) = ((specPop q.toks (cap w)).1, (specPop q.toks (cap w)).2.1) := by
  obtain ⟨p, ep, _, _, es⟩ := C24_pop h hl hg
  suffices hh : ∃ g, q.peek wr w = .ok g ∧ g.queue = q ∧
      (g.out, g.res) = ((specPop q.toks (cap w)).1, (specPop q.toks (cap w)).2.1) by
    obtain ⟨g, e1, e2, e3⟩ := hh
    rw [← es] at e3
    obtain ⟨e4, e5⟩ := Prod.mk.inj e3
    exact ⟨g, p, e1, e2, ep, e4, e5, by rw [← es, e4, e5]⟩
  unfold Queue.peek
  cases hc : q.chunks with
  | nil =>
    refine ⟨_, rfl, rfl, ?_⟩
    have hz : q.toks = [] := by simp [Queue.toks, hc]
    simp [hz, specPop]
  | cons c rest =>
    dsimp only
    cases hk : c.kind with
    | stream =>
      obtain ⟨w', e, _⟩ := peekStream_like hl (c :: rest) [] hg
      dsimp only
      rw [e, R.bind_ok]
      refine ⟨_, rfl, rfl, ?_⟩
      obtain ⟨b, ts, hb⟩ := toks_stream h hc hk
      have : (c :: rest).flatMap Chunk.toks = q.toks := by rw [Queue.toks, hc]
      rw [this]
      dsimp only
      rw [hb]
      simp [specPop, streamRes]
    | packet =>
      obtain ⟨w', e, g⟩ := packetLoop_like hl (c.data.length + 1) (bytes := c.data) (out := []) hg (Nat.lt_succ_self _)
      dsimp only
      rw [e, R.bind_ok]
      refine ⟨_, rfl, rfl, ?_⟩
      rw [toks_cons q c rest hc]
      simp [Chunk.toks, hk, specPop, packetRes]

/-! ### Counts -/

/-- **C24** (counts). The reported number of bytes is the number of bytes stored; there is a chunk exactly if
    something is stored. -/
theorem C24_counts {q : Queue α} (h : Inv q) :
    q.numBytes = tokBytes q.toks ∧ (q.hasBytes = true ↔ 0 < tokBytes q.toks) ∧ (q.hasChunks = true ↔ q.toks ≠ []) := by
  have h1 : q.numBytes = tokBytes q.toks := by rw [tokBytes_toks]; exact h.len
  refine ⟨h1, by simp [Queue.hasBytes, h1], ?_⟩
  unfold Queue.hasChunks
  cases hc : q.chunks with
  | nil => simp [Queue.toks, hc]
  | cons c rest =>
    simp only [List.isEmpty_cons, Bool.not_false, true_iff]
    cases hk : c.kind with
    | stream =>
      obtain ⟨b, ts, hb⟩ := toks_stream h hc hk
      rw [hb]
      simp
    | packet =>
      rw [toks_cons q c rest hc]
      simp [Chunk.toks, hk]

/-- **C24** (`pop_chunk`). It returns a prefix of the stream bytes, at most `sizeHint` of them, or a whole packet. -/
theorem C24_pop_chunk {q : Queue α} (h : Inv q) (n : Nat) :
    ∃ q' r, q.popChunk n = .ok (q', r) ∧ Inv q' ∧
      match r with
      | none => q.toks = [] ∧ q' = q
      | some (bs, .packet) => q.toks = .pkt bs :: q'.toks
      | some (bs, .stream) => q.toks = bs.map .byte ++ q'.toks ∧ bs.length ≤ n ∧ (bs = [] → n = 0) := by
  unfold Queue.popChunk
  cases hc : q.chunks with
  | nil => exact ⟨q, none, rfl, h, by simp [Queue.toks, hc], rfl⟩
  | cons c rest =>
    dsimp only
    cases hk : c.kind with
    | stream =>
      obtain ⟨hkl, q', eq', i', t', d', kd⟩ := popFront_spec h hc hk (Nat.min_le_left c.data.length n)
      dsimp only
      rw [decide_eq_true hkl, R.assert_true, R.bind_ok]
      have hq : ({ q with
          chunks := if (c.data.drop (min c.data.length n)).isEmpty then rest else { c with data := c.data.drop (min c.data.length n) } :: rest
          length := q.length - min c.data.length n } : Queue α) = q' := by rw [eq']
      have hne := h.nonempty c (by rw [hc]; exact List.mem_cons_self ..) hk
      have hpos : 0 < c.data.length := List.length_pos_iff.2 hne
      have hq' := hq
      simp only [hk] at hq' ⊢
      refine ⟨_, _, rfl, ?_, ?_⟩
      · rw [hq']; exact i'
      · dsimp only
        rw [hq']
        refine ⟨t', by rw [List.length_take]; omega, ?_⟩
        intro hh
        have := congrArg List.length hh
        rw [List.length_take, List.length_nil] at this
        omega
    | packet =>
      have hlen := h.len
      have hd : q.dataLength = c.data.length + (rest.map (·.data.length)).sum := by simp [Queue.dataLength, hc]
      have hle : c.data.length ≤ q.length := by omega
      dsimp only
      rw [decide_eq_true hle, R.assert_true, R.bind_ok]
      refine ⟨_, _, rfl, ⟨?_, ?_, h.unused, h.cap⟩, ?_⟩
      · simp only [Queue.dataLength]
        omega
      · intro c' hc' hk'
        exact h.nonempty c' (by rw [hc]; exact List.mem_cons_of_mem _ hc') hk'
      · dsimp only
        rw [toks_cons q c rest hc]
        simp [Chunk.toks, hk, Queue.toks]

/-! ### User memory -/

/-- The bytes of readable memory. -/
def values (segs : List (Src α)) : List α := segs.flatten.filterMap id

/-- All of it can be read. -/
def Mapped (segs : List (Src α)) : Prop := ∀ s ∈ segs, ∀ b ∈ s, b.isSome

theorem allBytes_mapped {s : Src α} (h : ∀ b ∈ s, b.isSome) : allBytes s = some (s.filterMap id) := by
  induction s with
  | nil => rfl
  | cons b s ih =>
    have hb := h b (List.mem_cons_self ..)
    cases b with
    | none => cases hb
    | some v => simp [allBytes, ih (fun x hx => h x (List.mem_cons_of_mem _ hx))]

theorem filterMap_length {s : Src α} (h : ∀ b ∈ s, b.isSome) : (s.filterMap id).length = s.length := by
  induction s with
  | nil => rfl
  | cons b s ih =>
    have hb := h b (List.mem_cons_self ..)
    cases b with
    | none => cases hb
    | some v => simp [ih (fun x hx => h x (List.mem_cons_of_mem _ hx))]

theorem filterMap_take {s : Src α} (h : ∀ b ∈ s, b.isSome) (n : Nat) : (s.take n).filterMap id = (s.filterMap id).take n := by
  induction s generalizing n with
  | nil => simp
  | cons b s ih =>
    have hb := h b (List.mem_cons_self ..)
    cases b with
    | none => cases hb
    | some v =>
      cases n with
      | zero => simp
      | succ n => simp [ih (fun x hx => h x (List.mem_cons_of_mem _ hx))]

theorem filterMap_drop {s : Src α} (h : ∀ b ∈ s, b.isSome) (n : Nat) : (s.drop n).filterMap id = (s.filterMap id).drop n := by
  induction s generalizing n with
  | nil => simp
  | cons b s ih =>
    have hb := h b (List.mem_cons_self ..)
    cases b with
    | none => cases hb
    | some v =>
      cases n with
      | zero => simp
      | succ n => simp [ih (fun x hx => h x (List.mem_cons_of_mem _ hx))]

theorem values_cons (s : Src α) (rest : List (Src α)) : values (s :: rest) = s.filterMap id ++ values rest := by
  simp [values, List.filterMap_append]

theorem iovRead_mapped : ∀ (segs : List (Src α)) (n : Nat) (got : List α), Mapped segs →
    ∃ segs', iovRead segs n got = (segs', some (got ++ (values segs).take n)) ∧ Mapped segs' ∧ values segs' = (values segs).drop n := by
  intro segs
  induction segs with
  | nil => intro n got _; exact ⟨[], by simp [iovRead, values], fun s hs => (by cases hs), by simp [values]⟩
  | cons s rest ih =>
    intro n got hm
    rw [iovRead]
    by_cases h0 : n = 0
    · rw [if_pos h0]
      exact ⟨s :: rest, by simp [h0], hm, by simp [h0]⟩
    · rw [if_neg h0]
      have hs := hm s (List.mem_cons_self ..)
      have hr : Mapped rest := fun x hx => hm x (List.mem_cons_of_mem _ hx)
      dsimp only
      rw [allBytes_mapped (fun b hb => hs b (List.mem_of_mem_take hb)), filterMap_take hs]
      dsimp only
      have hl := filterMap_length hs
      by_cases hk : min s.length n = s.length
      · rw [if_pos hk]
        obtain ⟨segs', e, m', v'⟩ := ih (n - min s.length n) (got ++ (s.filterMap id).take (min s.length n)) hr
        refine ⟨segs', ?_, m', ?_⟩
        · rw [e, values_cons, List.append_assoc, List.take_append, hl]
          have e1 : (s.filterMap id).take (min s.length n) = (s.filterMap id).take n := by
            rw [List.take_of_length_le (by omega), List.take_of_length_le (by omega)]
          rw [e1, show n - min s.length n = n - s.length by omega]
        · rw [v', values_cons, List.drop_append, hl, List.drop_eq_nil_of_le (as := s.filterMap id) (by omega), List.nil_append]
          congr 1; omega
      · rw [if_neg hk]
        have hn : min s.length n = n := by omega
        rw [hn]
        refine ⟨s.drop n :: rest, ?_, ?_, ?_⟩
        · rw [values_cons, List.take_append_of_le_length (by omega)]
        · intro x hx b hb
          rcases List.mem_cons.1 hx with hx | hx
          · rw [hx] at hb; exact hs b (List.mem_of_mem_drop hb)
          · exact hr x hx b hb
        · rw [values_cons, values_cons, filterMap_drop hs, List.drop_append_of_le_length (by omega)]

/-- Readable user memory behaves like a slice. -/
theorem iovReader_like : (iovReader (α := α)).Like Mapped values := by
  constructor
  intro s n hs
  obtain ⟨s', e, m, v⟩ := iovRead_mapped s n [] hs
  exact ⟨s', by simpa [iovReader] using e, m, v⟩

theorem takeReader_like {r : Reader α S} {good : S → Prop} {data : S → List α} (hl : r.Like good data) :
    (takeReader r).Like (fun s => good s.1) (fun s => (data s.1).take s.2) := by
  constructor
  intro s n hs
  simp only [takeReader]
  by_cases h0 : s.2 = 0
  · rw [if_pos h0]
    exact ⟨s, by simp [h0], hs, by simp [h0]⟩
  · rw [if_neg h0]
    obtain ⟨s', e, g, d⟩ := hl.step s.1 (min n s.2) hs
    rw [e]
    refine ⟨(s', s.2 - ((data s.1).take (min n s.2)).length), ?_, g, ?_⟩
    · rw [List.take_take]
    · dsimp only
      rw [d, List.drop_take, List.length_take]
      rcases Nat.le_total n s.2 with h | h
      · rw [Nat.min_eq_left h]
        rcases Nat.le_total n (data s.1).length with h' | h'
        · rw [Nat.min_eq_left h']
        · rw [List.drop_eq_nil_of_le h', List.take_nil, List.take_nil]
      · rw [Nat.min_eq_right h, show s.2 - n = 0 by omega, List.take_zero]
        rcases Nat.le_total s.2 (data s.1).length with h' | h'
        · rw [Nat.min_eq_left h', Nat.sub_self, List.take_zero]
        · rw [List.drop_eq_nil_of_le h', List.take_nil]

theorem allBytes_length : ∀ {s : Src α} {bs}, allBytes s = some bs → bs.length = s.length := by
  intro s
  induction s with
  | nil => intro bs h; cases h; rfl
  | cons b s ih =>
    intro bs h
    cases b with
    | none => cases h
    | some v =>
      rw [allBytes] at h
      cases hh : allBytes s with
      | none => rw [hh] at h; cases h
      | some x => rw [hh] at h; cases h; simp [ih hh]

theorem iovRead_bound : ∀ (segs : List (Src α)) (n : Nat) (got : List α) (segs' : List (Src α)) (bs : List α),
    iovRead segs n got = (segs', some bs) →
    ∃ k, bs.length = got.length + k ∧ k ≤ n ∧ (segs'.map List.length).sum + k = (segs.map List.length).sum := by
  intro segs
  induction segs with
  | nil => intro n got segs' bs h; cases h; exact ⟨0, rfl, Nat.zero_le _, rfl⟩
  | cons s rest ih =>
    intro n got segs' bs h
    rw [iovRead] at h
    by_cases h0 : n = 0
    · rw [if_pos h0] at h
      cases h
      exact ⟨0, rfl, Nat.zero_le _, rfl⟩
    · rw [if_neg h0] at h
      dsimp only at h
      cases ha : allBytes (s.take (min s.length n)) with
      | none =>
        rw [ha] at h
        dsimp only at h
        by_cases hg : got.length = 0
        · rw [if_pos hg] at h; cases h
        · rw [if_neg hg] at h; cases h
          exact ⟨0, rfl, Nat.zero_le _, rfl⟩
      | some x =>
        have hx := allBytes_length ha
        rw [List.length_take] at hx
        rw [ha] at h
        dsimp only at h
        by_cases hk : min s.length n = s.length
        · rw [if_pos hk] at h
          obtain ⟨k, e1, e2, e3⟩ := ih _ _ _ _ h
          refine ⟨x.length + k, by rw [e1, List.length_append]; omega, by omega, ?_⟩
          simp only [List.map_cons, List.sum_cons]
          omega
        · rw [if_neg hk] at h
          cases h
          refine ⟨x.length, by rw [List.length_append], by omega, ?_⟩
          simp only [List.map_cons, List.sum_cons, List.length_drop]
          omega

/-- A read of user memory returns at most as much as asked for. -/
theorem iovReader_sound : (iovReader (α := α)).Sound := by
  intro s n s' bs h
  obtain ⟨k, e1, e2, _⟩ := iovRead_bound _ _ _ _ _ h
  simp at e1
  omega

/-- User memory ends. -/
theorem iovReader_finite : (iovReader (α := α)).Finite (fun s => (s.map List.length).sum) := by
  intro s n s' bs h
  obtain ⟨k, e1, e2, e3⟩ := iovRead_bound _ _ _ _ _ h
  simp at e1
  dsimp only
  omega

theorem takeReader_sound {r : Reader α S} (h : r.Sound) : (takeReader r).Sound := by
  intro s n s' bs hr
  simp only [takeReader] at hr
  by_cases h0 : s.2 = 0
  · rw [if_pos h0] at hr; cases hr; exact Nat.zero_le _
  · rw [if_neg h0] at hr
    rcases hx : r.read s.1 (min n s.2) with ⟨s1, res⟩
    rw [hx] at hr
    cases res with
    | none => cases hr
    | some x => cases hr; have := h _ _ _ _ hx; omega

theorem takeReader_finite {r : Reader α S} {rem : S → Nat} (h : r.Finite rem) : (takeReader r).Finite (fun s => rem s.1) := by
  intro s n s' bs hr
  simp only [takeReader] at hr
  by_cases h0 : s.2 = 0
  · rw [if_pos h0] at hr; cases hr; simp
  · rw [if_neg h0] at hr
    rcases hx : r.read s.1 (min n s.2) with ⟨s1, res⟩
    rw [hx] at hr
    cases res with
    | none => cases hr
    | some x => cases hr; exact h _ _ _ _ hx

/-- All of it can be written. -/
def Writable (segs : List (List Bool)) : Prop := ∀ s ∈ segs, ∀ b ∈ s, b = true

def room (segs : List (List Bool)) : Nat := (segs.map List.length).sum

theorem iovWrite_writable : ∀ (segs : List (List Bool)) (buf : List α) (done : Nat), Writable segs →
    ∃ segs', iovWrite segs buf done = (segs', .ok (done + min (room segs) buf.length)) ∧ Writable segs' ∧
      room segs' = room segs - min (room segs) buf.length := by
  intro segs
  induction segs with
  | nil => intro buf done _; exact ⟨[], by simp [iovWrite, room], fun s hs => (by cases hs), by simp [room]⟩
  | cons s rest ih =>
    intro buf done hw
    rw [iovWrite]
    by_cases h0 : buf.length = 0
    · rw [if_pos h0]
      exact ⟨s :: rest, by rw [h0]; simp, hw, by rw [h0]; simp⟩
    · rw [if_neg h0]
      have hs := hw s (List.mem_cons_self ..)
      have hr : Writable rest := fun x hx => hw x (List.mem_cons_of_mem _ hx)
      have hall : (s.take (min s.length buf.length)).all id = true := by
        rw [List.all_eq_true]
        intro b hb
        exact hs b (List.mem_of_mem_take hb)
      have hroom : room (s :: rest) = s.length + room rest := by simp [room]
      dsimp only
      rw [hall, if_neg (by decide)]
      by_cases hk : min s.length buf.length = s.length
      · rw [if_pos hk]
        obtain ⟨segs', e, w', r'⟩ := ih (buf.drop (min s.length buf.length)) (done + min s.length buf.length) hr
        rw [List.length_drop] at e r'
        refine ⟨segs', ?_, w', ?_⟩
        · rw [e]; congr 2; omega
        · rw [r']; omega
      · rw [if_neg hk]
        refine ⟨s.drop (min s.length buf.length) :: rest, ?_, ?_, ?_⟩
        · congr 2; omega
        · intro x hx b hb
          rcases List.mem_cons.1 hx with hx | hx
          · rw [hx] at hb; exact hs b (List.mem_of_mem_drop hb)
          · exact hr x hx b hb
        · simp only [room, List.map_cons, List.sum_cons, List.length_drop]
          omega

/-- Writable user memory behaves like a slice. -/
theorem iovWriter_like : (iovWriter (α := α)).Like Writable room := by
  constructor
  intro w bs hw
  obtain ⟨w', e, h1, h2⟩ := iovWrite_writable w bs 0 hw
  exact ⟨w', by simpa [iovWriter] using e, h1, h2⟩

theorem iovWrite_bound : ∀ (segs : List (List Bool)) (buf : List α) (done : Nat) (segs' : List (List Bool)) (k : Nat),
    iovWrite segs buf done = (segs', .ok k) → k ≤ done + buf.length := by
  intro segs
  induction segs with
  | nil => intro buf done segs' k h; cases h; omega
  | cons s rest ih =>
    intro buf done segs' k h
    rw [iovWrite] at h
    by_cases h0 : buf.length = 0
    · rw [if_pos h0] at h; cases h; omega
    · rw [if_neg h0] at h
      dsimp only at h
      by_cases ha : (s.take (min s.length buf.length)).all id = false
      · rw [if_pos ha] at h
        by_cases hd : done = 0
        · rw [if_pos hd] at h; cases h
        · rw [if_neg hd] at h; cases h; omega
      · rw [if_neg ha] at h
        by_cases hk : min s.length buf.length = s.length
        · rw [if_pos hk] at h
          have := ih _ _ _ _ h
          rw [List.length_drop] at this
          omega
        · rw [if_neg hk] at h
          cases h
          omega

theorem iovWriter_sound : (iovWriter (α := α)).Sound := by
  intro w bs w' k h
  have := iovWrite_bound w bs 0 w' k h
  omega

theorem iovWrite_not_wouldBlock : ∀ (segs : List (List Bool)) (buf : List α) (done : Nat),
    (iovWrite segs buf done).2 ≠ .wouldBlock := by
  intro segs
  induction segs with
  | nil => intro buf done h; cases h
  | cons s rest ih =>
    intro buf done
    rw [iovWrite]
    by_cases h0 : buf.length = 0
    · rw [if_pos h0]; intro h; cases h
    · rw [if_neg h0]
      dsimp only
      by_cases ha : (s.take (min s.length buf.length)).all id = false
      · rw [if_pos ha]
        by_cases hd : done = 0
        · rw [if_pos hd]; intro h; cases h
        · rw [if_neg hd]; intro h; cases h
      · rw [if_neg ha]
        by_cases hk : min s.length buf.length = s.length
        · rw [if_pos hk]; exact ih _ _
        · rw [if_neg hk]; intro h; cases h

/-! ### Histories -/

/-- A slice as a reader. -/
def sliceReader : Reader α (List α) := ⟨fun s n => (s.drop n, some (s.take n))⟩

theorem sliceReader_like : (sliceReader (α := α)).Like (fun _ => True) id :=
  ⟨fun s n _ => ⟨s.drop n, rfl, trivial, rfl⟩⟩

/-- What was pushed onto a queue (`pushed`) and what each removal gave (`got`, one entry per call), for any sequence
    of calls. The writers of `pop` can do short writes and fail at any point. -/
inductive Run : Queue α → List (Tok α) → List (List α) → Prop where
  | new {cap} : 0 < cap → Run (Queue.new cap) [] []
  | stream {q pushed got bs unsplit fuel q' s' n} : Run q pushed got → bs.length < fuel →
      q.pushStream sliceReader unsplit fuel bs = .ok (q', s', n) → Run q' (pushed ++ bs.map .byte) got
  | packet {q pushed got bs q' s' ok} : Run q pushed got →
      q.pushPacket sliceReader bs bs.length = (q', s', ok) → Run q' (pushed ++ [.pkt bs]) got
  | chunk {q pushed got bs kind m} : Run q pushed got → (kind = .stream → bs ≠ []) →
      Run (q.pushChunk bs kind m) (pushed ++ Chunk.toks ⟨bs, kind, m⟩) got
  | pop {q pushed got} {W : Type} {wr : Writer α W} {w : W} {g} : Run q pushed got → wr.Sound →
      (∀ w bs, (wr.write w bs).2 ≠ .wouldBlock) → q.pop wr w = .ok g → Run g.queue pushed (got ++ [g.out])
  | popChunk {q pushed got n q' r} : Run q pushed got → q.popChunk n = .ok (q', r) →
      Run q' pushed (got ++ [match r with | none => [] | some x => x.1])

/-- The removals `got` return the contents `ts` in order: each returns stream bytes, or one packet, perhaps cut. -/
inductive Delivers : List (List α) → List (Tok α) → Prop where
  | nil : Delivers [] []
  | bytes {got ts bs} : Delivers got ts → Delivers (got ++ [bs]) (ts ++ bs.map .byte)
  | pkt {got ts bs full} : Delivers got ts → bs <+: full → Delivers (got ++ [bs]) (ts ++ [.pkt full])

/-- **C24** (order). After any sequence of calls, what was pushed is what was removed followed by what is in the
    queue. Stream bytes come out in order whatever the chunks were; each packet comes out by itself. -/
theorem C24_history {q : Queue α} {pushed : List (Tok α)} {got : List (List α)} (h : Run q pushed got) :
    Inv q ∧ ∃ gone, pushed = gone ++ q.toks ∧ Delivers got gone := by
  induction h with
  | new hc => exact ⟨inv_new hc, [], rfl, .nil⟩
  | @stream q pushed got bs unsplit fuel q' s' n _ hf e ih =>
    obtain ⟨i, gone, e1, d⟩ := ih
    obtain ⟨q2, s2, e2, i2, t2, _, _⟩ := C24_push_slice i sliceReader_like unsplit (s := bs) trivial hf
    rw [e2] at e
    obtain ⟨rfl, _⟩ := Prod.mk.inj (R.ok.inj e)
    refine ⟨i2, gone, ?_, d⟩
    rw [t2, e1, List.append_assoc]
    rfl
  | @packet q pushed got bs q' s' ok _ e ih =>
    obtain ⟨i, gone, e1, d⟩ := ih
    have hs : (sliceReader (α := α)).Sound := by
      intro s n s' b hh
      cases hh
      rw [List.length_take]
      omega
    obtain ⟨i2, _⟩ := C24_push_packet i hs e
    obtain ⟨q2, s2, e2, t2, _⟩ := pushPacket_like (q := q) sliceReader_like (s := bs) trivial (size := bs.length) (Nat.le_refl _)
    rw [e2] at e
    obtain ⟨rfl, _⟩ := Prod.mk.inj e
    refine ⟨i2, gone, ?_, d⟩
    rw [t2, e1, List.append_assoc]
    simp
  | @chunk q pushed got bs kind m _ hne ih =>
    obtain ⟨i, gone, e1, d⟩ := ih
    refine ⟨inv_pushChunk i hne, gone, ?_, d⟩
    rw [toks_pushChunk, e1, List.append_assoc]
  | @pop q pushed got W wr w g _ hs hb e ih =>
    obtain ⟨i, gone, e1, d⟩ := ih
    obtain ⟨g', e2, i2, t2⟩ := C24_pop_any i hs hb w
    rw [e2] at e
    obtain rfl := R.ok.inj e
    refine ⟨i2, ?_⟩
    rcases t2 with t2 | ⟨bs, hp, t2⟩
    · exact ⟨gone ++ g'.out.map .byte, by rw [e1, t2, List.append_assoc], .bytes d⟩
    · exact ⟨gone ++ [.pkt bs], by rw [e1, t2, List.append_assoc]; rfl, .pkt d hp⟩
  | @popChunk q pushed got n q' r _ e ih =>
    obtain ⟨i, gone, e1, d⟩ := ih
    obtain ⟨q2, r2, e2, i2, t2⟩ := C24_pop_chunk i n
    rw [e2] at e
    obtain ⟨rfl, rfl⟩ := Prod.mk.inj (R.ok.inj e)
    refine ⟨i2, ?_⟩
    cases r2 with
    | none =>
      dsimp only at t2
      exact ⟨gone ++ ([] : List α).map .byte, by rw [e1, t2.2]; simp, .bytes d⟩
    | some x =>
      obtain ⟨bs, k⟩ := x
      cases k with
      | stream => exact ⟨gone ++ bs.map .byte, by rw [e1, t2.1, List.append_assoc], .bytes d⟩
      | packet =>
        dsimp only at t2
        exact ⟨gone ++ [.pkt bs], by rw [e1, t2, List.append_assoc]; rfl, .pkt d (List.prefix_refl _)⟩

/-! ### Examples -/

/-- A slice of `w` bytes as a writer. -/
def sliceWriter : Writer α Nat := ⟨fun w bs => (w - min w bs.length, .ok (min w bs.length))⟩

theorem sliceWriter_like : (sliceWriter (α := α)).Like (fun _ => True) id :=
  ⟨fun w bs _ => ⟨w - min w bs.length, rfl, trivial, rfl⟩⟩

/-- A stream push in chunks of 2 bytes, a packet, another stream push; then three pops with room for 3 bytes. -/
def demo : R (List Nat × List Nat × List Nat × Nat) := do
  let a ← (Queue.new 2 : Queue Nat).pushStream sliceReader (fun _ => false) 20 [1, 2, 3, 4, 5]
  let b := a.1.pushPacket sliceReader [6, 7, 8, 9] 4
  let c ← b.1.pushStream sliceReader (fun _ => true) 20 [10]
  let g1 ← c.1.pop sliceWriter 3
  let g2 ← g1.queue.pop sliceWriter 3
  let g3 ← g2.queue.pop sliceWriter 3
  return (g1.out, g2.out, g3.out, g3.queue.numBytes)

example : demo = .ok ([1, 2, 3], [4, 5], [6, 7, 8], 1) := by decide

/-- Memory in two ranges reads like one slice. -/
example : Mapped [[some 1, some 2], [], [some (3 : Nat)]] ∧ values [[some 1, some 2], [], [some (3 : Nat)]] = [1, 2, 3] := by
  refine ⟨?_, by decide⟩
  intro s hs b hb
  simp at hs
  rcases hs with rfl | rfl | rfl
  · simp at hb; rcases hb with rfl | rfl <;> rfl
  · cases hb
  · simp at hb; subst hb; rfl

example : Writable [[true, true], [], [true]] ∧ room [[true, true], [], [true]] = 3 := by
  refine ⟨?_, by decide⟩
  intro s hs b hb
  simp at hs
  rcases hs with rfl | rfl | rfl
  · simpa using hb
  · cases hb
  · simpa using hb

/-- A short write followed by an error loses the bytes already taken: they are gone from the queue although `pop`
    reports an error. -/
example : (do
    let a ← (Queue.new 2 : Queue Nat).pushStream sliceReader (fun _ => false) 20 [1, 2, 3]
    let g ← a.1.pop iovWriter [[true, true], [false]]
    return (g.out, g.res, g.queue.numBytes)) = R.ok ([1, 2], .err, 1) := by decide

/-- **C24** (negative). An empty stream chunk, which `push_chunk` accepts, blocks the queue: `pop` returns no bytes
    and does not remove it, so that nothing behind it is ever returned. Histories therefore do not push one. -/
theorem C24_empty_chunk_blocks (m : Bool) (rest : List (Chunk α)) (u : Option Nat) (len cap room : Nat) :
    (⟨⟨[], .stream, m⟩ :: rest, u, len, cap⟩ : Queue α).pop sliceWriter room =
      .ok ⟨⟨⟨[], .stream, m⟩ :: rest, u, len, cap⟩, room, [], .some 0 0 .stream⟩ := by
  simp [Queue.pop, Queue.popStream, sliceWriter, streamRes, R.assert]

end Shadow.ByteQueue
