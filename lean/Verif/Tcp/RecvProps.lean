import Verif.Tcp.TrimProps

/-!
# What the receive queue holds

The specification of a receiver is the list of items it has accepted: the SYN, the bytes (those
already taken out by the application, `rd`, and those still buffered), and the FIN.
-/
namespace Shadow.Tcp

open Shadow.Base

def recvItems (syn : Bool) (bytes : List Byte) (fin : Bool) : List Item :=
  (if syn then [.syn] else []) ++ (bytes.map .byte ++ if fin then [.fin] else [])

/-- The items accepted by a receiver whose application has taken out `rd`. -/
def ConnRecv.items (rd : List Byte) (r : ConnRecv) : List Item :=
  recvItems r.buffer.synAdded (rd ++ r.buffer.segments.flatten) r.buffer.finAdded

namespace RecvProps

open SeqAt SeqProps SendProps TrimProps

theorem recvItems_length (s : Bool) (b : List Byte) (f : Bool) :
    (recvItems s b f).length = b2n s + b.length + b2n f := by
  cases s <;> cases f <;> simp [recvItems, b2n] <;> omega

theorem items_length (rd : List Byte) (r : ConnRecv) :
    (r.items rd).length = b2n r.buffer.synAdded + (rd.length + r.buffer.segments.flatten.length) + b2n r.buffer.finAdded := by
  rw [ConnRecv.items, recvItems_length, List.length_append]

structure RecvOk (irs : Nat) (rd : List Byte) (r : ConnRecv) : Prop where
  «end» : r.buffer.endSeq = pos irs (r.items rd).length
  start : r.buffer.startSeq = pos irs ((r.items rd).length - r.buffer.segments.flatten.length)
  cap : r.buffer.segments.flatten.length ≤ Conn.recvBufMax
  pos : ∀ d ∈ r.buffer.segments, 0 < d.length
  closed : r.isClosed = r.buffer.finAdded
  finSyn : r.buffer.finAdded = true → r.buffer.synAdded = true
  noSyn : r.buffer.synAdded = false → rd = [] ∧ r.buffer.segments = []

theorem RecvOk.len {irs rd r} (h : RecvOk irs rd r) : r.buffer.len = r.buffer.segments.flatten.length := by
  rw [RecvQueue.len, h.start, h.end]
  have h1 := items_length rd r
  have h2 := h.cap
  simp only [Conn.recvBufMax] at h2
  rw [sub_pos _ _ _ (by omega) (by omega)]
  omega

theorem RecvOk.isEmpty {irs rd r} (h : RecvOk irs rd r) :
    r.buffer.isEmpty = true ↔ r.buffer.segments.flatten = [] := by
  rw [RecvQueue.isEmpty, h.len, beq_iff_eq, List.length_eq_zero_iff]

theorem recvOk_new (i : Nat) (h : i < M) : RecvOk i [] ⟨RecvQueue.new i, false⟩ := by
  have : pos i 0 = i := pos_zero i h
  constructor <;> simp [RecvQueue.new, ConnRecv.items, recvItems, this]

/-! ### Accepting items -/


theorem flatten_filter (l : List (List Byte)) : (l.filter (fun d => decide (d.length ≠ 0))).flatten = l.flatten := by
  induction l with
  | nil => rfl
  | cons d l ih =>
    by_cases h : d.length = 0
    · have : d = [] := List.length_eq_zero_iff.1 h
      subst this
      simpa using ih
    · rw [List.filter_cons_of_pos (by simpa using h), List.flatten_cons, List.flatten_cons, ih]

theorem addAll_spec (irs : Nat) : ∀ (l : List (List Byte)) (q : RecvQueue) (N : Nat),
    q.synAdded = true → q.finAdded = false → q.endSeq = pos irs N →
    q.addAll l = .ok { q with
      endSeq := pos irs (N + l.flatten.length)
      segments := q.segments ++ l.filter (fun d => decide (d.length ≠ 0)) } := by
  intro l
  induction l with
  | nil =>
    intro q N hs hf he
    rw [RecvQueue.addAll]
    simp only [R.pure_eq, List.flatten_nil, List.filter_nil, List.append_nil]
    rw [show ([] : List Byte).length = 0 from rfl, Nat.add_zero, ← he]
  | cons d l ih =>
    intro q N hs hf he
    rw [RecvQueue.addAll, RecvQueue.add, hs, hf]
    simp only [R.assert_true, Bool.not_false, R.bind_ok]
    by_cases hd : d.length = 0
    · rw [if_pos hd, R.pure_eq, R.bind_ok, ih q N hs hf he]
      have : d = [] := List.length_eq_zero_iff.1 hd
      subst this
      simp [hs, hf]
    · rw [if_neg hd, R.pure_eq, R.bind_ok]
      rw [ih _ (N + d.length) rfl rfl (by rw [he, add_pos])]
      rw [List.filter_cons_of_pos (by simpa using hd), List.flatten_cons, List.length_append]
      simp only [List.append_assoc, List.singleton_append, Nat.add_assoc]

theorem isEmpty_iff_flatten (p : Payload) : Payload.isEmpty p = true ↔ p.flatten = [] := by
  induction p with
  | nil => simp [Payload.isEmpty]
  | cons d l ih =>
    simp only [Payload.isEmpty, List.all_cons, Bool.and_eq_true, beq_iff_eq] at ih ⊢
    rw [ih, List.flatten_cons, List.append_eq_nil_iff, List.length_eq_zero_iff]

/-- Adding the payload. -/
theorem acceptPayload_spec {irs k N : Nat} {b : RecvQueue} {pl : Payload} (hs : b.synAdded = true)
    (hf : b.finAdded = false) (he : b.endSeq = pos irs N) (hk : N ≤ k) (hkM : k < N + M) :
    Conn.acceptPayload b (pos irs k) pl.flatten.length pl =
      .ok (if k = N then ({ b with
        endSeq := pos irs (N + pl.flatten.length)
        segments := b.segments ++ pl.filter (fun d => decide (d.length ≠ 0)) }, pl.flatten.length) else (b, 0)) := by
  rw [Conn.acceptPayload, he]
  by_cases hkN : k = N
  · subst hkN
    rw [if_pos rfl]
    by_cases h0 : pl.flatten.length = 0
    · rw [if_neg (by intro hh; exact hh.1 h0), h0]
      have : pl.filter (fun d => decide (d.length ≠ 0)) = [] := by
        rw [List.filter_eq_nil_iff]
        intro d hd
        have : d.length ≤ pl.flatten.length := by
          have := List.Sublist.length_le (List.sublist_flatten_of_mem hd)
          exact this
        simp; exact List.length_eq_zero_iff.1 (by omega)
      rw [this, List.append_nil, Nat.add_zero, ← he]
    · rw [if_pos ⟨h0, rfl⟩, addAll_spec irs pl b k hs hf he, R.bind_ok]; rfl
  · rw [if_neg hkN, if_neg]
    rintro ⟨-, hh⟩
    exact hkN (pos_inj hh.symm hk hkM).symm

theorem acceptFin_spec {irs k N : Nat} {b : RecvQueue} {fin closed : Bool} (hs : b.synAdded = true)
    (hf : b.finAdded = false) (he : b.endSeq = pos irs N) (hk : N ≤ k) (hkM : k < N + M) :
    Conn.acceptFin b fin (pos irs k) closed =
      .ok (if fin = true ∧ k = N then ⟨{ b with
        finAdded := true
        startSeq := Seq.add b.startSeq 1
        endSeq := pos irs (N + 1) }, true⟩ else ⟨b, closed⟩) := by
  rw [Conn.acceptFin, he]
  by_cases hh : fin = true ∧ k = N
  · obtain ⟨h1, rfl⟩ := hh
    rw [if_pos ⟨h1, rfl⟩, if_pos ⟨h1, rfl⟩, RecvQueue.addFin, hs, hf, he, add_pos]
    rfl
  · rw [if_neg hh, if_neg]
    rintro ⟨h1, h2⟩
    exact hh ⟨h1, (pos_inj h2.symm hk hkM).symm⟩

/-- The buffer after a possible SYN. -/
theorem addSyn_spec {irs k : Nat} {rd : List Byte} {r : ConnRecv} {s : Bool}
    (hr : RecvOk irs rd r) (hk : (r.items rd).length ≤ k) (hf : r.buffer.finAdded = false)
    (hss : ¬ (s && r.buffer.synAdded) = true)
    (hsyn : r.buffer.synAdded = true ∨ (s = true ∧ k = 0)) :
    ∃ b, Conn.addSynIf r.buffer s = .ok b ∧
      b.synAdded = true ∧ b.finAdded = false ∧ b.segments = r.buffer.segments ∧
      b.endSeq = pos irs ((r.items rd).length + b2n s) ∧
      b.startSeq = pos irs ((r.items rd).length + b2n s - r.buffer.segments.flatten.length) ∧
      (s = true → k = (r.items rd).length) ∧
      recvItems true (rd ++ r.buffer.segments.flatten) false = r.items rd ++ if s then [.syn] else [] := by
  unfold Conn.addSynIf
  cases s with
  | false =>
    rw [if_neg (by simp)]
    have hsa : r.buffer.synAdded = true := by
      rcases hsyn with hh | ⟨hh, -⟩
      · exact hh
      · cases hh
    refine ⟨r.buffer, rfl, hsa, hf, rfl, hr.end, hr.start, (fun hh => by cases hh), ?_⟩
    simp [ConnRecv.items, hsa, hf]
  | true =>
    rw [if_pos rfl]
    have hsa : r.buffer.synAdded = false := by
      cases hh : r.buffer.synAdded with
      | false => rfl
      | true => rw [hh] at hss; exact absurd rfl hss
    obtain ⟨hrd, hsg⟩ := hr.noSyn hsa
    have hk0 : k = 0 := by
      rcases hsyn with hh | ⟨-, hh⟩
      · rw [hsa] at hh; cases hh
      · exact hh
    have h0 : (r.items rd).length = 0 := by omega
    have hi : r.items rd = [] := List.length_eq_zero_iff.1 h0
    refine ⟨{ r.buffer with
        synAdded := true
        startSeq := Seq.add r.buffer.startSeq 1
        endSeq := Seq.add r.buffer.endSeq 1 }, ?_, rfl, hf, rfl, ?_, ?_, ?_, ?_⟩
    · rw [RecvQueue.addSyn, hsa]; rfl
    · simp only; rw [hr.end, add_pos]; rfl
    · simp only; rw [hr.start, add_pos, h0, hsg]; rfl
    · intro _; omega
    · rw [hi, hrd, hsg]; rfl

/-- What `push_packet` adds to the receive buffer from a segment that starts at position `k`. -/
theorem acceptSegment_spec {irs k : Nat} {rd : List Byte} {r : ConnRecv} {h : Header} {pl : Payload}
    (hr : RecvOk irs rd r) (hk : (r.items rd).length ≤ k) (hseq : Seq.new h.seq = pos irs k)
    (hfit : k + (packetItems h.flags pl).length + r.buffer.segments.flatten.length ≤
      (r.items rd).length + Conn.recvBufMax + b2n h.flags.syn + b2n h.flags.fin)
    (hsyn : r.buffer.synAdded = true ∨ (h.flags.syn = true ∧ k = 0)) :
    (r.isClosed = false ∧ h.flags.syn = true ∧ r.buffer.synAdded = true ∧ Conn.acceptSegment r h pl = .ok none) ∨
    ∃ r' m, Conn.acceptSegment r h pl = .ok (some (r', m)) ∧ RecvOk irs rd r' ∧
      (r.isClosed = true → r' = r) ∧
      (r.isClosed = false → r'.items rd = r.items rd ++
          (if k = (r.items rd).length then packetItems h.flags pl else [])) ∧
      (r'.buffer.synAdded = true) ∧
      m = (if r.isClosed = false ∧ k = (r.items rd).length then pl.flatten.length else 0) := by
  have hplen := packetItems_length h.flags pl
  have hN := items_length rd r
  have hcap := hr.cap
  have hb1 : b2n h.flags.syn ≤ 1 := by cases h.flags.syn <;> simp [b2n]
  have hb2 : b2n h.flags.fin ≤ 1 := by cases h.flags.fin <;> simp [b2n]
  simp only [Conn.recvBufMax] at hcap hfit
  have hpl : pl.flatten.length < M := by omega
  unfold Conn.acceptSegment
  by_cases hc : r.isClosed = true
  · right
    rw [if_pos hc]
    have hf : r.buffer.finAdded = true := by rw [← hr.closed, hc]
    refine ⟨r, 0, rfl, hr, fun _ => rfl, fun hh => ?_, hr.finSyn hf, ?_⟩
    · rw [hc] at hh; cases hh
    · rw [if_neg]; intro hh; rw [hc] at hh; cases hh.1
  · have hc' : r.isClosed = false := by simpa using hc
    have hf : r.buffer.finAdded = false := by rw [← hr.closed, hc']
    rw [if_neg hc]
    by_cases hss : (h.flags.syn && r.buffer.synAdded) = true
    · left
      rw [if_pos hss]
      rw [Bool.and_eq_true] at hss
      exact ⟨hc', hss.1, hss.2, rfl⟩
    · right
      obtain ⟨b, e, hbs, hbf, hbseg, hbe, hbst, hks, hbi⟩ := addSyn_spec hr hk hf hss hsyn
      have hks' : b2n h.flags.syn = 0 ∨ k = (r.items rd).length := by
        cases hs : h.flags.syn with
        | false => exact .inl rfl
        | true => exact .inr (hks hs)
      rw [if_neg hss, payload_len hpl, e, R.bind_ok, R.bind_ok, hseq, add_pos, add_pos,
        acceptPayload_spec (k := k + b2n h.flags.syn) hbs hbf hbe (by omega) (by omega), R.bind_ok]
      by_cases hkN : k = (r.items rd).length
      · rw [if_pos (by omega)]
        dsimp only
        rw [acceptFin_spec (b := { b with
            endSeq := pos irs ((r.items rd).length + b2n h.flags.syn + pl.flatten.length)
            segments := b.segments ++ pl.filter (fun d => decide (d.length ≠ 0)) })
          (N := (r.items rd).length + b2n h.flags.syn + pl.flatten.length) (k := k + b2n h.flags.syn + pl.flatten.length)
          hbs hbf rfl (by omega) (by omega), R.bind_ok]
        have hsegs : (b.segments ++ pl.filter (fun d => decide (d.length ≠ 0))).flatten =
            r.buffer.segments.flatten ++ pl.flatten := by
          rw [List.flatten_append, flatten_filter, hbseg]
        have hpos : ∀ d ∈ b.segments ++ pl.filter (fun d => decide (d.length ≠ 0)), 0 < d.length := by
          intro d hd
          rw [hbseg] at hd
          rcases List.mem_append.1 hd with hd | hd
          · exact hr.pos d hd
          · have := (List.mem_filter.1 hd).2
            simp only [decide_eq_true_eq] at this
            omega
        have hcap' : r.buffer.segments.flatten.length + pl.flatten.length ≤ 100000 := by omega
        have hitems : ∀ f : Bool, recvItems true (rd ++ (r.buffer.segments.flatten ++ pl.flatten)) f =
            r.items rd ++ ((if h.flags.syn then [.syn] else []) ++ (pl.flatten.map .byte ++ if f then [.fin] else [])) := by
          intro f
          have : recvItems true (rd ++ (r.buffer.segments.flatten ++ pl.flatten)) f =
              recvItems true (rd ++ r.buffer.segments.flatten) false ++ (pl.flatten.map .byte ++ if f then [.fin] else []) := by
            simp [recvItems]
          rw [this, hbi]
          simp
        by_cases hfin : h.flags.fin = true
        · rw [if_pos ⟨hfin, by omega⟩]
          have hit : (⟨{ b with
              endSeq := pos irs ((r.items rd).length + b2n h.flags.syn + pl.flatten.length + 1)
              segments := b.segments ++ pl.filter (fun d => decide (d.length ≠ 0))
              startSeq := Seq.add b.startSeq 1
              finAdded := true }, true⟩ : ConnRecv).items rd = r.items rd ++ packetItems h.flags pl := by
            simp only [ConnRecv.items, hsegs, hbs]
            rw [hitems]
            simp [packetItems, hfin, ConnRecv.items]
          refine ⟨_, _, rfl, ⟨?_, ?_, ?_, hpos, rfl, fun _ => hbs, fun hh => ?_⟩, fun hh => ?_, fun _ => ?_, hbs, ?_⟩
          · rw [hit, List.length_append, hplen, hfin, show b2n true = 1 from rfl]
            simp only [Nat.add_assoc]
          · rw [hit, List.length_append, hplen, hfin]
            simp only
            rw [hsegs, hbst, add_pos, List.length_append]
            congr 1
            rw [show b2n true = 1 from rfl]
            omega
          · simp only; rw [hsegs, List.length_append]; exact hcap'
          · simp only [hbs] at hh; cases hh
          · rw [hc'] at hh; cases hh
          · rw [hit, if_pos hkN]
          · rw [if_pos ⟨hc', hkN⟩]
        · rw [if_neg (by intro hh; exact hfin hh.1)]
          have hfin' : h.flags.fin = false := by simpa using hfin
          have hit : (⟨{ b with
              endSeq := pos irs ((r.items rd).length + b2n h.flags.syn + pl.flatten.length)
              segments := b.segments ++ pl.filter (fun d => decide (d.length ≠ 0)) }, r.isClosed⟩ : ConnRecv).items rd =
                r.items rd ++ packetItems h.flags pl := by
            simp only [ConnRecv.items, hsegs, hbs, hbf]
            rw [hitems]
            simp [packetItems, hfin', ConnRecv.items]
          refine ⟨_, _, rfl, ⟨?_, ?_, ?_, hpos, hc'.trans hbf.symm, fun hh => ?_, fun hh => ?_⟩, fun hh => ?_, fun _ => ?_, hbs, ?_⟩
          · rw [hit, List.length_append, hplen, hfin', show b2n false = 0 from rfl]
            simp only [Nat.add_assoc, Nat.add_zero]
          · rw [hit, List.length_append, hplen, hfin']
            simp only
            rw [hsegs, hbst, List.length_append]
            congr 1
            rw [show b2n false = 0 from rfl]
            omega
          · simp only; rw [hsegs, List.length_append]; exact hcap'
          · exact hbs
          · simp only [hbs] at hh; cases hh
          · rw [hc'] at hh; cases hh
          · rw [hit, if_pos hkN]
          · rw [if_pos ⟨hc', hkN⟩]
      · have hs0 : h.flags.syn = false := by
          cases hs : h.flags.syn with
          | false => rfl
          | true => exact absurd (hks hs) hkN
        rw [hs0] at hbe hbst hbi
        rw [show b2n false = 0 from rfl, Nat.add_zero] at hbe hbst
        rw [hs0, show b2n false = 0 from rfl]
        simp only [Nat.add_zero]
        rw [if_neg hkN]
        rw [acceptFin_spec (N := (r.items rd).length) (k := k + pl.flatten.length) hbs hbf hbe (by omega) (by omega),
          R.bind_ok, if_neg (by intro hh; omega)]
        have hit : (⟨b, r.isClosed⟩ : ConnRecv).items rd = r.items rd := by
          simp only [ConnRecv.items, hbs, hbf, hbseg]
          rw [hbi]; simp [ConnRecv.items]
        refine ⟨_, _, rfl, ⟨?_, ?_, ?_, ?_, hc'.trans hbf.symm, fun hh => ?_, fun hh => ?_⟩, fun hh => ?_, fun _ => ?_, hbs, ?_⟩
        · rw [hit]; exact hbe
        · rw [hit]; simp only; rw [hbseg]; exact hbst
        · simp only; rw [hbseg]; exact hcap
        · simp only; rw [hbseg]; exact hr.pos
        · exact hbs
        · simp only [hbs] at hh; cases hh
        · rw [hc'] at hh; cases hh
        · rw [hit, if_neg hkN, List.append_nil]
        · rw [if_neg]; intro hh; exact hkN hh.2

/-! ### Reading -/

theorem pop_spec {irs s : Nat} {q : RecvQueue} {chunk : List Byte} {rest : List (List Byte)} (n : Nat)
    (hq : q.segments = chunk :: rest) (hpos : 0 < chunk.length) (hn : 0 < n) (hst : q.startSeq = pos irs s) :
    q.pop n = .ok ({ q with
        segments := if n < chunk.length then chunk.drop n :: rest else rest
        startSeq := pos irs (s + (chunk.take n).length) }, some (q.startSeq, chunk.take n)) := by
  unfold RecvQueue.pop
  rw [hq]
  simp only
  by_cases h : n < chunk.length
  · rw [if_pos h, if_pos h]
    have hl : (chunk.take n).length = n := by rw [List.length_take]; omega
    have : (chunk.take n).isEmpty = false := by
      cases hc : chunk.take n with
      | nil => rw [hc] at hl; simp at hl; omega
      | cons _ _ => rfl
    rw [this, hst, add_pos, hl]
    rfl
  · rw [if_neg h, if_neg h]
    have hl : chunk.take n = chunk := List.take_of_length_le (by omega)
    have : chunk.isEmpty = false := by
      cases hc : chunk with
      | nil => rw [hc] at hpos; simp at hpos
      | cons _ _ => rfl
    rw [this, hst, add_pos, hl]
    rfl

theorem readLoop_spec (irs : Nat) : ∀ (fuel : Nat) (q : RecvQueue) (s n cap : Nat),
    q.segments.length < fuel → (∀ d ∈ q.segments, 0 < d.length) → q.segments.flatten.length < M - 1 →
    q.startSeq = pos irs s →
    ∃ q' out io D, RecvQueue.readLoop fuel q n cap = .ok (q', out, io) ∧
      q.segments.flatten = D ++ q'.segments.flatten ∧ out <+: D ∧
      (io = false → out = D ∧ D.length = min n q.segments.flatten.length) ∧
      (io = true → cap < D.length ∧ out.length = cap) ∧ D.length ≤ n ∧
      q' = { q with segments := q'.segments, startSeq := pos irs (s + D.length) } ∧
      (∀ d ∈ q'.segments, 0 < d.length) := by
  intro fuel
  induction fuel with
  | zero => intro q s n cap h; omega
  | succ fuel ih =>
    intro q s n cap hfuel hpos hM hst
    unfold RecvQueue.readLoop
    by_cases hn : n = 0
    · rw [if_pos hn]
      refine ⟨q, [], false, [], rfl, rfl, List.prefix_refl _, fun _ => ⟨rfl, by simp [hn]⟩, (fun hh => by cases hh), Nat.zero_le _, ?_, hpos⟩
      rw [show ([] : List Byte).length = 0 from rfl, Nat.add_zero, ← hst]
    · rw [if_neg hn]
      cases hq : q.segments with
      | nil =>
        have : q.pop (min n 4294967295) = .ok (q, none) := by
          unfold RecvQueue.pop; rw [hq]; rfl
        simp only
        rw [this, R.bind_ok]
        refine ⟨q, [], false, [], rfl, by simp [hq], List.prefix_refl _, fun _ => ⟨rfl, by simp⟩, (fun hh => by cases hh), Nat.zero_le _, ?_, hpos⟩
        rw [show ([] : List Byte).length = 0 from rfl, Nat.add_zero, ← hst]
      | cons chunk rest =>
        have hcp := hpos chunk (by rw [hq]; exact List.mem_cons_self ..)
        have hcl : chunk.length ≤ q.segments.flatten.length := by
          rw [hq, List.flatten_cons, List.length_append]; omega
        have hmin : chunk.take (min n 4294967295) = chunk.take n := by
          by_cases h : n ≤ 4294967295
          · congr 1; omega
          · rw [List.take_of_length_le (by omega), List.take_of_length_le (by omega)]
        have hlt : (min n 4294967295 < chunk.length) ↔ n < chunk.length := by omega
        simp only
        rw [pop_spec (min n 4294967295) hq hcp (by omega) hst, R.bind_ok]
        simp only
        rw [hmin]
        have hle : (chunk.take n).length ≤ n := by rw [List.length_take]; omega
        simp only [hle, decide_true, R.assert_true, R.bind_ok]
        by_cases hcap : cap < (chunk.take n).length
        · rw [if_pos hcap]
          refine ⟨_, _, _, chunk.take n, rfl, ?_, List.take_prefix _ _, (fun hh => by cases hh), fun _ => ⟨hcap, ?_⟩, hle, rfl, ?_⟩
          · simp only
            by_cases h : n < chunk.length
            · rw [if_pos (hlt.2 h), List.flatten_cons, List.flatten_cons, ← List.append_assoc]
              have : chunk.drop (min n 4294967295) = chunk.drop n := by congr 1; omega
              rw [this, List.take_append_drop]
            · rw [if_neg (mt hlt.1 h), List.flatten_cons, List.take_of_length_le (by omega)]
          · rw [List.length_take]; omega
          · simp only
            intro d hd
            by_cases h : n < chunk.length
            · rw [if_pos (hlt.2 h)] at hd
              rcases List.mem_cons.1 hd with rfl | hd
              · rw [List.length_drop]; omega
              · exact hpos d (by rw [hq]; exact List.mem_cons_of_mem _ hd)
            · rw [if_neg (mt hlt.1 h)] at hd
              exact hpos d (by rw [hq]; exact List.mem_cons_of_mem _ hd)
        · rw [if_neg hcap]
          by_cases h : n < chunk.length
          · -- the request ends inside this chunk
            have hl : (chunk.take n).length = n := by rw [List.length_take]; omega
            have h0 : n - (chunk.take n).length = 0 := by omega
            rw [h0]
            have hrl : ∀ (f : Nat) (q : RecvQueue) (c : Nat), RecvQueue.readLoop f q 0 c = .ok (q, [], false) := by
              intro f q c; unfold RecvQueue.readLoop; rw [if_pos rfl]
            rw [hrl, R.bind_ok]
            simp only [R.pure_eq, List.append_nil]
            refine ⟨_, _, _, chunk.take n, rfl, ?_, List.prefix_refl _, fun _ => ⟨rfl, ?_⟩, (fun hh => by cases hh), hle, rfl, ?_⟩
            · simp only
              rw [if_pos (hlt.2 h), List.flatten_cons, List.flatten_cons, ← List.append_assoc]
              have : chunk.drop (min n 4294967295) = chunk.drop n := by congr 1; omega
              rw [this, List.take_append_drop]
            · rw [hl, ← hq]; omega
            · simp only
              intro d hd
              rw [if_pos (hlt.2 h)] at hd
              rcases List.mem_cons.1 hd with rfl | hd
              · rw [List.length_drop]; omega
              · exact hpos d (by rw [hq]; exact List.mem_cons_of_mem _ hd)
          · have htk : chunk.take n = chunk := List.take_of_length_le (by omega)
            rw [htk]
            simp only [if_neg (mt hlt.1 h)]
            have hfl : q.segments.flatten.length = chunk.length + rest.flatten.length := by
              rw [hq, List.flatten_cons, List.length_append]
            obtain ⟨q', out, io, D, e, k1, k2, k3, k4, k5, k6, k7⟩ := ih
              { q with segments := rest, startSeq := pos irs (s + chunk.length) } (s + chunk.length) (n - chunk.length)
              (cap - chunk.length) (by rw [hq, List.length_cons] at hfuel; simp only; omega)
              (fun d hd => hpos d (by rw [hq]; exact List.mem_cons_of_mem _ hd)) (by simp only; omega) rfl
            rw [e, R.bind_ok]
            simp only [R.pure_eq]
            simp only at k1 k3 k6
            refine ⟨q', chunk ++ out, io, chunk ++ D, rfl, ?_, ?_, fun hio => ?_, fun hio => ?_, ?_, ?_, k7⟩
            · rw [List.flatten_cons, k1, List.append_assoc]
            · exact (List.prefix_append_right_inj chunk).2 k2
            · obtain ⟨j1, j2⟩ := k3 hio
              refine ⟨by rw [j1], ?_⟩
              rw [List.length_append, j2, ← hq, hfl]; omega
            · obtain ⟨j1, j2⟩ := k4 hio
              rw [htk] at hcap
              rw [List.length_append, List.length_append, j2]
              constructor <;> omega
            · rw [List.length_append]; omega
            · rw [k6]
              simp only [List.length_append, Nat.add_assoc]

/-- Reading takes a prefix of the buffered bytes: as many as asked for (or all), if the writer
    accepts them. -/
theorem read_spec {irs : Nat} {rd : List Byte} {r : ConnRecv} (hr : RecvOk irs rd r) (n cap : Nat) :
    ∃ q' out io D, r.buffer.read n cap = .ok (q', out, io) ∧
      r.buffer.segments.flatten = D ++ q'.segments.flatten ∧ out <+: D ∧
      (io = false → out = D ∧ D.length = min n r.buffer.segments.flatten.length) ∧
      (io = true → cap < D.length ∧ out.length = cap) ∧ D.length ≤ n ∧
      RecvOk irs (rd ++ D) { r with buffer := q' } ∧
      ConnRecv.items (rd ++ D) { r with buffer := q' } = r.items rd ∧
      q'.synAdded = r.buffer.synAdded ∧ q'.finAdded = r.buffer.finAdded := by
  have hcap := hr.cap
  simp only [Conn.recvBufMax] at hcap
  unfold RecvQueue.read
  by_cases he : r.buffer.isEmpty = true
  · rw [if_pos he]
    have hnil := hr.isEmpty.1 he
    refine ⟨r.buffer, [], false, [], rfl, rfl, List.prefix_refl _, fun _ => ⟨rfl, by simp [hnil]⟩, (fun hh => by cases hh), Nat.zero_le _, ?_, ?_, rfl, rfl⟩
    · rw [List.append_nil]; exact hr
    · rw [List.append_nil]
  · rw [if_neg he]
    obtain ⟨q', out, io, D, e, k1, k2, k3, k4, k5, k6, k7⟩ := readLoop_spec irs (r.buffer.segments.length + 1) r.buffer _ n cap
      (Nat.lt_succ_self _) hr.pos (by omega) hr.start
    have hsa : q'.synAdded = r.buffer.synAdded := by rw [k6]
    have hfa : q'.finAdded = r.buffer.finAdded := by rw [k6]
    have hea : q'.endSeq = r.buffer.endSeq := by rw [k6]
    have hst : q'.startSeq = pos irs ((r.items rd).length - r.buffer.segments.flatten.length + D.length) := by rw [k6]
    have hit : ConnRecv.items (rd ++ D) { r with buffer := q' } = r.items rd := by
      simp only [ConnRecv.items, hsa, hfa, List.append_assoc, ← k1]
    have hlen : r.buffer.segments.flatten.length = D.length + q'.segments.flatten.length := by
      rw [k1, List.length_append]
    have hN := items_length rd r
    refine ⟨q', out, io, D, e, k1, k2, k3, k4, k5, ⟨?_, ?_, ?_, k7, ?_, ?_, ?_⟩, hit, hsa, hfa⟩
    · rw [hit]; simp only; rw [hea, hr.end]
    · rw [hit]; simp only; rw [hst]; congr 1; omega
    · simp only [Conn.recvBufMax]; omega
    · simp only; rw [hfa]; exact hr.closed
    · simp only; rw [hfa, hsa]; exact hr.finSyn
    · simp only; rw [hsa]
      intro hh
      obtain ⟨j1, j2⟩ := hr.noSyn hh
      rw [j2] at k1
      simp only [List.flatten_nil] at k1
      have := List.append_eq_nil_iff.1 k1.symm
      refine ⟨by rw [j1, this.1]; rfl, ?_⟩
      cases hsg : q'.segments with
      | nil => rfl
      | cons d l =>
        have h1 := k7 d (by rw [hsg]; exact List.mem_cons_self ..)
        have h2 := this.2
        rw [hsg, List.flatten_cons, List.append_eq_nil_iff] at h2
        rw [h2.1] at h1
        simp at h1

end RecvProps
end Shadow.Tcp
