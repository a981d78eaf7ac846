import Verif.Tcp.SeqAt
import Verif.Tcp.Conn

/-!
# What the send queue holds and what is sent from it

The specification of a sender is the list of items it has put into the stream: the SYN, the
bytes written by the application, and the FIN.  Position `k` of the stream has sequence number
`pos iss k`.
-/
namespace Shadow.Tcp

open Shadow.Base

inductive Item where
  | syn
  | byte (b : Byte)
  | fin
deriving Repr, DecidableEq

/-- The stream of a sender that has written `bs` and, if `fin`, closed. -/
def streamItems (bs : List Byte) (fin : Bool) : List Item :=
  .syn :: (bs.map .byte ++ if fin then [.fin] else [])

def Segment.items : Segment → List Item
  | .data d => d.map .byte
  | .syn => [.syn]
  | .fin => [.fin]

/-- The items a packet carries. -/
def packetItems (f : Flags) (p : Payload) : List Item :=
  (if f.syn then [.syn] else []) ++ (p.flatten.map .byte ++ if f.fin then [.fin] else [])

def segItems (l : List Segment) : List Item := l.flatMap Segment.items

namespace SendProps

open SeqAt

theorem items_length (s : Segment) : s.items.length = s.len := by
  cases s <;> simp [Segment.items, Segment.len]

theorem segItems_nil : segItems [] = [] := rfl
theorem segItems_cons (s : Segment) (l : List Segment) : segItems (s :: l) = s.items ++ segItems l := by
  simp [segItems]
theorem segItems_append (l l' : List Segment) : segItems (l ++ l') = segItems l ++ segItems l' := by
  simp [segItems]

theorem streamItems_length (bs : List Byte) (fin : Bool) :
    (streamItems bs fin).length = 1 + bs.length + b2n fin := by
  cases fin <;> simp [streamItems, b2n] <;> omega

/-- The send queue holds the part of the stream from position `a` on. -/
structure SendAt (iss : Nat) (bs : List Byte) (a : Nat) (q : SendQueue) : Prop where
  start : q.startSeq = pos iss a
  «end» : q.endSeq = pos iss (streamItems bs q.finAdded).length
  le : a ≤ (streamItems bs q.finAdded).length
  bound : (streamItems bs q.finAdded).length ≤ a + Conn.sendBufMax + b2n q.finAdded
  items : segItems q.segments = (streamItems bs q.finAdded).drop a
  pos : ∀ s ∈ q.segments, 0 < s.len
  tx : q.transmittedUpTo < M

theorem SendAt.lt {iss bs a q} (h : SendAt iss bs a q) :
    (streamItems bs q.finAdded).length < a + M := by
  have := h.bound
  have : b2n q.finAdded ≤ 1 := by cases q.finAdded <;> simp [b2n]
  simp only [Conn.sendBufMax] at *
  omega

theorem SendAt.len {iss bs a q} (h : SendAt iss bs a q) :
    q.len = (streamItems bs q.finAdded).length - a := by
  simp only [SendQueue.len]
  rw [h.start, h.end, sub_pos _ _ _ h.le h.lt]

theorem sendAt_new (iss : Nat) (h : iss < M) : SendAt iss [] 0 (SendQueue.new iss) := by
  constructor
  · simp only [SendQueue.new]; rw [pos_zero iss h]
  · simp [SendQueue.new, streamItems, pos, Seq.add]
  · exact Nat.zero_le _
  · simp [SendQueue.new, streamItems, Conn.sendBufMax, b2n]
  · rfl
  · intro s hs
    simp only [SendQueue.new, List.mem_singleton] at hs
    subst hs; simp [Segment.len]
  · exact h

/-- Adding data. -/
theorem sendAt_addSegment_data {iss bs a q} (h : SendAt iss bs a q) (hf : q.finAdded = false)
    (d : List Byte) (hb : q.len + d.length ≤ Conn.sendBufMax) :
    ∃ q', q.addSegment (.data d) = .ok q' ∧ SendAt iss (bs ++ d) a q' ∧ q'.finAdded = false ∧
      q'.unused = q.unused ∧ q'.transmittedUpTo = q.transmittedUpTo ∧ q'.len = q.len + d.length := by
  have hlen : (streamItems (bs ++ d) false).length = (streamItems bs false).length + d.length := by
    simp only [streamItems_length, List.length_append]; omega
  have hsplit : streamItems (bs ++ d) false = streamItems bs false ++ d.map .byte := by
    simp [streamItems]
  have hl := h.len
  have hend := h.end
  have hle := h.le
  have hbound := h.bound
  have hitems := h.items
  rw [hf] at hl hend hle hbound hitems
  have hz : ¬ (Segment.data d) = .fin := by intro hh; cases hh
  by_cases hd : d.length = 0
  · have : d = [] := List.length_eq_zero_iff.1 hd
    subst this
    refine ⟨q, ?_, ?_, hf, rfl, rfl, (Nat.add_zero _).symm⟩
    · simp [SendQueue.addSegment, hf, Segment.len]
    · simpa using h
  · refine ⟨{ q with endSeq := Seq.add q.endSeq d.length, segments := q.segments ++ [.data d] }, ?_, ?_,
      hf, rfl, rfl, ?_⟩
    · simp [SendQueue.addSegment, hf, Segment.len, hd]
    · have hfa : ({ q with endSeq := Seq.add q.endSeq d.length, segments := q.segments ++ [.data d] } : SendQueue).finAdded
          = false := hf
      constructor
      · exact h.start
      · rw [hfa, hlen]; simp only; rw [hend, add_pos]
      · rw [hfa, hlen]; omega
      · rw [hfa, hlen]; omega
      · rw [hfa, hsplit, List.drop_append_of_le_length hle]
        simp only
        rw [segItems_append, hitems]
        simp [segItems, Segment.items]
      · intro s hs
        simp only [List.mem_append, List.mem_singleton] at hs
        rcases hs with hs | rfl
        · exact h.pos s hs
        · simp only [Segment.len]; omega
      · exact h.tx
    · simp only [SendQueue.len, h.start]
      rw [hend, add_pos, sub_pos _ _ _ (by omega) (by have := h.lt; rw [hf] at this; simp only [Conn.sendBufMax] at *; omega),
        sub_pos _ _ _ hle (by have := h.lt; rw [hf] at this; exact this)]
      omega

/-- Adding the FIN. -/
theorem sendAt_addFin {iss bs a q} (h : SendAt iss bs a q) (hf : q.finAdded = false) :
    ∃ q', q.addFin = .ok q' ∧ SendAt iss bs a q' ∧ q'.finAdded = true ∧
      q'.transmittedUpTo = q.transmittedUpTo ∧ q'.startSeq = q.startSeq := by
  have hlen : (streamItems bs true).length = (streamItems bs false).length + 1 := by
    simp only [streamItems_length, b2n]; simp
  have hsplit : streamItems bs true = streamItems bs false ++ [.fin] := by
    simp [streamItems]
  have hend := h.end
  have hle := h.le
  have hbound := h.bound
  have hitems := h.items
  rw [hf] at hend hle hbound hitems
  refine ⟨{ q with finAdded := true, endSeq := Seq.add q.endSeq 1, segments := q.segments ++ [.fin] }, ?_, ?_, rfl, rfl, rfl⟩
  · simp [SendQueue.addFin, SendQueue.addSegment, hf, Segment.len]
  · constructor
    · exact h.start
    · simp only; rw [hlen, hend, add_pos]
    · simp only; rw [hlen]; omega
    · simp only [b2n] at *; rw [hlen]; simp at *; omega
    · simp only
      rw [hsplit, List.drop_append_of_le_length hle, segItems_append, hitems]
      simp [segItems, Segment.items]
    · intro s hs
      simp only [List.mem_append, List.mem_singleton] at hs
      rcases hs with hs | rfl
      · exact h.pos s hs
      · simp [Segment.len]
    · exact h.tx

theorem addFin_panic (q : SendQueue) (h : q.finAdded = true) : q.addFin = .panic := by
  simp [SendQueue.addFin, SendQueue.addSegment, h]

theorem sendAt_unused {iss bs a q} (h : SendAt iss bs a q) (u : Nat) :
    SendAt iss bs a { q with unused := u } :=
  ⟨h.start, h.end, h.le, h.bound, h.items, h.pos, h.tx⟩


/-- `add_data` adds a prefix of what the reader gives: all of it, or what was read before the
    reader failed. -/
theorem addDataLoop_spec (iss a : Nat) : ∀ (fuel : Nat) (q : SendQueue) (bs src : List Byte) (n : Nat),
    n ≤ fuel → SendAt iss bs a q → q.finAdded = false → q.len + n ≤ Conn.sendBufMax →
    ∃ q' ok k, SendQueue.addDataLoop fuel q src n = .ok (q', ok) ∧ k ≤ n ∧
      SendAt iss (bs ++ src.take k) a q' ∧ k ≤ src.length ∧ q'.finAdded = false ∧
      (ok = true → k = n) ∧ (ok = false → src.length < n) ∧
      q'.transmittedUpTo = q.transmittedUpTo := by
  intro fuel
  induction fuel with
  | zero =>
    intro q bs src n hn h hf hb
    have : n = 0 := by omega
    subst this
    exact ⟨q, true, 0, by rw [SendQueue.addDataLoop]; rfl, Nat.le_refl _, by simpa using h, by omega, hf, fun _ => rfl, (fun hh => by cases hh), rfl⟩
  | succ fuel ih =>
    intro q bs src n hn h hf hb
    cases n with
    | zero =>
      exact ⟨q, true, 0, by rw [SendQueue.addDataLoop]; rfl, Nat.le_refl _, by simpa using h, by omega, hf, fun _ => rfl, (fun hh => by cases hh), rfl⟩
    | succ m =>
      rw [SendQueue.addDataLoop]
      have hu : 0 < (if q.unused = 0 then max (min (m + 1) 10000) 2000 else q.unused) := by
        split <;> omega
      generalize (if q.unused = 0 then max (min (m + 1) 10000) 2000 else q.unused) = u at hu ⊢
      have h1 := sendAt_unused h (u - min (m + 1) u)
      have ht0 : 0 < min (m + 1) u := by omega
      have ht1 : min (m + 1) u ≤ m + 1 := by omega
      generalize hx : u - min (m + 1) u = x at h1 ⊢
      generalize min (m + 1) u = t at ht0 ht1 ⊢
      by_cases hs : src.length < t
      · rw [if_pos hs]
        refine ⟨_, _, 0, rfl, Nat.zero_le _, by simpa using h1, by omega, hf, (fun hh => by cases hh), fun _ => ?_, rfl⟩
        omega
      · rw [if_neg hs]
        have hl : (src.take t).length = t := by rw [List.length_take]; omega
        have hql : ({ q with unused := x } : SendQueue).len = q.len := rfl
        obtain ⟨q1, e1, h2, f2, u2, t2, l2⟩ := sendAt_addSegment_data h1 hf (src.take t) (by rw [hl, hql]; omega)
        rw [hl, hql] at l2
        rw [e1, R.bind_ok]
        obtain ⟨q', ok, k, e3, k3, h3, l3, f3, o3, o3', t3⟩ :=
          ih q1 (bs ++ src.take t) (src.drop t) (m + 1 - t) (by omega) h2 f2 (by omega)
        refine ⟨q', ok, t + k, e3, by omega, ?_, ?_, f3, fun ho => ?_, fun ho => ?_, t3.trans t2⟩
        · rw [List.append_assoc] at h3
          rw [List.take_add]
          exact h3
        · rw [List.length_drop] at l3; omega
        · have := o3 ho; omega
        · have := o3' ho; rw [List.length_drop] at this; omega

theorem addData_spec {iss a : Nat} {q : SendQueue} {bs : List Byte} (src : List Byte) (n : Nat)
    (h : SendAt iss bs a q) (hf : q.finAdded = false) (hb : q.len + n ≤ Conn.sendBufMax) :
    ∃ q' ok k, q.addData src n = .ok (q', ok) ∧ k ≤ n ∧
      SendAt iss (bs ++ src.take k) a q' ∧ k ≤ src.length ∧ q'.finAdded = false ∧
      (ok = true → k = n) ∧ (ok = false → src.length < n) ∧
      q'.transmittedUpTo = q.transmittedUpTo :=
  addDataLoop_spec iss a n q bs src n (Nat.le_refl _) h hf hb

/-! ### Acknowledgements -/

theorem seg_nonempty {s : Segment} (h : 0 < s.len) : s.items ≠ [] := by
  intro hh
  have := items_length s
  rw [hh] at this
  simp at this; omega

/-- Dropping a front segment. -/
theorem drop_front {L : List Item} {c : Nat} {s : Segment} {rest : List Segment}
    (h : segItems (s :: rest) = L.drop c) : segItems rest = L.drop (c + s.len) ∧ s.items <+: L.drop c ∧
      c + s.len ≤ L.length ∨ s.len = 0 := by
  by_cases h0 : s.len = 0
  · exact .inr h0
  · left
    rw [segItems_cons] at h
    refine ⟨?_, ⟨_, h⟩, ?_⟩
    · rw [← List.drop_drop, ← h, ← items_length, List.drop_left]
    · have := congrArg List.length h
      rw [List.length_append, items_length, List.length_drop] at this
      omega

theorem advanceLoop_spec (iss p : Nat) (L : List Item) : ∀ (segs : List Segment) (c : Nat),
    segItems segs = L.drop c → (∀ s ∈ segs, 0 < s.len) → c ≤ p → p ≤ L.length → L.length < c + M →
    ∃ segs', SendQueue.advanceLoop segs (pos iss c) (pos iss p) = .ok (segs', pos iss p) ∧
      segItems segs' = L.drop p ∧ ∀ s ∈ segs', 0 < s.len := by
  intro segs
  induction segs with
  | nil =>
    intro c h hp hcp hpL hL
    have : L.length ≤ c := by
      have := congrArg List.length h
      rw [List.length_drop] at this
      simp [segItems] at this; omega
    have : c = p := by omega
    subst this
    refine ⟨[], ?_, h, hp⟩
    rw [SendQueue.advanceLoop, if_pos rfl]
  | cons s rest ih =>
    intro c h hp hcp hpL hL
    unfold SendQueue.advanceLoop
    by_cases hcp' : c = p
    · subst hcp'
      rw [if_pos rfl]
      exact ⟨_, rfl, h, hp⟩
    · have hne : ¬ pos iss c = pos iss p := fun hh => hcp' (pos_inj hh hcp (by omega))
      rw [if_neg hne]
      simp only
      rw [sub_pos _ _ _ hcp (by omega), add_pos]
      have hpos := hp s (List.mem_cons_self ..)
      obtain ⟨h1, h2, h3⟩ := (drop_front h).resolve_right (by omega)
      by_cases hle : s.len ≤ p - c
      · rw [if_pos hle]
        exact ih (c + s.len) h1 (fun x hx => hp x (List.mem_cons_of_mem _ hx)) (by omega) hpL (by omega)
      · rw [if_neg hle]
        cases s with
        | syn => simp only [Segment.len] at hle; omega
        | fin => simp only [Segment.len] at hle; omega
        | data d =>
          simp only [Segment.len] at hle hpos
          have hd : (d.drop (p - c)).length ≠ 0 := by rw [List.length_drop]; omega
          have hd' : (d.drop (p - c)).isEmpty = false := by
            cases hdd : d.drop (p - c) with
            | nil => rw [hdd] at hd; simp at hd
            | cons _ _ => rfl
          simp only [hd', Bool.not_false, R.assert_true, R.bind_ok, R.pure_eq]
          rw [add_pos]
          have hcp3 : c + (p - c) = p := by omega
          rw [hcp3]
          refine ⟨_, rfl, ?_, ?_⟩
          · rw [segItems_cons] at h ⊢
            have : L.drop p = (L.drop c).drop (p - c) := by rw [List.drop_drop, hcp3]
            rw [this, ← h, List.drop_append_of_le_length (by simp only [Segment.items, List.length_map]; omega)]
            simp [Segment.items]
          · intro x hx
            rcases List.mem_cons.1 hx with rfl | hx
            · simp only [Segment.len]; omega
            · exact hp x (List.mem_cons_of_mem _ hx)

/-- An acknowledgement of position `p` in the queue moves its start to `p`. -/
theorem advanceStart_spec {iss a p : Nat} {q : SendQueue} {bs : List Byte} (h : SendAt iss bs a q)
    (h1 : a ≤ p) (h2 : p ≤ (streamItems bs q.finAdded).length) :
    ∃ q', q.advanceStart (pos iss p) = .ok q' ∧ SendAt iss bs p q' ∧
      q'.transmittedUpTo = q.transmittedUpTo ∧ q'.finAdded = q.finAdded ∧ q'.endSeq = q.endSeq := by
  obtain ⟨segs', e, h3, h4⟩ := advanceLoop_spec iss p _ q.segments a h.items h.pos h1 h2 h.lt
  have hc : (q.contains (pos iss p) || pos iss p == q.endSeq) = true := by
    rw [Bool.or_eq_true]
    by_cases hp : p = (streamItems bs q.finAdded).length
    · right; rw [h.end, hp]; simp
    · left
      simp only [SendQueue.contains]
      rw [h.start, h.end]
      exact (contains_pos_pos _ _ _ _ h.le h.lt h1 (by have := h.lt; omega)).2 (by omega)
  refine ⟨{ q with segments := segs', startSeq := pos iss p }, ?_, ?_, rfl, rfl, rfl⟩
  · simp only [SendQueue.advanceStart, hc, R.assert_true, R.bind_ok]
    rw [h.start, e]; rfl
  · exact ⟨rfl, h.end, h2, Nat.le_trans h.bound (by simp only; omega), h3, h4, h.tx⟩

/-! ### The next segment -/

theorem findSegment_spec (iss p : Nat) (L : List Item) : ∀ (segs : List Segment) (c : Nat),
    segItems segs = L.drop c → (∀ s ∈ segs, 0 < s.len) → c ≤ p → p < L.length → L.length < c + M →
    ∃ seg, SendQueue.findSegment segs (pos iss c) (pos iss p) = .ok seg ∧
      seg.items <+: L.drop p ∧ 0 < seg.len := by
  intro segs
  induction segs with
  | nil =>
    intro c h hp hcp hpL hL
    have := congrArg List.length h
    rw [List.length_drop] at this
    simp [segItems] at this; omega
  | cons s rest ih =>
    intro c h hp hcp hpL hL
    unfold SendQueue.findSegment
    rw [add_pos]
    have hpos := hp s (List.mem_cons_self ..)
    obtain ⟨h1, h2, h3⟩ := (drop_front h).resolve_right (by omega)
    have hc := contains_pos_pos iss c (c + s.len) p (by omega) (by omega) hcp (by omega)
    by_cases hlt : p < c + s.len
    · rw [if_pos (hc.2 hlt)]
      cases s with
      | syn =>
        simp only [Segment.len] at hlt
        have : p = c := by omega
        subst this
        exact ⟨_, rfl, h2, hpos⟩
      | fin =>
        simp only [Segment.len] at hlt
        have : p = c := by omega
        subst this
        exact ⟨_, rfl, h2, hpos⟩
      | data d =>
        simp only [Segment.len] at hlt hpos
        simp only
        rw [sub_pos _ _ _ hcp (by omega)]
        refine ⟨_, rfl, ?_, ?_⟩
        · have : L.drop p = (L.drop c).drop (p - c) := by rw [List.drop_drop]; congr 1; omega
          obtain ⟨t, ht⟩ := h2
          rw [this, ← ht, List.drop_append_of_le_length (by simp only [Segment.items, List.length_map]; omega)]
          simp only [Segment.items, ← List.map_drop]
          exact ⟨t, rfl⟩
        · simp only [Segment.len, List.length_drop]; omega
    · rw [if_neg (mt hc.1 hlt)]
      exact ih (c + s.len) h1 (fun x hx => hp x (List.mem_cons_of_mem _ hx)) (by omega) hpL (by omega)

theorem nextNotTransmitted_spec {iss a : Nat} {q : SendQueue} {bs : List Byte} (h : SendAt iss bs a q)
    (off : Nat) :
    (q.nextNotTransmitted off = .ok none ∧
      ∀ p, a ≤ p → p < (streamItems bs q.finAdded).length → Seq.add q.transmittedUpTo off ≠ pos iss p) ∨
    ∃ p seg, q.nextNotTransmitted off = .ok (some (pos iss p, seg)) ∧
      Seq.add q.transmittedUpTo off = pos iss p ∧ a ≤ p ∧
      p < (streamItems bs q.finAdded).length ∧
      seg.items <+: (streamItems bs q.finAdded).drop p ∧ 0 < seg.len := by
  have hlt : Seq.add q.transmittedUpTo off < M := Nat.mod_lt _ (by omega)
  have hc := contains_pos iss a _ _ h.le h.lt hlt
  simp only [SendQueue.nextNotTransmitted]
  by_cases hb : q.contains (Seq.add q.transmittedUpTo off) = true
  · right
    have hb' := hb
    simp only [SendQueue.contains] at hb'
    rw [h.start, h.end] at hb'
    obtain ⟨p, h1, h2, h3⟩ := hc.1 hb'
    obtain ⟨seg, e, h4, h5⟩ := findSegment_spec iss p _ q.segments a h.items h.pos h1 h2 h.lt
    refine ⟨p, seg, ?_, h3, h1, h2, h4, h5⟩
    rw [if_pos hb, h3, h.start, e]; rfl
  · left
    refine ⟨by rw [if_neg hb]; rfl, ?_⟩
    intro p h1 h2 h3
    apply hb
    simp only [SendQueue.contains]
    rw [h.start, h.end]
    exact hc.2 ⟨p, h1, h2, h3⟩

end SendProps
end Shadow.Tcp
