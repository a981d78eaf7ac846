import Verif.Tcp.PopProps

/-!
# Trimming a segment to the receive window

`slice n w s X` is the part of `X`, whose first element is at position `s`, that lies at positions
`n, …, n + w - 1`.  `trim_spec` says that `trim_segment` computes exactly this slice of the items of
a packet, provided the packet's range and the window are not confused by the wrap of sequence
numbers.
-/
namespace Shadow.Tcp

open Shadow.Base

def slice {α} (n w s : Nat) (X : List α) : List α := (X.drop (n - s)).take (n + w - max s n)

namespace TrimProps

open SeqAt SeqProps SendProps

/-! ### Slices -/

theorem slice_nil {α} (n w s : Nat) : slice n w s ([] : List α) = [] := by simp [slice]

theorem slice_append {α} (n w s : Nat) (X Y : List α) :
    slice n w s (X ++ Y) = slice n w s X ++ slice n w (s + X.length) Y := by
  simp only [slice, List.drop_append, List.take_append, List.length_drop]
  congr 1
  have h1 : n - s - X.length = n - (s + X.length) := by omega
  rw [h1]
  by_cases h : s + X.length ≤ n
  · congr 1; omega
  · congr 1; omega

theorem slice_one {α} (n w s : Nat) (x : α) :
    slice n w s [x] = if n ≤ s ∧ s < n + w then [x] else [] := by
  simp only [slice]
  by_cases h1 : n ≤ s
  · have : n - s = 0 := by omega
    rw [this, List.drop_zero]
    by_cases h2 : s < n + w
    · rw [if_pos ⟨h1, h2⟩, List.take_of_length_le]
      simp; omega
    · rw [if_neg (by omega)]
      have : n + w - max s n = 0 := by omega
      rw [this]; rfl
  · rw [if_neg (by omega), List.drop_of_length_le (by simp; omega)]; simp

theorem slice_all {α} (n w s : Nat) (X : List α) (h1 : n ≤ s) (h2 : s + X.length ≤ n + w) :
    slice n w s X = X := by
  simp only [slice]
  have : n - s = 0 := by omega
  rw [this, List.drop_zero, List.take_of_length_le]
  omega

theorem slice_out {α} (n w s : Nat) (X : List α) (h : s + X.length ≤ n ∨ n + w ≤ s ∨ w = 0) :
    slice n w s X = [] := by
  simp only [slice]
  rcases h with h | h | h
  · rw [List.drop_of_length_le (by omega)]; simp
  · have : n + w - max s n = 0 := by omega
    rw [this]; rfl
  · have : n + w - max s n = 0 := by omega
    rw [this]; rfl

theorem slice_map {α β} (f : α → β) (n w s : Nat) (X : List α) : slice n w s (X.map f) = (slice n w s X).map f := by
  simp [slice]

theorem slice_prefix {α} {L : List α} {n w s : Nat} {X : List α} (h : X <+: L.drop s) (hs : s ≤ n) :
    slice n w s X <+: L.drop n := by
  simp only [slice]
  have h1 : X.drop (n - s) <+: (L.drop s).drop (n - s) := by
    obtain ⟨t, ht⟩ := h
    rw [← ht, List.drop_append]
    exact List.prefix_append _ _
  rw [List.drop_drop] at h1
  have : s + (n - s) = n := by omega
  rw [this] at h1
  exact (List.take_prefix _ _).trans h1

theorem slice_length_le {α} (n w s : Nat) (X : List α) : (slice n w s X).length ≤ w := by
  simp only [slice, List.length_take]; omega

/-! ### Ranges of positions -/

/-- Membership in a range of positions close to it. -/
theorem contains_pos_any (i a e x : Nat) (h1 : a ≤ e) (h2 : e < a + M) (h3 : e < x + M) (h4 : x < a + M) :
    SeqRange.contains ⟨pos i a, pos i e⟩ (pos i x) = true ↔ a ≤ x ∧ x < e := by
  by_cases h : a ≤ x
  · rw [contains_pos_pos i a e x h1 h2 h h4]; omega
  · have hx : pos i x = pos i (x + M) := by simp only [pos]; omega
    rw [hx, contains_pos_pos i a e (x + M) h1 h2 (by omega) (by omega)]
    omega

theorem isEmpty_pos (i a l : Nat) (h : l < M) :
    SeqRange.isEmpty ⟨pos i a, pos i (a + l)⟩ = true ↔ l = 0 := by
  simp only [SeqRange.isEmpty, len_pos i a l h, beq_iff_eq]

theorem subN_one (i x : Nat) (h : 0 < x) : Seq.subN (pos i x) 1 = pos i (x - 1) := by
  simp only [Seq.subN, pos]; omega

/-- When two ranges of positions have an intersection according to the code. -/
def Meet (p L n w : Nat) : Prop :=
  (0 < L ∧ 0 < w ∧ p < n + w ∧ n < p + L) ∨ (L = 0 ∧ 0 < w ∧ n ≤ p ∧ p < n + w) ∨
    (w = 0 ∧ 0 < L ∧ p ≤ n ∧ n < p + L) ∨ (L = 0 ∧ w = 0 ∧ p = n)

theorem inter_pos (i p L n w : Nat) (hL : L < M) (hw : w < M) (h1 : n + w < p + M) (h2 : p + L < n + M) :
    (Meet p L n w ∧ SeqRange.intersection ⟨pos i p, pos i (p + L)⟩ ⟨pos i n, pos i (n + w)⟩ =
      some ⟨pos i (max p n), pos i (min (p + L) (n + w))⟩) ∨
    (¬ Meet p L n w ∧ SeqRange.intersection ⟨pos i p, pos i (p + L)⟩ ⟨pos i n, pos i (n + w)⟩ = none) := by
  have ea := isEmpty_pos i p L hL
  have eb := isEmpty_pos i n w hw
  have c1 := contains_pos_any i n (n + w) p (by omega) (by omega) (by omega) (by omega)
  have c2 := contains_pos_any i p (p + L) n (by omega) (by omega) (by omega) (by omega)
  simp only [SeqRange.intersection]
  by_cases hL0 : L = 0
  · rw [if_pos (ea.2 hL0)]
    by_cases hw0 : w = 0
    · rw [if_pos (eb.2 hw0)]
      subst hL0 hw0
      simp only [Nat.add_zero]
      by_cases hpn : p = n
      · subst hpn
        left
        exact ⟨.inr (.inr (.inr ⟨rfl, rfl, rfl⟩)), by simp⟩
      · right
        refine ⟨by simp only [Meet]; omega, ?_⟩
        rw [if_neg]
        intro hh
        simp only [SeqRange.mk.injEq, and_self] at hh
        rcases Nat.le_total p n with hle | hle
        · exact hpn (pos_inj hh hle (by omega))
        · exact hpn (pos_inj hh.symm hle (by omega)).symm
    · rw [if_neg (mt eb.1 hw0)]
      by_cases hc : n ≤ p ∧ p < n + w
      · rw [if_pos (c1.2 hc)]
        left
        refine ⟨.inr (.inl ⟨hL0, by omega, hc.1, hc.2⟩), ?_⟩
        have e1 : max p n = p := by omega
        have e2 : min (p + L) (n + w) = p + L := by omega
        rw [e1, e2]
      · rw [if_neg (mt c1.1 hc)]
        right
        exact ⟨by simp only [Meet]; omega, rfl⟩
  · rw [if_neg (mt ea.1 hL0)]
    by_cases hw0 : w = 0
    · rw [if_pos (eb.2 hw0)]
      by_cases hc : p ≤ n ∧ n < p + L
      · rw [if_pos (c2.2 hc)]
        left
        refine ⟨.inr (.inr (.inl ⟨hw0, by omega, hc.1, hc.2⟩)), ?_⟩
        have e1 : max p n = n := by omega
        have e2 : min (p + L) (n + w) = n + w := by omega
        rw [e1, e2]
      · rw [if_neg (mt c2.1 hc)]
        right
        exact ⟨by simp only [Meet]; omega, rfl⟩
    · rw [if_neg (mt eb.1 hw0)]
      have c3 := contains_pos_any i n (n + w) (p + L - 1) (by omega) (by omega) (by omega) (by omega)
      have c4 := contains_pos_any i p (p + L) (n + w - 1) (by omega) (by omega) (by omega) (by omega)
      rw [subN_one i (p + L) (by omega), subN_one i (n + w) (by omega)]
      by_cases hs : n ≤ p ∧ p < n + w
      · rw [if_pos (c1.2 hs)]
        by_cases he : n ≤ p + L - 1 ∧ p + L - 1 < n + w
        · rw [if_pos (c3.2 he), sub_pos i n p hs.1 (by omega), sub_pos i n (p + L) (by omega) (by omega),
            if_pos (by omega)]
          left
          refine ⟨.inl (by omega), ?_⟩
          have e1 : max p n = p := by omega
          have e2 : min (p + L) (n + w) = p + L := by omega
          rw [e1, e2]
        · rw [if_neg (mt c3.1 he)]
          left
          refine ⟨.inl (by omega), ?_⟩
          have e1 : max p n = p := by omega
          have e2 : min (p + L) (n + w) = n + w := by omega
          rw [e1, e2]
      · rw [if_neg (mt c1.1 hs)]
        by_cases he : n ≤ p + L - 1 ∧ p + L - 1 < n + w
        · rw [if_pos (c3.2 he)]
          left
          refine ⟨.inl (by omega), ?_⟩
          have e1 : max p n = n := by omega
          have e2 : min (p + L) (n + w) = p + L := by omega
          rw [e1, e2]
        · rw [if_neg (mt c3.1 he)]
          by_cases hin : (p ≤ n ∧ n < p + L) ∧ (p ≤ n + w - 1 ∧ n + w - 1 < p + L)
          · rw [if_pos (by rw [c2.2 hin.1, c4.2 hin.2]; rfl)]
            left
            refine ⟨.inl (by omega), ?_⟩
            have e1 : max p n = n := by omega
            have e2 : min (p + L) (n + w) = n + w := by omega
            rw [e1, e2]
          · rw [if_neg]
            · right
              exact ⟨by simp only [Meet]; omega, rfl⟩
            · intro hh
              rw [Bool.and_eq_true] at hh
              exact hin ⟨c2.1 hh.1, c4.1 hh.2⟩

/-! ### Chunks and payloads -/

theorem take_drop_slice {α} (X : List α) (n w s : Nat) :
    (X.drop (max s n - s)).take (min (s + X.length) (n + w) - max s n) = slice n w s X := by
  simp only [slice]
  have h1 : max s n - s = n - s := by omega
  rw [h1]
  by_cases h : s + X.length ≤ n + w
  · rw [List.take_of_length_le (by rw [List.length_drop]; omega),
      List.take_of_length_le (by rw [List.length_drop]; omega)]
  · congr 1; omega

/-- The bytes a trimmed chunk keeps. -/
theorem trimChunk_spec (i s n w : Nat) (c : List Byte) (hL : c.length < M) (hw : w < M)
    (h1 : n + w < s + M) (h2 : s + c.length < n + M) :
    ((trimChunk (pos i s) c ⟨pos i n, pos i (n + w)⟩).map (·.2)).getD [] = slice n w s c := by
  rw [trimChunk, add_pos]
  rcases inter_pos i s c.length n w hL hw h1 h2 with ⟨hm, e⟩ | ⟨hm, e⟩
  · rw [e, Option.map_some, Option.map_some, Option.getD_some]
    simp only [SeqRange.len]
    have hle : max s n ≤ min (s + c.length) (n + w) := by simp only [Meet] at hm; omega
    rw [sub_pos i s (max s n) (by omega) (by omega), sub_pos i _ _ hle (by omega), take_drop_slice]
  · rw [e, Option.map_none, Option.map_none, Option.getD_none]
    rw [slice_out]
    simp only [Meet] at hm
    omega

theorem trimChunks_spec (i n w : Nat) (hw : w < M) : ∀ (pl : Payload) (s : Nat), n + w < s + M →
    s + pl.flatten.length < n + M → pl.flatten.length < M →
    (trimChunks (pos i s) ⟨pos i n, pos i (n + w)⟩ pl).flatten = slice n w s pl.flatten := by
  intro pl
  induction pl with
  | nil => intro s _ _ _; simp [trimChunks, slice_nil]
  | cons c l ih =>
    intro s h1 h2 h3
    simp only [List.flatten_cons, List.length_append] at h2 h3 ⊢
    rw [trimChunks, add_pos, List.flatten_cons, ih (s + c.length) (by omega) (by omega) (by omega),
      slice_append, trimChunk_spec i s n w c (by omega) hw h1 (by omega)]

theorem max_eq_of_pos {i p n : Nat} (h : pos i (max p n) = pos i p) (h2 : n < p + M) : max p n = p :=
  (pos_inj h.symm (by omega) (by omega)).symm

theorem min_eq_of_pos {i x y : Nat} (h : pos i (min x y) = pos i x) (h2 : x < y + M) : min x y = x :=
  pos_inj h (by omega) (by omega)

/-- The payload after trimming. -/
theorem trimPayload_spec (i s n w : Nat) (pl : Payload) (hL : pl.flatten.length < M) (hw : w < M)
    (h1 : n + w < s + M) (h2 : s + pl.flatten.length < n + M) :
    (¬ Meet s pl.flatten.length n w ∧ trimPayload (pos i s) pl pl.flatten.length ⟨pos i n, pos i (n + w)⟩ = none) ∨
    (Meet s pl.flatten.length n w ∧ ∃ pl', trimPayload (pos i s) pl pl.flatten.length ⟨pos i n, pos i (n + w)⟩ =
      some (pos i (max s n), pl') ∧ pl'.flatten = slice n w s pl.flatten) := by
  rw [trimPayload, add_pos]
  rcases inter_pos i s _ n w hL hw h1 h2 with ⟨hm, e⟩ | ⟨hm, e⟩
  · right
    refine ⟨hm, ?_⟩
    rw [e, Option.map_some]
    by_cases he : (⟨pos i s, pos i (s + pl.flatten.length)⟩ : SeqRange) =
        ⟨pos i (max s n), pos i (min (s + pl.flatten.length) (n + w))⟩
    · rw [if_pos he]
      simp only [SeqRange.mk.injEq] at he
      have e1 := max_eq_of_pos he.1.symm (by omega)
      have e2 := min_eq_of_pos he.2.symm (by omega)
      refine ⟨pl, by rw [e1], ?_⟩
      rw [slice_all _ _ _ _ (by omega) (by omega)]
    · rw [if_neg he]
      exact ⟨_, rfl, trimChunks_spec i n w hw pl s h1 h2 hL⟩
  · left
    exact ⟨hm, by rw [e, Option.map_none]⟩

/-! ### Segments -/

theorem payload_len {pl : Payload} (h : pl.flatten.length < M) : Payload.len pl = .ok pl.flatten.length := by
  simp only [Payload.len]; rw [if_pos h]

/-- The items of a packet kept by the window, by flag and payload. -/
theorem slice_items (n w p : Nat) (f : Flags) (pl : Payload) :
    slice n w p (packetItems f pl) =
      (if f.syn ∧ n ≤ p ∧ p < n + w then [.syn] else []) ++
      ((slice n w (p + b2n f.syn) pl.flatten).map .byte ++
      (if f.fin ∧ n ≤ p + b2n f.syn + pl.flatten.length ∧ p + b2n f.syn + pl.flatten.length < n + w
        then [.fin] else [])) := by
  simp only [packetItems]
  rw [slice_append, slice_append, slice_map]
  have hl : p + (if f.syn = true then [Item.syn] else []).length = p + b2n f.syn := by
    cases f.syn <;> simp [b2n]
  rw [hl, List.length_map]
  congr 1
  · cases f.syn
    · simp [slice_nil]
    · simp only [if_true, true_and]; rw [slice_one]
  · congr 1
    cases f.fin
    · simp [slice_nil]
    · simp only [if_true, true_and]; rw [slice_one]

/-- `trim_segment` never fails and keeps exactly the items inside the window. -/
theorem trim_spec (i p n w : Nat) (h : Header) (pl : Payload) (hp : Seq.new h.seq = pos i p)
    (hL : (packetItems h.flags pl).length < M) (hw : w < M)
    (h1 : n + w < p + M) (h2 : p + (packetItems h.flags pl).length < n + M) :
    (trimSegment h pl ⟨pos i n, pos i (n + w)⟩ = .ok none ∧ slice n w p (packetItems h.flags pl) = [] ∧
      ¬ Meet p (packetItems h.flags pl).length n w) ∨
    ∃ h' pl', trimSegment h pl ⟨pos i n, pos i (n + w)⟩ = .ok (some (h', pl')) ∧
      Meet p (packetItems h.flags pl).length n w ∧
      Seq.new h'.seq = pos i (max p n) ∧
      packetItems h'.flags pl' = slice n w p (packetItems h.flags pl) ∧
      h'.flags.rst = h.flags.rst ∧ h'.flags.ack = h.flags.ack ∧ h'.ack = h.ack ∧
      h'.windowSize = h.windowSize ∧ h'.windowScale = h.windowScale ∧
      (h'.flags.syn = true → h.flags.syn = true ∧ n ≤ p) := by
  have hlen := packetItems_length h.flags pl
  have hpl : pl.flatten.length < M := by omega
  have hsum : p + b2n h.flags.syn + pl.flatten.length + b2n h.flags.fin = p + (packetItems h.flags pl).length := by
    omega
  have hr : segmentRange h (pos i p) pl.flatten.length = ⟨pos i p, pos i (p + (packetItems h.flags pl).length)⟩ := by
    rw [segmentRange, add_pos, add_pos, add_pos, hsum]
  have hts : trimSegment h pl ⟨pos i n, pos i (n + w)⟩ =
      (SeqRange.intersection ⟨pos i p, pos i (p + (packetItems h.flags pl).length)⟩ ⟨pos i n, pos i (n + w)⟩).elim (.ok none)
        (trimAt h pl (pos i p) pl.flatten.length ⟨pos i p, pos i (p + (packetItems h.flags pl).length)⟩ ⟨pos i n, pos i (n + w)⟩) := by
    rw [trimSegment, payload_len hpl, R.bind_ok, hp, hr]
  rw [hts]
  clear hts hr
  generalize hLL : (packetItems h.flags pl).length = L at *
  rcases inter_pos i p L n w hL hw h1 h2 with ⟨hm, e⟩ | ⟨hm, e⟩
  · right
    rw [e, Option.elim_some, trimAt]
    by_cases he : (⟨pos i (max p n), pos i (min (p + L) (n + w))⟩ : SeqRange) = ⟨pos i p, pos i (p + L)⟩
    · rw [if_pos he]
      simp only [SeqRange.mk.injEq] at he
      have e1 := max_eq_of_pos he.1 (by omega)
      have e2 := min_eq_of_pos he.2 (by omega)
      refine ⟨h, pl, rfl, hm, by rw [hp, e1], ?_, rfl, rfl, rfl, rfl, rfl, fun hh => ⟨hh, by omega⟩⟩
      rw [slice_all _ _ _ _ (by omega) (by omega)]
    · rw [if_neg he]
      simp only [add_pos]
      have hsyn : b2n h.flags.syn ≤ 1 := by cases h.flags.syn <;> simp [b2n]
      -- the SYN and the FIN
      have c1 := contains_pos_any i n (n + w) p (by omega) (by omega) (by omega) (by omega)
      have cF : ∀ hf : h.flags.fin = true, SeqRange.contains ⟨pos i n, pos i (n + w)⟩ (Seq.subN (pos i (p + L)) 1) = true ↔
          (n ≤ p + b2n h.flags.syn + pl.flatten.length ∧ p + b2n h.flags.syn + pl.flatten.length < n + w) := by
        intro hf
        rw [hf, show b2n true = 1 from rfl] at hlen hsum
        rw [subN_one i (p + L) (by omega), contains_pos_any i n (n + w) (p + L - 1) (by omega) (by omega) (by omega) (by omega)]
        constructor <;> intro hh <;> constructor <;> omega
      have iS : (h.flags.syn && SeqRange.contains ⟨pos i n, pos i (n + w)⟩ (pos i p)) = true ↔
          (h.flags.syn = true ∧ n ≤ p ∧ p < n + w) := by
        rw [Bool.and_eq_true, c1]
      have iF : (h.flags.fin && SeqRange.contains ⟨pos i n, pos i (n + w)⟩ (Seq.subN (pos i (p + L)) 1)) = true ↔
          (h.flags.fin = true ∧ n ≤ p + b2n h.flags.syn + pl.flatten.length ∧
            p + b2n h.flags.syn + pl.flatten.length < n + w) := by
        rw [Bool.and_eq_true]
        constructor
        · rintro ⟨k1, k2⟩; exact ⟨k1, (cF k1).1 k2⟩
        · rintro ⟨k1, k2⟩; exact ⟨k1, (cF k1).2 k2⟩
      generalize (h.flags.syn && SeqRange.contains ⟨pos i n, pos i (n + w)⟩ (pos i p)) = bS at iS ⊢
      generalize (h.flags.fin && SeqRange.contains ⟨pos i n, pos i (n + w)⟩ (Seq.subN (pos i (p + L)) 1)) = bF at iF ⊢
      have hS' : (if h.flags.syn ∧ n ≤ p ∧ p < n + w then [Item.syn] else []) = if bS then [.syn] else [] := by
        by_cases hh : h.flags.syn = true ∧ n ≤ p ∧ p < n + w
        · rw [if_pos hh, if_pos (iS.2 hh)]
        · rw [if_neg hh, if_neg (mt iS.1 hh)]
      have hF' : (if h.flags.fin ∧ n ≤ p + b2n h.flags.syn + pl.flatten.length ∧
          p + b2n h.flags.syn + pl.flatten.length < n + w then [Item.fin] else []) = if bF then [.fin] else [] := by
        by_cases hh : h.flags.fin = true ∧ n ≤ p + b2n h.flags.syn + pl.flatten.length ∧
            p + b2n h.flags.syn + pl.flatten.length < n + w
        · rw [if_pos hh, if_pos (iF.2 hh)]
        · rw [if_neg hh, if_neg (mt iF.1 hh)]
      rcases trimPayload_spec i (p + b2n h.flags.syn) n w pl hpl hw (by omega) (by omega) with ⟨hm', e'⟩ | ⟨hm', pl', e', hs'⟩
      · rw [e', Option.elim_none]
        refine ⟨_, _, rfl, hm, new_pos _ _, ?_, rfl, rfl, rfl, rfl, rfl, fun hh => ⟨(iS.1 hh).1, (iS.1 hh).2.1⟩⟩
        rw [slice_items, hS', hF', slice_out]
        · cases bS <;> cases bF <;> simp [packetItems, trimHeader]
        · simp only [Meet] at hm'; omega
      · rw [e', Option.elim_some]
        have hassert : (pos i (max (p + b2n h.flags.syn) n) == pos i (max p n + b2n bS)) = true := by
          rw [beq_iff_eq]
          congr 1
          cases hb : bS with
          | true =>
            have := iS.1 hb
            have hb1 : b2n h.flags.syn = 1 := by rw [this.1]; rfl
            rw [hb1]; simp only [b2n, if_true]; omega
          | false =>
            simp only [b2n, Bool.false_eq_true, if_false]
            cases hsf : h.flags.syn with
            | false => simp
            | true =>
              have hn : ¬ (n ≤ p ∧ p < n + w) := by
                intro hh
                have := iS.2 ⟨hsf, hh⟩
                rw [hb] at this; cases this
              rw [hsf] at hm'
              simp only [b2n, if_true, Meet] at hm'
              simp only [Meet] at hm
              simp only [if_true]
              omega
        simp only [hassert, R.assert_true, R.pure_eq, R.bind_ok]
        refine ⟨_, _, rfl, hm, new_pos _ _, ?_, rfl, rfl, rfl, rfl, rfl, fun hh => ⟨(iS.1 hh).1, (iS.1 hh).2.1⟩⟩
        rw [slice_items, hS', hF', ← hs']
        cases bS <;> cases bF <;> simp [packetItems, trimHeader]
  · left
    rw [e, Option.elim_none]
    refine ⟨rfl, ?_, hm⟩
    rw [slice_out]
    simp only [Meet] at hm
    omega

end TrimProps
end Shadow.Tcp
