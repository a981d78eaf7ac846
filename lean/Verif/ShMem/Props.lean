import Verif.ShMem.Model

/-!
# C45: the shared-memory allocator

A history is any sequence of allocations, drops and `shfree`s. Beside the allocator it keeps what a user knows: the blocks
in use and the blocks dropped, each with the size and the alignment it was asked for. A chunk may be mapped anywhere but
over another one.
-/
namespace Shadow.ShMem

open Shadow.Base

/-! ## Specification -/

/-- A block as its user sees it. -/
structure Blk where
  addr : Nat
  size : Nat
  align : Nat
deriving Repr, DecidableEq

/-- What the layout has to satisfy: the alignment of a header is a power of two, headers are not empty, a chunk is smaller
    than 4 GiB. -/
structure Layout.Ok (l : Layout) : Prop where
  align : isPow2 l.blockAlign = true
  hdr : 0 < l.blockHdr
  chdr : 0 < l.chunkHdr
  size : l.chunkBytes < 4294967296

/-- The kernel maps a chunk at `base`: not at null and not over another chunk. -/
def Fresh (l : Layout) (s : Alloc) (base : Nat) : Prop :=
  0 < base ∧ ∀ c ∈ s.chunks, base + l.chunkBytes ≤ c.base ∨ c.base + l.chunkBytes ≤ base

/-- Histories, with the blocks in use and the dropped ones, the last one first. -/
inductive Run (l : Layout) : Alloc → List Blk → List Blk → Prop
  | init {name base : Nat} : 0 < base → Run l (Alloc.init name base) [] []
  | alloc {s s' : Alloc} {L F : List Blk} {n a name base p : Nat} : Run l s L F → Fresh l s base →
      s.alloc l n a name base = .ok (s', p) → Run l s' (⟨p, n, a⟩ :: L) (F.filter (fun x => x.addr ≠ p))
  | drop {s s' : Alloc} {L F : List Blk} {x : Blk} : Run l s L F → x ∈ L → s.drop x.addr = .ok s' →
      Run l s' (L.filter (fun y => y.addr ≠ x.addr)) (x :: F)
  | shfree {s s' : Alloc} {L F : List Blk} {x : Blk} : Run l s L F → x ∈ L → s.shfree x.addr = .ok s' →
      Run l s' (L.filter (fun y => y.addr ≠ x.addr)) F

/-! ## Lemmas -/

theorem pos_of_pow2 {a : Nat} (h : isPow2 a = true) : 0 < a := by
  unfold isPow2 at h
  rcases Nat.eq_zero_or_pos a with ha | ha
  · subst ha; simp at h
  · exact ha

theorem alignOffset_ok {p a : Nat} (h : isPow2 a = true) : alignOffset p a = .ok ((a - p % a) % a) := by
  simp [alignOffset, h]

theorem pow2_of_ok {p a o : Nat} (h : alignOffset p a = .ok o) : isPow2 a = true := by
  cases hp : isPow2 a with
  | true => rfl
  | false => simp [alignOffset, hp] at h

theorem off_zero {p a : Nat} (h : 0 < a) : (a - p % a) % a = 0 ↔ p % a = 0 := by
  have hlt : p % a < a := Nat.mod_lt _ h
  constructor
  · intro h0
    rcases Nat.eq_zero_or_pos (p % a) with hz | hz
    · exact hz
    · rw [Nat.mod_eq_of_lt (by omega)] at h0
      omega
  · intro h0
    rw [h0, Nat.sub_zero, Nat.mod_self]

theorem off_lt {p a : Nat} (h : 0 < a) : (a - p % a) % a < a := Nat.mod_lt _ h

theorem off_aligned {p a : Nat} (h : 0 < a) : (p + (a - p % a) % a) % a = 0 := by
  have hlt : p % a < a := Nat.mod_lt _ h
  rcases Nat.eq_zero_or_pos (p % a) with hz | hz
  · rw [(off_zero h).mpr hz, Nat.add_zero]; exact hz
  · have hlt2 : a - p % a < a := by omega
    rw [Nat.mod_eq_of_lt hlt2]
    have hd := Nat.div_add_mod p a
    have he : p + (a - p % a) = a * (p / a + 1) := by
      rw [Nat.mul_add, Nat.mul_one]; omega
    rw [he, Nat.mul_mod_right]

theorem upd_self {h : Nat → Option Block} {p : Nat} {b : Block} : upd h p b p = some b := by simp [upd]

theorem upd_ne {h : Nat → Option Block} {p q : Nat} {b : Block} (hne : q ≠ p) : upd h p b q = h q := by simp [upd, hne]

theorem upd_upd {h : Nat → Option Block} {p : Nat} {b : Block} : upd (upd h p b) p b = upd h p b := by
  funext q; by_cases hq : q = p <;> simp [upd, hq]

/-- The free list from `p` on. -/
def Chain (h : Nat → Option Block) : Nat → List Nat → Prop
  | p, [] => p = 0
  | p, x :: xs => p = x ∧ x ≠ 0 ∧ ∃ b, h x = some b ∧ Chain h b.next xs

theorem chain_congr {h h' : Nat → Option Block} {xs : List Nat} : ∀ {p : Nat}, Chain h p xs → (∀ x ∈ xs, h' x = h x) → Chain h' p xs := by
  induction xs with
  | nil => intro p hc _; exact hc
  | cons x xs ih =>
    intro p hc he
    obtain ⟨h1, h2, b, h3, h4⟩ := hc
    exact ⟨h1, h2, b, by rw [he x List.mem_cons_self, h3], ih h4 (fun y hy => he y (List.mem_cons_of_mem _ hy))⟩

theorem chain_unlink {h : Nat → Option Block} {q p : Nat} {bq bp : Block} (hq : h q = some bq) (hp : h p = some bp) {post : List Nat} :
    ∀ {pre : List Nat} {st : Nat}, Chain h st (pre ++ q :: p :: post) → (pre ++ q :: p :: post).Nodup →
      Chain (upd h q { bq with next := bp.next }) st (pre ++ q :: post) := by
  intro pre
  induction pre with
  | nil =>
    intro st hc hn
    obtain ⟨h1, h2, b, h3, h4⟩ := hc
    obtain ⟨h5, h6, b', h7, h8⟩ := h4
    rw [hp] at h7
    cases h7
    refine ⟨h1, h2, _, upd_self, ?_⟩
    refine chain_congr h8 (fun x hx => upd_ne ?_)
    intro hxq
    subst hxq
    have := (List.nodup_cons.mp hn).1
    exact this (List.mem_cons_of_mem _ hx)
  | cons y pre ih =>
    intro st hc hn
    obtain ⟨h1, h2, b, h3, h4⟩ := hc
    have hn' := List.nodup_cons.mp hn
    refine ⟨h1, h2, b, ?_, ih h4 hn'.2⟩
    rw [upd_ne ?_]
    · exact h3
    · intro he
      apply hn'.1
      rw [he]
      exact List.mem_append_right _ List.mem_cons_self

/-- Does the free block at `p` serve a request? -/
def Match (h : Nat → Option Block) (n a p : Nat) : Prop := ∃ b, h p = some b ∧ b.nbytes = n ∧ (p + b.offset) % a = 0

theorem walk_spec {h : Nat → Option Block} {n a : Nat} (ha : isPow2 a = true) {xs : List Nat} :
    ∀ {fuel pred cur : Nat}, Chain h cur xs → xs.length < fuel →
      (∃ pre p post, xs = pre ++ p :: post ∧ Match h n a p ∧ (∀ q ∈ pre, ¬ Match h n a q) ∧
        walk h n a fuel pred cur = .ok ((pre.getLast?).getD pred, p)) ∨
      ((∀ q ∈ xs, ¬ Match h n a q) ∧ ∃ r, walk h n a fuel pred cur = .ok (r, 0)) := by
  induction xs with
  | nil =>
    intro fuel pred cur hc hf
    right
    refine ⟨by simp, ?_⟩
    cases fuel with
    | zero => simp at hf
    | succ f =>
      have hc : cur = 0 := hc
      exact ⟨pred, by rw [walk, if_pos hc]⟩
  | cons x xs ih =>
    intro fuel pred cur hc hf
    obtain ⟨h1, h2, b, h3, h4⟩ := hc
    subst h1
    cases fuel with
    | zero => simp at hf
    | succ f =>
      by_cases hm : b.nbytes = n ∧ (cur + b.offset) % a = 0
      · left
        refine ⟨[], cur, xs, rfl, ⟨b, h3, hm⟩, by simp, ?_⟩
        rw [walk, if_neg h2, h3]
        simp [hm.1, alignOffset_ok ha, (off_zero (pos_of_pow2 ha)).mpr hm.2]
      · have hno : ¬ Match h n a cur := by
          rintro ⟨b', hb', hm'⟩
          rw [h3] at hb'
          cases hb'
          exact hm hm'
        have hstep : walk h n a (f + 1) pred cur = walk h n a f cur b.next := by
          rw [walk, if_neg h2, h3]
          by_cases hn : b.nbytes = n
          · have hz : ¬ ((a - (cur + b.offset) % a) % a = 0) := by
              rw [off_zero (pos_of_pow2 ha)]
              exact fun hh => hm ⟨hn, hh⟩
            simp [hn, alignOffset_ok ha, hz]
          · simp [hn]
        rw [hstep]
        rcases ih (fuel := f) (pred := cur) h4 (by simp at hf; omega) with ⟨pre, p, post, e1, e2, e3, e4⟩ | ⟨e1, e2⟩
        · left
          refine ⟨cur :: pre, p, post, by rw [e1]; rfl, e2, ?_, ?_⟩
          · intro q hq
            rcases List.mem_cons.mp hq with hq | hq
            · rw [hq]; exact hno
            · exact e3 q hq
          · rw [e4]
            cases pre with
            | nil => rfl
            | cons z zs =>
              rw [List.getLast?_cons_cons]
              have : ((z :: zs).getLast?) = some ((z :: zs).getLast (by simp)) := List.getLast?_eq_some_getLast _
              rw [this]; rfl
        · right
          refine ⟨?_, e2⟩
          intro q hq
          rcases List.mem_cons.mp hq with hq | hq
          · rw [hq]; exact hno
          · exact e1 q hq

/-- What `tryCreate` yields, when the block fits. -/
theorem tryCreate_some {l : Layout} (hl : l.Ok) {c : Chunk} {n a p : Nat} {b : Block} (h : tryCreate l c n a = .ok (some (p, b))) :
    isPow2 a = true ∧ c.base + l.chunkHdr + c.cur ≤ p ∧ p % l.blockAlign = 0 ∧ l.blockHdr ≤ b.offset ∧ (p + b.offset) % a = 0 ∧
      b.nbytes = n ∧ p + b.offset + n ≤ c.base + l.chunkBytes := by
  have h0 := h
  simp only [tryCreate, positions, R.bind_eq_ok] at h
  obtain ⟨hd, ⟨o1, ho1, hhd⟩, d2, ⟨o2, ho2, hd2⟩, _, _, h⟩ := h
  rw [R.pure_eq] at hhd hd2
  have hhd := R.ok.inj hhd
  have hd2 := R.ok.inj hd2
  have ha := pow2_of_ok ho2
  have hba := pow2_of_ok ho1
  rw [alignOffset_ok hba] at ho1
  rw [alignOffset_ok ha] at ho2
  have ho1 := R.ok.inj ho1
  have ho2 := R.ok.inj ho2
  subst hhd
  subst hd2
  dsimp only at h ho2
  have ga : (c.base + l.chunkHdr + c.cur + o1 + l.blockHdr + o2) % a = 0 := by
    rw [← ho2]; exact off_aligned (pos_of_pow2 ha)
  have gb : (c.base + l.chunkHdr + c.cur + o1) % l.blockAlign = 0 := by
    rw [← ho1]; exact off_aligned (pos_of_pow2 hba)
  clear ho1 ho2 h0
  by_cases hf : c.base + l.chunkHdr + c.cur + o1 + l.blockHdr + o2 + n ≤ c.base + l.chunkBytes
  · rw [if_pos hf] at h
    have h := Prod.mk.inj (Option.some.inj (R.ok.inj h))
    obtain ⟨hp, hb⟩ := h
    have hsz := hl.size
    have hd : c.base + l.chunkHdr + c.cur + o1 + l.blockHdr + o2 - (c.base + l.chunkHdr + c.cur + o1) = l.blockHdr + o2 := by omega
    rw [hd] at hb
    have e1 : u32 (l.blockHdr + o2) = l.blockHdr + o2 := Nat.mod_eq_of_lt (by omega)
    have e2 : u32 n = n := Nat.mod_eq_of_lt (by omega)
    rw [e1, e2] at hb
    subst hb
    subst hp
    dsimp only
    refine ⟨ha, by omega, gb, by omega, ?_, rfl, by omega⟩
    rw [← Nat.add_assoc]; exact ga
  · rw [if_neg hf] at h
    cases R.ok.inj h

/-- What `create` does. -/
theorem create_ok {l : Layout} {s s' : Alloc} {n a name base p : Nat} (h : s.create l n a name base = .ok (s', p)) :
    ∃ c rest b, ((s.chunks = c :: rest) ∨ (c = ⟨name, base, 0⟩ ∧ rest = s.chunks ∧ ∃ c0, s.chunks.head? = some c0 ∧ tryCreate l c0 n a = .ok none)) ∧
      tryCreate l c n a = .ok (some (p, b)) ∧
      s' = ⟨{ c with cur := u32 (p + b.offset + n - c.base) } :: rest, s.free, upd s.heap p b,
        if p ∈ s.made then s.made else p :: s.made⟩ := by
  simp only [Alloc.create, R.bind_eq_ok] at h
  obtain ⟨c0, hc0, r0, hr0, c1, hc1, r1, hr1, pb, hpb, _, _, off, _, _, _, h⟩ := h
  have hc0' : s.chunks.head? = some c0 := by
    cases hh : s.chunks.head? with
    | none => rw [hh] at hc0; cases hc0
    | some x => rw [hh] at hc0; rw [R.ok.inj hc0]
  have hr1s : r1 = some pb := by
    cases r1 with
    | none => cases hpb
    | some x => rw [R.ok.inj hpb]
  subst hr1s
  have h := Prod.mk.inj (R.ok.inj h)
  obtain ⟨hs, hp⟩ := h
  obtain ⟨q, b⟩ := pb
  dsimp only at hp hs
  subst hp
  cases r0 with
  | some y =>
    have hcc : c1 = c0 := by
      have : ((s.write (some y)).chunks.head?) = s.chunks.head? := rfl
      simp only [Option.isNone, Bool.false_eq_true, if_false] at hc1
      rw [this, hc0'] at hc1
      exact (R.ok.inj hc1).symm
    subst hcc
    rw [hr0] at hr1
    have hy := Option.some.inj (R.ok.inj hr1)
    subst hy
    obtain ⟨rest, hrest⟩ : ∃ rest, s.chunks = c1 :: rest := by
      cases hch : s.chunks with
      | nil => rw [hch] at hc0'; cases hc0'
      | cons z zs =>
        rw [hch] at hc0'
        have := Option.some.inj hc0'
        exact ⟨zs, by rw [this]⟩
    refine ⟨c1, rest, b, Or.inl hrest, hr0, ?_⟩
    rw [← hs]
    simp only [Option.isNone, Bool.false_eq_true, if_false, Alloc.write, upd_upd, hrest, List.tail_cons]
    congr 1
    by_cases hm : q ∈ s.made <;> simp [hm]
  | none =>
    have hcc : c1 = ⟨name, base, 0⟩ := by
      have : ((s.write none).addChunk name base).chunks.head? = some ⟨name, base, 0⟩ := rfl
      simp only [Option.isNone, if_true] at hc1
      rw [this] at hc1
      exact (R.ok.inj hc1).symm
    refine ⟨c1, s.chunks, b, Or.inr ⟨hcc, rfl, c0, hc0', hr0⟩, hr1, ?_⟩
    rw [← hs]
    rfl

theorem take_ok {s s' : Alloc} {pred block a p : Nat} (h : s.take pred block a = .ok (s', p)) :
    p = block ∧ isPow2 a = true ∧ ∃ b, s.heap block = some b ∧ (block + b.offset) % a = 0 ∧
      ((pred = 0 ∧ s' = { s with free := b.next }) ∨
       (pred ≠ 0 ∧ ∃ q, s.heap pred = some q ∧ s' = { s with heap := upd s.heap pred { q with next := b.next } })) := by
  simp only [Alloc.take, R.bind_eq_ok] at h
  obtain ⟨b, hb, s1, hs1, off, hoff, _, hz, h⟩ := h
  have hb : s.heap block = some b := by
    cases hh : s.heap block with
    | none => rw [hh] at hb; cases hb
    | some x => rw [hh] at hb; rw [R.ok.inj hb]
  have ha := pow2_of_ok hoff
  rw [alignOffset_ok ha] at hoff
  have hoff := R.ok.inj hoff
  have hz := of_decide_eq_true (R.assert_eq_ok.mp hz)
  rw [hz, off_zero (pos_of_pow2 ha)] at hoff
  have h := Prod.mk.inj (R.ok.inj h)
  refine ⟨h.2.symm, ha, b, hb, hoff, ?_⟩
  rw [Alloc.unlink] at hs1
  by_cases hp : pred = 0
  · rw [if_pos hp] at hs1
    left
    exact ⟨hp, by rw [← h.1]; exact (R.ok.inj hs1).symm⟩
  · rw [if_neg hp] at hs1
    obtain ⟨q, hq, hs1⟩ := R.bind_eq_ok.mp hs1
    right
    refine ⟨hp, q, ?_, by rw [← h.1]; exact (R.ok.inj hs1).symm⟩
    cases hh : s.heap pred with
    | none => rw [hh] at hq; cases hq
    | some x => rw [hh] at hq; rw [R.ok.inj hq]

theorem alloc_pow2 {l : Layout} (hl : l.Ok) {s s' : Alloc} {n a name base p : Nat} (h : s.alloc l n a name base = .ok (s', p)) :
    isPow2 a = true := by
  simp only [Alloc.alloc, R.bind_eq_ok] at h
  obtain ⟨r, _, h⟩ := h
  by_cases hr : r.2 ≠ 0
  · rw [if_pos hr] at h
    exact (take_ok h).2.1
  · rw [if_neg hr] at h
    obtain ⟨_, _, _, _, ht, _⟩ := create_ok h
    exact (tryCreate_some hl ht).1

/-- The header of a user's block is the one asked for. -/
def Good (s : Alloc) (x : Blk) : Prop := ∃ b, s.heap x.addr = some b ∧ b.nbytes = x.size ∧ (x.addr + b.offset) % x.align = 0

structure Inv (l : Layout) (s : Alloc) (L F : List Blk) : Prop where
  ne : s.chunks ≠ []
  base : ∀ c ∈ s.chunks, 0 < c.base ∧ c.cur ≤ l.chunkBytes
  cdis : s.chunks.Pairwise (fun c d => c.base + l.chunkBytes ≤ d.base ∨ d.base + l.chunkBytes ≤ c.base)
  made : ∀ p, p ∈ s.made ↔ s.heap p ≠ none
  nodup : s.made.Nodup
  place : ∀ p b, s.heap p = some b → l.blockHdr ≤ b.offset ∧ ∃ c ∈ s.chunks, c.base + l.chunkHdr ≤ p ∧ p + b.offset + b.nbytes ≤ c.base + c.cur
  dis : ∀ p q bp bq, s.heap p = some bp → s.heap q = some bq → p ≠ q → p + bp.offset + bp.nbytes ≤ q ∨ q + bq.offset + bq.nbytes ≤ p
  chain : Chain s.heap s.free (F.map Blk.addr)
  fnodup : (F.map Blk.addr).Nodup
  lnodup : (L.map Blk.addr).Nodup
  lf : ∀ x ∈ L, x.addr ∉ F.map Blk.addr
  good : ∀ x, x ∈ L ∨ x ∈ F → Good s x

theorem init_inv {l : Layout} {name base : Nat} (h : 0 < base) : Inv l (Alloc.init name base) [] [] := by
  refine ⟨by simp [Alloc.init, Alloc.addChunk], ?_, ?_, ?_, ?_, ?_, ?_, rfl, by simp, by simp, by simp, by simp⟩
  · intro c hc
    simp only [Alloc.init, Alloc.addChunk, List.mem_singleton] at hc
    subst hc
    exact ⟨h, Nat.zero_le _⟩
  · simp [Alloc.init, Alloc.addChunk]
  · intro p; simp [Alloc.init, Alloc.addChunk]
  · simp [Alloc.init, Alloc.addChunk]
  · intro p b hb; cases hb
  · intro p q bp bq hb; cases hb

theorem chain_length {s : Alloc} {L F : List Blk} {l : Layout} (hi : Inv l s L F) : (F.map Blk.addr).length ≤ s.made.length := by
  apply List.Nodup.length_le_of_subset hi.fnodup
  intro p hp
  obtain ⟨x, hx, rfl⟩ := List.mem_map.mp hp
  obtain ⟨b, hb, _⟩ := hi.good x (Or.inr hx)
  rw [hi.made, hb]
  simp

theorem heap_nz {l : Layout} {s : Alloc} {L F : List Blk} (hi : Inv l s L F) {p : Nat} {b : Block} (h : s.heap p = some b) : p ≠ 0 := by
  obtain ⟨_, c, hc, h1, _⟩ := hi.place p b h
  have := (hi.base c hc).1
  omega

/-- The headers change only in their links, or not at all. -/
def SameHdr (h h' : Nat → Option Block) : Prop :=
  ∀ p, (h p = none ↔ h' p = none) ∧ ∀ b b', h p = some b → h' p = some b' → b.offset = b'.offset ∧ b.nbytes = b'.nbytes

theorem SameHdr.rfl {h : Nat → Option Block} : SameHdr h h := fun p => ⟨Iff.rfl, fun b b' e1 e2 => by rw [e1] at e2; cases e2; exact ⟨Eq.refl _, Eq.refl _⟩⟩

theorem SameHdr.upd {h : Nat → Option Block} {p n : Nat} {b : Block} (hb : h p = some b) : SameHdr h (upd h p { b with next := n }) := by
  intro q
  by_cases hq : q = p
  · subst hq
    rw [upd_self]
    refine ⟨by rw [hb]; simp, ?_⟩
    intro c c' e1 e2
    rw [hb] at e1
    cases e1
    cases e2
    exact ⟨Eq.refl _, Eq.refl _⟩
  · rw [upd_ne hq]
    exact SameHdr.rfl q

theorem SameHdr.get {h h' : Nat → Option Block} (hs : SameHdr h h') {p : Nat} {b : Block} (hb : h p = some b) :
    ∃ b', h' p = some b' ∧ b'.offset = b.offset ∧ b'.nbytes = b.nbytes := by
  cases hh : h' p with
  | none =>
    have := (hs p).1.mpr hh
    rw [hb] at this; cases this
  | some b' =>
    obtain ⟨e1, e2⟩ := (hs p).2 b b' hb hh
    exact ⟨b', Eq.refl _, e1.symm, e2.symm⟩

theorem SameHdr.back {h h' : Nat → Option Block} (hs : SameHdr h h') {p : Nat} {b' : Block} (hb : h' p = some b') :
    ∃ b, h p = some b ∧ b'.offset = b.offset ∧ b'.nbytes = b.nbytes := by
  cases hh : h p with
  | none =>
    have := (hs p).1.mp hh
    rw [hb] at this; cases this
  | some b =>
    obtain ⟨e1, e2⟩ := (hs p).2 b b' hh hb
    exact ⟨b, Eq.refl _, e1.symm, e2.symm⟩

theorem SameHdr.good {s s' : Alloc} (hs : SameHdr s.heap s'.heap) {x : Blk} (hx : Good s x) : Good s' x := by
  obtain ⟨b, hb, h1, h2⟩ := hx
  obtain ⟨b', hb', e1, e2⟩ := hs.get hb
  exact ⟨b', hb', by rw [e2, h1], by rw [e1, h2]⟩

/-- A change of links only. -/
theorem relink {l : Layout} {s s' : Alloc} {L F L' F' : List Blk} (hi : Inv l s L F) (hc : s'.chunks = s.chunks) (hm : s'.made = s.made)
    (hs : SameHdr s.heap s'.heap) (chain : Chain s'.heap s'.free (F'.map Blk.addr)) (fnodup : (F'.map Blk.addr).Nodup)
    (lnodup : (L'.map Blk.addr).Nodup) (lf : ∀ x ∈ L', x.addr ∉ F'.map Blk.addr) (good : ∀ x, x ∈ L' ∨ x ∈ F' → Good s x) : Inv l s' L' F' := by
  refine ⟨by rw [hc]; exact hi.ne, by rw [hc]; exact hi.base, by rw [hc]; exact hi.cdis, ?_, by rw [hm]; exact hi.nodup, ?_, ?_, chain, fnodup, lnodup, lf, fun x hx => hs.good (good x hx)⟩
  · intro p
    rw [hm, hi.made]
    exact not_congr (hs p).1
  · intro p b hb
    obtain ⟨b0, hb0, e1, e2⟩ := hs.back hb
    rw [e1, e2, hc]
    exact hi.place p b0 hb0
  · intro p q bp bq hp hq hne
    obtain ⟨b0, hb0, e1, e2⟩ := hs.back hp
    obtain ⟨b1, hb1, e3, e4⟩ := hs.back hq
    rw [e1, e2, e3, e4]
    exact hi.dis p q b0 b1 hb0 hb1 hne

theorem map_filter_addr {F : List Blk} {p : Nat} : (F.filter (fun x => x.addr ≠ p)).map Blk.addr = (F.map Blk.addr).filter (fun q => q ≠ p) := by
  induction F with
  | nil => rfl
  | cons x xs ih =>
    by_cases hx : x.addr = p
    · rw [List.filter_cons_of_neg (by simp [hx]), List.map_cons, List.filter_cons_of_neg (by simp [hx]), ih]
    · rw [List.filter_cons_of_pos (by simp [hx]), List.map_cons, List.map_cons, List.filter_cons_of_pos (by simp [hx]), ih]

theorem filter_not_mem {xs : List Nat} {p : Nat} (h : p ∉ xs) : xs.filter (fun q => q ≠ p) = xs := by
  apply List.filter_eq_self.mpr
  intro q hq
  simp only [ne_eq, decide_not, Bool.not_eq_eq_eq_not, Bool.not_true, decide_eq_false_iff_not]
  intro he
  exact h (he ▸ hq)

theorem filter_mid {pre post : List Nat} {p : Nat} (h : (pre ++ p :: post).Nodup) : (pre ++ p :: post).filter (fun q => q ≠ p) = pre ++ post := by
  have h1 := List.nodup_append.mp h
  have h2 := List.nodup_cons.mp h1.2.1
  rw [List.filter_append, List.filter_cons_of_neg (by simp), filter_not_mem h2.1, filter_not_mem]
  intro hp
  exact h1.2.2 p hp p List.mem_cons_self rfl

theorem drop_inv {l : Layout} {s s' : Alloc} {L F : List Blk} {x : Blk} (hi : Inv l s L F) (hx : x ∈ L) (h : s.drop x.addr = .ok s') :
    Inv l s' (L.filter (fun y => y.addr ≠ x.addr)) (x :: F) := by
  obtain ⟨b, hb, hg⟩ := hi.good x (Or.inl hx)
  have hz := heap_nz hi hb
  rw [Alloc.drop, if_pos hz, Alloc.dealloc, if_neg hz, hb] at h
  have h := (R.ok.inj h).symm
  subst h
  have hnF := hi.lf x hx
  refine relink hi rfl rfl (SameHdr.upd hb) ?_ ?_ ?_ ?_ ?_
  · refine ⟨rfl, hz, _, upd_self, ?_⟩
    refine chain_congr hi.chain (fun y hy => upd_ne ?_)
    intro he
    exact hnF (he ▸ hy)
  · rw [List.map_cons]
    exact List.nodup_cons.mpr ⟨hnF, hi.fnodup⟩
  · rw [map_filter_addr]
    exact List.Pairwise.filter _ hi.lnodup
  · intro y hy
    have hy' := List.mem_filter.mp hy
    rw [List.map_cons]
    intro hm
    rcases List.mem_cons.mp hm with he | hm
    · simp [he] at hy'
    · exact hi.lf y hy'.1 hm
  · intro y hy
    rcases hy with hy | hy
    · exact hi.good y (Or.inl (List.mem_filter.mp hy).1)
    · rcases List.mem_cons.mp hy with he | hy
      · subst he; exact ⟨b, hb, hg⟩
      · exact hi.good y (Or.inr hy)

theorem shfree_inv {l : Layout} {s s' : Alloc} {L F : List Blk} {x : Blk} (hi : Inv l s L F) (h : s.shfree x.addr = .ok s') :
    Inv l s' (L.filter (fun y => y.addr ≠ x.addr)) F := by
  rw [Alloc.shfree, Alloc.dealloc, if_pos rfl] at h
  have h := (R.ok.inj h).symm
  subst h
  refine relink hi rfl rfl SameHdr.rfl hi.chain hi.fnodup ?_ ?_ ?_
  · rw [map_filter_addr]; exact List.Pairwise.filter _ hi.lnodup
  · intro y hy; exact hi.lf y (List.mem_filter.mp hy).1
  · intro y hy
    rcases hy with hy | hy
    · exact hi.good y (Or.inl (List.mem_filter.mp hy).1)
    · exact hi.good y (Or.inr hy)

/-- An allocation: either the first free block that serves is taken out, or a new block is made. -/
theorem alloc_cases {l : Layout} (hl : l.Ok) {s s' : Alloc} {L F : List Blk} {n a name base p : Nat} (hi : Inv l s L F)
    (h : s.alloc l n a name base = .ok (s', p)) :
    (∃ pre post, F.map Blk.addr = pre ++ p :: post ∧ Match s.heap n a p ∧ (∀ q ∈ pre, ¬ Match s.heap n a q) ∧
      s.take ((pre.getLast?).getD 0) p a = .ok (s', p)) ∨
    ((∀ q ∈ F.map Blk.addr, ¬ Match s.heap n a q) ∧ s.create l n a name base = .ok (s', p)) := by
  have ha := alloc_pow2 hl h
  rw [Alloc.alloc] at h
  have hlen := chain_length hi
  rcases walk_spec (n := n) ha (fuel := s.made.length + 1) (pred := 0) hi.chain (by omega) with ⟨pre, q, post, e1, e2, e3, e4⟩ | ⟨e1, r, e2⟩
  · left
    rw [e4, R.bind_ok] at h
    have hq : q ≠ 0 := by
      obtain ⟨b, hb, _⟩ := e2
      exact heap_nz hi hb
    rw [if_pos hq] at h
    have hp := (take_ok h).1
    dsimp only at hp h
    subst hp
    exact ⟨pre, post, e1, e2, e3, h⟩
  · right
    rw [e2, R.bind_ok, if_neg (by simp)] at h
    exact ⟨e1, h⟩

theorem take_inv {l : Layout} {s s' : Alloc} {L F : List Blk} {n a p : Nat} {pre post : List Nat} (hi : Inv l s L F)
    (hF : F.map Blk.addr = pre ++ p :: post) (hm : Match s.heap n a p)
    (h : s.take ((pre.getLast?).getD 0) p a = .ok (s', p)) :
    Inv l s' (⟨p, n, a⟩ :: L) (F.filter (fun x => x.addr ≠ p)) ∧ s'.chunks = s.chunks ∧ s'.made = s.made ∧
      (∀ q, q ∉ pre → s'.heap q = s.heap q) := by
  obtain ⟨_, ha, b, hb, hal, hs⟩ := take_ok h
  have hnd : (pre ++ p :: post).Nodup := hF ▸ hi.fnodup
  have hmap : (F.filter (fun x => x.addr ≠ p)).map Blk.addr = pre ++ post := by rw [map_filter_addr, hF, filter_mid hnd]
  have hpF : p ∈ F.map Blk.addr := by rw [hF]; simp
  obtain ⟨b', hb', hn', hal'⟩ := hm
  rw [hb] at hb'
  cases hb'
  have hgood : ∀ x, x ∈ (⟨p, n, a⟩ : Blk) :: L ∨ x ∈ F.filter (fun x => x.addr ≠ p) → Good s x := by
    intro x hx
    rcases hx with hx | hx
    · rcases List.mem_cons.mp hx with he | hx
      · subst he; exact ⟨b, hb, hn', hal⟩
      · exact hi.good x (Or.inl hx)
    · exact hi.good x (Or.inr (List.mem_filter.mp hx).1)
  have hln : ((((⟨p, n, a⟩ : Blk) :: L)).map Blk.addr).Nodup := by
    rw [List.map_cons]
    refine List.nodup_cons.mpr ⟨?_, hi.lnodup⟩
    intro hp
    obtain ⟨x, hx, hxp⟩ := List.mem_map.mp hp
    have hxp : x.addr = p := hxp
    apply hi.lf x hx
    rw [hxp]; exact hpF
  have hlf : ∀ x ∈ (⟨p, n, a⟩ : Blk) :: L, x.addr ∉ (F.filter (fun x => x.addr ≠ p)).map Blk.addr := by
    intro x hx hxm
    rw [map_filter_addr] at hxm
    obtain ⟨hx1, hx2⟩ := List.mem_filter.mp hxm
    rcases List.mem_cons.mp hx with he | hx
    · subst he; simp at hx2
    · exact hi.lf x hx hx1
  have hfn : ((F.filter (fun x => x.addr ≠ p)).map Blk.addr).Nodup := by
    rw [map_filter_addr]; exact List.Pairwise.filter _ hi.fnodup
  have hch := hi.chain
  rw [hF] at hch
  rcases List.eq_nil_or_concat pre with hpre | ⟨pre', q, hpre⟩
  · subst hpre
    rcases hs with ⟨_, hs⟩ | ⟨hq, _⟩
    · subst hs
      refine ⟨relink hi rfl rfl SameHdr.rfl ?_ hfn hln hlf hgood, rfl, rfl, fun _ _ => rfl⟩
      rw [hmap]
      obtain ⟨_, _, b2, hb2, hc2⟩ := hch
      rw [hb] at hb2
      cases hb2
      exact hc2
    · exact absurd rfl hq
  · rw [List.concat_eq_append] at hpre
    subst hpre
    have hlast : ((pre' ++ [q]).getLast?).getD 0 = q := by simp
    rw [hlast] at hs
    have hqz : q ≠ 0 := by
      have hq : q ∈ F.map Blk.addr := by rw [hF]; simp
      obtain ⟨x, hx, hxq⟩ := List.mem_map.mp hq
      obtain ⟨bx, hbx, _⟩ := hi.good x (Or.inr hx)
      have := heap_nz hi hbx
      have hxq : x.addr = q := hxq
      omega
    rcases hs with ⟨hq, _⟩ | ⟨_, bq, hbq, hs⟩
    · exact absurd hq hqz
    · subst hs
      refine ⟨relink hi rfl rfl (SameHdr.upd hbq) ?_ hfn hln hlf hgood, rfl, rfl, ?_⟩
      · rw [hmap]
        rw [List.append_assoc] at hch hnd ⊢
        exact chain_unlink hbq hb hch hnd
      · intro z hz
        apply upd_ne
        intro he
        apply hz
        rw [he]; simp

theorem create_inv {l : Layout} (hl : l.Ok) {s s' : Alloc} {L F : List Blk} {n a name base p : Nat} (hi : Inv l s L F)
    (hfr : Fresh l s base) (h : s.create l n a name base = .ok (s', p)) :
    Inv l s' (⟨p, n, a⟩ :: L) (F.filter (fun x => x.addr ≠ p)) ∧ s.heap p = none ∧ (∀ q, q ≠ p → s'.heap q = s.heap q) := by
  obtain ⟨c, rest, b, hc, ht, hs'⟩ := create_ok h
  obtain ⟨ha, h1, _, h2, h3, h4, h5⟩ := tryCreate_some hl ht
  have hsz := hl.size
  have hh := hl.hdr
  have hcur : u32 (p + b.offset + n - c.base) = p + b.offset + n - c.base := Nat.mod_eq_of_lt (by omega)
  rw [hcur] at hs'
  -- the chunks before, with the new one
  have hcs : (c :: rest).Pairwise (fun c d => c.base + l.chunkBytes ≤ d.base ∨ d.base + l.chunkBytes ≤ c.base) ∧
      (∀ d ∈ c :: rest, 0 < d.base ∧ d.cur ≤ l.chunkBytes) ∧ (∀ d ∈ s.chunks, d ∈ c :: rest) := by
    rcases hc with hc | ⟨hc, hr, _⟩
    · rw [← hc]; exact ⟨hi.cdis, hi.base, fun _ hd => hd⟩
    · subst hc
      subst hr
      refine ⟨List.pairwise_cons.mpr ⟨fun d hd => hfr.2 d hd, hi.cdis⟩, ?_, fun _ hd => List.mem_cons_of_mem _ hd⟩
      intro d hd
      rcases List.mem_cons.mp hd with he | hd
      · subst he; exact ⟨hfr.1, Nat.zero_le _⟩
      · exact hi.base d hd
  obtain ⟨hpw, hbs, hsub⟩ := hcs
  have hpw' := List.pairwise_cons.mp hpw
  -- every block made before lies apart
  have hap : ∀ q bq, s.heap q = some bq → q + bq.offset + bq.nbytes ≤ p ∨ p + b.offset + n ≤ q := by
    intro q bq hq
    obtain ⟨_, d, hd, e1, e2⟩ := hi.place q bq hq
    rcases List.mem_cons.mp (hsub d hd) with he | hd'
    · subst he; left; omega
    · have := hpw'.1 d hd'
      have := (hbs d (List.mem_cons_of_mem _ hd')).2
      omega
  have hnone : s.heap p = none := by
    cases hq : s.heap p with
    | none => rfl
    | some bq =>
      have := hap p bq hq
      have := (hi.place p bq hq).1
      omega
  have hnm : p ∉ s.made := by
    rw [hi.made, hnone]; simp
  rw [if_neg hnm] at hs'
  have hheap : ∀ q, q ≠ p → s'.heap q = s.heap q := by
    intro q hq
    rw [hs']
    exact upd_ne hq
  have hself : s'.heap p = some b := by rw [hs']; exact upd_self
  have hnF : p ∉ F.map Blk.addr := by
    intro hp
    obtain ⟨x, hx, hxp⟩ := List.mem_map.mp hp
    obtain ⟨bx, hbx, _⟩ := hi.good x (Or.inr hx)
    have hxp : x.addr = p := hxp
    rw [hxp, hnone] at hbx
    cases hbx
  have hnL : p ∉ L.map Blk.addr := by
    intro hp
    obtain ⟨x, hx, hxp⟩ := List.mem_map.mp hp
    obtain ⟨bx, hbx, _⟩ := hi.good x (Or.inl hx)
    have hxp : x.addr = p := hxp
    rw [hxp, hnone] at hbx
    cases hbx
  have hFf : F.filter (fun x => x.addr ≠ p) = F := by
    apply List.filter_eq_self.mpr
    intro x hx
    simp only [ne_eq, decide_not, Bool.not_eq_eq_eq_not, Bool.not_true, decide_eq_false_iff_not]
    intro he
    exact hnF (List.mem_map.mpr ⟨x, hx, he⟩)
  rw [hFf]
  have hg : ∀ x, Good s x → Good s' x := by
    rintro x ⟨bx, hbx, hgx⟩
    refine ⟨bx, ?_, hgx⟩
    rw [hheap _ ?_]
    · exact hbx
    · intro he; rw [he, hnone] at hbx; cases hbx
  refine ⟨⟨?_, ?_, ?_, ?_, ?_, ?_, ?_, ?_, hi.fnodup, ?_, ?_, ?_⟩, hnone, hheap⟩
  · rw [hs']; simp
  · rw [hs']
    intro d hd
    rcases List.mem_cons.mp hd with he | hd
    · subst he
      have := (hbs c List.mem_cons_self).1
      dsimp only
      exact ⟨this, by omega⟩
    · exact hbs d (List.mem_cons_of_mem _ hd)
  · rw [hs']
    exact List.pairwise_cons.mpr ⟨fun d hd => hpw'.1 d hd, hpw'.2⟩
  · intro q
    rw [hs']
    by_cases hq : q = p
    · subst hq; simp [upd_self]
    · dsimp only
      rw [upd_ne hq, ← hi.made]
      simp [hq]
  · rw [hs']
    exact List.nodup_cons.mpr ⟨hnm, hi.nodup⟩
  · intro q bq hq
    by_cases hqp : q = p
    · subst hqp
      rw [hself] at hq
      cases hq
      refine ⟨h2, { c with cur := q + b.offset + n - c.base }, by rw [hs']; exact List.mem_cons_self, ?_⟩
      dsimp only
      rw [h4]
      exact ⟨by omega, by omega⟩
    · rw [hheap q hqp] at hq
      obtain ⟨e0, d, hd, e1, e2⟩ := hi.place q bq hq
      refine ⟨e0, ?_⟩
      rcases List.mem_cons.mp (hsub d hd) with he | hd'
      · subst he
        refine ⟨{ d with cur := p + b.offset + n - d.base }, by rw [hs']; exact List.mem_cons_self, ?_⟩
        dsimp only
        exact ⟨e1, by omega⟩
      · exact ⟨d, by rw [hs']; exact List.mem_cons_of_mem _ hd', e1, e2⟩
  · intro q r bq br hq hr hne
    by_cases hqp : q = p
    · subst hqp
      rw [hself] at hq
      cases hq
      rw [hheap r (Ne.symm hne)] at hr
      have := hap r br hr
      rw [h4]
      omega
    · rw [hheap q hqp] at hq
      by_cases hrp : r = p
      · subst hrp
        rw [hself] at hr
        cases hr
        have := hap q bq hq
        rw [h4]
        omega
      · rw [hheap r hrp] at hr
        exact hi.dis q r bq br hq hr hne
  · have hfree : s'.free = s.free := by rw [hs']
    rw [hfree]
    refine chain_congr hi.chain (fun x hx => hheap x ?_)
    intro he
    exact hnF (he ▸ hx)
  · rw [List.map_cons]
    exact List.nodup_cons.mpr ⟨hnL, hi.lnodup⟩
  · intro x hx
    rcases List.mem_cons.mp hx with he | hx
    · subst he; exact hnF
    · exact hi.lf x hx
  · intro x hx
    rcases hx with hx | hx
    · rcases List.mem_cons.mp hx with he | hx
      · subst he
        exact ⟨b, hself, h4, h3⟩
      · exact hg x (hi.good x (Or.inl hx))
    · exact hg x (hi.good x (Or.inr hx))

theorem run_inv {l : Layout} (hl : l.Ok) {s : Alloc} {L F : List Blk} (h : Run l s L F) : Inv l s L F := by
  induction h with
  | init h => exact init_inv h
  | alloc _ hfr ha ih =>
    rcases alloc_cases hl ih ha with ⟨pre, post, e1, e2, _, e4⟩ | ⟨_, e2⟩
    · exact (take_inv ih e1 e2 e4).1
    · exact (create_inv hl ih hfr e2).1
  | drop _ hx hd ih => exact drop_inv ih hx hd
  | shfree _ _ hd ih => exact shfree_inv ih hd

theorem run_pow2 {l : Layout} (hl : l.Ok) {s : Alloc} {L F : List Blk} (h : Run l s L F) : ∀ x, x ∈ L ∨ x ∈ F → isPow2 x.align = true := by
  induction h with
  | init _ => intro x hx; simp at hx
  | alloc _ _ ha ih =>
    intro x hx
    rcases hx with hx | hx
    · rcases List.mem_cons.mp hx with he | hx
      · subst he; exact alloc_pow2 hl ha
      · exact ih x (Or.inl hx)
    · exact ih x (Or.inr (List.mem_filter.mp hx).1)
  | drop _ hm _ ih =>
    intro x hx
    rcases hx with hx | hx
    · exact ih x (Or.inl (List.mem_filter.mp hx).1)
    · rcases List.mem_cons.mp hx with he | hx
      · subst he; exact ih _ (Or.inl hm)
      · exact ih x (Or.inr hx)
  | shfree _ _ _ ih =>
    intro x hx
    rcases hx with hx | hx
    · exact ih x (Or.inl (List.mem_filter.mp hx).1)
    · exact ih x (Or.inr hx)

theorem range_eq {s : Alloc} {p : Nat} {b : Block} (h : s.heap p = some b) : s.range p = .ok (p + b.offset, p + b.offset + b.nbytes) := by
  rw [Alloc.range, h]; rfl

theorem findChunk_of_mem {l : Layout} {cs : List Chunk} {c : Chunk} {p : Nat}
    (hd : cs.Pairwise (fun c d => c.base + l.chunkBytes ≤ d.base ∨ d.base + l.chunkBytes ≤ c.base)) (hc : c ∈ cs)
    (h1 : c.base + l.chunkHdr ≤ p) (h2 : p < c.base + l.chunkBytes) : findChunk l p cs = some c := by
  induction cs with
  | nil => cases hc
  | cons d ds ih =>
    have hd' := List.pairwise_cons.mp hd
    rcases List.mem_cons.mp hc with he | hc
    · subst he
      rw [findChunk, if_pos ⟨h1, h2⟩]
    · rw [findChunk, if_neg, ih hd'.2 hc]
      have := hd'.1 c hc
      omega

/-! ## Theorems -/

/-- A block in use: it has the size and the alignment asked for, it begins behind its own header, and header and data lie in
    one chunk behind the header of the chunk. -/
theorem C45_block {l : Layout} (hl : l.Ok) {s : Alloc} {L F : List Blk} (h : Run l s L F) {x : Blk} (hx : x ∈ L) :
    ∃ d, s.range x.addr = .ok (d, d + x.size) ∧ d % x.align = 0 ∧ x.addr + l.blockHdr ≤ d ∧
      ∃ c ∈ s.chunks, c.base + l.chunkHdr ≤ x.addr ∧ d + x.size ≤ c.base + l.chunkBytes := by
  have hi := run_inv hl h
  obtain ⟨b, hb, e1, e2⟩ := hi.good x (Or.inl hx)
  obtain ⟨e3, c, hc, e4, e5⟩ := hi.place _ b hb
  have := (hi.base c hc).2
  refine ⟨x.addr + b.offset, by rw [range_eq hb, e1], e2, by omega, c, hc, e4, ?_⟩
  rw [← e1]; omega

/-- The blocks in use, each with its header, do not overlap each other, nor the blocks that were dropped. -/
theorem C45_disjoint {l : Layout} (hl : l.Ok) {s : Alloc} {L F : List Blk} (h : Run l s L F) :
    (L ++ F).Pairwise (fun x y => ∀ dx ex dy ey, s.range x.addr = .ok (dx, ex) → s.range y.addr = .ok (dy, ey) → ex ≤ y.addr ∨ ey ≤ x.addr) := by
  have hi := run_inv hl h
  have hn : ((L ++ F).map Blk.addr).Nodup := by
    rw [List.map_append]
    refine List.nodup_append.mpr ⟨hi.lnodup, hi.fnodup, ?_⟩
    intro p hp q hq he
    subst he
    obtain ⟨x, hx, hxp⟩ := List.mem_map.mp hp
    have hxp : x.addr = p := hxp
    exact hi.lf x hx (hxp ▸ hq)
  have hp : (L ++ F).Pairwise (fun x y => x.addr ≠ y.addr) := List.pairwise_map.mp hn
  refine List.Pairwise.imp_of_mem ?_ hp
  intro x y hx hy hne dx ex dy ey h1 h2
  obtain ⟨bx, hbx, _⟩ := hi.good x (List.mem_append.mp hx)
  obtain ⟨bz, hby, _⟩ := hi.good y (List.mem_append.mp hy)
  rw [range_eq hbx] at h1
  rw [range_eq hby] at h2
  have h1 := (Prod.mk.inj (R.ok.inj h1)).2
  have h2 := (Prod.mk.inj (R.ok.inj h2)).2
  rw [← h1, ← h2]
  exact hi.dis _ _ _ _ hbx hby hne

/-- An allocation writes nothing into the headers of the blocks in use, and hands out none of them. -/
theorem C45_alloc_frame {l : Layout} (hl : l.Ok) {s s' : Alloc} {L F : List Blk} (h : Run l s L F) {n a name base p : Nat}
    (hf : Fresh l s base) (ha : s.alloc l n a name base = .ok (s', p)) {x : Blk} (hx : x ∈ L) : s'.heap x.addr = s.heap x.addr ∧ x.addr ≠ p := by
  have hi := run_inv hl h
  obtain ⟨b, hb, _⟩ := hi.good x (Or.inl hx)
  rcases alloc_cases hl hi ha with ⟨pre, post, e1, e2, _, e4⟩ | ⟨_, e2⟩
  · have hnF := hi.lf x hx
    rw [e1] at hnF
    refine ⟨(take_inv hi e1 e2 e4).2.2.2 _ (fun hp => hnF (List.mem_append_left _ hp)), ?_⟩
    intro he
    apply hnF
    rw [he]; simp
  · obtain ⟨_, hn, hh⟩ := create_inv hl hi hf e2
    have hne : x.addr ≠ p := by
      intro he
      rw [he, hn] at hb
      cases hb
    exact ⟨hh _ hne, hne⟩

/-- Dropping a block works, and writes nothing into the headers of the other blocks in use. -/
theorem C45_drop {l : Layout} (hl : l.Ok) {s : Alloc} {L F : List Blk} (h : Run l s L F) {x : Blk} (hx : x ∈ L) :
    ∃ s', s.drop x.addr = .ok s' ∧ s'.chunks = s.chunks ∧ ∀ y ∈ L, y.addr ≠ x.addr → s'.heap y.addr = s.heap y.addr := by
  have hi := run_inv hl h
  obtain ⟨b, hb, _⟩ := hi.good x (Or.inl hx)
  have hz := heap_nz hi hb
  refine ⟨{ s with heap := upd s.heap x.addr { b with next := s.free }, free := x.addr }, ?_, rfl, fun y _ hne => upd_ne hne⟩
  rw [Alloc.drop, if_pos hz, Alloc.dealloc, if_neg hz, hb]; rfl

/-- A dropped block serves a request if it has its size and begins at a multiple of the alignment. -/
def Serves (s : Alloc) (n a : Nat) (y : Blk) : Prop := y.size = n ∧ ∃ d e, s.range y.addr = .ok (d, e) ∧ d % a = 0

theorem serves_iff {l : Layout} {s : Alloc} {L F : List Blk} (hi : Inv l s L F) {y : Blk} (hy : y ∈ F) {n a : Nat} :
    Serves s n a y ↔ Match s.heap n a y.addr := by
  obtain ⟨b, hb, e1, _⟩ := hi.good y (Or.inr hy)
  constructor
  · rintro ⟨h1, d, e, h2, h3⟩
    rw [range_eq hb] at h2
    have h2 := (Prod.mk.inj (R.ok.inj h2)).1
    exact ⟨b, hb, by rw [e1, h1], by rw [h2]; exact h3⟩
  · rintro ⟨b', hb', h1, h2⟩
    rw [hb] at hb'
    cases hb'
    exact ⟨by rw [← e1, h1], _, _, range_eq hb, h2⟩

/-- Memory is reused: the block handed out is the last dropped one that serves the request, and then the chunks stay as they
    are; only if there is none, a block is made at a new place. -/
theorem C45_reuse {l : Layout} (hl : l.Ok) {s s' : Alloc} {L F : List Blk} (h : Run l s L F) {n a name base p : Nat}
    (hf : Fresh l s base) (ha : s.alloc l n a name base = .ok (s', p)) :
    (∃ pre y post, F = pre ++ y :: post ∧ p = y.addr ∧ Serves s n a y ∧ (∀ z ∈ pre, ¬ Serves s n a z) ∧ s'.chunks = s.chunks) ∨
    ((∀ y ∈ F, ¬ Serves s n a y) ∧ ∀ y ∈ L ++ F, y.addr ≠ p) := by
  have hi := run_inv hl h
  rcases alloc_cases hl hi ha with ⟨pre, post, e1, e2, e3, e4⟩ | ⟨e1, e2⟩
  · left
    obtain ⟨fp, fq, hF, hp1, hp2⟩ := List.map_eq_append_iff.mp e1
    obtain ⟨y, fr, hq, hy1, hy2⟩ := List.map_eq_cons_iff.mp hp2
    subst hq
    have hy1 : y.addr = p := hy1
    refine ⟨fp, y, fr, hF, hy1.symm, ?_, ?_, (take_inv hi e1 e2 e4).2.1⟩
    · rw [serves_iff hi (by rw [hF]; simp), hy1]; exact e2
    · intro z hz
      rw [serves_iff hi (by rw [hF]; exact List.mem_append_left _ hz)]
      apply e3
      rw [← hp1]
      exact List.mem_map.mpr ⟨z, hz, rfl⟩
  · right
    refine ⟨fun y hy => ?_, fun y hy he => ?_⟩
    · rw [serves_iff hi hy]
      exact e1 _ (List.mem_map.mpr ⟨y, hy, rfl⟩)
    · obtain ⟨b, hb, _⟩ := hi.good y (List.mem_append.mp hy)
      rw [he, (create_inv hl hi hf e2).2.1] at hb
      cases hb

theorem tryCreate_eq {l : Layout} (hl : l.Ok) {c : Chunk} {n a : Nat} (ha : isPow2 a = true) :
    ∃ o1 o2, o1 < l.blockAlign ∧ o2 < a ∧ tryCreate l c n a = .ok (if c.base + l.chunkHdr + c.cur + o1 + l.blockHdr + o2 + n ≤ c.base + l.chunkBytes then
      some (c.base + l.chunkHdr + c.cur + o1, ⟨0, u32 n, u32 (l.blockHdr + o2)⟩) else none) := by
  refine ⟨_, _, off_lt (pos_of_pow2 hl.align) (p := c.base + l.chunkHdr + c.cur), off_lt (pos_of_pow2 ha)
    (p := c.base + l.chunkHdr + c.cur + (l.blockAlign - (c.base + l.chunkHdr + c.cur) % l.blockAlign) % l.blockAlign + l.blockHdr), ?_⟩
  have hh := hl.hdr
  simp only [tryCreate, positions, alignOffset_ok hl.align, alignOffset_ok ha, R.bind_ok, R.pure_eq]
  generalize (l.blockAlign - (c.base + l.chunkHdr + c.cur) % l.blockAlign) % l.blockAlign = o1
  generalize (a - (c.base + l.chunkHdr + c.cur + o1 + l.blockHdr) % a) % a = o2
  have hd : c.base + l.chunkHdr + c.cur + o1 + l.blockHdr + o2 - (c.base + l.chunkHdr + c.cur + o1) = l.blockHdr + o2 := by omega
  rw [hd]
  have : decide (l.blockHdr + o2 > 0) = true := decide_eq_true (by omega)
  rw [this, R.assert_true, R.bind_ok]
  split <;> rfl

theorem create_eq {l : Layout} {s : Alloc} {n a name base : Nat} {c : Chunk} {rest : List Chunk} {r : Option (Nat × Block)} (hc : s.chunks = c :: rest)
    (hr : tryCreate l c n a = .ok r) (hn : r = none) (hr2 : tryCreate l ⟨name, base, 0⟩ n a = .ok none) : s.create l n a name base = .panic := by
  subst hn
  simp only [Alloc.create, hc, List.head?_cons, R.unwrap_some, R.bind_ok, hr, Option.isNone, if_true, Alloc.write, Alloc.addChunk, hr2, R.unwrap_none, R.bind_panic]

theorem create_ok_of {l : Layout} (hl : l.Ok) {s : Alloc} {n a name base : Nat} {c : Chunk} {rest : List Chunk} (ha : isPow2 a = true)
    (hc : s.chunks = c :: rest) (hfit : ∃ pb, tryCreate l ⟨name, base, 0⟩ n a = .ok (some pb)) : ∃ s' p, s.create l n a name base = .ok (s', p) := by
  have key : ∀ {d : Chunk} {p : Nat} {b : Block}, tryCreate l d n a = .ok (some (p, b)) →
      decide (b.offset > 0) = true ∧ alignOffset (p + b.offset) a = .ok 0 := by
    intro d p b ht
    obtain ⟨_, _, _, h2, h3, _, _⟩ := tryCreate_some hl ht
    have := hl.hdr
    exact ⟨decide_eq_true (by omega), by rw [alignOffset_ok ha, (off_zero (pos_of_pow2 ha)).mpr h3]⟩
  obtain ⟨o1, o2, _, _, ht⟩ := tryCreate_eq hl (c := c) (n := n) ha
  cases hr : (if c.base + l.chunkHdr + c.cur + o1 + l.blockHdr + o2 + n ≤ c.base + l.chunkBytes then
      some (c.base + l.chunkHdr + c.cur + o1, (⟨0, u32 n, u32 (l.blockHdr + o2)⟩ : Block)) else none) with
  | some pb =>
    rw [hr] at ht
    obtain ⟨p, b⟩ := pb
    obtain ⟨k1, k2⟩ := key ht
    cases hh : s.create l n a name base with
    | ok r => exact ⟨r.1, r.2, rfl⟩
    | panic =>
      exfalso
      simp only [Alloc.create, hc, List.head?_cons, R.unwrap_some, R.bind_ok, ht, Option.isNone, Bool.false_eq_true, if_false, Alloc.write, k1, k2,
      R.assert_true, decide_true, R.pure_eq] at hh
      cases hh
  | none =>
    rw [hr] at ht
    obtain ⟨⟨p, b⟩, hp⟩ := hfit
    obtain ⟨k1, k2⟩ := key hp
    cases hh : s.create l n a name base with
    | ok r => exact ⟨r.1, r.2, rfl⟩
    | panic =>
      exfalso
      simp only [Alloc.create, hc, List.head?_cons, R.unwrap_some, R.bind_ok, ht, Option.isNone, if_true, Alloc.write, Alloc.addChunk, hp, k1, k2,
      R.assert_true, decide_true, R.pure_eq] at hh
      cases hh

theorem take_ok_of {l : Layout} {s : Alloc} {L F : List Blk} {n a p : Nat} {pre post : List Nat} (hi : Inv l s L F) (ha : isPow2 a = true)
    (hF : F.map Blk.addr = pre ++ p :: post) (hm : Match s.heap n a p) : ∃ s', s.take ((pre.getLast?).getD 0) p a = .ok (s', p) := by
  obtain ⟨b, hb, _, hal⟩ := hm
  have ho : alignOffset (p + b.offset) a = .ok 0 := by rw [alignOffset_ok ha, (off_zero (pos_of_pow2 ha)).mpr hal]
  rcases List.eq_nil_or_concat pre with hpre | ⟨pre', q, hpre⟩
  · subst hpre
    refine ⟨{ s with free := b.next }, ?_⟩
    simp only [Alloc.take, hb, R.unwrap_some, R.bind_ok, Alloc.unlink, List.getLast?_nil, Option.getD_none, if_true, ho, decide_true, R.assert_true, R.pure_eq]
  · rw [List.concat_eq_append] at hpre
    subst hpre
    have hq : q ∈ F.map Blk.addr := by rw [hF]; simp
    obtain ⟨x, hx, hxq⟩ := List.mem_map.mp hq
    have hxq : x.addr = q := hxq
    obtain ⟨bq, hbq, _⟩ := hi.good x (Or.inr hx)
    have hz := heap_nz hi hbq
    rw [hxq] at hbq hz
    have hlast : ((pre' ++ [q]).getLast?).getD 0 = q := by simp
    refine ⟨{ s with heap := upd s.heap q { bq with next := b.next } }, ?_⟩
    simp only [Alloc.take, hb, R.unwrap_some, R.bind_ok, Alloc.unlink, hlast, if_neg hz, hbq, ho, decide_true, R.assert_true, R.pure_eq]

/-- Every request succeeds that fits into an empty chunk, whatever the padding. -/
theorem C45_total {l : Layout} (hl : l.Ok) {s : Alloc} {L F : List Blk} (h : Run l s L F) {n a name base : Nat} (ha : isPow2 a = true)
    (hn : l.chunkHdr + (l.blockAlign - 1) + l.blockHdr + (a - 1) + n ≤ l.chunkBytes) : ∃ s' p, s.alloc l n a name base = .ok (s', p) := by
  have hi := run_inv hl h
  have hlen := chain_length hi
  rcases walk_spec (n := n) ha (fuel := s.made.length + 1) (pred := 0) hi.chain (by omega) with ⟨pre, q, post, e1, e2, e3, e4⟩ | ⟨e1, r, e2⟩
  · have hq : q ≠ 0 := by
      obtain ⟨b, hb, _⟩ := e2
      exact heap_nz hi hb
    obtain ⟨s', hs'⟩ := take_ok_of hi ha e1 e2
    refine ⟨s', q, ?_⟩
    rw [Alloc.alloc, e4, R.bind_ok, if_pos hq]
    exact hs'
  · obtain ⟨c, rest, hc⟩ := List.exists_cons_of_ne_nil hi.ne
    obtain ⟨o1, o2, h1, h2, ht⟩ := tryCreate_eq hl (c := ⟨name, base, 0⟩) (n := n) ha
    rw [if_pos (by dsimp only; omega)] at ht
    obtain ⟨s', p, hs'⟩ := create_ok_of hl ha hc ⟨_, ht⟩
    refine ⟨s', p, ?_⟩
    rw [Alloc.alloc, e2, R.bind_ok, if_neg (by simp)]
    exact hs'

/-- A request larger than a chunk follows a null pointer. -/
theorem C45_oversize {l : Layout} (hl : l.Ok) {s : Alloc} {L F : List Blk} (h : Run l s L F) {n a name base : Nat} (ha : isPow2 a = true)
    (hn : l.chunkBytes < n) : s.alloc l n a name base = .panic := by
  have hi := run_inv hl h
  have hlen := chain_length hi
  rcases walk_spec (n := n) ha (fuel := s.made.length + 1) (pred := 0) hi.chain (by omega) with ⟨pre, q, post, e1, e2, e3, e4⟩ | ⟨e1, r, e2⟩
  · obtain ⟨b, hb, hbn, _⟩ := e2
    obtain ⟨_, c, hc, e4, e5⟩ := hi.place q b hb
    have := (hi.base c hc).2
    omega
  · obtain ⟨c, rest, hc⟩ := List.exists_cons_of_ne_nil hi.ne
    obtain ⟨o1, o2, _, _, ht⟩ := tryCreate_eq hl (c := c) (n := n) ha
    obtain ⟨p1, p2, _, _, ht2⟩ := tryCreate_eq hl (c := ⟨name, base, 0⟩) (n := n) ha
    rw [if_neg (by omega)] at ht ht2
    rw [Alloc.alloc, e2, R.bind_ok, if_neg (by simp)]
    exact create_eq hc ht rfl ht2

/-- `shfree` gives nothing back: the allocator stays as it is, while dropping a block makes it the next one handed out. -/
theorem C45_shfree (s : Alloc) (p : Nat) : s.shfree p = .ok s := rfl

theorem C45_drop_then_alloc {l : Layout} (hl : l.Ok) {s s' : Alloc} {L F : List Blk} (h : Run l s L F) {x : Blk} (hx : x ∈ L)
    (hd : s.drop x.addr = .ok s') {name base : Nat} :
    ∃ s'', s'.alloc l x.size x.align name base = .ok (s'', x.addr) ∧ s''.chunks = s.chunks := by
  have hr := Run.drop h hx hd
  have hi := run_inv hl hr
  have ha := run_pow2 hl hr x (Or.inr List.mem_cons_self)
  have hlen := chain_length hi
  have hm : Match s'.heap x.size x.align x.addr := by
    obtain ⟨b, hb, e1, e2⟩ := hi.good x (Or.inr List.mem_cons_self)
    exact ⟨b, hb, e1, e2⟩
  have hz : x.addr ≠ 0 := by
    obtain ⟨b, hb, _⟩ := hm
    exact heap_nz hi hb
  have hcs : s'.chunks = s.chunks := by
    obtain ⟨s1, h1, h2, _⟩ := C45_drop hl h hx
    rw [hd] at h1
    rw [R.ok.inj h1]; exact h2
  rcases walk_spec (n := x.size) ha (fuel := s'.made.length + 1) (pred := 0) hi.chain (by omega) with ⟨pre, q, post, e1, e2, e3, e4⟩ | ⟨e1, _⟩
  · rw [List.map_cons] at e1
    cases pre with
    | nil =>
      have hq : q = x.addr := (List.cons.inj e1).1.symm
      subst hq
      obtain ⟨s'', hs''⟩ := take_ok_of hi ha (pre := []) (post := post) e1 e2
      refine ⟨s'', ?_, ?_⟩
      · rw [Alloc.alloc, e4, R.bind_ok, if_pos hz]
        exact hs''
      · rw [← hcs]
        exact (take_inv hi (pre := []) (post := post) e1 e2 hs'').2.1
    | cons z zs =>
      have hz : z = x.addr := (List.cons.inj e1).1.symm
      exact absurd hm (hz ▸ e3 z List.mem_cons_self)
  · exact absurd hm (e1 _ (by simp))

/-- The handle of a block in use is the name of its chunk and its place in it. -/
theorem C45_serialize {l : Layout} (hl : l.Ok) {s : Alloc} {L F : List Blk} (h : Run l s L F) {x : Blk} (hx : x ∈ L) :
    ∃ c ∈ s.chunks, ∃ off, s.serialize l x.addr = .ok (c.name, off) ∧ x.addr = c.base + off ∧ l.chunkHdr ≤ off ∧ off < l.chunkBytes := by
  have hi := run_inv hl h
  obtain ⟨b, hb, _⟩ := hi.good x (Or.inl hx)
  obtain ⟨e3, c, hc, e4, e5⟩ := hi.place _ b hb
  have := (hi.base c hc).2
  have hh := hl.hdr
  have hch := hl.chdr
  have hf := findChunk_of_mem hi.cdis hc e4 (by omega)
  refine ⟨c, hc, x.addr - c.base, ?_, by omega, by omega, by omega⟩
  have : decide (x.addr - c.base > 0) = true := decide_eq_true (by omega)
  rw [Alloc.serialize, hf, R.unwrap_some, R.bind_ok, this]
  rfl

/-- Different blocks have different handles, if the chunks have different names. -/
theorem C45_handles {l : Layout} (hl : l.Ok) {s : Alloc} {L F : List Blk} (h : Run l s L F)
    (hn : ∀ c ∈ s.chunks, ∀ d ∈ s.chunks, c.name = d.name → c = d) {x y : Blk} (hx : x ∈ L) (hy : y ∈ L)
    (he : s.serialize l x.addr = s.serialize l y.addr) : x.addr = y.addr := by
  obtain ⟨c, hc, o, h1, h2, _⟩ := C45_serialize hl h hx
  obtain ⟨d, hd, o', h3, h4, _⟩ := C45_serialize hl h hy
  rw [h1, h3] at he
  have he := Prod.mk.inj (R.ok.inj he)
  have hcd := hn c hc d hd he.1
  subst hcd
  omega

/-! ### The other process -/

/-- Histories of deserializations, with the chunks mapped so far. -/
inductive DRun : Deser → List (Nat × Nat) → Prop
  | init : DRun ⟨[]⟩ []
  | step {d d' : Deser} {M : List (Nat × Nat)} {name off base q : Nat} : DRun d M → d.deserialize name off base = .ok (d', q) →
      DRun d' (if name ∈ d.chunks.map Prod.fst then M else M ++ [(name, base)])

theorem deser_cases {d d' : Deser} {name off base q : Nat} (h : d.deserialize name off base = .ok (d', q)) :
    0 < off ∧ ((∃ b, d.chunks.find? (fun c => c.1 == name) = some (name, b) ∧ d' = d ∧ q = b + off) ∨
      ((¬ ∃ b, (name, b) ∈ d.chunks) ∧ q = base + off ∧ d'.chunks = if d.chunks.length = capacity then d.chunks else d.chunks ++ [(name, base)])) := by
  rw [Deser.deserialize] at h
  cases hf : d.chunks.find? (fun c => c.1 == name) with
  | some c =>
    rw [hf] at h
    obtain ⟨_, h1, h2⟩ := R.bind_eq_ok.mp h
    have h1 := of_decide_eq_true (R.assert_eq_ok.mp h1)
    have h2 := Prod.mk.inj (R.ok.inj h2)
    have hn := List.find?_some hf
    simp only [beq_iff_eq] at hn
    obtain ⟨cn, cb⟩ := c
    dsimp only at hn
    subst hn
    exact ⟨h1, Or.inl ⟨cb, rfl, h2.1.symm, h2.2.symm⟩⟩
  | none =>
    rw [hf] at h
    obtain ⟨_, h1, h2⟩ := R.bind_eq_ok.mp h
    have h1 := of_decide_eq_true (R.assert_eq_ok.mp h1)
    have h2 := Prod.mk.inj (R.ok.inj h2)
    refine ⟨h1, Or.inr ⟨?_, h2.2.symm, by rw [← h2.1]⟩⟩
    rintro ⟨b, hb⟩
    have := List.find?_eq_none.mp hf _ hb
    simp at this

theorem drun_sub {d : Deser} {M : List (Nat × Nat)} (h : DRun d M) : ∀ c ∈ d.chunks, c ∈ M := by
  induction h with
  | init => intro c hc; cases hc
  | @step d d' M name off base q _ hd ih =>
    intro c hc
    rcases (deser_cases hd).2 with ⟨b, hf, he, _⟩ | ⟨hno, _, he⟩
    · have : name ∈ d.chunks.map Prod.fst := List.mem_map.mpr ⟨_, List.mem_of_find?_eq_some hf, rfl⟩
      rw [if_pos this]
      exact ih c (he ▸ hc)
    · have hno : ¬ name ∈ d.chunks.map Prod.fst := by
        intro hm
        obtain ⟨⟨cn, cb⟩, hm, hn⟩ := List.mem_map.mp hm
        have hn : cn = name := hn
        exact hno ⟨cb, hn ▸ hm⟩
      rw [if_neg hno]
      rw [he] at hc
      by_cases hcap : d.chunks.length = capacity
      · rw [if_pos hcap] at hc
        exact List.mem_append_left _ (ih c hc)
      · rw [if_neg hcap] at hc
        rcases List.mem_append.mp hc with hc | hc
        · exact List.mem_append_left _ (ih c hc)
        · exact List.mem_append_right _ hc

/-- A handle leads to its place in a mapping of its chunk. -/
theorem C45_deserialize {d d' : Deser} {M : List (Nat × Nat)} (h : DRun d M) {name off base q : Nat}
    (hd : d.deserialize name off base = .ok (d', q)) : ∃ b, ((name, b) ∈ M ∨ b = base) ∧ q = b + off := by
  rcases (deser_cases hd).2 with ⟨b, hf, _, hq⟩ | ⟨_, hq, _⟩
  · exact ⟨b, Or.inl (drun_sub h _ (List.mem_of_find?_eq_some hf)), hq⟩
  · exact ⟨base, Or.inr rfl, hq⟩

inductive DSteps : Deser → Deser → Prop
  | refl {d : Deser} : DSteps d d
  | step {d d' d'' : Deser} {name off base q : Nat} : DSteps d d' → d'.deserialize name off base = .ok (d'', q) → DSteps d d''

theorem dsteps_find {d d' : Deser} {name b : Nat} (h : DSteps d d') (hf : d.chunks.find? (fun c => c.1 == name) = some (name, b)) :
    d'.chunks.find? (fun c => c.1 == name) = some (name, b) := by
  induction h with
  | refl => exact hf
  | step _ hd ih =>
    rcases (deser_cases hd).2 with ⟨_, _, he, _⟩ | ⟨_, _, he⟩
    · rw [he]; exact ih
    · rw [he]
      split
      · exact ih
      · rw [List.find?_append, ih]; rfl

/-- The same handle leads to the same address for good, while not more than 64 chunks are mapped. -/
theorem C45_stable {d d' d'' : Deser} {name off base base' q : Nat} (hcap : d.chunks.length < 64)
    (hd : d.deserialize name off base = .ok (d', q)) (hs : DSteps d' d'') : d''.deserialize name off base' = .ok (d'', q) := by
  have hf : ∃ b, d'.chunks.find? (fun c => c.1 == name) = some (name, b) ∧ q = b + off := by
    rcases (deser_cases hd).2 with ⟨b, hf, he, hq⟩ | ⟨hno, hq, he⟩
    · exact ⟨b, by rw [he]; exact hf, hq⟩
    · refine ⟨base, ?_, hq⟩
      have hc : ¬ d.chunks.length = capacity := by
        have : capacity = 64 := rfl
        omega
      rw [he, if_neg hc, List.find?_append]
      have : d.chunks.find? (fun c => c.1 == name) = none := by
        rw [List.find?_eq_none]
        rintro ⟨cn, cb⟩ hc hn
        simp only [beq_iff_eq] at hn
        subst hn
        exact hno ⟨cb, hc⟩
      rw [this]
      simp
  obtain ⟨b, hf, hq⟩ := hf
  have hf2 := dsteps_find hs hf
  rw [Deser.deserialize, hf2]
  have : decide (off > 0) = true := decide_eq_true (deser_cases hd).1
  dsimp only
  rw [this, hq]
  rfl

/-! ## Examples -/

/-- The sizes of the release build: a chunk header of 288 bytes, a block header of 16. -/
def real : Layout := ⟨288, 16, 8, 8388608⟩

example : real.Ok := ⟨by decide, by decide, by decide, by decide⟩

/-- Operations for the examples; the kernel maps chunk `k` at `k` times 16 MiB. -/
inductive Op
  | alloc (n a : Nat)
  | drop (p : Nat)
  | shfree (p : Nat)

def step (l : Layout) (s : Alloc) : Op → R (Alloc × Nat)
  | .alloc n a => s.alloc l n a (s.chunks.length + 1) ((s.chunks.length + 1) * 16777216)
  | .drop p => (s.drop p).bind (fun s => .ok (s, p))
  | .shfree p => (s.shfree p).bind (fun s => .ok (s, p))

def exec (l : Layout) (s : Alloc) : List Op → R (List Nat × List Chunk)
  | [] => .ok ([], s.chunks)
  | o :: os => do
    let r ← step l s o
    let t ← exec l r.1 os
    return (r.2 :: t.1, t.2)

def start : Alloc := Alloc.init 1 16777216

/-- Three blocks, the second of them dropped; a smaller request gets a new block, one of the same size the dropped one. -/
example : exec real start [.alloc 100 8, .alloc 24 16, .alloc 100 8, .drop 16777912, .alloc 8 8, .alloc 24 16] =
    .ok ([16777504, 16777912, 16778248, 16777912, 16778656, 16777912], [⟨1, 16777216, 1464⟩]) := by decide +kernel

/-- After `shfree` the block is not handed out again. -/
example : exec real start [.alloc 100 8, .drop 16777504, .alloc 100 8] = .ok ([16777504, 16777504, 16777504], [⟨1, 16777216, 404⟩]) := by
  decide +kernel

example : exec real start [.alloc 100 8, .shfree 16777504, .alloc 100 8] = .ok ([16777504, 16777504, 16777912], [⟨1, 16777216, 812⟩]) := by
  decide +kernel

/-- A block too large for the rest of the chunk starts a new one. -/
example : exec real start [.alloc 5000000 8, .alloc 5000000 8] =
    .ok ([16777504, 33554720], [⟨2, 33554432, 5000304⟩, ⟨1, 16777216, 5000304⟩]) := by decide +kernel

/-- From 65 chunks on a handle is mapped anew with every use. -/
example : let d : Deser := ⟨(List.range 64).map (fun k => (k, 1000 * k + 1))⟩
    d.deserialize 99 5 7000 = .ok (d, 7005) ∧ d.deserialize 99 5 8000 = .ok (d, 8005) := by decide +kernel

/-- The allocator after an operation that works. -/
def st : R (Alloc × Nat) → Alloc
  | .ok x => x.1
  | .panic => start

def at' : R (Alloc × Nat) → Nat
  | .ok x => x.2
  | .panic => 0

theorem st_eq {r : R (Alloc × Nat)} (h : at' r ≠ 0) : r = .ok (st r, at' r) := by
  cases r with
  | ok x => rfl
  | panic => exact absurd rfl h

def ex1 : R (Alloc × Nat) := start.alloc real 100 8 2 33554432
def ex2 : R (Alloc × Nat) := (st ex1).alloc real 24 16 2 33554432
def ex3 : R (Alloc × Nat) := step real (st ex2) (.drop 16777504)

/-- A history with a block in use and one dropped. -/
example : ∃ s L F, Run real s L F ∧ L = [⟨16777912, 24, 16⟩] ∧ F = [⟨16777504, 100, 8⟩] := by
  have h1 : start.alloc real 100 8 2 33554432 = .ok (st ex1, 16777504) := st_eq (r := ex1) (by decide +kernel)
  have h2 : (st ex1).alloc real 24 16 2 33554432 = .ok (st ex2, 16777912) := st_eq (r := ex2) (by decide +kernel)
  have r1 := Run.alloc (Run.init (l := real) (name := 1) (base := 16777216) (by decide)) (by unfold Fresh; decide) h1
  have r2 := Run.alloc r1 (by unfold Fresh; decide +kernel) h2
  obtain ⟨s', h3, _⟩ := C45_drop ⟨by decide, by decide, by decide, by decide⟩ r2 (x := ⟨16777504, 100, 8⟩) (by decide)
  exact ⟨s', _, _, Run.drop r2 (by decide) h3, by decide, by decide⟩

end Shadow.ShMem
