import Verif.MemMap.Regions

/-!
# Taking an interval out of the table: what `unmap_mutations` does
-/
namespace Shadow.MemMap

open Shadow.Base Shadow.IntervalMap

theorem pageUp_eq {pg n : Nat} (h : 0 < pg) (hn : n % pg = 0) : pageUp pg n = n := by
  unfold pageUp
  have h1 : n = n / pg * pg := by
    have := Nat.div_add_mod n pg
    rw [hn, Nat.mul_comm] at this
    omega
  have h2 : (n + (pg - 1)) / pg = n / pg := by
    conv => lhs; rw [h1, Nat.add_comm]
    rw [Nat.add_mul_div_right _ _ h, Nat.div_eq_of_lt (by omega)]
    omega
  rw [h2, ← h1]

theorem mod_sub {a b pg : Nat} (ha : a % pg = 0) (hb : b % pg = 0) : (a - b) % pg = 0 :=
  Nat.mod_eq_zero_of_dvd (Nat.dvd_sub (Nat.dvd_of_mod_eq_zero ha) (Nat.dvd_of_mod_eq_zero hb))

theorem mod_add {a b pg : Nat} (ha : a % pg = 0) (hb : b % pg = 0) : (a + b) % pg = 0 :=
  Nat.mod_eq_zero_of_dvd (Nat.dvd_add (Nat.dvd_of_mod_eq_zero ha) (Nat.dvd_of_mod_eq_zero hb))

/-- What the mapper's own bookkeeping leaves alone. -/
structure Frame (s t : St) : Prop where
  page : t.page = s.page
  plugin : t.plugin = s.plugin
  mem : t.mem = s.mem
  len : t.len = s.len
  heap : t.heap = s.heap

theorem Frame.refl (s : St) : Frame s s := ⟨rfl, rfl, rfl, rfl, rfl⟩

theorem Frame.trans {s t u : St} (h1 : Frame s t) (h2 : Frame t u) : Frame s u :=
  ⟨h2.page.trans h1.page, h2.plugin.trans h1.plugin, h2.mem.trans h1.mem, h2.len.trans h1.len, h2.heap.trans h1.heap⟩

/-- The address is mapped into Shadow, at this address. -/
def Loc (L : List (Entry Region)) (x y : Nat) : Prop := ∃ p ∈ L, p.covers x ∧ p.2.base ≠ 0 ∧ y = p.2.base + (x - p.1.1)

theorem loc_iff {L : List (Entry Region)} {x y : Nat} : Loc L x y ↔ ∃ pr, At L x pr (some y) := by
  unfold Loc At
  constructor
  · rintro ⟨p, hp, hc, hb, rfl⟩
    exact ⟨p.2.prot, p, hp, hc, rfl, by rw [if_neg hb]⟩
  · rintro ⟨pr, p, hp, hc, rfl, h⟩
    by_cases hb : p.2.base = 0
    · rw [if_pos hb] at h; cases h
    · rw [if_neg hb] at h
      exact ⟨p, hp, hc, hb, Option.some.inj h⟩

/-- Between two states, the bytes of an interval that are mapped into Shadow were given back. -/
structure Freed (L : List (Entry Region)) (a b : Nat) (s t : St) : Prop where
  file : ∀ x y, a ≤ x → x < b → Loc L x y → t.file x = 0
  file' : ∀ x, ¬ (a ≤ x ∧ x < b ∧ ∃ y, Loc L x y) → t.file x = s.file x
  shadow : ∀ x y, a ≤ x → x < b → Loc L x y → t.shadow y = none
  shadow' : ∀ y, (¬ ∃ x, a ≤ x ∧ x < b ∧ Loc L x y) → t.shadow y = s.shadow y

/-- Entries at page boundaries. -/
structure Aligned (pg : Nat) (L : List (Entry Region)) : Prop where
  pos : 0 < pg
  s : ∀ p ∈ L, p.1.1 % pg = 0
  e : ∀ p ∈ L, p.1.2 % pg = 0
  base : ∀ p ∈ L, p.2.base % pg = 0

theorem loc_cons {p : Entry Region} {L : List (Entry Region)} {x y : Nat} :
    Loc (p :: L) x y ↔ (p.covers x ∧ p.2.base ≠ 0 ∧ y = p.2.base + (x - p.1.1)) ∨ Loc L x y := by
  unfold Loc
  simp only [List.mem_cons]
  constructor
  · rintro ⟨q, rfl | hq, h⟩
    · exact .inl h
    · exact .inr ⟨q, hq, h⟩
  · rintro (h | ⟨q, hq, h⟩)
    · exact ⟨p, .inl rfl, h⟩
    · exact ⟨q, .inr hq, h⟩

/-- An entry that does not meet the interval, or is not mapped into Shadow. -/
theorem Freed.skip {p : Entry Region} {K : List (Entry Region)} {a b : Nat} {s t : St} (h : Freed K a b s t)
    (hp : ∀ x, a ≤ x → x < b → p.covers x → p.2.base = 0) : Freed (p :: K) a b s t := by
  have key : ∀ x y, a ≤ x → x < b → (Loc (p :: K) x y ↔ Loc K x y) := by
    intro x y h1 h2
    rw [loc_cons]
    constructor
    · rintro (⟨h3, h4, _⟩ | h3)
      · exact absurd (hp x h1 h2 h3) h4
      · exact h3
    · exact .inr
  refine ⟨fun x y h1 h2 h3 => h.file x y h1 h2 ((key x y h1 h2).1 h3), fun x h1 => h.file' x ?_,
    fun x y h1 h2 h3 => h.shadow x y h1 h2 ((key x y h1 h2).1 h3), fun y h1 => h.shadow' y ?_⟩
  · rintro ⟨h2, h3, y, h4⟩
    exact h1 ⟨h2, h3, y, (key x y h2 h3).2 h4⟩
  · rintro ⟨x, h2, h3, h4⟩
    exact h1 ⟨x, h2, h3, (key x y h2 h3).2 h4⟩

/-- One step frees what it has to of the first entry, and the others follow. -/
theorem Freed.cons {p : Entry Region} {K : List (Entry Region)} {a b : Nat} {s m t : St} (h : Freed K a b m t) (hb : p.2.base ≠ 0)
    {c d : Nat} (hc : ∀ x, c ≤ x ∧ x < d ↔ a ≤ x ∧ x < b ∧ p.covers x)
    (h1 : m.file = fun x => if c ≤ x ∧ x < d then 0 else s.file x)
    (h2 : m.shadow = fun y => if p.2.base + (c - p.1.1) ≤ y ∧ y < p.2.base + (d - p.1.1) then none else s.shadow y)
    (hcd : p.1.1 ≤ c ∧ c < d) :
    Freed (p :: K) a b s t := by
  have hin : ∀ x y, a ≤ x → x < b → p.covers x → y = p.2.base + (x - p.1.1) → p.2.base + (c - p.1.1) ≤ y ∧ y < p.2.base + (d - p.1.1) := by
    intro x y g1 g2 g3 g4
    have := (hc x).2 ⟨g1, g2, g3⟩
    omega
  have hout : ∀ y, p.2.base + (c - p.1.1) ≤ y ∧ y < p.2.base + (d - p.1.1) → ∃ x, a ≤ x ∧ x < b ∧ p.covers x ∧ y = p.2.base + (x - p.1.1) := by
    intro y g
    have := (hc (p.1.1 + (y - p.2.base))).1 (by omega)
    exact ⟨_, this.1, this.2.1, this.2.2, by omega⟩
  refine ⟨fun x y g1 g2 g3 => ?_, fun x g => ?_, fun x y g1 g2 g3 => ?_, fun y g => ?_⟩
  · by_cases g4 : ∃ y, Loc K x y
    · obtain ⟨z, g4⟩ := g4
      exact h.file x z g1 g2 g4
    · rw [h.file' x (fun g5 => g4 g5.2.2)]
      rcases loc_cons.1 g3 with g5 | g5
      · rw [h1]
        exact if_pos ((hc x).2 ⟨g1, g2, g5.1⟩)
      · exact absurd ⟨y, g5⟩ g4
  · have : ¬ (a ≤ x ∧ x < b ∧ ∃ y, Loc K x y) := by
      rintro ⟨g1, g2, y, g3⟩
      exact g ⟨g1, g2, y, loc_cons.2 (.inr g3)⟩
    rw [h.file' x this, h1]
    refine if_neg (fun g1 => ?_)
    have := (hc x).1 g1
    exact g ⟨this.1, this.2.1, _, loc_cons.2 (.inl ⟨this.2.2, hb, rfl⟩)⟩
  · by_cases g4 : ∃ x, a ≤ x ∧ x < b ∧ Loc K x y
    · obtain ⟨z, g4, g5, g6⟩ := g4
      exact h.shadow z y g4 g5 g6
    · rw [h.shadow' y g4]
      rcases loc_cons.1 g3 with g5 | g5
      · rw [h2]
        exact if_pos (hin x y g1 g2 g5.1 g5.2.2)
      · exact absurd ⟨x, g1, g2, g5⟩ g4
  · have : ¬ ∃ x, a ≤ x ∧ x < b ∧ Loc K x y := by
      rintro ⟨x, g1, g2, g3⟩
      exact g ⟨x, g1, g2, loc_cons.2 (.inr g3)⟩
    rw [h.shadow' y this, h2]
    refine if_neg (fun g1 => ?_)
    obtain ⟨x, g2, g3, g4, g5⟩ := hout y g1
    exact g ⟨x, g2, g3, loc_cons.2 (.inl ⟨g4, hb, g5⟩)⟩

theorem freed_nil {K : List (Entry Region)} {a b : Nat} {s : St} (h : ∀ p ∈ K, b ≤ p.1.1) : Freed K a b s s := by
  have : ∀ x y, x < b → ¬ Loc K x y := by
    rintro x y h1 ⟨p, hp, hc, _⟩
    have := h p hp
    unfold Entry.covers at hc
    omega
  exact ⟨fun x y _ h2 h3 => absurd h3 (this x y h2), fun _ _ => rfl, fun x y _ h2 h3 => absurd h3 (this x y h2), fun _ _ => rfl⟩

theorem after_eq {K : List (Entry Region)} {b : Nat} (h : ∀ p ∈ K, b ≤ p.1.1) : K.flatMap (after b) = K.flatMap (after' b) := by
  induction K with
  | nil => rfl
  | cons p K ih =>
    have h1 := h p List.mem_cons_self
    rw [List.flatMap_cons, List.flatMap_cons, ih (fun q hq => h q (List.mem_cons_of_mem _ hq))]
    unfold after after'
    rw [Nat.max_eq_left h1, Nat.sub_self, shift_zero]

theorem after_nil {V : Type} {D : List (Entry V)} {b : Nat} (h : ∀ p ∈ D, p.1.2 ≤ b) : D.flatMap (after b) = [] :=
  flatMap_nil_of (fun p hp => by have := h p hp; unfold after; rw [if_neg (by omega)])

theorem after'_nil {D : List (Entry Region)} {b : Nat} (h : ∀ p ∈ D, p.1.2 ≤ b) : D.flatMap (after' b) = [] :=
  flatMap_nil_of (fun p hp => by have := h p hp; unfold after'; rw [if_neg (by omega)])

theorem change_late {V : Type} {K : List (Entry V)} {a b : Nat} (h : ∀ p ∈ K, b ≤ p.1.1) : K.filterMap (change a b) = [] :=
  filterMap_nil_of (fun p hp => by unfold change; rw [if_pos (.inr (h p hp))])

theorem dealloc_eq (s : St) {a b : Nat} (h : a < b) : s.dealloc a b = .ok { s with file := fun x => if a ≤ x ∧ x < b then 0 else s.file x } := by
  unfold St.dealloc
  rw [show decide (a < b) = true by simpa using h]
  rfl

theorem sMunmap_eq (s : St) {base len : Nat} (hp : 0 < s.page) (hb : base % s.page = 0) (hl : len % s.page = 0) :
    sMunmap s base len = { s with shadow := fun y => if base ≤ y ∧ y < base + len then none else s.shadow y } := by
  unfold sMunmap
  rw [if_pos hb, pageUp_eq hp hl]

/-- The entries of the table between `clear` and the adjustments of the mutations. -/
def raw (L : List (Entry Region)) (a b : Nat) : List (Entry Region) := L.flatMap (before a) ++ L.flatMap (after b)

theorem good_raw {L : List (Entry Region)} (h : Good L) {a b : Nat} (hab : a < b) : Good (raw L a b) := by
  have := spliced_good h hab (none : Option Region)
  unfold spliced at this
  simpa [raw] using this

/-- An entry of the table in the middle of an insertion or a deletion. -/
theorem mem_raw_before {L : List (Entry Region)} {a b : Nat} {p : Entry Region} (hp : p ∈ L) (h : p.1.1 < a) : ((p.1.1, min p.1.2 a), p.2) ∈ raw L a b :=
  List.mem_append_left _ (List.mem_flatMap.2 ⟨p, hp, mem_before.2 ⟨h, rfl⟩⟩)

theorem mem_raw_after {L : List (Entry Region)} {a b : Nat} {p : Entry Region} (hp : p ∈ L) (h : b < p.1.2) : ((max p.1.1 b, p.1.2), p.2) ∈ raw L a b :=
  List.mem_append_right _ (List.mem_flatMap.2 ⟨p, hp, mem_after.2 ⟨h, rfl⟩⟩)

/-- The table around the insertion: `M` is what was inserted. -/
def mid (L : List (Entry Region)) (a b : Nat) (M : List (Entry Region)) : List (Entry Region) := L.flatMap (before a) ++ (M ++ L.flatMap (after b))

def mid' (L : List (Entry Region)) (a b : Nat) (M : List (Entry Region)) : List (Entry Region) := L.flatMap (before a) ++ (M ++ L.flatMap (after' b))

theorem unmapAll_spec {L : List (Entry Region)} (hL : Good L) {pg : Nat} (hA : Aligned pg L) {a b : Nat} (hab : a < b) (ha : a % pg = 0) (hb : b % pg = 0)
    (M : List (Entry Region)) (hM : Good (mid L a b M)) :
    ∀ (K D : List (Entry Region)) (s : St), L = D ++ K → (∀ p ∈ D, p.1.2 ≤ b) → s.page = pg → s.regions = ofList (mid L a b M) →
    ∃ t, s.unmapAll (K.filterMap (change a b)) = .ok t ∧ Frame s t ∧ t.regions = ofList (mid' L a b M) ∧ Freed K a b s t := by
  intro K
  induction K with
  | nil =>
    intro D s hD hDb hpg hr
    refine ⟨s, rfl, .refl s, ?_, freed_nil (by simp)⟩
    rw [hr]
    unfold mid mid'
    rw [List.append_nil] at hD
    subst hD
    rw [after_nil hDb, after'_nil hDb]
  | cons p K ih =>
    intro D s hD hDb hpg hr
    have hpL : p ∈ L := by rw [hD]; simp
    have hn := hL.ne p hpL
    have hps := hA.s p hpL
    have hpe := hA.e p hpL
    have hpb := hA.base p hpL
    have hK : ∀ q ∈ K, p.1.2 ≤ q.1.1 := by
      rw [hD] at hL
      exact (List.pairwise_cons.1 hL.right.ord).1
    have hD' : L = (D ++ [p]) ++ K := by rw [hD]; simp
    have late : b < p.1.2 → ∀ q ∈ K, b ≤ q.1.1 := fun h q hq => by have := hK q hq; omega
    by_cases h1 : b ≤ p.1.1
    · -- nothing more is in the interval
      have hall : ∀ q ∈ p :: K, b ≤ q.1.1 := by
        intro q hq
        rcases List.mem_cons.1 hq with rfl | hq
        · exact h1
        · have := hK q hq; omega
      rw [change_late hall]
      refine ⟨s, rfl, .refl s, ?_, freed_nil hall⟩
      rw [hr]
      unfold mid mid'
      rw [hD, List.flatMap_append, List.flatMap_append, List.flatMap_append, after_nil hDb, after'_nil hDb, after_eq hall]
    by_cases h2 : p.1.2 ≤ a
    · have hc : change a b p = none := by unfold change; rw [if_pos (.inl h2)]
      rw [List.filterMap_cons_none hc]
      obtain ⟨t, g1, g2, g3, g4⟩ := ih (D ++ [p]) s hD' (by
        intro q hq
        rcases List.mem_append.1 hq with hq | hq
        · exact hDb q hq
        · rw [List.mem_singleton] at hq; subst hq; omega) hpg hr
      exact ⟨t, g1, g2, g3, g4.skip (fun x g5 g6 g7 => by unfold Entry.covers at g7; omega)⟩
    by_cases h3 : p.1.2 ≤ b
    · -- no part after the interval
      have ih' := ih (D ++ [p])
      have hDb' : ∀ q ∈ D ++ [p], q.1.2 ≤ b := by
        intro q hq
        rcases List.mem_append.1 hq with hq | hq
        · exact hDb q hq
        · rw [List.mem_singleton] at hq; subst hq; omega
      by_cases h4 : p.1.1 < a
      · have hc : change a b p = some (.modifiedEnd p.1 a) := by
          unfold change; rw [if_neg (by omega), if_pos h4, if_pos h3]
        have hf : find s.regions p.1.1 = .ok ((p.1.1, a), p.2) := by
          rw [hr]
          refine find_spec hM ?_ (by unfold Entry.covers; simp only; omega)
          refine List.mem_append_left _ (List.mem_flatMap.2 ⟨p, hpL, mem_before.2 ⟨h4, ?_⟩⟩)
          rw [Nat.min_eq_right (by omega)]
        rw [List.filterMap_cons_some hc]
        by_cases hz : p.2.base = 0
        · obtain ⟨t, g1, g2, g3, g4⟩ := ih' s hD' hDb' hpg hr
          refine ⟨t, ?_, g2, g3, g4.skip (fun _ _ _ _ => hz)⟩
          simp only [St.unmapAll, St.unmapOne, hf, R.bind_ok, hz, if_true, R.pure_eq]
          exact g1
        · have hd := dealloc_eq s (a := a) (b := p.1.2) (by omega)
          obtain ⟨t, g1, g2, g3, g4⟩ := ih' { s with
            file := fun x => if a ≤ x ∧ x < p.1.2 then 0 else s.file x
            shadow := fun y => if p.2.base + (a - p.1.1) ≤ y ∧ y < p.2.base + (a - p.1.1) + (p.1.2 - a) then none else s.shadow y } hD' hDb' hpg hr
          refine ⟨t, ?_, ⟨g2.page, g2.plugin, g2.mem, g2.len, g2.heap⟩, g3, g4.cons hz (c := a) (d := p.1.2) ?_ rfl ?_ (by omega)⟩
          · simp only [St.unmapAll, St.unmapOne, hf, R.bind_ok, if_neg hz, R.pure_eq, hd]
            rw [sMunmap_eq _ (by simp only [hpg]; exact hA.pos) (by simp only [hpg]; exact mod_add hpb (mod_sub ha hps)) (by simp only [hpg]; exact mod_sub hpe ha)]
            exact g1
          · intro x
            unfold Entry.covers
            omega
          · simp only
            funext y
            rw [show p.2.base + (a - p.1.1) + (p.1.2 - a) = p.2.base + (p.1.2 - p.1.1) by omega]
      · have hc : change a b p = some (.removed p.1 p.2) := by
          unfold change; rw [if_neg (by omega), if_neg h4, if_pos h3]
        rw [List.filterMap_cons_some hc]
        by_cases hz : p.2.base = 0
        · obtain ⟨t, g1, g2, g3, g4⟩ := ih' s hD' hDb' hpg hr
          refine ⟨t, ?_, g2, g3, g4.skip (fun _ _ _ _ => hz)⟩
          simp only [St.unmapAll, St.unmapOne, R.bind_ok, hz, if_true, R.pure_eq]
          exact g1
        · have hd := dealloc_eq s (a := p.1.1) (b := p.1.2) (by omega)
          obtain ⟨t, g1, g2, g3, g4⟩ := ih' { s with
            file := fun x => if p.1.1 ≤ x ∧ x < p.1.2 then 0 else s.file x
            shadow := fun y => if p.2.base ≤ y ∧ y < p.2.base + (p.1.2 - p.1.1) then none else s.shadow y } hD' hDb' hpg hr
          refine ⟨t, ?_, ⟨g2.page, g2.plugin, g2.mem, g2.len, g2.heap⟩, g3, g4.cons hz (c := p.1.1) (d := p.1.2) ?_ rfl ?_ (by omega)⟩
          · simp only [St.unmapAll, St.unmapOne, R.bind_ok, if_neg hz, R.pure_eq, hd]
            rw [sMunmap_eq _ (by simp only [hpg]; exact hA.pos) (by simp only [hpg]; exact hpb) (by simp only [hpg]; exact mod_sub hpe hps)]
            exact g1
          · intro x
            unfold Entry.covers
            omega
          · simp only
            funext y
            rw [Nat.sub_self, Nat.add_zero]
    · -- the last region that meets the interval
      have hlate := late (by omega)
      have hsplit : mid L a b M = (L.flatMap (before a) ++ M) ++ ((b, p.1.2), p.2) :: K.flatMap (after b) := by
        unfold mid
        conv => lhs; rw [hD]
        rw [List.flatMap_append, List.flatMap_append, after_nil hDb, List.flatMap_cons, List.flatMap_cons]
        have : after b p = [((b, p.1.2), p.2)] := by
          unfold after; rw [if_pos (by omega), Nat.max_eq_right (by omega)]
        rw [this, ← List.flatMap_cons, ← List.flatMap_append, ← hD]
        simp
      have hdone : ∀ d, b - p.1.1 = d → ofList ((L.flatMap (before a) ++ M) ++ ((b, p.1.2), shift d p.2) :: K.flatMap (after b)) = ofList (mid' L a b M) := by
        intro d hd
        subst hd
        have hs' : mid' L a b M = (L.flatMap (before a) ++ M) ++ ((b, p.1.2), shift (b - p.1.1) p.2) :: K.flatMap (after b) := by
          unfold mid'
          conv => lhs; rw [hD]
          rw [List.flatMap_append, List.flatMap_append, after'_nil hDb, List.flatMap_cons, List.flatMap_cons]
          have : after' b p = [((b, p.1.2), shift (b - p.1.1) p.2)] := by
            unfold after'; rw [if_pos (by omega), Nat.max_eq_right (by omega)]
          rw [this, ← List.flatMap_cons, ← List.flatMap_append, ← hD, after_eq hlate]
          simp
        rw [hs']
      have hgood : Good ((L.flatMap (before a) ++ M) ++ ((b, p.1.2), p.2) :: K.flatMap (after b)) := hsplit ▸ hM
      have hcov : Entry.covers (((b, p.1.2), p.2) : Entry Region) b := by unfold Entry.covers; simp only; omega
      have hfb : find s.regions b = .ok ((b, p.1.2), p.2) := by
        rw [hr, hsplit]
        exact find_spec hgood (by simp) hcov
      have hzero : p.2.base = 0 → s.regions = ofList (mid' L a b M) := by
        intro hz
        rw [hr, hsplit, ← hdone _ rfl]
        have : shift (b - p.1.1) p.2 = p.2 := by unfold shift; rw [if_pos hz]
        rw [this]
      have hmod : ∀ d, p.2.base ≠ 0 → d = b - p.1.1 → modify s.regions b (fun r => { r with base := r.base + d }) = .ok (ofList (mid' L a b M)) := by
        intro d hz hd
        rw [hr, hsplit, modify_spec hgood hcov]
        refine congrArg R.ok ?_
        rw [← hdone d hd.symm]
        have : shift d p.2 = { p.2 with base := p.2.base + d } := by unfold shift; rw [if_neg hz]
        rw [this]
      by_cases h4 : p.1.1 < a
      · have hc : change a b p = some (.split p.1 (p.1.1, a) (b, p.1.2)) := by
          unfold change; rw [if_neg (by omega), if_pos h4, if_neg h3]
        have hf : find s.regions p.1.1 = .ok ((p.1.1, a), p.2) := by
          rw [hr]
          refine find_spec hM ?_ (by unfold Entry.covers; simp only; omega)
          refine List.mem_append_left _ (List.mem_flatMap.2 ⟨p, hpL, mem_before.2 ⟨h4, ?_⟩⟩)
          rw [Nat.min_eq_right (by omega)]
        rw [List.filterMap_cons_some hc, change_late hlate]
        by_cases hz : p.2.base = 0
        · refine ⟨s, ?_, .refl s, hzero hz, (freed_nil hlate).skip (fun _ _ _ _ => hz)⟩
          simp [St.unmapAll, St.unmapOne, hf, hfb, hz, R.bind_ok, R.pure_eq, R.assert]
        · have hd := dealloc_eq s (a := a) (b := b) (by omega)
          refine ⟨{ s with
            file := fun x => if a ≤ x ∧ x < b then 0 else s.file x
            shadow := fun y => if p.2.base + (a - p.1.1) ≤ y ∧ y < p.2.base + (a - p.1.1) + (b - a) then none else s.shadow y
            regions := ofList (mid' L a b M) }, ?_, ⟨rfl, rfl, rfl, rfl, rfl⟩, rfl, (freed_nil hlate).cons hz (c := a) (d := b) ?_ rfl ?_ (by omega)⟩
          · simp only [St.unmapAll, St.unmapOne, hf, hfb, R.bind_ok, if_neg hz, R.pure_eq, hd, decide_true, R.assert_true]
            rw [sMunmap_eq _ (by simp only [hpg]; exact hA.pos) (by simp only [hpg]; exact mod_add hpb (mod_sub ha hps)) (by simp only [hpg]; exact mod_sub hb ha)]
            simp only [hmod _ hz rfl, R.bind_ok]
          · intro x
            unfold Entry.covers
            omega
          · simp only
            funext y
            rw [show p.2.base + (a - p.1.1) + (b - a) = p.2.base + (b - p.1.1) by omega]
      · have hc : change a b p = some (.modifiedBegin p.1 b) := by
          unfold change; rw [if_neg (by omega), if_neg h4, if_neg h3]
        rw [List.filterMap_cons_some hc, change_late hlate]
        by_cases hz : p.2.base = 0
        · refine ⟨s, ?_, .refl s, hzero hz, (freed_nil hlate).skip (fun _ _ _ _ => hz)⟩
          simp [St.unmapAll, St.unmapOne, hfb, hz, R.bind_ok, R.pure_eq]
        · have hd := dealloc_eq s (a := p.1.1) (b := b) (by omega)
          refine ⟨{ s with
            file := fun x => if p.1.1 ≤ x ∧ x < b then 0 else s.file x
            shadow := fun y => if p.2.base ≤ y ∧ y < p.2.base + (b - p.1.1) then none else s.shadow y
            regions := ofList (mid' L a b M) }, ?_, ⟨rfl, rfl, rfl, rfl, rfl⟩, rfl, (freed_nil hlate).cons hz (c := p.1.1) (d := b) ?_ rfl ?_ (by omega)⟩
          · simp only [St.unmapAll, St.unmapOne, hfb, R.bind_ok, if_neg hz, R.pure_eq, hd]
            rw [sMunmap_eq _ (by simp only [hpg]; exact hA.pos) (by simp only [hpg]; exact hpb) (by simp only [hpg]; exact mod_sub hb hps)]
            simp only [hmod _ hz rfl, R.bind_ok]
          · intro x
            unfold Entry.covers
            omega
          · simp only
            funext y
            rw [Nat.sub_self, Nat.add_zero]

/-- `regions.clear` and `unmap_mutations`. -/
theorem clearOut_spec {L : List (Entry Region)} (hL : Good L) {s : St} (hA : Aligned s.page L) (hr : s.regions = ofList L) {a b : Nat} (hab : a < b)
    (ha : a % s.page = 0) (hb : b % s.page = 0) :
    ∃ t, s.clearOut a b = .ok t ∧ Frame s t ∧ t.regions = ofList (cut L a b) ∧ Freed L a b s t := by
  have hM : mid L a b [] = raw L a b := rfl
  obtain ⟨t, h1, h2, h3, h4⟩ := unmapAll_spec hL hA hab ha hb [] (hM ▸ good_raw hL hab) L [] { s with regions := ofList (raw L a b) } rfl (by simp) rfl rfl
  refine ⟨t, ?_, ⟨h2.page, h2.plugin, h2.mem, h2.len, h2.heap⟩, h3, ⟨h4.file, h4.file', h4.shadow, h4.shadow'⟩⟩
  unfold St.clearOut IMap.clear
  rw [hr, splice_spec hL hab, R.bind_ok]
  have : spliced L a b (none : Option Region) = raw L a b := by simp [spliced, raw]
  rw [this]
  exact h1

/-- `regions.insert` and `unmap_mutations`. -/
theorem insertOver_spec {L : List (Entry Region)} (hL : Good L) {s : St} (hA : Aligned s.page L) (hr : s.regions = ofList L) {a b : Nat} (hab : a < b)
    (ha : a % s.page = 0) (hb : b % s.page = 0) (r : Region) :
    ∃ m t, s.regions.insert a b r = .ok m ∧ St.unmapAll { s with regions := m.1 } m.2 = .ok t ∧ Frame s t ∧ t.regions = ofList (put L a b r) ∧
      Freed L a b s t := by
  have hs : spliced L a b (some r) = mid L a b [((a, b), r)] := by simp [spliced, mid]
  have hM : Good (mid L a b [((a, b), r)]) := hs ▸ spliced_good hL hab (some r)
  obtain ⟨t, h1, h2, h3, h4⟩ := unmapAll_spec hL hA hab ha hb _ hM L [] { s with regions := ofList (mid L a b [((a, b), r)]) } rfl (by simp) rfl rfl
  refine ⟨(ofList (mid L a b [((a, b), r)]), L.filterMap (change a b)), t, ?_, ?_, ⟨h2.page, h2.plugin, h2.mem, h2.len, h2.heap⟩, ?_, ⟨h4.file, h4.file', h4.shadow, h4.shadow'⟩⟩
  · unfold IMap.insert
    rw [hr, splice_spec hL hab, hs]
  · exact h1
  · rw [h3]; rfl

end Shadow.MemMap
