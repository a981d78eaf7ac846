import Verif.MemMap.Heap

/-!
# The start: the memory that the program already has
-/
namespace Shadow.MemMap

open Shadow.Base Shadow.IntervalMap

theorem before_all {D : List (Entry Region)} {a : Nat} (h : ∀ q ∈ D, q.1.1 < q.1.2 ∧ q.1.2 ≤ a) : D.flatMap (before a) = D := by
  induction D with
  | nil => rfl
  | cons q D ih =>
    have h1 := h q (by simp)
    rw [List.flatMap_cons, ih (fun q hq => h q (by simp [hq]))]
    unfold before
    rw [if_pos (by omega), Nat.min_eq_left h1.2]
    rfl

theorem put_end {D : List (Entry Region)} {a b : Nat} (h : ∀ q ∈ D, q.1.1 < q.1.2 ∧ q.1.2 ≤ a) (hab : a ≤ b) (r : Region) : put D a b r = D ++ [((a, b), r)] := by
  unfold put
  rw [before_all h, after'_nil (fun q hq => by have := h q hq; omega)]

theorem insert_end {D : List (Entry Region)} {q : Entry Region} {l : List (Entry Region)} (h : Good (D ++ q :: l)) :
    (ofList D).insert q.1.1 q.1.2 q.2 = .ok (ofList (D ++ [q]), []) := by
  have hne := h.ne
  have hord := h.ord
  rw [List.pairwise_append] at hord
  have hD : ∀ p ∈ D, p.1.1 < p.1.2 ∧ p.1.2 ≤ q.1.1 := fun p hp => ⟨hne p (by simp [hp]), hord.2.2 p hp q (by simp)⟩
  have hq := hne q (by simp)
  rw [insert_gap (a := q.1.1) (b := q.1.2) ⟨fun p hp => hne p (by simp [hp]), hord.1⟩ hq (fun p hp => .inl (hD p hp).2), put_end hD (Nat.le_of_lt hq)]

/-- A region that Shadow has not mapped. -/
def null (p : Entry Region) : Entry Region := (p.1, { p.2 with base := 0 })

theorem getRegions_spec (l : List (Entry Region)) : ∀ (D : List (Entry Region)), Good (D ++ l.map null) → getRegions l (ofList D) = .ok (ofList (D ++ l.map null)) := by
  induction l with
  | nil =>
    intro D _
    unfold getRegions
    simp
  | cons p l ih =>
    intro D h
    unfold getRegions
    simp only
    have e := insert_end (q := null p) (l := l.map null) h
    unfold null at e
    simp only at e
    rw [e, R.bind_ok]
    simp only [List.isEmpty_nil, R.assert_true, R.bind_ok]
    have h2 : D ++ (p :: l).map null = D ++ [null p] ++ l.map null := by simp
    rw [h2] at h ⊢
    exact ih _ h

/-- What the aggregation of regions keeps. -/
structure Same (L K : List (Entry Region)) : Prop where
  at_ : ∀ {x pr l}, At K x pr l ↔ At L x pr l
  first : ∀ p ∈ K, ∃ q ∈ L, p.1.1 = q.1.1 ∧ p.2 = q.2
  last : ∀ p ∈ K, ∃ q ∈ L, p.1.2 = q.1.2 ∧ p.2 = q.2

theorem coalesceLoop_spec (l : List (Entry Region)) : ∀ (q : Entry Region) (D : List (Entry Region)), Good (D ++ q :: l) → (∀ p ∈ q :: l, p.2.base = 0) →
    ∃ K, coalesceLoop l (some q) (ofList D) = .ok (ofList (D ++ K)) ∧ Good (D ++ K) ∧ Same (q :: l) K := by
  induction l with
  | nil =>
    intro q D h _
    unfold coalesceLoop
    rw [insert_end h, R.bind_ok]
    exact ⟨[q], rfl, h, Iff.rfl, fun p hp => ⟨p, hp, rfl, rfl⟩, fun p hp => ⟨p, hp, rfl, rfl⟩⟩
  | cons p l ih =>
    intro q D h hb
    unfold coalesceLoop
    have hb1 := hb p (by simp)
    have hb0 := hb q (by simp)
    rw [hb1]
    simp only [decide_true, R.assert_true, R.bind_ok]
    have hord := h.ord
    have hne := h.ne
    rw [List.pairwise_append] at hord
    obtain ⟨o1, o2, o3⟩ := hord
    rw [List.pairwise_cons] at o2
    obtain ⟨o4, o5⟩ := o2
    rw [List.pairwise_cons] at o5
    have hp := hne p (by simp)
    have hq := hne q (by simp)
    by_cases hm : p.1.1 = q.1.2 ∧ p.2 = q.2
    · rw [if_pos hm]
      have hG : Good (D ++ ((q.1.1, p.1.2), q.2) :: l) := by
        refine ⟨?_, ?_⟩
        · intro a ha
          simp only [List.mem_append, List.mem_cons] at ha
          rcases ha with ha | rfl | ha
          · exact hne a (by simp [ha])
          · simp only; omega
          · exact hne a (by simp [ha])
        · rw [List.pairwise_append, List.pairwise_cons]
          refine ⟨o1, ⟨fun a ha => o5.1 a ha, o5.2⟩, ?_⟩
          intro a ha b hb'
          rcases List.mem_cons.1 hb' with rfl | hb'
          · exact o3 a ha q (by simp)
          · exact o3 a ha b (by simp [hb'])
      have hB : ∀ a ∈ (((q.1.1, p.1.2), q.2) : Entry Region) :: l, a.2.base = 0 := by
        intro a ha
        rcases List.mem_cons.1 ha with rfl | ha
        · exact hb0
        · exact hb a (by simp [ha])
      obtain ⟨K, h1, h2, h3⟩ := ih ((q.1.1, p.1.2), q.2) D hG hB
      · refine ⟨K, h1, h2, ?_, ?_, ?_⟩
        · intro x pr lo
          rw [h3.at_]
          constructor
          · rintro ⟨a, ha, hc, g1, g2⟩
            rcases List.mem_cons.1 ha with rfl | ha
            · unfold Entry.covers at hc
              simp only at hc g1 g2
              rw [if_pos hb0] at g2
              by_cases hx : x < q.1.2
              · exact ⟨q, by simp, ⟨hc.1, hx⟩, g1, by rw [if_pos hb0]; exact g2⟩
              · exact ⟨p, by simp, ⟨by omega, hc.2⟩, by rw [hm.2]; exact g1, by rw [if_pos hb1]; exact g2⟩
            · exact ⟨a, by simp [ha], hc, g1, g2⟩
          · rintro ⟨a, ha, hc, g1, g2⟩
            rcases List.mem_cons.1 ha with rfl | ha
            · refine ⟨((a.1.1, p.1.2), a.2), by simp, ?_, g1, ?_⟩
              · unfold Entry.covers at hc ⊢
                simp only
                omega
              · simp only
                rw [if_pos hb0] at g2 ⊢
                exact g2
            · rcases List.mem_cons.1 ha with rfl | ha
              · refine ⟨((q.1.1, a.1.2), q.2), by simp, ?_, by rw [← hm.2]; exact g1, ?_⟩
                · unfold Entry.covers at hc ⊢
                  simp only
                  omega
                · simp only
                  rw [if_pos hb0]
                  rw [if_pos hb1] at g2
                  exact g2
              · exact ⟨a, by simp [ha], hc, g1, g2⟩
        · intro k hk
          obtain ⟨a, ha, g1, g2⟩ := h3.first k hk
          rcases List.mem_cons.1 ha with rfl | ha
          · exact ⟨q, by simp, g1, g2⟩
          · exact ⟨a, by simp [ha], g1, g2⟩
        · intro k hk
          obtain ⟨a, ha, g1, g2⟩ := h3.last k hk
          rcases List.mem_cons.1 ha with rfl | ha
          · exact ⟨p, by simp, g1, by rw [hm.2]; exact g2⟩
          · exact ⟨a, by simp [ha], g1, g2⟩
    · rw [if_neg hm, insert_end h, R.bind_ok]
      simp only
      obtain ⟨K, h1, h2, h3⟩ := ih p (D ++ [q]) (by simpa using h) (fun a ha => hb a (List.mem_cons_of_mem _ ha))
      refine ⟨q :: K, by simpa using h1, by simpa using h2, ?_, ?_, ?_⟩
      · intro x pr lo
        have hc : ∀ M : List (Entry Region), At (q :: M) x pr lo ↔ (q.covers x ∧ q.2.prot = pr ∧ lo = if q.2.base = 0 then none else some (q.2.base + (x - q.1.1))) ∨ At M x pr lo := by
          intro M
          have := at_split (A := []) (B := M) (p := q) (x := x) (pr := pr) (l := lo)
          simp only [List.nil_append] at this
          rw [this]
          exact Or.comm
        rw [hc, hc, h3.at_]
      · intro k hk
        rcases List.mem_cons.1 hk with rfl | hk
        · exact ⟨k, by simp, rfl, rfl⟩
        · obtain ⟨a, ha, g⟩ := h3.first k hk
          exact ⟨a, List.mem_cons_of_mem _ ha, g⟩
      · intro k hk
        rcases List.mem_cons.1 hk with rfl | hk
        · exact ⟨k, by simp, rfl, rfl⟩
        · obtain ⟨a, ha, g⟩ := h3.last k hk
          exact ⟨a, List.mem_cons_of_mem _ ha, g⟩

theorem coalesce_spec {L : List (Entry Region)} (h : Good L) (hb : ∀ p ∈ L, p.2.base = 0) : ∃ K, coalesce (ofList L) = .ok (ofList K) ∧ Good K ∧ Same L K := by
  unfold coalesce
  rw [items_ofList]
  cases L with
  | nil => exact ⟨[], rfl, h, Iff.rfl, fun p hp => (by cases hp), fun p hp => (by cases hp)⟩
  | cons q l =>
    unfold coalesceLoop
    rw [hb q (by simp)]
    simp only [decide_true, R.assert_true, R.bind_ok]
    obtain ⟨K, h1, h2, h3⟩ := coalesceLoop_spec l q [] h hb
    exact ⟨K, h1, h2, h3⟩

/-! ## A part of the program's memory is taken into the memory file -/

theorem copy_spec {s : St} {a n : Nat} {l : List Nat} (h : s.copy a n = .ok l) :
    l.length = n ∧ ∀ i, i < n → ∃ m, s.plugin (a + i) = some m ∧ l.getD i 0 = s.byte m.back ∧ m.prot.r = true := by
  induction n generalizing a l with
  | zero =>
    unfold St.copy at h
    cases h
    exact ⟨rfl, fun i hi => by omega⟩
  | succ n ih =>
    unfold St.copy at h
    split at h
    · cases h
    · next m hm =>
      rw [R.bind_eq_ok] at h
      obtain ⟨_, h1, h⟩ := h
      rw [R.assert_eq_ok] at h1
      rw [R.bind_eq_ok] at h
      obtain ⟨l', h2, h⟩ := h
      cases h
      obtain ⟨g1, g2⟩ := ih h2
      refine ⟨by simp [g1], ?_⟩
      intro i hi
      cases i with
      | zero => exact ⟨m, hm, by simp, h1⟩
      | succ i =>
        obtain ⟨m', k1, k2, k3⟩ := g2 i (by omega)
        refine ⟨m', ?_, by simpa using k2, k3⟩
        rw [← k1]
        congr 1
        omega

theorem copyIntoFile_spec {s t : St} {p : Entry Region} {a b : Nat} (hab : a < b) (h : s.copyIntoFile p a b = .ok t) (hpos : 0 < s.page)
    (hs : ∀ x, p.1.1 ≤ x → x < p.1.2 → s.shadow (p.2.base + (x - p.1.1)) = some (x, rw)) (hl : p.1.2 ≤ s.len) :
    p.1.1 ≤ a ∧ b ≤ p.1.2 ∧ ∃ f, t = { s with file := f } ∧ (∀ x, ¬ (a ≤ x ∧ x < b) → f x = s.file x) ∧
      ∀ x, a ≤ x → x < b → ∃ m, s.plugin x = some m ∧ f x = s.byte m.back ∧ m.prot.r = true := by
  unfold St.copyIntoFile at h
  rw [if_neg (by omega)] at h
  rw [R.bind_eq_ok] at h
  obtain ⟨_, _, h⟩ := h
  rw [R.bind_eq_ok] at h
  obtain ⟨_, h2, h⟩ := h
  rw [R.bind_eq_ok] at h
  obtain ⟨_, h3, h⟩ := h
  rw [R.bind_eq_ok] at h
  obtain ⟨l, h4, h⟩ := h
  rw [R.assert_eq_ok] at h2 h3
  simp only [Bool.and_eq_true, decide_eq_true_eq] at h2 h3
  obtain ⟨g1, g2⟩ := copy_spec h4
  rw [poke_eq s (o := a) (pr := rw) ?_ rfl ?_] at h
  · refine ⟨h2.1, by omega, _, (R.ok.inj h).symm, ?_, ?_⟩
    · intro x hx
      rw [if_neg (by omega)]
    · intro x x1 x2
      obtain ⟨m, k1, k2, k3⟩ := g2 (x - a) (by omega)
      rw [Nat.add_sub_cancel' x1] at k1
      refine ⟨m, k1, ?_, k3⟩
      rw [if_pos (by omega), k2]
  · intro i hi
    have := hs (a + i) (by omega) (by omega)
    rw [← this]
    congr 1
    omega
  · intro i hi
    have := le_pageUp (n := s.len) hpos
    omega

structure Pre (L : List (Entry Region)) (s : St) : Prop where
  table : Table L s
  own : Own (fun x pr y => At L x pr (some y)) s
  prog : Prog L s.plugin

theorem insert_null {L : List (Entry Region)} (hL : Good L) {b e : Nat} (hbe : b < e) (hnull : ∀ p ∈ L, p.1.1 < e → e < p.1.2 → p.2.base = 0) (r : Region) :
    (ofList L).insert b e r = .ok (ofList (put L b e r), L.filterMap (change b e)) := by
  unfold IMap.insert
  rw [splice_spec hL hbe]
  congr 3
  unfold spliced put
  simp only [Option.map_some, Option.toList_some, List.append_assoc, List.singleton_append]
  congr 2
  clear hL
  induction L with
  | nil => rfl
  | cons q L ih =>
    rw [List.flatMap_cons, List.flatMap_cons, ih (fun p hp => hnull p (by simp [hp]))]
    congr 1
    unfold after after'
    by_cases h1 : e < q.1.2
    · rw [if_pos h1, if_pos h1]
      by_cases h2 : q.1.1 < e
      · unfold shift
        rw [if_pos (hnull q (by simp) h2 h1)]
      · have : max q.1.1 e = q.1.1 := by omega
        rw [this, Nat.sub_self, shift_zero]
    · rw [if_neg h1, if_neg h1]

/-- The state after an interval was taken into the file. -/
def St.taken (s : St) (L : List (Entry Region)) (b e : Nat) (r : Region) (f : Nat → Nat) : St :=
  { s with len := max s.len e, shadow := fun y => if r.base ≤ y ∧ y < r.base + (e - b) then some (b + (y - r.base), rw) else s.shadow y, file := f, plugin := fun x => if b ≤ x ∧ x < e then some ⟨.shm x, rw⟩ else s.plugin x, regions := ofList (put L b e r) }

theorem taken_pre {L : List (Entry Region)} {s : St} (h : Pre L s) {b e : Nat} (hbe : b < e) (hb : b % s.page = 0) (he : e % s.page = 0) {r : Region} (hr : r.prot = rw)
    (hf : Fresh s r.base (e - b)) (hnull : ∀ p ∈ L, p.1.1 < e → b < p.1.2 → p.2.base = 0) {f : Nat → Nat} (hfile : ∀ x, ¬ (b ≤ x ∧ x < e) → f x = s.file x) :
    Pre (put L b e r) (s.taken L b e r f) := by
  obtain ⟨f1, f2, f3⟩ := hf
  have hG := h.table.good
  refine ⟨⟨rfl, good_put hG hbe r, aligned_put h.table.al hb he f2⟩, ?_, ?_⟩
  · refine Own.congr (h.own.add (base := r.base) (pr0 := rw) (a := b) (b := e) ?_ rfl f3 hfile) ?_
    · unfold St.taken; simp only; omega
    · intro x pr y
      rw [at_put hG hbe, if_neg f1, hr]
      constructor
      · rintro (g | ⟨g1, g2, rfl, rfl⟩)
        · refine .inl ⟨g, fun hx => ?_⟩
          obtain ⟨p, hp, hc, _, g2⟩ := g
          unfold Entry.covers at hc
          rw [if_pos (hnull p hp (by omega) (by omega))] at g2
          cases g2
        · exact .inr ⟨g1, g2, rfl, rfl⟩
      · rintro (⟨g, _⟩ | ⟨g1, g2, rfl, g3⟩)
        · exact .inl g
        · exact .inr ⟨g1, g2, rfl, Option.some.inj g3⟩
  · refine Prog.put h.prog hG hbe ?_ (fun e => absurd e f1) ?_
    · intro _ x g1 g2
      rw [hr]
      exact if_pos ⟨g1, g2⟩
    · intro x hx
      exact if_neg hx

/-- What the program sees after its memory was taken into the file. -/
def Taken (V W : View) (b c e : Nat) : Prop :=
  W = V.over b e (fun x => if x < c then some ⟨rw, true, 0⟩ else (V x).map (fun v => { v with anon := true }))

theorem taken_view {L : List (Entry Region)} {s : St} (h : Pre L s) {b c e : Nat} (r : Region) {f : Nat → Nat} (hnull : ∀ p ∈ L, p.1.1 < e → b < p.1.2 → p.2.base = 0)
    (hrw : ∀ x, c ≤ x → x < e → ∀ m, s.plugin x = some m → m.prot = rw)
    (hfree : ∀ x, b ≤ x → x < c → f x = s.file x ∧ s.plugin x = none)
    (hbytes : ∀ x, c ≤ x → x < e → ∃ m, s.plugin x = some m ∧ f x = s.byte m.back) (hfile : ∀ x, ¬ (b ≤ x ∧ x < e) → f x = s.file x) :
    Taken (view s) (view (s.taken L b e r f)) b c e := by
  unfold Taken
  funext x
  unfold View.over
  by_cases hx : b ≤ x ∧ x < e
  · rw [if_pos hx]
    have e1 : view (s.taken L b e r f) x = some ⟨rw, true, f x⟩ := by
      unfold view St.taken
      simp only [if_pos hx]
    rw [e1]
    show _ = (if x < c then _ else _)
    by_cases hc : x < c
    · rw [if_pos hc]
      obtain ⟨g1, g2⟩ := hfree x hx.1 hc
      have : s.file x = 0 := by
        by_cases hz : s.file x = 0
        · exact hz
        · obtain ⟨pr, y, g⟩ := h.own.zero hz
          rw [h.prog.here g] at g2
          cases g2
      rw [g1, this]
    · rw [if_neg hc]
      obtain ⟨m, g1, g2⟩ := hbytes x (by omega) hx.2
      have g3 := hrw x (by omega) hx.2 m g1
      obtain ⟨bk, pr⟩ := m
      simp only at g3
      subst g3
      obtain ⟨pr', l, ha⟩ := h.prog.all g1
      have hl : l = none := by
        obtain ⟨p, hp, hcv, _, g4⟩ := ha
        unfold Entry.covers at hcv
        rw [if_pos (hnull p hp (by omega) (by omega))] at g4
        exact g4
      subst hl
      obtain ⟨cc, g5⟩ := h.prog.there ha
      rw [g1] at g5
      cases Option.some.inj g5
      unfold view
      rw [g1, g2]
      rfl
  · rw [if_neg hx]
    refine view_eq ?_ rfl ?_
    · unfold St.taken
      simp only [if_neg hx]
    · intro o p e'
      rw [(h.prog.off e').1]
      unfold St.taken
      simp only
      exact hfile x hx

/-! ## The heap and the stack -/

theorem getHeap_spec {K : List (Entry Region)} {s t : St} (h : Pre K s) (hnull : ∀ p ∈ K, p.2.base = 0) {brk base : Nat} (hbrk : brk % s.page = 0)
    (hheap : ∀ p ∈ K, p.2.path = some .heap → p.2.prot = rw ∧ Fresh s base (p.1.2 - p.1.1)) (ht : s.getHeap brk base = .ok t) :
    ∃ L, Pre L t ∧ HeapOk t ∧ (t.heap.1 ≤ t.heap.2 ∧ t.heap.1 % t.page = 0 ∧ t.heap.2 % t.page = 0) ∧ t.page = s.page ∧ t.mem = s.mem ∧
      (∀ p, p.2.path ≠ some .heap → (p ∈ L ↔ p ∈ K)) ∧ (∀ p ∈ L, p.2.path = some .heap → p.1 = t.heap) ∧ Taken (view s) (view t) t.heap.1 t.heap.1 t.heap.2 ∧
      (t.heap = (brk, brk) ∨ ∃ p ∈ K, p.2.path = some .heap ∧ t.heap = p.1) := by
  unfold St.getHeap at ht
  rw [h.table.reg, items_ofList] at ht
  have hmem : ∀ p, p ∈ K.filter (fun p => decide (p.2.path = some .heap)) ↔ p ∈ K ∧ p.2.path = some .heap := by
    intro p
    rw [List.mem_filter]
    simp
  split at ht
  · next hf =>
    cases ht
    refine ⟨K, ⟨⟨rfl, h.table.good, h.table.al⟩, h.own.state rfl rfl (Nat.le_refl _), h.prog⟩, ?_, ⟨Nat.le_refl _, hbrk, hbrk⟩, rfl, rfl, fun _ _ => Iff.rfl, ?_, ?_, .inl rfl⟩
    · intro hh
      simp only at hh
      omega
    · intro p hp hh
      have := (hmem p).2 ⟨hp, hh⟩
      rw [hf] at this
      cases this
    · unfold Taken
      funext x
      unfold View.over
      rw [if_neg (by simp only; omega)]
      rfl
  · next p hf =>
    obtain ⟨hp, hpath⟩ := (hmem p).1 (by rw [hf]; simp)
    obtain ⟨hrw, hfr⟩ := hheap p hp hpath
    have hG := h.table.good
    have hpp := hG.ne p hp
    have ha := h.table.al.s p hp
    have hb := h.table.al.e p hp
    have hpos := h.table.al.pos
    simp only at ht
    rw [alloc_eq, mmapIntoShadow_eq _ _ (by exact hpos) (by exact ha) (by exact hb) hpp, R.bind_ok] at ht
    rw [R.bind_eq_ok] at ht
    obtain ⟨u, h1, ht⟩ := ht
    obtain ⟨_, _, f, rfl, hf2, hf3⟩ := copyIntoFile_spec hpp h1 (by exact hpos) (by
      intro x g1 g2
      simp only at g1 g2 ⊢
      rw [if_pos (by omega)]
      congr 2
      omega) (by simp only; omega)
    simp only at hf2 hf3 ht
    rw [mmapIntoPlugin_eq _ _ (by exact hpos) (by exact ha) (by exact hb) hpp, R.bind_ok] at ht
    simp only at ht
    rw [h.table.reg, insert_null hG hpp (fun q hq _ _ => hnull q hq), R.bind_ok, R.bind_eq_ok] at ht
    obtain ⟨_, _, ht⟩ := ht
    cases ht
    have hfile : ∀ x, ¬ (p.1.1 ≤ x ∧ x < p.1.2) → f x = s.file x := hf2
    have hT := taken_pre h hpp ha hb (r := { p.2 with base := base }) hrw hfr (fun q hq _ _ => hnull q hq) hfile
    have hput : ((p.1.1, p.1.2), { p.2 with base := base }) ∈ put K p.1.1 p.1.2 { p.2 with base := base } := mem_put.2 (.inr rfl)
    refine ⟨put K p.1.1 p.1.2 { p.2 with base := base }, ⟨⟨rfl, hT.table.good, hT.table.al⟩, hT.own.state rfl rfl (Nat.le_refl _), hT.prog⟩, ?_, ⟨Nat.le_of_lt hpp, ha, hb⟩, rfl, rfl, ?_, ?_, ?_, .inr ⟨p, hp, hpath, rfl⟩⟩
    · intro _
      exact ⟨_, get_some hT.table.good hput ⟨Nat.le_refl _, hpp⟩, rfl, hfr.1, hrw⟩
    · intro q hq
      rw [mem_put]
      constructor
      · rintro (g | rfl)
        · rcases mem_cut.1 g with ⟨q', hq', g1, rfl⟩ | ⟨q', hq', g1, rfl⟩
          · have hne := hG.ne q' hq'
            rcases Nat.le_total q'.1.2 p.1.1 with g2 | g2
            · rw [Nat.min_eq_left g2]; exact hq'
            · by_cases g3 : q'.1.2 = p.1.1
              · rw [g3, Nat.min_self]; rw [← g3]; exact hq'
              · have := covers_unique hG hq' hp (x := p.1.1) ⟨by omega, by omega⟩ ⟨Nat.le_refl _, hpp⟩
                subst this
                omega
          · have hne := hG.ne q' hq'
            rcases Nat.le_total p.1.2 q'.1.1 with g2 | g2
            · rw [Nat.max_eq_left g2, Nat.sub_self, shift_zero]; exact hq'
            · by_cases g3 : p.1.2 = q'.1.1
              · rw [g3, Nat.max_self, Nat.sub_self, shift_zero]; exact hq'
              · have := covers_unique hG hq' hp (x := p.1.2 - 1) ⟨by omega, by omega⟩ ⟨by omega, by omega⟩
                subst this
                omega
        · exact absurd hpath hq
      · intro g
        refine .inl (keep_cut hG hpp g ?_)
        intro x hx hx2
        have := covers_unique hG g hp hx hx2
        subst this
        exact absurd hpath hq
    · intro q hq hqp
      rcases mem_put.1 hq with g | rfl
      · exfalso
        have hin : ∃ q' ∈ K, q'.2.path = some .heap ∧ (q'.1.1 < p.1.1 ∨ p.1.2 < q'.1.2) := by
          rcases mem_cut.1 g with ⟨q', hq', g1, rfl⟩ | ⟨q', hq', g1, rfl⟩
          · exact ⟨q', hq', hqp, .inl g1⟩
          · refine ⟨q', hq', ?_, .inr g1⟩
            simp only at hqp
            unfold shift at hqp
            rw [if_pos (hnull q' hq')] at hqp
            exact hqp
        obtain ⟨q', hq', hqp', hne⟩ := hin
        have := (hmem q').2 ⟨hq', hqp'⟩
        rw [hf] at this
        have := List.mem_singleton.1 this
        subst this
        omega
      · rfl
    · exact taken_view (c := p.1.1) h { p.2 with base := base } (fun q hq _ _ => hnull q hq) (by
        intro x g1 g2 m hm
        obtain ⟨c, e⟩ := h.prog.there (x := x) (pr := p.2.prot) ⟨p, hp, ⟨g1, g2⟩, rfl, by rw [if_pos (hnull p hp)]⟩
        rw [hm] at e
        cases Option.some.inj e
        exact hrw) (fun x g1 g2 => by omega) (fun x g1 g2 => by
        obtain ⟨m, k1, k2, _⟩ := hf3 x g1 g2
        exact ⟨m, k1, k2⟩) hfile
  · cases ht

theorem mapStack_spec {L : List (Entry Region)} {s t : St} (h : Pre L s) (hH : HeapOk s) {mx base : Nat} (hmax : mx % s.page = 0)
    (hstack : ∀ p ∈ L, p.2.path = some .stack → p.2.base = 0 ∧ p.2.prot = rw ∧ Fresh s base (mx - s.page) ∧ ∀ x, p.1.2 - mx ≤ x → x < p.1.1 → s.plugin x = none)
    (ht : s.mapStack mx base = .ok t) :
    ∃ L' p, p ∈ L ∧ p.2.path = some .stack ∧ Pre L' t ∧ HeapOk t ∧ t.heap = s.heap ∧ t.page = s.page ∧ t.mem = s.mem ∧ p.1.2 - s.page ≤ t.len ∧
      Taken (view s) (view t) (p.1.2 - mx) (min p.1.1 (p.1.2 - s.page)) (p.1.2 - s.page) := by
  unfold St.mapStack at ht
  rw [h.table.reg, items_ofList] at ht
  have hmem : ∀ p, p ∈ L.filter (fun p => decide (p.2.path = some .stack)) ↔ p ∈ L ∧ p.2.path = some .stack := by
    intro p
    rw [List.mem_filter]
    simp
  split at ht
  · next p hf =>
    obtain ⟨hp, hpath⟩ := (hmem p).1 (by rw [hf]; simp)
    obtain ⟨hb0, hrw, hfr, hfree⟩ := hstack p hp hpath
    have hG := h.table.good
    have hpp := hG.ne p hp
    have hpos := h.table.al.pos
    rw [R.bind_eq_ok] at ht
    obtain ⟨_, h0, ht⟩ := ht
    rw [R.assert_eq_ok] at h0
    simp only [Bool.and_eq_true, decide_eq_true_eq] at h0
    have hb : (p.1.2 - mx) % s.page = 0 := mod_sub (h.table.al.e p hp) hmax
    have he : (p.1.2 - s.page) % s.page = 0 := mod_sub (h.table.al.e p hp) (by simp)
    simp only at ht
    have hbe : p.1.2 - mx < p.1.2 - s.page := by
      by_cases hx : p.1.2 - mx < p.1.2 - s.page
      · exact hx
      · rw [R.bind_eq_ok] at ht
        obtain ⟨_, h1, _⟩ := ht
        unfold St.mmapIntoShadow at h1
        rw [R.bind_eq_ok] at h1
        obtain ⟨_, h1, _⟩ := h1
        rw [R.assert_eq_ok] at h1
        simp only [Bool.and_eq_true, decide_eq_true_eq] at h1
        exact h1.2
    have hsz : p.1.2 - s.page - (p.1.2 - mx) = mx - s.page := by omega
    have hnull : ∀ q ∈ L, q.1.1 < p.1.2 - s.page → p.1.2 - mx < q.1.2 → q.2.base = 0 := by
      intro q hq g1 g2
      have hne := hG.ne q hq
      have key : ∀ z, q.1.1 ≤ z → p.1.2 - mx ≤ z → z < q.1.2 → z < p.1.2 - s.page → q.2.base = 0 := by
        intro z z1 z2 z3 z4
        by_cases hx : z < p.1.1
        · exact absurd ⟨z1, z3⟩ (h.prog.gap (hfree _ z2 hx) q hq)
        · have : q = p := covers_unique hG hq hp (x := z) ⟨z1, z3⟩ ⟨by omega, by omega⟩
          rw [this]
          exact hb0
      rcases Nat.le_total q.1.1 (p.1.2 - mx) with g | g
      · exact key (p.1.2 - mx) g (Nat.le_refl _) g2 hbe
      · exact key q.1.1 (Nat.le_refl _) g hne g1
    rw [mmapIntoShadow_eq _ _ (by exact hpos) (by exact hb) (by exact he) hbe, R.bind_ok, alloc_eq] at ht
    rw [R.bind_eq_ok] at ht
    obtain ⟨u, h1, ht⟩ := ht
    unfold St.copyStack at h1
    have hu : ∃ f, u = { s with shadow := fun y => if base ≤ y ∧ y < base + (p.1.2 - s.page - (p.1.2 - mx)) then some (p.1.2 - mx + (y - base), rw) else s.shadow y, len := max s.len (p.1.2 - s.page), file := f } ∧
        (∀ x, ¬ (p.1.1 ≤ x ∧ x < p.1.2 - s.page) → f x = s.file x) ∧
        (p.1.1 < p.1.2 - s.page → p.1.2 - mx ≤ p.1.1) ∧
        ∀ x, p.1.1 ≤ x → x < p.1.2 - s.page → ∃ m, s.plugin x = some m ∧ f x = s.byte m.back := by
      by_cases hc : p.1.1 < p.1.2 - s.page
      · rw [if_pos hc] at h1
        obtain ⟨g1, g2, f, rfl, hf2, hf3⟩ := copyIntoFile_spec hc h1 (by exact hpos) (by
          intro x g1 g2
          simp only at g1 g2 ⊢
          rw [if_pos (by omega)]
          congr 2
          omega) (by simp only; omega)
        refine ⟨f, rfl, hf2, fun _ => g1, ?_⟩
        intro x k1 k2
        obtain ⟨m, j1, j2, _⟩ := hf3 x k1 k2
        exact ⟨m, j1, j2⟩
      · rw [if_neg hc] at h1
        cases h1
        exact ⟨s.file, rfl, fun _ _ => rfl, fun g => absurd g hc, fun x k1 k2 => by omega⟩
    obtain ⟨f, rfl, hf1, hf2, hf3⟩ := hu
    rw [mmapIntoPlugin_eq _ _ (by exact hpos) (by exact hb) (by exact he) hbe, R.bind_ok] at ht
    simp only at ht
    rw [h.table.reg, insert_null hG hbe (fun q hq g1 g2 => hnull q hq g1 (by omega)), R.bind_ok, R.bind_eq_ok] at ht
    obtain ⟨_, _, ht⟩ := ht
    cases ht
    have hfile : ∀ x, ¬ (p.1.2 - mx ≤ x ∧ x < p.1.2 - s.page) → f x = s.file x := by
      intro x hx
      by_cases hc : p.1.1 < p.1.2 - s.page
      · have := hf2 hc
        exact hf1 x (by omega)
      · exact hf1 x (by omega)
    have hT := taken_pre h hbe hb he (r := { p.2 with base := base }) hrw (by rw [hsz]; exact hfr) hnull hfile
    refine ⟨put L (p.1.2 - mx) (p.1.2 - s.page) { p.2 with base := base }, p, hp, hpath, hT, ?_, rfl, rfl, rfl, ?_, ?_⟩
    · refine (heapOk_mem hT.table).2 ?_
      rw [heapOk_mem h.table] at hH
      intro hh
      obtain ⟨q, hq, g1, g2, g3⟩ := hH hh
      refine ⟨q, keep_put hG hbe hq ?_ _, g1, g2, g3⟩
      intro x hx hx2
      unfold Entry.covers at hx
      exact g2 (hnull q hq (by omega) (by omega))
    · exact Nat.le_max_right _ _
    · refine taken_view h { p.2 with base := base } hnull ?_ ?_ ?_ hfile
      · intro x g1 g2 m hm
        obtain ⟨c, e⟩ := h.prog.there (x := x) (pr := p.2.prot) ⟨p, hp, ⟨by omega, by omega⟩, rfl, by rw [if_pos hb0]⟩
        rw [hm] at e
        cases Option.some.inj e
        exact hrw
      · intro x g1 g2
        exact ⟨hf1 x (by omega), hfree x g1 (by omega)⟩
      · intro x g1 g2
        exact hf3 x (by omega) g2
  · cases ht

/-! ## `MemoryMapper::new` -/

/-- The address space of a program that was just started, as its list in `/proc` describes it. -/
structure Image (page : Nat) (plugin : Nat → Option Map) (maps : List (Entry Region)) (mx : Nat) : Prop where
  pos : 0 < page
  ne : ∀ p ∈ maps, p.1.1 < p.1.2
  ord : maps.Pairwise (fun p q => p.1.2 ≤ q.1.1)
  al : ∀ p ∈ maps, p.1.1 % page = 0 ∧ p.1.2 % page = 0
  /-- What is listed is mapped. -/
  here : ∀ p ∈ maps, ∀ x, p.1.1 ≤ x → x < p.1.2 → ∃ c, plugin x = some ⟨.other c, p.2.prot⟩
  /-- What is mapped is listed. -/
  all : ∀ x m, plugin x = some m → ∃ p ∈ maps, p.1.1 ≤ x ∧ x < p.1.2
  heap : ∀ p ∈ maps, p.2.path = some .heap → p.2.prot = rw
  stack : ∀ p ∈ maps, p.2.path = some .stack → p.2.prot = rw ∧ ∀ x, p.1.2 - mx ≤ x → x < p.1.1 → plugin x = none
  one : ∀ p ∈ maps, ∀ q ∈ maps, p.2.path = some .stack → q.2.path = some .stack → p = q

theorem at_null {l : List (Entry Region)} {x : Nat} {pr : Prot} {o : Option Nat} : At (l.map null) x pr o ↔ o = none ∧ ∃ p ∈ l, p.1.1 ≤ x ∧ x < p.1.2 ∧ p.2.prot = pr := by
  constructor
  · rintro ⟨q, hq, hc, h1, h2⟩
    obtain ⟨p, hp, rfl⟩ := List.mem_map.1 hq
    exact ⟨h2, p, hp, hc.1, hc.2, h1⟩
  · rintro ⟨rfl, p, hp, h1, h2, h3⟩
    exact ⟨null p, List.mem_map.2 ⟨p, hp, rfl⟩, ⟨h1, h2⟩, h3, rfl⟩

theorem good_null {l : List (Entry Region)} (h1 : ∀ p ∈ l, p.1.1 < p.1.2) (h2 : l.Pairwise (fun p q => p.1.2 ≤ q.1.1)) : Good (l.map null) := by
  refine ⟨?_, List.pairwise_map.2 h2⟩
  intro q hq
  obtain ⟨p, hp, rfl⟩ := List.mem_map.1 hq
  exact h1 p hp

theorem view_none {s : St} {x : Nat} : view s x = none ↔ s.plugin x = none := by
  unfold view
  split
  · next h => simp [h]
  · next h => simp [h]
  · next h => simp [h]

/-- The mapper starts from the address space of the program: nothing is lost, and the stack can grow. -/
theorem init_ok {page : Nat} {plugin : Nat → Option Map} {mem : Nat → Nat} {maps : List (Entry Region)} {brk hbase mx sbase : Nat} {t : St}
    (h : Image page plugin maps mx) (hbrk : brk % page = 0) (hmx : mx % page = 0) (hh : hbase ≠ 0 ∧ hbase % page = 0)
    (hs : ∀ m u, (getRegions maps IMap.new).bind coalesce = .ok m → St.getHeap ⟨page, plugin, mem, fun _ => 0, 0, fun _ => none, m, (0, 0)⟩ brk hbase = .ok u → Fresh u sbase (mx - page))
    (ht : init page plugin mem maps brk hbase mx sbase = .ok t) :
    ∃ L p V, p ∈ maps ∧ p.2.path = some .stack ∧ Inv L t ∧ HeapOk t ∧ t.page = page ∧ t.mem = mem ∧ p.1.2 - page ≤ t.len ∧
      V = view ⟨page, plugin, mem, fun _ => 0, 0, fun _ => none, IMap.new, (0, 0)⟩ ∧
      (∀ x c, V x = some c → ∃ b, view t x = some { c with anon := b }) ∧
      (∀ x, V x = none → view t x = if p.1.2 - mx ≤ x ∧ x < p.1.1 ∧ x < p.1.2 - page then some ⟨rw, true, 0⟩ else none) ∧
      (∀ x c, t.heap.1 ≤ x → x < t.heap.2 → view t x = some c → c.anon = true) := by
  have hG0 := good_null h.ne h.ord
  have hn0 : ∀ p ∈ maps.map null, p.2.base = 0 := by
    intro p hp
    obtain ⟨q, hq, rfl⟩ := List.mem_map.1 hp
    rfl
  obtain ⟨K, hK, hG, hS⟩ := coalesce_spec hG0 hn0
  have hR := getRegions_spec maps [] hG0
  have hm : (getRegions maps IMap.new).bind coalesce = .ok (ofList K) := by
    show (getRegions maps (ofList [])).bind coalesce = _
    rw [hR]
    exact hK
  have hKn : ∀ p ∈ K, p.2.base = 0 := by
    intro p hp
    obtain ⟨q, hq, _, e⟩ := hS.first p hp
    rw [e]
    exact hn0 q hq
  have hKf : ∀ p ∈ K, ∃ q ∈ maps, p.1.1 = q.1.1 ∧ p.2.prot = q.2.prot ∧ p.2.path = q.2.path := by
    intro p hp
    obtain ⟨q, hq, e1, e2⟩ := hS.first p hp
    obtain ⟨q', hq', rfl⟩ := List.mem_map.1 hq
    exact ⟨q', hq', e1, by rw [e2]; rfl, by rw [e2]; rfl⟩
  have hKl : ∀ p ∈ K, ∃ q ∈ maps, p.1.2 = q.1.2 ∧ p.2.path = q.2.path := by
    intro p hp
    obtain ⟨q, hq, e1, e2⟩ := hS.last p hp
    obtain ⟨q', hq', rfl⟩ := List.mem_map.1 hq
    exact ⟨q', hq', e1, by rw [e2]; rfl⟩
  unfold init at ht
  have ht2 : (((getRegions maps IMap.new).bind coalesce).bind fun m => (St.getHeap ⟨page, plugin, mem, fun _ => 0, 0, fun _ => none, m, (0, 0)⟩ brk hbase).bind fun s => s.mapStack mx sbase) = .ok t := by
    rw [← ht]
    show _ = (getRegions maps (ofList [])).bind _
    show ((getRegions maps (ofList [])).bind _).bind _ = _
    rw [hR]
    rfl
  rw [hm] at ht2
  have ht3 : (St.getHeap ⟨page, plugin, mem, fun _ => 0, 0, fun _ => none, ofList K, (0, 0)⟩ brk hbase).bind (fun s => s.mapStack mx sbase) = .ok t := ht2
  obtain ⟨u, hu, ht⟩ := R.bind_eq_ok.1 ht3
  have hPre : Pre K ⟨page, plugin, mem, fun _ => 0, 0, fun _ => none, ofList K, (0, 0)⟩ := by
    have hno : ∀ {x pr y}, ¬ At K x pr (some y) := by
      intro x pr y g
      rw [hS.at_, at_null] at g
      cases g.1
    refine ⟨⟨rfl, hG, h.pos, ?_, ?_, ?_⟩, ⟨fun g => absurd g hno, fun g => absurd rfl g, fun g => (by cases g), fun g => absurd g hno⟩, ⟨fun g => absurd g hno, ?_, ?_⟩⟩
    · intro p hp
      obtain ⟨q, hq, e, _⟩ := hKf p hp
      rw [e]
      exact (h.al q hq).1
    · intro p hp
      obtain ⟨q, hq, e, _⟩ := hKl p hp
      rw [e]
      exact (h.al q hq).2
    · intro p hp
      rw [hKn p hp]
      simp
    · intro x pr g
      rw [hS.at_, at_null] at g
      obtain ⟨_, p, hp, g1, g2, rfl⟩ := g
      exact h.here p hp x g1 g2
    · intro x m g
      obtain ⟨p, hp, g1, g2⟩ := h.all x m g
      refine ⟨p.2.prot, none, ?_⟩
      rw [hS.at_, at_null]
      exact ⟨rfl, p, hp, g1, g2, rfl⟩
  obtain ⟨L, hL, hH, hheap, hpg, hmm, hpath, _, hT, _⟩ := getHeap_spec hPre hKn hbrk (by
    intro p hp hpp
    obtain ⟨q, hq, _, e1, e2⟩ := hKf p hp
    refine ⟨?_, hh.1, hh.2, fun _ _ _ => rfl⟩
    rw [e1]
    exact h.heap q hq (by rw [← e2]; exact hpp)) hu
  simp only at hpg hmm
  have hview : ∀ x, plugin x = none → u.plugin x = none := by
    intro x hx
    rw [← view_none]
    unfold Taken at hT
    rw [hT]
    unfold View.over
    have e : view (⟨page, plugin, mem, fun _ => 0, 0, fun _ => none, ofList K, (0, 0)⟩ : St) x = none := view_none.2 hx
    by_cases g : u.heap.1 ≤ x ∧ x < u.heap.2
    · rw [if_pos g]
      show (if x < u.heap.1 then _ else _) = _
      rw [if_neg (by omega), e]
      rfl
    · rw [if_neg g, e]
  have hstack : ∀ p ∈ L, p.2.path = some .stack → ∃ q ∈ maps, q.2.path = some .stack ∧ p.1 = q.1 ∧ p.2.base = 0 ∧ p.2.prot = rw := by
    intro p hp hpp
    have hpK := (hpath p (by rw [hpp]; simp)).1 hp
    obtain ⟨q, hq, e1, e2, e3⟩ := hKf p hpK
    obtain ⟨q', hq', e4, e5⟩ := hKl p hpK
    have hqs : q.2.path = some .stack := by rw [← e3]; exact hpp
    have := h.one q hq q' hq' hqs (by rw [← e5]; exact hpp)
    subst this
    exact ⟨q, hq, hqs, Prod.ext e1 e4, hKn p hpK, by rw [e2]; exact (h.stack q hq hqs).1⟩
  obtain ⟨L', p, hp, hpp, hL', hH', hheap', hpg', hmm', hlen, hT'⟩ := mapStack_spec hL hH (mx := mx) (base := sbase) (by rw [hpg]; exact hmx) (by
    intro p hp hpp
    obtain ⟨q, hq, g1, g2, g3, g4⟩ := hstack p hp hpp
    refine ⟨g3, g4, by rw [hpg]; exact hs _ u hm hu, ?_⟩
    intro x k1 k2
    rw [g2] at k1 k2
    exact hview x ((h.stack q hq g1).2 x k1 k2)) ht
  obtain ⟨q, hq, g1, g2, _, _⟩ := hstack p hp hpp
  rw [g2, hpg] at hlen hT'
  have hT1 : ∀ x, view u x = if u.heap.1 ≤ x ∧ x < u.heap.2 then (view (⟨page, plugin, mem, fun _ => 0, 0, fun _ => none, IMap.new, (0, 0)⟩ : St) x).map (fun v => { v with anon := true })
      else view (⟨page, plugin, mem, fun _ => 0, 0, fun _ => none, IMap.new, (0, 0)⟩ : St) x := by
    intro x
    unfold Taken at hT
    rw [hT]
    unfold View.over
    by_cases g : u.heap.1 ≤ x ∧ x < u.heap.2
    · rw [if_pos g, if_pos g]
      show (if x < u.heap.1 then _ else _) = _
      rw [if_neg (by omega)]
      rfl
    · rw [if_neg g, if_neg g]
      rfl
  have hT2 : ∀ x, view t x = if q.1.2 - mx ≤ x ∧ x < q.1.2 - page then (if x < min q.1.1 (q.1.2 - page) then some ⟨rw, true, 0⟩ else (view u x).map (fun v => { v with anon := true }))
      else view u x := by
    intro x
    unfold Taken at hT'
    rw [hT']
    rfl
  have hnone : ∀ x, q.1.2 - mx ≤ x → x < q.1.1 → view (⟨page, plugin, mem, fun _ => 0, 0, fun _ => none, IMap.new, (0, 0)⟩ : St) x = none := by
    intro x k1 k2
    exact view_none.2 ((h.stack q hq g1).2 x k1 k2)
  refine ⟨L', q, _, hq, g1, ⟨hL'.table, hL'.own, hL'.prog, ?_⟩, hH', by rw [hpg', hpg], by rw [hmm', hmm], hlen, rfl, ?_, ?_, ?_⟩
  · rw [hheap', hpg']
    exact hheap
  · intro x c hc
    have hx : ¬ (q.1.2 - mx ≤ x ∧ x < q.1.1) := by
      rintro ⟨k1, k2⟩
      rw [hnone x k1 k2] at hc
      cases hc
    have h1 : ∃ b, view u x = some { c with anon := b } := by
      rw [hT1, hc]
      split
      · exact ⟨true, rfl⟩
      · exact ⟨c.anon, rfl⟩
    obtain ⟨b, h1⟩ := h1
    rw [hT2, h1]
    split
    · rw [if_neg (by omega)]
      exact ⟨true, rfl⟩
    · exact ⟨b, rfl⟩
  · intro x hx
    have h1 : view u x = none := by
      rw [hT1, hx]
      split <;> rfl
    rw [hT2, h1]
    by_cases k : q.1.2 - mx ≤ x ∧ x < q.1.1 ∧ x < q.1.2 - page
    · rw [if_pos k, if_pos (by omega), if_pos (by omega)]
    · rw [if_neg k]
      split
      · rw [if_neg (by omega)]; rfl
      · rfl
  · intro x c k1 k2 hc
    rw [hheap'] at k1 k2
    rw [hT2] at hc
    split at hc
    · split at hc
      · cases hc; rfl
      · obtain ⟨d, _, rfl⟩ := Option.map_eq_some_iff.1 hc
        rfl
    · rw [hT1, if_pos ⟨k1, k2⟩] at hc
      obtain ⟨d, _, rfl⟩ := Option.map_eq_some_iff.1 hc
      rfl

end Shadow.MemMap
