import Verif.MemMap.Remap

/-!
# `brk`
-/
namespace Shadow.MemMap

open Shadow.Base Shadow.IntervalMap

/-- The heap is recorded as one region, as `brk` has made it: it may be read and written. -/
def HeapOk (s : St) : Prop :=
  s.heap.1 < s.heap.2 → ∃ p, s.regions.get s.heap.1 = .ok (some p) ∧ p.1 = s.heap ∧ p.2.base ≠ 0 ∧ p.2.prot = rw

theorem heapOk_mem {L : List (Entry Region)} {s : St} (T : Table L s) : HeapOk s ↔ (s.heap.1 < s.heap.2 → ∃ p ∈ L, p.1 = s.heap ∧ p.2.base ≠ 0 ∧ p.2.prot = rw) := by
  unfold HeapOk
  constructor
  · intro h hh
    obtain ⟨p, h1, h2⟩ := h hh
    rw [T.reg] at h1
    by_cases hx : ∃ q ∈ L, q.covers s.heap.1
    · obtain ⟨q, hq, hc⟩ := hx
      rw [get_some T.good hq hc] at h1
      cases h1
      exact ⟨p, hq, h2⟩
    · rw [get_none T.good (fun p hp hc => hx ⟨p, hp, hc⟩)] at h1
      cases h1
  · intro h hh
    obtain ⟨p, h1, h2⟩ := h hh
    refine ⟨p, ?_, h2⟩
    rw [T.reg]
    refine get_some T.good h1 ?_
    unfold Entry.covers
    rw [h2.1]
    exact ⟨Nat.le_refl _, hh⟩

theorem at_split {A B : List (Entry Region)} {p : Entry Region} {x : Nat} {pr : Prot} {l : Option Nat} :
    At (A ++ p :: B) x pr l ↔ At (A ++ B) x pr l ∨ (p.covers x ∧ p.2.prot = pr ∧ l = if p.2.base = 0 then none else some (p.2.base + (x - p.1.1))) := by
  constructor
  · rintro ⟨q, hq, hc⟩
    simp only [List.mem_append, List.mem_cons] at hq
    rcases hq with g | rfl | g
    · exact .inl ⟨q, by simp [g], hc⟩
    · exact .inr hc
    · exact .inl ⟨q, by simp [g], hc⟩
  · rintro (⟨q, hq, hc⟩ | h)
    · refine ⟨q, ?_, hc⟩
      simp only [List.mem_append, List.mem_cons] at hq ⊢
      rcases hq with g | g <;> simp [g]
    · exact ⟨p, by simp, h⟩

theorem aligned_split {pg : Nat} {A B : List (Entry Region)} {p : Entry Region} (h : Aligned pg (A ++ p :: B)) : Aligned pg (A ++ B) := by
  have hm : ∀ q ∈ A ++ B, q ∈ A ++ p :: B := by
    intro q hq
    simp only [List.mem_append, List.mem_cons] at hq ⊢
    rcases hq with g | g <;> simp [g]
  exact ⟨h.pos, fun q hq => h.s q (hm q hq), fun q hq => h.e q (hm q hq), fun q hq => h.base q (hm q hq)⟩

theorem raw_cut {L : List (Entry Region)} {a b : Nat} (h : ∀ q ∈ L, b ≤ q.1.1 ∨ q.1.2 ≤ b) : raw L a b = cut L a b := by
  unfold raw cut
  congr 1
  induction L with
  | nil => rfl
  | cons q L ih =>
    rw [List.flatMap_cons, List.flatMap_cons, ih (fun q hq => h q (by simp [hq]))]
    congr 1
    have := h q (by simp)
    unfold after after'
    by_cases hb : b < q.1.2
    · rw [if_pos hb, if_pos hb]
      have : max q.1.1 b = q.1.1 := by omega
      rw [this, Nat.sub_self, shift_zero]
    · rw [if_neg hb, if_neg hb]

/-- Addresses that are not mapped in the program are in no region. -/
theorem Prog.gap {L : List (Entry Region)} {P : Nat → Option Map} (h : Prog L P) {x : Nat} (hx : P x = none) : ∀ p ∈ L, ¬ p.covers x := by
  intro p hp hc
  by_cases hb : p.2.base = 0
  · obtain ⟨c, e⟩ := h.there (x := x) (pr := p.2.prot) ⟨p, hp, hc, rfl, by rw [if_pos hb]⟩
    rw [hx] at e; cases e
  · have e := h.here (x := x) (pr := p.2.prot) ⟨p, hp, hc, rfl, by rw [if_neg hb]⟩
    rw [hx] at e; cases e

theorem file_zero {L : List (Entry Region)} {s : St} (hI : Inv L s) {x : Nat} (hx : s.plugin x = none) : s.file x = 0 := by
  by_cases h : s.file x = 0
  · exact h
  · obtain ⟨pr, y, g⟩ := hI.own.zero h
    rw [hI.prog.here g] at hx
    cases hx

theorem growHeap_new {L : List (Entry Region)} {s : St} (hI : Inv L s) {req base : Nat} {ok : Bool} {ext : Nat → Nat} (hreq : req % s.page = 0) (hgt : s.heap.2 < req)
    (hz : s.heap.1 = s.heap.2) (hfree : ∀ x, s.heap.2 ≤ x → x < req → s.plugin x = none) (hf : Fresh s base (req - s.heap.1)) :
    ∃ t, s.growHeap req ok base ext = .ok t ∧ HeapOk t ∧ Done L (fun x => s.heap.1 ≤ x ∧ x < req) s t ((view s).over s.heap.2 req (zeros rw)) (s.heap.1, req) := by
  have hpos := hI.table.al.pos
  have hG := hI.table.good
  have hab : s.heap.1 < req := by omega
  have hd : ∀ p ∈ L, p.1.2 ≤ s.heap.1 ∨ req ≤ p.1.1 :=
    gap_of hG hab (fun x g1 g2 => hI.prog.gap (hfree x (by omega) g2))
  have hget : s.regions.get s.heap.1 = .ok none := by
    rw [hI.table.reg]
    exact get_none hG (hI.prog.gap (hfree _ (by omega) hab))
  obtain ⟨f1, f2, f3⟩ := hf
  have hT : Good (put L s.heap.1 req ⟨base, rw, true, some .heap⟩) := good_put hG hab _
  refine ⟨{ s with len := max s.len req, shadow := fun y => if base ≤ y ∧ y < base + (req - s.heap.1) then some (s.heap.1 + (y - base), rw) else s.shadow y, plugin := fun x => if s.heap.1 ≤ x ∧ x < req then some ⟨.shm x, rw⟩ else s.plugin x, regions := ofList (put L s.heap.1 req ⟨base, rw, true, some .heap⟩), heap := (s.heap.1, req) }, ?_, ?_, ⟨put L s.heap.1 req ⟨base, rw, true, some .heap⟩, ⟨⟨rfl, hT, ?_⟩, ?_, ?_, ?_⟩, fun q hq h => keep_put hG hab hq h _⟩, rfl, rfl, rfl, ?_⟩
  · unfold St.growHeap
    rw [hget, R.bind_ok]
    simp only [hz, decide_true, R.assert_true, R.bind_ok]
    rw [← hz, alloc_eq, mmapIntoShadow_eq _ _ (by exact hpos) (by exact hI.heap.2.1) (by exact hreq) hab, R.bind_ok,
      mmapIntoPlugin_eq _ _ (by exact hpos) (by exact hI.heap.2.1) (by exact hreq) hab, R.bind_ok]
    simp only
    rw [hI.table.reg, insert_gap hG hab hd, R.bind_ok]
    rfl
  · intro _
    refine ⟨((s.heap.1, req), ⟨base, rw, true, some .heap⟩), ?_, rfl, f1, rfl⟩
    exact get_some hT (mem_put.2 (.inr rfl)) ⟨Nat.le_refl _, hab⟩
  · exact aligned_put hI.table.al hI.heap.2.1 hreq f2
  · refine own_put hG hab hd f1 (hI.own.add (base := base) (pr0 := rw) (a := s.heap.1) (b := req) ?_ rfl f3 (fun _ _ => rfl))
    simp only; omega
  · refine Prog.put hI.prog hG hab ?_ (fun e => absurd e f1) ?_
    · intro _ x g1 g2
      exact if_pos ⟨g1, g2⟩
    · intro x hx
      exact if_neg hx
  · exact ⟨Nat.le_of_lt hab, hI.heap.2.1, hreq⟩
  · funext x
    unfold View.over
    by_cases hx : s.heap.2 ≤ x ∧ x < req
    · rw [if_pos hx]
      unfold view zeros
      simp only
      rw [if_pos (by omega)]
      simp only
      rw [file_zero hI (hfree x hx.1 hx.2)]
    · rw [if_neg hx]
      refine view_eq ?_ rfl (fun _ _ _ => rfl)
      simp only
      rw [if_neg (by omega)]

theorem growHeap_old {L : List (Entry Region)} {s : St} (hI : Inv L s) {req base : Nat} {ext : Nat → Nat} (hreq : req % s.page = 0) (hgt : s.heap.2 < req)
    (hz : s.heap.1 < s.heap.2) (hfree : ∀ x, s.heap.2 ≤ x → x < req → s.plugin x = none) {p : Entry Region} (hp : p ∈ L) (hpe : p.1 = s.heap) (hpb : p.2.base ≠ 0)
    (hpr : p.2.prot = rw) (hlen : req ≤ s.len) (hroom : Room s p.2.base (s.heap.2 - s.heap.1) base (req - s.heap.1)) :
    ∃ t, s.growHeap req true base ext = .ok t ∧ HeapOk t ∧ Done L (fun x => s.heap.1 ≤ x ∧ x < req) s t ((view s).over s.heap.2 req (zeros rw)) (s.heap.1, req) := by
  have hpos := hI.table.al.pos
  have hG := hI.table.good
  have hab : s.heap.1 < req := by omega
  have hc : p.covers s.heap.1 := by unfold Entry.covers; rw [hpe]; exact ⟨Nat.le_refl _, hz⟩
  have hget : s.regions.get s.heap.1 = .ok (some p) := by
    rw [hI.table.reg]
    exact get_some hG hp hc
  obtain ⟨f1, f2, f3⟩ := hroom
  obtain ⟨A, B, rfl, hG1, _, _, hdis⟩ := split_exact hG hp
  rw [hpe] at hdis
  have hd : ∀ q ∈ A ++ B, q.1.2 ≤ s.heap.1 ∨ req ≤ q.1.1 := by
    refine gap_of hG1 hab ?_
    intro x g1 g2 q hq hcq
    by_cases hx : x < s.heap.2
    · have := hdis q hq
      unfold Entry.covers at hcq
      omega
    · refine hI.prog.gap (hfree x (by omega) g2) q ?_ hcq
      simp only [List.mem_append, List.mem_cons] at hq ⊢
      rcases hq with g | g <;> simp [g]
  have hins : ∀ r : Region, (ofList (A ++ p :: B)).insert s.heap.1 req r = .ok (ofList (put (A ++ B) s.heap.1 req r), (A ++ p :: B).filterMap (change s.heap.1 req)) := by
    intro r
    have e1 := insert_gap hG1 hab hd r
    unfold IMap.insert at e1 ⊢
    rw [splice_spec hG1 hab] at e1
    rw [splice_spec hG hab]
    have e2 : ofList (spliced (A ++ B) s.heap.1 req (some r)) = ofList (put (A ++ B) s.heap.1 req r) := by
      have := R.ok.inj e1
      exact congrArg Prod.fst this
    rw [← e2]
    congr 3
    unfold spliced
    have g1 : before s.heap.1 p = [] := by unfold before; rw [hpe, if_neg (by omega)]
    have g2 : after req p = [] := by unfold after; rw [hpe, if_neg (by omega)]
    simp only [List.flatMap_append, List.flatMap_cons, g1, g2, List.nil_append]
  have hT : ∀ r, Good (put (A ++ B) s.heap.1 req r) := fun r => good_put hG1 hab r
  have hn1 : (s.heap.2 - s.heap.1) % s.page = 0 := mod_sub hI.heap.2.2 hI.heap.2.1
  have hn2 : (req - s.heap.1) % s.page = 0 := mod_sub hreq hI.heap.2.1
  have hplug := nMremap_plugin (s.alloc s.heap.2) (old := s.heap.1) (new := s.heap.1) (ext := ext) (by rw [alloc_eq]; exact hpos) (by rw [alloc_eq]; exact hn1) (by rw [alloc_eq]; exact hn2)
  have halloc : s.alloc s.heap.2 = s := by
    rw [alloc_eq]
    have : max s.len s.heap.2 = s.len := by omega
    rw [this]
  rw [halloc] at hplug
  have hin : ∀ x, s.heap.1 ≤ x → x < s.heap.2 → s.plugin x = some ⟨.shm x, rw⟩ := by
    intro x g1 g2
    refine hI.prog.here (y := p.2.base + (x - p.1.1)) ⟨p, hp, ?_, hpr, by rw [if_neg hpb]⟩
    unfold Entry.covers
    rw [hpe]
    exact ⟨g1, g2⟩
  have hplug' : (nMremap s s.heap.1 (s.heap.2 - s.heap.1) s.heap.1 (req - s.heap.1) ext).plugin = fun x => if s.heap.1 ≤ x ∧ x < req then some ⟨.shm x, rw⟩ else s.plugin x := by
    rw [hplug]
    funext x
    by_cases hx : s.heap.1 ≤ x ∧ x < req
    · rw [if_pos hx, if_pos (by omega)]
      by_cases hy : x - s.heap.1 < s.heap.2 - s.heap.1
      · rw [if_pos hy, Nat.add_sub_cancel' hx.1, hin x hx.1 (by omega)]
      · rw [if_neg hy, hin _ (Nat.le_refl _) hz]
        unfold grown
        simp only
        rw [Nat.add_sub_cancel' hx.1]
    · rw [if_neg hx, if_neg (by omega), if_neg (by omega)]
  have O : Own (fun x pr y => At (A ++ B) x pr (some y) ∨ (s.heap.1 ≤ x ∧ x < s.heap.1 + (s.heap.2 - s.heap.1) ∧ pr = rw ∧ y = p.2.base + (x - s.heap.1))) s := by
    refine hI.own.congr ?_
    intro x pr y
    rw [at_split, if_neg hpb, hpr]
    unfold Entry.covers
    rw [hpe]
    constructor
    · rintro (g | ⟨g1, g2, g3⟩)
      · exact .inl g
      · exact .inr ⟨g1.1, by omega, g2.symm, Option.some.inj g3⟩
    · rintro (g | ⟨g1, g2, g3, g4⟩)
      · exact .inl g
      · exact .inr ⟨⟨g1, by omega⟩, g3.symm, by rw [g4]⟩
  refine ⟨{ s with shadow := fun y => if base ≤ y ∧ y < base + (req - s.heap.1) then (s.shadow p.2.base).map (fun q => (q.1 + (y - base), q.2)) else if p.2.base ≤ y ∧ y < p.2.base + (s.heap.2 - s.heap.1) then none else s.shadow y, plugin := fun x => if s.heap.1 ≤ x ∧ x < req then some ⟨.shm x, rw⟩ else s.plugin x, regions := ofList (put (A ++ B) s.heap.1 req ⟨base, rw, true, some .heap⟩), heap := (s.heap.1, req) }, ?_, ?_, ⟨put (A ++ B) s.heap.1 req ⟨base, rw, true, some .heap⟩, ⟨⟨rfl, hT _, ?_⟩, ?_, ?_, ?_⟩, ?_⟩, rfl, rfl, rfl, ?_⟩
  · unfold St.growHeap
    rw [hget, R.bind_ok]
    simp only [R.assert_true, R.bind_ok]
    rw [halloc, sMremap_eq _ (by exact hpos) (by exact hn1) (by exact hn2)]
    rw [R.pure_eq, R.bind_ok]
    have e3 : (nMremap s s.heap.1 (s.heap.2 - s.heap.1) s.heap.1 (req - s.heap.1) ext).heap = s.heap := rfl
    have e4 : (nMremap s s.heap.1 (s.heap.2 - s.heap.1) s.heap.1 (req - s.heap.1) ext).regions = ofList (A ++ p :: B) := hI.table.reg
    simp only [e3, e4]
    rw [hins, R.bind_ok, hplug']
    rfl
  · intro _
    refine ⟨((s.heap.1, req), ⟨base, rw, true, some .heap⟩), ?_, rfl, f1, rfl⟩
    exact get_some (hT _) (mem_put.2 (.inr rfl)) ⟨Nat.le_refl _, hab⟩
  · exact aligned_put (aligned_split hI.table.al) hI.heap.2.1 hreq f2
  · refine own_put hG1 hab hd f1 (Own.congr (O.remap (new := base) (m := req - s.heap.1) (by omega) rfl f3 ?_ (Nat.le_refl _) ?_ ?_) ?_)
    · intro x g
      exact ⟨g, by omega⟩
    · intro _
      simp only; omega
    · rintro x pr y ⟨q, hq, hcq, _⟩ hx
      have := hdis q hq
      unfold Entry.covers at hcq
      omega
    · intro x pr y
      simp only
      rw [Nat.add_sub_cancel' (Nat.le_of_lt hab)]
  · refine Prog.put (P := fun x => if s.heap.1 ≤ x ∧ x < req then none else s.plugin x) ?_ hG1 hab ?_ (fun e => absurd e f1) ?_
    · refine ⟨?_, ?_, ?_⟩
      · rintro x pr y g
        have hx : ¬ (s.heap.1 ≤ x ∧ x < req) := by
          obtain ⟨q, hq, hcq, _⟩ := g
          have := hd q hq
          unfold Entry.covers at hcq
          omega
        rw [if_neg hx]
        exact hI.prog.here (at_split.2 (.inl g))
      · rintro x pr g
        have hx : ¬ (s.heap.1 ≤ x ∧ x < req) := by
          obtain ⟨q, hq, hcq, _⟩ := g
          have := hd q hq
          unfold Entry.covers at hcq
          omega
        rw [if_neg hx]
        exact hI.prog.there (at_split.2 (.inl g))
      · intro x m g
        by_cases hx : s.heap.1 ≤ x ∧ x < req
        · rw [if_pos hx] at g; cases g
        · rw [if_neg hx] at g
          obtain ⟨pr, l, g⟩ := hI.prog.all g
          refine ⟨pr, l, ?_⟩
          rcases at_split.1 g with g | ⟨g, _⟩
          · exact g
          · unfold Entry.covers at g
            rw [hpe] at g
            omega
    · intro _ x g1 g2
      exact if_pos ⟨g1, g2⟩
    · intro x hx
      simp only [if_neg hx]
  · exact ⟨Nat.le_of_lt hab, hI.heap.2.1, hreq⟩
  · intro q hq h
    refine keep_put hG1 hab ?_ h _
    simp only [List.mem_append, List.mem_cons] at hq ⊢
    rcases hq with g | g | g
    · exact .inl g
    · subst g
      exact absurd ⟨Nat.le_refl _, hab⟩ (h _ hc)
    · exact .inr g
  · funext x
    unfold View.over
    by_cases hx : s.heap.2 ≤ x ∧ x < req
    · rw [if_pos hx]
      unfold view zeros
      simp only
      rw [if_pos (by omega)]
      simp only
      rw [file_zero hI (hfree x hx.1 hx.2)]
    · rw [if_neg hx]
      refine view_eq ?_ rfl (fun _ _ _ => rfl)
      simp only
      by_cases hy : s.heap.1 ≤ x ∧ x < req
      · rw [if_pos hy, hin x hy.1 (by omega)]
      · rw [if_neg hy]

theorem shrinkHeap_ok {L : List (Entry Region)} {s : St} (hI : Inv L s) {req : Nat} {ext : Nat → Nat} (hreq : req % s.page = 0) (hlt : req < s.heap.2)
    (hgt : s.heap.1 < req) {p : Entry Region} (hp : p ∈ L) (hpe : p.1 = s.heap) (hpb : p.2.base ≠ 0) (hpr : p.2.prot = rw) :
    ∃ t, s.shrinkHeap req true ext = .ok t ∧ HeapOk t ∧ Done L (fun x => s.heap.1 ≤ x ∧ x < s.heap.2) s t ((view s).over req s.heap.2 (fun _ => none)) (s.heap.1, req) := by
  have hpos := hI.table.al.pos
  have hG := hI.table.good
  have hz : s.heap.1 < s.heap.2 := by omega
  have hc : p.covers s.heap.1 := by unfold Entry.covers; rw [hpe]; exact ⟨Nat.le_refl _, hz⟩
  have hfind : find s.regions s.heap.1 = .ok p := by
    rw [hI.table.reg]
    exact find_spec hG hp hc
  obtain ⟨A, B, hAB, hG1, _, _, hdis⟩ := split_exact hG hp
  rw [hpe] at hdis
  have hall : ∀ q ∈ L, q = p ∨ q.1.2 ≤ s.heap.1 ∨ s.heap.2 ≤ q.1.1 := by
    intro q hq
    rw [hAB] at hq
    simp only [List.mem_append, List.mem_cons] at hq
    rcases hq with g | g | g
    · exact .inr (hdis q (by simp [g]))
    · exact .inl g
    · exact .inr (hdis q (by simp [g]))
  have hraw : raw L req s.heap.2 = cut L req s.heap.2 := by
    refine raw_cut ?_
    intro q hq
    rcases hall q hq with rfl | g
    · rw [hpe]; exact .inr (Nat.le_refl _)
    · omega
  have hcl : (ofList L).clear req s.heap.2 = .ok (ofList (cut L req s.heap.2), L.filterMap (change req s.heap.2)) := by
    unfold IMap.clear
    rw [splice_spec hG hlt, ← hraw]
    simp [spliced, raw]
  have hn1 : (s.heap.2 - s.heap.1) % s.page = 0 := mod_sub hI.heap.2.2 hI.heap.2.1
  have hn2 : (req - s.heap.1) % s.page = 0 := mod_sub hreq hI.heap.2.1
  have hin : ∀ x, s.heap.1 ≤ x → x < s.heap.2 → s.plugin x = some ⟨.shm x, rw⟩ := by
    intro x g1 g2
    refine hI.prog.here (y := p.2.base + (x - p.1.1)) ⟨p, hp, ?_, hpr, by rw [if_neg hpb]⟩
    unfold Entry.covers
    rw [hpe]
    exact ⟨g1, g2⟩
  have hplug : (nMremap s s.heap.1 (s.heap.2 - s.heap.1) s.heap.1 (req - s.heap.1) ext).plugin = fun x => if req ≤ x ∧ x < s.heap.2 then none else s.plugin x := by
    rw [nMremap_plugin s hpos hn1 hn2]
    funext x
    by_cases hx : s.heap.1 ≤ x ∧ x < s.heap.1 + (req - s.heap.1)
    · rw [if_pos hx, if_pos (by omega), if_neg (by omega), Nat.add_sub_cancel' hx.1]
    · rw [if_neg hx]
      by_cases hy : req ≤ x ∧ x < s.heap.2
      · rw [if_pos hy, if_pos (by omega)]
      · rw [if_neg hy, if_neg (by omega)]
  have O : Own (fun x pr y => At (A ++ B) x pr (some y) ∨ (s.heap.1 ≤ x ∧ x < s.heap.1 + (s.heap.2 - s.heap.1) ∧ pr = rw ∧ y = p.2.base + (x - s.heap.1))) s := by
    refine hI.own.congr ?_
    intro x pr y
    rw [hAB, at_split, if_neg hpb, hpr]
    unfold Entry.covers
    rw [hpe]
    constructor
    · rintro (g | ⟨g1, g2, g3⟩)
      · exact .inl g
      · exact .inr ⟨g1.1, by omega, g2.symm, Option.some.inj g3⟩
    · rintro (g | ⟨g1, g2, g3, g4⟩)
      · exact .inl g
      · exact .inr ⟨⟨g1, by omega⟩, g3.symm, by rw [g4]⟩
  refine ⟨{ s with shadow := fun y => if p.2.base ≤ y ∧ y < p.2.base + (req - s.heap.1) then (s.shadow p.2.base).map (fun q => (q.1 + (y - p.2.base), q.2)) else if p.2.base ≤ y ∧ y < p.2.base + (s.heap.2 - s.heap.1) then none else s.shadow y, plugin := fun x => if req ≤ x ∧ x < s.heap.2 then none else s.plugin x, file := fun x => if req ≤ x ∧ x < s.heap.2 then 0 else s.file x, regions := ofList (cut L req s.heap.2), heap := (s.heap.1, req) }, ?_, ?_, ⟨cut L req s.heap.2, ⟨⟨rfl, good_cut hG hlt, ?_⟩, ?_, ?_, ?_⟩, fun q hq h => keep_cut hG hlt hq (fun x hx g => h x hx (by omega))⟩, rfl, rfl, rfl, ?_⟩
  · unfold St.shrinkHeap
    rw [show (!decide (s.heap.1 = req)) = true by simp; omega, hfind]
    simp only [R.assert_true, R.bind_ok]
    rw [sMremap_eq _ (by exact hpos) (by exact hn1) (by exact hn2)]
    have e3 : (nMremap s s.heap.1 (s.heap.2 - s.heap.1) s.heap.1 (req - s.heap.1) ext).heap = s.heap := rfl
    have e4 : (nMremap s s.heap.1 (s.heap.2 - s.heap.1) s.heap.1 (req - s.heap.1) ext).regions = ofList L := hI.table.reg
    simp only [e3, e4]
    rw [hcl, R.bind_ok, dealloc_eq _ (by exact hlt), R.bind_ok, hplug]
    rfl
  · intro _
    refine ⟨((s.heap.1, req), p.2), ?_, rfl, hpb, hpr⟩
    refine get_some (good_cut hG hlt) (mem_cut.2 (.inl ⟨p, hp, ?_, ?_⟩)) ⟨Nat.le_refl _, hgt⟩
    · rw [hpe]; omega
    · rw [hpe]
      have : min s.heap.2 req = req := by omega
      rw [this]
  · exact aligned_cut hI.table.al hreq hI.heap.2.2
  · refine Own.congr (O.remap (new := p.2.base) (m := req - s.heap.1) (by omega) rfl (fun y g1 g2 => .inr ⟨g1, by omega⟩) ?_ (Nat.le_refl _) ?_ ?_) ?_
    · intro x
      simp only
      by_cases hx : req ≤ x ∧ x < s.heap.2
      · rw [if_pos hx]; intro g; exact absurd rfl g
      · rw [if_neg hx]; intro g; exact ⟨g, by omega⟩
    · intro _
      have := O.long (x := s.heap.2 - 1) (.inr ⟨by omega, by omega, rfl, rfl⟩)
      simp only; omega
    · rintro x pr y ⟨q, hq, hcq, _⟩ hx
      have := hdis q hq
      unfold Entry.covers at hcq
      omega
    · intro x pr y
      rw [at_cut hG hlt, hAB, at_split, if_neg hpb, hpr]
      unfold Entry.covers
      rw [hpe]
      constructor
      · rintro (g | ⟨g1, g2, g3, g4⟩)
        · refine ⟨.inl g, ?_⟩
          obtain ⟨q, hq, hcq, _⟩ := g
          have := hdis q hq
          unfold Entry.covers at hcq
          omega
        · exact ⟨.inr ⟨⟨g1, by omega⟩, g3.symm, by rw [g4]⟩, by omega⟩
      · rintro ⟨g | ⟨g1, g2, g3⟩, hx⟩
        · exact .inl g
        · exact .inr ⟨g1.1, by omega, g2.symm, Option.some.inj g3⟩
  · refine hI.prog.cut hG hlt ?_ ?_
    · intro x g1 g2
      exact if_pos ⟨g1, g2⟩
    · intro x hx
      exact if_neg hx
  · exact ⟨Nat.le_of_lt hgt, hI.heap.2.1, hreq⟩
  · funext x
    unfold View.over
    by_cases hx : req ≤ x ∧ x < s.heap.2
    · rw [if_pos hx]
      unfold view
      simp only [if_pos hx]
    · rw [if_neg hx]
      refine view_eq (by simp only [if_neg hx]) rfl ?_
      intro o p' e
      rw [(hI.prog.off e).1]
      simp only [if_neg hx]

end Shadow.MemMap
