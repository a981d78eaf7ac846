import Verif.MemMap.Calls

/-!
# `mremap`
-/
namespace Shadow.MemMap

open Shadow.Base Shadow.IntervalMap

/-- A part of the file that Shadow has at one place is moved to another place, or becomes longer or shorter. -/
theorem Own.remap {B : Nat → Prot → Nat → Prop} {t u : St} {a n base new m : Nat} {pr0 : Prot}
    (h : Own (fun x pr y => B x pr y ∨ (a ≤ x ∧ x < a + n ∧ pr = pr0 ∧ y = base + (x - a))) t) (hn : 0 < n)
    (hsh : u.shadow = fun y => if new ≤ y ∧ y < new + m then (t.shadow base).map (fun q => (q.1 + (y - new), q.2)) else if base ≤ y ∧ y < base + n then none else t.shadow y)
    (hfree : ∀ y, new ≤ y → y < new + m → t.shadow y = none ∨ (base ≤ y ∧ y < base + n))
    (hfile : ∀ x, u.file x ≠ 0 → t.file x ≠ 0 ∧ ¬ (a + m ≤ x ∧ x < a + n)) (hlen : t.len ≤ u.len) (hlen2 : m ≠ 0 → a + m ≤ u.len)
    (hB : ∀ x pr y, B x pr y → ¬ (a ≤ x ∧ x < a + n)) :
    Own (fun x pr y => B x pr y ∨ (a ≤ x ∧ x < a + m ∧ pr = pr0 ∧ y = new + (x - a))) u := by
  have h0 : t.shadow base = some (a, pr0) := h.here (.inr ⟨Nat.le_refl _, by omega, rfl, by omega⟩)
  have hold : ∀ y, base ≤ y → y < base + n → t.shadow y = some (a + (y - base), pr0) := by
    intro y g1 g2
    exact h.here (.inr ⟨by omega, by omega, rfl, by omega⟩)
  refine ⟨?_, ?_, ?_, ?_⟩
  · rintro x pr y (g | ⟨g1, g2, rfl, rfl⟩)
    · have hs := h.here (.inl g)
      have no : ¬ (base ≤ y ∧ y < base + n) := by
        rintro ⟨g1, g2⟩
        rw [hold y g1 g2] at hs
        cases Option.some.inj hs
        exact hB _ _ _ g ⟨by omega, by omega⟩
      have no2 : ¬ (new ≤ y ∧ y < new + m) := by
        rintro ⟨g1, g2⟩
        rcases hfree y g1 g2 with g3 | g3
        · rw [g3] at hs; cases hs
        · exact no g3
      rw [hsh]
      simp only [if_neg no, if_neg no2]
      exact hs
    · rw [hsh]
      simp only
      rw [if_pos (by omega), h0]
      simp only [Option.map_some]
      congr 2
      omega
  · intro x g
    obtain ⟨g1, g2⟩ := hfile x g
    obtain ⟨pr, y, g | ⟨g3, g4, g5, g6⟩⟩ := h.zero g1
    · exact ⟨pr, y, .inl g⟩
    · exact ⟨pr0, _, .inr ⟨g3, by omega, rfl, rfl⟩⟩
  · intro y o pr g
    rw [hsh] at g
    simp only at g
    by_cases hy : new ≤ y ∧ y < new + m
    · rw [if_pos hy, h0] at g
      simp only [Option.map_some] at g
      cases Option.some.inj g
      exact ⟨pr0, .inr ⟨by omega, by omega, rfl, by omega⟩⟩
    · rw [if_neg hy] at g
      by_cases hy2 : base ≤ y ∧ y < base + n
      · rw [if_pos hy2] at g; cases g
      · rw [if_neg hy2] at g
        obtain ⟨pr', g | ⟨g3, g4, g5, g6⟩⟩ := h.tight g
        · exact ⟨pr', .inl g⟩
        · omega
  · rintro x pr y (g | ⟨g1, g2, _, _⟩)
    · have := h.long (.inl g)
      omega
    · have := hlen2 (by omega)
      omega

/-- The table without one region. -/
theorem split_exact {L : List (Entry Region)} (hL : Good L) {p : Entry Region} (hp : p ∈ L) :
    ∃ A B, L = A ++ p :: B ∧ Good (A ++ B) ∧ raw L p.1.1 p.1.2 = A ++ B ∧ L.filterMap (change p.1.1 p.1.2) = [.removed p.1 p.2] ∧
      (∀ q ∈ A ++ B, q.1.2 ≤ p.1.1 ∨ p.1.2 ≤ q.1.1) := by
  obtain ⟨A, B, rfl⟩ := List.append_of_mem hp
  have hne := hL.ne
  have hord := hL.ord
  rw [List.pairwise_append] at hord
  obtain ⟨o1, o2, o3⟩ := hord
  rw [List.pairwise_cons] at o2
  have hA : ∀ q ∈ A, q.1.2 ≤ p.1.1 := fun q hq => o3 q hq p (by simp)
  have hB : ∀ q ∈ B, p.1.2 ≤ q.1.1 := o2.1
  have hpp := hne p (by simp)
  have eA : A.flatMap (before p.1.1) = A := by
    clear hp o1 o3 hL
    induction A with
    | nil => rfl
    | cons q A ih =>
      have h1 := hA q (by simp)
      have h2 := hne q (by simp)
      rw [List.flatMap_cons, ih (fun q hq => hne q (by simp only [List.mem_append, List.mem_cons] at hq ⊢; rcases hq with g | g | g <;> simp [g])) (fun q hq => hA q (by simp [hq]))]
      unfold before
      rw [if_pos (by omega), Nat.min_eq_left h1]
      rfl
  have eB : B.flatMap (after p.1.2) = B := by
    clear hp o1 o2 o3 hL eA hA
    induction B with
    | nil => rfl
    | cons q B ih =>
      have h1 := hB q (by simp)
      have h2 := hne q (by simp)
      rw [List.flatMap_cons, ih (fun q hq => hne q (by simp only [List.mem_append, List.mem_cons] at hq ⊢; rcases hq with g | g | g <;> simp [g])) (fun q hq => hB q (by simp [hq]))]
      unfold after
      rw [if_pos (by omega), Nat.max_eq_left h1]
      rfl
  have eA' : A.flatMap (after p.1.2) = [] := after_nil (fun q hq => by have := hA q hq; omega)
  have eB' : B.flatMap (before p.1.1) = [] := List.flatMap_eq_nil_iff.2 (fun q hq => by unfold before; rw [if_neg (by have := hB q hq; omega)])
  have ep : before p.1.1 p = [] := by unfold before; rw [if_neg (by omega)]
  have ep' : after p.1.2 p = [] := by unfold after; rw [if_neg (by omega)]
  have cA : A.filterMap (change p.1.1 p.1.2) = [] := List.filterMap_eq_nil_iff.2 (fun q hq => by unfold change; rw [if_pos (.inl (hA q hq))])
  have cB : B.filterMap (change p.1.1 p.1.2) = [] := List.filterMap_eq_nil_iff.2 (fun q hq => by unfold change; rw [if_pos (.inr (hB q hq))])
  have cp : change p.1.1 p.1.2 p = some (.removed p.1 p.2) := by
    unfold change
    rw [if_neg (by omega), if_neg (by omega), if_pos (Nat.le_refl _)]
  refine ⟨A, B, rfl, ⟨?_, ?_⟩, ?_, ?_, ?_⟩
  · intro q hq
    exact hne q (by simp only [List.mem_append, List.mem_cons] at hq ⊢; rcases hq with g | g <;> simp [g])
  · rw [List.pairwise_append]
    exact ⟨o1, o2.2, fun q hq q' hq' => o3 q hq q' (by simp [hq'])⟩
  · unfold raw
    simp only [List.flatMap_append, List.flatMap_cons, eA, eB, eA', eB', ep, ep']
    simp
  · rw [List.filterMap_append, cA, List.filterMap_cons, cp, cB]
    rfl
  · intro q hq
    rcases List.mem_append.1 hq with g | g
    · exact .inl (hA q g)
    · exact .inr (hB q g)

/-- What is left of the table for the new region. -/
structure Left (L K : List (Entry Region)) (p : Entry Region) (a b : Nat) : Prop where
  old : ∀ q ∈ K, q.1.2 ≤ p.1.1 ∨ p.1.2 ≤ q.1.1
  new : ∀ q ∈ K, q.1.2 ≤ a ∨ b ≤ q.1.1
  keep : ∀ q ∈ L, (∀ x, q.covers x → ¬ (p.1.1 ≤ x ∧ x < p.1.2)) → (∀ x, q.covers x → ¬ (a ≤ x ∧ x < b)) → q ∈ K
  at_ : ∀ {x pr l}, At K x pr l ↔ At L x pr l ∧ ¬ (p.1.1 ≤ x ∧ x < p.1.2) ∧ ¬ (a ≤ x ∧ x < b)

theorem takeOld_spec {L : List (Entry Region)} {s : St} (T : Table L s) (O : Own (fun x pr y => At L x pr (some y)) s) {p : Entry Region} (hp : p ∈ L)
    {old osz new nsz : Nat} (hpe : p.1 = (old, old + osz)) (hnsz : 0 < nsz) (hnew : new % s.page = 0) (hn : nsz % s.page = 0) :
    ∃ t K, s.takeOld old osz new nsz = .ok (t, p.2) ∧ Frame s t ∧ Table K t ∧ Left L K p new (new + nsz) ∧
      (∀ x, t.file x = if (new ≤ x ∧ x < new + nsz) ∧ ¬ (old ≤ x ∧ x < old + osz) then 0 else s.file x) ∧
      Own (fun x pr y => At K x pr (some y) ∨ (p.2.base ≠ 0 ∧ old ≤ x ∧ x < old + osz ∧ pr = p.2.prot ∧ y = p.2.base + (x - old))) t := by
  obtain ⟨⟨pa, pb⟩, r⟩ := p
  simp only [Prod.mk.injEq] at hpe
  obtain ⟨rfl, rfl⟩ := hpe
  obtain ⟨A, B, hAB, hG1, hraw, hch, hdis⟩ := split_exact T.good hp
  have hpp := T.good.ne _ hp
  simp only at hraw hch hdis hpp
  have hcl : s.regions.clear pa (pa + osz) = .ok (ofList (A ++ B), [.removed (pa, pa + osz) r]) := by
    unfold IMap.clear
    rw [T.reg, splice_spec T.good hpp, hch, ← hraw]
    simp [spliced, raw]
  have hal1 : Aligned s.page (A ++ B) := by
    have hm : ∀ q ∈ A ++ B, q ∈ L := by
      intro q hq
      rw [hAB]
      simp only [List.mem_append, List.mem_cons] at hq ⊢
      rcases hq with g | g <;> simp [g]
    exact ⟨T.al.pos, fun q hq => T.al.s q (hm q hq), fun q hq => T.al.e q (hm q hq), fun q hq => T.al.base q (hm q hq)⟩
  have hab : new < new + nsz := by omega
  obtain ⟨t, h1, h2, h3, h4⟩ := clearOut_spec (s := { s with regions := ofList (A ++ B) }) hG1 hal1 rfl hab hnew (mod_add hnew hn)
  have hat1 : ∀ {x pr l}, At (A ++ B) x pr l ↔ At L x pr l ∧ ¬ (pa ≤ x ∧ x < pa + osz) := by
    intro x pr l
    constructor
    · rintro ⟨q, hq, hc, e⟩
      have hd := hdis q hq
      unfold Entry.covers at hc
      refine ⟨⟨q, ?_, hc, e⟩, by omega⟩
      rw [hAB]
      simp only [List.mem_append, List.mem_cons] at hq ⊢
      rcases hq with g | g <;> simp [g]
    · rintro ⟨⟨q, hq, hc, e⟩, hx⟩
      refine ⟨q, ?_, hc, e⟩
      rw [hAB] at hq
      simp only [List.mem_append, List.mem_cons] at hq ⊢
      rcases hq with g | g | g
      · exact .inl g
      · subst g
        exact absurd hc hx
      · exact .inr g
  have hLA : ∀ {x y}, Loc (A ++ B) x y → ∃ pr, (fun x pr y => At L x pr (some y)) x pr y := by
    intro x y g
    obtain ⟨pr, g⟩ := loc_iff.1 g
    exact ⟨pr, (hat1.1 g).1⟩
  have hLeft : Left L (cut (A ++ B) new (new + nsz)) ((pa, pa + osz), r) new (new + nsz) := by
    refine ⟨?_, cut_gap, ?_, ?_⟩
    rotate_left
    · intro q hq h5 h6
      refine keep_cut hG1 hab ?_ h6
      rw [hAB] at hq
      simp only [List.mem_append, List.mem_cons] at hq ⊢
      rcases hq with g | g | g
      · exact .inl g
      · subst g
        exact absurd ⟨Nat.le_refl _, hpp⟩ (h5 pa ⟨Nat.le_refl _, hpp⟩)
      · exact .inr g
    rotate_left
    · intro q hq
      simp only
      rcases mem_cut.1 hq with ⟨q', hq', _, rfl⟩ | ⟨q', hq', _, rfl⟩
      · have := hdis q' hq'; simp only; omega
      · have := hdis q' hq'; simp only; omega
    · intro x pr l
      rw [at_cut hG1 hab, hat1]
      simp only [and_assoc]
  refine ⟨t, cut (A ++ B) new (new + nsz), ?_, ⟨h2.page, h2.plugin, h2.mem, h2.len, h2.heap⟩, ⟨h3, good_cut hG1 hab, ?_⟩, hLeft, ?_, ?_⟩
  · unfold St.takeOld
    rw [hcl, R.bind_ok]
    simp only [decide_true, R.assert_true, R.bind_ok]
    rw [h1, R.bind_ok]
    rfl
  · rw [h2.page]
    exact aligned_cut hal1 hnew (mod_add hnew hn)
  · intro x
    by_cases hx : (new ≤ x ∧ x < new + nsz) ∧ ¬ (pa ≤ x ∧ x < pa + osz)
    · rw [if_pos hx]
      by_cases hl : ∃ y, Loc (A ++ B) x y
      · obtain ⟨y, hl⟩ := hl
        exact h4.file x y hx.1.1 hx.1.2 hl
      · rw [h4.file' x (fun g => hl g.2.2)]
        by_cases hz : s.file x = 0
        · exact hz
        · obtain ⟨pr, y, g⟩ := O.zero hz
          exact absurd ⟨y, loc_iff.2 ⟨pr, hat1.2 ⟨g, hx.2⟩⟩⟩ hl
    · rw [if_neg hx, h4.file' x]
      rintro ⟨g1, g2, y, g3⟩
      obtain ⟨pr, g3⟩ := loc_iff.1 g3
      exact hx ⟨⟨g1, g2⟩, (hat1.1 g3).2⟩
  · have O1 : Own (fun x pr y => At L x pr (some y)) { s with regions := ofList (A ++ B) } := O.state rfl rfl (Nat.le_refl _)
    refine (O1.freed h4 h2.len hLA).congr ?_
    intro x pr y
    rw [hLeft.at_]
    simp only
    constructor
    · rintro ⟨g1, g2⟩
      by_cases hx : pa ≤ x ∧ x < pa + osz
      · refine .inr ?_
        have hc : Entry.covers (((pa, pa + osz), r) : Entry Region) x := hx
        obtain ⟨q, hq, hcq, e1, e2⟩ := g1
        have := covers_unique T.good hq hp hcq hc
        subst this
        by_cases hb : r.base = 0
        · rw [if_pos hb] at e2; cases e2
        · rw [if_neg hb] at e2
          exact ⟨hb, hx.1, hx.2, e1.symm, Option.some.inj e2⟩
      · exact .inl ⟨g1, hx, fun g3 => g2 ⟨g3.1, g3.2, loc_iff.2 ⟨pr, hat1.2 ⟨g1, hx⟩⟩⟩⟩
    · rintro (⟨g1, g2, g3⟩ | ⟨g1, g2, g3, rfl, rfl⟩)
      · exact ⟨g1, fun g => g3 ⟨g.1, g.2.1⟩⟩
      · refine ⟨⟨_, hp, ⟨g2, g3⟩, rfl, by rw [if_neg g1]⟩, ?_⟩
        rintro ⟨_, _, g⟩
        obtain ⟨pr', g⟩ := loc_iff.1 g
        exact (hat1.1 g).2 ⟨g2, g3⟩

/-- `takeOld` takes exactly one region. -/
theorem takeOld_exact {L : List (Entry Region)} {s : St} (T : Table L s) {old osz new nsz : Nat} {q : St × Region} (h : s.takeOld old osz new nsz = .ok q) :
    ∃ p ∈ L, p.1 = (old, old + osz) := by
  unfold St.takeOld at h
  rw [R.bind_eq_ok] at h
  obtain ⟨m, h1, h⟩ := h
  by_cases h0 : old < old + osz
  · unfold IMap.clear at h1
    rw [T.reg, splice_spec T.good h0] at h1
    cases h1
    simp only at h
    split at h
    · next i r e =>
      rw [R.bind_eq_ok] at h
      obtain ⟨_, h2, _⟩ := h
      rw [R.assert_eq_ok] at h2
      have hi : i = (old, old + osz) := by simpa using h2
      have hm : Mutation.removed i r ∈ L.filterMap (change old (old + osz)) := by rw [e]; simp
      obtain ⟨p, hp, hc⟩ := List.mem_filterMap.1 hm
      refine ⟨p, hp, ?_⟩
      unfold change at hc
      split at hc
      · cases hc
      · split at hc
        · split at hc <;> cases hc
        · split at hc
          · cases Option.some.inj hc
            exact hi
          · cases hc
    · cases h
  · unfold IMap.clear IMap.splice at h1
    rw [R.bind_eq_ok] at h1
    obtain ⟨_, h1, _⟩ := h1
    rw [R.assert_eq_ok] at h1
    simp at h1
    omega

theorem sMremap_eq (s : St) {old osz new nsz : Nat} (hp : 0 < s.page) (ho : osz % s.page = 0) (hn : nsz % s.page = 0) :
    sMremap s old osz new nsz = { s with shadow := fun y => if new ≤ y ∧ y < new + nsz then (s.shadow old).map (fun q => (q.1 + (y - new), q.2))
      else if old ≤ y ∧ y < old + osz then none else s.shadow y } := by
  unfold sMremap
  rw [pageUp_eq hp ho, pageUp_eq hp hn]

theorem nMremap_plugin (s : St) {old osz new nsz : Nat} {ext : Nat → Nat} (hp : 0 < s.page) (ho : osz % s.page = 0) (hn : nsz % s.page = 0) :
    (nMremap s old osz new nsz ext).plugin = fun x => if new ≤ x ∧ x < new + nsz then
        if x - new < osz then s.plugin (old + (x - new)) else grown (s.plugin old) (x - new) ext
      else if old ≤ x ∧ x < old + osz then none else s.plugin x := by
  unfold nMremap
  rw [pageUp_eq hp ho, pageUp_eq hp hn]

/-- Where the kernel may put a mapping of Shadow that grows from `n` bytes at `old` to `m` bytes. -/
def Room (s : St) (old n base m : Nat) : Prop :=
  base ≠ 0 ∧ base % s.page = 0 ∧ ∀ y, base ≤ y → y < base + m → s.shadow y = none ∨ (old ≤ y ∧ y < old + n)

/-- What becomes of the region, of the file, and of Shadow's mapping. -/
structure Adjusted (K : List (Entry Region)) (r r' : Region) (old osz new nsz : Nat) (t u : St) : Prop where
  prot : r'.prot = r.prot
  null : r'.base = 0 ↔ r.base = 0
  base : r'.base % t.page = 0
  own : Own (fun x pr y => At K x pr (some y) ∨ (r'.base ≠ 0 ∧ new ≤ x ∧ x < new + nsz ∧ pr = r.prot ∧ y = r'.base + (x - new))) u
  regions : u.regions = t.regions
  page : u.page = t.page
  mem : u.mem = t.mem
  heap : u.heap = t.heap
  plugin : ∀ x, u.plugin x = if (r.base ≠ 0 ∧ new ≠ old) ∧ (new ≤ x ∧ x < new + nsz) then some ⟨.shm x, r.prot⟩ else t.plugin x
  file : ∀ x, u.file x = if r.base = 0 then t.file x else if new ≤ x ∧ x < new + nsz then (if x - new < osz then t.file (old + (x - new)) else t.file x)
    else if old ≤ x ∧ x < old + osz then 0 else t.file x

theorem adjust_spec {K : List (Entry Region)} {t : St} {r : Region} {old osz new nsz base : Nat}
    (O : Own (fun x pr y => At K x pr (some y) ∨ (r.base ≠ 0 ∧ old ≤ x ∧ x < old + osz ∧ pr = r.prot ∧ y = r.base + (x - old))) t)
    (hK : ∀ q ∈ K, q.1.2 ≤ old ∨ old + osz ≤ q.1.1) (hpos : 0 < t.page) (ho : old % t.page = 0) (hos : osz % t.page = 0) (hn : new % t.page = 0) (hns : nsz % t.page = 0)
    (hrb : r.base % t.page = 0) (h0 : 0 < osz) (h1 : 0 < nsz) (hdis : new = old ∨ new + nsz ≤ old ∨ old + osz ≤ new)
    (hpath : r.base ≠ 0 → r.path = none) (hrw : r.base ≠ 0 → new ≠ old → r.prot.r = true ∧ r.prot.w = true)
    (hfresh : r.base ≠ 0 → new ≠ old → Fresh t base nsz) (hroom : r.base ≠ 0 → new = old → osz < nsz → Room t r.base osz base nsz) :
    ∃ u r', t.adjust r old osz new nsz base = .ok (u, r') ∧ Adjusted K r r' old osz new nsz t u := by
  unfold St.adjust
  by_cases hb : r.base = 0
  · rw [if_pos hb]
    refine ⟨t, r, rfl, rfl, Iff.rfl, hrb, ?_, rfl, rfl, rfl, rfl, ?_, ?_⟩
    · refine O.congr ?_
      intro x pr y
      simp [hb]
    · intro x
      rw [if_neg (fun g => g.1.1 hb)]
    · intro x
      rw [if_pos hb]
  rw [if_neg hb, hpath hb]
  simp only [decide_true, R.assert_true, R.bind_ok]
  have hKx : ∀ x pr y, At K x pr (some y) → ¬ (old ≤ x ∧ x < old + osz) := by
    rintro x pr y ⟨q, hq, hc, _⟩ hx
    have := hK q hq
    unfold Entry.covers at hc
    omega
  have O' : Own (fun x pr y => At K x pr (some y) ∨ (old ≤ x ∧ x < old + osz ∧ pr = r.prot ∧ y = r.base + (x - old))) t := by
    refine O.congr ?_
    intro x pr y
    simp [hb]
  by_cases hm : new = old
  · subst hm
    rw [if_neg (by simp)]
    by_cases hs : nsz < osz
    · rw [if_pos hs, dealloc_eq _ (by omega), R.bind_ok, sMremap_eq _ (by exact hpos) (by exact hos) (by exact hns)]
      refine ⟨_, r, rfl, rfl, Iff.rfl, hrb, ?_, rfl, rfl, rfl, rfl, ?_, ?_⟩
      · refine Own.congr (O'.remap (new := r.base) (m := nsz) h0 rfl (fun y g1 g2 => .inr ⟨g1, by omega⟩) ?_ (Nat.le_refl _) ?_ hKx) ?_
        · intro x
          simp only
          by_cases hx : new + nsz ≤ x ∧ x < new + osz
          · rw [if_pos hx]
            intro g; exact absurd rfl g
          · rw [if_neg hx]
            intro g; exact ⟨g, hx⟩
        · intro _
          have := O'.long (x := new + osz - 1) (.inr ⟨by omega, by omega, rfl, rfl⟩)
          simp only
          omega
        · intro x pr y
          simp [hb]
      · intro x
        rw [if_neg (fun g => g.1.2 rfl)]
      · intro x
        rw [if_neg hb]
        simp only
        by_cases hx : new ≤ x ∧ x < new + nsz
        · rw [if_neg (by omega), if_pos hx, if_pos (by omega), Nat.add_sub_cancel' hx.1]
        · rw [if_neg hx]
          by_cases hy : new + nsz ≤ x ∧ x < new + osz
          · rw [if_pos hy, if_pos (by omega)]
          · rw [if_neg hy, if_neg (by omega)]
    · rw [if_neg hs]
      by_cases hg : nsz > osz
      · rw [if_pos hg, alloc_eq, sMremap_eq _ (by exact hpos) (by exact hos) (by exact hns)]
        obtain ⟨f1, f2, f3⟩ := hroom hb rfl hg
        refine ⟨_, _, rfl, rfl, ⟨fun g => absurd g f1, fun g => absurd g hb⟩, f2, ?_, rfl, rfl, rfl, rfl, ?_, ?_⟩
        · refine Own.congr (O'.remap (new := base) (m := nsz) h0 rfl f3 ?_ ?_ ?_ hKx) ?_
          · intro x
            simp only
            intro g
            exact ⟨g, by omega⟩
          · simp only; omega
          · simp only; omega
          · intro x pr y
            simp [f1]
        · intro x
          rw [if_neg (fun g => g.1.2 rfl)]
        · intro x
          rw [if_neg hb]
          simp only
          by_cases hx : new ≤ x ∧ x < new + nsz
          · rw [if_pos hx]
            split
            · rw [Nat.add_sub_cancel' hx.1]
            · rfl
          · rw [if_neg hx, if_neg (by omega)]
      · rw [if_neg hg]
        have : nsz = osz := by omega
        subst this
        refine ⟨t, r, rfl, rfl, Iff.rfl, hrb, ?_, rfl, rfl, rfl, rfl, ?_, ?_⟩
        · refine O'.congr ?_
          intro x pr y
          simp [hb]
        · intro x
          rw [if_neg (fun g => g.1.2 rfl)]
        · intro x
          rw [if_neg hb]
          by_cases hx : new ≤ x ∧ x < new + nsz
          · rw [if_pos hx, if_pos (by omega), Nat.add_sub_cancel' hx.1]
          · rw [if_neg hx, if_neg hx]
  · rw [if_pos hm]
    have hdis' : new + nsz ≤ old ∨ old + osz ≤ new := by
      rcases hdis with g | g
      · exact absurd g hm
      · exact g
    obtain ⟨f1, f2, f3⟩ := hfresh hb hm
    obtain ⟨w1, w2⟩ := hrw hb hm
    unfold St.moveRegion
    have e1 : (!(decide (new ≤ old) && decide (old < new + nsz))) = true := by
      simp only [Bool.not_eq_true', Bool.and_eq_false_iff, decide_eq_false_iff_not]
      omega
    have e2 : (!(decide (old ≤ new) && decide (new < old + osz))) = true := by
      simp only [Bool.not_eq_true', Bool.and_eq_false_iff, decide_eq_false_iff_not]
      omega
    rw [e1, e2]
    simp only [R.assert_true, R.bind_ok]
    have hb2 : (new + nsz) % t.page = 0 := mod_add hn hns
    rw [alloc_eq, mmapIntoPlugin_eq _ _ (by exact hpos) (by exact hn) (by exact hb2) (by omega), R.bind_ok]
    have hab : new < new + nsz := by omega
    rw [mmapIntoShadow_eq _ _ (by exact hpos) (by exact hn) (by exact hb2) hab, R.bind_ok]
    have O1 := O'.add (base := base) (pr0 := r.prot) (a := new) (b := new + nsz) (t := { t with len := max t.len (new + nsz), plugin := fun x => if new ≤ x ∧ x < new + nsz then some ⟨.shm x, r.prot⟩ else t.plugin x, shadow := fun y => if base ≤ y ∧ y < base + (new + nsz - new) then some (new + (y - base), r.prot) else t.shadow y })
        (by simp only; omega) rfl (fun y g1 g2 => f3 y g1 (by omega)) (fun _ _ => rfl)
    have hlt : ∀ x pr y, (At K x pr (some y) ∨ (old ≤ x ∧ x < old + osz ∧ pr = r.prot ∧ y = r.base + (x - old))) ∨ (new ≤ x ∧ x < new + nsz ∧ pr = r.prot ∧ y = base + (x - new)) →
        x < pageUp t.page (max t.len (new + nsz)) := by
      intro x pr y g
      exact Nat.lt_of_lt_of_le (O1.long g) (le_pageUp hpos)
    rw [peek_eq _ (o := old) (pr := r.prot) (y := r.base)
      (fun i hi => O1.here (.inl (.inr ⟨by omega, by omega, rfl, by omega⟩))) w1
      (fun i hi => hlt _ r.prot (r.base + i) (.inl (.inr ⟨by omega, by omega, rfl, by omega⟩))), R.bind_ok,
      poke_eq _ (o := new) (pr := r.prot) (y := base)
      (fun i hi => O1.here (.inr (by simp at hi; exact ⟨by omega, by omega, rfl, by omega⟩))) w2
      (fun i hi => hlt _ r.prot (base + i) (.inr (by simp at hi; exact ⟨by omega, by omega, rfl, by omega⟩))), R.bind_ok]
    rw [sMunmap_eq _ (by exact hpos) (by exact hrb) (by exact hos), dealloc_eq _ (by omega), R.bind_ok]
    have hfile : ∀ x, ((fun x => if new ≤ x ∧ x < new + ((List.range (min osz nsz)).map (fun i => t.file (old + i))).length then
        ((List.range (min osz nsz)).map (fun i => t.file (old + i))).getD (x - new) 0 else t.file x) : Nat → Nat) x =
        if new ≤ x ∧ x < new + min osz nsz then t.file (old + (x - new)) else t.file x := by
      intro x
      simp only [List.length_map, List.length_range]
      by_cases hx : new ≤ x ∧ x < new + min osz nsz
      · rw [if_pos hx, if_pos hx, List.getD_eq_getElem?_getD, List.getElem?_map, List.getElem?_range (by omega)]
        rfl
      · rw [if_neg hx, if_neg hx]
    refine ⟨_, _, rfl, rfl, ⟨fun g => absurd g f1, fun g => absurd g hb⟩, f2, ?_, rfl, rfl, rfl, rfl, ?_, ?_⟩
    · -- the old place is given up
      have O2 : Own (fun x pr y => (At K x pr (some y) ∨ (new ≤ x ∧ x < new + nsz ∧ pr = r.prot ∧ y = base + (x - new))) ∨ (old ≤ x ∧ x < old + osz ∧ pr = r.prot ∧ y = r.base + (x - old)))
          { t with len := max t.len (new + nsz), plugin := fun x => if new ≤ x ∧ x < new + nsz then some ⟨.shm x, r.prot⟩ else t.plugin x, shadow := fun y => if base ≤ y ∧ y < base + (new + nsz - new) then some (new + (y - base), r.prot) else t.shadow y, file := fun x => if new ≤ x ∧ x < new + ((List.range (min osz nsz)).map (fun i => t.file (old + i))).length then
              ((List.range (min osz nsz)).map (fun i => t.file (old + i))).getD (x - new) 0 else t.file x } := by
        refine Own.congr (A := fun x pr y => (At K x pr (some y) ∨ (old ≤ x ∧ x < old + osz ∧ pr = r.prot ∧ y = r.base + (x - old))) ∨
          (new ≤ x ∧ x < new + nsz ∧ pr = r.prot ∧ y = base + (x - new))) ?_ ?_
        · refine O'.add (by simp only; omega) rfl (fun y g1 g2 => f3 y g1 (by omega)) ?_
          intro x hx
          have := hfile x
          simp only at this ⊢
          rw [this, if_neg (by omega)]
        · intro x pr y
          constructor
          · rintro ((g | g) | g)
            · exact .inl (.inl g)
            · exact .inr g
            · exact .inl (.inr g)
          · rintro ((g | g) | g)
            · exact .inl (.inl g)
            · exact .inr g
            · exact .inl (.inr g)
      refine Own.congr (O2.remap (new := 0) (m := 0) h0 ?_ (fun y g1 g2 => by omega) ?_ ?_ (fun g => absurd rfl g) ?_) ?_
      · funext y
        simp only
        rw [if_neg (c := 0 ≤ y ∧ y < 0 + 0) (by omega)]
      · intro x
        simp only
        by_cases hx : old ≤ x ∧ x < old + osz
        · rw [if_pos hx]
          intro g; exact absurd rfl g
        · rw [if_neg hx]
          intro g; exact ⟨g, by omega⟩
      · simp
      · rintro x pr y (g | g)
        · exact hKx x pr y g
        · omega
      · intro x pr y
        constructor
        · rintro ((g | g) | g)
          · exact .inl g
          · exact .inr ⟨f1, g⟩
          · omega
        · rintro (g | g)
          · exact .inl (.inl g)
          · exact .inl (.inr g.2)
    · intro x
      simp only
      by_cases hx : new ≤ x ∧ x < new + nsz
      · rw [if_pos hx, if_pos ⟨⟨hb, hm⟩, hx⟩]
      · rw [if_neg hx, if_neg (fun g => hx g.2)]
    · intro x
      have := hfile x
      simp only at this ⊢
      rw [this, if_neg hb]
      by_cases hx : new ≤ x ∧ x < new + nsz
      · rw [if_pos hx, if_neg (by omega)]
        by_cases hy : x - new < osz
        · rw [if_pos hy, if_pos (by omega)]
        · rw [if_neg hy, if_neg (by omega)]
      · rw [if_neg hx]
        by_cases hy : old ≤ x ∧ x < old + osz
        · rw [if_pos hy, if_pos hy]
        · rw [if_neg hy, if_neg hy, if_neg (by omega)]

theorem mremap_ok {L : List (Entry Region)} {s : St} (hI : Inv L s) {old osz new nsz base : Nat} {maymove : Bool} {ext : Nat → Nat} {p : Entry Region} (hp : p ∈ L)
    (hpe : p.1 = (old, old + osz)) (hn : new % s.page = 0) (hns : nsz % s.page = 0) (h1 : 0 < nsz) (hdis : new = old ∨ new + nsz ≤ old ∨ old + osz ≤ new)
    (hpath : p.2.base ≠ 0 → p.2.path = none) (hrw : p.2.base ≠ 0 → new ≠ old → p.2.prot.r = true ∧ p.2.prot.w = true)
    (hbase : ∀ t r, (nMremap s old osz new nsz ext).takeOld old osz new nsz = .ok (t, r) → r.base ≠ 0 →
      (new ≠ old → Fresh t base nsz) ∧ (new = old → osz < nsz → Room t r.base osz base nsz)) :
    ∃ t, s.mremap old osz nsz maymove (some new) base ext = .ok t ∧ Done L (fun x => (old ≤ x ∧ x < old + osz) ∨ (new ≤ x ∧ x < new + nsz)) s t (moved (view s) s.mem old osz new nsz ext) s.heap := by
  have hpos := hI.table.al.pos
  have hpp := hI.table.good.ne p hp
  have ho : old % s.page = 0 := by have := hI.table.al.s p hp; rwa [hpe] at this
  have hoe : (old + osz) % s.page = 0 := by have := hI.table.al.e p hp; rwa [hpe] at this
  have hos : osz % s.page = 0 := by have := mod_sub hoe ho; rwa [Nat.add_sub_cancel_left] at this
  have h0 : 0 < osz := by rw [hpe] at hpp; simp only at hpp; omega
  have T : Table L (nMremap s old osz new nsz ext) := ⟨hI.table.reg, hI.table.good, hI.table.al⟩
  obtain ⟨t, K, e1, F, TK, hL, hfile, O⟩ := takeOld_spec T (hI.own.state rfl rfl (Nat.le_refl _)) hp (new := new) (nsz := nsz) hpe h1 hn hns
  obtain ⟨u, r', e2, A⟩ := adjust_spec (base := base) (nsz := nsz) (new := new) O (fun q hq => by have := hL.old q hq; rwa [hpe] at this) (by rw [F.page]; exact hpos) (by rw [F.page]; exact ho)
    (by rw [F.page]; exact hos) (by rw [F.page]; exact hn) (by rw [F.page]; exact hns) (by rw [F.page]; exact hI.table.al.base p hp) h0 h1 hdis hpath hrw
    (fun hb hm => (hbase t _ e1 hb).1 hm) (fun hb hm => (hbase t _ e1 hb).2 hm)
  have hab : new < new + nsz := by omega
  have hplug : ∀ x, u.plugin x = if (p.2.base ≠ 0 ∧ new ≠ old) ∧ (new ≤ x ∧ x < new + nsz) then some ⟨.shm x, p.2.prot⟩ else
      if new ≤ x ∧ x < new + nsz then (if x - new < osz then s.plugin (old + (x - new)) else grown (s.plugin old) (x - new) ext)
      else if old ≤ x ∧ x < old + osz then none else s.plugin x := by
    intro x
    rw [A.plugin, F.plugin, nMremap_plugin s hpos hos hns]
  have hupg : u.page = s.page := A.page.trans F.page
  have hcov : ∀ i, i < osz → At L (old + i) p.2.prot (if p.2.base = 0 then none else some (p.2.base + (old + i - p.1.1))) := by
    intro i hi
    refine ⟨p, hp, ?_, rfl, rfl⟩
    unfold Entry.covers
    rw [hpe]
    simp only
    omega
  have hin : ∀ x, new ≤ x → x < new + nsz → p.2.base ≠ 0 → u.plugin x = some ⟨.shm x, p.2.prot⟩ := by
    intro x g1 g2 hb
    rw [hplug]
    by_cases hm : new = old
    · rw [if_neg (fun g => g.1.2 hm), if_pos ⟨g1, g2⟩]
      subst hm
      by_cases hx : x - new < osz
      · rw [if_pos hx]
        have := hcov (x - new) hx
        rw [if_neg hb] at this
        rw [hI.prog.here this, Nat.add_sub_cancel' g1]
      · rw [if_neg hx]
        have := hcov 0 h0
        rw [if_neg hb] at this
        have := hI.prog.here this
        rw [Nat.add_zero] at this
        rw [this]
        unfold grown
        simp only
        rw [Nat.add_sub_cancel' g1]
    · rw [if_pos ⟨⟨hb, hm⟩, g1, g2⟩]
  have hin0 : ∀ x, new ≤ x → x < new + nsz → p.2.base = 0 →
      u.plugin x = if x - new < osz then s.plugin (old + (x - new)) else grown (s.plugin old) (x - new) ext := by
    intro x g1 g2 hb
    rw [hplug, if_neg (fun g => g.1.1 hb), if_pos ⟨g1, g2⟩]
  have hout : ∀ x, ¬ (new ≤ x ∧ x < new + nsz) → u.plugin x = if old ≤ x ∧ x < old + osz then none else s.plugin x := by
    intro x hx
    rw [hplug, if_neg (fun g => hx g.2), if_neg hx]
  refine ⟨{ u with regions := ofList (put K new (new + nsz) r') }, ?_, ⟨put K new (new + nsz) r', ⟨⟨rfl, good_put TK.good hab _, ?_⟩, ?_, ?_, ?_⟩, ?_⟩, ?_, hupg, ?_, ?_⟩
  · unfold St.mremap
    simp only
    rw [if_neg (by simp; omega), e1, R.bind_ok]
    simp only
    rw [e2, R.bind_ok]
    exact insertNew_gap (A.regions.trans TK.reg) TK.good hab hL.new r'
  · refine aligned_put ?_ ?_ ?_ ?_
    · rw [show _ = _ from A.page]; exact TK.al
    · rw [show _ = _ from hupg]; exact hn
    · rw [show _ = _ from hupg]; exact mod_add hn hns
    · rw [show _ = _ from A.page]; exact A.base
  · have O2 : Own (fun x pr y => At K x pr (some y) ∨ (r'.base ≠ 0 ∧ new ≤ x ∧ x < new + nsz ∧ pr = p.2.prot ∧ y = r'.base + (x - new)))
        { u with regions := ofList (put K new (new + nsz) r') } := A.own.state rfl rfl (Nat.le_refl _)
    by_cases hb : r'.base = 0
    · refine own_put_null TK.good hab hL.new hb (O2.congr ?_)
      intro x pr y
      simp [hb]
    · refine own_put TK.good hab hL.new hb (O2.congr ?_)
      intro x pr y
      rw [A.prot]
      simp [hb]
  · refine Prog.put (P := fun x => if (new ≤ x ∧ x < new + nsz) ∨ (old ≤ x ∧ x < old + osz) then none else s.plugin x) ?_ TK.good hab ?_ ?_ ?_
    · refine ⟨?_, ?_, ?_⟩
      · intro x pr y g
        obtain ⟨g1, g2, g3⟩ := hL.at_.1 g
        rw [hpe] at g2
        rw [if_neg (by simp only at g2; omega)]
        exact hI.prog.here g1
      · intro x pr g
        obtain ⟨g1, g2, g3⟩ := hL.at_.1 g
        rw [hpe] at g2
        rw [if_neg (by simp only at g2; omega)]
        exact hI.prog.there g1
      · intro x m g
        by_cases hx : (new ≤ x ∧ x < new + nsz) ∨ (old ≤ x ∧ x < old + osz)
        · rw [if_pos hx] at g; cases g
        · rw [if_neg hx] at g
          obtain ⟨pr, l, g⟩ := hI.prog.all g
          refine ⟨pr, l, hL.at_.2 ⟨g, ?_, fun h => hx (.inl h)⟩⟩
          rw [hpe]
          exact fun h => hx (.inr h)
    · intro hb x g1 g2
      rw [A.prot]
      exact hin x g1 g2 (fun g => hb (A.null.2 g))
    · intro hb x g1 g2
      have hb := A.null.1 hb
      simp only
      rw [hin0 x g1 g2 hb, A.prot]
      by_cases hx : x - new < osz
      · rw [if_pos hx]
        have := hcov (x - new) hx
        rw [if_pos hb] at this
        exact hI.prog.there this
      · rw [if_neg hx]
        have := hcov 0 h0
        rw [if_pos hb] at this
        obtain ⟨c, e⟩ := hI.prog.there this
        rw [Nat.add_zero] at e
        rw [e]
        exact ⟨ext (x - new), rfl⟩
    · intro x hx
      simp only
      rw [hout x hx]
      by_cases hy : old ≤ x ∧ x < old + osz
      · rw [if_pos hy, if_pos (.inr hy)]
      · rw [if_neg hy, if_neg (by omega)]
  · have e : u.heap = s.heap := A.heap.trans F.heap
    simp only [hupg, e]
    exact hI.heap
  · intro q hq h
    refine keep_put TK.good hab (hL.keep q hq ?_ ?_) (fun x hx g => h x hx (.inr g)) _
    · intro x hx g
      rw [hpe] at g
      exact h x hx (.inl g)
    · exact fun x hx g => h x hx (.inr g)
  · exact A.mem.trans F.mem
  · exact A.heap.trans F.heap
  · have hmem : u.mem = s.mem := A.mem.trans F.mem
    funext x
    unfold moved
    by_cases hx : new ≤ x ∧ x < new + nsz
    · rw [if_pos hx]
      by_cases hb : p.2.base = 0
      · have hu := hin0 x hx.1 hx.2 hb
        by_cases hy : x - new < osz
        · rw [if_pos hy] at hu ⊢
          have := hcov (x - new) hy
          rw [if_pos hb] at this
          obtain ⟨c, e⟩ := hI.prog.there this
          unfold view
          simp only [hu, e, hmem]
        · rw [if_neg hy] at hu ⊢
          have := hcov 0 h0
          rw [if_pos hb] at this
          obtain ⟨c, e⟩ := hI.prog.there this
          rw [Nat.add_zero] at e
          rw [e] at hu
          unfold grown at hu
          unfold view
          simp only [hu, e, hmem, Option.map_some]
          rfl
      · have hu := hin x hx.1 hx.2 hb
        by_cases hy : x - new < osz
        · rw [if_pos hy]
          have := hcov (x - new) hy
          rw [if_neg hb] at this
          have e := hI.prog.here this
          unfold view
          simp only [hu, e]
          rw [A.file, if_neg hb, if_pos hx, if_pos hy, hfile, if_neg (by omega)]
          rfl
        · rw [if_neg hy]
          have := hcov 0 h0
          rw [if_neg hb] at this
          have e := hI.prog.here this
          rw [Nat.add_zero] at e
          unfold view
          simp only [hu, e, Option.map_some]
          rw [A.file, if_neg hb, if_pos hx, if_neg hy, hfile, if_pos (by omega)]
          rfl
    · rw [if_neg hx]
      have hu := hout x hx
      by_cases hy : old ≤ x ∧ x < old + osz
      · rw [if_pos hy] at hu ⊢
        unfold view
        simp only [hu]
      · rw [if_neg hy] at hu ⊢
        refine view_eq hu hmem ?_
        intro o p' e
        rw [(hI.prog.off e).1]
        simp only
        rw [A.file]
        by_cases hb : p.2.base = 0
        · rw [if_pos hb, hfile, if_neg (by omega)]; rfl
        · rw [if_neg hb, if_neg hx, if_neg hy, hfile, if_neg (by omega)]; rfl

/-- A mapping that other mappings share is duplicated. -/
theorem duplicate_ok {L : List (Entry Region)} {s : St} (hI : Inv L s) {old new nsz base : Nat} {ext : Nat → Nat} {p : Entry Region} (hp : p ∈ L)
    (hpc : p.covers old) (hpriv : p.2.priv = false) (hb : p.2.base = 0) (hn : new % s.page = 0) (hns : nsz % s.page = 0) (h1 : 0 < nsz) :
    ∃ t, s.mremap old 0 nsz true (some new) base ext = .ok t ∧ Done L (fun x => (old ≤ x ∧ x < old + 0) ∨ (new ≤ x ∧ x < new + nsz)) s t (moved (view s) s.mem old 0 new nsz ext) s.heap := by
  have hpos := hI.table.al.pos
  have hab : new < new + nsz := by omega
  have T : Table L (nMremap s old 0 new nsz ext) := ⟨hI.table.reg, hI.table.good, hI.table.al⟩
  obtain ⟨m, t, h2, h3, F, hr, hf⟩ := insertOver_spec T.good T.al T.reg hab hn (mod_add hn hns) p.2
  have hplug : t.plugin = fun x => if new ≤ x ∧ x < new + nsz then grown (s.plugin old) (x - new) ext else s.plugin x := by
    rw [F.plugin, nMremap_plugin s hpos (by simp) hns]
    funext x
    simp only [Nat.not_lt_zero, if_false]
    by_cases hx : new ≤ x ∧ x < new + nsz
    · rw [if_pos hx, if_pos hx]
    · rw [if_neg hx, if_neg hx, if_neg (by omega)]
  obtain ⟨c, hc⟩ := hI.prog.there (x := old) (pr := p.2.prot) ⟨p, hp, hpc, rfl, by rw [if_pos hb]⟩
  have hown : Own (fun x pr y => At L x pr (some y)) (nMremap s old 0 new nsz ext) := hI.own.state rfl rfl (Nat.le_refl _)
  have hfile := hown.freed_file hf
  refine ⟨t, ?_, ⟨put L new (new + nsz) p.2, ⟨⟨hr, good_put hI.table.good hab _, ?_⟩, ?_, ?_, ?_⟩,
    fun q hq h => keep_put hI.table.good hab hq (fun x hx g => h x hx (.inr g)) _⟩, F.mem, F.page, F.heap, ?_⟩
  · unfold St.mremap
    simp only [Bool.true_and, decide_true, if_true]
    unfold St.duplicate
    have e : find (nMremap s old 0 new nsz ext).regions old = .ok p := by
      rw [T.reg]
      exact find_spec T.good hp hpc
    rw [e, R.bind_ok, hpriv, hb]
    simp only [Bool.not_false, decide_true, R.assert_true, R.bind_ok]
    rw [h2, R.bind_ok]
    exact h3
  · rw [F.page]
    exact aligned_put hI.table.al hn (mod_add hn hns) (hI.table.al.base p hp)
  · refine (hown.freed hf F.len loc_at).congr ?_
    intro x pr y
    rw [at_put hI.table.good hab, if_pos hb]
    constructor
    · rintro ⟨g1, g2⟩
      exact .inl ⟨g1, fun g3 => g2 ⟨g3.1, g3.2, loc_iff.2 ⟨pr, g1⟩⟩⟩
    · rintro (⟨g1, g2⟩ | ⟨_, _, _, g⟩)
      · exact ⟨g1, fun g3 => g2 ⟨g3.1, g3.2.1⟩⟩
      · cases g
  · refine Prog.put hI.prog hI.table.good hab (fun g => absurd hb g) ?_ ?_
    · intro _ x g1 g2
      rw [hplug]
      refine ⟨ext (x - new), ?_⟩
      simp only
      rw [if_pos ⟨g1, g2⟩, hc]
      rfl
    · intro x hx
      rw [hplug]
      exact if_neg hx
  · rw [F.heap, F.page]
    exact hI.heap
  · funext x
    unfold moved
    by_cases hx : new ≤ x ∧ x < new + nsz
    · rw [if_pos hx, if_neg (by omega)]
      unfold view
      simp only [hplug, if_pos hx, hc, grown, F.mem, Option.map_some]
      rfl
    · rw [if_neg hx, if_neg (by omega)]
      refine view_eq (by rw [hplug]; exact if_neg hx) F.mem ?_
      intro o p' e
      rw [(hI.prog.off e).1, hfile, if_neg hx]
      rfl

/-! ## When the mapper carries out the call -/

theorem duplicate_inv {L : List (Entry Region)} {s : St} (hI : Inv L s) {old new nsz base : Nat} {ext : Nat → Nat} {t : St}
    (h : s.mremap old 0 nsz true (some new) base ext = .ok t) : ∃ p ∈ L, p.covers old ∧ p.2.priv = false ∧ p.2.base = 0 := by
  unfold St.mremap at h
  simp only [Bool.true_and, decide_true, if_true] at h
  unfold St.duplicate at h
  rw [R.bind_eq_ok] at h
  obtain ⟨p, h1, h⟩ := h
  have hr : (nMremap s old 0 new nsz ext).regions = ofList L := hI.table.reg
  rw [hr] at h1
  by_cases hx : ∃ q ∈ L, q.covers old
  · obtain ⟨q, hq, hc⟩ := hx
    rw [find_spec hI.table.good hq hc] at h1
    cases h1
    rw [R.bind_eq_ok] at h
    obtain ⟨_, h2, h⟩ := h
    rw [R.bind_eq_ok] at h
    obtain ⟨_, h3, h⟩ := h
    rw [R.assert_eq_ok] at h2 h3
    exact ⟨p, hq, hc, by simpa using h2, by simpa using h3⟩
  · rw [find_none hI.table.good (fun p hp hc => hx ⟨p, hp, hc⟩)] at h1
    cases h1

theorem peek_readable {s : St} {y n : Nat} {l : List Nat} (h : s.peek y n = .ok l) (hn : 0 < n) {m : Nat × Prot} (hm : s.shadow y = some m) : m.2.r = true := by
  cases n with
  | zero => omega
  | succ n =>
    unfold St.peek at h
    rw [R.bind_eq_ok] at h
    obtain ⟨v, h, _⟩ := h
    unfold St.peek1 at h
    rw [hm] at h
    simp only at h
    split at h
    · next hc =>
      rw [Bool.and_eq_true] at hc
      exact hc.1
    · cases h

theorem peek_length {s : St} {y n : Nat} {l : List Nat} (h : s.peek y n = .ok l) : l.length = n := by
  induction n generalizing y l with
  | zero =>
    unfold St.peek at h
    cases h
    rfl
  | succ n ih =>
    unfold St.peek at h
    rw [R.bind_eq_ok] at h
    obtain ⟨v, _, h⟩ := h
    rw [R.bind_eq_ok] at h
    obtain ⟨l', h', h⟩ := h
    cases h
    simp [ih h']

theorem poke_writable {s t : St} {y : Nat} {l : List Nat} (h : s.poke y l = .ok t) (hn : 0 < l.length) {m : Nat × Prot} (hm : s.shadow y = some m) : m.2.w = true := by
  cases l with
  | nil => simp at hn
  | cons v l =>
    unfold St.poke at h
    rw [R.bind_eq_ok] at h
    obtain ⟨v, h, _⟩ := h
    unfold St.poke1 at h
    rw [hm] at h
    simp only at h
    split at h
    · next hc =>
      rw [Bool.and_eq_true] at hc
      exact hc.1
    · cases h

theorem mremap_inv {L : List (Entry Region)} {s : St} (hI : Inv L s) {old osz new nsz base : Nat} {maymove : Bool} {ext : Nat → Nat} {t' : St}
    (h : s.mremap old osz nsz maymove (some new) base ext = .ok t') (h0 : osz ≠ 0) (hn : new % s.page = 0) (hns : nsz % s.page = 0) (h1 : 0 < nsz)
    (hbase : ∀ t r, (nMremap s old osz new nsz ext).takeOld old osz new nsz = .ok (t, r) → r.base ≠ 0 → new ≠ old → Fresh t base nsz) :
    ∃ p ∈ L, p.1 = (old, old + osz) ∧ (p.2.base ≠ 0 → p.2.path = none) ∧ (p.2.base ≠ 0 → new ≠ old → p.2.prot.r = true ∧ p.2.prot.w = true) := by
  have hpos := hI.table.al.pos
  have T : Table L (nMremap s old osz new nsz ext) := ⟨hI.table.reg, hI.table.good, hI.table.al⟩
  unfold St.mremap at h
  simp only at h
  rw [if_neg (by simp [h0]), R.bind_eq_ok] at h
  obtain ⟨q, h2, h⟩ := h
  rw [R.bind_eq_ok] at h
  obtain ⟨q', h3, _⟩ := h
  obtain ⟨p, hp, hpe⟩ := takeOld_exact T h2
  obtain ⟨t, K, e1, F, TK, hL, hfile, O⟩ := takeOld_spec T (hI.own.state rfl rfl (Nat.le_refl _)) hp (new := new) (nsz := nsz) hpe h1 hn hns
  rw [e1] at h2
  cases h2
  simp only at h3
  have ht : t.page = s.page := F.page
  refine ⟨p, hp, hpe, ?_, ?_⟩
  · intro hb
    unfold St.adjust at h3
    rw [if_neg hb, R.bind_eq_ok] at h3
    obtain ⟨_, h3, _⟩ := h3
    rw [R.assert_eq_ok] at h3
    simpa using h3
  · intro hb hm
    unfold St.adjust at h3
    rw [if_neg hb, R.bind_eq_ok] at h3
    obtain ⟨_, _, h3⟩ := h3
    rw [if_pos hm] at h3
    unfold St.moveRegion at h3
    rw [R.bind_eq_ok] at h3
    obtain ⟨_, _, h3⟩ := h3
    rw [R.bind_eq_ok] at h3
    obtain ⟨_, _, h3⟩ := h3
    obtain ⟨f1, f2, f3⟩ := hbase t _ e1 hb hm
    have hb2 : (new + nsz) % t.page = 0 := by rw [ht]; exact mod_add hn hns
    have hn' : new % t.page = 0 := by rw [ht]; exact hn
    have hpos' : 0 < t.page := by rw [ht]; exact hpos
    have hab : new < new + nsz := by omega
    simp only at h3
    rw [alloc_eq, mmapIntoPlugin_eq _ _ (by exact hpos') (by exact hn') (by exact hb2) hab, R.bind_ok,
      mmapIntoShadow_eq _ _ (by exact hpos') (by exact hn') (by exact hb2) hab, R.bind_ok] at h3
    rw [R.bind_eq_ok] at h3
    obtain ⟨l, h4, h3⟩ := h3
    rw [R.bind_eq_ok] at h3
    obtain ⟨u, h5, _⟩ := h3
    have hs : t.shadow p.2.base = some (old, p.2.prot) := O.here (.inr ⟨hb, Nat.le_refl _, by omega, rfl, by omega⟩)
    have hlen := peek_length h4
    refine ⟨?_, ?_⟩
    · refine peek_readable h4 (by omega) (m := (old, p.2.prot)) ?_
      simp only
      rw [if_neg, hs]
      rintro ⟨g1, g2⟩
      rw [f3 _ g1 (by omega)] at hs
      cases hs
    · refine poke_writable h5 (by omega) (m := (new, p.2.prot)) ?_
      simp only
      rw [if_pos (by omega)]
      simp

end Shadow.MemMap
