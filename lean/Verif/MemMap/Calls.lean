import Verif.MemMap.Own

/-!
# `mmap`, `munmap`, `mprotect`, and accesses
-/
namespace Shadow.MemMap

open Shadow.Base Shadow.IntervalMap

/-- An address in Shadow that the kernel may choose for a new mapping. -/
def Fresh (s : St) (base n : Nat) : Prop := base ≠ 0 ∧ base % s.page = 0 ∧ ∀ y, base ≤ y → y < base + n → s.shadow y = none

/-- A call went well: the invariant, what the program sees, and the regions outside `W` stay as they are. -/
structure Done (L : List (Entry Region)) (W : Nat → Prop) (s t : St) (V : View) (heap : Nat × Nat) : Prop where
  inv : ∃ L', Inv L' t ∧ ∀ p ∈ L, (∀ x, p.covers x → ¬ W x) → p ∈ L'
  mem : t.mem = s.mem
  page : t.page = s.page
  heap : t.heap = heap
  view : view t = V

theorem apart {p : Entry Region} (hp : p.1.1 < p.1.2) {a b : Nat} (hab : a < b) (h : ∀ x, p.covers x → ¬ (a ≤ x ∧ x < b)) : p.1.2 ≤ a ∨ b ≤ p.1.1 := by
  have := h (max p.1.1 a)
  unfold Entry.covers at this
  omega

theorem keep_cut {L : List (Entry Region)} (hL : Good L) {a b : Nat} (hab : a < b) {p : Entry Region} (hp : p ∈ L) (h : ∀ x, p.covers x → ¬ (a ≤ x ∧ x < b)) : p ∈ cut L a b := by
  have hne := hL.ne p hp
  rcases apart hne hab h with g | g
  · refine mem_cut.2 (.inl ⟨p, hp, by omega, ?_⟩)
    rw [Nat.min_eq_left g]
  · refine mem_cut.2 (.inr ⟨p, hp, by omega, ?_⟩)
    rw [Nat.max_eq_left g, Nat.sub_self, shift_zero]

theorem keep_put {L : List (Entry Region)} (hL : Good L) {a b : Nat} (hab : a < b) {p : Entry Region} (hp : p ∈ L) (h : ∀ x, p.covers x → ¬ (a ≤ x ∧ x < b)) (r : Region) :
    p ∈ put L a b r := mem_put.2 (.inl (keep_cut hL hab hp h))

theorem keep_guarded {L : List (Entry Region)} (hL : Good L) {a b : Nat} (hab : a < b) {p : Entry Region} (hp : p ∈ L) (h : ∀ x, p.covers x → ¬ (a ≤ x ∧ x < b)) (pr : Prot) :
    p ∈ guarded L a b pr := by
  have hne := hL.ne p hp
  refine List.mem_flatMap.2 ⟨p, hp, mem_parts.2 ?_⟩
  rcases apart hne hab h with g | g
  · refine .inl (mem_before.2 ⟨by omega, ?_⟩)
    rw [Nat.min_eq_left g]
  · refine .inr (.inr (mem_after'.2 ⟨by omega, ?_⟩))
    rw [Nat.max_eq_left g, Nat.sub_self, shift_zero]

theorem clear_own {L : List (Entry Region)} {s : St} (T : Table L s) (O : Own (fun x pr y => At L x pr (some y)) s) {a b : Nat} (hab : a < b)
    (ha : a % s.page = 0) (hb : b % s.page = 0) :
    ∃ t, s.clearOut a b = .ok t ∧ Frame s t ∧ Table (cut L a b) t ∧ Own (fun x pr y => At (cut L a b) x pr (some y)) t ∧
      ∀ x, t.file x = if a ≤ x ∧ x < b then 0 else s.file x := by
  obtain ⟨t, h1, h2, h3, h4⟩ := clearOut_spec T.good T.al T.reg hab ha hb
  refine ⟨t, h1, h2, ⟨h3, good_cut T.good hab, by rw [h2.page]; exact aligned_cut T.al ha hb⟩, ?_, O.freed_file h4⟩
  refine (O.freed h4 h2.len loc_at).congr ?_
  intro x pr y
  rw [at_cut T.good hab]
  constructor
  · rintro ⟨g1, g2⟩
    exact ⟨g1, fun g3 => g2 ⟨g3.1, g3.2, loc_iff.2 ⟨pr, g1⟩⟩⟩
  · rintro ⟨g1, g2⟩
    exact ⟨g1, fun g3 => g2 ⟨g3.1, g3.2.1⟩⟩

theorem cut_gap {L : List (Entry Region)} {a b : Nat} : ∀ p ∈ cut L a b, p.1.2 ≤ a ∨ b ≤ p.1.1 := by
  intro q hq
  rcases mem_cut.1 hq with ⟨p, _, _, rfl⟩ | ⟨p, _, _, rfl⟩
  · simp only; omega
  · simp only; omega

theorem insertNew_gap {L : List (Entry Region)} {s : St} (hr : s.regions = ofList L) (hL : Good L) {a b : Nat} (hab : a < b) (hd : ∀ p ∈ L, p.1.2 ≤ a ∨ b ≤ p.1.1) (r : Region) :
    s.insertNew a b r = .ok { s with regions := ofList (put L a b r) } := by
  unfold St.insertNew
  rw [hr, insert_gap hL hab hd, R.bind_ok]
  rfl

/-- An address is at most once in Shadow's address space, so a region that is put into a gap adds what it maps. -/
theorem own_put {L : List (Entry Region)} {s : St} (hL : Good L) {a b : Nat} (hab : a < b) (hd : ∀ p ∈ L, p.1.2 ≤ a ∨ b ≤ p.1.1) {r : Region} (hb : r.base ≠ 0)
    (h : Own (fun x pr y => At L x pr (some y) ∨ (a ≤ x ∧ x < b ∧ pr = r.prot ∧ y = r.base + (x - a))) s) : Own (fun x pr y => At (put L a b r) x pr (some y)) s := by
  refine h.congr ?_
  intro x pr y
  rw [at_put hL hab, if_neg hb]
  constructor
  · rintro (g | ⟨g1, g2, rfl, rfl⟩)
    · refine .inl ⟨g, fun hx => ?_⟩
      obtain ⟨p, hp, hc, _⟩ := g
      have := hd p hp
      unfold Entry.covers at hc
      omega
    · exact .inr ⟨g1, g2, rfl, rfl⟩
  · rintro (⟨g, _⟩ | ⟨g1, g2, rfl, g3⟩)
    · exact .inl g
    · exact .inr ⟨g1, g2, rfl, Option.some.inj g3⟩

theorem own_put_null {L : List (Entry Region)} {s : St} (hL : Good L) {a b : Nat} (hab : a < b) (hd : ∀ p ∈ L, p.1.2 ≤ a ∨ b ≤ p.1.1) {r : Region} (hb : r.base = 0)
    (h : Own (fun x pr y => At L x pr (some y)) s) : Own (fun x pr y => At (put L a b r) x pr (some y)) s := by
  refine h.congr ?_
  intro x pr y
  rw [at_put hL hab, if_pos hb]
  constructor
  · intro g
    refine .inl ⟨g, fun hx => ?_⟩
    obtain ⟨p, hp, hc, _⟩ := g
    have := hd p hp
    unfold Entry.covers at hc
    omega
  · rintro (⟨g, _⟩ | ⟨_, _, _, g3⟩)
    · exact g
    · cases g3

theorem alloc_len (s : St) (e : Nat) : (s.alloc e).len = max s.len e ∧ (s.alloc e).shadow = s.shadow ∧ (s.alloc e).file = s.file ∧ (s.alloc e).page = s.page ∧
    (s.alloc e).plugin = s.plugin ∧ (s.alloc e).mem = s.mem ∧ (s.alloc e).heap = s.heap ∧ (s.alloc e).regions = s.regions := by
  unfold St.alloc
  split
  · refine ⟨?_, rfl, rfl, rfl, rfl, rfl, rfl, rfl⟩
    simp only; omega
  · refine ⟨?_, rfl, rfl, rfl, rfl, rfl, rfl, rfl⟩
    omega

theorem alloc_eq (s : St) (e : Nat) : s.alloc e = { s with len := max s.len e } := by
  unfold St.alloc
  split
  · congr 1; omega
  · have : max s.len e = s.len := by omega
    rw [this]

theorem mmapIntoShadow_eq (s : St) {base a b : Nat} (pr : Prot) (hp : 0 < s.page) (ha : a % s.page = 0) (hb : b % s.page = 0) (hab : a < b) :
    s.mmapIntoShadow base a b pr = .ok { s with shadow := fun y => if base ≤ y ∧ y < base + (b - a) then some (a + (y - base), pr) else s.shadow y } := by
  unfold St.mmapIntoShadow sMmap
  rw [show (decide (a % s.page = 0) && decide (a < b)) = true by simp [ha, hab], pageUp_eq hp (mod_sub hb ha)]
  rfl

theorem mmapIntoPlugin_eq (s : St) {a b : Nat} (pr : Prot) (hp : 0 < s.page) (ha : a % s.page = 0) (hb : b % s.page = 0) (hab : a < b) :
    s.mmapIntoPlugin a b pr = .ok { s with plugin := fun x => if a ≤ x ∧ x < b then some ⟨.shm x, pr⟩ else s.plugin x } := by
  unfold St.mmapIntoPlugin
  rw [show (decide (a % s.page = 0) && decide (a < b)) = true by simp [ha, hab], pageUp_eq hp (mod_sub hb ha), Nat.add_sub_cancel' (Nat.le_of_lt hab)]
  rfl

theorem munmap_ok {L : List (Entry Region)} {s : St} (hI : Inv L s) {a len : Nat} (ha : a % s.page = 0) (hl : len % s.page = 0) :
    ∃ t, s.munmap a len true = .ok t ∧ Done L (fun x => a ≤ x ∧ x < a + len) s t ((view s).over a (a + len) (fun _ => none)) s.heap := by
  unfold St.munmap
  rw [if_pos rfl]
  unfold St.handleMunmap
  by_cases h0 : len = 0
  · subst h0
    rw [if_pos rfl]
    have e : (nMunmap s a 0).plugin = s.plugin := by
      unfold nMunmap
      rw [pageUp_eq hI.table.al.pos (by simp)]
      funext x
      simp only
      rw [if_neg (by omega)]
    refine ⟨_, rfl, ⟨L, ⟨⟨hI.table.reg, hI.table.good, hI.table.al⟩, hI.own.state rfl rfl (Nat.le_refl _), by rw [e]; exact hI.prog, hI.heap⟩, fun p hp _ => hp⟩, rfl, rfl, rfl, ?_⟩
    funext x
    unfold View.over
    rw [if_neg (by omega)]
    exact view_eq (by rw [e]) rfl (fun _ _ _ => rfl)
  · rw [if_neg h0]
    have hb : (a + len) % s.page = 0 := mod_add ha hl
    have T : Table L (nMunmap s a len) := ⟨hI.table.reg, hI.table.good, hI.table.al⟩
    obtain ⟨t, h1, h2, h3, h4, h5⟩ := clear_own T (hI.own.state rfl rfl (Nat.le_refl _)) (a := a) (b := a + len) (by omega) ha hb
    have hp : t.plugin = fun x => if a ≤ x ∧ x < a + len then none else s.plugin x := by
      rw [h2.plugin]
      unfold nMunmap
      rw [pageUp_eq hI.table.al.pos hl]
    refine ⟨t, h1, ⟨_, ⟨h3, h4, ?_, ?_⟩, fun p hp h => keep_cut hI.table.good (by omega) hp h⟩, h2.mem, h2.page, h2.heap, ?_⟩
    · refine hI.prog.cut hI.table.good (by omega) ?_ ?_
      · intro x g1 g2
        rw [hp]
        exact if_pos ⟨g1, g2⟩
      · intro x g
        rw [hp]
        exact if_neg g
    · rw [h2.heap, h2.page]
      exact hI.heap
    · funext x
      unfold View.over
      by_cases hx : a ≤ x ∧ x < a + len
      · rw [if_pos hx]
        unfold view
        rw [hp]
        simp only [if_pos hx]
      · rw [if_neg hx]
        refine view_eq (by rw [hp]; exact if_neg hx) h2.mem ?_
        intro o p e
        rw [(hI.prog.off e).1, h5, if_neg hx]
        rfl

theorem nMmap_plugin (s : St) {a len : Nat} {prot : Prot} {cells : Nat → Nat} (hp : 0 < s.page) (hl : len % s.page = 0) :
    (nMmap s a len prot cells).plugin = fun x => if a ≤ x ∧ x < a + len then some ⟨.other (cells x), prot⟩ else s.plugin x := by
  unfold nMmap
  rw [pageUp_eq hp hl]

theorem mmap_ok {L : List (Entry Region)} {s : St} (hI : Inv L s) {a len : Nat} {prot : Prot} {anon priv : Bool} {path base : Nat} {cells : Nat → Nat}
    (ha : a % s.page = 0) (hl : len % s.page = 0) (h0 : 0 < len)
    (hf : anon = true → priv = true → ∀ u, (nMmap s a len prot cells).clearOut a (a + len) = .ok u → Fresh u base len) :
    ∃ t, s.mmap (some a) len prot anon priv path base cells = .ok t ∧
      Done L (fun x => a ≤ x ∧ x < a + len) s t ((view s).over a (a + len) (if anon && priv then zeros prot else fun x => some ⟨prot, false, s.mem (cells x)⟩)) s.heap := by
  unfold St.mmap St.handleMmap
  simp only
  rw [if_neg (by omega)]
  have hb : (a + len) % s.page = 0 := mod_add ha hl
  have hab : a < a + len := by omega
  have T : Table L (nMmap s a len prot cells) := ⟨hI.table.reg, hI.table.good, hI.table.al⟩
  obtain ⟨u, h1, h2, h3, h4, h5⟩ := clear_own T (hI.own.state rfl rfl (Nat.le_refl _)) (a := a) (b := a + len) hab ha hb
  have hpu : u.plugin = fun x => if a ≤ x ∧ x < a + len then some ⟨.other (cells x), prot⟩ else s.plugin x := by
    rw [h2.plugin, nMmap_plugin s hI.table.al.pos hl]
  have hpg : u.page = s.page := h2.page
  have hfile : ∀ x, u.file x = if a ≤ x ∧ x < a + len then 0 else s.file x := h5
  rw [h1, R.bind_ok]
  by_cases hc : (anon && priv) = true
  · rw [if_pos hc, if_pos hc]
    have hc' : anon = true ∧ priv = true := by simpa using hc
    obtain ⟨f1, f2, f3⟩ := hf hc'.1 hc'.2 u h1
    rw [alloc_eq, mmapIntoShadow_eq _ _ (by simp only [hpg]; exact hI.table.al.pos) (by simp only [hpg]; exact ha) (by simp only [hpg]; exact hb) hab, R.bind_ok,
      mmapIntoPlugin_eq _ _ (by simp only [hpg]; exact hI.table.al.pos) (by simp only [hpg]; exact ha) (by simp only [hpg]; exact hb) hab, R.bind_ok,
      insertNew_gap (L := cut L a (a + len)) (by simpa using h3.reg) h3.good hab cut_gap]
    refine ⟨_, rfl, ⟨put (cut L a (a + len)) a (a + len) ⟨base, prot, priv, if anon then none else some (.file path)⟩,
      ⟨⟨rfl, good_put h3.good hab _, aligned_put h3.al (by rw [hpg]; exact ha) (by rw [hpg]; exact hb) (by rw [hpg, ← hpg]; exact f2)⟩, ?_, ?_, ?_⟩, fun p hp h => keep_put h3.good hab (keep_cut hI.table.good hab hp h) h _⟩, h2.mem, hpg, h2.heap, ?_⟩
    · refine own_put h3.good hab cut_gap f1 (h4.add (base := base) (pr0 := prot) (a := a) (b := a + len) ?_ rfl ?_ ?_)
      · simp only; omega
      · intro y g1 g2
        exact f3 y g1 (by omega)
      · intro x _
        rfl
    · refine Prog.put (P := fun x => if a ≤ x ∧ x < a + len then none else s.plugin x) ?_ h3.good hab ?_ (fun e => absurd e f1) ?_
      · refine hI.prog.cut hI.table.good hab ?_ ?_
        · intro x g1 g2
          exact if_pos ⟨g1, g2⟩
        · intro x g
          exact if_neg g
      · intro _ x g1 g2
        exact if_pos ⟨g1, g2⟩
      · intro x g
        simp only [if_neg g]
        rw [hpu]
        simp only [if_neg g]
    · simp only [hpg, h2.heap]
      exact hI.heap
    · funext x
      unfold View.over
      by_cases hx : a ≤ x ∧ x < a + len
      · rw [if_pos hx]
        unfold view zeros
        simp only [if_pos hx, hfile]
      · rw [if_neg hx]
        refine view_eq (by simp only [if_neg hx]; rw [hpu]; exact if_neg hx) h2.mem ?_
        intro o p e
        rw [(hI.prog.off e).1]
        simp only [hfile, if_neg hx]
  · rw [if_neg hc, if_neg hc, insertNew_gap (L := cut L a (a + len)) h3.reg h3.good hab cut_gap]
    refine ⟨_, rfl, ⟨put (cut L a (a + len)) a (a + len) ⟨0, prot, priv, if anon then none else some (.file path)⟩,
      ⟨⟨rfl, good_put h3.good hab _, aligned_put h3.al (by rw [hpg]; exact ha) (by rw [hpg]; exact hb) (by simp)⟩, ?_, ?_, ?_⟩, fun p hp h => keep_put h3.good hab (keep_cut hI.table.good hab hp h) h _⟩, h2.mem, hpg, h2.heap, ?_⟩
    · exact own_put_null h3.good hab cut_gap rfl (h4.state rfl rfl (Nat.le_refl _))
    · refine Prog.put (P := fun x => if a ≤ x ∧ x < a + len then none else s.plugin x) ?_ h3.good hab (fun e => absurd rfl e) ?_ ?_
      · refine hI.prog.cut hI.table.good hab ?_ ?_
        · intro x g1 g2
          exact if_pos ⟨g1, g2⟩
        · intro x g
          exact if_neg g
      · intro _ x g1 g2
        refine ⟨cells x, ?_⟩
        simp only [hpu]
        exact if_pos ⟨g1, g2⟩
      · intro x g
        simp only [if_neg g]
        rw [hpu]
        simp only [if_neg g]
    · simp only [hpg, h2.heap]
      exact hI.heap
    · funext x
      unfold View.over
      by_cases hx : a ≤ x ∧ x < a + len
      · rw [if_pos hx]
        unfold view
        simp only [hpu, if_pos hx, h2.mem]
        rfl
      · rw [if_neg hx]
        refine view_eq (by simp only [hpu]; exact if_neg hx) h2.mem ?_
        intro o p e
        rw [(hI.prog.off e).1]
        simp only [hfile, if_neg hx]

theorem mprotect_ok {L : List (Entry Region)} {s : St} (hI : Inv L s) {a len : Nat} {prot : Prot} (ha : a % s.page = 0) (hl : len % s.page = 0) (h0 : 0 < len) :
    ∃ t, s.mprotect a len prot none = .ok t ∧ Done L (fun x => a ≤ x ∧ x < a + len) s t ((view s).over a (a + len) (fun x => (view s x).map (fun c => { c with prot := prot }))) s.heap := by
  have hb : (a + len) % s.page = 0 := mod_add ha hl
  have hab : a < a + len := by omega
  have hG := hI.table.good
  have hpl : (nMprotect s a len prot).plugin = fun x => if a ≤ x ∧ x < a + len then (s.plugin x).map (fun m => { m with prot := prot }) else s.plugin x := by
    unfold nMprotect
    rw [pageUp_eq hI.table.al.pos hl]
  obtain ⟨t, h1, h2, h3, h4⟩ := protectAll_spec hG hI.table.al hab ha hb prot L [] { nMprotect s a len prot with regions := ofList (L.flatMap (rest a (a + len))) } rfl
    (by simp) rfl (by simp)
  have hpt : t.plugin = fun x => if a ≤ x ∧ x < a + len then (s.plugin x).map (fun m => { m with prot := prot }) else s.plugin x := h2.plugin.trans hpl
  refine ⟨t, ?_, ⟨guarded L a (a + len) prot, ⟨⟨h3, good_guarded hG hab prot, by rw [h2.page]; exact aligned_guarded hI.table.al ha hb prot⟩, ?_, ?_, ?_⟩,
    fun p hp h => keep_guarded hG hab hp h prot⟩, h2.mem, h2.page, h2.heap, ?_⟩
  · unfold St.mprotect
    simp only
    have hr : (nMprotect s a len prot).regions.clear a (a + len) = .ok (ofList (L.flatMap (rest a (a + len))), L.filterMap (change a (a + len))) := by
      have : (nMprotect s a len prot).regions = ofList L := hI.table.reg
      unfold IMap.clear
      rw [this, splice_spec hG hab, ← raw_eq hG hab]
      simp [spliced, raw]
    rw [hr, R.bind_ok]
    exact h1
  · -- Shadow's side
    have hO := hI.own
    refine ⟨?_, ?_, ?_, ?_⟩
    · intro x pr y g
      rcases at_guarded.1 g with ⟨hx, g⟩ | ⟨hx, rfl, pr0, g⟩
      · rw [h4.shadow' y]
        · exact hO.here g
        rintro ⟨x', g1, g2, g3⟩
        obtain ⟨pr', g3⟩ := loc_iff.1 g3
        have e1 := hO.here g
        have e2 := hO.here g3
        rw [e1] at e2
        cases Option.some.inj e2
        exact hx ⟨g1, g2⟩
      · rw [h4.shadow x y hx.1 hx.2 (loc_iff.2 ⟨pr0, g⟩)]
        have := hO.here g
        show Option.map _ (s.shadow y) = _
        rw [this]
        rfl
    · intro x g
      rw [h4.file] at g
      obtain ⟨pr, y, g⟩ := hO.zero g
      by_cases hx : a ≤ x ∧ x < a + len
      · exact ⟨prot, y, at_guarded.2 (.inr ⟨hx, rfl, pr, g⟩)⟩
      · exact ⟨pr, y, at_guarded.2 (.inl ⟨hx, g⟩)⟩
    · intro y o pr g
      have key : ∃ pr', s.shadow y = some (o, pr') := by
        by_cases hy : ∃ x, a ≤ x ∧ x < a + len ∧ Loc L x y
        · obtain ⟨x, g1, g2, g3⟩ := hy
          rw [h4.shadow x y g1 g2 g3] at g
          obtain ⟨m, g4, g5⟩ := Option.map_eq_some_iff.1 g
          cases g5
          exact ⟨m.2, g4⟩
        · rw [h4.shadow' y hy] at g
          exact ⟨pr, g⟩
      obtain ⟨pr', g⟩ := key
      obtain ⟨pr'', g⟩ := hO.tight g
      by_cases hx : a ≤ o ∧ o < a + len
      · exact ⟨prot, at_guarded.2 (.inr ⟨hx, rfl, pr'', g⟩)⟩
      · exact ⟨pr'', at_guarded.2 (.inl ⟨hx, g⟩)⟩
    · intro x pr y g
      rw [h2.len]
      rcases at_guarded.1 g with ⟨hx, g⟩ | ⟨hx, rfl, pr0, g⟩
      · exact hO.long g
      · exact hO.long g
  · rw [hpt]
    refine hI.prog.guarded ?_ ?_
    · intro x g1 g2
      exact if_pos ⟨g1, g2⟩
    · intro x g
      exact if_neg g
  · rw [h2.heap, h2.page]
    exact hI.heap
  · funext x
    unfold View.over
    by_cases hx : a ≤ x ∧ x < a + len
    · rw [if_pos hx]
      unfold view
      rw [hpt, h2.mem]
      simp only [if_pos hx]
      rw [h4.file]
      cases hm : s.plugin x with
      | none => rfl
      | some m =>
        obtain ⟨b, p⟩ := m
        cases b <;> rfl
    · rw [if_neg hx]
      refine view_eq (by rw [hpt]; exact if_neg hx) h2.mem ?_
      intro o p e
      rw [h4.file]
      rfl

/-! ## Accesses -/

theorem peek_eq (s : St) {y o n : Nat} {pr : Prot} (h : ∀ i, i < n → s.shadow (y + i) = some (o + i, pr)) (hr : pr.r = true) (hl : ∀ i, i < n → o + i < pageUp s.page s.len) :
    s.peek y n = .ok ((List.range n).map (fun i => s.file (o + i))) := by
  induction n generalizing y o with
  | zero => rfl
  | succ n ih =>
    unfold St.peek
    have h0 := h 0 (by omega)
    have l0 := hl 0 (by omega)
    have e1 : s.peek1 y = .ok (s.file o) := by
      unfold St.peek1
      rw [Nat.add_zero] at h0 l0
      rw [h0]
      simp [hr, l0]
    rw [e1, R.bind_ok, ih (y := y + 1) (o := o + 1)]
    · rw [R.bind_ok, List.range_succ_eq_map]
      simp only [List.map_cons, List.map_map, Nat.add_zero, R.pure_eq]
      congr 2
      refine List.map_congr_left ?_
      intro i _
      simp only [Function.comp]
      congr 1
      omega
    · intro i hi
      have := h (i + 1) (by omega)
      rw [show y + 1 + i = y + (i + 1) by omega, this, show o + 1 + i = o + (i + 1) by omega]
    · intro i hi
      have := hl (i + 1) (by omega)
      omega

theorem poke_eq (s : St) {y o : Nat} {pr : Prot} {l : List Nat} (h : ∀ i, i < l.length → s.shadow (y + i) = some (o + i, pr)) (hw : pr.w = true)
    (hl : ∀ i, i < l.length → o + i < pageUp s.page s.len) :
    s.poke y l = .ok { s with file := fun x => if o ≤ x ∧ x < o + l.length then l.getD (x - o) 0 else s.file x } := by
  induction l generalizing s y o with
  | nil =>
    unfold St.poke
    congr 1
    have : (fun x => if o ≤ x ∧ x < o + ([] : List Nat).length then ([] : List Nat).getD (x - o) 0 else s.file x) = s.file := by
      funext x
      rw [if_neg (by simp)]
    rw [this]
  | cons v l ih =>
    unfold St.poke
    have h0 := h 0 (by simp)
    have l0 := hl 0 (by simp)
    have e1 : s.poke1 y v = .ok { s with file := fun x => if x = o then v else s.file x } := by
      unfold St.poke1
      rw [Nat.add_zero] at h0 l0
      rw [h0]
      simp [hw, l0]
    rw [e1, R.bind_ok, ih (y := y + 1) (o := o + 1)]
    · congr 2
      funext x
      simp only [List.length_cons]
      by_cases hx : x = o
      · subst hx
        rw [if_neg (by omega), if_pos rfl, if_pos (by omega)]
        simp
      · by_cases hx2 : o ≤ x ∧ x < o + (l.length + 1)
        · rw [if_pos (by omega), if_pos hx2]
          have : x - o = (x - (o + 1)) + 1 := by omega
          rw [this]
          simp
        · rw [if_neg (by omega), if_neg hx, if_neg hx2]
    · intro i hi
      have := h (i + 1) (by simpa using hi)
      simp only
      rw [show y + 1 + i = y + (i + 1) by omega, this, show o + 1 + i = o + (i + 1) by omega]
    · intro i hi
      have := hl (i + 1) (by simpa using hi)
      simp only
      omega

theorem le_pageUp {pg n : Nat} (h : 0 < pg) : n ≤ pageUp pg n := by
  unfold pageUp
  have h1 := Nat.div_add_mod (n + (pg - 1)) pg
  have h2 := Nat.mod_lt (n + (pg - 1)) h
  rw [Nat.mul_comm] at h1
  omega

/-- A pointer of the mapper leads to the bytes of the program, in order. -/
theorem getPtr_spec {L : List (Entry Region)} {s : St} (hI : Inv L s) {a n align : Nat} (hn : n ≠ 0) :
    ∃ r, s.getPtr a n align = .ok r ∧
      (∀ y, r = some y → a % align = 0 ∧ ∃ pr, ∀ i, i < n → s.plugin (a + i) = some ⟨.shm (a + i), pr⟩ ∧ s.shadow (y + i) = some (a + i, pr) ∧ a + i < s.len) ∧
      (r = none → a % align ≠ 0 ∨ (∀ p ∈ L, p.covers a → p.2.base = 0 ∨ p.1.2 < a + n)) := by
  unfold St.getPtr
  rw [show decide (n ≠ 0) = true by simpa using hn, R.assert_true, R.bind_ok]
  by_cases hal : a % align ≠ 0
  · rw [if_pos hal]
    exact ⟨none, rfl, (fun _ e => by cases e), fun _ => .inl hal⟩
  rw [if_neg hal, hI.table.reg]
  by_cases hx : ∃ p ∈ L, p.covers a
  · obtain ⟨p, hp, hc⟩ := hx
    rw [get_some hI.table.good hp hc, R.bind_ok]
    simp only
    by_cases hb : p.2.base = 0
    · rw [if_pos hb]
      refine ⟨none, rfl, (fun _ e => by cases e), fun _ => .inr (fun q hq hd => .inl ?_)⟩
      rw [covers_unique hI.table.good hq hp hd hc]
      exact hb
    · rw [if_neg hb]
      unfold Entry.covers at hc
      by_cases he : p.1.1 ≤ a + n - 1 ∧ a + n - 1 < p.1.2
      · rw [if_pos he]
        refine ⟨_, rfl, ?_, (fun e => by cases e)⟩
        intro y hy
        cases hy
        refine ⟨by simpa using hal, p.2.prot, fun i hi => ?_⟩
        have hat : At L (a + i) p.2.prot (some (p.2.base + (a - p.1.1) + i)) := by
          refine ⟨p, hp, ⟨by omega, by omega⟩, rfl, ?_⟩
          rw [if_neg hb]
          congr 1
          omega
        exact ⟨hI.prog.here hat, hI.own.here hat, hI.own.long hat⟩
      · rw [if_neg he]
        refine ⟨none, rfl, (fun _ e => by cases e), fun _ => .inr (fun q hq hd => .inr ?_)⟩
        rw [covers_unique hI.table.good hq hp hd hc]
        omega
  · rw [get_none hI.table.good (fun p hp hc => hx ⟨p, hp, hc⟩), R.bind_ok]
    exact ⟨none, rfl, (fun _ e => by cases e), fun _ => .inr (fun p hp hc => absurd ⟨p, hp, hc⟩ hx)⟩

/-- Stores into the memory file keep the invariant. -/
theorem file_done {L : List (Entry Region)} {s : St} (hI : Inv L s) {f : Nat → Nat} (h : ∀ x, f x ≠ s.file x → ∃ y, Loc L x y) : Inv L { s with file := f } := by
  refine ⟨⟨hI.table.reg, hI.table.good, hI.table.al⟩, ⟨hI.own.here, ?_, hI.own.tight, hI.own.long⟩, hI.prog, hI.heap⟩
  intro x g
  by_cases hx : f x = s.file x
  · have g : s.file x ≠ 0 := by rw [← hx]; exact g
    exact hI.own.zero g
  · obtain ⟨y, hy⟩ := h x hx
    obtain ⟨pr, hy⟩ := loc_iff.1 hy
    exact ⟨pr, y, hy⟩

theorem store_ok {L : List (Entry Region)} {s t : St} (hI : Inv L s) {x v : Nat} (h : s.store x v = some t) :
    Done L (fun _ => False) s t ((view s).over x (x + 1) (fun x => (view s x).map (fun c => { c with byte := v }))) s.heap := by
  unfold St.store at h
  split at h
  · next o p e =>
    obtain ⟨rfl, y, hy⟩ := hI.prog.off e
    split at h
    · cases h
      refine ⟨⟨L, file_done hI ?_, fun p hp _ => hp⟩, rfl, rfl, rfl, ?_⟩
      · intro z hz
        by_cases hzo : z = o
        · subst hzo
          exact ⟨y, loc_iff.2 ⟨p, hy⟩⟩
        · simp [hzo] at hz
      · funext z
        unfold View.over
        by_cases hz : o ≤ z ∧ z < o + 1
        · have : z = o := by omega
          subst this
          rw [if_pos hz]
          unfold view
          simp [e]
        · rw [if_neg hz]
          refine view_eq rfl rfl ?_
          intro o' p' e'
          have h1 := (hI.prog.off e').1
          simp only
          rw [if_neg (by omega)]
    · cases h
  · cases h

theorem write_ok {L : List (Entry Region)} {s t : St} (hI : Inv L s) {a : Nat} {bytes : List Nat} (h : s.write a bytes = .ok (some t)) :
    Done L (fun _ => False) s t ((view s).over a (a + bytes.length) (fun x => (view s x).map (fun c => { c with byte := bytes.getD (x - a) 0 }))) s.heap := by
  unfold St.write at h
  by_cases h0 : bytes.length = 0
  · rw [if_pos h0] at h
    cases h
    refine ⟨⟨L, hI, fun p hp _ => hp⟩, rfl, rfl, rfl, ?_⟩
    funext x
    unfold View.over
    rw [if_neg (by omega)]
  rw [if_neg h0] at h
  obtain ⟨r, h1, h2, _⟩ := getPtr_spec hI (a := a) (align := 1) h0
  rw [h1, R.bind_ok] at h
  cases r with
  | none => cases h
  | some y =>
    obtain ⟨_, pr, hall⟩ := h2 y rfl
    simp only at h
    rw [R.bind_eq_ok] at h
    obtain ⟨u, hu, h⟩ := h
    cases h
    have hw : pr.w = true := by
      cases bytes with
      | nil => exact absurd rfl h0
      | cons v l =>
        unfold St.poke at hu
        rw [R.bind_eq_ok] at hu
        obtain ⟨s1, hs1, _⟩ := hu
        have := (hall 0 (by simp)).2.1
        unfold St.poke1 at hs1
        rw [Nat.add_zero] at this
        rw [this] at hs1
        simp only at hs1
        split at hs1
        · next hc =>
          rw [Bool.and_eq_true] at hc
          exact hc.1
        · cases hs1
    rw [poke_eq s (fun i hi => (hall i hi).2.1) hw (fun i hi => Nat.lt_of_lt_of_le (hall i hi).2.2 (le_pageUp hI.table.al.pos))] at hu
    cases hu
    refine ⟨⟨L, file_done hI ?_, fun p hp _ => hp⟩, rfl, rfl, rfl, ?_⟩
    · intro z hz
      by_cases hzo : a ≤ z ∧ z < a + bytes.length
      · have := (hall (z - a) (by omega)).1
        rw [Nat.add_sub_cancel' hzo.1] at this
        obtain ⟨_, y', hy'⟩ := hI.prog.off this
        exact ⟨y', loc_iff.2 ⟨_, hy'⟩⟩
      · simp [hzo] at hz
    · funext z
      unfold View.over
      by_cases hz : a ≤ z ∧ z < a + bytes.length
      · rw [if_pos hz]
        have := (hall (z - a) (by omega)).1
        rw [Nat.add_sub_cancel' hz.1] at this
        unfold view
        simp [this, hz]
      · rw [if_neg hz]
        refine view_eq rfl rfl ?_
        intro o' p' e'
        have h1 := (hI.prog.off e').1
        simp only
        rw [if_neg (by omega)]

end Shadow.MemMap
