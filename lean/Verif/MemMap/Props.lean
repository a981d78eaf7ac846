import Verif.MemMap.Steps

/-!
# C57: the program and Shadow see the same memory

Shadow keeps the private anonymous memory of a program (with its heap and its stack) in a file that both have mapped, and reads and
writes the program's memory through its own mapping. The calls that change the program's mappings are made in both address spaces.
-/
namespace Shadow.MemMap

open Shadow.Base Shadow.IntervalMap

/-! ## Each call -/

/-- A call that does not fail changes what the program sees exactly as its specification says (`mmap` maps zeros, or the file; `munmap`
    takes away, `mremap` moves the bytes, `brk` adds zeros or takes away, `mprotect` changes the protection; everything else stays),
    and keeps the tables consistent. -/
theorem C57_calls {L : List (Entry Region)} {s t : St} (hI : Inv L s) {a : Act} (hl : Legal s a) (h : step s a = some (.ok t)) :
    (view t, t.heap) = outcome s.mem (view s) s.heap a ∧ t.mem = s.mem ∧ t.page = s.page ∧ ∃ L', Inv L' t := by
  obtain ⟨W, D, _⟩ := (step_done hI hl).1 t h
  obtain ⟨L', hI', _⟩ := D.inv
  refine ⟨?_, D.mem, D.page, L', hI'⟩
  rw [D.view, D.heap]

/-- The calls that end Shadow are exactly those listed in `Supported`. -/
theorem C57_panics {L : List (Entry Region)} {s : St} (hI : Inv L s) {a : Act} (hl : Legal s a) : step s a = some .panic ↔ ¬ Supported s a :=
  (step_done hI hl).2

/-- `brk` answers with the end of the heap. -/
theorem C57_brk_result {L : List (Entry Region)} {s t : St} (hI : Inv L s) {req r base : Nat} {ok : Bool} {ext : Nat → Nat} (hl : Legal s (.brk req ok base ext))
    (h : s.brk req ok base ext = .ok (t, r)) : r = t.heap.2 ∧ (s.heap.1 ≤ req → r = req) ∧ (req < s.heap.1 → r = s.heap.2) := by
  have hs : step s (.brk req ok base ext) = some (.ok t) := by simp only [step, h]
  obtain ⟨e, _⟩ := C57_calls hI hl hs
  have e2 := congrArg Prod.snd e
  have hh := hI.heap
  simp only [outcome] at e2
  unfold St.brk at h
  by_cases c1 : req < s.heap.1
  · rw [if_pos c1] at h
    cases h
    exact ⟨rfl, fun _ => by omega, fun _ => rfl⟩
  · rw [if_neg c1] at h e2
    have hr : r = req := by
      rw [R.bind_eq_ok] at h
      obtain ⟨_, _, h⟩ := h
      split at h
      · cases h; rfl
      · split at h
        · rw [R.bind_eq_ok] at h
          obtain ⟨_, _, h⟩ := h
          cases h; rfl
        · rw [R.bind_eq_ok] at h
          obtain ⟨_, _, h⟩ := h
          cases h; rfl
    have ht : t.heap.2 = req := by
      rw [e2]
      split <;> rfl
    exact ⟨by rw [hr, ht], fun _ => hr, fun g => absurd g c1⟩

/-- The heap stays as `brk` expects it if no other call maps, unmaps or protects a part of it. -/
theorem C57_heap {L : List (Entry Region)} {s t : St} (hI : Inv L s) {a : Act} (hl : Legal s a) (hH : HeapOk s) (hap : ∀ x, touches a x → ¬ (s.heap.1 ≤ x ∧ x < s.heap.2))
    (h : step s a = some (.ok t)) : HeapOk t := by
  obtain ⟨W, D, hW⟩ := (step_done hI hl).1 t h
  rcases hW with hW | hW
  · obtain ⟨L', hI', hk⟩ := D.inv
    rw [heapOk_mem hI'.table, D.heap, hW.2]
    rw [heapOk_mem hI.table] at hH
    intro hh
    obtain ⟨p, hp, g1, g2⟩ := hH hh
    refine ⟨p, hk p hp ?_, g1, g2⟩
    intro x hx hw
    unfold Entry.covers at hx
    rw [g1] at hx
    exact hap x (hW.1 x hw) hx
  · exact hW

/-! ## The memory file does not become shorter -/

/-- The file is at least as long in every state that a call may end in. -/
def Mono (n : Nat) (r : R St) : Prop := ∀ t, r = .ok t → n ≤ t.len

theorem Mono.ok {n : Nat} {s : St} (h : n ≤ s.len) : Mono n (.ok s) := by
  intro t e
  cases e
  exact h

theorem Mono.bind {α : Type} {n : Nat} {r : R α} {f : α → R St} (h : ∀ a, r = .ok a → Mono n (f a)) : Mono n (r.bind f) := by
  intro t e
  obtain ⟨a, h1, h2⟩ := R.bind_eq_ok.1 e
  exact h a h1 t h2

theorem Mono.le {n : Nat} {r : R St} (h : Mono n r) {t : St} (e : r = .ok t) : n ≤ t.len := h t e

theorem sMunmap_len (s : St) (b n : Nat) : (sMunmap s b n).len = s.len := by
  unfold sMunmap
  split <;> rfl

theorem sMprotect_len (s : St) (b n : Nat) (p : Prot) : (sMprotect s b n p).len = s.len := by
  unfold sMprotect
  split <;> rfl

theorem dealloc_mono (s : St) (a b : Nat) : Mono s.len (s.dealloc a b) := Mono.bind fun _ _ => Mono.ok (Nat.le_refl _)

theorem alloc_mono (s : St) (e : Nat) : s.len ≤ (s.alloc e).len := by
  unfold St.alloc
  split
  · simp only; omega
  · exact Nat.le_refl _

theorem unmapOne_mono (s : St) (m : Mutation Region) : Mono s.len (s.unmapOne m) := by
  unfold St.unmapOne
  split
  · refine Mono.bind fun p _ => ?_
    split
    · exact Mono.ok (Nat.le_refl _)
    · refine Mono.bind fun t h1 => ?_
      refine Mono.bind fun m _ => Mono.ok ?_
      simp only
      rw [sMunmap_len]
      exact (dealloc_mono _ _ _).le h1
  · refine Mono.bind fun p _ => ?_
    split
    · exact Mono.ok (Nat.le_refl _)
    · refine Mono.bind fun t h1 => Mono.ok ?_
      rw [sMunmap_len]
      exact (dealloc_mono _ _ _).le h1
  · refine Mono.bind fun p _ => Mono.bind fun q _ => Mono.bind fun _ _ => ?_
    split
    · exact Mono.ok (Nat.le_refl _)
    · refine Mono.bind fun t h1 => ?_
      refine Mono.bind fun m _ => Mono.ok ?_
      simp only
      rw [sMunmap_len]
      exact (dealloc_mono _ _ _).le h1
  · split
    · exact Mono.ok (Nat.le_refl _)
    · refine Mono.bind fun t h1 => Mono.ok ?_
      rw [sMunmap_len]
      exact (dealloc_mono _ _ _).le h1

theorem unmapAll_mono (ms : List (Mutation Region)) : ∀ s : St, Mono s.len (s.unmapAll ms) := by
  induction ms with
  | nil => intro s; exact Mono.ok (Nat.le_refl _)
  | cons m ms ih =>
    intro s
    refine Mono.bind fun t h1 => ?_
    intro u h2
    exact Nat.le_trans ((unmapOne_mono s m).le h1) (ih t u h2)

theorem clearOut_mono (s : St) (a b : Nat) : Mono s.len (s.clearOut a b) := Mono.bind fun _ _ => unmapAll_mono _ _

theorem insertNew_mono (s : St) (a b : Nat) (r : Region) : Mono s.len (s.insertNew a b r) := Mono.bind fun _ _ => Mono.bind fun _ _ => Mono.ok (Nat.le_refl _)

theorem intoShadow_mono (s : St) (base a b : Nat) (p : Prot) : Mono s.len (s.mmapIntoShadow base a b p) := Mono.bind fun _ _ => Mono.ok (Nat.le_refl _)

theorem intoPlugin_mono (s : St) (a b : Nat) (p : Prot) : Mono s.len (s.mmapIntoPlugin a b p) := Mono.bind fun _ _ => Mono.ok (Nat.le_refl _)

theorem poke_mono (l : List Nat) : ∀ (s : St) (y : Nat), Mono s.len (s.poke y l) := by
  induction l with
  | nil => intro s y; exact Mono.ok (Nat.le_refl _)
  | cons v l ih =>
    intro s y
    refine Mono.bind fun t h1 => ?_
    have : t.len = s.len := by
      unfold St.poke1 at h1
      split at h1
      · cases h1
      · split at h1
        · cases h1; rfl
        · cases h1
    rw [← this]
    exact ih t _

theorem protectPart_len (s : St) (r : Region) (n : Nat) (p : Prot) : (s.protectPart r n p).len = s.len := by
  unfold St.protectPart
  split
  · rfl
  · exact sMprotect_len _ _ _ _

theorem protectOne_mono (s : St) (p : Prot) (m : Mutation Region) : Mono s.len (s.protectOne p m) := by
  unfold St.protectOne
  split
  · refine Mono.bind fun q _ => Mono.bind fun m _ => ?_
    intro t h
    have := (insertNew_mono _ _ _ _).le h
    rw [protectPart_len] at this
    exact this
  · refine Mono.bind fun q _ => ?_
    intro t h
    have := (insertNew_mono _ _ _ _).le h
    rw [protectPart_len] at this
    exact this
  · refine Mono.bind fun q _ => Mono.bind fun m _ => ?_
    intro t h
    have := (insertNew_mono _ _ _ _).le h
    rw [protectPart_len] at this
    exact this
  · intro t h
    have := (insertNew_mono _ _ _ _).le h
    rw [protectPart_len] at this
    exact this

theorem protectAll_mono (p : Prot) (ms : List (Mutation Region)) : ∀ s : St, Mono s.len (s.protectAll p ms) := by
  induction ms with
  | nil => intro s; exact Mono.ok (Nat.le_refl _)
  | cons m ms ih =>
    intro s
    refine Mono.bind fun t h1 => ?_
    intro u h2
    exact Nat.le_trans ((protectOne_mono s p m).le h1) (ih t u h2)

theorem mmap_mono (s : St) (res : Option Nat) (len : Nat) (prot : Prot) (anon priv : Bool) (path base : Nat) (cells : Nat → Nat) :
    Mono s.len (s.mmap res len prot anon priv path base cells) := by
  unfold St.mmap
  split
  · exact Mono.ok (Nat.le_refl _)
  · unfold St.handleMmap
    split
    · exact Mono.ok (Nat.le_refl _)
    · refine Mono.bind fun t h1 => ?_
      have g1 := (clearOut_mono _ _ _).le h1
      simp only
      by_cases hc : (anon && priv) = true
      · rw [if_pos hc]
        refine Mono.bind fun u h2 => ?_
        have g2 := (intoShadow_mono _ _ _ _ _).le h2
        refine Mono.bind fun v h3 => ?_
        have g3 := (intoPlugin_mono _ _ _ _).le h3
        intro w h4
        have g4 := (insertNew_mono _ _ _ _).le h4
        exact Nat.le_trans g1 (Nat.le_trans (alloc_mono _ _) (Nat.le_trans g2 (Nat.le_trans g3 g4)))
      · rw [if_neg hc]
        intro w h4
        exact Nat.le_trans g1 ((insertNew_mono _ _ _ _).le h4)

theorem moveRegion_mono {s : St} {r : Region} {old osz new nsz base : Nat} {p : St × Region} (h : s.moveRegion r old osz new nsz base = .ok p) : s.len ≤ p.1.len := by
  unfold St.moveRegion at h
  obtain ⟨_, _, h⟩ := R.bind_eq_ok.1 h
  obtain ⟨_, _, h⟩ := R.bind_eq_ok.1 h
  obtain ⟨t1, h1, h⟩ := R.bind_eq_ok.1 h
  obtain ⟨t2, h2, h⟩ := R.bind_eq_ok.1 h
  obtain ⟨l, _, h⟩ := R.bind_eq_ok.1 h
  obtain ⟨t3, h3, h⟩ := R.bind_eq_ok.1 h
  obtain ⟨t4, h4, h⟩ := R.bind_eq_ok.1 h
  cases h
  have g1 := (intoPlugin_mono _ _ _ _).le h1
  have g2 := (intoShadow_mono _ _ _ _ _).le h2
  have g3 := (poke_mono _ _ _).le h3
  have g4 := (dealloc_mono _ _ _).le h4
  rw [sMunmap_len] at g4
  exact Nat.le_trans (alloc_mono _ _) (Nat.le_trans g1 (Nat.le_trans g2 (Nat.le_trans g3 g4)))

theorem adjust_mono {s : St} {r : Region} {old osz new nsz base : Nat} {p : St × Region} (h : s.adjust r old osz new nsz base = .ok p) : s.len ≤ p.1.len := by
  unfold St.adjust at h
  split at h
  · cases h; exact Nat.le_refl _
  · obtain ⟨_, _, h⟩ := R.bind_eq_ok.1 h
    split at h
    · exact moveRegion_mono h
    · split at h
      · obtain ⟨t, h1, h⟩ := R.bind_eq_ok.1 h
        cases h
        have g := (dealloc_mono _ _ _).le h1
        exact g
      · split at h
        · cases h
          exact alloc_mono _ _
        · cases h; exact Nat.le_refl _

theorem mremap_mono (s : St) (old osz nsz : Nat) (maymove : Bool) (res : Option Nat) (base : Nat) (ext : Nat → Nat) :
    Mono s.len (s.mremap old osz nsz maymove res base ext) := by
  unfold St.mremap
  split
  · exact Mono.ok (Nat.le_refl _)
  · simp only
    split
    · refine Mono.bind fun p _ => Mono.bind fun _ _ => Mono.bind fun _ _ => Mono.bind fun r _ => unmapAll_mono _ _
    · refine Mono.bind fun p h1 => Mono.bind fun q h2 => ?_
      have g1 : s.len ≤ p.1.len := by
        unfold St.takeOld at h1
        obtain ⟨m, _, h1⟩ := R.bind_eq_ok.1 h1
        split at h1
        · obtain ⟨_, _, h1⟩ := R.bind_eq_ok.1 h1
          obtain ⟨t, h3, h1⟩ := R.bind_eq_ok.1 h1
          cases h1
          have g := (clearOut_mono _ _ _).le h3
          exact g
        · cases h1
      have g2 := adjust_mono h2
      intro t h3
      exact Nat.le_trans g1 (Nat.le_trans g2 ((insertNew_mono _ _ _ _).le h3))

theorem brk_mono {s : St} {req base : Nat} {ok : Bool} {ext : Nat → Nat} {p : St × Nat} (h : s.brk req ok base ext = .ok p) : s.len ≤ p.1.len := by
  unfold St.brk at h
  split at h
  · cases h; exact Nat.le_refl _
  · obtain ⟨_, _, h⟩ := R.bind_eq_ok.1 h
    split at h
    · cases h; exact Nat.le_refl _
    · split at h
      · obtain ⟨t, h1, h⟩ := R.bind_eq_ok.1 h
        cases h
        unfold St.growHeap at h1
        obtain ⟨r, _, h1⟩ := R.bind_eq_ok.1 h1
        cases r with
        | none =>
          obtain ⟨_, _, h2⟩ := R.bind_eq_ok.1 h1
          obtain ⟨v, h3, h2⟩ := R.bind_eq_ok.1 h2
          obtain ⟨u, h4, h2⟩ := R.bind_eq_ok.1 h2
          obtain ⟨m, _, h2⟩ := R.bind_eq_ok.1 h2
          cases h2
          have g := (intoPlugin_mono _ _ _ _).le h4
          exact Nat.le_trans (alloc_mono _ _) (Nat.le_trans ((intoShadow_mono _ _ _ _ _).le h3) g)
        | some p =>
          obtain ⟨_, _, h2⟩ := R.bind_eq_ok.1 h1
          obtain ⟨u, h4, h2⟩ := R.bind_eq_ok.1 h2
          cases h4
          obtain ⟨m, _, h2⟩ := R.bind_eq_ok.1 h2
          cases h2
          exact alloc_mono _ _
      · obtain ⟨t, h1, h⟩ := R.bind_eq_ok.1 h
        cases h
        unfold St.shrinkHeap at h1
        obtain ⟨_, _, h1⟩ := R.bind_eq_ok.1 h1
        obtain ⟨p, _, h1⟩ := R.bind_eq_ok.1 h1
        obtain ⟨_, _, h1⟩ := R.bind_eq_ok.1 h1
        obtain ⟨m, _, h1⟩ := R.bind_eq_ok.1 h1
        obtain ⟨u, h2, h1⟩ := R.bind_eq_ok.1 h1
        cases h1
        have g := (dealloc_mono _ _ _).le h2
        exact g

/-- The memory file never becomes shorter; together with `C57_start`, a heap that stays below the stack stays within the file. -/
theorem C57_file_length {s t : St} {a : Act} (h : step s a = some (.ok t)) : s.len ≤ t.len := by
  cases a with
  | mmap => exact (mmap_mono _ _ _ _ _ _ _ _ _).le (Option.some.inj h)
  | munmap a len ok =>
    have h := Option.some.inj h
    unfold St.munmap at h
    split at h
    · unfold St.handleMunmap at h
      split at h
      · cases h; exact Nat.le_refl _
      · have g := (clearOut_mono _ _ _).le h
        exact g
    · cases h; exact Nat.le_refl _
  | mremap => exact (mremap_mono _ _ _ _ _ _ _ _).le (Option.some.inj h)
  | brk req ok base ext =>
    simp only [step] at h
    split at h
    · next p e => cases h; exact brk_mono e
    · cases h
  | mprotect a len prot res =>
    have h := Option.some.inj h
    unfold St.mprotect at h
    split at h
    · cases h; exact Nat.le_refl _
    · obtain ⟨m, _, h⟩ := R.bind_eq_ok.1 h
      have g := (protectAll_mono _ _ _).le h
      exact g
  | store x v =>
    obtain ⟨t', h1, h2⟩ := Option.map_eq_some_iff.1 h
    cases h2
    unfold St.store at h1
    split at h1
    · split at h1
      · cases h1; exact Nat.le_refl _
      · cases h1
    · cases h1
  | write a bytes =>
    simp only [step] at h
    split at h
    · cases h
    · next t' e =>
      cases h
      unfold St.write at e
      split at e
      · cases e; exact Nat.le_refl _
      · obtain ⟨r, _, e⟩ := R.bind_eq_ok.1 e
        split at e
        · cases e
        · obtain ⟨u, h2, e⟩ := R.bind_eq_ok.1 e
          cases e
          exact (poke_mono _ _ _).le h2
    · cases h

/-! ## Pointers -/

theorem ptr_bytes {L : List (Entry Region)} {s : St} (hI : Inv L s) {a n align y : Nat} (hn : n ≠ 0) (h : s.getPtr a n align = .ok (some y)) :
    a % align = 0 ∧ ∃ pr, ∀ i, i < n → view s (a + i) = some ⟨pr, true, s.file (a + i)⟩ ∧ s.shadow (y + i) = some (a + i, pr) ∧ a + i < pageUp s.page s.len := by
  obtain ⟨r, g1, g2, _⟩ := getPtr_spec hI (a := a) (align := align) hn
  rw [g1] at h
  cases h
  obtain ⟨h1, pr, h2⟩ := g2 y rfl
  refine ⟨h1, pr, fun i hi => ?_⟩
  obtain ⟨k1, k2, k3⟩ := h2 i hi
  refine ⟨?_, k2, Nat.lt_of_lt_of_le k3 (le_pageUp hI.table.al.pos)⟩
  unfold view
  rw [k1]

/-- The pointer that Shadow uses for some bytes of the program leads to these bytes, with their protection: a byte that is read
    through it is the program's byte, and a byte that is written through it changes this byte of the program and no other. -/
theorem C57_ptr {L : List (Entry Region)} {s : St} (hI : Inv L s) {a n align y : Nat} (hn : n ≠ 0) (h : s.getPtr a n align = .ok (some y)) :
    a % align = 0 ∧ ∃ pr, ∀ i, i < n → ∃ c, view s (a + i) = some c ∧ c.anon = true ∧ c.prot = pr ∧
      s.peek1 (y + i) = (if pr.r then .ok c.byte else .panic) ∧
      ∀ v, (pr.w = false → s.poke1 (y + i) v = .panic) ∧
        (pr.w = true → ∃ t, s.poke1 (y + i) v = .ok t ∧ view t = (view s).over (a + i) (a + i + 1) (fun _ => some { c with byte := v })) := by
  obtain ⟨h1, pr, h2⟩ := ptr_bytes hI hn h
  refine ⟨h1, pr, fun i hi => ?_⟩
  obtain ⟨k1, k2, k3⟩ := h2 i hi
  refine ⟨_, k1, rfl, rfl, ?_, fun v => ⟨fun hw => ?_, fun hw => ?_⟩⟩
  · unfold St.peek1
    rw [k2]
    by_cases hr : pr.r = true
    · simp [hr, k3]
    · simp [hr]
  · unfold St.poke1
    rw [k2]
    simp [hw]
  · refine ⟨{ s with file := fun x => if x = a + i then v else s.file x }, ?_, ?_⟩
    · unfold St.poke1
      rw [k2]
      simp [hw, k3]
    · funext x
      unfold View.over
      by_cases hx : a + i ≤ x ∧ x < a + i + 1
      · have e : x = a + i := by omega
        rw [if_pos hx]
        subst e
        have hp : s.plugin (a + i) = some ⟨.shm (a + i), pr⟩ := by
          unfold view at k1
          split at k1
          · cases k1
          · next o p e =>
            have := hI.prog.off e
            rw [this.1] at e
            have k2 := congrArg Cell.prot (Option.some.inj k1)
            simp only at k2
            rw [e, k2]
          · cases k1
        unfold view
        simp only [hp, if_true]
      · rw [if_neg hx]
        refine view_eq rfl rfl ?_
        intro o p e
        have := hI.prog.off e
        rw [this.1]
        simp only
        rw [if_neg (by omega)]

/-- Shadow has a pointer for every byte of private anonymous memory, and for no other. -/
theorem C57_ptr_iff {L : List (Entry Region)} {s : St} (hI : Inv L s) (a : Nat) :
    ∃ r, s.getPtr a 1 1 = .ok r ∧ (r.isSome ↔ ∃ c, view s a = some c ∧ c.anon = true) := by
  obtain ⟨r, g1, g2, g3⟩ := getPtr_spec hI (a := a) (align := 1) (n := 1) (by decide)
  refine ⟨r, g1, ?_⟩
  constructor
  · intro h
    obtain ⟨y, rfl⟩ := Option.isSome_iff_exists.1 h
    obtain ⟨_, pr, k⟩ := ptr_bytes hI (by decide) g1
    have k := k 0 (by decide)
    exact ⟨_, k.1, rfl⟩
  · rintro ⟨c, h1, h2⟩
    cases r with
    | some y => rfl
    | none =>
      rcases g3 rfl with g | g
      · exact absurd (Nat.mod_one a) g
      · exfalso
        unfold view at h1
        split at h1
        · cases h1
        · next o p e =>
          obtain ⟨_, y, q, hq, hc, _, hy⟩ := hI.prog.off e
          have := g q hq hc
          unfold Entry.covers at hc
          rcases this with g | g
          · rw [if_pos g] at hy
            cases hy
          · omega
        · cases h1
          cases h2

/-- What Shadow reads of the program's memory is what the program has there. -/
theorem C57_read {L : List (Entry Region)} {s : St} (hI : Inv L s) {a n : Nat} {l : List Nat} (h : s.read a n = .ok (some l)) :
    l.length = n ∧ ∀ i, i < n → ∃ c, view s (a + i) = some c ∧ c.prot.r = true ∧ l[i]? = some c.byte := by
  unfold St.read at h
  by_cases hn : n = 0
  · subst hn
    rw [if_pos rfl] at h
    cases h
    exact ⟨rfl, fun i hi => by omega⟩
  rw [if_neg hn] at h
  obtain ⟨r, g1, h⟩ := R.bind_eq_ok.1 h
  cases r with
  | none => cases h
  | some y =>
    obtain ⟨l', g2, h⟩ := R.bind_eq_ok.1 h
    cases h
    obtain ⟨_, pr, k⟩ := ptr_bytes hI hn g1
    have k0 := k 0 (by omega)
    have hr : pr.r = true := peek_readable g2 (by omega) k0.2.1
    rw [peek_eq s (fun i hi => (k i hi).2.1) hr (fun i hi => (k i hi).2.2)] at g2
    cases g2
    refine ⟨by simp, fun i hi => ⟨_, (k i hi).1, hr, ?_⟩⟩
    simp [hi]

/-! ## Nothing is left over -/

/-- What Shadow has mapped is memory that the program has mapped now, with the same protection; no byte of it is mapped twice; and the
    file holds nothing but zeros elsewhere. -/
theorem C57_no_leak {L : List (Entry Region)} {s : St} (hI : Inv L s) :
    (∀ y o pr, s.shadow y = some (o, pr) → ∃ c, view s o = some c ∧ c.anon = true ∧ c.prot = pr) ∧
    (∀ y y' o pr pr', s.shadow y = some (o, pr) → s.shadow y' = some (o, pr') → y = y') ∧
    (∀ o, s.file o ≠ 0 → ∃ c, view s o = some c ∧ c.anon = true ∧ c.byte = s.file o) := by
  have key : ∀ {o pr y}, At L o pr (some y) → view s o = some ⟨pr, true, s.file o⟩ := by
    intro o pr y g
    unfold view
    rw [hI.prog.here g]
  refine ⟨?_, ?_, ?_⟩
  · intro y o pr h
    obtain ⟨pr', g⟩ := hI.own.tight h
    have := hI.own.here g
    rw [h] at this
    cases this
    exact ⟨_, key g, rfl, rfl⟩
  · intro y y' o pr pr' h h'
    obtain ⟨_, p, hp, hc, _, g⟩ := hI.own.tight h
    obtain ⟨_, q, hq, hc', _, g'⟩ := hI.own.tight h'
    have := covers_unique hI.table.good hp hq hc hc'
    subst this
    rw [← g'] at g
    exact Option.some.inj g
  · intro o h
    obtain ⟨pr, y, g⟩ := hI.own.zero h
    exact ⟨_, key g, rfl, rfl⟩

theorem dropAll_shadow (l : List (Entry Region)) : ∀ s : St, 0 < s.page → (∀ p ∈ l, p.1.1 < p.1.2 ∧ p.1.1 % s.page = 0 ∧ p.1.2 % s.page = 0 ∧ p.2.base % s.page = 0) → ∀ y,
    (s.dropAll (l.map (fun p => .removed p.1 p.2))).shadow y = none ∨
      ((s.dropAll (l.map (fun p => .removed p.1 p.2))).shadow y = s.shadow y ∧ ∀ p ∈ l, p.2.base ≠ 0 → ¬ (p.2.base ≤ y ∧ y < p.2.base + (p.1.2 - p.1.1))) := by
  induction l with
  | nil =>
    intro s _ _ y
    exact .inr ⟨rfl, fun p hp => by cases hp⟩
  | cons p l ih =>
    intro s hpos hal y
    rw [List.map_cons]
    unfold St.dropAll
    obtain ⟨g1, g2, g3, g4⟩ := hal p (by simp)
    by_cases hb : p.2.base = 0
    · rw [if_pos hb]
      rcases ih s hpos (fun q hq => hal q (by simp [hq])) y with h | ⟨h, h'⟩
      · exact .inl h
      · refine .inr ⟨h, fun q hq => ?_⟩
        rcases List.mem_cons.1 hq with rfl | hq
        · exact fun g => absurd hb g
        · exact h' q hq
    · rw [if_neg hb]
      have hs : sMunmap s p.2.base (p.1.2 - p.1.1) = { s with shadow := fun z => if p.2.base ≤ z ∧ z < p.2.base + (p.1.2 - p.1.1) then none else s.shadow z } := by
        unfold sMunmap
        rw [if_pos g4, pageUp_eq hpos (mod_sub g3 g2)]
      rw [hs]
      rcases ih { s with shadow := fun z => if p.2.base ≤ z ∧ z < p.2.base + (p.1.2 - p.1.1) then none else s.shadow z } hpos (fun q hq => hal q (by simp [hq])) y with h | ⟨h, h'⟩
      · exact .inl h
      · rw [h]
        simp only
        by_cases hy : p.2.base ≤ y ∧ y < p.2.base + (p.1.2 - p.1.1)
        · rw [if_pos hy]
          exact .inl rfl
        · rw [if_neg hy]
          refine .inr ⟨rfl, fun q hq => ?_⟩
          rcases List.mem_cons.1 hq with rfl | hq
          · exact fun _ => hy
          · exact h' q hq

theorem filterMap_all {l : List (Entry Region)} {f : Entry Region → Option (Mutation Region)} {g : Entry Region → Mutation Region} (h : ∀ p ∈ l, f p = some (g p)) :
    l.filterMap f = l.map g := by
  induction l with
  | nil => rfl
  | cons p l ih => rw [List.filterMap_cons, h p (by simp), List.map_cons, ih (fun q hq => h q (by simp [hq]))]

/-- At the end Shadow has unmapped everything. -/
theorem C57_drop {L : List (Entry Region)} {s : St} (hI : Inv L s) {top : Nat} (htop : ∀ x, top ≤ x → s.plugin x = none) (h0 : 0 < top) :
    ∃ t, s.drop top = .ok t ∧ ∀ y, t.shadow y = none := by
  have hG := hI.table.good
  have hle : ∀ p ∈ L, p.1.2 ≤ top := by
    intro p hp
    have hne := hG.ne p hp
    by_cases h : p.1.2 ≤ top
    · exact h
    · exact absurd ⟨by omega, by omega⟩ (hI.prog.gap (htop (p.1.2 - 1) (by omega)) p hp)
  have e : L.filterMap (change 0 top) = L.map (fun p => .removed p.1 p.2) := by
    refine filterMap_all fun p hp => ?_
    have hne := hG.ne p hp
    have := hle p hp
    unfold change
    rw [if_neg (by omega), if_neg (by omega), if_pos (by omega)]
  unfold St.drop IMap.clear
  rw [hI.table.reg, splice_spec hG h0, R.bind_ok]
  refine ⟨_, rfl, fun y => ?_⟩
  simp only
  rw [e]
  rcases dropAll_shadow L { s with regions := ofList (spliced L 0 top none) } hI.table.al.pos
    (fun p hp => ⟨hG.ne p hp, hI.table.al.s p hp, hI.table.al.e p hp, hI.table.al.base p hp⟩) y with h | ⟨h, h'⟩
  · exact h
  · rw [h]
    simp only
    cases hs : s.shadow y with
    | none => rfl
    | some m =>
      obtain ⟨o, pr⟩ := m
      obtain ⟨_, p, hp, hc, _, g⟩ := hI.own.tight hs
      exfalso
      by_cases hb : p.2.base = 0
      · rw [if_pos hb] at g; cases g
      · rw [if_neg hb] at g
        have := Option.some.inj g
        unfold Entry.covers at hc
        exact h' p hp hb ⟨by omega, by omega⟩

/-! ## The start -/

/-- When a program starts, the mapper takes its heap and its stack over without a change for the program: every byte that was mapped
    has the same value and protection as before, and what is new are zeros below the stack, so that it can grow to its limit. -/
theorem C57_start {page : Nat} {plugin : Nat → Option Map} {mem : Nat → Nat} {maps : List (Entry Region)} {brk hbase mx sbase : Nat} {t : St}
    (h : Image page plugin maps mx) (hbrk : brk % page = 0) (hmx : mx % page = 0) (hh : hbase ≠ 0 ∧ hbase % page = 0)
    (hs : ∀ m u, (getRegions maps IMap.new).bind coalesce = .ok m → St.getHeap ⟨page, plugin, mem, fun _ => 0, 0, fun _ => none, m, (0, 0)⟩ brk hbase = .ok u → Fresh u sbase (mx - page))
    (ht : init page plugin mem maps brk hbase mx sbase = .ok t) :
    (∃ L, Inv L t) ∧ HeapOk t ∧ t.page = page ∧ t.mem = mem ∧
      ∃ p ∈ maps, p.2.path = some .stack ∧ p.1.2 - page ≤ t.len ∧
      (∀ x m, plugin x = some m → ∃ c, view t x = some c ∧ c.prot = m.prot ∧ ∀ b, m.back = .other b → c.byte = mem b) ∧
      (∀ x, plugin x = none → view t x = if p.1.2 - mx ≤ x ∧ x < p.1.1 ∧ x < p.1.2 - page then some ⟨rw, true, 0⟩ else none) ∧
      (∀ x c, t.heap.1 ≤ x → x < t.heap.2 → view t x = some c → c.anon = true) := by
  obtain ⟨L, p, V, h1, h2, h3, h4, h5, h6, h7, rfl, h8, h9, h10⟩ := init_ok h hbrk hmx hh hs ht
  refine ⟨⟨L, h3⟩, h4, h5, h6, p, h1, h2, h7, ?_, ?_, h10⟩
  · intro x m hm
    cases hv : view (⟨page, plugin, mem, fun _ => 0, 0, fun _ => none, IMap.new, (0, 0)⟩ : St) x with
    | none =>
      rw [view_none] at hv
      simp only at hv
      rw [hm] at hv
      cases hv
    | some c =>
      obtain ⟨b, g⟩ := h8 x c hv
      refine ⟨_, g, ?_, ?_⟩
      · simp only
        unfold view at hv
        simp only [hm] at hv
        split at hv
        · cases hv
        · next e => cases e; cases hv; rfl
        · next e => cases e; cases hv; rfl
      · intro b' hb'
        simp only
        unfold view at hv
        simp only [hm] at hv
        split at hv
        · cases hv
        · next e => cases e; simp at hb'
        · next e => cases e; cases hv; cases hb'; rfl
  · intro x hx
    exact h9 x (view_none.2 hx)

/-! ## Histories -/

/-- A history of calls, stores of the program, and writes of Shadow. -/
inductive Run : St → List Act → St → Prop
  | nil (s : St) : Run s [] s
  | cons {s t u : St} {a : Act} {as : List Act} : Legal s a → step s a = some (.ok t) → Run t as u → Run s (a :: as) u

/-- Over any history the program sees what the specification of the calls says, one after the other. -/
theorem C57_history {s t : St} {as : List Act} (h : Run s as t) (hI : ∃ L, Inv L s) :
    (∃ L, Inv L t) ∧ (view t, t.heap) = as.foldl (fun p a => outcome s.mem p.1 p.2 a) (view s, s.heap) ∧ t.mem = s.mem ∧ s.len ≤ t.len := by
  induction h with
  | nil s => exact ⟨hI, rfl, rfl, Nat.le_refl _⟩
  | cons hl hs _ ih =>
    obtain ⟨L, hI⟩ := hI
    obtain ⟨h1, h2, _, h3⟩ := C57_calls hI hl hs
    obtain ⟨g1, g2, g3, g4⟩ := ih h3
    refine ⟨g1, ?_, by rw [g3, h2], Nat.le_trans (C57_file_length hs) g4⟩
    rw [List.foldl_cons, ← h1, g2, h2]

/-! ## A concrete program

Pages of 4 bytes: code, a heap of one page, a stack of three pages that may have four. -/

def rx : Prot := ⟨true, false, true⟩
def ro : Prot := ⟨true, false, false⟩

def plugin0 : Nat → Option Map := fun x =>
  if 8 ≤ x ∧ x < 12 then some ⟨.other x, rx⟩ else if (16 ≤ x ∧ x < 20) ∨ (92 ≤ x ∧ x < 104) then some ⟨.other x, rw⟩ else none

def maps0 : List (Entry Region) :=
  [((8, 12), ⟨0, rx, true, some (.file 7)⟩), ((16, 20), ⟨0, rw, true, some .heap⟩), ((92, 104), ⟨0, rw, true, some .stack⟩)]

def mem0 : Nat → Nat := fun c => c + 1

def start0 : R St := init 4 plugin0 mem0 maps0 20 1000 16 2000

def ex : St := match start0 with
  | .ok s => s
  | .panic => ⟨0, fun _ => none, mem0, fun _ => 0, 0, fun _ => none, IMap.new, (0, 0)⟩

theorem ex_ok : start0 = .ok ex := by rfl

theorem image0 : Image 4 plugin0 maps0 16 := by
  refine ⟨by decide, by decide, by decide, by decide, ?_, ?_, by decide, ?_, by decide⟩
  · intro p hp x h1 h2
    simp only [maps0, List.mem_cons, List.not_mem_nil, or_false] at hp
    rcases hp with rfl | rfl | rfl
    · exact ⟨x, if_pos ⟨h1, h2⟩⟩
    · refine ⟨x, ?_⟩
      simp only at h1 h2
      unfold plugin0
      rw [if_neg (by omega), if_pos (by omega)]
    · refine ⟨x, ?_⟩
      simp only at h1 h2
      unfold plugin0
      rw [if_neg (by omega), if_pos (by omega)]
  · intro x m h
    unfold plugin0 at h
    split at h
    · next h' => exact ⟨((8, 12), ⟨0, rx, true, some (.file 7)⟩), by simp [maps0], h'⟩
    · split at h
      · next h' =>
        rcases h' with h' | h'
        · exact ⟨((16, 20), ⟨0, rw, true, some .heap⟩), by simp [maps0], h'⟩
        · exact ⟨((92, 104), ⟨0, rw, true, some .stack⟩), by simp [maps0], h'⟩
      · cases h
  · intro p hp hs
    simp only [maps0, List.mem_cons, List.not_mem_nil, or_false] at hp
    rcases hp with rfl | rfl | rfl
    · cases hs
    · cases hs
    · refine ⟨rfl, ?_⟩
      intro x h1 h2
      simp only at h1 h2
      unfold plugin0
      rw [if_neg (by omega), if_neg (by omega)]

theorem fresh_range {s : St} {base n : Nat} (h0 : base ≠ 0) (h1 : base % s.page = 0) (h2 : (List.range n).all (fun j => (s.shadow (base + j)).isNone) = true) : Fresh s base n := by
  refine ⟨h0, h1, fun y g1 g2 => ?_⟩
  have := List.all_eq_true.1 h2 (y - base) (List.mem_range.2 (by omega))
  rw [show base + (y - base) = y by omega] at this
  exact Option.isNone_iff_eq_none.1 this

/-- The hypotheses of `C57_start` hold of it. -/
theorem ex_inv : (∃ L, Inv L ex) ∧ HeapOk ex := by
  have := C57_start (t := ex) (sbase := 2000) (brk := 20) (hbase := 1000) (mem := mem0) image0 (by decide) (by decide) ⟨by decide, by decide⟩ (by
    intro m u h1 h2
    cases h1
    cases h2
    exact fresh_range (by decide) rfl (by decide +kernel)) ex_ok
  exact ⟨this.1, this.2.1⟩

example : (List.range 110).filterMap (fun x => (view ex x).map (fun c => (x, c.anon, c.byte))) =
    [(8, false, 9), (9, false, 10), (10, false, 11), (11, false, 12), (16, true, 17), (17, true, 18), (18, true, 19), (19, true, 20),
     (88, true, 0), (89, true, 0), (90, true, 0), (91, true, 0), (92, true, 93), (93, true, 94), (94, true, 95), (95, true, 96),
     (96, true, 97), (97, true, 98), (98, true, 99), (99, true, 100), (100, false, 101), (101, false, 102), (102, false, 103), (103, false, 104)] := by
  decide +kernel

/-- Calls one after the other. -/
def exec : St → List Act → Option (R St)
  | s, [] => some (.ok s)
  | s, a :: as =>
    match step s a with
    | some (.ok t) => exec t as
    | r => r

/-- Whether a history ends in a failed assertion. -/
def fails (s : St) (as : List Act) : Bool := match exec s as with
  | some .panic => true
  | _ => false

/-- A check of the state after a history. -/
def checks (s : St) (as : List Act) (f : St → Bool) : Bool := match exec s as with
  | some (.ok t) => f t
  | _ => false

/-- What is seen of the bytes after a history. -/
def sees (s : St) (as : List Act) (l : List Nat) : Option (List (Option Cell)) := match exec s as with
  | some (.ok t) => some (l.map (view t))
  | _ => none

theorem fresh_clear {L : List (Entry Region)} {s : St} (hI : Inv L s) {a len base : Nat} {prot : Prot} {cells : Nat → Nat} (ha : a % s.page = 0) (hl : len % s.page = 0) (h0 : 0 < len)
    (hf : Fresh s base len) : ∀ u, (nMmap s a len prot cells).clearOut a (a + len) = .ok u → Fresh u base len := by
  intro u hu
  obtain ⟨t, e, F, _, O, _⟩ := clear_own (s := nMmap s a len prot cells) ⟨hI.table.reg, hI.table.good, hI.table.al⟩ (hI.own.state rfl rfl (Nat.le_refl _)) (a := a) (b := a + len) (by omega) ha (mod_add ha hl)
  rw [e] at hu
  cases hu
  refine ⟨hf.1, by rw [F.page]; exact hf.2.1, fun y g1 g2 => ?_⟩
  cases hs : u.shadow y with
  | none => rfl
  | some m =>
    obtain ⟨o, pr⟩ := m
    obtain ⟨pr', g⟩ := O.tight hs
    have := hI.own.here ((at_cut hI.table.good (by omega)).1 g).1
    rw [hf.2.2 y g1 g2] at this
    cases this

/-- Private anonymous memory of two pages. -/
def aMap (a : Nat) : Act := .mmap (some a) 8 rw true true 0 3000 (fun _ => 0)

/-- The hypotheses of `C57_calls`, `C57_panics`, `C57_heap` and `C57_history` hold of a concrete call, which does not fail. -/
example : Legal ex (aMap 40) ∧ Supported ex (aMap 40) ∧ (∀ x, touches (aMap 40) x → ¬ (ex.heap.1 ≤ x ∧ x < ex.heap.2)) ∧ ∃ t, step ex (aMap 40) = some (.ok t) ∧ Run ex [aMap 40] t := by
  obtain ⟨⟨L, hI⟩, hH⟩ := ex_inv
  have hl : Legal ex (aMap 40) := ⟨by decide +kernel, by decide +kernel, by decide, fun _ _ => fresh_clear hI (by decide +kernel) (by decide +kernel) (by decide) (fresh_range (by decide) rfl (by decide +kernel))⟩
  obtain ⟨t, ht⟩ : ∃ t, step ex (aMap 40) = some (.ok t) := ⟨_, rfl⟩
  refine ⟨hl, trivial, ?_, t, ht, .cons hl ht (.nil t)⟩
  intro x hx
  have : ex.heap = (16, 20) := rfl
  rw [this]
  unfold touches aMap at hx
  simp only at hx ⊢
  omega

/-- And of `brk`. -/
example : Legal ex (.brk 28 true 4000 id) ∧ Supported ex (.brk 28 true 4000 id) := by
  refine ⟨⟨ex_inv.2, fun _ => ⟨?_, ?_, fun _ => ⟨by decide +kernel, ?_⟩⟩⟩, .inr ⟨by decide +kernel, .inr ⟨by decide +kernel, fun _ => rfl⟩⟩⟩
  · intro x h1 h2
    have e : ex.heap = (16, 20) := rfl
    rw [e] at h1
    have : (List.range 8).all (fun j => (ex.plugin (20 + j)).isNone) = true := by decide +kernel
    have := List.all_eq_true.1 this (x - 20) (List.mem_range.2 (by omega))
    rw [show 20 + (x - 20) = x by simp only at h1; omega] at this
    exact Option.isNone_iff_eq_none.1 this
  · intro h
    have e : ex.heap = (16, 20) := rfl
    rw [e] at h
    cases h
  · intro p hp
    have e : ex.heap = (16, 20) := rfl
    rw [e]
    have : Fresh ex 4000 12 := fresh_range (by decide) rfl (by decide +kernel)
    exact ⟨this.1, this.2.1, fun y g1 g2 => .inl (this.2.2 y g1 g2)⟩

/-- New memory is zero, a store is seen, a mapping that moves takes its bytes along, and memory that is given back and taken again
    is zero. -/
example : sees ex [aMap 40] [39, 40, 47, 48] = some [none, some ⟨rw, true, 0⟩, some ⟨rw, true, 0⟩, none] ∧
    sees ex [aMap 40, .store 41 5] [40, 41] = some [some ⟨rw, true, 0⟩, some ⟨rw, true, 5⟩] ∧
    sees ex [aMap 40, .write 45 [7, 8], .mremap 40 8 12 true (some 60) 5000 id] [45, 46, 65, 66, 71] = some [none, none, some ⟨rw, true, 7⟩, some ⟨rw, true, 8⟩, some ⟨rw, true, 0⟩] ∧
    sees ex [aMap 40, .write 45 [7, 8], .munmap 44 4 true, aMap 40] [45, 46] = some [some ⟨rw, true, 0⟩, some ⟨rw, true, 0⟩] ∧
    sees ex [.brk 28 true 4000 id, .store 27 9, .brk 24 true 0 id, .brk 28 true 4000 id] [16, 23, 27, 28] = some [some ⟨rw, true, 17⟩, some ⟨rw, true, 0⟩, some ⟨rw, true, 0⟩, none] ∧
    sees ex [aMap 40, .mprotect 44 4 ro none] [43, 44] = some [some ⟨rw, true, 0⟩, some ⟨ro, true, 0⟩] := by
  decide +kernel

/-- There are pointers, and what is read through them is what was written. -/
example : ex.getPtr 93 5 1 = .ok (some 2005) ∧ ex.read 93 5 = .ok (some [94, 95, 96, 97, 98]) ∧ ex.getPtr 98 4 1 = .ok none ∧ ex.getPtr 8 1 1 = .ok none := by
  decide +kernel

example : (match ex.drop 104 with | .ok t => (t.shadow 1000).isNone && (t.shadow 2000).isNone && (ex.shadow 1000).isSome | .panic => false) = true := by
  decide +kernel

/-! ## Calls that end Shadow, or that go wrong -/

/-- `mremap` of a part of a mapping, or of two mappings next to each other, which are one for Linux. -/
theorem C57_mremap_part_panics : fails ex [aMap 40, .mremap 40 4 8 true (some 60) 5000 id] = true ∧
    fails ex [aMap 40, .mmap (some 48) 8 rw true true 0 6000 (fun _ => 0), .mremap 40 16 20 true (some 60) 5000 id] = true := by
  decide +kernel

/-- `mremap` of the heap or of the stack. -/
theorem C57_mremap_heap_panics : fails ex [.mremap 16 4 8 true (some 16) 5000 id] = true ∧ fails ex [.mremap 88 12 8 true (some 88) 5000 id] = true := by
  decide +kernel

/-- `mremap` that moves memory which cannot be read and written: Shadow copies the bytes itself, and the copy faults. -/
theorem C57_mremap_protected_panics : fails ex [aMap 40, .mprotect 40 8 ro none, .mremap 40 8 12 true (some 60) 5000 id] = true := by
  decide +kernel

/-- `mremap` with an old size of 0, of private memory (Linux answers with an error, or makes a new mapping). -/
theorem C57_mremap_zero_panics : fails ex [aMap 40, .mremap 40 0 8 true (some 60) 5000 id] = true := by
  decide +kernel

/-- `brk` with an address that is not at a page boundary, for every state; on Linux any address will do. -/
theorem C57_brk_unaligned_panics (s : St) {req base : Nat} {ok : Bool} {ext : Nat → Nat} (h : s.heap.1 ≤ req) (hr : req % s.page ≠ 0) : s.brk req ok base ext = .panic := by
  unfold St.brk
  rw [if_neg (by omega), show decide (req % s.page = 0) = false by simpa using hr]
  rfl

/-- `brk` that gives back the whole heap. -/
theorem C57_brk_all_panics (s : St) {base : Nat} {ok : Bool} {ext : Nat → Nat} (h : s.heap.1 < s.heap.2) : s.brk s.heap.1 ok base ext = .panic := by
  unfold St.brk
  rw [if_neg (by omega)]
  by_cases hp : s.heap.1 % s.page = 0
  · rw [show decide (s.heap.1 % s.page = 0) = true by simpa using hp, R.assert_true, R.bind_ok, if_neg (by omega), if_neg (by omega)]
    unfold St.shrinkHeap
    simp [R.assert_false]
  · rw [show decide (s.heap.1 % s.page = 0) = false by simpa using hp]
    rfl

/-- `brk` when there is something right after the heap: the kernel cannot extend the mapping, and Shadow ends; Linux answers with
    the old end. -/
theorem C57_brk_blocked_panics : fails ex [.mmap (some 20) 4 rw true true 0 3000 (fun _ => 0), .brk 24 false 4000 id] = true := by
  decide +kernel

/-- A program without a heap, with a mapping of its own at the place where the heap will be: the first `brk` replaces it.
    If it was in the memory file, Shadow keeps its old mapping of it as well. -/
theorem C57_brk_replaces : ∃ s : St, s.heap = (16, 16) ∧ 
    sees s [.mmap (some 20) 4 ro false true 7 0 id, .brk 24 true 4000 id] [20] = some [some ⟨rw, true, 0⟩] ∧
    checks s [.mmap (some 20) 4 rw true true 0 3000 (fun _ => 0), .store 20 9, .brk 24 true 4000 id]
      (fun t => decide (t.shadow 3000 = some (20, rw) ∧ t.shadow 4004 = some (20, rw))) = true :=
  ⟨⟨4, fun _ => none, mem0, fun _ => 0, 0, fun _ => none, IMap.new, (16, 16)⟩, rfl, by decide +kernel, by decide +kernel⟩

/-- After `mprotect` of a part of the heap the kernel does not extend it (it is two mappings), and the next `brk` ends Shadow. -/
theorem C57_brk_protected_panics : fails ex [.brk 24 true 4000 id, .mprotect 20 4 ro none, .brk 28 false 5000 id] = true := by
  decide +kernel

/-- Shadow writes to memory that the program may not write (a system call with such a buffer): Shadow ends; Linux answers `EFAULT`. -/
theorem C57_write_protected_panics : fails ex [aMap 40, .mprotect 40 8 ro none, .write 41 [1]] = true := by
  decide +kernel

/-- The length of `mmap` is not rounded up: bytes behind it can be stored to, and they are still there after the memory was unmapped
    and mapped again. -/
theorem C57_stale_bytes : sees ex [.mmap (some 40) 1 rw true true 0 3000 (fun _ => 0), .store 42 9, .munmap 40 1 true, .mmap (some 40) 4 rw true true 0 3000 (fun _ => 0)] [42] =
    some [some ⟨rw, true, 9⟩] := by
  decide +kernel

/-- The length of `munmap` is not rounded up: Shadow's table keeps memory that neither the program nor Shadow has any more, and a
    system call with a buffer there ends Shadow; Linux answers `EFAULT`. -/
theorem C57_munmap_part_panics : fails ex [aMap 40, .munmap 40 1 true, .write 41 [1]] = true ∧
    checks ex [aMap 40, .munmap 40 1 true] (fun t => decide (view t 41 = none ∧ t.read 41 1 = .panic)) = true := by
  decide +kernel

/-- `mprotect` of nothing. -/
theorem C57_mprotect_empty_panics : fails ex [.mprotect 40 0 ro none] = true := by
  decide +kernel

/-- `mprotect` that fails half-way: the program may no longer write a byte, but Shadow does. -/
theorem C57_mprotect_failed : checks ex [aMap 40, .mprotect 40 12 ro (some 8), .write 41 [5]] (fun t => decide (view t 41 = some ⟨ro, true, 5⟩)) = true := by
  decide +kernel

end Shadow.MemMap
