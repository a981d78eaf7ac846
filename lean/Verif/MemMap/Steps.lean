import Verif.MemMap.Start

/-!
# Every call does what its specification says
-/
namespace Shadow.MemMap

open Shadow.Base Shadow.IntervalMap

/-- What the program and the kernel owe: addresses and lengths are those of whole pages, the places that the kernel chooses in
    Shadow are free, a failed call of the kernel changes nothing, and for `brk` that the heap is as `brk` has left it, and that there is
    nothing after it. -/
def Legal (s : St) : Act → Prop
  | .mmap none _ _ _ _ _ _ _ => True
  | .mmap (some a) len prot anon priv _ base cells => a % s.page = 0 ∧ len % s.page = 0 ∧ 0 < len ∧
      (anon = true → priv = true → ∀ u, (nMmap s a len prot cells).clearOut a (a + len) = .ok u → Fresh u base len)
  | .munmap a len ok => ok = true → a % s.page = 0 ∧ len % s.page = 0
  | .mremap _ _ _ _ none _ _ => True
  | .mremap old osz nsz maymove (some new) base ext => new % s.page = 0 ∧ nsz % s.page = 0 ∧ 0 < nsz ∧ (osz = 0 → maymove = true) ∧
      (new = old ∧ osz ≠ 0 ∨ new + nsz ≤ old ∨ old + osz ≤ new) ∧
      ∀ t r, (nMremap s old osz new nsz ext).takeOld old osz new nsz = .ok (t, r) → r.base ≠ 0 →
        (new ≠ old → Fresh t base nsz) ∧ (new = old → osz < nsz → Room t r.base osz base nsz)
  | .brk req _ base _ => HeapOk s ∧ (s.heap.2 < req → (∀ x, s.heap.2 ≤ x → x < req → s.plugin x = none) ∧
      (s.heap.1 = s.heap.2 → Fresh s base (req - s.heap.1)) ∧
      (s.heap.1 < s.heap.2 → req ≤ s.len ∧ ∀ p, s.regions.get s.heap.1 = .ok (some p) → Room s p.2.base (s.heap.2 - s.heap.1) base (req - s.heap.1)))
  | .mprotect a len _ none => a % s.page = 0 ∧ len % s.page = 0 ∧ 0 < len
  | .mprotect _ _ _ (some n) => n = 0
  | .store _ _ => True
  | .write _ _ => True

/-- The addresses that a call other than `brk` maps, unmaps or protects. -/
def touches : Act → Nat → Prop
  | .mmap (some a) len _ _ _ _ _ _, x => a ≤ x ∧ x < a + len
  | .munmap a len ok, x => ok = true ∧ a ≤ x ∧ x < a + len
  | .mremap old osz nsz _ (some new) _ _, x => (old ≤ x ∧ x < old + osz) ∨ (new ≤ x ∧ x < new + nsz)
  | .mprotect a len _ none, x => a ≤ x ∧ x < a + len
  | _, _ => False

/-- What Shadow does not support ends with a failed assertion. -/
def Supported (s : St) : Act → Prop
  | .mremap old osz _ _ (some new) _ _ =>
    if osz = 0 then ∃ p, s.regions.get old = .ok (some p) ∧ p.2.priv = false ∧ p.2.base = 0
    else ∃ p, s.regions.get old = .ok (some p) ∧ p.1 = (old, old + osz) ∧ (p.2.base ≠ 0 → p.2.path = none) ∧
      (p.2.base ≠ 0 → new ≠ old → p.2.prot.r = true ∧ p.2.prot.w = true)
  | .brk req ok _ _ => req < s.heap.1 ∨ (req % s.page = 0 ∧ (req = s.heap.2 ∨ (req ≠ s.heap.1 ∧ (s.heap.1 < s.heap.2 → ok = true))))
  | .write a bytes => ∀ y, bytes.length ≠ 0 → s.getPtr a bytes.length 1 = .ok (some y) → ∃ m, s.plugin a = some m ∧ m.prot.w = true
  | _ => True

theorem done_refl {L : List (Entry Region)} {s : St} (h : Inv L s) : Done L (fun _ => False) s s (view s) s.heap :=
  ⟨⟨L, h, fun _ hp _ => hp⟩, rfl, rfl, rfl, rfl⟩

theorem nMprotect_zero {s : St} (hpos : 0 < s.page) (a : Nat) (prot : Prot) : nMprotect s a 0 prot = s := by
  unfold nMprotect
  rw [pageUp_eq hpos (by simp)]
  have : (fun x => if a ≤ x ∧ x < a + 0 then (s.plugin x).map (fun m => { m with prot := prot }) else s.plugin x) = s.plugin := by
    funext x
    rw [if_neg (by omega)]
  rw [this]

theorem over_empty (V : View) (a b : Nat) (h : b ≤ a) (f : Nat → Option Cell) : V.over a b f = V := by
  funext x
  unfold View.over
  rw [if_neg (by omega)]

theorem get_mem {L : List (Entry Region)} {s : St} (T : Table L s) {x : Nat} {p : Entry Region} : s.regions.get x = .ok (some p) ↔ p ∈ L ∧ p.covers x := by
  rw [T.reg]
  constructor
  · intro h
    by_cases hx : ∃ q ∈ L, q.covers x
    · obtain ⟨q, hq, hc⟩ := hx
      rw [get_some T.good hq hc] at h
      cases h
      exact ⟨hq, hc⟩
    · rw [get_none T.good (fun p hp hc => hx ⟨p, hp, hc⟩)] at h
      cases h
  · rintro ⟨hp, hc⟩
    exact get_some T.good hp hc

theorem iff_ok {o : Option (R St)} {t : St} {P : Prop} (h : o = some (.ok t)) (hP : P) : o = some .panic ↔ ¬ P :=
  ⟨fun e => (by rw [h] at e; cases e), fun e => absurd hP e⟩

theorem iff_panic {o : Option (R St)} {P : Prop} (h : o = some .panic) (hP : ¬ P) : o = some .panic ↔ ¬ P := ⟨fun _ => hP, fun _ => h⟩

/-- A call that does not fail does what its specification says; a supported call does not fail. -/
theorem step_done {L : List (Entry Region)} {s : St} (hI : Inv L s) {a : Act} (hl : Legal s a) :
    (∀ t, step s a = some (.ok t) → ∃ W, Done L W s t (outcome s.mem (view s) s.heap a).1 (outcome s.mem (view s) s.heap a).2 ∧ (((∀ x, W x → touches a x) ∧ (outcome s.mem (view s) s.heap a).2 = s.heap) ∨ HeapOk t)) ∧
    (step s a = some .panic ↔ ¬ Supported s a) := by
  have hpos := hI.table.al.pos
  cases a with
  | mmap res len prot anon priv path base cells =>
    cases res with
    | none =>
      refine ⟨fun t h => ?_, ?_⟩
      · cases h
        exact ⟨_, done_refl hI, .inl ⟨fun _ h => h, rfl⟩⟩
      · simp [step, St.mmap, Supported]
    | some a =>
      obtain ⟨h1, h2, h3, h4⟩ := hl
      obtain ⟨t, e, D⟩ := mmap_ok hI (path := path) h1 h2 h3 h4
      refine ⟨fun t' h => ?_, ?_⟩
      · simp only [step, e] at h
        cases h
        exact ⟨_, D, .inl ⟨fun _ h => h, rfl⟩⟩
      · simp [step, e, Supported]
  | munmap a len ok =>
    cases ok with
    | false =>
      refine ⟨fun t h => ?_, ?_⟩
      · cases h
        exact ⟨_, done_refl hI, .inl ⟨fun _ h => absurd h id, rfl⟩⟩
      · simp [step, St.munmap, Supported]
    | true =>
      obtain ⟨h1, h2⟩ := hl rfl
      obtain ⟨t, e, D⟩ := munmap_ok hI h1 h2
      refine ⟨fun t' h => ?_, ?_⟩
      · simp only [step, e] at h
        cases h
        exact ⟨_, D, .inl ⟨fun _ h => ⟨rfl, h⟩, rfl⟩⟩
      · simp [step, e, Supported]
  | mremap old osz nsz maymove res base ext =>
    cases res with
    | none =>
      refine ⟨fun t h => ?_, ?_⟩
      · cases h
        exact ⟨_, done_refl hI, .inl ⟨fun _ h => h, rfl⟩⟩
      · simp [step, St.mremap, Supported]
    | some new =>
      obtain ⟨h1, h2, h3, h4, h5, h6⟩ := hl
      by_cases h0 : osz = 0
      · subst h0
        have hm := h4 rfl
        subst hm
        have key : Supported s (.mremap old 0 nsz true (some new) base ext) ↔ ∃ p ∈ L, p.covers old ∧ p.2.priv = false ∧ p.2.base = 0 := by
          unfold Supported
          simp only [if_true]
          constructor
          · rintro ⟨p, g1, g2⟩
            obtain ⟨g3, g4⟩ := (get_mem hI.table).1 g1
            exact ⟨p, g3, g4, g2⟩
          · rintro ⟨p, g1, g2, g3⟩
            exact ⟨p, (get_mem hI.table).2 ⟨g1, g2⟩, g3⟩
        have hok : ∀ p ∈ L, p.covers old → p.2.priv = false → p.2.base = 0 → _ := fun p g1 g2 g3 g4 => duplicate_ok hI (base := base) (ext := ext) g1 g2 g3 g4 h1 h2 h3
        refine ⟨fun t h => ?_, ?_⟩
        · simp only [step] at h
          have h' := Option.some.inj h
          obtain ⟨p, g1, g2, g3, g4⟩ := duplicate_inv hI h'
          obtain ⟨t', e, D⟩ := hok p g1 g2 g3 g4
          rw [e] at h'
          cases h'
          exact ⟨_, D, .inl ⟨fun _ h => h, rfl⟩⟩
        · rw [key]
          constructor
          · rintro h ⟨p, g1, g2, g3, g4⟩
            obtain ⟨t', e, D⟩ := hok p g1 g2 g3 g4
            simp only [step, e] at h
            cases h
          · intro h
            cases hs : s.mremap old 0 nsz true (some new) base ext with
            | ok t => exact absurd (duplicate_inv hI hs) h
            | panic => simp only [step, hs]
      · have h5' : new = old ∨ new + nsz ≤ old ∨ old + osz ≤ new := by omega
        have key : Supported s (.mremap old osz nsz maymove (some new) base ext) ↔
            ∃ p ∈ L, p.1 = (old, old + osz) ∧ (p.2.base ≠ 0 → p.2.path = none) ∧ (p.2.base ≠ 0 → new ≠ old → p.2.prot.r = true ∧ p.2.prot.w = true) := by
          unfold Supported
          simp only [if_neg h0]
          constructor
          · rintro ⟨p, g1, g2⟩
            exact ⟨p, ((get_mem hI.table).1 g1).1, g2⟩
          · rintro ⟨p, g1, g2, g3⟩
            refine ⟨p, (get_mem hI.table).2 ⟨g1, ?_⟩, g2, g3⟩
            unfold Entry.covers
            rw [g2]
            simp only
            omega
        have hok : ∀ p ∈ L, p.1 = (old, old + osz) → (p.2.base ≠ 0 → p.2.path = none) → (p.2.base ≠ 0 → new ≠ old → p.2.prot.r = true ∧ p.2.prot.w = true) → _ :=
          fun p g1 g2 g3 g4 => mremap_ok hI (maymove := maymove) g1 g2 h1 h2 h3 h5' g3 g4 h6
        have hinv : ∀ t', s.mremap old osz nsz maymove (some new) base ext = .ok t' → _ :=
          fun t' h => mremap_inv hI h h0 h1 h2 h3 (fun t r g1 g2 g3 => (h6 t r g1 g2).1 g3)
        refine ⟨fun t h => ?_, ?_⟩
        · simp only [step] at h
          have h' := Option.some.inj h
          obtain ⟨p, g1, g2, g3, g4⟩ := hinv t h'
          obtain ⟨t', e, D⟩ := hok p g1 g2 g3 g4
          rw [e] at h'
          cases h'
          exact ⟨_, D, .inl ⟨fun _ h => h, rfl⟩⟩
        · rw [key]
          constructor
          · rintro h ⟨p, g1, g2, g3, g4⟩
            obtain ⟨t', e, D⟩ := hok p g1 g2 g3 g4
            simp only [step, e] at h
            cases h
          · intro h
            cases hs : s.mremap old osz nsz maymove (some new) base ext with
            | ok t => exact absurd (hinv t hs) h
            | panic => simp only [step, hs]
  | brk req ok base ext =>
    obtain ⟨hH, hgrow⟩ := hl
    have hheap := hI.heap
    by_cases c1 : req < s.heap.1
    · have e : s.brk req ok base ext = .ok (s, s.heap.2) := by
        unfold St.brk
        rw [if_pos c1]
        rfl
      refine ⟨fun t h => ?_, ?_⟩
      · simp only [step, e] at h
        cases h
        refine ⟨fun _ => False, ?_, .inr hH⟩
        have eo : outcome s.mem (view s) s.heap (.brk req ok base ext) = (view s, s.heap) := if_pos c1
        rw [eo]
        exact done_refl hI
      · exact iff_ok (t := s) (by simp only [step, e]) (.inl c1)
    by_cases c2 : req % s.page = 0
    · by_cases c3 : req = s.heap.2
      · have e : s.brk req ok base ext = .ok (s, req) := by
          unfold St.brk
          rw [if_neg c1, c2]
          simp only [decide_true, R.assert_true, R.bind_ok]
          rw [if_pos c3]
          rfl
        refine ⟨fun t h => ?_, ?_⟩
        · simp only [step, e] at h
          cases h
          refine ⟨fun _ => False, ?_, .inr hH⟩
          have eo : outcome s.mem (view s) s.heap (.brk req ok base ext) = (view s, s.heap) := by
            show (if _ then _ else _) = _
            rw [if_neg c1, if_pos (by omega), over_empty _ _ _ (by omega), c3]
          rw [eo]
          exact done_refl hI
        · exact iff_ok (t := s) (by simp only [step, e]) (.inr ⟨c2, .inl c3⟩)
      · by_cases c4 : s.heap.2 < req
        · have e : s.brk req ok base ext = (s.growHeap req ok base ext).bind fun s => .ok (s, req) := by
            unfold St.brk
            rw [if_neg c1, c2]
            simp only [decide_true, R.assert_true, R.bind_ok]
            rw [if_neg c3, if_pos c4]
            rfl
          have eo : outcome s.mem (view s) s.heap (.brk req ok base ext) = ((view s).over s.heap.2 req (zeros rw), (s.heap.1, req)) := by
            show (if _ then _ else _) = _
            rw [if_neg c1, if_neg (by omega)]
          obtain ⟨hfree, hz, hn⟩ := hgrow c4
          by_cases c5 : s.heap.1 = s.heap.2
          · obtain ⟨t, e1, H, D⟩ := growHeap_new (ok := ok) (ext := ext) hI c2 c4 c5 hfree (hz c5)
            rw [e1] at e
            have e' : s.brk req ok base ext = .ok (t, req) := e
            refine ⟨fun t' h => ?_, ?_⟩
            · simp only [step, e'] at h
              cases h
              rw [eo]
              exact ⟨_, D, .inr H⟩
            · exact iff_ok (t := t) (by simp only [step, e']) (.inr ⟨c2, .inr ⟨by omega, fun h => by omega⟩⟩)
          · have c6 : s.heap.1 < s.heap.2 := by omega
            obtain ⟨hlen, hroom⟩ := hn c6
            obtain ⟨p, k1, k2, k3, k4⟩ := hH c6
            have hp := ((get_mem hI.table).1 k1).1
            have hne : req ≠ s.heap.1 := by omega
            cases ok with
            | true =>
              obtain ⟨t, e1, H, D⟩ := growHeap_old (ext := ext) hI c2 c4 c6 hfree hp k2 k3 k4 hlen (hroom p k1)
              rw [e1] at e
              have e' : s.brk req true base ext = .ok (t, req) := e
              refine ⟨fun t' h => ?_, ?_⟩
              · simp only [step, e'] at h
                cases h
                rw [eo]
                exact ⟨_, D, .inr H⟩
              · exact iff_ok (t := t) (by simp only [step, e']) (.inr ⟨c2, .inr ⟨hne, fun _ => rfl⟩⟩)
            | false =>
              have e1 : s.growHeap req false base ext = .panic := by
                unfold St.growHeap
                rw [k1]
                simp only [R.bind_ok]
                rfl
              rw [e1] at e
              have e' : s.brk req false base ext = .panic := e
              refine ⟨fun t' h => ?_, ?_⟩
              · simp only [step, e'] at h
                cases h
              · refine iff_panic (by simp only [step, e']) ?_
                rintro (h | ⟨_, h | ⟨_, h⟩⟩)
                · exact c1 h
                · exact c3 h
                · cases h c6
        · have e : s.brk req ok base ext = (s.shrinkHeap req ok ext).bind fun s => .ok (s, req) := by
            unfold St.brk
            rw [if_neg c1, c2]
            simp only [decide_true, R.assert_true, R.bind_ok]
            rw [if_neg c3, if_neg c4]
            rfl
          have eo : outcome s.mem (view s) s.heap (.brk req ok base ext) = ((view s).over req s.heap.2 (fun _ => none), (s.heap.1, req)) := by
            show (if _ then _ else _) = _
            rw [if_neg c1, if_pos (by omega)]
          have c6 : s.heap.1 < s.heap.2 := by omega
          obtain ⟨p, k1, k2, k3, k4⟩ := hH c6
          have hp := ((get_mem hI.table).1 k1).1
          by_cases c5 : s.heap.1 = req
          · have e1 : s.shrinkHeap req ok ext = .panic := by
              unfold St.shrinkHeap
              simp [c5, R.assert_false]
            rw [e1] at e
            have e' : s.brk req ok base ext = .panic := e
            refine ⟨fun t' h => ?_, ?_⟩
            · simp only [step, e'] at h
              cases h
            · refine iff_panic (by simp only [step, e']) ?_
              rintro (h | ⟨_, h | ⟨h, _⟩⟩)
              · exact c1 h
              · exact c3 h
              · exact h c5.symm
          · have hne : req ≠ s.heap.1 := by omega
            cases ok with
            | true =>
              obtain ⟨t, e1, H, D⟩ := shrinkHeap_ok (ext := ext) hI c2 (by omega) (by omega) hp k2 k3 k4
              rw [e1] at e
              have e' : s.brk req true base ext = .ok (t, req) := e
              refine ⟨fun t' h => ?_, ?_⟩
              · simp only [step, e'] at h
                cases h
                rw [eo]
                exact ⟨_, D, .inr H⟩
              · exact iff_ok (t := t) (by simp only [step, e']) (.inr ⟨c2, .inr ⟨hne, fun _ => rfl⟩⟩)
            | false =>
              have e1 : s.shrinkHeap req false ext = .panic := by
                have hf : find s.regions s.heap.1 = .ok p := by
                  unfold find
                  rw [k1]
                  rfl
                unfold St.shrinkHeap
                rw [hf]
                simp only [decide_eq_false c5, Bool.not_false, R.assert_true, R.bind_ok]
                rfl
              rw [e1] at e
              have e' : s.brk req false base ext = .panic := e
              refine ⟨fun t' h => ?_, ?_⟩
              · simp only [step, e'] at h
                cases h
              · refine iff_panic (by simp only [step, e']) ?_
                rintro (h | ⟨_, h | ⟨_, h⟩⟩)
                · exact c1 h
                · exact c3 h
                · cases h c6
    · have e : s.brk req ok base ext = .panic := by
        unfold St.brk
        rw [if_neg c1]
        simp only [decide_eq_false c2, R.assert_false]
        rfl
      refine ⟨fun t' h => ?_, ?_⟩
      · simp only [step, e] at h
        cases h
      · refine iff_panic (by simp only [step, e]) ?_
        rintro (h | ⟨h, _⟩)
        · exact c1 h
        · exact c2 h
  | mprotect a len prot res =>
    cases res with
    | none =>
      obtain ⟨h1, h2, h3⟩ := hl
      obtain ⟨t, e, D⟩ := mprotect_ok hI (prot := prot) h1 h2 h3
      refine ⟨fun t' h => ?_, ?_⟩
      · simp only [step, e] at h
        cases h
        exact ⟨_, D, .inl ⟨fun _ h => h, rfl⟩⟩
      · simp [step, e, Supported]
    | some n =>
      have hn : n = 0 := hl
      subst hn
      have e : s.mprotect a len prot (some 0) = .ok s := by
        unfold St.mprotect
        simp only
        rw [nMprotect_zero hpos]
        rfl
      refine ⟨fun t' h => ?_, ?_⟩
      · simp only [step, e] at h
        cases h
        exact ⟨_, done_refl hI, .inl ⟨fun _ h => h, rfl⟩⟩
      · simp [step, e, Supported]
  | store x v =>
    refine ⟨fun t h => ?_, ?_⟩
    · simp only [step] at h
      obtain ⟨t', e, e'⟩ := Option.map_eq_some_iff.1 h
      cases e'
      exact ⟨_, store_ok hI e, .inl ⟨fun _ h => h, rfl⟩⟩
    · simp [step, Supported]
  | write a bytes =>
    have hs : step s (.write a bytes) = match s.write a bytes with | .ok none => none | .ok (some t) => some (.ok t) | .panic => some .panic := rfl
    refine ⟨fun t h => ?_, ?_⟩
    · have : s.write a bytes = .ok (some t) := by
        rw [hs] at h
        split at h
        · cases h
        · next e => cases h; exact e
        · cases h
      exact ⟨_, write_ok hI this, .inl ⟨fun _ h => h, rfl⟩⟩
    · have hp : step s (.write a bytes) = some .panic ↔ s.write a bytes = .panic := by
        rw [hs]
        cases s.write a bytes with
        | panic => simp
        | ok r => cases r <;> simp
      rw [hp]
      unfold St.write Supported
      by_cases h0 : bytes.length = 0
      · rw [if_pos h0]
        simp [h0]
      · rw [if_neg h0]
        obtain ⟨r, g1, g2, _⟩ := getPtr_spec hI (a := a) (align := 1) h0
        rw [g1, R.bind_ok]
        cases r with
        | none =>
          simp only
          refine ⟨fun h => (by cases h), fun h => absurd ?_ h⟩
          intro y _ e
          rw [g1] at e
          cases e
        | some y =>
          obtain ⟨_, pr, k⟩ := g2 y rfl
          have k0 := k 0 (by omega)
          rw [Nat.add_zero, Nat.add_zero] at k0
          simp only
          by_cases hw : pr.w = true
          · rw [poke_eq s (fun i hi => (k i hi).2.1) hw (fun i hi => Nat.lt_of_lt_of_le (k i hi).2.2 (le_pageUp hpos))]
            rw [k0.1]
            simp [hw]
          · have : s.poke y bytes = .panic := by
              cases hb : s.poke y bytes with
              | panic => rfl
              | ok t => exact absurd (poke_writable hb (by omega) k0.2.1) hw
            rw [this, k0.1]
            refine ⟨fun _ h => ?_, fun _ => rfl⟩
            obtain ⟨m, e1, e2⟩ := h y h0 g1
            cases e1
            exact hw e2

end Shadow.MemMap
