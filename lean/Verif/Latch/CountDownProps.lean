import Verif.Latch.CountDown

/-!
# C39 for the count-down latch

The contract (count_down_latch.rs:88-90): a counter counts down again only after all waiters returned from their wait for the last
generation, and there is a waiter. There are fewer than 2⁶⁴ - 1 counters and waiters.
-/
namespace Shadow.Latch.CountDown

open Shadow.Base

/-- What the users of the latch keep to. -/
def allowed (s : St) : Act → Prop
  | .countDown i => (∃ w ∈ s.ws, w.live = true) ∧ ∀ c, s.cs[i]? = some c → ∀ w ∈ s.ws, w.live = true → c.passed ≤ w.passed
  | .cloneCounter _ => s.cs.length + 1 < U
  | .cloneWaiter _ => s.ws.length + 1 < U
  | _ => True

inductive Run : St → Prop
  | init : Run .init
  | step {s s' : St} {a : Act} : Run s → allowed s a → step s a = some (.ok s') → Run s'

def Counter.at (r : Nat) (c : Counter) : Bool := c.live && decide (c.passed = r)
def Waiter.at (r : Nat) (w : Waiter) : Bool := w.live && decide (w.passed = r)

structure CInv (s : St) (c : Counter) : Prop where
  gen : c.gen = c.passed % U
  range : c.live = true → c.passed = s.rounds ∨ c.passed = s.rounds + 1
  pend : c.pending = true → c.live = true

structure WInv (s : St) (w : Waiter) : Prop where
  gen : w.gen = w.passed % U
  range : w.live = true → w.passed = s.rounds ∨ w.passed = s.rounds + 1
  inn : w.pc ≠ .out → w.live = true

structure Inv (s : St) : Prop where
  tC : s.totalC = s.cs.countP Counter.live
  tW : s.totalW = s.ws.countP Waiter.live
  nC : s.counters = s.cs.countP (Counter.at s.rounds)
  nW : s.waiters = s.ws.countP (Waiter.at s.rounds)
  cs : ∀ c ∈ s.cs, CInv s c
  ws : ∀ w ∈ s.ws, WInv s w
  gen : s.gen = s.rounds % U
  ahead : 0 < s.counters → ∀ w ∈ s.ws, w.live = true → w.passed = s.rounds
  zero : s.waiters = 0 → s.totalW = 0
  wk : s.counters = 0 → 0 < s.totalC → ∀ w ∈ s.ws, w.pc = .blocked false → w.passed = s.rounds → ∃ c ∈ s.cs, c.pending = true

theorem succ_ne (n : Nat) : (n + 1) % U ≠ n % U := by
  unfold U
  omega

theorem mod_succ (n : Nat) : (n % U + 1) % U = (n + 1) % U := by
  unfold U
  omega

theorem CInv.same {s : St} {c : Counter} (h : CInv s c) (hi : Inv s) (hl : c.live = true) : c.gen = s.gen ↔ c.passed = s.rounds := by
  rw [h.gen, hi.gen]
  rcases h.range hl with h1 | h1
  · rw [h1]; simp
  · rw [h1]
    constructor
    · intro h2; exact absurd h2 (succ_ne _)
    · omega

theorem WInv.same {s : St} {w : Waiter} (h : WInv s w) (hi : Inv s) (hl : w.live = true) : w.gen = s.gen ↔ w.passed = s.rounds := by
  rw [h.gen, hi.gen]
  rcases h.range hl with h1 | h1
  · rw [h1]; simp
  · rw [h1]
    constructor
    · intro h2; exact absurd h2 (succ_ne _)
    · omega

theorem CInv.at {s : St} {c : Counter} (h : CInv s c) (hi : Inv s) (hl : c.live = true) : c.at s.rounds = decide (c.gen = s.gen) := by
  unfold Counter.at
  rw [hl, Bool.true_and]
  exact decide_eq_decide.2 (h.same hi hl).symm

theorem WInv.at {s : St} {w : Waiter} (h : WInv s w) (hi : Inv s) (hl : w.live = true) : w.at s.rounds = decide (w.gen = s.gen) := by
  unfold Waiter.at
  rw [hl, Bool.true_and]
  exact decide_eq_decide.2 (h.same hi hl).symm

theorem checkedSub_ok {a : Nat} (h : 1 ≤ a) : checkedSub a = .ok (a - 1) := by
  simp only [checkedSub, decide_eq_true h, R.assert_true, R.bind_ok, R.pure_eq]

theorem checkedAdd_ok {a : Nat} (h : a + 1 < U) : checkedAdd a = .ok (a + 1) := by
  simp only [checkedAdd, decide_eq_true h, R.assert_true, R.bind_ok, R.pure_eq]

theorem filter_some {α : Type} {o : Option α} {p : α → Bool} {a : α} (h : o.filter p = some a) : o = some a ∧ p a = true := by
  cases o with
  | none => cases h
  | some b =>
    simp only [Option.filter] at h
    split at h
    · cases h; exact ⟨rfl, by assumption⟩
    · cases h

theorem Inv.posC {s : St} (hi : Inv s) {i : Nat} {c : Counter} (h : s.cs[i]? = some c) (hl : c.live = true) (hp : c.passed = s.rounds) : 1 ≤ s.counters := by
  rw [hi.nC]
  exact (countP_pos _ _).2 ⟨i, c, h, by simp [Counter.at, hl, hp]⟩

theorem Inv.posW {s : St} (hi : Inv s) {i : Nat} {w : Waiter} (h : s.ws[i]? = some w) (hl : w.live = true) (hp : w.passed = s.rounds) : 1 ≤ s.waiters := by
  rw [hi.nW]
  exact (countP_pos _ _).2 ⟨i, w, h, by simp [Waiter.at, hl, hp]⟩

/-- Nobody has to count down any more: everybody has. -/
theorem Inv.allC {s : St} (hi : Inv s) (h0 : s.counters = 0) {c : Counter} (hc : c ∈ s.cs) (hl : c.live = true) : c.passed = s.rounds + 1 := by
  rcases (hi.cs c hc).range hl with h1 | h1
  · exfalso
    obtain ⟨i, h⟩ := List.getElem?_of_mem hc
    have := hi.posC h hl h1
    omega
  · exact h1

theorem notify_fields (w : Waiter) : w.notify.gen = w.gen ∧ w.notify.passed = w.passed ∧ w.notify.live = w.live ∧ (w.notify.pc = .out ↔ w.pc = .out) ∧ w.notify.pc ≠ .blocked false := by
  unfold Waiter.notify
  cases h : w.pc with
  | out => simp [h]
  | blocked b => simp

theorem inv_notify {s : St} (hi : Inv s) : Inv s.notifyAll := by
  have hm : ∀ f : Waiter → Bool, (∀ w, f w.notify = f w) → (s.ws.map Waiter.notify).countP f = s.ws.countP f := by
    intro f hf
    rw [List.countP_map]
    congr 1
    funext w
    exact hf w
  refine ⟨hi.tC, ?_, hi.nC, ?_, fun c hc => ⟨(hi.cs c hc).gen, (hi.cs c hc).range, (hi.cs c hc).pend⟩, ?_, hi.gen, ?_, hi.zero, ?_⟩
  · show s.totalW = (s.ws.map Waiter.notify).countP Waiter.live
    rw [hm _ (fun w => (notify_fields w).2.2.1)]
    exact hi.tW
  · show s.waiters = (s.ws.map Waiter.notify).countP (Waiter.at s.rounds)
    rw [hm]
    · exact hi.nW
    · intro w
      unfold Waiter.at
      rw [(notify_fields w).2.1, (notify_fields w).2.2.1]
  · intro w' hw'
    obtain ⟨w, hw, rfl⟩ := List.mem_map.1 (show w' ∈ s.ws.map Waiter.notify from hw')
    have h := hi.ws w hw
    obtain ⟨e1, e2, e3, e4, e5⟩ := notify_fields w
    refine ⟨?_, ?_, ?_⟩
    · rw [e1, e2]; exact h.gen
    · rw [e2, e3]; exact h.range
    · rw [e3]
      intro hne
      exact h.inn (fun hc => hne (e4.2 hc))
  · intro h0 w' hw' hl
    obtain ⟨w, hw, rfl⟩ := List.mem_map.1 (show w' ∈ s.ws.map Waiter.notify from hw')
    obtain ⟨e1, e2, e3, e4, e5⟩ := notify_fields w
    rw [e2]
    rw [e3] at hl
    exact hi.ahead h0 w hw hl
  · intro h0 ht w' hw' hb
    obtain ⟨w, hw, rfl⟩ := List.mem_map.1 (show w' ∈ s.ws.map Waiter.notify from hw')
    exact absurd hb (notify_fields w).2.2.2.2

/-- The next generation begins when nobody has to count down or to wait in this one. -/
theorem inv_advance {s : St} (tC : s.totalC = s.cs.countP Counter.live) (tW : s.totalW = s.ws.countP Waiter.live)
    (nC : s.cs.countP (Counter.at s.rounds) = 0) (nW : s.ws.countP (Waiter.at s.rounds) = 0)
    (cs : ∀ c ∈ s.cs, CInv s c) (ws : ∀ w ∈ s.ws, WInv s w) (gen : s.gen = s.rounds % U) (hc : s.counters = 0) (hw : s.waiters = 0) :
    ∃ s', s.advance = .ok s' ∧ s' = { s with counters := s.totalC, waiters := s.totalW, gen := (s.gen + 1) % U, rounds := s.rounds + 1 } ∧ Inv s' := by
  refine ⟨_, ?_, rfl, ?_⟩
  · simp only [St.advance, decide_eq_true hc, decide_eq_true hw, R.assert_true, R.bind_ok, R.pure_eq]
  · have pC : ∀ c ∈ s.cs, c.live = true → c.passed = s.rounds + 1 := by
      intro c hc' hl
      rcases (cs c hc').range hl with h1 | h1
      · have := (countP_zero _ _).1 nC c hc'
        simp [Counter.at, hl, h1] at this
      · exact h1
    have pW : ∀ w ∈ s.ws, w.live = true → w.passed = s.rounds + 1 := by
      intro w hw' hl
      rcases (ws w hw').range hl with h1 | h1
      · have := (countP_zero _ _).1 nW w hw'
        simp [Waiter.at, hl, h1] at this
      · exact h1
    refine ⟨tC, tW, ?_, ?_, ?_, ?_, ?_, ?_, fun h => h, ?_⟩
    · show s.totalC = s.cs.countP (Counter.at (s.rounds + 1))
      rw [tC]
      apply List.countP_congr
      intro c hc'
      unfold Counter.at
      by_cases hl : c.live = true
      · simp [hl, pC c hc' hl]
      · simp [hl]
    · show s.totalW = s.ws.countP (Waiter.at (s.rounds + 1))
      rw [tW]
      apply List.countP_congr
      intro w hw'
      unfold Waiter.at
      by_cases hl : w.live = true
      · simp [hl, pW w hw' hl]
      · simp [hl]
    · exact fun c hc' => ⟨(cs c hc').gen, fun hl => .inl (pC c hc' hl), (cs c hc').pend⟩
    · exact fun w hw' => ⟨(ws w hw').gen, fun hl => .inl (pW w hw' hl), (ws w hw').inn⟩
    · show (s.gen + 1) % U = (s.rounds + 1) % U
      rw [gen]
      exact mod_succ _
    · exact fun _ w hw' hl => pW w hw' hl
    · intro h0 ht
      dsimp only at h0 ht
      omega

theorem inv_countDown {s : St} (hi : Inv s) {i : Nat} {c : Counter} (hc : s.cs[i]? = some c) (hl : c.live = true) (hp : c.passed = s.rounds) :
    ∃ s', countDown s i c = .ok s' ∧ s' = { s with counters := s.counters - 1, cs := s.cs.set i { c with gen := (c.gen + 1) % U, passed := c.passed + 1, pending := decide (s.counters - 1 = 0) } } ∧ Inv s' := by
  have hci := hi.cs c (List.mem_of_getElem? hc)
  have hg : c.gen = s.gen := (hci.same hi hl).2 hp
  have h1 := hi.posC hc hl hp
  refine ⟨_, ?_, rfl, ?_⟩
  · simp only [countDown, decide_eq_true hg, R.assert_true, R.bind_ok, R.pure_eq, checkedSub_ok h1]
  · let c' : Counter := { c with gen := (c.gen + 1) % U, passed := c.passed + 1, pending := decide (s.counters - 1 = 0) }
    have e1 := countP_set Counter.live _ _ _ c' hc
    have e2 := countP_set (Counter.at s.rounds) _ _ _ c' hc
    have a1 : c.at s.rounds = true := by simp [Counter.at, hl, hp]
    have a2 : c'.at s.rounds = false := by simp [Counter.at, c', hp]
    have a3 : c'.live = true := hl
    rw [a1, a2] at e2
    simp only [a3, hl] at e1
    simp only [Bool.toNat_true, Bool.toNat_false] at e1 e2
    have k1 := hi.tC
    have k2 := hi.nC
    refine ⟨?_, hi.tW, ?_, hi.nW, ?_, fun w hw => ⟨(hi.ws w hw).gen, (hi.ws w hw).range, (hi.ws w hw).inn⟩, hi.gen, ?_, hi.zero, ?_⟩
    · show s.totalC = (s.cs.set i c').countP _
      omega
    · show s.counters - 1 = (s.cs.set i c').countP (Counter.at s.rounds)
      omega
    · refine forall_set (fun d hd => ⟨(hi.cs d hd).gen, (hi.cs d hd).range, (hi.cs d hd).pend⟩) ⟨?_, ?_, ?_⟩ i
      · dsimp only
        rw [hci.gen]
        exact mod_succ _
      · intro _
        exact .inr (by dsimp only; rw [hp])
      · intro _; exact hl
    · intro h0
      dsimp only at h0
      exact hi.ahead (by omega)
    · intro h0 _ w hw _ _
      dsimp only at h0
      refine ⟨c', List.mem_of_getElem? (getElem?_set_self' hc), ?_⟩
      simp [c', h0]

theorem Inv.frame {s : St} {f : List Waiter} (hi : Inv s) (tW : s.totalW = f.countP Waiter.live) (nW : s.waiters = f.countP (Waiter.at s.rounds))
    (ws : ∀ w ∈ f, WInv s w) (ahead : 0 < s.counters → ∀ w ∈ f, w.live = true → w.passed = s.rounds)
    (wk : s.counters = 0 → 0 < s.totalC → ∀ w ∈ f, w.pc = .blocked false → w.passed = s.rounds → ∃ c ∈ s.cs, c.pending = true) :
    Inv { s with ws := f } :=
  ⟨hi.tC, tW, hi.nC, nW, fun c hc => ⟨(hi.cs c hc).gen, (hi.cs c hc).range, (hi.cs c hc).pend⟩, fun w hw => ⟨(ws w hw).gen, (ws w hw).range, (ws w hw).inn⟩,
    hi.gen, ahead, hi.zero, wk⟩

/-- A look at the condition: if it does not hold, the waiter leaves, and the generation with it if it is the last one. -/
theorem inv_wait {s : St} (hi : Inv s) {i : Nat} {w : Waiter} (hw : s.ws[i]? = some w) (hl : w.live = true) :
    (∃ s', wait s i w = .ok s' ∧ Inv s') ∧
    (blocks s w = true → wait s i w = .ok { s with ws := s.ws.set i { w with pc := .blocked false } }) ∧
    (blocks s w = false ↔ w.passed = s.rounds ∧ s.counters = 0) := by
  have hwi := hi.ws w (List.mem_of_getElem? hw)
  have hsame := hwi.same hi hl
  have hblk : blocks s w = false ↔ w.passed = s.rounds ∧ s.counters = 0 := by
    unfold blocks
    rw [Bool.or_eq_false_iff, decide_eq_false_iff_not, decide_eq_false_iff_not, Decidable.not_not, hsame]
    omega
  refine ⟨?_, ?_, hblk⟩
  · cases hb : blocks s w with
    | true =>
      refine ⟨_, by simp only [wait, hb]; rfl, ?_⟩
      let w' : Waiter := { w with pc := .blocked false }
      have e1 := countP_set Waiter.live _ _ _ w' hw
      have e2 := countP_set (Waiter.at s.rounds) _ _ _ w' hw
      have a1 : w'.at s.rounds = w.at s.rounds := rfl
      have a2 : w'.live = w.live := rfl
      rw [a1] at e2
      rw [a2] at e1
      have k1 := hi.tW
      have k2 := hi.nW
      refine hi.frame (f := s.ws.set i w') (by omega) (by omega) ?_ ?_ ?_
      · exact forall_set hi.ws (q := w') ⟨hwi.gen, hwi.range, fun _ => hl⟩ i
      · intro h0
        exact forall_set (hi.ahead h0) (q := w') (fun _ => hi.ahead h0 w (List.mem_of_getElem? hw) hl) i
      · intro h0 ht
        refine forall_set (hi.wk h0 ht) (q := w') ?_ i
        intro _ hp
        exfalso
        have := hblk.2 ⟨hp, h0⟩
        rw [hb] at this
        cases this
    | false =>
      obtain ⟨hp, h0⟩ := hblk.1 hb
      have h1 := hi.posW hw hl hp
      let w' : Waiter := { w with gen := (w.gen + 1) % U, passed := w.passed + 1, pc := .out }
      have e1 := countP_set Waiter.live _ _ _ w' hw
      have e2 := countP_set (Waiter.at s.rounds) _ _ _ w' hw
      have a1 : w.at s.rounds = true := by simp [Waiter.at, hl, hp]
      have a2 : w'.at s.rounds = false := by simp [Waiter.at, w', hp]
      have a3 : w'.live = true := hl
      rw [a1, a2] at e2
      simp only [a3, hl] at e1
      simp only [Bool.toNat_true, Bool.toNat_false] at e1 e2
      have k1 := hi.tW
      have k2 := hi.nW
      have hws : ∀ u ∈ s.ws.set i w', WInv s u := by
        refine forall_set hi.ws (q := w') ⟨?_, ?_, fun _ => hl⟩ i
        · show (w.gen + 1) % U = (w.passed + 1) % U
          rw [hwi.gen]
          exact mod_succ _
        · intro _
          exact .inr (by show w.passed + 1 = _; rw [hp])
      by_cases hn : s.waiters - 1 = 0
      · -- the last waiter
        let t : St := { s with waiters := s.waiters - 1, ws := s.ws.set i w' }
        obtain ⟨s', ha, he, hv⟩ := inv_advance (s := t) hi.tC (by show s.totalW = (s.ws.set i w').countP _; omega) (by show s.cs.countP (Counter.at s.rounds) = 0; rw [← hi.nC]; exact h0)
          (by show (s.ws.set i w').countP (Waiter.at s.rounds) = 0; omega) (fun c hc => ⟨(hi.cs c hc).gen, (hi.cs c hc).range, (hi.cs c hc).pend⟩)
          (fun u hu => ⟨(hws u hu).gen, (hws u hu).range, (hws u hu).inn⟩) hi.gen h0 hn
        refine ⟨s', ?_, hv⟩
        rw [he]
        simp only [wait, hb, leave, checkedSub_ok h1, R.bind_ok]
        rw [if_pos hn]
        simp only [St.advance, decide_eq_true h0, decide_eq_true hn, R.assert_true, R.bind_ok, R.pure_eq]
        rfl
      · refine ⟨{ s with waiters := s.waiters - 1, ws := s.ws.set i w' }, ?_, ?_⟩
        · simp only [wait, hb, leave, checkedSub_ok h1, R.bind_ok]
          rw [if_neg hn]
          rfl
        · refine ⟨hi.tC, ?_, hi.nC, ?_, fun c hc => ⟨(hi.cs c hc).gen, (hi.cs c hc).range, (hi.cs c hc).pend⟩, fun u hu => ⟨(hws u hu).gen, (hws u hu).range, (hws u hu).inn⟩, hi.gen, ?_, ?_, ?_⟩
          · show s.totalW = (s.ws.set i w').countP _
            omega
          · show s.waiters - 1 = (s.ws.set i w').countP (Waiter.at s.rounds)
            omega
          · intro h2
            dsimp only at h2
            omega
          · intro h2
            dsimp only at h2
            omega
          · intro _ ht
            exact forall_set (hi.wk h0 ht) (q := w') (fun hx => by cases hx) i
  · intro hb
    simp only [wait, hb]
    rfl

theorem inv_cloneC {s : St} (hi : Inv s) (hlen : s.cs.length + 1 < U) {i : Nat} {c : Counter} (hc : s.cs[i]? = some c) (hl : c.live = true) (hnp : c.pending = false) :
    ∃ s', cloneCounter s c = .ok s' ∧ Inv s' := by
  have hci := hi.cs c (List.mem_of_getElem? hc)
  have k1 := hi.tC
  have k2 := hi.nC
  have l1 := List.countP_le_length (p := Counter.live) (l := s.cs)
  have l2 := List.countP_le_length (p := Counter.at s.rounds) (l := s.cs)
  have t1 : s.totalC + 1 < U := by omega
  have t2 : s.counters + 1 < U := by omega
  have hat := hci.at hi hl
  have hpos : 0 < s.totalC := by
    rw [k1]
    exact (countP_pos _ _).2 ⟨i, c, hc, hl⟩
  have e1 : (s.cs ++ [c]).countP Counter.live = s.cs.countP Counter.live + 1 := by
    rw [List.countP_append]
    simp [hl]
  have e2 : (s.cs ++ [c]).countP (Counter.at s.rounds) = s.cs.countP (Counter.at s.rounds) + (c.at s.rounds).toNat := by
    rw [List.countP_append]
    cases hx : c.at s.rounds <;> simp [hx]
  have hcs : ∀ (t : St), t.rounds = s.rounds → ∀ d ∈ s.cs ++ [c], CInv t d := by
    intro t ht d hd
    rcases List.mem_append.1 hd with hd | hd
    · exact ⟨(hi.cs d hd).gen, by rw [ht]; exact (hi.cs d hd).range, (hi.cs d hd).pend⟩
    · rw [List.mem_singleton] at hd
      subst hd
      exact ⟨hci.gen, by rw [ht]; exact hci.range, hci.pend⟩
  by_cases hg : c.gen = s.gen
  · have hat' : c.at s.rounds = true := by rw [hat]; exact decide_eq_true hg
    have hp := (hci.same hi hl).1 hg
    have hpc := hi.posC hc hl hp
    refine ⟨{ s with totalC := s.totalC + 1, counters := s.counters + 1, cs := s.cs ++ [c] }, by simp only [cloneCounter, checkedAdd_ok t1, R.bind_ok, addIf, decide_eq_true hg, if_true, checkedAdd_ok t2, R.pure_eq], ?_⟩
    rw [hat'] at e2
    simp only [Bool.toNat_true] at e2
    refine ⟨?_, hi.tW, ?_, hi.nW, hcs _ rfl, fun w hw => ⟨(hi.ws w hw).gen, (hi.ws w hw).range, (hi.ws w hw).inn⟩, hi.gen, fun _ => hi.ahead (by omega), hi.zero, ?_⟩
    · dsimp only; omega
    · dsimp only; omega
    · intro h0
      dsimp only at h0
      omega
  · have hat' : c.at s.rounds = false := by rw [hat]; exact decide_eq_false hg
    refine ⟨{ s with totalC := s.totalC + 1, counters := s.counters, cs := s.cs ++ [c] }, by simp only [cloneCounter, checkedAdd_ok t1, R.bind_ok, addIf, decide_eq_false hg, R.pure_eq]; rfl, ?_⟩
    rw [hat'] at e2
    simp only [Bool.toNat_false] at e2
    refine ⟨?_, hi.tW, ?_, hi.nW, hcs _ rfl, fun w hw => ⟨(hi.ws w hw).gen, (hi.ws w hw).range, (hi.ws w hw).inn⟩, hi.gen, hi.ahead, hi.zero, ?_⟩
    · dsimp only; omega
    · dsimp only; omega
    · intro h0 _ w hw hb hp
      obtain ⟨d, hd, hdp⟩ := hi.wk h0 hpos w hw hb hp
      exact ⟨d, List.mem_append_left _ hd, hdp⟩

theorem inv_cloneW {s : St} (hi : Inv s) (hlen : s.ws.length + 1 < U) {i : Nat} {w : Waiter} (hw : s.ws[i]? = some w) (hl : w.live = true) (hout : w.pc = .out) :
    ∃ s', cloneWaiter s w = .ok s' ∧ Inv s' := by
  have hwi := hi.ws w (List.mem_of_getElem? hw)
  have k1 := hi.tW
  have k2 := hi.nW
  have l1 := List.countP_le_length (p := Waiter.live) (l := s.ws)
  have l2 := List.countP_le_length (p := Waiter.at s.rounds) (l := s.ws)
  have t1 : s.totalW + 1 < U := by omega
  have t2 : s.waiters + 1 < U := by omega
  have hat := hwi.at hi hl
  have hpos : 0 < s.totalW := by
    rw [k1]
    exact (countP_pos _ _).2 ⟨i, w, hw, hl⟩
  have hz := hi.zero
  have e1 : (s.ws ++ [w]).countP Waiter.live = s.ws.countP Waiter.live + 1 := by
    rw [List.countP_append]
    simp [hl]
  have e2 : (s.ws ++ [w]).countP (Waiter.at s.rounds) = s.ws.countP (Waiter.at s.rounds) + (w.at s.rounds).toNat := by
    rw [List.countP_append]
    cases hx : w.at s.rounds <;> simp [hx]
  have happ : ∀ P : Waiter → Prop, (∀ u ∈ s.ws, P u) → ∀ u ∈ s.ws ++ [w], P u := by
    intro P hP u hu
    rcases List.mem_append.1 hu with hu | hu
    · exact hP u hu
    · rw [List.mem_singleton] at hu
      subst hu
      exact hP u (List.mem_of_getElem? hw)
  by_cases hg : w.gen = s.gen
  · have hat' : w.at s.rounds = true := by rw [hat]; exact decide_eq_true hg
    refine ⟨{ s with totalW := s.totalW + 1, waiters := s.waiters + 1, ws := s.ws ++ [w] }, by simp only [cloneWaiter, checkedAdd_ok t1, R.bind_ok, addIf, decide_eq_true hg, if_true, checkedAdd_ok t2, R.pure_eq], ?_⟩
    rw [hat'] at e2
    simp only [Bool.toNat_true] at e2
    refine ⟨hi.tC, ?_, hi.nC, ?_, fun c hc => ⟨(hi.cs c hc).gen, (hi.cs c hc).range, (hi.cs c hc).pend⟩, happ _ fun u hu => ⟨(hi.ws u hu).gen, (hi.ws u hu).range, (hi.ws u hu).inn⟩, hi.gen,
      fun h0 => happ _ (hi.ahead h0), ?_, fun h0 ht => happ _ (hi.wk h0 ht)⟩
    · dsimp only; omega
    · dsimp only; omega
    · intro h0
      dsimp only at h0
      omega
  · have hat' : w.at s.rounds = false := by rw [hat]; exact decide_eq_false hg
    refine ⟨{ s with totalW := s.totalW + 1, waiters := s.waiters, ws := s.ws ++ [w] }, by simp only [cloneWaiter, checkedAdd_ok t1, R.bind_ok, addIf, decide_eq_false hg, R.pure_eq]; rfl, ?_⟩
    rw [hat'] at e2
    simp only [Bool.toNat_false] at e2
    refine ⟨hi.tC, ?_, hi.nC, ?_, fun c hc => ⟨(hi.cs c hc).gen, (hi.cs c hc).range, (hi.cs c hc).pend⟩, happ _ fun u hu => ⟨(hi.ws u hu).gen, (hi.ws u hu).range, (hi.ws u hu).inn⟩, hi.gen,
      fun h0 => happ _ (hi.ahead h0), ?_, fun h0 ht => happ _ (hi.wk h0 ht)⟩
    · dsimp only; omega
    · dsimp only; omega
    · intro h0
      dsimp only at h0 ⊢
      have := hz h0
      omega

theorem inv_dropC {s : St} (hi : Inv s) {i : Nat} {c : Counter} (hc : s.cs[i]? = some c) (hl : c.live = true) (hnp : c.pending = false) :
    ∃ s', dropCounter s i c = .ok s' ∧ Inv s' := by
  have hci := hi.cs c (List.mem_of_getElem? hc)
  have k1 := hi.tC
  have k2 := hi.nC
  have hat := hci.at hi hl
  have hpos : 1 ≤ s.totalC := by
    rw [k1]
    exact (countP_pos _ _).2 ⟨i, c, hc, hl⟩
  let c' : Counter := { c with live := false }
  have e1 := countP_set Counter.live _ _ _ c' hc
  have e2 := countP_set (Counter.at s.rounds) _ _ _ c' hc
  have a2 : c'.at s.rounds = false := by simp [Counter.at, c']
  have a3 : c'.live = false := rfl
  rw [a2] at e2
  simp only [a3, hl] at e1
  simp only [Bool.toNat_true, Bool.toNat_false] at e1 e2
  -- the state before the notification
  have key : ∀ n, n = s.counters - (c.at s.rounds).toNat →
      Inv (if n = 0 then ({ s with totalC := s.totalC - 1, counters := n, cs := s.cs.set i c' } : St).notifyAll else { s with totalC := s.totalC - 1, counters := n, cs := s.cs.set i c' }) := by
    intro n hn
    have hbase : ∀ f : List Waiter, f = (if n = 0 then s.ws.map Waiter.notify else s.ws) → Inv { s with totalC := s.totalC - 1, counters := n, cs := s.cs.set i c', ws := f } := by
      intro f hf
      have hfm : ∀ u ∈ f, ∃ v ∈ s.ws, u.gen = v.gen ∧ u.passed = v.passed ∧ u.live = v.live ∧ (u.pc ≠ .out → v.pc ≠ .out) ∧ (n = 0 → u.pc ≠ .blocked false) := by
        intro u hu
        rw [hf] at hu
        split at hu
        · obtain ⟨v, hv, rfl⟩ := List.mem_map.1 hu
          obtain ⟨n1, n2, n3, n4, n5⟩ := notify_fields v
          exact ⟨v, hv, n1, n2, n3, fun hx hy => hx (n4.2 hy), fun _ => n5⟩
        · rename_i hn0
          exact ⟨u, hu, rfl, rfl, rfl, fun hx => hx, fun h => absurd h hn0⟩
      have hcnt : ∀ g : Waiter → Bool, (∀ w : Waiter, g w.notify = g w) → f.countP g = s.ws.countP g := by
        intro g hg
        rw [hf]
        split
        · rw [List.countP_map]
          congr 1
          funext w
          exact hg w
        · rfl
      refine ⟨?_, ?_, ?_, ?_, ?_, ?_, hi.gen, ?_, hi.zero, ?_⟩
      · show s.totalC - 1 = (s.cs.set i c').countP _
        omega
      · show s.totalW = f.countP _
        rw [hcnt _ (fun w => (notify_fields w).2.2.1)]
        exact hi.tW
      · show n = (s.cs.set i c').countP (Counter.at s.rounds)
        omega
      · show s.waiters = f.countP _
        rw [hcnt]
        · exact hi.nW
        · intro w
          unfold Waiter.at
          rw [(notify_fields w).2.1, (notify_fields w).2.2.1]
      · refine forall_set (fun d hd => ⟨(hi.cs d hd).gen, (hi.cs d hd).range, (hi.cs d hd).pend⟩) ⟨hci.gen, ?_, ?_⟩ i
        · intro hx; cases hx
        · intro hx
          have : c.pending = true := hx
          rw [hnp] at this
          cases this
      · intro u hu
        obtain ⟨v, hv, n1, n2, n3, n4, n5⟩ := hfm u hu
        have := hi.ws v hv
        exact ⟨by rw [n1, n2]; exact this.gen, by rw [n2, n3]; exact this.range, by rw [n3]; exact fun hx => this.inn (n4 hx)⟩
      · intro h0 u hu hl'
        dsimp only at h0
        obtain ⟨v, hv, n1, n2, n3, n4, n5⟩ := hfm u hu
        rw [n2]
        rw [n3] at hl'
        exact hi.ahead (by omega) v hv hl'
      · intro h0 _ u hu hb
        dsimp only at h0
        obtain ⟨v, hv, n1, n2, n3, n4, n5⟩ := hfm u hu
        exact absurd hb (n5 h0)
    split
    · rename_i h0
      exact hbase _ (by rw [if_pos h0])
    · rename_i h0
      exact hbase s.ws (by rw [if_neg h0])
  by_cases hg : c.gen = s.gen
  · have hat' : c.at s.rounds = true := by rw [hat]; exact decide_eq_true hg
    have hpc := hi.posC hc hl ((hci.same hi hl).1 hg)
    refine ⟨_, ?_, key (s.counters - 1) (by rw [hat']; rfl)⟩
    simp only [dropCounter, checkedSub_ok hpos, R.bind_ok, subIf, decide_eq_true hg, if_true, checkedSub_ok hpc, R.pure_eq]
    rfl
  · have hat' : c.at s.rounds = false := by rw [hat]; exact decide_eq_false hg
    refine ⟨if s.counters = 0 then ({ s with totalC := s.totalC - 1, counters := s.counters, cs := s.cs.set i c' } : St).notifyAll else { s with totalC := s.totalC - 1, counters := s.counters, cs := s.cs.set i c' }, ?_, ?_⟩
    · simp only [dropCounter, checkedSub_ok hpos, R.bind_ok, subIf, decide_eq_false hg, R.pure_eq]
      rfl
    · exact key _ (by rw [hat']; rfl)

theorem inv_dropW {s : St} (hi : Inv s) {i : Nat} {w : Waiter} (hw : s.ws[i]? = some w) (hl : w.live = true) (hout : w.pc = .out) :
    ∃ s', dropWaiter s i w = .ok s' ∧ Inv s' := by
  have hwi := hi.ws w (List.mem_of_getElem? hw)
  have k1 := hi.tW
  have k2 := hi.nW
  have hat := hwi.at hi hl
  have hpos : 1 ≤ s.totalW := by
    rw [k1]
    exact (countP_pos _ _).2 ⟨i, w, hw, hl⟩
  let w' : Waiter := { w with live := false }
  have e1 := countP_set Waiter.live _ _ _ w' hw
  have e2 := countP_set (Waiter.at s.rounds) _ _ _ w' hw
  have a2 : w'.at s.rounds = false := by simp [Waiter.at, w']
  have a3 : w'.live = false := rfl
  rw [a2] at e2
  simp only [a3, hl] at e1
  simp only [Bool.toNat_true, Bool.toNat_false] at e1 e2
  have hws : ∀ u ∈ s.ws.set i w', WInv s u := by
    refine forall_set hi.ws (q := w') ⟨hwi.gen, ?_, ?_⟩ i
    · intro hx; cases hx
    · intro hx
      exact absurd hout hx
  have hwz := hi.zero
  have key : ∀ n, n = s.waiters - (w.at s.rounds).toNat →
      ∃ s', (if n = 0 ∧ s.counters = 0 then ({ s with totalW := s.totalW - 1, waiters := n, ws := s.ws.set i w' } : St).advance
        else .ok { s with totalW := s.totalW - 1, waiters := n, ws := s.ws.set i w' }) = R.ok s' ∧ Inv s' := by
    intro n hn
    by_cases hz : n = 0 ∧ s.counters = 0
    · rw [if_pos hz]
      obtain ⟨s', ha, _, hv⟩ := inv_advance (s := { s with totalW := s.totalW - 1, waiters := n, ws := s.ws.set i w' }) hi.tC
        (by show s.totalW - 1 = (s.ws.set i w').countP _; omega) (by show s.cs.countP (Counter.at s.rounds) = 0; rw [← hi.nC]; exact hz.2)
        (by show (s.ws.set i w').countP (Waiter.at s.rounds) = 0; omega) (fun c hc => ⟨(hi.cs c hc).gen, (hi.cs c hc).range, (hi.cs c hc).pend⟩)
        (fun u hu => ⟨(hws u hu).gen, (hws u hu).range, (hws u hu).inn⟩) hi.gen hz.2 hz.1
      exact ⟨s', ha, hv⟩
    · rw [if_neg hz]
      refine ⟨_, rfl, hi.tC, ?_, hi.nC, ?_, fun c hc => ⟨(hi.cs c hc).gen, (hi.cs c hc).range, (hi.cs c hc).pend⟩, fun u hu => ⟨(hws u hu).gen, (hws u hu).range, (hws u hu).inn⟩, hi.gen, ?_, ?_, ?_⟩
      · show s.totalW - 1 = (s.ws.set i w').countP _
        omega
      · show n = (s.ws.set i w').countP (Waiter.at s.rounds)
        omega
      · intro h0
        refine forall_set (hi.ahead h0) (q := w') ?_ i
        intro hx; cases hx
      · intro h0
        dsimp only at h0 ⊢
        -- all that are left have not waited yet, and there is none
        have hc0 : 0 < s.counters := by
          rcases Nat.eq_zero_or_pos s.counters with hc | hc
          · exact absurd ⟨h0, hc⟩ hz
          · exact hc
        have hlast : (s.ws.set i w').countP Waiter.live = (s.ws.set i w').countP (Waiter.at s.rounds) := by
          apply List.countP_congr
          intro u hu
          unfold Waiter.at
          by_cases hul : u.live = true
          · have : u.passed = s.rounds := by
              rcases List.mem_or_eq_of_mem_set hu with h | h
              · exact hi.ahead hc0 u h hul
              · rw [h] at hul; cases hul
            simp [hul, this]
          · simp [hul]
        omega
      · intro h0 ht
        refine forall_set (hi.wk h0 ht) (q := w') ?_ i
        intro hx
        exfalso
        have hx' : w.pc = .blocked false := hx
        rw [hout] at hx'
        cases hx'
  by_cases hg : w.gen = s.gen
  · have hat' : w.at s.rounds = true := by rw [hat]; exact decide_eq_true hg
    have hpc := hi.posW hw hl ((hwi.same hi hl).1 hg)
    obtain ⟨s', h1, h2⟩ := key (s.waiters - 1) (by rw [hat']; rfl)
    refine ⟨s', ?_, h2⟩
    rw [← h1]
    simp only [dropWaiter, checkedSub_ok hpos, R.bind_ok, subIf, decide_eq_true hg, if_true, checkedSub_ok hpc]
    rfl
  · have hat' : w.at s.rounds = false := by rw [hat]; exact decide_eq_false hg
    obtain ⟨s', h1, h2⟩ := key s.waiters (by rw [hat']; rfl)
    refine ⟨s', ?_, h2⟩
    rw [← h1]
    simp only [dropWaiter, checkedSub_ok hpos, R.bind_ok, subIf, decide_eq_false hg]
    rfl

theorem counter_some {s : St} {i : Nat} {c : Counter} (h : s.counter i = some c) : s.cs[i]? = some c ∧ c.live = true ∧ c.pending = false := by
  obtain ⟨h1, h2⟩ := filter_some h
  simp only [Bool.and_eq_true, Bool.not_eq_true'] at h2
  exact ⟨h1, h2.1, h2.2⟩

theorem waiter_some {s : St} {i : Nat} {w : Waiter} (h : s.waiter i = some w) : s.ws[i]? = some w ∧ w.live = true ∧ w.pc = .out := by
  obtain ⟨h1, h2⟩ := filter_some h
  simp only [Bool.and_eq_true, decide_eq_true_eq] at h2
  exact ⟨h1, h2.1, h2.2⟩

theorem map_some {α β : Type} {o : Option α} {f : α → β} {b : β} (h : o.map f = some b) : ∃ a, o = some a ∧ b = f a := by
  cases o with
  | none => cases h
  | some a => cases h; exact ⟨a, rfl, rfl⟩

/-- Within the contract a counter counts down in the current generation. -/
theorem Inv.turn {s : St} (hi : Inv s) {i : Nat} {c : Counter} (hc : s.cs[i]? = some c) (hl : c.live = true) (ha : allowed s (.countDown i)) : c.passed = s.rounds := by
  obtain ⟨⟨w, hw, hwl⟩, ha⟩ := ha
  rcases (hi.cs c (List.mem_of_getElem? hc)).range hl with h1 | h1
  · exact h1
  · exfalso
    have hz : s.waiters = 0 := by
      rw [hi.nW, countP_zero]
      intro u hu
      unfold Waiter.at
      by_cases hul : u.live = true
      · have := ha c hc u hu hul
        have hne : u.passed ≠ s.rounds := by omega
        simp [hne]
      · simp [hul]
    have h2 := hi.zero hz
    rw [hi.tW, countP_zero] at h2
    have := h2 w hw
    rw [hwl] at this
    cases this

theorem inv_step {s : St} (hi : Inv s) {a : Act} (ha : allowed s a) {r : R St} (h : step s a = some r) : ∃ s', r = .ok s' ∧ Inv s' := by
  cases a with
  | countDown i =>
    obtain ⟨c, hc, rfl⟩ := map_some h
    obtain ⟨hc, hl, hnp⟩ := counter_some hc
    obtain ⟨s', h1, _, h2⟩ := inv_countDown hi hc hl (hi.turn hc hl ha)
    exact ⟨s', h1, h2⟩
  | notify i =>
    obtain ⟨c, hc, rfl⟩ := map_some h
    obtain ⟨hc, hp⟩ := filter_some hc
    refine ⟨_, rfl, ?_⟩
    have hci := hi.cs c (List.mem_of_getElem? hc)
    have hn := inv_notify hi
    let c' : Counter := { c with pending := false }
    have e1 := countP_set Counter.live _ _ _ c' hc
    have e2 := countP_set (Counter.at s.rounds) _ _ _ c' hc
    have a1 : c'.at s.rounds = c.at s.rounds := rfl
    have a2 : c'.live = c.live := rfl
    rw [a1] at e2
    rw [a2] at e1
    have k1 := hi.tC
    have k2 := hi.nC
    refine ⟨?_, hn.tW, ?_, hn.nW, ?_, fun w hw => ⟨(hn.ws w hw).gen, (hn.ws w hw).range, (hn.ws w hw).inn⟩, hn.gen, hn.ahead, hn.zero, ?_⟩
    · show s.totalC = (s.cs.set i c').countP _
      omega
    · show s.counters = (s.cs.set i c').countP (Counter.at s.rounds)
      omega
    · refine forall_set (fun d hd => ⟨(hi.cs d hd).gen, (hi.cs d hd).range, (hi.cs d hd).pend⟩) ⟨hci.gen, hci.range, fun hx => by cases hx⟩ i
    · intro _ _ w hw hb
      obtain ⟨v, hv, rfl⟩ := List.mem_map.1 (show w ∈ s.ws.map Waiter.notify from hw)
      exact absurd hb (notify_fields v).2.2.2.2
  | wait i =>
    obtain ⟨w, hw, rfl⟩ := map_some h
    obtain ⟨hw, hl, _⟩ := waiter_some hw
    exact (inv_wait hi hw hl).1
  | wake i =>
    obtain ⟨w, hw, rfl⟩ := map_some h
    obtain ⟨hw, hp⟩ := filter_some hw
    exact (inv_wait hi hw ((hi.ws w (List.mem_of_getElem? hw)).inn (by simpa using hp))).1
  | cloneCounter i =>
    obtain ⟨c, hc, rfl⟩ := map_some h
    obtain ⟨hc, hl, hnp⟩ := counter_some hc
    exact inv_cloneC hi ha hc hl hnp
  | cloneWaiter i =>
    obtain ⟨w, hw, rfl⟩ := map_some h
    obtain ⟨hw, hl, ho⟩ := waiter_some hw
    exact inv_cloneW hi ha hw hl ho
  | dropCounter i =>
    obtain ⟨c, hc, rfl⟩ := map_some h
    obtain ⟨hc, hl, hnp⟩ := counter_some hc
    exact inv_dropC hi hc hl hnp
  | dropWaiter i =>
    obtain ⟨w, hw, rfl⟩ := map_some h
    obtain ⟨hw, hl, ho⟩ := waiter_some hw
    exact inv_dropW hi hw hl ho

theorem inv_init : Inv .init := by
  refine ⟨rfl, rfl, rfl, rfl, ?_, ?_, rfl, ?_, ?_, ?_⟩
  · intro c hc
    simp only [St.init, List.mem_singleton] at hc
    subst hc
    exact ⟨rfl, fun _ => .inl rfl, fun hx => by cases hx⟩
  · intro w hw
    simp only [St.init, List.mem_singleton] at hw
    subst hw
    exact ⟨rfl, fun _ => .inl rfl, fun hx => absurd rfl hx⟩
  · intro _ w hw _
    simp only [St.init, List.mem_singleton] at hw
    subst hw
    rfl
  · intro hx; cases hx
  · intro hx; cases hx

theorem run_inv {s : St} (hr : Run s) : Inv s := by
  induction hr with
  | init => exact inv_init
  | step _ ha hs ih =>
    obtain ⟨s', h1, h2⟩ := inv_step ih ha hs
    cases h1
    exact h2

/-! ## The theorems -/

/-- **C39, count-down latch.** A waiter is released from a generation only after every counter counted down for it. -/
theorem C39_count {s : St} (hr : Run s) {i j : Nat} {c : Counter} {w : Waiter} (hc : s.cs[i]? = some c) (hw : s.ws[j]? = some w)
    (lc : c.live = true) (lw : w.live = true) : w.passed ≤ c.passed := by
  have hi := run_inv hr
  have h1 := (hi.cs c (List.mem_of_getElem? hc)).range lc
  have h2 := (hi.ws w (List.mem_of_getElem? hw)).range lw
  rcases Nat.eq_zero_or_pos s.counters with h0 | h0
  · have := hi.allC h0 (List.mem_of_getElem? hc) lc
    omega
  · have := hi.ahead h0 w (List.mem_of_getElem? hw) lw
    omega

/-- **C39, count-down latch.** Nobody runs ahead: a counter is at most one generation ahead of every waiter, and so are the
    counters, and the waiters, among each other. -/
theorem C39_count_together {s : St} (hr : Run s) :
    (∀ c ∈ s.cs, c.live = true → ∀ w ∈ s.ws, w.live = true → c.passed ≤ w.passed + 1) ∧
    (∀ c ∈ s.cs, c.live = true → ∀ d ∈ s.cs, d.live = true → c.passed ≤ d.passed + 1) ∧
    (∀ v ∈ s.ws, v.live = true → ∀ w ∈ s.ws, w.live = true → v.passed ≤ w.passed + 1) := by
  have hi := run_inv hr
  refine ⟨?_, ?_, ?_⟩
  · intro c hc lc w hw lw
    have h1 := (hi.cs c hc).range lc
    have h2 := (hi.ws w hw).range lw
    omega
  · intro c hc lc d hd ld
    have h1 := (hi.cs c hc).range lc
    have h2 := (hi.cs d hd).range ld
    omega
  · intro c hc lc d hd ld
    have h1 := (hi.ws c hc).range lc
    have h2 := (hi.ws d hd).range ld
    omega

/-- **C39, count-down latch.** The numbers kept in the latch are those of the counters and waiters there are, and of those that have not yet
    counted down or waited in the current generation. -/
theorem C39_count_state {s : St} (hr : Run s) :
    s.totalC = (s.cs.filter fun c => c.live).length ∧ s.totalW = (s.ws.filter fun w => w.live).length ∧
    s.counters = (s.cs.filter fun c => c.live && decide (c.passed = s.rounds)).length ∧
    s.waiters = (s.ws.filter fun w => w.live && decide (w.passed = s.rounds)).length ∧
    (∀ c ∈ s.cs, c.live = true → c.passed = s.rounds ∨ c.passed = s.rounds + 1) ∧
    ∀ w ∈ s.ws, w.live = true → w.passed = s.rounds ∨ w.passed = s.rounds + 1 := by
  have hi := run_inv hr
  refine ⟨?_, ?_, ?_, ?_, fun c hc => (hi.cs c hc).range, fun w hw => (hi.ws w hw).range⟩
  · rw [hi.tC, List.countP_eq_length_filter]
  · rw [hi.tW, List.countP_eq_length_filter]
  · rw [hi.nC, List.countP_eq_length_filter]
    rfl
  · rw [hi.nW, List.countP_eq_length_filter]
    rfl

/-- **C39, count-down latch.** Nobody panics within the contract; the 64-bit generation may wrap around. -/
theorem C39_count_no_panic {s : St} (hr : Run s) {a : Act} (ha : allowed s a) : step s a ≠ some .panic := by
  intro h
  obtain ⟨s', h1, _⟩ := inv_step (run_inv hr) ha h
  cases h1

/-- **C39, count-down latch (missing: latches whose counters are all dropped, see `C39_count_lost`).** No waiter is left behind: if
    there is a counter and all counters have counted down for the generation of a waiter that is blocked, then it was notified, or a
    notification is on its way. -/
theorem C39_count_wake_partial {s : St} (hr : Run s) {j : Nat} {w : Waiter} (hw : s.ws[j]? = some w) (hb : w.pc ≠ .out)
    (hex : ∃ c ∈ s.cs, c.live = true) (hall : ∀ c ∈ s.cs, c.live = true → w.passed < c.passed) :
    w.pc = .blocked true ∨ ∃ (i : Nat) (c : Counter), s.cs[i]? = some c ∧ c.pending = true := by
  have hi := run_inv hr
  have hwm := List.mem_of_getElem? hw
  have hl := (hi.ws w hwm).inn hb
  obtain ⟨c, hc, lc⟩ := hex
  have h1 := (hi.cs c hc).range lc
  have h2 := (hi.ws w hwm).range hl
  have h3 := hall c hc lc
  have hp : w.passed = s.rounds := by omega
  have h0 : s.counters = 0 := by
    rw [hi.nC, countP_zero]
    intro d hd
    unfold Counter.at
    by_cases ld : d.live = true
    · have := hall d hd ld
      have hne : d.passed ≠ s.rounds := by omega
      simp [hne]
    · simp [ld]
  cases hpc : w.pc with
  | out => exact absurd hpc hb
  | blocked b =>
    cases b with
    | true => exact .inl rfl
    | false =>
      right
      have ht : 0 < s.totalC := by
        rw [hi.tC]
        obtain ⟨k, hk⟩ := List.getElem?_of_mem hc
        exact (countP_pos _ _).2 ⟨k, c, hk, lc⟩
      obtain ⟨d, hd, hdp⟩ := hi.wk h0 ht w hwm hpc hp
      obtain ⟨k, hk⟩ := List.getElem?_of_mem hd
      exact ⟨k, d, hk, hdp⟩

/-- **C39, count-down latch.** A notification reaches everybody that is blocked. -/
theorem C39_count_notify {s s' : St} {i : Nat} (h : step s (.notify i) = some (.ok s')) {j : Nat} {w : Waiter} (hw : s'.ws[j]? = some w) :
    w.pc ≠ .blocked false := by
  obtain ⟨c, hc, h1⟩ := map_some h
  cases h1
  simp only [St.notifyAll] at hw
  rw [List.getElem?_map] at hw
  cases hp : s.ws[j]? with
  | none => rw [hp] at hw; cases hw
  | some u =>
    rw [hp] at hw
    simp only [Option.map_some, Option.some.injEq] at hw
    subst hw
    exact (notify_fields u).2.2.2.2

theorem wait_pass {s s' : St} {i : Nat} {w : Waiter} (hw : s.ws[i]? = some w) (h : wait s i w = .ok s') :
    (blocks s w = true → s'.ws[i]? = some { w with pc := .blocked false }) ∧
    (blocks s w = false → s'.ws[i]? = some { w with gen := (w.gen + 1) % U, passed := w.passed + 1, pc := .out }) := by
  constructor
  · intro hb
    simp only [wait, hb] at h
    cases h
    exact getElem?_set_self' hw
  · intro hb
    simp only [wait, hb] at h
    cases hl : leave s with
    | panic => rw [hl] at h; cases h
    | ok t =>
      rw [hl] at h
      cases h
      have ht : t.ws = s.ws := by
        simp only [leave] at hl
        cases hn : checkedSub s.waiters with
        | panic => rw [hn] at hl; cases hl
        | ok n =>
          rw [hn] at hl
          simp only [R.bind_ok] at hl
          split at hl
          · simp only [St.advance] at hl
            obtain ⟨_, _, hl⟩ := (R.bind_eq_ok ..).1 hl
            obtain ⟨_, _, hl⟩ := (R.bind_eq_ok ..).1 hl
            cases hl
            rfl
          · cases hl
            rfl
      show (t.ws.set i _)[i]? = _
      rw [ht]
      exact getElem?_set_self' hw

/-- **C39, count-down latch.** A look at the latch, at the beginning of `wait` or after a wake-up, ends the call exactly if all counters
    have counted down for the waiter's generation and the generation is the current one; otherwise the waiter blocks. -/
theorem C39_count_look {s s' : St} (hr : Run s) {j : Nat} {w : Waiter} (hw : s.ws[j]? = some w)
    (h : step s (.wait j) = some (.ok s') ∨ step s (.wake j) = some (.ok s')) :
    ((w.passed = s.rounds ∧ ∀ c ∈ s.cs, c.live = true → w.passed < c.passed) →
      s'.ws[j]? = some { w with gen := (w.gen + 1) % U, passed := w.passed + 1, pc := .out }) ∧
    (¬ (w.passed = s.rounds ∧ ∀ c ∈ s.cs, c.live = true → w.passed < c.passed) → s'.ws[j]? = some { w with pc := .blocked false }) := by
  have hi := run_inv hr
  have hwm := List.mem_of_getElem? hw
  have hh : w.live = true ∧ wait s j w = .ok s' := by
    rcases h with h | h
    · obtain ⟨u, hu, h1⟩ := map_some h
      obtain ⟨hu, hl, _⟩ := waiter_some hu
      rw [hw] at hu
      cases hu
      exact ⟨hl, h1.symm⟩
    · obtain ⟨u, hu, h1⟩ := map_some h
      obtain ⟨hu, hp⟩ := filter_some hu
      rw [hw] at hu
      cases hu
      exact ⟨(hi.ws w hwm).inn (by simpa using hp), h1.symm⟩
  obtain ⟨hl, h1⟩ := hh
  have hblk := (inv_wait hi hw hl).2.2
  have hiff : (w.passed = s.rounds ∧ ∀ c ∈ s.cs, c.live = true → w.passed < c.passed) ↔ blocks s w = false := by
    rw [hblk]
    constructor
    · rintro ⟨hp, hall⟩
      refine ⟨hp, ?_⟩
      rw [hi.nC, countP_zero]
      intro d hd
      unfold Counter.at
      by_cases ld : d.live = true
      · have := hall d hd ld
        have hne : d.passed ≠ s.rounds := by omega
        simp [hne]
      · simp [ld]
    · rintro ⟨hp, h0⟩
      refine ⟨hp, ?_⟩
      intro c hc lc
      have := hi.allC h0 hc lc
      omega
  obtain ⟨p1, p2⟩ := wait_pass hw h1
  constructor
  · intro hx
    exact p2 (hiff.1 hx)
  · intro hx
    apply p1
    cases hb : blocks s w with
    | true => rfl
    | false => exact absurd (hiff.2 hb) hx

/-- **C39, count-down latch.** If there is a counter, the condition of `C39_count_look` is just that all counters have counted down: the
    latch is then in the waiter's generation. -/
theorem C39_count_current {s : St} (hr : Run s) {j : Nat} {w : Waiter} (hw : s.ws[j]? = some w) (hl : w.live = true)
    (hex : ∃ c ∈ s.cs, c.live = true) (hall : ∀ c ∈ s.cs, c.live = true → w.passed < c.passed) : w.passed = s.rounds := by
  have hi := run_inv hr
  obtain ⟨c, hc, lc⟩ := hex
  have h1 := (hi.cs c hc).range lc
  have h2 := (hi.ws w (List.mem_of_getElem? hw)).range hl
  have h3 := hall c hc lc
  omega

/-- **C39, count-down latch.** A counter that counts down before all waiters returned from the last generation panics and does not
    run ahead. -/
theorem C39_count_early {s : St} (hr : Run s) {i j : Nat} {c : Counter} {w : Waiter} (hc : s.cs[i]? = some c) (hw : s.ws[j]? = some w)
    (lc : c.live = true) (np : c.pending = false) (lw : w.live = true) (hlt : w.passed < c.passed) : step s (.countDown i) = some .panic := by
  have hi := run_inv hr
  have h1 := (hi.cs c (List.mem_of_getElem? hc)).range lc
  have h2 := (hi.ws w (List.mem_of_getElem? hw)).range lw
  have hne : ¬ c.gen = s.gen := by
    rw [(hi.cs c (List.mem_of_getElem? hc)).same hi lc]
    omega
  have hcc : s.counter i = some c := by
    simp [St.counter, hc, Option.filter, lc, np]
  simp only [step, hcc, Option.map_some, countDown, decide_eq_false hne, R.assert_false]
  rfl

/-! ## Examples and what fails -/

def exec (s : St) : List Act → Option St
  | [] => some s
  | a :: as => match step s a with
    | some (.ok s') => exec s' as
    | _ => none

def okAct (s : St) : Act → Bool
  | .countDown i => s.ws.any (fun w => w.live) && match s.cs[i]? with
    | some c => s.ws.all fun w => !w.live || decide (c.passed ≤ w.passed)
    | none => true
  | .cloneCounter _ => decide (s.cs.length + 1 < U)
  | .cloneWaiter _ => decide (s.ws.length + 1 < U)
  | _ => true

theorem okAct_allowed {s : St} {a : Act} (h : okAct s a = true) : allowed s a := by
  cases a with
  | countDown i =>
    simp only [okAct, Bool.and_eq_true, List.any_eq_true] at h
    refine ⟨h.1, ?_⟩
    intro c hc w hw lw
    have h2 := h.2
    rw [hc] at h2
    have := List.all_eq_true.1 h2 w hw
    simpa [lw] using this
  | cloneCounter i => simpa [okAct, allowed] using h
  | cloneWaiter i => simpa [okAct, allowed] using h
  | _ => trivial

def good (s : St) : List Act → Bool
  | [] => true
  | a :: as => okAct s a &&
    match step s a with
    | some (.ok s') => good s' as
    | _ => false

theorem exec_run : ∀ (as : List Act) {s s' : St}, Run s → good s as = true → exec s as = some s' → Run s'
  | [], s, s', hr, _, h => by cases h; exact hr
  | a :: as, s, s', hr, hg, h => by
      simp only [exec] at h
      simp only [good, Bool.and_eq_true] at hg
      cases hs : step s a with
      | none => rw [hs] at h; cases h
      | some r =>
        cases r with
        | panic => rw [hs] at h; cases h
        | ok t =>
          rw [hs] at h hg
          exact exec_run as (.step hr (okAct_allowed hg.1) hs) hg.2 h

/-- Two counters and a waiter; the waiter blocks, both count down, the last one is about to notify. -/
def mid : St := ⟨0, 0, 1, 2, 1, 0, [⟨1, 1, true, false⟩, ⟨1, 1, true, true⟩], [⟨0, 0, true, .blocked false⟩]⟩

theorem mid_run : Run mid := exec_run [.cloneCounter 0, .wait 0, .countDown 0, .countDown 1] .init (by decide +kernel) (by decide +kernel)

example : ∃ (i : Nat) (c : Counter), mid.cs[i]? = some c ∧ c.pending = true := by
  rcases C39_count_wake_partial mid_run (j := 0) rfl (by simp) ⟨⟨1, 1, true, false⟩, by decide, rfl⟩ (by decide) with h | h
  · cases h
  · exact h

/-- The waiter returns, the next generation begins, and the counters may count down again. -/
example : exec mid [.notify 1, .wake 0, .countDown 1] =
    some ⟨1, 1, 1, 2, 1, 1, [⟨1, 1, true, false⟩, ⟨2, 2, true, false⟩], [⟨1, 1, true, .out⟩]⟩ := by decide +kernel

example : step mid (.countDown 0) = some .panic := C39_count_early mid_run (j := 0) (c := ⟨1, 1, true, false⟩) rfl rfl rfl rfl rfl (by decide)

/-- **C39, negative.** A latch whose counters were all dropped can leave a waiter behind: one that waits again before the others have
    waited once blocks; the last of the others begins the next generation, in which there is nothing to count down, and notifies
    nobody. -/
theorem C39_count_lost : ∃ s : St, Run s ∧ s.ws[0]? = some ⟨1, 1, true, .blocked false⟩ ∧ s.rounds = 1 ∧ s.counters = 0 ∧
    (∀ c ∈ s.cs, c.live = false ∧ c.pending = false) ∧ ∀ (i : Nat) (w : Waiter), s.ws[i]? = some w → 0 < i → w.pc = .out ∧ w.passed = 1 := by
  refine ⟨⟨1, 0, 2, 0, 2, 1, [⟨1, 1, false, false⟩], [⟨1, 1, true, .blocked false⟩, ⟨1, 1, true, .out⟩]⟩,
    exec_run [.cloneWaiter 0, .countDown 0, .notify 0, .dropCounter 0, .wait 0, .wait 0, .wait 1] .init (by decide +kernel) (by decide +kernel), rfl, rfl, rfl, by decide, ?_⟩
  intro i w hw hi
  match i with
  | 1 => cases hw; exact ⟨rfl, rfl⟩
  | n + 2 => simp at hw

/-- **C39, negative.** Without a waiter the generation does not end: the second `count_down` panics. -/
theorem C39_count_no_waiter : ∃ s : St, Run s ∧ (∀ w ∈ s.ws, w.live = false) ∧
    ∃ s', step s (.countDown 0) = some (.ok s') ∧ step s' (.countDown 0) = none ∧ ∃ s'', step s' (.notify 0) = some (.ok s'') ∧ step s'' (.countDown 0) = some .panic := by
  refine ⟨⟨0, 1, 0, 1, 0, 0, [⟨0, 0, true, false⟩], [⟨0, 0, false, .out⟩]⟩, exec_run [.dropWaiter 0] .init (by decide +kernel) (by decide +kernel), by decide, ?_⟩
  refine ⟨⟨0, 0, 0, 1, 0, 0, [⟨1, 1, true, true⟩], [⟨0, 0, false, .out⟩]⟩, by decide +kernel, by decide +kernel,
    ⟨0, 0, 0, 1, 0, 0, [⟨1, 1, true, false⟩], [⟨0, 0, false, .out⟩]⟩, by decide +kernel, by decide +kernel⟩

end Shadow.Latch.CountDown
