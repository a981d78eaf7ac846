import Verif.Latch.SimpleProps
import Verif.Latch.CountDownProps

/-!
# What the steps of the latches do, as the thread pools use them
-/
namespace Shadow.Pool

open Shadow.Base Shadow.Latch

theorem set_self {α : Type} {l : List α} {i : Nat} {x : α} (h : l[i]? = some x) : l.set i x = l := by
  apply List.ext_getElem?
  intro j
  by_cases hj : i = j
  · subst hj
    rw [getElem?_set_self' h, h]
  · rw [List.getElem?_set_ne hj]

/-! ## The count-down latch with a single waiter -/

open CountDown in
structure Fin (s : CountDown.St) (w : CountDown.Waiter) : Prop where
  run : CountDown.Run s
  ws : s.ws = [w]
  live : w.live = true
  wk : s.counters = 0 → w.pc = .blocked false → ∃ (j : Nat) (c : Counter), s.cs[j]? = some c ∧ c.pending = true

namespace Fin

open CountDown

variable {s : CountDown.St} {w : CountDown.Waiter}

theorem w0 (h : Fin s w) : s.ws[0]? = some w := by rw [h.ws]; rfl

theorem rounds (h : Fin s w) : w.passed = s.rounds := by
  have hi := run_inv h.run
  have hw := hi.ws w (by rw [h.ws]; exact List.mem_singleton_self w)
  rcases hw.range h.live with h1 | h1
  · exact h1
  · exfalso
    have h2 := hi.nW
    have h3 := hi.tW
    have h4 := hi.zero
    rw [h.ws] at h2 h3
    have : ¬ w.passed = s.rounds := by omega
    simp [Waiter.at, this] at h2
    simp [h.live] at h3
    have := h4 h2
    omega

theorem range (h : Fin s w) {j : Nat} {c : Counter} (hc : s.cs[j]? = some c) (hl : c.live = true) : w.passed ≤ c.passed ∧ c.passed ≤ w.passed + 1 :=
  ⟨C39_count h.run hc h.w0 hl h.live, (C39_count_together h.run).1 c (List.mem_of_getElem? hc) hl w (by rw [h.ws]; exact List.mem_singleton_self w) h.live⟩

/-- The counters that have not counted down yet. -/
theorem zero (h : Fin s w) : s.counters = 0 ↔ ∀ (j : Nat) (c : Counter), s.cs[j]? = some c → c.live = true → c.passed = w.passed + 1 := by
  have hi := run_inv h.run
  constructor
  · intro h0 j c hc hl
    have := hi.allC h0 (List.mem_of_getElem? hc) hl
    rw [this, h.rounds]
  · intro h1
    rw [hi.nC, countP_zero]
    intro c hc
    obtain ⟨j, hj⟩ := List.getElem?_of_mem hc
    unfold Counter.at
    by_cases hl : c.live = true
    · have := h1 j c hj hl
      have h2 := h.rounds
      have hne : c.passed ≠ s.rounds := by omega
      simp [hne]
    · simp [hl]

theorem counter_ok {j : Nat} {c : Counter} (hc : s.cs[j]? = some c) (hl : c.live = true) (hp : c.pending = false) : s.counter j = some c := by
  simp [St.counter, hc, hl, hp]

theorem waiter_ok (h : Fin s w) (hp : w.pc = .out) : s.waiter 0 = some w := by
  simp [St.waiter, h.ws, h.live, hp]

theorem countDown (h : Fin s w) {j : Nat} {c : Counter} (hc : s.cs[j]? = some c) (hl : c.live = true) (hp : c.pending = false) (he : c.passed = w.passed) :
    ∃ (s' : CountDown.St) (c' : Counter), step s (.countDown j) = some (.ok s') ∧ Fin s' w ∧ s'.cs = s.cs.set j c' ∧ c'.live = true ∧ c'.passed = c.passed + 1 := by
  have hi := run_inv h.run
  have ha : allowed s (.countDown j) := by
    refine ⟨⟨w, by rw [h.ws]; exact List.mem_singleton_self w, h.live⟩, ?_⟩
    intro c2 hc2 w2 hw2 _
    rw [h.ws, List.mem_singleton] at hw2
    subst hw2
    rw [hc] at hc2
    cases hc2
    omega
  have hst : step s (.countDown j) = some (CountDown.countDown s j c) := by
    simp only [step, counter_ok hc hl hp, Option.map_some]
  obtain ⟨s', hr, _⟩ := inv_step hi ha hst
  rw [hr] at hst
  have hrun : Run s' := h.run.step ha hst
  simp only [CountDown.countDown] at hr
  obtain ⟨_, _, hr⟩ := (R.bind_eq_ok ..).1 hr
  obtain ⟨n, hn, hr⟩ := (R.bind_eq_ok ..).1 hr
  cases hr
  refine ⟨_, _, hst, ⟨hrun, h.ws, h.live, ?_⟩, rfl, hl, rfl⟩
  intro h0 _
  dsimp only at h0
  exact ⟨j, _, getElem?_set_self' hc, by simp [h0]⟩

theorem notify (h : Fin s w) {j : Nat} {c : Counter} (hc : s.cs[j]? = some c) (hp : c.pending = true) :
    ∃ s' : CountDown.St, step s (.notify j) = some (.ok s') ∧ Fin s' w.notify ∧ s'.cs = s.cs.set j { c with pending := false } := by
  have hst : step s (.notify j) = some (.ok ({ s with cs := s.cs.set j { c with pending := false } } : St).notifyAll) := by
    simp only [step, hc, Option.filter, hp, if_true, Option.map_some]
  obtain ⟨e1, e2, e3, e4, e5⟩ := notify_fields w
  refine ⟨_, hst, ⟨h.run.step (a := .notify j) trivial hst, ?_, by rw [e3]; exact h.live, fun _ hb => absurd hb e5⟩, rfl⟩
  simp only [St.notifyAll, h.ws, List.map_cons, List.map_nil]

theorem dropCounter (h : Fin s w) {j : Nat} {c : Counter} (hc : s.cs[j]? = some c) (hl : c.live = true) (hp : c.pending = false) :
    ∃ (s' : CountDown.St) (w' : Waiter), step s (.dropCounter j) = some (.ok s') ∧ Fin s' w' ∧ s'.cs = s.cs.set j { c with live := false } ∧
      w'.passed = w.passed ∧ (w'.pc = .out ↔ w.pc = .out) := by
  have hi := run_inv h.run
  have hst : step s (.dropCounter j) = some (CountDown.dropCounter s j c) := by
    simp only [step, counter_ok hc hl hp, Option.map_some]
  obtain ⟨s', hr, _⟩ := inv_step hi (a := .dropCounter j) trivial hst
  rw [hr] at hst
  have hrun : Run s' := h.run.step (a := .dropCounter j) trivial hst
  simp only [CountDown.dropCounter] at hr
  obtain ⟨t, _, hr⟩ := (R.bind_eq_ok ..).1 hr
  obtain ⟨n, hn, hr⟩ := (R.bind_eq_ok ..).1 hr
  cases hr
  by_cases h0 : n = 0
  · simp only [h0, if_true] at hst hrun
    obtain ⟨e1, e2, e3, e4, e5⟩ := notify_fields w
    refine ⟨_, w.notify, hst, ⟨hrun, ?_, by rw [e3]; exact h.live, fun _ hb => absurd hb e5⟩, rfl, e2, e4⟩
    simp only [St.notifyAll, h.ws, List.map_cons, List.map_nil]
  · simp only [h0, if_false] at hst hrun
    exact ⟨_, w, hst, ⟨hrun, h.ws, h.live, fun hz => absurd hz h0⟩, rfl, rfl, Iff.rfl⟩

theorem cloneCounter (h : Fin s w) (hlen : s.cs.length + 1 < U) {j : Nat} {c : Counter} (hc : s.cs[j]? = some c) (hl : c.live = true) (hp : c.pending = false)
    (hout : w.pc = .out) : ∃ s' : CountDown.St, step s (.cloneCounter j) = some (.ok s') ∧ Fin s' w ∧ s'.cs = s.cs ++ [c] := by
  have hi := run_inv h.run
  have hst : step s (.cloneCounter j) = some (CountDown.cloneCounter s c) := by
    simp only [step, counter_ok hc hl hp, Option.map_some]
  obtain ⟨s', hr, _⟩ := inv_step hi (a := .cloneCounter j) hlen hst
  rw [hr] at hst
  have hrun : Run s' := h.run.step (a := .cloneCounter j) hlen hst
  simp only [CountDown.cloneCounter] at hr
  obtain ⟨t, _, hr⟩ := (R.bind_eq_ok ..).1 hr
  obtain ⟨n, hn, hr⟩ := (R.bind_eq_ok ..).1 hr
  cases hr
  exact ⟨_, hst, ⟨hrun, h.ws, h.live, fun _ hb => by rw [hout] at hb; cases hb⟩, rfl⟩

theorem leave_fields {s t : CountDown.St} (h : leave s = .ok t) : t.ws = s.ws ∧ t.cs = s.cs := by
  simp only [leave] at h
  obtain ⟨n, hn, h⟩ := (R.bind_eq_ok ..).1 h
  split at h
  · simp only [St.advance] at h
    obtain ⟨_, _, h⟩ := (R.bind_eq_ok ..).1 h
    obtain ⟨_, _, h⟩ := (R.bind_eq_ok ..).1 h
    cases h
    exact ⟨rfl, rfl⟩
  · cases h
    exact ⟨rfl, rfl⟩

/-- What a look at the latch comes to. -/
theorem look (h : Fin s w) {a : CountDown.Act} (ha : (a = .wait 0 ∧ w.pc = .out) ∨ (a = .wake 0 ∧ w.pc ≠ .out)) :
    ∃ (s' : CountDown.St) (w' : Waiter), step s a = some (.ok s') ∧ Fin s' w' ∧ s'.cs = s.cs ∧
      ((w'.pc = .out ∧ w'.passed = w.passed + 1 ∧ ∀ (j : Nat) (c : Counter), s.cs[j]? = some c → c.live = true → c.passed = w.passed + 1) ∨
        (w'.pc ≠ .out ∧ w'.passed = w.passed ∧ s.counters ≠ 0)) := by
  have hi := run_inv h.run
  have hst : step s a = some (wait s 0 w) := by
    rcases ha with ⟨rfl, hp⟩ | ⟨rfl, hp⟩
    · simp only [step, waiter_ok h hp, Option.map_some]
    · simp only [step, h.w0, Option.filter, hp, ne_eq, not_false_eq_true, decide_true, if_true, Option.map_some]
  have hal : allowed s a := by rcases ha with ⟨rfl, _⟩ | ⟨rfl, _⟩ <;> trivial
  obtain ⟨s', hr, _⟩ := inv_step hi hal hst
  rw [hr] at hst
  have hrun : Run s' := h.run.step hal hst
  have hblk := (inv_wait hi h.w0 h.live).2.2
  by_cases hb : blocks s w = true
  · simp only [wait, hb, if_true] at hr
    cases hr
    have hne : s.counters ≠ 0 := by
      intro h0
      have := hblk.2 ⟨h.rounds, h0⟩
      rw [hb] at this
      cases this
    refine ⟨_, { w with pc := .blocked false }, hst, ⟨hrun, by simp [h.ws], h.live, ?_⟩, rfl, .inr ⟨by simp, rfl, hne⟩⟩
    exact fun h0 _ => absurd h0 hne
  · have hb' : blocks s w = false := by simpa using hb
    simp only [wait, hb'] at hr
    obtain ⟨t, ht, hr⟩ := (R.bind_eq_ok ..).1 hr
    obtain ⟨f1, f2⟩ := leave_fields ht
    cases hr
    refine ⟨_, { w with gen := (w.gen + 1) % U, passed := w.passed + 1, pc := .out }, hst, ⟨hrun, by simp [f1, h.ws], h.live, (fun _ hc => by cases hc)⟩, f2, .inl ⟨rfl, rfl, ?_⟩⟩
    exact h.zero.1 (hblk.1 hb').2

theorem dropWaiter (h : Fin s w) (hout : w.pc = .out) : ∃ s' : CountDown.St, step s (.dropWaiter 0) = some (.ok s') ∧ s'.cs = s.cs ∧ Run s' := by
  have hi := run_inv h.run
  have hst : step s (.dropWaiter 0) = some (CountDown.dropWaiter s 0 w) := by
    simp only [step, waiter_ok h hout, Option.map_some]
  obtain ⟨s', hr, _⟩ := inv_step hi (a := .dropWaiter 0) trivial hst
  rw [hr] at hst
  refine ⟨s', hst, ?_, h.run.step (a := .dropWaiter 0) trivial hst⟩
  simp only [CountDown.dropWaiter] at hr
  obtain ⟨t, _, hr⟩ := (R.bind_eq_ok ..).1 hr
  obtain ⟨n, hn, hr⟩ := (R.bind_eq_ok ..).1 hr
  split at hr
  · simp only [St.advance] at hr
    obtain ⟨_, _, hr⟩ := (R.bind_eq_ok ..).1 hr
    obtain ⟨_, _, hr⟩ := (R.bind_eq_ok ..).1 hr
    cases hr
    rfl
  · cases hr
    rfl

end Fin

theorem fin_init : Fin .init ⟨0, 0, true, .out⟩ := ⟨.init, rfl, rfl, (fun h => by cases h)⟩

/-! ## The simple latch -/

namespace Start

open Simple

variable {s : Simple.St}

theorem range (h : Run s) {i : Nat} {w : Waiter} (hw : s.ws[i]? = some w) (hg : w.pc ≠ .gone) : w.passed ≤ s.opens ∧ s.opens ≤ w.passed + 1 := by
  have := C39_open h hw hg
  omega

theorem look_eff {s : Simple.St} {w w' : Waiter} (h : look s.gen w = .ok w') :
    w'.pc ≠ .gone ∧ ((w'.pc = .out ∧ w'.passed = w.passed + 1) ∨ (w'.pc ≠ .out ∧ w'.passed = w.passed)) := by
  simp only [look] at h
  generalize (s.gen + M - w.gen) % M = d at h
  by_cases h1 : d = 1
  · rw [if_pos h1] at h
    cases h
    exact ⟨by simp, .inl ⟨rfl, rfl⟩⟩
  · rw [if_neg h1] at h
    by_cases h0 : d = 0
    · rw [if_pos h0] at h
      cases h
      refine ⟨?_, .inr ⟨?_, rfl⟩⟩ <;> (dsimp only; split <;> simp)
    · rw [if_neg h0] at h
      cases h

/-- A step in `wait`. -/
theorem inWait (hr : Run s) {i : Nat} {w : Waiter} (hw : s.ws[i]? = some w) (ho : w.pc ≠ .out) (hg : w.pc ≠ .gone) {a : Simple.Act}
    (ha : a = .run i ∨ a = .intr i) {r : R Simple.St} (h : step s a = some r) :
    ∃ w', r = .ok (s.put i w') ∧ Run (s.put i w') ∧ w'.pc ≠ .gone ∧ ((w'.pc = .out ∧ w'.passed = w.passed + 1) ∨ (w'.pc ≠ .out ∧ w'.passed = w.passed)) := by
  have hi := run_inv hr
  have hal : allowed s a := by rcases ha with rfl | rfl <;> trivial
  obtain ⟨s', h1, _⟩ := inv_step hi hal h
  have hrun : Run s' := hr.step hal (by rw [h, h1])
  have key : ∃ w', s' = s.put i w' ∧ w'.pc ≠ .gone ∧ ((w'.pc = .out ∧ w'.passed = w.passed + 1) ∨ (w'.pc ≠ .out ∧ w'.passed = w.passed)) := by
    subst h1
    rcases ha with rfl | rfl
    · simp only [step, hw] at h
      cases hpc : w.pc with
      | out => exact absurd hpc ho
      | gone => exact absurd hpc hg
      | asleep => rw [hpc] at h; cases h
      | load =>
          simp only [hpc, Option.some.injEq] at h
          obtain ⟨w', hl, h⟩ := (R.bind_eq_ok ..).1 h
          cases h
          exact ⟨w', rfl, look_eff hl⟩
      | wait v =>
          simp only [hpc] at h
          cases h
          refine ⟨_, rfl, ?_, .inr ⟨?_, rfl⟩⟩ <;> (dsimp only; split <;> simp)
    · simp only [step, hw] at h
      cases hpc : w.pc with
      | out => exact absurd hpc ho
      | gone => exact absurd hpc hg
      | load => rw [hpc] at h; cases h
      | asleep =>
          simp only [hpc] at h
          cases h
          exact ⟨_, rfl, by simp, .inr ⟨by simp, rfl⟩⟩
      | wait v =>
          simp only [hpc] at h
          cases h
          exact ⟨_, rfl, by simp, .inr ⟨by simp, rfl⟩⟩
  obtain ⟨w', rfl, h2⟩ := key
  exact ⟨w', h1, hrun, h2⟩

theorem wait (hr : Run s) {i : Nat} {w : Waiter} (hw : s.ws[i]? = some w) (ho : w.pc = .out) :
    step s (.wait i) = some (.ok (s.put i { w with pc := .load })) ∧ Run (s.put i { w with pc := .load }) := by
  have h : step s (.wait i) = some (.ok (s.put i { w with pc := .load })) := by simp only [step, hw, ho, if_true]
  exact ⟨h, hr.step (a := .wait i) trivial h⟩

theorem drop (hr : Run s) {i : Nat} {w : Waiter} (hw : s.ws[i]? = some w) (ho : w.pc = .out) :
    step s (.drop i) = some (.ok (s.put i { w with pc := .gone })) ∧ Run (s.put i { w with pc := .gone }) := by
  have h : step s (.drop i) = some (.ok (s.put i { w with pc := .gone })) := by simp only [step, hw, ho, if_true]
  exact ⟨h, hr.step (a := .drop i) trivial h⟩

theorem «open» (hr : Run s) (hk : s.waking = false) (ha : ∀ w ∈ s.ws, w.pc ≠ .gone → w.passed = s.opens) :
    ∃ s', step s .open = some (.ok s') ∧ Run s' ∧ s'.ws = s.ws ∧ s'.opens = s.opens + 1 ∧ s'.waking = true := by
  have h : step s .open = some (.ok { s with gen := (s.gen + 1) % M, opens := s.opens + 1, waking := true }) := by simp [step, hk]
  exact ⟨_, h, hr.step (a := .open) ha h, rfl, rfl, rfl⟩

theorem woken_fields (w : Waiter) : w.woken.passed = w.passed ∧ (w.woken.pc = .out ↔ w.pc = .out) ∧ (w.woken.pc = .gone ↔ w.pc = .gone) := by
  unfold Waiter.woken
  split
  · next h => simp [h]
  · exact ⟨rfl, Iff.rfl, Iff.rfl⟩

theorem wakeAll (hr : Run s) (hk : s.waking = true) :
    ∃ s', step s .wakeAll = some (.ok s') ∧ Run s' ∧ s'.ws = s.ws.map Waiter.woken ∧ s'.opens = s.opens ∧ s'.waking = false := by
  have h : step s .wakeAll = some (.ok { s with waking := false, ws := s.ws.map Waiter.woken }) := by simp [step, hk]
  exact ⟨_, h, hr.step (a := .wakeAll) trivial h, rfl, rfl, rfl⟩

theorem waiter (hr : Run s) (hk : s.waking = false) (spin : Bool) :
    ∃ s', step s (.waiter spin) = some (.ok s') ∧ Run s' ∧ s'.ws = s.ws ++ [⟨s.gen, spin, s.opens, .out⟩] ∧ s'.opens = s.opens ∧ s'.waking = false := by
  have h : step s (.waiter spin) = some (.ok { s with ws := s.ws ++ [⟨s.gen, spin, s.opens, .out⟩] }) := by simp [step, hk]
  exact ⟨_, h, hr.step (a := .waiter spin) trivial h, rfl, rfl, hk⟩

end Start

end Shadow.Pool
