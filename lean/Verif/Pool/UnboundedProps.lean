import Verif.Pool.UnboundedInv

/-!
# The thread pool of the thread-per-core scheduler: properties (C49)
-/
namespace Shadow.Pool.Unbounded

open Shadow.Base Shadow.Latch

variable {s : St}

/-- The thread is in the closure of the user. -/
def Thread.inTask (t : Thread) : Prop := t.pc = .running

/-- The main thread is outside of the functions of the pool and of the closures given to them. -/
def St.atRest (s : St) : Prop := ∃ res, s.main = .idle res

/-- **C49.** Whenever the main thread is back from `scope` (or in a scope before its `run`, or has dropped the pool), every thread of
    the pool has been given every task that `run` was called with, each exactly once and in the order of the calls. -/
theorem C49_once (hr : Run s) (hm : s.atRest ∨ s.main = .scope ∨ s.main = .over) {t : Thread} (ht : t ∈ s.threads) : t.ran = s.issued := by
  obtain ⟨w, hi⟩ := run_inv hr
  obtain ⟨i, ht'⟩ := List.getElem?_of_mem ht
  obtain ⟨sw, c, hs, hc, hti⟩ := hi.thr i t ht'
  have hran := hti.ran
  have hrel := hti.rel
  have key : s.issued.length ≤ sw.passed → t.pc ≠ .look → t.ran = s.issued := by
    intro h1 h2
    rw [hran, if_neg h2, List.take_of_length_le h1]
  have hquit : t.pc = .exiting2 ∨ t.pc = .gone → t.ran = s.issued := by
    intro hp
    refine key ?_ (by rcases hp with hp | hp <;> rw [hp] <;> simp)
    rcases hti.quit (.inr hp) with h1 | h1
    · rw [hti.crash4 h1]
      exact Nat.le_refl _
    · exact h1.2
  by_cases ho : s.main = .over
  · exact hquit (.inr (hi.over ho t ht))
  · have h1 := hi.passed
    have h2 := hi.opens
    have hq : s.start.opens = w.passed ∧ w.passed = s.issued.length := by
      rcases hm with ⟨res, hm⟩ | hm | hm
      · rw [hm] at h1 h2
        simp [MPc.busy, MPc.joined] at h1 h2
        omega
      · rw [hm] at h1 h2
        simp [MPc.busy, MPc.joined] at h1 h2
        omega
      · exact absurd hm ho
    have live : c.live = true → sw.passed = c.passed → t.pc ≠ .look → t.ran = s.issued := by
      intro g1 g2 g3
      have := (hi.fin ho).range hc g1
      exact key (by omega) g3
    rcases quiet hi hq.1 ht' with h8 | h8 | h8 | h8 | h8
    · rw [h8] at hrel
      exact live hrel.2.1 hrel.2.2.2 (by rw [h8]; simp)
    · rw [h8] at hrel
      exact live hrel.2.2.1 hrel.2.2.2.2 (by rw [h8]; simp)
    · rw [h8] at hrel
      exact live hrel.2.1 hrel.2.2.2 (by rw [h8]; simp)
    · exact hquit (.inl h8)
    · exact hquit (.inr h8)

/-- **C49.** At every moment a thread has been given all tasks, or all but the last one; never a task twice, and never a task out of
    turn. -/
theorem C49_prefix (hr : Run s) {t : Thread} (ht : t ∈ s.threads) : t.ran = s.issued ∨ t.ran = s.issued.dropLast := by
  obtain ⟨w, hi⟩ := run_inv hr
  by_cases ho : s.main = .over
  · exact .inl (C49_once hr (.inr (.inr ho)) ht)
  obtain ⟨i, ht'⟩ := List.getElem?_of_mem ht
  obtain ⟨sw, c, hs, hc, hti⟩ := hi.thr i t ht'
  have hran := hti.ran
  have hrel := hti.rel
  have hw : s.issued.length ≤ w.passed + 1 := by
    have := hi.passed
    split at this <;> omega
  have key : ∀ n, t.ran = s.issued.take n → s.issued.length ≤ n + 1 → t.ran = s.issued ∨ t.ran = s.issued.dropLast := by
    intro n h1 h2
    rw [h1]
    by_cases h3 : s.issued.length ≤ n
    · exact .inl (List.take_of_length_le h3)
    · refine .inr ?_
      rw [List.dropLast_eq_take]
      congr 1
      omega
  have live : c.live = true → w.passed ≤ c.passed := fun h => ((hi.fin ho).range hc h).1
  cases hpc : t.pc with
  | look =>
      rw [hpc] at hrel
      rw [hpc, if_pos rfl] at hran
      have := live hrel.2.1
      exact key _ hran (by omega)
  | exiting2 =>
      rw [hpc, if_neg (by simp)] at hran
      refine key _ hran ?_
      rcases hti.quit (.inr (.inl hpc)) with h1 | h1
      · rw [hti.crash4 h1]
        omega
      · omega
  | gone =>
      rw [hpc, if_neg (by simp)] at hran
      refine key _ hran ?_
      rcases hti.quit (.inr (.inr hpc)) with h1 | h1
      · rw [hti.crash4 h1]
        omega
      · omega
  | atWait =>
      rw [hpc] at hrel
      rw [hpc, if_neg (by simp)] at hran
      obtain ⟨g1, g2, g3, g4⟩ := hrel
      have := live g2
      exact key _ hran (by omega)
  | waiting =>
      rw [hpc] at hrel
      rw [hpc, if_neg (by simp)] at hran
      obtain ⟨g0, g1, g2, g3, g4⟩ := hrel
      have := live g2
      exact key _ hran (by omega)
  | running | counting | panicking | exiting | notifying =>
      rw [hpc] at hrel
      rw [hpc, if_neg (by simp)] at hran
      obtain ⟨g1, g2, g3, g4⟩ := hrel
      have := live g2
      exact key _ hran (by omega)

/-- **C49.** While a thread runs a task, the scope of this task has not ended: the main thread is in `run`, in the rest of the closure of
    this scope, or waits at its end. What runs is the last task that `run` was called with. -/
theorem C49_isolated (hr : Run s) {t : Thread} (ht : t ∈ s.threads) (hp : t.inTask) :
    (s.main = .opening ∨ s.main = .ran ∨ s.main = .ending ∨ s.main = .waiting) ∧ t.ran = s.issued ∧ s.task = s.issued.getLast? ∧ s.task ≠ none := by
  unfold Thread.inTask at hp
  obtain ⟨w, hi⟩ := run_inv hr
  obtain ⟨i, ht'⟩ := List.getElem?_of_mem ht
  obtain ⟨sw, c, hs, hc, hti⟩ := hi.thr i t ht'
  have hno := not_over hi ht' (by rw [hp]; simp)
  have hrel := hti.rel
  rw [hp] at hrel
  obtain ⟨e1, e2, e3, e4⟩ := hrel
  obtain ⟨b1, b2, b3⟩ := busy_main hi hno hs hc e2 e1 e4
  have hle := hti.busy (by rw [hp]; rfl)
  rcases b3 with ⟨j1, j2⟩ | ⟨j1, j2, j3, j4, j5⟩
  · have := joined_passed hi j1
    omega
  · refine ⟨?_, ?_, j4, j3⟩
    · have h1 := hi.passed
      have h2 := hi.opens
      have h3 := hi.task
      cases hm : s.main <;> simp only [hm, MPc.busy, MPc.joined] at h1 h2 h3 j1 ⊢ <;> simp at h1 h2 h3 j1 ⊢ <;> first | omega | exact j3 h3
    · rw [hti.ran, hp, if_neg (by simp), List.take_of_length_le (by omega)]

/-- **C49.** At rest no thread is in a task; so what the closures of a scope borrow is not used after the scope. -/
theorem C49_rest (hr : Run s) (hm : s.atRest ∨ s.main = .scope ∨ s.main = .over) {t : Thread} (ht : t ∈ s.threads) : ¬ t.inTask := by
  intro hp
  obtain ⟨h, _⟩ := C49_isolated hr ht hp
  rcases hm with ⟨res, hm⟩ | hm | hm <;> rw [hm] at h <;> simp at h

/-- **C49.** No step replaces or drops the task while a thread runs it (it would panic, and by `C49_no_panic` it does not). -/
theorem C49_held {s' : St} {a : Act} (h : step s a = some (.ok s')) {t : Thread} (ht : t ∈ s.threads) (hp : t.inTask) : s'.task = s.task := by
  have hb : s.threads.any Thread.borrows = true := by
    rw [List.any_eq_true]
    exact ⟨t, ht, by unfold Thread.inTask at hp; simp [Thread.borrows, hp]⟩
  have map1 : ∀ {a : Simple.Act} {f : Simple.St → St}, s.onStart a f = some (.ok s') → (∀ x, (f x).task = s.task) → s'.task = s.task := by
    intro a f h1 h2
    simp only [St.onStart, Option.map_eq_some_iff] at h1
    obtain ⟨r, _, h1⟩ := h1
    obtain ⟨x, _, h1⟩ := (R.bind_eq_ok ..).1 h1
    cases h1
    exact h2 x
  have map2 : ∀ {a : CountDown.Act} {f : CountDown.St → St}, s.onFin a f = some (.ok s') → (∀ x, (f x).task = s.task) → s'.task = s.task := by
    intro a f h1 h2
    simp only [St.onFin, Option.map_eq_some_iff] at h1
    obtain ⟨r, _, h1⟩ := h1
    obtain ⟨x, _, h1⟩ := (R.bind_eq_ok ..).1 h1
    cases h1
    exact h2 x
  cases a with
  | spawn spin =>
      simp only [step] at h
      split at h
      · rw [Option.bind_eq_some_iff] at h
        obtain ⟨r1, _, h⟩ := h
        rw [Option.map_eq_some_iff] at h
        obtain ⟨r2, _, h⟩ := h
        obtain ⟨x, _, h⟩ := (R.bind_eq_ok ..).1 h
        obtain ⟨y, _, h⟩ := (R.bind_eq_ok ..).1 h
        cases h
        rfl
      · cases h
  | made =>
      simp only [step] at h
      split at h
      · exact map2 h fun _ => rfl
      · cases h
  | enter =>
      simp only [step] at h
      split at h
      · cases h; rfl
      · cases h
  | run k =>
      simp only [step, hb, if_true] at h
      split at h <;> cases h
  | leave =>
      simp only [step] at h
      split at h
      · cases h; rfl
      · cases h
  | join =>
      simp only [step] at h
      split at h
      · split at h
        · exact map1 h fun _ => rfl
        · cases h
      · cases h
  | main =>
      simp only [step, mainStep, hb, if_true] at h
      split at h
      · cases h; rfl
      · exact map1 h fun _ => rfl
      · exact map1 h fun _ => rfl
      · split at h
        · exact map2 h fun _ => rfl
        · cases h; rfl
      · cases h
      · cases h; rfl
      · cases h; rfl
      · exact map1 h fun _ => rfl
      · split at h
        · split at h
          · split at h <;> cases h
            rfl
          · cases h
        · exact map2 h fun _ => rfl
      · cases h
  | wake =>
      simp only [step] at h
      split at h
      · exact map2 h fun _ => rfl
      · cases h
  | thread i =>
      simp only [step] at h
      rw [Option.bind_eq_some_iff] at h
      obtain ⟨u, _, h⟩ := h
      simp only [threadStep] at h
      split at h
      · exact map1 h fun _ => rfl
      · exact map1 h fun _ => rfl
      · split at h
        · cases h
        · split at h <;> cases h <;> rfl
      · exact map2 h fun _ => rfl
      · exact map2 h fun _ => rfl
      · cases h; rfl
      · exact map2 h fun _ => rfl
      · exact map1 h fun _ => rfl
      · cases h
      · cases h
  | intr i =>
      simp only [step] at h
      split at h
      · split at h
        · exact map1 h fun _ => rfl
        · cases h
      · cases h
  | finish i =>
      simp only [step] at h
      split at h
      · split at h
        · cases h; rfl
        · cases h
      · cases h
  | crash i =>
      simp only [step] at h
      split at h
      · split at h
        · cases h; rfl
        · cases h
      · cases h

/-- **C49.** No assertion of the latches fails, the cell of the task is never borrowed in conflict, and neither the assertion nor the
    `expect` of `join` fails, whatever the tasks do. -/
theorem C49_no_panic (hr : Run s) {a : Act} (ha : allowed s a) : step s a ≠ some .panic := by
  intro h
  obtain ⟨w, hi⟩ := run_inv hr
  obtain ⟨s', w', h1, _⟩ := inv_step hi ha h
  cases h1

/-- **C49.** A scope returns normally exactly if no task has panicked so far. -/
theorem C49_result (hr : Run s) {res : Res} (hm : s.main = .idle (some res)) : res = .done ↔ ∀ t ∈ s.threads, t.crashed = false := by
  obtain ⟨w, hi⟩ := run_inv hr
  have h1 := hi.passed
  have h2 := hi.opens
  have h6 := hi.clean
  rw [hm] at h1 h2 h6
  simp [MPc.busy, MPc.joined] at h1 h2
  constructor
  · rintro rfl t ht
    have hp := h6 rfl
    cases hx : t.crashed with
    | false => rfl
    | true =>
        obtain ⟨i, ht'⟩ := List.getElem?_of_mem ht
        obtain ⟨sw, c, hs, hc, hti⟩ := hi.thr i t ht'
        rcases hti.crash3 hx with h7 | h7
        · rcases quiet hi (by omega) ht' with h8 | h8 | h8 | h8 | h8 <;> rw [h8] at h7 <;> cases h7
        · rw [hp] at h7; cases h7
  · intro h
    cases hres : res with
    | done => rfl
    | refused | crashed =>
        exfalso
        have : s.poisoned = true := hi.bad (by rw [hm, hres]; simp)
        obtain ⟨t, ht, hx⟩ := hi.blame this
        rw [h t ht] at hx
        cases hx

/-- **C49.** After a task has panicked, `scope` panics and its closure is not called. -/
theorem C49_refused {s' : St} (hr : Run s) (hm : s.atRest) {t : Thread} (ht : t ∈ s.threads) (hc : t.crashed = true) (h : step s .enter = some (.ok s')) :
    s'.main = .idle (some .refused) ∧ s'.threads = s.threads ∧ s'.issued = s.issued := by
  obtain ⟨w, hi⟩ := run_inv hr
  obtain ⟨res, hm⟩ := hm
  have h1 := hi.passed
  have h2 := hi.opens
  rw [hm] at h1 h2
  simp [MPc.busy, MPc.joined] at h1 h2
  have hp : s.poisoned = true := by
    obtain ⟨i, ht'⟩ := List.getElem?_of_mem ht
    obtain ⟨sw, c, hs, hcc, hti⟩ := hi.thr i t ht'
    rcases hti.crash3 hc with h7 | h7
    · rcases quiet hi (by omega) ht' with h8 | h8 | h8 | h8 | h8 <;> rw [h8] at h7 <;> cases h7
    · exact h7
  simp only [step, hm, hp, if_true] at h
  cases h
  exact ⟨rfl, rfl, rfl⟩

/-- **C49.** A thread whose task panicked takes no further task; it was given the one it panicked in. -/
theorem C49_crashed (hr : Run s) {t : Thread} (ht : t ∈ s.threads) (hc : t.crashed = true) : ¬ t.inTask ∧ t.ran = s.issued := by
  obtain ⟨w, hi⟩ := run_inv hr
  obtain ⟨i, ht'⟩ := List.getElem?_of_mem ht
  obtain ⟨sw, c, hs, hcc, hti⟩ := hi.thr i t ht'
  have h2 := hti.crash2 hc
  refine ⟨?_, ?_⟩
  · intro hp
    unfold Thread.inTask at hp
    rw [hp] at h2
    simp at h2
  · rw [hti.ran, if_neg (by rcases h2 with h2 | h2 | h2 | h2 <;> rw [h2] <;> simp), hti.crash4 hc, List.take_length]

/-- **C49.** When the pool has been dropped, all its threads have ended. -/
theorem C49_join (hr : Run s) (hm : s.main = .over) {t : Thread} (ht : t ∈ s.threads) : t.pc = .gone := by
  obtain ⟨w, hi⟩ := run_inv hr
  exact hi.over hm t ht

end Shadow.Pool.Unbounded
