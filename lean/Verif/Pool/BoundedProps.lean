import Verif.Pool.BoundedRun

/-!
# The thread pool of the thread-per-host scheduler: properties (C62)
-/
namespace Shadow.Pool.Bounded

open Shadow.Base Shadow.Latch

variable {s : St}

/-- Thread `i` is in the closure of the user, which was told that it is on processor `p`. -/
def St.inTask (s : St) (i p : Nat) : Prop := i < s.n ∧ s.pc i = .running p

/-- The main thread is outside of the functions of the pool and of the closures given to them. -/
def St.atRest (s : St) : Prop := ∃ res, s.main = .idle res

theorem rest_main {m : MPc} {t : Option Nat} (h : (∃ res, m = .idle res) ∨ m = .scope ∨ m = .over) : m.round t = false ∧ m.post = false := by
  rcases h with ⟨res, h⟩ | h | h <;> rw [h] <;> exact ⟨rfl, rfl⟩

/-- **C62.** Whenever the main thread is back from `scope` (or in a scope before its `run`, or has dropped the pool), every thread of
    the pool has been given every task that `run` was called with, each exactly once and in the order of the calls. -/
theorem C62_once (hr : Run s) (hm : s.atRest ∨ s.main = .scope ∨ s.main = .over) {i : Nat} (hin : i < s.n) : s.ran i = s.issued := by
  obtain ⟨w, c, pl, bat, pend, hi⟩ := run_inv hr
  have h := hi.thr i hin
  by_cases hg : s.pc i = .gone
  · exact h.rng hg
  · have hno := hi.notOver hin hg
    have h1 := (rest_main (t := s.task) hm).1
    have hj : s.main.joined = false := by
      rcases hm with ⟨res, hm⟩ | hm | hm
      · rw [hm]; rfl
      · rw [hm]; rfl
      · exact absurd hm hno
    have hb := (hi.quiet h1 hj hin).1
    have hl := hi.mn.iss
    rw [h1] at hl
    have hra := ((hi.fin hno).range (hi.cs i hin) (h.live.2 hg)).1
    rw [h.rn hg, List.take_of_length_le]
    simp at hl
    omega

/-- **C62.** At every moment a thread has been given all tasks, or all but the last one; never a task twice, and never a task out of
    turn. -/
theorem C62_prefix (hr : Run s) {i : Nat} (hin : i < s.n) : s.ran i = s.issued ∨ s.ran i = s.issued.dropLast := by
  obtain ⟨w, c, pl, bat, pend, hi⟩ := run_inv hr
  have h := hi.thr i hin
  by_cases hg : s.pc i = .gone
  · exact .inl (h.rng hg)
  · have hno := hi.notOver hin hg
    have hl := hi.mn.iss
    have hl : s.issued.length ≤ w.passed + 1 := by split at hl <;> omega
    have hra := ((hi.fin hno).range (hi.cs i hin) (h.live.2 hg)).1
    have h1 := h.rn hg
    generalize (c i).passed + (if (s.pc i).after (s.crashed i) = true then 1 else 0) = m at h1
    by_cases h3 : s.issued.length ≤ m
    · left
      rw [h1, List.take_of_length_le h3]
    · have hr2 := h.rn hg
      have : s.issued.length - 1 ≤ (c i).passed := by omega
      right
      by_cases h4 : s.issued.length ≤ (c i).passed + (if (s.pc i).after (s.crashed i) = true then 1 else 0)
      · have e := congrArg List.length h1
        rw [hr2] at e
        simp only [List.length_take] at e
        omega
      · rw [hr2, List.dropLast_eq_take]
        congr 1
        omega

theorem inTask_has {w : CountDown.Waiter} {c : Nat → CountDown.Counter} {pl : Nat → Place} {bat : Nat → Option Agent} {pend : Nat → Agent}
    (hi : Inv s w c pl bat pend) {i p : Nat} (h : s.inTask i p) :
    s.main.round s.task = true ∧ (c i).passed = w.passed ∧ p = s.lpi i ∧ p < s.np ∧ bat p = some (some i) := by
  obtain ⟨hin, hp⟩ := h
  have h := hi.thr i hin
  obtain ⟨h1, h2⟩ := h.aft (by rw [hp]; rfl)
  have h3 := h.proc p (by rw [hp]; rfl)
  have hmk : s.main ≠ .making := by intro e; rw [e] at h1; cases h1
  have h4 := (hi.q hmk).lp i hin
  rw [← h3] at h4
  exact ⟨h1, h2, h3, h4, ((hi.rnd h1).bt (some i) p h4).1 ⟨hin, h3.symm, by rw [hp]; rfl⟩⟩

/-- **C62.** While a thread runs a task, the scope of this task has not ended: the main thread is in `run`, in the rest of the closure of
    this scope, or at its end. What runs is the last task that `run` was called with. -/
theorem C62_isolated (hr : Run s) {i p : Nat} (h : s.inTask i p) :
    ((∃ k sub, s.main = .starting k sub) ∨ s.main = .ran ∨ s.main = .ending ∨ s.main = .waiting) ∧
    s.ran i = s.issued ∧ s.task = s.issued.getLast? ∧ s.task ≠ none := by
  obtain ⟨w, c, pl, bat, pend, hi⟩ := run_inv hr
  obtain ⟨h1, h2, h3, h4, h5⟩ := inTask_has hi h
  have hl := hi.mn.iss
  rw [h1] at hl
  have ht := hi.mn.tk
  rw [if_pos (.inl h1)] at ht
  refine ⟨?_, ?_, ht.2, ht.1⟩
  · have h6 : s.main ≠ .setting := by
      intro e
      have := ((hi.rnd h1).bt none p h4).1 (by show s.main.has p; rw [e]; trivial)
      rw [h5] at this
      cases this
    cases hm : s.main <;> rw [hm] at h1 h6 <;> first | cases h1; done | exact absurd rfl h6 | simp
  · have h7 := (hi.thr i h.1).rn (by rw [h.2]; simp)
    rw [h7, h.2, List.take_of_length_le]
    simp at hl
    simp [TPc.after]
    omega

/-- **C62.** At rest no thread is in a task; so what the closures of a scope borrow is not used after the scope. -/
theorem C62_rest (hr : Run s) (hm : s.atRest ∨ s.main = .scope ∨ s.main = .over) {i p : Nat} : ¬ s.inTask i p := by
  intro hp
  obtain ⟨h, _⟩ := C62_isolated hr hp
  rcases hm with ⟨res, hm⟩ | hm | hm <;> rw [hm] at h <;> simp at h

/-- **C62.** No two threads are in a task on the same logical processor at once. -/
theorem C62_one_per_processor (hr : Run s) {i j p : Nat} (h1 : s.inTask i p) (h2 : s.inTask j p) : i = j := by
  obtain ⟨w, c, pl, bat, pend, hi⟩ := run_inv hr
  have e1 := (inTask_has hi h1).2.2.2.2
  have e2 := (inTask_has hi h2).2.2.2.2
  rw [e1] at e2
  simpa using e2

/-- **C62.** The processor that a task is told it runs on is one of those given to `new`. -/
theorem C62_processor (hr : Run s) {i p : Nat} (h : s.inTask i p) : p < s.cpus.length := by
  obtain ⟨w, c, pl, bat, pend, hi⟩ := run_inv hr
  exact (inTask_has hi h).2.2.2.1

/-- **C62.** There are at most as many threads in the task at once as there are processors: any list of different threads that are all in
    the task is no longer than the list of processors. -/
theorem C62_bounded (hr : Run s) {l : List Nat} (hd : l.Nodup) (h : ∀ i ∈ l, ∃ p, s.inTask i p) : l.length ≤ s.cpus.length := by
  have hlp : ∀ i ∈ l, s.inTask i (s.lpi i) := by
    intro i hil
    obtain ⟨p, hp⟩ := h i hil
    obtain ⟨w, c, pl, bat, pend, hi⟩ := run_inv hr
    rw [← (inTask_has hi hp).2.2.1]
    exact hp
  have hn : (l.map s.lpi).Nodup := by
    rw [List.Nodup, List.pairwise_map]
    refine List.Pairwise.imp_of_mem ?_ hd
    intro a b ha hb hab e
    have h2 := hlp b hb
    rw [← e] at h2
    exact hab (C62_one_per_processor hr (hlp a ha) h2)
  have := List.Nodup.length_le_of_subset hn (l₂ := List.range s.cpus.length) (by
    intro p hp
    rw [List.mem_map] at hp
    obtain ⟨i, hil, rfl⟩ := hp
    exact List.mem_range.2 (C62_processor hr (hlp i hil)))
  simpa using this

/-- Processor `p` is in use: a thread that was assigned to it has been released to run the task, or runs it, or is about to start another one. -/
def St.inUse (s : St) (p : Nat) : Prop :=
  ∃ i, i < s.n ∧ s.lpi i = p ∧ (s.flag i = true ∨ match s.pc i with
    | .got | .load | .look _ | .running _ | .starting .. => True
    | _ => False)

/-- **C62.** After `run` has returned no processor is idle while a thread is still waiting for its turn in any queue. -/
theorem C62_no_idle (hr : Run s) (hm : s.main = .ran ∨ s.main = .waiting) {p q i : Nat} (hp : p < s.cpus.length) (hq : i ∈ s.ready q) : s.inUse p := by
  obtain ⟨w, c, pl, bat, pend, hi⟩ := run_inv hr
  have h1 : s.main.round s.task = true := by rcases hm with hm | hm <;> rw [hm] <;> rfl
  have hrn := hi.rnd h1
  cases hb : bat p with
  | none =>
    rw [hrn.empty p hp hb q] at hq
    cases hq
  | some a =>
    have hh := (hrn.bt a p hp).2 hb
    cases a with
    | none =>
      exfalso
      have : s.main.has p := hh
      rcases hm with hm | hm <;> rw [hm] at this <;> exact this
    | some j =>
      obtain ⟨g1, g2, g3⟩ := hh
      refine ⟨j, g1, g2, ?_⟩
      cases hpc : s.pc j <;> rw [hpc] at g3 <;> simp [TPc.active] at g3 <;> simp [g3]

/-- **C62.** No step replaces or drops the task while a thread runs it (it would panic, and by `C62_no_panic` it does not). -/
theorem C62_held {s' : St} {a : Act} (h : step s a = some (.ok s')) {i p : Nat} (hp : s.inTask i p) : s'.task = s.task := by
  have hb : ((List.range s.n).any fun i => (s.pc i).borrows) = true := by
    rw [List.any_eq_true]
    exact ⟨i, List.mem_range.2 hp.1, by rw [hp.2]; rfl⟩
  have map2 : ∀ {a : CountDown.Act} {f : CountDown.St → St}, s.onFin a f = some (.ok s') → (∀ x, (f x).task = s.task) → s'.task = s.task := by
    intro a f h1 h2
    simp only [St.onFin, Option.map_eq_some_iff] at h1
    obtain ⟨r, _, h1⟩ := h1
    obtain ⟨x, _, h1⟩ := (R.bind_eq_ok ..).1 h1
    cases h1
    exact h2 x
  have sub : ∀ {p : Nat} {x : Sub} {s1 : St} {r : Option Sub}, s.sub p x = .ok (s1, r) → s1.task = s.task := by
    intro p x s1 r h1
    cases x with
    | seek k =>
      simp only [St.sub] at h1
      split at h1 <;> cases h1 <;> rfl
    | push w q =>
      simp only [St.sub] at h1
      obtain ⟨_, _, h1⟩ := (R.bind_eq_ok ..).1 h1
      cases h1; rfl
    | assign w q =>
      simp only [St.sub] at h1
      obtain ⟨_, _, h1⟩ := (R.bind_eq_ok ..).1 h1
      obtain ⟨_, _, h1⟩ := (R.bind_eq_ok ..).1 h1
      split at h1
      · obtain ⟨s2, h2, h1⟩ := (R.bind_eq_ok ..).1 h1
        cases h1
        simp only [St.assignTo] at h2
        split at h2
        · obtain ⟨_, _, h2⟩ := (R.bind_eq_ok ..).1 h2
          cases h2; rfl
        · cases h2; rfl
      · cases h1; rfl
    | flag w => cases h1; rfl
    | unpark w => cases h1; rfl
  cases a with
  | spawn =>
      simp only [step] at h
      split at h
      · exact map2 h fun _ => rfl
      · cases h
  | made cpus =>
      simp only [step] at h
      split at h
      · exact map2 h fun _ => rfl
      · cases h
  | enter =>
      simp only [step] at h
      split at h
      · cases h; rfl
      · cases h
  | run k =>
      simp only [step, hb, if_true] at h
      split at h <;> cases h
  | leave =>
      simp only [step] at h
      split at h
      · cases h; rfl
      · cases h
  | join =>
      simp only [step] at h
      split at h
      · split at h <;> cases h
        rfl
      · cases h
  | main =>
      simp only [step, mainStep, hb, if_true] at h
      split at h
      · cases h; rfl
      · have h := Option.some.inj h
        obtain ⟨⟨s1, r⟩, h1, h⟩ := (R.bind_eq_ok ..).1 h
        cases h
        have := sub h1
        exact this
      · split at h
        · exact map2 h fun _ => rfl
        · cases h; rfl
      · cases h
      · split at h
        · cases h
        · have h := Option.some.inj h
          obtain ⟨s1, h1, h⟩ := (R.bind_eq_ok ..).1 h
          cases h
          obtain ⟨_, _, h1⟩ := (R.bind_eq_ok ..).1 h1
          cases h1
          rfl
      · cases h; rfl
      · cases h; rfl
      · cases h; rfl
      · cases h; rfl
      · split at h
        · split at h
          · split at h <;> cases h
            rfl
          · cases h
        · exact map2 h fun _ => rfl
      · cases h
  | wake =>
      simp only [step] at h
      split at h
      · exact map2 h fun _ => rfl
      · cases h
  | thread i =>
      simp only [step] at h
      split at h
      · simp only [threadStep] at h
        split at h
        · split at h <;> cases h <;> rfl
        · split at h <;> cases h
          rfl
        · split at h <;> cases h
          rfl
        · split at h <;> cases h
          rfl
        · split at h
          · cases h
          · split at h <;> cases h <;> rfl
        · have h := Option.some.inj h
          obtain ⟨⟨s1, r⟩, h1, h⟩ := (R.bind_eq_ok ..).1 h
          cases h
          have := sub h1
          exact this
        · exact map2 h fun _ => rfl
        · exact map2 h fun _ => rfl
        · cases h; rfl
        · exact map2 h fun _ => rfl
        · cases h
        · cases h
      · cases h
  | spurious i =>
      simp only [step] at h
      split at h <;> cases h
      rfl
  | finish i =>
      simp only [step] at h
      split at h <;> cases h
      rfl
  | crash i =>
      simp only [step] at h
      split at h <;> cases h
      rfl

/-- **C62.** No assertion of the latch fails, the cells of the task and of the logical processors are never borrowed in conflict, no queue
    overflows and none holds a thread when the processors are reset, no index is out of range, and neither the assertion nor the `expect` of `join` fails, whatever the
    tasks do. -/
theorem C62_no_panic (hr : Run s) {a : Act} (ha : allowed s a) : step s a ≠ some .panic := by
  intro h
  obtain ⟨w, c, pl, bat, pend, hi⟩ := run_inv hr
  obtain ⟨s', w', c', pl', bat', pend', _, h1⟩ := inv_step hi ha h
  cases h1

theorem crashed_poisoned {w : CountDown.Waiter} {c : Nat → CountDown.Counter} {pl : Nat → Place} {bat : Nat → Option Agent} {pend : Nat → Agent}
    (hi : Inv s w c pl bat pend) (hm : s.atRest) {i : Nat} (hin : i < s.n) (hx : s.crashed i = true) : s.poisoned = true := by
  obtain ⟨res, hm⟩ := hm
  have hb := (hi.quiet (by rw [hm]; rfl) (by rw [hm]; rfl) hin).1
  have h := hi.thr i hin
  rcases h.cr1 hx with ⟨p, sub, h1⟩ | h1 | h1 | h1
  · rw [h1] at hb; cases hb
  · rw [h1] at hb; cases hb
  · rw [h1] at hb; cases hb
  · exact h.cr2 hx (.inr h1)

/-- **C62.** A scope returns normally exactly if no task has panicked so far. -/
theorem C62_result (hr : Run s) {res : Res} (hm : s.main = .idle (some res)) : res = .done ↔ ∀ i, i < s.n → s.crashed i = false := by
  obtain ⟨w, c, pl, bat, pend, hi⟩ := run_inv hr
  constructor
  · rintro rfl i hin
    have hp := hi.mn.clean (by rw [hm]; rfl)
    cases hx : s.crashed i with
    | false => rfl
    | true =>
        rw [crashed_poisoned hi ⟨_, hm⟩ hin hx] at hp
        cases hp
  · intro h
    cases hres : res with
    | done => rfl
    | refused | crashed =>
        exfalso
        have : s.poisoned = true := hi.mn.bad (by rw [hm, hres]; simp)
        obtain ⟨i, hin, hx⟩ := hi.blame this
        rw [h i hin] at hx
        cases hx

/-- **C62.** After a task has panicked, `scope` panics and its closure is not called. -/
theorem C62_refused {s' : St} (hr : Run s) (hm : s.atRest) {i : Nat} (hin : i < s.n) (hc : s.crashed i = true) (h : step s .enter = some (.ok s')) :
    s'.main = .idle (some .refused) ∧ s'.pc = s.pc ∧ s'.issued = s.issued := by
  obtain ⟨w, c, pl, bat, pend, hi⟩ := run_inv hr
  have hp := crashed_poisoned hi hm hin hc
  obtain ⟨res, hm⟩ := hm
  simp only [step, hm, hp, if_true] at h
  cases h
  exact ⟨rfl, rfl, rfl⟩

/-- **C62.** A thread whose task panicked takes no further task; it was given the one it panicked in. -/
theorem C62_crashed (hr : Run s) {i : Nat} (hin : i < s.n) (hc : s.crashed i = true) : (∀ p, ¬ s.inTask i p) ∧ s.ran i = s.issued := by
  obtain ⟨w, c, pl, bat, pend, hi⟩ := run_inv hr
  have h := hi.thr i hin
  have h2 := h.cr1 hc
  refine ⟨?_, ?_⟩
  · rintro p ⟨_, hp⟩
    rw [hp] at h2
    simp at h2
  · by_cases hg : s.pc i = .gone
    · exact h.rng hg
    · have ha : (s.pc i).after (s.crashed i) = true := by
        rcases h2 with ⟨p, sub, h2⟩ | h2 | h2 | h2
        · rw [h2]; rfl
        · rw [h2]; rfl
        · rw [h2, hc]; rfl
        · exact absurd h2 hg
      obtain ⟨h3, h4⟩ := h.aft ha
      have hl := hi.mn.iss
      rw [h3] at hl
      rw [h.rn hg, ha, List.take_of_length_le]
      simp at hl
      simp
      omega

/-- **C62.** When the pool has been dropped, all its threads have ended. -/
theorem C62_join (hr : Run s) (hm : s.main = .over) {i : Nat} (hin : i < s.n) : s.pc i = .gone := by
  obtain ⟨w, c, pl, bat, pend, hi⟩ := run_inv hr
  exact hi.over hm i hin

/-- **C62.** A thread that is in a task and has been pinned is pinned to the CPU of the processor that the task is told, if this has one. -/
theorem C62_affinity (hr : Run s) {i p u v : Nat} (h : s.inTask i p) (hu : s.cpus[p]? = some (some u)) (hv : s.aff i = some v) : v = u := by
  obtain ⟨w, c, pl, bat, pend, hi⟩ := run_inv hr
  have h3 := (inTask_has hi h).2.2.1
  have := hi.aff i h.1
  rw [← h3, hv] at this
  simpa [St.cpu, hu] using this

end Shadow.Pool.Bounded
