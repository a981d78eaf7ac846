import Verif.Wake.Steps

/-!
The claims of C67 about blocked threads and their wakeups, over every run of the model.
-/

namespace Shadow.Wake

open Shadow.Base

/-- A thread is blocked in a system call, on a condition. -/
def Waits (s : St) (t : Th) (c : Nat) : Prop := t ∈ s.ths ∧ t.cond = some c ∧ s.cur ≠ some t.uid

/-- A signal is there for the thread, its own or one of its process, that it does not block. -/
def SigFor (s : St) (t : Th) : Prop := ∃ g, (g ∈ t.pend ∨ (t.pid, g) ∈ s.ppend) ∧ ¬ g ∈ t.blocked

/-- The time of a condition has come. -/
def Late (now : Nat) (k : Cond) : Prop := ∃ x, k.timeout = some x ∧ x ≤ now

/-- A bit is on for which the condition waits. -/
def BitOn (s : St) (k : Cond) : Prop := ∃ o m, k.trig = .file o m ∧ s.objs o &&& m ≠ 0

/-- The next task of the queue. -/
def Next (s : St) (x : Nat) (k : Task) : Prop := (x, k) ∈ s.queue ∧ ∀ e ∈ s.queue, x ≤ e.1

/-- Why an event may resume thread `t`, and how that is logged. -/
def Cause (s : St) (now : Nat) (t : Th) (why : Why) : Prop :=
  match why with
  | .wake c =>
      -- the condition of the thread, or a wait that an `execve` in its process has cut
      (t.cond = some c ∨ ((s.conds c).cut = true ∧ t.pid ∈ s.execd)) ∧ t.pid = (s.conds c).pid ∧ t.tid = (s.conds c).tid ∧
      (Late now (s.conds c) ∨ BitOn s (s.conds c) ∨ (s.conds c).trig = .futex ∨ (s.conds c).trig = .child ∨ SigFor s t) ∧
      Next s now (.wake c)
  | .start => t.cond = none ∧ Next s now (.start t.pid t.tid)
  | .exec => t.cond ≠ none ∧ Next s now (.exec t.pid t.tid)

theorem minIdx_split {e : Nat × Task} : ∀ {pre : List (Nat × Task)}, (∀ a ∈ pre, e.1 < a.1) → ∀ (post : List (Nat × Task)),
    (∀ a ∈ post, e.1 ≤ a.1) → ∀ {q : List (Nat × Task)}, q = pre ++ e :: post → q[minIdx q]? = some e
  | [], _, post, hpost, q, hq => by
    subst hq
    simp only [List.nil_append, minIdx]
    split
    · simp
    · next b hb =>
      rw [if_pos (hpost b (List.mem_of_getElem? hb))]
      simp
  | a :: pre, hpre, post, hpost, q, hq => by
    subst hq
    have ih := minIdx_split (e := e) (pre := pre) (fun b hb => hpre b (List.mem_cons_of_mem _ hb)) post hpost rfl
    have ha := hpre a (List.mem_cons_self ..)
    simp only [List.cons_append, minIdx, ih]
    rw [if_neg (by omega)]
    simpa using ih

theorem pop_next {s : St} {q x k} (hp : Pop s q x k) : Next s x k := ⟨hp.hd, hp.mn⟩

theorem satisfied_spec {s : St} {k : Cond} {t : Th} (h : s.satisfied k t = true) :
    Late s.now k ∨ BitOn s k ∨ k.trig = .futex ∨ k.trig = .child ∨ SigFor s t := by
  simp only [St.satisfied, Bool.or_eq_true] at h
  rcases h with (h | h) | h
  · left
    cases ht : k.timeout with
    | none => simp [ht] at h
    | some x => exact ⟨x, ht, by simpa [ht] using h⟩
  · unfold St.statusIsValid at h
    split at h
    · next o m ht => exact Or.inr (Or.inl ⟨o, m, ht, by simpa using h⟩)
    · next ht => exact Or.inr (Or.inr (Or.inl ht))
    · next ht => exact Or.inr (Or.inr (Or.inr (Or.inl ht)))
    · cases h
  · refine Or.inr (Or.inr (Or.inr (Or.inr ?_)))
    simp only [St.pending, Bool.or_eq_true, List.any_eq_true, Bool.and_eq_true, decide_eq_true_eq,
      Bool.not_eq_true', List.contains_eq_mem, decide_eq_false_iff_not] at h
    rcases h with ⟨g, h1, h2⟩ | ⟨⟨p, g⟩, h1, h2, h3⟩
    · exact ⟨g, Or.inl h1, h2⟩
    · simp at h2
      subst h2
      exact ⟨g, Or.inr h1, h3⟩

theorem satisfied_of {s : St} {k : Cond} {t : Th}
    (h : Late s.now k ∨ BitOn s k ∨ k.trig = .futex ∨ k.trig = .child ∨ SigFor s t) : s.satisfied k t = true := by
  simp only [St.satisfied, Bool.or_eq_true]
  rcases h with ⟨x, h1, h2⟩ | ⟨o, m, h1, h2⟩ | h | h | ⟨g, h1, h2⟩
  · left; left
    simp [h1, h2]
  · left; right
    simp only [St.statusIsValid, h1]
    simpa using h2
  · left; right
    simp [St.statusIsValid, h]
  · left; right
    simp [St.statusIsValid, h]
  · right
    simp only [St.pending, Bool.or_eq_true, List.any_eq_true, Bool.and_eq_true, decide_eq_true_eq,
      Bool.not_eq_true', List.contains_eq_mem, decide_eq_false_iff_not]
    rcases h1 with h1 | h1
    · exact Or.inl ⟨g, h1, h2⟩
    · exact Or.inr ⟨(t.pid, g), h1, rfl, h2⟩

/-- **An event resumes a thread only for a reason.**  If an event makes a thread run, then the event is the wakeup of the
condition on which that thread waits, and its time has come, a bit is on, or a signal is there (a futex or child wait is always
taken for ready); or it is the first run of a thread that has not run; or the thread called `execve` and the new program starts.
The one other case is a wakeup that was left of a wait that an `execve` in the process has cut.  No event resumes two threads, and
the log tells which it was. -/
theorem C67_wake {s s' : St} (h : Run s) (hs : step s .event = some (.ok s')) {u : Nat} (hu : s'.cur = some u) :
    ∃ t ∈ s.ths, t.uid = u ∧ ∃ why, Cause s s'.now t why ∧ s'.log = s.log ++ [(u, why)] := by
  obtain ⟨hC, hR⟩ := h.inv
  simp only [step] at hs
  split at hs
  · next hn =>
    have hn : s.cur = none := by simpa using hn
    obtain ⟨q, x, k, hp, e⟩ := event_eq hs
    cases k with
    | wake c =>
      simp only at e
      obtain ⟨h1, h2, h3, h4⟩ := wake_sched hC.toCds hp.hd
      rcases trigger_cases hC.toIds hC.toCds hp with ⟨t, t1, t2, t3, t4, t5⟩ | ⟨_, e'⟩
      · have hv := virgin hR hC.toQue hn h2 t1 t2 t3
        obtain ⟨d, hd⟩ := Option.ne_none_iff_exists'.1 hv
        rw [t5, run_some (oddSt_core (relSt_core hC hp) _).toCds _ (by exact t1) hd] at e
        cases e
        simp at hu
        refine ⟨t, t1, hu, .wake c, ⟨?_, t2, t3, satisfied_spec (s := popSt s q x) t4, pop_next hp⟩, by subst hu; rfl⟩
        rcases found hC.toIds hC.toCds hn h1 t1 t3 with e | ⟨e1, e2⟩
        · exact Or.inl e
        · exact Or.inr ⟨e2, hC.gone c t h2 e2 t1 t2 t3⟩
      · rw [e'] at e
        cases e
        simp [hn] at hu
    | timer c =>
      simp only at e
      obtain ⟨s1, e1, e2, e3, e4, e5⟩ := expire_inv hC hR hp
      rw [e1] at e
      cases e
      rw [e4, hn] at hu
      cases hu
    | start p y =>
      simp only at e
      unfold St.startTh at e
      have hlk : (popSt s q x).lookup p y = s.lookup p y := rfl
      rw [hlk] at e
      cases hl : s.lookup p y with
      | none =>
        rw [hl] at e
        cases e
        simp [hn] at hu
      | some t =>
        obtain ⟨t1, t2, t3⟩ := lookup_some hl
        have hc := (hC.qstart x p y t hp.hd t1 t2 t3).1
        simp only [hl, run_none _ hc] at e
        cases e
        simp at hu
        subst t2 t3
        exact ⟨t, t1, hu, .start, ⟨hc, pop_next hp⟩, by subst hu; rfl⟩
    | exec p y =>
      simp only at e
      rcases finishExec_inv hC hR hn hp with ⟨s1, e1, e2, e3, hnow, _, e4⟩ | ⟨e1, _⟩
      · rw [e1] at e
        cases e
        rcases e4 with ⟨e4, _⟩ | ⟨t, t1, t2, t3, t4, t5, t6⟩
        · rw [e4] at hu
          cases hu
        · rw [t5] at hu
          simp at hu
          subst t2 t3
          rw [hnow]
          exact ⟨t, t1, hu, .exec, ⟨t4, pop_next hp⟩, by subst hu; exact t6⟩
      · rw [e1] at e
        cases e
  · cases hs

/-- **Each blocked call is resumed at most once.** -/
theorem C67_once {s : St} (h : Run s) (c : Nat) : s.log.countP (fun e => e.2 = .wake c) ≤ 1 := (h.inv.2.lg c).1

/-- **No wakeup is lost.**  While a thread waits for bits of a file and one is on, or its futex or child was signalled, or a signal is there
for the thread itself (unless the call only holds back a result), its wakeup is in the queue, at the present time.  If it has a
timeout, it is not past, and the timer or the wakeup is in the queue at that time. -/
theorem C67_lost {s : St} (h : Run s) {t : Th} {c : Nat} (hw : Waits s t c) :
    (BitOn s (s.conds c) → (s.now, Task.wake c) ∈ s.queue) ∧
    ((s.conds c).notified = true → (s.now, Task.wake c) ∈ s.queue) ∧
    ((s.conds c).held = false → (∃ g ∈ t.pend, ¬ g ∈ t.blocked) → (s.now, Task.wake c) ∈ s.queue) ∧
    (∀ x, (s.conds c).timeout = some x → s.now ≤ x ∧ ((x, Task.timer c) ∈ s.queue ∨ (x, Task.wake c) ∈ s.queue)) := by
  obtain ⟨hC, hR⟩ := h.inv
  obtain ⟨h1, h2, h3⟩ := hw
  have hl := hC.wait t c h1 h2 h3
  have hq : (s.conds c).sched = true → (s.now, Task.wake c) ∈ s.queue := by
    intro hs
    obtain ⟨x, hx⟩ := sched_in hC.toCds hs
    have e1 := hC.qge _ hx
    have e2 := hC.qeq _ hx (by simp)
    have : x = s.now := by simp at e1 e2; omega
    rw [← this]
    exact hx
  refine ⟨?_, ?_, ?_, ?_⟩
  · rintro ⟨o, m, e1, e2⟩
    exact hq (hR.bits c o m (by simp) hl.2.1 e1 e2)
  · intro e
    exact hq (hR.notif c (by simp) hl.2.1 e)
  · rintro e ⟨g, g1, g2⟩
    rcases hR.tsig t c g (by simp) h1 h2 h3 g1 g2 with h4 | h4 | h4
    · exact hq h4
    · rw [e] at h4
      cases h4
    · exact absurd h4 (by simp)
  · intro x hx
    have := hR.dl c x (by simp) hl.2.1 hx
    refine ⟨this.1, ?_⟩
    cases ha : (s.conds c).armed
    · have h4 := this.2.2 ha
      have h5 : x = s.now := by omega
      rw [h5]
      exact Or.inr (hq h4.2)
    · exact Or.inl (this.2.1 ha)

/-- **A wakeup resumes its thread.**  When the wakeup of a condition is the next task, that is the first of the present time in the queue, no thread runs, and what the thread waits for is
there, then the event makes this thread run. -/
theorem C67_deliver {s : St} (h : Run s) {t : Th} {c : Nat} (hw : Waits s t c) (hn : s.cur = none)
    {pre post : List (Nat × Task)} (hq : s.queue = pre ++ (s.now, .wake c) :: post) (hpre : ∀ e ∈ pre, s.now < e.1)
    (hr : Late s.now (s.conds c) ∨ BitOn s (s.conds c) ∨ (s.conds c).trig = .futex ∨ (s.conds c).trig = .child ∨ SigFor s t) :
    ∃ s', step s .event = some (.ok s') ∧ s'.cur = some t.uid ∧ s'.log = s.log ++ [(t.uid, .wake c)] := by
  obtain ⟨hC, hR⟩ := h.inv
  obtain ⟨h1, h2, h3⟩ := hw
  have hl := hC.wait t c h1 h2 h3
  have hq := minIdx_split (e := (s.now, Task.wake c)) hpre post (by
    intro a ha
    exact hC.qge a (by rw [hq]; simp [ha])) hq
  have hp := pop_of hq
  have hs : step s .event = some ((popSt s (s.queue.eraseIdx (minIdx s.queue)) s.now).trigger c) := by
    simp only [step, if_pos (show s.cur.isNone = true by rw [hn]; rfl), St.event, hq]
    rfl
  rw [hs]
  rcases trigger_cases hC.toIds hC.toCds hp with ⟨a, t1, t2, t3, t4, t5⟩ | ⟨e, _⟩
  · have : a = t := hC.tids a t t1 h1 (by rw [t3, hl.1])
    subst this
    rw [t5, run_some (oddSt_core (relSt_core hC hp) _).toCds _ (by exact t1) h2]
    exact ⟨_, rfl, rfl, rfl⟩
  · have := e t h1 (hC.own t c h1 h2).2.2.symm hl.1.symm
    rw [satisfied_of (s := popSt s (s.queue.eraseIdx (minIdx s.queue)) s.now) (by exact hr)] at this
    cases this

/-- **Time stands still until what is ready has run.**  While a thread waits although its time has come, a bit is on, its futex or child was
signalled, or a signal is there for it (unless the call only holds back a result), the clock does not move: no time may pass, and
the next event is at the present time. -/
theorem C67_time {s : St} (h : Run s) {t : Th} {c : Nat} (hw : Waits s t c)
    (hr : Late s.now (s.conds c) ∨ BitOn s (s.conds c) ∨ (s.conds c).notified = true ∨
      ((s.conds c).held = false ∧ ∃ g ∈ t.pend, ¬ g ∈ t.blocked)) :
    (∀ d, allowed s (.tick d) → d = 0) ∧ ∀ x k, Next s x k → x = s.now := by
  obtain ⟨hC, hR⟩ := h.inv
  obtain ⟨l1, l2, l3, l4⟩ := C67_lost h hw
  have : ∃ k, (s.now, k) ∈ s.queue := by
    rcases hr with ⟨x, h1, h2⟩ | h1 | h1 | ⟨h1, h2⟩
    · have := l4 x h1
      have e : x = s.now := by omega
      rw [e] at this
      rcases this.2 with h | h
      · exact ⟨_, h⟩
      · exact ⟨_, h⟩
    · exact ⟨_, l1 h1⟩
    · exact ⟨_, l2 h1⟩
    · exact ⟨_, l3 h1 h2⟩
  obtain ⟨k, hk⟩ := this
  refine ⟨?_, ?_⟩
  · intro d hd
    have := hd _ hk
    simp at this
    omega
  · intro x k' ⟨e1, e2⟩
    have h1 := e2 _ hk
    have h2 := hC.qge _ e1
    simp at h1 h2
    omega

/-- **A call waits no longer than its timeout.** -/
theorem C67_timeout {s : St} (h : Run s) {t : Th} {c x : Nat} (hw : Waits s t c) (hx : (s.conds c).timeout = some x) : s.now ≤ x :=
  ((C67_lost h hw).2.2.2 x hx).1

/-- **A signal of a process is on its way.**  While no thread runs and a signal of a process is pending that some thread of it does not
block, there is such a thread that is about to run (its first run is queued, or its wakeup is) or that only holds back a result,
and then not longer than its delay. -/
theorem C67_signal {s : St} (h : Run s) (hn : s.cur = none) {p g : Nat} (hg : (p, g) ∈ s.ppend)
    (ht : ∃ t ∈ s.ths, t.pid = p ∧ ¬ g ∈ t.blocked) :
    ∃ t ∈ s.ths, t.pid = p ∧ ¬ g ∈ t.blocked ∧
      ((t.cond = none ∧ (s.now, Task.start t.pid t.tid) ∈ s.queue) ∨
       ∃ c, t.cond = some c ∧ ((s.now, Task.wake c) ∈ s.queue ∨
        ((s.conds c).held = true ∧ ∃ x, (s.conds c).timeout = some x ∧ s.now ≤ x))) := by
  obtain ⟨hC, hR⟩ := h.inv
  obtain ⟨t, t1, t2, t3⟩ := ht
  obtain ⟨a, a1, a2, a3, a4⟩ := hR.psig p g t (by simp) hg t1 t2 t3
  refine ⟨a, a1, a2, a3, ?_⟩
  have hq : ∀ x k, (x, k) ∈ s.queue → (∀ c, k ≠ .timer c) → (s.now, k) ∈ s.queue := by
    intro x k hx hk
    have e1 := hC.qge _ hx
    have e2 := hC.qeq _ hx hk
    have : x = s.now := by simp at e1 e2; omega
    rw [← this]
    exact hx
  cases hc : a.cond with
  | none =>
    obtain ⟨x, hx⟩ := hR.uns a a1 (by simp) hc (by rw [hn]; simp)
    exact Or.inl ⟨rfl, hq _ _ hx (by simp)⟩
  | some c =>
    refine Or.inr ⟨c, rfl, ?_⟩
    have hw : Waits s a c := ⟨a1, hc, by rw [hn]; simp⟩
    rcases a4.resolve_left (by rw [hn]; simp) c hc with h1 | h1 | h1
    · obtain ⟨x, hx⟩ := sched_in hC.toCds h1
      exact Or.inl (hq _ _ hx (by simp))
    · obtain ⟨x, hx⟩ := hR.hld c h1
      exact Or.inr ⟨h1, x, hx, C67_timeout h hw hx⟩
    · exact absurd h1 (by simp)

/-- **References.**  The count of a condition is the number of its holders: the thread, the timer, the listener, the queued wakeup, of
which there is one at most.  It is freed exactly when none is left. -/
theorem C67_refs {s : St} (h : Run s) (c : Nat) (hc : c < s.nc) :
    (s.conds c).refs = (if ∃ t ∈ s.ths, t.cond = some c then 1 else 0) + (if (s.conds c).timer then 1 else 0) +
      (if (s.conds c).listening then 1 else 0) + s.queue.countP (fun q => q.2 = .wake c) ∧
    s.queue.countP (fun q => q.2 = .wake c) ≤ 1 ∧ ((s.conds c).freed = true ↔ (s.conds c).refs = 0) := by
  obtain ⟨hC, hR⟩ := h.inv
  have h1 := hC.refs c
  have h2 := hC.wk c
  unfold wakes at h2
  have h3 : (owned s c).toNat = if ∃ t ∈ s.ths, t.cond = some c then 1 else 0 := by
    cases ho : owned s c
    · rw [if_neg]
      · rfl
      · intro e
        rw [mem_owned.2 e] at ho
        cases ho
    · rw [if_pos (mem_owned.1 ho)]
      rfl
  refine ⟨?_, ?_, hC.freed c hc⟩
  · rw [h1, h2, ← h3]
    cases (s.conds c).timer <;> cases (s.conds c).listening <;> rfl
  · rw [h2]
    cases (s.conds c).sched <;> simp

/-- **What can fail.**  No step touches a freed condition, takes a reference too few, looks up a missing thread or finds a signal blocked that
it has to deliver.  The one failure is the task of an `execve` whose thread is gone while its process goes on, and that takes two
`execve` calls in the process. -/
theorem C67_no_panic {s : St} (h : Run s) {a : Act} (ha : allowed s a) (hp : step s a = some .panic) :
    a = .event ∧ s.odd = true ∧ ∃ x p y, Next s x (.exec p y) ∧ (∃ t ∈ s.ths, t.pid = p) ∧ ∀ t ∈ s.ths, t.pid = p → t.tid ≠ y := by
  obtain ⟨hC, hR⟩ := h.inv
  rcases step_inv hC hR ha hp with ⟨s', e, _⟩ | ⟨e1, _, e2, q, x, p, y, e3, e4, e5⟩
  · cases e
  · exact ⟨e1, e2, x, p, y, pop_next e3, e4, e5⟩

theorem sched_odd {s s' : St} {c : Nat} (h : s.sched c = .ok s') : s'.odd = s.odd := by
  simp only [St.sched] at h
  grind [St.upd]

theorem unref_odd {s s' : St} {c : Nat} (h : s.unref c = .ok s') : s'.odd = s.odd := by
  simp only [St.unref] at h
  grind [St.upd]

theorem dropOld_odd {s s' : St} {t : Th} (h : s.dropOld t = .ok s') : s'.odd = s.odd := by
  simp only [St.dropOld] at h
  split at h
  · cases h; rfl
  · rw [unref_odd h]; rfl

theorem cancel_odd {s s' : St} {c : Nat} (h : s.cancel c = .ok s') : s'.odd = s.odd := by
  simp only [St.cancel] at h
  split at h
  · cases h
  obtain ⟨s1, h1, h2⟩ := R.bind_eq_ok.1 h
  have e1 : s1.odd = s.odd := by
    simp only [St.dropTimer] at h1
    split at h1
    · rw [unref_odd h1]; rfl
    · cases h1; rfl
  simp only [St.dropListener] at h2
  split at h2
  · rw [unref_odd h2, upd_odd, e1]
  · cases h2; exact e1

theorem dropTh_odd {s s' : St} {t : Th} (h : s.dropTh t = .ok s') : s'.odd = s.odd := by
  simp only [St.dropTh] at h
  split at h
  · cases h; rfl
  · obtain ⟨s1, h1, h2⟩ := R.bind_eq_ok.1 h
    rw [unref_odd h2, cancel_odd h1]
    rfl

theorem dropAll_odd : ∀ (L : List Th) {s s' : St}, s.dropAll L = .ok s' → s'.odd = s.odd
  | [], s, s', h => by cases h; rfl
  | t :: L, s, s', h => by
    simp only [St.dropAll] at h
    obtain ⟨s1, h1, h2⟩ := R.bind_eq_ok.1 h
    rw [dropAll_odd L h2, dropTh_odd h1]

theorem tell_odd (o : Nat) (old new : BitVec 16) : ∀ (L : List Nat) {s s' : St}, s.tell o old new L = .ok s' → s'.odd = s.odd
  | [], s, s', h => by cases h; rfl
  | c :: L, s, s', h => by
    cases ht : (s.conds c).trig with
    | file o' m =>
      simp only [St.tell, ht] at h
      split at h
      · obtain ⟨s1, h1, h2⟩ := R.bind_eq_ok.1 h
        rw [tell_odd o old new L h2, sched_odd h1]
      · exact tell_odd o old new L h
    | none => simp only [St.tell, ht] at h; exact tell_odd o old new L h
    | futex => simp only [St.tell, ht] at h; exact tell_odd o old new L h
    | child => simp only [St.tell, ht] at h; exact tell_odd o old new L h

theorem block_odd {s s' : St} {t : Th} {trig timeout held} (h : s.block t trig timeout held = .ok s') : s'.odd = s.odd := by
  simp only [St.block] at h
  obtain ⟨s1, h1, h2⟩ := R.bind_eq_ok.1 h
  cases h2
  rw [← dropOld_odd h1]
  rfl

theorem wakeup_odd {s s' : St} {c g : Nat} {b : Bool} (h : s.wakeupForSignal c g = .ok (s', b)) : s'.odd = s.odd := by
  simp only [St.wakeupForSignal] at h
  split at h
  · cases h
  split at h
  · cases h
  split at h
  · cases h; rfl
  · obtain ⟨s1, h1, h2⟩ := R.bind_eq_ok.1 h
    cases h2
    exact sched_odd h1

theorem signalTh_odd {s s' : St} {m g : Nat} {t : Th} (h : s.signalTh m t g = .ok s') : s'.odd = s.odd := by
  simp only [St.signalTh] at h
  split at h
  · cases h; rfl
  split at h
  · cases h; rfl
  split at h
  · cases h; rfl
  split at h
  · cases h; rfl
  · obtain ⟨⟨s1, b⟩, h1, h2⟩ := R.bind_eq_ok.1 h
    obtain ⟨_, _, h3⟩ := R.bind_eq_ok.1 h2
    cases h3
    rw [wakeup_odd h1]
    rfl

theorem interrupt_odd {s s' : St} {g : Nat} {L : List Th} (h : s.interrupt g L = .ok s') : s'.odd = s.odd := by
  rcases interrupt_cases s g L with ⟨_, e⟩ | ⟨t, _, c, _, _, e⟩
  · rw [e] at h; cases h; rfl
  · rw [e] at h
    obtain ⟨⟨s1, b⟩, h1, h2⟩ := R.bind_eq_ok.1 h
    cases h2
    exact wakeup_odd h1

theorem signalProc_odd {s s' : St} {m : Option Th} {p g : Nat} (h : s.signalProc m p g = .ok s') : s'.odd = s.odd := by
  simp only [St.signalProc] at h
  split at h
  · cases h; rfl
  split at h
  · split at h
    · cases h; rfl
    · rw [interrupt_odd h]
  · rw [interrupt_odd h]

/-- **Several `execve` calls.**  The mark `odd` is set only by a thread that calls `execve` while another call of its process is not finished, or
by a wakeup that resumes a thread which does not wait on its condition, after an `execve` of its process. -/
theorem C67_odd {s s' : St} (h : Run s) {a : Act} (hs : step s a = some (.ok s')) (h0 : s.odd = false) (h1 : s'.odd = true) :
    (a = .exec ∧ ∃ t ∈ s.ths, s.cur = some t.uid ∧ ∃ x y, (x, Task.exec t.pid y) ∈ s.queue) ∨
    (a = .event ∧ ∃ x c, Next s x (.wake c) ∧ (s.conds c).cut = true ∧
      ∃ t ∈ s.ths, s'.cur = some t.uid ∧ t.cond ≠ some c ∧ t.pid ∈ s.execd) := by
  obtain ⟨hC, hR⟩ := h.inv
  have no : s'.odd ≠ s.odd := by rw [h0, h1]; simp
  cases a with
  | event =>
    right
    refine ⟨rfl, ?_⟩
    simp only [step] at hs
    split at hs
    · next hn =>
      have hn : s.cur = none := by simpa using hn
      obtain ⟨q, x, k, hp, e⟩ := event_eq hs
      cases k with
      | wake c =>
        simp only at e
        obtain ⟨g1, g2, g3, g4⟩ := wake_sched hC.toCds hp.hd
        rcases trigger_cases hC.toIds hC.toCds hp with ⟨t, t1, t2, t3, t4, t5⟩ | ⟨_, e'⟩
        · have hv := virgin hR hC.toQue hn g2 t1 t2 t3
          obtain ⟨d, hd⟩ := Option.ne_none_iff_exists'.1 hv
          rw [t5, run_some (oddSt_core (relSt_core hC hp) _).toCds _ (by exact t1) hd] at e
          cases e
          have hne : t.cond ≠ some c := by
            intro e
            simp [oddSt, e, h0] at h1
          rcases found hC.toIds hC.toCds hn g1 t1 t3 with e | ⟨e1, e2⟩
          · exact absurd e hne
          · exact ⟨x, c, pop_next hp, e2, t, t1, rfl, hne, hC.gone c t g2 e2 t1 t2 t3⟩
        · rw [e'] at e
          cases e
          exact absurd rfl no
      | timer c =>
        simp only [St.expire] at e
        split at e
        · exact absurd (by rw [sched_odd e.symm]; rfl) no
        · cases e
          exact absurd rfl no
      | start p y =>
        obtain ⟨s1, e1, e2, e3, e4⟩ := startTh_inv hC hR hn hp
        simp only at e
        unfold St.startTh at e
        split at e
        · cases e
          exact absurd rfl no
        · next t hl =>
          obtain ⟨t1, t2, t3⟩ := lookup_some hl
          rw [run_none _ (hC.qstart x p y t hp.hd t1 t2 t3).1] at e
          cases e
          exact absurd rfl no
      | exec p y =>
        simp only at e
        rcases finishExec_inv hC hR hn hp with ⟨s1, e1, e2, e3, _, e5, _⟩ | ⟨e1, _⟩
        · rw [e1] at e
          cases e
          exact absurd e5 no
        · rw [e1] at e
          cases e
    · cases hs
  | exec =>
    left
    refine ⟨rfl, ?_⟩
    obtain ⟨t, t1, t2⟩ := Option.map_eq_some_iff.1 hs
    have := block_odd t2
    rw [h1] at this
    simp [h0, Task.execOf] at this
    obtain ⟨a, b, t3, t4⟩ := this
    cases b with
    | exec p y =>
      simp at t4
      subst t4
      exact ⟨t, (me_some t1).1, (me_some t1).2, a, y, t3⟩
    | _ => cases t4
  | tick d => cases hs; exact absurd rfl no
  | obj o v =>
    simp only [step, Option.some.injEq] at hs
    exact absurd (by rw [tell_odd _ _ _ _ hs]) no
  | notify c =>
    simp only [step, Option.some.injEq, St.notify] at hs
    exact absurd (by rw [sched_odd hs]; rfl) no
  | block trig timeout held =>
    obtain ⟨t, t1, t2⟩ := Option.map_eq_some_iff.1 hs
    exact absurd (block_odd t2) no
  | exit =>
    obtain ⟨t, t1, t2⟩ := Option.map_eq_some_iff.1 hs
    obtain ⟨s1, e1, e2⟩ := R.bind_eq_ok.1 t2
    cases e2
    have := dropOld_odd e1
    exact absurd this no
  | exitAll =>
    obtain ⟨t, t1, t2⟩ := Option.map_eq_some_iff.1 hs
    obtain ⟨s1, e1, e2⟩ := R.bind_eq_ok.1 t2
    have e3 := dropAll_odd _ e2
    have e4 := dropOld_odd e1
    exact absurd (e3.trans e4) no
  | clone =>
    obtain ⟨t, t1, t2⟩ := Option.map_eq_some_iff.1 hs
    cases t2
    exact absurd rfl no
  | fork =>
    obtain ⟨t, t1, t2⟩ := Option.map_eq_some_iff.1 hs
    cases t2
    exact absurd rfl no
  | spawn =>
    simp only [step] at hs
    split at hs
    · cases hs
      exact absurd rfl no
    · cases hs
  | mask l =>
    obtain ⟨t, t1, t2⟩ := Option.map_eq_some_iff.1 hs
    cases t2
    exact absurd rfl no
  | take g =>
    obtain ⟨t, t1, t2⟩ := Option.map_eq_some_iff.1 hs
    cases t2
    exact absurd rfl no
  | killTh u g =>
    simp only [step, Option.bind_eq_some_iff, Option.map_eq_some_iff] at hs
    obtain ⟨m, _, t, _, e⟩ := hs
    exact absurd (signalTh_odd e) no
  | kill p g =>
    simp only [step, Option.some.injEq] at hs
    exact absurd (signalProc_odd hs) no

theorem sched_sig {s s' : St} {c : Nat} (h : s.sched c = .ok s') : s'.ths = s.ths ∧ s'.ppend = s.ppend := by
  simp only [St.sched] at h
  grind [St.upd]

theorem wakeupForSignal_sig {s : St} {c g : Nat} {r : St × Bool} (h : s.wakeupForSignal c g = .ok r) :
    r.1.ths = s.ths ∧ r.1.ppend = s.ppend := by
  simp only [St.wakeupForSignal] at h
  split at h
  · cases h
  split at h
  · cases h
  split at h
  · cases h; exact ⟨rfl, rfl⟩
  · rw [R.bind_eq_ok] at h
    obtain ⟨x, h1, h2⟩ := h
    cases h2
    exact sched_sig h1

/-- **A signal is never thrown away when it is sent.**  After a thread is sent a signal it is among the pending signals of that
thread, and after a process is sent one it is among those of the process. -/
theorem C67_pends {s s' : St} {u p g : Nat} :
    (step s (.killTh u g) = some (.ok s') → ∃ t ∈ s'.ths, t.uid = u ∧ g ∈ t.pend) ∧
    (step s (.kill p g) = some (.ok s') → (p, g) ∈ s'.ppend) := by
  refine ⟨fun h => ?_, fun h => ?_⟩
  · simp only [step, Option.bind_eq_some_iff, Option.map_eq_some_iff] at h
    obtain ⟨m, _, t, ht, h⟩ := h
    have hm : t ∈ s.ths ∧ t.uid = u := by
      unfold St.byUid at ht
      exact ⟨List.mem_of_find?_eq_some ht, by simpa using List.find?_some ht⟩
    simp only [St.signalTh] at h
    have key : ∃ x ∈ (s.updTh t.uid fun x => { x with pend := g :: x.pend }).ths, x.uid = u ∧ g ∈ x.pend := by
      refine ⟨{ t with pend := g :: t.pend }, ?_, hm.2, by simp⟩
      simp only [St.updTh, List.mem_map]
      exact ⟨t, hm.1, by simp⟩
    split at h
    · rename_i hp
      cases h
      exact ⟨t, hm.1, hm.2, by simpa using hp⟩
    split at h
    · cases h; exact key
    split at h
    · cases h; exact key
    split at h
    · cases h; exact key
    · rw [R.bind_eq_ok] at h
      obtain ⟨r, h1, h2⟩ := h
      have := (wakeupForSignal_sig h1).1
      simp only [R.bind_eq_ok] at h2
      obtain ⟨_, _, h3⟩ := h2
      cases h3
      rw [this]; exact key
  · simp only [step, Option.some.injEq, St.signalProc] at h
    split at h
    · rename_i hp; cases h; simpa using hp
    have int : ∀ L, ({ s with ppend := (p, g) :: s.ppend } : St).interrupt g L = .ok s' → (p, g) ∈ s'.ppend := by
      intro L h
      rcases interrupt_cases { s with ppend := (p, g) :: s.ppend } g L with ⟨_, e⟩ | ⟨t, _, c, _, _, e⟩
      · rw [e] at h; cases h; simp
      · rw [e, R.bind_eq_ok] at h
        obtain ⟨r, h1, h2⟩ := h
        cases h2
        rw [(wakeupForSignal_sig h1).2]; simp
    split at h
    · split at h
      · cases h; simp
      · exact int _ h
    · exact int _ h

end Shadow.Wake
