import Verif.Pool.Unbounded
import Verif.Pool.Latches

/-!
# The thread pool of the thread-per-core scheduler: invariant
-/
namespace Shadow.Pool.Unbounded

open Shadow.Base Shadow.Latch

/-- The pool is being dropped. -/
def MPc.joined : MPc → Bool
  | .jopening _ | .joining _ _ | .over => true
  | _ => false

/-- `task_end_waiter.wait()` has not returned for the last task. -/
def MPc.busy : MPc → Bool
  | .setting | .set | .opening | .ran | .waiting => true
  | _ => false

def MPc.opens : MPc → Bool
  | .opening | .jopening _ => true
  | _ => false

/-- The last task did not panic. -/
def MPc.clean (task : Option Nat) : MPc → Bool
  | .scope | .setting | .set | .idle (some .done) => true
  | .ending => task.isNone
  | _ => false

/-- How the position of a thread goes with its start waiter and its end counter. -/
def Rel (pc : TPc) (sw : Simple.Waiter) (c : CountDown.Counter) : Prop :=
  match pc with
  | .atWait => sw.pc = .out ∧ c.live = true ∧ c.pending = false ∧ sw.passed = c.passed
  | .waiting => sw.pc ≠ .out ∧ sw.pc ≠ .gone ∧ c.live = true ∧ c.pending = false ∧ sw.passed = c.passed
  | .look | .running | .counting | .panicking | .exiting => sw.pc = .out ∧ c.live = true ∧ c.pending = false ∧ sw.passed = c.passed + 1
  | .notifying => sw.pc = .out ∧ c.live = true ∧ c.pending = true ∧ sw.passed = c.passed
  | .exiting2 => sw.pc = .out ∧ c.live = false ∧ c.pending = false
  | .gone => sw.pc = .gone ∧ c.live = false ∧ c.pending = false

/-- The thread does not look for the last task. -/
def TPc.early : TPc → Bool
  | .look | .exiting | .exiting2 | .gone => false
  | _ => true

structure TInv (issued : List Nat) (poisoned : Bool) (joined : Bool) (t : Thread) (sw : Simple.Waiter) (c : CountDown.Counter) : Prop where
  rel : Rel t.pc sw c
  ran : t.ran = issued.take (if t.pc = .look then c.passed else sw.passed)
  busy : t.pc.early = true → sw.passed ≤ issued.length
  crash1 : t.pc = .panicking → t.crashed = true
  crash2 : t.crashed = true → t.pc = .panicking ∨ t.pc = .exiting ∨ t.pc = .exiting2 ∨ t.pc = .gone
  crash3 : t.crashed = true → t.pc = .panicking ∨ poisoned = true
  crash4 : t.crashed = true → sw.passed = issued.length
  quit : t.pc = .exiting ∨ t.pc = .exiting2 ∨ t.pc = .gone → t.crashed = true ∨ (joined = true ∧ issued.length ≤ sw.passed)

structure Inv (s : St) (w : CountDown.Waiter) : Prop where
  start : Simple.Run s.start
  fin : s.main ≠ .over → Fin s.fin w
  lenS : s.start.ws.length = s.threads.length
  lenC : s.fin.cs.length = s.threads.length + 1
  c0 : ∃ c, s.fin.cs[0]? = some c ∧ c.live = decide (s.main = .making) ∧ c.pending = false ∧ c.passed = 0
  thr : ∀ (i : Nat) (t : Thread), s.threads[i]? = some t → ∃ sw c, s.start.ws[i]? = some sw ∧ s.fin.cs[i + 1]? = some c ∧
    TInv s.issued s.poisoned s.main.joined t sw c
  opens : if s.main = .setting ∨ s.main = .set then s.start.opens + 1 = s.issued.length
    else if s.main.joined = true then s.start.opens = s.issued.length + 1 else s.start.opens = s.issued.length
  passed : if s.main.busy = true ∨ (s.main = .ending ∧ s.task.isSome = true) then w.passed + 1 = s.issued.length else w.passed = s.issued.length
  task : if s.main.busy = true ∨ s.main = .passed ∨ (s.main = .ending ∧ s.task.isSome = true) then s.task ≠ none ∧ s.task = s.issued.getLast? else s.task = none
  waking : s.start.waking = s.main.opens
  wpc : s.main ≠ .over → (w.pc ≠ .out ↔ s.main = .waiting)
  fresh : s.main = .making → s.issued = []
  clean : s.main.clean s.task = true → s.poisoned = false
  bad : s.main = .idle (some .crashed) ∨ s.main = .idle (some .refused) → s.poisoned = true
  blame : s.poisoned = true → ∃ t ∈ s.threads, t.crashed = true
  over : s.main = .over → ∀ t ∈ s.threads, t.pc = .gone
  check : ∀ b, s.main = .jopening b ∨ (∃ k, s.main = .joining b k) → b = true → ∀ t ∈ s.threads, t.crashed = false
  joins : ∀ b k, s.main = .joining b k → ∀ (j : Nat) (t : Thread), j < k → s.threads[j]? = some t → t.pc = .gone

theorem inv_init : Inv .init ⟨0, 0, true, .out⟩ := by
  refine ⟨.init, fun _ => fin_init, rfl, rfl, ⟨_, rfl, rfl, rfl, rfl⟩, ?_, ?_, ?_, ?_, rfl, ?_, fun _ => rfl, ?_, ?_, ?_, ?_, ?_, ?_⟩
  · intro i t h
    simp [St.init] at h
  · decide
  · decide
  · decide
  · intro _
    decide
  · intro h; cases h
  · intro h; rcases h with h | h <;> cases h
  · intro h; cases h
  · intro h; cases h
  · intro b h _
    rcases h with h | ⟨k, h⟩ <;> cases h
  · intro b k h; cases h

variable {s : St} {w : CountDown.Waiter}

/-- If the main thread is not waiting for the last task, then no thread is in it. -/
theorem quiet (hi : Inv s w) (hq : s.start.opens = w.passed) {i : Nat} {t : Thread} (ht : s.threads[i]? = some t) :
    t.pc = .atWait ∨ t.pc = .waiting ∨ t.pc = .notifying ∨ t.pc = .exiting2 ∨ t.pc = .gone := by
  obtain ⟨sw, c, h1, h2, hr⟩ := hi.thr i t ht
  by_cases ho : s.main = .over
  · exact .inr (.inr (.inr (.inr (hi.over ho t (List.mem_of_getElem? ht)))))
  have hf := hi.fin ho
  have hrel := hr.rel
  have key : ∀ {P : Prop}, sw.pc = .out ∧ c.live = true ∧ c.pending = false ∧ sw.passed = c.passed + 1 → P := by
    intro P h
    have e1 := hf.range h2 h.2.1
    have e2 := Start.range hi.start h1 (by rw [h.1]; simp)
    omega
  cases hpc : t.pc <;> rw [hpc] at hrel <;> first | exact key hrel | simp

/-- No thread has the task borrowed. -/
theorem quiet_any (hi : Inv s w) (hq : s.start.opens = w.passed) : s.threads.any Thread.borrows = false := by
  rw [List.any_eq_false]
  intro t ht
  obtain ⟨i, hi'⟩ := List.getElem?_of_mem ht
  have := quiet hi hq hi'
  unfold Thread.borrows
  rcases this with h | h | h | h | h <;> rw [h] <;> decide

/-- All start waiters have passed, so that the start latch may be opened. -/
theorem quiet_open (hi : Inv s w) (hno : s.main ≠ .over) (hj : s.main.joined = false) (hq : s.start.opens = w.passed) (hl : s.poisoned = true → s.start.opens = s.issued.length) :
    ∀ x ∈ s.start.ws, x.pc ≠ .gone → x.passed = s.start.opens := by
  intro x hx hg
  obtain ⟨i, hx'⟩ := List.getElem?_of_mem hx
  have hlt : i < s.threads.length := by
    rw [← hi.lenS]
    exact (List.getElem?_eq_some_iff.1 hx').1
  have ht : s.threads[i]? = some s.threads[i] := List.getElem?_eq_getElem hlt
  obtain ⟨sw, c, h1, h2, hr⟩ := hi.thr i _ ht
  rw [hx'] at h1
  cases h1
  have hf := hi.fin hno
  have hrel := hr.rel
  have e2 := Start.range hi.start hx' hg
  have key : ∀ {P : Prop}, c.live = true → x.passed = c.passed → (x.passed = s.start.opens → P) → P := by
    intro P hl h k
    have e1 := hf.range h2 hl
    exact k (by omega)
  rcases quiet hi hq ht with h | h | h | h | h <;> rw [h] at hrel
  · exact key hrel.2.1 hrel.2.2.2 id
  · exact key hrel.2.2.1 hrel.2.2.2.2 id
  · exact key hrel.2.1 hrel.2.2.2 id
  · rcases hr.quit (.inr (.inl h)) with h3 | h3
    · have h4 := hr.crash4 h3
      rcases hr.crash3 h3 with h5 | h5
      · rw [h] at h5; cases h5
      · rw [h4, hl h5]
    · rw [hj] at h3; cases h3.1
  · exact absurd hrel.1 hg

/-- A step of thread `i` that keeps the main thread where it is. -/
theorem inv_move (hi : Inv s w) (hno : s.main ≠ .over) {i : Nat} {t : Thread} {sw : Simple.Waiter} {c : CountDown.Counter} (ht : s.threads[i]? = some t)
    (hng : t.pc ≠ .gone) (hs : s.start.ws[i]? = some sw) (hc : s.fin.cs[i + 1]? = some c) {t' : Thread} {sw' : Simple.Waiter} {c' : CountDown.Counter}
    {start : Simple.St} {fin : CountDown.St} {w' : CountDown.Waiter} {p : Bool}
    (s1 : Simple.Run start) (s2 : start.ws = s.start.ws.set i sw') (s3 : start.opens = s.start.opens) (s4 : start.waking = s.start.waking)
    (f1 : Fin fin w') (f2 : fin.cs = s.fin.cs.set (i + 1) c') (f3 : w'.passed = w.passed) (f4 : w'.pc = .out ↔ w.pc = .out)
    (p1 : s.poisoned = true → p = true) (p2 : p = true → s.poisoned = true ∨ t'.crashed = true) (p3 : s.main.clean s.task = true → p = false)
    (h1 : t.crashed = true → t'.crashed = true) (h2 : t'.crashed = true → t.crashed = true ∨ s.main.joined = false)
    (hti : TInv s.issued p s.main.joined t' sw' c') :
    Inv { s with threads := s.threads.set i t', start := start, fin := fin, poisoned := p } w' := by
  refine ⟨s1, fun _ => f1, ?_, ?_, ?_, ?_, ?_, ?_, hi.task, ?_, ?_, hi.fresh, p3, fun h => p1 (hi.bad h), ?_, fun h => absurd h hno, ?_, ?_⟩
  · show start.ws.length = (s.threads.set i t').length
    rw [s2, List.length_set, List.length_set]
    exact hi.lenS
  · show fin.cs.length = (s.threads.set i t').length + 1
    rw [f2, List.length_set, List.length_set]
    exact hi.lenC
  · obtain ⟨c0, e1, e2⟩ := hi.c0
    refine ⟨c0, ?_, e2⟩
    show fin.cs[0]? = _
    rw [f2, List.getElem?_set_ne (by omega)]
    exact e1
  · intro j u hu
    show ∃ sw c, start.ws[j]? = some sw ∧ fin.cs[j + 1]? = some c ∧ _
    rw [s2, f2]
    by_cases hij : i = j
    · subst hij
      have : (s.threads.set i t')[i]? = some u := hu
      rw [getElem?_set_self' ht] at this
      cases this
      exact ⟨sw', c', getElem?_set_self' hs, getElem?_set_self' hc, hti⟩
    · have : (s.threads.set i t')[j]? = some u := hu
      rw [List.getElem?_set_ne hij] at this
      obtain ⟨sw2, c2, e1, e2, e3⟩ := hi.thr j u this
      refine ⟨sw2, c2, by rw [List.getElem?_set_ne hij]; exact e1, by rw [List.getElem?_set_ne (by omega)]; exact e2, ?_⟩
      refine ⟨e3.rel, e3.ran, e3.busy, e3.crash1, e3.crash2, fun hx => ?_, e3.crash4, e3.quit⟩
      rcases e3.crash3 hx with h | h
      · exact .inl h
      · exact .inr (p1 h)
  · show if s.main = .setting ∨ s.main = .set then start.opens + 1 = s.issued.length else _
    rw [s3]
    exact hi.opens
  · show if s.main.busy = true ∨ (s.main = .ending ∧ s.task.isSome = true) then w'.passed + 1 = s.issued.length else w'.passed = s.issued.length
    rw [f3]
    exact hi.passed
  · show start.waking = s.main.opens
    rw [s4]
    exact hi.waking
  · intro hn
    show w'.pc ≠ .out ↔ s.main = .waiting
    rw [← hi.wpc hn, ne_eq, ne_eq, f4]
  · intro hp
    rcases p2 hp with h | h
    · obtain ⟨u, hu, hcu⟩ := hi.blame h
      obtain ⟨j, hj⟩ := List.getElem?_of_mem hu
      by_cases hij : i = j
      · subst hij
        rw [ht] at hj
        cases hj
        exact ⟨t', List.mem_of_getElem? (getElem?_set_self' ht), h1 hcu⟩
      · refine ⟨u, List.mem_of_getElem? (i := j) ?_, hcu⟩
        show (s.threads.set i t')[j]? = _
        rw [List.getElem?_set_ne hij]
        exact hj
    · exact ⟨t', List.mem_of_getElem? (getElem?_set_self' ht), h⟩
  · intro b hb hbt u hu
    have h0 := hi.check b hb hbt
    rcases List.mem_or_eq_of_mem_set hu with h | rfl
    · exact h0 u h
    · cases hcr : u.crashed with
      | false => rfl
      | true =>
          rcases h2 hcr with h | h
          · rw [h0 t (List.mem_of_getElem? ht)] at h; cases h
          · exfalso
            have hb : s.main = .jopening b ∨ ∃ k, s.main = .joining b k := hb
            rcases hb with hb | ⟨k, hb⟩ <;> rw [hb] at h <;> cases h
  · intro b k hb j u hj hu
    have h0 := hi.joins b k hb
    by_cases hij : i = j
    · subst hij
      exact absurd (h0 i t hj ht) hng
    · have : (s.threads.set i t')[j]? = some u := hu
      rw [List.getElem?_set_ne hij] at this
      exact h0 j u hj this

theorem joined_passed (hi : Inv s w) (h : s.main.joined = true) : w.passed = s.issued.length ∧ s.start.opens = s.issued.length + 1 ∧ s.task = none := by
  have h1 := hi.passed
  have h2 := hi.opens
  have h3 := hi.task
  cases hm : s.main <;> simp only [hm, MPc.joined, MPc.busy] at h h1 h2 h3 <;> first | cases h | skip
  all_goals simp at h1 h2 h3; exact ⟨h1, h2, h3⟩

/-- While a thread is after its wait on the start latch, the main thread waits for the task or the pool is being dropped. -/
theorem busy_main (hi : Inv s w) (hno : s.main ≠ .over) {i : Nat} {sw : Simple.Waiter} {c : CountDown.Counter} (hs : s.start.ws[i]? = some sw)
    (hc : s.fin.cs[i + 1]? = some c) (hl : c.live = true) (ho : sw.pc = .out) (hp : sw.passed = c.passed + 1) :
    sw.passed = s.start.opens ∧ c.passed = w.passed ∧
    ((s.main.joined = true ∧ s.task = none) ∨ (s.main.joined = false ∧ s.start.opens = s.issued.length ∧ s.task ≠ none ∧ s.task = s.issued.getLast? ∧ s.main.writes = false)) := by
  have hf := hi.fin hno
  have e1 := hf.range hc hl
  have e2 := Start.range hi.start hs (by rw [ho]; simp)
  have h1 := hi.passed
  have h2 := hi.opens
  have h3 := hi.task
  have key : s.start.opens = w.passed + 1 → sw.passed = s.start.opens ∧ c.passed = w.passed := fun h => ⟨by omega, by omega⟩
  cases hm : s.main <;> simp only [hm, MPc.joined, MPc.busy] at h1 h2 h3 <;> simp at h1 h2 h3
  case ending =>
    by_cases ht : s.task.isSome = true
    · simp only [ht, if_true] at h1 h3
      refine ⟨(key (by omega)).1, (key (by omega)).2, .inr ⟨rfl, h2, ?_, ?_, rfl⟩⟩
      · intro hx; rw [hx] at ht; cases ht
      · exact (h3).2
    · simp only [ht] at h1
      exfalso; simp at h1; omega
  all_goals first | (exfalso; omega) | exact ⟨(key (by omega)).1, (key (by omega)).2, .inl ⟨rfl, h3⟩⟩ | exact ⟨(key (by omega)).1, (key (by omega)).2, .inr ⟨rfl, h2, h3.1, h3.2, rfl⟩⟩ | skip

theorem onStart_ok {a : Simple.Act} {f : Simple.St → St} {x : Simple.St} (h : Simple.step s.start a = some (.ok x)) : s.onStart a f = some (.ok (f x)) := by
  simp only [St.onStart, h, Option.map_some]
  rfl

theorem onFin_ok {a : CountDown.Act} {f : CountDown.St → St} {x : CountDown.St} (h : CountDown.step s.fin a = some (.ok x)) : s.onFin a f = some (.ok (f x)) := by
  simp only [St.onFin, h, Option.map_some]
  rfl

theorem take_last {l : List Nat} {n k : Nat} (h : l.length = n + 1) (hk : l.getLast? = some k) : l.take n ++ [k] = l.take (n + 1) := by
  obtain ⟨l', rfl⟩ := List.getLast?_eq_some_iff.1 hk
  have : l'.length = n := by simpa using h
  rw [List.take_left' this, ← h, List.take_length]

/-! ## The steps of the threads -/

theorem inv_stepped (hi : Inv s w) (hno : s.main ≠ .over) {i : Nat} {t : Thread} (ht : s.threads[i]? = some t) (hpc : t.pc = .waiting) {a : Simple.Act}
    (ha : a = .run i ∨ a = .intr i) {r : R St} (h : s.onStart a (s.stepped i t) = some r) : ∃ s' w', r = .ok s' ∧ Inv s' w' := by
  obtain ⟨sw, c, hs, hc, hti⟩ := hi.thr i t ht
  have hrel := hti.rel
  rw [hpc] at hrel
  obtain ⟨e1, e2, e3, e4, e5⟩ := hrel
  cases hst : Simple.step s.start a with
  | none => simp [St.onStart, hst] at h
  | some r0 =>
      obtain ⟨sw', rfl, hrun, hng, hsw⟩ := Start.inWait hi.start hs e1 e2 ha hst
      rw [onStart_ok hst] at h
      cases h
      have hget : (s.start.put i sw').ws[i]? = some sw' := getElem?_set_self' hs
      have hcr : t.crashed = false := by
        cases hx : t.crashed with
        | false => rfl
        | true =>
            have := hti.crash2 hx
            rw [hpc] at this
            simp at this
      refine ⟨_, w, rfl, ?_⟩
      simp only [St.stepped, hget, Option.any_some]
      have hran := hti.ran
      rw [hpc, if_neg (by simp)] at hran
      have hbase : ∀ pc', (pc' = .look ∨ pc' = .waiting) → Rel pc' sw' c → (if pc' = .look then c.passed else sw'.passed) = sw.passed →
          Inv { s with start := s.start.put i sw', threads := s.threads.set i { t with pc := pc' } } w := by
        intro pc' hp hr hk
        refine inv_move (p := s.poisoned) (start := s.start.put i sw') (fin := s.fin) (sw' := sw') (c' := c) hi hno ht (by rw [hpc]; simp) hs hc hrun rfl rfl rfl (hi.fin hno) (set_self hc).symm rfl Iff.rfl id .inl hi.clean id .inl ?_
        refine ⟨hr, by dsimp only; rw [hk]; exact hran, ?_, ?_, ?_, ?_, ?_, ?_⟩
        · intro hx
          dsimp only at hx
          rcases hp with rfl | rfl
          · simp [TPc.early] at hx
          · rw [if_neg (by simp)] at hk
            rw [hk]
            exact hti.busy (by rw [hpc]; rfl)
        · intro hx; dsimp only at hx; rcases hp with rfl | rfl <;> simp at hx
        · intro hx; dsimp only at hx; rw [hcr] at hx; cases hx
        · intro hx; dsimp only at hx; rw [hcr] at hx; cases hx
        · intro hx; dsimp only at hx; rw [hcr] at hx; cases hx
        · intro hx; dsimp only at hx; rcases hp with rfl | rfl <;> simp at hx
      rcases hsw with ⟨o1, o2⟩ | ⟨o1, o2⟩
      · simp only [o1, decide_true, if_true]
        exact hbase .look (.inl rfl) ⟨o1, e3, e4, by omega⟩ (by rw [if_pos rfl]; exact e5.symm)
      · simp only [o1, decide_false]
        exact hbase .waiting (.inr rfl) ⟨o1, hng, e3, e4, by omega⟩ (by rw [if_neg (by simp)]; exact o2)

/-- The thread is alive, so that the pool is not gone. -/
theorem not_over (hi : Inv s w) {i : Nat} {t : Thread} (ht : s.threads[i]? = some t) (hg : t.pc ≠ .gone) : s.main ≠ .over :=
  fun h => hg (hi.over h t (List.mem_of_getElem? ht))

theorem inv_thread (hi : Inv s w) {i : Nat} {t : Thread} (ht : s.threads[i]? = some t) {r : R St} (h : threadStep s i t = some r) :
    ∃ s' w', r = .ok s' ∧ Inv s' w' := by
  obtain ⟨sw, c, hs, hc, hti⟩ := hi.thr i t ht
  have hrel := hti.rel
  cases hpc : t.pc with
  | running => simp [threadStep, hpc] at h
  | gone => simp [threadStep, hpc] at h
  | waiting =>
      simp only [threadStep, hpc] at h
      exact inv_stepped hi (not_over hi ht (by rw [hpc]; simp)) ht hpc (.inl rfl) h
  | atWait =>
      have hno := not_over hi ht (by rw [hpc]; simp)
      rw [hpc] at hrel
      obtain ⟨e1, e2, e3, e4⟩ := hrel
      obtain ⟨o1, o2⟩ := Start.wait hi.start hs e1
      simp only [threadStep, hpc] at h
      rw [onStart_ok o1] at h
      cases h
      refine ⟨_, w, rfl, inv_move (p := s.poisoned) (fin := s.fin) (sw' := { sw with pc := .load }) (c' := c) hi hno ht (by rw [hpc]; simp) hs hc o2 rfl rfl rfl (hi.fin hno) (set_self hc).symm rfl Iff.rfl id .inl hi.clean id .inl ?_⟩
      have hran := hti.ran
      rw [hpc] at hran
      refine ⟨⟨by simp, by simp, e2, e3, e4⟩, by simpa using hran, fun _ => hti.busy (by rw [hpc]; rfl), by simp, ?_, ?_, hti.crash4, by simp⟩
      · intro hx; have := hti.crash2 hx; rw [hpc] at this; simp at this
      · intro hx; have := hti.crash2 hx; rw [hpc] at this; simp at this
  | look =>
      have hno := not_over hi ht (by rw [hpc]; simp)
      rw [hpc] at hrel
      obtain ⟨e1, e2, e3, e4⟩ := hrel
      obtain ⟨b1, b2, b3⟩ := busy_main hi hno hs hc e2 e1 e4
      have hran := hti.ran
      rw [hpc] at hran
      have hcr : t.crashed = false := by
        cases hx : t.crashed with
        | false => rfl
        | true =>
            have := hti.crash2 hx
            rw [hpc] at this
            simp at this
      simp only [threadStep, hpc, Option.some.injEq] at h
      rcases b3 with ⟨j1, j2⟩ | ⟨j1, j2, j3, j4, j5⟩
      · have hw : s.main.writes = false := by
          cases hm : s.main <;> rw [hm] at j1 <;> first | rfl | cases j1
        simp only [hw, j2] at h
        cases h
        refine ⟨_, w, rfl, inv_move (p := s.poisoned) (start := s.start) (fin := s.fin) (sw' := sw) (c' := c) hi hno ht (by rw [hpc]; simp) hs hc hi.start (set_self hs).symm rfl rfl (hi.fin hno) (set_self hc).symm rfl Iff.rfl id .inl hi.clean id .inl ?_⟩
        have hj := joined_passed hi j1
        refine ⟨⟨e1, e2, e3, e4⟩, ?_, by simp [TPc.early], by simp, ?_, ?_, ?_, fun _ => .inr ⟨j1, by omega⟩⟩
        · simp only [if_true] at hran
          dsimp only
          rw [hran, if_neg (by simp), List.take_of_length_le (by omega), List.take_of_length_le (by omega)]
        · intro hx; dsimp only at hx; rw [hcr] at hx; cases hx
        · intro hx; dsimp only at hx; rw [hcr] at hx; cases hx
        · intro hx; dsimp only at hx; rw [hcr] at hx; cases hx
      · cases hk : s.task with
        | none => exact absurd hk j3
        | some k =>
            simp only [j5, hk] at h
            cases h
            refine ⟨_, w, rfl, inv_move (p := s.poisoned) (start := s.start) (fin := s.fin) (sw' := sw) (c' := c) hi hno ht (by rw [hpc]; simp) hs hc hi.start (set_self hs).symm rfl rfl (hi.fin hno) (set_self hc).symm rfl Iff.rfl id .inl hi.clean id .inl ?_⟩
            refine ⟨⟨e1, e2, e3, e4⟩, ?_, ?_, by simp, ?_, ?_, ?_, by simp⟩
            · simp only [if_true] at hran
              dsimp only
              rw [hran, if_neg (by simp), e4]
              exact take_last (by omega) (by rw [← j4, hk])
            · intro _; omega
            · intro hx; dsimp only at hx; rw [hcr] at hx; cases hx
            · intro hx; dsimp only at hx; rw [hcr] at hx; cases hx
            · intro hx; dsimp only at hx; rw [hcr] at hx; cases hx
  | counting =>
      have hno := not_over hi ht (by rw [hpc]; simp)
      rw [hpc] at hrel
      obtain ⟨e1, e2, e3, e4⟩ := hrel
      obtain ⟨b1, b2, b3⟩ := busy_main hi hno hs hc e2 e1 e4
      obtain ⟨fin', c', f1, f2, f3, f4, f5⟩ := (hi.fin hno).countDown hc e2 e3 b2
      simp only [threadStep, hpc] at h
      rw [onFin_ok f1] at h
      cases h
      have hget : fin'.cs[i + 1]? = some c' := by rw [f3]; exact getElem?_set_self' hc
      simp only [hget, Option.any_some]
      have hran := hti.ran
      rw [hpc] at hran
      have hcr : t.crashed = false := by
        cases hx : t.crashed with
        | false => rfl
        | true =>
            have := hti.crash2 hx
            rw [hpc] at this
            simp at this
      have hbase : ∀ pc', (pc' = .atWait ∨ pc' = .notifying) → Rel pc' sw c' →
          Inv { s with fin := fin', threads := s.threads.set i { t with pc := pc' } } w := by
        intro pc' hp hr
        refine inv_move (p := s.poisoned) (start := s.start) (fin := fin') (sw' := sw) (c' := c') hi hno ht (by rw [hpc]; simp) hs hc hi.start (set_self hs).symm rfl rfl f2 f3 rfl Iff.rfl id .inl hi.clean id .inl ?_
        refine ⟨hr, ?_, ?_, ?_, ?_, ?_, ?_, ?_⟩
        · rcases hp with rfl | rfl <;> simpa using hran
        · intro _; exact hti.busy (by rw [hpc]; rfl)
        · intro hx; dsimp only at hx; rcases hp with rfl | rfl <;> simp at hx
        · intro hx; dsimp only at hx; rw [hcr] at hx; cases hx
        · intro hx; dsimp only at hx; rw [hcr] at hx; cases hx
        · intro hx; dsimp only at hx; rw [hcr] at hx; cases hx
        · intro hx; dsimp only at hx; rcases hp with rfl | rfl <;> simp at hx
      cases hp : c'.pending with
      | true => exact ⟨_, w, rfl, by simp only [if_true]; exact hbase .notifying (.inr rfl) ⟨e1, f4, hp, by omega⟩⟩
      | false => exact ⟨_, w, rfl, hbase .atWait (.inl rfl) ⟨e1, f4, hp, by omega⟩⟩
  | notifying =>
      have hno := not_over hi ht (by rw [hpc]; simp)
      rw [hpc] at hrel
      obtain ⟨e1, e2, e3, e4⟩ := hrel
      obtain ⟨fin', f1, f2, f3⟩ := (hi.fin hno).notify hc e3
      simp only [threadStep, hpc] at h
      rw [onFin_ok f1] at h
      cases h
      obtain ⟨n1, n2, n3, n4, n5⟩ := CountDown.notify_fields w
      refine ⟨_, w.notify, rfl, inv_move (p := s.poisoned) (start := s.start) (fin := fin') (sw' := sw) (c' := { c with pending := false }) hi hno ht (by rw [hpc]; simp) hs hc hi.start (set_self hs).symm rfl rfl f2 f3 n2 n4 id .inl hi.clean id .inl ?_⟩
      have hran := hti.ran
      rw [hpc] at hran
      refine ⟨⟨e1, e2, rfl, e4⟩, by simpa using hran, fun _ => hti.busy (by rw [hpc]; rfl), by simp, ?_, ?_, hti.crash4, by simp⟩
      · intro hx; have := hti.crash2 hx; rw [hpc] at this; simp at this
      · intro hx; have := hti.crash2 hx; rw [hpc] at this; simp at this
  | panicking =>
      have hno := not_over hi ht (by rw [hpc]; simp)
      rw [hpc] at hrel
      obtain ⟨e1, e2, e3, e4⟩ := hrel
      obtain ⟨b1, b2, b3⟩ := busy_main hi hno hs hc e2 e1 e4
      simp only [threadStep, hpc] at h
      cases h
      have hcr := hti.crash1 hpc
      have hran := hti.ran
      rw [hpc] at hran
      refine ⟨_, w, rfl, inv_move (p := true) (start := s.start) (fin := s.fin) (sw' := sw) (c' := c) hi hno ht (by rw [hpc]; simp) hs hc hi.start (set_self hs).symm rfl rfl (hi.fin hno) (set_self hc).symm rfl Iff.rfl (fun _ => rfl) (fun _ => .inr hcr) ?_ id .inl ?_⟩
      · intro hm
        have h3 := hi.task
        have h4 := hi.opens
        exfalso
        rcases b3 with ⟨j1, j2⟩ | ⟨j1, j2, j3, j4, j5⟩
        · cases hmm : s.main <;> rw [hmm] at j1 hm <;> first | (cases j1; done) | (cases hm; done)
        · cases hmm : s.main <;> simp only [hmm, MPc.clean, MPc.busy, MPc.joined] at hm h3 h4 <;> simp at hm h3 h4 <;> first | omega | exact j3 h3 | exact j3 hm
      · exact ⟨⟨e1, e2, e3, e4⟩, by simpa using hran, by simp [TPc.early], by simp, by simp, fun _ => .inr rfl, hti.crash4, fun _ => .inl hcr⟩
  | exiting =>
      have hno := not_over hi ht (by rw [hpc]; simp)
      rw [hpc] at hrel
      obtain ⟨e1, e2, e3, e4⟩ := hrel
      obtain ⟨fin', w', f1, f2, f3, f4, f5⟩ := (hi.fin hno).dropCounter hc e2 e3
      simp only [threadStep, hpc] at h
      rw [onFin_ok f1] at h
      cases h
      refine ⟨_, w', rfl, inv_move (p := s.poisoned) (start := s.start) (fin := fin') (sw' := sw) (c' := { c with live := false }) hi hno ht (by rw [hpc]; simp) hs hc hi.start (set_self hs).symm rfl rfl f2 f3 f4 f5 id .inl hi.clean id .inl ?_⟩
      have hran := hti.ran
      rw [hpc] at hran
      refine ⟨⟨e1, rfl, e3⟩, by simpa using hran, by simp [TPc.early], by simp, by simp, ?_, hti.crash4, fun _ => hti.quit (.inl hpc)⟩
      intro hx
      rcases hti.crash3 hx with h5 | h5
      · rw [hpc] at h5; cases h5
      · exact .inr h5
  | exiting2 =>
      have hno := not_over hi ht (by rw [hpc]; simp)
      rw [hpc] at hrel
      obtain ⟨e1, e2, e3⟩ := hrel
      obtain ⟨o1, o2⟩ := Start.drop hi.start hs e1
      simp only [threadStep, hpc] at h
      rw [onStart_ok o1] at h
      cases h
      refine ⟨_, w, rfl, inv_move (p := s.poisoned) (fin := s.fin) (sw' := { sw with pc := .gone }) (c' := c) hi hno ht (by rw [hpc]; simp) hs hc o2 rfl rfl rfl (hi.fin hno) (set_self hc).symm rfl Iff.rfl id .inl hi.clean id .inl ?_⟩
      have hran := hti.ran
      rw [hpc] at hran
      refine ⟨⟨rfl, e2, e3⟩, by simpa using hran, by simp [TPc.early], by simp, by simp, ?_, hti.crash4, fun _ => hti.quit (.inr (.inl hpc))⟩
      intro hx
      rcases hti.crash3 hx with h5 | h5
      · rw [hpc] at h5; cases h5
      · exact .inr h5

/-- The task returns or panics. -/
theorem inv_task (hi : Inv s w) {i : Nat} {t : Thread} (ht : s.threads[i]? = some t) (hpc : t.pc = .running) (b : Bool) :
    Inv (s.put i { t with pc := if b then .panicking else .counting, crashed := b || t.crashed }) w := by
  have hno := not_over hi ht (by rw [hpc]; simp)
  obtain ⟨sw, c, hs, hc, hti⟩ := hi.thr i t ht
  have hrel := hti.rel
  rw [hpc] at hrel
  obtain ⟨e1, e2, e3, e4⟩ := hrel
  obtain ⟨b1, b2, b3⟩ := busy_main hi hno hs hc e2 e1 e4
  have hle := hti.busy (by rw [hpc]; rfl)
  have hran := hti.ran
  rw [hpc] at hran
  have hcr : t.crashed = false := by
    cases hx : t.crashed with
    | false => rfl
    | true =>
        have := hti.crash2 hx
        rw [hpc] at this
        simp at this
  have hnj : s.main.joined = false := by
    rcases b3 with ⟨j1, _⟩ | ⟨j1, _⟩
    · have := joined_passed hi j1
      omega
    · exact j1
  have hop : s.start.opens = s.issued.length := by
    rcases b3 with ⟨j1, _⟩ | ⟨_, j2, _⟩
    · rw [hnj] at j1; cases j1
    · exact j2
  refine inv_move (p := s.poisoned) (start := s.start) (fin := s.fin) (sw' := sw) (c' := c) hi hno ht (by rw [hpc]; simp) hs hc hi.start (set_self hs).symm rfl rfl (hi.fin hno) (set_self hc).symm rfl Iff.rfl id .inl hi.clean ?_ (fun _ => .inr hnj) ?_
  · intro hx; rw [hcr] at hx; cases hx
  · cases b
    · simp only [Bool.false_or, hcr]
      exact ⟨⟨e1, e2, e3, e4⟩, by simpa using hran, fun _ => hle, (fun hx => by cases hx), (fun hx => by cases hx), (fun hx => by cases hx), (fun hx => by cases hx), by simp⟩
    · simp only [Bool.true_or, if_true]
      exact ⟨⟨e1, e2, e3, e4⟩, by simpa using hran, fun _ => hle, (fun _ => rfl), (fun _ => .inl rfl), (fun _ => .inl rfl), (fun _ => by omega), by simp⟩

/-! ## The steps of the main thread -/

/-- A step of the main thread that keeps the threads where they are. -/
theorem inv_main (hi : Inv s w) {m : MPc} {task : Option Nat} {start : Simple.St} {fin : CountDown.St} {w' : CountDown.Waiter} {issued : List Nat}
    (k1 : s.main ≠ .making) (k2 : m ≠ .making)
    (s1 : Simple.Run start) (s2 : start.ws = s.start.ws ∨ start.ws = s.start.ws.map Simple.Waiter.woken)
    (f1 : m ≠ .over → Fin fin w') (f2 : fin.cs = s.fin.cs)
    (i1 : ∀ (i : Nat) (t : Thread) (sw : Simple.Waiter) (c : CountDown.Counter), s.threads[i]? = some t → s.start.ws[i]? = some sw → s.fin.cs[i + 1]? = some c →
      TInv s.issued s.poisoned s.main.joined t sw c → TInv issued s.poisoned m.joined t sw c)
    (opens : if m = .setting ∨ m = .set then start.opens + 1 = issued.length
      else if m.joined = true then start.opens = issued.length + 1 else start.opens = issued.length)
    (passed : if m.busy = true ∨ (m = .ending ∧ task.isSome = true) then w'.passed + 1 = issued.length else w'.passed = issued.length)
    (htask : if m.busy = true ∨ m = .passed ∨ (m = .ending ∧ task.isSome = true) then task ≠ none ∧ task = issued.getLast? else task = none)
    (waking : start.waking = m.opens)
    (wpc : m ≠ .over → (w'.pc ≠ .out ↔ m = .waiting))
    (clean : m.clean task = true → s.poisoned = false)
    (bad : m = .idle (some .crashed) ∨ m = .idle (some .refused) → s.poisoned = true)
    (over : m = .over → ∀ t ∈ s.threads, t.pc = .gone)
    (check : ∀ b, m = .jopening b ∨ (∃ k, m = .joining b k) → b = true → ∀ t ∈ s.threads, t.crashed = false)
    (joins : ∀ b k, m = .joining b k → ∀ (j : Nat) (t : Thread), j < k → s.threads[j]? = some t → t.pc = .gone) :
    Inv { s with main := m, task := task, start := start, fin := fin, issued := issued } w' := by
  refine ⟨s1, f1, ?_, ?_, ?_, ?_, opens, passed, htask, waking, wpc, fun h => absurd h k2, clean, bad, hi.blame, over, check, joins⟩
  · show start.ws.length = s.threads.length
    rw [← hi.lenS]
    rcases s2 with h | h <;> rw [h]
    rw [List.length_map]
  · show fin.cs.length = s.threads.length + 1
    rw [f2]
    exact hi.lenC
  · obtain ⟨c0, e1, e2, e3⟩ := hi.c0
    refine ⟨c0, ?_, ?_, e3⟩
    · show fin.cs[0]? = _
      rw [f2]
      exact e1
    · rw [e2]
      simp [k1, k2]
  · intro i t ht
    obtain ⟨sw, c, h1, h2, h3⟩ := hi.thr i t ht
    have h4 := i1 i t sw c ht h1 h2 h3
    rcases s2 with h | h
    · exact ⟨sw, c, by show start.ws[i]? = _; rw [h]; exact h1, by show fin.cs[i + 1]? = _; rw [f2]; exact h2, h4⟩
    · obtain ⟨g1, g2, g3⟩ := Start.woken_fields sw
      refine ⟨sw.woken, c, by show start.ws[i]? = _; rw [h, List.getElem?_map, h1]; rfl, by show fin.cs[i + 1]? = _; rw [f2]; exact h2, ?_⟩
      have hr := h4.rel
      refine ⟨?_, by rw [g1]; exact h4.ran, by rw [g1]; exact h4.busy, h4.crash1, h4.crash2, h4.crash3, by rw [g1]; exact h4.crash4, by rw [g1]; exact h4.quit⟩
      cases hp : t.pc <;> rw [hp] at hr <;> simp only [Rel] at hr ⊢ <;> simp only [ne_eq, g1, g2, g3] <;> exact hr

/-- The threads do not notice. -/
theorem same {m : MPc} (h : s.main.joined = true → m.joined = true) (i : Nat) (t : Thread) (sw : Simple.Waiter) (c : CountDown.Counter) (_ : s.threads[i]? = some t)
    (_ : s.start.ws[i]? = some sw) (_ : s.fin.cs[i + 1]? = some c) (hti : TInv s.issued s.poisoned s.main.joined t sw c) : TInv s.issued s.poisoned m.joined t sw c :=
  ⟨hti.rel, hti.ran, hti.busy, hti.crash1, hti.crash2, hti.crash3, hti.crash4, fun hx => (hti.quit hx).imp id (fun h' => ⟨h h'.1, h'.2⟩)⟩

theorem inv_looked (hi : Inv s w) (hm : s.main = .ending ∧ s.task.isSome = true ∨ s.main = .waiting) {a : CountDown.Act}
    (ha : (a = .wait 0 ∧ w.pc = .out) ∨ (a = .wake 0 ∧ w.pc ≠ .out)) {r : R St} (h : s.onFin a s.looked = some r) : ∃ s' w', r = .ok s' ∧ Inv s' w' := by
  have hno : s.main ≠ .over := by rcases hm with ⟨h, _⟩ | h <;> rw [h] <;> simp
  obtain ⟨fin', w', f1, f2, f3, f4⟩ := (hi.fin hno).look ha
  rw [onFin_ok f1] at h
  cases h
  have h1 := hi.passed
  have h2 := hi.opens
  have h3 := hi.task
  have h4 := hi.waking
  have hmk : s.main ≠ .making := by rcases hm with ⟨h, _⟩ | h <;> rw [h] <;> simp
  have hf : w.passed + 1 = s.issued.length ∧ s.start.opens = s.issued.length ∧ (s.task ≠ none ∧ s.task = s.issued.getLast?) ∧ s.start.waking = false ∧ s.main.joined = false := by
    rcases hm with ⟨h, ht⟩ | h <;> rw [h] at h1 h2 h3 h4 ⊢ <;> simp only [MPc.busy, MPc.joined, MPc.opens] at h1 h2 h3 h4 ⊢
    · simp only [ht] at h1 h3
      simp at h1 h2 h3 h4
      exact ⟨h1, h2, h3, h4, trivial⟩
    · simp at h1 h2 h3 h4
      exact ⟨h1, h2, h3, h4, trivial⟩
  obtain ⟨q1, q2, q3, q4, q5⟩ := hf
  refine ⟨_, w', rfl, ?_⟩
  simp only [St.looked, f2.w0, Option.any_some]
  rcases f4 with ⟨o1, o2, _⟩ | ⟨o1, o2, _⟩
  · simp only [o1, decide_true, if_true]
    exact inv_main (issued := s.issued) (task := s.task) (start := s.start) hi hmk (by simp) hi.start (.inl rfl) (fun _ => f2) f3 (same (by rw [q5]; simp))
      (by simp [MPc.joined]; exact q2) (by simp [MPc.busy]; omega) (by simp; exact q3) q4 (by simp [o1]) (by simp [MPc.clean]) (by simp) (by simp) (by simp) (by simp)
  · simp only [o1, decide_false]
    exact inv_main (issued := s.issued) (task := s.task) (start := s.start) hi hmk (by simp) hi.start (.inl rfl) (fun _ => f2) f3 (same (by rw [q5]; simp))
      (by simp [MPc.joined]; exact q2) (by simp [MPc.busy]; omega) (by simp [MPc.busy]; exact q3) q4 (by simp [o1]) (by simp [MPc.clean]) (by simp) (by simp) (by simp) (by simp)

theorem inv_mainStep (hi : Inv s w) {r : R St} (h : mainStep s = some r) : ∃ s' w', r = .ok s' ∧ Inv s' w' := by
  have h1 := hi.passed
  have h2 := hi.opens
  have h3 := hi.task
  have h4 := hi.waking
  have h5 := hi.wpc
  have h6 := hi.clean
  cases hm : s.main with
  | setting =>
      simp only [mainStep, hm] at h
      cases h
      rw [hm] at h1 h2 h3 h4 h5 h6
      simp [MPc.busy, MPc.opens, MPc.clean] at h1 h2 h3 h4 h5 h6
      exact ⟨_, w, rfl, inv_main (issued := s.issued) (task := s.task) (start := s.start) (fin := s.fin) hi (by rw [hm]; simp) (by simp) hi.start (.inl rfl) (fun _ => hi.fin (by rw [hm]; simp)) rfl
        (same (by rw [hm]; exact id)) (by simp; omega) (by simp [MPc.busy]; omega) (by simp [MPc.busy]; exact h3) h4 (by simp [h5]) (fun _ => h6) (by simp) (by simp) (by simp) (by simp)⟩
  | set =>
      simp only [mainStep, hm] at h
      have hq := quiet_open hi (by rw [hm]; simp) (by rw [hm]; rfl)
      rw [hm] at h1 h2 h3 h4 h5 h6
      simp [MPc.busy, MPc.opens, MPc.clean] at h1 h2 h3 h4 h5 h6
      obtain ⟨st, o1, o2, o3, o4, o5⟩ := Start.open hi.start h4 (hq (by omega) (by rw [h6]; simp))
      rw [onStart_ok o1] at h
      cases h
      exact ⟨_, w, rfl, inv_main (issued := s.issued) (task := s.task) (start := st) (fin := s.fin) hi (by rw [hm]; simp) (by simp) o2 (.inl o3) (fun _ => hi.fin (by rw [hm]; simp)) rfl
        (same (by rw [hm]; exact id)) (by simp [MPc.joined]; omega) (by simp [MPc.busy]; omega) (by simp [MPc.busy]; exact h3) o5 (by simp [h5]) (by simp [MPc.clean]) (by simp) (by simp) (by simp) (by simp)⟩
  | opening =>
      simp only [mainStep, hm] at h
      rw [hm] at h1 h2 h3 h4 h5 h6
      simp [MPc.busy, MPc.joined, MPc.opens, MPc.clean] at h1 h2 h3 h4 h5 h6
      obtain ⟨st, o1, o2, o3, o4, o5⟩ := Start.wakeAll hi.start h4
      rw [onStart_ok o1] at h
      cases h
      exact ⟨_, w, rfl, inv_main (issued := s.issued) (task := s.task) (start := st) (fin := s.fin) hi (by rw [hm]; simp) (by simp) o2 (.inr o3) (fun _ => hi.fin (by rw [hm]; simp)) rfl
        (same (by rw [hm]; exact id)) (by simp [MPc.joined]; omega) (by simp [MPc.busy]; omega) (by simp [MPc.busy]; exact h3) o5 (by simp [h5]) (by simp [MPc.clean]) (by simp) (by simp) (by simp) (by simp)⟩
  | ending =>
      simp only [mainStep, hm] at h
      have hout : w.pc = .out := by
        have h5 := h5 (by rw [hm]; simp)
        rw [hm] at h5
        simpa using h5
      by_cases ht : s.task.isSome = true
      · rw [if_pos ht] at h
        exact inv_looked hi (.inl ⟨hm, ht⟩) (.inl ⟨rfl, hout⟩) h
      · rw [if_neg ht] at h
        cases h
        have ht' : s.task = none := by simpa using ht
        rw [hm] at h1 h2 h3 h4 h5 h6
        simp [MPc.busy, MPc.joined, MPc.opens, MPc.clean, ht'] at h1 h2 h3 h4 h5 h6
        exact ⟨_, w, rfl, inv_main (issued := s.issued) (task := s.task) (start := s.start) (fin := s.fin) hi (by rw [hm]; simp) (by simp) hi.start (.inl rfl) (fun _ => hi.fin (by rw [hm]; simp)) rfl
          (same (by rw [hm]; exact id)) (by simp [MPc.joined]; omega) (by simp [MPc.busy]; omega) (by simp [MPc.busy]; exact ht') h4 (by simp [h5]) (fun _ => h6) (by simp) (by simp) (by simp) (by simp)⟩
  | passed =>
      simp only [mainStep, hm] at h
      have hq := quiet_any hi
      rw [hm] at h1 h2 h3 h4 h5 h6
      simp [MPc.busy, MPc.joined, MPc.opens, MPc.clean] at h1 h2 h3 h4 h5 h6
      rw [hq (by omega)] at h
      cases h
      exact ⟨_, w, rfl, inv_main (issued := s.issued) (task := none) (start := s.start) (fin := s.fin) hi (by rw [hm]; simp) (by simp) hi.start (.inl rfl) (fun _ => hi.fin (by rw [hm]; simp)) rfl
        (same (by rw [hm]; exact id)) (by simp [MPc.joined]; omega) (by simp [MPc.busy]; omega) (by simp [MPc.busy]) h4 (by simp [h5]) (by simp [MPc.clean]) (by simp) (by simp) (by simp) (by simp)⟩
  | clearing =>
      simp only [mainStep, hm] at h
      cases h
      rw [hm] at h1 h2 h3 h4 h5 h6
      simp [MPc.busy, MPc.joined, MPc.opens, MPc.clean] at h1 h2 h3 h4 h5 h6
      exact ⟨_, w, rfl, inv_main (issued := s.issued) (task := s.task) (start := s.start) (fin := s.fin) hi (by rw [hm]; simp) (by simp) hi.start (.inl rfl) (fun _ => hi.fin (by rw [hm]; simp)) rfl
        (same (by rw [hm]; exact id)) (by simp [MPc.joined]; omega) (by simp [MPc.busy]; omega) (by simp [MPc.busy]; exact h3) h4 (by simp [h5]) (by simp [MPc.clean]) (by simp) (by simp) (by simp) (by simp)⟩
  | checking =>
      simp only [mainStep, hm] at h
      cases h
      rw [hm] at h1 h2 h3 h4 h5 h6
      simp [MPc.busy, MPc.joined, MPc.opens, MPc.clean] at h1 h2 h3 h4 h5 h6
      exact ⟨_, w, rfl, inv_main (issued := s.issued) (task := s.task) (start := s.start) (fin := s.fin) hi (by rw [hm]; simp) (by simp) hi.start (.inl rfl) (fun _ => hi.fin (by rw [hm]; simp)) rfl
        (same (by rw [hm]; exact id)) (by simp [MPc.joined]; omega) (by simp [MPc.busy]; omega) (by simp [MPc.busy]; exact h3) h4 (by simp [h5])
        (by cases hp : s.poisoned <;> simp [MPc.clean]) (by cases hp : s.poisoned <;> simp) (by simp) (by simp) (by simp)⟩
  | jopening b =>
      simp only [mainStep, hm] at h
      have hck := hi.check b (.inl hm)
      rw [hm] at h1 h2 h3 h4 h5 h6
      simp [MPc.busy, MPc.joined, MPc.opens, MPc.clean] at h1 h2 h3 h4 h5 h6
      obtain ⟨st, o1, o2, o3, o4, o5⟩ := Start.wakeAll hi.start h4
      rw [onStart_ok o1] at h
      cases h
      refine ⟨_, w, rfl, inv_main (issued := s.issued) (task := s.task) (start := st) (fin := s.fin) hi (by rw [hm]; simp) (by simp) o2 (.inr o3) (fun _ => hi.fin (by rw [hm]; simp)) rfl
        (same (by rw [hm]; exact id)) (by simp [MPc.joined]; omega) (by simp [MPc.busy]; omega) (by simp [MPc.busy]; exact h3) o5 (by simp [h5]) (by simp [MPc.clean]) (by simp) (by simp) ?_ ?_⟩
      · rintro b' (hb | ⟨k, hb⟩) hb'
        · cases hb
        · cases hb
          exact hck hb'
      · intro b' k hb j t hj
        cases hb
        omega
  | joining b k =>
      simp only [mainStep, hm] at h
      have hck := hi.check b (.inr ⟨k, hm⟩)
      have hjs := hi.joins b k hm
      rw [hm] at h1 h2 h3 h4 h5 h6
      simp [MPc.busy, MPc.joined, MPc.opens, MPc.clean] at h1 h2 h3 h4 h5 h6
      cases ht : s.threads[k]? with
      | some t =>
          simp only [ht] at h
          by_cases hg : t.pc = .gone
          · rw [if_pos hg] at h
            have hx : (b && t.crashed) = false := by
              cases b with
              | false => rfl
              | true => rw [hck rfl t (List.mem_of_getElem? ht)]; rfl
            rw [hx] at h
            cases h
            refine ⟨_, w, rfl, inv_main (issued := s.issued) (task := s.task) (start := s.start) (fin := s.fin) hi (by rw [hm]; simp) (by simp) hi.start (.inl rfl) (fun _ => hi.fin (by rw [hm]; simp)) rfl
              (same (by rw [hm]; exact id)) (by simp [MPc.joined]; omega) (by simp [MPc.busy]; omega) (by simp [MPc.busy]; exact h3) h4 (by simp [h5]) (by simp [MPc.clean]) (by simp) (by simp) ?_ ?_⟩
            · rintro b' (hb | ⟨k, hb⟩) hb'
              · cases hb
              · cases hb
                exact hck hb'
            · intro b' k' hb j u hj hu
              cases hb
              by_cases hjk : j = k
              · subst hjk
                rw [ht] at hu
                cases hu
                exact hg
              · exact hjs j u (by omega) hu
          · rw [if_neg hg] at h
            cases h
      | none =>
          simp only [ht] at h
          obtain ⟨fin', f1, f2, _⟩ := (hi.fin (by rw [hm]; simp)).dropWaiter h5
          rw [onFin_ok f1] at h
          cases h
          refine ⟨_, w, rfl, inv_main (issued := s.issued) (task := s.task) (start := s.start) (fin := fin') hi (by rw [hm]; simp) (by simp) hi.start (.inl rfl) (by simp) f2
              (same (by rw [hm]; exact id)) (by simp [MPc.joined]; omega) (by simp [MPc.busy]; omega) (by simp [MPc.busy]; exact h3) h4 (by simp) (by simp [MPc.clean]) (by simp) ?_ (by simp) (by simp)⟩
          intro _ t htm
          obtain ⟨j, hj⟩ := List.getElem?_of_mem htm
          have := List.getElem?_eq_none_iff.1 ht
          exact hjs j t (by have := (List.getElem?_eq_some_iff.1 hj).1; omega) hj
  | _ => simp [mainStep, hm] at h

theorem inv_step (hi : Inv s w) {a : Act} (hal : allowed s a) {r : R St} (h : step s a = some r) : ∃ s' w', r = .ok s' ∧ Inv s' w' := by
  have h1 := hi.passed
  have h2 := hi.opens
  have h3 := hi.task
  have h4 := hi.waking
  have h5 := hi.wpc
  have h6 := hi.clean
  cases a with
  | spawn spin =>
      simp only [step] at h
      by_cases hm : s.main = .making
      · rw [if_pos hm] at h
        rw [hm] at h1 h2 h3 h4 h5 h6
        simp [MPc.busy, MPc.joined, MPc.opens, MPc.clean] at h1 h2 h3 h4 h5 h6
        have hno : s.main ≠ .over := by rw [hm]; simp
        have hfr := hi.fresh hm
        obtain ⟨st, o1, o2, o3, o4, o5⟩ := Start.waiter hi.start h4 spin
        obtain ⟨c0, e1, e2, e3, e4⟩ := hi.c0
        obtain ⟨fin', f1, f2, f3⟩ := (hi.fin hno).cloneCounter (by rw [hi.lenC]; exact hal) e1 (by rw [e2, hm]; rfl) e3 h5
        rw [o1, f1] at h
        cases h
        refine ⟨_, w, rfl, o2, fun _ => f2, ?_, ?_, ?_, ?_, ?_, ?_, ?_, ?_, ?_, hi.fresh, hi.clean, hi.bad, ?_, ?_, ?_, ?_⟩
        · show st.ws.length = (s.threads ++ _).length
          rw [o3, List.length_append, List.length_append, hi.lenS]; rfl
        · show fin'.cs.length = (s.threads ++ _).length + 1
          rw [f3, List.length_append, List.length_append, hi.lenC]; rfl
        · refine ⟨c0, ?_, e2, e3, e4⟩
          show fin'.cs[0]? = _
          rw [f3, List.getElem?_append_left (List.getElem?_eq_some_iff.1 e1).1]
          exact e1
        · intro i t ht
          show ∃ sw c, st.ws[i]? = some sw ∧ fin'.cs[i + 1]? = some c ∧ _
          have ht : (s.threads ++ [⟨.atWait, [], false⟩])[i]? = some t := ht
          rw [o3, f3]
          by_cases hlt : i < s.threads.length
          · rw [List.getElem?_append_left hlt] at ht
            obtain ⟨sw, c, g1, g2, g3⟩ := hi.thr i t ht
            exact ⟨sw, c, by rw [List.getElem?_append_left (by rw [hi.lenS]; exact hlt)]; exact g1, by rw [List.getElem?_append_left (by rw [hi.lenC]; omega)]; exact g2, g3⟩
          · have hle : i < (s.threads ++ [(⟨.atWait, [], false⟩ : Thread)]).length := (List.getElem?_eq_some_iff.1 ht).1
            rw [List.length_append, List.length_singleton] at hle
            have hie : i = s.threads.length := by omega
            subst hie
            simp only [List.getElem?_concat_length, Option.some.injEq] at ht
            subst ht
            refine ⟨_, c0, by rw [← hi.lenS]; exact List.getElem?_concat_length .., by rw [← hi.lenC]; exact List.getElem?_concat_length .., ?_⟩
            have ho : s.start.opens = 0 := by rw [h2, hfr]; rfl
            refine ⟨⟨rfl, by rw [e2, hm]; rfl, e3, by rw [e4]; exact ho⟩, by simp [hfr], by simp [ho], by simp, by simp, by simp, by simp, by simp⟩
        · simp only [hm]
          simp [MPc.joined]
          omega
        · simp only [hm]
          simp [MPc.busy]
          exact h1
        · simp only [hm]
          simp [MPc.busy]
          exact h3
        · simp only [hm]
          exact o5
        · intro _
          simp only [hm]
          simp [h5]
        · intro hp
          obtain ⟨t, ht, hc⟩ := hi.blame hp
          exact ⟨t, List.mem_append_left _ ht, hc⟩
        · intro hx; exact absurd hx hno
        · intro b hx
          have hx : s.main = .jopening b ∨ (∃ k, s.main = .joining b k) := hx
          rw [hm] at hx
          rcases hx with hx | ⟨k, hx⟩ <;> cases hx
        · intro b k hx
          have hx : s.main = .joining b k := hx
          rw [hm] at hx
          cases hx
      · rw [if_neg hm] at h
        cases h
  | made =>
      simp only [step] at h
      by_cases hm : s.main = .making
      · rw [if_pos hm] at h
        rw [hm] at h1 h2 h3 h4 h5 h6
        simp [MPc.busy, MPc.joined, MPc.opens, MPc.clean] at h1 h2 h3 h4 h5 h6
        have hno : s.main ≠ .over := by rw [hm]; simp
        obtain ⟨c0, e1, e2, e3, e4⟩ := hi.c0
        obtain ⟨fin', w', f1, f2, f3, f4, f5⟩ := (hi.fin hno).dropCounter e1 (by rw [e2, hm]; rfl) e3
        rw [onFin_ok f1] at h
        cases h
        refine ⟨_, w', rfl, hi.start, fun _ => f2, hi.lenS, ?_, ?_, ?_, ?_, ?_, ?_, ?_, ?_, ?_, ?_, ?_, hi.blame, ?_, ?_, ?_⟩
        · show fin'.cs.length = s.threads.length + 1
          rw [f3, List.length_set, hi.lenC]
        · refine ⟨{ c0 with live := false }, ?_, ?_, e3, e4⟩
          · show fin'.cs[0]? = _
            rw [f3]
            exact getElem?_set_self' e1
          · simp
        · intro i t ht
          obtain ⟨sw, c, g1, g2, g3⟩ := hi.thr i t ht
          refine ⟨sw, c, g1, ?_, ?_⟩
          · show fin'.cs[i + 1]? = _
            rw [f3, List.getElem?_set_ne (by omega)]
            exact g2
          · rw [hm] at g3
            exact g3
        · simp [MPc.joined]; exact h2
        · simp [MPc.busy]; omega
        · simp [MPc.busy]; exact h3
        · exact h4
        · simp [f5, h5]
        · simp
        · simp [MPc.clean]
        · simp
        · simp
        · simp
        · simp
      · rw [if_neg hm] at h
        cases h
  | enter =>
      cases hm : s.main with
      | idle res =>
          simp only [step, hm] at h
          rw [hm] at h1 h2 h3 h4 h5
          simp [MPc.busy, MPc.joined, MPc.opens] at h1 h2 h3 h4 h5
          cases hp : s.poisoned with
          | false =>
              rw [hp, if_neg (by simp)] at h
              cases h
              refine ⟨_, w, rfl, ?_⟩
              rw [← hp]
              exact inv_main (m := .scope) (issued := s.issued) (task := s.task) (start := s.start) (fin := s.fin) hi (by rw [hm]; simp) (by simp) hi.start (.inl rfl) (fun _ => hi.fin (by rw [hm]; simp)) rfl
                (same (by rw [hm]; exact id)) (by simp [MPc.joined]; omega) (by simp [MPc.busy]; omega) (by simp [MPc.busy]; exact h3) h4 (by simp [h5]) (fun _ => hp) (by simp) (by simp) (by simp) (by simp)
          | true =>
              rw [hp, if_pos rfl] at h
              cases h
              refine ⟨_, w, rfl, ?_⟩
              rw [← hp]
              exact inv_main (m := .idle (some .refused)) (issued := s.issued) (task := s.task) (start := s.start) (fin := s.fin) hi (by rw [hm]; simp) (by simp) hi.start (.inl rfl) (fun _ => hi.fin (by rw [hm]; simp)) rfl
                (same (by rw [hm]; exact id)) (by simp [MPc.joined]; omega) (by simp [MPc.busy]; omega) (by simp [MPc.busy]; exact h3) h4 (by simp [h5]) (by simp [MPc.clean]) (fun _ => hp) (by simp) (by simp) (by simp)
      | _ => simp [step, hm] at h
  | run k =>
      simp only [step] at h
      by_cases hm : s.main = .scope
      · rw [if_pos hm] at h
        have hq := quiet_any hi
        have hq2 := @quiet _ _ hi
        rw [hm] at h1 h2 h3 h4 h5 h6
        simp [MPc.busy, MPc.joined, MPc.opens, MPc.clean] at h1 h2 h3 h4 h5 h6
        rw [hq (by omega)] at h
        cases h
        refine ⟨_, w, rfl, inv_main (m := .setting) (issued := s.issued ++ [k]) (task := some k) (start := s.start) (fin := s.fin) hi (by rw [hm]; simp) (by simp) hi.start (.inl rfl) (fun _ => hi.fin (by rw [hm]; simp)) rfl
                ?_ (by simp; omega) (by simp [MPc.busy]; omega) (by simp [MPc.busy]) h4 (by simp [h5]) (fun _ => h6) (by simp) (by simp) (by simp) (by simp)⟩
        intro i t sw c ht hs hc hti
        have hcr : t.crashed = false := by
          cases hx : t.crashed with
          | false => rfl
          | true =>
              rcases hti.crash3 hx with h7 | h7
              · rcases hq2 (by omega) ht with h8 | h8 | h8 | h8 | h8 <;> rw [h8] at h7 <;> cases h7
              · rw [h6] at h7; cases h7
        have hgone : t.pc ≠ .exiting2 ∧ t.pc ≠ .gone := by
          constructor <;> intro hx
          · rcases hti.quit (.inr (.inl hx)) with h7 | h7
            · rw [hcr] at h7; cases h7
            · rw [hm] at h7; cases h7.1
          · rcases hti.quit (.inr (.inr hx)) with h7 | h7
            · rw [hcr] at h7; cases h7
            · rw [hm] at h7; cases h7.1
        have hrel := hti.rel
        have hran := hti.ran
        have key : sw.pc ≠ .gone → (t.pc ≠ .look) → t.ran = (s.issued ++ [k]).take (if t.pc = .look then c.passed else sw.passed) := by
          intro hg hl
          rw [hran, if_neg hl]
          have := Start.range hi.start hs hg
          rw [List.take_append_of_le_length (by omega)]
        have hno1 : ∀ P : Prop, (t.pc = .panicking → P) ∧ (t.pc = .exiting ∨ t.pc = .exiting2 ∨ t.pc = .gone → P) := by
          intro P
          rcases hq2 (by omega) ht with h8 | h8 | h8 | h8 | h8 <;> simp [h8] <;> simp [h8] at hgone
        refine ⟨hrel, ?_, ?_, (hno1 _).1, ?_, ?_, ?_, (hno1 _).2⟩
        · rcases hq2 (by omega) ht with h8 | h8 | h8 | h8 | h8 <;> rw [h8] at hrel key <;> rw [h8]
          · exact key (by rw [hrel.1]; simp) (by simp)
          · exact key hrel.2.1 (by simp)
          · exact key (by rw [hrel.1]; simp) (by simp)
          · exact absurd h8 hgone.1
          · exact absurd h8 hgone.2
        · intro hx
          have := hti.busy hx
          simp
          omega
        · intro hx; rw [hcr] at hx; cases hx
        · intro hx; rw [hcr] at hx; cases hx
        · intro hx; rw [hcr] at hx; cases hx
      · rw [if_neg hm] at h
        cases h
  | leave =>
      simp only [step] at h
      by_cases hm : s.main = .scope ∨ s.main = .ran
      · rw [if_pos hm] at h
        cases h
        rcases hm with hm | hm
        · rw [hm] at h1 h2 h3 h4 h5 h6
          simp [MPc.busy, MPc.joined, MPc.opens, MPc.clean] at h1 h2 h3 h4 h5 h6
          exact ⟨_, w, rfl, inv_main (m := .ending) (issued := s.issued) (task := s.task) (start := s.start) (fin := s.fin) hi (by rw [hm]; simp) (by simp) hi.start (.inl rfl) (fun _ => hi.fin (by rw [hm]; simp)) rfl
            (same (by rw [hm]; exact id)) (by simp [MPc.joined]; omega) (by simp [MPc.busy, h3]; omega) (by simp [MPc.busy, h3]) h4 (by simp [h5]) (fun _ => h6) (by simp) (by simp) (by simp) (by simp)⟩
        · rw [hm] at h1 h2 h3 h4 h5 h6
          simp [MPc.busy, MPc.joined, MPc.opens, MPc.clean] at h1 h2 h3 h4 h5 h6
          have ht : s.task.isSome = true := by
            cases hx : s.task with
            | none => exact absurd hx h3.1
            | some _ => rfl
          exact ⟨_, w, rfl, inv_main (m := .ending) (issued := s.issued) (task := s.task) (start := s.start) (fin := s.fin) hi (by rw [hm]; simp) (by simp) hi.start (.inl rfl) (fun _ => hi.fin (by rw [hm]; simp)) rfl
            (same (by rw [hm]; exact id)) (by simp [MPc.joined]; omega) (by simp [MPc.busy, ht]; omega) (by simp [MPc.busy, ht]; exact h3) h4 (by simp [h5]) (by simp [MPc.clean, h3.1]) (by simp) (by simp) (by simp) (by simp)⟩
      · rw [if_neg hm] at h
        cases h
  | join =>
      cases hm : s.main with
      | idle res =>
          simp only [step, hm] at h
          have hq := quiet_open hi (by rw [hm]; simp) (by rw [hm]; rfl)
          have hq2 := @quiet _ _ hi
          rw [hm] at h1 h2 h3 h4 h5
          simp [MPc.busy, MPc.joined, MPc.opens] at h1 h2 h3 h4 h5
          rw [if_pos h3] at h
          obtain ⟨st, o1, o2, o3, o4, o5⟩ := Start.open hi.start h4 (hq (by omega) (fun _ => h2))
          rw [onStart_ok o1] at h
          cases h
          refine ⟨_, w, rfl, inv_main (m := .jopening (!s.poisoned)) (issued := s.issued) (task := s.task) (start := st) (fin := s.fin) hi (by rw [hm]; simp) (by simp) o2 (.inl o3) (fun _ => hi.fin (by rw [hm]; simp)) rfl
            (same (by rw [hm]; simp [MPc.joined])) (by simp [MPc.joined]; omega) (by simp [MPc.busy]; omega) (by simp [MPc.busy]; exact h3) o5 (by simp [h5]) (by simp [MPc.clean]) (by simp) (by simp) ?_ (by simp)⟩
          rintro b (hb | ⟨k, hb⟩) hbt t htm
          · cases hb
            cases hx : t.crashed with
            | false => rfl
            | true =>
                obtain ⟨i, ht⟩ := List.getElem?_of_mem htm
                obtain ⟨sw, c, g1, g2, g3⟩ := hi.thr i t ht
                rcases g3.crash3 hx with h7 | h7
                · rcases hq2 (by omega) ht with h8 | h8 | h8 | h8 | h8 <;> rw [h8] at h7 <;> cases h7
                · rw [h7] at hbt; cases hbt
          · cases hb
      | _ => simp [step, hm] at h
  | main => exact inv_mainStep hi h
  | wake =>
      simp only [step] at h
      by_cases hm : s.main = .waiting
      · rw [if_pos hm] at h
        exact inv_looked hi (.inr hm) (.inr ⟨rfl, (hi.wpc (by rw [hm]; simp)).2 hm⟩) h
      · rw [if_neg hm] at h
        cases h
  | thread i =>
      simp only [step] at h
      cases ht : s.threads[i]? with
      | none => rw [ht] at h; cases h
      | some t =>
          rw [ht] at h
          exact inv_thread hi ht h
  | intr i =>
      simp only [step] at h
      cases ht : s.threads[i]? with
      | none => rw [ht] at h; cases h
      | some t =>
          simp only [ht] at h
          by_cases hp : t.pc = .waiting
          · rw [if_pos hp] at h
            exact inv_stepped hi (not_over hi ht (by rw [hp]; simp)) ht hp (.inr rfl) h
          · rw [if_neg hp] at h; cases h
  | finish i =>
      simp only [step] at h
      cases ht : s.threads[i]? with
      | none => rw [ht] at h; cases h
      | some t =>
          simp only [ht] at h
          by_cases hp : t.pc = .running
          · rw [if_pos hp] at h
            cases h
            exact ⟨_, w, rfl, inv_task hi ht hp false⟩
          · rw [if_neg hp] at h; cases h
  | crash i =>
      simp only [step] at h
      cases ht : s.threads[i]? with
      | none => rw [ht] at h; cases h
      | some t =>
          simp only [ht] at h
          by_cases hp : t.pc = .running
          · rw [if_pos hp] at h
            cases h
            exact ⟨_, w, rfl, inv_task hi ht hp true⟩
          · rw [if_neg hp] at h; cases h

theorem run_inv (h : Run s) : ∃ w, Inv s w := by
  induction h with
  | init => exact ⟨_, inv_init⟩
  | step _ hal hs ih =>
      obtain ⟨w, hi⟩ := ih
      obtain ⟨s', w', h1, h2⟩ := inv_step hi hal hs
      cases h1
      exact ⟨w', h2⟩

end Shadow.Pool.Unbounded
