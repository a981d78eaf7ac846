import Verif.Pool.UnboundedProps

/-!
# The thread pool of the thread-per-core scheduler: its functions return
-/
namespace Shadow.Pool.Unbounded

open Shadow.Base Shadow.Latch

/-- What a thread still has to do, given how often the start latch was opened. -/
def Thread.left (opens : Nat) (t : Thread) (sw : Simple.Waiter) : Nat :=
  match t.pc with
  | .atWait => if sw.passed < opens then 10 else 0
  | .waiting => if sw.passed < opens then match sw.pc with
      | .asleep => 9
      | .wait _ => 8
      | _ => 7
    else 0
  | .look => 6
  | .running => 5
  | .counting => 4
  | .notifying => if sw.passed < opens then 11 else 1
  | .panicking => 4
  | .exiting => 3
  | .exiting2 => 2
  | .gone => 0

/-- What the main thread still has to do in the pool, with `n` threads. -/
def MPc.left (n : Nat) : MPc → Nat
  | .setting => 11 * n + 4
  | .set => 11 * n + 3
  | .opening => 2
  | .ending => 5
  | .waiting => 4
  | .passed => 3
  | .clearing => 2
  | .checking => 1
  | .jopening _ => n + 3
  | .joining _ k => n + 1 - k + 1
  | _ => 0

def St.left (s : St) : Nat := s.main.left s.threads.length + (List.zipWith (Thread.left s.start.opens) s.threads s.start.ws).sum

/-- The steps that the pool makes by itself if the tasks return: no wait ends without having been notified. -/
inductive Path : St → St → Prop
  | refl (s : St) : Path s s
  | main {s s' s'' : St} : step s .main = some (.ok s') → Path s' s'' → Path s s''
  | wake {s s' s'' : St} {w : CountDown.Waiter} : s.fin.ws[0]? = some w → w.pc = .blocked true → step s .wake = some (.ok s') → Path s' s'' → Path s s''
  | thread {s s' s'' : St} (i : Nat) : step s (.thread i) = some (.ok s') → Path s' s'' → Path s s''
  | finish {s s' s'' : St} (i : Nat) : step s (.finish i) = some (.ok s') → Path s' s'' → Path s s''

/-- The main thread is not in a function of the pool. -/
def MPc.returned : MPc → Prop
  | .idle _ | .scope | .ran | .over | .making => True
  | _ => False

theorem sum_set : ∀ {l : List Nat} {i x : Nat} (y : Nat), l[i]? = some x → (l.set i y).sum + x = l.sum + y
  | [], i, x, y, h => by simp at h
  | a :: l, 0, x, y, h => by
      simp at h
      subst h
      simp
      omega
  | a :: l, i + 1, x, y, h => by
      have := sum_set (l := l) y (by simpa using h)
      simp
      omega

theorem zipWith_set {α β γ : Type} (f : α → β → γ) : ∀ (l : List α) (m : List β) (i : Nat) (a : α) (b : β),
    List.zipWith f (l.set i a) (m.set i b) = (List.zipWith f l m).set i (f a b)
  | [], m, i, a, b => by simp
  | x :: l, [], i, a, b => by cases i <;> simp
  | x :: l, y :: m, 0, a, b => by simp
  | x :: l, y :: m, i + 1, a, b => by simp [zipWith_set f l m i a b]

/-- The effect of a thread's step. -/
theorem sum_thread {threads : List Thread} {ws : List Simple.Waiter} {n i : Nat} {t t' : Thread} {sw sw' : Simple.Waiter} (ht : threads[i]? = some t)
    (hs : ws[i]? = some sw) (h : t'.left n sw' < t.left n sw) :
    (List.zipWith (Thread.left n) (threads.set i t') (ws.set i sw')).sum < (List.zipWith (Thread.left n) threads ws).sum := by
  rw [zipWith_set]
  have := sum_set (l := List.zipWith (Thread.left n) threads ws) (i := i) (x := t.left n sw) (t'.left n sw') (by rw [List.getElem?_zipWith, ht, hs])
  omega

theorem sum_woken (n : Nat) : ∀ (threads : List Thread) (ws : List Simple.Waiter),
    (List.zipWith (Thread.left n) threads (ws.map Simple.Waiter.woken)).sum ≤ (List.zipWith (Thread.left n) threads ws).sum
  | [], ws => by simp
  | t :: l, [] => by simp
  | t :: l, w :: ws => by
      have ih := sum_woken n l ws
      have : t.left n w.woken ≤ t.left n w := by
        unfold Thread.left Simple.Waiter.woken
        by_cases hp : w.pc = .asleep
        · rw [if_pos hp, hp]
          cases t.pc <;> simp
          split <;> omega
        · rw [if_neg hp]
          exact Nat.le_refl _
      simp
      omega

theorem sum_bound (n : Nat) : ∀ (threads : List Thread) (ws : List Simple.Waiter), (List.zipWith (Thread.left n) threads ws).sum ≤ 11 * threads.length
  | [], ws => by simp
  | t :: l, [] => by simp
  | t :: l, w :: ws => by
      have ih := sum_bound n l ws
      have : t.left n w ≤ 11 := by
        unfold Thread.left
        cases t.pc <;> simp only [] <;> repeat (first | omega | split)
      simp
      omega

variable {s : St} {w : CountDown.Waiter}

/-- A thread that has something left to do and is awake can go on. -/
theorem thread_left (hi : Inv s w) {i : Nat} {t : Thread} {sw : Simple.Waiter} (ht : s.threads[i]? = some t) (hs : s.start.ws[i]? = some sw)
    (hl : 0 < t.left s.start.opens sw) :
    (∃ s', step s (.thread i) = some (.ok s') ∧ s'.left < s.left) ∨ (∃ s', step s (.finish i) = some (.ok s') ∧ s'.left < s.left) ∨ s.start.waking = true := by
  obtain ⟨sw', c, hs', hc, hti⟩ := hi.thr i t ht
  rw [hs] at hs'
  cases hs'
  have hrel := hti.rel
  have hlen : ∀ t', (s.threads.set i t').length = s.threads.length := fun t' => List.length_set
  cases hpc : t.pc with
  | gone => simp [Thread.left, hpc] at hl
  | running =>
      refine .inr (.inl ⟨s.put i { t with pc := .counting }, by simp only [step, ht, hpc, if_true], ?_⟩)
      unfold St.left St.put
      dsimp only
      rw [hlen]
      have := sum_thread (t' := { t with pc := .counting }) (sw' := sw) (n := s.start.opens) ht hs (by simp [Thread.left, hpc])
      rw [set_self hs] at this
      omega
  | atWait =>
      left
      rw [hpc] at hrel
      obtain ⟨e1, e2, e3, e4⟩ := hrel
      obtain ⟨o1, o2⟩ := Start.wait hi.start hs e1
      refine ⟨_, by simp only [step, ht, Option.bind_some, threadStep, hpc]; exact onStart_ok o1, ?_⟩
      unfold St.left Simple.St.put
      dsimp only
      rw [hlen]
      have hd : sw.passed < s.start.opens := by
        simp only [Thread.left, hpc] at hl
        split at hl
        · assumption
        · omega
      have := sum_thread (t' := { t with pc := .waiting }) (sw' := { sw with pc := .load }) (n := s.start.opens) ht hs (by simp [Thread.left, hpc, hd])
      omega
  | waiting =>
      have hd : sw.passed < s.start.opens := by
        simp only [Thread.left, hpc] at hl
        split at hl
        · assumption
        · omega
      rw [hpc] at hrel
      obtain ⟨e0, e1, e2, e3, e4⟩ := hrel
      obtain ⟨p1, p2⟩ := Simple.C39_open_progress hi.start hs hd
      cases hsp : sw.pc with
      | out => exact absurd hsp e0
      | gone => exact absurd hsp e1
      | asleep => exact .inr (.inr (Simple.C39_open_wake hi.start hs hsp hd))
      | load =>
          left
          refine ⟨_, by simp only [step, ht, Option.bind_some, threadStep, hpc]; exact onStart_ok (p1 hsp), ?_⟩
          unfold St.left St.stepped Simple.St.put
          dsimp only
          rw [getElem?_set_self' hs, hlen]
          simp only [Option.any_some, decide_true, if_true]
          have := sum_thread (t' := { t with pc := .look }) (sw' := { sw with gen := (sw.gen + 1) % Simple.M, passed := sw.passed + 1, pc := .out }) (n := s.start.opens) ht hs (by simp [Thread.left, hpc, hd, hsp])
          omega
      | wait v =>
          left
          refine ⟨_, by simp only [step, ht, Option.bind_some, threadStep, hpc]; exact onStart_ok (p2 v hsp), ?_⟩
          unfold St.left St.stepped Simple.St.put
          dsimp only
          rw [getElem?_set_self' hs, hlen]
          have := sum_thread (t' := { t with pc := .waiting }) (sw' := { sw with pc := .load }) (n := s.start.opens) ht hs (by simp [Thread.left, hpc, hd, hsp])
          simp
          omega
  | look =>
      left
      have hno := not_over hi ht (by rw [hpc]; simp)
      rw [hpc] at hrel
      obtain ⟨e1, e2, e3, e4⟩ := hrel
      obtain ⟨b1, b2, b3⟩ := busy_main hi hno hs hc e2 e1 e4
      have hw : s.main.writes = false := by
        rcases b3 with ⟨j1, j2⟩ | ⟨j1, j2, j3, j4, j5⟩
        · cases hm : s.main <;> rw [hm] at j1 <;> first | rfl | cases j1
        · exact j5
      have fin : ∀ t' : Thread, (t'.pc = .running ∨ t'.pc = .exiting) → (s.put i t').left < s.left := by
        intro t' ht'
        unfold St.left St.put
        dsimp only
        rw [hlen]
        have := sum_thread (t' := t') (sw' := sw) (n := s.start.opens) ht hs (by rcases ht' with h | h <;> simp [Thread.left, hpc, h])
        rw [set_self hs] at this
        omega
      cases hk : s.task with
      | none => exact ⟨s.put i { t with pc := .exiting }, by simp only [step, ht, Option.bind_some, threadStep, hpc, hw, hk]; rfl, fin _ (.inr rfl)⟩
      | some k => exact ⟨s.put i { t with pc := .running, ran := t.ran ++ [k] }, by simp only [step, ht, Option.bind_some, threadStep, hpc, hw, hk]; rfl, fin _ (.inl rfl)⟩
  | counting =>
      left
      have hno := not_over hi ht (by rw [hpc]; simp)
      rw [hpc] at hrel
      obtain ⟨e1, e2, e3, e4⟩ := hrel
      obtain ⟨b1, b2, b3⟩ := busy_main hi hno hs hc e2 e1 e4
      obtain ⟨fin', c', f1, f2, f3, f4, f5⟩ := (hi.fin hno).countDown hc e2 e3 b2
      refine ⟨_, by simp only [step, ht, Option.bind_some, threadStep, hpc]; exact onFin_ok f1, ?_⟩
      unfold St.left
      dsimp only
      rw [hlen]
      have := sum_thread (t' := { t with pc := if fin'.cs[i + 1]?.any CountDown.Counter.pending then .notifying else .atWait }) (sw' := sw) (n := s.start.opens) ht hs (by
        cases fin'.cs[i + 1]?.any CountDown.Counter.pending
        · simp [Thread.left, hpc, b1]
        · simp [Thread.left, hpc, b1])
      rw [set_self hs] at this
      omega
  | notifying =>
      left
      have hno := not_over hi ht (by rw [hpc]; simp)
      rw [hpc] at hrel
      obtain ⟨e1, e2, e3, e4⟩ := hrel
      obtain ⟨fin', f1, f2, f3⟩ := (hi.fin hno).notify hc e3
      refine ⟨_, by simp only [step, ht, Option.bind_some, threadStep, hpc]; exact onFin_ok f1, ?_⟩
      unfold St.left
      dsimp only
      rw [hlen]
      have := sum_thread (t' := { t with pc := .atWait }) (sw' := sw) (n := s.start.opens) ht hs (by
        simp only [Thread.left, hpc]
        split <;> omega)
      rw [set_self hs] at this
      omega
  | panicking =>
      left
      refine ⟨{ s with poisoned := true, threads := s.threads.set i { t with pc := .exiting } }, by simp only [step, ht, Option.bind_some, threadStep, hpc], ?_⟩
      unfold St.left
      dsimp only
      rw [hlen]
      have := sum_thread (t' := { t with pc := .exiting }) (sw' := sw) (n := s.start.opens) ht hs (by simp [Thread.left, hpc])
      rw [set_self hs] at this
      omega
  | exiting =>
      left
      have hno := not_over hi ht (by rw [hpc]; simp)
      rw [hpc] at hrel
      obtain ⟨e1, e2, e3, e4⟩ := hrel
      obtain ⟨fin', w', f1, f2, f3, f4, f5⟩ := (hi.fin hno).dropCounter hc e2 e3
      refine ⟨_, by simp only [step, ht, Option.bind_some, threadStep, hpc]; exact onFin_ok f1, ?_⟩
      unfold St.left
      dsimp only
      rw [hlen]
      have := sum_thread (t' := { t with pc := .exiting2 }) (sw' := sw) (n := s.start.opens) ht hs (by simp [Thread.left, hpc])
      rw [set_self hs] at this
      omega
  | exiting2 =>
      left
      rw [hpc] at hrel
      obtain ⟨e1, e2, e3⟩ := hrel
      obtain ⟨o1, o2⟩ := Start.drop hi.start hs e1
      refine ⟨_, by simp only [step, ht, Option.bind_some, threadStep, hpc]; exact onStart_ok o1, ?_⟩
      unfold St.left Simple.St.put
      dsimp only
      rw [hlen]
      have := sum_thread (t' := { t with pc := .gone }) (sw' := { sw with pc := .gone }) (n := s.start.opens) ht hs (by simp [Thread.left, hpc])
      omega

/-- If the start latch is being opened, then the main thread does it. -/
theorem main_opens (hi : Inv s w) (h : s.start.waking = true) : ∃ s', step s .main = some (.ok s') ∧ s'.left < s.left := by
  obtain ⟨st, o1, o2, o3, o4, o5⟩ := Start.wakeAll hi.start h
  have hw := hi.waking
  rw [h] at hw
  have := sum_woken s.start.opens s.threads s.start.ws
  cases hm : s.main <;> rw [hm] at hw <;> simp [MPc.opens] at hw
  · refine ⟨_, by simp only [step, mainStep, hm]; exact onStart_ok o1, ?_⟩
    unfold St.left
    dsimp only
    rw [o3, o4, hm]
    simp only [MPc.left]
    omega
  · refine ⟨_, by simp only [step, mainStep, hm]; exact onStart_ok o1, ?_⟩
    unfold St.left
    dsimp only
    rw [o3, o4, hm]
    simp only [MPc.left]
    omega

/-- While the main thread is in a function of the pool, something that is left to do can be done. -/
theorem advance (hi : Inv s w) (hn : ¬ s.main.returned) :
    (∃ s', step s .main = some (.ok s') ∧ s'.left < s.left) ∨
    (∃ s', w.pc = .blocked true ∧ step s .wake = some (.ok s') ∧ s'.left < s.left) ∨
    (∃ (i : Nat) (s' : St), step s (.thread i) = some (.ok s') ∧ s'.left < s.left) ∨
    ∃ (i : Nat) (s' : St), step s (.finish i) = some (.ok s') ∧ s'.left < s.left := by
  have h1 := hi.passed
  have h2 := hi.opens
  have h3 := hi.task
  have h4 := hi.waking
  have h5 := hi.wpc
  have h6 := hi.clean
  have viaThread : ∀ {i : Nat} {t : Thread} {sw : Simple.Waiter}, s.threads[i]? = some t → s.start.ws[i]? = some sw → 0 < t.left s.start.opens sw →
      (∃ s', step s .main = some (.ok s') ∧ s'.left < s.left) ∨
      (∃ s', w.pc = .blocked true ∧ step s .wake = some (.ok s') ∧ s'.left < s.left) ∨
      (∃ (i : Nat) (s' : St), step s (.thread i) = some (.ok s') ∧ s'.left < s.left) ∨
      ∃ (i : Nat) (s' : St), step s (.finish i) = some (.ok s') ∧ s'.left < s.left := by
    intro i t sw ht hs hl
    rcases thread_left hi ht hs hl with h | h | h
    · exact .inr (.inr (.inl ⟨i, h⟩))
    · exact .inr (.inr (.inr ⟨i, h⟩))
    · exact .inl (main_opens hi h)
  cases hm : s.main with
  | making | idle _ | scope | ran | over => rw [hm] at hn; exact absurd trivial hn
  | setting =>
      left
      refine ⟨{ s with main := .set }, by simp only [step, mainStep, hm], ?_⟩
      unfold St.left
      dsimp only
      rw [hm]
      simp only [MPc.left]
      omega
  | set =>
      left
      have hq := quiet_open hi (by rw [hm]; simp) (by rw [hm]; rfl)
      rw [hm] at h1 h2 h3 h4 h5 h6
      simp [MPc.busy, MPc.opens, MPc.clean] at h1 h2 h3 h4 h5 h6
      obtain ⟨st, o1, o2, o3, o4, o5⟩ := Start.open hi.start h4 (hq (by omega) (by rw [h6]; simp))
      refine ⟨_, by simp only [step, mainStep, hm]; exact onStart_ok o1, ?_⟩
      unfold St.left
      dsimp only
      rw [hm]
      simp only [MPc.left]
      have := sum_bound st.opens s.threads st.ws
      omega
  | opening =>
      left
      rw [hm] at h4
      exact main_opens hi h4
  | jopening b =>
      left
      rw [hm] at h4
      exact main_opens hi h4
  | ending =>
      left
      have hout : w.pc = .out := by
        have h5 := h5 (by rw [hm]; simp)
        rw [hm] at h5
        simpa using h5
      by_cases ht : s.task.isSome = true
      · obtain ⟨fin', w', f1, f2, f3, f4⟩ := (hi.fin (by rw [hm]; simp)).look (a := .wait 0) (.inl ⟨rfl, hout⟩)
        refine ⟨_, by simp only [step, mainStep, hm, ht, if_true]; exact onFin_ok f1, ?_⟩
        unfold St.left St.looked
        dsimp only
        rw [hm]
        split <;> simp only [MPc.left] <;> omega
      · refine ⟨{ s with main := .idle (some .done) }, by simp only [step, mainStep, hm]; rw [if_neg ht], ?_⟩
        unfold St.left
        dsimp only
        rw [hm]
        simp only [MPc.left]
        omega
  | passed =>
      left
      have hq := quiet_any hi
      rw [hm] at h1 h2
      simp [MPc.busy, MPc.joined] at h1 h2
      refine ⟨{ s with task := none, main := .clearing }, by simp only [step, mainStep, hm]; rw [hq (by omega)]; rfl, ?_⟩
      unfold St.left
      dsimp only
      rw [hm]
      simp only [MPc.left]
      omega
  | clearing =>
      left
      refine ⟨{ s with main := .checking }, by simp only [step, mainStep, hm], ?_⟩
      unfold St.left
      dsimp only
      rw [hm]
      simp only [MPc.left]
      omega
  | checking =>
      left
      refine ⟨{ s with main := .idle (some (if s.poisoned then .crashed else .done)) }, by simp only [step, mainStep, hm], ?_⟩
      unfold St.left
      dsimp only
      rw [hm]
      simp only [MPc.left]
      omega
  | joining b k =>
      have hck := hi.check b (.inr ⟨k, hm⟩)
      cases ht : s.threads[k]? with
      | none =>
          left
          rw [hm] at h5
          simp at h5
          obtain ⟨fin', f1, f2, _⟩ := (hi.fin (by rw [hm]; simp)).dropWaiter h5
          refine ⟨_, by simp only [step, mainStep, hm, ht]; exact onFin_ok f1, ?_⟩
          unfold St.left
          dsimp only
          rw [hm]
          simp only [MPc.left]
          omega
      | some t =>
          by_cases hg : t.pc = .gone
          · left
            have hx : (b && t.crashed) = false := by
              cases b with
              | false => rfl
              | true => rw [hck rfl t (List.mem_of_getElem? ht)]; rfl
            refine ⟨{ s with main := .joining b (k + 1) }, by simp only [step, mainStep, hm, ht, hg, hx, if_true]; rfl, ?_⟩
            unfold St.left
            dsimp only
            rw [hm]
            simp only [MPc.left]
            have := (List.getElem?_eq_some_iff.1 ht).1
            omega
          · obtain ⟨sw, c, hs, hc, hti⟩ := hi.thr k t ht
            refine viaThread ht hs ?_
            have hj := joined_passed hi (by rw [hm]; rfl)
            have hlt : t.pc.early = true → sw.passed < s.start.opens := fun h => by
              have := hti.busy h
              omega
            unfold Thread.left
            cases hp : t.pc <;> simp only [] <;> rw [hp] at hlt <;> first | exact absurd hp hg | omega | (rw [if_pos (hlt rfl)]; omega) | (rw [if_pos (hlt rfl)]; split <;> omega)
  | waiting =>
      have hno : s.main ≠ .over := by rw [hm]; simp
      have hf := hi.fin hno
      by_cases hex : ∃ (i : Nat) (t : Thread) (sw : Simple.Waiter), s.threads[i]? = some t ∧ s.start.ws[i]? = some sw ∧ 0 < t.left s.start.opens sw
      · obtain ⟨i, t, sw, ht, hs, hl⟩ := hex
        exact viaThread ht hs hl
      · right
        left
        have hb : w.pc ≠ .out := (h5 hno).2 hm
        rw [hm] at h1 h2
        simp [MPc.busy, MPc.joined] at h1 h2
        have hrest : ∀ {i : Nat} {t : Thread}, s.threads[i]? = some t → (∃ sw c, s.start.ws[i]? = some sw ∧ s.fin.cs[i + 1]? = some c ∧ c.pending = false ∧ (c.live = true → c.passed = w.passed + 1)) := by
          intro i t ht
          obtain ⟨sw, c, hs, hc, hti⟩ := hi.thr i t ht
          refine ⟨sw, c, hs, hc, ?_⟩
          have hz : ¬ 0 < t.left s.start.opens sw := fun h => hex ⟨i, t, sw, ht, hs, h⟩
          have hrel := hti.rel
          cases hp : t.pc <;> simp only [Thread.left, hp] at hz <;> rw [hp] at hrel <;> first | omega | skip
          · obtain ⟨g1, g2, g3, g4⟩ := hrel
            have hd : ¬ sw.passed < s.start.opens := fun hd => by simp [hd] at hz
            have := hf.range hc g2
            exact ⟨g3, fun _ => by omega⟩
          · obtain ⟨g0, g1, g2, g3, g4⟩ := hrel
            have hd : ¬ sw.passed < s.start.opens := fun hd => by
              simp only [hd, if_true] at hz
              split at hz <;> omega
            have := hf.range hc g2
            exact ⟨g3, fun _ => by omega⟩
          · split at hz <;> omega
          · exact ⟨hrel.2.2, fun h => by rw [hrel.2.1] at h; cases h⟩
        have hcs : ∀ (j : Nat) (c : CountDown.Counter), s.fin.cs[j]? = some c → c.pending = false ∧ (c.live = true → c.passed = w.passed + 1) := by
          intro j c hc
          match j with
          | 0 =>
              obtain ⟨c0, e1, e2, e3, e4⟩ := hi.c0
              rw [hc] at e1
              cases e1
              refine ⟨e3, fun h => ?_⟩
              rw [h, hm] at e2
              simp at e2
          | j + 1 =>
              have hlt : j < s.threads.length := by
                have := (List.getElem?_eq_some_iff.1 hc).1
                have := hi.lenC
                omega
              obtain ⟨sw, c', _, hc', g⟩ := hrest (List.getElem?_eq_getElem hlt)
              rw [hc] at hc'
              cases hc'
              exact g
        have hz : s.fin.counters = 0 := hf.zero.2 fun j c hc => (hcs j c hc).2
        have hbt : w.pc = .blocked true := by
          cases hp : w.pc with
          | out => exact absurd hp hb
          | blocked b =>
              cases b with
              | true => rfl
              | false =>
                  obtain ⟨j, c, hc, hpd⟩ := hf.wk hz hp
                  rw [(hcs j c hc).1] at hpd
                  cases hpd
        obtain ⟨fin', w', f1, f2, f3, f4⟩ := hf.look (a := .wake 0) (.inr ⟨rfl, hb⟩)
        refine ⟨s.looked fin', hbt, by simp only [step, hm, if_true]; exact onFin_ok f1, ?_⟩
        have hout : w'.pc = .out := by
          rcases f4 with f4 | f4
          · exact f4.1
          · exact absurd hz f4.2.2
        unfold St.left St.looked
        dsimp only
        rw [f2.w0, hm]
        simp only [Option.any_some, hout, decide_true, if_true, MPc.left]
        omega

/-- **C49.** Every function of the pool returns if the tasks return: from every state in which the main thread is in `run`, at the end of
    `scope` or in `join`, the pool reaches by its own steps, without any wait ending for no reason, a state in which it is not. -/
theorem C49_returns (hr : Run s) : ∃ s', Path s s' ∧ s'.main.returned := by
  have key : ∀ (n : Nat) (s : St), s.left ≤ n → Run s → ∃ s', Path s s' ∧ s'.main.returned := by
    intro n
    induction n with
    | zero =>
        intro s hl hr
        by_cases hn : s.main.returned
        · exact ⟨s, .refl s, hn⟩
        · obtain ⟨w, hi⟩ := run_inv hr
          rcases advance hi hn with ⟨s', _, h⟩ | ⟨s', _, _, h⟩ | ⟨i, s', _, h⟩ | ⟨i, s', _, h⟩ <;> omega
    | succ n ih =>
        intro s hl hr
        by_cases hn : s.main.returned
        · exact ⟨s, .refl s, hn⟩
        · obtain ⟨w, hi⟩ := run_inv hr
          rcases advance hi hn with ⟨s', h, hlt⟩ | ⟨s', hb, h, hlt⟩ | ⟨i, s', h, hlt⟩ | ⟨i, s', h, hlt⟩
          · obtain ⟨s'', h1, h2⟩ := ih s' (by omega) (hr.step (a := .main) trivial h)
            exact ⟨s'', .main h h1, h2⟩
          · obtain ⟨s'', h1, h2⟩ := ih s' (by omega) (hr.step (a := .wake) trivial h)
            exact ⟨s'', .wake (hi.fin (fun hx => by rw [hx] at hn; exact hn trivial)).w0 hb h h1, h2⟩
          · obtain ⟨s'', h1, h2⟩ := ih s' (by omega) (hr.step (a := .thread i) trivial h)
            exact ⟨s'', .thread i h h1, h2⟩
          · obtain ⟨s'', h1, h2⟩ := ih s' (by omega) (hr.step (a := .finish i) trivial h)
            exact ⟨s'', .finish i h h1, h2⟩
  exact key s.left s (Nat.le_refl _) hr

end Shadow.Pool.Unbounded
