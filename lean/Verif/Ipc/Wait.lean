import Verif.Ipc.Progress

/-!
# What Shadow waits for comes, except in two cases in which it waits for ever (property C65)
-/
namespace Shadow.Ipc

open Shadow.Base

/-- The thread that the worker waits for. -/
def Awaited (s : St) (t : Nat) : Prop :=
  match s.w with
  | .cont u _ | .startMain u | .startChild _ u _ | .exitWait u => t = u
  | _ => False

/-- The step is one that the worker waits for: its own, one of the awaited thread, the end of a process that is being killed (by itself, by
Shadow, or by its last call), or the watcher's, for a dead thread whose channel is still open. -/
def Helps (s : St) : Act → Prop
  | .recv | .startRecv | .gone => True
  | .sendStart t | .shimRecv t _ | .call t _ _ | .takeLock t | .localEnd t _ _ | .sigDone t | .natDone t _ | .cloneDo t _ | .cloneSend t =>
    Awaited s t
  | .die p => ∃ t th, Awaited s t ∧ s.ts[t]? = some th ∧ th.proc = p ∧ (th.pc = .exiting ∨ s.w = .exitWait t)
  | .close p => ∃ t th, Awaited s t ∧ s.ts[t]? = some th ∧ th.proc = p ∧ th.pc = .dead ∧ th.registered = true ∧ th.toShadow.closed = false
  | _ => False

/-- The process was killed while one of its threads had the lock. -/
def HungLock (s : St) : Prop := ∃ t th k, s.w = .cont t k ∧ s.ts[t]? = some th ∧ th.pc = .dead ∧ s.lock = .thread t

/-- The new thread died before it said that it has started. -/
def HungChild (s : St) : Prop :=
  ∃ t b r ch, s.w = .startChild t b r ∧ s.ts[b]? = some ch ∧ ch.pc = .dead ∧ ch.toShadow.msg = none ∧ ch.toShadow.closed = false ∧
    ch.registered = false

theorem close_enabled {s : St} {t : Nat} {th : Thread} (h : Run s) (ht : s.ts[t]? = some th) (hd : th.pc = .dead) (hm : Matters s t th) :
    step s (.close th.proc) ≠ none := by
  have : s.ts.all (fun u => u.proc != th.proc || !u.alive) = true := by
    rw [List.all_eq_true]
    intro u hu
    obtain ⟨j, hj⟩ := List.getElem?_of_mem hu
    by_cases e : u.proc = th.proc
    · simp [h.pinv.dead t th ht hd hm j u hj e]
    · simp [e]
  simp [step, this]

/-- Whenever the worker waits, some step that it waits for can be made, except in two cases (the findings below). -/
theorem C65_progress {s : St} (h : Run s) (hw : ∃ t, Awaited s t) : (∃ a, Helps s a ∧ allowed s a ∧ step s a ≠ none) ∨ HungLock s ∨ HungChild s := by
  obtain ⟨t, hw⟩ := hw
  have w0 := h.inv.w
  have l0 := h.inv.l
  unfold WOk at w0
  unfold LOk at l0
  cases e : s.w with
  | idle => rw [Awaited, e] at hw; exact hw.elim
  | handling u => rw [Awaited, e] at hw; exact hw.elim
  | startMain u =>
    rw [e] at w0
    obtain ⟨th, ht, hb, hreg⟩ := w0
    have hawt : Awaited s u := by rw [Awaited, e]
    have h0 := h.inv.ts u th ht
    rw [e] at h0
    simp only [role, if_true] at h0
    obtain ⟨⟨h1, h2, h3⟩, hcl⟩ := h0
    left
    rcases h3 with ⟨hu, _⟩ | ⟨m, ⟨a, hp, _⟩ | hd⟩ | ⟨m, _⟩
    · exact absurd hu hb
    · exact ⟨.sendStart u, hawt, trivial, by simp [step, ht, hp]⟩
    · cases hc : th.toShadow.closed with
      | true => exact ⟨.startRecv, trivial, trivial, by simp [step, e, startDone, ht, m, hc]⟩
      | false =>
        refine ⟨.close th.proc, ⟨u, th, hawt, ht, rfl, hd.1, hreg, hc⟩, trivial, close_enabled h ht hd.1 ?_⟩
        rw [Matters, e]; simp [role]
    · exact ⟨.startRecv, trivial, trivial, by simp [step, e, startDone, ht, m]⟩
  | startChild u b r =>
    rw [e] at w0
    obtain ⟨hne, _, ch, hch, g1, g2, hb⟩ := w0
    have hawt : Awaited s b := by rw [Awaited, e]
    have h0 := h.inv.ts b ch hch
    rw [e] at h0
    simp only [role, if_true] at h0
    obtain ⟨⟨h1, h2, h3⟩, hcl⟩ := h0
    rcases h3 with ⟨hu, _⟩ | ⟨m, ⟨a, hp, _⟩ | hd⟩ | ⟨m, _⟩
    · exact absurd hu hb
    · exact .inl ⟨.sendStart b, hawt, trivial, by simp [step, hch, hp]⟩
    · exact .inr (.inr ⟨u, b, r, ch, e, hch, hd.1, m, g2, g1⟩)
    · exact .inl ⟨.startRecv, trivial, trivial, by simp [step, e, startDone, hch, m]⟩
  | exitWait u =>
    rw [e] at w0
    have hawt : Awaited s u := by rw [Awaited, e]
    obtain ⟨th, ht⟩ : ∃ th, s.ts[u]? = some th := ⟨_, List.getElem?_eq_getElem w0⟩
    left
    by_cases hg : th.running = false ∨ th.toShadow.closed = true ∨ th.pc = .dead
    · exact ⟨.gone, trivial, trivial, by simp only [step, e, ht]; rw [if_pos hg]; simp⟩
    · exact ⟨.die th.proc, ⟨u, th, hawt, ht, rfl, .inr e⟩, trivial, by simp [step]⟩
  | cont u k =>
    rw [e] at w0 l0
    obtain ⟨th, ht, l0⟩ := l0
    have hawt : Awaited s u := by rw [Awaited, e]
    have h0 := h.inv.ts u th ht
    rw [e] at h0
    simp only [role, if_true] at h0
    obtain ⟨⟨hrun, hact⟩, hcl⟩ := h0
    by_cases hd : th.pc = .dead
    · rcases l0 with ⟨hl, _⟩ | ⟨hl, _⟩
      · left
        cases hm : th.toShadow.msg with
        | some m => exact ⟨.recv, trivial, trivial, by simp [step, e, ht, Thread.answer, hm, hl]⟩
        | none =>
          cases hc : th.toShadow.closed with
          | true => exact ⟨.recv, trivial, trivial, by simp [step, e, ht, Thread.answer, hm, hc, hl]⟩
          | false =>
            refine ⟨.close th.proc, ⟨u, th, hawt, ht, rfl, hd, h.pinv.reg u th ht hrun, hc⟩, trivial, close_enabled h ht hd ?_⟩
            refine ⟨.inl hrun, ?_⟩
            rw [e]; simp [role]
      · exact .inr (.inl ⟨u, th, k, e, ht, hd, hl⟩)
    · left
      have hfree : th.locks = false → s.lock = .free := by
        intro hl
        rcases l0 with ⟨q, _⟩ | ⟨_, q | q⟩
        · exact q
        · rw [hl] at q; cases q
        · exact absurd q hd
      -- the thread waits: its answer or its message is there
      have msg : ∀ m, th.toShim.msg = some m → (∃ a, th.pc = .waitStart a) ∨ (∃ c ctx, th.pc = .wait c ctx) →
          ∃ a, Helps s a ∧ allowed s a ∧ step s a ≠ none := by
        intro m hm hp
        refine ⟨.shimRecv u false, hawt, trivial, ?_⟩
        simp only [step, ht, hm]
        rcases hp with ⟨a, hp⟩ | ⟨c, ctx, hp⟩
        · simp only [shimGot, hp]; cases m <;> simp
        · simp only [shimGot, hp]
          cases m with
          | startRes => simp
          | syscall c => simp
          | addReq thr stk b => cases ctx <;> simp
          | complete rv rs => simp
          | doNative => simp
      have rcv : ∀ m, th.toShadow.msg = some m → th.locks = false → ∃ a, Helps s a ∧ allowed s a ∧ step s a ≠ none := by
        intro m hm hl
        exact ⟨.recv, trivial, trivial, by simp [step, e, ht, Thread.answer, hm, hfree hl]⟩
      have pkw : ∀ {c}, Parked th c → ∃ ctx, th.pc = .wait c ctx := by
        rintro c (⟨ctx, q, _⟩ | ⟨q, _⟩)
        · exact ⟨ctx, q⟩
        · exact absurd q hd
      have pkl : ∀ {c}, Parked th c → th.locks = false := parked_locks
      cases k with
      | resume =>
        rcases hact with ⟨m, m1, _, q⟩ | ⟨_, _, q⟩ | ⟨_, e', m2, e1, e2, q⟩
        · refine msg m m1 ?_
          rcases q with q | ⟨_, a, q, _⟩ | ⟨c, ctx, _, _, _, q, _⟩ | ⟨c, ctx, _, q, _⟩
          · exact absurd q.1 hd
          · exact .inl ⟨a, q⟩
          · exact .inr ⟨c, ctx, q⟩
          · exact .inr ⟨c, ctx, q⟩
        · rcases q with ⟨q | q, _⟩ | ⟨f, q | q, _⟩ | ⟨c, q, h1, h2, _⟩ | ⟨q, _⟩ | q
          · exact ⟨.call u ⟨0, []⟩ false, hawt, by simp [allowed, isClone], by simp [step, ht, q]⟩
          · refine ⟨.localEnd u 0 0, hawt, trivial, ?_⟩
            simp only [step, ht, q]
            split
            · split <;> simp
            · simp
          · refine ⟨.takeLock u, hawt, trivial, ?_⟩
            simp [step, ht, q, hfree (by simp [Thread.locks, q])]
          · refine ⟨.sigDone u, hawt, trivial, ?_⟩
            simp only [step, ht, q]
            split <;> simp
          · exact ⟨.natDone u 0, hawt, trivial, by simp [step, ht, q, h1, h2]⟩
          · exact ⟨.die th.proc, ⟨u, th, hawt, ht, rfl, .inl q⟩, trivial, by simp [step]⟩
          · exact absurd q.1 hd
        · cases e' with
          | startReq => exact absurd rfl e1
          | death => exact absurd rfl e2
          | syscall c => exact rcv _ m2 (pkl q)
          | complete _ _ => exact q.elim
          | addRes r => obtain ⟨_, c, q⟩ := q; exact rcv _ m2 (pkl q)
      | nat =>
        obtain ⟨c, _, ⟨_, m1, _, _, _, q⟩ | ⟨_, _, ⟨ctx, c', q, h1, h2, _⟩ | q⟩ | ⟨_, ⟨rv, rs, m2⟩, q⟩⟩ := hact
        · obtain ⟨ctx, q⟩ := pkw q; exact msg _ m1 (.inr ⟨c, ctx, q⟩)
        · exact ⟨.natDone u 0, hawt, trivial, by simp [step, ht, q, h1, h2]⟩
        · exact absurd q.1 hd
        · exact rcv _ m2 (pkl q)
      | clone b =>
        obtain ⟨c, _, _, ⟨_, _, m1, _, q⟩ | ⟨_, _, ⟨ctx, ⟨thr, stk, q⟩ | ⟨y, _, q⟩, _⟩ | q⟩ | ⟨_, ⟨y, _, m2⟩, q⟩⟩ := hact
        · obtain ⟨ctx, q⟩ := pkw q; exact msg _ m1 (.inr ⟨c, ctx, q⟩)
        · exact ⟨.cloneDo u (-1), hawt, ⟨by decide, fun e => by omega⟩, by simp [step, ht, q]⟩
        · exact ⟨.cloneSend u, hawt, trivial, by simp [step, ht, q]⟩
        · exact absurd q.1 hd
        · exact rcv _ m2 (pkl q)

/-! ## Shadow waits for ever -/

/-- All that can happen from a state on. -/
inductive Reach (s : St) : St → Prop where
  | refl : Reach s s
  | step {s1 s2 : St} {a : Act} : Reach s s1 → allowed s1 a → Ipc.step s1 a = some (.ok s2) → Reach s s2

theorem Reach.run {s s' : St} (h : Reach s s') (hr : Run s) : Run s' := by
  induction h with
  | refl => exact hr
  | step _ ha hs ih => exact .step ih ha hs

/-- The steps that do not belong to a thread while the worker waits in vain. -/
theorem hung_map {s s' : St} {a : Act} (hn : actor a = none) (hs : step s a = some (.ok s'))
    (hw : (∃ t k, s.w = .cont t k) ∨ ∃ t b r, s.w = .startChild t b r) (h1 : a ≠ .recv) (h2 : a ≠ .startRecv) :
    s'.w = s.w ∧ s'.lock = s.lock ∧ ∀ (i : Nat) (th : Thread), s.ts[i]? = some th → ∃ th', s'.ts[i]? = some th' ∧
      (th.pc = .dead → th'.pc = .dead) ∧ th'.toShadow.msg = th.toShadow.msg ∧
      th'.registered = th.registered ∧ (th.registered = false → th'.toShadow.closed = th.toShadow.closed) := by
  have nw : ∀ {w}, s.w = w → (∀ t k, w ≠ .cont t k) → (∀ t b r, w ≠ .startChild t b r) → False := by
    intro w e n1 n2
    rcases hw with ⟨t, k, q⟩ | ⟨t, b, r, q⟩
    · exact n1 t k (e.symm.trans q)
    · exact n2 t b r (e.symm.trans q)
  cases a with
  | spawn p => simp only [step] at hs; split at hs
               · next q => exact (nw q (by simp) (by simp)).elim
               · cases hs
  | startRecv => exact absurd rfl h2
  | resume t => simp only [step] at hs; split at hs
                · next q => exact (nw q (by simp) (by simp)).elim
                · cases hs
  | handle hh mx => simp only [step] at hs; split at hs
                    · next q => exact (nw q (by simp) (by simp)).elim
                    · cases hs
  | recv => exact absurd rfl h1
  | cleanup t => simp only [step] at hs; split at hs
                 · next q => exact (nw q (by simp) (by simp)).elim
                 · cases hs
  | gone => simp only [step] at hs; split at hs
            · next q => exact (nw q (by simp) (by simp)).elim
            · cases hs
  | die p =>
    simp only [step] at hs
    injection hs with hs; injection hs with hs; subst hs
    refine ⟨rfl, rfl, fun i th hi => ⟨_, by show (List.map _ s.ts)[i]? = _; rw [List.getElem?_map, hi]; rfl, ?_⟩⟩
    dsimp only
    split
    · exact ⟨fun _ => rfl, rfl, rfl, fun _ => rfl⟩
    · exact ⟨id, rfl, rfl, fun _ => rfl⟩
  | close p =>
    simp only [step] at hs
    split at hs
    · injection hs with hs; injection hs with hs; subst hs
      refine ⟨rfl, rfl, fun i th hi => ⟨_, by show (List.map _ s.ts)[i]? = _; rw [List.getElem?_map, hi]; rfl, ?_⟩⟩
      dsimp only
      split
      · next c => exact ⟨id, rfl, rfl, fun q => by rw [q] at c; simp at c⟩
      · exact ⟨id, rfl, rfl, fun _ => rfl⟩
    · cases hs
  | _ => cases hn

theorem dead_not_alive {th : Thread} (h : th.pc = .dead) : ¬ th.alive = true := by simp [Thread.alive, h]

theorem hungLock_step {s s' : St} {a : Act} (h : Run s) (hh : HungLock s) (hs : step s a = some (.ok s')) : HungLock s' := by
  obtain ⟨t, th, k, hw, ht, hd, hl⟩ := hh
  cases ha : actor a with
  | none =>
    by_cases h1 : a = .recv
    · subst h1
      simp only [step, hw, ht] at hs
      split at hs
      · rw [if_neg (by rw [hl]; simp)] at hs; cases hs
      · cases hs
    · by_cases h2 : a = .startRecv
      · subst h2; simp only [step, hw] at hs; cases hs
      · obtain ⟨e1, e2, e3⟩ := hung_map ha hs (.inl ⟨t, k, hw⟩) h1 h2
        obtain ⟨th', q1, q2, _⟩ := e3 t th ht
        exact ⟨t, th', k, by rw [e1]; exact hw, q1, q2 hd, by rw [e2]; exact hl⟩
  | some i =>
    by_cases hx : ∀ x, a = .cloneDo i x → x < 0
    · obtain ⟨e1, ih, ih', hi, e2, hal, _, _, hlk⟩ := step_thread ha hx hs
      have hne : i ≠ t := by rintro rfl; rw [ht] at hi; injection hi with hi; subst hi; exact dead_not_alive hd hal
      refine ⟨t, th, k, by rw [e1]; exact hw, by rw [e2, get_set_ne (fun e => hne e.symm)]; exact ht, hd, ?_⟩
      rcases hlk with hr | e
      · obtain ⟨k', q⟩ := C65_serial h hi hr
        rw [hw] at q; injection q with q; exact absurd q.symm hne
      · rw [e]; exact hl
    · have : ∃ x, a = .cloneDo i x ∧ ¬ x < 0 := Classical.byContradiction fun n => hx fun x e => Classical.byContradiction fun m => n ⟨x, e, m⟩
      obtain ⟨x, rfl, hpos⟩ := this
      obtain ⟨_, _, ih, ch, c, ctx, thr, stk, b, hi, hp, _⟩ := step_clone hpos hs
      obtain ⟨k', q⟩ := C65_serial h hi (by simp [Thread.runs, hp])
      rw [hw] at q; injection q with q; subst q
      rw [ht] at hi; injection hi with hi; subst hi
      rw [hd] at hp; cases hp

theorem hungChild_step {s s' : St} {a : Act} (h : Run s) (hh : HungChild s) (hs : step s a = some (.ok s')) : HungChild s' := by
  obtain ⟨t, b, r, ch, hw, hb, hd, hm, hc, hr⟩ := hh
  cases ha : actor a with
  | none =>
    by_cases h1 : a = .recv
    · subst h1; simp only [step, hw] at hs; cases hs
    · by_cases h2 : a = .startRecv
      · subst h2
        simp only [step, hw, startDone, hb, hm, hc] at hs
        simp at hs
      · obtain ⟨e1, e2, e3⟩ := hung_map ha hs (.inr ⟨t, b, r, hw⟩) h1 h2
        obtain ⟨ch', q1, q2, q3, q4, q5⟩ := e3 b ch hb
        exact ⟨t, b, r, ch', by rw [e1]; exact hw, q1, q2 hd, by rw [q3]; exact hm, by rw [q5 hr]; exact hc, by rw [q4]; exact hr⟩
  | some i =>
    by_cases hx : ∀ x, a = .cloneDo i x → x < 0
    · obtain ⟨e1, ih, ih', hi, e2, hal, _⟩ := step_thread ha hx hs
      have hne : i ≠ b := by rintro rfl; rw [hb] at hi; injection hi with hi; subst hi; exact dead_not_alive hd hal
      exact ⟨t, b, r, ch, by rw [e1]; exact hw, by rw [e2, get_set_ne (fun e => hne e.symm)]; exact hb, hd, hm, hc, hr⟩
    · have : ∃ x, a = .cloneDo i x ∧ ¬ x < 0 := Classical.byContradiction fun n => hx fun x e => Classical.byContradiction fun m => n ⟨x, e, m⟩
      obtain ⟨x, rfl, hpos⟩ := this
      obtain ⟨_, _, ih, ch, c, ctx, thr, stk, b, hi, hp, _⟩ := step_clone hpos hs
      obtain ⟨k', q⟩ := C65_serial h hi (by simp [Thread.runs, hp])
      rw [hw] at q; cases q

/-- In both cases the worker waits for ever, whatever happens. -/
theorem C65_hung {s s' : St} (h : Run s) (hr : Reach s s') : (HungLock s → HungLock s' ∧ s'.w = s.w) ∧ (HungChild s → HungChild s' ∧ s'.w = s.w) := by
  have keepL : ∀ {x y : St} {a}, Run x → HungLock x → step x a = some (.ok y) → y.w = x.w := by
    intro x y a hx hh hs
    obtain ⟨t, th, k, hw, ht, hd, hl⟩ := hh
    cases ha : actor a with
    | none =>
      by_cases h1 : a = .recv
      · subst h1
        simp only [step, hw, ht] at hs
        split at hs
        · rw [if_neg (by rw [hl]; simp)] at hs; cases hs
        · cases hs
      · by_cases h2 : a = .startRecv
        · subst h2; simp only [step, hw] at hs; cases hs
        · exact (hung_map ha hs (.inl ⟨t, k, hw⟩) h1 h2).1
    | some i =>
      by_cases hx' : ∀ x, a = .cloneDo i x → x < 0
      · exact (step_thread ha hx' hs).1
      · have : ∃ x, a = .cloneDo i x ∧ ¬ x < 0 := Classical.byContradiction fun n => hx' fun x e => Classical.byContradiction fun m => n ⟨x, e, m⟩
        obtain ⟨x, rfl, hpos⟩ := this
        exact (step_clone hpos hs).1
  have keepC : ∀ {x y : St} {a}, Run x → HungChild x → step x a = some (.ok y) → y.w = x.w := by
    intro x y a hx hh hs
    obtain ⟨t, b, r, ch, hw, hb, hd, hm, hc, hr⟩ := hh
    cases ha : actor a with
    | none =>
      by_cases h1 : a = .recv
      · subst h1; simp only [step, hw] at hs; cases hs
      · by_cases h2 : a = .startRecv
        · subst h2
          simp only [step, hw, startDone, hb, hm, hc] at hs
          simp at hs
        · exact (hung_map ha hs (.inr ⟨t, b, r, hw⟩) h1 h2).1
    | some i =>
      by_cases hx' : ∀ x, a = .cloneDo i x → x < 0
      · exact (step_thread ha hx' hs).1
      · have : ∃ x, a = .cloneDo i x ∧ ¬ x < 0 := Classical.byContradiction fun n => hx' fun x e => Classical.byContradiction fun m => n ⟨x, e, m⟩
        obtain ⟨x, rfl, hpos⟩ := this
        exact (step_clone hpos hs).1
  induction hr with
  | refl => exact ⟨fun q => ⟨q, rfl⟩, fun q => ⟨q, rfl⟩⟩
  | step h0 _ hs ih =>
    have h1 := h0.run h
    refine ⟨fun q => ?_, fun q => ?_⟩
    · obtain ⟨g1, g2⟩ := ih.1 q
      exact ⟨hungLock_step h1 g1 hs, (keepL h1 g1 hs).trans g2⟩
    · obtain ⟨g1, g2⟩ := ih.2 q
      exact ⟨hungChild_step h1 g1 hs, (keepC h1 g1 hs).trans g2⟩

end Shadow.Ipc
