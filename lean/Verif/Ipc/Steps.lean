import Verif.Ipc.Inv

/-!
# The invariant of the turns is kept: the steps of the threads, of the kernel and of the watcher
-/
namespace Shadow.Ipc

open Shadow.Base

theorem get_set {α : Type} {l : List α} {t : Nat} {a b : α} (h : l[t]? = some a) : (l.set t b)[t]? = some b := by
  have : t < l.length := (List.getElem?_eq_some_iff.1 h).1
  simp [this]

theorem get_set_ne {α : Type} {l : List α} {t i : Nat} {b : α} (h : i ≠ t) : (l.set t b)[i]? = l[i]? := by
  rw [List.getElem?_set_ne (fun e => h e.symm)]

/-- The threads after one of them changed. -/
theorem threads_set {l : List Thread} {P : Nat → Thread → Prop} {t : Nat} {a b : Thread} (h : l[t]? = some a)
    (ho : ∀ i th, i ≠ t → l[i]? = some th → P i th) (hn : P t b) : ∀ i th, (l.set t b)[i]? = some th → P i th := by
  intro i th hi
  by_cases e : i = t
  · subst e; rw [get_set h] at hi; injection hi with hi; subst hi; exact hn
  · rw [get_set_ne e] at hi; exact ho i th e hi

/-- A step of thread `t`. -/
theorem shim_inv {s s' : St} {t : Nat} {th th' : Thread} (h : Inv s) (ht : s.ts[t]? = some th) (hs : s'.ts = s.ts.set t th')
    (hw : s'.w = s.w) (hk : RoleOk th' (role s.w t)) (hrun : th'.running = th.running) (hreg : th'.registered = th.registered)
    (hcl : th'.toShadow.closed = th.toShadow.closed) (hb : th.pc ≠ .unborn) (hd : th.pc ≠ .dead) (hb' : th'.pc ≠ .unborn)
    (hlink : ∀ b ch, s.w = .cont t (.clone b) → Link th ch b → Link th' ch b) (hl : LOk s') (hc : ClockOk s') : Inv s' := by
  have hcl0 : th.toShadow.closed = false := by
    cases e : th.toShadow.closed with
    | false => rfl
    | true => exact absurd ((h.ts t th ht).2 e) hd
  refine ⟨?_, ?_, hl, hc⟩
  · rw [hs, hw]
    exact threads_set ht (fun i x _ hx => h.ts i x hx) ⟨hk, by rw [hcl, hcl0]; intro e; exact absurd e (by simp)⟩
  · have w0 := h.w
    unfold WOk at w0 ⊢
    rw [hw, hs]
    cases e : s.w with
    | idle => trivial
    | handling u =>
      rw [e] at w0
      by_cases eu : u = t
      · subst eu; obtain ⟨x, hx, hr⟩ := w0; rw [ht] at hx; injection hx with hx; subst hx
        exact ⟨th', get_set ht, by rw [hrun]; exact hr⟩
      · obtain ⟨x, hx, hr⟩ := w0; exact ⟨x, by rw [get_set_ne eu]; exact hx, hr⟩
    | cont u k =>
      rw [e] at w0
      obtain ⟨x, hx, hr⟩ := w0
      by_cases eu : u = t
      · subst eu; rw [ht] at hx; injection hx with hx; subst hx
        refine ⟨th', get_set ht, ?_⟩
        cases k with
        | resume => trivial
        | nat => trivial
        | clone b =>
          obtain ⟨hne, ch, hch, h1, h2, h3⟩ := hr
          exact ⟨hne, ch, by rw [get_set_ne hne]; exact hch, h1, h2, hlink b ch e h3⟩
      · refine ⟨x, by rw [get_set_ne eu]; exact hx, ?_⟩
        cases k with
        | resume => trivial
        | nat => trivial
        | clone b =>
          obtain ⟨hne, ch, hch, h1, h2, h3⟩ := hr
          by_cases eb : b = t
          · subst eb; rw [ht] at hch; injection hch with hch; subst hch
            refine ⟨hne, th', get_set ht, by rw [hreg]; exact h1, by rw [hcl]; exact h2, ?_⟩
            exact ⟨fun p => absurd (h3.before p) hb, fun _ => hb', fun p => absurd (h3.failed p) hb⟩
          · exact ⟨hne, ch, by rw [get_set_ne eb]; exact hch, h1, h2, h3⟩
    | startMain u =>
      rw [e] at w0
      obtain ⟨x, hx, h1, h2⟩ := w0
      by_cases eu : u = t
      · subst eu; rw [ht] at hx; injection hx with hx; subst hx
        exact ⟨th', get_set ht, hb', by rw [hreg]; exact h2⟩
      · exact ⟨x, by rw [get_set_ne eu]; exact hx, h1, h2⟩
    | startChild u b r =>
      rw [e] at w0
      obtain ⟨hne, ⟨x, hx, hr⟩, ch, hch, h1, h2, h3⟩ := w0
      refine ⟨hne, ?_, ?_⟩
      · by_cases eu : u = t
        · subst eu; rw [ht] at hx; injection hx with hx; subst hx
          exact ⟨th', get_set ht, by rw [hrun]; exact hr⟩
        · exact ⟨x, by rw [get_set_ne eu]; exact hx, hr⟩
      · by_cases eb : b = t
        · subst eb; rw [ht] at hch; injection hch with hch; subst hch
          exact ⟨th', get_set ht, by rw [hreg]; exact h1, by rw [hcl]; exact h2, hb'⟩
        · exact ⟨ch, by rw [get_set_ne eb]; exact hch, h1, h2, h3⟩
    | exitWait u => rw [e] at w0; simpa using w0

/-- A step of thread `t` that leaves the lock and the clock. -/
theorem shim_plain {s : St} {t : Nat} {th th' : Thread} (h : Inv s) (ht : s.ts[t]? = some th)
    (hk : RoleOk th' (role s.w t)) (hrun : th'.running = th.running) (hreg : th'.registered = th.registered)
    (hcl : th'.toShadow.closed = th.toShadow.closed) (hb : th.pc ≠ .unborn) (hd : th.pc ≠ .dead) (hb' : th'.pc ≠ .unborn)
    (hlink : ∀ b ch, s.w = .cont t (.clone b) → Link th ch b → Link th' ch b) (hl : th.locks = false) (hl' : th'.locks = false) :
    Inv (s.put t th') := by
  refine shim_inv h ht rfl rfl hk hrun hreg hcl hb hd hb' hlink ?_ h.c
  have l0 := h.l
  unfold LOk at l0 ⊢
  show (match s.w with | .cont u _ => _ | _ => _)
  cases e : s.w with
  | cont u k =>
    rw [e] at l0
    obtain ⟨x, hx, hr⟩ := l0
    by_cases eu : u = t
    · subst eu; rw [ht] at hx; injection hx with hx; subst hx
      refine ⟨th', get_set ht, ?_⟩
      rcases hr with ⟨a, b⟩ | ⟨a, b | b⟩
      · exact .inl ⟨a, hl'⟩
      · rw [hl] at b; exact absurd b (by simp)
      · exact absurd b hd
    · exact ⟨x, by show (s.ts.set t th')[u]? = _; rw [get_set_ne eu]; exact hx, hr⟩
  | idle => rw [e] at l0; exact l0
  | handling _ => rw [e] at l0; exact l0
  | startMain _ => rw [e] at l0; exact l0
  | startChild _ _ _ => rw [e] at l0; exact l0
  | exitWait _ => rw [e] at l0; exact l0

/-- A step of the active thread that takes, keeps or gives back the lock. -/
theorem shim_lock {s s' : St} {t : Nat} {k : Kont} {th th' : Thread} (h : Inv s) (ht : s.ts[t]? = some th) (hs : s'.ts = s.ts.set t th')
    (hw : s'.w = s.w) (hwc : s.w = .cont t k) (hk : Active th' k) (hrun : th'.running = th.running) (hreg : th'.registered = th.registered)
    (hcl : th'.toShadow.closed = th.toShadow.closed) (hb : th.pc ≠ .unborn) (hd : th.pc ≠ .dead) (hb' : th'.pc ≠ .unborn)
    (hkc : ∀ b, k ≠ .clone b)
    (hl : (s'.lock = .free ∧ th'.locks = false) ∨ (s'.lock = .thread t ∧ th'.locks = true)) (hc : ClockOk s') : Inv s' := by
  have hr := (h.ts t th ht).1
  have er : role s.w t = .active k := by rw [hwc]; simp [role]
  rw [er] at hr
  refine shim_inv h ht hs hw (by rw [er]; exact ⟨by rw [hrun]; exact hr.1, hk⟩) hrun hreg hcl hb hd hb' ?_ ?_ hc
  · intro b ch e; rw [hwc] at e; injection e with _ e; exact absurd e (hkc b)
  · unfold LOk; rw [hw, hwc, hs]
    refine ⟨th', get_set ht, ?_⟩
    rcases hl with hl | ⟨a, b⟩
    · exact .inl hl
    · exact .inr ⟨a, .inl b⟩

/-- Who is the thread that runs the application. -/
theorem role_active {w : Worker} {t : Nat} {k : Kont} (h : role w t = .active k) : w = .cont t k := by
  unfold role at h
  split at h
  · split at h
    · next e => subst e; injection h with h; subst h; rfl
    · split at h
      · split at h <;> cases h
      · cases h
  all_goals first | (split at h <;> cases h) | cases h

/-- A thread that runs the application (or the shim for it) is the active one, and it has no message. -/
theorem busy_of {th : Thread} {r : Role} (h : RoleOk th r)
    (hp : th.pc = .app ∨ th.pc = .inShim ∨ (∃ f, th.pc = .lockSig f) ∨ (∃ f, th.pc = .signals f) ∨ th.pc = .exiting) :
    r = .active .resume ∧ th.toShim.msg = none ∧ th.toShadow.msg = none ∧ Busy th := by
  have q : ¬Quiet th := by
    rintro (⟨_, h, _⟩ | ⟨_, _, h, _⟩ | ⟨_, _, _, h⟩)
    · rcases h with h | h <;> rw [h] at hp <;> simp at hp
    · rw [h] at hp; simp at hp
    · generalize th.cur = e at h
      cases e with
      | startReq => rcases h with ⟨a, h, _⟩ | ⟨h, _⟩ <;> rw [h] at hp <;> simp at hp
      | death => rw [h.1] at hp; simp at hp
      | syscall c => rcases h with ⟨a, h, _⟩ | ⟨h, _⟩ <;> rw [h] at hp <;> simp at hp
      | complete _ _ => exact h
      | addRes r => obtain ⟨_, c, h⟩ := h; rcases h with ⟨a, h, _⟩ | ⟨h, _⟩ <;> rw [h] at hp <;> simp at hp
  have pk : ∀ c, ¬Parked th c := by
    rintro c (⟨a, h, _⟩ | ⟨h, _⟩) <;> rw [h] at hp <;> simp at hp
  cases r with
  | quiet => exact absurd h q
  | child =>
    obtain ⟨_, _, h⟩ := h
    rcases h with ⟨h, _⟩ | ⟨_, ⟨a, h, _⟩ | h⟩ | ⟨_, ⟨a, h, _⟩ | h⟩
    · rw [h] at hp; simp at hp
    · rw [h] at hp; simp at hp
    · rw [h.1] at hp; simp at hp
    · rw [h] at hp; simp at hp
    · rw [h.1] at hp; simp at hp
  | leaving =>
    rcases h with h | h | ⟨_, _, _, _, h, _⟩ | ⟨_, _, h, _⟩
    · exact absurd h q
    · rw [h.1] at hp; simp at hp
    · rw [h] at hp; simp at hp
    · rw [h] at hp; simp at hp
  | active k =>
    obtain ⟨_, h⟩ := h
    cases k with
    | resume =>
      rcases h with ⟨m, _, _, h⟩ | h | ⟨_, e, _, _, _, h⟩
      · rcases h with h | ⟨_, _, h, _⟩ | ⟨_, _, _, _, _, h, _⟩ | ⟨_, _, _, h, _⟩
        · rw [h.1] at hp; simp at hp
        · rw [h] at hp; simp at hp
        · rw [h] at hp; simp at hp
        · rw [h] at hp; simp at hp
      · exact ⟨rfl, h⟩
      · cases e with
        | startReq => rcases h with ⟨a, h, _⟩ | h
                      · rw [h] at hp; simp at hp
                      · rw [h.1] at hp; simp at hp
        | death => rw [h.1] at hp; simp at hp
        | syscall c => exact absurd h (pk c)
        | complete _ _ => exact h.elim
        | addRes r => obtain ⟨_, c, h⟩ := h; exact absurd h (pk c)
    | nat =>
      obtain ⟨c, _, h⟩ := h
      rcases h with ⟨_, _, _, _, _, h⟩ | ⟨_, _, ⟨_, _, h, _⟩ | h⟩ | ⟨_, _, h⟩
      · exact absurd h (pk c)
      · rw [h] at hp; simp at hp
      · rw [h.1] at hp; simp at hp
      · exact absurd h (pk c)
    | clone b =>
      obtain ⟨c, _, _, h⟩ := h
      rcases h with ⟨_, _, _, _, h⟩ | ⟨_, _, ⟨_, ⟨_, _, h⟩ | ⟨_, _, h⟩, _⟩ | h⟩ | ⟨_, _, h⟩
      · exact absurd h (pk c)
      · rw [h] at hp; simp at hp
      · rw [h] at hp; simp at hp
      · rw [h.1] at hp; simp at hp
      · exact absurd h (pk c)

theorem busy_app {th : Thread} (h : Busy th) (hp : th.pc = .app ∨ th.pc = .inShim) : th.holds [] := by
  rcases h with ⟨_, h⟩ | ⟨_, h | h, _⟩ | ⟨_, h, _⟩ | ⟨h, _⟩ | ⟨h, _⟩
  · exact h
  all_goals rw [h] at hp; simp at hp

theorem busy_sig {th : Thread} {f : Frame} (h : Busy th) (hp : th.pc = .lockSig f ∨ th.pc = .signals f) :
    CtxOk f.call f.ctx ∧ th.holds [(f.call, .answered f.rv f.rs f.all)] := by
  rcases h with ⟨h | h, _⟩ | ⟨g, hg, h⟩ | ⟨_, h, _⟩ | ⟨h, _⟩ | ⟨h, _⟩
  · rw [h] at hp; simp at hp
  · rw [h] at hp; simp at hp
  · have : g = f := by rcases hg with e | e <;> rw [e] at hp <;> simpa using hp
    subst this; exact h
  all_goals rw [h] at hp; simp at hp

theorem snoc_of {th : Thread} {p q : Pending} (h : th.pend p) {e : Ev} (he : obs p e = some q) : obsAll [] (th.log ++ [e]) = some q := by
  rw [obsAll_snoc h, he]

theorem isDead_of {th th' : Thread} {p : Pending} (h : th.pend p) (hl : th'.log = th.log) (hp : th'.pc = .dead) : th'.isDead :=
  ⟨hp, p, by unfold Thread.pend; rw [hl]; exact h⟩

theorem ask_ok {th : Thread} {c : Call} {ctx : Bool} (hm : th.toShadow.msg = none) (hh : th.holds []) (hc : CtxOk c ctx)
    (hs : th.toShim.msg = none) :
    ∃ th', askShadow th c ctx = .ok th' ∧ Active th' .resume ∧ th'.running = th.running ∧ th'.registered = th.registered ∧
      th'.toShadow.closed = th.toShadow.closed ∧ th'.pc = .wait c ctx := by
  refine ⟨{ th with pc := .wait c ctx, log := th.log ++ [.ask c], toShadow := { th.toShadow with msg := some (.syscall c) } }, ?_, ?_, rfl,
    rfl, rfl, rfl⟩
  · simp [askShadow, Thread.toW, Chan.send, hm]
  · refine .inr (.inr ⟨hs, .syscall c, rfl, by simp, by simp, .inl ⟨ctx, rfl, hc, ?_, hh.2⟩⟩)
    refine snoc_of hh.1 ?_
    show (if free ([] ++ ents th.stack) then _ else _) = _
    rw [List.nil_append, free_ents]; rfl

theorem call_inv {s : St} {t : Nat} {c : Call} {ctx : Bool} {r : R St} (h : Inv s) (ha : isClone c.num = true → ctx = true)
    (hs : step s (.call t c ctx) = some r) : ∃ s', r = .ok s' ∧ Inv s' := by
  simp only [step] at hs
  split at hs
  · next th ht =>
    split at hs
    · next hp =>
      injection hs with hs; subst hs
      obtain ⟨er, h1, h2, h3⟩ := busy_of (h.ts t th ht).1 (.inl hp)
      obtain ⟨th', e1, e2, e3, e4, e5, e6⟩ := ask_ok (c := c) (ctx := ctx) h2 (busy_app h3 (.inl hp)) ha h1
      refine ⟨s.put t th', by rw [e1]; rfl, ?_⟩
      have hw := role_active er
      have hr := (h.ts t th ht).1
      rw [er] at hr
      refine shim_plain h ht (by rw [er]; exact ⟨by rw [e3]; exact hr.1, e2⟩) e3 e4 e5 (by simp [hp]) (by simp [hp]) (by simp [e6])
        (fun b ch e => by rw [hw] at e; simp at e) (by simp [Thread.locks, hp]) (by simp [Thread.locks, e6])
    · simp at hs
  · simp at hs

theorem sendStart_inv {s : St} {t : Nat} {r : R St} (h : Inv s) (hs : step s (.sendStart t) = some r) : ∃ s', r = .ok s' ∧ Inv s' := by
  simp only [step] at hs
  split at hs
  · next th ht =>
    split at hs
    · next a hp =>
      injection hs with hs; subst hs
      have hr := (h.ts t th ht).1
      -- only a child starts
      have hch : Child th ∧ role s.w t = .child := by
        generalize role s.w t = ro at hr
        cases ro with
        | child => exact ⟨hr, rfl⟩
        | quiet => exfalso; revert hr; simp only [RoleOk, Quiet, Thread.isDead, hp]; cases th.cur <;> simp [Waits, Parked, hp, Thread.isDead]
        | leaving =>
          exfalso; revert hr; simp only [RoleOk, Leaving, Quiet, Thread.isDead, hp]; cases th.cur <;> simp [Waits, Parked, hp, Thread.isDead]
        | active k =>
          exfalso
          obtain ⟨_, hr⟩ := hr
          cases k with
          | resume =>
            rcases hr with ⟨m, _, _, hr⟩ | ⟨_, _, hr⟩ | ⟨_, e, _, _, _, hr⟩
            · simp [Replied, Thread.isDead, hp] at hr
            · simp [Busy, Thread.isDead, hp] at hr
            · cases e <;> simp [Waits, Parked, Thread.isDead, hp] at hr
          | nat => simp [Active, Parked, Thread.isDead, hp] at hr
          | clone b => simp [Active, Parked, Thread.isDead, hp] at hr
      obtain ⟨⟨h1, h2, h3⟩, er⟩ := hch
      have h4 : th.toShadow.msg = none ∧ StartLog th a := by
        rcases h3 with ⟨e, _⟩ | ⟨e, ⟨a', e1, e2⟩ | ⟨e1, _⟩⟩ | ⟨_, ⟨_, e, _⟩ | ⟨e, _⟩⟩
        · rw [hp] at e; cases e
        · rw [hp] at e1; injection e1 with e1; subst e1; exact ⟨e, e2⟩
        · rw [hp] at e1; cases e1
        · rw [hp] at e; cases e
        · rw [hp] at e; cases e
      refine ⟨s.put t { th with pc := .waitStart a, toShadow := { th.toShadow with msg := some .startReq } },
        by simp [Thread.toW, Chan.send, h4.1, lift], ?_⟩
      refine shim_plain h ht ?_ rfl rfl rfl (by simp [hp]) (by simp [hp]) (by simp) ?_ (by simp [Thread.locks, hp]) (by simp [Thread.locks])
      · rw [er]
        refine ⟨h1, h2, .inr (.inr ⟨rfl, .inl ⟨a, rfl, ?_⟩⟩)⟩
        cases a with
        | main => exact h4.2
        | jump => exact h4.2
        | fork c ctx st => exact h4.2
      · intro b ch e
        rw [e] at er; simp [role] at er
    · simp at hs
  · simp at hs

theorem takeLock_inv {s : St} {t : Nat} {r : R St} (h : Inv s) (hs : step s (.takeLock t) = some r) : ∃ s', r = .ok s' ∧ Inv s' := by
  simp only [step] at hs
  split at hs
  · next th ht =>
    split at hs
    · next f hp =>
      split at hs
      · next hl =>
        injection hs with hs; subst hs
        obtain ⟨er, h1, h2, h3⟩ := busy_of (h.ts t th ht).1 (.inr (.inr (.inl ⟨f, hp⟩)))
        have hw := role_active er
        refine ⟨_, rfl, ?_⟩
        refine shim_lock h ht rfl rfl hw ?_ rfl rfl rfl (by simp [hp]) (by simp [hp]) (by simp) (by simp) (.inr ⟨rfl, rfl⟩) h.c
        have g := busy_sig h3 (.inl hp)
        exact .inr (.inl ⟨h1, h2, .inr (.inl ⟨f, .inr rfl, g⟩)⟩)
      · simp at hs
    · simp at hs
  · simp at hs

theorem localBegin_inv {s : St} {t : Nat} {r : R St} (h : Inv s) (hs : step s (.localBegin t) = some r) : ∃ s', r = .ok s' ∧ Inv s' := by
  simp only [step] at hs
  split at hs
  · next th ht =>
    split at hs
    · next hp =>
      split at hs
      · next hl =>
        injection hs with hs; subst hs
        obtain ⟨er, h1, h2, h3⟩ := busy_of (h.ts t th ht).1 (.inl hp)
        have hw := role_active er
        refine ⟨_, rfl, ?_⟩
        refine shim_lock h ht rfl rfl hw ?_ rfl rfl rfl (by simp [hp]) (by simp [hp]) (by simp) (by simp) (.inr ⟨rfl, rfl⟩) h.c
        have g := busy_app h3 (.inl hp)
        exact .inr (.inl ⟨h1, h2, .inl ⟨.inr rfl, g⟩⟩)
      · simp at hs
    · simp at hs
  · simp at hs

theorem clock_cont {s : St} {t : Nat} {k : Kont} (h : Inv s) (hw : s.w = .cont t k) : s.now ≤ s.shimT ∧ s.shimT ≤ max s.now s.maxT := by
  have := h.c; unfold ClockOk at this; rw [hw] at this; exact this

theorem localEnd_inv {s : St} {t lat maxCpu : Nat} {r : R St} (h : Inv s) (hs : step s (.localEnd t lat maxCpu) = some r) :
    ∃ s', r = .ok s' ∧ Inv s' := by
  simp only [step] at hs
  split at hs
  · next th ht =>
    split at hs
    · next hp =>
      obtain ⟨er, h1, h2, h3⟩ := busy_of (h.ts t th ht).1 (.inr (.inl hp))
      have hw := role_active er
      have hc := clock_cont h hw
      have hh := busy_app h3 (.inr hp)
      have hA : Active { th with pc := .app } .resume := .inr (.inl ⟨h1, h2, .inl ⟨.inl rfl, hh⟩⟩)
      split at hs
      · split at hs
        · next hle =>
          injection hs with hs; subst hs
          refine ⟨_, rfl, ?_⟩
          refine shim_lock h ht rfl rfl hw hA rfl rfl rfl (by simp [hp]) (by simp [hp]) (by simp) (by simp) (.inl ⟨rfl, rfl⟩) ?_
          unfold ClockOk
          show (match s.w with | .cont _ _ => _ | _ => _)
          rw [hw]
          show s.now ≤ s.shimT + (s.cpu + lat) ∧ s.shimT + (s.cpu + lat) ≤ max s.now s.maxT
          omega
        · injection hs with hs; subst hs
          obtain ⟨th', e1, e2, e3, e4, e5, e6⟩ := ask_ok (c := yieldCall) (ctx := false) h2 hh (by intro e; simp [isClone, yieldCall] at e) h1
          rw [e1]
          refine ⟨_, rfl, ?_⟩
          refine shim_lock h ht rfl rfl hw e2 e3 e4 e5 (by simp [hp]) (by simp [hp]) (by simp [e6]) (by simp)
            (.inl ⟨rfl, by simp [Thread.locks, e6]⟩) h.c
      · injection hs with hs; subst hs
        refine ⟨_, rfl, ?_⟩
        exact shim_lock h ht rfl rfl hw hA rfl rfl rfl (by simp [hp]) (by simp [hp]) (by simp) (by simp) (.inl ⟨rfl, rfl⟩) h.c
    · simp at hs
  · simp at hs

theorem sigHandler_inv {s : St} {t : Nat} {b : Bool} {r : R St} (h : Inv s) (hs : step s (.sigHandler t b) = some r) :
    ∃ s', r = .ok s' ∧ Inv s' := by
  simp only [step] at hs
  split at hs
  · next th ht =>
    split at hs
    · next f hp =>
      injection hs with hs; subst hs
      obtain ⟨er, h1, h2, h3⟩ := busy_of (h.ts t th ht).1 (.inr (.inr (.inr (.inl ⟨f, hp⟩))))
      have hw := role_active er
      obtain ⟨g1, g2, g3⟩ := busy_sig h3 (.inr hp)
      refine ⟨_, rfl, ?_⟩
      refine shim_lock h ht rfl rfl hw ?_ rfl rfl rfl (by simp [hp]) (by simp [hp]) (by simp) (by simp) (.inl ⟨rfl, rfl⟩) h.c
      refine .inr (.inl ⟨h1, h2, .inl ⟨.inl rfl, ?_, ?_⟩⟩)
      · show obsAll [] (th.log ++ [.handler b]) = _
        rw [obsAll_snoc g2]; rfl
      intro x hx
      cases hx with
      | head => exact g1
      | tail _ hx => exact g3 x hx
    · simp at hs
  · simp at hs

theorem sigFatal_inv {s : St} {t : Nat} {r : R St} (h : Inv s) (hs : step s (.sigFatal t) = some r) : ∃ s', r = .ok s' ∧ Inv s' := by
  simp only [step] at hs
  split at hs
  · next th ht =>
    split at hs
    · next f hp =>
      injection hs with hs; subst hs
      obtain ⟨er, h1, h2, h3⟩ := busy_of (h.ts t th ht).1 (.inr (.inr (.inr (.inl ⟨f, hp⟩))))
      have hw := role_active er
      obtain ⟨g1, g2, g3⟩ := busy_sig h3 (.inr hp)
      refine ⟨_, rfl, ?_⟩
      refine shim_lock h ht rfl rfl hw ?_ rfl rfl rfl (by simp [hp]) (by simp [hp]) (by simp) (by simp) (.inl ⟨rfl, rfl⟩) h.c
      exact .inr (.inl ⟨h1, h2, .inr (.inr (.inr (.inl ⟨rfl, _, g2⟩)))⟩)
    · simp at hs
  · simp at hs

theorem handlerRet_inv {s : St} {t : Nat} {r : R St} (h : Inv s) (hs : step s (.handlerRet t) = some r) : ∃ s', r = .ok s' ∧ Inv s' := by
  simp only [step] at hs
  split at hs
  · next th ht =>
    split at hs
    · next f fs hp hst =>
      injection hs with hs; subst hs
      obtain ⟨er, h1, h2, h3⟩ := busy_of (h.ts t th ht).1 (.inl hp)
      have hw := role_active er
      obtain ⟨g2, g3⟩ := busy_app h3 (.inl hp)
      have hr := (h.ts t th ht).1
      rw [er] at hr
      refine ⟨_, rfl, ?_⟩
      refine shim_plain h ht ?_ rfl rfl rfl (by simp [hp]) (by simp [hp]) (by simp) (fun b ch e => by rw [hw] at e; simp at e)
        (by simp [Thread.locks, hp]) (by simp [Thread.locks])
      rw [er]
      refine ⟨hr.1, .inr (.inl ⟨h1, h2, .inr (.inl ⟨f, .inl rfl, g3 f (by rw [hst]; simp), ?_, fun x hx => g3 x (by rw [hst]; simp [hx])⟩)⟩)⟩
      have : th.pend (ents th.stack) := g2
      rw [hst] at this; exact this
    · simp at hs
  · simp at hs

theorem jump_inv {s : St} {t n : Nat} {r : R St} (h : Inv s) (hs : step s (.jump t n) = some r) : ∃ s', r = .ok s' ∧ Inv s' := by
  simp only [step] at hs
  split at hs
  · next th ht =>
    split at hs
    · next hp =>
      injection hs with hs; subst hs
      obtain ⟨er, h1, h2, h3⟩ := busy_of (h.ts t th ht).1 (.inl hp)
      have hw := role_active er
      obtain ⟨g2, g3⟩ := busy_app h3 (.inl hp)
      have hr := (h.ts t th ht).1
      rw [er] at hr
      refine ⟨_, rfl, ?_⟩
      refine shim_plain h ht ?_ rfl rfl rfl (by simp [hp]) (by simp [hp]) (by simp [hp]) (fun b ch e => by rw [hw] at e; simp at e)
        (by simp [Thread.locks, hp]) (by simp [Thread.locks, hp])
      rw [er]
      refine ⟨hr.1, .inr (.inl ⟨h1, h2, .inl ⟨.inl hp, ?_, fun x hx => g3 x (List.mem_of_mem_drop hx)⟩⟩)⟩
      refine snoc_of (q := ents (th.stack.drop n)) (p := ents th.stack) g2 ?_
      simp only [obs, free_ents, if_true, ents_drop]
    · simp at hs
  · simp at hs

theorem sigDone_inv {s : St} {t : Nat} {r : R St} (h : Inv s) (hs : step s (.sigDone t) = some r) : ∃ s', r = .ok s' ∧ Inv s' := by
  simp only [step] at hs
  split at hs
  · next th ht =>
    split at hs
    · next f hp =>
      obtain ⟨er, h1, h2, h3⟩ := busy_of (h.ts t th ht).1 (.inr (.inr (.inr (.inl ⟨f, hp⟩))))
      have hw := role_active er
      obtain ⟨g1, g2, g3⟩ := busy_sig h3 (.inr hp)
      split at hs
      · next hc =>
        injection hs with hs; subst hs
        have e : ({ th with pc := .wait f.call f.ctx, log := th.log ++ [.again f.call] } : Thread).toW (.syscall f.call) =
            .ok { th with pc := .wait f.call f.ctx, log := th.log ++ [.again f.call],
                          toShadow := { th.toShadow with msg := some (.syscall f.call) } } := by
          simp [Thread.toW, Chan.send, h2]
        rw [e]
        refine ⟨_, rfl, ?_⟩
        refine shim_lock h ht rfl rfl hw ?_ rfl rfl rfl (by simp [hp]) (by simp [hp]) (by simp) (by simp) (.inl ⟨rfl, rfl⟩) h.c
        refine .inr (.inr ⟨h1, .syscall f.call, rfl, by simp, by simp, .inl ⟨f.ctx, rfl, g1, ?_, g3⟩⟩)
        refine snoc_of g2 ?_
        simp only [List.singleton_append, obs]
        rw [if_pos ⟨trivial, hc.1, hc.2.2, hc.2.1⟩]
      · injection hs with hs; subst hs
        refine ⟨_, rfl, ?_⟩
        refine shim_lock h ht rfl rfl hw ?_ rfl rfl rfl (by simp [hp]) (by simp [hp]) (by simp) (by simp) (.inl ⟨rfl, rfl⟩) h.c
        refine .inr (.inl ⟨h1, h2, .inl ⟨.inl rfl, ?_, g3⟩⟩)
        refine snoc_of g2 ?_
        simp only [List.singleton_append, obs]
        rw [if_pos ⟨trivial, trivial⟩]; rfl
    · simp at hs
  · simp at hs

theorem not_quiet_msg {th : Thread} {m : ToShim} (h : Quiet th) (hm : th.toShim.msg = some m) : th.pc = .unborn ∨ th.pc = .dead := by
  rcases h with ⟨_, h, _⟩ | ⟨_, _, h, _⟩ | ⟨_, h, _⟩
  · exact h
  · exact .inr h
  · rw [hm] at h; cases h

/-- The shim reads the answer. -/
theorem shimGot_ok {th : Thread} {ro : Role} {m : ToShim} {early : Bool} {r : R Thread} (h : RoleOk th ro) (hm : th.toShim.msg = some m)
    (hg : shimGot { th with toShim := { th.toShim with msg := none } } m early = some r) :
    ∃ th', r = .ok th' ∧ RoleOk th' ro ∧ th'.running = th.running ∧ th'.registered = th.registered ∧
      th'.toShadow.closed = th.toShadow.closed ∧ th.pc ≠ .unborn ∧ th.pc ≠ .dead ∧ th'.pc ≠ .unborn ∧ th.locks = false ∧ th'.locks = false ∧
      (∀ b ch, ro = .active (.clone b) → Link th ch b → Link th' ch b) := by
  have hnd : th.pc ≠ .dead := by intro e; simp [shimGot, e] at hg
  have hnb : th.pc ≠ .unborn := by intro e; simp [shimGot, e] at hg
  cases ro with
  | quiet => exact (not_quiet_msg h hm).elim (fun e => absurd e hnb) (fun e => absurd e hnd)
  | child => have := h.2.1; rw [hm] at this; cases this
  | leaving =>
    rcases h with h | h | ⟨hrun, e, c, ctx, hp, hx, hh⟩ | ⟨_, c, hp, _⟩
    · exact (not_quiet_msg h hm).elim (fun e => absurd e hnb) (fun e => absurd e hnd)
    · exact absurd h.1 hnd
    · rw [hm] at e; injection e with e; subst e
      simp only [shimGot, hp, Option.some.injEq] at hg; subst hg
      refine ⟨_, rfl, .inr (.inr (.inr ⟨hrun, c, rfl, hx, hh⟩)), rfl, rfl, rfl, hnb, hnd, by simp, by simp [Thread.locks, hp], rfl, ?_⟩
      intro b ch e; cases e
    · simp [shimGot, hp] at hg
  | active k =>
    obtain ⟨hrun, h⟩ := h
    cases k with
    | resume =>
      rcases h with ⟨m', e, hs, h⟩ | ⟨e, _⟩ | ⟨e, _⟩
      · rw [hm] at e; injection e with e; subst e
        rcases h with h | ⟨rfl, a, hp, hl⟩ | ⟨c, ctx, rv, rs, rfl, hp, hc, hh⟩ | ⟨c, ctx, rfl, hp, h1, h2, hh⟩
        · exact absurd h.1 hnd
        · simp only [shimGot, hp, Option.some.injEq] at hg
          cases a with
          | main =>
            simp only [started] at hg; subst hg
            refine ⟨_, rfl, ⟨hrun, .inr (.inl ⟨rfl, hs, .inl ⟨.inl rfl, hl⟩⟩)⟩, rfl, rfl, rfl, hnb, hnd, by simp, by simp [Thread.locks, hp], rfl, ?_⟩
            intro b ch e; cases e
          | jump =>
            simp only [started] at hg; subst hg
            refine ⟨_, rfl, ⟨hrun, .inr (.inl ⟨rfl, hs, .inl ⟨.inl rfl, hl⟩⟩)⟩, rfl, rfl, rfl, hnb, hnd, by simp, by simp [Thread.locks, hp], rfl, ?_⟩
            intro b ch e; cases e
          | fork c ctx st =>
            simp only [started, Thread.toW, Chan.send, hs] at hg; subst hg
            refine ⟨_, rfl, ⟨hrun, .inr (.inr ⟨rfl, .addRes 0, rfl, by simp, by simp, rfl, c, .inl ⟨ctx, rfl, hl.2.1, hl.1, hl.2.2⟩⟩)⟩, rfl, rfl, rfl,
              hnb, hnd, by simp, by simp [Thread.locks, hp], rfl, ?_⟩
            intro b ch e; cases e
        · simp only [shimGot, hp] at hg
          cases early with
          | true =>
            simp only [if_true, Option.some.injEq] at hg; subst hg
            refine ⟨_, rfl, ⟨hrun, .inr (.inl ⟨rfl, hs, .inl ⟨.inl rfl, ?_, hh.2⟩⟩)⟩, rfl, rfl, rfl, hnb, hnd, by simp, by simp [Thread.locks, hp], rfl, ?_⟩
            · refine snoc_of hh.1 ?_
              simp only [List.singleton_append, obs]
              rw [if_pos ⟨trivial, trivial⟩]; rfl
            · intro b ch e; cases e
          | false =>
            simp only [Bool.false_eq_true, if_false, Option.some.injEq] at hg; subst hg
            refine ⟨_, rfl, ⟨hrun, .inr (.inl ⟨rfl, hs, .inr (.inl ⟨_, .inl rfl, hc, hh⟩)⟩)⟩, rfl, rfl, rfl, hnb, hnd, by simp, by simp [Thread.locks, hp], rfl, ?_⟩
            intro b ch e; cases e
        · simp only [shimGot, hp, Option.some.injEq] at hg; subst hg
          refine ⟨_, rfl, ⟨hrun, .inr (.inl ⟨rfl, hs, .inr (.inr (.inl ⟨c, rfl, h1, h2, hh⟩))⟩)⟩, rfl, rfl, rfl, hnb, hnd, by simp, by simp [Thread.locks, hp], rfl, ?_⟩
          intro b ch e; cases e
      · rw [hm] at e; cases e
      · rw [hm] at e; cases e
    | nat =>
      obtain ⟨c, hcur, ⟨c', e, hs, h1, h2, h⟩ | ⟨e, _⟩ | ⟨e, _⟩⟩ := h
      · rw [hm] at e; injection e with e; subst e
        rcases h with ⟨ctx, hp, hc, hh⟩ | ⟨h, _⟩
        · simp only [shimGot, hp, Option.some.injEq] at hg; subst hg
          refine ⟨_, rfl, ⟨hrun, c, hcur, .inr (.inl ⟨rfl, hs, .inl ⟨ctx, c', rfl, h1, h2, hc, hh⟩⟩)⟩, rfl, rfl, rfl, hnb, hnd, by simp,
            by simp [Thread.locks, hp], rfl, ?_⟩
          intro b ch e; cases e
        · exact absurd h hnd
      · rw [hm] at e; cases e
      · rw [hm] at e; cases e
    | clone b =>
      obtain ⟨c, hcur, hic, ⟨thr, stk, e, hs, h⟩ | ⟨e, _⟩ | ⟨e, _⟩⟩ := h
      · rw [hm] at e; injection e with e; subst e
        rcases h with ⟨ctx, hp, hc, hh⟩ | ⟨h, _⟩
        · have ht := hc hic
          subst ht
          simp only [shimGot, hp, if_true, Option.some.injEq] at hg; subst hg
          refine ⟨_, rfl, ⟨hrun, c, hcur, hic, .inr (.inl ⟨rfl, hs, .inl ⟨true, .inl ⟨thr, stk, rfl⟩, hc, hh⟩⟩)⟩, rfl, rfl, rfl, hnb, hnd, by simp,
            by simp [Thread.locks, hp], rfl, ?_⟩
          intro b' ch e hl
          injection e with e; injection e with e; subst e
          refine ⟨fun _ => hl.before (.inl ⟨thr, stk, hm⟩), ?_, ?_⟩
          · rintro (⟨_, _, _, e, _⟩ | ⟨_, _, e⟩)
            · cases e
            · rw [hs] at e; cases e
          · rintro (⟨_, _, _, e, _⟩ | ⟨_, _, e⟩)
            · cases e
            · rw [hs] at e; cases e
        · exact absurd h hnd
      · rw [hm] at e; cases e
      · rw [hm] at e; cases e

theorem shimRecv_inv {s : St} {t : Nat} {early : Bool} {r : R St} (h : Inv s) (hs : step s (.shimRecv t early) = some r) :
    ∃ s', r = .ok s' ∧ Inv s' := by
  simp only [step] at hs
  split at hs
  · next th ht =>
    split at hs
    · next m hm =>
      split at hs
      · next r' hr' =>
        injection hs with hs; subst hs
        obtain ⟨th', rfl, h1, h2, h3, h4, h5, h6, h7, h8, h9, h10⟩ := shimGot_ok (h.ts t th ht).1 hm hr'
        refine ⟨_, rfl, shim_plain h ht h1 h2 h3 h4 h5 h6 h7 ?_ h8 h9⟩
        intro b ch e
        exact h10 b ch (by rw [e]; simp [role])
      · simp at hs
    · simp at hs
  · simp at hs

/-- Who makes native calls for Shadow, or clones. -/
theorem special_of {th : Thread} {r : Role} (h : RoleOk th r) :
    (∀ c, th.pc = .natApp c → (r = .active .resume ∧ th.toShim.msg = none ∧ th.toShadow.msg = none ∧ c.num ≠ sysClone ∧ c.num ≠ sysExit ∧
        th.holds [(c, .native)]) ∨ (r = .leaving ∧ c.num = sysExit ∧ th.holds [(c, .native)])) ∧
    (∀ c ctx c', th.pc = .natShadow c ctx c' → r = .active .nat ∧ th.cur = .syscall c ∧ th.toShim.msg = none ∧ th.toShadow.msg = none ∧
        c'.num ≠ sysExit ∧ c'.num ≠ sysClone ∧ CtxOk c ctx ∧ th.holds [(c, .asked)]) ∧
    (∀ c ctx thr stk b, th.pc = .cloning c ctx thr stk b → r = .active (.clone b) ∧ th.cur = .syscall c ∧ isClone c.num = true ∧
        th.toShim.msg = none ∧ th.toShadow.msg = none ∧ CtxOk c ctx ∧ th.holds [(c, .asked)]) ∧
    (∀ c ctx x, th.pc = .cloned c ctx x → ∃ b, r = .active (.clone b) ∧ th.cur = .syscall c ∧ isClone c.num = true ∧
        th.toShim.msg = none ∧ th.toShadow.msg = none ∧ CtxOk c ctx ∧ x ≠ 0 ∧ th.holds [(c, .asked)]) := by
  have q : Quiet th → th.pc = .unborn ∨ th.pc = .dead ∨ (∃ a, th.pc = .waitStart a) ∨ ∃ c ctx, th.pc = .wait c ctx := by
    rintro (⟨_, h, _⟩ | ⟨_, _, h, _⟩ | ⟨_, _, _, h⟩)
    · rcases h with h | h <;> simp [h]
    · simp [h]
    · generalize th.cur = e at h
      cases e with
      | startReq => rcases h with ⟨a, h, _⟩ | ⟨h, _⟩ <;> simp [h]
      | death => simp [h.1]
      | syscall c => rcases h with ⟨a, h, _⟩ | ⟨h, _⟩ <;> simp [h]
      | complete _ _ => exact h.elim
      | addRes r => obtain ⟨_, c, h⟩ := h; rcases h with ⟨a, h, _⟩ | ⟨h, _⟩ <;> simp [h]
  have pk : ∀ c, Parked th c → th.pc = .dead ∨ ∃ c ctx, th.pc = .wait c ctx := by
    rintro c (⟨a, h, _⟩ | ⟨h, _⟩) <;> simp [h]
  have fin : (th.pc = .unborn ∨ th.pc = .dead ∨ (∃ a, th.pc = .starting a) ∨ (∃ a, th.pc = .waitStart a) ∨ ∃ c ctx, th.pc = .wait c ctx) →
      (∀ c, th.pc ≠ .natApp c) ∧ (∀ c ctx c', th.pc ≠ .natShadow c ctx c') ∧ (∀ c ctx thr stk b, th.pc ≠ .cloning c ctx thr stk b) ∧
      (∀ c ctx x, th.pc ≠ .cloned c ctx x) := by
    rintro (h | h | ⟨_, h⟩ | ⟨_, h⟩ | ⟨_, _, h⟩) <;> simp [h]
  have bad : (th.pc = .unborn ∨ th.pc = .dead ∨ (∃ a, th.pc = .starting a) ∨ (∃ a, th.pc = .waitStart a) ∨ ∃ c ctx, th.pc = .wait c ctx) → _ := fun hx =>
    (⟨fun c e => absurd e ((fin hx).1 c), fun c ctx c' e => absurd e ((fin hx).2.1 c ctx c'),
     fun c ctx thr stk b e => absurd e ((fin hx).2.2.1 c ctx thr stk b), fun c ctx x e => absurd e ((fin hx).2.2.2 c ctx x)⟩ :
    (∀ c, th.pc = .natApp c → (r = .active .resume ∧ th.toShim.msg = none ∧ th.toShadow.msg = none ∧ c.num ≠ sysClone ∧ c.num ≠ sysExit ∧
        th.holds [(c, .native)]) ∨ (r = .leaving ∧ c.num = sysExit ∧ th.holds [(c, .native)])) ∧
    (∀ c ctx c', th.pc = .natShadow c ctx c' → r = .active .nat ∧ th.cur = .syscall c ∧ th.toShim.msg = none ∧ th.toShadow.msg = none ∧
        c'.num ≠ sysExit ∧ c'.num ≠ sysClone ∧ CtxOk c ctx ∧ th.holds [(c, .asked)]) ∧
    (∀ c ctx thr stk b, th.pc = .cloning c ctx thr stk b → r = .active (.clone b) ∧ th.cur = .syscall c ∧ isClone c.num = true ∧
        th.toShim.msg = none ∧ th.toShadow.msg = none ∧ CtxOk c ctx ∧ th.holds [(c, .asked)]) ∧
    (∀ c ctx x, th.pc = .cloned c ctx x → ∃ b, r = .active (.clone b) ∧ th.cur = .syscall c ∧ isClone c.num = true ∧
        th.toShim.msg = none ∧ th.toShadow.msg = none ∧ CtxOk c ctx ∧ x ≠ 0 ∧ th.holds [(c, .asked)]))
  have quiet : Quiet th → _ := fun hq => bad ((q hq).elim .inl fun h => h.elim (fun h => .inr (.inl h)) fun h => .inr (.inr (.inr h)))
  have parked : ∀ c, Parked th c → _ := fun c hq => bad ((pk c hq).elim (fun h => .inr (.inl h)) fun h => .inr (.inr (.inr (.inr h))))
  cases r with
  | quiet => exact quiet h
  | child =>
    obtain ⟨_, _, h⟩ := h
    rcases h with ⟨h, _⟩ | ⟨_, ⟨a, h, _⟩ | h⟩ | ⟨_, ⟨a, h, _⟩ | h⟩
    · exact bad (by simp [h])
    · exact bad (by simp [h])
    · exact bad (by simp [h.1])
    · exact bad (by simp [h])
    · exact bad (by simp [h.1])
  | leaving =>
    rcases h with h | h | ⟨_, _, _, _, h, _⟩ | ⟨_, c, h, h1, h2⟩
    · exact quiet h
    · exact bad (by simp [h.1])
    · exact bad (by simp [h])
    · refine ⟨fun c' e => .inr ?_, fun _ _ _ e => ?_, fun _ _ _ _ _ e => ?_, fun _ _ _ e => ?_⟩
      · rw [h] at e; injection e with e; subst e; exact ⟨rfl, h1, h2⟩
      all_goals rw [h] at e; cases e
  | active k =>
    obtain ⟨_, h⟩ := h
    cases k with
    | resume =>
      rcases h with ⟨m, _, _, h⟩ | ⟨m1, m2, h⟩ | ⟨_, e, _, _, _, h⟩
      · rcases h with h | ⟨_, _, h, _⟩ | ⟨_, _, _, _, _, h, _⟩ | ⟨_, _, _, h, _⟩
        · exact bad (by simp [h.1])
        · exact bad (by simp [h])
        · exact bad (by simp [h])
        · exact bad (by simp [h])
      · rcases h with ⟨h | h, _⟩ | ⟨_, h | h, _⟩ | ⟨c, h, h1, h2, h3⟩ | ⟨h, _⟩ | h
        · simp [h]
        · simp [h]
        · simp [h]
        · simp [h]
        · refine ⟨fun c' e => .inl ?_, fun _ _ _ e => ?_, fun _ _ _ _ _ e => ?_, fun _ _ _ e => ?_⟩
          · rw [h] at e; injection e with e; subst e; exact ⟨rfl, m1, m2, h1, h2, h3⟩
          all_goals rw [h] at e; cases e
        · simp [h]
        · exact bad (by simp [h.1])
      · cases e with
        | startReq => rcases h with ⟨a, h, _⟩ | h
                      · exact bad (by simp [h])
                      · exact bad (by simp [h.1])
        | death => exact bad (by simp [h.1])
        | syscall c => exact parked c h
        | complete _ _ => exact h.elim
        | addRes r => obtain ⟨_, c, h⟩ := h; exact parked c h
    | nat =>
      obtain ⟨c, hcur, h⟩ := h
      rcases h with ⟨_, _, _, _, _, h⟩ | ⟨m1, m2, ⟨ctx, c', h, h1, h2, h3, h4⟩ | h⟩ | ⟨_, _, h⟩
      · exact parked c h
      · refine ⟨fun c' e => ?_, fun _ _ _ e => ?_, fun _ _ _ _ _ e => ?_, fun _ _ _ e => ?_⟩
        · rw [h] at e; cases e
        · rw [h] at e; injection e with e1 e2 e3; subst e1; subst e2; subst e3; exact ⟨rfl, hcur, m1, m2, h1, h2, h3, h4⟩
        all_goals rw [h] at e; cases e
      · exact bad (by simp [h.1])
      · exact parked c h
    | clone b =>
      obtain ⟨c, hcur, hic, h⟩ := h
      rcases h with ⟨_, _, _, _, h⟩ | ⟨m1, m2, ⟨ctx, ⟨thr, stk, h⟩ | ⟨x, hx, h⟩, h1, h2⟩ | h⟩ | ⟨_, _, h⟩
      · exact parked c h
      · refine ⟨fun c' e => ?_, fun _ _ _ e => ?_, fun _ _ _ _ _ e => ?_, fun _ _ _ e => ?_⟩
        · rw [h] at e; cases e
        · rw [h] at e; cases e
        · rw [h] at e; injection e with e1 e2 e3 e4 e5; subst e1; subst e2; subst e3; subst e4; subst e5; exact ⟨rfl, hcur, hic, m1, m2, h1, h2⟩
        · rw [h] at e; cases e
      · refine ⟨fun c' e => ?_, fun _ _ _ e => ?_, fun _ _ _ _ _ e => ?_, fun _ _ _ e => ?_⟩
        · rw [h] at e; cases e
        · rw [h] at e; cases e
        · rw [h] at e; cases e
        · rw [h] at e; injection e with e1 e2 e3; subst e1; subst e2; subst e3; exact ⟨b, rfl, hcur, hic, m1, m2, h1, hx, h2⟩
      · exact bad (by simp [h.1])
      · exact parked c h

theorem natDone_inv {s : St} {t : Nat} {rv : Int} {r : R St} (h : Inv s) (hs : step s (.natDone t rv) = some r) : ∃ s', r = .ok s' ∧ Inv s' := by
  simp only [step] at hs
  split at hs
  · next th ht =>
    have sp := special_of (h.ts t th ht).1
    have hrole := (h.ts t th ht).1
    split at hs
    · next c hp =>
      rcases sp.1 c hp with ⟨er, m1, m2, h1, h2, hh⟩ | ⟨er, he, hh⟩
      · have hw := role_active er
        rw [if_neg h1, if_neg h2] at hs
        injection hs with hs; subst hs
        refine ⟨_, rfl, shim_plain h ht ?_ rfl rfl rfl (by simp [hp]) (by simp [hp]) (by simp) (fun b ch e => by rw [hw] at e; simp at e)
          (by simp [Thread.locks, hp]) rfl⟩
        rw [er] at hrole ⊢
        refine ⟨hrole.1, .inr (.inl ⟨m1, m2, .inl ⟨.inl rfl, ?_, hh.2⟩⟩)⟩
        refine snoc_of hh.1 ?_
        simp only [List.singleton_append, obs, if_true]; rfl
      · rw [if_neg (by rw [he]; decide), if_pos he] at hs
        injection hs with hs; subst hs
        refine ⟨_, rfl, shim_plain h ht ?_ rfl rfl rfl (by simp [hp]) (by simp [hp]) (by simp) (fun b ch e => ?_)
          (by simp [Thread.locks, hp]) rfl⟩
        · rw [er]; exact .inr (.inl ⟨rfl, _, hh.1⟩)
        · rw [e] at er; simp [role] at er
    · next c ctx c' hp =>
      obtain ⟨er, hcur, m1, m2, h1, h2, hc, hh⟩ := sp.2.1 c ctx c' hp
      have hw := role_active er
      rw [if_neg h2, if_neg h1] at hs
      injection hs with hs; subst hs
      refine ⟨s.put t { th with pc := .wait c ctx, toShadow := { th.toShadow with msg := some (.complete rv false) } },
        by simp [Thread.toW, Chan.send, m2, lift], ?_⟩
      refine shim_plain h ht ?_ rfl rfl rfl (by simp [hp]) (by simp [hp]) (by simp) (fun b ch e => by rw [hw] at e; simp at e)
        (by simp [Thread.locks, hp]) rfl
      rw [er] at hrole ⊢
      exact ⟨hrole.1, c, hcur, .inr (.inr ⟨m1, ⟨rv, false, rfl⟩, .inl ⟨ctx, rfl, hc, hh⟩⟩)⟩
    · simp at hs
  · simp at hs

theorem cloneSend_inv {s : St} {t : Nat} {r : R St} (h : Inv s) (hs : step s (.cloneSend t) = some r) : ∃ s', r = .ok s' ∧ Inv s' := by
  simp only [step] at hs
  split at hs
  · next th ht =>
    have sp := special_of (h.ts t th ht).1
    have hrole := (h.ts t th ht).1
    split at hs
    · next c ctx x hp =>
      obtain ⟨b, er, hcur, hic, m1, m2, hc, hx, hh⟩ := sp.2.2.2 c ctx x hp
      have hw := role_active er
      injection hs with hs; subst hs
      refine ⟨s.put t { th with pc := .wait c ctx, toShadow := { th.toShadow with msg := some (.addRes x) } },
        by simp [Thread.toW, Chan.send, m2, lift], ?_⟩
      refine shim_plain h ht ?_ rfl rfl rfl (by simp [hp]) (by simp [hp]) (by simp) (fun b' ch e hl => ?_) (by simp [Thread.locks, hp]) rfl
      · rw [er] at hrole ⊢
        exact ⟨hrole.1, c, hcur, hic, .inr (.inr ⟨m1, ⟨x, hx, rfl⟩, .inl ⟨ctx, rfl, hc, hh⟩⟩)⟩
      · refine ⟨?_, ?_, ?_⟩
        · rintro (⟨_, _, e⟩ | ⟨_, _, _, _, e⟩)
          · have : th.toShim.msg = _ := e; rw [m1] at this; cases this
          · cases e
        · rintro (⟨_, _, _, e, _⟩ | ⟨y, hy, e⟩)
          · cases e
          · injection e with e; injection e with e; subst e; exact hl.after (.inl ⟨_, _, _, hp, hy⟩)
        · rintro (⟨_, _, _, e, _⟩ | ⟨y, hy, e⟩)
          · cases e
          · injection e with e; injection e with e; subst e; exact hl.failed (.inl ⟨_, _, _, hp, hy⟩)
    · simp at hs
  · simp at hs

theorem cloneDo_inv {s : St} {t : Nat} {x : Int} {r : R St} (h : Inv s) (hx : x ≠ 0) (hs : step s (.cloneDo t x) = some r) :
    ∃ s', r = .ok s' ∧ Inv s' := by
  simp only [step] at hs
  split at hs
  · next th ht =>
    have sp := special_of (h.ts t th ht).1
    have hrole := (h.ts t th ht).1
    split at hs
    · next c ctx thr stk b hp =>
      obtain ⟨er, hcur, hic, m1, m2, hc, hh⟩ := sp.2.2.1 c ctx thr stk b hp
      have hw := role_active er
      split at hs
      · next hneg =>
        injection hs with hs; subst hs
        refine ⟨_, rfl, shim_plain h ht ?_ rfl rfl rfl (by simp [hp]) (by simp [hp]) (by simp) (fun b' ch e hl => ?_)
          (by simp [Thread.locks, hp]) rfl⟩
        · rw [er] at hrole ⊢
          exact ⟨hrole.1, c, hcur, hic, .inr (.inl ⟨m1, m2, .inl ⟨ctx, .inr ⟨x, hx, rfl⟩, hc, hh⟩⟩)⟩
        · rw [hw] at e; injection e with _ e; injection e with e; subst e
          refine ⟨?_, ?_, fun _ => hl.before (.inr ⟨_, _, _, _, hp⟩)⟩
          · rintro (⟨_, _, e⟩ | ⟨_, _, _, _, e⟩)
            · have : th.toShim.msg = _ := e; rw [m1] at this; cases this
            · cases e
          · rintro (⟨_, _, y, e, hy⟩ | ⟨y, hy, e⟩)
            · injection e with _ _ e; omega
            · have : th.toShadow.msg = _ := e; rw [m2] at this; cases this
      · next hneg =>
        have w0 := h.w
        unfold WOk at w0; rw [hw] at w0
        obtain ⟨th0, ht0, hne, ch, hch, g1, g2, g3⟩ := w0
        rw [ht] at ht0; injection ht0 with ht0; subst ht0
        rw [hch] at hs
        injection hs with hs; subst hs
        have hu : ch.pc = .unborn := g3.before (.inr ⟨_, _, _, _, hp⟩)
        have hcr := (h.ts b ch hch).1
        have rb : role s.w b = .child := by rw [hw]; simp [role, hne]
        rw [rb] at hcr
        have hch0 : ch.running = false ∧ ch.toShim.msg = none ∧ ch.toShadow.msg = none ∧ ch.holds [] := by
          obtain ⟨c1, c2, ⟨_, c4, c5⟩ | ⟨_, ⟨_, e, _⟩ | e⟩ | ⟨_, ⟨_, e, _⟩ | e⟩⟩ := hcr
          · exact ⟨c1, c2, c4, c5⟩
          · rw [hu] at e; cases e
          · have e := e.1; rw [hu] at e; cases e
          · rw [hu] at e; cases e
          · have e := e.1; rw [hu] at e; cases e
        obtain ⟨c1, c2, c4, c5⟩ := hch0
        have hnb : Child (newborn th ch c ctx thr stk x) ∧ (newborn th ch c ctx thr stk x).registered = false ∧
            (newborn th ch c ctx thr stk x).toShadow.closed = false ∧ (newborn th ch c ctx thr stk x).pc ≠ .unborn := by
          cases thr with
          | true => exact ⟨⟨c1, c2, .inr (.inl ⟨c4, .inl ⟨.jump, rfl, c5⟩⟩)⟩, g1, g2, by simp [newborn]⟩
          | false =>
            cases stk with
            | true => exact ⟨⟨c1, c2, .inr (.inl ⟨c4, .inl ⟨.jump, rfl, c5⟩⟩)⟩, g1, g2, by simp [newborn]⟩
            | false =>
              refine ⟨⟨c1, c2, .inr (.inl ⟨c4, .inl ⟨.fork c ctx th.stack, rfl, ?_, hc, hh.2⟩⟩)⟩, g1, g2, by simp [newborn]⟩
              refine snoc_of hh.1 ?_
              simp only [List.singleton_append, obs]
        refine ⟨_, rfl, ?_, ?_, ?_, h.c⟩
        · show ∀ i y, (((s.ts.set t _).set b _))[i]? = some y → TOk y (role s.w i)
          refine threads_set (a := ch) (by rw [get_set_ne hne]; exact hch) ?_ ?_
          · intro i y hi hy
            refine threads_set (P := fun i y => i ≠ b → TOk y (role s.w i)) ht (fun j z _ hz _ => h.ts j z hz) (fun _ => ?_) i y hy hi
            refine ⟨?_, ?_⟩
            · rw [er] at hrole ⊢
              exact ⟨hrole.1, c, hcur, hic, .inr (.inl ⟨m1, m2, .inl ⟨ctx, .inr ⟨x, hx, rfl⟩, hc, hh⟩⟩)⟩
            · intro e; have := (h.ts t th ht).2 e; rw [hp] at this; cases this
          · rw [rb]; exact ⟨hnb.1, by rw [hnb.2.2.1]; intro e; cases e⟩
        · unfold WOk
          show (match s.w with | .idle => _ | .handling _ => _ | .cont _ _ => _ | .startMain _ => _ | .startChild _ _ _ => _ | .exitWait _ => _)
          rw [hw]
          refine ⟨{ th with pc := .cloned c ctx x }, ?_, hne, newborn th ch c ctx thr stk x, ?_, hnb.2.1, hnb.2.2.1, ?_⟩
          · show ((s.ts.set t _).set b _)[t]? = _
            rw [get_set_ne (fun e => hne e.symm)]; exact get_set ht
          · show ((s.ts.set t _).set b _)[b]? = _
            exact get_set (a := ch) (by rw [get_set_ne hne]; exact hch)
          · refine ⟨?_, fun _ => hnb.2.2.2, ?_⟩
            · rintro (⟨_, _, e⟩ | ⟨_, _, _, _, e⟩)
              · have : th.toShim.msg = _ := e; rw [m1] at this; cases this
              · cases e
            · rintro (⟨_, _, y, e, hy⟩ | ⟨y, hy, e⟩)
              · injection e with _ _ e; omega
              · have : th.toShadow.msg = _ := e; rw [m2] at this; cases this
        · have l0 := h.l
          unfold LOk at l0 ⊢
          rw [hw] at l0
          show (match s.w with | .cont _ _ => _ | _ => _)
          rw [hw]
          obtain ⟨y, hy, hl⟩ := l0
          rw [ht] at hy; injection hy with hy; subst hy
          refine ⟨{ th with pc := .cloned c ctx x }, ?_, ?_⟩
          · show ((s.ts.set t _).set b _)[t]? = _
            rw [get_set_ne (fun e => hne e.symm)]; exact get_set ht
          · rcases hl with ⟨a, _⟩ | ⟨_, a | a⟩
            · exact .inl ⟨a, rfl⟩
            · simp [Thread.locks, hp] at a
            · rw [hp] at a; cases a
    · simp at hs
  · simp at hs

theorem holds_dead {th : Thread} {p : Pending} (h : th.holds p) : ∃ q, ({ th with pc := .dead } : Thread).pend q := ⟨_, h.1⟩

theorem parked_dead {th : Thread} {c : Call} (h : Parked th c) : Parked { th with pc := .dead } c := by
  rcases h with ⟨_, _, _, h⟩ | ⟨_, h⟩
  · exact .inr ⟨rfl, _, h.1⟩
  · exact .inr ⟨rfl, h⟩

theorem startLog_dead {th : Thread} {a : After} (h : StartLog th a) : ({ th with pc := .dead } : Thread).isDead := by
  cases a with
  | main => exact ⟨rfl, _, h.1⟩
  | jump => exact ⟨rfl, _, h.1⟩
  | fork c ctx st => exact ⟨rfl, _, h.1⟩

theorem waits_dead {th : Thread} {e : ToShadow} (h : Waits th e) : Waits { th with pc := .dead } e := by
  cases e with
  | startReq => rcases h with ⟨a, _, h⟩ | ⟨_, h⟩
                · exact .inr (startLog_dead h)
                · exact .inr ⟨rfl, h⟩
  | death => exact ⟨rfl, h.2⟩
  | syscall c => exact parked_dead h
  | complete _ _ => exact h
  | addRes r => obtain ⟨h1, c, h2⟩ := h; exact ⟨h1, c, parked_dead h2⟩

theorem quiet_dead {th : Thread} (h : Quiet th) : Quiet { th with pc := .dead } := by
  rcases h with ⟨h1, _, h2⟩ | ⟨h1, h2, _, h3⟩ | ⟨h1, h2, h3, h4⟩
  · exact .inl ⟨h1, .inr rfl, h2⟩
  · exact .inr (.inl ⟨h1, h2, rfl, h3⟩)
  · exact .inr (.inr ⟨h1, h2, h3, waits_dead h4⟩)

/-- A thread may die at any time. -/
theorem role_dead {th : Thread} {r : Role} (h : RoleOk th r) (hb : th.pc ≠ .unborn) : RoleOk { th with pc := .dead } r := by
  cases r with
  | quiet => exact quiet_dead h
  | child =>
    obtain ⟨h1, h2, ⟨e, _⟩ | ⟨e, ⟨a, _, h⟩ | h⟩ | ⟨e, h⟩⟩ := h
    · exact absurd e hb
    · exact ⟨h1, h2, .inr (.inl ⟨e, .inr (startLog_dead h)⟩)⟩
    · exact ⟨h1, h2, .inr (.inl ⟨e, .inr ⟨rfl, h.2⟩⟩)⟩
    · exact ⟨h1, h2, .inr (.inr ⟨e, waits_dead h⟩)⟩
  | leaving =>
    rcases h with h | h | ⟨_, _, c, ctx, _, _, h⟩ | ⟨_, c, _, _, h⟩
    · exact .inl (quiet_dead h)
    · exact .inr (.inl ⟨rfl, h.2⟩)
    · exact .inr (.inl ⟨rfl, _, h.1⟩)
    · exact .inr (.inl ⟨rfl, _, h.1⟩)
  | active k =>
    obtain ⟨hr, h⟩ := h
    refine ⟨hr, ?_⟩
    cases k with
    | resume =>
      rcases h with ⟨m, h1, h2, h⟩ | ⟨h1, h2, h⟩ | ⟨h1, e, h2, h3, h4, h⟩
      · refine .inl ⟨m, h1, h2, .inl ?_⟩
        rcases h with h | ⟨_, a, _, h⟩ | ⟨_, _, _, _, _, _, _, h⟩ | ⟨_, _, _, _, _, _, h⟩
        · exact ⟨rfl, h.2⟩
        · exact startLog_dead h
        · exact ⟨rfl, _, h.1⟩
        · exact ⟨rfl, _, h.1⟩
      · refine .inr (.inl ⟨h1, h2, .inr (.inr (.inr (.inr ?_)))⟩)
        rcases h with ⟨_, h⟩ | ⟨_, _, _, h⟩ | ⟨_, _, _, _, h⟩ | ⟨_, h⟩ | h
        · exact ⟨rfl, _, h.1⟩
        · exact ⟨rfl, _, h.1⟩
        · exact ⟨rfl, _, h.1⟩
        · exact ⟨rfl, h⟩
        · exact ⟨rfl, h.2⟩
      · exact .inr (.inr ⟨h1, e, h2, h3, h4, waits_dead h⟩)
    | nat =>
      obtain ⟨c, hc, ⟨c', a1, a2, a3, a4, h⟩ | ⟨a1, a2, h⟩ | ⟨a1, a2, h⟩⟩ := h
      · exact ⟨c, hc, .inl ⟨c', a1, a2, a3, a4, parked_dead h⟩⟩
      · refine ⟨c, hc, .inr (.inl ⟨a1, a2, .inr ?_⟩)⟩
        rcases h with ⟨_, _, _, _, _, _, h⟩ | h
        · exact ⟨rfl, _, h.1⟩
        · exact ⟨rfl, h.2⟩
      · exact ⟨c, hc, .inr (.inr ⟨a1, a2, parked_dead h⟩)⟩
    | clone b =>
      obtain ⟨c, hc, hi, ⟨thr, stk, a1, a2, h⟩ | ⟨a1, a2, h⟩ | ⟨a1, a2, h⟩⟩ := h
      · exact ⟨c, hc, hi, .inl ⟨thr, stk, a1, a2, parked_dead h⟩⟩
      · refine ⟨c, hc, hi, .inr (.inl ⟨a1, a2, .inr ?_⟩)⟩
        rcases h with ⟨_, _, _, h⟩ | h
        · exact ⟨rfl, _, h.1⟩
        · exact ⟨rfl, h.2⟩
      · exact ⟨c, hc, hi, .inr (.inr ⟨a1, a2, parked_dead h⟩)⟩

/-- All threads change by `f`, in ways that a death or the watcher may cause. -/
theorem map_inv {s : St} (f : Thread → Thread) (h : Inv s) (hk : ∀ th r, TOk th r → TOk (f th) r)
    (hrun : ∀ th, (f th).running = th.running) (hreg : ∀ th, (f th).registered = th.registered)
    (hm : ∀ th, (f th).toShim = th.toShim ∧ (f th).toShadow.msg = th.toShadow.msg)
    (hcl : ∀ th, th.registered = false → (f th).toShadow.closed = th.toShadow.closed)
    (hpc : ∀ th, (f th).pc = th.pc ∨ (th.pc ≠ .unborn ∧ (f th).pc = .dead)) : Inv { s with ts := s.ts.map f } := by
  have get : ∀ i, (s.ts.map f)[i]? = (s.ts[i]?).map f := fun i => List.getElem?_map
  have hub : ∀ th, (f th).pc = .unborn ↔ th.pc = .unborn := by
    intro th
    rcases hpc th with e | ⟨e1, e2⟩
    · rw [e]
    · rw [e2]; simp [e1]
  have get' : ∀ {i th}, s.ts[i]? = some th → (s.ts.map f)[i]? = some (f th) := fun {i th} e => by rw [get, e]; rfl
  refine ⟨?_, ?_, ?_, h.c⟩
  · intro i th hi
    change (s.ts.map f)[i]? = some th at hi
    rw [get] at hi
    obtain ⟨x, hx, rfl⟩ := Option.map_eq_some_iff.1 hi
    exact hk x _ (h.ts i x hx)
  · have w0 := h.w
    unfold WOk at w0 ⊢
    show (match s.w with | .idle => _ | .handling _ => _ | .cont _ _ => _ | .startMain _ => _ | .startChild _ _ _ => _ | .exitWait _ => _)
    cases e : s.w with
    | idle => trivial
    | handling u => rw [e] at w0; obtain ⟨x, hx, hr⟩ := w0; exact ⟨f x, get' hx, by rw [hrun]; exact hr⟩
    | startMain u => rw [e] at w0; obtain ⟨x, hx, hr, h2⟩ := w0; exact ⟨f x, get' hx, fun c => hr ((hub x).1 c), by rw [hreg]; exact h2⟩
    | exitWait u => rw [e] at w0; simpa using w0
    | startChild u b r =>
      rw [e] at w0
      obtain ⟨hne, ⟨x, hx, hr⟩, ch, hch, h1, h2, h3⟩ := w0
      exact ⟨hne, ⟨f x, get' hx, by rw [hrun]; exact hr⟩, f ch, get' hch, by rw [hreg]; exact h1, by rw [hcl ch h1]; exact h2,
        fun c => h3 ((hub ch).1 c)⟩
    | cont u k =>
      rw [e] at w0
      obtain ⟨x, hx, hr⟩ := w0
      refine ⟨f x, get' hx, ?_⟩
      cases k with
      | resume => trivial
      | nat => trivial
      | clone b =>
        obtain ⟨hne, ch, hch, h1, h2, h3⟩ := hr
        refine ⟨hne, f ch, get' hch, by rw [hreg]; exact h1, by rw [hcl ch h1]; exact h2, ?_⟩
        have hpc' : ∀ p, p ≠ .dead → (f x).pc = p → x.pc = p := by
          intro p hp he
          rcases hpc x with e | ⟨_, e⟩
          · rw [← e]; exact he
          · rw [e] at he; exact absurd he.symm hp
        refine ⟨?_, ?_, ?_⟩
        · intro hp
          refine (hub ch).2 (h3.before ?_)
          rcases hp with ⟨a, b', e⟩ | ⟨a, b', c, d, e⟩
          · exact .inl ⟨a, b', by rw [← (hm x).1]; exact e⟩
          · exact .inr ⟨a, b', c, d, hpc' _ (by simp) e⟩
        · intro hp c
          refine h3.after ?_ ((hub ch).1 c)
          rcases hp with ⟨a, b', c, e, d⟩ | ⟨a, d, e⟩
          · exact .inl ⟨a, b', c, hpc' _ (by simp) e, d⟩
          · exact .inr ⟨a, d, by rw [← (hm x).2]; exact e⟩
        · intro hp
          refine (hub ch).2 (h3.failed ?_)
          rcases hp with ⟨a, b', c, e, d⟩ | ⟨a, d, e⟩
          · exact .inl ⟨a, b', c, hpc' _ (by simp) e, d⟩
          · exact .inr ⟨a, d, by rw [← (hm x).2]; exact e⟩
  · have l0 := h.l
    unfold LOk at l0 ⊢
    show (match s.w with | .cont _ _ => _ | _ => _)
    cases e : s.w with
    | cont u k =>
      rw [e] at l0
      obtain ⟨x, hx, hr⟩ := l0
      refine ⟨f x, get' hx, ?_⟩
      rcases hpc x with e | ⟨_, e⟩
      · simpa only [Thread.locks, e] using hr
      · rcases hr with ⟨a, _⟩ | ⟨a, _⟩
        · exact .inl ⟨a, by simp [Thread.locks, e]⟩
        · exact .inr ⟨a, .inr e⟩
    | idle => rw [e] at l0; exact l0
    | handling _ => rw [e] at l0; exact l0
    | startMain _ => rw [e] at l0; exact l0
    | startChild _ _ _ => rw [e] at l0; exact l0
    | exitWait _ => rw [e] at l0; exact l0

theorem die_inv {s : St} {p : Int} {r : R St} (h : Inv s) (hs : step s (.die p) = some r) : ∃ s', r = .ok s' ∧ Inv s' := by
  simp only [step] at hs
  injection hs with hs; subst hs
  refine ⟨_, rfl, map_inv _ h ?_ ?_ ?_ ?_ ?_ ?_⟩
  · intro th r hr
    split
    · next hc => exact ⟨role_dead hr.1 (by intro e; simp [Thread.alive, e] at hc), fun _ => rfl⟩
    · exact hr
  · intro th; split <;> rfl
  · intro th; split <;> rfl
  · intro th; split <;> exact ⟨rfl, rfl⟩
  · intro th _; split <;> rfl
  · intro th
    split
    · next hc => exact .inr ⟨by intro e; simp [Thread.alive, e] at hc, rfl⟩
    · exact .inl rfl

theorem role_close {th : Thread} {r : Role} (h : RoleOk th r) : RoleOk { th with toShadow := { th.toShadow with closed := true } } r := by
  cases r with
  | quiet => exact h
  | child =>
    obtain ⟨h1, h2, h | ⟨e, ⟨a, h3, h⟩ | h⟩ | ⟨e, ⟨a, h3, h⟩ | h⟩⟩ := h
    · exact ⟨h1, h2, .inl h⟩
    · exact ⟨h1, h2, .inr (.inl ⟨e, .inl ⟨a, h3, by cases a <;> exact h⟩⟩)⟩
    · exact ⟨h1, h2, .inr (.inl ⟨e, .inr h⟩)⟩
    · exact ⟨h1, h2, .inr (.inr ⟨e, .inl ⟨a, h3, by cases a <;> exact h⟩⟩)⟩
    · exact ⟨h1, h2, .inr (.inr ⟨e, .inr h⟩)⟩
  | leaving => exact h
  | active k => cases k <;> exact h

theorem close_inv {s : St} {p : Int} {r : R St} (h : Inv s) (hs : step s (.close p) = some r) : ∃ s', r = .ok s' ∧ Inv s' := by
  simp only [step] at hs
  split at hs
  · injection hs with hs; subst hs
    refine ⟨_, rfl, map_inv _ h ?_ ?_ ?_ ?_ ?_ ?_⟩
    · intro th r hr
      split
      · next hc => exact ⟨role_close hr.1, fun _ => hc.2.1⟩
      · exact hr
    · intro th; split <;> rfl
    · intro th; split <;> rfl
    · intro th; split <;> exact ⟨rfl, rfl⟩
    · intro th hr; split
      · next hc => rw [hr] at hc; simp at hc
      · rfl
    · intro th; split <;> exact .inl rfl
  · simp at hs

end Shadow.Ipc
