import Verif.Ipc.Props

/-!
# Shadow does not wait in vain for a managed thread (property C65)
-/
namespace Shadow.Ipc

open Shadow.Base

/-! ## The steps of one thread -/

/-- The thread that makes the step. -/
def actor : Act → Option Nat
  | .sendStart t | .shimRecv t _ | .call t _ _ | .takeLock t | .localBegin t | .localEnd t _ _ | .sigHandler t _ | .sigFatal t
  | .handlerRet t | .jump t _ | .sigDone t | .natDone t _ | .cloneDo t _ | .cloneSend t => some t
  | _ => none

theorem lift_ok {s s' : St} {t : Nat} {r : R Thread} (h : lift s t r = .ok s') : ∃ th', r = .ok th' ∧ s' = s.put t th' := by
  unfold lift at h
  split at h
  · cases h
  · injection h with h; exact ⟨_, rfl, h.symm⟩

/-- What a step of a thread leaves as it is. -/
structure Same (th th' : Thread) : Prop where
  running : th'.running = th.running
  registered : th'.registered = th.registered
  proc : th'.proc = th.proc

theorem toW_ok {th th' : Thread} {e : ToShadow} (h : th.toW e = .ok th') : th'.pc = th.pc ∧ Same th th' := by
  unfold Thread.toW at h
  split at h
  · cases h
  · injection h with h; subst h; exact ⟨rfl, rfl, rfl, rfl⟩

theorem toW_same {th0 th th' : Thread} {e : ToShadow} (h : th.toW e = .ok th') (h1 : th.running = th0.running)
    (h2 : th.registered = th0.registered) (h3 : th.proc = th0.proc) : Same th0 th' := by
  have := toW_ok h
  exact ⟨this.2.running.trans h1, this.2.registered.trans h2, this.2.proc.trans h3⟩

/-- The thread makes its last call. -/
def Thread.lastCall (th : Thread) : Prop :=
  (∃ c, th.pc = .natApp c ∧ c.num = sysExit) ∨ ∃ c ctx c', th.pc = .natShadow c ctx c' ∧ c'.num = sysExit

theorem shimGot_same {th th' : Thread} {m : ToShim} {early : Bool} (h : shimGot th m early = some (.ok th')) :
    Same th th' ∧ th.alive = true ∧ th'.pc ≠ .dead := by
  unfold shimGot at h
  split at h
  · next a hp =>
    split at h
    · injection h with h
      refine ⟨?_, by simp [Thread.alive, hp], ?_⟩
      · cases a with
        | main => simp only [started] at h; injection h with h; subst h; exact ⟨rfl, rfl, rfl⟩
        | jump => simp only [started] at h; injection h with h; subst h; exact ⟨rfl, rfl, rfl⟩
        | fork c ctx st => exact toW_same h rfl rfl rfl
      · cases a with
        | main => simp only [started] at h; injection h with h; subst h; simp
        | jump => simp only [started] at h; injection h with h; subst h; simp
        | fork c ctx st => rw [(toW_ok h).1]; simp
    · injection h with h; cases h
  · next c ctx hp =>
    have hal : th.alive = true := by simp [Thread.alive, hp]
    split at h
    · split at h
      · injection h with h; injection h with h; subst h; exact ⟨⟨rfl, rfl, rfl⟩, hal, by simp⟩
      · injection h with h; injection h with h; subst h; exact ⟨⟨rfl, rfl, rfl⟩, hal, by simp⟩
    · injection h with h; injection h with h; subst h; exact ⟨⟨rfl, rfl, rfl⟩, hal, by simp⟩
    · injection h with h; injection h with h; subst h; exact ⟨⟨rfl, rfl, rfl⟩, hal, by simp⟩
    · split at h
      · injection h with h; injection h with h; subst h; exact ⟨⟨rfl, rfl, rfl⟩, hal, by simp⟩
      · injection h with h; cases h
    · injection h with h; cases h
  · cases h

/-- A step of a thread other than a successful clone. -/
theorem step_thread {s s' : St} {a : Act} {t : Nat} (ha : actor a = some t) (hc : ∀ x, a = .cloneDo t x → x < 0)
    (hs : step s a = some (.ok s')) :
    s'.w = s.w ∧ ∃ th th', s.ts[t]? = some th ∧ s'.ts = s.ts.set t th' ∧ th.alive = true ∧ Same th th' ∧
      (th'.pc = .dead → th.lastCall) ∧ (th.runs ∨ s'.lock = s.lock) := by
  cases a with
  | sendStart u =>
    injection ha with ha; subst ha
    simp only [step] at hs
    split at hs
    · next th ht =>
      split at hs
      · next hp =>
        injection hs with hs
        obtain ⟨th', e, rfl⟩ := lift_ok hs
        exact ⟨rfl, th, th', ht, rfl, by simp [Thread.alive, hp], toW_same e rfl rfl rfl, by rw [(toW_ok e).1]; simp, .inr rfl⟩
      · cases hs
    · cases hs
  | shimRecv u early =>
    injection ha with ha; subst ha
    simp only [step] at hs
    split at hs
    · next th ht =>
      split at hs
      · split at hs
        · next r hg =>
          injection hs with hs
          obtain ⟨th', e, rfl⟩ := lift_ok hs
          subst e
          have g := shimGot_same hg
          exact ⟨rfl, th, th', ht, rfl, g.2.1, ⟨g.1.running, g.1.registered, g.1.proc⟩, fun e => absurd e g.2.2, .inr rfl⟩
        · cases hs
      · cases hs
    · cases hs
  | call u c ctx =>
    injection ha with ha; subst ha
    simp only [step] at hs
    split at hs
    · next th ht =>
      split at hs
      · next hp =>
        injection hs with hs
        obtain ⟨th', e, rfl⟩ := lift_ok hs
        exact ⟨rfl, th, th', ht, rfl, by simp [Thread.alive, hp], toW_same e rfl rfl rfl, by rw [(toW_ok e).1]; simp, .inr rfl⟩
      · cases hs
    · cases hs
  | takeLock u =>
    injection ha with ha; subst ha
    simp only [step] at hs
    split at hs
    · next th ht =>
      split at hs
      · next hp =>
        split at hs
        · injection hs with hs; injection hs with hs; subst hs
          exact ⟨rfl, th, _, ht, rfl, by simp [Thread.alive, hp], ⟨rfl, rfl, rfl⟩, by simp, .inl (by simp [Thread.runs, hp])⟩
        · cases hs
      · cases hs
    · cases hs
  | localBegin u =>
    injection ha with ha; subst ha
    simp only [step] at hs
    split at hs
    · next th ht =>
      split at hs
      · next hp =>
        split at hs
        · injection hs with hs; injection hs with hs; subst hs
          exact ⟨rfl, th, _, ht, rfl, by simp [Thread.alive, hp], ⟨rfl, rfl, rfl⟩, by simp, .inl (by simp [Thread.runs, hp])⟩
        · cases hs
      · cases hs
    · cases hs
  | localEnd u lat mc =>
    injection ha with ha; subst ha
    simp only [step] at hs
    split at hs
    · next th ht =>
      split at hs
      · next hp =>
        split at hs
        · split at hs
          · injection hs with hs; injection hs with hs; subst hs
            exact ⟨rfl, th, _, ht, rfl, by simp [Thread.alive, hp], ⟨rfl, rfl, rfl⟩, by simp, .inl (by simp [Thread.runs, hp])⟩
          · injection hs with hs
            obtain ⟨th', e, rfl⟩ := lift_ok hs
            exact ⟨rfl, th, th', ht, rfl, by simp [Thread.alive, hp], toW_same e rfl rfl rfl, by rw [(toW_ok e).1]; simp,
              .inl (by simp [Thread.runs, hp])⟩
        · injection hs with hs; injection hs with hs; subst hs
          exact ⟨rfl, th, _, ht, rfl, by simp [Thread.alive, hp], ⟨rfl, rfl, rfl⟩, by simp, .inl (by simp [Thread.runs, hp])⟩
      · cases hs
    · cases hs
  | sigHandler u rs =>
    injection ha with ha; subst ha
    simp only [step] at hs
    split at hs
    · next th ht =>
      split at hs
      · next hp =>
        injection hs with hs; injection hs with hs; subst hs
        exact ⟨rfl, th, _, ht, rfl, by simp [Thread.alive, hp], ⟨rfl, rfl, rfl⟩, by simp, .inl (by simp [Thread.runs, hp])⟩
      · cases hs
    · cases hs
  | sigFatal u =>
    injection ha with ha; subst ha
    simp only [step] at hs
    split at hs
    · next th ht =>
      split at hs
      · next hp =>
        injection hs with hs; injection hs with hs; subst hs
        exact ⟨rfl, th, _, ht, rfl, by simp [Thread.alive, hp], ⟨rfl, rfl, rfl⟩, by simp, .inl (by simp [Thread.runs, hp])⟩
      · cases hs
    · cases hs
  | handlerRet u =>
    injection ha with ha; subst ha
    simp only [step] at hs
    split at hs
    · next th ht =>
      split at hs
      · next hp _ =>
        injection hs with hs; injection hs with hs; subst hs
        exact ⟨rfl, th, _, ht, rfl, by simp [Thread.alive, hp], ⟨rfl, rfl, rfl⟩, by simp, .inr rfl⟩
      · cases hs
    · cases hs
  | jump u n =>
    injection ha with ha; subst ha
    simp only [step] at hs
    split at hs
    · next th ht =>
      split at hs
      · next hp =>
        injection hs with hs; injection hs with hs; subst hs
        exact ⟨rfl, th, _, ht, rfl, by simp [Thread.alive, hp], ⟨rfl, rfl, rfl⟩, by simp [hp], .inr rfl⟩
      · cases hs
    · cases hs
  | sigDone u =>
    injection ha with ha; subst ha
    simp only [step] at hs
    split at hs
    · next th ht =>
      split at hs
      · next hp =>
        split at hs
        · injection hs with hs
          obtain ⟨th', e, rfl⟩ := lift_ok hs
          exact ⟨rfl, th, th', ht, rfl, by simp [Thread.alive, hp], toW_same e rfl rfl rfl, by rw [(toW_ok e).1]; simp,
            .inl (by simp [Thread.runs, hp])⟩
        · injection hs with hs; injection hs with hs; subst hs
          exact ⟨rfl, th, _, ht, rfl, by simp [Thread.alive, hp], ⟨rfl, rfl, rfl⟩, by simp, .inl (by simp [Thread.runs, hp])⟩
      · cases hs
    · cases hs
  | natDone u rv =>
    injection ha with ha; subst ha
    simp only [step] at hs
    split at hs
    · next th ht =>
      split at hs
      · next c hp =>
        split at hs
        · injection hs with hs; cases hs
        · split at hs
          · next he =>
            injection hs with hs; injection hs with hs; subst hs
            exact ⟨rfl, th, _, ht, rfl, by simp [Thread.alive, hp], ⟨rfl, rfl, rfl⟩, fun _ => .inl ⟨c, hp, he⟩, .inr rfl⟩
          · injection hs with hs; injection hs with hs; subst hs
            exact ⟨rfl, th, _, ht, rfl, by simp [Thread.alive, hp], ⟨rfl, rfl, rfl⟩, by simp, .inr rfl⟩
      · next c ctx c' hp =>
        split at hs
        · injection hs with hs; cases hs
        · split at hs
          · next he =>
            injection hs with hs; injection hs with hs; subst hs
            exact ⟨rfl, th, _, ht, rfl, by simp [Thread.alive, hp], ⟨rfl, rfl, rfl⟩, fun _ => .inr ⟨c, ctx, c', hp, he⟩, .inr rfl⟩
          · injection hs with hs
            obtain ⟨th', e, rfl⟩ := lift_ok hs
            exact ⟨rfl, th, th', ht, rfl, by simp [Thread.alive, hp], toW_same e rfl rfl rfl, by rw [(toW_ok e).1]; simp, .inr rfl⟩
      · cases hs
    · cases hs
  | cloneDo u x =>
    injection ha with ha; subst ha
    simp only [step] at hs
    split at hs
    · next th ht =>
      split at hs
      · next hp =>
        rw [if_pos (hc x rfl)] at hs
        injection hs with hs; injection hs with hs; subst hs
        exact ⟨rfl, th, _, ht, rfl, by simp [Thread.alive, hp], ⟨rfl, rfl, rfl⟩, by simp, .inr rfl⟩
      · cases hs
    · cases hs
  | cloneSend u =>
    injection ha with ha; subst ha
    simp only [step] at hs
    split at hs
    · next th ht =>
      split at hs
      · next hp =>
        injection hs with hs
        obtain ⟨th', e, rfl⟩ := lift_ok hs
        exact ⟨rfl, th, th', ht, rfl, by simp [Thread.alive, hp], toW_same e rfl rfl rfl, by rw [(toW_ok e).1]; simp, .inr rfl⟩
      · cases hs
    · cases hs
  | spawn _ => cases ha
  | startRecv => cases ha
  | resume _ => cases ha
  | handle _ _ => cases ha
  | recv => cases ha
  | cleanup _ => cases ha
  | gone => cases ha
  | die _ => cases ha
  | close _ => cases ha

/-- A successful clone. -/
theorem step_clone {s s' : St} {t : Nat} {x : Int} (hx : ¬ x < 0) (hs : step s (.cloneDo t x) = some (.ok s')) :
    s'.w = s.w ∧ s'.lock = s.lock ∧ ∃ th ch c ctx thr stk b, s.ts[t]? = some th ∧ th.pc = .cloning c ctx thr stk b ∧ s.ts[b]? = some ch ∧
      s'.ts = (s.ts.set t { th with pc := .cloned c ctx x }).set b (newborn th ch c ctx thr stk x) := by
  simp only [step] at hs
  split at hs
  · next th ht =>
    split at hs
    · next c ctx thr stk b hp =>
      rw [if_neg hx] at hs
      split at hs
      · next ch hch =>
        injection hs with hs; injection hs with hs; subst hs
        exact ⟨rfl, rfl, th, ch, c, ctx, thr, stk, b, ht, hp, hch, rfl⟩
      · cases hs
    · cases hs
  · cases hs

/-! ## A thread that Shadow may wait for dies only together with its process -/

/-- Shadow still waits, or will wait, for the thread. -/
def Matters (s : St) (i : Nat) (th : Thread) : Prop := (th.running = true ∨ role s.w i = .child) ∧ role s.w i ≠ .leaving

structure PInv (s : St) : Prop where
  reg : ∀ (i : Nat) (th : Thread), s.ts[i]? = some th → th.running = true → th.registered = true
  dead : ∀ (i : Nat) (th : Thread), s.ts[i]? = some th → th.pc = .dead → Matters s i th → ∀ (j : Nat) (uh : Thread), s.ts[j]? = some uh → uh.proc = th.proc → uh.alive = false

theorem alive_pc {a b : Thread} (h : a.pc = b.pc) : a.alive = b.alive := by unfold Thread.alive; rw [h]

theorem pinv_of {s s' : St} (h : PInv s)
    (hv : ∀ (i : Nat) (th' : Thread), s'.ts[i]? = some th' → (∃ th, s.ts[i]? = some th ∧ th'.pc = th.pc ∧ th'.proc = th.proc ∧ (Matters s' i th' → Matters s i th)) ∨
      (th'.pc ≠ .dead ∧ (th'.alive = false ∨ ∀ th ∈ s.ts, th.proc ≠ th'.proc)))
    (hr : ∀ (i : Nat) (th' : Thread), s'.ts[i]? = some th' → th'.running = true → th'.registered = true) : PInv s' := by
  refine ⟨hr, ?_⟩
  intro i th' hi hd hm j uh' hj hp
  rcases hv i th' hi with ⟨th, ht, e1, e2, e3⟩ | ⟨e, _⟩
  · rcases hv j uh' hj with ⟨uh, hu, f1, f2, _⟩ | ⟨_, f | f⟩
    · rw [alive_pc f1]
      exact h.dead i th ht (by rw [← e1]; exact hd) (e3 hm) j uh hu (by rw [← f2, ← e2]; exact hp)
    · exact f
    · exact absurd (by rw [hp, e2]) (f th (List.mem_of_getElem? ht))
  · exact absurd hd e

theorem set_view {l : List Thread} {t : Nat} {a b : Thread} {P : Nat → Thread → Thread → Prop} (h : l[t]? = some a) (hn : P t b a)
    (ho : ∀ (i : Nat) (x : Thread), i ≠ t → l[i]? = some x → P i x x) : ∀ (i : Nat) (y : Thread), (l.set t b)[i]? = some y → ∃ x, l[i]? = some x ∧ P i y x := by
  intro i y hi
  by_cases e : i = t
  · subst e; rw [get_set h] at hi; injection hi with hi; subst hi; exact ⟨a, h, hn⟩
  · rw [get_set_ne e] at hi; exact ⟨y, hi, ho i y e hi⟩

theorem alive_not_dead {th : Thread} (h : th.alive = true) : th.pc ≠ .dead := fun e => by simp [Thread.alive, e] at h

theorem thread_pinv {s s' : St} {t : Nat} {th th' : Thread} (h : PInv s) (hw : s'.w = s.w) (ht : s.ts[t]? = some th)
    (hs : s'.ts = s.ts.set t th') (ha : th.alive = true) (hsm : Same th th') (hd : th'.pc = .dead → role s.w t = .leaving) : PInv s' := by
  refine ⟨?_, ?_⟩
  · rw [hs]
    exact threads_set ht (fun i x _ hx => h.reg i x hx) (by rw [hsm.running, hsm.registered]; exact h.reg t th ht)
  · intro i x hi hx hm j y hj hp
    unfold Matters at hm
    rw [hw] at hm
    rw [hs] at hi hj
    have hne : i ≠ t := by
      rintro rfl
      rw [get_set ht] at hi; injection hi with hi; subst hi
      exact hm.2 (hd hx)
    rw [get_set_ne hne] at hi
    by_cases e : j = t
    · subst e; rw [get_set ht] at hj; injection hj with hj; subst hj
      have := h.dead i x hi hx hm j th ht (by rw [← hsm.proc]; exact hp)
      rw [this] at ha; cases ha
    · rw [get_set_ne e] at hj
      exact h.dead i x hi hx hm j y hj hp

theorem clone_pinv {s s' : St} {t : Nat} {x : Int} (hr : Run s) (h : PInv s) (ha : allowed s (.cloneDo t x)) (hx : ¬ x < 0)
    (hs : step s (.cloneDo t x) = some (.ok s')) : PInv s' := by
  obtain ⟨hw, _, th, ch, c, ctx, thr, stk, b, ht, hp, hch, e⟩ := step_clone hx hs
  have sp := (special_of (hr.inv.ts t th ht).1).2.2.1 c ctx thr stk b hp
  have hw0 := role_active sp.1
  have w0 := hr.inv.w
  unfold WOk at w0; rw [hw0] at w0
  obtain ⟨th0, ht0, hne, ch0, hch0, g1, g2, g3⟩ := w0
  rw [ht] at ht0; injection ht0 with ht0; subst ht0
  rw [hch] at hch0; injection hch0 with hch0; subst hch0
  have hal : th.alive = true := by simp [Thread.alive, hp]
  have hxr := ha.2 (by have := ha.1; omega)
  have nb : (newborn th ch c ctx thr stk x).pc ≠ .dead ∧ (newborn th ch c ctx thr stk x).running = ch.running ∧
      (newborn th ch c ctx thr stk x).registered = ch.registered ∧
      ((newborn th ch c ctx thr stk x).proc = th.proc ∨ (newborn th ch c ctx thr stk x).proc = x) := by
    unfold newborn
    split
    · exact ⟨by simp, rfl, rfl, .inl rfl⟩
    · split
      · exact ⟨by simp, rfl, rfl, .inr rfl⟩
      · exact ⟨by simp, rfl, rfl, .inr rfl⟩
  have hb1 : (s.ts.set t { th with pc := .cloned c ctx x })[b]? = some ch := by rw [get_set_ne hne]; exact hch
  refine ⟨?_, ?_⟩
  · rw [e]
    refine threads_set hb1 (fun i y _ hy => ?_) (by rw [nb.2.1, nb.2.2.1]; exact h.reg b ch hch)
    exact threads_set (P := fun i y => y.running = true → y.registered = true) (b := { th with pc := .cloned c ctx x }) ht (fun i y _ hy => h.reg i y hy) (h.reg t th ht) i y hy
  · intro i y hi hd hm j z hj hpz
    unfold Matters at hm
    rw [hw] at hm
    rw [e] at hi hj
    have hib : i ≠ b := by
      rintro rfl
      rw [get_set hb1] at hi; injection hi with hi; subst hi
      exact nb.1 hd
    rw [get_set_ne hib] at hi
    have hit : i ≠ t := by
      rintro rfl
      rw [get_set ht] at hi; injection hi with hi; subst hi
      cases hd
    rw [get_set_ne hit] at hi
    have old := h.dead i y hi hd hm
    have npt : th.proc ≠ y.proc := fun e => by rw [old t th ht e] at hal; cases hal
    by_cases ejb : j = b
    · subst ejb; rw [get_set hb1] at hj; injection hj with hj; subst hj
      rcases nb.2.2.2 with e | e
      · rw [e] at hpz; exact absurd hpz npt
      · rw [e] at hpz; exact absurd hpz.symm (hxr y (List.mem_of_getElem? hi))
    · rw [get_set_ne ejb] at hj
      by_cases ejt : j = t
      · subst ejt; rw [get_set ht] at hj; injection hj with hj; subst hj
        exact absurd hpz npt
      · rw [get_set_ne ejt] at hj
        exact old j z hj hpz

/-- What `continue_plugin` does to the state. -/
theorem contPlugin_ok {s s' : St} {t : Nat} {th : Thread} {m : ToShim} {k : Kont} {mx : Nat} (h : contPlugin s t th m k mx = .ok s') :
    ∃ th', s'.ts = s.ts.set t th' ∧ th'.pc = th.pc ∧ Same th th' ∧ s'.w = .cont t k := by
  unfold contPlugin at h
  split at h
  · split at h
    · cases h
    · injection h with h; subst h; exact ⟨_, rfl, rfl, ⟨rfl, rfl, rfl⟩, rfl⟩
  · cases h

theorem set_self {l : List Thread} {t : Nat} {a : Thread} (h : l[t]? = some a) : l.set t a = l := by
  apply List.ext_getElem?
  intro i
  by_cases e : i = t
  · subst e; rw [get_set h, h]
  · rw [get_set_ne e]

theorem handleEv_ok {s s' : St} {t : Nat} {th : Thread} {hh : HAct} {mx : Nat} (ht : s.ts[t]? = some th)
    (h : handleEv s t th hh mx = some (.ok s')) :
    ∃ th', th'.pc = th.pc ∧ Same th th' ∧
      ((s'.ts = s.ts.set t th' ∧ (s'.w = .idle ∨ s'.w = .exitWait t ∨ s'.w = .cont t .resume ∨ s'.w = .cont t .nat)) ∨
        (s'.ts = (s.ts ++ [({} : Thread)]).set t th' ∧ s'.w = .cont t (.clone s.ts.length))) := by
  have cp : ∀ {th1 : Thread} {m k}, contPlugin s t th1 m k mx = .ok s' → th1.pc = th.pc → Same th th1 → k = .resume ∨ k = .nat →
      ∃ th', th'.pc = th.pc ∧ Same th th' ∧
        ((s'.ts = s.ts.set t th' ∧ (s'.w = .idle ∨ s'.w = .exitWait t ∨ s'.w = .cont t .resume ∨ s'.w = .cont t .nat)) ∨
          (s'.ts = (s.ts ++ [({} : Thread)]).set t th' ∧ s'.w = .cont t (.clone s.ts.length))) := by
    intro th1 m k hc e1 e2 hk
    obtain ⟨th', f1, f2, f3, f4⟩ := contPlugin_ok hc
    refine ⟨th', f2.trans e1, ⟨f3.running.trans e2.running, f3.registered.trans e2.registered, f3.proc.trans e2.proc⟩, .inl ⟨f1, ?_⟩⟩
    rcases hk with rfl | rfl
    · exact .inr (.inr (.inl f4))
    · exact .inr (.inr (.inr f4))
  unfold handleEv at h
  split at h
  · split at h
    · injection h with h; exact cp h rfl ⟨rfl, rfl, rfl⟩ (.inl rfl)
    · cases h
  · split at h
    · injection h with h; injection h with h; subst h
      exact ⟨th, rfl, ⟨rfl, rfl, rfl⟩, .inl ⟨(set_self ht).symm, .inr (.inl rfl)⟩⟩
    · cases h
  · split at h
    · split at h
      · split at h
        · cases h
        · injection h with h; injection h with h; subst h
          refine ⟨_, ?_, ?_, .inl ⟨rfl, .inr (.inl rfl)⟩⟩
          · rfl
          · exact ⟨rfl, rfl, rfl⟩
      · cases h
    · split at h
      · cases h
      · injection h with h; exact cp h rfl ⟨rfl, rfl, rfl⟩ (.inr rfl)
      · injection h with h
        obtain ⟨th', f1, f2, f3, f4⟩ := contPlugin_ok h
        exact ⟨th', f2, f3, .inr ⟨f1, f4⟩⟩
      · injection h with h; injection h with h; subst h
        refine ⟨_, ?_, ?_, .inl ⟨rfl, .inl rfl⟩⟩
        · rfl
        · exact ⟨rfl, rfl, rfl⟩
      · injection h with h; exact cp h rfl ⟨rfl, rfl, rfl⟩ (.inl rfl)
      · injection h with h; exact cp h rfl ⟨rfl, rfl, rfl⟩ (.inl rfl)
  · split at h
    · split at h
      · injection h with h; exact cp h rfl ⟨rfl, rfl, rfl⟩ (.inl rfl)
      · injection h with h; cases h
    · cases h
  · split at h
    · injection h with h; cases h
    · cases h

theorem step_pinv {s s' : St} {a : Act} (hr : Run s) (h : PInv s) (ha : allowed s a) (hs : step s a = some (.ok s')) : PInv s' := by
  -- the threads
  have thr : ∀ t, actor a = some t → (∀ x, a = .cloneDo t x → x < 0) → PInv s' := by
    intro t hat hc
    obtain ⟨hw, th, th', ht, e, hal, hsm, hd, _⟩ := step_thread hat hc hs
    refine thread_pinv h hw ht e hal hsm (fun e => ?_)
    have sp := special_of (hr.inv.ts t th ht).1
    rcases hd e with ⟨c, hp, hx⟩ | ⟨c, ctx, c', hp, hx⟩
    · rcases sp.1 c hp with ⟨_, _, _, _, hn, _⟩ | ⟨q, _⟩
      · exact absurd hx hn
      · exact q
    · exact absurd hx (sp.2.1 c ctx c' hp).2.2.2.2.1
  cases a with
  | sendStart t => exact thr t rfl (fun x e => by cases e)
  | shimRecv t e => exact thr t rfl (fun x e => by cases e)
  | call t c ctx => exact thr t rfl (fun x e => by cases e)
  | takeLock t => exact thr t rfl (fun x e => by cases e)
  | localBegin t => exact thr t rfl (fun x e => by cases e)
  | localEnd t l m => exact thr t rfl (fun x e => by cases e)
  | sigHandler t r => exact thr t rfl (fun x e => by cases e)
  | sigFatal t => exact thr t rfl (fun x e => by cases e)
  | handlerRet t => exact thr t rfl (fun x e => by cases e)
  | jump t n => exact thr t rfl (fun x e => by cases e)
  | sigDone t => exact thr t rfl (fun x e => by cases e)
  | natDone t rv => exact thr t rfl (fun x e => by cases e)
  | cloneSend t => exact thr t rfl (fun x e => by cases e)
  | cloneDo t x =>
    by_cases hx : x < 0
    · exact thr t rfl (fun y e => by injection e with _ e; subst e; exact hx)
    · exact clone_pinv hr h ha hx hs
  | spawn p =>
    simp only [step] at hs
    split at hs
    · next hw =>
      injection hs with hs; injection hs with hs; subst hs
      refine pinv_of h ?_ ?_
      · intro i th' hi
        rcases get_snoc hi with hi | ⟨rfl, rfl⟩
        · refine .inl ⟨th', hi, rfl, rfl, ?_⟩
          have hne : i ≠ s.ts.length := Nat.ne_of_lt (get_lt hi)
          simp [Matters, role, hne, hw]
        · exact .inr ⟨by simp, .inr ha.2⟩
      · intro i th' hi hrun
        rcases get_snoc hi with hi | ⟨rfl, rfl⟩
        · exact h.reg i th' hi hrun
        · cases hrun
    · cases hs
  | startRecv =>
    have sd : ∀ {b w}, role s.w b = .child → (∀ i, role w i = .quiet) → (∀ i, role s.w i ≠ .leaving) → startDone s b w = some (.ok s') →
        PInv s' := by
      intro b w hb hq hnl hd
      unfold startDone at hd
      split at hd
      · cases hd
      · next th ht =>
        split at hd
        · injection hd with hd; injection hd with hd; subst hd
          refine pinv_of h (fun i y hi => .inl ?_) ?_
          · revert i y hi
            refine set_view (P := fun i y x => y.pc = x.pc ∧ y.proc = x.proc ∧ (Matters _ i y → Matters s i x)) ht ?_ ?_
            · exact ⟨rfl, rfl, fun _ => ⟨.inr hb, hnl b⟩⟩
            · refine fun i x _ _ => ⟨rfl, rfl, fun hm => ⟨?_, hnl i⟩⟩
              rcases hm.1 with e | e
              · exact .inl e
              · have := hq i; rw [e] at this; cases this
          · exact threads_set ht (fun i x _ hx => h.reg i x hx) (fun _ => rfl)
        · injection hd with hd; cases hd
        · split at hd
          · injection hd with hd; cases hd
          · cases hd
    simp only [step] at hs
    split at hs
    · next t hw => exact sd (by rw [hw]; simp [role]) (fun i => rfl) (fun i => by rw [hw]; simp only [role]; split <;> simp) hs
    · next t b x hw => exact sd (by rw [hw]; simp [role]) (fun i => rfl) (fun i => by rw [hw]; simp only [role]; split <;> simp) hs
    · cases hs
  | resume t =>
    simp only [step] at hs
    split at hs
    · next hw =>
      split at hs
      · injection hs with hs; injection hs with hs; subst hs
        exact pinv_of h (fun i y hi => .inl ⟨y, hi, rfl, rfl, by simp [Matters, role, hw]⟩) h.reg
      · cases hs
    · cases hs
  | cleanup t =>
    simp only [step] at hs
    split at hs
    · next hw =>
      split at hs
      · injection hs with hs; injection hs with hs; subst hs
        refine pinv_of h (fun i y hi => .inl ⟨y, hi, rfl, rfl, ?_⟩) h.reg
        simp only [Matters, role, hw]
        split <;> simp
      · cases hs
    · cases hs
  | gone =>
    simp only [step] at hs
    split at hs
    · next t hw =>
      split at hs
      · next th ht =>
        split at hs
        · injection hs with hs; injection hs with hs; subst hs
          refine pinv_of h (fun i y hi => .inl ?_) ?_
          · revert i y hi
            refine set_view (P := fun i y x => y.pc = x.pc ∧ y.proc = x.proc ∧ (Matters _ i y → Matters s i x)) ht ?_ ?_
            · exact ⟨rfl, rfl, fun hm => by simp [Matters, role] at hm⟩
            · refine fun i x hi _ => ⟨rfl, rfl, fun hm => ?_⟩
              simp [Matters, role] at hm
              exact ⟨.inl hm, by rw [hw]; simp [role, hi]⟩
          · exact threads_set ht (fun i x _ hx => h.reg i x hx) (fun e => by cases e)
        · cases hs
      · cases hs
    · cases hs
  | handle hh mx =>
    simp only [step] at hs
    split at hs
    · next t hw =>
      split at hs
      · next th ht =>
        obtain ⟨th', e1, e2, ⟨e3, e4⟩ | ⟨e3, e4⟩⟩ := handleEv_ok ht hs
        · have hm : ∀ i x y, y.running = x.running → Matters s' i y → Matters s i x := by
            intro i x y hxy hm
            unfold Matters at hm ⊢
            rw [hw]
            refine ⟨.inl ?_, by simp [role]⟩
            rw [hxy] at hm
            rcases hm.1 with e | e
            · exact e
            · rcases e4 with e4 | e4 | e4 | e4 <;> (rw [e4] at e; simp only [role] at e; try split at e) <;> cases e
          refine pinv_of h (fun i y hi => .inl ?_) ?_
          · rw [e3] at hi
            revert i y hi
            refine set_view (P := fun i y x => y.pc = x.pc ∧ y.proc = x.proc ∧ (Matters _ i y → Matters s i x)) ht ?_ ?_
            · exact ⟨e1, e2.proc, hm t th th' e2.running⟩
            · exact fun i x _ _ => ⟨rfl, rfl, hm i x x rfl⟩
          · rw [e3]
            exact threads_set ht (fun i x _ hx => h.reg i x hx) (by rw [e2.running, e2.registered]; exact h.reg t th ht)
        · have hm : ∀ i x y, i ≠ s.ts.length → y.running = x.running → Matters s' i y → Matters s i x := by
            intro i x y hi hxy hm
            unfold Matters at hm ⊢
            rw [hw]
            refine ⟨.inl ?_, by simp [role]⟩
            rw [hxy, e4] at hm
            rcases hm.1 with e | e
            · exact e
            · simp only [role] at e
              split at e
              · cases e
              · first | cases e | (rw [if_neg hi] at e; cases e)
          refine pinv_of h (fun i y hi => ?_) ?_
          · rw [e3] at hi
            by_cases e : i = t
            · subst e; rw [get_set (get_left ht)] at hi; injection hi with hi; subst hi
              exact .inl ⟨th, ht, e1, e2.proc, hm i th _ (Nat.ne_of_lt (get_lt ht)) e2.running⟩
            · rw [get_set_ne e] at hi
              rcases get_snoc hi with hi | ⟨rfl, rfl⟩
              · exact .inl ⟨y, hi, rfl, rfl, hm i y y (Nat.ne_of_lt (get_lt hi)) rfl⟩
              · exact .inr ⟨by simp, .inl rfl⟩
          · rw [e3]
            refine threads_set (get_left ht) (fun i x _ hx => ?_) (by rw [e2.running, e2.registered]; exact h.reg t th ht)
            rcases get_snoc hx with hx | ⟨rfl, rfl⟩
            · exact h.reg i x hx
            · intro e; cases e
      · cases hs
    · cases hs
  | recv =>
    simp only [step] at hs
    split at hs
    · next t k hw =>
      split at hs
      · next th ht =>
        split at hs
        · next e th1 hans =>
          split at hs
          · injection hs with hs
            have h1 : th1.pc = th.pc ∧ Same th th1 := by
              unfold Thread.answer at hans
              split at hans
              · injection hans with hans; injection hans with _ e2; subst e2; exact ⟨rfl, rfl, rfl, rfl⟩
              · split at hans
                · injection hans with hans; injection hans with _ e2; subst e2; exact ⟨rfl, rfl, rfl, rfl⟩
                · cases hans
            have key : ∃ th', th'.pc = th.pc ∧ Same th th' ∧ s'.ts = s.ts.set t th' ∧
                (s'.w = .handling t ∨ ∃ b r, k = .clone b ∧ s'.w = .startChild t b r) := by
              unfold contDone at hs
              split at hs
              · injection hs with hs; subst hs
                refine ⟨_, ?_, ?_, rfl, .inl rfl⟩
                · exact h1.1
                · exact ⟨h1.2.running, h1.2.registered, h1.2.proc⟩
              · split at hs
                · injection hs with hs; subst hs; exact ⟨th1, h1.1, h1.2, rfl, .inl rfl⟩
                · cases hs
              · next b =>
                split at hs
                · split at hs
                  · injection hs with hs; subst hs; exact ⟨th1, h1.1, h1.2, rfl, .inl rfl⟩
                  · split at hs
                    · cases hs
                    · injection hs with hs; subst hs; exact ⟨th1, h1.1, h1.2, rfl, .inr ⟨b, _, rfl, rfl⟩⟩
                · cases hs
            obtain ⟨th', e1, e2, e3, e4⟩ := key
            have nl : ∀ i, role s.w i ≠ .leaving := by
              intro i; rw [hw]; simp only [role]
              split
              · simp
              · split
                · split <;> simp
                · simp
            have hm : ∀ i x y, y.running = x.running → Matters s' i y → Matters s i x := by
              intro i x y hxy hm
              unfold Matters at hm ⊢
              refine ⟨?_, nl i⟩
              rw [hxy] at hm
              rcases hm.1 with e | e
              · exact .inl e
              · rcases e4 with e4 | ⟨b, r, rfl, e4⟩
                · rw [e4] at e; cases e
                · rw [e4] at e
                  simp only [role] at e
                  split at e
                  · next eb =>
                    subst eb
                    right
                    rw [hw]
                    have w0 := hr.inv.w
                    unfold WOk at w0; rw [hw] at w0
                    obtain ⟨_, _, hne, _⟩ := w0
                    simp [role, hne]
                  · cases e
            refine pinv_of h (fun i y hi => .inl ?_) ?_
            · rw [e3] at hi
              revert i y hi
              refine set_view (P := fun i y x => y.pc = x.pc ∧ y.proc = x.proc ∧ (Matters _ i y → Matters s i x)) ht ?_ ?_
              · exact ⟨e1, e2.proc, hm t th th' e2.running⟩
              · exact fun i x _ _ => ⟨rfl, rfl, hm i x x rfl⟩
            · rw [e3]
              exact threads_set ht (fun i x _ hx => h.reg i x hx) (by rw [e2.running, e2.registered]; exact h.reg t th ht)
          · cases hs
        · cases hs
      · cases hs
    · cases hs
  | die p =>
    simp only [step] at hs
    injection hs with hs; injection hs with hs; subst hs
    have get : ∀ (i : Nat) (x : Thread), (s.ts.map fun th => if th.proc = p ∧ th.alive then { th with pc := .dead } else th)[i]? = some x →
        ∃ y : Thread, s.ts[i]? = some y ∧ x = if y.proc = p ∧ y.alive then { y with pc := .dead } else y := by
      intro i x hi
      rw [List.getElem?_map] at hi
      obtain ⟨y, hy, rfl⟩ := Option.map_eq_some_iff.1 hi
      exact ⟨y, hy, rfl⟩
    refine ⟨?_, ?_⟩
    · intro i x hi
      obtain ⟨y, hy, rfl⟩ := get i x hi
      split
      · exact h.reg i y hy
      · exact h.reg i y hy
    · intro i x hi hd hm j z hj hp
      obtain ⟨y, hy, rfl⟩ := get i x hi
      obtain ⟨u, hu, rfl⟩ := get j z hj
      by_cases hk : u.proc = p ∧ u.alive = true
      · rw [if_pos hk]; rfl
      · rw [if_neg hk] at hp ⊢
        by_cases hk' : y.proc = p ∧ y.alive = true
        · rw [if_pos hk'] at hp
          have : u.proc = p := hp.trans hk'.1
          cases e : u.alive with
          | false => rfl
          | true => exact absurd ⟨this, e⟩ hk
        · rw [if_neg hk'] at hp hd hm
          exact h.dead i y hy hd hm j u hu hp
  | close p =>
    simp only [step] at hs
    split at hs
    · injection hs with hs; injection hs with hs; subst hs
      refine pinv_of h (fun i x hi => .inl ?_) (fun i x hi => ?_)
      · change (List.map _ s.ts)[i]? = _ at hi
        rw [List.getElem?_map] at hi
        obtain ⟨y, hy, rfl⟩ := Option.map_eq_some_iff.1 hi
        refine ⟨y, hy, ?_⟩
        split <;> exact ⟨rfl, rfl, id⟩
      · change (List.map _ s.ts)[i]? = _ at hi
        rw [List.getElem?_map] at hi
        obtain ⟨y, hy, rfl⟩ := Option.map_eq_some_iff.1 hi
        split
        · exact h.reg i y hy
        · exact h.reg i y hy
    · cases hs

theorem Run.pinv {s : St} (h : Run s) : PInv s := by
  induction h with
  | init => exact ⟨fun i th hi => by simp at hi, fun i th hi => by simp at hi⟩
  | step h0 ha hs ih => exact step_pinv h0 ih ha hs

end Shadow.Ipc
