import Verif.Signal.Delivery

/-!
# Emulated signals: running the handlers (C50)
-/
namespace Shadow.Signal
open Shadow.Base

/-- Signals whose default action ends the process: all but SIGCHLD, SIGCONT, SIGSTOP, SIGTSTP,
SIGTTIN, SIGTTOU, SIGURG and SIGWINCH. -/
def Kills (sig : Nat) : Prop := sig ∉ [17, 18, 19, 20, 21, 22, 23, 28]

instance (sig : Nat) : Decidable (Kills sig) := inferInstanceAs (Decidable (¬ _))

theorem defaultAction_cases (sig : Nat) :
    ((defaultAction sig = .core ∨ defaultAction sig = .term) ∧ Kills sig) ∨
    (defaultAction sig = .ign ∧ (sig = 17 ∨ sig = 23 ∨ sig = 28)) ∨
    ((defaultAction sig = .stop ∨ defaultAction sig = .cont) ∧
      (sig = 18 ∨ sig = 19 ∨ sig = 20 ∨ sig = 21 ∨ sig = 22)) := by
  unfold defaultAction Kills
  simp only [List.mem_cons, List.not_mem_nil, or_false]
  split
  · exact .inr (.inr ⟨.inr rfl, by omega⟩)
  split
  · exact .inl ⟨.inl rfl, by omega⟩
  split
  · exact .inr (.inl ⟨rfl, by omega⟩)
  split
  · exact .inr (.inr ⟨.inl rfl, by omega⟩)
  · exact .inl ⟨.inr rfl, by omega⟩

/-- The signals of a queue that thread `t` does not block. -/
def Ready (s : St) (t : Thread) (q : Queue) (n : Nat) : Prop :=
  IsSig n ∧ s.pending q n ≠ none ∧ ¬ Mem t.blocked n

/-- What is done with a taken signal. -/
def Acted (s : St) (k : Nat) (t : Thread) (sig : Nat) (i : Info) (o : Out) (s' : St) : Prop :=
  -- a handler of the program runs, with the mask and the action that belong to it
  (∃ n t', (s.actions sig).handler = .fn n ∧ o = .handler n sig i ∧ s'.threads[k]? = some t' ∧
    (∀ m, IsSig m → (Mem t'.blocked m ↔
      Mem t.blocked m ∨ Mem (s.actions sig).mask m ∨
        (m = sig ∧ (s.actions sig).nodefer = false))) ∧
    (((s.actions sig).onstack = false ∨ t.stack.disable = true) → t'.stack = t.stack) ∧
    ((s.actions sig).onstack = true → t.stack.disable = false → t.stack.autodisarm = true →
      t'.stack.disable = true) ∧
    ((s.actions sig).onstack = true → t.stack.disable = false → t.stack.autodisarm = false →
      t'.stack = { t.stack with onstack := true }) ∧
    (∀ m, s'.actions m =
      if m = sig ∧ (s.actions sig).resethand = true then {} else s.actions m) ∧
    s'.dead = s.dead) ∨
  -- it is ignored, and nothing else changes
  (Ignores (s.actions sig) sig ∧ o = .skipped sig ∧ s'.actions = s.actions ∧ s'.dead = s.dead ∧
    ∃ t', s'.threads[k]? = some t' ∧ t'.blocked = t.blocked ∧ t'.stack = t.stack ∧
      t'.acts = t.acts) ∨
  -- the process ends
  ((s.actions sig).handler = .dfl ∧ Kills sig ∧ o = .died sig ∧ s'.dead = some sig)

theorem mem_maskDuring {act : Action} {sig m : Nat} {orig : Sigset} (hs : IsSig sig)
    (hm : IsSig m) : Mem (maskDuring act sig orig) m ↔
      Mem orig m ∨ Mem act.mask m ∨ (m = sig ∧ act.nodefer = false) := by
  unfold maskDuring
  cases h : act.nodefer with
  | true =>
    simp only [if_true, mem_or, reduceCtorEq, and_false, or_false]
    exact Or.comm
  | false =>
    simp only [Bool.false_eq_true, if_false, mem_add hs hm, mem_or, and_true]
    constructor
    · rintro (h | h | h)
      · exact .inr (.inr h)
      · exact .inr (.inl h)
      · exact .inl h
    · rintro (h | h | h)
      · exact .inr (.inr h)
      · exact .inr (.inl h)
      · exact .inl h

/-- Everything about an iteration but the order. -/
theorem deliver_acted {s s' : St} {k : Nat} {t : Thread} {a : Activation} {as : List Activation}
    {o : Out} {e : List Ev} {sig : Nat} {i : Info} {own : Bool} {q : Pend}
    (ht : s.threads[k]? = some t) (hs : IsSig sig)
    (h1 : take s.pend t = .ok (some ((sig, i), own, q)))
    (h : deliver s k t a as = .ok (o, s', e)) :
    e = [.took k (if own then .thread k else .process) sig i] ∧ Acted s k t sig i o s' := by
  have hk : k < s.threads.length := (List.getElem?_eq_some_iff.1 ht).1
  unfold deliver at h
  rw [h1] at h
  simp only [R.bind_ok] at h
  have hpt : (if own = true then ({ t with pend := q } : Thread) else t).blocked = t.blocked ∧
      (if own = true then ({ t with pend := q } : Thread) else t).stack = t.stack ∧
      (if own = true then ({ t with pend := q } : Thread) else t).acts = t.acts := by
    cases own <;> exact ⟨rfl, rfl, rfl⟩
  have hst : (if own = true then s else ({ s with pend := q } : St)).actions = s.actions ∧
      (if own = true then s else ({ s with pend := q } : St)).threads = s.threads ∧
      (if own = true then s else ({ s with pend := q } : St)).dead = s.dead := by
    cases own <;> exact ⟨rfl, rfl, rfl⟩
  generalize (if own = true then ({ t with pend := q } : Thread) else t) = t1 at h hpt
  generalize (if own = true then s else ({ s with pend := q } : St)) = s1 at h hst
  obtain ⟨hb, hsk, hct⟩ := hpt
  obtain ⟨ha, hth, hd⟩ := hst
  rw [ha, hth] at h
  split at h
  · rename_i hh
    cases h
    refine ⟨rfl, .inr (.inl ⟨.inl hh, rfl, rfl, hd, t1, ?_, hb, hsk, hct⟩)⟩
    simp [hk]
  · rename_i hh
    split at h
    · rename_i hda
      cases h
      refine ⟨rfl, .inr (.inl ⟨.inr ⟨hh, ?_⟩, rfl, rfl, hd, t1, ?_, hb, hsk, hct⟩)⟩
      · rcases defaultAction_cases sig with ⟨h1, _⟩ | ⟨_, h1⟩ | ⟨h1, _⟩
        · rcases h1 with h1 | h1 <;> (rw [hda] at h1; cases h1)
        · exact h1
        · rcases h1 with h1 | h1 <;> (rw [hda] at h1; cases h1)
      · simp [hk]
    · rename_i hda
      cases h
      refine ⟨rfl, .inr (.inr ⟨hh, ?_, rfl, rfl⟩)⟩
      rcases defaultAction_cases sig with ⟨_, h1⟩ | ⟨h1, _⟩ | ⟨h1, _⟩
      · exact h1
      · rw [hda] at h1; cases h1
      · rcases h1 with h1 | h1 <;> (rw [hda] at h1; cases h1)
    · rename_i hda
      cases h
      refine ⟨rfl, .inr (.inr ⟨hh, ?_, rfl, rfl⟩)⟩
      rcases defaultAction_cases sig with ⟨_, h1⟩ | ⟨h1, _⟩ | ⟨h1, _⟩
      · exact h1
      · rw [hda] at h1; cases h1
      · rcases h1 with h1 | h1 <;> (rw [hda] at h1; cases h1)
    · cases h
    · cases h
  · rename_i n hh
    cases h
    refine ⟨rfl, .inl ⟨n, _, hh, rfl, by simp [hk]; rfl, fun m hm => ?_, ?_, ?_, ?_,
      fun m => ?_, hd⟩⟩
    · simp only [hb]
      exact mem_maskDuring hs hm
    · intro h
      simp only [hsk, stackDuring]
      rw [if_neg]
      rcases h with h | h <;> simp [h]
    · intro h1 h2 h3
      simp [hsk, stackDuring, h1, h2, h3]
    · intro h1 h2 h3
      simp [hsk, stackDuring, h1, h2, h3]
    · simp only
      cases (s.actions sig).resethand with
      | true => by_cases hm : m = sig <;> simp [hm]
      | false => simp

/-- **The order of handling and what happens.**  An iteration of the loop takes the unblocked signal
with the lowest number among those sent to the thread; when there is none, the one with the lowest
number among those sent to the process; when there is none either, and only then, the loop ends.
The signal taken is handled as the action of the process says. -/
theorem C50_order {s s' : St} {k : Nat} {t : Thread} {a : Activation} {as : List Activation}
    {o : Out} {e : List Ev} (ht : s.threads[k]? = some t)
    (h : deliver s k t a as = .ok (o, s', e)) :
    ((∀ n, ¬ Ready s t (.thread k) n) ∧ (∀ n, ¬ Ready s t .process n) ∧ e = [] ∧
      o = .done a.restart ∧ s' = s.put k { t with acts := as }) ∨
    (∃ sig i, Ready s t (.thread k) sig ∧ (∀ n, Ready s t (.thread k) n → sig ≤ n) ∧
      s.pending (.thread k) sig = some i ∧
      e = [.took k (.thread k) sig i] ∧ Acted s k t sig i o s') ∨
    (∃ sig i, (∀ n, ¬ Ready s t (.thread k) n) ∧ Ready s t .process sig ∧
      (∀ n, Ready s t .process n → sig ≤ n) ∧ s.pending .process sig = some i ∧
      e = [.took k .process sig i] ∧ Acted s k t sig i o s') := by
  have hth : ∀ n, s.pending (.thread k) n = t.pend.at n := fun n => by simp [St.pending, ht]
  have nomem : ∀ {p : Pend} {n : Nat}, p.at n ≠ none → Mem p.set n := fun {p n} hn =>
    Classical.byContradiction fun hm => hn (at_none.2 hm)
  have hd := h
  unfold deliver at h
  obtain ⟨o1, h1, h⟩ := (R.bind_eq_ok ..).1 h
  rcases take_cases h1 with ⟨h2, h3, h4⟩ | ⟨⟨sig, i⟩, q, h2, h3⟩ | ⟨⟨sig, i⟩, q, h2, h3, h4⟩
  · subst h2
    cases h
    refine .inl ⟨fun n hn => ?_, fun n hn => ?_, rfl, rfl, rfl⟩
    · obtain ⟨hs, hp, hb⟩ := hn
      rw [hth] at hp
      exact hb (take_none h3 n hs (nomem hp))
    · obtain ⟨hs, hp, hb⟩ := hn
      exact hb (take_none h4 n hs (nomem hp))
  · subst h2
    obtain ⟨hs, hat, hb, hlow, _⟩ := take_some h3
    obtain ⟨he, hact⟩ := deliver_acted ht hs h1 hd
    refine .inr (.inl ⟨sig, i, ⟨hs, by rw [hth, hat]; simp, hb⟩, fun n hn => ?_,
      by rw [hth, hat], by simpa using he, hact⟩)
    obtain ⟨hn, hp, hnb⟩ := hn
    rw [hth] at hp
    apply Nat.le_of_not_lt
    intro hlt
    exact hnb (hlow n hn hlt (nomem hp))
  · subst h2
    obtain ⟨hs, hat, hb, hlow, _⟩ := take_some h4
    obtain ⟨he, hact⟩ := deliver_acted ht hs h1 hd
    refine .inr (.inr ⟨sig, i, fun n hn => ?_, ⟨hs, ?_, hb⟩, fun n hn => ?_, hat,
      by simpa using he, hact⟩)
    · obtain ⟨hn, hp, hnb⟩ := hn
      rw [hth] at hp
      exact hnb (take_none h3 n hn (nomem hp))
    · show s.pend.at sig ≠ none
      rw [hat]; simp
    · obtain ⟨hn, hp, hnb⟩ := hn
      apply Nat.le_of_not_lt
      intro hlt
      exact hnb (hlow n hn hlt (nomem hp))

/-! ## Activations -/

/-- How a step changes the activations of a thread. -/
def ActsStep (a : Act) (k : Nat) (s : St) (t t' : Thread) : Prop :=
  t'.acts = t.acts ∨
  (a = .enter k ∧ t'.acts = {} :: t.acts) ∨
  (a = .deliver k ∧ ∃ x xs, t.acts = x :: xs ∧ x.frame = none ∧
    (t'.acts = xs ∨
     (∃ act sig, s.actions sig = act ∧ t'.acts =
       { x with restart := if act.restart then x.restart else false,
                frame := some (t.blocked, t.stack), ran := x.ran ++ [act] } :: xs))) ∨
  (a = .ret k ∧ ∃ x xs m st, t.acts = x :: xs ∧ x.frame = some (m, st) ∧
    t'.acts = { x with frame := none } :: xs ∧ t'.blocked = m ∧ t'.stack = st)

theorem acts_set {l : List Thread} {j k : Nat} {u u' t : Thread} {a : Act} {s : St}
    (hu : l[j]? = some u) (ht : l[k]? = some t)
    (h : j = k → ActsStep a k s u u') :
    ∃ t', (l.set j u')[k]? = some t' ∧ ActsStep a k s t t' := by
  by_cases hj : j = k
  · subst hj
    rw [hu] at ht
    cases ht
    exact ⟨u', by simp [(List.getElem?_eq_some_iff.1 hu).1], h rfl⟩
  · exact ⟨t, by rw [List.getElem?_set_ne hj]; exact ht, .inl rfl⟩

theorem acts_interrupt {sig : Nat} {ts : List Thread} {k : Nat} {t : Thread} {a : Act} {s : St}
    (ht : ts[k]? = some t) : ∃ t', (interrupt sig ts)[k]? = some t' ∧ ActsStep a k s t t' := by
  rcases interrupt_get sig ts k with h | ⟨u, b, h1, _, _, h2⟩
  · exact ⟨t, by rw [h, ht], .inl rfl⟩
  · rw [ht] at h1; cases h1
    exact ⟨_, h2, .inl rfl⟩

theorem acts_procSignal {s s' : St} {cur : Option Nat} {i : Info} {e : List Ev} {k : Nat}
    {t : Thread} {a : Act} (ht : s.threads[k]? = some t) (h : procSignal s cur i = .ok (s', e)) :
    ∃ t', s'.threads[k]? = some t' ∧ ActsStep a k s t t' := by
  unfold procSignal at h
  split at h
  · split at h
    · cases h; exact ⟨t, ht, .inl rfl⟩
    · cases h
  split at h
  · cases h; exact ⟨t, ht, .inl rfl⟩
  split at h
  · cases h; exact ⟨t, ht, .inl rfl⟩
  obtain ⟨p, _, h⟩ := (R.bind_eq_ok ..).1 h
  simp only at h
  split at h
  · split at h
    · cases h; exact acts_interrupt ht
    · cases h; exact ⟨t, ht, .inl rfl⟩
  · cases h; exact acts_interrupt ht

theorem acts_signalThread {s s' : St} {cur : Option Nat} {j k : Nat} {u t : Thread} {signo : Int}
    {tag : Nat} {r : Ret} {e : List Ev} {a : Act} (hu : s.threads[j]? = some u)
    (ht : s.threads[k]? = some t) (h : signalThread s cur j u signo tag = .ok (r, s', e)) :
    ∃ t', s'.threads[k]? = some t' ∧ ActsStep a k s t t' := by
  unfold signalThread at h
  split at h
  · cases h; exact ⟨t, ht, .inl rfl⟩
  split at h
  · cases h; exact ⟨t, ht, .inl rfl⟩
  split at h
  · cases h; exact ⟨t, ht, .inl rfl⟩
  split at h
  · cases h; exact ⟨t, ht, .inl rfl⟩
  split at h
  · cases h; exact ⟨t, ht, .inl rfl⟩
  obtain ⟨p, _, h⟩ := (R.bind_eq_ok ..).1 h
  simp only at h
  split at h
  · cases h; exact acts_set hu ht fun _ => .inl rfl
  split at h
  · cases h; exact acts_set hu ht fun _ => .inl rfl
  split at h
  · obtain ⟨_, _, h⟩ := (R.bind_eq_ok ..).1 h
    cases h
    rw [List.set_set]
    refine acts_set hu ht fun _ => .inl ?_
    unfold wakeupForSignal
    split <;> rfl
  · cases h; exact acts_set hu ht fun _ => .inl rfl

theorem acts_deliver {s s' : St} {j k : Nat} {u t : Thread} {x : Activation}
    {xs : List Activation} {o : Out} {e : List Ev} (hu : s.threads[j]? = some u)
    (ht : s.threads[k]? = some t) (hx : u.acts = x :: xs) (hf : x.frame = none)
    (h : deliver s j u x xs = .ok (o, s', e)) :
    ∃ t', s'.threads[k]? = some t' ∧ ActsStep (.deliver j) k s t t' := by
  unfold deliver at h
  obtain ⟨o1, h1, h⟩ := (R.bind_eq_ok ..).1 h
  cases o1 with
  | none =>
    cases h
    refine acts_set hu ht fun hjk => ?_
    subst hjk
    exact .inr (.inr (.inl ⟨rfl, x, xs, hx, hf, .inl rfl⟩))
  | some y =>
    obtain ⟨⟨sig, i⟩, own, q⟩ := y
    simp only at h
    have hpt : (if own = true then ({ u with pend := q } : Thread) else u).blocked = u.blocked ∧
        (if own = true then ({ u with pend := q } : Thread) else u).stack = u.stack ∧
        (if own = true then ({ u with pend := q } : Thread) else u).acts = u.acts := by
      cases own <;> exact ⟨rfl, rfl, rfl⟩
    have hst : (if own = true then s else ({ s with pend := q } : St)).actions = s.actions ∧
        (if own = true then s else ({ s with pend := q } : St)).threads = s.threads := by
      cases own <;> exact ⟨rfl, rfl⟩
    generalize (if own = true then ({ u with pend := q } : Thread) else u) = u1 at h hpt
    generalize (if own = true then s else ({ s with pend := q } : St)) = s1 at h hst
    obtain ⟨hb, hsk, hct⟩ := hpt
    obtain ⟨ha, hth⟩ := hst
    rw [ha, hth] at h
    split at h
    · cases h; exact acts_set hu ht fun _ => .inl hct
    · split at h
      · cases h; exact acts_set hu ht fun _ => .inl hct
      · cases h; exact acts_set hu ht fun _ => .inl hct
      · cases h; exact acts_set hu ht fun _ => .inl hct
      · cases h
      · cases h
    · cases h
      refine acts_set hu ht fun hjk => ?_
      subst hjk
      refine .inr (.inr (.inl ⟨rfl, x, xs, hx, hf, .inr ⟨_, sig, rfl, ?_⟩⟩))
      simp only [hb, hsk]

theorem step_acts {s s' : St} {a : Act} {e : List Ev} {k : Nat} {t : Thread}
    (ht : s.threads[k]? = some t) (h : step s a = some (.ok (s', e))) :
    ∃ t', s'.threads[k]? = some t' ∧ ActsStep a k s t t' := by
  unfold step at h
  split at h
  · cases h
  split at h
  · split at h
    · exact acts_procSignal ht (Option.some.inj h)
    · cases h
  · split at h
    · obtain ⟨⟨r, s1, e1⟩, h1, h2⟩ := (R.bind_eq_ok ..).1 (Option.some.inj h)
      cases h2
      unfold signalProcess at h1
      split at h1
      · cases h1; exact ⟨t, ht, .inl rfl⟩
      split at h1
      · cases h1; exact ⟨t, ht, .inl rfl⟩
      split at h1
      · cases h1; exact ⟨t, ht, .inl rfl⟩
      obtain ⟨⟨s2, e2⟩, h3, h4⟩ := (R.bind_eq_ok ..).1 h1
      cases h4
      exact acts_procSignal ht h3
    · cases h
  · split at h
    · cases h
    · rename_i u hu
      split at h
      · obtain ⟨⟨r, s1, e1⟩, h1, h2⟩ := (R.bind_eq_ok ..).1 (Option.some.inj h)
        cases h2
        exact acts_signalThread hu ht h1
      · cases h
  · split at h
    · cases h
    · rename_i u hu
      split at h
      · have h := Option.some.inj h
        unfold hardwareError at h
        split at h
        · cases h; exact ⟨t, ht, .inl rfl⟩
        · obtain ⟨p, h1, h⟩ := (R.bind_eq_ok ..).1 h
          cases h
          exact acts_set (running_some hu).1 ht fun _ => .inl rfl
      · cases h
  · obtain ⟨u, hu, h⟩ := Option.map_eq_some_iff.1 h
    cases h
    exact acts_set (running_some hu).1 ht fun _ => .inl (sigprocmask_pend ..).2.2
  · obtain ⟨u, hu, h⟩ := Option.map_eq_some_iff.1 h
    cases h
    exact ⟨t, by rw [(sigaction_threads ..).1]; exact ht, .inl rfl⟩
  · obtain ⟨u, hu, h⟩ := Option.map_eq_some_iff.1 h
    cases h
    exact acts_set (running_some hu).1 ht fun _ => .inl (sigaltstack_pend ..).2.2
  · cases h
    refine ⟨t, ?_, .inl rfl⟩
    show (s.threads ++ _)[k]? = _
    rw [List.getElem?_append_left (List.getElem?_eq_some_iff.1 ht).1]
    exact ht
  · split at h
    · rename_i u hu
      split at h
      · cases h; exact acts_set hu ht fun _ => .inl rfl
      · cases h
    · cases h
  · obtain ⟨u, hu, h⟩ := Option.map_eq_some_iff.1 h
    split at h
    · cases h; exact ⟨t, ht, .inl rfl⟩
    · cases h; exact acts_set (running_some hu).1 ht fun _ => .inl rfl
  · split at h
    · rename_i u hu
      split at h
      · cases h; exact acts_set hu ht fun _ => .inl rfl
      · cases h
    · cases h
  · split at h
    · rename_i u hu
      split at h
      · split at h
        · cases h; exact acts_set hu ht fun _ => .inl rfl
        · cases h; exact acts_set hu ht fun _ => .inl rfl
      · cases h
    · cases h
  · obtain ⟨u, hu, h⟩ := Option.map_eq_some_iff.1 h
    cases h
    refine acts_set (running_some hu).1 ht fun hjk => ?_
    subst hjk
    exact .inr (.inl ⟨rfl, rfl⟩)
  · split at h
    · rename_i u hu
      split at h
      · rename_i x xs hx
        split at h
        · rename_i hf
          obtain ⟨⟨r, s1, e1⟩, h1, h2⟩ := (R.bind_eq_ok ..).1 (Option.some.inj h)
          cases h2
          exact acts_deliver (running_some hu).1 ht hx hf h1
        · cases h
      · cases h
    · cases h
  · split at h
    · rename_i u hu
      split at h
      · rename_i x xs hx
        split at h
        · rename_i m st hf
          cases h
          refine acts_set (running_some hu).1 ht fun hjk => ?_
          subst hjk
          exact .inr (.inr (.inr ⟨rfl, x, xs, m, st, hx, hf, rfl, rfl, rfl⟩))
        · cases h
      · cases h
    · cases h
  · obtain ⟨u, hu, h⟩ := Option.map_eq_some_iff.1 h
    cases h
    exact acts_set (running_some hu).1 ht fun _ => .inl rfl

/-- The number of activations of `process_signals` on the stack of thread `k`. -/
def depth (s : St) (k : Nat) : Nat :=
  match s.threads[k]? with
  | some t => t.acts.length
  | none => 0

/-- Executions in which thread `k` does not return from the handler of activation number `d`. -/
inductive Within (k d : Nat) (s₀ : St) : St → Prop where
  | refl : Within k d s₀ s₀
  | step {s a s' e} : Within k d s₀ s → step s a = some (.ok (s', e)) →
      ¬ (a = .ret k ∧ depth s k = d) → Within k d s₀ s'

theorem within_acts {k : Nat} {s₀ s : St} {t₀ : Thread} {x : Activation} {xs : List Activation}
    {m : Sigset} {st : Stack} (h0 : s₀.threads[k]? = some t₀) (hx : t₀.acts = x :: xs)
    (hf : x.frame = some (m, st)) (h : Within k (xs.length + 1) s₀ s) :
    ∃ t ys, s.threads[k]? = some t ∧ t.acts = ys ++ x :: xs := by
  induction h with
  | refl => exact ⟨t₀, [], h0, hx⟩
  | @step s1 a s' e _ hst hno ih =>
    obtain ⟨t, ys, ht, hac⟩ := ih
    obtain ⟨t', ht', hs⟩ := step_acts ht hst
    refine ⟨t', ?_⟩
    rcases hs with h | ⟨_, h⟩ | ⟨_, y, zs, hy, hyf, h⟩ | ⟨ha, y, zs, m', st', hy, _, h, _⟩
    · exact ⟨ys, ht', by rw [h, hac]⟩
    · exact ⟨{} :: ys, ht', by rw [h, hac]; rfl⟩
    · cases ys with
      | nil =>
        rw [hac, List.nil_append] at hy
        cases hy
        rw [hf] at hyf
        cases hyf
      | cons w ws =>
        rw [hac, List.cons_append] at hy
        cases hy
        rcases h with h | ⟨act, sig, _, h⟩
        · exact ⟨ws, ht', h⟩
        · exact ⟨_ :: ws, ht', by rw [h]; rfl⟩
    · cases ys with
      | nil =>
        exfalso
        apply hno
        refine ⟨ha, ?_⟩
        simp [depth, ht, hac]
      | cons w ws =>
        rw [hac, List.cons_append] at hy
        cases hy
        exact ⟨_ :: ws, ht', by rw [h]; rfl⟩

/-- **A handler leaves no trace in the mask.**  When a handler starts on thread `k` and later
returns, the thread has the signal mask and the alternate stack from before, whatever the handler
and the other threads did meanwhile: change masks and actions, block, send and receive signals, run
further handlers on top. -/
theorem C50_restores {s s₁ s₂ s₃ : St} {k : Nat} {t : Thread} {a : Activation}
    {as : List Activation} {n sig : Nat} {i : Info} {e e' : List Ev}
    (ht : s.threads[k]? = some t) (hac : t.acts = a :: as) (hfr : a.frame = none)
    (hd : deliver s k t a as = .ok (.handler n sig i, s₁, e))
    (hw : Within k (depth s k) s₁ s₂) (hdep : depth s₂ k = depth s k)
    (hret : step s₂ (.ret k) = some (.ok (s₃, e'))) :
    ∃ t₃, s₃.threads[k]? = some t₃ ∧ t₃.blocked = t.blocked ∧ t₃.stack = t.stack ∧
      depth s₃ k = depth s k := by
  have hdp : depth s k = as.length + 1 := by simp [depth, ht, hac]
  rw [hdp] at hw hdep ⊢
  obtain ⟨t1, ht1, h1⟩ := acts_deliver ht ht hac hfr hd
  obtain ⟨y, hy, hyf⟩ : ∃ y, t1.acts = y :: as ∧ y.frame = some (t.blocked, t.stack) := by
    rcases C50_order ht hd with ⟨_, _, _, h, _⟩ | ⟨_, _, _, _, _, _, h⟩ | ⟨_, _, _, _, _, _, _, h⟩
    · cases h
    all_goals
      rcases h with ⟨n', t', hh, ho, _⟩ | ⟨_, h, _⟩ | ⟨_, _, h, _⟩
      · unfold deliver at hd
        obtain ⟨o1, ht1', hd⟩ := (R.bind_eq_ok ..).1 hd
        cases o1 with
        | none => cases hd
        | some z =>
          obtain ⟨⟨sg, ii⟩, own, q⟩ := z
          simp only at hd
          split at hd
          · cases hd
          · split at hd <;> cases hd
          · have hk : k < s.threads.length := (List.getElem?_eq_some_iff.1 ht).1
            cases hd
            have hth : (if own = true then s else ({ s with pend := q } : St)).threads = s.threads := by
              cases own <;> rfl
            simp only [hth] at ht1
            rw [List.getElem?_set_self hk] at ht1
            cases ht1
            refine ⟨_, rfl, ?_⟩
            cases own <;> rfl
      · cases h
      · cases h
  obtain ⟨t2, ys, ht2, hac2⟩ := within_acts ht1 hy hyf hw
  have hys : ys = [] := by
    simp only [depth, ht2, hac2, List.length_append, List.length_cons] at hdep
    exact List.length_eq_zero_iff.1 (by omega)
  subst hys
  obtain ⟨t3, ht3, h3⟩ := step_acts ht2 hret
  rw [List.nil_append] at hac2
  have hr : ∃ x xs m st, t2.acts = x :: xs ∧ x.frame = some (m, st) ∧
      t3.acts = { x with frame := none } :: xs ∧ t3.blocked = m ∧ t3.stack = st := by
    unfold step at hret
    split at hret
    · cases hret
    simp only at hret
    split at hret
    · rename_i u hu
      split at hret
      · rename_i x xs hx
        split at hret
        · rename_i m st hf
          cases hret
          obtain ⟨hu1, _⟩ := running_some hu
          rw [ht2] at hu1
          cases hu1
          rw [St.put, List.getElem?_set_self (List.getElem?_eq_some_iff.1 ht2).1] at ht3
          cases ht3
          exact ⟨x, xs, m, st, hx, hf, rfl, rfl, rfl⟩
        · cases hret
      · cases hret
    · cases hret
  obtain ⟨x, xs, m, st, hx, hf, hxs, hm, hst⟩ := hr
  rw [hac2] at hx
  cases hx
  rw [hyf] at hf
  cases hf
  exact ⟨t3, ht3, hm, hst, by simp [depth, ht3, hxs]⟩

/-- **Restarting.**  In every execution, the value that `process_signals` returns says whether all
handlers it ran had `SA_RESTART`. -/
theorem C50_restart {actions : Nat → Action} {es : List Ev} {s : St} {k : Nat} {t : Thread}
    (h : Run (fresh actions) es s) (ht : s.threads[k]? = some t) (a : Activation) (ha : a ∈ t.acts) :
    a.restart = true ↔ ∀ act ∈ a.ran, act.restart = true := by
  induction h generalizing k t a with
  | nil =>
    cases k with
    | zero => cases ht; cases ha
    | succ k => simp [fresh] at ht
  | @step es s1 ac s' e _ hst ih =>
    by_cases hold : ∃ t0, s1.threads[k]? = some t0
    · obtain ⟨t0, ht0⟩ := hold
      obtain ⟨t', ht', hs⟩ := step_acts ht0 hst
      rw [ht] at ht'
      cases ht'
      have ih := fun a ha => ih ht0 a ha
      rcases hs with h | ⟨_, h⟩ | ⟨_, y, zs, hy, _, h⟩ | ⟨_, y, zs, m, st, hy, _, h, _⟩
      · rw [h] at ha; exact ih a ha
      · rw [h] at ha
        rcases List.mem_cons.1 ha with h | h
        · subst h; simp
        · exact ih a h
      · rw [hy] at ih
        rcases h with h | ⟨act, sig, _, h⟩
        · rw [h] at ha; exact ih a (.tail _ ha)
        · rw [h] at ha
          rcases List.mem_cons.1 ha with h | h
          · subst h
            have := ih y (.head _)
            cases hr : act.restart with
            | true =>
              simp only [if_true, this, List.mem_append, List.mem_singleton]
              constructor
              · rintro h b (hb | hb)
                · exact h b hb
                · rw [hb, hr]
              · exact fun h b hb => h b (.inl hb)
            | false =>
              simp only [Bool.false_eq_true, if_false, false_iff]
              intro h
              have := h act (by simp)
              rw [hr] at this
              cases this
          · exact ih a (.tail _ h)
      · rw [h] at ha
        rw [hy] at ih
        rcases List.mem_cons.1 ha with h | h
        · subst h; exact ih y (.head _)
        · exact ih a (.tail _ h)
    · -- a new thread
      have hnone : s1.threads[k]? = none := by
        cases hg : s1.threads[k]? with
        | none => rfl
        | some t0 => exact absurd ⟨t0, hg⟩ hold
      have hlen : s1.threads.length ≤ k := List.getElem?_eq_none_iff.1 hnone
      have : t.acts = [] := by
        have hgrow : s'.threads = s1.threads ++ [({} : Thread)] ∨ s'.threads.length = s1.threads.length := by
          unfold step at hst
          split at hst
          · cases hst
          have proc : ∀ {c i e s2}, procSignal s1 c i = .ok (s2, e) →
              s2.threads.length = s1.threads.length := by
            intro c i e s2 h
            unfold procSignal at h
            split at h
            · split at h
              · cases h; rfl
              · cases h
            split at h
            · cases h; rfl
            split at h
            · cases h; rfl
            obtain ⟨p, _, h⟩ := (R.bind_eq_ok ..).1 h
            simp only at h
            split at h
            · split at h
              · cases h; exact interrupt_length ..
              · cases h; rfl
            · cases h; exact interrupt_length ..
          split at hst
          · split at hst
            · exact .inr (proc (Option.some.inj hst))
            · cases hst
          · split at hst
            · obtain ⟨⟨r, s2, e1⟩, h1, h2⟩ := (R.bind_eq_ok ..).1 (Option.some.inj hst)
              cases h2
              unfold signalProcess at h1
              split at h1
              · cases h1; exact .inr rfl
              split at h1
              · cases h1; exact .inr rfl
              split at h1
              · cases h1; exact .inr rfl
              obtain ⟨⟨s3, e2⟩, h3, h4⟩ := (R.bind_eq_ok ..).1 h1
              cases h4
              exact .inr (proc h3)
            · cases hst
          · split at hst
            · cases hst
            · split at hst
              · obtain ⟨⟨r, s2, e1⟩, h1, h2⟩ := (R.bind_eq_ok ..).1 (Option.some.inj hst)
                cases h2
                right
                unfold signalThread at h1
                split at h1
                · cases h1; rfl
                split at h1
                · cases h1; rfl
                split at h1
                · cases h1; rfl
                split at h1
                · cases h1; rfl
                split at h1
                · cases h1; rfl
                obtain ⟨p, _, h1⟩ := (R.bind_eq_ok ..).1 h1
                simp only at h1
                split at h1
                · cases h1; simp
                split at h1
                · cases h1; simp
                split at h1
                · obtain ⟨_, _, h1⟩ := (R.bind_eq_ok ..).1 h1
                  cases h1; simp
                · cases h1; simp
              · cases hst
          · split at hst
            · cases hst
            · split at hst
              · have h := Option.some.inj hst
                unfold hardwareError at h
                split at h
                · cases h; exact .inr rfl
                · obtain ⟨p, _, h⟩ := (R.bind_eq_ok ..).1 h
                  cases h; exact .inr (by simp)
              · cases hst
          · obtain ⟨u, _, h⟩ := Option.map_eq_some_iff.1 hst
            cases h; exact .inr (by simp [St.put])
          · obtain ⟨u, _, h⟩ := Option.map_eq_some_iff.1 hst
            cases h; exact .inr (by rw [(sigaction_threads ..).1])
          · obtain ⟨u, _, h⟩ := Option.map_eq_some_iff.1 hst
            cases h; exact .inr (by simp [St.put])
          · cases hst; exact .inl rfl
          · split at hst
            · split at hst
              · cases hst; exact .inr (by simp [St.put])
              · cases hst
            · cases hst
          · obtain ⟨u, _, h⟩ := Option.map_eq_some_iff.1 hst
            split at h
            · cases h; exact .inr rfl
            · cases h; exact .inr (by simp [St.put])
          · split at hst
            · split at hst
              · cases hst; exact .inr (by simp [St.put])
              · cases hst
            · cases hst
          · split at hst
            · split at hst
              · split at hst
                · cases hst; exact .inr (by simp [St.put])
                · cases hst; exact .inr (by simp [St.put])
              · cases hst
            · cases hst
          · obtain ⟨u, _, h⟩ := Option.map_eq_some_iff.1 hst
            cases h; exact .inr (by simp [St.put])
          · split at hst
            · split at hst
              · split at hst
                · obtain ⟨⟨r, s2, e1⟩, h1, h2⟩ := (R.bind_eq_ok ..).1 (Option.some.inj hst)
                  cases h2
                  right
                  unfold deliver at h1
                  obtain ⟨o1, _, h1⟩ := (R.bind_eq_ok ..).1 h1
                  cases o1 with
                  | none => cases h1; simp
                  | some y =>
                    obtain ⟨⟨sig, i⟩, own, q⟩ := y
                    have hth : (if own = true then s1 else ({ s1 with pend := q } : St)).threads =
                        s1.threads := by cases own <;> rfl
                    simp only at h1
                    split at h1
                    · cases h1; simp [hth]
                    · split at h1
                      · cases h1; simp [hth]
                      · cases h1; simp [hth]
                      · cases h1; simp [hth]
                      · cases h1
                      · cases h1
                    · cases h1; simp [hth]
                · cases hst
              · cases hst
            · cases hst
          · split at hst
            · split at hst
              · split at hst
                · cases hst; exact .inr (by simp [St.put])
                · cases hst
              · cases hst
            · cases hst
          · obtain ⟨u, _, h⟩ := Option.map_eq_some_iff.1 hst
            cases h; exact .inr (by simp [St.put])
        rcases hgrow with h | h
        · rw [h, List.getElem?_append_right hlen] at ht
          rcases Nat.eq_zero_or_pos (k - s1.threads.length) with h0 | h0
          · rw [h0] at ht; cases ht; rfl
          · rw [List.getElem?_eq_none (by simp only [List.length_singleton]; omega)] at ht
            cases ht
        · rw [List.getElem?_eq_none (by omega)] at ht
          cases ht
      rw [this] at ha
      cases ha

/-! ## Panics -/

theorem pending_std {actions : Nat → Action} {es : List Ev} {s : St} (h : Run (fresh actions) es s)
    (q : Queue) (n : Nat) (hn : IsSig n) (hp : s.pending q n ≠ none) : n ≤ 31 := by
  induction h with
  | nil => exact absurd (fresh_pending ..) hp
  | @step es s1 a s' e _ hst ih =>
    rcases step_pending hst with ⟨_, hq⟩ | ⟨q', m, i, _, hm, h31, _, hq⟩ |
      ⟨k, t, q', m, i, _, _, _, hm, _, _, _, hq⟩
    · rw [hq q n hn] at hp; exact ih hp
    · rw [hq q n hn] at hp
      split at hp
      · rename_i hh; rw [hh.2]; exact h31
      · exact ih hp
    · rw [hq q n hn] at hp
      split at hp
      · exact absurd rfl hp
      · exact ih hp

theorem procSignal_panic {s : St} {cur : Option Nat} {i : Info}
    (h : procSignal s cur i = .panic) : i.signo ≠ 0 ∧ (i.signo < 0 ∨ 31 < i.signo) := by
  unfold procSignal at h
  split at h
  · rename_i hn
    unfold ofInt at hn
    split at hn
    · cases hn
    · split at h
      · cases h
      · omega
  · rename_i sig hsig
    obtain ⟨hs, hv⟩ := ofInt_some hsig
    split at h
    · cases h
    split at h
    · cases h
    by_cases h31 : sig ≤ 31
    · exfalso
      obtain ⟨p, hp⟩ := push_ne_panic (p := s.pend) (i := i) hs h31
      rw [hp] at h
      simp only [R.bind_ok] at h
      split at h
      · split at h <;> cases h
      · cases h
    · have := hs.1
      omega

/-- **When the machinery panics.**  In every execution, a step panics only in two cases: a signal
sent from inside Shadow has a number outside of 1 to 31; or a thread is about to take a signal whose
action is the default one and which would stop or continue the process. -/
theorem C50_no_panic {actions : Nat → Action} {es : List Ev} {s : St} {a : Act}
    (hrun : Run (fresh actions) es s) (h : step s a = some .panic) :
    (∃ cur i, a = .send cur i ∧ i.signo ≠ 0 ∧ (i.signo < 0 ∨ 31 < i.signo)) ∨
    (∃ k sig, a = .deliver k ∧ (s.actions sig).handler = .dfl ∧
      sig ∈ [18, 19, 20, 21, 22] ∧
      (s.pending .process sig ≠ none ∨ s.pending (.thread k) sig ≠ none)) := by
  have std : s.pend.Std := fun n hn hm =>
    pending_std hrun .process n hn (by show s.pend.at n ≠ none; rw [Pend.at, if_pos hm]; simp)
  have stdt : ∀ {k : Nat} {t : Thread}, s.threads[k]? = some t → t.pend.Std := fun {k t} ht n hn hm =>
    pending_std hrun (.thread k) n hn (by
      show (s.threads[k]?.bind fun t => t.pend.at n) ≠ none
      rw [ht, Option.bind_some, Pend.at, if_pos hm]; simp)
  unfold step at h
  split at h
  · cases h
  split at h
  · split at h
    · exact .inl ⟨_, _, rfl, procSignal_panic (Option.some.inj h)⟩
    · cases h
  · exfalso
    split at h
    · rcases (R.bind_eq_panic ..).1 (Option.some.inj h) with h1 | ⟨_, _, h2⟩
      · unfold signalProcess at h1
        split at h1
        · cases h1
        split at h1
        · cases h1
        rename_i sig hsig
        split at h1
        · cases h1
        rename_i hrt
        obtain ⟨hs, hv⟩ := ofInt_some hsig
        rcases (R.bind_eq_panic ..).1 h1 with h2 | ⟨_, _, h2⟩
        · obtain ⟨h3, h4⟩ := procSignal_panic h2
          simp only [isRealtime, Bool.and_eq_true, decide_eq_true_eq] at hrt
          have := hs.2
          simp only at h3 h4
          omega
        · cases h2
      · cases h2
    · cases h
  · exfalso
    split at h
    · cases h
    · rename_i t ht
      split at h
      · rcases (R.bind_eq_panic ..).1 (Option.some.inj h) with h1 | ⟨_, _, h2⟩
        · unfold signalThread at h1
          split at h1
          · cases h1
          split at h1
          · cases h1
          rename_i sig hsig
          obtain ⟨hs, hv⟩ := ofInt_some hsig
          split at h1
          · cases h1
          rename_i hrt
          split at h1
          · cases h1
          split at h1
          · cases h1
          have h31 : sig ≤ 31 := by
            simp only [isRealtime, Bool.and_eq_true, decide_eq_true_eq] at hrt
            have := hs.2; omega
          obtain ⟨p, hp⟩ := push_ne_panic (p := t.pend) (i := ⟨_, _⟩) hs h31
          rw [hp] at h1
          simp only [R.bind_ok] at h1
          split at h1
          · cases h1
          split at h1
          · cases h1
          rename_i hb
          split at h1
          · simp only [wakeupForSignal, if_neg hb, R.assert_true, R.bind_ok] at h1
            cases h1
          · cases h1
        · cases h2
      · cases h
  · exfalso
    split at h
    · cases h
    · rename_i t ht
      split at h
      · rename_i hw
        have h := Option.some.inj h
        unfold hardwareError at h
        split at h
        · cases h
        · obtain ⟨h1, h2⟩ := isHardware_sig hw
          obtain ⟨p, hp⟩ := push_ne_panic (p := t.pend) (i := ⟨_, _⟩) h1 h2
          rw [hp] at h
          cases h
      · cases h
  · obtain ⟨u, _, h⟩ := Option.map_eq_some_iff.1 h
    cases h
  · obtain ⟨u, _, h⟩ := Option.map_eq_some_iff.1 h
    cases h
  · obtain ⟨u, _, h⟩ := Option.map_eq_some_iff.1 h
    cases h
  · cases h
  · split at h
    · split at h <;> cases h
    · cases h
  · obtain ⟨u, _, h⟩ := Option.map_eq_some_iff.1 h
    split at h <;> cases h
  · split at h
    · split at h <;> cases h
    · cases h
  · split at h
    · split at h
      · split at h <;> cases h
      · cases h
    · cases h
  · obtain ⟨u, _, h⟩ := Option.map_eq_some_iff.1 h
    cases h
  · split at h
    · rename_i k _ t hrun'
      obtain ⟨ht, _⟩ := running_some hrun'
      split at h
      · rename_i a as hac
        split at h
        · right
          rcases (R.bind_eq_panic ..).1 (Option.some.inj h) with h1 | ⟨_, _, h2⟩
          · have htake : ∃ o, take s.pend t = .ok o := by
              unfold take
              obtain ⟨o1, ho1⟩ := take_ne_panic (b := t.blocked) (stdt ht)
              rw [ho1]
              cases o1 with
              | some y => exact ⟨_, rfl⟩
              | none =>
                obtain ⟨o2, ho2⟩ := take_ne_panic (b := t.blocked) std
                simp only [R.bind_ok]
                rw [ho2]
                cases o2 with
                | some y => exact ⟨_, rfl⟩
                | none => exact ⟨_, rfl⟩
            obtain ⟨o, ho⟩ := htake
            unfold deliver at h1
            rw [ho] at h1
            simp only [R.bind_ok] at h1
            rcases take_cases ho with ⟨h2, _⟩ | ⟨⟨sig, i⟩, q, h2, h3⟩ | ⟨⟨sig, i⟩, q, h2, _, h3⟩
            · subst h2; cases h1
            · subst h2
              obtain ⟨_, hat, _⟩ := take_some h3
              simp only [if_true] at h1
              split at h1
              · cases h1
              · rename_i hh
                refine ⟨k, sig, rfl, hh, ?_, .inr ?_⟩
                · rcases defaultAction_cases sig with ⟨h4, _⟩ | ⟨h4, _⟩ | ⟨_, h4⟩
                  · rcases h4 with h4 | h4 <;> (rw [h4] at h1; cases h1)
                  · rw [h4] at h1; cases h1
                  · simpa using h4
                · simp only [St.pending, ht, Option.bind_some, hat]; simp
              · cases h1
            · subst h2
              obtain ⟨_, hat, _⟩ := take_some h3
              simp only [Bool.false_eq_true, if_false] at h1
              split at h1
              · cases h1
              · rename_i hh
                refine ⟨k, sig, rfl, hh, ?_, .inl ?_⟩
                · rcases defaultAction_cases sig with ⟨h4, _⟩ | ⟨h4, _⟩ | ⟨_, h4⟩
                  · rcases h4 with h4 | h4 <;> (rw [h4] at h1; cases h1)
                  · rw [h4] at h1; cases h1
                  · simpa using h4
                · show s.pend.at sig ≠ none
                  rw [hat]; simp
              · cases h1
          · cases h2
        · cases h
      · cases h
    · cases h
  · split at h
    · split at h
      · split at h <;> cases h
      · cases h
    · cases h
  · obtain ⟨u, _, h⟩ := Option.map_eq_some_iff.1 h
    cases h

/-! ## Masks, actions and stacks -/

/-- **Changing the mask**: blocking is a union, unblocking a difference, setting a replacement; with
another `how`, a bad size, or an argument that cannot be read or written, the mask stays.  The old
mask is reported whenever it is asked for and can be written (unless the size is wrong). -/
theorem C50_mask (t : Thread) (how : Int) (nset : Arg Sigset) (oset : Arg Unit) (size : Nat) :
    let (r, old, t') := sigprocmask t how nset oset size
    t'.pend = t.pend ∧ t'.stack = t.stack ∧ t'.status = t.status ∧ t'.acts = t.acts ∧
    (old = none ∨ old = some t.blocked) ∧ (size = 8 → oset = .val () → old = some t.blocked) ∧
    (r ≠ .ok → t'.blocked = t.blocked) ∧
    (r = .ok ↔ size = 8 ∧ oset ≠ .fault ∧
      (nset = .null ∨ (∃ set, nset = .val set) ∧ (how = 0 ∨ how = 1 ∨ how = 2))) ∧
    (nset = .null → t'.blocked = t.blocked) ∧
    (∀ set, nset = .val set → r = .ok → ∀ n, IsSig n →
      (Mem t'.blocked n ↔
        (how = 0 ∧ (Mem set n ∨ Mem t.blocked n)) ∨
        (how = 1 ∧ ¬ Mem set n ∧ Mem t.blocked n) ∨
        (how = 2 ∧ Mem set n))) := by
  unfold sigprocmask
  by_cases hsz : size = 8
  · subst hsz
    have hmem : ∀ set : Sigset, ∀ n, IsSig n →
        (Mem (~~~ set &&& t.blocked) n ↔ ¬ Mem set n ∧ Mem t.blocked n) := fun set n hn => by
      unfold Mem
      have : n - 1 < 64 := by have := hn.1; have := hn.2; omega
      simp [this]
    cases oset <;> cases nset <;> simp <;>
      (try (split <;> (try split) <;> (try split) <;> simp_all [mem_or]))
  · simp [hsz]

/-- **Changing an action**: SIGKILL and SIGSTOP keep theirs; an error changes nothing; the other
signals keep theirs. -/
theorem C50_action (s : St) (signo : Int) (act : Arg Action) (oact : Arg Unit) (size : Nat) :
    let (r, old, s') := sigaction s signo act oact size
    s'.threads = s.threads ∧ s'.pend = s.pend ∧ s'.dead = s.dead ∧
    s'.actions 9 = s.actions 9 ∧ s'.actions 19 = s.actions 19 ∧
    (r ≠ .ok → s'.actions = s.actions) ∧
    (∀ n : Nat, signo ≠ n → s'.actions n = s.actions n) ∧
    (∀ new : Action, act = .val new → r = .ok →
      ∃ sig : Nat, signo = sig ∧ s'.actions sig = new) ∧
    (∀ x, old = some x → ∃ sig : Nat, signo = sig ∧ x = s.actions sig) := by
  unfold sigaction
  by_cases hsz : size = 8
  · cases ho : ofInt signo with
    | none => simp [hsz]
    | some sig =>
      obtain ⟨hs, hv⟩ := ofInt_some ho
      subst hv
      have ex : ∀ P : Nat → Prop, P sig → ∃ m : Nat, (sig : Int) = m ∧ P m :=
        fun P h => ⟨sig, rfl, h⟩
      by_cases hk : sig = 9 ∨ sig = 19
      · cases oact <;> cases act <;> simp [hsz, hk] <;> exact ex _ rfl
      · have h9 : ¬ 9 = sig := by omega
        have h19 : ¬ 19 = sig := by omega
        have hne : ∀ n : Nat, ¬ (sig : Int) = n → ¬ n = sig := fun n h h' => h (by rw [h'])
        cases oact <;> cases act <;> simp [hsz, hk, h9, h19]
        all_goals
          first
          | exact ex _ rfl
          | exact ⟨fun n h1 h2 => absurd h2 (hne n h1), ex _ (fun h => absurd rfl h)⟩
          | exact ⟨fun n h1 h2 => absurd h2 (hne n h1), ex _ (fun h => absurd rfl h), ex _ rfl⟩
  · simp [hsz]

/-- **The alternate stack** cannot be changed while it is in use; disabling it clears it; flags other
than `SS_DISABLE` and `SS_AUTODISARM` are refused; an old value that cannot be written does not undo
the change. -/
theorem C50_altstack (t : Thread) (uss : Arg Stack) (uoss : Arg Unit) :
    let (r, old, t') := sigaltstack t uss uoss
    t'.pend = t.pend ∧ t'.blocked = t.blocked ∧ t'.status = t.status ∧ t'.acts = t.acts ∧
    (t.stack.onstack = true → uss ≠ .null → r = .EPERM ∧ t'.stack = t.stack) ∧
    (r = .EINVAL → t'.stack = t.stack) ∧
    (∀ new, uss = .val new → t.stack.onstack = false → new.disable = true →
      t'.stack = { sp := 0, disable := true, size := 0 } ∧ r ≠ .EINVAL) ∧
    (∀ new, uss = .val new → t.stack.onstack = false → new.disable = false →
      (r = .EINVAL ↔ new.onstack = true ∨ new.other = true) ∧
      (r ≠ .EINVAL → t'.stack = new)) ∧
    (r = .ok → uoss = .val () → old = some t.stack) := by
  unfold sigaltstack
  cases uss with
  | null => cases uoss <;> simp
  | fault => cases hon : t.stack.onstack <;> cases uoss <;> simp [hon]
  | val new =>
    cases hon : t.stack.onstack with
    | true => simp [hon]
    | false =>
      cases hd : new.disable with
      | true => cases uoss <;> simp [hon, hd]
      | false =>
        cases hn : new.onstack <;> cases hot : new.other <;> cases uoss <;>
          simp [hon, hd, hn, hot]

/-- **Exec**: no handler of the old program survives for the standard signals, and what was ignored
or default stays. -/
theorem C50_exec (actions : Nat → Action) (sig : Nat) (h1 : 1 ≤ sig) (h31 : sig ≤ 31) :
    (∀ n, (execActions actions sig).handler ≠ .fn n) ∧
    ((∀ n, (actions sig).handler ≠ .fn n) → execActions actions sig = actions sig) := by
  unfold execActions
  rw [if_pos ⟨h1, h31⟩]
  cases h : (actions sig).handler <;> simp [h]

end Shadow.Signal
