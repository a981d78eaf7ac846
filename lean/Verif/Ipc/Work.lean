import Verif.Ipc.Steps

/-!
# The invariant of the turns is kept: the steps of the worker
-/
namespace Shadow.Ipc

open Shadow.Base

/-- Shadow panics: a managed process died during a call that Shadow makes natively through it, or before it has started. -/
def Fatal (s : St) (a : Act) : Prop :=
  ∃ t th, s.ts[t]? = some th ∧ th.pc = .dead ∧ th.toShadow.closed = true ∧ th.toShadow.msg = none ∧
    ((a = .recv ∧ ∃ k, k ≠ .resume ∧ s.w = .cont t k) ∨ (a = .startRecv ∧ s.w = .startMain t))

theorem get_snoc {α : Type} {l : List α} {a b : α} {i : Nat} (h : (l ++ [a])[i]? = some b) : l[i]? = some b ∨ (i = l.length ∧ b = a) := by
  rcases Nat.lt_trichotomy i l.length with hi | hi | hi
  · rw [List.getElem?_append_left hi] at h; exact .inl h
  · subst hi; simp at h; exact .inr ⟨rfl, h.symm⟩
  · rw [List.getElem?_append_right (Nat.le_of_lt hi)] at h
    have : i - l.length ≠ 0 := by omega
    cases e : i - l.length with
    | zero => exact absurd e this
    | succ n => rw [e] at h; simp at h

theorem get_lt {α : Type} {l : List α} {i : Nat} {a : α} (h : l[i]? = some a) : i < l.length := (List.getElem?_eq_some_iff.1 h).1

theorem get_left {α : Type} {l : List α} {i : Nat} {a b : α} (h : l[i]? = some a) : (l ++ [b])[i]? = some a := by
  rw [List.getElem?_append_left (get_lt h)]; exact h

theorem spawn_inv {s : St} {p : Int} {r : R St} (h : Inv s) (hs : step s (.spawn p) = some r) : ∃ s', r = .ok s' ∧ Inv s' := by
  simp only [step] at hs
  split at hs
  · next hw =>
    injection hs with hs; subst hs
    have l0 := h.l
    unfold LOk at l0
    rw [hw] at l0
    refine ⟨_, rfl, ?_, ?_, l0, trivial⟩
    · intro i th hi
      rcases get_snoc hi with hi | ⟨rfl, rfl⟩
      · have := h.ts i th hi
        have hne : i ≠ s.ts.length := Nat.ne_of_lt (get_lt hi)
        rw [hw] at this
        simpa [role, hne] using this
      · refine ⟨?_, fun e => by cases e⟩
        simp only [role, if_true]
        exact ⟨rfl, rfl, .inr (.inl ⟨rfl, .inl ⟨.main, rfl, rfl, fun f hf => by cases hf⟩⟩)⟩
    · exact ⟨_, List.getElem?_concat_length, by simp, rfl⟩
  · simp at hs

theorem resume_inv {s : St} {t : Nat} {r : R St} (h : Inv s) (ha : allowed s (.resume t)) (hs : step s (.resume t) = some r) :
    ∃ s', r = .ok s' ∧ Inv s' := by
  simp only [step] at hs
  split at hs
  · next hw =>
    split at hs
    · injection hs with hs; subst hs
      have l0 := h.l
      unfold LOk at l0
      rw [hw] at l0
      refine ⟨_, rfl, ?_, ha, l0, trivial⟩
      intro i th hi
      have := h.ts i th hi
      rw [hw] at this
      exact this
    · simp at hs
  · simp at hs

theorem cleanup_inv {s : St} {t : Nat} {r : R St} (h : Inv s) (hs : step s (.cleanup t) = some r) : ∃ s', r = .ok s' ∧ Inv s' := by
  simp only [step] at hs
  split at hs
  · next hw =>
    split at hs
    · next hlt =>
      injection hs with hs; subst hs
      have l0 := h.l
      unfold LOk at l0
      rw [hw] at l0
      refine ⟨_, rfl, ?_, hlt, l0, trivial⟩
      intro i th hi
      have := h.ts i th hi
      rw [hw] at this
      refine ⟨?_, this.2⟩
      simp only [role]
      split
      · exact .inl this.1
      · exact this.1
    · simp at hs
  · simp at hs

theorem gone_inv {s : St} {r : R St} (h : Inv s) (hs : step s .gone = some r) : ∃ s', r = .ok s' ∧ Inv s' := by
  simp only [step] at hs
  split at hs
  · next t hw =>
    split at hs
    · next th ht =>
      split at hs
      · next hc =>
        injection hs with hs; subst hs
        have l0 := h.l
        unfold LOk at l0
        rw [hw] at l0
        have hq : Quiet { th with running := false } := by
          have h0 := h.ts t th ht
          rw [hw] at h0
          simp only [role, if_true] at h0
          have hdead : ∀ {th : Thread}, th.isDead → Quiet { th with running := false } := fun h => .inl ⟨rfl, .inr h.1, h.2⟩
          have hpc : th.running = true → th.pc = .dead := by
            intro e; rw [e] at hc
            rcases hc with c | c | c
            · cases c
            · exact h0.2 c
            · exact c
          rcases h0.1 with q | q | ⟨q, _, c, ctx, e, _⟩ | ⟨q, c, e, _⟩
          · rcases q with ⟨_, q⟩ | ⟨_, _, q⟩ | ⟨q1, q2, q3, q⟩
            · exact .inl ⟨rfl, q⟩
            · exact hdead q
            · have hp := hpc q1
              refine .inl ⟨rfl, .inr hp, ?_⟩
              show ∃ p, th.pend p
              cases e : th.cur with
              | startReq => rw [e] at q; rcases q with ⟨a, e, _⟩ | q
                            · rw [hp] at e; cases e
                            · exact q.2
              | death => rw [e] at q; exact q.2
              | syscall c => rw [e] at q; rcases q with ⟨_, e, _⟩ | ⟨_, es, q⟩
                             · rw [hp] at e; cases e
                             · exact ⟨_, q⟩
              | complete _ _ => rw [e] at q; exact q.elim
              | addRes r => rw [e] at q; obtain ⟨_, c, q⟩ := q; rcases q with ⟨_, e, _⟩ | ⟨_, es, q⟩
                            · rw [hp] at e; cases e
                            · exact ⟨_, q⟩
          · exact hdead q
          · rw [hpc q] at e; cases e
          · rw [hpc q] at e; cases e
        refine ⟨_, rfl, ?_, trivial, l0, trivial⟩
        show ∀ i y, (s.ts.set t _)[i]? = some y → TOk y (role .idle i)
        refine threads_set ht ?_ ⟨hq, (h.ts t th ht).2⟩
        intro i x hne hx
        have := h.ts i x hx
        rw [hw] at this
        simpa [role, hne] using this
      · simp at hs
    · simp at hs
  · simp at hs

theorem startDone_inv {s : St} {b : Nat} {w : Worker} {r : R St} {th : Thread} (h : Inv s) (ht : s.ts[b]? = some th)
    (hrb : role s.w b = .child) (hro : ∀ i, i ≠ b → role s.w i = .quiet) (hwq : ∀ i, role w i = .quiet)
    (hw : ∀ th', WOk { s with ts := s.ts.set b th', w := w }) (hl : s.lock = .worker) (hlw : ∀ s', s'.w = w → s'.lock = .worker → LOk s')
    (hcw : ∀ s', s'.w = w → ClockOk s')
    (hs : startDone s b w = some r) :
    (∃ s', r = .ok s' ∧ Inv s') ∨ (r = .panic ∧ th.pc = .dead ∧ th.toShadow.closed = true ∧ th.toShadow.msg = none) := by
  simp only [startDone, ht] at hs
  have h0 := h.ts b th ht
  rw [hrb] at h0
  obtain ⟨⟨h1, h2, h3⟩, hcl⟩ := h0
  split at hs
  · next hm =>
    injection hs with hs; subst hs
    refine .inl ⟨_, rfl, ?_, hw _, hlw _ rfl hl, hcw _ rfl⟩
    show ∀ i y, (s.ts.set b _)[i]? = some y → TOk y (role w i)
    refine threads_set ht ?_ ?_
    · intro i x hne hx
      have := h.ts i x hx
      rw [hro i hne] at this; rw [hwq]; exact this
    · rw [hwq]
      refine ⟨.inr (.inr ⟨rfl, h2, rfl, ?_⟩), hcl⟩
      rcases h3 with ⟨_, e, _⟩ | ⟨e, _⟩ | ⟨_, h3⟩
      · rw [hm] at e; cases e
      · rw [hm] at e; cases e
      · rcases h3 with ⟨a, e, h3⟩ | h3
        · exact .inl ⟨a, e, by cases a <;> exact h3⟩
        · exact .inr h3
  · next e hm hne =>
    rcases h3 with ⟨_, e', _⟩ | ⟨e', _⟩ | ⟨e', h3⟩
    · rw [hne] at e'; cases e'
    · rw [hne] at e'; cases e'
    · rw [hne] at e'; injection e' with e'; exact absurd e' hm
  · next hm =>
    split at hs
    · next hc => injection hs with hs; subst hs; exact .inr ⟨rfl, hcl hc, hc, hm⟩
    · simp at hs

theorem startRecv_inv {s : St} {r : R St} (h : Inv s) (hs : step s .startRecv = some r) :
    (∃ s', r = .ok s' ∧ Inv s') ∨ (r = .panic ∧ Fatal s .startRecv) := by
  simp only [step] at hs
  have w0 := h.w
  have l0 := h.l
  unfold WOk at w0; unfold LOk at l0
  split at hs
  · next t hw =>
    rw [hw] at w0 l0
    obtain ⟨th, ht, _⟩ := w0
    rcases startDone_inv (w := .idle) h ht (by rw [hw]; simp [role]) (fun i hi => by rw [hw]; simp [role, hi]) (fun i => rfl) (fun _ => trivial) l0
      (fun s' e e' => by unfold LOk; rw [e]; exact e') (fun s' e => by unfold ClockOk; rw [e]; trivial) hs with g | ⟨g, g1, g2, g3⟩
    · exact .inl g
    · exact .inr ⟨g, t, th, ht, g1, g2, g3, .inr ⟨rfl, hw⟩⟩
  · next t b x hw =>
    rw [hw] at w0 l0
    obtain ⟨hne, ⟨th, ht, hr⟩, ch, hch, g1, g2, g3⟩ := w0
    rcases startDone_inv (w := .handling t) h hch (by rw [hw]; simp [role]) (fun i hi => by rw [hw]; simp [role, hi]) (fun i => rfl)
      (fun th' => ⟨th, by rw [get_set_ne (fun e => hne e.symm)]; exact ht, hr⟩) l0
      (fun s' e e' => by unfold LOk; rw [e]; exact e') (fun s' e => by unfold ClockOk; rw [e]; trivial) hs with g | ⟨g, q1, q2, q3⟩
    · exact .inl g
    · rw [g2] at q2; cases q2
  · simp at hs

/-- `continue_plugin` for a thread that waits. -/
theorem cont_inv {s : St} {t : Nat} {th th' : Thread} {m : ToShim} {k : Kont} {mx : Nat} {r : R St} (h : Inv s) (hw : s.w = .handling t)
    (ht : s.ts[t]? = some th) (hs : contPlugin s t th' m k mx = r) (hm : th'.toShim.msg = none) (hk : k = .resume ∨ k = .nat)
    (ho : RoleOk { th' with toShim := { th'.toShim with msg := some m } } (.active k)) (hcl : th'.toShadow = th.toShadow)
    (hpc : th'.pc = th.pc) (hlk : th'.locks = false) : ∃ s', r = .ok s' ∧ Inv s' := by
  have l0 := h.l
  unfold LOk at l0
  rw [hw] at l0
  have l0 : s.lock = .worker := l0
  simp only [contPlugin, if_pos l0, Chan.send, hm] at hs
  subst hs
  refine ⟨_, rfl, ?_, ?_, ?_, ?_⟩
  · show ∀ i y, (s.ts.set t _)[i]? = some y → TOk y (role (.cont t k) i)
    refine threads_set ht ?_ ?_
    · intro i x hne hx
      have := h.ts i x hx
      rw [hw] at this
      have e : role (.cont t k) i = .quiet := by rcases hk with rfl | rfl <;> simp [role, hne]
      rw [e]; exact this
    · have e : role (.cont t k) t = .active k := by simp [role]
      rw [e]
      refine ⟨ho, ?_⟩
      show th'.toShadow.closed = true → th'.pc = .dead
      rw [hcl, hpc]; exact (h.ts t th ht).2
  · show ∃ x, (s.ts.set t _)[t]? = some x ∧ _
    refine ⟨_, get_set ht, ?_⟩
    rcases hk with rfl | rfl <;> trivial
  · show ∃ x, (s.ts.set t _)[t]? = some x ∧ _
    exact ⟨_, get_set ht, .inl ⟨rfl, hlk⟩⟩
  · show s.now ≤ s.now ∧ s.now ≤ max s.now mx
    omega

theorem parked_log {th : Thread} {c : Call} {a : Ans} {q : Call1} (h : Parked th c)
    (ho : ∀ p, obs ((c, .asked) :: p) (.handled c a) = some ((c, q) :: p)) :
    (∃ ctx, th.pc = .wait c ctx ∧ CtxOk c ctx ∧ ({ th with log := th.log ++ [.handled c a] } : Thread).holds [(c, q)]) ∨
      (th.pc = .dead ∧ ∃ es, ({ th with log := th.log ++ [.handled c a] } : Thread).pend ((c, q) :: es)) := by
  rcases h with ⟨ctx, h1, h2, h3, h4⟩ | ⟨h1, es, h2⟩
  · exact .inl ⟨ctx, h1, h2, snoc_of h3 (ho _), h4⟩
  · exact .inr ⟨h1, es, snoc_of h2 (ho _)⟩

theorem parked_locks {th : Thread} {c : Call} (h : Parked th c) : th.locks = false := by
  rcases h with ⟨_, h, _⟩ | ⟨h, _⟩ <;> simp [Thread.locks, h]

theorem handle_inv {s : St} {hh : HAct} {mx : Nat} {r : R St} (h : Inv s) (ha : allowed s (.handle hh mx))
    (hs : step s (.handle hh mx) = some r) : ∃ s', r = .ok s' ∧ Inv s' := by
  simp only [step] at hs
  split at hs
  · next t hw =>
    split at hs
    · next th ht =>
      have w0 := h.w
      have l0 := h.l
      unfold WOk at w0; unfold LOk at l0
      rw [hw] at w0 l0
      have l0 : s.lock = .worker := l0
      obtain ⟨x, hx, hrun⟩ := w0
      rw [ht] at hx; injection hx with hx; subst hx
      have h0 := h.ts t th ht
      rw [hw] at h0
      have hq : Quiet th := h0.1
      have others : ∀ i x, i ≠ t → s.ts[i]? = some x → TOk x .quiet := fun i x _ hx => by
        have := h.ts i x hx; rw [hw] at this; exact this
      have hlt : t < s.ts.length := get_lt ht
      have hq' : (th.cur = .death ∧ th.isDead) ∨ (th.toShim.msg = none ∧ th.toShadow.msg = none ∧ Waits th th.cur) := by
        rcases hq with ⟨e, _⟩ | ⟨_, q⟩ | ⟨_, q⟩
        · rw [hrun] at e; cases e
        · exact .inl q
        · exact .inr q
      -- Shadow waits for the end of the thread
      have leave : ∀ th', Leaving th' → (th'.toShadow.closed = true → th'.pc = .dead) →
          Inv { s with ts := s.ts.set t th', w := .exitWait t } := by
        intro th' hl hc
        refine ⟨?_, ?_, l0, trivial⟩
        · show ∀ i y, (s.ts.set t _)[i]? = some y → TOk y (role (.exitWait t) i)
          refine threads_set ht (fun i x hne hx => ?_) ?_
          · simpa [role, hne] using others i x hne hx
          · simp only [role, if_true]; exact ⟨hl, hc⟩
        · show t < (s.ts.set t _).length
          simpa using hlt
      simp only [handleEv] at hs
      split at hs
      · next hc =>
        split at hs
        · injection hs with hs
          rcases hq' with ⟨e, _⟩ | ⟨m1, m2, q⟩
          · rw [hc] at e; cases e
          · rw [hc] at q
            refine cont_inv h hw ht hs m1 (.inl rfl) ⟨hrun, .inl ⟨_, rfl, m2, ?_⟩⟩ rfl rfl ?_
            · rcases q with ⟨a, e, q⟩ | q
              · exact .inr (.inl ⟨rfl, a, e, by cases a <;> exact q⟩)
              · exact .inl q
            · rcases q with ⟨a, e, q⟩ | ⟨e, _⟩ <;> simp [Thread.locks, e]
        · simp at hs
      · next hc =>
        split at hs
        · injection hs with hs; subst hs
          have hd : th.isDead := by
            rcases hq' with ⟨_, q⟩ | ⟨_, _, q⟩
            · exact q
            · rw [hc] at q; exact q
          refine ⟨_, rfl, ?_⟩
          have := leave th (.inr (.inl hd)) h0.2
          have e : s.ts.set t th = s.ts := by
            apply List.ext_getElem?
            intro i
            by_cases e : i = t
            · subst e; rw [get_set ht, ht]
            · rw [get_set_ne e]
          rw [e] at this; exact this
        · simp at hs
      · next c hc =>
        have hpk : th.toShim.msg = none ∧ th.toShadow.msg = none ∧ Parked th c := by
          rcases hq' with ⟨e, _⟩ | q
          · rw [hc] at e; cases e
          · rw [hc] at q; exact q
        obtain ⟨m1, m2, pk⟩ := hpk
        have hal := ha t th c hw ht hc
        split at hs
        · next hx =>
          split at hs
          · simp only [Chan.send, m1] at hs
            injection hs with hs; subst hs
            refine ⟨_, rfl, leave _ ?_ h0.2⟩
            rcases parked_log (a := .native) (q := .native) pk (fun p => by simp [obs]) with ⟨ctx, e, _, g⟩ | ⟨e, es, g⟩
            · exact .inr (.inr (.inl ⟨hrun, rfl, c, ctx, e, hx, g⟩))
            · exact .inr (.inl ⟨e, _, g⟩)
          · simp at hs
        · next hx =>
          split at hs
          · simp at hs
          · next c' =>
            injection hs with hs
            exact cont_inv h hw ht hs m1 (.inr rfl) ⟨hrun, c, hc, .inl ⟨c', rfl, m2, hal.1, hal.2, pk⟩⟩ rfl rfl (parked_locks pk)
          · next thr stk =>
            injection hs with hs
            simp only [contPlugin, if_pos l0, Chan.send, m1] at hs
            subst hs
            have hne : s.ts.length ≠ t := fun e => by omega
            refine ⟨_, rfl, ?_, ?_, ?_, ?_⟩
            · show ∀ i y, ((s.ts ++ [({} : Thread)]).set t _)[i]? = some y → TOk y (role (.cont t (.clone s.ts.length)) i)
              refine threads_set (get_left ht) ?_ ?_
              · intro i x hi hx
                rcases get_snoc hx with hx | ⟨rfl, rfl⟩
                · have : i ≠ s.ts.length := Nat.ne_of_lt (get_lt hx)
                  simpa [role, hi, this] using others i x hi hx
                · refine ⟨?_, fun e => by cases e⟩
                  simp only [role, hne, if_false, if_true]
                  exact ⟨rfl, rfl, .inl ⟨rfl, rfl, rfl, fun f hf => by cases hf⟩⟩
              · simp only [role, if_true]
                exact ⟨⟨hrun, c, hc, hal, .inl ⟨thr, stk, rfl, m2, pk⟩⟩, h0.2⟩
            · show ∃ x, ((s.ts ++ [({} : Thread)]).set t _)[t]? = some x ∧ _
              refine ⟨_, get_set (get_left ht), hne, {}, ?_, rfl, rfl, fun _ => rfl, ?_, fun _ => rfl⟩
              · rw [get_set_ne hne]; exact List.getElem?_concat_length
              · rintro (⟨_, _, _, e, _⟩ | ⟨_, _, e⟩)
                · rcases pk with ⟨_, p, _⟩ | ⟨p, _⟩
                  · have : th.pc = _ := e; rw [p] at this; cases this
                  · have : th.pc = _ := e; rw [p] at this; cases this
                · have : th.toShadow.msg = _ := e; rw [m2] at this; cases this
            · show ∃ x, ((s.ts ++ [({} : Thread)]).set t _)[t]? = some x ∧ _
              exact ⟨_, get_set (get_left ht), .inl ⟨rfl, parked_locks pk⟩⟩
            · show s.now ≤ s.now ∧ s.now ≤ max s.now mx
              omega
          · injection hs with hs; subst hs
            refine ⟨_, rfl, ?_, trivial, l0, trivial⟩
            show ∀ i y, (s.ts.set t _)[i]? = some y → TOk y (role .idle i)
            refine threads_set ht (fun i x hne hx => others i x hne hx) ⟨.inr (.inr ⟨hrun, m1, m2, ?_⟩), h0.2⟩
            show Waits _ th.cur
            rw [hc]
            exact parked_log (a := .block) (q := .asked) pk (fun p => by simp [obs])
          · next rv rs =>
            injection hs with hs
            refine cont_inv (hs := hs) (h := h) (hw := hw) (ht := ht) (hm := m1) (hk := .inl rfl) (hcl := rfl) (hpc := rfl)
              (ho := ⟨hrun, .inl ⟨_, rfl, m2, ?_⟩⟩) (hlk := by have := parked_locks pk; simpa [Thread.locks] using this)
            rcases parked_log (a := .done rv rs) (q := .answered rv rs true) pk (fun p => by simp [obs]) with ⟨ctx, e, e', g⟩ | ⟨e, es, g⟩
            · exact .inr (.inr (.inl ⟨c, ctx, rv, rs, rfl, e, e', g⟩))
            · exact .inl ⟨e, _, g⟩
          · injection hs with hs
            refine cont_inv (hs := hs) (h := h) (hw := hw) (ht := ht) (hm := m1) (hk := .inl rfl) (hcl := rfl) (hpc := rfl)
              (ho := ⟨hrun, .inl ⟨_, rfl, m2, ?_⟩⟩) (hlk := by have := parked_locks pk; simpa [Thread.locks] using this)
            rcases parked_log (a := .native) (q := .native) pk (fun p => by simp [obs]) with ⟨ctx, e, e', g⟩ | ⟨e, es, g⟩
            · exact .inr (.inr (.inr ⟨c, ctx, rfl, e, hal, hx, g⟩))
            · exact .inl ⟨e, _, g⟩
      · next x hc =>
        split at hs
        · have hpk : th.toShim.msg = none ∧ th.toShadow.msg = none ∧ x = 0 ∧ ∃ c, Parked th c := by
            rcases hq' with ⟨e, _⟩ | q
            · rw [hc] at e; cases e
            · rw [hc] at q; exact q
          obtain ⟨m1, m2, rfl, c, pk⟩ := hpk
          simp only [if_true] at hs
          injection hs with hs
          refine cont_inv (hs := hs) (h := h) (hw := hw) (ht := ht) (hm := m1) (hk := .inl rfl) (hcl := rfl) (hpc := rfl)
              (ho := ⟨hrun, .inl ⟨_, rfl, m2, ?_⟩⟩) (hlk := by have := parked_locks pk; simpa [Thread.locks] using this)
          rcases pk with ⟨ctx, h1, h2, h3, h4⟩ | ⟨h1, es, h2⟩
          · exact .inr (.inr (.inl ⟨c, ctx, 0, false, rfl, h1, h2, snoc_of h3 rfl, h4⟩))
          · exact .inl ⟨h1, _, snoc_of h2 rfl⟩
        · simp at hs
      · next rv rs hc =>
        rcases hq' with ⟨e, _⟩ | ⟨_, _, q⟩
        · rw [hc] at e; cases e
        · rw [hc] at q; exact q.elim
    · simp at hs
  · simp at hs

theorem recv_inv {s : St} {r : R St} (h : Inv s) (hs : step s .recv = some r) :
    (∃ s', r = .ok s' ∧ Inv s') ∨ (r = .panic ∧ Fatal s .recv) := by
  simp only [step] at hs
  split at hs
  · next t k hw =>
    split at hs
    · next th ht =>
      split at hs
      · next e th' hans =>
        split at hs
        · next hfree =>
          injection hs with hs
          have h0 := h.ts t th ht
          have w0 := h.w
          unfold WOk at w0
          rw [hw] at h0 w0
          simp only [role, if_true] at h0
          obtain ⟨⟨hrun, hact⟩, hcl⟩ := h0
          obtain ⟨x, hx, w0⟩ := w0
          rw [ht] at hx; injection hx with hx; subst hx
          -- what was received
          have hans' : (th.toShadow.msg = some e ∧ th' = { th with toShadow := { th.toShadow with msg := none } }) ∨
              (th.toShadow.msg = none ∧ th.toShadow.closed = true ∧ e = .death ∧ th' = th) := by
            simp only [Thread.answer] at hans
            split at hans
            · next hm => injection hans with hans; injection hans with e1 e2; subst e1; exact .inl ⟨hm, e2.symm⟩
            · next hm =>
              split at hans
              · next hc => injection hans with hans; injection hans with e1 e2; exact .inr ⟨hm, hc, e1.symm, e2.symm⟩
              · simp at hans
          have others : ∀ i x, i ≠ t → (∀ b, k = .clone b → i ≠ b) → s.ts[i]? = some x → TOk x .quiet := by
            intro i x hi hb hx
            have := h.ts i x hx
            rw [hw] at this
            have e : role (.cont t k) i = .quiet := by
              cases k with
              | resume => simp [role, hi]
              | nat => simp [role, hi]
              | clone b => simp [role, hi, hb b rfl]
            rw [e] at this; exact this
          -- back in the handler
          have back : ∀ y, RoleOk y .quiet → y.running = true → (y.toShadow.closed = true → y.pc = .dead) →
              (∀ b x, k = .clone b → s.ts[b]? = some x → TOk x .quiet) →
              Inv { s with ts := s.ts.set t y, lock := .worker, now := s.shimT, w := .handling t } := by
            intro y hy hyr hyc hb
            refine ⟨?_, ⟨y, get_set ht, hyr⟩, rfl, trivial⟩
            show ∀ i z, (s.ts.set t _)[i]? = some z → TOk z .quiet
            refine threads_set ht (fun i x hne hx => ?_) ⟨hy, hyc⟩
            by_cases e : ∃ b, k = .clone b ∧ i = b
            · obtain ⟨b, e1, rfl⟩ := e; exact hb i x e1 hx
            · exact others i x hne (fun b e1 e2 => e ⟨b, e1, e2⟩) hx
          have fatal : k ≠ .resume → th.toShadow.msg = none → th.toShadow.closed = true → Fatal s .recv := fun hk hm hc =>
            ⟨t, th, ht, hcl hc, hc, hm, .inl ⟨rfl, k, hk, hw⟩⟩
          cases k with
          | resume =>
            simp only [contDone] at hs
            subst hs
            refine .inl ⟨_, rfl, back _ ?_ ?_ ?_ (fun b x e => by cases e)⟩
            · rcases hans' with ⟨hm, rfl⟩ | ⟨hm, hc, rfl, rfl⟩
              · rcases hact with ⟨_, _, e', _⟩ | ⟨_, e', _⟩ | ⟨m1, e', e1, e2, e3, e4⟩
                · rw [hm] at e'; cases e'
                · rw [hm] at e'; cases e'
                · rw [hm] at e1; injection e1 with e1; subst e1
                  refine .inr (.inr ⟨hrun, m1, rfl, ?_⟩)
                  show Waits _ e
                  cases e with
                  | startReq => exact absurd rfl e2
                  | death => exact absurd rfl e3
                  | syscall c => exact e4
                  | complete _ _ => exact e4
                  | addRes r => exact e4
              · refine .inr (.inl ⟨hrun, rfl, hcl hc, ?_⟩)
                have hp := hcl hc
                show ∃ p, th'.pend p
                rcases hact with ⟨m, _, _, h1 | ⟨_, a, e, _⟩ | ⟨_, _, _, _, _, e, _, _⟩ | ⟨_, _, _, e, _⟩⟩ | ⟨_, _, h1⟩ | ⟨_, e, e1, _⟩
                · exact h1.2
                · rw [hp] at e; cases e
                · rw [hp] at e; cases e
                · rw [hp] at e; cases e
                · rcases h1 with ⟨e | e, _⟩ | ⟨_, e | e, _⟩ | ⟨_, e, _⟩ | ⟨e, _⟩ | h1
                  · rw [hp] at e; cases e
                  · rw [hp] at e; cases e
                  · rw [hp] at e; cases e
                  · rw [hp] at e; cases e
                  · rw [hp] at e; cases e
                  · rw [hp] at e; cases e
                  · exact h1.2
                · rw [hm] at e1; cases e1
            · rcases hans' with ⟨_, rfl⟩ | ⟨_, _, _, rfl⟩ <;> exact hrun
            · rcases hans' with ⟨_, rfl⟩ | ⟨_, _, _, rfl⟩ <;> exact hcl
          | nat =>
            simp only [contDone] at hs
            obtain ⟨c, hc, ⟨_, _, e', _⟩ | ⟨_, e', _⟩ | ⟨m1, ⟨rv, rs, e'⟩, pk⟩⟩ := hact
            · rcases hans' with ⟨hm, _⟩ | ⟨hm, hcc, rfl, rfl⟩
              · rw [hm] at e'; cases e'
              · exact .inr ⟨hs.symm, fatal (by simp) hm hcc⟩
            · rcases hans' with ⟨hm, _⟩ | ⟨hm, hcc, rfl, rfl⟩
              · rw [hm] at e'; cases e'
              · exact .inr ⟨hs.symm, fatal (by simp) hm hcc⟩
            · rcases hans' with ⟨hm, rfl⟩ | ⟨hm, _⟩
              · rw [hm] at e'; injection e' with e'; subst e'
                subst hs
                refine .inl ⟨_, rfl, back _ ?_ hrun hcl (fun b x e => by cases e)⟩
                refine .inr (.inr ⟨hrun, m1, rfl, ?_⟩)
                show Waits _ th.cur
                rw [hc]; exact pk
              · rw [hm] at e'; cases e'
          | clone b =>
            obtain ⟨hne, ch, hch, g1, g2, lk⟩ := w0
            simp only [contDone] at hs
            obtain ⟨c, hc, hic, ⟨_, _, _, e', _⟩ | ⟨_, e', _⟩ | ⟨m1, ⟨y, hy, e'⟩, pk⟩⟩ := hact
            · rcases hans' with ⟨hm, _⟩ | ⟨hm, hcc, rfl, rfl⟩
              · rw [hm] at e'; cases e'
              · exact .inr ⟨hs.symm, fatal (by simp) hm hcc⟩
            · rcases hans' with ⟨hm, _⟩ | ⟨hm, hcc, rfl, rfl⟩
              · rw [hm] at e'; cases e'
              · exact .inr ⟨hs.symm, fatal (by simp) hm hcc⟩
            · rcases hans' with ⟨hm, rfl⟩ | ⟨hm, _⟩
              · have e0 := e'
                rw [hm] at e'; injection e' with e'; subst e'
                have hq : Quiet { th with toShadow := { th.toShadow with msg := none } } := by
                  refine .inr (.inr ⟨hrun, m1, rfl, ?_⟩)
                  show Waits _ th.cur
                  rw [hc]; exact pk
                have hcr := h.ts b ch hch
                rw [hw] at hcr
                have rb : role (.cont t (.clone b)) b = .child := by simp [role, hne]
                rw [rb] at hcr
                simp only [hy, if_false] at hs
                split at hs
                · next hneg =>
                  subst hs
                  refine .inl ⟨_, rfl, back _ hq hrun hcl ?_⟩
                  intro b' x e hx
                  injection e with e; subst e
                  rw [hch] at hx; injection hx with hx; subst hx
                  have hu := lk.failed (.inr ⟨y, hneg, e0⟩)
                  refine ⟨.inl ⟨hcr.1.1, .inl hu, ?_⟩, hcr.2⟩
                  obtain ⟨_, _, ⟨_, _, q⟩ | ⟨_, ⟨_, e, _⟩ | e⟩ | ⟨_, ⟨_, e, _⟩ | e⟩⟩ := hcr.1
                  · exact ⟨_, q.1⟩
                  · rw [hu] at e; cases e
                  · exact e.2
                  · rw [hu] at e; cases e
                  · exact e.2
                · next hpos =>
                  subst hs
                  have hu := lk.after (.inr ⟨y, by omega, e0⟩)
                  refine .inl ⟨_, rfl, ?_, ?_, rfl, trivial⟩
                  · show ∀ i z, (s.ts.set t _)[i]? = some z → TOk z (role (.startChild t b y) i)
                    refine threads_set ht (fun i x hi hx => ?_) ?_
                    · by_cases e : i = b
                      · subst e; rw [hch] at hx; injection hx with hx; subst hx
                        simpa [role] using hcr
                      · have := others i x hi (fun b' e1 => by injection e1 with e1; subst e1; exact e) hx
                        simpa [role, e] using this
                    · have : t ≠ b := fun e => hne e.symm
                      simp only [role, this, if_false]
                      exact ⟨hq, hcl⟩
                  · refine ⟨hne, ⟨_, get_set ht, hrun⟩, ch, ?_, g1, g2, hu⟩
                    show (s.ts.set t _)[b]? = _
                    rw [get_set_ne hne]; exact hch
              · rw [hm] at e'; cases e'
        · simp at hs
      · simp at hs
    · simp at hs
  · simp at hs

/-- Every step of every execution. -/
theorem step_inv {s : St} {a : Act} {r : R St} (h : Inv s) (ha : allowed s a) (hs : step s a = some r) :
    (∃ s', r = .ok s' ∧ Inv s') ∨ (r = .panic ∧ Fatal s a) := by
  cases a with
  | spawn p => exact .inl (spawn_inv h hs)
  | startRecv => exact startRecv_inv h hs
  | resume t => exact .inl (resume_inv h ha hs)
  | handle hh mx => exact .inl (handle_inv h ha hs)
  | recv => exact recv_inv h hs
  | cleanup t => exact .inl (cleanup_inv h hs)
  | gone => exact .inl (gone_inv h hs)
  | sendStart t => exact .inl (sendStart_inv h hs)
  | shimRecv t e => exact .inl (shimRecv_inv h hs)
  | call t c ctx => exact .inl (call_inv h ha hs)
  | takeLock t => exact .inl (takeLock_inv h hs)
  | localBegin t => exact .inl (localBegin_inv h hs)
  | localEnd t lat mc => exact .inl (localEnd_inv h hs)
  | sigHandler t rs => exact .inl (sigHandler_inv h hs)
  | sigFatal t => exact .inl (sigFatal_inv h hs)
  | handlerRet t => exact .inl (handlerRet_inv h hs)
  | jump t n => exact .inl (jump_inv h hs)
  | sigDone t => exact .inl (sigDone_inv h hs)
  | natDone t rv => exact .inl (natDone_inv h hs)
  | cloneDo t x => exact .inl (cloneDo_inv h ha.1 hs)
  | cloneSend t => exact .inl (cloneSend_inv h hs)
  | die p => exact .inl (die_inv h hs)
  | close p => exact .inl (close_inv h hs)

theorem Run.inv {s : St} (h : Run s) : Inv s := by
  induction h with
  | init => exact ⟨fun i th hi => by simp at hi, trivial, rfl, trivial⟩
  | step _ ha hs ih =>
    rcases step_inv ih ha hs with ⟨s', e, g⟩ | ⟨e, _⟩
    · injection e with e; subst e; exact g
    · cases e

end Shadow.Ipc
