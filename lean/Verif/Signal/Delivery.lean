import Verif.Signal.Props

/-!
# Emulated signals: acceptance, wake-ups, handlers (C50)
-/
namespace Shadow.Signal
open Shadow.Base

/-! ## Acceptance -/

/-- A signal that the process ignores: by `SIG_IGN`, or by default (SIGCHLD, SIGURG, SIGWINCH). -/
def Ignores (a : Action) (sig : Nat) : Prop :=
  a.handler = .ign ∨ (a.handler = .dfl ∧ (sig = 17 ∨ sig = 23 ∨ sig = 28))

theorem ignored_iff {a : Action} {sig : Nat} : ignored a sig = true ↔ Ignores a sig := by
  unfold ignored Ignores
  cases a.handler with
  | fn n => simp
  | ign => simp
  | dfl =>
    simp only [beq_iff_eq, reduceCtorEq, true_and, false_or, defaultAction, List.mem_cons,
      List.not_mem_nil, or_false]
    constructor
    · intro h
      split at h
      · cases h
      split at h
      · cases h
      split at h
      · rename_i hh; exact hh
      split at h <;> cases h
    · intro h
      rw [if_neg (by omega), if_neg (by omega), if_pos h]

/-- **What is accepted.**  A signal for the process has an effect exactly when the process does not
ignore it and it is not pending for the process already; then it becomes pending with the given
information, and otherwise nothing changes. -/
theorem C50_accept {s s' : St} {cur : Option Nat} {i : Info} {e : List Ev} {sig : Nat}
    (hs : i.signo = sig) (h1 : 1 ≤ sig) (h31 : sig ≤ 31) (h : procSignal s cur i = .ok (s', e)) :
    (e = [.sent .process sig i] ∧ ¬ Ignores (s.actions sig) sig ∧ s.pending .process sig = none) ∨
    (e = [] ∧ s' = s ∧ (Ignores (s.actions sig) sig ∨ s.pending .process sig ≠ none)) := by
  have hsig : IsSig sig := ⟨h1, by omega⟩
  have ho : ofInt i.signo = some sig := by
    unfold ofInt
    rw [if_pos (by omega), hs]; simp
  unfold procSignal at h
  rw [ho] at h
  split at h
  · rename_i he; cases he
  rename_i sig' he
  cases he
  split at h
  · rename_i hg
    cases h
    exact .inr ⟨rfl, rfl, .inl (ignored_iff.1 hg)⟩
  split at h
  · rename_i hp
    cases h
    refine .inr ⟨rfl, rfl, .inr fun hn => ?_⟩
    exact at_none.1 hn ((has_iff hsig).1 hp)
  rename_i hg hp
  obtain ⟨p, _, h⟩ := (R.bind_eq_ok ..).1 h
  have hn : s.pending .process sig = none := at_none.2 (by rw [← has_iff hsig]; exact hp)
  have hg : ¬ Ignores (s.actions sig) sig := by rw [← ignored_iff]; exact hg
  simp only at h
  split at h
  · split at h
    · cases h; exact .inl ⟨rfl, hg, hn⟩
    · cases h; exact .inl ⟨rfl, hg, hn⟩
  · cases h; exact .inl ⟨rfl, hg, hn⟩

/-- The same for a signal that is sent to one thread; here an invalid number and a realtime signal
are refused, and number 0 only checks that the thread exists. -/
theorem C50_accept_thread {s s' : St} {cur : Option Nat} {k : Nat} {t : Thread} {signo : Int}
    {tag : Nat} {r : Ret} {e : List Ev} (ht : s.threads[k]? = some t)
    (h : signalThread s cur k t signo tag = .ok (r, s', e)) :
    (∃ sig : Nat, signo = sig ∧ 1 ≤ sig ∧ sig ≤ 31 ∧ r = .ok ∧
      e = [.sent (.thread k) sig ⟨signo, tag⟩] ∧
      ¬ Ignores (s.actions sig) sig ∧ s.pending (.thread k) sig = none) ∨
    (e = [] ∧ s' = s ∧
      ((signo = 0 ∧ r = .ok) ∨ ((signo < 0 ∨ 64 < signo) ∧ r = .EINVAL) ∨
       (31 < signo ∧ signo ≤ 64 ∧ r = .ENOTSUP) ∨
       (∃ sig : Nat, signo = sig ∧ 1 ≤ sig ∧ sig ≤ 31 ∧ r = .ok ∧
         (Ignores (s.actions sig) sig ∨ s.pending (.thread k) sig ≠ none)))) := by
  unfold signalThread at h
  split at h
  · cases h; exact .inr ⟨rfl, rfl, .inl ⟨‹_›, rfl⟩⟩
  split at h
  · rename_i h0 _ hn
    cases h
    refine .inr ⟨rfl, rfl, .inr (.inl ⟨?_, rfl⟩)⟩
    unfold ofInt at hn
    split at hn
    · cases hn
    · omega
  rename_i sig hsig
  obtain ⟨hs, hv⟩ := ofInt_some hsig
  split at h
  · rename_i hrt
    cases h
    refine .inr ⟨rfl, rfl, .inr (.inr (.inl ?_))⟩
    simp only [isRealtime, Bool.and_eq_true, decide_eq_true_eq] at hrt
    exact ⟨by omega, by omega, rfl⟩
  rename_i hrt
  have h31 : sig ≤ 31 := by
    simp only [isRealtime, Bool.and_eq_true, decide_eq_true_eq] at hrt
    have := hs.2; omega
  split at h
  · rename_i hg
    cases h
    exact .inr ⟨rfl, rfl, .inr (.inr (.inr ⟨sig, hv, hs.1, h31, rfl, .inl (ignored_iff.1 hg)⟩))⟩
  split at h
  · rename_i hp
    cases h
    refine .inr ⟨rfl, rfl, .inr (.inr (.inr ⟨sig, hv, hs.1, h31, rfl, .inr ?_⟩))⟩
    simp only [St.pending, ht, Option.bind_some]
    exact fun hn => at_none.1 hn ((has_iff hs).1 hp)
  rename_i hg hp
  have hg : ¬ Ignores (s.actions sig) sig := by rw [← ignored_iff]; exact hg
  have hn : s.pending (.thread k) sig = none := by
    simp only [St.pending, ht, Option.bind_some]
    exact at_none.2 (by rw [← has_iff hs]; exact hp)
  obtain ⟨p, _, h⟩ := (R.bind_eq_ok ..).1 h
  simp only at h
  left
  refine ⟨sig, hv, hs.1, h31, ?_⟩
  split at h
  · cases h; exact ⟨rfl, rfl, hg, hn⟩
  split at h
  · cases h; exact ⟨rfl, rfl, hg, hn⟩
  split at h
  · obtain ⟨_, _, h⟩ := (R.bind_eq_ok ..).1 h
    cases h; exact ⟨rfl, rfl, hg, hn⟩
  · cases h; exact ⟨rfl, rfl, hg, hn⟩

/-! ## Wake-ups -/

/-- Thread `k` sleeps in a system call and does not block the signal. -/
def Eligible (s : St) (sig k : Nat) : Prop :=
  ∃ (t : Thread) (b : Bool), s.threads[k]? = some t ∧ t.status = .asleep b ∧ ¬ Mem t.blocked sig

/-- What `interrupt` is meant to do with a list of threads. -/
def Picks (sig : Nat) (ts r : List Thread) : Prop :=
  ((∀ (k : Nat) (t : Thread) (b : Bool), ts[k]? = some t → t.status = .asleep b →
      Mem t.blocked sig) ∧ r = ts) ∨
  (∃ (k : Nat) (t : Thread) (b : Bool), ts[k]? = some t ∧ t.status = .asleep b ∧
    ¬ Mem t.blocked sig ∧
    (∀ (j : Nat) (u : Thread) (c : Bool), j < k → ts[j]? = some u → u.status = .asleep c →
      Mem u.blocked sig) ∧
    r = ts.set k { t with status := .asleep true })

theorem picks_skip {sig : Nat} {t : Thread} {ts r : List Thread} (h : Picks sig ts r)
    (h0 : ∀ b, t.status = .asleep b → Mem t.blocked sig) : Picks sig (t :: ts) (t :: r) := by
  rcases h with ⟨h1, h2⟩ | ⟨k, u, b, h1, h2, h3, h4, h5⟩
  · refine .inl ⟨fun k u b hk hu => ?_, by rw [h2]⟩
    cases k with
    | zero => cases hk; exact h0 b hu
    | succ k => exact h1 k u b hk hu
  · refine .inr ⟨k + 1, u, b, h1, h2, h3, fun j v c hj hv hc => ?_, by rw [h5]; rfl⟩
    cases j with
    | zero => cases hv; exact h0 c hc
    | succ j => exact h4 j v c (by omega) hv hc

theorem interrupt_spec {sig : Nat} (hs : IsSig sig) : ∀ ts : List Thread,
    Picks sig ts (interrupt sig ts)
  | [] => .inl ⟨by simp, rfl⟩
  | t :: ts => by
    have ih := interrupt_spec hs ts
    by_cases hb : has t.blocked sig = true
    · rw [interrupt, if_pos hb]
      exact picks_skip ih fun _ _ => (has_iff hs).1 hb
    · rw [interrupt, if_neg hb]
      cases hst : t.status with
      | asleep b =>
        refine .inr ⟨0, t, b, rfl, hst, by rw [← has_iff hs]; exact hb, by simp, ?_⟩
        simp only [wakeupForSignal, if_neg hb, List.set_cons_zero]
      | fresh => exact picks_skip ih fun _ h => by rw [hst] at h; cases h
      | running => exact picks_skip ih fun _ h => by rw [hst] at h; cases h
      | gone => exact picks_skip ih fun _ h => by rw [hst] at h; cases h

/-- **Who is woken.**  When a signal for the process is accepted, and the calling thread does not
belong to the process or blocks the signal, then the sleeping thread with the lowest number that
does not block it gets a wake-up, and nothing else happens to the threads.  When the calling
thread belongs to the process and does not block the signal, no thread is woken: the caller takes
the signal itself when its system call returns. -/
theorem C50_wake {s s' : St} {cur : Option Nat} {i : Info} {sig : Nat}
    (h : procSignal s cur i = .ok (s', [.sent .process sig i])) :
    (∃ c t, cur = some c ∧ s.threads[c]? = some t ∧ ¬ Mem t.blocked sig ∧ s'.threads = s.threads) ∨
    ((∀ c t, cur = some c → s.threads[c]? = some t → Mem t.blocked sig) ∧
      ((s'.threads = s.threads ∧ ∀ k, ¬ Eligible s sig k) ∨
       (∃ k t, Eligible s sig k ∧ s.threads[k]? = some t ∧ (∀ j, j < k → ¬ Eligible s sig j) ∧
         s'.threads = s.threads.set k { t with status := .asleep true }))) := by
  unfold procSignal at h
  split at h
  · split at h <;> cases h
  rename_i sig' hsig
  split at h
  · cases h
  split at h
  · cases h
  obtain ⟨p, _, h⟩ := (R.bind_eq_ok ..).1 h
  simp only at h
  have key : ∀ h' : R.ok ({ s with pend := p, threads := interrupt sig' s.threads },
        [Ev.sent .process sig' i]) = R.ok (s', [Ev.sent .process sig i]),
      (s'.threads = s.threads ∧ ∀ k, ¬ Eligible s sig k) ∨
       (∃ k t, Eligible s sig k ∧ s.threads[k]? = some t ∧ (∀ j, j < k → ¬ Eligible s sig j) ∧
         s'.threads = s.threads.set k { t with status := .asleep true }) := by
    intro h'
    cases h'
    obtain ⟨hs, _⟩ := ofInt_some hsig
    rcases interrupt_spec hs s.threads with ⟨h1, h2⟩ | ⟨k, t, b, h1, h2, h3, h4, h5⟩
    · exact .inl ⟨h2, fun k ⟨t, b, ha, hb, hc⟩ => hc (h1 k t b ha hb)⟩
    · exact .inr ⟨k, t, ⟨t, b, h1, h2, h3⟩, h1,
        fun j hj ⟨u, c, ha, hb, hc⟩ => hc (h4 j u c hj ha hb), h5⟩
  split at h
  · rename_i t ht
    obtain ⟨c, hc, ht⟩ := Option.bind_eq_some_iff.1 ht
    split at h
    · rename_i hb
      right
      refine ⟨fun c' t' hc' ht' => ?_, key h⟩
      rw [hc] at hc'; cases hc'
      rw [ht] at ht'; cases ht'
      have : sig' = sig := by cases h; rfl
      subst this
      exact (has_iff (ofInt_some hsig).1).1 hb
    · rename_i hb
      cases h
      exact .inl ⟨c, t, hc, ht, by rw [← has_iff (ofInt_some hsig).1]; exact hb, rfl⟩
  · rename_i hno
    right
    refine ⟨fun c' t' hc' ht' => ?_, key h⟩
    rw [hc', Option.bind_some, ht'] at hno
    cases hno

/-- A sleeping thread without a scheduled wake-up has no unblocked signal of its own, and if it is
the only thread, none of the process either. -/
def Awake (s : St) : Prop :=
  ∀ (k : Nat) (t : Thread), s.threads[k]? = some t → t.status = .asleep false →
    t.pend.set &&& ~~~ t.blocked = 0#64 ∧
      (s.threads.length = 1 → s.pend.set &&& ~~~ t.blocked = 0#64)

theorem get_set_cases {l : List Thread} {k j : Nat} {t t' : Thread}
    (h : (l.set k t')[j]? = some t) : (j = k ∧ t = t') ∨ (j ≠ k ∧ l[j]? = some t) := by
  by_cases hj : j = k
  · subst hj
    rw [List.getElem?_set_self'] at h
    cases hl : l[j]? with
    | none => rw [hl] at h; cases h
    | some u => rw [hl] at h; cases h; exact .inl ⟨rfl, rfl⟩
  · rw [List.getElem?_set_ne (fun hh => hj hh.symm)] at h
    exact .inr ⟨hj, h⟩

theorem awake_put {s : St} {k : Nat} {t' : Thread} (hi : Awake s) (hne : t'.status ≠ .asleep false) :
    Awake (s.put k t') := by
  intro j u hu hst
  rcases get_set_cases hu with ⟨_, h⟩ | ⟨_, h⟩
  · subst h; exact absurd hst hne
  · obtain ⟨h1, h2⟩ := hi j u h hst
    exact ⟨h1, fun hl => h2 (by simpa [St.put] using hl)⟩

/-- When there is one thread and another position is read, that is out of range. -/
theorem single_pos {l : List Thread} {j k : Nat} {t u : Thread} (hl : l.length = 1)
    (h1 : l[j]? = some t) (h2 : l[k]? = some u) : j = k := by
  have a := (List.getElem?_eq_some_iff.1 h1).1
  have b := (List.getElem?_eq_some_iff.1 h2).1
  omega

theorem diff_zero_of_not {p : Pend} {b : Sigset} {sig : Nat} {i : Info} {p' : Pend}
    (hs : IsSig sig) (hp : p.push sig i = .ok p') (hb : Mem b sig) (hz : p.set &&& ~~~ b = 0#64) :
    p'.set &&& ~~~ b = 0#64 := by
  rw [eq_zero_iff] at hz ⊢
  intro n hn
  rw [mem_diff hn]
  rintro ⟨hm, hnb⟩
  have h0 := hz n hn
  rw [mem_diff hn] at h0
  obtain ⟨_, hat⟩ := push_ok hs hp
  have := hat n hn
  by_cases hns : n = sig
  · subst hns; exact hnb hb
  · rw [if_neg hns] at this
    apply h0
    refine ⟨Classical.byContradiction fun hno => ?_, hnb⟩
    rw [at_none.2 hno, at_none] at this
    exact this hm

theorem awake_procSignal {s s' : St} {cur : Option Nat} {i : Info} {e : List Ev} (hi : Awake s)
    (hc : s.curOk cur = true) (h : procSignal s cur i = .ok (s', e)) : Awake s' := by
  unfold procSignal at h
  split at h
  · split at h
    · cases h; exact hi
    · cases h
  rename_i sig hsig
  obtain ⟨hs, _⟩ := ofInt_some hsig
  split at h
  · cases h; exact hi
  split at h
  · cases h; exact hi
  obtain ⟨p, hp, h⟩ := (R.bind_eq_ok ..).1 h
  simp only at h
  have key : ∀ d, Awake ⟨p, s.actions, interrupt sig s.threads, d⟩ := by
    intro d j u hu hst
    have hu : (interrupt sig s.threads)[j]? = some u := hu
    rcases interrupt_get sig s.threads j with h | ⟨t, b, _, _, _, h⟩
    · rw [h] at hu
      obtain ⟨h1, h2⟩ := hi j u hu hst
      refine ⟨h1, fun hl => ?_⟩
      rw [interrupt_length] at hl
      refine diff_zero_of_not hs hp ?_ (h2 hl)
      refine Classical.byContradiction fun hb => ?_
      rcases interrupt_spec hs s.threads with ⟨h3, _⟩ | ⟨k, t, b, h3, _, _, _, h7⟩
      · exact hb (h3 j u false hu hst)
      · have := single_pos hl hu h3
        subst this
        rw [hu] at h3
        cases h3
        rw [h7, List.getElem?_set_self', hu] at h
        have := congrArg Thread.status (Option.some.inj h)
        rw [hst] at this
        cases this
    · rw [h] at hu
      cases hu
      cases hst
  split at h
  · rename_i t ht
    obtain ⟨c, hcc, ht⟩ := Option.bind_eq_some_iff.1 ht
    split at h
    · cases h; exact key _
    · cases h
      intro j u hu hst
      obtain ⟨h1, _⟩ := hi j u hu hst
      refine ⟨h1, fun hl => ?_⟩
      have := single_pos hl hu ht
      subst this
      rw [hcc] at hc
      simp only [St.curOk, Option.isSome_iff_exists] at hc
      obtain ⟨v, hv⟩ := hc
      obtain ⟨hv1, hv2⟩ := running_some hv
      have hu : s.threads[j]? = some u := hu
      rw [hu] at hv1; cases hv1
      rw [hst] at hv2; cases hv2
  · cases h; exact key _

theorem awake_signalThread {s s' : St} {cur : Option Nat} {k : Nat} {t : Thread} {signo : Int}
    {tag : Nat} {r : Ret} {e : List Ev} (hi : Awake s) (hc : s.curOk cur = true)
    (ht : s.threads[k]? = some t)
    (h : signalThread s cur k t signo tag = .ok (r, s', e)) : Awake s' := by
  unfold signalThread at h
  split at h
  · cases h; exact hi
  split at h
  · cases h; exact hi
  rename_i sig hsig
  obtain ⟨hs, _⟩ := ofInt_some hsig
  split at h
  · cases h; exact hi
  split at h
  · cases h; exact hi
  split at h
  · cases h; exact hi
  obtain ⟨p, hp, h⟩ := (R.bind_eq_ok ..).1 h
  simp only at h
  split at h
  · rename_i hcur
    cases h
    apply awake_put hi
    rw [hcur] at hc
    simp only [St.curOk, Option.isSome_iff_exists] at hc
    obtain ⟨v, hv⟩ := hc
    obtain ⟨hv1, hv2⟩ := running_some hv
    rw [ht] at hv1; cases hv1
    simp [hv2]
  split at h
  · rename_i hb
    cases h
    intro j u hu hst
    rcases get_set_cases hu with ⟨hj, he⟩ | ⟨_, he⟩
    · subst hj; subst he
      obtain ⟨h1, h2⟩ := hi j t ht hst
      exact ⟨diff_zero_of_not hs hp ((has_iff hs).1 hb) h1, fun hl => h2 (by simpa using hl)⟩
    · obtain ⟨h1, h2⟩ := hi j u he hst
      exact ⟨h1, fun hl => h2 (by simpa using hl)⟩
  rename_i hb
  split at h
  · obtain ⟨_, _, h⟩ := (R.bind_eq_ok ..).1 h
    cases h
    rw [List.set_set]
    apply awake_put hi
    simp [wakeupForSignal, hb]
  · rename_i hno
    cases h
    apply awake_put hi
    intro hh
    exact hno false hh

theorem unblockedPending_false {p : Pend} {t : Thread} (h : unblockedPending p t = false) :
    t.pend.set &&& ~~~ t.blocked = 0#64 ∧ p.set &&& ~~~ t.blocked = 0#64 := by
  unfold unblockedPending at h
  simp only [bne_eq_false_iff_eq] at h
  rw [eq_zero_iff] at h
  constructor
  · rw [eq_zero_iff]
    intro n hn
    have := h n hn
    rw [mem_diff hn, mem_or] at this
    rw [mem_diff hn]
    exact fun hh => this ⟨.inl hh.1, hh.2⟩
  · rw [eq_zero_iff]
    intro n hn
    have := h n hn
    rw [mem_diff hn, mem_or] at this
    rw [mem_diff hn]
    exact fun hh => this ⟨.inr hh.1, hh.2⟩

theorem awake_sleep {s : St} {k : Nat} {t : Thread} (hi : Awake s)
    (h : unblockedPending s.pend t = false) :
    Awake (s.put k { t with status := .asleep false }) := by
  intro j u hu hst
  obtain ⟨h1, h2⟩ := unblockedPending_false h
  rcases get_set_cases hu with ⟨_, he⟩ | ⟨_, he⟩
  · subst he
    exact ⟨h1, fun _ => h2⟩
  · obtain ⟨h3, h4⟩ := hi j u he hst
    exact ⟨h3, fun hl => h4 (by simpa [St.put] using hl)⟩

/-- Only the process set shrinks, and only running threads change: everybody stays awake. -/
theorem awake_deliver {s s' : St} {k : Nat} {t : Thread} {a : Activation} {as : List Activation}
    {o : Out} {e : List Ev} (hi : Awake s) (ht : s.threads[k]? = some t) (hr : t.status = .running)
    (h : deliver s k t a as = .ok (o, s', e)) : Awake s' := by
  have key : ∀ (p : Pend) (acts : Nat → Action) (d : Option Nat) (t' : Thread),
      t'.status = .running → Awake ⟨p, acts, s.threads.set k t', d⟩ := by
    intro p acts d t' hr' j u hu hst
    rcases get_set_cases hu with ⟨_, he⟩ | ⟨hj, he⟩
    · subst he; rw [hr'] at hst; cases hst
    · obtain ⟨h1, _⟩ := hi j u he hst
      refine ⟨h1, fun hl => ?_⟩
      exact absurd (single_pos (by simpa using hl) he ht) hj
  unfold deliver at h
  obtain ⟨o1, h1, h⟩ := (R.bind_eq_ok ..).1 h
  cases o1 with
  | none => cases h; exact key _ _ _ _ hr
  | some y =>
    obtain ⟨⟨sig, i⟩, own, q⟩ := y
    simp only at h
    cases own with
    | true =>
      simp only [if_true] at h
      split at h
      · cases h; exact key _ _ _ _ hr
      · split at h
        · cases h; exact key _ _ _ _ hr
        · cases h; exact key _ _ _ _ hr
        · cases h; exact key _ _ _ _ hr
        · cases h
        · cases h
      · cases h; exact key _ _ _ _ hr
    | false =>
      simp only [Bool.false_eq_true, if_false] at h
      split at h
      · cases h; exact key _ _ _ _ hr
      · split at h
        · cases h; exact key _ _ _ _ hr
        · cases h; exact key _ _ _ _ hr
        · cases h; exact key _ _ _ _ hr
        · cases h
        · cases h
      · cases h; exact key _ _ _ _ hr

theorem awake_step {s s' : St} {a : Act} {e : List Ev} (hi : Awake s)
    (h : step s a = some (.ok (s', e))) : Awake s' := by
  unfold step at h
  split at h
  · cases h
  split at h
  · split at h
    · exact awake_procSignal hi ‹_› (Option.some.inj h)
    · cases h
  · split at h
    · obtain ⟨⟨r, s1, e1⟩, h1, h2⟩ := (R.bind_eq_ok ..).1 (Option.some.inj h)
      cases h2
      unfold signalProcess at h1
      split at h1
      · cases h1; exact hi
      split at h1
      · cases h1; exact hi
      split at h1
      · cases h1; exact hi
      obtain ⟨⟨s2, e2⟩, h3, h4⟩ := (R.bind_eq_ok ..).1 h1
      cases h4
      exact awake_procSignal hi ‹_› h3
    · cases h
  · split at h
    · cases h
    · rename_i t ht
      split at h
      · rename_i hg
        obtain ⟨⟨r, s1, e1⟩, h1, h2⟩ := (R.bind_eq_ok ..).1 (Option.some.inj h)
        cases h2
        exact awake_signalThread hi hg.2 ht h1
      · cases h
  · split at h
    · cases h
    · rename_i t ht
      split at h
      · have h := Option.some.inj h
        unfold hardwareError at h
        split at h
        · cases h; exact hi
        · obtain ⟨p, h1, h⟩ := (R.bind_eq_ok ..).1 h
          cases h
          exact awake_put hi (by simp [(running_some ht).2])
      · cases h
  · obtain ⟨t, ht, h⟩ := Option.map_eq_some_iff.1 h
    cases h
    exact awake_put hi (by rw [(sigprocmask_pend ..).2.1, (running_some ht).2]; simp)
  · obtain ⟨t, ht, h⟩ := Option.map_eq_some_iff.1 h
    cases h
    intro j u hu hst
    rw [(sigaction_threads ..).1] at hu
    rw [(sigaction_threads ..).1, (sigaction_threads ..).2]
    exact hi j u hu hst
  · obtain ⟨t, ht, h⟩ := Option.map_eq_some_iff.1 h
    cases h
    exact awake_put hi (by rw [(sigaltstack_pend ..).2.1, (running_some ht).2]; simp)
  · cases h
    intro j u hu hst
    have hu : (s.threads ++ [({} : Thread)])[j]? = some u := hu
    rw [List.getElem?_append] at hu
    split at hu
    · obtain ⟨h1, h2⟩ := hi j u hu hst
      refine ⟨h1, fun hl => ?_⟩
      simp only [List.length_append, List.length_singleton] at hl
      omega
    · rcases Nat.eq_zero_or_pos (j - s.threads.length) with h0 | h0
      · rw [h0] at hu; cases hu; cases hst
      · rw [List.getElem?_eq_none (by simp only [List.length_singleton]; omega)] at hu; cases hu
  · split at h
    · split at h
      · cases h; exact awake_put hi (by simp)
      · cases h
    · cases h
  · obtain ⟨t, ht, h⟩ := Option.map_eq_some_iff.1 h
    split at h
    · cases h; exact hi
    · rename_i hu
      cases h; exact awake_sleep hi (by simpa using hu)
  · split at h
    · split at h
      · cases h; exact awake_put hi (by simp)
      · cases h
    · cases h
  · split at h
    · split at h
      · split at h
        · cases h; exact awake_put hi (by simp)
        · rename_i hu
          cases h
          refine awake_sleep hi ?_
          simp only [Bool.or_eq_true, not_or, Bool.not_eq_true] at hu
          exact hu.2
      · cases h
    · cases h
  · obtain ⟨t, ht, h⟩ := Option.map_eq_some_iff.1 h
    cases h
    exact awake_put hi (by simp [(running_some ht).2])
  · split at h
    · rename_i t ht
      split at h
      · split at h
        · obtain ⟨⟨r, s1, e1⟩, h1, h2⟩ := (R.bind_eq_ok ..).1 (Option.some.inj h)
          cases h2
          exact awake_deliver hi (running_some ht).1 (running_some ht).2 h1
        · cases h
      · cases h
    · cases h
  · split at h
    · rename_i t ht
      split at h
      · split at h
        · cases h
          exact awake_put hi (by simp [handlerReturn, (running_some ht).2])
        · cases h
      · cases h
    · cases h
  · obtain ⟨t, ht, h⟩ := Option.map_eq_some_iff.1 h
    cases h
    exact awake_put hi (by simp)

theorem awake_fresh (actions : Nat → Action) : Awake (fresh actions) := by
  intro k t ht hst
  cases k with
  | zero => cases ht; cases hst
  | succ k => simp [fresh] at ht

theorem awake_run {actions : Nat → Action} {es : List Ev} {s : St} (h : Run (fresh actions) es s) :
    Awake s := by
  induction h with
  | nil => exact awake_fresh actions
  | step _ hst ih => exact awake_step ih hst

/-- **No thread sleeps through a signal of its own**: a thread that sleeps in a system call without
a scheduled wake-up blocks every signal that is pending for it. -/
theorem C50_thread_awake {actions : Nat → Action} {es : List Ev} {s : St} {k : Nat} {t : Thread}
    (h : Run (fresh actions) es s) (ht : s.threads[k]? = some t) (hst : t.status = .asleep false)
    (sig : Nat) (hs : IsSig sig) (hp : s.pending (.thread k) sig ≠ none) : Mem t.blocked sig := by
  have h0 := eq_zero_iff.1 (awake_run h k t ht hst).1 sig hs
  rw [mem_diff hs] at h0
  simp only [St.pending, ht, Option.bind_some] at hp
  refine Classical.byContradiction fun hb => h0 ⟨?_, hb⟩
  exact Classical.byContradiction fun hm => hp (at_none.2 hm)

/-- In a process with one thread the same holds for the signals of the process. -/
theorem C50_single_awake {actions : Nat → Action} {es : List Ev} {s : St} {t : Thread}
    (h : Run (fresh actions) es s) (ht : s.threads = [t]) (hst : t.status = .asleep false)
    (q : Queue) (sig : Nat) (hs : IsSig sig) (hp : s.pending q sig ≠ none) : Mem t.blocked sig := by
  have hg : s.threads[0]? = some t := by rw [ht]; rfl
  cases q with
  | thread k =>
    cases k with
    | zero => exact C50_thread_awake h hg hst sig hs hp
    | succ k => simp [St.pending, ht] at hp
  | process =>
    have h0 := eq_zero_iff.1 ((awake_run h 0 t hg hst).2 (by rw [ht]; rfl)) sig hs
    rw [mem_diff hs] at h0
    refine Classical.byContradiction fun hb => h0 ⟨?_, hb⟩
    exact Classical.byContradiction fun hm => hp (at_none.2 hm)

end Shadow.Signal
