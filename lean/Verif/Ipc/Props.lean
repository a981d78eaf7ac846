import Verif.Ipc.Work

/-!
# Shadow and its managed threads take turns: the theorems (property C65)
-/
namespace Shadow.Ipc

open Shadow.Base

/-! ## One thread runs at a time, and only while Shadow waits for it -/

/-- The thread runs code of the application, or the shim does something for it or for Shadow.  (`exit` is the exception: Shadow does not
wait for it, property `C65_exit`.) -/
def Thread.runs (th : Thread) : Prop :=
  match th.pc with
  | .app | .inShim | .lockSig _ | .signals _ | .natShadow .. | .cloning .. | .cloned .. | .exiting => True
  | .natApp c => c.num ≠ sysExit
  | _ => False

theorem quiet_pc {th : Thread} (h : Quiet th) : th.pc = .unborn ∨ th.pc = .dead ∨ (∃ a, th.pc = .waitStart a) ∨ ∃ c ctx, th.pc = .wait c ctx := by
  have pk : ∀ {c}, Parked th c → th.pc = .unborn ∨ th.pc = .dead ∨ (∃ a, th.pc = .waitStart a) ∨ ∃ c ctx, th.pc = .wait c ctx := by
    rintro c (⟨ctx, e, _⟩ | ⟨e, _⟩)
    · exact .inr (.inr (.inr ⟨c, ctx, e⟩))
    · exact .inr (.inl e)
  rcases h with ⟨_, e | e, _⟩ | ⟨_, _, e, _⟩ | ⟨_, _, _, q⟩
  · exact .inl e
  · exact .inr (.inl e)
  · exact .inr (.inl e)
  · cases e : th.cur with
    | startReq => rw [e] at q; rcases q with ⟨a, e, _⟩ | ⟨e, _⟩
                  · exact .inr (.inr (.inl ⟨a, e⟩))
                  · exact .inr (.inl e)
    | death => rw [e] at q; exact .inr (.inl q.1)
    | syscall c => rw [e] at q; exact pk q
    | complete _ _ => rw [e] at q; exact q.elim
    | addRes r => rw [e] at q; obtain ⟨_, c, q⟩ := q; exact pk q

theorem quiet_runs {th : Thread} (h : Quiet th) : ¬ th.runs := by
  rcases quiet_pc h with e | e | ⟨_, e⟩ | ⟨_, _, e⟩ <;> simp [Thread.runs, e]

theorem child_pc {th : Thread} (h : Child th) :
    th.pc = .unborn ∨ th.pc = .dead ∨ (∃ a, th.pc = .starting a) ∨ ∃ a, th.pc = .waitStart a := by
  obtain ⟨_, _, ⟨e, _⟩ | ⟨_, ⟨a, e, _⟩ | ⟨e, _⟩⟩ | ⟨_, ⟨a, e, _⟩ | ⟨e, _⟩⟩⟩ := h
  · exact .inl e
  · exact .inr (.inr (.inl ⟨a, e⟩))
  · exact .inr (.inl e)
  · exact .inr (.inr (.inr ⟨a, e⟩))
  · exact .inr (.inl e)

/-- A thread runs only while the worker is blocked in `continue_plugin` for that very thread. -/
theorem C65_serial {s : St} {t : Nat} {th : Thread} (h : Run s) (ht : s.ts[t]? = some th) (hr : th.runs) : ∃ k, s.w = .cont t k := by
  have h0 := (h.inv.ts t th ht).1
  cases e : role s.w t with
  | quiet => rw [e] at h0; exact absurd hr (quiet_runs h0)
  | child =>
    rw [e] at h0
    rcases child_pc h0 with e | e | ⟨_, e⟩ | ⟨_, e⟩ <;> simp [Thread.runs, e] at hr
  | leaving =>
    rw [e] at h0
    rcases h0 with q | ⟨e, _⟩ | ⟨_, _, _, _, e, _⟩ | ⟨_, c, e, hx, _⟩
    · exact absurd hr (quiet_runs q)
    · simp [Thread.runs, e] at hr
    · simp [Thread.runs, e] at hr
    · simp [Thread.runs, e, hx] at hr
  | active k => exact ⟨k, role_active e⟩

/-- Two threads of a host never run at the same time. -/
theorem C65_one_runs {s : St} {t u : Nat} {th uh : Thread} (h : Run s) (ht : s.ts[t]? = some th) (hu : s.ts[u]? = some uh)
    (hr : th.runs) (hr' : uh.runs) : t = u := by
  obtain ⟨k, e⟩ := C65_serial h ht hr
  obtain ⟨k', e'⟩ := C65_serial h hu hr'
  rw [e] at e'; injection e'

/-- A new thread is initialised only while Shadow waits for it, or for its parent. -/
theorem C65_starting {s : St} {t : Nat} {th : Thread} {a : After} (h : Run s) (ht : s.ts[t]? = some th) (hp : th.pc = .starting a) :
    s.w = .startMain t ∨ (∃ u, s.w = .cont u (.clone t)) ∨ ∃ u r, s.w = .startChild u t r := by
  have h0 := (h.inv.ts t th ht).1
  have nq : ∀ {r}, RoleOk th r → r ≠ .quiet := by
    rintro _ q rfl
    rcases quiet_pc q with e | e | ⟨_, e⟩ | ⟨_, _, e⟩ <;> rw [hp] at e <;> cases e
  have hc : role s.w t = .child := by
    cases e : role s.w t with
    | child => rfl
    | quiet => rw [e] at h0; exact absurd rfl (nq h0)
    | leaving =>
      rw [e] at h0
      rcases h0 with q | ⟨e, _⟩ | ⟨_, _, _, _, e, _⟩ | ⟨_, c, e, _⟩
      · rcases quiet_pc q with e | e | ⟨_, e⟩ | ⟨_, _, e⟩ <;> rw [hp] at e <;> cases e
      · rw [hp] at e; cases e
      · rw [hp] at e; cases e
      · rw [hp] at e; cases e
    | active k =>
      rw [e] at h0
      obtain ⟨_, h0⟩ := h0
      have pk : ∀ {c}, ¬ Parked th c := by
        rintro c (⟨_, e, _⟩ | ⟨e, _⟩) <;> rw [hp] at e <;> cases e
      cases k with
      | resume =>
        rcases h0 with ⟨_, _, _, h0⟩ | ⟨_, _, h0⟩ | ⟨_, e', _, _, _, h0⟩
        · rcases h0 with ⟨e, _⟩ | ⟨_, _, e, _⟩ | ⟨_, _, _, _, _, e, _⟩ | ⟨_, _, _, e, _⟩ <;> rw [hp] at e <;> cases e
        · rcases h0 with ⟨e | e, _⟩ | ⟨_, e | e, _⟩ | ⟨_, e, _⟩ | ⟨e, _⟩ | ⟨e, _⟩ <;> rw [hp] at e <;> cases e
        · cases e' with
          | startReq => rcases h0 with ⟨_, e, _⟩ | ⟨e, _⟩ <;> rw [hp] at e <;> cases e
          | death => have e := h0.1; rw [hp] at e; cases e
          | syscall c => exact absurd h0 pk
          | complete _ _ => exact h0.elim
          | addRes r => obtain ⟨_, c, h0⟩ := h0; exact absurd h0 pk
      | nat =>
        obtain ⟨c, _, ⟨_, _, _, _, _, h0⟩ | ⟨_, _, ⟨_, _, e, _⟩ | ⟨e, _⟩⟩ | ⟨_, _, h0⟩⟩ := h0
        · exact absurd h0 pk
        · rw [hp] at e; cases e
        · rw [hp] at e; cases e
        · exact absurd h0 pk
      | clone b =>
        obtain ⟨c, _, _, ⟨_, _, _, _, h0⟩ | ⟨_, _, ⟨_, ⟨_, _, e⟩ | ⟨_, _, e⟩, _⟩ | ⟨e, _⟩⟩ | ⟨_, _, h0⟩⟩ := h0
        · exact absurd h0 pk
        · rw [hp] at e; cases e
        · rw [hp] at e; cases e
        · rw [hp] at e; cases e
        · exact absurd h0 pk
  unfold role at hc
  split at hc
  · next u k hw =>
    split at hc
    · cases hc
    · split at hc
      · next b =>
        split at hc
        · next e => subst e; exact .inr (.inl ⟨u, hw⟩)
        · cases hc
      · cases hc
  · next u hw =>
    split at hc
    · next e => subst e; exact .inl hw
    · cases hc
  · next u b r hw =>
    split at hc
    · next e => subst e; exact .inr (.inr ⟨u, r, hw⟩)
    · cases hc
  · split at hc <;> cases hc
  · cases hc

/-- A thread that makes its last call `exit` natively is the one whose end Shadow waits for. -/
theorem C65_exit {s : St} {t : Nat} {th : Thread} {c : Call} (h : Run s) (ht : s.ts[t]? = some th) (hp : th.pc = .natApp c)
    (hc : c.num = sysExit) : s.w = .exitWait t := by
  rcases (special_of (h.inv.ts t th ht).1).1 c hp with ⟨_, _, _, _, e, _⟩ | ⟨e, _⟩
  · exact absurd hc e
  · unfold role at e
    split at e
    · next u k hw =>
      split at e
      · cases e
      · split at e
        · split at e <;> cases e
        · cases e
    · split at e <;> cases e
    · split at e <;> cases e
    · next u hw =>
      split at e
      · next e' => subst e'; exact hw
      · cases e
    · cases e

/-! ## While Shadow runs, every thread waits -/

/-- While Shadow runs (it is outside of `resume`, or handles the event of some thread), every thread that runs and is alive is blocked
waiting for Shadow, nothing is in its channels, and `current_event` is what it sent last. -/
theorem C65_parked {s : St} {t : Nat} {th : Thread} (h : Run s) (hw : s.w = .idle ∨ ∃ u, s.w = .handling u) (ht : s.ts[t]? = some th)
    (hr : th.running = true) (ha : th.pc ≠ .dead) :
    th.toShim.msg = none ∧ th.toShadow.msg = none ∧
      ((th.cur = .startReq ∧ ∃ a, th.pc = .waitStart a) ∨
        ∃ c ctx, th.pc = .wait c ctx ∧ (th.cur = .syscall c ∨ th.cur = .addRes 0)) := by
  have h0 := (h.inv.ts t th ht).1
  have hq : Quiet th := by rcases hw with hw | ⟨u, hw⟩ <;> rw [hw] at h0 <;> exact h0
  have pk : ∀ {c}, Parked th c → ∃ ctx, th.pc = .wait c ctx := by
    rintro c (⟨ctx, e, _⟩ | ⟨e, _⟩)
    · exact ⟨ctx, e⟩
    · exact absurd e ha
  rcases hq with ⟨e, _⟩ | ⟨_, _, e, _⟩ | ⟨_, m1, m2, q⟩
  · rw [hr] at e; cases e
  · exact absurd e ha
  · refine ⟨m1, m2, ?_⟩
    cases e : th.cur with
    | startReq => rw [e] at q; rcases q with ⟨a, e, _⟩ | ⟨e, _⟩
                  · exact .inl ⟨rfl, a, e⟩
                  · exact absurd e ha
    | death => rw [e] at q; exact absurd q.1 ha
    | syscall c => rw [e] at q; obtain ⟨ctx, q⟩ := pk q; exact .inr ⟨c, ctx, q, .inl rfl⟩
    | complete _ _ => rw [e] at q; exact q.elim
    | addRes r => rw [e] at q; obtain ⟨e0, c, q⟩ := q; obtain ⟨ctx, q⟩ := pk q; exact .inr ⟨c, ctx, q, .inr (by rw [e0])⟩

/-! ## Calls and answers -/

theorem startLog_pend {th : Thread} {a : After} (h : StartLog th a) : ∃ p, th.pend p := by
  cases a with
  | main => exact ⟨_, h.1⟩
  | jump => exact ⟨_, h.1⟩
  | fork c ctx st => exact ⟨_, h.1⟩

theorem parked_pend {th : Thread} {c : Call} (h : Parked th c) : ∃ p, th.pend p := by
  rcases h with ⟨_, _, _, h⟩ | ⟨_, _, h⟩
  · exact ⟨_, h.1⟩
  · exact ⟨_, h⟩

theorem waits_pend {th : Thread} {e : ToShadow} (h : Waits th e) : ∃ p, th.pend p := by
  cases e with
  | startReq => rcases h with ⟨a, _, h⟩ | h
                · exact startLog_pend h
                · exact h.2
  | death => exact h.2
  | syscall c => exact parked_pend h
  | complete _ _ => exact h.elim
  | addRes r => obtain ⟨_, c, h⟩ := h; exact parked_pend h

theorem quiet_pend {th : Thread} (h : Quiet th) : ∃ p, th.pend p := by
  rcases h with ⟨_, _, h⟩ | ⟨_, _, h⟩ | ⟨_, _, _, h⟩
  · exact h
  · exact h.2
  · exact waits_pend h

theorem role_pend {th : Thread} {r : Role} (h : RoleOk th r) : ∃ p, th.pend p := by
  cases r with
  | quiet => exact quiet_pend h
  | child =>
    obtain ⟨_, _, ⟨_, _, h⟩ | ⟨_, ⟨a, _, h⟩ | h⟩ | ⟨_, h⟩⟩ := h
    · exact ⟨_, h.1⟩
    · exact startLog_pend h
    · exact h.2
    · exact waits_pend h
  | leaving =>
    rcases h with h | h | ⟨_, _, c, ctx, _, _, h⟩ | ⟨_, c, _, _, h⟩
    · exact quiet_pend h
    · exact h.2
    · exact ⟨_, h.1⟩
    · exact ⟨_, h.1⟩
  | active k =>
    obtain ⟨_, h⟩ := h
    cases k with
    | resume =>
      rcases h with ⟨_, _, _, h⟩ | ⟨_, _, h⟩ | ⟨_, e, _, _, _, h⟩
      · rcases h with h | ⟨_, a, _, h⟩ | ⟨_, _, _, _, _, _, _, h⟩ | ⟨_, _, _, _, _, _, h⟩
        · exact h.2
        · exact startLog_pend h
        · exact ⟨_, h.1⟩
        · exact ⟨_, h.1⟩
      · rcases h with ⟨_, h⟩ | ⟨_, _, _, h⟩ | ⟨_, _, _, _, h⟩ | ⟨_, h⟩ | h
        · exact ⟨_, h.1⟩
        · exact ⟨_, h.1⟩
        · exact ⟨_, h.1⟩
        · exact h
        · exact h.2
      · exact waits_pend h
    | nat =>
      obtain ⟨c, _, ⟨_, _, _, _, _, h⟩ | ⟨_, _, ⟨_, _, _, _, _, _, h⟩ | h⟩ | ⟨_, _, h⟩⟩ := h
      · exact parked_pend h
      · exact ⟨_, h.1⟩
      · exact h.2
      · exact parked_pend h
    | clone b =>
      obtain ⟨c, _, _, ⟨_, _, _, _, h⟩ | ⟨_, _, ⟨_, _, _, h⟩ | h⟩ | ⟨_, _, h⟩⟩ := h
      · exact parked_pend h
      · exact ⟨_, h.1⟩
      · exact h.2
      · exact parked_pend h

/-- What every thread observes of its calls is right: a call is made only when no other waits for its answer; Shadow's handler is run only
for the latest call and with its number and arguments, until it gives an answer; the call returns what Shadow answered (or what the kernel
answered, if Shadow said so), once; an interrupted call is made again, with the same arguments, only if the answer was `EINTR` and
restartable and all handlers that were started for it have `SA_RESTART`; the call that made a copy of a process returns 0 in the copy. -/
theorem C65_calls {s : St} {t : Nat} {th : Thread} (h : Run s) (ht : s.ts[t]? = some th) : ∃ p, obsAll [] th.log = some p :=
  role_pend (h.inv.ts t th ht).1

/-- Shadow's handler has answered. -/
def Ev.final : Ev → Bool
  | .handled _ (.done _ _) | .handled _ .native | .forkDone => true
  | _ => false

def Ev.asks : Ev → Bool
  | .ask _ | .again _ => true
  | _ => false

def Ev.ends : Ev → Bool
  | .ret _ _ | .again _ => true
  | _ => false

/-- The calls that wait for an answer, and those that have one and have not returned. -/
def open1 (p : Pending) : Nat := p.countP fun x => x.2 == .asked
def open2 (p : Pending) : Nat := p.countP fun x => x.2 != .asked

theorem drop_count (f : Call × Call1 → Bool) (p : Pending) (n : Nat) : (p.drop n).countP f ≤ p.countP f :=
  List.Sublist.countP_le (List.drop_sublist n p)

theorem obs_count {p q : Pending} {e : Ev} (h : obs p e = some q) :
    (if e.final then 1 else 0) + open1 q ≤ (if e.asks then 1 else 0) + open1 p ∧
      (if e.ends then 1 else 0) + open2 q ≤ (if e.final then 1 else 0) + open2 p := by
  cases e with
  | ask c =>
    simp only [obs] at h; split at h
    · injection h with h; subst h; simp [Ev.final, Ev.asks, Ev.ends, open1, open2]; omega
    · cases h
  | handled c a =>
    simp only [obs] at h
    split at h
    · split at h
      · next hc =>
        subst hc
        cases a <;> (injection h with h; subst h; simp [Ev.final, Ev.asks, Ev.ends, open1, open2] <;> omega)
      · cases h
    · cases h
  | again c =>
    simp only [obs] at h
    split at h
    · split at h
      · injection h with h; subst h; simp [Ev.final, Ev.asks, Ev.ends, open1, open2]; omega
      · cases h
    · cases h
  | handler r =>
    simp only [obs] at h
    split at h
    · injection h with h; subst h; simp [Ev.final, Ev.asks, Ev.ends, open1, open2]
    · cases h
  | ret c rv =>
    simp only [obs] at h
    split at h
    · split at h
      · injection h with h; subst h; simp [Ev.final, Ev.asks, Ev.ends, open1, open2]; omega
      · cases h
    · split at h
      · injection h with h; subst h; simp [Ev.final, Ev.asks, Ev.ends, open1, open2]; omega
      · cases h
    · cases h
  | jump n =>
    simp only [obs] at h; split at h
    · injection h with h; subst h
      simp only [Ev.final, Ev.asks, Ev.ends, open1, open2]
      have h1 := drop_count (fun x => x.2 == .asked) p n
      have h2 := drop_count (fun x => x.2 != .asked) p n
      simp only [Bool.false_eq_true, if_false]
      omega
    · cases h
  | forked =>
    simp only [obs] at h; split at h
    · injection h with h; subst h; simp [Ev.final, Ev.asks, Ev.ends]
    · cases h
  | forkDone =>
    simp only [obs] at h; split at h
    · injection h with h; subst h; simp [Ev.final, Ev.asks, Ev.ends, open1, open2]; omega
    · cases h

theorem obsAll_count {p q : Pending} {l : List Ev} (h : obsAll p l = some q) :
    l.countP Ev.final + open1 q ≤ l.countP Ev.asks + open1 p ∧ l.countP Ev.ends + open2 q ≤ l.countP Ev.final + open2 p := by
  induction l generalizing p with
  | nil => simp only [obsAll] at h; injection h with h; subst h; simp
  | cons e l ih =>
    simp only [obsAll] at h
    split at h
    · next p' hp =>
      have h1 := obs_count hp
      have h2 := ih h
      simp only [List.countP_cons]
      omega
    · cases h

/-- Shadow answers at most as often as it is asked, and a thread gets a result (or asks again) at most as often as Shadow answers: no
answer is lost by being given twice, and no call returns without an answer. -/
theorem C65_counts {s : St} {t : Nat} {th : Thread} (h : Run s) (ht : s.ts[t]? = some th) :
    th.log.countP Ev.final ≤ th.log.countP Ev.asks ∧ th.log.countP Ev.ends ≤ th.log.countP Ev.final := by
  obtain ⟨p, hp⟩ := C65_calls h ht
  have := obsAll_count hp
  have h1 : open1 [] = 0 := rfl
  have h2 : open2 [] = 0 := rfl
  omega

/-! ## Panics -/

/-- Neither Shadow nor the shim panics, except that Shadow does when a process dies before it has started, or while a call is made natively
in it for Shadow. -/
theorem C65_no_panic {s : St} {a : Act} (h : Run s) (ha : allowed s a) (hs : step s a = some .panic) : Fatal s a := by
  rcases step_inv h.inv ha hs with ⟨s', e, _⟩ | ⟨_, g⟩
  · cases e
  · exact g

/-! ## The lock and the clock -/

/-- The lock of the host's shared memory: a thread is inside its critical section only if it has the lock, and then Shadow waits for it;
while Shadow runs, it has the lock itself. -/
theorem C65_lock {s : St} (h : Run s) :
    (∀ t th, s.ts[t]? = some th → th.locks = true → s.lock = .thread t ∧ ∃ k, s.w = .cont t k) ∧
    (∀ t, s.lock = .thread t → ∃ th k, s.ts[t]? = some th ∧ s.w = .cont t k ∧ (th.locks = true ∨ th.pc = .dead)) ∧
    ((∀ t k, s.w ≠ .cont t k) → s.lock = .worker) := by
  have l0 := h.inv.l
  unfold LOk at l0
  refine ⟨?_, ?_, ?_⟩
  · intro t th ht hl
    have hr : th.runs := by
      unfold Thread.locks at hl; unfold Thread.runs
      split at hl
      · next e => rw [e]; trivial
      · next e => rw [e]; trivial
      · cases hl
    obtain ⟨k, hw⟩ := C65_serial h ht hr
    rw [hw] at l0
    obtain ⟨x, hx, l0⟩ := l0
    rw [ht] at hx; injection hx with hx; subst hx
    rcases l0 with ⟨_, e⟩ | ⟨e, _⟩
    · rw [hl] at e; cases e
    · exact ⟨e, k, hw⟩
  · intro t hl
    split at l0
    · next u k hw =>
      obtain ⟨x, hx, ⟨e, _⟩ | ⟨e, l0⟩⟩ := l0
      · rw [hl] at e; cases e
      · rw [hl] at e; injection e with e; subst e; exact ⟨x, k, hx, hw, l0⟩
    · rw [hl] at l0; cases l0
  · intro hn
    split at l0
    · next u k hw => exact absurd hw (hn u k)
    · exact l0

/-- The clock that a thread sees is not behind that of Shadow, and not beyond the time up to which it may run ahead. -/
theorem C65_shim_time {s : St} {t : Nat} {k : Kont} (h : Run s) (hw : s.w = .cont t k) : s.now ≤ s.shimT ∧ s.shimT ≤ max s.now s.maxT := by
  have c0 := h.inv.c
  unfold ClockOk at c0
  rw [hw] at c0; exact c0

theorem lift_now {s s' : St} {t : Nat} {r : R Thread} (h : lift s t r = .ok s') : s'.now = s.now := by
  unfold lift at h
  split at h
  · cases h
  · injection h with h; subst h; rfl

theorem contPlugin_now {s s' : St} {t : Nat} {th : Thread} {m : ToShim} {k : Kont} {mx : Nat} (h : contPlugin s t th m k mx = .ok s') :
    s'.now = s.now := by
  unfold contPlugin at h
  split at h
  · split at h
    · cases h
    · injection h with h; subst h; rfl
  · cases h

theorem handleEv_now {s s' : St} {t : Nat} {th : Thread} {hh : HAct} {mx : Nat} (h : handleEv s t th hh mx = some (.ok s')) :
    s'.now = s.now := by
  unfold handleEv at h
  split at h
  · split at h
    · injection h with h; exact contPlugin_now h
    · cases h
  · split at h
    · injection h with h; injection h with h; subst h; rfl
    · cases h
  · split at h
    · split at h
      · split at h
        · cases h
        · injection h with h; injection h with h; subst h; rfl
      · cases h
    · split at h
      · cases h
      · injection h with h; exact contPlugin_now h
      · injection h with h; have := contPlugin_now h; exact this
      · injection h with h; injection h with h; subst h; rfl
      · injection h with h; exact contPlugin_now h
      · injection h with h; exact contPlugin_now h
  · split at h
    · split at h
      · injection h with h; exact contPlugin_now h
      · injection h with h; cases h
    · cases h
  · split at h
    · injection h with h; cases h
    · cases h

/-- Only the end of `continue_plugin` changes Shadow's clock. -/
theorem step_now {s s' : St} {a : Act} (h : step s a = some (.ok s')) : s'.now = s.now ∨ (s'.now = s.shimT ∧ ∃ t k, s.w = .cont t k) := by
  cases a with
  | recv =>
    simp only [step] at h
    split at h
    · next t k hw =>
      refine .inr ⟨?_, t, k, hw⟩
      split at h
      · split at h
        · split at h
          · injection h with h
            cases k with
            | resume => simp only [contDone] at h; injection h with h; subst h; rfl
            | nat =>
              simp only [contDone] at h
              split at h
              · injection h with h; subst h; rfl
              · cases h
            | clone b =>
              simp only [contDone] at h
              split at h
              · split at h
                · injection h with h; subst h; rfl
                · split at h
                  · cases h
                  · injection h with h; subst h; rfl
              · cases h
          · cases h
        · cases h
      · cases h
    · cases h
  | handle hh mx =>
    simp only [step] at h
    split at h
    · split at h
      · exact .inl (handleEv_now h)
      · cases h
    · cases h
  | startRecv =>
    have sd : ∀ {b w}, startDone s b w = some (.ok s') → s'.now = s.now := by
      intro b w h
      unfold startDone at h
      split at h
      · cases h
      · split at h
        · injection h with h; injection h with h; subst h; rfl
        · injection h with h; cases h
        · split at h
          · injection h with h; cases h
          · cases h
    simp only [step] at h
    split at h
    · exact .inl (sd h)
    · exact .inl (sd h)
    · cases h
  | _ =>
    simp only [step] at h
    left
    (repeat' split at h) <;>
      first
        | (cases h; done)
        | (cases h; rfl)
        | (injection h with h; cases h)
        | (injection h with h; exact lift_now h)
        | (injection h with h; have := lift_now h; exact this)
        | (injection h with h; injection h with h; subst h; rfl)

/-- Shadow's clock never goes back, and no call makes it pass the time up to which threads may run ahead. -/
theorem C65_time {s s' : St} {a : Act} (h : Run s) (hs : step s a = some (.ok s')) : s.now ≤ s'.now ∧ s'.now ≤ max s.now s.maxT := by
  rcases step_now hs with e | ⟨e, t, k, hw⟩
  · omega
  · have := C65_shim_time h hw; omega

end Shadow.Ipc
