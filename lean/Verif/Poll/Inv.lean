import Verif.Poll.Lem
/-! # The invariant of the executions -/
namespace Shadow.Poll

open Shadow.Base

/-- The timeout that the handler gives to the condition when it runs at `now`. -/
def deadlineAt (now : Nat) : Option Ts → Option Nat
  | some t => if t.sec > 0 || t.nsec > 0 then (if deadlineOf now t = noTime then none else some (deadlineOf now t)) else none
  | none => none

theorem poll_eq (E : Env) (s : St) (fds to cond start mv tk) : s.poll E fds to cond start mv tk =
    if numReady (checkAll E s fds) = 0 then
      if to = some ⟨0, 0⟩ || cond.any (· ≤ s.now) then .ok (s.done fds to start 0 (checkAll E s fds))
      else if s.sig then .ok (s.done fds to start (-EINTR) (checkAll E s fds))
      else do
        let ep ← register s s.ep.reset fds
        R.assert ((deadlineAt s.now to).all (s.now ≤ ·))
        .ok { s with ep, wait := some ⟨fds, to, deadlineAt s.now to, false, start, mv, tk⟩ }
    else .ok (s.done fds to start (numReady (checkAll E s fds)) (checkAll E s fds)) := rfl

theorem numReady_zero {E : Env} {s : St} {fds : List Pfd} (h : numReady (checkAll E s fds) = 0) :
    ∀ p ∈ fds, (check E s p).revents = 0 := by
  intro p hp
  unfold numReady checkAll at h
  rw [List.countP_eq_zero] at h
  have := h (check E s p) (List.mem_map_of_mem hp)
  simpa using this

theorem tbl_some {E : Env} {s : St} {p : Pfd} (h : (check E s p).revents = 0) (h0 : 0 ≤ p.fd) :
    ∃ o, s.tbl p.fd.toNat = some o ∧ fileEvents E o (s.files o) p.events = 0 := by
  simp only [check, show ¬ p.fd < 0 by omega, if_false] at h
  split at h
  · exact ⟨_, ‹_›, h⟩
  · exact absurd h (by decide)

/-- How the call `start` … ended. -/
def Returned (E : Env) (s : St) (fds : List Pfd) (to : Option Ts) (cond : Option Nat) (start : Nat) (s' : St) : Prop :=
  ∃ res, s' = s.done fds to start res (checkAll E s fds) ∧
    ((numReady (checkAll E s fds) ≠ 0 ∧ res = numReady (checkAll E s fds)) ∨
     (numReady (checkAll E s fds) = 0 ∧ res = 0 ∧ (to = some ⟨0, 0⟩ ∨ ∃ x, cond = some x ∧ x ≤ s.now)) ∨
     (numReady (checkAll E s fds) = 0 ∧ res = -EINTR ∧ s.sig = true ∧ to ≠ some ⟨0, 0⟩ ∧ ∀ x, cond = some x → s.now < x))

/-- The call waits. -/
def Blocked (E : Env) (s : St) (fds : List Pfd) (to : Option Ts) (cond : Option Nat) (start : Nat) (mv tk : Bool) (s' : St) : Prop :=
  numReady (checkAll E s fds) = 0 ∧ to ≠ some ⟨0, 0⟩ ∧ (∀ x, cond = some x → s.now < x) ∧ s.sig = false ∧
  (∀ x, deadlineAt s.now to = some x → s.now ≤ x) ∧
  ∃ ep, s' = { s with ep, wait := some ⟨fds, to, deadlineAt s.now to, false, start, mv, tk⟩ } ∧
    EI s.files [] ep ∧ BitOk ep ∧
    (∀ v ∈ ep.watching, ∃ p ∈ fds, 0 ≤ p.fd ∧ v.fd = p.fd ∧ s.tbl p.fd.toNat = some v.obj ∧
          v.wantIn = has p.events POLLIN ∧ v.wantOut = has p.events POLLOUT) ∧
    (∀ p ∈ fds, 0 ≤ p.fd → (has p.events POLLIN || has p.events POLLOUT) = true → ∀ o, s.tbl p.fd.toNat = some o →
        (s.files o).closed = false → ∃ v ∈ ep.watching, v.key = (p.fd, o))

theorem poll_cases {E : Env} {s s' : St} {fds to cond start mv tk} (h : s.poll E fds to cond start mv tk = .ok s') :
    Returned E s fds to cond start s' ∨ Blocked E s fds to cond start mv tk s' := by
  rw [poll_eq] at h
  by_cases hn : numReady (checkAll E s fds) = 0
  · rw [if_pos hn] at h
    by_cases ht : (to = some ⟨0, 0⟩ || cond.any (· ≤ s.now)) = true
    · rw [if_pos ht] at h
      cases h
      refine .inl ⟨0, rfl, .inr (.inl ⟨hn, rfl, ?_⟩)⟩
      simp only [Bool.or_eq_true, decide_eq_true_eq, Option.any_eq_true] at ht
      exact ht
    · rw [if_neg ht] at h
      simp only [Bool.or_eq_true, decide_eq_true_eq, Option.any_eq_true, not_or] at ht
      have hc : ∀ x, cond = some x → s.now < x := fun x hx =>
        Nat.lt_of_not_le fun h' => ht.2 ⟨x, hx, by simpa using h'⟩
      by_cases hs : s.sig = true
      · rw [if_pos hs] at h
        cases h
        exact .inl ⟨_, rfl, .inr (.inr ⟨hn, rfl, hs, ht.1, hc⟩)⟩
      · rw [if_neg hs] at h
        have hz := numReady_zero hn
        obtain ⟨ep, e, h1, h2, _, h4, h5⟩ := register_spec s fds s.ep.reset (EI.reset _ _) (BitOk.reset _) (fun p hp h0 => by
          obtain ⟨o, ho, _⟩ := tbl_some (hz p hp) h0
          simp [ho])
        rw [e] at h
        simp only [R.bind_ok] at h
        cases hd : (deadlineAt s.now to).all (s.now ≤ ·)
        · rw [hd] at h
          simp [R.assert] at h
        · rw [hd] at h
          simp only [R.assert_true, R.bind_ok] at h
          cases h
          refine .inr ⟨hn, ht.1, hc, by simpa using hs, ?_, ep, rfl, h1, h2, ?_, h5⟩
          · intro x hx
            rw [hx] at hd
            simpa using hd
          · intro v hv
            rcases h4 v hv with hv | hv
            · simp [Epoll.reset] at hv
            · exact hv
  · rw [if_neg hn] at h
    cases h
    exact .inl ⟨_, rfl, .inl ⟨hn, rfl⟩⟩

/-- What holds of a call that waits. -/
structure WInv (E : Env) (s : St) (w : Wait) : Prop where
  ei : EI s.files [] s.ep
  bit : BitOk s.ep
  src : ∀ v ∈ s.ep.watching, ∃ p ∈ w.fds, 0 ≤ p.fd ∧ v.fd = p.fd ∧
    v.wantIn = has p.events POLLIN ∧ v.wantOut = has p.events POLLOUT ∧ (w.moved = false → s.tbl p.fd.toNat = some v.obj)
  cov : w.moved = false → ∀ p ∈ w.fds, 0 ≤ p.fd → (has p.events POLLIN || has p.events POLLOUT) = true →
    ∀ o, s.tbl p.fd.toNat = some o → (s.files o).closed = false → ∃ v ∈ s.ep.watching, v.key = (p.fd, o)
  tbl : w.moved = false → ∀ p ∈ w.fds, 0 ≤ p.fd →
    ∃ o, s.tbl p.fd.toNat = some o ∧ (E.reg o = true → fileEvents E o (s.files o) p.events = 0)
  rung : s.ep.bit = true → s.ep.ready ≠ [] → w.sched = true
  stale : s.ep.bit = true → s.ep.ready = [] → w.taken = false → w.sched = true → s.sig = true
  sig : s.sig = true → w.sched = true
  due : ∀ x, w.deadline = some x → s.now ≤ x
  time : w.moved = false → w.taken = false → w.deadline = deadlineAt w.start w.timeout
  t0 : w.timeout ≠ some ⟨0, 0⟩
  start : w.start ≤ s.now
  last : ∃ x, w.start ≤ x ∧ x ≤ s.now ∧ w.deadline = deadlineAt x w.timeout

structure Inv (E : Env) (s : St) : Prop where
  now : s.now < noTime
  reg : ∀ o, E.reg o = true → (s.files o).readable = false ∧ (s.files o).writable = false
  idle : s.wait = none → s.ep.watching = [] ∧ s.ep.ready = []
  wait : ∀ w, s.wait = some w → WInv E s w

theorem fileEvents_of_ready {E : Env} {o : Nat} {f : FileSt} {ev : Bits} {v : Watch} (hr : E.reg o = false)
    (hi : v.wantIn = has ev POLLIN) (ho : v.wantOut = has ev POLLOUT) (h : isReady f v = true) : fileEvents E o f ev ≠ 0 := by
  simp only [isReady, Bool.and_eq_true, Bool.or_eq_true, Bool.not_eq_true'] at h
  obtain ⟨⟨hc, ha⟩, h⟩ := h
  rw [hi, ho] at h
  unfold fileEvents
  rw [if_neg (by simp [hr])]
  rcases h with ⟨h1, h2⟩ | ⟨h1, h2⟩
  · simp only [h1, h2, ha, hc, Bool.and_self, if_true, Bool.false_and]
    split <;> split <;> decide
  · simp only [h1, h2, ha, hc, Bool.and_self, if_true, Bool.false_and]
    split <;> split <;> decide

/-- If no descriptor has been changed and the epoll is readable, the call has an answer. -/
theorem WInv.answer {E : Env} {s : St} {w : Wait} (hreg : ∀ o, E.reg o = true → (s.files o).readable = false ∧ (s.files o).writable = false)
    (h : WInv E s w) (hm : w.moved = false) (hr : s.ep.ready ≠ []) : numReady (checkAll E s w.fds) ≠ 0 := by
  obtain ⟨k, hk⟩ := List.exists_mem_of_ne_nil _ hr
  obtain ⟨v, hv, rfl⟩ := h.ei.sub k hk
  have hrd := (h.ei.rdy v hv (by simp)).1 hk
  obtain ⟨p, hp, h0, hf, hi, ho, ht⟩ := h.src v hv
  intro hz
  obtain ⟨o, ho', hev⟩ := tbl_some (numReady_zero hz p hp) h0
  rw [ht hm] at ho'
  cases ho'
  refine fileEvents_of_ready ?_ hi ho hrd hev
  cases hrr : E.reg v.obj
  · rfl
  · have := hreg _ hrr
    simp [isReady, this.1, this.2] at hrd

theorem Inv.done {E : Env} {s : St} (h : Inv E s) (fds to start res out) : Inv E (s.done fds to start res out) :=
  ⟨h.now, h.reg, fun _ => ⟨rfl, rfl⟩, fun w hw => by simp [St.done] at hw⟩

theorem Inv.poll {E : Env} {s s' : St} {fds to cond start mv tk} (h : Inv E s) (hst : start ≤ s.now)
    (hre : start = s.now ∨ mv = true ∨ tk = true)
    (hp : s.poll E fds to cond start mv tk = .ok s') : Inv E s' := by
  rcases poll_cases hp with ⟨res, rfl, _⟩ | ⟨hn, ht, _, hsg, hd, ep, rfl, h1, h2, h3, h4⟩
  · exact h.done ..
  · refine ⟨h.now, h.reg, fun hw => by simp at hw, fun w hw => ?_⟩
    simp only [Option.some.injEq] at hw
    subst hw
    have hz := numReady_zero hn
    refine {
      ei := h1
      bit := h2
      src := fun v hv => by
        obtain ⟨p, hp, a, b, c, d, e⟩ := h3 v hv
        exact ⟨p, hp, a, b, d, e, fun _ => c⟩
      cov := fun _ => h4
      tbl := fun _ p hp h0 => by
        obtain ⟨o, ho, e⟩ := tbl_some (hz p hp) h0
        exact ⟨o, ho, fun _ => e⟩
      rung := fun _ hr => ?_
      stale := fun _ _ _ hs => by simp at hs
      sig := fun hs => by simp only [hsg] at hs; cases hs
      due := hd
      time := fun hm htk => ?_
      t0 := ht
      start := hst
      last := ⟨s.now, hst, Nat.le_refl _, rfl⟩ }
    · -- nothing is ready when the call begins to wait
      exfalso
      obtain ⟨k, hk⟩ := List.exists_mem_of_ne_nil _ hr
      obtain ⟨v, hv, rfl⟩ := h1.sub k hk
      have hrd := (h1.rdy v hv (by simp)).1 hk
      obtain ⟨p, hp, h0, hf, ht, hi, ho⟩ := h3 v hv
      obtain ⟨o, ho', hev⟩ := tbl_some (hz p hp) h0
      rw [ht] at ho'
      cases ho'
      refine fileEvents_of_ready ?_ hi ho hrd hev
      cases hrr : E.reg v.obj
      · rfl
      · have := h.reg _ hrr
        simp [isReady, this.1, this.2] at hrd
    · rcases hre with rfl | rfl | rfl
      · rfl
      · cases hm
      · cases htk

theorem Inv.wake {E : Env} {s s' : St} {w : Wait} (h : Inv E s) (hw : s.wait = some w)
    (he : (w.sched || w.deadline.any (· ≤ s.now)) = true) (hp : s.wake E w = .ok s') : Inv E s' := by
  have hi := h.wait w hw
  unfold St.wake at hp
  split at hp
  · rename_i hsat
    by_cases hmt : w.moved = true ∨ w.taken = true
    · exact h.poll hi.start (.inr hmt) hp
    · simp only [not_or, Bool.not_eq_true] at hmt
      rcases poll_cases hp with ⟨res, rfl, _⟩ | ⟨hn, _, hc, hsg, _⟩
      · exact h.done ..
      · exfalso
        have hnd : w.deadline.any (· ≤ s.now) = false := by
          rw [Bool.eq_false_iff]
          intro ha
          obtain ⟨x, hx, hle⟩ := (Option.any_eq_true ..).1 ha
          have := hc x hx
          simp at hle
          omega
        rw [hnd, hsg] at hsat
        simp only [Bool.false_or, Bool.or_false] at hsat
        rw [hnd, Bool.or_false] at he
        by_cases hr : s.ep.ready = []
        · have := hi.stale hsat hr hmt.2 he
          rw [hsg] at this
          cases this
        · exact hi.answer h.reg hmt.1 hr hn
  · rename_i hsat
    cases hp
    simp only [Bool.or_eq_true, not_or, Bool.not_eq_true] at hsat
    obtain ⟨⟨hd, hb⟩, hs⟩ := hsat
    refine ⟨h.now, h.reg, fun hw => by simp at hw, fun w' hw' => ?_⟩
    simp only [Option.some.injEq] at hw'
    subst hw'
    exact { ei := hi.ei, bit := hi.bit, src := hi.src, cov := hi.cov, tbl := hi.tbl, due := hi.due, time := hi.time, t0 := hi.t0
            start := hi.start, last := hi.last
            rung := fun hb' => by simp only [hb] at hb'; cases hb'
            stale := fun hb' => by simp only [hb] at hb'; cases hb'
            sig := fun hs' => by simp only [hs] at hs'; cases hs' }

theorem EI.setFile {files : Nat → FileSt} {ep : Epoll} (h : EI files [] ep) (o : Nat) (f : FileSt) :
    EI (fun i => if i = o then f else files i) ((ep.watching.filter (·.obj == o)).map Watch.key) ep := by
  have hne : ∀ v ∈ ep.watching, v.key ∉ (ep.watching.filter (·.obj == o)).map Watch.key → v.obj ≠ o := by
    intro v hv hk e
    exact hk (List.mem_map.2 ⟨v, List.mem_filter.2 ⟨hv, by simp [e]⟩, rfl⟩)
  refine ⟨h.nodup, h.sub, fun v hv hk => ?_, fun v hv hk => ?_⟩
  · rw [if_neg (hne v hv hk)]; exact h.rdy v hv (by simp)
  · rw [if_neg (hne v hv hk)]; exact h.opn v hv (by simp)

theorem mem_keys {ep : Epoll} {o : Nat} {v : Watch} (hv : v ∈ ep.watching) :
    v.key ∈ (ep.watching.filter (·.obj == o)).map Watch.key ↔ v.obj = o := by
  constructor
  · intro h
    obtain ⟨u, hu, e⟩ := List.mem_map.1 h
    have := (List.mem_filter.1 hu).2
    simp only [Watch.key, Prod.mk.injEq] at e
    rw [← e.2]; simpa using this
  · intro e
    exact List.mem_map.2 ⟨v, List.mem_filter.2 ⟨hv, by simp [e]⟩, rfl⟩

theorem Inv.setFile {E : Env} {s : St} {o : Nat} {f : FileSt} (h : Inv E s)
    (hcl : (s.files o).closed = true → f.closed = true) (hrg : E.reg o = true → f.readable = false ∧ f.writable = false) :
    Inv E (s.setFile o f) := by
  unfold St.setFile
  split
  · exact h
  dsimp only
  have hreg' : ∀ i, E.reg i = true → (if i = o then f else s.files i).readable = false ∧ (if i = o then f else s.files i).writable = false := by
    intro i hi
    by_cases e : i = o
    · subst e; simpa using hrg hi
    · simpa [e] using h.reg i hi
  cases hw : s.wait with
  | none =>
    obtain ⟨h1, h2⟩ := h.idle hw
    rw [h1]
    simp only [List.filter_nil, List.map_nil, St.tell]
    exact ⟨h.now, hreg', fun _ => ⟨h1, h2⟩, fun w hw' => by cases hw'⟩
  | some w =>
    have hi := h.wait w hw
    obtain ⟨b, ep', e, h1, h2, h3, h4, h5⟩ := tell_spec _ { s with files := fun i => if i = o then f else s.files i } (hi.ei.setFile o f)
    simp only [hw, Option.map_some] at e
    rw [e]
    refine ⟨h.now, hreg', fun hw => by simp at hw, fun w' hw' => ?_⟩
    simp only [Option.some.injEq] at hw'
    subst hw'
    have hbit : BitOk ep' := by
      by_cases hk : (s.ep.watching.filter (·.obj == o)).map Watch.key = []
      · rw [(h3 hk).1]; exact hi.bit
      · exact .inl (h4 hk)
    refine { ei := h1, bit := hbit, due := hi.due, time := hi.time, t0 := hi.t0, start := hi.start, last := hi.last
             src := ?_, cov := ?_, tbl := ?_, rung := ?_, stale := ?_, sig := ?_ }
    · intro v hv
      exact hi.src v ((h2 v).1 hv).1
    · intro hm p hp h0 hev q hq hc
      have hc' : (s.files q).closed = false := by
        simp only at hc
        by_cases eq : q = o
        · subst eq
          rw [if_pos rfl] at hc
          cases hx : (s.files q).closed
          · rfl
          · rw [hcl hx] at hc; cases hc
        · rwa [if_neg eq] at hc
      obtain ⟨v, hv, hk⟩ := hi.cov hm p hp h0 hev q hq hc'
      refine ⟨v, (h2 v).2 ⟨hv, fun _ => ?_⟩, hk⟩
      simp only [Watch.key, Prod.mk.injEq] at hk
      rw [hk.2]; exact hc
    · intro hm p hp h0
      obtain ⟨q, hq, hx⟩ := hi.tbl hm p hp h0
      refine ⟨q, hq, fun hr => ?_⟩
      have := hx hr
      simp only [fileEvents, hr, if_true] at this ⊢
      exact this
    · intro hb hr
      rcases h5 hb with hb' | rfl
      · by_cases hr' : s.ep.ready = []
        · -- the bit was left over, so nothing is watched
          rcases hi.bit with hx | ⟨hx, _, _⟩
          · rw [hr', hb'] at hx; simp at hx
          · have hk : (s.ep.watching.filter (·.obj == o)).map Watch.key = [] := by rw [hx]; rfl
            rw [(h3 hk).1] at hr
            exact absurd hr' hr
        · simp [hi.rung hb' hr']
      · simp
    · intro hb hr htk hsc
      -- the bit is left over
      by_cases hk : (s.ep.watching.filter (·.obj == o)).map Watch.key = []
      · obtain ⟨rfl, rfl⟩ := h3 hk
        exact hi.stale hb hr htk (by simpa using hsc)
      · have := h4 hk
        simp only [] at hb hr
        rw [hb, hr] at this
        simp at this
    · intro hs
      simp [hi.sig hs]

theorem Inv.step {E : Env} {s s' : St} {a : Act} (h : Inv E s) (ha : allowed E s a) (hs : step E s a = some (.ok s')) : Inv E s' := by
  cases a with
  | call fds to =>
    simp only [Poll.step] at hs
    split at hs
    · simp only [Option.some.injEq] at hs
      exact h.poll (Nat.le_refl _) (.inl rfl) hs
    · cases hs
  | wake =>
    simp only [Poll.step] at hs
    split at hs
    · rename_i w hw
      split at hs
      · rename_i he
        simp only [Option.some.injEq] at hs
        exact h.wake hw he hs
      · cases hs
    · cases hs
  | file o f =>
    simp only [Poll.step, Option.some.injEq, R.ok.injEq] at hs
    subst hs
    exact h.setFile ha.1 ha.2
  | fd i o =>
    simp only [Poll.step, Option.some.injEq, R.ok.injEq] at hs
    subst hs
    refine ⟨h.now, h.reg, fun hw => h.idle (by simpa using hw), fun w' hw' => ?_⟩
    simp only [Option.map_eq_some_iff] at hw'
    obtain ⟨w, hw, rfl⟩ := hw'
    have hi := h.wait w hw
    have key : (w.moved || (asks w.fds i && o != s.tbl i)) = false → w.moved = false ∧
        ∀ p ∈ w.fds, 0 ≤ p.fd → (if p.fd.toNat = i then o else s.tbl p.fd.toNat) = s.tbl p.fd.toNat := by
      intro hm
      simp only [Bool.or_eq_false_iff] at hm
      refine ⟨hm.1, fun p hp h0 => ?_⟩
      split
      · rename_i e
        have ha : asks w.fds i = true := List.any_eq_true.2 ⟨p, hp, by simp; omega⟩
        have := hm.2
        rw [ha] at this
        simp only [Bool.true_and, bne_eq_false_iff_eq] at this
        rw [this, e]
      · rfl
    refine { ei := hi.ei, bit := hi.bit, rung := hi.rung, stale := hi.stale, sig := hi.sig, due := hi.due, t0 := hi.t0, start := hi.start
             last := hi.last, src := ?_, cov := ?_, tbl := ?_, time := ?_ }
    · intro v hv
      obtain ⟨p, hp, h0, hf, hi1, ho1, ht⟩ := hi.src v hv
      refine ⟨p, hp, h0, hf, hi1, ho1, fun hm => ?_⟩
      have := key hm
      simp only
      rw [this.2 p hp h0]
      exact ht this.1
    · intro hm p hp h0 hev q hq hc
      have := key hm
      simp only at hq
      rw [this.2 p hp h0] at hq
      exact hi.cov this.1 p hp h0 hev q hq hc
    · intro hm p hp h0
      have := key hm
      simp only
      rw [this.2 p hp h0]
      exact hi.tbl this.1 p hp h0
    · intro hm
      exact hi.time (key hm).1
  | signal =>
    simp only [Poll.step, Option.some.injEq, R.ok.injEq] at hs
    subst hs
    refine ⟨h.now, h.reg, fun hw => h.idle (by simpa [St.sched] using hw), fun w' hw' => ?_⟩
    simp only [St.sched, Option.map_eq_some_iff] at hw'
    obtain ⟨w, hw, rfl⟩ := hw'
    have hi := h.wait w hw
    exact { ei := hi.ei, bit := hi.bit, src := hi.src, cov := hi.cov, tbl := hi.tbl, due := hi.due, time := hi.time, t0 := hi.t0
            start := hi.start, last := hi.last
            rung := fun _ _ => rfl
            stale := fun _ _ _ _ => rfl
            sig := fun _ => rfl }
  | take =>
    simp only [Poll.step, Option.some.injEq, R.ok.injEq] at hs
    subst hs
    refine ⟨h.now, h.reg, fun hw => h.idle (by simpa using hw), fun w' hw' => ?_⟩
    simp only [Option.map_eq_some_iff] at hw'
    obtain ⟨w, hw, rfl⟩ := hw'
    have hi := h.wait w hw
    exact { ei := hi.ei, bit := hi.bit, src := hi.src, cov := hi.cov, tbl := hi.tbl, due := hi.due, t0 := hi.t0
            start := hi.start, last := hi.last, rung := hi.rung
            time := fun _ ht => by cases ht
            stale := fun _ _ ht => by cases ht
            sig := fun hs => by cases hs }
  | tick d =>
    simp only [Poll.step, Option.some.injEq, R.ok.injEq] at hs
    subst hs
    refine ⟨ha.1, h.reg, h.idle, fun w hw => ?_⟩
    have hi := h.wait w hw
    obtain ⟨x, hx1, hx2, hx3⟩ := hi.last
    exact { ei := hi.ei, bit := hi.bit, src := hi.src, cov := hi.cov, tbl := hi.tbl, time := hi.time, t0 := hi.t0
            start := Nat.le_trans hi.start (Nat.le_add_right ..), last := ⟨x, hx1, Nat.le_trans hx2 (Nat.le_add_right ..), hx3⟩
            rung := hi.rung, stale := hi.stale, sig := hi.sig
            due := (ha.2 w hw).2 }

theorem Run.inv {E : Env} {s : St} (h : Run E s) : Inv E s := by
  induction h with
  | init hi =>
    exact ⟨hi.now, hi.reg, fun _ => by rw [hi.ep]; exact ⟨rfl, rfl⟩, fun w hw => by rw [hi.wait] at hw; cases hw⟩
  | step _ ha hs ih => exact ih.step ha hs

end Shadow.Poll
