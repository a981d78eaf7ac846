import Verif.Poll.Inv
/-!
# C72: `poll` and `select` wait for their files, and no longer
-/
namespace Shadow.Poll

open Shadow.Base

/-! ## What the answer should be -/

/-- The entry `q` that a program gets back for its entry `p`, bit by bit.  Bit 0 is `POLLIN`, 2 `POLLOUT`, 3 `POLLERR`, 5 `POLLNVAL`. -/
structure Answer (E : Env) (s : St) (p q : Pfd) : Prop where
  fd : q.fd = p.fd
  events : q.events = p.events
  /-- a negative descriptor is skipped -/
  skipped : p.fd < 0 → ∀ i, q.revents.getLsbD i = false
  /-- a descriptor that is not open is invalid -/
  missing : 0 ≤ p.fd → s.tbl p.fd.toNat = none → ∀ i, q.revents.getLsbD i = (i == 5)
  /-- a regular file has the answer of the kernel, or an error -/
  regular : ∀ o, 0 ≤ p.fd → s.tbl p.fd.toNat = some o → E.reg o = true →
    (∀ b, E.os o p.events = some b → q.revents = b) ∧ (E.os o p.events = none → ∀ i, q.revents.getLsbD i = (i == 3))
  /-- any other file has the events that were asked for and are there, if it is active -/
  other : ∀ o, 0 ≤ p.fd → s.tbl p.fd.toNat = some o → E.reg o = false → ∀ i, q.revents.getLsbD i =
    ((i == 0 && p.events.getLsbD 0 && (s.files o).active && (s.files o).readable) ||
     (i == 2 && p.events.getLsbD 2 && (s.files o).active && (s.files o).writable) ||
     (i == 5 && (s.files o).closed && !(s.files o).active))

/-- The step `a` ends a call with `r`. -/
def Ends (E : Env) (s : St) (a : Act) (s' : St) (r : Ret) : Prop := step E s a = some (.ok s') ∧ s'.log = s.log ++ [r]

/-- The nanoseconds of a timeout. -/
def Ts.ns (t : Ts) : Int := t.sec * 1000000000 + t.nsec

/-! ## Bits -/

theorem has_pow (b : Bits) (k : Nat) (hk : k < 16) : (b &&& BitVec.twoPow 16 k != 0) = b.getLsbD k := by
  rw [Bool.eq_iff_iff]
  simp only [bne_iff_ne, ne_eq]
  have z : ∀ i, (0 : Bits).getLsbD i = false := fun i => BitVec.getLsbD_zero
  constructor
  · intro h
    cases hb : b.getLsbD k
    · exfalso; apply h
      apply BitVec.eq_of_getLsbD_eq
      intro i hi
      rw [BitVec.getLsbD_and, z, BitVec.getLsbD_twoPow]
      by_cases h0 : k = i
      · subst h0; simp [hb]
      · simp [h0]
    · rfl
  · intro hb h
    have := congrArg (·.getLsbD k) h
    simp only [BitVec.getLsbD_and, z, hb, BitVec.getLsbD_twoPow] at this
    simp [hk] at this

theorem has_in (b : Bits) : has b POLLIN = b.getLsbD 0 := has_pow b 0 (by decide)
theorem has_out (b : Bits) : has b POLLOUT = b.getLsbD 2 := has_pow b 2 (by decide)
theorem has_nval (b : Bits) : has b POLLNVAL = b.getLsbD 5 := has_pow b 5 (by decide)

theorem bit_in (i : Nat) : POLLIN.getLsbD i = (i == 0) := by
  show (1#16).getLsbD i = _
  rw [show (1#16 : BitVec 16) = BitVec.twoPow 16 0 by decide, BitVec.getLsbD_twoPow]
  by_cases h : i = 0
  · subst h; decide
  · simp [show ¬ 0 = i from fun e => h e.symm, beq_eq_false_iff_ne.2 h]

theorem bit_out (i : Nat) : POLLOUT.getLsbD i = (i == 2) := by
  show (4#16).getLsbD i = _
  rw [show (4#16 : BitVec 16) = BitVec.twoPow 16 2 by decide, BitVec.getLsbD_twoPow]
  by_cases h : i = 2
  · subst h; decide
  · simp [show ¬ 2 = i from fun e => h e.symm, beq_eq_false_iff_ne.2 h]

theorem bit_nval (i : Nat) : POLLNVAL.getLsbD i = (i == 5) := by
  show (32#16).getLsbD i = _
  rw [show (32#16 : BitVec 16) = BitVec.twoPow 16 5 by decide, BitVec.getLsbD_twoPow]
  by_cases h : i = 5
  · subst h; decide
  · simp [show ¬ 5 = i from fun e => h e.symm, beq_eq_false_iff_ne.2 h]

theorem bit_err (i : Nat) : POLLERR.getLsbD i = (i == 3) := by
  show (8#16).getLsbD i = _
  rw [show (8#16 : BitVec 16) = BitVec.twoPow 16 3 by decide, BitVec.getLsbD_twoPow]
  by_cases h : i = 3
  · subst h; decide
  · simp [show ¬ 3 = i from fun e => h e.symm, beq_eq_false_iff_ne.2 h]

theorem fileEvents_bit {E : Env} {o f ev} (h : E.reg o = false) (i : Nat) : (fileEvents E o f ev).getLsbD i =
    ((i == 0 && ev.getLsbD 0 && f.active && f.readable) || (i == 2 && ev.getLsbD 2 && f.active && f.writable) ||
     (i == 5 && f.closed && !f.active)) := by
  unfold fileEvents
  rw [if_neg (by simp [h])]
  simp only [BitVec.getLsbD_or, has_in, has_out]
  have z : (0 : Bits).getLsbD i = false := BitVec.getLsbD_zero
  have e : ∀ (c : Bool) (x : Bits), (if c = true then x else 0).getLsbD i = (c && x.getLsbD i) := by
    intro c x; cases c
    · simp
    · simp
  rw [e, e, e, bit_in, bit_out, bit_nval]
  cases (i == 0) <;> cases (i == 2) <;> cases (i == 5) <;> cases f.closed <;> cases f.active <;> cases f.readable <;>
    cases f.writable <;> cases ev.getLsbD 0 <;> cases ev.getLsbD 2 <;> rfl

theorem check_answer (E : Env) (s : St) (p : Pfd) : Answer E s p (check E s p) where
  fd := rfl
  events := rfl
  skipped h i := by simp only [check, h, if_true]; exact BitVec.getLsbD_zero
  missing h ht i := by
    simp only [check, show ¬ p.fd < 0 by omega, if_false, ht]
    exact bit_nval i
  regular o h ht hr := by
    simp only [check, show ¬ p.fd < 0 by omega, if_false, ht, fileEvents, hr, if_true]
    refine ⟨fun b hb => by simp [hb], fun hb i => by simp only [hb, Option.getD_none]; exact bit_err i⟩
  other o h ht hr i := by
    simp only [check, show ¬ p.fd < 0 by omega, if_false, ht]
    exact fileEvents_bit hr i

/-! ## Which steps end a call -/

theorem log_ne {l : List Ret} {r : Ret} (h : l = l ++ [r]) : False := by
  have := congrArg List.length h
  simp at this

theorem tell_log (ks) : ∀ s : St, (s.tell ks).log = s.log := by
  induction ks with
  | nil => exact fun s => rfl
  | cons k l ih =>
    intro s
    simp only [St.tell]
    rw [ih]
    unfold St.setEp St.sched
    split <;> rfl

theorem ends_cases {E : Env} {s s' : St} {a : Act} {r : Ret} (h : Ends E s a s' r) :
    ∃ cond : Option Nat, Returned E s r.fds r.timeout cond r.start s' ∧
      ((a = .call r.fds r.timeout ∧ s.wait = none ∧ r.start = s.now ∧ cond = none) ∨
       (∃ w, a = .wake ∧ s.wait = some w ∧ r.fds = w.fds ∧ r.timeout = w.timeout ∧ r.start = w.start ∧ cond = w.deadline ∧
         (w.sched || w.deadline.any (· ≤ s.now)) = true ∧ (w.deadline.any (· ≤ s.now) || s.ep.bit || s.sig) = true)) := by
  obtain ⟨hs, hl⟩ := h
  have nolog : s'.log = s.log → False := fun e => log_ne (e.symm.trans hl)
  have key : ∀ {fds to cond start mv tk}, s.poll E fds to cond start mv tk = .ok s' →
      Returned E s r.fds r.timeout cond r.start s' ∧ r.fds = fds ∧ r.timeout = to ∧ r.start = start := by
    intro fds to cond start mv tk hp
    rcases poll_cases hp with hr | ⟨_, _, _, _, _, ep, rfl, _⟩
    · have hr' := hr
      obtain ⟨res, rfl, _⟩ := hr
      simp only [St.done, List.append_cancel_left_eq, List.cons.injEq, and_true] at hl
      subst hl
      exact ⟨hr', rfl, rfl, rfl⟩
    · exact (nolog rfl).elim
  cases a with
  | call fds to =>
    simp only [step] at hs
    split at hs
    · rename_i hw
      simp only [Option.some.injEq] at hs
      obtain ⟨h1, h2, h3, h4⟩ := key hs
      subst h2; subst h3
      exact ⟨none, h1, .inl ⟨rfl, by simpa using hw, h4, rfl⟩⟩
    · cases hs
  | wake =>
    simp only [step] at hs
    split at hs
    · rename_i w hw
      split at hs
      · rename_i he
        simp only [Option.some.injEq] at hs
        unfold St.wake at hs
        split at hs
        · rename_i hsat
          obtain ⟨h1, h2, h3, h4⟩ := key hs
          exact ⟨_, h1, .inr ⟨w, rfl, hw, h2, h3, h4, rfl, he, hsat⟩⟩
        · cases hs
          exact (nolog rfl).elim
      · cases hs
    · cases hs
  | file o f =>
    simp only [step, Option.some.injEq, R.ok.injEq] at hs
    subst hs
    refine (nolog ?_).elim
    unfold St.setFile
    split
    · rfl
    · exact tell_log _ _
  | fd i o => simp only [step, Option.some.injEq, R.ok.injEq] at hs; subst hs; exact (nolog rfl).elim
  | signal => simp only [step, Option.some.injEq, R.ok.injEq] at hs; subst hs; exact (nolog rfl).elim
  | take => simp only [step, Option.some.injEq, R.ok.injEq] at hs; subst hs; exact (nolog rfl).elim
  | tick d => simp only [step, Option.some.injEq, R.ok.injEq] at hs; subst hs; exact (nolog rfl).elim

theorem ret_of {E : Env} {s s' : St} {a : Act} {r : Ret} {fds to cond start} (h : Ends E s a s' r)
    (hr : Returned E s fds to cond start s') : r.time = s.now ∧ r.out = checkAll E s fds ∧
    ((numReady (checkAll E s fds) ≠ 0 ∧ r.res = numReady (checkAll E s fds)) ∨
     (numReady (checkAll E s fds) = 0 ∧ r.res = 0 ∧ (to = some ⟨0, 0⟩ ∨ ∃ x, cond = some x ∧ x ≤ s.now)) ∨
     (numReady (checkAll E s fds) = 0 ∧ r.res = -EINTR ∧ s.sig = true ∧ to ≠ some ⟨0, 0⟩ ∧ ∀ x, cond = some x → s.now < x)) := by
  obtain ⟨res, rfl, hx⟩ := hr
  have := h.2
  simp only [St.done, List.append_cancel_left_eq, List.cons.injEq, and_true] at this
  subst this
  exact ⟨rfl, rfl, hx⟩

/-! ## The theorems -/

/-- **C72, the answer.**  When a call returns, every entry says what the files say at this moment and the result counts the entries that say
something.  Zero is returned only if no entry says anything and the call was not to wait or its timer has expired; `EINTR` only if no entry
says anything and a signal is there. -/
theorem C72_result {E : Env} {s s' : St} {a : Act} {r : Ret} (h : Ends E s a s' r) :
    r.time = s.now ∧ s'.files = s.files ∧ s'.tbl = s.tbl ∧
    r.out.length = r.fds.length ∧
    (∀ (i : Nat) (p q : Pfd), r.fds[i]? = some p → r.out[i]? = some q → Answer E s p q) ∧
    ((∃ q ∈ r.out, q.revents ≠ 0) → r.res = r.out.countP (·.revents ≠ 0)) ∧
    ((∀ q ∈ r.out, q.revents = 0) →
      (r.res = 0 ∧ (r.timeout = some ⟨0, 0⟩ ∨ ∃ w x, s.wait = some w ∧ w.deadline = some x ∧ x ≤ s.now)) ∨
      (r.res = -4 ∧ s.sig = true)) := by
  obtain ⟨cond, hr, hc⟩ := ends_cases h
  obtain ⟨ht, ho, hx⟩ := ret_of h hr
  have hfs : s'.files = s.files ∧ s'.tbl = s.tbl := by
    obtain ⟨res, rfl, _⟩ := hr
    exact ⟨rfl, rfl⟩
  refine ⟨ht, hfs.1, hfs.2, by rw [ho]; simp [checkAll], ?_, ?_, ?_⟩
  · intro i p q hp hq
    rw [ho] at hq
    simp only [checkAll, List.getElem?_map, hp, Option.map_some, Option.some.injEq] at hq
    subst hq
    exact check_answer E s p
  · rintro ⟨q, hq, hne⟩
    have hpos : numReady (checkAll E s r.fds) ≠ 0 := by
      rw [← ho]
      intro h0
      unfold numReady at h0
      rw [List.countP_eq_zero] at h0
      exact hne (by simpa using h0 q hq)
    rcases hx with ⟨_, hres⟩ | ⟨h0, _⟩ | ⟨h0, _⟩
    · rw [hres, ← ho]
      unfold numReady
      congr 1
      apply List.countP_congr
      intro q _
      simp
    · exact absurd h0 hpos
    · exact absurd h0 hpos
  · intro hz
    have h0 : numReady (checkAll E s r.fds) = 0 := by
      rw [← ho]
      unfold numReady
      rw [List.countP_eq_zero]
      intro q hq
      simp [hz q hq]
    rcases hx with ⟨hne, _⟩ | ⟨_, hres, hto⟩ | ⟨_, hres, hsg, _⟩
    · exact absurd h0 hne
    · refine .inl ⟨hres, hto.imp id ?_⟩
      rintro ⟨x, hx, hle⟩
      rcases hc with ⟨_, _, _, hcn⟩ | ⟨w, _, hw, _, _, _, hcw, _⟩
      · rw [hcn] at hx; cases hx
      · exact ⟨w, x, hw, hcw ▸ hx, hle⟩
    · exact .inr ⟨hres, hsg⟩

theorem deadlineOf_eq {now : Nat} {t : Ts} (h0 : 0 ≤ t.ns) (hw : (now : Int) + t.ns < noTime) :
    ((deadlineOf now t : Nat) : Int) = now + t.ns ∧ deadlineOf now t ≠ noTime := by
  unfold deadlineOf
  have e : (now : Int) + t.sec * 1000000000 + t.nsec = now + t.ns := by unfold Ts.ns; omega
  rw [e]
  have h64 : ((noTime : Nat) : Int) = 2 ^ 64 - 1 := by decide
  have hlt : (now : Int) + t.ns < 2 ^ 64 := by omega
  rw [Int.emod_eq_of_lt (by omega) hlt]
  constructor
  · omega
  · intro hc
    have : (((now : Int) + t.ns).toNat : Int) = noTime := by rw [hc]
    omega

theorem deadlineAt_pos {now : Nat} {t : Ts} (hs : 0 ≤ t.sec) (hn : 0 ≤ t.nsec) (hne : t ≠ ⟨0, 0⟩)
    (hw : (now : Int) + t.ns < noTime) : ∃ x, deadlineAt now (some t) = some x ∧ (x : Int) = now + t.ns := by
  have hpos : t.sec > 0 ∨ t.nsec > 0 := by
    have : ¬ (t.sec = 0 ∧ t.nsec = 0) := fun ⟨a, b⟩ => hne (by cases t; simp_all)
    omega
  have h0 : 0 ≤ t.ns := by unfold Ts.ns; omega
  obtain ⟨h1, h2⟩ := deadlineOf_eq h0 hw
  refine ⟨deadlineOf now t, ?_, h1⟩
  simp only [deadlineAt]
  rw [if_pos (by simpa using hpos), if_neg h2]

/-- **C72, the time.**  While a call waits its time is not over, and if it returns zero then at the very nanosecond: the time of the call plus the
timeout.  This holds as long as no other thread has changed a descriptor of the call or taken a signal for it. -/
theorem C72_time {E : Env} {s : St} (h : Run E s) (hq : ∀ w, s.wait = some w → w.moved = false ∧ w.taken = false) :
    (∀ w t, s.wait = some w → w.timeout = some t → 0 ≤ t.sec → 0 ≤ t.nsec → (w.start : Int) + t.ns < noTime →
      (s.now : Int) ≤ w.start + t.ns) ∧
    (∀ a s' r t, Ends E s a s' r → r.res = 0 → r.timeout = some t → 0 ≤ t.sec → 0 ≤ t.nsec → (r.start : Int) + t.ns < noTime →
      (r.time : Int) = r.start + t.ns) := by
  have hi := h.inv
  constructor
  · intro w t hw hto hs hn hwr
    have wi := hi.wait w hw
    obtain ⟨hm, htk⟩ := hq w hw
    obtain ⟨x, hx, hxe⟩ := deadlineAt_pos hs hn (fun e => wi.t0 (e ▸ hto)) hwr
    have := wi.due x (by rw [wi.time hm htk, hto, hx])
    omega
  · intro a s' r t he hres hto hs hn hwr
    obtain ⟨cond, hr, hc⟩ := ends_cases he
    obtain ⟨ht, _, hx⟩ := ret_of he hr
    rw [ht]
    have hzero : (r.timeout = some ⟨0, 0⟩ ∨ ∃ x, cond = some x ∧ x ≤ s.now) := by
      rcases hx with ⟨hne, hx⟩ | ⟨_, _, hx⟩ | ⟨_, hx, _⟩
      · rw [hx] at hres; exact absurd (by omega) hne
      · exact hx
      · rw [hres] at hx; exact absurd hx (by decide)
    rcases hc with ⟨_, _, hst, hcn⟩ | ⟨w, _, hw, _, hwt, hst, hcw, _⟩
    · rw [hcn, hto] at hzero
      simp only [Option.some.injEq, reduceCtorEq, false_and, exists_false, or_false] at hzero
      rw [hst, hzero]; simp [Ts.ns]
    · have wi := hi.wait w hw
      obtain ⟨hm, htk⟩ := hq w hw
      rw [hwt] at hto hzero
      rcases hzero with hz | ⟨x, hx, hle⟩
      · exact absurd hz wi.t0
      · rw [hst] at hwr ⊢
        obtain ⟨y, hy, hye⟩ := deadlineAt_pos hs hn (fun e => wi.t0 (e ▸ hto)) hwr
        have hd := wi.time hm htk
        rw [hto, hy] at hd
        have := wi.due y hd
        rw [hcw, hd] at hx
        cases hx
        omega

/-- **C72, no timeout.**  A call without a timeout, or with a negative one, never returns zero. -/
theorem C72_forever {E : Env} {s s' : St} {a : Act} {r : Ret} (h : Run E s) (he : Ends E s a s' r)
    (ht : r.timeout = none ∨ ∃ t, r.timeout = some t ∧ t.sec ≤ 0 ∧ t.nsec ≤ 0 ∧ t ≠ ⟨0, 0⟩) : r.res ≠ 0 := by
  intro hres
  obtain ⟨cond, hr, hc⟩ := ends_cases he
  obtain ⟨_, _, hx⟩ := ret_of he hr
  have hzero : (r.timeout = some ⟨0, 0⟩ ∨ ∃ x, cond = some x ∧ x ≤ s.now) := by
    rcases hx with ⟨hne, hx⟩ | ⟨_, _, hx⟩ | ⟨_, hx, _⟩
    · rw [hx] at hres; exact absurd (by omega) hne
    · exact hx
    · rw [hres] at hx; exact absurd hx (by decide)
  have hnot : r.timeout ≠ some ⟨0, 0⟩ := by
    rcases ht with ht | ⟨t, ht, _, _, hne⟩
    · rw [ht]; simp
    · rw [ht]; simpa using hne
  rcases hzero with hz | ⟨x, hx, _⟩
  · exact hnot hz
  · rcases hc with ⟨_, _, _, hcn⟩ | ⟨w, _, hw, _, hwt, _, hcw, _⟩
    · rw [hcn] at hx; cases hx
    · obtain ⟨y, _, _, hy⟩ := (h.inv.wait w hw).last
      rw [hcw, hy, ← hwt] at hx
      rcases ht with ht | ⟨t, ht, h1, h2, _⟩
      · rw [ht] at hx; cases hx
      · rw [ht] at hx
        simp only [deadlineAt] at hx
        rw [if_neg (by simp; omega)] at hx
        cases hx

/-- No two entries ask about the same descriptor. -/
def Distinct (fds : List Pfd) : Prop := ∀ p ∈ fds, ∀ q ∈ fds, 0 ≤ p.fd → p.fd = q.fd → p.events = q.events

/-- **C72, no event is missed.**  As soon as an entry of a call that waits has something to say, its wakeup is scheduled for this moment, and when it
runs the call returns with it; so it does for a signal.  The entries are about different descriptors, no other thread has changed one of
them, and no file of the call is closed. -/
theorem C72_wake {E : Env} {s : St} {w : Wait} (h : Run E s) (hw : s.wait = some w) (hm : w.moved = false)
    (hd : Distinct w.fds)
    (hc : ∀ p ∈ w.fds, 0 ≤ p.fd → ∀ o, s.tbl p.fd.toNat = some o → (s.files o).closed = false) :
    ((∃ p ∈ w.fds, ∃ q, Answer E s p q ∧ q.revents ≠ 0) →
      w.sched = true ∧ ∃ s' r, Ends E s .wake s' r ∧ s'.wait = none ∧ 0 < r.res) ∧
    (s.sig = true → w.sched = true ∧ ∃ s' r, Ends E s .wake s' r ∧ s'.wait = none) := by
  have wi := h.inv.wait w hw
  have ret : (w.sched = true) → (s.ep.bit || s.sig) = true → (numReady (checkAll E s w.fds) ≠ 0 ∨ s.sig = true) →
      ∃ s' r, Ends E s .wake s' r ∧ s'.wait = none ∧ (numReady (checkAll E s w.fds) ≠ 0 → 0 < r.res) := by
    intro hs hsat hn
    have e1 : step E s .wake = some (s.poll E w.fds w.timeout w.deadline w.start w.moved w.taken) := by
      simp only [step, hw, hs, Bool.true_or, if_true, St.wake]
      rw [if_pos (by rw [Bool.or_assoc, hsat, Bool.or_true])]
    by_cases hnn : numReady (checkAll E s w.fds) = 0
    · have hsg : s.sig = true := hn.resolve_left (by simpa using hnn)
      have : ∃ res, s.poll E w.fds w.timeout w.deadline w.start w.moved w.taken =
          .ok (s.done w.fds w.timeout w.start res (checkAll E s w.fds)) := by
        rw [poll_eq, if_pos hnn]
        split
        · exact ⟨_, rfl⟩
        · exact ⟨_, rfl⟩
      obtain ⟨res, e2⟩ := this
      exact ⟨_, _, ⟨by rw [e1, e2], rfl⟩, rfl, fun h => absurd hnn h⟩
    · refine ⟨_, _, ⟨by rw [e1, poll_eq, if_neg hnn], rfl⟩, rfl, fun _ => ?_⟩
      simp only; omega
  constructor
  · rintro ⟨p, hp, q, ha, hq⟩
    have hqe : q.revents = (check E s p).revents := by
      have hb := check_answer E s p
      by_cases h0 : p.fd < 0
      · apply BitVec.eq_of_getLsbD_eq
        intro i _
        rw [ha.skipped h0, hb.skipped h0]
      · have h0 : 0 ≤ p.fd := by omega
        cases ht : s.tbl p.fd.toNat with
        | none =>
          apply BitVec.eq_of_getLsbD_eq
          intro i _
          rw [ha.missing h0 ht, hb.missing h0 ht]
        | some o =>
          cases hr : E.reg o with
          | true =>
            have h1 := ha.regular o h0 ht hr
            have h2 := hb.regular o h0 ht hr
            cases he : E.os o p.events with
            | some b => rw [h1.1 b he, h2.1 b he]
            | none =>
              apply BitVec.eq_of_getLsbD_eq
              intro i _
              rw [h1.2 he, h2.2 he]
          | false =>
            apply BitVec.eq_of_getLsbD_eq
            intro i _
            rw [ha.other o h0 ht hr, hb.other o h0 ht hr]
    rw [hqe] at hq
    have h0 : 0 ≤ p.fd := by
      apply Int.not_lt.1
      intro hlt
      apply hq
      simp [check, hlt]
    obtain ⟨o, ht, hreg⟩ := wi.tbl hm p hp h0
    have hcl := hc p hp h0 o ht
    have hre : (check E s p).revents = fileEvents E o (s.files o) p.events := by
      simp [check, show ¬ p.fd < 0 by omega, ht]
    rw [hre] at hq
    have hnr : E.reg o = false := by
      cases hr : E.reg o
      · rfl
      · exact absurd (hreg hr) hq
    -- an event that was asked for is there
    have hev : (s.files o).active = true ∧
        ((has p.events POLLIN = true ∧ (s.files o).readable = true) ∨ (has p.events POLLOUT = true ∧ (s.files o).writable = true)) := by
      unfold fileEvents at hq
      rw [if_neg (by simp [hnr]), hcl] at hq
      simp only [Bool.false_and, Bool.false_eq_true, if_false] at hq
      cases ha : (s.files o).active <;> cases hx : has p.events POLLIN <;> cases hy : has p.events POLLOUT <;>
        cases hu : (s.files o).readable <;> cases hv : (s.files o).writable <;> simp_all
    obtain ⟨v, hv, hk⟩ := wi.cov hm p hp h0 (by rcases hev.2 with h | h <;> simp [h.1]) o ht hcl
    simp only [Watch.key, Prod.mk.injEq] at hk
    obtain ⟨p', hp', h0', hf', hi', ho', _⟩ := wi.src v hv
    have hpe : p.events = p'.events := hd p hp p' hp' h0 (by rw [← hk.1, hf'])
    have hrd : isReady (s.files v.obj) v = true := by
      rw [hk.2]
      simp only [isReady, hi', ho', ← hpe, hcl, hev.1, Bool.not_false, Bool.true_and, Bool.or_eq_true, Bool.and_eq_true]
      exact hev.2.imp (fun h => ⟨h.2, h.1⟩) (fun h => ⟨h.2, h.1⟩)
    have hmem := (wi.ei.rdy v hv (by simp)).2 hrd
    have hne : s.ep.ready ≠ [] := List.ne_nil_of_mem hmem
    have hbit : s.ep.bit = true := by
      rcases wi.bit with hb | ⟨_, hb, _⟩
      · rw [hb]
        cases hr : s.ep.ready
        · exact absurd hr hne
        · rfl
      · exact absurd hb hne
    have hs := wi.rung hbit hne
    have hn := wi.answer h.inv.reg hm hne
    obtain ⟨s', r, h1, h2, h3⟩ := ret hs (by simp [hbit]) (.inl hn)
    exact ⟨hs, s', r, h1, h2, h3 hn⟩
  · intro hsg
    have hs := wi.sig hsg
    obtain ⟨s', r, h1, h2, _⟩ := ret hs (by simp [hsg]) (.inr hsg)
    exact ⟨hs, s', r, h1, h2⟩

/-- **C72, the end of the time.**  When the timer of a call has expired its wakeup can run, and the call returns. -/
theorem C72_expire {E : Env} {s : St} {w : Wait} {x : Nat} (hw : s.wait = some w) (hd : w.deadline = some x)
    (hx : x ≤ s.now) : ∃ s' r, Ends E s .wake s' r ∧ s'.wait = none ∧ 0 ≤ r.res := by
  have e1 : step E s .wake = some (s.poll E w.fds w.timeout w.deadline w.start w.moved w.taken) := by
    simp only [step, hw, hd, Option.any_some, hx, decide_true, Bool.or_true, if_true, St.wake, Bool.true_or]
  by_cases hn : numReady (checkAll E s w.fds) = 0
  · refine ⟨_, _, ⟨by rw [e1, poll_eq, if_pos hn, if_pos (by simp [hd, hx])], rfl⟩, rfl, ?_⟩
    simp
  · refine ⟨_, _, ⟨by rw [e1, poll_eq, if_neg hn], rfl⟩, rfl, ?_⟩
    simp

/-- **C72, nothing is left behind.**  A thread that is not in such a call watches no file for it. -/
theorem C72_clean {E : Env} {s : St} (h : Run E s) (hw : s.wait = none) : s.ep.watching = [] ∧ s.ep.ready = [] := h.inv.idle hw

/-- **C72, it sleeps only without an answer.**  If a call begins to wait then no entry says anything, it has no signal and it was told to wait. -/
theorem C72_sleep {E : Env} {s s' : St} {fds : List Pfd} {to : Option Ts} (hs : step E s (.call fds to) = some (.ok s'))
    (hw : s'.wait ≠ none) : (∀ p ∈ fds, ∀ q, Answer E s p q → q.revents = 0) ∧ s.sig = false ∧ to ≠ some ⟨0, 0⟩ := by
  simp only [step] at hs
  split at hs
  · simp only [Option.some.injEq] at hs
    rcases poll_cases hs with ⟨res, rfl, _⟩ | ⟨hn, ht, _, hsg, _⟩
    · exact absurd rfl hw
    · refine ⟨fun p hp q ha => ?_, hsg, ht⟩
      have hz := numReady_zero hn p hp
      have hb := check_answer E s p
      apply BitVec.eq_of_getLsbD_eq
      intro i _
      have hzi : (check E s p).revents.getLsbD i = false := by rw [hz]; exact BitVec.getLsbD_zero
      have : q.revents.getLsbD i = (check E s p).revents.getLsbD i := by
        by_cases h0 : p.fd < 0
        · rw [ha.skipped h0, hb.skipped h0]
        · have h0 : 0 ≤ p.fd := by omega
          cases ht : s.tbl p.fd.toNat with
          | none => rw [ha.missing h0 ht, hb.missing h0 ht]
          | some o =>
            cases hr : E.reg o with
            | true =>
              have h1 := ha.regular o h0 ht hr
              have h2 := hb.regular o h0 ht hr
              cases he : E.os o p.events with
              | some b => rw [h1.1 b he, h2.1 b he]
              | none => rw [h1.2 he, h2.2 he]
            | false => rw [ha.other o h0 ht hr, hb.other o h0 ht hr]
      rw [this, hzi]
      exact BitVec.getLsbD_zero.symm
  · cases hs

/-- **C72, no crash.**  A call whose timeout fits into the clock runs to its end or waits. -/
theorem C72_safe {E : Env} {s : St} {fds : List Pfd} {to : Option Ts} (hw : s.wait = none)
    (ht : ∀ t, to = some t → (t.sec > 0 ∨ t.nsec > 0) → 0 ≤ t.ns ∧ (s.now : Int) + t.ns < noTime) :
    ∃ s', step E s (.call fds to) = some (.ok s') := by
  simp only [step, hw, Option.isNone_none, if_true, Option.some.injEq]
  rw [poll_eq]
  by_cases hn : numReady (checkAll E s fds) = 0
  · rw [if_pos hn]
    split
    · exact ⟨_, rfl⟩
    · split
      · exact ⟨_, rfl⟩
      · have hz := numReady_zero hn
        obtain ⟨ep, e, _⟩ := register_spec s fds s.ep.reset (EI.reset _ _) (BitOk.reset _) (fun p hp h0 => by
          obtain ⟨o, ho, _⟩ := tbl_some (hz p hp) h0
          simp [ho])
        rw [e]
        simp only [R.bind_ok]
        have hd : (deadlineAt s.now to).all (s.now ≤ ·) = true := by
          cases to with
          | none => rfl
          | some t =>
            simp only [deadlineAt]
            split
            · rename_i hpos
              simp only [Bool.or_eq_true, decide_eq_true_eq] at hpos
              obtain ⟨h0, hlt⟩ := ht t rfl hpos
              obtain ⟨h1, h2⟩ := deadlineOf_eq h0 hlt
              rw [if_neg h2]
              simp only [Option.all_some, decide_eq_true_eq]
              omega
            · rfl
        rw [hd]
        exact ⟨_, rfl⟩
  · rw [if_neg hn]
    exact ⟨_, rfl⟩

/-! ## The arguments -/

/-- **C72, milliseconds.**  The timeout of `poll`: negative for ever, zero not at all, else this many milliseconds. -/
theorem C72_millis (ms : Int) :
    (ms < 0 → (ofMillis ms).sec ≤ 0 ∧ (ofMillis ms).nsec ≤ 0 ∧ ofMillis ms ≠ ⟨0, 0⟩) ∧
    (ms = 0 ↔ ofMillis ms = ⟨0, 0⟩) ∧
    (0 ≤ ms → 0 ≤ (ofMillis ms).sec ∧ 0 ≤ (ofMillis ms).nsec ∧ (ofMillis ms).ns = ms * 1000000) := by
  have h := Int.mul_tdiv_add_tmod ms 1000
  have hns : (ofMillis ms).ns = ms * 1000000 := by
    simp only [Ts.ns, ofMillis]
    omega
  have hz : ofMillis ms = ⟨0, 0⟩ → ms = 0 := by
    intro e
    rw [e] at hns
    simp only [Ts.ns] at hns
    omega
  refine ⟨fun hm => ⟨?_, ?_, fun e => by have := hz e; omega⟩, ⟨fun e => by subst e; rfl, hz⟩, fun hm => ⟨?_, ?_, hns⟩⟩
  · simp only [ofMillis]
    have := Int.tdiv_nonneg (a := -ms) (b := 1000) (by omega) (by omega)
    rw [Int.neg_tdiv] at this
    omega
  · simp only [ofMillis]
    have := Int.tmod_nonneg (a := -ms) 1000 (by omega)
    rw [Int.neg_tmod] at this
    omega
  · exact Int.tdiv_nonneg hm (by omega)
  · have := Int.tmod_nonneg 1000 hm
    simp only [ofMillis]
    omega

/-- The kernel answers for a regular file only with events that were asked for, and never that it is invalid. -/
def Honest (E : Env) : Prop := ∀ o ev v, E.os o ev = some v →
  (v.getLsbD 0 = true → ev.getLsbD 0 = true) ∧ (v.getLsbD 2 = true → ev.getLsbD 2 = true) ∧ v.getLsbD 5 = false

/-- Descriptor `i` can be read, for the events `ev` of its entry. -/
def CanRead (E : Env) (s : St) (i : Nat) (ev : Bits) : Prop := ∃ o, s.tbl i = some o ∧
  ((E.reg o = true ∧ ∃ v, E.os o ev = some v ∧ v.getLsbD 0 = true) ∨
   (E.reg o = false ∧ (s.files o).active = true ∧ (s.files o).readable = true))

/-- Descriptor `i` can be written, for the events `ev` of its entry. -/
def CanWrite (E : Env) (s : St) (i : Nat) (ev : Bits) : Prop := ∃ o, s.tbl i = some o ∧
  ((E.reg o = true ∧ ∃ v, E.os o ev = some v ∧ v.getLsbD 2 = true) ∨
   (E.reg o = false ∧ (s.files o).active = true ∧ (s.files o).writable = true))

/-- Descriptor `i` is not open, or its file is closed. -/
def Bad (E : Env) (s : St) (i : Nat) : Prop := s.tbl i = none ∨
  ∃ o, s.tbl i = some o ∧ E.reg o = false ∧ (s.files o).closed = true ∧ (s.files o).active = false

theorem sel_in (r w x i) : (selectPfd r w x i).events.getLsbD 0 = r i := by
  cases h1 : r i <;> cases h2 : w i <;> simp only [selectPfd, h1, h2] <;> decide

theorem sel_out (r w x i) : (selectPfd r w x i).events.getLsbD 2 = w i := by
  cases h1 : r i <;> cases h2 : w i <;> simp only [selectPfd, h1, h2] <;> decide

theorem sel_fd (r w x i) : (selectPfd r w x i).fd < 0 ↔ (r i || w i || x i) = false := by
  simp only [selectPfd]
  split <;> rename_i h
  · simp only [h]; constructor
    · intro; omega
    · intro h; cases h
  · simp only [Bool.not_eq_true] at h; simp [h]

theorem sel_nat (r w x i) (h : (r i || w i || x i) = true) : (selectPfd r w x i).fd = (i : Int) := by simp [selectPfd, h]

section
variable {E : Env} {s : St} {p q : Pfd} {i : Nat} (ha : Answer E s p q) (hf : p.fd = (i : Int)) (ho : Honest E)
include ha hf ho

theorem Answer.in_iff : q.revents.getLsbD 0 = true ↔ p.events.getLsbD 0 = true ∧ CanRead E s i p.events := by
  have h0 : 0 ≤ p.fd := by omega
  have hn : p.fd.toNat = i := by omega
  cases ht : s.tbl i with
  | none =>
    rw [ha.missing h0 (hn ▸ ht)]
    simp [CanRead, ht]
  | some o =>
    cases hr : E.reg o with
    | true =>
      have h1 := ha.regular o h0 (hn ▸ ht) hr
      cases he : E.os o p.events with
      | some v =>
        rw [h1.1 v he]
        constructor
        · intro h; exact ⟨(ho _ _ _ he).1 h, o, ht, .inl ⟨hr, v, he, h⟩⟩
        · rintro ⟨_, o', ht', ⟨_, v', he', h⟩ | ⟨hr', _⟩⟩
          · rw [ht] at ht'; cases ht'; rw [he] at he'; cases he'; exact h
          · rw [ht] at ht'; cases ht'; rw [hr] at hr'; cases hr'
      | none =>
        rw [h1.2 he]
        constructor
        · intro h; cases h
        · rintro ⟨_, o', ht', ⟨_, v', he', h⟩ | ⟨hr', _⟩⟩
          · rw [ht] at ht'; cases ht'; rw [he] at he'; cases he'
          · rw [ht] at ht'; cases ht'; rw [hr] at hr'; cases hr'
    | false =>
      rw [ha.other o h0 (hn ▸ ht) hr]
      simp [CanRead, ht, hr, and_assoc]

theorem Answer.out_iff : q.revents.getLsbD 2 = true ↔ p.events.getLsbD 2 = true ∧ CanWrite E s i p.events := by
  have h0 : 0 ≤ p.fd := by omega
  have hn : p.fd.toNat = i := by omega
  cases ht : s.tbl i with
  | none =>
    rw [ha.missing h0 (hn ▸ ht)]
    simp [CanWrite, ht]
  | some o =>
    cases hr : E.reg o with
    | true =>
      have h1 := ha.regular o h0 (hn ▸ ht) hr
      cases he : E.os o p.events with
      | some v =>
        rw [h1.1 v he]
        constructor
        · intro h; exact ⟨(ho _ _ _ he).2.1 h, o, ht, .inl ⟨hr, v, he, h⟩⟩
        · rintro ⟨_, o', ht', ⟨_, v', he', h⟩ | ⟨hr', _⟩⟩
          · rw [ht] at ht'; cases ht'; rw [he] at he'; cases he'; exact h
          · rw [ht] at ht'; cases ht'; rw [hr] at hr'; cases hr'
      | none =>
        rw [h1.2 he]
        constructor
        · intro h; cases h
        · rintro ⟨_, o', ht', ⟨_, v', he', h⟩ | ⟨hr', _⟩⟩
          · rw [ht] at ht'; cases ht'; rw [he] at he'; cases he'
          · rw [ht] at ht'; cases ht'; rw [hr] at hr'; cases hr'
    | false =>
      rw [ha.other o h0 (hn ▸ ht) hr]
      simp [CanWrite, ht, hr, and_assoc]

theorem Answer.bad_iff : q.revents.getLsbD 5 = true ↔ Bad E s i := by
  have h0 : 0 ≤ p.fd := by omega
  have hn : p.fd.toNat = i := by omega
  cases ht : s.tbl i with
  | none =>
    rw [ha.missing h0 (hn ▸ ht)]
    simp [Bad, ht]
  | some o =>
    cases hr : E.reg o with
    | true =>
      have h1 := ha.regular o h0 (hn ▸ ht) hr
      cases he : E.os o p.events with
      | some v => rw [h1.1 v he, (ho _ _ _ he).2.2]; simp [Bad, ht, hr]
      | none => rw [h1.2 he]; simp [Bad, ht, hr]
    | false =>
      rw [ha.other o h0 (hn ▸ ht) hr]
      simp [Bad, ht, hr]

end

theorem ends_out {E : Env} {s s' : St} {a : Act} {r : Ret} (h : Ends E s a s' r) : r.out = checkAll E s r.fds := by
  obtain ⟨_, hr, _⟩ := ends_cases h
  exact (ret_of h hr).2.1

theorem countP_asked {E : Env} {s : St} (n : Nat) (r w x : Nat → Bool) (ev : Bits) :
    ((checkAll E s (selectPfds n r w x)).filter fun p => !(p.fd < 0)).countP (has ·.revents ev) =
      (List.range n).countP (collect (checkAll E s (selectPfds n r w x)) ev) := by
  rw [List.countP_filter]
  show ((selectPfds n r w x).map (check E s)).countP _ = _
  rw [selectPfds, List.map_map, List.countP_map]
  apply List.countP_congr
  intro i hi
  simp only [List.mem_range] at hi
  simp [collect, checkAll, hi, Bool.and_comm]

/-- **C72, `select`.**  The result of `select` on the first `n` descriptors: an error leaves the sets as they were, and `EBADF` is the error if a
descriptor of a set is bad.  Otherwise the sets hold exactly the descriptors that were in them and can be read, or written, and the result
counts the members. -/
theorem C72_select {E : Env} {s s' : St} {a : Act} {ret : Ret} {n : Nat} {r w x : Nat → Bool} (ho : Honest E)
    (h : Ends E s a s' ret) (hf : ret.fds = selectPfds n r w x) :
    let S := selectRet ret.res ret.out r w x
    (ret.res < 0 → S.res = ret.res ∧ S.r = r ∧ S.w = w ∧ S.x = x) ∧
    (0 ≤ ret.res → (∃ i < n, (r i || w i || x i) = true ∧ Bad E s i) → S.res = -9 ∧ S.r = r ∧ S.w = w ∧ S.x = x) ∧
    (0 ≤ ret.res → (∀ i < n, (r i || w i || x i) = true → ¬ Bad E s i) →
      (∀ i, S.r i = true ↔ i < n ∧ r i = true ∧ CanRead E s i (selectPfd r w x i).events) ∧
      (∀ i, S.w i = true ↔ i < n ∧ w i = true ∧ CanWrite E s i (selectPfd r w x i).events) ∧
      (∀ i, S.x i = false) ∧
      S.res = (List.range n).countP S.r + (List.range n).countP S.w) := by
  intro S
  have hout := ends_out h
  rw [hf] at hout
  have hans := fun i => check_answer E s (selectPfd r w x i)
  have hget : ∀ i, i < n → (checkAll E s (selectPfds n r w x))[i]? = some (check E s (selectPfd r w x i)) := by
    intro i hi; simp [checkAll, selectPfds, hi]
  have hget' : ∀ i, ¬ i < n → (checkAll E s (selectPfds n r w x))[i]? = none := by
    intro i hi; simp [checkAll, selectPfds]; omega
  have hfd : ∀ i, (check E s (selectPfd r w x i)).fd = (selectPfd r w x i).fd := fun i => rfl
  have hcollect : ∀ ev i, collect (checkAll E s (selectPfds n r w x)) ev i = true ↔
      i < n ∧ (r i || w i || x i) = true ∧ has (check E s (selectPfd r w x i)).revents ev = true := by
    intro ev i
    unfold collect
    by_cases hi : i < n
    · rw [hget i hi]
      simp only [Bool.and_eq_true, Bool.not_eq_true', decide_eq_false_iff_not, hfd, sel_fd]
      simp only [hi, true_and, Bool.not_eq_false]
    · rw [hget' i hi]; simp [hi]
  have hbad : (0 < (List.range n).countP (collect (checkAll E s (selectPfds n r w x)) POLLNVAL)) ↔
      ∃ i < n, (r i || w i || x i) = true ∧ Bad E s i := by
    rw [List.countP_pos_iff]
    constructor
    · rintro ⟨i, _, hc⟩
      obtain ⟨h1, h2, h3⟩ := (hcollect _ _).1 hc
      rw [has_nval] at h3
      exact ⟨i, h1, h2, ((hans i).bad_iff (sel_nat _ _ _ _ h2) ho).1 h3⟩
    · rintro ⟨i, hi, ha, hb⟩
      refine ⟨i, List.mem_range.2 hi, (hcollect _ _).2 ⟨hi, ha, ?_⟩⟩
      rw [has_nval]
      exact ((hans i).bad_iff (sel_nat _ _ _ _ ha) ho).2 hb
  refine ⟨fun hneg => ?_, fun hpos hb => ?_, fun hpos hb => ?_⟩
  · simp only [S, selectRet, hneg, if_true, and_self]
  · have := hbad.2 hb
    rw [← countP_asked] at this
    simp only [S, selectRet, hout, show ¬ ret.res < 0 by omega, if_false, if_pos this]
    exact ⟨rfl, trivial, trivial, trivial⟩
  · have hnb : ¬ (0 < (List.range n).countP (collect (checkAll E s (selectPfds n r w x)) POLLNVAL)) := by
      rw [hbad]; rintro ⟨i, hi, ha, hx⟩; exact hb i hi ha hx
    rw [← countP_asked] at hnb
    simp only [S, selectRet, hout, show ¬ ret.res < 0 by omega, if_false, if_neg hnb]
    refine ⟨fun i => ?_, fun i => ?_, fun _ => trivial, ?_⟩
    · rw [hcollect, has_in]
      constructor
      · rintro ⟨h1, h2, h3⟩
        have := ((hans i).in_iff (sel_nat _ _ _ _ h2) ho).1 h3
        rw [sel_in] at this
        exact ⟨h1, this⟩
      · rintro ⟨h1, h2, h3⟩
        have h4 : (r i || w i || x i) = true := by simp [h2]
        exact ⟨h1, h4, ((hans i).in_iff (sel_nat _ _ _ _ h4) ho).2 ⟨by rw [sel_in]; exact h2, h3⟩⟩
    · rw [hcollect, has_out]
      constructor
      · rintro ⟨h1, h2, h3⟩
        have := ((hans i).out_iff (sel_nat _ _ _ _ h2) ho).1 h3
        rw [sel_out] at this
        exact ⟨h1, this⟩
      · rintro ⟨h1, h2, h3⟩
        have h4 : (r i || w i || x i) = true := by simp [h2]
        exact ⟨h1, h4, ((hans i).out_iff (sel_nat _ _ _ _ h4) ho).2 ⟨by rw [sel_out]; exact h2, h3⟩⟩
    · rw [countP_asked, countP_asked]; simp

/-- **C72, the arguments.**  `select` looks at the descriptors below `nfds` and 1024, `ppoll` and `select` refuse a negative timeout, and the
microseconds of `select` are counted as such. -/
theorem C72_args (nfds : Int) :
    (∀ i : Nat, i < nfdsMax nfds ↔ (i : Int) < nfds ∧ i < 1024) ∧
    (∀ t, checkTimeout (some t) = true ↔ 0 ≤ t.sec ∧ 0 ≤ t.nsec) ∧ checkTimeout none = true ∧
    (∀ sec usec, (ofTimeval sec usec).ns = (sec * 1000000 + usec) * 1000) := by
  refine ⟨fun i => ?_, fun t => ?_, rfl, fun sec usec => ?_⟩
  · simp only [nfdsMax, FD_SETSIZE]; omega
  · simp [checkTimeout]
  · simp only [Ts.ns, ofTimeval]; omega

end Shadow.Poll
